import Verif.Mc.BankModel

/-!
# Resizing the fission bank with given draws (src/sweepers/mc/fission_bank.cpp:114-147)

The loops of `Verif.Mc.BankModel` with the results of `random_int` as arguments; an access outside the vector is `none`.
-/

namespace Verif.Mc

open Verif.Rng

/-- fission_bank.cpp:124-128: each draw appends a copy of the site with that number. -/
def growBy {α : Type} : List Nat → List α → Option (List α)
  | [], l => some l
  | d :: ds, l => match l[d]? with
    | none => none
    | some p => growBy ds (l ++ [p])

/-- fission_bank.cpp:138-142: each draw removes the site with that number, the last one takes its place. -/
def shrinkBy {α : Type} : List Nat → List α → Option (List α)
  | [], l => some l
  | d :: ds, l => match l.getLast? with
    | none => none
    | some b => if d < l.length then shrinkBy ds (l.set d b).dropLast else none

/-- The upper bounds handed to `random_int` when a bank of `N` sites is resized to `n` (fission_bank.cpp:126, 139). -/
def drawBounds (N n : Nat) : List Nat := if N < n then List.replicate (n - N) N else (List.range (N - n)).map fun k => N - k

/-- fission_bank.cpp:114-147. -/
def resizeBy {α : Type} (n : Nat) (ds : List Nat) (l : List α) : Option (List α) := if l.length < n then growBy ds l else shrinkBy ds l

/-- The draws of the generator from state `s` on. -/
def draws (s : U64) : List Nat → List Nat
  | [] => []
  | b :: bs => randomInt s b :: draws (step s) bs

end Verif.Mc
