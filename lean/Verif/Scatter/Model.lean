import Mathlib.Algebra.Order.Field.Basic

/-!
# Model of the scattering matrix (src/core/scattering_matrix.{hpp,cpp})

The dense input is a function `scat dst from` on the groups below `ng`.  The packed storage `scat_` is a list; a row
keeps its bounds and the position of its first value (the raw pointer of the code; `reserve` keeps it valid).
-/

namespace Verif.Scatter

variable {K : Type} [Field K] [LinearOrder K]

/-- scattering_matrix.hpp:26-34 `ScatteringRow`. -/
structure Row where
  minG : Nat
  maxG : Nat
  pos : Nat
  deriving DecidableEq, Repr

/-- scattering_matrix.hpp:265-272: the members. -/
structure Matrix (K : Type) where
  ng : Nat
  scat : List K
  out : Nat → K
  rows : List Row

/-- scattering_matrix.cpp:74-79 and 80-85: `bound = from; if (positive) break;` over a range of groups. -/
def scan (pos : Nat → Bool) : List Nat → Nat → Nat
  | [], cur => cur
  | f :: fs, _ => if pos f then f else scan pos fs f

/-- scattering_matrix.cpp:72-106: the bounds of row `dst`. -/
def bounds (ng : Nat) (scat : Nat → Nat → K) (dst : Nat) : Nat × Nat :=
  let pos := fun g => decide (0 < scat dst g)
  let first := scan pos (List.range ng) 0
  let second := scan pos (List.range ng).reverse 0
  let (first, second) := if first = ng - 1 ∧ second = 0 then (dst, dst) else (first, second)
  (if first > dst then dst else first, if second < dst then dst else second)

/-- The groups `lo..hi`. -/
def groups (lo hi : Nat) : List Nat := (List.range (hi + 1 - lo)).map (lo + ·)

/-- scattering_matrix.cpp:112-122: one row appended. -/
def addRow (ng : Nat) (scat : Nat → Nat → K) (m : Matrix K) (dst : Nat) : Matrix K :=
  let b := bounds ng scat dst
  let m' := (groups b.1 b.2).foldl (fun (m : Matrix K) g =>
    { m with scat := m.scat ++ [scat dst g], out := Function.update m.out g (m.out g + scat dst g) }) m
  { m' with rows := m'.rows ++ [⟨b.1, b.2, m.scat.length⟩] }

/-- scattering_matrix.cpp:57-123: the constructor from a dense matrix (`pos` is the number of values stored so
far). -/
def build (ng : Nat) (scat : Nat → Nat → K) : Matrix K :=
  (List.range ng).foldl (addRow ng scat) { ng := ng, scat := [], out := fun _ => 0, rows := [] }

/-- scattering_matrix.hpp:37-42 `to(ig)[g]`; `none` when an assertion fails. -/
def Matrix.get (m : Matrix K) (ig g : Nat) : Option K :=
  match m.rows[ig]? with
  | some r => if r.minG ≤ g ∧ g ≤ r.maxG then m.scat[r.pos + (g - r.minG)]? else none
  | none => none

/-- scattering_matrix.hpp:157-160 `self_scat`. -/
def Matrix.selfScat (m : Matrix K) (g : Nat) : Option K := m.get g g

/-- scattering_matrix.hpp:227-238 `as_vector`, as a function of the position. -/
def Matrix.asVector (m : Matrix K) : Nat → K :=
  (List.range m.rows.length).foldl (fun sc ig =>
    match m.rows[ig]? with
    | some r => (groups r.minG r.maxG).foldl (fun sc g => Function.update sc (m.ng * ig + g) ((m.get ig g).getD 0)) sc
    | none => sc) (fun _ => 0)

/-- scattering_matrix.hpp:195-198: the scattering cross section to group `igg` seen by `out_cdf`. -/
def Matrix.xssc (m : Matrix K) (ig igg : Nat) : K :=
  match m.rows[igg]? with
  | some r => if r.minG ≤ ig ∧ ig ≤ r.maxG then (m.get igg ig).getD 0 else 0
  | none => 0

/-- scattering_matrix.hpp:187-203 `out_cdf`. -/
def Matrix.outCdf (m : Matrix K) (ig : Nat) : List K :=
  ((List.range m.ng).foldl (fun (acc : List K × K) igg =>
    let v := acc.2 + m.xssc ig igg * (1 / m.out ig)
    (acc.1 ++ [v], v)) ([], 0)).1

/-- scattering_matrix.hpp:240-255 `operator==` of two distinct objects. -/
def Matrix.eqv (a b : Matrix K) : Bool :=
  decide (a.ng = b.ng) && decide (a.scat = b.scat) && decide ((List.range a.ng).map a.out = (List.range b.ng).map b.out)

/-- scattering_matrix.hpp:114-127: the copy constructor re-derives the row positions. -/
def Matrix.copy (m : Matrix K) : Matrix K :=
  { ng := m.ng, scat := m.scat, out := m.out,
    rows := (m.rows.foldl (fun (acc : List Row × Nat) r =>
      (acc.1 ++ [⟨r.minG, r.maxG, acc.2⟩], acc.2 + (r.maxG - r.minG + 1))) ([], 0)).1 }

end Verif.Scatter
