import Verif.Util.LowerBound
import Mathlib.Algebra.Field.Defs

/-!
# Assemblies, planes and macroplanes

src/core/assembly.cpp 79-110 (order of the lattices), src/core/core_mesh.cpp 132-139, 164-198 (macroplanes),
src/sweepers/moc/moc_sweeper.cpp 124-173 and src/sweepers/moc/moc_sweeper.hpp 186-194 (the numbering of the MoC planes).

`real_t` is a field. Reading a vector outside its range is undefined behaviour in the code and `none` here.
-/

namespace Verif.Core

variable {K : Type} [Field K]

/-- The lattices of one assembly, assembly.cpp:87-104. `blocks` is what `explode_braces` returned, in the order of the
input (top of the core first); the list of blocks and every block are reversed, `subplane_` gets the sizes and
`lattices_` the identifiers. (The look-up of the identifier is `lattices.at`, not modelled.) -/
def storeBlocks (blocks : List (List Int)) : List Nat × List Int :=
  let r := blocks.reverse.map List.reverse
  (r.map List.length, r.flatten)

/-- Plane heights of one assembly in list form, assembly.cpp:63-77: read top down, stored bottom up; the number must be
the number of planes. -/
def storeHeights (nz : Nat) (read : List K) : Option (List K) :=
  if read.length ≠ nz then none else some read.reverse

/-- core_mesh.cpp:134-139: `z_vec_`, the accumulated heights starting with zero, and `hz_`, the last of them. -/
def zLoop : List K → K → List K → List K × K
  | [], hz, out => (out, hz)
  | d :: ds, hz, out => zLoop ds (hz + d) (out ++ [hz + d])

def zVec (dz : List K) : List K × K := zLoop dz 0 [0]

/-- The inner loop of core_mesh.cpp:169-172: add the heights of `np` planes from `iz` on to `h`. -/
def addHeights (dz : List K) : Nat → Nat → K → Option K
  | 0, _, h => some h
  | np + 1, iz, h =>
    match dz[iz]? with
    | some d => addHeights dz np (iz + 1) (h + d)
    | none => none

/-- core_mesh.cpp:165-174: `macroplane_heights_`, from plane `iz` on. -/
def heights (dz : List K) : List Nat → Nat → Option (List K)
  | [], _ => some []
  | np :: rest, iz =>
    match addHeights dz np iz 0 with
    | none => none
    | some h =>
      match heights dz rest (iz + np) with
      | none => none
      | some hs => some (h :: hs)

/-- The members of a macroplane, src/core/plane.hpp MacroPlane: the unique plane, first and last plane (`int`, so the
last one may be `-1`), height, and the index of its first pin. -/
structure MacroPlane (K : Type) where
  plane : Nat
  izMin : Nat
  izMax : Int
  height : K
  firstPin : Nat

/-- core_mesh.cpp:177-188: build the macroplanes from plane `iz` on; `hs` are the remaining macroplane heights,
`uniq` is `unique_plane_ids_`. -/
def macroplanes (nxy : Nat) (uniq : List Nat) : List Nat → List K → Nat → Option (List (MacroPlane K))
  | [], _, _ => some []
  | np :: rest, hs, iz =>
    match uniq[iz]?, hs with
    | some u, h :: hs' =>
      match macroplanes nxy uniq rest hs' (iz + np) with
      | none => none
      | some ms => some ({ plane := u, izMin := iz, izMax := (iz : Int) + np - 1, height := h, firstPin := iz * nxy } :: ms)
    | _, _ => none

/-- core_mesh.cpp:194-196: `count` writes of `ip` from `iz` on. -/
def fillOne (ip : Nat) : Nat → Nat → List Nat → Option (List Nat)
  | 0, _, a => some a
  | count + 1, iz, a => if iz < a.length then fillOne ip count (iz + 1) (a.set iz ip) else none

/-- core_mesh.cpp:191-198: `macroplane_index_`; `ip` is the number of the first macroplane of the list. The vector has
`nz` elements whose initial value (0, mesh.cpp:38) is overwritten. -/
def fillIndex : List (MacroPlane K) → Nat → List Nat → Option (List Nat)
  | [], _, a => some a
  | m :: ms, ip, a =>
    match fillOne ip (m.izMax - m.izMin + 1).toNat m.izMin a with
    | none => none
    | some a' => fillIndex ms (ip + 1) a'

/-- Everything the constructor of the core mesh stores about macroplanes. -/
structure Axial (K : Type) where
  heights : List K
  planes : List (MacroPlane K)
  index : List Nat

/-- core_mesh.cpp:164-198. -/
def buildAxial (nxy : Nat) (uniq : List Nat) (dz : List K) (sub : List Nat) : Option (Axial K) :=
  match heights dz sub 0 with
  | none => none
  | some hs =>
    match macroplanes nxy uniq sub hs 0 with
    | none => none
    | some ms =>
      match fillIndex ms 0 (List.replicate dz.length 0) with
      | none => none
      | some idx => some { heights := hs, planes := ms, index := idx }

/-- moc_sweeper.cpp:147-152: `subplane_bounds_`, the accumulated sizes. -/
def subplaneBounds : List Nat → Nat → List Nat
  | [], _ => []
  | np :: rest, prev => (prev + np) :: subplaneBounds rest (prev + np)

/-- moc_sweeper.hpp:189-194: `std::upper_bound` over the bounds. -/
def mocPlaneIndex (sub : List Nat) (iz : Nat) : Nat :=
  let b := subplaneBounds sub 0
  Util.upperBound (fun i => b.getD i 0) b.length iz

/-- The inner loop of moc_sweeper.cpp:132-138 over one macroplane of an assembly: every further lattice must have the
identifier of the first. `none` is an access outside the assembly, `some false` the exception. -/
def sameFrom (lats : List Int) (id : Int) (ip : Nat) : Nat → Nat → Option Bool
  | 0, _ => some true
  | count + 1, k =>
    match lats[ip + k]? with
    | none => none
    | some l => if l ≠ id then some false else sameFrom lats id ip count (k + 1)

/-- moc_sweeper.cpp:128-141 for one assembly with lattice identifiers `lats` (bottom up). -/
def sameLattices (lats : List Int) : List Nat → Nat → Option Bool
  | [], _ => some true
  | np :: rest, ip =>
    match lats[ip]? with
    | none => none
    | some id =>
      match sameFrom lats id ip (np - 1) 1 with
      | some true => sameLattices lats rest (ip + np)
      | o => o

end Verif.Core
