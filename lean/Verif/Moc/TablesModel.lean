import Verif.BC.Model

/-!
# Tables of the macroplanes and sizes of the boundary conditions

Model of the tables that the constructors of `MoCSweeper` (src/sweepers/moc/moc_sweeper.cpp:38-52, 155-173) and of `CurrentCorrections`
(src/sweepers/cmdo/correction_worker.hpp:64-77, 99-107) make.  Reading or writing a vector out of bounds is `none`.
-/

namespace Verif.Moc.Tables

open Verif.BC Verif.Quad

/-- moc_sweeper.cpp:161-167: `macroplane_unique_ids_` for the remaining sizes of macroplanes, from plane `iz` on; `uniq` is `unique_plane_ids()`. -/
def macroIds (uniq : List Nat) : List Nat → Nat → Option (List Nat)
  | [], _ => some []
  | np :: rest, iz => do
    let u ← uniq[iz]?
    let r ← macroIds uniq rest (iz + np)
    return u :: r

/-- moc_sweeper.cpp:164-165: `nreg_plane_`; `regs` are the numbers of regions of the unique planes. -/
def nregPlane (regs ids : List Nat) : Option (List Nat) := ids.mapM fun u => regs[u]?

/-- moc_sweeper.cpp:159, 169-173: `first_reg_macroplane_`, sums of the numbers of regions `ns` without the last.  The numbers are looked up again in the code. -/
def firstRegs (ns : List Nat) : List Nat := (ns.foldl (fun v n => v ++ [v.getLastD 0 + n]) [0]).dropLast

/-- correction_worker.hpp:72-76: one plane with macroplane `index`; the state is `mplane_offset_`, `mplane` and `offset`. -/
def offsetStep (cells : Nat) (st : List Nat × Nat × Nat) (index : Nat) : List Nat × Nat × Nat :=
  if index ≠ st.2.1 then (st.1 ++ [st.2.2], index, st.2.2 + cells) else (st.1, st.2.1, st.2.2 + cells)

/-- correction_worker.hpp:67-77: `mplane_offset_`; `cells` is `nx * ny`. -/
def mplaneOffsets (cells : Nat) (index : List Nat) : List Nat := (index.foldl (offsetStep cells) ([0], 0, 0)).1

/-- moc_sweeper.cpp:41-48: one angle with rays. -/
def bcStep (ndirOct : Nat) (nx ny : List Nat) (dims : List Size3) (iang : Nat) : Option (List Size3) := do
  let a ← ny[iang]?
  let b ← nx[iang]?
  let j := reverse ndirOct iang 2
  if iang < dims.length ∧ j < dims.length then some ((dims.set iang ⟨a, b, 0⟩).set j ⟨a, b, 0⟩) else none

/-- moc_sweeper.cpp:38-52 `bc_size_helper`; `nang` is the number of angles with rays, `nx` and `ny` are the tables of the ray data. -/
def bcDims (ndirOct nang : Nat) (nx ny : List Nat) : Option (List Size3) :=
  (List.range nang).foldlM (bcStep ndirOct nx ny) (List.replicate (ndirOct * 4) ⟨0, 0, 0⟩)

end Verif.Moc.Tables
