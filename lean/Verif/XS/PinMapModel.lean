import Verif.Core.PlanesModel

/-!
# Regions of the homogenised cross-section mesh

Model of the mapping of regions to cells in the constructors of `XSMeshHomogenized` and of the walk of `update` over the regions of a sweeper,
src/core/xs_mesh_homogenized.cpp.
-/

namespace Verif.XS.PinMap

open Verif.Core

variable {K : Type}

/-- Members of the mesh: cells of each region, their number, `state_`. -/
structure Mesh where
  regions : List (List Nat)
  nExpanded : Nat
  state : Nat

/-- xs_mesh_homogenized.cpp:57-60: the cells of one region; `loc` is the cell of the pin within a plane of `n` cells
(`coarse_cell` of its position with plane 0, C83 and C09). -/
def cells (n : Nat) (loc : Nat → Nat) (m : MacroPlane K) (j : Nat) : List Nat :=
  (List.range (m.izMax + 1 - m.izMin).toNat).map fun k : Nat => n * (m.izMin + k) + loc j

/-- xs_mesh_homogenized.cpp:50-71: the loops over macroplanes and pins.  Each macroplane has `n` pins. -/
def addPlane (n : Nat) (loc : Nat → Nat) (s : Mesh) (m : MacroPlane K) : Mesh :=
  (List.range n).foldl (fun s j =>
    let ireg := cells n loc m j
    { s with regions := s.regions ++ [ireg], nExpanded := s.nExpanded + ireg.length }) s

/-- The constructor; `state_` starts at zero (xs_mesh.cpp:27). -/
def construct (n : Nat) (loc : Nat → Nat) (planes : List (MacroPlane K)) : Mesh :=
  planes.foldl (addPlane n loc) { regions := [], nExpanded := 0, state := 0 }

/-- xs_mesh_homogenized.cpp:138-168: the copy whose regions are the cells of a mesh with one plane for each macroplane.  `iz` is the number of the
macroplane, `ixsreg` that of the region. -/
def condense (n : Nat) (loc : Nat → Nat) (planes : List (MacroPlane K)) (s : Mesh) : Mesh :=
  let r := planes.foldl (fun (acc : List (List Nat) × Nat × Nat) _ =>
    let a := (List.range n).foldl (fun (a : List (List Nat) × Nat) j => (a.1.set a.2 [n * acc.2.2 + loc j], a.2 + 1)) (acc.1, acc.2.1)
    (a.1, a.2, acc.2.2 + 1)) (s.regions, 0, 0)
  { s with regions := r.1, nExpanded := r.1.length }

/-- xs_mesh_homogenized.cpp:173-195: the calls of `homogenize_region_flux`, as pairs of the number of the region and the first region of its pin in
the flux.  `pins` are the numbers of regions of the pins, macroplane by macroplane. -/
def walk (pins : List (List Nat)) : List (Nat × Nat) :=
  (pins.foldl (fun (acc : List (Nat × Nat) × Nat × Nat) row =>
    row.foldl (fun acc nreg => (acc.1 ++ [(acc.2.1, acc.2.2)], acc.2.1 + 1, acc.2.2 + nreg)) acc) ([], 0, 0)).1

/-- `update`: the regions that are computed again, and the state; nothing without a flux. -/
def update (flux : Bool) (pins : List (List Nat)) (s : Mesh) : List (Nat × Nat) × Mesh :=
  if flux then (walk pins, { s with state := s.state + 1 }) else ([], s)

end Verif.XS.PinMap
