import Verif.PinMesh.TraceModel

/-!
# Model of the distance from a point of a pin to the next surface

`src/core/pin_mesh_rect.cpp` and `src/core/pin_mesh_cyl.cpp` (`distance_to_surface`).  Each surface comes with its number (`surf_id`,
geom_surface.hpp:26, counted over all surfaces of the program).
-/

namespace Verif.PinMesh

open Verif.Geom

variable {K : Type} [Field K] [LinearOrder K]

/-- pin_mesh_rect.cpp:93-99, pin_mesh_cyl.cpp:330-344: the loop over surfaces, given their numbers and `distance_to_surface` with the flag
whether the point is coincident; smallest distance and number so far. -/
def nearest (co : Int) : List (Int × (Bool → Option K)) → Option K × Int → Option K × Int
  | [], best => best
  | (id, d) :: rest, best => nearest co rest (if closer (d (decide (co = id))) best.1 then (d (decide (co = id)), id) else best)

/-- The surfaces of the rectangular mesh with their numbers. -/
def Rect.surfaces (m : Rect K) (fuzz : K) (ids : Nat → Int) (p : Pt K) (dir : Dir K) : List (Int × (Bool → Option K)) :=
  m.lines.zipIdx.map fun x => (ids x.2, lineDist fuzz x.1 p dir)

/-- pin_mesh_rect.cpp:78-104 `distance_to_surface`: the distance, whether the pin is left, and the new `coincident`. -/
def Rect.distance (m : Rect K) (fuzz : K) (ids : Nat → Int) (p : Pt K) (dir : Dir K) (co : Int) : Option K × Bool × Int :=
  if 1 / 2 * m.pitch < |p.x| ∨ 1 / 2 * m.pitch < |p.y| then (some 0, true, co)
  else
    let r := nearest co (m.surfaces fuzz ids p dir) (none, co)
    (r.1, false, r.2)

/-- The surfaces of the cylindrical mesh: rings (`ids`) and sector lines (`idl`). -/
def Cyl.surfaces (m : Cyl K) (sqrt : K → K) (fuzz : K) (lines : List (Line K)) (ids idl : Nat → Int) (p : Pt K) (dir : Dir K) :
    List (Int × (Bool → Option K)) :=
  (m.radii.zipIdx.map fun x => (ids x.2, circleDist sqrt fuzz ⟨⟨0, 0⟩, x.1⟩ p dir)) ++
  lines.zipIdx.map fun x => (idl x.2, lineDist fuzz x.1 p dir)

/-- pin_mesh_cyl.cpp:312-351 `distance_to_surface`, given the lines between the sectors. -/
def Cyl.distance (m : Cyl K) (sqrt : K → K) (fuzz : K) (lines : List (Line K)) (ids idl : Nat → Int) (p : Pt K) (dir : Dir K) (co : Int) :
    Option K × Bool × Int :=
  if 1 / 2 * m.pitch < |p.x| ∨ 1 / 2 * m.pitch < |p.y| then (some 0, true, co)
  else
    let r := nearest co (m.surfaces sqrt fuzz lines ids idl p dir) (none, co)
    (r.1, false, r.2)

end Verif.PinMesh
