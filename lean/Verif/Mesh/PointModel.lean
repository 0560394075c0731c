import Verif.Mesh.TraceModel
import Verif.Util.LowerBound

/-!
# Points, cells and surfaces of the coarse mesh (src/core/mesh.cpp)

`Mesh::coarse_surf_point` and `Mesh::coarse_cell_point`.  `none` is undefined behaviour: an access outside of the table of surfaces, or the failure of
an assertion, after which the code goes on with invalid enumerators where assertions are off.
-/

namespace Verif.Mesh

open Verif.Geom

variable {K : Type} [Field K] [LinearOrder K]

/-- mesh.hpp:482-487 `coarse_surf` for a cell that may be `-1`: the index is then negative and the access out of bounds. -/
def surfOf (d : Dims) (cell : Int) (s : Surface) : Option Nat := if cell < 0 then none else coarseSurf d cell.toNat s

/-- The two indices `s[0]` and `s[1]`, assigned one after the other. -/
def both (a b : Option Nat) : Option (List Nat) := a.bind fun x => b.map fun y => [x, y]

/-- mesh.cpp:212-216: the face of the cell normal to X at line `ix`; `none` if the cell does not touch the line (the assertion of line 224). -/
def cornerX (ix : Int) (x : Nat) : Option Surface := if ix = x then some .WEST else if ix = x + 1 then some .EAST else none

/-- mesh.cpp:217-221: the same for Y. -/
def cornerY (iy : Int) (y : Nat) : Option Surface := if iy = y then some .SOUTH else if iy = y + 1 then some .NORTH else none

/-- mesh.cpp:226-311: the surfaces at a corner of the cell, on the line `ix` and `iy`.  The combination of `cx` and `cy` is `corner`; where it is not
one of the cases of the switch, an assertion fails. -/
def cornerSurfs (d : Dims) (ix iy : Int) (cell : Nat) (cx cy : Surface) : Option (List Nat) :=
  if ix = 0 then
    let neighbor := coarseNeighbor d cell cy
    if cx = .WEST ∧ cy = .SOUTH then both (surfOf d neighbor cx) (surfOf d cell cy)
    else if cx = .WEST ∧ cy = .NORTH then (surfOf d cell cx).map fun s => [s]
    else none
  else if ix = d.nx then
    let neighbor := coarseNeighbor d cell cy
    if cx = .EAST ∧ cy = .SOUTH then both (surfOf d neighbor cx) (surfOf d cell cy)
    else if cx = .EAST ∧ cy = .NORTH then (surfOf d cell cx).map fun s => [s]
    else none
  else if iy = 0 then
    let neighbor := coarseNeighbor d cell cx
    if cx = .WEST ∧ cy = .SOUTH then both (surfOf d neighbor cy) (surfOf d cell cx)
    else if cx = .EAST ∧ cy = .SOUTH then (surfOf d cell cy).map fun s => [s]
    else none
  else if iy = d.ny then
    let neighbor := coarseNeighbor d cell .EAST
    if cx = .EAST ∧ cy = .NORTH then both (surfOf d neighbor .NORTH) (surfOf d cell .EAST)
    else if cx = .WEST ∧ cy = .NORTH then (surfOf d cell .NORTH).map fun s => [s]
    else none
  else
    let neigh := coarseNeighbor d cell cx
    both (surfOf d cell cx) (surfOf d neigh cy)

/-- mesh.cpp:138-313 `coarse_surf_point`: the indices assigned to `s`; their number is the return value.  Points outside of the mesh in one coordinate
and on a line in the other have indices that may be negative; these are cut off at zero. -/
def surfPoint (near : K → K → Bool) (d : Dims) (xs ys : List K) (p : Pt K) (cell : Nat) : Option (List Nat) :=
  let fx := findLine near p.x xs 0
  let fy := findLine near p.y ys 0
  match fx.1, fy.1 with
  | true, false => some [((d.nx : Int) * d.ny + (d.nx + 1) * fy.2 + fx.2).toNat]
  | false, true => some [((d.nx : Int) * d.ny + (d.nx + 1) * d.ny + (d.ny + 1) * fx.2 + fy.2).toNat]
  | true, true =>
    let pos := coarsePosition d cell
    (cornerX fx.2 pos.x).bind fun cx => (cornerY fy.2 pos.y).bind fun cy => cornerSurfs d fx.2 fy.2 cell cx cy
  | false, false => some []

/-- mesh.cpp:357-362, 375-384: the index in one coordinate. -/
def lineBelow (xs : List K) (x : K) : Int := (Util.lowerBound (fun i => xs.getD i 0) xs.length x : Int) - 1

/-- mesh.cpp:373-387 `coarse_cell_point(Point3)`, with mesh.hpp:437-440 on signed numbers. -/
def cellPoint (d : Dims) (xs ys zs : List K) (x y z : K) : Int :=
  lineBelow zs z * d.nx * d.ny + lineBelow ys y * d.nx + lineBelow xs x

/-- mesh.cpp:355-365 `coarse_cell_point(Point2)`. -/
def cellPoint2 (d : Dims) (xs ys : List K) (x y : K) : Int := lineBelow ys y * d.nx + lineBelow xs x

end Verif.Mesh
