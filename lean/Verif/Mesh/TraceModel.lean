import Verif.PinMesh.TraceModel
import Verif.Mesh.Model

/-!
# Model of tracing a ray through the coarse mesh

`Mesh::trace`, `coarse_norm_point` and `coarse_boundary_cell` of `src/core/mesh.cpp`.  `xs` and `ys` are `x_vec_` and `y_vec_`.
-/

namespace Verif.Mesh

open Verif.Geom

variable {K : Type} [Field K] [LinearOrder K]

/-- mesh.cpp:45-53, core_mesh.cpp:124-129 `lines_`: the interior grid lines, those of constant x first.  Their length is `hx_`, also
for the lines of constant x. -/
def gridLines (xs ys : List K) : List (Line K) :=
  xs.tail.dropLast.map (fun x => ⟨⟨x, 0⟩, ⟨x, xs.getLastD 0⟩⟩) ++ ys.tail.dropLast.map (fun y => ⟨⟨0, y⟩, ⟨xs.getLastD 0, y⟩⟩)

/-- mesh.cpp:321-347 `trace`: the points left in the vector that came with the two ends. -/
def traceMesh (xs ys : List K) (sort : List (Pt K) → List (Pt K)) (eq : Pt K → Pt K → Bool) (p1 p2 : Pt K) : List (Pt K) :=
  PinMesh.unique eq (sort (p1 :: p2 :: (gridLines xs ys).filterMap fun li => meet li ⟨p1, p2⟩))

/-- mesh.cpp:143-167, 396-420, 580-604: the loop over the grid lines.  The flag tells whether the coordinate is on a line; the number is
that of the line, or of the line below; `near` is `fp_equiv`. -/
def findLine (near : K → K → Bool) (p : K) : List K → (i : Int) → Bool × Int
  | [], i => (false, i)
  | x :: rest, i => if near p x then (true, i) else if p < x then (false, i - 1) else findLine near p rest (i + 1)

/-- Octants 1 to 4: towards the north-east, north-west, south-west, south-east. -/
inductive Oct
  | one | two | three | four
deriving DecidableEq, Repr

/-- mesh.cpp:422-571: the surfaces for a point found at `(onX, ix)`, `(onY, iy)`. -/
def normAt (nx ny : Int) (onX : Bool) (ix : Int) (onY : Bool) (iy : Int) (o : Oct) : List Surface :=
  if onX = false ∧ onY = false then []
  else if onX ≠ onY then
    if onX = true ∧ ix = 0 ∧ (o = .one ∨ o = .four) then [.WEST]
    else if onX = true ∧ ix = nx ∧ (o = .two ∨ o = .three) then [.EAST]
    else if onY = true ∧ iy = 0 ∧ (o = .one ∨ o = .two) then [.SOUTH]
    else if onY = true ∧ iy = ny ∧ (o = .three ∨ o = .four) then [.NORTH]
    else if onX = true then
      match o with
      | .one | .four => [.EAST]
      | .two | .three => [.WEST]
    else
      match o with
      | .one | .two => [.NORTH]
      | .three | .four => [.SOUTH]
  else if 0 < ix ∧ ix < nx ∧ 0 < iy ∧ iy < ny then
    match o with
    | .one => [.EAST, .NORTH]
    | .two => [.WEST, .NORTH]
    | .three => [.WEST, .SOUTH]
    | .four => [.EAST, .SOUTH]
  else if ix = 0 then
    match o with
    | .one => [.WEST]
    | .two => [.NORTH, .WEST]
    | .three => [.SOUTH, .WEST]
    | .four => [.WEST]
  else if ix = nx then
    match o with
    | .one => [.NORTH, .EAST]
    | .two => [.EAST]
    | .three => [.EAST]
    | .four => [.SOUTH, .EAST]
  else if iy = 0 then
    match o with
    | .one => [.SOUTH]
    | .two => [.SOUTH]
    | .three => [.WEST, .SOUTH]
    | .four => [.EAST, .SOUTH]
  else if iy = ny then
    match o with
    | .one => [.EAST, .NORTH]
    | .two => [.WEST, .NORTH]
    | .three => [.NORTH]
    | .four => [.NORTH]
  else []

/-- mesh.cpp:389-572 `coarse_norm_point`: the surfaces assigned; their number is the return value. -/
def normPoint (near : K → K → Bool) (d : Dims) (xs ys : List K) (p : Pt K) (o : Oct) : List Surface :=
  let fx := findLine near p.x xs 0
  let fy := findLine near p.y ys 0
  normAt d.nx d.ny fx.1 fx.2 fy.1 fy.2 o

/-- mesh.cpp:609-658: the indices after the adjustment for the side of the mesh; assertions are not modelled. -/
def adjust (near nearAbs : K → K → Bool) (hx hy : K) (p : Pt K) (onX : Bool) (ix : Int) (onY : Bool) (iy : Int) (o : Oct) : Int × Int :=
  if nearAbs p.x 0 then (ix, if o = .one then iy else if onY then iy - 1 else iy)
  else if near p.x hx then (ix - 1, if o = .two then iy else if onY then iy - 1 else iy)
  else if nearAbs p.y 0 then (if o = .one then ix else if onX then ix - 1 else ix, iy)
  else if near p.y hy then (if o = .three then (if onX then ix - 1 else ix) else ix, iy - 1)
  else (ix, iy)

/-- mesh.cpp:574-671 `coarse_boundary_cell`; `none` is the exception.  `nearAbs` is `fp_equiv_abs`. -/
def boundaryCell (near nearAbs : K → K → Bool) (d : Dims) (xs ys : List K) (p : Pt K) (o : Oct) : Option Nat :=
  let fx := findLine near p.x xs 0
  let fy := findLine near p.y ys 0
  let q := adjust near nearAbs (xs.getLastD 0) (ys.getLastD 0) p fx.1 fx.2 fy.1 fy.2 o
  let cell := q.2 * d.nx + q.1
  if cell < 0 ∨ (nPin d : Int) ≤ cell then none else some cell.toNat

end Verif.Mesh
