import Verif.Mesh.Model

/-!
# Specification vocabulary for the coarse mesh: physical faces of a box grid
-/

namespace Verif.Mesh.Spec

/-- Axis of a face. -/
inductive Axis
  | x | y | z
  deriving DecidableEq, Repr

/-- A face of the grid: the face normal to `axis` at position `(i,j,k)`, where the coordinate along `axis`
counts grid planes (`0..n`) and the two others count cells. -/
structure Face where
  axis : Axis
  i : Nat
  j : Nat
  k : Nat
  deriving DecidableEq, Repr

/-- The faces that exist in an `nx × ny × nz` grid. -/
def Face.Valid (nx ny nz : Nat) (f : Face) : Prop :=
  match f.axis with
  | .x => f.i ≤ nx ∧ f.j < ny ∧ f.k < nz
  | .y => f.i < nx ∧ f.j ≤ ny ∧ f.k < nz
  | .z => f.i < nx ∧ f.j < ny ∧ f.k ≤ nz

/-- The face of cell `(i,j,k)` in a compass direction (`INTERNAL` is not a face). -/
def faceOf (i j k : Nat) : Surface → Option Face
  | .EAST => some ⟨.x, i + 1, j, k⟩
  | .WEST => some ⟨.x, i, j, k⟩
  | .NORTH => some ⟨.y, i, j + 1, k⟩
  | .SOUTH => some ⟨.y, i, j, k⟩
  | .TOP => some ⟨.z, i, j, k + 1⟩
  | .BOTTOM => some ⟨.z, i, j, k⟩
  | .INTERNAL => none

/-- The cell on the low side of a face, if inside the grid. -/
def below (f : Face) : Option (Nat × Nat × Nat) :=
  match f.axis with
  | .x => if f.i = 0 then none else some (f.i - 1, f.j, f.k)
  | .y => if f.j = 0 then none else some (f.i, f.j - 1, f.k)
  | .z => if f.k = 0 then none else some (f.i, f.j, f.k - 1)

/-- The cell on the high side of a face, if inside the grid. -/
def above (nx ny nz : Nat) (f : Face) : Option (Nat × Nat × Nat) :=
  match f.axis with
  | .x => if f.i = nx then none else some (f.i, f.j, f.k)
  | .y => if f.j = ny then none else some (f.i, f.j, f.k)
  | .z => if f.k = nz then none else some (f.i, f.j, f.k)

/-- Cell adjacent to `(i,j,k)` in a direction, if inside the grid. -/
def adjacent (nx ny nz i j k : Nat) : Surface → Option (Nat × Nat × Nat)
  | .EAST => if i + 1 < nx then some (i + 1, j, k) else none
  | .WEST => if 0 < i then some (i - 1, j, k) else none
  | .NORTH => if j + 1 < ny then some (i, j + 1, k) else none
  | .SOUTH => if 0 < j then some (i, j - 1, k) else none
  | .TOP => if k + 1 < nz then some (i, j, k + 1) else none
  | .BOTTOM => if 0 < k then some (i, j, k - 1) else none
  | .INTERNAL => none

/-- Opposite direction. -/
def opposite : Surface → Surface
  | .EAST => .WEST | .WEST => .EAST | .NORTH => .SOUTH | .SOUTH => .NORTH
  | .TOP => .BOTTOM | .BOTTOM => .TOP | .INTERNAL => .INTERNAL

/-- Axis of a face as the enumeration of the code. -/
def Axis.normal : Axis → Normal
  | .x => .X | .y => .Y | .z => .Z

end Verif.Mesh.Spec
