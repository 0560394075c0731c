import Mathlib.Algebra.Order.Field.Basic
import Mathlib.Algebra.Order.Group.Abs

/-!
# Model of the angular quadrature (src/core/angular_quadrature.{hpp,cpp}, src/core/geometry/{angle,direction}.hpp)

Only the direction cosines and the weight of an angle are modelled; `alpha`, `theta` and `rsintheta` are
functions of the cosines in the code and are left out.  Arithmetic is exact over an ordered field `K`.
-/

namespace Verif.Quad

/-- core/constants.hpp `Normal`. -/
inductive Normal
  | X | Y | Z
  deriving DecidableEq, Repr

/-- `(int)norm`. -/
def Normal.toNat : Normal → Nat
  | X => 0 | Y => 1 | Z => 2

/-- core/geometry/angle.hpp:58-60 and direction.hpp:27-34 (cosines and weight). -/
structure Angle (K : Type) where
  ox : K
  oy : K
  oz : K
  weight : K
  deriving DecidableEq, Repr

variable {K : Type} [Field K] [LinearOrder K]

/-- direction.hpp:165-188 `Direction::to_octant` and angle.cpp `Angle::to_octant`; octants count from one.
Outside 1..8 (excluded by the assertion) the code returns a meaningless direction. -/
def Angle.toOctant (a : Angle K) : Nat → Angle K
  | 1 => ⟨|a.ox|, |a.oy|, |a.oz|, a.weight⟩
  | 2 => ⟨-|a.ox|, |a.oy|, |a.oz|, a.weight⟩
  | 3 => ⟨-|a.ox|, -|a.oy|, |a.oz|, a.weight⟩
  | 4 => ⟨|a.ox|, -|a.oy|, |a.oz|, a.weight⟩
  | 5 => ⟨|a.ox|, |a.oy|, -|a.oz|, a.weight⟩
  | 6 => ⟨-|a.ox|, |a.oy|, -|a.oz|, a.weight⟩
  | 7 => ⟨-|a.ox|, -|a.oy|, -|a.oz|, a.weight⟩
  | 8 => ⟨|a.ox|, -|a.oy|, -|a.oz|, a.weight⟩
  | _ => ⟨0, 0, 0, a.weight⟩

/-- angular_quadrature.cpp:101-110: the first-octant angles followed by their images in octants 2..8. -/
def expand (first : List (Angle K)) : List (Angle K) :=
  [2, 3, 4, 5, 6, 7, 8].foldl (fun angles ioct => angles ++ first.map (fun a => a.toOctant ioct)) first

/-- angular_quadrature.cpp:192-199 `modify_angle` on the list of all angles; `none` if the assertion on the index
fails. -/
def modifyAngle (ndirOct : Nat) (angles : List (Angle K)) (iang : Nat) (ang : Angle K) : Option (List (Angle K)) :=
  if iang < ndirOct then
    some ([1, 2, 3, 4, 5, 6, 7].foldl (fun l ioct => l.set (iang + ioct * ndirOct) (ang.toOctant (ioct + 1)))
      (angles.set iang ang))
  else none

/-- angular_quadrature.cpp:43-45. -/
def reflectionTable : Normal → List Int
  | .X => [1, 0, 3, 2, 5, 4, 7, 6]
  | .Y => [3, 2, 1, 0, 7, 6, 5, 4]
  | .Z => [4, 5, 6, 7, 0, 1, 2, 3]

/-- angular_quadrature.hpp:130-136 `reflect(iang, Normal)`.  `none`: the table is read out of bounds.  The
`unsigned`/`int` arithmetic of the return value is exact for indices below 2^31, which is assumed. -/
def reflect (ndirOct iang : Nat) (n : Normal) : Option Nat :=
  let ioct := iang / ndirOct
  match (reflectionTable n)[ioct]? with
  | none => none
  | some newOct => some ((iang : Int) + (newOct - ioct) * ndirOct).toNat

/-- core/constants.hpp `Surface` (the six outer surfaces). -/
inductive Surface
  | EAST | NORTH | WEST | SOUTH | TOP | BOTTOM
  deriving DecidableEq, Repr

/-- angular_quadrature.hpp:141-150 `reflect(iang, Surface)`. -/
def reflectSurface (ndirOct iang : Nat) (s : Surface) : Option Nat :=
  if s = .NORTH ∨ s = .SOUTH then reflect ndirOct iang .Y
  else if s = .EAST ∨ s = .WEST then reflect ndirOct iang .X
  else reflect ndirOct iang .Z

/-- angular_quadrature.hpp:158-167 `reverse`. -/
def reverse (ndirOct iang dim : Nat) : Nat :=
  if dim = 2 then (iang + ndirOct * 2) % (ndirOct * 4) else (iang + ndirOct * 6) % (ndirOct * 8)

/-- direction.hpp:96-109 `upwind_surface`. -/
def upwindSurface (a : Angle K) : Normal → Surface
  | .X => if 0 < a.ox then .WEST else .EAST
  | .Y => if 0 < a.oy then .SOUTH else .NORTH
  | .Z => if 0 < a.oz then .BOTTOM else .TOP

end Verif.Quad
