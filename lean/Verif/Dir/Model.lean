import Verif.Mesh.Model
import Mathlib.Algebra.Order.Field.Basic

/-!
# Model of `Direction`

`src/core/geometry/direction.hpp`.  The functions of the mathematical library are parameters.
-/

namespace Verif.Dir

open Verif.Mesh

variable {K : Type} [Field K] [LinearOrder K]

/-- The library functions and the constants `PI`, `TWOPI` (constants.hpp:22, 24). -/
structure Trig (K : Type) where
  sin : K → K
  cos : K → K
  acos : K → K
  pi : K
  twopi : K

/-- direction.hpp:28-40; `none` in one of the angles is a value that is infinite or not a number. -/
structure Direction (K : Type) where
  ox : K
  oy : K
  oz : K
  alpha : Option K
  theta : Option K
  rsintheta : Option K

/-- Division; `none` for a zero divisor. -/
def quot (a b : K) : Option K := if b = 0 then none else some (a / b)

/-- `std::acos`, defined on [-1, 1] only. -/
def acosOf (T : Trig K) (x : K) : Option K := if -1 ≤ x ∧ x ≤ 1 then some (T.acos x) else none

/-- direction.hpp:57-63: construction from the angles. -/
def ofAngles (T : Trig K) (alpha theta : K) : Direction K :=
  ⟨T.sin theta * T.cos alpha, T.sin theta * T.sin alpha, T.cos theta, some alpha, some theta, quot 1 (T.sin theta)⟩

/-- direction.hpp:68-80: construction from the cosines. -/
def ofCosines (T : Trig K) (ox oy oz : K) : Direction K :=
  let theta := acosOf T oz
  let alpha := theta.bind fun t => (quot ox (T.sin t)).bind fun c => (acosOf T c).map fun a => if oy < 0 then T.twopi - a else a
  ⟨ox, oy, oz, alpha, theta, theta.bind fun t => quot 1 (T.sin t)⟩

/-- direction.hpp:86-90 `modify_alpha`. -/
def modifyAlpha (T : Trig K) (d : Direction K) (alpha : K) : Option (Direction K) := d.theta.map fun t => ofAngles T alpha t

/-- direction.hpp:96-109 `upwind_surface`. -/
def upwindSurface (d : Direction K) : Normal → Surface
  | .X => if 0 < d.ox then .WEST else .EAST
  | .Y => if 0 < d.oy then .SOUTH else .NORTH
  | .Z => if 0 < d.oz then .BOTTOM else .TOP

/-- direction.hpp:114-125 `reflect`. -/
def reflect (T : Trig K) (d : Direction K) (s : Surface) : Direction K :=
  let d1 := if s = .EAST ∨ s = .WEST then ofCosines T (-d.ox) d.oy d.oz else d
  let d2 := if s = .NORTH ∨ s = .SOUTH then ofCosines T d1.ox (-d1.oy) d1.oz else d1
  if s = .TOP ∨ s = .BOTTOM then ofCosines T d2.ox d2.oy (-d2.oz) else d2

/-- direction.hpp:127-132 `Isotropic`; `none` if the argument of `acos` is outside of its domain. -/
def isotropic (T : Trig K) (r1 r2 : K) : Option (Direction K) := (acosOf T (r2 * 2 - 1)).map fun t => ofAngles T (r1 * T.twopi) t

/-- direction.hpp:165-188 `to_octant`. -/
def toOctant (T : Trig K) (d : Direction K) : Nat → Direction K
  | 1 => ofCosines T |d.ox| |d.oy| |d.oz|
  | 2 => ofCosines T (-|d.ox|) |d.oy| |d.oz|
  | 3 => ofCosines T (-|d.ox|) (-|d.oy|) |d.oz|
  | 4 => ofCosines T |d.ox| (-|d.oy|) |d.oz|
  | 5 => ofCosines T |d.ox| |d.oy| (-|d.oz|)
  | 6 => ofCosines T (-|d.ox|) |d.oy| (-|d.oz|)
  | 7 => ofCosines T (-|d.ox|) (-|d.oy|) (-|d.oz|)
  | 8 => ofCosines T |d.ox| (-|d.oy|) (-|d.oz|)
  | _ => ofCosines T 0 0 0

end Verif.Dir
