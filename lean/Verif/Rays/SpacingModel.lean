import Verif.Rational.Model
import Mathlib.Algebra.Order.Floor.Ring
import Mathlib.Algebra.Order.Field.Basic
import Mathlib.Data.Rat.Cast.Defs

/-!
# Model of `RayData::modularize_angle` (src/sweepers/moc/ray_data.cpp:491-527)

`K` stands for `real_t` in exact arithmetic.  The slope handed to `rational_approximation` is a double and therefore a
rational number `m`; the trigonometric functions enter through the values `sinA = |sin alpha|`, `cosA = |cos alpha|`
and the function `sinAtan t = |sin (atan t)|`.
-/

namespace Verif.Rays

variable {K : Type} [Field K] [LinearOrder K] [FloorRing K]

/-- `int Nx = ceil(x); Nx += Nx % 2` (ray_data.cpp:518-521) for `x ≥ 0`. -/
def ceilEven (x : K) : Nat := ⌈x⌉.toNat + ⌈x⌉.toNat % 2

/-- ray_data.cpp:516-523, method TRIG. -/
def modularizeTrig (hx hy nominal sinA cosA : K) : Nat × Nat :=
  (ceilEven (hx / nominal * sinA), ceilEven (hy / nominal * cosA))

/-- ray_data.cpp:498-515, method RATIONAL; `steep` is `alpha > pi / 4` and `m` the slope made less than one (lines
501-502).  `rational_approximation(m, 0.002, 0)` replaces the bound 0 by `INT_MAX`.  If the numerator is 0 then
`hx / Nx` is infinite, its product with `sin 0` is a NaN and converting that to `int` is undefined: the outcome
`none`. -/
def modularizeRational (sinAtan : K → K) (hx hy nominal : K) (m : ℚ) (steep : Bool) : Option (Nat × Nat) :=
  let q := Rational.rationalApproximation m (1 / 500) (2 ^ 31 - 1)
  if q.1 = 0 then none
  else
    let scale := ⌈hx / q.1 * sinAtan (q.1 * hy / (q.2 * hx)) / nominal⌉.toNat
    let Nx := q.1 * scale
    let Ny := q.2 * scale
    some (if steep then (Ny, Nx) else (Nx, Ny))

end Verif.Rays
