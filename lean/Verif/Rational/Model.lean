import Mathlib.Data.Rat.Defs
import Mathlib.Algebra.Order.Ring.Rat
import Mathlib.Algebra.Order.Field.Rat
import Mathlib.Algebra.Field.Rat

/-!
# Model of `rational_approximation` (src/util/rational_approximation.hpp)

Simplifications: `real_t` is `ℚ`; the `int` variables are unbounded naturals.  The code relies on `b + d` and
`a + c` not overflowing `int`; this holds when `max_d < 2^30`, and `max_d = 0` (which the code replaces by
`INT_MAX`) is modelled by passing `maxD = 2^31 - 1` explicitly.
-/

namespace Verif.Rational

/-- rational_approximation.hpp:58-79, the loop and the final selection, with the current `a/b`, `c/d`.
`b` and `d` are positive (they start at 1 and only grow), which is what makes the loop terminate. -/
def search (target tol : ℚ) (maxD : Nat) (a b c d : Nat) (hb : 0 < b) (hd : 0 < d) : Nat × Nat :=
  if _h : b ≤ maxD ∧ d ≤ maxD then
    let mediant : ℚ := ((a + c : Nat) : ℚ) / ((b + d : Nat) : ℚ)
    if |target - mediant| < tol then
      if b + d ≤ maxD then (a + c, b + d)
      else if d > b then (c, d)
      else (a, b)
    else if target > mediant then search target tol maxD (a + c) (b + d) c d (by omega) hd
    else search target tol maxD a b (a + c) (b + d) hb (by omega)
  else if b > maxD then (c, d)
  else (a, b)
  termination_by (maxD + 1 - b) + (maxD + 1 - d)
  decreasing_by all_goals omega

/-- rational_approximation.hpp:39-80 for `max_d ≠ 0`. -/
def rationalApproximation (target tol : ℚ) (maxD : Nat) : Nat × Nat :=
  if |((0 : Nat) : ℚ) / ((1 : Nat) : ℚ) - target| < tol then (0, 1)
  else if |((1 : Nat) : ℚ) / ((1 : Nat) : ℚ) - target| < tol then (1, 1)
  else search target tol maxD 0 1 1 1 (by omega) (by omega)

end Verif.Rational
