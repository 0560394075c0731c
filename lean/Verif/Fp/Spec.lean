import Mathlib.Algebra.Order.Ring.Int

/-!
# Specification: the rank of a double among all doubles

Consecutive representable doubles have consecutive ranks (`+0.0` and `-0.0` share rank 0); a pattern with sign
bit set and magnitude bits `m` is `i = m - 2^63`.  `Props.lean` shows that the numeric value is strictly
increasing in the rank, so the rank difference counts representable doubles.
-/

namespace Verif.Fp.Spec

def rank (i : Int) : Int := if i < 0 then -(i + 2^63) else i

/-- Number of representable steps between two doubles. -/
def ulps (x y : Int) : Int := |rank x - rank y|

/-- Both patterns have the same sign bit. -/
def SameSign (x y : Int) : Prop := (x < 0 ↔ y < 0)

end Verif.Fp.Spec
