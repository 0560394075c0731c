import Mathlib.Data.Rat.Defs
import Mathlib.Algebra.Order.Ring.Rat
import Mathlib.Algebra.Order.Field.Rat
import Mathlib.Algebra.Field.Rat

namespace Verif.Rational.Spec

/-- Value of a numerator/denominator pair. -/
def val (p : Nat × Nat) : ℚ := (p.1 : ℚ) / (p.2 : ℚ)

/-- A fraction in `[0,1]` that is allowed as an answer. -/
def Allowed (maxD : Nat) (p : Nat × Nat) : Prop := 0 < p.2 ∧ p.2 ≤ maxD ∧ p.1 ≤ p.2

end Verif.Rational.Spec
