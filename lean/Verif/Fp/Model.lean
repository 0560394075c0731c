import Mathlib.Data.Rat.Defs
import Mathlib.Algebra.Order.Ring.Rat
import Mathlib.Algebra.Order.Field.Rat
import Mathlib.Algebra.Field.Rat

/-!
# Model of the floating-point comparisons (src/util/fp_utils.hpp)

A `double` is represented by the `int64_t` that shares its storage in the union `real_int` (lines 25-37, the
double-precision branch).  Signed overflow in `int64_t` arithmetic is undefined behaviour and is the outcome
`none`.
-/

namespace Verif.Fp

/-- A 64-bit pattern read as `int64_t`. -/
def IsBits (i : Int) : Prop := -2^63 ≤ i ∧ i < 2^63

/-- `int64_t` arithmetic: a result outside the type is undefined behaviour. -/
def i64 (x : Int) : Option Int := if -2^63 ≤ x ∧ x < 2^63 then some x else none

/-- fp_utils.hpp:55-59 (and 61-65): `if (i < 0) i = 0x80000000 - i`.  The literal `0x80000000` is the
`unsigned int` 2^31 and is converted to `int64_t` before the subtraction. -/
def fold (i : Int) : Option Int := if i < 0 then i64 (2^31 - i) else some i

/-- fp_utils.hpp:53-70 `fp_equiv_ulp` with `ULP_FUZZ = 200` (line 23). -/
def fpEquivUlp (v1 v2 : Int) : Option Bool := do
  let i1 ← fold v1
  let i2 ← fold v2
  let d ← i64 (i1 - i2)
  let ulp ← i64 |d|
  return decide (ulp < 200)

/-- Numeric value of a finite double times `2^1074` (IEEE-754 binary64), from the 63 magnitude bits. -/
def scaled (m : Nat) : Nat :=
  if m / 2^52 = 0 then m % 2^52 else (2^52 + m % 2^52) * 2^(m / 2^52 - 1)

/-- Magnitude bits of a pattern. -/
def mag (i : Int) : Nat := if i < 0 then (i + 2^63).toNat else i.toNat

/-- Numeric value of a finite double. -/
def value (i : Int) : ℚ :=
  if i < 0 then -((scaled (mag i) : ℚ) / 2^1074) else (scaled (mag i) : ℚ) / 2^1074

/-- fp_utils.hpp:39 `REAL_FUZZ = 200 * epsilon`, epsilon = 2^-52. -/
def realFuzz : ℚ := 200 / 2^52

/-- fp_utils.hpp:76-79 `fp_equiv_abs`.  Simplification: the subtraction is exact (its rounding is not modelled). -/
def fpEquivAbs (v1 v2 : Int) : Bool := decide (|value v1 - value v2| < realFuzz)

/-- fp_utils.hpp:88-100 `fp_equiv`. -/
def fpEquiv (v1 v2 : Int) : Option Bool :=
  if fpEquivAbs v1 v2 then some true
  else if (decide (value v1 < 0)) != (decide (value v2 < 0)) then some false
  else fpEquivUlp v1 v2

end Verif.Fp
