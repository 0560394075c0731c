import Mathlib.Logic.Function.Iterate

/-!
# Model of the linear congruential generator (src/util/rng_lcg.hpp)

`uint64_t` is `BitVec 64`: C++ unsigned arithmetic wraps modulo 2^64 exactly like `BitVec`.
-/

namespace Verif.Rng

/-- `uint64_t`. -/
abbrev U64 := BitVec 64

/-- rng_lcg.hpp:159 `m_`. -/
def mMul : U64 := 2806196910506780709#64
/-- rng_lcg.hpp:160 `b_`. -/
def bAdd : U64 := 1#64
/-- rng_lcg.hpp:163 `mask_ = ~(1 << 63)`. -/
def mask : U64 := ~~~ (1#64 <<< 63)

/-- rng_lcg.hpp:53-57 `operator()`: the new `current_seed_`, which is also the value returned. -/
def step (s : U64) : U64 := (s * mMul + bAdd) &&& mask

/-- rng_lcg.hpp:140-151, the `while (nskip > 0)` loop of `jump_ahead`.
Returns the final `(g_new, b_new)`. -/
def jumpLoop (nskip g b gNew bNew : U64) : U64 × U64 :=
  if _h : nskip = 0#64 then (gNew, bNew)
  else
    let gNew' := if nskip &&& 1#64 ≠ 0#64 then (gNew * g) &&& mask else gNew
    let bNew' := if nskip &&& 1#64 ≠ 0#64 then (bNew * g + b) &&& mask else bNew
    jumpLoop (nskip >>> 1) ((g * g) &&& mask) (((g + 1#64) * b) &&& mask) gNew' bNew'
  termination_by nskip.toNat
  decreasing_by
    have : nskip.toNat ≠ 0 := fun h' => _h (BitVec.eq_of_toNat_eq (by simpa using h'))
    simp only [BitVec.toNat_ushiftRight, Nat.shiftRight_eq_div_pow]
    omega

/-- rng_lcg.hpp:128-155 `jump_ahead`: the new `current_seed_`.
The first loop (132-134) compares an unsigned value with `0l`, which is converted to unsigned, so its
body is never entered; it is therefore absent. -/
def jumpAhead (s n : U64) : U64 :=
  let r := jumpLoop n mMul bAdd 1#64 0#64
  (r.1 * s + r.2) &&& mask

/-- Conversion of a natural number to the nearest double (53-bit significand, ties to even), with the
result given as a natural number.  This is the `uint64_t → double` conversion inside
`float_scale_ * (*this)()` (rng_lcg.hpp:64) and, up to a power of two, the rounding of a product of a
double and an integer (rng_lcg.hpp:97).  Overflow and subnormal results do not occur for the
magnitudes used here and are not modelled. -/
def rne53 (x : Nat) : Nat :=
  if x < 2 ^ 53 then x
  else
    let e := Nat.log2 x - 52
    let q := x / 2 ^ e
    let r := x % 2 ^ e
    if 2 * r > 2 ^ e ∨ (2 * r = 2 ^ e ∧ q % 2 = 1) then (q + 1) * 2 ^ e else q * 2 ^ e

/-- rng_lcg.hpp:62-65 `random()` evaluated in state `s`: the returned double is
`randomNum s / 2^63` (`float_scale_` is the power of two 2^-63, so the multiplication is exact). -/
def randomNum (s : U64) : Nat := rne53 (step s).toNat

/-- rng_lcg.hpp:95-100 `random_int(ubound)` for positive `ubound` evaluated in state `s`:
`random() * ubound` is a double product (rounded) and the conversion to `int` truncates. -/
def randomInt (s : U64) (ubound : Nat) : Nat := rne53 (randomNum s * ubound) / 2 ^ 63

/-- particle_pusher.cpp:170-171: the generator state with which the history of the particle with
identifier `id` (an `unsigned`) starts when `id_offset_ = off` (an `unsigned`):
`RNG.set_seed(seed_); RNG.jump_ahead((p.id + id_offset_) * 10000);`
The sum and the product are computed in 32-bit unsigned arithmetic and then widened. -/
def historyStart (seed : U64) (id off : BitVec 32) : U64 :=
  jumpAhead seed (((id + off) * 10000#32).setWidth 64)

end Verif.Rng
