import Verif.Fp.Model
import Verif.Fp.Spec
import Mathlib.Order.Monotone.Basic
import Mathlib.Data.Nat.Cast.Order.Ring
import Mathlib.Tactic.Linarith
import Mathlib.Tactic.NormNum
import Mathlib.Tactic.Positivity
import Mathlib.Tactic.Ring

/-!
# C05: floating-point equivalence
-/

set_option exponentiation.threshold 2000

namespace Verif.Fp
open Spec

/-- C05 (full claim, false): for every pair of finite doubles the comparison is defined and true exactly when
fewer than 200 representable doubles separate them. -/
def C05_claim : Prop := ∀ x y : Int, IsBits x → IsBits y → mag x < 2047 * 2^52 → mag y < 2047 * 2^52 →
  fpEquivUlp x y = some (decide (ulps x y < 200))

theorem i64_of (x : Int) (h : -2^63 ≤ x ∧ x < 2^63) : i64 x = some x := by
  unfold i64; rw [if_pos h]

theorem fold_nonneg (x : Int) (h : 0 ≤ x) : fold x = some x := by
  unfold fold; rw [if_neg (by omega)]

theorem fold_neg (x : Int) (h : x < 0) (hd : -2^63 + 2^31 < x) : fold x = some (2^31 - x) := by
  unfold fold; rw [if_pos h, i64_of]; constructor <;> omega

theorem fold_none (x : Int) (h : IsBits x) : fold x = none ↔ x ≤ -2^63 + 2^31 := by
  unfold fold i64 IsBits at *
  split_ifs <;> simp <;> omega

theorem fold_range (x i : Int) (hx : IsBits x) (h : fold x = some i) : 0 ≤ i ∧ i < 2^63 := by
  unfold fold i64 IsBits at *
  split_ifs at h <;> simp at h <;> omega

theorem equiv_of_fold (x y i j : Int) (hx : IsBits x) (hy : IsBits y) (h1 : fold x = some i)
    (h2 : fold y = some j) : fpEquivUlp x y = some (decide (|i - j| < 200)) := by
  have r1 := fold_range x i hx h1
  have r2 := fold_range y j hy h2
  unfold fpEquivUlp
  rw [h1, h2]
  simp only [Option.bind_eq_bind, Option.bind_some]
  rw [i64_of (i - j) (by omega)]
  simp only [Option.bind_some]
  rw [i64_of |i - j| (by rcases abs_cases (i - j) with h | h <;> omega)]
  rfl

/-- C05: exactly when the comparison is undefined behaviour: an operand is `-0.0` or a negative number with at
most `2^31` magnitude bits (a subnormal below about 1e-314). -/
theorem C05_undefined_iff (x y : Int) (hx : IsBits x) (hy : IsBits y) :
    fpEquivUlp x y = none ↔ (x < 0 ∧ mag x ≤ 2^31) ∨ (y < 0 ∧ mag y ≤ 2^31) := by
  have key : ∀ z, IsBits z → (fold z = none ↔ z < 0 ∧ mag z ≤ 2^31) := by
    intro z hz
    rw [fold_none z hz]
    unfold mag IsBits at *
    split_ifs <;> omega
  rw [← key x hx, ← key y hy]
  cases h1 : fold x with
  | none => unfold fpEquivUlp; rw [h1]; simp
  | some i =>
    cases h2 : fold y with
    | none => unfold fpEquivUlp; rw [h1, h2]; simp
    | some j => rw [equiv_of_fold x y i j hx hy h1 h2]; simp

/-- C05: symmetric (including in where it is undefined). -/
theorem C05_symmetric (x y : Int) (hx : IsBits x) (hy : IsBits y) : fpEquivUlp x y = fpEquivUlp y x := by
  cases h1 : fold x with
  | none =>
    have a : fpEquivUlp x y = none := by unfold fpEquivUlp; rw [h1]; rfl
    have b : fpEquivUlp y x = none := by
      unfold fpEquivUlp; rw [h1]; cases fold y <;> rfl
    rw [a, b]
  | some i =>
    cases h2 : fold y with
    | none =>
      have a : fpEquivUlp x y = none := by unfold fpEquivUlp; rw [h1, h2]; rfl
      have b : fpEquivUlp y x = none := by unfold fpEquivUlp; rw [h2]; rfl
      rw [a, b]
    | some j =>
      rw [equiv_of_fold x y i j hx hy h1 h2, equiv_of_fold y x j i hy hx h2 h1, abs_sub_comm]

/-- C05: a double whose comparison is defined is equivalent to itself. -/
theorem C05_reflexive (x : Int) (hx : IsBits x) (hd : ¬ (x < 0 ∧ mag x ≤ 2^31)) :
    fpEquivUlp x x = some true := by
  have h : fold x ≠ none := by
    rw [Ne, fold_none x hx]
    unfold mag IsBits at *
    split_ifs at hd <;> omega
  obtain ⟨i, hi⟩ := Option.ne_none_iff_exists'.mp h
  rw [equiv_of_fold x x i i hx hx hi hi]; simp

/-- C05: for operands of the same sign the comparison counts representable doubles exactly.
Missing with respect to the full claim: operands of different sign (`C05_opposite_sign`) and the undefined cases
(`C05_undefined_iff`). -/
theorem C05_same_sign_partial (x y : Int) (hx : IsBits x) (hy : IsBits y) (hs : SameSign x y)
    (hdx : ¬ (x < 0 ∧ mag x ≤ 2^31)) (hdy : ¬ (y < 0 ∧ mag y ≤ 2^31)) :
    fpEquivUlp x y = some (decide (ulps x y < 200)) := by
  unfold SameSign at hs
  unfold mag IsBits at *
  by_cases h : x < 0
  · have h' := hs.mp h
    rw [equiv_of_fold x y _ _ hx hy (fold_neg x h (by split_ifs at hdx; omega))
      (fold_neg y h' (by split_ifs at hdy; omega))]
    have : ulps x y = |2^31 - x - (2^31 - y)| := by
      unfold ulps rank; rw [if_pos h, if_pos h']; congr 1; omega
    rw [this]
  · have h' : ¬ y < 0 := fun h' => h (hs.mpr h')
    rw [equiv_of_fold x y _ _ hx hy (fold_nonneg x (by omega)) (fold_nonneg y (by omega))]
    have : ulps x y = |x - y| := by
      unfold ulps rank; rw [if_neg h, if_neg h']
    rw [this]

/-- C05: what the comparison does for a non-negative `x` and a negative `y`: it is true when the magnitude bits
add up to about `2^63 + 2^31`, whatever the distance between the two numbers. -/
theorem C05_opposite_sign (x y : Int) (hx : IsBits x) (hy : IsBits y) (h0 : 0 ≤ x) (h1 : y < 0)
    (hdy : 2^31 < mag y) :
    fpEquivUlp x y = some (decide (|(mag x : Int) + mag y - (2^63 + 2^31)| < 200)) := by
  unfold IsBits at *
  have hm : mag x = x.toNat := by unfold mag; rw [if_neg (by omega)]
  have hm' : mag y = (y + 2^63).toNat := by unfold mag; rw [if_pos h1]
  rw [equiv_of_fold x y _ _ hx hy (fold_nonneg x h0) (fold_neg y h1 (by omega)), hm, hm']
  have : x - (2^31 - y) = (x.toNat : Int) + ((y + 2^63).toNat : Int) - (2^63 + 2^31) := by omega
  rw [this]

/-- C05: the finite doubles `x = 2 + 2^-21` and `-x` compare equivalent although about 9.2e18
representable doubles lie between them. -/
theorem C05_equates_opposite_numbers : ∃ x y : Int, IsBits x ∧ IsBits y ∧ mag x < 2047 * 2^52 ∧
    mag y < 2047 * 2^52 ∧ value x = 2 + 1 / 2^21 ∧ value y = -value x ∧
    fpEquivUlp x y = some true ∧ 9 * 10^18 < ulps x y := by
  refine ⟨2^62 + 2^30, 2^62 + 2^30 - 2^63, by unfold IsBits; omega, by unfold IsBits; omega, ?_, ?_, ?_, ?_, ?_, ?_⟩
  · decide
  · decide
  · have : mag (2^62 + 2^30) = 2^62 + 2^30 := by decide
    have h2 : scaled (2^62 + 2^30) = (2^52 + 2^30) * 2^1023 := by
      unfold scaled; norm_num
    unfold value
    rw [if_neg (by norm_num), this, h2]
    push_cast
    rw [div_eq_iff (by positivity)]
    norm_num
  · have e : mag (2^62 + 2^30 - 2^63) = mag (2^62 + 2^30) := by decide
    unfold value
    rw [e, if_pos (by norm_num), if_neg (by norm_num)]
  · decide
  · decide

/-- C05: the full claim is false. -/
theorem C05_claim_false : ¬ C05_claim := by
  intro h
  obtain ⟨x, y, hx, hy, mx, my, -, -, he, hu⟩ := C05_equates_opposite_numbers
  have := h x y hx hy mx my
  rw [he] at this
  simp only [Option.some.injEq, true_eq_decide_iff] at this
  omega

theorem scaled_strictMono : StrictMono scaled := by
  apply strictMono_nat_of_lt_succ
  intro m
  unfold scaled
  rcases Nat.lt_or_ge (m % 2^52 + 1) (2^52) with h | h
  · have e1 : (m + 1) / 2^52 = m / 2^52 := by omega
    have e2 : (m + 1) % 2^52 = m % 2^52 + 1 := by omega
    rw [e1, e2]
    split_ifs
    · omega
    · apply Nat.mul_lt_mul_of_pos_right (by omega) (by positivity)
  · have e1 : (m + 1) / 2^52 = m / 2^52 + 1 := by omega
    have e2 : (m + 1) % 2^52 = 0 := by omega
    have e3 : m % 2^52 = 2^52 - 1 := by omega
    rw [e1, e2, e3, if_neg (by omega : ¬ m / 2^52 + 1 = 0)]
    split_ifs with h0
    · rw [h0]; norm_num
    · obtain ⟨k, hk⟩ : ∃ k, m / 2^52 = k + 1 := ⟨m / 2^52 - 1, by omega⟩
      rw [hk]
      simp only [Nat.add_sub_cancel]
      rw [pow_succ 2 k]
      have : 0 < 2^k := by positivity
      omega

/-- C05 (adequacy of the specification): numeric values are ordered as the ranks are, so `ulps` counts
representable doubles. -/
theorem C05_value_lt_iff_rank_lt (x y : Int) (hx : IsBits x) (hy : IsBits y) :
    value x < value y ↔ rank x < rank y := by
  have v0 : scaled 0 = 0 := by decide
  have hp : (0 : ℚ) < 2^1074 := by positivity
  have lt_div : ∀ a b : Nat, (scaled a : ℚ) / 2^1074 < (scaled b : ℚ) / 2^1074 ↔ a < b := by
    intro a b
    rw [div_lt_div_iff_of_pos_right hp, Nat.cast_lt, scaled_strictMono.lt_iff_lt]
  have nn : ∀ a : Nat, (0 : ℚ) ≤ (scaled a : ℚ) / 2^1074 := fun a => div_nonneg (Nat.cast_nonneg _) hp.le
  have z_iff : ∀ a : Nat, (0 : ℚ) < (scaled a : ℚ) / 2^1074 ↔ 0 < a := by
    intro a
    have := lt_div 0 a
    rw [v0] at this
    simpa using this
  unfold value rank
  unfold IsBits at *
  by_cases h1 : x < 0 <;> by_cases h2 : y < 0
  · rw [if_pos h1, if_pos h2, if_pos h1, if_pos h2, neg_lt_neg_iff, lt_div]
    unfold mag; rw [if_pos h1, if_pos h2]; omega
  · rw [if_pos h1, if_neg h2, if_pos h1, if_neg h2]
    constructor
    · intro h
      have : 0 < mag x ∨ 0 < mag y := by
        by_contra hc
        rw [not_or, not_lt, not_lt, Nat.le_zero, Nat.le_zero] at hc
        rw [hc.1, hc.2, v0] at h
        simp at h
      unfold mag at this; rw [if_pos h1, if_neg h2] at this; omega
    · intro h
      have : 0 < mag x ∨ 0 < mag y := by
        unfold mag; rw [if_pos h1, if_neg h2]; omega
      rcases this with h3 | h3
      · have := (z_iff _).mpr h3; have := nn (mag y); linarith
      · have := (z_iff _).mpr h3; have := nn (mag x); linarith
  · rw [if_neg h1, if_pos h2, if_neg h1, if_pos h2]
    constructor
    · intro h
      have := nn (mag x); have := nn (mag y); linarith
    · intro h; omega
  · rw [if_neg h1, if_neg h2, if_neg h1, if_neg h2, lt_div]
    unfold mag; rw [if_neg h1, if_neg h2]; omega

/-- The answer `fp_equiv` should give: closer than 200 machine epsilons, or same sign and fewer than 200
representable doubles apart. -/
def equivSpec (x y : Int) : Prop := |value x - value y| < 200 / 2^52 ∨ (SameSign x y ∧ ulps x y < 200)

/-- C05: wherever it is defined, `fp_equiv` gives the documented answer (the sign guard removes the false
positives of `fp_equiv_ulp`). -/
theorem C05_fp_equiv (x y : Int) (hx : IsBits x) (hy : IsBits y) (b : Bool) (h : fpEquiv x y = some b) :
    b = true ↔ equivSpec x y := by
  have vneg : ∀ z, IsBits z → (value z < 0 ↔ rank z < 0) := by
    intro z hz
    have := C05_value_lt_iff_rank_lt z 0 hz (by unfold IsBits; omega)
    have v : value 0 = 0 := by
      have : scaled (mag 0) = 0 := by decide
      unfold value; rw [if_neg (by omega), this]; simp
    rw [v] at this
    rw [this]; unfold rank; simp
  unfold fpEquiv fpEquivAbs realFuzz at h
  unfold equivSpec
  split_ifs at h with h1 h2
  · simp only [decide_eq_true_eq] at h1
    simp only [Option.some.injEq] at h
    subst h
    exact ⟨fun _ => Or.inl h1, fun _ => rfl⟩
  · simp only [decide_eq_true_eq] at h1
    simp only [Option.some.injEq] at h
    subst h
    constructor
    · intro hc; exact absurd hc (by simp)
    · rintro (hc | ⟨hs, hu⟩)
      · exact absurd hc h1
      · exfalso
        -- same sign bit but different sign of value: one of them is -0.0 and the other a tiny negative
        apply h1
        simp only [bne_iff_ne, ne_eq, decide_eq_decide] at h2
        rw [vneg x hx, vneg y hy] at h2
        unfold SameSign ulps rank IsBits at *
        have tiny : ∀ z : Int, mag z < 2^52 → |value z| < 100 / 2^52 := by
          intro z hz
          have hd : (scaled (mag z) : ℚ) < 2^52 := by
            have : scaled (mag z) < scaled (2^52) := scaled_strictMono hz
            have e : scaled (2^52) = 2^52 := by decide
            rw [e] at this
            exact_mod_cast this
          have hpow : (0:ℚ) < 2^1074 := by positivity
          have hb : (scaled (mag z) : ℚ) / 2^1074 < 100 / 2^52 := by
            rw [div_lt_div_iff₀ hpow (by positivity)]
            calc (scaled (mag z) : ℚ) * 2^52 < 2^52 * 2^52 := by
                  apply mul_lt_mul_of_pos_right hd; positivity
              _ ≤ 100 * 2^1074 := by norm_num
          have hn : (0:ℚ) ≤ (scaled (mag z) : ℚ) / 2^1074 := div_nonneg (Nat.cast_nonneg _) hpow.le
          unfold value
          split_ifs
          · rw [abs_neg, abs_of_nonneg hn]; exact hb
          · rw [abs_of_nonneg hn]; exact hb
        have bxy : mag x < 2^52 ∧ mag y < 2^52 := by
          clear vneg h1 tiny
          rw [abs_lt] at hu
          unfold mag
          by_cases hx0 : x < 0
          · have hy0 := hs.mp hx0
            simp only [if_pos hx0, if_pos hy0] at *
            omega
          · have hy0 : ¬ y < 0 := fun h => hx0 (hs.mpr h)
            simp only [if_neg hx0, if_neg hy0] at *
            omega
        have bx := bxy.1
        have bY := bxy.2
        have t1 := abs_lt.mp (tiny x bx)
        have t2 := abs_lt.mp (tiny y bY)
        rw [abs_lt]
        constructor
        · have : -(200 / 2^52 : ℚ) = -(100 / 2^52) - 100 / 2^52 := by norm_num
          linarith [t1.1, t2.2]
        · have : (200 / 2^52 : ℚ) = 100 / 2^52 + 100 / 2^52 := by norm_num
          linarith [t1.2, t2.1]
  · simp only [decide_eq_true_eq] at h1
    have nd := C05_undefined_iff x y hx hy
    rw [h] at nd
    simp only [reduceCtorEq, false_iff, not_or] at nd
    have hs : SameSign x y := by
      simp only [bne_iff_ne, ne_eq, decide_eq_decide, not_not] at h2
      rw [vneg x hx, vneg y hy] at h2
      unfold SameSign rank mag IsBits at *
      split_ifs at * <;> omega
    have := C05_same_sign_partial x y hx hy hs nd.1 nd.2
    rw [h] at this
    simp only [Option.some.injEq] at this
    rw [this, decide_eq_true_eq]
    exact ⟨fun hu => Or.inr ⟨hs, hu⟩, fun hc => hc.elim (fun hc => absurd hc h1) (·.2)⟩

/-- C05: `fp_equiv(-0.0, 1.0)` executes a signed overflow. -/
theorem C05_negative_zero_undefined : fpEquiv (-2^63) (1023 * 2^52) = none := by
  have v1 : value (-2^63) = 0 := by
    have : scaled (mag (-2^63)) = 0 := by decide
    unfold value; rw [if_pos (by norm_num), this]; norm_num
  have v2 : value (1023 * 2^52) = 1 := by
    have h1 : mag (1023 * 2^52) = 1023 * 2^52 := by decide
    have : scaled (1023 * 2^52) = 2^52 * 2^1022 := by unfold scaled; norm_num
    unfold value; rw [if_neg (by norm_num), h1, this]; norm_num
  have h3 : fpEquivUlp (-2^63) (1023 * 2^52) = none := by decide
  unfold fpEquiv fpEquivAbs realFuzz
  rw [v1, v2, h3]
  norm_num

-- the hypotheses are satisfiable by unequal, non-trivial doubles: 1.0 and the next double
example : ∃ x y, IsBits x ∧ IsBits y ∧ SameSign x y ∧ x ≠ y ∧ ¬ (x < 0 ∧ mag x ≤ 2^31) ∧
    fpEquivUlp x y = some true :=
  ⟨1023 * 2^52, 1023 * 2^52 + 1, by unfold IsBits; omega, by unfold IsBits; omega,
    by unfold SameSign; omega, by omega, by decide, by decide⟩

-- negative operands beyond the undefined range
example : fpEquivUlp (1023 * 2^52 - 2^63) (1023 * 2^52 + 199 - 2^63) = some true ∧
    fpEquivUlp (1023 * 2^52 - 2^63) (1023 * 2^52 + 200 - 2^63) = some false := by decide

end Verif.Fp
