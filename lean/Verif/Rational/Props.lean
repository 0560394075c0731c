import Verif.Rational.Lemmas
import Mathlib.Algebra.Order.Floor.Semiring
import Mathlib.Data.Rat.Floor

/-!
# C08: `rational_approximation`

Termination for every input is the acceptance of `search` by the kernel (well-founded recursion).
-/

namespace Verif.Rational
open Spec

/-- C08 (full claim, false): the result is a closest fraction with denominator at most `max_d`. -/
def C08_claim : Prop := ∀ (target : ℚ) (maxD : Nat), 0 ≤ target → target ≤ 1 → 0 < maxD →
  ∀ p, Allowed maxD p → |target - val (rationalApproximation target 0 maxD)| ≤ |target - val p|

theorem approx_good (target tol : ℚ) (maxD : Nat) (h0 : 0 ≤ target) (h1 : target ≤ 1) (hD : 0 < maxD) :
    Good target tol maxD (rationalApproximation target tol maxD) := by
  unfold rationalApproximation
  have v0 : val (0, 1) = 0 := by simp [val]
  have v1 : val (1, 1) = 1 := by simp [val]
  have e0 : |((0 : Nat) : ℚ) / ((1 : Nat) : ℚ) - target| = |target - val (0, 1)| := by
    rw [abs_sub_comm]; rfl
  have e1 : |((1 : Nat) : ℚ) / ((1 : Nat) : ℚ) - target| = |target - val (1, 1)| := by
    rw [abs_sub_comm]; rfl
  rw [e0, e1]
  split_ifs with c0 c1
  · exact ⟨⟨by simp, hD, by simp⟩, fun h => absurd c0 h, fun _ => c0, fun _ p hp _ => hp.1⟩
  · exact ⟨⟨by simp, hD, by simp⟩, fun h => absurd c1 h, fun _ => c1, fun _ p hp _ => hp.1⟩
  · exact search_good target tol maxD 0 1 1 1 _ _ (by norm_num) (by norm_num) (by norm_num)
      (Or.inl ⟨hD, hD⟩) (by rw [v0]; exact h0) (by rw [v1]; exact h1) c0 c1

/-- C08: the denominator is between 1 and `max_d` and the fraction lies in `[0,1]`. -/
theorem C08_denominator_bounded (target tol : ℚ) (maxD : Nat) (h0 : 0 ≤ target) (h1 : target ≤ 1)
    (hD : 0 < maxD) :
    0 < (rationalApproximation target tol maxD).2 ∧ (rationalApproximation target tol maxD).2 ≤ maxD ∧
    (rationalApproximation target tol maxD).1 ≤ (rationalApproximation target tol maxD).2 :=
  (approx_good target tol maxD h0 h1 hD).allowed

/-- C08: the tolerance is met whenever any allowed fraction meets it, and then with the smallest possible
denominator. -/
theorem C08_tolerance (target tol : ℚ) (maxD : Nat) (h0 : 0 ≤ target) (h1 : target ≤ 1) (hD : 0 < maxD)
    (p : Nat × Nat) (hp : Allowed maxD p) (ht : |target - val p| < tol) :
    |target - val (rationalApproximation target tol maxD)| < tol ∧
    (rationalApproximation target tol maxD).2 ≤ p.2 := by
  have g := approx_good target tol maxD h0 h1 hD
  have := g.tol_met ⟨p, hp, ht⟩
  exact ⟨this, g.minimal this p hp ht⟩

/-- C08: when the tolerance cannot be met, no allowed fraction lies between the target (included) and the result
(excluded), so the result is the closest allowed fraction on its side of the target.
Missing with respect to the full claim: the result need not be the closer of the two neighbours (see
`C08_claim_false`). -/
theorem C08_best_on_one_side_partial (target tol : ℚ) (maxD : Nat) (h0 : 0 ≤ target) (h1 : target ≤ 1)
    (hD : 0 < maxD) (hmiss : ¬ |target - val (rationalApproximation target tol maxD)| < tol)
    (p : Nat × Nat) (hp : Allowed maxD p) :
    ¬ (target ≤ val p ∧ val p < val (rationalApproximation target tol maxD)) ∧
    ¬ (val (rationalApproximation target tol maxD) < val p ∧ val p ≤ target) :=
  (approx_good target tol maxD h0 h1 hD).nearest_side hmiss p hp

/-- C08: a target that is itself an allowed fraction is found exactly when no tolerance is used. -/
theorem C08_exact (maxD : Nat) (p : Nat × Nat) (hp : Allowed maxD p) :
    val (rationalApproximation (val p) 0 maxD) = val p := by
  have hq : (0 : ℚ) < p.2 := by exact_mod_cast hp.1
  have h0 : 0 ≤ val p := div_nonneg (Nat.cast_nonneg _) hq.le
  have h1 : val p ≤ 1 := by
    unfold val; rw [div_le_one hq]; exact_mod_cast hp.2.2
  have g := approx_good (val p) 0 maxD h0 h1 (lt_of_lt_of_le hp.1 hp.2.1)
  have n := g.nearest_side (not_lt.mpr (abs_nonneg _)) p hp
  rcases lt_trichotomy (val (rationalApproximation (val p) 0 maxD)) (val p) with h | h | h
  · exact absurd ⟨h, le_refl _⟩ n.2
  · exact h
  · exact absurd ⟨le_refl _, h⟩ n.1

/-- C08: the error is below the tolerance or below `1 / max_d`. -/
theorem C08_error_bound (target tol : ℚ) (maxD : Nat) (h0 : 0 ≤ target) (h1 : target ≤ 1) (hD : 0 < maxD) :
    |target - val (rationalApproximation target tol maxD)| < max tol (1 / maxD) := by
  have g := approx_good target tol maxD h0 h1 hD
  have hq : (0 : ℚ) < maxD := by exact_mod_cast hD
  rw [lt_max_iff]
  by_cases hm : |target - val (rationalApproximation target tol maxD)| < tol
  · exact Or.inl hm
  right
  have tD : 0 ≤ target * maxD := mul_nonneg h0 hq.le
  have hfl := Nat.floor_le tD
  have hlt := Nat.lt_floor_add_one (target * (maxD : ℚ))
  set k := ⌊target * (maxD : ℚ)⌋₊ with hk
  have e : (1 : ℚ) / maxD * maxD = 1 := by field_simp
  have hkD : k ≤ maxD := by
    have : (k : ℚ) ≤ maxD := le_trans hfl (by nlinarith)
    exact_mod_cast this
  have alo : Allowed maxD (k, maxD) := ⟨hD, le_refl _, hkD⟩
  have vlo : val (k, maxD) ≤ target := by
    unfold val; rw [div_le_iff₀ hq]; exact hfl
  have vlo' : target - 1 / maxD < val (k, maxD) := by
    unfold val; rw [lt_div_iff₀ hq, sub_mul, e]; simp only; linarith
  have nlo := g.nearest_side hm _ alo
  rw [abs_lt]
  constructor
  · by_contra hc
    have hc' : target + 1 / maxD ≤ val (rationalApproximation target tol maxD) := by linarith
    -- the next grid point is at most `target + 1/maxD`
    rcases Nat.lt_or_ge k maxD with h | h
    · have ahi : Allowed maxD (k + 1, maxD) := ⟨hD, le_refl _, h⟩
      have v1 : target < val (k + 1, maxD) := by
        unfold val; rw [lt_div_iff₀ hq]; push_cast; exact hlt
      have v2 : val (k + 1, maxD) ≤ target + 1 / maxD := by
        unfold val; rw [div_le_iff₀ hq, add_mul, e]; push_cast; linarith
      have nhi := g.nearest_side hm _ ahi
      rcases eq_or_lt_of_le (le_trans v2 hc') with h2 | h2
      · -- then target = k / maxD is itself allowed
        have h3 : val (k, maxD) = target := by
          have : val (k + 1, maxD) = val (k, maxD) + 1 / maxD := by
            unfold val; push_cast; rw [add_div]
          linarith
        apply nlo.1
        refine ⟨h3.ge, ?_⟩
        have : (0 : ℚ) < 1 / maxD := by positivity
        linarith
      · exact nhi.1 ⟨v1.le, h2⟩
    · have h4 : k = maxD := by omega
      have h5 : val (k, maxD) = 1 := by unfold val; rw [h4]; exact div_self hq.ne'
      have : (0 : ℚ) < 1 / maxD := by positivity
      apply nlo.1
      constructor <;> linarith
  · by_contra hc
    apply nlo.2
    constructor <;> linarith

/-- C08: the closest-fraction claim is false: 3/10 with denominators up to 2 gives 0/1 (error 3/10), while
1/2 has error 2/10. -/
theorem C08_not_closest : rationalApproximation (3/10) 0 2 = (0, 1) ∧ Allowed 2 (1, 2) ∧
    |(3/10 : ℚ) - val (1, 2)| < |(3/10 : ℚ) - val (0, 1)| := by
  refine ⟨?_, ⟨by norm_num, by norm_num, by norm_num⟩, by norm_num [val, abs_of_neg, abs_of_pos]⟩
  unfold rationalApproximation
  rw [if_neg (not_lt.mpr (abs_nonneg _)), if_neg (not_lt.mpr (abs_nonneg _))]
  rw [search, dif_pos (by norm_num)]
  simp only
  rw [if_neg (not_lt.mpr (abs_nonneg _)), if_neg (by norm_num)]
  rw [search, dif_pos (by norm_num)]
  simp only
  rw [if_neg (not_lt.mpr (abs_nonneg _)), if_neg (by norm_num)]
  rw [search, dif_neg (by norm_num), if_neg (by norm_num)]

theorem C08_claim_false : ¬ C08_claim := by
  intro h
  obtain ⟨h1, h2, h3⟩ := C08_not_closest
  have := h (3/10) 2 (by norm_num) (by norm_num) (by norm_num) (1, 2) h2
  rw [h1] at this
  exact absurd h3 (not_lt.mpr this)

-- satisfiable, with a tolerance that is met by an allowed fraction
example : ∃ (t tol : ℚ) (p : Nat × Nat), 0 ≤ t ∧ t ≤ 1 ∧ Allowed 7 p ∧ |t - val p| < tol :=
  ⟨0.3, 0.05, (2, 7), by norm_num, by norm_num, ⟨by norm_num, by norm_num, by norm_num⟩,
    by norm_num [val, abs_of_neg, abs_of_pos]⟩

end Verif.Rational
