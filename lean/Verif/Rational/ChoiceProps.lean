import Verif.Rational.Props
import Mathlib.Algebra.Order.Ring.Int
import Mathlib.Tactic.IntervalCases

/-!
# C08: which of the two neighbours is returned when the tolerance cannot be met
-/

namespace Verif.Rational
open Spec

theorem den_dvd {a b c d a' b' : Nat} (hdet : b * c = a * d + 1) (h : a * b' = a' * b) : b ∣ b' := by
  have : (b : ℤ) ∣ (b' : ℤ) := ⟨(b' : ℤ) * c - a' * d, by
    zify at hdet h
    linear_combination -(b' : ℤ) * hdet - (d : ℤ) * h⟩
  exact_mod_cast this

theorem den_dvd' {a b c d c' d' : Nat} (hdet : b * c = a * d + 1) (h : c * d' = c' * d) : d ∣ d' := by
  have : (d : ℤ) ∣ (d' : ℤ) := ⟨(b : ℤ) * c' - a * d', by
    zify at hdet h
    linear_combination -(d' : ℤ) * hdet + (b : ℤ) * h⟩
  exact_mod_cast this

theorem lower_unique {a b c d a' b' c' d' : Nat} (hb : 0 < b) (hb' : 0 < b') (hdet : b * c = a * d + 1)
    (hdet' : b' * c' = a' * d' + 1) (h : val (a, b) = val (a', b')) : a = a' ∧ b = b' := by
  have h1 : a * b' = a' * b :=
    le_antisymm ((val_le_val hb hb').mp h.le) ((val_le_val hb' hb).mp h.ge)
  have e := Nat.dvd_antisymm (den_dvd hdet h1) (den_dvd hdet' h1.symm)
  subst e
  exact ⟨Nat.eq_of_mul_eq_mul_right hb h1, rfl⟩

theorem upper_unique {a b c d a' b' c' d' : Nat} (hd : 0 < d) (hd' : 0 < d') (hdet : b * c = a * d + 1)
    (hdet' : b' * c' = a' * d' + 1) (h : val (c, d) = val (c', d')) : c = c' ∧ d = d' := by
  have h1 : c * d' = c' * d :=
    le_antisymm ((val_le_val hd hd').mp h.le) ((val_le_val hd' hd).mp h.ge)
  have e := Nat.dvd_antisymm (den_dvd' hdet h1) (den_dvd' hdet' h1.symm)
  subst e
  exact ⟨Nat.eq_of_mul_eq_mul_right hd h1, rfl⟩

/-- The neighbour that is returned: the one with the larger denominator if the mediant meets the tolerance, otherwise
the one on the target's side of the mediant. -/
def chosen (target tol : ℚ) (a b c d : Nat) : Nat × Nat :=
  if |target - val (a + c, b + d)| < tol then (if d > b then (c, d) else (a, b))
  else if target > val (a + c, b + d) then (c, d) else (a, b)

theorem search_choice (target tol : ℚ) (maxD A B C D : Nat) (hB : 0 < B) (hD : 0 < D) (hBM : B ≤ maxD) (hDM : D ≤ maxD)
    (hAB : A ≤ B) (hCD : C ≤ D) (hdet : B * C = A * D + 1) (hsum : maxD < B + D) (hlo : val (A, B) < target) (hhi : target < val (C, D))
    (hmiss : ∀ p, Allowed maxD p → ¬ |target - val p| < tol)
    (a b c d : Nat) (hb : 0 < b) (hd : 0 < d) (hdet' : b * c = a * d + 1) (hab : a ≤ b) (hcd : c ≤ d)
    (hbM : b ≤ maxD) (hdM : d ≤ maxD) (hlo' : val (a, b) < target) (hhi' : target < val (c, d)) :
    search target tol maxD a b c d hb hd = chosen target tol A B C D := by
  have final : maxD < b + d → a = A ∧ b = B ∧ c = C ∧ d = D := by
    intro h
    have h1 : val (A, B) = val (a, b) := by
      apply le_antisymm
      · rcases none_inside hb hd hdet' h (A, B) ⟨hB, hBM, hAB⟩ with h | h
        · exact h
        · linarith
      · rcases none_inside hB hD hdet hsum (a, b) ⟨hb, hbM, hab⟩ with h | h
        · exact h
        · linarith
    have h2 : val (C, D) = val (c, d) := by
      apply le_antisymm
      · rcases none_inside hB hD hdet hsum (c, d) ⟨hd, hdM, hcd⟩ with h | h
        · linarith
        · exact h
      · rcases none_inside hb hd hdet' h (C, D) ⟨hD, hDM, hCD⟩ with h | h
        · linarith
        · exact h
    obtain ⟨e1, e2⟩ := lower_unique hB hb hdet hdet' h1
    obtain ⟨e3, e4⟩ := upper_unique hD hd hdet hdet' h2
    exact ⟨e1.symm, e2.symm, e3.symm, e4.symm⟩
  fun_induction search target tol maxD a b c d hb hd with
  | case1 a b c d hb hd h mediant hmed hle =>
    exact absurd hmed (hmiss (a + c, b + d) ⟨by simp only; omega, hle, by simp only; omega⟩)
  | case2 a b c d hb hd h mediant hmed hle hgt =>
    obtain ⟨rfl, rfl, rfl, rfl⟩ := final (by omega)
    have hm : |target - val (a + c, b + d)| < tol := hmed
    simp [chosen, hm, hgt]
  | case3 a b c d hb hd h mediant hmed hle hgt =>
    obtain ⟨rfl, rfl, rfl, rfl⟩ := final (by omega)
    have hm : |target - val (a + c, b + d)| < tol := hmed
    have hgt' : ¬ b < d := hgt
    simp [chosen, hm, hgt']
  | case4 a b c d hb hd h mediant hmed hgt ih =>
    by_cases hs : b + d ≤ maxD
    · have hgt' : val (a + c, b + d) < target := hgt
      refine ih ?_ (by omega) hcd hs hdM hgt' hhi' ?_
      · zify at hdet' ⊢; linear_combination hdet'
      · intro h'
        have hdet2 : (b + d) * c = (a + c) * d + 1 := by zify at hdet' ⊢; linear_combination hdet'
        have h1 : val (A, B) = val (a + c, b + d) := by
          apply le_antisymm
          · rcases none_inside (by omega) hd hdet2 h' (A, B) ⟨hB, hBM, hAB⟩ with h | h
            · exact h
            · linarith
          · rcases none_inside hB hD hdet hsum (a + c, b + d) ⟨by simp only; omega, hs, by simp only; omega⟩ with h | h
            · exact h
            · linarith
        have h2 : val (C, D) = val (c, d) := by
          apply le_antisymm
          · rcases none_inside hB hD hdet hsum (c, d) ⟨hd, hdM, hcd⟩ with h | h
            · linarith
            · exact h
          · rcases none_inside (by omega) hd hdet2 h' (C, D) ⟨hD, hDM, hCD⟩ with h | h
            · linarith
            · exact h
        obtain ⟨e1, e2⟩ := lower_unique hB (by omega) hdet hdet2 h1
        obtain ⟨e3, e4⟩ := upper_unique hD hd hdet hdet2 h2
        exact ⟨e1.symm, e2.symm, e3.symm, e4.symm⟩
    · obtain ⟨rfl, rfl, rfl, rfl⟩ := final (by omega)
      have hm : ¬ |target - val (a + c, b + d)| < tol := hmed
      have hgt' : val (a + c, b + d) < target := hgt
      unfold search
      rw [dif_neg (by omega), if_pos (by omega)]
      simp [chosen, hm, hgt']
  | case5 a b c d hb hd h mediant hmed hgt ih =>
    by_cases hs : b + d ≤ maxD
    · have hle : target ≤ val (a + c, b + d) := not_lt.mp hgt
      have hlt : target < val (a + c, b + d) := by
        refine lt_of_le_of_ne hle fun he => ?_
        rcases none_inside hB hD hdet hsum (a + c, b + d) ⟨by simp only; omega, hs, by simp only; omega⟩ with h | h <;>
          linarith
      refine ih ?_ hab (by omega) hbM hs hlo' hlt ?_
      · zify at hdet' ⊢; linear_combination hdet'
      · intro h'
        have hdet2 : b * (a + c) = a * (b + d) + 1 := by zify at hdet' ⊢; linear_combination hdet'
        have h1 : val (A, B) = val (a, b) := by
          apply le_antisymm
          · rcases none_inside hb (by omega) hdet2 h' (A, B) ⟨hB, hBM, hAB⟩ with h | h
            · exact h
            · linarith
          · rcases none_inside hB hD hdet hsum (a, b) ⟨hb, hbM, hab⟩ with h | h
            · exact h
            · linarith
        have h2 : val (C, D) = val (a + c, b + d) := by
          apply le_antisymm
          · rcases none_inside hB hD hdet hsum (a + c, b + d) ⟨by simp only; omega, hs, by simp only; omega⟩ with h | h
            · linarith
            · exact h
          · rcases none_inside hb (by omega) hdet2 h' (C, D) ⟨hD, hDM, hCD⟩ with h | h
            · linarith
            · exact h
        obtain ⟨e1, e2⟩ := lower_unique hB hb hdet hdet2 h1
        obtain ⟨e3, e4⟩ := upper_unique hD (by omega) hdet hdet2 h2
        exact ⟨e1.symm, e2.symm, e3.symm, e4.symm⟩
    · obtain ⟨rfl, rfl, rfl, rfl⟩ := final (by omega)
      have hm : ¬ |target - val (a + c, b + d)| < tol := hmed
      have hgt' : ¬ val (a + c, b + d) < target := hgt
      unfold search
      rw [dif_neg (by omega), if_neg (by omega)]
      simp [chosen, hm, hgt']
  | case6 a b c d hb hd h hgt => omega
  | case7 a b c d hb hd h hgt => omega

/-- C08: let `a/b` and `c/d` be the neighbouring allowed fractions below and above the target.  If no allowed fraction
meets the tolerance, the result is the neighbour on the target's side of their mediant, except that when the mediant
(which is not allowed) meets the tolerance it is the one with the larger denominator. -/
theorem C08_choice (target tol : ℚ) (maxD a b c d : Nat) (h0 : 0 < target) (h1 : target < 1)
    (hab : Allowed maxD (a, b)) (hcd : Allowed maxD (c, d)) (hdet : b * c = a * d + 1) (hsum : maxD < b + d)
    (hlo : val (a, b) < target) (hhi : target < val (c, d)) (hmiss : ∀ p, Allowed maxD p → ¬ |target - val p| < tol) :
    rationalApproximation target tol maxD =
      if |target - val (a + c, b + d)| < tol then (if d > b then (c, d) else (a, b))
      else if target > val (a + c, b + d) then (c, d) else (a, b) := by
  have hD : 0 < maxD := lt_of_lt_of_le hab.1 hab.2.1
  have v0 : val (0, 1) = 0 := by simp [val]
  have v1 : val (1, 1) = 1 := by simp [val]
  unfold rationalApproximation
  have c0 := hmiss (0, 1) ⟨by simp, hD, by simp⟩
  have c1 := hmiss (1, 1) ⟨by simp, hD, by simp⟩
  rw [abs_sub_comm] at c0 c1
  rw [if_neg (show ¬ |((0 : Nat) : ℚ) / ((1 : Nat) : ℚ) - target| < tol from c0),
    if_neg (show ¬ |((1 : Nat) : ℚ) / ((1 : Nat) : ℚ) - target| < tol from c1)]
  exact search_choice target tol maxD a b c d hab.1 hcd.1 hab.2.1 hcd.2.1 hab.2.2 hcd.2.2 hdet hsum hlo hhi hmiss 0 1 1 1
    (by omega) (by omega) (by norm_num) (by norm_num) (by norm_num) hD hD (by rw [v0]; exact h0) (by rw [v1]; exact h1)

/-- 3/10 between 0/1 and 1/2, denominators up to 2, mediant 1/3: with tolerance 1/20 the mediant meets it and 1/2 is
returned; without tolerance 0/1. -/
example : rationalApproximation (3/10) (1/20) 2 = (1, 2) ∧ rationalApproximation (3/10) 0 2 = (0, 1) := by
  have e : ∀ t : ℚ, 0 ≤ t → t ≤ 1/20 → ∀ p, Allowed 2 p → ¬ |(3/10 : ℚ) - val p| < t := by
    rintro t ht ht' ⟨n, m⟩ ⟨h1, h2, h3⟩ hlt
    simp only at h1 h2 h3
    have : |(3/10 : ℚ) - val (n, m)| < 1/20 := lt_of_lt_of_le hlt ht'
    rw [abs_lt] at this
    unfold val at this
    interval_cases m <;> interval_cases n <;> norm_num at this
  constructor
  · rw [C08_choice (3/10) (1/20) 2 0 1 1 2 (by norm_num) (by norm_num) ⟨by simp, by simp, by simp⟩ ⟨by simp, by simp, by simp⟩
      (by norm_num) (by norm_num) (by norm_num [val]) (by norm_num [val]) (e _ (by norm_num) le_rfl)]
    norm_num [val, abs_lt]
  · rw [C08_choice (3/10) 0 2 0 1 1 2 (by norm_num) (by norm_num) ⟨by simp, by simp, by simp⟩ ⟨by simp, by simp, by simp⟩
      (by norm_num) (by norm_num) (by norm_num [val]) (by norm_num [val]) (e _ le_rfl (by norm_num))]
    norm_num [val, abs_lt]

end Verif.Rational
