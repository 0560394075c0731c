import Verif.Rational.Model
import Verif.Rational.Spec
import Mathlib.Tactic.Ring
import Mathlib.Tactic.LinearCombination
import Mathlib.Tactic.Zify
import Mathlib.Tactic.FieldSimp
import Mathlib.Tactic.Linarith
import Mathlib.Tactic.NormNum
import Mathlib.Tactic.Positivity

namespace Verif.Rational
open Spec

theorem val_lt_val {a b c d : Nat} (hb : 0 < b) (hd : 0 < d) :
    val (a, b) < val (c, d) ↔ a * d < c * b := by
  unfold val
  have hb' : (0 : ℚ) < b := by exact_mod_cast hb
  have hd' : (0 : ℚ) < d := by exact_mod_cast hd
  simp only
  rw [div_lt_div_iff₀ hb' hd']
  exact_mod_cast Iff.rfl

theorem val_le_val {a b c d : Nat} (hb : 0 < b) (hd : 0 < d) :
    val (a, b) ≤ val (c, d) ↔ a * d ≤ c * b := by
  rw [← not_lt, val_lt_val hd hb, not_lt]

/-- Between two fractions with determinant one every fraction has a denominator at least the sum. -/
theorem den_ge {a b c d p q : Nat} (hb : 0 < b) (hd : 0 < d) (hq : 0 < q) (hdet : b * c = a * d + 1)
    (h1 : val (a, b) < val (p, q)) (h2 : val (p, q) < val (c, d)) : b + d ≤ q := by
  rw [val_lt_val hb hq] at h1
  rw [val_lt_val hq hd] at h2
  -- q = q (bc - ad) = b (cq - pd) + d (pb - aq)
  obtain ⟨x, hx⟩ : ∃ x, p * b = a * q + 1 + x := ⟨p * b - (a * q + 1), by omega⟩
  obtain ⟨y, hy⟩ : ∃ y, c * q = p * d + 1 + y := ⟨c * q - (p * d + 1), by omega⟩
  have e : q = b * (1 + y) + d * (1 + x) := by
    zify at hx hy hdet ⊢
    linear_combination (d : ℤ) * hx + (b : ℤ) * hy - (q : ℤ) * hdet
  have : b ≤ b * (1 + y) := Nat.le_mul_of_pos_right b (by omega)
  have : d ≤ d * (1 + x) := Nat.le_mul_of_pos_right d (by omega)
  omega

/-- Everything the caller can learn about the result of the search, relative to the current interval. -/
structure Good (target tol : ℚ) (maxD : Nat) (r : Nat × Nat) : Prop where
  allowed : Allowed maxD r
  /-- no allowed fraction lies strictly between the target and a result that misses the tolerance -/
  nearest_side : ¬ |target - val r| < tol → ∀ p, Allowed maxD p →
    ¬ (target ≤ val p ∧ val p < val r) ∧ ¬ (val r < val p ∧ val p ≤ target)
  /-- the tolerance is met whenever an allowed fraction meets it -/
  tol_met : (∃ p, Allowed maxD p ∧ |target - val p| < tol) → |target - val r| < tol
  /-- and then with the smallest possible denominator -/
  minimal : |target - val r| < tol → ∀ p, Allowed maxD p → |target - val p| < tol → r.2 ≤ p.2

theorem mediant_between {a b c d : Nat} (hb : 0 < b) (hd : 0 < d) (hdet : b * c = a * d + 1) :
    val (a, b) < val (a + c, b + d) ∧ val (a + c, b + d) < val (c, d) := by
  rw [val_lt_val hb (by omega), val_lt_val (by omega) hd]
  constructor
  · have : a * (b + d) + 1 = (a + c) * b := by
      zify at hdet ⊢; linear_combination -hdet
    omega
  · have : (a + c) * d + 1 = c * (b + d) := by
      zify at hdet ⊢; linear_combination -hdet
    omega

/-- No allowed fraction lies strictly inside an interval whose mediant is not allowed. -/
theorem none_inside {a b c d maxD : Nat} (hb : 0 < b) (hd : 0 < d) (hdet : b * c = a * d + 1)
    (hbd : maxD < b + d) (p : Nat × Nat) (hp : Allowed maxD p) :
    val p ≤ val (a, b) ∨ val (c, d) ≤ val p := by
  obtain ⟨n, m⟩ := p
  by_contra hc
  rw [not_or, not_le, not_le] at hc
  have := den_ge hb hd hp.1 hdet hc.1 hc.2
  have := hp.2.1
  simp only at this
  omega

theorem search_good (target tol : ℚ) (maxD a b c d : Nat) (hb : 0 < b) (hd : 0 < d)
    (hdet : b * c = a * d + 1) (hab : a ≤ b) (hcd : c ≤ d)
    (hbd : (b ≤ maxD ∧ d ≤ maxD) ∨ (maxD < b ∧ d ≤ maxD ∧ 
              ∃ a' b', 0 < b' ∧ b' * c = a' * d + 1 ∧ b' ≤ maxD ∧ a = a' + c ∧ b = b' + d ∧ ¬ |target - val (a', b')| < tol) ∨
           (b ≤ maxD ∧ maxD < d ∧
              ∃ c' d', 0 < d' ∧ b * c' = a * d' + 1 ∧ d' ≤ maxD ∧ c = a + c' ∧ d = b + d' ∧ ¬ |target - val (c', d')| < tol))
    (hlo : val (a, b) ≤ target) (hhi : target ≤ val (c, d))
    (htlo : ¬ |target - val (a, b)| < tol) (hthi : ¬ |target - val (c, d)| < tol) :
    Good target tol maxD (search target tol maxD a b c d hb hd) := by
  have inside : ∀ p : Nat × Nat, |target - val p| < tol → val (a, b) < val p ∧ val p < val (c, d) := by
    intro p hp
    rw [abs_lt] at hp htlo hthi
    have hpos : 0 < tol := by linarith [hp.1, hp.2]
    constructor
    · by_contra hc
      apply htlo; constructor <;> linarith [hp.1, hp.2]
    · by_contra hc
      apply hthi; constructor <;> linarith [hp.1, hp.2]
  have strict : 0 < tol → val (a, b) < target ∧ target < val (c, d) := by
    intro ht
    refine ⟨lt_of_le_of_ne hlo fun h => htlo (by rw [h]; simpa using ht),
      lt_of_le_of_ne hhi fun h => hthi (by rw [h]; simpa using ht)⟩
  fun_induction search target tol maxD a b c d hb hd with
  | case1 a b c d hb hd h mediant hmed hle =>
    have hm : mediant = val (a + c, b + d) := rfl
    have hr : |target - val (a + c, b + d)| < tol := by rw [← hm]; exact hmed
    refine ⟨⟨by simp only; omega, by simpa using hle, by simp only; omega⟩, fun hn => absurd hr hn,
      fun _ => hr, fun _ p hp hpt => ?_⟩
    exact den_ge hb hd hp.1 hdet (inside p hpt).1 (inside p hpt).2
  | case2 a b c d hb hd h mediant hmed hle hgt =>
    have st := strict (lt_of_le_of_lt (abs_nonneg _) hmed)
    have none := none_inside hb hd hdet (by omega : maxD < b + d)
    refine ⟨⟨hd, h.2, hcd⟩, fun _ p hp => ?_, fun ⟨p, hp, hpt⟩ => ?_, fun hr => absurd hr hthi⟩
    · rcases none p hp with h1 | h1
      · exact ⟨fun h2 => by linarith [h2.1, st.1, st.2], fun h2 => by linarith [h2.1, st.1, st.2]⟩
      · exact ⟨fun h2 => by linarith [h2.2, st.1, st.2], fun h2 => by linarith [h2.2, st.1, st.2]⟩
    · have := inside p hpt
      rcases none p hp with h1 | h1 <;> linarith [this.1, this.2]
  | case3 a b c d hb hd h mediant hmed hle hgt =>
    have st := strict (lt_of_le_of_lt (abs_nonneg _) hmed)
    have none := none_inside hb hd hdet (by omega : maxD < b + d)
    refine ⟨⟨hb, h.1, hab⟩, fun _ p hp => ?_, fun ⟨p, hp, hpt⟩ => ?_, fun hr => absurd hr htlo⟩
    · rcases none p hp with h1 | h1
      · exact ⟨fun h2 => by linarith [h2.2, st.1, st.2], fun h2 => by linarith [h2.1, st.1, st.2]⟩
      · exact ⟨fun h2 => by linarith [h2.2, st.1, st.2], fun h2 => by linarith [h2.2, st.1, st.2]⟩
    · have := inside p hpt
      rcases none p hp with h1 | h1 <;> linarith [this.1, this.2]
  | case4 a b c d hb hd h mediant hmed hgt ih =>
    have hm : mediant = val (a + c, b + d) := rfl
    refine ih ?_ (by omega) hcd ?_ (by rw [← hm]; exact le_of_lt hgt) hhi (by rw [← hm]; exact hmed) hthi ?_ ?_
    · zify at hdet ⊢; linear_combination hdet
    · by_cases h2 : b + d ≤ maxD
      · exact Or.inl ⟨h2, h.2⟩
      · exact Or.inr (Or.inl ⟨by omega, h.2, a, b, hb, hdet, h.1, rfl, rfl, htlo⟩)
    · intro p hp
      refine ⟨?_, (inside p hp).2⟩
      by_contra hc
      apply hmed
      rw [abs_lt] at hp ⊢
      rw [hm] at hgt ⊢
      constructor <;> linarith [hp.1, hp.2]
    · intro ht
      exact ⟨by rw [← hm]; exact hgt, (strict ht).2⟩
  | case5 a b c d hb hd h mediant hmed hgt ih =>
    have hm : mediant = val (a + c, b + d) := rfl
    refine ih ?_ hab (by omega) ?_ hlo (by rw [← hm]; exact not_lt.mp hgt) htlo (by rw [← hm]; exact hmed) ?_ ?_
    · zify at hdet ⊢; linear_combination hdet
    · by_cases h2 : b + d ≤ maxD
      · exact Or.inl ⟨h.1, h2⟩
      · exact Or.inr (Or.inr ⟨h.1, by omega, c, d, hd, hdet, h.2, rfl, rfl, hthi⟩)
    · intro p hp
      refine ⟨(inside p hp).1, ?_⟩
      by_contra hc
      apply hmed
      rw [abs_lt] at hp ⊢
      rw [hm] at hgt ⊢
      constructor <;> linarith [hp.1, hp.2]
    · intro ht
      refine ⟨(strict ht).1, lt_of_le_of_ne (by rw [← hm]; exact not_lt.mp hgt) fun h => hmed ?_⟩
      rw [hm, h]; simpa using ht
  | case6 a b c d hb hd h hgt =>
    rcases hbd with h1 | ⟨h1, h2, a', b', hb', hdet', hb'M, rfl, rfl, ht'⟩ | ⟨h1, -⟩
    · exact absurd h1 h
    · have none := none_inside hb' hd hdet' (by omega : maxD < b' + d)
      have hmb := mediant_between hb' hd hdet'
      refine ⟨⟨hd, h2, hcd⟩, fun _ p hp => ?_, fun ⟨p, hp, hpt⟩ => ?_, fun hr => absurd hr hthi⟩
      · rcases none p hp with h3 | h3
        · exact ⟨fun h4 => by linarith [h4.1, hmb.1], fun h4 => by linarith [h4.1, hmb.2]⟩
        · exact ⟨fun h4 => by linarith [h4.2], fun h4 => by linarith [h4.2]⟩
      · have := inside p hpt
        rcases none p hp with h3 | h3 <;> linarith [this.1, this.2, hmb.1]
    · omega
  | case7 a b c d hb hd h hgt =>
    rcases hbd with h1 | ⟨h1, -⟩ | ⟨h1, h2, c', d', hd', hdet', hd'M, rfl, rfl, ht'⟩
    · exact absurd h1 h
    · omega
    · have none := none_inside hb hd' hdet' (by omega : maxD < b + d')
      have hmb := mediant_between hb hd' hdet'
      refine ⟨⟨hb, h1, hab⟩, fun _ p hp => ?_, fun ⟨p, hp, hpt⟩ => ?_, fun hr => absurd hr htlo⟩
      · rcases none p hp with h3 | h3
        · exact ⟨fun h4 => by linarith [h4.2], fun h4 => by linarith [h4.1]⟩
        · exact ⟨fun h4 => by linarith [h4.2, hmb.1], fun h4 => by linarith [h4.2, hmb.2]⟩
      · have := inside p hpt
        rcases none p hp with h3 | h3 <;> linarith [this.1, this.2, hmb.2]

end Verif.Rational
