import Verif.Fp.RoundModel
import Mathlib.Algebra.Order.Field.Power
import Mathlib.Tactic.Linarith
import Mathlib.Tactic.NormNum
import Mathlib.Tactic.Positivity
import Mathlib.Tactic.Ring
import Mathlib.Tactic.FieldSimp

/-!
# Rounding: monotone, exact on doubles, within half a unit in the last place
-/

namespace Verif.Fp

/-- What the proofs about floating-point arithmetic use of rounding. -/
structure Rounding {K : Type} [Field K] [LinearOrder K] (rnd : K → K) : Prop where
  mono : ∀ x y, x ≤ y → rnd x ≤ rnd y
  idem : ∀ x, rnd (rnd x) = rnd x
  zero : rnd 0 = 0
  one : rnd 1 = 1
  neg : ∀ x, rnd (-x) = -rnd x

theorem rne_spec (q : ℚ) : |q - rne q| ≤ 1 / 2 ∧ (|q - rne q| = 1 / 2 → rne q % 2 = 0) := by
  have h0 : (⌊q⌋ : ℚ) ≤ q := Int.floor_le q
  have h1 : q < ⌊q⌋ + 1 := Int.lt_floor_add_one q
  unfold rne
  dsimp only
  split
  · rename_i h
    rw [abs_of_nonneg (by linarith)]
    exact ⟨by linarith, fun e => by linarith⟩
  · rename_i h
    split
    · rename_i h2
      push_cast
      rw [abs_of_nonpos (by linarith)]
      exact ⟨by linarith, fun e => by linarith⟩
    · rename_i h2
      split
      · rename_i h3
        rw [abs_of_nonneg (by linarith)]
        exact ⟨by linarith, fun _ => h3⟩
      · rename_i h3
        push_cast
        rw [abs_of_nonpos (by linarith)]
        exact ⟨by linarith, fun _ => by omega⟩

theorem rne_unique (q : ℚ) (n : ℤ) (h : |q - n| ≤ 1 / 2) (he : |q - n| = 1 / 2 → n % 2 = 0) : rne q = n := by
  obtain ⟨h1, h2⟩ := rne_spec q
  by_contra hne
  have hd : |((rne q - n : ℤ) : ℚ)| ≤ 1 := by
    have : ((rne q - n : ℤ) : ℚ) = (q - n) - (q - rne q) := by push_cast; ring
    rw [this]
    exact (abs_sub _ _).trans (by linarith)
  have hd' : |rne q - n| ≤ 1 := by exact_mod_cast hd
  have hone : |rne q - n| = 1 := by
    have : 0 < |rne q - n| := abs_pos.mpr (sub_ne_zero.mpr hne)
    omega
  have hq : |((rne q - n : ℤ) : ℚ)| = 1 := by exact_mod_cast hone
  have e : ((rne q - n : ℤ) : ℚ) = (q - n) - (q - rne q) := by push_cast; ring
  have h3 : |(q - n) - (q - rne q)| ≤ |q - n| + |q - rne q| := abs_sub _ _
  rw [← e, hq] at h3
  have a1 := he (by linarith)
  have a2 := h2 (by linarith)
  rcases abs_eq (by norm_num : (0 : ℤ) ≤ 1) |>.mp hone with h | h <;> omega

theorem rne_neg (q : ℚ) : rne (-q) = -rne q := by
  obtain ⟨h1, h2⟩ := rne_spec q
  have e : |-q - ((-rne q : ℤ) : ℚ)| = |q - rne q| := by
    push_cast; rw [← abs_neg]; congr 1; ring
  refine rne_unique _ _ (by rw [e]; exact h1) fun h => ?_
  rw [e] at h
  have := h2 h
  omega

theorem rne_int (n : ℤ) : rne (n : ℚ) = n := rne_unique _ _ (by simp) (by simp)

theorem rne_mono {p q : ℚ} (h : p ≤ q) : rne p ≤ rne q := by
  by_contra hc
  rw [not_le] at hc
  obtain ⟨a1, a2⟩ := rne_spec p
  obtain ⟨b1, b2⟩ := rne_spec q
  have hc' : (rne q : ℚ) + 1 ≤ rne p := by exact_mod_cast hc
  rw [abs_le] at a1 b1
  have e1 : q = p := by linarith
  rw [e1] at hc
  exact lt_irrefl _ hc

theorem rne_le_int {p : ℚ} {n : ℤ} (h : p ≤ n) : rne p ≤ n := by
  rw [← rne_int n]; exact rne_mono h

theorem int_le_rne {p : ℚ} {n : ℤ} (h : (n : ℚ) ≤ p) : n ≤ rne p := by
  rw [← rne_int n]; exact rne_mono h

theorem lastPlace_neg (q : ℚ) : lastPlace (-q) = lastPlace q := by rw [lastPlace, lastPlace, abs_neg]

theorem rnd64_neg (q : ℚ) : rnd64 (-q) = -rnd64 q := by
  rw [rnd64, rnd64, lastPlace_neg, neg_div, rne_neg]
  push_cast; ring

theorem rnd64_zero : rnd64 0 = 0 := by decide +kernel

theorem two_zpow_pos (e : ℤ) : (0 : ℚ) < 2 ^ e := zpow_pos (by norm_num) _

/-- Multiples of the last place are doubles. -/
theorem rnd64_mult (q : ℚ) (n : ℤ) (h : q = n * 2 ^ lastPlace q) : rnd64 q = q := by
  have hp := two_zpow_pos (lastPlace q)
  have e : q / 2 ^ lastPlace q = n := by
    rw [div_eq_iff hp.ne']; exact h
  rw [rnd64, e, rne_int, ← h]

theorem lt_two_pow {q : ℚ} (hq : 0 < q) : q < 2 ^ (lastPlace q + 53) := by
  have h1 := Int.lt_zpow_succ_log_self (b := 2) (by norm_num) q
  refine lt_of_lt_of_le h1 ?_
  have : Int.log 2 q + 1 ≤ lastPlace q + 53 := by
    unfold lastPlace
    rw [abs_of_pos hq]
    have := le_max_left (Int.log 2 q) (-1022)
    omega
  exact_mod_cast zpow_le_zpow_right₀ (by norm_num : (1 : ℚ) ≤ 2) this

/-- A power of two as a multiple of a smaller one. -/
theorem pow_mult {a b : ℤ} (h : a ≤ b) : ∃ n : ℤ, (2 : ℚ) ^ b = n * 2 ^ a := by
  refine ⟨2 ^ (b - a).toNat, ?_⟩
  push_cast
  rw [← zpow_natCast, ← zpow_add₀ (by norm_num : (2 : ℚ) ≠ 0)]
  congr 1
  omega

theorem rnd64_nonneg {q : ℚ} (h : 0 ≤ q) : 0 ≤ rnd64 q := by
  have hp := two_zpow_pos (lastPlace q)
  have : (0 : ℤ) ≤ rne (q / 2 ^ lastPlace q) := int_le_rne (by push_cast; positivity)
  have : (0 : ℚ) ≤ rne (q / 2 ^ lastPlace q) := by exact_mod_cast this
  exact mul_nonneg this hp.le

/-- Up to a power of two of at least the last place. -/
theorem rnd64_le_pow {q : ℚ} (b : ℤ) (hb : lastPlace q ≤ b) (h : q ≤ 2 ^ b) : rnd64 q ≤ 2 ^ b := by
  have hp := two_zpow_pos (lastPlace q)
  obtain ⟨n, hn⟩ := pow_mult hb
  rw [hn] at h ⊢
  have : rne (q / 2 ^ lastPlace q) ≤ n := rne_le_int (by rw [div_le_iff₀ hp]; exact h)
  have : (rne (q / 2 ^ lastPlace q) : ℚ) ≤ n := by exact_mod_cast this
  exact mul_le_mul_of_nonneg_right this hp.le

theorem pow_le_rnd64 {q : ℚ} (b : ℤ) (hb : lastPlace q ≤ b) (h : 2 ^ b ≤ q) : 2 ^ b ≤ rnd64 q := by
  have hp := two_zpow_pos (lastPlace q)
  obtain ⟨n, hn⟩ := pow_mult hb
  rw [hn] at h ⊢
  have : n ≤ rne (q / 2 ^ lastPlace q) := int_le_rne (by rw [le_div_iff₀ hp]; exact h)
  have : (n : ℚ) ≤ rne (q / 2 ^ lastPlace q) := by exact_mod_cast this
  exact mul_le_mul_of_nonneg_right this hp.le

theorem lastPlace_mono {p q : ℚ} (hp : 0 < p) (h : p ≤ q) : lastPlace p ≤ lastPlace q := by
  unfold lastPlace
  rw [abs_of_pos hp, abs_of_pos (hp.trans_le h)]
  have := Int.log_mono_right (b := 2) hp h
  omega

theorem rnd64_mono_pos {p q : ℚ} (hp : 0 < p) (h : p ≤ q) : rnd64 p ≤ rnd64 q := by
  have hq := hp.trans_le h
  rcases (lastPlace_mono hp h).lt_or_eq with hl | hl
  · have hlog : lastPlace q = Int.log 2 q - 52 := by
      unfold lastPlace at hl ⊢
      rw [abs_of_pos hp, abs_of_pos hq] at hl
      rw [abs_of_pos hq]
      omega
    have h1 : p ≤ 2 ^ (lastPlace q + 52) := by
      refine (lt_two_pow hp).le.trans (zpow_le_zpow_right₀ (by norm_num) (by omega))
    have h2 : (2 : ℚ) ^ (lastPlace q + 52) ≤ q := by
      rw [hlog]
      have := Int.zpow_log_le_self (b := 2) (by norm_num) hq
      simpa using this
    exact (rnd64_le_pow _ (by omega) h1).trans (pow_le_rnd64 _ (by omega) h2)
  · rw [rnd64, rnd64, hl]
    have h0 := two_zpow_pos (lastPlace q)
    have : rne (p / 2 ^ lastPlace q) ≤ rne (q / 2 ^ lastPlace q) := rne_mono (by gcongr)
    have : (rne (p / 2 ^ lastPlace q) : ℚ) ≤ rne (q / 2 ^ lastPlace q) := by exact_mod_cast this
    exact mul_le_mul_of_nonneg_right this h0.le

theorem rnd64_mono (p q : ℚ) (h : p ≤ q) : rnd64 p ≤ rnd64 q := by
  rcases lt_trichotomy p 0 with hp | hp | hp
  · rcases le_or_gt 0 q with hq | hq
    · have := rnd64_nonneg (q := -p) (by linarith)
      rw [rnd64_neg] at this
      linarith [rnd64_nonneg hq]
    · have := rnd64_mono_pos (p := -q) (q := -p) (by linarith) (by linarith)
      rw [rnd64_neg, rnd64_neg] at this
      linarith
  · subst hp
    rw [rnd64_zero]
    exact rnd64_nonneg h
  · exact rnd64_mono_pos hp h

theorem rnd64_idem_pos {q : ℚ} (hq : 0 < q) : rnd64 (rnd64 q) = rnd64 q := by
  have hn := rnd64_nonneg hq.le
  rcases hn.eq_or_lt with h0 | h0
  · rw [← h0, rnd64_zero]
  have hle : rnd64 q ≤ 2 ^ (lastPlace q + 53) := rnd64_le_pow _ (by omega) (lt_two_pow hq).le
  rcases hle.eq_or_lt with he | hlt
  · -- the rounded value is the next power of two
    have hlp : lastPlace (rnd64 q) ≤ lastPlace q + 53 := by
      rw [he]
      unfold lastPlace
      rw [abs_of_pos (two_zpow_pos _), show (2 : ℚ) = ((2 : ℕ) : ℚ) from rfl, Int.log_zpow (by norm_num)]
      omega
    obtain ⟨n, hn'⟩ := pow_mult hlp
    exact rnd64_mult _ n (he.trans hn')
  · have hlp : lastPlace (rnd64 q) ≤ lastPlace q := by
      have h1 : Int.log 2 (rnd64 q) < lastPlace q + 53 := by
        rw [← Int.lt_zpow_iff_log_lt (by norm_num) h0]
        exact_mod_cast hlt
      have h2 : -1022 - 52 ≤ lastPlace q := by unfold lastPlace; omega
      unfold lastPlace at *
      rw [abs_of_pos h0]
      omega
    have hmul : ∃ n : ℤ, rnd64 q = n * 2 ^ lastPlace (rnd64 q) := by
      obtain ⟨m, hm⟩ := pow_mult hlp
      refine ⟨rne (q / 2 ^ lastPlace q) * m, ?_⟩
      push_cast
      rw [mul_assoc, ← hm]
      rfl
    obtain ⟨n, hn'⟩ := hmul
    exact rnd64_mult _ n hn'

theorem rnd64_idem (q : ℚ) : rnd64 (rnd64 q) = rnd64 q := by
  rcases lt_trichotomy q 0 with h | h | h
  · have := rnd64_idem_pos (q := -q) (by linarith)
    rw [rnd64_neg, rnd64_neg] at this
    linarith
  · subst h; rw [rnd64_zero, rnd64_zero]
  · exact rnd64_idem_pos h

/-- Double-precision rounding is a rounding. -/
theorem rounding64 : Rounding rnd64 where
  mono := rnd64_mono
  idem := rnd64_idem
  zero := rnd64_zero
  one := by decide +kernel
  neg := rnd64_neg

/-- Relative error of normal results: at most `2^-53`. -/
theorem rnd64_error (q : ℚ) (h : (2 : ℚ) ^ (-1022 : ℤ) ≤ |q|) : |rnd64 q - q| ≤ 2 ^ (-53 : ℤ) * |q| := by
  have hp := two_zpow_pos (lastPlace q)
  have hq : 0 < |q| := (two_zpow_pos _).trans_le h
  have hlog : -1022 ≤ Int.log 2 |q| := by
    rw [← Int.zpow_le_iff_le_log (by norm_num) hq]
    exact_mod_cast h
  have hl : lastPlace q = Int.log 2 |q| - 52 := by unfold lastPlace; omega
  have h2 : (2 : ℚ) ^ (lastPlace q + 52) ≤ |q| := by
    rw [hl]
    have := Int.zpow_log_le_self (b := 2) (by norm_num) hq
    simpa using this
  have e : rnd64 q - q = -((q / 2 ^ lastPlace q - rne (q / 2 ^ lastPlace q)) * 2 ^ lastPlace q) := by
    rw [rnd64, sub_mul, div_mul_cancel₀ _ hp.ne']; ring
  rw [e, abs_neg, abs_mul, abs_of_pos hp]
  calc _ ≤ 1 / 2 * (2 : ℚ) ^ lastPlace q := mul_le_mul_of_nonneg_right (rne_spec _).1 hp.le
    _ = 2 ^ (-53 : ℤ) * 2 ^ (lastPlace q + 52) := by
        rw [← zpow_add₀ (by norm_num : (2 : ℚ) ≠ 0), show (1 / 2 : ℚ) = 2 ^ (-1 : ℤ) by norm_num, ← zpow_add₀ (by norm_num : (2 : ℚ) ≠ 0)]
        congr 1; ring
    _ ≤ _ := mul_le_mul_of_nonneg_left h2 (two_zpow_pos _).le

/-- The nearest double to one tenth. -/
example : rnd64 (1 / 10) = 3602879701896397 / 36028797018963968 := by decide +kernel

end Verif.Fp
