import Verif.Cmfd.FloatModel
import Verif.Cmfd.Model
import Verif.XS.HomogFloatProps
import Mathlib.Tactic.Linarith
import Mathlib.Tactic.Positivity
import Mathlib.Tactic.FieldSimp
import Mathlib.Tactic.Ring

/-!
# C152: CMFD in double precision repeats currents and surface fluxes up to rounding
-/

namespace Verif.Cmfd

open Verif.Fp Verif.XS

section
variable {K : Type} [Field K] [LinearOrder K] [IsStrictOrderedRing K] {rnd : K → K}

/-- **C152, coupling.**  Whatever the rounding, D-tilde is not negative. -/
theorem C152_dtilde_nonneg (R : Rounding rnd) (d1 d2 y : K) (h1 : 0 ≤ d1) (h2 : 0 ≤ d2) (h : dTildeF rnd d1 d2 = some y) : 0 ≤ y := by
  unfold dTildeF quotF at h
  split at h
  · exact absurd h (by simp)
  · rw [← Option.some.inj h]
    refine rnn R (div_nonneg (rnn R (mul_nonneg (rnn R (by positivity)) h2)) (rnn R (by positivity)))

/-- **C152, weights.**  Whatever the rounding, S-tilde is between zero and one. -/
theorem C152_stilde_fraction (R : Rounding rnd) (d1 d2 y : K) (h1 : 0 ≤ d1) (h2 : 0 ≤ d2) (e1 : rnd d1 = d1) (e2 : rnd d2 = d2) (h : sTildeF rnd d1 d2 = some y) :
    0 ≤ y ∧ y ≤ 1 := by
  have key : ∀ a b : K, 0 ≤ a → rnd a = a → a ≤ b → quotF rnd a (rnd b) = some y → 0 ≤ y ∧ y ≤ 1 := by
    intro a b ha ea hab hq
    unfold quotF at hq
    split at hq
    · exact absurd hq (by simp)
    · rename_i hne
      rw [← Option.some.inj hq]
      have hb : a ≤ rnd b := rge R ea hab
      have hpos : 0 < rnd b := lt_of_le_of_ne (ha.trans hb) (Ne.symm hne)
      refine ⟨rnn R (div_nonneg ha hpos.le), ?_⟩
      have := R.mono (a / rnd b) 1 ((div_le_one hpos).mpr hb)
      rwa [R.one] at this
  unfold sTildeF at h
  split at h
  · exact key d1 (d1 + d2) h1 e1 (by linarith) h
  · exact key d2 (d1 + d2) h2 e2 (by linarith) h

omit [IsStrictOrderedRing K] in
/-- **C152, reflective boundary.**  No coupling and the flux of the cell, exactly. -/
theorem C152_reflective (R : Rounding rnd) (d : K) (hd : 0 < d) (e : rnd d = d) :
    dTildeF rnd (Side.diffF rnd .reflect) d = some 0 ∧ dTildeF rnd d (Side.diffF rnd .reflect) = some 0 ∧ sTildeF rnd (Side.diffF rnd .reflect) d = some 1 ∧
    sTildeF rnd d (Side.diffF rnd .reflect) = some 1 := by
  have hz : Side.diffF rnd .reflect = 0 := by simp only [Side.diffF, zero_div, R.zero]
  rw [hz]
  unfold dTildeF sTildeF quotF
  simp only [mul_zero, zero_mul, R.zero, zero_add, add_zero, e, hd.ne', if_false, zero_div, lt_irrefl, hd, if_true, div_self hd.ne', R.one, and_self]

omit [IsStrictOrderedRing K] in
/-- **C152, exchange.**  What a surface takes from the cell on one side, diagonal element, is what it gives to the cell on the other, element off the diagonal, exactly. -/
theorem C152_exchange (R : Rounding rnd) (low : Bool) (a dt dh : K) : offDiagF rnd (!low) a dt dh = -diagTermF rnd low a dt dh := by
  unfold offDiagF diagTermF
  cases low
  · simp only [Bool.not_false, if_true, Bool.false_eq_true, if_false]
    rw [show -dh - dt = -(dt + dh) by ring, R.neg, mul_neg, R.neg]
  · simp only [Bool.not_true, if_true, Bool.false_eq_true, if_false]
    rw [show dh - dt = -(dt + -dh) by ring, R.neg, mul_neg, R.neg]

omit [LinearOrder K] [IsStrictOrderedRing K] in
/-- **C152, symmetry.**  Without correction the two elements of a surface are equal. -/
theorem C152_symmetric (a dt : K) : offDiagF rnd true a dt 0 = offDiagF rnd false a dt 0 := by
  unfold offDiagF
  simp

/-- **C152, signs.**  While the correction is not larger than the coupling, no element off the diagonal is positive and the diagonal one is not below any of its parts. -/
theorem C152_signs (R : Rounding rnd) (a dt dh : K) (ha : 0 ≤ a) (h : |dh| ≤ dt) (low : Bool) : offDiagF rnd low a dt dh ≤ 0 ∧ 0 ≤ diagTermF rnd low a dt dh := by
  have h2 : ∀ low, 0 ≤ diagTermF rnd low a dt dh := by
    intro low
    unfold diagTermF
    refine rnn R (mul_nonneg ha (rnn R ?_))
    have := abs_le.mp h
    split <;> linarith
  refine ⟨?_, h2 low⟩
  have := C152_exchange R (!low) a dt dh
  rw [Bool.not_not] at this
  rw [this]
  exact neg_nonpos.mpr (h2 _)

theorem C152_diagonal (R : Rounding rnd) (vol rm : K) (hv : 0 ≤ vol) (hr : 0 ≤ rm) (ss : List (Bool × K × K × K)) (h : ∀ s ∈ ss, 0 ≤ s.2.1 ∧ |s.2.2.2| ≤ s.2.2.1) :
    rnd (vol * rm) ≤ diagF rnd vol rm ss ∧ ∀ s ∈ ss, diagTermF rnd s.1 s.2.1 s.2.2.1 s.2.2.2 ≤ diagF rnd vol rm ss := by
  have key : ∀ (ss : List (Bool × K × K × K)) (v : K), (∀ s ∈ ss, 0 ≤ s.2.1 ∧ |s.2.2.2| ≤ s.2.2.1) → 0 ≤ v → rnd v = v →
      v ≤ ss.foldl (fun v s => rnd (v + diagTermF rnd s.1 s.2.1 s.2.2.1 s.2.2.2)) v ∧
      ∀ s ∈ ss, diagTermF rnd s.1 s.2.1 s.2.2.1 s.2.2.2 ≤ ss.foldl (fun v s => rnd (v + diagTermF rnd s.1 s.2.1 s.2.2.1 s.2.2.2)) v := by
    intro ss
    induction ss with
    | nil => intro v _ _ _; exact ⟨le_rfl, by simp⟩
    | cons s ss ih =>
      intro v h hv ev
      rw [List.foldl_cons]
      have hs := h s List.mem_cons_self
      have ht := (C152_signs R s.2.1 s.2.2.1 s.2.2.2 hs.1 hs.2 s.1).2
      have et : rnd (diagTermF rnd s.1 s.2.1 s.2.2.1 s.2.2.2) = diagTermF rnd s.1 s.2.1 s.2.2.1 s.2.2.2 := by
        unfold diagTermF; exact R.idem _
      have h1 : v ≤ rnd (v + diagTermF rnd s.1 s.2.1 s.2.2.1 s.2.2.2) := rge R ev (by linarith)
      have h2 : diagTermF rnd s.1 s.2.1 s.2.2.1 s.2.2.2 ≤ rnd (v + diagTermF rnd s.1 s.2.1 s.2.2.1 s.2.2.2) := rge R et (by linarith)
      obtain ⟨i1, i2⟩ := ih (rnd (v + diagTermF rnd s.1 s.2.1 s.2.2.1 s.2.2.2)) (fun x hx => h x (List.mem_cons_of_mem _ hx)) (hv.trans h1) (R.idem _)
      refine ⟨h1.trans i1, fun x hx => ?_⟩
      rcases List.mem_cons.mp hx with rfl | hx
      · exact h2.trans i1
      · exact i2 x hx
  exact key ss _ h (rnn R (mul_nonneg hv hr)) (R.idem _)

end

/-- Half of the smallest double. -/
def eta : ℚ := 2 ^ (-1075 : ℤ)

theorem abs_err (q : ℚ) : |rnd64 q - q| ≤ uro * |q| + eta := by
  have heta : 0 ≤ eta := by unfold eta; positivity
  by_cases h0 : q = 0
  · subst h0
    rw [rnd64_zero]
    simpa using heta
  rcases le_or_gt ((2 : ℚ) ^ (-1022 : ℤ)) |q| with h | h
  · have := rel_normal (x := q) (Or.inr h)
    linarith
  · have hl : lastPlace q = -1074 := by
      unfold lastPlace
      rw [max_eq_right, show (-1022 : ℤ) - 52 = -1074 by norm_num]
      have := Int.zpow_log_le_self (b := 2) (by norm_num) (abs_pos.mpr h0)
      by_contra hc
      have h1 : (2 : ℚ) ^ (-1022 : ℤ) ≤ 2 ^ (Int.log 2 |q|) := zpow_le_zpow_right₀ (by norm_num) (by omega)
      have h2 : ((2 : ℕ) : ℚ) ^ (Int.log 2 |q|) = (2 : ℚ) ^ (Int.log 2 |q|) := by norm_num
      rw [h2] at this
      linarith
    unfold rnd64
    rw [hl]
    have hp : (0 : ℚ) < 2 ^ (-1074 : ℤ) := by positivity
    have hs := (rne_spec (q / 2 ^ (-1074 : ℤ))).1
    generalize rne (q / 2 ^ (-1074 : ℤ)) = n at *
    have e : |(n : ℚ) * 2 ^ (-1074 : ℤ) - q| = |q / 2 ^ (-1074 : ℤ) - n| * 2 ^ (-1074 : ℤ) := by
      rw [← abs_of_pos hp, ← abs_mul, abs_of_pos hp, sub_mul, div_mul_cancel₀ _ hp.ne', abs_sub_comm]
    rw [e]
    have h2 : eta = 1 / 2 * 2 ^ (-1074 : ℤ) := by
      unfold eta
      rw [show (-1074 : ℤ) = -1075 + 1 by norm_num, zpow_add₀ (by norm_num), zpow_one]
      ring
    rw [h2]
    have : 0 ≤ uro * |q| := mul_nonneg uro_pos.le (abs_nonneg _)
    have := mul_le_mul_of_nonneg_right hs hp.le
    linarith

/-- A rounded quotient times its divisor. -/
theorem back (n q : ℚ) (hq : 0 < q) : |rnd64 (rnd64 (n / q) * q) - n| ≤ (2 * uro + uro ^ 2) * |n| + 2 * eta * (q + 1) := by
  have heta : 0 ≤ eta := by unfold eta; positivity
  have h1 := mul_le_mul_of_nonneg_right (abs_err (n / q)) hq.le
  have e1 : |rnd64 (n / q) - n / q| * q = |rnd64 (n / q) * q - n| := by
    rw [← abs_of_pos hq, ← abs_mul, abs_of_pos hq, sub_mul, div_mul_cancel₀ _ hq.ne']
  have e2 : (uro * |n / q| + eta) * q = uro * |n| + eta * q := by
    rw [abs_div, abs_of_pos hq]
    field_simp
  rw [e1, e2] at h1
  generalize rnd64 (n / q) * q = m at *
  have h2 := abs_err m
  have h3 : |m| ≤ |n| + (uro * |n| + eta * q) := by
    have := abs_sub_abs_le_abs_sub m n
    linarith
  have h4 : |rnd64 m - n| ≤ |rnd64 m - m| + |m - n| := abs_sub_le _ _ _
  have h5 : uro * |m| ≤ uro * (|n| + (uro * |n| + eta * q)) := mul_le_mul_of_nonneg_left h3 uro_pos.le
  have h6 : uro * (eta * q) ≤ eta * q := by
    have : uro ≤ 1 := by unfold uro; norm_num
    nlinarith [mul_nonneg heta hq.le]
  nlinarith

theorem dbl_pos_sum {a b : ℚ} (ha : Dbl a) (hb : Dbl b) (h : 0 < a + b) : 0 < rnd64 (a + b) ∧ rnd64 (a + b) ≤ 2 * (a + b) := by
  have hr := rel_add ha hb
  rw [abs_of_pos h] at hr
  have := abs_le.mp hr
  have hu : uro = 1 / 2 ^ 53 := rfl
  rw [hu] at this
  constructor <;> nlinarith

/-- **C152, current.**  When the flux has not changed, the current stored by CMFD is the current it was given, up to five roundings of that current and of the diffusion current.  No assumption on
magnitudes is made. -/
theorem C152_current (dt j fl fr : ℚ) (hj : Dbl j) (hl : Dbl fl) (hr : Dbl fr) (hp : 0 < fl + fr) :
    |currentF rnd64 dt (dHatF rnd64 dt j fl fr) fl fr - j| ≤ 5 / 2 ^ 53 * (|j| + |dt * (fr - fl)|) + 5 * eta * (fl + fr + 1) := by
  obtain ⟨q0, q2⟩ := dbl_pos_sum hl hr hp
  unfold currentF dHatF quotF
  rw [if_neg q0.ne', Option.getD_some, add_comm fr fl, neg_mul, rnd64_neg]
  have ha := rel_sub hr hl
  generalize rnd64 (fr - fl) = t1 at *
  have hb := abs_err (dt * t1)
  have hbd : Dbl (rnd64 (dt * t1)) := dbl_rnd _
  generalize rnd64 (dt * t1) = t2 at *
  have hc := rel_add hj hbd
  generalize rnd64 (j + t2) = t3 at *
  have hd := back t3 _ q0
  have hdd : Dbl (rnd64 (rnd64 (t3 / rnd64 (fl + fr)) * rnd64 (fl + fr))) := dbl_rnd _
  generalize rnd64 (rnd64 (t3 / rnd64 (fl + fr)) * rnd64 (fl + fr)) = c2 at *
  generalize rnd64 (fl + fr) = q at *
  have hn : Dbl (-t2) := by unfold Dbl; rw [rnd64_neg, hbd]
  have he := rel_add hn hdd
  generalize rnd64 (-t2 + c2) = cur at *
  have heta0 : 0 ≤ eta := by unfold eta; positivity
  -- the products
  have f1 : |dt * t1| ≤ (1 + uro) * |dt * (fr - fl)| := by
    rw [abs_mul, abs_mul]
    have : |t1| ≤ (1 + uro) * |fr - fl| := by
      have := abs_sub_abs_le_abs_sub t1 (fr - fl)
      linarith
    nlinarith [abs_nonneg dt]
  have f2 : |t2| ≤ |dt * t1| + (uro * |dt * t1| + eta) := by
    have := abs_sub_abs_le_abs_sub t2 (dt * t1)
    linarith
  have f3 : |j + t2| ≤ |j| + |t2| := abs_add_le _ _
  have f4 : |t3| ≤ |j + t2| + uro * |j + t2| := by
    have := abs_sub_abs_le_abs_sub t3 (j + t2)
    linarith
  have f5 : |-t2 + c2 - j| ≤ |c2 - t3| + |t3 - (j + t2)| := by
    rw [show -t2 + c2 - j = (c2 - t3) + (t3 - (j + t2)) by ring]
    exact abs_add_le _ _
  have f6 : |-t2 + c2| ≤ |j| + |-t2 + c2 - j| := by
    have := abs_sub_abs_le_abs_sub (-t2 + c2) j
    linarith
  have f7 : |cur - j| ≤ |cur - (-t2 + c2)| + |-t2 + c2 - j| := abs_sub_le _ _ _
  have eq1 : eta * q ≤ 2 * (eta * (fl + fr)) := by linarith [mul_le_mul_of_nonneg_left q2 heta0]
  have gj := abs_nonneg j
  have gd := abs_nonneg (dt * (fr - fl))
  have ge : 0 ≤ eta * (fl + fr) := mul_nonneg heta0 hp.le
  rw [show 5 * eta * (fl + fr + 1) = 5 * (eta * (fl + fr)) + 5 * eta by ring]
  have hd' : |c2 - t3| ≤ (2 * uro + uro ^ 2) * |t3| + 2 * (eta * q) + 2 * eta := by linarith
  generalize |dt * (fr - fl)| = A at *
  generalize |j| = J at *
  generalize |dt * t1| = B at *
  generalize |t2| = T at *
  generalize |j + t2| = S at *
  generalize |t3| = U at *
  generalize eta * q = eq at *
  generalize eta * (fl + fr) = es at *
  generalize |-t2 + c2 - j| = V at *
  generalize |c2 - t3| = W at *
  generalize |t3 - (j + t2)| = X at *
  generalize |-t2 + c2| = Y at *
  generalize |cur - (-t2 + c2)| = Z at *
  generalize eta = m at *
  unfold uro at hc he f1 f2 f4 hd'
  norm_num at hc he f1 f2 f4 hd' ⊢
  linarith

/-- C152, the claim: the error of the current is a fraction of the current. -/
def C152_current_claim : Prop := ∀ dt j fl fr : ℚ, Dbl dt → Dbl j → Dbl fl → Dbl fr → 0 ≤ dt → 0 ≤ fl → 0 ≤ fr → 0 < fl + fr →
  |currentF rnd64 dt (dHatF rnd64 dt j fl fr) fl fr - j| ≤ 1 / 2 * |j|

/-- C152: false; a current small against the diffusion current of the two fluxes is lost, zero comes back. -/
theorem C152_current_claim_false : ¬ C152_current_claim := by
  intro h
  have := h 1 (1 / 2 ^ 60) 1 2 (by unfold Dbl; decide +kernel) (by unfold Dbl; decide +kernel) (by unfold Dbl; decide +kernel) (by unfold Dbl; decide +kernel)
    (by norm_num) (by norm_num) (by norm_num) (by norm_num)
  rw [show currentF rnd64 1 (dHatF rnd64 1 (1 / 2 ^ 60) 1 2) 1 2 = 0 by decide +kernel] at this
  norm_num [abs_of_pos] at this

/-- **C152, no flux.**  Where both fluxes are zero the given current is replaced by zero; the surface flux has no correction that is a number. -/
theorem C152_zero_flux (dt j st sfc : ℚ) (left : Bool) : currentF rnd64 dt (dHatF rnd64 dt j 0 0) 0 0 = 0 ∧ sHatF rnd64 left st sfc 0 0 = none := by
  constructor
  · unfold currentF dHatF quotF
    simp only [sub_zero, add_zero, rnd64_zero, mul_zero, if_true, Option.getD_none]
  · unfold sHatF quotF
    cases left <;> simp only [add_zero, rnd64_zero, if_true, Bool.false_eq_true, if_false]

theorem weighted {w x : ℚ} (hx : Dbl x) (h0 : 0 ≤ x) (w0 : 0 ≤ w) (w1 : w ≤ 1) : 0 ≤ rnd64 (w * x) ∧ rnd64 (w * x) ≤ x := by
  refine ⟨rnd64_nonneg (mul_nonneg w0 h0), ?_⟩
  have := rnd64_mono (w * x) x (by nlinarith)
  rwa [hx] at this

theorem complement {w : ℚ} (w0 : 0 ≤ w) (w1 : w ≤ 1) : 0 ≤ rnd64 (1 - w) ∧ rnd64 (1 - w) ≤ 1 := by
  refine ⟨rnd64_nonneg (by linarith), ?_⟩
  have := rnd64_mono (1 - w) 1 (by linarith)
  rwa [rounding64.one] at this

theorem surface_steps (sfc p1 p2 n1 n2 c2 b1 r q S : ℚ) (hS : |sfc| + p1 + p2 ≤ S) (h1 : 0 ≤ p1) (h2 : 0 ≤ p2) (hn1 : |n1 - (sfc - p1)| ≤ uro * |sfc - p1|)
    (hn2 : |n2 - (n1 - p2)| ≤ uro * |n1 - p2|) (hb : |b1 - (p1 + p2)| ≤ uro * |p1 + p2|) (hc : |c2 - n2| ≤ (2 * uro + uro ^ 2) * |n2| + 2 * eta * (q + 1))
    (hr : |r - (b1 + c2)| ≤ uro * |b1 + c2|) (hq : 0 ≤ eta * (q + 1)) : |r - sfc| ≤ 7 * uro * S + 3 * (eta * (q + 1)) := by
  have a1 : |sfc - p1| ≤ |sfc| + p1 := by
    have := abs_sub sfc p1
    rwa [abs_of_nonneg h1] at this
  have a2 : |n1 - p2| ≤ |sfc| + p1 + p2 + |n1 - (sfc - p1)| := by
    have e : n1 - p2 = (n1 - (sfc - p1)) + (sfc - p1) - p2 := by ring
    have g1 := abs_sub ((n1 - (sfc - p1)) + (sfc - p1)) p2
    have g2 := abs_add_le (n1 - (sfc - p1)) (sfc - p1)
    rw [abs_of_nonneg h2] at g1
    rw [e]
    linarith
  have a3 : |n2| ≤ |n1 - p2| + |n2 - (n1 - p2)| := by
    have := abs_sub_abs_le_abs_sub n2 (n1 - p2)
    linarith
  have a4 : |p1 + p2| = p1 + p2 := abs_of_nonneg (by linarith)
  have a5 : |b1 + c2 - sfc| ≤ |b1 - (p1 + p2)| + |c2 - n2| + |n2 - (n1 - p2)| + |n1 - (sfc - p1)| := by
    have e : b1 + c2 - sfc = (b1 - (p1 + p2)) + (c2 - n2) + (n2 - (n1 - p2)) + (n1 - (sfc - p1)) := by ring
    rw [e]
    have g1 := abs_add_le ((b1 - (p1 + p2)) + (c2 - n2) + (n2 - (n1 - p2))) (n1 - (sfc - p1))
    have g2 := abs_add_le ((b1 - (p1 + p2)) + (c2 - n2)) (n2 - (n1 - p2))
    have g3 := abs_add_le (b1 - (p1 + p2)) (c2 - n2)
    linarith
  have a6 : |b1 + c2| ≤ |sfc| + |b1 + c2 - sfc| := by
    have := abs_sub_abs_le_abs_sub (b1 + c2) sfc
    linarith
  have a7 : |r - sfc| ≤ |r - (b1 + c2)| + |b1 + c2 - sfc| := abs_sub_le _ _ _
  have g0 := abs_nonneg sfc
  rw [a4] at hb
  have hc' : |c2 - n2| ≤ (2 * uro + uro ^ 2) * |n2| + 2 * (eta * (q + 1)) := by linarith
  generalize |sfc| = F at *
  generalize |sfc - p1| = A at *
  generalize |n1 - (sfc - p1)| = B at *
  generalize |n1 - p2| = C at *
  generalize |n2 - (n1 - p2)| = D at *
  generalize |n2| = E at *
  generalize |c2 - n2| = G at *
  generalize |b1 - (p1 + p2)| = H at *
  generalize |b1 + c2 - sfc| = I at *
  generalize |b1 + c2| = J at *
  generalize |r - (b1 + c2)| = L at *
  generalize eta * (q + 1) = m at *
  unfold uro at hn1 hn2 hb hc' hr ⊢
  norm_num at hn1 hn2 hb hc' hr ⊢
  linarith

/-- **C152, surface flux.**  When the flux has not changed, the surface flux stored by CMFD is the one it was given, up to seven roundings of the fluxes around. -/
theorem C152_surface_flux (left : Bool) (st sfc fl fr : ℚ) (s0 : 0 ≤ st) (s1 : st ≤ 1) (hf : Dbl sfc) (hl : Dbl fl) (hr : Dbl fr) (l0 : 0 ≤ fl) (r0 : 0 ≤ fr) (hp : 0 < fl + fr)
    (hb : left = false → fl = 0) :
    ∃ sh, sHatF rnd64 left st sfc fl fr = some sh ∧ |surfaceFluxF rnd64 left st sh fl fr - sfc| ≤ 7 / 2 ^ 53 * (|sfc| + fl + fr) + 6 * eta * (fl + fr + 1) := by
  have heta0 : 0 ≤ eta := by unfold eta; positivity
  have hfin : ∀ q r : ℚ, 0 < q → q ≤ 2 * (fl + fr) → |r - sfc| ≤ 7 * uro * (|sfc| + fl + fr) + 3 * (eta * (q + 1)) →
      |r - sfc| ≤ 7 / 2 ^ 53 * (|sfc| + fl + fr) + 6 * eta * (fl + fr + 1) := by
    intro q r _ hq h
    have := mul_le_mul_of_nonneg_left hq heta0
    unfold uro at h
    nlinarith
  obtain ⟨q0, q2⟩ := dbl_pos_sum hl hr hp
  cases left with
  | true =>
    unfold sHatF quotF surfaceFluxF
    simp only [if_true, if_neg q0.ne']
    refine ⟨_, rfl, hfin _ _ q0 q2 ?_⟩
    obtain ⟨x0, x1⟩ := weighted hl l0 s0 s1
    obtain ⟨w0, w1⟩ := complement s0 s1
    obtain ⟨y0, y1⟩ := weighted hr r0 w0 w1
    refine surface_steps sfc _ _ _ _ _ _ _ _ _ (by linarith) x0 y0 (rel_sub hf (dbl_rnd _)) (rel_sub (dbl_rnd _) (dbl_rnd _)) (rel_add (dbl_rnd _) (dbl_rnd _)) (back _ _ q0)
      (rel_add (dbl_rnd _) (dbl_rnd _)) (mul_nonneg heta0 (by linarith))
  | false =>
    have hl0 := hb rfl
    subst hl0
    rw [zero_add] at hp
    unfold sHatF quotF surfaceFluxF
    simp only [Bool.false_eq_true, if_false, if_neg hp.ne', zero_add]
    refine ⟨_, rfl, ?_⟩
    have hfr : rnd64 fr = fr := hr
    rw [hfr]
    have := hfin fr (rnd64 (rnd64 (st * fr) + rnd64 (rnd64 (rnd64 (sfc - rnd64 (st * fr)) / fr) * fr))) hp (by linarith) ?_
    · simpa using this
    · obtain ⟨y0, y1⟩ := weighted hr r0 s0 s1
      refine surface_steps sfc (rnd64 (st * fr)) 0 (rnd64 (sfc - rnd64 (st * fr))) (rnd64 (sfc - rnd64 (st * fr))) _ (rnd64 (st * fr)) _ _ _ (by linarith) y0 le_rfl
        (rel_sub hf (dbl_rnd _)) ?_ ?_ (back _ _ hp) (rel_add (dbl_rnd _) (dbl_rnd _)) (mul_nonneg heta0 (by linarith))
      · rw [sub_zero, sub_self, abs_zero]
        exact mul_nonneg uro_pos.le (abs_nonneg _)
      · rw [add_zero, sub_self, abs_zero]
        exact mul_nonneg uro_pos.le (abs_nonneg _)

/-- Diffusivity on one side of a surface in exact arithmetic. -/
def Side.diff : Side ℚ → ℚ
  | .cell tr h => 1 / (3 * tr) / h
  | .vacuum => 1 / 4
  | .reflect => 0

/-- Positive data, and nothing so small that places are lost. -/
def Side.Ok : Side ℚ → Prop
  | .cell tr h => 0 < tr ∧ 0 < h ∧ Sizeable (3 * tr) ∧ Sizeable (1 / (3 * tr)) ∧ Sizeable (1 / (3 * tr) / h)
  | .vacuum => True
  | .reflect => True

theorem side_near (s : Side ℚ) (h : s.Ok) : Near 3 s.diff (s.diffF rnd64) ∧ Dbl (s.diffF rnd64) := by
  cases s with
  | cell tr hh =>
    obtain ⟨h1, h2, z1, z2, z3⟩ := h
    refine ⟨?_, dbl_rnd _⟩
    have n1 : Near 1 (3 * tr) (rnd64 (3 * tr)) := near_prod (by norm_num) h1.le (Source.sizeable_normal z1)
    have p1 : 0 < rnd64 (3 * tr) := Source.near_pos n1 (by linarith)
    have n2 : Near 2 (1 / (3 * tr)) (rnd64 (1 / rnd64 (3 * tr))) := near_div (by norm_num) (Near.refl (by norm_num)) n1 (by linarith) p1 z2
    exact near_div (by norm_num) n2 (Near.refl h2.le) h2 h2 z3
  | vacuum =>
    have e : Side.diffF rnd64 .vacuum = 1 / 4 := by decide +kernel
    rw [e]
    exact ⟨(Near.refl (by norm_num [Side.diff])).mono (by norm_num), by unfold Dbl; decide +kernel⟩
  | reflect =>
    have e : Side.diffF rnd64 .reflect = 0 := by decide +kernel
    rw [e]
    exact ⟨(Near.refl le_rfl).mono (by norm_num), rnd64_zero⟩

/-- **C152, coupling in doubles.**  D-tilde and S-tilde of a surface have a relative error of at most 14 and 9 roundings. -/
theorem C152_coupling (a b : Side ℚ) (ha : a.Ok) (hb : b.Ok) (hp : 0 < a.diff + b.diff) :
    (Sizeable (2 * a.diff * b.diff) → Sizeable (dTilde a.diff b.diff) →
      ∃ y, dTildeF rnd64 (a.diffF rnd64) (b.diffF rnd64) = some y ∧ |y - dTilde a.diff b.diff| ≤ 14 / 2 ^ 53 * dTilde a.diff b.diff) ∧
    (Sizeable (sTilde a.diff b.diff) → ∃ y, sTildeF rnd64 (a.diffF rnd64) (b.diffF rnd64) = some y ∧ |y - sTilde a.diff b.diff| ≤ 9 / 2 ^ 53 * sTilde a.diff b.diff) := by
  obtain ⟨na, da⟩ := side_near a ha
  obtain ⟨nb, db⟩ := side_near b hb
  have ns := near_add na nb da db
  have ps := Source.near_pos ns hp
  constructor
  · intro z1 z2
    unfold dTildeF quotF
    rw [if_neg ps.ne']
    refine ⟨_, rfl, ?_⟩
    have n1 := near_mul (by norm_num) (near_two na da) nb z1
    have n2 := near_div (by norm_num) n1 ns hp ps z2
    have := n2.err (by norm_num)
    unfold dTilde
    unfold uro at this
    norm_num at this ⊢
    linarith
  · intro z
    unfold sTildeF quotF
    rw [if_neg ps.ne', if_neg ps.ne']
    unfold sTilde at z ⊢
    rcases na.1.lt_or_eq with h | h
    · have h' := Source.near_pos na h
      rw [if_pos h] at z
      rw [if_pos h', if_pos h]
      refine ⟨_, rfl, ?_⟩
      have := (near_div (by norm_num) na ns hp ps z).err (by norm_num)
      unfold uro at this
      norm_num at this ⊢
      linarith
    · have h' : ¬ 0 < a.diffF rnd64 := fun hc => (Source.near_pos' na hc).ne h
      rw [if_neg h.symm.le.not_gt] at z
      rw [if_neg h', if_neg h.symm.le.not_gt]
      refine ⟨_, rfl, ?_⟩
      have := (near_div (by norm_num) nb ns hp ps z).err (by norm_num)
      unfold uro at this
      norm_num at this ⊢
      linarith

/-- **C152, partial currents.** -/
theorem C152_partial (sf cur : ℚ) : |(partialF rnd64 sf cur).1 - (1 / 4 * sf + 1 / 2 * cur)| ≤ 3 / 2 ^ 53 * (1 / 4 * |sf| + 1 / 2 * |cur|) + 3 * eta ∧
    |(partialF rnd64 sf cur).2 - (1 / 4 * sf - 1 / 2 * cur)| ≤ 3 / 2 ^ 53 * (1 / 4 * |sf| + 1 / 2 * |cur|) + 3 * eta := by
  have heta0 : 0 ≤ eta := by unfold eta; positivity
  unfold partialF
  have h1 := abs_err (1 / 4 * sf)
  have h2 := abs_err (1 / 2 * cur)
  have e1 : |1 / 4 * sf| = 1 / 4 * |sf| := by rw [abs_mul]; norm_num
  have e2 : |1 / 2 * cur| = 1 / 2 * |cur| := by rw [abs_mul]; norm_num
  have d1 : Dbl (rnd64 (1 / 4 * sf)) := dbl_rnd _
  have d2 : Dbl (rnd64 (1 / 2 * cur)) := dbl_rnd _
  have h3 := rel_add d1 d2
  have h4 := rel_sub d1 d2
  rw [e1] at h1
  rw [e2] at h2
  simp only
  generalize rnd64 (1 / 4 * sf) = p at *
  generalize rnd64 (1 / 2 * cur) = q at *
  generalize rnd64 (p + q) = r1 at *
  generalize rnd64 (p - q) = r2 at *
  have g1 : |p| ≤ 1 / 4 * |sf| + |p - 1 / 4 * sf| := by
    have := abs_sub_abs_le_abs_sub p (1 / 4 * sf)
    linarith
  have g2 : |q| ≤ 1 / 2 * |cur| + |q - 1 / 2 * cur| := by
    have := abs_sub_abs_le_abs_sub q (1 / 2 * cur)
    linarith
  have k1 := abs_add_le p q
  have k2 := abs_sub p q
  have m1 : |r1 - (1 / 4 * sf + 1 / 2 * cur)| ≤ |r1 - (p + q)| + |p - 1 / 4 * sf| + |q - 1 / 2 * cur| := by
    rw [show r1 - (1 / 4 * sf + 1 / 2 * cur) = (r1 - (p + q)) + (p - 1 / 4 * sf) + (q - 1 / 2 * cur) by ring]
    have := abs_add_le ((r1 - (p + q)) + (p - 1 / 4 * sf)) (q - 1 / 2 * cur)
    have := abs_add_le (r1 - (p + q)) (p - 1 / 4 * sf)
    linarith
  have m2 : |r2 - (1 / 4 * sf - 1 / 2 * cur)| ≤ |r2 - (p - q)| + |p - 1 / 4 * sf| + |q - 1 / 2 * cur| := by
    rw [show r2 - (1 / 4 * sf - 1 / 2 * cur) = (r2 - (p - q)) + (p - 1 / 4 * sf) - (q - 1 / 2 * cur) by ring]
    have := abs_sub ((r2 - (p - q)) + (p - 1 / 4 * sf)) (q - 1 / 2 * cur)
    have := abs_add_le (r2 - (p - q)) (p - 1 / 4 * sf)
    linarith
  have n1 := abs_nonneg sf
  have n2 := abs_nonneg cur
  generalize |sf| = S at *
  generalize |cur| = C at *
  generalize eta = m at *
  unfold uro at h1 h2 h3 h4
  norm_num at h1 h2 h3 h4 ⊢
  constructor <;> linarith

/-- Without rounding the functions are those of C40 and C57. -/
theorem C152_exact (d1 d2 dt j fl fr st sfc : ℚ) (left : Bool) :
    (d1 + d2 ≠ 0 → dTildeF id d1 d2 = some (dTilde d1 d2) ∧ sTildeF id d1 d2 = some (sTilde d1 d2)) ∧ dHatF id dt j fl fr = dHat dt j fl fr ∧
    (fl + fr ≠ 0 → fr ≠ 0 → sHatF id left st sfc fl fr = some (sHat left st sfc fl fr)) ∧
    (∀ dh, currentF id dt dh fl fr = current dt dh fl fr) ∧ (∀ sh, surfaceFluxF id left st sh fl fr = surfaceFlux left st sh fl fr) ∧
    ∀ sf cur : ℚ, partialF id sf cur = partialCurrents sf cur := by
  refine ⟨fun h => ?_, ?_, fun h1 h2 => ?_, fun dh => ?_, fun sh => ?_, fun sf cur => ?_⟩
  · unfold dTildeF sTildeF quotF dTilde sTilde
    simp only [id, h, if_false]
    refine ⟨trivial, ?_⟩
    split <;> rfl
  · unfold dHatF quotF dHat
    simp only [id]
    split <;> rfl
  · unfold sHatF quotF sHat
    cases left <;> simp [h1, h2]
  · unfold currentF current
    simp only [id]
  · unfold surfaceFluxF surfaceFlux
    cases left <;> simp only [id]
  · unfold partialF partialCurrents
    simp only [id]

/-- Without rounding the elements are those of C40. -/
theorem C152_exact_matrix (vol rm : ℚ) (ss : List (Bool × ℚ × ℚ × ℚ)) (low : Bool) (a dt dh : ℚ) :
    diagF id vol rm ss = vol * rm + (ss.map fun s => s.2.1 * (s.2.2.1 + if s.1 then -s.2.2.2 else s.2.2.2)).sum ∧
    offDiagF id low a dt dh = a * ((if low then -dh else dh) - dt) := by
  refine ⟨?_, rfl⟩
  have key : ∀ (ss : List (Bool × ℚ × ℚ × ℚ)) (v : ℚ), ss.foldl (fun v s => id (v + diagTermF id s.1 s.2.1 s.2.2.1 s.2.2.2)) v =
      v + (ss.map fun s => s.2.1 * (s.2.2.1 + if s.1 then -s.2.2.2 else s.2.2.2)).sum := by
    intro ss
    induction ss with
    | nil => intro v; simp
    | cons s ss ih =>
      intro v
      rw [List.foldl_cons, ih, List.map_cons, List.sum_cons]
      simp only [id, diagTermF]
      ring
  exact key ss _

/-- Two cells: the hypotheses can be satisfied. -/
example : Side.Ok (.cell 1 2) ∧ Side.Ok (.cell (1 / 2) 1) ∧ 0 < Side.diff (.cell 1 2) + Side.diff (.cell (1 / 2) 1) ∧
    Sizeable (dTilde (Side.diff (.cell 1 2)) (Side.diff (.cell (1 / 2) 1))) := by
  refine ⟨⟨?_, ?_, Or.inr ?_, Or.inr ?_, Or.inr ?_⟩, ⟨?_, ?_, Or.inr ?_, Or.inr ?_, Or.inr ?_⟩, ?_, Or.inr ?_⟩ <;> (try unfold dTilde) <;> (try unfold Side.diff) <;>
    first
    | exact le_trans (zpow_le_zpow_right₀ (by norm_num) (show (-1021 : ℤ) ≤ -5 by norm_num)) (by norm_num)
    | norm_num

/-- A current of 1/4 between the fluxes 1 and 2 comes back. -/
example : currentF rnd64 (1 / 8) (dHatF rnd64 (1 / 8) (1 / 4) 1 2) 1 2 = 1 / 4 := by decide +kernel

/-- A surface flux of 3/2. -/
example : (sHatF rnd64 true (1 / 2) (3 / 2) 1 2).map (fun sh => surfaceFluxF rnd64 true (1 / 2) sh 1 2) = some (3 / 2) := by decide +kernel

/-- Signs of the elements. -/
example : offDiagF rnd64 true 1 (1 / 4) (1 / 8) = -3 / 8 ∧ offDiagF rnd64 false 1 (1 / 4) (1 / 8) = -1 / 8 ∧ diagF rnd64 1 1 [(true, 1, 1 / 4, 1 / 8), (false, 1, 1 / 4, 1 / 8)] = 3 / 2 := by
  decide +kernel

end Verif.Cmfd
