import Verif.Mc.ExpectProps
import Mathlib.MeasureTheory.Integral.Lebesgue.Add
import Mathlib.MeasureTheory.Integral.IntervalIntegral.Basic

/-!
# Averages over uniform numbers
-/

namespace Verif.Mc
open Verif.Mesh MeasureTheory ENNReal

/-! ### Integrals of step functions -/

theorem lint_piece (a b c : ℝ) (f : ℝ → ℝ≥0∞) (hf : ∀ x, a < x → x < b → f x = ENNReal.ofReal c) (hc : 0 ≤ c) :
    ∫⁻ x in Set.Ioc a b, f x = ENNReal.ofReal ((b - a) * c) := by
  rw [← Measure.restrict_congr_set (Ioo_ae_eq_Ioc (a := a) (b := b) (μ := volume)),
    setLIntegral_congr_fun (g := fun _ => ENNReal.ofReal c) measurableSet_Ioo (fun x hx => hf x hx.1 hx.2), setLIntegral_const, Real.volume_Ioo,
    ← ENNReal.ofReal_mul hc, mul_comm]

theorem lint_join (a b c : ℝ) (hab : a ≤ b) (hbc : b ≤ c) (f : ℝ → ℝ≥0∞) :
    ∫⁻ x in Set.Ioc a c, f x = (∫⁻ x in Set.Ioc a b, f x) + ∫⁻ x in Set.Ioc b c, f x := by
  rw [← Set.Ioc_union_Ioc_eq_Ioc hab hbc, lintegral_union measurableSet_Ioc]
  exact Set.Ioc_disjoint_Ioc_of_le le_rfl

theorem lint_steps_aux (n : Nat) (t : Nat → ℝ) (c : Nat → ℝ) (f : ℝ → ℝ≥0∞) (hm : ∀ j < n, t j ≤ t (j + 1)) (hc : ∀ j < n, 0 ≤ c j)
    (hf : ∀ j < n, ∀ x, t j < x → x < t (j + 1) → f x = ENNReal.ofReal (c j)) :
    t 0 ≤ t n ∧ ∫⁻ x in Set.Ioc (t 0) (t n), f x = ENNReal.ofReal (∑ j ∈ Finset.range n, (t (j + 1) - t j) * c j) := by
  induction n with
  | zero => simp
  | succ n ih =>
    obtain ⟨h1, h2⟩ := ih (fun j hj => hm j (by omega)) (fun j hj => hc j (by omega)) (fun j hj => hf j (by omega))
    have h3 := hm n (by omega)
    refine ⟨h1.trans h3, ?_⟩
    rw [lint_join _ _ _ h1 h3, h2, lint_piece _ _ (c n) f (hf n (by omega)) (hc n (by omega)), Finset.sum_range_succ, ENNReal.ofReal_add]
    · exact Finset.sum_nonneg fun j hj => by
        have := Finset.mem_range.1 hj
        exact mul_nonneg (sub_nonneg.2 (hm j (by omega))) (hc j (by omega))
    · exact mul_nonneg (sub_nonneg.2 h3) (hc n (by omega))

/-- A step function. -/
theorem lint_steps (n : Nat) (t : Nat → ℝ) (c : Nat → ℝ) (f : ℝ → ℝ≥0∞) (h0 : t 0 = 0) (h1 : t n = 1) (hm : ∀ j < n, t j ≤ t (j + 1)) (hc : ∀ j < n, 0 ≤ c j)
    (hf : ∀ j < n, ∀ x, t j < x → x < t (j + 1) → f x = ENNReal.ofReal (c j)) :
    ∫⁻ x in Set.Ioo (0 : ℝ) 1, f x = ENNReal.ofReal (∑ j ∈ Finset.range n, (t (j + 1) - t j) * c j) := by
  have h := (lint_steps_aux n t c f hm hc hf).2
  rwa [h0, h1, ← Measure.restrict_congr_set (Ioo_ae_eq_Ioc (a := (0 : ℝ)) (b := 1) (μ := volume))] at h

/-- The flight: constant up to `a`, then with the length of the track. -/
theorem lint_flight (a b c1 c2 : ℝ) (h0 : 0 ≤ a) (h1 : a ≤ 1) (hb : 0 ≤ b) (hc1 : 0 ≤ c1) (hc2 : 0 ≤ c2) (f : ℝ → ℝ≥0∞)
    (hf1 : ∀ x, 0 < x → x < a → f x = ENNReal.ofReal c1) (hf2 : ∀ x, a < x → x < 1 → f x = ENNReal.ofReal (c2 + b * -Real.log x)) :
    ∫⁻ x in Set.Ioo (0 : ℝ) 1, f x = ENNReal.ofReal (a * c1 + ((1 - a) * c2 + b * (1 - a + a * Real.log a))) := by
  rw [Measure.restrict_congr_set (Ioo_ae_eq_Ioc (a := (0 : ℝ)) (b := 1) (μ := volume)), lint_join 0 a 1 h0 h1, lint_piece 0 a c1 f hf1 hc1]
  have i0 : IntervalIntegrable (fun x : ℝ => b * -Real.log x) volume a 1 :=
    (intervalIntegral.intervalIntegrable_log'.neg).const_mul b
  have ii : IntervalIntegrable (fun x : ℝ => c2 + b * -Real.log x) volume a 1 := intervalIntegrable_const.add i0
  have hint : ∫ x in a..1, (c2 + b * -Real.log x) = (1 - a) * c2 + b * (1 - a + a * Real.log a) := by
    rw [intervalIntegral.integral_add intervalIntegrable_const i0,
      intervalIntegral.integral_const_mul, intervalIntegral.integral_neg, integral_log]
    simp only [intervalIntegral.integral_const, smul_eq_mul, Real.log_one]
    ring
  have h2 : ∫⁻ x in Set.Ioc a 1, f x = ENNReal.ofReal ((1 - a) * c2 + b * (1 - a + a * Real.log a)) := by
    rw [← hint, intervalIntegral.integral_of_le h1,
      ← Measure.restrict_congr_set (Ioo_ae_eq_Ioc (a := a) (b := 1) (μ := volume)),
      ofReal_integral_eq_lintegral_ofReal]
    · exact setLIntegral_congr_fun measurableSet_Ioo (fun x hx => hf2 x hx.1 hx.2)
    · rw [Measure.restrict_congr_set (Ioo_ae_eq_Ioc (a := a) (b := 1) (μ := volume))]
      exact (intervalIntegrable_iff_integrableOn_Ioc_of_le h1).1 ii
    · refine (ae_restrict_iff' measurableSet_Ioo).2 (Filter.Eventually.of_forall fun x hx => ?_)
      have : Real.log x ≤ 0 := Real.log_nonpos (h0.trans hx.1.le) hx.2.le
      have : 0 ≤ b * -Real.log x := mul_nonneg hb (by linarith)
      show (0 : ℝ) ≤ c2 + b * -Real.log x
      linarith
  have h3 : 0 ≤ 1 - a + a * Real.log a := by
    have e := hint
    by_cases ha : a = 0
    · subst ha; simp
    · have hp : 0 < a := lt_of_le_of_ne h0 (Ne.symm ha)
      have := Real.one_sub_inv_le_log_of_pos hp
      have : a * (1 - a⁻¹) ≤ a * Real.log a := mul_le_mul_of_nonneg_left this h0
      rw [mul_sub, mul_inv_cancel₀ ha] at this
      linarith
  rw [h2, ← ENNReal.ofReal_add]
  · ring_nf
  · exact mul_nonneg (by linarith) hc1
  · exact add_nonneg (mul_nonneg (by linarith) hc2) (mul_nonneg hb h3)


/-- The average over five numbers between zero and one. -/
noncomputable def over5 (G : ℝ → ℝ → ℝ → ℝ → ℝ → ℝ≥0∞) : ℝ≥0∞ :=
  ∫⁻ x in Set.Ioo (0 : ℝ) 1, ∫⁻ y in Set.Ioo (0 : ℝ) 1, ∫⁻ z in Set.Ioo (0 : ℝ) 1, ∫⁻ u in Set.Ioo (0 : ℝ) 1, ∫⁻ v in Set.Ioo (0 : ℝ) 1, G x y z u v

theorem over5_mono (G H : ℝ → ℝ → ℝ → ℝ → ℝ → ℝ≥0∞)
    (h : ∀ x y z u v : ℝ, 0 < x → x < 1 → 0 < y → y < 1 → 0 < z → z < 1 → 0 < u → u < 1 → 0 < v → v < 1 → G x y z u v ≤ H x y z u v) : over5 G ≤ over5 H := by
  unfold over5
  refine setLIntegral_mono' measurableSet_Ioo fun x hx => setLIntegral_mono' measurableSet_Ioo fun y hy => setLIntegral_mono' measurableSet_Ioo fun z hz =>
    setLIntegral_mono' measurableSet_Ioo fun u hu => setLIntegral_mono' measurableSet_Ioo fun v hv => ?_
  exact h x y z u v hx.1 hx.2 hy.1 hy.2 hz.1 hz.2 hu.1 hu.2 hv.1 hv.2

theorem over5_congr (G H : ℝ → ℝ → ℝ → ℝ → ℝ → ℝ≥0∞)
    (h : ∀ x y z u v : ℝ, 0 < x → x < 1 → 0 < y → y < 1 → 0 < z → z < 1 → 0 < u → u < 1 → 0 < v → v < 1 → G x y z u v = H x y z u v) : over5 G = over5 H :=
  le_antisymm (over5_mono _ _ fun x y z u v a b c d e f g i j k => (h x y z u v a b c d e f g i j k).le)
    (over5_mono _ _ fun x y z u v a b c d e f g i j k => (h x y z u v a b c d e f g i j k).ge)

theorem lint_const (c : ℝ≥0∞) (f : ℝ → ℝ≥0∞) (h : ∀ x, 0 < x → x < 1 → f x = c) : ∫⁻ x in Set.Ioo (0 : ℝ) 1, f x = c := by
  rw [setLIntegral_congr_fun (g := fun _ => c) measurableSet_Ioo (fun x hx => h x hx.1 hx.2), setLIntegral_const, Real.volume_Ioo]
  simp

theorem lint_floor (k c q : ℝ) (hk : 0 ≤ k) (hc : 0 ≤ c) (hq : 0 ≤ q) (f : ℝ → ℝ≥0∞)
    (hf : ∀ z, 0 < z → z < 1 → f z = ENNReal.ofReal (k + c * ((⌊q + z⌋₊ : Nat) : ℝ))) : ∫⁻ z in Set.Ioo (0 : ℝ) 1, f z = ENNReal.ofReal (k + c * q) := by
  have f0 : ((⌊q⌋₊ : Nat) : ℝ) ≤ q := Nat.floor_le hq
  have f1 : q < (⌊q⌋₊ : Nat) + 1 := Nat.lt_floor_add_one q
  rw [lint_steps 2 (fun j => if j = 0 then 0 else if j = 1 then 1 - (q - (⌊q⌋₊ : Nat)) else 1) (fun j => k + c * ((⌊q⌋₊ : Nat) + j)) f rfl rfl]
  · simp only [Finset.sum_range_succ, Finset.range_zero, Finset.sum_empty]
    norm_num
    ring_nf
  · intro j hj
    interval_cases j
    · simp; linarith
    · simp; linarith
  · intro j _
    positivity
  · intro j hj z h1 h2
    have e : ∀ m : Nat, (m : ℝ) ≤ q + z → q + z < m + 1 → ⌊q + z⌋₊ = m := fun m a b => (Nat.floor_eq_iff ((Nat.cast_nonneg m).trans a)).2 ⟨a, b⟩
    interval_cases j
    · simp at h1 h2
      rw [hf z h1 (by linarith), e ⌊q⌋₊ (by linarith) (by linarith)]
      simp
    · simp at h1 h2
      rw [hf z (by linarith) h2, e (⌊q⌋₊ + 1) (by push_cast; linarith) (by push_cast; linarith)]
      simp

/-- The average of one pass, as a function of the five numbers. -/
theorem lint_pass (G : ℝ → ℝ → ℝ → ℝ → ℝ → ℝ≥0∞) (ng : Nat) (d nu : Nat → ℝ) (a b c1 k c q S F T : ℝ) (h0 : 0 ≤ a) (ha1 : a ≤ 1) (hb : 0 ≤ b) (hc1 : 0 ≤ c1)
    (hk : 0 ≤ k) (hc : 0 ≤ c) (hq : 0 ≤ q) (hd : ∀ j < ng, 0 ≤ d j) (hnu : ∀ j < ng, 0 ≤ nu j) (hS : S = ∑ j ∈ Finset.range ng, d j) (hF : 0 ≤ F) (hT : 0 < T)
    (hsum : S + F ≤ T)
    (h1 : ∀ x y z u v, 0 < x → x < a → 0 < y → y < 1 → 0 < z → z < 1 → 0 < u → u < 1 → 0 < v → v < 1 → G x y z u v = ENNReal.ofReal c1)
    (h2 : ∀ x y z u v, a < x → x < 1 → 0 < y → y < S / T → 0 < u → u < 1 → 0 < v → v < 1 →
      ∀ j < ng, (∑ l ∈ Finset.range j, d l) / S < z → z < (∑ l ∈ Finset.range (j + 1), d l) / S → G x y z u v = ENNReal.ofReal (k + nu j + b * -Real.log x))
    (h3 : ∀ x y z u v, a < x → x < 1 → S / T < y → y < (S + F) / T → 0 < z → z < 1 → 0 < u → u < 1 → 0 < v → v < 1 →
      G x y z u v = ENNReal.ofReal (k + b * -Real.log x + c * ((⌊q + z⌋₊ : Nat) : ℝ)))
    (h4 : ∀ x y z u v, a < x → x < 1 → (S + F) / T < y → y < 1 → 0 < z → z < 1 → 0 < u → u < 1 → 0 < v → v < 1 → G x y z u v = ENNReal.ofReal (k + b * -Real.log x)) :
    over5 G = ENNReal.ofReal (a * c1 + ((1 - a) * (k + (∑ j ∈ Finset.range ng, d j * nu j) / T + F / T * (c * q)) + b * (1 - a + a * Real.log a))) := by
  have hS0 : 0 ≤ S := hS ▸ Finset.sum_nonneg fun j hj => hd j (Finset.mem_range.1 hj)
  have hdn : 0 ≤ ∑ j ∈ Finset.range ng, d j * nu j := Finset.sum_nonneg fun j hj => mul_nonneg (hd j (Finset.mem_range.1 hj)) (hnu j (Finset.mem_range.1 hj))
  have hST : S / T ≤ 1 := (div_le_one hT).2 (by linarith)
  have hSFT : (S + F) / T ≤ 1 := (div_le_one hT).2 hsum
  have hST0 : 0 ≤ S / T := by positivity
  have hSSF : S / T ≤ (S + F) / T := by gcongr; linarith
  unfold over5
  refine lint_flight a b c1 _ h0 ha1 hb hc1 (by positivity) _ (fun x x0 x1 => ?_) (fun x x0 x1 => ?_)
  · exact lint_const _ _ fun y a1 a2 => lint_const _ _ fun z a3 a4 => lint_const _ _ fun u a5 a6 => lint_const _ _ fun v a7 a8 => h1 x y z u v x0 x1 a1 a2 a3 a4 a5 a6 a7 a8
  have hlog : 0 ≤ b * -Real.log x := by
    have : Real.log x ≤ 0 := Real.log_nonpos (h0.trans x0.le) x1.le
    exact mul_nonneg hb (by linarith)
  generalize hL : b * -Real.log x = L at *
  rw [lint_steps 3 (fun j => if j = 0 then 0 else if j = 1 then S / T else if j = 2 then (S + F) / T else 1)
    (fun j => if j = 0 then k + L + (∑ j ∈ Finset.range ng, d j * nu j) / S else if j = 1 then k + L + c * q else k + L) _ rfl rfl]
  · congr 1
    simp only [Finset.sum_range_succ, Finset.range_zero, Finset.sum_empty]
    norm_num
    have e1 : S / T * ((∑ j ∈ Finset.range ng, d j * nu j) / S) = (∑ j ∈ Finset.range ng, d j * nu j) / T := by
      by_cases hz : S = 0
      · have : ∀ j ∈ Finset.range ng, d j * nu j = 0 := by
          intro j hj
          have := (Finset.sum_eq_zero_iff_of_nonneg (fun j hj => hd j (Finset.mem_range.1 hj))).1 (hS.symm.trans hz) j hj
          rw [this, zero_mul]
        rw [Finset.sum_eq_zero this]
        simp
      · field_simp
    rw [mul_add, e1, add_div]
    ring
  · intro j hj
    interval_cases j <;> simp <;> assumption
  · intro j hj
    interval_cases j <;> simp <;> positivity
  · intro j hj y y0 y1
    interval_cases j
    · simp at y0 y1 ⊢
      have hSp : 0 < S := by
        rcases hS0.lt_or_eq with h | h
        · exact h
        · rw [← h] at y1; simp at y1; linarith
      rw [lint_steps ng (fun j => (∑ l ∈ Finset.range j, d l) / S) (fun j => k + L + nu j) _ (by simp) (by rw [← hS, div_self hSp.ne'])]
      · congr 1
        have : ∀ j ∈ Finset.range ng, ((∑ l ∈ Finset.range (j + 1), d l) / S - (∑ l ∈ Finset.range j, d l) / S) * (k + L + nu j) =
            d j * (k + L) / S + d j * nu j / S := by
          intro j _
          rw [Finset.sum_range_succ]
          ring
        rw [Finset.sum_congr rfl this, Finset.sum_add_distrib, ← Finset.sum_div, ← Finset.sum_mul, ← hS, ← Finset.sum_div]
        field_simp
      · intro j hj
        rw [Finset.sum_range_succ]
        gcongr
        have := hd j hj
        linarith
      · intro j hj
        have := hnu j hj
        positivity
      · intro j hj z z0 z1
        refine lint_const _ _ fun u a5 a6 => lint_const _ _ fun v a7 a8 => ?_
        rw [h2 x y z u v x0 x1 y0 y1 a5 a6 a7 a8 j hj z0 z1, hL]
        congr 1
        ring
    · simp at y0 y1 ⊢
      refine lint_floor (k + L) c q (by positivity) hc hq _ fun z z0 z1 => ?_
      refine lint_const _ _ fun u a5 a6 => lint_const _ _ fun v a7 a8 => ?_
      rw [h3 x y z u v x0 x1 y0 y1 z0 z1 a5 a6 a7 a8, hL]
    · simp at y0 y1 ⊢
      refine lint_const _ _ fun z z0 z1 => lint_const _ _ fun u a5 a6 => lint_const _ _ fun v a7 a8 => ?_
      rw [h4 x y z u v x0 x1 y0 y1 z0 z1 a5 a6 a7 a8, hL]

end Verif.Mc
