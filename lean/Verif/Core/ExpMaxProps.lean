import Verif.Core.ExpProps
import Mathlib.Analysis.SpecialFunctions.Trigonometric.DerivHyp

/-! # C61: what `max_error` reports -/

namespace Verif.Core

/-- Relative error of the interpolation at the fraction `f` of a cell. -/
theorem rel_error_cell {t : ExpTable ℝ} {N : Nat} {lo hi : ℝ} (b : Built t N lo hi) (i : Nat) (hi' : i < N) (f : ℝ)
    (hf0 : 0 ≤ f) (hf1 : f < 1) :
    ∃ y, expLinear Real.exp t (lo + (i + f) * t.space) = some y ∧
      (y - Real.exp (lo + (i + f) * t.space)) / Real.exp (lo + (i + f) * t.space) =
        (1 + (Real.exp t.space - 1) * f) * Real.exp (-(f * t.space)) - 1 := by
  refine ⟨_, expLinear_cell b i hi' f hf0 hf1, ?_⟩
  have e1 := Real.exp_add (lo + i * t.space) t.space
  have e2 : Real.exp (lo + (i + f) * t.space) = Real.exp (lo + i * t.space) * Real.exp (f * t.space) := by
    rw [← Real.exp_add]; congr 1; ring
  rw [e1, e2, Real.exp_neg]
  have h1 := Real.exp_pos (lo + i * t.space)
  have h2 := Real.exp_pos (f * t.space)
  generalize Real.exp (lo + i * t.space) = A at *
  generalize Real.exp (f * t.space) = B at *
  field_simp

/-- Error at the middle of a cell. -/
theorem mid_value (h : ℝ) : (1 + (Real.exp h - 1) * (1 / 2)) * Real.exp (-(1 / 2 * h)) - 1 = Real.cosh (h / 2) - 1 := by
  rw [Real.cosh_eq, show h = h / 2 + h / 2 by ring, Real.exp_add, show (h / 2 + h / 2) / 2 = h / 2 by ring,
    show -(1 / 2 * (h / 2 + h / 2)) = -(h / 2) by ring, Real.exp_neg]
  have := Real.exp_pos (h / 2)
  field_simp
  ring

theorem maxErrorLoop_eq {t : ExpTable ℝ} {N : Nat} {lo hi : ℝ} (b : Built t N lo hi) (n i : Nat) (hn : i + n ≤ N) (m : ℝ) :
    maxErrorLoop Real.exp t n i m = some (if n = 0 then m else max m (Real.cosh (t.space / 2) - 1)) := by
  induction n generalizing i m with
  | zero => rfl
  | succ n ih =>
    have hmin : t.min = lo := by rw [b.eq]; rfl
    obtain ⟨y, hy, he⟩ := rel_error_cell b i (by omega) (1 / 2) (by norm_num) (by norm_num)
    rw [mid_value] at he
    rw [maxErrorLoop]
    have hx : t.min + t.space * (1 / 2 + (i : ℝ)) = lo + (i + 1 / 2) * t.space := by rw [hmin]; ring
    simp only [hx, hy, he]
    have hc : 0 ≤ Real.cosh (t.space / 2) - 1 := by linarith [Real.one_le_cosh (t.space / 2)]
    rw [abs_of_nonneg hc, ih (i + 1) (by omega), if_neg (Nat.succ_ne_zero n)]
    by_cases h0 : n = 0
    · rw [if_pos h0]
    · rw [if_neg h0, max_assoc, max_self]

/-- C61: `max_error()` evaluates without an access out of bounds and returns the relative error at the middle of every
cell, `cosh(dx / 2) - 1`. -/
theorem C61_value {t : ExpTable ℝ} {N : Nat} {lo hi : ℝ} (b : Built t N lo hi) :
    maxError Real.exp N t = some (Real.cosh (t.space / 2) - 1) := by
  have hc : 0 ≤ Real.cosh (t.space / 2) - 1 := by linarith [Real.one_le_cosh (t.space / 2)]
  unfold maxError
  rw [maxErrorLoop_eq b N 0 (by omega), if_neg (by have := b.cells; omega), max_eq_right hc]

/-- C61: it is attained, at the middle of each cell. -/
theorem C61_attained {t : ExpTable ℝ} {N : Nat} {lo hi : ℝ} (b : Built t N lo hi) (i : Nat) (hi' : i < N) (m : ℝ)
    (hm : maxError Real.exp N t = some m) :
    ∃ y, expLinear Real.exp t (lo + (i + 1 / 2) * t.space) = some y ∧
      |y - Real.exp (lo + (i + 1 / 2) * t.space)| = m * Real.exp (lo + (i + 1 / 2) * t.space) := by
  obtain ⟨y, hy, he⟩ := rel_error_cell b i hi' (1 / 2) (by norm_num) (by norm_num)
  rw [mid_value] at he
  rw [C61_value b, Option.some.injEq] at hm
  have hp := Real.exp_pos (lo + (i + 1 / 2) * t.space)
  have hc : 0 ≤ Real.cosh (t.space / 2) - 1 := by linarith [Real.one_le_cosh (t.space / 2)]
  refine ⟨y, hy, ?_⟩
  rw [hm, div_eq_iff (ne_of_gt hp)] at he
  rw [he, abs_of_nonneg (mul_nonneg (by rw [← hm]; exact hc) hp.le)]

theorem cosh_ge (x : ℝ) (hx : 0 ≤ x) : x ^ 2 / 2 ≤ Real.cosh x - 1 := by
  have h1 : Real.cosh x = 1 + 2 * Real.sinh (x / 2) ^ 2 := by
    have := Real.cosh_sq' (x / 2)
    have h2 := Real.cosh_two_mul (x / 2)
    rw [show 2 * (x / 2) = x by ring] at h2
    linarith
  have h2 : x / 2 ≤ Real.sinh (x / 2) := Real.self_le_sinh_iff.mpr (by linarith)
  have h3 : (x / 2) ^ 2 ≤ Real.sinh (x / 2) ^ 2 := pow_le_pow_left₀ (by linarith) h2 2
  rw [h1]
  nlinarith

/-- C61: the true relative error below the upper end of the table exceeds the reported value at most by the factor
`exp(dx)`.  What is missing from the full claim is the factor, without which it is false. -/
theorem C61_bound_partial {t : ExpTable ℝ} {N : Nat} {lo hi : ℝ} (b : Built t N lo hi) (v m : ℝ) (h0 : lo ≤ v)
    (h1 : v < hi) (hm : maxError Real.exp N t = some m) :
    ∃ y, expLinear Real.exp t v = some y ∧ |y - Real.exp v| ≤ m * Real.exp t.space * Real.exp v := by
  obtain ⟨y, hy, q1, q2⟩ := C50_accuracy_partial b v h0 h1
  rw [C61_value b, Option.some.injEq] at hm
  refine ⟨y, hy, ?_⟩
  rw [abs_of_nonneg (by linarith)]
  have hs := b.space_pos
  have hc := cosh_ge (t.space / 2) (by linarith)
  have h8 : t.space ^ 2 / 8 ≤ m := by rw [← hm]; nlinarith
  have := mul_le_mul_of_nonneg_right h8 (mul_pos (Real.exp_pos t.space) (Real.exp_pos v)).le
  nlinarith

/-- The hyperbolic tangent is below its argument. -/
theorem two_mul_lt (h : ℝ) (hh : 0 < h) : 0 < (Real.exp h + 1) * h / 2 - (Real.exp h - 1) := by
  have hd : ∀ x : ℝ, HasDerivAt (fun x : ℝ => (x - 2) * Real.exp x + x) ((x - 1) * Real.exp x + 1) x := by
    intro x
    have h1 : HasDerivAt (fun x : ℝ => (x - 2) * Real.exp x) (1 * Real.exp x + (x - 2) * Real.exp x) x :=
      ((hasDerivAt_id x).sub_const 2).mul (Real.hasDerivAt_exp x)
    exact (h1.add (hasDerivAt_id x)).congr_deriv (by ring)
  have hmono : StrictMonoOn (fun x : ℝ => (x - 2) * Real.exp x + x) (Set.Ici 0) := by
    apply strictMonoOn_of_deriv_pos (convex_Ici 0)
    · exact fun x _ => (hd x).continuousAt.continuousWithinAt
    · intro x hx
      rw [interior_Ici] at hx
      have hx' : (0 : ℝ) < x := hx
      rw [(hd x).deriv]
      have h1 := Real.add_one_lt_exp (show -x ≠ 0 by linarith)
      have h2 := mul_lt_mul_of_pos_right h1 (Real.exp_pos x)
      rw [← Real.exp_add, neg_add_cancel, Real.exp_zero] at h2
      linarith
  have := hmono (Set.mem_Ici.mpr le_rfl) (Set.mem_Ici.mpr hh.le) hh
  simp only [Real.exp_zero] at this
  linarith

/-- C61: whatever the number of cells and the range, every cell contains arguments whose relative error is larger than
the value `max_error()` reports. -/
theorem C61_exceeded {t : ExpTable ℝ} {N : Nat} {lo hi : ℝ} (b : Built t N lo hi) (i : Nat) (hi' : i < N) (m : ℝ)
    (hm : maxError Real.exp N t = some m) :
    ∃ v y, lo + i * t.space ≤ v ∧ v < lo + (i + 1) * t.space ∧ expLinear Real.exp t v = some y ∧
      m * Real.exp v < y - Real.exp v := by
  have hs := b.space_pos
  rw [C61_value b, Option.some.injEq, ← mid_value] at hm
  obtain ⟨E, hE⟩ : ∃ E, E = Real.exp t.space := ⟨_, rfl⟩
  have hE1 : t.space + 1 < E := by rw [hE]; exact Real.add_one_lt_exp (ne_of_gt hs)
  have hc := two_mul_lt t.space hs
  rw [← hE] at hc
  obtain ⟨c, hcd⟩ : ∃ c, c = (E + 1) * t.space / 2 - (E - 1) := ⟨_, rfl⟩
  rw [← hcd] at hc
  have hEh : 0 < (E - 1) * t.space := mul_pos (by linarith) hs
  obtain ⟨u, hu⟩ : ∃ u, u = c / (2 * ((E - 1) * t.space)) := ⟨_, rfl⟩
  have hu0 : 0 < u := by rw [hu]; positivity
  have hu2 : u * ((E - 1) * t.space) = c / 2 := by
    have := ne_of_gt hEh
    rw [hu]
    generalize (E - 1) * t.space = w at *
    field_simp
  have hu1 : u ≤ 1 / 2 := by
    rw [hu, div_le_iff₀ (by positivity)]
    nlinarith
  obtain ⟨y, hy, he⟩ := rel_error_cell b i hi' (1 / 2 - u) (by linarith) (by linarith)
  refine ⟨_, y, ?_, ?_, hy, ?_⟩
  · have : 0 ≤ (1 / 2 - u) * t.space := mul_nonneg (by linarith) hs.le
    linarith
  · have : (1 / 2 - u) * t.space < 1 * t.space := mul_lt_mul_of_pos_right (by linarith) hs
    linarith
  · rw [← lt_div_iff₀ (Real.exp_pos _), he, ← hm, ← hE]
    have e1 : Real.exp (-((1 / 2 - u) * t.space)) = Real.exp (-(1 / 2 * t.space)) * Real.exp (u * t.space) := by
      rw [← Real.exp_add]; congr 1; ring
    rw [e1]
    have hp := Real.exp_pos (-(1 / 2 * t.space))
    have h1 := Real.add_one_le_exp (u * t.space)
    have hpos : 0 < 1 + (E - 1) * (1 / 2 - u) := by
      have : 0 ≤ (E - 1) * (1 / 2 - u) := mul_nonneg (by linarith) (by linarith)
      linarith
    have h2 : 1 + (E - 1) * (1 / 2) < (1 + (E - 1) * (1 / 2 - u)) * (u * t.space + 1) := by
      have : (1 + (E - 1) * (1 / 2 - u)) * (u * t.space + 1) =
          1 + (E - 1) * (1 / 2) + u * (c - u * ((E - 1) * t.space)) := by rw [hcd]; ring
      rw [this, hu2]
      have : 0 < u * (c - c / 2) := mul_pos hu0 (by linarith)
      linarith
    have h3 := lt_of_lt_of_le h2 (mul_le_mul_of_nonneg_left h1 hpos.le)
    have := mul_lt_mul_of_pos_right h3 hp
    linarith

/-- The full claim: `max_error()` is an upper bound of the relative error within the table. -/
def C61_claim : Prop := ∀ (t : ExpTable ℝ) (N : Nat) (lo hi v m y : ℝ), Built t N lo hi → lo ≤ v → v < hi →
  maxError Real.exp N t = some m → expLinear Real.exp t v = some y → |y - Real.exp v| ≤ m * Real.exp v

theorem C61_claim_false : ¬ C61_claim := by
  intro h
  obtain ⟨v, y, h0, h1, hy, hlt⟩ := C61_exceeded mocTable 0 (by norm_num) _ (C61_value mocTable)
  have hs : (expTable Real.exp 10000 (-10) 0).space = 1 / 1000 := by unfold expTable; norm_num
  have := h _ _ _ _ v _ y mocTable (by norm_num at h0; linarith) (by rw [hs] at h1; norm_num at h1; linarith)
    (C61_value mocTable) hy
  have := le_trans (le_abs_self _) this
  linarith

/-- The table of the MoC sweeper reports `cosh(0.0005) - 1`, about `1.25e-7`. -/
example : maxError Real.exp 10000 (expTable Real.exp 10000 (-10) 0) = some (Real.cosh (1 / 2000) - 1) := by
  rw [C61_value mocTable]
  have hs : (expTable Real.exp 10000 (-10) 0).space = 1 / 1000 := by unfold expTable; norm_num
  rw [hs]
  norm_num

end Verif.Core
