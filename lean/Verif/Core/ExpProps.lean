import Verif.Core.ExpModel
import Mathlib.Analysis.SpecialFunctions.Exp
import Mathlib.Analysis.SpecialFunctions.ExpDeriv
import Mathlib.Analysis.Convex.Deriv
import Mathlib.Analysis.Convex.SpecificFunctions.Basic
import Mathlib.Analysis.Calculus.Deriv.Pow
import Mathlib.Algebra.Order.Archimedean.Real.Basic
import Mathlib.Tactic.Ring
import Mathlib.Tactic.Linarith
import Mathlib.Tactic.NormNum
import Mathlib.Tactic.FieldSimp
import Mathlib.Tactic.Positivity
import Mathlib.Tactic.LinearCombination

/-!
# C50: the tabulated exponential is accurate and in bounds
-/

namespace Verif.Core

/-! ## Convexity -/

/-- The chord of the exponential over `[a, b]` lies above it. -/
theorem chord_ge (a h t : ℝ) (ht0 : 0 ≤ t) (ht1 : t ≤ 1) :
    Real.exp (a + t * h) ≤ Real.exp a + (Real.exp (a + h) - Real.exp a) * t := by
  have := convexOn_exp.2 (Set.mem_univ a) (Set.mem_univ (a + h)) (show 0 ≤ 1 - t by linarith) ht0 (by ring)
  simp only [smul_eq_mul] at this
  have e : (1 - t) * a + t * (a + h) = a + t * h := by ring
  rw [e] at this
  linarith

theorem quad_convex (b : ℝ) : ConvexOn ℝ (Set.Iic b) (fun x => Real.exp b * x ^ 2 / 2 - Real.exp x) := by
  have hd : ∀ x : ℝ, HasDerivAt (fun x => Real.exp b * x ^ 2 / 2 - Real.exp x) (Real.exp b * x - Real.exp x) x := by
    intro x
    have h1 : HasDerivAt (fun x : ℝ => Real.exp b * x ^ 2 / 2) (Real.exp b * x) x :=
      (((hasDerivAt_pow 2 x).const_mul (Real.exp b)).div_const 2).congr_deriv (by push_cast; ring)
    exact h1.sub (Real.hasDerivAt_exp x)
  have hd2 : ∀ x : ℝ, HasDerivAt (fun x => Real.exp b * x - Real.exp x) (Real.exp b - Real.exp x) x := by
    intro x
    have h1 : HasDerivAt (fun x : ℝ => Real.exp b * x) (Real.exp b) x := by
      simpa using (hasDerivAt_id x).const_mul (Real.exp b)
    exact h1.sub (Real.hasDerivAt_exp x)
  have hderiv : deriv (fun x => Real.exp b * x ^ 2 / 2 - Real.exp x) = fun x => Real.exp b * x - Real.exp x := by
    funext x; exact (hd x).deriv
  apply convexOn_of_deriv2_nonneg (convex_Iic b)
  · exact fun x _ => (hd x).continuousAt.continuousWithinAt
  · exact fun x _ => (hd x).differentiableAt.differentiableWithinAt
  · rw [hderiv]; exact fun x _ => (hd2 x).differentiableAt.differentiableWithinAt
  · intro x hx
    rw [interior_Iic] at hx
    have : deriv^[2] (fun x => Real.exp b * x ^ 2 / 2 - Real.exp x) x = Real.exp b - Real.exp x := by
      simp only [Function.iterate_succ, Function.iterate_zero, Function.comp]
      rw [hderiv]
      exact (hd2 x).deriv
    rw [this, sub_nonneg]
    exact Real.exp_le_exp.mpr (le_of_lt hx)

/-- The error of the chord of width `h` is at most `h²/8` times the value at its upper end. -/
theorem chord_le (a h t : ℝ) (hh : 0 ≤ h) (ht0 : 0 ≤ t) (ht1 : t ≤ 1) :
    Real.exp a + (Real.exp (a + h) - Real.exp a) * t ≤ Real.exp (a + t * h) + h ^ 2 / 8 * Real.exp (a + h) := by
  have := (quad_convex (a + h)).2 (show a ∈ Set.Iic (a + h) from by simpa using hh)
    (show a + h ∈ Set.Iic (a + h) from Set.mem_Iic.mpr le_rfl) (show 0 ≤ 1 - t by linarith) ht0 (by ring)
  simp only [smul_eq_mul] at this
  have e : (1 - t) * a + t * (a + h) = a + t * h := by ring
  rw [e] at this
  have hb := Real.exp_pos (a + h)
  have hq : t * (1 - t) ≤ 1 / 4 := by nlinarith [sq_nonneg (t - 1 / 2)]
  have hh2 : 0 ≤ Real.exp (a + h) * h ^ 2 / 2 := by positivity
  have := mul_le_mul_of_nonneg_left hq hh2
  nlinarith

/-! ## The table -/

/-- A table the constructor builds for a range that is not empty. -/
structure Built (t : ExpTable ℝ) (N : Nat) (lo hi : ℝ) : Prop where
  eq : t = expTable Real.exp N lo hi
  range : lo < hi
  cells : 0 < N

theorem Built.space_pos {t : ExpTable ℝ} {N : Nat} {lo hi : ℝ} (b : Built t N lo hi) : 0 < t.space := by
  have hr := b.range
  have hc : (0 : ℝ) < N := by exact_mod_cast b.cells
  rw [b.eq]; unfold expTable
  exact div_pos (by linarith) hc

theorem Built.total {t : ExpTable ℝ} {N : Nat} {lo hi : ℝ} (b : Built t N lo hi) : lo + N * t.space = hi := by
  have hc : (0 : ℝ) < N := by exact_mod_cast b.cells
  rw [b.eq]; unfold expTable
  simp only
  field_simp; ring

theorem Built.get {t : ExpTable ℝ} {N : Nat} {lo hi : ℝ} (b : Built t N lo hi) (i : Nat) (hi' : i ≤ N) :
    t.d[i]? = some (Real.exp (lo + i * t.space)) := by
  rw [b.eq]; unfold expTable
  simp only [List.getElem?_map]
  rw [List.getElem?_range (by omega)]
  rfl

theorem Built.none {t : ExpTable ℝ} {N : Nat} {lo hi : ℝ} (b : Built t N lo hi) (i : Nat) (hi' : N < i) :
    t.d[i]? = none := by
  rw [b.eq]; unfold expTable
  rw [List.getElem?_eq_none]
  simp; omega

/-- Interpolation in cell `i`, at the fraction `f` of the cell. -/
theorem expLinear_cell {t : ExpTable ℝ} {N : Nat} {lo hi : ℝ} (b : Built t N lo hi) (i : Nat) (hi' : i < N) (f : ℝ)
    (hf0 : 0 ≤ f) (hf1 : f < 1) :
    expLinear Real.exp t (lo + (i + f) * t.space) =
      some (Real.exp (lo + i * t.space) +
        (Real.exp (lo + i * t.space + t.space) - Real.exp (lo + i * t.space)) * f) := by
  have hs := b.space_pos
  have ht := b.total
  have hmin : t.min = lo := by rw [b.eq]; rfl
  have hmax : t.max = hi := by rw [b.eq]; rfl
  have hrs : t.rspace = 1 / t.space := by rw [b.eq]; rfl
  have hin : (i : ℝ) + 1 ≤ N := by exact_mod_cast hi'
  have hi0 : (0 : ℝ) ≤ i := Nat.cast_nonneg i
  unfold expLinear
  rw [hmin, hmax, if_neg]
  · unfold expInterp
    have hx : (lo + (i + f) * t.space - t.min) * t.rspace = i + f := by
      rw [hmin, hrs]; field_simp; ring
    have hfl : ⌊(i : ℝ) + f⌋ = (i : Int) := by
      rw [Int.floor_eq_iff]
      push_cast
      exact ⟨by linarith, by linarith⟩
    have htr : truncInt ((i : ℝ) + f) = (i : Int) := by unfold truncInt; rw [if_pos (by linarith), hfl]
    simp only [hx, htr]
    rw [if_neg (by omega)]
    simp only [Int.toNat_natCast]
    rw [b.get i (by omega), b.get (i + 1) (by omega)]
    simp only [Option.some.injEq]
    have e : lo + ((i + 1 : Nat) : ℝ) * t.space = lo + i * t.space + t.space := by push_cast; ring
    rw [e, hmin, hrs]
    push_cast
    field_simp
    ring
  · intro h
    rcases h with h | h
    · have : 0 ≤ (i + f) * t.space := by positivity
      linarith
    · have : (i + f) * t.space < N * t.space := mul_lt_mul_of_pos_right (by linarith) hs
      linarith

/-- Every argument below the upper end of the table is in a cell. -/
theorem exists_cell {t : ExpTable ℝ} {N : Nat} {lo hi : ℝ} (b : Built t N lo hi) (v : ℝ) (h0 : lo ≤ v) (h1 : v < hi) :
    ∃ (i : Nat) (f : ℝ), i < N ∧ 0 ≤ f ∧ f < 1 ∧ v = lo + (i + f) * t.space := by
  have hs := b.space_pos
  have ht := b.total
  have hx0 : 0 ≤ (v - lo) / t.space := div_nonneg (by linarith) hs.le
  refine ⟨⌊(v - lo) / t.space⌋₊, (v - lo) / t.space - ⌊(v - lo) / t.space⌋₊, ?_, ?_, ?_, ?_⟩
  · rw [Nat.floor_lt hx0, div_lt_iff₀ hs]; linarith
  · linarith [Nat.floor_le hx0]
  · linarith [Nat.lt_floor_add_one ((v - lo) / t.space)]
  · field_simp; ring

/-- C50: below the upper end of the table the result is at least the exponential and exceeds it by at most one eighth
of the squared spacing, times the exponential of one spacing further, relative to the exponential. No access is out of
bounds. -/
theorem C50_accuracy_partial {t : ExpTable ℝ} {N : Nat} {lo hi : ℝ} (b : Built t N lo hi) (v : ℝ) (h0 : lo ≤ v)
    (h1 : v < hi) :
    ∃ y, expLinear Real.exp t v = some y ∧ Real.exp v ≤ y ∧
      y ≤ Real.exp v * (1 + t.space ^ 2 / 8 * Real.exp t.space) := by
  obtain ⟨i, f, hi', hf0, hf1, rfl⟩ := exists_cell b v h0 h1
  have hs := b.space_pos
  refine ⟨_, expLinear_cell b i hi' f hf0 hf1, ?_, ?_⟩
  · have := chord_ge (lo + i * t.space) t.space f hf0 hf1.le
    have e : lo + i * t.space + f * t.space = lo + (i + f) * t.space := by ring
    rwa [e] at this
  · have := chord_le (lo + i * t.space) t.space f hs.le hf0 hf1.le
    have e : lo + i * t.space + f * t.space = lo + (i + f) * t.space := by ring
    rw [e] at this
    have hle : Real.exp (lo + i * t.space + t.space) ≤ Real.exp (lo + (i + f) * t.space) * Real.exp t.space := by
      rw [← Real.exp_add]
      apply Real.exp_le_exp.mpr
      have : 0 ≤ f * t.space := by positivity
      linarith
    have h8 : 0 ≤ t.space ^ 2 / 8 := by positivity
    have := mul_le_mul_of_nonneg_left hle h8
    linarith

/-- C50: the absolute error is at most an eighth of the squared spacing times the exponential of the upper end. -/
theorem C50_absolute_partial {t : ExpTable ℝ} {N : Nat} {lo hi : ℝ} (b : Built t N lo hi) (v : ℝ) (h0 : lo ≤ v)
    (h1 : v < hi) :
    ∃ y, expLinear Real.exp t v = some y ∧ |y - Real.exp v| ≤ t.space ^ 2 / 8 * Real.exp hi := by
  obtain ⟨i, f, hi', hf0, hf1, rfl⟩ := exists_cell b v h0 h1
  have hs := b.space_pos
  have ht := b.total
  refine ⟨_, expLinear_cell b i hi' f hf0 hf1, ?_⟩
  have e : lo + i * t.space + f * t.space = lo + (i + f) * t.space := by ring
  have q1 := chord_ge (lo + i * t.space) t.space f hf0 hf1.le
  have q2 := chord_le (lo + i * t.space) t.space f hs.le hf0 hf1.le
  rw [e] at q1 q2
  have hin : (i : ℝ) + 1 ≤ N := by exact_mod_cast hi'
  have hle : Real.exp (lo + i * t.space + t.space) ≤ Real.exp hi := by
    apply Real.exp_le_exp.mpr
    have := mul_le_mul_of_nonneg_right hin hs.le
    linarith
  have h8 : 0 ≤ t.space ^ 2 / 8 := by positivity
  have := mul_le_mul_of_nonneg_left hle h8
  rw [abs_of_nonneg (by linarith)]
  linarith

/-- C50: at the nodes below the upper end the result is exact. -/
theorem C50_nodes_partial {t : ExpTable ℝ} {N : Nat} {lo hi : ℝ} (b : Built t N lo hi) (i : Nat) (hi' : i < N) :
    expLinear Real.exp t (lo + i * t.space) = some (Real.exp (lo + i * t.space)) := by
  have := expLinear_cell b i hi' 0 le_rfl one_pos
  simpa using this

/-- C50: outside the table the library exponential is returned. -/
theorem C50_outside {t : ExpTable ℝ} {N : Nat} {lo hi : ℝ} (b : Built t N lo hi) (v : ℝ) (h : v < lo ∨ hi < v) :
    expLinear Real.exp t v = some (Real.exp v) := by
  have hmin : t.min = lo := by rw [b.eq]; rfl
  have hmax : t.max = hi := by rw [b.eq]; rfl
  unfold expLinear
  rw [hmin, hmax, if_pos h]

/-- C50: the result is strictly increasing below the upper end of the table. -/
theorem C50_monotone_partial {t : ExpTable ℝ} {N : Nat} {lo hi : ℝ} (b : Built t N lo hi) (v w x y : ℝ) (h0 : lo ≤ v)
    (hvw : v < w) (h1 : w < hi) (hx : expLinear Real.exp t v = some x) (hy : expLinear Real.exp t w = some y) :
    x < y := by
  obtain ⟨i, f, hi', hf0, hf1, rfl⟩ := exists_cell b v h0 (by linarith)
  obtain ⟨j, g, hj', hg0, hg1, rfl⟩ := exists_cell b w (by linarith) h1
  rw [expLinear_cell b i hi' f hf0 hf1] at hx
  rw [expLinear_cell b j hj' g hg0 hg1] at hy
  cases hx
  cases hy
  have hs := b.space_pos
  have hlt : (i : ℝ) + f < j + g := by
    have : (i + f) * t.space < (j + g) * t.space := by linarith
    exact lt_of_mul_lt_mul_right this hs.le
  have hstep : ∀ a : ℝ, 0 < Real.exp (a + t.space) - Real.exp a := by
    intro a
    have := Real.exp_lt_exp.mpr (show a < a + t.space by linarith)
    linarith
  have hij : i ≤ j := by
    by_contra hc
    have : (j : ℝ) + 1 ≤ i := by exact_mod_cast (by omega : j + 1 ≤ i)
    linarith
  rcases Nat.eq_or_lt_of_le hij with he | hl
  · subst he
    have : f < g := by linarith
    have := mul_lt_mul_of_pos_left this (hstep (lo + i * t.space))
    linarith
  · have q1 : Real.exp (lo + i * t.space) + (Real.exp (lo + i * t.space + t.space) - Real.exp (lo + i * t.space)) * f
        < Real.exp (lo + i * t.space + t.space) := by
      have := mul_lt_mul_of_pos_left hf1 (hstep (lo + i * t.space))
      linarith
    have q2 : Real.exp (lo + i * t.space + t.space) ≤ Real.exp (lo + j * t.space) := by
      apply Real.exp_le_exp.mpr
      have : (i : ℝ) + 1 ≤ j := by exact_mod_cast hl
      have := mul_le_mul_of_nonneg_right this hs.le
      linarith
    have q3 : 0 ≤ (Real.exp (lo + j * t.space + t.space) - Real.exp (lo + j * t.space)) * g :=
      mul_nonneg (hstep _).le hg0
    linarith

/-- C50: exactly at the upper end of the table the code reads one element past the end of the array. -/
theorem C50_upper_undefined {t : ExpTable ℝ} {N : Nat} {lo hi : ℝ} (b : Built t N lo hi) :
    expLinear Real.exp t hi = none := by
  have hs := b.space_pos
  have ht := b.total
  have hmin : t.min = lo := by rw [b.eq]; rfl
  have hmax : t.max = hi := by rw [b.eq]; rfl
  have hrs : t.rspace = 1 / t.space := by rw [b.eq]; rfl
  have hr := b.range
  unfold expLinear
  rw [hmin, hmax, if_neg (by intro h; rcases h with h | h <;> linarith)]
  unfold expInterp
  have hx : (hi - t.min) * t.rspace = N := by rw [hmin, hrs, ← ht]; field_simp; ring
  have hfl : ⌊(N : ℝ)⌋ = (N : Int) := by rw [Int.floor_eq_iff]; push_cast; exact ⟨le_rfl, by linarith⟩
  have htr : truncInt (N : ℝ) = (N : Int) := by unfold truncInt; rw [if_pos (Nat.cast_nonneg N), hfl]
  simp only [hx, htr]
  rw [if_neg (by omega)]
  simp only [Int.toNat_natCast]
  rw [b.get N (le_refl N), b.none (N + 1) (by omega)]

/-- The claim: for every argument the result is defined and within the error bound. -/
def C50_claim : Prop := ∀ (t : ExpTable ℝ) (N : Nat) (lo hi v : ℝ), Built t N lo hi →
    ∃ y, expLinear Real.exp t v = some y ∧ Real.exp v ≤ y ∧
      y ≤ Real.exp v * (1 + t.space ^ 2 / 8 * Real.exp t.space)

/-- The table of the MoC sweeper, moc_sweeper.hpp:177. -/
theorem mocTable : Built (expTable Real.exp 10000 (-10) 0) 10000 (-10) 0 := ⟨rfl, by norm_num, by norm_num⟩

/-- C50 is violated by the table of the MoC sweeper at the argument 0, which is the optical length of a segment in a
region without interactions. -/
theorem C50_claim_false : ¬ C50_claim := by
  intro h
  obtain ⟨y, hy, -⟩ := h _ _ _ _ 0 mocTable
  rw [C50_upper_undefined mocTable] at hy
  simp at hy

/-- C50 for the table of the MoC sweeper: for arguments in `[-10, 0)` the relative error is below `1.3e-7`. -/
theorem C50_moc (v : ℝ) (h0 : -10 ≤ v) (h1 : v < 0) :
    ∃ y, expLinear Real.exp (expTable Real.exp 10000 (-10) 0) v = some y ∧ Real.exp v ≤ y ∧
      y ≤ Real.exp v * (1 + 1.3e-7) := by
  obtain ⟨y, h2, h3, h4⟩ := C50_accuracy_partial mocTable v h0 h1
  refine ⟨y, h2, h3, le_trans h4 ?_⟩
  have hs : (expTable Real.exp 10000 (-10) 0).space = 1 / 1000 := by unfold expTable; norm_num
  rw [hs]
  have he : Real.exp (1 / 1000) ≤ 1.01 := by
    have := Real.exp_bound_div_one_sub_of_interval (x := 1 / 1000) (by norm_num) (by norm_num)
    refine le_trans this ?_
    norm_num
  have hp := Real.exp_pos v
  apply mul_le_mul_of_nonneg_left _ hp.le
  nlinarith

/-- Below its range the table without the check reads in front of the array. -/
theorem C50_unsafe_undefined {t : ExpTable ℝ} {N : Nat} {lo hi : ℝ} (b : Built t N lo hi) (v : ℝ)
    (h : v ≤ lo - t.space ∨ hi ≤ v) : expInterp t v = none := by
  have hs := b.space_pos
  have ht := b.total
  have hmin : t.min = lo := by rw [b.eq]; rfl
  have hrs : t.rspace = 1 / t.space := by rw [b.eq]; rfl
  unfold expInterp
  have hx : (v - t.min) * t.rspace = (v - lo) / t.space := by rw [hmin, hrs]; ring
  simp only [hx]
  rcases h with h | h
  · have h1 : (v - lo) / t.space ≤ -1 := by rw [div_le_iff₀ hs]; linarith
    have h2 : 1 ≤ ⌊-((v - lo) / t.space)⌋ := by rw [Int.le_floor]; push_cast; linarith
    have htr : truncInt ((v - lo) / t.space) < 0 := by
      unfold truncInt; rw [if_neg (by linarith)]; omega
    rw [if_pos htr]
  · have h1 : (N : ℝ) ≤ (v - lo) / t.space := by rw [le_div_iff₀ hs]; linarith
    have h0 : (0 : ℝ) ≤ N := Nat.cast_nonneg N
    have hfl : (N : Int) ≤ ⌊(v - lo) / t.space⌋ := by rw [Int.le_floor]; push_cast; exact h1
    have htr : (N : Int) ≤ truncInt ((v - lo) / t.space) := by
      unfold truncInt; rw [if_pos (by linarith)]; exact hfl
    rw [if_neg (by omega)]
    have e : t.d[(truncInt ((v - lo) / t.space)).toNat + 1]? = none := b.none _ (by omega)
    rw [e]
    cases t.d[(truncInt ((v - lo) / t.space)).toNat]? <;> rfl

end Verif.Core
