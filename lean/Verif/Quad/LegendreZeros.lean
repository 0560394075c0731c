import Verif.Quad.LegendreNewton
import Mathlib.Analysis.Calculus.Deriv.MeanValue
import Mathlib.Analysis.SpecialFunctions.Sqrt
import Mathlib.Analysis.SpecialFunctions.Trigonometric.Deriv
import Mathlib.Analysis.SpecialFunctions.Trigonometric.Bounds

/-!
# Where the zeros of the Legendre polynomials are

Mathematics needed for C88: by Sturm's comparison the angles of neighbouring zeros of the polynomial of order `N` are less than `pi / (N + 1/2)`
apart, and not much less.
-/

namespace Verif.Quad.Leg

open Polynomial Real

/-- The Wronskian of `sqrt (sin t) p (cos t)` and `sin (K (t - a))`. -/
noncomputable def wronski (p : ℝ[X]) (K a t : ℝ) : ℝ :=
  (cos t / (2 * √(sin t)) * p.eval (cos t) + √(sin t) * (-sin t * (derivative p).eval (cos t))) * sin (K * (t - a)) -
    √(sin t) * p.eval (cos t) * (K * cos (K * (t - a)))

theorem wronski_deriv (p : ℝ[X]) (m : ℝ) (hp : (1 - X ^ 2) * derivative (derivative p) = 2 * X * derivative p - C m * p) (K a t : ℝ)
    (ht : 0 < sin t) :
    HasDerivAt (wronski p K a)
      ((K ^ 2 - (m + 1 / 4 + 1 / (4 * sin t ^ 2))) * (√(sin t) * p.eval (cos t) * sin (K * (t - a)))) t := by
  have hs : HasDerivAt (fun t => √(sin t)) (cos t / (2 * √(sin t))) t := (hasDerivAt_sin t).sqrt ht.ne'
  have hS : 0 < √(sin t) := sqrt_pos.mpr ht
  have hc := hasDerivAt_cos t
  have hsn := hasDerivAt_sin t
  have hA : HasDerivAt (fun t => cos t / (2 * √(sin t))) ((-sin t * (2 * √(sin t)) - cos t * (2 * (cos t / (2 * √(sin t))))) / (2 * √(sin t)) ^ 2) t :=
    hc.div (hs.const_mul 2) (by positivity)
  have hf : HasDerivAt (fun t => p.eval (cos t)) ((derivative p).eval (cos t) * -sin t) t := (p.hasDerivAt (cos t)).comp t hc
  have hf1 : HasDerivAt (fun t => (derivative p).eval (cos t)) ((derivative (derivative p)).eval (cos t) * -sin t) t :=
    ((derivative p).hasDerivAt (cos t)).comp t hc
  have hlin : HasDerivAt (fun t => K * (t - a)) (K * 1) t := ((hasDerivAt_id t).sub_const a).const_mul K
  have hv : HasDerivAt (fun t => sin (K * (t - a))) (cos (K * (t - a)) * (K * 1)) t := hlin.sin
  have hw : HasDerivAt (fun t => cos (K * (t - a))) (-sin (K * (t - a)) * (K * 1)) t := hlin.cos
  have hall := (((hA.mul hf).add (hs.mul (hsn.neg.mul hf1))).mul hv).sub ((hs.mul hf).mul (hw.const_mul K))
  have ho := congrArg (eval (cos t)) hp
  simp only [eval_mul, eval_sub, Polynomial.eval_one, eval_pow, eval_X, eval_C, eval_ofNat] at ho
  have hsq : √(sin t) ^ 2 = sin t := sq_sqrt ht.le
  have hc2 : cos t ^ 2 = 1 - sin t ^ 2 := by have := sin_sq_add_cos_sq t; linarith
  refine HasDerivAt.congr_deriv (f := wronski p K a) hall ?_
  simp only [Pi.mul_apply, Pi.add_apply, Pi.neg_apply]
  generalize √(sin t) = S at *
  generalize (derivative (derivative p)).eval (cos t) = p2 at *
  generalize (derivative p).eval (cos t) = p1 at *
  generalize p.eval (cos t) = p0 at *
  generalize sin (K * (t - a)) = v at *
  generalize cos (K * (t - a)) = w at *
  generalize cos t = c at *
  generalize hsin : sin t = σ at *
  subst hsq
  field_simp
  rw [hc2] at ho
  linear_combination (16 * S ^ 4 * v) * ho - 4 * p0 * v * hc2

theorem sin_pos_Icc {a b t : ℝ} (ha : 0 < a) (hb : b < π) (ht : t ∈ Set.Icc a b) : 0 < sin t :=
  sin_pos_of_pos_of_lt_pi (lt_of_lt_of_le ha ht.1) (lt_of_le_of_lt ht.2 hb)

/-- A function without a zero in an interval has one sign there. -/
theorem one_sign {f : ℝ → ℝ} (hf : Continuous f) {a b : ℝ} (h : ∀ t ∈ Set.Ioo a b, f t ≠ 0) :
    (∀ t ∈ Set.Ioo a b, 0 < f t) ∨ ∀ t ∈ Set.Ioo a b, f t < 0 := by
  by_contra hcon
  push Not at hcon
  obtain ⟨⟨x, hx, h1⟩, ⟨y, hy, h2⟩⟩ := hcon
  obtain ⟨z, hz, h0⟩ := intermediate_value_uIcc (a := x) (b := y) hf.continuousOn (show (0 : ℝ) ∈ Set.uIcc (f x) (f y) from by
    rw [Set.mem_uIcc]; exact Or.inl ⟨h1, h2⟩)
  exact h z ((Set.ordConnected_Ioo.uIcc_subset hx hy) hz) h0

/-- After a zero there is another within `pi / K` if the comparison frequency `K` is not larger. -/
theorem sturm_next_pos (p : ℝ[X]) (m : ℝ) (hp : (1 - X ^ 2) * derivative (derivative p) = 2 * X * derivative p - C m * p) (K : ℝ) (hK : 0 < K)
    (hK2 : K ^ 2 = m + 1 / 4) (a : ℝ) (ha : 0 < a) (hb : a + π / K < π) (h0 : p.eval (cos a) = 0)
    (hpos : ∀ t ∈ Set.Ioo a (a + π / K), 0 < p.eval (cos t)) : False := by
  have hh : 0 < π / K := by positivity
  have hanti : StrictAntiOn (wronski p K a) (Set.Icc a (a + π / K)) := by
    apply strictAntiOn_of_deriv_neg (convex_Icc _ _)
    · intro t ht
      exact (wronski_deriv p m hp K a t (sin_pos_Icc ha hb ht)).continuousAt.continuousWithinAt
    · intro t ht
      rw [interior_Icc] at ht
      have hsin := sin_pos_Icc ha hb (Set.Ioo_subset_Icc_self ht)
      rw [(wronski_deriv p m hp K a t hsin).deriv, hK2]
      have h1 := hpos t ht
      have h2 : 0 < sin (K * (t - a)) := by
        apply sin_pos_of_pos_of_lt_pi
        · exact mul_pos hK (by linarith [ht.1])
        · have h3 : t - a < π / K := by linarith [ht.2]
          rw [lt_div_iff₀ hK] at h3
          linarith
      have h4 : 0 < √(sin t) := sqrt_pos.mpr hsin
      have h5 : 0 < 1 / (4 * sin t ^ 2) := by positivity
      have h6 : 0 < √(sin t) * p.eval (cos t) * sin (K * (t - a)) := by positivity
      nlinarith
  have hlt := hanti (Set.left_mem_Icc.mpr (by linarith)) (Set.right_mem_Icc.mpr (by linarith)) (by linarith : a < a + π / K)
  have hwa : wronski p K a a = 0 := by simp [wronski, h0]
  have hwb : wronski p K a (a + π / K) = √(sin (a + π / K)) * p.eval (cos (a + π / K)) * K := by
    unfold wronski
    rw [show K * (a + π / K - a) = π by field_simp; ring]
    simp
  have hend : 0 ≤ p.eval (cos (a + π / K)) := by
    have hcont : Continuous fun t => p.eval (cos t) := p.continuous.comp continuous_cos
    have hcl : a + π / K ∈ closure (Set.Ioo a (a + π / K)) := by
      rw [closure_Ioo (by linarith)]
      exact Set.right_mem_Icc.mpr (by linarith)
    have : closure (Set.Ioo a (a + π / K)) ⊆ {t | 0 ≤ p.eval (cos t)} :=
      closure_minimal (fun t ht => (hpos t ht).le) (isClosed_le continuous_const hcont)
    exact this hcl
  rw [hwa, hwb] at hlt
  have : 0 ≤ √(sin (a + π / K)) * p.eval (cos (a + π / K)) * K := by positivity
  linarith

theorem ode_neg {p : ℝ[X]} {m : ℝ} (hp : (1 - X ^ 2) * derivative (derivative p) = 2 * X * derivative p - C m * p) :
    (1 - X ^ 2) * derivative (derivative (-p)) = 2 * X * derivative (-p) - C m * (-p) := by
  simp only [derivative_neg]
  linear_combination -hp

theorem sturm_next (p : ℝ[X]) (m : ℝ) (hp : (1 - X ^ 2) * derivative (derivative p) = 2 * X * derivative p - C m * p) (K : ℝ) (hK : 0 < K)
    (hK2 : K ^ 2 = m + 1 / 4) (a b : ℝ) (ha : 0 < a) (hb : b < π) (h0 : p.eval (cos a) = 0)
    (hno : ∀ t ∈ Set.Ioo a b, p.eval (cos t) ≠ 0) : b - a ≤ π / K := by
  by_contra hcon
  push Not at hcon
  have hsub : Set.Ioo a (a + π / K) ⊆ Set.Ioo a b := Set.Ioo_subset_Ioo_right (by linarith)
  rcases one_sign (f := fun t => p.eval (cos t)) (p.continuous.comp continuous_cos) (fun t ht => hno t (hsub ht)) with h | h
  · exact sturm_next_pos p m hp K hK hK2 a ha (by linarith) h0 h
  · exact sturm_next_pos (-p) m (ode_neg hp) K hK hK2 a ha (by linarith) (by simp [h0]) (fun t ht => by
      have := h t ht
      rw [Polynomial.eval_neg]
      linarith)

/-- Neighbouring zeros are at least `pi / K` apart if the comparison frequency is not smaller. -/
theorem sturm_apart_pos (p : ℝ[X]) (m : ℝ) (hp : (1 - X ^ 2) * derivative (derivative p) = 2 * X * derivative p - C m * p) (K : ℝ) (hK : 0 < K)
    (a b : ℝ) (ha : 0 < a) (hab : a < b) (hb : b < π) (hK2 : ∀ t ∈ Set.Ioo a b, m + 1 / 4 + 1 / (4 * sin t ^ 2) ≤ K ^ 2)
    (h0 : p.eval (cos a) = 0) (h1 : p.eval (cos b) = 0) (hsimple : (derivative p).eval (cos b) ≠ 0)
    (hpos : ∀ t ∈ Set.Ioo a b, 0 < p.eval (cos t)) : π / K ≤ b - a := by
  by_contra hcon
  push Not at hcon
  rw [lt_div_iff₀ hK] at hcon
  have hmono : MonotoneOn (wronski p K a) (Set.Icc a b) := by
    apply monotoneOn_of_deriv_nonneg (convex_Icc _ _)
    · intro t ht
      exact (wronski_deriv p m hp K a t (sin_pos_Icc ha hb ht)).continuousAt.continuousWithinAt
    · intro t ht
      rw [interior_Icc] at ht
      exact (wronski_deriv p m hp K a t (sin_pos_Icc ha hb (Set.Ioo_subset_Icc_self ht))).differentiableAt.differentiableWithinAt
    · intro t ht
      rw [interior_Icc] at ht
      have hsin := sin_pos_Icc ha hb (Set.Ioo_subset_Icc_self ht)
      rw [(wronski_deriv p m hp K a t hsin).deriv]
      have h2 : 0 < sin (K * (t - a)) := by
        apply sin_pos_of_pos_of_lt_pi
        · exact mul_pos hK (by linarith [ht.1])
        · nlinarith [ht.2]
      have h3 := hpos t ht
      have h4 := hK2 t ht
      apply mul_nonneg (by linarith)
      positivity
  have hle := hmono (Set.left_mem_Icc.mpr hab.le) (Set.right_mem_Icc.mpr hab.le) hab.le
  have hwa : wronski p K a a = 0 := by simp [wronski, h0]
  have hsb : 0 < sin b := sin_pos_of_pos_of_lt_pi (by linarith) hb
  have hv : 0 < sin (K * (b - a)) := sin_pos_of_pos_of_lt_pi (mul_pos hK (by linarith)) (by linarith)
  have hwb : wronski p K a b = √(sin b) * sin b * sin (K * (b - a)) * -(derivative p).eval (cos b) := by
    unfold wronski
    rw [h1]; ring
  -- the polynomial falls to its zero
  have hder : 0 ≤ (derivative p).eval (cos b) := by
    have hf : HasDerivAt (fun t => p.eval (cos t)) ((derivative p).eval (cos b) * -sin b) b := (p.hasDerivAt (cos b)).comp b (hasDerivAt_cos b)
    have hneg : (derivative p).eval (cos b) * -sin b ≤ 0 := by
      have := hf.hasDerivWithinAt (s := Set.Iio b)
      rw [hasDerivWithinAt_iff_tendsto_slope' (by simp)] at this
      apply le_of_tendsto this
      have hev : ∀ᶠ t in nhdsWithin b (Set.Iio b), t ∈ Set.Ioo a b := Ioo_mem_nhdsLT hab
      filter_upwards [hev] with t ht
      rw [slope_def_field, h1]
      have h2 := hpos t ht
      exact div_nonpos_of_nonneg_of_nonpos (by linarith) (by linarith [ht.2])
    nlinarith
  have hder' : 0 < (derivative p).eval (cos b) := lt_of_le_of_ne hder (Ne.symm hsimple)
  rw [hwa, hwb] at hle
  have h5 : 0 < √(sin b) * sin b * sin (K * (b - a)) := by
    have := sqrt_pos.mpr hsb
    positivity
  nlinarith

theorem sturm_apart (p : ℝ[X]) (m : ℝ) (hp : (1 - X ^ 2) * derivative (derivative p) = 2 * X * derivative p - C m * p) (K : ℝ) (hK : 0 < K)
    (a b : ℝ) (ha : 0 < a) (hab : a < b) (hb : b < π) (hK2 : ∀ t ∈ Set.Ioo a b, m + 1 / 4 + 1 / (4 * sin t ^ 2) ≤ K ^ 2)
    (h0 : p.eval (cos a) = 0) (h1 : p.eval (cos b) = 0) (hsimple : (derivative p).eval (cos b) ≠ 0)
    (hno : ∀ t ∈ Set.Ioo a b, p.eval (cos t) ≠ 0) : π / K ≤ b - a := by
  rcases one_sign (f := fun t => p.eval (cos t)) (p.continuous.comp continuous_cos) hno with h | h
  · exact sturm_apart_pos p m hp K hK a b ha hab hb hK2 h0 h1 hsimple h
  · exact sturm_apart_pos (-p) m (ode_neg hp) K hK a b ha hab hb hK2 (by simp [h0]) (by simp [h1])
      (by rw [derivative_neg, Polynomial.eval_neg]; exact neg_ne_zero.mpr hsimple) (fun t ht => by
        have := h t ht
        rw [Polynomial.eval_neg]
        linarith)

end Verif.Quad.Leg
