import Verif.Quad.Legendre
import Mathlib.Tactic.NormNum
import Mathlib.Tactic.Positivity
import Mathlib.Analysis.SpecialFunctions.Pow.Real

/-!
# Newton's method near a zero of a Legendre polynomial

Mathematics needed for C88: the differential equation, the sums of reciprocal distances of the zeros, and the contraction of a damped step of
Newton's method.
-/

namespace Verif.Quad.Leg

open Polynomial

/-- The differential equation of Legendre. -/
theorem ode (n : ℕ) : (1 - X ^ 2) * derivative (derivative (P (n + 1))) =
    2 * X * derivative (P (n + 1)) - C (((n : ℝ) + 1) * (n + 2)) * P (n + 1) := by
  have h := congrArg derivative (deriv_formula n)
  have hB := (deriv_rel n).2
  simp only [derivative_mul, derivative_sub, derivative_C, derivative_X, derivative_one, derivative_X_pow, zero_mul, zero_add, zero_sub,
    Nat.add_one_sub_one, pow_one, Nat.cast_ofNat] at h
  have c1 : (C (((n : ℝ) + 1) * (n + 2)) : ℝ[X]) = C ((n : ℝ) + 1) * (C ((n : ℝ) + 1) + 1) := by
    rw [C_mul, ← C_1, ← C_add]
    congr 2
    ring
  have c2 : (C 2 : ℝ[X]) = 2 := rfl
  rw [c1]
  rw [c2] at h
  linear_combination h - C ((n : ℝ) + 1) * hB

theorem prod_derivs (t : Finset ℝ) (y : ℝ) (hy : y ∉ t) :
    (derivative (∏ x ∈ t, (X - C x))).eval y = (∏ x ∈ t, (X - C x)).eval y * ∑ x ∈ t, 1 / (y - x) ∧
    (derivative (derivative (∏ x ∈ t, (X - C x)))).eval y = (∏ x ∈ t, (X - C x)).eval y *
      ((∑ x ∈ t, 1 / (y - x)) ^ 2 - ∑ x ∈ t, 1 / (y - x) ^ 2) := by
  induction t using Finset.induction_on with
  | empty => simp
  | insert a t ha ih =>
    have hya : y - a ≠ 0 := fun h => hy (by rw [sub_eq_zero.mp h]; exact Finset.mem_insert_self _ _)
    obtain ⟨h1, h2⟩ := ih fun h => hy (Finset.mem_insert_of_mem h)
    rw [Finset.prod_insert ha, Finset.sum_insert ha, Finset.sum_insert ha]
    simp only [derivative_mul, derivative_add, derivative_sub, derivative_X, derivative_C, derivative_one, sub_zero, one_mul, eval_add, eval_mul,
      eval_sub, eval_X, eval_C]
    rw [h1, h2]
    refine ⟨by field_simp, by field_simp; ring⟩

/-- With all its zeros the polynomial is a product. -/
theorem factored (n : ℕ) (s : Finset ℝ) (hc : s.card = n) (hs : ∀ y ∈ s, (P n).eval y = 0) :
    ∃ a : ℝ, a ≠ 0 ∧ P n = C a * ∏ x ∈ s, (X - C x) := by
  refine ⟨(P n).leadingCoeff, by simpa using P_ne_zero n, ?_⟩
  have hle : s.val ≤ (P n).roots := by
    rw [Finset.val_le_iff_val_subset]
    intro y hy
    rw [mem_roots (P_ne_zero n)]
    exact hs y hy
  have hcard : Multiset.card (P n).roots = (P n).natDegree := by
    apply le_antisymm (card_roots' _)
    rw [natDegree_P]
    have := Multiset.card_le_card hle
    have h2 : s.val.card = n := hc
    omega
  have heq : s.val = (P n).roots := Multiset.eq_of_le_of_card_le hle (by rw [hcard, natDegree_P, ← hc]; rfl)
  have h := C_leadingCoeff_mul_prod_multiset_X_sub_C hcard
  rw [← heq] at h
  exact h.symm

/-- At a zero: the sums of the reciprocal distances of the other zeros and of their squares. -/
theorem zero_sums (n : ℕ) (s : Finset ℝ) (hc : s.card = n + 1) (hs : ∀ y ∈ s, (P (n + 1)).eval y = 0) (r : ℝ) (hr : r ∈ s) (h1 : r ^ 2 < 1) :
    ∑ x ∈ s.erase r, 1 / (r - x) = r / (1 - r ^ 2) ∧
    ∑ x ∈ s.erase r, 1 / (r - x) ^ 2 = (((n : ℝ) + 1) * (n + 2) - 2) / (3 * (1 - r ^ 2)) - 5 * r ^ 2 / (3 * (1 - r ^ 2) ^ 2) := by
  obtain ⟨a, ha, hf⟩ := factored (n + 1) s hc hs
  rw [← Finset.mul_prod_erase s _ hr] at hf
  have hp := prod_derivs (s.erase r) r (Finset.notMem_erase r s)
  have hq : (∏ x ∈ s.erase r, (X - C x)).eval r ≠ 0 := by
    rw [eval_prod]
    refine Finset.prod_ne_zero_iff.mpr fun x hx => ?_
    rw [eval_sub, eval_X, eval_C]
    exact sub_ne_zero.mpr fun h => (Finset.ne_of_mem_erase hx) h.symm
  generalize ∏ x ∈ s.erase r, (X - C x) = q at hf hp hq
  generalize ∑ x ∈ s.erase r, 1 / (r - x) = G at hp ⊢
  generalize ∑ x ∈ s.erase r, 1 / (r - x) ^ 2 = G2 at hp ⊢
  obtain ⟨q1, q2⟩ := hp
  have o1 := ode n
  have o2 := congrArg derivative o1
  rw [hf] at o1 o2
  simp only [derivative_mul, derivative_add, derivative_sub, derivative_X, derivative_C, derivative_one, derivative_X_pow, derivative_ofNat,
    sub_zero, one_mul, zero_mul, zero_add, zero_sub, Nat.add_one_sub_one, pow_one, Nat.cast_ofNat, mul_one] at o1 o2
  have e1 := congrArg (eval r) o1
  have e2 := congrArg (eval r) o2
  simp only [eval_add, eval_mul, eval_sub, eval_X, eval_C, eval_pow, Polynomial.eval_one, Polynomial.eval_neg, sub_self, zero_mul, mul_zero, add_zero, zero_add,
    eval_ofNat, sub_zero] at e1 e2
  rw [q1] at e1 e2
  rw [q2] at e2
  have hd : (1 - r ^ 2) ≠ 0 := by linarith
  have hG : G = r / (1 - r ^ 2) := by
    rw [eq_div_iff hd]
    have haq := mul_ne_zero ha hq
    apply mul_left_cancel₀ haq
    linear_combination e1 / 2
  refine ⟨hG, ?_⟩
  have hGd : G * (1 - r ^ 2) = r := by rw [hG]; field_simp
  have haq := mul_ne_zero ha hq
  have key : 3 * (1 - r ^ 2) * (G ^ 2 - G2) - 8 * r * G + (((n : ℝ) + 1) * (n + 2) - 2) = 0 := by
    apply mul_left_cancel₀ haq
    linear_combination e2
  rw [div_sub_div _ _ (by positivity) (by positivity), eq_div_iff (by positivity)]
  linear_combination (-3 * (1 - r ^ 2) ^ 2 ) * key + (9*(1 - r ^ 2)*(G*(1 - r ^ 2)+r) - 24*r*(1 - r ^ 2)) * hGd

/-- Near a zero the other zeros are far away. -/
theorem near_sep (n : ℕ) (hn : 1 ≤ n) (s : Finset ℝ) (hc : s.card = n + 1) (hs : ∀ y ∈ s, (P (n + 1)).eval y = 0) (r : ℝ) (hr : r ∈ s)
    (S : ℝ) (hS : 0 < S) (hS2 : S ^ 2 = 1 - r ^ 2) (y : ℝ) (hy : |y - r| * (n + 1) ≤ 2 / 5 * S) :
    |y - r| ^ 2 * ∑ x ∈ s.erase r, 1 / (r - x) ^ 2 ≤ 8 / 100 ∧ ∀ x ∈ s.erase r, 0 < |r - x| ∧ |y - r| ≤ 3 / 10 * |r - x| := by
  have hS2p : 0 < 1 - r ^ 2 := by rw [← hS2]; positivity
  have hn' : (1 : ℝ) ≤ n := by exact_mod_cast hn
  have hN : (0 : ℝ) < n + 1 := by linarith
  obtain ⟨z1, z2⟩ := zero_sums n s hc hs r hr (by linarith)
  set d := |y - r| with hd
  have hd0 : 0 ≤ d := abs_nonneg _
  set Q := ∑ x ∈ s.erase r, 1 / (r - x) ^ 2 with hQ
  have hQle : Q * (3 * S ^ 2) ≤ ((n : ℝ) + 1) * (n + 2) := by
    rw [z2, hS2, sub_mul, div_mul_cancel₀ _ (by positivity)]
    have : 0 ≤ 5 * r ^ 2 / (3 * (1 - r ^ 2) ^ 2) * (3 * (1 - r ^ 2)) := by positivity
    linarith
  -- the square of the offset, times the sum
  have hdd : d ^ 2 * Q ≤ 8 / 100 := by
    have h1 : (d * (n + 1)) ^ 2 ≤ (2 / 5 * S) ^ 2 := pow_le_pow_left₀ (by positivity) hy 2
    have hQ0 : 0 ≤ Q := Finset.sum_nonneg fun x _ => by positivity
    have h2 : (d * (n + 1)) ^ 2 * Q ≤ 4 / 75 * (((n : ℝ) + 1) * (n + 2)) := by nlinarith
    have h3 : d ^ 2 * Q * (n + 1) ≤ 4 / 75 * ((n : ℝ) + 2) := by
      have : (d ^ 2 * Q * (n + 1)) * (n + 1) ≤ (4 / 75 * ((n : ℝ) + 2)) * (n + 1) := by nlinarith
      exact le_of_mul_le_mul_right this hN
    have h4 : d ^ 2 * Q * (n + 1) ≤ 8 / 100 * (n + 1) := by linarith
    exact le_of_mul_le_mul_right h4 hN
  refine ⟨hdd, ?_⟩
  intro x hx
  have hne : r - x ≠ 0 := sub_ne_zero.mpr fun h => (Finset.ne_of_mem_erase hx) h.symm
  have hpos : 0 < |r - x| := abs_pos.mpr hne
  refine ⟨hpos, ?_⟩
  have h1 : 1 / (r - x) ^ 2 ≤ Q := Finset.single_le_sum (f := fun x => 1 / (r - x) ^ 2) (fun x _ => by positivity) hx
  have h2 : d ^ 2 * (1 / (r - x) ^ 2) ≤ 8 / 100 := le_trans (mul_le_mul_of_nonneg_left h1 (sq_nonneg d)) hdd
  rw [mul_one_div, div_le_iff₀ (by positivity), ← sq_abs (r - x)] at h2
  by_contra hcon
  push Not at hcon
  nlinarith

/-- Near a zero the other zeros do not matter much: the bound of their sum. -/
theorem near_sum (n : ℕ) (hn : 1 ≤ n) (s : Finset ℝ) (hc : s.card = n + 1) (hs : ∀ y ∈ s, (P (n + 1)).eval y = 0) (r : ℝ) (hr : r ∈ s)
    (S : ℝ) (hS : 0 < S) (hS2 : S ^ 2 = 1 - r ^ 2) (hcot : |r| ≤ 5306 / 10000 * (n + 1) * S) (y : ℝ) (hy : |y - r| * (n + 1) ≤ 2 / 5 * S) :
    (∀ x ∈ s.erase r, y ≠ x) ∧ |(y - r) * ∑ x ∈ s.erase r, 1 / (y - x)| ≤ 33 / 100 := by
  have hS2p : 0 < 1 - r ^ 2 := by rw [← hS2]; positivity
  have hn' : (1 : ℝ) ≤ n := by exact_mod_cast hn
  have hN : (0 : ℝ) < n + 1 := by linarith
  obtain ⟨z1, z2⟩ := zero_sums n s hc hs r hr (by linarith)
  obtain ⟨hdd, hsep⟩ := near_sep n hn s hc hs r hr S hS hS2 y hy
  set d := |y - r| with hd
  have hd0 : 0 ≤ d := abs_nonneg _
  set Q := ∑ x ∈ s.erase r, 1 / (r - x) ^ 2 with hQ
  have hfar : ∀ x ∈ s.erase r, 7 / 10 * |r - x| ≤ |y - x| := by
    intro x hx
    have h1 := (hsep x hx).2
    have h2 : |r - x| ≤ |y - r| + |y - x| := by
      have := abs_sub_le r y x
      rwa [abs_sub_comm r y] at this
    rw [← hd] at h2
    linarith
  refine ⟨?_, ?_⟩
  · intro x hx h
    have h1 := hfar x hx
    rw [h, sub_self, abs_zero] at h1
    have := (hsep x hx).1
    linarith
  · have hG : |∑ x ∈ s.erase r, 1 / (y - x)| ≤ |r| / S ^ 2 + d * Q / (7 / 10) := by
      have e : ∑ x ∈ s.erase r, 1 / (y - x) = r / (1 - r ^ 2) + ∑ x ∈ s.erase r, (1 / (y - x) - 1 / (r - x)) := by
        rw [Finset.sum_sub_distrib, z1]; ring
      rw [e]
      refine le_trans (abs_add_le _ _) (add_le_add ?_ ?_)
      · rw [← hS2, abs_div, abs_of_pos (by positivity : 0 < S ^ 2)]
      · refine le_trans (Finset.abs_sum_le_sum_abs _ _) ?_
        rw [hQ, Finset.mul_sum, Finset.sum_div]
        refine Finset.sum_le_sum fun x hx => ?_
        have h1 := hfar x hx
        have h2 := (hsep x hx).1
        have hyx : y - x ≠ 0 := by
          intro h
          rw [h, abs_zero] at h1
          linarith
        have hrx : r - x ≠ 0 := abs_pos.mp h2
        rw [div_sub_div _ _ hyx hrx, show 1 * (r - x) - (y - x) * 1 = -(y - r) by ring, abs_div, abs_neg, abs_mul, ← hd, mul_one_div, div_div,
          ← sq_abs (r - x)]
        apply div_le_div_of_nonneg_left hd0 (by positivity)
        nlinarith
    rw [abs_mul, ← hd]
    have h1 : d * |∑ x ∈ s.erase r, 1 / (y - x)| ≤ d * (|r| / S ^ 2) + d ^ 2 * Q / (7 / 10) := by
      refine le_trans (mul_le_mul_of_nonneg_left hG hd0) (le_of_eq ?_)
      ring
    have h2 : d * (|r| / S ^ 2) ≤ 2 / 5 * (5306 / 10000) := by
      rw [mul_div_assoc', div_le_iff₀ (by positivity)]
      have h3 : d * |r| ≤ d * (5306 / 10000 * (n + 1) * S) := mul_le_mul_of_nonneg_left hcot hd0
      nlinarith
    have h4 : d ^ 2 * Q / (7 / 10) ≤ 8 / 100 / (7 / 10) := by
      apply div_le_div_of_nonneg_right hdd (by norm_num)
    refine le_trans h1 (le_trans (add_le_add h2 h4) ?_)
    norm_num

/-- Near a zero the damped step of Newton's method brings a point closer to it. -/
theorem newton_step (n : ℕ) (hn : 1 ≤ n) (s : Finset ℝ) (hc : s.card = n + 1) (hs : ∀ y ∈ s, (P (n + 1)).eval y = 0) (r : ℝ) (hr : r ∈ s)
    (S : ℝ) (hS : 0 < S) (hS2 : S ^ 2 = 1 - r ^ 2) (hcot : |r| ≤ 5306 / 10000 * (n + 1) * S) (y : ℝ) (hy : |y - r| * (n + 1) ≤ 2 / 5 * S) :
    (derivative (P (n + 1))).eval y ≠ 0 ∧
    |y - (P (n + 1)).eval y / (((n : ℝ) + 2) / (n + 1) * (derivative (P (n + 1))).eval y) - r| ≤ 199 / 201 * |y - r| := by
  obtain ⟨h1, h2⟩ := near_sum n hn s hc hs r hr S hS hS2 hcot y hy
  obtain ⟨a, ha, hf⟩ := factored (n + 1) s hc hs
  rw [← Finset.mul_prod_erase s _ hr] at hf
  have hp := (prod_derivs (s.erase r) y (fun h => h1 y h rfl)).1
  have hq : (∏ x ∈ s.erase r, (X - C x)).eval y ≠ 0 := by
    rw [eval_prod]
    refine Finset.prod_ne_zero_iff.mpr fun x hx => ?_
    rw [eval_sub, eval_X, eval_C]
    exact sub_ne_zero.mpr (h1 x hx)
  generalize ∏ x ∈ s.erase r, (X - C x) = q at hf hp hq
  generalize ∑ x ∈ s.erase r, 1 / (y - x) = G at hp h2
  have hD : (derivative (P (n + 1))).eval y = a * q.eval y * (1 + (y - r) * G) := by
    rw [hf]
    simp only [derivative_mul, derivative_sub, derivative_X, derivative_C, sub_zero, one_mul, zero_mul, zero_add, eval_add, eval_mul, eval_sub,
      eval_X, eval_C]
    rw [hp]; ring
  have hP : (P (n + 1)).eval y = a * q.eval y * (y - r) := by
    rw [hf]
    simp only [eval_mul, eval_sub, eval_X, eval_C]; ring
  obtain ⟨h3, h4⟩ := abs_le.mp h2
  have hpos : 0 < 1 + (y - r) * G := by linarith
  have haq : a * q.eval y ≠ 0 := mul_ne_zero ha hq
  have hn' : (1 : ℝ) ≤ n := by exact_mod_cast hn
  refine ⟨by rw [hD]; exact mul_ne_zero haq hpos.ne', ?_⟩
  rw [hD, hP]
  set t := (y - r) * G with ht
  have e : y - a * q.eval y * (y - r) / (((n : ℝ) + 2) / (n + 1) * (a * q.eval y * (1 + t))) - r =
      (y - r) * (1 - (n + 1) / ((n + 2) * (1 + t))) := by
    have : (n : ℝ) + 1 ≠ 0 := by positivity
    have : (n : ℝ) + 2 ≠ 0 := by positivity
    have := hpos.ne'
    field_simp
    ring
  rw [e, abs_mul, mul_comm]
  apply mul_le_mul_of_nonneg_right _ (abs_nonneg _)
  have hd : 0 < ((n : ℝ) + 2) * (1 + t) := by positivity
  rw [abs_le]
  constructor
  · have : ((n : ℝ) + 1) / ((n + 2) * (1 + t)) ≤ 400 / 201 := by
      rw [div_le_div_iff₀ hd (by norm_num)]
      nlinarith
    linarith
  · have : (2 : ℝ) / 201 ≤ ((n : ℝ) + 1) / ((n + 2) * (1 + t)) := by
      rw [div_le_div_iff₀ (by norm_num) hd]
      nlinarith
    linarith

end Verif.Quad.Leg
