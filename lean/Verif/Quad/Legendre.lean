import Mathlib.Algebra.Polynomial.Derivative
import Mathlib.Algebra.Polynomial.FieldDivision
import Mathlib.Algebra.Polynomial.Roots
import Mathlib.Analysis.Calculus.Deriv.Polynomial
import Mathlib.Analysis.Complex.Polynomial.Basic
import Mathlib.LinearAlgebra.Lagrange
import Mathlib.Topology.Algebra.Polynomial
import Mathlib.MeasureTheory.Integral.IntervalIntegral.FundThmCalculus
import Mathlib.Tactic.LinearCombination
import Mathlib.Tactic.FieldSimp
import Mathlib.Tactic.Linarith
import Mathlib.Tactic.Ring

/-!
# Legendre polynomials and Gauss quadrature

Mathematics needed for C88: the recursion, derivatives, orthogonality, the formula of Christoffel and Darboux, and the exactness of the
quadrature on the zeros.
-/

namespace Verif.Quad.Leg

open Polynomial

/-- The Legendre polynomials, by Bonnet's recursion. -/
noncomputable def P : ℕ → ℝ[X]
  | 0 => 1
  | 1 => X
  | n + 2 => C (1 / ((n : ℝ) + 2)) * (C (2 * (n : ℝ) + 3) * X * P (n + 1) - C ((n : ℝ) + 1) * P n)

theorem P_rec (n : ℕ) : C ((n : ℝ) + 2) * P (n + 2) = C (2 * (n : ℝ) + 3) * X * P (n + 1) - C ((n : ℝ) + 1) * P n := by
  rw [P, ← mul_assoc, ← C_mul]
  rw [mul_one_div_cancel (by positivity), C_1, one_mul]

theorem cancelC {a : ℝ} (ha : a ≠ 0) {p q : ℝ[X]} (h : C a * p = C a * q) : p = q :=
  mul_left_cancel₀ (C_ne_zero.mpr ha) h

/-- The two relations between neighbouring derivatives. -/
theorem deriv_rel (n : ℕ) :
    derivative (P (n + 1)) = X * derivative (P n) + C ((n : ℝ) + 1) * P n ∧
    X * derivative (P (n + 1)) = derivative (P n) + C ((n : ℝ) + 1) * P (n + 1) := by
  induction n with
  | zero => simp [P]
  | succ n ih =>
    obtain ⟨hA, hB⟩ := ih
    have hR := P_rec n
    have hD := congrArg derivative hR
    simp only [derivative_mul, derivative_sub, derivative_C, derivative_X, zero_mul, zero_add, mul_one, add_zero] at hD
    have hne : (n : ℝ) + 2 ≠ 0 := by positivity
    have e1 : (C (((n + 1 : ℕ) : ℝ) + 1) : ℝ[X]) = C (n : ℝ) + 2 := by
      rw [show (((n + 1 : ℕ) : ℝ) + 1) = (n : ℝ) + 2 by push_cast; ring, C_add]; rfl
    have c2 : (C ((n : ℝ) + 2) : ℝ[X]) = C (n : ℝ) + 2 := by rw [C_add]; rfl
    have c3 : (C (2 * (n : ℝ) + 3) : ℝ[X]) = 2 * C (n : ℝ) + 3 := by rw [C_add, C_mul]; rfl
    have c1 : (C ((n : ℝ) + 1) : ℝ[X]) = C (n : ℝ) + 1 := by rw [C_add]; rfl
    rw [e1]
    rw [c1] at hA hB
    rw [c1, c2, c3] at hD hR
    have hA' : derivative (P (n + 2)) = X * derivative (P (n + 1)) + (C (n : ℝ) + 2) * P (n + 1) := by
      apply cancelC hne
      rw [c2]
      linear_combination hD + (C (n : ℝ) + 1) * hB
    refine ⟨hA', ?_⟩
    linear_combination X * hA' - hR + X * hB - hA

/-- `(1 - x²) P' = n (P_{n-1} - x P_n)`. -/
theorem deriv_formula (n : ℕ) : (1 - X ^ 2) * derivative (P (n + 1)) = C ((n : ℝ) + 1) * (P n - X * P (n + 1)) := by
  obtain ⟨hA, hB⟩ := deriv_rel n
  linear_combination hA - X * hB

/-- `(2 n + 3) P_{n+1} = P'_{n+2} - P'_n`. -/
theorem deriv_diff (n : ℕ) : C (2 * (n : ℝ) + 3) * P (n + 1) = derivative (P (n + 2)) - derivative (P n) := by
  have h1 := (deriv_rel (n + 1)).1
  have h2 := (deriv_rel n).2
  have e1 : (C (((n + 1 : ℕ) : ℝ) + 1) : ℝ[X]) = C (n : ℝ) + 2 := by
    rw [show (((n + 1 : ℕ) : ℝ) + 1) = (n : ℝ) + 2 by push_cast; ring, C_add]; rfl
  have c3 : (C (2 * (n : ℝ) + 3) : ℝ[X]) = 2 * C (n : ℝ) + 3 := by rw [C_add, C_mul]; rfl
  have c1 : (C ((n : ℝ) + 1) : ℝ[X]) = C (n : ℝ) + 1 := by rw [C_add]; rfl
  rw [e1] at h1
  rw [c1] at h2
  rw [c3]
  linear_combination -h2 - h1

theorem eval_rec (n : ℕ) (x : ℝ) :
    ((n : ℝ) + 2) * (P (n + 2)).eval x = (2 * n + 3) * x * (P (n + 1)).eval x - (n + 1) * (P n).eval x := by
  have := congrArg (eval x) (P_rec n)
  simpa using this

theorem eval_one (n : ℕ) : (P n).eval 1 = 1 ∧ (P (n + 1)).eval 1 = 1 := by
  induction n with
  | zero => simp [P]
  | succ n ih =>
    refine ⟨ih.2, ?_⟩
    have := eval_rec n 1
    rw [ih.1, ih.2] at this
    have hne : (n : ℝ) + 2 ≠ 0 := by positivity
    apply mul_left_cancel₀ hne
    rw [this]; ring

/-- Parity. -/
theorem eval_neg (n : ℕ) (x : ℝ) : (P n).eval (-x) = (-1) ^ n * (P n).eval x ∧ (P (n + 1)).eval (-x) = (-1) ^ (n + 1) * (P (n + 1)).eval x := by
  induction n with
  | zero => simp [P]
  | succ n ih =>
    refine ⟨ih.2, ?_⟩
    have h1 := eval_rec n x
    have h2 := eval_rec n (-x)
    have hne : (n : ℝ) + 2 ≠ 0 := by positivity
    rw [ih.1, ih.2] at h2
    apply mul_left_cancel₀ hne
    rw [h2]
    calc _ = (-1) ^ (n + 2) * ((2 * (n : ℝ) + 3) * x * (P (n + 1)).eval x - (n + 1) * (P n).eval x) := by ring
      _ = _ := by rw [← h1]; ring

theorem natDegree_le (n : ℕ) : (P n).natDegree ≤ n ∧ (P (n + 1)).natDegree ≤ n + 1 := by
  induction n with
  | zero => simp [P]
  | succ n ih =>
    refine ⟨ih.2, ?_⟩
    rw [P]
    refine le_trans (natDegree_C_mul_le _ _) ?_
    refine le_trans (natDegree_sub_le _ _) (max_le ?_ ?_)
    · rw [mul_assoc]
      refine le_trans (natDegree_C_mul_le _ _) ?_
      refine le_trans natDegree_mul_le ?_
      rw [natDegree_X]; omega
    · exact le_trans (natDegree_C_mul_le _ _) (by omega)

theorem lead_pos (n : ℕ) : 0 < (P n).coeff n ∧ 0 < (P (n + 1)).coeff (n + 1) := by
  induction n with
  | zero => simp [P]
  | succ n ih =>
    refine ⟨ih.2, ?_⟩
    rw [P, coeff_C_mul, coeff_sub, mul_assoc, coeff_C_mul, coeff_X_mul, coeff_C_mul,
      coeff_eq_zero_of_natDegree_lt (p := P n) (lt_of_le_of_lt (natDegree_le n).1 (by omega))]
    have := ih.2
    rw [mul_zero, sub_zero]
    positivity

theorem natDegree_P (n : ℕ) : (P n).natDegree = n :=
  le_antisymm (natDegree_le n).1 (le_natDegree_of_ne_zero (ne_of_gt (lead_pos n).1))

theorem P_ne_zero (n : ℕ) : P n ≠ 0 := by
  intro h
  have := (lead_pos n).1
  rw [h] at this
  simp at this

/-! ## Orthogonality -/

/-- The integral over `[-1, 1]`. -/
noncomputable def I (p : ℝ[X]) : ℝ := ∫ x in (-1 : ℝ)..1, p.eval x

theorem ii (p : ℝ[X]) : IntervalIntegrable (fun x => p.eval x) MeasureTheory.volume (-1) 1 := p.continuous.intervalIntegrable _ _

theorem I_add (p q : ℝ[X]) : I (p + q) = I p + I q := by
  unfold I
  simp only [eval_add]
  exact intervalIntegral.integral_add (ii p) (ii q)

theorem I_sub (p q : ℝ[X]) : I (p - q) = I p - I q := by
  unfold I
  simp only [eval_sub]
  exact intervalIntegral.integral_sub (ii p) (ii q)

theorem I_C_mul (a : ℝ) (p : ℝ[X]) : I (C a * p) = a * I p := by
  unfold I
  simp only [eval_mul, eval_C]
  exact intervalIntegral.integral_const_mul a _

theorem I_sum {ι : Type} (s : Finset ι) (f : ι → ℝ[X]) : I (∑ i ∈ s, f i) = ∑ i ∈ s, I (f i) := by
  classical
  induction s using Finset.induction_on with
  | empty => simp [I]
  | insert a s ha ih => rw [Finset.sum_insert ha, Finset.sum_insert ha, I_add, ih]

theorem I_deriv (p : ℝ[X]) : I (derivative p) = p.eval 1 - p.eval (-1) := by
  unfold I
  exact intervalIntegral.integral_eq_sub_of_hasDerivAt (fun x _ => p.hasDerivAt x) (ii _)

theorem I_one : I 1 = 2 := by
  have := I_deriv X
  rw [derivative_X] at this
  rw [this]; simp; norm_num

theorem ends (n : ℕ) : (P (n + 2) - P n).eval 1 = 0 ∧ (P (n + 2) - P n).eval (-1) = 0 := by
  constructor
  · rw [eval_sub, (eval_one n).1, (eval_one (n + 1)).2]; ring
  · rw [eval_sub, (eval_neg n 1).1, (eval_neg (n + 1) 1).2, (eval_one n).1, (eval_one (n + 1)).2]; ring

/-- `P_n` is orthogonal to all polynomials of lower degree. -/
theorem orth (d : ℕ) : ∀ n q, d < n → q.natDegree ≤ d → I (P n * q) = 0 := by
  induction d with
  | zero =>
    intro n q hn hq
    obtain ⟨m, rfl⟩ : ∃ m, n = m + 1 := ⟨n - 1, by omega⟩
    obtain ⟨a, rfl⟩ := natDegree_eq_zero.mp (Nat.le_zero.mp hq)
    have h1 := I_deriv (P (m + 2) - P m)
    rw [derivative_sub, ← deriv_diff, (ends m).1, (ends m).2, I_C_mul, sub_zero] at h1
    have : I (P (m + 1)) = 0 := (mul_eq_zero.mp h1).resolve_left (by positivity)
    rw [mul_comm, I_C_mul, this, mul_zero]
  | succ d ih =>
    intro n q hn hq
    obtain ⟨m, rfl⟩ : ∃ m, n = m + 1 := ⟨n - 1, by omega⟩
    have h1 := I_deriv ((P (m + 2) - P m) * q)
    rw [eval_mul, eval_mul, (ends m).1, (ends m).2, derivative_mul, derivative_sub, ← deriv_diff, I_add, sub_mul, I_sub, mul_assoc, I_C_mul] at h1
    have hq' : (derivative q).natDegree ≤ d := le_trans (natDegree_derivative_le q) (by omega)
    rw [ih (m + 2) _ (by omega) hq', ih m _ (by omega) hq'] at h1
    simp only [zero_mul, sub_zero, add_zero] at h1
    exact (mul_eq_zero.mp h1).resolve_left (by positivity)

/-! ## Christoffel and Darboux -/

/-- The kernel. -/
noncomputable def S (n : ℕ) (y : ℝ) : ℝ[X] := ∑ k ∈ Finset.range (n + 1), C ((2 * (k : ℝ) + 1) * (P k).eval y) * P k

theorem christoffel (n : ℕ) (y : ℝ) :
    (X - C y) * S n y = C ((n : ℝ) + 1) * (C ((P n).eval y) * P (n + 1) - C ((P (n + 1)).eval y) * P n) := by
  induction n with
  | zero => simp [S, P]
  | succ n ih =>
    unfold S at ih ⊢
    rw [Finset.sum_range_succ, mul_add, ih]
    have h1 := P_rec n
    have h2 : C ((n : ℝ) + 2) * C ((P (n + 2)).eval y) = C (2 * (n : ℝ) + 3) * C y * C ((P (n + 1)).eval y) - C ((n : ℝ) + 1) * C ((P n).eval y) := by
      rw [← C_mul, eval_rec n y]; simp [C_mul, C_sub]
    have c2 : (C (((n + 1 : ℕ) : ℝ) + 1) : ℝ[X]) = C ((n : ℝ) + 2) := by congr 1; push_cast; ring
    have c3 : (C (2 * ((n + 1 : ℕ) : ℝ) + 1) : ℝ[X]) = C (2 * (n : ℝ) + 3) := by congr 1; push_cast; ring
    rw [c2, C_mul, c3]
    linear_combination (-C ((P (n + 1)).eval y)) * h1 + P (n + 1) * h2

theorem I_S (n : ℕ) (y : ℝ) : I (S n y) = 2 := by
  unfold S
  rw [I_sum, Finset.sum_range_succ']
  rw [Finset.sum_eq_zero]
  · simp only [P, Nat.cast_zero, mul_zero, zero_add, one_mul, mul_one, Polynomial.eval_one, C_1, I_one]
  · intro k _
    rw [I_C_mul]
    have := orth 0 (k + 1) 1 (by omega) (by simp)
    rw [mul_one] at this
    rw [this, mul_zero]

theorem S_self (n : ℕ) (y : ℝ) : 1 ≤ (S n y).eval y := by
  unfold S
  rw [eval_finsetSum, Finset.sum_range_succ']
  have : 0 ≤ ∑ k ∈ Finset.range n, (C ((2 * ((k + 1 : ℕ) : ℝ) + 1) * (P (k + 1)).eval y) * P (k + 1)).eval y := by
    apply Finset.sum_nonneg
    intro k _
    rw [eval_mul, eval_C, mul_assoc]
    exact mul_nonneg (by positivity) (mul_self_nonneg _)
  simp [P] at this ⊢
  exact this

theorem S_degree (n : ℕ) (y : ℝ) : (S n y).natDegree ≤ n := by
  unfold S
  apply natDegree_sum_le_of_forall_le
  intro k hk
  rw [Finset.mem_range] at hk
  exact le_trans (natDegree_C_mul_le _ _) (by rw [natDegree_P]; omega)

/-- At a zero `y` of `P_{n+1}`. -/
theorem S_root (n : ℕ) (y : ℝ) (hy : (P (n + 1)).eval y = 0) :
    (X - C y) * S n y = C (((n : ℝ) + 1) * (P n).eval y) * P (n + 1) ∧
    (S n y).eval y = (1 - y ^ 2) * (derivative (P (n + 1))).eval y ^ 2 ∧
    ((n : ℝ) + 1) * (P n).eval y = (1 - y ^ 2) * (derivative (P (n + 1))).eval y := by
  have h1 : (X - C y) * S n y = C (((n : ℝ) + 1) * (P n).eval y) * P (n + 1) := by
    rw [christoffel, hy]; simp [C_mul]; ring
  have h3 : ((n : ℝ) + 1) * (P n).eval y = (1 - y ^ 2) * (derivative (P (n + 1))).eval y := by
    have := congrArg (eval y) (deriv_formula n)
    simp [hy] at this
    linarith
  refine ⟨h1, ?_, h3⟩
  have h2 := congrArg (eval y) (congrArg derivative h1)
  simp only [derivative_mul, derivative_sub, derivative_X, derivative_C, sub_zero, one_mul, zero_mul, zero_add, eval_add, eval_mul, eval_sub,
    eval_X, eval_C, sub_self, add_zero] at h2
  rw [h2, h3]; ring

/-! ## Quadrature -/

/-- The weight of the quadrature: half of the usual one, for the mean over `[-1, 1]`. -/
noncomputable def weight (n : ℕ) (y : ℝ) : ℝ := 1 / ((1 - y ^ 2) * (derivative (P n)).eval y ^ 2)

theorem weight_pos (n : ℕ) (y : ℝ) (hy : (P (n + 1)).eval y = 0) : 0 < weight (n + 1) y ∧ y ^ 2 < 1 := by
  obtain ⟨-, h2, -⟩ := S_root n y hy
  have h1 := S_self n y
  rw [h2] at h1
  have hpos : 0 < (1 - y ^ 2) * (derivative (P (n + 1))).eval y ^ 2 := by linarith
  refine ⟨by unfold weight; positivity, ?_⟩
  have := pos_of_mul_pos_left hpos (sq_nonneg _)
  linarith

/-- Quadrature on the `n + 1` zeros is exact for polynomials of degree at most `n`. -/
theorem exact_low (n : ℕ) (s : Finset ℝ) (hs : ∀ y ∈ s, (P (n + 1)).eval y = 0) (hc : s.card = n + 1) (p : ℝ[X]) (hp : p.natDegree ≤ n) :
    ∑ y ∈ s, weight (n + 1) y * p.eval y = I p / 2 := by
  have hlag : p = ∑ y ∈ s, C (p.eval y / (S n y).eval y) * S n y := by
    apply Polynomial.eq_of_degree_sub_lt_of_eval_finset_eq s
    · rw [hc]
      refine lt_of_le_of_lt (degree_sub_le _ _) (max_lt ?_ ?_)
      · exact lt_of_le_of_lt degree_le_natDegree (by exact_mod_cast Nat.lt_succ_of_le hp)
      · refine lt_of_le_of_lt degree_le_natDegree ?_
        have : (∑ y ∈ s, C (p.eval y / (S n y).eval y) * S n y).natDegree ≤ n := by
          apply natDegree_sum_le_of_forall_le
          intro y _
          exact le_trans (natDegree_C_mul_le _ _) (S_degree n y)
        exact_mod_cast Nat.lt_succ_of_le this
    · intro x hx
      rw [eval_finsetSum, Finset.sum_eq_single x]
      · rw [eval_mul, eval_C, div_mul_cancel₀]
        have := S_self n x
        exact ne_of_gt (by linarith)
      · intro y hy hyx
        obtain ⟨h1, -, -⟩ := S_root n y (hs y hy)
        have := congrArg (eval x) h1
        simp only [eval_mul, eval_sub, eval_X, eval_C, hs x hx, mul_zero] at this
        rw [eval_mul, (mul_eq_zero.mp this).resolve_left (sub_ne_zero.mpr (Ne.symm hyx)), mul_zero]
      · intro h; exact absurd hx h
  conv_rhs => rw [hlag]
  rw [I_sum, Finset.sum_div]
  apply Finset.sum_congr rfl
  intro y hy
  obtain ⟨-, h2, -⟩ := S_root n y (hs y hy)
  rw [I_C_mul, I_S, h2]
  unfold weight
  have : (1 - y ^ 2) * (derivative (P (n + 1))).eval y ^ 2 ≠ 0 := by
    have := S_self n y
    rw [h2] at this
    exact ne_of_gt (by linarith)
  field_simp

/-- Gauss quadrature is exact for polynomials of degree less than `2 (n + 1)`. -/
theorem exact_gauss (n : ℕ) (s : Finset ℝ) (hs : ∀ y ∈ s, (P (n + 1)).eval y = 0) (hc : s.card = n + 1) (p : ℝ[X])
    (hp : p.natDegree < 2 * (n + 1)) : ∑ y ∈ s, weight (n + 1) y * p.eval y = I p / 2 := by
  have hdiv : p = P (n + 1) * (p / P (n + 1)) + p % P (n + 1) := (EuclideanDomain.div_add_mod p (P (n + 1))).symm
  have hr : (p % P (n + 1)).natDegree ≤ n := by
    have := natDegree_mod_lt p (q := P (n + 1)) (by rw [natDegree_P]; omega)
    rw [natDegree_P] at this
    omega
  have hq : (p / P (n + 1)).natDegree ≤ n := by
    by_cases hle : (P (n + 1)).degree ≤ p.degree
    · have h0 : p ≠ 0 := by
        rintro rfl
        rw [degree_zero, le_bot_iff, degree_eq_bot] at hle
        exact P_ne_zero _ hle
      have h1 := degree_add_div (P_ne_zero (n + 1)) hle
      by_cases hz : p / P (n + 1) = 0
      · rw [hz]; simp
      · rw [degree_eq_natDegree (P_ne_zero _), degree_eq_natDegree hz, degree_eq_natDegree h0, natDegree_P] at h1
        have : n + 1 + (p / P (n + 1)).natDegree = p.natDegree := by exact_mod_cast h1
        omega
    · rw [(Polynomial.div_eq_zero_iff (P_ne_zero (n + 1))).mpr (not_le.mp hle)]; simp
  have h1 := exact_low n s hs hc (p % P (n + 1)) hr
  have h2 : I p = I (p % P (n + 1)) := by
    conv_lhs => rw [hdiv]
    rw [I_add, orth n (n + 1) _ (by omega) hq, zero_add]
  rw [h2, ← h1]
  apply Finset.sum_congr rfl
  intro y hy
  congr 1
  conv_lhs => rw [hdiv]
  rw [eval_add, eval_mul, hs y hy, zero_mul, zero_add]

/-! ## Zeros -/

theorem aeval_rec (n : ℕ) (z : ℂ) :
    ((n : ℂ) + 2) * aeval z (P (n + 2)) = (2 * n + 3) * z * aeval z (P (n + 1)) - (n + 1) * aeval z (P n) := by
  have := congrArg (aeval z) (P_rec n)
  simpa [aeval_C] using this

theorem aeval_conj (p : ℝ[X]) (z : ℂ) : aeval (starRingEnd ℂ z) p = starRingEnd ℂ (aeval z p) := by
  induction p using Polynomial.induction_on' with
  | add p q hp hq => simp [hp, hq]
  | monomial n a => simp [aeval_monomial]

theorem christoffel_c (n : ℕ) (x y : ℂ) :
    (x - y) * ∑ k ∈ Finset.range (n + 1), (2 * (k : ℂ) + 1) * (aeval x (P k) * aeval y (P k)) =
      ((n : ℂ) + 1) * (aeval x (P (n + 1)) * aeval y (P n) - aeval x (P n) * aeval y (P (n + 1))) := by
  induction n with
  | zero => simp [P]
  | succ n ih =>
    rw [Finset.sum_range_succ, mul_add, ih]
    have h1 := aeval_rec n x
    have h2 := aeval_rec n y
    push_cast
    linear_combination (-aeval y (P (n + 1))) * h1 + aeval x (P (n + 1)) * h2

/-- All complex zeros are real. -/
theorem zero_real (n : ℕ) (z : ℂ) (hz : aeval z (P (n + 1)) = 0) : z.im = 0 := by
  have h := christoffel_c n z (starRingEnd ℂ z)
  have h2 : aeval (starRingEnd ℂ z) (P (n + 1)) = 0 := by rw [aeval_conj, hz, map_zero]
  rw [hz, h2] at h
  simp only [zero_mul, mul_zero, sub_zero] at h
  have hsum : ∑ k ∈ Finset.range (n + 1), (2 * (k : ℂ) + 1) * (aeval z (P k) * aeval (starRingEnd ℂ z) (P k)) =
      ((∑ k ∈ Finset.range (n + 1), (2 * (k : ℝ) + 1) * Complex.normSq (aeval z (P k)) : ℝ) : ℂ) := by
    push_cast
    apply Finset.sum_congr rfl
    intro k _
    rw [aeval_conj, Complex.mul_conj]
  have hpos : (1 : ℝ) ≤ ∑ k ∈ Finset.range (n + 1), (2 * (k : ℝ) + 1) * Complex.normSq (aeval z (P k)) := by
    rw [Finset.sum_range_succ']
    have : 0 ≤ ∑ k ∈ Finset.range n, (2 * ((k + 1 : ℕ) : ℝ) + 1) * Complex.normSq (aeval z (P (k + 1))) :=
      Finset.sum_nonneg fun k _ => mul_nonneg (by positivity) (Complex.normSq_nonneg _)
    simp [P] at this ⊢
    exact this
  rw [hsum] at h
  have h3 : z - starRingEnd ℂ z = 0 := by
    refine (mul_eq_zero.mp h).resolve_right ?_
    rw [Complex.ofReal_eq_zero]
    exact ne_of_gt (by linarith)
  have h4 := congrArg Complex.im h3
  simp at h4
  linarith

/-- There are as many zeros as the degree, all simple. -/
theorem exists_zeros (n : ℕ) : ∃ s : Finset ℝ, s.card = n ∧ ∀ y ∈ s, (P n).eval y = 0 := by
  cases n with
  | zero => exact ⟨∅, by simp⟩
  | succ n =>
    have hne : (P (n + 1)).map (algebraMap ℝ ℂ) ≠ 0 := by
      rw [Ne, Polynomial.map_eq_zero]; exact P_ne_zero _
    have hcard : ((P (n + 1)).map (algebraMap ℝ ℂ)).roots.card = n + 1 := by
      rw [IsAlgClosed.card_roots_eq_natDegree, natDegree_map, natDegree_P]
    have hroot : ∀ z ∈ ((P (n + 1)).map (algebraMap ℝ ℂ)).roots, aeval z (P (n + 1)) = 0 := by
      intro z hz
      rw [mem_roots hne, IsRoot.def, eval_map_algebraMap] at hz
      exact hz
    have hre : ∀ z ∈ ((P (n + 1)).map (algebraMap ℝ ℂ)).roots, (z.re : ℂ) = z := fun z hz =>
      Complex.ext (by simp) (by simp [zero_real n z (hroot z hz)])
    have hzero : ∀ z ∈ ((P (n + 1)).map (algebraMap ℝ ℂ)).roots, (P (n + 1)).eval z.re = 0 := by
      intro z hz
      have h1 := hroot z hz
      rw [← hre z hz] at h1
      have h2 : aeval (z.re : ℂ) (P (n + 1)) = (((P (n + 1)).eval z.re : ℝ) : ℂ) := by
        have := aeval_algebraMap_apply ℂ z.re (P (n + 1))
        simpa using this
      rw [h2] at h1
      exact_mod_cast h1
    have hnodup : ((P (n + 1)).map (algebraMap ℝ ℂ)).roots.Nodup := by
      rw [Multiset.nodup_iff_count_le_one]
      intro z
      rw [count_roots]
      by_contra hlt
      obtain ⟨h1, h2⟩ := (one_lt_rootMultiplicity_iff_isRoot hne).mp (not_le.mp hlt)
      have hz : z ∈ ((P (n + 1)).map (algebraMap ℝ ℂ)).roots := (mem_roots hne).mpr h1
      rw [derivative_map, IsRoot.def, eval_map_algebraMap, ← hre z hz] at h2
      have h3 : aeval (z.re : ℂ) (derivative (P (n + 1))) = (((derivative (P (n + 1))).eval z.re : ℝ) : ℂ) := by
        have := aeval_algebraMap_apply ℂ z.re (derivative (P (n + 1)))
        simpa using this
      rw [h3, Complex.ofReal_eq_zero] at h2
      have h4 := (weight_pos n z.re (hzero z hz)).1
      unfold weight at h4
      rw [h2] at h4
      simp at h4
    refine ⟨(((P (n + 1)).map (algebraMap ℝ ℂ)).roots.toFinset).image Complex.re, ?_, ?_⟩
    · rw [Finset.card_image_of_injOn, Multiset.toFinset_card_of_nodup hnodup, hcard]
      intro a ha b hb hab
      simp only [Finset.mem_coe, Multiset.mem_toFinset] at ha hb
      rw [← hre a ha, ← hre b hb, hab]
    · intro y hy
      obtain ⟨z, hz, rfl⟩ := Finset.mem_image.mp hy
      exact hzero z (Multiset.mem_toFinset.mp hz)

end Verif.Quad.Leg
