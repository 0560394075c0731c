import Verif.Quad.Legendre
import Verif.Quad.ProductModel
import Verif.Dir.Props
import Verif.Mesh.Lemmas
import Mathlib.Analysis.Real.Pi.Bounds
import Mathlib.Analysis.SpecialFunctions.Integrals.Basic
import Mathlib.Data.List.Pairwise
import Mathlib.Data.Finset.Sort
import Mathlib.Tactic.NormNum
import Mathlib.Tactic.Positivity

/-!
# Product quadratures (C88)
-/

namespace Verif.Quad.Product

open Verif.Dir Verif.Quad.LS Polynomial

theorem mapM_forall₂ {α β : Type} (f : α → Option β) (l : List α) : ∀ r, l.mapM f = some r → List.Forall₂ (fun a b => f a = some b) l r := by
  induction l with
  | nil => intro r h; cases h; exact .nil
  | cons a l ih =>
    intro r h
    rw [List.mapM_cons] at h
    cases hf : f a with
    | none => rw [hf] at h; simp at h
    | some b =>
      cases hm : l.mapM f with
      | none => rw [hf, hm] at h; simp at h
      | some bs =>
        rw [hf, hm] at h
        simp at h
        rw [← h]
        exact .cons hf (ih bs hm)

theorem mapM_all {α β : Type} (f : α → Option β) (h : α → β) (l : List α) (hl : ∀ a ∈ l, f a = some (h a)) : l.mapM f = some (l.map h) := by
  induction l with
  | nil => rfl
  | cons a l ih =>
    rw [List.mapM_cons, hl a (by simp), ih fun b hb => hl b (by simp [hb])]
    rfl

/-! ## One-dimensional rules -/

/-- C88: the Yamamoto rule exists for three polar angles only; its angles lie inside (0, pi/2) and its positive weights sum to one. -/
theorem C88_yamamoto (n : Int) :
    (n ≠ 3 → genYamamoto (K := ℝ) n = .throws) ∧
    (n = 3 → ∃ pol, genYamamoto (K := ℝ) n = .ok pol ∧ pol.length = 3 ∧ (pol.map Prod.snd).sum = 1 ∧ (pol.map Prod.fst).Pairwise (· < ·) ∧
      ∀ e ∈ pol, 0 < e.1 ∧ e.1 < Real.pi / 2 ∧ 0 < e.2) := by
  constructor
  · intro h; unfold genYamamoto; rw [if_pos h]
  · intro h
    refine ⟨_, by unfold genYamamoto; rw [if_neg (not_not.mpr h)], rfl, ?_, ?_, ?_⟩
    · norm_num
    · norm_num
    · have := Real.pi_gt_d2
      intro e he
      simp only [List.mem_cons, List.not_mem_nil, or_false] at he
      rcases he with rfl | rfl | rfl <;> (refine ⟨?_, ?_, ?_⟩ <;> norm_num <;> linarith)

theorem cheb_getD (n : Nat) : genChebyshev real n = (List.range n).map fun i : Nat => ((2 * (i : ℝ) + 1) * (Real.pi / (4 * n)), 1 / (n : ℝ)) := by
  unfold genChebyshev real
  apply List.map_congr_left
  intro i _
  refine Prod.ext ?_ rfl
  dsimp only
  rw [mul_comm]
  congr 1
  by_cases hn : (n : ℝ) = 0
  · rw [hn]; simp
  · field_simp; norm_num

/-- C88: the Chebyshev rule: `n` azimuths in the middle of `n` equal parts of the quarter circle, of equal weight. -/
theorem C88_chebyshev (n : Nat) (hn : 1 ≤ n) :
    (genChebyshev real n).length = n ∧ ((genChebyshev real n).map Prod.snd).sum = 1 ∧
    ((genChebyshev real n).map Prod.fst).Pairwise (· < ·) ∧
    (∀ e ∈ genChebyshev real n, 0 < e.1 ∧ e.1 < Real.pi / 2 ∧ 0 < e.2) ∧
    (∀ i, i < n → (genChebyshev real n)[i]? = some ((2 * (i : ℝ) + 1) * (Real.pi / (4 * n)), 1 / (n : ℝ))) := by
  have hn' : (0 : ℝ) < n := by exact_mod_cast hn
  have hp := Real.pi_pos
  rw [cheb_getD]
  refine ⟨by simp, ?_, ?_, ?_, ?_⟩
  · rw [List.map_map]
    simp only [Function.comp_def]
    rw [List.map_const', List.sum_replicate, List.length_range, nsmul_eq_mul]
    field_simp
  · rw [List.map_map, List.pairwise_map]
    refine List.Pairwise.imp ?_ List.pairwise_lt_range
    intro a b hab
    have hab' : (a : ℝ) < b := by exact_mod_cast hab
    simp only [Function.comp]
    exact mul_lt_mul_of_pos_right (by linarith) (by positivity)
  · intro e he
    obtain ⟨i, hi, rfl⟩ := List.mem_map.mp he
    rw [List.mem_range] at hi
    have hi' : (i : ℝ) + 1 ≤ n := by exact_mod_cast hi
    refine ⟨by positivity, ?_, by positivity⟩
    dsimp only
    rw [mul_div_assoc', div_lt_iff₀ (by positivity)]
    nlinarith
  · intro i hi
    simp [hi]

/-- C88: the Chebyshev azimuths integrate all even harmonics up to order `4 n - 2` exactly: their mean vanishes. -/
theorem C88_azimuth_moments (n : Nat) (hn : 1 ≤ n) (m : Nat) (h1 : 1 ≤ m) (h2 : m < 2 * n) :
    ((genChebyshev real n).map fun e => e.2 * Real.cos (2 * m * e.1)).sum = 0 := by
  have hn' : (0 : ℝ) < n := by exact_mod_cast hn
  set x : ℝ := m * Real.pi / (2 * n) with hx
  have hsin : Real.sin x ≠ 0 := by
    apply ne_of_gt
    have hm1 : (0 : ℝ) < m := by exact_mod_cast h1
    have hm2 : (m : ℝ) < 2 * n := by exact_mod_cast h2
    apply Real.sin_pos_of_pos_of_lt_pi
    · rw [hx]; have := Real.pi_pos; positivity
    · rw [hx, div_lt_iff₀ (by positivity)]
      have := Real.pi_pos
      nlinarith
  have key : ∀ k : Nat, 2 * Real.sin x * ((List.range k).map fun i : Nat => Real.cos ((2 * (i : ℝ) + 1) * x)).sum = Real.sin (2 * k * x) := by
    intro k
    induction k with
    | zero => simp
    | succ k ih =>
      rw [List.range_succ, List.map_append, List.sum_append, mul_add, ih]
      simp only [List.map_cons, List.map_nil, List.sum_cons, List.sum_nil, add_zero]
      have e1 : Real.sin (2 * ((k + 1 : ℕ) : ℝ) * x) = Real.sin ((2 * (k : ℝ) + 1) * x + x) := by congr 1; push_cast; ring
      have e2 : Real.sin (2 * (k : ℝ) * x) = Real.sin ((2 * (k : ℝ) + 1) * x - x) := by congr 1; ring
      rw [e1, e2, Real.sin_add, Real.sin_sub]; ring
  have hend : Real.sin (2 * n * x) = 0 := by
    rw [show 2 * (n : ℝ) * x = m * Real.pi by rw [hx]; field_simp]
    exact Real.sin_nat_mul_pi m
  have hsum := key n
  rw [hend] at hsum
  have h0 := (mul_eq_zero.mp hsum).resolve_left (by simpa using hsin)
  rw [cheb_getD, List.map_map]
  simp only [Function.comp_def]
  rw [List.sum_map_mul_left]
  have : (fun i : Nat => Real.cos (2 * (m : ℝ) * ((2 * (i : ℝ) + 1) * (Real.pi / (4 * n))))) = fun i : Nat => Real.cos ((2 * (i : ℝ) + 1) * x) := by
    funext i
    congr 1
    rw [hx]; field_simp; norm_num
  rw [this, h0, mul_zero]

/-! ## Gauss -/

theorem legendre_eq (y : ℝ) (k : Nat) : legendre y k = ((Leg.P k).eval y, (Leg.P (k + 1)).eval y) := by
  induction k with
  | zero => simp [legendre, Leg.P]
  | succ k ih =>
    unfold legendre
    rw [ih]
    refine Prod.ext rfl ?_
    dsimp only
    have h := Leg.eval_rec k y
    have hne : (((k + 1 : ℕ) : ℝ)) + 1 ≠ 0 := by positivity
    rw [div_eq_iff hne]
    push_cast
    linear_combination -h

/-- What a pass does to a point: Newton's step with the derivative multiplied by `(N + 1) / N`. -/
theorem point_spec (n : Nat) (y : ℝ) : ∀ r, point (n + 1) y = some r →
    r.2 = ((n : ℝ) + 2) / (n + 1) * (derivative (Leg.P (n + 1))).eval y ∧ r.1 = y - (Leg.P (n + 1)).eval y / r.2 ∧ r.2 ≠ 0 := by
  intro r hr
  unfold point at hr
  simp only [Nat.add_sub_cancel, legendre_eq] at hr
  unfold quot at hr
  by_cases h1 : 1 - y * y = 0
  · simp [h1] at hr
  · rw [if_neg h1] at hr
    simp only [Option.bind_some] at hr
    split_ifs at hr with h2
    · simp at hr
    · simp only [Option.map_some, Option.some.injEq] at hr
      rw [← hr]
      refine ⟨?_, rfl, h2⟩
      dsimp only
      have hd := congrArg (eval y) (Leg.deriv_formula n)
      simp only [eval_mul, eval_sub, Polynomial.eval_one, eval_pow, eval_X, eval_C] at hd
      have hne : (n : ℝ) + 1 ≠ 0 := by positivity
      rw [div_mul_eq_mul_div, div_eq_div_iff h1 hne]
      push_cast
      linear_combination (-((n : ℝ) + 2)) * hd

/-- At a zero the point stays. -/
theorem point_zero (n : Nat) (y : ℝ) (hy : (Leg.P (n + 1)).eval y = 0) :
    point (n + 1) y = some (y, ((n : ℝ) + 2) / (n + 1) * (derivative (Leg.P (n + 1))).eval y) := by
  obtain ⟨hw, hlt⟩ := Leg.weight_pos n y hy
  have hD : (derivative (Leg.P (n + 1))).eval y ≠ 0 := by
    intro h
    unfold Leg.weight at hw
    rw [h] at hw
    simp at hw
  have h1 : 1 - y * y ≠ 0 := by nlinarith
  have hlp : ((n + 1 + 1 : ℕ) : ℝ) * ((Leg.P n).eval y - y * (Leg.P (n + 1)).eval y) / (1 - y * y) =
      ((n : ℝ) + 2) / (n + 1) * (derivative (Leg.P (n + 1))).eval y := by
    have hd := congrArg (eval y) (Leg.deriv_formula n)
    simp only [eval_mul, eval_sub, Polynomial.eval_one, eval_pow, eval_X, eval_C] at hd
    have hne : (n : ℝ) + 1 ≠ 0 := by positivity
    rw [div_mul_eq_mul_div, div_eq_div_iff h1 hne]
    push_cast
    linear_combination (-((n : ℝ) + 2)) * hd
  unfold point
  simp only [Nat.add_sub_cancel, legendre_eq]
  unfold quot
  rw [if_neg h1]
  simp only [Option.bind_some]
  rw [hlp, hy, if_neg (mul_ne_zero (by positivity) hD)]
  simp

theorem weight_zero (n : Nat) (y : ℝ) (hy : (Leg.P (n + 1)).eval y = 0) :
    gaussWeight (n + 1) y (((n : ℝ) + 2) / (n + 1) * (derivative (Leg.P (n + 1))).eval y) = some (Leg.weight (n + 1) y) := by
  obtain ⟨hw, hlt⟩ := Leg.weight_pos n y hy
  have hD : (derivative (Leg.P (n + 1))).eval y ≠ 0 := by
    intro h
    unfold Leg.weight at hw
    rw [h] at hw
    simp at hw
  have h1 : 1 - y * y ≠ 0 := by nlinarith
  have h1' : 1 - y ^ 2 ≠ 0 := by nlinarith
  have h2 : ((n : ℝ) + 2) / (n + 1) * (derivative (Leg.P (n + 1))).eval y ≠ 0 := mul_ne_zero (by positivity) hD
  unfold gaussWeight quot
  rw [if_neg (mul_ne_zero (mul_ne_zero h1 h2) h2)]
  simp only [Option.map_some, Option.some.injEq]
  unfold Leg.weight
  have hn1 : (n : ℝ) + 1 ≠ 0 := by positivity
  have hn2 : (n : ℝ) + 2 ≠ 0 := by positivity
  push_cast
  rw [show 1 - y * y = 1 - y ^ 2 by ring]
  rw [show (n : ℝ) + 1 + 1 = n + 2 by ring]
  field_simp

/-- C88: whenever the iteration ends, the Legendre polynomial of order `2 n` is small at the points of the last pass: Newton's step from them is
within the tolerance. -/
theorem C88_residual (n : Nat) (fuzz : ℝ) (fuel : Nat) (y : List ℝ) (ys lps : List ℝ) (h : iterate (n + 1) fuzz fuel y = some (ys, lps)) :
    ∃ y0 : List ℝ, y0.length = y.length ∧ ys.length = y0.length ∧ lps.length = y0.length ∧ ∀ i (hi : i < y0.length) (hi1 : i < ys.length)
      (hi2 : i < lps.length), lps[i] = ((n : ℝ) + 2) / (n + 1) * (derivative (Leg.P (n + 1))).eval y0[i] ∧ lps[i] ≠ 0 ∧
        ys[i] = y0[i] - (Leg.P (n + 1)).eval y0[i] / lps[i] ∧ |(Leg.P (n + 1)).eval y0[i]| ≤ fuzz * |lps[i]| := by
  induction fuel generalizing y with
  | zero => simp [iterate] at h
  | succ fuel ih =>
    unfold iterate at h
    cases hp : pass (n + 1) y with
    | none => rw [hp] at h; simp at h
    | some r =>
      rw [hp] at h
      dsimp only at h
      have hlen : r.length = y.length := by
        unfold pass at hp
        exact (mapM_forall₂ _ _ _ hp).length_eq.symm
      split_ifs at h with hm
      · obtain ⟨y0, h1, h2⟩ := ih (r.map Prod.fst) h
        exact ⟨y0, by rw [h1, List.length_map, hlen], h2⟩
      · simp only [Option.some.injEq, Prod.mk.injEq] at h
        obtain ⟨rfl, rfl⟩ := h
        refine ⟨y, rfl, by simp [hlen], by simp [hlen], ?_⟩
        intro i hi hi1 hi2
        have hpt : point (n + 1) y[i] = some r[i] := by
          unfold pass at hp
          exact (List.forall₂_iff_get.mp (mapM_forall₂ _ _ _ hp)).2 i hi (by omega)
        obtain ⟨e1, e2, e3⟩ := point_spec n _ _ hpt
        simp only [List.getElem_map]
        refine ⟨e1, e3, e2, ?_⟩
        have hle : |r[i].1 - y[i]| ≤ fuzz := by
          by_contra hgt
          apply hm
          unfold moving
          rw [List.any_eq_true]
          refine ⟨true, ?_, rfl⟩
          rw [List.mem_iff_getElem]
          refine ⟨i, by simp [hlen, hi], ?_⟩
          simp only [List.getElem_zipWith, List.getElem_map, decide_eq_true_eq]
          exact not_le.mp hgt
        rw [e2, show y[i] - (Leg.P (n + 1)).eval y[i] / r[i].2 - y[i] = -((Leg.P (n + 1)).eval y[i] / r[i].2) by ring, abs_neg, abs_div,
          div_le_iff₀ (abs_pos.mpr e3)] at hle
        exact hle

/-- The zeros of the Legendre polynomial of order `2 n`, from the largest to the smallest. -/
structure Zeros (n : Nat) (ys : List ℝ) : Prop where
  length : ys.length = 2 * n
  falling : ys.Pairwise (· > ·)
  zero : ∀ y ∈ ys, (Leg.P (2 * n)).eval y = 0

/-- There are such zeros for every order. -/
theorem zeros_exist (n : Nat) : ∃ ys, Zeros n ys := by
  obtain ⟨s, h1, h2⟩ := Leg.exists_zeros (2 * n)
  refine ⟨(s.sort (· ≤ ·)).reverse, ⟨by simp [h1], ?_, ?_⟩⟩
  · rw [List.pairwise_reverse]
    exact (Finset.sortedLT_sort s).pairwise
  · intro y hy
    rw [List.mem_reverse, Finset.mem_sort] at hy
    exact h2 y hy

theorem Zeros.mem {n : Nat} {ys : List ℝ} (h : Zeros n ys) (y : ℝ) (hy : (Leg.P (2 * n)).eval y = 0) : y ∈ ys := by
  have hnd : ys.Nodup := h.falling.imp fun hab => ne_of_gt hab
  have hsub : ys.toFinset ⊆ (Leg.P (2 * n)).roots.toFinset := by
    intro a ha
    rw [List.mem_toFinset] at ha
    rw [Multiset.mem_toFinset, mem_roots (Leg.P_ne_zero _)]
    exact h.zero a ha
  have hcard : (Leg.P (2 * n)).roots.toFinset.card ≤ ys.toFinset.card := by
    rw [List.toFinset_card_of_nodup hnd, h.length]
    exact le_trans (Multiset.toFinset_card_le _) (le_trans (card_roots' _) (by rw [Leg.natDegree_P]))
  have := Finset.eq_of_subset_of_card_le hsub hcard
  rw [← List.mem_toFinset, this, Multiset.mem_toFinset, mem_roots (Leg.P_ne_zero _)]
  exact hy

/-- The zeros are symmetric about zero. -/
theorem Zeros.symmetric {n : Nat} {ys : List ℝ} (h : Zeros n ys) : ys.reverse = ys.map (fun y => -y) := by
  have hneg : ∀ y, (Leg.P (2 * n)).eval y = 0 → (Leg.P (2 * n)).eval (-y) = 0 := by
    intro y hy
    rw [(Leg.eval_neg (2 * n) y).1, hy, mul_zero]
  have hinc1 : ys.reverse.Pairwise (· < ·) := by rw [List.pairwise_reverse]; exact h.falling
  have hinc2 : (ys.map (fun y => -y)).Pairwise (· < ·) := by
    rw [List.pairwise_map]
    exact h.falling.imp fun hab => neg_lt_neg hab
  apply List.Perm.eq_of_pairwise (le := (· < ·)) (fun a b _ _ hab hba => absurd hab (not_lt.mpr hba.le)) hinc1 hinc2
  rw [List.perm_ext_iff_of_nodup (hinc1.imp fun hab => ne_of_lt hab) (hinc2.imp fun hab => ne_of_lt hab)]
  intro a
  rw [List.mem_reverse, List.mem_map]
  constructor
  · intro ha
    exact ⟨-a, h.mem _ (hneg a (h.zero a ha)), by ring⟩
  · rintro ⟨b, hb, rfl⟩
    exact h.mem _ (hneg b (h.zero b hb))

/-- The second half are the negatives of the first. -/
theorem Zeros.half {n : Nat} {ys : List ℝ} (h : Zeros n ys) : ys.drop n = (ys.take n).reverse.map fun y => -y := by
  have h1 := congrArg (List.drop n) h.symmetric
  rw [List.drop_reverse, h.length, show 2 * n - n = n by omega, ← List.map_drop] at h1
  rw [h1, List.map_map]
  simp [Function.comp_def]

theorem zip_map_self {α β : Type} (f : α → β) (l : List α) : List.zip l (l.map f) = l.map fun a => (a, f a) := by
  induction l with
  | nil => rfl
  | cons a l ih => simp only [List.map_cons, List.zip_cons_cons, ih]

theorem weight_even (n : Nat) (y : ℝ) : Leg.weight (2 * n) (-y) = Leg.weight (2 * n) y := by
  have h1 : (Leg.P (2 * n)).comp (-X) = Leg.P (2 * n) := by
    apply Polynomial.funext
    intro x
    rw [eval_comp, eval_neg, eval_X, (Leg.eval_neg (2 * n) x).1]
    simp
  have h2 := congrArg (eval y) (congrArg derivative h1)
  rw [derivative_comp] at h2
  simp only [derivative_neg, derivative_X, eval_mul, eval_neg, Polynomial.eval_one, eval_comp, eval_X] at h2
  unfold Leg.weight
  rw [← h2]; ring

/-- The result of the Gauss rule, from the positive zeros. -/
theorem finish_spec (n : Nat) (hn : 1 ≤ n) (ys : List ℝ) (h : Zeros n ys) :
    ∃ lps, pass (2 * n) ys = some (List.zip ys lps) ∧ lps.length = ys.length ∧
      finish real n ys lps = some ((ys.take n).reverse.map fun y => (Real.arccos y, Leg.weight (2 * n) y)) := by
  obtain ⟨m, hm⟩ : ∃ m, 2 * n = m + 1 := ⟨2 * n - 1, by omega⟩
  have hzero : ∀ y ∈ ys, (Leg.P (m + 1)).eval y = 0 := fun y hy => by rw [← hm]; exact h.zero y hy
  refine ⟨ys.map fun y => ((m : ℝ) + 2) / (m + 1) * (derivative (Leg.P (m + 1))).eval y, ?_, by simp, ?_⟩
  · unfold pass
    rw [hm, mapM_all _ (fun y => (y, ((m : ℝ) + 2) / (m + 1) * (derivative (Leg.P (m + 1))).eval y)) ys fun y hy => point_zero m y (hzero y hy)]
    rw [zip_map_self]
  · unfold finish
    rw [hm]
    have hw : (List.zip ys (ys.map fun y => ((m : ℝ) + 2) / (m + 1) * (derivative (Leg.P (m + 1))).eval y)).mapM
        (fun e => gaussWeight (m + 1) e.1 e.2) = some (ys.map (Leg.weight (m + 1))) := by
      rw [zip_map_self, mapM_all _ (fun e => Leg.weight (m + 1) e.1), List.map_map]
      · rfl
      · intro e he
        obtain ⟨y, hy, rfl⟩ := List.mem_map.mp he
        exact weight_zero m y (hzero y hy)
    have ha : ys.mapM (acosOf real) = some (ys.map Real.arccos) := by
      apply mapM_all
      intro y hy
      have := (Leg.weight_pos m y (hzero y hy)).2
      unfold acosOf
      rw [if_pos ⟨by nlinarith, by nlinarith⟩]
      rfl
    rw [hw, ha]
    simp only [Option.bind_some, Option.map_some, Option.some.injEq]
    have hdrop := h.half
    rw [← hm]
    unfold List.zip
    rw [List.drop_zipWith, ← List.map_reverse, ← List.map_drop, ← List.map_drop, List.drop_reverse, h.length, hdrop, List.map_map,
      show 2 * n - n = n by omega]
    generalize (ys.take n).reverse = l
    induction l with
    | nil => rfl
    | cons a l ih => simp [weight_even] at ih ⊢

theorem Zeros.positive {n : Nat} {ys : List ℝ} (h : Zeros n ys) : ∀ y ∈ ys.take n, 0 < y := by
  intro y hy
  have hd := h.falling
  rw [← List.take_append_drop n ys, List.pairwise_append] at hd
  have := hd.2.2 y hy (-y) (by rw [h.half]; exact List.mem_map.mpr ⟨y, by simpa using hy, rfl⟩)
  linarith

/-- Pairs of a polar angle and a weight that integrate in the cosine of the angle. -/
def Integrates (degree : Nat) (pol : List (ℝ × ℝ)) : Prop :=
  ∀ p : ℝ[X], p.natDegree < degree →
    (pol.map fun e => e.2 * (p.eval (Real.cos e.1) + p.eval (-Real.cos e.1))).sum = (∫ x in (-1 : ℝ)..1, p.eval x) / 2

/-- C88: the Gauss rule in exact arithmetic.  The zeros of the Legendre polynomial exist and are a fixed point of the iteration; the pairs made
from them are `n` angles inside (0, pi/2), with positive weights that integrate polynomials of degree up to `4 n - 1` in the cosine
exactly.  They sum to one half. -/
theorem C88_gauss (n : Nat) (hn : 1 ≤ n) (ys : List ℝ) (h : Zeros n ys) :
    ∃ lps pol, pass (2 * n) ys = some (List.zip ys lps) ∧ finish real n ys lps = some pol ∧ pol.length = n ∧
      (pol.map Prod.fst).Pairwise (· > ·) ∧ (∀ e ∈ pol, 0 < e.1 ∧ e.1 < Real.pi / 2 ∧ 0 < e.2 ∧ (Leg.P (2 * n)).eval (Real.cos e.1) = 0) ∧
      (pol.map Prod.snd).sum = 1 / 2 ∧ Integrates (4 * n) pol := by
  obtain ⟨lps, h1, -, h2⟩ := finish_spec n hn ys h
  obtain ⟨m, hm⟩ : ∃ m, 2 * n = m + 1 := ⟨2 * n - 1, by omega⟩
  have hrange : ∀ y ∈ (ys.take n).reverse, 0 < y ∧ y < 1 ∧ (Leg.P (2 * n)).eval y = 0 := by
    intro y hy
    rw [List.mem_reverse] at hy
    have hz := h.zero y (List.mem_of_mem_take hy)
    have hp := h.positive y hy
    have := (Leg.weight_pos m y (by rw [← hm]; exact hz)).2
    exact ⟨hp, by nlinarith, hz⟩
  have hint : Integrates (4 * n) ((ys.take n).reverse.map fun y => (Real.arccos y, Leg.weight (2 * n) y)) := by
    intro p hp
    have hnd : ys.Nodup := h.falling.imp fun hab => ne_of_gt hab
    have hex := Leg.exact_gauss m ys.toFinset (fun y hy => by rw [← hm]; exact h.zero y (List.mem_toFinset.mp hy))
      (by rw [List.toFinset_card_of_nodup hnd, h.length, hm]) p (by omega)
    unfold Leg.I at hex
    rw [← hex, List.sum_toFinset _ hnd, ← hm]
    have hsplit : (ys.map fun y => Leg.weight (2 * n) y * p.eval y).sum =
        ((ys.take n).reverse.map fun y => Leg.weight (2 * n) y * p.eval y).sum +
        ((ys.take n).reverse.map fun y => Leg.weight (2 * n) y * p.eval (-y)).sum := by
      conv_lhs => rw [← List.take_append_drop n ys]
      rw [List.map_append, List.sum_append, h.half, List.map_map]
      congr 1
      · rw [List.map_reverse, List.sum_reverse]
      · simp only [Function.comp_def, weight_even]
    rw [hsplit, ← List.sum_map_add, List.map_map]
    congr 1
    apply List.map_congr_left
    intro y hy
    have hr := hrange y hy
    simp only [Function.comp_apply]
    rw [Real.cos_arccos (by linarith) (by linarith)]
    ring
  refine ⟨lps, _, h1, h2, ?_, ?_, ?_, ?_, hint⟩
  · simp [h.length]; omega
  · rw [List.map_map, List.pairwise_map, List.pairwise_reverse]
    have hpw : (ys.take n).Pairwise (· > ·) := h.falling.sublist (List.take_sublist n ys)
    refine hpw.imp_of_mem ?_
    intro a b ha hb hab
    have h1 := hrange a (by simpa using ha)
    have h2 := hrange b (by simpa using hb)
    simp only [Function.comp]
    exact Real.arccos_lt_arccos (by linarith) hab (by linarith)
  · intro e he
    obtain ⟨y, hy, rfl⟩ := List.mem_map.mp he
    obtain ⟨hp, hl, hz⟩ := hrange y hy
    refine ⟨Real.arccos_pos.mpr hl, Real.arccos_lt_pi_div_two.mpr hp, ?_, ?_⟩
    · rw [hm]; exact (Leg.weight_pos m y (by rw [← hm]; exact hz)).1
    · dsimp only
      rw [Real.cos_arccos (by linarith) (by linarith), hz]
  · have := hint 1 (by simp; omega)
    simp only [Polynomial.eval_one] at this
    rw [List.sum_map_mul_right] at this
    simp at this
    rw [List.map_map]
    simp only [Function.comp_def] at this ⊢
    norm_num at this
    rw [List.map_reverse, List.sum_reverse, List.map_take]
    linarith

/-- C88: the iteration ends when it has reached the zeros. -/
theorem C88_stays (n : Nat) (hn : 1 ≤ n) (fuzz : ℝ) (hf : 0 ≤ fuzz) (fuel : Nat) (ys : List ℝ) (h : Zeros n ys) :
    ∃ lps, pass (2 * n) ys = some (List.zip ys lps) ∧ iterate (2 * n) fuzz (fuel + 1) ys = some (ys, lps) := by
  obtain ⟨lps, h1, h2, -⟩ := finish_spec n hn ys h
  refine ⟨lps, h1, ?_⟩
  unfold iterate
  rw [h1]
  dsimp only
  rw [List.map_fst_zip (by omega), List.map_snd_zip (by omega), if_neg]
  unfold moving
  rw [Bool.not_eq_true, List.any_eq_false]
  intro b hb
  obtain ⟨i, hi, rfl⟩ := List.mem_iff_getElem.mp hb
  simp only [List.getElem_zipWith, sub_self, abs_zero, id]
  simp [hf]

/-! ## Products -/

theorem foldl_sum (l : List (Direction ℝ × ℝ)) (s : ℝ) : l.foldl (fun s r => s + r.2) s = s + (l.map Prod.snd).sum := by
  induction l generalizing s with
  | nil => simp
  | cons a l ih => simp only [List.foldl_cons, List.map_cons, List.sum_cons]; rw [ih]; ring

theorem raw_moment (azi pol : List (ℝ × ℝ)) (F : Direction ℝ → ℝ) (f g : ℝ → ℝ) (hF : ∀ a t, F (ofAngles real a t) = f a * g t) :
    ((azi.flatMap fun a => pol.map fun p => (ofAngles real a.1 p.1, a.2 * p.2)).map fun r => r.2 * F r.1).sum =
      (azi.map fun a => a.2 * f a.1).sum * (pol.map fun p => p.2 * g p.1).sum := by
  induction azi with
  | nil => simp
  | cons a azi ih =>
    rw [List.flatMap_cons, List.map_append, List.sum_append, ih, List.map_cons, List.sum_cons, add_mul]
    congr 1
    rw [List.map_map, ← List.sum_map_mul_left]
    congr 1
    apply List.map_congr_left
    intro p _
    simp only [Function.comp_apply, hF]
    ring

theorem raw_sum (azi pol : List (ℝ × ℝ)) :
    ((azi.flatMap fun a => pol.map fun p => (ofAngles real a.1 p.1, a.2 * p.2)).map Prod.snd).sum =
      (azi.map Prod.snd).sum * (pol.map Prod.snd).sum := by
  have := raw_moment azi pol (fun _ => 1) (fun _ => 1) (fun _ => 1) (by simp)
  simpa using this

/-- C88: the product of two rules: for every azimuth all polar angles, in order; the weights are products, scaled to sum to one; a mean of a
product of functions of the two angles is the product of the means. -/
theorem C88_product (azi pol : List (ℝ × ℝ)) (ha : (azi.map Prod.snd).sum ≠ 0) (hp : (pol.map Prod.snd).sum ≠ 0) :
    let angles := genProduct real azi pol
    angles.length = azi.length * pol.length ∧ (angles.map Prod.snd).sum = 1 ∧
    (∀ i j a p, azi[i]? = some a → pol[j]? = some p → angles[i * pol.length + j]? =
      some (ofAngles real a.1 p.1, a.2 * p.2 / ((azi.map Prod.snd).sum * (pol.map Prod.snd).sum))) ∧
    (∀ (F : Direction ℝ → ℝ) (f g : ℝ → ℝ), (∀ a t, F (ofAngles real a t) = f a * g t) →
      (angles.map fun r => r.2 * F r.1).sum =
        (azi.map fun a => a.2 * f a.1).sum / (azi.map Prod.snd).sum * ((pol.map fun p => p.2 * g p.1).sum / (pol.map Prod.snd).sum)) := by
  have hw : ∀ F : Direction ℝ → ℝ, ((genProduct real azi pol).map fun r => r.2 * F r.1).sum =
      ((azi.flatMap fun a => pol.map fun p => (ofAngles real a.1 p.1, a.2 * p.2)).map fun r => r.2 * F r.1).sum /
        ((azi.map Prod.snd).sum * (pol.map Prod.snd).sum) := by
    intro F
    unfold genProduct
    dsimp only
    rw [foldl_sum, raw_sum, zero_add, List.map_map]
    generalize (azi.map Prod.snd).sum * (pol.map Prod.snd).sum = c
    rw [div_eq_mul_inv, ← List.sum_map_mul_right]
    congr 1
    apply List.map_congr_left
    intro r _
    simp only [Function.comp_apply]
    ring
  refine ⟨?_, ?_, ?_, ?_⟩
  · unfold genProduct
    simp [List.length_flatMap]
  · have := hw fun _ => 1
    simp only [mul_one] at this
    refine this.trans ?_
    rw [show (fun r : Direction ℝ × ℝ => r.2) = Prod.snd from rfl, raw_sum, div_self (mul_ne_zero ha hp)]
  · intro i j a p hi hj
    unfold genProduct
    dsimp only
    rw [foldl_sum, raw_sum, zero_add, List.getElem?_map]
    obtain ⟨hjl, hj'⟩ := List.getElem?_eq_some_iff.mp hj
    rw [Verif.Mesh.getElem?_flatMap_uniform _ pol.length (by simp) azi i j hjl a hi, List.getElem?_map, hj]
    rfl
  · intro F f g hF
    rw [hw, raw_moment azi pol F f g hF, mul_div_mul_comm]

theorem cos_sq_mean (n : Nat) (hn : 1 ≤ n) : ((genChebyshev real n).map fun e => e.2 * Real.cos e.1 ^ 2).sum = 1 / 2 ∧
    ((genChebyshev real n).map fun e => e.2 * Real.sin e.1 ^ 2).sum = 1 / 2 := by
  have h1 := C88_azimuth_moments n hn 1 le_rfl (by omega)
  have h2 := (C88_chebyshev n hn).2.1
  have h3 : ((genChebyshev real n).map fun e => e.2 * Real.cos e.1 ^ 2).sum =
      ((genChebyshev real n).map fun e => 1 / 2 * e.2 + 1 / 2 * (e.2 * Real.cos (2 * (1 : ℕ) * e.1))).sum := by
    congr 1
    apply List.map_congr_left
    intro e _
    rw [show 2 * ((1 : ℕ) : ℝ) * e.1 = 2 * e.1 by push_cast; ring, Real.cos_two_mul]
    ring
  rw [List.sum_map_add, List.sum_map_mul_left, List.sum_map_mul_left, h1, h2] at h3
  refine ⟨by rw [h3]; norm_num, ?_⟩
  have h4 : ((genChebyshev real n).map fun e => e.2 * Real.sin e.1 ^ 2).sum + ((genChebyshev real n).map fun e => e.2 * Real.cos e.1 ^ 2).sum =
      ((genChebyshev real n).map Prod.snd).sum := by
    rw [← List.sum_map_add]
    congr 1
    apply List.map_congr_left
    intro e _
    rw [← mul_add, Real.sin_sq_add_cos_sq, mul_one]
  rw [h2, h3] at h4
  linarith

/-- The mean of the squares in a polar rule that integrates polynomials of degree two. -/
theorem polar_sq (d : Nat) (hd : 2 < d) (pol : List (ℝ × ℝ)) (h : Integrates d pol) (hs : (pol.map Prod.snd).sum = 1 / 2) :
    (pol.map fun e => e.2 * Real.cos e.1 ^ 2).sum = 1 / 6 ∧ (pol.map fun e => e.2 * Real.sin e.1 ^ 2).sum = 1 / 3 := by
  have h1 := h (X ^ 2) (by simpa using hd)
  simp only [eval_pow, eval_X] at h1
  rw [integral_pow] at h1
  have h2 : (pol.map fun e => e.2 * (Real.cos e.1 ^ 2 + (-Real.cos e.1) ^ 2)).sum = 2 * (pol.map fun e => e.2 * Real.cos e.1 ^ 2).sum := by
    rw [← List.sum_map_mul_left]
    congr 1
    apply List.map_congr_left
    intro e _
    ring
  rw [h2] at h1
  norm_num at h1
  have h3 : (pol.map fun e => e.2 * Real.cos e.1 ^ 2).sum = 1 / 6 := by linarith
  refine ⟨h3, ?_⟩
  have h4 : (pol.map fun e => e.2 * Real.sin e.1 ^ 2).sum + (pol.map fun e => e.2 * Real.cos e.1 ^ 2).sum = (pol.map Prod.snd).sum := by
    rw [← List.sum_map_add]
    congr 1
    apply List.map_congr_left
    intro e _
    rw [← mul_add, Real.sin_sq_add_cos_sq, mul_one]
  rw [hs, h3] at h4
  linarith

/-- What an octant of a product quadrature must be: so many unit vectors inside the octant, positive weights of sum one. -/
structure Octant (count : Nat) (angles : List (Direction ℝ × ℝ)) : Prop where
  length : angles.length = count
  sum : (angles.map Prod.snd).sum = 1
  inside : ∀ r ∈ angles, 0 < r.1.ox ∧ 0 < r.1.oy ∧ 0 < r.1.oz ∧ 0 < r.2 ∧ Unit3 r.1.ox r.1.oy r.1.oz

theorem product_octant (azi pol : List (ℝ × ℝ)) (ha : ∀ e ∈ azi, 0 < e.1 ∧ e.1 < Real.pi / 2 ∧ 0 < e.2)
    (hp : ∀ e ∈ pol, 0 < e.1 ∧ e.1 < Real.pi / 2 ∧ 0 < e.2) (ha0 : 0 < (azi.map Prod.snd).sum) (hp0 : 0 < (pol.map Prod.snd).sum) :
    Octant (azi.length * pol.length) (genProduct real azi pol) := by
  obtain ⟨h1, h2, -, -⟩ := C88_product azi pol (ne_of_gt ha0) (ne_of_gt hp0)
  refine ⟨h1, h2, ?_⟩
  intro r hr
  unfold genProduct at hr
  dsimp only at hr
  rw [foldl_sum, raw_sum, zero_add] at hr
  obtain ⟨r', hr', rfl⟩ := List.mem_map.mp hr
  obtain ⟨a, haz, hr2⟩ := List.mem_flatMap.mp hr'
  obtain ⟨p, hpo, rfl⟩ := List.mem_map.mp hr2
  obtain ⟨a1, a2, a3⟩ := ha a haz
  obtain ⟨p1, p2, p3⟩ := hp p hpo
  have hpi := Real.pi_pos
  have sa := Real.sin_pos_of_pos_of_lt_pi a1 (by linarith)
  have ca := Real.cos_pos_of_mem_Ioo ⟨by linarith, a2⟩
  have sp := Real.sin_pos_of_pos_of_lt_pi p1 (by linarith)
  have cp := Real.cos_pos_of_mem_Ioo ⟨by linarith, p2⟩
  exact ⟨mul_pos sp ca, mul_pos sp sa, cp, by positivity, (C78_of_angles a.1 p.1 a1.le (by linarith) p1 (by linarith)).1⟩

/-- C88: the Chebyshev-Gauss quadrature: `nAzi * nPolar` unit vectors in the first octant with positive weights of sum one, and exact means of the
squares of the three cosines, one third each. -/
theorem C88_chebyshev_gauss (nAzi nPolar : Nat) (ha : 1 ≤ nAzi) (hp : 1 ≤ nPolar) (ys : List ℝ) (hz : Zeros nPolar ys) :
    ∃ lps pol angles, pass (2 * nPolar) ys = some (List.zip ys lps) ∧ finish real nPolar ys lps = some pol ∧
      firstOctant real false nAzi nPolar pol = .ok angles ∧ Octant (nAzi * nPolar) angles ∧
      (angles.map fun r => r.2 * r.1.ox ^ 2).sum = 1 / 3 ∧ (angles.map fun r => r.2 * r.1.oy ^ 2).sum = 1 / 3 ∧
      (angles.map fun r => r.2 * r.1.oz ^ 2).sum = 1 / 3 := by
  obtain ⟨lps, pol, h1, h2, h3, -, h5, h6, h7⟩ := C88_gauss nPolar hp ys hz
  obtain ⟨c1, c2, -, c4, -⟩ := C88_chebyshev nAzi ha
  have ho := product_octant (genChebyshev real nAzi) pol c4 (fun e he => ⟨(h5 e he).1, (h5 e he).2.1, (h5 e he).2.2.1⟩) (by rw [c2]; norm_num)
    (by rw [h6]; norm_num)
  rw [c1, h3] at ho
  refine ⟨lps, pol, genProduct real (genChebyshev real nAzi) pol, h1, h2, ?_, ho, ?_⟩
  · unfold firstOctant
    rw [if_neg (by omega)]
    simp
  · obtain ⟨-, -, -, hm⟩ := C88_product (genChebyshev real nAzi) pol (by rw [c2]; norm_num) (by rw [h6]; norm_num)
    rw [c2, h6] at hm
    obtain ⟨q1, q2⟩ := cos_sq_mean nAzi ha
    obtain ⟨p1, p2⟩ := polar_sq (4 * nPolar) (by omega) pol h7 h6
    refine ⟨?_, ?_, ?_⟩
    · rw [hm (fun d => d.ox ^ 2) (fun a => Real.cos a ^ 2) (fun t => Real.sin t ^ 2) (by intro a t; simp [ofAngles, real]; ring), q1, p2]
      norm_num
    · rw [hm (fun d => d.oy ^ 2) (fun a => Real.sin a ^ 2) (fun t => Real.sin t ^ 2) (by intro a t; simp [ofAngles, real]; ring), q2, p2]
      norm_num
    · rw [hm (fun d => d.oz ^ 2) (fun _ => 1) (fun t => Real.cos t ^ 2) (by intro a t; simp [ofAngles, real]), p1]
      simp only [mul_one]
      rw [show (fun a : ℝ × ℝ => a.2) = Prod.snd from rfl, c2]
      norm_num

/-- C88: the Chebyshev-Yamamoto quadrature: the same except for the mean of the squares. -/
theorem C88_chebyshev_yamamoto (nAzi : Nat) (ha : 1 ≤ nAzi) (gauss : List (ℝ × ℝ)) :
    ∃ angles, firstOctant real true nAzi 3 gauss = .ok angles ∧ Octant (nAzi * 3) angles ∧
      (angles.map fun r => r.2 * r.1.ox ^ 2).sum = (angles.map fun r => r.2 * r.1.oy ^ 2).sum := by
  obtain ⟨pol, h1, h2, h3, -, h5⟩ := (C88_yamamoto 3).2 rfl
  obtain ⟨c1, c2, -, c4, -⟩ := C88_chebyshev nAzi ha
  have ho := product_octant (genChebyshev real nAzi) pol c4 h5 (by rw [c2]; norm_num) (by rw [h3]; norm_num)
  rw [c1, h2] at ho
  refine ⟨genProduct real (genChebyshev real nAzi) pol, ?_, ho, ?_⟩
  · unfold firstOctant
    rw [if_neg (by omega), if_pos rfl, h1]
    simp
  · obtain ⟨-, -, -, hm⟩ := C88_product (genChebyshev real nAzi) pol (by rw [c2]; norm_num) (by rw [h3]; norm_num)
    obtain ⟨q1, q2⟩ := cos_sq_mean nAzi ha
    rw [hm (fun d => d.ox ^ 2) (fun a => Real.cos a ^ 2) (fun t => Real.sin t ^ 2) (by intro a t; simp [ofAngles, real]; ring),
      hm (fun d => d.oy ^ 2) (fun a => Real.sin a ^ 2) (fun t => Real.sin t ^ 2) (by intro a t; simp [ofAngles, real]; ring), q1, q2]

/-- C88: all other numbers of angles are rejected. -/
theorem C88_rejected (yamamoto : Bool) (nAzi nPolar : Int) (gauss : List (ℝ × ℝ)) :
    firstOctant real yamamoto nAzi nPolar gauss = .throws ↔ (nAzi < 1 ∨ nPolar < 1 ∨ (yamamoto = true ∧ nPolar ≠ 3)) := by
  unfold firstOctant
  by_cases h : nAzi < 1 ∨ nPolar < 1
  · rw [if_pos h]
    simp only [true_iff]
    omega
  · rw [if_neg h]
    cases yamamoto with
    | false => simp; omega
    | true =>
      by_cases h3 : nPolar = 3
      · obtain ⟨pol, h1, -⟩ := (C88_yamamoto nPolar).2 h3
        rw [if_pos rfl, h1]
        simp; omega
      · rw [if_pos rfl, (C88_yamamoto nPolar).1 h3]
        simp [h3]

/-- C88 (claim of the comments): the weights of all one-dimensional rules sum to one. -/
def C88_claim : Prop := ∀ (n : Nat) (ys lps : List ℝ) (pol : List (ℝ × ℝ)), 1 ≤ n → Zeros n ys → pass (2 * n) ys = some (List.zip ys lps) →
  finish real n ys lps = some pol → (pol.map Prod.snd).sum = 1

/-- C88: the weights of the Gauss rule sum to one half. -/
theorem C88_claim_false : ¬ C88_claim := by
  intro h
  obtain ⟨ys, hz⟩ := zeros_exist 1
  obtain ⟨lps, pol, h1, h2, -, -, -, h6, -⟩ := C88_gauss 1 le_rfl ys hz
  have := h 1 ys lps pol le_rfl hz h1 h2
  rw [this] at h6
  norm_num at h6

/-- Sixteen azimuths and eight polar angles. -/
example : ∃ ys lps pol angles, Zeros 8 ys ∧ pass 16 ys = some (List.zip ys lps) ∧ finish real 8 ys lps = some pol ∧
    firstOctant real false 16 8 pol = .ok angles ∧ Octant 128 angles := by
  obtain ⟨ys, hz⟩ := zeros_exist 8
  obtain ⟨lps, pol, angles, h1, h2, h3, h4, -⟩ := C88_chebyshev_gauss 16 8 (by norm_num) (by norm_num) ys hz
  exact ⟨ys, lps, pol, angles, hz, h1, h2, h3, h4⟩

end Verif.Quad.Product
