import Verif.Quad.ProductProps
import Verif.Quad.LegendreZeros
import Mathlib.Analysis.Real.Pi.Bounds
import Mathlib.Data.List.GetD

/-!
# The iteration of the Gauss rule ends

C88: from its initial guess the iteration of `GenGauss` reaches the zeros of the Legendre polynomial.
-/

namespace Verif.Quad.Product

open Verif.Dir Verif.Quad.LS Polynomial

/-- The angle of a zero. -/
noncomputable def ang (ys : List ℝ) (k : Nat) : ℝ := Real.arccos (ys.getD k 0)

theorem Zeros.facts {n : Nat} {ys : List ℝ} (h : Zeros n ys) (k : Nat) (hk : k < 2 * n) :
    (Leg.P (2 * n)).eval (ys.getD k 0) = 0 ∧ (ys.getD k 0) ^ 2 < 1 ∧ (derivative (Leg.P (2 * n))).eval (ys.getD k 0) ≠ 0 := by
  have hk' : k < ys.length := by rw [h.length]; exact hk
  rw [List.getD_eq_getElem _ _ hk']
  have hz := h.zero ys[k] (List.getElem_mem _)
  obtain ⟨m, hm⟩ : ∃ m, 2 * n = m + 1 := ⟨2 * n - 1, by omega⟩
  rw [hm] at hz ⊢
  obtain ⟨hw, hlt⟩ := Leg.weight_pos m _ hz
  refine ⟨hz, hlt, ?_⟩
  intro hD
  unfold Leg.weight at hw
  rw [hD] at hw
  simp at hw

theorem Zeros.lt {n : Nat} {ys : List ℝ} (h : Zeros n ys) {i j : Nat} (hij : i < j) (hj : j < 2 * n) : ys.getD j 0 < ys.getD i 0 := by
  rw [List.getD_eq_getElem _ _ (by rw [h.length]; exact hj), List.getD_eq_getElem _ _ (by rw [h.length]; omega)]
  exact List.pairwise_iff_getElem.mp h.falling i j _ _ hij

theorem Zeros.mirror {n : Nat} {ys : List ℝ} (h : Zeros n ys) {k : Nat} (hk : k < 2 * n) : ys.getD (2 * n - 1 - k) 0 = -ys.getD k 0 := by
  have h1 := congrArg (fun l : List ℝ => l.getD k 0) h.symmetric
  have hk' : k < ys.length := by rw [h.length]; exact hk
  rw [List.getD_eq_getElem _ _ (by simpa using hk'), List.getD_eq_getElem _ _ (by simpa using hk'), List.getElem_reverse, List.getElem_map] at h1
  rw [List.getD_eq_getElem _ _ (by rw [h.length]; omega), List.getD_eq_getElem _ _ hk', ← h1]
  congr 1
  rw [h.length]

theorem ang_spec {n : Nat} {ys : List ℝ} (h : Zeros n ys) (k : Nat) (hk : k < 2 * n) :
    0 < ang ys k ∧ ang ys k < Real.pi ∧ Real.cos (ang ys k) = ys.getD k 0 := by
  have h1 := abs_lt.mp ((sq_lt_one_iff_abs_lt_one _).mp (h.facts k hk).2.1)
  refine ⟨Real.arccos_pos.mpr h1.2, ?_, Real.cos_arccos (by linarith) (by linarith)⟩
  unfold ang
  have : Real.arccos (ys.getD k 0) < Real.arccos (-1) := Real.arccos_lt_arccos (le_refl _) h1.1 (by linarith)
  rwa [Real.arccos_neg_one] at this

theorem ang_lt {n : Nat} {ys : List ℝ} (h : Zeros n ys) {i j : Nat} (hij : i < j) (hj : j < 2 * n) : ang ys i < ang ys j := by
  have h1 := abs_lt.mp ((sq_lt_one_iff_abs_lt_one _).mp (h.facts i (by omega)).2.1)
  have h2 := abs_lt.mp ((sq_lt_one_iff_abs_lt_one _).mp (h.facts j hj).2.1)
  exact Real.arccos_lt_arccos (by linarith) (h.lt hij hj) (by linarith)

theorem ang_mirror {n : Nat} {ys : List ℝ} (h : Zeros n ys) {k : Nat} (hk : k < 2 * n) : ang ys (2 * n - 1 - k) = Real.pi - ang ys k := by
  unfold ang
  rw [h.mirror hk, Real.arccos_neg]

theorem no_zero_between {n : Nat} {ys : List ℝ} (h : Zeros n ys) (k : Nat) (hk : k + 1 < 2 * n) (t : ℝ)
    (ht : t ∈ Set.Ioo (ang ys k) (ang ys (k + 1))) : (Leg.P (2 * n)).eval (Real.cos t) ≠ 0 := by
  intro h0
  have hm := h.mem _ h0
  obtain ⟨j, hj, hjt⟩ := List.mem_iff_getElem.mp hm
  have hj' : j < 2 * n := by rw [← h.length]; exact hj
  obtain ⟨a1, a2, -⟩ := ang_spec h k (by omega)
  obtain ⟨b1, b2, -⟩ := ang_spec h (k + 1) hk
  have hang : ang ys j = t := by
    unfold ang
    rw [List.getD_eq_getElem _ _ hj, hjt, Real.arccos_cos (by linarith [ht.1]) (by linarith [ht.2])]
  rw [← hang] at ht
  rcases Nat.lt_trichotomy j k with hjk | hjk | hjk
  · have := ang_lt h hjk (by omega)
    linarith [ht.1]
  · rw [hjk] at ht
    linarith [ht.1]
  · by_cases he : j = k + 1
    · rw [he] at ht
      linarith [ht.2]
    · have := ang_lt h (show k + 1 < j by omega) hj'
      linarith [ht.2]

/-- Neighbouring zeros are at most `pi / (2 n + 1/2)` apart. -/
theorem gap_le {n : Nat} {ys : List ℝ} (h : Zeros n ys) (k : Nat) (hk : k + 1 < 2 * n) :
    ang ys (k + 1) - ang ys k ≤ Real.pi / (2 * n + 1 / 2) := by
  obtain ⟨m, hm⟩ : ∃ m, 2 * n = m + 1 := ⟨2 * n - 1, by omega⟩
  have hmr : 2 * (n : ℝ) = m + 1 := by exact_mod_cast hm
  obtain ⟨a1, a2, a3⟩ := ang_spec h k (by omega)
  obtain ⟨b1, b2, -⟩ := ang_spec h (k + 1) hk
  refine Leg.sturm_next (Leg.P (2 * n)) ((m + 1) * (m + 2)) (by rw [hm]; exact Leg.ode m) _ (by positivity) (by rw [hmr]; ring) _ _ a1 b2
    (by rw [a3]; exact (h.facts k (by omega)).1) (fun t ht => no_zero_between h k hk t ht)

theorem pi_split (n : Nat) : Real.pi = (2 * n + 1 / 2) * (Real.pi / (2 * n + 1 / 2)) := by
  have : (2 * (n : ℝ) + 1 / 2) ≠ 0 := by positivity
  field_simp

/-- The angles of the zeros are not smaller than Bruns's points. -/
theorem ang_ge {n : Nat} {ys : List ℝ} (h : Zeros n ys) (j : Nat) : ∀ k, k + j + 1 = n →
    ((k : ℝ) + 3 / 4) * (Real.pi / (2 * n + 1 / 2)) ≤ ang ys k := by
  induction j with
  | zero =>
    intro k hk
    have h1 := gap_le h k (by omega)
    have h2 := ang_mirror h (k := k) (by omega)
    rw [show 2 * n - 1 - k = k + 1 by omega] at h2
    rw [h2] at h1
    have hp := pi_split n
    have hkr : (n : ℝ) = k + 1 := by rw [← hk]; push_cast; ring
    set g := Real.pi / (2 * n + 1 / 2)
    have : (2 * (n : ℝ) + 1 / 2) = 2 * k + 5 / 2 := by rw [hkr]; ring
    rw [this] at hp
    nlinarith
  | succ j ih =>
    intro k hk
    have h1 := gap_le h k (by omega)
    have h2 := ih (k + 1) (by omega)
    push_cast at h2
    linarith

theorem ang_le_half {n : Nat} {ys : List ℝ} (h : Zeros n ys) (k : Nat) (hk : k < n) : ang ys k < Real.pi / 2 := by
  have h2 := ang_mirror h (k := k) (by omega)
  have h3 := ang_lt h (show k < 2 * n - 1 - k by omega) (by omega)
  linarith

/-- Neighbouring zeros are not much closer. -/
theorem gap_ge {n : Nat} {ys : List ℝ} (h : Zeros n ys) (k : Nat) (hk : k < n) :
    Real.pi / (2 * n + 1 / 2) * (1 - 1 / (32 * ((k : ℝ) + 3 / 4) ^ 2)) ≤ ang ys (k + 1) - ang ys k := by
  obtain ⟨m, hm⟩ : ∃ m, 2 * n = m + 1 := ⟨2 * n - 1, by omega⟩
  have hmr : 2 * (n : ℝ) = m + 1 := by exact_mod_cast hm
  obtain ⟨a1, a2, a3⟩ := ang_spec h k (by omega)
  obtain ⟨b1, b2, b3⟩ := ang_spec h (k + 1) (by omega)
  have hge := ang_ge h (n - 1 - k) k (by omega)
  have hlt := ang_le_half h k hk
  set N : ℝ := 2 * n + 1 / 2 with hN
  have hNpos : 0 < N := by positivity
  set x : ℝ := 1 / (32 * ((k : ℝ) + 3 / 4) ^ 2) with hx
  have hxpos : 0 < x := by positivity
  have hpi := Real.pi_pos
  have hlast : ang ys (k + 1) ≤ Real.pi - ang ys k := by
    rw [← ang_mirror h (k := k) (by omega)]
    rcases Nat.lt_or_ge (k + 1) (2 * n - 1 - k) with h1 | h1
    · exact (ang_lt h h1 (by omega)).le
    · rw [show 2 * n - 1 - k = k + 1 by omega]
  have key : Real.pi / (N * (1 + x)) ≤ ang ys (k + 1) - ang ys k := by
    refine Leg.sturm_apart (Leg.P (2 * n)) ((m + 1) * (m + 2)) (by rw [hm]; exact Leg.ode m) _ (by positivity) _ _ a1
      (ang_lt h (by omega) (by omega)) b2 ?_ (by rw [a3]; exact (h.facts k (by omega)).1) (by rw [b3]; exact (h.facts (k + 1) (by omega)).1)
      (by rw [b3]; exact (h.facts (k + 1) (by omega)).2.2) (fun t ht => no_zero_between h k (by omega) t ht)
    intro t ht
    have hsin : 2 * ((k : ℝ) + 3 / 4) / N ≤ Real.sin t := by
      have h1 : Real.sin (ang ys k) ≤ Real.sin t := by
        rcases le_total t (Real.pi / 2) with h2 | h2
        · exact Real.sin_le_sin_of_le_of_le_pi_div_two (by linarith) h2 ht.1.le
        · rw [← Real.sin_pi_sub t]
          exact Real.sin_le_sin_of_le_of_le_pi_div_two (by linarith) (by linarith) (by linarith [ht.2])
      have h2 := Real.mul_le_sin a1.le hlt.le
      have h3 : 2 * ((k : ℝ) + 3 / 4) / N ≤ 2 / Real.pi * ang ys k := by
        calc 2 * ((k : ℝ) + 3 / 4) / N = 2 / Real.pi * (((k : ℝ) + 3 / 4) * (Real.pi / N)) := by field_simp
          _ ≤ _ := by
            apply mul_le_mul_of_nonneg_left hge (by positivity)
      linarith
    have hs0 : 0 < 2 * ((k : ℝ) + 3 / 4) / N := by positivity
    have h4 : 1 / (4 * Real.sin t ^ 2) ≤ 1 / (4 * (2 * ((k : ℝ) + 3 / 4) / N) ^ 2) := by
      apply one_div_le_one_div_of_le (by positivity)
      have := pow_le_pow_left₀ hs0.le hsin 2
      linarith
    have h5 : 1 / (4 * (2 * ((k : ℝ) + 3 / 4) / N) ^ 2) = N ^ 2 * (2 * x) := by
      rw [hx]; field_simp; norm_num
    have h6 : ((m : ℝ) + 1) * (m + 2) + 1 / 4 = N ^ 2 := by rw [hN, hmr]; ring
    rw [h6]
    rw [h5] at h4
    nlinarith [sq_nonneg (N * x)]
  refine le_trans ?_ key
  rw [show Real.pi / (N * (1 + x)) = Real.pi / N * (1 / (1 + x)) by field_simp]
  apply mul_le_mul_of_nonneg_left _ (by positivity)
  rw [le_div_iff₀ (by positivity)]
  nlinarith

/-- The angles of the zeros are not much larger than Bruns's points. -/
theorem ang_le {n : Nat} {ys : List ℝ} (h : Zeros n ys) (j : Nat) : ∀ k, k + j + 1 = n →
    ang ys k ≤ (k + 3 / 4 + 1 / (32 * ((k : ℝ) + 1 / 4))) * (Real.pi / (2 * n + 1 / 2)) := by
  have hg : 0 < Real.pi / (2 * n + 1 / 2) := by have := Real.pi_pos; positivity
  induction j with
  | zero =>
    intro k hk
    have h1 := gap_ge h k (by omega)
    have h2 := ang_mirror h (k := k) (by omega)
    rw [show 2 * n - 1 - k = k + 1 by omega] at h2
    rw [h2] at h1
    have hp := pi_split n
    have hkr : (n : ℝ) = k + 1 := by rw [← hk]; push_cast; ring
    set g := Real.pi / (2 * n + 1 / 2)
    have : (2 * (n : ℝ) + 1 / 2) = 2 * k + 5 / 2 := by rw [hkr]; ring
    rw [this] at hp
    have h3 : 1 / (32 * ((k : ℝ) + 3 / 4) ^ 2) ≤ 2 * (1 / (32 * ((k : ℝ) + 1 / 4))) := by
      rw [mul_one_div, div_le_div_iff₀ (by positivity) (by positivity)]
      have : (0 : ℝ) ≤ k := by positivity
      nlinarith
    have h4 := mul_le_mul_of_nonneg_left h3 hg.le
    linarith
  | succ j ih =>
    intro k hk
    have h1 := gap_ge h k (by omega)
    have h2 := ih (k + 1) (by omega)
    push_cast at h2
    have h3 : 1 / (32 * ((k : ℝ) + 1 + 1 / 4)) + 1 / (32 * ((k : ℝ) + 3 / 4) ^ 2) ≤ 1 / (32 * ((k : ℝ) + 1 / 4)) := by
      have hk0 : (0 : ℝ) ≤ k := by positivity
      rw [div_add_div _ _ (by positivity) (by positivity), div_le_div_iff₀ (by positivity) (by positivity)]
      nlinarith
    have h4 := mul_le_mul_of_nonneg_left h3 hg.le
    linarith

theorem ang_zero_le {n : Nat} {ys : List ℝ} (h : Zeros n ys) (hn : 1 ≤ n) :
    ang ys 0 ≤ (3 / 4 + 29 / 360) * (Real.pi / (2 * n + 1 / 2)) := by
  have hg : 0 < Real.pi / (2 * n + 1 / 2) := by have := Real.pi_pos; positivity
  have h1 := gap_ge h 0 (by omega)
  norm_num at h1
  rcases Nat.lt_or_ge 1 n with h2 | h2
  · have h3 := ang_le h (n - 2) 1 (by omega)
    norm_num at h3
    norm_num at hg
    norm_num
    linarith
  · have hn1 : n = 1 := by omega
    have h3 := ang_mirror h (k := 0) (by omega)
    rw [show 2 * n - 1 - 0 = 1 by omega] at h3
    rw [h3] at h1
    have hp := pi_split n
    rw [hn1] at h1 hp ⊢
    norm_num at h1 hp ⊢
    have := Real.pi_pos
    linarith

/-! ## The initial guess -/

theorem guess_rise {a b : ℝ} (ha : 0 ≤ a) (hb : 0 ≤ b) (hab : a + b ≤ Real.pi / 2) :
    b * Real.cos (a + b) ≤ Real.sin (a + b) - Real.sin a ∧ Real.sin (a + b) - Real.sin a ≤ b * Real.cos a := by
  have hpi := Real.pi_pos
  constructor
  · have := (convex_Icc a (a + b)).mul_sub_le_image_sub_of_le_deriv (f := Real.sin) (C := Real.cos (a + b)) Real.continuous_sin.continuousOn
      Real.differentiable_sin.differentiableOn (fun x hx => by
        rw [interior_Icc] at hx
        rw [Real.deriv_sin]
        exact Real.cos_le_cos_of_nonneg_of_le_pi (by linarith [hx.1]) (by linarith) hx.2.le) a (Set.left_mem_Icc.mpr (by linarith)) (a + b)
      (Set.right_mem_Icc.mpr (by linarith)) (by linarith)
    linarith
  · rw [Real.sin_add]
    have h1 : Real.sin a * Real.cos b ≤ Real.sin a := by
      have := Real.sin_nonneg_of_nonneg_of_le_pi ha (by linarith)
      have := Real.cos_le_one b
      nlinarith
    have h2 : Real.cos a * Real.sin b ≤ Real.cos a * b :=
      mul_le_mul_of_nonneg_left (Real.sin_le hb) (Real.cos_nonneg_of_mem_Icc ⟨by linarith, by linarith⟩)
    linarith

theorem sin_scale {c x : ℝ} (hc : 0 ≤ c) (hc1 : c ≤ 1) (hx : 0 ≤ x) (hxp : x ≤ Real.pi) : c * Real.sin x ≤ Real.sin (c * x) := by
  have h0 : (0 : ℝ) ∈ Set.Icc 0 Real.pi := ⟨le_refl _, Real.pi_pos.le⟩
  have hx' : x ∈ Set.Icc 0 Real.pi := ⟨hx, hxp⟩
  have h := strictConcaveOn_sin_Icc.concaveOn.2 h0 hx' (show 0 ≤ 1 - c by linarith) hc (by ring)
  simpa using h

theorem guess_upper {M a : ℝ} (hM : 4 ≤ M) (ha : 0 ≤ a) (hab : a + a / (2 * M) ≤ Real.pi / 2) :
    M * (Real.sin (a + a / (2 * M)) - Real.sin a) - 27 / 100 * Real.sin (2 * a - a / (M + 1)) ≤ 32 / 100 * Real.cos a := by
  have hpi := Real.pi_pos
  have hp1 := Real.pi_gt_d4
  have hp2 := Real.pi_lt_d4
  have hb : 0 ≤ a / (2 * M) := by positivity
  have h1 : M * (Real.sin (a + a / (2 * M)) - Real.sin a) ≤ a / 2 * Real.cos a := by
    have := mul_le_mul_of_nonneg_left (guess_rise ha hb hab).2 (by linarith : 0 ≤ M)
    refine le_trans this (le_of_eq ?_)
    have : M ≠ 0 := by linarith
    field_simp
  have hahalf : a ≤ Real.pi / 2 := by linarith
  have hcos : 0 ≤ Real.cos a := Real.cos_nonneg_of_mem_Icc ⟨by linarith, hahalf⟩
  have hcos1 := Real.cos_le_one a
  have hsin : 63 / 100 * a ≤ Real.sin a := by
    have h2 := Real.mul_le_sin ha hahalf
    have h3 : 63 / 100 ≤ 2 / Real.pi := by
      rw [div_le_div_iff₀ (by norm_num) hpi]; linarith
    have := mul_le_mul_of_nonneg_right h3 ha
    linarith
  have heps : a / (M + 1) ≤ a / 5 := div_le_div_of_nonneg_left ha (by norm_num) (by linarith)
  have heps0 : 0 ≤ a / (M + 1) := by positivity
  set ε := a / (M + 1) with hε
  rcases le_total a (Real.pi / 4) with h4 | h4
  · have h5 : Real.sin a ≤ Real.sin (2 * a - ε) := Real.sin_le_sin_of_le_of_le_pi_div_two (by linarith) (by linarith) (by linarith)
    have h6 : (a / 2 - 32 / 100) * Real.cos a ≤ 17 / 100 * a := by
      rcases le_total (a / 2) (32 / 100) with h7 | h7
      · nlinarith
      · nlinarith
    nlinarith
  · have h5 : Real.sin (2 * a) * Real.cos ε ≤ Real.sin (2 * a - ε) := by
      rw [Real.sin_sub]
      have h6 : Real.cos (2 * a) ≤ 0 := Real.cos_nonpos_of_pi_div_two_le_of_le (by linarith) (by linarith)
      have h7 : 0 ≤ Real.sin ε := Real.sin_nonneg_of_nonneg_of_le_pi heps0 (by linarith)
      nlinarith
    have h6 : 95 / 100 ≤ Real.cos ε := by
      have := Real.one_sub_sq_div_two_le_cos (x := ε)
      nlinarith
    rw [Real.sin_two_mul] at h5
    have h7 : 2 * (63 / 100 * a) * Real.cos a * (95 / 100) ≤ 2 * Real.sin a * Real.cos a * Real.cos ε := by
      have hs0 : 0 ≤ Real.sin a := le_trans (by positivity) hsin
      gcongr
    have h8 : (a / 2 - 27 / 100 * (2 * (63 / 100 * a) * (95 / 100)) - 32 / 100) * Real.cos a ≤ 0 := by
      apply mul_nonpos_of_nonpos_of_nonneg _ hcos
      linarith
    nlinarith

theorem guess_upper_first {M : ℝ} (hM : M = 2 ∨ 4 ≤ M) (a : ℝ) (ha : a = Real.pi * (M - 1) / (2 * M + 1)) :
    M * (Real.sin (a + a / (2 * M)) - Real.sin a) - 27 / 100 * Real.sin (2 * a - a / (M + 1)) ≤ 146 / 1000 * Real.cos a := by
  have hpi := Real.pi_pos
  have hp1 := Real.pi_gt_d4
  have hp2 := Real.pi_lt_d4
  have hM2 : 2 ≤ M := by rcases hM with h | h <;> linarith
  have ha0 : 0 ≤ a := by rw [ha]; apply div_nonneg (mul_nonneg hpi.le (by linarith)) (by linarith)
  have hsum : a + a / (2 * M) = Real.pi / 2 - Real.pi / (2 * M) := by
    rw [ha]
    have : M ≠ 0 := by linarith
    have : 2 * M + 1 ≠ 0 := by linarith
    field_simp
  have hb : 0 ≤ a / (2 * M) := by positivity
  have h1 : M * (Real.sin (a + a / (2 * M)) - Real.sin a) ≤ a / 2 * Real.cos a := by
    have h0 : 0 ≤ Real.pi / (2 * M) := by positivity
    have := mul_le_mul_of_nonneg_left (guess_rise ha0 hb (by linarith)).2 (by linarith : 0 ≤ M)
    refine le_trans this (le_of_eq ?_)
    have : M ≠ 0 := by linarith
    field_simp
  rcases hM with rfl | hM
  · have e1 : a = Real.pi / 5 := by rw [ha]; ring
    have e2 : 2 * a - a / (2 + 1) = Real.pi / 3 := by rw [e1]; ring
    rw [e2, Real.sin_pi_div_three]
    have h3 : (1.7 : ℝ) ≤ √3 := Real.le_sqrt_of_sq_le (by norm_num)
    have hcos1 := Real.cos_le_one a
    have hcos : 0 ≤ Real.cos a := Real.cos_nonneg_of_mem_Icc ⟨by linarith, by linarith⟩
    nlinarith
  · have hphi : Real.cos a = Real.sin (3 / 2 * Real.pi / (2 * M + 1)) := by
      rw [← Real.sin_pi_div_two_sub]
      congr 1
      rw [ha]
      have : 2 * M + 1 ≠ 0 := by linarith
      field_simp
      ring
    have hx : Real.sin (2 * a - a / (M + 1)) = Real.sin (2 * (Real.pi / (M + 1))) := by
      rw [← Real.sin_pi_sub]
      congr 1
      rw [ha]
      have : M + 1 ≠ 0 := by linarith
      have : 2 * M + 1 ≠ 0 := by linarith
      field_simp
      ring
    set t := M + 1 with ht
    have hz0 : 0 < Real.pi / t := by positivity
    have hz1 : Real.pi / t ≤ 1 := by rw [div_le_one (by positivity)]; linarith
    have hs1 : Real.pi / t - (Real.pi / t) ^ 3 / 4 < Real.sin (Real.pi / t) := by
      have h2 := Real.sin_gt_sub_cube hz0
      have h3 : 0 < (Real.pi / t) ^ 3 := by positivity
      linarith
    have hc1 := Real.one_sub_sq_div_two_le_cos (x := Real.pi / t)
    have hlow : 2 * (Real.pi / t) * (1 - 3 / 4 * (Real.pi / t) ^ 2) ≤ Real.sin (2 * (Real.pi / t)) := by
      rw [Real.sin_two_mul]
      set z := Real.pi / t
      have h2 : (z - z ^ 3 / 4) * (1 - z ^ 2 / 2) ≤ Real.sin z * Real.cos z := by
        have hzz : 0 ≤ 1 - z ^ 2 / 2 := by nlinarith
        have hz3 : 0 ≤ Real.sin z := Real.sin_nonneg_of_nonneg_of_le_pi hz0.le (by linarith)
        apply mul_le_mul hs1.le hc1 hzz hz3
      have h5 : 0 ≤ z ^ 5 := by positivity
      nlinarith
    rw [hphi] at h1 ⊢
    rw [hx]
    have hφ0 : 0 ≤ 3 / 2 * Real.pi / (2 * M + 1) := by positivity
    have hsφ := Real.sin_le hφ0
    have hsφ0 : 0 ≤ Real.sin (3 / 2 * Real.pi / (2 * M + 1)) := by
      rw [← hphi]
      have h0 : 0 ≤ Real.pi / (2 * M) := by positivity
      exact Real.cos_nonneg_of_mem_Icc ⟨by linarith, by linarith⟩
    set sφ := Real.sin (3 / 2 * Real.pi / (2 * M + 1))
    have hmain : (a / 2 - 146 / 1000) * sφ ≤ 27 / 100 * (2 * (Real.pi / t) * (1 - 3 / 4 * (Real.pi / t) ^ 2)) := by
      have hM' : 2 * M + 1 = 2 * t - 1 := by rw [ht]; ring
      have ht5 : 5 ≤ t := by rw [ht]; linarith
      have h3 : (a / 2 - 146 / 1000) * sφ ≤ (15708 / 10000 * (t - 2) / (2 * t - 1) - 146 / 1000) * (3 / 2 * Real.pi / (2 * t - 1)) := by
        rw [hM'] at hsφ
        have h4 : a / 2 ≤ 15708 / 10000 * (t - 2) / (2 * t - 1) := by
          rw [ha, hM', show M - 1 = t - 2 by rw [ht]; ring, div_div, div_le_div_iff₀ (by linarith) (by linarith)]
          have h6 : 0 ≤ (t - 2) * (2 * t - 1) := mul_nonneg (by linarith) (by linarith)
          nlinarith
        have h5 : 0 ≤ 15708 / 10000 * (t - 2) / (2 * t - 1) - 146 / 1000 := by
          rw [sub_nonneg, le_div_iff₀ (by linarith)]
          linarith
        refine le_trans (mul_le_mul_of_nonneg_right (by linarith : a / 2 - 146 / 1000 ≤ _) hsφ0) (mul_le_mul_of_nonneg_left hsφ h5)
      refine le_trans h3 ?_
      have h6 : (Real.pi / t) ^ 2 ≤ 98697 / 10000 / t ^ 2 := by
        rw [div_pow]
        apply div_le_div_of_nonneg_right _ (by positivity)
        nlinarith
      have h7 : 27 / 100 * (2 * (Real.pi / t) * (1 - 3 / 4 * (98697 / 10000 / t ^ 2))) ≤
          27 / 100 * (2 * (Real.pi / t) * (1 - 3 / 4 * (Real.pi / t) ^ 2)) := by
        gcongr
      refine le_trans ?_ h7
      have ht0 : t ≠ 0 := by linarith
      have ht1 : 2 * t - 1 ≠ 0 := by linarith
      have e1 : (15708 / 10000 * (t - 2) / (2 * t - 1) - 146 / 1000) * (3 / 2 * Real.pi / (2 * t - 1)) =
          Real.pi * ((3 / 2 * (15708 / 10000 * (t - 2) - 146 / 1000 * (2 * t - 1))) / (2 * t - 1) ^ 2) := by
        have e0 : ∀ A d : ℝ, d ≠ 0 → (A / d - 146 / 1000) * (3 / 2 * Real.pi / d) = Real.pi * ((3 / 2 * (A - 146 / 1000 * d)) / d ^ 2) := by
          intro A d hd
          field_simp
        exact e0 _ _ ht1
      have e2 : 27 / 100 * (2 * (Real.pi / t) * (1 - 3 / 4 * (98697 / 10000 / t ^ 2))) =
          Real.pi * ((54 / 100 * (t ^ 2 - 3 / 4 * (98697 / 10000))) / t ^ 3) := by
        field_simp
        ring
      rw [e1, e2]
      apply mul_le_mul_of_nonneg_left _ hpi.le
      have h2t : 0 < 2 * t - 1 := by linarith
      rw [div_le_div_iff₀ (by positivity) (by positivity)]
      obtain ⟨s, hs, hts⟩ : ∃ s : ℝ, 0 ≤ s ∧ t = 5 + s := ⟨t - 5, by linarith, by ring⟩
      rw [hts]
      have hs2 : 0 ≤ s ^ 2 := by positivity
      have hs3 : 0 ≤ s ^ 3 := by positivity
      have hs4 : 0 ≤ s ^ 4 := by positivity
      nlinarith
    nlinarith

theorem guess_lower {M a : ℝ} (hM : 2 ≤ M) (ha : 0 ≤ a) (h1 : 2 / 3 * (Real.pi / 2 - a) ≤ Real.pi / 2 - (a + a / (2 * M)))
    (h2 : a / (M + 1) ≤ 2 / 3 * (Real.pi / 2 - a)) :
    -(2 / 5 * Real.cos a) ≤ M * (Real.sin (a + a / (2 * M)) - Real.sin a) - 27 / 100 * Real.sin (2 * a - a / (M + 1)) := by
  have hpi := Real.pi_pos
  have hp2 := Real.pi_lt_d4
  have hb : 0 ≤ a / (2 * M) := by positivity
  have hε : 0 ≤ a / (M + 1) := by positivity
  have hφ : 0 ≤ Real.pi / 2 - a := by linarith
  have hcos : 0 ≤ Real.cos a := Real.cos_nonneg_of_mem_Icc ⟨by linarith, by linarith⟩
  have hfirst : a / 3 * Real.cos a ≤ M * (Real.sin (a + a / (2 * M)) - Real.sin a) := by
    have h3 := mul_le_mul_of_nonneg_left (guess_rise ha hb (by linarith)).1 (by linarith : 0 ≤ M)
    have h4 : M * (a / (2 * M) * Real.cos (a + a / (2 * M))) = a / 2 * Real.cos (a + a / (2 * M)) := by
      have : M ≠ 0 := by linarith
      field_simp
    have h5 : 2 / 3 * Real.cos a ≤ Real.cos (a + a / (2 * M)) := by
      rw [← Real.sin_pi_div_two_sub a, ← Real.sin_pi_div_two_sub (a + _)]
      refine le_trans (sin_scale (by norm_num) (by norm_num) hφ (by linarith)) ?_
      exact Real.sin_le_sin_of_le_of_le_pi_div_two (by linarith) (by linarith) h1
    nlinarith
  have hs1 := Real.sin_le_one (2 * a - a / (M + 1))
  have hcl := Real.one_sub_sq_div_two_le_cos (x := a)
  rcases le_total a (3 / 4) with h3 | h3
  · have : 0 ≤ a / 3 * Real.cos a := by positivity
    nlinarith
  · rcases le_total a 1 with h4 | h4
    · nlinarith
    · have h5 : 3 / 8 * Real.sin (2 * a - a / (M + 1)) ≤ Real.cos a := by
        rw [← Real.sin_pi_sub (2 * a - _), ← Real.sin_pi_div_two_sub a]
        set x := Real.pi - (2 * a - a / (M + 1)) with hx
        have hx8 : 3 / 8 * x ≤ Real.pi / 2 - a := by rw [hx]; linarith
        have hx0 : 0 ≤ x := by rw [hx]; linarith
        have hxp : x ≤ Real.pi := by
          have : a / (M + 1) ≤ a := div_le_self ha (by linarith)
          rw [hx]; linarith
        refine le_trans (sin_scale (by norm_num) (by norm_num) hx0 hxp) ?_
        exact Real.sin_le_sin_of_le_of_le_pi_div_two (by linarith) (by linarith) hx8
      nlinarith

/-- The initial guess of one point, in terms of the distance of Bruns's point from the equator. -/
theorem guess_form {M k : ℝ} (hM : 2 ≤ M) (a : ℝ) (ha : a = Real.pi * (M - 1 - 2 * k) / (2 * M + 1)) :
    Real.cos ((2 * k + 1) * Real.pi / (2 * M)) + 27 / 100 / M * Real.sin (Real.pi * (-1 + k * (2 / (M - 1))) * (M - 1) / (M + 1)) =
      Real.sin (a + a / (2 * M)) - 27 / 100 / M * Real.sin (2 * a - a / (M + 1)) := by
  have h0 : M ≠ 0 := by linarith
  have h1 : M - 1 ≠ 0 := by linarith
  have h2 : M + 1 ≠ 0 := by linarith
  have h3 : 2 * M + 1 ≠ 0 := by linarith
  have e1 : Real.cos ((2 * k + 1) * Real.pi / (2 * M)) = Real.sin (a + a / (2 * M)) := by
    rw [← Real.sin_pi_div_two_sub]
    congr 1
    rw [ha]
    field_simp
    ring
  have e2 : Real.sin (Real.pi * (-1 + k * (2 / (M - 1))) * (M - 1) / (M + 1)) = -Real.sin (2 * a - a / (M + 1)) := by
    rw [← Real.sin_neg]
    congr 1
    rw [ha]
    field_simp
    ring
  rw [e1, e2]
  ring

/-- The initial guess of one point (product_quadrature.hpp:81-85). -/
noncomputable def guess (M k : ℝ) : ℝ :=
  Real.cos ((2 * k + 1) * Real.pi / (2 * M)) + 27 / 100 / M * Real.sin (Real.pi * (-1 + k * (2 / (M - 1))) * (M - 1) / (M + 1))

theorem start_eq (n : Nat) : start real n = (List.range n).map fun i : Nat => guess n i := by
  unfold start guess real
  rfl

theorem guess_mirror {M k : ℝ} (hM : 2 ≤ M) : guess M (M - 1 - k) = -guess M k := by
  have h0 : M ≠ 0 := by linarith
  have h1 : M - 1 ≠ 0 := by linarith
  have h2 : M + 1 ≠ 0 := by linarith
  unfold guess
  rw [show (2 * (M - 1 - k) + 1) * Real.pi / (2 * M) = Real.pi - (2 * k + 1) * Real.pi / (2 * M) by field_simp; ring, Real.cos_pi_sub,
    show Real.pi * (-1 + (M - 1 - k) * (2 / (M - 1))) * (M - 1) / (M + 1) = -(Real.pi * (-1 + k * (2 / (M - 1))) * (M - 1) / (M + 1)) by
      field_simp; ring, Real.sin_neg]
  ring

/-- The initial guess is near the zero. -/
theorem guess_close_half {n : Nat} {ys : List ℝ} (h : Zeros n ys) (k : Nat) (hk : k < n) :
    |guess (2 * n) k - ys.getD k 0| * (2 * n) ≤ 2 / 5 * Real.sin (ang ys k) := by
  have hpi := Real.pi_pos
  have hp2 := Real.pi_lt_d4
  have hn : (1 : ℝ) ≤ n := by exact_mod_cast (by omega : 1 ≤ n)
  have hkn : (k : ℝ) + 1 ≤ n := by exact_mod_cast hk
  have hk0 : (0 : ℝ) ≤ k := by positivity
  obtain ⟨t1, t2, t3⟩ := ang_spec h k (by omega)
  have tge := ang_ge h (n - 1 - k) k (by omega)
  have thalf := ang_le_half h k hk
  set M : ℝ := 2 * n with hM
  have hM2 : 2 ≤ M := by rw [hM]; linarith
  have hMp : 0 < M := by linarith
  set a : ℝ := Real.pi * (M - 1 - 2 * k) / (2 * M + 1) with ha
  set θ := ang ys k with hθ
  have ha0 : 0 ≤ a := by rw [ha]; apply div_nonneg (mul_nonneg hpi.le (by rw [hM]; linarith)) (by linarith)
  have hφ : Real.pi / 2 - a = ((k : ℝ) + 3 / 4) * (Real.pi / (M + 1 / 2)) := by
    rw [ha]
    field_simp
    ring
  rw [← hφ] at tge
  have hφ0 : 0 ≤ Real.pi / 2 - a := by rw [hφ]; positivity
  have hg : guess M k = Real.sin (a + a / (2 * M)) - 27 / 100 / M * Real.sin (2 * a - a / (M + 1)) := guess_form hM2 a ha
  have hMg : M * (guess M k - Real.sin a) =
      M * (Real.sin (a + a / (2 * M)) - Real.sin a) - 27 / 100 * Real.sin (2 * a - a / (M + 1)) := by
    rw [hg]
    field_simp
    ring
  have hcosa : 0 ≤ Real.cos a := Real.cos_nonneg_of_mem_Icc ⟨by linarith, by linarith⟩
  have hsin : Real.cos a ≤ Real.sin θ := by
    rw [← Real.sin_pi_div_two_sub]
    exact Real.sin_le_sin_of_le_of_le_pi_div_two (by linarith) (by linarith) tge
  -- the step from Bruns's point to the zero
  have hdrop : 0 ≤ Real.sin a - Real.cos θ ∧ Real.sin a - Real.cos θ ≤ (θ - (Real.pi / 2 - a)) * Real.sin θ := by
    have h1 := guess_rise (a := Real.pi / 2 - θ) (b := θ - (Real.pi / 2 - a)) (by linarith) (by linarith) (by linarith)
    rw [show Real.pi / 2 - θ + (θ - (Real.pi / 2 - a)) = a by ring, Real.sin_pi_div_two_sub, Real.cos_pi_div_two_sub] at h1
    refine ⟨le_trans ?_ h1.1, h1.2⟩
    exact mul_nonneg (by linarith) hcosa
  have hsinp : 0 < Real.sin θ := Real.sin_pos_of_pos_of_lt_pi t1 t2
  have hmul : |guess M k - ys.getD k 0| * M = |M * (guess M k - Real.sin a) + M * (Real.sin a - Real.cos θ)| := by
    rw [← t3, ← mul_add, abs_mul, abs_of_pos hMp, mul_comm]
    congr 2
    ring
  rw [hmul, abs_le]
  have hc : a + a / (2 * M) = Real.pi / 2 - (2 * k + 1) * Real.pi / (2 * M) := by
    rw [ha]
    field_simp
    ring
  constructor
  · have h1 := guess_lower (M := M) (a := a) hM2 ha0 (by
      rw [hc, hφ]
      have : 2 / 3 * (((k : ℝ) + 3 / 4) * (Real.pi / (M + 1 / 2))) ≤ (2 * k + 1) * Real.pi / (2 * M) := by
        rw [show 2 / 3 * (((k : ℝ) + 3 / 4) * (Real.pi / (M + 1 / 2))) = 2 / 3 * ((k : ℝ) + 3 / 4) * Real.pi / (M + 1 / 2) by ring,
          div_le_div_iff₀ (by positivity) (by positivity)]
        have h6 : 2 / 3 * ((k : ℝ) + 3 / 4) * (2 * M) ≤ (2 * k + 1) * (M + 1 / 2) := by
          have := mul_nonneg hk0 hMp.le
          linarith
        have := mul_le_mul_of_nonneg_left h6 hpi.le
        linarith
      linarith) (by
      rw [hφ, ha, div_div, show 2 / 3 * (((k : ℝ) + 3 / 4) * (Real.pi / (M + 1 / 2))) = 2 / 3 * ((k : ℝ) + 3 / 4) * Real.pi / (M + 1 / 2) by ring,
        div_le_div_iff₀ (by positivity) (by positivity)]
      have h2 : (M - 1 - 2 * k) ≤ (M + 1) * (1 + 4 / 3 * k) := by
        have := mul_nonneg hk0 hMp.le
        linarith
      have h3 := mul_le_mul_of_nonneg_right h2 (by linarith : 0 ≤ M + 1 / 2)
      have h4 := mul_le_mul_of_nonneg_left h3 hpi.le
      linarith)
    rw [← hMg] at h1
    have h2 := mul_nonneg hMp.le hdrop.1
    linarith
  · have hMg2 : M * (Real.pi / (M + 1 / 2)) ≤ Real.pi := by
      rw [mul_div_assoc', div_le_iff₀ (by positivity)]
      nlinarith
    have h2 := mul_le_mul_of_nonneg_left hdrop.2 hMp.le
    rcases Nat.eq_zero_or_pos k with hk1 | hk1
    · have hk1' : (k : ℝ) = 0 := by rw [hk1]; norm_num
      have h1 := guess_upper_first (M := M) (by
        rcases Nat.lt_or_ge n 2 with h5 | h5
        · left
          rw [hM, show n = 1 by omega]
          norm_num
        · right
          have : (2 : ℝ) ≤ n := by exact_mod_cast h5
          rw [hM]; linarith) a (by rw [ha, hk1']; ring_nf)
      rw [← hMg] at h1
      have h3 := ang_zero_le h (by omega)
      rw [show ang ys 0 = θ by rw [hθ, hk1], ← hM] at h3
      have h4 : M * (θ - (Real.pi / 2 - a)) ≤ 254 / 1000 := by
        rw [hφ, hk1']
        have : θ - (0 + 3 / 4) * (Real.pi / (M + 1 / 2)) ≤ 29 / 360 * (Real.pi / (M + 1 / 2)) := by linarith
        have := mul_le_mul_of_nonneg_left this hMp.le
        linarith
      have h5 := mul_le_mul_of_nonneg_right h4 hsinp.le
      linarith
    · have hk1' : (1 : ℝ) ≤ k := by exact_mod_cast hk1
      have h1 := guess_upper (M := M) (a := a) (by rw [hM]; linarith) ha0 (by
        rw [hc]
        have : 0 ≤ (2 * (k : ℝ) + 1) * Real.pi / (2 * M) := by positivity
        linarith)
      rw [← hMg] at h1
      have h3 := ang_le h (n - 1 - k) k (by omega)
      rw [← hθ, ← hM] at h3
      have h4 : M * (θ - (Real.pi / 2 - a)) ≤ 8 / 100 := by
        rw [hφ]
        have hb : 1 / (32 * ((k : ℝ) + 1 / 4)) ≤ 1 / 40 := by
          apply one_div_le_one_div_of_le (by norm_num)
          linarith
        have hgp : 0 < Real.pi / (M + 1 / 2) := by positivity
        have : θ - ((k : ℝ) + 3 / 4) * (Real.pi / (M + 1 / 2)) ≤ 1 / 40 * (Real.pi / (M + 1 / 2)) := by
          have := mul_le_mul_of_nonneg_right hb hgp.le
          linarith
        have := mul_le_mul_of_nonneg_left this hMp.le
        linarith
      have h5 := mul_le_mul_of_nonneg_right h4 hsinp.le
      linarith

theorem sin_ang {n : Nat} {ys : List ℝ} (h : Zeros n ys) (k : Nat) (hk : k < 2 * n) :
    0 < Real.sin (ang ys k) ∧ Real.sin (ang ys k) ^ 2 = 1 - ys.getD k 0 ^ 2 := by
  obtain ⟨t1, t2, t3⟩ := ang_spec h k hk
  refine ⟨Real.sin_pos_of_pos_of_lt_pi t1 t2, ?_⟩
  rw [← t3]
  have := Real.sin_sq_add_cos_sq (ang ys k)
  linarith

theorem cot_half {n : Nat} {ys : List ℝ} (h : Zeros n ys) (k : Nat) (hk : k < n) :
    |ys.getD k 0| ≤ 5306 / 10000 * (2 * n) * Real.sin (ang ys k) := by
  have hpi := Real.pi_pos
  have hp1 := Real.pi_gt_d4
  have hn : (1 : ℝ) ≤ n := by exact_mod_cast (by omega : 1 ≤ n)
  obtain ⟨t1, t2, t3⟩ := ang_spec h k (by omega)
  have tge := ang_ge h (n - 1 - k) k (by omega)
  have thalf := ang_le_half h k hk
  have hs := (sin_ang h k (by omega)).1
  have hk0 : (0 : ℝ) ≤ k := by positivity
  rw [← t3]
  set θ := ang ys k
  have hc : 0 < Real.cos θ := Real.cos_pos_of_mem_Ioo ⟨by linarith, thalf⟩
  rw [abs_of_pos hc]
  have h1 : θ * Real.cos θ ≤ Real.sin θ := by
    have := Real.le_tan t1.le thalf
    rw [Real.tan_eq_sin_div_cos, le_div_iff₀ hc] at this
    exact this
  have hg : 0 < Real.pi / (2 * n + 1 / 2) := by positivity
  have h2 : 3 / 4 * (Real.pi / (2 * n + 1 / 2)) ≤ θ := by nlinarith
  have h3 : 3 / 4 * Real.pi ≤ θ * (2 * n + 1 / 2) := by
    rw [mul_div_assoc', div_le_iff₀ (by positivity)] at h2
    exact h2
  have h4 : 2 * (n : ℝ) + 1 / 2 ≤ 5 / 4 * (2 * n) := by linarith
  have h5 : 1 ≤ θ * (5306 / 10000 * (2 * n)) := by nlinarith
  calc Real.cos θ ≤ θ * (5306 / 10000 * (2 * n)) * Real.cos θ := by nlinarith
    _ = 5306 / 10000 * (2 * n) * (θ * Real.cos θ) := by ring
    _ ≤ _ := by
      apply mul_le_mul_of_nonneg_left h1 (by positivity)

/-- All points of the initial guess are near their zeros. -/
theorem guess_close {n : Nat} {ys : List ℝ} (h : Zeros n ys) (k : Nat) (hk : k < 2 * n) :
    |guess (2 * n) k - ys.getD k 0| * (2 * n) ≤ 2 / 5 * Real.sin (ang ys k) ∧
    |ys.getD k 0| ≤ 5306 / 10000 * (2 * n) * Real.sin (ang ys k) := by
  rcases Nat.lt_or_ge k n with h1 | h1
  · exact ⟨guess_close_half h k h1, cot_half h k h1⟩
  · have h2 := guess_close_half h (2 * n - 1 - k) (by omega)
    have h3 := cot_half h (2 * n - 1 - k) (by omega)
    rw [h.mirror hk, ang_mirror h hk, Real.sin_pi_sub] at h2 h3
    rw [abs_neg] at h3
    refine ⟨?_, h3⟩
    have hn : (1 : ℝ) ≤ n := by exact_mod_cast (by omega : 1 ≤ n)
    have e : ((2 * n - 1 - k : ℕ) : ℝ) = 2 * n - 1 - k := by
      rw [Nat.cast_sub (by omega), Nat.cast_sub (by omega)]; push_cast; ring
    rw [e, guess_mirror (by linarith), show -guess (2 * n) k - -ys.getD k 0 = -(guess (2 * n) k - ys.getD k 0) by ring, abs_neg] at h2
    exact h2

/-! ## The iteration -/

/-- Every point is near its zero. -/
structure Close (n : Nat) (ys l : List ℝ) : Prop where
  length : l.length = 2 * n
  near : ∀ i < 2 * n, |l.getD i 0 - ys.getD i 0| * (2 * n) ≤ 2 / 5 * Real.sin (ang ys i)

theorem start_close {n : Nat} {ys : List ℝ} (h : Zeros n ys) : Close n ys (start real (2 * n)) := by
  refine ⟨by simp [start], ?_⟩
  intro i hi
  rw [start_eq, List.getD_eq_getElem _ _ (by simpa using hi)]
  have h1 := (guess_close h i hi).1
  simp only [List.getElem_map, List.getElem_range]
  push_cast
  exact h1

theorem inside_of_near {M r S y : ℝ} (hM : 2 ≤ M) (hS : 0 < S) (hS2 : S ^ 2 = 1 - r ^ 2) (hcot : |r| ≤ 5306 / 10000 * M * S)
    (hy : |y - r| * M ≤ 2 / 5 * S) : |y| < 1 := by
  set R := |r| with hR
  have hR0 : 0 ≤ R := abs_nonneg _
  have hR2 : S ^ 2 = 1 - R ^ 2 := by rw [hR, sq_abs]; exact hS2
  have hR1 : R < 1 := by nlinarith
  have hMS : 8 / 10 < M * S := by
    by_contra hcon
    push Not at hcon
    have h1 : R ≤ 5306 / 10000 * (8 / 10) := by nlinarith
    have h2 : 8 / 10 ≤ S ^ 2 := by nlinarith
    nlinarith
  have h3 : |y| ≤ |y - r| + R := by
    have := abs_add_le (y - r) r
    rwa [sub_add_cancel] at this
  have h4 : |y - r| * M < (1 - R) * M := by
    refine lt_of_le_of_lt hy ?_
    have h5 : (1 - R) * (1 + R) = S ^ 2 := by rw [hR2]; ring
    have h6 : S ^ 2 ≤ 2 * (1 - R) := by nlinarith
    nlinarith
  have h7 : |y - r| < 1 - R := lt_of_mul_lt_mul_right h4 (by linarith)
  linarith

theorem point_of (n : Nat) (y : ℝ) (h1 : 1 - y * y ≠ 0) (hD : (derivative (Leg.P (n + 1))).eval y ≠ 0) :
    point (n + 1) y = some (y - (Leg.P (n + 1)).eval y / (((n : ℝ) + 2) / (n + 1) * (derivative (Leg.P (n + 1))).eval y),
      ((n : ℝ) + 2) / (n + 1) * (derivative (Leg.P (n + 1))).eval y) := by
  have hlp : ((n + 1 + 1 : ℕ) : ℝ) * ((Leg.P n).eval y - y * (Leg.P (n + 1)).eval y) / (1 - y * y) =
      ((n : ℝ) + 2) / (n + 1) * (derivative (Leg.P (n + 1))).eval y := by
    have hd := congrArg (eval y) (Leg.deriv_formula n)
    simp only [eval_mul, eval_sub, Polynomial.eval_one, eval_pow, eval_X, eval_C] at hd
    have hne : (n : ℝ) + 1 ≠ 0 := by positivity
    rw [div_mul_eq_mul_div, div_eq_div_iff h1 hne]
    push_cast
    linear_combination (-((n : ℝ) + 2)) * hd
  unfold point
  simp only [Nat.add_sub_cancel, legendre_eq]
  unfold quot
  rw [if_neg h1]
  simp only [Option.bind_some]
  rw [hlp, if_neg (mul_ne_zero (by positivity) hD)]
  simp

/-- A pass from a point near its zero: it is finite, and the new point is nearer. -/
theorem point_near {n : Nat} {ys : List ℝ} (h : Zeros n ys) (i : Nat) (hi : i < 2 * n) (y : ℝ)
    (hy : |y - ys.getD i 0| * (2 * n) ≤ 2 / 5 * Real.sin (ang ys i)) :
    |y| < 1 ∧ ∃ r, point (2 * n) y = some r ∧ |r.1 - ys.getD i 0| ≤ 199 / 201 * |y - ys.getD i 0| ∧
      r.2 = (2 * (n : ℝ) + 1) / (2 * n) * (derivative (Leg.P (2 * n))).eval y ∧ r.2 ≠ 0 := by
  obtain ⟨m, hm⟩ : ∃ m, 2 * n = m + 1 := ⟨2 * n - 1, by omega⟩
  have hmr : 2 * (n : ℝ) = m + 1 := by exact_mod_cast hm
  obtain ⟨s1, s2⟩ := sin_ang h i hi
  have hcot := (guess_close h i hi).2
  have hnd : ys.Nodup := h.falling.imp fun hab => ne_of_gt hab
  have hm1 : (1 : ℝ) ≤ m := by exact_mod_cast (by omega : 1 ≤ m)
  have hin : |y| < 1 := inside_of_near (M := 2 * n) (by linarith) s1 s2 hcot hy
  refine ⟨hin, ?_⟩
  rw [hmr] at hcot hy
  obtain ⟨d1, d2⟩ := Leg.newton_step m (by omega) ys.toFinset (by rw [List.toFinset_card_of_nodup hnd, h.length, hm])
    (fun y hy => by rw [← hm]; exact h.zero y (List.mem_toFinset.mp hy)) (ys.getD i 0)
    (by rw [List.mem_toFinset, List.getD_eq_getElem _ _ (by rw [h.length]; exact hi)]; exact List.getElem_mem _) _ s1 s2 hcot y hy
  have h1 : 1 - y * y ≠ 0 := by
    have := abs_lt.mp hin
    nlinarith
  have hp := point_of m y h1 d1
  rw [hm, hp]
  refine ⟨_, rfl, d2, ?_, mul_ne_zero (by positivity) d1⟩
  dsimp only
  rw [hmr]
  congr 2
  ring

theorem pass_near {n : Nat} {ys : List ℝ} (h : Zeros n ys) (l : List ℝ) (hl : Close n ys l) :
    ∃ r, pass (2 * n) l = some r ∧ r.length = 2 * n ∧ Close n ys (r.map Prod.fst) ∧ ∀ i, (hi : i < 2 * n) → (hr : i < r.length) →
      |(r[i]).1 - ys.getD i 0| ≤ 199 / 201 * |l.getD i 0 - ys.getD i 0| ∧
      (r[i]).2 = (2 * (n : ℝ) + 1) / (2 * n) * (derivative (Leg.P (2 * n))).eval (l.getD i 0) ∧ (r[i]).2 ≠ 0 := by
  have hpt : ∀ a ∈ l, ∃ b, point (2 * n) a = some b := by
    intro a ha
    obtain ⟨i, hi, rfl⟩ := List.mem_iff_getElem.mp ha
    have hi' : i < 2 * n := by rw [← hl.length]; exact hi
    have hn := hl.near i hi'
    rw [List.getD_eq_getElem _ _ hi] at hn
    obtain ⟨-, r, hr, -⟩ := point_near h i hi' _ hn
    exact ⟨r, hr⟩
  have hall : ∀ a ∈ l, point (2 * n) a = some ((point (2 * n) a).getD (0, 0)) := by
    intro a ha
    obtain ⟨b, hb⟩ := hpt a ha
    rw [hb]; rfl
  have hp := mapM_all (point (2 * n)) _ l hall
  have hkey : ∀ i, (hi : i < 2 * n) → (hr : i < (l.map fun a => (point (2 * n) a).getD (0, 0)).length) →
      |((l.map fun a => (point (2 * n) a).getD (0, 0))[i]).1 - ys.getD i 0| ≤ 199 / 201 * |l.getD i 0 - ys.getD i 0| ∧
      ((l.map fun a => (point (2 * n) a).getD (0, 0))[i]).2 = (2 * (n : ℝ) + 1) / (2 * n) * (derivative (Leg.P (2 * n))).eval (l.getD i 0) ∧
        ((l.map fun a => (point (2 * n) a).getD (0, 0))[i]).2 ≠ 0 := by
    intro i hi hr
    have hi' : i < l.length := by rw [hl.length]; exact hi
    have hn := hl.near i hi
    obtain ⟨-, r, hr, h1, h2, h3⟩ := point_near h i hi _ hn
    rw [List.getD_eq_getElem _ _ hi'] at hr h1 h2 ⊢
    simp only [List.getElem_map, hr, Option.getD_some]
    exact ⟨h1, h2, h3⟩
  refine ⟨_, hp, by simpa using hl.length, ⟨by simpa using hl.length, ?_⟩, hkey⟩
  intro i hi
  have hi' : i < l.length := by rw [hl.length]; exact hi
  have h1 := (hkey i hi (by simpa using hi')).1
  rw [List.getD_eq_getElem _ _ (by simpa using hi'), List.getElem_map]
  have h2 := hl.near i hi
  refine le_trans (mul_le_mul_of_nonneg_right (le_trans h1 ?_) (by positivity)) h2
  have := abs_nonneg (l.getD i 0 - ys.getD i 0)
  linarith

/-- The state at the end of the iteration: `y` is one pass after the points `y0`, which are near the zeros, and within the tolerance of them. -/
structure Ended (n : Nat) (fuzz : ℝ) (ys y0 y lps : List ℝ) : Prop where
  before : Close n ys y0
  after : Close n ys y
  length : lps.length = 2 * n
  small : ∀ i < 2 * n, |y.getD i 0 - y0.getD i 0| ≤ fuzz
  nearer : ∀ i < 2 * n, |y.getD i 0 - ys.getD i 0| ≤ 199 / 201 * |y0.getD i 0 - ys.getD i 0|
  slope : ∀ i < 2 * n, lps.getD i 0 = (2 * (n : ℝ) + 1) / (2 * n) * (derivative (Leg.P (2 * n))).eval (y0.getD i 0) ∧ lps.getD i 0 ≠ 0

theorem pass_ended {n : Nat} {ys : List ℝ} (h : Zeros n ys) (fuzz : ℝ) (l : List ℝ) (hl : Close n ys l) :
    ∃ r, pass (2 * n) l = some r ∧ Close n ys (r.map Prod.fst) ∧
      (∀ i < 2 * n, |(r.map Prod.fst).getD i 0 - ys.getD i 0| ≤ 199 / 201 * |l.getD i 0 - ys.getD i 0|) ∧
      (moving fuzz (r.map Prod.fst) l = false → Ended n fuzz ys l (r.map Prod.fst) (r.map Prod.snd)) := by
  obtain ⟨r, h1, h2, h3, h4⟩ := pass_near h l hl
  have hnear : ∀ i < 2 * n, |(r.map Prod.fst).getD i 0 - ys.getD i 0| ≤ 199 / 201 * |l.getD i 0 - ys.getD i 0| := by
    intro i hi
    rw [List.getD_eq_getElem _ _ (by simpa [h2] using hi), List.getElem_map]
    exact (h4 i hi (by omega)).1
  refine ⟨r, h1, h3, hnear, ?_⟩
  intro hm
  refine ⟨hl, h3, by simpa using h2, ?_, hnear, ?_⟩
  · intro i hi
    by_contra hgt
    push Not at hgt
    have : moving fuzz (r.map Prod.fst) l = true := by
      unfold moving
      rw [List.any_eq_true]
      refine ⟨true, ?_, rfl⟩
      rw [List.mem_iff_getElem]
      have hlen := hl.length
      refine ⟨i, by simp [hlen, h2, hi], ?_⟩
      simp only [List.getElem_zipWith, decide_eq_true_eq]
      rw [List.getD_eq_getElem _ _ (by simpa [h2] using hi), List.getD_eq_getElem _ _ (by rw [hlen]; exact hi)] at hgt
      exact hgt
    rw [this] at hm
    exact absurd hm (by decide)
  · intro i hi
    rw [List.getD_eq_getElem _ _ (by simpa [h2] using hi), List.getElem_map]
    exact (h4 i hi (by omega)).2

/-- Whenever the iteration ends, from points near the zeros, it has ended as it should. -/
theorem iterate_ended {n : Nat} {ys : List ℝ} (h : Zeros n ys) (fuzz : ℝ) (fuel : Nat) : ∀ l, Close n ys l → ∀ y lps,
    iterate (2 * n) fuzz fuel l = some (y, lps) → ∃ y0, Ended n fuzz ys y0 y lps := by
  induction fuel with
  | zero => intro l _ y lps hi; simp [iterate] at hi
  | succ fuel ih =>
    intro l hl y lps hi
    obtain ⟨r, h1, h2, -, h4⟩ := pass_ended h fuzz l hl
    unfold iterate at hi
    rw [h1] at hi
    dsimp only at hi
    split_ifs at hi with hm
    · exact ih _ h2 y lps hi
    · simp only [Option.some.injEq, Prod.mk.injEq] at hi
      obtain ⟨rfl, rfl⟩ := hi
      exact ⟨l, h4 (by simpa using hm)⟩

/-- It ends after so many passes. -/
theorem iterate_ends {n : Nat} {ys : List ℝ} (h : Zeros n ys) (fuzz : ℝ) (t : Nat) : ∀ (fuel : Nat) (D : ℝ) (l : List ℝ), t < fuel → Close n ys l →
    (∀ i < 2 * n, |l.getD i 0 - ys.getD i 0| ≤ D) → 2 * D * (199 / 201) ^ t ≤ fuzz → ∃ r, iterate (2 * n) fuzz fuel l = some r := by
  induction t with
  | zero =>
    intro fuel D l hf hl hD hfz
    obtain ⟨fuel, rfl⟩ : ∃ f, fuel = f + 1 := ⟨fuel - 1, by omega⟩
    obtain ⟨r, h1, h2, h3, -⟩ := pass_ended h fuzz l hl
    unfold iterate
    rw [h1]
    dsimp only
    rw [if_neg]
    · exact ⟨_, rfl⟩
    · rw [Bool.not_eq_true]
      unfold moving
      rw [List.any_eq_false]
      intro b hb
      obtain ⟨i, hi, rfl⟩ := List.mem_iff_getElem.mp hb
      rw [List.length_zipWith, h2.length, hl.length, Nat.min_self] at hi
      simp only [List.getElem_zipWith, id, decide_eq_true_eq, not_lt]
      have e1 := h3 i hi
      have e2 := hD i hi
      rw [List.getD_eq_getElem _ _ (by rw [h2.length]; exact hi)] at e1
      rw [List.getD_eq_getElem l _ (by rw [hl.length]; exact hi)] at e1 e2
      simp only [pow_zero, mul_one] at hfz
      refine le_trans (le_trans (abs_sub_le _ (ys.getD i 0) _) ?_) hfz
      rw [abs_sub_comm (ys.getD i 0)]
      have := abs_nonneg (l[i]'(by rw [hl.length]; exact hi) - ys.getD i 0)
      linarith
  | succ t ih =>
    intro fuel D l hf hl hD hfz
    obtain ⟨fuel, rfl⟩ : ∃ f, fuel = f + 1 := ⟨fuel - 1, by omega⟩
    obtain ⟨r, h1, h2, h3, -⟩ := pass_ended h fuzz l hl
    unfold iterate
    rw [h1]
    dsimp only
    split_ifs with hm
    · refine ih fuel (199 / 201 * D) _ (by omega) h2 (fun i hi => le_trans (h3 i hi) ?_) ?_
      · have := hD i hi
        linarith
      · rw [pow_succ] at hfz
        linarith
    · exact ⟨_, rfl⟩

theorem iterate_more {n1 : Nat} {fuzz : ℝ} {f : Nat} : ∀ {l : List ℝ} {r : List ℝ × List ℝ} {g : Nat}, iterate n1 fuzz f l = some r → f ≤ g →
    iterate n1 fuzz g l = some r := by
  induction f with
  | zero => intro l r g h _; simp [iterate] at h
  | succ f ih =>
    intro l r g h hg
    obtain ⟨g, rfl⟩ : ∃ k, g = k + 1 := ⟨g - 1, by omega⟩
    unfold iterate at h ⊢
    cases hp : pass n1 l with
    | none => rw [hp] at h; simp at h
    | some q =>
      rw [hp] at h
      dsimp only at h ⊢
      split_ifs at h ⊢ with hm
      · exact ih h (by omega)
      · exact h

/-- C88: from its initial guess the iteration of `GenGauss` ends for every number of polar angles and every positive tolerance, after a number
of passes that depends on the tolerance only. -/
theorem C88_ends (fuzz : ℝ) (hf : 0 < fuzz) : ∃ passes, ∀ n, 1 ≤ n → ∃ r, ∀ fuel, passes ≤ fuel →
    iterate (2 * n) fuzz fuel (start real (2 * n)) = some r := by
  obtain ⟨t, ht⟩ := exists_pow_lt_of_lt_one (show 0 < fuzz / 2 by positivity) (show (199 : ℝ) / 201 < 1 by norm_num)
  refine ⟨t + 1, ?_⟩
  intro n hn
  obtain ⟨ys, h⟩ := zeros_exist n
  have hc := start_close h
  have hn' : (1 : ℝ) ≤ n := by exact_mod_cast hn
  obtain ⟨r, hr⟩ := iterate_ends h fuzz t (t + 1) 1 _ (by omega) hc (fun i hi => by
    have h1 := hc.near i hi
    have h2 := Real.sin_le_one (ang ys i)
    have h3 := abs_nonneg ((start real (2 * n)).getD i 0 - ys.getD i 0)
    nlinarith) (by linarith)
  exact ⟨r, fun fuel hfuel => iterate_more hr hfuel⟩

/-- C88: whenever it ends, the points are near the zeros: within a hundred times the tolerance of them. -/
theorem C88_near (n : Nat) (ys : List ℝ) (h : Zeros n ys) (fuzz : ℝ) (fuel : Nat) (y lps : List ℝ)
    (hi : iterate (2 * n) fuzz fuel (start real (2 * n)) = some (y, lps)) :
    y.length = 2 * n ∧ ∀ i < 2 * n, |y.getD i 0 - ys.getD i 0| ≤ 100 * fuzz := by
  obtain ⟨y0, he⟩ := iterate_ended h fuzz fuel _ (start_close h) y lps hi
  refine ⟨he.after.length, ?_⟩
  intro i hi
  have h1 := he.small i hi
  have h2 := he.nearer i hi
  have h3 : |y0.getD i 0 - ys.getD i 0| ≤ |y.getD i 0 - y0.getD i 0| + |y.getD i 0 - ys.getD i 0| := by
    have := abs_sub_le (y0.getD i 0) (y.getD i 0) (ys.getD i 0)
    rwa [abs_sub_comm (y0.getD i 0) (y.getD i 0)] at this
  have h4 := abs_nonneg (y.getD i 0 - y0.getD i 0)
  linarith

end Verif.Quad.Product
