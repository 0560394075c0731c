import Verif.Quad.GaussProps
import Mathlib.Analysis.SpecialFunctions.Trigonometric.Inverse

/-!
# The Gauss rule as computed

C88: what `GenGauss` returns, for every number of polar angles and every positive tolerance.
-/

namespace Verif.Quad.Product

open Verif.Dir Verif.Quad.LS Polynomial

/-- Points near their zeros are in the order of the zeros, and not farther from them than three tenths of the distance to any other. -/
theorem Close.apart {n : Nat} {ys l : List ℝ} (h : Zeros n ys) (hl : Close n ys l) {i j : Nat} (hi : i < 2 * n) (hj : j < 2 * n) (hij : i ≠ j) :
    |l.getD i 0 - ys.getD i 0| ≤ 3 / 10 * |ys.getD i 0 - ys.getD j 0| := by
  obtain ⟨m, hm⟩ : ∃ m, 2 * n = m + 1 := ⟨2 * n - 1, by omega⟩
  have hmr : 2 * (n : ℝ) = m + 1 := by exact_mod_cast hm
  obtain ⟨s1, s2⟩ := sin_ang h i hi
  have hnd : ys.Nodup := h.falling.imp fun hab => ne_of_gt hab
  have hy := hl.near i hi
  rw [hmr] at hy
  have hmem : ∀ k, k < 2 * n → ys.getD k 0 ∈ ys.toFinset := by
    intro k hk
    rw [List.mem_toFinset, List.getD_eq_getElem _ _ (by rw [h.length]; exact hk)]
    exact List.getElem_mem _
  refine ((Leg.near_sep m (by omega) ys.toFinset (by rw [List.toFinset_card_of_nodup hnd, h.length, hm])
    (fun y hy => by rw [← hm]; exact h.zero y (List.mem_toFinset.mp hy)) (ys.getD i 0) (hmem i hi) _ s1 s2 _ hy).2 (ys.getD j 0) ?_).2
  rw [Finset.mem_erase]
  refine ⟨?_, hmem j hj⟩
  rcases Nat.lt_or_gt_of_ne hij with h1 | h1
  · exact (h.lt h1 hj).ne
  · exact (h.lt h1 hi).ne'

theorem Close.falling {n : Nat} {ys l : List ℝ} (h : Zeros n ys) (hl : Close n ys l) {i j : Nat} (hij : i < j) (hj : j < 2 * n) :
    l.getD j 0 < l.getD i 0 := by
  have h1 := hl.apart h (show i < 2 * n by omega) hj (by omega)
  have h2 := hl.apart h hj (show i < 2 * n by omega) (by omega)
  have h3 := h.lt hij hj
  rw [abs_sub_comm (ys.getD j 0)] at h2
  rw [abs_of_pos (by linarith : 0 < ys.getD i 0 - ys.getD j 0)] at h1 h2
  have := abs_le.mp h1
  have := abs_le.mp h2
  linarith

theorem Close.positive {n : Nat} {ys l : List ℝ} (h : Zeros n ys) (hl : Close n ys l) {i : Nat} (hi : i < n) : 0 < l.getD i 0 := by
  have h1 := hl.apart h (show i < 2 * n by omega) (show 2 * n - 1 - i < 2 * n by omega) (by omega)
  have h3 := h.lt (show i < 2 * n - 1 - i by omega) (by omega)
  rw [h.mirror (by omega)] at h1 h3
  rw [abs_of_pos (by linarith : 0 < ys.getD i 0 - -ys.getD i 0)] at h1
  have := abs_le.mp h1
  linarith

theorem Close.inside {n : Nat} {ys l : List ℝ} (h : Zeros n ys) (hl : Close n ys l) {i : Nat} (hi : i < 2 * n) : |l.getD i 0| < 1 :=
  (point_near h i hi _ (hl.near i hi)).1

/-- The weight of a point (product_quadrature.hpp:121-123), where it is defined. -/
noncomputable def weightOf (n : Nat) (y lp : ℝ) : ℝ :=
  1 / ((1 - y * y) * lp * lp) * (2 * (n : ℝ) + 1) * (2 * (n : ℝ) + 1) / ((2 * (n : ℝ)) * (2 * n))

/-- What is made of the state at the end of the iteration. -/
theorem finish_ended {n : Nat} {ys : List ℝ} (h : Zeros n ys) {fuzz : ℝ} {y0 y lps : List ℝ} (he : Ended n fuzz ys y0 y lps) :
    ∃ pol, finish real n y lps = some pol ∧ pol.length = n ∧
      ∀ j < n, pol.getD j (0, 0) = (Real.arccos (y.getD (n - 1 - j) 0), weightOf n (y.getD (n + j) 0) (lps.getD (n + j) 0)) := by
  have hlen := he.after.length
  have hlen2 := he.length
  have hin : ∀ a ∈ y, |a| < 1 := by
    intro a ha
    obtain ⟨i, hi, rfl⟩ := List.mem_iff_getElem.mp ha
    have := he.after.inside h (show i < 2 * n by omega)
    rwa [List.getD_eq_getElem _ _ hi] at this
  have hw : (List.zip y lps).mapM (fun e => gaussWeight (2 * n) e.1 e.2) = some ((List.zip y lps).map fun e => weightOf n e.1 e.2) := by
    apply mapM_all
    intro e hm
    obtain ⟨i, hi, rfl⟩ := List.mem_iff_getElem.mp hm
    rw [List.length_zip, hlen, hlen2, Nat.min_self] at hi
    have h1 := abs_lt.mp (hin (y[i]'(by omega)) (List.getElem_mem _))
    have h2 := (he.slope i hi).2
    rw [List.getD_eq_getElem _ _ (by omega)] at h2
    simp only [List.getElem_zip]
    unfold gaussWeight quot weightOf
    rw [if_neg (mul_ne_zero (mul_ne_zero (by nlinarith) h2) h2)]
    simp only [Option.map_some]
    push_cast
    rfl
  have ha : y.mapM (acosOf real) = some (y.map Real.arccos) := by
    apply mapM_all
    intro a ha
    have := abs_lt.mp (hin a ha)
    unfold acosOf
    rw [if_pos ⟨by linarith, by linarith⟩]
    rfl
  refine ⟨_, by unfold finish; rw [hw, ha]; rfl, ?_, ?_⟩
  · simp [hlen, hlen2]; omega
  · intro j hj
    rw [List.getD_eq_getElem _ _ (by simp [hlen, hlen2]; omega), List.getElem_drop, List.getElem_zip, List.getElem_reverse, List.getElem_map,
      List.getElem_map, List.getElem_zip, List.getD_eq_getElem _ _ (by omega), List.getD_eq_getElem _ _ (by omega),
      List.getD_eq_getElem _ _ (by omega)]
    have e : (y.map Real.arccos).length - 1 - (n + j) = n - 1 - j := by rw [List.length_map, hlen]; omega
    simp only [e]

theorem weightOf_pos (n : Nat) (hn : 1 ≤ n) (y lp : ℝ) (hy : |y| < 1) (hlp : lp ≠ 0) : 0 < weightOf n y lp := by
  have h1 := abs_lt.mp hy
  have h2 : 0 < 1 - y * y := by nlinarith
  have h3 : (0 : ℝ) < n := by exact_mod_cast (by omega : 0 < n)
  have h4 : 0 < lp * lp := mul_self_pos.mpr hlp
  unfold weightOf
  rw [mul_assoc (1 - y * y)]
  positivity

/-- C88: `GenGauss` returns for every number of polar angles and every positive tolerance: after enough passes, `n` different angles inside
(0, pi/2), from the largest to the smallest, with positive weights, and their cosines are within a hundred times the tolerance of the zeros of the
Legendre polynomial of order `2 n`. -/
theorem C88_computed (n : Nat) (hn : 1 ≤ n) (fuzz : ℝ) (hf : 0 < fuzz) (ys : List ℝ) (h : Zeros n ys) :
    ∃ passes pol, (∀ fuel, passes ≤ fuel → genGauss real fuzz fuel n = some pol) ∧ pol.length = n ∧ (pol.map Prod.fst).Pairwise (· > ·) ∧
      (∀ e ∈ pol, 0 < e.1 ∧ e.1 < Real.pi / 2 ∧ 0 < e.2) ∧
      ∀ j < n, |Real.cos (pol.getD j (0, 0)).1 - ys.getD (n - 1 - j) 0| ≤ 100 * fuzz := by
  obtain ⟨passes, hp⟩ := C88_ends fuzz hf
  obtain ⟨⟨y, lps⟩, hr⟩ := hp n hn
  obtain ⟨y0, he⟩ := iterate_ended h fuzz passes _ (start_close h) y lps (hr passes le_rfl)
  obtain ⟨pol, h1, h2, h3⟩ := finish_ended h he
  have hget : ∀ j, (hj : j < pol.length) → pol[j] = (Real.arccos (y.getD (n - 1 - j) 0), weightOf n (y.getD (n + j) 0) (lps.getD (n + j) 0)) := by
    intro j hj
    rw [← h3 j (by omega), List.getD_eq_getElem _ _ hj]
  have hrange : ∀ i < n, 0 < y.getD i 0 ∧ y.getD i 0 < 1 := fun i hi =>
    ⟨he.after.positive h hi, (abs_lt.mp (he.after.inside h (show i < 2 * n by omega))).2⟩
  refine ⟨passes, pol, ?_, h2, ?_, ?_, ?_⟩
  · intro fuel hfuel
    unfold genGauss
    rw [hr fuel hfuel]
    exact h1
  · rw [List.pairwise_map, List.pairwise_iff_getElem]
    intro i j hi hj hij
    rw [hget i hi, hget j hj]
    have a1 := hrange (n - 1 - i) (by omega)
    have a2 := hrange (n - 1 - j) (by omega)
    exact Real.arccos_lt_arccos (by linarith) (he.after.falling h (show n - 1 - j < n - 1 - i by omega) (by omega)) (by linarith)
  · intro e hm
    obtain ⟨j, hj, rfl⟩ := List.mem_iff_getElem.mp hm
    rw [hget j hj]
    have a1 := hrange (n - 1 - j) (by omega)
    exact ⟨Real.arccos_pos.mpr a1.2, Real.arccos_lt_pi_div_two.mpr a1.1,
      weightOf_pos n hn _ _ (he.after.inside h (by omega)) (he.slope (n + j) (by omega)).2⟩
  · intro j hj
    rw [h3 j hj]
    have a1 := hrange (n - 1 - j) (by omega)
    dsimp only
    rw [Real.cos_arccos (by linarith) (by linarith)]
    exact (C88_near n ys h fuzz passes y lps (hr passes le_rfl)).2 _ (by omega)

/-- C88: the Chebyshev-Gauss quadrature as computed: for all numbers of angles and every positive tolerance, `nAzi * nPolar` unit vectors inside the
first octant with positive weights of sum one. -/
theorem C88_computed_octant (nAzi nPolar : Nat) (ha : 1 ≤ nAzi) (hp : 1 ≤ nPolar) (fuzz : ℝ) (hf : 0 < fuzz) :
    ∃ passes angles, Octant (nAzi * nPolar) angles ∧ ∀ fuel, passes ≤ fuel →
      ∃ pol, genGauss real fuzz fuel nPolar = some pol ∧ firstOctant real false nAzi nPolar pol = .ok angles := by
  obtain ⟨ys, h⟩ := zeros_exist nPolar
  obtain ⟨passes, pol, h1, h2, -, h4, -⟩ := C88_computed nPolar hp fuzz hf ys h
  obtain ⟨c1, c2, -, c4, -⟩ := C88_chebyshev nAzi ha
  have hpos : 0 < (pol.map Prod.snd).sum := by
    apply List.sum_pos
    · intro w hw
      obtain ⟨e, he, rfl⟩ := List.mem_map.mp hw
      exact (h4 e he).2.2
    · intro hnil
      have := congrArg List.length hnil
      simp [h2] at this
      omega
  have ho := product_octant (genChebyshev real nAzi) pol c4 h4 (by rw [c2]; norm_num) hpos
  rw [c1, h2] at ho
  refine ⟨passes, _, ho, fun fuel hfuel => ⟨pol, h1 fuel hfuel, ?_⟩⟩
  unfold firstOctant
  rw [if_neg (by omega)]
  simp

/-! ## Small tolerances -/

theorem weightOf_zero {n : Nat} {ys : List ℝ} (h : Zeros n ys) (i : Nat) (hi : i < 2 * n) :
    weightOf n (ys.getD i 0) ((2 * (n : ℝ) + 1) / (2 * n) * (derivative (Leg.P (2 * n))).eval (ys.getD i 0)) = Leg.weight (2 * n) (ys.getD i 0) := by
  obtain ⟨-, h1, h2⟩ := h.facts i hi
  have hn : (n : ℝ) ≠ 0 := by
    have : 0 < n := by omega
    positivity
  unfold weightOf Leg.weight
  generalize ys.getD i 0 = r at h1 h2 ⊢
  have h3 : 1 - r ^ 2 ≠ 0 := by linarith
  have h4 : (2 * (n : ℝ) + 1) ≠ 0 := by positivity
  rw [show 1 - r * r = 1 - r ^ 2 by ring]
  field_simp

theorem common_bound {N : Nat} {Q : Nat → ℝ → Prop} (hmono : ∀ i d e, Q i d → 0 < e → e ≤ d → Q i e) (h : ∀ i < N, ∃ d, 0 < d ∧ Q i d) :
    ∃ d, 0 < d ∧ ∀ i < N, Q i d := by
  induction N with
  | zero => exact ⟨1, one_pos, fun i hi => absurd hi (by omega)⟩
  | succ N ih =>
    obtain ⟨d, hd, h1⟩ := ih fun i hi => h i (by omega)
    obtain ⟨e, he, h2⟩ := h N (by omega)
    refine ⟨min d e, lt_min hd he, ?_⟩
    intro i hi
    by_cases hiN : i = N
    · rw [hiN]; exact hmono _ _ _ h2 (lt_min hd he) (min_le_right _ _)
    · exact hmono _ _ _ (h1 i (by omega)) (lt_min hd he) (min_le_left _ _)

/-- C88: as the tolerance goes to zero, every continuous function of an angle and its weight goes to its value at the exact zero and the exact weight of
the Gauss rule. -/
theorem C88_limit (n : Nat) (ys : List ℝ) (h : Zeros n ys) (H : ℝ × ℝ → ℝ) (hH : Continuous H) (ε : ℝ) (hε : 0 < ε) :
    ∃ f0, 0 < f0 ∧ ∀ fuzz fuel pol, fuzz ≤ f0 → genGauss real fuzz fuel n = some pol → pol.length = n ∧
      ∀ j < n, |H (pol.getD j (0, 0)) - H (Real.arccos (ys.getD (n - 1 - j) 0), Leg.weight (2 * n) (ys.getD (n - 1 - j) 0))| < ε := by
  let Φ : ℝ × ℝ × ℝ → ℝ := fun q =>
    H (Real.arccos q.1, weightOf n q.2.1 ((2 * (n : ℝ) + 1) / (2 * n) * (derivative (Leg.P (2 * n))).eval q.2.2))
  have hcont : ∀ j < n, ∃ d, 0 < d ∧ ∀ a b c : ℝ, |a - ys.getD (n - 1 - j) 0| < d → |b - ys.getD (n + j) 0| < d → |c - ys.getD (n + j) 0| < d →
      |Φ (a, b, c) - H (Real.arccos (ys.getD (n - 1 - j) 0), Leg.weight (2 * n) (ys.getD (n - 1 - j) 0))| < ε := by
    intro j hj
    have hn : (n : ℝ) ≠ 0 := by
      have : 0 < n := by omega
      positivity
    obtain ⟨-, h1, h2⟩ := h.facts (n + j) (by omega)
    have hat : ContinuousAt Φ (ys.getD (n - 1 - j) 0, ys.getD (n + j) 0, ys.getD (n + j) 0) := by
      apply hH.continuousAt.comp
      apply ContinuousAt.prodMk
      · exact Real.continuous_arccos.continuousAt.comp continuousAt_fst
      · unfold weightOf
        have hD : ContinuousAt (fun q : ℝ × ℝ × ℝ => (2 * (n : ℝ) + 1) / (2 * n) * (derivative (Leg.P (2 * n))).eval q.2.2)
            (ys.getD (n - 1 - j) 0, ys.getD (n + j) 0, ys.getD (n + j) 0) := by
          apply Continuous.continuousAt
          exact continuous_const.mul ((derivative (Leg.P (2 * n))).continuous.comp (continuous_snd.comp continuous_snd))
        have hy : ContinuousAt (fun q : ℝ × ℝ × ℝ => 1 - q.2.1 * q.2.1)
            (ys.getD (n - 1 - j) 0, ys.getD (n + j) 0, ys.getD (n + j) 0) := by fun_prop
        have hden := (hy.mul hD).mul hD
        have hDne : (2 * (n : ℝ) + 1) / (2 * n) * (derivative (Leg.P (2 * n))).eval (ys.getD (n + j) 0) ≠ 0 := by
          apply mul_ne_zero _ h2
          positivity
        have hne : (1 - ys.getD (n + j) 0 * ys.getD (n + j) 0) * ((2 * (n : ℝ) + 1) / (2 * n) * (derivative (Leg.P (2 * n))).eval (ys.getD (n + j) 0)) *
            ((2 * (n : ℝ) + 1) / (2 * n) * (derivative (Leg.P (2 * n))).eval (ys.getD (n + j) 0)) ≠ 0 :=
          mul_ne_zero (mul_ne_zero (by nlinarith) hDne) hDne
        exact (((continuousAt_const.div hden hne).mul continuousAt_const).mul continuousAt_const).div_const _
    obtain ⟨d, hd, hδ⟩ := Metric.continuousAt_iff.mp hat ε hε
    refine ⟨d, hd, ?_⟩
    intro a b c h3 h4 h5
    have h6 := hδ (x := (a, b, c)) (by
      rw [Prod.dist_eq, Prod.dist_eq]
      exact max_lt (by rw [Real.dist_eq]; exact h3) (max_lt (by rw [Real.dist_eq]; exact h4) (by rw [Real.dist_eq]; exact h5)))
    rw [Real.dist_eq] at h6
    have h7 : Φ (ys.getD (n - 1 - j) 0, ys.getD (n + j) 0, ys.getD (n + j) 0) =
        H (Real.arccos (ys.getD (n - 1 - j) 0), Leg.weight (2 * n) (ys.getD (n - 1 - j) 0)) := by
      show H _ = H _
      congr 2
      dsimp only
      rw [weightOf_zero h _ (by omega)]
      have := h.mirror (k := n - 1 - j) (by omega)
      rw [show 2 * n - 1 - (n - 1 - j) = n + j by omega] at this
      rw [this, weight_even]
    rw [h7] at h6
    exact h6
  obtain ⟨d, hd, hall⟩ := common_bound (N := n) (Q := fun j d => ∀ a b c : ℝ, |a - ys.getD (n - 1 - j) 0| < d → |b - ys.getD (n + j) 0| < d →
      |c - ys.getD (n + j) 0| < d →
      |Φ (a, b, c) - H (Real.arccos (ys.getD (n - 1 - j) 0), Leg.weight (2 * n) (ys.getD (n - 1 - j) 0))| < ε)
    (fun i d e hq _ hle a b c h1 h2 h3 => hq a b c (by linarith) (by linarith) (by linarith)) hcont
  refine ⟨d / 102, by positivity, ?_⟩
  intro fuzz fuel pol hfuzz hg
  unfold genGauss at hg
  obtain ⟨⟨y, lps⟩, hi, hfin⟩ := Option.bind_eq_some_iff.mp hg
  obtain ⟨y0, he⟩ := iterate_ended h fuzz fuel _ (start_close h) y lps hi
  obtain ⟨pol', f1, f2, f3⟩ := finish_ended h he
  have heq : pol = pol' := by
    have := hfin.symm.trans f1
    simpa using this
  rw [heq]
  refine ⟨f2, ?_⟩
  intro j hj
  rw [f3 j hj, (he.slope (n + j) (by omega)).1]
  have hnear : ∀ i < 2 * n, |y.getD i 0 - ys.getD i 0| < d ∧ |y0.getD i 0 - ys.getD i 0| < d := by
    intro i hi2
    have h1 := (C88_near n ys h fuzz fuel y lps hi).2 i hi2
    have h2 := he.small i hi2
    have h3 := abs_sub_le (y0.getD i 0) (y.getD i 0) (ys.getD i 0)
    rw [abs_sub_comm (y0.getD i 0) (y.getD i 0)] at h3
    constructor <;> linarith
  exact hall j hj _ _ _ (hnear _ (by omega)).1 (hnear _ (by omega)).1 (hnear _ (by omega)).2

/-- Sums over the computed pairs go to the sums over the exact ones. -/
theorem C88_limit_sum (n : Nat) (ys : List ℝ) (h : Zeros n ys) (H : ℝ × ℝ → ℝ) (hH : Continuous H) (ε : ℝ) (hε : 0 < ε) :
    ∃ f0, 0 < f0 ∧ ∀ fuzz fuel pol, fuzz ≤ f0 → genGauss real fuzz fuel n = some pol → pol.length = n ∧
      |(pol.map H).sum - (((ys.take n).reverse.map fun y => (Real.arccos y, Leg.weight (2 * n) y)).map H).sum| < ε := by
  obtain ⟨f0, h1, h2⟩ := C88_limit n ys h H hH (ε / (n + 1)) (by positivity)
  refine ⟨f0, h1, ?_⟩
  intro fuzz fuel pol hf hg
  obtain ⟨h3, h4⟩ := h2 fuzz fuel pol hf hg
  refine ⟨h3, ?_⟩
  set ex := (ys.take n).reverse.map fun y => (Real.arccos y, Leg.weight (2 * n) y) with hex
  have hlen : ex.length = n := by
    rw [hex]
    simp [h.length]
    omega
  have hgen : ∀ (l m : List (ℝ × ℝ)) (c : ℝ), l.length = m.length → (∀ j < l.length, |H (l.getD j (0, 0)) - H (m.getD j (0, 0))| ≤ c) →
      |(l.map H).sum - (m.map H).sum| ≤ l.length * c := by
    intro l
    induction l with
    | nil =>
      intro m c hm _
      have : m = [] := List.length_eq_zero_iff.mp hm.symm
      rw [this]; simp
    | cons a l ih =>
      intro m c hm hc
      obtain ⟨b, m, rfl⟩ : ∃ b m', m = b :: m' := by
        cases m with
        | nil => simp at hm
        | cons b m => exact ⟨b, m, rfl⟩
      have e1 := ih m c (by simpa using hm) (fun j hj => by
        have := hc (j + 1) (by simpa using hj)
        simpa using this)
      have e2 := hc 0 (by simp)
      simp only [List.getD_cons_zero] at e2
      simp only [List.map_cons, List.sum_cons, List.length_cons]
      push_cast
      have e3 := abs_add_le (H a - H b) ((l.map H).sum - (m.map H).sum)
      rw [show H a + (l.map H).sum - (H b + (m.map H).sum) = H a - H b + ((l.map H).sum - (m.map H).sum) by ring]
      linarith
  refine lt_of_le_of_lt (hgen pol ex (ε / (n + 1)) (by rw [h3, hlen]) ?_) ?_
  · intro j hj
    rw [h3] at hj
    have h5 := (h4 j hj).le
    have h6 : ex.getD j (0, 0) = (Real.arccos (ys.getD (n - 1 - j) 0), Leg.weight (2 * n) (ys.getD (n - 1 - j) 0)) := by
      have hl := h.length
      have hm : min n ys.length - 1 - j = n - 1 - j := by omega
      rw [List.getD_eq_getElem _ _ (by rw [hlen]; exact hj), List.getD_eq_getElem _ _ (by omega)]
      simp only [hex, List.getElem_map, List.getElem_reverse, List.getElem_take, List.length_take, hm]
    rw [h6]
    exact h5
  · rw [h3, mul_div_assoc', div_lt_iff₀ (by positivity)]
    nlinarith

/-- C88: the computed polar angles and weights integrate polynomials of degree up to `4 n - 1` in the cosine as well as the tolerance allows: the error
goes to zero with it.  The weights sum to nearly one half. -/
theorem C88_computed_integrates (n : Nat) (hn : 1 ≤ n) (p : ℝ[X]) (hp : p.natDegree < 4 * n) (ε : ℝ) (hε : 0 < ε) :
    ∃ f0, 0 < f0 ∧ ∀ fuzz fuel pol, fuzz ≤ f0 → genGauss real fuzz fuel n = some pol →
      |(pol.map fun e => e.2 * (p.eval (Real.cos e.1) + p.eval (-Real.cos e.1))).sum - (∫ x in (-1 : ℝ)..1, p.eval x) / 2| < ε ∧
      |(pol.map Prod.snd).sum - 1 / 2| < ε := by
  obtain ⟨ys, h⟩ := zeros_exist n
  obtain ⟨lps, pol', g1, g2, -, -, -, g6, g7⟩ := C88_gauss n hn ys h
  obtain ⟨lps2, e1, e2, e3⟩ := finish_spec n hn ys h
  have hpol : pol' = (ys.take n).reverse.map fun y => (Real.arccos y, Leg.weight (2 * n) y) := by
    have hz : List.zip ys lps2 = List.zip ys lps := by
      have := e1.symm.trans g1
      simpa using this
    have hfin : finish real n ys lps = finish real n ys lps2 := by
      unfold finish
      rw [hz]
    rw [hfin, e3] at g2
    simpa using g2.symm
  rw [hpol] at g6 g7
  obtain ⟨f1, a1, a2⟩ := C88_limit_sum n ys h (fun e => e.2 * (p.eval (Real.cos e.1) + p.eval (-Real.cos e.1))) (by
    have := p.continuous
    fun_prop) ε hε
  obtain ⟨f2, b1, b2⟩ := C88_limit_sum n ys h Prod.snd continuous_snd ε hε
  refine ⟨min f1 f2, lt_min a1 b1, ?_⟩
  intro fuzz fuel pol hf hg
  have c1 := (a2 fuzz fuel pol (le_trans hf (min_le_left _ _)) hg).2
  have c2 := (b2 fuzz fuel pol (le_trans hf (min_le_right _ _)) hg).2
  rw [g7 p hp] at c1
  rw [g6] at c2
  exact ⟨c1, c2⟩

/-- C88: the means of the squares of the three direction cosines of the Chebyshev-Gauss quadrature as computed are one third as well as the tolerance
allows. -/
theorem C88_computed_moments (nAzi nPolar : Nat) (ha : 1 ≤ nAzi) (hp : 1 ≤ nPolar) (ε : ℝ) (hε : 0 < ε) :
    ∃ f0, 0 < f0 ∧ ∀ fuzz fuel pol angles, fuzz ≤ f0 → genGauss real fuzz fuel nPolar = some pol →
      firstOctant real false nAzi nPolar pol = .ok angles →
      |(angles.map fun r => r.2 * r.1.ox ^ 2).sum - 1 / 3| < ε ∧ |(angles.map fun r => r.2 * r.1.oy ^ 2).sum - 1 / 3| < ε ∧
      |(angles.map fun r => r.2 * r.1.oz ^ 2).sum - 1 / 3| < ε := by
  obtain ⟨f0, h1, h2⟩ := C88_computed_integrates nPolar hp (X ^ 2) (by simp; omega) (min (1 / 4) (ε / 4)) (lt_min (by norm_num) (by positivity))
  refine ⟨f0, h1, ?_⟩
  intro fuzz fuel pol angles hf hg ho
  obtain ⟨h3, h4⟩ := h2 fuzz fuel pol hf hg
  have hη1 : min (1 / 4) (ε / 4) ≤ 1 / 4 := min_le_left _ _
  have hη2 : min (1 / 4) (ε / 4) ≤ ε / 4 := min_le_right _ _
  set η := min (1 / 4) (ε / 4)
  simp only [eval_pow, eval_X] at h3
  rw [integral_pow] at h3
  have e1 : (pol.map fun e => e.2 * (Real.cos e.1 ^ 2 + (-Real.cos e.1) ^ 2)).sum = 2 * (pol.map fun e => e.2 * Real.cos e.1 ^ 2).sum := by
    rw [← List.sum_map_mul_left]
    congr 1
    apply List.map_congr_left
    intro e _
    ring
  have e2 : (pol.map fun e => e.2 * Real.sin e.1 ^ 2).sum = (pol.map Prod.snd).sum - (pol.map fun e => e.2 * Real.cos e.1 ^ 2).sum := by
    rw [eq_sub_iff_add_eq, ← List.sum_map_add]
    congr 1
    apply List.map_congr_left
    intro e _
    rw [← mul_add, Real.sin_sq_add_cos_sq, mul_one]
  rw [e1] at h3
  norm_num at h3
  have hang : angles = genProduct real (genChebyshev real nAzi) pol := by
    unfold firstOctant at ho
    rw [if_neg (by omega)] at ho
    simpa using ho.symm
  obtain ⟨c1, c2, -, c4, -⟩ := C88_chebyshev nAzi ha
  obtain ⟨q1, q2⟩ := cos_sq_mean nAzi ha
  obtain ⟨a1, a2⟩ := abs_lt.mp h3
  obtain ⟨b1, b2⟩ := abs_lt.mp h4
  have hB : 1 / 4 < (pol.map Prod.snd).sum := by linarith
  obtain ⟨-, -, -, hm⟩ := C88_product (genChebyshev real nAzi) pol (by rw [c2]; norm_num) (by linarith)
  rw [← hang] at hm
  have hz := hm (fun d => d.oz ^ 2) (fun _ => 1) (fun t => Real.cos t ^ 2) (by intro a t; simp [ofAngles, real])
  have hx := hm (fun d => d.ox ^ 2) (fun a => Real.cos a ^ 2) (fun t => Real.sin t ^ 2) (by intro a t; simp [ofAngles, real]; ring)
  have hy := hm (fun d => d.oy ^ 2) (fun a => Real.sin a ^ 2) (fun t => Real.sin t ^ 2) (by intro a t; simp [ofAngles, real]; ring)
  simp only [mul_one] at hz
  rw [show (fun a : ℝ × ℝ => a.2) = Prod.snd from rfl, c2] at hz
  rw [c2, q1, e2] at hx
  rw [c2, q2, e2] at hy
  rw [hx, hy, hz]
  generalize (pol.map fun e => e.2 * Real.cos e.1 ^ 2).sum = A at *
  generalize (pol.map Prod.snd).sum = B at *
  have hB0 : B ≠ 0 := by linarith
  have hq : |A / B - 1 / 3| < ε := by
    rw [show A / B - 1 / 3 = (A - B / 3) / B by field_simp, abs_div, abs_of_pos (by linarith : 0 < B), div_lt_iff₀ (by linarith), abs_lt]
    constructor <;> nlinarith
  have hxy : |1 / 2 / 1 * ((B - A) / B) - 1 / 3| < ε := by
    rw [show 1 / 2 / 1 * ((B - A) / B) - 1 / 3 = -(1 / 2 * (A / B - 1 / 3)) by field_simp; ring, abs_neg, abs_mul]
    norm_num
    have := abs_nonneg (A / B - 1 / 3)
    linarith
  refine ⟨hxy, hxy, ?_⟩
  rw [show (1 : ℝ) / 1 * (A / B) = A / B by ring]
  exact hq

/-- Eight polar angles, with the tolerance of the code: it ends, and gives sixteen times eight directions. -/
example : ∃ fuel pol angles, genGauss real (200 / 2 ^ 52) fuel 8 = some pol ∧ firstOctant real false 16 8 pol = .ok angles ∧ Octant 128 angles := by
  obtain ⟨passes, angles, h1, h2⟩ := C88_computed_octant 16 8 (by norm_num) (by norm_num) (200 / 2 ^ 52) (by positivity)
  obtain ⟨pol, h3, h4⟩ := h2 passes le_rfl
  exact ⟨passes, pol, angles, h3, h4, h1⟩

end Verif.Quad.Product
