import Verif.Scatter.Lemmas
import Verif.Util.Sum
import Mathlib.Algebra.Order.BigOperators.Group.Finset
import Mathlib.Algebra.BigOperators.Ring.Finset
import Mathlib.Algebra.Order.Ring.Rat
import Mathlib.Algebra.Order.Field.Rat
import Mathlib.Algebra.Field.Rat
import Mathlib.Tactic.NormNum
import Mathlib.Tactic.FieldSimp

/-!
# C22, C23, C54: the scattering matrix

A dense matrix is a function `d dst src`; the specification talks about `d` only.
-/

set_option linter.unusedSectionVars false

namespace Verif.Scatter

variable {K : Type} [Field K] [LinearOrder K] [IsStrictOrderedRing K]

/-- C22 (full claim, false when there are negative entries). -/
def C22_claim : Prop := ∀ (ng : Nat) (d : Nat → Nat → ℚ) (dst src : Nat), dst < ng → src < ng →
  (build ng d).asVector (ng * dst + src) = d dst src ∧
  (build ng d).out src = ∑ i ∈ Finset.range ng, d i src

theorem asVector_eq (ng : Nat) (d : Nat → Nat → K) (dst src : Nat) (h : dst < ng) (hs : src < ng) :
    (build ng d).asVector (ng * dst + src) =
      if (bounds ng d dst).1 ≤ src ∧ src ≤ (bounds ng d dst).2 then d dst src else 0 := by
  have hl : (build ng d).rows.length = ng := (build_inv ng d ng).2.1
  unfold Matrix.asVector
  rw [hl, build_ng]
  have := asVector_inv ng d ng (le_refl _) dst src hs
  refine Eq.trans this ?_
  simp [h]

theorem out_eq (ng : Nat) (d : Nat → Nat → K) (src : Nat) :
    (build ng d).out src = ∑ i ∈ Finset.range ng,
      if (bounds ng d i).1 ≤ src ∧ src ≤ (bounds ng d i).2 then d i src else 0 := by
  have := (build_inv ng d ng).2.2.2 src
  change (build ng d).out src = _ at this
  rw [this, Verif.Util.list_sum_range]

theorem band (ng : Nat) (d : Nat → Nat → K) (hn : ∀ i j, i < ng → j < ng → 0 ≤ d i j) (dst src : Nat) (h : dst < ng)
    (hs : src < ng) :
    (if (bounds ng d dst).1 ≤ src ∧ src ≤ (bounds ng d dst).2 then d dst src else 0) = d dst src := by
  split_ifs with hb
  · rfl
  · rcases (hn dst src h hs).lt_or_eq with hp | hp
    · exact absurd ((bounds_props ng d dst h).2.2.2 src hs hp) hb
    · exact hp

/-- C22: `as_vector` returns the dense matrix.
Missing: matrices with negative entries (`C22_claim_false`). -/
theorem C22_as_vector_partial (ng : Nat) (d : Nat → Nat → K) (hn : ∀ i j, i < ng → j < ng → 0 ≤ d i j)
    (dst src : Nat) (h : dst < ng) (hs : src < ng) : (build ng d).asVector (ng * dst + src) = d dst src := by
  rw [asVector_eq ng d dst src h hs, band ng d hn dst src h hs]

/-- C22: `out` is the column sum.  Missing: matrices with negative entries. -/
theorem C22_out_partial (ng : Nat) (d : Nat → Nat → K) (hn : ∀ i j, i < ng → j < ng → 0 ≤ d i j) (src : Nat)
    (hs : src < ng) : (build ng d).out src = ∑ i ∈ Finset.range ng, d i src := by
  rw [out_eq]
  apply Finset.sum_congr rfl
  intro i hi
  exact band ng d hn i src (Finset.mem_range.mp hi) hs

/-- C22: `to(dst)[src]` is the dense entry wherever it may be asked for, and entries it may not be asked for are
zero.  Missing: negative entries outside the stored range. -/
theorem C22_to_partial (ng : Nat) (d : Nat → Nat → K) (hn : ∀ i j, i < ng → j < ng → 0 ≤ d i j) (dst src : Nat)
    (h : dst < ng) (hs : src < ng) :
    (build ng d).get dst src = some (d dst src) ∨ ((build ng d).get dst src = none ∧ d dst src = 0) := by
  rw [build_get ng d dst src h]
  have := band ng d hn dst src h hs
  split_ifs at * with hb
  · left; rfl
  · right; exact ⟨rfl, this.symm⟩

/-- C22: whatever is returned by `to(dst)[src]` is the dense entry, signs notwithstanding, and self-scatter and all
positive entries are always available. -/
theorem C22_to_sound (ng : Nat) (d : Nat → Nat → K) (dst src : Nat) (h : dst < ng) (hs : src < ng) :
    (∀ v, (build ng d).get dst src = some v → v = d dst src) ∧
    (0 < d dst src → (build ng d).get dst src = some (d dst src)) ∧
    (build ng d).selfScat dst = some (d dst dst) := by
  obtain ⟨b1, b2, -, b4⟩ := bounds_props ng d dst h
  refine ⟨?_, ?_, ?_⟩
  · intro v hv
    rw [build_get ng d dst src h] at hv
    split_ifs at hv
    exact (Option.some.inj hv).symm
  · intro hp
    rw [build_get ng d dst src h, if_pos (b4 src hs hp)]
  · unfold Matrix.selfScat
    rw [build_get ng d dst dst h, if_pos ⟨b1, b2⟩]

/-- C22: for any signs, exactly the entries outside the stored range of the row are lost. -/
theorem C22_lost_exactly (ng : Nat) (d : Nat → Nat → K) (dst src : Nat) (h : dst < ng) (hs : src < ng) :
    (build ng d).asVector (ng * dst + src) = ((build ng d).get dst src).getD 0 := by
  rw [asVector_eq ng d dst src h hs, build_get ng d dst src h]
  split_ifs <;> rfl

/-- C22: the full claim is false: a negative entry left of the diagonal is dropped. -/
theorem C22_claim_false : ¬ C22_claim := by
  intro h
  have := (h 2 (fun i j => if i = 1 ∧ j = 0 then -1 else 1) 1 0 (by decide) (by decide)).1
  revert this
  decide +kernel

/-! ## C23 -/

theorem xssc_eq (ng : Nat) (d : Nat → Nat → K) (hn : ∀ i j, i < ng → j < ng → 0 ≤ d i j) (ig igg : Nat)
    (h : igg < ng) (hs : ig < ng) : (build ng d).xssc ig igg = d igg ig := by
  obtain ⟨r, r1, r2, r3, -⟩ := (build_inv ng d ng).2.2.1 igg h
  change (build ng d).rows[igg]? = some r at r1
  unfold Matrix.xssc
  rw [r1]
  simp only [r2, r3]
  rw [build_get ng d igg ig h]
  have := band ng d hn igg ig h hs
  split_ifs at * with hb
  · simp
  · exact this

theorem outCdf_eq (ng : Nat) (d : Nat → Nat → K) (ig : Nat) :
    (build ng d).outCdf ig = (List.range ng).map (fun i => ∑ j ∈ Finset.range (i + 1),
      (build ng d).xssc ig j * (1 / (build ng d).out ig)) := by
  unfold Matrix.outCdf
  rw [build_ng]
  have := cdf_loop (fun j => (build ng d).xssc ig j * (1 / (build ng d).out ig)) ng
  simp only at this ⊢
  rw [this]

/-- C23: entry `i` of the distribution is the probability of scattering to a group up to `i`. -/
theorem C23_values (ng : Nat) (d : Nat → Nat → K) (hn : ∀ i j, i < ng → j < ng → 0 ≤ d i j) (ig : Nat) (hig : ig < ng) :
    (build ng d).outCdf ig = (List.range ng).map (fun i =>
      (∑ j ∈ Finset.range (i + 1), d j ig) / ∑ j ∈ Finset.range ng, d j ig) := by
  rw [outCdf_eq, C22_out_partial ng d hn ig hig]
  apply List.map_congr_left
  intro i hi
  rw [← Finset.sum_mul, mul_one_div]
  congr 1
  apply Finset.sum_congr rfl
  intro j hj
  rw [List.mem_range] at hi
  rw [Finset.mem_range] at hj
  exact xssc_eq ng d hn ig j (by omega) hig

/-- C23: one entry per group, non-decreasing from non-negative values up to one, with steps the normalised
scattering probabilities. -/
theorem C23_distribution (ng : Nat) (d : Nat → Nat → K) (hn : ∀ i j, i < ng → j < ng → 0 ≤ d i j) (ig : Nat)
    (hig : ig < ng) (hpos : 0 < ∑ j ∈ Finset.range ng, d j ig) :
    ∃ F : Nat → K, (build ng d).outCdf ig = (List.range ng).map F ∧
      (∀ i, i < ng → 0 ≤ F i) ∧ (∀ i j, i ≤ j → j < ng → F i ≤ F j) ∧ F (ng - 1) = 1 ∧
      F 0 = d 0 ig / ∑ j ∈ Finset.range ng, d j ig ∧
      (∀ i, i + 1 < ng → F (i + 1) - F i = d (i + 1) ig / ∑ j ∈ Finset.range ng, d j ig) := by
  refine ⟨_, C23_values ng d hn ig hig, ?_, ?_, ?_, ?_, ?_⟩
  · intro i hi
    apply div_nonneg _ hpos.le
    apply Finset.sum_nonneg
    intro j hj
    rw [Finset.mem_range] at hj
    exact hn j ig (by omega) hig
  · intro i j hij hj
    apply div_le_div_of_nonneg_right _ hpos.le
    apply Finset.sum_le_sum_of_subset_of_nonneg
    · intro x hx; rw [Finset.mem_range] at *; omega
    · intro x hx _; rw [Finset.mem_range] at hx; exact hn x ig (by omega) hig
  · rw [show ng - 1 + 1 = ng by omega, div_self hpos.ne']
  · simp
  · intro i _
    rw [Finset.sum_range_succ _ (i + 1), ← sub_div]
    simp

/-! ## C54: comparison and copying -/

/-- C54 (full claim, false). -/
def C54_claim : Prop := ∀ (ng : Nat) (d e : Nat → Nat → ℚ), (∀ i j, 0 ≤ d i j) → (∀ i j, 0 ≤ e i j) →
  (build ng d).eqv (build ng e) = true → ∀ i j, i < ng → j < ng → d i j = e i j

/-- C54: two different non-negative matrices compare equal. -/
theorem C54_claim_false : ¬ C54_claim := by
  intro h
  have := h 3 (fun i j => if (i, j) ∈ [(1, 1), (2, 0), (2, 1)] then 1 else 0)
    (fun i j => if (i, j) ∈ [(1, 0), (1, 1), (2, 1)] then 1 else 0)
    (by intro i j; split_ifs <;> norm_num) (by intro i j; split_ifs <;> norm_num) (by decide +kernel)
    2 0 (by decide) (by decide)
  revert this
  decide +kernel

/-- C54: equal matrices do compare equal, and matrices that compare equal agree in group count and column sums.
Missing: that they agree entry by entry, which is false (`C54_claim_false`). -/
theorem C54_eq_partial (ng ng' : Nat) (d e : Nat → Nat → K) :
    ((ng = ng' ∧ ∀ i j, d i j = e i j) → (build ng d).eqv (build ng' e) = true) ∧
    ((build ng d).eqv (build ng' e) = true → ng = ng' ∧ ∀ j, j < ng → (build ng d).out j = (build ng' e).out j) := by
  constructor
  · rintro ⟨rfl, hde⟩
    have : d = e := by funext i j; exact hde i j
    subst this
    simp [Matrix.eqv]
  · intro h
    simp only [Matrix.eqv, build_ng, Bool.and_eq_true, decide_eq_true_eq] at h
    obtain ⟨⟨rfl, -⟩, h3⟩ := h
    refine ⟨rfl, ?_⟩
    intro j hj
    have := List.map_inj_left.mp h3 j (by simpa using hj)
    exact this

theorem copy_inv (ng : Nat) (d : Nat → Nat → K) (k : Nat) (hk : k ≤ ng) :
    let m := (List.range k).foldl (addRow ng d) { ng := ng, scat := [], out := fun _ => 0, rows := [] }
    m.rows.foldl (fun (acc : List Row × Nat) r =>
      (acc.1 ++ [⟨r.minG, r.maxG, acc.2⟩], acc.2 + (r.maxG - r.minG + 1))) ([], 0) = (m.rows, m.scat.length) := by
  induction k with
  | zero => rfl
  | succ k ih =>
    have ih := ih (by omega)
    simp only at ih ⊢
    rw [List.range_succ, List.foldl_append]
    simp only [List.foldl_cons, List.foldl_nil]
    generalize (List.range k).foldl (addRow ng d) { ng := ng, scat := [], out := fun _ => 0, rows := [] } = m at *
    obtain ⟨-, a2, a3, -⟩ := addRow_eq ng d m k
    obtain ⟨b1, b2, -, -⟩ := bounds_props ng d k (by omega)
    rw [a3, a2, List.foldl_append, ih]
    simp only [List.foldl_cons, List.foldl_nil, List.length_append, List.length_map, groups_length, Prod.mk.injEq,
      true_and]
    omega

/-- C54: a copy is the same matrix, row pointers included. -/
theorem C54_copy (ng : Nat) (d : Nat → Nat → K) : (build ng d).copy = build ng d := by
  have := copy_inv ng d ng (le_refl _)
  simp only at this
  unfold Matrix.copy
  rw [show (build ng d).rows = ((List.range ng).foldl (addRow ng d)
    { ng := ng, scat := [], out := fun _ => 0, rows := [] }).rows from rfl, this]
  rfl

/-! ## Instances -/

def exD : Nat → Nat → ℚ := fun i j => if i = 0 ∧ j = 0 then 3 else if i = 1 ∧ j = 0 then 1/2 else if i = 2 ∧ j = 1 then 2 else 0

theorem exD_nonneg : ∀ i j, i < 3 → j < 3 → 0 ≤ exD i j := by
  intro i j _ _; unfold exD; split_ifs <;> norm_num

example : (build 3 exD).asVector 7 = 2 := by
  have := C22_as_vector_partial 3 exD exD_nonneg 2 1 (by decide) (by decide)
  simpa [exD] using this

example : (build 3 exD).out 0 = 7 / 2 := by
  rw [C22_out_partial 3 exD exD_nonneg 0 (by decide)]
  simp [Finset.sum_range_succ, exD]; norm_num

example : ∃ F : Nat → ℚ, (build 3 exD).outCdf 0 = (List.range 3).map F ∧ F 2 = 1 := by
  obtain ⟨F, h1, -, -, h4, -⟩ := C23_distribution 3 exD exD_nonneg 0 (by decide)
    (by simp [Finset.sum_range_succ, exD]; norm_num)
  exact ⟨F, h1, h4⟩

end Verif.Scatter
