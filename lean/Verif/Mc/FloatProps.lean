import Verif.Mc.FloatModel
import Verif.Fp.RoundLemmas
import Verif.Scatter.Props
import Verif.Rng.Props
import Mathlib.Algebra.Order.Ring.Pow
import Mathlib.Algebra.BigOperators.Field
import Mathlib.Tactic.IntervalCases

/-!
# C128: sampling of reactions and groups in floating-point arithmetic
-/

namespace Verif.Mc

open Verif.Fp

section

variable {K : Type} [Field K] [LinearOrder K] [IsStrictOrderedRing K]

/-! ### Running sums -/

/-- Sum of the first `n` terms, rounded after each addition. -/
def sumF (rnd : K → K) (t : Nat → K) : Nat → K
  | 0 => 0
  | n + 1 => rnd (sumF rnd t n + t n)

theorem fold_sumF (rnd : K → K) (t : Nat → K) (n : Nat) :
    (List.range n).foldl (fun (acc : List K × K) j => (acc.1 ++ [rnd (acc.2 + t j)], rnd (acc.2 + t j))) ([], 0) =
      ((List.range n).map fun j => sumF rnd t (j + 1), sumF rnd t n) := by
  induction n with
  | zero => rfl
  | succ n ih => rw [List.range_succ, List.foldl_append, ih]; simp [sumF]

theorem fold_range (rnd : K → K) (l : List K) :
    l.foldl (fun (acc : List K × K) c => (acc.1 ++ [rnd (acc.2 + c)], rnd (acc.2 + c))) ([], 0) =
      (List.range l.length).foldl (fun (acc : List K × K) j => (acc.1 ++ [rnd (acc.2 + l.getD j 0)], rnd (acc.2 + l.getD j 0))) ([], 0) := by
  have h : l = (List.range l.length).map fun j => l.getD j 0 := by
    apply List.ext_getElem
    · simp
    · intro i h1 h2
      simp [List.getD, h1]
  conv_lhs => rw [h, List.foldl_map]

theorem sumF_double (rnd : K → K) (R : Rounding rnd) (t : Nat → K) (n : Nat) : rnd (sumF rnd t n) = sumF rnd t n := by
  cases n with
  | zero => exact R.zero
  | succ n => exact R.idem _

theorem sumF_mono (rnd : K → K) (R : Rounding rnd) (t : Nat → K) (n : Nat) (h : 0 ≤ t n) : sumF rnd t n ≤ sumF rnd t (n + 1) := by
  have := R.mono (sumF rnd t n) (sumF rnd t n + t n) (by linarith)
  rwa [sumF_double rnd R] at this

theorem sumF_le (rnd : K → K) (R : Rounding rnd) (t : Nat → K) (N : Nat) (h : ∀ j < N, 0 ≤ t j) (i j : Nat) (hij : i ≤ j) (hj : j ≤ N) : sumF rnd t i ≤ sumF rnd t j := by
  induction j with
  | zero => have : i = 0 := by omega
            subst this; exact le_refl _
  | succ j ih =>
    rcases hij.lt_or_eq with h1 | h1
    · exact (ih (by omega) (by omega)).trans (sumF_mono rnd R t j (h j (by omega)))
    · subst h1; exact le_refl _

theorem sumF_nonneg (rnd : K → K) (R : Rounding rnd) (t : Nat → K) (N : Nat) (h : ∀ j < N, 0 ≤ t j) (j : Nat) (hj : j ≤ N) : 0 ≤ sumF rnd t j :=
  sumF_le rnd R t N h 0 j (Nat.zero_le _) hj

/-- Where a number falls among running sums. -/
theorem sample_sumF (rnd : K → K) (R : Rounding rnd) (t : Nat → K) (N : Nat) (h : ∀ j < N, 0 ≤ t j) (v : K) :
    XS.sampleCdf ((List.range N).map fun j => sumF rnd t (j + 1)) v ≤ N ∧
    (∀ j < XS.sampleCdf ((List.range N).map fun j => sumF rnd t (j + 1)) v, sumF rnd t (j + 1) < v) ∧
    (∀ j, XS.sampleCdf ((List.range N).map fun j => sumF rnd t (j + 1)) v ≤ j → j < N → v ≤ sumF rnd t (j + 1)) := by
  have hget : ∀ j < N, (fun i => ((List.range N).map fun j => sumF rnd t (j + 1))[i]?.getD 0) j = sumF rnd t (j + 1) := by
    intro j hj
    simp [hj]
  have hm : ∀ i j, i ≤ j → j < N → (fun i => ((List.range N).map fun j => sumF rnd t (j + 1))[i]?.getD 0) i ≤
      (fun i => ((List.range N).map fun j => sumF rnd t (j + 1))[i]?.getD 0) j := by
    intro i j hij hj
    rw [hget i (by omega), hget j hj]
    exact sumF_le rnd R t N h _ _ (by omega) (by omega)
  have hs := Util.lowerBound_spec _ N v hm
  unfold XS.sampleCdf
  rw [List.length_map, List.length_range]
  obtain ⟨h1, h2, h3⟩ := hs
  refine ⟨h1, fun j hj => ?_, fun j hj hN => ?_⟩
  · exact (hget j (by omega)).symm.trans_lt (h2 j hj)
  · exact (h3 j hj hN).trans_eq (hget j hN)

/-- The position is one of the terms exactly up to the last sum. -/
theorem sample_lt (rnd : K → K) (R : Rounding rnd) (t : Nat → K) (N : Nat) (hN : 0 < N) (h : ∀ j < N, 0 ≤ t j) (v : K) :
    (XS.sampleCdf ((List.range N).map fun j => sumF rnd t (j + 1)) v < N ↔ v ≤ sumF rnd t N) ∧
      (¬ v ≤ sumF rnd t N → XS.sampleCdf ((List.range N).map fun j => sumF rnd t (j + 1)) v = N) := by
  obtain ⟨h1, h2, h3⟩ := sample_sumF rnd R t N h v
  obtain ⟨M, rfl⟩ : ∃ M, N = M + 1 := ⟨N - 1, by omega⟩
  constructor
  · constructor
    · intro hlt
      exact h3 M (by omega) (by omega)
    · intro hv
      by_contra hc
      exact absurd hv (not_le.mpr (h2 M (by omega)))
  · intro hv
    by_contra hc
    exact hv (h3 M (by omega) (by omega))

/-- A term that is selected by a positive number is not zero. -/
theorem sample_pos (rnd : K → K) (R : Rounding rnd) (t : Nat → K) (N : Nat) (h : ∀ j < N, 0 ≤ t j) (v : K) (hv : 0 < v)
    (hlt : XS.sampleCdf ((List.range N).map fun j => sumF rnd t (j + 1)) v < N) :
    0 < t (XS.sampleCdf ((List.range N).map fun j => sumF rnd t (j + 1)) v) := by
  obtain ⟨h1, h2, h3⟩ := sample_sumF rnd R t N h v
  set k := XS.sampleCdf ((List.range N).map fun j => sumF rnd t (j + 1)) v
  refine lt_of_le_of_ne (h k hlt) fun h0 => ?_
  have hk := h3 k (le_refl _) hlt
  rw [sumF, ← h0, add_zero, sumF_double rnd R] at hk
  rcases Nat.eq_zero_or_pos k with hk0 | hk0
  · rw [hk0] at hk
    exact absurd hk (not_le.mpr hv)
  · have := h2 (k - 1) (by omega)
    rw [show k - 1 + 1 = k by omega] at this
    exact absurd hk (not_le.mpr this)

/-! ### Errors -/

/-- Relative error of a rounding at `x`. -/
def Near (rnd : K → K) (u x : K) : Prop := |rnd x - x| ≤ u * |x|

theorem Near.bounds {rnd : K → K} {u x : K} (h : Near rnd u x) (hx : 0 ≤ x) : (1 - u) * x ≤ rnd x ∧ rnd x ≤ (1 + u) * x := by
  unfold Near at h
  rw [abs_of_nonneg hx, abs_le] at h
  exact ⟨by linarith [h.1], by linarith [h.2]⟩

/-- Rounding with relative error `u` at numbers from `m` on. -/
structure Accurate (rnd : K → K) (u m : K) : Prop where
  u0 : 0 ≤ u
  u1 : u ≤ 1
  m0 : 0 < m
  near : ∀ x, m ≤ |x| → Near rnd u x

theorem Accurate.add {rnd : K → K} {u m : K} (A : Accurate rnd u m) (R : Rounding rnd) (s t : K) (hs : rnd s = s) (hs0 : 0 ≤ s) (ht : t = 0 ∨ m ≤ t) : Near rnd u (s + t) := by
  rcases ht with rfl | ht
  · rw [add_zero, Near, hs, sub_self, abs_zero]
    exact mul_nonneg A.u0 (abs_nonneg _)
  · exact A.near _ (by rw [abs_of_nonneg (by linarith [A.m0])]; linarith)

theorem sumF_bounds (rnd : K → K) (R : Rounding rnd) (u m : K) (A : Accurate rnd u m) (t : Nat → K) (n : Nat) (h : ∀ j < n, t j = 0 ∨ m ≤ t j) :
    (1 - u) ^ n * ∑ j ∈ Finset.range n, t j ≤ sumF rnd t n ∧ sumF rnd t n ≤ (1 + u) ^ n * ∑ j ∈ Finset.range n, t j := by
  have h0 : ∀ j < n, 0 ≤ t j := fun j hj => (h j hj).elim (fun e => e.ge) fun e => A.m0.le.trans e
  induction n with
  | zero => simp [sumF]
  | succ n ih =>
    obtain ⟨i1, i2⟩ := ih (fun j hj => h j (by omega)) (fun j hj => h0 j (by omega))
    have hs0 := sumF_nonneg rnd R t n (fun j hj => h0 j (by omega)) n (le_refl _)
    have ht0 := h0 n (by omega)
    obtain ⟨b1, b2⟩ := (A.add R _ _ (sumF_double rnd R t n) hs0 (h n (by omega))).bounds (by linarith)
    have q1 : 0 ≤ 1 - u := by linarith [A.u1]
    have q2 : 0 ≤ u := A.u0
    have p1 : (1 - u) ^ n ≤ 1 := pow_le_one₀ q1 (by linarith)
    have p2 : 1 ≤ (1 + u) ^ n := one_le_pow₀ (by linarith)
    rw [Finset.sum_range_succ]
    constructor
    · refine le_trans ?_ b1
      rw [pow_succ', mul_assoc]
      refine mul_le_mul_of_nonneg_left ?_ q1
      have : (1 - u) ^ n * t n ≤ 1 * t n := mul_le_mul_of_nonneg_right p1 ht0
      linarith
    · refine b2.trans ?_
      rw [pow_succ', mul_assoc]
      refine mul_le_mul_of_nonneg_left ?_ (by linarith)
      have : 1 * t n ≤ (1 + u) ^ n * t n := mul_le_mul_of_nonneg_right p2 ht0
      linarith

/-! ### Scattering -/

/-- The sum that the code makes of a column: rows that are passed over have a zero there. -/
theorem outF_eq (rnd : K → K) (R : Rounding rnd) (ng : Nat) (d : Nat → Nat → K) (hn : ∀ i j, i < ng → j < ng → 0 ≤ d i j) (g : Nat) (hg : g < ng) (n : Nat) (h : n ≤ ng) :
    outF rnd ng d g n = sumF rnd (fun j => d j g) n := by
  induction n with
  | zero => rfl
  | succ n ih =>
    rw [outF, ih (by omega), sumF]
    split
    · rfl
    · rename_i hb
      have hz : d n g = 0 := by
        have := Scatter.band ng d hn n g (by omega) hg
        rw [if_neg hb] at this
        exact this.symm
      rw [hz, add_zero, sumF_double rnd R]

/-- Shares of the groups. -/
def share (rnd : K → K) (ng : Nat) (d : Nat → Nat → K) (g j : Nat) : K := rnd (d j g * rnd (1 / sumF rnd (fun j => d j g) ng))

theorem outCdfF_eq (rnd : K → K) (R : Rounding rnd) (ng : Nat) (d : Nat → Nat → K) (hn : ∀ i j, i < ng → j < ng → 0 ≤ d i j) (g : Nat) (hg : g < ng) :
    outCdfF rnd ng d g = (List.range ng).map fun j => sumF rnd (share rnd ng d g) (j + 1) := by
  have e : outCdfF rnd ng d g = ((List.range ng).foldl (fun (acc : List K × K) j =>
      (acc.1 ++ [rnd (acc.2 + share rnd ng d g j)], rnd (acc.2 + share rnd ng d g j))) ([], 0)).1 := by
    unfold outCdfF
    dsimp only
    congr 1
    apply List.foldl_ext
    intro acc j hj
    rw [List.mem_range] at hj
    rw [Scatter.xssc_eq ng d hn g j hj hg, outF_eq rnd R ng d hn g hg ng (le_refl _)]
    rfl
  rw [e, fold_sumF]

theorem share_nonneg (rnd : K → K) (R : Rounding rnd) (ng : Nat) (d : Nat → Nat → K) (hn : ∀ i j, i < ng → j < ng → 0 ≤ d i j) (g : Nat) (hg : g < ng) (j : Nat) (hj : j < ng) :
    0 ≤ share rnd ng d g j := by
  have h0 : ∀ x, 0 ≤ x → 0 ≤ rnd x := fun x hx => R.zero.symm.le.trans (R.mono 0 x hx)
  exact h0 _ (mul_nonneg (hn j g hj hg) (h0 _ (one_div_nonneg.mpr (sumF_nonneg rnd R _ ng (fun j hj => hn j g hj hg) ng (le_refl _)))))

/-- C128: whatever the rounding, the distribution of scattering does not decrease. -/
theorem C128_monotone (rnd : K → K) (R : Rounding rnd) (ng : Nat) (d : Nat → Nat → K) (hn : ∀ i j, i < ng → j < ng → 0 ≤ d i j) (g : Nat) (hg : g < ng) :
    (outCdfF rnd ng d g).length = ng ∧ (outCdfF rnd ng d g).Pairwise (· ≤ ·) ∧ ∀ c ∈ outCdfF rnd ng d g, 0 ≤ c ∧ rnd c = c := by
  rw [outCdfF_eq rnd R ng d hn g hg]
  have hs := share_nonneg rnd R ng d hn g hg
  refine ⟨by simp, ?_, ?_⟩
  · rw [List.pairwise_map]
    refine List.Pairwise.imp_of_mem (fun {a b} ha hb hab => ?_) List.pairwise_lt_range
    exact sumF_le rnd R _ ng hs _ _ (by omega) (by rw [List.mem_range] at hb; omega)
  · intro c hc
    obtain ⟨j, hj, rfl⟩ := List.mem_map.mp hc
    rw [List.mem_range] at hj
    exact ⟨sumF_nonneg rnd R _ ng hs _ (by omega), sumF_double rnd R _ _⟩

/-- C128: a number up to the last entry of the distribution gives a group, into which there is scattering if the number is positive; a number beyond gives the number of
groups. -/
theorem C128_group (rnd : K → K) (R : Rounding rnd) (ng : Nat) (d : Nat → Nat → K) (hn : ∀ i j, i < ng → j < ng → 0 ≤ d i j) (g : Nat) (hg : g < ng) (v : K) :
    ∃ last, (outCdfF rnd ng d g).getLast? = some last ∧
      (v ≤ last → XS.sampleCdf (outCdfF rnd ng d g) v < ng ∧ (0 < v → 0 < d (XS.sampleCdf (outCdfF rnd ng d g) v) g)) ∧
      (last < v → XS.sampleCdf (outCdfF rnd ng d g) v = ng) := by
  rw [outCdfF_eq rnd R ng d hn g hg]
  have hs := share_nonneg rnd R ng d hn g hg
  obtain ⟨h1, h2⟩ := sample_lt rnd R (share rnd ng d g) ng (by omega) hs v
  refine ⟨sumF rnd (share rnd ng d g) ng, ?_, fun hv => ⟨h1.mpr hv, fun hv0 => ?_⟩, fun hv => h2 (not_le.mpr hv)⟩
  · obtain ⟨m, rfl⟩ : ∃ m, ng = m + 1 := ⟨ng - 1, by omega⟩
    rw [List.range_succ, List.map_append]
    simp
  · have hlt := h1.mpr hv
    have hp := sample_pos rnd R (share rnd ng d g) ng hs v hv0 hlt
    refine lt_of_le_of_ne (hn _ g hlt hg) fun h0 => ?_
    rw [share, ← h0, zero_mul, R.zero] at hp
    exact lt_irrefl _ hp

/-- C128: how far the last entry is from one, with relative errors of at most `u`: results are `0` or at least `m`. -/
theorem C128_last (rnd : K → K) (R : Rounding rnd) (u m : K) (A : Accurate rnd u m) (ng : Nat) (d : Nat → Nat → K) (hn : ∀ i j, i < ng → j < ng → 0 ≤ d i j) (g : Nat)
    (hg : g < ng) (hpos : ∃ j < ng, d j g ≠ 0) (hd : ∀ j < ng, d j g = 0 ∨ m ≤ d j g) (hsc : m ≤ 1 / sumF rnd (fun j => d j g) ng)
    (hsh : ∀ j < ng, d j g = 0 ∨ (m ≤ d j g * rnd (1 / sumF rnd (fun j => d j g) ng) ∧ m ≤ share rnd ng d g j)) :
    ∃ last, (outCdfF rnd ng d g).getLast? = some last ∧ 1 - (2 * ng + 2 : ℕ) * u ≤ last := by
  have hs := share_nonneg rnd R ng d hn g hg
  refine ⟨sumF rnd (share rnd ng d g) ng, ?_, ?_⟩
  · rw [outCdfF_eq rnd R ng d hn g hg]
    obtain ⟨m, rfl⟩ : ∃ m, ng = m + 1 := ⟨ng - 1, by omega⟩
    rw [List.range_succ, List.map_append]
    simp
  set o := sumF rnd (fun j => d j g) ng with ho
  set S := ∑ j ∈ Finset.range ng, d j g with hS
  have hSpos : 0 < S := by
    obtain ⟨j, hj, hne⟩ := hpos
    exact Finset.sum_pos' (fun i hi => hn i g (Finset.mem_range.mp hi) hg) ⟨j, Finset.mem_range.mpr hj, lt_of_le_of_ne (hn j g hj hg) (Ne.symm hne)⟩
  have q1 : 0 ≤ 1 - u := by linarith [A.u1]
  obtain ⟨-, hou⟩ := sumF_bounds rnd R u m A (fun j => d j g) ng hd
  have ho0 : 0 < o := by
    have : 0 < 1 / o := A.m0.trans_le hsc
    exact one_div_pos.mp this
  obtain ⟨hsl, -⟩ := (A.near (1 / o) (by rw [abs_of_pos (one_div_pos.mpr ho0)]; exact hsc)).bounds (one_div_pos.mpr ho0).le
  have hterm : ∀ j < ng, (1 - u) * (1 - u) * (d j g / o) ≤ share rnd ng d g j := by
    intro j hj
    rcases hsh j hj with h0 | ⟨h0, -⟩
    · rw [h0, zero_div, mul_zero]; exact hs j hj
    · have hnn : 0 ≤ d j g * rnd (1 / o) := A.m0.le.trans h0
      obtain ⟨b, -⟩ := (A.near _ (by rw [abs_of_nonneg hnn]; exact h0)).bounds hnn
      refine le_trans ?_ b
      rw [mul_assoc]
      refine mul_le_mul_of_nonneg_left ?_ q1
      calc (1 - u) * (d j g / o) = d j g * ((1 - u) * (1 / o)) := by ring
        _ ≤ d j g * rnd (1 / o) := mul_le_mul_of_nonneg_left hsl (hn j g hj hg)
  obtain ⟨hl, -⟩ := sumF_bounds rnd R u m A (share rnd ng d g) ng (fun j hj => (hsh j hj).imp (fun e => by rw [share, e, zero_mul, R.zero]) fun e => e.2)
  refine le_trans ?_ hl
  have hsum : (1 - u) * (1 - u) * (S / o) ≤ ∑ j ∈ Finset.range ng, share rnd ng d g j := by
    rw [hS, Finset.sum_div, Finset.mul_sum]
    exact Finset.sum_le_sum fun j hj => hterm j (Finset.mem_range.mp hj)
  have hSo : (1 - u) ^ ng ≤ S / o := by
    rw [le_div_iff₀ ho0]
    have e : (1 - u) ^ ng * (1 + u) ^ ng ≤ 1 := by
      rw [← mul_pow]
      exact pow_le_one₀ (mul_nonneg q1 (by linarith [A.u0])) (by nlinarith [A.u0])
    calc (1 - u) ^ ng * o ≤ (1 - u) ^ ng * ((1 + u) ^ ng * S) := mul_le_mul_of_nonneg_left hou (pow_nonneg q1 _)
      _ = (1 - u) ^ ng * (1 + u) ^ ng * S := by ring
      _ ≤ 1 * S := mul_le_mul_of_nonneg_right e hSpos.le
      _ = S := one_mul _
  have hb : 1 - (2 * ng + 2 : ℕ) * u ≤ (1 - u) ^ (2 * ng + 2) := by
    have := one_add_mul_le_pow (a := -u) (by linarith [A.u1]) (2 * ng + 2)
    rw [← sub_eq_add_neg] at this
    linarith
  refine hb.trans ?_
  calc (1 - u) ^ (2 * ng + 2) = (1 - u) ^ ng * ((1 - u) * (1 - u) * (1 - u) ^ ng) := by ring
    _ ≤ (1 - u) ^ ng * ((1 - u) * (1 - u) * (S / o)) := by
        refine mul_le_mul_of_nonneg_left (mul_le_mul_of_nonneg_left hSo (mul_nonneg q1 q1)) (pow_nonneg q1 _)
    _ ≤ _ := mul_le_mul_of_nonneg_left hsum (pow_nonneg q1 _)

/-! ### Reactions -/

/-- C128: whatever the rounding and the cross sections, a number up to one gives one of the three reactions; with cross sections that are not negative a positive number
does not give scattering or fission where that cross section is zero. -/
theorem C128_reaction (rnd : K → K) (tr out f v : K) (ht : 0 < tr) (hv : v ≤ 1) :
    ∃ cdf, reactionCdfF rnd tr out f = some cdf ∧ XS.sampleCdf cdf v < 3 ∧
      (Rounding rnd → 0 ≤ out → 0 ≤ f → 0 < v → (out = 0 → XS.sampleCdf cdf v ≠ 0) ∧ (f = 0 → XS.sampleCdf cdf v ≠ 1)) := by
  refine ⟨_, if_neg ht.ne', ?_⟩
  generalize hc0 : rnd (out * rnd (1 / tr)) = c0
  generalize hc1 : rnd (c0 + rnd (f * rnd (1 / tr))) = c1
  have hs : XS.sampleCdf [c0, c1, 1] v = if c1 < v then 2 else if c0 < v then 1 else 0 := by
    unfold XS.sampleCdf Util.lowerBound
    simp only [List.length_cons, List.length_nil]
    rw [Util.lowerBoundLoop]
    simp only [Nat.reduceAdd, Nat.reduceDiv, Nat.reduceSub, OfNat.ofNat_ne_zero, dite_false]
    by_cases h1 : c1 < v
    · simp only [List.getElem?_cons_succ, List.getElem?_cons_zero, Option.getD_some, h1, decide_true, if_true]
      rw [Util.lowerBoundLoop]
      simp only [Nat.reduceDiv, Nat.reduceAdd, one_ne_zero, dite_false, List.getElem?_cons_succ, List.getElem?_cons_zero, Option.getD_some, decide_eq_true_eq, not_lt.mpr hv, if_false]
      rw [Util.lowerBoundLoop]
      simp
    · simp only [List.getElem?_cons_succ, List.getElem?_cons_zero, Option.getD_some, h1, decide_false, if_false, Bool.false_eq_true]
      rw [Util.lowerBoundLoop]
      simp only [Nat.reduceDiv, Nat.reduceAdd, one_ne_zero, dite_false, List.getElem?_cons_zero, Option.getD_some, decide_eq_true_eq]
      split
      · rw [Util.lowerBoundLoop]; simp
      · rw [Util.lowerBoundLoop]; simp
  rw [hs]
  refine ⟨by split <;> [omega; (split <;> omega)], fun R h1 h2 hv0 => ⟨fun ho => ?_, fun hf => ?_⟩⟩
  · rw [ho, zero_mul, R.zero] at hc0
    rw [← hc0, if_pos hv0]
    split <;> omega
  · rw [hf, zero_mul, R.zero, add_zero, ← hc0, R.idem, hc0] at hc1
    rw [← hc1]
    by_cases h : c0 < v
    · rw [if_pos h]; omega
    · rw [if_neg h, if_neg h]; omega

/-! ### Spectrum -/

theorem chiCdfF_eq (rnd : K → K) (chi : List K) : chiCdfF rnd chi = (List.range chi.length).map fun j => sumF rnd (fun i => chi.getD i 0) (j + 1) := by
  rw [chiCdfF, fold_range, fold_sumF]

/-- C128: the same for the spectrum of fission. -/
theorem C128_chi (rnd : K → K) (R : Rounding rnd) (chi : List K) (hne : chi ≠ []) (h0 : ∀ c ∈ chi, 0 ≤ c) (v : K) :
    ∃ last, (chiCdfF rnd chi).getLast? = some last ∧
      (v ≤ last → XS.sampleCdf (chiCdfF rnd chi) v < chi.length ∧ (0 < v → 0 < chi.getD (XS.sampleCdf (chiCdfF rnd chi) v) 0)) ∧
      (last < v → XS.sampleCdf (chiCdfF rnd chi) v = chi.length) := by
  have hlen := List.length_pos_of_ne_nil hne
  have hs : ∀ j < chi.length, 0 ≤ (fun i => chi.getD i 0) j := by
    intro j hj
    simp only [List.getD, List.getElem?_eq_getElem hj, Option.getD_some]
    exact h0 _ (List.getElem_mem _)
  rw [chiCdfF_eq]
  obtain ⟨h1, h2⟩ := sample_lt rnd R _ chi.length hlen hs v
  refine ⟨sumF rnd (fun i => chi.getD i 0) chi.length, ?_, fun hv => ⟨h1.mpr hv, fun hv0 => ?_⟩, fun hv => h2 (not_le.mpr hv)⟩
  · generalize chi.length = n at hlen
    obtain ⟨m, rfl⟩ : ∃ m, n = m + 1 := ⟨n - 1, by omega⟩
    rw [List.range_succ, List.map_append]
    simp
  · exact sample_pos rnd R _ chi.length hs v hv0 (h1.mpr hv)

/-- Without rounding these are the distributions of C27 and C80. -/
theorem C128_exact (ng : Nat) (d : Nat → Nat → K) (g : Nat) (tr out f : K) (chi : List K) :
    outCdfF id ng d g = (Scatter.build ng d).outCdf g ∧ reactionCdfF id tr out f = XS.reactionCdf tr out f ∧ chiCdfF id chi = XS.chiCdf chi := by
  refine ⟨?_, rfl, rfl⟩
  have ho : ∀ n, outF id ng d g n = ∑ j ∈ Finset.range n, if (Scatter.bounds ng d j).1 ≤ g ∧ g ≤ (Scatter.bounds ng d j).2 then d j g else 0 := by
    intro n
    induction n with
    | zero => rfl
    | succ n ih =>
      rw [outF, Finset.sum_range_succ, ← ih]
      split <;> simp
  unfold outCdfF Scatter.Matrix.outCdf
  rw [ho, ← Scatter.out_eq, Scatter.build_ng]
  rfl

end

/-! ### Doubles -/

/-- Rounding to doubles has relative errors of at most `2^-53` from the least normal double on. -/
theorem accurate64 : Accurate rnd64 ((2 : ℚ) ^ (-53 : ℤ)) ((2 : ℚ) ^ (-1022 : ℤ)) where
  u0 := (two_zpow_pos _).le
  u1 := by norm_num
  m0 := two_zpow_pos _
  near := rnd64_error

/-- Number returned by `random()` in state `s` of the generator (C03). -/
def drawn64 (s : Rng.U64) : ℚ := (Rng.randomNum s : ℚ) / 2 ^ 63

/-- Full claim, false: with a table of doubles that has scattering from group `g`, every number of the generator gives a group. -/
def C128_claim : Prop :=
  ∀ (ng : Nat) (d : Nat → Nat → ℚ) (g : Nat), g < ng → (∀ i j, i < ng → j < ng → 0 ≤ d i j ∧ rnd64 (d i j) = d i j) → (∃ j < ng, 0 < d j g) →
    ∀ s, XS.sampleCdf (outCdfF rnd64 ng d g) (drawn64 s) < ng

/-- examples/c5g7.xsl: scattering table of the material UO2-3.3, by groups of arrival; the numbers as they are written there. -/
def uo2Table : List (List ℚ) :=
  [[127537 / 1000000, 0, 0, 0, 0, 0, 0],
   [21189 / 500000, 40557 / 125000, 0, 0, 0, 0, 0],
   [47187 / 5000000000, 8157 / 5000000, 22547 / 50000, 0, 0, 0, 0],
   [55163 / 10000000000000, 31427 / 10000000000000, 3349 / 1250000, 90513 / 200000, 501 / 4000000, 0, 0],
   [0, 0, 0, 3479 / 625000, 271401 / 1000000, 1621 / 1250000, 0],
   [0, 0, 0, 0, 2051 / 200000, 132901 / 500000, 42729 / 5000000],
   [0, 0, 0, 0, 10021 / 1000000000000, 16809 / 1000000, 6827 / 25000]]

/-- As read by the program. -/
def uo2 (j g : Nat) : ℚ := rnd64 ((uo2Table.getD j []).getD g 0)

/-- Its distribution from the fourth group on: the last entry is one unit in the last place below one. -/
theorem uo2_last : (outCdfF rnd64 7 uo2 3).getLast? = some (1 - 1 / 2 ^ 53) := by decide +kernel

theorem uo2_ok : ∀ i j, i < 7 → j < 7 → 0 ≤ uo2 i j ∧ rnd64 (uo2 i j) = uo2 i j := by
  have h : ∀ i < 7, ∀ j < 7, 0 ≤ uo2 i j ∧ rnd64 (uo2 i j) = uo2 i j := by decide +kernel
  exact fun i j hi hj => h i hi j hj

/-- C128: with the UO2 fuel of the example library there is, whatever the seed, a number of the generator that scatters a particle of the fourth group into group 7 of
the groups 0 to 6. -/
theorem C128_uo2 (seed : Rng.U64) : ∃ i < 2 ^ 63, XS.sampleCdf (outCdfF rnd64 7 uo2 3) (drawn64 (Rng.step^[i] seed)) = 7 := by
  obtain ⟨i, hi, h⟩ := Rng.C03_random_reaches_one seed
  refine ⟨i, hi, ?_⟩
  obtain ⟨last, hl, -, h2⟩ := C128_group rnd64 rounding64 7 uo2 (fun i j hi hj => (uo2_ok i j hi hj).1) 3 (by norm_num) (drawn64 (Rng.step^[i] seed))
  rw [uo2_last, Option.some.injEq] at hl
  refine h2 ?_
  rw [← hl, drawn64, h]
  norm_num

/-- C128: the claim is false. -/
theorem C128_claim_false : ¬ C128_claim := by
  intro h
  obtain ⟨i, -, hi⟩ := C128_uo2 1#64
  have := h 7 uo2 3 (by norm_num) uo2_ok ⟨3, by norm_num, by decide +kernel⟩ (Rng.step^[i] 1#64)
  omega

/-- Full claim, false: a material that only scatters and fissions never captures. -/
def C128_capture_claim : Prop :=
  ∀ tr out f v : ℚ, 0 < tr → 0 ≤ out → 0 ≤ f → out + f = tr → (∀ x ∈ [tr, out, f, v], rnd64 x = x) → 0 < v → v ≤ 1 →
    ∀ cdf, reactionCdfF rnd64 tr out f = some cdf → XS.sampleCdf cdf v ≠ XS.Reaction.CAPTURE.toNat

/-- C128: with cross sections 1 and 5 the number 1 gives a capture. -/
theorem C128_capture_claim_false : ¬ C128_capture_claim := by
  intro h
  refine h 6 1 5 1 (by norm_num) (by norm_num) (by norm_num) (by norm_num) (by decide +kernel) (by norm_num) (le_refl _) _ rfl ?_
  decide +kernel

/-- Full claim, false: with a spectrum of doubles normalised by `Material`, every number of the generator gives a group. -/
def C128_chi_claim : Prop :=
  ∀ chi : List ℚ, (∀ c ∈ chi, 0 ≤ c ∧ rnd64 c = c) → (∃ c ∈ chi, 0 < c) →
    ∀ s, XS.sampleCdf (chiCdfF rnd64 (normalizeF rnd64 chi)) (drawn64 s) < chi.length

/-- C128: the spectrum 0.33, 0.56, 0.11. -/
theorem C128_chi_claim_false : ¬ C128_chi_claim := by
  intro h
  obtain ⟨i, -, hi⟩ := Rng.C03_random_reaches_one 1#64
  have h1 := h [rnd64 (33 / 100), rnd64 (56 / 100), rnd64 (11 / 100)] (by decide +kernel) (by decide +kernel) (Rng.step^[i] 1#64)
  have e : drawn64 (Rng.step^[i] 1#64) = 1 := by rw [drawn64, hi]; norm_num
  rw [e] at h1
  revert h1
  decide +kernel

/-- The bound of C128 applies to the UO2 of the library. -/
example : ∃ last, (outCdfF rnd64 7 uo2 3).getLast? = some last ∧ 1 - (2 * 7 + 2 : ℕ) * (2 : ℚ) ^ (-53 : ℤ) ≤ last :=
  C128_last rnd64 rounding64 _ _ accurate64 7 uo2 (fun i j hi hj => (uo2_ok i j hi hj).1) 3 (by norm_num) ⟨3, by norm_num, by decide +kernel⟩
    (by decide +kernel) (by decide +kernel) (by decide +kernel)

/-- A draw that is not one gives a group there. -/
example : XS.sampleCdf (outCdfF rnd64 7 uo2 3) (1 / 2) = 3 ∧ XS.sampleCdf (outCdfF rnd64 7 uo2 3) (999 / 1000) = 4 := by decide +kernel

end Verif.Mc
