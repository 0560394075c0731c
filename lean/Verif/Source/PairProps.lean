import Verif.Source.PairModel
import Verif.Source.Props
import Verif.Normalize.Props

/-!
# C107: the source of the 2D3D sweeper and the error of the fission source
-/

set_option linter.unusedSectionVars false

namespace Verif.Source

open Verif.XS Verif.Scatter

variable {K : Type} [Field K] [LinearOrder K] [IsStrictOrderedRing K]

/-- The fission source of a region: the nu-fission rate divided by the eigenvalue. -/
def rate (ng : Nat) (m : Mat K) (flux : Nat → Nat → K) (k : K) (i : Nat) : K := (∑ g ∈ Finset.range ng, m.nf g * flux i g) / k

/-- The source of the data: fission and scattering from other groups. -/
def own (ng : Nat) (m : Mat K) (flux : Nat → Nat → K) (k : K) (ig i : Nat) : K :=
  m.ch ig * rate ng m flux k i + ∑ g ∈ Finset.range ng, if g ≠ ig then m.sc ig g * flux i g else 0

/-- The regions of the cross-section mesh are a partition of those of the sweeper, and scattering is not negative. -/
structure Side.Ok (ng : Nat) (s : Side K) : Prop where
  part : Partition s.rs
  range : ∀ x ∈ s.rs, ∀ i ∈ x.regs, i < s.nReg
  nonneg : ∀ x ∈ s.rs, NonNeg ng x.mat

/-- C107: without an external source, the sources of Sn and of MoC are each that of their own cross sections and flux. -/
theorem C107_source (ng : Nat) (sn moc : Side K) (hs : sn.Ok ng) (hm : moc.Ok ng) (k : K) (ig : Nat) (hig : ig < ng) :
    ∃ s m, pairAssemble ng sn moc none (pairCalc ng sn moc k) ig = some (s, m) ∧
      (∀ x ∈ sn.rs, ∀ i ∈ x.regs, s i = own ng x.mat sn.flux k ig i) ∧ (∀ x ∈ moc.rs, ∀ i ∈ x.regs, m i = own ng x.mat moc.flux k ig i) := by
  obtain ⟨m, hm1, hm2⟩ := C28_assemble_partial ng moc.nReg moc.rs (fun i => pairCalc ng sn moc k (sn.nReg + i)) moc.flux ig hm.part hm.nonneg hig
  obtain ⟨s, hs1, hs2⟩ := C28_assemble_partial ng sn.nReg sn.rs (fun i => pairCalc ng sn moc k i) sn.flux ig hs.part hs.nonneg hig
  refine ⟨s, m, ?_, ?_, ?_⟩
  · simp [pairAssemble, hm1, hs1]
  · intro x hx i hi
    rw [hs2 x hx i hi]
    simp only [defined, own, rate, pairCalc, if_pos (hs.range x hx i hi)]
    rw [C47_fission_source ng sn.rs hs.part k sn.flux x hx i hi]
    ring
  · intro x hx i hi
    rw [hm2 x hx i hi]
    have e : pairCalc ng sn moc k (sn.nReg + i) = rate ng x.mat moc.flux k i := by
      simp only [pairCalc, if_neg (show ¬ sn.nReg + i < sn.nReg by omega), Nat.add_sub_cancel_left]
      exact C47_fission_source ng moc.rs hm.part k moc.flux x hx i hi
    simp only [defined, own, e]
    ring

/-- C107, a claim: an external source is a source of both sweepers.  It is positive everywhere here, there is neither flux nor fission, so that the source of every
region is positive. -/
def C107_external_claim (K : Type) [Field K] [LinearOrder K] : Prop := ∀ (ng : Nat) (sn moc : Side K) (e ex : Ext K), addExternal ng moc.nReg e = some ex → (∀ i g, 0 < e.data i g) →
  ∀ (ig : Nat) (s m : Nat → K), ig < ng → pairAssemble ng sn moc (some ex) (fun _ => 0) ig = some (s, m) →
  (∀ i, i < moc.nReg → 0 < m i) ∧ ∀ i, i < sn.nReg → 0 < s i

/-- C107: the Sn source is the same with an external source as without. -/
theorem C107_external (ng : Nat) (sn moc : Side K) (e : Ext K) (fs : Nat → K) (ig : Nat) (s m : Nat → K) (h : pairAssemble ng sn moc (some e) fs ig = some (s, m)) :
    ∃ m', pairAssemble ng sn moc none fs ig = some (s, m') := by
  have h2 : assemble ng sn.nReg sn.rs none (fun i => fs i) sn.flux ig = some s := by
    simp only [pairAssemble] at h
    cases hm : assemble ng moc.nReg moc.rs (some e) (fun i => fs (sn.nReg + i)) moc.flux ig with
    | none => rw [hm] at h; cases h
    | some m0 =>
      rw [hm] at h
      simp only [Option.bind_some] at h
      cases hh : assemble ng sn.nReg sn.rs none (fun i => fs i) sn.flux ig with
      | none => rw [hh] at h; cases h
      | some s0 => rw [hh] at h; simp at h; rw [h.1]
  refine ⟨inScatter ng moc.rs moc.flux ig (fission moc.rs (fun i => fs (sn.nReg + i)) ig (fun _ => 0)), ?_⟩
  simp only [pairAssemble, h2]
  rfl

/-- One region and one group of each: the external source is that of MoC only. -/
theorem C107_external_claim_false : ¬ C107_external_claim ℚ := by
  intro h
  have hs : (pairAssemble 1 (⟨1, [⟨emptyMat, [0]⟩], fun _ _ => 0⟩ : Side ℚ) ⟨1, [⟨emptyMat, [0]⟩], fun _ _ => 0⟩ (some ⟨1, 1, fun _ _ => 1⟩) (fun _ => 0) 0).isSome := by
    decide +kernel
  obtain ⟨⟨s, m⟩, hr⟩ := Option.isSome_iff_exists.mp hs
  have := (h 1 ⟨1, [⟨emptyMat, [0]⟩], fun _ _ => 0⟩ ⟨1, [⟨emptyMat, [0]⟩], fun _ _ => 0⟩ ⟨1, 1, fun _ _ => 1⟩ ⟨1, 1, fun _ _ => 1⟩ rfl (by intro _ _; norm_num) 0 s m (by decide) hr).2 0 (by decide)
  have hv : (pairAssemble 1 (⟨1, [⟨emptyMat, [0]⟩], fun _ _ => 0⟩ : Side ℚ) ⟨1, [⟨emptyMat, [0]⟩], fun _ _ => 0⟩ (some ⟨1, 1, fun _ _ => 1⟩) (fun _ => 0) 0).map (fun r => r.1 0) = some 0 := by
    decide +kernel
  rw [hr] at hv
  simp at hv
  rw [hv] at this
  exact lt_irrefl _ this

/-! ### The error of the fission source -/

theorem sumSq_eq (n : Nat) (a b : List K) (ha : n ≤ a.length) (hb : n ≤ b.length) :
    ∃ t, sumSq n a b = some t ∧ 0 ≤ t ∧ (t = 0 ↔ a.take n = b.take n) := by
  induction n with
  | zero => exact ⟨0, rfl, le_refl _, by simp⟩
  | succ n ih =>
    obtain ⟨t, h1, h2, h3⟩ := ih (by omega) (by omega)
    have ga : a[n]? = some a[n] := List.getElem?_eq_getElem (by omega)
    have gb : b[n]? = some b[n] := List.getElem?_eq_getElem (by omega)
    refine ⟨t + (a[n] - b[n]) * (a[n] - b[n]), ?_, add_nonneg h2 (mul_self_nonneg _), ?_⟩
    · unfold sumSq at h1 ⊢
      rw [List.range_succ, List.foldl_append, h1]
      simp only [List.foldl_cons, List.foldl_nil, ga, gb]
    · rw [add_eq_zero_iff_of_nonneg h2 (mul_self_nonneg _), h3, mul_self_eq_zero, sub_eq_zero, List.take_succ, List.take_succ, ga, gb]
      simp only [Option.toList_some]
      constructor
      · rintro ⟨e1, e2⟩; rw [e1, e2]
      · intro e
        have hl : (a.take n).length = (b.take n).length := by simp; omega
        have := List.append_inj e hl
        exact ⟨this.1, by simpa using this.2⟩

theorem sumSq_value (n : Nat) (a b : List K) (ha : n ≤ a.length) (hb : n ≤ b.length) :
    sumSq n a b = some (∑ i ∈ Finset.range n, (a.getD i 0 - b.getD i 0) ^ 2) := by
  induction n with
  | zero => rfl
  | succ n ih =>
    have h1 := ih (by omega) (by omega)
    have ga : a[n]? = some a[n] := List.getElem?_eq_getElem (by omega)
    have gb : b[n]? = some b[n] := List.getElem?_eq_getElem (by omega)
    unfold sumSq at h1 ⊢
    rw [List.range_succ, List.foldl_append, h1]
    simp only [List.foldl_cons, List.foldl_nil, ga, gb, Finset.sum_range_succ, List.getD_eq_getElem?_getD, Option.getD_some, sq]

/-- A distribution: values that are not negative and not all zero. -/
def Dist (v : List K) : Prop := (∀ x ∈ v, 0 ≤ x) ∧ ∃ x ∈ v, 0 < x

/-- The average over the elements that are positive. -/
def mean (v : List K) : K := v.sum / (v.filter (fun x => 0 < x)).length

theorem norm_eq (v : List K) (h : Dist v) : 0 < mean v ∧ ∃ f, Normalize.normalize v = some (v.map (fun x => x / mean v), f) := by
  have hs := Normalize.sum_pos_of v h.1 h.2
  have hc : (0 : K) < ((v.filter (fun x => 0 < x)).length : K) := by
    have := Normalize.countPos_pos v h.2
    unfold Normalize.countPos at this
    rw [List.countP_eq_length_filter] at this
    exact_mod_cast this
  refine ⟨div_pos hs hc, (Normalize.countPos v : K) / v.sum, ?_⟩
  unfold Normalize.normalize
  rw [if_neg hs.ne']
  simp only [Option.some.injEq, Prod.mk.injEq]
  refine ⟨?_, trivial⟩
  apply List.map_congr_left
  intro x _
  unfold mean Normalize.countPos
  rw [List.countP_eq_length_filter]
  rw [div_div_eq_mul_div, mul_div_assoc]

/-- C107: what the error compares: the first `nReg` elements, each relative to the average over the positive elements of the whole array. -/
theorem C107_error (nReg nFissile : Nat) (hf : 0 < nFissile) (fs prev : List K) (h1 : Dist fs) (h2 : Dist prev) (hl : fs.length = prev.length) (hn : nReg ≤ fs.length) :
    ∃ t, errorSq nReg nFissile fs prev = some t ∧ 0 ≤ t ∧
      (t = 0 ↔ ∀ i : Nat, i < nReg → ∀ x y, fs[i]? = some x → prev[i]? = some y → x / mean fs = y / mean prev) := by
  obtain ⟨-, f, e1⟩ := norm_eq fs h1
  obtain ⟨-, g, e2⟩ := norm_eq prev h2
  obtain ⟨t, ht1, ht2, ht3⟩ := sumSq_eq nReg (fs.map fun x => x / mean fs) (prev.map fun x => x / mean prev) (by simpa using hn) (by simp; omega)
  have hfK : (0 : K) < nFissile := by exact_mod_cast hf
  refine ⟨t / nFissile, by simp [errorSq, e1, e2, ht1], div_nonneg ht2 hfK.le, ?_⟩
  rw [div_eq_zero_iff, or_iff_left hfK.ne', ht3]
  constructor
  · intro e i hi x y hx hy
    have := congrArg (fun l : List K => l[i]?) e
    simp only [List.getElem?_take, if_pos hi, List.getElem?_map, hx, hy, Option.map_some, Option.some.injEq] at this
    exact this
  · intro h
    apply List.ext_getElem?
    intro i
    simp only [List.getElem?_take, List.getElem?_map]
    split_ifs with hi
    · have ga : fs[i]? = some fs[i] := List.getElem?_eq_getElem (by omega)
      have gb : prev[i]? = some prev[i] := List.getElem?_eq_getElem (by omega)
      rw [ga, gb]
      simp [h i hi _ _ ga gb]
    · rfl

theorem mean_scale (v : List K) (c : K) (hc : 0 < c) : mean (v.map (c * ·)) = c * mean v := by
  unfold mean
  have e1 : (v.map (c * ·)).sum = c * v.sum := by
    have := List.sum_map_mul_left v (fun x => x) c
    simpa using this
  have e2 : ((v.map (c * ·)).filter (fun x => 0 < x)).length = (v.filter (fun x => 0 < x)).length := by
    rw [← List.countP_eq_length_filter, ← List.countP_eq_length_filter, List.countP_map]
    apply List.countP_congr
    intro x _
    simp [hc]
  rw [e1, e2, mul_div_assoc]

/-- C107: the value: the mean square of the differences, with the number of fissile regions as the number of elements. -/
theorem C107_error_value (nReg nFissile : Nat) (fs prev : List K) (h1 : Dist fs) (h2 : Dist prev) (hl : fs.length = prev.length) (hn : nReg ≤ fs.length) :
    errorSq nReg nFissile fs prev = some ((∑ i ∈ Finset.range nReg, (fs.getD i 0 / mean fs - prev.getD i 0 / mean prev) ^ 2) / nFissile) := by
  obtain ⟨-, f, e1⟩ := norm_eq fs h1
  obtain ⟨-, g, e2⟩ := norm_eq prev h2
  have hv := sumSq_value nReg (fs.map fun x => x / mean fs) (prev.map fun x => x / mean prev) (by simpa using hn) (by simp; omega)
  simp only [errorSq, e1, e2, Option.bind_some, hv, Option.map_some]
  congr 2
  apply Finset.sum_congr rfl
  intro i hi
  have hi := Finset.mem_range.mp hi
  have ga : fs[i]? = some fs[i] := List.getElem?_eq_getElem (by omega)
  have gb : prev[i]? = some prev[i] := List.getElem?_eq_getElem (by omega)
  simp [List.getD_eq_getElem?_getD, ga, gb]

/-- C107: with a single sweeper the error is zero if and only if the fission source is a multiple of the previous one. -/
theorem C107_error_single (nFissile : Nat) (hf : 0 < nFissile) (fs prev : List K) (h1 : Dist fs) (h2 : Dist prev) (hl : fs.length = prev.length) :
    errorSq fs.length nFissile fs prev = some 0 ↔ ∃ c, 0 < c ∧ fs = prev.map (c * ·) := by
  obtain ⟨t, e1, -, e3⟩ := C107_error fs.length nFissile hf fs prev h1 h2 hl (le_refl _)
  have m1 := (norm_eq fs h1).1
  have m2 := (norm_eq prev h2).1
  rw [e1, Option.some.injEq, e3]
  constructor
  · intro h
    refine ⟨mean fs / mean prev, div_pos m1 m2, ?_⟩
    apply List.ext_getElem?
    intro i
    rw [List.getElem?_map]
    by_cases hi : i < fs.length
    · have ga : fs[i]? = some fs[i] := List.getElem?_eq_getElem (by omega)
      have gb : prev[i]? = some prev[i] := List.getElem?_eq_getElem (by omega)
      have := h i hi _ _ ga gb
      rw [ga, gb, Option.map_some, Option.some.injEq]
      rw [div_eq_div_iff m1.ne' m2.ne'] at this
      rw [div_mul_eq_mul_div, eq_div_iff m2.ne', this, mul_comm]
    · rw [List.getElem?_eq_none (by omega), List.getElem?_eq_none (by omega)]; rfl
  · rintro ⟨c, hc, rfl⟩ i hi x y hx hy
    rw [List.getElem?_map, hy] at hx
    simp only [Option.map_some, Option.some.injEq] at hx
    rw [mean_scale prev c hc, ← hx, mul_div_mul_left _ _ hc.ne']

/-- C107, a claim: so it is with the 2D3D sweeper, whose fission source has the values of Sn and of MoC. -/
def C107_error_claim (K : Type) [Field K] [LinearOrder K] : Prop := ∀ (exposeSn : Bool) (sn moc : Side K) (nFissile : Nat) (fs prev : List K), 0 < nFissile → Dist fs → Dist prev →
  fs.length = sn.nReg + moc.nReg → prev.length = sn.nReg + moc.nReg →
  errorSq (pairNReg exposeSn sn moc) nFissile fs prev = some 0 → ∃ c, 0 < c ∧ fs = prev.map (c * ·)

/-- Two regions of Sn and two of MoC: the sources of MoC are not compared at all. -/
theorem C107_error_claim_false : ¬ C107_error_claim ℚ := by
  intro h
  obtain ⟨c, -, hc⟩ := h false ⟨2, [], fun _ _ => 0⟩ ⟨2, [], fun _ _ => 0⟩ 2 [1, 1, 1, 3] [1, 1, 3, 1] (by decide) ⟨by decide +kernel, by decide +kernel⟩ ⟨by decide +kernel, by decide +kernel⟩ rfl rfl
    (by decide +kernel)
  simp at hc
  linarith [hc.1, hc.2.1]

/-- C107: which are compared: all regions of Sn, and of MoC those but the last as many as Sn has, or none if Sn is exposed. -/
theorem C107_error_pair (exposeSn : Bool) (sn moc : Side K) (nFissile : Nat) (hf : 0 < nFissile) (a b a' b' : List K) (h1 : Dist (a ++ b)) (h2 : Dist (a' ++ b'))
    (ha : a.length = sn.nReg) (hb : b.length = moc.nReg) (ha' : a'.length = sn.nReg) (hb' : b'.length = moc.nReg) (hle : sn.nReg ≤ moc.nReg) :
    errorSq (pairNReg exposeSn sn moc) nFissile (a ++ b) (a' ++ b') = some 0 ↔
      (∀ (i : Nat) x y, a[i]? = some x → a'[i]? = some y → x / mean (a ++ b) = y / mean (a' ++ b')) ∧
      (exposeSn = false → ∀ (i : Nat) x y, i < moc.nReg - sn.nReg → b[i]? = some x → b'[i]? = some y → x / mean (a ++ b) = y / mean (a' ++ b')) := by
  have hn : pairNReg exposeSn sn moc ≤ (a ++ b).length := by
    unfold pairNReg; split_ifs <;> simp <;> omega
  obtain ⟨t, e1, -, e3⟩ := C107_error (pairNReg exposeSn sn moc) nFissile hf (a ++ b) (a' ++ b') h1 h2 (by simp; omega) hn
  rw [e1, Option.some.injEq, e3]
  constructor
  · intro h
    constructor
    · intro i x y hx hy
      have hi := (List.getElem?_eq_some_iff.mp hx).1
      refine h i (by unfold pairNReg; split_ifs <;> omega) x y ?_ ?_
      · rw [List.getElem?_append_left hi, hx]
      · rw [List.getElem?_append_left (by omega), hy]
    · intro he i x y hi hx hy
      refine h (sn.nReg + i) (by rw [he]; simp only [pairNReg, Bool.false_eq_true, if_false]; omega) x y ?_ ?_
      · rw [List.getElem?_append_right (by omega), ← ha, Nat.add_sub_cancel_left, hx]
      · rw [List.getElem?_append_right (by omega), ← ha', Nat.add_sub_cancel_left, hy]
  · rintro ⟨h3, h4⟩ i hi x y hx hy
    by_cases hs : i < sn.nReg
    · rw [List.getElem?_append_left (by omega)] at hx hy
      exact h3 i x y hx hy
    · rw [List.getElem?_append_right (by omega)] at hx hy
      cases exposeSn with
      | true => simp only [pairNReg, if_true] at hi; exact absurd hi hs
      | false =>
        simp only [pairNReg, Bool.false_eq_true, if_false] at hi
        rw [ha] at hx
        rw [ha'] at hy
        exact h4 rfl (i - sn.nReg) x y (by omega) hx hy

/-- Non-vacuity: two regions of Sn, three of MoC. -/
example : Dist ([1, 1] ++ [0, 2, 3] : List ℚ) ∧ errorSq 3 5 ([1, 1] ++ [0, 2, 3] : List ℚ) [2, 2, 0, 4, 6] = some 0 ∧ errorSq 3 5 ([1, 1] ++ [0, 2, 3] : List ℚ) [1, 2, 0, 2, 3] ≠ some 0 :=
  ⟨⟨by decide +kernel, by decide +kernel⟩, by decide +kernel, by decide +kernel⟩

example : Side.Ok 2 (⟨2, [⟨emptyMat, [0, 1]⟩], fun _ _ => 1⟩ : Side ℚ) :=
  ⟨⟨by simp, by simp⟩, by simp, by intro x hx p q _ _; rw [List.mem_singleton] at hx; subst hx; simp [emptyMat]⟩

end Verif.Source
