import Verif.XS.CdfModel
import Mathlib.Algebra.Order.Ring.Rat
import Mathlib.Algebra.Order.Field.Rat
import Mathlib.Algebra.Field.Rat
import Mathlib.Tactic.NormNum
import Mathlib.Tactic.Linarith
import Mathlib.Tactic.FieldSimp
import Mathlib.Tactic.Ring
import Mathlib.Tactic.IntervalCases
import Mathlib.Algebra.BigOperators.Group.List.Basic

/-!
# C27: sampling of reactions (and of the fission spectrum)
-/

set_option linter.unusedSectionVars false

namespace Verif.XS
open Verif.Util

variable {K : Type} [Field K] [LinearOrder K] [IsStrictOrderedRing K]

/-- Cross section of a reaction when capture is what remains of the total. -/
def share (tr out f : K) : Reaction → K
  | .SCATTER => out
  | .FISSION => f
  | .CAPTURE => tr - out - f

/-- Start of the interval of random numbers that selects a reaction: the reactions before it. -/
def lower (tr out f : K) : Reaction → K
  | .SCATTER => 0
  | .FISSION => out / tr
  | .CAPTURE => (out + f) / tr

/-- C27: the distribution is non-decreasing within [0, 1] and ends at one. -/
theorem C27_distribution (tr out f : K) (htr : 0 < tr) (ho : 0 ≤ out) (hf : 0 ≤ f) (hsum : out + f ≤ tr) :
    ∃ c0 c1, reactionCdf tr out f = some [c0, c1, 1] ∧ 0 ≤ c0 ∧ c0 ≤ c1 ∧ c1 ≤ 1 := by
  refine ⟨out * (1 / tr), out * (1 / tr) + f * (1 / tr), by simp [reactionCdf, htr.ne'], ?_, ?_, ?_⟩
  · exact mul_nonneg ho (by positivity)
  · have := mul_nonneg hf (show (0 : K) ≤ 1 / tr by positivity); linarith
  · rw [← add_mul, mul_one_div, div_le_one htr]; exact hsum

/-- C27: a positive random number up to one selects a reaction exactly when it lies in that reaction's interval,
whose width is the reaction's share of the total cross section. -/
theorem C27_selection (tr out f v : K) (htr : 0 < tr) (ho : 0 ≤ out) (hf : 0 ≤ f) (hsum : out + f ≤ tr) (hv : 0 < v)
    (hv1 : v ≤ 1) (r : Reaction) :
    ∃ cdf, reactionCdf tr out f = some cdf ∧
      (sampleCdf cdf v = r.toNat ↔ lower tr out f r < v ∧ v ≤ lower tr out f r + share tr out f r / tr) := by
  obtain ⟨c0, c1, hc, h0, h1, h2⟩ := C27_distribution tr out f htr ho hf hsum
  refine ⟨_, hc, ?_⟩
  have e0 : c0 = out / tr := by
    have := hc; simp only [reactionCdf, htr.ne', if_false, Option.some.injEq, List.cons.injEq] at this
    rw [← this.1]; ring
  have e1 : c1 = (out + f) / tr := by
    have := hc; simp only [reactionCdf, htr.ne', if_false, Option.some.injEq, List.cons.injEq] at this
    rw [← this.2.1]; ring
  have mono : ∀ i j, i ≤ j → j < 3 → (fun i => ([c0, c1, 1] : List K)[i]?.getD 0) i ≤ (fun i => ([c0, c1, 1] : List K)[i]?.getD 0) j := by
    intro i j hij hj
    interval_cases j <;> interval_cases i <;> simp <;> linarith
  unfold sampleCdf
  rw [show ([c0, c1, 1] : List K).length = 3 from rfl]
  have hlt : r.toNat < 3 := by cases r <;> decide
  rw [lowerBound_eq_iff _ 3 v mono r.toNat hlt]
  cases r
  · simp only [Reaction.toNat, lower, share]
    simp only [List.getElem?_cons_zero, Option.getD_some, not_lt_zero, false_implies, implies_true, true_and]
    rw [e0, zero_add]
    exact ⟨fun h => ⟨hv, h⟩, fun h => h.2⟩
  · simp only [Reaction.toNat, lower, share]
    have : out / tr + f / tr = c1 := by rw [e1]; ring
    rw [this, ← e0]
    constructor
    · rintro ⟨q1, q2⟩; exact ⟨by simpa using q1 0 (by decide), by simpa using q2⟩
    · rintro ⟨q1, q2⟩
      refine ⟨?_, by simpa using q2⟩
      intro i hi
      interval_cases i
      simpa using q1
  · simp only [Reaction.toNat, lower, share]
    have : (out + f) / tr + (tr - out - f) / tr = 1 := by field_simp; ring
    rw [this, ← e1]
    constructor
    · rintro ⟨q1, q2⟩; exact ⟨by simpa using q1 1 (by decide), hv1⟩
    · rintro ⟨q1, -⟩
      refine ⟨?_, by simpa using hv1⟩
      intro i hi
      interval_cases i
      · simp; linarith
      · simpa using q1

/-- C27: exactly one reaction is selected, i.e. the sampled position is always within the distribution. -/
theorem C27_in_range (tr out f v : K) (htr : 0 < tr) (ho : 0 ≤ out) (hf : 0 ≤ f) (hsum : out + f ≤ tr) (hv1 : v ≤ 1) :
    ∃ cdf, reactionCdf tr out f = some cdf ∧ sampleCdf cdf v < cdf.length := by
  obtain ⟨c0, c1, hc, h0, h1, h2⟩ := C27_distribution tr out f htr ho hf hsum
  refine ⟨_, hc, ?_⟩
  have mono : ∀ i j, i ≤ j → j < 3 → (fun i => ([c0, c1, 1] : List K)[i]?.getD 0) i ≤ (fun i => ([c0, c1, 1] : List K)[i]?.getD 0) j := by
    intro i j hij hj
    interval_cases j <;> interval_cases i <;> simp <;> linarith
  obtain ⟨q1, q2, q3⟩ := lowerBound_spec (fun i => ([c0, c1, 1] : List K)[i]?.getD 0) 3 v mono
  unfold sampleCdf
  rw [show ([c0, c1, 1] : List K).length = 3 from rfl]
  by_contra hc
  have := q2 2 (by omega)
  simp only [List.getElem?_cons_succ, List.getElem?_cons_zero, Option.getD_some] at this
  linarith

/-- C27: a reaction with zero cross section is never selected by a positive random number. -/
theorem C27_zero_not_selected (tr out f v : K) (htr : 0 < tr) (ho : 0 ≤ out) (hf : 0 ≤ f) (hsum : out + f ≤ tr)
    (hv : 0 < v) (hv1 : v ≤ 1) (r : Reaction) (hz : share tr out f r = 0) (cdf : List K)
    (hc : reactionCdf tr out f = some cdf) : sampleCdf cdf v ≠ r.toNat := by
  obtain ⟨cdf', hc', hiff⟩ := C27_selection tr out f v htr ho hf hsum hv hv1 r
  rw [hc, Option.some.injEq] at hc'
  subst hc'
  intro h
  obtain ⟨h1, h2⟩ := hiff.mp h
  rw [hz, zero_div, add_zero] at h2
  exact absurd h2 (not_le.mpr h1)

theorem chiLoop (chi : List K) (acc : List K) (s : K) :
    (chi.foldl (fun (acc : List K × K) c => (acc.1 ++ [acc.2 + c], acc.2 + c)) (acc, s)) =
      (acc ++ (List.range chi.length).map (fun i => s + (chi.take (i + 1)).sum), s + chi.sum) := by
  induction chi generalizing acc s with
  | nil => simp
  | cons c t ih =>
    rw [List.foldl_cons, ih]
    simp only [List.length_cons, List.range_succ_eq_map, List.map_cons, List.map_map, List.take_succ_cons,
      List.take_zero, List.sum_cons, List.sum_nil, List.append_assoc, List.cons_append, List.nil_append]
    simp [Function.comp_def, add_assoc]

/-- C27: the fission spectrum distribution: entry `g` is the probability of groups up to `g`. -/
theorem C27_chi (chi : List K) : chiCdf chi = (List.range chi.length).map (fun g => (chi.take (g + 1)).sum) := by
  unfold chiCdf
  rw [chiLoop]; simp

/-- C27: a spectrum that sums to one always yields an existing group with non-zero probability. -/
theorem C27_chi_sample (chi : List K) (hn : ∀ c ∈ chi, 0 ≤ c) (hs : chi.sum = 1) (v : K) (hv : 0 < v) (hv1 : v ≤ 1) :
    ∃ g, ∃ h : g < chi.length, sampleCdf (chiCdf chi) v = g ∧ 0 < chi[g] ∧
      (chi.take g).sum < v ∧ v ≤ (chi.take g).sum + chi[g] := by
  have hlen : (chiCdf chi).length = chi.length := by rw [C27_chi]; simp
  have hne : chi ≠ [] := by rintro rfl; simp at hs
  have hpos : 0 < chi.length := List.length_pos_of_ne_nil hne
  have hget : ∀ i, i < chi.length → (chiCdf chi)[i]?.getD 0 = (chi.take (i + 1)).sum := by
    intro i hi; rw [C27_chi]; simp [hi]
  have step : ∀ i, (h : i < chi.length) → (chi.take (i + 1)).sum = (chi.take i).sum + chi[i] := by
    intro i h; rw [List.take_succ_eq_append_getElem h, List.sum_append]; simp
  have hmono : ∀ i j, i ≤ j → j ≤ chi.length → (chi.take i).sum ≤ (chi.take j).sum := by
    intro i j hij hj
    induction j with
    | zero => have : i = 0 := by omega
              subst this; exact le_refl _
    | succ j ih =>
      by_cases h : i = j + 1
      · subst h; exact le_refl _
      · have := ih (by omega) (by omega)
        rw [step j (by omega)]
        have := hn chi[j] (List.getElem_mem _)
        linarith
  have mono : ∀ i j, i ≤ j → j < (chiCdf chi).length → (fun i => (chiCdf chi)[i]?.getD 0) i ≤ (fun i => (chiCdf chi)[i]?.getD 0) j := by
    intro i j hij hj
    rw [hlen] at hj
    simp only
    rw [hget i (by omega), hget j hj]
    exact hmono _ _ (by omega) (by omega)
  obtain ⟨q1, q2, q3⟩ := lowerBound_spec (fun i => (chiCdf chi)[i]?.getD 0) (chiCdf chi).length v mono
  have hlt : sampleCdf (chiCdf chi) v < chi.length := by
    unfold sampleCdf
    by_contra hc
    have := q2 (chi.length - 1) (by omega)
    rw [hget _ (by omega), show chi.length - 1 + 1 = chi.length by omega, List.take_length, hs] at this
    linarith
  refine ⟨_, hlt, rfl, ?_⟩
  have hup : v ≤ (chi.take (sampleCdf (chiCdf chi) v)).sum + chi[sampleCdf (chiCdf chi) v] := by
    rw [← step _ hlt, ← hget _ hlt]
    exact q3 _ (le_refl _) (by rw [hlen]; exact hlt)
  have hlo : (chi.take (sampleCdf (chiCdf chi) v)).sum < v := by
    rcases Nat.eq_zero_or_pos (sampleCdf (chiCdf chi) v) with h0 | h0
    · rw [h0]; simpa using hv
    · have := q2 (sampleCdf (chiCdf chi) v - 1) (by unfold sampleCdf at *; omega)
      rw [hget _ (by omega), show sampleCdf (chiCdf chi) v - 1 + 1 = sampleCdf (chiCdf chi) v by omega] at this
      exact this
  exact ⟨by linarith, hlo, hup⟩

/-- A zero random number always selects scattering, whatever its cross section (hence the restriction to positive
numbers above). -/
theorem C27_zero_draw (tr out f : K) (htr : 0 < tr) (ho : 0 ≤ out) (hf : 0 ≤ f) (hsum : out + f ≤ tr) (cdf : List K)
    (hc : reactionCdf tr out f = some cdf) : sampleCdf cdf 0 = Reaction.SCATTER.toNat := by
  obtain ⟨c0, c1, hc', h0, h1, h2⟩ := C27_distribution tr out f htr ho hf hsum
  rw [hc, Option.some.injEq] at hc'
  subst hc'
  have mono : ∀ i j, i ≤ j → j < 3 → (fun i => ([c0, c1, 1] : List K)[i]?.getD 0) i ≤ (fun i => ([c0, c1, 1] : List K)[i]?.getD 0) j := by
    intro i j hij hj
    interval_cases j <;> interval_cases i <;> simp <;> linarith
  unfold sampleCdf
  rw [show ([c0, c1, 1] : List K).length = 3 from rfl, lowerBound_eq_iff _ 3 0 mono _ (by decide)]
  simpa [Reaction.toNat] using h0

example : ∃ cdf, reactionCdf (2 : ℚ) 1 (1/2) = some cdf ∧ sampleCdf cdf (3/5) = 1 := by
  obtain ⟨cdf, h1, h2⟩ := C27_selection (2 : ℚ) 1 (1/2) (3/5) (by norm_num) (by norm_num) (by norm_num) (by norm_num)
    (by norm_num) (by norm_num) .FISSION
  exact ⟨cdf, h1, h2.mpr (by norm_num [lower, share])⟩

example : sampleCdf (chiCdf [(1/4 : ℚ), 0, 3/4]) (1/2) = 2 := by decide +kernel

end Verif.XS
