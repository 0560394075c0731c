import Verif.Moc.KernelModel
import Mathlib.Algebra.Order.Field.Basic
import Mathlib.Algebra.BigOperators.Group.Finset.Basic
import Mathlib.Algebra.BigOperators.Ring.Finset
import Mathlib.Algebra.Order.BigOperators.Group.Finset
import Mathlib.Tactic.Ring
import Mathlib.Tactic.Linarith
import Mathlib.Tactic.FieldSimp
import Mathlib.Tactic.Positivity

/-! # Lemmas on the MoC kernel -/

set_option linter.unusedSectionVars false

namespace Verif.Moc

open Finset

section
variable {K : Type} [Field K]

theorem upd_same {α : Type} (a : Nat → α) (i : Nat) (v : α) : upd a i v i = v := by simp [upd]

theorem upd_ne {α : Type} (a : Nat → α) {i j : Nat} (v : α) (h : j ≠ i) : upd a i v j = a j := by simp [upd, h]

theorem upd_add (t : Nat → K) (i : Nat) (d : K) (j : Nat) : upd t i (t i + d) j = t j + if j = i then d else 0 := by
  by_cases h : j = i
  · subst h; simp [upd]
  · simp [upd, h]

/-- The walk adds to the scalar flux something that does not depend on it. -/
theorem walk_add (e : Seg K → K) (q : Nat → K) (wt : K) (first : Nat) (l : List (Seg K)) (psi : K) (t : Nat → K) :
    (walk e q wt first l psi t).1 = (walk e q wt first l psi (fun _ => 0)).1 ∧
    ∀ i, (walk e q wt first l psi t).2 i = t i + (walk e q wt first l psi (fun _ => 0)).2 i := by
  induction l generalizing psi t with
  | nil => simp [walk]
  | cons s ss ih =>
    simp only [walk]
    refine ⟨?_, fun i => ?_⟩
    · rw [(ih _ _).1]
      exact ((ih _ (upd (fun _ => 0) (s.reg + first) _)).1).symm
    · rw [(ih _ _).2 i, (ih _ (upd (fun _ => 0) (s.reg + first) _)).2 i, upd_add, ← add_assoc]
      congr 1
      by_cases h : i = s.reg + first
      · subst h; simp [upd]
      · simp [upd, h]

theorem sum_upd_add (N : Nat) (t : Nat → K) (i : Nat) (d : K) (h : i < N) :
    ∑ j ∈ range N, upd t i (t i + d) j = (∑ j ∈ range N, t j) + d := by
  simp only [upd_add, sum_add_distrib, sum_ite_eq', mem_range, h, if_true]

/-- What the regions gain along a walk is what the beam loses. -/
theorem walk_sum (e : Seg K → K) (q : Nat → K) (wt : K) (first N : Nat) (l : List (Seg K))
    (hl : ∀ s ∈ l, s.reg + first < N) (psi : K) (t : Nat → K) :
    ∑ i ∈ range N, (walk e q wt first l psi t).2 i =
      (∑ i ∈ range N, t i) + wt * (psi - (walk e q wt first l psi t).1) := by
  induction l generalizing psi t with
  | nil => simp [walk]
  | cons s ss ih =>
    simp only [walk]
    rw [ih (fun x hx => hl x (by simp [hx])), sum_upd_add N t _ _ (hl s (by simp))]
    ring

theorem ray_sum (e : Seg K → K) (q : Nat → K) (wt : K) (first N : Nat) (in1 in2 : Nat → K) (a : Acc K) (r : Ray K)
    (hl : ∀ s ∈ r.segs, s.reg + first < N) :
    ∑ i ∈ range N, (sweepRay e q wt first in1 in2 a r).tflux i = (∑ i ∈ range N, a.tflux i) +
      wt * (in1 r.bc0 - (sweepRay e q wt first in1 in2 a r).out1 r.bc1 +
        (in2 r.bc1 - (sweepRay e q wt first in1 in2 a r).out2 r.bc0)) := by
  simp only [sweepRay, upd_same]
  rw [walk_sum e q wt first N _ (by simpa using hl), walk_sum e q wt first N _ hl]
  ring

/-- The outgoing fluxes of a ray do not depend on what was accumulated before. -/
theorem ray_out (e : Seg K → K) (q : Nat → K) (wt : K) (first : Nat) (in1 in2 : Nat → K) (a : Acc K) (r : Ray K) :
    (sweepRay e q wt first in1 in2 a r).out1 = upd a.out1 r.bc1 (walk e q wt first r.segs (in1 r.bc0) (fun _ => 0)).1 ∧
    (sweepRay e q wt first in1 in2 a r).out2 =
      upd a.out2 r.bc0 (walk e q wt first r.segs.reverse (in2 r.bc1) (fun _ => 0)).1 := by
  simp only [sweepRay]
  exact ⟨by rw [(walk_add e q wt first r.segs _ a.tflux).1], by rw [(walk_add e q wt first r.segs.reverse _ _).1]⟩

/-- What a ray adds to the scalar flux. -/
def rayGain (e : Seg K → K) (q : Nat → K) (wt : K) (first : Nat) (in1 in2 : Nat → K) (r : Ray K) (i : Nat) : K :=
  (walk e q wt first r.segs (in1 r.bc0) (fun _ => 0)).2 i +
    (walk e q wt first r.segs.reverse (in2 r.bc1) (fun _ => 0)).2 i

theorem ray_tflux (e : Seg K → K) (q : Nat → K) (wt : K) (first : Nat) (in1 in2 : Nat → K) (a : Acc K) (r : Ray K)
    (i : Nat) : (sweepRay e q wt first in1 in2 a r).tflux i = a.tflux i + rayGain e q wt first in1 in2 r i := by
  simp only [sweepRay, rayGain]
  rw [(walk_add e q wt first r.segs.reverse _ _).2 i, (walk_add e q wt first r.segs _ a.tflux).2 i, add_assoc]

/-- The result of sweeping a list of rays: sums for the scalar flux, values by slot for the boundaries. -/
theorem rays_result (e : Seg K → K) (q : Nat → K) (wt : K) (first : Nat) (in1 in2 : Nat → K) (l : List (Ray K))
    (a : Acc K) :
    let r := l.foldl (sweepRay e q wt first in1 in2) a
    (∀ i, r.tflux i = a.tflux i + (l.map (fun r => rayGain e q wt first in1 in2 r i)).sum) ∧
    ((l.map Ray.bc1).Nodup → ∀ x ∈ l, r.out1 x.bc1 = (walk e q wt first x.segs (in1 x.bc0) (fun _ => 0)).1) ∧
    (∀ j, j ∉ l.map Ray.bc1 → r.out1 j = a.out1 j) ∧
    ((l.map Ray.bc0).Nodup → ∀ x ∈ l, r.out2 x.bc0 = (walk e q wt first x.segs.reverse (in2 x.bc1) (fun _ => 0)).1) ∧
    (∀ j, j ∉ l.map Ray.bc0 → r.out2 j = a.out2 j) := by
  induction l generalizing a with
  | nil => simp
  | cons y l ih =>
    obtain ⟨h1, h2, h3, h4, h5⟩ := ih (sweepRay e q wt first in1 in2 a y)
    simp only [List.foldl_cons, List.map_cons, List.sum_cons, List.nodup_cons, List.mem_cons]
    obtain ⟨o1, o2⟩ := ray_out e q wt first in1 in2 a y
    refine ⟨?_, ?_, ?_, ?_, ?_⟩
    · intro i
      rw [h1 i, ray_tflux, add_assoc]
    · rintro ⟨hn1, hn2⟩ x (rfl | hx)
      · rw [h3 _ hn1, o1, upd_same]
      · exact h2 hn2 x hx
    · intro j hj
      rw [not_or] at hj
      rw [h3 j hj.2, o1, upd_ne _ _ hj.1]
    · rintro ⟨hn1, hn2⟩ x (rfl | hx)
      · rw [h5 _ hn1, o2, upd_same]
      · exact h4 hn2 x hx
    · intro j hj
      rw [not_or] at hj
      rw [h5 j hj.2, o2, upd_ne _ _ hj.1]

end

section
variable {K : Type} [Field K] [LinearOrder K] [IsStrictOrderedRing K]

/-- Length tracked in region `i` along a list of segments. -/
def tracked (first i : Nat) (l : List (Seg K)) : K := (l.map (fun s => if s.reg + first = i then s.len else 0)).sum

theorem walk_nonneg (e : Seg K → K) (q : Nat → K) (wt x rst : K) (first i : Nat) (l : List (Seg K))
    (he0 : ∀ s ∈ l, 0 ≤ e s) (he1 : ∀ s ∈ l, e s ≤ 1) (hq : ∀ s ∈ l, 0 ≤ q (s.reg + first)) (hwt : 0 ≤ wt)
    (het : ∀ s ∈ l, s.reg + first = i → e s ≤ x * s.len * rst) (psi : K) (hpsi : 0 ≤ psi) (t : Nat → K) :
    0 ≤ (walk e q wt first l psi t).1 ∧
    t i - q i * x * (wt * rst * tracked first i l) ≤ (walk e q wt first l psi t).2 i := by
  induction l generalizing psi t with
  | nil => simp [walk, tracked, hpsi]
  | cons s ss ih =>
    have hs0 := he0 s (by simp)
    have hs1 := he1 s (by simp)
    have hqs := hq s (by simp)
    have hp' : 0 ≤ psi - (psi - q (s.reg + first)) * e s := by
      have h1 : 0 ≤ psi * (1 - e s) := mul_nonneg hpsi (by linarith)
      have h2 : 0 ≤ q (s.reg + first) * e s := mul_nonneg hqs hs0
      linarith
    obtain ⟨g1, g2⟩ := ih (fun y hy => he0 y (by simp [hy])) (fun y hy => he1 y (by simp [hy]))
      (fun y hy => hq y (by simp [hy])) (fun y hy => het y (by simp [hy])) _ hp'
      (upd t (s.reg + first) (t (s.reg + first) + (psi - q (s.reg + first)) * e s * wt))
    simp only [walk]
    refine ⟨g1, le_trans ?_ g2⟩
    rw [upd_add]
    simp only [tracked, List.map_cons, List.sum_cons]
    generalize (ss.map (fun s => if s.reg + first = i then s.len else 0)).sum = T
    by_cases hi : s.reg + first = i
    · subst hi
      simp only [if_true]
      have h1 : e s * (q (s.reg + first) * wt) ≤ x * s.len * rst * (q (s.reg + first) * wt) :=
        mul_le_mul_of_nonneg_right (het s (by simp) rfl) (mul_nonneg hqs hwt)
      have h2 : 0 ≤ psi * e s * wt := mul_nonneg (mul_nonneg hpsi hs0) hwt
      have e1 : (psi - q (s.reg + first)) * e s * wt = psi * e s * wt - e s * (q (s.reg + first) * wt) := by ring
      have e2 : q (s.reg + first) * x * (wt * rst * (s.len + T)) =
          x * s.len * rst * (q (s.reg + first) * wt) + q (s.reg + first) * x * (wt * rst * T) := by ring
      rw [e1, e2]
      linarith
    · rw [if_neg hi, if_neg (fun h => hi h.symm)]
      simp

theorem tracked_reverse (first i : Nat) (l : List (Seg K)) : tracked first i l.reverse = tracked first i l := by
  unfold tracked
  rw [List.map_reverse, List.sum_reverse]

end

end Verif.Moc
