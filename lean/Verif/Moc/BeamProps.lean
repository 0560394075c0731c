import Verif.Moc.KernelModel
import Mathlib.Analysis.SpecialFunctions.ExpDeriv
import Mathlib.Algebra.BigOperators.Group.Finset.Basic
import Mathlib.Algebra.BigOperators.Intervals
import Mathlib.Tactic.Ring
import Mathlib.Tactic.NormNum

/-!
# C31: along every ray the kernel solves the transport equation exactly

The balance of C31 would hold with any attenuation; here the attenuation is pinned down.
-/

namespace Verif.Moc
open Finset

/-- Region of segment `k`, counted over all planes. -/
def regOf (first : Nat) (l : List (Seg ℝ)) (k : Nat) : Nat := ((l[k]?.map (·.reg)).getD 0) + first

/-- `f` is the angular flux along segment `s`: it starts at `a`, ends at `b`, and along the way of length `s.len` in the
plane it changes at the rate `σ (q - f)` per unit of the true path, which is `rst` times longer. -/
def Solves (xstr q : Nat → ℝ) (rst : ℝ) (first : Nat) (s : Seg ℝ) (a b : ℝ) (f : ℝ → ℝ) : Prop :=
  f 0 = a ∧ f s.len = b ∧
  ∀ x, HasDerivAt f (rst * (xstr (s.reg + first) * (q (s.reg + first) - f x))) x

theorem segment_solves (xstr q : Nat → ℝ) (rst : ℝ) (first : Nat) (s : Seg ℝ) (a : ℝ) :
    Solves xstr q rst first s a (a - (a - q (s.reg + first)) * eTau Real.exp xstr rst first s)
      (fun x => q (s.reg + first) + (a - q (s.reg + first)) * Real.exp (-xstr (s.reg + first) * x * rst)) := by
  refine ⟨by simp, by simp only [eTau]; ring, fun x => ?_⟩
  have h0 : HasDerivAt (fun x : ℝ => -xstr (s.reg + first) * x * rst) (-xstr (s.reg + first) * rst) x := by
    have := ((hasDerivAt_id x).const_mul (-xstr (s.reg + first))).mul_const rst
    simpa using this
  have h1 := ((h0.exp).const_mul (a - q (s.reg + first))).const_add (q (s.reg + first))
  exact h1.congr_deriv (by ring)

/-- C31: on a walk along the segments of a ray there are angular fluxes `ψ 0, ..., ψ n` at the segment ends, beginning
with the incoming and ending with the outgoing flux, such that each segment takes `ψ k` to `ψ (k+1)` by the transport
equation with the cross section and source of its region; and every region gains the weight times the drops of the
segments that lie in it. -/
theorem C31_beam (xstr q : Nat → ℝ) (rst wt : ℝ) (first : Nat) (l : List (Seg ℝ)) (psi : ℝ) (t : Nat → ℝ) :
    ∃ ψ : Nat → ℝ, ψ 0 = psi ∧ ψ l.length = (walk (eTau Real.exp xstr rst first) q wt first l psi t).1 ∧
      (∀ k (h : k < l.length), ∃ f, Solves xstr q rst first l[k] (ψ k) (ψ (k + 1)) f) ∧
      ∀ i, (walk (eTau Real.exp xstr rst first) q wt first l psi t).2 i =
        t i + wt * ∑ k ∈ range l.length, if regOf first l k = i then ψ k - ψ (k + 1) else 0 := by
  induction l generalizing psi t with
  | nil => exact ⟨fun _ => psi, rfl, rfl, fun k h => absurd h (Nat.not_lt_zero k), fun i => by simp [walk]⟩
  | cons s l ih =>
    obtain ⟨ψ, h0, h1, h2, h3⟩ := ih (psi - (psi - q (s.reg + first)) * eTau Real.exp xstr rst first s)
      (upd t (s.reg + first) (t (s.reg + first) + (psi - q (s.reg + first)) * eTau Real.exp xstr rst first s * wt))
    refine ⟨fun k => match k with | 0 => psi | k + 1 => ψ k, rfl, h1, ?_, ?_⟩
    · intro k hk
      match k with
      | 0 => exact ⟨_, by simpa only [List.getElem_cons_zero, h0] using segment_solves xstr q rst first s psi⟩
      | k + 1 => simpa using h2 k (by simpa using hk)
    · intro i
      have e : (walk (eTau Real.exp xstr rst first) q wt first (s :: l) psi t).2 i =
        (walk (eTau Real.exp xstr rst first) q wt first l
          (psi - (psi - q (s.reg + first)) * eTau Real.exp xstr rst first s)
          (upd t (s.reg + first) (t (s.reg + first) + (psi - q (s.reg + first)) * eTau Real.exp xstr rst first s * wt))).2 i := rfl
      rw [e, h3 i, List.length_cons, sum_range_succ']
      have e2 : ∀ k, regOf first (s :: l) (k + 1) = regOf first l k := fun k => by simp [regOf]
      have e3 : regOf first (s :: l) 0 = s.reg + first := by simp [regOf]
      simp only [e2, e3, h0, upd]
      by_cases hi : s.reg + first = i
      · subst hi; simp; ring
      · rw [if_neg hi, if_neg (fun h => hi h.symm)]; simp

/-- C31: a ray starts both beams with the boundary values at its ends, runs them over its segments in opposite order,
and stores what comes out at the respective other end. -/
theorem C31_ends {K : Type} [Field K] (e : Seg K → K) (q : Nat → K) (wt : K) (first : Nat) (in1 in2 : Nat → K) (a : Acc K) (r : Ray K) :
    let a' := sweepRay e q wt first in1 in2 a r
    let f := walk e q wt first r.segs (in1 r.bc0) a.tflux
    let b := walk e q wt first r.segs.reverse (in2 r.bc1) f.2
    a'.out1 r.bc1 = f.1 ∧ a'.out2 r.bc0 = b.1 ∧ a'.tflux = b.2 ∧
    (∀ j, j ≠ r.bc1 → a'.out1 j = a.out1 j) ∧ (∀ j, j ≠ r.bc0 → a'.out2 j = a.out2 j) := by
  simp only [sweepRay, upd, if_true, true_and]
  exact ⟨fun j hj => if_neg hj, fun j hj => if_neg hj⟩

/-- A beam of 3 through a segment of length 2 in a region with cross section one half and source 1. -/
example : Solves (fun _ => 1/2) (fun _ => 1) 1 0 ⟨0, 2⟩ 3 (1 + 2 * Real.exp (-1))
    (fun x => 1 + 2 * Real.exp (-(1/2) * x)) := by
  have := segment_solves (fun _ => 1/2) (fun _ => 1) 1 0 ⟨0, 2⟩ 3
  convert this using 1
  · simp only [eTau]; norm_num; ring
  · funext x; norm_num

end Verif.Moc
