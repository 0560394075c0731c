import Verif.Cmdo.CorrProps
import Mathlib.Analysis.SpecialFunctions.ExpDeriv
import Mathlib.Algebra.BigOperators.Group.Finset.Basic
import Mathlib.Algebra.BigOperators.Intervals

/-!
# C39: the sums are integrals of the angular flux

`C39_reproduce_partial` holds for any flux volume; here the flux volume and the factors are pinned down.
-/

namespace Verif.Cmdo
open Finset

/-- `f` is the angular flux along the segment, from `a` to `b`, and `I` its integral over the segment. -/
def Tracks (s : Seg ℝ) (a b I : ℝ) : Prop :=
  ∃ f F : ℝ → ℝ, f 0 = a ∧ f s.t = b ∧ F 0 = 0 ∧ F s.t = I ∧
    (∀ x, HasDerivAt f (s.xstr * (s.qbar - f x)) x) ∧ ∀ x, HasDerivAt F (f x) x

theorem seg_tracks (s : Seg ℝ) (a : ℝ) (hx : s.xstr ≠ 0) (he : s.e = 1 - Real.exp (-s.xstr * s.t)) :
    Tracks s a (a - (a - s.qbar) * s.e) (s.t * s.qbar + (a - (a - (a - s.qbar) * s.e)) / s.xstr) := by
  refine ⟨fun x => s.qbar + (a - s.qbar) * Real.exp (-s.xstr * x),
    fun x => x * s.qbar + (a - s.qbar) * (1 - Real.exp (-s.xstr * x)) / s.xstr, ?_, ?_, ?_, ?_, ?_, ?_⟩
  · simp
  · simp only [he]; ring
  · simp
  · simp only [he]; ring
  · intro x
    have h0 : HasDerivAt (fun x : ℝ => -s.xstr * x) (-s.xstr) x := by
      simpa using (hasDerivAt_id x).const_mul (-s.xstr)
    exact ((h0.exp.const_mul (a - s.qbar)).const_add s.qbar).congr_deriv (by ring)
  · intro x
    have h0 : HasDerivAt (fun x : ℝ => -s.xstr * x) (-s.xstr) x := by
      simpa using (hasDerivAt_id x).const_mul (-s.xstr)
    have h1 : HasDerivAt (fun x : ℝ => (a - s.qbar) * (1 - Real.exp (-s.xstr * x)) / s.xstr)
        ((a - s.qbar) * (-(Real.exp (-s.xstr * x) * -s.xstr)) / s.xstr) x :=
      ((h0.exp.const_sub 1).const_mul (a - s.qbar)).div_const s.xstr
    have h2 : HasDerivAt (fun x : ℝ => x * s.qbar) s.qbar x := by
      simpa using (hasDerivAt_id x).mul_const s.qbar
    exact (h2.add h1).congr_deriv (by field_simp)

/-- C39: along every chord there are angular fluxes at the segment ends, from the incoming to the outgoing one, that
follow the transport equation; the sums are the integral of the flux, the integral of the true collision rate and the
length. -/
theorem C39_chord (psi : ℝ) (l : List (Seg ℝ))
    (h : ∀ s ∈ l, s.xstr ≠ 0 ∧ s.e = 1 - Real.exp (-s.xstr * s.t)) :
    ∃ ψ I : Nat → ℝ, ψ 0 = psi ∧ ψ l.length = (chordFw psi l).out ∧
      (∀ k (hk : k < l.length), Tracks l[k] (ψ k) (ψ (k + 1)) (I k)) ∧
      (chordFw psi l).vol = ∑ k ∈ range l.length, I k ∧
      (chordFw psi l).sigt = ∑ k ∈ range l.length, ((l[k]?.map (·.xtrue)).getD 0) * I k ∧
      (chordFw psi l).norm = (l.map (·.t)).sum := by
  induction l generalizing psi with
  | nil => exact ⟨fun _ => psi, fun _ => 0, rfl, rfl, fun k hk => absurd hk (Nat.not_lt_zero k), by simp [chordFw],
      by simp [chordFw], by simp [chordFw]⟩
  | cons s l ih =>
    obtain ⟨ψ, I, h0, h1, h2, h3, h4, h5⟩ := ih (psi - (psi - s.qbar) * s.e) (fun x hx => h x (by simp [hx]))
    obtain ⟨hx, he⟩ := h s (by simp)
    refine ⟨fun k => match k with | 0 => psi | k + 1 => ψ k,
      fun k => match k with
        | 0 => s.t * s.qbar + (psi - (psi - (psi - s.qbar) * s.e)) / s.xstr
        | k + 1 => I k, rfl, h1, ?_, ?_, ?_, ?_⟩
    · intro k hk
      match k with
      | 0 => simpa only [List.getElem_cons_zero, h0] using seg_tracks s psi hx he
      | k + 1 => simpa using h2 k (by simpa using hk)
    · simp only [chordFw, h3, List.length_cons, sum_range_succ']
      ring
    · simp only [chordFw, h4, List.length_cons, sum_range_succ', List.getElem?_cons_succ, List.getElem?_cons_zero,
        Option.map_some, Option.getD_some]
      ring
    · simp only [chordFw, h5, List.map_cons, List.sum_cons]

section
variable {K : Type} [Field K]

/-- C39: a pin sums each ray flux on the face through which the ray enters or leaves, and adds up its chords. -/
theorem C39_gather (cs : List (Chord K)) :
    (gather cs).xl = ((cs.filter (·.inX)).map (·.psi)).sum ∧
    (gather cs).yl = ((cs.filter (! ·.inX)).map (·.psi)).sum ∧
    (gather cs).xr = ((cs.filter (·.outX)).map fun c => (chordFw c.psi c.segs).out).sum ∧
    (gather cs).yr = ((cs.filter (! ·.outX)).map fun c => (chordFw c.psi c.segs).out).sum ∧
    (gather cs).vol = (cs.map fun c => (chordFw c.psi c.segs).vol).sum ∧
    (gather cs).sigt = (cs.map fun c => (chordFw c.psi c.segs).sigt).sum ∧
    (gather cs).norm = (cs.map fun c => (chordFw c.psi c.segs).norm).sum := by
  induction cs with
  | nil => simp [gather]
  | cons c cs ih =>
    obtain ⟨h1, h2, h3, h4, h5, h6, h7⟩ := ih
    simp only [gather, h1, h2, h3, h4, h5, h6, h7]
    cases hi : c.inX <;> cases ho : c.outX <;> simp [hi, ho]
end

section
variable {K : Type} [Field K] [LinearOrder K] [IsStrictOrderedRing K]

/-- C39: for a square pin the factors are what they are meant to be: alpha times the sum of the face averages is the
average flux, and beta times the Sn cross section is the flux-weighted MoC cross section. -/
theorem C39_factors_partial (s : Sums K) (hs : Positive s) (areaX areaY w xstrSn : K) (hax : 0 < areaX) (hay : 0 < areaY)
    (hw : 0 < w) (hx : 0 < xstrSn) :
    alphaX areaX w s * (s.xl * areaX / w + s.xr * areaX / w) = s.vol / s.norm ∧
    alphaY areaY w s * (s.yl * areaY / w + s.yr * areaY / w) = s.vol / s.norm ∧
    beta xstrSn s * xstrSn * s.vol = s.sigt := by
  obtain ⟨h1, h2, h3, h4, h5⟩ := hs
  unfold alphaX alphaY beta psiX psiY
  have e1 : s.xl * (areaX / w) + s.xr * (areaX / w) = s.xl * areaX / w + s.xr * areaX / w := by ring
  have e2 : s.yl * (areaY / w) + s.yr * (areaY / w) = s.yl * areaY / w + s.yr * areaY / w := by ring
  have p1 : 0 < s.xl * areaX / w + s.xr * areaX / w := by
    have : s.xl * areaX / w + s.xr * areaX / w = (s.xl + s.xr) * areaX / w := by ring
    rw [this]; positivity
  have p2 : 0 < s.yl * areaY / w + s.yr * areaY / w := by
    have : s.yl * areaY / w + s.yr * areaY / w = (s.yl + s.yr) * areaY / w := by ring
    rw [this]; positivity
  rw [e1, e2]
  exact ⟨div_mul_cancel₀ _ p1.ne', div_mul_cancel₀ _ p2.ne', by field_simp⟩
end

/-- A segment with its exact attenuation. -/
example : ∀ s ∈ [(⟨2, 1/2, 1/2, 3, 1 - Real.exp (-1)⟩ : Seg ℝ)],
    s.xstr ≠ 0 ∧ s.e = 1 - Real.exp (-s.xstr * s.t) := by
  intro s hs
  simp only [List.mem_singleton] at hs
  subst hs
  norm_num

end Verif.Cmdo
