import Verif.Cmdo.CorrModel
import Verif.Sn.CellProps
import Mathlib.Algebra.Order.Field.Basic
import Mathlib.Algebra.Order.Field.Rat
import Mathlib.Algebra.Field.Rat
import Mathlib.Tactic.Ring
import Mathlib.Tactic.Linarith
import Mathlib.Tactic.FieldSimp
import Mathlib.Tactic.NormNum
import Mathlib.Tactic.Positivity
import Mathlib.Tactic.LinearCombination

/-!
# C39: correction factors reproduce the MoC solution on the coarse mesh
-/

namespace Verif.Cmdo

variable {K : Type} [Field K]

/-- Forward and backward formulas for the flux volume agree. -/
theorem C39_fw_bw (psi : K) (l : List (Seg K)) :
    (chordBw psi l).out = (chordFw psi l).out ∧ (chordBw psi l).vol = (chordFw psi l).vol ∧
    (chordBw psi l).sigt = (chordFw psi l).sigt := by
  induction l generalizing psi with
  | nil => exact ⟨rfl, rfl, rfl⟩
  | cons s l ih =>
    obtain ⟨h1, h2, h3⟩ := ih (psi - (psi - s.qbar) * s.e)
    simp only [chordFw, chordBw, h1, h2, h3]
    refine ⟨trivial, ?_, ?_⟩
    · congr 2; ring
    · congr 2; ring

/-- Emission along a chord: length times source. -/
def emission (l : List (Seg K)) : K := (l.map fun s => s.t * (s.xstr * s.qbar)).sum

/-- Along a chord without splitting, collisions are emission plus what enters minus what leaves. -/
theorem chord_balance (psi : K) (l : List (Seg K)) (h : ∀ s ∈ l, s.xtrue = s.xstr ∧ s.xstr ≠ 0) :
    (chordFw psi l).sigt = emission l + psi - (chordFw psi l).out := by
  induction l generalizing psi with
  | nil => simp [chordFw, emission]
  | cons s l ih =>
    have h1 := ih (psi - (psi - s.qbar) * s.e) (fun x hx => h x (by simp [hx]))
    obtain ⟨h2, h3⟩ := h s (by simp)
    simp only [chordFw, emission, List.map_cons, List.sum_cons] at h1 ⊢
    rw [h1, h2]
    field_simp
    ring

/-- Total emission of the chords of a pin. -/
def totalEmission (cs : List (Chord K)) : K := (cs.map fun c => emission c.segs).sum

theorem gather_balance (cs : List (Chord K)) (h : ∀ c ∈ cs, ∀ s ∈ c.segs, s.xtrue = s.xstr ∧ s.xstr ≠ 0) :
    (gather cs).sigt = totalEmission cs + ((gather cs).xl + (gather cs).yl) - ((gather cs).xr + (gather cs).yr) := by
  induction cs with
  | nil => simp [gather, totalEmission]
  | cons c cs ih =>
    have h1 := ih (fun x hx => h x (by simp [hx]))
    have h2 := chord_balance c.psi c.segs (h c (by simp))
    simp only [gather, totalEmission, List.map_cons, List.sum_cons] at h1 ⊢
    rw [h1, h2]
    cases c.inX <;> cases c.outX <;> simp <;> ring

section
variable {K : Type} [Field K] [LinearOrder K] [IsStrictOrderedRing K]

/-- MoC data of a pin: everything that is averaged is positive. -/
structure Positive (s : Sums K) : Prop where
  x : 0 < s.xl + s.xr
  y : 0 < s.yl + s.yr
  vol : 0 < s.vol
  sigt : 0 < s.sigt
  norm : 0 < s.norm

/-- **C39 (partial: square pins).**  If the face averages of the MoC solution, its collision rate and the source
balance in the pin, the corrected cell, fed with the MoC incoming averages, returns the MoC outgoing averages and the
MoC collision rate.  The average over an x-normal face divides by its extent in y.  What is missing: pins with
`dx ≠ dy`, for which the code divides by the wrong extent (`C39_claim_false`). -/
theorem C39_reproduce_partial (s : Sums K) (hs : Positive s) (areaX areaY w xstrSn ox oy q : K)
    (hax : 0 < areaX) (hay : 0 < areaY) (hw : 0 < w) (hx : 0 < xstrSn) (hox : 0 < ox) (hoy : 0 < oy)
    (hbal : ox / w * (s.xr * areaX / w - s.xl * areaX / w) + oy / w * (s.yr * areaY / w - s.yl * areaY / w) +
      s.sigt / s.norm = q) :
    let r := cddCell areaX areaY w w xstrSn s ox oy (s.xl * areaX / w) (s.yl * areaY / w) q
    r.x = s.xr * areaX / w ∧ r.y = s.yr * areaY / w ∧ xstrSn * r.psi = s.sigt / s.norm := by
  obtain ⟨h1, h2, h3, h4, h5⟩ := hs
  -- the quantities of the cell
  have hpsi : alphaX areaX w s * beta xstrSn s * ((s.xl + s.xr) * areaX / w) = s.sigt / s.norm / xstrSn := by
    unfold alphaX beta psiX
    have : s.xl * (areaX / w) + s.xr * (areaX / w) = (s.xl + s.xr) * areaX / w := by ring
    rw [this]
    field_simp
  have hpsiy : alphaY areaY w s * beta xstrSn s * ((s.yl + s.yr) * areaY / w) = s.sigt / s.norm / xstrSn := by
    unfold alphaY beta psiY
    have : s.yl * (areaY / w) + s.yr * (areaY / w) = (s.yl + s.yr) * areaY / w := by ring
    rw [this]
    field_simp
  have hX : 0 < (s.xl + s.xr) * areaX / w := by positivity
  have hY : 0 < (s.yl + s.yr) * areaY / w := by positivity
  have hP : 0 < s.sigt / s.norm / xstrSn := by positivity
  have hgx : 0 < alphaX areaX w s * beta xstrSn s := by
    have : 0 < alphaX areaX w s * beta xstrSn s * ((s.xl + s.xr) * areaX / w) := by rw [hpsi]; exact hP
    exact (pos_iff_pos_of_mul_pos this).mpr hX
  have hgy : 0 < alphaY areaY w s * beta xstrSn s := by
    have : 0 < alphaY areaY w s * beta xstrSn s * ((s.yl + s.yr) * areaY / w) := by rw [hpsiy]; exact hP
    exact (pos_iff_pos_of_mul_pos this).mpr hY
  unfold cddCell Sn.evalCDD2
  simp only
  generalize alphaX areaX w s * beta xstrSn s = gx at *
  generalize alphaY areaY w s * beta xstrSn s = gy at *
  have key : (q + 2 * (ox / w * (s.xl * areaX / w) + oy / w * (s.yl * areaY / w))) /
      (ox / w / gx + oy / w / gy + xstrSn) = s.sigt / s.norm / xstrSn := by
    rw [div_eq_iff (by positivity)]
    have e1 : s.sigt / s.norm / xstrSn * (ox / w / gx) = ox / w * ((s.xl + s.xr) * areaX / w) := by
      rw [← hpsi]; field_simp
    have e2 : s.sigt / s.norm / xstrSn * (oy / w / gy) = oy / w * ((s.yl + s.yr) * areaY / w) := by
      rw [← hpsiy]; field_simp
    have e3 : s.sigt / s.norm / xstrSn * xstrSn = s.sigt / s.norm := by field_simp
    rw [mul_add (s.sigt / s.norm / xstrSn), mul_add (s.sigt / s.norm / xstrSn), e1, e2, e3, ← hbal]
    ring
  rw [key]
  refine ⟨?_, ?_, by field_simp⟩
  · rw [← hpsi]; field_simp; ring
  · rw [← hpsiy]; field_simp; ring

/-- **C39 from the rays (partial: square pins, no splitting).**  The balance needed above holds for the sums of every
set of rays whose tracked lengths were corrected to the true area (C33), with the source of the cell equal to the
track-average of the MoC source. -/
theorem C39_rays_partial (cs : List (Chord K)) (hseg : ∀ c ∈ cs, ∀ s ∈ c.segs, s.xtrue = s.xstr ∧ s.xstr ≠ 0)
    (hs : Positive (gather cs)) (spacing sinT areaX areaY w xstrSn ox oy : K)
    (hax : 0 < areaX) (hay : 0 < areaY) (hw : 0 < w) (hx : 0 < xstrSn) (hox : 0 < ox) (hoy : 0 < oy)
    (h1 : ox * areaX = sinT * spacing) (h2 : oy * areaY = sinT * spacing)
    (hvol : (gather cs).norm * (sinT * spacing) = w * w) :
    let s := gather cs
    let r := cddCell areaX areaY w w xstrSn s ox oy (s.xl * areaX / w) (s.yl * areaY / w)
      (totalEmission cs / s.norm)
    r.x = s.xr * areaX / w ∧ r.y = s.yr * areaY / w ∧ xstrSn * r.psi = s.sigt / s.norm := by
  intro s r
  refine C39_reproduce_partial s hs areaX areaY w xstrSn ox oy _ hax hay hw hx hox hoy ?_
  have hb := gather_balance cs hseg
  have hn : (gather cs).norm ≠ 0 := hs.norm.ne'
  change ox / w * ((gather cs).xr * areaX / w - (gather cs).xl * areaX / w) +
    oy / w * ((gather cs).yr * areaY / w - (gather cs).yl * areaY / w) + (gather cs).sigt / (gather cs).norm =
    totalEmission cs / (gather cs).norm
  have e1 : ox / w * ((gather cs).xr * areaX / w - (gather cs).xl * areaX / w) =
      ((gather cs).xr - (gather cs).xl) / (gather cs).norm := by
    have : ox / w * ((gather cs).xr * areaX / w - (gather cs).xl * areaX / w) =
        (ox * areaX) * ((gather cs).xr - (gather cs).xl) / (w * w) := by field_simp
    have hst : sinT * spacing ≠ 0 := by rw [← h1]; positivity
    rw [this, ← hvol, h1, mul_comm (gather cs).norm, mul_div_mul_left _ _ hst]
  have e2 : oy / w * ((gather cs).yr * areaY / w - (gather cs).yl * areaY / w) =
      ((gather cs).yr - (gather cs).yl) / (gather cs).norm := by
    have : oy / w * ((gather cs).yr * areaY / w - (gather cs).yl * areaY / w) =
        (oy * areaY) * ((gather cs).yr - (gather cs).yl) / (w * w) := by field_simp
    have hst : sinT * spacing ≠ 0 := by rw [← h1]; positivity
    rw [this, ← hvol, h2, mul_comm (gather cs).norm, mul_div_mul_left _ _ hst]
  rw [e1, e2, hb]
  field_simp
  ring

/-- The claim for pins of any shape: an x-normal face has extent `dy`, a y-normal face extent `dx`. -/
def C39_claim (K : Type) [Field K] [LinearOrder K] : Prop :=
  ∀ (s : Sums K), Positive s → ∀ areaX areaY dx dy xstrSn ox oy q : K,
    0 < areaX → 0 < areaY → 0 < dx → 0 < dy → 0 < xstrSn → 0 < ox → 0 < oy →
    ox / dx * (s.xr * areaX / dy - s.xl * areaX / dy) + oy / dy * (s.yr * areaY / dx - s.yl * areaY / dx) +
      s.sigt / s.norm = q →
    let r := cddCell areaX areaY dx dy xstrSn s ox oy (s.xl * areaX / dy) (s.yl * areaY / dx) q
    r.x = s.xr * areaX / dy ∧ r.y = s.yr * areaY / dx ∧ xstrSn * r.psi = s.sigt / s.norm

/-- A flat MoC flux of one in a pin of 1 x 2 is not reproduced. -/
theorem C39_claim_false : ¬ C39_claim ℚ := by
  intro h
  have h1 := (h ⟨2, 2, 1, 1, 1, 1, 1⟩ ⟨by norm_num, by norm_num, by norm_num, by norm_num, by norm_num⟩
    1 1 1 2 1 1 1 1 (by norm_num) (by norm_num) (by norm_num) (by norm_num) (by norm_num) (by norm_num) (by norm_num)
    (by norm_num)).2.2
  norm_num [cddCell, Sn.evalCDD2, alphaX, alphaY, beta, psiX, psiY] at h1
end

/-- Two rays, three regions. -/
def twoRays : List (Chord ℚ) :=
  [⟨true, true, 1, [⟨1, 2, 2, 1/2, 1/2⟩, ⟨1, 1, 1, 1, 1/4⟩]⟩, ⟨false, false, 2, [⟨2, 1, 1, 3, 1/3⟩]⟩]

example : Positive (gather twoRays) ∧ (gather twoRays).norm * (2 * (1/2)) = 2 * 2 ∧
    (∀ c ∈ twoRays, ∀ s ∈ c.segs, s.xtrue = s.xstr ∧ s.xstr ≠ 0) := by
  refine ⟨⟨?_, ?_, ?_, ?_, ?_⟩, ?_, ?_⟩ <;> decide +kernel

end Verif.Cmdo
