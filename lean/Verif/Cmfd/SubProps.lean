import Verif.Cmfd.SubModel
import Verif.Cmfd.Props
import Mathlib.Tactic.NormNum
import Mathlib.Tactic.Ring
import Mathlib.Tactic.Linarith
import Mathlib.Tactic.FieldSimp

/-! # C139: the mesh of CMFD and its data by surface -/

set_option linter.unusedSectionVars false

namespace Verif.Cmfd

open Verif.Mesh Verif.Mesh.Spec

variable {K : Type} [Field K] [LinearOrder K]

theorem divisions_length (hz : K) (hs : List K) : (divisionsFrom hz hs).length = hs.length + 1 := by
  induction hs generalizing hz with
  | nil => rfl
  | cons h hs ih => simp [divisionsFrom, ih]

theorem diffs_divisions (hz : K) (hs : List K) : diffs (divisionsFrom hz hs) = hs := by
  induction hs generalizing hz with
  | nil => rfl
  | cons h hs ih =>
    have := ih (hz + h)
    cases hs with
    | nil => simp [divisionsFrom, diffs]
    | cons a l =>
      simp only [divisionsFrom, diffs] at this ⊢
      rw [this]
      congr 1
      ring

/-- C139: the mesh of CMFD has the columns and rows of the core and one plane for each macroplane, of its height; the volume of its cells is that of the
cells of the core in the planes of the macroplane. -/
theorem C139_mesh (xs ys : List K) (heights dz : List K) (mi : Nat → Nat)
    (hh : ∀ (k : Nat) (h : K), heights[k]? = some h → h = ∑ iz ∈ (Finset.range dz.length).filter (fun iz => mi iz = k), (dz[iz]?).getD 0) :
    cmfdDims xs ys heights = ⟨xs.length - 1, ys.length - 1, heights.length⟩ ∧
    cmfdWidths xs ys heights = ⟨diffs xs, diffs ys, heights⟩ ∧
    ∀ i j k a b, (diffs xs)[i]? = some a → (diffs ys)[j]? = some b → i < xs.length - 1 → j < ys.length - 1 → k < heights.length →
      coarseVolume (cmfdDims xs ys heights) (cmfdWidths xs ys heights) (coarseCell (cmfdDims xs ys heights) ⟨i, j, k⟩) =
        some (∑ iz ∈ (Finset.range dz.length).filter (fun iz => mi iz = k), a * b * (dz[iz]?).getD 0) := by
  have h1 : cmfdDims xs ys heights = ⟨xs.length - 1, ys.length - 1, heights.length⟩ := by
    unfold cmfdDims
    rw [divisions_length, Nat.add_sub_cancel]
  have h2 : cmfdWidths xs ys heights = ⟨diffs xs, diffs ys, heights⟩ := by
    unfold cmfdWidths
    rw [diffs_divisions]
  refine ⟨h1, h2, ?_⟩
  intro i j k a b ha hb hi hj hk
  rw [h1, h2]
  unfold coarseVolume
  rw [(C10_position_of_cell ⟨_, _, heights.length⟩ i j k hi hj hk).1]
  simp only [ha, hb, List.getElem?_eq_getElem hk]
  rw [← Finset.mul_sum, ← hh k heights[k] (List.getElem?_eq_getElem hk)]
  rfl

section
variable [IsStrictOrderedRing K]

/-- The two cells at a surface of the mesh are not both outside, and outside there is no flux. -/
theorem sides_pos (d : Dims) (hx : 0 < d.nx) (hy : 0 < d.ny) (hz : 0 < d.nz) (flux : Nat → K) (hpos : ∀ c, c < nPin d → 0 < flux c) (n : Nat)
    (hn : n < nSurf d) : 0 < side flux (coarseNeighCells d n).1 + side flux (coarseNeighCells d n).2 := by
  obtain ⟨h1, h2, h3⟩ := C12_cells_touch_surface d hx hy hz n hn
  have nonneg : ∀ m : Int, (m = -1 ∨ ∃ c : Nat, m = c ∧ c < nPin d) → 0 ≤ side flux m := by
    rintro m (rfl | ⟨c, rfl, hc⟩)
    · simp [side]
    · rw [side_nat]; exact (hpos c hc).le
  have n1 := nonneg _ (h1.imp id (fun ⟨c, a, b, _⟩ => ⟨c, a, b⟩))
  have n2 := nonneg _ (h2.imp id (fun ⟨c, a, b, _⟩ => ⟨c, a, b⟩))
  rcases h1 with h1 | ⟨c, hc, hlt, _⟩
  · rcases h2 with h2 | ⟨c, hc, hlt, _⟩
    · exact absurd ⟨h1, h2⟩ h3
    · have : 0 < side flux (coarseNeighCells d n).2 := by rw [hc, side_nat]; exact hpos c hlt
      linarith
  · have : 0 < side flux (coarseNeighCells d n).1 := by rw [hc, side_nat]; exact hpos c hlt
    linarith

theorem side_scale (c : K) (φ : Nat → K) (m : Int) : side (fun i => c * φ i) m = c * side φ m := by
  unfold side
  split_ifs <;> ring

/-- C139: if CMFD multiplies the flux by one factor, the surface fluxes under the numbers of the mesh of CMFD are multiplied by it, those under other
numbers stay as they were; likewise for the partial currents, which are those of the multiplied surface flux and current. -/
theorem C139_scaled (dC : Dims) (hx : 0 < dC.nx) (hy : 0 < dC.ny) (hz : 0 < dC.nz) (st dt J φ : Nat → K) (c : K) (s : SurfaceData K)
    (hφ : ∀ i, i < nPin dC → 0 < φ i) (n : Nat) :
    (n < nSurf dC → (solveSurfaces dC st dt J φ (fun i => c * φ i) s).sfc n = c * s.sfc n ∧
      (solveSurfaces dC st dt J φ (fun i => c * φ i) s).part n = partialCurrents (c * s.sfc n) (c * J n)) ∧
    (nSurf dC ≤ n → (solveSurfaces dC st dt J φ (fun i => c * φ i) s).sfc n = s.sfc n ∧
      (solveSurfaces dC st dt J φ (fun i => c * φ i) s).part n = s.part n) ∧
    (solveSurfaces dC st dt J φ (fun i => c * φ i) s).partOld n = s.part n := by
  refine ⟨?_, ?_, rfl⟩
  · intro hn
    have h0 := sides_pos dC hx hy hz φ hφ n hn
    have hs : surfaceAt dC st (sHatAt dC st s.sfc φ) (fun i => c * φ i) n = c * s.sfc n := by
      unfold surfaceAt sHatAt
      simp only
      rw [side_scale, side_scale]
      have := C40_surface_flux (decide (0 ≤ (coarseNeighCells dC n).1)) (st n) (s.sfc n) (side φ (coarseNeighCells dC n).1)
        (side φ (coarseNeighCells dC n).2) h0.ne' (by
          intro h
          have h' := of_decide_eq_false h
          unfold side
          rw [if_neg h'])
      conv_rhs => rw [← this]
      unfold surfaceFlux
      split_ifs <;> ring
    have hj : currentAt dC dt (dHatAt dC dt J φ) (fun i => c * φ i) n = c * J n := by
      have := C40_reconstruct_mesh dC hx hy hz dt J φ hφ n hn
      conv_rhs => rw [← this]
      unfold currentAt
      rw [side_scale, side_scale]
      unfold current
      ring
    unfold solveSurfaces storeSurfaces
    simp only [if_pos hn]
    rw [hs, hj]
    exact ⟨rfl, rfl⟩
  · intro hn
    unfold solveSurfaces storeSurfaces
    simp only [if_neg (Nat.not_lt.2 hn)]
    exact ⟨trivial, trivial⟩

end

/-- C139: the number of a face in the mesh of CMFD is that of the same face of the plane of the core with the number of the macroplane, and the faces
of the core from plane `nmp` on (apart from the bottom of this plane) have no number in the mesh of CMFD. -/
theorem C139_numbers (nx ny nz nmp : Nat) (f : Face) :
    enc ⟨nx, ny, nmp⟩ f = enc ⟨nx, ny, nz⟩ f ∧
    (f.Valid nx ny nz → (enc ⟨nx, ny, nz⟩ f < nSurf ⟨nx, ny, nmp⟩ ↔ f.Valid nx ny nmp)) := by
  have h0 : enc ⟨nx, ny, nmp⟩ f = enc ⟨nx, ny, nz⟩ f := rfl
  refine ⟨h0, fun hv => ⟨fun h => ?_, fun h => ?_⟩⟩
  · by_contra hn
    have h2 : nSurf ⟨nx, ny, nmp⟩ = nmp * nSurfPlane ⟨nx, ny, nz⟩ + nx * ny := by
      unfold nSurf nSurfPlane
      simp only
      ring
    rw [h2] at h
    unfold enc at h
    unfold Face.Valid at hv hn
    cases ha : f.axis <;> rw [ha] at h hv hn <;> simp only at h hv hn
    · have : nmp ≤ f.k := by omega
      have := Nat.mul_le_mul_right (nSurfPlane ⟨nx, ny, nz⟩) this
      omega
    · have : nmp ≤ f.k := by omega
      have := Nat.mul_le_mul_right (nSurfPlane ⟨nx, ny, nz⟩) this
      omega
    · have : nmp + 1 ≤ f.k := by omega
      have := Nat.mul_le_mul_right (nSurfPlane ⟨nx, ny, nz⟩) this
      have h3 : nx * ny ≤ nSurfPlane ⟨nx, ny, nz⟩ := by unfold nSurfPlane; simp
      rw [Nat.add_mul, Nat.one_mul] at this
      omega
  · rw [← h0]
    exact enc_lt ⟨nx, ny, nmp⟩ f h

/-- C139, the claim: with sub-planes, if CMFD multiplies the flux by one factor, it multiplies the surface fluxes of the core by it. -/
def C139_claim : Prop := ∀ (nx ny nz nmp : Nat) (mi : Nat → Nat), 0 < nx → 0 < ny → Layout nz nmp mi →
  ∀ (st dt J φ : Nat → ℚ) (c : ℚ) (s : SurfaceData ℚ), 0 < c → (∀ i, i < nPin ⟨nx, ny, nmp⟩ → 0 < φ i) →
  ∀ f : Face, f.Valid nx ny nz →
    (solveSurfaces ⟨nx, ny, nmp⟩ st dt J φ (fun i => c * φ i) s).sfc (enc ⟨nx, ny, nz⟩ f) = c * s.sfc (enc ⟨nx, ny, nz⟩ f)

/-- C139 without sub-planes. -/
theorem C139_partial (nx ny nz : Nat) (hx : 0 < nx) (hy : 0 < ny) (hz : 0 < nz) (st dt J φ : Nat → ℚ) (c : ℚ) (s : SurfaceData ℚ)
    (hφ : ∀ i, i < nPin ⟨nx, ny, nz⟩ → 0 < φ i) (f : Face) (hf : f.Valid nx ny nz) :
    (solveSurfaces ⟨nx, ny, nz⟩ st dt J φ (fun i => c * φ i) s).sfc (enc ⟨nx, ny, nz⟩ f) = c * s.sfc (enc ⟨nx, ny, nz⟩ f) :=
  ((C139_scaled ⟨nx, ny, nz⟩ hx hy hz st dt J φ c s hφ _).1 (enc_lt ⟨nx, ny, nz⟩ f hf)).1

theorem C139_claim_false : ¬ C139_claim := by
  intro h
  have := h 1 1 2 1 (fun _ => 0) (by norm_num) (by norm_num) ⟨rfl, fun _ _ => Or.inl rfl, rfl, by norm_num⟩ (fun _ => 0) (fun _ => 0) (fun _ => 0)
    (fun _ => 1) 2 ⟨fun _ => 1, fun _ => 0, fun _ => 0⟩ (by norm_num) (fun _ _ => by norm_num) ⟨.x, 0, 0, 1⟩ (by simp [Face.Valid])
  rw [((C139_scaled ⟨1, 1, 1⟩ (by norm_num) (by norm_num) (by norm_num) (fun _ => 0) (fun _ => 0) (fun _ => 0) (fun _ => 1) 2
    ⟨fun _ => 1, fun _ => 0, fun _ => 0⟩ (fun _ _ => by norm_num) _).2.1 (by decide)).1] at this
  norm_num at this

/-- C139, the claim for incoming fluxes: the partial currents that the sweepers read for a radial face of a plane of the core are those of CMFD for
the macroplane that the plane is in. -/
def C139_plane_claim : Prop := ∀ (nx ny nz nmp : Nat) (mi : Nat → Nat), 0 < nx → 0 < ny → Layout nz nmp mi →
  ∀ (st dt J φ ψ : Nat → ℚ) (s : SurfaceData ℚ), (∀ i, i < nPin ⟨nx, ny, nmp⟩ → 0 < φ i) →
  ∀ f : Face, f.axis ≠ .z → f.Valid nx ny nz →
    (solveSurfaces ⟨nx, ny, nmp⟩ st dt J φ ψ s).part (enc ⟨nx, ny, nz⟩ f) =
      (solveSurfaces ⟨nx, ny, nmp⟩ st dt J φ ψ s).part (enc ⟨nx, ny, nmp⟩ ⟨f.axis, f.i, f.j, mi f.k⟩)

/-- C139: what the sweepers read for a radial face of plane `k` is the result of CMFD for macroplane `k`, or for planes from `nmp` on what was there
before. -/
theorem C139_plane (nx ny nz nmp : Nat) (st dt J φ ψ : Nat → K) (s : SurfaceData K) (f : Face) (hr : f.axis ≠ .z) (hv : f.Valid nx ny nz) :
    (f.k < nmp → (solveSurfaces ⟨nx, ny, nmp⟩ st dt J φ ψ s).part (enc ⟨nx, ny, nz⟩ f) =
      partialCurrents (surfaceAt ⟨nx, ny, nmp⟩ st (sHatAt ⟨nx, ny, nmp⟩ st s.sfc φ) ψ (enc ⟨nx, ny, nmp⟩ f))
        (currentAt ⟨nx, ny, nmp⟩ dt (dHatAt ⟨nx, ny, nmp⟩ dt J φ) ψ (enc ⟨nx, ny, nmp⟩ f))) ∧
    (nmp ≤ f.k → (solveSurfaces ⟨nx, ny, nmp⟩ st dt J φ ψ s).part (enc ⟨nx, ny, nz⟩ f) = s.part (enc ⟨nx, ny, nz⟩ f)) := by
  obtain ⟨h1, h2⟩ := C139_numbers nx ny nz nmp f
  have h3 : f.Valid nx ny nmp ↔ f.k < nmp := by
    unfold Face.Valid at hv ⊢
    cases ha : f.axis <;> rw [ha] at hv hr <;> simp_all
  constructor
  · intro hk
    have := (h2 hv).2 (h3.2 hk)
    unfold solveSurfaces storeSurfaces
    simp only [if_pos this]
    rfl
  · intro hk
    have : ¬ enc ⟨nx, ny, nz⟩ f < nSurf ⟨nx, ny, nmp⟩ := fun h => absurd (h3.1 ((h2 hv).1 h)) (by omega)
    unfold solveSurfaces storeSurfaces
    simp only [if_neg this]

theorem C139_plane_claim_false : ¬ C139_plane_claim := by
  intro h
  have h1 := h 1 1 2 1 (fun _ => 0) (by norm_num) (by norm_num) ⟨rfl, fun _ _ => Or.inl rfl, rfl, by norm_num⟩ (fun _ => 0) (fun _ => 0) (fun _ => 0)
    (fun _ => 1) (fun i => 1 * (1 : ℚ)) ⟨fun _ => 1, fun _ => 0, fun _ => 0⟩ (fun _ _ => by norm_num) ⟨.x, 0, 0, 1⟩ (by decide) (by simp [Face.Valid])
  rw [(C139_plane 1 1 2 1 (fun _ => 0) (fun _ => 0) (fun _ => 0) (fun _ => 1) (fun i => 1 * (1 : ℚ)) ⟨fun _ => 1, fun _ => 0, fun _ => 0⟩ ⟨.x, 0, 0, 1⟩
    (by decide) (by simp [Face.Valid])).2 (by decide)] at h1
  have h2 := ((C139_scaled ⟨1, 1, 1⟩ (by norm_num) (by norm_num) (by norm_num) (fun _ => 0) (fun _ => 0) (fun _ => 0) (fun _ => 1) (1 : ℚ)
    ⟨fun _ => 1, fun _ => 0, fun _ => 0⟩ (fun _ _ => by norm_num) (enc ⟨1, 1, 1⟩ ⟨.x, 0, 0, 0⟩)).1 (by decide)).2
  rw [h2] at h1
  simp only [partialCurrents] at h1
  have := congrArg Prod.fst h1
  norm_num at this

/-- Two planes in one macroplane and one in another: heights, and cell volumes as the sum of those of the planes. -/
example : (cmfdDims ([0, 2] : List ℚ) [0, 3] [3, 4]).nz = 2 ∧ (cmfdWidths ([0, 2] : List ℚ) [0, 3] [3, 4]).dz = [3, 4] ∧
    coarseVolume (cmfdDims ([0, 2] : List ℚ) [0, 3] [3, 4]) (cmfdWidths ([0, 2] : List ℚ) [0, 3] [3, 4]) 0 = some (2 * 3 * 1 + 2 * 3 * 2) := by
  decide +kernel

/-- Surfaces of a core with three planes in two macroplanes. -/
example : enc ⟨1, 1, 2⟩ ⟨.x, 0, 0, 1⟩ = enc ⟨1, 1, 3⟩ ⟨.x, 0, 0, 1⟩ ∧ nSurf ⟨1, 1, 2⟩ ≤ enc ⟨1, 1, 3⟩ ⟨.x, 0, 0, 2⟩ := by decide

end Verif.Cmfd
