import Verif.Medium.AccelMocModel
import Verif.Cmfd.DiffusionModel
import Verif.Medium.AccelProps
import Verif.Moc.SweepCurProps
import Verif.PinFlux.GetProps
import Verif.XS.HomogProps

/-!
# C118: what CMFD does to a converged MoC solution
-/

set_option linter.unusedSectionVars false

namespace Verif.Medium

open Verif.XS Verif.Source

section
variable {K : Type} [Field K] [LinearOrder K] [IsStrictOrderedRing K]

/-! ### Pins -/

/-- Pins, regions, materials and mesh belong together: a pin in every coarse cell, of the size of the cell; the regions of the problem are those of the pins in order, with
the materials and areas of the pins. -/
structure PinsFit (p : Problem K) (m : MocAcc K) : Prop where
  part : Partition p.rs
  pins : PinFlux.PinsOk m.n2 m.layers
  layers : m.layers.length = m.G.d.nz
  cells : ∀ i < Mesh.nPin m.G.d, ∃ v ∈ PinFlux.visits m.layers 0 0, m.cell v = i
  regs : ∀ i, i < p.nReg ↔ ∃ v ∈ PinFlux.visits m.layers 0 0, v.ireg ≤ i ∧ i < v.ireg + v.pin.areas.length
  mats : ∀ v ∈ PinFlux.visits m.layers 0 0, nRegions (m.pinMats (m.cell v)) = v.pin.areas.length
  mat : ∀ v ∈ PinFlux.visits m.layers 0 0, ∀ j < v.pin.areas.length, ∃ x ∈ p.rs, v.ireg + j ∈ x.regs ∧ x.mat = XS.mat (m.pinMats (m.cell v)) j
  area : ∀ v ∈ PinFlux.visits m.layers 0 0, v.pin.area = v.pin.areas.sum ∧ ∀ a ∈ v.pin.areas, 0 < a
  size : ∀ v ∈ PinFlux.visits m.layers 0 0, ∀ ix < m.G.d.nx, ∀ iy < m.G.d.ny, v.pin.cell = iy * m.G.d.nx + ix → v.pin.area = m.G.dx ix * m.G.dy iy
  height : ∀ v ∈ PinFlux.visits m.layers 0 0, v.plane.height = m.G.dz v.iz
  vol : ∀ v ∈ PinFlux.visits m.layers 0 0, ∀ j < v.pin.areas.length, p.vol (v.ireg + j) = v.pin.areas.getD j 0 * m.G.dz v.iz
  dx : ∀ i < m.G.d.nx, 0 < m.G.dx i
  dy : ∀ i < m.G.d.ny, 0 < m.G.dy i
  dz : ∀ i < m.G.d.nz, 0 < m.G.dz i
  sc : ∀ x ∈ p.rs, Source.NonNeg p.ng x.mat
  nf : ∀ x ∈ p.rs, ∀ g < p.ng, 0 ≤ x.mat.nf g

variable {p : Problem K} {m : MocAcc K}

theorem PinsFit.iz (h : PinsFit p m) {v : PinFlux.Visit K} (hv : v ∈ PinFlux.visits m.layers 0 0) : v.iz < m.G.d.nz := by
  have := (PinFlux.visits_bounds _ _ _ v hv).2.2.2.2
  rw [← h.layers]
  exact (List.getElem?_eq_some_iff.mp this).1

theorem PinsFit.cell_lt (h : PinsFit p m) {v : PinFlux.Visit K} (hv : v ∈ PinFlux.visits m.layers 0 0) : v.pin.cell < m.n2 := by
  have := PinFlux.visits_bounds _ _ _ v hv
  exact (h.pins _ this.2.2.1).2 _ this.2.2.2.1

theorem PinsFit.cell_nPin (h : PinsFit p m) {v : PinFlux.Visit K} (hv : v ∈ PinFlux.visits m.layers 0 0) : m.cell v < Mesh.nPin m.G.d := by
  have h1 := h.iz hv
  have h2 := h.cell_lt hv
  have h3 : m.n2 * (v.iz + 1) ≤ m.n2 * m.G.d.nz := Nat.mul_le_mul_left _ h1
  rw [Nat.mul_succ] at h3
  have h4 : Mesh.nPin m.G.d = m.n2 * m.G.d.nz := rfl
  unfold MocAcc.cell
  omega

theorem PinsFit.inj (h : PinsFit p m) {v w : PinFlux.Visit K} (hv : v ∈ PinFlux.visits m.layers 0 0) (hw : w ∈ PinFlux.visits m.layers 0 0) (e : m.cell v = m.cell w) : v = w := by
  by_contra hne
  haveI : Std.Symm fun v w : PinFlux.Visit K => PinFlux.idx m.n2 v ≠ PinFlux.idx m.n2 w := ⟨fun _ _ h => h.symm⟩
  exact (PinFlux.visits_idx m.n2 m.layers 0 0 h.pins).forall hv hw hne e

/-- The position of the cell of a visited pin. -/
theorem PinsFit.pos (h : PinsFit p m) {v : PinFlux.Visit K} (hv : v ∈ PinFlux.visits m.layers 0 0) (ix iy iz : Nat) (hx : ix < m.G.d.nx) (hy : iy < m.G.d.ny)
    (e : m.cell v = Mesh.coarseCell m.G.d ⟨ix, iy, iz⟩) : v.pin.cell = iy * m.G.d.nx + ix ∧ v.iz = iz := by
  have h1 := h.cell_lt hv
  have h2 : iy * m.G.d.nx + ix < m.n2 := by
    have : (iy + 1) * m.G.d.nx ≤ m.G.d.ny * m.G.d.nx := Nat.mul_le_mul_right _ hy
    rw [Nat.succ_mul] at this
    have e3 : m.n2 = m.G.d.ny * m.G.d.nx := Nat.mul_comm _ _
    omega
  have e2 : v.pin.cell + m.n2 * v.iz = (iy * m.G.d.nx + ix) + m.n2 * iz := by
    have : Mesh.coarseCell m.G.d ⟨ix, iy, iz⟩ = iz * m.G.d.nx * m.G.d.ny + iy * m.G.d.nx + ix := rfl
    rw [this] at e
    unfold MocAcc.cell at e
    rw [e]
    unfold MocAcc.n2
    ring
  have e4 := congrArg (· / m.n2) e2
  have e5 := congrArg (· % m.n2) e2
  simp only [Nat.add_mul_div_left _ _ (lt_of_le_of_lt (Nat.zero_le _) h1), Nat.div_eq_of_lt h1, Nat.div_eq_of_lt h2, Nat.zero_add] at e4
  simp only [Nat.add_mul_mod_self_left, Nat.mod_eq_of_lt h1, Nat.mod_eq_of_lt h2] at e5
  exact ⟨e5, e4⟩

theorem PinsFit.area_pos (h : PinsFit p m) {v : PinFlux.Visit K} (hv : v ∈ PinFlux.visits m.layers 0 0) : 0 < v.pin.area := by
  have h1 := h.cell_nPin hv
  obtain ⟨hx, hy, -⟩ := Mesh.pos_lt m.G.d _ h1
  obtain ⟨e, -⟩ := h.pos hv _ _ _ hx hy (Mesh.cell_pos m.G.d _).symm
  rw [h.size v hv _ hx _ hy e]
  exact mul_pos (h.dx _ hx) (h.dy _ hy)

/-- Flux of the regions of a visited pin. -/
def localFlux (φ : Nat → Nat → K) (v : PinFlux.Visit K) : Nat → Nat → K := fun j g => φ (v.ireg + j) g

def localArea (v : PinFlux.Visit K) : Nat → K := fun j => v.pin.areas.getD j 0

theorem PinsFit.localArea_pos (h : PinsFit p m) {v : PinFlux.Visit K} (hv : v ∈ PinFlux.visits m.layers 0 0) (j : Nat) (hj : j < v.pin.areas.length) : 0 < localArea v j := by
  unfold localArea
  rw [List.getD_eq_getElem?_getD, List.getElem?_eq_getElem hj]
  exact (h.area v hv).2 _ (List.getElem_mem hj)

theorem PinsFit.integral (h : PinsFit p m) {v : PinFlux.Visit K} (hv : v ∈ PinFlux.visits m.layers 0 0) (φ : Nat → Nat → K) (g : Nat) :
    v.pin.area * pinFlux m φ (m.cell v) g = fluxIntegral (m.pinMats (m.cell v)) (localArea v) (localFlux φ v) g := by
  have hA := h.area_pos hv
  have hh : v.plane.height ≠ 0 := by rw [h.height v hv]; exact (h.dz _ (h.iz hv)).ne'
  have h1 := PinFlux.get_in m.n2 (PinFlux.pinAverage fun r => φ r g) (PinFlux.visits m.layers 0 0) (PinFlux.visits_idx m.n2 m.layers 0 0 h.pins) (fun _ => 0) v hv
  rw [zero_add, PinFlux.pinAverage_average _ _ hh, PinFlux.average, ← (h.area v hv).1] at h1
  have h2 : pinFlux m φ (m.cell v) g = (∑ i ∈ Finset.range v.pin.areas.length, φ (v.ireg + i) g * (v.pin.areas[i]?).getD 0) / v.pin.area := h1
  rw [h2, mul_div_cancel₀ _ hA.ne', fluxIntegral, h.mats v hv]
  refine Finset.sum_congr rfl fun j _ => ?_
  rw [localArea, localFlux, List.getD_eq_getElem?_getD, mul_comm]

theorem visitMat_eq (h : PinsFit p m) {v : PinFlux.Visit K} (hv : v ∈ PinFlux.visits m.layers 0 0) (φ : Nat → Nat → K) :
    visitMat p m φ v = homMat (homogFlux p.ng (nRegions (m.pinMats (m.cell v))) (m.pinMats (m.cell v)) (localArea v) (localFlux φ v)) := by
  rw [h.mats v hv]; rfl

/-- Values that are positive in all regions and groups. -/
def Positive (n ng : Nat) (φ : Nat → Nat → K) : Prop := ∀ i < n, ∀ g < ng, 0 < φ i g

theorem PinsFit.region (h : PinsFit p m) {v : PinFlux.Visit K} (hv : v ∈ PinFlux.visits m.layers 0 0) (j : Nat) (hj : j < v.pin.areas.length) : v.ireg + j < p.nReg :=
  (h.regs _).mpr ⟨v, hv, by omega, by omega⟩

theorem PinsFit.ne_nil (h : PinsFit p m) {v : PinFlux.Visit K} (hv : v ∈ PinFlux.visits m.layers 0 0) : 0 < v.pin.areas.length := by
  rcases Nat.eq_zero_or_pos v.pin.areas.length with e | e
  · have := h.area_pos hv
    rw [(h.area v hv).1, List.length_eq_zero_iff.mp e] at this
    simp at this
  · exact e

theorem PinsFit.integral_pos (h : PinsFit p m) {v : PinFlux.Visit K} (hv : v ∈ PinFlux.visits m.layers 0 0) (φ : Nat → Nat → K) (hpos : Positive p.nReg p.ng φ) (g : Nat)
    (hg : g < p.ng) : 0 < fluxIntegral (m.pinMats (m.cell v)) (localArea v) (localFlux φ v) g := by
  unfold fluxIntegral
  rw [h.mats v hv]
  refine Finset.sum_pos (fun j hj => ?_) ⟨0, Finset.mem_range.mpr (h.ne_nil hv)⟩
  have hj := Finset.mem_range.mp hj
  exact mul_pos (h.localArea_pos hv j hj) (hpos _ (h.region hv j hj) g hg)

/-- The pin flux of a positive flux is positive. -/
theorem PinsFit.pin_pos (h : PinsFit p m) (φ : Nat → Nat → K) (hpos : Positive p.nReg p.ng φ) : Positive (Mesh.nPin m.G.d) p.ng (pinFlux m φ) := by
  intro i hi g hg
  obtain ⟨v, hv, rfl⟩ := h.cells i hi
  have h1 := h.integral_pos hv φ hpos g hg
  rw [← h.integral hv φ g] at h1
  exact (mul_pos_iff_of_pos_left (h.area_pos hv)).mp h1

theorem PinsFit.scat (h : PinsFit p m) {v : PinFlux.Visit K} (hv : v ∈ PinFlux.visits m.layers 0 0) (φ : Nat → Nat → K) (hpos : Positive p.nReg p.ng φ) :
    (∀ d s, d < p.ng → s < p.ng → 0 ≤ (visitMat p m φ v).sc d s) ∧
    ∀ dst src, dst < p.ng → src < p.ng → (visitMat p m φ v).sc dst src * fluxIntegral (m.pinMats (m.cell v)) (localArea v) (localFlux φ v) src =
      rate (m.pinMats (m.cell v)) (localArea v) (localFlux φ v) (fun x => x.sc dst src) src := by
  rw [visitMat_eq h hv]
  refine homog_scat p.ng _ _ _ ?_ ?_ ?_
  · intro j hj a b ha hb
    rw [h.mats v hv] at hj
    obtain ⟨x, hx, -, e⟩ := h.mat v hv j hj
    rw [← e]
    exact h.sc x hx a b ha hb
  · intro j hj
    rw [h.mats v hv] at hj
    exact h.localArea_pos hv j hj
  · intro j g hj hg
    rw [h.mats v hv] at hj
    exact (hpos _ (h.region hv j hj) g hg).le

/-- C118: removal in the pin with the cross sections of CMFD is the sum over its regions. -/
theorem C118_removal (h : PinsFit p m) {v : PinFlux.Visit K} (hv : v ∈ PinFlux.visits m.layers 0 0) (φ : Nat → Nat → K) (hpos : Positive p.nReg p.ng φ) (g : Nat)
    (hg : g < p.ng) :
    v.pin.area * (((visitMat p m φ v).tr g - (visitMat p m φ v).sc g g) * pinFlux m φ (m.cell v) g) =
      ∑ j ∈ Finset.range v.pin.areas.length, localArea v j * (((XS.mat (m.pinMats (m.cell v)) j).tr g - (XS.mat (m.pinMats (m.cell v)) j).sc g g) * φ (v.ireg + j) g) := by
  have h1 := (h.scat hv φ hpos).2 g g hg hg
  have h2 := (C26_rates p.ng (m.pinMats (m.cell v)) (localArea v) (localFlux φ v) g (h.integral_pos hv φ hpos g hg).ne').1
  have h3 : (visitMat p m φ v).tr g * fluxIntegral (m.pinMats (m.cell v)) (localArea v) (localFlux φ v) g =
      rate (m.pinMats (m.cell v)) (localArea v) (localFlux φ v) (·.tr g) g := by rw [visitMat_eq h hv]; exact h2
  have e : v.pin.area * (((visitMat p m φ v).tr g - (visitMat p m φ v).sc g g) * pinFlux m φ (m.cell v) g) =
      ((visitMat p m φ v).tr g - (visitMat p m φ v).sc g g) * (v.pin.area * pinFlux m φ (m.cell v) g) := by ring
  rw [e, h.integral hv φ g, sub_mul, h1, h3, rate, rate, h.mats v hv, ← Finset.sum_sub_distrib]
  refine Finset.sum_congr rfl fun j _ => ?_
  unfold localFlux
  ring

/-- C118: so is the source. -/
theorem C118_source (h : PinsFit p m) {v : PinFlux.Visit K} (hv : v ∈ PinFlux.visits m.layers 0 0) (k : K) (φ : Nat → Nat → K) (hpos : Positive p.nReg p.ng φ) (g : Nat)
    (hg : g < p.ng) :
    v.pin.area * groupSource p.ng (visitMat p m φ v) k (pinFlux m φ) g (m.cell v) =
      ∑ j ∈ Finset.range v.pin.areas.length, localArea v j * groupSource p.ng (XS.mat (m.pinMats (m.cell v)) j) k φ g (v.ireg + j) := by
  set mats := m.pinMats (m.cell v) with hmats
  have hn : nRegions mats = v.pin.areas.length := h.mats v hv
  have hscat : v.pin.area * (∑ h ∈ Finset.range p.ng, if h ≠ g then (visitMat p m φ v).sc g h * pinFlux m φ (m.cell v) h else 0) =
      ∑ j ∈ Finset.range v.pin.areas.length, localArea v j * ∑ h ∈ Finset.range p.ng, if h ≠ g then (XS.mat mats j).sc g h * φ (v.ireg + j) h else 0 := by
    simp only [Finset.mul_sum]
    rw [Finset.sum_comm]
    refine Finset.sum_congr rfl fun s hs => ?_
    have hs := Finset.mem_range.mp hs
    by_cases e : s = g
    · simp [e]
    · simp only [ne_eq, e, not_false_eq_true, if_true]
      have h1 := (h.scat hv φ hpos).2 g s hg hs
      rw [← h.integral hv φ s, rate, h.mats v hv] at h1
      rw [show v.pin.area * ((visitMat p m φ v).sc g s * pinFlux m φ (m.cell v) s) = (visitMat p m φ v).sc g s * (v.pin.area * pinFlux m φ (m.cell v) s) by ring, h1]
      refine Finset.sum_congr rfl fun j _ => ?_
      unfold localFlux
      ring
  have hnfv : ∀ s < p.ng, (visitMat p m φ v).nf s * (v.pin.area * pinFlux m φ (m.cell v) s) = rate mats (localArea v) (localFlux φ v) (·.nf s) s := by
    intro s hs
    rw [h.integral hv φ s, visitMat_eq h hv]
    exact (C26_rates p.ng mats (localArea v) (localFlux φ v) s (h.integral_pos hv φ hpos s hs).ne').2.1
  have hprod : v.pin.area * ∑ s ∈ Finset.range p.ng, (visitMat p m φ v).nf s * pinFlux m φ (m.cell v) s = XS.production p.ng mats (localArea v) (localFlux φ v) := by
    rw [Finset.mul_sum, XS.production, Finset.sum_comm]
    refine Finset.sum_congr rfl fun s hs => ?_
    rw [mul_left_comm, hnfv s (Finset.mem_range.mp hs), rate]
    exact Finset.sum_congr rfl fun j _ => by ring
  have hfis : (visitMat p m φ v).ch g * XS.production p.ng mats (localArea v) (localFlux φ v) =
      ∑ j ∈ Finset.range v.pin.areas.length, (∑ s ∈ Finset.range p.ng, (XS.mat mats j).nf s * φ (v.ireg + j) s * localArea v j) * (XS.mat mats j).ch g := by
    have hterm : ∀ j ∈ Finset.range v.pin.areas.length, ∀ s ∈ Finset.range p.ng, 0 ≤ (XS.mat mats j).nf s * φ (v.ireg + j) s * localArea v j := by
      intro j hj s hs
      have hj := Finset.mem_range.mp hj
      obtain ⟨x, hx, -, e⟩ := h.mat v hv j hj
      rw [← hmats] at e
      rw [← e]
      exact mul_nonneg (mul_nonneg (h.nf x hx s (Finset.mem_range.mp hs)) (hpos _ (h.region hv j hj) s (Finset.mem_range.mp hs)).le) (h.localArea_pos hv j hj).le
    have h0 : 0 ≤ XS.production p.ng mats (localArea v) (localFlux φ v) := by
      unfold XS.production
      rw [hn]
      exact Finset.sum_nonneg fun j hj => Finset.sum_nonneg fun s hs => hterm j hj s hs
    rcases h0.lt_or_eq with hp | hp
    · rw [visitMat_eq h hv]
      have := C26_spectrum p.ng mats (localArea v) (localFlux φ v) hp g
      rw [hn] at this
      rw [← hmats, hn]
      exact this
    · rw [← hp, mul_zero]
      symm
      refine Finset.sum_eq_zero fun j hj => ?_
      have h1 : ∀ j ∈ Finset.range v.pin.areas.length, ∑ s ∈ Finset.range p.ng, (XS.mat mats j).nf s * φ (v.ireg + j) s * localArea v j = 0 := by
        rw [← Finset.sum_eq_zero_iff_of_nonneg fun j hj => Finset.sum_nonneg fun s hs => hterm j hj s hs]
        have := hp.symm
        unfold XS.production at this
        rw [hn] at this
        exact this
      rw [h1 j hj, zero_mul]
  unfold groupSource
  rw [mul_add, hscat]
  simp only [mul_add, Finset.sum_add_distrib]
  congr 1
  rw [show v.pin.area * ((visitMat p m φ v).ch g * ((∑ s ∈ Finset.range p.ng, (visitMat p m φ v).nf s * pinFlux m φ (m.cell v) s) / k)) =
    (visitMat p m φ v).ch g * (v.pin.area * ∑ s ∈ Finset.range p.ng, (visitMat p m φ v).nf s * pinFlux m φ (m.cell v) s) / k by ring, hprod, hfis, Finset.sum_div]
  refine Finset.sum_congr rfl fun j _ => ?_
  rw [← Finset.sum_mul]
  ring

theorem coarse_fits (h : PinsFit p m) (φ : Nat → Nat → K) (hpos : Positive p.nReg p.ng φ) : Fits (coarseProblem p m φ) m.G where
  part := by
    refine ⟨?_, ?_⟩
    · intro x hx
      obtain ⟨v, -, rfl⟩ := List.mem_map.mp hx
      exact List.nodup_singleton _
    · show List.Pairwise _ (List.map _ _)
      rw [List.pairwise_map]
      refine (PinFlux.visits_idx m.n2 m.layers 0 0 h.pins).imp fun {v w} hne i hi hj => ?_
      rw [List.mem_singleton] at hi hj
      exact hne (hi.symm.trans hj)
  cover := by
    intro i
    constructor
    · intro hi
      obtain ⟨v, hv, rfl⟩ := h.cells i hi
      exact ⟨_, List.mem_map_of_mem hv, List.mem_singleton_self _⟩
    · rintro ⟨x, hx, hi⟩
      obtain ⟨v, hv, rfl⟩ := List.mem_map.mp hx
      rw [List.mem_singleton] at hi
      rw [hi]
      exact h.cell_nPin hv
  cells := rfl
  sc := by
    intro x hx
    obtain ⟨v, hv, rfl⟩ := List.mem_map.mp hx
    intro a b ha hb
    exact (h.scat hv φ hpos).1 a b ha hb

/-! ### Axial surfaces -/

/-- C118: the correction of an axial surface is zero, that of any other is the one of the current. -/
theorem C118_no_axial (d : Mesh.Dims) (dt : Nat → Nat → K) (f : Cmfd.Flux K) (cur : Nat → Nat → K) (g n : Nat) :
    Cmfd.dHatAt d (dt g) (withDiffusion d dt f cur g) (fun i => f i g) n =
      if Mesh.surfaceNormal d n = .Z then 0 else Cmfd.dHatAt d (dt g) (cur g) (fun i => f i g) n := by
  unfold Cmfd.dHatAt withDiffusion
  split
  · unfold Cmfd.dHat Cmfd.current
    split
    · rfl
    · rw [show ∀ a b c : K, -a * (b - c) + 0 * (b + c) + a * (b - c) = 0 by intros; ring, zero_div]
  · rfl

/-- The current that diffusion alone would give through surface `n`. -/
def diffusion (d : Mesh.Dims) (dt : Nat → Nat → K) (f : Cmfd.Flux K) (g n : Nat) : K :=
  -dt g n * (Cmfd.side (fun i => f i g) (Mesh.coarseNeighCells d n).2 - Cmfd.side (fun i => f i g) (Mesh.coarseNeighCells d n).1)

theorem withDiffusion_axial (d : Mesh.Dims) (dt : Nat → Nat → K) (f : Cmfd.Flux K) (cur : Nat → Nat → K) (g n : Nat) (h : Mesh.surfaceNormal d n = .Z) :
    withDiffusion d dt f cur g n = diffusion d dt f g n := by
  unfold withDiffusion diffusion Cmfd.current
  rw [if_pos h, zero_mul, add_zero]

theorem withDiffusion_radial (d : Mesh.Dims) (dt : Nat → Nat → K) (f : Cmfd.Flux K) (cur : Nat → Nat → K) (g n : Nat) (h : Mesh.surfaceNormal d n ≠ .Z) :
    withDiffusion d dt f cur g n = cur g n := by
  unfold withDiffusion
  rw [if_neg h]

theorem side_agree (d : Mesh.Dims) (ng : Nat) (f f' : Cmfd.Flux K) (hf : Agree (Mesh.nPin d) ng f f') (g : Nat) (hg : g < ng) (n : Nat) (hx : 0 < d.nx) (hy : 0 < d.ny)
    (hz : 0 < d.nz) (hn : n < Mesh.nSurf d) :
    Cmfd.side (fun i => f i g) (Mesh.coarseNeighCells d n).1 = Cmfd.side (fun i => f' i g) (Mesh.coarseNeighCells d n).1 ∧
    Cmfd.side (fun i => f i g) (Mesh.coarseNeighCells d n).2 = Cmfd.side (fun i => f' i g) (Mesh.coarseNeighCells d n).2 := by
  obtain ⟨t1, t2, -⟩ := Mesh.C12_cells_touch_surface d hx hy hz n hn
  have hside : ∀ z : Int, (z = -1 ∨ ∃ c : Nat, z = c ∧ c < Mesh.nPin d) → Cmfd.side (fun i => f i g) z = Cmfd.side (fun i => f' i g) z := by
    rintro z (rfl | ⟨c, rfl, hc⟩)
    · simp [Cmfd.side]
    · rw [Cmfd.side_nat, Cmfd.side_nat]; exact hf c hc g hg
  exact ⟨hside _ (t1.imp id fun ⟨c, a, b, _⟩ => ⟨c, a, b⟩), hside _ (t2.imp id fun ⟨c, a, b, _⟩ => ⟨c, a, b⟩)⟩

theorem zeroFix_agree (n ng : Nat) (fix : Bool) (f : Cmfd.Flux K) (h : Positive n ng f) : Agree n ng (Cmfd.zeroFix fix f) f := by
  intro i hi g hg
  rw [Cmfd.zeroFix]
  split
  · exact max_eq_left (h i hi g hg).le
  · rfl

theorem leakage_congr (G : Grid K) (J J' : Nat → K) (ix iy iz : Nat) (hx : ix < G.d.nx) (hy : iy < G.d.ny) (hz : iz < G.d.nz) (h : ∀ n < Mesh.nSurf G.d, J n = J' n) :
    Sn.leakage G.d G.dx G.dy G.dz J ix iy iz = Sn.leakage G.d G.dx G.dy G.dz J' ix iy iz := by
  refine (leakage_sum G.d G.w J ix iy iz hx hy hz).symm.trans (Eq.trans ?_ (leakage_sum G.d G.w J' ix iy iz hx hy hz))
  congr 1
  refine List.map_congr_left fun s hs => ?_
  have hs' : s ≠ .INTERNAL := by rintro rfl; simp [Mesh.allSurfaces] at hs
  obtain ⟨n, hn, hlt⟩ := Mesh.C11_surface_in_range G.d ix iy iz s hs' hx hy hz
  have e : Cmfd.surf G.d (Mesh.coarseCell G.d ⟨ix, iy, iz⟩) s = n := by unfold Cmfd.surf; rw [hn]; rfl
  rw [e, h n hlt]

/-! ### CMFD -/

theorem PinsFit.unique (h : PinsFit p m) (x y : XsRegion (Mat K)) (hx : x ∈ p.rs) (hy : y ∈ p.rs) (i : Nat) (h1 : i ∈ x.regs) (h2 : i ∈ y.regs) : x = y := by
  by_contra hne
  haveI : Std.Symm fun x y : XsRegion (Mat K) => ∀ i, i ∈ x.regs → i ∉ y.regs := ⟨fun _ _ h i a b => h i b a⟩
  exact h.part.2.forall hx hy hne i h1 h2

theorem C118_visitMat_nf (h : PinsFit p m) {v : PinFlux.Visit K} (hv : v ∈ PinFlux.visits m.layers 0 0) (φ : Nat → Nat → K) (hpos : Positive p.nReg p.ng φ) (g : Nat)
    (hg : g < p.ng) : 0 ≤ (visitMat p m φ v).nf g ∧ ∀ j < v.pin.areas.length, (XS.mat (m.pinMats (m.cell v)) j).nf g ≠ 0 → (visitMat p m φ v).nf g ≠ 0 := by
  have hi := h.integral_pos hv φ hpos g hg
  have h2 := (C26_rates p.ng (m.pinMats (m.cell v)) (localArea v) (localFlux φ v) g hi.ne').2.1
  have h3 : (visitMat p m φ v).nf g * fluxIntegral (m.pinMats (m.cell v)) (localArea v) (localFlux φ v) g =
      rate (m.pinMats (m.cell v)) (localArea v) (localFlux φ v) (·.nf g) g := by rw [visitMat_eq h hv]; exact h2
  have hterm : ∀ j ∈ Finset.range v.pin.areas.length, 0 ≤ localArea v j * localFlux φ v j g * (XS.mat (m.pinMats (m.cell v)) j).nf g := by
    intro j hj
    have hj := Finset.mem_range.mp hj
    obtain ⟨x, hx, -, e⟩ := h.mat v hv j hj
    rw [← e]
    exact mul_nonneg (mul_nonneg (h.localArea_pos hv j hj).le (hpos _ (h.region hv j hj) g hg).le) (h.nf x hx g hg)
  rw [rate, h.mats v hv] at h3
  refine ⟨?_, fun j hj hne h0 => ?_⟩
  · exact nonneg_of_mul_nonneg_left (by rw [h3]; exact Finset.sum_nonneg hterm) hi
  · rw [h0, zero_mul] at h3
    have := (Finset.sum_eq_zero_iff_of_nonneg hterm).mp h3.symm j (Finset.mem_range.mpr hj)
    have h5 : localArea v j * localFlux φ v j g ≠ 0 := mul_ne_zero (h.localArea_pos hv j hj).ne' (hpos _ (h.region hv j hj) g hg).ne'
    exact (mul_ne_zero h5 hne) this

/-- Sources and fission of the fine regions: none is negative, every group has a source somewhere, and there is fission somewhere. -/
structure Sourced (p : Problem K) (k : K) (φ : Nat → Nat → K) : Prop where
  kpos : 0 < k
  ch : ∀ x ∈ p.rs, ∀ g < p.ng, 0 ≤ x.mat.ch g
  src : ∀ g < p.ng, ∃ x ∈ p.rs, ∃ i ∈ x.regs, i < p.nReg ∧ groupSource p.ng x.mat k φ g i ≠ 0
  fis : ∃ x ∈ p.rs, ∃ i ∈ x.regs, i < p.nReg ∧ ∃ g < p.ng, x.mat.nf g ≠ 0

theorem PinsFit.find (h : PinsFit p m) (x : XsRegion (Mat K)) (hx : x ∈ p.rs) (i : Nat) (hi : i ∈ x.regs) (hn : i < p.nReg) :
    ∃ v ∈ PinFlux.visits m.layers 0 0, ∃ j < v.pin.areas.length, i = v.ireg + j ∧ x.mat = XS.mat (m.pinMats (m.cell v)) j := by
  obtain ⟨v, hv, h1, h2⟩ := (h.regs i).mp hn
  refine ⟨v, hv, i - v.ireg, by omega, by omega, ?_⟩
  obtain ⟨y, hy, hy1, hy2⟩ := h.mat v hv (i - v.ireg) (by omega)
  rw [show v.ireg + (i - v.ireg) = i by omega] at hy1
  rw [h.unique x y hx hy i hi hy1, hy2]

theorem Sourced.coarse {k : K} {φ : Nat → Nat → K} (h : PinsFit p m) (hs : Sourced p k φ) (hpos : Positive p.nReg p.ng φ) (g : Nat) (hg : g < p.ng) :
    ∃ x ∈ (coarseProblem p m φ).rs, ∃ i ∈ x.regs, Cmfd.vol m.G.d m.G.w i * groupSource p.ng x.mat k (pinFlux m φ) g i ≠ 0 := by
  obtain ⟨x, hx, i, hi, hn, hne⟩ := hs.src g hg
  obtain ⟨v, hv, j, hj, rfl, e⟩ := h.find x hx i hi hn
  refine ⟨_, List.mem_map_of_mem hv, _, List.mem_singleton_self _, mul_ne_zero ?_ fun h0 => ?_⟩
  · have h1 := h.cell_nPin hv
    obtain ⟨a, b, c⟩ := Mesh.pos_lt m.G.d _ h1
    have hv' := Cmfd.vol_eq m.G.d m.G.w _ _ (Mesh.coarsePosition m.G.d (m.cell v)).z a b
    have hc : Mesh.coarseCell m.G.d ⟨(Mesh.coarsePosition m.G.d (m.cell v)).x, (Mesh.coarsePosition m.G.d (m.cell v)).y, (Mesh.coarsePosition m.G.d (m.cell v)).z⟩ = m.cell v :=
      Mesh.cell_pos m.G.d _
    rw [hc] at hv'
    rw [hv']
    exact (mul_pos (mul_pos (h.dx _ a) (h.dy _ b)) (h.dz _ c)).ne'
  · have h1 := C118_source h hv k φ hpos g hg
    rw [h0, mul_zero] at h1
    have hterm : ∀ j ∈ Finset.range v.pin.areas.length, 0 ≤ localArea v j * groupSource p.ng (XS.mat (m.pinMats (m.cell v)) j) k φ g (v.ireg + j) := by
      intro j hj
      have hj := Finset.mem_range.mp hj
      obtain ⟨y, hy, -, ey⟩ := h.mat v hv j hj
      rw [← ey]
      refine mul_nonneg (h.localArea_pos hv j hj).le (add_nonneg (mul_nonneg (hs.ch y hy g hg) (div_nonneg ?_ hs.kpos.le)) (Finset.sum_nonneg fun s hs' => ?_))
      · exact Finset.sum_nonneg fun s hs' => mul_nonneg (h.nf y hy s (Finset.mem_range.mp hs')) (hpos _ (h.region hv j hj) s (Finset.mem_range.mp hs')).le
      · split
        · exact mul_nonneg (h.sc y hy g s hg (Finset.mem_range.mp hs')) (hpos _ (h.region hv j hj) s (Finset.mem_range.mp hs')).le
        · exact le_rfl
    have h2 := (Finset.sum_eq_zero_iff_of_nonneg hterm).mp h1.symm j (Finset.mem_range.mpr hj)
    rw [← e] at h2
    exact (mul_ne_zero (h.localArea_pos hv j hj).ne' hne) h2

theorem setPins_same (h : PinsFit p m) (φ f : Nat → Nat → K) (hpos : Positive p.nReg p.ng φ) (hf : Agree (Mesh.nPin m.G.d) p.ng f (pinFlux m φ)) : setPins p m f φ = some φ := by
  have hone : ∀ g < p.ng, ∃ r, PinFlux.setPin m.n2 m.G.d.nz (Mesh.nPin m.G.d) m.G.dz id m.G.dz m.layers (fun r => φ r g) (fun i => f i g) .pinPlane = some r ∧ r.1 = fun i => φ i g := by
    intro g hg
    refine ⟨(PinFlux.visits m.layers 0 0).foldl (PinFlux.setStep m.n2 fun i => f i g) (fun r => φ r g, 0), ?_, ?_⟩
    · unfold PinFlux.setPin
      rw [if_pos]
      · rfl
      · rw [List.all_eq_true]
        intro i hi
        rw [decide_eq_true_eq]
        show 0 < f i g
        rw [hf i (List.mem_range.mp hi) g hg]
        exact h.pin_pos φ hpos i (List.mem_range.mp hi) g hg
    · funext i
      by_cases hi : ∃ v ∈ PinFlux.visits m.layers 0 0, v.ireg ≤ i ∧ i < v.ireg + v.pin.areas.length
      · obtain ⟨v, hv, h1, h2⟩ := hi
        rw [PinFlux.set_in m.n2 _ _ (PinFlux.visits_before m.layers 0 0) _ v hv i h1 h2]
        have h3 : f (PinFlux.idx m.n2 v) g = PinFlux.areaAverage (fun r => φ r g) v := by
          have h4 := hf (m.cell v) (h.cell_nPin hv) g hg
          have h5 := h.integral hv φ g
          rw [show PinFlux.idx m.n2 v = m.cell v from rfl, h4, PinFlux.areaAverage, eq_div_iff (h.area_pos hv).ne', mul_comm, h5, PinFlux.dot_sum, fluxIntegral, h.mats v hv]
          refine Finset.sum_congr rfl fun j _ => ?_
          rw [localArea, localFlux, List.getD_eq_getElem?_getD, mul_comm]
        have h6 : PinFlux.areaAverage (fun r => φ r g) v ≠ 0 := by
          rw [← h3, show PinFlux.idx m.n2 v = m.cell v from rfl, hf _ (h.cell_nPin hv) g hg]
          exact (h.pin_pos φ hpos _ (h.cell_nPin hv) g hg).ne'
        show φ i g * (f (PinFlux.idx m.n2 v) g / PinFlux.areaAverage (fun r => φ r g) v) = _
        rw [h3, div_self h6, mul_one]
      · rw [PinFlux.set_out]
        intro v hv hh
        exact hi ⟨v, hv, hh⟩
  unfold setPins
  dsimp only
  rw [if_pos]
  · congr 1
    funext i g
    split
    · next hg =>
      obtain ⟨r, h1, h2⟩ := hone g hg
      rw [h1, Option.map_some, Option.getD_some, h2]
    · rfl
  · rw [List.all_eq_true]
    intro g hg
    obtain ⟨r, h1, -⟩ := hone g (List.mem_range.mp hg)
    rw [h1]; rfl

/-- C118: CMFD leaves eigenvalue, state of the sweeper and radial currents of a positive solution in balance as they are; the axial currents become those of diffusion. -/
theorem C118_cmfd (c : CmfdSetup K) (h : PinsFit p m) (hlin : KeepsSolution (Mesh.nPin m.G.d) c.lin) (k : K) (a : MocAccState K) (hpos : Positive p.nReg p.ng a.s.flux)
    (hs : Sourced p k a.s.flux) (J : Nat → Nat → K) (hJ : ∀ g < p.ng, a.cur g = some (J g))
    (hb : InBalance (coarseProblem p m a.s.flux) m.G k (pinFlux m a.s.flux) (withDiffusion m.G.d c.dt (pinFlux m a.s.flux) J)) :
    ∃ a', doCmfdMoc c p m k a = some (k, a') ∧ a'.s = a.s ∧ (∀ g, p.ng ≤ g → a'.cur g = a.cur g) ∧
      ∀ g < p.ng, ∃ J', a'.cur g = some J' ∧ ∀ n < Mesh.nSurf m.G.d, J' n = withDiffusion m.G.d c.dt (pinFlux m a.s.flux) J g n := by
  set φ := a.s.flux with hφ
  have hpp := h.pin_pos φ hpos
  have hf := coarse_fits h φ hpos
  obtain ⟨x0, hx0, i0, hi0, hn0, -⟩ := hs.fis
  obtain ⟨v0, hv0, -⟩ := h.find x0 hx0 i0 hi0 hn0
  obtain ⟨hx, hy, hz⟩ := Mesh.pos_lt m.G.d _ (h.cell_nPin hv0)
  have hx : 0 < m.G.d.nx := by omega
  have hy : 0 < m.G.d.ny := by omega
  have hz : 0 < m.G.d.nz := by omega
  have hag := zeroFix_agree _ _ c.fix _ hpp
  set f0 := Cmfd.zeroFix c.fix (pinFlux m φ) with hf0
  set J0 := withDiffusion m.G.d c.dt f0 fun g => (a.cur g).getD fun _ => 0 with hJ0
  have hJJ : ∀ g < p.ng, ∀ n < Mesh.nSurf m.G.d, J0 g n = withDiffusion m.G.d c.dt (pinFlux m φ) J g n := by
    intro g hg n hn
    obtain ⟨e1, e2⟩ := side_agree m.G.d p.ng f0 (pinFlux m φ) hag g hg n hx hy hz hn
    by_cases hzn : Mesh.surfaceNormal m.G.d n = .Z
    · rw [hJ0, withDiffusion_axial _ _ _ _ _ _ hzn, withDiffusion_axial _ _ _ _ _ _ hzn, diffusion, diffusion, e1, e2]
    · rw [hJ0, withDiffusion_radial _ _ _ _ _ _ hzn, withDiffusion_radial _ _ _ _ _ _ hzn, hJ g hg]
      rfl
  have hb0 : InBalance (coarseProblem p m φ) m.G k (pinFlux m φ) J0 := by
    intro g hg x hx ix h1 iy h2 iz h3 hi
    rw [← hb g hg x hx ix h1 iy h2 iz h3 hi]
    congr 1
    exact leakage_congr m.G _ _ ix iy iz h1 h2 h3 fun n hn => hJJ g hg n hn
  obtain ⟨hk, hfl, hcur⟩ := C116_run c (coarseProblem p m φ) m.G hf hlin k (pinFlux m φ) J0 hb0 hpp (fun g hg => hs.coarse h hpos g hg)
    (by
      obtain ⟨x, hx, i, hi, hn, g, hg, hne⟩ := hs.fis
      obtain ⟨v, hv, j, hj, -, e⟩ := h.find x hx i hi hn
      exact ⟨_, List.mem_map_of_mem hv, _, List.mem_singleton_self _, g, hg, (C118_visitMat_nf h hv φ hpos g hg).2 j hj (e ▸ hne)⟩)
    (by
      intro x hx g hg
      obtain ⟨v, hv, rfl⟩ := List.mem_map.mp hx
      exact (C118_visitMat_nf h hv φ hpos g hg).1)
  have hset := setPins_same h φ _ hpos hfl
  refine ⟨⟨a.s, fun g => if g < p.ng then
        some fun n => if n < Mesh.nSurf m.G.d then
          Cmfd.currentAt m.G.d (c.dt g) (Cmfd.dHatAt m.G.d (c.dt g) (J0 g) (fun i => f0 i g)) (fun i => (cmfdRun c (coarseProblem p m φ) m.G k (pinFlux m φ) J0).2 i g) n
          else J0 g n
        else a.cur g⟩, ?_, rfl, fun g hg => if_neg (by omega), fun g hg => ⟨_, if_pos hg, fun n hn => ?_⟩⟩
  · unfold doCmfdMoc
    rw [if_pos]
    · dsimp only
      rw [← hφ, ← hf0, ← hJ0, hset, hk]
      rfl
    · rw [List.all_eq_true]
      intro g hg
      rw [hJ g (List.mem_range.mp hg)]; rfl
  · rw [if_pos hn]
    exact (hcur g hg n hn).trans (hJJ g hg n hn)

end

/-! ### The sweep -/

/-- The data of the sweeper: rays laid out on the mesh, with regions of the pins they cross (`cellOf`), one inner iteration. -/
structure RaysFit (L : Moc.Lay ℝ) (cellOf : Nat → Nat) (p : Problem ℝ) (m : MocAcc ℝ) : Prop where
  lay : L.d = m.G.d
  lx : m.G.w.dx.length = m.G.d.nx
  ly : m.G.w.dy.length = m.G.d.ny
  lz : m.G.w.dz.length = m.G.d.nz
  cell : ∀ v ∈ PinFlux.visits m.layers 0 0, ∀ j < v.pin.areas.length, cellOf (v.ireg + j) = m.cell v
  planes : Moc.PlanesOk L cellOf p.nReg m.planes 0
  nplanes : m.planes.length ≤ m.G.d.nz
  inner : m.nInner = 1
  fpi : m.fpi ≠ 0
  tr : ∀ x ∈ p.rs, ∀ g < p.ng, 0 < x.mat.tr g

theorem cellSum_visit {p : Problem ℝ} {m : MocAcc ℝ} (h : PinsFit p m) (cellOf : Nat → Nat)
    (hc : ∀ v ∈ PinFlux.visits m.layers 0 0, ∀ j < v.pin.areas.length, cellOf (v.ireg + j) = m.cell v) {v : PinFlux.Visit ℝ} (hv : v ∈ PinFlux.visits m.layers 0 0) (f : Nat → ℝ) :
    Moc.cellSum cellOf p.nReg (m.cell v) f = ∑ j ∈ Finset.range v.pin.areas.length, f (v.ireg + j) := by
  unfold Moc.cellSum
  rw [← Finset.sum_filter]
  have e : (Finset.range p.nReg).filter (fun i => cellOf i = m.cell v) = (Finset.range v.pin.areas.length).image (v.ireg + ·) := by
    ext i
    simp only [Finset.mem_filter, Finset.mem_range, Finset.mem_image]
    constructor
    · rintro ⟨h1, h2⟩
      obtain ⟨w, hw, h3, h4⟩ := (h.regs i).mp h1
      have h5 := hc w hw (i - w.ireg) (by omega)
      rw [show w.ireg + (i - w.ireg) = i by omega, h2] at h5
      have h6 := h.inj hv hw h5
      subst h6
      exact ⟨i - v.ireg, by omega, by omega⟩
    · rintro ⟨j, hj, rfl⟩
      exact ⟨h.region hv j hj, hc v hv j hj⟩
  rw [e, Finset.sum_image]
  intro a _ b _ hab
  exact Nat.add_left_cancel hab

theorem planesOk_take (L : Moc.Lay ℝ) (cellOf : Nat → Nat) (N : Nat) (ps : List (Moc.PlaneCur ℝ)) (n k : Nat) (h : Moc.PlanesOk L cellOf N ps k) :
    Moc.PlanesOk L cellOf N (ps.take n) k := by
  induction ps generalizing n k with
  | nil => simp [Moc.PlanesOk]
  | cons a ps ih =>
    cases n with
    | zero => simp [Moc.PlanesOk]
    | succ n => exact ⟨h.1, ih n (k + 1) h.2⟩

theorem zip_take {α β : Type} (l : List α) (l' : List β) : (l.zip l').map Prod.fst = l.take l'.length := by
  induction l generalizing l' with
  | nil => simp
  | cons a l ih =>
    cases l' with
    | nil => simp
    | cons b l' => simp [ih]

theorem mocAcc_only (p : Problem ℝ) (m : MocAcc ℝ) : OnlyGroup (mocAccSweeper p m) := fun g src s i h hne => mocSweep_only p m.moc g src s.s i h hne

theorem onFace_lateral (d : Mesh.Dims) (J J' : Nat → ℝ) (k : Nat) (hk : k < d.nz) (c : Nat × Nat) (hc : c.1 < d.nx ∧ c.2 < d.ny) (s : Mesh.Surface) (hs : Moc.Lateral s)
    (h : ∀ n, Mesh.surfaceNormal d n ≠ .Z → J n = J' n) : Moc.onFace d J k c s = Moc.onFace d J' k c s := by
  unfold Moc.onFace
  obtain ⟨f, hf, ha⟩ : ∃ f, Verif.Mesh.Spec.faceOf c.1 c.2 k s = some f ∧ f.axis ≠ .z := by
    rcases hs with rfl | rfl | rfl | rfl <;> exact ⟨_, rfl, by simp⟩
  have he := Mesh.coarseSurf_enc d c.1 c.2 k s f hf hc.1 hc.2 hk
  have hn := Mesh.C13_normal d c.1 c.2 k s f _ hc.1 hc.2 hk hf he
  unfold Moc.cellNo
  rw [he]
  refine h _ ?_
  rw [hn]
  revert ha
  cases f.axis <;> simp [Verif.Mesh.Spec.Axis.normal]

theorem onFace_axial (d : Mesh.Dims) (J J' : Nat → ℝ) (k : Nat) (hk : k < d.nz) (c : Nat × Nat) (hc : c.1 < d.nx ∧ c.2 < d.ny) (s : Mesh.Surface) (hs : s = .TOP ∨ s = .BOTTOM)
    (h : ∀ n < Mesh.nSurf d, Mesh.surfaceNormal d n = .Z → J n = J' n) : Moc.onFace d J k c s = Moc.onFace d J' k c s := by
  unfold Moc.onFace
  obtain ⟨f, hf, ha⟩ : ∃ f, Verif.Mesh.Spec.faceOf c.1 c.2 k s = some f ∧ f.axis = .z := by rcases hs with rfl | rfl <;> exact ⟨_, rfl, rfl⟩
  have he := Mesh.coarseSurf_enc d c.1 c.2 k s f hf hc.1 hc.2 hk
  have hn := Mesh.C13_normal d c.1 c.2 k s f _ hc.1 hc.2 hk hf he
  unfold Moc.cellNo
  rw [he]
  refine h _ (Mesh.enc_lt d f (Mesh.faceOf_valid d c.1 c.2 k s f hf hc.1 hc.2 hk)) ?_
  rw [hn, ha]; rfl

theorem leakage_faces (G : Grid ℝ) (J : Nat → ℝ) (ix iy iz : Nat) : Sn.leakage G.d G.dx G.dy G.dz J ix iy iz =
    G.dy iy * G.dz iz * (Moc.onFace G.d J iz (ix, iy) .EAST - Moc.onFace G.d J iz (ix, iy) .WEST) +
    G.dx ix * G.dz iz * (Moc.onFace G.d J iz (ix, iy) .NORTH - Moc.onFace G.d J iz (ix, iy) .SOUTH) +
    G.dx ix * G.dy iy * (Moc.onFace G.d J iz (ix, iy) .TOP - Moc.onFace G.d J iz (ix, iy) .BOTTOM) := rfl

/-- C118: after an outer iteration of MoC that left the flux as it was, in every coarse cell and group: removal with the cross sections of CMFD, the radial currents of the
sweep and the axial currents of diffusion differ from the source of CMFD by the net axial current of diffusion. -/
theorem C118_residual (L : Moc.Lay ℝ) (cellOf : Nat → Nat) (p : Problem ℝ) (m : MocAcc ℝ) (h : PinsFit p m) (hr : RaysFit L cellOf p m) (dt : Nat → Nat → ℝ) (k k' : ℝ)
    (a a' : MocAccState ℝ) (ha : outer p (mocAccSweeper p m) k a = some (k', a')) (hfix : ∀ i < p.nReg, ∀ g < p.ng, a'.s.flux i g = a.s.flux i g)
    (hpos : Positive p.nReg p.ng a.s.flux) (hcur : ∀ g < p.ng, (a.cur g).isSome) :
    ∃ J : Nat → Nat → ℝ, (∀ g < p.ng, a'.cur g = some (J g)) ∧ ∀ g < p.ng, ∀ v ∈ PinFlux.visits m.layers 0 0, ∀ ix < m.G.d.nx, ∀ iy < m.G.d.ny, ∀ iz < m.G.d.nz,
      m.cell v = Mesh.coarseCell m.G.d ⟨ix, iy, iz⟩ →
      m.G.dx ix * m.G.dy iy * m.G.dz iz * (((visitMat p m a'.s.flux v).tr g - (visitMat p m a'.s.flux v).sc g g) * pinFlux m a'.s.flux (m.cell v) g) +
          Sn.leakage m.G.d m.G.dx m.G.dy m.G.dz (withDiffusion m.G.d dt (pinFlux m a'.s.flux) J g) ix iy iz =
        m.G.dx ix * m.G.dy iy * m.G.dz iz * groupSource p.ng (visitMat p m a'.s.flux v) k (pinFlux m a'.s.flux) g (m.cell v) +
          m.G.dx ix * m.G.dy iy * (Moc.onFace m.G.d (diffusion m.G.d dt (pinFlux m a'.s.flux) g) iz (ix, iy) .TOP -
            Moc.onFace m.G.d (diffusion m.G.d dt (pinFlux m a'.s.flux) g) iz (ix, iy) .BOTTOM) := by
  have hpos' : Positive p.nReg p.ng a'.s.flux := fun i hi g hg => by rw [hfix i hi g hg]; exact hpos i hi g hg
  have key : ∀ g < p.ng, ∃ J, a'.cur g = some J ∧ ∀ v ∈ PinFlux.visits m.layers 0 0, ∀ ix < m.G.d.nx, ∀ iy < m.G.d.ny, ∀ iz < m.G.d.nz,
      m.cell v = Mesh.coarseCell m.G.d ⟨ix, iy, iz⟩ →
      m.G.dy iy * m.G.dz iz * (Moc.onFace m.G.d J iz (ix, iy) .EAST - Moc.onFace m.G.d J iz (ix, iy) .WEST) +
        m.G.dx ix * m.G.dz iz * (Moc.onFace m.G.d J iz (ix, iy) .NORTH - Moc.onFace m.G.d J iz (ix, iy) .SOUTH) =
      m.G.dz iz * (v.pin.area * groupSource p.ng (visitMat p m a'.s.flux v) k (pinFlux m a'.s.flux) g (m.cell v) -
        v.pin.area * (((visitMat p m a'.s.flux v).tr g - (visitMat p m a'.s.flux v).sc g g) * pinFlux m a'.s.flux (m.cell v) g)) := by
    intro g hg
    have h0 := ha
    rw [outer] at ha
    obtain ⟨w, h4, h5⟩ := Option.map_eq_some_iff.mp ha
    rw [Prod.mk.injEq] at h5
    obtain ⟨-, rfl⟩ := h5
    obtain ⟨t, src, hat, hsw, ht⟩ := atGroup p (mocAccSweeper p m) (mocAcc_only p m) k k' a _ h0 g hg
    have ht' : ∀ i < p.nReg, ∀ g' < p.ng, t.s.flux i g' = a.s.flux i g' := by
      intro i hi g' hg'
      have := ht i g'
      rw [show (mocAccSweeper p m).flux t i g' = t.s.flux i g' from rfl] at this
      rw [this]
      split
      · exact hfix i hi g' hg'
      · rfl
    have hwc : w.cur g = mocCurrents p m g src t.s (t.cur g) := by
      obtain ⟨b, hbn⟩ : ∃ b, p.ng = g + (b + 1) := ⟨p.ng - g - 1, by omega⟩
      have hsp := groupLoop_split p (mocAccSweeper p m) (calcFissionSource p.ng p.rs k ((mocAccSweeper p m).flux a)) g (b + 1) 0 a
      rw [← hbn, h4, hat.1, Option.bind_some, Nat.zero_add, groupLoop, hat.2, Option.bind_some] at hsp
      have := loop_other p (mocAccSweeper p m) MocAccState.cur (fun g src s h hne => if_neg hne) _ _ _ _ _ hsp.symm g (by omega)
      rw [this]
      exact if_pos rfl
    have htc : t.cur g = a.cur g := loop_other p (mocAccSweeper p m) MocAccState.cur (fun g src s h hne => if_neg hne) _ _ _ _ _ hat.1 g (by omega)
    obtain ⟨old, hold⟩ := Option.isSome_iff_exists.mp (hcur g hg)
    set q := selfScatter m.fpi p.ng p.rs t.s.flux g src true t.s.q with hq
    set ps := m.planes.zip ((t.s.bin g).zip t.s.bout) with hps
    have hmc : mocCurrents p m g src t.s (t.cur g) = Moc.currents1g m.G.d id (fun n => (Mesh.coarseAreaSurf m.G.d m.G.w n).getD 0) m.expo (trOf p.rs g) q m.gs m.u ps
        (keepAxial m.G.d old) := by
      unfold mocCurrents
      rw [if_neg (by rw [hr.inner]; decide), hr.inner, htc, hold]
      rfl
    have hmat : ∀ v ∈ PinFlux.visits m.layers 0 0, ∀ j < v.pin.areas.length, trOf p.rs g (v.ireg + j) = (XS.mat (m.pinMats (m.cell v)) j).tr g ∧
        0 < (XS.mat (m.pinMats (m.cell v)) j).tr g ∧
        q (v.ireg + j) = (src (v.ireg + j) + t.s.flux (v.ireg + j) g * (XS.mat (m.pinMats (m.cell v)) j).sc g g) * (1 / ((XS.mat (m.pinMats (m.cell v)) j).tr g * m.fpi)) ∧
        src (v.ireg + j) = groupSource p.ng (XS.mat (m.pinMats (m.cell v)) j) k w.s.flux g (v.ireg + j) := by
      intro v hv j hj
      obtain ⟨x, hx, hi, e⟩ := h.mat v hv j hj
      have hi' := h.region hv j hj
      rw [← e]
      refine ⟨trOf_at p.rs h.part g x hx _ hi, hr.tr x hx g hg, ?_, ?_⟩
      · rw [hq, selfScatter_at m.fpi p.ng p.rs h.part t.s.flux g hg src true t.s.q x hx _ hi]
        simp
      · obtain ⟨src', h6, h7⟩ := C28_assemble_partial p.ng p.nReg p.rs (calcFissionSource p.ng p.rs k ((mocAccSweeper p m).flux a)) ((mocAccSweeper p m).flux t) g h.part h.sc hg
        have h8 := hat.2
        rw [h6, Option.some.injEq] at h8
        rw [← h8, h7 x hx _ hi, defined, C47_fission_source p.ng p.rs h.part k _ x hx _ hi, zero_add, groupSource]
        congr 1
        · congr 2
          exact Finset.sum_congr rfl fun s hs => by rw [hfix _ hi' s (Finset.mem_range.mp hs)]; rfl
        · refine Finset.sum_congr rfl fun s hs => ?_
          rw [hfix _ hi' s (Finset.mem_range.mp hs), ← ht' _ hi' s (Finset.mem_range.mp hs)]; rfl
    have hxv : ∀ i < p.nReg, trOf p.rs g i * p.vol i ≠ 0 := by
      intro i hi
      obtain ⟨v, hv, h1, h2⟩ := (h.regs i).mp hi
      obtain ⟨j, rfl⟩ : ∃ j, i = v.ireg + j := ⟨i - v.ireg, by omega⟩
      have hj : j < v.pin.areas.length := by omega
      obtain ⟨e1, e2, -⟩ := hmat v hv j hj
      rw [e1, h.vol v hv j hj]
      exact mul_ne_zero e2.ne' (mul_ne_zero (h.localArea_pos hv j hj).ne' (h.dz _ (h.iz hv)).ne')
    obtain ⟨near, nearAbs, d, xs, ys⟩ := L
    have hd : d = m.G.d := hr.lay
    subst hd
    have wne : ∀ (l : List ℝ) (n : Nat), l.length = n → (∀ i < n, 0 < l.getD i 0) → ∀ x ∈ l, x ≠ 0 := by
      intro l n hl hp x hx
      obtain ⟨i, hi, rfl⟩ := List.mem_iff_getElem.mp hx
      have := hp i (hl ▸ hi)
      rw [List.getD_eq_getElem?_getD, List.getElem?_eq_getElem hi] at this
      exact this.ne'
    obtain ⟨J, hJ, hbal⟩ := Moc.C117_balance ⟨near, nearAbs, m.G.d, xs, ys⟩ m.G.w hr.lx hr.ly hr.lz (wne _ _ hr.lx h.dx) (wne _ _ hr.ly h.dy) (wne _ _ hr.lz h.dz) cellOf p.nReg
      m.expo m.fpi (trOf p.rs g) p.vol q m.gs m.u ps
      (by rw [hps, List.length_zip]; exact le_trans (min_le_left _ _) hr.nplanes)
      (by rw [hps, zip_take]; exact planesOk_take _ _ _ _ _ _ hr.planes) hxv (keepAxial m.G.d old)
      (by
        intro k hk c hc s hs
        rw [onFace_lateral m.G.d (keepAxial m.G.d old) (fun _ => 0) k hk c hc s hs fun n hn => if_neg hn]
        unfold Moc.onFace
        split <;> rfl)
    refine ⟨J, by rw [hwc, hmc]; exact hJ, ?_⟩
    intro v hv ix hx iy hy iz hz hcell
    obtain ⟨b1, b2, b3⟩ := hbal iz hz (ix, iy) ⟨hx, hy⟩
    have hcell' : Moc.cellNo m.G.d iz (ix, iy) = m.cell v := hcell.symm
    have hzv : v.iz = iz := (h.pos hv ix iy iz hx hy hcell).2
    have b3' : Sn.leakage m.G.d m.G.dx m.G.dy m.G.dz J ix iy iz +
        Moc.cellSum cellOf p.nReg (m.cell v) (fun i => trOf p.rs g i * p.vol i * (Moc.sweep1g m.expo m.fpi (trOf p.rs g) p.vol q m.gs m.u (ps.map fun x => (x.1.work, x.2))).1 i) =
      Moc.cellSum cellOf p.nReg (m.cell v) (fun i => m.fpi * (trOf p.rs g i * q i * p.vol i)) +
        m.G.dx ix * m.G.dy iy * (Moc.onFace m.G.d (keepAxial m.G.d old) iz (ix, iy) .TOP - Moc.onFace m.G.d (keepAxial m.G.d old) iz (ix, iy) .BOTTOM) := by
      rw [← hcell']; exact b3
    rw [leakage_faces, show Moc.onFace m.G.d J iz (ix, iy) .TOP = _ from b1, show Moc.onFace m.G.d J iz (ix, iy) .BOTTOM = _ from b2,
      cellSum_visit h cellOf hr.cell hv, cellSum_visit h cellOf hr.cell hv] at b3'
    have hsweep : ∀ i < p.nReg, (Moc.sweep1g m.expo m.fpi (trOf p.rs g) p.vol q m.gs m.u (ps.map fun x => (x.1.work, x.2))).1 i = w.s.flux i g := by
      intro i hi
      have e1 := hsw i
      have e2 : (mocAccSweeper p m).flux ((mocAccSweeper p m).sweep g src t) i g = (mocSweep p m.moc g src t.s).flux i g := rfl
      have e3 : (mocSweep p m.moc g src t.s) = mocInner p m.moc g src t.s := by
        unfold mocSweep
        rw [show m.moc.nInner = 1 from hr.inner]
        rfl
      have e4 : (mocInner p m.moc g src t.s).flux i g = (Moc.sweep1g m.expo m.fpi (trOf p.rs g) p.vol q m.gs m.u
          ((m.planes.map Moc.PlaneCur.work).zip ((t.s.bin g).zip t.s.bout))).1 i := by
        show (if g = g then _ else _) = _
        rw [if_pos rfl]
        rfl
      have e5 : (m.planes.map Moc.PlaneCur.work).zip ((t.s.bin g).zip t.s.bout) = ps.map fun x => (x.1.work, x.2) := by
        rw [hps, List.zip_map_left]
        rfl
      rw [e2, e3, e4, e5] at e1
      exact e1.symm
    have hA := C118_removal h hv w.s.flux hpos' g hg
    have hS := C118_source h hv k w.s.flux hpos' g hg
    rw [hA, hS, ← Finset.sum_sub_distrib, Finset.mul_sum]
    have hcol : ∀ j ∈ Finset.range v.pin.areas.length,
        m.fpi * (trOf p.rs g (v.ireg + j) * q (v.ireg + j) * p.vol (v.ireg + j)) -
          trOf p.rs g (v.ireg + j) * p.vol (v.ireg + j) * (Moc.sweep1g m.expo m.fpi (trOf p.rs g) p.vol q m.gs m.u (ps.map fun x => (x.1.work, x.2))).1 (v.ireg + j) =
        m.G.dz iz * (localArea v j * groupSource p.ng (XS.mat (m.pinMats (m.cell v)) j) k w.s.flux g (v.ireg + j) -
          localArea v j * (((XS.mat (m.pinMats (m.cell v)) j).tr g - (XS.mat (m.pinMats (m.cell v)) j).sc g g) * w.s.flux (v.ireg + j) g)) := by
      intro j hj
      have hj := Finset.mem_range.mp hj
      obtain ⟨e1, e2, e3, e4⟩ := hmat v hv j hj
      have hi' := h.region hv j hj
      have hf := hr.fpi
      rw [hsweep _ hi', e1, e3, ← e4, ht' _ hi' g hg, ← hfix _ hi' g hg, h.vol v hv j hj, hzv, localArea]
      field_simp
      ring
    rw [← Finset.sum_congr rfl hcol, Finset.sum_sub_distrib]
    linarith [b3']
  choose! J hJ1 hJ2 using key
  refine ⟨J, hJ1, fun g hg v hv ix hx iy hy iz hz hcell => ?_⟩
  have hk := hJ2 g hg v hv ix hx iy hy iz hz hcell
  have hsize := h.size v hv ix hx iy hy (h.pos hv ix iy iz hx hy hcell).1
  have hlat : ∀ s, Moc.Lateral s → Moc.onFace m.G.d (withDiffusion m.G.d dt (pinFlux m a'.s.flux) J g) iz (ix, iy) s = Moc.onFace m.G.d (J g) iz (ix, iy) s := fun s hs =>
    onFace_lateral m.G.d _ _ iz hz (ix, iy) ⟨hx, hy⟩ s hs fun n hn => withDiffusion_radial _ _ _ _ _ _ hn
  have hax : ∀ s, s = .TOP ∨ s = .BOTTOM → Moc.onFace m.G.d (withDiffusion m.G.d dt (pinFlux m a'.s.flux) J g) iz (ix, iy) s =
      Moc.onFace m.G.d (diffusion m.G.d dt (pinFlux m a'.s.flux) g) iz (ix, iy) s := fun s hs =>
    onFace_axial m.G.d _ _ iz hz (ix, iy) ⟨hx, hy⟩ s hs fun n _ hn => withDiffusion_axial _ _ _ _ _ _ hn
  rw [leakage_faces, hlat .EAST (by simp [Moc.Lateral]), hlat .WEST (by simp [Moc.Lateral]), hlat .NORTH (by simp [Moc.Lateral]), hlat .SOUTH (by simp [Moc.Lateral]),
    hax .TOP (Or.inl rfl), hax .BOTTOM (Or.inr rfl), hk, hsize]
  ring

/-- C118: so the flux of MoC solves the systems of CMFD if and only if in every coarse cell and group as much would diffuse in through the bottom as out through the top. -/
theorem C118_iff (L : Moc.Lay ℝ) (cellOf : Nat → Nat) (p : Problem ℝ) (m : MocAcc ℝ) (h : PinsFit p m) (hr : RaysFit L cellOf p m) (dt : Nat → Nat → ℝ) (k k' : ℝ)
    (a a' : MocAccState ℝ) (ha : outer p (mocAccSweeper p m) k a = some (k', a')) (hfix : ∀ i < p.nReg, ∀ g < p.ng, a'.s.flux i g = a.s.flux i g)
    (hpos : Positive p.nReg p.ng a.s.flux) (hcur : ∀ g < p.ng, (a.cur g).isSome) :
    ∃ J : Nat → Nat → ℝ, (∀ g < p.ng, a'.cur g = some (J g)) ∧
      (InBalance (coarseProblem p m a'.s.flux) m.G k (pinFlux m a'.s.flux) (withDiffusion m.G.d dt (pinFlux m a'.s.flux) J) ↔
        ∀ g < p.ng, ∀ ix < m.G.d.nx, ∀ iy < m.G.d.ny, ∀ iz < m.G.d.nz, Moc.onFace m.G.d (diffusion m.G.d dt (pinFlux m a'.s.flux) g) iz (ix, iy) .TOP =
          Moc.onFace m.G.d (diffusion m.G.d dt (pinFlux m a'.s.flux) g) iz (ix, iy) .BOTTOM) := by
  obtain ⟨J, hJ, hres⟩ := C118_residual L cellOf p m h hr dt k k' a a' ha hfix hpos hcur
  refine ⟨J, hJ, fun hb g hg ix hx iy hy iz hz => ?_, fun heq g hg x hx ix h1 iy h2 iz h3 hi => ?_⟩
  · have hlt := Mesh.cell_lt m.G.d ix iy iz hx hy hz
    obtain ⟨v, hv, hcell⟩ := h.cells _ hlt
    have h1 := hres g hg v hv ix hx iy hy iz hz hcell
    have h2 := hb g hg _ (List.mem_map_of_mem hv) ix hx iy hy iz hz (by rw [← hcell]; exact List.mem_singleton_self _)
    rw [← hcell] at h2
    have h3 := h1.symm.trans h2
    have h4 : m.G.dx ix * m.G.dy iy ≠ 0 := (mul_pos (h.dx _ hx) (h.dy _ hy)).ne'
    have h5 : m.G.dx ix * m.G.dy iy * (Moc.onFace m.G.d (diffusion m.G.d dt (pinFlux m a'.s.flux) g) iz (ix, iy) .TOP -
        Moc.onFace m.G.d (diffusion m.G.d dt (pinFlux m a'.s.flux) g) iz (ix, iy) .BOTTOM) = 0 := add_eq_left.mp h3
    exact sub_eq_zero.mp ((mul_eq_zero.mp h5).resolve_left h4)
  · obtain ⟨v, hv, rfl⟩ := List.mem_map.mp hx
    rw [List.mem_singleton] at hi
    have := hres g hg v hv ix h1 iy h2 iz h3 hi.symm
    rw [heq g hg ix h1 iy h2 iz h3, sub_self, mul_zero, add_zero] at this
    rw [hi]
    exact this

/-- C118: the iteration with currents is the iteration of C108-C110 as far as the sweeper is concerned. -/
theorem C118_same (p : Problem ℝ) (m : MocAcc ℝ) (k : ℝ) (a : MocAccState ℝ) :
    (outer p (mocAccSweeper p m) k a).map (fun r => (r.1, r.2.s)) = outer p (mocSweeper p m.moc) k a.s := by
  have hl : ∀ (fs : Nat → ℝ) (n g : Nat) (a : MocAccState ℝ), (groupLoop p (mocAccSweeper p m) fs n g a).map MocAccState.s = groupLoop p (mocSweeper p m.moc) fs n g a.s := by
    intro fs n
    induction n with
    | zero => intro g a; rfl
    | succ n ih =>
      intro g a
      rw [groupLoop, groupLoop, Option.map_bind]
      show ((assemble p.ng p.nReg p.rs none fs a.s.flux g).bind _) = ((assemble p.ng p.nReg p.rs none fs a.s.flux g).bind _)
      congr 1
      funext src
      exact ih (g + 1) _
  rw [outer, outer, Option.map_map, ← hl, Option.map_map]
  rfl

/-- No more diffuses out of a coarse cell through its top than in through its bottom. -/
def NoAxial (p : Problem ℝ) (m : MocAcc ℝ) (dt : Nat → Nat → ℝ) (φ : Nat → Nat → ℝ) : Prop :=
  ∀ g < p.ng, ∀ ix < m.G.d.nx, ∀ iy < m.G.d.ny, ∀ iz < m.G.d.nz,
    Moc.onFace m.G.d (diffusion m.G.d dt (pinFlux m φ) g) iz (ix, iy) .TOP = Moc.onFace m.G.d (diffusion m.G.d dt (pinFlux m φ) g) iz (ix, iy) .BOTTOM

/-- C118: CMFD after an outer iteration of MoC that repeats a solution: nothing changes but the axial currents, if there is no net axial diffusion. -/
theorem C118_converged (c : CmfdSetup ℝ) (L : Moc.Lay ℝ) (cellOf : Nat → Nat) (p : Problem ℝ) (m : MocAcc ℝ) (h : PinsFit p m) (hr : RaysFit L cellOf p m)
    (hlin : KeepsSolution (Mesh.nPin m.G.d) c.lin) (k : ℝ) (s : MocState ℝ) (hs : outer p (mocSweeper p m.moc) k s = some (k, s)) (hpos : Positive p.nReg p.ng s.flux)
    (hsrc : Sourced p k s.flux) (hax : NoAxial p m c.dt s.flux) (a : MocAccState ℝ) (ha : a.s = s) (hcur : ∀ g < p.ng, (a.cur g).isSome) :
    ∃ a' a'', outer p (mocAccSweeper p m) k a = some (k, a') ∧ a'.s = s ∧ doCmfdMoc c p m k a' = some (k, a'') ∧ a''.s = s ∧ (∀ g < p.ng, (a'.cur g).isSome) ∧
      ∀ g < p.ng, (a''.cur g).isSome := by
  subst ha
  have h1 := C118_same p m k a
  rw [hs] at h1
  obtain ⟨⟨k', a'⟩, h2, h3⟩ := Option.map_eq_some_iff.mp h1
  simp only [Prod.mk.injEq] at h3
  obtain ⟨rfl, h3⟩ := h3
  obtain ⟨J, hJ, hiff⟩ := C118_iff L cellOf p m h hr c.dt k' k' a a' h2 (fun i _ g _ => by rw [h3]) hpos hcur
  obtain ⟨a'', h4, h5, -, h6⟩ := C118_cmfd c h hlin k' a' (by rw [h3]; exact hpos) (by rw [h3]; exact hsrc) J hJ (hiff.mpr (by rw [h3]; exact hax))
  refine ⟨a', a'', h2, h3, h4, h5.trans h3, fun g hg => by rw [hJ g hg]; rfl, fun g hg => ?_⟩
  obtain ⟨J', h7, -⟩ := h6 g hg
  rw [h7]; rfl

/-- C118: so a solution that the iteration without CMFD repeats is repeated by the iteration with CMFD, for any number of steps after a sweep, if there is no net axial
diffusion. -/
theorem C118_steps_partial (c : CmfdSetup ℝ) (L : Moc.Lay ℝ) (cellOf : Nat → Nat) (p : Problem ℝ) (m : MocAcc ℝ) (h : PinsFit p m) (hr : RaysFit L cellOf p m)
    (hlin : KeepsSolution (Mesh.nPin m.G.d) c.lin) (k : ℝ) (s : MocState ℝ) (hs : outer p (mocSweeper p m.moc) k s = some (k, s)) (hpos : Positive p.nReg p.ng s.flux)
    (hsrc : Sourced p k s.flux) (hax : NoAxial p m c.dt s.flux) (a : MocAccState ℝ) (ha : a.s = s) (hcur : ∀ g < p.ng, (a.cur g).isSome) (n : Nat) :
    ∃ a', ((outer p (mocAccSweeper p m) k a).bind fun r => accelStepsMoc c p m n r.1 r.2) = some (k, a') ∧ a'.s = s := by
  induction n generalizing a with
  | zero =>
    obtain ⟨a', -, h1, h2, -⟩ := C118_converged c L cellOf p m h hr hlin k s hs hpos hsrc hax a ha hcur
    exact ⟨a', by rw [h1]; rfl, h2⟩
  | succ n ih =>
    obtain ⟨a', a'', h1, -, h3, h4, -, h5⟩ := C118_converged c L cellOf p m h hr hlin k s hs hpos hsrc hax a ha hcur
    obtain ⟨b, h6, h7⟩ := ih a'' h4 h5
    refine ⟨b, ?_, h7⟩
    rw [h1, Option.bind_some, accelStepsMoc, accelStepMoc, h3, Option.bind_some]
    exact h6

/-- C118: a step is a sweep with the eigenvalue that CMFD found and the flux it left. -/
theorem C118_step (c : CmfdSetup ℝ) (p : Problem ℝ) (m : MocAcc ℝ) (k : ℝ) (a : MocAccState ℝ) :
    accelStepMoc c p m k a = (doCmfdMoc c p m k a).bind fun r => outer p (mocAccSweeper p m) r.1 r.2 := rfl

/-- C118: what CMFD leaves: its eigenvalue, the flux with the pin flux set to that of its solution, boundary values as before. -/
theorem C118_left (c : CmfdSetup ℝ) (p : Problem ℝ) (m : MocAcc ℝ) (k k' : ℝ) (a b : MocAccState ℝ) (h : doCmfdMoc c p m k a = some (k', b)) :
    ∃ (J : Nat → Nat → ℝ) (S : Cmfd.LoopState ℝ) (f : Cmfd.Flux ℝ), (∀ g < p.ng, a.cur g = some (J g)) ∧ S.k = k' ∧
      (∃ J', (∀ g < p.ng, ∀ n, Mesh.surfaceNormal m.G.d n ≠ .Z → J' g n = J g n) ∧ cmfdRun c (coarseProblem p m a.s.flux) m.G k (pinFlux m a.s.flux) J' = (S, f)) ∧
      setPins p m f a.s.flux = some b.s.flux ∧ b.s.bin = a.s.bin ∧ b.s.bout = a.s.bout := by
  rw [doCmfdMoc] at h
  split at h
  · rename_i hall
    rw [List.all_eq_true] at hall
    dsimp only at h
    obtain ⟨flux, h1, h2⟩ := Option.map_eq_some_iff.mp h
    injection h2 with h2 h3
    subst h3
    refine ⟨fun g => (a.cur g).getD fun _ => 0, _, _, fun g hg => ?_, h2, ⟨_, ?_, rfl⟩, h1, rfl, rfl⟩
    · obtain ⟨x, hx⟩ := Option.isSome_iff_exists.mp (hall g (List.mem_range.mpr hg))
      show a.cur g = some ((a.cur g).getD _); rw [hx]; rfl
    · intro g _ n hn
      rw [withDiffusion, if_neg hn]
  · simp at h

/-- C118: each step starts with eigenvalue and state of the one before. -/
theorem C118_append (c : CmfdSetup ℝ) (p : Problem ℝ) (m : MocAcc ℝ) (n n' : Nat) (k : ℝ) (a : MocAccState ℝ) :
    accelStepsMoc c p m (n + n') k a = (accelStepsMoc c p m n k a).bind fun r => accelStepsMoc c p m n' r.1 r.2 := by
  induction n generalizing k a with
  | zero => rw [Nat.zero_add]; rfl
  | succ n ih =>
    rw [Nat.succ_add, accelStepsMoc, accelStepsMoc, Option.bind_assoc]
    congr 1
    funext r
    exact ih r.1 r.2

/-- C118 in full: the flux and currents of a converged MoC iteration solve the systems of CMFD, with diffusion coefficients from any positive `D`. -/
def C118_claim : Prop :=
  ∀ (L : Moc.Lay ℝ) (cellOf : Nat → Nat) (p : Problem ℝ) (m : MocAcc ℝ), PinsFit p m → RaysFit L cellOf p m → ∀ (D : Nat → Nat → ℝ) (bc : Mesh.Normal → Bool → Cmfd.BCType)
    (dt : Nat → Nat → ℝ), (∀ g i, 0 < D g i) → (∀ g < p.ng, ∀ n < Mesh.nSurf m.G.d, Cmfd.dTildeAt m.G.d m.G.w (D g) bc n = some (dt g n)) →
    ∀ (k : ℝ) (a : MocAccState ℝ), 0 < k → outer p (mocSweeper p m.moc) k a.s = some (k, a.s) → Positive p.nReg p.ng a.s.flux → (∀ g < p.ng, (a.cur g).isSome) →
    ∃ a' J, outer p (mocAccSweeper p m) k a = some (k, a') ∧ (∀ g < p.ng, a'.cur g = some (J g)) ∧
      InBalance (coarseProblem p m a'.s.flux) m.G k (pinFlux m a'.s.flux) (withDiffusion m.G.d dt (pinFlux m a'.s.flux) J)

/-! ### Example: two planes of one cell each, one ray in each -/

theorem two_laid (n : Nat) : Moc.Laid Moc.same Moc.same ⟨1, 1, 2⟩ [0, 1] [0, 1] ⟨0, 1 / 4⟩ ⟨1, 3 / 4⟩ [⟨0, 1 / 4⟩, ⟨1, 3 / 4⟩] [(0, 0)] [n] where
  lines := ⟨⟨by simp, rfl, rfl⟩, ⟨by simp, rfl, rfl⟩⟩
  path := (Moc.one_laid n).path
  first := rfl
  last := rfl
  edge1 := by simp [Moc.AtEdge, Mesh.Edge]
  edge2 := by simp [Moc.AtEdge, Mesh.Edge]; norm_num
  known := (Moc.one_laid n).known
  zero1 := (Moc.one_laid n).zero1
  zero2 := (Moc.one_laid n).zero2
  count := rfl
  some := by simp

noncomputable def twoLay : Moc.Lay ℝ := ⟨Moc.same, Moc.same, ⟨1, 1, 2⟩, [0, 1], [0, 1]⟩

def twoRay : Moc.Ray ℝ := ⟨[⟨0, 1⟩], 0, 0⟩

theorem two_ok : ∃ cr, ∀ k < 2, Moc.RayOk twoLay k id 2 k 3 3 (twoRay, cr) := by
  obtain ⟨cr, _, h, -⟩ := Moc.C75_balance_partial Moc.same Moc.same ⟨1, 1, 2⟩ 0 [0, 1] [0, 1] ⟨0, 1 / 4⟩ ⟨1, 3 / 4⟩ [⟨0, 1 / 4⟩, ⟨1, 3 / 4⟩] [(0, 0)] [1] 3 3 (fun _ => 0)
    (fun _ => 0) (fun _ => 0) (by decide) (two_laid 1) (by simp [Moc.Weights]) (by simp)
  refine ⟨cr, fun k hk => ⟨by simp [twoRay]; omega, _, _, _, [(0, 0)], [1], two_laid 1, by simp [Moc.Weights], by simp, h, ?_⟩⟩
  simp [twoRay, Moc.segCells, twoLay, Moc.cellNo, Mesh.coarseCell, List.replicate]

noncomputable def twoMat : Mat ℝ := { tr := fun _ => 1, nf := fun _ => 1 / 2, f := fun _ => 0, ch := fun _ => 1, sc := fun _ _ => 1 / 2 }
noncomputable def twoProblem : Problem ℝ := { ng := 1, nReg := 2, rs := [⟨twoMat, [0, 1]⟩], vol := fun _ => 1 }
noncomputable def twoAcc (expo : ℝ → ℝ) (gs : Bool) (cr : Moc.CoarseRay) : MocAcc ℝ :=
  { G := { d := ⟨1, 1, 2⟩, w := ⟨[1], [1], [1, 1]⟩, hpi := 2 }, expo := expo, fpi := 12, gs := gs, u := ⟨fun _ b _ => b, fun b _ => b⟩,
    planes := [⟨0, [⟨0, 1, 1, 3, 3, 3, [(twoRay, cr)]⟩]⟩, ⟨1, [⟨0, 1, 1, 3, 3, 3, [(twoRay, cr)]⟩]⟩], nInner := 1,
    layers := [⟨0, 0, 1, [⟨0, [1], 1⟩]⟩, ⟨1, 1, 1, [⟨0, [1], 1⟩]⟩], pinMats := fun _ => [(twoMat, 1)] }

theorem two_pins (expo : ℝ → ℝ) (gs : Bool) (cr : Moc.CoarseRay) : PinsFit twoProblem (twoAcc expo gs cr) where
  part := by refine ⟨?_, ?_⟩ <;> simp [twoProblem]
  pins := by simp [PinFlux.PinsOk, twoAcc, MocAcc.n2]
  layers := rfl
  cells := by
    intro i hi
    have : i = 0 ∨ i = 1 := by simp [twoAcc, Mesh.nPin] at hi; omega
    rcases this with rfl | rfl <;> simp [twoAcc, PinFlux.visits, PinFlux.planeVisits, MocAcc.cell, MocAcc.n2]
  regs := by intro i; simp [twoAcc, twoProblem, PinFlux.visits, PinFlux.planeVisits]; omega
  mats := by simp [twoAcc, PinFlux.visits, PinFlux.planeVisits, nRegions]
  mat := by simp [twoAcc, twoProblem, PinFlux.visits, PinFlux.planeVisits, XS.mat, matAt]
  area := by simp [twoAcc, PinFlux.visits, PinFlux.planeVisits]
  size := by simp [twoAcc, PinFlux.visits, PinFlux.planeVisits, Grid.dx, Grid.dy]
  height := by simp [twoAcc, PinFlux.visits, PinFlux.planeVisits, Grid.dz]
  vol := by simp [twoAcc, twoProblem, PinFlux.visits, PinFlux.planeVisits, Grid.dz]
  dx := by simp [twoAcc, Grid.dx]
  dy := by simp [twoAcc, Grid.dy]
  dz := by
    intro i hi
    have : i = 0 ∨ i = 1 := by simp [twoAcc] at hi; omega
    rcases this with rfl | rfl <;> simp [twoAcc, Grid.dz]
  sc := by
    intro x hx
    simp only [twoProblem, List.mem_singleton] at hx
    subst hx
    intro a b _ _
    simp only [twoMat]; norm_num
  nf := by
    intro x hx g _
    simp only [twoProblem, List.mem_singleton] at hx
    subst hx
    simp only [twoMat]; norm_num

theorem two_rays (expo : ℝ → ℝ) (gs : Bool) (cr : Moc.CoarseRay) (h : ∀ k < 2, Moc.RayOk twoLay k id 2 k 3 3 (twoRay, cr)) :
    RaysFit twoLay id twoProblem (twoAcc expo gs cr) where
  lay := rfl
  lx := rfl
  ly := rfl
  lz := rfl
  cell := by simp [twoAcc, PinFlux.visits, PinFlux.planeVisits, MocAcc.cell, MocAcc.n2]
  planes := by
    simp only [twoAcc, Moc.PlanesOk, Moc.AngleFits, List.mem_singleton, forall_eq, true_and, and_true]
    exact ⟨h 0 (by decide), h 1 (by decide)⟩
  nplanes := by simp [twoAcc]
  inner := rfl
  fpi := by simp [twoAcc]
  tr := by
    intro x hx g _
    simp only [twoProblem, List.mem_singleton] at hx
    subst hx
    simp [twoMat]

/-- Flux `x` in the lower and `y` in the upper plane. -/
noncomputable def twoFlux (x y : ℝ) : MocState ℝ :=
  { flux := fun i _ => if i = 0 then x else if i = 1 then y else 0, q := fun i => if i = 0 then x / 12 else if i = 1 then y / 12 else 0, bin := fun _ => [fun _ _ => x / 12, fun _ _ => y / 12], bout := [fun _ _ => x / 12, fun _ _ => y / 12] }

/-- MoC does not connect the planes: every such flux is repeated. -/
theorem two_fixed (expo : ℝ → ℝ) (gs : Bool) (cr : Moc.CoarseRay) (x y : ℝ) (hx : 0 < x) (hy : 0 < y) :
    outer twoProblem (mocSweeper twoProblem (twoAcc expo gs cr).moc) 1 (twoFlux x y) = some (1, twoFlux x y) := by
  have hpart : Partition [(⟨twoMat, [0, 1]⟩ : XsRegion (Mat ℝ))] := by refine ⟨?_, ?_⟩ <;> simp
  have hmem : (⟨twoMat, [0, 1]⟩ : XsRegion (Mat ℝ)) ∈ [(⟨twoMat, [0, 1]⟩ : XsRegion (Mat ℝ))] := List.mem_singleton_self _
  have hq : ∀ src : Nat → ℝ, src 0 = x / 2 → src 1 = y / 2 →
      selfScatter 12 1 [⟨twoMat, [0, 1]⟩] (twoFlux x y).flux 0 src true (twoFlux x y).q = (twoFlux x y).q := by
    intro src h0 h1
    funext i
    by_cases e0 : i = 0
    · subst e0
      rw [selfScatter_at 12 1 _ hpart _ 0 (by decide) src true _ _ hmem 0 (by simp), h0]
      simp [twoMat, twoFlux]; ring
    · by_cases e1 : i = 1
      · subst e1
        rw [selfScatter_at 12 1 _ hpart _ 0 (by decide) src true _ _ hmem 1 (by simp), h1]
        simp [twoMat, twoFlux]; ring
      · simp [selfScatter, setTo, e0, e1]
  have hsw : ∀ xstr : Nat → ℝ, Moc.sweep1g expo 12 xstr (fun _ => 1) (twoFlux x y).q gs (twoAcc expo gs cr).u
      ((twoAcc expo gs cr).moc.planes.zip (((twoFlux x y).bin 0).zip (twoFlux x y).bout)) =
      (fun i => (twoFlux x y).flux i 0, [(fun _ _ => x / 12, fun _ _ => x / 12), (fun _ _ => y / 12, fun _ _ => y / 12)]) := by
    intro xstr
    simp only [Moc.sweep1g, Moc.sweepPlanes, Moc.sweepPlane, Moc.sweepAngle, Moc.sweepRay, Moc.walk, twoAcc, MocAcc.moc, Moc.PlaneCur.work, Moc.AngleCur.work, twoRay, twoFlux,
      List.map, List.foldl, List.zip, List.zipWith, List.reverse_singleton, zero_add, if_true, one_ne_zero, if_false, sub_self, zero_mul, sub_zero, add_zero]
    have hu : ∀ (z : ℝ) (n : Nat), Moc.upd (fun _ : Nat => z) n z = fun _ => z := fun z n => by funext j; simp [Moc.upd]
    have hw : ∀ (f : Nat → Nat → ℝ) (n : Nat), Moc.upd f n (f n) = f := fun f n => by funext j; simp only [Moc.upd]; split <;> simp [*]
    simp [hu, hw]
    funext i
    simp only [Moc.finish]
    by_cases e0 : i = 0
    · simp [e0]
    · by_cases e1 : i = 1
      · simp [e1]
      · simp [e0, e1]
  obtain ⟨src, h1, h2⟩ := C28_assemble_partial 1 2 [(⟨twoMat, [0, 1]⟩ : XsRegion (Mat ℝ))] (calcFissionSource 1 [⟨twoMat, [0, 1]⟩] 1 (twoFlux x y).flux) (twoFlux x y).flux 0 hpart
    (two_pins expo gs cr).sc (by decide)
  have hsrc : ∀ i, i = 0 ∨ i = 1 → src i = (twoFlux x y).flux i 0 / 2 := by
    intro i hi
    have hi' : i ∈ (⟨twoMat, [0, 1]⟩ : XsRegion (Mat ℝ)).regs := by simpa using hi
    rw [h2 _ hmem i hi', defined, C47_fission_source 1 _ hpart 1 _ _ hmem i hi']
    simp [twoMat]; ring
  have hin : mocSweep twoProblem (twoAcc expo gs cr).moc 0 src (twoFlux x y) = twoFlux x y := by
    show mocInner twoProblem (twoAcc expo gs cr).moc 0 src (twoFlux x y) = twoFlux x y
    have e1 := hq src (by rw [hsrc 0 (Or.inl rfl)]; simp [twoFlux]) (by rw [hsrc 1 (Or.inr rfl)]; simp [twoFlux])
    have e2 := hsw (trOf twoProblem.rs 0)
    unfold mocInner
    dsimp only
    rw [show selfScatter (twoAcc expo gs cr).moc.fpi twoProblem.ng twoProblem.rs (twoFlux x y).flux 0 src true (twoFlux x y).q = (twoFlux x y).q from e1,
      show Moc.sweep1g (twoAcc expo gs cr).moc.expo (twoAcc expo gs cr).moc.fpi (trOf twoProblem.rs 0) twoProblem.vol (twoFlux x y).q (twoAcc expo gs cr).moc.gs
        (twoAcc expo gs cr).moc.u ((twoAcc expo gs cr).moc.planes.zip (((twoFlux x y).bin 0).zip (twoFlux x y).bout)) = _ from e2]
    unfold twoFlux
    congr 1
    · funext i h; simp
    · funext h; simp
  rw [outer]
  have : groupLoop twoProblem (mocSweeper twoProblem (twoAcc expo gs cr).moc) (calcFissionSource twoProblem.ng twoProblem.rs 1 ((mocSweeper twoProblem (twoAcc expo gs cr).moc).flux (twoFlux x y))) twoProblem.ng 0 (twoFlux x y) = some (twoFlux x y) := by
    show groupLoop _ _ _ 1 0 _ = _
    rw [groupLoop]
    show (assemble 1 2 [(⟨twoMat, [0, 1]⟩ : XsRegion (Mat ℝ))] none (calcFissionSource 1 [⟨twoMat, [0, 1]⟩] 1 (twoFlux x y).flux) (twoFlux x y).flux 0).bind _ = _
    rw [h1, Option.bind_some]
    show some (mocSweep twoProblem (twoAcc expo gs cr).moc 0 src (twoFlux x y)) = _
    rw [hin]
  rw [this]
  simp only [Option.map_some, one_mul]
  have hf : totalFission twoProblem.ng twoProblem.rs twoProblem.vol ((mocSweeper twoProblem (twoAcc expo gs cr).moc).flux (twoFlux x y)) ≠ 0 := by
    simp [totalFission, twoProblem, mocSweeper, twoFlux, twoMat]
    positivity
  rw [div_self hf]

theorem two_pinFlux (expo : ℝ → ℝ) (gs : Bool) (cr : Moc.CoarseRay) (x y : ℝ) (g : Nat) :
    pinFlux (twoAcc expo gs cr) (twoFlux x y).flux 0 g = x ∧ pinFlux (twoAcc expo gs cr) (twoFlux x y).flux 1 g = y := by
  simp [pinFlux, PinFlux.getPlane, twoAcc, MocAcc.n2, twoFlux, PinFlux.visits, PinFlux.planeVisits, PinFlux.dot, PinFlux.put, PinFlux.pinAverage]

/-- Reflection on all sides, diffusion coefficient one third. -/
noncomputable def twoDt : Nat → Nat → ℝ := fun _ n => if n = 5 then 1 / 3 else 0

theorem two_dt (g : Nat) : ∀ n < 11, Cmfd.dTildeAt ⟨1, 1, 2⟩ ⟨[1], [1], [1, 1]⟩ (fun _ => (1 / 3 : ℝ)) (fun _ _ => .reflect) n = some (twoDt g n) := by
  have hc : ∀ n < 11, Mesh.coarseNeighCells ⟨1, 1, 2⟩ n = (if n = 5 then (0, 1) else if n < 5 then (if n = 2 ∨ n = 4 then (0, -1) else (-1, 0)) else
      if n = 6 ∨ n = 8 then (-1, 1) else (1, -1)) := by decide
  have h5 : Mesh.surfaceNormal ⟨1, 1, 2⟩ 5 = .Z := by decide
  have ht : ∀ c < 2, Cmfd.thick ⟨1, 1, 2⟩ (⟨[1], [1], [1, 1]⟩ : Mesh.Widths ℝ) c .Z = 1 := by
    intro c hc
    have : c = 0 ∨ c = 1 := by omega
    rcases this with rfl | rfl <;> simp [Cmfd.thick, Mesh.cellThickness, Mesh.coarsePosition]
  intro n hn
  unfold Cmfd.dTildeAt
  rw [hc n hn]
  by_cases h : n = 5
  · subst h
    rw [if_pos rfl, h5]
    simp [Cmfd.diffusivity, ht, twoDt, Cmfd.dTilde]
    norm_num
  · rw [if_neg h]
    split_ifs <;> simp [Cmfd.diffusivity, twoDt, Cmfd.dTilde, h]

theorem two_faces (expo : ℝ → ℝ) (gs : Bool) (cr : Moc.CoarseRay) (x y : ℝ) (g : Nat) :
    Moc.onFace ⟨1, 1, 2⟩ (diffusion ⟨1, 1, 2⟩ twoDt (pinFlux (twoAcc expo gs cr) (twoFlux x y).flux) g) 0 (0, 0) .TOP = -(1 / 3) * (y - x) ∧
    Moc.onFace ⟨1, 1, 2⟩ (diffusion ⟨1, 1, 2⟩ twoDt (pinFlux (twoAcc expo gs cr) (twoFlux x y).flux) g) 0 (0, 0) .BOTTOM = 0 ∧
    Moc.onFace ⟨1, 1, 2⟩ (diffusion ⟨1, 1, 2⟩ twoDt (pinFlux (twoAcc expo gs cr) (twoFlux x y).flux) g) 1 (0, 0) .TOP = 0 ∧
    Moc.onFace ⟨1, 1, 2⟩ (diffusion ⟨1, 1, 2⟩ twoDt (pinFlux (twoAcc expo gs cr) (twoFlux x y).flux) g) 1 (0, 0) .BOTTOM = -(1 / 3) * (y - x) := by
  obtain ⟨h0, h1⟩ := two_pinFlux expo gs cr x y g
  have c0 : Mesh.coarseSurf ⟨1, 1, 2⟩ (Moc.cellNo ⟨1, 1, 2⟩ 0 (0, 0)) .TOP = some 5 := by decide
  have c1 : Mesh.coarseSurf ⟨1, 1, 2⟩ (Moc.cellNo ⟨1, 1, 2⟩ 0 (0, 0)) .BOTTOM = some 0 := by decide
  have c2 : Mesh.coarseSurf ⟨1, 1, 2⟩ (Moc.cellNo ⟨1, 1, 2⟩ 1 (0, 0)) .TOP = some 10 := by decide
  have c3 : Mesh.coarseSurf ⟨1, 1, 2⟩ (Moc.cellNo ⟨1, 1, 2⟩ 1 (0, 0)) .BOTTOM = some 5 := by decide
  have h5 : Mesh.coarseNeighCells ⟨1, 1, 2⟩ 5 = (0, 1) := by decide
  unfold Moc.onFace
  rw [c0, c1, c2, c3]
  simp [diffusion, h5, twoDt, Cmfd.side, h0, h1]

/-- C118 is false: two planes of the same material, reflection on all sides, with different flux.  MoC repeats this, CMFD would even it out. -/
theorem C118_claim_false : ¬ C118_claim := by
  intro hc
  obtain ⟨cr, hcr⟩ := two_ok
  have hp := two_pins (fun _ => 0) true cr
  have hr := two_rays (fun _ => 0) true cr hcr
  have hpos : Positive twoProblem.nReg twoProblem.ng (twoFlux 1 2).flux := by
    intro i hi g _
    have : i = 0 ∨ i = 1 := by simp [twoProblem] at hi; omega
    rcases this with rfl | rfl <;> simp [twoFlux]
  have hfix := two_fixed (fun _ => 0) true cr 1 2 (by norm_num) (by norm_num)
  obtain ⟨a', J, h1, h2, h3⟩ := hc twoLay id twoProblem (twoAcc (fun _ => 0) true cr) hp hr (fun _ _ => 1 / 3) (fun _ _ => .reflect) twoDt (by norm_num)
    (fun g _ n hn => two_dt g n hn) 1 ⟨twoFlux 1 2, fun _ => some fun _ => 0⟩ one_pos hfix hpos (fun _ _ => rfl)
  have hs : a'.s = twoFlux 1 2 := by
    have := C118_same twoProblem (twoAcc (fun _ => 0) true cr) 1 ⟨twoFlux 1 2, fun _ => some fun _ => 0⟩
    rw [h1, hfix] at this
    simpa using this
  obtain ⟨J', h4, h5⟩ := C118_iff twoLay id twoProblem (twoAcc (fun _ => 0) true cr) hp hr twoDt 1 1 _ a' h1 (fun _ _ _ _ => by rw [hs]) hpos (fun _ _ => rfl)
  have hJ : ∀ g < twoProblem.ng, J' g = J g := fun g hg => Option.some.inj ((h4 g hg).symm.trans (h2 g hg))
  have h6 := h5.mp (fun g hg x hx ix hx' iy hy iz hz hi => by
    have := h3 g hg x hx ix hx' iy hy iz hz hi
    have e : withDiffusion (twoAcc (fun _ => 0) true cr).G.d twoDt (pinFlux (twoAcc (fun _ => 0) true cr) a'.s.flux) J' g =
        withDiffusion (twoAcc (fun _ => 0) true cr).G.d twoDt (pinFlux (twoAcc (fun _ => 0) true cr) a'.s.flux) J g := by
      funext n
      unfold withDiffusion
      rw [hJ g hg]
    rw [e]
    exact this)
  have h7 := h6 0 (by decide) 0 Nat.one_pos 0 Nat.one_pos 0 (by simp [twoAcc])
  rw [hs] at h7
  obtain ⟨e1, e2, -⟩ := two_faces (fun _ => 0) true cr 1 2 0
  have h8 := (e1.symm.trans h7).trans e2
  norm_num at h8

/-- The hypotheses of `C118_steps_partial` hold with equal flux in both planes. -/
example (expo : ℝ → ℝ) (gs : Bool) (c : CmfdSetup ℝ) (hdt : c.dt = twoDt) (hlin : KeepsSolution 2 c.lin) (x : ℝ) (hx : 0 < x) (n : Nat) : ∃ cr a',
    ((outer twoProblem (mocAccSweeper twoProblem (twoAcc expo gs cr)) 1 ⟨twoFlux x x, fun _ => some fun n => n⟩).bind fun r =>
      accelStepsMoc c twoProblem (twoAcc expo gs cr) n r.1 r.2) = some (1, a') ∧ a'.s = twoFlux x x := by
  obtain ⟨cr, hcr⟩ := two_ok
  have hpos : Positive twoProblem.nReg twoProblem.ng (twoFlux x x).flux := by
    intro i hi g _
    have : i = 0 ∨ i = 1 := by simp [twoProblem] at hi; omega
    rcases this with rfl | rfl <;> simp [twoFlux, hx]
  refine ⟨cr, C118_steps_partial c twoLay id twoProblem (twoAcc expo gs cr) (two_pins expo gs cr) (two_rays expo gs cr hcr) hlin 1 (twoFlux x x)
    (two_fixed expo gs cr x x hx hx) hpos ?_ ?_ _ rfl (fun _ _ => rfl) n⟩
  · refine ⟨one_pos, ?_, ?_, ?_⟩
    · simp [twoProblem, twoMat]
    · intro g hg
      simp only [twoProblem, Nat.lt_one_iff] at hg
      subst hg
      refine ⟨⟨twoMat, [0, 1]⟩, by simp [twoProblem], 0, by simp, by simp [twoProblem], ?_⟩
      simp [groupSource, twoProblem, twoMat, twoFlux, hx.ne']
    · exact ⟨⟨twoMat, [0, 1]⟩, by simp [twoProblem], 0, by simp, by simp [twoProblem], 0, by simp [twoProblem], by simp [twoMat]⟩
  · intro g _ ix hix iy hiy iz hiz
    simp only [twoAcc, Nat.lt_one_iff] at hix hiy hiz
    subst hix hiy
    obtain ⟨e1, e2, e3, e4⟩ := two_faces expo gs cr x x g
    rw [hdt]
    have : iz = 0 ∨ iz = 1 := by omega
    rcases this with rfl | rfl
    · exact e1.trans (by rw [sub_self, mul_zero]; exact e2.symm)
    · exact e3.trans (Eq.symm (e4.trans (by rw [sub_self, mul_zero])))

end Verif.Medium
