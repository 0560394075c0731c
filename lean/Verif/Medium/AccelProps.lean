import Verif.Medium.AccelModel
import Verif.Medium.BalanceSnProps
import Verif.Sn.CurrentProps
import Verif.Cmfd.SystemProps
import Verif.Cmfd.LoopProps

/-!
# C116: CMFD leaves a converged Sn solution as it is
-/

set_option linter.unusedSectionVars false

namespace Verif.Medium

open Verif.XS Verif.Source

section
variable {K : Type} [Field K] [LinearOrder K] [IsStrictOrderedRing K]

/-! ### Currents of the sweep balance in each cell -/

theorem sweepCur_pass (m : AccSetup K) (q xs : Nat → K) (l : List (CurOrd K)) (s : SnPass Sn.Ax3 K) (cur : Nat → K) :
    (sweepCur m q xs l s cur).1 = (l.map (CurOrd.ord m.G)).foldl (snOrdinate m.sn q xs) s := by
  induction l generalizing s cur with
  | nil => rfl
  | cons o l ih => rw [sweepCur, ih]; rfl

theorem sweepCur_balance (m : AccSetup K) (q xs : Nat → K) (ix iy iz : Nat) (hx : ix < m.G.d.nx) (hy : iy < m.G.d.ny) (hz : iz < m.G.d.nz)
    (hdx : 0 < m.G.dx ix) (hdy : 0 < m.G.dy iy) (hdz : 0 < m.G.dz iz) (hxs : 0 < xs (Mesh.coarseCell m.G.d ⟨ix, iy, iz⟩)) (l : List (CurOrd K))
    (hl : ∀ o ∈ l, o.ray.ox ≠ 0 ∧ o.ray.oy ≠ 0 ∧ o.ray.oz ≠ 0 ∧ ∀ i, Bal3 (o.sch i)) (s : SnPass Sn.Ax3 K) (cur : Nat → K) :
    Sn.leakage m.G.d m.G.dx m.G.dy m.G.dz (sweepCur m q xs l s cur).2 ix iy iz - Sn.leakage m.G.d m.G.dx m.G.dy m.G.dz cur ix iy iz =
      m.G.dx ix * m.G.dy iy * m.G.dz iz * ((l.map fun o => o.ray.weight * m.G.hpi).sum * q (Mesh.coarseCell m.G.d ⟨ix, iy, iz⟩) -
        xs (Mesh.coarseCell m.G.d ⟨ix, iy, iz⟩) *
          ((sweepCur m q xs l s cur).1.tflux (Mesh.coarseCell m.G.d ⟨ix, iy, iz⟩) - s.tflux (Mesh.coarseCell m.G.d ⟨ix, iy, iz⟩))) := by
  induction l generalizing s cur with
  | nil => simp [sweepCur]
  | cons o l ih =>
    rw [sweepCur]
    obtain ⟨h1, h2, h3, h4⟩ := hl o (by simp)
    let i := Mesh.coarseCell m.G.d ⟨ix, iy, iz⟩
    let ev : Nat → Nat → Nat → (Sn.Ax3 → K) → K × (Sn.Ax3 → K) := fun ix iy iz f =>
      let i := Mesh.coarseCell m.G.d ⟨ix, iy, iz⟩
      let r := o.sch i (|o.ray.ox| / m.G.dx ix) (|o.ray.oy| / m.G.dy iy) (|o.ray.oz| / m.G.dz iz) (f .x) (f .y) (f .z) (q i) (xs i)
      (r.psi, fun | .x => r.x | .y => r.y | .z => r.z)
    let s0 : Sn.State Sn.Ax3 K := ⟨s.bin o.iang, s.tflux, fun _ => (0, fun _ => 0)⟩
    have hs : Sn.Solves o.ray (m.G.dx ix) (m.G.dy iy) (m.G.dz iz) (xs i) (q i) (ev ix iy iz) := fun f =>
      h4 i _ _ _ _ _ _ _ _ (div_pos (abs_pos.mpr h1) hdx) (div_pos (abs_pos.mpr h2) hdy) (div_pos (abs_pos.mpr h3) hdz) hxs
    have e1 := Sn.C77_balance m.G.d m.G.hpi o.ray (o.ray.weight * m.G.hpi) ev s0 cur m.G.dx m.G.dy m.G.dz (xs i) (q i) ix iy iz hx hy hz hdx.ne' hdy.ne' hdz.ne' hs
    have e2 := (Sn.C30_upwind m.G.d (o.ray.ox < 0) (o.ray.oy < 0) (o.ray.oz < 0) (o.ray.weight * m.G.hpi) ev s0 ix iy iz hx hy hz).2
    simp only at e1 e2
    have ih := ih (fun o ho => hl o (by simp [ho])) (snOrdinate m.sn q xs s (o.ord m.G))
      (Sn.sweepCurrent m.G.d m.G.hpi o.ray (s.bin o.iang) ((o.ord m.G).loops q xs s0).out cur)
    have e3 : (snOrdinate m.sn q xs s (o.ord m.G)).tflux i = s.tflux i + (((o.ord m.G).loops q xs s0).out i).1 * (o.ray.weight * m.G.hpi) := e2
    rw [e3] at ih
    change Sn.leakage m.G.d m.G.dx m.G.dy m.G.dz (Sn.sweepCurrent m.G.d m.G.hpi o.ray (s.bin o.iang) ((o.ord m.G).loops q xs s0).out cur) ix iy iz - _ =
      _ * (_ - xs i * (((o.ord m.G).loops q xs s0).out i).1) at e1
    rw [List.map_cons, List.sum_cons]
    linear_combination ih + e1

/-! ### A solution in balance -/

/-- Source of a group in cell `i` filled with `mat`, without scattering inside the group. -/
def groupSource (ng : Nat) (mat : Mat K) (k : K) (flux : Nat → Nat → K) (g i : Nat) : K :=
  mat.ch g * ((∑ h ∈ Finset.range ng, mat.nf h * flux i h) / k) + ∑ h ∈ Finset.range ng, if h ≠ g then mat.sc g h * flux i h else 0

/-- Removal plus what the currents carry out of a cell is the source, in all groups and cells. -/
def InBalance (p : Problem K) (G : Grid K) (k : K) (flux : Nat → Nat → K) (cur : Nat → Nat → K) : Prop :=
  ∀ g < p.ng, ∀ x ∈ p.rs, ∀ ix < G.d.nx, ∀ iy < G.d.ny, ∀ iz < G.d.nz, Mesh.coarseCell G.d ⟨ix, iy, iz⟩ ∈ x.regs →
    G.dx ix * G.dy iy * G.dz iz * ((x.mat.tr g - x.mat.sc g g) * flux (Mesh.coarseCell G.d ⟨ix, iy, iz⟩) g) + Sn.leakage G.d G.dx G.dy G.dz (cur g) ix iy iz =
      G.dx ix * G.dy iy * G.dz iz * groupSource p.ng x.mat k flux g (Mesh.coarseCell G.d ⟨ix, iy, iz⟩)

/-- A linear solver that returns a guess that is a solution, unless the right-hand side is zero. -/
def KeepsSolution (n : Nat) (lin : (Nat → Nat → K) → (Nat → K) → (Nat → K) → (Nat → K)) : Prop :=
  ∀ A b x, (∃ i < n, b i ≠ 0) → (∀ i < n, ∑ j ∈ Finset.range n, A i j * x j = b i) → ∀ i < n, lin A b x i = x i

theorem rmOf_at (rs : List (XsRegion (Mat K))) (hp : Partition rs) (g : Nat) (x : XsRegion (Mat K)) (hx : x ∈ rs) (i : Nat) (hi : i ∈ x.regs) :
    rmOf rs g i = x.mat.tr g - x.mat.sc g g := by
  unfold rmOf
  rw [loop_at rs hp _ _ _ x hx i hi]
  · rw [setTo_eq, if_pos hi]
  · intro y _ a j hj; rw [setTo_eq, if_neg hj]
  · intro y _ a b j hj _; rw [setTo_eq, setTo_eq, if_pos hj, if_pos hj]

theorem nfOf_at (rs : List (XsRegion (Mat K))) (hp : Partition rs) (g : Nat) (x : XsRegion (Mat K)) (hx : x ∈ rs) (i : Nat) (hi : i ∈ x.regs) :
    nfOf rs g i = x.mat.nf g := by
  unfold nfOf
  rw [loop_at rs hp _ _ _ x hx i hi]
  · rw [setTo_eq, if_pos hi]
  · intro y _ a j hj; rw [setTo_eq, if_neg hj]
  · intro y _ a b j hj _; rw [setTo_eq, setTo_eq, if_pos hj, if_pos hj]

/-- Fluxes with the same values in all cells and groups. -/
def Agree (n ng : Nat) (f f' : Nat → Nat → K) : Prop := ∀ i < n, ∀ h < ng, f i h = f' i h

theorem leakage_sum (d : Mesh.Dims) (w : Mesh.Widths K) (J : Nat → K) (i j k : Nat) (hi : i < d.nx) (hj : j < d.ny) (hk : k < d.nz) :
    (Mesh.allSurfaces.map fun s => Cmfd.area d w (Mesh.coarseCell d ⟨i, j, k⟩) s * Cmfd.signed s (J (Cmfd.surf d (Mesh.coarseCell d ⟨i, j, k⟩) s))).sum =
      Sn.leakage d (fun i => w.dx.getD i 0) (fun i => w.dy.getD i 0) (fun i => w.dz.getD i 0) J i j k := by
  have e := fun s f hf => Cmfd.surf_enc d i j k s f hf hi hj hk
  have e' := fun s f hf => Mesh.coarseSurf_enc d i j k s f hf hi hj hk
  simp only [Mesh.allSurfaces, List.map_cons, List.map_nil, List.sum_cons, List.sum_nil, Cmfd.area_eq d w i j k _ hi hj,
    e .EAST _ rfl, e .NORTH _ rfl, e .WEST _ rfl, e .SOUTH _ rfl, e .TOP _ rfl, e .BOTTOM _ rfl, Cmfd.signed, Sn.leakage,
    e' .EAST _ rfl, e' .NORTH _ rfl, e' .WEST _ rfl, e' .SOUTH _ rfl, e' .TOP _ rfl, e' .BOTTOM _ rfl]
  simp
  ring

/-- The data of a calculation: every cell of the mesh belongs to one material. -/
structure Fits (p : Problem K) (G : Grid K) : Prop where
  part : Partition p.rs
  cover : ∀ i, i < p.nReg ↔ ∃ x ∈ p.rs, i ∈ x.regs
  cells : p.nReg = Mesh.nPin G.d
  sc : ∀ x ∈ p.rs, Source.NonNeg p.ng x.mat

theorem cmfdSource_eq (p : Problem K) (G : Grid K) (hp : Fits p G) (k : K) (φ f : Nat → Nat → K) (hf : Agree p.nReg p.ng f φ) (fs : Nat → K)
    (hfs : ∀ x ∈ p.rs, ∀ i ∈ x.regs, fs i = (∑ h ∈ Finset.range p.ng, x.mat.nf h * φ i h) / k) (g : Nat) (hg : g < p.ng) (x : XsRegion (Mat K)) (hx : x ∈ p.rs) (i : Nat)
    (hi : i ∈ x.regs) : cmfdSource p G fs f g i = Cmfd.vol G.d G.w i * groupSource p.ng x.mat k φ g i := by
  obtain ⟨src, h1, h2⟩ := C28_assemble_partial p.ng p.nReg p.rs fs f g hp.part hp.sc hg
  rw [cmfdSource, h1, Option.getD_some, h2 x hx i hi, defined, groupSource, hfs x hx i hi, zero_add, mul_comm]
  congr 2
  refine Finset.sum_congr rfl fun h hh => ?_
  rw [hf i ((hp.cover i).mpr ⟨x, hx, hi⟩) h (Finset.mem_range.mp hh)]

theorem fissionSource_eq (c : CmfdSetup K) (p : Problem K) (G : Grid K) (hp : Fits p G) (A : Nat → Nat → Nat → K) (k : K) (φ f : Nat → Nat → K) (hf : Agree p.nReg p.ng f φ)
    (x : XsRegion (Mat K)) (hx : x ∈ p.rs) (i : Nat) (hi : i ∈ x.regs) :
    (cmfdProblem c p G A).fissionSource f k i = (∑ h ∈ Finset.range p.ng, x.mat.nf h * φ i h) / k := by
  rw [Cmfd.Problem.fissionSource, mul_one_div]
  congr 1
  refine Finset.sum_congr rfl fun h hh => ?_
  show nfOf p.rs h i * f i h = _
  rw [nfOf_at p.rs hp.part h x hx i hi, hf i ((hp.cover i).mpr ⟨x, hx, hi⟩) h (Finset.mem_range.mp hh)]

/-- C116: the flux of a solution in balance solves the system of every group. -/
theorem C116_solves (c : CmfdSetup K) (p : Problem K) (G : Grid K) (hp : Fits p G) (k : K) (φ : Nat → Nat → K) (cur : Nat → Nat → K) (hb : InBalance p G k φ cur)
    (hpos : ∀ i < p.nReg, ∀ g < p.ng, 0 < φ i g) (g : Nat) (hg : g < p.ng) (x : XsRegion (Mat K)) (hx : x ∈ p.rs) (i : Nat) (hi : i ∈ x.regs) :
    ∑ j ∈ Finset.range (Mesh.nPin G.d), cmfdMatrix c p G cur φ g i j * φ j g = Cmfd.vol G.d G.w i * groupSource p.ng x.mat k φ g i := by
  have hi' : i < Mesh.nPin G.d := hp.cells ▸ (hp.cover i).mpr ⟨x, hx, hi⟩
  obtain ⟨h1, h2, h3⟩ := Mesh.pos_lt G.d i hi'
  have h4 := Mesh.cell_pos G.d i
  have hc : Mesh.coarseCell G.d ⟨(Mesh.coarsePosition G.d i).x, (Mesh.coarsePosition G.d i).y, (Mesh.coarsePosition G.d i).z⟩ = i := h4
  have hb := hb g hg x hx _ h1 _ h2 _ h3 (by rw [hc]; exact hi)
  have := Cmfd.C40_fixed_point G.d G.w (rmOf p.rs g) (c.dt g) (cur g) (fun i => φ i g) (fun _ => Cmfd.vol G.d G.w i * groupSource p.ng x.mat k φ g i)
    (fun j hj => hpos j (hp.cells ▸ hj) g hg) _ _ _ h1 h2 h3 (by
      rw [leakage_sum G.d G.w (cur g) _ _ _ h1 h2 h3]
      have hv := Cmfd.vol_eq G.d G.w _ _ (Mesh.coarsePosition G.d i).z h1 h2
      rw [hc] at hv hb ⊢
      rw [rmOf_at p.rs hp.part g x hx i hi, hv, mul_assoc]
      exact hb)
  rw [hc] at this
  exact this

theorem cmfdGroups_keep (c : CmfdSetup K) (p : Problem K) (G : Grid K) (hp : Fits p G) (hlin : KeepsSolution (Mesh.nPin G.d) c.lin) (k : K) (φ : Nat → Nat → K)
    (A : Nat → Nat → Nat → K)
    (hA : ∀ g < p.ng, ∀ x ∈ p.rs, ∀ i ∈ x.regs, ∑ j ∈ Finset.range (Mesh.nPin G.d), A g i j * φ j g = Cmfd.vol G.d G.w i * groupSource p.ng x.mat k φ g i)
    (hsrc : ∀ g < p.ng, ∃ x ∈ p.rs, ∃ i ∈ x.regs, Cmfd.vol G.d G.w i * groupSource p.ng x.mat k φ g i ≠ 0) (fs : Nat → K)
    (hfs : ∀ x ∈ p.rs, ∀ i ∈ x.regs, fs i = (∑ h ∈ Finset.range p.ng, x.mat.nf h * φ i h) / k) (l : List Nat) (hl : ∀ g ∈ l, g < p.ng) (r : Cmfd.Flux K × K)
    (hr : Agree p.nReg p.ng r.1 φ) : Agree p.nReg p.ng (cmfdGroups c p G A fs l r).1 φ := by
  induction l generalizing r with
  | nil => exact hr
  | cons g l ih =>
    rw [cmfdGroups]
    have hg : g < p.ng := hl g (by simp)
    refine ih (fun g hg => hl g (by simp [hg])) _ fun i hi h hh => ?_
    dsimp only
    split
    · next e =>
      subst e
      rw [hlin (A h) _ _ _ _ i (hp.cells ▸ hi), hr i hi h hh]
      · obtain ⟨x, hx, i, hi, hne⟩ := hsrc h hh
        exact ⟨i, hp.cells ▸ (hp.cover i).mpr ⟨x, hx, hi⟩, by rw [cmfdSource_eq p G hp k φ r.1 hr fs hfs h hh x hx i hi]; exact hne⟩
      · intro i hi
        rw [← hp.cells] at hi
        obtain ⟨x, hx, hi'⟩ := (hp.cover i).mp hi
        rw [cmfdSource_eq p G hp k φ r.1 hr fs hfs h hh x hx i hi', ← hA h hh x hx i hi']
        exact Finset.sum_congr rfl fun j hj => by rw [hr j (hp.cells ▸ Finset.mem_range.mp hj) h hh]
    · exact hr i hi h hh

theorem cmfd_total (c : CmfdSetup K) (p : Problem K) (G : Grid K) (hp : Fits p G) (A : Nat → Nat → Nat → K) (φ f : Nat → Nat → K) (hf : Agree p.nReg p.ng f φ) :
    (cmfdProblem c p G A).totalFission f = (cmfdProblem c p G A).totalFission φ := by
  refine Finset.sum_congr rfl fun i hi => Finset.sum_congr rfl fun h hh => ?_
  rw [hf i (hp.cells ▸ Finset.mem_range.mp hi) h (Finset.mem_range.mp hh)]

/-- C116: any number of iterations of CMFD leaves a solution in balance as it is. -/
theorem cmfdLoop_keep (c : CmfdSetup K) (p : Problem K) (G : Grid K) (hp : Fits p G) (hlin : KeepsSolution (Mesh.nPin G.d) c.lin) (k : K) (φ : Nat → Nat → K)
    (A : Nat → Nat → Nat → K)
    (hA : ∀ g < p.ng, ∀ x ∈ p.rs, ∀ i ∈ x.regs, ∑ j ∈ Finset.range (Mesh.nPin G.d), A g i j * φ j g = Cmfd.vol G.d G.w i * groupSource p.ng x.mat k φ g i)
    (hsrc : ∀ g < p.ng, ∃ x ∈ p.rs, ∃ i ∈ x.regs, Cmfd.vol G.d G.w i * groupSource p.ng x.mat k φ g i ≠ 0)
    (htot : (cmfdProblem c p G A).totalFission φ ≠ 0) (r0 : K) (left : Nat) (s : Cmfd.LoopState K)
    (hs : s.k = k ∧ Agree p.nReg p.ng s.flux φ ∧ s.tfis = (cmfdProblem c p G A).totalFission φ) :
    ((cmfdProblem c p G A).loop r0 left s).k = k ∧ Agree p.nReg p.ng ((cmfdProblem c p G A).loop r0 left s).flux φ := by
  have hit : ∀ s : Cmfd.LoopState K, (s.k = k ∧ Agree p.nReg p.ng s.flux φ ∧ s.tfis = (cmfdProblem c p G A).totalFission φ) →
      (((cmfdProblem c p G A).iteration s).k = k ∧ Agree p.nReg p.ng ((cmfdProblem c p G A).iteration s).flux φ ∧
        ((cmfdProblem c p G A).iteration s).tfis = (cmfdProblem c p G A).totalFission φ) := by
    rintro s ⟨h1, h2, h3⟩
    have ha : Agree p.nReg p.ng ((cmfdProblem c p G A).iteration s).flux φ :=
      cmfdGroups_keep c p G hp hlin k φ A hA hsrc _ (fun x hx i hi => by rw [h1]; exact fissionSource_eq c p G hp A k φ s.flux h2 x hx i hi) _
        (fun g hg => List.mem_range.mp hg) _ h2
    have ht : ((cmfdProblem c p G A).iteration s).tfis = (cmfdProblem c p G A).totalFission φ := cmfd_total c p G hp A φ _ ha
    refine ⟨?_, ha, ht⟩
    show s.k * ((cmfdProblem c p G A).iteration s).tfis / s.tfis = k
    rw [ht, h3, h1, mul_div_assoc, div_self htot, mul_one]
  induction left generalizing s with
  | zero => exact ⟨(hit s hs).1, (hit s hs).2.1⟩
  | succ n ih =>
    rw [Cmfd.Problem.loop]
    split
    · exact ⟨(hit s hs).1, (hit s hs).2.1⟩
    · exact ih _ (hit s hs)

/-- C116: the solution of the CMFD systems for a positive flux and currents in balance has the same eigenvalue, flux and currents, whatever the couplings between the cells. -/
theorem C116_run (c : CmfdSetup K) (p : Problem K) (G : Grid K) (hp : Fits p G) (hlin : KeepsSolution (Mesh.nPin G.d) c.lin) (k : K) (φ : Nat → Nat → K) (cur : Nat → Nat → K)
    (hb : InBalance p G k φ cur) (hpos : ∀ i < p.nReg, ∀ g < p.ng, 0 < φ i g)
    (hsrc : ∀ g < p.ng, ∃ x ∈ p.rs, ∃ i ∈ x.regs, Cmfd.vol G.d G.w i * groupSource p.ng x.mat k φ g i ≠ 0)
    (hfis : ∃ x ∈ p.rs, ∃ i ∈ x.regs, ∃ g < p.ng, x.mat.nf g ≠ 0) (hnf : ∀ x ∈ p.rs, ∀ g < p.ng, 0 ≤ x.mat.nf g) :
    (cmfdRun c p G k φ cur).1.k = k ∧ Agree p.nReg p.ng (cmfdRun c p G k φ cur).2 φ ∧
      ∀ g < p.ng, ∀ n < Mesh.nSurf G.d, Cmfd.currentAt G.d (c.dt g) (Cmfd.dHatAt G.d (c.dt g) (cur g) (fun i => Cmfd.zeroFix c.fix φ i g))
        (fun i => (cmfdRun c p G k φ cur).2 i g) n = cur g n := by
  set f0 := Cmfd.zeroFix c.fix φ with hdef
  have hf0 : Agree p.nReg p.ng f0 φ := by
    intro i hi h hh
    rw [hdef, Cmfd.zeroFix]
    split
    · exact max_eq_left (hpos i hi h hh).le
    · rfl
  have hpos0 : ∀ i < p.nReg, ∀ g < p.ng, 0 < f0 i g := fun i hi g hg => by rw [hf0 i hi g hg]; exact hpos i hi g hg
  have hgs : ∀ g, ∀ x ∈ p.rs, ∀ i ∈ x.regs, groupSource p.ng x.mat k f0 g i = groupSource p.ng x.mat k φ g i := by
    intro g x hx i hi
    have hi' := (hp.cover i).mpr ⟨x, hx, hi⟩
    unfold groupSource
    rw [Finset.sum_congr rfl fun h hh => by rw [hf0 i hi' h (Finset.mem_range.mp hh)]]
    congr 1
    exact Finset.sum_congr rfl fun h hh => by rw [hf0 i hi' h (Finset.mem_range.mp hh)]
  have hb0 : InBalance p G k f0 cur := by
    intro g hg x hx ix h1 iy h2 iz h3 hi
    rw [hf0 _ ((hp.cover _).mpr ⟨x, hx, hi⟩) g hg, hgs g x hx _ hi]
    exact hb g hg x hx ix h1 iy h2 iz h3 hi
  set A := cmfdMatrix c p G cur f0 with hAdef
  have hA : ∀ g < p.ng, ∀ x ∈ p.rs, ∀ i ∈ x.regs, ∑ j ∈ Finset.range (Mesh.nPin G.d), A g i j * f0 j g = Cmfd.vol G.d G.w i * groupSource p.ng x.mat k f0 g i :=
    fun g hg x hx i hi => C116_solves c p G hp k f0 cur hb0 hpos0 g hg x hx i hi
  have hsrc0 : ∀ g < p.ng, ∃ x ∈ p.rs, ∃ i ∈ x.regs, Cmfd.vol G.d G.w i * groupSource p.ng x.mat k f0 g i ≠ 0 := by
    intro g hg
    obtain ⟨x, hx, i, hi, h⟩ := hsrc g hg
    exact ⟨x, hx, i, hi, by rw [hgs g x hx i hi]; exact h⟩
  have htot : (cmfdProblem c p G A).totalFission f0 ≠ 0 := by
    obtain ⟨x, hx, i, hi, g, hg, hne⟩ := hfis
    have hterm : ∀ i ∈ Finset.range (Mesh.nPin G.d), ∀ g ∈ Finset.range p.ng, 0 ≤ (cmfdProblem c p G A).nf i g * f0 i g := by
      intro i hi g hg
      have hi' : i < p.nReg := hp.cells ▸ Finset.mem_range.mp hi
      obtain ⟨x, hx, hix⟩ := (hp.cover i).mp hi'
      show 0 ≤ nfOf p.rs g i * _
      rw [nfOf_at p.rs hp.part g x hx i hix]
      exact mul_nonneg (hnf x hx g (Finset.mem_range.mp hg)) (hpos0 i hi' g (Finset.mem_range.mp hg)).le
    have hi' := (hp.cover i).mpr ⟨x, hx, hi⟩
    have hn : i ∈ Finset.range (Mesh.nPin G.d) := Finset.mem_range.mpr (hp.cells ▸ hi')
    refine ne_of_gt (Finset.sum_pos' (fun i hi => Finset.sum_nonneg (hterm i hi)) ⟨i, hn, ?_⟩)
    refine Finset.sum_pos' (hterm i hn) ⟨g, Finset.mem_range.mpr hg, ?_⟩
    show 0 < nfOf p.rs g i * _
    rw [nfOf_at p.rs hp.part g x hx i hi]
    exact mul_pos (lt_of_le_of_ne (hnf x hx g hg) (Ne.symm hne)) (hpos0 i hi' g hg)
  have hrun := cmfdLoop_keep c p G hp hlin k f0 A hA hsrc0 htot
    (cmfdResidual c p G A ((cmfdProblem c p G A).fissionSource f0 k) f0) (cmfdProblem c p G A).maxIter ((cmfdProblem c p G A).start k f0)
    ⟨rfl, fun _ _ _ _ => rfl, rfl⟩
  set s' := (cmfdProblem c p G A).loop (cmfdResidual c p G A ((cmfdProblem c p G A).fissionSource f0 k) f0) (cmfdProblem c p G A).maxIter
    ((cmfdProblem c p G A).start k f0) with hs'
  obtain ⟨hk, hfl⟩ := hrun
  have hflip : Agree p.nReg p.ng (Cmfd.flip s'.flux) f0 := by
    intro i hi h hh
    rw [Cmfd.flip, hfl i hi h hh, if_neg (not_lt.mpr (hpos0 i hi h hh).le)]
  refine ⟨hk, fun i hi h hh => ?_, fun g hg n hn => ?_⟩
  · exact (hflip i hi h hh).trans (hf0 i hi h hh)
  · obtain ⟨x, hx, i, hi, -⟩ := hsrc g hg
    have hi' : i < Mesh.nPin G.d := hp.cells ▸ (hp.cover i).mpr ⟨x, hx, hi⟩
    obtain ⟨h1, h2, h3⟩ := Mesh.pos_lt G.d i hi'
    have h1 : 0 < G.d.nx := by omega
    have h2 : 0 < G.d.ny := by omega
    have h3 : 0 < G.d.nz := by omega
    have hr := Cmfd.C40_reconstruct_mesh G.d h1 h2 h3 (c.dt g) (cur g) (fun i => f0 i g) (fun j hj => hpos0 j (hp.cells ▸ hj) g hg) n hn
    obtain ⟨t1, t2, -⟩ := Mesh.C12_cells_touch_surface G.d h1 h2 h3 n hn
    have hside : ∀ z : Int, (z = -1 ∨ ∃ c : Nat, z = c ∧ c < Mesh.nPin G.d) →
        Cmfd.side (fun i => Cmfd.flip s'.flux i g) z = Cmfd.side (fun i => f0 i g) z := by
      rintro z (rfl | ⟨c, rfl, hc⟩)
      · simp [Cmfd.side]
      · rw [Cmfd.side_nat, Cmfd.side_nat]; exact hflip c (hp.cells ▸ hc) g hg
    conv_rhs => rw [← hr]
    show Cmfd.currentAt G.d (c.dt g) (Cmfd.dHatAt G.d (c.dt g) (cur g) (fun i => f0 i g)) (fun i => Cmfd.flip s'.flux i g) n = _
    unfold Cmfd.currentAt
    rw [hside _ (t1.imp id fun ⟨c, a, b, _⟩ => ⟨c, a, b⟩), hside _ (t2.imp id fun ⟨c, a, b, _⟩ => ⟨c, a, b⟩)]

/-- C116: CMFD leaves eigenvalue, state of the sweeper and currents of a positive solution in balance as they are, whatever the couplings between the cells. -/
theorem C116_cmfd (c : CmfdSetup K) (p : Problem K) (m : AccSetup K) (hp : Fits p m.G) (hlin : KeepsSolution (Mesh.nPin m.G.d) c.lin) (k : K) (a : AccState K)
    (hb : InBalance p m.G k a.s.flux a.cur) (hpos : ∀ i < p.nReg, ∀ g < p.ng, 0 < a.s.flux i g)
    (hsrc : ∀ g < p.ng, ∃ x ∈ p.rs, ∃ i ∈ x.regs, Cmfd.vol m.G.d m.G.w i * groupSource p.ng x.mat k a.s.flux g i ≠ 0)
    (hfis : ∃ x ∈ p.rs, ∃ i ∈ x.regs, ∃ g < p.ng, x.mat.nf g ≠ 0) (hnf : ∀ x ∈ p.rs, ∀ g < p.ng, 0 ≤ x.mat.nf g) : doCmfd c p m k a = (k, a) := by
  obtain ⟨hk, hfl, hcur⟩ := C116_run c p m.G hp hlin k a.s.flux a.cur hb hpos hsrc hfis hnf
  have e1 : setFlux (Mesh.nPin m.G.d) p.ng (cmfdRun c p m.G k a.s.flux a.cur).2 a.s.flux = a.s.flux := by
    funext i h
    unfold setFlux
    split
    · next hc =>
      have hi : i < p.nReg := hp.cells ▸ hc.1
      rw [hfl i hi h hc.2, div_self (hpos i hi h hc.2).ne', div_one]
    · rfl
  unfold doCmfd
  dsimp only
  rw [hk, e1]
  congr 2
  funext g n
  split
  · next hc => exact hcur g hc.1 n hc.2
  · rfl

/-- C116: but to find that out it makes `max_iter + 1` iterations, as the residual is compared with that at the start, which is zero. -/
theorem C116_exhausts (c : CmfdSetup K) (p : Problem K) (G : Grid K) (hp : Fits p G) (k : K) (flux : Nat → Nat → K) (cur : Nat → Nat → K)
    (hb : InBalance p G k flux cur) (hpos : ∀ i < p.nReg, ∀ g < p.ng, 0 < flux i g) (hsq : c.sqrt 0 = 0) :
    (cmfdRun c p G k flux cur).1.iter = c.maxIter + 1 := by
  set f0 := Cmfd.zeroFix c.fix flux with hdef
  have hf0 : Agree p.nReg p.ng f0 flux := by
    intro i hi h hh
    rw [hdef, Cmfd.zeroFix]
    split
    · exact max_eq_left (hpos i hi h hh).le
    · rfl
  have hpos0 : ∀ i < p.nReg, ∀ g < p.ng, 0 < f0 i g := fun i hi g hg => by rw [hf0 i hi g hg]; exact hpos i hi g hg
  have hb0 : InBalance p G k f0 cur := by
    intro g hg x hx ix h1 iy h2 iz h3 hi
    have hi' := (hp.cover _).mpr ⟨x, hx, hi⟩
    have hgs : groupSource p.ng x.mat k f0 g (Mesh.coarseCell G.d ⟨ix, iy, iz⟩) = groupSource p.ng x.mat k flux g (Mesh.coarseCell G.d ⟨ix, iy, iz⟩) := by
      unfold groupSource
      rw [Finset.sum_congr rfl fun h hh => by rw [hf0 _ hi' h (Finset.mem_range.mp hh)]]
      congr 1
      exact Finset.sum_congr rfl fun h hh => by rw [hf0 _ hi' h (Finset.mem_range.mp hh)]
    rw [hf0 _ hi' g hg, hgs]
    exact hb g hg x hx ix h1 iy h2 iz h3 hi
  have hr : cmfdResidual c p G (cmfdMatrix c p G cur f0) ((cmfdProblem c p G (cmfdMatrix c p G cur f0)).fissionSource f0 k) f0 = 0 := by
    rw [cmfdResidual, Finset.sum_eq_zero, hsq, zero_div]
    intro g hg
    have hg := Finset.mem_range.mp hg
    refine Finset.sum_eq_zero fun i hi => ?_
    have hi' : i < p.nReg := hp.cells ▸ Finset.mem_range.mp hi
    obtain ⟨x, hx, hix⟩ := (hp.cover i).mp hi'
    rw [C116_solves c p G hp k f0 cur hb0 hpos0 g hg x hx i hix,
      cmfdSource_eq p G hp k f0 f0 (fun _ _ _ _ => rfl) _ (fun x hx i hi => fissionSource_eq c p G hp _ k f0 f0 (fun _ _ _ _ => rfl) x hx i hi) g hg x hx i hix, sub_self, zero_mul]
  show ((cmfdProblem c p G (cmfdMatrix c p G cur f0)).run
    (cmfdResidual c p G (cmfdMatrix c p G cur f0) ((cmfdProblem c p G (cmfdMatrix c p G cur f0)).fissionSource f0 k) f0) c.fix k flux).1.iter = _
  rw [hr]
  exact Cmfd.C59_zero_residual _ _ _ _

/-! ### The sweeper -/

theorem acc_only (p : Problem K) (m : AccSetup K) : OnlyGroup (accSweeper p m) := fun g src s i h hne => snSweep_only p m.sn g src s.s i h hne

/-- The data of the sweeper: schemes that keep the balance, directions that are not parallel to a face, weights that add up to the full solid angle, one inner iteration. -/
structure SweepOk (p : Problem K) (m : AccSetup K) : Prop where
  ords : ∀ o ∈ m.ords, o.ray.ox ≠ 0 ∧ o.ray.oy ≠ 0 ∧ o.ray.oz ≠ 0 ∧ ∀ i, Bal3 (o.sch i)
  dx : ∀ i < m.G.d.nx, 0 < m.G.dx i
  dy : ∀ i < m.G.d.ny, 0 < m.G.dy i
  dz : ∀ i < m.G.d.nz, 0 < m.G.dz i
  fpi : m.fpi ≠ 0
  weights : (m.ords.map fun o => o.ray.weight * m.G.hpi).sum = m.fpi
  inner : m.nInner = 1
  tr : ∀ x ∈ p.rs, ∀ g < p.ng, 0 < x.mat.tr g

/-- C116: the currents that an outer iteration of Sn leaves balance with its flux in every cell, once the flux is positive and unchanged. -/
theorem C116_balance (p : Problem K) (m : AccSetup K) (hp : Fits p m.G) (hm : SweepOk p m) (k k' : K) (a a' : AccState K) (h : outer p (accSweeper p m) k a = some (k', a'))
    (hfix : ∀ i < p.nReg, ∀ g < p.ng, a'.s.flux i g = a.s.flux i g) (hpos : ∀ i < p.nReg, ∀ g < p.ng, 0 < a.s.flux i g) : InBalance p m.G k a'.s.flux a'.cur := by
  intro g hg x hx ix h1 iy h2 iz h3 hi
  set i := Mesh.coarseCell m.G.d ⟨ix, iy, iz⟩ with hidef
  have hi' : i < p.nReg := (hp.cover i).mpr ⟨x, hx, hi⟩
  have h0 := h
  rw [outer] at h
  obtain ⟨v, h4, h5⟩ := Option.map_eq_some_iff.mp h
  rw [Prod.mk.injEq] at h5
  obtain ⟨-, rfl⟩ := h5
  obtain ⟨t, src, hat, hsw, ht⟩ := atGroup p (accSweeper p m) (acc_only p m) k k' a _ h0 g hg
  have ht' : ∀ i < p.nReg, ∀ g' < p.ng, t.s.flux i g' = a.s.flux i g' := by
    intro i hi g' hg'
    have := ht i g'
    rw [show (accSweeper p m).flux t i g' = t.s.flux i g' from rfl] at this
    rw [this]
    split
    · exact hfix i hi g' hg'
    · rfl
  have hcur : v.cur g = groupCurrents p m g src t.s (t.cur g) := by
    obtain ⟨b, hbn⟩ : ∃ b, p.ng = g + (b + 1) := ⟨p.ng - g - 1, by omega⟩
    have hsp := groupLoop_split p (accSweeper p m) (calcFissionSource p.ng p.rs k ((accSweeper p m).flux a)) g (b + 1) 0 a
    rw [← hbn, h4, hat.1, Option.bind_some, Nat.zero_add, groupLoop, hat.2, Option.bind_some] at hsp
    have := loop_other p (accSweeper p m) AccState.cur (fun g src s h hne => if_neg hne) _ _ _ _ _ hsp.symm g (by omega)
    rw [this]
    exact if_pos rfl
  have hbal := sweepCur_balance m (selfScatter m.fpi p.ng p.rs t.s.flux g src false t.s.q) (trOf p.rs g) ix iy iz h1 h2 h3 (hm.dx ix h1) (hm.dy iy h2) (hm.dz iz h3)
    (by rw [trOf_at p.rs hp.part g x hx _ hi]; exact hm.tr x hx g hg) m.ords hm.ords ⟨fun _ => 0, t.s.bin g, t.s.bout⟩ (fun _ => 0)
  have hz : Sn.leakage m.G.d m.G.dx m.G.dy m.G.dz (fun _ => 0) ix iy iz = 0 := by
    refine (leakage_sum m.G.d m.G.w (fun _ => 0) ix iy iz h1 h2 h3).symm.trans (List.sum_eq_zero fun y hy => ?_)
    obtain ⟨f, -, rfl⟩ := List.mem_map.mp hy
    unfold Cmfd.signed
    split <;> simp
  have hg1 : groupCurrents p m g src t.s (t.cur g) = (sweepCur m (selfScatter m.fpi p.ng p.rs t.s.flux g src false t.s.q) (trOf p.rs g) m.ords
      ⟨fun _ => 0, t.s.bin g, t.s.bout⟩ (fun _ => 0)).2 := by
    unfold groupCurrents
    rw [if_neg (by rw [hm.inner]; decide), hm.inner]
    rfl
  have hfl : (sweepCur m (selfScatter m.fpi p.ng p.rs t.s.flux g src false t.s.q) (trOf p.rs g) m.ords ⟨fun _ => 0, t.s.bin g, t.s.bout⟩ (fun _ => 0)).1.tflux i =
      a.s.flux i g := by
    rw [sweepCur_pass]
    have e1 : (snInner p m.sn g src t.s).flux i g = ((m.ords.map (CurOrd.ord m.G)).foldl (snOrdinate m.sn (selfScatter m.fpi p.ng p.rs t.s.flux g src false t.s.q) (trOf p.rs g))
        ⟨fun _ => 0, t.s.bin g, t.s.bout⟩).tflux i := by
      show (if g = g then _ else _) = _
      rw [if_pos rfl]
      rfl
    rw [← e1]
    have e2 := C109_sn_fix p m.sn g src t.s i g
    have e3 : (snSweep p m.sn g src t.s).flux i g = a.s.flux i g := by
      rw [← hfix i hi' g hg]
      exact (hsw i).symm
    have e4 := hpos i hi' g hg
    have e5 : m.sn.nInner = 1 := hm.inner
    simp only [e5, List.range_one, List.foldl_cons, List.foldl_nil, if_true] at e2
    rw [e3] at e2
    rw [e2] at e4 ⊢
    rcases lt_max_iff.mp e4 with h4 | h4
    · rw [max_eq_left h4.le]
    · exact absurd h4 (lt_irrefl _)
  rw [hcur, hg1]
  rw [hz, sub_zero, hm.weights, hfl, trOf_at p.rs hp.part g x hx _ hi, selfScatter_at m.fpi p.ng p.rs hp.part t.s.flux g hg src false t.s.q x hx _ hi] at hbal
  obtain ⟨src', h6, h7⟩ := C28_assemble_partial p.ng p.nReg p.rs (calcFissionSource p.ng p.rs k ((accSweeper p m).flux a)) ((accSweeper p m).flux t) g hp.part hp.sc hg
  have h8 := hat.2
  rw [h6, Option.some.injEq] at h8
  have hgs : src i = groupSource p.ng x.mat k v.s.flux g i := by
    rw [← h8, h7 x hx i hi, defined, C47_fission_source p.ng p.rs hp.part k _ x hx i hi, zero_add, groupSource]
    congr 1
    · congr 2
      exact Finset.sum_congr rfl fun h hh => by rw [hfix i hi' h (Finset.mem_range.mp hh)]; rfl
    · refine Finset.sum_congr rfl fun h hh => ?_
      rw [hfix i hi' h (Finset.mem_range.mp hh), ← ht' i hi' h (Finset.mem_range.mp hh)]; rfl
  rw [hbal, ← hgs, ht' i hi' g hg, hfix i hi' g hg]
  have hfpi := hm.fpi
  simp only [Bool.false_eq_true, if_false]
  field_simp
  ring

/-- C116: what CMFD does after an outer iteration of Sn that left the flux as it was: nothing. -/
theorem C116_converged (c : CmfdSetup K) (p : Problem K) (m : AccSetup K) (hp : Fits p m.G) (hm : SweepOk p m) (hlin : KeepsSolution (Mesh.nPin m.G.d) c.lin) (k : K)
    (a a' : AccState K) (h : outer p (accSweeper p m) k a = some (k, a'))
    (hfix : ∀ i < p.nReg, ∀ g < p.ng, a'.s.flux i g = a.s.flux i g) (hpos : ∀ i < p.nReg, ∀ g < p.ng, 0 < a.s.flux i g)
    (hsrc : ∀ g < p.ng, ∃ x ∈ p.rs, ∃ i ∈ x.regs, groupSource p.ng x.mat k a'.s.flux g i ≠ 0)
    (hfis : ∃ x ∈ p.rs, ∃ i ∈ x.regs, ∃ g < p.ng, x.mat.nf g ≠ 0) (hnf : ∀ x ∈ p.rs, ∀ g < p.ng, 0 ≤ x.mat.nf g) :
    doCmfd c p m k a' = (k, a') ∧ accelStep c p m k a' = outer p (accSweeper p m) k a' := by
  have key : doCmfd c p m k a' = (k, a') := by
    refine C116_cmfd c p m hp hlin k a' (C116_balance p m hp hm k k a a' h hfix hpos) (fun i hi g hg => by rw [hfix i hi g hg]; exact hpos i hi g hg) ?_ hfis hnf
    intro g hg
    obtain ⟨x, hx, i, hi, hne⟩ := hsrc g hg
    have hi' : i < Mesh.nPin m.G.d := hp.cells ▸ (hp.cover i).mpr ⟨x, hx, hi⟩
    obtain ⟨h1, h2, h3⟩ := Mesh.pos_lt m.G.d i hi'
    refine ⟨x, hx, i, hi, mul_ne_zero ?_ hne⟩
    have hv := Cmfd.vol_eq m.G.d m.G.w _ _ (Mesh.coarsePosition m.G.d i).z h1 h2
    have hc : Mesh.coarseCell m.G.d ⟨(Mesh.coarsePosition m.G.d i).x, (Mesh.coarsePosition m.G.d i).y, (Mesh.coarsePosition m.G.d i).z⟩ = i := Mesh.cell_pos m.G.d i
    rw [hc] at hv
    rw [hv]
    exact (mul_pos (mul_pos (hm.dx _ h1) (hm.dy _ h2)) (hm.dz _ h3)).ne'
  refine ⟨key, ?_⟩
  rw [accelStep, key]

/-- C116: so a solution that the iteration without CMFD repeats is repeated by the iteration with CMFD, for any number of steps. -/
theorem C116_steps (c : CmfdSetup K) (p : Problem K) (m : AccSetup K) (hp : Fits p m.G) (hm : SweepOk p m) (hlin : KeepsSolution (Mesh.nPin m.G.d) c.lin) (k : K)
    (a : AccState K) (h : outer p (accSweeper p m) k a = some (k, a)) (hpos : ∀ i < p.nReg, ∀ g < p.ng, 0 < a.s.flux i g)
    (hsrc : ∀ g < p.ng, ∃ x ∈ p.rs, ∃ i ∈ x.regs, groupSource p.ng x.mat k a.s.flux g i ≠ 0)
    (hfis : ∃ x ∈ p.rs, ∃ i ∈ x.regs, ∃ g < p.ng, x.mat.nf g ≠ 0) (hnf : ∀ x ∈ p.rs, ∀ g < p.ng, 0 ≤ x.mat.nf g) (n : Nat) :
    accelSteps c p m n k a = some (k, a) := by
  have h1 := (C116_converged c p m hp hm hlin k a a h (fun _ _ _ _ => rfl) hpos hsrc hfis hnf).2
  induction n with
  | zero => rfl
  | succ n ih => rw [accelSteps, h1, h, Option.bind_some, ih]

/-- C116: a step is a sweep with the eigenvalue that CMFD found and the flux it left; the boundary values are those of the sweep before. -/
theorem C116_step (c : CmfdSetup K) (p : Problem K) (m : AccSetup K) (k : K) (a : AccState K) (S : Cmfd.LoopState K) (f : Cmfd.Flux K)
    (h : cmfdRun c p m.G k a.s.flux a.cur = (S, f)) :
    ∃ b : AccState K, accelStep c p m k a = outer p (accSweeper p m) S.k b ∧ b.s.bin = a.s.bin ∧ b.s.bout = a.s.bout ∧
      ∀ i < Mesh.nPin m.G.d, ∀ g < p.ng, a.s.flux i g ≠ 0 → f i g ≠ 0 → b.s.flux i g = f i g := by
  refine ⟨(doCmfd c p m k a).2, ?_, rfl, rfl, fun i hi g hg hne hf => ?_⟩
  · rw [accelStep]
    show outer p (accSweeper p m) (cmfdRun c p m.G k a.s.flux a.cur).1.k _ = _
    rw [h]
  · show setFlux (Mesh.nPin m.G.d) p.ng (cmfdRun c p m.G k a.s.flux a.cur).2 a.s.flux i g = f i g
    rw [h, setFlux, if_pos ⟨hi, hg⟩]
    show a.s.flux i g / (a.s.flux i g / f i g) = f i g
    field_simp

/-- C116: each step starts with eigenvalue and state of the one before. -/
theorem C116_append (c : CmfdSetup K) (p : Problem K) (m : AccSetup K) (n n' : Nat) (k : K) (a : AccState K) :
    accelSteps c p m (n + n') k a = (accelSteps c p m n k a).bind fun r => accelSteps c p m n' r.1 r.2 := by
  induction n generalizing k a with
  | zero => rw [Nat.zero_add]; rfl
  | succ n ih =>
    rw [Nat.succ_add, accelSteps, accelSteps, Option.bind_assoc]
    congr 1
    funext r
    exact ih r.1 r.2

theorem cmfdGroups_append (c : CmfdSetup K) (p : Problem K) (G : Grid K) (A : Nat → Nat → Nat → K) (fs : Nat → K) (l l' : List Nat) (r : Cmfd.Flux K × K) :
    cmfdGroups c p G A fs (l ++ l') r = cmfdGroups c p G A fs l' (cmfdGroups c p G A fs l r) := by
  induction l generalizing r with
  | nil => rfl
  | cons g l ih => exact ih _

theorem cmfdGroups_other (c : CmfdSetup K) (p : Problem K) (G : Grid K) (A : Nat → Nat → Nat → K) (fs : Nat → K) (l : List Nat) (r : Cmfd.Flux K × K) (g : Nat)
    (hg : g ∉ l) (i : Nat) : (cmfdGroups c p G A fs l r).1 i g = r.1 i g := by
  induction l generalizing r with
  | nil => rfl
  | cons h l ih =>
    rw [List.mem_cons, not_or] at hg
    rw [cmfdGroups, ih _ hg.2]
    exact if_neg hg.1

/-- C116: the residual of an iteration is the sum over all groups, each with its flux before and with the new flux of the groups solved before. -/
theorem C116_residuals (c : CmfdSetup K) (p : Problem K) (G : Grid K) (A : Nat → Nat → Nat → K) (fs : Nat → K) (flux : Cmfd.Flux K) (n : Nat) :
    (cmfdGroups c p G A fs (List.range n) (flux, 0)).2 =
      ∑ g ∈ Finset.range n, ∑ i ∈ Finset.range (Mesh.nPin G.d), ((∑ j ∈ Finset.range (Mesh.nPin G.d), A g i j * flux j g) -
        cmfdSource p G fs (cmfdGroups c p G A fs (List.range g) (flux, 0)).1 g i) ^ 2 := by
  induction n with
  | zero => rfl
  | succ n ih =>
    rw [List.range_succ, cmfdGroups_append, Finset.sum_range_succ, ← ih]
    show _ + residual1g _ _ _ _ = _
    congr 1
    have e : (fun i => (cmfdGroups c p G A fs (List.range n) (flux, 0)).1 i n) = fun i => flux i n := by
      funext i
      exact cmfdGroups_other c p G A fs (List.range n) (flux, 0) n (by simp) i
    rw [e, residual1g]
    exact Finset.sum_congr rfl fun i _ => (sq _).symm

/-- C116: the iteration with currents is the iteration of C108-C110 as far as the sweeper is concerned. -/
theorem C116_same (p : Problem K) (m : AccSetup K) (k : K) (a : AccState K) :
    (outer p (accSweeper p m) k a).map (fun r => (r.1, r.2.s)) = outer p (snSweeper p m.sn) k a.s := by
  have hl : ∀ (fs : Nat → K) (n g : Nat) (a : AccState K), (groupLoop p (accSweeper p m) fs n g a).map AccState.s = groupLoop p (snSweeper p m.sn) fs n g a.s := by
    intro fs n
    induction n with
    | zero => intro g a; rfl
    | succ n ih =>
      intro g a
      rw [groupLoop, groupLoop, Option.map_bind]
      show ((assemble p.ng p.nReg p.rs none fs a.s.flux g).bind _) = ((assemble p.ng p.nReg p.rs none fs a.s.flux g).bind _)
      congr 1
      funext src
      exact ih (g + 1) _
  rw [outer, outer, Option.map_map, ← hl, Option.map_map]
  rfl

end

/-! ### Example: one cell with vacuum on all sides, one direction -/

def exMat : Mat ℚ := { tr := fun _ => 1, nf := fun _ => 13 / 2, f := fun _ => 0, ch := fun _ => 1, sc := fun _ _ => 1 / 2 }
def exProblem : Problem ℚ := { ng := 1, nReg := 1, rs := [⟨exMat, [0]⟩], vol := fun _ => 1 }
def exAcc : AccSetup ℚ :=
  { G := { d := ⟨1, 1, 1⟩, w := ⟨[1], [1], [1]⟩, hpi := 2 }, fpi := 2, gs := false, u := ⟨fun _ b _ => b, fun _ _ => fun _ _ _ => 0⟩,
    ords := [⟨0, ⟨1, 1, -1, 1⟩, fun _ => Sn.evalDD⟩], nInner := 1 }
def exState : AccState ℚ := { s := { flux := fun _ _ => 1, q := fun _ => 0, bin := fun _ _ _ _ => 0, bout := fun _ _ _ => 0 }, cur := fun _ _ => 0 }
def exCmfd : CmfdSetup ℚ :=
  { dt := fun _ _ => 1 / 5, kTol := 1 / 100, psiTol := 1 / 100, residRed := 1 / 100, maxIter := 3, fix := true, sqrt := id, lin := fun A b _ _ => b 0 / A 0 0 }

theorem exFits : Fits exProblem exAcc.G where
  part := by
    refine ⟨?_, ?_⟩ <;> simp [exProblem]
  cover := by intro i; simp [exProblem]
  cells := rfl
  sc := by
    intro x hx
    simp only [exProblem, List.mem_singleton] at hx
    subst hx
    intro a b _ _
    simp only [exMat]; norm_num

theorem exOk : SweepOk exProblem exAcc where
  ords := by
    intro o ho
    simp only [exAcc, List.mem_singleton] at ho
    subst ho
    exact ⟨by norm_num, by norm_num, by norm_num, fun _ => (C110_schemes 1 1 one_pos one_pos).1⟩
  dx := by intro i hi; simp only [exAcc, Nat.lt_one_iff] at hi; subst hi; simp [Grid.dx, exAcc]
  dy := by intro i hi; simp only [exAcc, Nat.lt_one_iff] at hi; subst hi; simp [Grid.dy, exAcc]
  dz := by intro i hi; simp only [exAcc, Nat.lt_one_iff] at hi; subst hi; simp [Grid.dz, exAcc]
  fpi := by simp [exAcc]
  weights := by simp [exAcc]
  inner := rfl
  tr := by
    intro x hx g _
    simp only [exProblem, List.mem_singleton] at hx
    subst hx
    simp [exMat]

theorem exLin : KeepsSolution (Mesh.nPin exAcc.G.d) exCmfd.lin := by
  intro A b x h1 h2 i hi
  have e : Mesh.nPin exAcc.G.d = 1 := rfl
  rw [e] at h1 h2 hi
  obtain ⟨j, hj, hb⟩ := h1
  have hj0 : j = 0 := by omega
  have hi0 : i = 0 := by omega
  subst hj0 hi0
  have h3 := h2 0 one_pos
  rw [Finset.sum_range_one] at h3
  have hA : A 0 0 ≠ 0 := fun h => hb (by rw [← h3, h, zero_mul])
  show b 0 / A 0 0 = x 0
  rw [← h3, mul_div_cancel_left₀ _ hA]

/-- The sweep repeats `k` and the flux; currents leave through three faces. -/
theorem exOuter : (outer exProblem (accSweeper exProblem exAcc) 1 exState).map (fun r => (r.1, r.2.s.flux 0 0, (List.range 6).map (r.2.cur 0))) =
    some (1, 1, [-2, 0, 2, 0, 2, 0]) := by
  decide +kernel

/-- C116 applies to it: neutrons leak out, and CMFD, with couplings that have nothing to do with the cross sections, leaves everything as it is. -/
example : ∃ a' : AccState ℚ, outer exProblem (accSweeper exProblem exAcc) 1 exState = some (1, a') ∧ a'.cur 0 0 = -2 ∧ doCmfd exCmfd exProblem exAcc 1 a' = (1, a') := by
  have h := exOuter
  obtain ⟨⟨k, a'⟩, h1, h2⟩ := Option.map_eq_some_iff.mp h
  simp only [Prod.mk.injEq] at h2
  obtain ⟨rfl, h3, h4⟩ := h2
  have h5 : a'.cur 0 0 = -2 := by
    have := congrArg (fun l : List ℚ => l[0]?) h4
    simpa using this
  have hfl : ∀ i < exProblem.nReg, ∀ g < exProblem.ng, a'.s.flux i g = exState.s.flux i g := by
    intro i hi g hg
    simp only [exProblem, Nat.lt_one_iff] at hi hg
    subst hi hg
    rw [h3]; rfl
  refine ⟨a', h1, h5, (C116_converged exCmfd exProblem exAcc exFits exOk exLin 1 exState a' h1 hfl (fun _ _ _ _ => by simp [exState]) ?_ ?_ ?_).1⟩
  · intro g hg
    simp only [exProblem, Nat.lt_one_iff] at hg
    subst hg
    refine ⟨⟨exMat, [0]⟩, by simp [exProblem], 0, by simp, ?_⟩
    simp [groupSource, exProblem, h3, exMat]
  · exact ⟨⟨exMat, [0]⟩, by simp [exProblem], 0, by simp, 0, by simp [exProblem], by simp [exMat]⟩
  · intro x hx g _
    simp only [exProblem, List.mem_singleton] at hx
    subst hx
    simp only [exMat]; norm_num

/-- With other currents CMFD does change the eigenvalue. -/
example : (doCmfd exCmfd exProblem exAcc 1 exState).1 ≠ 1 := by decide +kernel

end Verif.Medium
