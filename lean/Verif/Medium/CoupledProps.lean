import Verif.Medium.CoupledModel
import Verif.Medium.AccelMocProps
import Verif.Mesh.WidthProps
import Verif.Cmdo.ReproProps

/-!
# C146: a converged MoC solution is repeated by the Sn iteration that is coupled to it
-/

set_option linter.unusedSectionVars false

namespace Verif.Medium

open Verif.XS Verif.Source Verif.Sn
open Verif.Cmdo (DirOk)
open Verif.Mesh (coarseCell)

section
variable {K : Type} [Field K] [LinearOrder K] [IsStrictOrderedRing K]

/-- A core of one plane: pins, regions and mesh belong together, `cellOf` is the position of the pin of a region, `area` the area of a region. -/
structure OnePlane (p : Problem K) (m : MocAcc K) (cellOf : Nat → Nat × Nat) (area : Nat → K) : Prop where
  fit : PinsFit p m
  one : m.G.d.nz = 1
  cell : ∀ v ∈ PinFlux.visits m.layers 0 0, ∀ j < v.pin.areas.length, (cellOf (v.ireg + j)).1 < m.G.d.nx ∧ (cellOf (v.ireg + j)).2 < m.G.d.ny ∧
    m.cell v = coarseCell m.G.d ⟨(cellOf (v.ireg + j)).1, (cellOf (v.ireg + j)).2, 0⟩
  areas : ∀ v ∈ PinFlux.visits m.layers 0 0, ∀ j < v.pin.areas.length, area (v.ireg + j) = v.pin.areas.getD j 0

/-- A converged MoC solution `φ` with eigenvalue `k`: the source of each region (`qbar`, divided by cross section and solid angle) is that of `φ`, and the beams
of all directions give `φ`. -/
structure MocSolution (p : Problem K) (m : MocAcc K) (c : CoupledSn K) (area : Nat → K) (k : K) (φ : Nat → Nat → K) (sig qbar : Nat → Nat → K) : Prop where
  pos : Positive p.nReg p.ng φ
  fpi : 0 < c.fpi
  hsig : ∀ g < p.ng, ∀ x ∈ p.rs, ∀ r ∈ x.regs, sig g r = x.mat.tr g ∧ 0 < x.mat.tr g
  source : ∀ g < p.ng, ∀ x ∈ p.rs, ∀ r ∈ x.regs, qbar g r * (x.mat.tr g * c.fpi) = groupSource p.ng x.mat k φ g r + φ r g * x.mat.sc g g
  weights : ∀ g < p.ng, ((c.dirs g).map fun o => o.2.wgt).sum = c.fpi
  flux : ∀ g < p.ng, ∀ r < p.nReg, Cmdo.mocFlux c.fpi (m.G.dz 0) (sig g) area (qbar g) ((c.dirs g).map Prod.snd) r = φ r g

/-- Incoming values: for all directions the beams and the Sn values on the boundary belong together (`DirOk`). -/
def Inflow (p : Problem K) (m : MocAcc K) (c : CoupledSn K) (cellOf : Nat → Nat × Nat) (area : Nat → K) (sig qbar : Nat → Nat → K) (g : Nat) (b : Nat → Ax2 → Nat → K) : Prop :=
  ∀ o ∈ c.dirs g, DirOk m.G.d m.G.dx m.G.dy cellOf p.nReg (sig g) (qbar g) area o.2 (b o.1)

/-- Outgoing values of a direction are the averages of what the beams carry out. -/
def Outflow (G : Grid K) (o : Nat × Cmdo.Dir K) (b : Nat → Ax2 → Nat → K) : Prop :=
  (∀ j < G.d.ny, 0 < G.d.nx → b o.1 .x j = (Cmdo.cellSums o.2.beams (Sn.last G.d.nx o.2.negX) j).xr * o.2.areaX / G.dy j) ∧
  (∀ i < G.d.nx, 0 < G.d.ny → b o.1 .y i = (Cmdo.cellSums o.2.beams i (Sn.last G.d.ny o.2.negY)).yr * o.2.areaY / G.dx i)

/-- The boundary condition of Sn is that of the MoC solution: from outgoing averages of MoC it makes the incoming ones. -/
structure BcFits (p : Problem K) (m : MocAcc K) (c : CoupledSn K) (cellOf : Nat → Nat × Nat) (area : Nat → K) (sig qbar : Nat → Nat → K) : Prop where
  nodup : ∀ g < p.ng, ((c.dirs g).map Prod.fst).Nodup
  one : ∀ g < p.ng, ∀ o ∈ c.dirs g, ∀ b bo, Inflow p m c cellOf area sig qbar g b → Outflow m.G o bo → Inflow p m c cellOf area sig qbar g (c.u.one o.1 b bo)
  all : ∀ g < p.ng, ∀ b bo, Inflow p m c cellOf area sig qbar g b → (∀ o ∈ c.dirs g, Outflow m.G o bo) → Inflow p m c cellOf area sig qbar g (c.u.all b bo)

variable {p : Problem K} {m : MocAcc K} {c : CoupledSn K} {cellOf : Nat → Nat × Nat} {area : Nat → K} {k : K} {φ : Nat → Nat → K} {sig qbar : Nat → Nat → K}

/-! ### Pins and cells -/

theorem OnePlane.visit (h : OnePlane p m cellOf area) (i j : Nat) (hi : i < m.G.d.nx) (hj : j < m.G.d.ny) :
    ∃ v ∈ PinFlux.visits m.layers 0 0, m.cell v = coarseCell m.G.d ⟨i, j, 0⟩ := by
  have h1 : coarseCell m.G.d ⟨i, j, 0⟩ < Mesh.nPin m.G.d := Mesh.cell_lt m.G.d i j 0 hi hj (by rw [h.one]; exact Nat.one_pos)
  exact h.fit.cells _ h1

theorem OnePlane.sum (h : OnePlane p m cellOf area) (i j : Nat) (hi : i < m.G.d.nx) (hj : j < m.G.d.ny) {v : PinFlux.Visit K} (hv : v ∈ PinFlux.visits m.layers 0 0)
    (e : m.cell v = coarseCell m.G.d ⟨i, j, 0⟩) (f : Nat → K) :
    ∑ r ∈ (Finset.range p.nReg).filter (fun r => cellOf r = (i, j)), f r = ∑ n ∈ Finset.range v.pin.areas.length, f (v.ireg + n) := by
  have hset : (Finset.range p.nReg).filter (fun r => cellOf r = (i, j)) = (Finset.range v.pin.areas.length).image (v.ireg + ·) := by
    ext r
    simp only [Finset.mem_filter, Finset.mem_range, Finset.mem_image]
    constructor
    · rintro ⟨h1, h2⟩
      obtain ⟨w, hw, h3, h4⟩ := (h.fit.regs r).mp h1
      obtain ⟨-, -, h5⟩ := h.cell w hw (r - w.ireg) (by omega)
      rw [show w.ireg + (r - w.ireg) = r by omega, h2] at h5
      have h6 := h.fit.inj hv hw (e.trans h5.symm)
      subst h6
      exact ⟨r - v.ireg, by omega, by omega⟩
    · rintro ⟨n, hn, rfl⟩
      refine ⟨h.fit.region hv n hn, ?_⟩
      obtain ⟨h1, h2, h3⟩ := h.cell v hv n hn
      obtain ⟨e1, -⟩ := h.fit.pos hv i j 0 hi hj e
      obtain ⟨e2, -⟩ := h.fit.pos hv _ _ 0 h1 h2 h3
      rw [e1] at e2
      have hx : 0 < m.G.d.nx := by omega
      have e3 : i = (cellOf (v.ireg + n)).1 := by
        have := congrArg (· % m.G.d.nx) e2
        simpa [Nat.mul_comm, Nat.mul_add_mod, Nat.mod_eq_of_lt hi, Nat.mod_eq_of_lt h1] using this
      have e4 : j = (cellOf (v.ireg + n)).2 := by
        rw [e3] at e2
        exact Nat.eq_of_mul_eq_mul_right hx (Nat.add_right_cancel e2)
      exact Prod.ext e3.symm e4.symm
  rw [hset, Finset.sum_image]
  intro a _ b _ hab
  exact Nat.add_left_cancel hab

/-- Every region has a material, that of its pin. -/
theorem OnePlane.reg (h : OnePlane p m cellOf area) (r : Nat) (hr : r < p.nReg) : ∃ x ∈ p.rs, r ∈ x.regs ∧ 0 < area r := by
  obtain ⟨v, hv, h1, h2⟩ := (h.fit.regs r).mp hr
  obtain ⟨x, hx, h3, -⟩ := h.fit.mat v hv (r - v.ireg) (by omega)
  have h4 := h.areas v hv (r - v.ireg) (by omega)
  have h5 := h.fit.localArea_pos hv (r - v.ireg) (by omega)
  rw [show v.ireg + (r - v.ireg) = r by omega] at h3 h4
  refine ⟨x, hx, h3, ?_⟩
  rw [h4]
  exact h5

theorem tr_rate (h : OnePlane p m cellOf area) (hs : MocSolution p m c area k φ sig qbar) (g : Nat) (hg : g < p.ng) {v : PinFlux.Visit K} (hv : v ∈ PinFlux.visits m.layers 0 0) :
    (visitMat p m φ v).tr g * (v.pin.area * pinFlux m φ (m.cell v) g) = ∑ n ∈ Finset.range v.pin.areas.length, sig g (v.ireg + n) * area (v.ireg + n) * φ (v.ireg + n) g := by
  rw [h.fit.integral hv φ g, visitMat_eq h.fit hv]
  have := (C26_rates p.ng (m.pinMats (m.cell v)) (localArea v) (localFlux φ v) g (h.fit.integral_pos hv φ hs.pos g hg).ne').1
  refine Eq.trans this ?_
  rw [rate, h.fit.mats v hv]
  refine Finset.sum_congr rfl fun n hn => ?_
  have hn := Finset.mem_range.mp hn
  obtain ⟨x, hx, h1, h2⟩ := h.fit.mat v hv n hn
  rw [(hs.hsig g hg x hx _ h1).1, h2, h.areas v hv n hn]
  unfold localFlux localArea
  ring

theorem flux_area (h : OnePlane p m cellOf area) (g : Nat) {v : PinFlux.Visit K} (hv : v ∈ PinFlux.visits m.layers 0 0) :
    v.pin.area * pinFlux m φ (m.cell v) g = ∑ n ∈ Finset.range v.pin.areas.length, area (v.ireg + n) * φ (v.ireg + n) g := by
  rw [h.fit.integral hv φ g, fluxIntegral, h.fit.mats v hv]
  refine Finset.sum_congr rfl fun n hn => ?_
  rw [h.areas v hv n (Finset.mem_range.mp hn)]
  rfl

/-- The homogenised pins with source and cross sections of the Sn sweeper fit to the regions. -/
theorem planeOk (h : OnePlane p m cellOf area) (hs : MocSolution p m c area k φ sig qbar) (g : Nat) (hg : g < p.ng) (xs q : Nat → K)
    (hxs : ∀ v ∈ PinFlux.visits m.layers 0 0, xs (m.cell v) = (visitMat p m φ v).tr g)
    (hq : ∀ v ∈ PinFlux.visits m.layers 0 0, q (m.cell v) * c.fpi = groupSource p.ng (visitMat p m φ v) k (pinFlux m φ) g (m.cell v) +
      pinFlux m φ (m.cell v) g * (visitMat p m φ v).sc g g) :
    Cmdo.PlaneOk m.G.d m.G.dx m.G.dy cellOf p.nReg (sig g) (qbar g) area (fun i j => xs (coarseCell m.G.d ⟨i, j, 0⟩)) (fun i j => q (coarseCell m.G.d ⟨i, j, 0⟩)) where
  hdx := h.fit.dx
  hdy := h.fit.dy
  hxstr := by
    intro i hi j hj
    obtain ⟨v, hv, e⟩ := h.visit i j hi hj
    rw [← e, hxs v hv]
    have h1 := tr_rate h hs g hg hv
    have h2 : 0 < v.pin.area * pinFlux m φ (m.cell v) g := by rw [h.fit.integral hv φ g]; exact h.fit.integral_pos hv φ hs.pos g hg
    have h3 : 0 < ∑ n ∈ Finset.range v.pin.areas.length, sig g (v.ireg + n) * area (v.ireg + n) * φ (v.ireg + n) g := by
      refine Finset.sum_pos (fun n hn => ?_) ⟨0, Finset.mem_range.mpr (h.fit.ne_nil hv)⟩
      have hr := h.fit.region hv n (Finset.mem_range.mp hn)
      obtain ⟨x, hx, h4, h5⟩ := h.reg _ hr
      obtain ⟨e1, e2⟩ := hs.hsig g hg x hx _ h4
      exact mul_pos (mul_pos (by rw [e1]; exact e2) h5) (hs.pos _ hr g hg)
    rw [← h1] at h3
    exact (mul_pos_iff_of_pos_right h2).mp h3
  hsig := by
    intro r hr
    obtain ⟨x, hx, h1, -⟩ := h.reg r hr
    obtain ⟨e1, e2⟩ := hs.hsig g hg x hx r h1
    rw [e1]; exact e2
  harea := fun r hr => (h.reg r hr).choose_spec.2.2
  fill := by
    intro i hi j hj
    obtain ⟨v, hv, e⟩ := h.visit i j hi hj
    rw [h.sum i j hi hj hv e, ← h.fit.size v hv i hi j hj (h.fit.pos hv i j 0 hi hj e).1, (h.fit.area v hv).1]
    rw [Finset.sum_congr rfl fun n hn => h.areas v hv n (Finset.mem_range.mp hn)]
    simp only [List.getD_eq_getElem?_getD]
    exact (Mesh.sum_getD v.pin.areas).symm
  src := by
    intro i hi j hj
    obtain ⟨v, hv, e⟩ := h.visit i j hi hj
    rw [h.sum i j hi hj hv e, ← e, ← h.fit.size v hv i hi j hj (h.fit.pos hv i j 0 hi hj e).1]
    apply mul_right_cancel₀ hs.fpi.ne'
    have h1 := C118_source h.fit hv k φ hs.pos g hg
    have h2 := (h.fit.scat hv φ hs.pos).2 g g hg hg
    rw [← h.fit.integral hv φ g, rate, h.fit.mats v hv] at h2
    have h3 : q (m.cell v) * v.pin.area * c.fpi = v.pin.area * groupSource p.ng (visitMat p m φ v) k (pinFlux m φ) g (m.cell v) +
        (visitMat p m φ v).sc g g * (v.pin.area * pinFlux m φ (m.cell v) g) := by
      rw [mul_right_comm, hq v hv]; ring
    rw [h3, h1, h2, ← Finset.sum_add_distrib, Finset.sum_mul]
    refine Finset.sum_congr rfl fun n hn => ?_
    have hn := Finset.mem_range.mp hn
    obtain ⟨x, hx, h4, h5⟩ := h.fit.mat v hv n hn
    have h6 := hs.source g hg x hx _ h4
    rw [(hs.hsig g hg x hx _ h4).1, h.areas v hv n hn]
    rw [h5] at h6 ⊢
    unfold localArea localFlux
    linear_combination (-(v.pin.areas.getD n 0)) * h6

/-! ### One sweep of a group -/

/-- The directions in order: each gets incoming values of the MoC solution and leaves outgoing ones. -/
theorem pass (xs q : Nat → K) (hsq : ∀ i < m.G.d.nx, ∀ j < m.G.d.ny, m.G.dx i = m.G.dy j) (hb : BcFits p m c cellOf area sig qbar) (g : Nat) (hg : g < p.ng)
    (hpl : Cmdo.PlaneOk m.G.d m.G.dx m.G.dy cellOf p.nReg (sig g) (qbar g) area (fun i j => xs (coarseCell m.G.d ⟨i, j, 0⟩)) (fun i j => q (coarseCell m.G.d ⟨i, j, 0⟩)))
    (l : List (Nat × Cmdo.Dir K)) (hl : ∀ o ∈ l, o ∈ c.dirs g) (hn : (l.map Prod.fst).Nodup) (s : SnPass Ax2 K) (hin : Inflow p m c cellOf area sig qbar g s.bin) :
    ∃ ds : List (Cmdo.Dir K × (Ax2 → Nat → K)), ds.map Prod.fst = l.map Prod.snd ∧
      (∀ d ∈ ds, DirOk m.G.d m.G.dx m.G.dy cellOf p.nReg (sig g) (qbar g) area d.1 d.2) ∧
      ((l.map (cddOrd m.G.d m.G.dx m.G.dy)).foldl (snOrdinate (c.setup m.G g) q xs) s).tflux =
        ds.foldl (fun t d => (Cmdo.snDir m.G.d m.G.dx m.G.dy (fun i j => xs (coarseCell m.G.d ⟨i, j, 0⟩)) (fun i j => q (coarseCell m.G.d ⟨i, j, 0⟩)) t d).tflux) s.tflux ∧
      Inflow p m c cellOf area sig qbar g ((l.map (cddOrd m.G.d m.G.dx m.G.dy)).foldl (snOrdinate (c.setup m.G g) q xs) s).bin ∧
      (∀ o ∈ l, Outflow m.G o ((l.map (cddOrd m.G.d m.G.dx m.G.dy)).foldl (snOrdinate (c.setup m.G g) q xs) s).bout) ∧
      ∀ a, a ∉ l.map Prod.fst → ((l.map (cddOrd m.G.d m.G.dx m.G.dy)).foldl (snOrdinate (c.setup m.G g) q xs) s).bout a = s.bout a := by
  induction l generalizing s with
  | nil => exact ⟨[], rfl, by simp, rfl, hin, by simp, fun _ _ => rfl⟩
  | cons o l ih =>
    rw [List.map_cons, List.nodup_cons] at hn
    have ho := hl o (by simp)
    set s1 := snOrdinate (c.setup m.G g) q xs s (cddOrd m.G.d m.G.dx m.G.dy o) with hs1
    have hdir := Cmdo.C145_direction_partial hpl hsq s.tflux o.2 (s.bin o.1) (hin o ho)
    have hb1 : s1.bout o.1 = (Cmdo.snDir m.G.d m.G.dx m.G.dy (fun i j => xs (coarseCell m.G.d ⟨i, j, 0⟩)) (fun i j => q (coarseCell m.G.d ⟨i, j, 0⟩)) s.tflux (o.2, s.bin o.1)).flux := by
      show (if o.1 = o.1 then _ else _) = _
      rw [if_pos rfl]
      rfl
    have hout : Outflow m.G o s1.bout := by
      unfold Outflow
      rw [hb1]
      exact hdir.2
    have hin1 : Inflow p m c cellOf area sig qbar g s1.bin := by
      show Inflow p m c cellOf area sig qbar g (if c.gs then c.u.one o.1 s.bin s1.bout else s.bin)
      split
      · exact hb.one g hg o ho _ _ hin hout
      · exact hin
    obtain ⟨ds, h1, h2, h3, h4, h5, h6⟩ := ih (fun x hx => hl x (List.mem_cons_of_mem _ hx)) hn.2 s1 hin1
    refine ⟨(o.2, s.bin o.1) :: ds, ?_, ?_, ?_, ?_, ?_, ?_⟩
    · rw [List.map_cons, List.map_cons, h1]
    · intro d hd
      rcases List.mem_cons.mp hd with rfl | hd
      · exact hin o ho
      · exact h2 d hd
    · rw [List.map_cons, List.foldl_cons, ← hs1, h3, List.foldl_cons]
      rfl
    · exact h4
    · intro o' ho'
      rcases List.mem_cons.mp ho' with rfl | ho'
      · have e := h6 o'.1 hn.1
        unfold Outflow
        rw [List.map_cons, List.foldl_cons, ← hs1, e]
        exact hout
      · exact h5 o' ho'
    · intro a ha
      rw [List.map_cons, List.mem_cons, not_or] at ha
      rw [List.map_cons, List.foldl_cons, ← hs1, h6 a ha.2]
      show (if a = o.1 then _ else _) = _
      rw [if_neg ha.1]

/-- What holds between the groups: the Sn flux is the pin flux of MoC, and the incoming values are those of the MoC solution. -/
structure Follows (p : Problem K) (m : MocAcc K) (c : CoupledSn K) (cellOf : Nat → Nat × Nat) (area : Nat → K) (φ : Nat → Nat → K) (sig qbar : Nat → Nat → K)
    (s : SnState Ax2 K) : Prop where
  flux : Agree (Mesh.nPin m.G.d) p.ng s.flux (pinFlux m φ)
  bin : ∀ g < p.ng, Inflow p m c cellOf area sig qbar g (s.bin g)

/-- One inner iteration. -/
theorem inner_follows (h : OnePlane p m cellOf area) (hs : MocSolution p m c area k φ sig qbar) (hb : BcFits p m c cellOf area sig qbar)
    (hsq : ∀ i < m.G.d.nx, ∀ j < m.G.d.ny, m.G.dx i = m.G.dy j) (g : Nat) (hg : g < p.ng) (src : Nat → K)
    (hsrc : ∀ v ∈ PinFlux.visits m.layers 0 0, src (m.cell v) = groupSource p.ng (visitMat p m φ v) k (pinFlux m φ) g (m.cell v)) (s : SnState Ax2 K)
    (hf : Follows p m c cellOf area φ sig qbar s) : Follows p m c cellOf area φ sig qbar (snInner (coarseProblem p m φ) (c.setup m.G g) g src s) := by
  have hp := coarse_fits h.fit φ hs.pos
  set q := selfScatter (c.setup m.G g).fpi (coarseProblem p m φ).ng (coarseProblem p m φ).rs s.flux g src false s.q with hqdef
  set xs := trOf (coarseProblem p m φ).rs g with hxsdef
  have hxs : ∀ v ∈ PinFlux.visits m.layers 0 0, xs (m.cell v) = (visitMat p m φ v).tr g := fun v hv =>
    trOf_at _ hp.part g ⟨visitMat p m φ v, [m.cell v]⟩ (List.mem_map_of_mem hv) _ (List.mem_singleton_self _)
  have hq : ∀ v ∈ PinFlux.visits m.layers 0 0, q (m.cell v) * c.fpi = groupSource p.ng (visitMat p m φ v) k (pinFlux m φ) g (m.cell v) +
      pinFlux m φ (m.cell v) g * (visitMat p m φ v).sc g g := by
    intro v hv
    have e := selfScatter_at (c.setup m.G g).fpi (coarseProblem p m φ).ng (coarseProblem p m φ).rs hp.part s.flux g hg src false s.q
      ⟨visitMat p m φ v, [m.cell v]⟩ (List.mem_map_of_mem hv) _ (List.mem_singleton_self _)
    rw [hqdef, e, hsrc v hv, hf.flux _ (h.fit.cell_nPin hv) g hg, if_neg (by simp)]
    show _ * (1 / c.fpi) * c.fpi = _
    rw [mul_assoc, one_div_mul_cancel hs.fpi.ne', mul_one]
  have hpl := planeOk h hs g hg xs q hxs hq
  obtain ⟨ds, h1, h2, h3, h4, h5, -⟩ := pass xs q hsq hb g hg hpl (c.dirs g) (fun _ ho => ho) (hb.nodup g hg) ⟨fun _ => 0, s.bin g, s.bout⟩ (hf.bin g hg)
  refine ⟨?_, ?_⟩
  · intro n hn g' hg'
    show (if g' = g then (snSweep1g (c.setup m.G g) q xs (s.bin g) s.bout).tflux n else s.flux n g') = _
    split
    · next e =>
      subst e
      show ((((c.dirs g').map (cddOrd m.G.d m.G.dx m.G.dy)).foldl (snOrdinate (c.setup m.G g') q xs) ⟨fun _ => 0, s.bin g', s.bout⟩).tflux) n = _
      rw [h3]
      obtain ⟨v, hv, rfl⟩ := h.fit.cells n hn
      obtain ⟨a, b, -⟩ := h.cell v hv 0 (h.fit.ne_nil hv)
      set i := (cellOf (v.ireg + 0)).1
      set j := (cellOf (v.ireg + 0)).2
      have e : m.cell v = coarseCell m.G.d ⟨i, j, 0⟩ := (h.cell v hv 0 (h.fit.ne_nil hv)).2.2
      have hw : (ds.map fun d => d.1.wgt).sum = c.fpi := by
        rw [← hs.weights g' hg]
        have : ds.map (fun d => d.1.wgt) = (ds.map Prod.fst).map Cmdo.Dir.wgt := by rw [List.map_map]; rfl
        rw [this, h1, List.map_map]
        rfl
      have hz : 0 < m.G.dz 0 := h.fit.dz 0 (by rw [h.one]; exact Nat.one_pos)
      have key := (Cmdo.C145_flux_partial hpl hsq ds h2 c.fpi (m.G.dz 0) hz hw i j a b).2
      rw [h1] at key
      have e1 : ∀ r ∈ (Finset.range p.nReg).filter (fun r => cellOf r = (i, j)), Cmdo.mocFlux c.fpi (m.G.dz 0) (sig g') area (qbar g') ((c.dirs g').map Prod.snd) r = φ r g' :=
        fun r hr => hs.flux g' hg r (Finset.mem_range.mp (Finset.mem_filter.mp hr).1)
      rw [Finset.sum_congr rfl fun r hr => by rw [e1 r hr], Finset.sum_congr (f := fun r => sig g' r * area r * _) rfl fun r hr => by rw [e1 r hr]] at key
      rw [h.sum i j a b hv e, h.sum i j a b hv e, ← flux_area h g' hv, ← tr_rate h hs g' hg hv, ← e, hxs v hv] at key
      have key := key rfl
      rw [← h.fit.size v hv i a j b (h.fit.pos hv i j 0 a b e).1, mul_comm] at key
      exact mul_left_cancel₀ (h.fit.area_pos hv).ne' key
    · exact hf.flux n hn g' hg'
  · intro g' hg'
    show Inflow p m c cellOf area sig qbar g' (if g' = g then (snSweep1g (c.setup m.G g) q xs (s.bin g) s.bout).bin else s.bin g')
    split
    · next e =>
      subst e
      unfold snSweep1g
      dsimp only
      split
      · exact h4
      · exact hb.all g' hg _ _ h4 h5
    · exact hf.bin g' hg'

/-- A sweep of a group, with any number of inner iterations. -/
theorem sweep_follows (h : OnePlane p m cellOf area) (hs : MocSolution p m c area k φ sig qbar) (hb : BcFits p m c cellOf area sig qbar)
    (hsq : ∀ i < m.G.d.nx, ∀ j < m.G.d.ny, m.G.dx i = m.G.dy j) (g : Nat) (hg : g < p.ng) (src : Nat → K)
    (hsrc : ∀ v ∈ PinFlux.visits m.layers 0 0, src (m.cell v) = groupSource p.ng (visitMat p m φ v) k (pinFlux m φ) g (m.cell v)) (s : SnState Ax2 K)
    (hf : Follows p m c cellOf area φ sig qbar s) : Follows p m c cellOf area φ sig qbar (snSweep (coarseProblem p m φ) (c.setup m.G g) g src s) := by
  have key : ∀ (l : List Nat) (s : SnState Ax2 K), Follows p m c cellOf area φ sig qbar s →
      Follows p m c cellOf area φ sig qbar (l.foldl (fun s _ => snInner (coarseProblem p m φ) (c.setup m.G g) g src s) s) := by
    intro l
    induction l with
    | nil => intro s hf; exact hf
    | cons _ l ih => intro s hf; exact ih _ (inner_follows h hs hb hsq g hg src hsrc s hf)
  have hk := key (List.range (c.setup m.G g).nInner) s hf
  refine ⟨?_, hk.bin⟩
  intro n hn g' hg'
  show (if g' = g ∧ _ < 0 then 0 else _) = _
  rw [hk.flux n hn g' hg', if_neg]
  exact fun hc => absurd hc.2 (not_lt.mpr (h.fit.pin_pos φ hs.pos n hn g' hg').le)

/-- The groups in order. -/
theorem groups_follow (h : OnePlane p m cellOf area) (hs : MocSolution p m c area k φ sig qbar) (hb : BcFits p m c cellOf area sig qbar)
    (hsq : ∀ i < m.G.d.nx, ∀ j < m.G.d.ny, m.G.dx i = m.G.dy j) (s0 : SnState Ax2 K) (h0 : Follows p m c cellOf area φ sig qbar s0) (n g : Nat) (hn : g + n ≤ p.ng)
    (s : SnState Ax2 K) (hf : Follows p m c cellOf area φ sig qbar s) :
    ∃ s', groupLoop (coarseProblem p m φ) (coupledSweeper (coarseProblem p m φ) m.G c) (calcFissionSource p.ng (coarseProblem p m φ).rs k s0.flux) n g s = some s' ∧
      Follows p m c cellOf area φ sig qbar s' := by
  have hp := coarse_fits h.fit φ hs.pos
  induction n generalizing g s with
  | zero => exact ⟨s, rfl, hf⟩
  | succ n ih =>
    have hg : g < p.ng := by omega
    obtain ⟨src, h1, h2⟩ := C28_assemble_partial p.ng (coarseProblem p m φ).nReg (coarseProblem p m φ).rs (calcFissionSource p.ng (coarseProblem p m φ).rs k s0.flux)
      s.flux g hp.part hp.sc hg
    have hsrc : ∀ v ∈ PinFlux.visits m.layers 0 0, src (m.cell v) = groupSource p.ng (visitMat p m φ v) k (pinFlux m φ) g (m.cell v) := by
      intro v hv
      have hv' := h.fit.cell_nPin hv
      have hx : (⟨visitMat p m φ v, [m.cell v]⟩ : XsRegion (Mat K)) ∈ (coarseProblem p m φ).rs := List.mem_map_of_mem hv
      rw [h2 _ hx _ (List.mem_singleton_self _), defined, C47_fission_source p.ng _ hp.part k _ _ hx _ (List.mem_singleton_self _), zero_add, groupSource]
      congr 1
      · congr 2
        exact Finset.sum_congr rfl fun h' hh => by rw [h0.flux _ hv' h' (Finset.mem_range.mp hh)]
      · refine Finset.sum_congr rfl fun h' hh => ?_
        rw [hf.flux _ hv' h' (Finset.mem_range.mp hh)]
    obtain ⟨s', h3, h4⟩ := ih (g + 1) (by omega) _ (sweep_follows h hs hb hsq g hg src hsrc s hf)
    refine ⟨s', ?_, h4⟩
    rw [groupLoop]
    show (assemble p.ng (coarseProblem p m φ).nReg (coarseProblem p m φ).rs none _ s.flux g).bind _ = _
    rw [h1]
    exact h3

theorem total_pos (h : OnePlane p m cellOf area) (hs : MocSolution p m c area k φ sig qbar) (hfis : ∃ x ∈ p.rs, ∃ r ∈ x.regs, r < p.nReg ∧ ∃ g < p.ng, x.mat.nf g ≠ 0)
    (f : Nat → Nat → K) (hf : Agree (Mesh.nPin m.G.d) p.ng f (pinFlux m φ)) : 0 < totalFission p.ng (coarseProblem p m φ).rs (coarseProblem p m φ).vol f := by
  obtain ⟨x, hx, r, hr, hn, g, hg, hne⟩ := hfis
  obtain ⟨v, hv, j, hj, rfl, e⟩ := h.fit.find x hx r hr hn
  rw [totalFission_eq]
  have hvol : ∀ w ∈ PinFlux.visits m.layers 0 0, 0 < (coarseProblem p m φ).vol (m.cell w) := by
    intro w hw
    have h1 := h.fit.cell_nPin hw
    obtain ⟨a, b, d⟩ := Mesh.pos_lt m.G.d _ h1
    have hv' := Cmfd.vol_eq m.G.d m.G.w _ _ (Mesh.coarsePosition m.G.d (m.cell w)).z a b
    rw [show coarseCell m.G.d ⟨(Mesh.coarsePosition m.G.d (m.cell w)).x, (Mesh.coarsePosition m.G.d (m.cell w)).y, (Mesh.coarsePosition m.G.d (m.cell w)).z⟩ = m.cell w from
      Mesh.cell_pos m.G.d _] at hv'
    show 0 < Cmfd.vol m.G.d m.G.w (m.cell w)
    rw [hv']
    exact mul_pos (mul_pos (h.fit.dx _ a) (h.fit.dy _ b)) (h.fit.dz _ d)
  have hterm : ∀ w ∈ PinFlux.visits m.layers 0 0, ∀ g' ∈ Finset.range p.ng, 0 ≤ (visitMat p m φ w).nf g' * f (m.cell w) g' := by
    intro w hw g' hg'
    have hg' := Finset.mem_range.mp hg'
    rw [hf _ (h.fit.cell_nPin hw) g' hg']
    exact mul_nonneg (C118_visitMat_nf h.fit hw φ hs.pos g' hg').1 (h.fit.pin_pos φ hs.pos _ (h.fit.cell_nPin hw) g' hg').le
  have hall : ∀ y ∈ ((coarseProblem p m φ).rs.map fun x => (x.regs.map fun i => (coarseProblem p m φ).vol i * ∑ g ∈ Finset.range p.ng, x.mat.nf g * f i g).sum), 0 ≤ y := by
    intro y hy
    obtain ⟨z, hz, rfl⟩ := List.mem_map.mp hy
    obtain ⟨w, hw, rfl⟩ := List.mem_map.mp hz
    simp only [List.map_cons, List.map_nil, List.sum_cons, List.sum_nil, add_zero]
    exact mul_nonneg (hvol w hw).le (Finset.sum_nonneg (hterm w hw))
  refine lt_of_lt_of_le ?_ (List.single_le_sum hall _ (List.mem_map_of_mem (List.mem_map_of_mem hv)))
  simp only [List.map_cons, List.map_nil, List.sum_cons, List.sum_nil, add_zero]
  refine mul_pos (hvol v hv) (lt_of_lt_of_le ?_ (Finset.single_le_sum (hterm v hv) (Finset.mem_range.mpr hg)))
  obtain ⟨h1, h2⟩ := C118_visitMat_nf h.fit hv φ hs.pos g hg
  rw [hf _ (h.fit.cell_nPin hv) g hg]
  exact mul_pos (lt_of_le_of_ne h1 (h2 j hj (by rw [← e]; exact hne)).symm) (h.fit.pin_pos φ hs.pos _ (h.fit.cell_nPin hv) g hg)

/-- C146: the MoC/Sn residual is the sum of the squares of the differences; it is zero exactly if both sweepers have the same flux in every pin. -/
theorem C146_residual (n : Nat) (moc sn : Nat → K) :
    residualSq n moc sn = ∑ i ∈ Finset.range n, (moc i - sn i) ^ 2 ∧ (residualSq n moc sn = 0 ↔ ∀ i < n, moc i = sn i) := by
  have e : residualSq n moc sn = ∑ i ∈ Finset.range n, (moc i - sn i) ^ 2 := by
    induction n with
    | zero => rfl
    | succ n ih =>
      rw [Finset.sum_range_succ, ← ih]
      simp only [residualSq, List.range_succ, List.foldl_append, List.foldl_cons, List.foldl_nil]
      ring
  refine ⟨e, ?_⟩
  rw [e, Finset.sum_eq_zero_iff_of_nonneg fun i _ => sq_nonneg _]
  constructor
  · exact fun h i hi => sub_eq_zero.mp (pow_eq_zero_iff (by decide) |>.mp (h i (Finset.mem_range.mpr hi)))
  · exact fun h i hi => by rw [h i (Finset.mem_range.mp hi), sub_self, zero_pow (by decide)]

/-- C146 (partial: square pins).  A converged MoC solution is repeated by an outer iteration of the coupled Sn sweeper: the eigenvalue stays, the Sn flux stays the pin
flux of MoC in all groups, the boundary values stay those of the MoC solution, and the MoC/Sn residual is zero. -/
theorem C146_outer_partial (h : OnePlane p m cellOf area) (hs : MocSolution p m c area k φ sig qbar) (hb : BcFits p m c cellOf area sig qbar)
    (hsq : ∀ i < m.G.d.nx, ∀ j < m.G.d.ny, m.G.dx i = m.G.dy j) (hfis : ∃ x ∈ p.rs, ∃ r ∈ x.regs, r < p.nReg ∧ ∃ g < p.ng, x.mat.nf g ≠ 0)
    (s : SnState Ax2 K) (hf : Follows p m c cellOf area φ sig qbar s) :
    ∃ s', outer (coarseProblem p m φ) (coupledSweeper (coarseProblem p m φ) m.G c) k s = some (k, s') ∧ Follows p m c cellOf area φ sig qbar s' ∧
      ∀ g < p.ng, residualSq (Mesh.nPin m.G.d) (fun i => pinFlux m φ i g) (fun i => s'.flux i g) = 0 := by
  obtain ⟨s', h1, h2⟩ := groups_follow h hs hb hsq s hf p.ng 0 (by omega) s hf
  refine ⟨s', ?_, h2, ?_⟩
  · unfold outer
    show (groupLoop _ _ (calcFissionSource p.ng (coarseProblem p m φ).rs k s.flux) p.ng 0 s).map _ = _
    rw [h1, Option.map_some]
    congr 2
    have e : totalFission p.ng (coarseProblem p m φ).rs (coarseProblem p m φ).vol s'.flux = totalFission p.ng (coarseProblem p m φ).rs (coarseProblem p m φ).vol s.flux := by
      rw [totalFission_eq, totalFission_eq]
      congr 1
      refine List.map_congr_left fun x hx => ?_
      congr 1
      refine List.map_congr_left fun i hi => ?_
      have hi' : i < Mesh.nPin m.G.d := ((coarse_fits h.fit φ hs.pos).cover i).mpr ⟨x, hx, hi⟩
      rw [Finset.sum_congr rfl fun g hg => by rw [h2.flux i hi' g (Finset.mem_range.mp hg), ← hf.flux i hi' g (Finset.mem_range.mp hg)]]
    show k * totalFission p.ng (coarseProblem p m φ).rs (coarseProblem p m φ).vol s'.flux / totalFission p.ng (coarseProblem p m φ).rs (coarseProblem p m φ).vol s.flux = k
    rw [e, mul_div_assoc, div_self (total_pos h hs hfis s.flux hf.flux).ne', mul_one]
  · intro g hg
    have key : ∀ n ≤ Mesh.nPin m.G.d, residualSq n (fun i => pinFlux m φ i g) (fun i => s'.flux i g) = 0 := by
      intro n
      induction n with
      | zero => intro _; rfl
      | succ n ih =>
        intro hn
        have := ih (by omega)
        unfold residualSq at this ⊢
        rw [List.range_succ, List.foldl_append, this]
        simp [h2.flux n (by omega) g hg]
    exact key _ le_rfl

/-- C146 (partial: square pins): so is it by any number of outer iterations. -/
theorem C146_outers_partial (h : OnePlane p m cellOf area) (hs : MocSolution p m c area k φ sig qbar) (hb : BcFits p m c cellOf area sig qbar)
    (hsq : ∀ i < m.G.d.nx, ∀ j < m.G.d.ny, m.G.dx i = m.G.dy j) (hfis : ∃ x ∈ p.rs, ∃ r ∈ x.regs, r < p.nReg ∧ ∃ g < p.ng, x.mat.nf g ≠ 0)
    (n : Nat) (s : SnState Ax2 K) (hf : Follows p m c cellOf area φ sig qbar s) :
    ∃ s', outers (coarseProblem p m φ) (coupledSweeper (coarseProblem p m φ) m.G c) n k s = some (k, s') ∧ Agree (Mesh.nPin m.G.d) p.ng s'.flux (pinFlux m φ) := by
  induction n generalizing s with
  | zero => exact ⟨s, rfl, hf.flux⟩
  | succ n ih =>
    obtain ⟨s1, h1, h2, -⟩ := C146_outer_partial h hs hb hsq hfis s hf
    obtain ⟨s2, h3, h4⟩ := ih s1 h2
    exact ⟨s2, by rw [outers, h1, Option.bind_some]; exact h3, h4⟩

/-- The claim for pins of any shape. -/
def C146_claim (K : Type) [Field K] [LinearOrder K] [IsStrictOrderedRing K] : Prop :=
  ∀ (p : Problem K) (m : MocAcc K) (c : CoupledSn K) (cellOf : Nat → Nat × Nat) (area : Nat → K) (k : K) (φ sig qbar : Nat → Nat → K),
    OnePlane p m cellOf area → MocSolution p m c area k φ sig qbar → BcFits p m c cellOf area sig qbar →
    (∃ x ∈ p.rs, ∃ r ∈ x.regs, r < p.nReg ∧ ∃ g < p.ng, x.mat.nf g ≠ 0) → ∀ s : SnState Ax2 K, Follows p m c cellOf area φ sig qbar s →
    ∃ s', outer (coarseProblem p m φ) (coupledSweeper (coarseProblem p m φ) m.G c) k s = some (k, s') ∧ Agree (Mesh.nPin m.G.d) p.ng s'.flux (pinFlux m φ)

/-- Widths matter only inside of the mesh. -/
theorem dirOk_congr {dim : Mesh.Dims} {dx dy dx' dy' : Nat → K} {cellOf : Nat → Nat × Nat} {N : Nat} {sig qbar area : Nat → K} {d : Cmdo.Dir K} {b : Ax2 → Nat → K}
    (hx : ∀ i < dim.nx, dx i = dx' i) (hy : ∀ j < dim.ny, dy j = dy' j) (h : DirOk dim dx dy cellOf N sig qbar area d b) :
    DirOk dim dx' dy' cellOf N sig qbar area d b :=
  { h with
    bx := fun i hi j hj hu => by rw [← hy j hj]; exact h.bx i hi j hj hu
    byy := fun i hi j hj hu => by rw [← hx i hi]; exact h.byy i hi j hj hu }

end

/-! ### Example: the two pins and two directions of C145 -/

def exPinMat (i : Nat) : Mat ℚ :=
  { tr := fun _ => if i = 0 then 1 else 2, nf := fun _ => if i = 0 then 32 / 117 else 32 / 41, f := fun _ => 0, ch := fun _ => 1,
    sc := fun _ _ => if i = 0 then 32 / 117 else 32 / 41 }

def exCoreProblem : Problem ℚ := { ng := 1, nReg := 2, rs := [⟨exPinMat 0, [0]⟩, ⟨exPinMat 1, [1]⟩], vol := fun _ => 2 }

def exCoreMoc : MocAcc ℚ :=
  { G := { d := ⟨2, 1, 1⟩, w := ⟨[1, 1], [1], [2]⟩, hpi := 1 }, expo := id, fpi := 2, gs := false, u := ⟨fun _ b _ => b, fun b _ => b⟩, planes := [], nInner := 1,
    layers := [⟨0, 0, 2, [⟨0, [1], 1⟩, ⟨1, [1], 1⟩]⟩], pinMats := fun i => [(exPinMat i, 1)] }

/-- Incoming values do not change; directions as in C145. -/
def exCoupled (gs : Bool) (n : Nat) : CoupledSn ℚ := ⟨2, gs, ⟨fun _ b _ => b, fun b _ => b⟩, n, fun _ => [(0, Cmdo.exUp), (1, Cmdo.exDown)]⟩

def exPhi (r _g : Nat) : ℚ := if r = 0 then 117 / 32 else 41 / 32

def exCoupledState : SnState Ax2 ℚ :=
  ⟨exPhi, fun _ => 0, fun _ a => (Cmdo.exDirs.map Prod.snd).getD a fun _ _ => 0, fun _ _ _ => 0⟩

theorem exCore_plane : OnePlane exCoreProblem exCoreMoc Cmdo.exCell (fun _ => 1) where
  fit :=
    { part := by refine ⟨?_, ?_⟩ <;> simp [exCoreProblem]
      pins := by simp [PinFlux.PinsOk, exCoreMoc, MocAcc.n2]
      layers := rfl
      cells := by
        intro i hi
        have : i = 0 ∨ i = 1 := by simp [exCoreMoc, Mesh.nPin] at hi; omega
        rcases this with rfl | rfl <;> simp [exCoreMoc, PinFlux.visits, PinFlux.planeVisits, MocAcc.cell, MocAcc.n2]
      regs := by intro i; simp [exCoreMoc, exCoreProblem, PinFlux.visits, PinFlux.planeVisits]; omega
      mats := by simp [exCoreMoc, PinFlux.visits, PinFlux.planeVisits, nRegions]
      mat := by simp [exCoreMoc, exCoreProblem, PinFlux.visits, PinFlux.planeVisits, XS.mat, matAt, MocAcc.cell, MocAcc.n2]
      area := by simp [exCoreMoc, PinFlux.visits, PinFlux.planeVisits]
      size := by decide +kernel
      height := by simp [exCoreMoc, PinFlux.visits, PinFlux.planeVisits, Grid.dz]
      vol := by simp [exCoreMoc, exCoreProblem, PinFlux.visits, PinFlux.planeVisits, Grid.dz]
      dx := by decide +kernel
      dy := by decide +kernel
      dz := by decide +kernel
      sc := by
        have key : ∀ x ∈ exCoreProblem.rs, ∀ a < exCoreProblem.ng, ∀ b < exCoreProblem.ng, 0 ≤ x.mat.sc a b := by decide +kernel
        exact fun x hx a b ha hb => key x hx a ha b hb
      nf := by decide +kernel }
  one := rfl
  cell := by decide +kernel
  areas := by decide +kernel

theorem exCore_solution (gs : Bool) (n : Nat) : MocSolution exCoreProblem exCoreMoc (exCoupled gs n) (fun _ => 1) 1 exPhi (fun _ => Cmdo.exSig) (fun _ => Cmdo.exQbar) where
  pos := by unfold Positive; decide +kernel
  fpi := by show (0 : ℚ) < 2; norm_num
  hsig := by decide +kernel
  source := by
    show ∀ g < exCoreProblem.ng, ∀ x ∈ exCoreProblem.rs, ∀ r ∈ x.regs, Cmdo.exQbar r * (x.mat.tr g * 2) = _
    decide +kernel
  weights := by
    show ∀ g < exCoreProblem.ng, (([(0, Cmdo.exUp), (1, Cmdo.exDown)] : List (Nat × Cmdo.Dir ℚ)).map fun o => o.2.wgt).sum = 2
    decide +kernel
  flux := by
    show ∀ g < exCoreProblem.ng, ∀ r < exCoreProblem.nReg, Cmdo.mocFlux 2 (exCoreMoc.G.dz 0) Cmdo.exSig (fun _ => 1) Cmdo.exQbar [Cmdo.exUp, Cmdo.exDown] r = exPhi r g
    decide +kernel

theorem exCore_bc (gs : Bool) (n : Nat) : BcFits exCoreProblem exCoreMoc (exCoupled gs n) Cmdo.exCell (fun _ => 1) (fun _ => Cmdo.exSig) (fun _ => Cmdo.exQbar) where
  nodup := fun _ _ => by show ([0, 1] : List Nat).Nodup; decide
  one := fun _ _ _ _ _ _ h _ => h
  all := fun _ _ _ _ h _ => h

theorem exCore_follows (gs : Bool) (n : Nat) : Follows exCoreProblem exCoreMoc (exCoupled gs n) Cmdo.exCell (fun _ => 1) exPhi (fun _ => Cmdo.exSig) (fun _ => Cmdo.exQbar) exCoupledState where
  flux := by unfold Agree; decide +kernel
  bin := by
    intro g _ o ho
    have ho : o ∈ [(0, Cmdo.exUp), (1, Cmdo.exDown)] := ho
    have hx : ∀ i < exCoreMoc.G.d.nx, (fun _ => (1 : ℚ)) i = exCoreMoc.G.dx i := by decide +kernel
    have hy : ∀ i < exCoreMoc.G.d.ny, (fun _ => (1 : ℚ)) i = exCoreMoc.G.dy i := by decide +kernel
    simp only [List.mem_cons, List.not_mem_nil, or_false] at ho
    rcases ho with rfl | rfl
    · exact dirOk_congr hx hy (Cmdo.ex_dirs (Cmdo.exDirs[0]'(by decide)) (List.getElem_mem _))
    · exact dirOk_congr hx hy (Cmdo.ex_dirs (Cmdo.exDirs[1]'(by decide)) (List.getElem_mem _))

/-- All hypotheses of `C146_outer_partial` hold for the example, with any number of inner iterations and both kinds of boundary updates. -/
example (gs : Bool) (n : Nat) : ∃ s', outer (coarseProblem exCoreProblem exCoreMoc exPhi) (coupledSweeper (coarseProblem exCoreProblem exCoreMoc exPhi) exCoreMoc.G (exCoupled gs n)) 1
    exCoupledState = some (1, s') ∧ Follows exCoreProblem exCoreMoc (exCoupled gs n) Cmdo.exCell (fun _ => 1) exPhi (fun _ => Cmdo.exSig) (fun _ => Cmdo.exQbar) s' ∧
    ∀ g < 1, residualSq 2 (fun i => pinFlux exCoreMoc exPhi i g) (fun i => s'.flux i g) = 0 :=
  C146_outer_partial exCore_plane (exCore_solution gs n) (exCore_bc gs n) (by decide +kernel) (by decide +kernel) exCoupledState (exCore_follows gs n)

/-- The same by evaluation, for two inner iterations. -/
example : (outer (coarseProblem exCoreProblem exCoreMoc exPhi) (coupledSweeper (coarseProblem exCoreProblem exCoreMoc exPhi) exCoreMoc.G (exCoupled true 2)) 1 exCoupledState).map
    (fun r => (r.1, r.2.flux 0 0, r.2.flux 1 0)) = some (1, 117 / 32, 41 / 32) := by decide +kernel

/-- From another Sn flux the iteration gives another one. -/
example : (outer (coarseProblem exCoreProblem exCoreMoc exPhi) (coupledSweeper (coarseProblem exCoreProblem exCoreMoc exPhi) exCoreMoc.G (exCoupled true 1)) 1
    { exCoupledState with flux := fun _ _ => 1 }).map (fun r => decide (r.2.flux 0 0 = 117 / 32)) = some false := by decide +kernel

/-! ### Witness against the claim: the pin of 1 x 2 of C145 -/

def flatMat : Mat ℚ := { tr := fun _ => 1, nf := fun _ => 1 / 2, f := fun _ => 0, ch := fun _ => 1, sc := fun _ _ => 1 / 2 }
def flatProblem : Problem ℚ := { ng := 1, nReg := 1, rs := [⟨flatMat, [0]⟩], vol := fun _ => 2 }
def flatMoc : MocAcc ℚ :=
  { G := { d := ⟨1, 1, 1⟩, w := ⟨[1], [2], [1]⟩, hpi := 1 }, expo := id, fpi := 1, gs := false, u := ⟨fun _ b _ => b, fun b _ => b⟩, planes := [], nInner := 1,
    layers := [⟨0, 0, 1, [⟨0, [2], 2⟩]⟩], pinMats := fun _ => [(flatMat, 1)] }
def flatCoupled : CoupledSn ℚ := ⟨1, false, ⟨fun _ b _ => b, fun b _ => b⟩, 1, fun _ => [(0, Cmdo.flatDir)]⟩
def flatState : SnState Ax2 ℚ := ⟨fun _ _ => 1, fun _ => 0, fun _ _ _ _ => 1, fun _ _ _ => 0⟩

theorem flat_one : OnePlane flatProblem flatMoc (fun _ => (0, 0)) (fun _ => 2) where
  fit :=
    { part := by refine ⟨?_, ?_⟩ <;> simp [flatProblem]
      pins := by simp [PinFlux.PinsOk, flatMoc, MocAcc.n2]
      layers := rfl
      cells := by
        intro i hi
        have : i = 0 := by simp [flatMoc, Mesh.nPin] at hi; omega
        subst this; simp [flatMoc, PinFlux.visits, PinFlux.planeVisits, MocAcc.cell, MocAcc.n2]
      regs := by intro i; simp [flatMoc, flatProblem, PinFlux.visits, PinFlux.planeVisits]
      mats := by simp [flatMoc, PinFlux.visits, PinFlux.planeVisits, nRegions]
      mat := by simp [flatMoc, flatProblem, PinFlux.visits, PinFlux.planeVisits, XS.mat, matAt]
      area := by simp [flatMoc, PinFlux.visits, PinFlux.planeVisits]
      size := by decide +kernel
      height := by simp [flatMoc, PinFlux.visits, PinFlux.planeVisits, Grid.dz]
      vol := by simp [flatMoc, flatProblem, PinFlux.visits, PinFlux.planeVisits, Grid.dz]
      dx := by decide +kernel
      dy := by decide +kernel
      dz := by decide +kernel
      sc := by
        have key : ∀ x ∈ flatProblem.rs, ∀ a < flatProblem.ng, ∀ b < flatProblem.ng, 0 ≤ x.mat.sc a b := by decide +kernel
        exact fun x hx a b ha hb => key x hx a ha b hb
      nf := by decide +kernel }
  one := rfl
  cell := by decide +kernel
  areas := by decide +kernel

theorem flat_solution : MocSolution flatProblem flatMoc flatCoupled (fun _ => 2) 1 (fun _ _ => 1) (fun _ _ => 1) (fun _ _ => 1) where
  pos := by unfold Positive; decide +kernel
  fpi := by show (0 : ℚ) < 1; norm_num
  hsig := by decide +kernel
  source := by decide +kernel
  weights := by decide +kernel
  flux := by decide +kernel

theorem C146_claim_false : ¬ C146_claim ℚ := by
  intro h
  obtain ⟨s', h1, h2⟩ := h flatProblem flatMoc flatCoupled (fun _ => (0, 0)) (fun _ => 2) 1 (fun _ _ => 1) (fun _ _ => 1) (fun _ _ => 1) flat_one flat_solution
    ⟨fun _ _ => by show ([0] : List Nat).Nodup; decide, fun _ _ _ _ _ _ h _ => h, fun _ _ _ _ h _ => h⟩ (by decide +kernel) flatState
    ⟨by unfold Agree; decide +kernel, by
      intro g _ o ho
      have ho : o ∈ [(0, Cmdo.flatDir)] := ho
      rw [List.mem_singleton] at ho
      subst ho
      exact dirOk_congr (by decide +kernel) (by decide +kernel) Cmdo.flat_dir⟩
  have h3 : (outer (coarseProblem flatProblem flatMoc fun _ _ => 1) (coupledSweeper (coarseProblem flatProblem flatMoc fun _ _ => 1) flatMoc.G flatCoupled) 1 flatState).map
      (fun r => decide (r.2.flux 0 0 = pinFlux flatMoc (fun _ _ => 1) 0 0)) = some false := by decide +kernel
  rw [h1, Option.map_some, h2 0 (by decide) 0 (by decide)] at h3
  simp at h3

end Verif.Medium
