import Verif.Medium.CheckModel
import Verif.Medium.AccelMocProps

/-!
# C136: the balance that the sweepers print
-/

set_option linter.unusedSectionVars false

namespace Verif.Medium

open Verif.XS Verif.Source

section
variable {K : Type} [Field K] [LinearOrder K] [IsStrictOrderedRing K]

/-- The widths belong to the mesh. -/
def WidthsFit (G : Grid K) : Prop := G.w.dx.length = G.d.nx ∧ G.w.dy.length = G.d.ny ∧ G.w.dz.length = G.d.nz

theorem get_getD (l : List K) (i : Nat) (h : i < l.length) : l[i]? = some (l.getD i 0) := by
  rw [List.getD_eq_getElem?_getD, List.getElem?_eq_getElem h]; rfl

theorem minusFaces_eq (G : Grid K) (hw : WidthsFit G) (cur : Nat → K) (ix iy iz : Nat) (hx : ix < G.d.nx) (hy : iy < G.d.ny) (hz : iz < G.d.nz) (b : K) :
    minusFaces G cur (Mesh.coarseCell G.d ⟨ix, iy, iz⟩) b = some (b - Sn.leakage G.d G.dx G.dy G.dz cur ix iy iz) := by
  obtain ⟨h1, h2, h3⟩ := hw
  have hs : ∀ s, s ≠ .INTERNAL → ∃ n, Mesh.coarseSurf G.d (Mesh.coarseCell G.d ⟨ix, iy, iz⟩) s = some n := by
    intro s hs
    cases s with
    | INTERNAL => exact absurd rfl hs
    | _ => exact ⟨_, Mesh.coarseSurf_enc G.d ix iy iz _ _ rfl hx hy hz⟩
  obtain ⟨e, he⟩ := hs .EAST (by simp)
  obtain ⟨n, hn⟩ := hs .NORTH (by simp)
  obtain ⟨t, ht⟩ := hs .TOP (by simp)
  obtain ⟨w, hw⟩ := hs .WEST (by simp)
  obtain ⟨s, hs'⟩ := hs .SOUTH (by simp)
  obtain ⟨o, ho⟩ := hs .BOTTOM (by simp)
  have ex : G.w.dx[ix]? = some (G.dx ix) := get_getD _ _ (h1 ▸ hx)
  have ey : G.w.dy[iy]? = some (G.dy iy) := get_getD _ _ (h2 ▸ hy)
  have ez : G.w.dz[iz]? = some (G.dz iz) := get_getD _ _ (h3 ▸ hz)
  unfold minusFaces faceFlow Sn.leakage Mesh.coarseAreaCell
  simp only [he, hn, ht, hw, hs', ho, Mesh.pos_cell G.d ix iy iz hx hy, ex, ey, ez, Mesh.mul2, Option.map_some, Option.bind_eq_bind, Option.bind_some, Option.pure_def]
  congr 1
  ring

/-! ### Sn -/

theorem snCells_spec (G : Grid K) (rs : List (XsRegion (Mat K))) (g : Nat) (cur src flux1g vol : Nat → K) (f : Nat → K) (l : List Nat)
    (h : ∀ i ∈ l, snCell G rs g cur src flux1g vol i = some (f i)) : snCells G rs g cur src flux1g vol l = some (l.map f) := by
  induction l with
  | nil => rfl
  | cons i l ih => simp [snCells, h i (by simp), ih fun j hj => h j (by simp [hj])]

/-- A region of the cross-section mesh for each cell, in the order of the cells. -/
def InOrder (p : Problem K) : Prop := ∀ i < p.nReg, ∃ x, p.rs[i]? = some x ∧ i ∈ x.regs

/-- Flux before the last inner iteration of the sweep of group `g`. -/
def beforeLast (p : Problem K) (m : AccSetup K) (g : Nat) (src : Nat → K) (s : SnState Sn.Ax3 K) : SnState Sn.Ax3 K :=
  (List.range (m.nInner - 1)).foldl (fun s _ => snInner p m.sn g src s) s

/-- The net current out of a cell after a sweep of Sn. -/
theorem sn_leakage (p : Problem K) (m : AccSetup K) (hp : Fits p m.G) (hm : SweepOk p { m with nInner := 1 }) (hn : 0 < m.nInner) (g : Nat) (hg : g < p.ng)
    (src : Nat → K) (s : SnState Sn.Ax3 K) (old : Nat → K) (x : XsRegion (Mat K)) (hx : x ∈ p.rs) (ix iy iz : Nat) (h1 : ix < m.G.d.nx) (h2 : iy < m.G.d.ny) (h3 : iz < m.G.d.nz)
    (hi : Mesh.coarseCell m.G.d ⟨ix, iy, iz⟩ ∈ x.regs) (hpos : 0 < (snSweep p m.sn g src s).flux (Mesh.coarseCell m.G.d ⟨ix, iy, iz⟩) g) :
    Sn.leakage m.G.d m.G.dx m.G.dy m.G.dz (groupCurrents p m g src s old) ix iy iz =
      m.G.dx ix * m.G.dy iy * m.G.dz iz * (src (Mesh.coarseCell m.G.d ⟨ix, iy, iz⟩) +
        x.mat.sc g g * (beforeLast p m g src s).flux (Mesh.coarseCell m.G.d ⟨ix, iy, iz⟩) g -
        x.mat.tr g * (snSweep p m.sn g src s).flux (Mesh.coarseCell m.G.d ⟨ix, iy, iz⟩) g) := by
  set i := Mesh.coarseCell m.G.d ⟨ix, iy, iz⟩ with hidef
  set t := beforeLast p m g src s with htdef
  have hbal := sweepCur_balance m (selfScatter m.fpi p.ng p.rs t.flux g src false t.q) (trOf p.rs g) ix iy iz h1 h2 h3 (hm.dx ix h1) (hm.dy iy h2) (hm.dz iz h3)
    (by rw [trOf_at p.rs hp.part g x hx _ hi]; exact hm.tr x hx g hg) m.ords hm.ords ⟨fun _ => 0, t.bin g, t.bout⟩ (fun _ => 0)
  have hz : Sn.leakage m.G.d m.G.dx m.G.dy m.G.dz (fun _ => 0) ix iy iz = 0 := by
    refine (leakage_sum m.G.d m.G.w (fun _ => 0) ix iy iz h1 h2 h3).symm.trans (List.sum_eq_zero fun y hy => ?_)
    obtain ⟨f, -, rfl⟩ := List.mem_map.mp hy
    unfold Cmfd.signed
    split <;> simp
  have hg1 : groupCurrents p m g src s old = (sweepCur m (selfScatter m.fpi p.ng p.rs t.flux g src false t.q) (trOf p.rs g) m.ords
      ⟨fun _ => 0, t.bin g, t.bout⟩ (fun _ => 0)).2 := by
    unfold groupCurrents
    rw [if_neg (by omega)]
    rfl
  have hlast : (List.range m.sn.nInner).foldl (fun s _ => snInner p m.sn g src s) s = snInner p m.sn g src t := by
    have e : m.sn.nInner = (m.nInner - 1) + 1 := by show m.nInner = _; omega
    rw [e, List.range_succ, List.foldl_append]
    rfl
  have hfl : (sweepCur m (selfScatter m.fpi p.ng p.rs t.flux g src false t.q) (trOf p.rs g) m.ords ⟨fun _ => 0, t.bin g, t.bout⟩ (fun _ => 0)).1.tflux i =
      (snSweep p m.sn g src s).flux i g := by
    rw [sweepCur_pass]
    have e1 : (snInner p m.sn g src t).flux i g = ((m.ords.map (CurOrd.ord m.G)).foldl (snOrdinate m.sn (selfScatter m.fpi p.ng p.rs t.flux g src false t.q) (trOf p.rs g))
        ⟨fun _ => 0, t.bin g, t.bout⟩).tflux i := by
      show (if g = g then _ else _) = _
      rw [if_pos rfl]
      rfl
    rw [← e1]
    have e2 := C109_sn_fix p m.sn g src s i g
    simp only [hlast, if_true] at e2
    rw [e2] at hpos ⊢
    rcases lt_max_iff.mp hpos with h4 | h4
    · rw [max_eq_left h4.le]
    · exact absurd h4 (lt_irrefl _)
  have hwt : (m.ords.map fun o => o.ray.weight * m.G.hpi).sum = m.fpi := hm.weights
  have hfpi : m.fpi ≠ 0 := hm.fpi
  rw [hz, sub_zero, hwt, hfl, trOf_at p.rs hp.part g x hx _ hi, selfScatter_at m.fpi p.ng p.rs hp.part t.flux g hg src false t.q x hx _ hi] at hbal
  rw [hg1, hbal]
  simp only [Bool.false_eq_true, if_false]
  field_simp
  ring

/-- C136 for Sn, the group swept last: the number that is printed for a cell is what its scattering inside the group changed in the last inner iteration. -/
theorem C136_sn (p : Problem K) (m : AccSetup K) (hp : Fits p m.G) (hm : SweepOk p { m with nInner := 1 }) (hn : 0 < m.nInner) (hw : WidthsFit m.G) (ho : InOrder p)
    (hv : ∀ i < p.nReg, p.vol i = Cmfd.vol m.G.d m.G.w i) (g : Nat) (hg : g < p.ng) (src : Nat → K) (s : SnState Sn.Ax3 K) (old : Nat → K)
    (hpos : ∀ i < p.nReg, 0 < (snSweep p m.sn g src s).flux i g) :
    ∃ l, snCheck m.G p.rs g (groupCurrents p m g src s old) src (fun i => (snSweep p m.sn g src s).flux i g) p.vol = some l ∧ l.length = p.nReg ∧
      ∀ i < p.nReg, ∀ x ∈ p.rs, i ∈ x.regs →
        l[i]? = some (p.vol i * x.mat.sc g g * ((snSweep p m.sn g src s).flux i g - (beforeLast p m g src s).flux i g)) := by
  set d : Nat → K := fun i => (snSweep p m.sn g src s).flux i g - (beforeLast p m g src s).flux i g with hd
  refine ⟨_, snCells_spec m.G p.rs g _ _ _ _ (fun i => (p.rs[i]?).elim 0 fun x => p.vol i * x.mat.sc g g * d i) _ ?_, by simp [hp.cells], ?_⟩
  · intro i hi
    have hi' : i < Mesh.nPin m.G.d := List.mem_range.mp hi
    have hi2 : i < p.nReg := hp.cells ▸ hi'
    obtain ⟨x, hx, hxi⟩ := ho i hi2
    obtain ⟨h1, h2, h3⟩ := Mesh.pos_lt m.G.d i hi'
    have hc : Mesh.coarseCell m.G.d ⟨(Mesh.coarsePosition m.G.d i).x, (Mesh.coarsePosition m.G.d i).y, (Mesh.coarsePosition m.G.d i).z⟩ = i := Mesh.cell_pos m.G.d i
    have hl := sn_leakage p m hp hm hn g hg src s old x (List.mem_of_getElem? hx) _ _ _ h1 h2 h3 (by rw [hc]; exact hxi) (by rw [hc]; exact hpos i hi2)
    have hmf := minusFaces_eq m.G hw (groupCurrents p m g src s old) _ _ _ h1 h2 h3 0
    rw [hc] at hl hmf
    have hvol := Cmfd.vol_eq m.G.d m.G.w _ _ (Mesh.coarsePosition m.G.d i).z h1 h2
    rw [hc, ← hv i hi2] at hvol
    have hvol' : p.vol i = m.G.dx (Mesh.coarsePosition m.G.d i).x * m.G.dy (Mesh.coarsePosition m.G.d i).y * m.G.dz (Mesh.coarsePosition m.G.d i).z := hvol
    unfold snCell
    simp only [hmf, hl, hx, Option.bind_eq_bind, Option.bind_some, Option.pure_def, Option.elim_some, hvol', hd]
    congr 1
    ring
  · intro i hi x hx hix
    obtain ⟨y, hy, hyi⟩ := ho i hi
    have e : y = x := by
      by_contra hne
      haveI : Std.Symm fun x y : XsRegion (Mat K) => ∀ i, i ∈ x.regs → i ∉ y.regs := ⟨fun _ _ h i h1 h2 => h i h2 h1⟩
      exact hp.part.2.forall (List.mem_of_getElem? hy) hx hne i hyi hix
    subst e
    rw [List.getElem?_map, List.getElem?_range (by rw [← hp.cells]; exact hi), Option.map_some, hy]
    rfl

/-- C136 for Sn after an outer iteration that left the flux as it was, any group: the source and the flux used are those of the last group. -/
theorem C136_outer (p : Problem K) (m : AccSetup K) (hp : Fits p m.G) (hm : SweepOk p m) (hw : WidthsFit m.G) (ho : InOrder p)
    (hv : ∀ i < p.nReg, p.vol i = Cmfd.vol m.G.d m.G.w i) (k k' : K) (a a' : AccState K) (h : outer p (accSweeper p m) k a = some (k', a'))
    (hfix : ∀ i < p.nReg, ∀ g < p.ng, a'.s.flux i g = a.s.flux i g) (hpos : ∀ i < p.nReg, ∀ g < p.ng, 0 < a.s.flux i g) (g : Nat) (hg : g < p.ng) :
    ∃ src l, lastSource p (accSweeper p m) (calcFissionSource p.ng p.rs k a.s.flux) (p.ng - 1) a = some src ∧
      snCheck m.G p.rs g (a'.cur g) src (fun i => a'.s.flux i (p.ng - 1)) p.vol = some l ∧ l.length = p.nReg ∧
      ∀ i < p.nReg, ∀ x ∈ p.rs, i ∈ x.regs → l[i]? = some (p.vol i *
        (groupSource p.ng x.mat k a'.s.flux (p.ng - 1) i - groupSource p.ng x.mat k a'.s.flux g i -
          (x.mat.tr g - x.mat.sc g g) * (a'.s.flux i (p.ng - 1) - a'.s.flux i g))) := by
  have hbal := C116_balance p m hp hm k k' a a' h hfix hpos
  set n := p.ng - 1 with hn
  have hn' : n < p.ng := by omega
  obtain ⟨t, src, hat, -, ht⟩ := atGroup p (accSweeper p m) (acc_only p m) k k' a a' h n hn'
  have ht' : ∀ i < p.nReg, ∀ g' < p.ng, t.s.flux i g' = a'.s.flux i g' := by
    intro i hi g' hg'
    have := ht i g'
    rw [show (accSweeper p m).flux t i g' = t.s.flux i g' from rfl] at this
    rw [this]
    split
    · rfl
    · exact (hfix i hi g' hg').symm
  obtain ⟨src', h6, h7⟩ := C28_assemble_partial p.ng p.nReg p.rs (calcFissionSource p.ng p.rs k ((accSweeper p m).flux a)) ((accSweeper p m).flux t) n hp.part hp.sc hn'
  have h8 := hat.2
  rw [h6, Option.some.injEq] at h8
  have hgs : ∀ i < p.nReg, ∀ x ∈ p.rs, i ∈ x.regs → src i = groupSource p.ng x.mat k a'.s.flux n i := by
    intro i hi' x hx hi
    rw [← h8, h7 x hx i hi, defined, C47_fission_source p.ng p.rs hp.part k _ x hx i hi, zero_add, groupSource]
    congr 1
    · congr 2
      exact Finset.sum_congr rfl fun h hh => by rw [hfix i hi' h (Finset.mem_range.mp hh)]; rfl
    · refine Finset.sum_congr rfl fun h hh => ?_
      rw [← ht' i hi' h (Finset.mem_range.mp hh)]; rfl
  set f : Nat → XsRegion (Mat K) → K := fun i x => p.vol i * (groupSource p.ng x.mat k a'.s.flux n i - groupSource p.ng x.mat k a'.s.flux g i -
          (x.mat.tr g - x.mat.sc g g) * (a'.s.flux i n - a'.s.flux i g)) with hf
  refine ⟨src, _, ?_, snCells_spec m.G p.rs g _ _ _ _ (fun i => (p.rs[i]?).elim 0 fun x => f i x) _ ?_, by simp [hp.cells], ?_⟩
  · unfold lastSource
    have e := hat.1
    rw [show (accSweeper p m).flux a = a.s.flux from rfl] at e
    rw [e, Option.bind_some, ← h8]
    exact h6
  · intro i hi
    have hi' : i < Mesh.nPin m.G.d := List.mem_range.mp hi
    have hi2 : i < p.nReg := hp.cells ▸ hi'
    obtain ⟨x, hx, hxi⟩ := ho i hi2
    have hxm := List.mem_of_getElem? hx
    obtain ⟨h1, h2, h3⟩ := Mesh.pos_lt m.G.d i hi'
    have hc : Mesh.coarseCell m.G.d ⟨(Mesh.coarsePosition m.G.d i).x, (Mesh.coarsePosition m.G.d i).y, (Mesh.coarsePosition m.G.d i).z⟩ = i := Mesh.cell_pos m.G.d i
    have hl := hbal g hg x hxm _ h1 _ h2 _ h3 (by rw [hc]; exact hxi)
    have hmf := minusFaces_eq m.G hw (a'.cur g) _ _ _ h1 h2 h3 0
    rw [hc] at hl hmf
    have hvol := Cmfd.vol_eq m.G.d m.G.w _ _ (Mesh.coarsePosition m.G.d i).z h1 h2
    rw [hc, ← hv i hi2] at hvol
    have hvol' : p.vol i = m.G.dx (Mesh.coarsePosition m.G.d i).x * m.G.dy (Mesh.coarsePosition m.G.d i).y * m.G.dz (Mesh.coarsePosition m.G.d i).z := hvol
    unfold snCell
    simp only [hmf, hx, Option.bind_eq_bind, Option.bind_some, Option.pure_def, Option.elim_some, hf, hgs i hi2 x hxm hxi]
    congr 1
    rw [← hvol'] at hl
    linear_combination -hl
  · intro i hi x hx hix
    obtain ⟨y, hy, hyi⟩ := ho i hi
    have e : y = x := by
      by_contra hne
      haveI : Std.Symm fun x y : XsRegion (Mat K) => ∀ i, i ∈ x.regs → i ∉ y.regs := ⟨fun _ _ h i h1 h2 => h i h2 h1⟩
      exact hp.part.2.forall (List.mem_of_getElem? hy) hx hne i hyi hix
    subst e
    rw [List.getElem?_map, List.getElem?_range (by rw [← hp.cells]; exact hi), Option.map_some, hy]
    rfl

/-- C136 for Sn: nothing is left over in the last group. -/
theorem C136_last (p : Problem K) (m : AccSetup K) (hp : Fits p m.G) (hm : SweepOk p m) (hw : WidthsFit m.G) (ho : InOrder p)
    (hv : ∀ i < p.nReg, p.vol i = Cmfd.vol m.G.d m.G.w i) (k k' : K) (a a' : AccState K) (h : outer p (accSweeper p m) k a = some (k', a'))
    (hfix : ∀ i < p.nReg, ∀ g < p.ng, a'.s.flux i g = a.s.flux i g) (hpos : ∀ i < p.nReg, ∀ g < p.ng, 0 < a.s.flux i g) (hg : 0 < p.ng) :
    ∃ src, lastSource p (accSweeper p m) (calcFissionSource p.ng p.rs k a.s.flux) (p.ng - 1) a = some src ∧
      snCheck m.G p.rs (p.ng - 1) (a'.cur (p.ng - 1)) src (fun i => a'.s.flux i (p.ng - 1)) p.vol = some (List.replicate p.nReg 0) := by
  obtain ⟨src, l, h1, h2, h3, h4⟩ := C136_outer p m hp hm hw ho hv k k' a a' h hfix hpos (p.ng - 1) (by omega)
  refine ⟨src, h1, h2.trans (congrArg some (List.eq_replicate_iff.mpr ⟨h3, fun b hb => ?_⟩))⟩
  obtain ⟨i, hi, rfl⟩ := List.mem_iff_getElem.mp hb
  have hi' : i < p.nReg := h3 ▸ hi
  obtain ⟨x, hx, hxi⟩ := ho i hi'
  have := h4 i hi' x (List.mem_of_getElem? hx) hxi
  rw [List.getElem?_eq_getElem hi, Option.some.injEq] at this
  rw [this]
  ring

/-- C136 for Sn with planes that share their cross sections: fewer regions in the cross-section mesh than cells, and the balance reads past the end of it. -/
theorem C136_sn_subplanes (G : Grid K) (rs : List (XsRegion (Mat K))) (g : Nat) (cur src flux1g vol : Nat → K) (h : rs.length < Mesh.nPin G.d) :
    snCheck G rs g cur src flux1g vol = none := by
  have key : ∀ l : List Nat, rs.length ∈ l → snCells G rs g cur src flux1g vol l = none := by
    intro l hl
    induction l with
    | nil => simp at hl
    | cons i l ih =>
      rw [snCells]
      rcases List.mem_cons.mp hl with e | e
      · have : snCell G rs g cur src flux1g vol i = none := by
          rw [← e]
          unfold snCell
          cases minusFaces G cur rs.length 0 <;> simp
        simp [this]
      · cases snCell G rs g cur src flux1g vol i <;> simp [ih e]
  exact key _ (List.mem_range.mpr h)

/-! ### MoC -/

theorem pinRegions_spec (nReg : Nat) (rm src flux1g vol : Nat → K) (n ireg : Nat) (b : K) (h : ireg + n ≤ nReg) :
    pinRegions nReg rm src flux1g vol n ireg b = some (b + ∑ j ∈ Finset.range n, vol (ireg + j) * (src (ireg + j) - rm (ireg + j) * flux1g (ireg + j))) := by
  induction n generalizing ireg b with
  | zero => simp [pinRegions]
  | succ n ih =>
    rw [pinRegions, if_pos (by omega), ih (ireg + 1) _ (by omega), Finset.sum_range_succ']
    congr 1
    simp only [Nat.add_zero, Nat.add_assoc, Nat.add_comm 1]
    ring

/-- Regions follow one another. -/
def Consecutive : List (PinFlux.Visit K) → Nat → Prop
  | [], _ => True
  | v :: vs, i => v.ireg = i ∧ Consecutive vs (i + v.pin.areas.length)

theorem consecutive_append (vs ws : List (PinFlux.Visit K)) (i : Nat) (h : Consecutive vs i) (h' : Consecutive ws (i + (vs.map fun v => v.pin.areas.length).sum)) :
    Consecutive (vs ++ ws) i := by
  induction vs generalizing i with
  | nil => simpa using h'
  | cons v vs ih =>
    refine ⟨h.1, ih _ h.2 ?_⟩
    simpa [Nat.add_assoc] using h'

theorem consecutive_plane (iz : Nat) (mp : PinFlux.MacroPlane K) (ps : List (PinFlux.Pin K)) (i : Nat) : Consecutive (PinFlux.planeVisits iz mp ps i) i ∧
    ((PinFlux.planeVisits iz mp ps i).map fun v => v.pin.areas.length) = ps.map fun q => q.areas.length := by
  induction ps generalizing i with
  | nil => exact ⟨trivial, rfl⟩
  | cons q ps ih => exact ⟨⟨rfl, (ih _).1⟩, by simp [PinFlux.planeVisits, (ih _).2]⟩

theorem consecutive_visits (l : List (PinFlux.MacroPlane K)) (iz i : Nat) : Consecutive (PinFlux.visits l iz i) i := by
  induction l generalizing iz i with
  | nil => trivial
  | cons mp l ih =>
    refine consecutive_append _ _ _ (consecutive_plane iz mp mp.pins i).1 ?_
    rw [(consecutive_plane iz mp mp.pins i).2]
    exact ih _ _

/-- The pins that the balance of MoC visits: those of the layers, with coarse cell and number of regions. -/
def pinsOf (m : MocAcc K) : List (Nat × Nat) := (PinFlux.visits m.layers 0 0).map fun v => (m.cell v, v.pin.areas.length)

theorem mocPins_spec (m : MocAcc K) (nReg : Nat) (rm cur src flux1g vol : Nat → K) (L : Nat → K) (vs : List (PinFlux.Visit K)) (i : Nat) (b : Nat → K) (hc : Consecutive vs i)
    (hr : ∀ v ∈ vs, v.ireg + v.pin.areas.length ≤ nReg) (hm : ∀ v ∈ vs, ∀ b, minusFaces m.G cur (m.cell v) b = some (b - L (m.cell v)))
    (hd : vs.Pairwise fun v w => m.cell v ≠ m.cell w) :
    ∃ b', mocPins m.G nReg rm cur src flux1g vol (vs.map fun v => (m.cell v, v.pin.areas.length)) i b = some b' ∧
      (∀ v ∈ vs, b' (m.cell v) = ∑ j ∈ Finset.range v.pin.areas.length, vol (v.ireg + j) * (src (v.ireg + j) - rm (v.ireg + j) * flux1g (v.ireg + j)) - L (m.cell v)) ∧
      ∀ j, (∀ v ∈ vs, m.cell v ≠ j) → b' j = b j := by
  induction vs generalizing i b with
  | nil => exact ⟨b, rfl, by simp, fun _ _ => rfl⟩
  | cons v vs ih =>
    obtain ⟨rfl, hc⟩ := hc
    rw [List.pairwise_cons] at hd
    have e1 := pinRegions_spec nReg rm src flux1g vol v.pin.areas.length v.ireg 0 (hr v (by simp))
    simp only [List.map_cons, mocPins, e1, hm v (by simp), Option.bind_eq_bind, Option.bind_some]
    obtain ⟨b', h1, h2, h3⟩ := ih (v.ireg + v.pin.areas.length) (fun j => if j = m.cell v then _ else b j) hc (fun w hw => hr w (by simp [hw])) (fun w hw => hm w (by simp [hw])) hd.2
    refine ⟨b', h1, ?_, ?_⟩
    · intro w hw
      rcases List.mem_cons.mp hw with rfl | hw
      · rw [h3 _ fun u hu => (hd.1 u hu).symm, if_pos rfl, zero_add]
      · exact h2 w hw
    · intro j hj
      rw [h3 j fun u hu => hj u (by simp [hu]), if_neg (hj v (by simp)).symm]

theorem pinRegions_none (nReg : Nat) (rm src flux1g vol : Nat → K) (n ireg : Nat) (b : K) (h : nReg < ireg + n) (hi : ireg ≤ nReg) :
    pinRegions nReg rm src flux1g vol n ireg b = none := by
  induction n generalizing ireg b with
  | zero => omega
  | succ n ih =>
    rw [pinRegions]
    split
    · exact ih (ireg + 1) _ (by omega) (by omega)
    · rfl

/-- C136 for MoC with planes that share their regions: the pins of the core have more regions than the sweeper, and the balance reads past the end of the flux. -/
theorem C136_moc_subplanes (G : Grid K) (nReg : Nat) (rs : List (XsRegion (Mat K))) (pins : List (Nat × Nat)) (g : Nat) (cur src flux1g vol : Nat → K)
    (h : nReg < (pins.map Prod.snd).sum) : mocCheck G nReg rs pins g cur src flux1g vol = none := by
  have key : ∀ (pins : List (Nat × Nat)) (i : Nat) (b : Nat → K), i ≤ nReg → nReg < i + (pins.map Prod.snd).sum →
      mocPins G nReg (rmOf rs g) cur src flux1g vol pins i b = none := by
    intro pins
    induction pins with
    | nil => intro i b h1 h2; simp at h2; omega
    | cons q pins ih =>
      obtain ⟨c, n⟩ := q
      intro i b h1 h2
      rw [mocPins]
      by_cases h3 : i + n ≤ nReg
      · rw [pinRegions_spec nReg _ src flux1g vol n i 0 h3]
        simp only [Option.bind_eq_bind, Option.bind_some]
        cases minusFaces G cur c _ with
        | none => rfl
        | some x =>
          rw [Option.bind_some]
          refine ih _ _ h3 ?_
          simpa [Nat.add_assoc] using h2
      · rw [pinRegions_none nReg _ src flux1g vol n i 0 (by omega) h1]
        rfl
  unfold mocCheck
  rw [key pins 0 _ (Nat.zero_le _) (by omega)]
  rfl

end

/-- Flux before the last inner iteration of the sweep of group `g`. -/
noncomputable def beforeLastMoc (p : Problem ℝ) (m : MocAcc ℝ) (g : Nat) (src : Nat → ℝ) (s : MocState ℝ) : MocState ℝ :=
  (List.range (m.nInner - 1)).foldl (fun s _ => mocInner p m.moc g src s) s

/-- The net current out of a cell after a sweep of MoC. -/
theorem moc_leakage (L : Moc.Lay ℝ) (cellOf : Nat → Nat) (p : Problem ℝ) (m : MocAcc ℝ) (h : PinsFit p m) (hr : RaysFit L cellOf p { m with nInner := 1 }) (hn : 0 < m.nInner) (g : Nat)
    (hg : g < p.ng) (src : Nat → ℝ) (s : MocState ℝ) (old : Nat → ℝ) :
    ∃ J, mocCurrents p m g src s (some old) = some J ∧ ∀ v ∈ PinFlux.visits m.layers 0 0, ∀ ix < m.G.d.nx, ∀ iy < m.G.d.ny, ∀ iz < m.G.d.nz, m.cell v = Mesh.coarseCell m.G.d ⟨ix, iy, iz⟩ →
      Sn.leakage m.G.d m.G.dx m.G.dy m.G.dz J ix iy iz =
        ∑ j ∈ Finset.range v.pin.areas.length, p.vol (v.ireg + j) * (src (v.ireg + j) + (XS.mat (m.pinMats (m.cell v)) j).sc g g * (beforeLastMoc p m g src s).flux (v.ireg + j) g -
          (XS.mat (m.pinMats (m.cell v)) j).tr g * (mocSweep p m.moc g src s).flux (v.ireg + j) g) +
        m.G.dx ix * m.G.dy iy * (Moc.onFace m.G.d old iz (ix, iy) .TOP - Moc.onFace m.G.d old iz (ix, iy) .BOTTOM) := by
  set t := beforeLastMoc p m g src s with htd
  set q := selfScatter m.fpi p.ng p.rs t.flux g src true t.q with hq
  set ps := m.planes.zip ((t.bin g).zip t.bout) with hps
  have hmc : mocCurrents p m g src s (some old) = Moc.currents1g m.G.d id (fun n => (Mesh.coarseAreaSurf m.G.d m.G.w n).getD 0) m.expo (trOf p.rs g) q m.gs m.u ps (keepAxial m.G.d old) := by
    unfold mocCurrents
    rw [if_neg (by omega)]
    rfl
  have hmat : ∀ v ∈ PinFlux.visits m.layers 0 0, ∀ j < v.pin.areas.length, trOf p.rs g (v.ireg + j) = (XS.mat (m.pinMats (m.cell v)) j).tr g ∧
      0 < (XS.mat (m.pinMats (m.cell v)) j).tr g ∧
      q (v.ireg + j) = (src (v.ireg + j) + t.flux (v.ireg + j) g * (XS.mat (m.pinMats (m.cell v)) j).sc g g) * (1 / ((XS.mat (m.pinMats (m.cell v)) j).tr g * m.fpi)) := by
    intro v hv j hj
    obtain ⟨x, hx, hi, e⟩ := h.mat v hv j hj
    rw [← e]
    refine ⟨trOf_at p.rs h.part g x hx _ hi, hr.tr x hx g hg, ?_⟩
    rw [hq, selfScatter_at m.fpi p.ng p.rs h.part t.flux g hg src true t.q x hx _ hi]
    simp
  have hxv : ∀ i < p.nReg, trOf p.rs g i * p.vol i ≠ 0 := by
    intro i hi
    obtain ⟨v, hv, h1, h2⟩ := (h.regs i).mp hi
    obtain ⟨j, rfl⟩ : ∃ j, i = v.ireg + j := ⟨i - v.ireg, by omega⟩
    have hj : j < v.pin.areas.length := by omega
    obtain ⟨e1, e2, -⟩ := hmat v hv j hj
    rw [e1, h.vol v hv j hj]
    exact mul_ne_zero e2.ne' (mul_ne_zero (h.localArea_pos hv j hj).ne' (h.dz _ (h.iz hv)).ne')
  obtain ⟨near, nearAbs, d, xs, ys⟩ := L
  have hd : d = m.G.d := hr.lay
  subst hd
  have wne : ∀ (l : List ℝ) (n : Nat), l.length = n → (∀ i < n, 0 < l.getD i 0) → ∀ x ∈ l, x ≠ 0 := by
    intro l n hl hp x hx
    obtain ⟨i, hi, rfl⟩ := List.mem_iff_getElem.mp hx
    have := hp i (hl ▸ hi)
    rw [List.getD_eq_getElem?_getD, List.getElem?_eq_getElem hi] at this
    exact this.ne'
  obtain ⟨J, hJ, hbal⟩ := Moc.C117_balance ⟨near, nearAbs, m.G.d, xs, ys⟩ m.G.w hr.lx hr.ly hr.lz (wne _ _ hr.lx h.dx) (wne _ _ hr.ly h.dy) (wne _ _ hr.lz h.dz) cellOf p.nReg
    m.expo m.fpi (trOf p.rs g) p.vol q m.gs m.u ps
    (by rw [hps, List.length_zip]; exact le_trans (min_le_left _ _) hr.nplanes)
    (by rw [hps, zip_take]; exact planesOk_take _ _ _ _ _ _ hr.planes) hxv (keepAxial m.G.d old)
    (by
      intro k hk c hc s hs
      rw [onFace_lateral m.G.d (keepAxial m.G.d old) (fun _ => 0) k hk c hc s hs fun n hn => if_neg hn]
      unfold Moc.onFace
      split <;> rfl)
  refine ⟨J, by rw [hmc]; exact hJ, ?_⟩
  intro v hv ix hx iy hy iz hz hcell
  obtain ⟨-, -, b3⟩ := hbal iz hz (ix, iy) ⟨hx, hy⟩
  have hcell' : Moc.cellNo m.G.d iz (ix, iy) = m.cell v := hcell.symm
  have hax : ∀ s, s = .TOP ∨ s = .BOTTOM → Moc.onFace m.G.d (keepAxial m.G.d old) iz (ix, iy) s = Moc.onFace m.G.d old iz (ix, iy) s := fun s hs =>
    onFace_axial m.G.d _ _ iz hz (ix, iy) ⟨hx, hy⟩ s hs fun n _ hn => if_pos hn
  have b3' : Sn.leakage m.G.d m.G.dx m.G.dy m.G.dz J ix iy iz +
      Moc.cellSum cellOf p.nReg (m.cell v) (fun i => trOf p.rs g i * p.vol i * (Moc.sweep1g m.expo m.fpi (trOf p.rs g) p.vol q m.gs m.u (ps.map fun x => (x.1.work, x.2))).1 i) =
    Moc.cellSum cellOf p.nReg (m.cell v) (fun i => m.fpi * (trOf p.rs g i * q i * p.vol i)) +
      m.G.dx ix * m.G.dy iy * (Moc.onFace m.G.d (keepAxial m.G.d old) iz (ix, iy) .TOP - Moc.onFace m.G.d (keepAxial m.G.d old) iz (ix, iy) .BOTTOM) := by
    rw [← hcell']; exact b3
  rw [hax .TOP (Or.inl rfl), hax .BOTTOM (Or.inr rfl), cellSum_visit h cellOf hr.cell hv, cellSum_visit h cellOf hr.cell hv] at b3'
  have hsweep : ∀ i, (Moc.sweep1g m.expo m.fpi (trOf p.rs g) p.vol q m.gs m.u (ps.map fun x => (x.1.work, x.2))).1 i = (mocSweep p m.moc g src s).flux i g := by
    intro i
    have e3 : mocSweep p m.moc g src s = mocInner p m.moc g src t := by
      unfold mocSweep
      have e : m.moc.nInner = (m.nInner - 1) + 1 := by show m.nInner = _; omega
      rw [e, List.range_succ, List.foldl_append]
      rfl
    have e4 : (mocInner p m.moc g src t).flux i g = (Moc.sweep1g m.expo m.fpi (trOf p.rs g) p.vol q m.gs m.u
        ((m.planes.map Moc.PlaneCur.work).zip ((t.bin g).zip t.bout))).1 i := by
      show (if g = g then _ else _) = _
      rw [if_pos rfl]
      rfl
    have e5 : (m.planes.map Moc.PlaneCur.work).zip ((t.bin g).zip t.bout) = ps.map fun x => (x.1.work, x.2) := by
      rw [hps, List.zip_map_left]
      rfl
    rw [e3, e4, e5]
  have hcol : ∀ j ∈ Finset.range v.pin.areas.length,
      p.vol (v.ireg + j) * (src (v.ireg + j) + (XS.mat (m.pinMats (m.cell v)) j).sc g g * t.flux (v.ireg + j) g -
          (XS.mat (m.pinMats (m.cell v)) j).tr g * (mocSweep p m.moc g src s).flux (v.ireg + j) g) =
      m.fpi * (trOf p.rs g (v.ireg + j) * q (v.ireg + j) * p.vol (v.ireg + j)) -
        trOf p.rs g (v.ireg + j) * p.vol (v.ireg + j) * (Moc.sweep1g m.expo m.fpi (trOf p.rs g) p.vol q m.gs m.u (ps.map fun x => (x.1.work, x.2))).1 (v.ireg + j) := by
    intro j hj
    have hj := Finset.mem_range.mp hj
    obtain ⟨e1, e2, e3⟩ := hmat v hv j hj
    have hf : m.fpi ≠ 0 := hr.fpi
    rw [hsweep, e1, e3]
    field_simp
  rw [Finset.sum_congr rfl hcol, Finset.sum_sub_distrib]
  linarith [b3']

/-- C136 for MoC, the group swept last: what is printed for a coarse cell is what the scattering inside the group changed in the last inner iteration, summed over the regions of
its pin, less the net axial current that was there before the sweep. -/
theorem C136_moc (L : Moc.Lay ℝ) (cellOf : Nat → Nat) (p : Problem ℝ) (m : MocAcc ℝ) (h : PinsFit p m) (hr : RaysFit L cellOf p { m with nInner := 1 }) (hn : 0 < m.nInner) (g : Nat)
    (hg : g < p.ng) (src : Nat → ℝ) (s : MocState ℝ) (old : Nat → ℝ) :
    ∃ J l, mocCurrents p m g src s (some old) = some J ∧
      mocCheck m.G p.nReg p.rs (pinsOf m) g J src (fun i => (mocSweep p m.moc g src s).flux i g) p.vol = some l ∧ l.length = Mesh.nPin m.G.d ∧
      ∀ v ∈ PinFlux.visits m.layers 0 0, ∀ ix < m.G.d.nx, ∀ iy < m.G.d.ny, ∀ iz < m.G.d.nz, m.cell v = Mesh.coarseCell m.G.d ⟨ix, iy, iz⟩ →
        l[m.cell v]? = some (∑ j ∈ Finset.range v.pin.areas.length, p.vol (v.ireg + j) * (XS.mat (m.pinMats (m.cell v)) j).sc g g *
            ((mocSweep p m.moc g src s).flux (v.ireg + j) g - (beforeLastMoc p m g src s).flux (v.ireg + j) g) -
          m.G.dx ix * m.G.dy iy * (Moc.onFace m.G.d old iz (ix, iy) .TOP - Moc.onFace m.G.d old iz (ix, iy) .BOTTOM)) := by
  obtain ⟨J, hJ, hl⟩ := moc_leakage L cellOf p m h hr hn g hg src s old
  have hw : WidthsFit m.G := ⟨hr.lx, hr.ly, hr.lz⟩
  obtain ⟨b, hb1, hb2, -⟩ := mocPins_spec m p.nReg (rmOf p.rs g) J src (fun i => (mocSweep p m.moc g src s).flux i g) p.vol
    (fun i => Sn.leakage m.G.d m.G.dx m.G.dy m.G.dz J (Mesh.coarsePosition m.G.d i).x (Mesh.coarsePosition m.G.d i).y (Mesh.coarsePosition m.G.d i).z)
    (PinFlux.visits m.layers 0 0) 0 (fun _ => 0) (consecutive_visits _ _ _)
    (fun v hv => by
      have h1 := h.ne_nil hv
      have h2 := h.region hv (v.pin.areas.length - 1) (by omega)
      omega)
    (fun v hv b => by
      obtain ⟨h1, h2, h3⟩ := Mesh.pos_lt m.G.d _ (h.cell_nPin hv)
      have := minusFaces_eq m.G hw J _ _ _ h1 h2 h3 b
      have e : Mesh.coarseCell m.G.d ⟨(Mesh.coarsePosition m.G.d (m.cell v)).x, (Mesh.coarsePosition m.G.d (m.cell v)).y, (Mesh.coarsePosition m.G.d (m.cell v)).z⟩ = m.cell v :=
        Mesh.cell_pos m.G.d _
      rwa [e] at this)
    (PinFlux.visits_idx m.n2 m.layers 0 0 h.pins)
  refine ⟨J, _, hJ, by unfold mocCheck pinsOf; rw [hb1]; rfl, by simp, ?_⟩
  intro v hv ix hx iy hy iz hz hcell
  have hp : Mesh.coarsePosition m.G.d (m.cell v) = ⟨ix, iy, iz⟩ := by rw [hcell]; exact Mesh.pos_cell m.G.d ix iy iz hx hy
  have e := hb2 v hv
  simp only [hp] at e
  rw [hl v hv ix hx iy hy iz hz hcell] at e
  rw [List.getElem?_map, List.getElem?_range (h.cell_nPin hv), Option.map_some, e]
  congr 1
  rw [← sub_sub, ← Finset.sum_sub_distrib]
  congr 1
  refine Finset.sum_congr rfl fun j hj => ?_
  obtain ⟨x, hx, hi, e⟩ := h.mat v hv j (Finset.mem_range.mp hj)
  rw [rmOf_at p.rs h.part g x hx _ hi, e]
  ring

/-! ### Sn, any group -/

/-- C136 for Sn in full: once outer iterations leave the flux as it is, the balance of every group comes out as zero. -/
def C136_claim : Prop := ∀ (p : Problem ℚ) (m : AccSetup ℚ), Fits p m.G → SweepOk p m → WidthsFit m.G → InOrder p → (∀ i < p.nReg, p.vol i = Cmfd.vol m.G.d m.G.w i) →
  ∀ (k k' : ℚ) (a a' : AccState ℚ), outer p (accSweeper p m) k a = some (k', a') → (∀ i < p.nReg, ∀ g < p.ng, a'.s.flux i g = a.s.flux i g) →
    (∀ i < p.nReg, ∀ g < p.ng, 0 < a.s.flux i g) → ∀ g < p.ng, ∀ src, lastSource p (accSweeper p m) (calcFissionSource p.ng p.rs k a.s.flux) (p.ng - 1) a = some src →
      snCheck m.G p.rs g (a'.cur g) src (fun i => a'.s.flux i (p.ng - 1)) p.vol = some (List.replicate p.nReg 0)

/-- Two groups: neutrons are born in the first and slow down to the second. -/
def downMat : Mat ℚ :=
  { tr := fun _ => 10, nf := fun g => if g = 0 then 15 else 1, f := fun _ => 0, ch := fun g => if g = 0 then 1 else 0,
    sc := fun a b => if a = b then 1 / 2 else if a = 1 then 31 / 4 else 0 }
def downProblem : Problem ℚ := { ng := 2, nReg := 1, rs := [⟨downMat, [0]⟩], vol := fun _ => 1 }
def downState : AccState ℚ :=
  { s := { flux := fun _ g => if g = 0 then 1 else 1 / 2, q := fun _ => 0, bin := fun _ _ _ _ => 0, bout := fun _ _ _ => 0 }, cur := fun _ _ => 0 }

theorem downFits : Fits downProblem exAcc.G where
  part := by refine ⟨?_, ?_⟩ <;> simp [downProblem]
  cover := by intro i; simp [downProblem]
  cells := rfl
  sc := by
    intro x hx
    simp only [downProblem, List.mem_singleton] at hx
    subst hx
    intro a b _ _
    simp only [downMat]; split_ifs <;> norm_num

theorem downOk : SweepOk downProblem exAcc :=
  { exOk with
    tr := by
      intro x hx g _
      simp only [downProblem, List.mem_singleton] at hx
      subst hx
      simp [downMat] }

theorem downOuter : (outer downProblem (accSweeper downProblem exAcc) 1 downState).map (fun r => (r.1, r.2.s.flux 0 0, r.2.s.flux 0 1)) = some (1, 1, 1 / 2) := by
  decide +kernel

theorem exWidths : WidthsFit exAcc.G := ⟨rfl, rfl, rfl⟩

theorem exVol (i : Nat) (hi : i < 1) : (1 : ℚ) = Cmfd.vol exAcc.G.d exAcc.G.w i := by
  have : i = 0 := by omega
  subst this
  decide +kernel

theorem downOrder : InOrder downProblem := by
  intro i hi
  have : i = 0 := by simpa [downProblem] using hi
  subst this
  exact ⟨⟨downMat, [0]⟩, rfl, by simp⟩

/-- C136_outer and C136_last apply to it: the balance of the first group comes out as -3, that of the second as 0. -/
theorem downCheck : ∃ (a' : AccState ℚ) (src : Nat → ℚ), outer downProblem (accSweeper downProblem exAcc) 1 downState = some (1, a') ∧
    (∀ i < downProblem.nReg, ∀ g < downProblem.ng, a'.s.flux i g = downState.s.flux i g) ∧
    lastSource downProblem (accSweeper downProblem exAcc) (calcFissionSource downProblem.ng downProblem.rs 1 downState.s.flux) (downProblem.ng - 1) downState = some src ∧
    snCheck exAcc.G downProblem.rs 0 (a'.cur 0) src (fun i => a'.s.flux i (downProblem.ng - 1)) downProblem.vol = some [-3] ∧
    snCheck exAcc.G downProblem.rs 1 (a'.cur 1) src (fun i => a'.s.flux i (downProblem.ng - 1)) downProblem.vol = some [0] := by
  obtain ⟨⟨k, a'⟩, h1, h2⟩ := Option.map_eq_some_iff.mp downOuter
  simp only [Prod.mk.injEq] at h2
  obtain ⟨rfl, h3, h4⟩ := h2
  have hfl : ∀ i < downProblem.nReg, ∀ g < downProblem.ng, a'.s.flux i g = downState.s.flux i g := by
    intro i hi g hg
    simp only [downProblem, Nat.lt_one_iff] at hi hg
    subst hi
    have : g = 0 ∨ g = 1 := by omega
    rcases this with rfl | rfl
    · rw [h3]; rfl
    · rw [h4]; rfl
  have hpos : ∀ i < downProblem.nReg, ∀ g < downProblem.ng, 0 < downState.s.flux i g := by
    intro i _ g _
    simp only [downState]
    split <;> norm_num
  obtain ⟨src, l, e1, e2, e3, e4⟩ := C136_outer downProblem exAcc downFits downOk exWidths downOrder (fun i hi => exVol i hi) 1 1 downState a' h1 hfl hpos 0 (by simp [downProblem])
  obtain ⟨src', e5, e6⟩ := C136_last downProblem exAcc downFits downOk exWidths downOrder (fun i hi => exVol i hi) 1 1 downState a' h1 hfl hpos (by simp [downProblem])
  rw [e1, Option.some.injEq] at e5
  subst e5
  refine ⟨a', src, h1, hfl, e1, e2.trans ?_, e6⟩
  have e7 := e4 0 (by simp [downProblem]) ⟨downMat, [0]⟩ (by simp [downProblem]) (by simp)
  have e8 : l.length = 1 := e3
  obtain ⟨b, rfl⟩ := List.length_eq_one_iff.mp e8
  simp only [List.getElem?_cons_zero, Option.some.injEq] at e7
  rw [e7]
  simp [groupSource, downProblem, downMat, Finset.sum_range_succ, h3, h4]
  norm_num

/-- The claim is violated: the source that is held is that of the last group, for which the balance is right. -/
theorem C136_claim_false : ¬ C136_claim := by
  intro h
  obtain ⟨a', src, h1, h2, h3, h4, -⟩ := downCheck
  have := h downProblem exAcc downFits downOk exWidths downOrder (fun i hi => exVol i hi) 1 1 downState a' h1 h2
    (by intro i _ g _; simp only [downState]; split <;> norm_num) 0 (by simp [downProblem]) src h3
  rw [h4] at this
  simp [downProblem] at this

/-! ### Sn, order of the regions -/

/-- C136 for Sn in full, the group swept last: as `C136_sn`, whatever the order of the regions of the cross-section mesh. -/
def C136_order_claim : Prop := ∀ (p : Problem ℚ) (m : AccSetup ℚ), Fits p m.G → SweepOk p m → WidthsFit m.G → (∀ i < p.nReg, p.vol i = Cmfd.vol m.G.d m.G.w i) →
  ∀ g < p.ng, ∀ (src : Nat → ℚ) (s : SnState Sn.Ax3 ℚ) (old : Nat → ℚ), (∀ i < p.nReg, 0 < (snSweep p m.sn g src s).flux i g) →
    ∃ l, snCheck m.G p.rs g (groupCurrents p m g src s old) src (fun i => (snSweep p m.sn g src s).flux i g) p.vol = some l ∧ l.length = p.nReg ∧
      ∀ i < p.nReg, ∀ x ∈ p.rs, i ∈ x.regs →
        l[i]? = some (p.vol i * x.mat.sc g g * ((snSweep p m.sn g src s).flux i g - (beforeLast p m g src s).flux i g))

/-- Two lattices side by side, each of one pin by two: the pins are in the order of the cells 0, 2, 1, 3.  Those of the second lattice scatter nothing and absorb more. -/
def latMat (t : ℚ) : Mat ℚ := { tr := fun _ => t, nf := fun _ => 1, f := fun _ => 0, ch := fun _ => 1, sc := fun _ _ => 0 }
def latProblem : Problem ℚ := { ng := 1, nReg := 4, rs := [⟨latMat 4, [0]⟩, ⟨latMat 4, [2]⟩, ⟨latMat 6, [1]⟩, ⟨latMat 6, [3]⟩], vol := fun _ => 1 }
def latAcc : AccSetup ℚ := { exAcc with G := { d := ⟨2, 2, 1⟩, w := ⟨[1, 1], [1, 1], [1]⟩, hpi := 2 } }
def latState : SnState Sn.Ax3 ℚ := { flux := fun _ _ => 1, q := fun _ => 0, bin := fun _ _ _ _ => 0, bout := fun _ _ _ => 0 }

theorem latFits : Fits latProblem latAcc.G where
  part := by refine ⟨?_, ?_⟩ <;> simp [latProblem]
  cover := by intro i; simp [latProblem]; omega
  cells := rfl
  sc := by
    intro x hx
    simp only [latProblem, List.mem_cons, List.not_mem_nil, or_false] at hx
    rcases hx with rfl | rfl | rfl | rfl <;> (intro a b _ _; simp [latMat])

theorem latOk : SweepOk latProblem latAcc where
  ords := exOk.ords
  dx := by intro i hi; have : i = 0 ∨ i = 1 := by { simp only [latAcc] at hi; omega }; rcases this with rfl | rfl <;> simp [Grid.dx, latAcc]
  dy := by intro i hi; have : i = 0 ∨ i = 1 := by { simp only [latAcc] at hi; omega }; rcases this with rfl | rfl <;> simp [Grid.dy, latAcc]
  dz := by intro i hi; have : i = 0 := by { simp only [latAcc] at hi; omega }; subst this; simp [Grid.dz, latAcc]
  fpi := exOk.fpi
  weights := exOk.weights
  inner := rfl
  tr := by
    intro x hx g _
    simp only [latProblem, List.mem_cons, List.not_mem_nil, or_false] at hx
    rcases hx with rfl | rfl | rfl | rfl <;> simp [latMat]

theorem latCheck : (∀ i < 4, 0 < (snSweep latProblem latAcc.sn 0 (fun _ => 10) latState).flux i 0) ∧
    snCheck latAcc.G latProblem.rs 0 (groupCurrents latProblem latAcc 0 (fun _ => 10) latState (fun _ => 0)) (fun _ => 10)
      (fun i => (snSweep latProblem latAcc.sn 0 (fun _ => 10) latState).flux i 0) latProblem.vol ≠ some [0, 0, 0, 0] := by
  decide +kernel

/-- The claim is violated: the number of a cell is used as number of a region of the cross-section mesh. -/
theorem C136_order_claim_false : ¬ C136_order_claim := by
  intro h
  obtain ⟨l, h1, h2, h3⟩ := h latProblem latAcc latFits latOk ⟨rfl, rfl, rfl⟩
    (by
      intro i hi
      have h4 : i < 4 := hi
      have : ∀ i < 4, latProblem.vol i = Cmfd.vol latAcc.G.d latAcc.G.w i := by decide +kernel
      exact this i h4)
    0 (by simp [latProblem]) (fun _ => 10) latState (fun _ => 0) latCheck.1
  refine latCheck.2 (h1.trans ?_)
  have h4 : l.length = 4 := h2
  have key : ∀ i < 4, l[i]? = some 0 := by
    intro i hi
    have : i = 0 ∨ i = 1 ∨ i = 2 ∨ i = 3 := by omega
    rcases this with rfl | rfl | rfl | rfl
    · simpa [latMat] using h3 0 (by simp [latProblem]) ⟨latMat 4, [0]⟩ (by simp [latProblem]) (by simp)
    · simpa [latMat] using h3 1 (by simp [latProblem]) ⟨latMat 6, [1]⟩ (by simp [latProblem]) (by simp)
    · simpa [latMat] using h3 2 (by simp [latProblem]) ⟨latMat 4, [2]⟩ (by simp [latProblem]) (by simp)
    · simpa [latMat] using h3 3 (by simp [latProblem]) ⟨latMat 6, [3]⟩ (by simp [latProblem]) (by simp)
  congr 1
  refine List.ext_getElem? fun i => ?_
  by_cases hi : i < 4
  · rw [key i hi]
    have : i = 0 ∨ i = 1 ∨ i = 2 ∨ i = 3 := by omega
    rcases this with rfl | rfl | rfl | rfl <;> rfl
  · rw [List.getElem?_eq_none (by omega), List.getElem?_eq_none (by simp; omega)]

/-- C136_sn applies with the regions in the order of the cells. -/
example : ∃ l, snCheck latAcc.G [⟨latMat 4, [0]⟩, ⟨latMat 6, [1]⟩, ⟨latMat 4, [2]⟩, ⟨latMat 6, [3]⟩] 0
    (groupCurrents { latProblem with rs := [⟨latMat 4, [0]⟩, ⟨latMat 6, [1]⟩, ⟨latMat 4, [2]⟩, ⟨latMat 6, [3]⟩] } latAcc 0 (fun _ => 10) latState (fun _ => 0)) (fun _ => 10)
      (fun i => (snSweep latProblem latAcc.sn 0 (fun _ => 10) latState).flux i 0) latProblem.vol = some l ∧ l = [0, 0, 0, 0] :=
  ⟨_, by decide +kernel, rfl⟩

/-- Sub-planes: three planes of one cell with two regions of cross sections between them; three pins of two regions for a sweeper with four. -/
example (cur src f v : Nat → ℚ) : snCheck { exAcc.G with d := ⟨1, 1, 3⟩ } [⟨exMat, [0, 1]⟩, ⟨exMat, [2]⟩] 0 cur src f v = none ∧
    mocCheck { exAcc.G with d := ⟨1, 1, 3⟩ } 4 [⟨exMat, [0, 1, 2, 3]⟩] [(0, 2), (1, 2), (2, 2)] 0 cur src f v = none :=
  ⟨C136_sn_subplanes _ _ _ _ _ _ _ (by decide), C136_moc_subplanes _ _ _ _ _ _ _ _ _ (by decide)⟩

/-- C136_moc applies to two planes of one cell and three inner iterations: in the lower cell, half of the change of the flux in the third of them less the net axial current. -/
example (expo : ℝ → ℝ) (gs : Bool) : ∃ cr : Moc.CoarseRay, let m := { twoAcc expo gs cr with nInner := 3 }
    ∀ src old : Nat → ℝ, ∃ J l, mocCurrents twoProblem m 0 src (twoFlux 1 2) (some old) = some J ∧
      mocCheck m.G 2 twoProblem.rs [(0, 1), (1, 1)] 0 J src (fun i => (mocSweep twoProblem m.moc 0 src (twoFlux 1 2)).flux i 0) (fun _ => 1) = some l ∧ l.length = 2 ∧
      l[0]? = some (1 / 2 * ((mocSweep twoProblem m.moc 0 src (twoFlux 1 2)).flux 0 0 -
        (mocInner twoProblem m.moc 0 src (mocInner twoProblem m.moc 0 src (twoFlux 1 2))).flux 0 0) -
        (Moc.onFace m.G.d old 0 (0, 0) .TOP - Moc.onFace m.G.d old 0 (0, 0) .BOTTOM)) := by
  obtain ⟨cr, hcr⟩ := two_ok
  refine ⟨cr, fun src old => ?_⟩
  have hp := two_pins expo gs cr
  obtain ⟨J, l, h1, h2, h3, h4⟩ := C136_moc twoLay id twoProblem { twoAcc expo gs cr with nInner := 3 } { hp with } { two_rays expo gs cr hcr with } (by simp) 0 (by simp [twoProblem]) src
    (twoFlux 1 2) old
  refine ⟨J, l, h1, h2, h3, ?_⟩
  have := h4 ⟨0, ⟨0, 0, 1, [⟨0, [1], 1⟩]⟩, ⟨0, [1], 1⟩, 0⟩ (by simp [twoAcc, PinFlux.visits, PinFlux.planeVisits]) 0 (by simp [twoAcc]) 0 (by simp [twoAcc]) 0 (by simp [twoAcc]) (by
    simp [MocAcc.cell, Mesh.coarseCell])
  have e : MocAcc.cell { twoAcc expo gs cr with nInner := 3 } ⟨0, ⟨0, 0, 1, [⟨0, [1], 1⟩]⟩, ⟨0, [1], 1⟩, 0⟩ = 0 := rfl
  rw [e] at this
  rw [this]
  simp only [twoAcc, List.length_singleton, Finset.sum_range_one, twoProblem, XS.mat, matAt, twoMat, Grid.dx, Grid.dy, List.getD_cons_zero, one_mul, Nat.add_zero, Nat.lt_one_iff, if_true]
  rfl

end Verif.Medium
