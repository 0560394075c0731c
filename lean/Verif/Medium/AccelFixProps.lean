import Verif.Medium.AccelProps
import Verif.Cmfd.UniqueProps

/-!
# C122: what the iteration with CMFD repeats is a solution of the iteration without it (Sn in three dimensions)
-/

set_option linter.unusedSectionVars false

namespace Verif.Medium

open Verif.XS Verif.Source

section
variable {K : Type} [Field K] [LinearOrder K] [IsStrictOrderedRing K]

/-- C122: the currents of an outer iteration balance with its flux in every cell, converged or not: collisions of the new flux are the source of fission and scattering inside the group of
the old flux and of scattering from other groups, of the new flux if the group was swept before. -/
theorem C122_balance (p : Problem K) (m : AccSetup K) (hp : Fits p m.G) (hm : SweepOk p m) (k k' : K) (a a' : AccState K) (h : outer p (accSweeper p m) k a = some (k', a'))
    (g : Nat) (hg : g < p.ng) (hpos : ∀ i < p.nReg, 0 < a'.s.flux i g) (x : XsRegion (Mat K)) (hx : x ∈ p.rs) (ix iy iz : Nat) (h1 : ix < m.G.d.nx) (h2 : iy < m.G.d.ny)
    (h3 : iz < m.G.d.nz) (hi : Mesh.coarseCell m.G.d ⟨ix, iy, iz⟩ ∈ x.regs) :
    m.G.dx ix * m.G.dy iy * m.G.dz iz * (x.mat.tr g * a'.s.flux (Mesh.coarseCell m.G.d ⟨ix, iy, iz⟩) g) + Sn.leakage m.G.d m.G.dx m.G.dy m.G.dz (a'.cur g) ix iy iz =
      m.G.dx ix * m.G.dy iy * m.G.dz iz * (x.mat.sc g g * a.s.flux (Mesh.coarseCell m.G.d ⟨ix, iy, iz⟩) g +
        (x.mat.ch g * ((∑ h ∈ Finset.range p.ng, x.mat.nf h * a.s.flux (Mesh.coarseCell m.G.d ⟨ix, iy, iz⟩) h) / k) +
          ∑ h ∈ Finset.range p.ng, if h ≠ g then x.mat.sc g h * (if h < g then a'.s.flux (Mesh.coarseCell m.G.d ⟨ix, iy, iz⟩) h else
            a.s.flux (Mesh.coarseCell m.G.d ⟨ix, iy, iz⟩) h) else 0)) := by
  set i := Mesh.coarseCell m.G.d ⟨ix, iy, iz⟩ with hidef
  have hi' : i < p.nReg := (hp.cover i).mpr ⟨x, hx, hi⟩
  have h0 := h
  rw [outer] at h
  obtain ⟨v, h4, h5⟩ := Option.map_eq_some_iff.mp h
  rw [Prod.mk.injEq] at h5
  obtain ⟨-, rfl⟩ := h5
  obtain ⟨t, src, hat, hsw, ht⟩ := atGroup p (accSweeper p m) (acc_only p m) k k' a _ h0 g hg
  have ht' : ∀ i g', t.s.flux i g' = if g' < g then v.s.flux i g' else a.s.flux i g' := ht
  have hcur : v.cur g = groupCurrents p m g src t.s (t.cur g) := by
    obtain ⟨b, hbn⟩ : ∃ b, p.ng = g + (b + 1) := ⟨p.ng - g - 1, by omega⟩
    have hsp := groupLoop_split p (accSweeper p m) (calcFissionSource p.ng p.rs k ((accSweeper p m).flux a)) g (b + 1) 0 a
    rw [← hbn, h4, hat.1, Option.bind_some, Nat.zero_add, groupLoop, hat.2, Option.bind_some] at hsp
    have := loop_other p (accSweeper p m) AccState.cur (fun g src s h hne => if_neg hne) _ _ _ _ _ hsp.symm g (by omega)
    rw [this]
    exact if_pos rfl
  have hbal := sweepCur_balance m (selfScatter m.fpi p.ng p.rs t.s.flux g src false t.s.q) (trOf p.rs g) ix iy iz h1 h2 h3 (hm.dx ix h1) (hm.dy iy h2) (hm.dz iz h3)
    (by rw [trOf_at p.rs hp.part g x hx _ hi]; exact hm.tr x hx g hg) m.ords hm.ords ⟨fun _ => 0, t.s.bin g, t.s.bout⟩ (fun _ => 0)
  have hz : Sn.leakage m.G.d m.G.dx m.G.dy m.G.dz (fun _ => 0) ix iy iz = 0 := by
    refine (leakage_sum m.G.d m.G.w (fun _ => 0) ix iy iz h1 h2 h3).symm.trans (List.sum_eq_zero fun y hy => ?_)
    obtain ⟨f, -, rfl⟩ := List.mem_map.mp hy
    unfold Cmfd.signed
    split <;> simp
  have hg1 : groupCurrents p m g src t.s (t.cur g) = (sweepCur m (selfScatter m.fpi p.ng p.rs t.s.flux g src false t.s.q) (trOf p.rs g) m.ords
      ⟨fun _ => 0, t.s.bin g, t.s.bout⟩ (fun _ => 0)).2 := by
    unfold groupCurrents
    rw [if_neg (by rw [hm.inner]; decide), hm.inner]
    rfl
  have hfl : (sweepCur m (selfScatter m.fpi p.ng p.rs t.s.flux g src false t.s.q) (trOf p.rs g) m.ords ⟨fun _ => 0, t.s.bin g, t.s.bout⟩ (fun _ => 0)).1.tflux i =
      v.s.flux i g := by
    rw [sweepCur_pass]
    have e1 : (snInner p m.sn g src t.s).flux i g = ((m.ords.map (CurOrd.ord m.G)).foldl (snOrdinate m.sn (selfScatter m.fpi p.ng p.rs t.s.flux g src false t.s.q) (trOf p.rs g))
        ⟨fun _ => 0, t.s.bin g, t.s.bout⟩).tflux i := by
      show (if g = g then _ else _) = _
      rw [if_pos rfl]
      rfl
    rw [← e1]
    have e2 := C109_sn_fix p m.sn g src t.s i g
    have e3 : (snSweep p m.sn g src t.s).flux i g = v.s.flux i g := (hsw i).symm
    have e4 := hpos i hi'
    have e5 : m.sn.nInner = 1 := hm.inner
    simp only [e5, List.range_one, List.foldl_cons, List.foldl_nil, if_true] at e2
    rw [e3] at e2
    rw [e2] at e4 ⊢
    rcases lt_max_iff.mp e4 with h4 | h4
    · rw [max_eq_left h4.le]
    · exact absurd h4 (lt_irrefl _)
  rw [hcur, hg1]
  rw [hz, sub_zero, hm.weights, hfl, trOf_at p.rs hp.part g x hx _ hi, selfScatter_at m.fpi p.ng p.rs hp.part t.s.flux g hg src false t.s.q x hx _ hi] at hbal
  obtain ⟨src', h6, h7⟩ := C28_assemble_partial p.ng p.nReg p.rs (calcFissionSource p.ng p.rs k ((accSweeper p m).flux a)) ((accSweeper p m).flux t) g hp.part hp.sc hg
  have h8 := hat.2
  rw [h6, Option.some.injEq] at h8
  have hgs : src i = x.mat.ch g * ((∑ h ∈ Finset.range p.ng, x.mat.nf h * a.s.flux i h) / k) +
      ∑ h ∈ Finset.range p.ng, if h ≠ g then x.mat.sc g h * (if h < g then v.s.flux i h else a.s.flux i h) else 0 := by
    rw [← h8, h7 x hx i hi, defined, C47_fission_source p.ng p.rs hp.part k _ x hx i hi, zero_add]
    congr 1
    refine Finset.sum_congr rfl fun h hh => ?_
    rw [← ht' i h]; rfl
  rw [← hgs, hbal, ht' i g, if_neg (lt_irrefl g)]
  have hfpi := hm.fpi
  simp only [Bool.false_eq_true, if_false]
  field_simp
  ring

/-- Leakage depends on the currents of the surfaces of the mesh. -/
theorem leakage_surf (d : Mesh.Dims) (dx dy dz : Nat → K) (J J' : Nat → K) (h : ∀ n < Mesh.nSurf d, J n = J' n) (ix iy iz : Nat) (h1 : ix < d.nx) (h2 : iy < d.ny) (h3 : iz < d.nz) :
    Sn.leakage d dx dy dz J ix iy iz = Sn.leakage d dx dy dz J' ix iy iz := by
  have e := fun s hs => Mesh.C11_surface_in_range d ix iy iz s hs h1 h2 h3
  obtain ⟨n1, a1, b1⟩ := e .EAST (by decide)
  obtain ⟨n2, a2, b2⟩ := e .WEST (by decide)
  obtain ⟨n3, a3, b3⟩ := e .NORTH (by decide)
  obtain ⟨n4, a4, b4⟩ := e .SOUTH (by decide)
  obtain ⟨n5, a5, b5⟩ := e .TOP (by decide)
  obtain ⟨n6, a6, b6⟩ := e .BOTTOM (by decide)
  unfold Sn.leakage
  dsimp only
  rw [a1, a2, a3, a4, a5, a6]
  dsimp only
  rw [h _ b1, h _ b2, h _ b3, h _ b4, h _ b5, h _ b6]

/-- C122: a state that a step with CMFD repeats.  If CMFD has solved its systems (for the eigenvalue and flux it returns) and currents are moderate (C122_bound), then CMFD returns the flux
of the sweep, and the state is repeated by the iteration without CMFD, with the same eigenvalue. -/
theorem C122_fixed (c : CmfdSetup K) (p : Problem K) (m : AccSetup K) (hp : Fits p m.G) (hm : SweepOk p m) (k : K) (a : AccState K) (S : Cmfd.LoopState K) (f : Cmfd.Flux K)
    (hrun : cmfdRun c p m.G k a.s.flux a.cur = (S, f)) (a' : AccState K) (hstep : accelStep c p m k a = some (k, a')) (hflux : ∀ i < p.nReg, ∀ g < p.ng, a'.s.flux i g = a.s.flux i g)
    (hcur : ∀ g < p.ng, ∀ n < Mesh.nSurf m.G.d, a'.cur g n = a.cur g n)
    (hpos : ∀ i < p.nReg, ∀ g < p.ng, 0 < a.s.flux i g) (hf : ∀ i < p.nReg, ∀ g < p.ng, 0 < f i g)
    (hsol : ∀ g < p.ng, ∀ x ∈ p.rs, ∀ i ∈ x.regs,
      ∑ j ∈ Finset.range (Mesh.nPin m.G.d), cmfdMatrix c p m.G a.cur a.s.flux g i j * f j g = Cmfd.vol m.G.d m.G.w i * groupSource p.ng x.mat S.k f g i)
    (htame : ∀ g < p.ng, Cmfd.Tame m.G.d (c.dt g) (Cmfd.dHatAt m.G.d (c.dt g) (a.cur g) (fun i => a.s.flux i g)))
    (hgrid : 0 < m.G.d.nx ∧ 0 < m.G.d.ny ∧ 0 < m.G.d.nz) (hfis : totalFission p.ng p.rs p.vol a.s.flux ≠ 0) :
    S.k = k ∧ Agree p.nReg p.ng f a.s.flux ∧ outer p (accSweeper p m) k a = some (k, a') := by
  have hsw : outer p (accSweeper p m) S.k (doCmfd c p m k a).2 = some (k, a') := by
    rw [← hstep, accelStep]
    unfold doCmfd
    dsimp only
    rw [hrun]
  set b := (doCmfd c p m k a).2 with hb
  have hbf : ∀ i < p.nReg, ∀ g < p.ng, b.s.flux i g = f i g := by
    intro i hi g hg
    have e : b.s.flux i g = setFlux (Mesh.nPin m.G.d) p.ng f a.s.flux i g := by
      rw [hb]
      unfold doCmfd
      dsimp only
      rw [hrun]
    rw [e, setFlux, if_pos ⟨hp.cells ▸ hi, hg⟩]
    have := (hpos i hi g hg).ne'
    have := (hf i hi g hg).ne'
    field_simp
  have key : ∀ g, g < p.ng → ∀ i < p.nReg, a.s.flux i g = f i g := by
    intro g
    induction g using Nat.strong_induction_on with
    | _ g ih =>
      intro hg
      have hrow : ∀ i < Mesh.nPin m.G.d, ∑ j ∈ Finset.range (Mesh.nPin m.G.d),
          Cmfd.entry m.G.d m.G.w (trOf p.rs g) (c.dt g) (Cmfd.dHatAt m.G.d (c.dt g) (a.cur g) (fun i => a.s.flux i g)) i j * a.s.flux j g =
          ∑ j ∈ Finset.range (Mesh.nPin m.G.d),
          Cmfd.entry m.G.d m.G.w (trOf p.rs g) (c.dt g) (Cmfd.dHatAt m.G.d (c.dt g) (a.cur g) (fun i => a.s.flux i g)) i j * f j g := by
        intro i hi
        have hi' : i < p.nReg := hp.cells ▸ hi
        obtain ⟨x, hx, hix⟩ := (hp.cover i).mp hi'
        obtain ⟨h1, h2, h3⟩ := Mesh.pos_lt m.G.d i hi
        have hc : Mesh.coarseCell m.G.d ⟨(Mesh.coarsePosition m.G.d i).x, (Mesh.coarsePosition m.G.d i).y, (Mesh.coarsePosition m.G.d i).z⟩ = i := Mesh.cell_pos m.G.d i
        have hv := Cmfd.vol_eq m.G.d m.G.w _ _ (Mesh.coarsePosition m.G.d i).z h1 h2
        have hbal := C122_balance p m hp hm S.k k b a' hsw g hg (fun i hi => by rw [hflux i hi g hg]; exact hpos i hi g hg) x hx _ _ _ h1 h2 h3 (by rw [hc]; exact hix)
        have hgs : (x.mat.ch g * ((∑ h ∈ Finset.range p.ng, x.mat.nf h * b.s.flux i h) / S.k) +
            ∑ h ∈ Finset.range p.ng, if h ≠ g then x.mat.sc g h * (if h < g then a'.s.flux i h else b.s.flux i h) else 0) = groupSource p.ng x.mat S.k f g i := by
          unfold groupSource
          congr 1
          · congr 2
            exact Finset.sum_congr rfl fun h hh => by rw [hbf i hi' h (Finset.mem_range.mp hh)]
          · refine Finset.sum_congr rfl fun h hh => ?_
            have hh := Finset.mem_range.mp hh
            rw [hbf i hi' h hh]
            by_cases hlt : h < g
            · rw [if_pos hlt, hflux i hi' h hh, ih h hlt hh i hi']
            · rw [if_neg hlt]
        rw [hc] at hbal hv
        rw [hgs, hbf i hi' g hg, hflux i hi' g hg, leakage_surf m.G.d m.G.dx m.G.dy m.G.dz _ _ (hcur g hg) _ _ _ h1 h2 h3] at hbal
        have htr := trOf_at p.rs hp.part g x hx i hix
        have hrm := rmOf_at p.rs hp.part g x hx i hix
        have l1 := Cmfd.C40_fixed_point m.G.d m.G.w (trOf p.rs g) (c.dt g) (a.cur g) (fun i => a.s.flux i g)
          (fun _ => Cmfd.vol m.G.d m.G.w i * (x.mat.sc g g * f i g + groupSource p.ng x.mat S.k f g i)) (fun j hj => hpos j (hp.cells ▸ hj) g hg) _ _ _ h1 h2 h3 (by
            rw [leakage_sum m.G.d m.G.w (a.cur g) _ _ _ h1 h2 h3, hc, htr, hv, mul_assoc]
            exact hbal)
        have l2 := Cmfd.C40_row m.G.d m.G.w (trOf p.rs g) (c.dt g) (Cmfd.dHatAt m.G.d (c.dt g) (a.cur g) (fun i => a.s.flux i g)) (fun i => f i g) _ _ _ h1 h2 h3
        have l3 := Cmfd.C40_row m.G.d m.G.w (rmOf p.rs g) (c.dt g) (Cmfd.dHatAt m.G.d (c.dt g) (a.cur g) (fun i => a.s.flux i g)) (fun i => f i g) _ _ _ h1 h2 h3
        rw [hc] at l1 l2 l3
        have l4 : Cmfd.rowApply m.G.d m.G.w (rmOf p.rs g) (c.dt g) (Cmfd.dHatAt m.G.d (c.dt g) (a.cur g) (fun i => a.s.flux i g)) (fun i => f i g) i =
            Cmfd.vol m.G.d m.G.w i * groupSource p.ng x.mat S.k f g i := hsol g hg x hx i hix
        rw [htr] at l2
        rw [hrm, l4] at l3
        refine Eq.trans (b := Cmfd.rowApply m.G.d m.G.w (trOf p.rs g) (c.dt g) (Cmfd.dHatAt m.G.d (c.dt g) (a.cur g) (fun i => a.s.flux i g)) (fun i => a.s.flux i g) i) rfl ?_
        refine Eq.trans ?_ (Eq.refl (Cmfd.rowApply m.G.d m.G.w (trOf p.rs g) (c.dt g) (Cmfd.dHatAt m.G.d (c.dt g) (a.cur g) (fun i => a.s.flux i g)) (fun i => f i g) i))
        rw [l1, l2]
        linear_combination l3
      intro i hi
      refine Cmfd.C122_unique m.G.d m.G.w (trOf p.rs g) (c.dt g) _ (fun i => a.s.flux i g) (fun i => f i g) ⟨hm.dx, hm.dy, hm.dz⟩ (htame g hg) (fun j hj => ?_) hrow i (hp.cells ▸ hi)
      obtain ⟨x, hx, hjx⟩ := (hp.cover j).mp (hp.cells ▸ hj)
      rw [trOf_at p.rs hp.part g x hx j hjx]
      exact hm.tr x hx g hg
  have hagree : Agree p.nReg p.ng f a.s.flux := fun i hi g hg => (key g hg i hi).symm
  have hba : b = a := by
    have hf0 : ∀ i < p.nReg, ∀ g < p.ng, Cmfd.zeroFix c.fix a.s.flux i g = a.s.flux i g := by
      intro i hi h hh
      rw [Cmfd.zeroFix]
      split
      · exact max_eq_left (hpos i hi h hh).le
      · rfl
    have e1 : setFlux (Mesh.nPin m.G.d) p.ng f a.s.flux = a.s.flux := by
      funext i h
      unfold setFlux
      split
      · next hc =>
        have hi : i < p.nReg := hp.cells ▸ hc.1
        rw [hagree i hi h hc.2, div_self (hpos i hi h hc.2).ne', div_one]
      · rfl
    rw [hb]
    unfold doCmfd
    dsimp only
    rw [hrun, e1]
    show (⟨a.s, _⟩ : AccState K) = ⟨a.s, a.cur⟩
    congr 1
    funext g n
    split
    · next hc =>
      have hr := Cmfd.C40_reconstruct_mesh m.G.d hgrid.1 hgrid.2.1 hgrid.2.2 (c.dt g) (a.cur g) (fun i => Cmfd.zeroFix c.fix a.s.flux i g)
        (fun j hj => by rw [hf0 j (hp.cells ▸ hj) g hc.1]; exact hpos j (hp.cells ▸ hj) g hc.1) n hc.2
      obtain ⟨t1, t2, -⟩ := Mesh.C12_cells_touch_surface m.G.d hgrid.1 hgrid.2.1 hgrid.2.2 n hc.2
      have hside : ∀ z : Int, (z = -1 ∨ ∃ c : Nat, z = c ∧ c < Mesh.nPin m.G.d) →
          Cmfd.side (fun i => f i g) z = Cmfd.side (fun i => Cmfd.zeroFix c.fix a.s.flux i g) z := by
        rintro z (rfl | ⟨j, rfl, hj⟩)
        · simp [Cmfd.side]
        · rw [Cmfd.side_nat, Cmfd.side_nat, hagree j (hp.cells ▸ hj) g hc.1, hf0 j (hp.cells ▸ hj) g hc.1]
      conv_rhs => rw [← hr]
      unfold Cmfd.currentAt
      rw [hside _ (t1.imp id fun ⟨c, a, b, _⟩ => ⟨c, a, b⟩), hside _ (t2.imp id fun ⟨c, a, b, _⟩ => ⟨c, a, b⟩)]
    · rfl
  rw [hba] at hsw
  have hk : S.k = k := by
    have h := hsw
    rw [outer] at h
    obtain ⟨v, -, h5⟩ := Option.map_eq_some_iff.mp h
    rw [Prod.mk.injEq] at h5
    obtain ⟨h6, h7⟩ := h5
    subst h7
    rw [← h6]
    show S.k = S.k * totalFission p.ng p.rs p.vol v.s.flux / totalFission p.ng p.rs p.vol a.s.flux
    have e : totalFission p.ng p.rs p.vol v.s.flux = totalFission p.ng p.rs p.vol a.s.flux := by
      rw [totalFission_eq, totalFission_eq]
      congr 1
      refine List.map_congr_left fun x hx => ?_
      congr 1
      refine List.map_congr_left fun i hi => ?_
      rw [Finset.sum_congr rfl fun g hg => by rw [hflux i ((hp.cover i).mpr ⟨x, hx, hi⟩) g (Finset.mem_range.mp hg)]]
    rw [e]
    field_simp
  exact ⟨hk, hagree, by rw [hk] at hsw; exact hsw⟩

end

/-- Two iterations of the example of C116 in sequence: the second repeats eigenvalue, flux and currents of the first. -/
theorem exTwice : ((outer exProblem (accSweeper exProblem exAcc) 1 exState).bind fun r => outer exProblem (accSweeper exProblem exAcc) r.1 r.2).map
    (fun r => (r.1, r.2.s.flux 0 0, (List.range 6).map (r.2.cur 0))) = some (1, 1, [-2, 0, 2, 0, 2, 0]) := by
  decide +kernel

/-- CMFD of that example with stronger couplings. -/
def exStrong : CmfdSetup ℚ := { exCmfd with dt := fun _ _ => 2 }

/-- All hypotheses of `C122_fixed` hold for the state after the first iteration. -/
example : ∃ a a' : AccState ℚ, ∃ S f, a.cur 0 0 = -2 ∧ cmfdRun exStrong exProblem exAcc.G 1 a.s.flux a.cur = (S, f) ∧ accelStep exStrong exProblem exAcc 1 a = some (1, a') ∧
    (∀ i < exProblem.nReg, ∀ g < exProblem.ng, a'.s.flux i g = a.s.flux i g) ∧ (∀ g < exProblem.ng, ∀ n < Mesh.nSurf exAcc.G.d, a'.cur g n = a.cur g n) ∧
    (∀ i < exProblem.nReg, ∀ g < exProblem.ng, 0 < a.s.flux i g) ∧ (∀ i < exProblem.nReg, ∀ g < exProblem.ng, 0 < f i g) ∧
    (∀ g < exProblem.ng, ∀ x ∈ exProblem.rs, ∀ i ∈ x.regs, ∑ j ∈ Finset.range (Mesh.nPin exAcc.G.d), cmfdMatrix exStrong exProblem exAcc.G a.cur a.s.flux g i j * f j g =
      Cmfd.vol exAcc.G.d exAcc.G.w i * groupSource exProblem.ng x.mat S.k f g i) ∧
    (∀ g < exProblem.ng, Cmfd.Tame exAcc.G.d (exStrong.dt g) (Cmfd.dHatAt exAcc.G.d (exStrong.dt g) (a.cur g) (fun i => a.s.flux i g))) ∧
    totalFission exProblem.ng exProblem.rs exProblem.vol a.s.flux ≠ 0 := by
  have h := exOuter
  obtain ⟨⟨k, a⟩, h1, h2⟩ := Option.map_eq_some_iff.mp h
  simp only [Prod.mk.injEq] at h2
  obtain ⟨rfl, h3, h4⟩ := h2
  have ht := exTwice
  rw [h1, Option.bind_some] at ht
  obtain ⟨⟨k, a'⟩, g1, g2⟩ := Option.map_eq_some_iff.mp ht
  simp only [Prod.mk.injEq] at g2
  obtain ⟨rfl, g3, g4⟩ := g2
  have hc : ∀ n < 6, a'.cur 0 n = a.cur 0 n := by
    intro n hn
    have := congrArg (fun l : List ℚ => l[n]?) (g4.trans h4.symm)
    simpa [hn] using this
  have hc0 : ∀ n < 6, a.cur 0 n = [-2, 0, 2, 0, 2, 0].getD n 0 := by
    intro n hn
    have := congrArg (fun l : List ℚ => l.getD n 0) h4
    simpa [hn] using this
  have hfl : ∀ i < exProblem.nReg, ∀ g < exProblem.ng, a.s.flux i g = exState.s.flux i g := by
    intro i hi g hg
    simp only [exProblem, Nat.lt_one_iff] at hi hg
    subst hi hg
    rw [h3]; rfl
  have hsrc : ∀ g < exProblem.ng, ∃ x ∈ exProblem.rs, ∃ i ∈ x.regs, groupSource exProblem.ng x.mat 1 a.s.flux g i ≠ 0 := by
    intro g hg
    simp only [exProblem, Nat.lt_one_iff] at hg
    subst hg
    refine ⟨⟨exMat, [0]⟩, by simp [exProblem], 0, by simp, ?_⟩
    simp [groupSource, exProblem, h3, exMat]
  have hfis : ∃ x ∈ exProblem.rs, ∃ i ∈ x.regs, ∃ g < exProblem.ng, x.mat.nf g ≠ 0 :=
    ⟨⟨exMat, [0]⟩, by simp [exProblem], 0, by simp, 0, by simp [exProblem], by simp [exMat]⟩
  have hnf : ∀ x ∈ exProblem.rs, ∀ g < exProblem.ng, 0 ≤ x.mat.nf g := by
    intro x hx g _
    simp only [exProblem, List.mem_singleton] at hx
    subst hx
    simp only [exMat]; norm_num
  have hpos : ∀ i < exProblem.nReg, ∀ g < exProblem.ng, 0 < a.s.flux i g := fun i hi g hg => by rw [hfl i hi g hg]; simp [exState]
  have hacc := (C116_converged exStrong exProblem exAcc exFits exOk exLin 1 exState a h1 hfl (fun _ _ _ _ => by simp [exState]) hsrc hfis hnf).2
  have hbal := C116_balance exProblem exAcc exFits exOk 1 1 exState a h1 hfl (fun _ _ _ _ => by simp [exState])
  have hrun := C116_run exStrong exProblem exAcc.G exFits exLin 1 a.s.flux a.cur hbal hpos (by
    intro g hg
    obtain ⟨x, hx, i, hi, hne⟩ := hsrc g hg
    refine ⟨x, hx, i, hi, mul_ne_zero ?_ hne⟩
    simp only [exProblem, List.mem_singleton] at hx
    subst hx
    simp only [List.mem_singleton] at hi
    subst hi
    decide +kernel) hfis hnf
  have hcells : exProblem.nReg = Mesh.nPin exAcc.G.d := rfl
  refine ⟨a, a', (cmfdRun exStrong exProblem exAcc.G 1 a.s.flux a.cur).1, (cmfdRun exStrong exProblem exAcc.G 1 a.s.flux a.cur).2, hc0 0 (by decide), rfl, hacc.trans g1, ?_, ?_, hpos, ?_, ?_, ?_, ?_⟩
  · intro i hi g hg
    simp only [exProblem, Nat.lt_one_iff] at hi hg
    subst hi hg
    rw [h3, g3]
  · intro g hg n hn
    simp only [exProblem, Nat.lt_one_iff] at hg
    subst hg
    exact hc n hn
  · intro i hi g hg
    rw [hrun.2.1 i hi g hg]
    exact hpos i hi g hg
  · intro g hg x hx i hi
    rw [hrun.1]
    have := C116_solves exStrong exProblem exAcc.G exFits 1 a.s.flux a.cur hbal hpos g hg x hx i hi
    rw [Finset.sum_congr rfl fun j hj => by rw [hrun.2.1 j (hcells ▸ Finset.mem_range.mp hj) g hg], this]
    congr 1
    unfold groupSource
    have e : ∀ h < exProblem.ng, a.s.flux i h = (cmfdRun exStrong exProblem exAcc.G 1 a.s.flux a.cur).2 i h :=
      fun h hh => (hrun.2.1 i ((exFits.cover i).mpr ⟨x, hx, hi⟩) h hh).symm
    rw [Finset.sum_congr rfl fun h hh => by rw [e h (Finset.mem_range.mp hh)]]
    congr 1
    exact Finset.sum_congr rfl fun h hh => by rw [e h (Finset.mem_range.mp hh)]
  · intro g hg
    simp only [exProblem, Nat.lt_one_iff] at hg
    subst hg
    rw [Cmfd.C122_bound exAcc.G.d _ _ _ (fun c (hc : c < exProblem.nReg) => hpos c hc 0 (by decide))]
    intro fc hv
    have h6 : Mesh.enc exAcc.G.d fc < 6 := Mesh.enc_lt exAcc.G.d fc hv
    rw [hc0 _ h6]
    have hcf : Cmfd.cellFlux exAcc.G.d (fun i => a.s.flux i 0) (some (0, 0, 0)) = 1 := h3
    have hcn : Cmfd.cellFlux exAcc.G.d (fun i => a.s.flux i 0) none = 0 := rfl
    have hdt : ∀ n, exStrong.dt 0 n = 2 := fun _ => rfl
    obtain ⟨ax, i, j, l⟩ := fc
    cases ax <;> simp only [Mesh.Spec.Face.Valid, exAcc] at hv <;> obtain ⟨v1, v2, v3⟩ := hv
    · obtain rfl : j = 0 := by omega
      obtain rfl : l = 0 := by omega
      obtain rfl | rfl : i = 0 ∨ i = 1 := by omega
      · rw [show Mesh.enc exAcc.G.d ⟨.x, 0, 0, 0⟩ = 1 from rfl, show Mesh.Spec.below ⟨.x, 0, 0, 0⟩ = none from rfl,
          show Mesh.Spec.above exAcc.G.d.nx exAcc.G.d.ny exAcc.G.d.nz ⟨.x, 0, 0, 0⟩ = some (0, 0, 0) from rfl, hcf, hcn, hdt]
        simp
      · rw [show Mesh.enc exAcc.G.d ⟨.x, 1, 0, 0⟩ = 2 from rfl, show Mesh.Spec.below ⟨.x, 1, 0, 0⟩ = some (0, 0, 0) from rfl,
          show Mesh.Spec.above exAcc.G.d.nx exAcc.G.d.ny exAcc.G.d.nz ⟨.x, 1, 0, 0⟩ = none from rfl, hcf, hcn, hdt]
        simp
    · obtain rfl : i = 0 := by omega
      obtain rfl : l = 0 := by omega
      obtain rfl | rfl : j = 0 ∨ j = 1 := by omega
      · rw [show Mesh.enc exAcc.G.d ⟨.y, 0, 0, 0⟩ = 3 from rfl, show Mesh.Spec.below ⟨.y, 0, 0, 0⟩ = none from rfl,
          show Mesh.Spec.above exAcc.G.d.nx exAcc.G.d.ny exAcc.G.d.nz ⟨.y, 0, 0, 0⟩ = some (0, 0, 0) from rfl, hcf, hcn, hdt]
        simp
      · rw [show Mesh.enc exAcc.G.d ⟨.y, 0, 1, 0⟩ = 4 from rfl, show Mesh.Spec.below ⟨.y, 0, 1, 0⟩ = some (0, 0, 0) from rfl,
          show Mesh.Spec.above exAcc.G.d.nx exAcc.G.d.ny exAcc.G.d.nz ⟨.y, 0, 1, 0⟩ = none from rfl, hcf, hcn, hdt]
        simp
    · obtain rfl : i = 0 := by omega
      obtain rfl : j = 0 := by omega
      obtain rfl | rfl : l = 0 ∨ l = 1 := by omega
      · rw [show Mesh.enc exAcc.G.d ⟨.z, 0, 0, 0⟩ = 0 from rfl, show Mesh.Spec.below ⟨.z, 0, 0, 0⟩ = none from rfl,
          show Mesh.Spec.above exAcc.G.d.nx exAcc.G.d.ny exAcc.G.d.nz ⟨.z, 0, 0, 0⟩ = some (0, 0, 0) from rfl, hcf, hcn, hdt]
        simp
      · rw [show Mesh.enc exAcc.G.d ⟨.z, 0, 0, 1⟩ = 5 from rfl, show Mesh.Spec.below ⟨.z, 0, 0, 1⟩ = some (0, 0, 0) from rfl,
          show Mesh.Spec.above exAcc.G.d.nx exAcc.G.d.ny exAcc.G.d.nz ⟨.z, 0, 0, 1⟩ = none from rfl, hcf, hcn, hdt]
        simp
  · have e : totalFission exProblem.ng exProblem.rs exProblem.vol a.s.flux = a.s.flux 0 0 * 1 * (13 / 2) := by
      simp [totalFission, exProblem, exMat]
    rw [e, h3]; norm_num

end Verif.Medium
