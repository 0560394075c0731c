import Verif.Medium.YieldProps
import Verif.Medium.EigenProps

/-!
# C164: without scattering upwards the first groups do not see the others
-/

set_option linter.unusedSectionVars false

namespace Verif.Medium

open Finset Verif.XS Verif.Source Verif.Scatter

section
variable {K : Type} [Field K] [LinearOrder K] [IsStrictOrderedRing K]

/-- The problem with the first `G` groups of the library only. -/
def cutProblem (G : Nat) (p : Problem K) : Problem K := { p with ng := G }

/-- No neutrons are scattered from the groups after the first `G` into those. -/
def NoUp (G : Nat) (p : Problem K) : Prop := ∀ x ∈ p.rs, ∀ g < G, ∀ h, G ≤ h → h < p.ng → x.mat.sc g h = 0

variable {G : Nat} {p : Problem K}

theorem cut_physical (hG : G ≤ p.ng) (h : Physical p) : Physical (cutProblem G p) where
  part := h.part
  cover := h.cover
  sc := fun x hx b c hb hc => h.sc x hx b c (lt_of_lt_of_le hb hG) (lt_of_lt_of_le hc hG)
  nf := fun x hx g hg => h.nf x hx g (lt_of_lt_of_le hg hG)
  ch := fun x hx g hg => h.ch x hx g (lt_of_lt_of_le hg hG)
  tr := fun x hx g hg => h.tr x hx g (lt_of_lt_of_le hg hG)
  vol := h.vol

theorem cut_self (hG : G ≤ p.ng) (h : Physical p) (fpi : K) (flux : Nat → Nat → K) (g : Nat) (hg : g < G) (src : Nat → K) (given : Bool) (q : Nat → K) :
    selfScatter fpi p.ng p.rs flux g src given q = selfScatter fpi G p.rs flux g src given q := by
  funext i
  by_cases hi : ∃ x ∈ p.rs, i ∈ x.regs
  · obtain ⟨x, hx, hxi⟩ := hi
    rw [selfScatter_at fpi p.ng _ h.part flux g (by omega) src given q x hx i hxi, selfScatter_at fpi G _ h.part flux g hg src given q x hx i hxi]
  · have ho : ∀ x ∈ p.rs, i ∉ x.regs := fun x hx e => hi ⟨x, hx, e⟩
    unfold selfScatter
    split_ifs
    · exact (loop_out _ _ i ho (fun x a hx => by simp only [setTo_eq, if_neg hx]) q).trans (loop_out _ _ i ho (fun x a hx => by simp only [setTo_eq, if_neg hx]) q).symm
    · exact (loop_out _ _ i ho (fun x a hx => by simp only [setTo_eq, if_neg hx]) q).trans (loop_out _ _ i ho (fun x a hx => by simp only [setTo_eq, if_neg hx]) q).symm

theorem cut_sweep (hG : G ≤ p.ng) (h : Physical p) (m : MocSetup K) (g : Nat) (hg : g < G) (src : Nat → K) (s : MocState K) :
    mocSweep p m g src s = mocSweep (cutProblem G p) m g src s := by
  have one : ∀ s, mocInner p m g src s = mocInner (cutProblem G p) m g src s := by
    intro s
    simp only [mocInner, cut_self hG h m.fpi s.flux g hg src true s.q]
    rfl
  simp only [mocSweep, one]

/-- C164: the source of a group. -/
theorem C164_source (hG : G ≤ p.ng) (h : Physical p) (hu : NoUp G p) (flux flux' : Nat → Nat → K) (hf : ∀ i < p.nReg, ∀ g < G, flux i g = flux' i g) (g : Nat) (hg : g < G)
    (a a' : Nat → K) (ha : ∀ i < p.nReg, a i = a' i) (i : Nat) (hi : i < p.nReg) : inScatter p.ng p.rs flux g a i = inScatter G p.rs flux' g a' i := by
  obtain ⟨x, hx, hxi⟩ := (h.cover i).mp hi
  rw [inScatter_at p.ng _ h.part flux g (by omega) a x hx i hxi (h.sc x hx),
    inScatter_at G _ h.part flux' g hg a' x hx i hxi (fun b c hb hc => h.sc x hx b c (by omega) (by omega)), ha i hi]
  congr 1
  have hs : range G ⊆ range p.ng := range_subset_range.mpr hG
  rw [← sum_subset hs fun b hb hb' => by
    rw [hu x hx g hg b (by simpa using hb') (by simpa using hb)]
    simp]
  exact sum_congr rfl fun b hb => by rw [hf i hi b (mem_range.mp hb)]

/-! ### Outgoing values left over do not matter, MoC -/

/-- The updates leave no incoming values when there were none and none go out: of the angle just swept, and of all angles. -/
structure KeepsZero (nAng : Nat) (n : Nat → Nat) (u : Moc.BcUpdate K) : Prop where
  one : ∀ a < nAng, ∀ b o, FlatOn nAng n 0 b → (∀ j < n a, o a j = 0) → FlatOn nAng n 0 (u.one a b o)
  all : ∀ b o, FlatOn nAng n 0 b → FlatOn nAng n 0 o → FlatOn nAng n 0 (u.all b o)

theorem angles_zero (expo : K → K) (xstr q : Nat → K) (gs : Bool) (nReg nAng : Nat) (n : Nat → Nat) (u : Moc.BcUpdate K) (hu : KeepsZero nAng n u)
    (hq : ∀ i < nReg, q i = 0) (first : Nat) (ws : List (Moc.AngleWork K))
    (hw : ∀ w ∈ ws, Moc.AngleOk nReg first (n w.iang1) w ∧ w.iang1 < nAng ∧ w.iang2 < nAng ∧ n w.iang2 = n w.iang1) (s : Moc.St K)
    (hb : FlatOn nAng n 0 s.bin) :
    let s' := ws.foldl (Moc.sweepAngle expo xstr q gs u first) s
    s'.tflux = s.tflux ∧ FlatOn nAng n 0 s'.bin ∧
      ∀ a, ((∀ j < n a, s.bout a j = 0) ∨ ∃ w ∈ ws, a = w.iang1 ∨ a = w.iang2) → ∀ j < n a, s'.bout a j = 0 := by
  induction ws generalizing s with
  | nil =>
    refine ⟨rfl, hb, ?_⟩
    rintro a (h | ⟨w, hw, -⟩)
    · exact h
    · simp at hw
  | cons w ws ih =>
    rw [List.foldl_cons]
    obtain ⟨ok, l1, l2, ln⟩ := hw w (by simp)
    have m0 : ∀ r ∈ w.rays, r.bc0 < n w.iang1 := fun r hr => by
      have := (ok.ends0.mem_iff (a := r.bc0)).mp (List.mem_map.mpr ⟨r, hr, rfl⟩)
      simpa using this
    have m1 : ∀ r ∈ w.rays, r.bc1 < n w.iang1 := fun r hr => by
      have := (ok.ends1.mem_iff (a := r.bc1)).mp (List.mem_map.mpr ⟨r, hr, rfl⟩)
      simpa using this
    obtain ⟨r1, r2, r3⟩ := rays_on (Moc.eTau expo xstr w.rst first) q w.wt 0 first w.rays (fun r hr s hs => hq _ (ok.regs r hr s hs))
      (s.bin w.iang1) (s.bin w.iang2) (fun r hr => hb _ l1 _ (m0 r hr)) (fun r hr => hb _ l2 _ (by rw [ln]; exact m1 r hr))
      ⟨s.tflux, s.bout w.iang1, s.bout w.iang2⟩
    have o1 : ∀ j < n w.iang1, (Moc.sweepAngle expo xstr q gs u first s w).bout w.iang1 j = 0 := by
      intro j hj
      have := (ok.ends1.mem_iff (a := j)).mpr (by simpa using hj)
      obtain ⟨r, hr, he⟩ := List.mem_map.mp this
      have hne : ¬ w.iang1 = w.iang2 := ok.ne
      simp only [Moc.sweepAngle, Moc.upd, if_neg hne, if_true]
      exact r2 j (Or.inr ⟨r, hr, he⟩)
    have o2 : ∀ j < n w.iang2, (Moc.sweepAngle expo xstr q gs u first s w).bout w.iang2 j = 0 := by
      intro j hj
      have := (ok.ends0.mem_iff (a := j)).mpr (by rw [ln] at hj; simpa using hj)
      obtain ⟨r, hr, he⟩ := List.mem_map.mp this
      simp only [Moc.sweepAngle, Moc.upd, if_true]
      exact r3 j (Or.inr ⟨r, hr, he⟩)
    have hbi : FlatOn nAng n 0 (Moc.sweepAngle expo xstr q gs u first s w).bin := by
      cases gs
      · simpa [Moc.sweepAngle] using hb
      · have : (Moc.sweepAngle expo xstr q true u first s w).bin = u.one w.iang2 (u.one w.iang1 s.bin
            (Moc.sweepAngle expo xstr q true u first s w).bout) (Moc.sweepAngle expo xstr q true u first s w).bout := rfl
        rw [this]
        exact hu.one _ l2 _ _ (hu.one _ l1 _ _ hb o1) o2
    obtain ⟨i1, i2, i3⟩ := ih (fun x hx => hw x (by simp [hx])) _ hbi
    refine ⟨i1.trans r1, i2, fun a ha => i3 a ?_⟩
    by_cases e1 : a = w.iang1
    · subst e1; exact Or.inl o1
    by_cases e2 : a = w.iang2
    · subst e2; exact Or.inl o2
    rcases ha with h | ⟨x, hx, he⟩
    · left
      intro j hj
      simp only [Moc.sweepAngle, Moc.upd, if_neg e1, if_neg e2]
      exact h j hj
    · rcases List.mem_cons.mp hx with rfl | hx
      · exact absurd he (by simp [e1, e2])
      · exact Or.inr ⟨x, hx, he⟩

theorem sweep_zero (expo : K → K) (fpi : K) (xstr vol q : Nat → K) (gs : Bool) (nReg nAng : Nat) (n : Nat → Nat) (u : Moc.BcUpdate K) (hu : KeepsZero nAng n u)
    (hq : ∀ i < nReg, q i = 0) (ps : List (Moc.PlaneWork K × (Nat → Nat → K) × (Nat → Nat → K)))
    (hp : ∀ p ∈ ps, PlaneOk nReg nAng n p.1 ∧ FlatOn nAng n 0 p.2.1) :
    (∀ i < nReg, (Moc.sweep1g expo fpi xstr vol q gs u ps).1 i = 0) ∧
    (Moc.sweep1g expo fpi xstr vol q gs u ps).2.length = ps.length ∧
    ∀ b ∈ (Moc.sweep1g expo fpi xstr vol q gs u ps).2, FlatOn nAng n 0 b.1 := by
  have key : ∀ (ps : List (Moc.PlaneWork K × (Nat → Nat → K) × (Nat → Nat → K))) (t : Nat → K),
      (∀ p ∈ ps, PlaneOk nReg nAng n p.1 ∧ FlatOn nAng n 0 p.2.1) → (Moc.sweepPlanes expo xstr q gs u ps t).1 = t ∧
      (Moc.sweepPlanes expo xstr q gs u ps t).2.length = ps.length ∧
      ∀ b ∈ (Moc.sweepPlanes expo xstr q gs u ps t).2, FlatOn nAng n 0 b.1 := by
    intro ps
    induction ps with
    | nil => intro t _; simp [Moc.sweepPlanes]
    | cons p ps ih =>
      intro t h
      obtain ⟨p, bin, bout⟩ := p
      obtain ⟨ok, hb⟩ := h (p, bin, bout) (by simp)
      obtain ⟨a1, a2, a3⟩ := angles_zero expo xstr q gs nReg nAng n u hu hq p.first p.angles ok.angle ⟨t, bin, bout⟩ hb
      have e1 : (Moc.sweepPlane expo xstr q gs u p ⟨t, bin, bout⟩).tflux = t := a1
      obtain ⟨i1, i2, i3⟩ := ih t (fun x hx => h x (by simp [hx]))
      simp only [Moc.sweepPlanes, e1]
      refine ⟨i1, by simp [i2], ?_⟩
      intro b hbm
      rcases List.mem_cons.mp hbm with rfl | hbm
      · simp only [Moc.sweepPlane]
        cases gs
        · exact hu.all _ _ a2 fun a ha j hj => a3 a (Or.inr (ok.cover a ha)) j hj
        · exact a2
      · exact i3 b hbm
  obtain ⟨k1, k2, k3⟩ := key ps (fun _ => 0) hp
  refine ⟨fun i hi => ?_, k2, k3⟩
  simp only [Moc.sweep1g, Moc.finish, k1, zero_div, zero_add, hq i hi, zero_mul]

/-- What the sweeper needs: every slot gets a value in a sweep, and the boundary update is linear. -/
structure MocFresh (nReg : Nat) (m : MocSetup K) (nAng : Nat) (n : Nat → Nat) : Prop where
  planes : ∀ w ∈ m.planes, PlaneOk nReg nAng n w
  linear : ∀ α β, Combines α β m.u m.u m.u
  zero : KeepsZero nAng n m.u

/-- A linear update that keeps signs keeps zeros. -/
theorem keepsZero_of_pos (nAng : Nat) (n : Nat → Nat) (u : Moc.BcUpdate K) (hl : ∀ α β, Combines α β u u u) (h : UpdatePos nAng n u) : KeepsZero nAng n u := by
  have e1 : ∀ a b o, u.one a (-b) (-o) = -u.one a b o := by
    intro a b o
    have := (hl (-1) 0).one a b b o o
    simpa using this
  have e2 : ∀ b o, u.all (-b) (-o) = -u.all b o := by
    intro b o
    have := (hl (-1) 0).all b b o o
    simpa using this
  constructor
  · intro a ha b o hb ho x hx j hj
    have p1 := h.one a ha b o (fun x hx j hj => (hb x hx j hj).ge) (fun j hj => (ho j hj).ge) x hx j hj
    have p2 := h.one a ha (-b) (-o) (fun x hx j hj => by simp [hb x hx j hj]) (fun j hj => by simp [ho j hj]) x hx j hj
    rw [e1] at p2
    simp only [Pi.neg_apply] at p2
    linarith
  · intro b o hb ho x hx j hj
    have p1 := h.all b o (fun x hx j hj => (hb x hx j hj).ge) (fun x hx j hj => (ho x hx j hj).ge) x hx j hj
    have p2 := h.all (-b) (-o) (fun x hx j hj => by simp [hb x hx j hj]) (fun x hx j hj => by simp [ho x hx j hj]) x hx j hj
    rw [e2] at p2
    simp only [Pi.neg_apply] at p2
    linarith

/-- C164: the boundary condition of the code keeps zeros and is linear. -/
theorem C164_store (sh : BC.Store K) (nReg : Nat) (m : MocSetup K) (hu : m.u = mocUpdate sh) (hp : ∀ w ∈ m.planes, PlaneOk nReg sh.size.length (rowSize sh) w) :
    MocFresh nReg m sh.size.length (rowSize sh) :=
  ⟨hp, by rw [hu]; exact (C112_store sh).1, by rw [hu]; exact keepsZero_of_pos _ _ _ (C112_store sh).1 (C109_store_moc sh)⟩

variable {m : MocSetup K} {nAng : Nat} {n : Nat → Nat}

/-- An inner iteration without source, flux and incoming values leaves none; outgoing values may be anything. -/
theorem inner_zero (h : Physical p) (hm : MocFresh p.nReg m nAng n) (g : Nat) (hg : g < p.ng) (src : Nat → K) (hsrc : ∀ i < p.nReg, src i = 0) (s : MocState K) (hs : PlanesAt m s)
    (hf : ∀ i < p.nReg, ∀ g < p.ng, s.flux i g = 0) (hb : ∀ g < p.ng, ∀ z < m.planes.length, ∀ a < nAng, ∀ j < n a, incoming s g z a j = 0) :
    (∀ i < p.nReg, ∀ h < p.ng, (mocInner p m g src s).flux i h = 0) ∧
      ∀ h < p.ng, ∀ z < m.planes.length, ∀ a < nAng, ∀ j < n a, incoming (mocInner p m g src s) h z a j = 0 := by
  have hq : ∀ i < p.nReg, selfScatter m.fpi p.ng p.rs s.flux g src true s.q i = 0 := by
    intro i hi
    obtain ⟨x, hx, hxi⟩ := (h.cover i).mp hi
    rw [selfScatter_at m.fpi p.ng p.rs h.part s.flux g hg src true s.q x hx i hxi, hf i hi g hg, hsrc i hi, zero_mul, add_zero, zero_mul]
  have hbm := (mem_incoming s g _ (hs.1 g) (FlatOn nAng n 0)).mpr (hb g hg)
  obtain ⟨r1, r2, r3⟩ := sweep_zero m.expo m.fpi (trOf p.rs g) p.vol _ m.gs p.nReg nAng n m.u hm.zero hq
    (m.planes.zip ((s.bin g).zip s.bout)) (fun w hw => by
      obtain ⟨h1, h2⟩ := List.of_mem_zip (a := w.1) (b := w.2) hw
      obtain ⟨h3, h4⟩ := List.of_mem_zip (a := w.2.1) (b := w.2.2) h2
      exact ⟨hm.planes _ h1, hbm _ h3⟩)
  have hp := inner_planes p m g src s hs
  constructor
  · intro i hi h' hh
    simp only [mocInner]
    split
    · exact r1 i hi
    · exact hf i hi h' hh
  · intro h' hh
    refine (mem_incoming (mocInner p m g src s) h' _ (hp.1 h') (FlatOn nAng n 0)).mp fun b hbb => ?_
    simp only [mocInner] at hbb
    split at hbb
    · obtain ⟨x, hx, rfl⟩ := List.mem_map.mp hbb
      exact r3 x hx
    · exact (mem_incoming s h' _ (hs.1 h') (FlatOn nAng n 0)).mpr (hb h' hh) b hbb

theorem inner_same (h : Physical p) (hm : MocFresh p.nReg m nAng n) (g : Nat) (hg : g < p.ng) (src src' : Nat → K) (hsrc : ∀ i < p.nReg, src i = src' i)
    (s s' : MocState K) (hs : PlanesAt m s) (hs' : PlanesAt m s') (hss : Same p m nAng n s s') : Same p m nAng n (mocInner p m g src s) (mocInner p m g src' s') := by
  have e := inner_lin 1 (-1) p m m.u m.u m.u (hm.linear 1 (-1)) g src src' s s' hs hs'
  have e' : mocLin 1 (-1) (mocInner p m g src s) (mocInner p m g src' s') = mocInner p m g ((1 : K) • src + (-1 : K) • src') (mocLin 1 (-1) s s') := e.symm
  obtain ⟨k1, k2⟩ := inner_zero h hm g hg ((1 : K) • src + (-1 : K) • src') (fun i hi => by simp [hsrc i hi]) (mocLin 1 (-1) s s') (planesAt_lin 1 (-1) m s s' hs hs')
    (fun i hi g hg => by simp [mocLin, hss.1 i hi g hg])
    (fun g hg z hz a ha j hj => by
      rw [incoming_lin 1 (-1) s s' g _ (hs.1 g) (hs'.1 g) z hz, hss.2 g hg z hz a ha j hj]
      ring)
  rw [← e'] at k1 k2
  have hp := inner_planes p m g src s hs
  have hp' := inner_planes p m g src' s' hs'
  constructor
  · intro i hi h' hh
    have := k1 i hi h' hh
    simp only [mocLin, Pi.add_apply, Pi.smul_apply, smul_eq_mul] at this
    linarith
  · intro h' hh z hz a ha j hj
    have := k2 h' hh z hz a ha j hj
    rw [incoming_lin 1 (-1) _ _ h' _ (hp.1 h') (hp'.1 h') z hz] at this
    linarith

/-- Inner iterations give the same from states with the same fluxes and incoming values. -/
theorem sweep_same (h : Physical p) (hm : MocFresh p.nReg m nAng n) (g : Nat) (hg : g < p.ng) (src src' : Nat → K) (hsrc : ∀ i < p.nReg, src i = src' i)
    (s s' : MocState K) (hs : PlanesAt m s) (hs' : PlanesAt m s') (hle : Same p m nAng n s s') :
    Same p m nAng n (mocSweep p m g src s) (mocSweep p m g src' s') ∧ PlanesAt m (mocSweep p m g src s) ∧ PlanesAt m (mocSweep p m g src' s') := by
  unfold mocSweep
  induction m.nInner with
  | zero => exact ⟨hle, hs, hs'⟩
  | succ N ih =>
    rw [List.range_succ, List.foldl_append, List.foldl_append]
    obtain ⟨h1, h2, h3⟩ := ih
    simp only [List.foldl_cons, List.foldl_nil]
    exact ⟨inner_same h hm g hg src src' hsrc _ _ h2 h3 h1, inner_planes p m g src _ h2, inner_planes p m g src' _ h3⟩

theorem sweep_planes (p : Problem K) (m : MocSetup K) (g : Nat) (src : Nat → K) (s : MocState K) (hs : PlanesAt m s) : PlanesAt m (mocSweep p m g src s) := by
  unfold mocSweep
  induction m.nInner with
  | zero => exact hs
  | succ N ih =>
    rw [List.range_succ, List.foldl_append]
    exact inner_planes p m g src _ ih

theorem sweep_flux (p : Problem K) (m : MocSetup K) (g : Nat) (src : Nat → K) (s : MocState K) (i h : Nat) (hne : h ≠ g) : (mocSweep p m g src s).flux i h = s.flux i h := by
  unfold mocSweep
  induction m.nInner with
  | zero => rfl
  | succ N ih =>
    rw [List.range_succ, List.foldl_append]
    simp only [List.foldl_cons, List.foldl_nil, mocInner, if_neg hne]
    exact ih

/-- The groups after the first `G` change nothing of those. -/
theorem later_groups (p : Problem K) (m : MocSetup K) (E : Nat → Nat → K) (c g : Nat) (hg : G ≤ g) (s : MocState K) (hs : PlanesAt m s) :
    (∀ i, ∀ h < G, (srcLoop p (mocSweeper p m) E c g s).flux i h = s.flux i h) ∧ (∀ h < G, (srcLoop p (mocSweeper p m) E c g s).bin h = s.bin h) ∧
      PlanesAt m (srcLoop p (mocSweeper p m) E c g s) := by
  induction c generalizing g s with
  | zero => exact ⟨fun _ _ _ => rfl, fun _ _ => rfl, hs⟩
  | succ c ih =>
    rw [srcLoop]
    obtain ⟨h1, h2, h3⟩ := ih (g + 1) (by omega) ((mocSweeper p m).sweep g (inScatter p.ng p.rs ((mocSweeper p m).flux s) g (E g)) s) (sweep_planes p m g _ s hs)
    exact ⟨fun i h hh => (h1 i h hh).trans (sweep_flux p m g _ s i h (by omega)), fun h hh => (h2 h hh).trans (mocSweep_bin p m g _ s h (by omega)), h3⟩

/-- C164: the groups in order.  The first `G` have the same fluxes and incoming values when the library ends there. -/
theorem C164_groups (hG : G ≤ p.ng) (h : Physical p) (hu : NoUp G p) (hm : MocFresh p.nReg m nAng n) (E E' : Nat → Nat → K)
    (hE : ∀ g < G, ∀ i < p.nReg, E g i = E' g i) (c g : Nat) (hc : g + c = G) (s s' : MocState K) (hs : PlanesAt m s) (hs' : PlanesAt m s') (hss : Same (cutProblem G p) m nAng n s s') :
    Same (cutProblem G p) m nAng n (srcLoop p (mocSweeper p m) E (c + (p.ng - G)) g s) (srcLoop (cutProblem G p) (mocSweeper (cutProblem G p) m) E' c g s') ∧
      PlanesAt m (srcLoop p (mocSweeper p m) E (c + (p.ng - G)) g s) ∧ PlanesAt m (srcLoop (cutProblem G p) (mocSweeper (cutProblem G p) m) E' c g s') := by
  induction c generalizing g s s' with
  | zero =>
    rw [Nat.zero_add]
    obtain ⟨h1, h2, h3⟩ := later_groups (G := G) p m E (p.ng - G) g (by omega) s hs
    exact ⟨⟨fun i hi g hg => (h1 i g hg).trans (hss.1 i hi g hg), fun g hg z hz a ha j hj => by
      unfold incoming
      rw [h2 g hg]
      exact hss.2 g hg z hz a ha j hj⟩, h3, hs'⟩
  | succ c ih =>
    rw [Nat.succ_add, srcLoop, srcLoop]
    obtain ⟨h1, h2, h3⟩ := sweep_same (cut_physical hG h) (show MocFresh (cutProblem G p).nReg m nAng n from hm) g (show g < G by omega) (inScatter p.ng p.rs s.flux g (E g)) (inScatter G p.rs s'.flux g (E' g))
      (fun i hi => C164_source hG h hu s.flux s'.flux hss.1 g (by omega) (E g) (E' g) (hE g (by omega)) i hi) s s' hs hs' hss
    rw [← cut_sweep hG h m g (by omega)] at h1 h2
    exact ih (g + 1) (by omega) _ _ h2 h3 h1

/-- C164: any number of steps with an external source, MoC. -/
theorem C164_cut (hG : G ≤ p.ng) (h : Physical p) (hu : NoUp G p) (hm : MocFresh p.nReg m nAng n) (ext ext' : Option (Ext K)) (E E' : Nat → Nat → K)
    (hi : ∀ g < p.ng, initializeGroup p.nReg ext g = some (E g)) (hi' : ∀ g < G, initializeGroup p.nReg ext' g = some (E' g)) (hE : ∀ g < G, ∀ i < p.nReg, E g i = E' g i) (N : Nat)
    (s s' : MocState K) (hs : PlanesAt m s) (hs' : PlanesAt m s') (hss : Same (cutProblem G p) m nAng n s s') :
    ∃ t t', fixedSteps p (mocSweeper p m) ext N s = some t ∧ fixedSteps (cutProblem G p) (mocSweeper (cutProblem G p) m) ext' N s' = some t' ∧ Same (cutProblem G p) m nAng n t t' := by
  refine ⟨_, _, fixedSteps_eq p (mocSweeper p m) ext E hi N s, fixedSteps_eq (cutProblem G p) (mocSweeper (cutProblem G p) m) ext' E' hi' N s', ?_⟩
  induction N generalizing s s' with
  | zero => exact hss
  | succ N ih =>
    obtain ⟨h1, h2, h3⟩ := C164_groups hG h hu hm E E' hE G 0 (by omega) s s' hs hs' hss
    rw [Nat.add_sub_cancel' hG] at h1 h2
    exact ih _ _ h2 h3 h1

/-- C164: two libraries with any numbers of groups that agree in the first `G` give the same fluxes there. -/
theorem C164_moc {P : Problem K} (hG : G ≤ p.ng) (hG' : G ≤ P.ng) (h : Physical p) (h' : Physical P) (hu : NoUp G p) (hu' : NoUp G P) (hm : MocFresh p.nReg m nAng n)
    (hc : SameCells (cutProblem G p) (cutProblem G P)) (ext ext' : Option (Ext K)) (E E' : Nat → Nat → K)
    (hi : ∀ g < p.ng, initializeGroup p.nReg ext g = some (E g)) (hi' : ∀ g < P.ng, initializeGroup P.nReg ext' g = some (E' g)) (hE : ∀ g < G, ∀ i < p.nReg, E g i = E' g i) (N : Nat)
    (s s' : MocState K) (hs : PlanesAt m s) (hs' : PlanesAt m s') (hss : Same (cutProblem G p) m nAng n s s') :
    ∃ t t', fixedSteps p (mocSweeper p m) ext N s = some t ∧ fixedSteps P (mocSweeper P m) ext' N s' = some t' ∧ ∀ i < p.nReg, ∀ g < G, t.flux i g = t'.flux i g := by
  have hn : P.nReg = p.nReg := hc.nReg
  have hi2 : ∀ g < G, initializeGroup p.nReg ext' g = some (E' g) := fun g hg => by rw [← hn]; exact hi' g (by omega)
  obtain ⟨t, u, k1, k2, k3⟩ := C164_cut hG h hu hm ext ext' E E' hi hi2 hE N s s' hs hs' hss
  obtain ⟨t', u', l1, l2, l3⟩ := C164_cut hG' h' hu' (by rw [hn]; exact hm) ext' ext' E' E' hi' (fun g hg => hi' g (by omega)) (fun _ _ _ _ => rfl) N s' s' hs' hs' ⟨fun _ _ _ _ => rfl, fun _ _ _ _ _ _ _ _ => rfl⟩
  have e := C162_steps hc (mocSweeper (cutProblem G p) m) (mocSweeper (cutProblem G P) m) rfl (fun g hg => C162_moc_group hc m g hg) ext' E' hi2 N s'
  rw [e, k2] at l2
  obtain rfl := Option.some.inj l2
  exact ⟨t, t', k1, l1, fun i hi g hg => (k3.1 i hi g hg).trans (l3.1 i (by show i < P.nReg; omega) g hg).symm⟩

end

/-! ### Example -/

/-- Other cross sections and another number of groups after the first. -/
def otherMat : Mat ℚ := ⟨fun g => if g = 0 then 2 else 5, fun _ => 1, fun _ => 1, fun g => if g = 0 then 1 else 0, fun g h => if g = 0 then (if h = 0 then 1 else 0) else 1⟩

def otherProblem : Problem ℚ := ⟨3, 2, [⟨otherMat, [0, 1]⟩], fun _ => 1⟩

theorem other_physical : Physical otherProblem where
  part := by simp [Partition, otherProblem]
  cover := by
    intro i
    simp only [otherProblem, exists_eq_left, List.mem_cons, List.not_mem_nil, or_false]
    omega
  sc := by
    intro x hx b c _ _
    simp only [otherProblem, List.mem_singleton] at hx
    subst hx
    simp only [otherMat]
    split_ifs <;> norm_num
  nf := by
    intro x hx g _
    simp only [otherProblem, List.mem_singleton] at hx
    subst hx
    simp [otherMat]
  ch := by
    intro x hx g _
    simp only [otherProblem, List.mem_singleton] at hx
    subst hx
    simp only [otherMat]
    split_ifs <;> norm_num
  tr := by
    intro x hx g _
    simp only [otherProblem, List.mem_singleton] at hx
    subst hx
    simp only [otherMat]
    split_ifs <;> norm_num
  vol := by intro i _; simp [otherProblem]

theorem demo_noUp : NoUp 1 demoProblem := by
  intro x hx g hg h h1 _
  simp only [demoProblem, List.mem_singleton] at hx
  subst hx
  obtain rfl : g = 0 := by omega
  simp only [demoMat, if_true]
  rw [if_neg (by omega)]

theorem other_noUp : NoUp 1 otherProblem := by
  intro x hx g hg h h1 _
  simp only [otherProblem, List.mem_singleton] at hx
  subst hx
  obtain rfl : g = 0 := by omega
  simp only [otherMat, if_true]
  rw [if_neg (by omega)]

theorem demo_other : SameCells (cutProblem 1 demoProblem) (cutProblem 1 otherProblem) where
  ng := rfl
  nReg := rfl
  vol := rfl
  part := demo_physical.part
  part' := other_physical.part
  cover := demo_physical.cover
  cover' := other_physical.cover
  nonneg := (cut_physical (by decide) demo_physical).sc
  mat := by
    intro x hx x' hx' i _ _ g hg
    simp only [cutProblem, demoProblem, otherProblem, List.mem_singleton] at hx hx'
    subst hx hx'
    obtain rfl : g = 0 := Nat.lt_one_iff.mp hg
    refine ⟨rfl, rfl, rfl, fun h hh => ?_⟩
    obtain rfl : h = 0 := Nat.lt_one_iff.mp hh
    rfl

theorem demo_fresh (gs : Bool) : MocFresh 2 (demoMoc gs) 2 (fun _ => 2) :=
  ⟨(demo_mocOk gs).planes, (demo_boundOk gs).linear, keepsZero_of_pos _ _ _ (demo_boundOk gs).linear (demo_mocPosOk gs).update⟩

/-- Nothing is asked of the exponential and of the factor 1/4π: signs are not kept here. -/
example (gs : Bool) (e : ℚ → ℚ) (c : ℚ) : MocFresh 2 { demoMoc gs with expo := e, fpi := c } 2 (fun _ => 2) :=
  ⟨(demo_fresh gs).planes, (demo_fresh gs).linear, (demo_fresh gs).zero⟩

/-- Sources of 2 and 3 groups that agree in the first. -/
def shortExt : Ext ℚ := ⟨2, 2, fun i g => if g = 0 then (if i = 0 then 1 else 4) else 2⟩

def longExt : Ext ℚ := ⟨2, 3, fun i g => if g = 0 then (if i = 0 then 1 else 4) else 7⟩

def extValues (e : Ext ℚ) (g : Nat) : Nat → ℚ := Function.update (Function.update (fun _ => 0) 0 (e.data 0 g)) 1 (e.data 1 g)

/-- Two and three groups, different cross sections and sources after the first group and different states. -/
example (gs : Bool) (N : Nat) : ∃ t t', fixedSteps demoProblem (mocSweeper demoProblem (demoMoc gs)) (some shortExt) N ⟨fun _ _ => 1, fun _ => 5, fun _ => [fun _ _ => 1], [fun _ _ => 7]⟩ = some t ∧
    fixedSteps otherProblem (mocSweeper otherProblem (demoMoc gs)) (some longExt) N
      ⟨fun _ g => if g = 0 then 1 else 3, fun _ => 6, fun g => [fun _ _ => if g = 0 then 1 else 2], [fun _ _ => -8]⟩ = some t' ∧ ∀ i < 2, ∀ g < 1, t.flux i g = t'.flux i g :=
  C164_moc (by decide) (by decide) demo_physical other_physical demo_noUp other_noUp (demo_fresh gs) demo_other (some shortExt) (some longExt)
    (extValues shortExt) (extValues longExt)
    (fun g hg => by
      have h2 : g < 2 := hg
      interval_cases g <;> rfl)
    (fun g hg => by
      have h3 : g < 3 := hg
      interval_cases g <;> rfl)
    (fun g hg i _ => by
      obtain rfl : g = 0 := by omega
      rfl) N _ _ ⟨fun _ => rfl, rfl⟩ ⟨fun _ => rfl, rfl⟩
    ⟨fun i _ g hg => by
      obtain rfl : g = 0 := Nat.lt_one_iff.mp hg
      rfl, fun g hg z hz a ha j hj => by
      obtain rfl : g = 0 := Nat.lt_one_iff.mp hg
      have h1 : z < 1 := hz
      interval_cases z
      rfl⟩

/-- The first group changes in a step and the second differs. -/
example : ∀ gs : Bool, ((fixedSteps demoProblem (mocSweeper demoProblem (demoMoc gs)) (some shortExt) 1 ⟨fun _ _ => 1, fun _ => 5, fun _ => [fun _ _ => 1], [fun _ _ => 7]⟩).map fun t => t.flux 0 0) =
      ((fixedSteps otherProblem (mocSweeper otherProblem (demoMoc gs)) (some longExt) 1 ⟨fun _ _ => 1, fun _ => 5, fun _ => [fun _ _ => 1], [fun _ _ => 7]⟩).map fun t => t.flux 0 0) ∧
    ((fixedSteps demoProblem (mocSweeper demoProblem (demoMoc gs)) (some shortExt) 1 ⟨fun _ _ => 1, fun _ => 5, fun _ => [fun _ _ => 1], [fun _ _ => 7]⟩).map fun t => t.flux 0 0) ≠ some 1 ∧
    ((fixedSteps demoProblem (mocSweeper demoProblem (demoMoc gs)) (some shortExt) 1 ⟨fun _ _ => 1, fun _ => 5, fun _ => [fun _ _ => 1], [fun _ _ => 7]⟩).map fun t => t.flux 0 1) ≠
      ((fixedSteps otherProblem (mocSweeper otherProblem (demoMoc gs)) (some longExt) 1 ⟨fun _ _ => 1, fun _ => 5, fun _ => [fun _ _ => 1], [fun _ _ => 7]⟩).map fun t => t.flux 0 1) := by
  decide +kernel

/-- The same material with scattering upwards. -/
def upMat : Mat ℚ := { demoMat with sc := fun g h => if g = 0 then (if h = 0 then 1 else 1 / 2) else if h = 0 then 1 else 2 }

/-- With scattering upwards the first group sees the second. -/
example : ∀ gs : Bool,
    ((fixedSteps { demoProblem with rs := [⟨upMat, [0, 1]⟩] } (mocSweeper { demoProblem with rs := [⟨upMat, [0, 1]⟩] } (demoMoc gs)) (some shortExt) 1
      ⟨fun _ _ => 1, fun _ => 5, fun _ => [fun _ _ => 1], [fun _ _ => 7]⟩).map fun t => t.flux 0 0) ≠
    ((fixedSteps (cutProblem 1 { demoProblem with rs := [⟨upMat, [0, 1]⟩] }) (mocSweeper (cutProblem 1 { demoProblem with rs := [⟨upMat, [0, 1]⟩] }) (demoMoc gs)) (some shortExt) 1
      ⟨fun _ _ => 1, fun _ => 5, fun _ => [fun _ _ => 1], [fun _ _ => 7]⟩).map fun t => t.flux 0 0) := by
  decide +kernel

end Verif.Medium
