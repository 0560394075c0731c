import Verif.Medium.Model
import Verif.Source.Props
import Verif.Moc.KernelProps
import Verif.Sn.SweepProps
import Verif.Sn.CellProps
import Verif.BC.UpdateProps
import Mathlib.Tactic.FieldSimp
import Mathlib.Tactic.Ring
import Mathlib.Tactic.Linarith
import Mathlib.Tactic.NormNum
import Mathlib.Tactic.IntervalCases

/-!
# C108: the solution of the infinite medium is a fixed point of the outer iteration
-/

set_option linter.unusedSectionVars false

namespace Verif.Medium

open Verif.XS Verif.Source

section
variable {K : Type} [Field K] [LinearOrder K] [IsStrictOrderedRing K]

/-- Every material has the same solution of the infinite medium: fluxes `φ g` and eigenvalue `k`. -/
structure Infinite (p : Problem K) (k : K) (φ : Nat → K) : Prop where
  part : Partition p.rs
  cover : ∀ i, i < p.nReg ↔ ∃ x ∈ p.rs, i ∈ x.regs
  nonneg : ∀ x ∈ p.rs, Source.NonNeg p.ng x.mat
  k0 : k ≠ 0
  tr0 : ∀ x ∈ p.rs, ∀ g < p.ng, x.mat.tr g ≠ 0
  balance : ∀ x ∈ p.rs, ∀ g < p.ng, x.mat.tr g * φ g =
    x.mat.ch g * ((∑ h ∈ Finset.range p.ng, x.mat.nf h * φ h) / k) + ∑ h ∈ Finset.range p.ng, x.mat.sc g h * φ h

/-- The flux is `φ g` in every region. -/
def FlatFlux (p : Problem K) (φ : Nat → K) (flux : Nat → Nat → K) : Prop := ∀ i < p.nReg, ∀ g < p.ng, flux i g = φ g

theorem trOf_at (rs : List (XsRegion (Mat K))) (hp : Partition rs) (g : Nat) (x : XsRegion (Mat K)) (hx : x ∈ rs) (i : Nat) (hi : i ∈ x.regs) :
    trOf rs g i = x.mat.tr g := by
  unfold trOf
  rw [loop_at rs hp _ _ _ x hx i hi]
  · rw [setTo_eq, if_pos hi]
  · intro y _ a j hj; rw [setTo_eq, if_neg hj]
  · intro y _ a b j hj _; rw [setTo_eq, setTo_eq, if_pos hj, if_pos hj]

/-- The assembled source of a group in the infinite medium: collisions without self-scatter. -/
def Emits (p : Problem K) (φ : Nat → K) (g : Nat) (src : Nat → K) : Prop :=
  ∀ x ∈ p.rs, ∀ i ∈ x.regs, src i + φ g * x.mat.sc g g = x.mat.tr g * φ g

theorem assembled (p : Problem K) (k : K) (φ : Nat → K) (h : Infinite p k φ) (flux : Nat → Nat → K) (hf : FlatFlux p φ flux)
    (fs : Nat → K) (hfs : ∀ x ∈ p.rs, ∀ i ∈ x.regs, fs i = (∑ h ∈ Finset.range p.ng, x.mat.nf h * φ h) / k) (g : Nat) (hg : g < p.ng) :
    ∃ src, assemble p.ng p.nReg p.rs none fs flux g = some src ∧ Emits p φ g src := by
  obtain ⟨src, h1, h2⟩ := C28_assemble_partial p.ng p.nReg p.rs fs flux g h.part h.nonneg hg
  refine ⟨src, h1, fun x hx i hi => ?_⟩
  have hi' : i < p.nReg := (h.cover i).mpr ⟨x, hx, hi⟩
  rw [h2 x hx i hi, h.balance x hx g hg, defined, hfs x hx i hi, zero_add, add_assoc]
  congr 1
  have e : ∀ h ∈ Finset.range p.ng, (if h ≠ g then x.mat.sc g h * flux i h else 0) = x.mat.sc g h * φ h - if h = g then x.mat.sc g g * φ g else 0 := by
    intro h hh
    rw [hf i hi' h (Finset.mem_range.mp hh)]
    by_cases e : h = g
    · subst e; simp
    · simp [e]
  rw [Finset.sum_congr rfl e, Finset.sum_sub_distrib, Finset.sum_ite_eq' (Finset.range p.ng) g, if_pos (Finset.mem_range.mpr hg)]
  ring

/-- What a sweeper has to do: a sweep with the source of the infinite medium keeps the property `inv`, which makes the flux that of the infinite medium. -/
structure Keeps {σ : Type} (p : Problem K) (φ : Nat → K) (w : Sweeper K σ) (inv : σ → Prop) : Prop where
  flat : ∀ s, inv s → FlatFlux p φ (w.flux s)
  keep : ∀ g < p.ng, ∀ src s, Emits p φ g src → inv s → inv (w.sweep g src s)

theorem loop_keeps {σ : Type} (p : Problem K) (k : K) (φ : Nat → K) (h : Infinite p k φ) (w : Sweeper K σ) (inv : σ → Prop) (hw : Keeps p φ w inv)
    (fs : Nat → K) (hfs : ∀ x ∈ p.rs, ∀ i ∈ x.regs, fs i = (∑ h ∈ Finset.range p.ng, x.mat.nf h * φ h) / k) (n g : Nat) (hn : g + n ≤ p.ng) (s : σ)
    (hs : inv s) : ∃ s', groupLoop p w fs n g s = some s' ∧ inv s' := by
  induction n generalizing g s with
  | zero => exact ⟨s, rfl, hs⟩
  | succ n ih =>
    obtain ⟨src, h1, h2⟩ := assembled p k φ h (w.flux s) (hw.flat s hs) fs hfs g (by omega)
    obtain ⟨s', h3, h4⟩ := ih (g + 1) (by omega) _ (hw.keep g (by omega) src s h2 hs)
    exact ⟨s', by rw [groupLoop, h1]; exact h3, h4⟩

theorem fission_flat (p : Problem K) (k : K) (φ : Nat → K) (h : Infinite p k φ) (flux : Nat → Nat → K) (hf : FlatFlux p φ flux) :
    totalFission p.ng p.rs p.vol flux = totalFission p.ng p.rs p.vol fun _ => φ := by
  rw [totalFission_eq, totalFission_eq]
  congr 1
  refine List.map_congr_left fun x hx => ?_
  congr 1
  refine List.map_congr_left fun i hi => ?_
  rw [Finset.sum_congr rfl fun g hg => by rw [hf i ((h.cover i).mpr ⟨x, hx, hi⟩) g (Finset.mem_range.mp hg)]]

/-- C108: any number of outer iterations with such a sweeper leaves eigenvalue and flux what they are. -/
theorem C108_outer {σ : Type} (p : Problem K) (k : K) (φ : Nat → K) (h : Infinite p k φ) (hfis : totalFission p.ng p.rs p.vol (fun _ => φ) ≠ 0)
    (w : Sweeper K σ) (inv : σ → Prop) (hw : Keeps p φ w inv) (n : Nat) (s : σ) (hs : inv s) :
    ∃ s', outers p w n k s = some (k, s') ∧ inv s' ∧ FlatFlux p φ (w.flux s') := by
  induction n generalizing s with
  | zero => exact ⟨s, rfl, hs, hw.flat s hs⟩
  | succ n ih =>
    have hf := hw.flat s hs
    obtain ⟨s', h1, h2⟩ := loop_keeps p k φ h w inv hw (calcFissionSource p.ng p.rs k (w.flux s)) (fun x hx i hi => by
      rw [C47_fission_source p.ng p.rs h.part k (w.flux s) x hx i hi]
      congr 1
      exact Finset.sum_congr rfl fun g hg => by rw [hf i ((h.cover i).mpr ⟨x, hx, hi⟩) g (Finset.mem_range.mp hg)]) p.ng 0 (by omega) s hs
    have h3 : outer p w k s = some (k, s') := by
      rw [outer, h1]
      simp only [Option.map_some]
      rw [fission_flat p k φ h _ hf, fission_flat p k φ h _ (hw.flat s' h2), mul_div_assoc, div_self hfis, mul_one]
    obtain ⟨t, h4, h5⟩ := ih s' h2
    exact ⟨t, by rw [outers, h3]; exact h4, h5⟩

/-! ### MoC -/

/-- Boundary values are `c` in the first `n a` slots of the angles `a < nAng`. -/
def FlatOn (nAng : Nat) (n : Nat → Nat) (c : K) (b : Nat → Nat → K) : Prop := ∀ a < nAng, ∀ j < n a, b a j = c

/-- The boundary update takes its values from the incoming values and, for one angle, from the outgoing values of that angle: no vacuum. -/
structure Reflects (nAng : Nat) (n : Nat → Nat) (u : Moc.BcUpdate K) : Prop where
  one : ∀ c, ∀ a < nAng, ∀ b o, FlatOn nAng n c b → (∀ j < n a, o a j = c) → FlatOn nAng n c (u.one a b o)
  all : ∀ c b o, FlatOn nAng n c b → FlatOn nAng n c o → FlatOn nAng n c (u.all b o)

/-- The rays of a plane: every angle of the boundary condition is swept, the ends of the rays of an angle fill its slots (C32), regions exist. -/
structure PlaneOk (nReg nAng : Nat) (n : Nat → Nat) (p : Moc.PlaneWork K) : Prop where
  angle : ∀ w ∈ p.angles, Moc.AngleOk nReg p.first (n w.iang1) w ∧ w.iang1 < nAng ∧ w.iang2 < nAng ∧ n w.iang2 = n w.iang1
  cover : ∀ a < nAng, ∃ w ∈ p.angles, a = w.iang1 ∨ a = w.iang2

theorem rays_on (e : Moc.Seg K → K) (q : Nat → K) (wt c : K) (first : Nat) (l : List (Moc.Ray K))
    (hq : ∀ r ∈ l, ∀ s ∈ r.segs, q (s.reg + first) = c) (in1 in2 : Nat → K) (h1 : ∀ r ∈ l, in1 r.bc0 = c) (h2 : ∀ r ∈ l, in2 r.bc1 = c)
    (a : Moc.Acc K) :
    let r := l.foldl (Moc.sweepRay e q wt first in1 in2) a
    r.tflux = a.tflux ∧ (∀ j, (a.out1 j = c ∨ ∃ y ∈ l, y.bc1 = j) → r.out1 j = c) ∧ (∀ j, (a.out2 j = c ∨ ∃ y ∈ l, y.bc0 = j) → r.out2 j = c) := by
  induction l generalizing a with
  | nil =>
    refine ⟨rfl, ?_, ?_⟩
    · rintro j (h | ⟨y, hy, -⟩)
      · exact h
      · simp at hy
    · rintro j (h | ⟨y, hy, -⟩)
      · exact h
      · simp at hy
  | cons y l ih =>
    rw [List.foldl_cons]
    have hy := hq y (by simp)
    have e1 : Moc.sweepRay e q wt first in1 in2 a y = ⟨a.tflux, Moc.upd a.out1 y.bc1 c, Moc.upd a.out2 y.bc0 c⟩ := by
      simp only [Moc.sweepRay]
      rw [h1 y (by simp), h2 y (by simp), Moc.walk_flat e q wt c first y.segs hy, Moc.walk_flat e q wt c first y.segs.reverse (by simpa using hy)]
    rw [e1]
    obtain ⟨i1, i2, i3⟩ := ih (fun r hr => hq r (by simp [hr])) (fun r hr => h1 r (by simp [hr])) (fun r hr => h2 r (by simp [hr]))
      ⟨a.tflux, Moc.upd a.out1 y.bc1 c, Moc.upd a.out2 y.bc0 c⟩
    refine ⟨i1, fun j hj => i2 j ?_, fun j hj => i3 j ?_⟩
    · by_cases e : j = y.bc1
      · left; simp [Moc.upd, e]
      · rcases hj with h | ⟨z, hz, he⟩
        · left; simpa [Moc.upd, e] using h
        · rcases List.mem_cons.mp hz with rfl | hz
          · exact absurd he.symm e
          · exact Or.inr ⟨z, hz, he⟩
    · by_cases e : j = y.bc0
      · left; simp [Moc.upd, e]
      · rcases hj with h | ⟨z, hz, he⟩
        · left; simpa [Moc.upd, e] using h
        · rcases List.mem_cons.mp hz with rfl | hz
          · exact absurd he.symm e
          · exact Or.inr ⟨z, hz, he⟩

theorem angles_on (expo : K → K) (xstr q : Nat → K) (gs : Bool) (nReg nAng : Nat) (n : Nat → Nat) (u : Moc.BcUpdate K) (hu : Reflects nAng n u)
    (c : K) (hq : ∀ i < nReg, q i = c) (first : Nat) (ws : List (Moc.AngleWork K))
    (hw : ∀ w ∈ ws, Moc.AngleOk nReg first (n w.iang1) w ∧ w.iang1 < nAng ∧ w.iang2 < nAng ∧ n w.iang2 = n w.iang1) (s : Moc.St K)
    (hb : FlatOn nAng n c s.bin) :
    let s' := ws.foldl (Moc.sweepAngle expo xstr q gs u first) s
    s'.tflux = s.tflux ∧ FlatOn nAng n c s'.bin ∧
      ∀ a, ((∀ j < n a, s.bout a j = c) ∨ ∃ w ∈ ws, a = w.iang1 ∨ a = w.iang2) → ∀ j < n a, s'.bout a j = c := by
  induction ws generalizing s with
  | nil =>
    refine ⟨rfl, hb, ?_⟩
    rintro a (h | ⟨w, hw, -⟩)
    · exact h
    · simp at hw
  | cons w ws ih =>
    rw [List.foldl_cons]
    obtain ⟨ok, l1, l2, ln⟩ := hw w (by simp)
    have m0 : ∀ r ∈ w.rays, r.bc0 < n w.iang1 := fun r hr => by
      have := (ok.ends0.mem_iff (a := r.bc0)).mp (List.mem_map.mpr ⟨r, hr, rfl⟩)
      simpa using this
    have m1 : ∀ r ∈ w.rays, r.bc1 < n w.iang1 := fun r hr => by
      have := (ok.ends1.mem_iff (a := r.bc1)).mp (List.mem_map.mpr ⟨r, hr, rfl⟩)
      simpa using this
    obtain ⟨r1, r2, r3⟩ := rays_on (Moc.eTau expo xstr w.rst first) q w.wt c first w.rays (fun r hr s hs => hq _ (ok.regs r hr s hs))
      (s.bin w.iang1) (s.bin w.iang2) (fun r hr => hb _ l1 _ (m0 r hr)) (fun r hr => hb _ l2 _ (by rw [ln]; exact m1 r hr))
      ⟨s.tflux, s.bout w.iang1, s.bout w.iang2⟩
    have o1 : ∀ j < n w.iang1, (Moc.sweepAngle expo xstr q gs u first s w).bout w.iang1 j = c := by
      intro j hj
      have := (ok.ends1.mem_iff (a := j)).mpr (by simpa using hj)
      obtain ⟨r, hr, he⟩ := List.mem_map.mp this
      have hne : ¬ w.iang1 = w.iang2 := ok.ne
      simp only [Moc.sweepAngle, Moc.upd, if_neg hne, if_true]
      exact r2 j (Or.inr ⟨r, hr, he⟩)
    have o2 : ∀ j < n w.iang2, (Moc.sweepAngle expo xstr q gs u first s w).bout w.iang2 j = c := by
      intro j hj
      have := (ok.ends0.mem_iff (a := j)).mpr (by rw [ln] at hj; simpa using hj)
      obtain ⟨r, hr, he⟩ := List.mem_map.mp this
      simp only [Moc.sweepAngle, Moc.upd, if_true]
      exact r3 j (Or.inr ⟨r, hr, he⟩)
    have hbi : FlatOn nAng n c (Moc.sweepAngle expo xstr q gs u first s w).bin := by
      cases gs
      · simpa [Moc.sweepAngle] using hb
      · have : (Moc.sweepAngle expo xstr q true u first s w).bin = u.one w.iang2 (u.one w.iang1 s.bin
            (Moc.sweepAngle expo xstr q true u first s w).bout) (Moc.sweepAngle expo xstr q true u first s w).bout := rfl
        rw [this]
        exact hu.one c _ l2 _ _ (hu.one c _ l1 _ _ hb o1) o2
    obtain ⟨i1, i2, i3⟩ := ih (fun x hx => hw x (by simp [hx])) _ hbi
    refine ⟨i1.trans r1, i2, fun a ha => i3 a ?_⟩
    by_cases e1 : a = w.iang1
    · subst e1; exact Or.inl o1
    by_cases e2 : a = w.iang2
    · subst e2; exact Or.inl o2
    rcases ha with h | ⟨x, hx, he⟩
    · left
      intro j hj
      simp only [Moc.sweepAngle, Moc.upd, if_neg e1, if_neg e2]
      exact h j hj
    · rcases List.mem_cons.mp hx with rfl | hx
      · exact absurd he (by simp [e1, e2])
      · exact Or.inr ⟨x, hx, he⟩

theorem sweep_on (expo : K → K) (fpi : K) (xstr vol q : Nat → K) (gs : Bool) (nReg nAng : Nat) (n : Nat → Nat) (u : Moc.BcUpdate K) (hu : Reflects nAng n u)
    (c : K) (hq : ∀ i < nReg, q i = c) (ps : List (Moc.PlaneWork K × (Nat → Nat → K) × (Nat → Nat → K)))
    (hp : ∀ p ∈ ps, PlaneOk nReg nAng n p.1 ∧ FlatOn nAng n c p.2.1) :
    (∀ i < nReg, (Moc.sweep1g expo fpi xstr vol q gs u ps).1 i = c * fpi) ∧
    (Moc.sweep1g expo fpi xstr vol q gs u ps).2.length = ps.length ∧
    ∀ b ∈ (Moc.sweep1g expo fpi xstr vol q gs u ps).2, FlatOn nAng n c b.1 := by
  have key : ∀ (ps : List (Moc.PlaneWork K × (Nat → Nat → K) × (Nat → Nat → K))) (t : Nat → K),
      (∀ p ∈ ps, PlaneOk nReg nAng n p.1 ∧ FlatOn nAng n c p.2.1) → (Moc.sweepPlanes expo xstr q gs u ps t).1 = t ∧
      (Moc.sweepPlanes expo xstr q gs u ps t).2.length = ps.length ∧
      ∀ b ∈ (Moc.sweepPlanes expo xstr q gs u ps t).2, FlatOn nAng n c b.1 := by
    intro ps
    induction ps with
    | nil => intro t _; simp [Moc.sweepPlanes]
    | cons p ps ih =>
      intro t h
      obtain ⟨p, bin, bout⟩ := p
      obtain ⟨ok, hb⟩ := h (p, bin, bout) (by simp)
      obtain ⟨a1, a2, a3⟩ := angles_on expo xstr q gs nReg nAng n u hu c hq p.first p.angles ok.angle ⟨t, bin, bout⟩ hb
      have e1 : (Moc.sweepPlane expo xstr q gs u p ⟨t, bin, bout⟩).tflux = t := a1
      obtain ⟨i1, i2, i3⟩ := ih t (fun x hx => h x (by simp [hx]))
      simp only [Moc.sweepPlanes, e1]
      refine ⟨i1, by simp [i2], ?_⟩
      intro b hbm
      rcases List.mem_cons.mp hbm with rfl | hbm
      · simp only [Moc.sweepPlane]
        cases gs
        · exact hu.all c _ _ a2 fun a ha j hj => a3 a (Or.inr (ok.cover a ha)) j hj
        · exact a2
      · exact i3 b hbm
  obtain ⟨k1, k2, k3⟩ := key ps (fun _ => 0) hp
  refine ⟨fun i hi => ?_, k2, k3⟩
  simp only [Moc.sweep1g, Moc.finish, k1, zero_div, zero_add, hq i hi]

/-- A MoC sweeper whose rays and boundary conditions are as they should be. -/
structure MocOk (p : Problem K) (m : MocSetup K) (nAng : Nat) (n : Nat → Nat) : Prop where
  fpi : m.fpi ≠ 0
  planes : ∀ w ∈ m.planes, PlaneOk p.nReg nAng n w
  reflects : Reflects nAng n m.u

/-- Flux and incoming boundary values of the infinite medium; outgoing values may be anything. -/
structure MocFlat (p : Problem K) (m : MocSetup K) (nAng : Nat) (n : Nat → Nat) (φ : Nat → K) (s : MocState K) : Prop where
  flux : FlatFlux p φ s.flux
  nin : ∀ g < p.ng, (s.bin g).length = m.planes.length
  nout : s.bout.length = m.planes.length
  bin : ∀ g < p.ng, ∀ b ∈ s.bin g, FlatOn nAng n (φ g / m.fpi) b

theorem mocInner_keeps (p : Problem K) (k : K) (φ : Nat → K) (h : Infinite p k φ) (m : MocSetup K) (nAng : Nat) (n : Nat → Nat) (hm : MocOk p m nAng n)
    (g : Nat) (hg : g < p.ng) (src : Nat → K) (hsrc : Emits p φ g src) (s : MocState K) (hs : MocFlat p m nAng n φ s) :
    MocFlat p m nAng n φ (mocInner p m g src s) := by
  have hq : ∀ i < p.nReg, selfScatter m.fpi p.ng p.rs s.flux g src true s.q i = φ g / m.fpi := by
    intro i hi
    obtain ⟨x, hx, hxi⟩ := (h.cover i).mp hi
    rw [selfScatter_at m.fpi p.ng p.rs h.part s.flux g hg src true s.q x hx i hxi, hs.flux i hi g hg, hsrc x hx i hxi, if_pos rfl]
    have := h.tr0 x hx g hg
    have := hm.fpi
    field_simp
  obtain ⟨r1, r2, r3⟩ := sweep_on m.expo m.fpi (trOf p.rs g) p.vol _ m.gs p.nReg nAng n m.u hm.reflects (φ g / m.fpi) hq
    (m.planes.zip ((s.bin g).zip s.bout)) (fun w hw => by
      obtain ⟨h1, h2⟩ := List.of_mem_zip (a := w.1) (b := w.2) hw
      obtain ⟨h3, h4⟩ := List.of_mem_zip (a := w.2.1) (b := w.2.2) h2
      exact ⟨hm.planes _ h1, hs.bin g hg _ h3⟩)
  have hlen : (m.planes.zip ((s.bin g).zip s.bout)).length = m.planes.length := by
    rw [List.length_zip, List.length_zip, hs.nin g hg, hs.nout]; simp
  refine ⟨?_, ?_, ?_, ?_⟩
  · intro i hi g' hg'
    simp only [mocInner]
    split
    · next e => rw [e, r1 i hi, div_mul_cancel₀ _ hm.fpi]
    · exact hs.flux i hi g' hg'
  · intro g' hg'
    simp only [mocInner]
    split
    · rw [List.length_map, r2, hlen]
    · exact hs.nin g' hg'
  · simp only [mocInner, List.length_map]
    rw [r2, hlen]
  · intro g' hg' b hb
    simp only [mocInner] at hb
    split at hb
    · next e =>
      obtain ⟨y, hy, rfl⟩ := List.mem_map.mp hb
      rw [e]
      exact r3 y hy
    · exact hs.bin g' hg' b hb

/-- C108, MoC: with the flux and the incoming boundary values of the infinite medium, any number of outer iterations, each with any number of inner
iterations, on any rays and planes, Gauss-Seidel or Jacobi, leaves eigenvalue, flux and incoming boundary values what they are.  The outgoing boundary
values, which nothing initialises, do not matter. -/
theorem C108_moc (p : Problem K) (k : K) (φ : Nat → K) (h : Infinite p k φ) (hfis : totalFission p.ng p.rs p.vol (fun _ => φ) ≠ 0)
    (m : MocSetup K) (nAng : Nat) (n : Nat → Nat) (hm : MocOk p m nAng n) (N : Nat) (s : MocState K) (hs : MocFlat p m nAng n φ s) :
    ∃ s', outers p (mocSweeper p m) N k s = some (k, s') ∧ MocFlat p m nAng n φ s' := by
  obtain ⟨s', h1, h2, -⟩ := C108_outer p k φ h hfis (mocSweeper p m) (MocFlat p m nAng n φ) ⟨fun s hs => hs.flux, fun g hg src s hsrc hs => by
    show MocFlat p m nAng n φ (mocSweep p m g src s)
    unfold mocSweep
    induction m.nInner with
    | zero => exact hs
    | succ N ih =>
      rw [List.range_succ, List.foldl_append]
      exact mocInner_keeps p k φ h m nAng n hm g hg src hsrc _ ih⟩ N s hs
  exact ⟨s', h1, h2⟩

/-! ### Sn -/

/-- Values are `c` in the first `n k` slots of the faces `k` of the ordinates `a < nAng`. -/
def FlatFaces {κ : Type} (nAng : Nat) (n : κ → Nat) (c : K) (b : Nat → κ → Nat → K) : Prop := ∀ a < nAng, ∀ k, ∀ j < n k, b a k j = c

/-- As `Reflects`. -/
structure SnReflects {κ : Type} (nAng : Nat) (n : κ → Nat) (u : SnUpdate κ K) : Prop where
  one : ∀ c, ∀ a < nAng, ∀ b o, FlatFaces nAng n c b → (∀ k, ∀ j < n k, o a k j = c) → FlatFaces nAng n c (u.one a b o)
  all : ∀ c b o, FlatFaces nAng n c b → FlatFaces nAng n c o → FlatFaces nAng n c (u.all b o)

/-- The cell loops of an ordinate reproduce a uniform angular flux that is not negative with its collisions as source, and add it, times `wgt`, to the scalar flux. -/
def OrdFlat {κ : Type} (nReg : Nat) (n : κ → Nat) (wgt : K) (o : SnOrd κ K) : Prop :=
  ∀ (q xs : Nat → K) (c : K), 0 ≤ c → (∀ i < nReg, 0 < xs i ∧ q i = xs i * c) → ∀ s : Sn.State κ K, (∀ k, ∀ j < n k, s.flux k j = c) →
    (∀ i < nReg, (o.loops q xs s).tflux i = s.tflux i + c * wgt) ∧ ∀ k, ∀ j < n k, (o.loops q xs s).flux k j = c

/-- An Sn sweeper: all ordinates of the boundary condition are swept, with schemes that reproduce a uniform flux and with weights that add up. -/
structure SnOk {κ : Type} (p : Problem K) (m : SnSetup κ K) (nAng : Nat) (n : κ → Nat) (wgt : SnOrd κ K → K) : Prop where
  fpi : 0 < m.fpi
  reflects : SnReflects nAng n m.u
  flat : ∀ o ∈ m.ords, OrdFlat p.nReg n (wgt o) o ∧ o.iang < nAng
  cover : ∀ a < nAng, ∃ o ∈ m.ords, o.iang = a
  total : (m.ords.map wgt).sum = m.fpi

structure SnFlat {κ : Type} (p : Problem K) (m : SnSetup κ K) (nAng : Nat) (n : κ → Nat) (φ : Nat → K) (s : SnState κ K) : Prop where
  flux : FlatFlux p φ s.flux
  bin : ∀ g < p.ng, FlatFaces nAng n (φ g / m.fpi) (s.bin g)

theorem ords_on {κ : Type} (nReg nAng : Nat) (n : κ → Nat) (m : SnSetup κ K) (hu : SnReflects nAng n m.u) (wgt : SnOrd κ K → K) (q xs : Nat → K) (c : K) (hc : 0 ≤ c)
    (hq : ∀ i < nReg, 0 < xs i ∧ q i = xs i * c) (l : List (SnOrd κ K)) (hl : ∀ o ∈ l, OrdFlat nReg n (wgt o) o ∧ o.iang < nAng) (s : SnPass κ K)
    (hb : FlatFaces nAng n c s.bin) :
    let s' := l.foldl (snOrdinate m q xs) s
    (∀ i < nReg, s'.tflux i = s.tflux i + c * (l.map wgt).sum) ∧ FlatFaces nAng n c s'.bin ∧
      ∀ a, ((∀ k, ∀ j < n k, s.bout a k j = c) ∨ ∃ o ∈ l, o.iang = a) → ∀ k, ∀ j < n k, s'.bout a k j = c := by
  induction l generalizing s with
  | nil =>
    refine ⟨by simp, hb, ?_⟩
    rintro a (h | ⟨w, hw, -⟩)
    · exact h
    · simp at hw
  | cons o l ih =>
    rw [List.foldl_cons]
    obtain ⟨ho, ha⟩ := hl o (by simp)
    obtain ⟨f1, f2⟩ := ho q xs c hc hq ⟨s.bin o.iang, s.tflux, fun _ => (0, fun _ => 0)⟩ (hb _ ha)
    have o1 : ∀ k, ∀ j < n k, (snOrdinate m q xs s o).bout o.iang k j = c := by
      intro k j hj
      simp only [snOrdinate, if_true]
      exact f2 k j hj
    have hbi : FlatFaces nAng n c (snOrdinate m q xs s o).bin := by
      cases hgs : m.gs
      · simpa [snOrdinate, hgs] using hb
      · have : (snOrdinate m q xs s o).bin = m.u.one o.iang s.bin (snOrdinate m q xs s o).bout := by simp [snOrdinate, hgs]
        rw [this]
        exact hu.one c _ ha _ _ hb o1
    obtain ⟨i1, i2, i3⟩ := ih (fun x hx => hl x (by simp [hx])) _ hbi
    refine ⟨fun i hi => ?_, i2, fun a hh => i3 a ?_⟩
    · rw [i1 i hi, List.map_cons, List.sum_cons]
      have : (snOrdinate m q xs s o).tflux i = s.tflux i + c * wgt o := f1 i hi
      rw [this]
      ring
    · by_cases e : a = o.iang
      · subst e; exact Or.inl o1
      rcases hh with h | ⟨x, hx, he⟩
      · left
        intro k j hj
        simp only [snOrdinate, if_neg e]
        exact h k j hj
      · rcases List.mem_cons.mp hx with rfl | hx
        · exact absurd he.symm e
        · exact Or.inr ⟨x, hx, he⟩

theorem snInner_keeps {κ : Type} (p : Problem K) (k : K) (φ : Nat → K) (h : Infinite p k φ) (htr : ∀ x ∈ p.rs, ∀ g < p.ng, 0 < x.mat.tr g)
    (m : SnSetup κ K) (nAng : Nat) (n : κ → Nat) (wgt : SnOrd κ K → K) (hm : SnOk p m nAng n wgt) (g : Nat) (hg : g < p.ng) (src : Nat → K)
    (hφ : 0 ≤ φ g) (hsrc : Emits p φ g src) (s : SnState κ K) (hs : SnFlat p m nAng n φ s) : SnFlat p m nAng n φ (snInner p m g src s) := by
  have hq : ∀ i < p.nReg, 0 < trOf p.rs g i ∧ selfScatter m.fpi p.ng p.rs s.flux g src false s.q i = trOf p.rs g i * (φ g / m.fpi) := by
    intro i hi
    obtain ⟨x, hx, hxi⟩ := (h.cover i).mp hi
    rw [selfScatter_at m.fpi p.ng p.rs h.part s.flux g hg src false s.q x hx i hxi, hs.flux i hi g hg, hsrc x hx i hxi, trOf_at p.rs h.part g x hx i hxi]
    refine ⟨htr x hx g hg, ?_⟩
    simp only [Bool.false_eq_true, if_false]
    ring
  obtain ⟨r1, r2, r3⟩ := ords_on p.nReg nAng n m hm.reflects wgt _ (trOf p.rs g) (φ g / m.fpi) (div_nonneg hφ hm.fpi.le) hq m.ords hm.flat
    ⟨fun _ => 0, s.bin g, s.bout⟩ (hs.bin g hg)
  refine ⟨?_, ?_⟩
  · intro i hi g' hg'
    simp only [snInner]
    split
    · next e =>
      rw [e]
      have := r1 i hi
      rw [hm.total, zero_add, div_mul_cancel₀ _ hm.fpi.ne'] at this
      exact this
    · exact hs.flux i hi g' hg'
  · intro g' hg'
    simp only [snInner]
    split
    · next e =>
      rw [e]
      simp only [snSweep1g]
      cases hgs : m.gs
      · simp only [Bool.false_eq_true, if_false]
        exact hm.reflects.all _ _ _ r2 fun a ha => r3 a (Or.inr (hm.cover a ha))
      · exact r2
    · exact hs.bin g' hg'

/-- C108, Sn: the same for the Sn sweeper with any schemes that reproduce a uniform flux, for a flux that is not negative. -/
theorem C108_sn {κ : Type} (p : Problem K) (k : K) (φ : Nat → K) (h : Infinite p k φ) (hfis : totalFission p.ng p.rs p.vol (fun _ => φ) ≠ 0)
    (htr : ∀ x ∈ p.rs, ∀ g < p.ng, 0 < x.mat.tr g) (hφ : ∀ g < p.ng, 0 ≤ φ g)
    (m : SnSetup κ K) (nAng : Nat) (n : κ → Nat) (wgt : SnOrd κ K → K) (hm : SnOk p m nAng n wgt) (N : Nat) (s : SnState κ K)
    (hs : SnFlat p m nAng n φ s) :
    ∃ s', outers p (snSweeper p m) N k s = some (k, s') ∧ SnFlat p m nAng n φ s' := by
  obtain ⟨s', h1, h2, -⟩ := C108_outer p k φ h hfis (snSweeper p m) (SnFlat p m nAng n φ) ⟨fun s hs => hs.flux, fun g hg src s hsrc hs => by
    show SnFlat p m nAng n φ (snSweep p m g src s)
    have key : ∀ N, SnFlat p m nAng n φ ((List.range N).foldl (fun s _ => snInner p m g src s) s) := by
      intro N
      induction N with
      | zero => exact hs
      | succ N ih =>
        rw [List.range_succ, List.foldl_append]
        exact snInner_keeps p k φ h htr m nAng n wgt hm g hg src (hφ g hg) hsrc _ ih
    have hk := key m.nInner
    refine ⟨fun i hi g' hg' => ?_, hk.bin⟩
    simp only [snSweep]
    rw [hk.flux i hi g' hg', if_neg]
    rintro ⟨rfl, hlt⟩
    exact absurd (hφ g' hg') (not_le.mpr hlt)⟩ N s hs
  exact ⟨s', h1, h2⟩

/-! ### The schemes -/

/-- A scheme reproduces a uniform flux that is not negative. -/
def Flat3 (sch : Scheme3 K) : Prop :=
  ∀ tx ty tz c xs : K, 0 < tx → 0 < ty → 0 < tz → 0 ≤ c → 0 < xs → sch tx ty tz c c c (xs * c) xs = ⟨c, c, c, c⟩

def Flat2 (sch : Scheme2 K) : Prop := ∀ tx ty c xs : K, 0 < tx → 0 < ty → 0 ≤ c → 0 < xs → sch tx ty c c (xs * c) xs = ⟨c, c, c⟩

/-- Distance from the side where an ordinate comes in. -/
def depth (n : Nat) (neg : Bool) (i : Nat) : Nat := if neg then n - 1 - i else i

theorem depth_up (n : Nat) (neg : Bool) (i j : Nat) (hi : i < n) (h : Sn.upwind n neg i = some j) : j < n ∧ depth n neg j + 1 = depth n neg i := by
  unfold Sn.upwind at h
  unfold depth
  cases neg
  · simp only [Bool.false_eq_true, if_false] at h ⊢
    split at h
    · simp at h
    · simp only [Option.some.injEq] at h; omega
  · simp only [if_true] at h ⊢
    split at h
    · simp only [Option.some.injEq] at h; omega
    · simp at h

theorem slot_lt {a b x y : Nat} (hx : x < a) (hy : y < b) : a * y + x < a * b := by
  calc a * y + x < a * y + a := by omega
    _ = a * (y + 1) := by ring
    _ ≤ a * b := Nat.mul_le_mul_left a hy

theorem last_lt (n : Nat) (b : Bool) (hn : 0 < n) : Sn.last n b < n := by
  unfold Sn.last
  cases b <;> simp <;> omega

/-- C108: an ordinate in three dimensions with a scheme of that kind in every cell, on any mesh. -/
theorem C108_ord3 (d : Mesh.Dims) (hnx : 0 < d.nx) (hny : 0 < d.ny) (hnz : 0 < d.nz) (dx dy dz : Nat → K) (hdx : ∀ i, 0 < dx i) (hdy : ∀ i, 0 < dy i) (hdz : ∀ i, 0 < dz i) (iang : Nat)
    (ox oy oz wgt : K) (hox : ox ≠ 0) (hoy : oy ≠ 0) (hoz : oz ≠ 0) (sch : Nat → Scheme3 K) (hsch : ∀ i, Flat3 (sch i)) :
    OrdFlat (d.nx * d.ny * d.nz) (fun | .x => d.ny * d.nz | .y => d.nx * d.nz | .z => d.nx * d.ny) wgt (ord3 d dx dy dz iang ox oy oz wgt sch) := by
  intro q xs c hc hq s hs
  have cellLt : ∀ ix iy iz, ix < d.nx → iy < d.ny → iz < d.nz → Mesh.coarseCell d ⟨ix, iy, iz⟩ < d.nx * d.ny * d.nz := by
    intro ix iy iz hx hy hz
    have h1 := slot_lt (slot_lt hx hy) hz
    have h2 : Mesh.coarseCell d ⟨ix, iy, iz⟩ = d.nx * d.ny * iz + (d.nx * iy + ix) := by
      unfold Mesh.coarseCell
      ring
    omega
  set ev : Nat → Nat → Nat → (Sn.Ax3 → K) → K × (Sn.Ax3 → K) := fun ix iy iz f =>
    let i := Mesh.coarseCell d ⟨ix, iy, iz⟩
    let o := sch i (|ox| / dx ix) (|oy| / dy iy) (|oz| / dz iz) (f .x) (f .y) (f .z) (q i) (xs i)
    (o.psi, fun | .x => o.x | .y => o.y | .z => o.z) with hev
  have hl : (ord3 d dx dy dz iang ox oy oz wgt sch).loops q xs s = Sn.sweep3 d (ox < 0) (oy < 0) (oz < 0) wgt ev s := rfl
  have cell : ∀ ix iy iz, ix < d.nx → iy < d.ny → iz < d.nz → ∀ f : Sn.Ax3 → K, (∀ k, f k = c) → ev ix iy iz f = (c, fun _ => c) := by
    intro ix iy iz hx hy hz f hf
    obtain ⟨h1, h2⟩ := hq _ (cellLt ix iy iz hx hy hz)
    simp only [hev, hf, h2]
    rw [hsch _ _ _ _ c _ (div_pos (abs_pos.mpr hox) (hdx ix)) (div_pos (abs_pos.mpr hoy) (hdy iy)) (div_pos (abs_pos.mpr hoz) (hdz iz)) hc h1]
    refine Prod.ext rfl ?_
    funext k
    cases k <;> rfl
  set t := Sn.sweep3 d (ox < 0) (oy < 0) (oz < 0) wgt ev s with ht
  have out : ∀ N ix iy iz, ix < d.nx → iy < d.ny → iz < d.nz → depth d.nx (ox < 0) ix + depth d.ny (oy < 0) iy + depth d.nz (oz < 0) iz = N →
      t.out (Mesh.coarseCell d ⟨ix, iy, iz⟩) = (c, fun _ => c) := by
    intro N
    induction N using Nat.strong_induction_on with
    | _ N ih =>
      intro ix iy iz hx hy hz hN
      rw [(Sn.C30_upwind d (ox < 0) (oy < 0) (oz < 0) wgt ev s ix iy iz hx hy hz).1]
      apply cell ix iy iz hx hy hz
      intro k
      have b1 : d.ny * iz + iy < d.ny * d.nz := slot_lt hy hz
      have b2 : d.nx * iz + ix < d.nx * d.nz := slot_lt hx hz
      have b3 : d.nx * iy + ix < d.nx * d.ny := slot_lt hx hy
      cases k
      · simp only [Sn.incoming3]
        split
        · exact hs .x _ b1
        · next j hj =>
          obtain ⟨l1, l2⟩ := depth_up _ _ _ _ hx hj
          rw [← ht, ih _ (by omega) j iy iz l1 hy hz rfl]
      · simp only [Sn.incoming3]
        split
        · exact hs .y _ b2
        · next j hj =>
          obtain ⟨l1, l2⟩ := depth_up _ _ _ _ hy hj
          rw [← ht, ih _ (by omega) ix j iz hx l1 hz rfl]
      · simp only [Sn.incoming3]
        split
        · exact hs .z _ b3
        · next j hj =>
          obtain ⟨l1, l2⟩ := depth_up _ _ _ _ hz hj
          rw [← ht, ih _ (by omega) ix iy j hx hy l1 rfl]
  rw [hl]
  constructor
  · intro i hi
    have e : Mesh.coarseCell d ⟨i % d.nx, i / d.nx % d.ny, i / (d.nx * d.ny)⟩ = i := by
      unfold Mesh.coarseCell
      have h1 := Nat.div_add_mod i d.nx
      have h2 := Nat.div_add_mod (i / d.nx) d.ny
      rw [Nat.div_div_eq_div_mul] at h2
      calc i / (d.nx * d.ny) * d.nx * d.ny + i / d.nx % d.ny * d.nx + i % d.nx
          = d.nx * (d.ny * (i / (d.nx * d.ny)) + i / d.nx % d.ny) + i % d.nx := by ring
        _ = i := by rw [h2, h1]
    have hx : i % d.nx < d.nx := Nat.mod_lt _ hnx
    have hy : i / d.nx % d.ny < d.ny := Nat.mod_lt _ hny
    have hz : i / (d.nx * d.ny) < d.nz := Nat.div_lt_of_lt_mul hi
    have h1 := (Sn.C30_upwind d (ox < 0) (oy < 0) (oz < 0) wgt ev s _ _ _ hx hy hz).2
    have h2 := out _ _ _ _ hx hy hz rfl
    rw [e] at h1 h2
    rw [h1, h2]
  · intro k j hj
    cases k
    · have hy : j % d.ny < d.ny := Nat.mod_lt _ hny
      have hz : j / d.ny < d.nz := Nat.div_lt_of_lt_mul hj
      have h1 := (Sn.C30_outgoing d (ox < 0) (oy < 0) (oz < 0) wgt ev s 0 _ _ hnx hy hz).1
      rw [Nat.div_add_mod, out _ _ _ _ (last_lt _ _ hnx) hy hz rfl] at h1
      exact h1
    · have hx : j % d.nx < d.nx := Nat.mod_lt _ hnx
      have hz : j / d.nx < d.nz := Nat.div_lt_of_lt_mul hj
      have h1 := (Sn.C30_outgoing d (ox < 0) (oy < 0) (oz < 0) wgt ev s _ 0 _ hx hny hz).2.1
      rw [Nat.div_add_mod, out _ _ _ _ hx (last_lt _ _ hny) hz rfl] at h1
      exact h1
    · have hx : j % d.nx < d.nx := Nat.mod_lt _ hnx
      have hy : j / d.nx < d.ny := Nat.div_lt_of_lt_mul hj
      have h1 := (Sn.C30_outgoing d (ox < 0) (oy < 0) (oz < 0) wgt ev s _ _ 0 hx hy hnz).2.2
      rw [Nat.div_add_mod, out _ _ _ _ hx hy (last_lt _ _ hnz) rfl] at h1
      exact h1

/-- C108: the same in two dimensions. -/
theorem C108_ord2 (d : Mesh.Dims) (hnx : 0 < d.nx) (hny : 0 < d.ny) (dx dy : Nat → K) (hdx : ∀ i, 0 < dx i) (hdy : ∀ i, 0 < dy i) (iang : Nat)
    (ox oy wgt : K) (hox : ox ≠ 0) (hoy : oy ≠ 0) (sch : Nat → Scheme2 K) (hsch : ∀ i, Flat2 (sch i)) :
    OrdFlat (d.nx * d.ny) (fun | .x => d.ny | .y => d.nx) wgt (ord2 d dx dy iang ox oy wgt sch) := by
  intro q xs c hc hq s hs
  have cellLt : ∀ ix iy, ix < d.nx → iy < d.ny → Mesh.coarseCell d ⟨ix, iy, 0⟩ < d.nx * d.ny := by
    intro ix iy hx hy
    have h1 := slot_lt hx hy
    have h2 : Mesh.coarseCell d ⟨ix, iy, 0⟩ = d.nx * iy + ix := by
      unfold Mesh.coarseCell
      ring
    omega
  set ev : Nat → Nat → (Sn.Ax2 → K) → K × (Sn.Ax2 → K) := fun ix iy f =>
    let i := Mesh.coarseCell d ⟨ix, iy, 0⟩
    let o := sch i (|ox| / dx ix) (|oy| / dy iy) (f .x) (f .y) (q i) (xs i)
    (o.psi, fun | .x => o.x | .y => o.y) with hev
  have hl : (ord2 d dx dy iang ox oy wgt sch).loops q xs s = Sn.sweep2 d (ox < 0) (oy < 0) wgt ev s := rfl
  have cell : ∀ ix iy, ix < d.nx → iy < d.ny → ∀ f : Sn.Ax2 → K, (∀ k, f k = c) → ev ix iy f = (c, fun _ => c) := by
    intro ix iy hx hy f hf
    obtain ⟨h1, h2⟩ := hq _ (cellLt ix iy hx hy)
    simp only [hev, hf, h2]
    rw [hsch _ _ _ c _ (div_pos (abs_pos.mpr hox) (hdx ix)) (div_pos (abs_pos.mpr hoy) (hdy iy)) hc h1]
    refine Prod.ext rfl ?_
    funext k
    cases k <;> rfl
  set t := Sn.sweep2 d (ox < 0) (oy < 0) wgt ev s with ht
  have out : ∀ N ix iy, ix < d.nx → iy < d.ny → depth d.nx (ox < 0) ix + depth d.ny (oy < 0) iy = N →
      t.out (Mesh.coarseCell d ⟨ix, iy, 0⟩) = (c, fun _ => c) := by
    intro N
    induction N using Nat.strong_induction_on with
    | _ N ih =>
      intro ix iy hx hy hN
      rw [(Sn.C30_upwind_2d d (ox < 0) (oy < 0) wgt ev s ix iy hx hy).1]
      apply cell ix iy hx hy
      intro k
      cases k
      · simp only [Sn.incoming2]
        split
        · exact hs .x _ hy
        · next j hj =>
          obtain ⟨l1, l2⟩ := depth_up _ _ _ _ hx hj
          rw [← ht, ih _ (by omega) j iy l1 hy rfl]
      · simp only [Sn.incoming2]
        split
        · exact hs .y _ hx
        · next j hj =>
          obtain ⟨l1, l2⟩ := depth_up _ _ _ _ hy hj
          rw [← ht, ih _ (by omega) ix j hx l1 rfl]
  rw [hl]
  constructor
  · intro i hi
    have e : Mesh.coarseCell d ⟨i % d.nx, i / d.nx, 0⟩ = i := by
      unfold Mesh.coarseCell
      have h1 := Nat.div_add_mod i d.nx
      calc 0 * d.nx * d.ny + i / d.nx * d.nx + i % d.nx = d.nx * (i / d.nx) + i % d.nx := by ring
        _ = i := h1
    have hx : i % d.nx < d.nx := Nat.mod_lt _ hnx
    have hy : i / d.nx < d.ny := Nat.div_lt_of_lt_mul hi
    have h1 := (Sn.C30_upwind_2d d (ox < 0) (oy < 0) wgt ev s _ _ hx hy).2.1
    have h2 := out _ _ _ hx hy rfl
    rw [e] at h1 h2
    rw [h1, h2]
  · intro k j hj
    cases k
    · have h1 := (Sn.C30_upwind_2d d (ox < 0) (oy < 0) wgt ev s 0 j hnx hj).2.2.1
      rw [out _ _ _ (last_lt _ _ hnx) hj rfl] at h1
      exact h1
    · have h1 := (Sn.C30_upwind_2d d (ox < 0) (oy < 0) wgt ev s j 0 hj hny).2.2.2
      rw [out _ _ _ hj (last_lt _ _ hny) rfl] at h1
      exact h1

/-- C108: diamond difference. -/
theorem C108_dd : Flat3 (K := K) Sn.evalDD := by
  intro tx ty tz c xs h1 h2 h3 hc h4
  have e : (2 * (tx * c + ty * c + tz * c) + xs * c) / (2 * (tx + ty + tz) + xs) = c := by
    rw [div_eq_iff (by positivity)]; ring
  simp only [Sn.evalDD, e, Sn.Out3.mk.injEq]
  refine ⟨trivial, ?_, ?_, ?_⟩ <;> ring

theorem C108_dd2 : Flat2 (K := K) Sn.evalDD2 := by
  intro tx ty c xs h1 h2 hc h4
  have e : (2 * (tx * c + ty * c) + xs * c) / (2 * (tx + ty) + xs) = c := by
    rw [div_eq_iff (by positivity)]; ring
  simp only [Sn.evalDD2, e, Sn.Out2.mk.injEq]
  refine ⟨trivial, ?_, ?_⟩ <;> ring

/-- C108: diamond difference with step characteristics in the axial direction. -/
theorem C108_dd_sc : Flat3 (K := ℝ) (Sn.evalDDSC Real.exp) := by
  intro tx ty tz c xs h1 h2 h3 hc h4
  obtain ⟨r0, r1⟩ := Sn.rho_bounds (xs / tz) (div_pos h4 h3)
  have hr : 0 < 1 - Sn.rho Real.exp (xs / tz) := by linarith
  simp only [Sn.evalDDSC]
  set r := Sn.rho Real.exp (xs / tz)
  have hr' := hr.ne'
  have e : (2 * (tx * c + ty * c) + tz * (r / (1 - r) + 1) * c + xs * c) / (2 * (tx + ty) + tz / (1 - r) + xs) = c := by
    rw [div_eq_iff (by positivity)]
    field_simp
    ring
  rw [e, Sn.Out3.mk.injEq]
  refine ⟨rfl, by ring, by ring, ?_⟩
  field_simp

/-- C108: the corrected diamond difference in two dimensions reproduces a uniform flux exactly for correction factors of one half. -/
theorem C108_cdd2 (gx gy : K) (hx : 0 < gx) (hy : 0 < gy) : Flat2 (Sn.evalCDD2 gx gy) ↔ gx = 1 / 2 ∧ gy = 1 / 2 := by
  constructor
  · intro h
    have h1 := h 1 1 1 1 one_pos one_pos zero_le_one one_pos
    simp only [Sn.evalCDD2, Sn.Out2.mk.injEq] at h1
    obtain ⟨e, e1, e2⟩ := h1
    rw [e] at e1 e2
    rw [div_eq_iff hx.ne'] at e1
    rw [div_eq_iff hy.ne'] at e2
    constructor <;> linarith
  · rintro ⟨rfl, rfl⟩ tx ty c xs h1 h2 hc h4
    have e : (xs * c + 2 * (tx * c + ty * c)) / (tx / (1 / 2) + ty / (1 / 2) + xs) = c := by
      rw [div_eq_iff (by positivity)]; ring
    simp only [Sn.evalCDD2, e, Sn.Out2.mk.injEq]
    refine ⟨trivial, ?_, ?_⟩ <;> ring

/-- C108: in three dimensions with diamond difference, with its flux fix-up, and with step in the axial direction. -/
theorem C108_cdd3 (gx gy : K) (hx : 0 < gx) (hy : 0 < gy) :
    (Flat3 (Sn.evalCDDDD gx gy) ↔ gx = 1 / 2 ∧ gy = 1 / 2) ∧ (Flat3 (Sn.evalCDDFF gx gy) ↔ gx = 1 / 2 ∧ gy = 1 / 2) ∧
      (Flat3 (Sn.evalCDDFW gx gy) ↔ gx = 1 / 2 ∧ gy = 1 / 2) := by
  have half : ∀ g : K, 0 < g → 1 / g - 1 = 1 → g = 1 / 2 := by
    intro g hg h
    have : 1 / g = 2 := by linarith
    rw [div_eq_iff hg.ne'] at this
    linarith
  have half' : ∀ g : K, 0 < g → (1 - g * 1) / g = 1 → g = 1 / 2 := by
    intro g hg h
    rw [div_eq_iff hg.ne'] at h
    linarith
  have e : ∀ tx ty tz c xs : K, 0 < tx → 0 < ty → 0 < tz → 0 < xs →
      (xs * c + 2 * (tx * c + ty * c + tz * c)) / (tx / (1 / 2) + ty / (1 / 2) + 2 * tz + xs) = c := by
    intro tx ty tz c xs h1 h2 h3 h4
    rw [div_eq_iff (by positivity)]; ring
  refine ⟨⟨fun h => ?_, ?_⟩, ⟨fun h => ?_, ?_⟩, ⟨fun h => ?_, ?_⟩⟩
  · have h1 := h 1 1 1 1 1 one_pos one_pos one_pos zero_le_one one_pos
    simp only [Sn.evalCDDDD, Sn.Out3.mk.injEq] at h1
    obtain ⟨e, e1, e2, -⟩ := h1
    rw [e] at e1 e2
    exact ⟨half gx hx e1, half gy hy e2⟩
  · rintro ⟨rfl, rfl⟩ tx ty tz c xs h1 h2 h3 hc h4
    simp only [Sn.evalCDDDD, e tx ty tz c xs h1 h2 h3 h4, Sn.Out3.mk.injEq]
    refine ⟨trivial, ?_, ?_, ?_⟩ <;> ring
  · have h1 := h 1 1 1 1 1 one_pos one_pos one_pos zero_le_one one_pos
    simp only [Sn.evalCDDFF] at h1
    split at h1
    · simp at h1
    · rw [Sn.Out3.mk.injEq] at h1
      obtain ⟨e, e1, e2, -⟩ := h1
      rw [e] at e1 e2
      exact ⟨half gx hx e1, half gy hy e2⟩
  · rintro ⟨rfl, rfl⟩ tx ty tz c xs h1 h2 h3 hc h4
    simp only [Sn.evalCDDFF, e tx ty tz c xs h1 h2 h3 h4]
    rw [if_neg (by linarith), Sn.Out3.mk.injEq]
    refine ⟨rfl, ?_, ?_, ?_⟩ <;> ring
  · have h1 := h 1 1 1 1 1 one_pos one_pos one_pos zero_le_one one_pos
    simp only [Sn.evalCDDFW, Sn.Out3.mk.injEq] at h1
    obtain ⟨e, e1, e2, -⟩ := h1
    rw [e] at e1 e2
    exact ⟨half' gx hx e1, half' gy hy e2⟩
  · rintro ⟨rfl, rfl⟩ tx ty tz c xs h1 h2 h3 hc h4
    have e : (xs * c + 2 * (tx * c + ty * c) + tz * c) / (tx / (1 / 2) + ty / (1 / 2) + tz + xs) = c := by
      rw [div_eq_iff (by positivity)]; ring
    simp only [Sn.evalCDDFW, e, Sn.Out3.mk.injEq]
    refine ⟨trivial, ?_, ?_, trivial⟩ <;> ring

/-- C108: with step characteristics in the axial direction. -/
theorem C108_cdd_sc (gx gy : ℝ) (hx : 0 < gx) (hy : 0 < gy) : Flat3 (Sn.evalCDDSC Real.exp gx gy) ↔ gx = 1 / 2 ∧ gy = 1 / 2 := by
  constructor
  · intro h
    have h1 := h 1 1 1 1 1 one_pos one_pos one_pos zero_le_one one_pos
    simp only [Sn.evalCDDSC, Sn.Out3.mk.injEq] at h1
    obtain ⟨e, e1, e2, -⟩ := h1
    rw [e, div_eq_iff hx.ne'] at e1
    rw [e, div_eq_iff hy.ne'] at e2
    constructor <;> linarith
  · rintro ⟨rfl, rfl⟩ tx ty tz c xs h1 h2 h3 hc h4
    obtain ⟨r0, r1⟩ := Sn.rho_bounds (xs / tz) (div_pos h4 h3)
    have hr : 0 < 1 - Sn.rho Real.exp (xs / tz) := by linarith
    simp only [Sn.evalCDDSC]
    set r := Sn.rho Real.exp (xs / tz)
    have hr' := hr.ne'
    have e : (xs * c + 2 * (tx * c + ty * c) + tz * (r / (1 - r) + 1) * c) / (tx / (1 / 2) + ty / (1 / 2) + tz / (1 - r) + xs) = c := by
      rw [div_eq_iff (by positivity)]
      field_simp
      ring
    rw [e, Sn.Out3.mk.injEq]
    refine ⟨rfl, by ring, by ring, ?_⟩
    field_simp

/-- C108: the partial moment balance reproduces a uniform flux exactly in cells of unit height (`tz` is `oz` divided by the height). -/
theorem C108_pmb (dz : K) (hz : 0 < dz) :
    Flat3 (fun tx ty tz => Sn.evalPMB dz (tz * dz) tx ty tz) ↔ dz = 1 := by
  have key : ∀ tx ty tz c xs : K, 0 < tx → 0 < ty → 0 < tz → 0 < xs →
      ((Sn.evalPMB dz (tz * dz) tx ty tz c c c (xs * c) xs).psi = c ↔ c * (1 - dz * dz) = 0) := by
    intro tx ty tz c xs h1 h2 h3 h4
    simp only [Sn.evalPMB]
    rw [div_eq_iff (by positivity)]
    have e1 : 2 * tz + xs ≠ 0 := by positivity
    have e2 : tz + 1 / 2 * xs = (2 * tz + xs) / 2 := by ring
    rw [e2]
    constructor
    · intro h
      field_simp at h
      have : tz * (2 * tz + xs) * (c * (1 - dz * dz)) = 0 := by linear_combination h
      rcases mul_eq_zero.mp this with h' | h'
      · rcases mul_eq_zero.mp h' with h' | h'
        · exact absurd h' h3.ne'
        · exact absurd h' e1
      · exact h'
    · intro h
      field_simp
      linear_combination tz * (2 * tz + xs) * h
  constructor
  · intro h
    have h1 := h 1 1 1 1 1 one_pos one_pos one_pos zero_le_one one_pos
    have h2 := (key 1 1 1 1 1 one_pos one_pos one_pos one_pos).mp (by simpa using congrArg Sn.Out3.psi h1)
    have h3 : (1 - dz) * (1 + dz) = 0 := by linear_combination h2
    rcases mul_eq_zero.mp h3 with h' | h'
    · linarith
    · linarith
  · rintro rfl tx ty tz c xs h1 h2 h3 hc h4
    have h5 := (key tx ty tz c xs h1 h2 h3 h4).mpr (by ring)
    have e1 : 2 * tz + xs ≠ 0 := by positivity
    have ex : (Sn.evalPMB 1 (tz * 1) tx ty tz c c c (xs * c) xs) =
      ⟨(Sn.evalPMB 1 (tz * 1) tx ty tz c c c (xs * c) xs).psi, (Sn.evalPMB 1 (tz * 1) tx ty tz c c c (xs * c) xs).psi / (1 / 2) - c,
        (Sn.evalPMB 1 (tz * 1) tx ty tz c c c (xs * c) xs).psi / (1 / 2) - c,
        (2 * (Sn.evalPMB 1 (tz * 1) tx ty tz c c c (xs * c) xs).psi * tz + xs * c) / (2 * tz + xs)⟩ := rfl
    rw [h5] at ex
    show Sn.evalPMB 1 (tz * 1) tx ty tz c c c (xs * c) xs = _
    rw [ex, Sn.Out3.mk.injEq]
    refine ⟨rfl, by ring, by ring, ?_⟩
    rw [div_eq_iff e1]
    ring

/-- C108 (full claim for the partial moment balance): a uniform flux in cells of any height. -/
def C108_pmb_claim : Prop := ∀ dz : ℚ, 0 < dz → Flat3 (fun tx ty tz => Sn.evalPMB dz (tz * dz) tx ty tz)

theorem C108_pmb_claim_false : ¬ C108_pmb_claim := by
  intro h
  have := (C108_pmb (2 : ℚ) (by norm_num)).mp (h 2 (by norm_num))
  norm_num at this

/-! ### The boundary condition -/

theorem put_vals (b : BC.Store K) (lo n : Nat) (v : Nat → K) (P : K → Prop) (hv : ∀ i < n, P (v i)) (p : Nat) :
    (b.put lo n v).data p = b.data p ∨ P ((b.put lo n v).data p) := by
  simp only [BC.Store.put, BC.write]
  split
  · next h => right; exact hv _ (by omega)
  · left; rfl

theorem normals_vals (g a : Nat) (out : BC.Store K) (P : K → Prop) (ho : ∀ n e p, BC.StoredAt out 0 a n e p → P (out.data p)) (hog : out.nGroup = 1)
    (l : List Quad.Normal) (b b' : BC.Store K) (hsz : out.size = b.size) (ht : ∀ s, b.types s = .VACUUM → P 0) (h : BC.updateNormals g a out l b = .ok b') :
    b'.size = b.size ∧ b'.nGroup = b.nGroup ∧ b'.types = b.types ∧ ∀ p, b'.data p = b.data p ∨ P (b'.data p) := by
  induction l generalizing b with
  | nil =>
    simp only [BC.updateNormals, BC.Outcome.ok.injEq] at h
    subst h
    exact ⟨rfl, rfl, rfl, fun p => Or.inl rfl⟩
  | cons n ns ih =>
    simp only [BC.updateNormals] at h
    split at h
    · next s ia hs hr =>
      split at h
      · simp only [BC.Outcome.ok.injEq] at h
        subst h
        exact ⟨rfl, rfl, rfl, fun p => Or.inl rfl⟩
      split at h
      · next ang offIn offOut so h1 h2 h3 h4 =>
        split at h
        · simp at h
        split at h
        · next hv =>
          obtain ⟨i1, i2, i3, i4⟩ := ih (b.put _ _ _) hsz ht h
          refine ⟨i1, i2, i3, fun p => ?_⟩
          rcases i4 p with i | i
          · rw [i]; exact put_vals b _ _ _ P (fun _ _ => ht _ hv) p
          · exact Or.inr i
        · obtain ⟨i1, i2, i3, i4⟩ := ih (b.put _ _ _) hsz ht h
          refine ⟨i1, i2, i3, fun p => ?_⟩
          have hvals : ∀ i < s.get n, P (out.data (offOut + i)) := by
            intro i hi
            refine ho n i _ ⟨s.get n, offOut, ?_, hi, rfl⟩
            have hal : a < out.size.length := by rw [hsz]; exact (List.getElem?_eq_some_iff.mp hs).1
            simp only [BC.getFace, hog, hal, h3]
            rw [hsz, hs]
            simp
          rcases i4 p with i | i
          · rw [i]; exact put_vals b _ _ _ P hvals p
          · exact Or.inr i
        · exact ih b hsz ht h
        · simp at h
      · simp at h
    · simp at h

/-- The update of a store writes values from `out`, and zero where a face is vacuum. -/
theorem boundary_keeps (g : Nat) (out b b' : BC.Store K) (P : K → Prop) (hog : out.nGroup = 1) (hsz : out.size = b.size) (ht : ∀ s, b.types s = .VACUUM → P 0)
    (hb : ∀ a n e p, BC.StoredAt b g a n e p → P (b.data p)) :
    (∀ a, (∀ n e p, BC.StoredAt out 0 a n e p → P (out.data p)) → BC.updateAngle g a out b = .ok b' →
      ∀ a n e p, BC.StoredAt b' g a n e p → P (b'.data p)) ∧
    ((∀ a n e p, BC.StoredAt out 0 a n e p → P (out.data p)) → BC.update g out b = .ok b' →
      ∀ a n e p, BC.StoredAt b' g a n e p → P (b'.data p)) := by
  have fin : ∀ b₁ : BC.Store K, b₁.size = b.size → b₁.nGroup = b.nGroup → (∀ p, b₁.data p = b.data p ∨ P (b₁.data p)) →
      ∀ a n e p, BC.StoredAt b₁ g a n e p → P (b₁.data p) := by
    intro b₁ h1 h2 h3 a n e p hp
    rcases h3 p with h | h
    · rw [h]
      rw [BC.storedAt_iff, h1, h2, ← BC.storedAt_iff] at hp
      exact hb a n e p hp
    · exact h
  constructor
  · intro a ho h
    obtain ⟨h1, h2, -, h4⟩ := normals_vals g a out P ho hog _ b b' hsz ht h
    exact fin b' h1 h2 h4
  · intro ho h
    have key : ∀ (as : List Nat) (b₁ : BC.Store K), b₁.size = b.size → b₁.types = b.types → BC.updateAngles g out as b₁ = .ok b' →
        b'.size = b₁.size ∧ b'.nGroup = b₁.nGroup ∧ ∀ p, b'.data p = b₁.data p ∨ P (b'.data p) := by
      intro as
      induction as with
      | nil =>
        intro b₁ hs1 ht1 h
        simp only [BC.updateAngles, BC.Outcome.ok.injEq] at h
        subst h
        exact ⟨rfl, rfl, fun p => Or.inl rfl⟩
      | cons a as ih =>
        intro b₁ hs1 ht1 h
        simp only [BC.updateAngles] at h
        split at h
        · next b₂ hb2 =>
          obtain ⟨h1, h2, h3, h4⟩ := normals_vals g a out P (ho a) hog _ b₁ b₂ (by rw [hsz, hs1]) (by rw [ht1]; exact ht) hb2
          obtain ⟨i1, i2, i3⟩ := ih b₂ (by rw [h1, hs1]) (by rw [h3, ht1]) h
          refine ⟨by rw [i1, h1], by rw [i2, h2], fun p => ?_⟩
          rcases i3 p with i | i
          · rw [i]; exact h4 p
          · exact Or.inr i
        · simp at h
        · simp at h
    unfold BC.update at h
    rw [if_pos hog] at h
    obtain ⟨h1, h2, h3⟩ := key _ b rfl rfl h
    exact fin b' h1 h2 h3

/-- C108: the boundary condition.  Without vacuum faces the update of one ordinate, or of all, keeps the value `c` of all incoming values of the group if
the outgoing values of the ordinate, or all, are `c`. -/
theorem C108_boundary (g : Nat) (out b b' : BC.Store K) (c : K) (hog : out.nGroup = 1) (hsz : out.size = b.size) (ht : ∀ s, b.types s ≠ .VACUUM)
    (hb : ∀ a n e p, BC.StoredAt b g a n e p → b.data p = c) :
    (∀ a, (∀ n e p, BC.StoredAt out 0 a n e p → out.data p = c) → BC.updateAngle g a out b = .ok b' →
      ∀ a n e p, BC.StoredAt b' g a n e p → b'.data p = c) ∧
    ((∀ a n e p, BC.StoredAt out 0 a n e p → out.data p = c) → BC.update g out b = .ok b' →
      ∀ a n e p, BC.StoredAt b' g a n e p → b'.data p = c) :=
  boundary_keeps g out b b' (· = c) hog hsz (fun s hs => absurd hs (ht s)) hb

end

/-! ### Examples -/

/-- Two groups; flux 1 in both, eigenvalue 2. -/
def demoMat : Mat ℚ :=
  ⟨fun g => if g = 0 then 2 else 3, fun _ => 1, fun _ => 1, fun g => if g = 0 then 1 else 0,
    fun g h => if g = 0 then (if h = 0 then 1 else 0) else if h = 0 then 1 else 2⟩

def demoProblem : Problem ℚ := ⟨2, 2, [⟨demoMat, [0, 1]⟩], fun _ => 1⟩

theorem demo_infinite : Infinite demoProblem 2 (fun _ => 1) where
  part := by simp [Partition, demoProblem]
  cover := by
    intro i
    simp only [demoProblem, List.mem_singleton, exists_eq_left, List.mem_cons, List.not_mem_nil, or_false]
    omega
  nonneg := by
    intro x hx p q _ _
    simp only [demoProblem, List.mem_singleton] at hx
    subst hx
    simp only [demoMat]
    split_ifs <;> norm_num
  k0 := by norm_num
  tr0 := by
    intro x hx g _
    simp only [demoProblem, List.mem_singleton] at hx
    subst hx
    simp only [demoMat]
    split_ifs <;> norm_num
  balance := by
    intro x hx g hg
    simp only [demoProblem, List.mem_singleton] at hx hg
    subst hx
    interval_cases g <;> simp [demoProblem, demoMat, Finset.sum_range_succ] <;> norm_num

theorem demo_fission : totalFission demoProblem.ng demoProblem.rs demoProblem.vol (fun _ _ => 1) ≠ 0 := by decide +kernel

/-- The two directions of the rays of `Moc.demo` are reflected into each other. -/
def demoMoc (gs : Bool) : MocSetup ℚ :=
  ⟨fun x => 1 / (1 - x), 12, gs, ⟨fun a b o a' j => if a' = 1 - a then o a j else b a' j, fun _ o a j => o (1 - a) j⟩, [⟨0, [Moc.demo]⟩], 3⟩

theorem demo_mocOk (gs : Bool) : MocOk demoProblem (demoMoc gs) 2 (fun _ => 2) where
  fpi := by simp [demoMoc]
  planes := by
    intro w hw
    simp only [demoMoc, List.mem_singleton] at hw
    subst hw
    refine ⟨?_, ?_⟩
    · intro w hw
      simp only [List.mem_singleton] at hw
      subst hw
      exact ⟨⟨by decide, by decide +kernel, by decide +kernel, by decide +kernel⟩, by decide, by decide, rfl⟩
    · intro a ha
      refine ⟨Moc.demo, by simp, ?_⟩
      simp only [Moc.demo]
      omega
  reflects := by
    refine ⟨?_, ?_⟩
    · intro c a ha b o hb ho a' ha' j hj
      simp only [demoMoc]
      split
      · exact ho j hj
      · exact hb a' ha' j hj
    · intro c b o hb ho a ha j hj
      exact ho (1 - a) (by omega) j hj

/-- The hypotheses of `C108_moc` hold for it, with outgoing values that are not those of the infinite medium. -/
example (gs : Bool) (N : Nat) : ∃ s', outers demoProblem (mocSweeper demoProblem (demoMoc gs)) N 2
    ⟨fun _ _ => 1, fun _ => 7, fun _ => [fun _ _ => 1 / 12], [fun _ _ => 99]⟩ = some (2, s') ∧
      MocFlat demoProblem (demoMoc gs) 2 (fun _ => 2) (fun _ => 1) s' :=
  C108_moc demoProblem 2 (fun _ => 1) demo_infinite demo_fission (demoMoc gs) 2 (fun _ => 2) (demo_mocOk gs) N _
    ⟨fun _ _ _ _ => rfl, fun _ _ => rfl, rfl, fun g _ b hb => by
      simp only [List.mem_singleton] at hb
      subst hb
      intro a _ j _
      simp [demoMoc]⟩

/-- With another flux the iteration moves. -/
example : ((outers demoProblem (mocSweeper demoProblem (demoMoc true)) 1 2
    ⟨fun _ g => if g = 0 then 1 else 2, fun _ => 0, fun _ => [fun _ _ => 1 / 12], [fun _ _ => 0]⟩).map Prod.fst).isSome = true ∧
    (outers demoProblem (mocSweeper demoProblem (demoMoc true)) 1 2
    ⟨fun _ g => if g = 0 then 1 else 2, fun _ => 0, fun _ => [fun _ _ => 1 / 12], [fun _ _ => 0]⟩).map Prod.fst ≠ some 2 := by
  decide +kernel

/-- Mirror images among the four directions (+,+), (-,+), (-,-), (+,-). -/
def demoMirror (a : Nat) : Sn.Ax2 → Nat
  | .x => if a = 0 then 1 else if a = 1 then 0 else if a = 2 then 3 else 2
  | .y => 3 - a

def demoOrd (a : Nat) (ox oy : ℚ) : SnOrd Sn.Ax2 ℚ := ord2 ⟨2, 1, 1⟩ (fun i => if i = 0 then 1 else 2) (fun _ => 1) a ox oy 3 (fun _ => Sn.evalDD2)

def demoSn (gs : Bool) : SnSetup Sn.Ax2 ℚ :=
  ⟨12, gs, ⟨fun a b o a' k j => if a' = demoMirror a k then o a k j else b a' k j, fun _ o a k j => o (demoMirror a k) k j⟩,
    [demoOrd 0 (1/2) (1/3), demoOrd 1 (-1/2) (1/3), demoOrd 2 (-1/2) (-1/3), demoOrd 3 (1/2) (-1/3)], 3⟩

theorem demo_snOk (gs : Bool) : SnOk demoProblem (demoSn gs) 4 (fun | .x => 1 | .y => 2) (fun _ => 3) where
  fpi := by simp [demoSn]
  reflects := by
    refine ⟨?_, ?_⟩
    · intro c a ha b o hb ho a' ha' k j hj
      simp only [demoSn]
      split
      · exact ho k j hj
      · exact hb a' ha' k j hj
    · intro c b o hb ho a ha k j hj
      refine ho _ ?_ k j hj
      cases k
      · simp only [demoMirror]; split_ifs <;> omega
      · simp only [demoMirror]; omega
  flat := by
    intro o ho
    have h : ∀ a ox oy, ox ≠ 0 → oy ≠ 0 → OrdFlat 2 (fun | .x => 1 | .y => 2) 3 (demoOrd a ox oy) := fun a ox oy h1 h2 =>
      C108_ord2 ⟨2, 1, 1⟩ (by decide) (by decide) _ _ (by intro i; split <;> norm_num) (by intro i; norm_num) a ox oy 3 h1 h2 _ (fun _ => C108_dd2)
    simp only [demoSn, List.mem_cons, List.not_mem_nil, or_false] at ho
    rcases ho with rfl | rfl | rfl | rfl
    · exact ⟨h _ _ _ (by norm_num) (by norm_num), by decide⟩
    · exact ⟨h _ _ _ (by norm_num) (by norm_num), by decide⟩
    · exact ⟨h _ _ _ (by norm_num) (by norm_num), by decide⟩
    · exact ⟨h _ _ _ (by norm_num) (by norm_num), by decide⟩
  cover := by
    intro a ha
    interval_cases a
    · exact ⟨demoOrd 0 (1/2) (1/3), by simp [demoSn], rfl⟩
    · exact ⟨demoOrd 1 (-1/2) (1/3), by simp [demoSn], rfl⟩
    · exact ⟨demoOrd 2 (-1/2) (-1/3), by simp [demoSn], rfl⟩
    · exact ⟨demoOrd 3 (1/2) (-1/3), by simp [demoSn], rfl⟩
  total := by simp [demoSn]; norm_num

/-- The hypotheses of `C108_sn` hold for it. -/
example (gs : Bool) (N : Nat) : ∃ s', outers demoProblem (snSweeper demoProblem (demoSn gs)) N 2
    ⟨fun _ _ => 1, fun _ => 7, fun _ _ _ _ => 1 / 12, fun _ _ _ => 99⟩ = some (2, s') ∧
      SnFlat demoProblem (demoSn gs) 4 (fun | .x => 1 | .y => 2) (fun _ => 1) s' :=
  C108_sn demoProblem 2 (fun _ => 1) demo_infinite demo_fission (by
    intro x hx g _
    simp only [demoProblem, List.mem_singleton] at hx
    subst hx
    simp only [demoMat]
    split_ifs <;> norm_num) (fun _ _ => by norm_num) (demoSn gs) 4 _ (fun _ => 3) (demo_snOk gs) N _
    ⟨fun _ _ _ _ => rfl, fun g _ a _ k j _ => by simp [demoSn]⟩

end Verif.Medium
