import Verif.Medium.BoundaryProps
import Mathlib.Algebra.Order.BigOperators.Group.Finset
import Mathlib.Algebra.Order.BigOperators.Group.List

/-!
# C109: fluxes and eigenvalue of the outer iteration are not negative
-/

set_option linter.unusedSectionVars false

namespace Verif.Medium

open Verif.XS Verif.Source

section
variable {K : Type} [Field K] [LinearOrder K] [IsStrictOrderedRing K]

/-- Cross sections and volumes are physical. -/
structure Physical (p : Problem K) : Prop where
  part : Partition p.rs
  cover : ∀ i, i < p.nReg ↔ ∃ x ∈ p.rs, i ∈ x.regs
  sc : ∀ x ∈ p.rs, Source.NonNeg p.ng x.mat
  nf : ∀ x ∈ p.rs, ∀ g < p.ng, 0 ≤ x.mat.nf g
  ch : ∀ x ∈ p.rs, ∀ g < p.ng, 0 ≤ x.mat.ch g
  tr : ∀ x ∈ p.rs, ∀ g < p.ng, 0 < x.mat.tr g
  vol : ∀ i < p.nReg, 0 < p.vol i

/-- The flux is not negative. -/
def PosFlux (p : Problem K) (flux : Nat → Nat → K) : Prop := ∀ i < p.nReg, ∀ g < p.ng, 0 ≤ flux i g

/-- What a sweeper has to do: a sweep with a source that is not negative keeps the property `inv`, which makes the flux not negative. -/
structure KeepsPos {σ : Type} (p : Problem K) (w : Sweeper K σ) (inv : σ → Prop) : Prop where
  pos : ∀ s, inv s → PosFlux p (w.flux s)
  keep : ∀ g < p.ng, ∀ src s, (∀ i < p.nReg, 0 ≤ src i) → inv s → inv (w.sweep g src s)

theorem assembled_pos (p : Problem K) (h : Physical p) (flux : Nat → Nat → K) (hf : PosFlux p flux) (fs : Nat → K) (hfs : ∀ i < p.nReg, 0 ≤ fs i) (g : Nat)
    (hg : g < p.ng) : ∃ src, assemble p.ng p.nReg p.rs none fs flux g = some src ∧ ∀ i < p.nReg, 0 ≤ src i := by
  obtain ⟨src, h1, h2⟩ := C28_assemble_partial p.ng p.nReg p.rs fs flux g h.part h.sc hg
  refine ⟨src, h1, fun i hi => ?_⟩
  obtain ⟨x, hx, hxi⟩ := (h.cover i).mp hi
  rw [h2 x hx i hxi, defined, zero_add]
  refine add_nonneg (mul_nonneg (h.ch x hx g hg) (hfs i hi)) (Finset.sum_nonneg fun h' hh' => ?_)
  have hh := Finset.mem_range.mp hh'
  split
  · exact mul_nonneg (h.sc x hx g h' hg hh) (hf i hi h' hh)
  · exact le_refl _

theorem loop_pos {σ : Type} (p : Problem K) (h : Physical p) (w : Sweeper K σ) (inv : σ → Prop) (hw : KeepsPos p w inv) (fs : Nat → K)
    (hfs : ∀ i < p.nReg, 0 ≤ fs i) (n g : Nat) (hn : g + n ≤ p.ng) (s : σ) (hs : inv s) : ∃ s', groupLoop p w fs n g s = some s' ∧ inv s' := by
  induction n generalizing g s with
  | zero => exact ⟨s, rfl, hs⟩
  | succ n ih =>
    obtain ⟨src, h1, h2⟩ := assembled_pos p h (w.flux s) (hw.pos s hs) fs hfs g (by omega)
    obtain ⟨s', h3, h4⟩ := ih (g + 1) (by omega) _ (hw.keep g (by omega) src s h2 hs)
    exact ⟨s', by rw [groupLoop, h1]; exact h3, h4⟩

theorem fission_pos (p : Problem K) (h : Physical p) (flux : Nat → Nat → K) (hf : PosFlux p flux) : 0 ≤ totalFission p.ng p.rs p.vol flux := by
  rw [totalFission_eq]
  refine List.sum_nonneg fun y hy => ?_
  obtain ⟨x, hx, rfl⟩ := List.mem_map.mp hy
  refine List.sum_nonneg fun z hz => ?_
  obtain ⟨i, hi, rfl⟩ := List.mem_map.mp hz
  have hi' : i < p.nReg := (h.cover i).mpr ⟨x, hx, hi⟩
  exact mul_nonneg (h.vol i hi').le (Finset.sum_nonneg fun g hg => mul_nonneg (h.nf x hx g (Finset.mem_range.mp hg)) (hf i hi' g (Finset.mem_range.mp hg)))

/-- C109: an outer iteration from `k > 0` and a flux with fission.  The new eigenvalue is positive if and only if there is fission in the new flux. -/
theorem C109_outer {σ : Type} (p : Problem K) (h : Physical p) (w : Sweeper K σ) (inv : σ → Prop) (hw : KeepsPos p w inv) (k : K) (hk : 0 < k) (s : σ)
    (hs : inv s) (hfis : 0 < totalFission p.ng p.rs p.vol (w.flux s)) :
    ∃ k' s', outer p w k s = some (k', s') ∧ inv s' ∧ PosFlux p (w.flux s') ∧ 0 ≤ k' ∧ (0 < k' ↔ 0 < totalFission p.ng p.rs p.vol (w.flux s')) := by
  have hf := hw.pos s hs
  obtain ⟨s', h1, h2⟩ := loop_pos p h w inv hw (calcFissionSource p.ng p.rs k (w.flux s)) (fun i hi => by
    obtain ⟨x, hx, hxi⟩ := (h.cover i).mp hi
    rw [C47_fission_source p.ng p.rs h.part k (w.flux s) x hx i hxi]
    exact div_nonneg (Finset.sum_nonneg fun g hg => mul_nonneg (h.nf x hx g (Finset.mem_range.mp hg)) (hf i hi g (Finset.mem_range.mp hg))) hk.le)
    p.ng 0 (by omega) s hs
  have h0 := fission_pos p h _ (hw.pos s' h2)
  refine ⟨_, s', by rw [outer, h1]; rfl, h2, hw.pos s' h2, by positivity, fun hh => ?_, fun hh => by positivity⟩
  rcases h0.lt_or_eq with h3 | h3
  · exact h3
  · rw [← h3] at hh
    simp at hh

/-- C109: any number of outer iterations, as long as there is fission. -/
theorem C109_outers {σ : Type} (p : Problem K) (h : Physical p) (w : Sweeper K σ) (inv : σ → Prop) (hw : KeepsPos p w inv) (n : Nat) (k : K) (hk : 0 < k)
    (s : σ) (hs : inv s) (hfis : ∀ m ≤ n, ∀ k' s', outers p w m k s = some (k', s') → 0 < totalFission p.ng p.rs p.vol (w.flux s')) :
    ∃ k' s', outers p w n k s = some (k', s') ∧ inv s' ∧ PosFlux p (w.flux s') ∧ 0 < k' := by
  induction n generalizing k s with
  | zero => exact ⟨k, s, rfl, hs, hw.pos s hs, hk⟩
  | succ n ih =>
    obtain ⟨k₁, s₁, h1, h2, -, -, h4⟩ := C109_outer p h w inv hw k hk s hs (hfis 0 (by omega) k s rfl)
    have h5 : 0 < k₁ := h4.mpr (hfis 1 (by omega) k₁ s₁ (by rw [outers, h1]; rfl))
    obtain ⟨k₂, s₂, h6, h7⟩ := ih k₁ h5 s₁ h2 fun m hm k' s' hh => hfis (m + 1) (by omega) k' s' (by rw [outers, h1]; exact hh)
    exact ⟨k₂, s₂, by rw [outers, h1]; exact h6, h7⟩

/-! ### MoC -/

/-- Boundary values are not negative in the first `n a` slots of the angles `a < nAng`. -/
def PosOn (nAng : Nat) (n : Nat → Nat) (b : Nat → Nat → K) : Prop := ∀ a < nAng, ∀ j < n a, 0 ≤ b a j

/-- The boundary update makes no negative values of values that are not negative. -/
structure UpdatePos (nAng : Nat) (n : Nat → Nat) (u : Moc.BcUpdate K) : Prop where
  one : ∀ a < nAng, ∀ b o, PosOn nAng n b → (∀ j < n a, 0 ≤ o a j) → PosOn nAng n (u.one a b o)
  all : ∀ b o, PosOn nAng n b → PosOn nAng n o → PosOn nAng n (u.all b o)

/-- Weights and lengths are not negative. -/
def RaysPos (p : Moc.PlaneWork K) : Prop := ∀ w ∈ p.angles, 0 ≤ w.rst ∧ 0 ≤ w.wt ∧ ∀ r ∈ w.rays, ∀ s ∈ r.segs, 0 ≤ s.len

theorem rays_pos (expo : K → K) (hexp : Moc.ExpOk expo) (nReg : Nat) (xstr q : Nat → K) (hx : ∀ i < nReg, 0 ≤ xstr i) (hq : ∀ i < nReg, 0 ≤ q i)
    (rst wt : K) (hrst : 0 ≤ rst) (hwt : 0 ≤ wt) (first i : Nat) (l : List (Moc.Ray K)) (hreg : ∀ r ∈ l, ∀ s ∈ r.segs, s.reg + first < nReg)
    (hlen : ∀ r ∈ l, ∀ s ∈ r.segs, 0 ≤ s.len) (in1 in2 : Nat → K) (h1 : ∀ r ∈ l, 0 ≤ in1 r.bc0) (h2 : ∀ r ∈ l, 0 ≤ in2 r.bc1) (a : Moc.Acc K) :
    let r := l.foldl (Moc.sweepRay (Moc.eTau expo xstr rst first) q wt first in1 in2) a
    (∀ j, (0 ≤ a.out1 j ∨ ∃ y ∈ l, y.bc1 = j) → 0 ≤ r.out1 j) ∧ (∀ j, (0 ≤ a.out2 j ∨ ∃ y ∈ l, y.bc0 = j) → 0 ≤ r.out2 j) ∧
    a.tflux i - q i * xstr i * (l.map (fun r => 2 * (wt * rst * Moc.tracked first i r.segs))).sum ≤ r.tflux i := by
  induction l generalizing a with
  | nil =>
    refine ⟨?_, ?_, by simp⟩
    · rintro j (h | ⟨y, hy, -⟩)
      · exact h
      · simp at hy
    · rintro j (h | ⟨y, hy, -⟩)
      · exact h
      · simp at hy
  | cons y l ih =>
    rw [List.foldl_cons]
    have hy := hlen y (by simp)
    have hr := hreg y (by simp)
    have neg : ∀ s ∈ y.segs, -xstr (s.reg + first) * s.len * rst ≤ 0 := by
      intro s hs
      have := mul_nonneg (mul_nonneg (hx _ (hr s hs)) (hy s hs)) hrst
      linarith
    have e0 : ∀ s ∈ y.segs, 0 ≤ Moc.eTau expo xstr rst first s := fun s hs => by
      have := hexp.le_one _ (neg s hs); unfold Moc.eTau; linarith
    have e1 : ∀ s ∈ y.segs, Moc.eTau expo xstr rst first s ≤ 1 := fun s hs => by
      have := hexp.nonneg _ (neg s hs); unfold Moc.eTau; linarith
    have e2 : ∀ s ∈ y.segs, s.reg + first = i → Moc.eTau expo xstr rst first s ≤ xstr i * s.len * rst := fun s hs hi => by
      have := hexp.tangent _ (neg s hs); unfold Moc.eTau; rw [hi] at this ⊢; linarith
    obtain ⟨f1, f2⟩ := Moc.walk_nonneg (Moc.eTau expo xstr rst first) q wt (xstr i) rst first i y.segs e0 e1 (fun s hs => hq _ (hr s hs)) hwt e2
      (in1 y.bc0) (h1 y (by simp)) a.tflux
    obtain ⟨b1, b2⟩ := Moc.walk_nonneg (Moc.eTau expo xstr rst first) q wt (xstr i) rst first i y.segs.reverse
      (by simpa using e0) (by simpa using e1) (fun s hs => hq _ (hr s (by simpa using hs))) hwt (by simpa using e2) (in2 y.bc1) (h2 y (by simp))
      (Moc.walk (Moc.eTau expo xstr rst first) q wt first y.segs (in1 y.bc0) a.tflux).2
    rw [Moc.tracked_reverse] at b2
    obtain ⟨i1, i2, i3⟩ := ih (fun r hr => hreg r (by simp [hr])) (fun r hr => hlen r (by simp [hr])) (fun r hr => h1 r (by simp [hr]))
      (fun r hr => h2 r (by simp [hr])) (Moc.sweepRay (Moc.eTau expo xstr rst first) q wt first in1 in2 a y)
    refine ⟨fun j hj => i1 j ?_, fun j hj => i2 j ?_, le_trans ?_ i3⟩
    · by_cases e : j = y.bc1
      · left; simp only [Moc.sweepRay, Moc.upd, e, if_true]; exact f1
      · rcases hj with h | ⟨z, hz, he⟩
        · left; simp only [Moc.sweepRay, Moc.upd, if_neg e]; exact h
        · rcases List.mem_cons.mp hz with rfl | hz
          · exact absurd he.symm e
          · exact Or.inr ⟨z, hz, he⟩
    · by_cases e : j = y.bc0
      · left; simp only [Moc.sweepRay, Moc.upd, e, if_true]; exact b1
      · rcases hj with h | ⟨z, hz, he⟩
        · left; simp only [Moc.sweepRay, Moc.upd, if_neg e]; exact h
        · rcases List.mem_cons.mp hz with rfl | hz
          · exact absurd he.symm e
          · exact Or.inr ⟨z, hz, he⟩
    · rw [List.map_cons, List.sum_cons]
      have e3 : (Moc.sweepRay (Moc.eTau expo xstr rst first) q wt first in1 in2 a y).tflux i =
        (Moc.walk (Moc.eTau expo xstr rst first) q wt first y.segs.reverse (in2 y.bc1)
          (Moc.walk (Moc.eTau expo xstr rst first) q wt first y.segs (in1 y.bc0) a.tflux).2).2 i := rfl
      rw [e3, mul_add]
      linarith

theorem angles_pos (expo : K → K) (hexp : Moc.ExpOk expo) (xstr q : Nat → K) (gs : Bool) (nReg nAng : Nat) (n : Nat → Nat) (u : Moc.BcUpdate K)
    (hu : UpdatePos nAng n u) (hx : ∀ i < nReg, 0 ≤ xstr i) (hq : ∀ i < nReg, 0 ≤ q i) (first i : Nat) (ws : List (Moc.AngleWork K))
    (hw : ∀ w ∈ ws, Moc.AngleOk nReg first (n w.iang1) w ∧ w.iang1 < nAng ∧ w.iang2 < nAng ∧ n w.iang2 = n w.iang1)
    (hp : ∀ w ∈ ws, 0 ≤ w.rst ∧ 0 ≤ w.wt ∧ ∀ r ∈ w.rays, ∀ s ∈ r.segs, 0 ≤ s.len) (s : Moc.St K) (hb : PosOn nAng n s.bin) :
    let s' := ws.foldl (Moc.sweepAngle expo xstr q gs u first) s
    PosOn nAng n s'.bin ∧ (∀ a, ((∀ j < n a, 0 ≤ s.bout a j) ∨ ∃ w ∈ ws, a = w.iang1 ∨ a = w.iang2) → ∀ j < n a, 0 ≤ s'.bout a j) ∧
      s.tflux i - q i * xstr i * (ws.map (Moc.angleVolume first i)).sum ≤ s'.tflux i := by
  induction ws generalizing s with
  | nil =>
    refine ⟨hb, ?_, by simp⟩
    rintro a (h | ⟨w, hw, -⟩)
    · exact h
    · simp at hw
  | cons w ws ih =>
    rw [List.foldl_cons]
    obtain ⟨ok, l1, l2, ln⟩ := hw w (by simp)
    obtain ⟨w1, w2, w3⟩ := hp w (by simp)
    have m0 : ∀ r ∈ w.rays, r.bc0 < n w.iang1 := fun r hr => by
      have := (ok.ends0.mem_iff (a := r.bc0)).mp (List.mem_map.mpr ⟨r, hr, rfl⟩)
      simpa using this
    have m1 : ∀ r ∈ w.rays, r.bc1 < n w.iang1 := fun r hr => by
      have := (ok.ends1.mem_iff (a := r.bc1)).mp (List.mem_map.mpr ⟨r, hr, rfl⟩)
      simpa using this
    obtain ⟨r2, r3, r1⟩ := rays_pos expo hexp nReg xstr q hx hq w.rst w.wt w1 w2 first i w.rays ok.regs w3
      (s.bin w.iang1) (s.bin w.iang2) (fun r hr => hb _ l1 _ (m0 r hr)) (fun r hr => hb _ l2 _ (by rw [ln]; exact m1 r hr))
      ⟨s.tflux, s.bout w.iang1, s.bout w.iang2⟩
    have o1 : ∀ j < n w.iang1, 0 ≤ (Moc.sweepAngle expo xstr q gs u first s w).bout w.iang1 j := by
      intro j hj
      have := (ok.ends1.mem_iff (a := j)).mpr (by simpa using hj)
      obtain ⟨r, hr, he⟩ := List.mem_map.mp this
      have hne : ¬ w.iang1 = w.iang2 := ok.ne
      simp only [Moc.sweepAngle, Moc.upd, if_neg hne, if_true]
      exact r2 j (Or.inr ⟨r, hr, he⟩)
    have o2 : ∀ j < n w.iang2, 0 ≤ (Moc.sweepAngle expo xstr q gs u first s w).bout w.iang2 j := by
      intro j hj
      have := (ok.ends0.mem_iff (a := j)).mpr (by rw [ln] at hj; simpa using hj)
      obtain ⟨r, hr, he⟩ := List.mem_map.mp this
      simp only [Moc.sweepAngle, Moc.upd, if_true]
      exact r3 j (Or.inr ⟨r, hr, he⟩)
    have hbi : PosOn nAng n (Moc.sweepAngle expo xstr q gs u first s w).bin := by
      cases gs
      · simpa [Moc.sweepAngle] using hb
      · have : (Moc.sweepAngle expo xstr q true u first s w).bin = u.one w.iang2 (u.one w.iang1 s.bin
            (Moc.sweepAngle expo xstr q true u first s w).bout) (Moc.sweepAngle expo xstr q true u first s w).bout := rfl
        rw [this]
        exact hu.one _ l2 _ _ (hu.one _ l1 _ _ hb o1) o2
    obtain ⟨i2, i3, i1⟩ := ih (fun x hx => hw x (by simp [hx])) (fun x hx => hp x (by simp [hx])) _ hbi
    refine ⟨i2, fun a ha => i3 a ?_, le_trans ?_ i1⟩
    · by_cases e1 : a = w.iang1
      · subst e1; exact Or.inl o1
      by_cases e2 : a = w.iang2
      · subst e2; exact Or.inl o2
      rcases ha with h | ⟨x, hx, he⟩
      · left
        intro j hj
        simp only [Moc.sweepAngle, Moc.upd, if_neg e1, if_neg e2]
        exact h j hj
      · rcases List.mem_cons.mp hx with rfl | hx
        · exact absurd he (by simp [e1, e2])
        · exact Or.inr ⟨x, hx, he⟩
    · rw [List.map_cons, List.sum_cons]
      have r3' : s.tflux i - q i * xstr i * Moc.angleVolume first i w ≤ (Moc.sweepAngle expo xstr q gs u first s w).tflux i := r1
      rw [mul_add]
      linarith

theorem sweep_pos (expo : K → K) (hexp : Moc.ExpOk expo) (fpi : K) (xstr vol q : Nat → K) (gs : Bool) (nReg nAng : Nat) (n : Nat → Nat) (u : Moc.BcUpdate K)
    (hu : UpdatePos nAng n u) (hx : ∀ i < nReg, 0 < xstr i) (hv : ∀ i < nReg, 0 < vol i) (hq : ∀ i < nReg, 0 ≤ q i)
    (ps : List (Moc.PlaneWork K × (Nat → Nat → K) × (Nat → Nat → K))) (hp : ∀ p ∈ ps, PlaneOk nReg nAng n p.1 ∧ RaysPos p.1 ∧ PosOn nAng n p.2.1)
    (hvol : ∀ i < nReg, (ps.map (fun p => Moc.planeVolume i p.1)).sum ≤ fpi * vol i) :
    (∀ i < nReg, 0 ≤ (Moc.sweep1g expo fpi xstr vol q gs u ps).1 i) ∧ (Moc.sweep1g expo fpi xstr vol q gs u ps).2.length = ps.length ∧
    ∀ b ∈ (Moc.sweep1g expo fpi xstr vol q gs u ps).2, PosOn nAng n b.1 := by
  have key : ∀ i (ps : List (Moc.PlaneWork K × (Nat → Nat → K) × (Nat → Nat → K))) (t : Nat → K),
      (∀ p ∈ ps, PlaneOk nReg nAng n p.1 ∧ RaysPos p.1 ∧ PosOn nAng n p.2.1) →
      t i - q i * xstr i * (ps.map (fun p => Moc.planeVolume i p.1)).sum ≤ (Moc.sweepPlanes expo xstr q gs u ps t).1 i ∧
      (Moc.sweepPlanes expo xstr q gs u ps t).2.length = ps.length ∧
      ∀ b ∈ (Moc.sweepPlanes expo xstr q gs u ps t).2, PosOn nAng n b.1 := by
    intro i ps
    induction ps with
    | nil => intro t _; simp [Moc.sweepPlanes]
    | cons p ps ih =>
      intro t h
      obtain ⟨p, bin, bout⟩ := p
      obtain ⟨ok, hr, hb⟩ := h (p, bin, bout) (by simp)
      obtain ⟨a2, a3, a1⟩ := angles_pos expo hexp xstr q gs nReg nAng n u hu (fun i hi => (hx i hi).le) hq p.first i p.angles ok.angle hr ⟨t, bin, bout⟩ hb
      have e1 : t i - q i * xstr i * Moc.planeVolume i p ≤ (Moc.sweepPlane expo xstr q gs u p ⟨t, bin, bout⟩).tflux i := a1
      obtain ⟨i1, i2, i3⟩ := ih (Moc.sweepPlane expo xstr q gs u p ⟨t, bin, bout⟩).tflux (fun x hx => h x (by simp [hx]))
      simp only [Moc.sweepPlanes]
      refine ⟨?_, by simp [i2], ?_⟩
      · rw [List.map_cons, List.sum_cons, mul_add]
        linarith
      · intro b hbm
        rcases List.mem_cons.mp hbm with rfl | hbm
        · simp only [Moc.sweepPlane]
          cases gs
          · exact hu.all _ _ a2 fun a ha j hj => a3 a (Or.inr (ok.cover a ha)) j hj
          · exact a2
        · exact i3 b hbm
  refine ⟨fun i hi => ?_, (key 0 ps (fun _ => 0) hp).2⟩
  have k1 := (key i ps (fun _ => 0) hp).1
  simp only [Moc.sweep1g, Moc.finish]
  have hxv : 0 < xstr i * vol i := mul_pos (hx i hi) (hv i hi)
  have h1 : -(q i * fpi) ≤ (Moc.sweepPlanes expo xstr q gs u ps (fun _ => 0)).1 i / (xstr i * vol i) := by
    rw [le_div_iff₀ hxv]
    have h2 : q i * xstr i * (ps.map (fun p => Moc.planeVolume i p.1)).sum ≤ q i * xstr i * (fpi * vol i) :=
      mul_le_mul_of_nonneg_left (hvol i hi) (mul_nonneg (hq i hi) (hx i hi).le)
    have : -(q i * fpi) * (xstr i * vol i) = -(q i * xstr i * (fpi * vol i)) := by ring
    rw [this]
    linarith
  linarith

/-- A MoC sweeper with rays that see no more volume than the regions have. -/
structure MocPosOk (p : Problem K) (m : MocSetup K) (nAng : Nat) (n : Nat → Nat) : Prop where
  fpi : 0 < m.fpi
  expo : Moc.ExpOk m.expo
  planes : ∀ w ∈ m.planes, PlaneOk p.nReg nAng n w ∧ RaysPos w
  update : UpdatePos nAng n m.u
  volume : ∀ i < p.nReg, (m.planes.map (Moc.planeVolume i)).sum ≤ m.fpi * p.vol i

/-- Flux and incoming boundary values are not negative; outgoing values may be anything. -/
structure MocPos (p : Problem K) (m : MocSetup K) (nAng : Nat) (n : Nat → Nat) (s : MocState K) : Prop where
  flux : PosFlux p s.flux
  nin : ∀ g < p.ng, (s.bin g).length = m.planes.length
  nout : s.bout.length = m.planes.length
  bin : ∀ g < p.ng, ∀ b ∈ s.bin g, PosOn nAng n b

theorem mocInner_pos (p : Problem K) (h : Physical p) (m : MocSetup K) (nAng : Nat) (n : Nat → Nat) (hm : MocPosOk p m nAng n)
    (g : Nat) (hg : g < p.ng) (src : Nat → K) (hsrc : ∀ i < p.nReg, 0 ≤ src i) (s : MocState K) (hs : MocPos p m nAng n s) :
    MocPos p m nAng n (mocInner p m g src s) := by
  have hq : ∀ i < p.nReg, 0 ≤ selfScatter m.fpi p.ng p.rs s.flux g src true s.q i := by
    intro i hi
    obtain ⟨x, hx, hxi⟩ := (h.cover i).mp hi
    rw [selfScatter_at m.fpi p.ng p.rs h.part s.flux g hg src true s.q x hx i hxi, if_pos rfl]
    have h1 := h.tr x hx g hg
    have h2 := hm.fpi
    have h3 := hsrc i hi
    have h4 := hs.flux i hi g hg
    have h5 := h.sc x hx g g hg hg
    positivity
  have hx : ∀ i < p.nReg, 0 < trOf p.rs g i := by
    intro i hi
    obtain ⟨x, hx, hxi⟩ := (h.cover i).mp hi
    rw [trOf_at p.rs h.part g x hx i hxi]
    exact h.tr x hx g hg
  have hlen : (m.planes.zip ((s.bin g).zip s.bout)).length = m.planes.length := by
    rw [List.length_zip, List.length_zip, hs.nin g hg, hs.nout]; simp
  have hmap : ∀ i, (m.planes.zip ((s.bin g).zip s.bout)).map (fun p => Moc.planeVolume i p.1) = m.planes.map (Moc.planeVolume i) := by
    intro i
    have : (m.planes.zip ((s.bin g).zip s.bout)).map Prod.fst = m.planes :=
      List.map_fst_zip (by rw [List.length_zip, hs.nin g hg, hs.nout]; simp)
    conv_rhs => rw [← this, List.map_map]
    rfl
  obtain ⟨r1, r2, r3⟩ := sweep_pos m.expo hm.expo m.fpi (trOf p.rs g) p.vol _ m.gs p.nReg nAng n m.u hm.update hx h.vol hq
    (m.planes.zip ((s.bin g).zip s.bout)) (fun w hw => by
      obtain ⟨h1, h2⟩ := List.of_mem_zip (a := w.1) (b := w.2) hw
      obtain ⟨h3, h4⟩ := List.of_mem_zip (a := w.2.1) (b := w.2.2) h2
      exact ⟨(hm.planes _ h1).1, (hm.planes _ h1).2, hs.bin g hg _ h3⟩) (fun i hi => by rw [hmap i]; exact hm.volume i hi)
  refine ⟨?_, ?_, ?_, ?_⟩
  · intro i hi g' hg'
    simp only [mocInner]
    split
    · exact r1 i hi
    · exact hs.flux i hi g' hg'
  · intro g' hg'
    simp only [mocInner]
    split
    · rw [List.length_map, r2, hlen]
    · exact hs.nin g' hg'
  · simp only [mocInner, List.length_map]
    rw [r2, hlen]
  · intro g' hg' b hb
    simp only [mocInner] at hb
    split at hb
    · obtain ⟨y, hy, rfl⟩ := List.mem_map.mp hb
      exact r3 y hy
    · exact hs.bin g' hg' b hb

/-- C109, MoC: such a sweeper is one for the theorems above, whatever the boundary conditions and the outgoing values at the start. -/
theorem C109_moc (p : Problem K) (h : Physical p) (m : MocSetup K) (nAng : Nat) (n : Nat → Nat) (hm : MocPosOk p m nAng n) :
    KeepsPos p (mocSweeper p m) (MocPos p m nAng n) :=
  ⟨fun _ hs => hs.flux, fun g hg src s hsrc hs => by
    show MocPos p m nAng n (mocSweep p m g src s)
    unfold mocSweep
    induction m.nInner with
    | zero => exact hs
    | succ N ih =>
      rw [List.range_succ, List.foldl_append]
      exact mocInner_pos p h m nAng n hm g hg src hsrc _ ih⟩

/-- C109: the boundary condition keeps the sign, with vacuum as well. -/
theorem C109_store_moc (sh : BC.Store K) : UpdatePos sh.size.length (rowSize sh) (mocUpdate sh) := by
  constructor
  · intro a ha b o hb ho a' ha' j hj
    simp only [mocUpdate]
    refine (store_keeps sh (0 ≤ ·) (fun _ _ => le_refl _) _ _ ?_).1 a ?_ a' ha' _ _ (faceOf_lt sh a' j hj).1
    · intro a n hn e he
      exact hb a n _ (slot_lt_row sh a hn e he)
    · intro n e he
      exact ho _ (slot_lt_row sh a n e he)
  · intro b o hb ho a' ha' j hj
    simp only [mocUpdate]
    refine (store_keeps sh (0 ≤ ·) (fun _ _ => le_refl _) _ _ ?_).2 ?_ a' ha' _ _ (faceOf_lt sh a' j hj).1
    · intro a n hn e he
      exact hb a n _ (slot_lt_row sh a hn e he)
    · intro a n hn e he
      exact ho a n _ (slot_lt_row sh a hn e he)

/-! ### Sn -/

/-- C109, Sn: whatever ordinates, schemes and boundary values. -/
theorem C109_sn {κ : Type} (p : Problem K) (m : SnSetup κ K) : KeepsPos p (snSweeper p m) (fun s => PosFlux p s.flux) :=
  ⟨fun _ hs => hs, fun g hg src s _ hs => by
    have key : ∀ N, ∀ i < p.nReg, ∀ g' < p.ng, g' ≠ g → 0 ≤ ((List.range N).foldl (fun s _ => snInner p m g src s) s).flux i g' := by
      intro N i hi g' hg' hne
      induction N with
      | zero => exact hs i hi g' hg'
      | succ N ih =>
        rw [List.range_succ, List.foldl_append]
        simp only [List.foldl_cons, List.foldl_nil, snInner, if_neg hne]
        exact ih
    intro i hi g' hg'
    show 0 ≤ (snSweep p m g src s).flux i g'
    simp only [snSweep]
    split
    · exact le_refl _
    · next hn =>
      by_cases e : g' = g
      · exact not_lt.mp fun hlt => hn ⟨e, hlt⟩
      · exact key m.nInner i hi g' hg' e⟩

/-- C109: the replacement touches exactly the negative fluxes of the swept group. -/
theorem C109_sn_fix {κ : Type} (p : Problem K) (m : SnSetup κ K) (g : Nat) (src : Nat → K) (s : SnState κ K) (i h : Nat) :
    let t := (List.range m.nInner).foldl (fun s _ => snInner p m g src s) s
    (snSweep p m g src s).flux i h = if h = g then max (t.flux i h) 0 else s.flux i h := by
  intro t
  have key : ∀ N, h ≠ g → ((List.range N).foldl (fun s _ => snInner p m g src s) s).flux i h = s.flux i h := by
    intro N hne
    induction N with
    | zero => rfl
    | succ N ih =>
      rw [List.range_succ, List.foldl_append]
      simp only [List.foldl_cons, List.foldl_nil, snInner, if_neg hne]
      exact ih
  simp only [snSweep]
  by_cases e : h = g
  · rw [if_pos e]
    by_cases hlt : t.flux i h < 0
    · rw [if_pos ⟨e, hlt⟩, max_eq_right hlt.le]
    · rw [if_neg (fun hh => hlt hh.2), max_eq_left (not_lt.mp hlt)]
  · rw [if_neg (fun hh => e hh.1), if_neg e]
    exact key m.nInner e

end

theorem demo_physical : Physical demoProblem where
  part := demo_infinite.part
  cover := demo_infinite.cover
  sc := demo_infinite.nonneg
  nf := by
    intro x hx g _
    simp only [demoProblem, List.mem_singleton] at hx
    subst hx
    simp [demoMat]
  ch := by
    intro x hx g _
    simp only [demoProblem, List.mem_singleton] at hx
    subst hx
    simp only [demoMat]
    split_ifs <;> norm_num
  tr := by
    intro x hx g _
    simp only [demoProblem, List.mem_singleton] at hx
    subst hx
    simp only [demoMat]
    split_ifs <;> norm_num
  vol := by intro i _; simp [demoProblem]

theorem demo_mocPosOk (gs : Bool) : MocPosOk demoProblem (demoMoc gs) 2 (fun _ => 2) where
  fpi := by simp [demoMoc]
  expo := by
    refine ⟨fun x hx => ?_, fun x hx => ?_, fun x hx => ?_⟩
    · simp only [demoMoc]
      exact div_nonneg zero_le_one (by linarith)
    · simp only [demoMoc]
      rw [div_le_one (by linarith)]
      linarith
    · simp only [demoMoc]
      rw [le_div_iff₀ (by linarith)]
      nlinarith
  planes := by
    intro w hw
    refine ⟨(demo_mocOk gs).planes w hw, ?_⟩
    simp only [demoMoc, List.mem_singleton] at hw
    subst hw
    intro w hw
    simp only [List.mem_singleton] at hw
    subst hw
    exact ⟨by decide +kernel, by decide +kernel, by decide +kernel⟩
  update := by
    refine ⟨?_, ?_⟩
    · intro a ha b o hb ho a' ha' j hj
      simp only [demoMoc]
      split
      · exact ho j hj
      · exact hb a' ha' j hj
    · intro b o hb ho a ha j hj
      exact ho (1 - a) (by omega) j hj
  volume := by
    intro i hi
    have h2 : i < 2 := hi
    interval_cases i <;> (cases gs <;> decide +kernel)

/-- Starting without incoming neutrons and with negative outgoing values. -/
example (gs : Bool) : ∃ k' s', outer demoProblem (mocSweeper demoProblem (demoMoc gs)) 2
    ⟨fun i g => if i = g then 3 else 0, fun _ => -7, fun _ => [fun _ _ => 0], [fun _ _ => -99]⟩ = some (k', s') ∧
      MocPos demoProblem (demoMoc gs) 2 (fun _ => 2) s' ∧ PosFlux demoProblem s'.flux ∧ 0 ≤ k' ∧
      (0 < k' ↔ 0 < totalFission demoProblem.ng demoProblem.rs demoProblem.vol s'.flux) :=
  C109_outer demoProblem demo_physical _ _ (C109_moc demoProblem demo_physical (demoMoc gs) 2 (fun _ => 2) (demo_mocPosOk gs)) 2 (by norm_num) _
    ⟨fun i _ g _ => by dsimp only; split <;> norm_num, fun _ _ => rfl, rfl, fun g _ b hb => by
      simp only [List.mem_singleton] at hb
      subst hb
      intro a _ j _
      exact le_refl _⟩ (by cases gs <;> decide +kernel)

/-- There are problems with fission in all iterations. -/
example (gs : Bool) (n : Nat) : ∃ k' s', outers demoProblem (mocSweeper demoProblem (demoMoc gs)) n 2
    ⟨fun _ _ => 1, fun _ => 7, fun _ => [fun _ _ => 1 / 12], [fun _ _ => 99]⟩ = some (k', s') ∧
      MocPos demoProblem (demoMoc gs) 2 (fun _ => 2) s' ∧ PosFlux demoProblem s'.flux ∧ 0 < k' := by
  have flat : MocFlat demoProblem (demoMoc gs) 2 (fun _ => 2) (fun _ => 1) ⟨fun _ _ => 1, fun _ => 7, fun _ => [fun _ _ => 1 / 12], [fun _ _ => 99]⟩ :=
    ⟨fun _ _ _ _ => rfl, fun _ _ => rfl, rfl, fun g _ b hb => by
      simp only [List.mem_singleton] at hb
      subst hb
      intro a _ j _
      simp [demoMoc]⟩
  refine C109_outers demoProblem demo_physical _ _ (C109_moc demoProblem demo_physical (demoMoc gs) 2 (fun _ => 2) (demo_mocPosOk gs)) n 2 (by norm_num) _
    ⟨fun i _ g _ => by norm_num, fun _ _ => rfl, rfl, fun g _ b hb => by
      simp only [List.mem_singleton] at hb
      subst hb
      intro a _ j _
      norm_num⟩ ?_
  intro m _ k' s' h
  obtain ⟨s₁, h1, h2⟩ := C108_moc demoProblem 2 (fun _ => 1) demo_infinite demo_fission (demoMoc gs) 2 (fun _ => 2) (demo_mocOk gs) m _ flat
  rw [h, Option.some.injEq, Prod.mk.injEq] at h1
  obtain ⟨-, rfl⟩ := h1
  show 0 < totalFission demoProblem.ng demoProblem.rs demoProblem.vol s'.flux
  rw [fission_flat demoProblem 2 _ demo_infinite _ h2.flux]
  decide +kernel

/-- Vacuum on all faces. -/
example : UpdatePos 8 (rowSize { demoStore with types := fun _ => .VACUUM }) (mocUpdate { demoStore with types := fun _ => .VACUUM }) :=
  C109_store_moc { demoStore with types := fun _ => .VACUUM }

example (gs : Bool) : ∃ k' s', outer demoProblem (snSweeper demoProblem (demoSn gs)) 2
    ⟨fun i g => if i = g then 3 else 0, fun _ => -7, fun _ _ _ _ => -1, fun _ _ _ => 99⟩ = some (k', s') ∧ PosFlux demoProblem s'.flux ∧
      PosFlux demoProblem s'.flux ∧ 0 ≤ k' ∧ (0 < k' ↔ 0 < totalFission demoProblem.ng demoProblem.rs demoProblem.vol s'.flux) :=
  C109_outer demoProblem demo_physical _ _ (C109_sn demoProblem (demoSn gs)) 2 (by norm_num) _
    (fun i _ g _ => by dsimp only; split <;> norm_num) (by cases gs <;> decide +kernel)

end Verif.Medium
