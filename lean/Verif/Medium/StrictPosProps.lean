import Verif.Medium.PositiveProps
import Mathlib.Tactic.Linarith
import Mathlib.Tactic.Ring
import Mathlib.Tactic.Positivity

/-!
# A source makes a flux

A region with a positive source has a positive flux after a sweep of the group with MoC, if no attenuation is linear: the rays take away less than the source of the region.
-/

set_option linter.unusedSectionVars false

namespace Verif.Medium

open Verif.XS Verif.Source

variable {K : Type} [Field K] [LinearOrder K] [IsStrictOrderedRing K]

/-- The exponential is above its tangent at zero. -/
def AboveTangent (expo : K → K) : Prop := ∀ x < 0, 1 + x < expo x

theorem rays_slope (expo : K → K) (hexp : Moc.ExpOk expo) (nReg : Nat) (xstr q : Nat → K) (hx : ∀ i < nReg, 0 ≤ xstr i) (hq : ∀ i < nReg, 0 ≤ q i)
    (rst wt : K) (hrst : 0 ≤ rst) (hwt : 0 ≤ wt) (first i : Nat) (σ : K) (l : List (Moc.Ray K)) (hσ : ∀ r ∈ l, ∀ s ∈ r.segs, s.reg + first = i → Moc.eTau expo xstr rst first s ≤ σ * s.len * rst) (hreg : ∀ r ∈ l, ∀ s ∈ r.segs, s.reg + first < nReg)
    (hlen : ∀ r ∈ l, ∀ s ∈ r.segs, 0 ≤ s.len) (in1 in2 : Nat → K) (h1 : ∀ r ∈ l, 0 ≤ in1 r.bc0) (h2 : ∀ r ∈ l, 0 ≤ in2 r.bc1) (a : Moc.Acc K) :
    let r := l.foldl (Moc.sweepRay (Moc.eTau expo xstr rst first) q wt first in1 in2) a
    (∀ j, (0 ≤ a.out1 j ∨ ∃ y ∈ l, y.bc1 = j) → 0 ≤ r.out1 j) ∧ (∀ j, (0 ≤ a.out2 j ∨ ∃ y ∈ l, y.bc0 = j) → 0 ≤ r.out2 j) ∧
    a.tflux i - q i * σ * (l.map (fun r => 2 * (wt * rst * Moc.tracked first i r.segs))).sum ≤ r.tflux i := by
  induction l generalizing a with
  | nil =>
    refine ⟨?_, ?_, by simp⟩
    · rintro j (h | ⟨y, hy, -⟩)
      · exact h
      · simp at hy
    · rintro j (h | ⟨y, hy, -⟩)
      · exact h
      · simp at hy
  | cons y l ih =>
    rw [List.foldl_cons]
    have hy := hlen y (by simp)
    have hr := hreg y (by simp)
    have neg : ∀ s ∈ y.segs, -xstr (s.reg + first) * s.len * rst ≤ 0 := by
      intro s hs
      have := mul_nonneg (mul_nonneg (hx _ (hr s hs)) (hy s hs)) hrst
      linarith
    have e0 : ∀ s ∈ y.segs, 0 ≤ Moc.eTau expo xstr rst first s := fun s hs => by
      have := hexp.le_one _ (neg s hs); unfold Moc.eTau; linarith
    have e1 : ∀ s ∈ y.segs, Moc.eTau expo xstr rst first s ≤ 1 := fun s hs => by
      have := hexp.nonneg _ (neg s hs); unfold Moc.eTau; linarith
    have e2 : ∀ s ∈ y.segs, s.reg + first = i → Moc.eTau expo xstr rst first s ≤ σ * s.len * rst := hσ y (by simp)
    obtain ⟨f1, f2⟩ := Moc.walk_nonneg (Moc.eTau expo xstr rst first) q wt σ rst first i y.segs e0 e1 (fun s hs => hq _ (hr s hs)) hwt e2
      (in1 y.bc0) (h1 y (by simp)) a.tflux
    obtain ⟨b1, b2⟩ := Moc.walk_nonneg (Moc.eTau expo xstr rst first) q wt σ rst first i y.segs.reverse
      (by simpa using e0) (by simpa using e1) (fun s hs => hq _ (hr s (by simpa using hs))) hwt (by simpa using e2) (in2 y.bc1) (h2 y (by simp))
      (Moc.walk (Moc.eTau expo xstr rst first) q wt first y.segs (in1 y.bc0) a.tflux).2
    rw [Moc.tracked_reverse] at b2
    obtain ⟨i1, i2, i3⟩ := ih (fun r hr => hσ r (by simp [hr])) (fun r hr => hreg r (by simp [hr])) (fun r hr => hlen r (by simp [hr])) (fun r hr => h1 r (by simp [hr]))
      (fun r hr => h2 r (by simp [hr])) (Moc.sweepRay (Moc.eTau expo xstr rst first) q wt first in1 in2 a y)
    refine ⟨fun j hj => i1 j ?_, fun j hj => i2 j ?_, le_trans ?_ i3⟩
    · by_cases e : j = y.bc1
      · left; simp only [Moc.sweepRay, Moc.upd, e, if_true]; exact f1
      · rcases hj with h | ⟨z, hz, he⟩
        · left; simp only [Moc.sweepRay, Moc.upd, if_neg e]; exact h
        · rcases List.mem_cons.mp hz with rfl | hz
          · exact absurd he.symm e
          · exact Or.inr ⟨z, hz, he⟩
    · by_cases e : j = y.bc0
      · left; simp only [Moc.sweepRay, Moc.upd, e, if_true]; exact b1
      · rcases hj with h | ⟨z, hz, he⟩
        · left; simp only [Moc.sweepRay, Moc.upd, if_neg e]; exact h
        · rcases List.mem_cons.mp hz with rfl | hz
          · exact absurd he.symm e
          · exact Or.inr ⟨z, hz, he⟩
    · rw [List.map_cons, List.sum_cons]
      have e3 : (Moc.sweepRay (Moc.eTau expo xstr rst first) q wt first in1 in2 a y).tflux i =
        (Moc.walk (Moc.eTau expo xstr rst first) q wt first y.segs.reverse (in2 y.bc1)
          (Moc.walk (Moc.eTau expo xstr rst first) q wt first y.segs (in1 y.bc0) a.tflux).2).2 i := rfl
      rw [e3, mul_add]
      linarith

theorem angles_slope (expo : K → K) (hexp : Moc.ExpOk expo) (xstr q : Nat → K) (gs : Bool) (nReg nAng : Nat) (n : Nat → Nat) (u : Moc.BcUpdate K)
    (hu : UpdatePos nAng n u) (hx : ∀ i < nReg, 0 ≤ xstr i) (hq : ∀ i < nReg, 0 ≤ q i) (first i : Nat) (σ : K) (ws : List (Moc.AngleWork K))
    (hσ : ∀ w ∈ ws, ∀ r ∈ w.rays, ∀ s ∈ r.segs, s.reg + first = i → Moc.eTau expo xstr w.rst first s ≤ σ * s.len * w.rst)
    (hw : ∀ w ∈ ws, Moc.AngleOk nReg first (n w.iang1) w ∧ w.iang1 < nAng ∧ w.iang2 < nAng ∧ n w.iang2 = n w.iang1)
    (hp : ∀ w ∈ ws, 0 ≤ w.rst ∧ 0 ≤ w.wt ∧ ∀ r ∈ w.rays, ∀ s ∈ r.segs, 0 ≤ s.len) (s : Moc.St K) (hb : PosOn nAng n s.bin) :
    let s' := ws.foldl (Moc.sweepAngle expo xstr q gs u first) s
    PosOn nAng n s'.bin ∧ (∀ a, ((∀ j < n a, 0 ≤ s.bout a j) ∨ ∃ w ∈ ws, a = w.iang1 ∨ a = w.iang2) → ∀ j < n a, 0 ≤ s'.bout a j) ∧
      s.tflux i - q i * σ * (ws.map (Moc.angleVolume first i)).sum ≤ s'.tflux i := by
  induction ws generalizing s with
  | nil =>
    refine ⟨hb, ?_, by simp⟩
    rintro a (h | ⟨w, hw, -⟩)
    · exact h
    · simp at hw
  | cons w ws ih =>
    rw [List.foldl_cons]
    obtain ⟨ok, l1, l2, ln⟩ := hw w (by simp)
    obtain ⟨w1, w2, w3⟩ := hp w (by simp)
    have m0 : ∀ r ∈ w.rays, r.bc0 < n w.iang1 := fun r hr => by
      have := (ok.ends0.mem_iff (a := r.bc0)).mp (List.mem_map.mpr ⟨r, hr, rfl⟩)
      simpa using this
    have m1 : ∀ r ∈ w.rays, r.bc1 < n w.iang1 := fun r hr => by
      have := (ok.ends1.mem_iff (a := r.bc1)).mp (List.mem_map.mpr ⟨r, hr, rfl⟩)
      simpa using this
    obtain ⟨r2, r3, r1⟩ := rays_slope expo hexp nReg xstr q hx hq w.rst w.wt w1 w2 first i σ w.rays (hσ w (by simp)) ok.regs w3
      (s.bin w.iang1) (s.bin w.iang2) (fun r hr => hb _ l1 _ (m0 r hr)) (fun r hr => hb _ l2 _ (by rw [ln]; exact m1 r hr))
      ⟨s.tflux, s.bout w.iang1, s.bout w.iang2⟩
    have o1 : ∀ j < n w.iang1, 0 ≤ (Moc.sweepAngle expo xstr q gs u first s w).bout w.iang1 j := by
      intro j hj
      have := (ok.ends1.mem_iff (a := j)).mpr (by simpa using hj)
      obtain ⟨r, hr, he⟩ := List.mem_map.mp this
      have hne : ¬ w.iang1 = w.iang2 := ok.ne
      simp only [Moc.sweepAngle, Moc.upd, if_neg hne, if_true]
      exact r2 j (Or.inr ⟨r, hr, he⟩)
    have o2 : ∀ j < n w.iang2, 0 ≤ (Moc.sweepAngle expo xstr q gs u first s w).bout w.iang2 j := by
      intro j hj
      have := (ok.ends0.mem_iff (a := j)).mpr (by rw [ln] at hj; simpa using hj)
      obtain ⟨r, hr, he⟩ := List.mem_map.mp this
      simp only [Moc.sweepAngle, Moc.upd, if_true]
      exact r3 j (Or.inr ⟨r, hr, he⟩)
    have hbi : PosOn nAng n (Moc.sweepAngle expo xstr q gs u first s w).bin := by
      cases gs
      · simpa [Moc.sweepAngle] using hb
      · have : (Moc.sweepAngle expo xstr q true u first s w).bin = u.one w.iang2 (u.one w.iang1 s.bin
            (Moc.sweepAngle expo xstr q true u first s w).bout) (Moc.sweepAngle expo xstr q true u first s w).bout := rfl
        rw [this]
        exact hu.one _ l2 _ _ (hu.one _ l1 _ _ hb o1) o2
    obtain ⟨i2, i3, i1⟩ := ih (fun x hx => hσ x (by simp [hx])) (fun x hx => hw x (by simp [hx])) (fun x hx => hp x (by simp [hx])) _ hbi
    refine ⟨i2, fun a ha => i3 a ?_, le_trans ?_ i1⟩
    · by_cases e1 : a = w.iang1
      · subst e1; exact Or.inl o1
      by_cases e2 : a = w.iang2
      · subst e2; exact Or.inl o2
      rcases ha with h | ⟨x, hx, he⟩
      · left
        intro j hj
        simp only [Moc.sweepAngle, Moc.upd, if_neg e1, if_neg e2]
        exact h j hj
      · rcases List.mem_cons.mp hx with rfl | hx
        · exact absurd he (by simp [e1, e2])
        · exact Or.inr ⟨x, hx, he⟩
    · rw [List.map_cons, List.sum_cons]
      have r3' : s.tflux i - q i * σ * Moc.angleVolume first i w ≤ (Moc.sweepAngle expo xstr q gs u first s w).tflux i := r1
      rw [mul_add]
      linarith

theorem slope_exists (expo : K → K) (hexp : Moc.ExpOk expo) (ht : AboveTangent expo) (x : K) (hx : 0 < x) (l : List K) (hl : ∀ v ∈ l, 0 ≤ v) :
    ∃ σ, 0 ≤ σ ∧ σ < x ∧ ∀ v ∈ l, 1 - expo (-(x * v)) ≤ σ * v := by
  induction l with
  | nil => exact ⟨0, le_refl _, hx, by simp⟩
  | cons v l ih =>
    obtain ⟨σ, h0, h1, h2⟩ := ih fun u hu => hl u (by simp [hu])
    rcases (hl v (by simp)).eq_or_lt with hv | hv
    · refine ⟨σ, h0, h1, fun u hu => ?_⟩
      rcases List.mem_cons.mp hu with rfl | hu
      · rw [← hv]
        have := hexp.tangent 0 (le_refl _)
        simp only [mul_zero, neg_zero]
        linarith
      · exact h2 u hu
    · refine ⟨max σ ((1 - expo (-(x * v))) / v), h0.trans (le_max_left _ _), max_lt h1 ?_, fun u hu => ?_⟩
      · rw [div_lt_iff₀ hv]
        have := ht (-(x * v)) (by have := mul_pos hx hv; linarith)
        linarith
      · rcases List.mem_cons.mp hu with rfl | hu
        · rw [← div_le_iff₀ hv]
          exact le_max_right _ _
        · exact (h2 u hu).trans (mul_le_mul_of_nonneg_right (le_max_left _ _) (hl u (by simp [hu])))

/-- Lengths of all segments of planes, divided by the sine of the polar angle. -/
def lengths (ps : List (Moc.PlaneWork K × (Nat → Nat → K) × (Nat → Nat → K))) : List K :=
  ps.flatMap fun p => p.1.angles.flatMap fun w => w.rays.flatMap fun r => r.segs.map fun s => s.len * w.rst

theorem mem_lengths {ps : List (Moc.PlaneWork K × (Nat → Nat → K) × (Nat → Nat → K))} {p} (hp : p ∈ ps) {w} (hw : w ∈ p.1.angles) {r} (hr : r ∈ w.rays) {s} (hs : s ∈ r.segs) :
    s.len * w.rst ∈ lengths ps :=
  List.mem_flatMap.mpr ⟨p, hp, List.mem_flatMap.mpr ⟨w, hw, List.mem_flatMap.mpr ⟨r, hr, List.mem_map.mpr ⟨s, hs, rfl⟩⟩⟩⟩

theorem sweep_strict (expo : K → K) (hexp : Moc.ExpOk expo) (ht : AboveTangent expo) (fpi : K) (hfpi : 0 < fpi) (xstr vol q : Nat → K) (gs : Bool) (nReg nAng : Nat) (n : Nat → Nat)
    (u : Moc.BcUpdate K) (hu : UpdatePos nAng n u) (hx : ∀ i < nReg, 0 < xstr i) (hv : ∀ i < nReg, 0 < vol i) (hq : ∀ i < nReg, 0 ≤ q i)
    (ps : List (Moc.PlaneWork K × (Nat → Nat → K) × (Nat → Nat → K))) (hp : ∀ p ∈ ps, PlaneOk nReg nAng n p.1 ∧ RaysPos p.1 ∧ PosOn nAng n p.2.1)
    (hvol : ∀ i < nReg, (ps.map (fun p => Moc.planeVolume i p.1)).sum ≤ fpi * vol i) (i : Nat) (hi : i < nReg) (hqi : 0 < q i) :
    0 < (Moc.sweep1g expo fpi xstr vol q gs u ps).1 i := by
  obtain ⟨σ, s0, s1, s2⟩ := slope_exists expo hexp ht (xstr i) (hx i hi) (lengths ps) (by
    intro v hv
    simp only [lengths, List.mem_flatMap, List.mem_map] at hv
    obtain ⟨p, hpm, w, hw, r, hr, s, hs, rfl⟩ := hv
    obtain ⟨w1, -, w3⟩ := (hp p hpm).2.1 w hw
    exact mul_nonneg (w3 r hr s hs) w1)
  have hσ : ∀ p ∈ ps, ∀ w ∈ p.1.angles, ∀ r ∈ w.rays, ∀ s ∈ r.segs, s.reg + p.1.first = i → Moc.eTau expo xstr w.rst p.1.first s ≤ σ * s.len * w.rst := by
    intro p hpm w hw r hr s hs he
    have := s2 _ (mem_lengths hpm hw hr hs)
    unfold Moc.eTau
    rw [he, show -xstr i * s.len * w.rst = -(xstr i * (s.len * w.rst)) by ring, mul_assoc]
    exact this
  have key : ∀ (ps : List (Moc.PlaneWork K × (Nat → Nat → K) × (Nat → Nat → K))) (t : Nat → K),
      (∀ p ∈ ps, PlaneOk nReg nAng n p.1 ∧ RaysPos p.1 ∧ PosOn nAng n p.2.1) →
      (∀ p ∈ ps, ∀ w ∈ p.1.angles, ∀ r ∈ w.rays, ∀ s ∈ r.segs, s.reg + p.1.first = i → Moc.eTau expo xstr w.rst p.1.first s ≤ σ * s.len * w.rst) →
      t i - q i * σ * (ps.map (fun p => Moc.planeVolume i p.1)).sum ≤ (Moc.sweepPlanes expo xstr q gs u ps t).1 i := by
    intro ps
    induction ps with
    | nil => intro t _ _; simp [Moc.sweepPlanes]
    | cons p ps ih =>
      intro t h hs
      obtain ⟨p, bin, bout⟩ := p
      obtain ⟨ok, hr, hb⟩ := h (p, bin, bout) (by simp)
      obtain ⟨-, -, a1⟩ := angles_slope expo hexp xstr q gs nReg nAng n u hu (fun i hi => (hx i hi).le) hq p.first i σ p.angles (hs (p, bin, bout) (by simp)) ok.angle hr ⟨t, bin, bout⟩ hb
      have e1 : t i - q i * σ * Moc.planeVolume i p ≤ (Moc.sweepPlane expo xstr q gs u p ⟨t, bin, bout⟩).tflux i := a1
      have i1 := ih (Moc.sweepPlane expo xstr q gs u p ⟨t, bin, bout⟩).tflux (fun x hx => h x (by simp [hx])) (fun x hx => hs x (by simp [hx]))
      simp only [Moc.sweepPlanes]
      rw [List.map_cons, List.sum_cons, mul_add]
      linarith
  have k1 := key ps (fun _ => 0) hp hσ
  simp only [Moc.sweep1g, Moc.finish]
  have hxv : 0 < xstr i * vol i := mul_pos (hx i hi) (hv i hi)
  have h1 : -(q i * fpi) < (Moc.sweepPlanes expo xstr q gs u ps (fun _ => 0)).1 i / (xstr i * vol i) := by
    rw [lt_div_iff₀ hxv]
    have h2 : q i * σ * (ps.map (fun p => Moc.planeVolume i p.1)).sum ≤ q i * σ * (fpi * vol i) :=
      mul_le_mul_of_nonneg_left (hvol i hi) (mul_nonneg (hq i hi) s0)
    have h3 : q i * σ * (fpi * vol i) < q i * xstr i * (fpi * vol i) :=
      mul_lt_mul_of_pos_right (mul_lt_mul_of_pos_left s1 hqi) (mul_pos hfpi (hv i hi))
    have : -(q i * fpi) * (xstr i * vol i) = -(q i * xstr i * (fpi * vol i)) := by ring
    rw [this]
    linarith
  linarith

theorem mocInner_strict (p : Problem K) (h : Physical p) (m : MocSetup K) (nAng : Nat) (n : Nat → Nat) (hm : MocPosOk p m nAng n) (ht : AboveTangent m.expo)
    (g : Nat) (hg : g < p.ng) (src : Nat → K) (hsrc : ∀ i < p.nReg, 0 ≤ src i) (s : MocState K) (hs : MocPos p m nAng n s) (i : Nat) (hi : i < p.nReg) (hp : 0 < src i) :
    0 < (mocInner p m g src s).flux i g := by
  have hq : ∀ i < p.nReg, 0 ≤ selfScatter m.fpi p.ng p.rs s.flux g src true s.q i := by
    intro i hi
    obtain ⟨x, hx, hxi⟩ := (h.cover i).mp hi
    rw [selfScatter_at m.fpi p.ng p.rs h.part s.flux g hg src true s.q x hx i hxi, if_pos rfl]
    have h1 := h.tr x hx g hg
    have h2 := hm.fpi
    have h3 := hsrc i hi
    have h4 := hs.flux i hi g hg
    have h5 := h.sc x hx g g hg hg
    positivity
  have hqi : 0 < selfScatter m.fpi p.ng p.rs s.flux g src true s.q i := by
    obtain ⟨x, hx, hxi⟩ := (h.cover i).mp hi
    rw [selfScatter_at m.fpi p.ng p.rs h.part s.flux g hg src true s.q x hx i hxi, if_pos rfl]
    have h1 := h.tr x hx g hg
    have h2 := hm.fpi
    have h4 := hs.flux i hi g hg
    have h5 := h.sc x hx g g hg hg
    positivity
  have hx : ∀ i < p.nReg, 0 < trOf p.rs g i := by
    intro i hi
    obtain ⟨x, hx, hxi⟩ := (h.cover i).mp hi
    rw [trOf_at p.rs h.part g x hx i hxi]
    exact h.tr x hx g hg
  have hmap : ∀ i, (m.planes.zip ((s.bin g).zip s.bout)).map (fun p => Moc.planeVolume i p.1) = m.planes.map (Moc.planeVolume i) := by
    intro i
    have : (m.planes.zip ((s.bin g).zip s.bout)).map Prod.fst = m.planes :=
      List.map_fst_zip (by rw [List.length_zip, hs.nin g hg, hs.nout]; simp)
    conv_rhs => rw [← this, List.map_map]
    rfl
  have := sweep_strict m.expo hm.expo ht m.fpi hm.fpi (trOf p.rs g) p.vol _ m.gs p.nReg nAng n m.u hm.update hx h.vol hq
    (m.planes.zip ((s.bin g).zip s.bout)) (fun w hw => by
      obtain ⟨h1, h2⟩ := List.of_mem_zip (a := w.1) (b := w.2) hw
      obtain ⟨h3, h4⟩ := List.of_mem_zip (a := w.2.1) (b := w.2.2) h2
      exact ⟨(hm.planes _ h1).1, (hm.planes _ h1).2, hs.bin g hg _ h3⟩) (fun i hi => by rw [hmap i]; exact hm.volume i hi) i hi hqi
  simp only [mocInner, if_true]
  exact this

/-- A sweep with a source that is positive in a region leaves a positive flux there. -/
theorem mocSweep_strict (p : Problem K) (h : Physical p) (m : MocSetup K) (nAng : Nat) (n : Nat → Nat) (hm : MocPosOk p m nAng n) (ht : AboveTangent m.expo) (hin : 1 ≤ m.nInner)
    (g : Nat) (hg : g < p.ng) (src : Nat → K) (hsrc : ∀ i < p.nReg, 0 ≤ src i) (s : MocState K) (hs : MocPos p m nAng n s) (i : Nat) (hi : i < p.nReg) (hp : 0 < src i) :
    0 < (mocSweep p m g src s).flux i g := by
  have keep : ∀ N, MocPos p m nAng n ((List.range N).foldl (fun s _ => mocInner p m g src s) s) := by
    intro N
    induction N with
    | zero => exact hs
    | succ N ih =>
      rw [List.range_succ, List.foldl_append]
      exact mocInner_pos p h m nAng n hm g hg src hsrc _ ih
  obtain ⟨N, hN⟩ : ∃ N, m.nInner = N + 1 := ⟨m.nInner - 1, by omega⟩
  unfold mocSweep
  rw [hN, List.range_succ, List.foldl_append]
  exact mocInner_strict p h m nAng n hm ht g hg src hsrc _ (keep N) i hi hp

end Verif.Medium
