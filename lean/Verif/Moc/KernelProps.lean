import Verif.Moc.KernelLemmas
import Verif.Util.Sum
import Mathlib.Algebra.Order.Ring.Rat
import Mathlib.Algebra.Order.Field.Rat
import Mathlib.Algebra.Field.Rat
import Mathlib.Algebra.BigOperators.Group.List.Basic
import Mathlib.Analysis.SpecialFunctions.Exp
import Mathlib.Tactic.NormNum

/-!
# C31: the MoC sweep conserves neutrons
-/

set_option linter.unusedSectionVars false

namespace Verif.Moc

open Finset Verif.Util

section
variable {K : Type} [Field K]

/-- C31: along a ray, what all regions gain equals what the two beams lose between the ends of the ray. -/
theorem C31_ray (e : Seg K → K) (q : Nat → K) (wt : K) (first N : Nat) (in1 in2 : Nat → K) (a : Acc K) (r : Ray K)
    (hl : ∀ s ∈ r.segs, s.reg + first < N) :
    let a' := sweepRay e q wt first in1 in2 a r
    (∑ i ∈ range N, a'.tflux i) - ∑ i ∈ range N, a.tflux i =
      wt * ((in1 r.bc0 - a'.out1 r.bc1) + (in2 r.bc1 - a'.out2 r.bc0)) := by
  intro a'
  rw [ray_sum e q wt first N in1 in2 a r hl]
  ring

theorem rays_sum (e : Seg K → K) (q : Nat → K) (wt : K) (first N : Nat) (in1 in2 : Nat → K) (l : List (Ray K))
    (hl : ∀ r ∈ l, ∀ s ∈ r.segs, s.reg + first < N) (a : Acc K) :
    ∑ i ∈ range N, (l.foldl (sweepRay e q wt first in1 in2) a).tflux i = (∑ i ∈ range N, a.tflux i) +
      wt * (l.map (fun r => in1 r.bc0 - (walk e q wt first r.segs (in1 r.bc0) (fun _ => 0)).1 +
        (in2 r.bc1 - (walk e q wt first r.segs.reverse (in2 r.bc1) (fun _ => 0)).1))).sum := by
  induction l generalizing a with
  | nil => simp
  | cons y l ih =>
    rw [List.foldl_cons, ih (fun r hr => hl r (by simp [hr])), ray_sum e q wt first N in1 in2 a y (hl y (by simp))]
    obtain ⟨o1, o2⟩ := ray_out e q wt first in1 in2 a y
    rw [o1, o2, upd_same, upd_same, List.map_cons, List.sum_cons]
    ring

theorem sum_map_perm {α : Type} (l : List α) (g : α → Nat) (n : Nat) (h : (l.map g).Perm (List.range n)) (f : Nat → K) :
    (l.map (fun x => f (g x))).sum = ∑ j ∈ range n, f j := by
  rw [← list_sum_range, ← (h.map f).sum_eq, List.map_map]
  rfl

/-- What leaks out through the boundary slots of an angle and its reverse: incoming minus outgoing. -/
def slotLoss (n : Nat) (in1 in2 out1 out2 : Nat → K) : K := ∑ j ∈ range n, ((in1 j - out1 j) + (in2 j - out2 j))

/-- An angle is well set up: it differs from its reverse, its rays stay within the `N` regions, and the first ends as
well as the second ends of the rays are on each of the `n` boundary slots exactly once (C32). -/
structure AngleOk (N first n : Nat) (w : AngleWork K) : Prop where
  ne : w.iang1 ≠ w.iang2
  regs : ∀ r ∈ w.rays, ∀ s ∈ r.segs, s.reg + first < N
  ends0 : (w.rays.map Ray.bc0).Perm (List.range n)
  ends1 : (w.rays.map Ray.bc1).Perm (List.range n)

/-- C31: over an angle, what all regions gain equals what comes in minus what goes out over all boundary slots. -/
theorem C31_angle (expo : K → K) (xstr q : Nat → K) (gs : Bool) (u : BcUpdate K) (first N n : Nat) (s : St K)
    (w : AngleWork K) (hw : AngleOk N first n w) :
    let s' := sweepAngle expo xstr q gs u first s w
    (∑ i ∈ range N, s'.tflux i) - ∑ i ∈ range N, s.tflux i =
      w.wt * slotLoss n (s.bin w.iang1) (s.bin w.iang2) (s'.bout w.iang1) (s'.bout w.iang2) := by
  intro s'
  have hb1 : s'.bout w.iang1 = (w.rays.foldl (sweepRay (eTau expo xstr w.rst first) q w.wt first (s.bin w.iang1) (s.bin w.iang2))
      ⟨s.tflux, s.bout w.iang1, s.bout w.iang2⟩).out1 := by
    simp only [s', sweepAngle]
    rw [upd_ne _ _ hw.ne, upd_same]
  have hb2 : s'.bout w.iang2 = (w.rays.foldl (sweepRay (eTau expo xstr w.rst first) q w.wt first (s.bin w.iang1) (s.bin w.iang2))
      ⟨s.tflux, s.bout w.iang1, s.bout w.iang2⟩).out2 := by
    simp only [s', sweepAngle]
    rw [upd_same]
  rw [hb1, hb2]
  simp only [s', sweepAngle]
  rw [rays_sum _ _ _ _ _ _ _ _ hw.regs]
  simp only
  obtain ⟨-, h2, -, h4, -⟩ := rays_result (eTau expo xstr w.rst first) q w.wt first (s.bin w.iang1) (s.bin w.iang2) w.rays
    ⟨s.tflux, s.bout w.iang1, s.bout w.iang2⟩
  have n1 := hw.ends1.nodup_iff.mpr List.nodup_range
  have n0 := hw.ends0.nodup_iff.mpr List.nodup_range
  generalize w.rays.foldl _ _ = a' at h2 h4 ⊢
  rw [add_sub_cancel_left]
  congr 1
  unfold slotLoss
  have hmap : w.rays.map (fun r => s.bin w.iang1 r.bc0 -
        (walk (eTau expo xstr w.rst first) q w.wt first r.segs (s.bin w.iang1 r.bc0) (fun _ => 0)).1 +
        (s.bin w.iang2 r.bc1 - (walk (eTau expo xstr w.rst first) q w.wt first r.segs.reverse (s.bin w.iang2 r.bc1) (fun _ => 0)).1)) =
      w.rays.map (fun r => (s.bin w.iang1 r.bc0 - a'.out2 r.bc0) + (s.bin w.iang2 r.bc1 - a'.out1 r.bc1)) := by
    apply List.map_congr_left
    intro r hr
    rw [h2 n1 r hr, h4 n0 r hr]
    ring
  rw [hmap, List.sum_map_add, sum_map_perm w.rays Ray.bc0 n hw.ends0 (fun j => s.bin w.iang1 j - a'.out2 j),
    sum_map_perm w.rays Ray.bc1 n hw.ends1 (fun j => s.bin w.iang2 j - a'.out1 j), ← sum_add_distrib]
  refine sum_congr rfl fun j _ => ?_
  ring

/-- Weighted loss through the boundary during the sweep of the angles of a plane. -/
def planeLoss (expo : K → K) (xstr q : Nat → K) (gs : Bool) (u : BcUpdate K) (first : Nat) (n : Nat → Nat) :
    List (AngleWork K) → St K → K
  | [], _ => 0
  | w :: ws, s =>
    let s' := sweepAngle expo xstr q gs u first s w
    w.wt * slotLoss (n w.iang1) (s.bin w.iang1) (s.bin w.iang2) (s'.bout w.iang1) (s'.bout w.iang2) +
      planeLoss expo xstr q gs u first n ws s'

/-- Weighted loss through the boundaries of all planes. -/
def totalLoss (expo : K → K) (xstr q : Nat → K) (gs : Bool) (u : BcUpdate K) (n : Nat → Nat) :
    List (PlaneWork K × (Nat → Nat → K) × (Nat → Nat → K)) → (Nat → K) → K
  | [], _ => 0
  | (p, bin, bout) :: ps, t =>
    planeLoss expo xstr q gs u p.first n p.angles ⟨t, bin, bout⟩ +
      totalLoss expo xstr q gs u n ps (sweepPlane expo xstr q gs u p ⟨t, bin, bout⟩).tflux

theorem angles_sum (expo : K → K) (xstr q : Nat → K) (gs : Bool) (u : BcUpdate K) (first N : Nat) (n : Nat → Nat)
    (ws : List (AngleWork K)) (hw : ∀ w ∈ ws, AngleOk N first (n w.iang1) w) (s : St K) :
    ∑ i ∈ range N, (ws.foldl (sweepAngle expo xstr q gs u first) s).tflux i =
      (∑ i ∈ range N, s.tflux i) + planeLoss expo xstr q gs u first n ws s := by
  induction ws generalizing s with
  | nil => simp [planeLoss]
  | cons w ws ih =>
    rw [List.foldl_cons, ih (fun x hx => hw x (by simp [hx]))]
    have h := C31_angle expo xstr q gs u first N (n w.iang1) s w (hw w (by simp))
    simp only at h
    simp only [planeLoss]
    rw [← h]
    ring

theorem planes_sum (expo : K → K) (xstr q : Nat → K) (gs : Bool) (u : BcUpdate K) (N : Nat) (n : Nat → Nat)
    (ps : List (PlaneWork K × (Nat → Nat → K) × (Nat → Nat → K)))
    (hw : ∀ p ∈ ps, ∀ w ∈ p.1.angles, AngleOk N p.1.first (n w.iang1) w) (t : Nat → K) :
    ∑ i ∈ range N, (sweepPlanes expo xstr q gs u ps t).1 i =
      (∑ i ∈ range N, t i) + totalLoss expo xstr q gs u n ps t := by
  induction ps generalizing t with
  | nil => simp [sweepPlanes, totalLoss]
  | cons p ps ih =>
    obtain ⟨p, bin, bout⟩ := p
    simp only [sweepPlanes, totalLoss]
    rw [ih (fun x hx => hw x (by simp [hx]))]
    have h := angles_sum expo xstr q gs u p.first N n p.angles (hw (p, bin, bout) (by simp)) ⟨t, bin, bout⟩
    have e : (sweepPlane expo xstr q gs u p ⟨t, bin, bout⟩).tflux =
        (p.angles.foldl (sweepAngle expo xstr q gs u p.first) ⟨t, bin, bout⟩).tflux := rfl
    rw [e, h]
    ring

/-- C31: integral balance of the new scalar flux: collisions in all regions equal emissions plus what came in minus what
went out through the boundary. -/
theorem C31_balance (expo : K → K) (fpi : K) (xstr vol q : Nat → K) (gs : Bool) (u : BcUpdate K) (N : Nat) (n : Nat → Nat)
    (ps : List (PlaneWork K × (Nat → Nat → K) × (Nat → Nat → K)))
    (hw : ∀ p ∈ ps, ∀ w ∈ p.1.angles, AngleOk N p.1.first (n w.iang1) w)
    (hx : ∀ i < N, xstr i ≠ 0) (hv : ∀ i < N, vol i ≠ 0) :
    ∑ i ∈ range N, xstr i * vol i * (sweep1g expo fpi xstr vol q gs u ps).1 i =
      (∑ i ∈ range N, fpi * (xstr i * q i) * vol i) + totalLoss expo xstr q gs u n ps (fun _ => 0) := by
  have h := planes_sum expo xstr q gs u N n ps hw (fun _ => 0)
  rw [sum_const_zero, zero_add] at h
  rw [← h, ← sum_add_distrib]
  refine sum_congr rfl fun i hi => ?_
  have h1 := hx i (mem_range.mp hi)
  have h2 := hv i (mem_range.mp hi)
  simp only [sweep1g, finish]
  field_simp
  ring

/-! ### Equilibrium -/

theorem walk_flat (e : Seg K → K) (q : Nat → K) (wt c : K) (first : Nat) (l : List (Seg K))
    (hq : ∀ s ∈ l, q (s.reg + first) = c) (t : Nat → K) : walk e q wt first l c t = (c, t) := by
  induction l generalizing t with
  | nil => rfl
  | cons s ss ih =>
    simp only [walk]
    rw [hq s (by simp)]
    simp only [sub_self, zero_mul, sub_zero, add_zero]
    have : upd t (s.reg + first) (t (s.reg + first)) = t := by
      funext j
      by_cases h : j = s.reg + first
      · subst h; simp [upd]
      · simp [upd, h]
    rw [this]
    exact ih (fun x hx => hq x (by simp [hx])) t

/-- The boundary values are `c` everywhere. -/
def Flat (c : K) (b : Nat → Nat → K) : Prop := ∀ a j, b a j = c

/-- The boundary update keeps a uniform boundary flux (true of reflective and periodic boundaries, C17). -/
def KeepsFlat (c : K) (u : BcUpdate K) : Prop :=
  (∀ a b o, Flat c b → Flat c o → Flat c (u.one a b o)) ∧ (∀ b o, Flat c b → Flat c o → Flat c (u.all b o))

theorem rays_flat (e : Seg K → K) (q : Nat → K) (wt c : K) (first : Nat) (l : List (Ray K))
    (hq : ∀ r ∈ l, ∀ s ∈ r.segs, q (s.reg + first) = c) (in1 in2 : Nat → K) (h1 : ∀ j, in1 j = c) (h2 : ∀ j, in2 j = c)
    (a : Acc K) (ha1 : ∀ j, a.out1 j = c) (ha2 : ∀ j, a.out2 j = c) :
    let r := l.foldl (sweepRay e q wt first in1 in2) a
    r.tflux = a.tflux ∧ (∀ j, r.out1 j = c) ∧ (∀ j, r.out2 j = c) := by
  induction l generalizing a with
  | nil => exact ⟨rfl, ha1, ha2⟩
  | cons y l ih =>
    rw [List.foldl_cons]
    have hy := hq y (by simp)
    have e1 : sweepRay e q wt first in1 in2 a y = ⟨a.tflux, upd a.out1 y.bc1 c, upd a.out2 y.bc0 c⟩ := by
      simp only [sweepRay]
      rw [h1, h2, walk_flat e q wt c first y.segs hy, walk_flat e q wt c first y.segs.reverse (by simpa using hy)]
    rw [e1]
    apply ih (fun r hr => hq r (by simp [hr]))
    · intro j; simp only [upd]; split
      · rfl
      · exact ha1 j
    · intro j; simp only [upd]; split
      · rfl
      · exact ha2 j

theorem angles_flat (expo : K → K) (xstr q : Nat → K) (gs : Bool) (u : BcUpdate K) (c : K) (hu : KeepsFlat c u) (first : Nat)
    (ws : List (AngleWork K)) (hq : ∀ w ∈ ws, ∀ r ∈ w.rays, ∀ s ∈ r.segs, q (s.reg + first) = c) (s : St K)
    (h1 : Flat c s.bin) (h2 : Flat c s.bout) :
    let s' := ws.foldl (sweepAngle expo xstr q gs u first) s
    s'.tflux = s.tflux ∧ Flat c s'.bin ∧ Flat c s'.bout := by
  induction ws generalizing s with
  | nil => exact ⟨rfl, h1, h2⟩
  | cons w ws ih =>
    rw [List.foldl_cons]
    obtain ⟨r1, r2, r3⟩ := rays_flat (eTau expo xstr w.rst first) q w.wt c first w.rays (hq w (by simp)) (s.bin w.iang1)
      (s.bin w.iang2) (h1 _) (h1 _) ⟨s.tflux, s.bout w.iang1, s.bout w.iang2⟩ (h2 _) (h2 _)
    have hbo : Flat c (sweepAngle expo xstr q gs u first s w).bout := by
      intro a j
      simp only [sweepAngle, upd]
      split
      · exact r3 j
      · split
        · exact r2 j
        · exact h2 a j
    have hbi : Flat c (sweepAngle expo xstr q gs u first s w).bin := by
      cases gs
      · simpa [sweepAngle] using h1
      · have : (sweepAngle expo xstr q true u first s w).bin = u.one w.iang2 (u.one w.iang1 s.bin
            (sweepAngle expo xstr q true u first s w).bout) (sweepAngle expo xstr q true u first s w).bout := rfl
        rw [this]
        exact hu.1 _ _ _ (hu.1 _ _ _ h1 hbo) hbo
    obtain ⟨i1, i2, i3⟩ := ih (fun x hx => hq x (by simp [hx])) _ hbi hbo
    exact ⟨i1.trans r1, i2, i3⟩

/-- C31: a flat medium in equilibrium (source over cross section equal to the boundary flux `c` everywhere) keeps the
angular flux `c` on the boundary and gives the scalar flux four pi `c` in every region. -/
theorem C31_equilibrium (expo : K → K) (fpi : K) (xstr vol q : Nat → K) (gs : Bool) (u : BcUpdate K) (c : K)
    (hu : KeepsFlat c u) (ps : List (PlaneWork K × (Nat → Nat → K) × (Nat → Nat → K))) (hq : ∀ i, q i = c)
    (hb : ∀ p ∈ ps, Flat c p.2.1 ∧ Flat c p.2.2) :
    (∀ i, (sweep1g expo fpi xstr vol q gs u ps).1 i = fpi * c) ∧
    (∀ b ∈ (sweep1g expo fpi xstr vol q gs u ps).2, Flat c b.1 ∧ Flat c b.2) := by
  have key : ∀ (ps : List (PlaneWork K × (Nat → Nat → K) × (Nat → Nat → K))) (t : Nat → K),
      (∀ p ∈ ps, Flat c p.2.1 ∧ Flat c p.2.2) → (sweepPlanes expo xstr q gs u ps t).1 = t ∧
      ∀ b ∈ (sweepPlanes expo xstr q gs u ps t).2, Flat c b.1 ∧ Flat c b.2 := by
    intro ps
    induction ps with
    | nil => intro t _; simp [sweepPlanes]
    | cons p ps ih =>
      intro t h
      obtain ⟨p, bin, bout⟩ := p
      obtain ⟨a1, a2, a3⟩ := angles_flat expo xstr q gs u c hu p.first p.angles (fun _ _ _ _ s _ => hq _) ⟨t, bin, bout⟩
        (h (p, bin, bout) (by simp)).1 (h (p, bin, bout) (by simp)).2
      have e1 : (sweepPlane expo xstr q gs u p ⟨t, bin, bout⟩).tflux = t := a1
      obtain ⟨i1, i2⟩ := ih t (fun x hx => h x (by simp [hx]))
      simp only [sweepPlanes, e1]
      refine ⟨i1, ?_⟩
      intro b hbm
      rcases List.mem_cons.mp hbm with rfl | hbm
      · refine ⟨?_, a3⟩
        simp only [sweepPlane]
        cases gs
        · exact hu.2 _ _ a2 a3
        · exact a2
      · exact i2 b hbm
  obtain ⟨k1, k2⟩ := key ps (fun _ => 0) hb
  refine ⟨fun i => ?_, k2⟩
  simp only [sweep1g, finish]
  rw [k1, hq]
  simp [mul_comm]

end

/-! ### Positivity -/

section
variable {K : Type} [Field K] [LinearOrder K] [IsStrictOrderedRing K]

/-- The boundary values are non-negative. -/
def NonNeg (b : Nat → Nat → K) : Prop := ∀ a j, 0 ≤ b a j

/-- The boundary update keeps non-negative values (C17: it copies outgoing values or sets zero). -/
def KeepsNonNeg (u : BcUpdate K) : Prop :=
  (∀ a b o, NonNeg b → NonNeg o → NonNeg (u.one a b o)) ∧ (∀ b o, NonNeg b → NonNeg o → NonNeg (u.all b o))

/-- Volume of region `i` as the rays of an angle (both directions) see it, times the solid angle. -/
def angleVolume (first i : Nat) (w : AngleWork K) : K :=
  (w.rays.map (fun r => 2 * (w.wt * w.rst * tracked first i r.segs))).sum

def planeVolume (i : Nat) (p : PlaneWork K) : K := (p.angles.map (angleVolume p.first i)).sum

/-- What is needed of the exponential: values in [0, 1] above the tangent for non-positive arguments. -/
structure ExpOk (expo : K → K) : Prop where
  nonneg : ∀ x ≤ 0, 0 ≤ expo x
  le_one : ∀ x ≤ 0, expo x ≤ 1
  tangent : ∀ x ≤ 0, 1 + x ≤ expo x

theorem rays_nonneg (expo : K → K) (hexp : ExpOk expo) (xstr q : Nat → K) (hx : ∀ i, 0 ≤ xstr i) (hq : ∀ i, 0 ≤ q i)
    (rst wt : K) (hrst : 0 ≤ rst) (hwt : 0 ≤ wt) (first i : Nat) (l : List (Ray K))
    (hlen : ∀ r ∈ l, ∀ s ∈ r.segs, 0 ≤ s.len) (in1 in2 : Nat → K) (h1 : ∀ j, 0 ≤ in1 j) (h2 : ∀ j, 0 ≤ in2 j)
    (a : Acc K) (ha1 : ∀ j, 0 ≤ a.out1 j) (ha2 : ∀ j, 0 ≤ a.out2 j) :
    let r := l.foldl (sweepRay (eTau expo xstr rst first) q wt first in1 in2) a
    (∀ j, 0 ≤ r.out1 j) ∧ (∀ j, 0 ≤ r.out2 j) ∧
    a.tflux i - q i * xstr i * (l.map (fun r => 2 * (wt * rst * tracked first i r.segs))).sum ≤ r.tflux i := by
  induction l generalizing a with
  | nil => simp [ha1, ha2]
  | cons y l ih =>
    rw [List.foldl_cons]
    have hy := hlen y (by simp)
    have neg : ∀ s ∈ y.segs, -xstr (s.reg + first) * s.len * rst ≤ 0 := by
      intro s hs
      have := mul_nonneg (mul_nonneg (hx (s.reg + first)) (hy s hs)) hrst
      linarith
    have e0 : ∀ s ∈ y.segs, 0 ≤ eTau expo xstr rst first s := fun s hs => by
      have := hexp.le_one _ (neg s hs); unfold eTau; linarith
    have e1 : ∀ s ∈ y.segs, eTau expo xstr rst first s ≤ 1 := fun s hs => by
      have := hexp.nonneg _ (neg s hs); unfold eTau; linarith
    have e2 : ∀ s ∈ y.segs, s.reg + first = i → eTau expo xstr rst first s ≤ xstr i * s.len * rst := fun s hs hi => by
      have := hexp.tangent _ (neg s hs); unfold eTau; rw [hi] at this ⊢; linarith
    obtain ⟨f1, f2⟩ := walk_nonneg (eTau expo xstr rst first) q wt (xstr i) rst first i y.segs e0 e1 (fun s _ => hq _) hwt e2
      (in1 y.bc0) (h1 _) a.tflux
    obtain ⟨b1, b2⟩ := walk_nonneg (eTau expo xstr rst first) q wt (xstr i) rst first i y.segs.reverse
      (by simpa using e0) (by simpa using e1) (fun s _ => hq _) hwt (by simpa using e2) (in2 y.bc1) (h2 _)
      (walk (eTau expo xstr rst first) q wt first y.segs (in1 y.bc0) a.tflux).2
    rw [tracked_reverse] at b2
    obtain ⟨i1, i2, i3⟩ := ih (fun r hr => hlen r (by simp [hr])) (sweepRay (eTau expo xstr rst first) q wt first in1 in2 a y)
      (by intro j; simp only [sweepRay, upd]; split
          · exact f1
          · exact ha1 j)
      (by intro j; simp only [sweepRay, upd]; split
          · exact b1
          · exact ha2 j)
    refine ⟨i1, i2, le_trans ?_ i3⟩
    rw [List.map_cons, List.sum_cons]
    have e3 : (sweepRay (eTau expo xstr rst first) q wt first in1 in2 a y).tflux i =
      (walk (eTau expo xstr rst first) q wt first y.segs.reverse (in2 y.bc1)
        (walk (eTau expo xstr rst first) q wt first y.segs (in1 y.bc0) a.tflux).2).2 i := rfl
    rw [e3, mul_add]
    linarith

theorem angles_nonneg (expo : K → K) (hexp : ExpOk expo) (xstr q : Nat → K) (hx : ∀ i, 0 ≤ xstr i) (hq : ∀ i, 0 ≤ q i)
    (gs : Bool) (u : BcUpdate K) (hu : KeepsNonNeg u) (first i : Nat) (ws : List (AngleWork K))
    (hw : ∀ w ∈ ws, 0 ≤ w.rst ∧ 0 ≤ w.wt ∧ ∀ r ∈ w.rays, ∀ s ∈ r.segs, 0 ≤ s.len) (s : St K)
    (h1 : NonNeg s.bin) (h2 : NonNeg s.bout) :
    let s' := ws.foldl (sweepAngle expo xstr q gs u first) s
    NonNeg s'.bin ∧ NonNeg s'.bout ∧
    s.tflux i - q i * xstr i * (ws.map (angleVolume first i)).sum ≤ s'.tflux i := by
  induction ws generalizing s with
  | nil => simp [h1, h2]
  | cons w ws ih =>
    rw [List.foldl_cons]
    obtain ⟨w1, w2, w3⟩ := hw w (by simp)
    obtain ⟨r1, r2, r3⟩ := rays_nonneg expo hexp xstr q hx hq w.rst w.wt w1 w2 first i w.rays w3 (s.bin w.iang1)
      (s.bin w.iang2) (h1 _) (h1 _) ⟨s.tflux, s.bout w.iang1, s.bout w.iang2⟩ (h2 _) (h2 _)
    have hbo : NonNeg (sweepAngle expo xstr q gs u first s w).bout := by
      intro a j
      simp only [sweepAngle, upd]
      split
      · exact r2 j
      · split
        · exact r1 j
        · exact h2 a j
    have hbi : NonNeg (sweepAngle expo xstr q gs u first s w).bin := by
      cases gs
      · simpa [sweepAngle] using h1
      · have : (sweepAngle expo xstr q true u first s w).bin = u.one w.iang2 (u.one w.iang1 s.bin
            (sweepAngle expo xstr q true u first s w).bout) (sweepAngle expo xstr q true u first s w).bout := rfl
        rw [this]
        exact hu.1 _ _ _ (hu.1 _ _ _ h1 hbo) hbo
    obtain ⟨i1, i2, i3⟩ := ih (fun x hx => hw x (by simp [hx])) _ hbi hbo
    refine ⟨i1, i2, le_trans ?_ i3⟩
    rw [List.map_cons, List.sum_cons]
    have r3' : s.tflux i - q i * xstr i * angleVolume first i w ≤ (sweepAngle expo xstr q gs u first s w).tflux i := r3
    rw [mul_add]
    linarith

/-- C31: non-negative source and boundary values give non-negative scalar fluxes and boundary values, provided the rays
do not see more volume than the region has (which the volume correction guarantees, C33). -/
theorem C31_nonneg (expo : K → K) (hexp : ExpOk expo) (fpi : K) (xstr vol q : Nat → K) (hx : ∀ i, 0 < xstr i)
    (hv : ∀ i, 0 < vol i) (hq : ∀ i, 0 ≤ q i) (gs : Bool) (u : BcUpdate K) (hu : KeepsNonNeg u)
    (ps : List (PlaneWork K × (Nat → Nat → K) × (Nat → Nat → K)))
    (hw : ∀ p ∈ ps, ∀ w ∈ p.1.angles, 0 ≤ w.rst ∧ 0 ≤ w.wt ∧ ∀ r ∈ w.rays, ∀ s ∈ r.segs, 0 ≤ s.len)
    (hb : ∀ p ∈ ps, NonNeg p.2.1 ∧ NonNeg p.2.2) (i : Nat)
    (hvol : (ps.map (fun p => planeVolume i p.1)).sum ≤ fpi * vol i) :
    0 ≤ (sweep1g expo fpi xstr vol q gs u ps).1 i ∧
    ∀ b ∈ (sweep1g expo fpi xstr vol q gs u ps).2, NonNeg b.1 ∧ NonNeg b.2 := by
  have key : ∀ (ps : List (PlaneWork K × (Nat → Nat → K) × (Nat → Nat → K))) (t : Nat → K),
      (∀ p ∈ ps, ∀ w ∈ p.1.angles, 0 ≤ w.rst ∧ 0 ≤ w.wt ∧ ∀ r ∈ w.rays, ∀ s ∈ r.segs, 0 ≤ s.len) →
      (∀ p ∈ ps, NonNeg p.2.1 ∧ NonNeg p.2.2) →
      t i - q i * xstr i * (ps.map (fun p => planeVolume i p.1)).sum ≤ (sweepPlanes expo xstr q gs u ps t).1 i ∧
      ∀ b ∈ (sweepPlanes expo xstr q gs u ps t).2, NonNeg b.1 ∧ NonNeg b.2 := by
    intro ps
    induction ps with
    | nil => intro t _ _; simp [sweepPlanes]
    | cons p ps ih =>
      intro t hw h
      obtain ⟨p, bin, bout⟩ := p
      obtain ⟨a2, a3, a1⟩ := angles_nonneg expo hexp xstr q (fun i => (hx i).le) hq gs u hu p.first i p.angles
        (hw (p, bin, bout) (by simp)) ⟨t, bin, bout⟩ (h (p, bin, bout) (by simp)).1 (h (p, bin, bout) (by simp)).2
      have e1 : t i - q i * xstr i * planeVolume i p ≤ (sweepPlane expo xstr q gs u p ⟨t, bin, bout⟩).tflux i := a1
      obtain ⟨i1, i2⟩ := ih (sweepPlane expo xstr q gs u p ⟨t, bin, bout⟩).tflux (fun x hx => hw x (by simp [hx]))
        (fun x hx => h x (by simp [hx]))
      simp only [sweepPlanes]
      refine ⟨?_, ?_⟩
      · rw [List.map_cons, List.sum_cons, mul_add]
        linarith
      · intro b hbm
        rcases List.mem_cons.mp hbm with rfl | hbm
        · refine ⟨?_, a3⟩
          simp only [sweepPlane]
          cases gs
          · exact hu.2 _ _ a2 a3
          · exact a2
        · exact i2 b hbm
  obtain ⟨k1, k2⟩ := key ps (fun _ => 0) hw hb
  refine ⟨?_, k2⟩
  simp only [sweep1g, finish]
  have hxv : 0 < xstr i * vol i := mul_pos (hx i) (hv i)
  have h1 : -(q i * fpi) ≤ (sweepPlanes expo xstr q gs u ps (fun _ => 0)).1 i / (xstr i * vol i) := by
    rw [le_div_iff₀ hxv]
    have h2 : q i * xstr i * (ps.map (fun p => planeVolume i p.1)).sum ≤ q i * xstr i * (fpi * vol i) :=
      mul_le_mul_of_nonneg_left hvol (mul_nonneg (hq i) (hx i).le)
    have : -(q i * fpi) * (xstr i * vol i) = -(q i * xstr i * (fpi * vol i)) := by ring
    rw [this]
    linarith
  linarith

end

/-- The exponential function is suitable. -/
theorem expOk_real : ExpOk Real.exp where
  nonneg x _ := (Real.exp_pos x).le
  le_one x h := Real.exp_le_one_iff.mpr h
  tangent x _ := by have := Real.add_one_le_exp x; linarith

/-- Two rays crossing over the slots, two regions. -/
def demo : AngleWork ℚ := ⟨0, 1, 1, 1/2, [⟨[⟨0, 1⟩, ⟨1, 2⟩], 0, 1⟩, ⟨[⟨1, 1⟩], 1, 0⟩]⟩

example : AngleOk 2 0 2 demo :=
  ⟨by decide, by decide +kernel, by decide +kernel, by decide +kernel⟩

example : angleVolume 0 1 demo ≤ 4 * (3 / 4 : ℚ) := by decide +kernel

example : KeepsNonNeg (⟨fun _ b _ => b, fun _ o => o⟩ : BcUpdate ℚ) := ⟨fun _ _ _ h _ => h, fun _ _ _ h => h⟩

example : KeepsFlat (7 : ℚ) (⟨fun _ b _ => b, fun _ o => o⟩ : BcUpdate ℚ) := ⟨fun _ _ _ h _ => h, fun _ _ _ h => h⟩

end Verif.Moc
