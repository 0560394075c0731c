import Verif.Moc.ParModel
import Verif.Moc.KernelProps
import Verif.Par.Lemmas

/-!
# C35: the MoC sweep does not depend on the schedule
-/

set_option linter.unusedSectionVars false

namespace Verif.Moc

open Verif.Par

variable {K : Type} [Field K]

/-- A schedule for `T` threads runs every ray of the angle exactly once, and no two rays end on the same boundary slot
(C32). -/
structure SchedOk (T : Nat) (w : AngleWork K × Sched K) : Prop where
  shares : Shares T w.2.rays w.1.rays
  order : w.2.order.Perm w.1.rays
  nodup0 : (w.1.rays.map Ray.bc0).Nodup
  nodup1 : (w.1.rays.map Ray.bc1).Nodup

theorem addAll_at (l : List (Nat × K)) (c : Nat → K) (i : Nat) :
    addAll c l i = c i + (l.map (fun p => if i = p.1 then p.2 else 0)).sum := by
  unfold addAll
  induction l generalizing c with
  | nil => simp
  | cons p l ih => rw [List.foldl_cons, ih, upd_add, List.map_cons, List.sum_cons, add_assoc]

theorem cur_fold (l : List (Ray K)) (f : Ray K → List (Nat × K)) (c : Nat → K) (i : Nat) :
    l.foldl (fun c r => addAll c (f r)) c i =
      c i + (l.map (fun r => ((f r).map (fun p => if i = p.1 then p.2 else 0)).sum)).sum := by
  induction l generalizing c with
  | nil => simp
  | cons r l ih => rw [List.foldl_cons, ih, addAll_at, List.map_cons, List.sum_cons, add_assoc]

/-- Boundary arrays after a list of rays with different ends, in closed form. -/
theorem outs_perm (e : Seg K → K) (q : Nat → K) (wt : K) (first : Nat) (in1 in2 : Nat → K) (l l' : List (Ray K))
    (hp : l'.Perm l) (n0 : (l.map Ray.bc0).Nodup) (n1 : (l.map Ray.bc1).Nodup) (t t' o1 o2 : Nat → K) :
    (l'.foldl (sweepRay e q wt first in1 in2) ⟨t', o1, o2⟩).out1 = (l.foldl (sweepRay e q wt first in1 in2) ⟨t, o1, o2⟩).out1 ∧
    (l'.foldl (sweepRay e q wt first in1 in2) ⟨t', o1, o2⟩).out2 = (l.foldl (sweepRay e q wt first in1 in2) ⟨t, o1, o2⟩).out2 := by
  obtain ⟨-, h2, h3, h4, h5⟩ := rays_result e q wt first in1 in2 l ⟨t, o1, o2⟩
  obtain ⟨-, g2, g3, g4, g5⟩ := rays_result e q wt first in1 in2 l' ⟨t', o1, o2⟩
  have m0 : (l'.map Ray.bc0).Nodup := (hp.map _).nodup_iff.mpr n0
  have m1 : (l'.map Ray.bc1).Nodup := (hp.map _).nodup_iff.mpr n1
  constructor
  · funext j
    by_cases hj : j ∈ l.map Ray.bc1
    · obtain ⟨x, hx, rfl⟩ := List.mem_map.mp hj
      rw [h2 n1 x hx, g2 m1 x (hp.mem_iff.mpr hx)]
    · rw [h3 j hj, g3 j (fun h => hj ((hp.map _).mem_iff.mp h))]
  · funext j
    by_cases hj : j ∈ l.map Ray.bc0
    · obtain ⟨x, hx, rfl⟩ := List.mem_map.mp hj
      rw [h4 n0 x hx, g4 m0 x (hp.mem_iff.mpr hx)]
    · rw [h5 j hj, g5 j (fun h => hj ((hp.map _).mem_iff.mp h))]

/-- Parallel and serial state agree: same boundary arrays, and the private fluxes add up to the serial one. -/
structure Agree (T : Nat) (ord : List Nat) (p : PSt K) (s : St K) : Prop where
  bin : p.bin = s.bin
  bout : p.bout = s.bout
  flux : ∀ i, (ord.map (fun t => p.tflux t i)).sum = s.tflux i

theorem agree_angle (expo : K → K) (xstr q : Nat → K) (gs : Bool) (u : BcUpdate K) (cw : Worker K) (first T : Nat)
    (ord : List Nat) (ho : ord.Perm (List.range T)) (p : PSt K) (s : St K) (h : Agree T ord p s)
    (w : AngleWork K × Sched K) (hw : SchedOk T w) :
    Agree T ord (parAngle expo xstr q gs u cw first p w) (sweepAngle expo xstr q gs u first s w.1) := by
  have hb : (parAngle expo xstr q gs u cw first p w).bout = (sweepAngle expo xstr q gs u first s w.1).bout := by
    simp only [parAngle, sweepAngle, h.bin, h.bout]
    obtain ⟨e1, e2⟩ := outs_perm (eTau expo xstr w.1.rst first) q w.1.wt first (s.bin w.1.iang1) (s.bin w.1.iang2) w.1.rays
      w.2.order hw.order hw.nodup0 hw.nodup1 s.tflux (fun _ => 0) (s.bout w.1.iang1) (s.bout w.1.iang2)
    rw [e1, e2]
  refine ⟨?_, hb, ?_⟩
  · have e1 : (parAngle expo xstr q gs u cw first p w).bin =
        if gs then u.one w.1.iang2 (u.one w.1.iang1 p.bin (parAngle expo xstr q gs u cw first p w).bout)
          (parAngle expo xstr q gs u cw first p w).bout else p.bin := rfl
    rw [e1, hb, h.bin]
    rfl
  · intro i
    simp only [parAngle, sweepAngle, h.bin]
    rw [(rays_result (eTau expo xstr w.1.rst first) q w.1.wt first (s.bin w.1.iang1) (s.bin w.1.iang2) w.1.rays _).1 i]
    simp only
    have e2 : ord.map (fun t => ((w.2.rays t).foldl (sweepRay (eTau expo xstr w.1.rst first) q w.1.wt first (s.bin w.1.iang1)
          (s.bin w.1.iang2)) ⟨p.tflux t, fun _ => 0, fun _ => 0⟩).tflux i) =
        ord.map (fun t => p.tflux t i + ((w.2.rays t).map (fun r => rayGain (eTau expo xstr w.1.rst first) q w.1.wt first
          (s.bin w.1.iang1) (s.bin w.1.iang2) r i)).sum) := by
      apply List.map_congr_left
      intro t _
      rw [(rays_result (eTau expo xstr w.1.rst first) q w.1.wt first (s.bin w.1.iang1) (s.bin w.1.iang2) (w.2.rays t) _).1 i]
    rw [e2, List.sum_map_add, h.flux, shares_sum T w.2.rays w.1.rays hw.shares ord ho]

theorem agree_angles (expo : K → K) (xstr q : Nat → K) (gs : Bool) (u : BcUpdate K) (cw : Worker K) (first T : Nat)
    (ord : List Nat) (ho : ord.Perm (List.range T)) (ws : List (AngleWork K × Sched K)) (hw : ∀ w ∈ ws, SchedOk T w)
    (p : PSt K) (s : St K) (h : Agree T ord p s) :
    Agree T ord (ws.foldl (parAngle expo xstr q gs u cw first) p) ((ws.map Prod.fst).foldl (sweepAngle expo xstr q gs u first) s) := by
  induction ws generalizing p s with
  | nil => exact h
  | cons w ws ih =>
    rw [List.foldl_cons, List.map_cons, List.foldl_cons]
    exact ih (fun x hx => hw x (by simp [hx])) _ _ (agree_angle expo xstr q gs u cw first T ord ho p s h w (hw w (by simp)))

theorem agree_planes (expo : K → K) (xstr q : Nat → K) (gs : Bool) (u : BcUpdate K) (cw : Nat → Worker K) (T : Nat)
    (ord : List Nat) (ho : ord.Perm (List.range T)) (ps : List (PPlane K)) (hw : ∀ p ∈ ps, ∀ w ∈ p.angles, SchedOk T w)
    (t : Nat → Nat → K) (c ts : Nat → K) (ht : ∀ i, (ord.map (fun th => t th i)).sum = ts i) :
    let r := parPlanes expo xstr q gs u cw ps t c
    let s := sweepPlanes expo xstr q gs u (ps.map (fun p => (⟨p.first, p.angles.map Prod.fst⟩, p.bin, p.bout))) ts
    (∀ i, (ord.map (fun th => r.1 th i)).sum = s.1 i) ∧ r.2.2 = s.2 := by
  induction ps generalizing t c ts with
  | nil => exact ⟨ht, rfl⟩
  | cons p ps ih =>
    simp only [parPlanes, List.map_cons, sweepPlanes]
    have h := agree_angles expo xstr q gs u (cw p.first) p.first T ord ho p.angles (hw p (by simp)) ⟨t, p.bin, p.bout, c⟩
      ⟨ts, p.bin, p.bout⟩ ⟨rfl, rfl, ht⟩
    obtain ⟨i1, i2⟩ := ih (fun x hx => hw x (by simp [hx]))
      (parPlane expo xstr q gs u cw p.first p.angles ⟨t, p.bin, p.bout, c⟩).tflux
      (parPlane expo xstr q gs u cw p.first p.angles ⟨t, p.bin, p.bout, c⟩).cur
      (sweepPlane expo xstr q gs u ⟨p.first, p.angles.map Prod.fst⟩ ⟨ts, p.bin, p.bout⟩).tflux h.flux
    refine ⟨i1, ?_⟩
    rw [i2]
    congr 1
    simp only [parPlane, sweepPlane, h.bin, h.bout]

theorem foldl_fn_add (l : List Nat) (r : Nat → Nat → K) (f : Nat → K) (i : Nat) :
    l.foldl (fun f t i => f i + r t i) f i = f i + (l.map (fun t => r t i)).sum := by
  induction l generalizing f with
  | nil => simp
  | cons a l ih => rw [List.foldl_cons, ih, List.map_cons, List.sum_cons, add_assoc]

/-- C35, MoC: under every schedule, with any number of threads, the scalar flux and the boundary values of all planes are
those of the serial sweep. -/
theorem C35_moc_sweep (expo : K → K) (fpi : K) (xstr vol q : Nat → K) (gs : Bool) (u : BcUpdate K) (cw : Nat → Worker K)
    (T : Nat) (ord : List Nat) (ho : ord.Perm (List.range T)) (ps : List (PPlane K))
    (hw : ∀ p ∈ ps, ∀ w ∈ p.angles, SchedOk T w) (c : Nat → K) :
    let r := parSweep expo fpi xstr vol q gs u cw ord ps c
    let s := sweep1g expo fpi xstr vol q gs u (ps.map (fun p => (⟨p.first, p.angles.map Prod.fst⟩, p.bin, p.bout)))
    r.1 = s.1 ∧ r.2.2 = s.2 := by
  intro r s
  obtain ⟨h1, h2⟩ := agree_planes expo xstr q gs u cw T ord ho ps hw (fun _ _ => 0) c (fun _ => 0) (by simp)
  refine ⟨?_, h2⟩
  simp only [r, s, parSweep, sweep1g]
  congr 1
  funext i
  rw [foldl_fn_add, h1 i, zero_add]

/-- Two sweeps of the same planes, possibly with different schedules. -/
inductive SameWork : List (PPlane K) → List (PPlane K) → Prop
  | nil : SameWork [] []
  | cons (p p' : PPlane K) (ps ps' : List (PPlane K)) : p.first = p'.first → p.bin = p'.bin → p.bout = p'.bout →
      p.angles.map Prod.fst = p'.angles.map Prod.fst → SameWork ps ps' → SameWork (p :: ps) (p' :: ps')

theorem sameWork_map {ps ps' : List (PPlane K)} (h : SameWork ps ps') :
    ps.map (fun p => ((⟨p.first, p.angles.map Prod.fst⟩ : PlaneWork K), p.bin, p.bout)) =
      ps'.map (fun p => ((⟨p.first, p.angles.map Prod.fst⟩ : PlaneWork K), p.bin, p.bout)) := by
  induction h with
  | nil => rfl
  | cons p p' ps ps' h1 h2 h3 h4 _ ih => rw [List.map_cons, List.map_cons, ih, h1, h2, h3, h4]

theorem cur_angles (expo : K → K) (xstr q : Nat → K) (gs : Bool) (u : BcUpdate K) (cw : Worker K) (first T T' : Nat)
    (ord ord' : List Nat) (ho : ord.Perm (List.range T)) (ho' : ord'.Perm (List.range T'))
    (ws ws' : List (AngleWork K × Sched K)) (hs : ws.map Prod.fst = ws'.map Prod.fst) (hw : ∀ w ∈ ws, SchedOk T w)
    (hw' : ∀ w ∈ ws', SchedOk T' w) (p p' : PSt K) (s : St K) (h : Agree T ord p s) (h' : Agree T' ord' p' s)
    (hc : p.cur = p'.cur) :
    (ws.foldl (parAngle expo xstr q gs u cw first) p).cur = (ws'.foldl (parAngle expo xstr q gs u cw first) p').cur := by
  induction ws generalizing ws' p p' s with
  | nil =>
    have : ws' = [] := by simpa using hs.symm
    subst this
    exact hc
  | cons w ws ih =>
    cases ws' with
    | nil => simp at hs
    | cons w' ws' =>
      simp only [List.map_cons, List.cons.injEq] at hs
      rw [List.foldl_cons, List.foldl_cons]
      have a := agree_angle expo xstr q gs u cw first T ord ho p s h w (hw w (by simp))
      have a' := agree_angle expo xstr q gs u cw first T' ord' ho' p' s h' w' (hw' w' (by simp))
      rw [← hs.1] at a'
      apply ih ws' hs.2 (fun x hx => hw x (by simp [hx])) (fun x hx => hw' x (by simp [hx])) _ _ _ a a'
      funext i
      simp only [parAngle]
      rw [cur_fold, cur_fold, hc, h.bin, h'.bin, hs.1]
      congr 1
      have hp : w.2.order.Perm w'.2.order := by
        have h1 := (hw w (by simp)).order
        have h2 := (hw' w' (by simp)).order
        rw [hs.1] at h1
        exact h1.trans h2.symm
      exact (hp.map _).sum_eq

/-- C35, MoC: the coarse-mesh currents and surface fluxes do not depend on the schedule, whatever each ray adds to them. -/
theorem C35_moc_currents (expo : K → K) (fpi : K) (xstr vol q : Nat → K) (gs : Bool) (u : BcUpdate K) (cw : Nat → Worker K)
    (T T' : Nat) (ord ord' : List Nat) (ho : ord.Perm (List.range T)) (ho' : ord'.Perm (List.range T'))
    (ps ps' : List (PPlane K)) (hs : SameWork ps ps') (hw : ∀ p ∈ ps, ∀ w ∈ p.angles, SchedOk T w)
    (hw' : ∀ p ∈ ps', ∀ w ∈ p.angles, SchedOk T' w) (c : Nat → K) :
    parSweep expo fpi xstr vol q gs u cw ord ps c = parSweep expo fpi xstr vol q gs u cw ord' ps' c := by
  have key : ∀ (t t' : Nat → Nat → K) (c ts : Nat → K), (∀ i, (ord.map (fun th => t th i)).sum = ts i) →
      (∀ i, (ord'.map (fun th => t' th i)).sum = ts i) →
      (parPlanes expo xstr q gs u cw ps t c).2.1 = (parPlanes expo xstr q gs u cw ps' t' c).2.1 := by
    induction hs with
    | nil => intros; rfl
    | cons p p' ps ps' h1 h2 h3 h4 _ ih =>
      intro t t' c ts ht ht'
      simp only [parPlanes]
      have a := agree_angles expo xstr q gs u (cw p.first) p.first T ord ho p.angles (hw p (by simp)) ⟨t, p.bin, p.bout, c⟩
        ⟨ts, p.bin, p.bout⟩ ⟨rfl, rfl, ht⟩
      have a' := agree_angles expo xstr q gs u (cw p.first) p.first T' ord' ho' p'.angles (hw' p' (by simp)) ⟨t', p'.bin, p'.bout, c⟩
        ⟨ts, p.bin, p.bout⟩ ⟨h2.symm, h3.symm, ht'⟩
      rw [← h4] at a'
      have hc := cur_angles expo xstr q gs u (cw p.first) p.first T T' ord ord' ho ho' p.angles p'.angles h4 (hw p (by simp))
        (hw' p' (by simp)) ⟨t, p.bin, p.bout, c⟩ ⟨t', p'.bin, p'.bout, c⟩ ⟨ts, p.bin, p.bout⟩ ⟨rfl, rfl, ht⟩
        ⟨h2.symm, h3.symm, ht'⟩ rfl
      have e : (parPlane expo xstr q gs u cw p.first p.angles ⟨t, p.bin, p.bout, c⟩).cur =
          (parPlane expo xstr q gs u cw p'.first p'.angles ⟨t', p'.bin, p'.bout, c⟩).cur := by
        rw [← h1]
        exact hc
      rw [e]
      refine ih (fun x hx => hw x (by simp [hx])) (fun x hx => hw' x (by simp [hx])) _ _ _ _ a.flux ?_
      rw [← h1]
      exact a'.flux
  obtain ⟨s1, s2⟩ := C35_moc_sweep expo fpi xstr vol q gs u cw T ord ho ps hw c
  obtain ⟨t1, t2⟩ := C35_moc_sweep expo fpi xstr vol q gs u cw T' ord' ho' ps' hw' c
  rw [sameWork_map hs] at s1 s2
  have k := key (fun _ _ => 0) (fun _ _ => 0) c (fun _ => 0) (by simp) (by simp)
  apply Prod.ext
  · exact s1.trans t1.symm
  · exact Prod.ext k (s2.trans t2.symm)

/-- The schedule of `schedule(static, 1)` with two threads, and an interleaving that is not the serial order. -/
example : SchedOk 2 (demo, ⟨fun t => if t = 0 then [⟨[⟨0, 1⟩, ⟨1, 2⟩], 0, 1⟩] else if t = 1 then [⟨[⟨1, 1⟩], 1, 0⟩] else [],
    demo.rays.reverse⟩) :=
  ⟨by unfold Shares; decide +kernel, by decide +kernel, by decide +kernel, by decide +kernel⟩

end Verif.Moc
