import Verif.Medium.MirrorSnProps
import Verif.Medium.ReciprocalProps

/-!
# C159: the mirrored core gives the mirrored flux in every iteration, MoC
-/

set_option linter.unusedSectionVars false

namespace Verif.Moc

variable {K : Type} [Field K]

/-- A ray walked in one direction: angle, slot where it enters and where it leaves, `rsintheta`, weight, and the segments in the order of the walk with regions of the whole mesh. -/
structure Track (K : Type) where
  a : Nat
  jin : Nat
  jout : Nat
  rst : K
  wt : K
  segs : List (Seg K)
  deriving DecidableEq

def absSegs (first : Nat) (l : List (Seg K)) : List (Seg K) := l.map fun s => ⟨s.reg + first, s.len⟩

/-- The two walks along a ray. -/
def rayTracks (first : Nat) (w : AngleWork K) (r : Ray K) : List (Track K) :=
  [⟨w.iang1, r.bc0, r.bc1, w.rst, w.wt, absSegs first r.segs⟩, ⟨w.iang2, r.bc1, r.bc0, w.rst, w.wt, absSegs first r.segs.reverse⟩]

def angleTracks (first : Nat) (w : AngleWork K) : List (Track K) := w.rays.flatMap (rayTracks first w)

/-- All walks in a plane. -/
def planeTracks (p : PlaneWork K) : List (Track K) := p.angles.flatMap (angleTracks p.first)

/-- What a walk does: outgoing value, and gains of the regions. -/
def trackWalk (expo : K → K) (xstr q : Nat → K) (b : Nat → Nat → K) (tr : Track K) : K × (Nat → K) :=
  walk (eTau expo xstr tr.rst 0) q tr.wt 0 tr.segs (b tr.a tr.jin) fun _ => 0

theorem walk_abs (expo : K → K) (xstr q : Nat → K) (rst wt : K) (first : Nat) (l : List (Seg K)) (psi : K) (t : Nat → K) :
    walk (eTau expo xstr rst first) q wt first l psi t = walk (eTau expo xstr rst 0) q wt 0 (absSegs first l) psi t := by
  induction l generalizing psi t with
  | nil => rfl
  | cons s l ih =>
    rw [walk, ih]
    rfl

theorem walk_gain (e : Seg K → K) (q : Nat → K) (wt : K) (first : Nat) (l : List (Seg K)) (psi : K) (t t' : Nat → K) :
    (walk e q wt first l psi t).1 = (walk e q wt first l psi t').1 ∧ ∀ i, (walk e q wt first l psi t).2 i - t i = (walk e q wt first l psi t').2 i - t' i := by
  induction l generalizing psi t t' with
  | nil => exact ⟨rfl, fun i => by simp [walk]⟩
  | cons s l ih =>
    obtain ⟨h1, h2⟩ := ih (psi - (psi - q (s.reg + first)) * e s) (upd t (s.reg + first) (t (s.reg + first) + (psi - q (s.reg + first)) * e s * wt))
      (upd t' (s.reg + first) (t' (s.reg + first) + (psi - q (s.reg + first)) * e s * wt))
    refine ⟨h1, fun i => ?_⟩
    have h3 := h2 i
    rw [walk, walk]
    by_cases e : i = s.reg + first
    · subst e
      simp only [upd, if_true] at h3
      linear_combination h3
    · simp only [upd, if_neg e] at h3
      linear_combination h3

/-- One ray. -/
theorem ray_tracks (expo : K → K) (xstr q : Nat → K) (first : Nat) (w : AngleWork K) (b : Nat → Nat → K) (a : Acc K) (r : Ray K) :
    (∀ i, (sweepRay (eTau expo xstr w.rst first) q w.wt first (b w.iang1) (b w.iang2) a r).tflux i = a.tflux i + ((rayTracks first w r).map fun tr => (trackWalk expo xstr q b tr).2 i).sum) ∧
    (sweepRay (eTau expo xstr w.rst first) q w.wt first (b w.iang1) (b w.iang2) a r).out1 =
      upd a.out1 r.bc1 (trackWalk expo xstr q b ⟨w.iang1, r.bc0, r.bc1, w.rst, w.wt, absSegs first r.segs⟩).1 ∧
    (sweepRay (eTau expo xstr w.rst first) q w.wt first (b w.iang1) (b w.iang2) a r).out2 =
      upd a.out2 r.bc0 (trackWalk expo xstr q b ⟨w.iang2, r.bc1, r.bc0, w.rst, w.wt, absSegs first r.segs.reverse⟩).1 := by
  simp only [sweepRay]
  rw [walk_abs expo xstr q w.rst w.wt first r.segs, walk_abs expo xstr q w.rst w.wt first r.segs.reverse]
  obtain ⟨f1, f2⟩ := walk_gain (eTau expo xstr w.rst 0) q w.wt 0 (absSegs first r.segs) (b w.iang1 r.bc0) a.tflux fun _ => 0
  obtain ⟨g1, g2⟩ := walk_gain (eTau expo xstr w.rst 0) q w.wt 0 (absSegs first r.segs.reverse) (b w.iang2 r.bc1)
    (walk (eTau expo xstr w.rst 0) q w.wt 0 (absSegs first r.segs) (b w.iang1 r.bc0) a.tflux).2 fun _ => 0
  refine ⟨fun i => ?_, by rw [f1]; rfl, by rw [g1]; rfl⟩
  simp only [rayTracks, List.map_cons, List.map_nil, List.sum_cons, List.sum_nil, trackWalk]
  linear_combination f2 i + g2 i

/-- The rays of an angle. -/
theorem rays_tracks (expo : K → K) (xstr q : Nat → K) (first : Nat) (w : AngleWork K) (b : Nat → Nat → K) (l : List (Ray K)) (h0 : (l.map Ray.bc0).Nodup) (h1 : (l.map Ray.bc1).Nodup) (a : Acc K) :
    let R := l.foldl (sweepRay (eTau expo xstr w.rst first) q w.wt first (b w.iang1) (b w.iang2)) a
    (∀ i, R.tflux i = a.tflux i + ((l.flatMap (rayTracks first w)).map fun tr => (trackWalk expo xstr q b tr).2 i).sum) ∧
    (∀ r ∈ l, R.out1 r.bc1 = (trackWalk expo xstr q b ⟨w.iang1, r.bc0, r.bc1, w.rst, w.wt, absSegs first r.segs⟩).1 ∧
      R.out2 r.bc0 = (trackWalk expo xstr q b ⟨w.iang2, r.bc1, r.bc0, w.rst, w.wt, absSegs first r.segs.reverse⟩).1) ∧
    ∀ j, (j ∉ l.map Ray.bc1 → R.out1 j = a.out1 j) ∧ (j ∉ l.map Ray.bc0 → R.out2 j = a.out2 j) := by
  induction l generalizing a with
  | nil => exact ⟨fun i => by simp, by simp, fun j => ⟨fun _ => rfl, fun _ => rfl⟩⟩
  | cons r l ih =>
    rw [List.map_cons, List.nodup_cons] at h0 h1
    obtain ⟨k1, k2, k3⟩ := ih h0.2 h1.2 (sweepRay (eTau expo xstr w.rst first) q w.wt first (b w.iang1) (b w.iang2) a r)
    obtain ⟨r1, r2, r3⟩ := ray_tracks expo xstr q first w b a r
    refine ⟨fun i => ?_, fun r' hr' => ?_, fun j => ⟨fun hj => ?_, fun hj => ?_⟩⟩
    · rw [List.foldl_cons, k1 i, r1 i, List.flatMap_cons, List.map_append, List.sum_append]
      ring
    · rw [List.foldl_cons]
      rcases List.mem_cons.mp hr' with rfl | hr'
      · refine ⟨?_, ?_⟩
        · rw [(k3 _).1 h1.1, r2]; simp [upd]
        · rw [(k3 _).2 h0.1, r3]; simp [upd]
      · exact k2 r' hr'
    · rw [List.map_cons, List.mem_cons, not_or] at hj
      rw [List.foldl_cons, (k3 j).1 hj.2, r2]
      simp [upd, hj.1]
    · rw [List.map_cons, List.mem_cons, not_or] at hj
      rw [List.foldl_cons, (k3 j).2 hj.2, r3]
      simp [upd, hj.1]

end Verif.Moc

namespace Verif.Medium

open Finset Verif.XS Verif.Source
open Moc (Track Seg trackWalk planeTracks angleTracks)

section
variable {K : Type} [Field K] [LinearOrder K] [IsStrictOrderedRing K]

/-- A sweep of one plane with Jacobi updating. -/
theorem moc_jacobi_plane (expo : K → K) (xstr q : Nat → K) (u : Moc.BcUpdate K) (N nAng : Nat) (n : Nat → Nat) (p : Moc.PlaneWork K) (hok : PlaneOk N nAng n p) (honce : Once p.angles) (s : Moc.St K) :
    (∀ i, (Moc.sweepPlane expo xstr q false u p s).tflux i = s.tflux i + ((planeTracks p).map fun tr => (trackWalk expo xstr q s.bin tr).2 i).sum) ∧
    (∀ tr ∈ planeTracks p, (Moc.sweepPlane expo xstr q false u p s).bout tr.a tr.jout = (trackWalk expo xstr q s.bin tr).1) ∧
    (Moc.sweepPlane expo xstr q false u p s).bin = u.all s.bin (Moc.sweepPlane expo xstr q false u p s).bout := by
  have key : ∀ (ws : List (Moc.AngleWork K)) (s : Moc.St K), (∀ w ∈ ws, Moc.AngleOk N p.first (n w.iang1) w) → Once ws →
      (ws.foldl (Moc.sweepAngle expo xstr q false u p.first) s).bin = s.bin ∧
      (∀ i, (ws.foldl (Moc.sweepAngle expo xstr q false u p.first) s).tflux i = s.tflux i + ((ws.flatMap (angleTracks p.first)).map fun tr => (trackWalk expo xstr q s.bin tr).2 i).sum) ∧
      ∀ tr ∈ ws.flatMap (angleTracks p.first), (ws.foldl (Moc.sweepAngle expo xstr q false u p.first) s).bout tr.a tr.jout = (trackWalk expo xstr q s.bin tr).1 := by
    intro ws
    induction ws with
    | nil => exact fun s _ _ => ⟨rfl, fun i => by simp, by simp⟩
    | cons w ws ih =>
      intro s hw ho
      have hw0 := hw w (by simp)
      unfold Once at ho
      rw [List.flatMap_cons, List.nodup_append] at ho
      obtain ⟨-, o2, o3⟩ := ho
      have nd : ∀ l : List Nat, l.Perm (List.range (n w.iang1)) → l.Nodup := fun l h => h.nodup_iff.mpr List.nodup_range
      obtain ⟨r1, r2, -⟩ := Moc.rays_tracks expo xstr q p.first w s.bin w.rays (nd _ hw0.ends0) (nd _ hw0.ends1) ⟨s.tflux, s.bout w.iang1, s.bout w.iang2⟩
      obtain ⟨k1, k2, k3⟩ := ih (Moc.sweepAngle expo xstr q false u p.first s w) (fun x hx => hw x (by simp [hx])) o2
      have hb : (Moc.sweepAngle expo xstr q false u p.first s w).bin = s.bin := rfl
      rw [hb] at k1 k2 k3
      refine ⟨k1, fun i => ?_, fun tr htr => ?_⟩
      · rw [List.foldl_cons, k2 i, List.flatMap_cons, List.map_append, List.sum_append, ← add_assoc]
        congr 1
        exact r1 i
      · rw [List.flatMap_cons, List.mem_append] at htr
        rw [List.foldl_cons]
        rcases htr with htr | htr
        · obtain ⟨r, hr, htr⟩ := List.mem_flatMap.mp htr
          obtain ⟨e1, e2⟩ := r2 r hr
          have hn1 : w.iang1 ∉ ws.flatMap fun w => [w.iang1, w.iang2] := fun hh => o3 w.iang1 (by simp) w.iang1 hh rfl
          have hn2 : w.iang2 ∉ ws.flatMap fun w => [w.iang1, w.iang2] := fun hh => o3 w.iang2 (by simp) w.iang2 hh rfl
          simp only [Moc.rayTracks, List.mem_cons, List.not_mem_nil, or_false] at htr
          rcases htr with rfl | rfl
          · rw [bout_other _ _ _ _ _ _ _ _ _ hn1, ← e1]
            simp [Moc.sweepAngle, Moc.upd, hw0.ne]
          · rw [bout_other _ _ _ _ _ _ _ _ _ hn2, ← e2]
            simp [Moc.sweepAngle, Moc.upd]
        · exact k3 tr htr
  obtain ⟨k1, k2, k3⟩ := key p.angles s (fun w hw => (hok.angle w hw).1) honce
  refine ⟨k2, k3, ?_⟩
  simp only [Moc.sweepPlane, Bool.false_eq_true, if_false]
  rw [k1]

/-- The mirrored walk: `T` the mirrored angle, `σ` where the slots are, `ρ` where the regions are. -/
def flipTrack (T : Nat → Nat) (σ : Nat → Nat → Nat) (ρ : Nat → Nat) (tr : Track K) : Track K :=
  ⟨T tr.a, σ tr.a tr.jin, σ tr.a tr.jout, tr.rst, tr.wt, tr.segs.map fun s => ⟨ρ s.reg, s.len⟩⟩

/-- A walk along mirrored segments. -/
theorem walk_flip (expo : K → K) (xstr xstr' q q' : Nat → K) (rst wt : K) (N : Nat) (ρ : Nat → Nat) (hρ : ∀ i < N, ∀ j < N, ρ i = ρ j → i = j) (hx : ∀ i < N, xstr' (ρ i) = xstr i)
    (hq : ∀ i < N, q' (ρ i) = q i) (l : List (Seg K)) (hl : ∀ s ∈ l, s.reg < N) (psi : K) (t t' : Nat → K) (ht : ∀ i < N, t' (ρ i) = t i) :
    (Moc.walk (Moc.eTau expo xstr' rst 0) q' wt 0 (l.map fun s => ⟨ρ s.reg, s.len⟩) psi t').1 = (Moc.walk (Moc.eTau expo xstr rst 0) q wt 0 l psi t).1 ∧
    ∀ i < N, (Moc.walk (Moc.eTau expo xstr' rst 0) q' wt 0 (l.map fun s => ⟨ρ s.reg, s.len⟩) psi t').2 (ρ i) = (Moc.walk (Moc.eTau expo xstr rst 0) q wt 0 l psi t).2 i := by
  induction l generalizing psi t t' with
  | nil => exact ⟨rfl, ht⟩
  | cons s l ih =>
    have hs := hl s (by simp)
    rw [List.map_cons, Moc.walk, Moc.walk]
    have e1 : Moc.eTau expo xstr' rst 0 ⟨ρ s.reg, s.len⟩ = Moc.eTau expo xstr rst 0 s := by simp [Moc.eTau, hx _ hs]
    simp only [e1, Nat.add_zero, hq _ hs, ht _ hs]
    refine ih (fun x hx => hl x (by simp [hx])) _ _ _ fun i hi => ?_
    simp only [Moc.upd]
    by_cases e : i = s.reg
    · rw [if_pos e, if_pos (by rw [e])]
    · rw [if_neg e, if_neg (fun e' => e (hρ i hi _ hs e')), ht i hi]

/-- Sweeps `u`, planes `ps` of a core and those of the mirrored one: the walks of the mirrored core are the mirrored walks, in any order. -/
structure MocFlipped (N nAng : Nat) (n : Nat → Nat) (T : Nat → Nat) (σ : Nat → Nat → Nat) (ρ : Nat → Nat) (m m' : MocSetup K) (mir mir' : Nat → Nat → Nat) (vac vac' : Nat → Nat → Bool) : Prop where
  expo : m'.expo = m.expo
  fpi : m'.fpi = m.fpi
  inner : m'.nInner = m.nInner
  ok : ∀ p ∈ m.planes, PlaneOk N nAng n p ∧ Once p.angles
  ok' : ∀ p ∈ m'.planes, PlaneOk N nAng n p ∧ Once p.angles
  walks : List.Forall₂ (fun p p' => (planeTracks p').Perm ((planeTracks p).map (flipTrack T σ ρ))) m.planes m'.planes
  tLt : ∀ a < nAng, T a < nAng
  slot : ∀ a < nAng, ∀ j < n a, σ a j < n (T a)
  mirLt : ∀ a < nAng, ∀ j < n a, mir a j < nAng ∧ j < n (mir a j)
  mirT : ∀ a < nAng, ∀ j < n a, mir' (T a) (σ a j) = T (mir a j) ∧ σ (mir a j) j = σ a j
  vacT : ∀ a < nAng, ∀ j < n a, vac' (T a) (σ a j) = vac a j
  all : ∀ b o, ∀ a < nAng, ∀ j < n a, m.u.all b o a j = if vac a j then 0 else o (mir a j) j
  all' : ∀ b o, ∀ a < nAng, ∀ j < n a, m'.u.all b o a j = if vac' a j then 0 else o (mir' a j) j

/-- Incoming values of the mirrored plane. -/
def FlipRow (nAng : Nat) (n : Nat → Nat) (T : Nat → Nat) (σ : Nat → Nat → Nat) (b b' : Nat → Nat → K) : Prop := ∀ a < nAng, ∀ j < n a, b' (T a) (σ a j) = b a j

theorem track_lt {N nAng : Nat} {n : Nat → Nat} {p : Moc.PlaneWork K} (h : PlaneOk N nAng n p) (tr : Track K) (htr : tr ∈ planeTracks p) :
    tr.a < nAng ∧ tr.jin < n tr.a ∧ tr.jout < n tr.a ∧ ∀ s ∈ tr.segs, s.reg < N := by
  obtain ⟨w, hw, htr⟩ := List.mem_flatMap.mp htr
  obtain ⟨r, hr, htr⟩ := List.mem_flatMap.mp htr
  obtain ⟨h1, h2, h3, h4⟩ := h.angle w hw
  have hb0 : r.bc0 < n w.iang1 := List.mem_range.mp (h1.ends0.subset (List.mem_map.mpr ⟨r, hr, rfl⟩))
  have hb1 : r.bc1 < n w.iang1 := List.mem_range.mp (h1.ends1.subset (List.mem_map.mpr ⟨r, hr, rfl⟩))
  simp only [Moc.rayTracks, List.mem_cons, List.not_mem_nil, or_false] at htr
  rcases htr with rfl | rfl
  · refine ⟨h2, hb0, hb1, fun s hs => ?_⟩
    obtain ⟨s', hs', rfl⟩ := List.mem_map.mp hs
    exact h1.regs r hr s' hs'
  · refine ⟨h3, by rw [h4]; exact hb1, by rw [h4]; exact hb0, fun s hs => ?_⟩
    obtain ⟨s', hs', rfl⟩ := List.mem_map.mp hs
    exact h1.regs r hr s' (List.mem_reverse.mp hs')

theorem track_out {N nAng : Nat} {n : Nat → Nat} {p : Moc.PlaneWork K} (h : PlaneOk N nAng n p) (a : Nat) (ha : a < nAng) (j : Nat) (hj : j < n a) : ∃ tr ∈ planeTracks p, tr.a = a ∧ tr.jout = j := by
  obtain ⟨w, hw, e⟩ := h.cover a ha
  obtain ⟨h1, h2, h3, h4⟩ := h.angle w hw
  rcases e with rfl | rfl
  · obtain ⟨r, hr, rfl⟩ := List.mem_map.mp (h1.ends1.symm.subset (List.mem_range.mpr hj))
    exact ⟨_, List.mem_flatMap.mpr ⟨w, hw, List.mem_flatMap.mpr ⟨r, hr, List.mem_cons_self⟩⟩, rfl, rfl⟩
  · rw [h4] at hj
    obtain ⟨r, hr, rfl⟩ := List.mem_map.mp (h1.ends0.symm.subset (List.mem_range.mpr hj))
    exact ⟨_, List.mem_flatMap.mpr ⟨w, hw, List.mem_flatMap.mpr ⟨r, hr, List.mem_cons_of_mem _ List.mem_cons_self⟩⟩, rfl, rfl⟩

/-- C159: a sweep of one plane and one group. -/
theorem C159_plane {N nAng : Nat} {n : Nat → Nat} {T : Nat → Nat} {σ : Nat → Nat → Nat} {ρ : Nat → Nat} {m m' : MocSetup K} {mir mir' : Nat → Nat → Nat} {vac vac' : Nat → Nat → Bool}
    (h : MocFlipped N nAng n T σ ρ m m' mir mir' vac vac') (hρ : ∀ i < N, ∀ j < N, ρ i = ρ j → i = j) (xs xs' q q' : Nat → K) (hx : ∀ i < N, xs' (ρ i) = xs i) (hq : ∀ i < N, q' (ρ i) = q i)
    (p p' : Moc.PlaneWork K) (hp : p ∈ m.planes) (hp' : p' ∈ m'.planes) (hw : (planeTracks p').Perm ((planeTracks p).map (flipTrack T σ ρ))) (s s' : Moc.St K)
    (ht : ∀ i < N, s'.tflux (ρ i) = s.tflux i) (hb : FlipRow nAng n T σ s.bin s'.bin) :
    (∀ i < N, (Moc.sweepPlane m'.expo xs' q' false m'.u p' s').tflux (ρ i) = (Moc.sweepPlane m.expo xs q false m.u p s).tflux i) ∧
    FlipRow nAng n T σ (Moc.sweepPlane m.expo xs q false m.u p s).bin (Moc.sweepPlane m'.expo xs' q' false m'.u p' s').bin := by
  obtain ⟨a1, a2, a3⟩ := moc_jacobi_plane m.expo xs q m.u N nAng n p (h.ok p hp).1 (h.ok p hp).2 s
  obtain ⟨b1, b2, b3⟩ := moc_jacobi_plane m'.expo xs' q' m'.u N nAng n p' (h.ok' p' hp').1 (h.ok' p' hp').2 s'
  have hd : ∀ tr ∈ planeTracks p, (trackWalk m'.expo xs' q' s'.bin (flipTrack T σ ρ tr)).1 = (trackWalk m.expo xs q s.bin tr).1 ∧
      ∀ i < N, (trackWalk m'.expo xs' q' s'.bin (flipTrack T σ ρ tr)).2 (ρ i) = (trackWalk m.expo xs q s.bin tr).2 i := by
    intro tr htr
    obtain ⟨t1, t2, t3, t4⟩ := track_lt (h.ok p hp).1 tr htr
    simp only [trackWalk, flipTrack, hb _ t1 _ t2, h.expo]
    exact walk_flip m.expo xs xs' q q' tr.rst tr.wt N ρ hρ hx hq tr.segs t4 _ _ _ fun _ _ => rfl
  refine ⟨fun i hi => ?_, fun a ha j hj => ?_⟩
  · rw [a1, b1, ht i hi, (hw.map _).sum_eq, List.map_map]
    congr 2
    exact List.map_congr_left fun tr htr => (hd tr htr).2 i hi
  · rw [a3, b3, h.all _ _ a ha j hj, h.all' _ _ _ (h.tLt a ha) _ (h.slot a ha j hj), h.vacT a ha j hj, (h.mirT a ha j hj).1]
    split_ifs
    · rfl
    · obtain ⟨m1, m2⟩ := h.mirLt a ha j hj
      obtain ⟨tr, htr, e1, e2⟩ := track_out (h.ok p hp).1 _ m1 j m2
      have h2 := a2 tr htr
      have h3 := b2 (flipTrack T σ ρ tr) (hw.symm.subset (List.mem_map.mpr ⟨tr, htr, rfl⟩))
      rw [(hd tr htr).1, ← h2] at h3
      simp only [flipTrack, e1, e2, (h.mirT a ha j hj).2] at h3
      exact h3

/-- C159: a sweep of one group. -/
theorem C159_sweep {N nAng : Nat} {n : Nat → Nat} {T : Nat → Nat} {σ : Nat → Nat → Nat} {ρ : Nat → Nat} {m m' : MocSetup K} {mir mir' : Nat → Nat → Nat} {vac vac' : Nat → Nat → Bool}
    (h : MocFlipped N nAng n T σ ρ m m' mir mir' vac vac') (hρ : ∀ i < N, ∀ j < N, ρ i = ρ j → i = j) (xs xs' vol vol' q q' : Nat → K) (hx : ∀ i < N, xs' (ρ i) = xs i)
    (hv : ∀ i < N, vol' (ρ i) = vol i) (hq : ∀ i < N, q' (ρ i) = q i) (b b' o o' : List (Nat → Nat → K)) (hb : List.Forall₂ (FlipRow nAng n T σ) b b') (l1 : b.length = m.planes.length)
    (l2 : o.length = m.planes.length) (l3 : o'.length = m.planes.length) :
    (∀ i < N, (Moc.sweep1g m'.expo m'.fpi xs' vol' q' false m'.u (m'.planes.zip (b'.zip o'))).1 (ρ i) = (Moc.sweep1g m.expo m.fpi xs vol q false m.u (m.planes.zip (b.zip o))).1 i) ∧
    List.Forall₂ (FlipRow nAng n T σ) ((Moc.sweep1g m.expo m.fpi xs vol q false m.u (m.planes.zip (b.zip o))).2.map Prod.fst)
      ((Moc.sweep1g m'.expo m'.fpi xs' vol' q' false m'.u (m'.planes.zip (b'.zip o'))).2.map Prod.fst) ∧
    (Moc.sweep1g m.expo m.fpi xs vol q false m.u (m.planes.zip (b.zip o))).2.length = m.planes.length ∧
    (Moc.sweep1g m'.expo m'.fpi xs' vol' q' false m'.u (m'.planes.zip (b'.zip o'))).2.length = m.planes.length := by
  have key : ∀ (ps ps' : List (Moc.PlaneWork K)), List.Forall₂ (fun p p' => (planeTracks p').Perm ((planeTracks p).map (flipTrack T σ ρ))) ps ps' → (∀ p ∈ ps, p ∈ m.planes) → (∀ p ∈ ps', p ∈ m'.planes) →
      ∀ (b b' o o' : List (Nat → Nat → K)) (t t' : Nat → K), List.Forall₂ (FlipRow nAng n T σ) b b' → b.length = ps.length → o.length = ps.length → o'.length = ps.length → (∀ i < N, t' (ρ i) = t i) →
      (∀ i < N, (Moc.sweepPlanes m'.expo xs' q' false m'.u (ps'.zip (b'.zip o')) t').1 (ρ i) = (Moc.sweepPlanes m.expo xs q false m.u (ps.zip (b.zip o)) t).1 i) ∧
      List.Forall₂ (FlipRow nAng n T σ) ((Moc.sweepPlanes m.expo xs q false m.u (ps.zip (b.zip o)) t).2.map Prod.fst)
        ((Moc.sweepPlanes m'.expo xs' q' false m'.u (ps'.zip (b'.zip o')) t').2.map Prod.fst) ∧
      (Moc.sweepPlanes m.expo xs q false m.u (ps.zip (b.zip o)) t).2.length = ps.length ∧ (Moc.sweepPlanes m'.expo xs' q' false m'.u (ps'.zip (b'.zip o')) t').2.length = ps.length := by
    intro ps ps' hps
    induction hps with
    | nil =>
      intro _ _ b b' o o' t t' hb l1 l2 l3 ht
      exact ⟨ht, List.Forall₂.nil, rfl, rfl⟩
    | @cons p p' ps ps' hp hps ih =>
      intro hm hm' b b' o o' t t' hb l1 l2 l3 ht
      cases hb with
      | nil => simp at l1
      | @cons b0 b0' bs bs' hb0 hbs =>
        cases o with
        | nil => simp at l2
        | cons o0 os =>
          cases o' with
          | nil => simp at l3
          | cons o0' os' =>
            simp only [List.length_cons, Nat.add_right_cancel_iff] at l1 l2 l3
            obtain ⟨c1, c2⟩ := C159_plane h hρ xs xs' q q' hx hq p p' (hm p (by simp)) (hm' p' (by simp)) hp ⟨t, b0, o0⟩ ⟨t', b0', o0'⟩ ht hb0
            obtain ⟨i1, i2, i3, i4⟩ := ih (fun x hx => hm x (by simp [hx])) (fun x hx => hm' x (by simp [hx])) bs bs' os os' (Moc.sweepPlane m.expo xs q false m.u p ⟨t, b0, o0⟩).tflux
              (Moc.sweepPlane m'.expo xs' q' false m'.u p' ⟨t', b0', o0'⟩).tflux hbs l1 l2 l3 c1
            simp only [List.zip_cons_cons, Moc.sweepPlanes, List.map_cons, List.length_cons]
            exact ⟨i1, List.Forall₂.cons c2 i2, by rw [i3], by rw [i4]⟩
  obtain ⟨r1, r2, r3, r4⟩ := key m.planes m'.planes h.walks (fun _ h => h) (fun _ h => h) b b' o o' (fun _ => 0) (fun _ => 0) hb l1 l2 l3 fun _ _ => rfl
  refine ⟨fun i hi => ?_, r2, r3, r4⟩
  simp only [Moc.sweep1g, Moc.finish, r1 i hi, hx i hi, hv i hi, hq i hi, h.fpi]

section
variable {p p' : Problem K} {nAng : Nat} {n : Nat → Nat} {T : Nat → Nat} {σ : Nat → Nat → Nat} {ρ : Nat → Nat} {m m' : MocSetup K} {mir mir' : Nat → Nat → Nat} {vac vac' : Nat → Nat → Bool}

/-- The flux of the mirrored core and, plane by plane, its incoming values. -/
def RaysFlip (p : Problem K) (nPl nAng : Nat) (n T : Nat → Nat) (σ : Nat → Nat → Nat) (ρ : Nat → Nat) (s s' : MocState K) : Prop :=
  (∀ i < p.nReg, ∀ g < p.ng, s'.flux (ρ i) g = s.flux i g) ∧ (∀ g < p.ng, List.Forall₂ (FlipRow nAng n T σ) (s.bin g) (s'.bin g) ∧ (s.bin g).length = nPl) ∧
    s.bout.length = nPl ∧ s'.bout.length = nPl

theorem flip_rays_inner (hp : ProblemFlip ρ p p') (h : MocFlipped p.nReg nAng n T σ ρ m m' mir mir' vac vac') (hj : m.gs = false ∧ m'.gs = false) (g : Nat) (hg : g < p.ng) (src src' : Nat → K)
    (hsrc : ∀ i < p.nReg, src' (ρ i) = src i) (s s' : MocState K) (hs : RaysFlip p m.planes.length nAng n T σ ρ s s') :
    RaysFlip p m.planes.length nAng n T σ ρ (mocInner p m g src s) (mocInner p' m' g src' s') := by
  obtain ⟨s1, s2, s3, s4⟩ := hs
  obtain ⟨r1, r2, r3, r4⟩ := C159_sweep h (fun i hi j hj e => by rw [← hp.twice i hi, e, hp.twice j hj]) (trOf p.rs g) (trOf p'.rs g) p.vol p'.vol
    (selfScatter m.fpi p.ng p.rs s.flux g src true s.q) (selfScatter m'.fpi p'.ng p'.rs s'.flux g src' true s'.q)
    (fun i hi => by
      obtain ⟨x, hx, x', hx', hxi, hxi', hm⟩ := hp.mat i hi
      rw [trOf_at p.rs hp.part g x hx i hxi, trOf_at p'.rs hp.part' g x' hx' _ hxi', hm]) hp.vol
    (fun i hi => by
      obtain ⟨x, hx, x', hx', hxi, hxi', hm⟩ := hp.mat i hi
      rw [selfScatter_at m.fpi p.ng _ hp.part s.flux g hg src true s.q x hx i hxi, selfScatter_at m'.fpi p'.ng _ hp.part' s'.flux g (hp.ng ▸ hg) src' true s'.q x' hx' (ρ i) hxi',
        hsrc i hi, hm, h.fpi, s1 i hi g hg]) (s.bin g) (s'.bin g) s.bout s'.bout (s2 g hg).1 (s2 g hg).2 s3 s4
  rw [← hj.1] at r1 r2 r3
  rw [← hj.1, hj.1, ← hj.2] at r4
  have e1 : m.gs = m'.gs := hj.1.trans hj.2.symm
  refine ⟨fun i hi g' hg' => ?_, fun g' hg' => ?_, ?_, ?_⟩
  · show (if g' = g then _ else s'.flux (ρ i) g') = if g' = g then _ else s.flux i g'
    by_cases e : g' = g
    · rw [if_pos e, if_pos e, ← e1]; exact r1 i hi
    · rw [if_neg e, if_neg e]; exact s1 i hi g' hg'
  · show List.Forall₂ (FlipRow nAng n T σ) (if g' = g then _ else s.bin g') (if g' = g then _ else s'.bin g') ∧ (if g' = g then _ else s.bin g').length = _
    by_cases e : g' = g
    · rw [if_pos e, if_pos e, ← e1]; exact ⟨r2, by rw [List.length_map]; exact r3⟩
    · rw [if_neg e, if_neg e]; exact s2 g' hg'
  · show (List.map _ _).length = _
    rw [List.length_map]; exact r3
  · show (List.map _ _).length = _
    rw [List.length_map]; exact r4

/-- C159: all inner iterations of a group. -/
theorem C159_group (hp : ProblemFlip ρ p p') (h : MocFlipped p.nReg nAng n T σ ρ m m' mir mir' vac vac') (hj : m.gs = false ∧ m'.gs = false) (g : Nat) (hg : g < p.ng) (src src' : Nat → K)
    (hsrc : ∀ i < p.nReg, src' (ρ i) = src i) (s s' : MocState K) (hs : RaysFlip p m.planes.length nAng n T σ ρ s s') :
    RaysFlip p m.planes.length nAng n T σ ρ (mocSweep p m g src s) (mocSweep p' m' g src' s') := by
  unfold mocSweep
  rw [h.inner]
  generalize List.range m.nInner = l
  induction l generalizing s s' with
  | nil => exact hs
  | cons _ l ih => exact ih _ _ (flip_rays_inner hp h hj g hg src src' hsrc s s' hs)

/-- C159: all groups. -/
theorem C159_groups (hp : ProblemFlip ρ p p') (h : MocFlipped p.nReg nAng n T σ ρ m m' mir mir' vac vac') (hj : m.gs = false ∧ m'.gs = false) (base base' : Nat → Nat → K)
    (hbase : ∀ g < p.ng, ∀ i < p.nReg, base' g (ρ i) = base g i) (c g : Nat) (hg : g + c ≤ p.ng) (s s' : MocState K) (hs : RaysFlip p m.planes.length nAng n T σ ρ s s') :
    RaysFlip p m.planes.length nAng n T σ ρ (srcLoop p (mocSweeper p m) base c g s) (srcLoop p' (mocSweeper p' m') base' c g s') := by
  induction c generalizing g s s' with
  | zero => exact hs
  | succ c ih =>
    have hg' : g < p.ng := by omega
    rw [srcLoop, srcLoop]
    refine ih (g + 1) (by omega) _ _ (C159_group hp h hj g hg' _ _ (fun i hi => ?_) s s' hs)
    obtain ⟨x, hx, x', hx', hxi, hxi', hm⟩ := hp.mat i hi
    rw [inScatter_at p.ng _ hp.part _ g hg' (base g) x hx i hxi (hp.nonneg x hx),
      inScatter_at p'.ng _ hp.part' _ g (hp.ng ▸ hg') (base' g) x' hx' (ρ i) hxi' (by rw [hm, hp.ng]; exact hp.nonneg x hx), hbase g hg' i hi, hp.ng, hm]
    congr 1
    refine sum_congr rfl fun b hb => ?_
    by_cases e : b = g
    · simp [e]
    · rw [if_pos e, if_pos e]
      exact congrArg (x.mat.sc g b * ·) (hs.1 i hi b (mem_range.mp hb))

/-- C159: an outer iteration. -/
theorem C159_outer (hp : ProblemFlip ρ p p') (h : MocFlipped p.nReg nAng n T σ ρ m m' mir mir' vac vac') (hj : m.gs = false ∧ m'.gs = false) (k : K) (s s' : MocState K)
    (hs : RaysFlip p m.planes.length nAng n T σ ρ s s') :
    ∃ k1 s1 s1', outer p (mocSweeper p m) k s = some (k1, s1) ∧ outer p' (mocSweeper p' m') k s' = some (k1, s1') ∧ RaysFlip p m.planes.length nAng n T σ ρ s1 s1' := by
  have r := C159_groups hp h hj (fun g => fission p.rs (calcFissionSource p.ng p.rs k s.flux) g fun _ => 0) (fun g => fission p'.rs (calcFissionSource p'.ng p'.rs k s'.flux) g fun _ => 0)
    (fun g _ i hi => by
      obtain ⟨x, hx, x', hx', hxi, hxi', hm⟩ := hp.mat i hi
      rw [fission_at _ hp.part _ g _ x hx i hxi, fission_at _ hp.part' _ g _ x' hx' _ hxi', C47_fission_source _ _ hp.part k _ x hx i hxi, C47_fission_source _ _ hp.part' k _ x' hx' _ hxi', hm, hp.ng]
      congr 3
      exact sum_congr rfl fun g hg => congrArg (x.mat.nf g * ·) (hs.1 i hi g (mem_range.mp hg))) p.ng 0 (by omega) s s' hs
  refine ⟨k * totalFission p.ng p.rs p.vol (srcLoop p (mocSweeper p m) (fun g => fission p.rs (calcFissionSource p.ng p.rs k s.flux) g fun _ => 0) p.ng 0 s).flux /
    totalFission p.ng p.rs p.vol s.flux, _, _, by rw [outer, groupLoop_eq, Option.map_some]; rfl, ?_, r⟩
  rw [outer, groupLoop_eq, Option.map_some, Option.some.injEq, Prod.mk.injEq]
  have e : srcLoop p' (mocSweeper p' m') (fun g => fission p'.rs (calcFissionSource p'.ng p'.rs k ((mocSweeper p' m').flux s')) g fun _ => 0) p'.ng 0 s' =
      srcLoop p' (mocSweeper p' m') (fun g => fission p'.rs (calcFissionSource p'.ng p'.rs k s'.flux) g fun _ => 0) p.ng 0 s' := by rw [hp.ng]; rfl
  rw [e]
  refine ⟨?_, rfl⟩
  show k * totalFission _ _ _ (srcLoop p' (mocSweeper p' m') _ _ _ _).flux / totalFission _ _ _ s'.flux = _
  rw [C158_production hp _ _ r.1, C158_production hp _ _ hs.1]

/-- C159: any number of outer iterations: the same eigenvalues, the mirrored flux and the mirrored incoming values. -/
theorem C159_outers (hp : ProblemFlip ρ p p') (h : MocFlipped p.nReg nAng n T σ ρ m m' mir mir' vac vac') (hj : m.gs = false ∧ m'.gs = false) (c : Nat) (k : K) (s s' : MocState K)
    (hs : RaysFlip p m.planes.length nAng n T σ ρ s s') :
    ∃ k1 s1 s1', outers p (mocSweeper p m) c k s = some (k1, s1) ∧ outers p' (mocSweeper p' m') c k s' = some (k1, s1') ∧ RaysFlip p m.planes.length nAng n T σ ρ s1 s1' := by
  induction c generalizing k s s' with
  | zero => exact ⟨k, s, s', rfl, rfl, hs⟩
  | succ c ih =>
    obtain ⟨k1, s1, s1', h1, h2, h3⟩ := C159_outer hp h hj k s s' hs
    obtain ⟨k2, s2, s2', h4, h5, h6⟩ := ih k1 s1 s1' h3
    exact ⟨k2, s2, s2', by rw [outers, h1]; exact h4, by rw [outers, h2]; exact h5, h6⟩

/-- C159: any number of steps with an external source and its mirror image. -/
theorem C159_fixed (hp : ProblemFlip ρ p p') (h : MocFlipped p.nReg nAng n T σ ρ m m' mir mir' vac vac') (hj : m.gs = false ∧ m'.gs = false) (ext ext' : Option (Ext K))
    (E E' : Nat → Nat → K) (hE : ∀ g < p.ng, initializeGroup p.nReg ext g = some (E g)) (hE' : ∀ g < p.ng, initializeGroup p.nReg ext' g = some (E' g))
    (hEE : ∀ g < p.ng, ∀ i < p.nReg, E' g (ρ i) = E g i) (c : Nat) (s s' : MocState K) (hs : RaysFlip p m.planes.length nAng n T σ ρ s s') :
    ∃ s1 s1', fixedSteps p (mocSweeper p m) ext c s = some s1 ∧ fixedSteps p' (mocSweeper p' m') ext' c s' = some s1' ∧ RaysFlip p m.planes.length nAng n T σ ρ s1 s1' := by
  induction c generalizing s s' with
  | zero => exact ⟨s, s', rfl, rfl, hs⟩
  | succ c ih =>
    obtain ⟨s1, s1', h1, h2, h3⟩ := ih _ _ (C159_groups hp h hj E E' hEE p.ng 0 (by omega) s s' hs)
    refine ⟨s1, s1', ?_, ?_, h3⟩
    · rw [fixedSteps, extLoop_eq p _ ext E p.ng 0 fun g _ hg => hE g (by omega), Option.bind_some]
      exact h1
    · rw [fixedSteps, hp.ng, extLoop_eq p' _ ext' E' p.ng 0 fun g _ hg => by rw [hp.nReg]; exact hE' g (by omega), Option.bind_some]
      exact h2

/-- C159: a core that is its own mirror image, from a state that is its own mirror image: so it stays. -/
theorem C159_symmetric (hp : ProblemFlip ρ p p) (h : MocFlipped p.nReg nAng n T σ ρ m m mir mir vac vac) (hj : m.gs = false) (c : Nat) (k k1 : K) (s s1 : MocState K)
    (hs : RaysFlip p m.planes.length nAng n T σ ρ s s) (ho : outers p (mocSweeper p m) c k s = some (k1, s1)) : RaysFlip p m.planes.length nAng n T σ ρ s1 s1 := by
  obtain ⟨k2, s2, s2', h1, h2, h3⟩ := C159_outers hp h ⟨hj, hj⟩ c k s s hs
  rw [ho, Option.some.injEq, Prod.mk.injEq] at h1 h2
  rw [← h1.2, ← h2.2] at h3
  exact h3

end

end

end Verif.Medium

namespace Verif.Medium

open Finset Verif.XS Verif.Source Verif.Quad Verif.Quad.Spec Verif.BC
open Moc (Track Seg trackWalk planeTracks angleTracks)

section
variable {K : Type} [Field K] [LinearOrder K] [IsStrictOrderedRing K]

/-- Incoming values after an update of all angles, reflection or vacuum on each face, angles in a plane. -/
theorem moc_all_values (sh : Store K) (first : List (Angle K)) (h : ∀ b o, Pre (load sh b) (load sh o) first) (h4 : sh.size.length = 4 * first.length)
    (ht : ∀ s, sh.types s = .REFLECT ∨ sh.types s = .VACUUM) (hmir : ∀ a n m, faceSize sh a n ≠ 0 → faceSize sh (refl first.length a n) m = faceSize sh a m)
    (a : Nat) (ha : a < 4 * first.length) (j : Nat) (hj : j < rowSize sh a) :
    refl first.length a (faceOf sh a j).1 < 4 * first.length ∧ (faceOf sh a j).1 ≠ .Z ∧ (∀ m, faceSize sh (refl first.length a (faceOf sh a j).1) m = faceSize sh a m) ∧
    ∀ b o, (mocUpdate sh).all b o a j = if vacuumAt sh a j then 0 else o (refl first.length a (faceOf sh a j).1) j := by
  have hP := h (fun _ _ _ => 0) fun _ _ _ => 0
  have hangles : sh.angles = expand first := hP.angles
  have hz : faceSize sh a .Z = 0 := by
    rcases hP.nA with hh | hh
    · have : sh.size.length = 8 * first.length := hh
      omega
    · exact hh.2 a
  obtain ⟨h1, h2, h3⟩ := face_of_slot sh a j hz hj
  have hf : ∀ m, faceSize sh (refl first.length a (faceOf sh a j).1) m = faceSize sh a m := fun m => hmir a _ m (by omega)
  refine ⟨?_, h1, hf, fun b o => ?_⟩
  · obtain ⟨oc, k, ho, hk, e⟩ := split_index first.length a (by omega)
    have ho4 : oc < 4 := by
      by_contra hc
      have := Nat.mul_le_mul_right first.length (show 4 ≤ oc by omega)
      omega
    have e' := refl_eq first.length oc k ho hk (faceOf sh a j).1
    rw [← e] at e'
    rw [e']
    have : octMirror (faceOf sh a j).1 oc < 4 := by
      generalize (faceOf sh a j).1 = nn at h1
      cases nn
      · clear e e' ha hj; interval_cases oc <;> decide
      · clear e e' ha hj; interval_cases oc <;> decide
      · exact absurd rfl h1
    have := Nat.mul_le_mul_right first.length (show octMirror (faceOf sh a j).1 oc ≤ 3 by omega)
    omega
  · obtain ⟨ang, he⟩ : ∃ ang, sh.angles[a]? = some ang := by
      rw [hangles]
      exact ⟨_, List.getElem?_eq_getElem (by rw [expand_length]; omega)⟩
    obtain ⟨v1, v2, -⟩ := C110_store_value sh first (fun a n e => b a (slotOf sh a n e)) (fun a n e => o a (slotOf sh a n e)) (h _ _) a _ _ h2 ang he
    have hs : slotOf sh (refl first.length a (faceOf sh a j).1) (faceOf sh a j).1 (faceOf sh a j).2 = j := by rw [slotOf_congr sh a _ _ _ hf, h3]
    show storeAll sh _ _ a _ _ = _
    rw [vacuumAt, he, Option.map_some, Option.getD_some]
    rcases ht (upwindSurface ang (faceOf sh a j).1) with e | e
    · rw [v2 e, hs]; simp [e]
    · rw [v1 e]; simp [e]

/-- C159: the boundary conditions of the code and those of the mirrored core are of this kind, for slots `σ` on the same faces. -/
theorem C159_boundary (N : Nat) (sh sh' : Store K) (first : List (Angle K)) (h : ∀ b o, Pre (load sh b) (load sh o) first) (h' : ∀ b o, Pre (load sh' b) (load sh' o) first)
    (h4 : sh.size.length = 4 * first.length) (hl : sh'.size = sh.size) (ht : ∀ s, sh.types s = .REFLECT ∨ sh.types s = .VACUUM)
    (hmir : ∀ a n m, faceSize sh a n ≠ 0 → faceSize sh (refl first.length a n) m = faceSize sh a m) (f : Sn.Ax2 → Bool) (htypes : sh'.types = turnTypes (flags2 f) sh.types)
    (ang : Nat → Angle K) (hang : ∀ a < sh.size.length, sh.angles[a]? = some (ang a)) (hcos : ∀ a < sh.size.length, (ang a).ox ≠ 0 ∧ (ang a).oy ≠ 0)
    (ρ : Nat → Nat) (σ : Nat → Nat → Nat)
    (hσ : ∀ a < sh.size.length, ∀ j < rowSize sh a, σ a j < rowSize sh (turnAng first.length (flags2 f) a) ∧
      (faceOf sh (turnAng first.length (flags2 f) a) (σ a j)).1 = (faceOf sh a j).1 ∧ σ (refl first.length a (faceOf sh a j).1) j = σ a j)
    (m m' : MocSetup K) (hu : m.u = mocUpdate sh) (hu' : m'.u = mocUpdate sh') (hexpo : m'.expo = m.expo) (hfpi : m'.fpi = m.fpi) (hinner : m'.nInner = m.nInner)
    (hok : ∀ p ∈ m.planes, PlaneOk N sh.size.length (rowSize sh) p ∧ Once p.angles) (hok' : ∀ p ∈ m'.planes, PlaneOk N sh.size.length (rowSize sh) p ∧ Once p.angles)
    (hwalks : List.Forall₂ (fun p p' => (planeTracks p').Perm ((planeTracks p).map (flipTrack (turnAng first.length (flags2 f)) σ ρ))) m.planes m'.planes) :
    MocFlipped N sh.size.length (rowSize sh) (turnAng first.length (flags2 f)) σ ρ m m' (fun a j => refl first.length a (faceOf sh a j).1) (fun a j => refl first.length a (faceOf sh a j).1)
      (vacuumAt sh) (vacuumAt sh') := by
  have hP := h (fun _ _ _ => 0) fun _ _ _ => 0
  have hangles : sh.angles = expand first := hP.angles
  have hangles' : sh'.angles = expand first := (h' (fun _ _ _ => 0) fun _ _ _ => 0).angles
  have hfs : ∀ a m, faceSize sh' a m = faceSize sh a m := fun a m => by simp only [faceSize, hl]
  have hfo : ∀ a j, faceOf sh' a j = faceOf sh a j := fun a j => by simp only [faceOf, hfs]
  have hrs : ∀ a, rowSize sh' a = rowSize sh a := fun a => by simp only [rowSize, hfs]
  have hlt : ∀ a < sh.size.length, ∀ k : Sn.Ax2, refl first.length a (norm2 k) < sh.size.length := by
    intro a ha k
    obtain ⟨o, i, ho, hi, rfl⟩ := split_index first.length a (by omega)
    have ho4 : o < 4 := by
      by_contra hc
      have := Nat.mul_le_mul_right first.length (show 4 ≤ o by omega)
      omega
    rw [refl_eq _ o i (by omega) hi, h4]
    have : octMirror (norm2 k) o < 4 := by
      clear ha hi
      cases k <;> interval_cases o <;> decide
    have := Nat.mul_le_mul_right first.length (show octMirror (norm2 k) o ≤ 3 by omega)
    omega
  have hrm : ∀ a < sh.size.length, ∀ k : Sn.Ax2, ang (refl first.length a (norm2 k)) = mirror (ang a) (norm2 k) := by
    intro a ha k
    have h1 := hang a ha
    have h2 := hang _ (hlt a ha k)
    rw [hangles] at h1 h2
    rw [refl_get first hP.firstOct a _ _ h1, Option.some.injEq] at h2
    exact h2.symm
  have ht' : ∀ s, sh'.types s = .REFLECT ∨ sh'.types s = .VACUUM := by
    intro s
    rw [htypes]
    cases s <;> exact ht _
  have hltN : ∀ a < sh.size.length, ∀ n, flags2 f n = true → refl first.length a n < sh.size.length := by
    intro a ha n hn
    cases n
    · exact hlt a ha .x
    · exact hlt a ha .y
    · exact absurd hn (by simp [flags2])
  have hrmN : ∀ a < sh.size.length, ∀ n, flags2 f n = true → ang (refl first.length a n) = mirror (ang a) n := by
    intro a ha n hn
    cases n
    · exact hrm a ha .x
    · exact hrm a ha .y
    · exact absurd hn (by simp [flags2])
  have tp := fun a ha => turnAng_props first.length sh.size.length (flags2 f) (by omega) hltN a ha
  have ta := fun a ha => turnAng_angle first.length sh.size.length (flags2 f) ang hltN hrmN a ha
  have va := fun a ha j hj => moc_all_values sh first h h4 ht hmir a ha j hj
  have va' := fun a ha j hj => moc_all_values sh' first h' (by rw [hl]; exact h4) ht' (fun a n m hh => by rw [hfs, hfs]; exact hmir a n m (by rwa [hfs] at hh)) a ha j hj
  exact
    { expo := hexpo
      fpi := hfpi
      inner := hinner
      ok := hok
      ok' := hok'
      walks := hwalks
      tLt := fun a ha => (tp a ha).1
      slot := fun a ha j hj => (hσ a ha j hj).1
      mirLt := fun a ha j hj => by
        obtain ⟨v1, -, v3, -⟩ := va a (by omega) j hj
        exact ⟨by omega, by rw [rowSize, v3, v3, v3]; exact hj⟩
      mirT := fun a ha j hj => ⟨by
        show refl first.length (turnAng _ _ a) (faceOf sh _ _).1 = _
        rw [(hσ a ha j hj).2.1, (tp a ha).2.2], (hσ a ha j hj).2.2⟩
      vacT := fun a ha j hj => by
        show vacuumOn sh' _ (faceOf sh' _ _).1 = vacuumOn sh a (faceOf sh a j).1
        rw [hfo, (hσ a ha j hj).2.1]
        exact turn_vacuum sh sh' (flags2 f) (by rw [hl]) htypes ang hang (fun a ha => by rw [hangles', ← hangles]; exact hang a ha) a _ ha (tp a ha).1
          ⟨(hcos a ha).1, (hcos a ha).2, fun e => absurd e (by simp [flags2])⟩ (ta a ha) _
      all := fun b o a ha j hj => by
        rw [hu]
        exact (va a (by omega) j hj).2.2.2 b o
      all' := fun b o a ha j hj => by
        rw [hu', (va' a (by omega) j (by rw [hrs]; exact hj)).2.2.2 b o, hfo] }

end

/-! ### Examples -/

/-- Rays of two angles in two regions, five each. -/
def raysA : List (Moc.Ray ℚ) := [⟨[⟨0, 1⟩, ⟨1, 1 / 2⟩], 0, 3⟩, ⟨[⟨0, 1 / 3⟩], 1, 2⟩, ⟨[⟨0, 1⟩, ⟨1, 1⟩], 2, 4⟩, ⟨[⟨1, 2⟩], 3, 0⟩, ⟨[⟨1, 1 / 2⟩], 4, 1⟩]

def raysB : List (Moc.Ray ℚ) := [⟨[⟨1, 1⟩, ⟨0, 1 / 4⟩], 0, 2⟩, ⟨[⟨1, 3 / 2⟩], 1, 4⟩, ⟨[⟨0, 1⟩], 2, 0⟩, ⟨[⟨1, 1⟩, ⟨0, 2⟩], 3, 1⟩, ⟨[⟨1, 1 / 5⟩], 4, 3⟩]

/-- Slots 2, 3 and 4 lie along x. -/
def swapSlot (_ j : Nat) : Nat := if j < 2 then j else 6 - j

def swapReg (i : Nat) : Nat := 1 - i

/-- The rays of the mirrored core, listed from the other end. -/
def swapRays (l : List (Moc.Ray ℚ)) : List (Moc.Ray ℚ) := l.reverse.map fun r => ⟨r.segs.map fun s => ⟨swapReg s.reg, s.len⟩, swapSlot 0 r.bc0, swapSlot 0 r.bc1⟩

def alongPlane : Moc.PlaneWork ℚ := ⟨0, [⟨0, 2, 2, 1 / 2, raysA⟩, ⟨1, 3, 1, 1 / 3, raysB⟩]⟩

def alongPlane' : Moc.PlaneWork ℚ := ⟨0, [⟨0, 2, 1, 1 / 3, swapRays raysB⟩, ⟨1, 3, 2, 1 / 2, swapRays raysA⟩]⟩

/-- The walks are the mirrored ones. -/
theorem along_walks : (planeTracks alongPlane').Perm ((planeTracks alongPlane).map (flipTrack (turnAng 1 (flags2 alongX)) swapSlot swapReg)) := by decide +kernel

/-- Mirrored along y the rays are walked from the other end. -/
example : (planeTracks (⟨0, [⟨0, 2, 1, 1 / 3, raysB.map fun r => ⟨r.segs.reverse, r.bc1, r.bc0⟩⟩, ⟨1, 3, 2, 1 / 2, raysA.map fun r => ⟨r.segs.reverse, r.bc1, r.bc0⟩⟩]⟩ : Moc.PlaneWork ℚ)).Perm
    ((planeTracks alongPlane).map (flipTrack (turnAng 1 (flags2 fun k => decide (k = .y))) (fun _ j => j) id)) := by decide +kernel

def alongStore (t : Surface → Boundary) : Store ℚ := { raysStore with types := t }

theorem along_pre (t : Surface → Boundary) (ht : ∀ s, t s = .REFLECT ∨ t s = .VACUUM) (b o : Nat → Normal → Nat → ℚ) : Pre (load (alongStore t) b) (load (alongStore t) o) exAngles :=
  { angles := (rays_pre b o).angles
    firstOct := (rays_pre b o).firstOct
    nd := (rays_pre b o).nd
    nA := (rays_pre b o).nA
    outSize := rfl
    outGroup := rfl
    mirror := (rays_pre b o).mirror
    noGap := (rays_pre b o).noGap
    types := fun s => (ht s).symm.imp id Or.inl }

/-- A stand-in for the exponential. -/
def alongMoc (t : Surface → Boundary) (gs : Bool) (p : Moc.PlaneWork ℚ) (c : Nat) : MocSetup ℚ := ⟨fun x => 1 / (1 - x), 12, gs, mocUpdate (alongStore t), [p], c⟩

theorem plane_ok (p : Moc.PlaneWork ℚ) (hf : p.first = 0) (w w' : Moc.AngleWork ℚ) (hp : p.angles = [w, w']) (h0 : w.iang1 = 0 ∧ w.iang2 = 2) (h1 : w'.iang1 = 1 ∧ w'.iang2 = 3)
    (hr : ∀ x ∈ [w, w'], (∀ r ∈ x.rays, ∀ s ∈ r.segs, s.reg < 2) ∧ (x.rays.map Moc.Ray.bc0).Perm (List.range 5) ∧ (x.rays.map Moc.Ray.bc1).Perm (List.range 5)) (t : Surface → Boundary) :
    PlaneOk 2 4 (rowSize (alongStore t)) p ∧ Once p.angles := by
  have hrow : ∀ a < 4, rowSize (alongStore t) a = 5 := by
    intro a ha
    interval_cases a <;> rfl
  refine ⟨⟨fun x hx => ?_, fun a ha => ?_⟩, ?_⟩
  · rw [hp] at hx
    obtain ⟨r1, r2, r3⟩ := hr x hx
    simp only [List.mem_cons, List.not_mem_nil, or_false] at hx
    rcases hx with rfl | rfl
    · rw [h0.1, h0.2, hrow 0 (by omega), hrow 2 (by omega), hf]
      exact ⟨⟨by omega, r1, r2, r3⟩, by omega, by omega, rfl⟩
    · rw [h1.1, h1.2, hrow 1 (by omega), hrow 3 (by omega), hf]
      exact ⟨⟨by omega, r1, r2, r3⟩, by omega, by omega, rfl⟩
  · rw [hp]
    interval_cases a
    · exact ⟨w, by simp, Or.inl h0.1.symm⟩
    · exact ⟨w', by simp, Or.inl h1.1.symm⟩
    · exact ⟨w, by simp, Or.inr h0.2.symm⟩
    · exact ⟨w', by simp, Or.inr h1.2.symm⟩
  · rw [hp]
    simp [Once, h0, h1]

/-- The hypotheses of `C159_boundary` hold for all conditions on the sides. -/
theorem along_flip (t : Surface → Boundary) (ht : ∀ s, t s = .REFLECT ∨ t s = .VACUUM) (P P' : Moc.PlaneWork ℚ)
    (hP : (planeTracks P').Perm ((planeTracks P).map (flipTrack (turnAng 1 (flags2 alongX)) swapSlot swapReg))) (hok : ∀ t, PlaneOk 2 4 (rowSize (alongStore t)) P ∧ Once P.angles)
    (hok' : ∀ t, PlaneOk 2 4 (rowSize (alongStore t)) P' ∧ Once P'.angles) (gs gs' : Bool) (c : Nat) :
    MocFlipped 2 4 (rowSize (alongStore t)) (turnAng 1 (flags2 alongX)) swapSlot swapReg (alongMoc t gs P c) (alongMoc (turnTypes (flags2 alongX) t) gs' P' c)
      (fun a j => refl 1 a (faceOf (alongStore t) a j).1) (fun a j => refl 1 a (faceOf (alongStore t) a j).1) (vacuumAt (alongStore t)) (vacuumAt (alongStore (turnTypes (flags2 alongX) t))) := by
  have hf : ∀ a m, faceSize (alongStore t) a m = if a < 4 then (⟨2, 3, 0⟩ : Size3).get m else 0 := by
    intro a m
    show ((List.replicate 4 (⟨2, 3, 0⟩ : Size3))[a]?.map (·.get m)).getD 0 = _
    rw [List.getElem?_replicate]
    split_ifs <;> rfl
  refine C159_boundary 2 (alongStore t) (alongStore (turnTypes (flags2 alongX) t)) exAngles (along_pre t ht) (along_pre _ (fun s => by cases s <;> exact ht _)) rfl rfl ht
    (fun a n m h => ?_) alongX rfl boxAngle ?_ ?_ swapReg swapSlot ?_ _ _ rfl rfl rfl rfl rfl ?_ ?_ (List.Forall₂.cons hP List.Forall₂.nil)
  · rw [hf] at h
    have ha : a < 4 := by
      by_contra hn
      rw [if_neg hn] at h
      exact h rfl
    revert h
    show _ → faceSize (alongStore t) (refl 1 a n) m = _
    rw [hf, hf]
    interval_cases a <;> cases n <;> cases m <;> decide
  · show ∀ a < 4, raysStore.angles[a]? = some (boxAngle a)
    decide +kernel
  · show ∀ a < 4, _
    decide +kernel
  · show ∀ a < 4, ∀ j < rowSize raysStore a, swapSlot a j < rowSize raysStore (turnAng 1 (flags2 alongX) a) ∧
      (faceOf raysStore (turnAng 1 (flags2 alongX) a) (swapSlot a j)).1 = (faceOf raysStore a j).1 ∧ swapSlot (refl 1 a (faceOf raysStore a j).1) j = swapSlot a j
    decide +kernel
  · intro p hp
    simp only [alongMoc, List.mem_singleton] at hp
    exact hp ▸ hok t
  · intro p hp
    simp only [alongMoc, List.mem_singleton] at hp
    exact hp ▸ hok' t

theorem pair_swap : ProblemFlip swapReg pairProblem riapProblem where
  ng := rfl
  nReg := rfl
  part := pair_flip.part
  part' := pair_flip.part'
  cover := pair_flip.cover
  cover' := pair_flip.cover'
  nonneg := pair_nonneg
  lt := by show ∀ i < 2, _; decide
  twice := by show ∀ i < 2, _; decide
  mat := fun i hi => by
    have hi : i < 2 := hi
    interval_cases i
    · exact ⟨_, List.mem_cons_self, _, List.mem_cons_self, by decide, by decide, rfl⟩
    · exact ⟨_, List.mem_cons_of_mem _ List.mem_cons_self, _, List.mem_cons_of_mem _ List.mem_cons_self, by decide, by decide, rfl⟩
  vol := by show ∀ i < 2, _; decide +kernel

def brightState : MocState ℚ := ⟨fun _ _ => 1, fun _ => 5, fun _ => [fun _ _ => 1], [fun _ _ => 7]⟩

theorem along_ok (t : Surface → Boundary) : PlaneOk 2 4 (rowSize (alongStore t)) alongPlane ∧ Once alongPlane.angles :=
  plane_ok alongPlane rfl _ _ rfl ⟨rfl, rfl⟩ ⟨rfl, rfl⟩ (by decide +kernel) t

theorem along_ok' (t : Surface → Boundary) : PlaneOk 2 4 (rowSize (alongStore t)) alongPlane' ∧ Once alongPlane'.angles :=
  plane_ok alongPlane' rfl _ _ rfl ⟨rfl, rfl⟩ ⟨rfl, rfl⟩ (by decide +kernel) t

theorem bright_flip (p : Problem ℚ) (t : Surface → Boundary) : RaysFlip p 1 4 (rowSize (alongStore t)) (turnAng 1 (flags2 alongX)) swapSlot swapReg brightState brightState :=
  ⟨fun _ _ _ _ => rfl, fun _ _ => ⟨List.Forall₂.cons (fun _ _ _ _ => rfl) List.Forall₂.nil, rfl⟩, rfl, rfl⟩

/-- The hypotheses of `C159_outers` hold: vacuum in the west, in the mirrored core in the east. -/
example (c : Nat) (k : ℚ) : ∃ k1 s1 s1', outers pairProblem (mocSweeper pairProblem (alongMoc pairStore.types false alongPlane 3)) c k brightState = some (k1, s1) ∧
    outers riapProblem (mocSweeper riapProblem (alongMoc (turnTypes (flags2 alongX) pairStore.types) false alongPlane' 3)) c k brightState = some (k1, s1') ∧
    RaysFlip pairProblem 1 4 (rowSize (alongStore pairStore.types)) (turnAng 1 (flags2 alongX)) swapSlot swapReg s1 s1' :=
  C159_outers pair_swap (along_flip pairStore.types (fun s => by
      show (if s = .WEST then Boundary.VACUUM else .REFLECT) = .REFLECT ∨ (if s = .WEST then Boundary.VACUUM else .REFLECT) = .VACUUM
      split_ifs <;> simp) _ _ along_walks along_ok along_ok' false false 3) ⟨rfl, rfl⟩ c k _ _ (bright_flip _ _)

/-- The hypotheses of `C159_fixed` hold: an external source of fast neutrons in one region, in the mirrored core in the other. -/
example (c : Nat) : ∃ s1 s1', fixedSteps pairProblem (mocSweeper pairProblem (alongMoc pairStore.types false alongPlane 2)) (some ⟨2, 2, fun i g => if g = 0 ∧ i = 0 then 5 else 0⟩) c brightState = some s1 ∧
    fixedSteps riapProblem (mocSweeper riapProblem (alongMoc (turnTypes (flags2 alongX) pairStore.types) false alongPlane' 2))
      (some ⟨2, 2, fun i g => if g = 0 ∧ i = 1 then 5 else 0⟩) c brightState = some s1' ∧
    RaysFlip pairProblem 1 4 (rowSize (alongStore pairStore.types)) (turnAng 1 (flags2 alongX)) swapSlot swapReg s1 s1' := by
  refine C159_fixed pair_swap (along_flip pairStore.types (fun s => by
      show (if s = .WEST then Boundary.VACUUM else .REFLECT) = .REFLECT ∨ (if s = .WEST then Boundary.VACUUM else .REFLECT) = .VACUUM
      split_ifs <;> simp) _ _ along_walks along_ok along_ok' false false 2) ⟨rfl, rfl⟩ _ _
    (fun g => (initializeGroup 2 (some (⟨2, 2, fun i g => if g = 0 ∧ i = 0 then 5 else 0⟩ : Ext ℚ)) g).getD fun _ => 0)
    (fun g => (initializeGroup 2 (some (⟨2, 2, fun i g => if g = 0 ∧ i = 1 then 5 else 0⟩ : Ext ℚ)) g).getD fun _ => 0) ?_ ?_ (by decide +kernel) c _ _ (bright_flip _ _)
  · intro g hg
    have hg : g < 2 := hg
    interval_cases g <;> rfl
  · intro g hg
    have hg : g < 2 := hg
    interval_cases g <;> rfl

/-- What the two calculations of one outer iteration give, and that it is not the same in both regions. -/
example : ((outers pairProblem (mocSweeper pairProblem (alongMoc pairStore.types false alongPlane 1)) 1 1 brightState).map fun r => [r.2.flux 0 0, r.2.flux 1 0]) =
    ((outers riapProblem (mocSweeper riapProblem (alongMoc (turnTypes (flags2 alongX) pairStore.types) false alongPlane' 1)) 1 1 brightState).map fun r => [r.2.flux 1 0, r.2.flux 0 0]) ∧
    ((outers pairProblem (mocSweeper pairProblem (alongMoc pairStore.types false alongPlane 1)) 1 1 brightState).map fun r => decide (r.2.flux 0 0 = r.2.flux 1 0)) = some false := by
  decide +kernel

/-- A plane that is its own mirror image. -/
def evenPlane : Moc.PlaneWork ℚ := ⟨0, [⟨0, 2, 2, 1 / 2, raysA⟩, ⟨1, 3, 2, 1 / 2, swapRays raysA⟩]⟩

theorem even_swap : ProblemFlip swapReg evenProblem evenProblem where
  ng := rfl
  nReg := rfl
  part := even_flip.part
  part' := even_flip.part'
  cover := even_flip.cover
  cover' := even_flip.cover'
  nonneg := even_flip.nonneg
  lt := by show ∀ i < 2, _; decide
  twice := by show ∀ i < 2, _; decide
  mat := fun i hi => by
    have hi : i < 2 := hi
    interval_cases i
    · exact ⟨_, List.mem_cons_self, _, List.mem_cons_self, by decide, by decide, rfl⟩
    · exact ⟨_, List.mem_cons_self, _, List.mem_cons_self, by decide, by decide, rfl⟩
  vol := fun _ _ => rfl

theorem even_rays (gs : Bool) : MocFlipped 2 4 (rowSize (alongStore fun _ => .REFLECT)) (turnAng 1 (flags2 alongX)) swapSlot swapReg (alongMoc (fun _ => .REFLECT) gs evenPlane 1)
    (alongMoc (fun _ => .REFLECT) gs evenPlane 1) (fun a j => refl 1 a (faceOf (alongStore fun _ => .REFLECT) a j).1) (fun a j => refl 1 a (faceOf (alongStore fun _ => .REFLECT) a j).1)
    (vacuumAt (alongStore fun _ => .REFLECT)) (vacuumAt (alongStore fun _ => .REFLECT)) := by
  have hok : ∀ t, PlaneOk 2 4 (rowSize (alongStore t)) evenPlane ∧ Once evenPlane.angles := plane_ok evenPlane rfl _ _ rfl ⟨rfl, rfl⟩ ⟨rfl, rfl⟩ (by decide +kernel)
  have e : turnTypes (flags2 alongX) (fun _ => .REFLECT) = fun _ => .REFLECT := by
    funext s
    cases s <;> rfl
  have := along_flip (fun _ => .REFLECT) (fun _ => Or.inl rfl) evenPlane evenPlane (by decide +kernel) hok hok gs gs 1
  rwa [e] at this

/-- The hypotheses of `C159_symmetric` hold. -/
example (c : Nat) (k k1 : ℚ) (s1 : MocState ℚ) (ho : outers evenProblem (mocSweeper evenProblem (alongMoc (fun _ => .REFLECT) false evenPlane 1)) c k brightState = some (k1, s1)) :
    RaysFlip evenProblem 1 4 (rowSize (alongStore fun _ => .REFLECT)) (turnAng 1 (flags2 alongX)) swapSlot swapReg s1 s1 :=
  C159_symmetric even_swap (even_rays false) rfl c k k1 _ s1 (bright_flip _ _) ho

/-- `C159_symmetric` without the condition on the update. -/
def C159_for_gauss_seidel : Prop :=
  ∀ (p : Problem ℚ) (nAng : Nat) (n T : Nat → Nat) (σ : Nat → Nat → Nat) (ρ : Nat → Nat) (m : MocSetup ℚ) (mir : Nat → Nat → Nat) (vac : Nat → Nat → Bool), ProblemFlip ρ p p →
    MocFlipped p.nReg nAng n T σ ρ m m mir mir vac vac → ∀ (c : Nat) (k k1 : ℚ) (s s1 : MocState ℚ), RaysFlip p m.planes.length nAng n T σ ρ s s →
    outers p (mocSweeper p m) c k s = some (k1, s1) → RaysFlip p m.planes.length nAng n T σ ρ s1 s1

/-- C159: with Gauss-Seidel updating a core that is its own mirror image gets, from a flat flux, a flux that is not. -/
theorem C159_not_gauss_seidel : ¬ C159_for_gauss_seidel := by
  intro hc
  have hr : ((outers evenProblem (mocSweeper evenProblem (alongMoc (fun _ => .REFLECT) true evenPlane 1)) 1 1 brightState).map fun r => decide (r.2.flux 1 0 = r.2.flux 0 0)) = some false := by
    decide +kernel
  obtain ⟨⟨k1, s1⟩, h1, h2⟩ := Option.map_eq_some_iff.mp hr
  have := (hc _ _ _ _ _ _ _ _ _ even_swap (even_rays true) 1 1 k1 brightState s1 (bright_flip _ _) h1).1 0 (by decide) 0 (by decide)
  have e : s1.flux 1 0 = s1.flux 0 0 := this
  simp [e] at h2

end Verif.Medium
