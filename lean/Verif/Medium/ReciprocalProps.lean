import Verif.Medium.ReflectProps
import Verif.Medium.MonotoneProps
import Verif.Quad.Props
import Mathlib.Tactic.Linarith
import Mathlib.Tactic.Ring

/-!
# C155: reciprocity of the MoC sweep
-/

set_option linter.unusedSectionVars false

namespace Verif.Moc

open Finset

section
variable {K : Type} [Field K]

theorem walk_snoc (e : Seg K → K) (q : Nat → K) (wt : K) (first : Nat) (l : List (Seg K)) (s : Seg K) (psi : K) (t : Nat → K) :
    walk e q wt first (l ++ [s]) psi t =
      ((walk e q wt first l psi t).1 - ((walk e q wt first l psi t).1 - q (s.reg + first)) * e s,
        upd (walk e q wt first l psi t).2 (s.reg + first) ((walk e q wt first l psi t).2 (s.reg + first) + ((walk e q wt first l psi t).1 - q (s.reg + first)) * e s * wt)) := by
  induction l generalizing psi t with
  | nil => rfl
  | cons x l ih => simp only [List.cons_append, walk]; rw [ih]

theorem sum_weight_upd (N : Nat) (w t : Nat → K) (i : Nat) (d : K) (h : i < N) : ∑ j ∈ range N, w j * upd t i (t i + d) j = (∑ j ∈ range N, w j * t j) + w i * d := by
  have : ∀ j ∈ range N, w j * upd t i (t i + d) j = w j * t j + if j = i then w i * d else 0 := by
    intro j _
    rw [upd_add]
    split_ifs with e
    · rw [e]; ring
    · ring
  rw [sum_congr rfl this, sum_add_distrib, sum_ite_eq' (range N) i, if_pos (mem_range.mpr h)]

/-- Two beams along the same segments in opposite directions, with different sources. -/
theorem walk_pair (e : Seg K → K) (q q' : Nat → K) (wt : K) (first N : Nat) (l : List (Seg K)) (hl : ∀ s ∈ l, s.reg + first < N) (psi chi : K) (t t' : Nat → K) :
    ((∑ i ∈ range N, q i * (walk e q' wt first l.reverse chi t').2 i) - ∑ i ∈ range N, q i * t' i) -
      ((∑ i ∈ range N, q' i * (walk e q wt first l psi t).2 i) - ∑ i ∈ range N, q' i * t i) =
      wt * ((walk e q wt first l psi t).1 * chi - psi * (walk e q' wt first l.reverse chi t').1) := by
  induction l generalizing psi t with
  | nil => simp [walk]
  | cons s l ih =>
    have hi := ih (fun x hx => hl x (by simp [hx])) (psi - (psi - q (s.reg + first)) * e s)
      (upd t (s.reg + first) (t (s.reg + first) + (psi - q (s.reg + first)) * e s * wt))
    rw [List.reverse_cons, walk_snoc]
    simp only [walk]
    have hs := hl s (by simp)
    rw [sum_weight_upd N _ _ _ _ hs] at hi ⊢
    generalize (walk e q wt first l _ _).1 = f1 at hi ⊢
    generalize (walk e q' wt first l.reverse chi t').1 = b1 at hi ⊢
    linear_combination hi

theorem ray_gain (e : Seg K → K) (q w : Nat → K) (wt : K) (first N : Nat) (in1 in2 : Nat → K) (a : Acc K) (r : Ray K) :
    (∑ i ∈ range N, w i * (sweepRay e q wt first in1 in2 a r).tflux i) - ∑ i ∈ range N, w i * a.tflux i =
      (∑ i ∈ range N, w i * (walk e q wt first r.segs (in1 r.bc0) fun _ => 0).2 i) + ∑ i ∈ range N, w i * (walk e q wt first r.segs.reverse (in2 r.bc1) fun _ => 0).2 i := by
  rw [← sum_add_distrib, ← sum_sub_distrib]
  refine sum_congr rfl fun i _ => ?_
  simp only [sweepRay]
  rw [(walk_add e q wt first r.segs.reverse _ (walk e q wt first r.segs (in1 r.bc0) a.tflux).2).2 i, (walk_add e q wt first r.segs _ a.tflux).2 i]
  ring

/-- A ray, both directions, two solutions. -/
theorem ray_pair (e : Seg K → K) (q q' : Nat → K) (wt : K) (first N : Nat) (in1 in2 in1' in2' : Nat → K) (a a' : Acc K) (r : Ray K) (hl : ∀ s ∈ r.segs, s.reg + first < N) :
    ((∑ i ∈ range N, q i * (sweepRay e q' wt first in1' in2' a' r).tflux i) - ∑ i ∈ range N, q i * a'.tflux i) -
      ((∑ i ∈ range N, q' i * (sweepRay e q wt first in1 in2 a r).tflux i) - ∑ i ∈ range N, q' i * a.tflux i) =
      wt * (((walk e q wt first r.segs (in1 r.bc0) fun _ => 0).1 * in2' r.bc1 - in2 r.bc1 * (walk e q' wt first r.segs (in1' r.bc0) fun _ => 0).1) +
        ((walk e q wt first r.segs.reverse (in2 r.bc1) fun _ => 0).1 * in1' r.bc0 - in1 r.bc0 * (walk e q' wt first r.segs.reverse (in2' r.bc1) fun _ => 0).1)) := by
  rw [ray_gain, ray_gain]
  have h1 := walk_pair e q q' wt first N r.segs hl (in1 r.bc0) (in2' r.bc1) (fun _ => 0) fun _ => 0
  have h2 := walk_pair e q' q wt first N r.segs hl (in1' r.bc0) (in2 r.bc1) (fun _ => 0) fun _ => 0
  simp only [mul_zero, sum_const_zero, sub_zero] at h1 h2
  linear_combination h1 - h2

theorem rays_pair (e : Seg K → K) (q q' : Nat → K) (wt : K) (first N : Nat) (in1 in2 in1' in2' : Nat → K) (l : List (Ray K)) (hl : ∀ r ∈ l, ∀ s ∈ r.segs, s.reg + first < N) (a a' : Acc K) :
    ((∑ i ∈ range N, q i * (l.foldl (sweepRay e q' wt first in1' in2') a').tflux i) - ∑ i ∈ range N, q i * a'.tflux i) -
      ((∑ i ∈ range N, q' i * (l.foldl (sweepRay e q wt first in1 in2) a).tflux i) - ∑ i ∈ range N, q' i * a.tflux i) =
      wt * (l.map fun r => ((walk e q wt first r.segs (in1 r.bc0) fun _ => 0).1 * in2' r.bc1 - in2 r.bc1 * (walk e q' wt first r.segs (in1' r.bc0) fun _ => 0).1) +
        ((walk e q wt first r.segs.reverse (in2 r.bc1) fun _ => 0).1 * in1' r.bc0 - in1 r.bc0 * (walk e q' wt first r.segs.reverse (in2' r.bc1) fun _ => 0).1)).sum := by
  induction l generalizing a a' with
  | nil => simp
  | cons y l ih =>
    have h1 := ih (fun r hr => hl r (by simp [hr])) (sweepRay e q wt first in1 in2 a y) (sweepRay e q' wt first in1' in2' a' y)
    have h2 := ray_pair e q q' wt first N in1 in2 in1' in2' a a' y (hl y (by simp))
    rw [List.foldl_cons, List.foldl_cons, List.map_cons, List.sum_cons]
    linear_combination h1 + h2

/-- Products of outgoing values of one solution with the incoming values of the other at the same places, for an angle and its reverse. -/
def slotPair (n : Nat) (f1 f2 g1 g2 : Nat → K) : K := ∑ j ∈ range n, (f1 j * g2 j + f2 j * g1 j)

theorem angle_pair (expo : K → K) (xstr q q' : Nat → K) (gs : Bool) (u : BcUpdate K) (first N n : Nat) (s s' : St K) (w : AngleWork K) (hw : AngleOk N first n w) :
    ((∑ i ∈ range N, q i * (sweepAngle expo xstr q' gs u first s' w).tflux i) - ∑ i ∈ range N, q i * s'.tflux i) -
      ((∑ i ∈ range N, q' i * (sweepAngle expo xstr q gs u first s w).tflux i) - ∑ i ∈ range N, q' i * s.tflux i) =
      w.wt * (slotPair n ((sweepAngle expo xstr q gs u first s w).bout w.iang1) ((sweepAngle expo xstr q gs u first s w).bout w.iang2) (s'.bin w.iang1) (s'.bin w.iang2) -
        slotPair n (s.bin w.iang1) (s.bin w.iang2) ((sweepAngle expo xstr q' gs u first s' w).bout w.iang1) ((sweepAngle expo xstr q' gs u first s' w).bout w.iang2)) := by
  have b1 : ∀ (q : Nat → K) (s : St K), (sweepAngle expo xstr q gs u first s w).bout w.iang1 = (w.rays.foldl (sweepRay (eTau expo xstr w.rst first) q w.wt first (s.bin w.iang1) (s.bin w.iang2))
      ⟨s.tflux, s.bout w.iang1, s.bout w.iang2⟩).out1 := by
    intro q s
    simp only [sweepAngle]
    rw [upd_ne _ _ hw.ne, upd_same]
  have b2 : ∀ (q : Nat → K) (s : St K), (sweepAngle expo xstr q gs u first s w).bout w.iang2 = (w.rays.foldl (sweepRay (eTau expo xstr w.rst first) q w.wt first (s.bin w.iang1) (s.bin w.iang2))
      ⟨s.tflux, s.bout w.iang1, s.bout w.iang2⟩).out2 := by
    intro q s
    simp only [sweepAngle]
    rw [upd_same]
  have key := rays_pair (eTau expo xstr w.rst first) q q' w.wt first N (s.bin w.iang1) (s.bin w.iang2) (s'.bin w.iang1) (s'.bin w.iang2) w.rays hw.regs
    ⟨s.tflux, s.bout w.iang1, s.bout w.iang2⟩ ⟨s'.tflux, s'.bout w.iang1, s'.bout w.iang2⟩
  rw [b1, b2, b1, b2]
  simp only at key
  rw [show (sweepAngle expo xstr q' gs u first s' w).tflux = (w.rays.foldl (sweepRay (eTau expo xstr w.rst first) q' w.wt first (s'.bin w.iang1) (s'.bin w.iang2))
      ⟨s'.tflux, s'.bout w.iang1, s'.bout w.iang2⟩).tflux from rfl,
    show (sweepAngle expo xstr q gs u first s w).tflux = (w.rays.foldl (sweepRay (eTau expo xstr w.rst first) q w.wt first (s.bin w.iang1) (s.bin w.iang2))
      ⟨s.tflux, s.bout w.iang1, s.bout w.iang2⟩).tflux from rfl, key]
  obtain ⟨-, h2, -, h4, -⟩ := rays_result (eTau expo xstr w.rst first) q w.wt first (s.bin w.iang1) (s.bin w.iang2) w.rays ⟨s.tflux, s.bout w.iang1, s.bout w.iang2⟩
  obtain ⟨-, h2', -, h4', -⟩ := rays_result (eTau expo xstr w.rst first) q' w.wt first (s'.bin w.iang1) (s'.bin w.iang2) w.rays ⟨s'.tflux, s'.bout w.iang1, s'.bout w.iang2⟩
  have n1 := hw.ends1.nodup_iff.mpr List.nodup_range
  have n0 := hw.ends0.nodup_iff.mpr List.nodup_range
  generalize w.rays.foldl _ _ = A at h2 h4 ⊢
  generalize w.rays.foldl _ _ = A' at h2' h4' ⊢
  congr 1
  rw [List.map_congr_left (g := fun r => (A.out1 r.bc1 * s'.bin w.iang2 r.bc1 - s.bin w.iang2 r.bc1 * A'.out1 r.bc1) + (A.out2 r.bc0 * s'.bin w.iang1 r.bc0 - s.bin w.iang1 r.bc0 * A'.out2 r.bc0))
    fun r hr => by rw [h2 n1 r hr, h4 n0 r hr, h2' n1 r hr, h4' n0 r hr]]
  rw [List.sum_map_add, sum_map_perm w.rays Ray.bc1 n hw.ends1 (fun j => A.out1 j * s'.bin w.iang2 j - s.bin w.iang2 j * A'.out1 j),
    sum_map_perm w.rays Ray.bc0 n hw.ends0 (fun j => A.out2 j * s'.bin w.iang1 j - s.bin w.iang1 j * A'.out2 j)]
  unfold slotPair
  rw [← sum_add_distrib, ← sum_sub_distrib]
  exact sum_congr rfl fun j _ => by ring

end

end Verif.Moc

namespace Verif.Medium

open Verif.XS Verif.Source Finset

section
variable {K : Type} [Field K] [LinearOrder K] [IsStrictOrderedRing K]

/-- Weighted products of boundary values: each angle with its reverse, slot by slot. -/
def pairing (n : Nat → Nat) (ws : List (Moc.AngleWork K)) (f g : Nat → Nat → K) : K :=
  (ws.map fun w => w.wt * Moc.slotPair (n w.iang1) (f w.iang1) (f w.iang2) (g w.iang1) (g w.iang2)).sum

/-- During the sweep of the angles the incoming values of each angle are `B` when its turn comes. -/
def Steady (expo : K → K) (xstr q : Nat → K) (gs : Bool) (u : Moc.BcUpdate K) (first : Nat) (n : Nat → Nat) (B : Nat → Nat → K) : List (Moc.AngleWork K) → Moc.St K → Prop
  | [], _ => True
  | w :: ws, s => (∀ j < n w.iang1, s.bin w.iang1 j = B w.iang1 j ∧ s.bin w.iang2 j = B w.iang2 j) ∧ Steady expo xstr q gs u first n B ws (Moc.sweepAngle expo xstr q gs u first s w)

theorem slotPair_congr (n : Nat) (f1 f2 g1 g2 f1' f2' g1' g2' : Nat → K) (h : ∀ j < n, f1 j = f1' j ∧ f2 j = f2' j ∧ g1 j = g1' j ∧ g2 j = g2' j) :
    Moc.slotPair n f1 f2 g1 g2 = Moc.slotPair n f1' f2' g1' g2' := by
  unfold Moc.slotPair
  refine sum_congr rfl fun j hj => ?_
  obtain ⟨h1, h2, h3, h4⟩ := h j (mem_range.mp hj)
  rw [h1, h2, h3, h4]

theorem angles_pair (expo : K → K) (xstr q q' : Nat → K) (gs : Bool) (u : Moc.BcUpdate K) (first N : Nat) (n : Nat → Nat) (ws : List (Moc.AngleWork K))
    (hw : ∀ w ∈ ws, Moc.AngleOk N first (n w.iang1) w) (ho : Once ws) (B B' : Nat → Nat → K) (s s' : Moc.St K) (hs : Steady expo xstr q gs u first n B ws s)
    (hs' : Steady expo xstr q' gs u first n B' ws s') :
    ((∑ i ∈ range N, q i * (ws.foldl (Moc.sweepAngle expo xstr q' gs u first) s').tflux i) - ∑ i ∈ range N, q i * s'.tflux i) -
      ((∑ i ∈ range N, q' i * (ws.foldl (Moc.sweepAngle expo xstr q gs u first) s).tflux i) - ∑ i ∈ range N, q' i * s.tflux i) =
      pairing n ws (ws.foldl (Moc.sweepAngle expo xstr q gs u first) s).bout B' - pairing n ws B (ws.foldl (Moc.sweepAngle expo xstr q' gs u first) s').bout := by
  induction ws generalizing s s' with
  | nil => simp [pairing]
  | cons w ws ih =>
    have ho' : (w.iang1 :: w.iang2 :: ws.flatMap fun w => [w.iang1, w.iang2]).Nodup := by simpa [Once] using ho
    rw [List.nodup_cons, List.nodup_cons] at ho'
    obtain ⟨h1, h2, h3⟩ := ho'
    have k1 := ih (fun x hx => hw x (by simp [hx])) h3 _ _ hs.2 hs'.2
    have k2 := Moc.angle_pair expo xstr q q' gs u first N (n w.iang1) s s' w (hw w (by simp))
    have e1 := fun q s => bout_other expo xstr q gs u first ws (Moc.sweepAngle expo xstr q gs u first s w) w.iang1 (fun hh => h1 (List.mem_cons_of_mem _ hh))
    have e2 := fun q s => bout_other expo xstr q gs u first ws (Moc.sweepAngle expo xstr q gs u first s w) w.iang2 h2
    rw [List.foldl_cons, List.foldl_cons]
    have p : ∀ f g : Nat → Nat → K, pairing n (w :: ws) f g = w.wt * Moc.slotPair (n w.iang1) (f w.iang1) (f w.iang2) (g w.iang1) (g w.iang2) + pairing n ws f g := by
      intro f g
      simp [pairing]
    rw [p, p, e1, e2, e1, e2]
    rw [slotPair_congr (n w.iang1) _ _ (s'.bin w.iang1) (s'.bin w.iang2) _ _ (B' w.iang1) (B' w.iang2) fun j hj => ⟨rfl, rfl, (hs'.1 j hj).1, (hs'.1 j hj).2⟩,
      slotPair_congr (n w.iang1) (s.bin w.iang1) (s.bin w.iang2) _ _ (B w.iang1) (B w.iang2) _ _ fun j hj => ⟨(hs.1 j hj).1, (hs.1 j hj).2, rfl, rfl⟩] at k2
    linear_combination k1 + k2

/-- The boundary: incoming values of angle `a` in slot `j` are zero where `vac` holds, elsewhere the outgoing values of angle `mir a j` in the slot; `rev` is
the reverse angle, `W` the weight.  Both updates, of all angles and of one angle. -/
structure Mirror (nAng : Nat) (n : Nat → Nat) (u : Moc.BcUpdate K) (ws : List (Moc.AngleWork K)) (mir : Nat → Nat → Nat) (vac : Nat → Nat → Bool) (rev : Nat → Nat)
    (W : Nat → K) : Prop where
  once : Once ws
  angle : ∀ w ∈ ws, w.iang1 < nAng ∧ w.iang2 < nAng ∧ n w.iang2 = n w.iang1
  cover : ∀ a < nAng, a ∈ ws.flatMap fun w => [w.iang1, w.iang2]
  ends : ∀ w ∈ ws, rev w.iang1 = w.iang2 ∧ rev w.iang2 = w.iang1
  weight : ∀ w ∈ ws, w.wt = W w.iang1 ∧ w.wt = W w.iang2
  lt : ∀ a < nAng, ∀ j < n a, mir a j < nAng
  size : ∀ a < nAng, ∀ j < n a, n (mir a j) = n a
  twice : ∀ a < nAng, ∀ j < n a, mir (mir a j) j = a
  same : ∀ a < nAng, ∀ j < n a, W (mir a j) = W a
  revMir : ∀ a < nAng, ∀ j < n a, rev (mir a j) = mir (rev a) j
  revVac : ∀ a < nAng, ∀ j < n a, vac (mir a j) j = vac (rev a) j
  all : ∀ b o, ∀ a < nAng, ∀ j < n a, u.all b o a j = if vac a j then 0 else o (mir a j) j
  one : ∀ c < nAng, ∀ b o, ∀ a < nAng, ∀ j < n a, u.one c b o a j = if c = mir a j then (if vac a j then 0 else o (mir a j) j) else b a j

section mirror
variable {nAng : Nat} {n : Nat → Nat} {u : Moc.BcUpdate K} {ws : List (Moc.AngleWork K)} {mir : Nat → Nat → Nat} {vac : Nat → Nat → Bool} {rev : Nat → Nat} {W : Nat → K}

theorem pairing_angles (h : Mirror nAng n u ws mir vac rev W) (f g : Nat → Nat → K) :
    pairing n ws f g = ∑ a ∈ range nAng, ∑ j ∈ range (n a), W a * (f a j * g (rev a) j) := by
  have hperm : (ws.flatMap fun w => [w.iang1, w.iang2]).Perm (List.range nAng) := by
    rw [List.perm_ext_iff_of_nodup h.once List.nodup_range]
    intro a
    rw [List.mem_range]
    refine ⟨fun ha => ?_, fun ha => h.cover a ha⟩
    obtain ⟨w, hw, ha⟩ := List.mem_flatMap.mp ha
    simp only [List.mem_cons, List.not_mem_nil, or_false] at ha
    rcases ha with rfl | rfl
    · exact (h.angle w hw).1
    · exact (h.angle w hw).2.1
  have e1 : ∀ l : List (Moc.AngleWork K), (∀ w ∈ l, w ∈ ws) → pairing n l f g =
      ((l.flatMap fun w => [w.iang1, w.iang2]).map fun a => ∑ j ∈ range (n a), W a * (f a j * g (rev a) j)).sum := by
    intro l hl
    induction l with
    | nil => rfl
    | cons w l ih =>
      have hw := hl w (by simp)
      have := ih fun w hw => hl w (by simp [hw])
      unfold pairing at this ⊢
      rw [List.map_cons, List.sum_cons, this, List.flatMap_cons, List.map_append, List.sum_append]
      simp only [List.map_cons, List.map_nil, List.sum_cons, List.sum_nil, add_zero]
      rw [← (h.weight w hw).1, ← (h.weight w hw).2, (h.angle w hw).2.2, (h.ends w hw).1, (h.ends w hw).2, Moc.slotPair, ← sum_add_distrib, mul_sum]
      congr 1
      exact sum_congr rfl fun j _ => by ring
  rw [e1 ws fun _ h => h, (hperm.map _).sum_eq, sum_list_range]

theorem rev_lt (h : Mirror nAng n u ws mir vac rev W) (a : Nat) (ha : a < nAng) : rev a < nAng ∧ n (rev a) = n a := by
  obtain ⟨w, hw, hm⟩ := List.mem_flatMap.mp (h.cover a ha)
  simp only [List.mem_cons, List.not_mem_nil, or_false] at hm
  obtain ⟨h1, h2, h3⟩ := h.angle w hw
  rcases hm with rfl | rfl
  · rw [(h.ends w hw).1]; exact ⟨h2, h3⟩
  · rw [(h.ends w hw).2]; exact ⟨h1, h3.symm⟩

/-- Incoming values that are the outgoing ones of the mirrored angle, or zero. -/
def Joined (nAng : Nat) (n : Nat → Nat) (mir : Nat → Nat → Nat) (vac : Nat → Nat → Bool) (B O : Nat → Nat → K) : Prop :=
  ∀ a < nAng, ∀ j < n a, B a j = if vac a j then 0 else O (mir a j) j

theorem pairing_cancel (h : Mirror nAng n u ws mir vac rev W) (B O B' O' : Nat → Nat → K) (hB : Joined nAng n mir vac B O) (hB' : Joined nAng n mir vac B' O') :
    pairing n ws O B' = pairing n ws B O' := by
  rw [pairing_angles h, pairing_angles h, sum_sigma', sum_sigma']
  refine sum_bij' (fun x _ => ⟨mir x.1 x.2, x.2⟩) (fun x _ => ⟨mir x.1 x.2, x.2⟩) ?_ ?_ ?_ ?_ ?_
  · rintro ⟨a, j⟩ hx
    simp only [mem_sigma, mem_range] at hx ⊢
    exact ⟨h.lt a hx.1 j hx.2, by rw [h.size a hx.1 j hx.2]; exact hx.2⟩
  · rintro ⟨a, j⟩ hx
    simp only [mem_sigma, mem_range] at hx ⊢
    exact ⟨h.lt a hx.1 j hx.2, by rw [h.size a hx.1 j hx.2]; exact hx.2⟩
  · rintro ⟨a, j⟩ hx
    simp only [mem_sigma, mem_range] at hx
    simp only [h.twice a hx.1 j hx.2]
  · rintro ⟨a, j⟩ hx
    simp only [mem_sigma, mem_range] at hx
    simp only [h.twice a hx.1 j hx.2]
  · rintro ⟨a, j⟩ hx
    simp only [mem_sigma, mem_range] at hx
    obtain ⟨ha, hj⟩ := hx
    obtain ⟨r1, r2⟩ := rev_lt h a ha
    simp only
    rw [h.same a ha j hj, hB' (rev a) r1 j (by rw [r2]; exact hj), hB (mir a j) (h.lt a ha j hj) j (by rw [h.size a ha j hj]; exact hj), h.twice a ha j hj,
      h.revVac a ha j hj, h.revMir a ha j hj]
    split_ifs <;> ring

/-! ### The boundary values stay as they are -/

theorem steady_jacobi (expo : K → K) (xstr q : Nat → K) (first : Nat) (ws : List (Moc.AngleWork K)) (s : Moc.St K) : Steady expo xstr q false u first n s.bin ws s := by
  have key : ∀ (ws : List (Moc.AngleWork K)) (B : Nat → Nat → K) (s : Moc.St K), s.bin = B → Steady expo xstr q false u first n B ws s := by
    intro ws
    induction ws with
    | nil => intro B s _; trivial
    | cons w ws ih =>
      intro B s hs
      exact ⟨fun j _ => by rw [hs]; exact ⟨rfl, rfl⟩, ih B _ (by simp [Moc.sweepAngle, hs])⟩
  exact key ws s.bin s rfl

/-- The values that one angle leaves alone. -/
theorem gs_angle (hone : ∀ c < nAng, ∀ b o, ∀ a < nAng, ∀ j < n a, u.one c b o a j = if c = mir a j then (if vac a j then 0 else o (mir a j) j) else b a j)
    (expo : K → K) (xstr q : Nat → K) (first : Nat) (s : Moc.St K) (w : Moc.AngleWork K) (hw1 : w.iang1 < nAng) (hw2 : w.iang2 < nAng) (a : Nat) (ha : a < nAng) (j : Nat) (hj : j < n a) :
    (Moc.sweepAngle expo xstr q true u first s w).bin a j = if mir a j = w.iang1 ∨ mir a j = w.iang2 then
      (if vac a j then 0 else (Moc.sweepAngle expo xstr q true u first s w).bout (mir a j) j) else s.bin a j := by
  simp only [Moc.sweepAngle, if_true]
  rw [hone _ hw2 _ _ a ha j hj, hone _ hw1 _ _ a ha j hj]
  by_cases h2 : w.iang2 = mir a j
  · rw [if_pos h2, if_pos (Or.inr h2.symm)]
  · rw [if_neg h2]
    by_cases h1 : w.iang1 = mir a j
    · rw [if_pos h1, if_pos (Or.inl h1.symm)]
    · rw [if_neg h1, if_neg (by rintro (e | e) <;> simp_all)]

theorem gs_other (hone : ∀ c < nAng, ∀ b o, ∀ a < nAng, ∀ j < n a, u.one c b o a j = if c = mir a j then (if vac a j then 0 else o (mir a j) j) else b a j)
    (expo : K → K) (xstr q : Nat → K) (first : Nat) (ws : List (Moc.AngleWork K)) (hang : ∀ w ∈ ws, w.iang1 < nAng ∧ w.iang2 < nAng ∧ n w.iang2 = n w.iang1)
    (s : Moc.St K) (a : Nat) (ha : a < nAng) (j : Nat) (hj : j < n a) (hm : mir a j ∉ ws.flatMap fun w => [w.iang1, w.iang2]) : (ws.foldl (Moc.sweepAngle expo xstr q true u first) s).bin a j = s.bin a j := by
  induction ws generalizing s with
  | nil => rfl
  | cons w ws ih =>
    simp only [List.flatMap_cons, List.cons_append, List.nil_append, List.mem_cons, not_or] at hm
    rw [List.foldl_cons, ih (fun x hx => hang x (by simp [hx])) _ hm.2.2, gs_angle hone expo xstr q first s w (hang w (by simp)).1 (hang w (by simp)).2.1 a ha j hj, if_neg (by rintro (e | e); exacts [hm.1 e, hm.2.1 e])]

theorem gs_joined (hone : ∀ c < nAng, ∀ b o, ∀ a < nAng, ∀ j < n a, u.one c b o a j = if c = mir a j then (if vac a j then 0 else o (mir a j) j) else b a j)
    (expo : K → K) (xstr q : Nat → K) (first : Nat) (ws : List (Moc.AngleWork K)) (ho : Once ws) (hang : ∀ w ∈ ws, w.iang1 < nAng ∧ w.iang2 < nAng ∧ n w.iang2 = n w.iang1)
    (s : Moc.St K) (a : Nat) (ha : a < nAng) (j : Nat) (hj : j < n a) (hm : mir a j ∈ ws.flatMap fun w => [w.iang1, w.iang2]) :
    (ws.foldl (Moc.sweepAngle expo xstr q true u first) s).bin a j = if vac a j then 0 else (ws.foldl (Moc.sweepAngle expo xstr q true u first) s).bout (mir a j) j := by
  induction ws generalizing s with
  | nil => simp at hm
  | cons w ws ih =>
    have ho' : (w.iang1 :: w.iang2 :: ws.flatMap fun w => [w.iang1, w.iang2]).Nodup := by simpa [Once] using ho
    rw [List.nodup_cons, List.nodup_cons] at ho'
    obtain ⟨h1, h2, h3⟩ := ho'
    simp only [List.flatMap_cons, List.cons_append, List.nil_append, List.mem_cons] at hm
    rw [List.foldl_cons]
    by_cases hr : mir a j ∈ ws.flatMap fun w => [w.iang1, w.iang2]
    · exact ih h3 (fun x hx => hang x (by simp [hx])) _ hr
    · rw [gs_other hone expo xstr q first ws (fun x hx => hang x (by simp [hx])) _ a ha j hj hr, bout_other _ _ _ _ _ _ _ _ _ hr, gs_angle hone expo xstr q first s w (hang w (by simp)).1 (hang w (by simp)).2.1 a ha j hj, if_pos (by tauto)]

theorem gs_steady (hone : ∀ c < nAng, ∀ b o, ∀ a < nAng, ∀ j < n a, u.one c b o a j = if c = mir a j then (if vac a j then 0 else o (mir a j) j) else b a j)
    (expo : K → K) (xstr q : Nat → K) (first : Nat) (B : Nat → Nat → K) (ws : List (Moc.AngleWork K)) (ho : Once ws)
    (hang : ∀ w ∈ ws, w.iang1 < nAng ∧ w.iang2 < nAng ∧ n w.iang2 = n w.iang1) (s : Moc.St K)
    (hfin : ∀ a < nAng, ∀ j < n a, (ws.foldl (Moc.sweepAngle expo xstr q true u first) s).bin a j = B a j)
    (hs : ∀ a < nAng, ∀ j < n a, mir a j ∈ (ws.flatMap fun w => [w.iang1, w.iang2]) → s.bin a j = B a j) : Steady expo xstr q true u first n B ws s := by
  induction ws generalizing s with
  | nil => trivial
  | cons w ws ih =>
    have ho' : (w.iang1 :: w.iang2 :: ws.flatMap fun w => [w.iang1, w.iang2]).Nodup := by simpa [Once] using ho
    rw [List.nodup_cons, List.nodup_cons] at ho'
    obtain ⟨h1, h2, h3⟩ := ho'
    have now : ∀ a < nAng, ∀ j < n a, s.bin a j = B a j := by
      intro a ha j hj
      by_cases hm : mir a j ∈ (w :: ws).flatMap fun w => [w.iang1, w.iang2]
      · exact hs a ha j hj hm
      · rw [← hfin a ha j hj, gs_other hone expo xstr q first (w :: ws) hang s a ha j hj hm]
    obtain ⟨a1, a2, a3⟩ := hang w (by simp)
    refine ⟨fun j hj => ⟨now _ a1 j hj, now _ a2 j (by rw [a3]; exact hj)⟩, ih h3 (fun x hx => hang x (by simp [hx])) _ hfin fun a ha j hj hm => ?_⟩
    rw [gs_angle hone expo xstr q first s w a1 a2 a ha j hj, if_neg ?_, now a ha j hj]
    rintro (e | e)
    · exact h1 (List.mem_cons_of_mem _ (e ▸ hm))
    · exact h2 (e ▸ hm)

/-- A plane whose incoming values are the same after the sweep. -/
theorem plane_steady (h : Mirror nAng n u ws mir vac rev W) (expo : K → K) (xstr q : Nat → K) (gs : Bool) (first : Nat) (s : Moc.St K)
    (hfix : ∀ a < nAng, ∀ j < n a, s.bin a j = (Moc.sweepPlane expo xstr q gs u ⟨first, ws⟩ s).bin a j) :
    Steady expo xstr q gs u first n s.bin ws s ∧ Joined nAng n mir vac s.bin (ws.foldl (Moc.sweepAngle expo xstr q gs u first) s).bout := by
  cases gs with
  | false =>
    refine ⟨steady_jacobi expo xstr q first ws s, fun a ha j hj => ?_⟩
    rw [hfix a ha j hj]
    simp only [Moc.sweepPlane, Bool.false_eq_true, if_false]
    rw [h.all _ _ a ha j hj]
  | true =>
    have hfix' : ∀ a < nAng, ∀ j < n a, s.bin a j = (ws.foldl (Moc.sweepAngle expo xstr q true u first) s).bin a j := by
      intro a ha j hj
      rw [hfix a ha j hj]
      simp [Moc.sweepPlane]
    refine ⟨gs_steady h.one expo xstr q first s.bin ws h.once h.angle s (fun a ha j hj => (hfix' a ha j hj).symm) (fun _ _ _ _ _ => rfl), fun a ha j hj => ?_⟩
    rw [hfix' a ha j hj]
    exact gs_joined h.one expo xstr q first ws h.once h.angle s a ha j hj (h.cover _ (h.lt a ha j hj))

/-- C155 for a plane: two sources, the incoming values of both calculations have converged. -/
theorem plane_pair (h : Mirror nAng n u ws mir vac rev W) (expo : K → K) (xstr q q' : Nat → K) (gs : Bool) (first N : Nat)
    (hw : ∀ w ∈ ws, Moc.AngleOk N first (n w.iang1) w) (s s' : Moc.St K)
    (hfix : ∀ a < nAng, ∀ j < n a, s.bin a j = (Moc.sweepPlane expo xstr q gs u ⟨first, ws⟩ s).bin a j)
    (hfix' : ∀ a < nAng, ∀ j < n a, s'.bin a j = (Moc.sweepPlane expo xstr q' gs u ⟨first, ws⟩ s').bin a j) :
    (∑ i ∈ range N, q i * (Moc.sweepPlane expo xstr q' gs u ⟨first, ws⟩ s').tflux i) - ∑ i ∈ range N, q i * s'.tflux i =
      (∑ i ∈ range N, q' i * (Moc.sweepPlane expo xstr q gs u ⟨first, ws⟩ s).tflux i) - ∑ i ∈ range N, q' i * s.tflux i := by
  obtain ⟨h1, h2⟩ := plane_steady h expo xstr q gs first s hfix
  obtain ⟨h3, h4⟩ := plane_steady h expo xstr q' gs first s' hfix'
  have := angles_pair expo xstr q q' gs u first N n ws hw h.once s.bin s'.bin s s' h1 h3
  rw [pairing_cancel h _ _ _ _ h2 h4, sub_self] at this
  exact sub_eq_zero.mp this

end mirror

/-- All planes. -/
theorem planes_pair (expo : K → K) (xstr q q' : Nat → K) (gs : Bool) (u : Moc.BcUpdate K) (N nAng : Nat) (n : Nat → Nat) (mir : Nat → Nat → Nat) (vac : Nat → Nat → Bool)
    (rev : Nat → Nat) (W : Nat → K) (ps : List (Moc.PlaneWork K)) (hok : ∀ p ∈ ps, PlaneOk N nAng n p) (hm : ∀ p ∈ ps, Mirror nAng n u p.angles mir vac rev W)
    (bi bo bi' bo' : List (Nat → Nat → K)) (l1 : bi.length = ps.length) (l2 : bo.length = ps.length) (l3 : bi'.length = ps.length) (l4 : bo'.length = ps.length)
    (t t' : Nat → K) (hfix : SameOn nAng n bi ((Moc.sweepPlanes expo xstr q gs u (ps.zip (bi.zip bo)) t).2.map Prod.fst))
    (hfix' : SameOn nAng n bi' ((Moc.sweepPlanes expo xstr q' gs u (ps.zip (bi'.zip bo')) t').2.map Prod.fst)) :
    (∑ i ∈ range N, q i * (Moc.sweepPlanes expo xstr q' gs u (ps.zip (bi'.zip bo')) t').1 i) - ∑ i ∈ range N, q i * t' i =
      (∑ i ∈ range N, q' i * (Moc.sweepPlanes expo xstr q gs u (ps.zip (bi.zip bo)) t).1 i) - ∑ i ∈ range N, q' i * t i := by
  induction ps generalizing bi bo bi' bo' t t' with
  | nil => simp [Moc.sweepPlanes]
  | cons p ps ih =>
    match bi, bo, bi', bo', l1, l2, l3, l4 with
    | b :: bi, o :: bo, b' :: bi', o' :: bo', l1, l2, l3, l4 =>
      simp only [List.zip_cons_cons, Moc.sweepPlanes, List.map_cons, SameOn, List.forall₂_cons] at hfix hfix' ⊢
      have k1 := ih (fun x hx => hok x (by simp [hx])) (fun x hx => hm x (by simp [hx])) bi bo bi' bo' (by simpa using l1) (by simpa using l2) (by simpa using l3)
        (by simpa using l4) _ _ hfix.2 hfix'.2
      have k2 := plane_pair (hm p (by simp)) expo xstr q q' gs p.first N (fun w hw => ((hok p (by simp)).angle w hw).1) ⟨t, b, o⟩ ⟨t', b', o'⟩ hfix.1 hfix'.1
      simp only at k2
      linear_combination k1 + k2

/-- C155: reciprocity of the sweep of one group: for two sources with the same cross sections, rays and boundary conditions (reflection or vacuum), and incoming
values that the sweeps leave as they are, the flux of one weighted with source of the other is the same both ways. -/
theorem C155_sweep (expo : K → K) (fpi : K) (xstr vol q q' : Nat → K) (gs : Bool) (u : Moc.BcUpdate K) (N nAng : Nat) (n : Nat → Nat) (mir : Nat → Nat → Nat)
    (vac : Nat → Nat → Bool) (rev : Nat → Nat) (W : Nat → K) (ps : List (Moc.PlaneWork K)) (hok : ∀ p ∈ ps, PlaneOk N nAng n p)
    (hm : ∀ p ∈ ps, Mirror nAng n u p.angles mir vac rev W) (hx : ∀ i < N, xstr i ≠ 0) (hv : ∀ i < N, vol i ≠ 0)
    (bi bo bi' bo' : List (Nat → Nat → K)) (l1 : bi.length = ps.length) (l2 : bo.length = ps.length) (l3 : bi'.length = ps.length) (l4 : bo'.length = ps.length)
    (hfix : SameOn nAng n bi ((Moc.sweep1g expo fpi xstr vol q gs u (ps.zip (bi.zip bo))).2.map Prod.fst))
    (hfix' : SameOn nAng n bi' ((Moc.sweep1g expo fpi xstr vol q' gs u (ps.zip (bi'.zip bo'))).2.map Prod.fst)) :
    ∑ i ∈ range N, xstr i * vol i * q' i * (Moc.sweep1g expo fpi xstr vol q gs u (ps.zip (bi.zip bo))).1 i =
      ∑ i ∈ range N, xstr i * vol i * q i * (Moc.sweep1g expo fpi xstr vol q' gs u (ps.zip (bi'.zip bo'))).1 i := by
  have k := planes_pair expo xstr q q' gs u N nAng n mir vac rev W ps hok hm bi bo bi' bo' l1 l2 l3 l4 (fun _ => 0) (fun _ => 0) hfix hfix'
  simp only [mul_zero, sum_const_zero, sub_zero] at k
  have e : ∀ (q q' : Nat → K) (bs : List (Moc.PlaneWork K × (Nat → Nat → K) × (Nat → Nat → K))), ∑ i ∈ range N, xstr i * vol i * q' i * (Moc.sweep1g expo fpi xstr vol q gs u bs).1 i =
      (∑ i ∈ range N, q' i * (Moc.sweepPlanes expo xstr q gs u bs fun _ => 0).1 i) + ∑ i ∈ range N, xstr i * vol i * fpi * (q i * q' i) := by
    intro q q' bs
    rw [← sum_add_distrib]
    refine sum_congr rfl fun i hi => ?_
    have h1 := hx i (mem_range.mp hi)
    have h2 := hv i (mem_range.mp hi)
    simp only [Moc.sweep1g, Moc.finish]
    generalize (Moc.sweepPlanes expo xstr q gs u bs fun _ => 0).1 i = x
    field_simp
  rw [e, e, k]
  congr 1
  exact sum_congr rfl fun i _ => by ring

/-! ### Eigenvalue calculations -/

/-- Data with the groups exchanged: scattering from `g` to `h` becomes scattering from `h` to `g`, emission and fission change places. -/
def transposedMat (m : Mat K) : Mat K := ⟨m.tr, m.ch, m.f, m.nf, fun g h => m.sc h g⟩

def transposed (p : Problem K) : Problem K := { p with rs := p.rs.map fun x => ⟨transposedMat x.mat, x.regs⟩ }

theorem transposed_part (p : Problem K) (h : Partition p.rs) : Partition (transposed p).rs := by
  refine ⟨fun x hx => ?_, ?_⟩
  · obtain ⟨y, hy, rfl⟩ := List.mem_map.mp hx
    exact h.1 y hy
  · exact List.pairwise_map.mpr h.2

theorem transposed_cover (p : Problem K) (h : ∀ i, i < p.nReg ↔ ∃ x ∈ p.rs, i ∈ x.regs) : ∀ i, i < (transposed p).nReg ↔ ∃ x ∈ (transposed p).rs, i ∈ x.regs := by
  intro i
  rw [show (transposed p).nReg = p.nReg from rfl, h i]
  constructor
  · rintro ⟨x, hx, hi⟩
    exact ⟨_, List.mem_map.mpr ⟨x, hx, rfl⟩, hi⟩
  · rintro ⟨x, hx, hi⟩
    obtain ⟨y, hy, rfl⟩ := List.mem_map.mp hx
    exact ⟨y, hy, hi⟩

theorem transposed_nonneg (p : Problem K) (h : ∀ x ∈ p.rs, Source.NonNeg p.ng x.mat) : ∀ x ∈ (transposed p).rs, Source.NonNeg (transposed p).ng x.mat := by
  intro x hx
  obtain ⟨y, hy, rfl⟩ := List.mem_map.mp hx
  exact fun a b ha hb => h y hy b a hb ha

theorem src_split {σ : Type} (p : Problem K) (w : Sweeper K σ) (base : Nat → Nat → K) (a b g : Nat) (s : σ) :
    srcLoop p w base (a + b) g s = srcLoop p w base b (g + a) (srcLoop p w base a g s) := by
  induction a generalizing g s with
  | zero => simp [srcLoop]
  | succ a ih => rw [show a + 1 + b = (a + b) + 1 by omega, srcLoop, srcLoop, ih, show g + 1 + a = g + (a + 1) by omega]

theorem src_other {σ α : Type} (p : Problem K) (w : Sweeper K σ) (F : σ → Nat → α) (hF : ∀ g src s h, h ≠ g → F (w.sweep g src s) h = F s h) (base : Nat → Nat → K) (n g : Nat)
    (s : σ) (g' : Nat) (hg : g' < g ∨ g + n ≤ g') : F (srcLoop p w base n g s) g' = F s g' := by
  induction n generalizing g s with
  | zero => rfl
  | succ n ih => rw [srcLoop, ih (g + 1) _ (by omega), hF g _ s g' (by omega)]

theorem src_inv {σ : Type} (p : Problem K) (w : Sweeper K σ) (inv : σ → Prop) (hinv : ∀ g < p.ng, ∀ src s, inv s → inv (w.sweep g src s)) (base : Nat → Nat → K) (n g : Nat)
    (hn : g + n ≤ p.ng) (s : σ) (hs : inv s) : inv (srcLoop p w base n g s) := by
  induction n generalizing g s with
  | zero => exact hs
  | succ n ih => exact ih (g + 1) (by omega) _ (hinv g (by omega) _ s hs)

/-- Flux and incoming values are the same after a pass over all groups with the sources `base`. -/
structure StateConverged (p : Problem K) (m : MocSetup K) (nAng : Nat) (n : Nat → Nat) (s s' : MocState K) : Prop where
  planes : Planes p m s
  flux : ∀ i < p.nReg, ∀ g < p.ng, s'.flux i g = s.flux i g
  bin : ∀ g < p.ng, SameOn nAng n (s.bin g) (s'.bin g)

/-- Then the sweep of group `g`: sources and results. -/
theorem converged_group (p : Problem K) (part : Partition p.rs) (cover : ∀ i, i < p.nReg ↔ ∃ x ∈ p.rs, i ∈ x.regs) (hsc : ∀ x ∈ p.rs, Source.NonNeg p.ng x.mat)
    (htr : ∀ x ∈ p.rs, ∀ g < p.ng, x.mat.tr g ≠ 0) (m : MocSetup K) (nAng : Nat) (n : Nat → Nat) (hfpi : m.fpi ≠ 0) (hin : m.nInner = 1)
    (base : Nat → Nat → K) (s : MocState K) (hc : StateConverged p m nAng n s (srcLoop p (mocSweeper p m) base p.ng 0 s)) (g : Nat) (hg : g < p.ng) :
    ∃ (q : Nat → K) (bi bo : List (Nat → Nat → K)), bi.length = m.planes.length ∧ bo.length = m.planes.length ∧
      SameOn nAng n bi ((Moc.sweep1g m.expo m.fpi (trOf p.rs g) p.vol q m.gs m.u (m.planes.zip (bi.zip bo))).2.map Prod.fst) ∧
      (∀ i < p.nReg, (Moc.sweep1g m.expo m.fpi (trOf p.rs g) p.vol q m.gs m.u (m.planes.zip (bi.zip bo))).1 i = s.flux i g) ∧
      ∀ x ∈ p.rs, ∀ i ∈ x.regs, m.fpi * (trOf p.rs g i * q i) = base g i + ∑ h ∈ range p.ng, x.mat.sc g h * s.flux i h := by
  have hsw : ∀ g src t, (mocSweeper p m).sweep g src t = mocInner p m g src t := by
    intro g src t
    show mocSweep p m g src t = _
    simp [mocSweep, hin]
  have hF : ∀ g src s h, h ≠ g → ((mocSweeper p m).sweep g src s).bin h = s.bin h := by
    intro g src s h hne
    rw [hsw]
    simp only [mocInner, if_neg hne]
  have hG : ∀ g src (s : MocState K) h, h ≠ g → (fun i => ((mocSweeper p m).sweep g src s).flux i h) = fun i => s.flux i h := by
    intro g src s h hne
    rw [hsw]
    simp only [mocInner, if_neg hne]
  obtain ⟨b, hbn⟩ : ∃ b, p.ng = g + (b + 1) := ⟨p.ng - g - 1, by omega⟩
  set t := srcLoop p (mocSweeper p m) base g 0 s with htd
  set src := inScatter p.ng p.rs t.flux g (base g) with hsrc
  have hsp : srcLoop p (mocSweeper p m) base p.ng 0 s = srcLoop p (mocSweeper p m) base b (g + 1) (mocInner p m g src t) := by
    conv_lhs => rw [hbn]
    rw [src_split, srcLoop, Nat.zero_add, hsw]
    rfl
  have ht1 : t.bin g = s.bin g := src_other p (mocSweeper p m) MocState.bin hF base g 0 s g (by omega)
  have ht2 : Planes p m t := src_inv p (mocSweeper p m) (Planes p m) (fun g hg src s hs => by rw [hsw]; exact mocInner_planes p m g hg src s hs) base g 0 (by omega) s hc.planes
  have hs1 : (srcLoop p (mocSweeper p m) base p.ng 0 s).bin g = (mocInner p m g src t).bin g := by
    rw [hsp]
    exact src_other p (mocSweeper p m) MocState.bin hF base b (g + 1) _ g (by omega)
  have hs2 : ∀ i, (srcLoop p (mocSweeper p m) base p.ng 0 s).flux i g = (mocInner p m g src t).flux i g := by
    intro i
    rw [hsp]
    exact congrFun (src_other p (mocSweeper p m) (fun (s : MocState K) g i => s.flux i g) hG base b (g + 1) _ g (by omega)) i
  have ht : ∀ i < p.nReg, ∀ g' < p.ng, t.flux i g' = s.flux i g' := by
    intro i hi g' hg'
    by_cases hlt : g' < g
    · rw [← hc.flux i hi g' hg', show srcLoop p (mocSweeper p m) base p.ng 0 s = srcLoop p (mocSweeper p m) base (b + 1) (0 + g) t by rw [hbn, src_split]]
      exact (congrFun (src_other p (mocSweeper p m) (fun (s : MocState K) g i => s.flux i g) hG base (b + 1) (0 + g) t g' (by omega)) i).symm
    · exact congrFun (src_other p (mocSweeper p m) (fun (s : MocState K) g i => s.flux i g) hG base g 0 s g' (by omega)) i
  refine ⟨selfScatter m.fpi p.ng p.rs t.flux g src true t.q, t.bin g, t.bout, ht2.1 g hg, ht2.2, ?_, ?_, ?_⟩
  · have := hc.bin g hg
    rw [← ht1, hs1] at this
    simpa only [mocInner, if_true] using this
  · intro i hi
    have := hs2 i
    rw [hc.flux i hi g hg] at this
    simpa only [mocInner, if_true] using this.symm
  · intro x hx i hi
    have hi' : i < p.nReg := (cover i).mpr ⟨x, hx, hi⟩
    rw [trOf_at p.rs part g x hx i hi, selfScatter_at m.fpi p.ng p.rs part t.flux g hg src true t.q x hx i hi, if_pos rfl, hsrc,
      inScatter_at p.ng p.rs part t.flux g hg (base g) x hx i hi (hsc x hx), ht i hi' g hg]
    have e : ∀ h ∈ range p.ng, (if h ≠ g then x.mat.sc g h * t.flux i h else 0) = x.mat.sc g h * s.flux i h - if h = g then x.mat.sc g g * s.flux i g else 0 := by
      intro h hh
      rw [ht i hi' h (mem_range.mp hh)]
      by_cases e : h = g
      · subst e; simp
      · simp [e]
    rw [sum_congr rfl e, sum_sub_distrib, sum_ite_eq' (range p.ng) g, if_pos (mem_range.mpr hg)]
    have := htr x hx g hg
    field_simp
    ring

/-- Fission neutrons of one calculation times emission of the other, integrated over all regions. -/
def overlap (p : Problem K) (flux adj : Nat → Nat → K) : K :=
  regionSum p.rs fun mat i => p.vol i * ((∑ g ∈ range p.ng, mat.nf g * flux i g) * ∑ g ∈ range p.ng, mat.ch g * adj i g)

theorem regionSum_sub (rs : List (XsRegion (Mat K))) (f g : Mat K → Nat → K) : regionSum rs (fun m i => f m i - g m i) = regionSum rs f - regionSum rs g := by
  have := regionSum_add rs (fun m i => f m i - g m i) g
  simp only [sub_add_cancel] at this
  rw [this, add_sub_cancel_right]

theorem regionSum_mul (rs : List (XsRegion (Mat K))) (c : K) (f : Mat K → Nat → K) : regionSum rs (fun m i => c * f m i) = c * regionSum rs f := by
  unfold regionSum
  rw [← List.sum_map_mul_left]
  congr 1
  refine List.map_congr_left fun x _ => ?_
  rw [← List.sum_map_mul_left]

/-- What the sources `base` contribute to a response `r`, integrated over all regions and groups. -/
def response (p : Problem K) (r base : Nat → Nat → K) : K := regionSum p.rs fun _ i => p.vol i * ∑ g ∈ range p.ng, base g i * r i g

/-- When the sweep of each group is reciprocal with its whole source, the calculations are. -/
theorem response_of_groups (p : Problem K) (flux adj : Nat → Nat → K) (base base' : Nat → Nat → K)
    (hgrp : ∀ g < p.ng, regionSum p.rs (fun mat i => p.vol i * ((base' g i + ∑ h ∈ range p.ng, mat.sc h g * adj i h) * flux i g)) =
      regionSum p.rs fun mat i => p.vol i * ((base g i + ∑ h ∈ range p.ng, mat.sc g h * flux i h) * adj i g)) :
    response p flux base' = response p adj base := by
  have hsum := sum_congr (rfl : range p.ng = range p.ng) fun g hg => hgrp g (mem_range.mp hg)
  rw [← regionSum_finset, ← regionSum_finset] at hsum
  have e1 : (regionSum p.rs fun mat i => ∑ g ∈ range p.ng, p.vol i * ((base' g i + ∑ h ∈ range p.ng, mat.sc h g * adj i h) * flux i g)) =
      response p flux base' + regionSum p.rs fun mat i => p.vol i * ∑ g ∈ range p.ng, ∑ h ∈ range p.ng, mat.sc g h * flux i h * adj i g := by
    rw [response, ← regionSum_add]
    refine regionSum_congr _ _ _ fun x hx i hi => ?_
    rw [← mul_sum, ← mul_add]
    simp only [add_mul]
    rw [sum_add_distrib]
    congr 2
    rw [sum_comm]
    refine sum_congr rfl fun g _ => ?_
    rw [sum_mul]
    exact sum_congr rfl fun h _ => by ring
  have e2 : (regionSum p.rs fun mat i => ∑ g ∈ range p.ng, p.vol i * ((base g i + ∑ h ∈ range p.ng, mat.sc g h * flux i h) * adj i g)) =
      response p adj base + regionSum p.rs fun mat i => p.vol i * ∑ g ∈ range p.ng, ∑ h ∈ range p.ng, mat.sc g h * flux i h * adj i g := by
    rw [response, ← regionSum_add]
    refine regionSum_congr _ _ _ fun x hx i hi => ?_
    rw [← mul_sum, ← mul_add]
    simp only [add_mul]
    rw [sum_add_distrib]
    congr 2
    exact sum_congr rfl fun g _ => by rw [sum_mul]
  rw [e1, e2] at hsum
  exact add_right_cancel hsum

/-- C155: two converged calculations, one with transposed data, for any sources by group. -/
theorem C155_reciprocity (p : Problem K) (part : Partition p.rs) (cover : ∀ i, i < p.nReg ↔ ∃ x ∈ p.rs, i ∈ x.regs) (hsc : ∀ x ∈ p.rs, Source.NonNeg p.ng x.mat)
    (htr : ∀ x ∈ p.rs, ∀ g < p.ng, x.mat.tr g ≠ 0) (hv : ∀ i < p.nReg, p.vol i ≠ 0) (m : MocSetup K) (nAng : Nat) (n : Nat → Nat) (hfpi : m.fpi ≠ 0) (hin : m.nInner = 1)
    (hok : ∀ w ∈ m.planes, PlaneOk p.nReg nAng n w) (mir : Nat → Nat → Nat) (vac : Nat → Nat → Bool) (rev : Nat → Nat) (W : Nat → K)
    (hm : ∀ w ∈ m.planes, Mirror nAng n m.u w.angles mir vac rev W) (base base' : Nat → Nat → K) (s a : MocState K)
    (hc : StateConverged p m nAng n s (srcLoop p (mocSweeper p m) base p.ng 0 s))
    (hc' : StateConverged (transposed p) m nAng n a (srcLoop (transposed p) (mocSweeper (transposed p) m) base' p.ng 0 a)) :
    response p s.flux base' = response p a.flux base := by
  have part' := transposed_part p part
  have htr' : ∀ x ∈ (transposed p).rs, ∀ g < (transposed p).ng, x.mat.tr g ≠ 0 := by
    intro x hx
    obtain ⟨y, hy, rfl⟩ := List.mem_map.mp hx
    exact htr y hy
  have hgrp : ∀ g < p.ng, regionSum p.rs (fun mat i => p.vol i * ((base' g i + ∑ h ∈ range p.ng, mat.sc h g * a.flux i h) * s.flux i g)) =
      regionSum p.rs fun mat i => p.vol i * ((base g i + ∑ h ∈ range p.ng, mat.sc g h * s.flux i h) * a.flux i g) := by
    intro g hg
    obtain ⟨q, bi, bo, l1, l2, f1, f2, f3⟩ := converged_group p part cover hsc htr m nAng n hfpi hin base s hc g hg
    obtain ⟨q', bi', bo', l1', l2', f1', f2', f3'⟩ := converged_group (transposed p) part' (transposed_cover p cover) (transposed_nonneg p hsc) htr' m nAng n hfpi hin
      base' a hc' g hg
    have hx : ∀ i < p.nReg, trOf p.rs g i ≠ 0 := by
      intro i hi
      obtain ⟨x, hx, hxi⟩ := (cover i).mp hi
      rw [trOf_at p.rs part g x hx i hxi]
      exact htr x hx g hg
    have etr : trOf (transposed p).rs g = trOf p.rs g := by
      unfold trOf transposed
      simp only [List.foldl_map, transposedMat]
    rw [etr] at f1' f2' f3'
    have hr := C155_sweep m.expo m.fpi (trOf p.rs g) p.vol q q' m.gs m.u p.nReg nAng n mir vac rev W m.planes hok hm hx hv bi bo bi' bo' l1 l2 l1' l2' f1 f1'
    have g1 : ∑ i ∈ range p.nReg, trOf p.rs g i * p.vol i * q' i * (Moc.sweep1g m.expo m.fpi (trOf p.rs g) p.vol q m.gs m.u (m.planes.zip (bi.zip bo))).1 i =
        ∑ i ∈ range p.nReg, trOf p.rs g i * p.vol i * q' i * s.flux i g := sum_congr rfl fun i hi => by rw [f2 i (mem_range.mp hi)]
    have g2 : ∑ i ∈ range p.nReg, trOf p.rs g i * p.vol i * q i * (Moc.sweep1g m.expo m.fpi (trOf p.rs g) p.vol q' m.gs m.u (m.planes.zip (bi'.zip bo'))).1 i =
        ∑ i ∈ range p.nReg, trOf p.rs g i * p.vol i * q i * a.flux i g := sum_congr rfl fun i hi => congrArg _ (f2' i (mem_range.mp hi))
    rw [g1, g2, sum_regions p.nReg p.rs part cover, sum_regions p.nReg p.rs part cover] at hr
    have hr' := congrArg (m.fpi * ·) hr
    rw [← regionSum_mul, ← regionSum_mul] at hr'
    refine Eq.trans (regionSum_congr _ _ _ fun x hx i hi => ?_) (hr'.trans (regionSum_congr _ _ _ fun x hx i hi => ?_))
    · have := f3' ⟨transposedMat x.mat, x.regs⟩ (List.mem_map.mpr ⟨x, hx, rfl⟩) i hi
      change m.fpi * (trOf p.rs g i * q' i) = base' g i + ∑ h ∈ range p.ng, x.mat.sc h g * a.flux i h at this
      rw [← this]
      ring
    · rw [← f3 x hx i hi]
      ring
  exact response_of_groups p s.flux a.flux base base' hgrp

/-- C155: fixed-source calculations with external sources, one with transposed data, that have converged: the source of each weighted with the flux of the other. -/
theorem C155_fixed (p : Problem K) (part : Partition p.rs) (cover : ∀ i, i < p.nReg ↔ ∃ x ∈ p.rs, i ∈ x.regs) (hsc : ∀ x ∈ p.rs, Source.NonNeg p.ng x.mat)
    (htr : ∀ x ∈ p.rs, ∀ g < p.ng, x.mat.tr g ≠ 0) (hv : ∀ i < p.nReg, p.vol i ≠ 0) (m : MocSetup K) (nAng : Nat) (n : Nat → Nat) (hfpi : m.fpi ≠ 0) (hin : m.nInner = 1)
    (hok : ∀ w ∈ m.planes, PlaneOk p.nReg nAng n w) (mir : Nat → Nat → Nat) (vac : Nat → Nat → Bool) (rev : Nat → Nat) (W : Nat → K)
    (hm : ∀ w ∈ m.planes, Mirror nAng n m.u w.angles mir vac rev W) (ext ext' : Option (Ext K)) (S S' : Nat → Nat → K)
    (hS : ∀ g < p.ng, initializeGroup p.nReg ext g = some (S g)) (hS' : ∀ g < p.ng, initializeGroup p.nReg ext' g = some (S' g)) (s s' a a' : MocState K)
    (h : fixedSteps p (mocSweeper p m) ext 1 s = some s') (hc : StateConverged p m nAng n s s')
    (h' : fixedSteps (transposed p) (mocSweeper (transposed p) m) ext' 1 a = some a') (hc' : StateConverged (transposed p) m nAng n a a') :
    response p s.flux S' = response p a.flux S := by
  rw [fixedSteps, extLoop_eq p _ ext S p.ng 0 fun g _ hg => hS g (by omega), Option.bind_some, fixedSteps, Option.some.injEq] at h
  rw [fixedSteps, extLoop_eq (transposed p) _ ext' S' (transposed p).ng 0 fun g _ hg => hS' g (by have : (transposed p).ng = p.ng := rfl; omega), Option.bind_some, fixedSteps, Option.some.injEq] at h'
  subst h
  subst h'
  exact C155_reciprocity p part cover hsc htr hv m nAng n hfpi hin hok mir vac rev W hm S S' s a hc hc'

/-- The fission sources of both as sources by group. -/
theorem overlap_of_response (p : Problem K) (part : Partition p.rs) (k l : K) (flux adj : Nat → Nat → K)
    (key : response p flux (fun g => fission (transposed p).rs (calcFissionSource (transposed p).ng (transposed p).rs l adj) g fun _ => 0) =
      response p adj fun g => fission p.rs (calcFissionSource p.ng p.rs k flux) g fun _ => 0) :
    1 / k * overlap p flux adj = 1 / l * overlap p flux adj := by
  have part' := transposed_part p part
  have e1 : response p flux (fun g => fission (transposed p).rs (calcFissionSource (transposed p).ng (transposed p).rs l adj) g fun _ => 0) =
      1 / l * overlap p flux adj := by
    rw [overlap, ← regionSum_mul, response]
    refine regionSum_congr _ _ _ fun x hx i hi => ?_
    have hx' : (⟨transposedMat x.mat, x.regs⟩ : XsRegion (Mat K)) ∈ (transposed p).rs := List.mem_map.mpr ⟨x, hx, rfl⟩
    have : ∀ g, fission (transposed p).rs (calcFissionSource (transposed p).ng (transposed p).rs l adj) g (fun _ => 0) i =
        x.mat.nf g * ((∑ h ∈ range p.ng, x.mat.ch h * adj i h) / l) := by
      intro g
      rw [fission_at (transposed p).rs part' _ g _ _ hx' i hi, C47_fission_source (transposed p).ng (transposed p).rs part' l adj _ hx' i hi, zero_add]
      rfl
    simp only [this]
    rw [mul_left_comm, sum_mul, mul_sum (a := 1 / l)]
    congr 1
    exact sum_congr rfl fun g _ => by ring
  have e2 : response p adj (fun g => fission p.rs (calcFissionSource p.ng p.rs k flux) g fun _ => 0) = 1 / k * overlap p flux adj := by
    rw [overlap, ← regionSum_mul, response]
    refine regionSum_congr _ _ _ fun x hx i hi => ?_
    have : ∀ g, fission p.rs (calcFissionSource p.ng p.rs k flux) g (fun _ => 0) i = x.mat.ch g * ((∑ h ∈ range p.ng, x.mat.nf h * flux i h) / k) := by
      intro g
      rw [fission_at p.rs part _ g _ x hx i hi, C47_fission_source p.ng p.rs part k flux x hx i hi, zero_add]
    simp only [this]
    rw [mul_left_comm]
    congr 1
    rw [← mul_assoc, mul_sum]
    exact sum_congr rfl fun g _ => by ring
  exact e2.symm.trans (key.symm.trans e1)

/-- C155: an eigenvalue calculation and the one with transposed data, both converged. -/
theorem C155_overlap (p : Problem K) (part : Partition p.rs) (cover : ∀ i, i < p.nReg ↔ ∃ x ∈ p.rs, i ∈ x.regs) (hsc : ∀ x ∈ p.rs, Source.NonNeg p.ng x.mat)
    (htr : ∀ x ∈ p.rs, ∀ g < p.ng, x.mat.tr g ≠ 0) (hv : ∀ i < p.nReg, p.vol i ≠ 0) (m : MocSetup K) (nAng : Nat) (n : Nat → Nat) (hfpi : m.fpi ≠ 0) (hin : m.nInner = 1)
    (hok : ∀ w ∈ m.planes, PlaneOk p.nReg nAng n w) (mir : Nat → Nat → Nat) (vac : Nat → Nat → Bool) (rev : Nat → Nat) (W : Nat → K)
    (hm : ∀ w ∈ m.planes, Mirror nAng n m.u w.angles mir vac rev W)
    (k k' : K) (s s' : MocState K) (h : outer p (mocSweeper p m) k s = some (k', s')) (hc : StateConverged p m nAng n s s')
    (l l' : K) (a a' : MocState K) (ha : outer (transposed p) (mocSweeper (transposed p) m) l a = some (l', a')) (hc' : StateConverged (transposed p) m nAng n a a') :
    1 / k * overlap p s.flux a.flux = 1 / l * overlap p s.flux a.flux := by
  have part' := transposed_part p part
  rw [outer, groupLoop_eq, Option.map_some, Option.some.injEq, Prod.mk.injEq] at h
  rw [outer, groupLoop_eq, Option.map_some, Option.some.injEq, Prod.mk.injEq] at ha
  obtain ⟨-, rfl⟩ := h
  obtain ⟨-, rfl⟩ := ha
  have key := C155_reciprocity p part cover hsc htr hv m nAng n hfpi hin hok mir vac rev W hm _ _ s a hc hc'
  exact overlap_of_response p part k l s.flux a.flux key

theorem regionSum_pos (rs : List (XsRegion (Mat K))) (f : Mat K → Nat → K) (h : ∀ x ∈ rs, ∀ i ∈ x.regs, 0 ≤ f x.mat i) (x : XsRegion (Mat K)) (hx : x ∈ rs) (i : Nat)
    (hi : i ∈ x.regs) (hp : 0 < f x.mat i) : 0 < regionSum rs f := by
  have h1 : ∀ y ∈ rs, 0 ≤ (y.regs.map (f y.mat)).sum := fun y hy => List.sum_nonneg (by
    intro z hz
    obtain ⟨j, hj, rfl⟩ := List.mem_map.mp hz
    exact h y hy j hj)
  have h2 : f x.mat i ≤ (x.regs.map (f x.mat)).sum := List.single_le_sum (by
    intro z hz
    obtain ⟨j, hj, rfl⟩ := List.mem_map.mp hz
    exact h x hx j hj) _ (List.mem_map.mpr ⟨i, hi, rfl⟩)
  have h3 : (x.regs.map (f x.mat)).sum ≤ regionSum rs f := List.single_le_sum (by
    intro z hz
    obtain ⟨y, hy, rfl⟩ := List.mem_map.mp hz
    exact h1 y hy) _ (List.mem_map.mpr ⟨x, hx, rfl⟩)
  linarith

/-- Fluxes that are not negative, and a region where one calculation has fissions and the other emission. -/
theorem C155_overlap_pos (p : Problem K) (hv : ∀ x ∈ p.rs, ∀ i ∈ x.regs, 0 < p.vol i) (hnf : ∀ x ∈ p.rs, ∀ g < p.ng, 0 ≤ x.mat.nf g) (hch : ∀ x ∈ p.rs, ∀ g < p.ng, 0 ≤ x.mat.ch g)
    (flux adj : Nat → Nat → K) (hf : ∀ x ∈ p.rs, ∀ i ∈ x.regs, ∀ g < p.ng, 0 ≤ flux i g) (ha : ∀ x ∈ p.rs, ∀ i ∈ x.regs, ∀ g < p.ng, 0 ≤ adj i g)
    (x : XsRegion (Mat K)) (hx : x ∈ p.rs) (i : Nat) (hi : i ∈ x.regs) (g h : Nat) (hg : g < p.ng) (hh : h < p.ng) (h1 : 0 < x.mat.nf g * flux i g)
    (h2 : 0 < x.mat.ch h * adj i h) : overlap p flux adj ≠ 0 := by
  have n1 : ∀ x ∈ p.rs, ∀ i ∈ x.regs, ∀ g ∈ range p.ng, 0 ≤ x.mat.nf g * flux i g := fun x hx i hi g hg =>
    mul_nonneg (hnf x hx g (mem_range.mp hg)) (hf x hx i hi g (mem_range.mp hg))
  have n2 : ∀ x ∈ p.rs, ∀ i ∈ x.regs, ∀ g ∈ range p.ng, 0 ≤ x.mat.ch g * adj i g := fun x hx i hi g hg =>
    mul_nonneg (hch x hx g (mem_range.mp hg)) (ha x hx i hi g (mem_range.mp hg))
  refine (regionSum_pos p.rs _ (fun x hx i hi => mul_nonneg (hv x hx i hi).le (mul_nonneg (sum_nonneg (n1 x hx i hi)) (sum_nonneg (n2 x hx i hi)))) x hx i hi ?_).ne'
  exact mul_pos (hv x hx i hi) (mul_pos (lt_of_lt_of_le h1 (single_le_sum (n1 x hx i hi) (mem_range.mpr hg)))
    (lt_of_lt_of_le h2 (single_le_sum (n2 x hx i hi) (mem_range.mpr hh))))

/-- C155: then both have the same eigenvalue. -/
theorem C155_k (p : Problem K) (part : Partition p.rs) (cover : ∀ i, i < p.nReg ↔ ∃ x ∈ p.rs, i ∈ x.regs) (hsc : ∀ x ∈ p.rs, Source.NonNeg p.ng x.mat)
    (htr : ∀ x ∈ p.rs, ∀ g < p.ng, x.mat.tr g ≠ 0) (hv : ∀ i < p.nReg, p.vol i ≠ 0) (m : MocSetup K) (nAng : Nat) (n : Nat → Nat) (hfpi : m.fpi ≠ 0) (hin : m.nInner = 1)
    (hok : ∀ w ∈ m.planes, PlaneOk p.nReg nAng n w) (mir : Nat → Nat → Nat) (vac : Nat → Nat → Bool) (rev : Nat → Nat) (W : Nat → K)
    (hm : ∀ w ∈ m.planes, Mirror nAng n m.u w.angles mir vac rev W)
    (k k' : K) (s s' : MocState K) (h : outer p (mocSweeper p m) k s = some (k', s')) (hc : StateConverged p m nAng n s s')
    (l l' : K) (a a' : MocState K) (ha : outer (transposed p) (mocSweeper (transposed p) m) l a = some (l', a')) (hc' : StateConverged (transposed p) m nAng n a a')
    (hov : overlap p s.flux a.flux ≠ 0) : k = l := by
  have := mul_right_cancel₀ hov (C155_overlap p part cover hsc htr hv m nAng n hfpi hin hok mir vac rev W hm k k' s s' h hc l l' a a' ha hc')
  rw [one_div, one_div] at this
  exact inv_injective this

end

end Verif.Medium

namespace Verif.Medium

open Verif.Quad Verif.BC Verif.XS Verif.Source Finset

section
variable {K : Type} [Field K] [LinearOrder K] [IsStrictOrderedRing K]

/-- The new values after the update of ordinate `c`. -/
theorem store_one_value (sh : Store K) (first : List (Angle K)) (b o : Nat → Normal → Nat → K) (h : Pre (load sh b) (load sh o) first) (c : Nat) (hc : c < sh.size.length)
    (a : Nat) (n : Normal) (e : Nat) (he : e < faceSize sh a n) (ang : Angle K) (hang : sh.angles[a]? = some ang) :
    storeOne sh c b o a n e = if c = refl first.length a n then newValue (sh.types (upwindSurface ang n)) (o (refl first.length a n) n e) (b a n e) else b a n e := by
  have ha : a < sh.size.length := by
    by_contra hn
    have : sh.size[a]? = none := List.getElem?_eq_none (by omega)
    simp [faceSize, this] at he
  have hmir : faceSize sh (refl first.length a n) n = faceSize sh a n := h.mirror a n (show faceSize sh a n ≠ 0 by omega)
  obtain ⟨b', e1, s1, v1⟩ := angles_spec (load sh b) (load sh o) first h 0 [c] (by simp) (by intro x hx; simp only [List.mem_singleton] at hx; rw [hx]; exact hc)
  have hu : updateAngle 0 c (load sh o) (load sh b) = .ok b' := by
    unfold updateAngles at e1
    cases hh : updateAngle 0 c (load sh o) (load sh b) with
    | ok x => rw [hh] at e1; simpa [updateAngles] using e1
    | throws => rw [hh] at e1; cases e1
    | ub => rw [hh] at e1; cases e1
  have hst : storeOne sh c b o a n e = view b' a n e := by rw [storeOne, hu]
  have hsz : b'.size = sh.size := s1.2.2.1
  have hv : view b' a n e = value b' 0 a n e := by
    rw [view, value, faceStart_of _ _ _ (by rw [hsz]; exact ha)]; simp
  have h2 := v1 0 a n e he
  have hit : inType (load sh b) a n = some (sh.types (upwindSurface ang n)) := by
    have : (load sh b).angles[a]? = some ang := hang
    simp only [inType, this, Option.map_some]
    rfl
  rw [← hv, ← hst] at h2
  rw [h2, target, load_value sh b a n e he]
  by_cases hcr : c = refl first.length a n
  · rw [if_pos ⟨rfl, by simp [hcr]⟩, if_pos hcr, hit, load_value sh o _ n e (by rw [hmir]; exact he), Option.getD_some]
  · rw [if_neg (by rintro ⟨-, hh⟩; simp only [List.mem_singleton] at hh; exact hcr hh.symm), if_neg hcr]

theorem reverse2_eq (n o k : Nat) (ho : o < 4) (hk : k < n) : reverse n (o * n + k) 2 = ((o + 2) % 4) * n + k := by
  unfold reverse
  rw [if_pos rfl]
  interval_cases o <;> simp only [Nat.reduceAdd, Nat.reduceMod]
  · rw [Nat.mod_eq_of_lt (by omega)]; omega
  · rw [Nat.mod_eq_of_lt (by omega)]; omega
  all_goals rw [Nat.mod_eq_sub_mod (by omega), Nat.mod_eq_of_lt (by omega)]; omega

theorem refl_eq (n o k : Nat) (ho : o < 8) (hk : k < n) (ax : Normal) : refl n (o * n + k) ax = octMirror ax o * n + k := by
  unfold BC.refl
  rw [reflect_eq' n o k ho hk ax, Option.getD_some]

/-- Where an ordinate comes in from a vacuum. -/
def vacuumAt (sh : Store K) (a j : Nat) : Bool :=
  ((sh.angles[a]?).map fun ang => decide (sh.types (upwindSurface ang (faceOf sh a j).1) = .VACUUM)).getD false

theorem face_of_slot (sh : Store K) (a j : Nat) (hz : faceSize sh a .Z = 0) (hj : j < rowSize sh a) :
    (faceOf sh a j).1 ≠ .Z ∧ (faceOf sh a j).2 < faceSize sh a (faceOf sh a j).1 ∧ slotOf sh a (faceOf sh a j).1 (faceOf sh a j).2 = j := by
  unfold rowSize at hj
  unfold faceOf
  split_ifs with h1 h2
  · exact ⟨nofun, h1, rfl⟩
  · exact ⟨nofun, (by omega : j - faceSize sh a .X < faceSize sh a .Y), (by omega : faceSize sh a .X + (j - faceSize sh a .X) = j)⟩
  · omega

theorem faceOf_congr (sh : Store K) (a b j : Nat) (h : ∀ m, faceSize sh b m = faceSize sh a m) : faceOf sh b j = faceOf sh a j := by
  simp only [faceOf, h]

theorem slotOf_congr (sh : Store K) (a b : Nat) (n : Normal) (e : Nat) (h : ∀ m, faceSize sh b m = faceSize sh a m) : slotOf sh b n e = slotOf sh a n e := by
  cases n <;> simp only [slotOf, h]

/-- C155: the boundary conditions of the code, reflection or vacuum on each face, are of this kind for MoC in a plane, when mirrored and reversed angles have as many
rays on the faces and the same weight. -/
theorem C155_boundary (sh : Store K) (first : List (Angle K)) (h : ∀ b o, Pre (load sh b) (load sh o) first) (h4 : sh.size.length = 4 * first.length)
    (ht : ∀ s, sh.types s = .REFLECT ∨ sh.types s = .VACUUM) (hmir : ∀ a n m, faceSize sh a n ≠ 0 → faceSize sh (refl first.length a n) m = faceSize sh a m)
    (hrev : ∀ a < 4 * first.length, ∀ m, faceSize sh (reverse first.length a 2) m = faceSize sh a m)
    (ws : List (Moc.AngleWork K)) (hperm : (ws.flatMap fun w => [w.iang1, w.iang2]).Perm (List.range (4 * first.length)))
    (hends : ∀ w ∈ ws, w.iang2 = reverse first.length w.iang1 2) (W : Nat → K) (hW : ∀ w ∈ ws, w.wt = W w.iang1 ∧ w.wt = W w.iang2)
    (hWm : ∀ a n, faceSize sh a n ≠ 0 → W (refl first.length a n) = W a) :
    Mirror (4 * first.length) (rowSize sh) (mocUpdate sh) ws (fun a j => refl first.length a (faceOf sh a j).1) (vacuumAt sh) (fun a => reverse first.length a 2) W := by
  have hP := h (fun _ _ _ => 0) fun _ _ _ => 0
  have hangles : sh.angles = expand first := hP.angles
  have hz : ∀ a, a < 4 * first.length → faceSize sh a .Z = 0 := by
    intro a ha
    rcases hP.nA with hh | hh
    · have : sh.size.length = 8 * first.length := hh
      omega
    · exact hh.2 a
  have hlt : ∀ w ∈ ws, w.iang1 < 4 * first.length ∧ w.iang2 < 4 * first.length := by
    intro w hw
    refine ⟨List.mem_range.mp (hperm.subset (List.mem_flatMap.mpr ⟨w, hw, by simp⟩)), List.mem_range.mp (hperm.subset (List.mem_flatMap.mpr ⟨w, hw, by simp⟩))⟩
  have hsplit : ∀ a < 4 * first.length, ∃ o k, o < 4 ∧ k < first.length ∧ a = o * first.length + k := by
    intro a ha
    obtain ⟨o, k, ho, hk, rfl⟩ := split_index first.length a (by omega)
    refine ⟨o, k, ?_, hk, rfl⟩
    by_contra hc
    have := Nat.mul_le_mul_right first.length (show 4 ≤ o by omega)
    omega
  have oct4 : ∀ n : Normal, n ≠ .Z → ∀ o < 4, octMirror n o < 4 := by
    intro n hn o ho
    cases n
    · interval_cases o <;> decide
    · interval_cases o <;> decide
    · exact absurd rfl hn
  have hlt4 : ∀ n : Normal, n ≠ .Z → ∀ a < 4 * first.length, refl first.length a n < 4 * first.length := by
    intro n hn a ha
    obtain ⟨o, k, ho, hk, rfl⟩ := hsplit a ha
    rw [refl_eq _ o k (by omega) hk]
    have := Nat.mul_le_mul_right first.length (show octMirror n o ≤ 3 by have := oct4 n hn o ho; omega)
    omega
  have hfm : ∀ a < 4 * first.length, ∀ j < rowSize sh a, ∀ m, faceSize sh (refl first.length a (faceOf sh a j).1) m = faceSize sh a m := by
    intro a ha j hj m
    obtain ⟨h1, h2, h3⟩ := face_of_slot sh a j (hz a ha) hj
    exact hmir a _ m (by omega)
  have hang : ∀ a < 4 * first.length, ∃ ang, sh.angles[a]? = some ang := by
    intro a ha
    rw [hangles]
    exact ⟨_, List.getElem?_eq_getElem (by rw [expand_length]; omega)⟩
  have hval : ∀ (a : Nat), a < 4 * first.length → ∀ j < rowSize sh a, ∀ (x y : K) (ang : Angle K), sh.angles[a]? = some ang →
      newValue (sh.types (upwindSurface ang (faceOf sh a j).1)) x y = if vacuumAt sh a j then 0 else x := by
    intro a ha j hj x y ang he
    rw [vacuumAt, he, Option.map_some, Option.getD_some]
    rcases ht (upwindSurface ang (faceOf sh a j).1) with e | e <;> simp [e, newValue]
  exact
    { once := hperm.nodup_iff.mpr List.nodup_range
      angle := fun w hw => ⟨(hlt w hw).1, (hlt w hw).2, by
        rw [hends w hw]
        simp only [rowSize, hrev _ (hlt w hw).1]⟩
      cover := fun a ha => hperm.symm.subset (List.mem_range.mpr ha)
      ends := fun w hw => ⟨(hends w hw).symm, by
        obtain ⟨ang, he⟩ := hang _ (hlt w hw).1
        rw [hangles] at he
        rw [hends w hw]
        exact (C19_reverse_2d first hP.firstOct _ ang he (hlt w hw).1).2⟩
      weight := hW
      lt := fun a ha j hj => hlt4 _ (face_of_slot sh a j (hz a ha) hj).1 a ha
      size := fun a ha j hj => by simp only [rowSize, hfm a ha j hj]
      twice := fun a ha j hj => by
        show refl first.length (refl first.length a (faceOf sh a j).1) (faceOf sh _ j).1 = a
        rw [faceOf_congr sh a _ j (hfm a ha j hj)]
        exact (refl_props first.length a _ (by omega)).2.2
      same := fun a ha j hj => hWm a _ (by have := (face_of_slot sh a j (hz a ha) hj).2.1; omega)
      revMir := fun a ha j hj => by
        show reverse first.length (refl first.length a (faceOf sh a j).1) 2 = refl first.length (reverse first.length a 2) (faceOf sh (reverse first.length a 2) j).1
        rw [faceOf_congr sh a _ j (hrev a ha)]
        have hn := (face_of_slot sh a j (hz a ha) hj).1
        generalize (faceOf sh a j).1 = n at hn
        obtain ⟨o, k, ho, hk, rfl⟩ := hsplit a ha
        rw [refl_eq _ o k (by omega) hk, reverse2_eq _ _ k (oct4 n hn o ho) hk, reverse2_eq _ o k ho hk, refl_eq _ _ k (by omega) hk]
        congr 2
        cases n
        · interval_cases o <;> decide
        · interval_cases o <;> decide
        · exact absurd rfl hn
      revVac := fun a ha j hj => by
        have hn := (face_of_slot sh a j (hz a ha) hj).1
        rw [vacuumAt, vacuumAt, faceOf_congr sh a _ j (hfm a ha j hj), faceOf_congr sh a _ j (hrev a ha)]
        generalize (faceOf sh a j).1 = n at hn
        obtain ⟨o, k, ho, hk, rfl⟩ := hsplit a ha
        have he := expand_get first hP.firstOct o k (by omega) hk
        rw [hangles, (C19_reverse_2d first hP.firstOct _ _ he ha).1, refl_eq _ o k (by omega) hk, expand_get first hP.firstOct _ k (octMirror_lt n o (by omega)) hk,
          octImage_mirror _ n o (by omega)]
        cases n
        · rfl
        · rfl
        · exact absurd rfl hn
      all := fun b o a ha j hj => by
        obtain ⟨h1, h2, h3⟩ := face_of_slot sh a j (hz a ha) hj
        obtain ⟨ang, he⟩ := hang a ha
        obtain ⟨v1, v2, -⟩ := C110_store_value sh first (fun a n e => b a (slotOf sh a n e)) (fun a n e => o a (slotOf sh a n e)) (h _ _) a _ _ h2 ang he
        have hs : slotOf sh (refl first.length a (faceOf sh a j).1) (faceOf sh a j).1 (faceOf sh a j).2 = j := by
          rw [slotOf_congr sh a _ _ _ (hfm a ha j hj), h3]
        show storeAll sh _ _ a _ _ = _
        rw [← hval a ha j hj _ 0 ang he]
        rcases ht (upwindSurface ang (faceOf sh a j).1) with e | e
        · rw [v2 e, e, hs]; rfl
        · rw [v1 e, e]; rfl
      one := fun c hc b o a ha j hj => by
        obtain ⟨h1, h2, h3⟩ := face_of_slot sh a j (hz a ha) hj
        obtain ⟨ang, he⟩ := hang a ha
        have v := store_one_value sh first (fun a n e => b a (slotOf sh a n e)) (fun a n e => o a (slotOf sh a n e)) (h _ _) c (by omega) a _ _ h2 ang he
        have hs : slotOf sh (refl first.length a (faceOf sh a j).1) (faceOf sh a j).1 (faceOf sh a j).2 = j := by
          rw [slotOf_congr sh a _ _ _ (hfm a ha j hj), h3]
        show storeOne sh c _ _ a _ _ = _
        rw [v, hval a ha j hj _ _ ang he, hs, h3] }

end

/-! ### Examples -/

/-- The store of `C110` with a vacuum on one side. -/
def mixedStore : Store ℚ := { raysStore with types := fun s => if s = .WEST then .VACUUM else .REFLECT }

theorem mixed_pre (b o : Nat → Normal → Nat → ℚ) : Pre (load mixedStore b) (load mixedStore o) exAngles :=
  { angles := (rays_pre b o).angles
    firstOct := (rays_pre b o).firstOct
    nd := (rays_pre b o).nd
    nA := (rays_pre b o).nA
    outSize := rfl
    outGroup := rfl
    mirror := (rays_pre b o).mirror
    noGap := (rays_pre b o).noGap
    types := fun s => by
      show supported (if s = .WEST then .VACUUM else .REFLECT)
      split_ifs
      · exact Or.inl rfl
      · exact Or.inr (Or.inl rfl) }

/-- The hypotheses of `C155_boundary` hold for it. -/
example : Mirror 4 (rowSize mixedStore) (mocUpdate mixedStore) [⟨0, 2, 1, 1 / 2, []⟩, ⟨1, 3, 1, 1 / 2, []⟩] (fun a j => refl 1 a (faceOf mixedStore a j).1)
    (vacuumAt mixedStore) (fun a => reverse 1 a 2) (fun _ => 1 / 2) ∧ vacuumAt mixedStore 0 0 = true ∧ vacuumAt mixedStore 0 2 = false := by
  have hf : ∀ a m, faceSize mixedStore a m = if a < 4 then (⟨2, 3, 0⟩ : Size3).get m else 0 := by
    intro a m
    show ((List.replicate 4 (⟨2, 3, 0⟩ : Size3))[a]?.map (·.get m)).getD 0 = _
    rw [List.getElem?_replicate]
    split_ifs <;> rfl
  refine ⟨C155_boundary mixedStore exAngles mixed_pre rfl (fun s => ?_) (fun a n m h => ?_) (fun a ha m => ?_) _ (by decide) (by decide +kernel) _ ?_ (fun _ _ _ => rfl),
    by decide +kernel, by decide +kernel⟩
  · show (if s = .WEST then Boundary.VACUUM else .REFLECT) = .REFLECT ∨ (if s = .WEST then Boundary.VACUUM else .REFLECT) = .VACUUM
    split_ifs <;> simp
  · rw [hf] at h
    have ha : a < 4 := by
      by_contra hn
      rw [if_neg hn] at h
      exact h rfl
    rw [hf, hf]
    have hz : n ≠ .Z := by
      rintro rfl
      rw [if_pos ha] at h
      exact h rfl
    have : refl exAngles.length a n < 4 := by
      interval_cases a <;> cases n <;> first | decide | exact absurd rfl hz
    rw [if_pos this, if_pos ha]
  · have ha : a < 4 := ha
    have : reverse exAngles.length a 2 < 4 := by interval_cases a <;> decide
    rw [hf, hf, if_pos this, if_pos ha]
  · intro w hw
    simp only [List.mem_cons, List.not_mem_nil, or_false] at hw
    rcases hw with rfl | rfl <;> exact ⟨rfl, rfl⟩

/-- Two groups in a slab between vacuum: neutrons are born fast, slow down and cause fission when they are slow. -/
def slowMat : Mat ℚ := ⟨fun _ => 2, fun g => if g = 1 then 1 else 0, fun _ => 0, fun g => if g = 0 then 1 else 0, fun g h => if g = h then 1 else if g = 1 ∧ h = 0 then 1 / 2 else 0⟩

def slowProblem : Problem ℚ := ⟨2, 1, [⟨slowMat, [0]⟩], fun _ => 1⟩

def slowMoc (gs : Bool) : MocSetup ℚ :=
  ⟨fun x => 1 / (1 - x), 12, gs, ⟨fun c b _ a j => if c = a then 0 else b a j, fun _ _ _ _ => 0⟩, [⟨0, [⟨0, 1, 1, 1/2, [⟨[⟨0, 1⟩], 0, 0⟩]⟩]⟩], 1⟩

def slowState (f g : ℚ) : MocState ℚ := ⟨fun _ h => if h = 0 then f else g, fun _ => 7, fun _ => [fun _ _ => 0], [fun _ _ => 99]⟩

theorem slow_mirror (gs : Bool) : ∀ w ∈ (slowMoc gs).planes, PlaneOk 1 2 (fun _ => 1) w ∧
    Mirror 2 (fun _ => 1) (slowMoc gs).u w.angles (fun a _ => a) (fun _ _ => true) (fun a => 1 - a) (fun _ => 1 / 2) := by
  intro w hw
  simp only [slowMoc, List.mem_singleton] at hw
  subst hw
  refine ⟨⟨?_, ?_⟩, ?_⟩
  · intro w hw
    simp only [List.mem_singleton] at hw
    subst hw
    exact ⟨⟨by decide, by decide, by decide, by decide⟩, by decide, by decide, rfl⟩
  · intro a ha
    exact ⟨_, List.mem_singleton.mpr rfl, by simp only; omega⟩
  · exact
      { once := by unfold Once; decide
        angle := by
          intro w hw
          simp only [List.mem_singleton] at hw
          subst hw
          exact ⟨by decide, by decide, rfl⟩
        cover := by intro a ha; simp; omega
        ends := by
          intro w hw
          simp only [List.mem_singleton] at hw
          subst hw
          exact ⟨rfl, rfl⟩
        weight := by
          intro w hw
          simp only [List.mem_singleton] at hw
          subst hw
          exact ⟨rfl, rfl⟩
        lt := fun a ha _ _ => ha
        size := fun _ _ _ _ => rfl
        twice := fun _ _ _ _ => rfl
        same := fun _ _ _ _ => rfl
        revMir := fun _ _ _ _ => rfl
        revVac := fun _ _ _ _ => rfl
        all := fun _ _ _ _ _ _ => rfl
        one := fun c _ b o a _ j _ => rfl }

theorem slow_converged (p : Problem ℚ) (gs : Bool) (k f g : ℚ) (hp : p.ng = 2 ∧ p.nReg = 1)
    (hf : ((outer p (mocSweeper p (slowMoc gs)) k (slowState f g)).map fun r => (r.1, r.2.flux 0 0, r.2.flux 0 1)) = some (k, f, g)) :
    ∃ s', outer p (mocSweeper p (slowMoc gs)) k (slowState f g) = some (k, s') ∧ StateConverged p (slowMoc gs) 2 (fun _ => 1) (slowState f g) s' := by
  obtain ⟨⟨k', s'⟩, h1, h2⟩ := Option.map_eq_some_iff.mp hf
  simp only [Prod.mk.injEq] at h2
  obtain ⟨rfl, h3, h4⟩ := h2
  refine ⟨s', h1, ⟨fun _ _ => rfl, rfl⟩, ?_, ?_⟩
  · intro i hi g hg
    rw [hp.2] at hi
    rw [hp.1] at hg
    interval_cases i
    interval_cases g
    · exact h3
    · exact h4
  · have hsw : ∀ g src t, (mocSweeper p (slowMoc gs)).sweep g src t = mocInner p (slowMoc gs) g src t := fun g src t => rfl
    have key := loop_inv p (mocSweeper p (slowMoc gs)) (fun s => (∀ h, SameOn 2 (fun _ => 1) [fun _ _ => 0] (s.bin h)) ∧ s.bout.length = 1) (fun g _ src s hs => by
      obtain ⟨hs1, hs2⟩ := hs
      obtain ⟨o, ho⟩ := List.length_eq_one_iff.mp hs2
      rw [hsw]
      have hb := hs1 g
      obtain ⟨b, l, hb1, hb2, hb3⟩ := List.forall₂_cons_left_iff.mp hb
      rw [List.forall₂_nil_left_iff] at hb2
      subst hb2
      refine ⟨fun h => ?_, ?_⟩
      · by_cases hh : h = g
        · subst hh
          simp only [mocInner, if_true, hb3, ho, slowMoc, List.zip_cons_cons, List.zip_nil_right, Moc.sweep1g, Moc.sweepPlanes, List.map_cons, List.map_nil]
          refine List.Forall₂.cons (fun a ha j hj => ?_) List.Forall₂.nil
          cases gs with
          | false => simp [Moc.sweepPlane]
          | true =>
            simp only [Moc.sweepPlane, List.foldl_cons, List.foldl_nil, Moc.sweepAngle, if_true]
            split_ifs
            · rfl
            · rfl
            · omega
        · simp only [mocInner, if_neg hh]
          exact hs1 h
      · simp [mocInner, hb3, ho, slowMoc, Moc.sweep1g, Moc.sweepPlanes]) (calcFissionSource p.ng p.rs k' (slowState f g).flux) p.ng 0 (by omega)
    rw [outer] at h1
    obtain ⟨u, h5, h6⟩ := Option.map_eq_some_iff.mp h1
    rw [Prod.mk.injEq] at h6
    obtain ⟨-, rfl⟩ := h6
    have := key _ _ h5 ⟨fun h => List.Forall₂.cons (fun _ _ _ _ => rfl) List.Forall₂.nil, rfl⟩
    exact fun g _ => this.1 g

/-- The hypotheses of `C155_k` hold for it and the transposed data, with both updates of the boundary values. -/
example (gs : Bool) : (∃ s', outer slowProblem (mocSweeper slowProblem (slowMoc gs)) (1225 / 2738) (slowState 74 35) = some (1225 / 2738, s') ∧
      StateConverged slowProblem (slowMoc gs) 2 (fun _ => 1) (slowState 74 35) s') ∧
    (∃ a', outer (transposed slowProblem) (mocSweeper (transposed slowProblem) (slowMoc gs)) (1225 / 2738) (slowState 35 74) = some (1225 / 2738, a') ∧
      StateConverged (transposed slowProblem) (slowMoc gs) 2 (fun _ => 1) (slowState 35 74) a') ∧
    overlap slowProblem (slowState 74 35).flux (slowState 35 74).flux = 1225 ∧ Partition slowProblem.rs ∧
    (∀ i, i < slowProblem.nReg ↔ ∃ x ∈ slowProblem.rs, i ∈ x.regs) ∧ (∀ x ∈ slowProblem.rs, Source.NonNeg slowProblem.ng x.mat) := by
  refine ⟨slow_converged _ gs _ _ _ ⟨rfl, rfl⟩ (by cases gs <;> decide +kernel), slow_converged _ gs _ _ _ ⟨rfl, rfl⟩ (by cases gs <;> decide +kernel), by decide +kernel,
    ⟨by decide, by simp [slowProblem]⟩, fun i => by simp [slowProblem], ?_⟩
  intro x hx a b _ _
  simp only [slowProblem, List.mem_singleton] at hx
  subst hx
  simp only [slowMat]
  split_ifs <;> norm_num

/-- The hypotheses of `C155_fixed` hold: a fast source of 74 gives 70 fast and 1225/37 slow neutrons; a detector for slow neutrons (source 37 of the transposed
calculation) sees 1225 both ways. -/
example (gs : Bool) : let e : Ext ℚ := ⟨2, 2, fun _ g => if g = 0 then 74 else 0⟩
    let d : Ext ℚ := ⟨2, 2, fun _ g => if g = 0 then 0 else 37⟩
    ((fixedSteps slowProblem (mocSweeper slowProblem (slowMoc gs)) (some e) 1 (slowState 70 (1225 / 37))).map fun s => (s.flux 0 0, s.flux 0 1)) = some (70, 1225 / 37) ∧
    ((fixedSteps (transposed slowProblem) (mocSweeper (transposed slowProblem) (slowMoc gs)) (some d) 1 (slowState (1225 / 74) 35)).map fun s => (s.flux 0 0, s.flux 0 1)) =
      some (1225 / 74, 35) ∧
    response slowProblem (slowState 70 (1225 / 37)).flux (fun g _ => if g = 0 then 0 else 37) = 1225 ∧
    response slowProblem (slowState (1225 / 74) 35).flux (fun g _ => if g = 0 then 74 else 0) = 1225 := by
  refine ⟨?_, ?_, ?_, ?_⟩ <;> cases gs <;> decide +kernel

end Verif.Medium
