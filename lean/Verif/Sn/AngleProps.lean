import Verif.Sn.AngleModel
import Verif.Sn.SweepProps
import Verif.Par.Lemmas

/-!
# C35: the Sn sweep does not depend on the schedule
-/

set_option linter.unusedSectionVars false

namespace Verif.Sn

open Verif.Par
open Verif.Mesh (Dims coarseCell)

variable {K : Type} [Field K]

/-- The cell loops only add to the scalar flux, and nothing else depends on it. -/
def Additive {κ : Type} (f : State κ K → State κ K) : Prop :=
  ∀ s : State κ K, (f s).flux = (f ⟨s.flux, fun _ => 0, s.out⟩).flux ∧ (f s).out = (f ⟨s.flux, fun _ => 0, s.out⟩).out ∧
    ∀ i, (f s).tflux i = s.tflux i + (f ⟨s.flux, fun _ => 0, s.out⟩).tflux i

theorem additive_id {κ : Type} : Additive (fun s : State κ K => s) := fun s => ⟨rfl, rfl, fun i => by simp⟩

theorem additive_comp {κ : Type} (f g : State κ K → State κ K) (hf : Additive f) (hg : Additive g) :
    Additive (fun s => g (f s)) := by
  intro s
  obtain ⟨f1, f2, f3⟩ := hf s
  obtain ⟨g1, g2, g3⟩ := hg (f s)
  obtain ⟨h1, h2, h3⟩ := hg (f ⟨s.flux, fun _ => 0, s.out⟩)
  rw [f1, f2] at g1 g2 g3
  refine ⟨g1.trans h1.symm, g2.trans h2.symm, fun i => ?_⟩
  rw [g3 i, f3 i, h3 i, add_assoc]

theorem additive_fold {κ α : Type} (l : List α) (f : α → State κ K → State κ K) (hf : ∀ a, Additive (f a)) :
    Additive (fun s => l.foldl (fun s a => f a s) s) := by
  induction l with
  | nil => exact additive_id
  | cons a l ih =>
    have := additive_comp (f a) (fun s => l.foldl (fun s a => f a s) s) (hf a) ih
    exact this

theorem additive_cell {κ : Type} (wgt : K) (w : κ → Nat) (i : Nat) (ev : (κ → K) → K × (κ → K)) :
    Additive (cellStep wgt w i ev) := by
  intro s
  refine ⟨rfl, rfl, fun j => ?_⟩
  simp only [cellStep]
  split <;> ring

theorem additive_sweep3 (d : Dims) (nx ny nz : Bool) (wgt : K) (ev : Nat → Nat → Nat → (Ax3 → K) → K × (Ax3 → K)) :
    Additive (sweep3 d nx ny nz wgt ev) :=
  additive_fold (order d.nz nz) _ fun iz => additive_fold (order d.ny ny) _ fun iy => additive_fold (order d.nx nx) _ fun ix =>
    additive_cell wgt (slot3 d ix iy iz) (coarseCell d ⟨ix, iy, iz⟩) (ev ix iy iz)

theorem additive_sweep2 (d : Dims) (nx ny : Bool) (wgt : K) (ev : Nat → Nat → (Ax2 → K) → K × (Ax2 → K)) :
    Additive (sweep2 d nx ny wgt ev) :=
  additive_fold (order d.ny ny) _ fun iy => additive_fold (order d.nx nx) _ fun ix =>
    additive_cell wgt (slot2 ix iy) (coarseCell d ⟨ix, iy, 0⟩) (ev ix iy)

/-- What an ordinate adds to the scalar flux. -/
def gain {κ : Type} (bin : Nat → κ → Nat → K) (i : Nat) (o : Ordinate κ K) : K :=
  (o.sweep (start bin (fun _ => 0) o)).tflux i

theorem threadFlux_eq {κ : Type} (bin : Nat → κ → Nat → K) (os : List (Ordinate κ K)) (h : ∀ o ∈ os, Additive o.sweep)
    (i : Nat) : threadFlux bin os i = (os.map (gain bin i)).sum := by
  unfold threadFlux
  have key : ∀ (l : List (Ordinate κ K)) (t : Nat → K), (∀ o ∈ l, Additive o.sweep) →
      l.foldl (fun t o => (o.sweep (start bin t o)).tflux) t i = t i + (l.map (gain bin i)).sum := by
    intro l
    induction l with
    | nil => intros; simp
    | cons o l ih =>
      intro t h
      rw [List.foldl_cons, ih _ (fun x hx => h x (by simp [hx])), (h o (by simp) (start bin t o)).2.2 i, List.map_cons,
        List.sum_cons, add_assoc]
      rfl
  rw [key os _ h, zero_add]

theorem boundaryOut_eq {κ : Type} (bin bout : Nat → κ → Nat → K) (os : List (Ordinate κ K))
    (hn : (os.map Ordinate.iang).Nodup) :
    (∀ o ∈ os, boundaryOut bin os bout o.iang = (o.sweep (start bin (fun _ => 0) o)).flux) ∧
    (∀ a, a ∉ os.map Ordinate.iang → boundaryOut bin os bout a = bout a) := by
  unfold boundaryOut
  induction os generalizing bout with
  | nil => simp
  | cons o os ih =>
    rw [List.map_cons, List.nodup_cons] at hn
    obtain ⟨i1, i2⟩ := ih (fun a => if a = o.iang then (o.sweep (start bin (fun _ => 0) o)).flux else bout a) hn.2
    simp only [List.foldl_cons, List.mem_cons, List.map_cons, not_or]
    refine ⟨?_, ?_⟩
    · rintro x (rfl | hx)
      · rw [i2 _ hn.1]; simp
      · exact i1 x hx
    · rintro a ⟨h1, h2⟩
      rw [i2 a h2]; simp [h1]

theorem adds_at (l : List (Nat × K)) (c : Nat → K) (i : Nat) :
    l.foldl (fun c p => fun i => if i = p.1 then c i + p.2 else c i) c i =
      c i + (l.map (fun p => if i = p.1 then p.2 else 0)).sum := by
  induction l generalizing c with
  | nil => simp
  | cons p l ih =>
    rw [List.foldl_cons, ih, List.map_cons, List.sum_cons]
    split <;> simp [add_assoc]

/-- C35, Sn: for every number of threads, every distribution of the ordinates over them, every order of the boundary
writes, the reductions and the atomic additions, the scalar flux, the boundary values and the coarse data are those of
the serial sweep. -/
theorem C35_sn_sweep {κ : Type} (bin bout : Nat → κ → Nat → K) (cur : Nat → K)
    (upd : (Nat → κ → Nat → K) → (Nat → κ → Nat → K) → (Nat → κ → Nat → K)) (os : List (Ordinate κ K))
    (hn : (os.map Ordinate.iang).Nodup) (hadd : ∀ o ∈ os, Additive o.sweep)
    (T : Nat) (assign : Nat → List (Ordinate κ K)) (ha : Shares T assign os) (wr : List (Ordinate κ K)) (hw : wr.Perm os)
    (ord : List Nat) (ho : ord.Perm (List.range T)) (atomics : List (Nat × K)) (hat : atomics.Perm (allAdds bin os)) :
    parSweep bin bout cur upd assign wr ord atomics = serialSweep bin bout cur upd os := by
  have e1 : ord.foldl (fun f t i => f i + threadFlux bin (assign t) i) (fun _ => 0) =
      [0].foldl (fun f (_ : Nat) i => f i + threadFlux bin os i) (fun _ => (0 : K)) := by
    funext i
    have hf : ∀ (l : List Nat) (f : Nat → K), l.foldl (fun f t i => f i + threadFlux bin (assign t) i) f i =
        f i + (l.map (fun t => threadFlux bin (assign t) i)).sum := by
      intro l
      induction l with
      | nil => intro f; simp
      | cons a l ih => intro f; rw [List.foldl_cons, ih, List.map_cons, List.sum_cons, add_assoc]
    rw [hf, zero_add, List.foldl_cons, List.foldl_nil, zero_add, threadFlux_eq bin os hadd]
    have hm : ord.map (fun t => threadFlux bin (assign t) i) = ord.map (fun t => ((assign t).map (gain bin i)).sum) := by
      apply List.map_congr_left
      intro t ht
      apply threadFlux_eq
      intro o hoA
      apply hadd o
      apply ha.mem_iff.mp
      rw [List.mem_flatMap]
      exact ⟨t, ho.mem_iff.mp ht, hoA⟩
    rw [hm, shares_sum T assign os ha ord ho]
  have e2 : boundaryOut bin wr bout = boundaryOut bin os bout := by
    have hn' : (wr.map Ordinate.iang).Nodup := (hw.map _).nodup_iff.mpr hn
    obtain ⟨a1, a2⟩ := boundaryOut_eq bin bout os hn
    obtain ⟨b1, b2⟩ := boundaryOut_eq bin bout wr hn'
    funext a
    by_cases h : a ∈ os.map Ordinate.iang
    · obtain ⟨o, hoM, rfl⟩ := List.mem_map.mp h
      rw [a1 o hoM, b1 o (hw.mem_iff.mpr hoM)]
    · rw [a2 a h, b2 a (fun h' => h ((hw.map _).mem_iff.mp h'))]
  have e3 : atomics.foldl (fun c p => fun i => if i = p.1 then c i + p.2 else c i) cur =
      (allAdds bin os).foldl (fun c p => fun i => if i = p.1 then c i + p.2 else c i) cur := by
    funext i
    rw [adds_at, adds_at, (hat.map _).sum_eq]
  simp only [parSweep, serialSweep, e1, e2, e3]

/-- Two ordinates on a one-cell mesh shared out over two threads, reduced in reverse order, meet the hypotheses. -/
example :
    let o : Nat → Ordinate Ax3 ℚ := fun n => ⟨n, sweep3 ⟨1, 1, 1⟩ (n = 1) false false 1 (fun _ _ _ f => (f .x, f)), fun _ _ => [(0, 1)]⟩
    Shares 2 (fun t => [o t]) [o 1, o 0] ∧ [1, 0].Perm (List.range 2) ∧ ([o 1, o 0].map Ordinate.iang).Nodup ∧
    ∀ x ∈ [o 1, o 0], Additive x.sweep := by
  refine ⟨?_, by decide, by decide, ?_⟩
  · exact List.Perm.swap _ _ _
  · intro x hx
    simp only [List.mem_cons, List.not_mem_nil, or_false] at hx
    rcases hx with rfl | rfl <;> exact additive_sweep3 _ _ _ _ _ _

end Verif.Sn
