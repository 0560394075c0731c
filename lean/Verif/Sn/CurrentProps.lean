import Verif.Sn.CurrentModel
import Verif.Sn.SweepProps
import Verif.Mesh.Props
import Mathlib.Algebra.BigOperators.Group.Finset.Basic
import Mathlib.Algebra.BigOperators.Intervals
import Mathlib.Tactic.Ring
import Mathlib.Tactic.FieldSimp
import Mathlib.Tactic.Linarith

/-! # C77: coarse currents of the Sn sweep -/

namespace Verif.Sn

open Verif.Mesh Verif.Mesh.Spec Finset

variable {K : Type} [Field K] [LinearOrder K]

theorem foldl_plus {ι : Type} (f : (Nat → K) → ι → Nat → K) (g : ι → K) (j : Nat) (h : ∀ cur i, f cur i j = cur j + g i) :
    ∀ (l : List ι) (cur : Nat → K), l.foldl f cur j = cur j + (l.map g).sum
  | [], cur => by simp
  | i :: l, cur => by
    rw [List.foldl_cons, foldl_plus f g j h l, h, List.map_cons, List.sum_cons]
    ring

theorem order_sum (n : Nat) (neg : Bool) (g : Nat → K) : ((order n neg).map g).sum = ∑ i ∈ range n, g i := by
  have h : ((List.range n).map g).sum = ∑ i ∈ range n, g i := by
    induction n with
    | zero => simp
    | succ n ih => rw [List.range_succ, List.map_append, List.sum_append, ih, Finset.sum_range_succ]; simp
  unfold order
  split
  · rw [List.map_reverse, List.sum_reverse, h]
  · exact h

theorem range_sum (n : Nat) (g : Nat → K) : ((List.range n).map g).sum = ∑ i ∈ range n, g i := order_sum n false g

theorem bump_eq (cur : Nat → K) (n : Option Nat) (v : K) (j : Nat) : bump cur n v j = cur j + if n = some j then v else 0 := by
  unfold bump; split <;> simp

theorem foldl2_bump (m n : Nat) (s : Nat → Nat → Option Nat) (v : Nat → Nat → K) (cur : Nat → K) (j : Nat) :
    (List.range m).foldl (fun cur p => (List.range n).foldl (fun cur q => bump cur (s p q) (v p q)) cur) cur j =
      cur j + ∑ p ∈ range m, ∑ q ∈ range n, if s p q = some j then v p q else 0 := by
  rw [foldl_plus _ (fun p => ∑ q ∈ range n, if s p q = some j then v p q else 0) j, range_sum]
  intro cur p
  rw [foldl_plus _ (fun q => if s p q = some j then v p q else 0) j (fun cur q => bump_eq _ _ _ _), range_sum]

/-- The current at a surface after an ordinate as sum. -/
theorem sweepCurrent_sum (d : Dims) (hpi : K) (a : Ray3 K) (b : Ax3 → Nat → K) (out : Nat → K × (Ax3 → K)) (cur : Nat → K) (j : Nat) :
    sweepCurrent d hpi a b out cur j = cur j +
      (∑ iz ∈ range d.nz, ∑ iy ∈ range d.ny, if coarseSurf d (coarseCell d ⟨if a.ox < 0 then d.nx - 1 else 0, iy, iz⟩) (upwindSurf a .x) = some j
        then a.ox * (a.weight * hpi) * b .x (d.ny * iz + iy) else 0) +
      (∑ iz ∈ range d.nz, ∑ ix ∈ range d.nx, if coarseSurf d (coarseCell d ⟨ix, if a.oy < 0 then d.ny - 1 else 0, iz⟩) (upwindSurf a .y) = some j
        then a.oy * (a.weight * hpi) * b .y (d.nx * iz + ix) else 0) +
      (∑ iy ∈ range d.ny, ∑ ix ∈ range d.nx, if coarseSurf d (coarseCell d ⟨ix, iy, if a.oz < 0 then d.nz - 1 else 0⟩) (upwindSurf a .z) = some j
        then a.oz * (a.weight * hpi) * b .z (d.nx * iy + ix) else 0) +
      ∑ iz ∈ range d.nz, ∑ iy ∈ range d.ny, ∑ ix ∈ range d.nx,
        ((if coarseSurf d (coarseCell d ⟨ix, iy, iz⟩) (downwind a .x) = some j then (out (coarseCell d ⟨ix, iy, iz⟩)).2 .x * (a.ox * (a.weight * hpi)) else 0) +
         (if coarseSurf d (coarseCell d ⟨ix, iy, iz⟩) (downwind a .y) = some j then (out (coarseCell d ⟨ix, iy, iz⟩)).2 .y * (a.oy * (a.weight * hpi)) else 0) +
         (if coarseSurf d (coarseCell d ⟨ix, iy, iz⟩) (downwind a .z) = some j then (out (coarseCell d ⟨ix, iy, iz⟩)).2 .z * (a.oz * (a.weight * hpi)) else 0)) := by
  unfold sweepCurrent
  rw [foldl_plus _ _ j (fun cur iz => foldl_plus _ _ j (fun cur iy => foldl_plus _ _ j (fun cur ix => by
    show currentWork d hpi a _ _ cur j = cur j + _
    unfold currentWork
    simp only [bump_eq, add_assoc]
    rfl) _ cur) _ cur)]
  simp only [order_sum]
  unfold upwindWork
  rw [foldl2_bump, foldl2_bump, foldl2_bump]
  simp only [add_assoc]

/-- A surface has the number of the face exactly if it is the face. -/
theorem surf_iff (d : Dims) (f : Face) (hf : f.Valid d.nx d.ny d.nz) (ix iy iz : Nat) (hx : ix < d.nx) (hy : iy < d.ny) (hz : iz < d.nz) (s : Surface)
    (hs : s ≠ .INTERNAL) : coarseSurf d (coarseCell d ⟨ix, iy, iz⟩) s = some (enc d f) ↔ faceOf ix iy iz s = some f := by
  obtain ⟨g, hg⟩ : ∃ g, faceOf ix iy iz s = some g := by cases s <;> simp [faceOf] at hs ⊢
  rw [coarseSurf_enc d ix iy iz s g hg hx hy hz, hg]
  constructor
  · intro h
    rw [enc_inj d g f (faceOf_valid d ix iy iz s g hg hx hy hz) hf (Option.some.inj h)]
  · intro h; rw [Option.some.inj h]

theorem sum2_single (m n : Nat) (P : Nat → Nat → Prop) [∀ x y, Decidable (P x y)] (g : Nat → Nat → K) (a b : Nat) (h : ∀ x < m, ∀ y < n, P x y → x = a ∧ y = b) :
    (∑ x ∈ range m, ∑ y ∈ range n, if P x y then g x y else 0) = if a < m ∧ b < n ∧ P a b then g a b else 0 := by
  by_cases hab : a < m ∧ b < n ∧ P a b
  · obtain ⟨h1, h2, h3⟩ := hab
    rw [if_pos ⟨h1, h2, h3⟩, Finset.sum_eq_single a, Finset.sum_eq_single b, if_pos h3]
    · intro y hy hne
      rw [if_neg (fun hp => hne (h a h1 y (by simpa using hy) hp).2)]
    · intro hn; simp [h2] at hn
    · intro x hx hne
      refine Finset.sum_eq_zero fun y hy => ?_
      rw [if_neg (fun hp => hne (h x (by simpa using hx) y (by simpa using hy) hp).1)]
    · intro hn; simp [h1] at hn
  · rw [if_neg hab]
    refine Finset.sum_eq_zero fun x hx => Finset.sum_eq_zero fun y hy => ?_
    rw [if_neg]
    intro hp
    obtain ⟨rfl, rfl⟩ := h x (by simpa using hx) y (by simpa using hy) hp
    exact hab ⟨by simpa using hx, by simpa using hy, hp⟩

theorem sum3_single (l m n : Nat) (P : Nat → Nat → Nat → Prop) [∀ z x y, Decidable (P z x y)] (g : Nat → Nat → Nat → K) (c a b : Nat)
    (h : ∀ z < l, ∀ x < m, ∀ y < n, P z x y → z = c ∧ x = a ∧ y = b) :
    (∑ z ∈ range l, ∑ x ∈ range m, ∑ y ∈ range n, if P z x y then g z x y else 0) = if c < l ∧ a < m ∧ b < n ∧ P c a b then g c a b else 0 := by
  have h1 : ∀ z ∈ range l, (∑ x ∈ range m, ∑ y ∈ range n, if P z x y then g z x y else 0) = if a < m ∧ b < n ∧ P z a b then g z a b else 0 := by
    intro z hz
    exact sum2_single m n (P z) (g z) a b (fun x hx y hy hp => (h z (by simpa using hz) x hx y hy hp).2)
  rw [Finset.sum_congr rfl h1]
  by_cases hc : c < l
  · rw [Finset.sum_eq_single c]
    · simp [hc]
    · intro z hz hne
      rw [if_neg]
      rintro ⟨h2, h3, h4⟩
      exact hne (h z (by simpa using hz) a h2 b h3 h4).1
    · intro hn; simp [hc] at hn
  · rw [if_neg (fun h => hc h.1)]
    refine Finset.sum_eq_zero fun z hz => ?_
    rw [if_neg]
    rintro ⟨h2, h3, h4⟩
    have := (h z (by simpa using hz) a h2 b h3 h4).1
    subst this
    exact hc (by simpa using hz)

/-- Component of the direction, and its angular flux at the face. -/
def comp (a : Ray3 K) : Axis → K
  | .x => a.ox
  | .y => a.oy
  | .z => a.oz

/-- The angular flux at a face: the boundary value where the ordinate enters the mesh, else what the cell before the face sends out. -/
def psiFace (d : Dims) (a : Ray3 K) (b : Ax3 → Nat → K) (out : Nat → K × (Ax3 → K)) (f : Face) : K :=
  match f.axis with
  | .x => if f.i = (if a.ox < 0 then d.nx else 0) then b .x (d.ny * f.k + f.j)
      else (out (coarseCell d ⟨if a.ox < 0 then f.i else f.i - 1, f.j, f.k⟩)).2 .x
  | .y => if f.j = (if a.oy < 0 then d.ny else 0) then b .y (d.nx * f.k + f.i)
      else (out (coarseCell d ⟨f.i, if a.oy < 0 then f.j else f.j - 1, f.k⟩)).2 .y
  | .z => if f.k = (if a.oz < 0 then d.nz else 0) then b .z (d.nx * f.j + f.i)
      else (out (coarseCell d ⟨f.i, f.j, if a.oz < 0 then f.k else f.k - 1⟩)).2 .z

theorem up_ne (a : Ray3 K) (x : Ax3) : upwindSurf a x ≠ .INTERNAL := by cases x <;> simp only [upwindSurf] <;> split <;> simp
theorem down_ne (a : Ray3 K) (x : Ax3) : downwind a x ≠ .INTERNAL := by cases x <;> simp only [downwind] <;> split <;> simp

/-- The sum over the cells in terms of faces. -/
theorem cells_sum (d : Dims) (f : Face) (hf : f.Valid d.nx d.ny d.nz) (s : Surface) (hs : s ≠ .INTERNAL) (v : Nat → Nat → Nat → K) :
    (∑ iz ∈ range d.nz, ∑ iy ∈ range d.ny, ∑ ix ∈ range d.nx, if coarseSurf d (coarseCell d ⟨ix, iy, iz⟩) s = some (enc d f) then v iz iy ix else 0) =
      ∑ iz ∈ range d.nz, ∑ iy ∈ range d.ny, ∑ ix ∈ range d.nx, if faceOf ix iy iz s = some f then v iz iy ix else 0 := by
  refine Finset.sum_congr rfl fun iz hz => Finset.sum_congr rfl fun iy hy => Finset.sum_congr rfl fun ix hx => ?_
  simp only [surf_iff d f hf ix iy iz (by simpa using hx) (by simpa using hy) (by simpa using hz) s hs]

theorem faces2_sum (d : Dims) (f : Face) (hf : f.Valid d.nx d.ny d.nz) (s : Surface) (hs : s ≠ .INTERNAL) (m n : Nat) (p : Nat → Nat → Pos)
    (hp : ∀ x < m, ∀ y < n, (p x y).x < d.nx ∧ (p x y).y < d.ny ∧ (p x y).z < d.nz) (v : Nat → Nat → K) :
    (∑ x ∈ range m, ∑ y ∈ range n, if coarseSurf d (coarseCell d (p x y)) s = some (enc d f) then v x y else 0) =
      ∑ x ∈ range m, ∑ y ∈ range n, if faceOf (p x y).x (p x y).y (p x y).z s = some f then v x y else 0 := by
  refine Finset.sum_congr rfl fun x hx => Finset.sum_congr rfl fun y hy => ?_
  obtain ⟨h1, h2, h3⟩ := hp x (by simpa using hx) y (by simpa using hy)
  have := surf_iff d f hf (p x y).x (p x y).y (p x y).z h1 h2 h3 s hs
  simp only [this]

/-- The current at a face after an ordinate: one contribution, the flux at the face times the component of the direction. -/
theorem sweepCurrent_face (d : Dims) (hx : 0 < d.nx) (hy : 0 < d.ny) (hz : 0 < d.nz) (hpi : K) (a : Ray3 K) (b : Ax3 → Nat → K)
    (out : Nat → K × (Ax3 → K)) (cur : Nat → K) (f : Face) (hf : f.Valid d.nx d.ny d.nz) :
    sweepCurrent d hpi a b out cur (enc d f) = cur (enc d f) + a.weight * hpi * comp a f.axis * psiFace d a b out f := by
  rw [sweepCurrent_sum]
  simp only [Finset.sum_add_distrib]
  rw [cells_sum d f hf _ (down_ne a .x), cells_sum d f hf _ (down_ne a .y), cells_sum d f hf _ (down_ne a .z),
    faces2_sum d f hf _ (up_ne a .x) _ _ (fun iz iy => ⟨if a.ox < 0 then d.nx - 1 else 0, iy, iz⟩) (by intro x h1 y h2; simp only; split_ifs <;> omega),
    faces2_sum d f hf _ (up_ne a .y) _ _ (fun iz ix => ⟨ix, if a.oy < 0 then d.ny - 1 else 0, iz⟩) (by intro x h1 y h2; simp only; split_ifs <;> omega),
    faces2_sum d f hf _ (up_ne a .z) _ _ (fun iy ix => ⟨ix, iy, if a.oz < 0 then d.nz - 1 else 0⟩) (by intro x h1 y h2; simp only; split_ifs <;> omega)]
  obtain ⟨ax, i, j, k⟩ := f
  have off : ∀ (x : Ax3) (ix iy iz : Nat), (match x with | .x => Axis.x | .y => .y | .z => .z) ≠ ax →
      faceOf ix iy iz (upwindSurf a x) ≠ some ⟨ax, i, j, k⟩ ∧ faceOf ix iy iz (downwind a x) ≠ some ⟨ax, i, j, k⟩ := by
    intro x ix iy iz hne
    cases x <;> simp only [upwindSurf, downwind] <;> split_ifs <;> simp only [faceOf, ne_eq, Option.some.injEq, Face.mk.injEq, not_and] <;>
      exact ⟨fun h => absurd h hne, fun h => absurd h hne⟩
  cases ax
  · obtain ⟨v1, v2, v3⟩ := hf
    simp only at v1 v2 v3
    have oy := fun ix iy iz => off .y ix iy iz (by simp)
    have oz := fun ix iy iz => off .z ix iy iz (by simp)
    simp only [(oy _ _ _).1, (oy _ _ _).2, (oz _ _ _).1, (oz _ _ _).2, if_false, Finset.sum_const_zero, add_zero]
    rcases lt_trichotomy a.ox 0 with h | h | h
    · have hn : ¬ 0 < a.ox := not_lt.mpr h.le
      simp only [upwindSurf, downwind, h, hn, if_true, if_false, faceOf, Option.some.injEq, Face.mk.injEq, true_and, comp, psiFace]
      rw [sum2_single _ _ _ _ k j (by intro z _ y _ hp; omega), sum3_single _ _ _ _ _ k j i (by intro z _ y _ x _ hp; omega)]
      by_cases hi : i = d.nx
      · rw [if_pos (by omega), if_neg (by omega), if_pos hi]; ring
      · rw [if_neg (by omega), if_pos (by omega), if_neg hi]; ring
    · simp [h, comp]
    · have hn : ¬ a.ox < 0 := not_lt.mpr h.le
      simp only [upwindSurf, downwind, h, hn, if_true, if_false, faceOf, Option.some.injEq, Face.mk.injEq, true_and, comp, psiFace]
      rw [sum2_single _ _ _ _ k j (by intro z _ y _ hp; omega), sum3_single _ _ _ _ _ k j (i - 1) (by intro z _ y _ x _ hp; omega)]
      by_cases hi : i = 0
      · rw [if_pos (by omega), if_neg (by omega), if_pos hi]; ring
      · rw [if_neg (by omega), if_pos (by omega), if_neg hi]; ring
  · obtain ⟨v1, v2, v3⟩ := hf
    simp only at v1 v2 v3
    have ox := fun ix iy iz => off .x ix iy iz (by simp)
    have oz := fun ix iy iz => off .z ix iy iz (by simp)
    simp only [(ox _ _ _).1, (ox _ _ _).2, (oz _ _ _).1, (oz _ _ _).2, if_false, Finset.sum_const_zero, add_zero, zero_add]
    rcases lt_trichotomy a.oy 0 with h | h | h
    · have hn : ¬ 0 < a.oy := not_lt.mpr h.le
      simp only [upwindSurf, downwind, h, hn, if_true, if_false, faceOf, Option.some.injEq, Face.mk.injEq, true_and, comp, psiFace]
      rw [sum2_single _ _ _ _ k i (by intro z _ y _ hp; omega), sum3_single _ _ _ _ _ k j i (by intro z _ y _ x _ hp; omega)]
      by_cases hi : j = d.ny
      · rw [if_pos (by omega), if_neg (by omega), if_pos hi]; ring
      · rw [if_neg (by omega), if_pos (by omega), if_neg hi]; ring
    · simp [h, comp]
    · have hn : ¬ a.oy < 0 := not_lt.mpr h.le
      simp only [upwindSurf, downwind, h, hn, if_true, if_false, faceOf, Option.some.injEq, Face.mk.injEq, true_and, comp, psiFace]
      rw [sum2_single _ _ _ _ k i (by intro z _ y _ hp; omega), sum3_single _ _ _ _ _ k (j - 1) i (by intro z _ y _ x _ hp; omega)]
      by_cases hi : j = 0
      · rw [if_pos (by omega), if_neg (by omega), if_pos hi]; ring
      · rw [if_neg (by omega), if_pos (by omega), if_neg hi]; ring
  · obtain ⟨v1, v2, v3⟩ := hf
    simp only at v1 v2 v3
    have ox := fun ix iy iz => off .x ix iy iz (by simp)
    have oy := fun ix iy iz => off .y ix iy iz (by simp)
    simp only [(ox _ _ _).1, (ox _ _ _).2, (oy _ _ _).1, (oy _ _ _).2, if_false, Finset.sum_const_zero, add_zero, zero_add]
    rcases lt_trichotomy a.oz 0 with h | h | h
    · have hn : ¬ 0 < a.oz := not_lt.mpr h.le
      simp only [upwindSurf, downwind, h, hn, if_true, if_false, faceOf, Option.some.injEq, Face.mk.injEq, true_and, comp, psiFace]
      rw [sum2_single _ _ _ _ j i (by intro z _ y _ hp; omega), sum3_single _ _ _ _ _ k j i (by intro z _ y _ x _ hp; omega)]
      by_cases hi : k = d.nz
      · rw [if_pos (by omega), if_neg (by omega), if_pos hi]; ring
      · rw [if_neg (by omega), if_pos (by omega), if_neg hi]; ring
    · simp [h, comp]
    · have hn : ¬ a.oz < 0 := not_lt.mpr h.le
      simp only [upwindSurf, downwind, h, hn, if_true, if_false, faceOf, Option.some.injEq, Face.mk.injEq, true_and, comp, psiFace]
      rw [sum2_single _ _ _ _ j i (by intro z _ y _ hp; omega), sum3_single _ _ _ _ _ (k - 1) j i (by intro z _ y _ x _ hp; omega)]
      by_cases hi : k = 0
      · rw [if_pos (by omega), if_neg (by omega), if_pos hi]; ring
      · rw [if_neg (by omega), if_pos (by omega), if_neg hi]; ring

/-- What an ordinate carries through a face of a cell, in the positive direction of the axis, if the angular fluxes at the faces where it
enters the cell are `inc`, and where it leaves, `out`. -/
def carried (a : Ray3 K) (inc out : Ax3 → K) : Surface → K
  | .EAST => a.ox * (if a.ox < 0 then inc .x else out .x)
  | .WEST => a.ox * (if a.ox < 0 then out .x else inc .x)
  | .NORTH => a.oy * (if a.oy < 0 then inc .y else out .y)
  | .SOUTH => a.oy * (if a.oy < 0 then out .y else inc .y)
  | .TOP => a.oz * (if a.oz < 0 then inc .z else out .z)
  | .BOTTOM => a.oz * (if a.oz < 0 then out .z else inc .z)
  | .INTERNAL => 0

/-- C77: after an ordinate, the current of each of the six faces of each cell has grown by weight times direction times the angular flux at
the face with which the cell equation has been solved. -/
theorem C77_current (d : Dims) (hpi : K) (a : Ray3 K) (wgt : K) (ev : Nat → Nat → Nat → (Ax3 → K) → K × (Ax3 → K)) (s0 : State Ax3 K) (cur : Nat → K)
    (ix iy iz : Nat) (hx : ix < d.nx) (hy : iy < d.ny) (hz : iz < d.nz) (s : Surface) (hs : s ≠ .INTERNAL) (n : Nat)
    (hn : coarseSurf d (coarseCell d ⟨ix, iy, iz⟩) s = some n) :
    let r := sweep3 d (a.ox < 0) (a.oy < 0) (a.oz < 0) wgt ev s0
    sweepCurrent d hpi a s0.flux r.out cur n = cur n + a.weight * hpi *
      carried a (incoming3 d (a.ox < 0) (a.oy < 0) (a.oz < 0) s0.flux r.out ix iy iz) (r.out (coarseCell d ⟨ix, iy, iz⟩)).2 s := by
  intro r
  obtain ⟨f, hf⟩ : ∃ f, faceOf ix iy iz s = some f := by cases s <;> simp [faceOf] at hs ⊢
  have hv := faceOf_valid d ix iy iz s f hf hx hy hz
  rw [coarseSurf_enc d ix iy iz s f hf hx hy hz] at hn
  rw [← Option.some.inj hn, sweepCurrent_face d (by omega) (by omega) (by omega) hpi a s0.flux r.out cur f hv, mul_assoc (a.weight * hpi)]
  congr 2
  cases s <;> simp only [faceOf, Option.some.injEq, reduceCtorEq] at hf <;> subst hf <;>
    simp only [comp, psiFace, carried, incoming3, upwind, decide_eq_true_eq] <;> congr 1
  · by_cases h : a.ox < 0
    · simp only [h, if_true]
      by_cases h2 : ix + 1 = d.nx
      · simp [h2]
      · simp [h2, show ix + 1 < d.nx by omega]
    · simp [h]
  · by_cases h : a.oy < 0
    · simp only [h, if_true]
      by_cases h2 : iy + 1 = d.ny
      · simp [h2]
      · simp [h2, show iy + 1 < d.ny by omega]
    · simp [h]
  · by_cases h : a.ox < 0
    · simp [h, show ix ≠ d.nx by omega]
    · simp only [h, if_false]
      by_cases h2 : ix = 0
      · simp [h2]
      · simp [h2]
  · by_cases h : a.oy < 0
    · simp [h, show iy ≠ d.ny by omega]
    · simp only [h, if_false]
      by_cases h2 : iy = 0
      · simp [h2]
      · simp [h2]
  · by_cases h : a.oz < 0
    · simp only [h, if_true]
      by_cases h2 : iz + 1 = d.nz
      · simp [h2]
      · simp [h2, show iz + 1 < d.nz by omega]
    · simp [h]
  · by_cases h : a.oz < 0
    · simp [h, show iz ≠ d.nz by omega]
    · simp only [h, if_false]
      by_cases h2 : iz = 0
      · simp [h2]
      · simp [h2]

/-- Net current out of a cell: the currents of its six faces times their areas. -/
def leakage (d : Dims) (dx dy dz : Nat → K) (cur : Nat → K) (ix iy iz : Nat) : K :=
  let at_ := fun s => match coarseSurf d (coarseCell d ⟨ix, iy, iz⟩) s with
    | some n => cur n
    | none => 0
  dy iy * dz iz * (at_ .EAST - at_ .WEST) + dx ix * dz iz * (at_ .NORTH - at_ .SOUTH) + dx ix * dy iy * (at_ .TOP - at_ .BOTTOM)

/-- Balance of a cell equation: leakage and collisions make up the source (C29). -/
def Solves [IsStrictOrderedRing K] (a : Ray3 K) (dx dy dz xstr q : K) (ev : (Ax3 → K) → K × (Ax3 → K)) : Prop :=
  ∀ f, |a.ox| / dx * ((ev f).2 .x - f .x) + |a.oy| / dy * ((ev f).2 .y - f .y) + |a.oz| / dz * ((ev f).2 .z - f .z) + xstr * (ev f).1 = q

/-- C77: the currents of an ordinate balance in each cell: the net current out of it is weight times volume times (source minus collisions). -/
theorem C77_balance [IsStrictOrderedRing K] (d : Dims) (hpi : K) (a : Ray3 K) (wgt : K) (ev : Nat → Nat → Nat → (Ax3 → K) → K × (Ax3 → K))
    (s0 : State Ax3 K) (cur : Nat → K) (dx dy dz : Nat → K) (xstr q : K) (ix iy iz : Nat) (hx : ix < d.nx) (hy : iy < d.ny) (hz : iz < d.nz)
    (hdx : dx ix ≠ 0) (hdy : dy iy ≠ 0) (hdz : dz iz ≠ 0) (hbal : Solves a (dx ix) (dy iy) (dz iz) xstr q (ev ix iy iz)) :
    let r := sweep3 d (a.ox < 0) (a.oy < 0) (a.oz < 0) wgt ev s0
    leakage d dx dy dz (sweepCurrent d hpi a s0.flux r.out cur) ix iy iz - leakage d dx dy dz cur ix iy iz =
      a.weight * hpi * (dx ix * dy iy * dz iz) * (q - xstr * (r.out (coarseCell d ⟨ix, iy, iz⟩)).1) := by
  intro r
  have hc := fun s hs n hn => C77_current d hpi a wgt ev s0 cur ix iy iz hx hy hz s hs n hn
  have hex : ∀ s, s ≠ Surface.INTERNAL → ∃ n, coarseSurf d (coarseCell d ⟨ix, iy, iz⟩) s = some n := by
    intro s hs
    obtain ⟨f, hf⟩ : ∃ f, faceOf ix iy iz s = some f := by cases s <;> simp [faceOf] at hs ⊢
    exact ⟨_, coarseSurf_enc d ix iy iz s f hf hx hy hz⟩
  obtain ⟨e, he⟩ := hex .EAST (by simp)
  obtain ⟨w, hw⟩ := hex .WEST (by simp)
  obtain ⟨n, hn⟩ := hex .NORTH (by simp)
  obtain ⟨s, hs⟩ := hex .SOUTH (by simp)
  obtain ⟨t, ht⟩ := hex .TOP (by simp)
  obtain ⟨b, hb⟩ := hex .BOTTOM (by simp)
  have h1 := hc .EAST (by simp) e he
  have h2 := hc .WEST (by simp) w hw
  have h3 := hc .NORTH (by simp) n hn
  have h4 := hc .SOUTH (by simp) s hs
  have h5 := hc .TOP (by simp) t ht
  have h6 := hc .BOTTOM (by simp) b hb
  simp only [leakage, he, hw, hn, hs, ht, hb]
  rw [h1, h2, h3, h4, h5, h6]
  have hup := (C30_upwind d (a.ox < 0) (a.oy < 0) (a.oz < 0) wgt ev s0 ix iy iz hx hy hz).1
  have hbal' := hbal (incoming3 d (a.ox < 0) (a.oy < 0) (a.oz < 0) s0.flux r.out ix iy iz)
  rw [← hup] at hbal'
  generalize incoming3 d (a.ox < 0) (a.oy < 0) (a.oz < 0) s0.flux r.out ix iy iz = inc at hbal' ⊢
  generalize hout : r.out (coarseCell d ⟨ix, iy, iz⟩) = out at hbal' ⊢
  have dif : ∀ (o i' o' : K), o * (if o < 0 then i' else o') - o * (if o < 0 then o' else i') = |o| * (o' - i') := by
    intro o i' o'
    split_ifs with h
    · rw [abs_of_neg h]; ring
    · rw [abs_of_nonneg (not_lt.mp h)]; ring
  have d1 := dif a.ox (inc .x) (out.2 .x)
  have d2 := dif a.oy (inc .y) (out.2 .y)
  have d3 := dif a.oz (inc .z) (out.2 .z)
  simp only [carried]
  rw [← hbal']
  have key : dx ix * dy iy * dz iz * (|a.ox| / dx ix * (out.2 .x - inc .x) + |a.oy| / dy iy * (out.2 .y - inc .y) + |a.oz| / dz iz * (out.2 .z - inc .z)) =
      dy iy * dz iz * (|a.ox| * (out.2 .x - inc .x)) + dx ix * dz iz * (|a.oy| * (out.2 .y - inc .y)) + dx ix * dy iy * (|a.oz| * (out.2 .z - inc .z)) := by
    field_simp
  linear_combination (a.weight * hpi) * (dy iy * dz iz * d1 + dx ix * dz iz * d2 + dx ix * dy iy * d3) - a.weight * hpi * key

/-- C77: the currents of a sweep over any ordinates balance in each cell with the scalar flux of that sweep. -/
theorem C77_total [IsStrictOrderedRing K] (d : Dims) (hpi : K) (dx dy dz : Nat → K) (xstr : K) (ix iy iz : Nat) (hx : ix < d.nx) (hy : iy < d.ny)
    (hz : iz < d.nz) (hdx : dx ix ≠ 0) (hdy : dy iy ≠ 0) (hdz : dz iz ≠ 0) (q : Sweep3 K → K) : ∀ (os : List (Sweep3 K)) (phi cur : Nat → K),
    (∀ o ∈ os, Solves o.ray (dx ix) (dy iy) (dz iz) xstr (q o) (o.ev ix iy iz)) →
    leakage d dx dy dz (sweepAll d hpi os (phi, cur)).2 ix iy iz - leakage d dx dy dz cur ix iy iz =
      dx ix * dy iy * dz iz * ((os.map fun o => o.ray.weight * hpi * q o).sum -
        xstr * ((sweepAll d hpi os (phi, cur)).1 (coarseCell d ⟨ix, iy, iz⟩) - phi (coarseCell d ⟨ix, iy, iz⟩)))
  | [], phi, cur, _ => by simp [sweepAll]
  | o :: rest, phi, cur, h => by
    let s0 : State Ax3 K := ⟨o.b, phi, fun _ => (0, fun _ => 0)⟩
    let r := sweep3 d (o.ray.ox < 0) (o.ray.oy < 0) (o.ray.oz < 0) (o.ray.weight * hpi) o.ev s0
    have ih := C77_total d hpi dx dy dz xstr ix iy iz hx hy hz hdx hdy hdz q rest r.tflux (sweepCurrent d hpi o.ray o.b r.out cur)
      (fun o' ho' => h o' (List.mem_cons_of_mem _ ho'))
    have h1 := C77_balance d hpi o.ray (o.ray.weight * hpi) o.ev s0 cur dx dy dz xstr (q o) ix iy iz hx hy hz hdx hdy hdz (h o (by simp))
    have h2 := (C30_upwind d (o.ray.ox < 0) (o.ray.oy < 0) (o.ray.oz < 0) (o.ray.weight * hpi) o.ev s0 ix iy iz hx hy hz).2
    simp only at h1 h2
    have hstep : sweepAll d hpi (o :: rest) (phi, cur) = sweepAll d hpi rest (r.tflux, sweepCurrent d hpi o.ray o.b r.out cur) := rfl
    rw [hstep, List.map_cons, List.sum_cons]
    change r.tflux _ = phi _ + (r.out _).1 * _ at h2
    change leakage d dx dy dz (sweepCurrent d hpi o.ray o.b r.out cur) ix iy iz - _ = _ * (_ - xstr * (r.out _).1) at h1
    rw [h2] at ih
    linear_combination ih + h1

/-! ### Two dimensions -/

theorem sweepCurrent2_sum (d : Dims) (pi : K) (a : Ray3 K) (b : Ax2 → Nat → K) (out : Nat → K × (Ax2 → K)) (cur : Nat → K) (j : Nat) :
    sweepCurrent2 d pi a b out cur j = cur j +
      (∑ iz ∈ range 1, ∑ iy ∈ range d.ny, if coarseSurf d (coarseCell d ⟨if a.ox < 0 then d.nx - 1 else 0, iy, iz⟩) (upwindSurf a .x) = some j
        then a.ox * (a.weight * pi) * b .x iy else 0) +
      (∑ iz ∈ range 1, ∑ ix ∈ range d.nx, if coarseSurf d (coarseCell d ⟨ix, if a.oy < 0 then d.ny - 1 else 0, iz⟩) (upwindSurf a .y) = some j
        then a.oy * (a.weight * pi) * b .y ix else 0) +
      ∑ iz ∈ range 1, ∑ iy ∈ range d.ny, ∑ ix ∈ range d.nx,
        ((if coarseSurf d (coarseCell d ⟨ix, iy, iz⟩) (downwind a .x) = some j then (out (coarseCell d ⟨ix, iy, iz⟩)).2 .x * (a.ox * (a.weight * pi)) else 0) +
         (if coarseSurf d (coarseCell d ⟨ix, iy, iz⟩) (downwind a .y) = some j then (out (coarseCell d ⟨ix, iy, iz⟩)).2 .y * (a.oy * (a.weight * pi)) else 0)) := by
  unfold sweepCurrent2
  have hin : ∀ (iy ix : Nat) (cur : Nat → K), currentWork2 d pi a (out (coarseCell d ⟨ix, iy, 0⟩)).2 (coarseCell d ⟨ix, iy, 0⟩) cur j = cur j +
      ((if coarseSurf d (coarseCell d ⟨ix, iy, 0⟩) (downwind a .x) = some j then (out (coarseCell d ⟨ix, iy, 0⟩)).2 .x * (a.ox * (a.weight * pi)) else 0) +
       (if coarseSurf d (coarseCell d ⟨ix, iy, 0⟩) (downwind a .y) = some j then (out (coarseCell d ⟨ix, iy, 0⟩)).2 .y * (a.oy * (a.weight * pi)) else 0)) := by
    intro iy ix cur
    unfold currentWork2
    simp only [bump_eq, add_assoc]
  rw [foldl_plus _ _ j (fun cur iy => foldl_plus _ _ j (fun cur ix => hin iy ix cur) _ cur)]
  simp only [order_sum, Finset.sum_range_one]
  unfold upwindWork2
  rw [foldl_plus _ (fun ix => if coarseSurf d (coarseCell d ⟨ix, if a.oy < 0 then d.ny - 1 else 0, 0⟩) (upwindSurf a .y) = some j
        then a.oy * (a.weight * pi) * b .y ix else 0) j (fun cur ix => bump_eq _ _ _ _),
    foldl_plus _ (fun iy => if coarseSurf d (coarseCell d ⟨if a.ox < 0 then d.nx - 1 else 0, iy, 0⟩) (upwindSurf a .x) = some j
        then a.ox * (a.weight * pi) * b .x iy else 0) j (fun cur iy => bump_eq _ _ _ _)]
  simp only [range_sum]

/-- The angular flux at a face in two dimensions. -/
def psiFace2 (d : Dims) (a : Ray3 K) (b : Ax2 → Nat → K) (out : Nat → K × (Ax2 → K)) (f : Face) : K :=
  match f.axis with
  | .x => if f.i = (if a.ox < 0 then d.nx else 0) then b .x f.j
      else (out (coarseCell d ⟨if a.ox < 0 then f.i else f.i - 1, f.j, f.k⟩)).2 .x
  | .y => if f.j = (if a.oy < 0 then d.ny else 0) then b .y f.i
      else (out (coarseCell d ⟨f.i, if a.oy < 0 then f.j else f.j - 1, f.k⟩)).2 .y
  | .z => 0

theorem sweepCurrent2_face (d : Dims) (hx : 0 < d.nx) (hy : 0 < d.ny) (hz : d.nz = 1) (pi : K) (a : Ray3 K) (b : Ax2 → Nat → K)
    (out : Nat → K × (Ax2 → K)) (cur : Nat → K) (f : Face) (hf : f.Valid d.nx d.ny d.nz) :
    sweepCurrent2 d pi a b out cur (enc d f) = cur (enc d f) + a.weight * pi * comp a f.axis * psiFace2 d a b out f := by
  rw [sweepCurrent2_sum]
  rw [show range 1 = range d.nz by rw [hz]]
  simp only [Finset.sum_add_distrib]
  rw [cells_sum d f hf _ (down_ne a .x), cells_sum d f hf _ (down_ne a .y),
    faces2_sum d f hf _ (up_ne a .x) _ _ (fun iz iy => ⟨if a.ox < 0 then d.nx - 1 else 0, iy, iz⟩) (by intro x h1 y h2; simp only; split_ifs <;> omega),
    faces2_sum d f hf _ (up_ne a .y) _ _ (fun iz ix => ⟨ix, if a.oy < 0 then d.ny - 1 else 0, iz⟩) (by intro x h1 y h2; simp only; split_ifs <;> omega)]
  obtain ⟨ax, i, j, k⟩ := f
  have off : ∀ (x : Ax3) (ix iy iz : Nat), (match x with | .x => Axis.x | .y => .y | .z => .z) ≠ ax →
      faceOf ix iy iz (upwindSurf a x) ≠ some ⟨ax, i, j, k⟩ ∧ faceOf ix iy iz (downwind a x) ≠ some ⟨ax, i, j, k⟩ := by
    intro x ix iy iz hne
    cases x <;> simp only [upwindSurf, downwind] <;> split_ifs <;> simp only [faceOf, ne_eq, Option.some.injEq, Face.mk.injEq, not_and] <;>
      exact ⟨fun h => absurd h hne, fun h => absurd h hne⟩
  cases ax
  · obtain ⟨v1, v2, v3⟩ := hf
    simp only at v1 v2 v3
    have oo := fun ix iy iz => off .y ix iy iz (by simp)
    simp only [(oo _ _ _).1, (oo _ _ _).2, if_false, Finset.sum_const_zero, add_zero, zero_add]
    rcases lt_trichotomy a.ox 0 with h | h | h
    · have hn : ¬ 0 < a.ox := not_lt.mpr h.le
      simp only [upwindSurf, downwind, h, hn, if_true, if_false, faceOf, Option.some.injEq, Face.mk.injEq, true_and, comp, psiFace2]
      rw [sum2_single _ _ _ _ k j (by intro z _ y _ hp; omega), sum3_single _ _ _ _ _ k j i (by intro z _ y _ x _ hp; omega)]
      by_cases hi : i = d.nx
      · rw [if_pos (by omega), if_neg (by omega), if_pos hi]; ring
      · rw [if_neg (by omega), if_pos (by omega), if_neg hi]; ring
    · simp [h, comp]
    · have hn : ¬ a.ox < 0 := not_lt.mpr h.le
      simp only [upwindSurf, downwind, h, hn, if_true, if_false, faceOf, Option.some.injEq, Face.mk.injEq, true_and, comp, psiFace2]
      rw [sum2_single _ _ _ _ k j (by intro z _ y _ hp; omega), sum3_single _ _ _ _ _ k j (i - 1) (by intro z _ y _ x _ hp; omega)]
      by_cases hi : i = 0
      · rw [if_pos (by omega), if_neg (by omega), if_pos hi]; ring
      · rw [if_neg (by omega), if_pos (by omega), if_neg hi]; ring
  · obtain ⟨v1, v2, v3⟩ := hf
    simp only at v1 v2 v3
    have oo := fun ix iy iz => off .x ix iy iz (by simp)
    simp only [(oo _ _ _).1, (oo _ _ _).2, if_false, Finset.sum_const_zero, add_zero, zero_add]
    rcases lt_trichotomy a.oy 0 with h | h | h
    · have hn : ¬ 0 < a.oy := not_lt.mpr h.le
      simp only [upwindSurf, downwind, h, hn, if_true, if_false, faceOf, Option.some.injEq, Face.mk.injEq, true_and, comp, psiFace2]
      rw [sum2_single _ _ _ _ k i (by intro z _ y _ hp; omega), sum3_single _ _ _ _ _ k j i (by intro z _ y _ x _ hp; omega)]
      by_cases hi : j = d.ny
      · rw [if_pos (by omega), if_neg (by omega), if_pos hi]; ring
      · rw [if_neg (by omega), if_pos (by omega), if_neg hi]; ring
    · simp [h, comp]
    · have hn : ¬ a.oy < 0 := not_lt.mpr h.le
      simp only [upwindSurf, downwind, h, hn, if_true, if_false, faceOf, Option.some.injEq, Face.mk.injEq, true_and, comp, psiFace2]
      rw [sum2_single _ _ _ _ k i (by intro z _ y _ hp; omega), sum3_single _ _ _ _ _ k (j - 1) i (by intro z _ y _ x _ hp; omega)]
      by_cases hi : j = 0
      · rw [if_pos (by omega), if_neg (by omega), if_pos hi]; ring
      · rw [if_neg (by omega), if_pos (by omega), if_neg hi]; ring
  · have ox := fun ix iy iz => off .x ix iy iz (by simp)
    have oy := fun ix iy iz => off .y ix iy iz (by simp)
    simp only [(ox _ _ _).1, (ox _ _ _).2, (oy _ _ _).1, (oy _ _ _).2, if_false, Finset.sum_const_zero, add_zero, psiFace2, mul_zero]

/-- What an ordinate carries through a face of a cell in two dimensions. -/
def carried2 (a : Ray3 K) (inc out : Ax2 → K) : Surface → K
  | .EAST => a.ox * (if a.ox < 0 then inc .x else out .x)
  | .WEST => a.ox * (if a.ox < 0 then out .x else inc .x)
  | .NORTH => a.oy * (if a.oy < 0 then inc .y else out .y)
  | .SOUTH => a.oy * (if a.oy < 0 then out .y else inc .y)
  | _ => 0

/-- C77 in two dimensions; the axial currents are left as they are. -/
theorem C77_current_2d (d : Dims) (h1 : d.nz = 1) (pi : K) (a : Ray3 K) (wgt : K) (ev : Nat → Nat → (Ax2 → K) → K × (Ax2 → K)) (s0 : State Ax2 K)
    (cur : Nat → K) (ix iy : Nat) (hx : ix < d.nx) (hy : iy < d.ny) (s : Surface) (hs : s ≠ .INTERNAL) (n : Nat)
    (hn : coarseSurf d (coarseCell d ⟨ix, iy, 0⟩) s = some n) :
    let r := sweep2 d (a.ox < 0) (a.oy < 0) wgt ev s0
    sweepCurrent2 d pi a s0.flux r.out cur n = cur n + a.weight * pi *
      carried2 a (incoming2 d (a.ox < 0) (a.oy < 0) s0.flux r.out ix iy) (r.out (coarseCell d ⟨ix, iy, 0⟩)).2 s := by
  intro r
  obtain ⟨f, hf⟩ : ∃ f, faceOf ix iy 0 s = some f := by cases s <;> simp [faceOf] at hs ⊢
  have hv := faceOf_valid d ix iy 0 s f hf hx hy (by omega)
  rw [coarseSurf_enc d ix iy 0 s f hf hx hy (by omega)] at hn
  rw [← Option.some.inj hn, sweepCurrent2_face d (by omega) (by omega) h1 pi a s0.flux r.out cur f hv, mul_assoc (a.weight * pi)]
  congr 2
  cases s <;> simp only [faceOf, Option.some.injEq, reduceCtorEq] at hf <;> subst hf <;>
    simp only [comp, psiFace2, carried2, incoming2, upwind, decide_eq_true_eq, mul_zero] <;> congr 1
  · by_cases h : a.ox < 0
    · simp only [h, if_true]
      by_cases h2 : ix + 1 = d.nx
      · simp [h2]
      · simp [h2, show ix + 1 < d.nx by omega]
    · simp [h]
  · by_cases h : a.oy < 0
    · simp only [h, if_true]
      by_cases h2 : iy + 1 = d.ny
      · simp [h2]
      · simp [h2, show iy + 1 < d.ny by omega]
    · simp [h]
  · by_cases h : a.ox < 0
    · simp [h, show ix ≠ d.nx by omega]
    · simp only [h, if_false]
      by_cases h2 : ix = 0
      · simp [h2]
      · simp [h2]
  · by_cases h : a.oy < 0
    · simp [h, show iy ≠ d.ny by omega]
    · simp only [h, if_false]
      by_cases h2 : iy = 0
      · simp [h2]
      · simp [h2]

/-- Balance of a cell equation in two dimensions. -/
def Solves2 [IsStrictOrderedRing K] (a : Ray3 K) (dx dy xstr q : K) (ev : (Ax2 → K) → K × (Ax2 → K)) : Prop :=
  ∀ f, |a.ox| / dx * ((ev f).2 .x - f .x) + |a.oy| / dy * ((ev f).2 .y - f .y) + xstr * (ev f).1 = q

/-- C77: the currents of an ordinate balance in each cell, in two dimensions. -/
theorem C77_balance_2d [IsStrictOrderedRing K] (d : Dims) (h1 : d.nz = 1) (pi : K) (a : Ray3 K) (wgt : K) (ev : Nat → Nat → (Ax2 → K) → K × (Ax2 → K))
    (s0 : State Ax2 K) (cur : Nat → K) (dx dy dz : Nat → K) (xstr q : K) (ix iy : Nat) (hx : ix < d.nx) (hy : iy < d.ny)
    (hdx : dx ix ≠ 0) (hdy : dy iy ≠ 0) (hbal : Solves2 a (dx ix) (dy iy) xstr q (ev ix iy)) :
    let r := sweep2 d (a.ox < 0) (a.oy < 0) wgt ev s0
    leakage d dx dy dz (sweepCurrent2 d pi a s0.flux r.out cur) ix iy 0 - leakage d dx dy dz cur ix iy 0 =
      a.weight * pi * (dx ix * dy iy * dz 0) * (q - xstr * (r.out (coarseCell d ⟨ix, iy, 0⟩)).1) := by
  intro r
  have hc := fun s hs n hn => C77_current_2d d h1 pi a wgt ev s0 cur ix iy hx hy s hs n hn
  have hex : ∀ s, s ≠ Surface.INTERNAL → ∃ n, coarseSurf d (coarseCell d ⟨ix, iy, 0⟩) s = some n := by
    intro s hs
    obtain ⟨f, hf⟩ : ∃ f, faceOf ix iy 0 s = some f := by cases s <;> simp [faceOf] at hs ⊢
    exact ⟨_, coarseSurf_enc d ix iy 0 s f hf hx hy (by omega)⟩
  obtain ⟨e, he⟩ := hex .EAST (by simp)
  obtain ⟨w, hw⟩ := hex .WEST (by simp)
  obtain ⟨n, hn⟩ := hex .NORTH (by simp)
  obtain ⟨s, hs⟩ := hex .SOUTH (by simp)
  obtain ⟨t, ht⟩ := hex .TOP (by simp)
  obtain ⟨b, hb⟩ := hex .BOTTOM (by simp)
  have h1 := hc .EAST (by simp) e he
  have h2 := hc .WEST (by simp) w hw
  have h3 := hc .NORTH (by simp) n hn
  have h4 := hc .SOUTH (by simp) s hs
  have h5 := hc .TOP (by simp) t ht
  have h6 := hc .BOTTOM (by simp) b hb
  simp only [leakage, he, hw, hn, hs, ht, hb]
  rw [h1, h2, h3, h4, h5, h6]
  have hup := (C30_upwind_2d d (a.ox < 0) (a.oy < 0) wgt ev s0 ix iy hx hy).1
  have hbal' := hbal (incoming2 d (a.ox < 0) (a.oy < 0) s0.flux r.out ix iy)
  rw [← hup] at hbal'
  generalize incoming2 d (a.ox < 0) (a.oy < 0) s0.flux r.out ix iy = inc at hbal' ⊢
  generalize hout : r.out (coarseCell d ⟨ix, iy, 0⟩) = out at hbal' ⊢
  have dif : ∀ (o i' o' : K), o * (if o < 0 then i' else o') - o * (if o < 0 then o' else i') = |o| * (o' - i') := by
    intro o i' o'
    split_ifs with h
    · rw [abs_of_neg h]; ring
    · rw [abs_of_nonneg (not_lt.mp h)]; ring
  have d1 := dif a.ox (inc .x) (out.2 .x)
  have d2 := dif a.oy (inc .y) (out.2 .y)
  simp only [carried2]
  rw [← hbal']
  have key : dx ix * dy iy * dz 0 * (|a.ox| / dx ix * (out.2 .x - inc .x) + |a.oy| / dy iy * (out.2 .y - inc .y)) =
      dy iy * dz 0 * (|a.ox| * (out.2 .x - inc .x)) + dx ix * dz 0 * (|a.oy| * (out.2 .y - inc .y)) := by
    field_simp
  linear_combination (a.weight * pi) * (dy iy * dz 0 * d1 + dx ix * dz 0 * d2) - a.weight * pi * key

/-- Instance of `C77_total`: two ordinates, opposite in x, through two cells. -/
example : ∃ os : List (Sweep3 ℚ), os.length = 2 ∧ (∀ o ∈ os, o.ray.ox ≠ 0 ∧ Solves o.ray 1 1 1 2 3 (o.ev 1 0 0)) ∧
    leakage ⟨2, 1, 1⟩ (fun _ => 1) (fun _ => 1) (fun _ => 1) (sweepAll ⟨2, 1, 1⟩ 1 os (fun _ => 0, fun _ => 0)).2 1 0 0 ≠ 0 := by
  refine ⟨[⟨⟨1, 0, 0, 1⟩, fun _ _ => 0, fun _ _ _ f => ((3 + f .x) / 3, fun | .x => (3 + f .x) / 3 | .y => f .y | .z => f .z)⟩,
    ⟨⟨-1, 0, 0, 1⟩, fun _ _ => 0, fun _ _ _ f => ((3 + f .x) / 3, fun | .x => (3 + f .x) / 3 | .y => f .y | .z => f .z)⟩], rfl, ?_, ?_⟩
  · intro o ho
    simp only [List.mem_cons, List.not_mem_nil, or_false] at ho
    rcases ho with rfl | rfl <;> refine ⟨by norm_num, fun f => ?_⟩ <;> simp <;> ring
  · decide +kernel

/-- Instance of `C77_balance_2d`. -/
example : Solves2 (K := ℚ) ⟨1, 0, 0, 1⟩ 1 1 2 3 (fun f => ((3 + f .x) / 3, fun | .x => (3 + f .x) / 3 | .y => f .y)) ∧
    sweepCurrent2 (K := ℚ) ⟨2, 1, 1⟩ 3 ⟨1, 0, 0, 1⟩ (fun _ _ => 0) (sweep2 ⟨2, 1, 1⟩ false false 3
      (fun _ _ f => ((3 + f .x) / 3, fun | .x => (3 + f .x) / 3 | .y => f .y)) ⟨fun _ _ => 0, fun _ => 0, fun _ => (0, fun _ => 0)⟩).out (fun _ => 0) 4 = 4 := by
  refine ⟨fun f => ?_, by decide +kernel⟩
  simp
  ring

end Verif.Sn
