import Verif.Cmfd.SystemProps
import Verif.Cmfd.Props
import Mathlib.LinearAlgebra.Matrix.ToLin
import Mathlib.LinearAlgebra.FiniteDimensional.Lemmas
import Mathlib.Tactic.Linarith
import Mathlib.Tactic.IntervalCases
import Mathlib.Tactic.NormNum
import Mathlib.Tactic.Positivity
import Mathlib.Tactic.FieldSimp

/-!
# C122: solutions of the CMFD systems

Existence, uniqueness and sign of the solution of the system of one group.
-/

namespace Verif.Cmfd

open Verif.Mesh Verif.Mesh.Spec Finset

variable {K : Type} [Field K] [LinearOrder K] [IsStrictOrderedRing K]

/-- Corrections that turn no coupling around: what leaves a cell through a face grows with the flux of the cell and does not grow with that of its neighbour. -/
def Tame (d : Dims) (dt dh : Nat → K) : Prop := ∀ f : Face, f.Valid d.nx d.ny d.nz →
  ((below f).isSome → 0 ≤ dt (enc d f) + dh (enc d f)) ∧ ((above d.nx d.ny d.nz f).isSome → 0 ≤ dt (enc d f) - dh (enc d f))

/-- Positive widths of all cells. -/
structure Solid (d : Dims) (w : Widths K) : Prop where
  dx : ∀ i < d.nx, 0 < w.dx.getD i 0
  dy : ∀ i < d.ny, 0 < w.dy.getD i 0
  dz : ∀ i < d.nz, 0 < w.dz.getD i 0

theorem cellFlux_none (d : Dims) (x : Nat → K) : cellFlux d x none = 0 := rfl

/-- The negative part. -/
def neg (x : Nat → K) : Nat → K := fun i => max (-x i) 0

theorem cellFlux_neg (d : Dims) (x : Nat → K) (o : Option (Nat × Nat × Nat)) : cellFlux d (neg x) o = max (-cellFlux d x o) 0 := by
  cases o with
  | none => simp [cellFlux]
  | some c => rfl

/-- Outflow through the upper face: at most the negative of the outflow where the flux is negative, at most zero elsewhere. -/
theorem up_face (d : Dims) (dt dh x : Nat → K) (ht : Tame d dt dh) (f : Face) (hv : f.Valid d.nx d.ny d.nz) (hb : (below f).isSome) :
    (cellFlux d x (below f) < 0 → currentAt d dt dh (neg x) (enc d f) ≤ -currentAt d dt dh x (enc d f)) ∧
    (0 ≤ cellFlux d x (below f) → currentAt d dt dh (neg x) (enc d f) ≤ 0) := by
  rw [C40_current d dt dh _ f hv, C40_current d dt dh _ f hv, cellFlux_neg, cellFlux_neg]
  have hp := (ht f hv).1 hb
  have hq : 0 ≤ (dt (enc d f) - dh (enc d f)) * max (-cellFlux d x (above d.nx d.ny d.nz f)) 0 ∧
      -((dt (enc d f) - dh (enc d f)) * cellFlux d x (above d.nx d.ny d.nz f)) ≤
        (dt (enc d f) - dh (enc d f)) * max (-cellFlux d x (above d.nx d.ny d.nz f)) 0 := by
    cases ha : above d.nx d.ny d.nz f with
    | none => simp [cellFlux]
    | some c =>
      have hq := (ht f hv).2 (by rw [ha]; rfl)
      refine ⟨mul_nonneg hq (le_max_right _ _), ?_⟩
      rw [← mul_neg]
      exact mul_le_mul_of_nonneg_left (le_max_left _ _) hq
  refine ⟨fun hn => ?_, fun hn => ?_⟩
  · rw [max_eq_left (by linarith : (0 : K) ≤ -cellFlux d x (below f))]
    linarith [hq.2]
  · rw [max_eq_right (by linarith : -cellFlux d x (below f) ≤ (0 : K))]
    linarith [hq.1]

/-- The same for the lower face. -/
theorem down_face (d : Dims) (dt dh x : Nat → K) (ht : Tame d dt dh) (f : Face) (hv : f.Valid d.nx d.ny d.nz) (ha : (above d.nx d.ny d.nz f).isSome) :
    (cellFlux d x (above d.nx d.ny d.nz f) < 0 → -currentAt d dt dh (neg x) (enc d f) ≤ currentAt d dt dh x (enc d f)) ∧
    (0 ≤ cellFlux d x (above d.nx d.ny d.nz f) → 0 ≤ currentAt d dt dh (neg x) (enc d f)) := by
  rw [C40_current d dt dh _ f hv, C40_current d dt dh _ f hv, cellFlux_neg, cellFlux_neg]
  have hp := (ht f hv).2 ha
  have hq : 0 ≤ (dt (enc d f) + dh (enc d f)) * max (-cellFlux d x (below f)) 0 ∧
      -((dt (enc d f) + dh (enc d f)) * cellFlux d x (below f)) ≤ (dt (enc d f) + dh (enc d f)) * max (-cellFlux d x (below f)) 0 := by
    cases hb : below f with
    | none => simp [cellFlux]
    | some c =>
      have hq := (ht f hv).1 (by rw [hb]; rfl)
      refine ⟨mul_nonneg hq (le_max_right _ _), ?_⟩
      rw [← mul_neg]
      exact mul_le_mul_of_nonneg_left (le_max_left _ _) hq
  refine ⟨fun hn => ?_, fun hn => ?_⟩
  · rw [max_eq_left (by linarith : (0 : K) ≤ -cellFlux d x (above d.nx d.ny d.nz f))]
    linarith [hq.2]
  · rw [max_eq_right (by linarith : -cellFlux d x (above d.nx d.ny d.nz f) ≤ (0 : K))]
    linarith [hq.1]

/-- The six faces of a cell: valid, and the cell is on the right side of each. -/
theorem faces (d : Dims) (i j k : Nat) (hi : i < d.nx) (hj : j < d.ny) (hk : k < d.nz) :
    ((⟨.x, i + 1, j, k⟩ : Face).Valid d.nx d.ny d.nz ∧ below ⟨.x, i + 1, j, k⟩ = some (i, j, k)) ∧
    ((⟨.x, i, j, k⟩ : Face).Valid d.nx d.ny d.nz ∧ above d.nx d.ny d.nz ⟨.x, i, j, k⟩ = some (i, j, k)) ∧
    ((⟨.y, i, j + 1, k⟩ : Face).Valid d.nx d.ny d.nz ∧ below ⟨.y, i, j + 1, k⟩ = some (i, j, k)) ∧
    ((⟨.y, i, j, k⟩ : Face).Valid d.nx d.ny d.nz ∧ above d.nx d.ny d.nz ⟨.y, i, j, k⟩ = some (i, j, k)) ∧
    ((⟨.z, i, j, k + 1⟩ : Face).Valid d.nx d.ny d.nz ∧ below ⟨.z, i, j, k + 1⟩ = some (i, j, k)) ∧
    ((⟨.z, i, j, k⟩ : Face).Valid d.nx d.ny d.nz ∧ above d.nx d.ny d.nz ⟨.z, i, j, k⟩ = some (i, j, k)) := by
  refine ⟨⟨?_, ?_⟩, ⟨?_, ?_⟩, ⟨?_, ?_⟩, ⟨?_, ?_⟩, ⟨?_, ?_⟩, ⟨?_, ?_⟩⟩ <;> simp [Face.Valid, below, above] <;> omega

theorem cellFlux_cell (d : Dims) (x : Nat → K) (i j k : Nat) : cellFlux d x (some (i, j, k)) = x (coarseCell d ⟨i, j, k⟩) := by
  show x _ = x _
  congr 1
  simp [coarseCell]
  try ring

/-- The operator on the negative part. -/
theorem row_neg (d : Dims) (w : Widths K) (rm dt dh x : Nat → K) (hw : Solid d w) (ht : Tame d dt dh) (i j k : Nat) (hi : i < d.nx) (hj : j < d.ny) (hk : k < d.nz)
    (hr : 0 ≤ rowApply d w rm dt dh x (coarseCell d ⟨i, j, k⟩)) : rowApply d w rm dt dh (neg x) (coarseCell d ⟨i, j, k⟩) ≤ 0 := by
  rw [C40_row_faces d w rm dt dh _ i j k hi hj hk] at hr ⊢
  obtain ⟨⟨v1, b1⟩, ⟨v2, b2⟩, ⟨v3, b3⟩, ⟨v4, b4⟩, ⟨v5, b5⟩, ⟨v6, b6⟩⟩ := faces d i j k hi hj hk
  have f1 := up_face d dt dh x ht _ v1 (by rw [b1]; rfl)
  have f2 := down_face d dt dh x ht _ v2 (by rw [b2]; rfl)
  have f3 := up_face d dt dh x ht _ v3 (by rw [b3]; rfl)
  have f4 := down_face d dt dh x ht _ v4 (by rw [b4]; rfl)
  have f5 := up_face d dt dh x ht _ v5 (by rw [b5]; rfl)
  have f6 := down_face d dt dh x ht _ v6 (by rw [b6]; rfl)
  rw [b1, cellFlux_cell] at f1
  rw [b2, cellFlux_cell] at f2
  rw [b3, cellFlux_cell] at f3
  rw [b4, cellFlux_cell] at f4
  rw [b5, cellFlux_cell] at f5
  rw [b6, cellFlux_cell] at f6
  have a1 : 0 < w.dy.getD j 0 * w.dz.getD k 0 := mul_pos (hw.dy j hj) (hw.dz k hk)
  have a2 : 0 < w.dx.getD i 0 * w.dz.getD k 0 := mul_pos (hw.dx i hi) (hw.dz k hk)
  have a3 : 0 < w.dx.getD i 0 * w.dy.getD j 0 := mul_pos (hw.dx i hi) (hw.dy j hj)
  rcases lt_or_ge (x (coarseCell d ⟨i, j, k⟩)) 0 with hn | hn
  · have e : neg x (coarseCell d ⟨i, j, k⟩) = -x (coarseCell d ⟨i, j, k⟩) := max_eq_left (by linarith)
    rw [e]
    have g1 := mul_le_mul_of_nonneg_left (add_le_add (f1.1 hn) (f2.1 hn)) a1.le
    have g2 := mul_le_mul_of_nonneg_left (add_le_add (f3.1 hn) (f4.1 hn)) a2.le
    have g3 := mul_le_mul_of_nonneg_left (add_le_add (f5.1 hn) (f6.1 hn)) a3.le
    linarith
  · have e : neg x (coarseCell d ⟨i, j, k⟩) = 0 := max_eq_right (by linarith)
    rw [e, mul_zero]
    have g1 := mul_le_mul_of_nonneg_left (sub_le_sub (f1.2 hn) (f2.2 hn)) a1.le
    have g2 := mul_le_mul_of_nonneg_left (sub_le_sub (f3.2 hn) (f4.2 hn)) a2.le
    have g3 := mul_le_mul_of_nonneg_left (sub_le_sub (f5.2 hn) (f6.2 hn)) a3.le
    linarith

/-- Through the sides of the domain nothing flows in. -/
theorem no_inflow (d : Dims) (dt dh x : Nat → K) (ht : Tame d dt dh) (hx : ∀ i, 0 ≤ x i) (f : Face) (hv : f.Valid d.nx d.ny d.nz) :
    ((below f).isSome → above d.nx d.ny d.nz f = none → 0 ≤ currentAt d dt dh x (enc d f)) ∧
    (below f = none → (above d.nx d.ny d.nz f).isSome → currentAt d dt dh x (enc d f) ≤ 0) := by
  rw [C40_current d dt dh _ f hv]
  have pos : ∀ o, 0 ≤ cellFlux d x o := by
    intro o
    cases o with
    | none => exact le_rfl
    | some c => exact hx _
  refine ⟨fun hb ha => ?_, fun hb ha => ?_⟩
  · rw [ha, cellFlux_none]
    have := mul_nonneg ((ht f hv).1 hb) (pos (below f))
    linarith
  · rw [hb, cellFlux_none]
    have := mul_nonneg ((ht f hv).2 ha) (pos (above d.nx d.ny d.nz f))
    linarith

/-- C122: if the corrections turn no coupling around and removal is positive, a source that is nowhere negative gives a flux that is nowhere negative. -/
theorem C122_nonneg (d : Dims) (w : Widths K) (rm dt dh x : Nat → K) (hw : Solid d w) (ht : Tame d dt dh) (hrm : ∀ c < nPin d, 0 < rm c)
    (hr : ∀ c < nPin d, 0 ≤ ∑ c' ∈ range (nPin d), entry d w rm dt dh c c' * x c') : ∀ c < nPin d, 0 ≤ x c := by
  have vpos : ∀ c < nPin d, 0 < vol d w c := by
    intro c hc
    obtain ⟨h1, h2, h3⟩ := pos_lt d c hc
    have hv := vol_eq d w _ _ (coarsePosition d c).z h1 h2
    have he : coarseCell d ⟨(coarsePosition d c).x, (coarsePosition d c).y, (coarsePosition d c).z⟩ = c := cell_pos d c
    rw [he] at hv
    rw [hv]
    exact mul_pos (mul_pos (hw.dx _ h1) (hw.dy _ h2)) (hw.dz _ h3)
  have hneg : ∀ i, 0 ≤ neg x i := fun i => le_max_right _ _
  have hle : ∑ c ∈ range (nPin d), rowApply d w rm dt dh (neg x) c ≤ 0 := by
    refine Finset.sum_nonpos fun c hc => ?_
    have hc := Finset.mem_range.mp hc
    obtain ⟨h1, h2, h3⟩ := pos_lt d c hc
    have he : coarseCell d ⟨(coarsePosition d c).x, (coarsePosition d c).y, (coarsePosition d c).z⟩ = c := cell_pos d c
    have := row_neg d w rm dt dh x hw ht _ _ _ h1 h2 h3 (by rw [he]; exact hr c hc)
    rwa [he] at this
  rw [C40_total] at hle
  have bx : ∀ j < d.ny, ∀ k < d.nz, 0 ≤ w.dy.getD j 0 * w.dz.getD k 0 *
      (currentAt d dt dh (neg x) (enc d ⟨.x, d.nx, j, k⟩) - currentAt d dt dh (neg x) (enc d ⟨.x, 0, j, k⟩)) := by
    intro j hj k hk
    refine mul_nonneg (mul_pos (hw.dy j hj) (hw.dz k hk)).le ?_
    rcases Nat.eq_zero_or_pos d.nx with h0 | h0
    · rw [h0, sub_self]
    · have u := (no_inflow d dt dh (neg x) ht hneg ⟨.x, d.nx, j, k⟩ (by simp [Face.Valid]; omega)).1 (by simp [below]; omega) (by simp [above])
      have v := (no_inflow d dt dh (neg x) ht hneg ⟨.x, 0, j, k⟩ (by simp [Face.Valid]; omega)).2 (by simp [below]) (by simp [above]; omega)
      linarith
  have by' : ∀ i < d.nx, ∀ k < d.nz, 0 ≤ w.dx.getD i 0 * w.dz.getD k 0 *
      (currentAt d dt dh (neg x) (enc d ⟨.y, i, d.ny, k⟩) - currentAt d dt dh (neg x) (enc d ⟨.y, i, 0, k⟩)) := by
    intro j hj k hk
    refine mul_nonneg (mul_pos (hw.dx j hj) (hw.dz k hk)).le ?_
    rcases Nat.eq_zero_or_pos d.ny with h0 | h0
    · rw [h0, sub_self]
    · have u := (no_inflow d dt dh (neg x) ht hneg ⟨.y, j, d.ny, k⟩ (by simp [Face.Valid]; omega)).1 (by simp [below]; omega) (by simp [above])
      have v := (no_inflow d dt dh (neg x) ht hneg ⟨.y, j, 0, k⟩ (by simp [Face.Valid]; omega)).2 (by simp [below]) (by simp [above]; omega)
      linarith
  have bz : ∀ i < d.nx, ∀ j < d.ny, 0 ≤ w.dx.getD i 0 * w.dy.getD j 0 *
      (currentAt d dt dh (neg x) (enc d ⟨.z, i, j, d.nz⟩) - currentAt d dt dh (neg x) (enc d ⟨.z, i, j, 0⟩)) := by
    intro j hj k hk
    refine mul_nonneg (mul_pos (hw.dx j hj) (hw.dy k hk)).le ?_
    rcases Nat.eq_zero_or_pos d.nz with h0 | h0
    · rw [h0, sub_self]
    · have u := (no_inflow d dt dh (neg x) ht hneg ⟨.z, j, k, d.nz⟩ (by simp [Face.Valid]; omega)).1 (by simp [below]; omega) (by simp [above])
      have v := (no_inflow d dt dh (neg x) ht hneg ⟨.z, j, k, 0⟩ (by simp [Face.Valid]; omega)).2 (by simp [below]) (by simp [above]; omega)
      linarith
  have s1 := Finset.sum_nonneg fun k hk => Finset.sum_nonneg fun j hj => bx j (Finset.mem_range.mp hj) k (Finset.mem_range.mp hk)
  have s2 := Finset.sum_nonneg fun k hk => Finset.sum_nonneg fun j hj => by' j (Finset.mem_range.mp hj) k (Finset.mem_range.mp hk)
  have s3 := Finset.sum_nonneg fun k hk => Finset.sum_nonneg fun j hj => bz j (Finset.mem_range.mp hj) k (Finset.mem_range.mp hk)
  have hz : ∑ c ∈ range (nPin d), vol d w c * rm c * neg x c ≤ 0 := by linarith
  have each : ∀ c ∈ range (nPin d), 0 ≤ vol d w c * rm c * neg x c := fun c hc =>
    mul_nonneg (mul_pos (vpos c (Finset.mem_range.mp hc)) (hrm c (Finset.mem_range.mp hc))).le (hneg c)
  have hz' := (Finset.sum_eq_zero_iff_of_nonneg each).mp (le_antisymm hz (Finset.sum_nonneg each))
  intro c hc
  have h0 := hz' c (Finset.mem_range.mpr hc)
  rcases mul_eq_zero.mp h0 with h1 | h1
  · exact absurd h1 (mul_pos (vpos c hc) (hrm c hc)).ne'
  · have : -x c ≤ neg x c := le_max_left _ _
    rw [h1] at this
    linarith

/-- C122: two solutions of the system with the same source are equal. -/
theorem C122_unique (d : Dims) (w : Widths K) (rm dt dh x y : Nat → K) (hw : Solid d w) (ht : Tame d dt dh) (hrm : ∀ c < nPin d, 0 < rm c)
    (hr : ∀ c < nPin d, ∑ c' ∈ range (nPin d), entry d w rm dt dh c c' * x c' = ∑ c' ∈ range (nPin d), entry d w rm dt dh c c' * y c') : ∀ c < nPin d, x c = y c := by
  have sub : ∀ (u v : Nat → K) c, ∑ c' ∈ range (nPin d), entry d w rm dt dh c c' * (u c' - v c') =
      ∑ c' ∈ range (nPin d), entry d w rm dt dh c c' * u c' - ∑ c' ∈ range (nPin d), entry d w rm dt dh c c' * v c' := by
    intro u v c
    rw [← Finset.sum_sub_distrib]
    exact Finset.sum_congr rfl fun c' _ => mul_sub _ _ _
  intro c hc
  have h1 := C122_nonneg d w rm dt dh (fun c => x c - y c) hw ht hrm (fun c hc => by rw [sub, hr c hc, sub_self]) c hc
  have h2 := C122_nonneg d w rm dt dh (fun c => y c - x c) hw ht hrm (fun c hc => by rw [sub, hr c hc, sub_self]) c hc
  linarith

/-- C122: there is a solution for every source. -/
theorem C122_exists (d : Dims) (w : Widths K) (rm dt dh b : Nat → K) (hw : Solid d w) (ht : Tame d dt dh) (hrm : ∀ c < nPin d, 0 < rm c) :
    ∃ x : Nat → K, ∀ c < nPin d, ∑ c' ∈ range (nPin d), entry d w rm dt dh c c' * x c' = b c := by
  let M : Matrix (Fin (nPin d)) (Fin (nPin d)) K := fun i j => entry d w rm dt dh i j
  have row : ∀ (x : Nat → K) (c : Fin (nPin d)), M.mulVec (fun j => x j) c = ∑ c' ∈ range (nPin d), entry d w rm dt dh c c' * x c' := by
    intro x c
    rw [← Fin.sum_univ_eq_sum_range (fun c' => entry d w rm dt dh c c' * x c')]
    rfl
  let ext : (Fin (nPin d) → K) → Nat → K := fun x c => if h : c < nPin d then x ⟨c, h⟩ else 0
  have hext : ∀ x : Fin (nPin d) → K, (fun j : Fin (nPin d) => ext x j) = x := by
    intro x
    funext j
    exact dif_pos j.2
  have inj : Function.Injective (Matrix.mulVecLin M) := by
    intro x y hxy
    rw [← hext x, ← hext y]
    funext j
    refine C122_unique d w rm dt dh (ext x) (ext y) hw ht hrm (fun c hc => ?_) j j.2
    have := congrFun hxy ⟨c, hc⟩
    rw [Matrix.mulVecLin_apply, Matrix.mulVecLin_apply, ← hext x, ← hext y] at this
    rw [row (ext x), row (ext y)] at this
    exact this
  obtain ⟨x, hx⟩ := (LinearMap.injective_iff_surjective.mp inj) (fun j => b j)
  refine ⟨ext x, fun c hc => ?_⟩
  have := congrFun hx ⟨c, hc⟩
  rw [Matrix.mulVecLin_apply, ← hext x, row (ext x)] at this
  exact this

/-- C122: the corrections turn no coupling around exactly if the current through a face is at most twice the coupling times the flux of the cell it comes from (so through a side of the
domain it must not flow in). -/
theorem C122_bound (d : Dims) (dt J x : Nat → K) (hx : ∀ c < nPin d, 0 < x c) : Tame d dt (dHatAt d dt J x) ↔ ∀ f : Face, f.Valid d.nx d.ny d.nz →
    ((below f).isSome → -(2 * dt (enc d f) * cellFlux d x (above d.nx d.ny d.nz f)) ≤ J (enc d f)) ∧
    ((above d.nx d.ny d.nz f).isSome → J (enc d f) ≤ 2 * dt (enc d f) * cellFlux d x (below f)) := by
  refine forall_congr' fun f => forall_congr' fun hv => ?_
  have h : ∀ c, side x (idx d.nx d.ny c) = cellFlux d x c := by
    rintro (_ | ⟨i, j, k⟩)
    · simp [idx, side, cellFlux]
    · rw [side_idx, cellFlux_cell]
  have hc : ∀ o : Option (Nat × Nat × Nat), (∀ i j k, o = some (i, j, k) → i < d.nx ∧ j < d.ny ∧ k < d.nz) → 0 ≤ cellFlux d x o ∧ (o.isSome → 0 < cellFlux d x o) := by
    rintro (_ | ⟨i, j, k⟩) ho
    · exact ⟨le_rfl, fun h => by cases h⟩
    · have hp : 0 < cellFlux d x (some (i, j, k)) := by
        rw [cellFlux_cell]
        obtain ⟨a, b, c⟩ := ho i j k rfl
        exact hx _ (cell_lt d i j k a b c)
      exact ⟨hp.le, fun _ => hp⟩
  have vb : ∀ i j k, below f = some (i, j, k) → i < d.nx ∧ j < d.ny ∧ k < d.nz := by
    intro i j k hb
    obtain ⟨ax, fi, fj, fk⟩ := f
    cases ax <;> simp only [Face.Valid, below] at hv hb <;> split at hb <;> simp at hb <;> omega
  have va : ∀ i j k, above d.nx d.ny d.nz f = some (i, j, k) → i < d.nx ∧ j < d.ny ∧ k < d.nz := by
    intro i j k hb
    obtain ⟨ax, fi, fj, fk⟩ := f
    cases ax <;> simp only [Face.Valid, above] at hv hb <;> split at hb <;> simp at hb <;> omega
  obtain ⟨b0, b1⟩ := hc _ vb
  obtain ⟨a0, a1⟩ := hc _ va
  unfold dHatAt
  rw [coarseNeighCells_enc d f hv, h, h]
  unfold dHat
  generalize dt (enc d f) = t
  generalize J (enc d f) = q
  generalize cellFlux d x (below f) = u at *
  generalize cellFlux d x (above d.nx d.ny d.nz f) = v at *
  refine and_congr (forall_congr' fun hs => ?_) (forall_congr' fun hs => ?_)
  · have hp : 0 < u + v := by linarith [b1 hs]
    rw [if_neg hp.ne', ← sub_neg_eq_add, sub_nonneg, neg_le, le_div_iff₀ hp]
    constructor <;> intro h <;> linarith
  · have hp : 0 < u + v := by linarith [a1 hs]
    rw [if_neg hp.ne', sub_nonneg, div_le_iff₀ hp]
    constructor <;> intro h <;> linarith

/-! ### Strong currents -/

/-- The claim without a bound for the currents: with positive couplings, removal, flux and sources that balance with the currents, the system has only one solution. -/
def C122_claim : Prop := ∀ (d : Dims) (w : Widths ℚ) (rm dt J φ : Nat → ℚ), Solid d w → (∀ c < nPin d, 0 < rm c) → (∀ n, 0 < dt n) → (∀ c < nPin d, 0 < φ c) →
  (∀ c < nPin d, 0 < ∑ c' ∈ range (nPin d), entry d w rm dt (dHatAt d dt J φ) c c' * φ c') →
  ∀ x y : Nat → ℚ, (∀ c < nPin d, ∑ c' ∈ range (nPin d), entry d w rm dt (dHatAt d dt J φ) c c' * x c' =
    ∑ c' ∈ range (nPin d), entry d w rm dt (dHatAt d dt J φ) c c' * y c') → ∀ c < nPin d, x c = y c

def lineDims : Dims := ⟨3, 1, 1⟩
def lineWidths : Widths ℚ := ⟨[1, 1, 1], [1], [1]⟩
def lineRm : Nat → ℚ := fun c => [2, 1 / 30, 149 / 30].getD c 1
def lineFlux : Nat → ℚ := fun c => [1, 3, 9].getD c 0
def lineDt : Nat → ℚ := fun _ => 1 / 20

/-- Currents towards the higher flux. -/
def lineCur : Nat → ℚ := fun n => if n = enc lineDims ⟨.x, 1, 0, 0⟩ ∨ n = enc lineDims ⟨.x, 2, 0, 0⟩ then 1 else 0

def lineMode : Nat → ℚ := fun c => [-3, 31, 1].getD c 0

/-- C122: without a bound it is false: three cells, a current from each to the next against the flux; a multiple of `lineMode` can be added to every solution. -/
theorem C122_claim_false : ¬ C122_claim := by
  intro h
  have h0 : ∀ c < 3, 0 < ∑ c' ∈ range 3, entry lineDims lineWidths lineRm lineDt (dHatAt lineDims lineDt lineCur lineFlux) c c' * lineFlux c' := by decide +kernel
  have h1 : ∀ c < 3, ∑ c' ∈ range 3, entry lineDims lineWidths lineRm lineDt (dHatAt lineDims lineDt lineCur lineFlux) c c' * lineMode c' =
    ∑ c' ∈ range 3, entry lineDims lineWidths lineRm lineDt (dHatAt lineDims lineDt lineCur lineFlux) c c' * 0 := by decide +kernel
  have := h lineDims lineWidths lineRm lineDt lineCur lineFlux
    ⟨by decide +kernel, by decide +kernel, by decide +kernel⟩ (by decide +kernel) (fun _ => by norm_num [lineDt]) (by decide +kernel) h0 lineMode (fun _ => 0) h1 1 (by decide)
  revert this
  decide +kernel

/-- C122: nor is the flux positive then, although all sources are. -/
theorem C122_sign_false : ∃ (d : Dims) (w : Widths ℚ) (rm dt J φ x : Nat → ℚ), Solid d w ∧ (∀ c < nPin d, 0 < rm c) ∧ (∀ n, 0 < dt n) ∧ (∀ c < nPin d, 0 < φ c) ∧
    (∀ c < nPin d, 0 < ∑ c' ∈ range (nPin d), entry d w rm dt (dHatAt d dt J φ) c c' * φ c') ∧
    (∀ c < nPin d, 0 < ∑ c' ∈ range (nPin d), entry d w rm dt (dHatAt d dt J φ) c c' * x c') ∧ ∃ c < nPin d, x c < 0 := by
  have h0 : ∀ c < 3, 0 < ∑ c' ∈ range 3, entry lineDims lineWidths lineRm lineDt (dHatAt lineDims lineDt lineCur lineFlux) c c' * lineFlux c' := by decide +kernel
  have h1 : ∀ c < 3, 0 < ∑ c' ∈ range 3, entry lineDims lineWidths lineRm lineDt (dHatAt lineDims lineDt lineCur lineFlux) c c' * (lineFlux c' - lineMode c') := by decide +kernel
  exact ⟨lineDims, lineWidths, lineRm, lineDt, lineCur, lineFlux, fun c => lineFlux c - lineMode c, ⟨by decide +kernel, by decide +kernel, by decide +kernel⟩, by decide +kernel,
    fun _ => by norm_num [lineDt], by decide +kernel, h0, h1, 1, by decide, by decide +kernel⟩

/-- Moderate currents: a small one between the first two cells. -/
example : Solid lineDims lineWidths ∧ Tame lineDims lineDt (dHatAt lineDims lineDt (fun n => if n = enc lineDims ⟨.x, 1, 0, 0⟩ then 1 / 20 else 0) lineFlux) := by
  refine ⟨⟨by decide +kernel, by decide +kernel, by decide +kernel⟩, ?_⟩
  rintro ⟨ax, i, j, k⟩ hv
  cases ax <;> simp only [Face.Valid, lineDims] at hv <;> obtain ⟨h1, h2, h3⟩ := hv <;> interval_cases i <;> interval_cases j <;> interval_cases k <;> decide +kernel

end Verif.Cmfd
