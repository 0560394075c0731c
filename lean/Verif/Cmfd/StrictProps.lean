import Verif.Cmfd.UniqueProps
import Mathlib.Tactic.IntervalCases

/-!
# C125: sources anywhere give flux everywhere
-/

namespace Verif.Cmfd

open Verif.Mesh Verif.Mesh.Spec Finset

variable {K : Type} [Field K] [LinearOrder K] [IsStrictOrderedRing K]

/-- Corrections smaller than the couplings between cells, and not larger than them at the sides of the domain. -/
structure Coupled (d : Dims) (dt dh : Nat → K) : Prop where
  tame : Tame d dt dh
  inner : ∀ f : Face, f.Valid d.nx d.ny d.nz → (below f).isSome → (above d.nx d.ny d.nz f).isSome → 0 < dt (enc d f) + dh (enc d f) ∧ 0 < dt (enc d f) - dh (enc d f)

theorem cellFlux_nonneg (d : Dims) (x : Nat → K) (hx : ∀ c < nPin d, 0 ≤ x c) (o : Option (Nat × Nat × Nat)) (ho : ∀ i j k, o = some (i, j, k) → i < d.nx ∧ j < d.ny ∧ k < d.nz) :
    0 ≤ cellFlux d x o := by
  rcases o with _ | ⟨i, j, k⟩
  · exact le_rfl
  · rw [cellFlux_cell]
    obtain ⟨a, b, c⟩ := ho i j k rfl
    exact hx _ (cell_lt d i j k a b c)

theorem below_in (d : Dims) (f : Face) (hv : f.Valid d.nx d.ny d.nz) (i j k : Nat) (hb : below f = some (i, j, k)) : i < d.nx ∧ j < d.ny ∧ k < d.nz := by
  obtain ⟨ax, fi, fj, fk⟩ := f
  cases ax <;> simp only [Face.Valid, below] at hv hb <;> split at hb <;> simp at hb <;> omega

theorem above_in (d : Dims) (f : Face) (hv : f.Valid d.nx d.ny d.nz) (i j k : Nat) (hb : above d.nx d.ny d.nz f = some (i, j, k)) : i < d.nx ∧ j < d.ny ∧ k < d.nz := by
  obtain ⟨ax, fi, fj, fk⟩ := f
  cases ax <;> simp only [Face.Valid, above] at hv hb <;> split at hb <;> simp at hb <;> omega

/-- Current through the face above a cell without flux: not positive, and negative if there is flux above. -/
theorem zero_below (d : Dims) (dt dh x : Nat → K) (ht : Coupled d dt dh) (hx : ∀ c < nPin d, 0 ≤ x c) (f : Face) (hv : f.Valid d.nx d.ny d.nz) (hb : (below f).isSome)
    (h0 : cellFlux d x (below f) = 0) :
    currentAt d dt dh x (enc d f) ≤ 0 ∧ (currentAt d dt dh x (enc d f) = 0 → cellFlux d x (above d.nx d.ny d.nz f) = 0) := by
  rw [C40_current d dt dh _ f hv, h0]
  have ha := cellFlux_nonneg d x hx _ (above_in d f hv)
  cases hs : above d.nx d.ny d.nz f with
  | none => simp [cellFlux]
  | some c =>
    rw [hs] at ha
    have hp := (ht.inner f hv hb (by rw [hs]; rfl)).2
    have := mul_nonneg hp.le ha
    refine ⟨by linarith, fun h => ?_⟩
    have h1 : (dt (enc d f) - dh (enc d f)) * cellFlux d x (some c) = 0 := by linarith
    exact (mul_eq_zero.mp h1).resolve_left hp.ne'

/-- The same below. -/
theorem zero_above (d : Dims) (dt dh x : Nat → K) (ht : Coupled d dt dh) (hx : ∀ c < nPin d, 0 ≤ x c) (f : Face) (hv : f.Valid d.nx d.ny d.nz) (hb : (above d.nx d.ny d.nz f).isSome)
    (h0 : cellFlux d x (above d.nx d.ny d.nz f) = 0) :
    0 ≤ currentAt d dt dh x (enc d f) ∧ (currentAt d dt dh x (enc d f) = 0 → cellFlux d x (below f) = 0) := by
  rw [C40_current d dt dh _ f hv, h0]
  have ha := cellFlux_nonneg d x hx _ (below_in d f hv)
  cases hs : below f with
  | none => simp [cellFlux]
  | some c =>
    rw [hs] at ha
    have hp := (ht.inner f hv (by rw [hs]; rfl) hb).1
    have := mul_nonneg hp.le ha
    refine ⟨by linarith, fun h => ?_⟩
    have h1 : (dt (enc d f) + dh (enc d f)) * cellFlux d x (some c) = 0 := by linarith
    exact (mul_eq_zero.mp h1).resolve_left hp.ne'

/-- A cell without flux has no source and neighbours without flux. -/
theorem zero_spreads (d : Dims) (w : Widths K) (rm dt dh x : Nat → K) (hw : Solid d w) (ht : Coupled d dt dh) (hx : ∀ c < nPin d, 0 ≤ x c) (i j k : Nat) (hi : i < d.nx) (hj : j < d.ny)
    (hk : k < d.nz) (hr : 0 ≤ rowApply d w rm dt dh x (coarseCell d ⟨i, j, k⟩)) (h0 : x (coarseCell d ⟨i, j, k⟩) = 0) :
    rowApply d w rm dt dh x (coarseCell d ⟨i, j, k⟩) = 0 ∧ cellFlux d x (above d.nx d.ny d.nz ⟨.x, i + 1, j, k⟩) = 0 ∧ cellFlux d x (below ⟨.x, i, j, k⟩) = 0 ∧
      cellFlux d x (above d.nx d.ny d.nz ⟨.y, i, j + 1, k⟩) = 0 ∧ cellFlux d x (below ⟨.y, i, j, k⟩) = 0 ∧
      cellFlux d x (above d.nx d.ny d.nz ⟨.z, i, j, k + 1⟩) = 0 ∧ cellFlux d x (below ⟨.z, i, j, k⟩) = 0 := by
  rw [C40_row_faces d w rm dt dh _ i j k hi hj hk, h0, mul_zero, zero_add] at hr ⊢
  obtain ⟨⟨v1, b1⟩, ⟨v2, b2⟩, ⟨v3, b3⟩, ⟨v4, b4⟩, ⟨v5, b5⟩, ⟨v6, b6⟩⟩ := faces d i j k hi hj hk
  have z : cellFlux d x (some (i, j, k)) = 0 := by rw [cellFlux_cell]; exact h0
  obtain ⟨f1, g1⟩ := zero_below d dt dh x ht hx _ v1 (by rw [b1]; rfl) (by rw [b1]; exact z)
  obtain ⟨f2, g2⟩ := zero_above d dt dh x ht hx _ v2 (by rw [b2]; rfl) (by rw [b2]; exact z)
  obtain ⟨f3, g3⟩ := zero_below d dt dh x ht hx _ v3 (by rw [b3]; rfl) (by rw [b3]; exact z)
  obtain ⟨f4, g4⟩ := zero_above d dt dh x ht hx _ v4 (by rw [b4]; rfl) (by rw [b4]; exact z)
  obtain ⟨f5, g5⟩ := zero_below d dt dh x ht hx _ v5 (by rw [b5]; rfl) (by rw [b5]; exact z)
  obtain ⟨f6, g6⟩ := zero_above d dt dh x ht hx _ v6 (by rw [b6]; rfl) (by rw [b6]; exact z)
  have a1 : 0 < w.dy.getD j 0 * w.dz.getD k 0 := mul_pos (hw.dy j hj) (hw.dz k hk)
  have a2 : 0 < w.dx.getD i 0 * w.dz.getD k 0 := mul_pos (hw.dx i hi) (hw.dz k hk)
  have a3 : 0 < w.dx.getD i 0 * w.dy.getD j 0 := mul_pos (hw.dx i hi) (hw.dy j hj)
  have p1 := mul_nonneg a1.le (sub_nonneg.mpr (f1.trans f2))
  have p2 := mul_nonneg a2.le (sub_nonneg.mpr (f3.trans f4))
  have p3 := mul_nonneg a3.le (sub_nonneg.mpr (f5.trans f6))
  have q1 : w.dy.getD j 0 * w.dz.getD k 0 * (currentAt d dt dh x (enc d ⟨.x, i, j, k⟩) - currentAt d dt dh x (enc d ⟨.x, i + 1, j, k⟩)) = 0 := by linarith
  have q2 : w.dx.getD i 0 * w.dz.getD k 0 * (currentAt d dt dh x (enc d ⟨.y, i, j, k⟩) - currentAt d dt dh x (enc d ⟨.y, i, j + 1, k⟩)) = 0 := by linarith
  have q3 : w.dx.getD i 0 * w.dy.getD j 0 * (currentAt d dt dh x (enc d ⟨.z, i, j, k⟩) - currentAt d dt dh x (enc d ⟨.z, i, j, k + 1⟩)) = 0 := by linarith
  have r1 := (mul_eq_zero.mp q1).resolve_left a1.ne'
  have r2 := (mul_eq_zero.mp q2).resolve_left a2.ne'
  have r3 := (mul_eq_zero.mp q3).resolve_left a3.ne'
  exact ⟨by linarith, g1 (by linarith), g2 (by linarith), g3 (by linarith), g4 (by linarith), g5 (by linarith), g6 (by linarith)⟩

/-- C125: if the cells are coupled, a source that is nowhere negative and positive in one cell gives a flux that is positive in all. -/
theorem C125_everywhere (d : Dims) (w : Widths K) (rm dt dh x : Nat → K) (hw : Solid d w) (ht : Coupled d dt dh) (hrm : ∀ c < nPin d, 0 < rm c)
    (hr : ∀ c < nPin d, 0 ≤ ∑ c' ∈ range (nPin d), entry d w rm dt dh c c' * x c') (hp : ∃ c < nPin d, 0 < ∑ c' ∈ range (nPin d), entry d w rm dt dh c c' * x c') :
    ∀ c < nPin d, 0 < x c := by
  have hx := C122_nonneg d w rm dt dh x hw ht.tame hrm hr
  by_contra hcon
  push Not at hcon
  obtain ⟨c, hc, hc0⟩ := hcon
  have hc0 : x c = 0 := le_antisymm hc0 (hx c hc)
  have hrow : ∀ i j k, i < d.nx → j < d.ny → k < d.nz → 0 ≤ rowApply d w rm dt dh x (coarseCell d ⟨i, j, k⟩) := fun i j k hi hj hk => hr _ (cell_lt d i j k hi hj hk)
  have key := fun i j k hi hj hk h0 => zero_spreads d w rm dt dh x hw ht hx i j k hi hj hk (hrow i j k hi hj hk) h0
  -- steps along the axes
  have xu : ∀ i j k, i + 1 < d.nx → j < d.ny → k < d.nz → x (coarseCell d ⟨i, j, k⟩) = 0 → x (coarseCell d ⟨i + 1, j, k⟩) = 0 := by
    intro i j k hi hj hk h0
    have := (key i j k (by omega) hj hk h0).2.1
    rwa [show above d.nx d.ny d.nz ⟨.x, i + 1, j, k⟩ = some (i + 1, j, k) from (faces d (i + 1) j k hi hj hk).2.1.2, cellFlux_cell] at this
  have xd : ∀ i j k, i + 1 < d.nx → j < d.ny → k < d.nz → x (coarseCell d ⟨i + 1, j, k⟩) = 0 → x (coarseCell d ⟨i, j, k⟩) = 0 := by
    intro i j k hi hj hk h0
    have := (key (i + 1) j k (by omega) hj hk h0).2.2.1
    rwa [(faces d i j k (by omega) hj hk).1.2, cellFlux_cell] at this
  have yu : ∀ i j k, i < d.nx → j + 1 < d.ny → k < d.nz → x (coarseCell d ⟨i, j, k⟩) = 0 → x (coarseCell d ⟨i, j + 1, k⟩) = 0 := by
    intro i j k hi hj hk h0
    have := (key i j k hi (by omega) hk h0).2.2.2.1
    rwa [(faces d i (j + 1) k hi hj hk).2.2.2.1.2, cellFlux_cell] at this
  have yd : ∀ i j k, i < d.nx → j + 1 < d.ny → k < d.nz → x (coarseCell d ⟨i, j + 1, k⟩) = 0 → x (coarseCell d ⟨i, j, k⟩) = 0 := by
    intro i j k hi hj hk h0
    have := (key i (j + 1) k hi (by omega) hk h0).2.2.2.2.1
    rwa [(faces d i j k hi (by omega) hk).2.2.1.2, cellFlux_cell] at this
  have zu : ∀ i j k, i < d.nx → j < d.ny → k + 1 < d.nz → x (coarseCell d ⟨i, j, k⟩) = 0 → x (coarseCell d ⟨i, j, k + 1⟩) = 0 := by
    intro i j k hi hj hk h0
    have := (key i j k hi hj (by omega) h0).2.2.2.2.2.1
    rwa [(faces d i j (k + 1) hi hj hk).2.2.2.2.2.2, cellFlux_cell] at this
  have zd : ∀ i j k, i < d.nx → j < d.ny → k + 1 < d.nz → x (coarseCell d ⟨i, j, k + 1⟩) = 0 → x (coarseCell d ⟨i, j, k⟩) = 0 := by
    intro i j k hi hj hk h0
    have := (key i j (k + 1) hi hj (by omega) h0).2.2.2.2.2.2
    rwa [(faces d i j k hi hj (by omega)).2.2.2.2.1.2, cellFlux_cell] at this
  -- down to the first cell, up to any
  have toX : ∀ i j k, i < d.nx → j < d.ny → k < d.nz → (x (coarseCell d ⟨i, j, k⟩) = 0 ↔ x (coarseCell d ⟨0, j, k⟩) = 0) := by
    intro i j k hi hj hk
    induction i with
    | zero => exact Iff.rfl
    | succ i ih => exact ⟨fun h => (ih (by omega)).mp (xd i j k hi hj hk h), fun h => xu i j k hi hj hk ((ih (by omega)).mpr h)⟩
  have toY : ∀ i j k, i < d.nx → j < d.ny → k < d.nz → (x (coarseCell d ⟨i, j, k⟩) = 0 ↔ x (coarseCell d ⟨i, 0, k⟩) = 0) := by
    intro i j k hi hj hk
    induction j with
    | zero => exact Iff.rfl
    | succ j ih => exact ⟨fun h => (ih (by omega)).mp (yd i j k hi hj hk h), fun h => yu i j k hi hj hk ((ih (by omega)).mpr h)⟩
  have toZ : ∀ i j k, i < d.nx → j < d.ny → k < d.nz → (x (coarseCell d ⟨i, j, k⟩) = 0 ↔ x (coarseCell d ⟨i, j, 0⟩) = 0) := by
    intro i j k hi hj hk
    induction k with
    | zero => exact Iff.rfl
    | succ k ih => exact ⟨fun h => (ih (by omega)).mp (zd i j k hi hj hk h), fun h => zu i j k hi hj hk ((ih (by omega)).mpr h)⟩
  have to0 : ∀ i j k, i < d.nx → j < d.ny → k < d.nz → (x (coarseCell d ⟨i, j, k⟩) = 0 ↔ x (coarseCell d ⟨0, 0, 0⟩) = 0) := by
    intro i j k hi hj hk
    rw [toX i j k hi hj hk, toY 0 j k (by omega) hj hk, toZ 0 0 k (by omega) (by omega) hk]
  obtain ⟨e, he, hpos⟩ := hp
  obtain ⟨h1, h2, h3⟩ := pos_lt d c hc
  obtain ⟨k1, k2, k3⟩ := pos_lt d e he
  have ec : coarseCell d ⟨(coarsePosition d c).x, (coarsePosition d c).y, (coarsePosition d c).z⟩ = c := cell_pos d c
  have ee : coarseCell d ⟨(coarsePosition d e).x, (coarsePosition d e).y, (coarsePosition d e).z⟩ = e := cell_pos d e
  have z1 := (to0 _ _ _ h1 h2 h3).mp (by rw [ec]; exact hc0)
  have z2 := (to0 _ _ _ k1 k2 k3).mpr z1
  have := (key _ _ _ k1 k2 k3 z2).1
  rw [ee] at this
  change 0 < rowApply d w rm dt dh x e at hpos
  rw [this] at hpos
  exact lt_irrefl _ hpos

def pairDims : Dims := ⟨2, 1, 1⟩
def pairWidths : Widths ℚ := ⟨[1, 1], [1], [1]⟩
def pairDt : Nat → ℚ := fun _ => 1 / 5
def pairDh : Nat → ℚ := fun n => if n = enc pairDims ⟨.x, 1, 0, 0⟩ then 1 / 10 else 0
def pairFlux : Nat → ℚ := fun c => [7, 1].getD c 0

/-- Two cells with a correction on the face between them: the source is in the first only, and there is flux in both. -/
example : ∀ c < nPin pairDims, 0 < pairFlux c :=
  C125_everywhere pairDims pairWidths (fun _ => 1) pairDt pairDh pairFlux
    ⟨by decide +kernel, by decide +kernel, by decide +kernel⟩
    ⟨by rintro ⟨ax, i, j, k⟩ hv
        cases ax <;> simp only [Face.Valid, pairDims] at hv <;> obtain ⟨h1, h2, h3⟩ := hv <;> interval_cases i <;> interval_cases j <;> interval_cases k <;> decide +kernel,
      by rintro ⟨ax, i, j, k⟩ hv
         cases ax <;> simp only [Face.Valid, pairDims] at hv <;> obtain ⟨h1, h2, h3⟩ := hv <;> interval_cases i <;> interval_cases j <;> interval_cases k <;> decide +kernel⟩
    (by decide +kernel) (by decide +kernel) (by decide +kernel)

end Verif.Cmfd
