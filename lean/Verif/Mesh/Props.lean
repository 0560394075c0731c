import Verif.Mesh.Lemmas
import Mathlib.Tactic.FieldSimp
import Mathlib.Algebra.Order.Ring.Rat
import Mathlib.Algebra.Field.Rat

/-!
# C10–C15: coarse mesh indexing

A position `(i,j,k)` is in the grid when `i < nx`, `j < ny`, `k < nz`.
-/

namespace Verif.Mesh
open Spec

/-- C10: the position of the cell index of a grid position is that position, and the index is in range. -/
theorem C10_position_of_cell (d : Dims) (i j k : Nat) (hi : i < d.nx) (hj : j < d.ny) (hk : k < d.nz) :
    coarsePosition d (coarseCell d ⟨i, j, k⟩) = ⟨i, j, k⟩ ∧
      coarseCell d ⟨i, j, k⟩ < d.nx * d.ny * d.nz :=
  ⟨pos_cell d i j k hi hj, cell_lt d i j k hi hj hk⟩

/-- C10: the cell index of the position of a cell index is that index, and the position is in the grid. -/
theorem C10_cell_of_position (d : Dims) (c : Nat) (hc : c < d.nx * d.ny * d.nz) :
    coarseCell d (coarsePosition d c) = c ∧ (coarsePosition d c).x < d.nx ∧
      (coarsePosition d c).y < d.ny ∧ (coarsePosition d c).z < d.nz :=
  ⟨cell_pos d c, pos_lt d c hc⟩

/-- C10: cells are numbered in natural order, x fastest. -/
theorem C10_natural_order (d : Dims) (i j k : Nat) :
    coarseCell d ⟨i, j, k⟩ = i + d.nx * (j + d.ny * k) := by
  unfold coarseCell; ring

example : ∃ d : Dims, ∃ i j k, i < d.nx ∧ j < d.ny ∧ k < d.nz ∧ coarseCell d ⟨i, j, k⟩ = 17 :=
  ⟨⟨3, 2, 4⟩, 2, 1, 2, by decide⟩

/-- C11: each face of each cell has a surface number below `n_surf` (and the table lookup is in bounds). -/
theorem C11_surface_in_range (d : Dims) (i j k : Nat) (s : Surface) (hs : s ≠ .INTERNAL)
    (hi : i < d.nx) (hj : j < d.ny) (hk : k < d.nz) :
    ∃ n, coarseSurf d (coarseCell d ⟨i, j, k⟩) s = some n ∧ n < nSurf d := by
  obtain ⟨f, hf⟩ : ∃ f, faceOf i j k s = some f := by cases s <;> simp [faceOf] at hs ⊢
  exact ⟨_, coarseSurf_enc d i j k s f hf hi hj hk, enc_lt d f (faceOf_valid d i j k s f hf hi hj hk)⟩

/-- C11: two cell faces have the same number exactly when they are the same physical face. -/
theorem C11_same_number_iff_same_face (d : Dims) (i j k i' j' k' : Nat) (s s' : Surface)
    (hs : s ≠ .INTERNAL) (hs' : s' ≠ .INTERNAL)
    (hi : i < d.nx) (hj : j < d.ny) (hk : k < d.nz) (hi' : i' < d.nx) (hj' : j' < d.ny) (hk' : k' < d.nz) :
    coarseSurf d (coarseCell d ⟨i, j, k⟩) s = coarseSurf d (coarseCell d ⟨i', j', k'⟩) s' ↔
      faceOf i j k s = faceOf i' j' k' s' := by
  obtain ⟨f, hf⟩ : ∃ f, faceOf i j k s = some f := by cases s <;> simp [faceOf] at hs ⊢
  obtain ⟨f', hf'⟩ : ∃ f, faceOf i' j' k' s' = some f := by cases s' <;> simp [faceOf] at hs' ⊢
  rw [coarseSurf_enc d i j k s f hf hi hj hk, coarseSurf_enc d i' j' k' s' f' hf' hi' hj' hk', hf, hf']
  constructor
  · intro h
    rw [enc_inj d f f' (faceOf_valid d i j k s f hf hi hj hk)
      (faceOf_valid d i' j' k' s' f' hf' hi' hj' hk') (Option.some.inj h)]
  · intro h; rw [Option.some.inj h]

/-- A face of the grid is a face of some cell. -/
theorem face_of_cell (nx ny nz : Nat) (hx : 0 < nx) (hy : 0 < ny) (hz : 0 < nz) (f : Face)
    (hv : f.Valid nx ny nz) :
    ∃ i j k s, i < nx ∧ j < ny ∧ k < nz ∧ s ≠ Surface.INTERNAL ∧ faceOf i j k s = some f := by
  obtain ⟨a, i, j, k⟩ := f
  cases a <;> simp only [Face.Valid] at hv
  · rcases Nat.lt_or_ge i nx with h | h
    · exact ⟨i, j, k, .WEST, h, hv.2.1, hv.2.2, by simp, rfl⟩
    · exact ⟨i - 1, j, k, .EAST, by omega, hv.2.1, hv.2.2, by simp, by simp [faceOf]; omega⟩
  · rcases Nat.lt_or_ge j ny with h | h
    · exact ⟨i, j, k, .SOUTH, hv.1, h, hv.2.2, by simp, rfl⟩
    · exact ⟨i, j - 1, k, .NORTH, hv.1, by omega, hv.2.2, by simp, by simp [faceOf]; omega⟩
  · rcases Nat.lt_or_ge k nz with h | h
    · exact ⟨i, j, k, .BOTTOM, hv.1, hv.2.1, h, by simp, rfl⟩
    · exact ⟨i, j, k - 1, .TOP, hv.1, hv.2.1, by omega, by simp, by simp [faceOf]; omega⟩

/-- C11: there are no gaps: every number below `n_surf` is the number of some face of some cell. -/
theorem C11_no_gaps (d : Dims) (hx : 0 < d.nx) (hy : 0 < d.ny) (hz : 0 < d.nz) (n : Nat) (hn : n < nSurf d) :
    ∃ i j k s, i < d.nx ∧ j < d.ny ∧ k < d.nz ∧ s ≠ Surface.INTERNAL ∧
      coarseSurf d (coarseCell d ⟨i, j, k⟩) s = some n := by
  obtain ⟨f, hv, rfl⟩ := enc_surj d hx hy n hn
  obtain ⟨i, j, k, s, hi, hj, hk, hs, hf⟩ := face_of_cell d.nx d.ny d.nz hx hy hz f hv
  exact ⟨i, j, k, s, hi, hj, hk, hs, coarseSurf_enc d i j k s f hf hi hj hk⟩

/-- C11: `n_surf` is the number of faces of the grid: `(nx+1) ny nz + nx (ny+1) nz + nx ny (nz+1)`. -/
theorem C11_count (d : Dims) :
    nSurf d = (d.nx + 1) * d.ny * d.nz + d.nx * (d.ny + 1) * d.nz + d.nx * d.ny * (d.nz + 1) := by
  unfold nSurf; ring

example : coarseSurf ⟨3, 2, 2⟩ (coarseCell ⟨3, 2, 2⟩ ⟨0, 1, 0⟩) .EAST = some 11 ∧
    coarseSurf ⟨3, 2, 2⟩ (coarseCell ⟨3, 2, 2⟩ ⟨1, 1, 0⟩) .WEST = some 11 := by decide

/-- Index of a cell given by an optional position; `-1` stands for "outside". -/
def idx (nx ny : Nat) : Option (Nat × Nat × Nat) → Int
  | none => -1
  | some (i, j, k) => (i + nx * (j + ny * k) : Nat)

theorem coarseNeighCells_enc (d : Dims) (f : Face) (hv : f.Valid d.nx d.ny d.nz) :
    coarseNeighCells d (enc d f) = (idx d.nx d.ny (below f), idx d.nx d.ny (above d.nx d.ny d.nz f)) := by
  obtain ⟨h1, h2, h3, h4⟩ := enc_decode d f hv
  unfold coarseNeighCells
  simp only
  rw [h3, h2, h1]
  obtain ⟨a, i, j, k⟩ := f
  cases a <;> simp only [Axis.normal, Face.Valid] at *
  · rw [h4, Nat.add_sub_cancel_left]
    have e1 : ((d.nx + 1) * j + i) / (d.nx + 1) = j := by
      rw [Nat.mul_add_div (by omega), Nat.div_eq_of_lt (by omega)]; simp
    have e2 : ((d.nx + 1) * j + i) % (d.nx + 1) = i := by
      rw [Nat.mul_add_mod, Nat.mod_eq_of_lt (by omega)]
    rw [e1, e2]
    simp only [below, above]
    congr 1
    · by_cases h : i = 0
      · simp [h, idx]
      · rw [if_pos (by omega), if_neg h, C10_natural_order]; rfl
    · by_cases h : i = d.nx
      · simp [h, idx]
      · rw [if_pos (by omega), if_neg h, C10_natural_order]; rfl
  · have e0 : d.nx * d.ny + ((d.nx + 1) * d.ny + ((d.ny + 1) * i + j)) -
        (d.nx * d.ny + (d.nx + 1) * d.ny) = (d.ny + 1) * i + j := by omega
    rw [h4, e0]
    have e1 : ((d.ny + 1) * i + j) / (d.ny + 1) = i := by
      rw [Nat.mul_add_div (by omega), Nat.div_eq_of_lt (by omega)]; simp
    have e2 : ((d.ny + 1) * i + j) % (d.ny + 1) = j := by
      rw [Nat.mul_add_mod, Nat.mod_eq_of_lt (by omega)]
    rw [e1, e2]
    simp only [below, above]
    congr 1
    · by_cases h : j = 0
      · simp [h, idx]
      · rw [if_pos (by omega), if_neg h, C10_natural_order]; rfl
    · by_cases h : j = d.ny
      · simp [h, idx]
      · rw [if_pos (by omega), if_neg h, C10_natural_order]; rfl
  · rw [h4]
    have e1 : (d.nx * j + i) / d.nx = j := by
      rw [Nat.mul_add_div (by omega), Nat.div_eq_of_lt (by omega)]; simp
    have e2 : (d.nx * j + i) % d.nx = i := by
      rw [Nat.mul_add_mod, Nat.mod_eq_of_lt (by omega)]
    rw [e1, e2]
    simp only [below, above]
    congr 1
    · by_cases h : k = 0
      · simp [h, idx]
      · rw [if_pos (by omega), if_neg h, C10_natural_order]; rfl
    · by_cases h : k = d.nz
      · simp [h, idx]
      · rw [if_pos (by omega), if_neg h, C10_natural_order]; rfl

/-- C12: the cells reported for the surface number of a cell face are the cells on its two sides
(low side first), `-1` standing for the outside of the domain. -/
theorem C12_neighbour_cells (d : Dims) (i j k : Nat) (s : Surface) (f : Face) (n : Nat)
    (hi : i < d.nx) (hj : j < d.ny) (hk : k < d.nz) (hf : faceOf i j k s = some f)
    (hn : coarseSurf d (coarseCell d ⟨i, j, k⟩) s = some n) :
    coarseNeighCells d n = (idx d.nx d.ny (below f), idx d.nx d.ny (above d.nx d.ny d.nz f)) := by
  rw [coarseSurf_enc d i j k s f hf hi hj hk] at hn
  rw [← Option.some.inj hn]
  exact coarseNeighCells_enc d f (faceOf_valid d i j k s f hf hi hj hk)

/-- C12: for every surface number, the two reported cells touch it: the first through its positive face, the
second through its negative face; at least one of them is inside. -/
theorem C12_cells_touch_surface (d : Dims) (hx : 0 < d.nx) (hy : 0 < d.ny) (hz : 0 < d.nz) (n : Nat)
    (hn : n < nSurf d) :
    ((coarseNeighCells d n).1 = -1 ∨ ∃ c : Nat, (coarseNeighCells d n).1 = c ∧ c < nPin d ∧
        ∃ s, (s = .EAST ∨ s = .NORTH ∨ s = .TOP) ∧ coarseSurf d c s = some n) ∧
    ((coarseNeighCells d n).2 = -1 ∨ ∃ c : Nat, (coarseNeighCells d n).2 = c ∧ c < nPin d ∧
        ∃ s, (s = .WEST ∨ s = .SOUTH ∨ s = .BOTTOM) ∧ coarseSurf d c s = some n) ∧
    ¬ ((coarseNeighCells d n).1 = -1 ∧ (coarseNeighCells d n).2 = -1) := by
  obtain ⟨f, hv, rfl⟩ := enc_surj d hx hy n hn
  rw [coarseNeighCells_enc d f hv]
  obtain ⟨a, i, j, k⟩ := f
  have nat : ∀ i j k, ((i + d.nx * (j + d.ny * k) : Nat) : Int) ≠ -1 := by intros; omega
  cases a <;> simp only [Face.Valid, below, above] at *
  · refine ⟨?_, ?_, ?_⟩
    · by_cases h : i = 0
      · left; simp [h, idx]
      · right
        refine ⟨coarseCell d ⟨i - 1, j, k⟩, ?_, cell_lt d _ _ _ (by omega) hv.2.1 hv.2.2, .EAST, by simp,
          coarseSurf_enc d _ _ _ _ _ (by simp [faceOf]; omega) (by omega) hv.2.1 hv.2.2⟩
        rw [if_neg h, C10_natural_order]; rfl
    · by_cases h : i = d.nx
      · left; simp [h, idx]
      · right
        refine ⟨coarseCell d ⟨i, j, k⟩, ?_, cell_lt d _ _ _ (by omega) hv.2.1 hv.2.2, .WEST, by simp,
          coarseSurf_enc d _ _ _ _ _ (by simp [faceOf]) (by omega) hv.2.1 hv.2.2⟩
        rw [if_neg h, C10_natural_order]; rfl
    · rintro ⟨h1, h2⟩
      by_cases h : i = 0
      · rw [if_neg (by omega)] at h2; exact nat _ _ _ h2
      · rw [if_neg h] at h1; exact nat _ _ _ h1
  · refine ⟨?_, ?_, ?_⟩
    · by_cases h : j = 0
      · left; simp [h, idx]
      · right
        refine ⟨coarseCell d ⟨i, j - 1, k⟩, ?_, cell_lt d _ _ _ hv.1 (by omega) hv.2.2, .NORTH, by simp,
          coarseSurf_enc d _ _ _ _ _ (by simp [faceOf]; omega) hv.1 (by omega) hv.2.2⟩
        rw [if_neg h, C10_natural_order]; rfl
    · by_cases h : j = d.ny
      · left; simp [h, idx]
      · right
        refine ⟨coarseCell d ⟨i, j, k⟩, ?_, cell_lt d _ _ _ hv.1 (by omega) hv.2.2, .SOUTH, by simp,
          coarseSurf_enc d _ _ _ _ _ (by simp [faceOf]) hv.1 (by omega) hv.2.2⟩
        rw [if_neg h, C10_natural_order]; rfl
    · rintro ⟨h1, h2⟩
      by_cases h : j = 0
      · rw [if_neg (by omega)] at h2; exact nat _ _ _ h2
      · rw [if_neg h] at h1; exact nat _ _ _ h1
  · refine ⟨?_, ?_, ?_⟩
    · by_cases h : k = 0
      · left; simp [h, idx]
      · right
        refine ⟨coarseCell d ⟨i, j, k - 1⟩, ?_, cell_lt d _ _ _ hv.1 hv.2.1 (by omega), .TOP, by simp,
          coarseSurf_enc d _ _ _ _ _ (by simp [faceOf]; omega) hv.1 hv.2.1 (by omega)⟩
        rw [if_neg h, C10_natural_order]; rfl
    · by_cases h : k = d.nz
      · left; simp [h, idx]
      · right
        refine ⟨coarseCell d ⟨i, j, k⟩, ?_, cell_lt d _ _ _ hv.1 hv.2.1 (by omega), .BOTTOM, by simp,
          coarseSurf_enc d _ _ _ _ _ (by simp [faceOf]) hv.1 hv.2.1 (by omega)⟩
        rw [if_neg h, C10_natural_order]; rfl
    · rintro ⟨h1, h2⟩
      by_cases h : k = 0
      · rw [if_neg (by omega)] at h2; exact nat _ _ _ h2
      · rw [if_neg h] at h1; exact nat _ _ _ h1

example : coarseNeighCells ⟨3, 2, 2⟩ 11 = (3, 4) := by decide

/-- C13: the normal looked up by surface number is the axis of the face. -/
theorem C13_normal (d : Dims) (i j k : Nat) (s : Surface) (f : Face) (n : Nat)
    (hi : i < d.nx) (hj : j < d.ny) (hk : k < d.nz) (hf : faceOf i j k s = some f)
    (hn : coarseSurf d (coarseCell d ⟨i, j, k⟩) s = some n) : surfaceNormal d n = f.axis.normal := by
  rw [coarseSurf_enc d i j k s f hf hi hj hk] at hn
  rw [← Option.some.inj hn]
  exact (enc_decode d f (faceOf_valid d i j k s f hf hi hj hk)).2.1

/-- C13: the area looked up by surface number and by (cell, face) agree, no array access is out of bounds,
and the area is the product of the two widths across the face's axis. -/
theorem C13_area {K : Type} [Field K] (d : Dims) (w : Widths K)
    (hdx : w.dx.length = d.nx) (hdy : w.dy.length = d.ny) (hdz : w.dz.length = d.nz)
    (i j k : Nat) (s : Surface) (f : Face) (n : Nat)
    (hi : i < d.nx) (hj : j < d.ny) (hk : k < d.nz) (hf : faceOf i j k s = some f)
    (hn : coarseSurf d (coarseCell d ⟨i, j, k⟩) s = some n) :
    coarseAreaSurf d w n = coarseAreaCell d w (coarseCell d ⟨i, j, k⟩) s ∧
    coarseAreaSurf d w n = some (match f.axis with
      | .x => w.dy[j] * w.dz[k]
      | .y => w.dx[i] * w.dz[k]
      | .z => w.dx[i] * w.dy[j]) := by
  rw [coarseSurf_enc d i j k s f hf hi hj hk] at hn
  rw [← Option.some.inj hn]
  have hv := faceOf_valid d i j k s f hf hi hj hk
  obtain ⟨h1, h2, h3, h4⟩ := enc_decode d f hv
  have gx : w.dx[i]? = some w.dx[i] := List.getElem?_eq_getElem (by omega)
  have gy : w.dy[j]? = some w.dy[j] := List.getElem?_eq_getElem (by omega)
  have gz : w.dz[k]? = some w.dz[k] := List.getElem?_eq_getElem (by omega)
  unfold coarseAreaSurf coarseAreaCell
  simp only
  rw [pos_cell d i j k hi hj, h3, h2, h1]
  have divx : ∀ a b, b ≤ d.nx → ((d.nx + 1) * a + b) / (d.nx + 1) = a := by
    intro a b hb; rw [Nat.mul_add_div (by omega), Nat.div_eq_of_lt (by omega)]; simp
  have divy : ∀ a b, b ≤ d.ny → ((d.ny + 1) * a + b) / (d.ny + 1) = a := by
    intro a b hb; rw [Nat.mul_add_div (by omega), Nat.div_eq_of_lt (by omega)]; simp
  have divz : (d.nx * j + i) / d.nx = j := by
    rw [Nat.mul_add_div (by omega), Nat.div_eq_of_lt (by omega)]; simp
  have modz : (d.nx * j + i) % d.nx = i := by rw [Nat.mul_add_mod, Nat.mod_eq_of_lt (by omega)]
  have sub2 : ∀ a b c : Nat, a + (b + c) - (a + b) = c := by omega
  cases s <;> simp [faceOf] at hf <;> subst hf <;> simp only [Axis.normal, Face.Valid] at * <;> rw [h4] <;>
    (try simp only [Nat.add_sub_cancel_left, sub2])
  · rw [divx _ _ hv.1, gy, gz]; exact ⟨rfl, rfl⟩
  · rw [divy _ _ hv.2.1, gx, gz]; exact ⟨rfl, rfl⟩
  · rw [divx _ _ hv.1, gy, gz]; exact ⟨rfl, rfl⟩
  · rw [divy _ _ hv.2.1, gx, gz]; exact ⟨rfl, rfl⟩
  · rw [divz, modz, gx, gy]; exact ⟨rfl, rfl⟩
  · rw [divz, modz, gx, gy]; exact ⟨rfl, rfl⟩

/-- C13: the volume of a cell is its thickness along an axis times the area of its face normal to that axis. -/
theorem C13_volume {K : Type} [Field K] (d : Dims) (w : Widths K)
    (hdx : w.dx.length = d.nx) (hdy : w.dy.length = d.ny) (hdz : w.dz.length = d.nz)
    (i j k : Nat) (s : Surface) (f : Face)
    (hi : i < d.nx) (hj : j < d.ny) (hk : k < d.nz) (hf : faceOf i j k s = some f) :
    ∃ h a v, cellThickness d w (coarseCell d ⟨i, j, k⟩) f.axis.normal = some h ∧
      coarseAreaCell d w (coarseCell d ⟨i, j, k⟩) s = some a ∧
      coarseVolume d w (coarseCell d ⟨i, j, k⟩) = some v ∧ v = h * a ∧ v = w.dx[i] * w.dy[j] * w.dz[k] := by
  have gx : w.dx[i]? = some w.dx[i] := List.getElem?_eq_getElem (by omega)
  have gy : w.dy[j]? = some w.dy[j] := List.getElem?_eq_getElem (by omega)
  have gz : w.dz[k]? = some w.dz[k] := List.getElem?_eq_getElem (by omega)
  unfold cellThickness coarseAreaCell coarseVolume
  simp only
  rw [pos_cell d i j k hi hj]
  simp only [gx, gy, gz]
  cases s <;> simp [faceOf] at hf <;> subst hf <;> simp only [Axis.normal, gx, gy, gz] <;>
    refine ⟨_, _, _, rfl, rfl, rfl, ?_, rfl⟩ <;> ring

example : ∃ (w : Widths ℚ) (d : Dims), w.dx.length = d.nx ∧ w.dy.length = d.ny ∧ w.dz.length = d.nz ∧
    coarseAreaSurf d w 11 = some 8 :=
  ⟨⟨[1, 2, 3], [5, 4], [2, 7]⟩, ⟨3, 2, 2⟩, rfl, rfl, rfl, by decide +kernel⟩

/-- C14: stepping across a face gives the adjacent cell, or `-1` at the boundary of the domain. -/
theorem C14_neighbour (d : Dims) (i j k : Nat) (s : Surface) (hs : s ≠ .INTERNAL)
    (hi : i < d.nx) (hj : j < d.ny) :
    coarseNeighbor d (coarseCell d ⟨i, j, k⟩) s = idx d.nx d.ny (adjacent d.nx d.ny d.nz i j k s) := by
  have lin : ∀ i j k, (coarseCell d ⟨i, j, k⟩ : Int) = i + d.nx * (j + d.ny * k) := by
    intro i j k; rw [C10_natural_order]; push_cast; ring
  have lin' : ∀ i j k : Nat, idx d.nx d.ny (some (i, j, k)) = i + d.nx * (j + d.ny * k) := by
    intro i j k; simp only [idx]; push_cast; ring
  unfold coarseNeighbor
  simp only
  rw [pos_cell d i j k hi hj]
  cases s <;> simp only [adjacent] at hs ⊢
  · by_cases h : i + 1 < d.nx
    · rw [if_pos (by omega), if_pos h, lin, lin']; push_cast; ring
    · rw [if_neg (by omega), if_neg h]; rfl
  · by_cases h : j + 1 < d.ny
    · rw [if_pos (by omega), if_pos h, lin, lin']; push_cast; ring
    · rw [if_neg (by omega), if_neg h]; rfl
  · by_cases h : 0 < i
    · rw [if_pos h, if_pos h, lin, lin']; push_cast [Nat.cast_sub (show 1 ≤ i from h)]; ring
    · rw [if_neg h, if_neg h]; rfl
  · by_cases h : 0 < j
    · rw [if_pos h, if_pos h, lin, lin']; push_cast [Nat.cast_sub (show 1 ≤ j from h)]; ring
    · rw [if_neg h, if_neg h]; rfl
  · by_cases h : k + 1 < d.nz
    · rw [if_pos (by omega), if_pos h, lin, lin']; push_cast; ring
    · rw [if_neg (by omega), if_neg h]; rfl
  · by_cases h : 0 < k
    · rw [if_pos h, if_pos h, lin, lin']; push_cast [Nat.cast_sub (show 1 ≤ k from h)]; ring
    · rw [if_neg h, if_neg h]; rfl
  · exact absurd rfl hs

/-- C14: stepping across a face and back across the opposite face returns to the start, and the cell reached
touches the face through its opposite side. -/
theorem C14_step_back (d : Dims) (i j k : Nat) (s : Surface) (hs : s ≠ .INTERNAL)
    (hi : i < d.nx) (hj : j < d.ny) (hk : k < d.nz) (c : Nat)
    (hc : coarseNeighbor d (coarseCell d ⟨i, j, k⟩) s = c) :
    coarseNeighbor d c (opposite s) = coarseCell d ⟨i, j, k⟩ ∧
    coarseSurf d c (opposite s) = coarseSurf d (coarseCell d ⟨i, j, k⟩) s ∧ c < nPin d := by
  rw [C14_neighbour d i j k s hs hi hj] at hc
  have key : ∀ i' j' k', adjacent d.nx d.ny d.nz i j k s = some (i', j', k') →
      i' < d.nx ∧ j' < d.ny ∧ k' < d.nz ∧
      adjacent d.nx d.ny d.nz i' j' k' (opposite s) = some (i, j, k) ∧
      faceOf i' j' k' (opposite s) = faceOf i j k s := by
    intro i' j' k' h
    cases s <;> simp only [adjacent, opposite, faceOf] at h hs ⊢ <;>
      first
      | exact absurd rfl hs
      | (split at h
         · obtain ⟨rfl, rfl, rfl⟩ : _ ∧ _ ∧ _ := by simpa using h
           refine ⟨by omega, by omega, by omega, ?_, ?_⟩
           · first
             | (rw [if_pos (by omega)]; simp; done)
             | (rw [if_pos (by omega)]; simp; omega)
           · simp <;> omega
         · simp at h)
  cases hadj : adjacent d.nx d.ny d.nz i j k s with
  | none => rw [hadj] at hc; simp only [idx] at hc; omega
  | some p =>
    obtain ⟨i', j', k'⟩ := p
    obtain ⟨h1, h2, h3, h4, h5⟩ := key i' j' k' hadj
    have hcc : c = coarseCell d ⟨i', j', k'⟩ := by
      rw [hadj] at hc; simp only [idx] at hc
      rw [C10_natural_order]; exact (Int.ofNat.inj hc).symm
    have hos : opposite s ≠ .INTERNAL := by cases s <;> simp [opposite] at hs ⊢
    subst hcc
    refine ⟨?_, ?_, cell_lt d _ _ _ h1 h2 h3⟩
    · rw [C14_neighbour d i' j' k' (opposite s) hos h1 h2, h4, C10_natural_order]; rfl
    · exact (C11_same_number_iff_same_face d i' j' k' i j k (opposite s) s hos hs h1 h2 h3 hi hj hk).mpr h5

theorem adjacent_inj (nx ny nz i j k : Nat) (s s' : Surface) (p : Nat × Nat × Nat)
    (h : adjacent nx ny nz i j k s = some p) (h' : adjacent nx ny nz i j k s' = some p) : s = s' := by
  obtain ⟨a, b, c⟩ := p
  cases s <;> cases s' <;> simp [adjacent] at h h' ⊢ <;> omega

/-- C14: the interface of a cell and its neighbour across a face is that face: right surface number and
right direction. -/
theorem C14_interface (d : Dims) (i j k : Nat) (s : Surface) (hs : s ≠ .INTERNAL)
    (hi : i < d.nx) (hj : j < d.ny) (c : Nat)
    (hc : coarseNeighbor d (coarseCell d ⟨i, j, k⟩) s = c) :
    coarseInterface d (coarseCell d ⟨i, j, k⟩) c =
      some (coarseSurf d (coarseCell d ⟨i, j, k⟩) s, s) := by
  -- the six neighbours are pairwise different
  have inj : ∀ s', s' ≠ Surface.INTERNAL →
      coarseNeighbor d (coarseCell d ⟨i, j, k⟩) s' = c → s' = s := by
    intro s' hs' h
    rw [C14_neighbour d i j k s hs hi hj] at hc
    rw [C14_neighbour d i j k s' hs' hi hj] at h
    have e : ∀ a b, idx d.nx d.ny a = (c : Int) → idx d.nx d.ny b = (c : Int) →
        (∀ p, a = some p → p.1 < d.nx ∧ p.2.1 < d.ny) → (∀ p, b = some p → p.1 < d.nx ∧ p.2.1 < d.ny) →
        a = b ∧ a ≠ none := by
      intro a b ha hb hpa hpb
      cases a with
      | none => simp only [idx] at ha; omega
      | some p =>
        cases b with
        | none => simp only [idx] at hb; omega
        | some q =>
          obtain ⟨a1, a2, a3⟩ := p
          obtain ⟨b1, b2, b3⟩ := q
          have := hpa _ rfl
          have := hpb _ rfl
          simp only [idx] at ha hb
          have h1 := Int.ofNat.inj (ha.trans hb.symm)
          have hp1 := pos_cell d a1 a2 a3 (by simp_all) (by simp_all)
          have hp2 := pos_cell d b1 b2 b3 (by simp_all) (by simp_all)
          rw [C10_natural_order] at hp1 hp2
          rw [h1, hp2] at hp1
          obtain ⟨rfl, rfl, rfl⟩ : b1 = a1 ∧ b2 = a2 ∧ b3 = a3 := by simpa using hp1
          simp
    have bnd : ∀ t p, t ≠ Surface.INTERNAL → adjacent d.nx d.ny d.nz i j k t = some p →
        p.1 < d.nx ∧ p.2.1 < d.ny := by
      intro t p ht hp
      cases t <;> simp only [adjacent] at hp ht <;>
        first
        | exact absurd rfl ht
        | (split at hp
           · obtain rfl := Option.some.inj hp
             exact ⟨by simp only; omega, by simp only; omega⟩
           · simp at hp)
    obtain ⟨heq, hne⟩ := e _ _ h hc (fun p hp => bnd s' p hs' hp) (fun p hp => bnd s p hs hp)
    obtain ⟨p, hp⟩ := Option.ne_none_iff_exists'.mp hne
    exact adjacent_inj d.nx d.ny d.nz i j k s' s p hp (heq ▸ hp)
  unfold coarseInterface
  have hmem : s ∈ allSurfaces := by cases s <;> simp [allSurfaces] at hs ⊢
  cases hfind : allSurfaces.find? (fun s' => coarseNeighbor d (coarseCell d ⟨i, j, k⟩) s' = (c : Int)) with
  | none =>
    rw [List.find?_eq_none] at hfind
    exact absurd hc (by simpa using hfind s hmem)
  | some t =>
    have h1 := List.find?_some hfind
    have h2 := List.mem_of_find?_eq_some hfind
    have ht : t ≠ .INTERNAL := by rintro rfl; simp [allSurfaces] at h2
    have := inj t ht (by simpa using h1)
    subst this
    rfl

/-- C14: cells that are not adjacent (and only those) are rejected with an exception. -/
theorem C14_interface_throws (d : Dims) (c1 c2 : Nat) :
    coarseInterface d c1 c2 = none ↔ ∀ s, s ≠ Surface.INTERNAL → coarseNeighbor d c1 s ≠ (c2 : Int) := by
  unfold coarseInterface
  rw [Option.map_eq_none_iff, List.find?_eq_none]
  constructor
  · intro h s hs
    have hmem : s ∈ allSurfaces := by cases s <;> simp [allSurfaces] at hs ⊢
    simpa using h s hmem
  · intro h s hmem
    have : s ≠ .INTERNAL := by rintro rfl; simp [allSurfaces] at hmem
    simpa using h s this

example : coarseNeighbor ⟨3, 2, 2⟩ (coarseCell ⟨3, 2, 2⟩ ⟨0, 1, 0⟩) .EAST = (4 : Nat) ∧
    coarseInterface ⟨3, 2, 2⟩ (coarseCell ⟨3, 2, 2⟩ ⟨0, 1, 0⟩) 4 = some (some 11, .EAST) := by decide

/-! ### boundary_surface -/

section Boundary
variable {K : Type} [Field K] [LinearOrder K]

/-- Specification: the point is on (within the tolerance of, or beyond) the domain face `s` and moves out
through it. -/
def Leaves (e : Extent K) (p o : Vec3 K) : Surface → Prop
  | .WEST => p.x < e.fuzz ∧ o.x < 0
  | .EAST => p.x / e.hx > 1 - e.fuzz ∧ o.x > 0
  | .SOUTH => p.y < e.fuzz ∧ o.y < 0
  | .NORTH => p.y / e.hy > 1 - e.fuzz ∧ o.y > 0
  | .BOTTOM => p.z < e.fuzz ∧ o.z < 0
  | .TOP => p.z / e.hz > 1 - e.fuzz ∧ o.z > 0
  | .INTERNAL => False

/-- C15 (full claim, false): every domain face through which the particle leaves is reported. -/
def C15_claim (K : Type) [Field K] [LinearOrder K] : Prop :=
  ∀ (e : Extent K) (p o : Vec3 K) (s : Surface), Leaves e p o s → reported (boundarySurface e p o) s

/-- C15: a particle leaving through the west-south edge is reported on the west face only; likewise the
bottom-east and north-top edges lose a face. -/
theorem C15_corner_missed :
    (∃ (e : Extent ℚ) (p o : Vec3 ℚ), Leaves e p o .WEST ∧ Leaves e p o .SOUTH ∧
      ¬ reported (boundarySurface e p o) .SOUTH) ∧
    (∃ (e : Extent ℚ) (p o : Vec3 ℚ), Leaves e p o .BOTTOM ∧ Leaves e p o .EAST ∧
      ¬ reported (boundarySurface e p o) .EAST) ∧
    (∃ (e : Extent ℚ) (p o : Vec3 ℚ), Leaves e p o .NORTH ∧ Leaves e p o .TOP ∧
      ¬ reported (boundarySurface e p o) .TOP) := by
  refine ⟨⟨⟨1, 1, 1, 1/1000⟩, ⟨0, 0, 1/2⟩, ⟨-1/2, -1/2, 1/2⟩, ?_⟩, ⟨⟨1, 1, 1, 1/1000⟩, ⟨1, 1/2, 0⟩, ⟨1/2, 1/2, -1/2⟩, ?_⟩,
    ⟨⟨1, 1, 1, 1/1000⟩, ⟨1/2, 1, 1⟩, ⟨1/2, 1/2, 1/2⟩, ?_⟩⟩ <;>
  refine ⟨by norm_num [Leaves], by norm_num [Leaves], ?_⟩ <;>
  norm_num [reported, boundarySurface] <;> decide

theorem C15_claim_false : ¬ C15_claim ℚ := by
  intro h
  obtain ⟨⟨e, p, o, -, h2, h3⟩, -⟩ := C15_corner_missed
  exact h3 (h e p o .SOUTH h2)

/-- C15: what holds. Every reported face is one the particle leaves through; if it leaves at all, at least one
face is reported; a face is reported exactly when the particle leaves through it unless it is the second of
one of the pairs west/south, bottom/east, north/top and the first of the pair is left through too. -/
theorem C15_boundary_surface_partial (e : Extent K) (p o : Vec3 K) (s : Surface) :
    (reported (boundarySurface e p o) s → Leaves e p o s) ∧
    (Leaves e p o s → ∃ s', reported (boundarySurface e p o) s') ∧
    (reported (boundarySurface e p o) s ↔ Leaves e p o s ∧
      ¬ (s = .SOUTH ∧ Leaves e p o .WEST) ∧ ¬ (s = .EAST ∧ Leaves e p o .BOTTOM) ∧
      ¬ (s = .TOP ∧ Leaves e p o .NORTH)) := by
  have main : ∀ s, (reported (boundarySurface e p o) s ↔ Leaves e p o s ∧
      ¬ (s = .SOUTH ∧ Leaves e p o .WEST) ∧ ¬ (s = .EAST ∧ Leaves e p o .BOTTOM) ∧
      ¬ (s = .TOP ∧ Leaves e p o .NORTH)) := by
    intro s
    unfold reported boundarySurface Leaves
    by_cases h1 : p.x < e.fuzz ∧ o.x < 0 <;> by_cases h2 : p.y < e.fuzz ∧ o.y < 0 <;>
    by_cases h3 : p.z < e.fuzz ∧ o.z < 0 <;> by_cases h4 : p.x / e.hx > 1 - e.fuzz ∧ o.x > 0 <;>
    by_cases h5 : p.y / e.hy > 1 - e.fuzz ∧ o.y > 0 <;>
    by_cases h6 : p.z / e.hz > 1 - e.fuzz ∧ o.z > 0 <;>
    simp only [h1, h2, h3, h4, h5, h6, if_true, if_false, and_true] <;> cases s <;> simp
  refine ⟨fun h => ((main s).mp h).1, ?_, main s⟩
  intro h
  by_cases hw : Leaves e p o .WEST
  · exact ⟨.WEST, (main _).mpr ⟨hw, by simp, by simp, by simp⟩⟩
  · by_cases hb : Leaves e p o .BOTTOM
    · exact ⟨.BOTTOM, (main _).mpr ⟨hb, by simp, by simp, by simp⟩⟩
    · by_cases hn : Leaves e p o .NORTH
      · exact ⟨.NORTH, (main _).mpr ⟨hn, by simp, by simp, by simp⟩⟩
      · exact ⟨s, (main s).mpr ⟨h, fun h' => hw h'.2, fun h' => hb h'.2, fun h' => hn h'.2⟩⟩

end Boundary

end Verif.Mesh
