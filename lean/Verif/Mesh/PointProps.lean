import Verif.Mesh.PointModel
import Verif.Mesh.CrossProps
import Mathlib.Tactic.NormNum
import Mathlib.Tactic.IntervalCases

/-!
# C106: points, cells and surfaces of the coarse mesh
-/

set_option linter.unusedSimpArgs false

namespace Verif.Mesh

open Verif.Geom Spec

/-- The coordinate is strictly between the grid lines `i` and `i + 1`. -/
def Inside (xs : List ℝ) (i : Nat) (u : ℝ) : Prop := ∃ l r, xs[i]? = some l ∧ xs[i + 1]? = some r ∧ l < u ∧ u < r

/-- The lines of a mesh, in order, with comparisons that recognise the point. -/
structure GridAt (near : ℝ → ℝ → Bool) (d : Dims) (xs ys : List ℝ) (p : Pt ℝ) : Prop where
  lenX : xs.length = d.nx + 1
  lenY : ys.length = d.ny + 1
  sortX : xs.Pairwise (· < ·)
  sortY : ys.Pairwise (· < ·)
  exX : Exact near p.x xs
  exY : Exact near p.y ys

theorem idx_lt {xs : List ℝ} {n k : Nat} {u : ℝ} (hl : xs.length = n + 1) (h : xs[k]? = some u) : k ≤ n := by
  have := (List.getElem?_eq_some_iff.mp h).1
  omega

theorem Inside.lt {xs : List ℝ} {n i : Nat} {u : ℝ} (hl : xs.length = n + 1) (h : Inside xs i u) : i < n := by
  obtain ⟨_, _, _, h2, _⟩ := h
  have := (List.getElem?_eq_some_iff.mp h2).1
  omega

theorem Inside.find {near : ℝ → ℝ → Bool} {xs : List ℝ} {i : Nat} {u : ℝ} (hs : xs.Pairwise (· < ·)) (he : Exact near u xs) (h : Inside xs i u) :
    findLine near u xs 0 = (false, (i : Int)) := by
  obtain ⟨l, r, h1, h2, h3, h4⟩ := h
  simpa using findLine_between near u l r xs 0 i hs he h1 h2 h3 h4

theorem on_find {near : ℝ → ℝ → Bool} {xs : List ℝ} {i : Nat} {u : ℝ} (hs : xs.Pairwise (· < ·)) (he : Exact near u xs) (h : xs[i]? = some u) :
    findLine near u xs 0 = (true, (i : Int)) := by
  simpa using findLine_on near u xs 0 i hs he h

/-- C106: a point inside of a cell is on no surface. -/
theorem C106_inside (near : ℝ → ℝ → Bool) (d : Dims) (xs ys : List ℝ) (p : Pt ℝ) (g : GridAt near d xs ys p) (cell i j : Nat)
    (hx : Inside xs i p.x) (hy : Inside ys j p.y) : surfPoint near d xs ys p cell = some [] := by
  simp [surfPoint, hx.find g.sortX g.exX, hy.find g.sortY g.exY]

/-- C106: a point on a grid line between two corners is on one surface, that of the cells on both sides of it in the bottom plane. -/
theorem C106_line_x (near : ℝ → ℝ → Bool) (d : Dims) (xs ys : List ℝ) (p : Pt ℝ) (g : GridAt near d xs ys p) (hz : 0 < d.nz) (cell k j : Nat)
    (hx : xs[k]? = some p.x) (hy : Inside ys j p.y) :
    ∃ s, surfPoint near d xs ys p cell = some [s] ∧
      (k < d.nx → coarseSurf d (coarseCell d ⟨k, j, 0⟩) .WEST = some s) ∧
      (0 < k → coarseSurf d (coarseCell d ⟨k - 1, j, 0⟩) .EAST = some s) := by
  have hk := idx_lt g.lenX hx
  have hj := hy.lt g.lenY
  refine ⟨d.nx * d.ny + (d.nx + 1) * j + k, ?_, ?_, ?_⟩
  · simp only [surfPoint, on_find g.sortX g.exX hx, hy.find g.sortY g.exY]
    have : ((d.nx : Int) * d.ny + (d.nx + 1) * j + k) = ((d.nx * d.ny + (d.nx + 1) * j + k : Nat) : Int) := by push_cast; ring
    rw [this, Int.toNat_natCast]
  · intro h
    rw [coarseSurf_enc d k j 0 .WEST _ rfl h hj hz]
    simp only [enc]; congr 1; ring
  · intro h
    rw [coarseSurf_enc d (k - 1) j 0 .EAST _ rfl (by omega) hj hz]
    simp only [enc, Nat.sub_add_cancel h]; congr 1; ring

/-- C106: the same on lines of constant y. -/
theorem C106_line_y (near : ℝ → ℝ → Bool) (d : Dims) (xs ys : List ℝ) (p : Pt ℝ) (g : GridAt near d xs ys p) (hz : 0 < d.nz) (cell i l : Nat)
    (hx : Inside xs i p.x) (hy : ys[l]? = some p.y) :
    ∃ s, surfPoint near d xs ys p cell = some [s] ∧
      (l < d.ny → coarseSurf d (coarseCell d ⟨i, l, 0⟩) .SOUTH = some s) ∧
      (0 < l → coarseSurf d (coarseCell d ⟨i, l - 1, 0⟩) .NORTH = some s) := by
  have hl := idx_lt g.lenY hy
  have hi := hx.lt g.lenX
  refine ⟨d.nx * d.ny + (d.nx + 1) * d.ny + (d.ny + 1) * i + l, ?_, ?_, ?_⟩
  · simp only [surfPoint, hx.find g.sortX g.exX, on_find g.sortY g.exY hy]
    have : ((d.nx : Int) * d.ny + (d.nx + 1) * d.ny + (d.ny + 1) * i + l) =
        ((d.nx * d.ny + (d.nx + 1) * d.ny + (d.ny + 1) * i + l : Nat) : Int) := by push_cast; ring
    rw [this, Int.toNat_natCast]
  · intro h
    rw [coarseSurf_enc d i l 0 .SOUTH _ rfl hi h hz]
    simp only [enc]; congr 1; ring
  · intro h
    rw [coarseSurf_enc d i (l - 1) 0 .NORTH _ rfl hi (by omega) hz]
    simp only [enc, Nat.sub_add_cancel h]; congr 1; ring

/-- The faces named at the corner `(k, l)` of the grid, for the cell `(i, j)` that touches it. -/
inductive Corner (nx ny : Nat) : (k l i j : Nat) → List ((Nat × Nat) × Surface) → Prop
  /-- Inside of the mesh: out of the cell through its face normal to X, and on from the cell beyond through that normal to Y. -/
  | ne {k l : Nat} : k + 1 < nx → l + 1 < ny → Corner nx ny (k + 1) (l + 1) k l [((k, l), .EAST), ((k + 1, l), .NORTH)]
  | nw {k l : Nat} : k + 1 < nx → l + 1 < ny → Corner nx ny (k + 1) (l + 1) (k + 1) l [((k + 1, l), .WEST), ((k, l), .NORTH)]
  | se {k l : Nat} : k + 1 < nx → l + 1 < ny → Corner nx ny (k + 1) (l + 1) k (l + 1) [((k, l + 1), .EAST), ((k + 1, l + 1), .SOUTH)]
  | sw {k l : Nat} : k + 1 < nx → l + 1 < ny → Corner nx ny (k + 1) (l + 1) (k + 1) (l + 1) [((k + 1, l + 1), .WEST), ((k, l + 1), .SOUTH)]
  /-- On the sides of the mesh: the outer face of the lower cell, and on to the upper. -/
  | westLow {l : Nat} : 0 < nx → l < ny → Corner nx ny 0 (l + 1) 0 l [((0, l), .WEST)]
  | westUp {l : Nat} : 0 < nx → l + 1 < ny → Corner nx ny 0 (l + 1) 0 (l + 1) [((0, l), .WEST), ((0, l + 1), .SOUTH)]
  | eastLow {k l : Nat} : nx = k + 1 → l < ny → Corner nx ny (k + 1) (l + 1) k l [((k, l), .EAST)]
  | eastUp {k l : Nat} : nx = k + 1 → l + 1 < ny → Corner nx ny (k + 1) (l + 1) k (l + 1) [((k, l), .EAST), ((k, l + 1), .SOUTH)]
  /-- Below: that of the left cell, and on to the right. -/
  | southLeft {k : Nat} : k + 1 < nx → 0 < ny → Corner nx ny (k + 1) 0 k 0 [((k, 0), .SOUTH)]
  | southRight {k : Nat} : k + 1 < nx → 0 < ny → Corner nx ny (k + 1) 0 (k + 1) 0 [((k, 0), .SOUTH), ((k + 1, 0), .WEST)]
  /-- Above: that of the right cell, and on to the left. -/
  | northRight {k l : Nat} : k + 1 < nx → ny = l + 1 → Corner nx ny (k + 1) (l + 1) (k + 1) l [((k + 1, l), .NORTH)]
  | northLeft {k l : Nat} : k + 1 < nx → ny = l + 1 → Corner nx ny (k + 1) (l + 1) k l [((k + 1, l), .NORTH), ((k, l), .EAST)]

theorem surfOf_cell (d : Dims) (i j m : Nat) (s : Surface) (c : Int) (hc : c = coarseCell d ⟨i, j, m⟩) : surfOf d c s = coarseSurf d (coarseCell d ⟨i, j, m⟩) s := by
  subst hc
  simp [surfOf]

theorem surf_some (d : Dims) (i j m : Nat) (s : Surface) (hs : s ≠ .INTERNAL) (hi : i < d.nx) (hj : j < d.ny) (hm : m < d.nz) :
    ∃ n, coarseSurf d (coarseCell d ⟨i, j, m⟩) s = some n := by
  cases s <;> first | exact absurd rfl hs | exact ⟨_, coarseSurf_enc d i j m _ _ rfl hi hj hm⟩

theorem neigh_cell (d : Dims) (i j m i' j' : Nat) (s : Surface) (hs : s ≠ .INTERNAL) (hi : i < d.nx) (hj : j < d.ny)
    (h : adjacent d.nx d.ny d.nz i j m s = some (i', j', m)) : coarseNeighbor d (coarseCell d ⟨i, j, m⟩) s = coarseCell d ⟨i', j', m⟩ := by
  rw [C14_neighbour d i j m s hs hi hj, h, C10_natural_order]
  simp [idx]

theorem both_some {a b : Option Nat} {x y : Nat} (ha : a = some x) (hb : b = some y) : both a b = some [x, y] := by subst ha hb; rfl

/-- C106: at a corner of the grid the surfaces are those of the table, in the plane of the cell. -/
theorem C106_corner (near : ℝ → ℝ → Bool) (d : Dims) (xs ys : List ℝ) (p : Pt ℝ) (g : GridAt near d xs ys p) (i j m k l : Nat) (hm : m < d.nz)
    (hx : xs[k]? = some p.x) (hy : ys[l]? = some p.y) (fs : List ((Nat × Nat) × Surface)) (hc : Corner d.nx d.ny k l i j fs) :
    ∃ ns, surfPoint near d xs ys p (coarseCell d ⟨i, j, m⟩) = some ns ∧
      List.Forall₂ (fun f n => coarseSurf d (coarseCell d ⟨f.1.1, f.1.2, m⟩) f.2 = some n) fs ns := by
  have key : ∀ (i j : Nat), i < d.nx → j < d.ny → surfPoint near d xs ys p (coarseCell d ⟨i, j, m⟩) =
      (cornerX k i).bind fun cx => (cornerY l j).bind fun cy => cornerSurfs d k l (coarseCell d ⟨i, j, m⟩) cx cy := by
    intro i j hi hj
    simp only [surfPoint, on_find g.sortX g.exX hx, on_find g.sortY g.exY hy, pos_cell d i j m hi hj]
  have two : ∀ {a b : (Nat × Nat) × Surface}, a.1.1 < d.nx → a.1.2 < d.ny → b.1.1 < d.nx → b.1.2 < d.ny → a.2 ≠ .INTERNAL → b.2 ≠ .INTERNAL →
      ∃ ns, both (coarseSurf d (coarseCell d ⟨a.1.1, a.1.2, m⟩) a.2) (coarseSurf d (coarseCell d ⟨b.1.1, b.1.2, m⟩) b.2) = some ns ∧
        List.Forall₂ (fun f n => coarseSurf d (coarseCell d ⟨f.1.1, f.1.2, m⟩) f.2 = some n) [a, b] ns := by
    intro a b h1 h2 h3 h4 h5 h6
    obtain ⟨x, ex⟩ := surf_some d a.1.1 a.1.2 m a.2 h5 h1 h2 hm
    obtain ⟨y, ey⟩ := surf_some d b.1.1 b.1.2 m b.2 h6 h3 h4 hm
    exact ⟨[x, y], both_some ex ey, .cons ex (.cons ey .nil)⟩
  have one : ∀ {a : (Nat × Nat) × Surface}, a.1.1 < d.nx → a.1.2 < d.ny → a.2 ≠ .INTERNAL →
      ∃ ns, (coarseSurf d (coarseCell d ⟨a.1.1, a.1.2, m⟩) a.2).map (fun s => [s]) = some ns ∧
        List.Forall₂ (fun f n => coarseSurf d (coarseCell d ⟨f.1.1, f.1.2, m⟩) f.2 = some n) [a] ns := by
    intro a h1 h2 h5
    obtain ⟨x, ex⟩ := surf_some d a.1.1 a.1.2 m a.2 h5 h1 h2 hm
    exact ⟨[x], by rw [ex]; rfl, .cons ex .nil⟩
  have nb := fun i j i' j' s (hs : s ≠ Surface.INTERNAL) hi hj h => neigh_cell d i j m i' j' s hs hi hj h
  induction hc with
  | @ne k l h1 h2 =>
    rw [key k l (by omega) (by omega)]
    have := @two ((k, l), .EAST) ((k + 1, l), .NORTH) (by dsimp; omega) (by dsimp; omega) (by dsimp; omega) (by dsimp; omega) (by simp) (by simp)
    have e := nb k l (k + 1) l .EAST (by simp) (by omega) (by omega) (by simp [adjacent]; try omega)
    simpa [cornerX, cornerY, cornerSurfs, e, surfOf_cell d (k) (l) m _ _ rfl, surfOf_cell d (k + 1) (l) m _ _ rfl, show ¬ ((k : Int) + 1 = 0) by omega, show ¬ ((l : Int) + 1 = 0) by omega, show ¬ ((k : Int) + 1 = d.nx) by omega, show ¬ ((l : Int) + 1 = d.ny) by omega] using this
  | @nw k l h1 h2 =>
    rw [key (k + 1) l (by omega) (by omega)]
    have := @two ((k + 1, l), .WEST) ((k, l), .NORTH) (by dsimp; omega) (by dsimp; omega) (by dsimp; omega) (by dsimp; omega) (by simp) (by simp)
    have e := nb (k + 1) l k l .WEST (by simp) (by omega) (by omega) (by simp [adjacent]; try omega)
    simpa [cornerX, cornerY, cornerSurfs, e, surfOf_cell d (k) (l) m _ _ rfl, surfOf_cell d (k + 1) (l) m _ _ rfl, show ¬ ((k : Int) + 1 = 0) by omega, show ¬ ((l : Int) + 1 = 0) by omega, show ¬ ((k : Int) + 1 = d.nx) by omega, show ¬ ((l : Int) + 1 = d.ny) by omega] using this
  | @se k l h1 h2 =>
    rw [key k (l + 1) (by omega) (by omega)]
    have := @two ((k, l + 1), .EAST) ((k + 1, l + 1), .SOUTH) (by dsimp; omega) (by dsimp; omega) (by dsimp; omega) (by dsimp; omega) (by simp) (by simp)
    have e := nb k (l + 1) (k + 1) (l + 1) .EAST (by simp) (by omega) (by omega) (by simp [adjacent]; try omega)
    simpa [cornerX, cornerY, cornerSurfs, e, surfOf_cell d (k) (l + 1) m _ _ rfl, surfOf_cell d (k + 1) (l + 1) m _ _ rfl, show ¬ ((k : Int) + 1 = 0) by omega, show ¬ ((l : Int) + 1 = 0) by omega, show ¬ ((k : Int) + 1 = d.nx) by omega, show ¬ ((l : Int) + 1 = d.ny) by omega] using this
  | @sw k l h1 h2 =>
    rw [key (k + 1) (l + 1) (by omega) (by omega)]
    have := @two ((k + 1, l + 1), .WEST) ((k, l + 1), .SOUTH) (by dsimp; omega) (by dsimp; omega) (by dsimp; omega) (by dsimp; omega) (by simp) (by simp)
    have e := nb (k + 1) (l + 1) k (l + 1) .WEST (by simp) (by omega) (by omega) (by simp [adjacent]; try omega)
    simpa [cornerX, cornerY, cornerSurfs, e, surfOf_cell d (k) (l + 1) m _ _ rfl, surfOf_cell d (k + 1) (l + 1) m _ _ rfl, show ¬ ((k : Int) + 1 = 0) by omega, show ¬ ((l : Int) + 1 = 0) by omega, show ¬ ((k : Int) + 1 = d.nx) by omega, show ¬ ((l : Int) + 1 = d.ny) by omega] using this
  | @westLow l h1 h2 =>
    rw [key 0 l (by omega) (by omega)]
    have := @one ((0, l), .WEST) (by dsimp; omega) (by dsimp; omega) (by simp)
    simpa [cornerX, cornerY, cornerSurfs, surfOf_cell d (0) (l) m _ _ rfl] using this
  | @westUp l h1 h2 =>
    rw [key 0 (l + 1) (by omega) (by omega)]
    have := @two ((0, l), .WEST) ((0, l + 1), .SOUTH) (by dsimp; omega) (by dsimp; omega) (by dsimp; omega) (by dsimp; omega) (by simp) (by simp)
    have e := nb 0 (l + 1) 0 l .SOUTH (by simp) (by omega) (by omega) (by simp [adjacent]; try omega)
    simpa [cornerX, cornerY, cornerSurfs, e, surfOf_cell d (0) (l) m _ _ rfl, surfOf_cell d (0) (l + 1) m _ _ rfl] using this
  | @eastLow k l h1 h2 =>
    rw [key k l (by omega) (by omega)]
    have := @one ((k, l), .EAST) (by dsimp; omega) (by dsimp; omega) (by simp)
    simpa [cornerX, cornerY, cornerSurfs, surfOf_cell d (k) (l) m _ _ rfl, show ¬ ((k : Int) + 1 = 0) by omega, show ((k : Int) + 1 = d.nx) by omega, show ¬ (d.nx = k) by omega, show ¬ (d.nx = 0) by omega] using this
  | @eastUp k l h1 h2 =>
    rw [key k (l + 1) (by omega) (by omega)]
    have := @two ((k, l), .EAST) ((k, l + 1), .SOUTH) (by dsimp; omega) (by dsimp; omega) (by dsimp; omega) (by dsimp; omega) (by simp) (by simp)
    have e := nb k (l + 1) k l .SOUTH (by simp) (by omega) (by omega) (by simp [adjacent]; try omega)
    simpa [cornerX, cornerY, cornerSurfs, e, surfOf_cell d (k) (l) m _ _ rfl, surfOf_cell d (k) (l + 1) m _ _ rfl, show ¬ ((k : Int) + 1 = 0) by omega, show ((k : Int) + 1 = d.nx) by omega, show ¬ (d.nx = k) by omega, show ¬ (d.nx = 0) by omega] using this
  | @southLeft k h1 h2 =>
    rw [key k 0 (by omega) (by omega)]
    have := @one ((k, 0), .SOUTH) (by dsimp; omega) (by dsimp; omega) (by simp)
    simpa [cornerX, cornerY, cornerSurfs, surfOf_cell d (k) (0) m _ _ rfl, show ¬ ((k : Int) + 1 = 0) by omega, show ¬ ((k : Int) + 1 = d.nx) by omega] using this
  | @southRight k h1 h2 =>
    rw [key (k + 1) 0 (by omega) (by omega)]
    have := @two ((k, 0), .SOUTH) ((k + 1, 0), .WEST) (by dsimp; omega) (by dsimp; omega) (by dsimp; omega) (by dsimp; omega) (by simp) (by simp)
    have e := nb (k + 1) 0 k 0 .WEST (by simp) (by omega) (by omega) (by simp [adjacent]; try omega)
    simpa [cornerX, cornerY, cornerSurfs, e, surfOf_cell d (k) (0) m _ _ rfl, surfOf_cell d (k + 1) (0) m _ _ rfl, show ¬ ((k : Int) + 1 = 0) by omega, show ¬ ((k : Int) + 1 = d.nx) by omega] using this
  | @northRight k l h1 h2 =>
    rw [key (k + 1) l (by omega) (by omega)]
    have := @one ((k + 1, l), .NORTH) (by dsimp; omega) (by dsimp; omega) (by simp)
    simpa [cornerX, cornerY, cornerSurfs, surfOf_cell d (k + 1) (l) m _ _ rfl, show ¬ ((k : Int) + 1 = 0) by omega, show ¬ ((k : Int) + 1 = d.nx) by omega, show ¬ ((l : Int) + 1 = 0) by omega, show ((l : Int) + 1 = d.ny) by omega, show ¬ (d.ny = l) by omega, show ¬ (d.ny = 0) by omega] using this
  | @northLeft k l h1 h2 =>
    rw [key k l (by omega) (by omega)]
    have := @two ((k + 1, l), .NORTH) ((k, l), .EAST) (by dsimp; omega) (by dsimp; omega) (by dsimp; omega) (by dsimp; omega) (by simp) (by simp)
    have e := nb k l (k + 1) l .EAST (by simp) (by omega) (by omega) (by simp [adjacent]; try omega)
    simpa [cornerX, cornerY, cornerSurfs, e, surfOf_cell d (k) (l) m _ _ rfl, surfOf_cell d (k + 1) (l) m _ _ rfl, show ¬ ((k : Int) + 1 = 0) by omega, show ¬ ((k : Int) + 1 = d.nx) by omega, show ¬ ((l : Int) + 1 = 0) by omega, show ((l : Int) + 1 = d.ny) by omega, show ¬ (d.ny = l) by omega, show ¬ (d.ny = 0) by omega] using this

/-- C106: the table has one entry for each cell at each corner of the grid, but for the two lower corners of the mesh. -/
theorem C106_table (nx ny k l i j : Nat) (hi : i < nx) (hj : j < ny) (hk : k = i ∨ k = i + 1) (hl : l = j ∨ l = j + 1) (h : 0 < l ∨ (0 < k ∧ k < nx)) :
    ∃! fs : List ((Nat × Nat) × Surface), Corner nx ny k l i j fs := by
  have ex : ∃ fs, Corner nx ny k l i j fs := by
    rcases hk with rfl | rfl <;> rcases hl with rfl | rfl
    · by_cases h0 : k = 0
      · subst h0
        obtain ⟨l, rfl⟩ : ∃ t, l = t + 1 := ⟨l - 1, by omega⟩
        exact ⟨_, .westUp hi hj⟩
      · obtain ⟨k, rfl⟩ : ∃ t, k = t + 1 := ⟨k - 1, by omega⟩
        by_cases h1 : l = 0
        · subst h1; exact ⟨_, .southRight hi hj⟩
        · obtain ⟨l, rfl⟩ : ∃ t, l = t + 1 := ⟨l - 1, by omega⟩
          exact ⟨_, .sw hi hj⟩
    · by_cases h0 : k = 0
      · subst h0; exact ⟨_, .westLow hi hj⟩
      · obtain ⟨k, rfl⟩ : ∃ t, k = t + 1 := ⟨k - 1, by omega⟩
        by_cases h1 : ny = j + 1
        · exact ⟨_, .northRight hi h1⟩
        · exact ⟨_, .nw hi (by omega)⟩
    · by_cases h0 : nx = i + 1
      · obtain ⟨l, rfl⟩ : ∃ t, l = t + 1 := ⟨l - 1, by omega⟩
        exact ⟨_, .eastUp h0 hj⟩
      · by_cases h1 : l = 0
        · subst h1; exact ⟨_, .southLeft (by omega) hj⟩
        · obtain ⟨l, rfl⟩ : ∃ t, l = t + 1 := ⟨l - 1, by omega⟩
          exact ⟨_, .se (by omega) hj⟩
    · by_cases h0 : nx = i + 1
      · exact ⟨_, .eastLow h0 hj⟩
      · by_cases h1 : ny = j + 1
        · exact ⟨_, .northLeft (by omega) h1⟩
        · exact ⟨_, .ne (by omega) (by omega)⟩
  obtain ⟨fs, hfs⟩ := ex
  refine ⟨fs, hfs, fun gs hgs => ?_⟩
  cases hfs <;> cases hgs <;> first | rfl | omega

/-- C106: at the two lower corners of the mesh the table of surfaces is read out of bounds. -/
theorem C106_lower_corners (near : ℝ → ℝ → Bool) (d : Dims) (xs ys : List ℝ) (p : Pt ℝ) (g : GridAt near d xs ys p) (i m : Nat) (hi : i < d.nx) (hj : 0 < d.ny)
    (hx : (i = 0 ∧ xs[0]? = some p.x) ∨ (i + 1 = d.nx ∧ xs[i + 1]? = some p.x)) (hy : ys[0]? = some p.y) :
    surfPoint near d xs ys p (coarseCell d ⟨i, 0, m⟩) = none := by
  have nb : coarseNeighbor d (coarseCell d ⟨i, 0, m⟩) .SOUTH = -1 := by
    rw [C14_neighbour d i 0 m .SOUTH (by simp) hi hj]
    simp [adjacent, idx]
  rcases hx with ⟨rfl, hx⟩ | ⟨h1, hx⟩
  · simp [surfPoint, on_find g.sortX g.exX hx, on_find g.sortY g.exY hy, pos_cell d 0 0 m hi hj, cornerX, cornerY, cornerSurfs, nb, surfOf, both]
  · have := on_find g.sortX g.exX hx
    simp [surfPoint, this, on_find g.sortY g.exY hy, pos_cell d i 0 m hi hj, cornerX, cornerY, cornerSurfs, nb, surfOf, both, show ((i : Int) + 1 = d.nx) by omega,
      show ¬ (d.nx = i) by omega, show ¬ (d.nx = 0) by omega]

/-- C106: inside of the mesh the two surfaces are crossed one after the other on the way from the cell to the one diagonally opposite. -/
theorem C106_diagonal (xs ys : List ℝ) (nx ny : Nat) (p : Pt ℝ) (k l i j : Nat) (hx : xs[k]? = some p.x) (hy : ys[l]? = some p.y) (hk : 0 < k) (hk' : k < nx)
    (hl : 0 < l) (hl' : l < ny) (fs : List ((Nat × Nat) × Surface)) (hc : Corner nx ny k l i j fs) :
    ∃ a b, fs = [((i, j), a), ((2 * k - 1 - i, j), b)] ∧ Crosses xs ys nx ny p (i, j) [a, b] (some (2 * k - 1 - i, 2 * l - 1 - j)) := by
  induction hc with
  | @ne k l h1 h2 =>
    refine ⟨.EAST, .NORTH, by simp; omega, ?_⟩
    simp [Crosses, OnFace, beside, adjacent, hx, hy, h1, h2]; omega
  | @nw k l h1 h2 =>
    refine ⟨.WEST, .NORTH, by simp; omega, ?_⟩
    simp [Crosses, OnFace, beside, adjacent, hx, hy, h1, h2]; omega
  | @se k l h1 h2 =>
    refine ⟨.EAST, .SOUTH, by simp; omega, ?_⟩
    simp [Crosses, OnFace, beside, adjacent, hx, hy, h1, h2]; omega
  | @sw k l h1 h2 =>
    refine ⟨.WEST, .SOUTH, by simp; omega, ?_⟩
    simp [Crosses, OnFace, beside, adjacent, hx, hy, h1, h2]; omega
  | _ => omega

/-- The face is on the outside of the mesh. -/
def Outer (nx ny : Nat) (f : (Nat × Nat) × Surface) : Prop := adjacent nx ny 1 f.1.1 f.1.2 0 f.2 = none

/-- C106: at a corner on the outside the first surface is an outer face, the same for all cells that touch the corner; the second, if there is one, leads
from its cell to the cell asked for. -/
theorem C106_outside (nx ny k l i j i' j' : Nat) (fs gs : List ((Nat × Nat) × Surface)) (hb : k = 0 ∨ k = nx ∨ l = 0 ∨ l = ny)
    (hc : Corner nx ny k l i j fs) (hc' : Corner nx ny k l i' j' gs) :
    ∃ f, fs.head? = some f ∧ gs.head? = some f ∧ Outer nx ny f ∧
      (fs = [f] ∧ f.1 = (i, j) ∨ ∃ s, fs = [f, ((i, j), s)] ∧ adjacent nx ny 1 i j 0 s = some (f.1.1, f.1.2, 0)) := by
  cases hc <;> cases hc' <;> first
    | omega
    | (refine ⟨_, rfl, by simp; try omega, ?_, ?_⟩
       · simp [Outer, adjacent]; try omega
       · first
         | exact .inl ⟨rfl, rfl⟩
         | (refine .inr ⟨_, rfl, ?_⟩
            simp [adjacent]; try omega))

/-- Equality as the comparison. -/
noncomputable def sameR (a b : ℝ) : Bool := decide (a = b)

theorem exact_sameR (u : ℝ) (xs : List ℝ) : Exact sameR u xs := by
  intro x _; simp [sameR]

/-- The lines of a 2 x 2 mesh. -/
theorem grid22 (p : Pt ℝ) (nz : Nat) : GridAt sameR ⟨2, 2, nz⟩ [0, 1, 2] [0, 1, 2] p :=
  ⟨rfl, rfl, by norm_num, by norm_num, exact_sameR _ _, exact_sameR _ _⟩

/-- Non-vacuity: a corner inside of a 2 x 2 x 2 mesh, from the upper right cell of the upper plane, and a corner on its left side. -/
example : ∃ ns, surfPoint sameR ⟨2, 2, 2⟩ [0, 1, 2] [0, 1, 2] ⟨1, 1⟩ 7 = some ns ∧ ns = [24, 27] := by
  obtain ⟨ns, h1, h2⟩ := C106_corner sameR ⟨2, 2, 2⟩ [0, 1, 2] [0, 1, 2] ⟨1, 1⟩ (grid22 _ _) 1 1 1 1 1 (by decide) (by simp) (by simp) _ (.sw (by decide) (by decide))
  refine ⟨ns, h1, ?_⟩
  cases h2 with
  | cons ha h2 =>
    cases h2 with
    | cons hb h2 =>
      cases h2
      have ea : coarseSurf ⟨2, 2, 2⟩ (coarseCell ⟨2, 2, 2⟩ ⟨1, 1, 1⟩) .WEST = some 24 := by decide +kernel
      have eb : coarseSurf ⟨2, 2, 2⟩ (coarseCell ⟨2, 2, 2⟩ ⟨0, 1, 1⟩) .SOUTH = some 27 := by decide +kernel
      have ha' : some 24 = some _ := ea.symm.trans ha
      have hb' : some 27 = some _ := eb.symm.trans hb
      rw [Option.some.injEq] at ha' hb'
      rw [← ha', ← hb']

example : Corner 2 2 0 1 0 1 [((0, 0), .WEST), ((0, 1), .SOUTH)] := .westUp (by decide) (by decide)

/-- Non-vacuity: a point on a line and one inside of a cell. -/
example : Inside [0, 1, 2] 1 (3 / 2) ∧ ([0, 1, 2] : List ℝ)[1]? = some 1 := ⟨⟨1, 2, by simp, by simp, by norm_num, by norm_num⟩, by simp⟩

/-- C106, a claim: `coarse_surf_point` has a result for every cell and every corner of it. -/
def C106_claim : Prop := ∀ (near : ℝ → ℝ → Bool) (d : Dims) (xs ys : List ℝ) (p : Pt ℝ), GridAt near d xs ys p → ∀ i j m k l : Nat,
  i < d.nx → j < d.ny → m < d.nz → (k = i ∨ k = i + 1) → (l = j ∨ l = j + 1) → xs[k]? = some p.x → ys[l]? = some p.y →
  (surfPoint near d xs ys p (coarseCell d ⟨i, j, m⟩)).isSome

/-- At the lower left corner of a mesh the table is read out of bounds. -/
theorem C106_claim_false : ¬ C106_claim := by
  intro h
  have := h sameR ⟨2, 2, 1⟩ [0, 1, 2] [0, 1, 2] ⟨0, 0⟩ (grid22 _ _) 0 0 0 0 0 (by decide) (by decide) (by decide) (.inl rfl) (.inl rfl) (by simp) (by simp)
  rw [C106_lower_corners sameR ⟨2, 2, 1⟩ [0, 1, 2] [0, 1, 2] ⟨0, 0⟩ (grid22 _ _) 0 0 (by decide) (by decide) (.inl ⟨rfl, by simp⟩) (by simp)] at this
  cases this

/-- C106, partial: at all corners but the two lower ones of the mesh (`C106_claim`, `C106_claim_false`). -/
theorem C106_partial (near : ℝ → ℝ → Bool) (d : Dims) (xs ys : List ℝ) (p : Pt ℝ) (g : GridAt near d xs ys p) (i j m k l : Nat)
    (hi : i < d.nx) (hj : j < d.ny) (hm : m < d.nz) (hk : k = i ∨ k = i + 1) (hl : l = j ∨ l = j + 1) (hx : xs[k]? = some p.x) (hy : ys[l]? = some p.y)
    (h : 0 < l ∨ (0 < k ∧ k < d.nx)) : (surfPoint near d xs ys p (coarseCell d ⟨i, j, m⟩)).isSome := by
  obtain ⟨fs, hfs, -⟩ := C106_table d.nx d.ny k l i j hi hj hk hl h
  obtain ⟨ns, h1, -⟩ := C106_corner near d xs ys p g i j m k l hm hx hy fs hfs
  simp [h1]

/-- C106, a claim (mesh.hpp:524-528): the cell is taken modulo the number of cells of a plane, and surfaces are those of the bottom plane. -/
def C106_plane_claim : Prop := ∀ (near : ℝ → ℝ → Bool) (d : Dims) (xs ys : List ℝ) (p : Pt ℝ), GridAt near d xs ys p → ∀ cell : Nat, cell < nPin d →
  surfPoint near d xs ys p cell = surfPoint near d xs ys p (cell % (d.nx * d.ny))

/-- At a corner the surfaces are those of the plane of the cell. -/
theorem C106_plane_claim_false : ¬ C106_plane_claim := by
  intro h
  have := h sameR ⟨2, 2, 2⟩ [0, 1, 2] [0, 1, 2] ⟨1, 1⟩ (grid22 _ _) 4 (by decide)
  obtain ⟨ns, h1, h2⟩ := C106_corner sameR ⟨2, 2, 2⟩ [0, 1, 2] [0, 1, 2] ⟨1, 1⟩ (grid22 _ _) 0 0 1 1 1 (by decide) (by simp) (by simp) _ (.ne (by decide) (by decide))
  obtain ⟨ms, h3, h4⟩ := C106_corner sameR ⟨2, 2, 2⟩ [0, 1, 2] [0, 1, 2] ⟨1, 1⟩ (grid22 _ _) 0 0 0 1 1 (by decide) (by simp) (by simp) _ (.ne (by decide) (by decide))
  have e1 : coarseCell ⟨2, 2, 2⟩ ⟨0, 0, 1⟩ = 4 := rfl
  have e0 : coarseCell ⟨2, 2, 2⟩ ⟨0, 0, 0⟩ = 4 % (2 * 2) := rfl
  rw [e1] at h1
  rw [e0] at h3
  have heq : ns = ms := Option.some.inj (h1.symm.trans (this.trans h3))
  subst heq
  cases h2 with
  | cons ha h2 =>
    cases h4 with
    | cons hb h4 =>
      have ea : coarseSurf ⟨2, 2, 2⟩ (coarseCell ⟨2, 2, 2⟩ ⟨0, 0, 1⟩) .EAST ≠ coarseSurf ⟨2, 2, 2⟩ (coarseCell ⟨2, 2, 2⟩ ⟨0, 0, 0⟩) .EAST := by decide +kernel
      exact ea (ha.trans hb.symm)

theorem findLine_off (near : ℝ → ℝ → Bool) (u : ℝ) : ∀ (xs : List ℝ) (i : Int), Exact near u xs → u ∉ xs → (findLine near u xs i).1 = false
  | [], _, _, _ => rfl
  | x :: rest, i, he, hu => by
    have hn : near u x = false := by
      by_contra hc
      exact hu (by rw [(he x (by simp)).mp (by simpa using hc)]; simp)
    simp only [findLine, hn]
    by_cases h : u < x
    · simp [h]
    · simpa [h] using findLine_off near u rest (i + 1) (fun y hy => he y (List.mem_cons_of_mem _ hy)) (fun hm => hu (List.mem_cons_of_mem _ hm))

/-- C106, partial: at points that are not corners the cell does not matter (`C106_plane_claim`; at corners it does, `C106_plane_claim_false`). -/
theorem C106_plane_partial (near : ℝ → ℝ → Bool) (d : Dims) (xs ys : List ℝ) (p : Pt ℝ) (g : GridAt near d xs ys p) (h : p.x ∉ xs ∨ p.y ∉ ys) (c c' : Nat) :
    surfPoint near d xs ys p c = surfPoint near d xs ys p c' := by
  unfold surfPoint
  rcases h with h | h
  · have := findLine_off near p.x xs 0 g.exX h
    simp only [this]
    cases (findLine near p.y ys 0).1 <;> rfl
  · have := findLine_off near p.y ys 0 g.exY h
    simp only [this]
    cases (findLine near p.x xs 0).1 <;> rfl

/-! ### Cells -/

theorem lineBelow_eq (xs : List ℝ) (hs : xs.Pairwise (· < ·)) (i : Nat) (l r u : ℝ) (h1 : xs[i]? = some l) (h2 : xs[i + 1]? = some r) (hl : l < u) (hr : u ≤ r) :
    lineBelow xs u = i := by
  have hi := (List.getElem?_eq_some_iff.mp h2).1
  have mono : ∀ a b, a ≤ b → b < xs.length → xs.getD a 0 ≤ xs.getD b 0 := by
    intro a b hab hb
    rcases Nat.eq_or_lt_of_le hab with rfl | hlt
    · exact le_refl _
    · have e : ∀ t (ht : t < xs.length), xs.getD t 0 = xs[t] := fun t ht => by simp [List.getD, ht]
      rw [e a (by omega), e b hb]
      exact (List.pairwise_iff_getElem.mp hs a b (by omega) hb hlt).le
  have hlb := (Util.lowerBound_eq_iff (fun t => xs.getD t 0) xs.length u mono (i + 1) hi).mpr
    ⟨fun t ht => lt_of_le_of_lt (mono t i (by omega) (by omega)) (by simpa [List.getD, h1] using hl), by simpa [List.getD, h2] using hr⟩
  simp only [lineBelow, hlb]; push_cast; ring

theorem lineBelow_first (xs : List ℝ) (hs : xs.Pairwise (· < ·)) (u : ℝ) (h : xs[0]? = some u) : lineBelow xs u = -1 := by
  have hi := (List.getElem?_eq_some_iff.mp h).1
  have mono : ∀ a b, a ≤ b → b < xs.length → xs.getD a 0 ≤ xs.getD b 0 := by
    intro a b hab hb
    rcases Nat.eq_or_lt_of_le hab with rfl | hlt
    · exact le_refl _
    · have e : ∀ t (ht : t < xs.length), xs.getD t 0 = xs[t] := fun t ht => by simp [List.getD, ht]
      rw [e a (by omega), e b hb]
      exact (List.pairwise_iff_getElem.mp hs a b (by omega) hb hlt).le
  have hlb := (Util.lowerBound_eq_iff (fun t => xs.getD t 0) xs.length u mono 0 hi).mpr ⟨fun t ht => by omega, by simp [List.getD, h]⟩
  simp only [lineBelow, hlb]; rfl

/-- The coordinate is behind line `i` and not behind line `i + 1`. -/
def Behind (xs : List ℝ) (i : Nat) (u : ℝ) : Prop := ∃ l r, xs[i]? = some l ∧ xs[i + 1]? = some r ∧ l < u ∧ u ≤ r

/-- C106: a point inside of a cell, or on its upper faces, is in this cell for `coarse_cell_point`; that of a point of the plane is in the bottom plane. -/
theorem C106_cell (d : Dims) (xs ys zs : List ℝ) (hx : xs.Pairwise (· < ·)) (hy : ys.Pairwise (· < ·)) (hz : zs.Pairwise (· < ·)) (x y z : ℝ) (i j k : Nat)
    (h1 : Behind xs i x) (h2 : Behind ys j y) (h3 : Behind zs k z) :
    cellPoint d xs ys zs x y z = coarseCell d ⟨i, j, k⟩ ∧ cellPoint2 d xs ys x y = coarseCell d ⟨i, j, 0⟩ := by
  obtain ⟨_, _, a1, a2, a3, a4⟩ := h1
  obtain ⟨_, _, b1, b2, b3, b4⟩ := h2
  obtain ⟨_, _, c1, c2, c3, c4⟩ := h3
  simp only [cellPoint, cellPoint2, coarseCell, lineBelow_eq xs hx i _ _ x a1 a2 a3 a4, lineBelow_eq ys hy j _ _ y b1 b2 b3 b4, lineBelow_eq zs hz k _ _ z c1 c2 c3 c4]
  constructor <;> push_cast <;> ring

/-- C106: a point on the left side of the mesh is in the cell before the first of its row. -/
theorem C106_cell_left (d : Dims) (xs ys zs : List ℝ) (hx : xs.Pairwise (· < ·)) (hy : ys.Pairwise (· < ·)) (hz : zs.Pairwise (· < ·)) (x y z : ℝ) (j k : Nat)
    (h1 : xs[0]? = some x) (h2 : Behind ys j y) (h3 : Behind zs k z) : cellPoint d xs ys zs x y z = coarseCell d ⟨0, j, k⟩ - 1 := by
  obtain ⟨_, _, b1, b2, b3, b4⟩ := h2
  obtain ⟨_, _, c1, c2, c3, c4⟩ := h3
  simp only [cellPoint, coarseCell, lineBelow_first xs hx x h1, lineBelow_eq ys hy j _ _ y b1 b2 b3 b4, lineBelow_eq zs hz k _ _ z c1 c2 c3 c4]
  push_cast; ring

example : Behind [0, 1, 3] 1 3 := ⟨1, 3, by simp, by simp, by norm_num, by norm_num⟩

/-- C106, a claim: a point of the mesh is in the cell that `coarse_cell_point` gives, or on its boundary. -/
def C106_cell_claim : Prop := ∀ (d : Dims) (xs ys zs : List ℝ), xs.length = d.nx + 1 → ys.length = d.ny + 1 → zs.length = d.nz + 1 →
  xs.Pairwise (· < ·) → ys.Pairwise (· < ·) → zs.Pairwise (· < ·) → ∀ x y z : ℝ, (∃ i, Within xs i x) → (∃ j, Within ys j y) → (∃ k, Within zs k z) →
  ∃ i j k, i < d.nx ∧ j < d.ny ∧ k < d.nz ∧ cellPoint d xs ys zs x y z = coarseCell d ⟨i, j, k⟩ ∧ Within xs i x ∧ Within ys j y ∧ Within zs k z

/-- A point on the left side of the second row is given the last cell of the first row. -/
theorem C106_cell_claim_false : ¬ C106_cell_claim := by
  intro h
  have s3 : ([0, 1, 2] : List ℝ).Pairwise (· < ·) := by norm_num
  have s2 : ([0, 1] : List ℝ).Pairwise (· < ·) := by norm_num
  have wy : Within [0, 1, 2] 1 (3 / 2) := ⟨1, 2, by simp, by simp, by norm_num, by norm_num⟩
  have wz : Within [0, 1] 0 (1 / 2) := ⟨0, 1, by simp, by simp, by norm_num, by norm_num⟩
  obtain ⟨i, j, k, hi, hj, hk, he, hwx, hwy, hwz⟩ := h ⟨2, 2, 1⟩ [0, 1, 2] [0, 1, 2] [0, 1] rfl rfl rfl s3 s3 s2 0 (3 / 2) (1 / 2)
    ⟨0, 0, 1, by simp, by simp, le_refl _, by norm_num⟩ ⟨1, wy⟩ ⟨0, wz⟩
  rw [C106_cell_left ⟨2, 2, 1⟩ _ _ _ s3 s3 s2 0 (3 / 2) (1 / 2) 1 0 (by simp) ⟨1, 2, by simp, by simp, by norm_num, by norm_num⟩
    ⟨0, 1, by simp, by simp, by norm_num, by norm_num⟩] at he
  simp only [coarseCell] at he hi hj hk
  have hi1 : i = 1 := by omega
  subst hi1
  obtain ⟨l, r, h1, h2, h3, h4⟩ := hwx
  simp at h1
  subst h1
  norm_num at h3

end Verif.Mesh
