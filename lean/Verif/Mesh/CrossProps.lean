import Verif.Mesh.TraceProps
import Verif.Mesh.Props

/-!
# C74: cells and surfaces along a ray

A ray is followed as pieces: each runs strictly towards one of the four octants inside of one closed cell.
-/

set_option linter.unusedSimpArgs false

namespace Verif.Mesh

open Verif.Geom Verif.PinMesh Spec

/-- Towards the east? -/
def Oct.east : Oct → Bool
  | .one | .four => true
  | _ => false

/-- Towards the north? -/
def Oct.north : Oct → Bool
  | .one | .two => true
  | _ => false

/-- The coordinate `u` is between the grid lines `i` and `i + 1`, or on one of them. -/
def Within (xs : List ℝ) (i : Nat) (u : ℝ) : Prop := ∃ l r, xs[i]? = some l ∧ xs[i + 1]? = some r ∧ l ≤ u ∧ u ≤ r

/-- The piece of a ray from `a` to `b` lies in the cell `c` and runs towards the octant. -/
def Piece (xs ys : List ℝ) (o : Oct) (c : Nat × Nat) (a b : Pt ℝ) : Prop :=
  (Within xs c.1 a.x ∧ Within ys c.2 a.y) ∧ (Within xs c.1 b.x ∧ Within ys c.2 b.y) ∧
  (if o.east then a.x < b.x else b.x < a.x) ∧ (if o.north then a.y < b.y else b.y < a.y)

/-- The point is on the line of the face `s` of the cell. -/
def OnFace (xs ys : List ℝ) (c : Nat × Nat) (p : Pt ℝ) : Surface → Prop
  | .EAST => xs[c.1 + 1]? = some p.x
  | .WEST => xs[c.1]? = some p.x
  | .NORTH => ys[c.2 + 1]? = some p.y
  | .SOUTH => ys[c.2]? = some p.y
  | _ => False

/-- The neighbour of a cell in its plane. -/
def beside (nx ny : Nat) (c : Nat × Nat) (s : Surface) : Option (Nat × Nat) := (adjacent nx ny 1 c.1 c.2 0 s).map fun q => (q.1, q.2.1)

/-- From the cell `c`, crossing the faces one after the other at the point `p`, one gets to the cell `r`, or, with the last face, out of the
mesh. -/
def Crosses (xs ys : List ℝ) (nx ny : Nat) (p : Pt ℝ) : (c : Nat × Nat) → List Surface → (r : Option (Nat × Nat)) → Prop
  | c, [], r => r = some c
  | c, s :: rest, r =>
    OnFace xs ys c p s ∧
      match beside nx ny c s with
      | some c' => Crosses xs ys nx ny p c' rest r
      | none => rest = [] ∧ r = none

/-- The faces through which a ray towards the octant leaves a cell. -/
def Downwind (o : Oct) : Surface → Prop
  | .EAST => o.east = true
  | .WEST => o.east = false
  | .NORTH => o.north = true
  | .SOUTH => o.north = false
  | _ => False

/-- The comparison recognises the grid lines through the coordinate. -/
def Exact (near : ℝ → ℝ → Bool) (u : ℝ) (xs : List ℝ) : Prop := ∀ x ∈ xs, (near u x = true ↔ u = x)

theorem findLine_on (near : ℝ → ℝ → Bool) (u : ℝ) : ∀ (xs : List ℝ) (i : Int) (k : Nat), xs.Pairwise (· < ·) → Exact near u xs →
    xs[k]? = some u → findLine near u xs i = (true, i + k)
  | [], _, _, _, _, h => by simp at h
  | x :: rest, i, 0, _, he, h => by
    simp at h
    simp [findLine, (he x (by simp)).mpr h.symm]
  | x :: rest, i, k + 1, hs, he, h => by
    simp at h
    have hlt : x < u := (List.pairwise_cons.mp hs).1 u (List.mem_of_getElem? h)
    have hn : near u x = false := by
      by_contra hc
      exact (ne_of_gt hlt) ((he x (by simp)).mp (by simpa using hc))
    have := findLine_on near u rest (i + 1) k (List.pairwise_cons.mp hs).2 (fun y hy => he y (List.mem_cons_of_mem _ hy)) h
    simp only [findLine, hn, if_neg (not_lt.mpr hlt.le), this]
    simp; ring

theorem findLine_between (near : ℝ → ℝ → Bool) (u l r : ℝ) : ∀ (xs : List ℝ) (i : Int) (k : Nat), xs.Pairwise (· < ·) → Exact near u xs →
    xs[k]? = some l → xs[k + 1]? = some r → l < u → u < r → findLine near u xs i = (false, i + k)
  | [], _, _, _, _, h, _, _, _ => by simp at h
  | x :: rest, i, 0, hs, he, h, h2, hl, hr => by
    simp at h h2
    subst h
    obtain ⟨y, rest', rfl⟩ : ∃ y rest', rest = y :: rest' := by
      cases rest with
      | nil => simp at h2
      | cons y t => exact ⟨y, t, rfl⟩
    simp at h2
    subst h2
    have hn : near u x = false := by
      by_contra hc
      exact (ne_of_gt hl) ((he x (by simp)).mp (by simpa using hc))
    have hn2 : near u y = false := by
      by_contra hc
      exact (ne_of_lt hr) ((he y (by simp)).mp (by simpa using hc))
    simp [findLine, hn, hn2, not_lt.mpr hl.le, hr]
  | x :: rest, i, k + 1, hs, he, h, h2, hl, hr => by
    simp at h h2
    have hlt : x < u := lt_trans ((List.pairwise_cons.mp hs).1 l (List.mem_of_getElem? h)) hl
    have hn : near u x = false := by
      by_contra hc
      exact (ne_of_gt hlt) ((he x (by simp)).mp (by simpa using hc))
    have := findLine_between near u l r rest (i + 1) k (List.pairwise_cons.mp hs).2 (fun y hy => he y (List.mem_cons_of_mem _ hy)) h h2 hl hr
    simp only [findLine, hn, if_neg (not_lt.mpr hlt.le), this]
    simp; ring

/-- Found on the lower line of the cell or inside of it. -/
theorem find_lo (near : ℝ → ℝ → Bool) (xs : List ℝ) (u l r : ℝ) (i : Nat) (hs : xs.Pairwise (· < ·)) (he : Exact near u xs)
    (h1 : xs[i]? = some l) (h2 : xs[i + 1]? = some r) (a : l ≤ u) (b : u < r) :
    (findLine near u xs 0 = (true, (i : Int)) ∧ xs[i]? = some u) ∨ (findLine near u xs 0 = (false, (i : Int)) ∧ l < u) := by
  rcases lt_or_eq_of_le a with h | h
  · right
    rw [findLine_between near u l r xs 0 i hs he h1 h2 h b]
    simp [h]
  · left
    rw [h] at h1
    rw [findLine_on near u xs 0 i hs he h1]
    simp [h1]

/-- Found on the upper line of the cell or inside of it. -/
theorem find_hi (near : ℝ → ℝ → Bool) (xs : List ℝ) (u l r : ℝ) (i : Nat) (hs : xs.Pairwise (· < ·)) (he : Exact near u xs)
    (h1 : xs[i]? = some l) (h2 : xs[i + 1]? = some r) (a : l < u) (b : u ≤ r) :
    (findLine near u xs 0 = (true, (i : Int) + 1) ∧ xs[i + 1]? = some u) ∨ (findLine near u xs 0 = (false, (i : Int)) ∧ u < r) := by
  rcases lt_or_eq_of_le b with h | h
  · right
    rw [findLine_between near u l r xs 0 i hs he h1 h2 a h]
    simp [h]
  · left
    rw [← h] at h2
    rw [findLine_on near u xs 0 (i + 1) hs he h2]
    simp [h2]

/-- Where a coordinate from which a piece departs is found; `up` tells the direction. -/
theorem depart (near : ℝ → ℝ → Bool) (xs : List ℝ) (u v : ℝ) (i : Nat) (up : Bool) (hs : xs.Pairwise (· < ·)) (he : Exact near u xs)
    (hu : Within xs i u) (hv : Within xs i v) (hd : if up then u < v else v < u) :
    (findLine near u xs 0 = (true, if up then (i : Int) else i + 1) ∧ xs[if up then i else i + 1]? = some u) ∨
    (findLine near u xs 0 = (false, (i : Int)) ∧ u ∉ xs) := by
  obtain ⟨l, r, h1, h2, a, b⟩ := hu
  obtain ⟨l', r', h1', h2', a', b'⟩ := hv
  rw [h1] at h1'
  rw [h2] at h2'
  obtain rfl := Option.some.inj h1'
  obtain rfl := Option.some.inj h2'
  have notin : ∀ k, findLine near u xs 0 = (false, k) → u ∉ xs := by
    intro k hk hm
    obtain ⟨n, hn⟩ := List.getElem?_of_mem hm
    rw [findLine_on near u xs 0 n hs he hn] at hk
    simp at hk
  cases up with
  | true =>
    simp at hd ⊢
    rcases find_lo near xs u l r i hs he h1 h2 a (by linarith) with h | h
    · left; exact h
    · right; exact ⟨h.1, notin _ h.1⟩
  | false =>
    simp at hd ⊢
    rcases find_hi near xs u l r i hs he h1 h2 (by linarith) b with h | h
    · left; exact h
    · right; exact ⟨h.1, notin _ h.1⟩

theorem flip_dir (up : Bool) (u v : ℝ) (hd : if up then u < v else v < u) : if (!up) then v < u else u < v := by
  cases up <;> simpa using hd

theorem within_lt {xs : List ℝ} {i : Nat} {u : ℝ} (h : Within xs i u) : i + 1 < xs.length := by
  obtain ⟨_, _, _, h2, _, _⟩ := h
  exact (List.getElem?_eq_some_iff.mp h2).1

/-- One of the two outermost grid lines. -/
def Edge (xs : List ℝ) (n : Nat) (u : ℝ) : Prop := xs[0]? = some u ∨ xs[n]? = some u

/-- A mesh with the given grid lines. -/
structure Lines (d : Dims) (xs ys : List ℝ) : Prop where
  x : xs.Pairwise (· < ·) ∧ xs.length = d.nx + 1 ∧ xs[0]? = some 0
  y : ys.Pairwise (· < ·) ∧ ys.length = d.ny + 1 ∧ ys[0]? = some 0

/-- C74: at a point between two pieces of the ray, the surfaces lead from the cell of the one to the cell of the other, each through a
face on which the point is, and each is a face through which a ray in this direction leaves. -/
theorem C74_cross (near : ℝ → ℝ → Bool) (d : Dims) (xs ys : List ℝ) (hl : Lines d xs ys) (o : Oct) (c c' : Nat × Nat) (a b e : Pt ℝ)
    (h1 : Piece xs ys o c a b) (h2 : Piece xs ys o c' b e) (ex : Exact near b.x xs) (ey : Exact near b.y ys) :
    Crosses xs ys d.nx d.ny b c (normPoint near d xs ys b o) (some c') ∧ (∀ s ∈ normPoint near d xs ys b o, Downwind o s) ∧
    (normPoint near d xs ys b o).length = (if b.x ∈ xs then 1 else 0) + (if b.y ∈ ys then 1 else 0) := by
  obtain ⟨⟨sx, lx, _⟩, sy, ly, _⟩ := hl
  obtain ⟨⟨ax, ay⟩, ⟨bx, by'⟩, dx, dy⟩ := h1
  obtain ⟨⟨bx', by2⟩, ⟨cx, cy⟩, dx', dy'⟩ := h2
  have X := depart near xs b.x a.x c.1 (!o.east) sx ex bx ax (flip_dir _ _ _ dx)
  have X' := depart near xs b.x e.x c'.1 o.east sx ex bx' cx dx'
  have Y := depart near ys b.y a.y c.2 (!o.north) sy ey by' ay (flip_dir _ _ _ dy)
  have Y' := depart near ys b.y e.y c'.2 o.north sy ey by2 cy dy'
  have bi := within_lt bx
  have bi' := within_lt bx'
  have bj := within_lt by'
  have bj' := within_lt by2
  rw [lx] at bi bi'
  rw [ly] at bj bj'
  obtain ⟨i, j⟩ := c
  obtain ⟨i', j'⟩ := c'
  unfold normPoint
  simp only [] at X X' Y Y' bi bi' bj bj' ⊢
  have mem : ∀ (l : List ℝ) (k : Nat) (u : ℝ), l[k]? = some u → u ∈ l := fun l k u h => List.mem_of_getElem? h
  rcases X with ⟨x1, x2⟩ | ⟨x1, x2⟩ <;> rcases X' with ⟨x3, x4⟩ | ⟨x3, x4⟩ <;> rw [x1] at x3 <;> rcases Y with ⟨y1, y2⟩ | ⟨y1, y2⟩ <;>
    rcases Y' with ⟨y3, y4⟩ | ⟨y3, y4⟩ <;> rw [y1] at y3 <;> first | (exfalso; simp at x3; done) | (exfalso; simp at y3; done) | skip
  all_goals
    rw [x1, y1]
  · rw [if_pos (mem _ _ _ x2), if_pos (mem _ _ _ y2)]
    cases o <;> simp [Oct.east, Oct.north] at x2 x3 x4 y2 y3 y4 ⊢
    · have e1 : i' = i + 1 := by omega
      have e2 : j' = j + 1 := by omega
      subst e1 e2
      have n1 : (i : Int) + 1 < d.nx := by omega
      have n3 : (0 : Int) < (i : Int) + 1 := by omega
      have m1 : i + 1 < d.nx := by omega
      have k1 : (i : Int) + 1 ≠ d.nx := by omega
      have k3 : (i : Int) + 1 ≠ 0 := by omega
      have n2 : (j : Int) + 1 < d.ny := by omega
      have n4 : (0 : Int) < (j : Int) + 1 := by omega
      have m2 : j + 1 < d.ny := by omega
      have k2 : (j : Int) + 1 ≠ d.ny := by omega
      have k4 : (j : Int) + 1 ≠ 0 := by omega
      simp [normAt, n1, n3, m1, k1, k3, x2, n2, n4, m2, k2, k4, y2, Crosses, OnFace, beside, adjacent, Downwind, Oct.east, Oct.north]
    · have e1 : i = i' + 1 := by omega
      have e2 : j' = j + 1 := by omega
      subst e1 e2
      have n1 : (i' : Int) + 1 < d.nx := by omega
      have n3 : (0 : Int) < (i' : Int) + 1 := by omega
      have m1 : i' + 1 < d.nx := by omega
      have k1 : (i' : Int) + 1 ≠ d.nx := by omega
      have k3 : (i' : Int) + 1 ≠ 0 := by omega
      have n2 : (j : Int) + 1 < d.ny := by omega
      have n4 : (0 : Int) < (j : Int) + 1 := by omega
      have m2 : j + 1 < d.ny := by omega
      have k2 : (j : Int) + 1 ≠ d.ny := by omega
      have k4 : (j : Int) + 1 ≠ 0 := by omega
      simp [normAt, n1, n3, m1, k1, k3, x2, n2, n4, m2, k2, k4, y2, Crosses, OnFace, beside, adjacent, Downwind, Oct.east, Oct.north]
    · have e1 : i = i' + 1 := by omega
      have e2 : j = j' + 1 := by omega
      subst e1 e2
      have n1 : (i' : Int) + 1 < d.nx := by omega
      have n3 : (0 : Int) < (i' : Int) + 1 := by omega
      have m1 : i' + 1 < d.nx := by omega
      have k1 : (i' : Int) + 1 ≠ d.nx := by omega
      have k3 : (i' : Int) + 1 ≠ 0 := by omega
      have n2 : (j' : Int) + 1 < d.ny := by omega
      have n4 : (0 : Int) < (j' : Int) + 1 := by omega
      have m2 : j' + 1 < d.ny := by omega
      have k2 : (j' : Int) + 1 ≠ d.ny := by omega
      have k4 : (j' : Int) + 1 ≠ 0 := by omega
      simp [normAt, n1, n3, m1, k1, k3, x2, n2, n4, m2, k2, k4, y2, Crosses, OnFace, beside, adjacent, Downwind, Oct.east, Oct.north]
    · have e1 : i' = i + 1 := by omega
      have e2 : j = j' + 1 := by omega
      subst e1 e2
      have n1 : (i : Int) + 1 < d.nx := by omega
      have n3 : (0 : Int) < (i : Int) + 1 := by omega
      have m1 : i + 1 < d.nx := by omega
      have k1 : (i : Int) + 1 ≠ d.nx := by omega
      have k3 : (i : Int) + 1 ≠ 0 := by omega
      have n2 : (j' : Int) + 1 < d.ny := by omega
      have n4 : (0 : Int) < (j' : Int) + 1 := by omega
      have m2 : j' + 1 < d.ny := by omega
      have k2 : (j' : Int) + 1 ≠ d.ny := by omega
      have k4 : (j' : Int) + 1 ≠ 0 := by omega
      simp [normAt, n1, n3, m1, k1, k3, x2, n2, n4, m2, k2, k4, y2, Crosses, OnFace, beside, adjacent, Downwind, Oct.east, Oct.north]
  · rw [if_pos (mem _ _ _ x2), if_neg y2]
    cases o <;> simp [Oct.east, Oct.north] at x2 x3 x4 y2 y3 y4 ⊢
    · have e1 : i' = i + 1 := by omega
      have e2 : j' = j := by omega
      subst e1 e2
      have n1 : (i : Int) + 1 < d.nx := by omega
      have n3 : (0 : Int) < (i : Int) + 1 := by omega
      have m1 : i + 1 < d.nx := by omega
      have k1 : (i : Int) + 1 ≠ d.nx := by omega
      have k3 : (i : Int) + 1 ≠ 0 := by omega
      simp [normAt, n1, n3, m1, k1, k3, x2, Crosses, OnFace, beside, adjacent, Downwind, Oct.east, Oct.north]
    · have e1 : i = i' + 1 := by omega
      have e2 : j' = j := by omega
      subst e1 e2
      have n1 : (i' : Int) + 1 < d.nx := by omega
      have n3 : (0 : Int) < (i' : Int) + 1 := by omega
      have m1 : i' + 1 < d.nx := by omega
      have k1 : (i' : Int) + 1 ≠ d.nx := by omega
      have k3 : (i' : Int) + 1 ≠ 0 := by omega
      simp [normAt, n1, n3, m1, k1, k3, x2, Crosses, OnFace, beside, adjacent, Downwind, Oct.east, Oct.north]
    · have e1 : i = i' + 1 := by omega
      have e2 : j' = j := by omega
      subst e1 e2
      have n1 : (i' : Int) + 1 < d.nx := by omega
      have n3 : (0 : Int) < (i' : Int) + 1 := by omega
      have m1 : i' + 1 < d.nx := by omega
      have k1 : (i' : Int) + 1 ≠ d.nx := by omega
      have k3 : (i' : Int) + 1 ≠ 0 := by omega
      simp [normAt, n1, n3, m1, k1, k3, x2, Crosses, OnFace, beside, adjacent, Downwind, Oct.east, Oct.north]
    · have e1 : i' = i + 1 := by omega
      have e2 : j' = j := by omega
      subst e1 e2
      have n1 : (i : Int) + 1 < d.nx := by omega
      have n3 : (0 : Int) < (i : Int) + 1 := by omega
      have m1 : i + 1 < d.nx := by omega
      have k1 : (i : Int) + 1 ≠ d.nx := by omega
      have k3 : (i : Int) + 1 ≠ 0 := by omega
      simp [normAt, n1, n3, m1, k1, k3, x2, Crosses, OnFace, beside, adjacent, Downwind, Oct.east, Oct.north]
  · rw [if_neg x2, if_pos (mem _ _ _ y2)]
    cases o <;> simp [Oct.east, Oct.north] at x2 x3 x4 y2 y3 y4 ⊢
    · have e1 : i' = i := by omega
      have e2 : j' = j + 1 := by omega
      subst e1 e2
      have n2 : (j : Int) + 1 < d.ny := by omega
      have n4 : (0 : Int) < (j : Int) + 1 := by omega
      have m2 : j + 1 < d.ny := by omega
      have k2 : (j : Int) + 1 ≠ d.ny := by omega
      have k4 : (j : Int) + 1 ≠ 0 := by omega
      simp [normAt, n2, n4, m2, k2, k4, y2, Crosses, OnFace, beside, adjacent, Downwind, Oct.east, Oct.north]
    · have e1 : i' = i := by omega
      have e2 : j' = j + 1 := by omega
      subst e1 e2
      have n2 : (j : Int) + 1 < d.ny := by omega
      have n4 : (0 : Int) < (j : Int) + 1 := by omega
      have m2 : j + 1 < d.ny := by omega
      have k2 : (j : Int) + 1 ≠ d.ny := by omega
      have k4 : (j : Int) + 1 ≠ 0 := by omega
      simp [normAt, n2, n4, m2, k2, k4, y2, Crosses, OnFace, beside, adjacent, Downwind, Oct.east, Oct.north]
    · have e1 : i' = i := by omega
      have e2 : j = j' + 1 := by omega
      subst e1 e2
      have n2 : (j' : Int) + 1 < d.ny := by omega
      have n4 : (0 : Int) < (j' : Int) + 1 := by omega
      have m2 : j' + 1 < d.ny := by omega
      have k2 : (j' : Int) + 1 ≠ d.ny := by omega
      have k4 : (j' : Int) + 1 ≠ 0 := by omega
      simp [normAt, n2, n4, m2, k2, k4, y2, Crosses, OnFace, beside, adjacent, Downwind, Oct.east, Oct.north]
    · have e1 : i' = i := by omega
      have e2 : j = j' + 1 := by omega
      subst e1 e2
      have n2 : (j' : Int) + 1 < d.ny := by omega
      have n4 : (0 : Int) < (j' : Int) + 1 := by omega
      have m2 : j' + 1 < d.ny := by omega
      have k2 : (j' : Int) + 1 ≠ d.ny := by omega
      have k4 : (j' : Int) + 1 ≠ 0 := by omega
      simp [normAt, n2, n4, m2, k2, k4, y2, Crosses, OnFace, beside, adjacent, Downwind, Oct.east, Oct.north]
  · rw [if_neg x2, if_neg y2]
    cases o <;> simp [Oct.east, Oct.north] at x2 x3 x4 y2 y3 y4 ⊢
    · have e1 : i' = i := by omega
      have e2 : j' = j := by omega
      subst e1 e2
      simp [normAt, Crosses, OnFace, beside, adjacent, Downwind, Oct.east, Oct.north]
    · have e1 : i' = i := by omega
      have e2 : j' = j := by omega
      subst e1 e2
      simp [normAt, Crosses, OnFace, beside, adjacent, Downwind, Oct.east, Oct.north]
    · have e1 : i' = i := by omega
      have e2 : j' = j := by omega
      subst e1 e2
      simp [normAt, Crosses, OnFace, beside, adjacent, Downwind, Oct.east, Oct.north]
    · have e1 : i' = i := by omega
      have e2 : j' = j := by omega
      subst e1 e2
      simp [normAt, Crosses, OnFace, beside, adjacent, Downwind, Oct.east, Oct.north]

/-- A line recognised as the first or the last one. -/
theorem edge_on (xs : List ℝ) (n m : Nat) (u : ℝ) (hs : xs.Pairwise (· < ·)) (hn : xs.length = n + 1) (h0 : xs[0]? = some 0)
    (hm : xs[m]? = some u) : (u = 0 ↔ m = 0) ∧ (u = xs.getLastD 0 ↔ m = n) ∧ xs.getLastD 0 ∈ xs := by
  have hnd : xs.Nodup := hs.imp (fun h => ne_of_lt h)
  have hl : xs[n]? = some (xs.getLastD 0) := by
    rw [List.getLastD_eq_getLast?, List.getLast?_eq_getElem?, hn]
    simp [hn]
  obtain ⟨m1, m2⟩ := List.getElem?_eq_some_iff.mp hm
  obtain ⟨z1, z2⟩ := List.getElem?_eq_some_iff.mp h0
  obtain ⟨l1, l2⟩ := List.getElem?_eq_some_iff.mp hl
  refine ⟨?_, ?_, List.mem_of_getElem? hl⟩
  · rw [← m2, ← z2, hnd.getElem_inj_iff]
  · rw [← l2, ← m2, hnd.getElem_inj_iff]

theorem edge_off (xs : List ℝ) (n : Nat) (u : ℝ) (hn : xs.length = n + 1) (h0 : xs[0]? = some 0)
    (hm : u ∉ xs) : u ≠ 0 ∧ u ≠ xs.getLastD 0 ∧ xs.getLastD 0 ∈ xs := by
  have hl : xs[n]? = some (xs.getLastD 0) := by
    rw [List.getLastD_eq_getLast?, List.getLast?_eq_getElem?, hn]
    simp [hn]
  refine ⟨?_, ?_, List.mem_of_getElem? hl⟩
  · rintro rfl; exact hm (List.mem_of_getElem? h0)
  · intro h; rw [h] at hm; exact hm (List.mem_of_getElem? hl)

theorem edge_iff (xs : List ℝ) (n m : Nat) (u : ℝ) (hs : xs.Pairwise (· < ·)) (hm : xs[m]? = some u) : Edge xs n u ↔ m = 0 ∨ m = n := by
  have hnd : xs.Nodup := hs.imp (fun h => ne_of_lt h)
  obtain ⟨m1, m2⟩ := List.getElem?_eq_some_iff.mp hm
  have key : ∀ k, xs[k]? = some u ↔ m = k := by
    intro k
    constructor
    · intro h
      obtain ⟨k1, k2⟩ := List.getElem?_eq_some_iff.mp h
      rw [← m2] at k2
      exact (hnd.getElem_inj_iff.mp k2).symm
    · rintro rfl; exact hm
  unfold Edge
  rw [key, key]

theorem edge_not (xs : List ℝ) (n : Nat) (u : ℝ) (hm : u ∉ xs) : ¬ Edge xs n u := by
  rintro (h | h) <;> exact hm (List.mem_of_getElem? h)

theorem cell_some (d : Dims) (q1 q2 : Int) (i j : Nat) (e1 : q1 = i) (e2 : q2 = j) (hi : i < d.nx) (hj : j < d.ny) (hz : 0 < d.nz) :
    (if q2 * d.nx + q1 < 0 ∨ (nPin d : Int) ≤ q2 * d.nx + q1 then (none : Option Nat) else some (q2 * d.nx + q1).toNat) =
      some (i + d.nx * j) := by
  have e : q2 * d.nx + q1 = ((i + d.nx * j : Nat) : Int) := by rw [e1, e2]; push_cast; ring
  have hlt : i + d.nx * j < nPin d := by
    have := (C10_position_of_cell d i j 0 hi hj hz).2
    rw [C10_natural_order] at this
    simpa [nPin] using this
  rw [e, if_neg (by omega), Int.toNat_natCast]

/-- C74: at the point where the ray enters the mesh, the cell found is that of its first piece, and the one surface found is a face of
this cell on the boundary of the mesh with the point on it. -/
theorem C74_start (near nearAbs : ℝ → ℝ → Bool) (d : Dims) (hz : 0 < d.nz) (xs ys : List ℝ) (hl : Lines d xs ys) (o : Oct) (c : Nat × Nat)
    (b e : Pt ℝ) (h : Piece xs ys o c b e) (hedge : Edge xs d.nx b.x ∨ Edge ys d.ny b.y) (ex : Exact near b.x xs) (ey : Exact near b.y ys)
    (ax : nearAbs b.x 0 = true ↔ b.x = 0) (ay : nearAbs b.y 0 = true ↔ b.y = 0) :
    boundaryCell near nearAbs d xs ys b o = some (c.1 + d.nx * c.2) ∧
    ∃ s, normPoint near d xs ys b o = [s] ∧ OnFace xs ys c b s ∧ beside d.nx d.ny c s = none ∧ Downwind o (opposite s) := by
  obtain ⟨⟨sx, lx, zx⟩, sy, ly, zy⟩ := hl
  obtain ⟨⟨bx, by'⟩, ⟨cx, cy⟩, dx, dy⟩ := h
  have X := depart near xs b.x e.x c.1 o.east sx ex bx cx dx
  have Y := depart near ys b.y e.y c.2 o.north sy ey by' cy dy
  have bi := within_lt bx
  have bj := within_lt by'
  rw [lx] at bi
  rw [ly] at bj
  obtain ⟨i, j⟩ := c
  unfold boundaryCell normPoint
  simp only [] at X Y bi bj ⊢
  have hi : i < d.nx := by omega
  have hj : j < d.ny := by omega
  rcases X with ⟨x1, x2⟩ | ⟨x1, x2⟩ <;> rcases Y with ⟨y1, y2⟩ | ⟨y1, y2⟩
  all_goals
    rw [x1, y1]
  · obtain ⟨x0, xh, xm⟩ := edge_on xs d.nx _ b.x sx lx zx x2
    rw [edge_iff xs d.nx _ b.x sx x2] at hedge
    obtain ⟨y0, yh, ym⟩ := edge_on ys d.ny _ b.y sy ly zy y2
    rw [edge_iff ys d.ny _ b.y sy y2] at hedge
    have nx' := ex _ xm
    have ny' := ey _ ym
    rw [xh] at nx'
    rw [yh] at ny'
    rw [x0] at ax
    rw [y0] at ay
    clear x0 y0 xh yh
    refine ⟨cell_some d _ _ i j ?_ ?_ hi hj hz, ?_⟩
    · cases o <;> simp only [Oct.east, Oct.north, if_true, Bool.false_eq_true, if_false, reduceCtorEq, false_or, or_false] at x1 x2 y1 y2 hedge ax ay nx' ny' ⊢ <;> simp only [adjust, ax, ay, nx', ny', reduceCtorEq, if_true, if_false, Bool.false_eq_true] <;> split_ifs <;> simp only [] <;> omega
    · cases o <;> simp only [Oct.east, Oct.north, if_true, Bool.false_eq_true, if_false, reduceCtorEq, false_or, or_false] at x1 x2 y1 y2 hedge ax ay nx' ny' ⊢ <;> simp only [adjust, ax, ay, nx', ny', reduceCtorEq, if_true, if_false, Bool.false_eq_true] <;> split_ifs <;> simp only [] <;> omega
    · cases o
      · simp [Oct.east, Oct.north] at x1 x2 y1 y2 hedge ⊢
        by_cases hc : i = 0
        · have k1 : ((i : Int)) = 0 := by omega
          have k2 : ((i : Int)) ≠ d.nx := by omega
          have k3 : ¬ (0 < ((i : Int)) ∧ ((i : Int)) < d.nx ∧ 0 < ((j : Int)) ∧ ((j : Int)) < d.ny) := by omega
          refine ⟨.WEST, ?_, ?_, ?_, ?_⟩
          · simp [normAt, hc]
          · simpa [OnFace] using x2
          · simp [beside, adjacent]; omega
          · simp [Downwind, opposite, Oct.east, Oct.north]
        · have k3 : ¬ (0 < ((i : Int)) ∧ ((i : Int)) < d.nx ∧ 0 < ((j : Int)) ∧ ((j : Int)) < d.ny) := by omega
          refine ⟨.SOUTH, ?_, ?_, ?_, ?_⟩
          · unfold normAt; rw [if_neg k3]; simp <;> (try split_ifs) <;> first | rfl | omega | (exfalso; omega)
          · simpa [OnFace] using y2
          · simp [beside, adjacent]; omega
          · simp [Downwind, opposite, Oct.east, Oct.north]
      · simp [Oct.east, Oct.north] at x1 x2 y1 y2 hedge ⊢
        by_cases hc : i + 1 = d.nx
        · have k1 : ((i : Int) + 1) = d.nx := by omega
          have k2 : ((i : Int) + 1) ≠ 0 := by omega
          have k3 : ¬ (0 < ((i : Int) + 1) ∧ ((i : Int) + 1) < d.nx ∧ 0 < ((j : Int)) ∧ ((j : Int)) < d.ny) := by omega
          refine ⟨.EAST, ?_, ?_, ?_, ?_⟩
          · unfold normAt; rw [if_neg k3]; simp [k1, k2] <;> (try split_ifs) <;> first | rfl | omega | (exfalso; omega)
          · simpa [OnFace] using x2
          · simp [beside, adjacent]; omega
          · simp [Downwind, opposite, Oct.east, Oct.north]
        · have k3 : ¬ (0 < ((i : Int) + 1) ∧ ((i : Int) + 1) < d.nx ∧ 0 < ((j : Int)) ∧ ((j : Int)) < d.ny) := by omega
          refine ⟨.SOUTH, ?_, ?_, ?_, ?_⟩
          · unfold normAt; rw [if_neg k3]; simp <;> (try split_ifs) <;> first | rfl | omega | (exfalso; omega)
          · simpa [OnFace] using y2
          · simp [beside, adjacent]; omega
          · simp [Downwind, opposite, Oct.east, Oct.north]
      · simp [Oct.east, Oct.north] at x1 x2 y1 y2 hedge ⊢
        by_cases hc : i + 1 = d.nx
        · have k1 : ((i : Int) + 1) = d.nx := by omega
          have k2 : ((i : Int) + 1) ≠ 0 := by omega
          have k3 : ¬ (0 < ((i : Int) + 1) ∧ ((i : Int) + 1) < d.nx ∧ 0 < ((j : Int) + 1) ∧ ((j : Int) + 1) < d.ny) := by omega
          refine ⟨.EAST, ?_, ?_, ?_, ?_⟩
          · unfold normAt; rw [if_neg k3]; simp [k1, k2] <;> (try split_ifs) <;> first | rfl | omega | (exfalso; omega)
          · simpa [OnFace] using x2
          · simp [beside, adjacent]; omega
          · simp [Downwind, opposite, Oct.east, Oct.north]
        · have k3 : ¬ (0 < ((i : Int) + 1) ∧ ((i : Int) + 1) < d.nx ∧ 0 < ((j : Int) + 1) ∧ ((j : Int) + 1) < d.ny) := by omega
          refine ⟨.NORTH, ?_, ?_, ?_, ?_⟩
          · unfold normAt; rw [if_neg k3]; simp <;> (try split_ifs) <;> first | rfl | omega | (exfalso; omega)
          · simpa [OnFace] using y2
          · simp [beside, adjacent]; omega
          · simp [Downwind, opposite, Oct.east, Oct.north]
      · simp [Oct.east, Oct.north] at x1 x2 y1 y2 hedge ⊢
        by_cases hc : i = 0
        · have k1 : ((i : Int)) = 0 := by omega
          have k2 : ((i : Int)) ≠ d.nx := by omega
          have k3 : ¬ (0 < ((i : Int)) ∧ ((i : Int)) < d.nx ∧ 0 < ((j : Int) + 1) ∧ ((j : Int) + 1) < d.ny) := by omega
          refine ⟨.WEST, ?_, ?_, ?_, ?_⟩
          · simp [normAt, hc]
          · simpa [OnFace] using x2
          · simp [beside, adjacent]; omega
          · simp [Downwind, opposite, Oct.east, Oct.north]
        · have k3 : ¬ (0 < ((i : Int)) ∧ ((i : Int)) < d.nx ∧ 0 < ((j : Int) + 1) ∧ ((j : Int) + 1) < d.ny) := by omega
          refine ⟨.NORTH, ?_, ?_, ?_, ?_⟩
          · unfold normAt; rw [if_neg k3]; simp <;> (try split_ifs) <;> first | rfl | omega | (exfalso; omega)
          · simpa [OnFace] using y2
          · simp [beside, adjacent]; omega
          · simp [Downwind, opposite, Oct.east, Oct.north]
  · obtain ⟨x0, xh, xm⟩ := edge_on xs d.nx _ b.x sx lx zx x2
    rw [edge_iff xs d.nx _ b.x sx x2] at hedge
    obtain ⟨y0, yh, ym⟩ := edge_off ys d.ny b.y ly zy y2
    rw [iff_false_intro (edge_not ys d.ny b.y y2)] at hedge
    have nx' := ex _ xm
    have ny' := ey _ ym
    rw [xh] at nx'
    rw [iff_false_intro yh] at ny'
    rw [x0] at ax
    rw [iff_false_intro y0] at ay
    clear x0 y0 xh yh
    refine ⟨cell_some d _ _ i j ?_ ?_ hi hj hz, ?_⟩
    · cases o <;> simp only [Oct.east, Oct.north, if_true, Bool.false_eq_true, if_false, reduceCtorEq, false_or, or_false] at x1 x2 y1 y2 hedge ax ay nx' ny' ⊢ <;> simp only [adjust, ax, ay, nx', ny', reduceCtorEq, if_true, if_false, Bool.false_eq_true] <;> split_ifs <;> simp only [] <;> omega
    · cases o <;> simp only [Oct.east, Oct.north, if_true, Bool.false_eq_true, if_false, reduceCtorEq, false_or, or_false] at x1 x2 y1 y2 hedge ax ay nx' ny' ⊢ <;> simp only [adjust, ax, ay, nx', ny', reduceCtorEq, if_true, if_false, Bool.false_eq_true] <;> split_ifs <;> simp only [] <;> omega
    · cases o
      · simp [Oct.east, Oct.north] at x1 x2 y1 y2 hedge ⊢
        by_cases hc : i = 0
        · have k1 : ((i : Int)) = 0 := by omega
          have k2 : ((i : Int)) ≠ d.nx := by omega
          have k3 : ¬ (0 < ((i : Int)) ∧ ((i : Int)) < d.nx ∧ 0 < ((j : Int)) ∧ ((j : Int)) < d.ny) := by omega
          refine ⟨.WEST, ?_, ?_, ?_, ?_⟩
          · simp [normAt, hc]
          · simpa [OnFace] using x2
          · simp [beside, adjacent]; omega
          · simp [Downwind, opposite, Oct.east, Oct.north]
        · omega
      · simp [Oct.east, Oct.north] at x1 x2 y1 y2 hedge ⊢
        by_cases hc : i + 1 = d.nx
        · have k1 : ((i : Int) + 1) = d.nx := by omega
          have k2 : ((i : Int) + 1) ≠ 0 := by omega
          have k3 : ¬ (0 < ((i : Int) + 1) ∧ ((i : Int) + 1) < d.nx ∧ 0 < ((j : Int)) ∧ ((j : Int)) < d.ny) := by omega
          refine ⟨.EAST, ?_, ?_, ?_, ?_⟩
          · unfold normAt; simp [k1, k2] <;> (try split_ifs) <;> first | rfl | omega | (exfalso; omega)
          · simpa [OnFace] using x2
          · simp [beside, adjacent]; omega
          · simp [Downwind, opposite, Oct.east, Oct.north]
        · omega
      · simp [Oct.east, Oct.north] at x1 x2 y1 y2 hedge ⊢
        by_cases hc : i + 1 = d.nx
        · have k1 : ((i : Int) + 1) = d.nx := by omega
          have k2 : ((i : Int) + 1) ≠ 0 := by omega
          have k3 : ¬ (0 < ((i : Int) + 1) ∧ ((i : Int) + 1) < d.nx ∧ 0 < ((j : Int)) ∧ ((j : Int)) < d.ny) := by omega
          refine ⟨.EAST, ?_, ?_, ?_, ?_⟩
          · unfold normAt; simp [k1, k2] <;> (try split_ifs) <;> first | rfl | omega | (exfalso; omega)
          · simpa [OnFace] using x2
          · simp [beside, adjacent]; omega
          · simp [Downwind, opposite, Oct.east, Oct.north]
        · omega
      · simp [Oct.east, Oct.north] at x1 x2 y1 y2 hedge ⊢
        by_cases hc : i = 0
        · have k1 : ((i : Int)) = 0 := by omega
          have k2 : ((i : Int)) ≠ d.nx := by omega
          have k3 : ¬ (0 < ((i : Int)) ∧ ((i : Int)) < d.nx ∧ 0 < ((j : Int)) ∧ ((j : Int)) < d.ny) := by omega
          refine ⟨.WEST, ?_, ?_, ?_, ?_⟩
          · simp [normAt, hc]
          · simpa [OnFace] using x2
          · simp [beside, adjacent]; omega
          · simp [Downwind, opposite, Oct.east, Oct.north]
        · omega
  · obtain ⟨x0, xh, xm⟩ := edge_off xs d.nx b.x lx zx x2
    rw [iff_false_intro (edge_not xs d.nx b.x x2)] at hedge
    obtain ⟨y0, yh, ym⟩ := edge_on ys d.ny _ b.y sy ly zy y2
    rw [edge_iff ys d.ny _ b.y sy y2] at hedge
    have nx' := ex _ xm
    have ny' := ey _ ym
    rw [iff_false_intro xh] at nx'
    rw [yh] at ny'
    rw [iff_false_intro x0] at ax
    rw [y0] at ay
    clear x0 y0 xh yh
    refine ⟨cell_some d _ _ i j ?_ ?_ hi hj hz, ?_⟩
    · cases o <;> simp only [Oct.east, Oct.north, if_true, Bool.false_eq_true, if_false, reduceCtorEq, false_or, or_false] at x1 x2 y1 y2 hedge ax ay nx' ny' ⊢ <;> simp only [adjust, ax, ay, nx', ny', reduceCtorEq, if_true, if_false, Bool.false_eq_true] <;> split_ifs <;> simp only [] <;> omega
    · cases o <;> simp only [Oct.east, Oct.north, if_true, Bool.false_eq_true, if_false, reduceCtorEq, false_or, or_false] at x1 x2 y1 y2 hedge ax ay nx' ny' ⊢ <;> simp only [adjust, ax, ay, nx', ny', reduceCtorEq, if_true, if_false, Bool.false_eq_true] <;> split_ifs <;> simp only [] <;> omega
    · cases o
      · simp [Oct.east, Oct.north] at x1 x2 y1 y2 hedge ⊢
        have k3 : ¬ (0 < ((i : Int)) ∧ ((i : Int)) < d.nx ∧ 0 < ((j : Int)) ∧ ((j : Int)) < d.ny) := by omega
        refine ⟨.SOUTH, ?_, ?_, ?_, ?_⟩
        · unfold normAt; simp <;> (try split_ifs) <;> first | rfl | omega | (exfalso; omega)
        · simpa [OnFace] using y2
        · simp [beside, adjacent]; omega
        · simp [Downwind, opposite, Oct.east, Oct.north]
      · simp [Oct.east, Oct.north] at x1 x2 y1 y2 hedge ⊢
        have k3 : ¬ (0 < ((i : Int)) ∧ ((i : Int)) < d.nx ∧ 0 < ((j : Int)) ∧ ((j : Int)) < d.ny) := by omega
        refine ⟨.SOUTH, ?_, ?_, ?_, ?_⟩
        · unfold normAt; simp <;> (try split_ifs) <;> first | rfl | omega | (exfalso; omega)
        · simpa [OnFace] using y2
        · simp [beside, adjacent]; omega
        · simp [Downwind, opposite, Oct.east, Oct.north]
      · simp [Oct.east, Oct.north] at x1 x2 y1 y2 hedge ⊢
        have k3 : ¬ (0 < ((i : Int)) ∧ ((i : Int)) < d.nx ∧ 0 < ((j : Int) + 1) ∧ ((j : Int) + 1) < d.ny) := by omega
        refine ⟨.NORTH, ?_, ?_, ?_, ?_⟩
        · unfold normAt; simp <;> (try split_ifs) <;> first | rfl | omega | (exfalso; omega)
        · simpa [OnFace] using y2
        · simp [beside, adjacent]; omega
        · simp [Downwind, opposite, Oct.east, Oct.north]
      · simp [Oct.east, Oct.north] at x1 x2 y1 y2 hedge ⊢
        have k3 : ¬ (0 < ((i : Int)) ∧ ((i : Int)) < d.nx ∧ 0 < ((j : Int) + 1) ∧ ((j : Int) + 1) < d.ny) := by omega
        refine ⟨.NORTH, ?_, ?_, ?_, ?_⟩
        · unfold normAt; simp <;> (try split_ifs) <;> first | rfl | omega | (exfalso; omega)
        · simpa [OnFace] using y2
        · simp [beside, adjacent]; omega
        · simp [Downwind, opposite, Oct.east, Oct.north]
  · obtain ⟨x0, xh, xm⟩ := edge_off xs d.nx b.x lx zx x2
    rw [iff_false_intro (edge_not xs d.nx b.x x2)] at hedge
    obtain ⟨y0, yh, ym⟩ := edge_off ys d.ny b.y ly zy y2
    rw [iff_false_intro (edge_not ys d.ny b.y y2)] at hedge
    simp at hedge

/-- C74: at the point where the ray leaves the mesh, no corner of it, the surfaces lead out of the mesh, with the last one only. -/
theorem C74_end (near : ℝ → ℝ → Bool) (d : Dims) (xs ys : List ℝ) (hl : Lines d xs ys) (o : Oct) (c : Nat × Nat) (a b : Pt ℝ)
    (h : Piece xs ys o c a b) (hedge : Edge xs d.nx b.x ∨ Edge ys d.ny b.y) (hcorner : ¬ (Edge xs d.nx b.x ∧ Edge ys d.ny b.y))
    (ex : Exact near b.x xs) (ey : Exact near b.y ys) :
    Crosses xs ys d.nx d.ny b c (normPoint near d xs ys b o) none ∧ (∀ s ∈ normPoint near d xs ys b o, Downwind o s) ∧
    (normPoint near d xs ys b o).length = (if b.x ∈ xs then 1 else 0) + (if b.y ∈ ys then 1 else 0) := by
  obtain ⟨⟨sx, lx, zx⟩, sy, ly, zy⟩ := hl
  obtain ⟨⟨ax, ay⟩, ⟨bx, by'⟩, dx, dy⟩ := h
  have X := depart near xs b.x a.x c.1 (!o.east) sx ex bx ax (flip_dir _ _ _ dx)
  have Y := depart near ys b.y a.y c.2 (!o.north) sy ey by' ay (flip_dir _ _ _ dy)
  have bi := within_lt bx
  have bj := within_lt by'
  rw [lx] at bi
  rw [ly] at bj
  obtain ⟨i, j⟩ := c
  unfold normPoint
  simp only [] at X Y bi bj ⊢
  have hi : i < d.nx := by omega
  have hj : j < d.ny := by omega
  have mem : ∀ (l : List ℝ) (k : Nat) (u : ℝ), l[k]? = some u → u ∈ l := fun l k u h => List.mem_of_getElem? h
  rcases X with ⟨x1, x2⟩ | ⟨x1, x2⟩ <;> rcases Y with ⟨y1, y2⟩ | ⟨y1, y2⟩
  all_goals
    rw [x1, y1]
  · rw [edge_iff xs d.nx _ b.x sx x2] at hedge hcorner
    rw [edge_iff ys d.ny _ b.y sy y2] at hedge hcorner
    rw [if_pos (mem _ _ _ x2), if_pos (mem _ _ _ y2)]
    cases o <;> simp [Oct.east, Oct.north] at x1 x2 y1 y2 hedge hcorner ⊢
    · by_cases hc : i + 1 = d.nx
      · have b1 : ¬ (i + 1 < d.nx) := by omega
        have b2 : (j + 1 < d.ny) := by omega
        have k3 : ¬ (0 < ((i : Int) + 1) ∧ ((i : Int) + 1) < d.nx ∧ 0 < ((j : Int) + 1) ∧ ((j : Int) + 1) < d.ny) := by omega
        have hn : normAt d.nx d.ny true ((i : Int) + 1) true ((j : Int) + 1) .one = [.NORTH, .EAST] := by
          unfold normAt; rw [if_neg k3]; simp <;> (try split_ifs) <;> first | rfl | omega | (exfalso; omega)
        rw [hn]
        simp [Crosses, OnFace, beside, adjacent, Downwind, Oct.east, Oct.north, b1, x2, b2, y2]
      · have b1 : (i + 1 < d.nx) := by omega
        have b2 : ¬ (j + 1 < d.ny) := by omega
        have k3 : ¬ (0 < ((i : Int) + 1) ∧ ((i : Int) + 1) < d.nx ∧ 0 < ((j : Int) + 1) ∧ ((j : Int) + 1) < d.ny) := by omega
        have hn : normAt d.nx d.ny true ((i : Int) + 1) true ((j : Int) + 1) .one = [.EAST, .NORTH] := by
          unfold normAt; rw [if_neg k3]; simp <;> (try split_ifs) <;> first | rfl | omega | (exfalso; omega)
        rw [hn]
        simp [Crosses, OnFace, beside, adjacent, Downwind, Oct.east, Oct.north, b1, x2, b2, y2]
    · by_cases hc : i = 0
      · have b1 : ¬ (0 < i) := by omega
        have b2 : (j + 1 < d.ny) := by omega
        have k3 : ¬ (0 < (i : Int) ∧ (i : Int) < d.nx ∧ 0 < ((j : Int) + 1) ∧ ((j : Int) + 1) < d.ny) := by omega
        have hn : normAt d.nx d.ny true (i : Int) true ((j : Int) + 1) .two = [.NORTH, .WEST] := by
          unfold normAt; rw [if_neg k3]; simp <;> (try split_ifs) <;> first | rfl | omega | (exfalso; omega)
        rw [hn]
        simp [Crosses, OnFace, beside, adjacent, Downwind, Oct.east, Oct.north, b1, x2, b2, y2]
      · have b1 : (0 < i) := by omega
        have b2 : ¬ (j + 1 < d.ny) := by omega
        have k3 : ¬ (0 < (i : Int) ∧ (i : Int) < d.nx ∧ 0 < ((j : Int) + 1) ∧ ((j : Int) + 1) < d.ny) := by omega
        have hn : normAt d.nx d.ny true (i : Int) true ((j : Int) + 1) .two = [.WEST, .NORTH] := by
          unfold normAt; rw [if_neg k3]; simp <;> (try split_ifs) <;> first | rfl | omega | (exfalso; omega)
        rw [hn]
        simp [Crosses, OnFace, beside, adjacent, Downwind, Oct.east, Oct.north, b1, x2, b2, y2]
    · by_cases hc : i = 0
      · have b1 : ¬ (0 < i) := by omega
        have b2 : (0 < j) := by omega
        have k3 : ¬ (0 < (i : Int) ∧ (i : Int) < d.nx ∧ 0 < (j : Int) ∧ (j : Int) < d.ny) := by omega
        have hn : normAt d.nx d.ny true (i : Int) true (j : Int) .three = [.SOUTH, .WEST] := by
          unfold normAt; rw [if_neg k3]; simp <;> (try split_ifs) <;> first | rfl | omega | (exfalso; omega)
        rw [hn]
        simp [Crosses, OnFace, beside, adjacent, Downwind, Oct.east, Oct.north, b1, x2, b2, y2]
      · have b1 : (0 < i) := by omega
        have b2 : ¬ (0 < j) := by omega
        have k3 : ¬ (0 < (i : Int) ∧ (i : Int) < d.nx ∧ 0 < (j : Int) ∧ (j : Int) < d.ny) := by omega
        have hn : normAt d.nx d.ny true (i : Int) true (j : Int) .three = [.WEST, .SOUTH] := by
          unfold normAt; rw [if_neg k3]; simp <;> (try split_ifs) <;> first | rfl | omega | (exfalso; omega)
        rw [hn]
        simp [Crosses, OnFace, beside, adjacent, Downwind, Oct.east, Oct.north, b1, x2, b2, y2]
    · by_cases hc : i + 1 = d.nx
      · have b1 : ¬ (i + 1 < d.nx) := by omega
        have b2 : (0 < j) := by omega
        have k3 : ¬ (0 < ((i : Int) + 1) ∧ ((i : Int) + 1) < d.nx ∧ 0 < (j : Int) ∧ (j : Int) < d.ny) := by omega
        have hn : normAt d.nx d.ny true ((i : Int) + 1) true (j : Int) .four = [.SOUTH, .EAST] := by
          unfold normAt; rw [if_neg k3]; simp <;> (try split_ifs) <;> first | rfl | omega | (exfalso; omega)
        rw [hn]
        simp [Crosses, OnFace, beside, adjacent, Downwind, Oct.east, Oct.north, b1, x2, b2, y2]
      · have b1 : (i + 1 < d.nx) := by omega
        have b2 : ¬ (0 < j) := by omega
        have k3 : ¬ (0 < ((i : Int) + 1) ∧ ((i : Int) + 1) < d.nx ∧ 0 < (j : Int) ∧ (j : Int) < d.ny) := by omega
        have hn : normAt d.nx d.ny true ((i : Int) + 1) true (j : Int) .four = [.EAST, .SOUTH] := by
          unfold normAt; rw [if_neg k3]; simp <;> (try split_ifs) <;> first | rfl | omega | (exfalso; omega)
        rw [hn]
        simp [Crosses, OnFace, beside, adjacent, Downwind, Oct.east, Oct.north, b1, x2, b2, y2]
  · rw [edge_iff xs d.nx _ b.x sx x2] at hedge hcorner
    rw [iff_false_intro (edge_not ys d.ny b.y y2)] at hedge hcorner
    rw [if_pos (mem _ _ _ x2), if_neg y2]
    cases o <;> simp [Oct.east, Oct.north] at x1 x2 y1 y2 hedge hcorner ⊢
    · have b1 : ¬ (i + 1 < d.nx) := by omega
      have hn : normAt d.nx d.ny true ((i : Int) + 1) false (j : Int) .one = [.EAST] := by
        unfold normAt; simp <;> (try split_ifs) <;> first | rfl | omega | (exfalso; omega)
      rw [hn]
      simp [Crosses, OnFace, beside, adjacent, Downwind, Oct.east, Oct.north, b1, x2]
    · have b1 : ¬ (0 < i) := by omega
      have hn : normAt d.nx d.ny true (i : Int) false (j : Int) .two = [.WEST] := by
        unfold normAt; simp <;> (try split_ifs) <;> first | rfl | omega | (exfalso; omega)
      rw [hn]
      simp [Crosses, OnFace, beside, adjacent, Downwind, Oct.east, Oct.north, b1, x2]
    · have b1 : ¬ (0 < i) := by omega
      have hn : normAt d.nx d.ny true (i : Int) false (j : Int) .three = [.WEST] := by
        unfold normAt; simp <;> (try split_ifs) <;> first | rfl | omega | (exfalso; omega)
      rw [hn]
      simp [Crosses, OnFace, beside, adjacent, Downwind, Oct.east, Oct.north, b1, x2]
    · have b1 : ¬ (i + 1 < d.nx) := by omega
      have hn : normAt d.nx d.ny true ((i : Int) + 1) false (j : Int) .four = [.EAST] := by
        unfold normAt; simp <;> (try split_ifs) <;> first | rfl | omega | (exfalso; omega)
      rw [hn]
      simp [Crosses, OnFace, beside, adjacent, Downwind, Oct.east, Oct.north, b1, x2]
  · rw [iff_false_intro (edge_not xs d.nx b.x x2)] at hedge hcorner
    rw [edge_iff ys d.ny _ b.y sy y2] at hedge hcorner
    rw [if_neg x2, if_pos (mem _ _ _ y2)]
    cases o <;> simp [Oct.east, Oct.north] at x1 x2 y1 y2 hedge hcorner ⊢
    · have b2 : ¬ (j + 1 < d.ny) := by omega
      have hn : normAt d.nx d.ny false (i : Int) true ((j : Int) + 1) .one = [.NORTH] := by
        unfold normAt; simp <;> (try split_ifs) <;> first | rfl | omega | (exfalso; omega)
      rw [hn]
      simp [Crosses, OnFace, beside, adjacent, Downwind, Oct.east, Oct.north, b2, y2]
    · have b2 : ¬ (j + 1 < d.ny) := by omega
      have hn : normAt d.nx d.ny false (i : Int) true ((j : Int) + 1) .two = [.NORTH] := by
        unfold normAt; simp <;> (try split_ifs) <;> first | rfl | omega | (exfalso; omega)
      rw [hn]
      simp [Crosses, OnFace, beside, adjacent, Downwind, Oct.east, Oct.north, b2, y2]
    · have b2 : ¬ (0 < j) := by omega
      have hn : normAt d.nx d.ny false (i : Int) true (j : Int) .three = [.SOUTH] := by
        unfold normAt; simp <;> (try split_ifs) <;> first | rfl | omega | (exfalso; omega)
      rw [hn]
      simp [Crosses, OnFace, beside, adjacent, Downwind, Oct.east, Oct.north, b2, y2]
    · have b2 : ¬ (0 < j) := by omega
      have hn : normAt d.nx d.ny false (i : Int) true (j : Int) .four = [.SOUTH] := by
        unfold normAt; simp <;> (try split_ifs) <;> first | rfl | omega | (exfalso; omega)
      rw [hn]
      simp [Crosses, OnFace, beside, adjacent, Downwind, Oct.east, Oct.north, b2, y2]
  · rw [iff_false_intro (edge_not xs d.nx b.x x2)] at hedge hcorner
    rw [iff_false_intro (edge_not ys d.ny b.y y2)] at hedge hcorner
    simp at hedge

/-- C74: at a corner of the mesh there are two surfaces, and the first already leads out of it: the second is looked up for no cell. -/
theorem C74_corner (near : ℝ → ℝ → Bool) (d : Dims) (xs ys : List ℝ) (hl : Lines d xs ys) (o : Oct) (c : Nat × Nat) (a b : Pt ℝ)
    (h : Piece xs ys o c a b) (hcorner : Edge xs d.nx b.x ∧ Edge ys d.ny b.y) (ex : Exact near b.x xs) (ey : Exact near b.y ys) :
    ∃ s t, normPoint near d xs ys b o = [s, t] ∧ beside d.nx d.ny c s = none := by
  obtain ⟨⟨sx, lx, zx⟩, sy, ly, zy⟩ := hl
  obtain ⟨⟨ax, ay⟩, ⟨bx, by'⟩, dx, dy⟩ := h
  have X := depart near xs b.x a.x c.1 (!o.east) sx ex bx ax (flip_dir _ _ _ dx)
  have Y := depart near ys b.y a.y c.2 (!o.north) sy ey by' ay (flip_dir _ _ _ dy)
  have bi := within_lt bx
  have bj := within_lt by'
  rw [lx] at bi
  rw [ly] at bj
  obtain ⟨i, j⟩ := c
  unfold normPoint
  simp only [] at X Y bi bj ⊢
  rcases X with ⟨x1, x2⟩ | ⟨x1, x2⟩
  · rcases Y with ⟨y1, y2⟩ | ⟨y1, y2⟩
    · rw [x1, y1]
      rw [edge_iff xs d.nx _ b.x sx x2, edge_iff ys d.ny _ b.y sy y2] at hcorner
      cases o <;> simp [Oct.east, Oct.north] at hcorner ⊢
      · refine ⟨.NORTH, ⟨.EAST, ?_⟩, by simp [beside, adjacent]; omega⟩
        unfold normAt
        simp <;> (try split_ifs) <;> first | rfl | omega | (exfalso; omega)
      · have e1 : i = 0 := by omega
        refine ⟨.NORTH, ⟨.WEST, ?_⟩, by simp [beside, adjacent]; omega⟩
        unfold normAt
        simp <;> (try split_ifs) <;> first | rfl | omega | (exfalso; omega)
      · have e1 : i = 0 := by omega
        have e2 : j = 0 := by omega
        refine ⟨.SOUTH, ⟨.WEST, ?_⟩, by simp [beside, adjacent]; omega⟩
        unfold normAt
        simp <;> (try split_ifs) <;> first | rfl | omega | (exfalso; omega)
      · have e2 : j = 0 := by omega
        refine ⟨.SOUTH, ⟨.EAST, ?_⟩, by simp [beside, adjacent]; omega⟩
        unfold normAt
        simp <;> (try split_ifs) <;> first | rfl | omega | (exfalso; omega)
    · exact absurd hcorner.2 (edge_not ys d.ny b.y y2)
  · exact absurd hcorner.1 (edge_not xs d.nx b.x x2)

/-- The pieces between consecutive points lie in the cells `cs`. -/
def Path (xs ys : List ℝ) (o : Oct) : List (Pt ℝ) → List (Nat × Nat) → Prop
  | [_], [] => True
  | a :: b :: rest, c :: cs => Piece xs ys o c a b ∧ Path xs ys o (b :: rest) cs
  | _, _ => False

theorem path_of_pairs (xs ys : List ℝ) (o : Oct) : ∀ Q : List (Pt ℝ), Q ≠ [] → (∀ a b, (a, b) ∈ Q.zip Q.tail → ∃ c, Piece xs ys o c a b) →
    ∃ cs, Path xs ys o Q cs
  | [], h, _ => absurd rfl h
  | [_], _, _ => ⟨[], trivial⟩
  | a :: b :: rest, _, h => by
    obtain ⟨c, hc⟩ := h a b (by simp)
    obtain ⟨cs, hcs⟩ := path_of_pairs xs ys o (b :: rest) (by simp) (fun u v huv => h u v (by simp at huv ⊢; right; exact huv))
    exact ⟨c :: cs, hc, hcs⟩

theorem exists_within : ∀ (xs : List ℝ) (x h u : ℝ), xs ≠ [] → (x :: xs).getLast? = some h → x ≤ u → u ≤ h → ∃ i, Within (x :: xs) i u
  | [], _, _, _, h, _, _, _ => absurd rfl h
  | y :: rest, x, h, u, _, hl, h1, h2 => by
    by_cases hy : u ≤ y
    · exact ⟨0, x, y, by simp, by simp, h1, hy⟩
    · have hr : rest ≠ [] := by
        rintro rfl
        simp at hl
        rw [hl] at hy
        exact hy h2
      rw [List.getLast?_cons_cons] at hl
      obtain ⟨i, l, r, e1, e2, a, b⟩ := exists_within rest y h u hr hl (not_le.mp hy).le h2
      exact ⟨i + 1, l, r, by simpa using e1, by simpa using e2, a, b⟩

theorem Grid.within {xs : List ℝ} {h : ℝ} (g : Grid xs h) (u : ℝ) (h1 : 0 ≤ u) (h2 : u ≤ h) : ∃ i, Within xs i u := by
  obtain ⟨mid, rfl, _⟩ := g
  exact exists_within (mid ++ [h]) 0 h u (by simp) (by rw [show (0 :: (mid ++ [h])) = (0 :: mid) ++ [h] from rfl, List.getLast?_concat]) h1 h2

/-- What holds between holds at the ends. -/
theorem ends_of_between (u v x : ℝ)
    (hc : ∀ s t, 0 < s → s < 1 → 0 < t → t < 1 → ((u + s * (v - u) < x ↔ u + t * (v - u) < x) ∧ (x < u + s * (v - u) ↔ x < u + t * (v - u)))) :
    (x ≤ u + 1 / 2 * (v - u) → x ≤ u ∧ x ≤ v) ∧ (u + 1 / 2 * (v - u) ≤ x → u ≤ x ∧ v ≤ x) := by
  have hh : (0 : ℝ) < 1 / 2 := by norm_num
  have hh' : (1 / 2 : ℝ) < 1 := by norm_num
  refine ⟨fun hm => ⟨?_, ?_⟩, fun hm => ⟨?_, ?_⟩⟩
  · by_contra hlt
    push Not at hlt
    have hd : 0 < v - u := by linarith
    have := (hc ((x - u) / (2 * (v - u))) (1 / 2) (by apply div_pos <;> linarith) (by rw [div_lt_one (by linarith)]; linarith) hh hh').1.mp
      (by rw [show (x - u) / (2 * (v - u)) * (v - u) = (x - u) / 2 by field_simp]; linarith)
    linarith
  · by_contra hlt
    push Not at hlt
    have hd : 0 < u - v := by linarith
    have := (hc (1 - (x - v) / (2 * (u - v))) (1 / 2) (by rw [sub_pos, div_lt_one (by linarith)]; linarith)
      (by rw [sub_lt_self_iff]; apply div_pos <;> linarith) hh hh').1.mp
      (by rw [show (1 - (x - v) / (2 * (u - v))) * (v - u) = (v - u) + (x - v) / 2 by field_simp; ring]; linarith)
    linarith
  · by_contra hlt
    push Not at hlt
    have hd : 0 < u - v := by linarith
    have := (hc ((u - x) / (2 * (u - v))) (1 / 2) (by apply div_pos <;> linarith) (by rw [div_lt_one (by linarith)]; linarith) hh hh').2.mp
      (by rw [show (u - x) / (2 * (u - v)) * (v - u) = -((u - x) / 2) by field_simp; ring]; linarith)
    linarith
  · by_contra hlt
    push Not at hlt
    have hd : 0 < v - u := by linarith
    have := (hc (1 - (v - x) / (2 * (v - u))) (1 / 2) (by rw [sub_pos, div_lt_one (by linarith)]; linarith)
      (by rw [sub_lt_self_iff]; apply div_pos <;> linarith) hh hh').2.mp
      (by rw [show (1 - (v - x) / (2 * (v - u))) * (v - u) = (v - u) - (v - x) / 2 by field_simp]; linarith)
    linarith

theorem within_ends (xs : List ℝ) (i : Nat) (u v : ℝ) (hw : Within xs i (u + 1 / 2 * (v - u)))
    (hc : ∀ s t, 0 < s → s < 1 → 0 < t → t < 1 → SameCell xs (u + s * (v - u)) (u + t * (v - u))) : Within xs i u ∧ Within xs i v := by
  obtain ⟨l, r, e1, e2, h1, h2⟩ := hw
  have L := (ends_of_between u v l fun s t a b c d => hc s t a b c d l (List.mem_of_getElem? e1)).1 h1
  have R := (ends_of_between u v r fun s t a b c d => hc s t a b c d r (List.mem_of_getElem? e2)).2 h2
  exact ⟨⟨l, r, e1, e2, L.1, R.1⟩, ⟨l, r, e1, e2, L.2, R.2⟩⟩

/-- C74: the points at which a ray is divided (C73) bound pieces in cells of the mesh. -/
theorem C74_path (xs ys : List ℝ) (hx hy : ℝ) (gx : Grid xs hx) (gy : Grid ys hy) (p1 p2 : Pt ℝ) (hup : p1.y < p2.y) (hxne : p1.x ≠ p2.x)
    (m1 : InMesh hx hy p1) (m2 : InMesh hx hy p2) (Q : List (Pt ℝ)) (hQ : Divides xs ys p1 p2 Q) :
    ∃ cs, Path xs ys (if p1.x < p2.x then .one else .two) Q cs := by
  obtain ⟨hh, _, hon, hp⟩ := hQ
  apply path_of_pairs
  · rintro rfl; simp at hh
  · intro a b hab
    obtain ⟨hlt, hs⟩ := hp a b hab
    have ra := (hon a (List.of_mem_zip hab).1).1
    have rb := (hon b (List.mem_of_mem_tail (List.of_mem_zip hab).2)).1
    have ma := inMesh_convex hx hy p1 p2 a m1 m2 ra
    have mb := inMesh_convex hx hy p1 p2 b m1 m2 rb
    have mm := inMesh_convex hx hy a b _ ma mb ⟨1 / 2, by norm_num, by norm_num, rfl⟩
    obtain ⟨i, hi⟩ := gx.within _ mm.1.1 mm.1.2
    obtain ⟨j, hj⟩ := gy.within _ mm.2.1 mm.2.2
    have X := within_ends xs i a.x b.x hi fun s t s0 s1 t0 t1 => (hs _ _ ⟨s, s0, s1, rfl⟩ ⟨t, t0, t1, rfl⟩).1
    have Y := within_ends ys j a.y b.y hj fun s t s0 s1 t0 t1 => (hs _ _ ⟨s, s0, s1, rfl⟩ ⟨t, t0, t1, rfl⟩).2
    refine ⟨(i, j), ⟨X.1, Y.1⟩, ⟨X.2, Y.2⟩, ?_, ?_⟩
    · obtain ⟨s, _, _, rfl⟩ := ra
      obtain ⟨t, _, _, rfl⟩ := rb
      simp only [onRay] at hlt ⊢
      rcases lt_or_gt_of_ne hxne with h | h
      · have hst : s < t := by nlinarith
        rw [if_pos h]
        simp only [Oct.east, if_true]
        nlinarith
      · have hst : s < t := by nlinarith
        rw [if_neg (not_lt.mpr h.le)]
        simp only [Oct.east, Bool.false_eq_true, if_false]
        nlinarith
    · split_ifs <;> simp_all [Oct.north]

/-- Instance: a ray through a corner of the cells of a mesh of three by three cells of width one, in at the west side, out at the east side. -/
example : Lines ⟨3, 3, 1⟩ [0, 1, 2, 3] [0, 1, 2, 3] ∧
    Path [0, 1, 2, 3] [0, 1, 2, 3] .one [⟨0, 1 / 2⟩, ⟨1, 1⟩, ⟨2, 3 / 2⟩, ⟨3, 2⟩] [(0, 0), (1, 1), (2, 1)] ∧
    Edge [0, 1, 2, 3] 3 0 ∧ Edge [0, 1, 2, 3] 3 3 ∧ ¬ (Edge [0, 1, 2, 3] 3 3 ∧ Edge [0, 1, 2, 3] 3 2) ∧
    Exact (fun a b => decide (a = b)) 1 [0, 1, 2, 3] := by
  refine ⟨⟨⟨by simp; norm_num, rfl, rfl⟩, ⟨by simp; norm_num, rfl, rfl⟩⟩, ?_, ?_, ?_, ?_, ?_⟩
  · simp [Path, Piece, Within, Oct.east, Oct.north]
    norm_num
  · simp [Edge]
  · simp [Edge]
  · simp [Edge]
  · intro x _; simp

/-- Instance: a ray that ends at a corner of the mesh. -/
example : Lines ⟨1, 1, 1⟩ [0, 1] [0, 1] ∧ Piece [0, 1] [0, 1] .one (0, 0) ⟨0, 0⟩ ⟨1, 1⟩ ∧ Edge [0, 1] 1 1 := by
  refine ⟨⟨⟨by simp, rfl, rfl⟩, ⟨by simp, rfl, rfl⟩⟩, ?_, ?_⟩
  · simp [Piece, Within, Oct.east, Oct.north]
  · simp [Edge]

end Verif.Mesh
