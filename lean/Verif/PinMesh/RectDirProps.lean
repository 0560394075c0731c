import Verif.PinMesh.RectProps

/-! # C66: locating a point of a rectangular pin mesh with a direction of travel -/

namespace Verif.PinMesh

open Verif.Geom

variable {K : Type} [Field K] [LinearOrder K] [IsStrictOrderedRing K]

/-- The coordinate is on a grid line or farther from each than the tolerances of the comparisons. -/
structure Resolved (near : K → K → Bool) (fuzz pitch : K) (n : Nat) (x : K) : Prop where
  self : near x x = true
  apart : ∀ i, i ≤ n → grid pitch n i ≠ x → near x (grid pitch n i) = false ∧ fuzz * |x| < |grid pitch n i - x|

theorem fuzzyLt_resolved {near : K → K → Bool} {fuzz pitch : K} (hf : 0 < fuzz) {n : Nat} {x : K}
    (h : Resolved near fuzz pitch n x) (i : Nat) (hi : i ≤ n) :
    fuzzyLt fuzz (grid pitch n i) x = decide (grid pitch n i < x) := by
  unfold fuzzyLt
  by_cases h0 : x = 0
  · rw [if_pos h0, h0]
  · rw [if_neg h0]
    have hx : 0 < |x| := abs_pos.mpr h0
    rw [decide_eq_decide, div_lt_iff₀ hx]
    by_cases he : grid pitch n i = x
    · rw [he]
      have := mul_pos hf hx
      constructor <;> intro hh <;> linarith
    · have h2 := (h.apart i hi he).2
      have h3 := mul_pos hf hx
      rcases lt_or_gt_of_ne he with hl | hl
      · rw [abs_of_neg (show grid pitch n i - x < 0 by linarith)] at h2
        constructor <;> intro hh <;> linarith
      · rw [abs_of_pos (show 0 < grid pitch n i - x by linarith)] at h2
        constructor <;> intro hh <;> linarith

/-- The fuzzy search gives the exact one. -/
theorem fuzzy_search {near : K → K → Bool} {fuzz pitch : K} (hf : 0 < fuzz) (hp : 0 < pitch) {n : Nat} {x : K}
    (h : Resolved near fuzz pitch n x) :
    Util.lowerBoundLoop (fun i => fuzzyLt fuzz (grid pitch n i) x) 0 (n + 1) = lowerGrid pitch n x := by
  have mono : ∀ i j, 0 ≤ i → i ≤ j → j < 0 + (n + 1) → fuzzyLt fuzz (grid pitch n j) x = true →
      fuzzyLt fuzz (grid pitch n i) x = true := by
    intro i j _ hij hj hl
    rw [fuzzyLt_resolved hf h j (by omega), decide_eq_true_eq] at hl
    rw [fuzzyLt_resolved hf h i (by omega), decide_eq_true_eq]
    exact lt_of_le_of_lt (grid_mono pitch hp n i j hij) hl
  obtain ⟨_, a, b, c⟩ := Util.lowerBoundLoop_spec _ 0 (n + 1) mono
  obtain ⟨a', b', c'⟩ := lowerGrid_spec pitch hp n x
  set s := Util.lowerBoundLoop (fun i => fuzzyLt fuzz (grid pitch n i) x) 0 (n + 1)
  rcases Nat.lt_trichotomy s (lowerGrid pitch n x) with hl | hl | hl
  · exfalso
    have h1 := c s (Nat.le_refl _) (by omega)
    rw [fuzzyLt_resolved hf h s (by omega), decide_eq_false_iff_not] at h1
    exact h1 (b' s hl)
  · exact hl
  · exfalso
    have h1 := b _ (Nat.zero_le _) hl
    rw [fuzzyLt_resolved hf h _ (by omega), decide_eq_true_eq] at h1
    exact absurd h1 (not_lt.mpr (c' _ (Nat.le_refl _) (by omega)))

/-- The cell of one coordinate contains the point and, a little further in the direction, still does. -/
theorem fuzzyCell_spec (near : K → K → Bool) (fuzz pitch : K) (hf : 0 < fuzz) (hp : 0 < pitch) (n : Nat) (hn : 1 ≤ n)
    (x o : K) (h0 : -(1 / 2 * pitch) ≤ x) (h1 : x ≤ 1 / 2 * pitch) (hr : Resolved near fuzz pitch n x)
    (ho : o < 0 → -(1 / 2 * pitch) < x) (ho' : 0 < o → x < 1 / 2 * pitch) :
    ∃ i, i < n ∧ fuzzyCell near fuzz pitch n x o = some i ∧ grid pitch n i ≤ x ∧ x ≤ grid pitch n (i + 1) ∧
      (o < 0 → grid pitch n i < x) ∧ (0 < o → x < grid pitch n (i + 1)) := by
  unfold fuzzyCell
  simp only [fuzzy_search hf hp hr]
  obtain ⟨a, b, c⟩ := lowerGrid_spec pitch hp n x
  have h3 : lowerGrid pitch n x ≤ n := by
    by_contra hh
    have := b n (by omega)
    rw [grid_last pitch n hn] at this
    linarith
  rw [if_neg (by omega)]
  set s := lowerGrid pitch n x
  have cs := c s (Nat.le_refl _) (by omega)
  by_cases he : grid pitch n s = x
  · have hnear : near x (grid pitch n s) = true := by rw [he]; exact hr.self
    rw [if_pos hnear]
    by_cases hop : 0 < o
    · rw [if_pos hop]
      have hsn : s < n := by
        by_contra hh
        have : s = n := by omega
        rw [this, grid_last pitch n hn] at he
        linarith [ho' hop]
      refine ⟨s, hsn, ?_, by rw [he], ?_, fun h => absurd h (by linarith), fun _ => ?_⟩
      · have : (max 0 (min ((n : Int) - 1) (((s + 1 : Nat) : Int) - 1))).toNat = s := by omega
        rw [this]
      · rw [← he]; exact grid_mono pitch hp n _ _ (by omega)
      · conv_lhs => rw [← he]
        exact grid_strict pitch hp n hn _ _ (by omega)
    · rw [if_neg hop]
      by_cases hs0 : s = 0
      · refine ⟨0, by omega, ?_, ?_, ?_, fun h => ?_, fun h => absurd h hop⟩
        · have : (max 0 (min ((n : Int) - 1) ((s : Int) - 1))).toNat = 0 := by omega
          rw [this]
        · rw [← he, hs0]
        · rw [← he, hs0]; exact grid_mono pitch hp n _ _ (by omega)
        · have := ho h
          rw [← he, hs0, grid_zero] at this
          exact absurd this (lt_irrefl _)
      · refine ⟨s - 1, by omega, ?_, ?_, ?_, fun _ => ?_, fun h => absurd h hop⟩
        · have : (max 0 (min ((n : Int) - 1) ((s : Int) - 1))).toNat = s - 1 := by omega
          rw [this]
        · exact (b _ (by omega)).le
        · rw [show s - 1 + 1 = s by omega, he]
        · exact b _ (by omega)
  · rw [(hr.apart s h3 he).1]
    have hs0 : s ≠ 0 := by
      intro e
      rw [e, grid_zero] at cs he
      exact he (le_antisymm h0 cs)
    have hlt : x < grid pitch n s := lt_of_le_of_ne cs (fun e => he e.symm)
    refine ⟨s - 1, by omega, ?_, (b _ (by omega)).le, ?_, fun _ => b _ (by omega), fun _ => ?_⟩
    · have : (max 0 (min ((n : Int) - 1) ((s : Int) - 1))).toNat = s - 1 := by omega
      simp only [Bool.false_eq_true, if_false, this]
    · rw [show s - 1 + 1 = s by omega]; exact cs
    · rw [show s - 1 + 1 = s by omega]; exact hlt

/-- The region of cell `(ix, iy)` contains `p`, and still does after a small step along the direction. -/
def Holds (m : Rect K) (p : Pt K) (dir : Dir K) (ix iy : Nat) : Prop :=
  (-(m.pitch / 2) + m.pitch * ix / m.nx ≤ p.x ∧ p.x ≤ -(m.pitch / 2) + m.pitch * (ix + 1) / m.nx ∧
    (dir.ox < 0 → -(m.pitch / 2) + m.pitch * ix / m.nx < p.x) ∧ (0 < dir.ox → p.x < -(m.pitch / 2) + m.pitch * (ix + 1) / m.nx)) ∧
  (-(m.pitch / 2) + m.pitch * iy / m.ny ≤ p.y ∧ p.y ≤ -(m.pitch / 2) + m.pitch * (iy + 1) / m.ny ∧
    (dir.oy < 0 → -(m.pitch / 2) + m.pitch * iy / m.ny < p.y) ∧ (0 < dir.oy → p.y < -(m.pitch / 2) + m.pitch * (iy + 1) / m.ny))

/-- The direction does not leave the pin through an edge the point is at (within the tolerance). -/
structure Staying (m : Rect K) (fuzz : K) (p : Pt K) (dir : Dir K) : Prop where
  west : dir.ox < 0 → -(m.pitch / 2) + fuzz ≤ p.x
  east : 0 < dir.ox → p.x ≤ m.pitch / 2 - fuzz
  south : dir.oy < 0 → -(m.pitch / 2) + fuzz ≤ p.y
  north : 0 < dir.oy → p.y ≤ m.pitch / 2 - fuzz

/-- C66: for a point of the pin that the direction does not leave it from, the region is one containing the point on the side
the direction points to. -/
theorem C66_region (m : Rect K) (hm : m.Valid) (near : K → K → Bool) (fuzz : K) (hf : 0 < fuzz) (p : Pt K) (dir : Dir K)
    (hx : |p.x| ≤ m.pitch / 2) (hy : |p.y| ≤ m.pitch / 2) (hs : Staying m fuzz p dir)
    (rx : Resolved near fuzz m.pitch m.nx p.x) (ry : Resolved near fuzz m.pitch m.ny p.y) :
    ∃ ix iy, ix < m.nx ∧ iy < m.ny ∧ m.findRegDir near fuzz p dir = some ((m.nx * iy + ix : Nat) : Int) ∧ Holds m p dir ix iy := by
  rw [abs_le] at hx hy
  obtain ⟨ix, i1, i2, i3, i4, i5, i6⟩ := fuzzyCell_spec near fuzz m.pitch hf hm.pitch m.nx hm.nx p.x dir.ox
    (by linarith [hx.1]) (by linarith [hx.2]) rx (fun h => by linarith [hs.west h]) (fun h => by linarith [hs.east h])
  obtain ⟨iy, j1, j2, j3, j4, j5, j6⟩ := fuzzyCell_spec near fuzz m.pitch hf hm.pitch m.ny hm.ny p.y dir.oy
    (by linarith [hy.1]) (by linarith [hy.2]) ry (fun h => by linarith [hs.south h]) (fun h => by linarith [hs.north h])
  simp only [grid_eq] at i3 i4 i5 i6 j3 j4 j5 j6
  push_cast at i4 i6 j4 j6
  refine ⟨ix, iy, i1, j1, ?_, ⟨i3, i4, i5, i6⟩, ⟨j3, j4, j5, j6⟩⟩
  unfold Rect.findRegDir
  rw [if_neg]
  · rw [i2, j2]; rfl
  · rintro (⟨h, h'⟩ | ⟨h, h'⟩ | ⟨h, h'⟩ | ⟨h, h'⟩)
    · linarith [hs.west h']
    · linarith [hs.east h']
    · linarith [hs.south h']
    · linarith [hs.north h']

omit [IsStrictOrderedRing K] in
/-- C66: a direction that leaves the pin from an edge the point is at, or beyond, gives -1. -/
theorem C66_leaving (m : Rect K) (near : K → K → Bool) (fuzz : K) (p : Pt K) (dir : Dir K)
    (h : (p.x < -(1 / 2) * m.pitch + fuzz ∧ dir.ox < 0) ∨ (1 / 2 * m.pitch - fuzz < p.x ∧ 0 < dir.ox) ∨
      (p.y < -(1 / 2) * m.pitch + fuzz ∧ dir.oy < 0) ∨ (1 / 2 * m.pitch - fuzz < p.y ∧ 0 < dir.oy)) :
    m.findRegDir near fuzz p dir = some (-1) := by
  unfold Rect.findRegDir
  rw [if_pos h]

omit [IsStrictOrderedRing K] in
theorem fuzzyCell_lt (near : K → K → Bool) (fuzz pitch : K) (n : Nat) (hn : 1 ≤ n) (x o : K) (i : Nat)
    (h : fuzzyCell near fuzz pitch n x o = some i) : i < n := by
  unfold fuzzyCell at h
  simp only [] at h
  split at h
  · cases h
  · rw [Option.some.injEq] at h
    rw [← h]
    omega

omit [IsStrictOrderedRing K] in
/-- C66: whatever the point, a result other than -1 is the index of a region. -/
theorem C66_range (m : Rect K) (hm : m.Valid) (near : K → K → Bool) (fuzz : K) (p : Pt K) (dir : Dir K) (r : Int)
    (h : m.findRegDir near fuzz p dir = some r) : r = -1 ∨ (0 ≤ r ∧ r < m.nReg) := by
  unfold Rect.findRegDir at h
  split at h
  · left; simpa using h.symm
  · right
    cases ex : fuzzyCell near fuzz m.pitch m.nx p.x dir.ox with
    | none => rw [ex] at h; cases h
    | some ix =>
      cases ey : fuzzyCell near fuzz m.pitch m.ny p.y dir.oy with
      | none => rw [ex, ey] at h; cases h
      | some iy =>
        rw [ex, ey] at h
        have h' : ((m.nx * iy + ix : Nat) : Int) = r := by simpa using h
        have h1 := fuzzyCell_lt near fuzz m.pitch m.nx hm.nx _ _ _ ex
        have h2 := fuzzyCell_lt near fuzz m.pitch m.ny hm.ny _ _ _ ey
        rw [← h']
        refine ⟨by positivity, ?_⟩
        unfold Rect.nReg
        have : m.nx * iy + ix < m.nx * m.ny := by
          calc m.nx * iy + ix < m.nx * iy + m.nx := by omega
            _ = m.nx * (iy + 1) := by rw [Nat.mul_add, Nat.mul_one]
            _ ≤ m.nx * m.ny := Nat.mul_le_mul_left _ h2
        exact_mod_cast this

/-- C66: a point beyond the east edge (by more than the tolerance) that heads back reads the grid past its end. -/
theorem C66_beyond_undefined (m : Rect K) (hm : m.Valid) (near : K → K → Bool) (fuzz : K) (hf : 0 < fuzz) (p : Pt K) (dir : Dir K)
    (hx0 : 0 < p.x) (hx : m.pitch / 2 < p.x - fuzz * p.x) (ho : dir.ox ≤ 0) (hy : |p.y| ≤ m.pitch / 2 - fuzz) :
    m.findRegDir near fuzz p dir = none := by
  rw [abs_le] at hy
  have hp := hm.pitch
  unfold Rect.findRegDir
  rw [if_neg]
  · have : fuzzyCell near fuzz m.pitch m.nx p.x dir.ox = none := by
      unfold fuzzyCell
      have all : ∀ i, i < m.nx + 1 → fuzzyLt fuzz (grid m.pitch m.nx i) p.x = true := by
        intro i hi
        unfold fuzzyLt
        rw [if_neg (ne_of_gt hx0), decide_eq_true_eq, abs_of_pos hx0, div_lt_iff₀ hx0]
        have := grid_mono m.pitch hp m.nx i m.nx (by omega)
        rw [grid_last _ _ hm.nx] at this
        linarith
      obtain ⟨_, a, b, c⟩ := Util.lowerBoundLoop_spec (fun i => fuzzyLt fuzz (grid m.pitch m.nx i) p.x) 0 (m.nx + 1)
        (fun i j _ hij hj _ => all i (by omega))
      have : m.nx < Util.lowerBoundLoop (fun i => fuzzyLt fuzz (grid m.pitch m.nx i) p.x) 0 (m.nx + 1) := by
        by_contra hn
        have := c m.nx (by omega) (by omega)
        rw [all m.nx (by omega)] at this
        cases this
      simp only [this, if_true]
    rw [this]; rfl
  · rintro (⟨h, h'⟩ | ⟨h, h'⟩ | ⟨h, h'⟩ | ⟨h, h'⟩) <;> linarith

/-- A point on an inner grid line belongs to either side, depending on the direction. -/
example : (⟨2, 2, 2⟩ : Rect ℚ).findRegDir (fun a b => decide (|a - b| < 1 / 100)) (1 / 100) ⟨0, 1 / 2⟩ ⟨1, 0, 0⟩ = some 3 := by
  decide +kernel
example : (⟨2, 2, 2⟩ : Rect ℚ).findRegDir (fun a b => decide (|a - b| < 1 / 100)) (1 / 100) ⟨0, 1 / 2⟩ ⟨-1, 0, 0⟩ = some 2 := by
  decide +kernel
example : (⟨2, 2, 2⟩ : Rect ℚ).findRegDir (fun a b => decide (|a - b| < 1 / 100)) (1 / 100) ⟨2, 0⟩ ⟨-1, 0, 0⟩ = none := by
  decide +kernel
example : Resolved (fun a b : ℚ => decide (|a - b| < 1 / 100)) (1 / 100) 2 2 0 := by
  refine ⟨by norm_num, ?_⟩
  intro i hi hne
  have : i = 0 ∨ i = 1 ∨ i = 2 := by omega
  rcases this with rfl | rfl | rfl
  · norm_num [grid]
  · norm_num [grid] at hne
  · norm_num [grid]

end Verif.PinMesh
