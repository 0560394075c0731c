import Verif.PinMesh.Model
import Mathlib.Algebra.Order.Field.Rat
import Mathlib.Algebra.BigOperators.Group.List.Basic
import Mathlib.Tactic.Ring
import Mathlib.Tactic.Linarith
import Mathlib.Tactic.NormNum
import Mathlib.Tactic.FieldSimp
import Mathlib.Tactic.Positivity

/-! # C65, C66: the rectangular pin mesh -/

namespace Verif.PinMesh

open Verif.Geom

variable {K : Type} [Field K] [LinearOrder K] [IsStrictOrderedRing K]

theorem mkRect_some {pitch : K} {sx sy : Int} {m : Rect K} (h : mkRect pitch sx sy = some m) :
    0 < pitch ∧ 1 ≤ sx ∧ 1 ≤ sy ∧ m = ⟨pitch, sx.toNat, sy.toNat⟩ := by
  unfold mkRect at h
  split at h
  · cases h
  · rename_i h1
    split at h
    · cases h
    · rename_i h2
      split at h
      · cases h
      · rename_i h3
        simp only [Option.some.injEq] at h
        exact ⟨not_le.mp h1, by omega, by omega, h.symm⟩

/-- A mesh as the constructor leaves it. -/
structure Rect.Valid (m : Rect K) : Prop where
  pitch : 0 < m.pitch
  nx : 1 ≤ m.nx
  ny : 1 ≤ m.ny

omit [IsStrictOrderedRing K] in
/-- C65: the constructor accepts exactly a positive pitch and at least one division each way. -/
theorem C65_accepted (pitch : K) (sx sy : Int) :
    (mkRect pitch sx sy = none ↔ pitch ≤ 0 ∨ sx ≤ 0 ∨ sy ≤ 0) ∧
    ∀ m, mkRect pitch sx sy = some m → m.Valid ∧ m.pitch = pitch ∧ (m.nx : Int) = sx ∧ (m.ny : Int) = sy := by
  constructor
  · constructor
    · intro h
      by_contra hn
      push_neg at hn
      obtain ⟨h1, h2, h3⟩ := hn
      unfold mkRect at h
      rw [if_neg (not_le.mpr h1), if_neg (by omega), if_neg (by omega)] at h
      cases h
    · intro h
      unfold mkRect
      split
      · rfl
      · rename_i h1
        split
        · rfl
        · rename_i h2
          split
          · rfl
          · rename_i h3
            exfalso
            rcases h with h | h | h
            · exact h1 h
            · omega
            · omega
  · intro m h
    unfold mkRect at h
    split at h
    · cases h
    · rename_i h1
      split at h
      · cases h
      · rename_i h2
        split at h
        · cases h
        · rename_i h3
          rw [Option.some.injEq] at h
          subst h
          exact ⟨⟨not_le.mp h1, by simp only []; omega, by simp only []; omega⟩, rfl, by simp only []; omega, by simp only []; omega⟩

/-- C65: the areas of the regions are positive and add up to the area of the pin. -/
theorem C65_areas (m : Rect K) (hm : m.Valid) :
    m.areas.length = m.nx * m.ny ∧ (∀ a ∈ m.areas, 0 < a) ∧ m.areas.sum = m.pitch * m.pitch := by
  have hx : (0 : K) < m.nx := by exact_mod_cast hm.nx
  have hy : (0 : K) < m.ny := by exact_mod_cast hm.ny
  have hp := hm.pitch
  refine ⟨by simp [Rect.areas, Rect.nReg], ?_, ?_⟩
  · intro a ha
    unfold Rect.areas at ha
    rw [List.eq_of_mem_replicate ha]
    positivity
  · unfold Rect.areas
    rw [List.sum_replicate, nsmul_eq_mul]
    unfold Rect.nReg
    push_cast
    field_simp

theorem grid_mono (pitch : K) (hp : 0 < pitch) (n : Nat) (i j : Nat) (h : i ≤ j) : grid pitch n i ≤ grid pitch n j := by
  unfold grid
  have h1 : (0 : K) ≤ pitch / n := div_nonneg hp.le (Nat.cast_nonneg n)
  have h2 : (i : K) ≤ j := by exact_mod_cast h
  linarith [mul_le_mul_of_nonneg_right h2 h1]

theorem grid_strict (pitch : K) (hp : 0 < pitch) (n : Nat) (hn : 1 ≤ n) (i j : Nat) (h : i < j) :
    grid pitch n i < grid pitch n j := by
  unfold grid
  have hn' : (0 : K) < n := by exact_mod_cast hn
  have h1 : (0 : K) < pitch / n := div_pos hp hn'
  have h2 : (i : K) < j := by exact_mod_cast h
  linarith [mul_lt_mul_of_pos_right h2 h1]

omit [LinearOrder K] [IsStrictOrderedRing K] in
theorem grid_zero (pitch : K) (n : Nat) : grid pitch n 0 = -(1 / 2 * pitch) := by simp [grid]

theorem grid_last (pitch : K) (n : Nat) (hn : 1 ≤ n) : grid pitch n n = 1 / 2 * pitch := by
  have hn' : (n : K) ≠ 0 := by
    have : (0 : K) < n := by exact_mod_cast hn
    exact ne_of_gt this
  unfold grid
  rw [mul_div_cancel₀ _ hn']
  ring

theorem lowerGrid_spec (pitch : K) (hp : 0 < pitch) (n : Nat) (x : K) :
    lowerGrid pitch n x ≤ n + 1 ∧ (∀ i, i < lowerGrid pitch n x → grid pitch n i < x) ∧
      (∀ i, lowerGrid pitch n x ≤ i → i < n + 1 → x ≤ grid pitch n i) :=
  Util.lowerBound_spec (grid pitch n) (n + 1) x (fun i j hij _ => grid_mono pitch hp n i j hij)

/-- The cell of one coordinate. -/
theorem lowerGrid_cell (pitch : K) (hp : 0 < pitch) (n : Nat) (hn : 1 ≤ n) (x : K) (h0 : -(1 / 2 * pitch) < x)
    (h1 : x ≤ 1 / 2 * pitch) :
    ∃ i, i < n ∧ lowerGrid pitch n x = i + 1 ∧ grid pitch n i < x ∧ x ≤ grid pitch n (i + 1) := by
  obtain ⟨a, b, c⟩ := lowerGrid_spec pitch hp n x
  have h2 : lowerGrid pitch n x ≠ 0 := by
    intro e
    have := c 0 (by omega) (by omega)
    rw [grid_zero] at this
    linarith
  have h3 : lowerGrid pitch n x ≤ n := by
    by_contra hh
    have := b n (by omega)
    rw [grid_last pitch n hn] at this
    linarith
  refine ⟨lowerGrid pitch n x - 1, by omega, by omega, b _ (by omega), ?_⟩
  have := c (lowerGrid pitch n x) (Nat.le_refl _) (by omega)
  rwa [show lowerGrid pitch n x - 1 + 1 = lowerGrid pitch n x by omega]

theorem grid_eq (pitch : K) (n : Nat) (i : Nat) : grid pitch n i = -(pitch / 2) + pitch * i / n := by
  unfold grid; ring

/-- `q` is in column `i` of `n` over the pitch, the upper end included. -/
def InStrip (pitch : K) (n i : Nat) (x : K) : Prop :=
  -(pitch / 2) + pitch * i / n < x ∧ x ≤ -(pitch / 2) + pitch * (i + 1) / n

/-- C65: for a point of the pin that is not on its left or bottom edge, the region is that of the cell containing the point
(a point on a line between cells belongs to the lower one). -/
theorem C65_cell_partial (m : Rect K) (hm : m.Valid) (p : Pt K) (hx : -(m.pitch / 2) < p.x) (hx' : p.x ≤ m.pitch / 2)
    (hy : -(m.pitch / 2) < p.y) (hy' : p.y ≤ m.pitch / 2) :
    ∃ ix iy, ix < m.nx ∧ iy < m.ny ∧ m.findReg p = m.nx * iy + ix ∧ 0 ≤ m.findReg p ∧ m.findReg p < m.nReg ∧
      InStrip m.pitch m.nx ix p.x ∧ InStrip m.pitch m.ny iy p.y := by
  obtain ⟨ix, h1, h2, h3, h4⟩ := lowerGrid_cell m.pitch hm.pitch m.nx hm.nx p.x (by linarith) (by linarith)
  obtain ⟨iy, k1, k2, k3, k4⟩ := lowerGrid_cell m.pitch hm.pitch m.ny hm.ny p.y (by linarith) (by linarith)
  have e : m.findReg p = m.nx * iy + ix := by
    unfold Rect.findReg
    rw [if_neg (by rw [not_lt, abs_le]; constructor <;> linarith), if_neg (by rw [not_lt, abs_le]; constructor <;> linarith)]
    simp only [h2, k2]
    push_cast
    ring
  rw [grid_eq] at h3 h4 k3 k4
  refine ⟨ix, iy, h1, k1, e, by rw [e]; positivity, ?_, ⟨h3, by push_cast at h4; exact h4⟩, ⟨k3, by push_cast at k4; exact k4⟩⟩
  rw [e]
  unfold Rect.nReg
  have : m.nx * iy + ix < m.nx * m.ny := by
    calc m.nx * iy + ix < m.nx * iy + m.nx := by omega
      _ = m.nx * (iy + 1) := by ring
      _ ≤ m.nx * m.ny := Nat.mul_le_mul_left _ k1
  exact_mod_cast this

omit [IsStrictOrderedRing K] in
/-- C65: points outside the pin give -1. -/
theorem C65_outside (m : Rect K) (p : Pt K) (h : 1 / 2 * m.pitch < |p.x| ∨ 1 / 2 * m.pitch < |p.y|) : m.findReg p = -1 := by
  unfold Rect.findReg
  rcases h with h | h
  · rw [if_pos h]
  · rw [if_pos h]; split <;> rfl

/-- C65: on the left edge, at the height of row `iy`, the region is the last one of the row below, at the opposite side of
the pin (or -1 in the first row). -/
theorem C65_left_edge (m : Rect K) (hm : m.Valid) (y : K) (iy : Nat) (hi : iy < m.ny) (hy : InStrip m.pitch m.ny iy y) :
    m.findReg ⟨-(m.pitch / 2), y⟩ = m.nx * iy - 1 := by
  have hp := hm.pitch
  have hny : (0 : K) < m.ny := by exact_mod_cast hm.ny
  have z : lowerGrid m.pitch m.nx (-(m.pitch / 2)) = 0 := by
    obtain ⟨a, b, c⟩ := lowerGrid_spec m.pitch hm.pitch m.nx (-(m.pitch / 2))
    by_contra hn
    have := b 0 (by omega)
    rw [grid_zero] at this
    linarith
  have b1 : -(m.pitch / 2) < y := by
    have : 0 ≤ m.pitch * iy / m.ny := by positivity
    linarith [hy.1]
  have b2 : y ≤ m.pitch / 2 := by
    have h2 : (iy : K) + 1 ≤ m.ny := by exact_mod_cast hi
    have : m.pitch * (iy + 1) / m.ny ≤ m.pitch := by
      rw [div_le_iff₀ hny]; exact mul_le_mul_of_nonneg_left h2 hp.le
    linarith [hy.2]
  obtain ⟨j, j1, j2, j3, j4⟩ := lowerGrid_cell m.pitch hm.pitch m.ny hm.ny y (by linarith) (by linarith)
  have hj : j = iy := by
    rw [grid_eq] at j3 j4
    rcases Nat.lt_trichotomy j iy with h | h | h
    · exfalso
      have h5 : ((j + 1 : Nat) : K) ≤ iy := by exact_mod_cast h
      have : m.pitch * ((j + 1 : Nat) : K) / m.ny ≤ m.pitch * iy / m.ny :=
        div_le_div_of_nonneg_right (mul_le_mul_of_nonneg_left h5 hp.le) hny.le
      linarith [hy.1]
    · exact h
    · exfalso
      have h5 : (iy : K) + 1 ≤ j := by exact_mod_cast h
      have : m.pitch * ((iy : K) + 1) / m.ny ≤ m.pitch * j / m.ny :=
        div_le_div_of_nonneg_right (mul_le_mul_of_nonneg_left h5 hp.le) hny.le
      linarith [hy.2]
  unfold Rect.findReg
  rw [if_neg (by rw [not_lt, abs_le]; constructor <;> simp only [] <;> linarith),
    if_neg (by rw [not_lt, abs_le]; constructor <;> simp only [] <;> linarith)]
  simp only [z, j2, hj]
  push_cast
  ring

/-- C65, the full claim: a point of the pin, its edges included, is located in a cell that contains it. -/
def C65_claim : Prop := ∀ (m : Rect ℚ), m.Valid → ∀ p : Pt ℚ, |p.x| ≤ m.pitch / 2 → |p.y| ≤ m.pitch / 2 →
  ∃ ix iy : Nat, ix < m.nx ∧ iy < m.ny ∧ m.findReg p = m.nx * iy + ix ∧
    -(m.pitch / 2) + m.pitch * ix / m.nx ≤ p.x ∧ p.x ≤ -(m.pitch / 2) + m.pitch * (ix + 1) / m.nx ∧
    -(m.pitch / 2) + m.pitch * iy / m.ny ≤ p.y ∧ p.y ≤ -(m.pitch / 2) + m.pitch * (iy + 1) / m.ny

/-- C65 is false: in a pin of pitch 2 with 2 by 2 cells the point (-1, 1/2) is located in region 1, the lower right. -/
theorem C65_claim_false : ¬ C65_claim := by
  intro h
  have hv : (⟨2, 2, 2⟩ : Rect ℚ).Valid := ⟨by norm_num, by norm_num, by norm_num⟩
  have e := C65_left_edge (⟨2, 2, 2⟩ : Rect ℚ) hv (1 / 2) 1 (by norm_num) (by norm_num [InStrip])
  obtain ⟨ix, iy, h1, h2, h3, h4, h5, h6, h7⟩ := h ⟨2, 2, 2⟩ hv ⟨-1, 1 / 2⟩ (by norm_num) (by norm_num)
  norm_num at e
  rw [e] at h3
  simp only at h1 h2 h3 h5
  have hiy : iy = 0 := by omega
  subst hiy
  norm_num at h7

example : (⟨2, 2, 3⟩ : Rect ℚ).findReg ⟨1 / 3, 1⟩ = 5 := by decide +kernel
example : (⟨2, 2, 3⟩ : Rect ℚ).Valid := ⟨by norm_num, by norm_num, by norm_num⟩
example : (⟨2, 2, 2⟩ : Rect ℚ).findReg ⟨1 / 2, -1⟩ = -1 := by decide +kernel

end Verif.PinMesh
