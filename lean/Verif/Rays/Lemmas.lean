import Verif.Rays.Model
import Mathlib.Algebra.Order.Floor.Semiring
import Mathlib.Tactic.Ring
import Mathlib.Tactic.Linarith
import Mathlib.Tactic.FieldSimp
import Mathlib.Tactic.LinearCombination
import Mathlib.Tactic.Positivity

/-! # Lemmas about the intersection of a modular ray with the core box -/

namespace Verif.Rays

variable {K : Type} [Field K] [LinearOrder K] [IsStrictOrderedRing K]

theorem consider_no {fuzz : K} (best : K × Option (Pt K)) {d : K} {inside : Bool} (q : Pt K)
    (h : |d| ≤ fuzz ∨ inside = false) : consider fuzz best d inside q = best := by
  unfold consider
  rw [if_neg]
  rintro ⟨h1, _, h3⟩
  rcases h with h | h
  · exact absurd h1 (not_lt.mpr h)
  · rw [h] at h3; exact absurd h3 (by decide)

theorem consider_yes {fuzz : K} {best : K × Option (Pt K)} {d : K} {inside : Bool} (q : Pt K)
    (h1 : fuzz < |d|) (h2 : d < best.1) (h3 : inside = true) : consider fuzz best d inside q = (|d|, some q) := by
  unfold consider
  rw [if_pos ⟨h1, h2, h3⟩]

/-- Four candidates of which only the one marked is acceptable. -/
theorem pick {fuzz far : K} {d1 d2 d3 d4 : K} {i1 i2 i3 i4 : Bool} (q1 q2 q3 q4 : Pt K) (k : Fin 4)
    (h1 : if k = 0 then fuzz < |d1| ∧ d1 < far ∧ i1 = true else |d1| ≤ fuzz ∨ i1 = false)
    (h2 : if k = 1 then fuzz < |d2| ∧ d2 < far ∧ i2 = true else |d2| ≤ fuzz ∨ i2 = false)
    (h3 : if k = 2 then fuzz < |d3| ∧ d3 < far ∧ i3 = true else |d3| ≤ fuzz ∨ i3 = false)
    (h4 : if k = 3 then fuzz < |d4| ∧ d4 < far ∧ i4 = true else |d4| ≤ fuzz ∨ i4 = false) :
    (consider fuzz (consider fuzz (consider fuzz (consider fuzz (far, none) d1 i1 q1) d2 i2 q2) d3 i3 q3) d4 i4 q4).2
      = some (if k = 0 then q1 else if k = 1 then q2 else if k = 2 then q3 else q4) := by
  match k with
  | 0 =>
    simp at h1 h2 h3 h4
    rw [consider_yes (best := (far, none)) q1 h1.1 h1.2.1 h1.2.2, consider_no _ q2 h2, consider_no _ q3 h3,
      consider_no _ q4 h4]
    rfl
  | 1 =>
    simp at h1 h2 h3 h4
    rw [consider_no (far, none) q1 h1, consider_yes (best := (far, none)) q2 h2.1 h2.2.1 h2.2.2, consider_no _ q3 h3,
      consider_no _ q4 h4]
    rfl
  | 2 =>
    simp at h1 h2 h3 h4
    rw [consider_no (far, none) q1 h1, consider_no _ q2 h2, consider_yes (best := (far, none)) q3 h3.1 h3.2.1 h3.2.2,
      consider_no _ q4 h4]
    rfl
  | 3 =>
    simp at h1 h2 h3 h4
    rw [consider_no (far, none) q1 h1, consider_no _ q2 h2, consider_no _ q3 h3,
      consider_yes (best := (far, none)) q4 h4.1 h4.2.1 h4.2.2]
    rfl

theorem inside_true {a b c : K} (h1 : a < b) (h2 : b < c) : (decide (a < b) && decide (b < c)) = true := by
  simp [h1, h2]

theorem inside_false_lo {a b c : K} (h : b ≤ a) : (decide (a < b) && decide (b < c)) = false := by
  simp [not_lt.mpr h]

theorem inside_false_hi {a b c : K} (h : c ≤ b) : (decide (a < b) && decide (b < c)) = false := by
  simp [not_lt.mpr h]

section
variable {fuzz far nx ny sx sy c s u v : K}
  (hf : 0 ≤ fuzz) (hsx : 0 < sx) (hsy : 0 < sy) (hc : 0 < c) (hc1 : c ≤ 1) (hs : 0 < s) (hs1 : s ≤ 1)
  (ht : s * sx = c * sy) (hfx : fuzz < sx / 2) (hfy : fuzz < sy / 2)
  (hfarx : nx * sx / c < far) (hfary : ny * sy / s < far)
  (hu : 0 ≤ u) (hv : 0 ≤ v)

include hc hsx in
theorem far_of (hu : 0 ≤ u) (hfarx : nx * sx / c < far) : (nx - u) * sx / c < far := by
  refine lt_of_le_of_lt ?_ hfarx
  apply div_le_div_of_nonneg_right _ hc.le
  nlinarith

include hc hc1 hsx in
theorem fuzz_of (w : K) (hw : 1 / 2 ≤ w) (hfx : fuzz < sx / 2) : fuzz < |w * sx / c| := by
  have h0 : sx / 2 ≤ w * sx := by nlinarith
  have h1 : w * sx ≤ w * sx / c := by
    rw [le_div_iff₀ hc]; nlinarith
  exact lt_of_lt_of_le (lt_of_lt_of_le hfx (h0.trans h1)) (le_abs_self _)

include hf hsx hsy hc hc1 hs hs1 ht hfx hfy hfarx hfary hu hv

/-- Octant 1, leaving through the right side. -/
theorem inter_right (huv : u = 0 ∨ v = 0) (hun : u ≤ nx - 1 / 2) (hx : v + (nx - u) < ny) :
    intersect fuzz far (nx * sx) (ny * sy) ⟨u * sx, v * sy⟩ c s = some ⟨nx * sx, (v + (nx - u)) * sy⟩ := by
  have e1 : v * sy + s * ((0 - u * sx) / c) = (v - u) * sy := by field_simp; linear_combination (-u) * ht
  have e2 : v * sy + s * ((nx * sx - u * sx) / c) = (v + (nx - u)) * sy := by
    field_simp; linear_combination (nx - u) * ht
  have e3 : u * sx + c * ((0 - v * sy) / s) = (u - v) * sx := by field_simp; linear_combination v * ht
  have e4 : u * sx + c * ((ny * sy - v * sy) / s) = (u + (ny - v)) * sx := by
    field_simp; linear_combination (v - ny) * ht
  have f2 : (nx * sx - u * sx) / c = (nx - u) * sx / c := by ring
  simp only [intersect, e1, e2, e3, e4]
  refine pick _ _ _ _ 1 ?_ ?_ ?_ ?_
  · rw [if_neg (by decide)]
    rcases huv with h | h
    · left; rw [h]; simpa using hf
    · right; exact inside_false_lo (by rw [h]; nlinarith)
  · rw [if_pos rfl]
    rw [f2]
    exact ⟨fuzz_of hsx hc hc1 _ (by linarith) hfx, far_of hsx hc hu hfarx,
      inside_true (by apply mul_pos _ hsy; linarith) (by nlinarith)⟩
  · rw [if_neg (by decide)]
    rcases huv with h | h
    · right; exact inside_false_lo (by rw [h]; nlinarith)
    · left; rw [h]; simpa using hf
  · rw [if_neg (by decide)]
    right; exact inside_false_hi (by nlinarith)

/-- Octant 1, leaving through the top. -/
theorem inter_top (huv : u = 0 ∨ v = 0) (hvn : v ≤ ny - 1 / 2) (hx : ny < v + (nx - u)) :
    intersect fuzz far (nx * sx) (ny * sy) ⟨u * sx, v * sy⟩ c s = some ⟨(u + (ny - v)) * sx, ny * sy⟩ := by
  have e1 : v * sy + s * ((0 - u * sx) / c) = (v - u) * sy := by field_simp; linear_combination (-u) * ht
  have e2 : v * sy + s * ((nx * sx - u * sx) / c) = (v + (nx - u)) * sy := by
    field_simp; linear_combination (nx - u) * ht
  have e3 : u * sx + c * ((0 - v * sy) / s) = (u - v) * sx := by field_simp; linear_combination v * ht
  have e4 : u * sx + c * ((ny * sy - v * sy) / s) = (u + (ny - v)) * sx := by
    field_simp; linear_combination (v - ny) * ht
  have f4 : (ny * sy - v * sy) / s = (ny - v) * sy / s := by ring
  simp only [intersect, e1, e2, e3, e4]
  refine pick _ _ _ _ 3 ?_ ?_ ?_ ?_
  · rw [if_neg (by decide)]
    rcases huv with h | h
    · left; rw [h]; simpa using hf
    · right; exact inside_false_lo (by rw [h]; nlinarith)
  · rw [if_neg (by decide)]
    right; exact inside_false_hi (by nlinarith)
  · rw [if_neg (by decide)]
    rcases huv with h | h
    · right; exact inside_false_lo (by rw [h]; nlinarith)
    · left; rw [h]; simpa using hf
  · rw [if_pos rfl]
    rw [f4]
    exact ⟨fuzz_of hsy hs hs1 _ (by linarith) hfy, far_of hsy hs hv hfary,
      inside_true (by apply mul_pos _ hsx; linarith) (by nlinarith)⟩

/-- Octant 2, leaving through the left side. -/
theorem inter_left (huv : u = nx ∨ v = 0) (hu1 : 1 / 2 ≤ u) (hun : u ≤ nx) (hx : v + u < ny) :
    intersect fuzz far (nx * sx) (ny * sy) ⟨u * sx, v * sy⟩ (-c) s = some ⟨0, (v + u) * sy⟩ := by
  have e1 : v * sy + s * ((0 - u * sx) / (-c)) = (v + u) * sy := by
    rw [div_neg]; field_simp; linear_combination u * ht
  have e2 : v * sy + s * ((nx * sx - u * sx) / (-c)) = (v - (nx - u)) * sy := by
    rw [div_neg]; field_simp; linear_combination (u - nx) * ht
  have e3 : u * sx + (-c) * ((0 - v * sy) / s) = (u + v) * sx := by field_simp; linear_combination (-v) * ht
  have e4 : u * sx + (-c) * ((ny * sy - v * sy) / s) = (u - (ny - v)) * sx := by
    field_simp; linear_combination (ny - v) * ht
  have f1 : (0 - u * sx) / (-c) = u * sx / c := by rw [div_neg]; ring
  have hfar : u * sx / c < far := lt_of_le_of_lt (div_le_div_of_nonneg_right (by nlinarith) hc.le) hfarx
  simp only [intersect, e1, e2, e3, e4]
  refine pick _ _ _ _ 0 ?_ ?_ ?_ ?_
  · rw [if_pos rfl]
    rw [f1]
    exact ⟨fuzz_of hsx hc hc1 _ hu1 hfx, hfar, inside_true (by apply mul_pos _ hsy; linarith) (by nlinarith)⟩
  · rw [if_neg (by decide)]
    rcases huv with h | h
    · left; rw [h]; simpa using hf
    · right; exact inside_false_lo (by rw [h]; nlinarith)
  · rw [if_neg (by decide)]
    rcases huv with h | h
    · right; exact inside_false_hi (by rw [h]; nlinarith)
    · left; rw [h]; simpa using hf
  · rw [if_neg (by decide)]
    right; exact inside_false_lo (by nlinarith)

/-- Octant 2, leaving through the top. -/
theorem inter_top2 (huv : u = nx ∨ v = 0) (hvn : v ≤ ny - 1 / 2) (hun : u ≤ nx) (hx : ny < v + u) :
    intersect fuzz far (nx * sx) (ny * sy) ⟨u * sx, v * sy⟩ (-c) s = some ⟨(u - (ny - v)) * sx, ny * sy⟩ := by
  have e1 : v * sy + s * ((0 - u * sx) / (-c)) = (v + u) * sy := by
    rw [div_neg]; field_simp; linear_combination u * ht
  have e2 : v * sy + s * ((nx * sx - u * sx) / (-c)) = (v - (nx - u)) * sy := by
    rw [div_neg]; field_simp; linear_combination (u - nx) * ht
  have e3 : u * sx + (-c) * ((0 - v * sy) / s) = (u + v) * sx := by field_simp; linear_combination (-v) * ht
  have e4 : u * sx + (-c) * ((ny * sy - v * sy) / s) = (u - (ny - v)) * sx := by
    field_simp; linear_combination (ny - v) * ht
  have f4 : (ny * sy - v * sy) / s = (ny - v) * sy / s := by ring
  simp only [intersect, e1, e2, e3, e4]
  refine pick _ _ _ _ 3 ?_ ?_ ?_ ?_
  · rw [if_neg (by decide)]
    right; exact inside_false_hi (by nlinarith)
  · rw [if_neg (by decide)]
    rcases huv with h | h
    · left; rw [h]; simpa using hf
    · right; exact inside_false_lo (by rw [h]; nlinarith)
  · rw [if_neg (by decide)]
    rcases huv with h | h
    · right; exact inside_false_hi (by rw [h]; nlinarith)
    · left; rw [h]; simpa using hf
  · rw [if_pos rfl]
    rw [f4]
    exact ⟨fuzz_of hsy hs hs1 _ (by linarith) hfy, far_of hsy hs hv hfary,
      inside_true (by apply mul_pos _ hsx; linarith) (by nlinarith)⟩
end

end Verif.Rays
