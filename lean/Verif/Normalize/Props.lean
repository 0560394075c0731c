import Verif.Normalize.Model
import Mathlib.Tactic.FieldSimp
import Mathlib.Tactic.Ring
import Mathlib.Tactic.Linarith
import Mathlib.Tactic.Positivity
import Mathlib.Tactic.NormNum
import Mathlib.Algebra.Order.Ring.Rat
import Mathlib.Algebra.Order.Field.Rat
import Mathlib.Algebra.Field.Rat

/-!
# C09: normalisation

The specification is direct: sums, counts and pairwise products of the entries.
-/

set_option linter.unusedSectionVars false

namespace Verif.Normalize

variable {K : Type} [Field K] [LinearOrder K] [IsStrictOrderedRing K]

theorem sum_map_mul (v : List K) (f : K) : (v.map (· * f)).sum = v.sum * f := by
  rw [List.sum_map_mul_right]; simp

theorem countPos_map (v : List K) (f : K) (hf : 0 < f) : countPos (v.map (· * f)) = countPos v := by
  unfold countPos
  rw [List.countP_map]
  apply List.countP_congr
  intro x _
  simp [hf]

theorem sum_pos_of (v : List K) (h : ∀ x ∈ v, 0 ≤ x) (hp : ∃ x ∈ v, 0 < x) : 0 < v.sum := by
  obtain ⟨x, hx, hpos⟩ := hp
  have := List.single_le_sum h x hx
  linarith

theorem countPos_pos (v : List K) (hp : ∃ x ∈ v, 0 < x) : 0 < countPos v := by
  unfold countPos
  rw [List.countP_pos_iff]
  obtain ⟨x, hx, h⟩ := hp
  exact ⟨x, hx, by simpa using h⟩

/-- C09: for non-negative data with a positive entry, `Normalize` is defined, multiplies every entry by one common
positive factor, and the new entries sum to the number of positive entries. -/
theorem C09_total (v : List K) (h : ∀ x ∈ v, 0 ≤ x) (hp : ∃ x ∈ v, 0 < x) :
    ∃ f : K, 0 < f ∧ ∃ w, normalize v = some (w, f) ∧ w = v.map (fun x => x * f) ∧
      w.sum = ((v.filter (fun x => 0 < x)).length : K) := by
  have hs := sum_pos_of v h hp
  have hc : (0 : K) < countPos v := by exact_mod_cast countPos_pos v hp
  refine ⟨countPos v / v.sum, by positivity, v.map (· * (countPos v / v.sum)), ?_, rfl, ?_⟩
  · unfold normalize; rw [if_neg hs.ne']
  · rw [sum_map_mul, mul_div_cancel₀ _ hs.ne']
    unfold countPos
    rw [List.countP_eq_length_filter]

/-- C09: ratios between entries are unchanged (cross-multiplied) and zero entries stay zero. -/
theorem C09_ratios (v w : List K) (f : K) (hn : normalize v = some (w, f)) (i j : Nat)
    (hi : i < v.length) (hj : j < v.length) :
    ∃ (hi' : i < w.length) (hj' : j < w.length), w[i] * v[j] = v[i] * w[j] := by
  unfold normalize at hn
  split_ifs at hn
  simp only [Option.some.injEq, Prod.mk.injEq] at hn
  obtain ⟨rfl, -⟩ := hn
  refine ⟨by simpa using hi, by simpa using hj, ?_⟩
  simp only [List.getElem_map]
  ring

/-- C09: normalising twice is the same as once, and the second factor is one. -/
theorem C09_idempotent (v w : List K) (f : K) (h : ∀ x ∈ v, 0 ≤ x) (hp : ∃ x ∈ v, 0 < x)
    (hn : normalize v = some (w, f)) : normalize w = some (w, 1) := by
  obtain ⟨f', hf, w', e, hw, hsum⟩ := C09_total v h hp
  rw [e] at hn
  simp only [Option.some.injEq, Prod.mk.injEq] at hn
  obtain ⟨rfl, rfl⟩ := hn
  have hc : (0 : K) < countPos v := by exact_mod_cast countPos_pos v hp
  have hcw : countPos w' = countPos v := by rw [hw]; exact countPos_map v f' hf
  have hs : w'.sum = countPos v := by
    rw [hsum]; unfold countPos; rw [List.countP_eq_length_filter]
  unfold normalize
  rw [if_neg (by rw [hs]; exact hc.ne')]
  simp only [hcw, hs, div_self hc.ne', mul_one, List.map_id']

/-- C09: the only way to fail is a vanishing sum (division by zero in the code). -/
theorem C09_undefined_iff (v : List K) : normalize v = none ↔ v.sum = 0 := by
  unfold normalize; split_ifs with h <;> simp [h]

/-- C09: `NormalizeScaled` with non-negative data and positive scale factors of the same length also reaches the
number of positive entries; with a zero scale factor it does not (next theorem). -/
theorem C09_scaled_total (v s : List K) (hl : v.length = s.length) (h : ∀ x ∈ v, 0 ≤ x) (hs : ∀ x ∈ s, 0 < x)
    (hp : ∃ x ∈ v, 0 < x) :
    ∃ w f, normalizeScaled v s = some (w, f) ∧ w.length = v.length ∧
      w.sum = (w.countP (fun x => decide (0 < x)) : K) ∧
      (∀ i (h1 : i < v.length) (h2 : i < s.length) (h3 : i < w.length), w[i] = v[i] * s[i] * f) := by
  have hnn : ∀ x ∈ List.zipWith (· * ·) v s, 0 ≤ x := by
    intro x hx
    rw [List.mem_iff_getElem] at hx
    obtain ⟨i, hi, rfl⟩ := hx
    rw [List.getElem_zipWith]
    exact mul_nonneg (h _ (List.getElem_mem _)) (hs _ (List.getElem_mem _)).le
  have hpp : ∃ x ∈ List.zipWith (· * ·) v s, 0 < x := by
    obtain ⟨x, hx, hpos⟩ := hp
    rw [List.mem_iff_getElem] at hx
    obtain ⟨i, hi, rfl⟩ := hx
    have hi' : i < (List.zipWith (· * ·) v s).length := by simp; omega
    refine ⟨(List.zipWith (· * ·) v s)[i], List.getElem_mem _, ?_⟩
    rw [List.getElem_zipWith]
    exact mul_pos hpos (hs _ (List.getElem_mem _))
  have hcount : countPos (List.zipWith (· * ·) v s) = countPos v := by
    clear hnn hpp hp
    induction v generalizing s with
    | nil => simp [countPos]
    | cons a v ih =>
      cases s with
      | nil => simp at hl
      | cons b s =>
        have hb : 0 < b := hs b (by simp)
        have := ih s (by simpa using hl) (fun x hx => h x (by simp [hx])) (fun x hx => hs x (by simp [hx]))
        unfold countPos at *
        simp only [List.zipWith_cons_cons, List.countP_cons, this, mul_pos_iff_of_pos_right hb]
  have hsum := sum_pos_of _ hnn hpp
  have hc : (0 : K) < countPos v := by
    rw [← hcount]; exact_mod_cast countPos_pos _ hpp
  refine ⟨_, _, by unfold normalizeScaled; simp only; rw [if_neg hsum.ne'], by simp [hl], ?_, ?_⟩
  · rw [sum_map_mul, mul_div_cancel₀ _ hsum.ne']
    have := countPos_map (List.zipWith (· * ·) v s) (countPos v / (List.zipWith (· * ·) v s).sum) (by positivity)
    rw [hcount] at this
    unfold countPos at this ⊢
    rw [this]
  · intro i h1 h2 h3
    simp

/-- C09: `NormalizeScaled` counts the entries that are positive *before* scaling: with a zero scale factor the
result does not sum to the number of non-zero entries, contrary to its documentation. -/
theorem C09_scaled_zero_factor : ∃ w f, normalizeScaled [1, 1] [(1 : ℚ), 0] = some (w, f) ∧ w.sum = 2 ∧
    w.countP (fun x => decide (0 < x)) = 1 :=
  ⟨[2, 0], 2, by decide +kernel, by norm_num, by decide +kernel⟩

/-- C09: `Scale` multiplies every entry, so sums scale with the factor. -/
theorem C09_scale (v : List K) (f : K) :
    (scale v f).sum = v.sum * f ∧ (scale v f).length = v.length ∧
    ∀ i (h : i < v.length) (h' : i < (scale v f).length), (scale v f)[i] = v[i] * f :=
  ⟨sum_map_mul v f, by simp [scale], fun i h h' => by simp [scale]⟩

-- satisfiable and non-trivial
example : normalize [(1 : ℚ), 0, 3] = some ([1/2, 0, 3/2], 1/2) := by decide +kernel

end Verif.Normalize
