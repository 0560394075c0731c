import Mathlib.Order.Basic
import Mathlib.Order.Defs.LinearOrder

/-!
# `std::lower_bound` and `std::upper_bound`

The bisection of the standard library on random-access iterators; elements are read through a function, so reading
outside the range is visible as an index the caller must exclude.
-/

namespace Verif.Util

/-- `std::lower_bound` with the predicate `less i` meaning "element `i` is less than the value": bisection on the
window of length `len` starting at `first`. -/
def lowerBoundLoop (less : Nat → Bool) (first len : Nat) : Nat :=
  if h : len = 0 then first
  else
    let half := len / 2
    if less (first + half) then lowerBoundLoop less (first + half + 1) (len - half - 1)
    else lowerBoundLoop less first half
termination_by len
decreasing_by all_goals omega

theorem lowerBoundLoop_spec (less : Nat → Bool) (first len : Nat)
    (mono : ∀ i j, first ≤ i → i ≤ j → j < first + len → less j = true → less i = true) :
    first ≤ lowerBoundLoop less first len ∧ lowerBoundLoop less first len ≤ first + len ∧
    (∀ i, first ≤ i → i < lowerBoundLoop less first len → less i = true) ∧
    (∀ i, lowerBoundLoop less first len ≤ i → i < first + len → less i = false) := by
  induction len using Nat.strongRecOn generalizing first with
  | _ len ih =>
    rw [lowerBoundLoop]
    by_cases h : len = 0
    · subst h
      simp only [dif_pos]
      exact ⟨Nat.le_refl _, Nat.le_refl _, fun i h1 h2 => by omega, fun i h1 h2 => by omega⟩
    · simp only [h, dif_neg, not_false_eq_true]
      by_cases hl : less (first + len / 2) = true
      · rw [if_pos hl]
        obtain ⟨a, b, c, d⟩ := ih (len - len / 2 - 1) (by omega) (first + len / 2 + 1)
          (fun i j h1 h2 h3 h4 => mono i j (by omega) h2 (by omega) h4)
        refine ⟨by omega, by omega, ?_, ?_⟩
        · intro i h1 h2
          by_cases hi : i ≤ first + len / 2
          · exact mono i (first + len / 2) h1 hi (by omega) hl
          · exact c i (by omega) h2
        · intro i h1 h2
          exact d i h1 (by omega)
      · rw [if_neg hl]
        obtain ⟨a, b, c, d⟩ := ih (len / 2) (by omega) first
          (fun i j h1 h2 h3 h4 => mono i j h1 h2 (by omega) h4)
        refine ⟨a, by omega, c, ?_⟩
        intro i h1 h2
        by_cases hi : i < first + len / 2
        · exact d i h1 hi
        · by_contra hc
          have : less i = true := by simpa using hc
          exact hl (mono (first + len / 2) i (by omega) (by omega) h2 this)

/-- `std::lower_bound(begin, end, v) - begin` on a vector of `n` elements `a i`. -/
def lowerBound {α : Type} [LT α] [DecidableLT α] (a : Nat → α) (n : Nat) (v : α) : Nat :=
  lowerBoundLoop (fun i => decide (a i < v)) 0 n

/-- `std::upper_bound(begin, end, v) - begin`. -/
def upperBound {α : Type} [LT α] [DecidableLT α] (a : Nat → α) (n : Nat) (v : α) : Nat :=
  lowerBoundLoop (fun i => !decide (v < a i)) 0 n

theorem lowerBound_spec {α : Type} [LinearOrder α] (a : Nat → α) (n : Nat) (v : α)
    (mono : ∀ i j, i ≤ j → j < n → a i ≤ a j) :
    lowerBound a n v ≤ n ∧ (∀ i, i < lowerBound a n v → a i < v) ∧ (∀ i, lowerBound a n v ≤ i → i < n → v ≤ a i) := by
  obtain ⟨-, h2, h3, h4⟩ := lowerBoundLoop_spec (fun i => decide (a i < v)) 0 n (by
    intro i j _ hij hj hl
    simp only [decide_eq_true_eq] at *
    exact lt_of_le_of_lt (mono i j hij (by omega)) hl)
  refine ⟨by unfold lowerBound; omega, ?_, ?_⟩
  · intro i hi
    simpa using h3 i (Nat.zero_le _) hi
  · intro i h1 hn
    simpa using h4 i h1 (by omega)

theorem upperBound_spec {α : Type} [LinearOrder α] (a : Nat → α) (n : Nat) (v : α)
    (mono : ∀ i j, i ≤ j → j < n → a i ≤ a j) :
    upperBound a n v ≤ n ∧ (∀ i, i < upperBound a n v → a i ≤ v) ∧ (∀ i, upperBound a n v ≤ i → i < n → v < a i) := by
  obtain ⟨-, h2, h3, h4⟩ := lowerBoundLoop_spec (fun i => !decide (v < a i)) 0 n (by
    intro i j _ hij hj hl
    simp only [Bool.not_eq_true', decide_eq_false_iff_not, not_lt] at *
    exact le_trans (mono i j hij (by omega)) hl)
  refine ⟨by unfold upperBound; omega, ?_, ?_⟩
  · intro i hi
    simpa using h3 i (Nat.zero_le _) hi
  · intro i h1 hn
    simpa using h4 i h1 (by omega)

/-- The result is determined by the two bounds. -/
theorem lowerBound_eq_iff {α : Type} [LinearOrder α] (a : Nat → α) (n : Nat) (v : α)
    (mono : ∀ i j, i ≤ j → j < n → a i ≤ a j) (k : Nat) (hk : k < n) :
    lowerBound a n v = k ↔ (∀ i, i < k → a i < v) ∧ v ≤ a k := by
  obtain ⟨h1, h2, h3⟩ := lowerBound_spec a n v mono
  constructor
  · rintro rfl; exact ⟨h2, h3 _ (Nat.le_refl _) hk⟩
  · rintro ⟨q1, q2⟩
    rcases Nat.lt_trichotomy (lowerBound a n v) k with h | h | h
    · exact absurd (h3 _ (Nat.le_refl _) (by omega)) (not_le.mpr (q1 _ h))
    · exact h
    · exact absurd q2 (not_le.mpr (h2 _ h))

end Verif.Util
