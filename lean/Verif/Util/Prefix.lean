import Mathlib.Algebra.BigOperators.Group.List.Basic

/-! Helper lemmas about consecutive blocks: block `i` of sizes `l` starts at `(l.take i).sum`. -/

namespace Verif.Util

theorem take_sum_succ (l : List Nat) (i : Nat) (h : i < l.length) :
    (l.take (i + 1)).sum = (l.take i).sum + l[i] := by
  rw [List.take_succ_eq_append_getElem h, List.sum_append]; simp

theorem take_sum_mono (l : List Nat) {i j : Nat} (h : i ≤ j) : (l.take i).sum ≤ (l.take j).sum := by
  induction j with
  | zero => have : i = 0 := by omega
            subst this; exact Nat.le_refl _
  | succ j ih =>
    by_cases hij : i = j + 1
    · subst hij; exact Nat.le_refl _
    · have h1 := ih (by omega)
      by_cases hj : j < l.length
      · rw [take_sum_succ l j hj]; omega
      · rw [List.take_of_length_le (by omega : l.length ≤ j + 1)]
        rw [List.take_of_length_le (by omega : l.length ≤ j)] at h1
        exact h1

theorem take_sum_le (l : List Nat) (i : Nat) : (l.take i).sum ≤ l.sum := by
  by_cases h : i ≤ l.length
  · have := take_sum_mono l h
    rwa [List.take_length] at this
  · rw [List.take_of_length_le (by omega)]; exact Nat.le_refl _

/-- Positions of different blocks are different. -/
theorem block_unique (l : List Nat) {i i' e e' : Nat} (h : i < l.length) (h' : i' < l.length) (he : e < l[i])
    (he' : e' < l[i']) (hp : (l.take i).sum + e = (l.take i').sum + e') : i = i' ∧ e = e' := by
  have key : ∀ i i' e e' : Nat, ∀ (h : i < l.length) (_ : i' < l.length), e < l[i] → i < i' →
      (l.take i).sum + e = (l.take i').sum + e' → False := by
    intro i i' e e' h h' he hlt hp
    have h1 := take_sum_mono l (show i + 1 ≤ i' by omega)
    rw [take_sum_succ l i h] at h1
    omega
  rcases Nat.lt_trichotomy i i' with hl | hl | hl
  · exact (key i i' e e' h h' he hl hp).elim
  · subst hl; exact ⟨rfl, by omega⟩
  · exact (key i' i e' e h' h he' hl hp.symm).elim

theorem block_lt (l : List Nat) {i e : Nat} (h : i < l.length) (he : e < l[i]) : (l.take i).sum + e < l.sum := by
  have h1 := take_sum_le l (i + 1)
  rw [take_sum_succ l i h] at h1
  omega

/-- Every position is in a block. -/
theorem block_cover (l : List Nat) {p : Nat} (hp : p < l.sum) :
    ∃ i e, ∃ h : i < l.length, e < l[i] ∧ p = (l.take i).sum + e := by
  induction l generalizing p with
  | nil => simp at hp
  | cons a l ih =>
    by_cases h : p < a
    · exact ⟨0, p, by simp, by simpa using h, by simp⟩
    · rw [List.sum_cons] at hp
      obtain ⟨i, e, hi, he, hpe⟩ := ih (p := p - a) (by omega)
      exact ⟨i + 1, e, by simpa using hi, by simpa using he, by simp; omega⟩

end Verif.Util
