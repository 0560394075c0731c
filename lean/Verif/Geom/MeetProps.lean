import Verif.Geom.Model
import Mathlib.Algebra.Order.Field.Rat
import Mathlib.Tactic.Ring
import Mathlib.Tactic.Linarith
import Mathlib.Tactic.NormNum
import Mathlib.Tactic.FieldSimp
import Mathlib.Tactic.LinearCombination

/-! # C62: intersection of two segments -/

namespace Verif.Geom

variable {K : Type} [Field K] [LinearOrder K] [IsStrictOrderedRing K]

/-- `q` is a point of the segment `l`, end points included. -/
def OnSeg (l : Line K) (q : Pt K) : Prop := ∃ s : K, 0 ≤ s ∧ s ≤ 1 ∧
  q.x = (1 - s) * l.p1.x + s * l.p2.x ∧ q.y = (1 - s) * l.p1.y + s * l.p2.y

/-- The segments have the same direction (or one of them has none). -/
def Parallel (l1 l2 : Line K) : Prop :=
  (l1.p2.x - l1.p1.x) * (l2.p2.y - l2.p1.y) = (l1.p2.y - l1.p1.y) * (l2.p2.x - l2.p1.x)

omit [IsStrictOrderedRing K] in
theorem fdiv_of_ne (a : K) {b : K} (h : b ≠ 0) : fdiv a b = some (a / b) := if_neg h

theorem meet_of_ne {l1 l2 : Line K} (h : ¬ Parallel l1 l2) :
    let d := (l1.p2.x - l1.p1.x) * (l2.p2.y - l2.p1.y) - (l1.p2.y - l1.p1.y) * (l2.p2.x - l2.p1.x)
    let s := ((l2.p2.x - l2.p1.x) * (l1.p1.y - l2.p1.y) - (l2.p2.y - l2.p1.y) * (l1.p1.x - l2.p1.x)) / d
    let t := ((l1.p2.x - l1.p1.x) * (l1.p1.y - l2.p1.y) - (l1.p2.y - l1.p1.y) * (l1.p1.x - l2.p1.x)) / d
    d ≠ 0 ∧ meet l1 l2 = if (0 ≤ s ∧ s ≤ 1) ∧ (0 ≤ t ∧ t ≤ 1) then some (along l1 s) else none := by
  intro d s t
  have hd : d ≠ 0 := fun e => h (sub_eq_zero.mp e)
  refine ⟨hd, ?_⟩
  unfold meet
  simp only []
  rw [fdiv_of_ne _ hd, fdiv_of_ne _ hd]
  simp only [unitClosed, Bool.and_eq_true, decide_eq_true_eq, Option.map_some]
  rfl

omit [IsStrictOrderedRing K] in
/-- C62: parallel segments give none, although the test for them never fires: the division by zero yields values that
fail the comparisons. -/
theorem C62_parallel (l1 l2 : Line K) (h : Parallel l1 l2) : meet l1 l2 = none := by
  have z : ∀ a : K, fdiv a ((l1.p2.x - l1.p1.x) * (l2.p2.y - l2.p1.y) - (l1.p2.y - l1.p1.y) * (l2.p2.x - l2.p1.x)) = none :=
    fun a => if_pos (sub_eq_zero.mpr h)
  unfold meet
  simp only [z, unitClosed]
  rfl

/-- C62: a point that is returned is a point of both segments. -/
theorem C62_on_both (l1 l2 : Line K) (q : Pt K) (h : meet l1 l2 = some q) : OnSeg l1 q ∧ OnSeg l2 q := by
  by_cases hp : Parallel l1 l2
  · rw [C62_parallel _ _ hp] at h; cases h
  obtain ⟨hd, e⟩ := meet_of_ne hp
  rw [e] at h
  split at h
  · rename_i hc
    obtain ⟨⟨s0, s1⟩, t0, t1⟩ := hc
    rw [Option.some.injEq] at h
    subst h
    refine ⟨⟨_, s0, s1, ?_, ?_⟩, ⟨_, t0, t1, ?_, ?_⟩⟩
    · simp only [along]; ring
    · simp only [along]; ring
    · simp only [along, div_eq_mul_inv]
      linear_combination (-(l1.p1.x - l2.p1.x)) * mul_inv_cancel₀ hd
    · simp only [along, div_eq_mul_inv]
      linear_combination (-(l1.p1.y - l2.p1.y)) * mul_inv_cancel₀ hd
  · simp at h

/-- C62: if the segments are not parallel and have a point in common, that point is returned. -/
theorem C62_found_partial (l1 l2 : Line K) (hp : ¬ Parallel l1 l2) (q : Pt K) (h1 : OnSeg l1 q) (h2 : OnSeg l2 q) :
    meet l1 l2 = some q := by
  obtain ⟨s, s0, s1, ex, ey⟩ := h1
  obtain ⟨t, t0, t1, fx, fy⟩ := h2
  obtain ⟨hd, e⟩ := meet_of_ne hp
  rw [e]
  have hs : ((l2.p2.x - l2.p1.x) * (l1.p1.y - l2.p1.y) - (l2.p2.y - l2.p1.y) * (l1.p1.x - l2.p1.x)) /
      ((l1.p2.x - l1.p1.x) * (l2.p2.y - l2.p1.y) - (l1.p2.y - l1.p1.y) * (l2.p2.x - l2.p1.x)) = s := by
    rw [div_eq_iff hd]
    linear_combination (l2.p2.x - l2.p1.x) * (fy - ey) - (l2.p2.y - l2.p1.y) * (fx - ex)
  have ht : ((l1.p2.x - l1.p1.x) * (l1.p1.y - l2.p1.y) - (l1.p2.y - l1.p1.y) * (l1.p1.x - l2.p1.x)) /
      ((l1.p2.x - l1.p1.x) * (l2.p2.y - l2.p1.y) - (l1.p2.y - l1.p1.y) * (l2.p2.x - l2.p1.x)) = t := by
    rw [div_eq_iff hd]
    linear_combination (l1.p2.x - l1.p1.x) * (fy - ey) - (l1.p2.y - l1.p1.y) * (fx - ex)
  rw [hs, ht, if_pos ⟨⟨s0, s1⟩, t0, t1⟩]
  congr 1
  obtain ⟨qx, qy⟩ := q
  simp only at ex ey
  simp only [along, ex, ey]
  congr 1 <;> ring

/-- C62: segments without a common point give none. -/
theorem C62_none (l1 l2 : Line K) (h : ∀ q, ¬ (OnSeg l1 q ∧ OnSeg l2 q)) : meet l1 l2 = none := by
  cases e : meet l1 l2 with
  | none => rfl
  | some q => exact absurd (C62_on_both l1 l2 q e) (h q)

/-- C62: the order of the arguments does not matter. -/
theorem C62_symm (l1 l2 : Line K) : meet l1 l2 = meet l2 l1 := by
  have symm : ∀ a b : Line K, Parallel a b → Parallel b a := fun a b h => by
    unfold Parallel at *; linear_combination -h
  by_cases hp : Parallel l1 l2
  · rw [C62_parallel _ _ hp, C62_parallel _ _ (symm _ _ hp)]
  · cases e : meet l1 l2 with
    | some q =>
      obtain ⟨a, b⟩ := C62_on_both _ _ _ e
      exact (C62_found_partial l2 l1 (fun h => hp (symm _ _ h)) q b a).symm
    | none =>
      cases e' : meet l2 l1 with
      | none => rfl
      | some q =>
        obtain ⟨a, b⟩ := C62_on_both _ _ _ e'
        rw [C62_found_partial l1 l2 hp q b a] at e
        cases e

/-- C62, the full claim: two segments give an intersection exactly if they have a common point. -/
def C62_claim : Prop := ∀ (l1 l2 : Line ℚ) (q : Pt ℚ), OnSeg l1 q → OnSeg l2 q → meet l1 l2 ≠ none

/-- C62 is false for overlapping segments on one straight line. -/
theorem C62_claim_false : ¬ C62_claim := by
  intro h
  refine h ⟨⟨0, 0⟩, ⟨2, 0⟩⟩ ⟨⟨1, 0⟩, ⟨3, 0⟩⟩ ⟨1, 0⟩ ⟨1 / 2, by norm_num⟩ ⟨0, by norm_num⟩ ?_
  exact C62_parallel _ _ (by norm_num [Parallel])

example : meet (⟨⟨0, 0⟩, ⟨4, 2⟩⟩ : Line ℚ) ⟨⟨3, 0⟩, ⟨3, 5⟩⟩ = some ⟨3, 3 / 2⟩ := by decide +kernel
example : meet (⟨⟨0, 0⟩, ⟨4, 2⟩⟩ : Line ℚ) ⟨⟨5, 0⟩, ⟨5, 5⟩⟩ = none := by decide +kernel
example : meet (⟨⟨0, 0⟩, ⟨4, 0⟩⟩ : Line ℚ) ⟨⟨1, 0⟩, ⟨3, 0⟩⟩ = none := by decide +kernel

end Verif.Geom
