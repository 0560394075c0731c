import Verif.Quad.Spec
import Mathlib.Tactic.Ring
import Mathlib.Tactic.IntervalCases
import Mathlib.Algebra.BigOperators.Group.List.Basic
import Mathlib.Algebra.BigOperators.Ring.List

set_option linter.unusedSectionVars false

namespace Verif.Quad
open Spec

variable {K : Type} [Field K] [LinearOrder K] [IsStrictOrderedRing K]

/-- Sign flips of octant `o` (counted from zero) relative to the first. -/
def octSigns : Nat → Bool × Bool × Bool
  | 0 => (false, false, false)
  | 1 => (true, false, false)
  | 2 => (true, true, false)
  | 3 => (false, true, false)
  | 4 => (false, false, true)
  | 5 => (true, false, true)
  | 6 => (true, true, true)
  | _ => (false, true, true)

def octImage (a : Angle K) (o : Nat) : Angle K := flipSigns a (octSigns o).1 (octSigns o).2.1 (octSigns o).2.2

theorem toOctant_eq (a : Angle K) (h : FirstOctant a) (o : Nat) (ho : o < 8) : a.toOctant (o + 1) = octImage a o := by
  obtain ⟨h1, h2, h3⟩ := h
  interval_cases o <;> simp [Angle.toOctant, octImage, octSigns, flipSigns, abs_of_pos, h1, h2, h3]

theorem expand_eq (first : List (Angle K)) (h : ∀ a ∈ first, FirstOctant a) :
    expand first = (List.range 8).flatMap (fun o => first.map (fun a => octImage a o)) := by
  have e : ∀ o, o < 8 → first.map (fun a => a.toOctant (o + 1)) = first.map (fun a => octImage a o) := by
    intro o ho
    apply List.map_congr_left
    intro a ha
    exact toOctant_eq a (h a ha) o ho
  have e0 : first.map (fun a => octImage a 0) = first := by
    conv_rhs => rw [← List.map_id first]
    apply List.map_congr_left
    intro a _
    simp [octImage, octSigns, flipSigns]
  have hr : List.range 8 = [0, 1, 2, 3, 4, 5, 6, 7] := by decide
  unfold expand
  rw [hr]
  simp only [List.foldl_cons, List.foldl_nil, List.flatMap_cons, List.flatMap_nil, List.append_nil]
  rw [e0, ← e 1 (by decide), ← e 2 (by decide), ← e 3 (by decide), ← e 4 (by decide), ← e 5 (by decide),
    ← e 6 (by decide), ← e 7 (by decide)]
  simp only [List.append_assoc]

theorem flatMap_get {α : Type} (n : Nat) (f : Nat → List α) (m o k : Nat) (hf : ∀ o, (f o).length = n) (ho : o < m)
    (hk : k < n) : ((List.range m).flatMap f)[o * n + k]? = (f o)[k]? := by
  induction m with
  | zero => omega
  | succ m ih =>
    rw [List.range_succ, List.flatMap_append]
    simp only [List.flatMap_cons, List.flatMap_nil, List.append_nil]
    have hl : ((List.range m).flatMap f).length = m * n := by
      rw [List.length_flatMap]
      simp [hf]
    by_cases h : o < m
    · have : o * n + k < m * n := by
        have := Nat.mul_le_mul_right n (Nat.succ_le_of_lt h)
        rw [Nat.succ_mul] at this; omega
      rw [List.getElem?_append_left (by rw [hl]; exact this)]
      exact ih h
    · have : o = m := by omega
      subst this
      rw [List.getElem?_append_right (by rw [hl]; omega), hl]
      congr 1; omega

theorem expand_length (first : List (Angle K)) : (expand first).length = 8 * first.length := by
  simp [expand]; omega

/-- The ordinate with index `o * n + k` is the image of the `k`-th first-octant direction in octant `o`. -/
theorem expand_get (first : List (Angle K)) (h : ∀ a ∈ first, FirstOctant a) (o k : Nat) (ho : o < 8)
    (hk : k < first.length) : (expand first)[o * first.length + k]? = some (octImage first[k] o) := by
  rw [expand_eq first h, flatMap_get first.length _ 8 o k (by simp) ho hk]
  simp [hk]

/-- Index of the mirrored octant. -/
def octMirror (ax : Normal) (o : Nat) : Nat :=
  match ax, o with
      | .X, 0 => 1 | .X, 1 => 0 | .X, 2 => 3 | .X, 3 => 2 | .X, 4 => 5 | .X, 5 => 4 | .X, 6 => 7 | .X, _ => 6
      | .Y, 0 => 3 | .Y, 1 => 2 | .Y, 2 => 1 | .Y, 3 => 0 | .Y, 4 => 7 | .Y, 5 => 6 | .Y, 6 => 5 | .Y, _ => 4
      | .Z, 0 => 4 | .Z, 1 => 5 | .Z, 2 => 6 | .Z, 3 => 7 | .Z, 4 => 0 | .Z, 5 => 1 | .Z, 6 => 2 | .Z, _ => 3

theorem reflect_eq' (n o k : Nat) (ho : o < 8) (hk : k < n) (ax : Normal) :
    reflect n (o * n + k) ax = some (octMirror ax o * n + k) := by
  have hd : (o * n + k) / n = o := by
    rw [Nat.add_comm, Nat.add_mul_div_right _ _ (by omega), Nat.div_eq_of_lt hk]; omega
  unfold reflect
  simp only [hd]
  cases ax <;> interval_cases o <;> simp [reflectionTable, octMirror] <;> omega

theorem octMirror_lt (ax : Normal) (o : Nat) (ho : o < 8) : octMirror ax o < 8 := by
  cases ax <;> interval_cases o <;> decide

theorem octMirror_invol (ax : Normal) (o : Nat) (ho : o < 8) : octMirror ax (octMirror ax o) = o := by
  cases ax <;> interval_cases o <;> rfl

theorem octMirror_comm (a b : Normal) (o : Nat) (ho : o < 8) :
    octMirror a (octMirror b o) = octMirror b (octMirror a o) := by
  cases a <;> cases b <;> interval_cases o <;> rfl

theorem octImage_mirror (a : Angle K) (ax : Normal) (o : Nat) (ho : o < 8) :
    octImage a (octMirror ax o) = mirror (octImage a o) ax := by
  cases ax <;> interval_cases o <;> simp [octImage, octMirror, octSigns, flipSigns, mirror]

theorem split_index (n i : Nat) (h : i < 8 * n) : ∃ o k, o < 8 ∧ k < n ∧ i = o * n + k := by
  have hn : 0 < n := by
    rcases Nat.eq_zero_or_pos n with h0 | h0
    · subst h0; omega
    · exact h0
  refine ⟨i / n, i % n, ?_, Nat.mod_lt _ hn, ?_⟩
  · rw [Nat.div_lt_iff_lt_mul hn]; exact h
  · have := Nat.div_add_mod i n
    rw [Nat.mul_comm] at this; exact this.symm

/-- Sums over the expanded set, direction by direction. -/
theorem sum_expand {M : Type} [AddCommMonoid M] (first : List (Angle K)) (h : ∀ a ∈ first, FirstOctant a)
    (f : Angle K → M) :
    ((expand first).map f).sum = (first.map (fun a =>
      f (octImage a 0) + f (octImage a 1) + f (octImage a 2) + f (octImage a 3) +
      f (octImage a 4) + f (octImage a 5) + f (octImage a 6) + f (octImage a 7))).sum := by
  rw [expand_eq first h]
  have hr : List.range 8 = [0, 1, 2, 3, 4, 5, 6, 7] := by decide
  rw [hr]
  simp only [List.flatMap_cons, List.flatMap_nil, List.append_nil, List.map_append, List.sum_append, List.map_map,
    Function.comp_def, List.sum_map_add]
  simp only [add_assoc]

end Verif.Quad
