import Mathlib.Algebra.BigOperators.Group.List.Basic
import Mathlib.Algebra.Field.Defs

/-! # Work shared out over threads and reduced in any order -/

namespace Verif.Par

variable {M : Type} [AddCommMonoid M]

/-- `assign` shares out `items` over threads `0, …, T - 1`. -/
def Shares {α : Type} (T : Nat) (assign : Nat → List α) (items : List α) : Prop :=
  ((List.range T).flatMap assign).Perm items

theorem sum_flatMap {α : Type} (l : List Nat) (assign : Nat → List α) (g : α → M) :
    ((l.flatMap assign).map g).sum = (l.map (fun t => ((assign t).map g).sum)).sum := by
  induction l with
  | nil => rfl
  | cons a l ih => rw [List.flatMap_cons, List.map_append, List.sum_append, ih, List.map_cons, List.sum_cons]

/-- Adding up the shares of the threads in any order gives the sum over all items. -/
theorem shares_sum {α : Type} (T : Nat) (assign : Nat → List α) (items : List α) (h : Shares T assign items)
    (ord : List Nat) (ho : ord.Perm (List.range T)) (g : α → M) :
    (ord.map (fun t => ((assign t).map g).sum)).sum = (items.map g).sum := by
  rw [(ho.map _).sum_eq, ← sum_flatMap]
  exact (h.map g).sum_eq

theorem foldl_add_eq (l : List Nat) (f : Nat → M) (z : M) : l.foldl (fun a t => a + f t) z = z + (l.map f).sum := by
  induction l generalizing z with
  | nil => simp
  | cons a l ih => rw [List.foldl_cons, ih, List.map_cons, List.sum_cons, add_assoc]

end Verif.Par
