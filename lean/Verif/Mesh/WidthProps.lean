import Verif.Mesh.Props
import Mathlib.Algebra.BigOperators.Group.Finset.Basic
import Mathlib.Algebra.BigOperators.Ring.Finset
import Mathlib.Algebra.BigOperators.Intervals
import Mathlib.Algebra.Order.BigOperators.Group.Finset
import Mathlib.Tactic.Linarith
import Mathlib.Tactic.Positivity
import Mathlib.Tactic.NormNum

/-!
# C13: widths and volumes from the division lines
-/

namespace Verif.Mesh

variable {K : Type} [Field K]

/-- C13: the width of cell `i` is the distance of the division lines `i` and `i + 1`. -/
theorem C13_width_value (v : List K) (i : Nat) (a b : K) (ha : v[i]? = some a) (hb : v[i + 1]? = some b) :
    (diffs v)[i]? = some (b - a) := by
  induction v generalizing i with
  | nil => simp at ha
  | cons x xs ih =>
    cases xs with
    | nil => simp at hb
    | cons y ys =>
      cases i with
      | zero =>
        simp at ha hb
        subst ha hb
        simp [diffs]
      | succ i =>
        rw [diffs, List.getElem?_cons_succ]
        exact ih i (by simpa using ha) (by simpa using hb)

/-- C13: there is one width less than there are lines. -/
theorem C13_width_count (v : List K) : (diffs v).length = v.length - 1 := by
  induction v with
  | nil => rfl
  | cons x xs ih =>
    cases xs with
    | nil => rfl
    | cons y ys => rw [diffs, List.length_cons, ih]; simp

/-- C13: the widths add up to the distance of the first and the last line. -/
theorem C13_width_sum (x : K) (xs : List K) : (diffs (x :: xs)).sum = (x :: xs).getLast (by simp) - x := by
  induction xs generalizing x with
  | nil => simp [diffs]
  | cons y ys ih =>
    rw [diffs, List.sum_cons, ih y, List.getLast_cons (a := x) (l := y :: ys) (by simp)]
    ring

/-- C13: ascending lines give positive widths. -/
theorem C13_width_pos [LinearOrder K] [IsStrictOrderedRing K] (v : List K) (h : v.Pairwise (· < ·)) :
    ∀ w ∈ diffs v, 0 < w := by
  induction v with
  | nil => intro w hw; simp [diffs] at hw
  | cons x xs ih =>
    cases xs with
    | nil => intro w hw; simp [diffs] at hw
    | cons y ys =>
      intro w hw
      rw [diffs] at hw
      rcases List.mem_cons.mp hw with rfl | hw
      · have := (List.pairwise_cons.mp h).1 y (by simp)
        linarith
      · exact ih (List.pairwise_cons.mp h).2 w hw

/-- Sum over all cells in natural order. -/
theorem sum_cells (d : Dims) (f : Nat → K) :
    ∑ c ∈ Finset.range (d.nx * d.ny * d.nz), f c =
      ∑ k ∈ Finset.range d.nz, ∑ j ∈ Finset.range d.ny, ∑ i ∈ Finset.range d.nx, f (coarseCell d ⟨i, j, k⟩) := by
  have blocks : ∀ (n m : Nat) (g : Nat → K), ∑ c ∈ Finset.range (n * m), g c =
      ∑ k ∈ Finset.range m, ∑ i ∈ Finset.range n, g (k * n + i) := by
    intro n m g
    induction m with
    | zero => simp
    | succ m ih =>
      rw [Finset.sum_range_succ, ← ih, Nat.mul_succ, Finset.sum_range_add, Nat.mul_comm n m]
  rw [blocks (d.nx * d.ny) d.nz f]
  refine Finset.sum_congr rfl fun k _ => ?_
  rw [blocks d.nx d.ny (fun c => f (k * (d.nx * d.ny) + c))]
  refine Finset.sum_congr rfl fun j _ => Finset.sum_congr rfl fun i _ => ?_
  congr 1
  unfold coarseCell
  ring

theorem sum_getD (l : List K) : l.sum = ∑ i ∈ Finset.range l.length, (l[i]?).getD 0 := by
  induction l with
  | nil => simp
  | cons x xs ih =>
    rw [List.sum_cons, List.length_cons, Finset.sum_range_succ', ih]
    simp [add_comm]

/-- C13: the volumes of all cells add up to the product of the extents of the domain. -/
theorem C13_total_volume (d : Dims) (w : Widths K)
    (hdx : w.dx.length = d.nx) (hdy : w.dy.length = d.ny) (hdz : w.dz.length = d.nz) :
    ∑ c ∈ Finset.range (d.nx * d.ny * d.nz), (coarseVolume d w c).getD 0 = w.dx.sum * w.dy.sum * w.dz.sum := by
  rw [sum_cells]
  have hv : ∀ k ∈ Finset.range d.nz, ∀ j ∈ Finset.range d.ny, ∀ i ∈ Finset.range d.nx,
      (coarseVolume d w (coarseCell d ⟨i, j, k⟩)).getD 0 =
        (w.dx[i]?).getD 0 * (w.dy[j]?).getD 0 * (w.dz[k]?).getD 0 := by
    intro k hk j hj i hi
    rw [Finset.mem_range] at hk hj hi
    obtain ⟨h, a, v, -, -, h3, -, h5⟩ := C13_volume d w hdx hdy hdz i j k .EAST ⟨.x, i + 1, j, k⟩ hi hj hk rfl
    rw [h3, h5]
    simp only [Option.getD_some]
    rw [List.getElem?_eq_getElem (by omega), List.getElem?_eq_getElem (by omega), List.getElem?_eq_getElem (by omega)]
    simp
  rw [Finset.sum_congr rfl (fun k hk => Finset.sum_congr rfl (fun j hj => Finset.sum_congr rfl (fun i hi => hv k hk j hj i hi)))]
  rw [sum_getD w.dx, sum_getD w.dy, sum_getD w.dz, hdx, hdy, hdz]
  simp only [← Finset.sum_mul]
  rw [← Finset.mul_sum]
  congr 1
  simp only [← Finset.mul_sum]

example : (diffs [(0 : ℚ), 2, 5, 6]) = [2, 3, 1] := by norm_num [diffs]

end Verif.Mesh
