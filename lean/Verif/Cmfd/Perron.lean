import Mathlib.Analysis.SpecificLimits.Basic
import Mathlib.Topology.Algebra.InfiniteSum.Real
import Mathlib.Algebra.Order.BigOperators.Group.Finset
import Mathlib.Algebra.Order.BigOperators.Ring.Finset
import Mathlib.Algebra.BigOperators.Field
import Mathlib.Topology.Algebra.Monoid
import Mathlib.Tactic.Linarith
import Mathlib.Tactic.FieldSimp
import Mathlib.Tactic.Ring
import Mathlib.Tactic.Positivity

/-!
# Positive matrices: the power iteration converges

For a matrix with positive entries the ratio of successive vectors of the power iteration tends to a number that does not depend on the start, and the vectors, divided by
their sum, to the eigenvector.  (Perron; proved with the contraction of the largest difference of ratios.)
-/

namespace Verif.Cmfd.Perron

open Finset Filter Topology

variable {ι : Type} [Fintype ι]

/-- Matrix times vector. -/
def app (A : ι → ι → ℝ) (x : ι → ℝ) : ι → ℝ := fun i => ∑ j, A i j * x j

theorem app_smul (A : ι → ι → ℝ) (c : ℝ) (x : ι → ℝ) (i : ι) : app A (fun j => c * x j) i = c * app A x i := by
  unfold app; rw [mul_sum]; exact sum_congr rfl fun j _ => by ring

theorem app_sub (A : ι → ι → ℝ) (x y : ι → ℝ) (i : ι) : app A (fun j => x j - y j) i = app A x i - app A y i := by
  unfold app; rw [← sum_sub_distrib]; exact sum_congr rfl fun j _ => by ring

theorem app_nonneg {A : ι → ι → ℝ} (hA : ∀ i j, 0 < A i j) {x : ι → ℝ} (hx : ∀ j, 0 ≤ x j) (i : ι) : 0 ≤ app A x i :=
  sum_nonneg fun j _ => mul_nonneg (hA i j).le (hx j)

theorem app_pos {A : ι → ι → ℝ} (hA : ∀ i j, 0 < A i j) {x : ι → ℝ} (hx : ∀ j, 0 ≤ x j) (h0 : ∃ j, 0 < x j) (i : ι) : 0 < app A x i := by
  obtain ⟨j, hj⟩ := h0
  exact sum_pos' (fun j _ => mul_nonneg (hA i j).le (hx j)) ⟨j, mem_univ _, mul_pos (hA i j) hj⟩

/-- Vectors of the power iteration. -/
def seq (A : ι → ι → ℝ) (x : ι → ℝ) : ℕ → ι → ℝ
  | 0 => x
  | n + 1 => app A (seq A x n)

theorem seq_nonneg {A : ι → ι → ℝ} (hA : ∀ i j, 0 < A i j) {x : ι → ℝ} (hx : ∀ j, 0 ≤ x j) (n : ℕ) (i : ι) : 0 ≤ seq A x n i := by
  induction n generalizing i with
  | zero => exact hx i
  | succ n ih => exact app_nonneg hA ih i

theorem seq_pos {A : ι → ι → ℝ} (hA : ∀ i j, 0 < A i j) {x : ι → ℝ} (hx : ∀ j, 0 ≤ x j) (h0 : ∃ j, 0 < x j) (n : ℕ) (i : ι) : 0 < seq A x (n + 1) i := by
  induction n generalizing i with
  | zero => exact app_pos hA hx h0 i
  | succ n ih => exact app_pos hA (fun j => (ih j).le) ⟨i, ih i⟩ i

/-- One step: bounds of the ratios get closer by a factor. -/
theorem contract [Nonempty ι] {A : ι → ι → ℝ} {a b r : ℝ} (ha : 0 < a) (hA1 : ∀ i j, a ≤ A i j) (hA2 : ∀ i j, A i j ≤ b) (hr : 0 < r) {x z : ι → ℝ} (hz : ∀ j, 0 < z j)
    (hzr : ∀ j k, r * z k ≤ z j) {m M : ℝ} (h1 : ∀ j, m * z j ≤ x j) (h2 : ∀ j, x j ≤ M * z j) (hM : ∃ j, x j = m * z j) :
    (∀ i, m * app A z i ≤ app A x i) ∧ ∀ i, app A x i ≤ (M - a * r / (b * Fintype.card ι) * (M - m)) * app A z i := by
  have hA0 : ∀ i j, 0 < A i j := fun i j => lt_of_lt_of_le ha (hA1 i j)
  refine ⟨?_, ?_⟩
  · intro i
    unfold app
    rw [mul_sum]
    refine sum_le_sum fun j _ => ?_
    have := mul_le_mul_of_nonneg_left (h1 j) (hA0 i j).le
    linarith
  · intro i
    obtain ⟨j0, hj0⟩ := hM
    have hN : (0 : ℝ) < Fintype.card ι := by exact_mod_cast Fintype.card_pos
    have hb : 0 < b := lt_of_lt_of_le (hA0 i i) (hA2 i i)
    have hmM : m ≤ M := by
      have h := (h1 j0).trans (h2 j0)
      exact le_of_mul_le_mul_right h (hz j0)
    have e1 : M * app A z i - app A x i = ∑ j, A i j * (M * z j - x j) := by
      unfold app; rw [mul_sum, ← sum_sub_distrib]; exact sum_congr rfl fun j _ => by ring
    have e2 : A i j0 * (M * z j0 - x j0) ≤ ∑ j, A i j * (M * z j - x j) :=
      single_le_sum (f := fun j => A i j * (M * z j - x j)) (fun j _ => mul_nonneg (hA0 i j).le (by linarith [h2 j])) (mem_univ j0)
    have e3 : A i j0 * (M * z j0 - x j0) = A i j0 * z j0 * (M - m) := by rw [hj0]; ring
    have e4 : app A z i ≤ b * Fintype.card ι * (z j0 / r) := by
      unfold app
      have : ∀ j ∈ (univ : Finset ι), A i j * z j ≤ b * (z j0 / r) := by
        intro j _
        have h3 : z j ≤ z j0 / r := by rw [le_div_iff₀ hr]; linarith [hzr j0 j]
        exact mul_le_mul (hA2 i j) h3 (hz j).le hb.le
      calc _ ≤ ∑ _j : ι, b * (z j0 / r) := sum_le_sum this
        _ = _ := by rw [sum_const, card_univ, nsmul_eq_mul]; ring
    have e5 : a * r / (b * Fintype.card ι) * app A z i ≤ A i j0 * z j0 := by
      calc a * r / (b * Fintype.card ι) * app A z i ≤ a * r / (b * Fintype.card ι) * (b * Fintype.card ι * (z j0 / r)) :=
            mul_le_mul_of_nonneg_left e4 (by positivity)
        _ = a * z j0 := by field_simp
        _ ≤ A i j0 * z j0 := mul_le_mul_of_nonneg_right (hA1 i j0) (hz j0).le
    have e6 := mul_le_mul_of_nonneg_right e5 (show 0 ≤ M - m by linarith)
    rw [e3] at e2
    nlinarith [e1, e2, e6]

/-- Lower and upper bounds of the entries, and of the components of a product. -/
theorem bounds [Nonempty ι] {A : ι → ι → ℝ} (hA : ∀ i j, 0 < A i j) :
    ∃ a b : ℝ, 0 < a ∧ a ≤ b ∧ (∀ i j, a ≤ A i j) ∧ ∀ i j, A i j ≤ b := by
  obtain ⟨p, -, hp⟩ := exists_min_image (univ : Finset (ι × ι)) (fun q => A q.1 q.2) ⟨Classical.arbitrary _, mem_univ _⟩
  obtain ⟨q, -, hq⟩ := exists_max_image (univ : Finset (ι × ι)) (fun q => A q.1 q.2) ⟨Classical.arbitrary _, mem_univ _⟩
  exact ⟨A p.1 p.2, A q.1 q.2, hA _ _, hp q (mem_univ _), fun i j => hp (i, j) (mem_univ _), fun i j => hq (i, j) (mem_univ _)⟩

theorem comparable {A : ι → ι → ℝ} {a b : ℝ} (ha : 0 < a) (hab : a ≤ b) (h1 : ∀ i j, a ≤ A i j) (h2 : ∀ i j, A i j ≤ b) {y : ι → ℝ} (hy : ∀ j, 0 ≤ y j) (j k : ι) :
    a / b * app A y k ≤ app A y j := by
  have hb : 0 < b := lt_of_lt_of_le ha hab
  have e1 : app A y k ≤ b * ∑ l, y l := by
    unfold app; rw [mul_sum]; exact sum_le_sum fun l _ => mul_le_mul_of_nonneg_right (h2 k l) (hy l)
  have e2 : a * ∑ l, y l ≤ app A y j := by
    unfold app; rw [mul_sum]; exact sum_le_sum fun l _ => mul_le_mul_of_nonneg_right (h1 j l) (hy l)
  calc a / b * app A y k ≤ a / b * (b * ∑ l, y l) := mul_le_mul_of_nonneg_left e1 (by positivity)
    _ = a * ∑ l, y l := by field_simp
    _ ≤ _ := e2

/-- The ratios of successive vectors lie in intervals that shrink geometrically. -/
theorem squeeze [Nonempty ι] {A : ι → ι → ℝ} (hA : ∀ i j, 0 < A i j) {x : ι → ℝ} (hx : ∀ j, 0 ≤ x j) (h0 : ∃ j, 0 < x j) :
    ∃ (m M : ℕ → ℝ) (q C : ℝ), 0 ≤ q ∧ q < 1 ∧ 0 ≤ C ∧ 0 < m 0 ∧ Monotone m ∧ (∀ n, M n - m n ≤ C * q ^ n) ∧ (∀ n, m n ≤ M n) ∧
      ∀ n i, m n * seq A x (n + 1) i ≤ seq A x (n + 2) i ∧ seq A x (n + 2) i ≤ M n * seq A x (n + 1) i := by
  obtain ⟨a, b, ha, hab, hA1, hA2⟩ := bounds hA
  have hb : 0 < b := lt_of_lt_of_le ha hab
  have hN : (1 : ℝ) ≤ Fintype.card ι := by exact_mod_cast Fintype.card_pos
  set δ : ℝ := a * (a / b) / (b * Fintype.card ι) with hδ
  have hδ0 : 0 < δ := by positivity
  have hδ1 : δ ≤ 1 := by
    rw [hδ, div_le_one (by positivity)]
    have : a * (a / b) ≤ b * 1 := mul_le_mul hab (by rw [div_le_one hb]; exact hab) (by positivity) hb.le
    nlinarith
  have hp := seq_pos hA hx h0
  -- smallest and largest ratio
  have hmin : ∀ n, ∃ i, ∀ j, seq A x (n + 2) i / seq A x (n + 1) i ≤ seq A x (n + 2) j / seq A x (n + 1) j := by
    intro n
    obtain ⟨i, -, hi⟩ := exists_min_image (univ : Finset ι) (fun j => seq A x (n + 2) j / seq A x (n + 1) j) univ_nonempty
    exact ⟨i, fun j => hi j (mem_univ _)⟩
  have hmax : ∀ n, ∃ i, ∀ j, seq A x (n + 2) j / seq A x (n + 1) j ≤ seq A x (n + 2) i / seq A x (n + 1) i := by
    intro n
    obtain ⟨i, -, hi⟩ := exists_max_image (univ : Finset ι) (fun j => seq A x (n + 2) j / seq A x (n + 1) j) univ_nonempty
    exact ⟨i, fun j => hi j (mem_univ _)⟩
  choose p hpm using hmin
  choose q hqm using hmax
  set m : ℕ → ℝ := fun n => seq A x (n + 2) (p n) / seq A x (n + 1) (p n) with hm
  set M : ℕ → ℝ := fun n => seq A x (n + 2) (q n) / seq A x (n + 1) (q n) with hM
  have hbd : ∀ n i, m n * seq A x (n + 1) i ≤ seq A x (n + 2) i ∧ seq A x (n + 2) i ≤ M n * seq A x (n + 1) i := by
    intro n i
    refine ⟨?_, ?_⟩
    · rw [← le_div_iff₀ (hp n i)]; exact hpm n i
    · rw [← div_le_iff₀ (hp n i)]; exact hqm n i
  have hstep : ∀ n, m n ≤ m (n + 1) ∧ M (n + 1) ≤ M n - δ * (M n - m n) := by
    intro n
    have hc := contract (A := A) (r := a / b) ha hA1 hA2 (by positivity) (x := seq A x (n + 2)) (z := seq A x (n + 1)) (hp n)
      (fun j k => comparable ha hab hA1 hA2 (seq_nonneg hA hx n) j k) (fun j => (hbd n j).1) (fun j => (hbd n j).2)
      ⟨p n, by rw [hm]; field_simp [(hp n (p n)).ne']⟩
    refine ⟨?_, ?_⟩
    · have := hc.1 (p (n + 1))
      show m n ≤ seq A x (n + 3) (p (n + 1)) / seq A x (n + 2) (p (n + 1))
      rw [le_div_iff₀ (hp (n + 1) _)]; exact this
    · have := hc.2 (q (n + 1))
      show seq A x (n + 3) (q (n + 1)) / seq A x (n + 2) (q (n + 1)) ≤ _
      rw [div_le_iff₀ (hp (n + 1) _)]; exact this
  refine ⟨m, M, 1 - δ, M 0 - m 0, by linarith, by linarith, ?_, ?_, monotone_nat_of_le_succ fun n => (hstep n).1, ?_, ?_, hbd⟩
  · exact sub_nonneg.mpr (hqm 0 (p 0))
  · exact div_pos (hp 1 _) (hp 0 _)
  · intro n
    induction n with
    | zero => simp
    | succ n ih =>
      obtain ⟨s1, s2⟩ := hstep n
      have : M (n + 1) - m (n + 1) ≤ (1 - δ) * (M n - m n) := by linarith
      calc _ ≤ (1 - δ) * (M n - m n) := this
        _ ≤ (1 - δ) * ((M 0 - m 0) * (1 - δ) ^ n) := mul_le_mul_of_nonneg_left ih (by linarith)
        _ = _ := by ring
  · intro n
    exact hqm n (p n)

/-- Sum of the components. -/
def tot (x : ι → ℝ) : ℝ := ∑ i, x i

theorem app_tendsto (A : ι → ι → ℝ) {v : ℕ → ι → ℝ} {w : ι → ℝ} (h : ∀ i, Tendsto (fun n => v n i) atTop (𝓝 (w i))) (i : ι) :
    Tendsto (fun n => app A (v n) i) atTop (𝓝 (app A w i)) :=
  tendsto_finsetSum _ fun j _ => (h j).const_mul (A i j)

/-- The power iteration converges to a positive eigenvector. -/
theorem converges [Nonempty ι] {A : ι → ι → ℝ} (hA : ∀ i j, 0 < A i j) {x : ι → ℝ} (hx : ∀ j, 0 ≤ x j) (h0 : ∃ j, 0 < x j) :
    ∃ (k : ℝ) (v : ι → ℝ), 0 < k ∧ (∀ i, 0 < v i) ∧ tot v = 1 ∧ (∀ i, app A v i = k * v i) ∧
      Tendsto (fun n => tot (seq A x (n + 1)) / tot (seq A x n)) atTop (𝓝 k) ∧ ∀ i, Tendsto (fun n => seq A x n i / tot (seq A x n)) atTop (𝓝 (v i)) := by
  obtain ⟨m, M, q, C, hq0, hq1, hC, hm0, hmono, hgap, hle, hbd⟩ := squeeze hA hx h0
  have hp := seq_pos hA hx h0
  have hT : ∀ n, 0 < tot (seq A x (n + 1)) := fun n => sum_pos (fun i _ => hp n i) univ_nonempty
  have hmpos : ∀ n, 0 < m n := fun n => lt_of_lt_of_le hm0 (hmono (Nat.zero_le n))
  -- ratio of sums
  set κ : ℕ → ℝ := fun n => tot (seq A x (n + 2)) / tot (seq A x (n + 1)) with hκ
  have hκ1 : ∀ n, m n ≤ κ n ∧ κ n ≤ M n := by
    intro n
    refine ⟨?_, ?_⟩
    · rw [hκ]; dsimp only; rw [le_div_iff₀ (hT n)]; unfold tot; rw [mul_sum]; exact sum_le_sum fun i _ => (hbd n i).1
    · rw [hκ]; dsimp only; rw [div_le_iff₀ (hT n)]; unfold tot; rw [mul_sum]; exact sum_le_sum fun i _ => (hbd n i).2
  -- the normalised vectors
  set w : ℕ → ι → ℝ := fun n i => seq A x (n + 1) i / tot (seq A x (n + 1)) with hw
  have hw0 : ∀ n i, 0 < w n i := fun n i => div_pos (hp n i) (hT n)
  have hw1 : ∀ n i, w n i ≤ 1 := by
    intro n i
    rw [hw]; dsimp only; rw [div_le_one (hT n)]
    exact single_le_sum (f := fun i => seq A x (n + 1) i) (fun j _ => (hp n j).le) (mem_univ i)
  have hA' : ∀ n i, app A (w n) i = κ n * w (n + 1) i := by
    intro n i
    have : w n = fun j => (1 / tot (seq A x (n + 1))) * seq A x (n + 1) j := by funext j; rw [hw]; dsimp only; ring
    rw [this, app_smul]
    show 1 / tot (seq A x (n + 1)) * seq A x (n + 2) i = tot (seq A x (n + 2)) / tot (seq A x (n + 1)) * (seq A x (n + 2) i / tot (seq A x (n + 2)))
    field_simp [(hT n).ne', (hT (n + 1)).ne']
  have hd : ∀ i n, |w n i - w (n + 1) i| ≤ C / m 0 * q ^ n := by
    intro i n
    have hκpos : 0 < κ n := lt_of_lt_of_le (hmpos n) (hκ1 n).1
    have e : w (n + 1) i * κ n = seq A x (n + 2) i / tot (seq A x (n + 1)) := by
      show seq A x (n + 2) i / tot (seq A x (n + 2)) * (tot (seq A x (n + 2)) / tot (seq A x (n + 1))) = _
      field_simp [(hT n).ne', (hT (n + 1)).ne']
    have l1 : m n * w n i ≤ w (n + 1) i * κ n := by
      rw [e]; show m n * (seq A x (n + 1) i / tot (seq A x (n + 1))) ≤ _
      rw [← mul_div_assoc]; exact div_le_div_of_nonneg_right (hbd n i).1 (hT n).le
    have l2 : w (n + 1) i * κ n ≤ M n * w n i := by
      rw [e]; show _ ≤ M n * (seq A x (n + 1) i / tot (seq A x (n + 1)))
      rw [← mul_div_assoc]; exact div_le_div_of_nonneg_right (hbd n i).2 (hT n).le
    have l3 : |w n i - w (n + 1) i| * κ n ≤ (M n - m n) * w n i := by
      have l6 : |w n i - w (n + 1) i| * κ n = |(w n i - w (n + 1) i) * κ n| := by rw [abs_mul, abs_of_pos hκpos]
      rw [l6, abs_le]
      have k1 := mul_le_mul_of_nonneg_right (hκ1 n).1 (hw0 n i).le
      have k2 := mul_le_mul_of_nonneg_right (hκ1 n).2 (hw0 n i).le
      constructor <;> nlinarith
    have l4 : (M n - m n) * w n i ≤ C * q ^ n := by
      calc _ ≤ (M n - m n) * 1 := mul_le_mul_of_nonneg_left (hw1 n i) (by linarith [hle n])
        _ ≤ _ := by rw [mul_one]; exact hgap n
    have l5 : m 0 ≤ κ n := (hmono (Nat.zero_le n)).trans (hκ1 n).1
    rw [div_mul_eq_mul_div, le_div_iff₀ hm0]
    calc _ ≤ |w n i - w (n + 1) i| * κ n := mul_le_mul_of_nonneg_left l5 (abs_nonneg _)
      _ ≤ _ := l3.trans l4
  have hcau : ∀ i, CauchySeq fun n => w n i := by
    intro i
    refine cauchySeq_of_le_geometric q (C / m 0) hq1 fun n => ?_
    rw [Real.dist_eq]; exact hd i n
  have hlim : ∀ i, ∃ l, Tendsto (fun n => w n i) atTop (𝓝 l) := fun i => cauchySeq_tendsto_of_complete (hcau i)
  choose v hv using hlim
  -- the ratio converges: it is the sum of the product
  have hsum1 : ∀ n, ∑ i, w n i = 1 := by
    intro n
    rw [hw]; dsimp only; rw [← Finset.sum_div]; exact div_self (hT n).ne'
  have hκ2 : ∀ n, κ n = ∑ i, app A (w n) i := by
    intro n
    rw [sum_congr rfl fun i _ => hA' n i, ← mul_sum, hsum1, mul_one]
  have hvs : tot v = 1 := by
    have h1 : Tendsto (fun n => ∑ i, w n i) atTop (𝓝 (tot v)) := tendsto_finsetSum _ fun i _ => hv i
    have h2 : Tendsto (fun n => ∑ i, w n i) atTop (𝓝 1) := by simp only [hsum1]; exact tendsto_const_nhds
    exact tendsto_nhds_unique h1 h2
  have hκlim : Tendsto κ atTop (𝓝 (∑ i, app A v i)) := by
    have : κ = fun n => ∑ i, app A (w n) i := funext hκ2
    rw [this]
    exact tendsto_finsetSum _ fun i _ => app_tendsto A hv i
  set k := ∑ i, app A v i with hk
  have hv0 : ∀ i, 0 ≤ v i := fun i => ge_of_tendsto' (hv i) fun n => (hw0 n i).le
  have hvex : ∃ i, 0 < v i := by
    by_contra hcon
    push Not at hcon
    have : tot v ≤ 0 := sum_nonpos fun i _ => hcon i
    linarith
  have heig : ∀ i, app A v i = k * v i := by
    intro i
    have h1 := app_tendsto A hv i
    have h2 : Tendsto (fun n => κ n * w (n + 1) i) atTop (𝓝 (k * v i)) := hκlim.mul ((tendsto_add_atTop_iff_nat 1).mpr (hv i))
    have h3 : (fun n => app A (w n) i) = fun n => κ n * w (n + 1) i := funext fun n => hA' n i
    rw [h3] at h1
    exact tendsto_nhds_unique h1 h2
  have hkpos : 0 < k := sum_pos (fun i _ => app_pos hA hv0 hvex i) univ_nonempty
  refine ⟨k, v, hkpos, ?_, hvs, heig, ?_, ?_⟩
  · intro i
    have := app_pos hA hv0 hvex i
    rw [heig] at this
    exact (pos_iff_pos_of_mul_pos this).mp hkpos
  · exact (tendsto_add_atTop_iff_nat (f := fun n => tot (seq A x (n + 1)) / tot (seq A x n)) 1).mp hκlim
  · intro i
    exact (tendsto_add_atTop_iff_nat (f := fun n => seq A x n i / tot (seq A x n)) 1).mp (hv i)

theorem app_transpose (A : ι → ι → ℝ) (u w : ι → ℝ) : ∑ i, u i * app A w i = ∑ j, app (fun a b => A b a) u j * w j := by
  unfold app
  simp only [mul_sum, sum_mul]
  rw [sum_comm]
  exact sum_congr rfl fun j _ => sum_congr rfl fun i _ => by ring

/-- Eigenvalue and eigenvector with no negative component are unique, the latter up to a factor. -/
theorem unique [Nonempty ι] {A : ι → ι → ℝ} (hA : ∀ i j, 0 < A i j) {k l : ℝ} {v w : ι → ℝ} (hv : ∀ i, 0 < v i) (hvk : ∀ i, app A v i = k * v i)
    (hw : ∀ i, 0 ≤ w i) (hw0 : ∃ i, 0 < w i) (hwl : ∀ i, app A w i = l * w i) : l = k ∧ ∃ c, 0 < c ∧ ∀ i, w i = c * v i := by
  obtain ⟨e', u, -, hu, -, hue, -⟩ := converges (A := fun a b => A b a) (fun i j => hA j i) (x := fun _ => 1) (fun _ => zero_le_one) ⟨Classical.arbitrary ι, one_pos⟩
  have key : ∀ (e : ℝ) (z : ι → ℝ), (∀ i, 0 ≤ z i) → (∃ i, 0 < z i) → (∀ i, app A z i = e * z i) → e = e' := by
    intro e z hz ⟨i0, hi0⟩ hze
    have h1 : ∑ i, u i * app A z i = e * ∑ i, u i * z i := by
      rw [mul_sum]; exact sum_congr rfl fun i _ => by rw [hze]; ring
    have h2 : ∑ j, app (fun a b => A b a) u j * z j = e' * ∑ i, u i * z i := by
      rw [mul_sum]; exact sum_congr rfl fun i _ => by rw [hue]; ring
    rw [app_transpose, h2] at h1
    have hpos : 0 < ∑ i, u i * z i := sum_pos' (fun i _ => mul_nonneg (hu i).le (hz i)) ⟨i0, mem_univ _, mul_pos (hu i0) hi0⟩
    exact (mul_right_cancel₀ hpos.ne' h1).symm
  have hlk : l = k := by rw [key l w hw hw0 hwl, key k v (fun i => (hv i).le) ⟨Classical.arbitrary ι, hv _⟩ hvk]
  refine ⟨hlk, ?_⟩
  have hkpos : 0 < k := by
    have h := app_pos hA (fun i => (hv i).le) ⟨Classical.arbitrary ι, hv _⟩ (Classical.arbitrary ι)
    rw [hvk] at h
    exact (pos_iff_pos_of_mul_pos h).mpr (hv _)
  obtain ⟨i0, -, hi0⟩ := exists_min_image (univ : Finset ι) (fun i => w i / v i) univ_nonempty
  set t := w i0 / v i0 with ht
  have hmin : ∀ i, t * v i ≤ w i := by
    intro i
    rw [← le_div_iff₀ (hv i)]; exact hi0 i (mem_univ _)
  have hz : ∀ i, app A (fun j => w j - t * v j) i = k * (w i - t * v i) := by
    intro i
    rw [app_sub, app_smul, hwl, hvk, hlk]; ring
  have hall : ∀ i, w i = t * v i := by
    by_contra hcon
    push Not at hcon
    obtain ⟨i, hi⟩ := hcon
    have h := app_pos hA (x := fun j => w j - t * v j) (fun j => sub_nonneg.mpr (hmin j)) ⟨i, sub_pos.mpr (lt_of_le_of_ne (hmin i) (Ne.symm hi))⟩ i0
    rw [hz] at h
    have h0 : w i0 - t * v i0 = 0 := by rw [ht]; field_simp [(hv i0).ne']; ring
    rw [h0, mul_zero] at h
    exact lt_irrefl _ h
  refine ⟨t, ?_, hall⟩
  obtain ⟨j, hj⟩ := hw0
  rw [hall j] at hj
  exact (pos_iff_pos_of_mul_pos hj).mpr (hv j)

end Verif.Cmfd.Perron
