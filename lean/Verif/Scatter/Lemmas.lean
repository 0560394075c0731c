import Verif.Scatter.Model
import Mathlib.Algebra.BigOperators.Group.List.Basic
import Mathlib.Algebra.BigOperators.Group.Finset.Basic
import Mathlib.Data.List.Range

set_option linter.unusedSectionVars false

namespace Verif.Scatter

variable {K : Type} [Field K] [LinearOrder K]

theorem mem_groups {lo hi g : Nat} : g ∈ groups lo hi ↔ lo ≤ g ∧ g ≤ hi := by
  unfold groups
  simp only [List.mem_map, List.mem_range]
  constructor
  · rintro ⟨i, hi', rfl⟩; omega
  · intro h; exact ⟨g - lo, by omega, by omega⟩

theorem groups_length (lo hi : Nat) : (groups lo hi).length = hi + 1 - lo := by simp [groups]

theorem groups_nodup (lo hi : Nat) : (groups lo hi).Nodup := by
  unfold groups
  apply List.Nodup.map _ List.nodup_range
  intro a b h
  simp only at h
  omega

theorem groups_get (lo hi i : Nat) (h : i < hi + 1 - lo) : (groups lo hi)[i]? = some (lo + i) := by
  simp [groups, h]

/-- Scanning upwards stops no later than any positive group. -/
theorem scan_range_le (pos : Nat → Bool) (n a cur : Nat) (g : Nat) (hg : g < n) (hp : pos (a + g) = true) :
    scan pos ((List.range n).map (a + ·)) cur ≤ a + g := by
  induction n generalizing a cur g with
  | zero => omega
  | succ n ih =>
    rw [List.range_succ_eq_map]
    simp only [List.map_cons, List.map_map, scan]
    by_cases h0 : pos (a + 0) = true
    · rw [if_pos h0]; omega
    · rw [if_neg h0]
      have hg0 : g ≠ 0 := by rintro rfl; exact h0 hp
      have := ih (a + 1) (a + 0) (g - 1) (by omega) (by rw [show a + 1 + (g - 1) = a + g by omega]; exact hp)
      have e : List.map ((fun x => a + x) ∘ Nat.succ) (List.range n) = List.map (fun x => a + 1 + x) (List.range n) := by
        apply List.map_congr_left; intro x _; simp; omega
      rw [e]; omega

theorem scan_up (pos : Nat → Bool) (n g : Nat) (hg : g < n) (hp : pos g = true) : scan pos (List.range n) 0 ≤ g := by
  have := scan_range_le pos n 0 0 g hg (by simpa using hp)
  simpa using this

theorem scan_down (pos : Nat → Bool) (n g cur : Nat) (hg : g < n) (hp : pos g = true) :
    g ≤ scan pos (List.range n).reverse cur := by
  induction n generalizing cur with
  | zero => omega
  | succ n ih =>
    rw [List.range_succ, List.reverse_append]
    simp only [List.reverse_cons, List.reverse_nil, List.nil_append, List.cons_append, scan]
    by_cases h0 : pos n = true
    · rw [if_pos h0]; omega
    · rw [if_neg h0]
      have : g ≠ n := by rintro rfl; exact h0 hp
      exact ih n (by omega)

theorem scan_mem (pos : Nat → Bool) (l : List Nat) (cur : Nat) : scan pos l cur = cur ∨ scan pos l cur ∈ l := by
  induction l generalizing cur with
  | nil => left; rfl
  | cons a t ih =>
    rw [scan]
    split_ifs
    · right; simp
    · rcases ih a with h | h
      · right; rw [h]; simp
      · right; simp [h]

theorem scan_pos_or_none (pos : Nat → Bool) (l : List Nat) (cur : Nat) (h : l ≠ []) :
    (scan pos l cur ∈ l ∧ pos (scan pos l cur) = true) ∨ (∀ g ∈ l, pos g = false) := by
  induction l generalizing cur with
  | nil => exact absurd rfl h
  | cons a t ih =>
    rw [scan]
    by_cases h0 : pos a = true
    · left; rw [if_pos h0]; exact ⟨by simp, h0⟩
    · rw [if_neg h0]
      by_cases ht : t = []
      · right; subst ht; simpa using h0
      · rcases ih a ht with ⟨h1, h2⟩ | h1
        · left; exact ⟨by simp [h1], h2⟩
        · right
          intro g hg
          rcases List.mem_cons.mp hg with rfl | hg
          · simpa using h0
          · exact h1 g hg

theorem bounds_props (ng : Nat) (scat : Nat → Nat → K) (dst : Nat) (h : dst < ng) :
    (bounds ng scat dst).1 ≤ dst ∧ dst ≤ (bounds ng scat dst).2 ∧ (bounds ng scat dst).2 < ng ∧
    ∀ g, g < ng → 0 < scat dst g → (bounds ng scat dst).1 ≤ g ∧ g ≤ (bounds ng scat dst).2 := by
  have hs : scan (fun g => decide (0 < scat dst g)) (List.range ng).reverse 0 < ng := by
    rcases scan_mem (fun g => decide (0 < scat dst g)) (List.range ng).reverse 0 with h' | h'
    · omega
    · simpa using h'
  unfold bounds
  simp only
  by_cases hc : scan (fun g => decide (0 < scat dst g)) (List.range ng) 0 = ng - 1 ∧
      scan (fun g => decide (0 < scat dst g)) (List.range ng).reverse 0 = 0
  · simp only [hc, and_self, if_true]
    refine ⟨by simp, by simp, by simpa using h, ?_⟩
    intro g hg hp
    have h1 := scan_up (fun g => decide (0 < scat dst g)) ng g hg (by simpa using hp)
    have h2 := scan_down (fun g => decide (0 < scat dst g)) ng g 0 hg (by simpa using hp)
    simp only [gt_iff_lt, lt_irrefl, if_false]
    omega
  · simp only [hc, if_false]
    refine ⟨by split_ifs <;> omega, by split_ifs <;> omega, by split_ifs <;> omega, ?_⟩
    intro g hg hp
    have h1 := scan_up (fun g => decide (0 < scat dst g)) ng g hg (by simpa using hp)
    have h2 := scan_down (fun g => decide (0 < scat dst g)) ng g 0 hg (by simpa using hp)
    constructor <;> split_ifs <;> omega

/-- The inner loop over one row. -/
theorem row_loop (scat : Nat → Nat → K) (dst : Nat) (gs : List Nat) (hnd : gs.Nodup) (m : Matrix K) :
    let m' := gs.foldl (fun (m : Matrix K) g =>
      { m with scat := m.scat ++ [scat dst g], out := Function.update m.out g (m.out g + scat dst g) }) m
    m'.ng = m.ng ∧ m'.scat = m.scat ++ gs.map (scat dst) ∧ m'.rows = m.rows ∧
    ∀ g, m'.out g = m.out g + (if g ∈ gs then scat dst g else 0) := by
  induction gs generalizing m with
  | nil => simp
  | cons a t ih =>
    rw [List.nodup_cons] at hnd
    obtain ⟨h1, h2, h3, h4⟩ := ih hnd.2 { m with scat := m.scat ++ [scat dst a], out := Function.update m.out a (m.out a + scat dst a) }
    refine ⟨h1, ?_, h3, ?_⟩
    · rw [List.foldl_cons, h2]; simp
    · intro g
      rw [List.foldl_cons, h4 g]
      simp only [Function.update_apply, List.mem_cons]
      by_cases hga : g = a
      · subst hga; simp [hnd.1]
      · simp [hga]

theorem addRow_eq (ng : Nat) (scat : Nat → Nat → K) (m : Matrix K) (dst : Nat) :
    (addRow ng scat m dst).ng = m.ng ∧
    (addRow ng scat m dst).scat = m.scat ++ (groups (bounds ng scat dst).1 (bounds ng scat dst).2).map (scat dst) ∧
    (addRow ng scat m dst).rows = m.rows ++ [⟨(bounds ng scat dst).1, (bounds ng scat dst).2, m.scat.length⟩] ∧
    ∀ g, (addRow ng scat m dst).out g = m.out g +
      (if (bounds ng scat dst).1 ≤ g ∧ g ≤ (bounds ng scat dst).2 then scat dst g else 0) := by
  obtain ⟨h1, h2, h3, h4⟩ := row_loop scat dst _ (groups_nodup (bounds ng scat dst).1 (bounds ng scat dst).2) m
  refine ⟨h1, h2, ?_, ?_⟩
  · unfold addRow; simp only; rw [h3]
  · intro g
    have := h4 g
    unfold addRow
    simp only
    rw [this]
    simp only [mem_groups]

/-- Invariant of the construction after `k` rows. -/
theorem build_inv (ng : Nat) (scat : Nat → Nat → K) (k : Nat) :
    let m := (List.range k).foldl (addRow ng scat) { ng := ng, scat := [], out := fun _ => 0, rows := [] }
    m.ng = ng ∧ m.rows.length = k ∧
    (∀ dst, dst < k → ∃ r, m.rows[dst]? = some r ∧ r.minG = (bounds ng scat dst).1 ∧ r.maxG = (bounds ng scat dst).2 ∧
      ∀ i, i < r.maxG + 1 - r.minG → m.scat[r.pos + i]? = some (scat dst (r.minG + i))) ∧
    ∀ g, m.out g = ((List.range k).map (fun dst =>
      if (bounds ng scat dst).1 ≤ g ∧ g ≤ (bounds ng scat dst).2 then scat dst g else 0)).sum := by
  induction k with
  | zero => simp
  | succ k ih =>
    simp only at ih ⊢
    rw [List.range_succ, List.foldl_append]
    simp only [List.foldl_cons, List.foldl_nil]
    generalize hm : (List.range k).foldl (addRow ng scat) { ng := ng, scat := [], out := fun _ => 0, rows := [] } = m at *
    obtain ⟨i1, i2, i3, i4⟩ := ih
    obtain ⟨a1, a2, a3, a4⟩ := addRow_eq ng scat m k
    refine ⟨a1.trans i1, by rw [a3]; simp [i2], ?_, ?_⟩
    · intro dst hdst
      by_cases h : dst < k
      · obtain ⟨r, r1, r2, r3, r4⟩ := i3 dst h
        refine ⟨r, ?_, r2, r3, ?_⟩
        · rw [a3, List.getElem?_append_left (by omega)]; exact r1
        · intro i hi
          have := r4 i hi
          rw [a2, List.getElem?_append_left (List.getElem?_eq_some_iff.mp this).1]
          exact this
      · have : dst = k := by omega
        subst this
        refine ⟨⟨(bounds ng scat dst).1, (bounds ng scat dst).2, m.scat.length⟩, ?_, rfl, rfl, ?_⟩
        · rw [a3, List.getElem?_append_right (by omega), i2]; simp
        · intro i hi
          rw [a2, List.getElem?_append_right (by simp)]
          simp only [Nat.add_sub_cancel_left, List.getElem?_map]
          rw [groups_get _ _ i hi]; rfl
    · intro g
      rw [a4 g, i4 g]
      simp [List.sum_append]

theorem build_ng (ng : Nat) (scat : Nat → Nat → K) : (build ng scat).ng = ng := (build_inv ng scat ng).1

theorem build_get (ng : Nat) (scat : Nat → Nat → K) (dst g : Nat) (h : dst < ng) :
    (build ng scat).get dst g =
      if (bounds ng scat dst).1 ≤ g ∧ g ≤ (bounds ng scat dst).2 then some (scat dst g) else none := by
  obtain ⟨r, r1, r2, r3, r4⟩ := (build_inv ng scat ng).2.2.1 dst h
  unfold Matrix.get
  change (build ng scat).rows[dst]? = some r at r1
  rw [r1]
  simp only [r2, r3]
  split_ifs with hb
  · have := r4 (g - r.minG) (by omega)
    change (build ng scat).scat[_]? = _ at this
    rw [r2] at this
    rw [this]
    congr 2; omega
  · rfl

theorem update_loop (f : Nat → K) (sc : Nat → K) (base : Nat) (gs : List Nat) (p : Nat) :
    (gs.foldl (fun sc g => Function.update sc (base + g) (f g)) sc) p =
      if base ≤ p ∧ p - base ∈ gs then f (p - base) else sc p := by
  induction gs generalizing sc with
  | nil => simp
  | cons a t ih =>
    rw [List.foldl_cons, ih]
    simp only [Function.update_apply, List.mem_cons]
    by_cases h1 : base ≤ p ∧ p - base ∈ t
    · simp [h1]
    · rw [if_neg h1]
      by_cases h2 : p = base + a
      · subst h2; simp
      · have : ¬(base ≤ p ∧ (p - base = a ∨ p - base ∈ t)) := by
          rintro ⟨q1, q2 | q2⟩
          · exact h2 (by omega)
          · exact h1 ⟨q1, q2⟩
        rw [if_neg this, if_neg h2]

theorem asVector_inv (ng : Nat) (scat : Nat → Nat → K) (k : Nat) (hk : k ≤ ng) (dst g : Nat) (hg : g < ng) :
    ((List.range k).foldl (fun (sc : Nat → K) ig =>
      match (build ng scat).rows[ig]? with
      | some r => (groups r.minG r.maxG).foldl
          (fun (sc : Nat → K) g => Function.update sc (ng * ig + g) (((build ng scat).get ig g).getD 0)) sc
      | none => sc) (fun _ => 0)) (ng * dst + g) =
    if dst < k ∧ (bounds ng scat dst).1 ≤ g ∧ g ≤ (bounds ng scat dst).2 then scat dst g else 0 := by
  induction k with
  | zero => simp
  | succ k ih =>
    rw [List.range_succ, List.foldl_append]
    simp only [List.foldl_cons, List.foldl_nil]
    obtain ⟨r, r1, r2, r3, -⟩ := (build_inv ng scat ng).2.2.1 k (by omega)
    change (build ng scat).rows[k]? = some r at r1
    rw [r1]
    simp only
    rw [update_loop (fun g => ((build ng scat).get k g).getD 0), ih (by omega)]
    simp only [mem_groups]
    have hb := bounds_props ng scat k (by omega)
    by_cases hdst : dst = k
    · subst hdst
      have e : ng * dst + g - ng * dst = g := by omega
      rw [e, build_get ng scat dst g (by omega), r2, r3]
      simp only [Nat.le_add_right, true_and, lt_irrefl, false_and, if_false, Nat.lt_succ_self]
      split_ifs <;> simp_all
    · have hne : ¬(ng * k ≤ ng * dst + g ∧ r.minG ≤ ng * dst + g - ng * k ∧ ng * dst + g - ng * k ≤ r.maxG) := by
        rintro ⟨q1, q2, q3⟩
        rw [r3] at q3
        apply hdst
        rcases Nat.lt_trichotomy dst k with hl | hl | hl
        · have := Nat.mul_le_mul_left ng (Nat.succ_le_of_lt hl)
          rw [Nat.mul_succ] at this; omega
        · exact hl
        · have := Nat.mul_le_mul_left ng (Nat.succ_le_of_lt hl)
          rw [Nat.mul_succ] at this; omega
      rw [if_neg hne]
      have : (dst < k + 1 ↔ dst < k) := by omega
      simp only [this]

/-- Running sums. -/
theorem cdf_loop (f : Nat → K) (n : Nat) :
    (List.range n).foldl (fun (acc : List K × K) i => (acc.1 ++ [acc.2 + f i], acc.2 + f i)) ([], 0) =
      ((List.range n).map (fun i => ∑ j ∈ Finset.range (i + 1), f j), ∑ j ∈ Finset.range n, f j) := by
  induction n with
  | zero => simp
  | succ n ih =>
    rw [List.range_succ, List.foldl_append, ih]
    simp [Finset.sum_range_succ]

end Verif.Scatter
