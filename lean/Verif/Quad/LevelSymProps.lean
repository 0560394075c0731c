import Verif.Quad.LevelSymModel
import Mathlib.Tactic.NormNum
import Mathlib.Tactic.Linarith
import Mathlib.Tactic.FieldSimp
import Mathlib.Tactic.Ring
import Mathlib.Tactic.IntervalCases
import Mathlib.Data.List.Permutation
import Mathlib.Algebra.BigOperators.Ring.List
import Mathlib.Data.Rat.Cast.Order

/-!
# C21: level-symmetric quadrature
-/

namespace Verif.Quad.LS
open Verif.Quad

/-- Closed under permutation of the three cosines, with the same weight. -/
def PermSymmetric (angles : List (Angle ℝ)) : Prop :=
  ∀ a ∈ angles, ∀ x y z : ℝ, [x, y, z].Perm [a.ox, a.oy, a.oz] → (⟨x, y, z, a.weight⟩ : Angle ℝ) ∈ angles

/-- What is expected of an octant of the level-symmetric set of the given order, except for the symmetry.  The
length is allowed the rounding of the fifteen-digit table. -/
structure Sound (order : Int) (angles : List (Angle ℝ)) : Prop where
  count : 8 * (angles.length : Int) = order * (order + 2)
  positive : ∀ a ∈ angles, 0 < a.ox ∧ 0 < a.oy ∧ 0 < a.oz ∧ 0 < a.weight
  unit : ∀ a ∈ angles, |a.ox ^ 2 + a.oy ^ 2 + a.oz ^ 2 - 1| ≤ 1 / 10 ^ 14
  weights : (angles.map (·.weight)).sum = 1

/-- C21 (full claim, false for orders 12, 14 and 16). -/
def C21_claim : Prop := ∀ order : Int, order % 2 = 0 → 2 ≤ order → order ≤ 16 →
  ∃ angles, genSn order = .ok angles ∧ Sound order angles ∧ PermSymmetric angles

theorem mu_sq (n : Nat) (mu0 : ℚ) (i : Nat) (h : 0 ≤ muSq n mu0 i) : mu n mu0 i ^ 2 = (muSq n mu0 i : ℝ) := by
  unfold mu
  split_ifs with hi
  · simp [muSq, hi]; ring
  · rw [Real.sq_sqrt]; exact_mod_cast h

theorem mu_pos (n : Nat) (mu0 : ℚ) (i : Nat) (h0 : 0 < mu0) (h : 0 < muSq n mu0 i) : 0 < mu n mu0 i := by
  unfold mu
  split_ifs with hi
  · exact_mod_cast h0
  · rw [Real.sqrt_pos]; exact_mod_cast h

theorem perm3 {x y z a b c : ℝ} (h : [x, y, z].Perm [a, b, c]) :
    (x = a ∧ y = b ∧ z = c) ∨ (x = b ∧ y = a ∧ z = c) ∨ (x = c ∧ y = b ∧ z = a) ∨ (x = b ∧ y = c ∧ z = a) ∨
    (x = c ∧ y = a ∧ z = b) ∨ (x = a ∧ y = c ∧ z = b) := by
  have two : ∀ {y z p q : ℝ}, [y, z].Perm [p, q] → (y = p ∧ z = q) ∨ (y = q ∧ z = p) := by
    intro y z p q hp
    have hy : y ∈ [p, q] := hp.subset (by simp)
    simp only [List.mem_cons, List.not_mem_nil, or_false] at hy
    rcases hy with rfl | rfl
    · exact Or.inl ⟨rfl, by simpa using hp.cons_inv⟩
    · exact Or.inr ⟨rfl, by simpa using (hp.trans (List.Perm.swap _ _ _)).cons_inv⟩
  have hx : x ∈ [a, b, c] := h.subset (by simp)
  simp only [List.mem_cons, List.not_mem_nil, or_false] at hx
  rcases hx with rfl | rfl | rfl
  · rcases two h.cons_inv with ⟨rfl, rfl⟩ | ⟨rfl, rfl⟩ <;> simp
  · rcases two (h.trans (List.Perm.swap _ _ _)).cons_inv with ⟨rfl, rfl⟩ | ⟨rfl, rfl⟩ <;> simp
  · have hs : [a, b, x].Perm [x, a, b] := by
      have := List.perm_append_comm (l₁ := [a, b]) (l₂ := [x])
      simpa using this
    rcases two (h.trans hs).cons_inv with ⟨rfl, rfl⟩ | ⟨rfl, rfl⟩ <;> simp

/-- Table facts, checked in exact arithmetic. -/
def rationalSound (n : Nat) (mu0 : ℚ) (es : List (Nat × Nat × Nat × ℚ)) : Prop :=
  8 * es.length = 2 * n * (2 * n + 2) ∧ 0 < mu0 ∧ 0 < (es.map (fun e => e.2.2.2)).sum ∧
  ∀ e ∈ es, 0 < muSq n mu0 e.1 ∧ 0 < muSq n mu0 e.2.1 ∧ 0 < muSq n mu0 e.2.2.1 ∧ 0 < e.2.2.2 ∧
    -(1 / 10 ^ 14) ≤ muSq n mu0 e.1 + muSq n mu0 e.2.1 + muSq n mu0 e.2.2.1 - 1 ∧
    muSq n mu0 e.1 + muSq n mu0 e.2.1 + muSq n mu0 e.2.2.1 - 1 ≤ 1 / 10 ^ 14

instance (n : Nat) (mu0 : ℚ) (es : List (Nat × Nat × Nat × ℚ)) : Decidable (rationalSound n mu0 es) := by
  unfold rationalSound; infer_instance

def indexSymmetric (es : List (Nat × Nat × Nat × ℚ)) : Prop :=
  ∀ e ∈ es, (e.2.1, e.1, e.2.2.1, e.2.2.2) ∈ es ∧ (e.2.2.1, e.2.1, e.1, e.2.2.2) ∈ es ∧
    (e.2.1, e.2.2.1, e.1, e.2.2.2) ∈ es ∧ (e.2.2.1, e.1, e.2.1, e.2.2.2) ∈ es ∧ (e.1, e.2.2.1, e.2.1, e.2.2.2) ∈ es

instance (es : List (Nat × Nat × Nat × ℚ)) : Decidable (indexSymmetric es) := by
  unfold indexSymmetric; infer_instance

/-- The angles made from the table rows. -/
noncomputable def build (n : Nat) (mu0 : ℚ) (es : List (Nat × Nat × Nat × ℚ)) : List (Angle ℝ) :=
  es.map (fun e => ⟨mu n mu0 e.1, mu n mu0 e.2.1, mu n mu0 e.2.2.1,
    ((e.2.2.2 / (es.map (fun e => e.2.2.2)).sum : ℚ) : ℝ)⟩)

theorem build_sound (n : Nat) (mu0 : ℚ) (es : List (Nat × Nat × Nat × ℚ)) (h : rationalSound n mu0 es) :
    Sound (2 * n : ℕ) (build n mu0 es) := by
  obtain ⟨hc, h0, hw, he⟩ := h
  refine ⟨?_, ?_, ?_, ?_⟩
  · simp only [build, List.length_map]
    exact_mod_cast hc
  · intro a ha
    simp only [build, List.mem_map] at ha
    obtain ⟨e, hm, rfl⟩ := ha
    obtain ⟨h1, h2, h3, h4, -, -⟩ := he e hm
    refine ⟨mu_pos _ _ _ h0 h1, mu_pos _ _ _ h0 h2, mu_pos _ _ _ h0 h3, ?_⟩
    have : 0 < e.2.2.2 / (es.map (fun e => e.2.2.2)).sum := div_pos h4 hw
    simp only
    exact_mod_cast this
  · intro a ha
    simp only [build, List.mem_map] at ha
    obtain ⟨e, hm, rfl⟩ := ha
    obtain ⟨h1, h2, h3, -, h5, h6⟩ := he e hm
    simp only
    rw [mu_sq _ _ _ h1.le, mu_sq _ _ _ h2.le, mu_sq _ _ _ h3.le, abs_le]
    have c5 : ((-(1 / 10 ^ 14) : ℚ) : ℝ) ≤ ((muSq n mu0 e.1 + muSq n mu0 e.2.1 + muSq n mu0 e.2.2.1 - 1 : ℚ) : ℝ) :=
      Rat.cast_le.mpr h5
    have c6 : ((muSq n mu0 e.1 + muSq n mu0 e.2.1 + muSq n mu0 e.2.2.1 - 1 : ℚ) : ℝ) ≤ ((1 / 10 ^ 14 : ℚ) : ℝ) :=
      Rat.cast_le.mpr h6
    push_cast at c5 c6
    exact ⟨c5, c6⟩
  · simp only [build, List.map_map, Function.comp_def]
    have : (es.map (fun e => ((e.2.2.2 / (es.map (fun e => e.2.2.2)).sum : ℚ) : ℝ))).sum =
        (((es.map (fun e => e.2.2.2 / (es.map (fun e => e.2.2.2)).sum)).sum : ℚ) : ℝ) := by
      generalize (es.map (fun e => e.2.2.2)).sum = w
      clear hc hw he
      induction es with
      | nil => simp
      | cons a t ih => simp only [List.map_cons, List.sum_cons]; rw [ih]; push_cast; rfl
    rw [this]
    have h1 : (es.map (fun e => e.2.2.2 / (es.map (fun e => e.2.2.2)).sum)).sum = 1 := by
      simp only [div_eq_mul_inv]
      rw [List.sum_map_mul_right, mul_inv_cancel₀ hw.ne']
    rw [h1]; norm_num

theorem build_symm (n : Nat) (mu0 : ℚ) (es : List (Nat × Nat × Nat × ℚ)) (h : indexSymmetric es) :
    PermSymmetric (build n mu0 es) := by
  intro a ha x y z hp
  simp only [build, List.mem_map] at ha
  obtain ⟨e, hm, rfl⟩ := ha
  obtain ⟨h1, h2, h3, h4, h5⟩ := h e hm
  simp only [build, List.mem_map]
  rcases perm3 hp with ⟨rfl, rfl, rfl⟩ | ⟨rfl, rfl, rfl⟩ | ⟨rfl, rfl, rfl⟩ | ⟨rfl, rfl, rfl⟩ | ⟨rfl, rfl, rfl⟩ | ⟨rfl, rfl, rfl⟩
  · exact ⟨_, hm, rfl⟩
  · exact ⟨_, h1, rfl⟩
  · exact ⟨_, h2, rfl⟩
  · exact ⟨_, h3, rfl⟩
  · exact ⟨_, h4, rfl⟩
  · exact ⟨_, h5, rfl⟩

theorem genSn_build (n : Nat) (hn : 1 ≤ n) (hn8 : n ≤ 8) (mu0 : ℚ) (es : List (Nat × Nat × Nat × ℚ))
    (hm : muBase[n - 1]? = some mu0) (he : entries n = some es) : genSn (2 * n : ℕ) = .ok (build n mu0 es) := by
  unfold genSn
  rw [if_neg (by omega), if_neg (by omega), if_neg (by omega)]
  have : (((2 * n : ℕ) : Int) / 2).toNat = n := by omega
  simp only [this, hm, he]
  rfl

/-- Rows and cosine base exist and satisfy a decidable check. -/
def check (n : Nat) (P : ℚ → List (Nat × Nat × Nat × ℚ) → Bool) : Bool :=
  match muBase[n - 1]?, entries n with
  | some mu0, some es => P mu0 es
  | _, _ => false

theorem of_check {n : Nat} {P : ℚ → List (Nat × Nat × Nat × ℚ) → Bool} (h : check n P = true) :
    ∃ mu0 es, muBase[n - 1]? = some mu0 ∧ entries n = some es ∧ P mu0 es = true := by
  unfold check at h
  split at h
  · exact ⟨_, _, ‹_›, ‹_›, h⟩
  · simp at h

/-- C21: orders 2 to 10: everything claimed.
Missing with respect to the full claim: orders 12 and 14, which are not symmetric (`C21_order12_not_symmetric`,
`C21_order14_not_symmetric`), and order 16, which reads a table out of bounds (`C21_order16_ub`). -/
theorem C21_low_orders_partial (order : Int) (heven : order % 2 = 0) (h2 : 2 ≤ order) (h10 : order ≤ 10) :
    ∃ angles, genSn order = .ok angles ∧ Sound order angles ∧ PermSymmetric angles := by
  have all : ∀ n : Nat, n < 6 → 1 ≤ n →
      check n (fun mu0 es => decide (rationalSound n mu0 es ∧ indexSymmetric es)) = true := by decide +kernel
  obtain ⟨n, rfl⟩ : ∃ n : Nat, order = (2 * n : ℕ) := ⟨(order / 2).toNat, by omega⟩
  obtain ⟨mu0, es, hm, he, hp⟩ := of_check (all n (by omega) (by omega))
  rw [decide_eq_true_iff] at hp
  exact ⟨_, genSn_build n (by omega) (by omega) mu0 es hm he, build_sound n mu0 es hp.1, build_symm n mu0 es hp.2⟩

/-- C21: orders 12 and 14 still have the right number of unit directions and normalised positive weights.
Missing: the symmetry, which fails. -/
theorem C21_high_orders_partial (order : Int) (heven : order % 2 = 0) (h12 : 12 ≤ order) (h14 : order ≤ 14) :
    ∃ angles, genSn order = .ok angles ∧ Sound order angles := by
  have all : ∀ n : Nat, n < 8 → 6 ≤ n → check n (fun mu0 es => decide (rationalSound n mu0 es)) = true := by
    decide +kernel
  obtain ⟨n, rfl⟩ : ∃ n : Nat, order = (2 * n : ℕ) := ⟨(order / 2).toNat, by omega⟩
  obtain ⟨mu0, es, hm, he, hp⟩ := of_check (all n (by omega) (by omega))
  rw [decide_eq_true_iff] at hp
  exact ⟨_, genSn_build n (by omega) (by omega) mu0 es hm he, build_sound n mu0 es hp⟩

/-- C21: for orders above two the directions have exactly unit length in exact arithmetic. -/
theorem C21_unit_exact (n : Nat) (hn : 2 ≤ n) (mu0 : ℚ) (h0 : 0 < mu0) (h : 3 * (mu0 * mu0) ≤ 1) (a b c : Nat)
    (habc : a + b + c = n - 1) : mu n mu0 a ^ 2 + mu n mu0 b ^ 2 + mu n mu0 c ^ 2 = 1 := by
  have hd : (0 : ℚ) < ((2 * n : ℕ) : ℚ) - 2 := by
    have : (2 : ℚ) ≤ n := by exact_mod_cast hn
    push_cast; linarith
  have e : ∀ i, muSq n mu0 i = mu0 * mu0 + i * (2 * (1 - 3 * (mu0 * mu0)) / ((2 * n : ℕ) - 2 : ℚ)) := by
    intro i; unfold muSq; split_ifs with hi
    · simp [hi]
    · rfl
  have hnn : ∀ i, 0 ≤ muSq n mu0 i := by
    intro i; rw [e]
    have h1 : (0 : ℚ) ≤ 2 * (1 - 3 * (mu0 * mu0)) / ((2 * n : ℕ) - 2 : ℚ) := div_nonneg (by linarith) hd.le
    have h2 := mul_nonneg (Nat.cast_nonneg (α := ℚ) i) h1
    have h3 := mul_pos h0 h0
    linarith
  rw [mu_sq _ _ _ (hnn a), mu_sq _ _ _ (hnn b), mu_sq _ _ _ (hnn c)]
  have key : muSq n mu0 a + muSq n mu0 b + muSq n mu0 c = 1 := by
    rw [e, e, e]
    have hs : (a : ℚ) + b + c = n - 1 := by
      have : (a + b + c : ℕ) + 1 = n := by omega
      rw [← this]; push_cast; ring
    have : mu0 * mu0 + a * (2 * (1 - 3 * (mu0 * mu0)) / ((2 * n : ℕ) - 2 : ℚ)) +
        (mu0 * mu0 + b * (2 * (1 - 3 * (mu0 * mu0)) / ((2 * n : ℕ) - 2 : ℚ))) +
        (mu0 * mu0 + c * (2 * (1 - 3 * (mu0 * mu0)) / ((2 * n : ℕ) - 2 : ℚ))) =
        3 * (mu0 * mu0) + (a + b + c) * (2 * (1 - 3 * (mu0 * mu0)) / ((2 * n : ℕ) - 2 : ℚ)) := by ring
    rw [this, hs]
    have hn1 : ((n : ℚ) - 1) ≠ 0 := by push_cast at hd; intro hc; linarith
    have h22 : ((2 * n : ℕ) : ℚ) - 2 = 2 * ((n : ℚ) - 1) := by push_cast; ring
    rw [h22]
    field_simp
    ring
  exact_mod_cast key

/-- C21: for orders 4 to 14 every generated direction has exactly unit length in exact arithmetic. -/
theorem C21_orders_unit_exact (order : Int) (heven : order % 2 = 0) (h4 : 4 ≤ order) (h14 : order ≤ 14) :
    ∃ angles, genSn order = .ok angles ∧ ∀ a ∈ angles, a.ox ^ 2 + a.oy ^ 2 + a.oz ^ 2 = 1 := by
  have all : ∀ n : Nat, n < 8 → 2 ≤ n → check n (fun mu0 es => decide (0 < mu0 ∧ 3 * (mu0 * mu0) ≤ 1 ∧
      ∀ e ∈ es, e.1 + e.2.1 + e.2.2.1 = n - 1)) = true := by decide +kernel
  obtain ⟨n, rfl⟩ : ∃ n : Nat, order = (2 * n : ℕ) := ⟨(order / 2).toNat, by omega⟩
  obtain ⟨mu0, es, hm, he, hp⟩ := of_check (all n (by omega) (by omega))
  rw [decide_eq_true_iff] at hp
  refine ⟨_, genSn_build n (by omega) (by omega) mu0 es hm he, ?_⟩
  intro a ha
  simp only [build, List.mem_map] at ha
  obtain ⟨e, hmem, rfl⟩ := ha
  exact C21_unit_exact n (by omega) mu0 hp.1 hp.2.1 _ _ _ (hp.2.2 e hmem)

theorem not_symm (n : Nat) (mu0 : ℚ) (es : List (Nat × Nat × Nat × ℚ)) (hs : rationalSound n mu0 es)
    (h : ∃ e ∈ es, ∀ e' ∈ es, ¬(muSq n mu0 e'.1 = muSq n mu0 e.1 ∧ muSq n mu0 e'.2.1 = muSq n mu0 e.2.2.1 ∧
      muSq n mu0 e'.2.2.1 = muSq n mu0 e.2.1 ∧
      e'.2.2.2 / (es.map (fun e => e.2.2.2)).sum = e.2.2.2 / (es.map (fun e => e.2.2.2)).sum)) :
    ¬ PermSymmetric (build n mu0 es) := by
  intro hp
  obtain ⟨e, hm, hne⟩ := h
  obtain ⟨-, -, -, he⟩ := hs
  have hb : (⟨mu n mu0 e.1, mu n mu0 e.2.1, mu n mu0 e.2.2.1,
    ((e.2.2.2 / (es.map (fun e => e.2.2.2)).sum : ℚ) : ℝ)⟩ : Angle ℝ) ∈ build n mu0 es := by
    simp only [build, List.mem_map]; exact ⟨e, hm, rfl⟩
  have hin := hp _ hb (mu n mu0 e.1) (mu n mu0 e.2.2.1) (mu n mu0 e.2.1) (List.Perm.cons _ (List.Perm.swap _ _ _))
  simp only [build, List.mem_map] at hin
  obtain ⟨e', hm', heq⟩ := hin
  simp only [Angle.mk.injEq] at heq
  obtain ⟨q1, q2, q3, q4⟩ := heq
  apply hne e' hm'
  have sq : ∀ i j, 0 < muSq n mu0 i → 0 < muSq n mu0 j → mu n mu0 i = mu n mu0 j → muSq n mu0 i = muSq n mu0 j := by
    intro i j hi hj hij
    have h1 := mu_sq n mu0 i hi.le
    rw [hij, mu_sq n mu0 j hj.le] at h1
    exact_mod_cast h1.symm
  have p := he e hm
  have p' := he e' hm'
  exact ⟨sq _ _ p'.1 p.1 q1, sq _ _ p'.2.1 p.2.2.1 q2, sq _ _ p'.2.2.1 p.2.1 q3, by exact_mod_cast q4⟩

/-- C21: the order 12 set is not symmetric (it is built with the weight map of order 14). -/
theorem C21_order12_not_symmetric : ∃ angles, genSn 12 = .ok angles ∧ ¬ PermSymmetric angles := by
  have hc : check 6 (fun mu0 es => decide (rationalSound 6 mu0 es ∧
      ∃ e ∈ es, ∀ e' ∈ es, ¬(muSq 6 mu0 e'.1 = muSq 6 mu0 e.1 ∧ muSq 6 mu0 e'.2.1 = muSq 6 mu0 e.2.2.1 ∧
      muSq 6 mu0 e'.2.2.1 = muSq 6 mu0 e.2.1 ∧
      e'.2.2.2 / (es.map (fun e => e.2.2.2)).sum = e.2.2.2 / (es.map (fun e => e.2.2.2)).sum))) = true := by
    decide +kernel
  obtain ⟨mu0, es, hm, he, hp⟩ := of_check hc
  rw [decide_eq_true_iff] at hp
  exact ⟨_, genSn_build 6 (by omega) (by omega) mu0 es hm he, not_symm 6 mu0 es hp.1 hp.2⟩

/-- C21: the order 14 set is not symmetric (it is built with the weight map of order 16). -/
theorem C21_order14_not_symmetric : ∃ angles, genSn 14 = .ok angles ∧ ¬ PermSymmetric angles := by
  have hc : check 7 (fun mu0 es => decide (rationalSound 7 mu0 es ∧
      ∃ e ∈ es, ∀ e' ∈ es, ¬(muSq 7 mu0 e'.1 = muSq 7 mu0 e.1 ∧ muSq 7 mu0 e'.2.1 = muSq 7 mu0 e.2.2.1 ∧
      muSq 7 mu0 e'.2.2.1 = muSq 7 mu0 e.2.1 ∧
      e'.2.2.2 / (es.map (fun e => e.2.2.2)).sum = e.2.2.2 / (es.map (fun e => e.2.2.2)).sum))) = true := by
    decide +kernel
  obtain ⟨mu0, es, hm, he, hp⟩ := of_check hc
  rw [decide_eq_true_iff] at hp
  exact ⟨_, genSn_build 7 (by omega) (by omega) mu0 es hm he, not_symm 7 mu0 es hp.1 hp.2⟩

/-- C21: order 16, which the range check admits, reads past the end of the offset table. -/
theorem C21_order16_ub : genSn 16 = .ub := by
  have he : entries 8 = none := by decide +kernel
  unfold genSn
  rw [if_neg (by decide), if_neg (by decide), if_neg (by decide)]
  have : ((16 : Int) / 2).toNat = 8 := by decide
  simp only [this, he]
  split <;> simp_all

/-- C21: even orders below two pass both checks and read before the start of the cosine table. -/
theorem C21_nonpositive_ub (order : Int) (h : order % 2 = 0) (h0 : order ≤ 0) : genSn order = .ub := by
  unfold genSn
  rw [if_neg (by omega), if_neg (by omega), if_pos h0]

/-- C21: odd orders and orders above 16 are rejected. -/
theorem C21_rejects (order : Int) (h : order % 2 ≠ 0 ∨ 16 < order) : genSn order = .throws := by
  unfold genSn
  by_cases h2 : order % 2 ≠ 0
  · rw [if_pos h2]
  · rw [if_neg h2, if_pos (by omega)]

theorem C21_claim_false : ¬ C21_claim := by
  intro h
  obtain ⟨a, ha, -⟩ := h 16 (by decide) (by decide) (by decide)
  rw [C21_order16_ub] at ha
  exact absurd ha (by simp)

example : ∃ angles, genSn 6 = .ok angles ∧ angles.length = 6 := by
  obtain ⟨a, h1, h2, -⟩ := C21_low_orders_partial 6 (by decide) (by decide) (by decide)
  exact ⟨a, h1, by have := h2.count; omega⟩

example : mu 3 0.266636 1 ^ 2 + mu 3 0.266636 1 ^ 2 + mu 3 0.266636 0 ^ 2 = 1 :=
  C21_unit_exact 3 (by decide) _ (by norm_num) (by norm_num) 1 1 0 (by decide)

end Verif.Quad.LS
