import Verif.Solver.Model
import Mathlib.Algebra.Order.Ring.Rat
import Mathlib.Tactic.NormNum

/-! # C60: the fixed-source solver stops as documented -/

namespace Verif.Solver

variable {K : Type} [LinearOrder K] [Zero K]

/-- Iteration `i` met the tolerance: its residual is a number below it. -/
def Met (tol : K) (resid : Nat → Option K) (i : Nat) : Prop := ∃ e, resid i = some e ∧ e < tol

theorem below_met (tol : K) (r : Option K) : below r tol = true ↔ ∃ e, r = some e ∧ e < tol := by
  cases r with
  | none => simp [below]
  | some e => simp [below]

/-- The loop from iteration `n` on. -/
theorem fixedLoop_spec (tol : K) (resid : Nat → Option K) (fuel n : Nat) (last : Option K) :
    (∃ k, k < fuel ∧ Met tol resid (n + k) ∧ (∀ j, j < k → ¬ Met tol resid (n + j)) ∧
      fixedLoop tol resid fuel n last = (n + k + 1, resid (n + k))) ∨
    ((∀ j, j < fuel → ¬ Met tol resid (n + j)) ∧
      fixedLoop tol resid fuel n last = (n + fuel, if fuel = 0 then last else resid (n + fuel - 1))) := by
  induction fuel generalizing n last with
  | zero => right; exact ⟨fun j h => absurd h (Nat.not_lt_zero j), rfl⟩
  | succ fuel ih =>
    rw [fixedLoop]
    by_cases hb : below (resid n) tol = true
    · left
      refine ⟨0, Nat.succ_pos _, (below_met tol _).mp hb, fun j h => absurd h (Nat.not_lt_zero j), ?_⟩
      rw [if_pos hb]
      rfl
    · have hn : ¬ Met tol resid n := fun h => hb ((below_met tol _).mpr h)
      rw [if_neg hb]
      have key : ∀ j, (∀ i, i < j → ¬ Met tol resid (n + 1 + i)) → ∀ i, i < j + 1 → ¬ Met tol resid (n + i) := by
        intro j h i hi
        cases i with
        | zero => exact hn
        | succ i =>
          have := h i (by omega)
          rwa [show n + 1 + i = n + (i + 1) by omega] at this
      rcases ih (n + 1) (resid n) with ⟨k, hk, hm, hlt, e⟩ | ⟨hall, e⟩
      · left
        refine ⟨k + 1, by omega, by rwa [show n + (k + 1) = n + 1 + k by omega], key k hlt, ?_⟩
        rw [e, show n + (k + 1) = n + 1 + k by omega]
      · right
        refine ⟨key fuel hall, ?_⟩
        rw [e, if_neg (Nat.succ_ne_zero fuel)]
        by_cases h0 : fuel = 0
        · subst h0; simp
        · rw [if_neg h0]
          congr 1
          · omega
          · congr 1; omega

theorem toSize_pos (m : Int) (h0 : 0 < m) (h1 : m ≤ 2147483647) : toSize m = m.toNat := by
  unfold toSize
  rw [Int.emod_eq_of_lt (by omega) (by omega)]

/-- C60: with a positive limit and tolerance the solver iterates until the first iteration whose residual is below the
tolerance and no further, and no message is printed. -/
theorem C60_converges (m : Int) (h0 : 0 < m) (h1 : m ≤ 2147483647) (tol : K) (ht : 0 < tol) (resid : Nat → Option K)
    (k : Nat) (hk : k < m.toNat) (hm : Met tol resid k) (hfirst : ∀ j, j < k → ¬ Met tol resid j) :
    fixedSolve m tol resid = some ⟨k + 1, false⟩ := by
  unfold fixedSolve
  rw [toSize_pos m h0 h1, if_neg (by omega), if_neg (by simp [ht])]
  rcases fixedLoop_spec tol resid m.toNat 0 (some 0) with ⟨k', hk', hm', hlt', e⟩ | ⟨hall, -⟩
  · rw [Nat.zero_add] at e hm'
    have : k' = k := by
      rcases Nat.lt_trichotomy k' k with h | h | h
      · exact absurd hm' (hfirst k' h)
      · exact h
      · have := hlt' k h; rw [Nat.zero_add] at this; exact absurd hm this
    subst this
    obtain ⟨x, hx, hlt⟩ := hm
    simp only [e]
    rw [hx]
    simp [atLeast, hlt]
  · have := hall k hk
    rw [Nat.zero_add] at this
    exact absurd hm this

/-- C60: if no iteration within the limit meets the tolerance, exactly as many iterations as allowed are performed.  The
message is printed if the last residual is a number; what is missing from the full claim is a last residual that is not
a number. -/
theorem C60_limit_partial (m : Int) (h0 : 0 < m) (h1 : m ≤ 2147483647) (tol : K) (ht : 0 < tol) (resid : Nat → Option K)
    (hno : ∀ j, j < m.toNat → ¬ Met tol resid j) :
    ∃ b, fixedSolve m tol resid = some ⟨m.toNat, b⟩ ∧ (b = true ↔ resid (m.toNat - 1) ≠ none) := by
  unfold fixedSolve
  rw [toSize_pos m h0 h1, if_neg (by omega), if_neg (by simp [ht])]
  rcases fixedLoop_spec tol resid m.toNat 0 (some 0) with ⟨k', hk', hm', hlt', e⟩ | ⟨hall, e⟩
  · rw [Nat.zero_add] at hm'
    exact absurd hm' (hno k' hk')
  · rw [if_neg (by omega), Nat.zero_add] at e
    simp only [e]
    refine ⟨_, rfl, ?_⟩
    have hl := hno (m.toNat - 1) (by omega)
    cases hr : resid (m.toNat - 1) with
    | none => simp [atLeast]
    | some x =>
      have : ¬ x < tol := fun h => hl ⟨x, hr, h⟩
      simp [atLeast, this]

/-- C60: a limit of zero and a tolerance that is not positive are rejected by the constructor. -/
theorem C60_rejected (tol : K) (resid : Nat → Option K) (m : Int) (h : m = 0 ∨ ¬ 0 < tol) :
    fixedSolve m tol resid = none := by
  unfold fixedSolve
  by_cases hz : toSize m ≤ 0
  · rw [if_pos hz]
  · rw [if_neg hz]
    rcases h with rfl | h
    · exact absurd (by decide : toSize 0 ≤ 0) hz
    · rw [if_pos (by simpa using h)]

/-- The full claim: an unreasonable limit is rejected, and a run that ends without meeting the tolerance says so. -/
def C60_claim : Prop := ∀ (m : Int) (tol : ℚ) (resid : Nat → Option ℚ), m ≤ 2147483647 → -2147483648 ≤ m → 0 < tol →
  (m ≤ 0 → fixedSolve m tol resid = none) ∧
  (0 < m → ∀ n b, fixedSolve m tol resid = some ⟨n, b⟩ → (∀ j, j < n → ¬ Met tol resid j) → b = true)

/-- C60: every negative limit, in particular the value used when the attribute is absent, is accepted and stands for
more than 2^63 iterations: the run ends only by convergence. -/
theorem C60_negative_accepted (m : Int) (h0 : m < 0) (h1 : -2147483648 ≤ m) (tol : K) (ht : 0 < tol)
    (resid : Nat → Option K) (hno : ∀ j, ¬ Met tol resid j) :
    ∃ b, fixedSolve m tol resid = some ⟨2 ^ 64 - m.natAbs, b⟩ := by
  have e1 : toSize m = 2 ^ 64 - m.natAbs := by
    unfold toSize
    omega
  have hpos : 0 < 2 ^ 64 - m.natAbs := by omega
  unfold fixedSolve
  rw [e1, if_neg (Nat.not_le.mpr hpos), if_neg (by simp [ht])]
  rcases fixedLoop_spec tol resid (2 ^ 64 - m.natAbs) 0 (some 0) with ⟨k', -, hm', -⟩ | ⟨-, e⟩
  · exact absurd hm' (hno _)
  · simp only [e, Nat.zero_add]
    exact ⟨_, rfl⟩

/-- C60: a residual that is not a number ends the run at the limit without the message. -/
theorem C60_nan_silent (m : Int) (h0 : 0 < m) (h1 : m ≤ 2147483647) (tol : K) (ht : 0 < tol) :
    fixedSolve m tol (fun _ => none) = some ⟨m.toNat, false⟩ := by
  obtain ⟨b, h, hb⟩ := C60_limit_partial m h0 h1 tol ht (fun _ => none) (by rintro j - ⟨e, h, -⟩; simp at h)
  have : b = false := by
    cases b with
    | false => rfl
    | true => simp at hb
  rw [h, this]

theorem C60_claim_false : ¬ C60_claim := by
  intro h
  have h1 := (h 1 1 (fun _ => none) (by decide) (by decide) (by norm_num)).2 (by decide) 1 false
    (C60_nan_silent 1 (by decide) (by decide) 1 (by norm_num)) (by rintro j - ⟨e, h, -⟩; simp at h)
  simp at h1

/-- Convergence in the third of at most ten iterations. -/
example : fixedSolve 10 (1 / 100 : ℚ) (fun i => some (1 / 10 ^ i * (1 / 2))) = some ⟨3, false⟩ := by
  refine C60_converges 10 (by decide) (by decide) _ (by norm_num) _ 2 (by decide) ⟨_, rfl, by norm_num⟩ ?_
  intro j hj
  rintro ⟨e, he, hlt⟩
  simp only [Option.some.injEq] at he
  subst he
  match j, hj with
  | 0, _ => norm_num at hlt
  | 1, _ => norm_num at hlt

example : fixedSolve 4 (1 : ℚ) (fun _ => some 2) = some ⟨4, true⟩ := by
  obtain ⟨b, h, hb⟩ := C60_limit_partial 4 (by decide) (by decide) (1 : ℚ) (by norm_num) (fun _ => some 2)
    (by rintro j - ⟨e, h, hlt⟩; simp only [Option.some.injEq] at h; subst h; norm_num at hlt)
  have : b = true := hb.mpr (by simp)
  rw [h, this]
  rfl

end Verif.Solver
