import Verif.Cmfd.LoopModel
import Mathlib.Algebra.Order.Field.Rat
import Mathlib.Algebra.Field.Rat
import Mathlib.Algebra.Order.Ring.Rat
import Mathlib.Tactic.Ring
import Mathlib.Tactic.Linarith
import Mathlib.Tactic.FieldSimp
import Mathlib.Tactic.NormNum
import Mathlib.Tactic.LinearCombination
import Mathlib.Algebra.BigOperators.Ring.Finset

/-!
# C59: the CMFD power iteration
-/

set_option linter.unusedSectionVars false

namespace Verif.Cmfd

variable {K : Type} [Field K] [LinearOrder K]

theorem loop_ind (p : Problem K) (r0 : K) (P : LoopState K → Prop) (hstep : ∀ s, P s → P (p.iteration s)) (n : Nat)
    (s : LoopState K) (h : P s) : P (p.loop r0 n s) := by
  induction n generalizing s with
  | zero => exact hstep s h
  | succ n ih =>
    rw [Problem.loop]
    split
    · exact hstep s h
    · exact ih _ (hstep s h)

/-- **C59, eigenvalue.**  Whatever the linear solver returns, as long as the fission sums do not vanish, `k` grows over
the whole solve by the ratio of the fission sum of the last to that of the first flux. -/
theorem C59_k (p : Problem K) (r0 : K) (fix : Bool) (k : K) (flux : Flux K)
    (h0 : p.totalFission (zeroFix fix flux) ≠ 0) (hs : ∀ fs f, p.totalFission (p.solve fs f).1 ≠ 0) :
    let s := (p.run r0 fix k flux).1
    s.k * p.totalFission (zeroFix fix flux) = k * p.totalFission s.flux := by
  have h := loop_ind p r0 (fun s => s.tfis = p.totalFission s.flux ∧ s.tfis ≠ 0 ∧
      s.k * p.totalFission (zeroFix fix flux) = k * s.tfis) ?_ p.maxIter (p.start k (zeroFix fix flux)) ⟨rfl, h0, rfl⟩
  · have := h.2.2
    rw [h.1] at this
    exact this
  · rintro s ⟨h1, h2, h3⟩
    refine ⟨rfl, hs _ _, ?_⟩
    simp only [Problem.iteration]
    rw [div_mul_eq_mul_div, div_eq_iff h2]
    linear_combination p.totalFission (p.solve (p.fissionSource s.flux s.k) s.flux).1 * h3

/-- **C59, what each iteration does.**  The groups are solved with the fission source of the current flux and `k`; `k`
is scaled by the ratio of the fission sums. -/
theorem C59_iteration (p : Problem K) (s : LoopState K) :
    (p.iteration s).flux = (p.solve (fun i => (∑ g ∈ Finset.range p.nGroup, p.nf i g * s.flux i g) / s.k) s.flux).1 ∧
    (p.iteration s).k = s.k * (p.totalFission (p.iteration s).flux / s.tfis) ∧
    (p.iteration s).tfis = ∑ i ∈ Finset.range p.nCell, ∑ g ∈ Finset.range p.nGroup, p.nf i g * (p.iteration s).flux i g := by
  have e : p.fissionSource s.flux s.k = fun i => (∑ g ∈ Finset.range p.nGroup, p.nf i g * s.flux i g) / s.k := by
    funext i
    unfold Problem.fissionSource
    rw [mul_one_div]
  simp only [Problem.iteration, e]
  exact ⟨trivial, by rw [mul_div_assoc], rfl⟩

/-- **C59, number of iterations (partial)**: between one and one more than `max_iter`, and if fewer than that then the
three criteria hold.  What is missing: at most `max_iter`, `C59_claim_false`. -/
theorem C59_count_partial (p : Problem K) (r0 : K) (fix : Bool) (k : K) (flux : Flux K) :
    let s := (p.run r0 fix k flux).1
    1 ≤ s.iter ∧ s.iter ≤ p.maxIter + 1 ∧
    (s.iter ≤ p.maxIter → |s.k - s.kOld| < p.kTol ∧ s.psiErr < p.psiTol ∧ r0 ≠ 0 ∧ s.ri / r0 < p.residRed) := by
  have key : ∀ n (s : LoopState K), s.iter < (p.loop r0 n s).iter ∧ (p.loop r0 n s).iter ≤ s.iter + n + 1 ∧
      ((p.loop r0 n s).iter ≤ s.iter + n → p.converged r0 (p.loop r0 n s) = true) := by
    intro n
    induction n with
    | zero => intro s; simp [Problem.loop, Problem.iteration]
    | succ n ih =>
      intro s
      rw [Problem.loop]
      split
      · rename_i h
        refine ⟨by simp [Problem.iteration], by simp only [Problem.iteration]; omega, fun _ => h⟩
      · obtain ⟨a, b, c⟩ := ih (p.iteration s)
        have e : (p.iteration s).iter = s.iter + 1 := rfl
        rw [e] at a b c
        refine ⟨by omega, by omega, fun h => c (by omega)⟩
  obtain ⟨a, b, c⟩ := key p.maxIter (p.start k (zeroFix fix flux))
  have e : (p.start k (zeroFix fix flux)).iter = 0 := rfl
  rw [e] at a b c
  refine ⟨a, by rw [Nat.zero_add] at b; exact b, fun h => ?_⟩
  have := c (by rw [Nat.zero_add]; exact h)
  unfold Problem.converged at this
  simp only [Bool.and_eq_true, decide_eq_true_eq] at this
  exact ⟨this.1.1, this.1.2, this.2⟩

/-- C59: if the residual at the start is zero, all the `max_iter + 1` iterations are made. -/
theorem C59_zero_residual (p : Problem K) (fix : Bool) (k : K) (flux : Flux K) : (p.run 0 fix k flux).1.iter = p.maxIter + 1 := by
  obtain ⟨-, h2, h3⟩ := C59_count_partial p 0 fix k flux
  by_contra h
  exact (h3 (by omega)).2.2.1 rfl

/-- State after `n` iterations. -/
def Problem.after (p : Problem K) (s : LoopState K) : Nat → LoopState K
  | 0 => s
  | n + 1 => p.iteration (p.after s n)

/-- The criteria for stopping after iteration `n + 1`: the change of `k` over that iteration, the change of the fission source,
and the residual in relation to the initial one, which must not be zero. -/
def Problem.Stop (p : Problem K) (r0 : K) (s : LoopState K) (n : Nat) : Prop :=
  |(p.after s (n + 1)).k - (p.after s n).k| < p.kTol ∧ (p.after s (n + 1)).psiErr < p.psiTol ∧ r0 ≠ 0 ∧
    (p.after s (n + 1)).ri / r0 < p.residRed

/-- **C59, stopping rule.**  The result is the state after the first iteration that meets the criteria, or after `max_iter + 1`
iterations if none of the first `max_iter` does. -/
theorem C59_stops (p : Problem K) (r0 : K) (fix : Bool) (k : K) (flux : Flux K) :
    ∃ n, n ≤ p.maxIter ∧ (p.run r0 fix k flux).1 = p.after (p.start k (zeroFix fix flux)) (n + 1) ∧
      (n < p.maxIter → p.Stop r0 (p.start k (zeroFix fix flux)) n) ∧
      ∀ j, j < n → ¬ p.Stop r0 (p.start k (zeroFix fix flux)) j := by
  have shift : ∀ n (s : LoopState K), p.after (p.iteration s) n = p.after s (n + 1) := by
    intro n
    induction n with
    | zero => intro s; rfl
    | succ n ih => intro s; rw [Problem.after, ih]; rfl
  have stop_iff : ∀ (s : LoopState K), p.Stop r0 s 0 ↔ p.converged r0 (p.iteration s) = true := by
    intro s
    unfold Problem.Stop Problem.converged
    simp only [Problem.after, Bool.and_eq_true, decide_eq_true_eq, and_assoc]
    rfl
  have stop_shift : ∀ n (s : LoopState K), p.Stop r0 (p.iteration s) n ↔ p.Stop r0 s (n + 1) := by
    intro n s
    unfold Problem.Stop
    rw [shift, shift]
  have key : ∀ m (s : LoopState K), ∃ n, n ≤ m ∧ p.loop r0 m s = p.after s (n + 1) ∧
      (n < m → p.Stop r0 s n) ∧ ∀ j, j < n → ¬ p.Stop r0 s j := by
    intro m
    induction m with
    | zero => intro s; exact ⟨0, le_refl _, rfl, fun h => absurd h (lt_irrefl _), fun j h => absurd h (Nat.not_lt_zero _)⟩
    | succ m ih =>
      intro s
      rw [Problem.loop]
      split
      · rename_i h
        exact ⟨0, Nat.zero_le _, rfl, fun _ => (stop_iff s).mpr h, fun j h => absurd h (Nat.not_lt_zero _)⟩
      · rename_i h
        obtain ⟨n, a, b, c, d⟩ := ih (p.iteration s)
        refine ⟨n + 1, by omega, by rw [b, shift], fun hn => (stop_shift n s).mp (c (by omega)), ?_⟩
        intro j hj
        cases j with
        | zero => exact fun hc => h ((stop_iff s).mp hc)
        | succ j => exact fun hc => d j (by omega) ((stop_shift j s).mpr hc)
  exact key p.maxIter _

/-- **C59, first iteration**: the change of the fission source is measured before the new flux is used, so it is zero in
the first iteration. -/
theorem C59_first_change (p : Problem K) (k : K) (flux : Flux K) :
    (p.iteration (p.start k flux)).psiErr = p.sqrt 0 := by
  simp [Problem.iteration, Problem.start]

/-- In the following iterations it compares the sources at the start of this and of the previous iteration. -/
theorem C59_later_change (p : Problem K) (s : LoopState K) :
    (p.iteration (p.iteration s)).psiErr = p.sqrt (∑ i ∈ Finset.range p.nCell,
      (p.fissionSource (p.iteration s).flux (p.iteration s).k i - p.fissionSource s.flux s.k i) ^ 2) := by
  simp only [Problem.iteration, pow_two]

section
variable [IsStrictOrderedRing K]

/-- **C59, no negative flux is left**: where the solution is not negative it is kept, elsewhere its sign changes. -/
theorem C59_nonneg (p : Problem K) (r0 : K) (fix : Bool) (k : K) (flux : Flux K) (i g : Nat) :
    let r := p.run r0 fix k flux
    r.2 i g = |r.1.flux i g| := by
  simp only [Problem.run, flip]
  split
  · rename_i h; rw [abs_of_neg h]
  · rename_i h; rw [abs_of_nonneg (not_lt.mp h)]

/-- **C59, a solution is kept.**  If the flux is not negative, the solver returns it unchanged for its own fission
source, with a residual small enough, then one iteration is made and neither flux nor `k` changes. -/
theorem C59_fixed (p : Problem K) (r0 : K) (fix : Bool) (k : K) (flux : Flux K) (hpos : ∀ i g, 0 ≤ flux i g)
    (h0 : p.totalFission flux ≠ 0)
    (hsol : (p.solve (fun i => (∑ g ∈ Finset.range p.nGroup, p.nf i g * flux i g) / k) flux).1 = flux)
    (hres : (p.solve (fun i => (∑ g ∈ Finset.range p.nGroup, p.nf i g * flux i g) / k) flux).2 / r0 < p.residRed)
    (hr0 : r0 ≠ 0) (hsq : p.sqrt 0 = 0) (hk : 0 < p.kTol) (hp : 0 < p.psiTol) :
    (p.run r0 fix k flux).1.iter = 1 ∧ (p.run r0 fix k flux).1.k = k ∧ (p.run r0 fix k flux).2 = flux := by
  have hz : zeroFix fix flux = flux := by
    funext i g
    unfold zeroFix
    split
    · exact max_eq_left (hpos i g)
    · rfl
  have hf : flip flux = flux := by
    funext i g
    unfold flip
    rw [if_neg (not_lt.mpr (hpos i g))]
  have e : p.fissionSource flux k = fun i => (∑ g ∈ Finset.range p.nGroup, p.nf i g * flux i g) / k := by
    funext i
    unfold Problem.fissionSource
    rw [mul_one_div]
  rw [← e] at hsol hres
  have hflux : (p.iteration (p.start k flux)).flux = flux := hsol
  have hkk : (p.iteration (p.start k flux)).k = k := by
    change k * p.totalFission (p.solve (p.fissionSource flux k) flux).1 / p.totalFission flux = k
    rw [hsol]
    field_simp
  have hc : p.converged r0 (p.iteration (p.start k flux)) = true := by
    unfold Problem.converged
    rw [C59_first_change, hsq, hkk]
    have : (p.iteration (p.start k flux)).kOld = k := rfl
    rw [this]
    simp only [sub_self, abs_zero, hk, hp, decide_true, Bool.true_and, decide_eq_true_eq]
    exact ⟨hr0, hres⟩
  have hl : p.loop r0 p.maxIter (p.start k flux) = p.iteration (p.start k flux) := by
    cases hm : p.maxIter with
    | zero => rfl
    | succ n => rw [Problem.loop, if_pos hc]
  unfold Problem.run
  rw [hz, hl]
  exact ⟨rfl, hkk, by simp only [hflux, hf]⟩
end

/-- The claim about the number of iterations. -/
def C59_claim (K : Type) [Field K] [LinearOrder K] : Prop :=
  ∀ (p : Problem K) (r0 : K) (fix : Bool) (k : K) (flux : Flux K), 0 < p.maxIter →
    (p.run r0 fix k flux).1.iter ≤ p.maxIter

/-- One cell and one group; the solver adds one to the flux. -/
def growing (n : Nat) : Problem ℚ where
  nCell := 1
  nGroup := 1
  nf := fun _ _ => 1
  kTol := 1/100
  psiTol := 1/100
  residRed := 1/10
  maxIter := n
  sqrt := fun x => x
  solve := fun _ f => (fun i g => f i g + 1, 1)

theorem C59_claim_false : ¬ C59_claim ℚ := by
  intro h
  have := h (growing 1) 1 false 1 (fun _ _ => 1) (by decide)
  have e : ((growing 1).run 1 false 1 (fun _ _ => 1)).1.iter = 2 := by decide +kernel
  rw [e] at this
  exact absurd this (by decide)

/-- Neutron production of the domain. -/
def Problem.production (p : Problem K) (vol : Nat → K) (flux : Flux K) : K :=
  ∑ i ∈ Finset.range p.nCell, vol i * ∑ g ∈ Finset.range p.nGroup, p.nf i g * flux i g

/-- The claim that `k` is scaled by the ratio of neutron productions. -/
def C59_production_claim (K : Type) [Field K] [LinearOrder K] : Prop :=
  ∀ (p : Problem K) (vol : Nat → K) (s : LoopState K), (∀ i, 0 < vol i) → s.tfis = p.totalFission s.flux →
    (p.iteration s).k * p.production vol s.flux = s.k * p.production vol (p.iteration s).flux

/-- It holds if all cells have the same volume. -/
theorem C59_production_partial (p : Problem K) (v : K) (s : LoopState K) (hs : s.tfis = p.totalFission s.flux)
    (hne : s.tfis ≠ 0) :
    (p.iteration s).k * p.production (fun _ => v) s.flux = s.k * p.production (fun _ => v) (p.iteration s).flux := by
  have e : ∀ f, p.production (fun _ => v) f = v * p.totalFission f := by
    intro f
    unfold Problem.production Problem.totalFission
    rw [Finset.mul_sum]
  rw [e, e, ← hs]
  simp only [Problem.iteration]
  field_simp

/-- It holds if the new flux has the shape of the old one. -/
theorem C59_production_shape_partial (p : Problem K) (vol : Nat → K) (s : LoopState K)
    (hs : s.tfis = p.totalFission s.flux) (hne : s.tfis ≠ 0) (c : K)
    (hc : (p.iteration s).flux = fun i g => c * s.flux i g) :
    (p.iteration s).k * p.production vol s.flux = s.k * p.production vol (p.iteration s).flux := by
  have e1 : p.totalFission (p.iteration s).flux = c * s.tfis := by
    rw [hc, hs]
    unfold Problem.totalFission
    simp only [Finset.mul_sum]
    exact Finset.sum_congr rfl fun i _ => Finset.sum_congr rfl fun g _ => by ring
  have e2 : p.production vol (p.iteration s).flux = c * p.production vol s.flux := by
    rw [hc]
    unfold Problem.production
    simp only [Finset.mul_sum]
    exact Finset.sum_congr rfl fun i _ => Finset.sum_congr rfl fun g _ => by ring
  rw [(C59_iteration p s).2.1, e1, e2]
  field_simp

/-- Two cells; the solver moves the flux from the second to the first. -/
def moving : Problem ℚ where
  nCell := 2
  nGroup := 1
  nf := fun _ _ => 1
  kTol := 1/100
  psiTol := 1/100
  residRed := 1/10
  maxIter := 5
  sqrt := fun x => x
  solve := fun _ _ => (fun i _ => if i = 0 then 3 else 1, 0)

/-- With cells of different volume the ratio is not that of the productions. -/
theorem C59_production_claim_false : ¬ C59_production_claim ℚ := by
  intro h
  have := h moving (fun i => if i = 0 then 1 else 2) (moving.start 1 (fun _ _ => 2))
    (fun i => by split <;> norm_num) rfl
  have e1 : (moving.iteration (moving.start 1 (fun _ _ => 2))).k = 1 := by decide +kernel
  have e2 : moving.production (fun i => if i = 0 then 1 else 2) (moving.start 1 (fun _ _ => 2)).flux = 6 := by
    decide +kernel
  have e3 : moving.production (fun i => if i = 0 then 1 else 2) (moving.iteration (moving.start 1 (fun _ _ => 2))).flux = 5 := by
    decide +kernel
  rw [e1, e2, e3] at this
  revert this
  change ¬ ((1 : ℚ) * 6 = 1 * 5)
  norm_num

example : moving.totalFission (zeroFix true (fun i _ => if i = 0 then (-1 : ℚ) else 2)) ≠ 0 ∧
    ∀ fs f, moving.totalFission (moving.solve fs f).1 ≠ 0 := by
  refine ⟨by decide +kernel, fun fs f => ?_⟩
  have : moving.totalFission (moving.solve fs f).1 = 4 := by
    simp [moving, Problem.totalFission, Finset.sum_range_succ]; norm_num
  rw [this]; norm_num

end Verif.Cmfd
