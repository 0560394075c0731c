import Verif.Solver.Model
import Mathlib.Data.List.Perm.Basic
import Mathlib.Tactic.Linarith
import Mathlib.Algebra.Order.Ring.Int
import Mathlib.Algebra.Order.Ring.Rat

/-! # C45, C46: solver loops -/

namespace Verif.Solver

/-! ## C45 -/

theorem mcSteps_spec (a : Bool) (k : Nat) (c : Int) :
    (mcSteps a k c).1 = c + k ∧ (mcSteps a k c).2 = (List.range k).map (fun i => ⟨c + i + 1, a⟩) := by
  induction k generalizing c with
  | zero => simp [mcSteps]
  | succ k ih =>
    obtain ⟨h1, h2⟩ := ih (c + 1)
    refine ⟨by simp only [mcSteps, h1]; push_cast; omega, ?_⟩
    simp only [mcSteps, h2, List.range_succ_eq_map, List.map_cons, List.map_map]
    congr 1
    · simp
    · apply List.map_congr_left
      intro i _
      simp only [Function.comp, CycleRec.mk.injEq, and_true]
      push_cast; omega

/-- C45 (what holds): the requested number of cycles is inactive, they come first and are numbered up to zero, and
they are followed by active cycles numbered from one. What is missing: the number of active cycles is one more than
requested. -/
theorem C45_inactive_partial (nCycles nInactive : Int) (h0 : 0 ≤ nInactive) (hc : 0 ≤ nCycles) (hmax : nCycles ≤ 2147483646) :
    mcSolve nCycles nInactive = some
      ((List.range nInactive.toNat).map (fun i => ⟨-nInactive + i + 1, false⟩) ++
       (List.range (nCycles - nInactive + 1).toNat).map (fun i => ⟨(i : Int) + 1, true⟩)) := by
  unfold mcSolve
  simp only [mcSteps_spec]
  rw [if_neg (by omega)]
  congr 2
  apply List.map_congr_left
  intro i _
  simp only [CycleRec.mk.injEq, and_true]
  omega

/-- The full claim: exactly `cycles` cycles of which `inactive_cycles` are inactive. -/
def C45_claim : Prop := ∀ nCycles nInactive : Int, 0 ≤ nInactive → nInactive ≤ nCycles → nCycles ≤ 2147483646 →
  ∃ l, mcSolve nCycles nInactive = some l ∧ (l.length : Int) = nCycles ∧
    ((l.filter (fun r => !r.active)).length : Int) = nInactive

/-- C45: the number of cycles run. -/
theorem C45_total (nCycles nInactive : Int) (h0 : 0 ≤ nInactive) (hc : 0 ≤ nCycles) (hmax : nCycles ≤ 2147483646) :
    ∃ l, mcSolve nCycles nInactive = some l ∧
      (l.length : Int) = if nInactive ≤ nCycles then nCycles + 1 else nInactive := by
  refine ⟨_, C45_inactive_partial nCycles nInactive h0 hc hmax, ?_⟩
  simp only [List.length_append, List.length_map, List.length_range]
  split <;> omega

/-- C45: the number of cycles run is never the requested one. -/
theorem C45_never (nCycles nInactive : Int) (h0 : 0 ≤ nInactive) (hc : 0 ≤ nCycles) (hmax : nCycles ≤ 2147483646)
    (l : List CycleRec) (h : mcSolve nCycles nInactive = some l) : (l.length : Int) ≠ nCycles := by
  obtain ⟨l', h1, h2⟩ := C45_total nCycles nInactive h0 hc hmax
  rw [h] at h1
  obtain rfl := Option.some.inj h1
  rw [h2]
  split <;> omega

theorem C45_claim_false : ¬ C45_claim := by
  intro h
  obtain ⟨l, h1, h2, -⟩ := h 5 2 (by omega) (by omega) (by omega)
  exact C45_never 5 2 (by omega) (by omega) (by omega) l h1 h2

/-- C45: with the largest number of cycles and no inactive ones the count overflows. -/
theorem C45_overflow : mcSolve 2147483647 0 = none := by decide

example : mcSolve 2 1 = some [⟨0, false⟩, ⟨1, true⟩, ⟨2, true⟩] := by decide

/-! ## C46 -/

variable {K : Type} [LinearOrder K]

/-- Both criteria are met in iteration `n` (counted from zero). -/
def Converged (s : Settings K) (r : Iter K) : Prop :=
  ∃ a b, r.errK = some a ∧ r.errPsi = some b ∧ a < s.tolK ∧ b < s.tolPsi

theorem below_iff (e : Option K) (t : K) : below e t = true ↔ ∃ a, e = some a ∧ a < t := by
  cases e <;> simp [below]

theorem converged_iff (s : Settings K) (r : Iter K) :
    (below r.errK s.tolK && below r.errPsi s.tolPsi) = true ↔ Converged s r := by
  rw [Bool.and_eq_true, below_iff, below_iff]
  constructor
  · rintro ⟨⟨a, h1, h2⟩, b, h3, h4⟩; exact ⟨a, b, h1, h3, h2, h4⟩
  · rintro ⟨a, b, h1, h3, h2, h4⟩; exact ⟨⟨a, h1, h2⟩, b, h3, h4⟩

/-- The loop stops at the first iteration `m ≥ n` with a reason, or at the limit. -/
theorem eigenLoop_stop (s : Settings K) (it : Nat → Iter K) (fuel n : Nat) (rest : List Int) (next : Nat) (dumps : List Nat) :
    let r := eigenLoop s it fuel n rest next dumps
    n ≤ r.performed ∧ r.performed ≤ n + fuel ∧
    (r.stop = .limit → r.performed = n + fuel) ∧
    (r.stop ≠ .limit → n < r.performed) ∧
    (r.stop = .converged → Converged s (it (r.performed - 1)) ∧ s.minIter < r.performed ∧ (it (r.performed - 1)).nan = false) ∧
    (r.stop = .notANumber → (it (r.performed - 1)).nan = true) ∧
    (∀ m, n ≤ m → m + 1 < r.performed → (it m).nan = false ∧ (s.minIter ≤ m → ¬ Converged s (it m))) ∧
    (r.stop = .limit → ∀ m, n ≤ m → m < r.performed → (it m).nan = false ∧ (s.minIter ≤ m → ¬ Converged s (it m))) := by
  induction fuel generalizing n rest next dumps with
  | zero =>
    simp only [eigenLoop]
    refine ⟨Nat.le_refl _, Nat.le_refl _, fun _ => rfl, by simp, by simp, by simp, ?_, ?_⟩
    · intro m h1 h2; omega
    · intro _ m h1 h2; omega
  | succ fuel ih =>
    simp only [eigenLoop]
    by_cases hnan : (it n).nan = true
    · rw [if_pos hnan]
      refine ⟨by simp, by simp, by simp, by simp, by simp, by simpa using hnan, ?_, by simp⟩
      intro m h1 h2; simp at h2; omega
    · rw [if_neg hnan]
      have hnan' : (it n).nan = false := by simpa using hnan
      by_cases hconv : (below (it n).errK s.tolK && below (it n).errPsi s.tolPsi && decide (s.minIter ≤ n)) = true
      · rw [if_pos hconv]
        rw [Bool.and_eq_true, converged_iff, decide_eq_true_eq] at hconv
        refine ⟨by simp, by simp, by simp, by simp, ?_, by simp, ?_, by simp⟩
        · intro _; simp; exact ⟨hconv.1, by omega, hnan'⟩
        · intro m h1 h2; simp at h2; omega
      · rw [if_neg hconv]
        have hnc : s.minIter ≤ n → ¬ Converged s (it n) := by
          intro hm hc
          apply hconv
          rw [Bool.and_eq_true, converged_iff, decide_eq_true_eq]
          exact ⟨hc, hm⟩
        obtain ⟨a1, a2, a3, a4, a5, a6, a7, a8⟩ := ih (n + 1)
          (if decide (n + 1 = next) = true then rest.tail else rest)
          (if decide (n + 1 = next) = true then nextDump rest.tail else next)
          (if decide (n + 1 = next) = true then dumps ++ [n + 1] else dumps)
        refine ⟨by omega, by omega, fun h => by rw [a3 h]; omega, fun h => by have := a4 h; omega, a5, a6, ?_, ?_⟩
        · intro m h1 h2
          rcases Nat.eq_or_lt_of_le h1 with h | h
          · rw [← h]; exact ⟨hnan', hnc⟩
          · exact a7 m h h2
        · intro hl m h1 h2
          rcases Nat.eq_or_lt_of_le h1 with h | h
          · rw [← h]; exact ⟨hnan', hnc⟩
          · exact a8 hl m h h2

/-- C46: at most `max` iterations, and all of them unless it converged or gave up. -/
theorem C46_max (s : Settings K) (req : List Int) (it : Nat → Iter K) :
    (eigenSolve s req it).performed ≤ s.maxIter ∧
    ((eigenSolve s req it).stop = .limit → (eigenSolve s req it).performed = s.maxIter) := by
  obtain ⟨-, h1, h2, -⟩ := eigenLoop_stop s it s.maxIter 0 (sortInt req) (firstDump (sortInt req)) []
  rw [Nat.zero_add] at h1 h2
  exact ⟨h1, h2⟩

/-- C46: at least `min` iterations (one more than `min` when it stops early), provided `min ≤ max` (checked by the
constructor) and the eigenvalue stays a number. -/
theorem C46_min (s : Settings K) (req : List Int) (it : Nat → Iter K) (hm : s.minIter ≤ s.maxIter)
    (hn : ∀ n, (it n).nan = false) :
    s.minIter ≤ (eigenSolve s req it).performed ∧
    ((eigenSolve s req it).performed < s.maxIter → s.minIter + 1 ≤ (eigenSolve s req it).performed) := by
  obtain ⟨-, -, h2, -, h4, h5, -⟩ := eigenLoop_stop s it s.maxIter 0 (sortInt req) (firstDump (sortInt req)) []
  cases hs : (eigenLoop s it s.maxIter 0 (sortInt req) (firstDump (sortInt req)) []).stop with
  | limit =>
    have := h2 hs
    rw [Nat.zero_add] at this
    change s.minIter ≤ (eigenLoop s it s.maxIter 0 (sortInt req) (firstDump (sortInt req)) []).performed ∧
      ((eigenLoop s it s.maxIter 0 (sortInt req) (firstDump (sortInt req)) []).performed < s.maxIter → s.minIter + 1 ≤
        (eigenLoop s it s.maxIter 0 (sortInt req) (firstDump (sortInt req)) []).performed)
    exact ⟨by omega, fun h => by omega⟩
  | converged =>
    have := h4 hs
    change s.minIter ≤ (eigenLoop s it s.maxIter 0 (sortInt req) (firstDump (sortInt req)) []).performed ∧
      ((eigenLoop s it s.maxIter 0 (sortInt req) (firstDump (sortInt req)) []).performed < s.maxIter → s.minIter + 1 ≤
        (eigenLoop s it s.maxIter 0 (sortInt req) (firstDump (sortInt req)) []).performed)
    exact ⟨by omega, fun h => by omega⟩
  | notANumber =>
    have := h5 hs
    rw [hn] at this
    exact absurd this (by simp)

/-- C46: it stops before the limit only when in the last iteration both criteria were met, or when the eigenvalue is not
a number (an exception). -/
theorem C46_stops_only_converged (s : Settings K) (req : List Int) (it : Nat → Iter K)
    (h : (eigenSolve s req it).performed < s.maxIter) :
    (Converged s (it ((eigenSolve s req it).performed - 1)) ∧ (it ((eigenSolve s req it).performed - 1)).nan = false) ∨
    ((eigenSolve s req it).stop = .notANumber ∧ (it ((eigenSolve s req it).performed - 1)).nan = true) := by
  obtain ⟨-, -, h2, -, h4, h5, -⟩ := eigenLoop_stop s it s.maxIter 0 (sortInt req) (firstDump (sortInt req)) []
  cases hs : (eigenLoop s it s.maxIter 0 (sortInt req) (firstDump (sortInt req)) []).stop with
  | limit =>
    have := h2 hs
    rw [Nat.zero_add] at this
    change (eigenLoop s it s.maxIter 0 (sortInt req) (firstDump (sortInt req)) []).performed < s.maxIter at h
    omega
  | converged => exact Or.inl ⟨(h4 hs).1, (h4 hs).2.2⟩
  | notANumber => exact Or.inr ⟨hs, h5 hs⟩

/-- C46: it does not go on after an iteration past the minimum in which both criteria were met. -/
theorem C46_stops_when_converged (s : Settings K) (req : List Int) (it : Nat → Iter K) (m : Nat)
    (h : m + 1 < (eigenSolve s req it).performed) (hm : s.minIter ≤ m) : ¬ Converged s (it m) := by
  obtain ⟨-, -, -, -, -, -, h6, -⟩ := eigenLoop_stop s it s.maxIter 0 (sortInt req) (firstDump (sortInt req)) []
  exact (h6 m (Nat.zero_le _) h).2 hm

/-! ### dumps -/

theorem insertInt_perm (x : Int) (l : List Int) : (insertInt x l).Perm (x :: l) := by
  induction l with
  | nil => exact .refl _
  | cons y l ih =>
    unfold insertInt
    split
    · exact .refl _
    · exact ((ih.cons y).trans (.swap x y l))

theorem insertInt_sorted (x : Int) (l : List Int) (h : l.Pairwise (· ≤ ·)) : (insertInt x l).Pairwise (· ≤ ·) := by
  induction l with
  | nil => simp [insertInt]
  | cons y l ih =>
    have hy := List.pairwise_cons.mp h
    unfold insertInt
    split
    · rename_i hxy
      refine List.pairwise_cons.mpr ⟨fun z hz => ?_, h⟩
      rcases List.mem_cons.mp hz with rfl | hz
      · exact hxy
      · exact le_trans hxy (hy.1 z hz)
    · rename_i hxy
      refine List.pairwise_cons.mpr ⟨fun z hz => ?_, ih hy.2⟩
      rcases List.mem_cons.mp ((insertInt_perm x l).subset hz) with rfl | hz
      · omega
      · exact hy.1 z hz

theorem sortInt_spec (l : List Int) : (sortInt l).Perm l ∧ (sortInt l).Pairwise (· ≤ ·) := by
  induction l with
  | nil => exact ⟨.refl _, .nil⟩
  | cons x l ih =>
    refine ⟨(insertInt_perm x _).trans (ih.1.cons x), insertInt_sorted x _ ih.2⟩

theorem eigenLoop_dumps (s : Settings K) (it : Nat → Iter K) (fuel n : Nat) (rest : List Int) (next : Nat) (dumps : List Nat)
    (hf : n + fuel < 2147483647)
    (hlt : rest.Pairwise (· < ·)) (hpos : ∀ d ∈ rest, (n : Int) < d ∧ d < 4294967296)
    (hnext : (rest = [] ∧ 2147483647 ≤ next) ∨ (∃ d t, rest = d :: t ∧ next = toUnsigned d)) :
    let r := eigenLoop s it fuel n rest next dumps
    r.dumps = dumps ++ (rest.filter (fun d => decide (d ≤ (r.performed : Int)))).map Int.toNat := by
  induction fuel generalizing n rest next dumps with
  | zero =>
    have hp : (eigenLoop s it 0 n rest next dumps).performed = n := rfl
    have hd' : (eigenLoop s it 0 n rest next dumps).dumps = dumps := rfl
    change (eigenLoop s it 0 n rest next dumps).dumps = dumps ++ (rest.filter
      (fun d => decide (d ≤ ((eigenLoop s it 0 n rest next dumps).performed : Int)))).map Int.toNat
    rw [hp, hd', List.filter_eq_nil_iff.mpr]
    · simp
    · intro d hd
      have := (hpos d hd).1
      simp only [decide_eq_true_eq]; omega
  | succ fuel ih =>
    obtain ⟨-, hperf, -⟩ := eigenLoop_stop s it (fuel + 1) n rest next dumps
    have hperf0 : (eigenLoop s it (fuel + 1) n rest next dumps).performed ≥ n + 1 := by
      obtain ⟨h1, -, h3, h4, -⟩ := eigenLoop_stop s it (fuel + 1) n rest next dumps
      by_cases hl : (eigenLoop s it (fuel + 1) n rest next dumps).stop = .limit
      · rw [h3 hl]; omega
      · exact h4 hl
    -- value of next when there is a head
    have hval : ∀ d t, rest = d :: t → next = d.toNat := by
      intro d t hdt
      rcases hnext with ⟨h, -⟩ | ⟨d', t', h, h'⟩
      · rw [h] at hdt; exact absurd hdt (by simp)
      · rw [hdt] at h
        obtain ⟨rfl, rfl⟩ := List.cons.inj h
        have := hpos d (by rw [hdt]; simp)
        rw [h', toUnsigned]
        congr 1
        omega
    by_cases hd : n + 1 = next
    · -- the head of rest is n + 1
      obtain ⟨d, t, rfl, hdv⟩ : ∃ d t, rest = d :: t ∧ d = (n : Int) + 1 := by
        rcases hnext with ⟨-, h⟩ | ⟨d, t, h, h'⟩
        · omega
        · refine ⟨d, t, h, ?_⟩
          have h1 := hval d t h
          have h2 := hpos d (by rw [h]; simp)
          omega
      have ht := List.pairwise_cons.mp hlt
      have hrest : (t = [] ∧ 2147483647 ≤ nextDump t) ∨ (∃ d' t', t = d' :: t' ∧ nextDump t = toUnsigned d') := by
        cases t with
        | nil => left; exact ⟨rfl, by simp [nextDump]⟩
        | cons d' t' => right; exact ⟨d', t', rfl, rfl⟩
      have hpos' : ∀ e ∈ t, ((n + 1 : Nat) : Int) < e ∧ e < 4294967296 := by
        intro e he
        have h1 := ht.1 e he
        have h2 := hpos e (List.mem_cons_of_mem _ he)
        push_cast
        omega
      have hfilt : ∀ m : Nat, n + 1 ≤ m → ((d :: t).filter (fun d => decide (d ≤ (m : Int)))).map Int.toNat =
          (n + 1) :: (t.filter (fun d => decide (d ≤ (m : Int)))).map Int.toNat := by
        intro m hm
        have : decide (d ≤ (m : Int)) = true := by simp; omega
        rw [List.filter_cons, this]
        simp only [if_true, List.map_cons]
        congr 1
        omega
      have hend : ∀ m : Nat, m = n + 1 → (t.filter (fun d => decide (d ≤ (m : Int)))).map Int.toNat = [] := by
        intro m hm
        rw [List.filter_eq_nil_iff.mpr]
        · rfl
        · intro e he
          have := (hpos' e he).1
          simp; omega
      intro r
      rw [hfilt r.performed hperf0]
      simp only [r, eigenLoop, hd, decide_true, if_true, List.tail_cons]
      rw [← hd]
      split
      · simp only [hend (n + 1) rfl]
      · split
        · simp only [hend (n + 1) rfl]
        · have := ih (n + 1) t (nextDump t) (dumps ++ [n + 1]) (by omega) ht.2 hpos' hrest
          simp only at this
          rw [this]
          simp
    · -- no dump in this iteration
      have hne : ∀ e ∈ rest, ((n + 1 : Nat) : Int) < e ∧ e < 4294967296 := by
        intro e he
        have h2 := hpos e he
        refine ⟨?_, h2.2⟩
        cases hr : rest with
        | nil => rw [hr] at he; simp at he
        | cons d t =>
          have h3 := hval d t hr
          have h4 := hpos d (by rw [hr]; simp)
          have h5 : ((n + 1 : Nat) : Int) < d := by push_cast; omega
          rw [hr] at he hlt
          rcases List.mem_cons.mp he with rfl | he
          · exact h5
          · exact lt_trans h5 ((List.pairwise_cons.mp hlt).1 e he)
      have hend : (rest.filter (fun d => decide (d ≤ ((n + 1 : Nat) : Int)))).map Int.toNat = [] := by
        rw [List.filter_eq_nil_iff.mpr]
        · rfl
        · intro e he
          have := (hne e he).1
          simp only [decide_eq_true_eq]; omega
      intro r
      simp only [r, eigenLoop, hd, decide_false, Bool.false_eq_true, if_false]
      split
      · simp only [hend, List.append_nil]
      · split
        · simp only [hend, List.append_nil]
        · exact ih (n + 1) rest next dumps (by omega) hlt hne hnext

/-- C46: when the requested iterations are positive and no iteration is requested twice, exactly the requested
iterations that are performed are dumped, in increasing order. What is missing from the full claim: repeated, zero or negative requests. -/
theorem C46_dumps_partial (s : Settings K) (req : List Int) (it : Nat → Iter K) (hmax : s.maxIter < 2147483647)
    (hpos : ∀ d ∈ req, 0 < d ∧ d < 2147483648) (hnd : req.Nodup) :
    (eigenSolve s req it).dumps =
      ((sortInt req).filter (fun d => decide (d ≤ ((eigenSolve s req it).performed : Int)))).map Int.toNat := by
  obtain ⟨hp, hs⟩ := sortInt_spec req
  have hlt : (sortInt req).Pairwise (· < ·) := by
    have h1 := hs.and (hp.nodup_iff.mpr hnd)
    refine h1.imp ?_
    intro a b h
    exact lt_of_le_of_ne h.1 h.2
  have := eigenLoop_dumps s it s.maxIter 0 (sortInt req) (firstDump (sortInt req)) [] (by omega) hlt
    (by intro d hd; have := hpos d (hp.subset hd); constructor <;> push_cast <;> omega)
    (by cases h : sortInt req with
        | nil => left; exact ⟨rfl, by simp [firstDump]⟩
        | cons d t => right; exact ⟨d, t, rfl, rfl⟩)
  exact this.trans (List.nil_append _)

/-- C46: as a membership statement. -/
theorem C46_dumps_exactly_partial (s : Settings K) (req : List Int) (it : Nat → Iter K) (hmax : s.maxIter < 2147483647)
    (hpos : ∀ d ∈ req, 0 < d ∧ d < 2147483648) (hnd : req.Nodup) (n : Nat) :
    n ∈ (eigenSolve s req it).dumps ↔ (n : Int) ∈ req ∧ n ≤ (eigenSolve s req it).performed := by
  rw [C46_dumps_partial s req it hmax hpos hnd, List.mem_map]
  have hp := (sortInt_spec req).1
  constructor
  · rintro ⟨d, hd, rfl⟩
    rw [List.mem_filter, decide_eq_true_eq] at hd
    have hd' := hp.subset hd.1
    have := hpos d hd'
    have e : ((d.toNat : Nat) : Int) = d := by omega
    rw [e]
    exact ⟨hd', by omega⟩
  · rintro ⟨h1, h2⟩
    refine ⟨n, ?_, by simp⟩
    rw [List.mem_filter, decide_eq_true_eq]
    exact ⟨hp.symm.subset h1, by exact_mod_cast h2⟩

/-- The full claim about dumps: every requested iteration that is performed is dumped. -/
def C46_dumps_claim : Prop := ∀ (s : Settings ℚ) (req : List Int) (it : Nat → Iter ℚ) (n : Nat), 0 < n → (n : Int) ∈ req →
  n ≤ (eigenSolve s req it).performed → n ∈ (eigenSolve s req it).dumps

/-- C46: with an iteration requested twice, later requests are never served: of 1, 1 and 3 only the first is dumped. -/
theorem C46_dumps_claim_false : ¬ C46_dumps_claim := by
  intro h
  have := h ⟨1, 1, 0, 4⟩ [1, 1, 3] (fun _ => ⟨none, none, false⟩) 3 (by decide) (by decide) (by decide)
  revert this
  decide

/-- C46: likewise after a request for iteration zero. -/
theorem C46_zero_request : (eigenSolve (⟨1, 1, 0, 4⟩ : Settings ℚ) [0, 3] (fun _ => ⟨none, none, false⟩)).dumps = [] := by
  decide

/-- A run that converges in its third iteration with a minimum of two, and dumps iterations 1 and 3 of 1, 3, 7. -/
example : eigenSolve (⟨1, 1, 2, 10⟩ : Settings ℚ) [7, 1, 3] (fun _ => ⟨some 0, some 0, false⟩) = ⟨3, [1, 3], .converged⟩ := by
  decide

end Verif.Solver
