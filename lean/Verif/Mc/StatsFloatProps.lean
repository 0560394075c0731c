import Verif.Mc.StatsFloatModel
import Verif.Fp.RoundLemmas
import Verif.Mc.TallyProps
import Mathlib.Algebra.Order.Floor.Ring
import Mathlib.Algebra.BigOperators.Group.List.Basic

/-!
# C130: random numbers and tallies in doubles
-/

namespace Verif.Mc

open Verif.Fp

section

variable {K : Type} [Field K] [LinearOrder K] [IsStrictOrderedRing K]

/-- C130: whatever the rounding, `random(ubound)` is in the closed interval, and `random(lbound, ubound)` is not below its lower bound. -/
theorem C130_range (rnd : K → K) (R : Rounding rnd) (lb ub r : K) (hl : rnd lb = lb) (hu : rnd ub = ub) (hlu : lb ≤ ub) (h0 : 0 ≤ r) (h1 : r ≤ 1) :
    (0 ≤ ub → 0 ≤ randomBelowF rnd ub r ∧ randomBelowF rnd ub r ≤ ub) ∧ lb ≤ randomRangeF rnd lb ub r ∧ randomRangeF rnd lb ub r ≤ rnd (lb + rnd (ub - lb)) ∧
      (lb = 0 → randomRangeF rnd lb ub r ≤ ub) := by
  have z : ∀ x, 0 ≤ x → 0 ≤ rnd x := fun x hx => R.zero.symm.le.trans (R.mono 0 x hx)
  have d0 : 0 ≤ rnd (ub - lb) := z _ (by linarith)
  have p0 : 0 ≤ rnd (rnd (ub - lb) * r) := z _ (mul_nonneg d0 h0)
  have p1 : rnd (rnd (ub - lb) * r) ≤ rnd (ub - lb) := by
    have := R.mono (rnd (ub - lb) * r) (rnd (ub - lb)) (by nlinarith)
    rwa [R.idem] at this
  have top : randomRangeF rnd lb ub r ≤ rnd (lb + rnd (ub - lb)) := R.mono _ _ (by linarith)
  refine ⟨fun hb => ⟨z _ (mul_nonneg h0 hb), ?_⟩, ?_, top, ?_⟩
  · have := R.mono (r * ub) ub (by nlinarith)
    rwa [hu] at this
  · have := R.mono lb (lb + rnd (rnd (ub - lb) * r)) (by linarith)
    rwa [hl] at this
  · intro h
    refine top.trans ?_
    rw [h, sub_zero, zero_add, R.idem, hu]

/-- C130: the argument of the arc cosine is a cosine. -/
theorem C130_polar (rnd : K → K) (R : Rounding rnd) (h2 : rnd 2 = 2) (r : K) (h0 : 0 ≤ r) (h1 : r ≤ 1) : -1 ≤ polarCosineF rnd r ∧ polarCosineF rnd r ≤ 1 := by
  have a0 : 0 ≤ rnd (r * 2) := R.zero.symm.le.trans (R.mono 0 _ (by linarith))
  have a1 : rnd (r * 2) ≤ 2 := (R.mono _ 2 (by linarith)).trans h2.le
  constructor
  · have := R.mono (-1) (rnd (r * 2) - 1) (by linarith)
    rwa [R.neg, R.one] at this
  · exact (R.mono _ 1 (by linarith)).trans R.one.le

/-- C130: the deviation is a number unless the mean square, as computed, is below the square of the mean. -/
theorem C130_number (rnd sqrt : K → K) (R : Rounding rnd) (t : Tally K) (hw : 1 < t.weight) (hw1 : rnd (t.weight - 1) ≠ 0)
    (h : rnd (rnd (t.sum / t.weight) * rnd (t.sum / t.weight)) ≤ rnd (rnd (1 / t.weight) * t.sumSq)) (hm : rnd (t.sum / t.weight) ≠ 0) :
    ((t.getF rnd sqrt).2).isSome := by
  have z : ∀ x, 0 ≤ x → 0 ≤ rnd x := fun x hx => R.zero.symm.le.trans (R.mono 0 x hx)
  have hw0 : t.weight ≠ 0 := by linarith
  have hv : ¬ rnd (rnd (1 / rnd (t.weight - 1)) * rnd (rnd (rnd (1 / t.weight) * t.sumSq) - rnd (rnd (t.sum / t.weight) * rnd (t.sum / t.weight)))) < 0 :=
    not_lt.mpr (z _ (mul_nonneg (z _ (div_nonneg zero_le_one (z _ (by linarith)))) (z _ (by linarith))))
  simp only [Tally.getF, Tally.varianceF, Tally.meanF, fdiv, fsqrt, if_neg hw0, if_neg hw1, Option.map_some, Option.bind_eq_bind, Option.bind_some, if_neg hv, if_neg hm, Option.pure_def]
  rfl

end

/-! ### Whole numbers and numbers below one -/

theorem rnd64_nat (n : Nat) (h : n ≤ 2 ^ 53) : rnd64 n = n := by
  rcases Nat.eq_zero_or_pos n with h0 | h0
  · subst h0; simpa using rnd64_zero
  rcases eq_or_lt_of_le h with h53 | h53
  · subst h53; decide +kernel
  have hn : (0 : ℚ) < n := by exact_mod_cast h0
  have hl : lastPlace (n : ℚ) ≤ 0 := by
    have h1 : Int.log 2 (n : ℚ) < 53 := by
      rw [← Int.lt_zpow_iff_log_lt (by norm_num) hn]
      have : (n : ℚ) < ((2 ^ 53 : ℕ) : ℚ) := by exact_mod_cast h53
      norm_num at this ⊢
      exact this
    unfold lastPlace
    rw [abs_of_pos hn]
    omega
  obtain ⟨m, hm⟩ := pow_mult hl
  apply rnd64_mult (n : ℚ) (n * m)
  rw [zpow_zero] at hm
  push_cast
  rw [mul_assoc, ← hm, mul_one]

/-- A double below one is at most `1 - 2^-53`. -/
theorem below_one (r : ℚ) (hd : rnd64 r = r) (h1 : r < 1) : r ≤ 1 - 1 / 2 ^ 53 := by
  rcases le_or_gt r (1 / 2) with h | h
  · exact h.trans (by norm_num)
  have hr : 0 < r := by linarith
  have hlog : Int.log 2 r = -1 := by
    apply le_antisymm
    · have : Int.log 2 r < 0 := by
        rw [← Int.lt_zpow_iff_log_lt (by norm_num) hr]
        simpa using h1
      omega
    · rw [← Int.zpow_le_iff_le_log (by norm_num) hr]
      norm_num
      linarith
  have hl : lastPlace r = -53 := by
    unfold lastPlace
    rw [abs_of_pos hr, hlog]
    decide
  rw [rnd64, hl] at hd
  have hlt : rne (r / 2 ^ (-53 : ℤ)) < 2 ^ 53 := by
    have : (rne (r / 2 ^ (-53 : ℤ)) : ℚ) * 2 ^ (-53 : ℤ) < 1 := by rw [hd]; exact h1
    have h2 : (rne (r / 2 ^ (-53 : ℤ)) : ℚ) < ((2 ^ 53 : ℤ) : ℚ) := by
      norm_num at this ⊢
      linarith
    exact_mod_cast h2
  have h3 : (rne (r / 2 ^ (-53 : ℤ)) : ℚ) ≤ ((2 ^ 53 - 1 : ℤ) : ℚ) := by
    exact_mod_cast (by omega : rne (r / 2 ^ (-53 : ℤ)) ≤ 2 ^ 53 - 1)
  calc r = (rne (r / 2 ^ (-53 : ℤ)) : ℚ) * 2 ^ (-53 : ℤ) := hd.symm
    _ ≤ ((2 ^ 53 - 1 : ℤ) : ℚ) * 2 ^ (-53 : ℤ) := mul_le_mul_of_nonneg_right h3 (two_zpow_pos _).le
    _ = _ := by norm_num

theorem rnd64_two_pow (k : ℤ) (hk : -1022 ≤ k) : rnd64 (2 ^ k) = 2 ^ k := by
  have hl : lastPlace (2 ^ k : ℚ) ≤ k := by
    unfold lastPlace
    have := Int.log_zpow (R := ℚ) (b := 2) (by norm_num) k
    push_cast at this
    rw [abs_of_pos (two_zpow_pos k), this]
    omega
  obtain ⟨m, hm⟩ := pow_mult hl
  exact rnd64_mult _ m hm

/-- A double times a number below one is below the double. -/
theorem rnd64_mul_lt (d r : ℚ) (hd : rnd64 d = d) (hbig : 2 ^ (-1021 : ℤ) ≤ d) (hb : r ≤ 1 - 1 / 2 ^ 53) : rnd64 (r * d) < d := by
  have hn : 0 < d := lt_of_lt_of_le (two_zpow_pos _) hbig
  set k := Int.log 2 d with hk
  have hk0 : -1021 ≤ k := (Int.zpow_le_iff_le_log (by norm_num) hn).mp (by exact_mod_cast hbig)
  have hk1 : (2 : ℚ) ^ k ≤ d := by exact_mod_cast Int.zpow_log_le_self (b := 2) (by norm_num) hn
  have hk2 : d < 2 ^ (k + 1) := by exact_mod_cast Int.lt_zpow_succ_log_self (b := 2) (by norm_num) d
  have hld : lastPlace d = k - 52 := by
    unfold lastPlace
    rw [abs_of_pos hn, ← hk]
    omega
  have hx : r * d ≤ d - d / 2 ^ 53 := by
    calc r * d ≤ (1 - 1 / 2 ^ 53) * d := mul_le_mul_of_nonneg_right hb hn.le
      _ = _ := by ring
  have h53 : 0 < d / 2 ^ 53 := by positivity
  rcases le_or_gt d (2 ^ k) with hp | hp
  · have hnk : d = 2 ^ k := le_antisymm hp hk1
    have e : d - d / 2 ^ 53 = (2 ^ 53 - 1 : ℤ) * 2 ^ (k - 53) := by
      rw [hnk, zpow_sub₀ (by norm_num)]
      push_cast
      norm_num
      ring
    have hpos : 0 < d - d / 2 ^ 53 := by
      have : d / 2 ^ 53 < d := div_lt_self hn (by norm_num)
      linarith
    have hlog : Int.log 2 (d - d / 2 ^ 53) < k := (Int.lt_zpow_iff_log_lt (by norm_num) hpos).mp (by push_cast; linarith)
    have hlp : lastPlace (d - d / 2 ^ 53) ≤ k - 53 := by
      unfold lastPlace
      rw [abs_of_pos hpos]
      omega
    obtain ⟨m, hm⟩ := pow_mult hlp
    have hfix : rnd64 (d - d / 2 ^ 53) = d - d / 2 ^ 53 := by
      apply rnd64_mult _ ((2 ^ 53 - 1) * m)
      nth_rw 1 [e]
      rw [hm]
      push_cast
      ring
    have := rnd64_mono _ _ hx
    rw [hfix] at this
    linarith
  · rcases le_or_gt (r * d) (2 ^ k) with h | h
    · have := rnd64_mono _ _ h
      rw [rnd64_two_pow k (by omega)] at this
      linarith
    · have hpos : 0 < r * d := lt_trans (two_zpow_pos _) h
      have hlog : Int.log 2 (r * d) = k := by
        apply le_antisymm
        · have : Int.log 2 (r * d) < k + 1 := (Int.lt_zpow_iff_log_lt (by norm_num) hpos).mp (by push_cast; linarith)
          omega
        · exact (Int.zpow_le_iff_le_log (by norm_num) hpos).mp (by push_cast; exact h.le)
      have hl : lastPlace (r * d) = k - 52 := by
        unfold lastPlace
        rw [abs_of_pos hpos, hlog]
        omega
      have hp2 := two_zpow_pos (k - 52)
      have hM : d = (rne (d / 2 ^ (k - 52)) : ℚ) * 2 ^ (k - 52) := by
        rw [rnd64, hld] at hd
        exact hd.symm
      set M := rne (d / 2 ^ (k - 52))
      have hq : r * d / 2 ^ (k - 52) < M - 1 / 2 := by
        rw [div_lt_iff₀ hp2, sub_mul, ← hM]
        have h4 : (2 : ℚ) ^ (k - 52) = 2 ^ k / 2 ^ 52 := by
          rw [zpow_sub₀ (by norm_num)]; norm_num
        rw [h4]
        norm_num at hx ⊢
        linarith
      have hr := (abs_le.mp (rne_spec (r * d / 2 ^ (k - 52))).1).1
      have hlt2 : (rne (r * d / 2 ^ (k - 52)) : ℚ) < M := by linarith
      rw [rnd64, hl]
      calc (rne (r * d / 2 ^ (k - 52)) : ℚ) * 2 ^ (k - 52) < M * 2 ^ (k - 52) := mul_lt_mul_of_pos_right hlt2 hp2
        _ = d := hM.symm

/-- Doubles are multiples of the smallest one. -/
theorem rnd64_grid (d : ℚ) (hd : rnd64 d = d) : ∃ m : ℤ, d = m * 2 ^ (-1074 : ℤ) := by
  have hl : -1074 ≤ lastPlace d := by unfold lastPlace; omega
  obtain ⟨m, hm⟩ := pow_mult hl
  refine ⟨rne (d / 2 ^ lastPlace d) * m, ?_⟩
  push_cast
  rw [mul_assoc, ← hm]
  exact hd.symm

/-- C130: a random number below one gives a number below the bound of `random(ubound)`, and one not above the bound of `random(lbound, ubound)`. -/
theorem C130_below (lb ub r : ℚ) (hl : rnd64 lb = lb) (hu : rnd64 ub = ub) (hr : rnd64 r = r) (hlu : lb < ub) (h0 : 0 ≤ r) (h1 : r < 1) :
    (2 ^ (-1021 : ℤ) ≤ ub → randomBelowF rnd64 ub r < ub) ∧ randomRangeF rnd64 lb ub r ≤ ub := by
  have hb := below_one r hr h1
  refine ⟨fun hbig => rnd64_mul_lt ub r hu hbig hb, ?_⟩
  have hd : rnd64 (rnd64 (ub - lb)) = rnd64 (ub - lb) := rnd64_idem _
  have key : rnd64 (rnd64 (ub - lb) * r) ≤ ub - lb := by
    rcases le_or_gt (2 ^ (-1021 : ℤ)) (rnd64 (ub - lb)) with h | h
    · have := rnd64_mul_lt _ r hd h hb
      rw [mul_comm] at this
      by_contra hc
      have h2 := rnd64_mono _ _ (not_le.mp hc).le
      rw [rnd64_idem] at h2
      linarith
    · -- the difference is exact
      have hy : ub - lb < 2 ^ (-1021 : ℤ) := by
        by_contra hc
        have := rnd64_mono _ _ (not_lt.mp hc)
        rw [rnd64_two_pow _ (by norm_num)] at this
        linarith
      have hpos : 0 < ub - lb := by linarith
      have hlp : lastPlace (ub - lb) = -1074 := by
        have : Int.log 2 (ub - lb) < -1021 := (Int.lt_zpow_iff_log_lt (by norm_num) hpos).mp (by push_cast; exact hy)
        unfold lastPlace
        rw [abs_of_pos hpos]
        omega
      obtain ⟨a, ha⟩ := rnd64_grid ub hu
      obtain ⟨b, hb'⟩ := rnd64_grid lb hl
      have hex : rnd64 (ub - lb) = ub - lb := by
        apply rnd64_mult _ (a - b)
        rw [hlp]
        push_cast
        rw [sub_mul, ← ha, ← hb']
      rw [hex]
      have := rnd64_mono ((ub - lb) * r) (ub - lb) (by nlinarith)
      rwa [hex] at this
  have := rnd64_mono (lb + rnd64 (rnd64 (ub - lb) * r)) ub (by linarith)
  rwa [hu] at this

/-- C130: a number below one gives an integer below the bound, for all bounds of type `int`; the number one gives the bound. -/
theorem C130_int (n : Nat) (h0 : 0 < n) (h53 : n ≤ 2 ^ 53) (r : ℚ) (hd : rnd64 r = r) (hr0 : 0 ≤ r) :
    0 ≤ randomIntF rnd64 n r ∧ (r < 1 → randomIntF rnd64 n r < n) ∧ (r = 1 → randomIntF rnd64 n r = n) := by
  have hn : (1 : ℚ) ≤ n := by exact_mod_cast h0
  refine ⟨Int.floor_nonneg.mpr (rnd64_nonneg (mul_nonneg hr0 (by linarith))), fun h1 => ?_, fun h1 => ?_⟩
  · rw [randomIntF, Int.floor_lt, Int.cast_natCast]
    apply rnd64_mul_lt _ _ (rnd64_nat n h53) _ (below_one r hd h1)
    refine le_trans ?_ hn
    rw [← zpow_zero (2 : ℚ)]
    exact zpow_le_zpow_right₀ (by norm_num) (by norm_num)
  · rw [h1, randomIntF, one_mul, rnd64_nat n h53]
    simp

/-- Full claim, false: `random(lbound, ubound)` is below its upper bound for random numbers below one. -/
def C130_open_claim : Prop :=
  ∀ lb ub r : ℚ, rnd64 lb = lb → rnd64 ub = ub → rnd64 r = r → lb < ub → 0 ≤ r → r < 1 → randomRangeF rnd64 lb ub r < ub

/-- C130: between 1 and the next double nothing is below the bound but 1. -/
theorem C130_open_claim_false : ¬ C130_open_claim := by
  intro h
  have := h 1 (1 + 1 / 2 ^ 52) (3 / 4) (by decide +kernel) (by decide +kernel) (by decide +kernel) (by norm_num) (by norm_num) (by norm_num)
  revert this
  decide +kernel

/-- Full claim, false: `random(lbound, ubound)` does not exceed its upper bound. -/
def C130_upper_claim : Prop :=
  ∀ lb ub r : ℚ, rnd64 lb = lb → rnd64 ub = ub → rnd64 r = r → lb < ub → 0 ≤ r → r ≤ 1 → randomRangeF rnd64 lb ub r ≤ ub

/-- C130: bounds 0.3 and 0.82, and the number one, which the generator returns (C03). -/
theorem C130_upper_claim_false : ¬ C130_upper_claim := by
  intro h
  have := h (rnd64 (3 / 10)) (rnd64 (82 / 100)) 1 (rnd64_idem _) (rnd64_idem _) (by decide +kernel) (by decide +kernel) (by norm_num) le_rfl
  revert this
  decide +kernel

/-! ### Sums of many numbers -/

/-- A sum from left to right. -/
def scoreSumF (rnd : ℚ → ℚ) (xs : List ℚ) : ℚ := xs.foldl (fun s x => rnd (s + x)) 0

theorem scoreSumF_append (rnd : ℚ → ℚ) (xs : List ℚ) (x : ℚ) : scoreSumF rnd (xs ++ [x]) = rnd (scoreSumF rnd xs + x) := by simp [scoreSumF]

/-- One rounding multiplies by a factor between these. -/
def lowFac : ℚ := 1 - 1 / 2 ^ 53
/-- See `lowFac`. -/
def highFac : ℚ := 1 + 1 / 2 ^ 53

theorem lowFac_pos : 0 < lowFac := by norm_num [lowFac]
theorem lowFac_le : lowFac ≤ 1 := by norm_num [lowFac]
theorem highFac_ge : 1 ≤ highFac := by norm_num [highFac]
theorem lowHigh : lowFac * highFac ≤ 1 := by norm_num [lowFac, highFac]

theorem rnd64_between {q : ℚ} (h : 2 ^ (-1022 : ℤ) ≤ q) : lowFac * q ≤ rnd64 q ∧ rnd64 q ≤ highFac * q := by
  have hq : 0 < q := lt_of_lt_of_le (two_zpow_pos _) h
  have := abs_le.mp (rnd64_error q (by rw [abs_of_pos hq]; exact h))
  rw [abs_of_pos hq] at this
  have e : (2 : ℚ) ^ (-53 : ℤ) = 1 / 2 ^ 53 := by norm_num
  rw [e] at this
  unfold lowFac highFac
  constructor
  · rw [sub_mul, one_mul]; linarith [this.1]
  · rw [add_mul, one_mul]; linarith [this.2]

theorem scoreSumF_between (xs : List ℚ) (h : ∀ x ∈ xs, 2 ^ (-1022 : ℤ) ≤ x) :
    lowFac ^ xs.length * xs.sum ≤ scoreSumF rnd64 xs ∧ scoreSumF rnd64 xs ≤ highFac ^ xs.length * xs.sum := by
  induction xs using List.reverseRecOn with
  | nil => simp [scoreSumF]
  | append_singleton xs x ih =>
    obtain ⟨i1, i2⟩ := ih fun y hy => h y (List.mem_append_left _ hy)
    have hx := h x (by simp)
    have hx0 : 0 < x := lt_of_lt_of_le (two_zpow_pos _) hx
    have hs : 0 ≤ xs.sum := List.sum_nonneg fun y hy => (two_zpow_pos _).le.trans (h y (List.mem_append_left _ hy))
    have p0 : 0 ≤ lowFac ^ xs.length := pow_nonneg lowFac_pos.le _
    have p1 : lowFac ^ xs.length ≤ 1 := pow_le_one₀ lowFac_pos.le lowFac_le
    have p2 : 1 ≤ highFac ^ xs.length := one_le_pow₀ highFac_ge
    have h0 : 0 ≤ scoreSumF rnd64 xs := (mul_nonneg p0 hs).trans i1
    obtain ⟨b1, b2⟩ := rnd64_between (q := scoreSumF rnd64 xs + x) (hx.trans (le_add_of_nonneg_left h0))
    rw [scoreSumF_append, List.length_append, List.length_singleton, List.sum_append, List.sum_singleton, pow_succ', pow_succ']
    constructor
    · refine le_trans ?_ b1
      rw [mul_assoc]
      apply mul_le_mul_of_nonneg_left _ lowFac_pos.le
      have := mul_le_mul_of_nonneg_right p1 hx0.le
      rw [mul_add]
      linarith
    · refine b2.trans ?_
      rw [mul_assoc]
      apply mul_le_mul_of_nonneg_left _ (zero_le_one.trans highFac_ge)
      have := mul_le_mul_of_nonneg_right p2 hx0.le
      rw [mul_add]
      linarith

theorem tallyAfterF_cycles (xs : List ℚ) (hn : xs.length ≤ 2 ^ 53) :
    tallyAfterF rnd64 (cyclesOps xs) = ⟨scoreSumF rnd64 xs, scoreSumF rnd64 (xs.map fun x => rnd64 (x * x)), xs.length⟩ := by
  induction xs using List.reverseRecOn with
  | nil => simp [tallyAfterF, cyclesOps, scoreSumF, Tally.zero]
  | append_singleton xs x ih =>
    have ih := ih (by simp at hn; omega)
    have e : tallyAfterF rnd64 (cyclesOps (xs ++ [x])) = ((tallyAfterF rnd64 (cyclesOps xs)).applyF rnd64 (.score x)).applyF rnd64 (.weight 1) := by
      simp [tallyAfterF, cyclesOps]
    have hw := rnd64_nat (xs.length + 1) (by simpa using hn)
    push_cast at hw
    rw [e, ih]
    simp [Tally.applyF, scoreSumF_append, hw]

theorem zpow_mono' {a b : ℤ} (h : a ≤ b) : (2 : ℚ) ^ a ≤ 2 ^ b := zpow_le_zpow_right₀ (by norm_num) h

theorem len_pos {xs : List ℚ} (h0 : xs ≠ []) : (0 : ℚ) < xs.length := by exact_mod_cast List.length_pos_iff.mpr h0

theorem mean_ge (xs : List ℚ) (h0 : xs ≠ []) (c : ℚ) (h : ∀ x ∈ xs, c ≤ x) : c ≤ xs.sum / xs.length := by
  rw [le_div_iff₀ (len_pos h0)]
  have := List.card_nsmul_le_sum xs c h
  rw [nsmul_eq_mul] at this
  linarith

/-- Powers of the lower factor do not fall below a half. -/
theorem lowFac_pow (n : Nat) (hn : n ≤ 2 ^ 52) : 1 / 2 ≤ lowFac ^ n := by
  have := one_add_mul_le_pow (a := (-1 / 2 ^ 53 : ℚ)) (by norm_num) n
  have e : (1 + -1 / 2 ^ 53 : ℚ) = lowFac := by norm_num [lowFac]
  rw [e] at this
  have hq : (n : ℚ) ≤ 2 ^ 52 := by exact_mod_cast hn
  have h2 : (n : ℚ) * (-1 / 2 ^ 53) ≥ -1 / 2 := by
    have : (n : ℚ) * (1 / 2 ^ 53) ≤ 2 ^ 52 * (1 / 2 ^ 53) := mul_le_mul_of_nonneg_right hq (by norm_num)
    norm_num at this ⊢
    linarith
  linarith

theorem meanF_between (xs : List ℚ) (h0 : xs ≠ []) (hn : xs.length ≤ 2 ^ 52) (h : ∀ x ∈ xs, 2 ^ (-200 : ℤ) ≤ x) :
    lowFac ^ (xs.length + 1) * (xs.sum / xs.length) ≤ rnd64 (scoreSumF rnd64 xs / xs.length) ∧
      rnd64 (scoreSumF rnd64 xs / xs.length) ≤ highFac ^ (xs.length + 1) * (xs.sum / xs.length) := by
  have hl := len_pos h0
  obtain ⟨i1, i2⟩ := scoreSumF_between xs fun x hx => (zpow_mono' (by norm_num)).trans (h x hx)
  have hb := mean_ge xs h0 _ h
  have hm : 0 < xs.sum / xs.length := lt_of_lt_of_le (two_zpow_pos _) hb
  have j1 : lowFac ^ xs.length * (xs.sum / xs.length) ≤ scoreSumF rnd64 xs / xs.length := by
    rw [← mul_div_assoc]; exact div_le_div_of_nonneg_right i1 hl.le
  have j2 : scoreSumF rnd64 xs / xs.length ≤ highFac ^ xs.length * (xs.sum / xs.length) := by
    rw [← mul_div_assoc]; exact div_le_div_of_nonneg_right i2 hl.le
  have hbig : (2 : ℚ) ^ (-1022 : ℤ) ≤ scoreSumF rnd64 xs / xs.length := by
    calc (2 : ℚ) ^ (-1022 : ℤ) ≤ 2 ^ (-201 : ℤ) := zpow_mono' (by norm_num)
      _ = 1 / 2 * 2 ^ (-200 : ℤ) := by rw [show (-201 : ℤ) = -1 + -200 by norm_num, zpow_add₀ (by norm_num)]; norm_num
      _ ≤ lowFac ^ xs.length * (xs.sum / xs.length) := mul_le_mul (lowFac_pow _ hn) hb (two_zpow_pos _).le (pow_nonneg lowFac_pos.le _)
      _ ≤ _ := j1
  obtain ⟨b1, b2⟩ := rnd64_between hbig
  rw [pow_succ', pow_succ', mul_assoc, mul_assoc]
  exact ⟨(mul_le_mul_of_nonneg_left j1 lowFac_pos.le).trans b1, b2.trans (mul_le_mul_of_nonneg_left j2 (zero_le_one.trans highFac_ge))⟩

/-- C130: with positive scores the mean is within a relative error of `n + 1` roundings of the exact mean. -/
theorem C130_mean (sqrt : ℚ → ℚ) (xs : List ℚ) (h0 : xs ≠ []) (hn : xs.length ≤ 2 ^ 52) (h : ∀ x ∈ xs, 2 ^ (-200 : ℤ) ≤ x) :
    ∃ m, ((tallyAfterF rnd64 (cyclesOps xs)).getF rnd64 sqrt).1 = some m ∧ 0 < m ∧ (1 - 1 / 2 ^ 53) ^ (xs.length + 1) * (xs.sum / xs.length) ≤ m ∧
      m ≤ (1 + 1 / 2 ^ 53) ^ (xs.length + 1) * (xs.sum / xs.length) := by
  obtain ⟨a, b⟩ := meanF_between xs h0 hn h
  have hm : 0 < xs.sum / xs.length := lt_of_lt_of_le (two_zpow_pos _) (mean_ge xs h0 _ h)
  refine ⟨rnd64 (scoreSumF rnd64 xs / xs.length), ?_, lt_of_lt_of_le (mul_pos (pow_pos lowFac_pos _) hm) a, a, b⟩
  rw [tallyAfterF_cycles xs (hn.trans (by norm_num))]
  simp only [Tally.getF, Tally.meanF, fdiv, if_neg (len_pos h0).ne', Option.map_some]

/-- The mean square as computed. -/
theorem square_ge (xs : List ℚ) (h0 : xs ≠ []) (hn : xs.length ≤ 2 ^ 52) (h : ∀ x ∈ xs, 2 ^ (-200 : ℤ) ≤ x) :
    lowFac ^ (xs.length + 3) * ((xs.map fun x => x * x).sum / xs.length) ≤ rnd64 (rnd64 (1 / xs.length) * scoreSumF rnd64 (xs.map fun x => rnd64 (x * x))) := by
  have hl := len_pos h0
  have hsq : ∀ x ∈ xs, (2 : ℚ) ^ (-400 : ℤ) ≤ x * x := by
    intro x hx
    have := h x hx
    calc (2 : ℚ) ^ (-400 : ℤ) = 2 ^ (-200 : ℤ) * 2 ^ (-200 : ℤ) := by rw [← zpow_add₀ (by norm_num)]; norm_num
      _ ≤ x * x := mul_le_mul this this (two_zpow_pos _).le ((two_zpow_pos _).le.trans this)
  have hr : ∀ x ∈ xs, lowFac * (x * x) ≤ rnd64 (x * x) := fun x hx => (rnd64_between ((zpow_mono' (by norm_num)).trans (hsq x hx))).1
  have half : (1 / 2 : ℚ) ≤ lowFac := by norm_num [lowFac]
  have hr2 : ∀ x ∈ xs, (2 : ℚ) ^ (-401 : ℤ) ≤ rnd64 (x * x) := by
    intro x hx
    refine le_trans ?_ (hr x hx)
    calc (2 : ℚ) ^ (-401 : ℤ) = 1 / 2 * 2 ^ (-400 : ℤ) := by rw [show (-401 : ℤ) = -1 + -400 by norm_num, zpow_add₀ (by norm_num)]; norm_num
      _ ≤ lowFac * (x * x) := mul_le_mul half (hsq x hx) (two_zpow_pos _).le lowFac_pos.le
  obtain ⟨i1, -⟩ := scoreSumF_between (xs.map fun x => rnd64 (x * x)) (by
    intro y hy
    obtain ⟨x, hx, rfl⟩ := List.mem_map.mp hy
    exact (zpow_mono' (by norm_num)).trans (hr2 x hx))
  rw [List.length_map] at i1
  have hsum : lowFac * (xs.map fun x => x * x).sum ≤ (xs.map fun x => rnd64 (x * x)).sum := by
    rw [← List.sum_map_mul_left]
    exact List.sum_le_sum hr
  have k1 : lowFac ^ (xs.length + 1) * (xs.map fun x => x * x).sum ≤ scoreSumF rnd64 (xs.map fun x => rnd64 (x * x)) := by
    refine le_trans ?_ i1
    rw [pow_succ, mul_assoc]
    exact mul_le_mul_of_nonneg_left hsum (pow_nonneg lowFac_pos.le _)
  have hlp : (2 : ℚ) ^ (-52 : ℤ) ≤ 1 / xs.length := by
    rw [le_div_iff₀ hl]
    have : (xs.length : ℚ) ≤ 2 ^ 52 := by exact_mod_cast hn
    norm_num
    linarith
  have k2 := (rnd64_between ((zpow_mono' (by norm_num)).trans hlp)).1
  have hss : (2 : ℚ) ^ (-400 : ℤ) ≤ (xs.map fun x => x * x).sum / xs.length := by
    have := mean_ge (xs.map fun x => x * x) (by simpa using h0) (2 ^ (-400 : ℤ)) (by
      intro y hy
      obtain ⟨x, hx, rfl⟩ := List.mem_map.mp hy
      exact hsq x hx)
    rwa [List.length_map] at this
  have hs0 : 0 ≤ (xs.map fun x => x * x).sum := List.sum_nonneg (by
    intro y hy
    obtain ⟨x, hx, rfl⟩ := List.mem_map.mp hy
    exact mul_self_nonneg x)
  have k3 : lowFac ^ (xs.length + 2) * ((xs.map fun x => x * x).sum / xs.length) ≤ rnd64 (1 / xs.length) * scoreSumF rnd64 (xs.map fun x => rnd64 (x * x)) := by
    calc lowFac ^ (xs.length + 2) * ((xs.map fun x => x * x).sum / xs.length) = (lowFac * (1 / xs.length)) * (lowFac ^ (xs.length + 1) * (xs.map fun x => x * x).sum) := by ring
      _ ≤ _ := mul_le_mul k2 k1 (mul_nonneg (pow_nonneg lowFac_pos.le _) hs0) (rnd64_nonneg (by positivity))
  have hbig : (2 : ℚ) ^ (-1022 : ℤ) ≤ rnd64 (1 / xs.length) * scoreSumF rnd64 (xs.map fun x => rnd64 (x * x)) := by
    have p : 1 / 4 ≤ lowFac ^ (xs.length + 2) := by
      rw [pow_add]
      have := lowFac_pow _ hn
      have h2 : (1 / 2 : ℚ) ≤ lowFac ^ 2 := by norm_num [lowFac]
      calc (1 / 4 : ℚ) = 1 / 2 * (1 / 2) := by norm_num
        _ ≤ _ := mul_le_mul this h2 (by norm_num) (pow_nonneg lowFac_pos.le _)
    calc (2 : ℚ) ^ (-1022 : ℤ) ≤ 2 ^ (-402 : ℤ) := zpow_mono' (by norm_num)
      _ = 1 / 4 * 2 ^ (-400 : ℤ) := by rw [show (-402 : ℤ) = -2 + -400 by norm_num, zpow_add₀ (by norm_num)]; norm_num
      _ ≤ _ := mul_le_mul p hss (two_zpow_pos _).le (pow_nonneg lowFac_pos.le _)
      _ ≤ _ := k3
  have b := (rnd64_between hbig).1
  calc lowFac ^ (xs.length + 3) * ((xs.map fun x => x * x).sum / xs.length) = lowFac * (lowFac ^ (xs.length + 2) * ((xs.map fun x => x * x).sum / xs.length)) := by ring
    _ ≤ _ := mul_le_mul_of_nonneg_left k3 lowFac_pos.le
    _ ≤ _ := b

/-- C130: the deviation of `n` positive scores is a number if their variance exceeds `(3 n + 6) 2^-53` of their mean square. -/
theorem C130_deviation (sqrt : ℚ → ℚ) (xs : List ℚ) (h2 : 2 ≤ xs.length) (hn : xs.length ≤ 2 ^ 52) (h : ∀ x ∈ xs, 2 ^ (-200 : ℤ) ≤ x)
    (hv : (3 * xs.length + 6) / 2 ^ 53 * ((xs.map fun x => x * x).sum / xs.length) ≤ (xs.map fun x => x * x).sum / xs.length - (xs.sum / xs.length) ^ 2) :
    (((tallyAfterF rnd64 (cyclesOps xs)).getF rnd64 sqrt).2).isSome := by
  have h0 : xs ≠ [] := by rintro rfl; simp at h2
  have hl := len_pos h0
  have h2q : (2 : ℚ) ≤ xs.length := by exact_mod_cast h2
  obtain ⟨m1, m2⟩ := meanF_between xs h0 hn h
  have hmean := mean_ge xs h0 _ h
  have hm : 0 < xs.sum / xs.length := lt_of_lt_of_le (two_zpow_pos _) hmean
  have hmf : 0 < rnd64 (scoreSumF rnd64 xs / xs.length) := lt_of_lt_of_le (mul_pos (pow_pos lowFac_pos _) hm) m1
  have hw1 : rnd64 ((xs.length : ℚ) - 1) = xs.length - 1 := by
    have := rnd64_nat (xs.length - 1) (by omega)
    rwa [Nat.cast_sub (by omega), Nat.cast_one] at this
  rw [tallyAfterF_cycles xs (hn.trans (by norm_num))]
  apply C130_number rnd64 sqrt rounding64
  · simp only; linarith
  · simp only; rw [hw1]; intro hc; linarith
  · simp only
    refine le_trans ?_ (square_ge xs h0 hn h)
    set q := (xs.map fun x => x * x).sum / (xs.length : ℚ)
    set m := xs.sum / (xs.length : ℚ)
    set f := rnd64 (scoreSumF rnd64 xs / xs.length)
    have hf : f * f ≤ highFac ^ (2 * xs.length + 2) * m ^ 2 := by
      calc f * f ≤ (highFac ^ (xs.length + 1) * m) * (highFac ^ (xs.length + 1) * m) := mul_le_mul m2 m2 hmf.le (mul_nonneg (pow_nonneg (zero_le_one.trans highFac_ge) _) hm.le)
        _ = _ := by ring
    have hbig : (2 : ℚ) ^ (-1022 : ℤ) ≤ f * f := by
      have p : (2 : ℚ) ^ (-202 : ℤ) ≤ f := by
        refine le_trans ?_ m1
        have : (1 / 4 : ℚ) ≤ lowFac ^ (xs.length + 1) := by
          rw [pow_succ]
          have := lowFac_pow _ hn
          calc (1 / 4 : ℚ) = 1 / 2 * (1 / 2) := by norm_num
            _ ≤ _ := mul_le_mul this (by norm_num [lowFac]) (by norm_num) (pow_nonneg lowFac_pos.le _)
        calc (2 : ℚ) ^ (-202 : ℤ) = 1 / 4 * 2 ^ (-200 : ℤ) := by rw [show (-202 : ℤ) = -2 + -200 by norm_num, zpow_add₀ (by norm_num)]; norm_num
          _ ≤ _ := mul_le_mul this hmean (two_zpow_pos _).le (pow_nonneg lowFac_pos.le _)
      calc (2 : ℚ) ^ (-1022 : ℤ) ≤ 2 ^ (-404 : ℤ) := zpow_mono' (by norm_num)
        _ = 2 ^ (-202 : ℤ) * 2 ^ (-202 : ℤ) := by rw [← zpow_add₀ (by norm_num)]; norm_num
        _ ≤ f * f := mul_le_mul p p (two_zpow_pos _).le hmf.le
    have hb := (rnd64_between hbig).2
    have key : m ^ 2 ≤ lowFac ^ (3 * xs.length + 6) * q := by
      have := one_add_mul_le_pow (a := (-1 / 2 ^ 53 : ℚ)) (by norm_num) (3 * xs.length + 6)
      have e : (1 + -1 / 2 ^ 53 : ℚ) = lowFac := by norm_num [lowFac]
      rw [e] at this
      have hq : 0 ≤ q := div_nonneg (List.sum_nonneg (by
        intro y hy
        obtain ⟨x, hx, rfl⟩ := List.mem_map.mp hy
        exact mul_self_nonneg x)) hl.le
      have h5 := mul_le_mul_of_nonneg_right this hq
      refine le_trans ?_ h5
      push_cast
      have e2 : (1 + (3 * (xs.length : ℚ) + 6) * (-1 / 2 ^ 53)) * q = q - (3 * xs.length + 6) / 2 ^ 53 * q := by ring
      rw [e2]
      linarith
    calc rnd64 (f * f) ≤ highFac * (f * f) := hb
      _ ≤ highFac * (highFac ^ (2 * xs.length + 2) * m ^ 2) := mul_le_mul_of_nonneg_left hf (zero_le_one.trans highFac_ge)
      _ ≤ highFac * (highFac ^ (2 * xs.length + 2) * (lowFac ^ (3 * xs.length + 6) * q)) := by
        apply mul_le_mul_of_nonneg_left _ (zero_le_one.trans highFac_ge)
        exact mul_le_mul_of_nonneg_left key (pow_nonneg (zero_le_one.trans highFac_ge) _)
      _ = (lowFac * highFac) ^ (2 * xs.length + 3) * (lowFac ^ (xs.length + 3) * q) := by
        rw [mul_pow]; ring
      _ ≤ 1 * (lowFac ^ (xs.length + 3) * q) := by
        apply mul_le_mul_of_nonneg_right
        · exact pow_le_one₀ (mul_nonneg lowFac_pos.le (zero_le_one.trans highFac_ge)) lowHigh
        · apply mul_nonneg (pow_nonneg lowFac_pos.le _)
          exact div_nonneg (List.sum_nonneg (by
            intro y hy
            obtain ⟨x, hx, rfl⟩ := List.mem_map.mp hy
            exact mul_self_nonneg x)) hl.le
      _ = _ := one_mul _
  · exact hmf.ne'

/-- Full claim, false: the mean lies between the least and the greatest score. -/
def C130_mean_claim : Prop :=
  ∀ (xs : List ℚ) (lo hi m : ℚ), (∀ x ∈ xs, rnd64 x = x ∧ lo ≤ x ∧ x ≤ hi) → (tallyAfterF rnd64 (cyclesOps xs)).meanF rnd64 = some m → lo ≤ m ∧ m ≤ hi

/-- C130: three scores of 0.1 have the mean 0.10000000000000002. -/
theorem C130_mean_claim_false : ¬ C130_mean_claim := by
  intro h
  have := h [rnd64 (1 / 10), rnd64 (1 / 10), rnd64 (1 / 10)] (rnd64 (1 / 10)) (rnd64 (1 / 10)) (rnd64 (10000000000000002 / 100000000000000000))
    (by simp [rnd64_idem]) (by decide +kernel)
  revert this
  decide +kernel

/-- Full claim, false: the deviation of two or more positive scores is a number. -/
def C130_deviation_claim : Prop :=
  ∀ (sqrt : ℚ → ℚ) (xs : List ℚ), 2 ≤ xs.length → (∀ x ∈ xs, rnd64 x = x ∧ 1 ≤ x ∧ x ≤ 2) → (((tallyAfterF rnd64 (cyclesOps xs)).getF rnd64 sqrt).2).isSome

/-- C130: the square root of a negative number for three scores of 1.3. -/
theorem C130_deviation_claim_false : ¬ C130_deviation_claim := by
  intro h
  have := h id [rnd64 (13 / 10), rnd64 (13 / 10), rnd64 (13 / 10)] (by simp) (by
    intro x hx
    simp at hx
    subst hx
    exact ⟨rnd64_idem _, by decide +kernel, by decide +kernel⟩)
  revert this
  decide +kernel

/-- C130: without rounding these are the functions of C44 and C120. -/
theorem C130_exact (sqrt : ℚ → ℚ) (ops : List (TallyOp ℚ)) (lb ub r : ℚ) :
    (tallyAfterF id ops).getF id sqrt = (tallyAfter ops).get sqrt ∧ randomBelowF id ub r = r * ub ∧ randomRangeF id lb ub r = lb + (ub - lb) * r ∧
      polarCosineF id r = r * 2 - 1 := by
  refine ⟨?_, rfl, rfl, rfl⟩
  have : tallyAfterF id ops = tallyAfter ops := by
    unfold tallyAfterF tallyAfter
    congr 1
  rw [this]
  simp only [Tally.getF, Tally.get, Tally.meanF, Tally.varianceF, Tally.variance, id, Option.map_id_fun]

/-! ### The hypotheses can be met -/

example : 0 ≤ randomBelowF rnd64 (rnd64 (63 / 10)) (1 / 3) :=
  ((C130_range rnd64 rounding64 0 (rnd64 (63 / 10)) (1 / 3) rnd64_zero (rnd64_idem _) (by decide +kernel) (by norm_num) (by norm_num)).1 (by decide +kernel)).1

example : polarCosineF rnd64 (rnd64 (1 / 10)) = rnd64 (-8 / 10) := by decide +kernel

example : randomIntF rnd64 7 (1 - 1 / 2 ^ 53) < 7 := (C130_int 7 (by norm_num) (by norm_num) (1 - 1 / 2 ^ 53) (by decide +kernel) (by norm_num)).2.1 (by norm_num)

example : (((tallyAfterF rnd64 (cyclesOps [1, 5 / 4, 3 / 2])).getF rnd64 id).2).isSome :=
  C130_deviation id [1, 5 / 4, 3 / 2] (by simp) (by simp) (by
    intro x hx
    simp at hx
    rcases hx with rfl | rfl | rfl <;> refine (zpow_mono' (by norm_num : (-200 : ℤ) ≤ 0)).trans ?_ <;> norm_num) (by norm_num)

end Verif.Mc
