import Verif.Rng.Lemmas
import Verif.Rng.Spec
import Mathlib.Data.Fintype.EquivFin

/-!
# C01–C04: the random number generator

`step^[k+1] s` is the value returned by the `(k+1)`-th call on a generator whose state is `s`.
-/

namespace Verif.Rng
open Spec

/-- C01: the `(k+1)`-th number drawn is the one of the documented generator, for every 64-bit seed. -/
theorem C01_draws_are_lcg (s : U64) (k : Nat) : (step^[k+1] s).toNat = lcg^[k+1] s.toNat := by
  have key : ∀ (x : U64) (y : Nat), x.toNat ≡ y [MOD 2 ^ 63] → (step x).toNat = lcg y := by
    intro x y h
    have h1 : (step x).toNat ≡ 2806196910506780709 * y + 1 [MOD 2 ^ 63] := by
      have := (step_modEq x).trans ((h.mul_right M).add_right 1)
      rwa [mul_comm y M] at this
    have h2 := step_lt x
    unfold lcg
    rw [← Nat.mod_eq_of_lt h2]
    exact h1
  induction k with
  | zero => simpa using key s s.toNat rfl
  | succ k ih =>
    rw [Function.iterate_succ_apply', Function.iterate_succ_apply' (f := lcg)]
    exact key _ _ (by rw [ih])

/-- C01: every number drawn after `jump_ahead(n)` is the number that would be drawn after `n` draws. -/
theorem C01_jump_ahead_draws (s n : U64) (k : Nat) :
    step^[k+1] (jumpAhead s n) = step^[k+1] (step^[n.toNat] s) := by
  rw [Function.iterate_succ_apply, Function.iterate_succ_apply, step_congr (jumpAhead_modEq s n)]

/-- C01: moreover the internal state is the same, unless nothing was skipped and the seed had its top
bit set (in which case `jump_ahead(0)` clears that bit, which no draw can see). -/
theorem C01_jump_ahead_state (s n : U64) (h : n ≠ 0#64 ∨ s.toNat < 2 ^ 63) :
    jumpAhead s n = step^[n.toNat] s := by
  refine eq_of_modEq (jumpAhead_lt s n) ?_ (jumpAhead_modEq s n)
  rcases Nat.eq_zero_or_pos n.toNat with h0 | h0
  · have hn : n = 0#64 := BitVec.eq_of_toNat_eq (by simpa using h0)
    rw [h0]
    rcases h with h | h
    · exact absurd hn h
    · simpa using h
  · obtain ⟨d, hd⟩ : ∃ d, n.toNat = d + 1 := ⟨n.toNat - 1, by omega⟩
    rw [hd]; exact iter_succ_lt s d

/-- C01: jumps compose. -/
theorem C01_jump_ahead_add (s m n : U64) (h : m.toNat + n.toNat < 2 ^ 64) :
    jumpAhead (jumpAhead s m) n = jumpAhead s (m + n) := by
  refine eq_of_modEq (jumpAhead_lt _ _) (jumpAhead_lt _ _) ?_
  refine (jumpAhead_modEq _ _).trans (Nat.ModEq.trans ?_ (jumpAhead_modEq _ _).symm)
  have e : (m + n).toNat = n.toNat + m.toNat := by
    rw [BitVec.toNat_add, Nat.mod_eq_of_lt h, add_comm]
  rw [e, Function.iterate_add_apply]
  refine (iter_modEq _ _).trans (Nat.ModEq.trans ?_ (iter_modEq _ _).symm)
  exact ((jumpAhead_modEq s m).mul_left _).add_right _

-- the hypotheses are satisfiable, with a non-trivial skip
example : ∃ s n : U64, (n ≠ 0#64 ∨ s.toNat < 2 ^ 63) ∧ n.toNat = 2000000 ∧ s.toNat = 2 ^ 63 + 5 :=
  ⟨9223372036854775813#64, 2000000#64, by decide, by decide, by decide⟩
example : ∃ m n : U64, m.toNat + n.toNat < 2 ^ 64 ∧ m.toNat = 7 ∧ n.toNat = 2 ^ 63 :=
  ⟨7#64, 9223372036854775808#64, by decide, by decide, by decide⟩

/-- C02: in every window of `2^63` draws each 63-bit number is drawn exactly once. -/
theorem C02_full_period (s : U64) (t : Nat) (ht : t < 2 ^ 63) :
    ∃! i, i < 2 ^ 63 ∧ (step^[i+1] s).toNat = t := by
  have inj : ∀ i j, i < 2 ^ 63 → j < 2 ^ 63 → i ≤ j → (step^[i+1] s).toNat = (step^[j+1] s).toNat →
      i = j := by
    intro i j hi hj hij h
    have := dvd_sub_of_iter_eq s i j hij (BitVec.eq_of_toNat_eq h)
    have := Nat.eq_zero_of_dvd_of_lt this (by omega)
    omega
  have inj' : ∀ i j, i < 2 ^ 63 → j < 2 ^ 63 → (step^[i+1] s).toNat = (step^[j+1] s).toNat →
      i = j := by
    intro i j hi hj h
    rcases Nat.le_total i j with hij | hij
    · exact inj i j hi hj hij h
    · exact (inj j i hj hi hij h.symm).symm
  let f : Fin (2 ^ 63) → Fin (2 ^ 63) := fun i => ⟨(step^[i.1+1] s).toNat, iter_succ_lt s i.1⟩
  have hf : Function.Injective f := by
    intro i j h
    have := congrArg Fin.val h
    exact Fin.ext (inj' i.1 j.1 i.2 j.2 this)
  obtain ⟨i, hi⟩ := (Finite.injective_iff_surjective.mp hf) ⟨t, ht⟩
  have hi' : (step^[i.1+1] s).toNat = t := congrArg Fin.val hi
  refine ⟨i.1, ⟨i.2, hi'⟩, ?_⟩
  rintro j ⟨hj, hjt⟩
  exact inj' j i.1 hj i.2 (hjt.trans hi'.symm)

/-- C02: the stream is periodic with period exactly `2^63`: two draws give the same number exactly
when their positions differ by a multiple of `2^63`. -/
theorem C02_period_exact (s : U64) (i j : Nat) :
    step^[i+1] s = step^[j+1] s ↔ i ≡ j [MOD 2 ^ 63] := by
  have per : ∀ x : U64, x.toNat < 2 ^ 63 → step^[2 ^ 63] x = x := by
    intro x hx
    have hx1 : x.toNat < 2 ^ 63 := hx
    obtain ⟨d, ⟨hd, hdx⟩, -⟩ := C02_full_period x x.toNat hx1
    have hdx' : step^[d+1] x = x := BitVec.eq_of_toNat_eq hdx
    have h2 := dvd_of_iter_eq x (d + 1) (by rw [hdx'])
    have : d + 1 = 2 ^ 63 := Nat.le_antisymm (by omega) (Nat.le_of_dvd (by omega) h2)
    rw [← this]; exact hdx'
  have perk : ∀ (x : U64) (k : Nat), x.toNat < 2 ^ 63 → step^[2 ^ 63 * k] x = x := by
    intro x k hx
    rw [Function.iterate_mul]
    exact Function.iterate_fixed (per x hx) k
  have fwd : ∀ i j, i ≤ j → i ≡ j [MOD 2 ^ 63] → step^[i+1] s = step^[j+1] s := by
    intro i j hij h
    obtain ⟨k, hk⟩ := (Nat.modEq_iff_dvd' hij).mp h
    have : j + 1 = 2 ^ 63 * k + (i + 1) := by omega
    rw [this, Function.iterate_add_apply step (2 ^ 63 * k) (i + 1), perk _ _ (iter_succ_lt s i)]
  constructor
  · intro h
    rcases Nat.le_total i j with hij | hij
    · exact (Nat.modEq_iff_dvd' hij).mpr (dvd_sub_of_iter_eq s i j hij h)
    · exact ((Nat.modEq_iff_dvd' hij).mpr (dvd_sub_of_iter_eq s j i hij h.symm)).symm
  · intro h
    rcases Nat.le_total i j with hij | hij
    · exact fwd i j hij h
    · exact (fwd j i hij h.symm).symm

example : ∃ t : Nat, t < 2 ^ 63 ∧ 2 ^ 62 < t := ⟨2 ^ 62 + 1, by norm_num⟩

/-- C03 (full claim, false): `random()` is below one in every state. -/
def C03_random_claim : Prop := ∀ s : U64, randomNum s < 2 ^ 63

theorem log2_eq {x k : Nat} (h1 : 2 ^ k ≤ x) (h2 : x < 2 ^ (k + 1)) : Nat.log2 x = k := by
  have hx : x ≠ 0 := by have := Nat.two_pow_pos k; omega
  have hl := Nat.log2_self_le hx
  have hu := Nat.lt_log2_self (n := x)
  have a : Nat.log2 x < k + 1 := (Nat.pow_lt_pow_iff_right (by norm_num : 1 < 2)).mp (lt_of_le_of_lt hl h2)
  have b : k < Nat.log2 x + 1 := (Nat.pow_lt_pow_iff_right (by norm_num : 1 < 2)).mp (lt_of_le_of_lt h1 hu)
  omega

/-- Rounding of the top of the 63-bit range. -/
theorem rne53_lt_iff (x : Nat) (hx : x < 2 ^ 63) : rne53 x < 2 ^ 63 ↔ x < 2 ^ 63 - 512 := by
  rcases Nat.lt_or_ge x (2 ^ 62) with h | h
  · refine ⟨fun _ => by omega, fun _ => ?_⟩
    rcases Nat.lt_or_ge x (2 ^ 53) with h' | h'
    · unfold rne53; rw [if_pos h']; omega
    · have hle := rne53_le x h'
      have hl : Nat.log2 x < 62 :=
        (Nat.pow_lt_pow_iff_right (by norm_num : 1 < 2)).mp
          (lt_of_le_of_lt (Nat.log2_self_le (by omega)) h)
      have : 2 ^ (Nat.log2 x - 52) ≤ 2 ^ 10 := Nat.pow_le_pow_right (by norm_num) (by omega)
      omega
  · have hl : Nat.log2 x = 62 := log2_eq h (by simpa using hx)
    have hdm := Nat.div_add_mod x 1024
    have hm := Nat.mod_lt x (show 1024 > 0 by norm_num)
    unfold rne53
    rw [if_neg (by omega), hl]
    simp only [show 62 - 52 = 10 from rfl, show (2:Nat) ^ 10 = 1024 from rfl]
    split <;> rename_i hc
    · constructor <;> intro hh <;> omega
    · constructor <;> intro hh <;> omega

/-- C03: the claim holds exactly for the draws below `2^63 - 512`. -/
theorem C03_random_below_one_partial (s : U64) :
    randomNum s < 2 ^ 63 ↔ (step s).toNat < 2 ^ 63 - 512 :=
  rne53_lt_iff _ (step_lt s)

/-- C03: from every seed, at some draw `random()` returns exactly one. -/
theorem C03_random_reaches_one (seed : U64) : ∃ i < 2 ^ 63, randomNum (step^[i] seed) = 2 ^ 63 := by
  obtain ⟨i, ⟨hi, ht⟩, -⟩ := C02_full_period seed (2 ^ 63 - 1) (by norm_num)
  refine ⟨i, hi, ?_⟩
  unfold randomNum
  rw [← Function.iterate_succ_apply' step, ht]
  decide

/-- C03: the documented claim is false. -/
theorem C03_random_claim_false : ¬ C03_random_claim := by
  intro h
  obtain ⟨i, -, hi⟩ := C03_random_reaches_one 1#64
  have := h (step^[i] 1#64)
  omega

theorem rne53_mul_two_pow (n : Nat) (h0 : 0 < n) (hn : n < 2 ^ 31) :
    rne53 (2 ^ 63 * n) = 2 ^ 63 * n := by
  have hl : Nat.log2 (2 ^ 63 * n) = Nat.log2 n + 63 := by
    have h1 := Nat.log2_self_le (n := n) (by omega)
    have h2 := Nat.lt_log2_self (n := n)
    apply log2_eq
    · rw [pow_add]; omega
    · rw [show Nat.log2 n + 63 + 1 = (Nat.log2 n + 1) + 63 by ring, pow_add]; omega
  have hk : Nat.log2 n < 31 :=
    (Nat.pow_lt_pow_iff_right (by norm_num : 1 < 2)).mp
      (lt_of_le_of_lt (Nat.log2_self_le (by omega)) hn)
  have hdvd : 2 ^ (Nat.log2 n + 63 - 52) ∣ 2 ^ 63 * n :=
    Dvd.dvd.mul_right (Nat.pow_dvd_pow 2 (by omega)) n
  unfold rne53
  rw [if_neg (by omega), hl]
  simp only
  have hr := Nat.mod_eq_zero_of_dvd hdvd
  have hpos := Nat.two_pow_pos (Nat.log2 n + 63 - 52)
  rw [hr, if_neg (by omega)]
  exact Nat.div_mul_cancel hdvd

/-- C03: and then `random_int(n)` returns `n`, one past the documented range, for every bound. -/
theorem C03_random_int_reaches_bound (seed : U64) (n : Nat) (h0 : 0 < n) (hn : n < 2 ^ 31) :
    ∃ i < 2 ^ 63, randomInt (step^[i] seed) n = n := by
  obtain ⟨i, hi, h⟩ := C03_random_reaches_one seed
  refine ⟨i, hi, ?_⟩
  unfold randomInt
  rw [h, rne53_mul_two_pow n h0 hn]
  exact Nat.mul_div_cancel_left n (by norm_num)

/-- C03: outside those 512 states `random_int(n)` is in `[0,n)` for every positive `int` bound. -/
theorem C03_random_int_partial (s : U64) (n : Nat) (h0 : 0 < n) (hn : n < 2 ^ 31)
    (hs : (step s).toNat < 2 ^ 63 - 512) : randomInt s n < n := by
  have h1 : randomNum s ≤ 2 ^ 63 - 2 ^ 10 := by
    unfold randomNum
    have hlt := (rne53_lt_iff _ (step_lt s)).mpr hs
    generalize (step s).toNat = x at *
    rcases Nat.lt_or_ge x (2 ^ 62) with h | h
    · rcases Nat.lt_or_ge x (2 ^ 53) with h' | h'
      · unfold rne53; rw [if_pos h']; omega
      · have hle := rne53_le x h'
        have hl : Nat.log2 x < 62 :=
          (Nat.pow_lt_pow_iff_right (by norm_num : 1 < 2)).mp
            (lt_of_le_of_lt (Nat.log2_self_le (by omega)) h)
        have : 2 ^ (Nat.log2 x - 52) ≤ 2 ^ 10 := Nat.pow_le_pow_right (by norm_num) (by omega)
        omega
    · have hl : Nat.log2 x = 62 := log2_eq h (by omega)
      unfold rne53 at hlt ⊢
      rw [if_neg (by omega), hl] at hlt ⊢
      simp only [show 62 - 52 = 10 from rfl] at hlt ⊢
      split <;> rename_i hc <;> simp only [hc, if_true, if_false] at hlt <;> omega
  unfold randomInt
  rw [Nat.div_lt_iff_lt_mul (by norm_num)]
  set p := randomNum s * n with hp
  have hpn : p ≤ n * (2 ^ 63 - 2 ^ 10) := by
    rw [hp, mul_comm]; exact Nat.mul_le_mul_left n h1
  rcases Nat.lt_or_ge p (2 ^ 53) with h' | h'
  · unfold rne53; rw [if_pos h']; omega
  · have hle := rne53_le p h'
    have hlg := Nat.log2_self_le (n := p) (by omega)
    have h52 : 52 ≤ Nat.log2 p := by
      have := Nat.lt_log2_self (n := p)
      have := (Nat.pow_lt_pow_iff_right (by norm_num : 1 < 2)).mp (lt_of_le_of_lt h' this)
      omega
    have e : 2 ^ Nat.log2 p = 2 ^ (Nat.log2 p - 52) * 2 ^ 52 := by
      rw [← pow_add, Nat.sub_add_cancel h52]
    omega

example : ∃ (s : U64) (n : Nat), 0 < n ∧ n < 2 ^ 31 ∧ (step s).toNat < 2 ^ 63 - 512 ∧ randomInt s n = 304 :=
  ⟨1#64, 1000, by decide, by decide, by decide, by decide +kernel⟩

/-- The `(i+1)`-th random number used by the history with identifier `id` in a cycle with offset `off`. -/
def historyDraw (seed : U64) (id off : BitVec 32) (i : Nat) : U64 :=
  step^[i+1] (historyStart seed id off)

/-- C04 (full claim, false): the first 10000 draws of histories with different numbers are disjoint. -/
def C04_claim : Prop := ∀ (seed : U64) (id1 id2 off1 off2 : BitVec 32),
  id1.toNat + off1.toNat ≠ id2.toNat + off2.toNat →
  DisjointDraws (historyDraw seed id1 off1) (historyDraw seed id2 off2) 10000

theorem historyDraw_eq (seed : U64) (id off : BitVec 32) (i : Nat) :
    historyDraw seed id off i = step^[((id + off) * 10000#32).toNat + i + 1] seed := by
  unfold historyDraw historyStart
  rw [C01_jump_ahead_draws]
  have : (BitVec.setWidth 64 ((id + off) * 10000#32)).toNat = ((id + off) * 10000#32).toNat := by
    rw [BitVec.toNat_setWidth]
    exact Nat.mod_eq_of_lt (lt_trans (BitVec.isLt _) (by norm_num))
  rw [this, ← Function.iterate_add_apply]
  rw [show i + 1 + ((id + off) * 10000#32).toNat = ((id + off) * 10000#32).toNat + i + 1 by omega]

/-- C04: the histories numbered 0 and 429497 share draws (the product wraps around in 32 bits), for every
seed of the run. -/
theorem C04_histories_overlap (seed : U64) :
    historyDraw seed 0#32 0#32 2704 = historyDraw seed 429497#32 0#32 0 := by
  rw [historyDraw_eq, historyDraw_eq]
  rfl

/-- C04: histories whose numbers differ by `2^28` use the very same random numbers throughout. -/
theorem C04_histories_repeat (seed : U64) (id off : BitVec 32) (i : Nat) :
    historyDraw seed (id + 268435456#32) off i = historyDraw seed id off i := by
  rw [historyDraw_eq, historyDraw_eq]
  have : (id + 268435456#32 + off) * 10000#32 = (id + off) * 10000#32 := by
    have e : id + 268435456#32 + off = (id + off) + 268435456#32 := by
      rw [BitVec.add_assoc, BitVec.add_comm _ off, BitVec.add_assoc]
    rw [e, BitVec.add_mul]
    have : 268435456#32 * 10000#32 = 0#32 := by decide
    rw [this, BitVec.add_zero]
  rw [this]

/-- C04: the claim is false. -/
theorem C04_claim_false : ¬ C04_claim := by
  intro h
  exact h 1#64 0#32 429497#32 0#32 0#32 (by decide) 2704 0 (by norm_num) (by norm_num)
    (C04_histories_overlap 1#64)

/-- C04: the claim holds while no history number exceeds 429495 (no wrap-around of the 32-bit product).
Missing with respect to the full claim: larger history numbers, for which it is false. -/
theorem C04_disjoint_partial (seed : U64) (id1 id2 off1 off2 : BitVec 32)
    (hne : id1.toNat + off1.toNat ≠ id2.toNat + off2.toNat)
    (h1 : id1.toNat + off1.toNat ≤ 429496) (h2 : id2.toNat + off2.toNat ≤ 429496) :
    DisjointDraws (historyDraw seed id1 off1) (historyDraw seed id2 off2) 10000 := by
  have val : ∀ a b : BitVec 32, a.toNat + b.toNat ≤ 429496 →
      ((a + b) * 10000#32).toNat = (a.toNat + b.toNat) * 10000 := by
    intro a b h
    rw [BitVec.toNat_mul, BitVec.toNat_add]
    have : (10000#32 : BitVec 32).toNat = 10000 := by decide
    rw [this]
    omega
  intro i j hi hj heq
  rw [historyDraw_eq, historyDraw_eq, val _ _ h1, val _ _ h2, C02_period_exact] at heq
  have := Nat.ModEq.eq_of_lt_of_lt heq (by omega) (by omega)
  omega

example : ∃ id1 id2 off1 off2 : BitVec 32, id1.toNat + off1.toNat ≠ id2.toNat + off2.toNat ∧
    id1.toNat + off1.toNat ≤ 429496 ∧ id2.toNat + off2.toNat ≤ 429496 :=
  ⟨17#32, 17#32, 10000#32, 20000#32, by decide⟩

end Verif.Rng
