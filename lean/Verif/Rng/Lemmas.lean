import Verif.Rng.Model
import Mathlib.Tactic.Ring
import Mathlib.Tactic.LinearCombination
import Mathlib.Data.Nat.ModEq
import Mathlib.Data.Nat.Prime.Basic

namespace Verif.Rng

theorem and_mask_toNat (x : U64) : (x &&& mask).toNat = x.toNat % 2 ^ 63 := by
  have : mask.toNat = 2 ^ 63 - 1 := by decide
  rw [BitVec.toNat_and, this, Nat.and_two_pow_sub_one_eq_mod]

theorem mod64_mod63 (x : Nat) : x % 2 ^ 64 % 2 ^ 63 = x % 2 ^ 63 :=
  Nat.mod_mod_of_dvd x ⟨2, by norm_num⟩

theorem mod64_modEq (x : Nat) : x % 2 ^ 64 ≡ x [MOD 2 ^ 63] := mod64_mod63 x

theorem and_mask_modEq (x : U64) : (x &&& mask).toNat ≡ x.toNat [MOD 2 ^ 63] := by
  rw [and_mask_toNat]; exact Nat.mod_modEq _ _

theorem mul_modEq (x y : U64) : (x * y).toNat ≡ x.toNat * y.toNat [MOD 2 ^ 63] := by
  rw [BitVec.toNat_mul]; exact mod64_modEq _

theorem add_modEq (x y : U64) : (x + y).toNat ≡ x.toNat + y.toNat [MOD 2 ^ 63] := by
  rw [BitVec.toNat_add]; exact mod64_modEq _

/-- Multiplier as a number. -/
def M : Nat := 2806196910506780709

theorem step_modEq (s : U64) : (step s).toNat ≡ s.toNat * M + 1 [MOD 2 ^ 63] := by
  unfold step
  refine (and_mask_modEq _).trans ((add_modEq _ _).trans ?_)
  have h1 : mMul.toNat = M := by decide
  have h2 : bAdd.toNat = 1 := by decide
  have := mul_modEq s mMul
  rw [h1] at this
  rw [h2]
  exact this.add_right 1

theorem step_lt (s : U64) : (step s).toNat < 2 ^ 63 := by
  unfold step; rw [and_mask_toNat]; exact Nat.mod_lt _ (by norm_num)

theorem iter_succ_lt (s : U64) (n : Nat) : (step^[n+1] s).toNat < 2 ^ 63 := by
  rw [Function.iterate_succ_apply']; exact step_lt _

/-- Two 63-bit states that are congruent are equal. -/
theorem eq_of_modEq {x y : U64} (hx : x.toNat < 2 ^ 63) (hy : y.toNat < 2 ^ 63)
    (h : x.toNat ≡ y.toNat [MOD 2 ^ 63]) : x = y :=
  BitVec.eq_of_toNat_eq (Nat.ModEq.eq_of_lt_of_lt h hx hy)

/-- geometric sum 1 + a + ... + a^(n-1) -/
def S (a : Nat) : Nat → Nat
  | 0 => 0
  | n + 1 => S a n * a + 1

theorem S_add (a m n : Nat) : S a (m + n) = S a m * a ^ n + S a n := by
  induction n with
  | zero => simp [S]
  | succ n ih => rw [← add_assoc, S, ih, S, pow_succ]; ring

theorem iter_modEq (s : U64) (n : Nat) :
    (step^[n] s).toNat ≡ M ^ n * s.toNat + S M n [MOD 2 ^ 63] := by
  induction n with
  | zero => simp [S]; rfl
  | succ n ih =>
    rw [Function.iterate_succ_apply']
    refine (step_modEq _).trans ?_
    have := ((ih.mul_right M).add_right 1)
    refine this.trans ?_
    have e : (M ^ n * s.toNat + S M n) * M + 1 = M ^ (n+1) * s.toNat + S M (n+1) := by
      rw [S, pow_succ]; ring
    rw [e]

/-- Loop invariant of the jump: if `(g,b)` is the affine map of `2^i` steps and `(gNew,bNew)` the map
of `k` steps, then the result is the map of `k + 2^i * nskip` steps. -/
theorem jumpLoop_spec (nskip g b gNew bNew : U64) (p k : Nat)
    (hg : g.toNat ≡ M ^ p [MOD 2 ^ 63]) (hb : b.toNat ≡ S M p [MOD 2 ^ 63])
    (hgN : gNew.toNat ≡ M ^ k [MOD 2 ^ 63]) (hbN : bNew.toNat ≡ S M k [MOD 2 ^ 63]) :
    (jumpLoop nskip g b gNew bNew).1.toNat ≡ M ^ (k + p * nskip.toNat) [MOD 2 ^ 63] ∧
    (jumpLoop nskip g b gNew bNew).2.toNat ≡ S M (k + p * nskip.toNat) [MOD 2 ^ 63] := by
  fun_induction jumpLoop nskip g b gNew bNew generalizing p k with
  | case1 => simpa using ⟨hgN, hbN⟩
  | case2 nskip g b gNew bNew hne gNew' bNew' ih =>
    have hg2 : ((g * g) &&& mask).toNat ≡ M ^ (2 * p) [MOD 2 ^ 63] := by
      refine (and_mask_modEq _).trans ((mul_modEq _ _).trans ?_)
      have := hg.mul hg
      rwa [← pow_add, ← two_mul] at this
    have hb2 : (((g + 1#64) * b) &&& mask).toNat ≡ S M (2 * p) [MOD 2 ^ 63] := by
      refine (and_mask_modEq _).trans ((mul_modEq _ _).trans ?_)
      have h1 : (g + 1#64).toNat ≡ M ^ p + 1 [MOD 2 ^ 63] :=
        (add_modEq _ _).trans (hg.add_right 1)
      have := h1.mul hb
      rw [two_mul, S_add]
      refine this.trans ?_
      rw [add_mul, one_mul, mul_comm]
    have hdiv : (nskip >>> 1).toNat = nskip.toNat / 2 := by
      simp [BitVec.toNat_ushiftRight, Nat.shiftRight_eq_div_pow]
    have hand : (nskip &&& 1#64).toNat = nskip.toNat % 2 := by
      simp [BitVec.toNat_and, Nat.and_one_is_mod]
    by_cases hodd : nskip &&& 1#64 ≠ 0#64
    · have hmod : nskip.toNat % 2 = 1 := by
        have : nskip.toNat % 2 ≠ 0 := by
          intro h0; apply hodd; apply BitVec.eq_of_toNat_eq; rw [hand, h0]; rfl
        omega
      have e : k + p * nskip.toNat = (k + p) + 2 * p * (nskip.toNat / 2) := by
        have : nskip.toNat = 2 * (nskip.toNat / 2) + 1 := by omega
        conv_lhs => rw [this]
        ring
      have := ih (2 * p) (k + p) hg2 hb2 (by
        simp only [gNew', dif_pos hodd]
        refine (and_mask_modEq _).trans ((mul_modEq _ _).trans ?_)
        rw [pow_add]; exact hgN.mul hg) (by
        simp only [bNew', dif_pos hodd]
        refine (and_mask_modEq _).trans ((add_modEq _ _).trans ?_)
        rw [S_add]; exact ((mul_modEq _ _).trans (hbN.mul hg)).add hb)
      rw [hdiv, ← e] at this
      exact this
    · have hmod : nskip.toNat % 2 = 0 := by
        rw [← hand, not_not.mp hodd]; rfl
      have e : k + p * nskip.toNat = k + 2 * p * (nskip.toNat / 2) := by
        have : nskip.toNat = 2 * (nskip.toNat / 2) := by omega
        conv_lhs => rw [this]
        ring
      have := ih (2 * p) k hg2 hb2 (by simpa only [gNew', dif_neg hodd] using hgN)
        (by simpa only [bNew', dif_neg hodd] using hbN)
      rw [hdiv, ← e] at this
      exact this

theorem jumpAhead_modEq (s n : U64) :
    (jumpAhead s n).toNat ≡ (step^[n.toNat] s).toNat [MOD 2 ^ 63] := by
  have h1 : mMul.toNat = M := by decide
  have h2 : bAdd.toNat = 1 := by decide
  obtain ⟨hg, hb⟩ := jumpLoop_spec n mMul bAdd 1#64 0#64 1 0 (by rw [h1, pow_one])
    (by rw [h2]; simp [S]; rfl) (by simp; rfl) (by simp [S]; rfl)
  rw [zero_add, one_mul] at hg hb
  unfold jumpAhead
  refine (and_mask_modEq _).trans ((add_modEq _ _).trans ?_)
  refine (((mul_modEq _ _).trans (hg.mul_right _)).add hb).trans ?_
  exact (iter_modEq s n.toNat).symm

theorem jumpAhead_lt (s n : U64) : (jumpAhead s n).toNat < 2 ^ 63 := by
  unfold jumpAhead; simp only; rw [and_mask_toNat]; exact Nat.mod_lt _ (by norm_num)

/-- `step` only depends on the state modulo 2^63. -/
theorem step_congr {x y : U64} (h : x.toNat ≡ y.toNat [MOD 2 ^ 63]) : step x = step y :=
  eq_of_modEq (step_lt _) (step_lt _)
    ((step_modEq x).trans (((h.mul_right M).add_right 1).trans (step_modEq y).symm))

/-! ### full period -/

theorem pow_mod4 {a : Nat} (ha : a % 4 = 1) (d : Nat) : a ^ d % 4 = 1 := by
  induction d with
  | zero => simp
  | succ d ih => rw [pow_succ, Nat.mul_mod, ih, ha]

theorem S_odd {a : Nat} (ha : a % 4 = 1) (d : Nat) : S a d % 2 = d % 2 := by
  induction d with
  | zero => rfl
  | succ d ih =>
    rw [S, Nat.add_mod, Nat.mul_mod, ih]
    have : a % 2 = 1 := by omega
    rw [this]; omega

/-- `2^k` divides the geometric sum only if it divides the number of terms. -/
theorem dvd_of_dvd_S {a : Nat} (ha : a % 4 = 1) (k d : Nat) (h : 2 ^ k ∣ S a d) : 2 ^ k ∣ d := by
  induction k generalizing d with
  | zero => simp
  | succ k ih =>
    have hev : d % 2 = 0 := by
      rw [← S_odd ha]
      exact Nat.mod_eq_zero_of_dvd (dvd_trans (dvd_pow_self 2 (by omega)) h)
    obtain ⟨e, rfl⟩ : ∃ e, d = e + e := ⟨d / 2, by omega⟩
    have hS : S a (e + e) = 2 * (S a e * ((a ^ e + 1) / 2)) := by
      have h4 := pow_mod4 ha e
      have : a ^ e + 1 = 2 * ((a ^ e + 1) / 2) := by omega
      rw [S_add]
      calc S a e * a ^ e + S a e = S a e * (a ^ e + 1) := by ring
        _ = S a e * (2 * ((a ^ e + 1) / 2)) := by rw [← this]
        _ = _ := by ring
    rw [hS, pow_succ'] at h
    have h' : 2 ^ k ∣ S a e * ((a ^ e + 1) / 2) := Nat.dvd_of_mul_dvd_mul_left (by norm_num) h
    have hcop : Nat.Coprime (2 ^ k) ((a ^ e + 1) / 2) := by
      apply Nat.Coprime.pow_left
      rw [Nat.coprime_two_left]
      have h4 := pow_mod4 ha e
      exact Nat.odd_iff.mpr (by omega)
    have := ih e (hcop.dvd_of_dvd_mul_right h')
    rw [pow_succ', ← two_mul]
    exact Nat.mul_dvd_mul_left 2 this

theorem pow_eq_S (a d : Nat) (ha : 0 < a) : a ^ d = (a - 1) * S a d + 1 := by
  obtain ⟨c, rfl⟩ : ∃ c, a = c + 1 := ⟨a - 1, by omega⟩
  simp only [Nat.add_sub_cancel]
  induction d with
  | zero => simp [S]
  | succ d ih => rw [pow_succ, ih, S]; ring

/-- A state returns to itself only after a multiple of 2^63 steps. -/
theorem dvd_of_iter_eq (s : U64) (d : Nat) (h : (step^[d] s).toNat ≡ s.toNat [MOD 2 ^ 63]) :
    2 ^ 63 ∣ d := by
  have h1 := (iter_modEq s d).symm.trans h
  have hM : M % 4 = 1 := by decide
  have hp := pow_eq_S M d (by decide)
  have e : M ^ d * s.toNat + S M d = S M d * ((M - 1) * s.toNat + 1) + s.toNat := by
    rw [hp]; ring
  rw [e] at h1
  have h2 : S M d * ((M - 1) * s.toNat + 1) ≡ 0 [MOD 2 ^ 63] := by
    have : S M d * ((M - 1) * s.toNat + 1) + s.toNat ≡ 0 + s.toNat [MOD 2 ^ 63] := by simpa using h1
    exact Nat.ModEq.add_right_cancel' _ this
  have h3 := (Nat.modEq_zero_iff_dvd).mp h2
  have hcop : Nat.Coprime (2 ^ 63) ((M - 1) * s.toNat + 1) := by
    apply Nat.Coprime.pow_left
    rw [Nat.coprime_two_left, Nat.odd_iff]
    have : (M - 1) = 2 * ((M - 1) / 2) := by decide
    rw [this, mul_assoc]; omega
  exact dvd_of_dvd_S hM 63 d (hcop.dvd_of_dvd_mul_right h3)

theorem step_inj {x y : U64} (hx : x.toNat < 2 ^ 63) (hy : y.toNat < 2 ^ 63) (h : step x = step y) :
    x = y := by
  apply eq_of_modEq hx hy
  have h1 : x.toNat * M + 1 ≡ y.toNat * M + 1 [MOD 2 ^ 63] :=
    (step_modEq x).symm.trans ((by rw [h] : (step x).toNat ≡ (step y).toNat [MOD 2 ^ 63]).trans
      (step_modEq y))
  have h2 := Nat.ModEq.add_right_cancel' _ h1
  exact Nat.ModEq.cancel_right_of_coprime (by
    show Nat.gcd (2 ^ 63) M = 1
    decide) h2

theorem iter_inj {x y : U64} (hx : x.toNat < 2 ^ 63) (hy : y.toNat < 2 ^ 63) (n : Nat)
    (h : step^[n] x = step^[n] y) : x = y := by
  induction n generalizing x y with
  | zero => exact h
  | succ n ih =>
    rw [Function.iterate_succ_apply, Function.iterate_succ_apply] at h
    exact step_inj hx hy (ih (step_lt _) (step_lt _) h)

/-- Positions in the stream carrying the same state differ by a multiple of 2^63. -/
theorem dvd_sub_of_iter_eq (s : U64) (i j : Nat) (hij : i ≤ j)
    (h : step^[i+1] s = step^[j+1] s) : 2 ^ 63 ∣ j - i := by
  obtain ⟨d, rfl⟩ : ∃ d, j = i + d := ⟨j - i, by omega⟩
  have e : step^[i + d + 1] s = step^[i] (step^[d] (step s)) := by
    rw [← Function.iterate_add_apply, ← Function.iterate_succ_apply]
  rw [e, Function.iterate_succ_apply] at h
  have hlt : (step^[d] (step s)).toNat < 2 ^ 63 := by
    rw [← Function.iterate_succ_apply]; exact iter_succ_lt _ _
  have h' := iter_inj (step_lt s) hlt i h
  have := dvd_of_iter_eq (step s) d (by rw [← h'])
  simpa using this

/-! ### rounding -/

theorem log2_bounds {x : Nat} (hx : x ≠ 0) : 2 ^ Nat.log2 x ≤ x ∧ x < 2 ^ (Nat.log2 x + 1) :=
  ⟨Nat.log2_self_le hx, Nat.lt_log2_self⟩

/-- Rounding error is at most half a unit in the last place. -/
theorem rne53_le (x : Nat) (hx : 2 ^ 53 ≤ x) : 2 * rne53 x ≤ 2 * x + 2 ^ (Nat.log2 x - 52) := by
  unfold rne53
  rw [if_neg (by omega)]
  simp only
  have hd := Nat.div_add_mod x (2 ^ (Nat.log2 x - 52))
  generalize Nat.log2 x - 52 = e at *
  generalize x / 2 ^ e = q at *
  generalize x % 2 ^ e = r at *
  generalize 2 ^ e = w at *
  have : q * w = w * q := Nat.mul_comm _ _
  split
  · rw [Nat.add_mul]; omega
  · omega

end Verif.Rng
