import Verif.Fp.RoundLemmas
import Mathlib.Tactic.Linarith
import Mathlib.Tactic.NormNum
import Mathlib.Tactic.Positivity
import Mathlib.Tactic.Ring
import Mathlib.Tactic.FieldSimp
import Mathlib.Algebra.Order.Ring.Pow

/-!
# Relative errors of sums, products and quotients of doubles that are not negative
-/

namespace Verif.Fp

section

variable {K : Type} [Field K] [LinearOrder K] [IsStrictOrderedRing K] {rnd : K → K}

theorem rnn (R : Rounding rnd) {x : K} (h : 0 ≤ x) : 0 ≤ rnd x := R.zero.symm.le.trans (R.mono 0 x h)

/-- A rounded number is not below a number of the machine that the exact one is not below. -/
theorem rge (R : Rounding rnd) {a x : K} (ha : rnd a = a) (h : a ≤ x) : a ≤ rnd x := ha.symm.le.trans (R.mono a x h)

end

/-- Half a unit in the last place, relative. -/
def uro : ℚ := 1 / 2 ^ 53

theorem uro_zpow : (2 : ℚ) ^ (-53 : ℤ) = uro := by unfold uro; norm_num

theorem uro_pos : 0 < uro := by unfold uro; norm_num

/-- Zero, or not so small that the last places are lost. -/
def Normal (x : ℚ) : Prop := x = 0 ∨ (2 : ℚ) ^ (-1022 : ℤ) ≤ |x|

theorem rel_normal {x : ℚ} (h : Normal x) : |rnd64 x - x| ≤ uro * |x| := by
  rcases h with h | h
  · rw [h, rnd64_zero]; simp
  · have := rnd64_error x h
    rwa [uro_zpow] at this

/-- A double is a multiple of the smallest one. -/
theorem double_mult {a : ℚ} (h : rnd64 a = a) : ∃ n : ℤ, a = n * 2 ^ (-1074 : ℤ) := by
  obtain ⟨m, hm⟩ := pow_mult (a := -1074) (b := lastPlace a) (by unfold lastPlace; omega)
  refine ⟨rne (a / 2 ^ lastPlace a) * m, ?_⟩
  rw [Int.cast_mul, mul_assoc, ← hm]
  exact h.symm

/-- Sums of doubles lose no places by being small. -/
theorem rel_add {a b : ℚ} (ha : rnd64 a = a) (hb : rnd64 b = b) : |rnd64 (a + b) - (a + b)| ≤ uro * |a + b| := by
  by_cases h : (2 : ℚ) ^ (-1022 : ℤ) ≤ |a + b|
  · exact rel_normal (Or.inr h)
  · obtain ⟨n, hn⟩ := double_mult ha
    obtain ⟨m, hm⟩ := double_mult hb
    by_cases h0 : a + b = 0
    · exact rel_normal (Or.inl h0)
    have hl : lastPlace (a + b) = -1074 := by
      unfold lastPlace
      have : Int.log 2 |a + b| ≤ -1022 := by
        by_contra hc
        push Not at hc
        have h1 := Int.zpow_log_le_self (b := 2) (by norm_num) (abs_pos.mpr h0)
        apply h
        refine le_trans ?_ h1
        rw [Nat.cast_ofNat]
        exact zpow_le_zpow_right₀ (by norm_num) hc.le
      omega
    have key : a + b = ((n + m : ℤ) : ℚ) * 2 ^ lastPlace (a + b) := by
      rw [hl, Int.cast_add, add_mul]
      generalize (2 : ℚ) ^ (-1074 : ℤ) = s at hn hm ⊢
      rw [hn, hm]
    have hr : rnd64 (a + b) = a + b := rnd64_mult (a + b) (n + m) key
    have h2 : 0 ≤ uro * |a + b| := mul_nonneg uro_pos.le (abs_nonneg _)
    exact le_trans (abs_nonpos_iff.mpr (sub_eq_zero.mpr hr)) h2

theorem rel_sub {a b : ℚ} (ha : rnd64 a = a) (hb : rnd64 b = b) : |rnd64 (a - b) - (a - b)| ≤ uro * |a - b| := by
  have h := rel_add ha (b := -b) (by rw [rnd64_neg, hb])
  rwa [← sub_eq_add_neg] at h

/-- Off by at most `k` roundings. -/
def Near (k : Nat) (x y : ℚ) : Prop := 0 ≤ x ∧ x * (1 - uro) ^ k ≤ y ∧ y * (1 - uro) ^ k ≤ x

theorem one_sub_uro : 0 < 1 - uro ∧ 1 - uro ≤ 1 := by unfold uro; norm_num

theorem Near.nonneg {k : Nat} {x y : ℚ} (h : Near k x y) : 0 ≤ y := le_trans (mul_nonneg h.1 (pow_nonneg one_sub_uro.1.le _)) h.2.1

theorem Near.refl {x : ℚ} (h : 0 ≤ x) : Near 0 x x := ⟨h, by simp, by simp⟩

theorem Near.mono {k l : Nat} (hkl : k ≤ l) {x y : ℚ} (h : Near k x y) : Near l x y := by
  have hp : (1 - uro) ^ l ≤ (1 - uro) ^ k := pow_le_pow_of_le_one one_sub_uro.1.le one_sub_uro.2 hkl
  exact ⟨h.1, (mul_le_mul_of_nonneg_left hp h.1).trans h.2.1, (mul_le_mul_of_nonneg_left hp h.nonneg).trans h.2.2⟩

theorem Near.rnd {k : Nat} {x y : ℚ} (h : Near k x y) (hr : |rnd64 y - y| ≤ uro * |y|) : Near (k + 1) x (rnd64 y) := by
  have hy := h.nonneg
  rw [abs_of_nonneg hy] at hr
  obtain ⟨h1, h2⟩ := abs_le.mp hr
  have hk : 0 ≤ (1 - uro) ^ k := pow_nonneg one_sub_uro.1.le _
  have hu := uro_pos
  refine ⟨h.1, ?_, ?_⟩
  · calc x * (1 - uro) ^ (k + 1) = x * (1 - uro) ^ k * (1 - uro) := by ring
      _ ≤ y * (1 - uro) := mul_le_mul_of_nonneg_right h.2.1 one_sub_uro.1.le
      _ ≤ _ := by linarith
  · have h3 : rnd64 y * (1 - uro) ≤ y := by
      calc rnd64 y * (1 - uro) ≤ (y + uro * y) * (1 - uro) := mul_le_mul_of_nonneg_right (by linarith) one_sub_uro.1.le
        _ = y - uro * uro * y := by ring
        _ ≤ y := by have : 0 ≤ uro * uro * y := by positivity
                    linarith
    calc rnd64 y * (1 - uro) ^ (k + 1) = rnd64 y * (1 - uro) * (1 - uro) ^ k := by ring
      _ ≤ y * (1 - uro) ^ k := mul_le_mul_of_nonneg_right h3 hk
      _ ≤ x := h.2.2

theorem Near.add {k l : Nat} {a b c d : ℚ} (h : Near k a b) (h' : Near l c d) : Near (max k l) (a + c) (b + d) := by
  have g := h.mono (le_max_left k l)
  have g' := h'.mono (le_max_right k l)
  exact ⟨add_nonneg g.1 g'.1, by rw [add_mul]; exact add_le_add g.2.1 g'.2.1, by rw [add_mul]; exact add_le_add g.2.2 g'.2.2⟩

theorem Near.two {k : Nat} {a b : ℚ} (h : Near k a b) : Near k (2 * a) (2 * b) := by
  rw [two_mul, two_mul]
  have := h.add h
  rwa [max_self] at this

theorem Near.div {k l : Nat} {a b c d : ℚ} (h : Near k a b) (h' : Near l c d) (hc : 0 < c) (hd : 0 < d) : Near (k + l) (a / c) (b / d) := by
  have hk : 0 ≤ (1 - uro) ^ k := pow_nonneg one_sub_uro.1.le _
  have hl : 0 ≤ (1 - uro) ^ l := pow_nonneg one_sub_uro.1.le _
  refine ⟨div_nonneg h.1 hc.le, ?_, ?_⟩
  · rw [div_mul_eq_mul_div, div_le_div_iff₀ hc hd, pow_add]
    calc a * ((1 - uro) ^ k * (1 - uro) ^ l) * d = (a * (1 - uro) ^ k) * (d * (1 - uro) ^ l) := by ring
      _ ≤ b * c := mul_le_mul h.2.1 h'.2.2 (mul_nonneg hd.le hl) h.nonneg
  · rw [div_mul_eq_mul_div, div_le_div_iff₀ hd hc, pow_add]
    calc b * ((1 - uro) ^ k * (1 - uro) ^ l) * c = (b * (1 - uro) ^ k) * (c * (1 - uro) ^ l) := by ring
      _ ≤ a * d := mul_le_mul h.2.2 h'.2.1 (mul_nonneg hc.le hl) h.1

theorem Near.err {k : Nat} (hk : k ≤ 2 ^ 26) {x y : ℚ} (h : Near k x y) : |y - x| ≤ (k + 1) * uro * x := by
  have hb : 1 - k * uro ≤ (1 - uro) ^ k := by
    have := one_add_mul_le_pow (a := -uro) (by have := one_sub_uro; linarith) k
    simp only [mul_neg, ← sub_eq_add_neg] at this
    exact this
  have hk' : (k : ℚ) ≤ 2 ^ 26 := by exact_mod_cast hk
  have hk0 : (0 : ℚ) ≤ k := Nat.cast_nonneg k
  have hu := uro_pos
  have hx := h.1
  have hs : 0 ≤ uro * x := mul_nonneg hu.le hx
  have hy := h.nonneg
  have h1 := (mul_le_mul_of_nonneg_left hb hx).trans h.2.1
  have h2 := (mul_le_mul_of_nonneg_left hb hy).trans h.2.2
  rw [abs_le]
  constructor
  · nlinarith
  · have hku : (k : ℚ) * uro ≤ 2 ^ 26 * uro := mul_le_mul_of_nonneg_right hk' hu.le
    have u1 : 2 ^ 26 * uro ≤ 1 / 2 ^ 27 := by unfold uro; norm_num
    have p : (1 + (k + 1) * uro) * (1 - k * uro) ≥ 1 := by
      have : (1 + (k + 1) * uro) * (1 - k * uro) = 1 + uro * (1 - (k + 1) * (k * uro)) := by ring
      rw [this]
      have : (k + 1) * (k * uro) ≤ (2 ^ 26 + 1) * (1 / 2 ^ 27) := mul_le_mul (by linarith) (hku.trans u1) (by positivity) (by norm_num)
      have : 0 ≤ uro * (1 - (k + 1) * (k * uro)) := mul_nonneg hu.le (by norm_num at this; linarith)
      linarith
    have pos : 0 < 1 - k * uro := by norm_num at u1; linarith
    have : y * (1 - k * uro) ≤ (x + (k + 1) * uro * x) * (1 - k * uro) := by
      calc y * (1 - k * uro) ≤ x := h2
        _ ≤ x * ((1 + (k + 1) * uro) * (1 - k * uro)) := le_mul_of_one_le_right hx p
        _ = _ := by ring
    have := le_of_mul_le_mul_right this pos
    linarith

theorem rel_two {a : ℚ} (ha : rnd64 a = a) : |rnd64 (2 * a) - 2 * a| ≤ uro * |2 * a| := by
  rw [two_mul]
  exact rel_add ha ha

/-- A number of the machine. -/
def Dbl (x : ℚ) : Prop := rnd64 x = x

theorem dbl_rnd (x : ℚ) : Dbl (rnd64 x) := rnd64_idem x

theorem near_prod {a b : ℚ} (ha : 0 ≤ a) (hb : 0 ≤ b) (h : Normal (a * b)) : Near 1 (a * b) (rnd64 (a * b)) :=
  (Near.refl (mul_nonneg ha hb)).rnd (rel_normal h)

theorem near_add {k l : Nat} {a b c d : ℚ} (h : Near k a b) (h' : Near l c d) (hb : Dbl b) (hd : Dbl d) : Near (max k l + 1) (a + c) (rnd64 (b + d)) :=
  (h.add h').rnd (rel_add hb hd)

theorem near_two {k : Nat} {a b : ℚ} (h : Near k a b) (hb : Dbl b) : Near (k + 1) (2 * a) (rnd64 (2 * b)) :=
  h.two.rnd (rel_two hb)

/-- Zero, or well above the smallest numbers. -/
def Sizeable (x : ℚ) : Prop := x = 0 ∨ (2 : ℚ) ^ (-1021 : ℤ) ≤ x

/-- What is close to a sizeable number is not so small that places are lost. -/
theorem Near.normal {k : Nat} (hk : k ≤ 2 ^ 26) {x y : ℚ} (hq : Near k x y) (hs : Sizeable x) : Normal y := by
  rcases hs with hs | hs
  · left
    have h1 := hq.2.2
    rw [hs] at h1
    have h2 := hq.nonneg
    have hp : 0 < (1 - uro) ^ k := pow_pos one_sub_uro.1 _
    nlinarith
  · right
    rw [abs_of_nonneg hq.nonneg]
    have he := (abs_le.mp (hq.err hk)).1
    have hu : ((k : ℚ) + 1) * uro ≤ 1 / 2 := by
      have : ((k : ℚ) + 1) ≤ 2 ^ 26 + 1 := by
        have : (k : ℚ) ≤ 2 ^ 26 := by exact_mod_cast hk
        linarith
      calc _ ≤ (2 ^ 26 + 1) * uro := mul_le_mul_of_nonneg_right this uro_pos.le
        _ ≤ _ := by unfold uro; norm_num
    have hm := mul_le_mul_of_nonneg_right hu hq.1
    have hz : (2 : ℚ) ^ (-1021 : ℤ) = 2 * 2 ^ (-1022 : ℤ) := by
      rw [show (-1021 : ℤ) = 1 + -1022 by norm_num, zpow_add₀ (by norm_num), zpow_one]
    rw [hz] at hs
    generalize (2 : ℚ) ^ (-1022 : ℤ) = s at hs ⊢
    linarith

theorem near_div {k l : Nat} (hkl : k + l ≤ 2 ^ 26) {a b c d : ℚ} (h : Near k a b) (h' : Near l c d) (hc : 0 < c) (hd : 0 < d) (hs : Sizeable (a / c)) :
    Near (k + l + 1) (a / c) (rnd64 (b / d)) := by
  have hq := h.div h' hc hd
  exact hq.rnd (rel_normal (hq.normal hkl hs))

theorem Near.mul {k l : Nat} {a b c d : ℚ} (h : Near k a b) (h' : Near l c d) : Near (k + l) (a * c) (b * d) := by
  have hk : 0 ≤ (1 - uro) ^ k := pow_nonneg one_sub_uro.1.le _
  have hl : 0 ≤ (1 - uro) ^ l := pow_nonneg one_sub_uro.1.le _
  refine ⟨mul_nonneg h.1 h'.1, ?_, ?_⟩
  · rw [pow_add]
    calc a * c * ((1 - uro) ^ k * (1 - uro) ^ l) = (a * (1 - uro) ^ k) * (c * (1 - uro) ^ l) := by ring
      _ ≤ b * d := mul_le_mul h.2.1 h'.2.1 (mul_nonneg h'.1 hl) h.nonneg
  · rw [pow_add]
    calc b * d * ((1 - uro) ^ k * (1 - uro) ^ l) = (b * (1 - uro) ^ k) * (d * (1 - uro) ^ l) := by ring
      _ ≤ a * c := mul_le_mul h.2.2 h'.2.2 (mul_nonneg h'.nonneg hl) h.1

theorem near_mul {k l : Nat} (hkl : k + l ≤ 2 ^ 26) {a b c d : ℚ} (h : Near k a b) (h' : Near l c d) (hs : Sizeable (a * c)) : Near (k + l + 1) (a * c) (rnd64 (b * d)) := by
  have hq := h.mul h'
  exact hq.rnd (rel_normal (hq.normal hkl hs))

/-- A sum added up term by term. -/
theorem near_fold {ι : Type} (l : List ι) (t c : ι → ℚ) (k : Nat) (h : ∀ i ∈ l, Near k (t i) (c i) ∧ Dbl (c i)) (m : Nat) (hk : k ≤ m) (a b : ℚ) (hab : Near m a b) (db : Dbl b) :
    Near (m + l.length) (a + (l.map t).sum) (l.foldl (fun s i => rnd64 (s + c i)) b) ∧ Dbl (l.foldl (fun s i => rnd64 (s + c i)) b) := by
  induction l generalizing m a b with
  | nil => simpa using ⟨hab, db⟩
  | cons i t' ih =>
    obtain ⟨h1, h2⟩ := h i List.mem_cons_self
    have hs := near_add hab h1 db h2
    rw [max_eq_left hk] at hs
    have := ih (fun j hj => h j (List.mem_cons_of_mem _ hj)) (m + 1) (by omega) (a + t i) (rnd64 (b + c i)) hs (dbl_rnd _)
    simp only [List.foldl_cons, List.map_cons, List.sum_cons, List.length_cons]
    rw [show m + (t'.length + 1) = m + 1 + t'.length by omega, ← add_assoc]
    exact this

/-- A sum of terms that are not negative. -/
theorem foldr_nonneg {K : Type} [Field K] [LinearOrder K] [IsStrictOrderedRing K] {rnd : K → K} (R : Rounding rnd) {ι : Type} (l : List ι) (c : ι → K) (h : ∀ i ∈ l, 0 ≤ c i) (b : K) (hb : 0 ≤ b) :
    0 ≤ l.foldl (fun s i => rnd (s + c i)) b := by
  induction l generalizing b with
  | nil => exact hb
  | cons i t ih => exact ih (fun j hj => h j (List.mem_cons_of_mem _ hj)) _ (rnn R (add_nonneg hb (h i List.mem_cons_self)))

end Verif.Fp
