import Verif.Core.WhereFloatModel
import Verif.Core.WhereProps
import Verif.Cmfd.FloatProps
import Mathlib.Tactic.Positivity
import Mathlib.Tactic.NormNum
import Mathlib.Tactic.Linarith
import Mathlib.Tactic.Ring
import Mathlib.Tactic.FieldSimp
import Mathlib.Tactic.GCongr
import Verif.Fp.Props

/-!
# C153: faces of pins and lattices, and the location of points, in double precision
-/

namespace Verif.Core

open Verif.Mc (Out)
open Verif.Fp Verif.Fp.Spec

section order

variable {K : Type} [Field K] [LinearOrder K] [IsStrictOrderedRing K] {rnd : K → K}

omit [LinearOrder K] [IsStrictOrderedRing K] in
theorem facesF_length (hs : List K) : ∀ x : K, (facesF rnd hs x).length = hs.length + 1 := by
  induction hs with
  | nil => intro x; rfl
  | cons h hs ih => intro x; simp [facesF, ih]

omit [LinearOrder K] [IsStrictOrderedRing K] in
theorem facesF_zero (hs : List K) (x : K) : (facesF rnd hs x).getD 0 0 = x := by cases hs <;> simp [facesF]

omit [LinearOrder K] [IsStrictOrderedRing K] in
theorem facesF_last (hs : List K) : ∀ x : K, (facesF rnd hs x).getD hs.length 0 = hs.foldl (fun s h => rnd (s + h)) x := by
  induction hs with
  | nil => intro x; simp [facesF]
  | cons h hs ih => intro x; simpa [facesF] using ih (rnd (x + h))

omit [LinearOrder K] [IsStrictOrderedRing K] in
/-- **C153, last face.**  The corner of the bounding box is, bit for bit, the last face of the lattices of a plane. -/
theorem C153_corner (cs : List (List K)) : (facesF rnd (cs.map (totalF rnd)) 0).getD cs.length 0 = totalF rnd (cs.map (totalF rnd)) := by
  have := facesF_last (rnd := rnd) (cs.map (totalF rnd)) 0
  rwa [List.length_map] at this

theorem facesF_step (R : Rounding rnd) (hs : List K) (h0 : ∀ h ∈ hs, 0 ≤ h) : ∀ (x : K), rnd x = x → ∀ i, i < hs.length →
    (facesF rnd hs x).getD i 0 ≤ (facesF rnd hs x).getD (i + 1) 0 := by
  induction hs with
  | nil => intro x _ i hi; simp at hi
  | cons h hs ih =>
    intro x hx i hi
    cases i with
    | zero =>
      simp only [facesF, List.getD_cons_zero, List.getD_cons_succ, zero_add]
      rw [facesF_zero]
      exact rge R hx (by linarith [h0 h List.mem_cons_self])
    | succ i =>
      simp only [facesF, List.getD_cons_succ]
      exact ih (fun a ha => h0 a (List.mem_cons_of_mem _ ha)) _ (R.idem _) i (by simpa using hi)

/-- **C153, order.**  Whatever the rounding, faces accumulated from pitches that are not negative do not decrease. -/
theorem C153_sorted (R : Rounding rnd) (hs : List K) (h0 : ∀ h ∈ hs, 0 ≤ h) (i j : Nat) (hij : i ≤ j) (hj : j ≤ hs.length) :
    (facesF rnd hs 0).getD i 0 ≤ (facesF rnd hs 0).getD j 0 := by
  induction j with
  | zero => have : i = 0 := by omega
            rw [this]
  | succ j ih =>
    rcases Nat.lt_or_ge i (j + 1) with h | h
    · exact (ih (by omega) (by omega)).trans (facesF_step R hs h0 0 R.zero j (by omega))
    · rw [show i = j + 1 by omega]

omit [LinearOrder K] [IsStrictOrderedRing K] in
/-- **C153, exact sums.**  Where all sums of the first pitches are doubles, the faces are these sums. -/
theorem C153_exact (hs : List K) : ∀ x : K, (∀ i, i ≤ hs.length → rnd (x + (hs.take i).sum) = x + (hs.take i).sum) → facesF rnd hs x = interfaces hs x := by
  induction hs with
  | nil => intro x _; rfl
  | cons h hs ih =>
    intro x hx
    have h1 : rnd (x + h) = x + h := by simpa using hx 1 (by simp)
    simp only [facesF, interfaces, h1]
    rw [ih (x + h) fun i hi => by simpa [add_assoc] using hx (i + 1) (by simpa using hi)]

end order

/-! ## Errors of the faces -/

theorem facesF_near {ι : Type} (l : List ι) (t c : ι → ℚ) (k : Nat) (h : ∀ i ∈ l, Near k (t i) (c i) ∧ Dbl (c i)) : ∀ (m : Nat), k ≤ m → ∀ (a b : ℚ), Near m a b → Dbl b →
    ∀ j, j ≤ l.length → Near (m + j) (a + ((l.map t).take j).sum) ((facesF rnd64 (l.map c) b).getD j 0) ∧ Dbl ((facesF rnd64 (l.map c) b).getD j 0) := by
  induction l with
  | nil =>
    intro m _ a b hab db j hj
    have : j = 0 := by simpa using hj
    subst this
    simpa [facesF] using ⟨hab, db⟩
  | cons i l ih =>
    intro m hk a b hab db j hj
    cases j with
    | zero => simpa [facesF] using ⟨hab, db⟩
    | succ j =>
      obtain ⟨h1, h2⟩ := h i List.mem_cons_self
      have hs := near_add hab h1 db h2
      rw [max_eq_left hk] at hs
      have := ih (fun x hx => h x (List.mem_cons_of_mem _ hx)) (m + 1) (by omega) (a + t i) _ hs (dbl_rnd _) j (by simpa using hj)
      simp only [List.map_cons, facesF, List.getD_cons_succ, List.take_succ_cons, List.sum_cons]
      rw [show m + (j + 1) = m + 1 + j by omega, ← add_assoc]
      exact this

theorem sum_take_le (l : List ℚ) (h : ∀ x ∈ l, 0 ≤ x) (j : Nat) : (l.take j).sum ≤ l.sum := by
  have e : l.sum = (l.take j).sum + (l.drop j).sum := by rw [← List.sum_append, List.take_append_drop]
  have : 0 ≤ (l.drop j).sum := List.sum_nonneg fun x hx => h x (List.mem_of_mem_drop hx)
  linarith

theorem total_near (c : List ℚ) (hc : ∀ x ∈ c, 0 ≤ x ∧ Dbl x) : Near c.length c.sum (totalF rnd64 c) ∧ Dbl (totalF rnd64 c) := by
  have := near_fold c id id 0 (fun x hx => ⟨Near.refl (hc x hx).1, (hc x hx).2⟩) 0 le_rfl 0 0 (Near.refl le_rfl) rnd64_zero
  simpa [totalF] using this

/-- **C153, faces of pins.**  Each face is the exact sum of the pitches before it up to `k + 1` units of half the last place, `k` its number. -/
theorem C153_faces (hs : List ℚ) (h : ∀ x ∈ hs, 0 ≤ x ∧ Dbl x) (k : Nat) (hk : k ≤ hs.length) (hn : k ≤ 2 ^ 26) :
    |(facesF rnd64 hs 0).getD k 0 - (hs.take k).sum| ≤ (k + 1) * uro * (hs.take k).sum := by
  have := (facesF_near hs id id 0 (fun x hx => ⟨Near.refl (h x hx).1, (h x hx).2⟩) 0 le_rfl 0 0 (Near.refl le_rfl) rnd64_zero k hk).1
  simp only [List.map_id, zero_add] at this
  exact this.err hn

/-- **C153, faces of lattices.** -/
theorem C153_lattice_faces (cs : List (List ℚ)) (h : ∀ c ∈ cs, ∀ x ∈ c, 0 ≤ x ∧ Dbl x) (n : Nat) (hl : ∀ c ∈ cs, c.length ≤ n) (k : Nat) (hk : k ≤ cs.length) (hn : n + k ≤ 2 ^ 26) :
    |(facesF rnd64 (cs.map (totalF rnd64)) 0).getD k 0 - ((cs.take k).map List.sum).sum| ≤ (n + k + 1 : ℕ) * uro * ((cs.take k).map List.sum).sum := by
  have := (facesF_near cs List.sum (totalF rnd64) n (fun c hc => ⟨(total_near c (h c hc)).1.mono (hl c hc), (total_near c (h c hc)).2⟩) n le_rfl 0 0
    ((Near.refl le_rfl).mono (by omega)) rnd64_zero k hk).1
  rw [zero_add, ← List.map_take] at this
  have := this.err hn
  push_cast at this ⊢
  exact this

/-! ## Location in one list of faces -/

/-- `REAL_FUZZ`, fp_utils.hpp:39. -/
def fuzz : ℚ := 200 / 2 ^ 52

theorem fuzzyLtF_false (l r : ℚ) (hr : 0 < r) (h : r ≤ l) : fuzzyLtF rnd64 fuzz l r = false := by
  unfold fuzzyLtF
  rw [if_neg hr.ne']
  have h1 : 0 ≤ rnd64 (l - r) := rnn rounding64 (by linarith)
  have h2 : 0 ≤ rnd64 (rnd64 (l - r) / |r|) := rnn rounding64 (div_nonneg h1 (abs_nonneg _))
  rw [decide_eq_false_iff_not, not_lt]
  have : 0 < fuzz := by unfold fuzz; norm_num
  linarith

theorem fuzzyLtF_true (l r m : ℚ) (dl : Dbl l) (dr : Dbl r) (hr : 0 < r) (hm : 2 * fuzz * r ≤ m) (h : l + m ≤ r) : fuzzyLtF rnd64 fuzz l r = true := by
  unfold fuzzyLtF
  rw [if_neg hr.ne', decide_eq_true_iff, abs_of_pos hr]
  have h1 := rel_sub dl dr
  rw [abs_of_nonpos (show l - r ≤ 0 by unfold fuzz at hm; nlinarith)] at h1
  have h2 := (abs_le.mp h1).2
  have hu : uro ≤ 1 / 4 := by unfold uro; norm_num
  have h3 : rnd64 (l - r) / r ≤ -(300 / 2 ^ 52) := by
    rw [div_le_iff₀ hr]
    unfold fuzz at hm
    nlinarith
  have h4 : rnd64 (rnd64 (l - r) / r) ≤ rnd64 (-(300 / 2 ^ 52)) := rounding64.mono _ _ h3
  rw [show rnd64 (-(300 / 2 ^ 52)) = -(300 / 2 ^ 52) by decide +kernel] at h4
  unfold fuzz
  linarith

theorem lower_of_cell (less : ℚ → Bool) (xs : List ℚ) (n k : Nat) (hlen : xs.length = n + 1) (hk : k < n)
    (hlt : ∀ i, i ≤ k → less (xs.getD i 0) = true) (hge : ∀ i, k < i → i ≤ n → less (xs.getD i 0) = false) :
    Util.lowerBoundLoop (fun i => less (xs.getD i 0)) 0 xs.length = k + 1 := by
  obtain ⟨h1, h2, h3, h4⟩ := Util.lowerBoundLoop_spec (fun i => less (xs.getD i 0)) 0 xs.length (by
    intro i j _ hij hj hl
    by_cases hjk : j ≤ k
    · exact hlt i (by omega)
    · have := hge j (by omega) (by omega)
      rw [this] at hl; cases hl)
  rcases Nat.lt_trichotomy (Util.lowerBoundLoop (fun i => less (xs.getD i 0)) 0 xs.length) (k + 1) with h | h | h
  · have a := h4 k (by omega) (by omega)
    have b := hlt k le_rfl
    rw [a] at b; cases b
  · exact h
  · have a := h3 (k + 1) (by omega) h
    have b := hge (k + 1) (by omega) (by omega)
    rw [a] at b; cases b

/-- Faces as they are stored: doubles in order, the first one zero. -/
structure Stored (xs : List ℚ) (n : Nat) : Prop where
  len : xs.length = n + 1
  small : n < 2 ^ 32
  zero : xs.getD 0 0 = 0
  dbl : ∀ i, i ≤ n → Dbl (xs.getD i 0)
  le : ∀ i j, i ≤ j → j ≤ n → xs.getD i 0 ≤ xs.getD j 0

theorem cell_bound {xs : List ℚ} {n : Nat} (f : Stored xs n) (p m : ℚ) (dp : Dbl p) (k : Nat) (hk : k < n) (hm0 : 0 < m) (hm : 2 * fuzz * p ≤ m)
    (hlo : xs.getD k 0 + m ≤ p) (hhi : p + m ≤ xs.getD (k + 1) 0) :
    Util.lowerBoundLoop (fun i => fuzzyLtF rnd64 fuzz (xs.getD i 0) p) 0 xs.length = k + 1 := by
  have h0 := f.le 0 k (by omega) (by omega)
  rw [f.zero] at h0
  refine lower_of_cell (fun x => fuzzyLtF rnd64 fuzz x p) xs n k f.len hk (fun i hi => ?_) (fun i hi hn => ?_)
  · have := f.le i k hi (by omega)
    exact fuzzyLtF_true _ _ m (f.dbl i (by omega)) dp (by linarith) hm (by linarith)
  · have := f.le (k + 1) i (by omega) hn
    exact fuzzyLtF_false _ _ (by linarith) (by linarith)

theorem locateF_interior {xs : List ℚ} {n : Nat} (f : Stored xs n) (equiv : ℚ → ℚ → Bool) (p o m : ℚ) (dp : Dbl p) (k : Nat) (hk : k < n) (hm0 : 0 < m) (hm : 2 * fuzz * p ≤ m)
    (heq : equiv p (xs.getD (k + 1) 0) = true → |p - xs.getD (k + 1) 0| < m)
    (hlo : xs.getD k 0 + m ≤ p) (hhi : p + m ≤ xs.getD (k + 1) 0) : locateF rnd64 fuzz equiv xs n p o = some k := by
  have hl := f.len
  have hs := f.small
  unfold locateF
  simp only [cell_bound f p m dp k hk hm0 hm hlo hhi]
  rw [List.getElem?_eq_getElem (show k + 1 < xs.length by omega)]
  have hne : equiv p xs[k + 1] = false := by
    rw [Bool.eq_false_iff]
    intro he
    have e : xs.getD (k + 1) 0 = xs[k + 1] := by rw [List.getD_eq_getElem?_getD, List.getElem?_eq_getElem (by omega)]; rfl
    rw [e] at heq hhi
    have := heq he
    rw [abs_lt] at this
    linarith [this.1]
  simp only [hne]
  norm_num
  omega

theorem planeIndexF_interior {xs : List ℚ} {n : Nat} (f : Stored xs n) (equiv : ℚ → ℚ → Bool) (p o m : ℚ) (dp : Dbl p) (k : Nat) (hk : k < n) (hm0 : 0 < m) (hm : 2 * fuzz * p ≤ m)
    (heq : equiv p (xs.getD (k + 1) 0) = true → |p - xs.getD (k + 1) 0| < m)
    (hlo : xs.getD k 0 + m ≤ p) (hhi : p + m ≤ xs.getD (k + 1) 0) : planeIndexF rnd64 fuzz equiv xs n p o = .ok k := by
  have hl := f.len
  unfold planeIndexF
  simp only [cell_bound f p m dp k hk hm0 hm hlo hhi]
  rw [List.getElem?_eq_getElem (show k + 1 < xs.length by omega)]
  have hne : equiv p xs[k + 1] = false := by
    rw [Bool.eq_false_iff]
    intro he
    have e : xs.getD (k + 1) 0 = xs[k + 1] := by rw [List.getD_eq_getElem?_getD, List.getElem?_eq_getElem (by omega)]; rfl
    rw [e] at heq hhi
    have := heq he
    rw [abs_lt] at this
    linarith [this.1]
  simp only [hne]
  norm_num
  omega

theorem face_bound {xs : List ℚ} {n : Nat} (f : Stored xs n) (p m : ℚ) (dp : Dbl p) (k : Nat) (hk : k < n) (hm0 : 0 < m) (hm : 2 * fuzz * p ≤ m)
    (hlo : xs.getD k 0 + m ≤ p) (hhi : p ≤ xs.getD (k + 1) 0) :
    Util.lowerBoundLoop (fun i => fuzzyLtF rnd64 fuzz (xs.getD i 0) p) 0 xs.length = k + 1 := by
  have h0 := f.le 0 k (by omega) (by omega)
  rw [f.zero] at h0
  refine lower_of_cell (fun x => fuzzyLtF rnd64 fuzz x p) xs n k f.len hk (fun i hi => ?_) (fun i hi hn => ?_)
  · have := f.le i k hi (by omega)
    exact fuzzyLtF_true _ _ m (f.dbl i (by omega)) dp (by linarith) hm (by linarith)
  · have := f.le (k + 1) i (by omega) hn
    exact fuzzyLtF_false _ _ (by linarith) (by linarith)

/-- **C153, on a face.**  A point on a face, or so little below it that the two are taken for equal, belongs to the cell that the direction leads to; the last face belongs to the last cell. -/
theorem C153_on_face (equiv : ℚ → ℚ → Bool) (xs : List ℚ) (n : Nat) (f : Stored xs n) (p o m : ℚ) (dp : Dbl p) (k : Nat) (hk : k < n) (hm0 : 0 < m) (hm : 2 * fuzz * p ≤ m)
    (heq : equiv p (xs.getD (k + 1) 0) = true) (hlo : xs.getD k 0 + m ≤ p) (hhi : p ≤ xs.getD (k + 1) 0) :
    locateF rnd64 fuzz equiv xs n p o = some (if 0 < o ∧ k + 1 < n then k + 1 else k) := by
  have hl := f.len
  have hs := f.small
  unfold locateF
  simp only [face_bound f p m dp k hk hm0 hm hlo hhi]
  have e : xs.getD (k + 1) 0 = xs[k + 1] := by rw [List.getD_eq_getElem?_getD, List.getElem?_eq_getElem (by omega)]; rfl
  rw [e] at heq
  rw [List.getElem?_eq_getElem (show k + 1 < xs.length by omega)]
  simp only [heq, if_true, Option.some.injEq]
  by_cases h1 : 0 < o
  · by_cases h2 : k + 1 < n
    · rw [if_pos h1, if_pos ⟨h1, h2⟩]; omega
    · rw [if_pos h1, if_neg fun h => h2 h.2]; omega
  · rw [if_neg h1, if_neg fun h => h1 h.1]; omega

/-- **C153, on a face between planes.**  A point there has no plane unless the direction leaves the face. -/
theorem C153_on_plane (equiv : ℚ → ℚ → Bool) (zs : List ℚ) (n : Nat) (f : Stored zs n) (z oz m : ℚ) (dz : Dbl z) (k : Nat) (hk : k < n) (hm0 : 0 < m) (hm : 2 * fuzz * z ≤ m)
    (heq : equiv z (zs.getD (k + 1) 0) = true) (hlo : zs.getD k 0 + m ≤ z) (hhi : z ≤ zs.getD (k + 1) 0) :
    planeIndexF rnd64 fuzz equiv zs n z oz = if oz = 0 then .throw else .ok ((if 0 < oz ∧ k + 1 < n then k + 1 else k : Nat) : Int) := by
  have hl := f.len
  unfold planeIndexF
  simp only [face_bound f z m dz k hk hm0 hm hlo hhi]
  have e : zs.getD (k + 1) 0 = zs[k + 1] := by rw [List.getD_eq_getElem?_getD, List.getElem?_eq_getElem (by omega)]; rfl
  rw [e] at heq
  rw [List.getElem?_eq_getElem (show k + 1 < zs.length by omega)]
  simp only [heq, if_true, true_and]
  by_cases h0 : oz = 0
  · rw [if_pos h0, if_pos h0]
  · rw [if_neg h0, if_neg h0]
    congr 1
    by_cases h1 : 0 < oz
    · by_cases h2 : k + 1 < n
      · rw [if_pos h1, if_pos ⟨h1, h2⟩]; omega
      · rw [if_pos h1, if_neg fun h => h2 h.2]; omega
    · rw [if_neg h1, if_neg fun h => h1 h.1]; omega

theorem posOf_stored {xs : List ℚ} {n : Nat} (f : Stored xs n) (p : ℚ) (k : Nat) (hk : k < n) (h0 : xs.getD k 0 < p) (h1 : p ≤ xs.getD (k + 1) 0) : posOf xs p = k := by
  have hlen := f.len
  obtain ⟨a, b, c⟩ := Util.lowerBound_spec (fun i => xs.getD i 0) xs.length p (fun i j hij hj => f.le i j hij (by omega))
  have : Util.lowerBound (fun i => xs.getD i 0) xs.length p = k + 1 := by
    rcases Nat.lt_trichotomy (Util.lowerBound (fun i => xs.getD i 0) xs.length p) (k + 1) with h | h | h
    · exact absurd h0 (not_lt.mpr (c k (by omega) (by omega)))
    · exact h
    · exact absurd h1 (not_le.mpr (b (k + 1) h))
  unfold posOf
  rw [this]; simp

/-! ## Location in one coordinate -/

/-- The error allowed for a coordinate: `n` is the number of pins and lattices along it, `L` the extent of the core. -/
def slack (n : Nat) (L : ℚ) : ℚ := (n + 1) * uro * (1 + L)

/-- The distance from the faces from which on a point is sure to be inside. -/
def margin (n : Nat) (L : ℚ) : ℚ := 4 * fuzz * (1 + L) + 4 * slack n L

theorem slack_facts (n : Nat) (hn : n + 1 ≤ 2 ^ 26) (L : ℚ) (hL : 0 ≤ L) : uro * (1 + L) ≤ slack n L ∧ 4 * slack n L ≤ 1 + L ∧ Cmfd.eta ≤ slack n L ∧ 0 < slack n L := by
  have hu := uro_pos
  have hn' : ((n : ℚ) + 1) ≤ 2 ^ 26 := by exact_mod_cast hn
  have hn0 : (1 : ℚ) ≤ (n : ℚ) + 1 := by linarith [(Nat.cast_nonneg n : (0 : ℚ) ≤ n)]
  have h1 : uro * (1 + L) ≤ slack n L := by
    unfold slack
    rw [mul_assoc]
    exact le_mul_of_one_le_left (by positivity) hn0
  have he : Cmfd.eta ≤ uro := by
    rw [← uro_zpow]; unfold Cmfd.eta
    exact zpow_le_zpow_right₀ (by norm_num) (by norm_num)
  refine ⟨h1, ?_, ?_, ?_⟩
  · unfold slack
    have : 4 * (((n : ℚ) + 1) * uro) ≤ 1 := by
      have : ((n : ℚ) + 1) * uro ≤ 2 ^ 26 * uro := mul_le_mul_of_nonneg_right hn' hu.le
      have h2 : (2 : ℚ) ^ 26 * uro ≤ 1 / 4 := by unfold uro; norm_num
      linarith
    nlinarith
  · nlinarith
  · nlinarith

theorem err_le (q b : ℚ) (h : |q| ≤ b) : |rnd64 q - q| ≤ uro * b + Cmfd.eta :=
  (Cmfd.abs_err q).trans (by linarith [mul_le_mul_of_nonneg_left h uro_pos.le])

theorem centre_err (x0 x1 h e0 e1 eh p S E : ℚ) (hS : 0 < S) (h0 : |x0 - e0| ≤ E) (h1 : |x1 - e1| ≤ E) (hh : |h - eh| ≤ E) (n0 : 0 ≤ e0) (n1 : e0 ≤ e1) (nh : 0 ≤ eh) (hL : eh + e1 ≤ S)
    (hp0 : 0 ≤ p) (hp : p ≤ S) (f1 : uro * S ≤ E) (f2 : 4 * E ≤ S) (f3 : Cmfd.eta ≤ E) :
    |rnd64 (p - rnd64 (rnd64 (1 / 2 * rnd64 (x1 + x0)) + h)) - (p - (eh + (e0 + e1) / 2))| ≤ 20 * E := by
  have r1 := err_le (x1 + x0) (3 * S) (by rw [abs_le] at *; constructor <;> linarith [h0.1, h0.2, h1.1, h1.2])
  set d := rnd64 (x1 + x0)
  have r2 := err_le (1 / 2 * d) (2 * S) (by rw [abs_le] at *; constructor <;> linarith [h0.1, h0.2, h1.1, h1.2, r1.1, r1.2])
  set c := rnd64 (1 / 2 * d)
  have r3 := err_le (c + h) (4 * S) (by rw [abs_le] at *; constructor <;> linarith [h0.1, h0.2, h1.1, h1.2, r1.1, r1.2, r2.1, r2.2, hh.1, hh.2])
  set q := rnd64 (c + h)
  have r4 := err_le (p - q) (5 * S) (by rw [abs_le] at *; constructor <;> linarith [h0.1, h0.2, h1.1, h1.2, r1.1, r1.2, r2.1, r2.2, hh.1, hh.2, r3.1, r3.2])
  rw [abs_le] at *
  constructor <;> linarith [h0.1, h0.2, h1.1, h1.2, r1.1, r1.2, r2.1, r2.2, hh.1, hh.2, r3.1, r3.2, r4.1, r4.2]

theorem stored_faces (hs : List ℚ) (h : ∀ x ∈ hs, 0 ≤ x ∧ Dbl x) (hl : hs.length < 2 ^ 32) : Stored (facesF rnd64 hs 0) hs.length where
  len := facesF_length hs 0
  small := hl
  zero := facesF_zero hs 0
  dbl i hi := by
    have := (facesF_near hs id id 0 (fun x hx => ⟨Near.refl (h x hx).1, (h x hx).2⟩) 0 le_rfl 0 0 (Near.refl le_rfl) rnd64_zero i hi).2
    simpa using this
  le i j hij hj := C153_sorted rounding64 hs (fun x hx => (h x hx).1) i j hij hj

theorem getElem?_getD (l : List ℚ) (i : Nat) (h : i < l.length) : l[i]? = some (l.getD i 0) := by
  rw [List.getD_eq_getElem?_getD, List.getElem?_eq_getElem h]; rfl

theorem twice_fuzz (r L : ℚ) (h : r ≤ 2 * (1 + L)) : 2 * fuzz * r ≤ 4 * fuzz * (1 + L) := by
  have : 0 < fuzz := by unfold fuzz; norm_num
  calc 2 * fuzz * r ≤ 2 * fuzz * (2 * (1 + L)) := mul_le_mul_of_nonneg_left h (by positivity)
    _ = 4 * fuzz * (1 + L) := by ring

theorem two_fuzz (L : ℚ) (h : 0 ≤ L) : 2 * fuzz ≤ 4 * fuzz * (1 + L) := by
  have := twice_fuzz 1 L (by linarith)
  linarith

theorem equivAbsF_near (a b : ℚ) (da : Dbl a) (db : Dbl b) (he : equivAbsF rnd64 fuzz a b = true) : |a - b| < 2 * fuzz := by
  have he := of_decide_eq_true he
  have hr := rel_sub da db
  have hu4 : uro ≤ 1 / 4 := by unfold uro; norm_num
  have h5 := abs_sub_abs_le_abs_sub (a - b) (rnd64 (a - b))
  rw [abs_sub_comm] at hr
  have h6 := abs_nonneg (a - b)
  nlinarith

/-- Everything needed in one coordinate. -/
theorem axisF (cs : List (List ℚ)) (hd : ∀ c ∈ cs, ∀ x ∈ c, 0 ≤ x ∧ Dbl x) (hn : cs.flatten.length + cs.length + 1 ≤ 2 ^ 26) (a : Nat) (c : List ℚ) (hac : cs[a]? = some c) (k : Nat)
    (hk : k < c.length) (equiv : ℚ → ℚ → Bool) (p o : ℚ) (dp : Dbl p)
    (heq : ∀ y, equiv p y = true → |p - y| < 4 * fuzz * (1 + cs.flatten.sum))
    (hlo : faceAt cs a c k + margin (cs.flatten.length + cs.length) cs.flatten.sum ≤ p) (hhi : p + margin (cs.flatten.length + cs.length) cs.flatten.sum ≤ faceAt cs a c k + c[k]) :
    ∃ h ctr x0 x1, locateF rnd64 fuzz equiv (facesF rnd64 (cs.map (totalF rnd64)) 0) cs.length p o = some a ∧ (facesF rnd64 (cs.map (totalF rnd64)) 0)[a]? = some h ∧
      latAxisF rnd64 fuzz (facesF rnd64 c 0) c.length (rnd64 (p - h)) o = some (k, ctr) ∧
      |rnd64 (p - rnd64 (ctr + h)) - (p - (faceAt cs a c k + c[k] / 2))| ≤ 20 * slack (cs.flatten.length + cs.length) cs.flatten.sum ∧
      posOf (facesF rnd64 cs.flatten 0) p = columnOf cs a k ∧ (facesF rnd64 cs.flatten 0)[columnOf cs a k]? = some x0 ∧ (facesF rnd64 cs.flatten 0)[columnOf cs a k + 1]? = some x1 ∧
      |x0 - faceAt cs a c k| ≤ slack (cs.flatten.length + cs.length) cs.flatten.sum ∧ |x1 - (faceAt cs a c k + c[k])| ≤ slack (cs.flatten.length + cs.length) cs.flatten.sum := by
  have ha := (List.getElem?_eq_some_iff.mp hac).1
  have hcs : cs[a] = c := (List.getElem?_eq_some_iff.mp hac).2
  have hmem : c ∈ cs := List.mem_of_getElem? hac
  have hflat : ∀ x ∈ cs.flatten, 0 ≤ x ∧ Dbl x := by
    intro x hx
    obtain ⟨b, hb, hxb⟩ := List.mem_flatten.mp hx
    exact hd b hb x hxb
  have hlen : ∀ b ∈ cs, b.length ≤ cs.flatten.length := fun b hb => by
    rw [List.length_flatten]
    exact List.le_sum_of_mem (List.mem_map_of_mem hb)
  have hL : 0 ≤ cs.flatten.sum := List.sum_nonneg fun x hx => (hflat x hx).1
  set N := cs.flatten.length + cs.length with hN
  set L := cs.flatten.sum with hLdef
  obtain ⟨f1, f2, f3, f4⟩ := slack_facts N hn L hL
  have hu := uro_pos
  have gen : ∀ (j : Nat) (s y : ℚ), j ≤ N → 0 ≤ s → s ≤ L → |y - s| ≤ (j + 1) * uro * s → |y - s| ≤ slack N L := by
    intro j s y hj hs0 hs h
    refine h.trans ?_
    unfold slack
    have hj' : (j : ℚ) ≤ N := by exact_mod_cast hj
    have h1 : ((j : ℚ) + 1) * uro ≤ (N + 1) * uro := mul_le_mul_of_nonneg_right (by linarith) hu.le
    have h2 : 0 ≤ ((N : ℚ) + 1) * uro := by positivity
    calc ((j : ℚ) + 1) * uro * s ≤ (N + 1) * uro * s := mul_le_mul_of_nonneg_right h1 hs0
      _ ≤ (N + 1) * uro * (1 + L) := mul_le_mul_of_nonneg_left (by linarith) h2
  -- exact positions
  have hsum : (cs.map List.sum).sum = L := by rw [hLdef, List.sum_flatten]
  have hnn : ∀ x ∈ cs.map List.sum, 0 ≤ x := by
    intro x hx
    obtain ⟨b, hb, rfl⟩ := List.mem_map.mp hx
    exact List.sum_nonneg fun y hy => (hd b hb y hy).1
  set A := ((cs.take a).map List.sum).sum with hA
  have hA0 : 0 ≤ A := List.sum_nonneg fun x hx => hnn x (by rw [List.map_take] at hx; exact List.mem_of_mem_take hx)
  have hA1 : ((cs.take (a + 1)).map List.sum).sum = A + c.sum := by
    rw [hA, List.map_take, List.map_take, take_succ_sum _ _ (by simpa using ha), List.getElem_map, hcs]
  have hA1L : A + c.sum ≤ L := by
    rw [← hA1, ← hsum, List.map_take]; exact sum_take_le _ hnn _
  have hc0 : ∀ x ∈ c, 0 ≤ x := fun x hx => (hd c hmem x hx).1
  have t0 : 0 ≤ (c.take k).sum := List.sum_nonneg fun x hx => hc0 x (List.mem_of_mem_take hx)
  have t1 : (c.take (k + 1)).sum = (c.take k).sum + c[k] := take_succ_sum c k hk
  have t2 : (c.take (k + 1)).sum ≤ c.sum := sum_take_le c hc0 _
  have ck0 : 0 ≤ c[k] := hc0 _ (List.getElem_mem hk)
  have hface : faceAt cs a c k = A + (c.take k).sum := rfl
  have hM : margin N L = 4 * fuzz * (1 + L) + 4 * slack N L := rfl
  have hfz : 0 < fuzz := by unfold fuzz; norm_num
  have hF : 0 < fuzz * (1 + L) := by positivity
  have hF2 : 2 * fuzz ≤ 4 * fuzz * (1 + L) := two_fuzz L hL
  rw [hface] at hlo hhi ⊢
  rw [hM] at hlo hhi
  have hp0 : 0 < p := by linarith
  have hpL : p ≤ L := by linarith
  -- stored faces
  have fp : Stored (facesF rnd64 (cs.map (totalF rnd64)) 0) cs.length := by
    have := stored_faces (cs.map (totalF rnd64)) (by
      intro x hx
      obtain ⟨b, hb, rfl⟩ := List.mem_map.mp hx
      have := total_near b (hd b hb)
      exact ⟨this.1.nonneg, this.2⟩) (by rw [List.length_map]; omega)
    rwa [List.length_map] at this
  have fl : Stored (facesF rnd64 c 0) c.length := stored_faces c (hd c hmem) (by have := hlen c hmem; omega)
  have ff : Stored (facesF rnd64 cs.flatten 0) cs.flatten.length := stored_faces cs.flatten hflat (by omega)
  have ea : |(facesF rnd64 (cs.map (totalF rnd64)) 0).getD a 0 - A| ≤ slack N L := by
    have := C153_lattice_faces cs hd cs.flatten.length hlen a (by omega) (by omega)
    exact gen (cs.flatten.length + a) A _ (by omega) hA0 (by have : 0 ≤ c.sum := List.sum_nonneg hc0
                                                             linarith) (by push_cast at this ⊢; exact this)
  have ea1 : |(facesF rnd64 (cs.map (totalF rnd64)) 0).getD (a + 1) 0 - (A + c.sum)| ≤ slack N L := by
    have := C153_lattice_faces cs hd cs.flatten.length hlen (a + 1) (by omega) (by omega)
    rw [hA1] at this
    exact gen (cs.flatten.length + (a + 1)) _ _ (by omega) (by linarith) hA1L (by push_cast at this ⊢; exact this)
  have ek : |(facesF rnd64 c 0).getD k 0 - (c.take k).sum| ≤ slack N L := by
    have hcl := hlen c hmem
    exact gen k _ _ (by omega) t0 (by linarith) (C153_faces c (hd c hmem) k (by omega) (by omega))
  have ek1 : |(facesF rnd64 c 0).getD (k + 1) 0 - ((c.take k).sum + c[k])| ≤ slack N L := by
    have hcl := hlen c hmem
    have := C153_faces c (hd c hmem) (k + 1) (by omega) (by omega)
    rw [t1] at this
    exact gen (k + 1) _ _ (by omega) (by linarith) (by linarith) this
  have hcol := flat_lt cs a k c hac hk
  have ex : ∀ i, i ≤ c.length → (cs.flatten.take (columnOf cs a i)).sum = A + (c.take i).sum := by
    intro i hi
    have := C83_boundary cs a i c hac hi
    have hb : columnOf cs a i ≤ cs.flatten.length := by
      have h2 := (List.getElem?_eq_some_iff.mp this).1
      rw [interfaces_length] at h2
      unfold columnOf; omega
    have h3 := interfaces_at cs.flatten 0 (columnOf cs a i) hb
    rw [List.getD_eq_getElem?_getD] at h3
    unfold columnOf at h3
    rw [this] at h3
    simp only [Option.getD_some, zero_add] at h3
    unfold columnOf
    rw [← h3]
  have eu : |(facesF rnd64 cs.flatten 0).getD (columnOf cs a k) 0 - (A + (c.take k).sum)| ≤ slack N L := by
    have := C153_faces cs.flatten hflat (columnOf cs a k) (by unfold columnOf; omega) (by unfold columnOf; omega)
    rw [ex k (by omega)] at this
    exact gen _ _ _ (by unfold columnOf; omega) (by linarith) (by linarith) this
  have eu1 : |(facesF rnd64 cs.flatten 0).getD (columnOf cs a k + 1) 0 - (A + (c.take k).sum + c[k])| ≤ slack N L := by
    have := C153_faces cs.flatten hflat (columnOf cs a (k + 1)) (by unfold columnOf; omega) (by unfold columnOf; omega)
    rw [ex (k + 1) (by omega), t1, ← add_assoc] at this
    exact gen _ _ _ (by unfold columnOf; omega) (by linarith) (by linarith) this
  set h := (facesF rnd64 (cs.map (totalF rnd64)) 0).getD a 0 with hh
  set x0 := (facesF rnd64 c 0).getD k 0
  set x1 := (facesF rnd64 c 0).getD (k + 1) 0
  have dh : Dbl h := fp.dbl a (by omega)
  have hge : 0 ≤ h := by have := fp.le 0 a (by omega) (by omega); rwa [fp.zero] at this
  have q1 := rel_sub dp dh
  rw [abs_le] at ea ea1 ek ek1
  rw [abs_of_nonneg (show 0 ≤ p - h by linarith)] at q1
  have q2 : uro * (p - h) ≤ slack N L := (mul_le_mul_of_nonneg_left (show p - h ≤ 1 + L by linarith) hu.le).trans f1
  rw [abs_le] at q1
  refine ⟨h, rnd64 (1 / 2 * rnd64 (x1 + x0)), _, _, ?_, getElem?_getD _ _ (by rw [fp.len]; omega), ?_, ?_, ?_,
    getElem?_getD _ _ (by rw [ff.len]; unfold columnOf; omega), getElem?_getD _ _ (by rw [ff.len]; unfold columnOf; omega), eu, eu1⟩
  · exact locateF_interior fp equiv p o (4 * fuzz * (1 + L)) dp a ha (by linarith) (twice_fuzz _ _ (by linarith)) (fun he => heq _ he) (by linarith) (by linarith)
  · unfold latAxisF
    rw [locateF_interior fl (equivAbsF rnd64 fuzz) (rnd64 (p - h)) o (4 * fuzz * (1 + L)) (dbl_rnd _) k hk (by linarith) ?_ ?_ (by linarith) (by linarith)]
    · simp only [Option.bind_eq_bind, Option.bind_some]
      rw [getElem?_getD _ _ (by rw [fl.len]; omega), getElem?_getD _ _ (by rw [fl.len]; omega)]
      rfl
    · exact twice_fuzz _ _ (by linarith)
    · intro he
      exact (equivAbsF_near _ _ (dbl_rnd (p - h)) (fl.dbl (k + 1) (by omega)) he).trans_le hF2
  · have := centre_err x0 x1 h (c.take k).sum ((c.take k).sum + c[k]) A p (1 + L) (slack N L) (by linarith) (abs_le.mpr ek) (abs_le.mpr ek1) (abs_le.mpr ea) t0 (by linarith) hA0
      (by linarith) hp0.le (by linarith) f1 f2 f3
    rw [show A + (c.take k).sum + c[k] / 2 = A + ((c.take k).sum + ((c.take k).sum + c[k])) / 2 by ring]
    exact this
  · rw [abs_le] at eu eu1
    exact posOf_stored ff p (columnOf cs a k) (by unfold columnOf; omega) (by linarith) (by linarith)

/-! ## The core -/

/-- The members as the constructors fill them: `cxs[ax]` are the pitches of the pins in the lattices of column `ax`, `cys[ay]` those of row `ay`, `dz` the heights of the planes. -/
structure LaidPlaneF (g : PlaneG ℚ) (cxs cys : List (List ℚ)) : Prop where
  nx : g.nx = cxs.length
  ny : g.ny = cys.length
  hx : g.hx = facesF rnd64 (cxs.map (totalF rnd64)) 0
  hy : g.hy = facesF rnd64 (cys.map (totalF rnd64)) 0
  reg : g.firstReg.length = g.nx * g.ny
  lat : ∀ (ax ay : Nat) cx cy, cxs[ax]? = some cx → cys[ay]? = some cy → ∃ l, g.lats[ay * g.nx + ax]? = some l ∧ l.nx = cx.length ∧
    l.ny = cy.length ∧ l.xs = facesF rnd64 cx 0 ∧ l.ys = facesF rnd64 cy 0 ∧ l.firstReg.length = l.nx * l.ny

@[inherit_doc LaidPlaneF]
structure LaidCoreF (c : CoreG ℚ) (cxs cys : List (List ℚ)) (dz : List ℚ) : Prop where
  xs : c.xs = facesF rnd64 cxs.flatten 0
  ys : c.ys = facesF rnd64 cys.flatten 0
  zs : c.zs = facesF rnd64 dz 0
  nz : c.nz = dz.length
  reg : c.firstReg.length = dz.length
  plane : ∀ z : Nat, z < dz.length → ∃ u g, c.uniq[z]? = some u ∧ c.planes[u]? = some g ∧ LaidPlaneF g cxs cys

/-- **C153, location.**  A point further from the faces of its pin and plane than `margin` is located there for every direction and by all look-ups alike: the mesh is that of the pin, `pos` its
column, row and plane, the first region is that of the plane plus those of the lattice and the pin.  The corners of the pin are off by no more than `slack`, the local point by no more than 20 times
that.  `equiv` is `fp_equiv`: it may hold only for numbers closer than the given distance. -/
theorem C153_location (equiv : ℚ → ℚ → Bool) (heq : ∀ a b, 0 ≤ a → equiv a b = true → |a - b| < 4 * fuzz * (1 + a)) (c : CoreG ℚ) (cxs cys : List (List ℚ)) (dz : List ℚ)
    (h : LaidCoreF c cxs cys dz) (hcx : ∀ c ∈ cxs, ∀ x ∈ c, 0 ≤ x ∧ Dbl x) (hcy : ∀ c ∈ cys, ∀ x ∈ c, 0 ≤ x ∧ Dbl x) (hcz : ∀ x ∈ dz, 0 ≤ x ∧ Dbl x)
    (hnx : cxs.flatten.length + cxs.length + 1 ≤ 2 ^ 26) (hny : cys.flatten.length + cys.length + 1 ≤ 2 ^ 26) (hnz : dz.length + 1 ≤ 2 ^ 26)
    (ax ay kx ky kz : Nat) (cx cy : List ℚ) (hax : cxs[ax]? = some cx) (hay : cys[ay]? = some cy) (hkx : kx < cx.length) (hky : ky < cy.length) (hkz : kz < dz.length)
    (px py pz ox oy oz : ℚ) (dx : Dbl px) (dy : Dbl py) (dz' : Dbl pz)
    (hx0 : faceAt cxs ax cx kx + margin (cxs.flatten.length + cxs.length) cxs.flatten.sum ≤ px) (hx1 : px + margin (cxs.flatten.length + cxs.length) cxs.flatten.sum ≤ faceAt cxs ax cx kx + cx[kx])
    (hy0 : faceAt cys ay cy ky + margin (cys.flatten.length + cys.length) cys.flatten.sum ≤ py) (hy1 : py + margin (cys.flatten.length + cys.length) cys.flatten.sum ≤ faceAt cys ay cy ky + cy[ky])
    (hz0 : (dz.take kz).sum + margin dz.length dz.sum ≤ pz) (hz1 : pz + margin dz.length dz.sum ≤ (dz.take kz).sum + dz[kz]) :
    ∃ u g l i, c.uniq[kz]? = some u ∧ c.planes[u]? = some g ∧ g.lats[ay * g.nx + ax]? = some l ∧ locationInfoF rnd64 fuzz equiv c px py pz ox oy oz = .ok i ∧
      i.mesh = (ax, ay, kx, ky) ∧ i.pos = ((columnOf cxs ax kx : Int), (columnOf cys ay ky : Int), (kz : Int)) ∧
      i.reg = c.firstReg.getD kz 0 + g.firstReg.getD (g.nx * ay + ax) 0 + l.firstReg.getD (ky * l.nx + kx) 0 ∧
      |i.localX - (px - (faceAt cxs ax cx kx + cx[kx] / 2))| ≤ 20 * slack (cxs.flatten.length + cxs.length) cxs.flatten.sum ∧
      |i.localY - (py - (faceAt cys ay cy ky + cy[ky] / 2))| ≤ 20 * slack (cys.flatten.length + cys.length) cys.flatten.sum ∧
      |i.lower.1 - faceAt cxs ax cx kx| ≤ slack (cxs.flatten.length + cxs.length) cxs.flatten.sum ∧ |i.upper.1 - (faceAt cxs ax cx kx + cx[kx])| ≤ slack (cxs.flatten.length + cxs.length) cxs.flatten.sum ∧
      |i.lower.2.1 - faceAt cys ay cy ky| ≤ slack (cys.flatten.length + cys.length) cys.flatten.sum ∧
      |i.upper.2.1 - (faceAt cys ay cy ky + cy[ky])| ≤ slack (cys.flatten.length + cys.length) cys.flatten.sum ∧
      |i.lower.2.2 - (dz.take kz).sum| ≤ slack dz.length dz.sum ∧ |i.upper.2.2 - ((dz.take kz).sum + dz[kz])| ≤ slack dz.length dz.sum := by
  have bound : ∀ (cs : List (List ℚ)) (hc : ∀ c ∈ cs, ∀ x ∈ c, 0 ≤ x ∧ Dbl x) (a k : Nat) (c : List ℚ) (hac : cs[a]? = some c) (hk : k < c.length), 0 ≤ faceAt cs a c k ∧ faceAt cs a c k + c[k] ≤ cs.flatten.sum := by
    intro cs hc a k c hac hk
    have ha := (List.getElem?_eq_some_iff.mp hac).1
    have hcs : cs[a] = c := (List.getElem?_eq_some_iff.mp hac).2
    have hm : c ∈ cs := List.mem_of_getElem? hac
    have hnn : ∀ x ∈ cs.map List.sum, 0 ≤ x := by
      intro x hx
      obtain ⟨b, hb, rfl⟩ := List.mem_map.mp hx
      exact List.sum_nonneg fun y hy => (hc b hb y hy).1
    have h1 := sum_take_le (cs.map List.sum) hnn (a + 1)
    rw [take_succ_sum _ _ (by simpa using ha), List.getElem_map, hcs, ← List.sum_flatten] at h1
    have h2 := sum_take_le c (fun x hx => (hc c hm x hx).1) (k + 1)
    rw [take_succ_sum _ _ hk] at h2
    unfold faceAt
    rw [List.map_take]
    refine ⟨add_nonneg (List.sum_nonneg fun x hx => hnn x (List.mem_of_mem_take hx)) (List.sum_nonneg fun x hx => (hc c hm x (List.mem_of_mem_take hx)).1), by linarith⟩
  have mpos : ∀ n (L : ℚ), 0 ≤ L → 0 < margin n L := by
    intro n L hL
    have : 0 < fuzz := by unfold fuzz; norm_num
    unfold margin slack
    have := uro_pos
    positivity
  have heq' : ∀ p L : ℚ, 0 ≤ p → p ≤ L → ∀ y, equiv p y = true → |p - y| < 4 * fuzz * (1 + L) := by
    intro p L h0 hp y he
    refine (heq p y h0 he).trans_le (mul_le_mul_of_nonneg_left (by linarith) ?_)
    unfold fuzz; norm_num
  have hLx : 0 ≤ cxs.flatten.sum := List.sum_nonneg fun x hx => by
    obtain ⟨b, hb, hxb⟩ := List.mem_flatten.mp hx
    exact (hcx b hb x hxb).1
  have hLy : 0 ≤ cys.flatten.sum := List.sum_nonneg fun x hx => by
    obtain ⟨b, hb, hxb⟩ := List.mem_flatten.mp hx
    exact (hcy b hb x hxb).1
  have hLz : 0 ≤ dz.sum := List.sum_nonneg fun x hx => (hcz x hx).1
  have bx := bound cxs hcx ax kx cx hax hkx
  have by' := bound cys hcy ay ky cy hay hky
  have mx := mpos (cxs.flatten.length + cxs.length) _ hLx
  have my := mpos (cys.flatten.length + cys.length) _ hLy
  have mz := mpos dz.length _ hLz
  obtain ⟨hX, cX, x0, x1, X1, X2, X3, X4, X5, X6, X7, X8, X9⟩ := axisF cxs hcx hnx ax cx hax kx hkx equiv px ox dx (heq' px _ (by linarith) (by linarith)) hx0 hx1
  obtain ⟨hY, cY, y0, y1, Y1, Y2, Y3, Y4, Y5, Y6, Y7, Y8, Y9⟩ := axisF cys hcy hny ay cy hay ky hky equiv py oy dy (heq' py _ (by linarith) (by linarith)) hy0 hy1
  obtain ⟨u, g, hu, hg, P⟩ := h.plane kz hkz
  obtain ⟨l, l1, l2, l3, l4, l5, l6⟩ := P.lat ax ay cx cy hax hay
  -- planes
  have fz := stored_faces dz hcz (by omega)
  obtain ⟨f1, f2, f3, f4⟩ := slack_facts dz.length hnz dz.sum hLz
  have t0 : 0 ≤ (dz.take kz).sum := List.sum_nonneg fun x hx => (hcz x (List.mem_of_mem_take hx)).1
  have t1 : (dz.take (kz + 1)).sum = (dz.take kz).sum + dz[kz] := take_succ_sum dz kz hkz
  have t2 := sum_take_le dz (fun x hx => (hcz x hx).1) (kz + 1)
  have z0 := (hcz _ (List.getElem_mem hkz)).1
  have gz : ∀ (j : Nat), j ≤ dz.length → |(facesF rnd64 dz 0).getD j 0 - (dz.take j).sum| ≤ slack dz.length dz.sum := by
    intro j hj
    refine (C153_faces dz hcz j hj (by omega)).trans ?_
    unfold slack
    have hj' : (j : ℚ) ≤ dz.length := by exact_mod_cast hj
    have hu := uro_pos
    have s0 : 0 ≤ (dz.take j).sum := List.sum_nonneg fun x hx => (hcz x (List.mem_of_mem_take hx)).1
    have s1 := sum_take_le dz (fun x hx => (hcz x hx).1) j
    calc ((j : ℚ) + 1) * uro * (dz.take j).sum ≤ (dz.length + 1) * uro * (dz.take j).sum := mul_le_mul_of_nonneg_right (mul_le_mul_of_nonneg_right (by linarith) hu.le) s0
      _ ≤ (dz.length + 1) * uro * (1 + dz.sum) := mul_le_mul_of_nonneg_left (by linarith) (by positivity)
  have e0 := gz kz (by omega)
  have e1 := gz (kz + 1) (by omega)
  rw [t1] at e1
  have hfz : 0 < fuzz := by unfold fuzz; norm_num
  have hF : 0 < fuzz * (1 + dz.sum) := by positivity
  have hMz : margin dz.length dz.sum = 4 * fuzz * (1 + dz.sum) + 4 * slack dz.length dz.sum := rfl
  have hpl : planeIndexF rnd64 fuzz equiv c.zs c.nz pz oz = .ok (kz : Int) := by
    rw [h.zs, h.nz]
    have e0' := abs_le.mp e0
    have e1' := abs_le.mp e1
    rw [hMz] at hz0 hz1
    exact planeIndexF_interior fz equiv pz oz (4 * fuzz * (1 + dz.sum)) dz' kz hkz (by linarith) (twice_fuzz _ _ (by linarith)) (fun he => heq' pz _ (by linarith) (by linarith) _ he)
      (by linarith) (by linarith)
  have rd : ∀ {α : Type} (l : List α) (n : Nat), readInt l (n : Int) = l[n]? := by
    intro α l n
    unfold readInt
    rw [if_neg (by omega), Int.toNat_natCast]
  have rd1 : ∀ {α : Type} (l : List α) (n : Nat), readInt l ((n : Int) + 1) = l[n + 1]? := by
    intro α l n
    rw [← rd l (n + 1)]; rfl
  have hz0' : c.zs[kz]? = some ((facesF rnd64 dz 0).getD kz 0) := by rw [h.zs]; exact getElem?_getD _ _ (by rw [fz.len]; omega)
  have hz1' : c.zs[kz + 1]? = some ((facesF rnd64 dz 0).getD (kz + 1) 0) := by rw [h.zs]; exact getElem?_getD _ _ (by rw [fz.len]; omega)
  have getN : ∀ (l : List Nat) (i : Nat), i < l.length → l[i]? = some (l.getD i 0) := by
    intro l i hi
    rw [List.getD_eq_getElem?_getD, List.getElem?_eq_getElem hi]; rfl
  have hfr := getN c.firstReg kz (by rw [h.reg]; exact hkz)
  have ha1 := (List.getElem?_eq_some_iff.mp hax).1
  have ha2 := (List.getElem?_eq_some_iff.mp hay).1
  have hgr := getN g.firstReg (g.nx * ay + ax) (by
    rw [P.reg, P.nx, P.ny]
    have := Nat.mul_le_mul_left cxs.length (show ay + 1 ≤ cys.length by omega)
    have e : cxs.length * (ay + 1) = cxs.length * ay + cxs.length := by ring
    omega)
  have hlr := getN l.firstReg (ky * l.nx + kx) (by
    rw [l6, l2, l3]
    have := Nat.mul_le_mul_left cx.length (show ky + 1 ≤ cy.length by omega)
    have e : cx.length * (ky + 1) = ky * cx.length + cx.length := by ring
    omega)
  have hpp : planePinF rnd64 fuzz equiv g px py ox oy (c.firstReg.getD kz 0) = some (ax, ay, kx, ky, rnd64 (cX + hX), rnd64 (cY + hY),
      c.firstReg.getD kz 0 + g.firstReg.getD (g.nx * ay + ax) 0 + l.firstReg.getD (ky * l.nx + kx) 0) := by
    unfold planePinF
    rw [P.hx, P.hy, P.nx, P.ny] at *
    simp only [Option.bind_eq_bind, X1, Y1, Option.bind_some, X2, Y2, hgr, l1]
    unfold latPinF
    rw [l4, l5, l3]
    rw [l2] at *
    simp only [Option.bind_eq_bind, X3, Y3, Option.bind_some, hlr]
    rfl
  have hcx0 : c.xs[columnOf cxs ax kx]? = some x0 := by rw [h.xs]; exact X6
  have hcx1 : c.xs[columnOf cxs ax kx + 1]? = some x1 := by rw [h.xs]; exact X7
  have hcy0 : c.ys[columnOf cys ay ky]? = some y0 := by rw [h.ys]; exact Y6
  have hcy1 : c.ys[columnOf cys ay ky + 1]? = some y1 := by rw [h.ys]; exact Y7
  have hpx : posOf c.xs px = (columnOf cxs ax kx : Nat) := by rw [h.xs]; exact X5
  have hpy : posOf c.ys py = (columnOf cys ay ky : Nat) := by rw [h.ys]; exact Y5
  refine ⟨u, g, l, ⟨(ax, ay, kx, ky), rnd64 (px - rnd64 (cX + hX)), rnd64 (py - rnd64 (cY + hY)), _, (columnOf cxs ax kx, columnOf cys ay ky, kz), (x0, y0, (facesF rnd64 dz 0).getD kz 0), (x1, y1, (facesF rnd64 dz 0).getD (kz + 1) 0)⟩, hu, hg, l1, ?_, rfl, rfl, rfl, X4,
    Y4, X8, X9, Y8, Y9, e0, e1⟩
  unfold locationInfoF
  simp only [hpl, hpx, hpy, rd, rd1, hfr, hu, hg, hpp, Option.bind_eq_bind, Option.bind_some, hcx0, hcx1, hcy0, hcy1, hz0', hz1', Option.pure_def]

/-! ## The comparison -/

theorem scaled_step (m : Nat) : scaled (m + 1) * 2 ^ 52 ≤ scaled m * (2 ^ 52 + 1) + 2 ^ 52 := by
  have hm := Nat.div_add_mod m (2 ^ 52)
  have hlt := Nat.mod_lt m (show 0 < 2 ^ 52 by norm_num)
  generalize he : m / 2 ^ 52 = e at hm
  generalize hf : m % 2 ^ 52 = f at hm hlt
  by_cases hc : f + 1 < 2 ^ 52
  · have e1 : (m + 1) / 2 ^ 52 = e := by omega
    have e2 : (m + 1) % 2 ^ 52 = f + 1 := by omega
    unfold scaled
    rw [e1, e2, he, hf]
    split
    · omega
    · generalize 2 ^ (e - 1) = w
      nlinarith
  · have e1 : (m + 1) / 2 ^ 52 = e + 1 := by omega
    have e2 : (m + 1) % 2 ^ 52 = 0 := by omega
    have e3 : f = 2 ^ 52 - 1 := by omega
    unfold scaled
    rw [e1, e2, he, hf, e3, if_neg (by omega)]
    split
    · next h => subst h; norm_num
    · next h =>
      obtain ⟨d, rfl⟩ : ∃ d, e = d + 1 := ⟨e - 1, by omega⟩
      simp only [Nat.add_sub_cancel, pow_succ 2 d]
      generalize 2 ^ d = w
      omega

theorem scaled_steps (m j : Nat) : ((scaled (m + j) : ℚ) + 2 ^ 52) ≤ (scaled m + 2 ^ 52) * (1 + 1 / 2 ^ 52) ^ j := by
  induction j with
  | zero => simp
  | succ j ih =>
    have h := scaled_step (m + j)
    have h' : (scaled (m + j + 1) : ℚ) * 2 ^ 52 ≤ scaled (m + j) * (2 ^ 52 + 1) + 2 ^ 52 := by exact_mod_cast h
    rw [pow_succ _ j, ← mul_assoc]
    refine le_trans ?_ (mul_le_mul_of_nonneg_right ih (by norm_num))
    rw [show m + (j + 1) = m + j + 1 by omega]
    linarith

/-- Doubles that are not negative and fewer than 200 apart are close. -/
theorem scaled_close (m k : Nat) (h1 : m ≤ k) (h2 : k < m + 200) : (scaled k : ℚ) - scaled m ≤ (scaled m + 2 ^ 52) * (201 / 2 ^ 52) := by
  have h := scaled_steps m (k - m)
  rw [show m + (k - m) = k by omega] at h
  have hp : ((1 : ℚ) + 1 / 2 ^ 52) ^ (k - m) ≤ (1 + 1 / 2 ^ 52) ^ 200 := pow_le_pow_right₀ (by norm_num) (by omega)
  have hq : ((1 : ℚ) + 1 / 2 ^ 52) ^ 200 ≤ 1 + 201 / 2 ^ 52 := by norm_num
  have h0 : (0 : ℚ) ≤ scaled m + 2 ^ 52 := by positivity
  have := mul_le_mul_of_nonneg_left (hp.trans hq) h0
  linarith

theorem value_nonneg (x : Int) (h : 0 ≤ x) : value x = scaled x.toNat / 2 ^ 1074 := by
  unfold value mag
  rw [if_neg (by omega), if_neg (by omega)]

/-- **C153, `fp_equiv`.**  What C05 says of `fp_equiv` is enough for the location of points: of numbers that are not negative it holds only for such as are closer than this distance. -/
theorem C153_fp_equiv (x y : Int) (hx : 0 ≤ x) (hy : 0 ≤ y) (h : equivSpec x y) : |value x - value y| < 4 * fuzz * (1 + value x) := by
  unfold fuzz
  have vx := value_nonneg x hx
  have vy := value_nonneg y hy
  have px : 0 ≤ value x := by rw [vx]; positivity
  have key : ∀ m k : Nat, m ≤ k → k < m + 200 → (scaled k : ℚ) / 2 ^ 1074 - scaled m / 2 ^ 1074 ≤ 201 / 2 ^ 52 * (1 + scaled m / 2 ^ 1074) := by
    intro m k h1 h2
    have hc := scaled_close m k h1 h2
    have hP : (2 : ℚ) ^ 52 ≤ 2 ^ 1074 := pow_le_pow_right₀ (by norm_num) (by norm_num)
    have hP0 : (0 : ℚ) < 2 ^ 1074 := by positivity
    generalize (2 : ℚ) ^ 1074 = P at hP hP0
    rw [← sub_div, div_le_iff₀ hP0]
    have : 201 / 2 ^ 52 * (1 + (scaled m : ℚ) / P) * P = 201 / 2 ^ 52 * (P + scaled m) := by field_simp
    rw [this]
    nlinarith
  rcases h with h | ⟨-, h⟩
  · linarith
  · have e : ulps x y = |x - y| := by unfold ulps rank; rw [if_neg (by omega), if_neg (by omega)]
    rw [e, abs_lt] at h
    rcases le_total x y with hxy | hxy
    · have := key x.toNat y.toNat (by omega) (by omega)
      rw [← vx, ← vy] at this
      have h2 : value x ≤ value y := by
        rw [vx, vy]
        have := scaled_strictMono.monotone (show x.toNat ≤ y.toNat by omega)
        have : (scaled x.toNat : ℚ) ≤ scaled y.toNat := by exact_mod_cast this
        gcongr
      rw [abs_sub_comm, abs_of_nonneg (by linarith)]
      linarith
    · have := key y.toNat x.toNat (by omega) (by omega)
      rw [← vx, ← vy] at this
      have h2 : value y ≤ value x := by
        rw [vx, vy]
        have := scaled_strictMono.monotone (show y.toNat ≤ x.toNat by omega)
        have : (scaled y.toNat : ℚ) ≤ scaled x.toNat := by exact_mod_cast this
        gcongr
      rw [abs_of_nonneg (by linarith)]
      linarith

/-! ## The last face and the corner of the box -/

/-- **C153, gap.**  The last pin boundary of the core and the corner of the bounding box differ by no more than rounding. -/
theorem C153_gap (cs : List (List ℚ)) (h : ∀ c ∈ cs, ∀ x ∈ c, 0 ≤ x ∧ Dbl x) (hn : cs.flatten.length + cs.length ≤ 2 ^ 26) :
    |(facesF rnd64 cs.flatten 0).getD cs.flatten.length 0 - totalF rnd64 (cs.map (totalF rnd64))| ≤ (2 * cs.flatten.length + cs.length + 2 : ℕ) * uro * cs.flatten.sum := by
  have h1 := C153_faces cs.flatten (fun x hx => by
    obtain ⟨b, hb, hxb⟩ := List.mem_flatten.mp hx
    exact h b hb x hxb) cs.flatten.length le_rfl (by omega)
  have h2 := C153_lattice_faces cs h cs.flatten.length (fun b hb => by
    rw [List.length_flatten]
    exact List.le_sum_of_mem (List.mem_map_of_mem hb)) cs.length le_rfl (by omega)
  rw [C153_corner, List.take_length, ← List.sum_flatten] at h2
  rw [List.take_length] at h1
  push_cast at *
  have e : (2 * (cs.flatten.length : ℚ) + cs.length + 2) * uro * cs.flatten.sum = (cs.flatten.length + 1) * uro * cs.flatten.sum + (cs.flatten.length + cs.length + 1) * uro * cs.flatten.sum := by ring
  simp only [List.length_flatten, List.sum_flatten] at *
  push_cast at *
  rw [abs_le] at *
  constructor <;> linarith [h1.1, h1.2, h2.1, h2.2]

/-- **C153, beyond the last face.**  A point beyond the last pin boundary has no location: the boundary of its pin is read past the end of the vector. -/
theorem C153_outside (equiv : ℚ → ℚ → Bool) (c : CoreG ℚ) (cxs cys : List (List ℚ)) (dz : List ℚ) (h : LaidCoreF c cxs cys dz) (h0 : ∀ x ∈ cxs.flatten, 0 ≤ x)
    (px py pz ox oy oz : ℚ) (hp : (facesF rnd64 cxs.flatten 0).getD cxs.flatten.length 0 < px) (i : Location ℚ) : locationInfoF rnd64 fuzz equiv c px py pz ox oy oz ≠ .ok i := by
  have hl := facesF_length (rnd := rnd64) cxs.flatten 0
  have hpos : posOf c.xs px = (cxs.flatten.length : Int) := by
    rw [h.xs]
    obtain ⟨a, b, d⟩ := Util.lowerBound_spec (fun i => (facesF rnd64 cxs.flatten 0).getD i 0) (facesF rnd64 cxs.flatten 0).length px (fun i j hij hj =>
      C153_sorted rounding64 cxs.flatten h0 i j hij (by omega))
    have : Util.lowerBound (fun i => (facesF rnd64 cxs.flatten 0).getD i 0) (facesF rnd64 cxs.flatten 0).length px = cxs.flatten.length + 1 := by
      by_contra hne
      exact absurd hp (not_lt.mpr (d cxs.flatten.length (by omega) (by omega)))
    unfold posOf
    rw [this]; simp
  have hr : readInt c.xs (posOf c.xs px + 1) = none := by
    rw [hpos]
    unfold readInt
    rw [if_neg (by omega), h.xs]
    exact List.getElem?_eq_none (by omega)
  unfold locationInfoF
  simp only [hr]
  cases planeIndexF rnd64 fuzz equiv c.zs c.nz pz oz with
  | ub => simp
  | throw => simp
  | ok z =>
    simp only
    intro hc
    split at hc
    · next e =>
      simp only [Option.bind_eq_bind, Option.bind_eq_some_iff] at e
      obtain ⟨_, _, _, _, _, _, _, _, _, _, _, _, _, _, _, e, _⟩ := e
      cases e
    · cases hc

/-- The claim: the last pin boundary of the core is the corner of its bounding box. -/
def C153_claim : Prop := ∀ cs : List (List ℚ), (∀ c ∈ cs, c ≠ [] ∧ ∀ x ∈ c, 0 < x ∧ Dbl x) → cs.flatten.length < 100 →
  (facesF rnd64 cs.flatten 0).getD cs.flatten.length 0 = totalF rnd64 (cs.map (totalF rnd64))

/-- The claim: every point of the bounding box that is not on a lower face has a location. -/
def C153_box_claim : Prop := ∀ (equiv : ℚ → ℚ → Bool) (c : CoreG ℚ) (cxs cys : List (List ℚ)) (dz : List ℚ), LaidCoreF c cxs cys dz → (∀ c ∈ cxs, c ≠ [] ∧ ∀ x ∈ c, 0 < x ∧ Dbl x) →
  (∀ c ∈ cys, c ≠ [] ∧ ∀ x ∈ c, 0 < x ∧ Dbl x) → (∀ x ∈ dz, 0 < x ∧ Dbl x) → ∀ px py pz ox oy oz : ℚ, Dbl px → Dbl py → Dbl pz →
  0 < px → px ≤ totalF rnd64 (cxs.map (totalF rnd64)) → 0 < py → py ≤ totalF rnd64 (cys.map (totalF rnd64)) → 0 < pz → pz ≤ totalF rnd64 dz → oz ≠ 0 →
  ∃ i, locationInfoF rnd64 fuzz equiv c px py pz ox oy oz = .ok i

/-- The pitch 1.26 as a double. -/
def pitch : ℚ := rnd64 (126 / 100)

/-- Three lattices of 17 pins of pitch 1.26, as in the C5G7 benchmark. -/
def c5 : List (List ℚ) := List.replicate 3 (List.replicate 17 pitch)

theorem c5_gap : (facesF rnd64 c5.flatten 0).getD c5.flatten.length 0 < totalF rnd64 (c5.map (totalF rnd64)) := by decide +kernel

theorem c5_mem : ∀ c ∈ c5, c ≠ [] ∧ ∀ x ∈ c, 0 < x ∧ Dbl x := by
  intro c hc
  rw [List.eq_of_mem_replicate hc]
  refine ⟨by simp, fun x hx => ?_⟩
  rw [List.eq_of_mem_replicate hx]
  exact ⟨by decide +kernel, dbl_rnd _⟩

/-- C153 is false: the last pin boundary of three lattices of 17 pins of pitch 1.26 is below the corner of the bounding box. -/
theorem C153_claim_false : ¬ C153_claim := fun h => absurd (h c5 c5_mem (by decide)) c5_gap.ne

/-- A core of these lattices, one pin high. -/
def c5Core : CoreG ℚ where
  xs := facesF rnd64 c5.flatten 0
  ys := facesF rnd64 [pitch] 0
  zs := facesF rnd64 [1] 0
  nz := 1
  firstReg := [0]
  uniq := [0]
  planes := [⟨3, 1, facesF rnd64 (c5.map (totalF rnd64)) 0, facesF rnd64 [totalF rnd64 [pitch]] 0,
    List.replicate 3 ⟨17, 1, facesF rnd64 (List.replicate 17 pitch) 0, facesF rnd64 [pitch] 0, List.range 17⟩, [0, 17, 34]⟩]

theorem c5Core_laid : LaidCoreF c5Core c5 [[pitch]] [1] where
  xs := rfl
  ys := rfl
  zs := rfl
  nz := rfl
  reg := rfl
  plane z hz := by
    have : z = 0 := by simpa using hz
    subst this
    refine ⟨0, _, rfl, rfl, rfl, rfl, rfl, rfl, rfl, ?_⟩
    intro ax ay cx cy hx hy
    have h1 := (List.getElem?_eq_some_iff.mp hx).1
    have h2 := (List.getElem?_eq_some_iff.mp hy).1
    have e1 : cx = List.replicate 17 pitch := List.eq_of_mem_replicate (List.mem_of_getElem? hx)
    have h2' : ay = 0 := by simpa using h2
    subst h2' e1
    have e2 : cy = [pitch] := by simpa using hy.symm
    subst e2
    have h1' : ax < 3 := by simpa [c5] using h1
    refine ⟨⟨17, 1, facesF rnd64 (List.replicate 17 pitch) 0, facesF rnd64 [pitch] 0, List.range 17⟩, ?_, rfl, rfl, rfl, rfl, rfl⟩
    simp only [Nat.zero_mul, Nat.zero_add, List.getElem?_replicate, h1', if_true]

/-- C153 is false: the corner of the bounding box of this core has no location. -/
theorem C153_box_claim_false : ¬ C153_box_claim := by
  intro h
  obtain ⟨i, hi⟩ := h (fun a b => decide (a = b)) c5Core c5 [[pitch]] [1] c5Core_laid c5_mem (by
      intro c hc
      rw [List.mem_singleton.mp hc]
      refine ⟨by simp, fun x hx => ?_⟩
      rw [List.mem_singleton.mp hx]
      exact ⟨by decide +kernel, dbl_rnd _⟩) (by
      intro x hx
      rw [List.mem_singleton.mp hx]
      exact ⟨by norm_num, by unfold Dbl; decide +kernel⟩)
    (totalF rnd64 (c5.map (totalF rnd64))) 1 (1 / 2) (1 / 2) (1 / 2) (1 / 2) (by unfold Dbl; decide +kernel) (by unfold Dbl; decide +kernel) (by unfold Dbl; decide +kernel)
    (by decide +kernel) le_rfl (by norm_num) (by decide +kernel) (by norm_num) (by decide +kernel) (by norm_num)
  exact C153_outside _ c5Core c5 [[pitch]] [1] c5Core_laid (fun x hx => by
    obtain ⟨b, hb, hxb⟩ := List.mem_flatten.mp hx
    exact ((c5_mem b hb).2 x hxb).1.le) _ _ _ _ _ _ c5_gap i hi

/-! ## Examples -/

/-- The pitches are binary fractions: all faces are exact, and the last one is the corner. -/
example : facesF rnd64 [5 / 4, 5 / 4, 3 / 2] 0 = interfaces [5 / 4, 5 / 4, 3 / 2] 0 := by decide +kernel

example : facesF rnd64 [5 / 4, 5 / 4, 3 / 2] 0 = interfaces [5 / 4, 5 / 4, 3 / 2] 0 := C153_exact _ _ fun i hi => by
  have : i = 0 ∨ i = 1 ∨ i = 2 ∨ i = 3 := by simp at hi; omega
  rcases this with rfl | rfl | rfl | rfl <;> decide +kernel

/-- The gap is three units of `2 ^ -46`. -/
example : totalF rnd64 (c5.map (totalF rnd64)) - (facesF rnd64 c5.flatten 0).getD 51 0 = 3 / 2 ^ 46 := by decide +kernel

/-- Two lattices of ten pins of pitch 1.2. -/
example : totalF rnd64 (List.replicate 2 (totalF rnd64 (List.replicate 10 (rnd64 (12 / 10))))) ≠ (facesF rnd64 (List.replicate 20 (rnd64 (12 / 10))) 0).getD 20 0 := by decide +kernel

/-- All hypotheses of the location hold for the point `x = 30` in this core, in the seventh pin of the second lattice. -/
example : ∃ i, locationInfoF rnd64 fuzz (equivAbs fuzz) c5Core 30 1 (1 / 2) 1 1 1 = .ok i ∧ i.mesh = (1, 0, 6, 0) ∧ i.pos = (23, 0, 0) ∧ i.reg = 23 := by
  obtain ⟨u, g, l, i, h1, h2, h3, h4, h5, h6, h7, -⟩ := C153_location (equivAbs fuzz) (fun a b ha he => by
      have he := of_decide_eq_true he
      have : 0 < fuzz := by unfold fuzz; norm_num
      nlinarith) c5Core c5 [[pitch]] [1] c5Core_laid (fun c hc x hx => ⟨((c5_mem c hc).2 x hx).1.le, ((c5_mem c hc).2 x hx).2⟩) (by
      intro c hc x hx
      rw [List.mem_singleton.mp hc] at hx
      rw [List.mem_singleton.mp hx]
      exact ⟨by decide +kernel, dbl_rnd _⟩) (by
      intro x hx
      rw [List.mem_singleton.mp hx]
      exact ⟨by norm_num, by unfold Dbl; decide +kernel⟩) (by decide) (by decide) (by decide) 1 0 6 0 0 (List.replicate 17 pitch) [pitch] rfl rfl (by decide) (by decide) (by decide) 30 1 (1 / 2) 1 1 1
    (by unfold Dbl; decide +kernel) (by unfold Dbl; decide +kernel) (by unfold Dbl; decide +kernel) (by decide +kernel) (by decide +kernel) (by decide +kernel) (by decide +kernel) (by decide +kernel)
    (by decide +kernel)
  refine ⟨i, h4, h5, ?_, ?_⟩
  · rw [h6]; decide
  · have e1 : u = 0 := by simpa [c5Core] using h1.symm
    subst e1
    rw [h7]
    have e2 : g = c5Core.planes[0]'(by decide) := by
      have := h2.symm
      simpa [c5Core] using this
    subst e2
    have e3 : l = ⟨17, 1, facesF rnd64 (List.replicate 17 pitch) 0, facesF rnd64 [pitch] 0, List.range 17⟩ := List.eq_of_mem_replicate (List.mem_of_getElem? h3)
    subst e3
    decide

/-- The same by evaluation; and at the corner, whatever the direction, there is no location. -/
example : (match locationInfoF rnd64 fuzz (equivAbs fuzz) c5Core 30 1 (1 / 2) 1 1 1 with | .ok i => (i.mesh, i.pos, i.reg) | _ => ((0, 0, 0, 0), (0, 0, 0), 0)) = ((1, 0, 6, 0), (23, 0, 0), 23) := by
  decide +kernel

example : locationInfoF rnd64 fuzz (equivAbs fuzz) c5Core (totalF rnd64 (c5.map (totalF rnd64))) 1 (1 / 2) (-1) 1 1 = .ub := by decide +kernel

example : |value 0 - value 199| < 4 * fuzz * (1 + value 0) := C153_fp_equiv 0 199 le_rfl (by norm_num) (Or.inr ⟨by unfold SameSign; omega, by decide⟩)

theorem latPinF_id (fz : ℚ) (l : Lat ℚ) (px py ox oy : ℚ) (first : Nat) : latPinF id fz l px py ox oy first = latPin fz l px py ox oy first := by
  have e : ∀ eq xs n p o, locateF id fz eq xs n p o = locate fz eq xs n p o := fun _ _ _ _ _ => rfl
  have e' : equivAbsF id fz = equivAbs fz := rfl
  simp only [latPinF, latAxisF, latPin, e, e', id, bind, pure]
  cases locate fz (equivAbs fz) l.xs l.nx px ox with
  | none => simp
  | some ix =>
    cases locate fz (equivAbs fz) l.ys l.ny py oy with
    | none => cases l.xs[ix + 1]? <;> cases l.xs[ix]? <;> simp
    | some iy =>
      simp only [Option.bind_some]
      cases l.xs[ix + 1]? <;> cases l.xs[ix]? <;> cases l.ys[iy + 1]? <;> cases l.ys[iy]? <;> simp <;> cases l.firstReg[iy * l.nx + ix]? <;> simp
      constructor <;> ring

theorem planePinF_id (fz : ℚ) (equiv : ℚ → ℚ → Bool) (g : PlaneG ℚ) (px py ox oy : ℚ) (first : Nat) : planePinF id fz equiv g px py ox oy first = planePin fz equiv g px py ox oy first := by
  have e : ∀ eq xs n p o, locateF id fz eq xs n p o = locate fz eq xs n p o := fun _ _ _ _ _ => rfl
  simp only [planePinF, planePin, e, id, bind, pure, latPinF_id]
  cases locate fz equiv g.hx g.nx px ox with
  | none => simp
  | some ax =>
    cases locate fz equiv g.hy g.ny py oy with
    | none => simp
    | some ay =>
      simp only [Option.bind_some]
      cases g.hx[ax]? <;> cases g.hy[ay]? <;> cases g.firstReg[g.nx * ay + ax]? <;> cases g.lats[ay * g.nx + ax]? <;> simp
      split <;> simp_all

/-- **C153, without rounding** the functions are those of C49 and C86. -/
theorem C153_without_rounding (fz : ℚ) (equiv : ℚ → ℚ → Bool) (c : CoreG ℚ) (px py pz ox oy oz : ℚ) (hs : List ℚ) (x : ℚ) :
    locationInfoF id fz equiv c px py pz ox oy oz = locationInfo fz equiv c px py pz ox oy oz ∧ facesF id hs x = interfaces hs x ∧ totalF id hs = hs.sum := by
  refine ⟨?_, ?_, ?_⟩
  · have e : planeIndexF id fz equiv c.zs c.nz pz oz = planeIndex fz equiv c.zs c.nz pz oz := rfl
    simp only [locationInfoF, locationInfo, e, planePinF_id, id]
    rfl
  · induction hs generalizing x with
    | nil => rfl
    | cons h hs ih => simp only [facesF, interfaces, id]; rw [ih]
  · unfold totalF
    simp only [id]
    rw [List.sum_eq_foldl]

/-- The face between the first and the second pin, and the last face. -/
example : locateF rnd64 fuzz (equivAbs fuzz) (facesF rnd64 [pitch, pitch] 0) 2 pitch 1 = some 1 ∧ locateF rnd64 fuzz (equivAbs fuzz) (facesF rnd64 [pitch, pitch] 0) 2 pitch (-1) = some 0 := by
  have f : Stored (facesF rnd64 [pitch, pitch] 0) [pitch, pitch].length := stored_faces _ (by
    intro x hx
    have : x = pitch := by simpa using hx
    subst this
    exact ⟨by decide +kernel, dbl_rnd _⟩) (by decide)
  have h := fun o => C153_on_face (equivAbs fuzz) _ _ f pitch o 1 (dbl_rnd _) 0 (by decide) one_pos (by decide +kernel) (by decide +kernel) (by decide +kernel) (by decide +kernel)
  exact ⟨by simpa using h 1, by simpa using (h (-1)).trans (by rw [if_neg (by norm_num)])⟩

end Verif.Core
