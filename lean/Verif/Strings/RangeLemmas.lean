import Verif.Strings.Model
import Mathlib.Data.List.Pairwise

/-! Helper lemmas for `print_range`. -/

namespace Verif.Strings

/-- State of the scan after `i` elements, before the last one: `ranges` plus, if a range is open,
`[leftBound, i)`. -/
structure Inv (input : List Bool) (i : Nat) (s : Scan) : Prop where
  sorted : s.ranges.Pairwise (fun a b => a.2 + 1 < b.1)
  ordered : ∀ r ∈ s.ranges, r.1 ≤ r.2
  closed : s.left = false → ∀ r ∈ s.ranges, r.2 + 1 < i
  opened : s.left = true → s.leftBound < i ∧ ∀ r ∈ s.ranges, r.2 + 1 < s.leftBound
  exact : ∀ k, k < i → (input[k]? = some true ↔
    (∃ r ∈ s.ranges, r.1 ≤ k ∧ k ≤ r.2) ∨ (s.left = true ∧ s.leftBound ≤ k))

/-- The finished list of ranges. -/
structure Fin (input : List Bool) (rs : List (Nat × Nat)) : Prop where
  sorted : rs.Pairwise (fun a b => a.2 + 1 < b.1)
  ordered : ∀ r ∈ rs, r.1 ≤ r.2
  exact : ∀ k, (input[k]? = some true ↔ ∃ r ∈ rs, r.1 ≤ k ∧ k ≤ r.2)

theorem pairwise_concat {rs : List (Nat × Nat)} {lo hi : Nat} (h : rs.Pairwise (fun a b => a.2 + 1 < b.1))
    (hlo : ∀ r ∈ rs, r.2 + 1 < lo) : (rs ++ [(lo, hi)]).Pairwise (fun a b => a.2 + 1 < b.1) := by
  rw [List.pairwise_append]
  refine ⟨h, by simp, ?_⟩
  intro a ha b hb
  simp only [List.mem_singleton] at hb
  subst hb
  exact hlo a ha

/-- One round, before looking at whether the element is the last one. -/
theorem step_inv (n i : Nat) (b : Bool) (s : Scan) (input : List Bool) (hb : input[i]? = some b)
    (hn : i + 1 ≠ n) (h : Inv input i s) : Inv input (i + 1) (scanStep n i b s) := by
  have hlast : (i + 1 == n) = false := by simpa using hn
  obtain ⟨l, lb, rs⟩ := s
  obtain ⟨h1, h2, h3, h4, h5⟩ := h
  simp only at h1 h2 h3 h4 h5
  cases b <;> cases l
  · -- closed, false
    simp only [scanStep, hlast, Bool.false_and, Bool.and_false, Bool.false_eq_true, if_false]
    refine ⟨h1, h2, fun _ r hr => by have := h3 rfl r hr; omega, by simp, ?_⟩
    intro k hk
    rcases Nat.lt_or_ge k i with hki | hki
    · exact h5 k hki
    · have : k = i := by omega
      subst this
      rw [hb]
      simp only [Option.some.injEq, Bool.false_eq_true, false_and, or_false, false_iff]
      rintro ⟨r, hr, -, h⟩
      have := h3 rfl r hr; omega
  · -- open, false: close the range
    simp only [scanStep, hlast, Bool.false_and, Bool.and_false, Bool.not_false, Bool.and_true, Bool.not_true,
      Bool.false_eq_true, if_false, if_true]
    obtain ⟨h6, h7⟩ := h4 rfl
    refine ⟨pairwise_concat h1 h7, ?_, ?_, by simp, ?_⟩
    · intro r hr
      rcases List.mem_append.mp hr with hr | hr
      · exact h2 r hr
      · simp only [List.mem_singleton] at hr; subst hr; simp only; omega
    · intro _ r hr
      rcases List.mem_append.mp hr with hr | hr
      · have := h7 r hr; omega
      · simp only [List.mem_singleton] at hr; subst hr; simp only; omega
    · intro k hk
      simp only [List.mem_append, List.mem_singleton, Bool.false_eq_true, false_and, or_false]
      rcases Nat.lt_or_ge k i with hki | hki
      · rw [h5 k hki]
        constructor
        · rintro (⟨r, hr, h⟩ | ⟨-, h⟩)
          · exact ⟨r, Or.inl hr, h⟩
          · exact ⟨(lb, i - 1), Or.inr rfl, h, by simp only; omega⟩
        · rintro ⟨r, hr | rfl, h⟩
          · exact Or.inl ⟨r, hr, h⟩
          · exact Or.inr ⟨rfl, h.1⟩
      · have : k = i := by omega
        subst this
        rw [hb]
        simp only [Option.some.injEq, Bool.false_eq_true, false_iff]
        rintro ⟨r, hr | rfl, -, h⟩
        · have := h7 r hr; omega
        · simp only at h; omega
  · -- closed, true: open a range
    simp only [scanStep, hlast, Bool.true_and, Bool.and_true, Bool.not_false, Bool.and_false, Bool.not_true,
      Bool.false_eq_true, if_false, if_true]
    refine ⟨h1, h2, by simp, fun _ => ⟨by simp only; omega, fun r hr => h3 rfl r hr⟩, ?_⟩
    intro k hk
    simp only [true_and]
    rcases Nat.lt_or_ge k i with hki | hki
    · rw [h5 k hki]
      simp only [Bool.false_eq_true, false_and, or_false]
      constructor
      · exact Or.inl
      · rintro (h | h)
        · exact h
        · omega
    · have : k = i := by omega
      subst this
      rw [hb]
      simp
  · -- open, true
    simp only [scanStep, hlast, Bool.true_and, Bool.not_true, Bool.and_false, Bool.false_eq_true, if_false]
    obtain ⟨h6, h7⟩ := h4 rfl
    refine ⟨h1, h2, by simp, fun _ => ⟨by simp only; omega, h7⟩, ?_⟩
    intro k hk
    rcases Nat.lt_or_ge k i with hki | hki
    · exact h5 k hki
    · have : k = i := by omega
      subst this
      rw [hb]
      simp only [true_and, true_iff]
      right; omega

theorem step_last (n i : Nat) (b : Bool) (s : Scan) (input : List Bool) (hb : input[i]? = some b)
    (hl : input.length = n) (hn : i + 1 = n) (h : Inv input i s) : Fin input (scanStep n i b s).ranges := by
  have hi := step_inv (n + 1) i b s input hb (by omega) h
  have hne : (i + 1 == n + 1) = false := by simp; omega
  have heq : (i + 1 == n) = true := by simpa using hn
  have hout : ∀ k, i + 1 ≤ k → input[k]? ≠ some true := by
    intro k hk hc
    have := (List.getElem?_eq_some_iff.mp hc).1
    omega
  -- the last round is an ordinary round followed by closing an open range
  have key : (scanStep n i b s).ranges =
      if (scanStep (n + 1) i b s).left then (scanStep (n + 1) i b s).ranges ++ [((scanStep (n + 1) i b s).leftBound, i)]
      else (scanStep (n + 1) i b s).ranges := by
    obtain ⟨l, lb, rs⟩ := s
    cases b <;> cases l <;> simp [scanStep, hne, heq]
  rw [key]
  generalize scanStep (n + 1) i b s = t at hi
  obtain ⟨h1, h2, h3, h4, h5⟩ := hi
  split_ifs with ht
  · obtain ⟨h6, h7⟩ := h4 ht
    refine ⟨pairwise_concat h1 h7, ?_, ?_⟩
    · intro r hr
      rcases List.mem_append.mp hr with hr | hr
      · exact h2 r hr
      · simp only [List.mem_singleton] at hr; subst hr; simp only; omega
    · intro k
      simp only [List.mem_append, List.mem_singleton]
      rcases Nat.lt_or_ge k (i + 1) with hk | hk
      · rw [h5 k hk]
        constructor
        · rintro (⟨r, hr, h⟩ | ⟨-, h⟩)
          · exact ⟨r, Or.inl hr, h⟩
          · exact ⟨(t.leftBound, i), Or.inr rfl, h, by simp only; omega⟩
        · rintro ⟨r, hr | rfl, h⟩
          · exact Or.inl ⟨r, hr, h⟩
          · exact Or.inr ⟨ht, h.1⟩
      · constructor
        · intro hc; exact absurd hc (hout k hk)
        · rintro ⟨r, hr | rfl, h, h'⟩
          · have := h7 r hr; omega
          · simp only at h'; omega
  · have ht' : t.left = false := by simpa using ht
    refine ⟨h1, h2, ?_⟩
    intro k
    rcases Nat.lt_or_ge k (i + 1) with hk | hk
    · rw [h5 k hk, ht']; simp
    · constructor
      · intro hc; exact absurd hc (hout k hk)
      · rintro ⟨r, hr, h, h'⟩
        have := h3 ht' r hr; omega

theorem scan_fin (input pre bs : List Bool) (s : Scan) (he : input = pre ++ bs) (hne : bs ≠ [])
    (h : Inv input pre.length s) : Fin input (scanFrom input.length pre.length bs s).ranges := by
  induction bs generalizing pre s with
  | nil => exact absurd rfl hne
  | cons b bs ih =>
    rw [scanFrom]
    have hb : input[pre.length]? = some b := by rw [he]; simp
    cases bs with
    | nil =>
      have hl : pre.length + 1 = input.length := by rw [he]; simp
      exact step_last _ _ b s input hb rfl hl h
    | cons b' bs =>
      have hl : pre.length + 1 ≠ input.length := by rw [he]; simp
      have := ih (pre ++ [b]) (scanStep input.length pre.length b s) (by rw [he]; simp) (by simp)
        (by rw [List.length_append]; exact step_inv _ _ b s input hb hl h)
      simpa using this

theorem ranges_fin (input : List Bool) : Fin input (ranges input) := by
  unfold ranges
  cases input with
  | nil => exact ⟨by simp [scanFrom], by simp [scanFrom], by simp [scanFrom]⟩
  | cons b bs =>
    exact scan_fin (b :: bs) [] (b :: bs) ⟨false, 0, []⟩ rfl (by simp)
      ⟨by simp, by simp, by simp, by simp, by simp⟩

/-- Ascending separated ranges are distinct, so only the last one equals the last one. -/
theorem printLoop_eq (last : Nat × Nat) (rs : List (Nat × Nat)) (hs : rs.Pairwise (fun a b => a.2 + 1 < b.1))
    (ho : ∀ r ∈ rs, r.1 ≤ r.2) (hl : rs ≠ [] → rs.getLast? = some last) :
    printLoop last rs = ", ".intercalate (rs.map showRange) := by
  induction rs with
  | nil => rfl
  | cons r rs ih =>
    cases rs with
    | nil =>
      have : r = last := by simpa using hl (by simp)
      simp [printLoop, this, String.intercalate_singleton]
    | cons r' rs =>
      have hl' : (r' :: rs).getLast? = some last := by
        have := hl (by simp)
        simpa [List.getLast?_cons_cons] using this
      have hne : r ≠ last := by
        intro hrl
        have hm : last ∈ r' :: rs := List.mem_of_getLast? hl'
        have := (List.pairwise_cons.mp hs).1 last hm
        have := ho r (by simp)
        rw [hrl] at this
        rw [hrl] at *
        omega
      have := ih (List.pairwise_cons.mp hs).2 (fun x hx => ho x (by simp [hx])) (fun _ => hl')
      rw [printLoop, if_pos hne, this]
      simp only [List.map_cons, String.intercalate_cons_cons]

end Verif.Strings
