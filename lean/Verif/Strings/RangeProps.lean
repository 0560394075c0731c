import Verif.Strings.RangeLemmas

/-!
# C07: `print_range`
-/

namespace Verif.Strings

/-- C07: the ranges printed are ascending, do not overlap or touch, and contain exactly the indices whose flag is
true. -/
theorem C07_ranges (input : List Bool) :
    (ranges input).Pairwise (fun a b => a.2 + 1 < b.1) ∧ (∀ r ∈ ranges input, r.1 ≤ r.2) ∧
    ∀ k, (input[k]? = some true ↔ ∃ r ∈ ranges input, r.1 ≤ k ∧ k ≤ r.2) :=
  ⟨(ranges_fin input).sorted, (ranges_fin input).ordered, (ranges_fin input).exact⟩

/-- C07: the text is the comma-separated list of the ranges, `lo-hi` or a single index. -/
theorem C07_text (input : List Bool) :
    printRange input = ", ".intercalate ((ranges input).map (fun r =>
      if r.1 = r.2 then toString r.1 else toString r.1 ++ "-" ++ toString r.2)) := by
  have hf := ranges_fin input
  unfold printRange
  rw [printLoop_eq _ _ hf.sorted hf.ordered]
  · congr 1
    apply List.map_congr_left
    intro r _
    unfold showRange
    split_ifs <;> first | rfl | (rename_i h1 h2; exact absurd h2 h1)
  · intro hne
    cases h : ranges input with
    | nil => exact absurd h hne
    | cons a as => simp [List.getLastD_cons, List.getLast?_cons]

/-- Any list of ranges with the three properties of `C07_ranges` is the one printed: the description is unique. -/
theorem C07_unique (input : List Bool) (rs : List (Nat × Nat)) (h1 : rs.Pairwise (fun a b => a.2 + 1 < b.1))
    (h2 : ∀ r ∈ rs, r.1 ≤ r.2) (h3 : ∀ k, (input[k]? = some true ↔ ∃ r ∈ rs, r.1 ≤ k ∧ k ≤ r.2)) :
    rs = ranges input := by
  have hf := ranges_fin input
  have key : ∀ (xs ys : List (Nat × Nat)), xs.Pairwise (fun a b => a.2 + 1 < b.1) → (∀ r ∈ xs, r.1 ≤ r.2) →
      ys.Pairwise (fun a b => a.2 + 1 < b.1) → (∀ r ∈ ys, r.1 ≤ r.2) →
      (∀ k, (∃ r ∈ xs, r.1 ≤ k ∧ k ≤ r.2) ↔ ∃ r ∈ ys, r.1 ≤ k ∧ k ≤ r.2) → xs = ys := by
    intro xs
    induction xs with
    | nil =>
      intro ys _ _ _ o2 h
      cases ys with
      | nil => rfl
      | cons y ys =>
        have := (h y.1).mpr ⟨y, by simp, Nat.le_refl _, o2 y (by simp)⟩
        simp at this
    | cons x xs ih =>
      intro ys p1 o1 p2 o2 h
      cases ys with
      | nil =>
        have := (h x.1).mp ⟨x, by simp, Nat.le_refl _, o1 x (by simp)⟩
        simp at this
      | cons y ys =>
        obtain ⟨px, pxs⟩ := List.pairwise_cons.mp p1
        obtain ⟨py, pys⟩ := List.pairwise_cons.mp p2
        have ox := o1 x (by simp)
        have oy := o2 y (by simp)
        have memx : ∀ k, x.1 ≤ k → k ≤ x.2 → (y.1 ≤ k ∧ k ≤ y.2) ∨ ∃ r ∈ ys, r.1 ≤ k ∧ k ≤ r.2 := by
          intro k a b
          obtain ⟨r, hr, hk⟩ := (h k).mp ⟨x, by simp, a, b⟩
          rcases List.mem_cons.mp hr with rfl | hr
          · exact Or.inl hk
          · exact Or.inr ⟨r, hr, hk⟩
        have memy : ∀ k, y.1 ≤ k → k ≤ y.2 → (x.1 ≤ k ∧ k ≤ x.2) ∨ ∃ r ∈ xs, r.1 ≤ k ∧ k ≤ r.2 := by
          intro k a b
          obtain ⟨r, hr, hk⟩ := (h k).mpr ⟨y, by simp, a, b⟩
          rcases List.mem_cons.mp hr with rfl | hr
          · exact Or.inl hk
          · exact Or.inr ⟨r, hr, hk⟩
        have lo : x.1 = y.1 := by
          rcases Nat.lt_trichotomy x.1 y.1 with hl | hl | hl
          · rcases memx x.1 (Nat.le_refl _) ox with a | ⟨r, hr, a⟩
            · omega
            · have := py r hr; omega
          · exact hl
          · rcases memy y.1 (Nat.le_refl _) oy with a | ⟨r, hr, a⟩
            · omega
            · have := px r hr; omega
        have hi : x.2 = y.2 := by
          rcases Nat.lt_trichotomy x.2 y.2 with hl | hl | hl
          · rcases memy (x.2 + 1) (by omega) (by omega) with a | ⟨r, hr, a⟩
            · omega
            · have := px r hr; omega
          · exact hl
          · rcases memx (y.2 + 1) (by omega) (by omega) with a | ⟨r, hr, a⟩
            · omega
            · have := py r hr; omega
        have hxy : x = y := Prod.ext lo hi
        subst hxy
        congr 1
        refine ih ys pxs (fun r hr => o1 r (by simp [hr])) pys (fun r hr => o2 r (by simp [hr])) ?_
        intro k
        have hk := h k
        constructor
        · rintro ⟨r, hr, a⟩
          obtain ⟨r', hr', b⟩ := hk.mp ⟨r, by simp [hr], a⟩
          rcases List.mem_cons.mp hr' with rfl | hr'
          · have := px r hr; omega
          · exact ⟨r', hr', b⟩
        · rintro ⟨r, hr, a⟩
          obtain ⟨r', hr', b⟩ := hk.mpr ⟨r, by simp [hr], a⟩
          rcases List.mem_cons.mp hr' with rfl | hr'
          · have := py r hr; omega
          · exact ⟨r', hr', b⟩
  exact key rs (ranges input) h1 h2 hf.sorted hf.ordered (fun k => by rw [← h3 k, hf.exact k])

example : ranges [true, true, false, true, false, true] = [(0, 1), (3, 3), (5, 5)] := by decide

/-- C07: the printed text, described without reference to how it is computed: for any list of ascending ranges that
neither overlap nor touch and contain exactly the indices whose flag is true, it is their comma-separated list. -/
theorem C07_print (input : List Bool) (rs : List (Nat × Nat)) (h1 : rs.Pairwise (fun a b => a.2 + 1 < b.1))
    (h2 : ∀ r ∈ rs, r.1 ≤ r.2) (h3 : ∀ k, (input[k]? = some true ↔ ∃ r ∈ rs, r.1 ≤ k ∧ k ≤ r.2)) :
    printRange input = ", ".intercalate (rs.map (fun r =>
      if r.1 = r.2 then toString r.1 else toString r.1 ++ "-" ++ toString r.2)) := by
  rw [C07_unique input rs h1 h2 h3]
  exact C07_text input

end Verif.Strings
