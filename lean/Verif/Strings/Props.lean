import Verif.Strings.Braces
import Mathlib.Data.List.Pairwise

/-!
# C06 and C07: brace lists and index ranges
-/

namespace Verif.Strings
open Spec

/-- C06 (full claim, false): a text with brace groups, whose numbers fit an `int` and whose groups are not empty,
is read to exactly the numbers written. -/
def C06_claim : Prop := ∀ (segs : List (List Char × List Char)) (tail : List Char), PlainSegs segs → Plain tail →
  (render segs tail).length < npos → Acceptable segs tail →
  ∃ fuel, explodeBraces fuel (render segs tail) = some (.ok (meaning segs tail))

/-- C06: exactly what every well-formed text is read to: the last character of each naked text in front of a brace
group is ignored; too large numbers and empty groups throw. -/
theorem C06_behaviour (segs : List (List Char × List Char)) (tail : List Char) (hs : PlainSegs segs)
    (ht : Plain tail) (hlen : (render segs tail).length < npos) (fuel : Nat) (hf : segs.length < fuel) :
    (Acceptable (chop segs) tail →
      explodeBraces fuel (render segs tail) = some (.ok (meaning (chop segs) tail))) ∧
    (¬ Acceptable (chop segs) tail → explodeBraces fuel (render segs tail) = some .throws) := by
  unfold explodeBraces
  rw [valid_render segs tail hs ht, braceDepth_render segs tail hs ht]
  simp only [Bool.not_true, Bool.false_eq_true, if_false, ne_eq, not_true_eq_false]
  have := loop_render segs tail [] [] fuel hs ht hf (by simpa using hlen)
  simpa using this

/-- Naked text that is empty or ends in white space. -/
def EndsInSpace (n : List Char) : Prop := n = [] ∨ ∃ m c, n = m ++ [c] ∧ isSpace c = true

theorem numbers_chop (n : List Char) (h : EndsInSpace n) : numbers n.dropLast = numbers n := by
  rcases h with rfl | ⟨m, c, rfl, hc⟩
  · rfl
  · unfold numbers
    rw [List.dropLast_concat, words_append_spaces m [c] (by simpa using hc)]

/-- C06: when every naked text in front of a brace is empty or ends in white space, the text is read to exactly
the numbers written, or an exception is thrown because a number does not fit or a group is empty.
Missing with respect to the full claim: a naked number directly followed by a brace loses its last digit. -/
theorem C06_roundtrip_partial (segs : List (List Char × List Char)) (tail : List Char) (hs : PlainSegs segs)
    (ht : Plain tail) (hlen : (render segs tail).length < npos) (hsp : ∀ p ∈ segs, EndsInSpace p.1)
    (fuel : Nat) (hf : segs.length < fuel) :
    (Acceptable segs tail → explodeBraces fuel (render segs tail) = some (.ok (meaning segs tail))) ∧
    (¬ Acceptable segs tail → explodeBraces fuel (render segs tail) = some .throws) := by
  have hm : meaning (chop segs) tail = meaning segs tail := by
    clear hs hlen hf
    induction segs with
    | nil => rfl
    | cons p segs ih =>
      have e := numbers_chop p.1 (hsp p (by simp))
      have := ih (fun q hq => hsp q (by simp [hq]))
      unfold chop at *
      simp only [List.map_cons, meaning, e, this]
  have ha : Acceptable (chop segs) tail ↔ Acceptable segs tail := by
    unfold Acceptable chop
    have key : ∀ p ∈ segs, (Fits p.1.dropLast ↔ Fits p.1) := by
      intro p hp; unfold Fits; rw [numbers_chop p.1 (hsp p hp)]
    constructor
    · rintro ⟨h1, h2⟩
      refine ⟨fun p hp => ?_, h2⟩
      have := h1 (p.1.dropLast, p.2) (List.mem_map.mpr ⟨p, hp, rfl⟩)
      exact ⟨(key p hp).mp this.1, this.2⟩
    · rintro ⟨h1, h2⟩
      refine ⟨fun q hq => ?_, h2⟩
      obtain ⟨p, hp, rfl⟩ := List.mem_map.mp hq
      exact ⟨(key p hp).mpr (h1 p hp).1, (h1 p hp).2⟩
  have := C06_behaviour segs tail hs ht hlen fuel hf
  rw [hm, ha] at this
  exact this

/-- C06: nothing else is ever accepted: if the function returns normally, the text is made of naked numbers and
(non-nested, matched) brace groups and the result is the one of `C06_behaviour`. -/
theorem C06_only_wellformed (data : List Char) (fuel : Nat) (r : List (List Int)) (hlen : data.length < npos)
    (h : explodeBraces fuel data = some (.ok r)) :
    ∃ segs tail, PlainSegs segs ∧ Plain tail ∧ data = render segs tail ∧ r = meaning (chop segs) tail := by
  unfold explodeBraces at h
  split_ifs at h with h1 h2
  · exact absurd h (by simp)
  · exact absurd h (by simp)
  simp only [Bool.not_eq_true, Bool.not_eq_false'] at h1
  have hv : ∀ c ∈ data, validChar c = true := by simpa using h1
  have := loop_ok fuel [] data [] r (by simpa using hv) (by simpa using hlen) (by simpa using h)
  simp only [List.nil_append, or_self] at this
  obtain ⟨segs, tail, hp, e⟩ := this
  rw [e, braceDepth_renderW segs tail hp 0 (le_refl _)] at h2
  have hc : segs.countP (fun p => p.2.1) = 0 := by
    rw [not_not] at h2; omega
  rw [renderW_eq_render segs tail hc] at e
  have hs : PlainSegs (segs.map (fun p => (p.1, p.2.2))) := by
    intro q hq
    obtain ⟨p, hpm, rfl⟩ := List.mem_map.mp hq
    exact hp.1 p hpm
  refine ⟨_, tail, hs, hp.2, e, ?_⟩
  have hl := loop_mono data fuel (max fuel ((segs.map (fun p => (p.1, p.2.2))).length + 1)) 0 [] _ (le_max_left _ _) h
  have hb := loop_render (segs.map (fun p => (p.1, p.2.2))) tail [] []
    (max fuel ((segs.map (fun p => (p.1, p.2.2))).length + 1)) hs hp.2
    (lt_of_lt_of_le (Nat.lt_succ_self _) (le_max_right _ _)) (by rw [← e]; simpa using hlen)
  simp only [List.nil_append, List.length_nil, ← e] at hb
  by_cases hacc : Acceptable (chop (segs.map (fun p => (p.1, p.2.2)))) tail
  · rw [hb.1 hacc] at hl
    simp only [Option.some.injEq, Outcome.ok.injEq] at hl
    exact hl.symm
  · rw [hb.2 hacc] at hl
    simp at hl

/-- C06: `"12{3}"` is read as `[[1],[3]]`. -/
theorem C06_digit_lost : explodeBraces 2 "12{3}".toList = some (.ok [[1], [3]]) := by
  have e : "12{3}".toList = render [("12".toList, "3".toList)] [] := by decide
  rw [e]
  have hs : PlainSegs [("12".toList, "3".toList)] := by
    intro p hp; simp only [List.mem_singleton] at hp; subst hp; unfold Plain; decide
  have hm : numbers "1".toList = [1] ∧ numbers "3".toList = [3] := by
    have h1 : "1".toList = ['1'] := by decide
    have h3 : "3".toList = ['3'] := by decide
    unfold numbers
    rw [h1, h3, words_cons_word _ (by decide), words_cons_word _ (by decide)]
    simp only [List.takeWhile_nil, List.dropWhile_nil, words_nil]
    decide
  have hd : "12".toList.dropLast = "1".toList := by decide
  have := (C06_behaviour [("12".toList, "3".toList)] [] hs (by unfold Plain; simp) (by
    have : (render [("12".toList, "3".toList)] []).length = 5 := by decide
    rw [this]; unfold npos; omega) 2 (by simp)).1 (by
      unfold Acceptable chop Fits
      simp only [List.map_cons, List.map_nil, List.mem_singleton, forall_eq, hd, hm.1, hm.2, numbers_nil]
      simp)
  rw [this]
  unfold chop
  simp only [List.map_cons, List.map_nil, meaning, hd, hm.1, hm.2, numbers_nil]
  rfl

/-- C06: the full claim is false. -/
theorem C06_claim_false : ¬ C06_claim := by
  intro hc
  have e : "12{3}".toList = render [("12".toList, "3".toList)] [] := by decide
  have hs : PlainSegs [("12".toList, "3".toList)] := by
    intro p hp; simp only [List.mem_singleton] at hp; subst hp; unfold Plain; decide
  have hm : numbers "12".toList = [12] ∧ numbers "3".toList = [3] := by
    have h1 : "12".toList = ['1', '2'] := by decide
    have h3 : "3".toList = ['3'] := by decide
    unfold numbers
    rw [h1, h3, words_cons_word _ (by decide), words_cons_word _ (by decide)]
    have h2 : List.takeWhile (fun x => !isSpace x) ['2'] = ['2'] := by decide
    have h4 : List.dropWhile (fun x => !isSpace x) ['2'] = [] := by decide
    simp only [h2, h4, List.takeWhile_nil, List.dropWhile_nil, words_nil]
    decide
  obtain ⟨fuel, hf⟩ := hc [("12".toList, "3".toList)] [] hs (by unfold Plain; simp) (by
    have : (render [("12".toList, "3".toList)] []).length = 5 := by decide
    rw [this]; unfold npos; omega) (by
      unfold Acceptable Fits
      simp only [List.mem_singleton, forall_eq, hm.1, hm.2, numbers_nil]
      simp)
  have h2 := C06_digit_lost
  rw [e] at h2
  unfold explodeBraces at hf h2
  split_ifs at hf h2 with c1 c2
  · simp at hf
  · simp at hf
  have a := loop_mono _ fuel (max fuel 2) 0 [] _ (le_max_left _ _) hf
  have b := loop_mono _ 2 (max fuel 2) 0 [] _ (le_max_right _ _) h2
  rw [a] at b
  simp only [Option.some.injEq, Outcome.ok.injEq, meaning, hm.1, hm.2, numbers_nil] at b
  exact absurd b (by decide)

/-- C06: the documentation promises an exception for mismatched braces; the text `}{1` passes the check and
the reading loop never finishes. -/
theorem C06_never_terminates (fuel : Nat) : explodeBraces fuel "}{1".toList = none := by
  have hd : "}{1".toList = ['}', '{', '1'] := by decide
  have hv : "}{1".toList.all validChar = true := by decide
  have hb : braceDepth "}{1".toList 0 = 0 := by decide
  unfold explodeBraces
  rw [hv, hb]
  simp only [Bool.not_true, Bool.false_eq_true, if_false, ne_eq, not_true_eq_false]
  rw [hd]
  have e0 : explodeString [] = some [] := by decide
  have e1 : explodeString ['1'] = some [1] := by
    have hp : Plain ['1'] := by unfold Plain; decide
    have hn : numbers ['1'] = [1] := by
      unfold numbers
      rw [words_cons_word _ (by decide)]
      simp only [List.takeWhile_nil, List.dropWhile_nil, words_nil]
      decide
    have := (explodeString_plain ['1'] hp).1 (by unfold Fits; rw [hn]; simp)
    rw [this, hn]
  have key : ∀ (fuel : Nat) (out : List (List Int)), loop ['}', '{', '1'] fuel 0 out = none := by
    intro fuel
    induction fuel with
    | zero => intro out; rfl
    | succ f ih =>
      intro out
      have f1 : findFrom ['}', '{', '1'] '{' 0 = 1 := by decide
      have f2 : findFrom ['}', '{', '1'] '}' 1 = npos := by decide
      have s1 : substr ['}', '{', '1'] 0 0 = some [] := by decide
      have s2 : substr ['}', '{', '1'] 2 (npos - 1 - 1) = some ['1'] := by
        unfold substr npos
        rw [if_neg (by decide)]
        simp
      have n1 : (1 : Nat) ≠ npos := by unfold npos; norm_num
      have hz : (npos + 1) % 2^64 = 0 := by unfold npos; norm_num
      rw [loop]
      simp only [f1, f2, hz, n1, ne_eq, not_false_eq_true, if_true]
      simp only [Nat.sub_zero, Nat.sub_self, s1, s2, gt_iff_lt, Nat.lt_one_iff, if_true, Option.bind_some, e0, e1,
        Option.bind_eq_bind]
      simp only [List.map_nil, List.append_nil]
      exact ih _
  exact key fuel []

-- satisfiable: a text with naked numbers, white space and two groups
example : ∃ segs tail, PlainSegs segs ∧ Plain tail ∧ (∀ p ∈ segs, EndsInSpace p.1) ∧
    render segs tail = "1 2 {3 4}{5} 6".toList :=
  ⟨[("1 2 ".toList, "3 4".toList), ([], "5".toList)], " 6".toList, by unfold PlainSegs Plain; decide,
    by unfold Plain; decide,
    by
      intro p hp
      simp only [List.mem_cons, List.not_mem_nil, or_false] at hp
      rcases hp with rfl | rfl
      · exact Or.inr ⟨"1 2".toList, ' ', by decide, by decide⟩
      · exact Or.inl rfl,
    by decide⟩

end Verif.Strings
