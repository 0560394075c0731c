import Verif.Strings.Spec
import Mathlib.Tactic.Ring
import Mathlib.Data.List.TakeWhile
import Mathlib.Data.Char

namespace Verif.Strings
open Spec

theorem decimal_eq (ds : List Char) : decimal ds = digitsValue ds := by
  have key : ∀ (ds : List Char) (acc : Nat),
      ds.foldl (fun acc c => 10 * acc + (c.toNat - '0'.toNat)) acc = acc * 10 ^ ds.length + digitsValue ds := by
    intro ds
    induction ds with
    | nil => intro acc; simp [digitsValue]
    | cons c cs ih =>
      intro acc
      rw [List.foldl_cons, ih, digitsValue, List.length_cons, pow_succ]
      ring
  unfold decimal
  rw [key]; simp

theorem words_nil : words [] = [] := by unfold words; rfl

theorem words_cons_space {c : Char} (cs : List Char) (h : isSpace c = true) : words (c :: cs) = words cs := by
  rw [words]; simp [h]

theorem words_cons_word {c : Char} (cs : List Char) (h : isSpace c = false) :
    words (c :: cs) = (c :: cs.takeWhile (fun x => !isSpace x)) :: words (cs.dropWhile (fun x => !isSpace x)) := by
  rw [words]; simp [h]

theorem words_dropWhile (s : List Char) : words (s.dropWhile isSpace) = words s := by
  induction s with
  | nil => rfl
  | cons c cs ih =>
    by_cases h : isSpace c = true
    · rw [List.dropWhile_cons_of_pos h, ih, words_cons_space cs h]
    · rw [List.dropWhile_cons_of_neg h]

theorem words_of_spaces (s : List Char) (h : ∀ c ∈ s, isSpace c = true) : words s = [] := by
  induction s with
  | nil => exact words_nil
  | cons c cs ih =>
    rw [words_cons_space cs (h c (by simp)), ih (fun x hx => h x (by simp [hx]))]

theorem words_append_spaces (s t : List Char) (h : ∀ c ∈ t, isSpace c = true) : words (s ++ t) = words s := by
  induction hn : s.length using Nat.strong_induction_on generalizing s with
  | _ n ih =>
    cases s with
    | nil => rw [List.nil_append, words_of_spaces t h, words_nil]
    | cons c cs =>
      rw [List.cons_append]
      by_cases hc : isSpace c = true
      · rw [words_cons_space _ hc, words_cons_space _ hc]
        exact ih cs.length (by simp at hn; omega) cs rfl
      · have hc' : isSpace c = false := by simpa using hc
        rw [words_cons_word _ hc', words_cons_word _ hc']
        by_cases hall : ∀ x ∈ cs, isSpace x = false
        · have e1 : cs.takeWhile (fun x => !isSpace x) = cs := by
            rw [List.takeWhile_eq_self_iff]; intro x hx; simp [hall x hx]
          have e2 : cs.dropWhile (fun x => !isSpace x) = [] := by
            rw [List.dropWhile_eq_nil_iff]; intro x hx; simp [hall x hx]
          have e3 : t.takeWhile (fun x => !isSpace x) = [] := by
            cases t with
            | nil => rfl
            | cons a t => simp [h a (by simp)]
          have e4 : t.dropWhile (fun x => !isSpace x) = t := by
            cases t with
            | nil => rfl
            | cons a t => simp [h a (by simp)]
          rw [List.takeWhile_append_of_pos (by intro x hx; simp [hall x hx]),
            List.dropWhile_append_of_pos (by intro x hx; simp [hall x hx]), e3, e4, e1, e2,
            words_of_spaces t h, words_nil, List.append_nil]
        · have e1 : (cs ++ t).takeWhile (fun x => !isSpace x) = cs.takeWhile (fun x => !isSpace x) ∧
              (cs ++ t).dropWhile (fun x => !isSpace x) = cs.dropWhile (fun x => !isSpace x) ++ t := by
            clear ih hn
            induction cs with
            | nil => simp at hall
            | cons a cs ih =>
              by_cases ha : isSpace a = true
              · simp [ha]
              · have ha' : isSpace a = false := by simpa using ha
                have : ¬ ∀ x ∈ cs, isSpace x = false := by
                  intro h2; apply hall; intro x hx
                  rcases List.mem_cons.mp hx with rfl | h3
                  · exact ha'
                  · exact h2 x h3
                have := ih this
                simp only [List.cons_append, List.takeWhile_cons, List.dropWhile_cons, ha', Bool.not_false,
                  if_true, this.1, this.2, and_self]
          rw [e1.1, e1.2]
          congr 1
          have := (List.dropWhile_suffix (l := cs) (fun x => !isSpace x)).length_le
          exact ih _ (by simp at hn; omega) _ rfl

theorem rtrim_spec (s : List Char) : ∃ t, s = rtrim s ++ t ∧ ∀ c ∈ t, isSpace c = true := by
  refine ⟨(s.reverse.takeWhile isSpace).reverse, ?_, ?_⟩
  · unfold rtrim
    rw [← List.reverse_append, List.takeWhile_append_dropWhile, List.reverse_reverse]
  · intro c hc
    rw [List.mem_reverse] at hc
    exact List.mem_takeWhile_imp hc

theorem words_trim (s : List Char) : words (trim s) = words s := by
  unfold trim ltrim
  rw [words_dropWhile]
  obtain ⟨t, e, ht⟩ := rtrim_spec s
  conv_rhs => rw [e]
  rw [words_append_spaces _ _ ht]

theorem not_space_of_digit {c : Char} (h : isDigit c = true) : isSpace c = false := by
  unfold isDigit at h
  simp only [Bool.and_eq_true, decide_eq_true_eq] at h
  unfold isSpace
  have hne : ∀ d : Char, d < '0' → c ≠ d := by
    intro d hd hcd; subst hcd
    exact absurd h.1 (not_le.mpr hd)
  simp only [Bool.or_eq_false_iff, beq_eq_false_iff_ne]
  refine ⟨⟨⟨⟨⟨?_, ?_⟩, ?_⟩, ?_⟩, ?_⟩, ?_⟩ <;> apply hne <;> decide

theorem readSign_digit {c : Char} (cs : List Char) (h : isDigit c = true) : readSign (c :: cs) = (false, c :: cs) := by
  unfold readSign
  split
  · rename_i heq
    simp only [List.cons.injEq] at heq
    rw [heq.1] at h; exact absurd h (by decide)
  · rename_i heq
    simp only [List.cons.injEq] at heq
    rw [heq.1] at h; exact absurd h (by decide)
  · rfl

/-- A plain text whose last character is not white space is read to the words it contains. -/
theorem streamLoop_plain (s : List Char) (acc : List Int) (hp : Plain s)
    (hlast : ∃ c, s.getLast? = some c ∧ isSpace c = false) :
    (Fits s → streamLoop s acc = some (acc ++ numbers s)) ∧ (¬ Fits s → streamLoop s acc = none) := by
  induction hn : s.length using Nat.strong_induction_on generalizing s acc with
  | _ n ih =>
    -- skip white space
    have hd_eq : ∃ c cs, s.dropWhile isSpace = c :: cs ∧ isSpace c = false := by
      cases hdw : s.dropWhile isSpace with
      | nil =>
        rw [List.dropWhile_eq_nil_iff] at hdw
        obtain ⟨c, hc, hs⟩ := hlast
        have := hdw c (List.mem_of_getLast? hc)
        rw [this] at hs; exact absurd hs (by simp)
      | cons c cs =>
        refine ⟨c, cs, rfl, ?_⟩
        have := List.head?_dropWhile_not isSpace s
        rw [hdw] at this
        simpa using this
    obtain ⟨c, cs, hdw, hc⟩ := hd_eq
    have hmem : ∀ x ∈ c :: cs, x ∈ s := by
      intro x hx; rw [← hdw] at hx
      exact (List.dropWhile_suffix (l := s) isSpace).subset hx
    have hcd : isDigit c = true := by
      rcases hp c (hmem c (by simp)) with h | h
      · rw [h] at hc; exact absurd hc (by simp)
      · exact h
    -- on plain text a word is a run of digits
    have tw : ∀ l : List Char, (∀ x ∈ l, x ∈ s) → l.takeWhile isDigit = l.takeWhile (fun x => !isSpace x) ∧
        l.dropWhile isDigit = l.dropWhile (fun x => !isSpace x) := by
      intro l
      induction l with
      | nil => intro _; exact ⟨rfl, rfl⟩
      | cons a l ihl =>
        intro hl
        have ha := hp a (hl a (by simp))
        have := ihl (fun x hx => hl x (by simp [hx]))
        rcases ha with h | h
        · have hnd : isDigit a = false := by
            by_contra hcon
            have := not_space_of_digit (c := a) (by simpa using hcon)
            rw [h] at this; exact absurd this (by simp)
          simp [h, hnd]
        · have := not_space_of_digit h
          simp [h, this, ihl (fun x hx => hl x (by simp [hx]))]
    have hcs := tw cs (fun x hx => hmem x (by simp [hx]))
    have hwords : words s = (c :: cs.takeWhile isDigit) :: words (cs.dropWhile isDigit) := by
      rw [← words_dropWhile s, hdw, words_cons_word cs hc, hcs.1, hcs.2]
    have hnum : numbers s = (digitsValue (c :: cs.takeWhile isDigit) : Int) :: numbers (cs.dropWhile isDigit) := by
      unfold numbers; rw [hwords]; rfl
    have hread : readInt (s.dropWhile isSpace) =
        if (digitsValue (c :: cs.takeWhile isDigit) : Int) ≤ 2147483647
        then some ((digitsValue (c :: cs.takeWhile isDigit) : Int), cs.dropWhile isDigit) else none := by
      unfold readInt
      rw [hdw, readSign_digit cs hcd]
      simp only [List.takeWhile_cons_of_pos hcd, List.dropWhile_cons_of_pos hcd, List.isEmpty_cons,
        Bool.false_eq_true, if_false, decimal_eq]
      have : (-2147483648 : Int) ≤ (digitsValue (c :: cs.takeWhile isDigit) : Int) := by omega
      simp only [this, true_and]
    have hFits : Fits s ↔ (digitsValue (c :: cs.takeWhile isDigit) : Int) ≤ 2147483647 ∧
        Fits (cs.dropWhile isDigit) := by
      unfold Fits; rw [hnum]; simp
    have hsuf : (cs.dropWhile isDigit) <:+ s := by
      have h1 : cs.dropWhile isDigit <:+ cs := List.dropWhile_suffix _
      have h2 : cs <:+ s := by
        have : c :: cs <:+ s := by rw [← hdw]; exact List.dropWhile_suffix _
        exact (List.suffix_cons c cs).trans this
      exact h1.trans h2
    have hlen : (cs.dropWhile isDigit).length < s.length := by
      have h1 := (List.dropWhile_suffix (l := cs) isDigit).length_le
      have h2 : (c :: cs).length ≤ s.length := by
        rw [← hdw]; exact (List.dropWhile_suffix (l := s) isSpace).length_le
      simp at h2; omega
    have hnone : ∀ hne : (digitsValue (c :: cs.takeWhile isDigit) : Int) > 2147483647,
        streamLoop s acc = none := by
      intro hne
      rw [streamLoop]
      split
      · rfl
      · rename_i v rest heq
        rw [hread, if_neg (by omega)] at heq; exact absurd heq (by simp)
    have hsome : ∀ hle : (digitsValue (c :: cs.takeWhile isDigit) : Int) ≤ 2147483647,
        streamLoop s acc = if (cs.dropWhile isDigit).isEmpty then
          some (acc ++ [(digitsValue (c :: cs.takeWhile isDigit) : Int)])
          else streamLoop (cs.dropWhile isDigit) (acc ++ [(digitsValue (c :: cs.takeWhile isDigit) : Int)]) := by
      intro hle
      rw [streamLoop]
      split
      · rename_i heq
        rw [hread, if_pos hle] at heq; exact absurd heq (by simp)
      · rename_i v rest heq
        rw [hread, if_pos hle] at heq
        simp only [Option.some.injEq, Prod.mk.injEq] at heq
        obtain ⟨rfl, rfl⟩ := heq
        rfl
    by_cases hle : (digitsValue (c :: cs.takeWhile isDigit) : Int) ≤ 2147483647
    · rw [hsome hle, hFits, hnum]
      cases hr : cs.dropWhile isDigit with
      | nil =>
        have hn0 : numbers [] = [] := by unfold numbers; rw [words_nil]; rfl
        have hf0 : Fits [] := by unfold Fits; rw [hn0]; simp
        simp [hn0, hf0, hle]
      | cons d ds =>
        have hlast' : ∃ c, (cs.dropWhile isDigit).getLast? = some c ∧ isSpace c = false := by
          obtain ⟨x, hx, hxs⟩ := hlast
          refine ⟨x, ?_, hxs⟩
          obtain ⟨pre, hpre⟩ := hsuf
          rw [← hpre, List.getLast?_append, hr] at hx
          rw [hr]
          simpa [List.getLast?_cons] using hx
        have := ih _ (by omega) (cs.dropWhile isDigit)
          (acc ++ [(digitsValue (c :: cs.takeWhile isDigit) : Int)])
          (fun x hx => hp x (hsuf.subset hx)) hlast' rfl
        rw [hr] at this
        refine ⟨fun hf => ?_, fun hf => ?_⟩
        · rw [if_neg (by simp), this.1 hf.2]; simp
        · rw [if_neg (by simp), this.2 (fun h => hf ⟨hle, h⟩)]
    · refine ⟨fun hf => absurd (hFits.mp hf).1 hle, fun _ => hnone (by omega)⟩

theorem trim_last (s : List Char) (h : trim s ≠ []) : ∃ c, (trim s).getLast? = some c ∧ isSpace c = false := by
  have h1 : trim s <:+ rtrim s := List.dropWhile_suffix _
  obtain ⟨pre, hpre⟩ := h1
  have hl : (rtrim s).getLast? = (trim s).getLast? := by
    rw [← hpre, List.getLast?_append]
    cases htl : (trim s).getLast? with
    | none => rw [List.getLast?_eq_none_iff] at htl; exact absurd htl h
    | some c => rfl
  rw [← hl]
  unfold rtrim
  rw [List.getLast?_reverse]
  have hne : (s.reverse.dropWhile isSpace) ≠ [] := by
    intro h0
    apply h
    unfold trim ltrim rtrim
    rw [h0]; rfl
  cases hd : s.reverse.dropWhile isSpace with
  | nil => exact absurd hd hne
  | cons c cs =>
    refine ⟨c, rfl, ?_⟩
    have := List.head?_dropWhile_not isSpace s.reverse
    rw [hd] at this
    simpa using this

theorem trim_mem (s : List Char) : ∀ c ∈ trim s, c ∈ s := by
  intro c hc
  have h1 : c ∈ rtrim s := (List.dropWhile_suffix (l := rtrim s) isSpace).subset hc
  obtain ⟨t, e, -⟩ := rtrim_spec s
  rw [e]; exact List.mem_append_left _ h1

/-- `explode_string<int>` on a text of digits and white space. -/
theorem explodeString_plain (s : List Char) (hp : Plain s) :
    (Fits s → explodeString s = some (numbers s)) ∧ (¬ Fits s → explodeString s = none) := by
  unfold explodeString
  by_cases h : trim s = []
  · have hw : numbers s = [] := by
      unfold numbers; rw [← words_trim, h, words_nil]; rfl
    have hf : Fits s := by unfold Fits; rw [hw]; simp
    simp only [h, List.isEmpty_nil, if_true]
    exact ⟨fun _ => by rw [hw], fun hn => absurd hf hn⟩
  · have hnum : numbers (trim s) = numbers s := by unfold numbers; rw [words_trim]
    have hfit : Fits (trim s) ↔ Fits s := by unfold Fits; rw [hnum]
    have := streamLoop_plain (trim s) [] (fun c hc => hp c (trim_mem s c hc)) (trim_last s h)
    rw [hfit, hnum] at this
    have he : (trim s).isEmpty = false := by simpa using h
    simp only [he, Bool.false_eq_true, if_false]
    simpa using this

/-! ### The brace loop -/

theorem findFrom_append (pre rest : List Char) (c : Char) (n : List Char) (r : List Char)
    (h : rest = n ++ c :: r) (hn : ∀ x ∈ n, x ≠ c) :
    findFrom (pre ++ rest) c pre.length = pre.length + n.length := by
  unfold findFrom
  rw [List.drop_left, h]
  have : (n ++ c :: r).findIdx? (· == c) = some n.length := by
    clear h
    induction n with
    | nil => simp [List.findIdx?_cons]
    | cons a n ih =>
      have ha := hn a (by simp)
      simp [List.findIdx?_cons, ha, ih (fun x hx => hn x (by simp [hx]))]
  rw [this]

theorem findFrom_none (pre rest : List Char) (c : Char) (hn : ∀ x ∈ rest, x ≠ c) :
    findFrom (pre ++ rest) c pre.length = npos := by
  unfold findFrom
  rw [List.drop_left]
  have : rest.findIdx? (· == c) = none := by
    rw [List.findIdx?_eq_none_iff]; intro x hx; simpa using hn x hx
  rw [this]

theorem plain_not_brace {s : List Char} (h : Plain s) : ∀ x ∈ s, x ≠ '{' ∧ x ≠ '}' := by
  intro x hx
  constructor
  · rintro rfl; rcases h _ hx with h | h <;> exact absurd h (by decide)
  · rintro rfl; rcases h _ hx with h | h <;> exact absurd h (by decide)

/-- What one round makes of the naked text in front of a brace: the last character is not read. -/
def nakedRead (n : List Char) : Option (List (List Int)) :=
  if n.length > 0 then (explodeString n.dropLast).map (fun l => l.map (fun v => [v])) else some []

theorem loop_seg (fuel : Nat) (pre n g rest : List Char) (out : List (List Int))
    (hn : Plain n) (hg : Plain g) (hlen : (pre ++ (n ++ '{' :: (g ++ '}' :: rest))).length < npos) :
    loop (pre ++ (n ++ '{' :: (g ++ '}' :: rest))) (fuel + 1) pre.length out =
      match nakedRead n with
      | none => some .throws
      | some a => match explodeString g with
        | none => some .throws
        | some [] => some .throws
        | some g' => loop ((pre ++ (n ++ '{' :: (g ++ ['}']))) ++ rest) fuel
            (pre ++ (n ++ '{' :: (g ++ ['}']))).length (out ++ a ++ [g']) := by
  have hstt : findFrom (pre ++ (n ++ '{' :: (g ++ '}' :: rest))) '{' pre.length = pre.length + n.length :=
    findFrom_append pre _ '{' n _ rfl (fun x hx => (plain_not_brace hn x hx).1)
  have hstp : findFrom (pre ++ (n ++ '{' :: (g ++ '}' :: rest))) '}' (pre.length + n.length)
      = pre.length + n.length + 1 + g.length := by
    have := findFrom_append (pre ++ n) ('{' :: (g ++ '}' :: rest)) '}' ('{' :: g) rest rfl (by
      intro x hx
      rcases List.mem_cons.mp hx with rfl | h
      · decide
      · exact (plain_not_brace hg x h).2)
    rw [List.append_assoc, List.length_append, List.length_cons] at this
    omega
  have hpos : (pre.length + n.length + 1 + g.length + 1) % 2^64 = (pre ++ (n ++ '{' :: (g ++ ['}']))).length := by
    have e : (pre ++ (n ++ '{' :: (g ++ ['}']))).length = pre.length + n.length + 1 + g.length + 1 := by
      simp; omega
    have e2 : (pre ++ (n ++ '{' :: (g ++ '}' :: rest))).length = pre.length + n.length + 1 + g.length + 1 + rest.length := by
      simp; omega
    rw [e]
    unfold npos at hlen
    apply Nat.mod_eq_of_lt; omega
  have hnpos : pre.length + n.length ≠ npos := by
    have e2 : (pre ++ (n ++ '{' :: (g ++ '}' :: rest))).length = pre.length + n.length + 1 + g.length + 1 + rest.length := by
      simp; omega
    omega
  have hsubg : substr (pre ++ (n ++ '{' :: (g ++ '}' :: rest))) (pre.length + n.length + 1)
      (pre.length + n.length + 1 + g.length - (pre.length + n.length) - 1) = some g := by
    unfold substr
    rw [if_neg (by simp; omega)]
    have e : pre ++ (n ++ '{' :: (g ++ '}' :: rest)) = (pre ++ n ++ ['{']) ++ (g ++ '}' :: rest) := by simp
    have el : pre.length + n.length + 1 = (pre ++ n ++ ['{']).length := by simp; omega
    rw [e, el, List.drop_left]
    have : pre.length + n.length + 1 + g.length - (pre.length + n.length) - 1 = g.length := by omega
    rw [← el, this, List.take_left]
  have hsubn : substr (pre ++ (n ++ '{' :: (g ++ '}' :: rest))) pre.length (pre.length + n.length - pre.length - 1)
      = some n.dropLast := by
    unfold substr
    rw [if_neg (by simp), List.drop_left, Nat.add_sub_cancel_left, List.dropLast_eq_take]
    congr 1
    rw [List.take_append_of_le_length (by omega)]
  have happ : pre ++ (n ++ '{' :: (g ++ '}' :: rest)) = (pre ++ (n ++ '{' :: (g ++ ['}']))) ++ rest := by simp
  rw [loop]
  simp only [hstt, hstp, hsubg, hsubn, hpos, Nat.add_sub_cancel_left]
  simp only [ne_eq, hnpos, not_false_eq_true, if_true]
  unfold nakedRead
  by_cases h0 : n.length > 0
  · rw [if_pos h0, if_pos h0]
    rw [Nat.add_sub_cancel_left] at hsubn
    rw [hsubn]
    cases hex : explodeString n.dropLast with
    | none => simp [hex]
    | some l =>
      simp only [Option.bind_eq_bind, Option.bind_some, hex, Option.map_some]
      cases hgx : explodeString g with
      | none => rfl
      | some g' =>
        cases g' with
        | nil => rfl
        | cons a as => simp only [Option.pure_def]; rw [happ]
  · rw [if_neg h0, if_neg h0]
    simp only [Option.bind_some]
    cases hgx : explodeString g with
    | none => rfl
    | some g' =>
      cases g' with
      | nil => rfl
      | cons a as => simp only [List.append_nil]; rw [happ]

theorem loop_tail (fuel : Nat) (pre tail : List Char) (out : List (List Int)) (ht : Plain tail)
    (hlen : (pre ++ tail).length < npos) :
    loop (pre ++ tail) (fuel + 1) pre.length out =
      match explodeString tail with
      | none => some .throws
      | some a => some (.ok (out ++ a.map (fun v => [v]))) := by
  have hstt : findFrom (pre ++ tail) '{' pre.length = npos :=
    findFrom_none pre tail '{' (fun x hx => (plain_not_brace ht x hx).1)
  rw [List.length_append] at hlen
  have hsub : substr (pre ++ tail) pre.length (npos - pre.length - 1) = some tail := by
    unfold substr
    rw [if_neg (by simp), List.drop_left, List.take_of_length_le (by omega)]
  rw [loop]
  simp only [hstt]
  rw [if_pos (by omega), hsub]
  cases hex : explodeString tail with
  | none => simp [hex]
  | some l => simp [hex]

end Verif.Strings
