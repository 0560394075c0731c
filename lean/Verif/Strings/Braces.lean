import Verif.Strings.Lemmas

/-! Helper lemmas: what is accepted by the brace loop. -/

namespace Verif.Strings
open Spec

/-- Well-formed pieces: all texts consist of digits and white space. -/
def PlainSegs (segs : List (List Char × List Char)) : Prop := ∀ p ∈ segs, Plain p.1 ∧ Plain p.2

/-- Every number fits and every brace group contains a number. -/
def Acceptable (segs : List (List Char × List Char)) (tail : List Char) : Prop :=
  (∀ p ∈ segs, Fits p.1 ∧ Fits p.2 ∧ numbers p.2 ≠ []) ∧ Fits tail

/-- The naked texts without their last character (`List.dropLast [] = []`). -/
def chop (segs : List (List Char × List Char)) : List (List Char × List Char) :=
  segs.map (fun p => (p.1.dropLast, p.2))

theorem plain_dropLast {s : List Char} (h : Plain s) : Plain s.dropLast :=
  fun c hc => h c (List.dropLast_subset s hc)

theorem numbers_nil : numbers [] = [] := by unfold numbers; rw [words_nil]; rfl

theorem nakedRead_plain (n : List Char) (h : Plain n) :
    (Fits n.dropLast → nakedRead n = some ((numbers n.dropLast).map (fun v => [v]))) ∧
    (¬ Fits n.dropLast → nakedRead n = none) := by
  unfold nakedRead
  have := explodeString_plain n.dropLast (plain_dropLast h)
  by_cases h0 : n.length > 0
  · rw [if_pos h0]
    exact ⟨fun hf => by rw [this.1 hf]; rfl, fun hf => by rw [this.2 hf]; rfl⟩
  · have hn : n = [] := by rw [← List.length_eq_zero_iff]; omega
    subst hn
    rw [if_neg h0]
    refine ⟨fun _ => by simp [numbers_nil], fun hf => absurd ?_ hf⟩
    unfold Fits
    simp [numbers_nil]

theorem loop_render (segs : List (List Char × List Char)) (tail pre : List Char) (out : List (List Int))
    (fuel : Nat) (hs : PlainSegs segs) (ht : Plain tail) (hf : segs.length < fuel)
    (hlen : (pre ++ render segs tail).length < npos) :
    (Acceptable (chop segs) tail →
      loop (pre ++ render segs tail) fuel pre.length out = some (.ok (out ++ meaning (chop segs) tail))) ∧
    (¬ Acceptable (chop segs) tail →
      loop (pre ++ render segs tail) fuel pre.length out = some .throws) := by
  induction segs generalizing pre out fuel with
  | nil =>
    obtain ⟨f, rfl⟩ : ∃ f, fuel = f + 1 := ⟨fuel - 1, by simp at hf; omega⟩
    unfold render at *
    rw [loop_tail f pre tail out ht hlen]
    have := explodeString_plain tail ht
    refine ⟨fun ha => ?_, fun ha => ?_⟩
    · rw [this.1 ha.2]; rfl
    · rw [this.2 (fun h => ha ⟨by simp [chop], h⟩)]
  | cons p segs ih =>
    obtain ⟨n, g⟩ := p
    obtain ⟨f, rfl⟩ : ∃ f, fuel = f + 1 := ⟨fuel - 1, by simp at hf; omega⟩
    have hn : Plain n := (hs (n, g) (by simp)).1
    have hg : Plain g := (hs (n, g) (by simp)).2
    unfold render at hlen ⊢
    rw [loop_seg f pre n g (render segs tail) out hn hg hlen]
    have h1 := nakedRead_plain n hn
    have h2 := explodeString_plain g hg
    have hacc : Acceptable (chop ((n, g) :: segs)) tail ↔
        Fits n.dropLast ∧ Fits g ∧ numbers g ≠ [] ∧ Acceptable (chop segs) tail := by
      unfold Acceptable chop
      simp only [List.map_cons, List.mem_cons, forall_eq_or_imp]
      tauto
    rw [hacc]
    by_cases c1 : Fits n.dropLast
    · rw [h1.1 c1]
      by_cases c2 : Fits g
      · rw [h2.1 c2]
        cases hg' : numbers g with
        | nil => simp
        | cons a as =>
          have hl : (pre ++ (n ++ '{' :: (g ++ ['}'])) ++ render segs tail).length < npos := by
            have e : pre ++ (n ++ '{' :: (g ++ ['}'])) ++ render segs tail =
              pre ++ (n ++ '{' :: (g ++ '}' :: render segs tail)) := by simp
            rw [e]; exact hlen
          have := ih (pre ++ (n ++ '{' :: (g ++ ['}'])))
            (out ++ (numbers n.dropLast).map (fun v => [v]) ++ [a :: as]) f
            (fun p hp => hs p (by simp [hp])) (by simp at hf; omega) hl
          simp only [c1, c2, true_and, ne_eq, reduceCtorEq, not_false_eq_true]
          refine ⟨fun ha => ?_, fun ha => ?_⟩
          · rw [this.1 ha]
            unfold chop
            rw [List.map_cons, meaning, hg']
            simp
          · rw [this.2 ha]
      · rw [h2.2 c2]; simp [c2]
    · rw [h1.2 c1]; simp [c1]

theorem braceDepth_plain (s t : List Char) (d : Int) (h : Plain s) : braceDepth (s ++ t) d = braceDepth t d := by
  induction s with
  | nil => rfl
  | cons c cs ih =>
    have hb := plain_not_brace h c (by simp)
    rw [List.cons_append, braceDepth]
    simp only [beq_iff_eq, hb.1, hb.2, if_false]
    exact ih (fun x hx => h x (by simp [hx]))

theorem braceDepth_render (segs : List (List Char × List Char)) (tail : List Char) (hs : PlainSegs segs)
    (ht : Plain tail) : braceDepth (render segs tail) 0 = 0 := by
  induction segs with
  | nil =>
    have := braceDepth_plain tail [] 0 ht
    rw [List.append_nil] at this
    unfold render; rw [this]; rfl
  | cons p segs ih =>
    obtain ⟨n, g⟩ := p
    unfold render
    rw [braceDepth_plain n _ 0 (hs (n, g) (by simp)).1, braceDepth]
    simp only [beq_self_eq_true, if_true]
    rw [if_neg (by omega), braceDepth_plain g _ _ (hs (n, g) (by simp)).2, braceDepth]
    simp only [beq_self_eq_true, if_true]
    rw [if_neg (by decide)]
    exact ih (fun p hp => hs p (by simp [hp]))

theorem valid_render (segs : List (List Char × List Char)) (tail : List Char) (hs : PlainSegs segs)
    (ht : Plain tail) : (render segs tail).all validChar = true := by
  have hp : ∀ s : List Char, Plain s → s.all validChar = true := by
    intro s h
    rw [List.all_eq_true]
    intro c hc
    unfold validChar
    rcases h c hc with h | h <;> simp [h]
  induction segs with
  | nil => unfold render; exact hp tail ht
  | cons p segs ih =>
    obtain ⟨n, g⟩ := p
    unfold render
    have h1 := hp n (hs (n, g) (by simp)).1
    have h2 := hp g (hs (n, g) (by simp)).2
    have h3 := ih (fun p hp => hs p (by simp [hp]))
    have h4 : validChar '{' = true := by decide
    have h5 : validChar '}' = true := by decide
    simp only [List.all_append, List.all_cons, h1, h2, h3, h4, h5, Bool.and_self]

/-! ### Conversely -/

theorem readInt_rest_mem {s rest : List Char} {v : Int} (h : readInt s = some (v, rest)) (c : Char)
    (hc : c ∈ s) (hnd : isDigit c = false) (h1 : c ≠ '-') (h2 : c ≠ '+') : c ∈ rest := by
  have hm : c ∈ (readSign s).2 := by
    unfold readSign
    split
    · rcases List.mem_cons.mp hc with h | h
      · exact absurd h h1
      · exact h
    · rcases List.mem_cons.mp hc with h | h
      · exact absurd h h2
      · exact h
    · exact hc
  unfold readInt at h
  simp only at h
  have key : c ∈ (readSign s).2.dropWhile isDigit := by
    rw [← List.takeWhile_append_dropWhile (p := isDigit) (l := (readSign s).2), List.mem_append] at hm
    rcases hm with hm | hm
    · have := List.mem_takeWhile_imp hm
      rw [hnd] at this; exact absurd this (by simp)
    · exact hm
  split_ifs at h <;> simp only [Option.some.injEq, Prod.mk.injEq] at h <;> (rw [← h.2]; exact key)

theorem streamLoop_brace (s : List Char) (acc : List Int) (c : Char) (hc : c ∈ s) (hb : c = '{' ∨ c = '}') :
    streamLoop s acc = none := by
  have hnd : isDigit c = false := by rcases hb with rfl | rfl <;> decide
  have hns : isSpace c = false := by rcases hb with rfl | rfl <;> decide
  have h1 : c ≠ '-' := by rcases hb with rfl | rfl <;> decide
  have h2 : c ≠ '+' := by rcases hb with rfl | rfl <;> decide
  induction hn : s.length using Nat.strong_induction_on generalizing s acc with
  | _ n ih =>
    rw [streamLoop]
    split
    · rfl
    · rename_i v rest heq
      have hm : c ∈ s.dropWhile isSpace := by
        rw [← List.takeWhile_append_dropWhile (p := isSpace) (l := s), List.mem_append] at hc
        rcases hc with hm | hm
        · have := List.mem_takeWhile_imp hm
          rw [hns] at this; exact absurd this (by simp)
        · exact hm
      have hr := readInt_rest_mem heq c hm hnd h1 h2
      have hlen := readInt_length heq
      have hle := (List.dropWhile_suffix (l := s) isSpace).length_le
      have hne : rest.isEmpty = false := by
        cases rest with
        | nil => simp at hr
        | cons a as => rfl
      rw [hne]
      simp only [Bool.false_eq_true, if_false]
      exact ih rest.length (by omega) rest _ hr rfl

theorem trim_mem_of_not_space (s : List Char) (c : Char) (hc : c ∈ s) (hns : isSpace c = false) : c ∈ trim s := by
  obtain ⟨t, e, ht⟩ := rtrim_spec s
  rw [e, List.mem_append] at hc
  have h1 : c ∈ rtrim s := by
    rcases hc with h | h
    · exact h
    · have := ht c h; rw [hns] at this; exact absurd this (by simp)
  unfold trim ltrim
  rw [← List.takeWhile_append_dropWhile (p := isSpace) (l := rtrim s), List.mem_append] at h1
  rcases h1 with h | h
  · have := List.mem_takeWhile_imp h
    rw [hns] at this; exact absurd this (by simp)
  · exact h

/-- Text that `explode_string<int>` accepts, made of characters `explode_braces` allows, is plain. -/
theorem plain_of_explode {s : List Char} {l : List Int} (h : explodeString s = some l)
    (hv : ∀ c ∈ s, validChar c = true) : Plain s := by
  intro c hc
  have := hv c hc
  unfold validChar at this
  simp only [Bool.or_eq_true, beq_iff_eq] at this
  have hb : c = '{' ∨ c = '}' → False := by
    intro hb
    have hns : isSpace c = false := by rcases hb with rfl | rfl <;> decide
    have hm := trim_mem_of_not_space s c hc hns
    unfold explodeString at h
    have he : (trim s).isEmpty = false := by
      cases ht : trim s with
      | nil => rw [ht] at hm; simp at hm
      | cons a as => rfl
    simp only [he, Bool.false_eq_true, if_false] at h
    rw [streamLoop_brace (trim s) [] c hm hb] at h
    exact absurd h (by simp)
  tauto

/-- Like `render`, each naked text optionally followed by one stray closing brace. -/
def renderW (segs : List (List Char × Bool × List Char)) (tail : List Char) : List Char :=
  match segs with
  | [] => tail
  | (n, b, g) :: segs => n ++ (if b then ['}'] else []) ++ '{' :: (g ++ '}' :: renderW segs tail)

def PlainW (segs : List (List Char × Bool × List Char)) (tail : List Char) : Prop :=
  (∀ p ∈ segs, Plain p.1 ∧ Plain p.2.2) ∧ Plain tail

theorem findFrom_cases (pre rest : List Char) (c : Char) :
    (∃ n r, rest = n ++ c :: r ∧ (∀ x ∈ n, x ≠ c) ∧ findFrom (pre ++ rest) c pre.length = pre.length + n.length) ∨
    ((∀ x ∈ rest, x ≠ c) ∧ findFrom (pre ++ rest) c pre.length = npos) := by
  by_cases h : c ∈ rest
  · left
    obtain ⟨n, r, e, hn'⟩ := List.eq_append_cons_of_mem h
    have hn : ∀ x ∈ n, x ≠ c := fun x hx hxc => hn' (hxc ▸ hx)
    exact ⟨n, r, e, hn, findFrom_append pre rest c n r e hn⟩
  · right
    have hn : ∀ x ∈ rest, x ≠ c := fun x hx hxc => h (hxc ▸ hx)
    exact ⟨hn, findFrom_none pre rest c hn⟩

/-- If the loop, started at the end of `pre`, returns normally then the remaining text (or, after a wrap of the
position, the whole text) has the form `renderW`. -/
theorem loop_ok (fuel : Nat) (pre rest : List Char) (out r : List (List Int))
    (hv : ∀ c ∈ pre ++ rest, validChar c = true) (hlen : (pre ++ rest).length < npos)
    (h : loop (pre ++ rest) fuel pre.length out = some (.ok r)) :
    (∃ segs tail, PlainW segs tail ∧ rest = renderW segs tail) ∨
    (∃ segs tail, PlainW segs tail ∧ pre ++ rest = renderW segs tail) := by
  induction fuel generalizing pre rest out with
  | zero => simp [loop] at h
  | succ fuel ih =>
    rcases findFrom_cases pre rest '{' with ⟨n, r1, e, hn, hstt⟩ | ⟨hno, hstt⟩
    · -- an opening brace is found
      have e0 : pre ++ rest = (pre ++ n) ++ ('{' :: r1) := by rw [e]; simp
      have hnp : pre.length + n.length ≠ npos := by
        rw [e0] at hlen; simp at hlen; omega
      have hpl : (pre ++ n).length = pre.length + n.length := by simp
      -- the naked text
      have hnaked : ∃ (b : Bool) (n' : List Char), Plain n' ∧ n = n' ++ (if b then ['}'] else []) := by
        by_cases h0 : n.length > 0
        · have hsub : substr (pre ++ rest) pre.length (pre.length + n.length - pre.length - 1) = some n.dropLast := by
            unfold substr
            rw [if_neg (by simp), List.drop_left, Nat.add_sub_cancel_left, List.dropLast_eq_take, e]
            congr 1
            rw [List.take_append_of_le_length (by omega)]
          have hex : ∃ l, explodeString n.dropLast = some l := by
            rw [loop] at h
            simp only [hstt] at h
            rw [if_pos (by omega), hsub] at h
            cases hx : explodeString n.dropLast with
            | none => simp [hx] at h
            | some l => exact ⟨l, rfl⟩
          obtain ⟨l, hl⟩ := hex
          have hmem : ∀ c ∈ n, validChar c = true := by
            intro c hc; apply hv; rw [e]; simp [hc]
          have hpl := plain_of_explode hl (fun c hc => hmem c (List.dropLast_subset n hc))
          have hne : n ≠ [] := by intro hh; rw [hh] at h0; simp at h0
          have hsplit := List.dropLast_append_getLast hne
          by_cases hc : n.getLast hne = '}'
          · exact ⟨true, n.dropLast, hpl, by rw [if_pos rfl, ← hc, hsplit]⟩
          · refine ⟨false, n, ?_, by simp⟩
            intro c hcm
            rw [← hsplit, List.mem_append] at hcm
            rcases hcm with hcm | hcm
            · exact hpl c hcm
            · simp only [List.mem_singleton] at hcm
              have h1 := hmem c (by rw [hcm]; exact List.getLast_mem hne)
              have h2 := hn c (by rw [hcm]; exact List.getLast_mem hne)
              have h3 : c ≠ '}' := by rw [hcm]; exact hc
              unfold validChar at h1
              simp only [Bool.or_eq_true, beq_iff_eq] at h1
              tauto
        · have hn0 : n = [] := by rw [← List.length_eq_zero_iff]; omega
          exact ⟨false, [], fun c hc => by simp at hc, by simp [hn0]⟩
      obtain ⟨b, n', hn', en⟩ := hnaked
      rcases findFrom_cases (pre ++ n) ('{' :: r1) '}' with ⟨g0, r2, eg, hg0, hstp⟩ | ⟨hnog, hstp⟩
      · -- a closing brace is found
        have hg1 : ∃ g, g0 = '{' :: g := by
          cases g0 with
          | nil =>
            simp only [List.nil_append, List.cons.injEq] at eg
            exact absurd eg.1 (by decide)
          | cons a g =>
            simp only [List.cons_append, List.cons.injEq] at eg
            exact ⟨g, by rw [eg.1]⟩
        obtain ⟨g, rfl⟩ := hg1
        simp only [List.cons_append, List.cons.injEq, true_and] at eg
        rw [hpl, ← e0] at hstp
        simp only [List.length_cons] at hstp
        have e1 : pre ++ rest = (pre ++ n ++ ['{']) ++ (g ++ '}' :: r2) := by rw [e0, eg]; simp
        have e2 : pre ++ rest = (pre ++ (n ++ '{' :: (g ++ ['}']))) ++ r2 := by rw [e0, eg]; simp
        have hsubg : substr (pre ++ rest) (pre.length + n.length + 1)
            (pre.length + n.length + (g.length + 1) - (pre.length + n.length) - 1) = some g := by
          unfold substr
          have el : pre.length + n.length + 1 = (pre ++ n ++ ['{']).length := by simp; omega
          rw [if_neg (by rw [e1, el]; simp), e1, el, List.drop_left]
          have : pre.length + n.length + (g.length + 1) - (pre.length + n.length) - 1 = g.length := by omega
          rw [this, List.take_left]
        have hpos : (pre.length + n.length + (g.length + 1) + 1) % 2^64 = (pre ++ (n ++ '{' :: (g ++ ['}']))).length := by
          have ee : (pre ++ (n ++ '{' :: (g ++ ['}']))).length = pre.length + n.length + (g.length + 1) + 1 := by
            simp; omega
          have hl2 := hlen
          rw [e2, List.length_append, ee] at hl2
          unfold npos at hl2
          rw [ee]
          apply Nat.mod_eq_of_lt; omega
        have hrec : ∃ g' out', explodeString g = some g' ∧
            loop (pre ++ rest) fuel (pre ++ (n ++ '{' :: (g ++ ['}']))).length out' = some (.ok r) := by
          rw [loop] at h
          simp only [hstt, hstp, hsubg, hpos, ne_eq, hnp, not_false_eq_true, if_true, Option.bind_some] at h
          split at h
          · exact absurd h (by simp)
          · split at h
            · exact absurd h (by simp)
            · exact absurd h (by simp)
            · rename_i g' _ hg'
              exact ⟨_, _, hg', h⟩
        obtain ⟨g', out', hg', hl⟩ := hrec
        have hgp : Plain g := plain_of_explode hg' (fun c hc => hv c (by rw [e1]; simp [hc]))
        rw [e2] at hl hv hlen
        rcases ih _ _ _ hv hlen hl with ⟨segs, tail, hp, er⟩ | ⟨segs, tail, hp, er⟩
        · left
          refine ⟨(n', b, g) :: segs, tail, ⟨?_, hp.2⟩, ?_⟩
          · intro p hpm
            rcases List.mem_cons.mp hpm with rfl | hpm
            · exact ⟨hn', hgp⟩
            · exact hp.1 p hpm
          · rw [e, renderW, ← er, ← en, eg]
        · right
          exact ⟨segs, tail, hp, by rw [e2]; exact er⟩
      · -- no closing brace: the position wraps to the start of the text
        rw [hpl, ← e0] at hstp
        right
        have hrec : ∃ out', loop (pre ++ rest) fuel 0 out' = some (.ok r) := by
          have hz : (npos + 1) % 2^64 = 0 := by unfold npos; norm_num
          rw [loop] at h
          simp only [hstt, hstp, hz, ne_eq, hnp, not_false_eq_true, if_true] at h
          split at h
          · exact absurd h (by simp)
          · split at h
            · exact absurd h (by simp)
            · exact absurd h (by simp)
            · exact ⟨_, h⟩
        obtain ⟨out', hl⟩ := hrec
        have := ih [] (pre ++ rest) out' (by simpa using hv) (by simpa using hlen) (by simpa using hl)
        simpa using this
    · -- trailing text
      left
      have hsub : substr (pre ++ rest) pre.length (npos - pre.length - 1) = some rest := by
        unfold substr
        rw [List.length_append] at hlen
        rw [if_neg (by simp), List.drop_left, List.take_of_length_le (by omega)]
      have hex : ∃ l, explodeString rest = some l := by
        rw [loop] at h
        simp only [hstt] at h
        rw [List.length_append] at hlen
        rw [if_pos (by omega), hsub] at h
        cases hx : explodeString rest with
        | none => simp [hx] at h
        | some l => exact ⟨l, rfl⟩
      obtain ⟨l, hl⟩ := hex
      exact ⟨[], rest, ⟨by simp, plain_of_explode hl (fun c hc => hv c (by simp [hc]))⟩, by rfl⟩

theorem braceDepth_renderW (segs : List (List Char × Bool × List Char)) (tail : List Char)
    (hp : PlainW segs tail) (d : Int) (hd : d ≤ 0) :
    braceDepth (renderW segs tail) d = d - (segs.countP (fun p => p.2.1) : Nat) := by
  induction segs generalizing d with
  | nil =>
    have := braceDepth_plain tail [] d hp.2
    rw [List.append_nil] at this
    unfold renderW; rw [this]; simp [braceDepth]
  | cons p segs ih =>
    obtain ⟨n, b, g⟩ := p
    have h1 := hp.1 (n, b, g) (by simp)
    have hp' : PlainW segs tail := ⟨fun p hpm => hp.1 p (by simp [hpm]), hp.2⟩
    have step : ∀ d : Int, d ≤ 0 → braceDepth ('{' :: (g ++ '}' :: renderW segs tail)) d =
        d - (segs.countP (fun p => p.2.1) : Nat) := by
      intro d hd
      rw [braceDepth]
      simp only [beq_self_eq_true, if_true]
      rw [if_neg (by omega), braceDepth_plain g _ _ h1.2, braceDepth]
      rw [if_neg (by decide), if_pos (by decide), ih hp' _ (by omega)]
      omega
    unfold renderW
    rw [List.append_assoc, braceDepth_plain n _ d h1.1]
    cases b with
    | false =>
      simp only [Bool.false_eq_true, if_false, List.nil_append]
      rw [step d hd]; simp
    | true =>
      simp only [if_true, List.cons_append, List.nil_append]
      rw [braceDepth, if_neg (by decide), if_pos (by decide), step _ (by omega)]
      simp; omega

theorem renderW_eq_render (segs : List (List Char × Bool × List Char)) (tail : List Char)
    (h : segs.countP (fun p => p.2.1) = 0) :
    renderW segs tail = render (segs.map (fun p => (p.1, p.2.2))) tail := by
  induction segs with
  | nil => rfl
  | cons p segs ih =>
    obtain ⟨n, b, g⟩ := p
    cases b with
    | false =>
      have : segs.countP (fun p => p.2.1) = 0 := by simpa using h
      simp [renderW, render, ih this]
    | true => simp at h

/-- More fuel does not change an outcome. -/
theorem loop_mono (data : List Char) (f f' pos : Nat) (out : List (List Int)) (o : Outcome) (hle : f ≤ f')
    (h : loop data f pos out = some o) : loop data f' pos out = some o := by
  induction f generalizing f' pos out with
  | zero => simp [loop] at h
  | succ f ih =>
    obtain ⟨k, rfl⟩ : ∃ k, f' = k + 1 := ⟨f' - 1, by omega⟩
    rw [loop] at h ⊢
    split at h
    · exact h
    · split_ifs at h ⊢ with hc
      · split at h
        · exact h
        · exact h
        · exact ih k _ _ (by omega) h
      · exact h

end Verif.Strings
