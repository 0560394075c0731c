import Verif.Mat.ScrubModel
import Verif.Mat.LibProps
import Mathlib.Tactic.NormNum
import Mathlib.Tactic.Ring

/-! # C138: the library read through a `FileScrubber` -/

set_option linter.unusedSectionVars false

namespace Verif.Mat

open Verif.Scatter Verif.Strings

variable {K : Type} [Field K] [LinearOrder K]

/-- The text begins with these numbers, and this is left behind them. -/
inductive Begins (t : NumGet K) : List Char → List K → List Char → Prop
  | nil (s : List Char) : Begins t s [] s
  | cons (s r r' : List Char) (v : K) (vs : List K) : s.dropWhile isSpace ≠ [] → t.get (s.dropWhile isSpace) = (v, some r) → Begins t r vs r' →
      Begins t s (v :: vs) r'

/-- No number follows: only white space is left. -/
def Ends (s : List Char) : Prop := ∀ c ∈ s, isSpace c = true

/-- No number follows: there is other text, and `v` is what is stored for it. -/
def Bad (t : NumGet K) (s : List Char) (v : K) : Prop := s.dropWhile isSpace ≠ [] ∧ t.get (s.dropWhile isSpace) = (v, none)

theorem dropWhile_nil_iff (s : List Char) : s.dropWhile isSpace = [] ↔ Ends s := by
  unfold Ends
  induction s with
  | nil => simp
  | cons c s ih =>
    by_cases h : isSpace c = true
    · simp [List.dropWhile_cons, h, ih]
    · simp [List.dropWhile_cons, h]

theorem extract_ends (t : NumGet K) (c : Cell K) {s : List Char} (h : Ends s) : extract t c (some s) = (c, none) := by
  unfold extract
  simp [(dropWhile_nil_iff s).2 h]

theorem extract_bad (t : NumGet K) (c : Cell K) {s : List Char} {v : K} (h : Bad t s v) : extract t c (some s) = (some v, none) := by
  unfold extract
  obtain ⟨h1, h2⟩ := h
  simp [h1, h2]

theorem extract_num (t : NumGet K) (c : Cell K) {s r : List Char} {v : K} (h1 : s.dropWhile isSpace ≠ []) (h2 : t.get (s.dropWhile isSpace) = (v, some r)) :
    extract t c (some s) = (some v, some r) := by
  unfold extract
  simp [h1, h2]

/-- What a text begins with. -/
theorem cases_text (t : NumGet K) (s : List Char) :
    Ends s ∨ (∃ v, Bad t s v) ∨ ∃ v r, s.dropWhile isSpace ≠ [] ∧ t.get (s.dropWhile isSpace) = (v, some r) := by
  by_cases h : s.dropWhile isSpace = []
  · exact Or.inl ((dropWhile_nil_iff s).1 h)
  · right
    rcases hg : t.get (s.dropWhile isSpace) with ⟨v, _ | r⟩
    · exact Or.inl ⟨v, h, hg⟩
    · exact Or.inr ⟨v, r, h, rfl⟩

/-- Every text has at least so many numbers at its beginning, or ends or goes wrong before. -/
theorem begins_cases (t : NumGet K) (n : Nat) (s : List Char) :
    (∃ vs r, vs.length = n ∧ Begins t s vs r) ∨ ∃ vs r, vs.length < n ∧ Begins t s vs r ∧ (Ends r ∨ ∃ v, Bad t r v) := by
  induction n generalizing s with
  | zero => exact Or.inl ⟨[], s, rfl, .nil s⟩
  | succ n ih =>
    rcases cases_text t s with h | h | ⟨v, r, h1, h2⟩
    · exact Or.inr ⟨[], s, by simp, .nil s, Or.inl h⟩
    · exact Or.inr ⟨[], s, by simp, .nil s, Or.inr h⟩
    · rcases ih r with ⟨vs, r', h3, h4⟩ | ⟨vs, r', h3, h4, h5⟩
      · exact Or.inl ⟨v :: vs, r', by simp [h3], .cons s r r' v vs h1 h2 h4⟩
      · exact Or.inr ⟨v :: vs, r', by simpa using h3, .cons s r r' v vs h1 h2 h4, h5⟩

theorem scat_begins (t : NumGet K) {s : List Char} {vs : List K} {r : List Char} (h : Begins t s vs r) (k : Nat) :
    scatFrom t (vs.length + k) (some s) = (scatFrom t k (some r)).bind fun l => .ok (vs ++ l) := by
  induction h with
  | nil s => simp only [List.length_nil, Nat.zero_add, List.nil_append]; cases scatFrom t k (some s) <;> rfl
  | cons s r r' v vs h1 h2 h3 ih =>
    rw [List.length_cons, show vs.length + 1 + k = (vs.length + k) + 1 by omega, scatFrom, extract_num t none h1 h2]
    simp only
    rw [ih]
    cases scatFrom t k (some r') <;> rfl

theorem scat_failed (t : NumGet K) (k : Nat) : scatFrom t (k + 1) none = .ub := by
  simp [scatFrom, extract]

theorem push_begins (t : NumGet K) {s : List Char} {vs : List K} {r : List Char} (h : Begins t s vs r) (k : Nat) (c : Cell K) :
    pushAll t (vs.length + k) c (some s) = (pushAll t k (if vs = [] then c else vs.getLast?) (some r)).bind fun l => .ok (vs ++ l.1, l.2) := by
  induction h generalizing c with
  | nil s => simp only [List.length_nil, Nat.zero_add, List.nil_append, if_true]; cases pushAll t k c (some s) <;> rfl
  | cons s r r' v vs h1 h2 h3 ih =>
    rw [List.length_cons, show vs.length + 1 + k = (vs.length + k) + 1 by omega, pushAll, extract_num t c h1 h2]
    simp only
    rw [ih]
    have : (if vs = [] then some v else vs.getLast?) = (v :: vs).getLast? := by
      cases vs with
      | nil => rfl
      | cons a l => simp [List.getLast?_cons_cons]
    rw [this]
    simp only [reduceCtorEq, if_false]
    cases pushAll t k (v :: vs).getLast? (some r') <;> rfl

theorem push_failed (t : NumGet K) (k : Nat) (v : K) : pushAll t k (some v) none = .ok (List.replicate k v, none) := by
  induction k with
  | zero => rfl
  | succ k ih => simp [pushAll, extract, ih, Res.bind, List.replicate_succ]

/-- C138: a row of cross sections gives the four numbers it begins with, whatever follows them.  A row with fewer numbers ends with an exception, but
a row without any text, as at the end of the file, has undefined behaviour first. -/
theorem C138_row (t : NumGet K) (line : List Char) :
    (∀ vs r, vs.length = 4 → Begins t line vs r → fourOf t line = .ok vs) ∧
    (∀ vs r, vs.length < 4 → Begins t line vs r → (Ends r ∨ ∃ v, Bad t r v) → ¬ Ends line → fourOf t line = .throws) ∧
    (Ends line → fourOf t line = .ub) := by
  refine ⟨?_, ?_, ?_⟩
  · intro vs r hl h
    have := push_begins t h 0 none
    rw [hl] at this
    unfold fourOf
    rw [this]
    simp [pushAll, Res.bind]
  · intro vs r hl h he hne
    obtain ⟨k, hk⟩ : ∃ k, 4 = vs.length + (k + 1) := ⟨3 - vs.length, by omega⟩
    have := push_begins t h (k + 1) none
    rw [← hk] at this
    unfold fourOf
    rw [this]
    rcases he with he | ⟨v, hv⟩
    · have hvs : vs ≠ [] := by
        rintro rfl
        cases h
        exact hne he
      obtain ⟨x, hx⟩ : ∃ x, vs.getLast? = some x := by
        exact ⟨vs.getLast hvs, List.getLast?_eq_some_getLast hvs⟩
      rw [if_neg hvs, hx, pushAll, extract_ends t (some x) he]
      simp only
      rw [push_failed]
      rfl
    · rw [pushAll, extract_bad t _ hv]
      simp only
      rw [push_failed]
      rfl
  · intro h
    unfold fourOf
    rw [pushAll, extract_ends t none h]
    rfl

/-- C138: a row of the scattering table gives the numbers it begins with if there are as many as groups, whatever follows them.  If the text ends
before, the behaviour is undefined; so it is if other text comes in place of a number, except in place of the last: then what `operator>>` stores on
failure is taken.  There is never an exception. -/
theorem C138_scat (t : NumGet K) (ng : Nat) (line : List Char) :
    (∀ vs r, vs.length = ng → Begins t line vs r → scatFrom t ng (some line) = .ok vs) ∧
    (∀ vs r, vs.length < ng → Begins t line vs r → Ends r → scatFrom t ng (some line) = .ub) ∧
    (∀ vs r v, vs.length + 1 = ng → Begins t line vs r → Bad t r v → scatFrom t ng (some line) = .ok (vs ++ [v])) ∧
    (∀ vs r v, vs.length + 1 < ng → Begins t line vs r → Bad t r v → scatFrom t ng (some line) = .ub) ∧
    scatFrom t ng (some line) ≠ .throws := by
  have a1 : ∀ vs r, vs.length = ng → Begins t line vs r → scatFrom t ng (some line) = .ok vs := by
    intro vs r hl h
    have := scat_begins t h 0
    rw [Nat.add_zero, hl] at this
    rw [this]
    simp [scatFrom, Res.bind]
  have a2 : ∀ vs r, vs.length < ng → Begins t line vs r → Ends r → scatFrom t ng (some line) = .ub := by
    intro vs r hl h he
    obtain ⟨k, hk⟩ : ∃ k, ng = vs.length + (k + 1) := ⟨ng - vs.length - 1, by omega⟩
    have := scat_begins t h (k + 1)
    rw [hk, this, scatFrom, extract_ends t none he]
    rfl
  have a3 : ∀ vs r v, vs.length + 1 = ng → Begins t line vs r → Bad t r v → scatFrom t ng (some line) = .ok (vs ++ [v]) := by
    intro vs r v hl h he
    have := scat_begins t h 1
    rw [← hl, this, scatFrom, extract_bad t none he]
    rfl
  have a4 : ∀ vs r v, vs.length + 1 < ng → Begins t line vs r → Bad t r v → scatFrom t ng (some line) = .ub := by
    intro vs r v hl h he
    obtain ⟨k, hk⟩ : ∃ k, ng = vs.length + (k + 1 + 1) := ⟨ng - vs.length - 2, by omega⟩
    have := scat_begins t h (k + 1 + 1)
    rw [hk, this, scatFrom, extract_bad t none he]
    simp only
    rw [scat_failed]
    rfl
  refine ⟨a1, a2, a3, a4, ?_⟩
  rcases begins_cases t ng line with ⟨vs, r, h1, h2⟩ | ⟨vs, r, h1, h2, h3 | ⟨v, h3⟩⟩
  · rw [a1 vs r h1 h2]; simp
  · rw [a2 vs r h1 h2 h3]; simp
  · rcases Nat.lt_or_ge (vs.length + 1) ng with h | h
    · rw [a4 vs r v h h2 h3]; simp
    · rw [a3 vs r v (by omega) h2 h3]; simp

theorem bounds_begins (t : NumGet K) {s : List Char} {vs : List K} {r : List Char} (h : Begins t s vs r) (k : Nat) :
    boundsFrom t (vs.length + k) (some s) = (boundsFrom t k (some r)).bind fun l => .ok (vs ++ l) := by
  induction h with
  | nil s => simp only [List.length_nil, Nat.zero_add, List.nil_append]; cases boundsFrom t k (some s) <;> rfl
  | cons s r r' v vs h1 h2 h3 ih =>
    rw [List.length_cons, show vs.length + 1 + k = (vs.length + k) + 1 by omega, boundsFrom, extract_num t none h1 h2]
    simp only
    rw [ih]
    cases boundsFrom t k (some r') <;> rfl

/-- C138: the bounds of the groups, which both constructors read in the same way, are the numbers the line begins with.  Other text in place of a
number ends with an exception; if the text ends before, the behaviour is undefined. -/
theorem C138_bounds (t : NumGet K) (ng : Nat) (line : List Char) :
    (∀ vs r, vs.length = ng → Begins t line vs r → boundsFrom t ng (some line) = .ok vs) ∧
    (∀ vs r, vs.length < ng → Begins t line vs r → Ends r → boundsFrom t ng (some line) = .ub) ∧
    (∀ vs r v, vs.length < ng → Begins t line vs r → Bad t r v → boundsFrom t ng (some line) = .throws) := by
  refine ⟨?_, ?_, ?_⟩
  · intro vs r hl h
    have := bounds_begins t h 0
    rw [Nat.add_zero, hl] at this
    rw [this]
    simp [boundsFrom, Res.bind]
  · intro vs r hl h he
    obtain ⟨k, hk⟩ : ∃ k, ng = vs.length + (k + 1) := ⟨ng - vs.length - 1, by omega⟩
    have := bounds_begins t h (k + 1)
    rw [hk, this, boundsFrom, extract_ends t none he]
    rfl
  · intro vs r v hl h he
    obtain ⟨k, hk⟩ : ∃ k, ng = vs.length + (k + 1) := ⟨ng - vs.length - 1, by omega⟩
    have := bounds_begins t h (k + 1)
    rw [hk, this, boundsFrom, extract_bad t none he]
    rfl

/-- What `explode_string` returns is what the text begins with, and only white space is left. -/
theorem explode_begins (t : NumGet K) {line : List Char} {vs : List K} (h : explodeLoop t line.length line = some vs) :
    Begins t line vs [] := by
  have key : ∀ fuel s vs, explodeLoop t fuel s = some vs → Begins t s vs [] := by
    intro fuel
    induction fuel with
    | zero => intro s vs h; simp [explodeLoop] at h
    | succ fuel ih =>
      intro s vs h
      rw [explodeLoop] at h
      rcases cases_text t s with h0 | ⟨v, h0⟩ | ⟨v, r, h1, h2⟩
      · rw [extract_ends t none h0] at h; simp at h
      · rw [extract_bad t none h0] at h; simp at h
      · rw [extract_num t none h1 h2] at h
        simp only at h
        split_ifs at h with hr
        · rw [List.isEmpty_iff] at hr
          subst hr
          cases h
          exact .cons s [] [] v [] h1 h2 (.nil [])
        · cases h3 : explodeLoop t fuel r with
          | none => rw [h3] at h; cases h
          | some ws =>
            rw [h3] at h
            cases h
            exact .cons s r [] v ws h1 h2 (ih r ws h3)
  exact key _ _ _ h

/-- Lines of `getline` have no white space at their ends. -/
theorem getline_trim (ls : List (List Char)) : trim (getline ls).1 = (getline ls).1 := by
  have hc : ∀ l : List Char, trim (clean l) = clean l := by
    intro l
    obtain ⟨a, b, r, h1, h2, h3, h4, h5, h6⟩ := ((C97_lines []).2 l (clean l)).2 rfl
    have hb : ∀ x ∈ clean l, x ≠ '!' := fun x hx => h2 x (by simp [hx])
    have hs : Says (clean l) (clean l) := ⟨[], [], [], by simp, by simpa using hb, Or.inl rfl, by simp, h5, h6⟩
    have := ((C97_lines []).2 (clean l) (clean l)).1 hs
    have ht : (clean l).takeWhile (· ≠ '!') = clean l := by
      have : ∀ m : List Char, (∀ x ∈ m, x ≠ '!') → m.takeWhile (· ≠ '!') = m := by
        intro m
        induction m with
        | nil => simp
        | cons c m ih =>
          intro h
          rw [List.takeWhile_cons, if_pos (by simpa using h c (by simp)), ih fun x hx => h x (by simp [hx])]
      exact this _ hb
    have h7 : clean (clean l) = trim (clean l) := congrArg trim ht
    exact h7.symm.trans this.symm
  induction ls with
  | nil => rfl
  | cons l ls ih =>
    rw [getline]
    split_ifs
    · exact ih
    · exact hc l

theorem explode_line (t : NumGet K) (ls : List (List Char)) {vs : List K} (h : explode t (getline ls).1 = some vs) :
    ∃ r, Begins t (getline ls).1 vs r := by
  unfold explode at h
  rw [getline_trim] at h
  simp only at h
  split_ifs at h with h0
  · cases h
    exact ⟨_, .nil _⟩
  · exact ⟨[], explode_begins t h⟩

theorem rows_agree (counts : List Char → Option (Nat × Nat)) (t : NumGet K) (row : List Char → Res (List K)) (len : Nat)
    (hrow : ∀ line vs r, vs.length = len → Begins t line vs r → row line = .ok vs) (n : Nat) (ls : List (List Char)) {out : List (List K) × List (List Char)}
    (h : readRows (parserOf counts t) len n ls = some out) : rowsBy row n ls = .ok out := by
  induction n generalizing ls out with
  | zero => rw [readRows] at h; cases h; rfl
  | succ n ih =>
    rw [readRows] at h
    simp only [parserOf] at h
    cases hv : explode t (getline ls).1 with
    | none => rw [hv] at h; simp at h
    | some vs =>
      rw [hv] at h
      simp only at h
      split_ifs at h with hl
      push Not at hl
      obtain ⟨r, hr⟩ := explode_line t ls hv
      rw [rowsBy]
      rw [hrow _ vs r hl hr]
      cases hm : readRows (parserOf counts t) len n (getline ls).2 with
      | none => rw [parserOf] at hm; rw [hm] at h; simp at h
      | some o =>
        have := ih _ hm
        rw [parserOf] at hm
        rw [hm] at h
        simp only [Option.map_some, Option.some.injEq] at h
        simp only [Res.bind, this, h]

theorem one_agree (counts : List Char → Option (Nat × Nat)) (t : NumGet K) (ng : Nat) (ls : List (List Char))
    {out : (List Char × Material K) × List (List Char)} (h : readOne (parserOf counts t) ng ls = some out) : scrubOne t ng ls = .ok out := by
  unfold readOne at h
  simp only at h
  cases h1 : readRows (parserOf counts t) 4 ng (getline ls).2 with
  | none => rw [h1] at h; simp at h
  | some a =>
    obtain ⟨rows, ls1⟩ := a
    rw [h1] at h
    simp only at h
    cases h2 : readRows (parserOf counts t) ng ng ls1 with
    | none => rw [h2] at h; simp at h
    | some b =>
      obtain ⟨scat, ls2⟩ := b
      rw [h2] at h
      simp only at h
      unfold scrubOne
      simp only
      rw [rows_agree counts t (fourOf t) 4 (fun line vs r hl hb => (C138_row t line).1 vs r hl hb) ng _ h1]
      simp only [Res.bind]
      rw [rows_agree counts t (fun l => scatFrom t ng (some l)) ng (fun line vs r hl hb => (C138_scat t ng line).1 vs r hl hb) ng _ h2]
      simp only
      cases h3 : mkMaterial (column rows 0) (column rows 1) (column rows 2) (column rows 3) scat with
      | none => rw [h3] at h; simp at h
      | some m =>
        rw [h3] at h
        simp only [Option.some.injEq] at h
        simp only [h]

theorem mats_agree (counts : List Char → Option (Nat × Nat)) (t : NumGet K) (n : Nat) (ls : List (List Char)) (l : Lib K) {out : Lib K}
    (h : readMats (parserOf counts t) n ls l = some out) : scrubMats t n ls l = .ok out := by
  induction n generalizing ls l with
  | zero => rw [readMats] at h; cases h; rfl
  | succ n ih =>
    rw [readMats] at h
    cases h1 : readOne (parserOf counts t) l.ng ls with
    | none => rw [h1] at h; simp at h
    | some m =>
      obtain ⟨m, ls'⟩ := m
      rw [h1] at h
      simp only at h
      rw [scrubMats, one_agree counts t l.ng ls h1]
      simp only [Res.bind]
      exact ih _ _ h

/-- C138: a file that the constructor from the input accepts is accepted by that from a `FileScrubber`, with the same library. -/
theorem C138_agree (counts : List Char → Option (Nat × Nat)) (t : NumGet K) (ls : List (List Char)) (l : Lib K)
    (h : readFile (parserOf counts t) ls = some l) : scrubFile counts t ls = .ok l := by
  unfold readFile at h
  unfold scrubFile
  simp only [parserOf] at h ⊢
  cases h1 : counts (getline (getline ls).2).1 with
  | none => rw [h1] at h; simp at h
  | some c =>
    obtain ⟨ng, n⟩ := c
    rw [h1] at h
    simp only at h ⊢
    cases h2 : boundsFrom t ng (some (getline (getline (getline ls).2).2).1) with
    | throws => rw [h2] at h; simp at h
    | ub => rw [h2] at h; simp at h
    | ok b =>
      rw [h2] at h
      simp only [Res.bind] at h ⊢
      exact mats_agree counts t n _ _ h

theorem rest_getline (k : Nat) (ls : List (List Char)) : (getline (rest k ls)).2 = rest (k + 1) ls := by
  induction k generalizing ls with
  | zero => rfl
  | succ k ih => exact ih (getline ls).2

theorem rowsBy_ok (row : List Char → Res (List K)) (n s : Nat) (ls : List (List Char))
    (h : ∀ i, i < n → ∃ v, row (lineAt ls (s + i)) = .ok v) :
    ∃ rows, rowsBy row n (rest s ls) = .ok (rows, rest (s + n) ls) ∧ rows.length = n ∧ ∀ r ∈ rows, ∃ l, row l = .ok r := by
  induction n generalizing s with
  | zero => exact ⟨[], rfl, rfl, by simp⟩
  | succ n ih =>
    obtain ⟨v, hv⟩ := h 0 (by omega)
    obtain ⟨rows, h1, h2, h3⟩ := ih (s + 1) fun i hi => by
      have := h (i + 1) (by omega)
      rwa [show s + (i + 1) = s + 1 + i by omega] at this
    refine ⟨v :: rows, ?_, by simp [h2], ?_⟩
    · rw [rowsBy, rest_getline]
      change (row (lineAt ls s)).bind _ = _
      rw [Nat.add_zero] at hv
      rw [hv]
      simp only [Res.bind]
      rw [h1]
      simp only [show s + 1 + n = s + (n + 1) by omega]
    · intro r hr
      rcases List.mem_cons.1 hr with rfl | hr
      · exact ⟨_, hv⟩
      · exact h3 r hr

theorem rowsBy_bad (row : List Char → Res (List K)) (n s j : Nat) (ls : List (List Char)) (hj : j < n)
    (h : ∀ i, i < j → ∃ v, row (lineAt ls (s + i)) = .ok v) :
    (row (lineAt ls (s + j)) = .ub → rowsBy row n (rest s ls) = .ub) ∧
    (row (lineAt ls (s + j)) = .throws → rowsBy row n (rest s ls) = .throws) := by
  induction n generalizing s j with
  | zero => omega
  | succ n ih =>
    rw [rowsBy, rest_getline]
    change (_ → (row (lineAt ls s)).bind _ = _) ∧ (_ → (row (lineAt ls s)).bind _ = _)
    cases j with
    | zero =>
      rw [Nat.add_zero]
      constructor <;> intro h0 <;> rw [h0] <;> rfl
    | succ j =>
      obtain ⟨v, hv⟩ := h 0 (by omega)
      rw [Nat.add_zero] at hv
      rw [hv]
      obtain ⟨h1, h2⟩ := ih (s + 1) j (by omega) fun i hi => by
        have := h (i + 1) (by omega)
        rwa [show s + (i + 1) = s + 1 + i by omega] at this
      rw [show s + (j + 1) = s + 1 + j by omega]
      constructor
      · intro h0
        simp only [Res.bind]
        rw [h1 h0]
      · intro h0
        simp only [Res.bind]
        rw [h2 h0]

theorem scat_length (t : NumGet K) (n : Nat) (s : Stream) (r : List K) (h : scatFrom t n s = .ok r) : r.length = n := by
  induction n generalizing s r with
  | zero => rw [scatFrom] at h; cases h; rfl
  | succ n ih =>
    rw [scatFrom] at h
    rcases he : extract t none s with ⟨_ | v, s'⟩
    · rw [he] at h; simp at h
    · rw [he] at h
      simp only at h
      cases h2 : scatFrom t n s' with
      | ub => rw [h2] at h; simp [Res.bind] at h
      | throws => rw [h2] at h; simp [Res.bind] at h
      | ok l =>
        rw [h2] at h
        simp only [Res.bind, Res.ok.injEq] at h
        subst h
        simp [ih _ _ h2]

/-- What reading row `i` of material `k` gives: the first rows have cross sections, the others scattering. -/
def rowAt (t : NumGet K) (ls : List (List Char)) (ng k i : Nat) : Res (List K) :=
  if i < ng then fourOf t (lineAt ls (startOf ng k + 1 + i)) else scatFrom t ng (some (lineAt ls (startOf ng k + 1 + i)))

theorem one_ok (t : NumGet K) (ls : List (List Char)) (ng k : Nat) (h : ∀ i, i < 2 * ng → ∃ v, rowAt t ls ng k i = .ok v) :
    ∃ m, scrubOne t ng (rest (startOf ng k) ls) = .ok (m, rest (startOf ng (k + 1)) ls) := by
  unfold scrubOne
  simp only
  rw [rest_getline]
  obtain ⟨a, a1, a2, a3⟩ := rowsBy_ok (fourOf t) ng (startOf ng k + 1) ls fun i hi => by
    have := h i (by omega)
    unfold rowAt at this
    rwa [if_pos hi] at this
  obtain ⟨b, b1, b2, b3⟩ := rowsBy_ok (fun l => scatFrom t ng (some l)) ng (startOf ng k + 1 + ng) ls fun i hi => by
    have := h (ng + i) (by omega)
    unfold rowAt at this
    rw [if_neg (by omega)] at this
    rwa [show startOf ng k + 1 + (ng + i) = startOf ng k + 1 + ng + i by omega] at this
  rw [a1]
  simp only [Res.bind]
  rw [b1]
  simp only
  obtain ⟨m, hm⟩ : ∃ m, mkMaterial (column a 0) (column a 1) (column a 2) (column a 3) b = some m := by
    unfold mkMaterial
    rw [if_neg]
    · exact ⟨_, rfl⟩
    · simp only [ne_eq, decide_not, List.any_eq_true, Bool.not_eq_eq_eq_not, Bool.not_true, decide_eq_false_iff_not, not_exists, not_and, not_not]
      intro r hr
      obtain ⟨l, hl⟩ := b3 r hr
      rw [b2, scat_length t ng _ _ hl]
  rw [hm]
  refine ⟨(headName (getline (rest (startOf ng k) ls)).1, m), ?_⟩
  have : startOf ng k + 1 + ng + ng = startOf ng (k + 1) := by
    unfold startOf
    ring
  rw [this]

theorem one_bad (t : NumGet K) (ls : List (List Char)) (ng k j : Nat) (hj : j < 2 * ng) (h : ∀ i, i < j → ∃ v, rowAt t ls ng k i = .ok v) :
    (rowAt t ls ng k j = .ub → scrubOne t ng (rest (startOf ng k) ls) = .ub) ∧
    (rowAt t ls ng k j = .throws → scrubOne t ng (rest (startOf ng k) ls) = .throws) := by
  unfold scrubOne
  simp only
  rw [rest_getline]
  by_cases hn : j < ng
  · have := rowsBy_bad (fourOf t) ng (startOf ng k + 1) j ls hn fun i hi => by
      have := h i hi
      unfold rowAt at this
      rwa [if_pos (by omega)] at this
    unfold rowAt
    rw [if_pos hn]
    constructor
    · intro h0
      rw [this.1 h0]
      rfl
    · intro h0
      rw [this.2 h0]
      rfl
  · obtain ⟨a, a1, a2, a3⟩ := rowsBy_ok (fourOf t) ng (startOf ng k + 1) ls fun i hi => by
      have := h i (by omega)
      unfold rowAt at this
      rwa [if_pos hi] at this
    rw [a1]
    simp only [Res.bind]
    have := rowsBy_bad (fun l => scatFrom t ng (some l)) ng (startOf ng k + 1 + ng) (j - ng) ls (by omega) fun i hi => by
      have := h (ng + i) (by omega)
      unfold rowAt at this
      rw [if_neg (by omega)] at this
      rwa [show startOf ng k + 1 + (ng + i) = startOf ng k + 1 + ng + i by omega] at this
    rw [show startOf ng k + 1 + ng + (j - ng) = startOf ng k + 1 + j by omega] at this
    unfold rowAt
    rw [if_neg hn]
    constructor
    · intro h0
      rw [this.1 h0]
    · intro h0
      rw [this.2 h0]

/-- C138: the constructor ends without exception and undefined behaviour exactly if all rows do; otherwise it ends as the first row that does not.  The
headers do not matter. -/
theorem C138_first (counts : List Char → Option (Nat × Nat)) (t : NumGet K) (ls : List (List Char)) (ng n : Nat) (b : List K)
    (hc : counts (lineAt ls 1) = some (ng, n)) (hb : boundsFrom t ng (some (lineAt ls 2)) = .ok b) :
    ((∀ k i, k < n → i < 2 * ng → ∃ v, rowAt t ls ng k i = .ok v) → ∃ l, scrubFile counts t ls = .ok l) ∧
    ∀ k i, k < n → i < 2 * ng → (∀ k' i', i' < 2 * ng → (k' < k ∨ k' = k ∧ i' < i) → ∃ v, rowAt t ls ng k' i' = .ok v) →
      (rowAt t ls ng k i = .ub → scrubFile counts t ls = .ub) ∧ (rowAt t ls ng k i = .throws → scrubFile counts t ls = .throws) := by
  have hs : scrubFile counts t ls = scrubMats t n (rest 3 ls) ⟨ng, b, [], fun _ => none, [], fun _ => none, fun _ => none, 0⟩ := by
    unfold scrubFile
    simp only
    change (match counts (lineAt ls 1) with
      | none => Res.throws
      | some (ng, nmat) => (boundsFrom t ng (some (lineAt ls 2))).bind fun b =>
          scrubMats t nmat (rest 3 ls) ⟨ng, b, [], fun _ => none, [], fun _ => none, fun _ => none, 0⟩) = _
    rw [hc]
    simp only
    rw [hb]
    rfl
  have h3 : rest 3 ls = rest (startOf ng 0) ls := by simp [startOf]
  rw [hs, h3]
  have kOk : ∀ n k0 (l : Lib K), l.ng = ng → (∀ k i, k0 ≤ k → k < k0 + n → i < 2 * ng → ∃ v, rowAt t ls ng k i = .ok v) →
      ∃ r, scrubMats t n (rest (startOf ng k0) ls) l = .ok r := by
    intro n
    induction n with
    | zero => intro k0 l _ _; exact ⟨l, rfl⟩
    | succ n ih =>
      intro k0 l hl h
      obtain ⟨m, hm⟩ := one_ok t ls ng k0 fun i hi => h k0 i (by omega) (by omega) hi
      rw [scrubMats, hl, hm]
      simp only [Res.bind]
      exact ih (k0 + 1) (l.add m) hl fun k i h1 h2 h3 => h k i (by omega) (by omega) h3
  have kBad : ∀ n k0 k i (l : Lib K), l.ng = ng → k0 ≤ k → k < k0 + n → i < 2 * ng →
      (∀ k' i', i' < 2 * ng → (k' < k ∨ k' = k ∧ i' < i) → ∃ v, rowAt t ls ng k' i' = .ok v) →
      (rowAt t ls ng k i = .ub → scrubMats t n (rest (startOf ng k0) ls) l = .ub) ∧
      (rowAt t ls ng k i = .throws → scrubMats t n (rest (startOf ng k0) ls) l = .throws) := by
    intro n
    induction n with
    | zero => intro k0 k i l _ _ _; omega
    | succ n ih =>
      intro k0 k i l hl h1 h2 h3 h4
      rw [scrubMats, hl]
      rcases Nat.lt_or_ge k0 k with hk | hk
      · obtain ⟨m, hm⟩ := one_ok t ls ng k0 fun i hi => h4 k0 i hi (Or.inl hk)
        rw [hm]
        simp only [Res.bind]
        exact ih (k0 + 1) k i (l.add m) hl (by omega) (by omega) h3 h4
      · have hk' : k = k0 := by omega
        subst hk'
        have := one_bad t ls ng k i h3 fun i' hi' => h4 k i' (by omega) (Or.inr ⟨rfl, hi'⟩)
        constructor
        · intro h0
          rw [this.1 h0]
          rfl
        · intro h0
          rw [this.2 h0]
          rfl
  refine ⟨fun h => kOk n 0 _ rfl fun k i _ h2 h3 => h k i (by omega) h3, fun k i hk hi h => kBad n 0 k i _ rfl (by omega) (by omega) hi h⟩

/-- C138, the claim: the constructors accept the same files. -/
def C138_claim : Prop := ∀ (counts : List Char → Option (Nat × Nat)) (t : NumGet ℚ) (ls : List (List Char)),
  readFile (parserOf counts t) ls = none → scrubFile counts t ls = .throws

/-- Numbers of one digit; zero is stored for other text. -/
def digitGet : NumGet ℚ where
  get s := match s with
    | c :: r => if isDigit c then ((decimal [c] : ℚ), some r) else (0, none)
    | [] => (0, none)
  shrinks := by
    intro s v r h
    cases s with
    | nil => simp at h
    | cons c s =>
      simp only at h
      split_ifs at h <;> simp_all

/-- Two numbers of one digit. -/
def digitCounts (s : List Char) : Option (Nat × Nat) :=
  match s.filter isDigit with
  | [a, b] => some (decimal [a], decimal [b])
  | _ => none

/-- A file with one material for two groups; the rows of the table are the arguments. -/
def twoGroupFile (a b : List Char) : List (List Char) :=
  [['x'], ['2', ' ', '1'], ['9', ' ', '8'], ['X', 'S', 'M', 'A', 'C', 'R', 'O', ' ', 'u', ' ', '0'],
   ['1', ' ', '3', ' ', '2', ' ', '5'], ['1', ' ', '0', ' ', '0', ' ', '0', '!', ' ', 'c'], a, b]

/-- Kind of the result, and the second values of the two rows of the table of the first material. -/
def kindOf (r : Res (Lib ℚ)) : Res (Option (Option ℚ × Option ℚ)) :=
  r.bind fun l => .ok ((l.mats[0]?).map fun m => (m.sc.get 0 1, m.sc.get 1 1))

theorem C138_claim_false : ¬ C138_claim := by
  intro h
  have h1 : (readFile (parserOf digitCounts digitGet) (twoGroupFile ['4', ' ', '0'] ['3', ' ', '2', ' ', '7'])).isNone = true := by decide +kernel
  have h2 : kindOf (scrubFile digitCounts digitGet (twoGroupFile ['4', ' ', '0'] ['3', ' ', '2', ' ', '7'])) ≠ kindOf .throws := by decide +kernel
  exact h2 (by rw [h digitCounts digitGet _ (by simpa using h1)])

/-- A good file: both constructors accept it. -/
example : (readFile (parserOf digitCounts digitGet) (twoGroupFile ['4', ' ', '6'] ['3', ' ', '2'])).isSome = true ∧
    kindOf (scrubFile digitCounts digitGet (twoGroupFile ['4', ' ', '6'] ['3', ' ', '2'])) = .ok (some (some 6, some 2)) := by decide +kernel

/-- A row that is too short: an exception from the first constructor, undefined behaviour in the second. -/
example : (readFile (parserOf digitCounts digitGet) (twoGroupFile ['4', ' ', '6'] ['3'])).isNone = true ∧
    kindOf (scrubFile digitCounts digitGet (twoGroupFile ['4', ' ', '6'] ['3'])) = .ub := by decide +kernel

/-- A word in place of the last number of a row: an exception from the first constructor, taken as zero by the second. -/
example : (readFile (parserOf digitCounts digitGet) (twoGroupFile ['4', ' ', '6'] ['3', ' ', 'x'])).isNone = true ∧
    kindOf (scrubFile digitCounts digitGet (twoGroupFile ['4', ' ', '6'] ['3', ' ', 'x'])) = .ok (some (some 6, some 0)) := by decide +kernel

end Verif.Mat
