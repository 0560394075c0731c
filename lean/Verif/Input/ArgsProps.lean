import Verif.Input.ArgsModel
import Verif.Input.AmendProps
import Mathlib.Tactic.Use
import Mathlib.Tactic.Common

/-!
# C92: command line and name of the case
-/

namespace Verif.Input

/-- The command lines that make sense: any number of `-a` with their arguments, which do not begin with a dash, and at most one name of a file, in
any order. Empty arguments before the name count for nothing. -/
inductive Line : List Str → List Str → Option Str → Prop
  | nil : Line [] [] none
  | amend (v : Str) {rest reps : List Str} {f : Option Str} (hv : v.head? ≠ some '-') (h : Line rest reps f) :
      Line (['-', 'a'] :: v :: rest) (v :: reps) f
  | file (name : Str) {rest reps : List Str} (h1 : name ≠ ['-', 'a']) (h2 : name ≠ []) (h : Line rest reps none) :
      Line (name :: rest) reps (some name)
  | empty {rest reps : List Str} {f : Str} (h : Line rest reps (some f)) : Line ([] :: rest) reps (some f)

theorem scan_bad (args : List Str) (s : Scan) (h : s.good = false) : (scan args s).good = false := by
  fun_induction scan args s <;> simp_all

/-- What the loop does from any state without an error. -/
theorem scan_good (args : List Str) (s t : Scan) (hs : s.good = true) (h : scan args s = t) (ht : t.good = true) (hn : t.filename ≠ []) :
    ∃ reps f, Line args reps f ∧ t.replacements = s.replacements ++ reps ∧
      ((s.filename = [] ∧ f = some t.filename) ∨ (s.filename ≠ [] ∧ f = none ∧ t.filename = s.filename)) := by
  subst h
  fun_induction scan args s with
  | case1 s => exact ⟨[], none, .nil, by simp, Or.inr ⟨hn, rfl, rfl⟩⟩
  | case2 s => simp at ht
  | case3 a s ha hf => exact ⟨[], some a, .file a ha hn .nil, by simp, Or.inl ⟨hf, rfl⟩⟩
  | case4 a s ha hf => simp at ht
  | case5 b rest s good hg ih =>
    obtain ⟨reps, f, h1, h2, h3⟩ := ih hs ht hn
    refine ⟨b :: reps, f, .amend b ?_ h1, by simp [h2], h3⟩
    intro hb
    simp [good, hb] at hg
  | case6 b rest s good hg => simp at ht
  | case7 a b rest s ha hf ih =>
    obtain ⟨reps, f, h1, h2, h3⟩ := ih hs ht hn
    by_cases he : a = []
    · subst he
      rcases h3 with h3 | h3
      · obtain ⟨_, rfl⟩ := h3
        exact ⟨reps, _, .empty h1, h2, Or.inl ⟨hf, rfl⟩⟩
      · exact absurd rfl h3.1
    · rcases h3 with h3 | h3
      · exact absurd h3.1 he
      · obtain ⟨_, rfl, h3⟩ := h3
        exact ⟨reps, some a, .file a ha he h1, h2, Or.inl ⟨hf, by rw [h3]⟩⟩
  | case8 a b rest s ha hf ih =>
    rw [scan_bad _ _ rfl] at ht
    cases ht

/-- The loop on a line that makes sense. -/
theorem scan_line {args reps : List Str} {f : Option Str} (h : Line args reps f) (name : Str) (r : List Str) (hf : name = [] ∨ f = none) :
    scan args ⟨name, r, true⟩ = ⟨f.getD name, r ++ reps, true⟩ := by
  induction h generalizing name r with
  | nil => simp [scan]
  | amend v hv h ih =>
    rw [scan, if_pos rfl]
    simp only [hv, if_false, if_true]
    rw [ih _ _ hf]
    simp
  | @file a rest reps h1 h2 h ih =>
    have hf' : name = [] := by
      rcases hf with hf | hf
      · exact hf
      · cases hf
    subst hf'
    cases rest with
    | nil =>
      cases h
      simp [scan, h1]
    | cons b rest =>
      rw [scan, if_neg h1, if_pos rfl]
      dsimp only
      rw [ih _ _ (Or.inr rfl)]
      simp
  | @empty rest reps f h ih =>
    have hf' : name = [] := by
      rcases hf with hf | hf
      · exact hf
      · cases hf
    subst hf'
    cases rest with
    | nil => cases h
    | cons b rest =>
      rw [scan, if_neg (by decide), if_pos rfl]
      dsimp only
      rw [ih _ _ (Or.inl rfl)]

theorem line_name {args reps : List Str} {f : Option Str} (h : Line args reps f) : f ≠ some [] := by
  induction h with
  | nil => simp
  | amend v hv h ih => exact ih
  | file name h1 h2 h ih => simpa using h2
  | empty h ih => exact ih

/-- C92: the command line is accepted exactly if it makes sense and has a name; the name and the replacements, in their order, are taken from it.
Anything else prints the usage. -/
theorem C92_accepted (args reps : List Str) (f : Str) : readArgs args = .ok (f, reps) ↔ Line args reps (some f) := by
  constructor
  · intro h
    unfold readArgs at h
    dsimp only at h
    generalize hs : scan args ⟨[], [], true⟩ = t at h
    by_cases hg : t.good = true
    · by_cases hn : t.filename = []
      · simp [hg, hn] at h
      · obtain ⟨reps', f', h1, h2, h3⟩ := scan_good args _ t rfl hs hg hn
        simp [hg, hn] at h
        obtain ⟨rfl, rfl⟩ := h
        rcases h3 with h3 | h3
        · rw [h2, ← h3.2]
          simpa using h1
        · exact absurd rfl h3.1
    · simp [hg] at h
  · intro h
    have hn := line_name h
    unfold readArgs
    rw [scan_line h [] [] (Or.inl rfl)]
    have : f ≠ [] := by simpa using hn
    simp [this]

/-- C92: the line is accepted or the usage is printed; no exception. -/
theorem C92_usage (args : List Str) : readArgs args = .usage ↔ ¬ ∃ reps f, Line args reps (some f) := by
  constructor
  · rintro h ⟨reps, f, hl⟩
    rw [(C92_accepted args reps f).2 hl] at h
    cases h
  · intro h
    cases hr : readArgs args with
    | ok a => exact absurd ⟨a.2, a.1, (C92_accepted args a.2 a.1).1 hr⟩ h
    | usage => rfl
    | throws =>
      unfold readArgs at hr
      dsimp only at hr
      split at hr <;> split at hr <;> cases hr

/-- C92: what is not the flag `-a` counts as a name, also if it begins with a dash. -/
theorem C92_other_flags (flag file : Str) (h : flag.head? = some '-') (h' : flag ≠ ['-', 'a']) :
    readArgs [flag] = .ok (flag, []) ∧ readArgs [flag, file] = .usage := by
  have hne : flag ≠ [] := by
    rintro rfl
    simp at h
  constructor
  · exact (C92_accepted _ _ _).2 (.file flag h' hne .nil)
  · rw [C92_usage]
    rintro ⟨reps, f, hl⟩
    cases hl with
    | amend v hv hl => exact h' rfl
    | file _ h1 h2 hl =>
      cases hl
    | empty hl => exact hne rfl

theorem rfind_none {c : Char} {s : Str} : rfind c s = none ↔ c ∉ s := by
  induction s with
  | nil => simp [rfind]
  | cons x xs ih =>
    rw [rfind]
    cases h : rfind c xs with
    | some k =>
      have : c ∈ xs := by
        by_contra hc
        rw [ih.2 hc] at h
        cases h
      simp [this]
    | none =>
      have := ih.1 h
      by_cases hx : x = c
      · simp [hx]
      · simp [hx, this, Ne.symm hx]

theorem rfind_append {c : Char} (a b : Str) (h : c ∉ b) : rfind c (a ++ c :: b) = some a.length := by
  induction a with
  | nil => simp [rfind, rfind_none.2 h]
  | cons x xs ih => simp [rfind, ih]

/-- C92: the name of the file without the last dot and what follows; names without a dot are taken as they are. -/
theorem C92_stripped (a b s : Str) (h : '.' ∉ b) (hs : '.' ∉ s) :
    stripExtension (a ++ '.' :: b) = a ∧ stripExtension s = s := by
  constructor
  · simp [stripExtension, rfind_append a b h]
  · simp [stripExtension, rfind_none.2 hs]

/-- C92: of a file in a directory, whatever its path, only the extension of the name is removed if there is one. -/
theorem C92_extension (dir base ext : Str) (h : '.' ∉ ext) :
    stripExtension (dir ++ '/' :: (base ++ '.' :: ext)) = dir ++ '/' :: base ∧ stripExtension (base ++ '.' :: ext) = base := by
  constructor
  · have := (C92_stripped (dir ++ '/' :: base) ext [] h (by simp)).1
    simpa using this
  · exact (C92_stripped base ext [] h (by simp)).1

/-- C92, the claim for all paths: removing the extension of an input file leaves its directory alone. -/
def C92_claim : Prop := ∀ dir base : Str, '/' ∉ base → base ≠ [] → ∃ name : Str, stripExtension (dir ++ '/' :: base) = dir ++ '/' :: name

/-- C92: a file without extension in a directory with a dot in its path loses the rest of the path from this dot on. -/
theorem C92_dotted_directory (dir dir' base : Str) (h : '.' ∉ dir') (hb : '.' ∉ base) :
    stripExtension (dir ++ '.' :: dir' ++ '/' :: base) = dir := by
  have := (C92_stripped dir (dir' ++ '/' :: base) [] (by simp [h, hb]) (by simp)).1
  simpa using this

/-- C92 is false: `./input` has the empty name. -/
theorem C92_claim_false : ¬ C92_claim := by
  intro h
  obtain ⟨name, hn⟩ := h ['.'] "input".toList (by decide) (by decide)
  have h2 : stripExtension (['.'] ++ '/' :: "input".toList) = [] := by decide
  rw [h2] at hn
  cases hn

/-- C92: all inputs without extension that are given as `./a` write to the same file `.h5`, and those given as `../a` to `..h5`. -/
theorem C92_collision (a b : Str) (ha : '.' ∉ a) (hb : '.' ∉ b) :
    outputName (stripExtension ("./".toList ++ a)) = ".h5".toList ∧ outputName (stripExtension ("../".toList ++ a)) = "..h5".toList ∧
      outputName (stripExtension ("./".toList ++ a)) = outputName (stripExtension ("./".toList ++ b)) := by
  have h1 : ∀ x : Str, '.' ∉ x → stripExtension ("./".toList ++ x) = [] := fun x hx =>
    (C92_stripped [] ('/' :: x) [] (by simp [hx]) (by simp)).1
  have h2 : stripExtension ("../".toList ++ a) = ['.'] := (C92_stripped ['.'] ('/' :: a) [] (by simp [ha]) (by simp)).1
  rw [h1 a ha, h1 b hb, h2]
  exact ⟨rfl, rfl, rfl⟩

/-- C92: results and log have different names, whatever the names of the two cases, and two cases with different names share neither of them. -/
theorem C92_files (a b : Str) : outputName a ≠ logName b ∧ (outputName a = outputName b → a = b) ∧ (logName a = logName b → a = b) := by
  refine ⟨fun h => ?_, fun h => List.append_cancel_right h, fun h => List.append_cancel_right h⟩
  have h2 := congrArg List.getLast? h
  unfold outputName logName at h2
  rw [List.getLast?_append, List.getLast?_append] at h2
  have e1 : ".h5".toList.getLast? = some '5' := by decide
  have e2 : ".log".toList.getLast? = some 'g' := by decide
  rw [e1, e2] at h2
  simp at h2

example : outputName "c5g7".toList = "c5g7.h5".toList ∧ logName "c5g7".toList = "c5g7.log".toList := by decide

/-- `n` is the first child of that name in the document. -/
def FirstTag (doc : Node) (name : Str) (n : Node) : Prop :=
  ∃ as kids before after nm, doc = .elem nm as kids ∧ kids = before ++ n :: after ∧ n.isNamed name = true ∧ ∀ m ∈ before, m.isNamed name = false

theorem childNamed_some {name : Str} {doc n : Node} : childNamed name doc = some n ↔ FirstTag doc name n := by
  cases doc with
  | text s => simp [childNamed, FirstTag]
  | elem nm as kids =>
    simp only [childNamed, FirstTag]
    rw [List.find?_eq_some_iff_append]
    constructor
    · rintro ⟨h1, l, l', h2, h3⟩
      exact ⟨as, kids, l, l', nm, rfl, h2, h1, by simpa using h3⟩
    · rintro ⟨as', kids', l, l', nm', h, h2, h1, h3⟩
      cases h
      exact ⟨h1, l, l', h2, by simpa using h3⟩

/-- C92: all that the constructor does. It ends with document `d` and name `c` exactly if the line makes sense, the file can be read, the
amendments can be applied in turn, giving `d`, and `c` is the text of the first tag `case_name` of `d`, which is not empty, or, without such a
tag, the stripped name of the file. -/
theorem C92_process (load : Str → Option Node) (args : List Str) (d : Node) (c : Str) :
    processArgs load args = .ok (d, c) ↔
      ∃ reps f doc, Line args reps (some f) ∧ load f = some doc ∧ applyArgs reps doc = some d ∧
        ((∃ n, FirstTag d "case_name".toList n ∧ childValue n = c ∧ c ≠ []) ∨
         ((∀ n, ¬ FirstTag d "case_name".toList n) ∧ c = stripExtension f)) := by
  have hname : ∀ f : Str, caseName (stripExtension f) d = some c ↔ ((∃ n, FirstTag d "case_name".toList n ∧ childValue n = c ∧ c ≠ []) ∨
         ((∀ n, ¬ FirstTag d "case_name".toList n) ∧ c = stripExtension f)) := by
    intro f
    unfold caseName
    cases h : childNamed "case_name".toList d with
    | none =>
      have hno : ∀ n, ¬ FirstTag d "case_name".toList n := fun n hn => by
        rw [childNamed_some.2 hn] at h
        cases h
      simp only [Option.some.injEq]
      constructor
      · intro hc
        exact Or.inr ⟨hno, hc.symm⟩
      · rintro (⟨n, hn, _⟩ | ⟨_, hc⟩)
        · exact absurd hn (hno n)
        · exact hc.symm
    | some n =>
      have hn := childNamed_some.1 h
      dsimp only
      constructor
      · intro hc
        split at hc
        · cases hc
        · next he =>
          cases hc
          exact Or.inl ⟨n, hn, rfl, he⟩
      · rintro (⟨m, hm, hv, he⟩ | ⟨hno, _⟩)
        · rw [childNamed_some.2 hm] at h
          cases h
          rw [hv, if_neg he]
        · exact absurd hn (hno n)
  constructor
  · intro h
    unfold processArgs at h
    cases hr : readArgs args with
    | usage => simp [hr] at h
    | throws => simp [hr] at h
    | ok p =>
      obtain ⟨f, reps⟩ := p
      simp only [hr] at h
      cases hl : load f with
      | none => simp [hl] at h
      | some doc =>
        simp only [hl] at h
        cases ha : applyArgs reps doc with
        | none => simp [ha] at h
        | some d' =>
          simp only [ha] at h
          cases hc : caseName (stripExtension f) d' with
          | none => simp [hc] at h
          | some c' =>
            simp only [hc] at h
            cases h
            exact ⟨reps, f, doc, (C92_accepted _ _ _).1 hr, hl, ha, (hname f).1 hc⟩
  · rintro ⟨reps, f, doc, h1, h2, h3, h4⟩
    unfold processArgs
    simp only [(C92_accepted _ _ _).2 h1, h2, h3, (hname f).2 h4]

/-- C92: the usage is printed exactly if the line makes no sense, whatever the files. -/
theorem C92_process_usage (load : Str → Option Node) (args : List Str) :
    processArgs load args = .usage ↔ ¬ ∃ reps f, Line args reps (some f) := by
  rw [← C92_usage]
  unfold processArgs
  cases hr : readArgs args with
  | usage => simp
  | throws => simp
  | ok p =>
    simp only [reduceCtorEq, iff_false]
    intro h
    cases hl : load p.1 with
    | none => simp [hl] at h
    | some doc =>
      simp only [hl] at h
      cases ha : applyArgs p.2 doc with
      | none => simp [ha] at h
      | some d' =>
        simp only [ha] at h
        cases hc : caseName (stripExtension p.1) d' with
        | none => simp [hc] at h
        | some c' => simp [hc] at h

/-- C92: of two tags `case_name` the first counts. -/
theorem C92_tag_wins (load : Str → Option Node) (f : Str) (n1 n2 : Str) (h0 : f ≠ []) (h1 : f ≠ ['-', 'a']) (hn : n1 ≠ [])
    (hl : load f = some (.elem [] [] [.elem "case_name".toList [] [.text n1], .elem "case_name".toList [] [.text n2]])) :
    ∃ d, processArgs load [f] = .ok (d, n1) := by
  refine ⟨_, (C92_process load [f] (.elem [] [] [.elem "case_name".toList [] [.text n1], .elem "case_name".toList [] [.text n2]]) n1).2
    ⟨[], f, _, .file f h1 h0 .nil, hl, rfl, Or.inl ⟨.elem "case_name".toList [] [.text n1], ?_, rfl, hn⟩⟩⟩
  exact ⟨[], _, [], [.elem "case_name".toList [] [.text n2]], [], rfl, rfl, by simp [Node.isNamed], by simp⟩

example : readArgs ["-a".toList, "solver/k_tolerance=1e-6".toList, "core.xml".toList, "-a".toList, "x/y=2".toList] =
    .ok ("core.xml".toList, ["solver/k_tolerance=1e-6".toList, "x/y=2".toList]) := by decide
example : readArgs ["core.xml".toList, "-a".toList] = .usage := by decide
example : readArgs ["core.xml".toList, "-a".toList, "-b".toList] = .usage := by decide
example : readArgs ["a.xml".toList, "b.xml".toList] = .usage := by decide
example : stripExtension "run.d/core.v2.xml".toList = "run.d/core.v2".toList := by decide
example : Line ["-a".toList, "x=1".toList, "core.xml".toList] ["x=1".toList] (some "core.xml".toList) :=
  .amend _ (by decide) (.file _ (by decide) (by decide) .nil)

end Verif.Input
