import Verif.Input.FactoryModel
import Verif.Strings.Lemmas
import Mathlib.Tactic.IntervalCases
import Mathlib.Tactic.Linarith

/-!
# C105: factories and options
-/

namespace Verif.Input.Factory

open Verif.Strings

variable {Q : Type}

/-! ### Text -/

theorem lower_space (c : Char) : isSpace (lower c) = isSpace c := by
  unfold lower
  split_ifs with h
  · obtain ⟨h1, h2⟩ := h
    have e1 : 65 ≤ c.toNat := h1
    have e2 : c.toNat ≤ 90 := h2
    rw [← Char.ofNat_toNat c]
    generalize c.toNat = n at e1 e2
    interval_cases n <;> decide
  · rfl

/-- `s` is the word `w`, up to upper case letters and surrounding spaces. -/
def Like (s : Str) (w : String) : Prop :=
  ∃ a t b, s = a ++ t ++ b ∧ (∀ c ∈ a, isSpace c = true) ∧ (∀ c ∈ b, isSpace c = true) ∧ t.map lower = w.toList

/-- A word: no space in it. -/
def Word (w : String) : Prop := ∀ c ∈ w.toList, isSpace c = false

theorem trim_append (a t b : Str) (ha : ∀ c ∈ a, isSpace c = true) (hb : ∀ c ∈ b, isSpace c = true) (ht : ∀ c ∈ t, isSpace c = false) :
    trim (a ++ t ++ b) = t := by
  have dropAll : ∀ (p q : Str), (∀ c ∈ p, isSpace c = true) → (p ++ q).dropWhile isSpace = q.dropWhile isSpace := by
    intro p q hp
    induction p with
    | nil => rfl
    | cons x xs ih =>
      rw [List.cons_append, List.dropWhile_cons, if_pos (hp x List.mem_cons_self)]
      exact ih fun c hc => hp c (List.mem_cons_of_mem _ hc)
  have dropNone : ∀ (p q : Str), p ≠ [] → (∀ c ∈ p, isSpace c = false) → (p ++ q).dropWhile isSpace = p ++ q := by
    intro p q hne hp
    cases p with
    | nil => exact absurd rfl hne
    | cons x xs => rw [List.cons_append, List.dropWhile_cons, hp x List.mem_cons_self]; rfl
  unfold trim ltrim rtrim
  rw [List.reverse_append, dropAll _ _ (fun c hc => hb c (List.mem_reverse.1 hc)), List.reverse_append]
  by_cases hn : t = []
  · subst hn
    rw [List.reverse_nil, List.nil_append]
    have h0 : a.reverse.dropWhile isSpace = [] := by
      rw [List.dropWhile_eq_nil_iff]
      exact fun c hc => ha c (List.mem_reverse.1 hc)
    rw [h0]
    rfl
  · rw [dropNone _ _ (by simpa using hn) (fun c hc => ht c (List.mem_reverse.1 hc)), List.reverse_append, List.reverse_reverse, List.reverse_reverse,
      dropAll _ _ ha]
    have := dropNone t [] hn ht
    rwa [List.append_nil] at this

/-- C105: which texts are read as a word where values are sanitised. -/
theorem C105_sanitize (s : Str) (w : String) (hw : Word w) : sanitize s = w.toList ↔ Like s w := by
  unfold sanitize Like
  constructor
  · intro h
    obtain ⟨b', e, hb'⟩ := rtrim_spec (s.map lower)
    have e2 : (rtrim (s.map lower)).takeWhile isSpace ++ w.toList = rtrim (s.map lower) := by
      rw [← h]
      exact List.takeWhile_append_dropWhile
    rw [← e2] at e
    obtain ⟨st, b, rfl, hst, hb⟩ := List.map_eq_append_iff.1 e
    obtain ⟨a, t, rfl, ha, ht⟩ := List.map_eq_append_iff.1 hst
    refine ⟨a, t, b, rfl, ?_, ?_, ht⟩
    · intro c hc
      rw [← lower_space]
      have : lower c ∈ a.map lower := List.mem_map_of_mem hc
      rw [ha] at this
      exact List.mem_takeWhile_imp this
    · intro c hc
      rw [← lower_space]
      exact hb' _ (hb ▸ List.mem_map_of_mem hc)
  · rintro ⟨a, t, b, rfl, ha, hb, ht⟩
    rw [List.map_append, List.map_append, ht]
    apply trim_append
    · intro c hc
      obtain ⟨x, hx, rfl⟩ := List.mem_map.1 hc
      rw [lower_space]
      exact ha x hx
    · intro c hc
      obtain ⟨x, hx, rfl⟩ := List.mem_map.1 hc
      rw [lower_space]
      exact hb x hx
    · exact hw

/-! ### The quadrature -/

/-- C105: the quadrature is that of the nearest of the node and its parents that has one, and there is an exception if none has. -/
theorem C105_quadrature (path : List (Node Q)) (q : Q) :
    findAngquad path = some q ↔ ∃ near n far, path = near ++ n :: far ∧ n.quad = some q ∧ ∀ m ∈ near, m.quad = none := by
  induction path with
  | nil => simp [findAngquad]
  | cons n up ih =>
    unfold findAngquad
    cases hq : n.quad with
    | some x =>
      constructor
      · intro h
        cases h
        exact ⟨[], n, up, rfl, hq, by simp⟩
      · rintro ⟨near, m, far, e, e1, e2⟩
        cases near with
        | nil =>
          rw [List.nil_append, List.cons.injEq] at e
          rw [← e.1, hq] at e1
          exact e1
        | cons y ys =>
          rw [List.cons_append, List.cons.injEq] at e
          have := e2 y List.mem_cons_self
          rw [← e.1, hq] at this
          cases this
    | none =>
      dsimp only
      rw [ih]
      constructor
      · rintro ⟨near, m, far, rfl, e1, e2⟩
        refine ⟨n :: near, m, far, rfl, e1, ?_⟩
        intro x hx
        rcases List.mem_cons.1 hx with rfl | hx
        · exact hq
        · exact e2 x hx
      · rintro ⟨near, m, far, e, e1, e2⟩
        cases near with
        | nil =>
          rw [List.nil_append, List.cons.injEq] at e
          rw [← e.1, hq] at e1
          cases e1
        | cons y ys =>
          rw [List.cons_append, List.cons.injEq] at e
          exact ⟨ys, m, far, e.2, e1, fun x hx => e2 x (List.mem_cons_of_mem _ hx)⟩

/-- C105: `validate_input` tells whether all attributes are known, and warns once for each that is not. -/
theorem C105_validate (n : Node Q) (known : List String) :
    ((validate n known).1 = true ↔ ∀ a ∈ n.attrs, ∃ k ∈ known, a.1 = k.toList) ∧
    (validate n known).2 = (n.attrs.filter fun a => decide (∀ k ∈ known, a.1 ≠ k.toList)).length := by
  unfold validate
  have hc : ∀ a : Str × Str, (known.map String.toList).contains a.1 = true ↔ ∃ k ∈ known, a.1 = k.toList := by
    intro a
    rw [List.contains_iff_mem, List.mem_map]
    exact ⟨fun ⟨k, h1, h2⟩ => ⟨k, h1, h2.symm⟩, fun ⟨k, h1, h2⟩ => ⟨k, h1, h2.symm⟩⟩
  have key : ∀ (l : List (Str × Str)) (b : Bool) (w : Nat),
      ((l.foldl (fun s a => if (known.map String.toList).contains a.1 then s else (false, s.2 + 1)) (b, w)).1 = true ↔
        b = true ∧ ∀ a ∈ l, ∃ k ∈ known, a.1 = k.toList) ∧
      (l.foldl (fun s a => if (known.map String.toList).contains a.1 then s else (false, s.2 + 1)) (b, w)).2 =
        w + (l.filter fun a => decide (∀ k ∈ known, a.1 ≠ k.toList)).length := by
    intro l
    induction l with
    | nil => intro b w; simp
    | cons a as ih =>
      intro b w
      rw [List.foldl_cons]
      by_cases h : (known.map String.toList).contains a.1 = true
      · rw [if_pos h]
        have h2 := (hc a).1 h
        obtain ⟨i1, i2⟩ := ih b w
        refine ⟨i1.trans ?_, i2.trans ?_⟩
        · constructor
          · rintro ⟨hb, hal⟩
            refine ⟨hb, fun x hx => ?_⟩
            rcases List.mem_cons.1 hx with rfl | hx
            · exact h2
            · exact hal x hx
          · rintro ⟨hb, hal⟩
            exact ⟨hb, fun x hx => hal x (List.mem_cons_of_mem _ hx)⟩
        · rw [List.filter_cons, if_neg]
          rw [decide_eq_true_eq]
          intro hall
          obtain ⟨k, hk, e⟩ := h2
          exact hall k hk e
      · rw [if_neg h]
        have h2 : ¬ ∃ k ∈ known, a.1 = k.toList := fun hh => h ((hc a).2 hh)
        obtain ⟨i1, i2⟩ := ih false (w + 1)
        refine ⟨i1.trans ?_, i2.trans ?_⟩
        · constructor
          · rintro ⟨hb, -⟩
            cases hb
          · rintro ⟨-, hal⟩
            exact absurd (hal a List.mem_cons_self) h2
        · rw [List.filter_cons, if_pos, List.length_cons]
          · omega
          · rw [decide_eq_true_eq]
            exact fun k hk e => h2 ⟨k, hk, e⟩
  obtain ⟨k1, k2⟩ := key n.attrs true 0
  refine ⟨k1.trans (by simp), ?_⟩
  rw [k2, Nat.zero_add]

/-! ### Options of the sweepers -/

/-- C105: an attribute is read from its first occurrence, and is missing only if there is none of that name. -/
theorem C105_attribute (n : Node Q) (name : String) :
    (∀ v, attr n name = some v ↔ ∃ pre post, n.attrs = pre ++ (name.toList, v) :: post ∧ ∀ a ∈ pre, a.1 ≠ name.toList) ∧
    (attr n name = none ↔ ∀ a ∈ n.attrs, a.1 ≠ name.toList) := by
  constructor
  · intro v
    simp only [attr, Option.map_eq_some_iff, List.find?_eq_some_iff_append, decide_eq_true_eq]
    constructor
    · rintro ⟨⟨a, b⟩, ⟨ha, pre, post, he, hp⟩, hv⟩
      simp only at ha hv
      subst ha hv
      exact ⟨pre, post, he, fun a h => by simpa using hp a h⟩
    · rintro ⟨pre, post, he, hp⟩
      exact ⟨(name.toList, v), ⟨rfl, pre, post, he, fun a h => by simpa using hp a h⟩, rfl⟩
  · simp [attr]

/-- What is required of the number of inner iterations. -/
def Inner (asInt : Str → Int) (n : Node Q) (i : Int) : Prop := 0 ≤ i ∧ ∃ v, attr n "n_inner" = some v ∧ asInt v = i

/-- The boundary update of Sn: Gauss-Seidel by default. -/
def SnUpdate (n : Node Q) (g : Bool) : Prop :=
  (attr n "boundary_update" = none ∧ g = true) ∨
  ∃ v, attr n "boundary_update" = some v ∧ ((g = true ∧ (Like v "gs" ∨ Like v "gauss-seidel")) ∨ (g = false ∧ (Like v "jacobi" ∨ Like v "j")))

/-- The boundary update of MoC. -/
def MocUpdate (n : Node Q) (g : Bool) : Prop :=
  (attr n "boundary_update" = none ∧ g = true) ∨
  ∃ v, attr n "boundary_update" = some v ∧ ((g = true ∧ Like v "gs") ∨ (g = false ∧ (Like v "jacobi" ∨ Like v "j")))

theorem inner_iff (asInt : Str → Int) (n : Node Q) (i : Int) : (¬ innerOf asInt n < 0 ∧ innerOf asInt n = i) ↔ Inner asInt n i := by
  unfold innerOf
  unfold Inner
  cases attr n "n_inner" with
  | none => simp
  | some v =>
    simp only [Option.some.injEq, exists_eq_left']
    constructor
    · rintro ⟨h1, rfl⟩
      exact ⟨by omega, rfl⟩
    · rintro ⟨h1, rfl⟩
      exact ⟨by omega, rfl⟩

theorem words : Word "gs" ∧ Word "gauss-seidel" ∧ Word "jacobi" ∧ Word "j" ∧ Word "p0" ∧ Word "cdd" ∧ Word "dd" ∧ Word "dd_ff" ∧ Word "sc" ∧ Word "fw" ∧ Word "pmb" := by
  unfold Word
  refine ⟨?_, ?_, ?_, ?_, ?_, ?_, ?_, ?_, ?_, ?_, ?_⟩ <;> decide

theorem update_sn (n : Node Q) (g : Bool) : snUpdate n = some g ↔ SnUpdate n g := by
  obtain ⟨w1, w2, w3, w4, -⟩ := words
  unfold SnUpdate snUpdate
  cases attr n "boundary_update" with
  | none => simp [eq_comm]
  | some v =>
    simp only [← C105_sanitize v _ w1, ← C105_sanitize v _ w2, ← C105_sanitize v _ w3, ← C105_sanitize v _ w4, reduceCtorEq, false_and, Option.some.injEq,
      exists_eq_left', false_or]
    generalize sanitize v = u
    constructor
    · intro h
      split_ifs at h with a b
      · cases h; exact Or.inl ⟨rfl, a⟩
      · cases h; exact Or.inr ⟨rfl, b⟩
    · rintro (⟨rfl, a⟩ | ⟨rfl, b⟩)
      · rw [if_pos a]
      · rw [if_neg, if_pos b]
        rintro (rfl | rfl) <;> revert b <;> decide

theorem update_moc (n : Node Q) (g : Bool) : mocUpdate n = some g ↔ MocUpdate n g := by
  obtain ⟨w1, w2, w3, w4, -⟩ := words
  unfold MocUpdate mocUpdate
  cases attr n "boundary_update" with
  | none => simp [eq_comm]
  | some v =>
    simp only [← C105_sanitize v _ w1, ← C105_sanitize v _ w3, ← C105_sanitize v _ w4, reduceCtorEq, false_and, Option.some.injEq,
      exists_eq_left', false_or]
    generalize sanitize v = u
    constructor
    · intro h
      split_ifs at h with a b
      · cases h; exact Or.inr ⟨rfl, a⟩
      · cases h; exact Or.inl ⟨rfl, b⟩
    · rintro (⟨rfl, a⟩ | ⟨rfl, b⟩)
      · rw [if_neg, if_pos a]
        rintro (rfl | rfl) <;> revert a <;> decide
      · rw [if_pos b]

/-- C105: the options of an Sn sweeper. -/
theorem C105_sn_options (asInt : Str → Int) (threads : Nat) (kind : SnKind) (n : Node Q) (up : List (Node Q)) (s : Sn Q) :
    makeSn asInt threads kind (n :: up) = some s ↔
      s.kind = kind ∧ findAngquad (n :: up) = some s.quad ∧ Inner asInt n s.inner ∧ ∃ g, SnUpdate n g ∧ (s.gs = true ↔ g = true ∧ threads ≤ 1) := by
  cases hq : findAngquad (n :: up) with
  | none => rw [makeSn, hq]; simp
  | some q =>
    rw [makeSn, hq]
    dsimp only
    split_ifs with h
    · constructor
      · intro h; cases h
      · rintro ⟨-, -, hi, -⟩
        exact absurd h ((inner_iff asInt n _).2 hi).1
    · rw [Option.map_eq_some_iff]
      constructor
      · rintro ⟨g, hg, rfl⟩
        exact ⟨rfl, rfl, (inner_iff asInt n _).1 ⟨h, rfl⟩, g, (update_sn n g).1 hg, by simp⟩
      · rintro ⟨h1, h2, h3, g, h4, h5⟩
        refine ⟨g, (update_sn n g).2 h4, ?_⟩
        have e := ((inner_iff asInt n _).2 h3).2
        rw [e]
        have e2 : (g && decide (threads ≤ 1)) = s.gs := by
          rw [Bool.eq_iff_iff, h5]
          simp
        rw [e2, ← h1]
        cases s
        simp at h2
        rw [h2]

/-- C105: the options of a MoC sweeper. -/
theorem C105_moc_options (asInt : Str → Int) (n : Node Q) (up : List (Node Q)) (s : Moc Q) :
    makeMoc asInt (n :: up) = some s ↔ findAngquad (n :: up) = some s.quad ∧ Inner asInt n s.inner ∧ MocUpdate n s.gs := by
  cases hq : findAngquad (n :: up) with
  | none => rw [makeMoc, hq]; simp
  | some q =>
    rw [makeMoc, hq]
    dsimp only
    split_ifs with h
    · constructor
      · intro h; cases h
      · rintro ⟨-, hi, -⟩
        exact absurd h ((inner_iff asInt n _).2 hi).1
    · rw [Option.map_eq_some_iff]
      constructor
      · rintro ⟨g, hg, rfl⟩
        exact ⟨rfl, (inner_iff asInt n _).1 ⟨h, rfl⟩, (update_moc n g).1 hg⟩
      · rintro ⟨h2, h3, h4⟩
        refine ⟨s.gs, (update_moc n _).2 h4, ?_⟩
        have e := ((inner_iff asInt n _).2 h3).2
        rw [e]
        cases s
        simp at h2
        rw [h2]

/-! ### The kinds of Sn sweepers -/

/-- The axial treatments with corrections. -/
inductive CddAx : Option Str → Axial → Prop
  | default : CddAx none .dd
  | dd {v : Str} : Like v "dd" → CddAx (some v) .dd
  | ddFf {v : Str} : Like v "dd_ff" → CddAx (some v) .ddFf
  | sc {v : Str} : Like v "sc" → CddAx (some v) .sc
  | fw {v : Str} : Like v "fw" → CddAx (some v) .fw
  | pmb {v : Str} : Like v "pmb" → CddAx (some v) .pmb

/-- What the attributes `equation` and `axial` of an `<sweeper type="sn">` stand for. -/
inductive SnTable : Option Str → Option Str → SnKind → Prop
  | dd {e a : Option Str} : (e = none ∨ e = some "dd".toList) → (a = none ∨ a = some "dd".toList) → SnTable e a .dd
  | ddSc {e a : Option Str} : (e = none ∨ e = some "dd".toList) → a = some "sc".toList → SnTable e a .ddSc
  | cdd {e a : Option Str} {x : Axial} : e = some "cdd".toList → CddAx a x → SnTable e a (.cdd x)

/-- What they stand for in an `<sn_sweeper>` of the 2D3D sweeper. -/
inductive CddTable : Option Str → Option Str → SnKind → Prop
  | cdd {e a : Option Str} {x : Axial} : (∀ v, e = some v → Like v "cdd") → CddAx a x → CddTable e a (.cdd x)
  | other {e a : Option Str} {k : SnKind} : (∃ v, e = some v ∧ ¬ Like v "cdd") → SnTable e a k → CddTable e a k

theorem cddAx_iff (a : Option Str) (x : Axial) : cddAxial ((a.map sanitize).getD "dd".toList) = some x ↔ CddAx a x := by
  obtain ⟨-, -, -, -, -, -, w1, w2, w3, w4, w5⟩ := words
  cases a with
  | none =>
    have : cddAxial (((none : Option Str).map sanitize).getD "dd".toList) = some .dd := rfl
    rw [this]
    constructor
    · intro h
      cases h
      exact .default
    · intro h
      cases h
      rfl
  | some v =>
    rw [Option.map_some, Option.getD_some]
    unfold cddAxial
    constructor
    · intro h
      split_ifs at h with h1 h2 h3 h4 h5
      · cases h; exact .dd ((C105_sanitize v _ w1).1 h1)
      · cases h; exact .ddFf ((C105_sanitize v _ w2).1 h2)
      · cases h; exact .sc ((C105_sanitize v _ w3).1 h3)
      · cases h; exact .fw ((C105_sanitize v _ w4).1 h4)
      · cases h; exact .pmb ((C105_sanitize v _ w5).1 h5)
    · intro h
      cases h with
      | dd h => rw [(C105_sanitize v _ w1).2 h]; rfl
      | ddFf h => rw [(C105_sanitize v _ w2).2 h]; rfl
      | sc h => rw [(C105_sanitize v _ w3).2 h]; rfl
      | fw h => rw [(C105_sanitize v _ w4).2 h]; rfl
      | pmb h => rw [(C105_sanitize v _ w5).2 h]; rfl

theorem sanitize_cdd : sanitize "cdd".toList = "cdd".toList := by decide

theorem cdd_like : Like "cdd".toList "cdd" := (C105_sanitize _ _ words.2.2.2.2.2.1).1 sanitize_cdd

/-- The factory with corrections where the equation is that with corrections. -/
theorem cdd_direct (asInt : Str → Int) (threads d : Nat) (path : List (Node Q)) (h : ∀ v, attrOf path "equation" = some v → Like v "cdd") :
    ∃ r, cddFactory asInt threads (d + 1) path = .done r ∧ ∀ s, r = some s ↔
      ∃ k, CddTable (attrOf path "equation") (attrOf path "axial") k ∧ makeSn asInt threads k path = some s := by
  rw [cddFactory]
  rw [if_neg]
  · cases hx : cddAxial (((attrOf path "axial").map sanitize).getD "dd".toList) with
    | none =>
      refine ⟨_, rfl, fun s => ⟨fun hh => (by cases hh), ?_⟩⟩
      rintro ⟨k, hk, -⟩
      cases hk with
      | cdd _ ha => rw [(cddAx_iff _ _).2 ha] at hx; cases hx
      | other ho _ => obtain ⟨v, hv, hn⟩ := ho; exact absurd (h v hv) hn
    | some x =>
      refine ⟨_, rfl, fun s => ⟨fun hh => ⟨_, .cdd h ((cddAx_iff _ _).1 hx), hh⟩, ?_⟩⟩
      rintro ⟨k, hk, hm⟩
      cases hk with
      | cdd _ ha =>
        rw [(cddAx_iff _ _).2 ha] at hx
        cases hx
        exact hm
      | other ho _ => obtain ⟨v, hv, hn⟩ := ho; exact absurd (h v hv) hn
  · rw [not_not]
    cases he : attrOf path "equation" with
    | none => rfl
    | some v => exact (C105_sanitize v _ words.2.2.2.2.2.1).2 (h v he)

/-- C105: `SnSweeperFactory` ends within two calls, and makes the class of the table with the options of its constructor, or throws. -/
theorem C105_sn_factory (asInt : Str → Int) (threads d : Nat) (path : List (Node Q)) :
    ∃ r, snFactory asInt threads (d + 2) path = .done r ∧ ∀ s, r = some s ↔
      ∃ k, SnTable (attrOf path "equation") (attrOf path "axial") k ∧ makeSn asInt threads k path = some s := by
  rw [snFactory]
  dsimp only
  have hdd : (attrOf path "equation").getD "dd".toList = "dd".toList ↔ attrOf path "equation" = none ∨ attrOf path "equation" = some "dd".toList := by
    cases attrOf path "equation" with
    | none => simp
    | some v => simp
  have hax : (attrOf path "axial").getD "dd".toList = "dd".toList ↔ attrOf path "axial" = none ∨ attrOf path "axial" = some "dd".toList := by
    cases attrOf path "axial" with
    | none => simp
    | some v => simp
  have hsc : (attrOf path "axial").getD "dd".toList = "sc".toList ↔ attrOf path "axial" = some "sc".toList := by
    cases attrOf path "axial" with
    | none => decide
    | some v => simp
  have hcdd : (attrOf path "equation").getD "dd".toList = "cdd".toList ↔ attrOf path "equation" = some "cdd".toList := by
    cases attrOf path "equation" with
    | none => decide
    | some v => simp
  have ne1 : ¬ (some "cdd".toList = (none : Option Str) ∨ some "cdd".toList = some "dd".toList) := by decide
  have ne2 : ¬ (some "sc".toList = (none : Option Str) ∨ some "sc".toList = some "dd".toList) := by decide
  split_ifs with h1 h2 h3 h4
  · rw [hdd] at h1
    rw [hax] at h2
    refine ⟨_, rfl, fun s => ⟨fun hh => ⟨_, .dd h1 h2, hh⟩, ?_⟩⟩
    rintro ⟨k, hk, hm⟩
    cases hk with
    | dd _ _ => exact hm
    | ddSc _ ha => rw [ha] at h2; exact absurd h2 ne2
    | cdd he _ => rw [he] at h1; exact absurd h1 ne1
  · rw [hdd] at h1
    rw [hsc] at h3
    refine ⟨_, rfl, fun s => ⟨fun hh => ⟨_, .ddSc h1 h3, hh⟩, ?_⟩⟩
    rintro ⟨k, hk, hm⟩
    cases hk with
    | dd _ ha => rw [h3] at ha; exact absurd ha ne2
    | ddSc _ _ => exact hm
    | cdd he _ => rw [he] at h1; exact absurd h1 ne1
  · rw [hdd] at h1
    rw [hsc] at h3
    rw [hax] at h2
    refine ⟨_, rfl, fun s => ⟨fun hh => (by cases hh), ?_⟩⟩
    rintro ⟨k, hk, hm⟩
    cases hk with
    | dd _ ha => exact absurd ha h2
    | ddSc _ ha => exact absurd ha h3
    | cdd he _ => rw [he] at h1; exact absurd h1 ne1
  · rw [hcdd] at h4
    obtain ⟨r, e, hr⟩ := cdd_direct asInt threads d path (by
      intro v hv
      rw [h4] at hv
      cases hv
      exact cdd_like)
    refine ⟨r, e, fun s => (hr s).trans ?_⟩
    constructor
    · rintro ⟨k, hk, hm⟩
      refine ⟨k, ?_, hm⟩
      cases hk with
      | cdd _ ha => exact .cdd h4 ha
      | other ho _ =>
        obtain ⟨v, hv, hn⟩ := ho
        rw [h4] at hv
        cases hv
        exact absurd cdd_like hn
    · rintro ⟨k, hk, hm⟩
      refine ⟨k, ?_, hm⟩
      cases hk with
      | cdd he ha =>
        refine .cdd ?_ ha
        intro v hv
        rw [he] at hv
        cases hv
        exact cdd_like
      | dd he _ => rw [h4] at he; exact absurd he ne1
      | ddSc he _ => rw [h4] at he; exact absurd he ne1
  · rw [hdd] at h1
    rw [hcdd] at h4
    refine ⟨_, rfl, fun s => ⟨fun hh => (by cases hh), ?_⟩⟩
    rintro ⟨k, hk, hm⟩
    cases hk with
    | dd he _ => exact absurd he h1
    | ddSc he _ => exact absurd he h1
    | cdd he _ => exact absurd he h4

/-- C105: the same for `SnSweeperFactory_CDD`: the two factories call each other, but never more than three deep. -/
theorem C105_cdd_factory (asInt : Str → Int) (threads d : Nat) (path : List (Node Q)) :
    ∃ r, cddFactory asInt threads (d + 3) path = .done r ∧ ∀ s, r = some s ↔
      ∃ k, CddTable (attrOf path "equation") (attrOf path "axial") k ∧ makeSn asInt threads k path = some s := by
  by_cases h : ∀ v, attrOf path "equation" = some v → Like v "cdd"
  · exact cdd_direct asInt threads (d + 2) path h
  · push Not at h
    obtain ⟨v, hv, hn⟩ := h
    rw [cddFactory]
    rw [if_pos]
    · obtain ⟨r, e, hr⟩ := C105_sn_factory asInt threads d path
      refine ⟨r, e, fun s => (hr s).trans ?_⟩
      constructor
      · rintro ⟨k, hk, hm⟩
        exact ⟨k, .other ⟨v, hv, hn⟩ hk, hm⟩
      · rintro ⟨k, hk, hm⟩
        cases hk with
        | cdd hc _ => exact absurd (hc v hv) hn
        | other _ hs => exact ⟨k, hs, hm⟩
    · rw [hv]
      exact fun hh => hn ((C105_sanitize v _ words.2.2.2.2.2.1).1 hh)

/-! ### All sweepers -/

/-- What a `<sweeper>` tag stands for. -/
inductive Makes (asInt : Str → Int) (threads : Nat) (t : Tag Q) (up : List (Node Q)) : Sweeper Q → Prop
  | moc {m : Moc Q} : attr t.node "type" = some "moc".toList → makeMoc asInt (t.node :: up) = some m → Makes asInt threads t up (.moc m)
  | sn {k : SnKind} {s : Sn Q} : attr t.node "type" = some "sn".toList → SnTable (attr t.node "equation") (attr t.node "axial") k →
      makeSn asInt threads k (t.node :: up) = some s → Makes asInt threads t up (.sn s)
  | plane {ns nm : Node Q} {k : SnKind} {s : Sn Q} {m : Moc Q} {q : Q} {v : Bool} : attr t.node "type" = some "2d3d".toList → t.sn = some ns → t.moc = some nm →
      CddTable (attr ns "equation") (attr ns "axial") k → makeSn asInt threads k (ns :: t.node :: up) = some s → makeMoc asInt (nm :: t.node :: up) = some m →
      findAngquad (t.node :: up) = some q →
      ((v = true ∧ attr t.node "cycle" = some "v".toList) ∨
        (v = false ∧ (attr t.node "cycle" = none ∨ attr t.node "cycle" = some "saw".toList ∨ attr t.node "cycle" = some "sawtooth".toList))) →
      Makes asInt threads t up (.plane s m q v)
  | moc2d3d {m : Moc Q} : attr t.node "type" = some "moc_2d3d".toList → makeMoc asInt (t.node :: up) = some m → Makes asInt threads t up (.moc2d3d m)

theorem cycle_iff (n : Node Q) (v : Bool) : cycleOf n = some v ↔
    ((v = true ∧ attr n "cycle" = some "v".toList) ∨
      (v = false ∧ (attr n "cycle" = none ∨ attr n "cycle" = some "saw".toList ∨ attr n "cycle" = some "sawtooth".toList))) := by
  unfold cycleOf
  cases attr n "cycle" with
  | none => simp [eq_comm]
  | some u =>
    simp only [Option.some.injEq, reduceCtorEq, false_or]
    constructor
    · intro h
      split_ifs at h with a b
      · cases h; exact Or.inl ⟨rfl, a⟩
      · cases h; exact Or.inr ⟨rfl, b⟩
    · rintro (⟨rfl, a⟩ | ⟨rfl, b⟩)
      · rw [if_pos a]
      · rw [if_neg, if_pos b]
        rintro rfl
        revert b
        decide

/-- C105: `TransportSweeperFactory` ends and makes what the tag stands for, or throws. -/
theorem C105_sweeper (asInt : Str → Int) (threads : Nat) (t : Tag Q) (up : List (Node Q)) :
    ∃ r, sweeperFactory asInt threads t up = .done r ∧ ∀ s, r = some s ↔ Makes asInt threads t up s := by
  unfold sweeperFactory
  dsimp only
  have hty : ∀ w : String, w.toList ≠ [] → ((attr t.node "type").getD [] = w.toList ↔ attr t.node "type" = some w.toList) := by
    intro w hw
    cases attr t.node "type" with
    | none => exact ⟨fun h => absurd h.symm hw, fun h => by cases h⟩
    | some v => rw [Option.getD_some, Option.some.injEq]
  simp only [hty "moc" (by decide), hty "sn" (by decide), hty "2d3d" (by decide), hty "moc_2d3d" (by decide)]
  split_ifs with h1 h2 h3 h4
  · refine ⟨_, rfl, fun s => ?_⟩
    rw [Option.map_eq_some_iff]
    constructor
    · rintro ⟨m, hm, rfl⟩
      exact .moc h1 hm
    · intro h
      cases h with
      | moc _ hm => exact ⟨_, hm, rfl⟩
      | sn ht => rw [h1] at ht; exact absurd ht (by decide)
      | plane ht => rw [h1] at ht; exact absurd ht (by decide)
      | moc2d3d ht => rw [h1] at ht; exact absurd ht (by decide)
  · obtain ⟨r, e, hr⟩ := C105_sn_factory asInt threads 1 (t.node :: up)
    rw [e]
    refine ⟨_, rfl, fun s => ?_⟩
    rw [Option.map_eq_some_iff]
    constructor
    · rintro ⟨m, hm, rfl⟩
      obtain ⟨k, hk, hs⟩ := (hr m).1 hm
      exact .sn h2 hk hs
    · intro h
      cases h with
      | moc ht => exact absurd ht h1
      | sn _ hk hs => exact ⟨_, (hr _).2 ⟨_, hk, hs⟩, rfl⟩
      | plane ht => rw [h2] at ht; exact absurd ht (by decide)
      | moc2d3d ht => rw [h2] at ht; exact absurd ht (by decide)
  · cases hsn : t.sn with
    | none =>
      refine ⟨_, rfl, fun s => ⟨fun hh => (by cases hh), fun h => ?_⟩⟩
      cases h with
      | moc ht => exact absurd ht h1
      | sn ht => exact absurd ht h2
      | plane _ hs => rw [hsn] at hs; cases hs
      | moc2d3d ht => rw [h3] at ht; exact absurd ht (by decide)
    | some ns =>
      dsimp only
      obtain ⟨r, e, hr⟩ := C105_cdd_factory asInt threads 0 (ns :: t.node :: up)
      rw [e]
      cases r with
      | none =>
        refine ⟨_, rfl, fun s => ⟨fun hh => (by cases hh), fun h => ?_⟩⟩
        cases h with
        | moc ht => exact absurd ht h1
        | sn ht => exact absurd ht h2
        | plane _ hs _ hk hm =>
          rw [hsn] at hs
          cases hs
          have := (hr _).2 ⟨_, hk, hm⟩
          cases this
        | moc2d3d ht => rw [h3] at ht; exact absurd ht (by decide)
      | some sn =>
        obtain ⟨k, hk, hks⟩ := (hr sn).1 rfl
        have uniq : ∀ k' s', CddTable (attr ns "equation") (attr ns "axial") k' → makeSn asInt threads k' (ns :: t.node :: up) = some s' → sn = s' :=
          fun k' s' a b => Option.some.inj ((hr s').2 ⟨k', a, b⟩)
        dsimp only
        cases hmoc : t.moc with
        | none =>
          refine ⟨_, rfl, fun s => ⟨fun hh => (by cases hh), fun h => ?_⟩⟩
          cases h with
          | moc ht => exact absurd ht h1
          | sn ht => exact absurd ht h2
          | plane _ _ hm => rw [hmoc] at hm; cases hm
          | moc2d3d ht => rw [h3] at ht; exact absurd ht (by decide)
        | some nm =>
          dsimp only
          split
          · rename_i m q v e1 e2 e3
            refine ⟨_, rfl, fun s => ?_⟩
            constructor
            · intro hh
              cases hh
              exact .plane h3 hsn hmoc hk hks e1 e2 ((cycle_iff _ _).1 e3)
            · intro h
              cases h with
              | moc ht => exact absurd ht h1
              | sn ht => exact absurd ht h2
              | plane _ hs hm hk' hs' hm' hq' hv' =>
                rw [hsn] at hs
                cases hs
                rw [hmoc] at hm
                cases hm
                rw [e1] at hm'
                cases hm'
                rw [e2] at hq'
                cases hq'
                rw [(cycle_iff _ _).2 hv'] at e3
                cases e3
                rw [uniq _ _ hk' hs']
              | moc2d3d ht => rw [h3] at ht; exact absurd ht (by decide)
          · rename_i hno
            refine ⟨_, rfl, fun s => ⟨fun hh => (by cases hh), fun h => ?_⟩⟩
            cases h with
            | moc ht => exact absurd ht h1
            | sn ht => exact absurd ht h2
            | plane _ hs hm hk' hs' hm' hq' hv' =>
              rw [hmoc] at hm
              cases hm
              exact absurd ((cycle_iff _ _).2 hv') (fun e3 => hno _ _ _ hm' hq' e3)
            | moc2d3d ht => rw [h3] at ht; exact absurd ht (by decide)
  · refine ⟨_, rfl, fun s => ?_⟩
    rw [Option.map_eq_some_iff]
    constructor
    · rintro ⟨m, hm, rfl⟩
      exact .moc2d3d h4 hm
    · intro h
      cases h with
      | moc ht => exact absurd ht h1
      | sn ht => exact absurd ht h2
      | plane ht => exact absurd ht h3
      | moc2d3d _ hm => exact ⟨_, hm, rfl⟩
  · refine ⟨_, rfl, fun s => ⟨fun hh => (by cases hh), fun h => ?_⟩⟩
    cases h with
    | moc ht => exact absurd ht h1
    | sn ht => exact absurd ht h2
    | plane ht => exact absurd ht h3
    | moc2d3d ht => exact absurd ht h4

/-- C105: solvers. -/
theorem C105_solver (n : Option (Node Q)) (s : Solver) : solverFactory n = some s ↔
    ∃ x, n = some x ∧ attr x "type" = some (match s with | .eigenvalue => "eigenvalue" | .fixedSource => "fixed_source" | .eigenvalueMc => "eigenvalue_mc").toList := by
  unfold solverFactory
  cases n with
  | none => simp
  | some x =>
    simp only [Option.some.injEq, exists_eq_left']
    cases attr x "type" with
    | none => cases s <;> decide
    | some v =>
      rw [Option.getD_some, Option.some.injEq]
      constructor
      · intro h
        split_ifs at h with a b c <;> cases h <;> assumption
      · intro h
        cases s <;> subst h <;> decide

/-- C105: a source is made if and only if its scattering is P0. -/
theorem C105_source (n : Option (Node Q)) : sourceFactory n = true ↔ ∃ x v, n = some x ∧ attr x "scattering" = some v ∧ Like v "p0" := by
  unfold sourceFactory
  cases n with
  | none => simp
  | some x =>
    dsimp only
    have w := words.2.2.2.2.1
    cases h : attr x "scattering" with
    | none => simp [h]
    | some v =>
      rw [Option.getD_some]
      split_ifs with he
      · rw [List.isEmpty_iff] at he
        subst he
        constructor
        · intro hh; cases hh
        · rintro ⟨y, u, hy, hu, hl⟩
          cases hy
          rw [h] at hu
          cases hu
          rw [← C105_sanitize _ _ w] at hl
          revert hl
          decide
      · rw [decide_eq_true_eq, C105_sanitize _ _ w]
        constructor
        · intro hl
          exact ⟨x, v, rfl, h, hl⟩
        · rintro ⟨y, u, hy, hu, hl⟩
          cases hy
          rw [h] at hu
          cases hu
          exact hl

/-! ### Claims that fail -/

/-- The same attributes in the same order, with values that differ in case and surrounding spaces only. -/
def SameNode (n m : Node Q) : Prop := n.quad = m.quad ∧ n.attrs.map (·.1) = m.attrs.map (·.1) ∧ n.attrs.map (fun a => sanitize a.2) = m.attrs.map fun a => sanitize a.2

/-- C105, a claim: case and surrounding spaces of values do not matter. -/
def C105_claim : Prop := ∀ (asInt : Str → Int) (threads : Nat) (n m : Node Nat) (up : List (Node Nat)), SameNode n m →
  sweeperFactory asInt threads ⟨n, none, none⟩ up = sweeperFactory asInt threads ⟨m, none, none⟩ up

/-- A node with attributes. -/
def node (l : List (String × String)) (q : Option Nat := none) : Node Nat := ⟨l.map fun a => (a.1.toList, a.2.toList), q⟩

/-- `equation="DD"` is rejected. -/
theorem C105_claim_false : ¬ C105_claim := by
  intro h
  have := h (fun _ => 5) 1 (node [("type", "sn"), ("equation", "DD"), ("n_inner", "5")] (some 7)) (node [("type", "sn"), ("equation", "dd"), ("n_inner", "5")] (some 7)) []
    ⟨rfl, by decide, by decide⟩
  have h2 : (match sweeperFactory (fun _ => 5) 1 ⟨node [("type", "sn"), ("equation", "DD"), ("n_inner", "5")] (some 7), none, none⟩ [] with
      | .done r => r.isSome | .deep => false) = false := by decide +kernel
  rw [this] at h2
  revert h2
  decide +kernel

/-- C105, a claim: the factory with corrections, as used by the 2D3D sweeper, makes the same of a node as the factory of Sn sweepers where both are given an
equation. -/
def C105_equation_claim : Prop := ∀ (asInt : Str → Int) (threads : Nat) (path : List (Node Nat)), (attrOf path "equation").isSome →
  snFactory asInt threads 3 path = cddFactory asInt threads 3 path

/-- `equation="CDD"` is accepted by the one and rejected by the other. -/
theorem C105_equation_claim_false : ¬ C105_equation_claim := by
  intro h
  have := h (fun _ => 5) 1 [node [("equation", "CDD"), ("n_inner", "5")] (some 7)] (by decide)
  have h2 : (match cddFactory (fun _ => 5) 1 3 [node [("equation", "CDD"), ("n_inner", "5")] (some 7)] with | .done r => r.isSome | .deep => false) = true := by
    decide +kernel
  rw [← this] at h2
  revert h2
  decide +kernel

/-- C105, a claim: a boundary update has the same meaning in Sn and in MoC. -/
def C105_update_claim : Prop := ∀ (n : Node Nat) (g : Bool), SnUpdate n g → MocUpdate n g

/-- "gauss-seidel" is rejected by MoC. -/
theorem C105_update_claim_false : ¬ C105_update_claim := by
  intro h
  have h1 := (update_moc _ _).2 (h (node [("boundary_update", "gauss-seidel")]) true ((update_sn _ _).1 (by decide)))
  revert h1
  decide +kernel

/-- C105, partial: what MoC accepts has the same meaning in Sn.  The converse is refuted (`C105_update_claim_false`). -/
theorem C105_update_partial (n : Node Q) (g : Bool) (h : MocUpdate n g) : SnUpdate n g := by
  rcases h with h | ⟨v, hv, ⟨hg, h⟩ | h⟩
  · exact Or.inl h
  · exact Or.inr ⟨v, hv, Or.inl ⟨hg, Or.inl h⟩⟩
  · exact Or.inr ⟨v, hv, Or.inr h⟩

/-- The examples of sweepers in doc/input.dox:198-224. -/
def documented : List (Tag Nat) :=
  [⟨node [("type", "moc"), ("n_inner", "5")] (some 1), none, none⟩,
   ⟨node [("type", "sn"), ("equation", "dd"), ("axial", "dd"), ("n_inner", "15")] (some 2), none, none⟩,
   ⟨node [("type", "2d3d")] (some 3), some (node [("equation", "cdd"), ("axial", "sc")]), some (node [("n_inner", "10")])⟩]

/-- C105, a claim: the documented examples are accepted. -/
def C105_doc_claim : Prop := ∀ (asInt : Str → Int) (threads : Nat), (∀ v : Str, 0 ≤ asInt v) → ∀ t ∈ documented, ∀ r, sweeperFactory asInt threads t [] = .done r → r.isSome

/-- The `<sn_sweeper>` of the 2D3D example has no `n_inner`. -/
theorem C105_doc_claim_false : ¬ C105_doc_claim := by
  intro h
  have h1 := h (fun _ => 5) 1 (fun _ => by decide) (documented[2]) (List.getElem_mem _) none rfl
  revert h1
  decide

/-- C105, partial: the first two examples are accepted; the third is not (`C105_doc_claim_false`). -/
theorem C105_doc_partial (asInt : Str → Int) (threads : Nat) (ha : ∀ v : Str, 0 ≤ asInt v) (t : Tag Nat) (ht : t ∈ documented.take 2) :
    ∃ s, sweeperFactory asInt threads t [] = .done (some s) := by
  simp only [documented, List.take_succ_cons, List.take_zero, List.mem_cons, List.not_mem_nil, or_false] at ht
  rcases ht with rfl | rfl
  · obtain ⟨r, e, hr⟩ := C105_sweeper asInt threads ⟨node [("type", "moc"), ("n_inner", "5")] (some 1), none, none⟩ []
    have := (hr (.moc ⟨asInt "5".toList, true, 1⟩)).2 (.moc rfl ((C105_moc_options _ _ _ _).2 ⟨rfl, ⟨ha _, _, rfl, rfl⟩, Or.inl ⟨rfl, rfl⟩⟩))
    exact ⟨_, by rw [e, this]⟩
  · obtain ⟨r, e, hr⟩ := C105_sweeper asInt threads ⟨node [("type", "sn"), ("equation", "dd"), ("axial", "dd"), ("n_inner", "15")] (some 2), none, none⟩ []
    have := (hr (.sn ⟨.dd, asInt "15".toList, decide (threads ≤ 1), 2⟩)).2 (.sn rfl (.dd (Or.inr rfl) (Or.inr rfl))
      ((C105_sn_options _ _ _ _ _ _).2 ⟨rfl, rfl, ⟨ha _, _, rfl, rfl⟩, true, Or.inl ⟨rfl, rfl⟩, by simp⟩))
    exact ⟨_, by rw [e, this]⟩

/-! ### The hypotheses can be met -/

/-- A 2D3D sweeper: quadrature of the `<solver>` for Sn and the tag, its own for MoC. -/
example : (match sweeperFactory (fun _ => 3) 4 ⟨node [("type", "2d3d"), ("cycle", "v")], some (node [("equation", " Cdd"), ("axial", "DD_ff "), ("n_inner", "3")]),
    some (node [("n_inner", "3"), ("boundary_update", "J")] (some 8))⟩ [node [] (some 9)] with | .done r => r | .deep => none) =
    some (.plane ⟨.cdd .ddFf, 3, false, 9⟩ ⟨3, false, 8⟩ 9 true) := by decide +kernel

example : validate (node [("type", "sn"), ("foo", "1"), ("bar", "2")]) ["type", "n_inner"] = (false, 2) := by decide +kernel

example : Like "\t Gauss-Seidel ".toList "gauss-seidel" := (C105_sanitize _ _ words.2.1).1 (by decide +kernel)

end Verif.Input.Factory
