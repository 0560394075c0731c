import Verif.Input.AmendModel
import Mathlib.Tactic.Common

/-!
# C51: command-line amendments change exactly the addressed value

A document is observed by places: a list of child indices leads to a node, of which everything but the children is
visible (`head`). An amendment changes one place, and there only the value of one attribute or the text.
-/

namespace Verif.Input

/-- What is visible of a node without looking at its children. -/
inductive Head where
  | text (s : Str)
  | elem (name : Str) (attrs : List (Str × Str)) (kids : Nat)

def head : Node → Head
  | .text s => .text s
  | .elem n as kids => .elem n as kids.length

def kidsOf : Node → List Node
  | .text _ => []
  | .elem _ _ kids => kids

/-- The node at a place. -/
def nodeAt : Node → List Nat → Option Node
  | n, [] => some n
  | n, i :: is =>
    match (kidsOf n)[i]? with
    | none => none
    | some c => nodeAt c is

/-- What is seen at a place of a document. -/
def seen (n : Node) (place : List Nat) : Option Head := (nodeAt n place).map head

/-- `i` is the number of the first element of a list satisfying `p`. -/
def IsFirst {α : Type} (p : α → Bool) (l : List α) (i : Nat) : Prop :=
  (∃ a, l[i]? = some a ∧ p a = true) ∧ ∀ j, j < i → ∀ a, l[j]? = some a → p a = false

/-- A place is reached by following the first child of each name. -/
def Follows : Node → List Str → List Nat → Prop
  | _, [], [] => True
  | n, s :: ss, i :: is =>
    IsFirst (Node.isNamed s) (kidsOf n) i ∧ ∀ c, (kidsOf n)[i]? = some c → Follows c ss is
  | _, _, _ => False

theorem isFirst_unique {α : Type} {p : α → Bool} {l : List α} {i j : Nat} (h : IsFirst p l i) (h' : IsFirst p l j) :
    i = j := by
  rcases Nat.lt_trichotomy i j with hl | hl | hl
  · obtain ⟨⟨a, h1, h2⟩, -⟩ := h
    have := h'.2 i hl a h1
    rw [h2] at this; simp at this
  · exact hl
  · obtain ⟨⟨a, h1, h2⟩, -⟩ := h'
    have := h.2 j hl a h1
    rw [h2] at this; simp at this

theorem isFirst_exists {α : Type} {p : α → Bool} {l : List α} (h : l.any p = true) : ∃ i, IsFirst p l i := by
  induction l with
  | nil => simp at h
  | cons a l ih =>
    by_cases ha : p a = true
    · exact ⟨0, ⟨a, by simp, ha⟩, by intro j hj; omega⟩
    · have hl : l.any p = true := by
        rw [List.any_cons] at h
        rw [Bool.eq_false_iff.mpr ha, Bool.false_or] at h
        exact h
      obtain ⟨i, ⟨b, h1, h2⟩, h3⟩ := ih hl
      refine ⟨i + 1, ⟨b, by simpa using h1, h2⟩, ?_⟩
      intro j hj b' hb'
      cases j with
      | zero => simp at hb'; subst hb'; exact Bool.eq_false_iff.mpr ha
      | succ j => exact h3 j (by omega) b' (by simpa using hb')

theorem isFirst_any {α : Type} {p : α → Bool} {l : List α} {i : Nat} (h : IsFirst p l i) : l.any p = true := by
  obtain ⟨⟨a, h1, h2⟩, -⟩ := h
  exact List.any_eq_true.mpr ⟨a, List.mem_of_getElem? h1, h2⟩

/-- `updFirst` changes the first matching element and nothing else. -/
theorem updFirst_some {α : Type} {p : α → Bool} {f : α → Option α} {l l' : List α} (h : updFirst p f l = some l') :
    ∃ i a b, IsFirst p l i ∧ l[i]? = some a ∧ f a = some b ∧ l' = l.set i b := by
  induction l generalizing l' with
  | nil => simp [updFirst] at h
  | cons x xs ih =>
    rw [updFirst] at h
    by_cases hx : p x = true
    · rw [if_pos hx] at h
      cases hf : f x with
      | none => rw [hf] at h; simp at h
      | some b =>
        rw [hf] at h
        simp only [Option.some.injEq] at h
        exact ⟨0, x, b, ⟨⟨x, by simp, hx⟩, by intro j hj; omega⟩, by simp, hf, by rw [← h]; rfl⟩
    · rw [if_neg hx] at h
      cases hu : updFirst p f xs with
      | none => rw [hu] at h; simp at h
      | some ys =>
        rw [hu] at h
        simp only [Option.some.injEq] at h
        obtain ⟨i, a, b, ⟨⟨a', q1, q2⟩, q3⟩, q4, q5, q6⟩ := ih hu
        refine ⟨i + 1, a, b, ⟨⟨a', by simpa using q1, q2⟩, ?_⟩, by simpa using q4, q5, ?_⟩
        · intro j hj c hc
          cases j with
          | zero => simp at hc; subst hc; exact Bool.eq_false_iff.mpr hx
          | succ j => exact q3 j (by omega) c (by simpa using hc)
        · rw [← h, q6]; rfl

theorem updFirst_none {α : Type} {p : α → Bool} {f : α → Option α} {l : List α} (h : updFirst p f l = none) :
    l.any p = false ∨ ∃ i a, IsFirst p l i ∧ l[i]? = some a ∧ f a = none := by
  induction l with
  | nil => left; rfl
  | cons x xs ih =>
    rw [updFirst] at h
    by_cases hx : p x = true
    · rw [if_pos hx] at h
      cases hf : f x with
      | none => right; exact ⟨0, x, ⟨⟨x, by simp, hx⟩, by intro j hj; omega⟩, by simp, hf⟩
      | some b => rw [hf] at h; simp at h
    · rw [if_neg hx] at h
      cases hu : updFirst p f xs with
      | some ys => rw [hu] at h; simp at h
      | none =>
        rcases ih hu with q | ⟨i, a, ⟨⟨a', q1, q2⟩, q3⟩, q4, q5⟩
        · left; rw [List.any_cons, q, Bool.eq_false_iff.mpr hx]; rfl
        · right
          refine ⟨i + 1, a, ⟨⟨a', by simpa using q1, q2⟩, ?_⟩, by simpa using q4, q5⟩
          intro j hj c hc
          cases j with
          | zero => simp at hc; subst hc; exact Bool.eq_false_iff.mpr hx
          | succ j => exact q3 j (by omega) c (by simpa using hc)

/-- Replacing one child changes what is seen only below it. -/
theorem seen_set (n : Str) (as : List (Str × Str)) (kids : List Node) (i : Nat) (b : Node) (hi : i < kids.length)
    (place : List Nat) :
    seen (.elem n as (kids.set i b)) place =
      match place with
      | [] => seen (.elem n as kids) []
      | j :: js => if j = i then seen b js else seen (.elem n as kids) (j :: js) := by
  cases place with
  | nil => simp [seen, nodeAt, head]
  | cons j js =>
    by_cases hj : j = i
    · subst hj
      simp only [seen, nodeAt, kidsOf]
      rw [List.getElem?_set_self hi]
      simp
    · simp only [seen, nodeAt, kidsOf]
      rw [List.getElem?_set_ne (fun h => hj h.symm), if_neg hj]

/-- The value of one attribute of an element has been changed: the first one of that name. -/
def AttrChanged (s value : Str) : Option Head → Option Head → Prop
  | some (.elem n as k), some (.elem n' as' k') =>
    n = n' ∧ k = k' ∧ ∃ i old, IsFirst (fun a : Str × Str => a.1 == s) as i ∧ as[i]? = some (s, old) ∧
      as' = as.set i (s, value)
  | _, _ => False

/-- The text has been changed. -/
def TextChanged (value : Str) : Option Head → Option Head → Prop
  | some (.text _), some (.text new) => new = value
  | _, _ => False

/-- What an amendment with path `names ++ [s]` may do: at exactly one place, reached by following the names, the
attribute `s` gets the new value; or the first text of the first child `s` of that place gets it. Everything else is as
before. -/
def Amended (n n' : Node) (names : List Str) (s value : Str) : Prop :=
  (∃ place, Follows n names place ∧ AttrChanged s value (seen n place) (seen n' place) ∧
    ∀ q, q ≠ place → seen n' q = seen n q) ∨
  (∃ place t c, Follows n (names ++ [s]) place ∧ nodeAt n place = some c ∧ IsFirst Node.isText (kidsOf c) t ∧
    TextChanged value (seen n (place ++ [t])) (seen n' (place ++ [t])) ∧
    ∀ q, q ≠ place ++ [t] → seen n' q = seen n q)

theorem setText_spec {value : Str} {n n' : Node} (h : setText value n = some n') :
    ∃ t, IsFirst Node.isText (kidsOf n) t ∧ TextChanged value (seen n [t]) (seen n' [t]) ∧
      ∀ q, q ≠ [t] → seen n' q = seen n q := by
  cases n with
  | text s => simp [setText] at h
  | elem nm as kids =>
    rw [setText] at h
    cases hu : updFirst Node.isText (fun _ => some (.text value)) kids with
    | none => rw [hu] at h; simp at h
    | some ks =>
      rw [hu] at h
      simp only [Option.some.injEq] at h
      obtain ⟨t, a, b, hf, ha, hb, rfl⟩ := updFirst_some hu
      simp only [Option.some.injEq] at hb
      subst hb; subst h
      have hlt : t < kids.length := by
        rcases Nat.lt_or_ge t kids.length with hc | hc
        · exact hc
        · rw [List.getElem?_eq_none hc] at ha; simp at ha
      have hta : ∃ old, a = .text old := by
        obtain ⟨⟨a', q1, q2⟩, -⟩ := hf
        rw [ha] at q1
        cases q1
        cases a with
        | text old => exact ⟨old, rfl⟩
        | elem _ _ _ => simp [Node.isText] at q2
      obtain ⟨old, rfl⟩ := hta
      refine ⟨t, hf, ?_, ?_⟩
      · rw [seen_set nm as kids t _ hlt]
        simp only [if_pos]
        have e : seen (.elem nm as kids) [t] = some (.text old) := by
          simp only [seen, nodeAt, kidsOf, ha]; rfl
        rw [e]
        rfl
      · intro q hq
        rw [seen_set nm as kids t _ hlt]
        cases q with
        | nil => rfl
        | cons j js =>
          simp only
          by_cases hj : j = t
          · subst hj
            rw [if_pos rfl]
            have hjs : js ≠ [] := fun e => hq (by rw [e])
            cases js with
            | nil => exact absurd rfl hjs
            | cons k ks =>
              simp only [seen, nodeAt, kidsOf, ha, List.getElem?_nil]
          · rw [if_neg hj]

theorem seen_child {n : Str} {as : List (Str × Str)} {kids : List Node} {i : Nat} {a : Node} (ha : kids[i]? = some a)
    (q : List Nat) : seen (.elem n as kids) (i :: q) = seen a q := by
  simp only [seen, nodeAt, kidsOf, ha]

theorem lt_of_getElem? {α : Type} {l : List α} {i : Nat} {a : α} (h : l[i]? = some a) : i < l.length := by
  rcases Nat.lt_or_ge i l.length with hc | hc
  · exact hc
  · rw [List.getElem?_eq_none hc] at h; simp at h

theorem setLast_spec {s value : Str} {n n' : Node} (h : setLast s value n = some n') : Amended n n' [] s value := by
  cases n with
  | text x => simp [setLast] at h
  | elem nm as kids =>
    simp only [setLast] at h
    split at h
    · simp at h
    · split at h
      · -- attribute
        cases hu : updFirst (fun a : Str × Str => a.1 == s) (fun a => some (a.1, value)) as with
        | none => rw [hu] at h; simp at h
        | some as' =>
          rw [hu] at h
          simp only [Option.some.injEq] at h
          obtain ⟨i, a, b, hf, ha, hb, rfl⟩ := updFirst_some hu
          simp only [Option.some.injEq] at hb
          subst h
          left
          refine ⟨[], trivial, ?_, ?_⟩
          · have has : a.1 = s := by
              obtain ⟨⟨a', q1, q2⟩, -⟩ := hf
              rw [ha] at q1; cases q1
              simpa using q2
            refine ⟨rfl, rfl, i, a.2, hf, ?_, ?_⟩
            · rw [ha, ← has]
            · rw [← hb, has]
          · intro q hq
            cases q with
            | nil => exact absurd rfl hq
            | cons j js => simp [seen, nodeAt, kidsOf]
      · -- child
        cases hu : updFirst (Node.isNamed s) (setText value) kids with
        | none => rw [hu] at h; simp at h
        | some ks =>
          rw [hu] at h
          simp only [Option.some.injEq] at h
          obtain ⟨i, a, b, hf, ha, hb, rfl⟩ := updFirst_some hu
          subst h
          have hlt := lt_of_getElem? ha
          obtain ⟨t, t1, t2, t3⟩ := setText_spec hb
          right
          refine ⟨[i], t, a, ⟨hf, fun c hc => trivial⟩, by simp [nodeAt, kidsOf, ha], t1, ?_, ?_⟩
          · simp only [List.cons_append, List.nil_append]
            rw [seen_set nm as kids i b hlt]
            simp only [if_pos]
            rw [seen_child ha]
            exact t2
          · intro q hq
            rw [seen_set nm as kids i b hlt]
            cases q with
            | nil => rfl
            | cons j js =>
              simp only
              by_cases hj : j = i
              · subst hj
                rw [if_pos rfl, seen_child ha]
                exact t3 js (fun e => hq (by simp [e]))
              · rw [if_neg hj]

/-- Passing an amendment of the first child named `s0` up to its parent. -/
theorem amended_lift {nm : Str} {as : List (Str × Str)} {kids : List Node} {i : Nat} {a b : Node} {s0 : Str}
    {names : List Str} {s value : Str} (hf : IsFirst (Node.isNamed s0) kids i) (ha : kids[i]? = some a)
    (h : Amended a b names s value) : Amended (.elem nm as kids) (.elem nm as (kids.set i b)) (s0 :: names) s value := by
  have hlt := lt_of_getElem? ha
  have hrest : ∀ place : List Nat, (∀ q, q ≠ place → seen b q = seen a q) →
      ∀ q, q ≠ i :: place → seen (.elem nm as (kids.set i b)) q = seen (.elem nm as kids) q := by
    intro place hp q hq
    rw [seen_set nm as kids i b hlt]
    cases q with
    | nil => rfl
    | cons j js =>
      simp only
      by_cases hj : j = i
      · subst hj
        rw [if_pos rfl, seen_child ha]
        exact hp js (fun e => hq (by rw [e]))
      · rw [if_neg hj]
  have hat : ∀ place, seen (.elem nm as (kids.set i b)) (i :: place) = seen b place := by
    intro place
    rw [seen_set nm as kids i b hlt]
    simp
  rcases h with ⟨place, h1, h2, h3⟩ | ⟨place, t, c, h1, h2, h3, h4, h5⟩
  · left
    refine ⟨i :: place, ⟨hf, ?_⟩, ?_, hrest place h3⟩
    · intro c hc; simp only [kidsOf, ha] at hc; cases hc; exact h1
    · rw [hat, seen_child ha]; exact h2
  · right
    refine ⟨i :: place, t, c, ⟨hf, ?_⟩, ?_, h3, ?_, ?_⟩
    · intro c' hc; simp only [kidsOf, ha] at hc; cases hc; exact h1
    · simp only [nodeAt, kidsOf, ha]; exact h2
    · rw [List.cons_append, hat, seen_child ha]; exact h4
    · rw [List.cons_append]; exact hrest (place ++ [t]) h5

/-- C51: when an amendment succeeds it changes exactly the addressed attribute or text. -/
theorem C51_exact (names : List Str) (s value : Str) (n n' : Node) (h : amend (names ++ [s]) value n = some n') :
    Amended n n' names s value := by
  induction names generalizing n n' with
  | nil => rw [List.nil_append, amend] at h; exact setLast_spec h
  | cons s0 names ih =>
    have hne : ∃ x xs, names ++ [s] = x :: xs := by
      cases names with
      | nil => exact ⟨s, [], rfl⟩
      | cons x xs => exact ⟨x, xs ++ [s], rfl⟩
    obtain ⟨x, xs, hx⟩ := hne
    rw [List.cons_append, hx] at h
    cases n with
    | text t => simp [amend] at h
    | elem nm as kids =>
      rw [amend] at h
      cases hu : updFirst (Node.isNamed s0) (amend (x :: xs) value) kids with
      | none => rw [hu] at h; simp at h
      | some ks =>
        rw [hu] at h
        simp only [Option.some.injEq] at h
        obtain ⟨i, a, b, hf, ha, hb, rfl⟩ := updFirst_some hu
        subst h
        rw [← hx] at hb
        exact amended_lift hf ha (ih a b hb)

/-- An amendment is applicable: following the first child of each name leads to an element that has an attribute `s` or
a child `s`, not both, and in the latter case that child has a text. -/
def Applicable (n : Node) (names : List Str) (s : Str) : Prop :=
  ∃ place nm as kids, Follows n names place ∧ nodeAt n place = some (.elem nm as kids) ∧
    (((as.any (fun a => a.1 == s)) = true ∧ kids.any (Node.isNamed s) = false) ∨
      ((as.any (fun a => a.1 == s)) = false ∧
        ∃ i c, IsFirst (Node.isNamed s) kids i ∧ kids[i]? = some c ∧ (kidsOf c).any Node.isText = true))

theorem updFirst_isSome {α : Type} {p : α → Bool} {f : α → Option α} {l : List α} {i : Nat} {a b : α}
    (h : IsFirst p l i) (ha : l[i]? = some a) (hb : f a = some b) : ∃ l', updFirst p f l = some l' := by
  cases hu : updFirst p f l with
  | some l' => exact ⟨l', rfl⟩
  | none =>
    rcases updFirst_none hu with q | ⟨j, a', q1, q2, q3⟩
    · rw [isFirst_any h] at q; simp at q
    · have := isFirst_unique h q1
      subst this
      rw [ha] at q2; cases q2
      rw [hb] at q3; simp at q3

theorem setText_isSome (value : Str) (c : Node) : (∃ c', setText value c = some c') ↔ (kidsOf c).any Node.isText = true := by
  cases c with
  | text s => simp [setText, kidsOf]
  | elem n as kids =>
    simp only [setText, kidsOf]
    constructor
    · rintro ⟨c', h⟩
      cases hu : updFirst Node.isText (fun _ => some (.text value)) kids with
      | none => rw [hu] at h; simp at h
      | some ks =>
        obtain ⟨i, a, b, hf, -⟩ := updFirst_some hu
        exact isFirst_any hf
    · intro h
      obtain ⟨i, hi⟩ := isFirst_exists h
      obtain ⟨⟨a, ha, -⟩, -⟩ := id hi
      obtain ⟨ks, hk⟩ := updFirst_isSome (f := fun _ => some (.text value)) hi ha rfl
      rw [hk]
      exact ⟨_, rfl⟩

/-- C51: an amendment succeeds exactly when it is applicable; otherwise it is an exception, before any change. -/
theorem C51_applicable (names : List Str) (s value : Str) (n : Node) :
    (∃ n', amend (names ++ [s]) value n = some n') ↔ Applicable n names s := by
  induction names generalizing n with
  | nil =>
    rw [List.nil_append]
    cases n with
    | text x =>
      constructor
      · rintro ⟨n', h⟩; simp [amend, setLast] at h
      · rintro ⟨place, nm, as, kids, h1, h2, -⟩
        cases place with
        | nil => simp [nodeAt] at h2
        | cons i is => exact h1.elim
    | elem nm as kids =>
      simp only [amend, setLast]
      constructor
      · rintro ⟨n', h⟩
        refine ⟨[], nm, as, kids, trivial, rfl, ?_⟩
        split at h
        · simp at h
        · rename_i hx
          split at h
          · rename_i ha
            left
            refine ⟨ha, ?_⟩
            rw [ha] at hx
            simpa using hx
          · rename_i ha
            right
            refine ⟨Bool.eq_false_iff.mpr ha, ?_⟩
            cases hu : updFirst (Node.isNamed s) (setText value) kids with
            | none => rw [hu] at h; simp at h
            | some ks =>
              obtain ⟨i, a, b, hf, hga, hb, -⟩ := updFirst_some hu
              exact ⟨i, a, hf, hga, (setText_isSome value a).mp ⟨b, hb⟩⟩
      · rintro ⟨place, nm', as', kids', h1, h2, h3⟩
        cases place with
        | cons i is => exact h1.elim
        | nil =>
          simp only [nodeAt, Option.some.injEq, Node.elem.injEq] at h2
          obtain ⟨rfl, rfl, rfl⟩ := h2
          rcases h3 with ⟨q1, q2⟩ | ⟨q1, i, c, q2, q3, q4⟩
          · rw [q1, q2]
            obtain ⟨i, hi⟩ := isFirst_exists q1
            obtain ⟨⟨a, ha, -⟩, -⟩ := id hi
            obtain ⟨as', h⟩ := updFirst_isSome (f := fun a : Str × Str => some (a.1, value)) hi ha rfl
            simp [h]
          · obtain ⟨c', hc'⟩ := (setText_isSome value c).mpr q4
            obtain ⟨ks, hk⟩ := updFirst_isSome q2 q3 hc'
            rw [q1, isFirst_any q2, hk]
            simp
  | cons s0 names ih =>
    have hne : ∃ x xs, names ++ [s] = x :: xs := by
      cases names with
      | nil => exact ⟨s, [], rfl⟩
      | cons x xs => exact ⟨x, xs ++ [s], rfl⟩
    obtain ⟨x, xs, hx⟩ := hne
    rw [List.cons_append, hx]
    rw [hx] at ih
    cases n with
    | text t =>
      constructor
      · rintro ⟨n', h⟩; simp [amend] at h
      · rintro ⟨place, nm, as, kids, h1, h2, -⟩
        cases place with
        | nil => exact h1.elim
        | cons i is =>
          obtain ⟨⟨⟨a, q1, -⟩, -⟩, -⟩ := h1
          simp [kidsOf] at q1
    | elem nm as kids =>
      rw [amend]
      constructor
      · rintro ⟨n', h⟩
        cases hu : updFirst (Node.isNamed s0) (amend (x :: xs) value) kids with
        | none => rw [hu] at h; simp at h
        | some ks =>
          obtain ⟨i, a, b, hf, hga, hb, -⟩ := updFirst_some hu
          obtain ⟨place, nm', as', kids', h1, h2, h3⟩ := (ih a).mp ⟨b, hb⟩
          refine ⟨i :: place, nm', as', kids', ⟨hf, ?_⟩, ?_, h3⟩
          · intro c hc; simp only [kidsOf, hga] at hc; cases hc; exact h1
          · simp only [nodeAt, kidsOf, hga]; exact h2
      · rintro ⟨place, nm', as', kids', h1, h2, h3⟩
        cases place with
        | nil => exact h1.elim
        | cons i is =>
          obtain ⟨hf, hrest⟩ := h1
          obtain ⟨⟨a, ha, -⟩, -⟩ := id hf
          simp only [kidsOf] at ha hrest
          have h2' : nodeAt a is = some (.elem nm' as' kids') := by
            simp only [nodeAt, kidsOf, ha] at h2; exact h2
          obtain ⟨b, hb⟩ := (ih a).mpr ⟨is, nm', as', kids', hrest a ha, h2', h3⟩
          obtain ⟨ks, hk⟩ := updFirst_isSome (l := kids) hf ha hb
          rw [hk]
          exact ⟨_, rfl⟩

theorem cut_some {c : Char} {s a b : Str} (h : cut c s = some (a, b)) : s = a ++ c :: b ∧ c ∉ a := by
  induction s generalizing a b with
  | nil => simp [cut] at h
  | cons x xs ih =>
    rw [cut] at h
    by_cases hx : x = c
    · rw [if_pos hx] at h; cases h; subst hx; simp
    · rw [if_neg hx] at h
      cases hc : cut c xs with
      | none => rw [hc] at h; simp at h
      | some p =>
        obtain ⟨a', b'⟩ := p
        rw [hc] at h
        simp only [Option.some.injEq, Prod.mk.injEq] at h
        obtain ⟨rfl, rfl⟩ := h
        obtain ⟨h1, h2⟩ := ih hc
        refine ⟨by rw [h1]; rfl, ?_⟩
        intro hm
        rcases List.mem_cons.mp hm with h | h
        · exact hx h.symm
        · exact h2 h

theorem cut_none {c : Char} {s : Str} (h : cut c s = none) : c ∉ s := by
  induction s with
  | nil => simp
  | cons x xs ih =>
    rw [cut] at h
    by_cases hx : x = c
    · rw [if_pos hx] at h; simp at h
    · rw [if_neg hx] at h
      cases hc : cut c xs with
      | some p => rw [hc] at h; simp at h
      | none =>
        intro hm
        rcases List.mem_cons.mp hm with h' | h'
        · exact hx h'.symm
        · exact ih hc h'

theorem cut_append {c : Char} (a b : Str) (h : c ∉ a) : cut c (a ++ c :: b) = some (a, b) := by
  induction a with
  | nil => simp [cut]
  | cons x xs ih =>
    have hx : x ≠ c := fun e => h (by simp [e])
    rw [List.cons_append, cut, if_neg hx, ih (fun hm => h (by simp [hm]))]

/-- Join components with slashes. -/
def join : List Str → Str
  | [] => []
  | [s] => s
  | s :: s' :: ss => s ++ '/' :: join (s' :: ss)

/-- C51: the components of a path contain no slash, and joined by slashes give the path back. -/
theorem C51_components (path : Str) : components path ≠ [] ∧ join (components path) = path ∧
    ∀ s ∈ components path, '/' ∉ s := by
  induction h : path.length using Nat.strongRecOn generalizing path with
  | _ n ih =>
    rw [components]
    split
    · rename_i hc
      exact ⟨by simp, rfl, by intro s hs; simp at hs; subst hs; exact cut_none hc⟩
    · rename_i a b hc
      obtain ⟨h1, h2⟩ := cut_some hc
      obtain ⟨q1, q2, q3⟩ := ih b.length (by rw [← h]; exact cut_length hc) b rfl
      refine ⟨by simp, ?_, ?_⟩
      · cases hcb : components b with
        | nil => exact absurd hcb q1
        | cons x xs =>
          rw [hcb] at q2
          rw [join, q2, ← h1]
      · intro s hs
        rcases List.mem_cons.mp hs with e | e
        · subst e; exact h2
        · exact q3 s e

/-- C51: every list of names without slashes is the list of components of some argument: the path is read back. -/
theorem C51_components_join (names : List Str) (hne : names ≠ []) (h : ∀ s ∈ names, '/' ∉ s) :
    components (join names) = names := by
  induction names with
  | nil => exact absurd rfl hne
  | cons s ss ih =>
    cases ss with
    | nil =>
      rw [join, components]
      split
      · rfl
      · rename_i a b hc
        obtain ⟨h1, -⟩ := cut_some hc
        exact absurd (show '/' ∈ s by rw [h1]; simp) (h s (by simp))
    | cons s' ss =>
      rw [join, components]
      have hc := cut_append s (join (s' :: ss)) (h s (by simp))
      split
      · rename_i hc'; rw [hc] at hc'; simp at hc'
      · rename_i a b hc'
        rw [hc] at hc'
        simp only [Option.some.injEq, Prod.mk.injEq] at hc'
        rw [← hc'.1, ← hc'.2, ih (by simp) (fun x hx => h x (by simp [hx]))]

/-- C51: an argument is accepted exactly when it has one equals sign; path and value are the parts around it. -/
theorem C51_argument (arg path value : Str) :
    splitArg arg = some (path, value) ↔ arg = path ++ '=' :: value ∧ '=' ∉ path ∧ '=' ∉ value := by
  unfold splitArg
  constructor
  · intro h
    cases hc : cut '=' arg with
    | none => rw [hc] at h; simp at h
    | some p =>
      obtain ⟨a, b⟩ := p
      rw [hc] at h
      simp only at h
      split at h
      · simp at h
      · rename_i hn
        simp only [Option.some.injEq, Prod.mk.injEq] at h
        obtain ⟨rfl, rfl⟩ := h
        obtain ⟨h1, h2⟩ := cut_some hc
        exact ⟨h1, h2, hn⟩
  · rintro ⟨rfl, h1, h2⟩
    rw [cut_append path value h1]
    simp [h2]

/-- C51, the whole argument: `a/b/c=value` changes exactly the addressed value. -/
theorem C51_arg_exact (names : List Str) (s value : Str) (h : ∀ x ∈ names ++ [s], '/' ∉ x ∧ '=' ∉ x)
    (hv : '=' ∉ value) (n n' : Node) (hn : applyArg (join (names ++ [s]) ++ '=' :: value) n = some n') :
    Amended n n' names s value := by
  have hjoin : ∀ l : List Str, (∀ x ∈ l, '=' ∉ x) → '=' ∉ join l := by
    intro l
    induction l with
    | nil => intro _; simp [join]
    | cons x xs ih =>
      intro hl
      cases xs with
      | nil => rw [join]; exact hl x (by simp)
      | cons y ys =>
        rw [join]
        have h1 := hl x (by simp)
        have h2 := ih (fun z hz => hl z (by simp [hz]))
        simp only [List.mem_append, List.mem_cons, not_or]
        exact ⟨h1, by decide, h2⟩
  have hs := (C51_argument _ (join (names ++ [s])) value).mpr ⟨rfl, hjoin _ (fun x hx => (h x hx).2), hv⟩
  unfold applyArg at hn
  rw [hs] at hn
  simp only at hn
  rw [C51_components_join _ (by simp) (fun x hx => (h x hx).1)] at hn
  exact C51_exact names s value n n' hn

/-- C51: several arguments are applied in turn, each to the document left by those before it, and all must be applicable. -/
theorem C51_in_turn (args : List Str) (doc doc' : Node) : applyArgs args doc = some doc' ↔
    ∃ d : Nat → Node, d 0 = doc ∧ d args.length = doc' ∧ ∀ i a, args[i]? = some a → applyArg a (d i) = some (d (i + 1)) := by
  induction args generalizing doc with
  | nil =>
    constructor
    · intro h
      simp only [applyArgs, Option.some.injEq] at h
      exact ⟨fun _ => doc, rfl, h, fun i a h => by simp at h⟩
    · rintro ⟨d, h0, h1, _⟩
      simp only [List.length_nil] at h1
      rw [applyArgs, ← h0, h1]
  | cons a as ih =>
    constructor
    · intro h
      rw [applyArgs] at h
      cases ha : applyArg a doc with
      | none => simp [ha] at h
      | some mid =>
        simp only [ha] at h
        obtain ⟨d, h0, h1, h2⟩ := (ih mid).mp h
        refine ⟨fun i => if i = 0 then doc else d (i - 1), rfl, by simpa using h1, ?_⟩
        intro i b hb
        cases i with
        | zero =>
          simp only [List.getElem?_cons_zero, Option.some.injEq] at hb
          subst hb
          simpa [h0] using ha
        | succ i =>
          simp only [List.getElem?_cons_succ] at hb
          simpa using h2 i b hb
    · rintro ⟨d, h0, h1, h2⟩
      have ha := h2 0 a rfl
      rw [h0] at ha
      rw [applyArgs, ha]
      simp only []
      refine (ih (d 1)).mpr ⟨fun i => d (i + 1), rfl, h1, ?_⟩
      intro i b hb
      exact h2 (i + 1) b (by simpa using hb)

/-- Two amendments of the same value: the last one wins. -/
theorem C51_last_wins (names : List Str) (s v w : Str) (n n' n'' m : Node) (h1 : amend (names ++ [s]) v n = some n')
    (h2 : amend (names ++ [s]) w n' = some n'') (h3 : amend (names ++ [s]) w n = some m) : n'' = m := by
  have upd2 : ∀ {α : Type} (p : α → Bool) (f g : α → Option α) (l l1 l2 l3 : List α),
      (∀ a b, p a = true → f a = some b → p b = true) →
      (∀ a b c d, f a = some b → g b = some c → g a = some d → c = d) →
      updFirst p f l = some l1 → updFirst p g l1 = some l2 → updFirst p g l = some l3 → l2 = l3 := by
    intro α p f g l
    induction l with
    | nil => intro l1 l2 l3 _ _ e1; simp [updFirst] at e1
    | cons x xs ih =>
      intro l1 l2 l3 hp hc e1 e2 e3
      rw [updFirst] at e1 e3
      by_cases hx : p x = true
      · rw [if_pos hx] at e1 e3
        cases hf : f x with
        | none => rw [hf] at e1; simp at e1
        | some b =>
          cases hg : g x with
          | none => rw [hg] at e3; simp at e3
          | some d =>
            rw [hf] at e1; rw [hg] at e3
            cases e1; cases e3
            rw [updFirst, if_pos (hp x b hx hf)] at e2
            cases hgb : g b with
            | none => rw [hgb] at e2; simp at e2
            | some c =>
              rw [hgb] at e2; cases e2
              rw [hc x b c d hf hgb hg]
      · rw [if_neg hx] at e1 e3
        cases hu : updFirst p f xs with
        | none => rw [hu] at e1; simp at e1
        | some ys =>
          cases hv : updFirst p g xs with
          | none => rw [hv] at e3; simp at e3
          | some zs =>
            rw [hu] at e1; rw [hv] at e3
            cases e1; cases e3
            rw [updFirst, if_neg hx] at e2
            cases hw : updFirst p g ys with
            | none => rw [hw] at e2; simp at e2
            | some ws =>
              rw [hw] at e2; cases e2
              rw [ih ys ws zs hp hc hu hw hv]
  have htext : ∀ a b c d : Node, setText v a = some b → setText w b = some c → setText w a = some d → c = d := by
    intro a b c d q1 q2 q3
    cases a with
    | text s => simp [setText] at q1
    | elem nm as kids =>
      simp only [setText] at q1 q3
      cases hu : updFirst Node.isText (fun _ => some (.text v)) kids with
      | none => rw [hu] at q1; simp at q1
      | some k1 =>
        cases hv : updFirst Node.isText (fun _ => some (.text w)) kids with
        | none => rw [hv] at q3; simp at q3
        | some k3 =>
          rw [hu] at q1; rw [hv] at q3
          cases q1; cases q3
          simp only [setText] at q2
          cases hw : updFirst Node.isText (fun _ => some (.text w)) k1 with
          | none => rw [hw] at q2; simp at q2
          | some k2 =>
            rw [hw] at q2; cases q2
            rw [upd2 Node.isText _ _ kids k1 k2 k3 (by intro a b _ e; cases e; rfl)
              (by intro a b c d e1 e2 e3; cases e2; cases e3; rfl) hu hw hv]
  have hname : ∀ (s : Str) (a b : Node) (f : Node → Option Node),
      (∀ n as k b, f (.elem n as k) = some b → b.isNamed s = (Node.elem n as k).isNamed s) →
      a.isNamed s = true → f a = some b → b.isNamed s = true := by
    intro s a b f hf ha e
    cases a with
    | text _ => simp [Node.isNamed] at ha
    | elem n as k => rw [hf n as k b e]; exact ha
  have hsetname : ∀ (s : Str) n as k b, setText v (.elem n as k) = some b → b.isNamed s = (Node.elem n as k).isNamed s := by
    intro s n as k b e
    simp only [setText] at e
    split at e
    · simp at e
    · cases e; rfl
  have anyUpd : ∀ {α : Type} (p q : α → Bool) (f : α → Option α) (l l' : List α),
      (∀ a b, f a = some b → q b = q a) → updFirst p f l = some l' → l'.any q = l.any q := by
    intro α p q f l
    induction l with
    | nil => intro l' _ e; simp [updFirst] at e
    | cons x xs ih =>
      intro l' hq e
      rw [updFirst] at e
      by_cases hx : p x = true
      · rw [if_pos hx] at e
        cases hf : f x with
        | none => rw [hf] at e; simp at e
        | some b => rw [hf] at e; cases e; rw [List.any_cons, List.any_cons, hq x b hf]
      · rw [if_neg hx] at e
        cases hu : updFirst p f xs with
        | none => rw [hu] at e; simp at e
        | some ys => rw [hu] at e; cases e; rw [List.any_cons, List.any_cons, ih ys hq hu]
  have hsetname' : ∀ (s : Str) (a b : Node), setText v a = some b → b.isNamed s = a.isNamed s := by
    intro s a b e
    cases a with
    | text _ => simp [setText] at e
    | elem n as k => exact hsetname s n as k b e
  have hlast : ∀ a b c d : Node, setLast s v a = some b → setLast s w b = some c → setLast s w a = some d → c = d := by
    intro a b c d q1 q2 q3
    cases a with
    | text x => simp [setLast] at q1
    | elem nm as kids =>
      simp only [setLast] at q1 q3
      split at q1
      · simp at q1
      · rename_i hxor
        rw [if_neg hxor] at q3
        split at q1
        · rename_i hattr
          rw [if_pos hattr] at q3
          cases hu : updFirst (fun a : Str × Str => a.1 == s) (fun a => some (a.1, v)) as with
          | none => rw [hu] at q1; simp at q1
          | some a1 =>
            cases hv : updFirst (fun a : Str × Str => a.1 == s) (fun a => some (a.1, w)) as with
            | none => rw [hv] at q3; simp at q3
            | some a3 =>
              rw [hu] at q1; rw [hv] at q3
              cases q1; cases q3
              have ea := anyUpd _ (fun a : Str × Str => a.1 == s) _ _ _ (by intro a b e; cases e; rfl) hu
              simp only [setLast, ea] at q2
              rw [if_neg hxor, if_pos hattr] at q2
              cases hw : updFirst (fun a : Str × Str => a.1 == s) (fun a => some (a.1, w)) a1 with
              | none => rw [hw] at q2; simp at q2
              | some a2 =>
                rw [hw] at q2; cases q2
                rw [upd2 _ _ _ as a1 a2 a3 (by intro a b h e; cases e; exact h)
                  (by intro a b c d e1 e2 e3; cases e1; cases e2; cases e3; rfl) hu hw hv]
        · rename_i hattr
          rw [if_neg hattr] at q3
          cases hu : updFirst (Node.isNamed s) (setText v) kids with
          | none => rw [hu] at q1; simp at q1
          | some k1 =>
            cases hv : updFirst (Node.isNamed s) (setText w) kids with
            | none => rw [hv] at q3; simp at q3
            | some k3 =>
              rw [hu] at q1; rw [hv] at q3
              cases q1; cases q3
              have ea := anyUpd _ (Node.isNamed s) _ _ _ (hsetname' s) hu
              simp only [setLast, ea] at q2
              rw [if_neg hxor, if_neg hattr] at q2
              cases hw : updFirst (Node.isNamed s) (setText w) k1 with
              | none => rw [hw] at q2; simp at q2
              | some k2 =>
                rw [hw] at q2; cases q2
                rw [upd2 _ _ _ kids k1 k2 k3 (fun a b h e => by rw [hsetname' s a b e]; exact h) htext hu hw hv]
  have hamendname : ∀ (l : List Str) (a b : Node), amend l v a = some b → ∀ x, b.isNamed x = a.isNamed x := by
    intro l a b e x
    match l, a, e with
    | [], a, e => simp only [amend, Option.some.injEq] at e; rw [e]
    | [s'], .text _, e => simp [amend, setLast] at e
    | [s'], .elem n as k, e =>
      simp only [amend, setLast] at e
      split at e
      · simp at e
      · split at e
        · split at e
          · simp at e
          · cases e; rfl
        · split at e
          · simp at e
          · cases e; rfl
    | s' :: s'' :: rest, .text _, e => simp [amend] at e
    | s' :: s'' :: rest, .elem n as k, e =>
      simp only [amend] at e
      split at e
      · simp at e
      · cases e; rfl
  induction names generalizing n n' n'' m with
  | nil => exact hlast n n' n'' m h1 h2 h3
  | cons s0 names ih =>
    have hne : ∃ x xs, names ++ [s] = x :: xs := by
      cases names with
      | nil => exact ⟨s, [], rfl⟩
      | cons x xs => exact ⟨x, xs ++ [s], rfl⟩
    obtain ⟨x, xs, hx⟩ := hne
    rw [List.cons_append, hx] at h1 h2 h3
    rw [hx] at ih
    cases n with
    | text t => simp [amend] at h1
    | elem nm as kids =>
      rw [amend] at h1 h3
      cases hu : updFirst (Node.isNamed s0) (amend (x :: xs) v) kids with
      | none => rw [hu] at h1; simp at h1
      | some k1 =>
        cases hv : updFirst (Node.isNamed s0) (amend (x :: xs) w) kids with
        | none => rw [hv] at h3; simp at h3
        | some k3 =>
          rw [hu] at h1; rw [hv] at h3
          cases h1; cases h3
          rw [amend] at h2
          cases hw : updFirst (Node.isNamed s0) (amend (x :: xs) w) k1 with
          | none => rw [hw] at h2; simp at h2
          | some k2 =>
            rw [hw] at h2; cases h2
            rw [upd2 _ _ _ kids k1 k2 k3 (fun a b h e => by rw [hamendname _ a b e]; exact h) (fun a b c d => ih a b c d) hu hw hv]

/-- Instance: the second of two attributes and the text of a child. -/
def sample : Node := .elem [] [] [.elem ['s'] [("a".toList, "1".toList), ("b".toList, "2".toList)]
  [.elem ['t'] [] [.text "old".toList, .text "more".toList], .elem ['t'] [] [.text "other".toList]]]

theorem sample_arg (names : List Str) (value : Str) (hne : names ≠ []) (h : ∀ x ∈ names, '/' ∉ x)
    (h' : '=' ∉ join names) (hv : '=' ∉ value) (n : Node) :
    applyArg (join names ++ '=' :: value) n = amend names value n := by
  unfold applyArg
  rw [(C51_argument _ (join names) value).mpr ⟨rfl, h', hv⟩]
  simp only
  rw [C51_components_join names hne h]

/-- `s/b=9` -/
example : ∃ n', applyArg ['s', '/', 'b', '=', '9'] sample = some n' ∧
    seen n' [0] = some (.elem ['s'] [("a".toList, "1".toList), ("b".toList, ['9'])] 2) := by
  rw [show ['s', '/', 'b', '=', '9'] = join [['s'], ['b']] ++ '=' :: ['9'] from rfl,
    sample_arg _ _ (by simp) (by decide) (by decide) (by decide)]
  exact ⟨_, rfl, rfl⟩

example : ∃ n', amend [['s'], ['t']] ['n'] sample = some n' ∧ seen n' [0, 0, 0] = some (.text ['n']) ∧
    seen n' [0, 0, 1] = some (.text "more".toList) ∧ seen n' [0, 1, 0] = some (.text "other".toList) :=
  ⟨_, rfl, rfl, rfl, rfl⟩
example : amend [['s'], ['c']] ['1'] sample = none := rfl
example : amend [['s']] ['1'] sample = none := rfl
example : splitArg "s/a=1=2".toList = none := rfl
example : Applicable sample [['s']] ['b'] := (C51_applicable [['s']] ['b'] ['9'] sample).mp ⟨_, rfl⟩

end Verif.Input
