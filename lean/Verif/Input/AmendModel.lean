/-!
# Command-line amendments

src/input_proc.cpp 127-145 (splitting the argument of `-a`) and 218-272, `apply_amendment`.

Of the XML library pugixml the following is assumed: `child(s)` is the first element child named `s`, `attribute(s)` the
first attribute named `s`, `text()` the first text child, and assigning a value to an attribute or a text replaces it in
place. Comments and processing instructions are not modelled.
-/

namespace Verif.Input

/-- Strings as lists of characters. -/
abbrev Str := List Char

/-- An XML tree. The document is an element without attributes. -/
inductive Node where
  | text (s : Str)
  | elem (name : Str) (attrs : List (Str × Str)) (kids : List Node)
deriving Repr

/-- The element is named `s`. Text has no name. -/
def Node.isNamed (s : Str) : Node → Bool
  | .text _ => false
  | .elem n _ _ => n == s

def Node.isText : Node → Bool
  | .text _ => true
  | .elem _ _ _ => false

/-- Apply `f` to the first element of a list satisfying `p`; `none` if there is none or `f` fails on it. -/
def updFirst {α : Type} (p : α → Bool) (f : α → Option α) : List α → Option (List α)
  | [] => none
  | a :: as =>
    if p a then
      match f a with
      | none => none
      | some b => some (b :: as)
    else
      match updFirst p f as with
      | none => none
      | some bs => some (a :: bs)

/-- input_proc.cpp:262-266: set the first text of an element; without a text an exception is thrown. -/
def setText (value : Str) : Node → Option Node
  | .text _ => none
  | .elem n as kids =>
    match updFirst Node.isText (fun _ => some (.text value)) kids with
    | none => none
    | some ks => some (.elem n as ks)

/-- The last component of the path, input_proc.cpp:244-267: there must be an attribute or a child of that name, but not
both. -/
def setLast (s value : Str) : Node → Option Node
  | .text _ => none
  | .elem n as kids =>
    let hasAttribute := as.any (fun a => a.1 == s)
    let hasChild := kids.any (Node.isNamed s)
    if !(hasAttribute ^^ hasChild) then none
    else if hasAttribute then
      match updFirst (fun a => a.1 == s) (fun a => some (a.1, value)) as with
      | none => none
      | some as' => some (.elem n as' kids)
    else
      match updFirst (Node.isNamed s) (setText value) kids with
      | none => none
      | some ks => some (.elem n as ks)

/-- `apply_amendment` on the components of the path, input_proc.cpp:235-269: descend through the first child of each
name. The code follows a handle and changes the tree in place; here the changed tree is rebuilt on the way back. An
exception is `none`; nothing has been changed when it is thrown. -/
def amend : List Str → Str → Node → Option Node
  | [], _, n => some n
  | [s], value, n => setLast s value n
  | s :: s' :: rest, value, .elem n as kids =>
    match updFirst (Node.isNamed s) (amend (s' :: rest) value) kids with
    | none => none
    | some ks => some (.elem n as ks)
  | _ :: _ :: _, _, .text _ => none

/-- `std::string::find(c)`: the part before the first `c` and the part behind it; `none` if there is no `c`. -/
def cut (c : Char) : Str → Option (Str × Str)
  | [] => none
  | x :: xs =>
    if x = c then some ([], xs)
    else
      match cut c xs with
      | none => none
      | some (a, b) => some (x :: a, b)

theorem cut_length {c : Char} {s a b : Str} (h : cut c s = some (a, b)) : b.length < s.length := by
  induction s generalizing a b with
  | nil => simp [cut] at h
  | cons x xs ih =>
    rw [cut] at h
    by_cases hx : x = c
    · rw [if_pos hx] at h; cases h; simp
    · rw [if_neg hx] at h
      cases hc : cut c xs with
      | none => rw [hc] at h; simp at h
      | some p =>
        obtain ⟨a', b'⟩ := p
        rw [hc] at h
        simp only [Option.some.injEq, Prod.mk.injEq] at h
        have := ih hc
        rw [← h.2]; simp; omega

/-- Breaking the path into its components, input_proc.cpp:223-233. -/
def components (path : Str) : List Str :=
  match h : cut '/' path with
  | none => [path]
  | some (a, b) => a :: components b
termination_by path.length
decreasing_by exact cut_length h

/-- One argument of `-a`, input_proc.cpp:129-144: exactly one equals sign; path before it, value behind it. -/
def splitArg (arg : Str) : Option (Str × Str) :=
  match cut '=' arg with
  | none => none
  | some (path, value) => if '=' ∈ value then none else some (path, value)

/-- input_proc.cpp:128-145 for one argument. -/
def applyArg (arg : Str) (doc : Node) : Option Node :=
  match splitArg arg with
  | none => none
  | some (path, value) => amend (components path) value doc

/-- input_proc.cpp:128-145: all arguments in turn. -/
def applyArgs : List Str → Node → Option Node
  | [], doc => some doc
  | a :: as, doc =>
    match applyArg a doc with
    | none => none
    | some doc' => applyArgs as doc'

end Verif.Input
