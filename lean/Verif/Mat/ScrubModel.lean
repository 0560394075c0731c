import Verif.Mat.LibModel

/-!
# The material library read through a `FileScrubber`

Model of the second constructor of `MaterialLib` (src/core/material_lib.cpp:151-238), which takes the file already opened and reads its numbers
with `operator>>` one at a time, and of `explode_string<double>` (src/util/string_utils.cpp:61-91), by which the first reads them.  How a number is
read at the place where it begins is a parameter, the same for both.
-/

namespace Verif.Mat

open Verif.Scatter Verif.Strings

variable {K : Type} [Field K] [LinearOrder K]

/-- The result of a call: a value, an exception, or undefined behaviour from the use of a number that was never given a value. -/
inductive Res (α : Type) where
  | ok (a : α)
  | throws
  | ub
  deriving DecidableEq

/-- What comes after a value. -/
def Res.bind {α β : Type} (r : Res α) (f : α → Res β) : Res β :=
  match r with
  | .ok a => f a
  | .throws => .throws
  | .ub => .ub

/-- `std::num_get` for `double`, at text that does not begin with white space: the value it stores (zero or the largest number on failure) and the
text left, `none` if it fails.  On success it uses a character at least. -/
structure NumGet (K : Type) where
  get : List Char → K × Option (List Char)
  shrinks : ∀ s v r, get s = (v, some r) → r.length < s.length

/-- A variable of type `double`: `none` before it is given a value. -/
abbrev Cell (K : Type) := Option K

/-- A string stream: the text left, `none` once `fail()` holds. -/
abbrev Stream := Option (List Char)

/-- `inBuf >> val`: a stream that has failed, or with nothing but white space left, leaves the variable as it is. -/
def extract (t : NumGet K) (c : Cell K) (s : Stream) : Cell K × Stream :=
  match s with
  | none => (c, none)
  | some cs =>
    let r := cs.dropWhile isSpace
    if r.isEmpty then (c, none) else (some (t.get r).1, (t.get r).2)

/-- string_utils.cpp:72-81: read to the end of the stream, at most `fuel` values; `none` is the exception.  After a value `eof()` holds if no text
is left. -/
def explodeLoop (t : NumGet K) : Nat → List Char → Option (List K)
  | 0, _ => none
  | fuel + 1, s =>
    match extract t none (some s) with
    | (some v, some r) => if r.isEmpty then some [v] else (explodeLoop t fuel r).map (v :: ·)
    | _ => none

/-- string_utils.cpp:61-91 `explode_string<double>`.  Simplification: the change to lower case is dropped, numbers read the same. -/
def explode (t : NumGet K) (line : List Char) : Option (List K) :=
  let s := trim line
  if s.isEmpty then some [] else explodeLoop t s.length s

/-- material_lib.cpp:86-93 and 172-179: the bounds of the groups, a new variable for each; used before the stream is asked whether it failed. -/
def boundsFrom (t : NumGet K) : Nat → Stream → Res (List K)
  | 0, _ => .ok []
  | n + 1, s =>
    match extract t none s with
    | (none, _) => .ub
    | (some _, none) => .throws
    | (some v, some r) => (boundsFrom t n (some r)).bind fun l => .ok (v :: l)

/-- material_lib.cpp:201-210: values of a row pushed one after another, all through one variable. -/
def pushAll (t : NumGet K) : Nat → Cell K → Stream → Res (List K × Stream)
  | 0, _, s => .ok ([], s)
  | n + 1, c, s =>
    match extract t c s with
    | (none, _) => .ub
    | (some v, s') => (pushAll t n (some v) s').bind fun l => .ok (v :: l.1, l.2)

/-- material_lib.cpp:197-214: a row of four cross sections; the stream is asked once, at the end. -/
def fourOf (t : NumGet K) (line : List Char) : Res (List K) :=
  (pushAll t 4 none (some line)).bind fun r =>
    match r.2 with
    | none => .throws
    | some _ => .ok r.1

/-- material_lib.cpp:219-225: a row of the scattering table, a new variable for each value; the stream is not asked. -/
def scatFrom (t : NumGet K) : Nat → Stream → Res (List K)
  | 0, _ => .ok []
  | n + 1, s =>
    match extract t none s with
    | (none, _) => .ub
    | (some v, s') => (scatFrom t n s').bind fun l => .ok (v :: l)

/-- material_lib.cpp:197-225: `n` rows read by `row`. -/
def rowsBy (row : List Char → Res (List K)) : Nat → List (List Char) → Res (List (List K) × List (List Char))
  | 0, ls => .ok ([], ls)
  | n + 1, ls =>
    let g := getline ls
    (row g.1).bind fun r => (rowsBy row n g.2).bind fun rs => .ok (r :: rs.1, rs.2)

/-- material_lib.cpp:182-230: one material. -/
def scrubOne (t : NumGet K) (ng : Nat) (ls : List (List Char)) : Res ((List Char × Material K) × List (List Char)) :=
  let g := getline ls
  let name := headName g.1
  (rowsBy (fourOf t) ng g.2).bind fun a =>
    (rowsBy (fun l => scatFrom t ng (some l)) ng a.2).bind fun b =>
      match mkMaterial (column a.1 0) (column a.1 1) (column a.1 2) (column a.1 3) b.1 with
      | none => .throws
      | some m => .ok ((name, m), b.2)

/-- material_lib.cpp:182-238: `n` materials. -/
def scrubMats (t : NumGet K) : Nat → List (List Char) → Lib K → Res (Lib K)
  | 0, _, l => .ok l
  | n + 1, ls, l => (scrubOne t l.ng ls).bind fun m => scrubMats t n m.2 (l.add m.1)

/-- material_lib.cpp:151-238: the constructor; `counts` reads the numbers of groups and materials (159-166, as 74-81 of the first constructor),
`none` if it throws. -/
def scrubFile (counts : List Char → Option (Nat × Nat)) (t : NumGet K) (ls : List (List Char)) : Res (Lib K) :=
  let g0 := getline ls
  let g1 := getline g0.2
  match counts g1.1 with
  | none => .throws
  | some (ng, nmat) =>
    let g2 := getline g1.2
    (boundsFrom t ng (some g2.1)).bind fun b =>
      scrubMats t nmat g2.2 ⟨ng, b, [], fun _ => none, [], fun _ => none, fun _ => none, 0⟩

/-- The parsers of the first constructor (material_lib.cpp:63-140) with the same reading of numbers. -/
def parserOf (counts : List Char → Option (Nat × Nat)) (t : NumGet K) : Parser K where
  counts := counts
  bounds := fun n l => match boundsFrom t n (some l) with
    | .ok b => some b
    | _ => none
  values := explode t

end Verif.Mat
