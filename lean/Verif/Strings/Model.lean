import Mathlib.Data.List.TakeDrop
import Mathlib.Data.List.Basic

/-!
# Model of the string helpers (src/util/string_utils.{hpp,cpp})

Strings are lists of characters.  `size_t` positions are naturals; `npos` is `2^64 - 1` and the one addition
that can wrap (`pos_stp + 1`) is taken modulo `2^64`.  A thrown exception is `none` in the functions returning
`Option`, and `Outcome.throws` in `explode_braces`; a loop that does not finish has no outcome for any fuel.
-/

namespace Verif.Strings

/-- `isspace` in the C locale; also the trim set `" \t\n\r\f\v"` of string_utils.hpp:26-40. -/
def isSpace (c : Char) : Bool :=
  c == ' ' || c == '\t' || c == '\n' || c == '\r' || c == Char.ofNat 12 || c == Char.ofNat 11

/-- `isdigit` in the C locale. -/
def isDigit (c : Char) : Bool := decide ('0' ≤ c) && decide (c ≤ '9')

/-! ## `explode_string<int>` -/

/-- string_utils.hpp:26-30 `ltrim`: erase up to the first character not in the set. -/
def ltrim (s : List Char) : List Char := s.dropWhile isSpace

/-- string_utils.hpp:33-37 `rtrim`: erase after the last character not in the set. -/
def rtrim (s : List Char) : List Char := (s.reverse.dropWhile isSpace).reverse

/-- string_utils.hpp:40-43 `trim`, used by `sanitize` (70-74).  Simplification: the lower-casing of `sanitize`
is dropped; it changes letters only, and `explode_string<int>` rejects text with letters either way. -/
def trim (s : List Char) : List Char := ltrim (rtrim s)

/-- Decimal value of a digit string. -/
def decimal (ds : List Char) : Nat := ds.foldl (fun acc c => 10 * acc + (c.toNat - '0'.toNat)) 0

/-- Optional sign in front of a number, as accepted by `operator>>(int&)`. -/
def readSign : List Char → Bool × List Char
  | '-' :: cs => (true, cs)
  | '+' :: cs => (false, cs)
  | cs => (false, cs)

/-- `inBuf >> i` for `int i` (string_utils.cpp:73), after leading white space: optional sign and the longest
run of digits; no digits, or a value outside `int`, sets `failbit` (`none`). -/
def readInt (s : List Char) : Option (Int × List Char) :=
  let ds := (readSign s).2.takeWhile isDigit
  let rest := (readSign s).2.dropWhile isDigit
  if ds.isEmpty then none
  else
    let v : Int := if (readSign s).1 then -(decimal ds : Int) else decimal ds
    if -2147483648 ≤ v ∧ v ≤ 2147483647 then some (v, rest) else none

theorem readSign_length (s : List Char) : (readSign s).2.length ≤ s.length := by
  unfold readSign; split <;> simp

theorem readInt_length {s : List Char} {v : Int} {rest : List Char} (h : readInt s = some (v, rest)) :
    rest.length < s.length := by
  unfold readInt at h
  simp only at h
  split_ifs at h with h1 h2 h3 <;> simp only [Option.some.injEq, Prod.mk.injEq] at h <;>
    (obtain ⟨-, rfl⟩ := h
     have hl := readSign_length s
     have hs := congrArg List.length (List.takeWhile_append_dropWhile (p := isDigit) (l := (readSign s).2))
     rw [List.length_append] at hs
     have : ((readSign s).2.takeWhile isDigit).length ≠ 0 := by
       intro h0; apply h1; rw [List.length_eq_zero_iff] at h0; simp [h0]
     omega)

/-- string_utils.cpp:72-81: read until the end of the stream.  After a successful read `eof()` holds exactly
when nothing is left, because the number ends either at a character it cannot use or at the end. -/
def streamLoop (s : List Char) (acc : List Int) : Option (List Int) :=
  match h : readInt (s.dropWhile isSpace) with
  | none => none
  | some (v, rest) => if rest.isEmpty then some (acc ++ [v]) else streamLoop rest (acc ++ [v])
  termination_by s.length
  decreasing_by
    have := readInt_length h
    have h2 := (List.dropWhile_suffix (l := s) isSpace).length_le
    omega

/-- string_utils.cpp:61-91 `explode_string<int>`. -/
def explodeString (data : List Char) : Option (List Int) :=
  let d := trim data
  if d.isEmpty then some [] else streamLoop d []

/-! ## `explode_braces` -/

/-- `std::string::npos`. -/
def npos : Nat := 2^64 - 1

/-- `data.find(c, pos)`. -/
def findFrom (data : List Char) (c : Char) (pos : Nat) : Nat :=
  match (data.drop pos).findIdx? (· == c) with
  | some k => pos + k
  | none => npos

/-- `data.substr(pos, len)`; a start past the end throws `std::out_of_range`. -/
def substr (data : List Char) (pos len : Nat) : Option (List Char) :=
  if data.length < pos then none else some ((data.drop pos).take len)

inductive Outcome
  | ok (r : List (List Int))
  | throws
  deriving DecidableEq, Repr

/-- string_utils.cpp:109-111. -/
def validChar (c : Char) : Bool := isSpace c || isDigit c || c == '{' || c == '}'

/-- string_utils.cpp:121-135: brace depth, the scan stopping (with depth above one) at a nested brace. -/
def braceDepth : List Char → Int → Int
  | [], d => d
  | c :: cs, d =>
    if c == '{' then (if d + 1 > 1 then d + 1 else braceDepth cs (d + 1))
    else if c == '}' then braceDepth cs (d - 1)
    else braceDepth cs d

/-- string_utils.cpp:145-167, the reading loop with at most `fuel` rounds; `none`: not finished yet. -/
def loop (data : List Char) : Nat → Nat → List (List Int) → Option Outcome
  | 0, _, _ => none
  | fuel + 1, pos, out =>
    let posStt := findFrom data '{' pos
    let posStp := findFrom data '}' posStt
    let afterNaked : Option (List (List Int)) :=
      if posStt - pos > 0 then do
        let text ← substr data pos (posStt - pos - 1)
        let naked ← explodeString text
        return out ++ naked.map (fun v => [v])
      else some out
    match afterNaked with
    | none => some .throws
    | some out =>
      if posStt ≠ npos then
        match (substr data (posStt + 1) (posStp - posStt - 1)).bind explodeString with
        | none => some .throws
        | some [] => some .throws
        | some g => loop data fuel ((posStp + 1) % 2^64) (out ++ [g])
      else some (.ok out)

/-- string_utils.cpp:107-169 `explode_braces` with at most `fuel` rounds of the reading loop. -/
def explodeBraces (fuel : Nat) (data : List Char) : Option Outcome :=
  if !(data.all validChar) then some .throws
  else if braceDepth data 0 ≠ 0 then some .throws
  else loop data fuel 0 []

/-! ## `print_range` -/

/-- State of the scan in string_utils.cpp:30-46. -/
structure Scan where
  left : Bool
  leftBound : Nat
  ranges : List (Nat × Nat)

/-- string_utils.cpp:34-46, one round: index `i`, element `b`, vector size `n`.
`int` indices are naturals; the code relies on the size fitting an `int`. -/
def scanStep (n i : Nat) (b : Bool) (s : Scan) : Scan :=
  let s := if b && !s.left then { s with left := true, leftBound := i } else s
  let s := if s.left && !b then { s with left := false, ranges := s.ranges ++ [(s.leftBound, i - 1)] } else s
  if s.left && b && (i + 1 == n) then { s with ranges := s.ranges ++ [(s.leftBound, i)] } else s

/-- The `for` loop over the remaining elements. -/
def scanFrom (n : Nat) : Nat → List Bool → Scan → Scan
  | _, [], s => s
  | i, b :: bs, s => scanFrom n (i + 1) bs (scanStep n i b s)

/-- The list `ranges` built by `print_range`. -/
def ranges (input : List Bool) : List (Nat × Nat) :=
  (scanFrom input.length 0 input ⟨false, 0, []⟩).ranges

/-- string_utils.cpp:49-53: one range as text. -/
def showRange (r : Nat × Nat) : String :=
  if r.1 ≠ r.2 then toString r.1 ++ "-" ++ toString r.2 else toString r.1

/-- string_utils.cpp:48-58: each range followed by a separator unless it equals the last range. -/
def printLoop (last : Nat × Nat) : List (Nat × Nat) → String
  | [] => ""
  | r :: rs => showRange r ++ (if r ≠ last then ", " else "") ++ printLoop last rs

/-- string_utils.cpp:27-59 `print_range`. -/
def printRange (input : List Bool) : String :=
  printLoop ((ranges input).getLastD (0, 0)) (ranges input)

end Verif.Strings
