import Verif.Strings.Model

/-!
# Specification vocabulary for number lists

A text is read as words separated by white space; a word of digits denotes its decimal value.
-/

namespace Verif.Strings.Spec

/-- Words of a text: maximal runs of non-space characters. -/
def words (s : List Char) : List (List Char) :=
  match s with
  | [] => []
  | c :: cs =>
    if isSpace c then words cs
    else (c :: cs.takeWhile (fun x => !isSpace x)) :: words (cs.dropWhile (fun x => !isSpace x))
  termination_by s.length
  decreasing_by
    all_goals simp
    all_goals
      have h2 := (List.dropWhile_suffix (l := cs) (fun x => !isSpace x)).length_le
      omega

/-- Value of a digit string, most significant digit first. -/
def digitsValue : List Char → Nat
  | [] => 0
  | c :: cs => (c.toNat - '0'.toNat) * 10 ^ cs.length + digitsValue cs

/-- The numbers written in a text of digits and white space. -/
def numbers (s : List Char) : List Int := (words s).map (fun w => (digitsValue w : Int))

/-- Digits and white space only. -/
def Plain (s : List Char) : Prop := ∀ c ∈ s, isSpace c = true ∨ isDigit c = true

/-- All numbers written fit a 32-bit `int`. -/
def Fits (s : List Char) : Prop := ∀ n ∈ numbers s, n ≤ 2147483647

/-- A text with brace groups: alternating naked text and braced text, then trailing naked text. -/
def render (segs : List (List Char × List Char)) (tail : List Char) : List Char :=
  match segs with
  | [] => tail
  | (n, g) :: segs => n ++ '{' :: (g ++ '}' :: render segs tail)

/-- What such a text means: one singleton per naked number and one list per brace group, in order. -/
def meaning (segs : List (List Char × List Char)) (tail : List Char) : List (List Int) :=
  match segs with
  | [] => (numbers tail).map (fun v => [v])
  | (n, g) :: segs => (numbers n).map (fun v => [v]) ++ numbers g :: meaning segs tail

end Verif.Strings.Spec
