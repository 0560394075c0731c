import Verif.Input.AmendModel

/-!
# Command line and name of the case

Model of the constructor of `InputProcessor` in src/input_proc.cpp:52-158 up to the geometry. `args` are the elements of `args_` from the second
on; the first is the name of the program. Reading the file is a parameter: an XML tree or none if it does not parse.
-/

namespace Verif.Input

/-- Outcome of the constructor: usage printed and `exit(EXIT_FAILURE)`, an exception, or a value. -/
inductive Cmd (α : Type) where
  | ok (a : α)
  | usage
  | throws
deriving Repr, DecidableEq

/-- The variables of the loop, input_proc.cpp:57-60. The text of the error is left out. -/
structure Scan where
  filename : Str
  replacements : List Str
  good : Bool
deriving Repr, DecidableEq

/-- The loop over the arguments, input_proc.cpp:61-94. `args_[iarg + 1][0]` of an empty string is the terminating zero, no dash. A second name
marks the command as bad, and the loop goes on; a missing argument of `-a` leaves it. -/
def scan : List Str → Scan → Scan
  | [], s => s
  | [a], s =>
    if a = ['-', 'a'] then { s with good := false }
    else if s.filename = [] then { s with filename := a }
    else { s with good := false }
  | a :: b :: rest, s =>
    if a = ['-', 'a'] then
      let good := if b.head? = some '-' then false else s.good
      if good then scan rest { s with replacements := s.replacements ++ [b] }
      else { s with good := false }
    else if s.filename = [] then scan (b :: rest) { s with filename := a }
    else scan (b :: rest) { s with good := false }

/-- input_proc.cpp:57-110: name of the input file and replacements. -/
def readArgs (args : List Str) : Cmd (Str × List Str) :=
  let s := scan args ⟨[], [], true⟩
  let good := if s.good && (s.filename == []) then false else s.good
  if good then .ok (s.filename, s.replacements) else .usage

/-- `std::string::rfind(c)`: number of characters before the last `c`; `none` is `npos`. -/
def rfind (c : Char) : Str → Option Nat
  | [] => none
  | x :: xs =>
    match rfind c xs with
    | some k => some (k + 1)
    | none => if x = c then some 0 else none

/-- `strip_extension`, input_proc.cpp:39-44. `substr(0, npos)` is the whole string. -/
def stripExtension (input : Str) : Str :=
  match rfind '.' input with
  | some pos => input.take pos
  | none => input

/-- `doc_.child(name)` of pugixml: the first child of that name. -/
def childNamed (name : Str) : Node → Option Node
  | .text _ => none
  | .elem _ _ kids => kids.find? (Node.isNamed name)

/-- `child_value()` of pugixml: the first text among the children, empty if there is none. -/
def childValue : Node → Str
  | .text _ => []
  | .elem _ _ kids =>
    match kids.find? Node.isText with
    | some (.text s) => s
    | _ => []

/-- input_proc.cpp:148-153: a tag `case_name` takes the place of the name of the file; an empty one throws. -/
def caseName (fromFile : Str) (doc : Node) : Option Str :=
  match childNamed "case_name".toList doc with
  | none => some fromFile
  | some n => if childValue n = [] then none else some (childValue n)

/-- The constructor, input_proc.cpp:52-155: amended document and name of the case. -/
def processArgs (load : Str → Option Node) (args : List Str) : Cmd (Node × Str) :=
  match readArgs args with
  | .usage => .usage
  | .throws => .throws
  | .ok (filename, replacements) =>
    match load filename with
    | none => .throws
    | some doc =>
      match applyArgs replacements doc with
      | none => .throws
      | some doc' =>
        match caseName (stripExtension filename) doc' with
        | none => .throws
        | some name => .ok (doc', name)

/-- `generate_output`, driver.cpp:53-54: name of the file of results. -/
def outputName (name : Str) : Str := name ++ ".h5".toList

/-- `StartLogFile`, util/files.cpp:32-38: name of the log. -/
def logName (name : Str) : Str := name ++ ".log".toList

end Verif.Input
