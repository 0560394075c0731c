import Mathlib.Data.List.Basic
import Mathlib.Data.List.Perm.Basic

/-!
# Screen, log file and warnings

`util/tee_stream.hpp`, `util/files.cpp`, `Warn` of `util/error.cpp` and the end of `generate_output` of `driver.cpp`.
-/

namespace Verif.Log

/-- src/util/files.cpp:26-28, 39: the second stream of `LogScreen`: `NullStream`, which takes everything, or `LogFile`, that is open or is not (it could not be opened, or has been closed; a file
buffer that is not open refuses every character). -/
inductive Sink where
  | null
  | file
deriving DecidableEq, Repr

/-- What has been written to the screen and to the log file; whether the log file is open; the second stream of `LogScreen` and its error flag; the warnings (src/util/error.cpp:31), in the order in
which they came first. The screen takes every character. -/
structure Out where
  screen : List Char
  log : List Char
  isOpen : Bool
  sink : Sink
  bad : Bool
  warnings : List (String × Nat)
deriving DecidableEq, Repr

/-- src/util/files.cpp:22-28: at the start of the program. -/
def Out.init : Out := ⟨[], [], false, .null, false, []⟩

/-- src/util/tee_stream.hpp:58-74: `overflow` of the buffer of `LogScreen`, to which every character goes since it has no space of its own: the character is given to both streams; the result tells
whether both took it. -/
def Out.overflow (o : Out) (c : Char) : Out × Bool :=
  match o.sink with
  | .null => ({ o with screen := o.screen ++ [c] }, true)
  | .file => if o.isOpen then ({ o with screen := o.screen ++ [c], log := o.log ++ [c] }, true) else ({ o with screen := o.screen ++ [c] }, false)

/-- Characters of an insertion one after the other; the first that is refused ends it and sets the error flag (`std::basic_streambuf::xsputn`). -/
def Out.chars (o : Out) : List Char → Out
  | [] => o
  | c :: cs => if (o.overflow c).2 then Out.chars (o.overflow c).1 cs else { (o.overflow c).1 with bad := true }

/-- `LogScreen << s`: a stream with the error flag set takes nothing. -/
def Out.tee (o : Out) (s : String) : Out := if o.bad then o else o.chars s.toList

/-- `std::cout << s`. -/
def Out.cout (o : Out) (s : String) : Out := { o with screen := o.screen ++ s.toList }

/-- src/util/files.cpp:32-43: `StartLogFile`; `ok` tells whether the file can be opened. Nothing is asked about it. It is called once, when no
file is open. -/
def Out.start (o : Out) (name : String) (ok : Bool) : Out :=
  let o := o.cout ("Logging output to: " ++ (name ++ ".log") ++ "\n\n")
  { o with isOpen := ok, sink := .file }

/-- src/util/error.cpp:47-49: `count++` of the entry found. -/
def bump (msg : String) (w : List (String × Nat)) : List (String × Nat) := w.map fun x => if x.1 = msg then (x.1, x.2 + 1) else x

/-- src/util/error.cpp:40-50: `Warn`. -/
def Out.warn (o : Out) (msg : String) : Out :=
  match o.warnings.lookup msg with
  | none => ((({ o with warnings := o.warnings ++ [(msg, 1)] }).tee "WARNING: ").tee msg).tee "\n"
  | some _ => { o with warnings := bump msg o.warnings }

/-- src/util/error.cpp:84-88: a line of the list of warnings. -/
def line (x : String × Nat) : String := toString x.2 ++ ": " ++ x.1

/-- src/driver.cpp:68-83: the list of warnings at the end. `order` is the order of the table, which the language does not fix. -/
def Out.summary (o : Out) (order : List (String × Nat)) : Out :=
  if o.warnings.length > 0 then
    let o1 := if o.warnings.length = 1 then o.tee "There was " else o.tee "There were "
    let o2 := o1.cout (toString o.warnings.length)
    let o3 := if o.warnings.length = 1 then (o2.tee " warning:").tee "\n" else (o2.tee " warnings:").tee "\n"
    order.foldl (fun o x => ((o.tee "\t").tee (line x)).tee "\n") o3
  else o

/-- The calls of the program. -/
inductive Ev where
  | tee (s : String)
  | cout (s : String)
  | start (name : String) (ok : Bool)
  | warn (msg : String)
deriving DecidableEq, Repr

def Out.ev (o : Out) : Ev → Out
  | .tee s => o.tee s
  | .cout s => o.cout s
  | .start name ok => o.start name ok
  | .warn msg => o.warn msg

def Out.evs (o : Out) (es : List Ev) : Out := es.foldl Out.ev o

end Verif.Log
