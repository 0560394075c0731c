import Mathlib.Algebra.Order.Field.Basic
import Mathlib.Tactic.Linarith

/-!
# Timers

`util/timers.hpp`, `util/timers.cpp` and the calls of them in the program.
-/

namespace Verif.Timers

variable {K : Type} [Field K]

/-- The name of a timer below `RootTimer`, with the names of the timers above it. `RootTimer` itself is `[]` (src/util/timers.cpp:23). References to timers are kept by the classes that use them;
the children are a `std::map`, so that references stay valid. -/
abbrev Path := List String

/-- src/util/timers.hpp:131-134: one timer without its name and its children. `wtime_` has no value before the first `tic`. -/
structure Leaf (K : Type) where
  time : K
  running : Bool
  wtime : Option K

/-- src/util/timers.hpp:135: all timers. -/
abbrev Tree (K : Type) := Path → Option (Leaf K)

/-- How an operation ends other than normally: an `assert` fails (builds without NDEBUG), `wtime_` is read before it is set, or the timer does not exist. -/
inductive Fail where
  | assert
  | uninit
  | missing
deriving DecidableEq, Repr

/-- src/util/timers.cpp:25-28. -/
def Leaf.fresh : Leaf K := ⟨0, false, none⟩

/-- src/util/timers.cpp:38-43: `tic`; `now` is the value of `omp_get_wtime`, `dbg` whether assertions are compiled in. -/
def Leaf.tic (dbg : Bool) (now : K) (l : Leaf K) : Except Fail (Leaf K) :=
  if dbg && l.running then .error .assert else .ok ⟨l.time, true, some now⟩

/-- src/util/timers.cpp:45-52: `toc`, with the value it returns. -/
def Leaf.toc (dbg : Bool) (now : K) (l : Leaf K) : Except Fail (Leaf K × K) :=
  if dbg && !l.running then .error .assert
  else match l.wtime with
    | none => .error .uninit
    | some w => .ok (⟨l.time + (now - w), false, some w⟩, l.time + (now - w))

/-- src/util/timers.cpp:54-62: `time`. -/
def Leaf.read (now : K) (l : Leaf K) : Except Fail K :=
  if l.running then match l.wtime with
    | none => .error .uninit
    | some w => .ok (l.time + now - w)
  else .ok l.time

/-- The calls: `new_timer` (both forms; the one without `start` is `false`), `tic`, `toc`. -/
inductive Op where
  | make (parent : Path) (name : String) (start : Bool)
  | tic (p : Path)
  | toc (p : Path)
deriving DecidableEq, Repr

def put (s : Tree K) (p : Path) (l : Leaf K) : Tree K := fun q => if q = p then some l else s q

/-- src/util/timers.cpp:30-36: the constructor with `start`. -/
def Leaf.made (start : Bool) (now : K) : Leaf K := if start then ⟨0, true, some now⟩ else Leaf.fresh

/-- src/util/timers.hpp:112-126: `new_timer` makes the timer first and then puts it among the children; `emplace` does nothing if there is one of the name, and the reference is to that. -/
def newTimer (now : K) (s : Tree K) (parent : Path) (name : String) (start : Bool) : Except Fail (Tree K) :=
  match s parent with
  | none => .error .missing
  | some _ =>
    match s (parent ++ [name]) with
    | some _ => .ok s
    | none => .ok (put s (parent ++ [name]) (Leaf.made start now))

/-- One call at time `e.2`. -/
def exec (dbg : Bool) (s : Tree K) (e : Op × K) : Except Fail (Tree K) :=
  match e.1 with
  | .make parent name start => newTimer e.2 s parent name start
  | .tic p => match s p with
    | none => .error .missing
    | some l => (l.tic dbg e.2).map fun l' => put s p l'
  | .toc p => match s p with
    | none => .error .missing
    | some l => (l.toc dbg e.2).map fun r => put s p r.1

/-- Calls one after the other; the first that fails ends the program. -/
def execAll (dbg : Bool) (s : Tree K) : List (Op × K) → Except Fail (Tree K)
  | [] => .ok s
  | e :: es => match exec dbg s e with
    | .error f => .error f
    | .ok s' => execAll dbg s' es

/-- src/util/timers.cpp:23: at the start of the program. -/
def start : Tree K := fun q => if q = [] then some Leaf.fresh else none

/-- src/util/timers.cpp:64-82: `print` and `operator<<` assert that a timer and all below are stopped. The text is not modelled. -/
def Printable (s : Tree K) : Prop := ∀ p l, s p = some l → l.running = false

/-! ### The calls of the program -/

/-- The parts of the program that have timers of their own. -/
inductive Part where
  | moc
  | sn
  | cmfd
deriving DecidableEq, Repr

/-- src/sweepers/moc/moc_sweeper.cpp:64, src/sweepers/sn/sn_sweeper.cpp:46, src/core/cmfd.cpp:64: names of the timers below `RootTimer`. -/
def Part.name : Part → String
  | .moc => "MoC Sweeper"
  | .sn => "Sn Sweeper"
  | .cmfd => "CMFD"

/-- src/sweepers/moc/moc_sweeper.cpp:64-66, 183-184; src/sweepers/sn/sn_sweeper.cpp:46-49, 121-122; src/core/cmfd.cpp:64-67, 166-167: the constructors. -/
def Part.construct : Part → List Op
  | .moc => [.make [] "MoC Sweeper" true, .make ["MoC Sweeper"] "Initialization" true, .make ["MoC Sweeper"] "Sweep" false,
      .toc ["MoC Sweeper", "Initialization"], .toc ["MoC Sweeper"]]
  | .sn => [.make [] "Sn Sweeper" true, .make ["Sn Sweeper"] "Initialization" true, .make ["Sn Sweeper"] "Sweep" false, .make ["Sn Sweeper"] "XS Update" false,
      .toc ["Sn Sweeper"], .toc ["Sn Sweeper", "Initialization"]]
  | .cmfd => [.make [] "CMFD" true, .make ["CMFD"] "Initialization" true, .make ["CMFD"] "Setup Linear System" false, .make ["CMFD"] "Solve" false,
      .toc ["CMFD"], .toc ["CMFD", "Initialization"]]

/-- src/sweepers/moc/moc_sweeper.cpp:193-194, 222-223 (and src/sweepers/cmdo/moc_sweeper_2d3d.cpp:50-51, 96-97); src/sweepers/sn/sn_sweeper_variant.hpp:97-103, 151-152;
src/core/cmfd.cpp:173, 335, 551, 192, 276-277: one sweep of a group, one solution of CMFD. -/
def Part.use : Part → List Op
  | .moc => [.tic ["MoC Sweeper"], .tic ["MoC Sweeper", "Sweep"], .toc ["MoC Sweeper"], .toc ["MoC Sweeper", "Sweep"]]
  | .sn => [.tic ["Sn Sweeper"], .tic ["Sn Sweeper", "XS Update"], .toc ["Sn Sweeper", "XS Update"], .tic ["Sn Sweeper", "Sweep"], .toc ["Sn Sweeper"], .toc ["Sn Sweeper", "Sweep"]]
  | .cmfd => [.tic ["CMFD"], .tic ["CMFD", "Setup Linear System"], .toc ["CMFD", "Setup Linear System"], .tic ["CMFD", "Solve"], .toc ["CMFD", "Solve"], .toc ["CMFD"]]

/-- src/input_proc.cpp:52, 114-115, 157-159 (constructor), 166-168, 194-197, 209-210 (`process`, with the constructors of the solver inside of it). -/
def inputOps (parts : List Part) : List Op :=
  [.make [] "Input Processor" true, .make ["Input Processor"] "XML parsing" false, .tic ["Input Processor", "XML parsing"], .toc ["Input Processor", "XML parsing"], .toc ["Input Processor"],
    .tic ["Input Processor"], .make ["Input Processor"] "Core Mesh" false, .tic ["Input Processor", "Core Mesh"], .toc ["Input Processor", "Core Mesh"],
    .make ["Input Processor"] "Solver" false, .tic ["Input Processor", "Solver"]] ++
  parts.flatMap Part.construct ++ [.toc ["Input Processor", "Solver"], .toc ["Input Processor"]]

/-- src/driver.cpp:123-167: a run that ends normally; `parts` are made by the constructors, `uses` are the sweeps of groups and solutions of CMFD in the order in which the solver calls them. -/
def runOps (parts uses : List Part) : List Op := [.tic []] ++ inputOps parts ++ uses.flatMap Part.use ++ [.toc []]

end Verif.Timers
