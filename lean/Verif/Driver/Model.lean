/-!
# The driver and its interrupt handler

src/driver.cpp 39-182: the global objects, `generate_output`, `int_handler` and `run`.

Interruption is modelled between the steps below. The C++ standard leaves nearly everything a handler could do undefined;
the model is more generous and lets the handler run as ordinary code on the global objects.
-/

namespace Verif.Driver

/-- What one output file holds: the results of which run's solver, the input of which run, the build identification. -/
structure Content where
  solver : Option Nat
  input : Option Nat
  sha : Bool
deriving DecidableEq, Repr

/-- driver.cpp:42-48, the global objects, and the outside world. `input` is the case name and the number of the run the
input processor was made for; `solver` the number of the run the solver was made for; `opened` tells that the output
file of that name is open at the moment. -/
structure State where
  handler : Bool
  input : Option (Nat × Nat)
  solver : Option Nat
  opened : Option Nat
  files : Nat → Option Content

/-- The steps of `run`, driver.cpp:116-171, with those of `generate_output`, 51-66, in their place. -/
inductive Step where
  | register | newInput | startLog | process | getSolver | solve
  | openFile | writeSolver | writeInput | writeSha | closeFile
  | stopLog
deriving DecidableEq, Repr

/-- driver.cpp:51-66 and 87, `generate_output`. The file is closed when `outfile` goes out of scope. -/
def outputSteps : List Step := [.openFile, .writeSolver, .writeInput, .writeSha, .closeFile]

/-- driver.cpp:118-171 in their order. -/
def runSteps : List Step :=
  [.register, .newInput, .startLog, .process, .getSolver, .solve] ++ outputSteps ++ [.stopLog]

/-- Result of a step: the new state, an exception, or undefined behaviour. -/
inductive Res where
  | ok (s : State)
  | thrown
  | undefined

/-- Change one file. -/
def setFile (files : Nat → Option Content) (n : Nat) (c : Content) : Nat → Option Content :=
  fun m => if m = n then some c else files m

/-- Change the content of the open file. -/
def onOpen (s : State) (f : Content → Content) : Res :=
  match s.opened with
  | none => .undefined
  | some n =>
    match s.files n with
    | none => .undefined
    | some c => .ok { s with files := setFile s.files n (f c) }

/-- One step of run number `id` for case `name`. Dereferencing a null pointer is undefined behaviour. Opening with
`H5F_ACC_TRUNC` (h5file.cpp:24-40) truncates the file; of HDF5 it is assumed that truncating a file that is open fails
with an exception. -/
def step (name id : Nat) (s : State) : Step → Res
  | .register => .ok { s with handler := true }
  | .newInput => .ok { s with input := some (name, id) }
  | .startLog => .ok s
  | .process => .ok s
  | .getSolver => .ok { s with solver := some id }
  | .solve => .ok s
  | .openFile =>
    match s.input with
    | none => .undefined
    | some (n, _) =>
      if s.opened = some n then .thrown
      else .ok { s with opened := some n, files := setFile s.files n ⟨none, none, false⟩ }
  | .writeSolver =>
    match s.solver with
    | none => .undefined
    | some k => onOpen s (fun c => { c with solver := some k })
  | .writeInput =>
    match s.input with
    | none => .undefined
    | some (_, k) => onOpen s (fun c => { c with input := some k })
  | .writeSha => onOpen s (fun c => { c with sha := true })
  | .closeFile => .ok { s with opened := none }
  | .stopLog => .ok s

/-- A list of steps in turn; `throws` tells which steps fail with an exception of their own (bad input, for example). -/
def exec (throws : Step → Bool) (name id : Nat) : List Step → State → Res
  | [], s => .ok s
  | t :: ts, s =>
    if throws t then .thrown
    else
      match step name id s t with
      | .ok s' => exec throws name id ts s'
      | r => r

/-- How the process ends. -/
inductive Ending where
  | exited (files : Nat → Option Content)
  | killed (files : Nat → Option Content)
  | undefined

/-- SIGINT in state `s`. Without a handler the process is killed. With it driver.cpp:93-98: `generate_output` and
`exit`. An exception leaving the handler is undefined behaviour. -/
def interrupt (throws : Step → Bool) (name id : Nat) (s : State) : Ending :=
  if s.handler then
    match exec throws name id outputSteps s with
    | .ok s' => .exited s'.files
    | .thrown => .undefined
    | .undefined => .undefined
  else .killed s.files

/-- Before the first run. -/
def fresh (files : Nat → Option Content) : State := ⟨false, none, none, none, files⟩

end Verif.Driver
