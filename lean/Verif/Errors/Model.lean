import Verif.BC.Model

/-!
# How errors end a run

src/util/error.{hpp,cpp} and the `try` blocks of the program: where an exception goes, what it leaves on standard error and in the log file, and the status
the program ends with.  `Cmd` is the structure of a piece of the program with respect to errors; what it computes otherwise is left out.
-/

namespace Verif.Errors

open Verif.BC

/-- error.hpp:49-61 `Exception::Info`. -/
structure Info where
  file : String
  line : Nat
  func : String
  msg : String

/-- error.cpp:59-69: the text of an exception. -/
def Info.text (i : Info) : String := i.file ++ ":" ++ toString i.line ++ " in " ++ i.func ++ "\n" ++ i.msg ++ "\n"

/-- What is thrown: a `mocc::Exception` with the text that `what()` returns, a `std::out_of_range`, or anything else (exceptions of HDF5). -/
inductive Exc
  | mocc (what : String)
  | range
  | other
  deriving DecidableEq

/-- Text on standard error, text written to `LogFile`, and whether this is open (files.cpp:23). -/
structure Out where
  cerr : String
  log : String
  logging : Bool
  deriving DecidableEq

/-- How a piece of the program ends: `exited` by `exit(EXIT_FAILURE)`, `terminated` by `std::terminate`. -/
inductive End
  | normal
  | raised (e : Exc)
  | exited
  | terminated
  deriving DecidableEq

/-- Pieces of the program. -/
inductive Cmd
  /-- ends normally -/
  | done
  /-- `throw` -/
  | fails (e : Exc)
  /-- `std::cerr << s` -/
  | cerr (s : String)
  /-- `LogFile << s` -/
  | log (s : String)
  /-- `LogFile.open`, which succeeds or not -/
  | start (ok : Bool)
  /-- `LogFile.close` -/
  | stop
  /-- `exit(EXIT_FAILURE)` -/
  | exit
  /-- one after the other -/
  | seq (a b : Cmd)
  /-- `try … catch (Exception e)`; the argument of the handler is `e.what()` -/
  | tryMocc (body : Cmd) (handler : String → Cmd)
  /-- `try … catch (std::out_of_range)` -/
  | tryRange (body handler : Cmd)
  /-- `try … catch (...)` -/
  | tryAny (body handler : Cmd)
  /-- a parallel region of OpenMP; `body` is what its threads do, in the order in which they do it -/
  | region (body : Cmd)

/-- Execution. An exception must not leave a parallel region; if one does, the program is terminated. -/
def eval : Cmd → Out → End × Out
  | .done, o => (.normal, o)
  | .fails e, o => (.raised e, o)
  | .cerr s, o => (.normal, { o with cerr := o.cerr ++ s })
  | .log s, o => (.normal, if o.logging then { o with log := o.log ++ s } else o)
  | .start ok, o => (.normal, { o with log := "", logging := ok })
  | .stop, o => (.normal, { o with logging := false })
  | .exit, o => (.exited, o)
  | .seq a b, o => match eval a o with
    | (.normal, o') => eval b o'
    | r => r
  | .tryMocc a h, o => match eval a o with
    | (.raised (.mocc m), o') => eval (h m) o'
    | r => r
  | .tryRange a h, o => match eval a o with
    | (.raised .range, o') => eval h o'
    | r => r
  | .tryAny a h, o => match eval a o with
    | (.raised _, o') => eval h o'
    | r => r
  | .region a, o => match eval a o with
    | (.raised _, o') => (.terminated, o')
    | r => r

/-! ## The driver -/

/-- The parts of a run in driver.cpp:122-171 and input_proc.cpp:164-213 (`process`). -/
structure Parts where
  /-- the constructor of `InputProcessor` (line 126) -/
  input : Cmd
  /-- whether the log file can be opened (line 130) -/
  logFile : Bool
  /-- `CoreMesh` (input_proc.cpp:192) -/
  mesh : Cmd
  /-- `SolverFactory` (input_proc.cpp:200) -/
  solver : Cmd
  /-- `output_geometry` (input_proc.cpp:204) -/
  geometry : Cmd
  /-- `solve` (line 162) -/
  solve : Cmd
  /-- `generate_output` (line 165) -/
  output : Cmd

/-- driver.cpp:122-171: the body of the `try` block. -/
def body (p : Parts) : Cmd :=
  .seq p.input (.seq (.start p.logFile) (.seq p.mesh (.seq p.solver (.seq p.geometry (.seq p.solve (.seq p.output .stop))))))

/-- What the user has after a run: the status (none if the program was terminated), standard error, the log. -/
structure Result where
  status : Option Nat
  cerr : String
  log : String
  deriving DecidableEq

/-- driver.cpp:174-181, the handler of `run` and its return values; mocc.cpp returns them. A further exception leaves `main`. -/
def run (p : Parts) : Result :=
  match eval (.tryMocc (.seq (body p) .done) fun m => .seq (.cerr "Error:\n") (.seq (.cerr m) (.seq (.log "Error:\n") (.seq (.log m) .exit))))
      ⟨"", "", false⟩ with
  | (.normal, o) => ⟨some 0, o.cerr, o.log⟩
  | (.raised _, o) => ⟨none, o.cerr, o.log⟩
  | (.exited, o) => ⟨some 1, o.cerr, o.log⟩
  | (.terminated, o) => ⟨none, o.cerr, o.log⟩

/-! ## Pieces with handlers -/

/-- error.cpp:71-77 and `EXCEPT_E`: an exception with one that caused it; as in correction_data.cpp:99-103, 116-120, 133-137. -/
def because (i : Info) (body : Cmd) : Cmd := .tryMocc body fun m => .fails (.mocc (i.text ++ m))

/-- `std::cerr << e.what() << std::endl; throw EXCEPT(...)`: material_lib.cpp:54-61, sn_sweeper.cpp:81-86, core.cpp:73-78. -/
def instead (i : Info) (body : Cmd) : Cmd := .tryMocc body fun m => .seq (.cerr (m ++ "\n")) (.fails (.mocc i.text))

/-- error.cpp:52-57 `Fail`, and fixed_source_solver.cpp:27-76: the constructor with its handler. -/
def fixedSource (body : Cmd) : Cmd := .tryMocc body fun m => .seq (.cerr m) (.seq (.log m) .exit)

/-- h5file.cpp:51-63 and the other functions of `H5Node` with `catch (...)`. -/
def h5call (i : Info) (body : Cmd) : Cmd := .tryAny body (.fails (.mocc i.text))

/-- h5file.cpp:37-43: the constructor of `H5Node` with the name of a file; HDF5 throws if it cannot open it. -/
def h5open (ok : Bool) : Cmd := if ok then .done else .fails .other

/-- sn_sweeper_cdd.hpp:53-59: reading the directions from a file. -/
def quadFile (i : Info) (opens : Bool) (read : Cmd) : Cmd := because i (.seq (h5open opens) read)

/-- driver.cpp:55: the output file. -/
def outputFile (opens : Bool) (write : Cmd) : Cmd := .seq (h5open opens) write

/-! ## Identifiers -/

/-- lattice.cpp:58-66: `pins.at` for each identifier. -/
def latticeMap (known : Int → Bool) : List Int → Cmd
  | [] => .done
  | id :: ids => .seq (if known id then .done else .fails .range) (latticeMap known ids)

/-- core.cpp:89-103: `assemblies.at` for each identifier, with its handler. -/
def coreMap (i : Info) (known : Int → Bool) : List Int → Cmd
  | [] => .done
  | id :: ids => .seq (.tryRange (if known id then .done else .fails .range) (.fails (.mocc i.text))) (coreMap i known ids)

/-- material_lib.cpp:240-255 `assignID`, for each material; the names that are known. -/
def assignIds (i : Info) (known : String → Bool) : List String → Cmd
  | [] => .done
  | name :: names => .seq (.tryRange (if known name then .done else .fails .range) (.fails (.mocc i.text))) (assignIds i known names)

/-! ## Boundary conditions -/

/-- core.cpp:26-38 `bc_parse`. -/
def bcParse (s : String) : Boundary :=
  if s = "vacuum" then .VACUUM else if s = "reflect" then .REFLECT else if s = "prescribed" then .PRESCRIBED else .INVALID

/-- core.cpp:55-67: the boundary conditions of a core, from the texts in the order of `Surface`; `none`: exception. -/
def bcRead (texts : List String) : Option (List Boundary) :=
  if Boundary.INVALID ∈ texts.map bcParse then none else some (texts.map bcParse)

/-- particle_pusher.cpp:285-311: the boundaries of the core a particle meets in the course of its history, in that order. -/
def history (i : Info) : List Boundary → Cmd
  | [] => .done
  | .REFLECT :: rest => history i rest
  | .VACUUM :: _ => .done
  | _ :: _ => .fails (.mocc i.text)

/-- particle_pusher.cpp:371-379: the histories of a cycle, in the order in which they end. -/
def cycle (i : Info) (hs : List (List Boundary)) : Cmd := .region (hs.foldr (fun h c => .seq (history i h) c) .done)

/-- A boundary update of a sweep, as a piece of a program. -/
def updateCmd {K : Type} (i : Info) : Outcome (Store K) → Cmd
  | .throws => .fails (.mocc i.text)
  | _ => .done

end Verif.Errors
