import Mathlib.Order.Defs.LinearOrder
import Mathlib.Order.Basic

/-!
# Model of the top-level solver loops

`src/solvers/monte_carlo_eigenvalue_solver.cpp`, `src/solvers/eigen_solver.cpp`,
`src/solvers/fixed_source_solver.cpp`.
-/

namespace Verif.Solver

/-! ## Monte Carlo -/

/-- What a Monte Carlo cycle is observed to be: its number `cycle_` as printed, and whether it is active. -/
structure CycleRec where
  cycle : Int
  active : Bool
deriving DecidableEq, Repr

/-- `for (int i = 0; i < k; i++) step();` where `step` increments `cycle_` first
(monte_carlo_eigenvalue_solver.cpp:107-109, 119-121, 135). -/
def mcSteps (active : Bool) : (k : Nat) → (cycle : Int) → Int × List CycleRec
  | 0, c => (c, [])
  | k + 1, c =>
    let r := mcSteps active k (c + 1)
    (r.1, ⟨c + 1, active⟩ :: r.2)

/-- monte_carlo_eigenvalue_solver.cpp:95-124 `solve`.  The constructor (60-82) rejects negative counts.  `n_active` is an
`int`: if it does not fit the subtraction overflows, which is undefined and given as `none`. -/
def mcSolve (nCycles nInactive : Int) : Option (List CycleRec) :=
  let r1 := mcSteps false nInactive.toNat (-nInactive)
  let nActive := nCycles - nInactive + 1
  if nActive > 2147483647 then none
  else
    let r2 := mcSteps true nActive.toNat r1.1
    some (r1.2 ++ r2.2)

/-! ## Deterministic eigenvalue solver -/

/-- Whether `error < tolerance` holds; an error that is not a number (`none`) compares false. -/
def below {K : Type} [LT K] [DecidableLT K] (err : Option K) (tol : K) : Bool :=
  match err with
  | none => false
  | some e => decide (e < tol)

/-- The observable outcome of an outer iteration (eigen_solver.cpp:168-191): the two errors, and whether the eigenvalue
is not a number. -/
structure Iter (K : Type) where
  errK : Option K
  errPsi : Option K
  nan : Bool

/-- Settings read by the constructor (eigen_solver.cpp:54-94). -/
structure Settings (K : Type) where
  tolK : K
  tolPsi : K
  minIter : Nat
  maxIter : Nat

/-- Why the loop was left. -/
inductive Stop
  | converged
  | limit
  | notANumber
deriving DecidableEq, Repr

/-- What is observed of a run: the number of iterations performed, the iterations dumped, the reason for stopping. -/
structure Run where
  performed : Nat
  dumps : List Nat
  stop : Stop
deriving DecidableEq, Repr

/-- `static_cast<unsigned>` of an `int` (eigen_solver.cpp:163, 201). -/
def toUnsigned (i : Int) : Nat := (i % 4294967296).toNat

/-- eigen_solver.cpp:160-164: the first requested dump. -/
def firstDump (l : List Int) : Nat :=
  match l with
  | [] => 4294967295
  | d :: _ => toUnsigned d

/-- eigen_solver.cpp:199-202: the dump after `*dump_it`. -/
def nextDump (l : List Int) : Nat :=
  match l with
  | [] => 2147483647
  | d :: _ => toUnsigned d

/-- eigen_solver.cpp:166-222: the loop.  `n` is `n_iterations`, `rest` the requests from `dump_it` on, `next` is
`next_dump`, `fuel` is `max_iterations_ - n_iterations`. -/
def eigenLoop {K : Type} [LT K] [DecidableLT K] (s : Settings K) (it : Nat → Iter K) :
    (fuel n : Nat) → (rest : List Int) → (next : Nat) → (dumps : List Nat) → Run
  | 0, n, _, _, dumps => ⟨n, dumps, .limit⟩
  | fuel + 1, n, rest, next, dumps =>
    let r := it n
    let dump := decide (n + 1 = next)
    let dumps' := if dump then dumps ++ [n + 1] else dumps
    let rest' := if dump then rest.tail else rest
    let next' := if dump then nextDump rest.tail else next
    if r.nan then ⟨n + 1, dumps', .notANumber⟩
    else if below r.errK s.tolK && below r.errPsi s.tolPsi && decide (s.minIter ≤ n) then ⟨n + 1, dumps', .converged⟩
    else eigenLoop s it fuel (n + 1) rest' next' dumps'

/-- Insertion into a sorted list. -/
def insertInt (x : Int) : List Int → List Int
  | [] => [x]
  | y :: l => if x ≤ y then x :: y :: l else y :: insertInt x l

/-- eigen_solver.cpp:88 `std::sort` of the requested iterations. -/
def sortInt (l : List Int) : List Int := l.foldr insertInt []

/-- eigen_solver.cpp:131-223 `solve` with the requests as given in the input (84-88). -/
def eigenSolve {K : Type} [LT K] [DecidableLT K] (s : Settings K) (requested : List Int) (it : Nat → Iter K) : Run :=
  let l := sortInt requested
  eigenLoop s it s.maxIter 0 l (firstDump l) []

/-! ## Fixed source solver -/

/-- fixed_source_solver.cpp:82-92: the loop; the number of iterations performed and the last residual (`none` is not a
number).  `resid i` is the residual after iteration `i`. -/
def fixedLoop {K : Type} [LT K] [DecidableLT K] (tol : K) (resid : Nat → Option K) :
    (fuel n : Nat) → (last : Option K) → Nat × Option K
  | 0, n, last => (n, last)
  | fuel + 1, n, _ => if below (resid n) tol then (n + 1, resid n) else fixedLoop tol resid fuel (n + 1) (resid n)

/-- fixed_source_solver.cpp:45: `max_iter_` is a `size_t` assigned from an `int`. -/
def toSize (i : Int) : Nat := (i % 18446744073709551616).toNat

/-- What is observed of a fixed-source run: iterations performed and whether the message about the limit is printed. -/
structure FixedRun where
  performed : Nat
  message : Bool
deriving DecidableEq, Repr

/-- fixed_source_solver.cpp:94: `resid >= flux_tol_`, false for a residual that is not a number. -/
def atLeast {K : Type} [LT K] [DecidableLT K] (r : Option K) (tol : K) : Bool :=
  match r with
  | none => false
  | some e => !decide (e < tol)

/-- fixed_source_solver.cpp:44-56 and 79-99: the checks of the constructor (`none`: exception) and `solve`.  The
tolerance is a number. -/
def fixedSolve {K : Type} [Zero K] [LT K] [DecidableLT K] (maxIter : Int) (tol : K) (resid : Nat → Option K) :
    Option FixedRun :=
  if toSize maxIter ≤ 0 then none
  else if decide (0 < tol) = false then none
  else
    let r := fixedLoop tol resid (toSize maxIter) 0 (some 0)
    some ⟨r.1, atLeast r.2 tol⟩

end Verif.Solver
