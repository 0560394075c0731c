import Verif.Mc.OrderProps
import Verif.Mc.TallyModel

/-!
# Model of a whole run of the Monte Carlo eigenvalue solver
(src/solvers/monte_carlo_eigenvalue_solver.cpp:95-202, src/sweepers/mc/particle_pusher.cpp:166-389,
src/sweepers/mc/particle_pusher.hpp:143-188)

What a history does to the shared state of the pusher is a list of events, a function of the identifier offset and of the
source particle only (the generator is set from the seed at the start of each history, particle_pusher.cpp:170-171; what is
sampled within a history is the subject of C120-C125).  The threads execute the events of their histories in order; the
events of different threads interleave in any way.  A cycle is therefore given the list of events in the order in which they
happen.  Arithmetic is exact.  A number that is not finite (zero divided by zero) is `none`; a tally that has received one
is `none` from then on.  Of the spatial tallies one is modelled; the others (flux per group) are of the same class and get
the same calls.  Messages and the optional dump of the sites (190-195) are not modelled.
-/

namespace Verif.Mc

open Verif.Rng

variable {P K : Type} [Field K] [LinearOrder K]

/-- An atomic action of a history on the state of the pusher.
`weight`: particle_pusher.cpp:174-187, all tallies; `tl`: 241 `k_tally_tl_.score`; `col`: 116 `k_tally_col_.score`;
`pin`: 242-243 `pin_power_tally_.score`; `site`: 145-152 `fission_bank_.push_back`. -/
inductive Ev (P K : Type)
  | weight (w : K)
  | tl (v : K)
  | col (v : K)
  | pin (i : Nat) (v : K)
  | site (d : P)

/-- The pusher between cycles: particle_pusher.hpp:219-290 (offset, bank, tallies). -/
structure Pusher (P K : Type) where
  off : Nat
  fission : List (Site P)
  kTl : Tally K
  kCol : Tally K
  kAn : Option (Tally K)
  pin : Spatial K

/-- An event of the history with identifier `e.1`. -/
def Pusher.apply (pu : Pusher P K) (e : Nat × Ev P K) : Pusher P K :=
  match e.2 with
  | .weight w => { pu with kTl := pu.kTl.apply (.weight w), kCol := pu.kCol.apply (.weight w), pin := pu.pin.addWeight w }
  | .tl v => { pu with kTl := pu.kTl.apply (.score v) }
  | .col v => { pu with kCol := pu.kCol.apply (.score v) }
  | .pin i v => { pu with pin := pu.pin.score i v }
  | .site d => { pu with fission := pu.fission ++ [⟨e.1, d⟩] }

/-- `score` of a value that may not be a number. -/
def scoreOpt (t : Option (Tally K)) (v : Option K) : Option (Tally K) := do
  let t ← t
  let v ← v
  return t.apply (.score v)

/-- `add_weight(1.0)`. -/
def addOne (t : Option (Tally K)) : Option (Tally K) := t.map (·.apply (.weight 1))

/-- `get()` of a tally that may hold something that is not a number. -/
def getOpt (sqrt : K → K) (t : Option (Tally K)) : Option K × Option K :=
  match t with
  | none => (none, none)
  | some t => t.get sqrt

/-- particle_pusher.cpp:359-389 `simulate(bank)`: the bank is cleared, the histories run (`evs`, in the order in which
things happen), the analogue estimate is scored, the spatial tallies are committed, the offset moves on. -/
def Pusher.simulate (evs : List (Nat × Ev P K)) (bank : List (Site P)) (pu : Pusher P K) : Pusher P K :=
  let pu := evs.foldl Pusher.apply { pu with fission := [] }
  { pu with
    kAn := addOne (scoreOpt pu.kAn (fdiv (pu.fission.length : K) (bank.length : K)))
    pin := pu.pin.commit
    off := pu.off + bank.length }

/-- particle_pusher.hpp:143-164 `reset_tallies`. -/
def Pusher.reset (clearPersistent : Bool) (pu : Pusher P K) : Pusher P K :=
  { pu with
    kTl := Tally.zero, kCol := Tally.zero, kAn := some Tally.zero
    pin := if clearPersistent then Spatial.zero else pu.pin }

/-- One of the three estimators as the solver keeps it (monte_carlo_eigenvalue_solver.hpp:73-94): the value of every cycle,
the tally over active cycles, mean and deviation after each active cycle. -/
structure Est (K : Type) where
  hist : List (Option K)
  tally : Option (Tally K)
  mean : List (Option K)
  dev : List (Option K)

/-- monte_carlo_eigenvalue_solver.cpp:146-148 and 152-165 for one estimator with value `k` in this cycle. -/
def Est.add (sqrt : K → K) (active : Bool) (k : Option K) (e : Est K) : Est K :=
  let e := { e with hist := e.hist ++ [k] }
  if active then
    let t := addOne (scoreOpt e.tally k)
    { e with tally := t, mean := e.mean ++ [(getOpt sqrt t).1], dev := e.dev ++ [(getOpt sqrt t).2] }
  else e

/-- The solver: monte_carlo_eigenvalue_solver.hpp:55-95. -/
structure McSolver (P K : Type) where
  cycle : Int
  active : Bool
  rng : U64
  bank : List (Site P)
  pu : Pusher P K
  tl : Est K
  col : Est K
  an : Est K
  entropy : List K

/-- monte_carlo_eigenvalue_solver.cpp:133-202 `step`.  `ent` is `shannon_entropy` of a bank (C43), which may throw. After
the swap the pusher holds the old source. -/
def mcStep (sqrt : K → K) (ent : List (Site P) → Out K) (ppc : Nat) (evs : List (Nat × Ev P K)) (s : McSolver P K) :
    Out (McSolver P K) :=
  let pu := s.pu.simulate evs s.bank
  match ent s.bank with
  | .throw => .throw
  | .ub => .ub
  | .ok h =>
    let tl := s.tl.add sqrt s.active (pu.kTl.get sqrt).1
    let col := s.col.add sqrt s.active (pu.kCol.get sqrt).1
    let an := s.an.add sqrt s.active (getOpt sqrt pu.kAn).1
    match endOfCycle ppc s.rng pu.fission with
    | .throw => .throw
    | .ub => .ub
    | .ok (r, b) =>
      .ok { s with
        cycle := s.cycle + 1, rng := r, bank := b, tl := tl, col := col, an := an, entropy := s.entropy ++ [h]
        pu := ({ pu with fission := s.bank }).reset false }

/-- What the history of a source particle does: it registers its weight, then whatever `hist` says
(particle_pusher.cpp:166-187 and the rest of the function). -/
def evLog (wt : P → K) (hist : Nat → Site P → List (Ev P K)) (off : Nat) (p : Site P) : List (Nat × Ev P K) :=
  (p.id, .weight (wt p.data)) :: (hist off p).map (fun e => (p.id, e))

/-- A cycle with an arbitrary distribution of the histories over threads and an arbitrary interleaving of their events
(particle_pusher.cpp:371-379; pushes are in a critical section, additions to tallies are atomic). -/
def McCycle (sqrt : K → K) (ent : List (Site P) → Out K) (wt : P → K) (hist : Nat → Site P → List (Ev P K)) (ppc : Nat)
    (s : McSolver P K) (out : Out (McSolver P K)) : Prop :=
  ∃ (sched : List (List (Site P))) (evs : List (Nat × Ev P K)), sched.flatten.Perm s.bank ∧
    Interleave (sched.map (fun ps => ps.flatMap (evLog wt hist s.pu.off))) evs ∧ out = mcStep sqrt ent ppc evs s

/-- `n` calls of `step`. -/
def McCycles (sqrt : K → K) (ent : List (Site P) → Out K) (wt : P → K) (hist : Nat → Site P → List (Ev P K)) (ppc : Nat) :
    Nat → McSolver P K → Out (McSolver P K) → Prop
  | 0, s, out => out = .ok s
  | n + 1, s, out => ∃ mid, McCycle sqrt ent wt hist ppc s mid ∧
      (match mid with
      | .ok s' => McCycles sqrt ent wt hist ppc n s' out
      | .throw => out = .throw
      | .ub => out = .ub)

/-- monte_carlo_eigenvalue_solver.cpp:95-124 `solve` with `n_inactive` inactive and `nActive` active cycles; how many active
ones there are is the subject of C45. -/
def McSolve (sqrt : K → K) (ent : List (Site P) → Out K) (wt : P → K) (hist : Nat → Site P → List (Ev P K)) (ppc : Nat)
    (nInactive nActive : Nat) (s : McSolver P K) (out : Out (McSolver P K)) : Prop :=
  ∃ mid, McCycles sqrt ent wt hist ppc nInactive { s with cycle := -(nInactive : Int), active := false } mid ∧
    (match mid with
    | .ok s' => McCycles sqrt ent wt hist ppc nActive { s' with active := true, pu := s'.pu.reset true } out
    | .throw => out = .throw
    | .ub => out = .ub)

/-- The solver as constructed (monte_carlo_eigenvalue_solver.cpp:40-90): the source bank with its numbers from zero
(fission_bank.cpp:60-83), everything else empty. -/
def McSolver.fresh (rng : U64) (bank : List P) : McSolver P K :=
  let e : Est K := ⟨[], some Tally.zero, [], []⟩
  ⟨0, false, rng, bank.mapIdx (fun i d => ⟨i, d⟩), ⟨0, [], Tally.zero, Tally.zero, some Tally.zero, Spatial.zero⟩, e, e, e, []⟩

end Verif.Mc
