import Mathlib.Data.List.Basic

/-!
# Memory accesses of the parallel regions

A parallel region is the list of its OpenMP constructs.  All threads of the team go through the same constructs (the conditions in front of them are the same for all threads); between two barriers nothing
orders the accesses of different threads except critical sections and atomic updates.  Memory that no thread writes during the region (cross sections, sources, rays, mesh) and private variables are left out.
-/

namespace Verif.Par

/-- `#pragma omp atomic`, `#pragma omp critical` (one lock for all unnamed critical sections) or neither. -/
inductive Sync
  | plain
  | atomic
  | critical
deriving DecidableEq, Repr

/-- A store of a value known from the program, or any other write (`update`). -/
inductive Op
  | read
  | store (v : Int)
  | update
deriving DecidableEq, Repr

/-- One access to shared memory. -/
structure Access (L : Type) where
  loc : L
  op : Op
  sync : Sync
deriving DecidableEq, Repr

/-- Constructs of a parallel region: code that every thread executes, `#pragma omp for`, `#pragma omp single` (both with the barrier at their end) and `#pragma omp barrier`.  Code can depend on the number of the thread. -/
inductive Item (L : Type)
  | each (f : Nat → List (Access L))
  | share (n : Nat) (body : Nat → Nat → List (Access L))
  | single (a : List (Access L))
  | barrier

/-- Which thread executes an iteration of the loop, or the single block, that is the k-th construct. -/
structure Sched where
  iter : Nat → Nat → Nat
  one : Nat → Nat

/-- The accesses of thread `t`, one list for each interval between barriers; `cur` are those since the last barrier. -/
def phases {L : Type} (s : Sched) (t : Nat) : Nat → List (Item L) → List (Access L) → List (List (Access L))
  | _, [], cur => [cur]
  | k, .each f :: r, cur => phases s t (k + 1) r (cur ++ f t)
  | k, .share n body :: r, cur => (cur ++ ((List.range n).filter fun i => s.iter k i = t).flatMap fun i => body i t) :: phases s t (k + 1) r []
  | k, .single a :: r, cur => (cur ++ if s.one k = t then a else []) :: phases s t (k + 1) r []
  | k, .barrier :: r, cur => cur :: phases s t (k + 1) r []

/-! ### The MoC sweep -/

/-- Shared memory of the MoC sweep: members of the current worker (moc_current_worker.hpp:320-329, correction_worker.hpp:267-281), coarse data of the group, incoming and outgoing boundary values of (plane, direction, slot), scalar flux. -/
inductive MocLoc
  | plane
  | cellOff
  | surfOff
  | cellOffXs
  | weights
  | ang
  | sum (i : Nat)
  | corr
  | current (surf : Nat)
  | bcIn (plane ang slot : Nat)
  | bcOut (plane ang slot : Nat)
  | flux (i : Nat)
deriving DecidableEq, Repr

/-- The three workers (moc_current_worker.hpp:35 `NoCurrent`, :137 `Current`, correction_worker.hpp:36 `CurrentCorrections`). -/
inductive Worker
  | none
  | current
  | corrections
deriving DecidableEq, Repr

/-- The slots of the ends of a ray, and the surfaces and sums its current contributions go to. -/
structure RayEnds where
  bc1 : Nat
  bc2 : Nat
  surfs : List Nat
  sums : List Nat
deriving Repr

/-- What the accesses of a sweep depend on.  `slots` are the (direction, slot) pairs of a boundary condition. -/
structure MocRun where
  worker : Worker
  gs : Bool
  nReg : Nat
  nSum : Nat
  nSurf : Nat
  cellsPerPlane : Nat
  surfsPerPlane : Nat
  xsOffset : Nat → Nat
  reverse : Nat → Nat
  slots : List (Nat × Nat)
  rays : List (List (List RayEnds))

/-- A read without protection. -/
def rd {L : Type} (l : L) : Access L := ⟨l, .read, .plain⟩

/-- A store without protection. -/
def st {L : Type} (l : L) (v : Int) : Access L := ⟨l, .store v, .plain⟩

/-- A write without protection. -/
def up {L : Type} (l : L) : Access L := ⟨l, .update, .plain⟩

/-- moc_current_worker.hpp:107-110 and 175-180, correction_worker.hpp:100-107: `set_plane`, called by every thread (moc_sweeper_kernel.inc.hpp:55). -/
def setPlane (m : MocRun) (p : Nat) : List (Access MocLoc) :=
  match m.worker with
  | .none => []
  | .current => [st .plane p, st .cellOff ((m.cellsPerPlane * p : Nat) : Int), st .surfOff ((m.surfsPerPlane * p : Nat) : Int)]
  | .corrections => [st .plane p, st .cellOff ((m.cellsPerPlane * p : Nat) : Int), st .surfOff ((m.surfsPerPlane * p : Nat) : Int), st .cellOffXs (m.xsOffset p : Int)]

/-- moc_current_worker.hpp:94-97 and 182-200, correction_worker.hpp:207-221: `set_angle`. -/
def setAngle (m : MocRun) (a : Nat) : List (Item MocLoc) :=
  match m.worker with
  | .none => []
  | .current => [.single [rd .plane, up .weights], .barrier]
  | .corrections => [.single [rd .plane, up .weights], .barrier, .each fun _ => st .ang a :: (List.range m.nSum).map fun i => st (.sum i) 0, .barrier]

/-- An access in a critical section. -/
def crit {L : Type} (l : L) (o : Op) : Access L := ⟨l, o, .critical⟩

/-- moc_current_worker.hpp:84-89 and 202-263, correction_worker.hpp:109-205: `post_ray`, one critical section. -/
def postRay (m : MocRun) (r : RayEnds) : List (Access MocLoc) :=
  match m.worker with
  | .none => []
  | .current => [crit .cellOff .read, crit .surfOff .read, crit .weights .read] ++ r.surfs.map fun s => crit (.current s) .update
  | .corrections => [crit .surfOff .read, crit .weights .read, crit .ang .read] ++ (r.surfs.map fun s => crit (.current s) .update) ++ r.sums.map fun i => crit (.sum i) .update

/-- moc_sweeper_kernel.inc.hpp:85-132: one ray of direction `a`: incoming values of both ends are read, outgoing ones written. -/
def sweepRay (m : MocRun) (p a : Nat) (r : RayEnds) : List (Access MocLoc) :=
  [rd (.bcIn p a r.bc1), up (.bcOut p a r.bc2), rd (.bcIn p (m.reverse a) r.bc2), up (.bcOut p (m.reverse a) r.bc1)] ++ postRay m r

/-- moc_current_worker.hpp:102-105 and 160-163, correction_worker.hpp:223-246: `post_angle`. -/
def postAngle (m : MocRun) : List (Item MocLoc) :=
  match m.worker with
  | .none => []
  | .current => []
  | .corrections => [.single (((List.range m.nSum).map fun i => up (.sum i)) ++ [rd .cellOffXs, up .corr]), .barrier]

/-- moc_sweeper_kernel.inc.hpp:139-142, 148-150: `boundary_in.update`; all slots of the plane, though an update for one direction writes only some. -/
def updateBc (m : MocRun) (p : Nat) : List (Access MocLoc) := m.slots.flatMap fun x => [rd (.bcOut p x.1 x.2), up (.bcIn p x.1 x.2)]

/-- moc_sweeper_kernel.inc.hpp:59-145: one direction. -/
def angleItems (m : MocRun) (p a : Nat) (rays : List RayEnds) : List (Item MocLoc) :=
  setAngle m a ++ [.share rays.length fun i _ => (rays[i]?.map (sweepRay m p a)).getD []] ++ postAngle m ++ (if m.gs then [.single (updateBc m p)] else [])

/-- moc_sweeper_kernel.inc.hpp:50-153: one macroplane. -/
def planeItems (m : MocRun) (p : Nat) (angs : List (List RayEnds)) : List (Item MocLoc) :=
  [.each fun _ => setPlane m p] ++ (angs.zipIdx.flatMap fun x => angleItems m p x.2 x.1) ++ (if m.gs then [] else [.single (updateBc m p)])

/-- moc_current_worker.hpp:112-115 and 272-317 `post_sweep`. -/
def postSweep (m : MocRun) : List (Item MocLoc) :=
  match m.worker with
  | .none => []
  | _ => [.single ((List.range m.nSurf).map fun s => up (.current s))]

/-- moc_sweeper_kernel.inc.hpp:42-177: the parallel region of `sweep1g`. -/
def mocItems (m : MocRun) : List (Item MocLoc) :=
  (m.rays.zipIdx.flatMap fun x => planeItems m x.2 x.1) ++
    [.barrier, .each fun _ => (List.range m.nReg).map fun i => crit (.flux i) .update, .barrier, .single ((List.range m.nReg).map fun i => up (.flux i))] ++ postSweep m

/-! ### The Sn sweep -/

/-- Shared memory of the Sn sweep; the current worker is private to the thread (sn_sweeper_variant.hpp:171, 313). -/
inductive SnLoc
  | current (surf : Nat)
  | bcIn (ang slot : Nat)
  | bcOut (ang slot : Nat)
  | flux (i : Nat)
deriving DecidableEq, Repr

/-- `slots` of a direction, the surfaces it crosses, and the (direction, slot) pairs that the boundary update after it writes. -/
structure SnRun where
  gs : Bool
  nReg : Nat
  nAng : Nat
  slots : Nat → List Nat
  surfs : Nat → List Nat
  reflected : Nat → List (Nat × Nat)

/-- sn_sweeper_variant.hpp:188-281, 330-403 with sn_current_worker.hpp:45-255: one direction; currents are updated atomically. -/
def snAngle (m : SnRun) (a : Nat) : List (Access SnLoc) :=
  ((m.slots a).flatMap fun s => [rd (.bcIn a s), up (.bcOut a s)]) ++ ((m.surfs a).map fun s => ⟨.current s, .update, .atomic⟩) ++
    (if m.gs then ((m.slots a).map fun s => rd (.bcOut a s)) ++ (m.reflected a).map fun x => up (.bcIn x.1 x.2) else [])

/-- sn_sweeper_variant.hpp:169-294, 311-416: the parallel region of `sweep_1g` and `sweep_1g_2d`. -/
def snItems (m : SnRun) : List (Item SnLoc) :=
  [.share m.nAng fun a _ => snAngle m a,
   .single (if m.gs then [] else (List.range m.nAng).flatMap fun a => ((m.slots a).map fun s => rd (.bcOut a s)) ++ (m.reflected a).map fun x => up (.bcIn x.1 x.2)),
   .each fun _ => (List.range m.nReg).map fun i => crit (.flux i) .update]

/-- sn_sweeper.cpp:99-119: what is left of the option `boundary_update`. -/
def snGaussSeidel (maxThreads : Nat) (wanted : Bool) : Bool := if 1 < maxThreads ∧ wanted then false else wanted

/-! ### Monte Carlo -/

/-- Shared memory of a Monte Carlo cycle, and the generator, of which each thread has its own (particle_pusher.cpp:64-66). -/
inductive McLoc
  | tally (i : Nat)
  | sites
  | rng (thread : Nat)
deriving DecidableEq, Repr

/-- What happens to one particle in a cycle. -/
inductive McEvent
  | draw
  | score (i : Nat)
  | bank

/-- particle_pusher.cpp:165-353, tally_scalar.hpp:44-61, tally_spatial.hpp:60-66 and 90-95, fission_bank.hpp:91-99: accesses of an event. -/
def mcAccess (t : Nat) : McEvent → Access McLoc
  | .draw => up (.rng t)
  | .score i => ⟨.tally i, .update, .atomic⟩
  | .bank => crit .sites .update

/-- particle_pusher.cpp:371-379: the parallel region of `simulate(bank)`. -/
def mcItems (n : Nat) (history : Nat → List McEvent) : List (Item McLoc) := [.share n fun i t => (history i).map (mcAccess t)]

end Verif.Par
