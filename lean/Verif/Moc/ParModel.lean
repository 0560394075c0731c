import Verif.Moc.KernelModel

/-!
# Model of the parallel MoC sweep

The threads of `omp parallel` (moc_sweeper_kernel.inc.hpp:43) run through planes and angles together: `omp for` (line 84)
and `omp single` end with a barrier.  Within an angle the rays are shared out over the threads in some way; each thread
runs its rays in some order, adding to its own `t_flux`; writes to the shared boundary arrays, and the additions of the
current worker inside its `omp critical` (moc_current_worker.hpp:206), happen in some interleaving.  The private scalar
fluxes are added up in `omp critical` (line 156) in some order.
-/

namespace Verif.Moc

variable {K : Type} [Field K]

/-- A schedule of one angle: the rays each thread gets, in the order it runs them, and the order in which the rays of
all threads get to the shared data. -/
structure Sched (K : Type) where
  rays : Nat → List (Ray K)
  order : List (Ray K)

/-- Private scalar fluxes by thread; boundary arrays; coarse-mesh data (currents and surface fluxes by index). -/
structure PSt (K : Type) where
  tflux : Nat → Nat → K
  bin : Nat → Nat → K
  bout : Nat → Nat → K
  cur : Nat → K

/-- moc_current_worker.hpp:202-264 in general form: what a ray adds to the coarse data, from the angular fluxes it starts
with; given as index-value pairs. -/
abbrev Worker (K : Type) := AngleWork K → (Nat → K) → (Nat → K) → Ray K → List (Nat × K)

/-- Additions to the coarse data. -/
def addAll (c : Nat → K) (l : List (Nat × K)) : Nat → K := l.foldl (fun c p => upd c p.1 (c p.1 + p.2)) c

/-- moc_sweeper_kernel.inc.hpp:59-145: one angle under a schedule. -/
def parAngle (expo : K → K) (xstr q : Nat → K) (gs : Bool) (u : BcUpdate K) (cw : Worker K) (first : Nat) (s : PSt K)
    (w : AngleWork K × Sched K) : PSt K :=
  let ray := sweepRay (eTau expo xstr w.1.rst first) q w.1.wt first (s.bin w.1.iang1) (s.bin w.1.iang2)
  let a := w.2.order.foldl ray ⟨fun _ => 0, s.bout w.1.iang1, s.bout w.1.iang2⟩
  let bout := upd (upd s.bout w.1.iang1 a.out1) w.1.iang2 a.out2
  { tflux := fun t => ((w.2.rays t).foldl ray ⟨s.tflux t, fun _ => 0, fun _ => 0⟩).tflux
    bin := if gs then u.one w.1.iang2 (u.one w.1.iang1 s.bin bout) bout else s.bin
    bout := bout
    cur := w.2.order.foldl (fun c r => addAll c (cw w.1 (s.bin w.1.iang1) (s.bin w.1.iang2) r)) s.cur }

/-- moc_sweeper_kernel.inc.hpp:51-153: one plane. -/
def parPlane (expo : K → K) (xstr q : Nat → K) (gs : Bool) (u : BcUpdate K) (cw : Nat → Worker K) (first : Nat)
    (angles : List (AngleWork K × Sched K)) (s : PSt K) : PSt K :=
  let s := angles.foldl (parAngle expo xstr q gs u (cw first) first) s
  { s with bin := if gs then s.bin else u.all s.bin s.bout }

/-- A plane with schedules and its boundary values. -/
structure PPlane (K : Type) where
  first : Nat
  angles : List (AngleWork K × Sched K)
  bin : Nat → Nat → K
  bout : Nat → Nat → K

/-- moc_sweeper_kernel.inc.hpp:51-162. -/
def parPlanes (expo : K → K) (xstr q : Nat → K) (gs : Bool) (u : BcUpdate K) (cw : Nat → Worker K) :
    List (PPlane K) → (Nat → Nat → K) → (Nat → K) →
      (Nat → Nat → K) × (Nat → K) × List ((Nat → Nat → K) × (Nat → Nat → K))
  | [], t, c => (t, c, [])
  | p :: ps, t, c =>
    let s := parPlane expo xstr q gs u cw p.first p.angles ⟨t, p.bin, p.bout, c⟩
    let r := parPlanes expo xstr q gs u cw ps s.tflux s.cur
    (r.1, r.2.1, (s.bin, s.bout) :: r.2.2)

/-- moc_sweeper_kernel.inc.hpp:38-180: the whole sweep; `ord` is the order in which the threads enter the critical section
of lines 156-162. -/
def parSweep (expo : K → K) (fpi : K) (xstr vol q : Nat → K) (gs : Bool) (u : BcUpdate K) (cw : Nat → Worker K)
    (ord : List Nat) (ps : List (PPlane K)) (c : Nat → K) :
    (Nat → K) × (Nat → K) × List ((Nat → Nat → K) × (Nat → Nat → K)) :=
  let r := parPlanes expo xstr q gs u cw ps (fun _ _ => 0) c
  (finish fpi xstr vol q (ord.foldl (fun f t i => f i + r.1 t i) (fun _ => 0)), r.2)

end Verif.Moc
