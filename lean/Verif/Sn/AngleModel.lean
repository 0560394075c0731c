import Verif.Sn.SweepModel
import Mathlib.Algebra.Field.Defs

/-!
# Model of the loop over ordinates of the Sn sweep (src/sweepers/sn/sn_sweeper_variant.hpp:166-297, 308-420)

With more than one thread the boundary update is not Gauss-Seidel (sn_sweeper.cpp:115-119 switches it off), so during
`omp for` the incoming boundary values are only read.
-/

namespace Verif.Sn

variable {K : Type} [Field K]

/-- One ordinate: its number, the cell loops (`sweep3` or `sweep2` with the data of the ordinate), and what the current
worker adds to the coarse data, given the boundary values at the start and the outgoing fluxes of all cells
(sn_current_worker.hpp `upwind_work` and `current_work`), as index-value pairs. -/
structure Ordinate (κ K : Type) where
  iang : Nat
  sweep : State κ K → State κ K
  adds : (κ → Nat → K) → (Nat → K × (κ → K)) → List (Nat × K)

/-- sn_sweeper_variant.hpp:237-245: the face arrays of the ordinate are filled from the incoming boundary condition. -/
def start {κ : Type} (bin : Nat → κ → Nat → K) (tflux : Nat → K) (o : Ordinate κ K) : State κ K :=
  { flux := bin o.iang, tflux := tflux, out := fun _ => (0, fun _ => 0) }

/-- The scalar flux of a thread after the ordinates it is given, in order. -/
def threadFlux {κ : Type} (bin : Nat → κ → Nat → K) (os : List (Ordinate κ K)) : Nat → K :=
  os.foldl (fun t o => (o.sweep (start bin t o)).tflux) (fun _ => 0)

/-- Outgoing boundary values after the ordinates in some order. -/
def boundaryOut {κ : Type} (bin : Nat → κ → Nat → K) (os : List (Ordinate κ K)) (bout : Nat → κ → Nat → K) :
    Nat → κ → Nat → K :=
  os.foldl (fun b o => fun a => if a = o.iang then (o.sweep (start bin (fun _ => 0) o)).flux else b a) bout

/-- All additions to the coarse data. -/
def allAdds {κ : Type} (bin : Nat → κ → Nat → K) (os : List (Ordinate κ K)) : List (Nat × K) :=
  os.flatMap (fun o => o.adds (bin o.iang) (o.sweep (start bin (fun _ => 0) o)).out)

/-- The result of a sweep: scalar flux, outgoing and incoming boundary values, coarse data.  `assign` gives the ordinates
of each thread, `wr` the order of the boundary writes, `ord` the order of the reductions (lines 291-294), `at` the
order of the atomic additions to the coarse data; `upd` is the boundary update of line 286. -/
def parSweep {κ : Type} (bin bout : Nat → κ → Nat → K) (cur : Nat → K)
    (upd : (Nat → κ → Nat → K) → (Nat → κ → Nat → K) → (Nat → κ → Nat → K))
    (assign : Nat → List (Ordinate κ K)) (wr : List (Ordinate κ K)) (ord : List Nat) (atomics : List (Nat × K)) :
    (Nat → K) × (Nat → κ → Nat → K) × (Nat → κ → Nat → K) × (Nat → K) :=
  let bo := boundaryOut bin wr bout
  (ord.foldl (fun f t i => f i + threadFlux bin (assign t) i) (fun _ => 0), bo, upd bin bo,
    atomics.foldl (fun c p => fun i => if i = p.1 then c i + p.2 else c i) cur)

/-- The serial sweep. -/
def serialSweep {κ : Type} (bin bout : Nat → κ → Nat → K) (cur : Nat → K)
    (upd : (Nat → κ → Nat → K) → (Nat → κ → Nat → K) → (Nat → κ → Nat → K)) (os : List (Ordinate κ K)) :
    (Nat → K) × (Nat → κ → Nat → K) × (Nat → κ → Nat → K) × (Nat → K) :=
  parSweep bin bout cur upd (fun _ => os) os [0] (allAdds bin os)

end Verif.Sn
