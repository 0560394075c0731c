import Verif.Sn.SweepModel
import Mathlib.Algebra.Order.Field.Basic

/-!
# Model of the coarse currents of the Sn sweep

`src/sweepers/sn/sn_current_worker.hpp` (class `Current`), used by `src/sweepers/sn/sn_sweeper_variant.hpp`.
-/

namespace Verif.Sn

open Verif.Mesh (Dims coarseCell coarseSurf Surface)

variable {K : Type} [Field K] [LinearOrder K]

/-- The parts of an `Angle` that are used. -/
structure Ray3 (K : Type) where
  ox : K
  oy : K
  oz : K
  weight : K

/-- sn_current_worker.hpp:266-277 `set_octant`. -/
def downwind (a : Ray3 K) : Ax3 → Surface
  | .x => if 0 < a.ox then .EAST else .WEST
  | .y => if 0 < a.oy then .NORTH else .SOUTH
  | .z => if 0 < a.oz then .TOP else .BOTTOM

/-- sn_current_worker.hpp:266-277 `set_octant`. -/
def upwindSurf (a : Ray3 K) : Ax3 → Surface
  | .x => if 0 < a.ox then .WEST else .EAST
  | .y => if 0 < a.oy then .SOUTH else .NORTH
  | .z => if 0 < a.oz then .BOTTOM else .TOP

/-- Addition to one element of an array; none if there is no such surface. -/
def bump (cur : Nat → K) (n : Option Nat) (v : K) : Nat → K := fun j => if n = some j then cur j + v else cur j

/-- sn_current_worker.hpp:49-124 `upwind_work`, currents.  `hpi` is the constant `HPI`; `b` are the three arrays. -/
def upwindWork (d : Dims) (hpi : K) (a : Ray3 K) (b : Ax3 → Nat → K) (cur : Nat → K) : Nat → K :=
  let w := a.weight * hpi
  let ixx := if a.ox < 0 then d.nx - 1 else 0
  let iyy := if a.oy < 0 then d.ny - 1 else 0
  let izz := if a.oz < 0 then d.nz - 1 else 0
  let cur1 := (List.range d.nz).foldl (fun cur iz => (List.range d.ny).foldl (fun cur iy =>
    bump cur (coarseSurf d (coarseCell d ⟨ixx, iy, iz⟩) (upwindSurf a .x)) (a.ox * w * b .x (d.ny * iz + iy))) cur) cur
  let cur2 := (List.range d.nz).foldl (fun cur iz => (List.range d.nx).foldl (fun cur ix =>
    bump cur (coarseSurf d (coarseCell d ⟨ix, iyy, iz⟩) (upwindSurf a .y)) (a.oy * w * b .y (d.nx * iz + ix))) cur) cur1
  (List.range d.ny).foldl (fun cur iy => (List.range d.nx).foldl (fun cur ix =>
    bump cur (coarseSurf d (coarseCell d ⟨ix, iy, izz⟩) (upwindSurf a .z)) (a.oz * w * b .z (d.nx * iy + ix))) cur) cur2

/-- sn_current_worker.hpp:182-224 `current_work`, currents. -/
def currentWork (d : Dims) (hpi : K) (a : Ray3 K) (psi : Ax3 → K) (i : Nat) (cur : Nat → K) : Nat → K :=
  let w := a.weight * hpi
  let cur1 := bump cur (coarseSurf d i (downwind a .x)) (psi .x * (a.ox * w))
  let cur2 := bump cur1 (coarseSurf d i (downwind a .y)) (psi .y * (a.oy * w))
  bump cur2 (coarseSurf d i (downwind a .z)) (psi .z * (a.oz * w))

/-- sn_sweeper_variant.hpp:242-275: the calls of `upwind_work` and, in the order of the sweep, `current_work` for one ordinate.  The face
fluxes of a cell are those recorded for it by `sweep3`. -/
def sweepCurrent (d : Dims) (hpi : K) (a : Ray3 K) (b : Ax3 → Nat → K) (out : Nat → K × (Ax3 → K)) (cur : Nat → K) : Nat → K :=
  (order d.nz (a.oz < 0)).foldl (fun cur iz =>
    (order d.ny (a.oy < 0)).foldl (fun cur iy =>
      (order d.nx (a.ox < 0)).foldl (fun cur ix =>
        currentWork d hpi a (out (coarseCell d ⟨ix, iy, iz⟩)).2 (coarseCell d ⟨ix, iy, iz⟩) cur) cur) cur) (upwindWork d hpi a b cur)

/-- sn_current_worker.hpp:125-177 `upwind_work` in two dimensions, currents.  `pi` is the constant `PI`. -/
def upwindWork2 (d : Dims) (pi : K) (a : Ray3 K) (b : Ax2 → Nat → K) (cur : Nat → K) : Nat → K :=
  let w := a.weight * pi
  let ixx := if a.ox < 0 then d.nx - 1 else 0
  let iyy := if a.oy < 0 then d.ny - 1 else 0
  let cur1 := (List.range d.ny).foldl (fun cur iy =>
    bump cur (coarseSurf d (coarseCell d ⟨ixx, iy, 0⟩) (upwindSurf a .x)) (a.ox * w * b .x iy)) cur
  (List.range d.nx).foldl (fun cur ix =>
    bump cur (coarseSurf d (coarseCell d ⟨ix, iyy, 0⟩) (upwindSurf a .y)) (a.oy * w * b .y ix)) cur1

/-- sn_current_worker.hpp:226-260 `current_work` in two dimensions, currents. -/
def currentWork2 (d : Dims) (pi : K) (a : Ray3 K) (psi : Ax2 → K) (i : Nat) (cur : Nat → K) : Nat → K :=
  let w := a.weight * pi
  let cur1 := bump cur (coarseSurf d i (downwind a .x)) (psi .x * (a.ox * w))
  bump cur1 (coarseSurf d i (downwind a .y)) (psi .y * (a.oy * w))

/-- sn_sweeper_variant.hpp:376-400: the same calls in two dimensions. -/
def sweepCurrent2 (d : Dims) (pi : K) (a : Ray3 K) (b : Ax2 → Nat → K) (out : Nat → K × (Ax2 → K)) (cur : Nat → K) : Nat → K :=
  (order d.ny (a.oy < 0)).foldl (fun cur iy =>
    (order d.nx (a.ox < 0)).foldl (fun cur ix =>
      currentWork2 d pi a (out (coarseCell d ⟨ix, iy, 0⟩)).2 (coarseCell d ⟨ix, iy, 0⟩) cur) cur) (upwindWork2 d pi a b cur)

/-- One ordinate with its boundary values and its cell equation. -/
structure Sweep3 (K : Type) where
  ray : Ray3 K
  b : Ax3 → Nat → K
  ev : Nat → Nat → Nat → (Ax3 → K) → K × (Ax3 → K)

/-- sn_sweeper_variant.hpp:186-282: the ordinates one after the other, scalar flux and currents. -/
def sweepAll (d : Dims) (hpi : K) : List (Sweep3 K) → (Nat → K) × (Nat → K) → (Nat → K) × (Nat → K)
  | [], s => s
  | o :: rest, s =>
    let r := sweep3 d (o.ray.ox < 0) (o.ray.oy < 0) (o.ray.oz < 0) (o.ray.weight * hpi) o.ev ⟨o.b, s.1, fun _ => (0, fun _ => 0)⟩
    sweepAll d hpi rest (r.tflux, sweepCurrent d hpi o.ray o.b r.out s.2)

end Verif.Sn
