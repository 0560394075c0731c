import Verif.Source.Model
import Verif.Normalize.Model

/-!
# The source of the 2D3D sweeper and the error of the fission source

`Source_2D3D` (src/sweepers/cmdo/source_2d3d.hpp), the parts of `PlaneSweeper_2D3D` that deal with it (src/sweepers/cmdo/plane_sweeper_2d3d.hpp), and the
convergence check of the eigenvalue solver (src/solvers/eigen_solver.cpp).  Arrays of regions are functions of the index, as in `Source.Model`.
-/

namespace Verif.Source

open Verif.XS

variable {K : Type} [Field K] [LinearOrder K]

/-- What a sweeper has: the number of regions, its cross-section mesh and its flux. -/
structure Side (K : Type) where
  nReg : Nat
  rs : List (XsRegion (Mat K))
  flux : Nat → Nat → K

/-- plane_sweeper_2d3d.hpp:170-185 `calc_fission_source`: the first `sn.nReg` values are those of the Sn sweeper, then come those of the MoC sweeper. -/
def pairCalc (ng : Nat) (sn moc : Side K) (k : K) : Nat → K := fun i =>
  if i < sn.nReg then calcFissionSource ng sn.rs k sn.flux i else calcFissionSource ng moc.rs k moc.flux (i - sn.nReg)

/-- source_2d3d.hpp:60-64, 79-97 with fixed_source_solver.cpp:108-120: the group source of both, in the order `initialize_group`, `fission`, `in_scatter`.
`add_external` is that of the base class, which is the MoC source (source.hpp:111, fixed_source_solver.cpp:66); the source of Sn has no external source.
`none` is a read out of bounds. -/
def pairAssemble (ng : Nat) (sn moc : Side K) (ext : Option (Ext K)) (fs : Nat → K) (ig : Nat) : Option ((Nat → K) × (Nat → K)) :=
  (assemble ng moc.nReg moc.rs ext (fun i => fs (sn.nReg + i)) moc.flux ig).bind fun m =>
    (assemble ng sn.nReg sn.rs none (fun i => fs i) sn.flux ig).map fun s => (s, m)

/-- plane_sweeper_2d3d.hpp:143-150 `n_reg`. -/
def pairNReg (exposeSn : Bool) (sn moc : Side K) : Nat := if exposeSn then sn.nReg else moc.nReg

/-- eigen_solver.cpp:179-183: the sum of squares of the differences in the first `nReg` elements, where both arrays have been normalised; `none` is an element
out of bounds. -/
def sumSq (nReg : Nat) (a b : List K) : Option K :=
  (List.range nReg).foldl (fun (t : Option K) i =>
    match t, a[i]?, b[i]? with
    | some t, some x, some y => some (t + (x - y) * (x - y))
    | _, _, _ => none) (some 0)

/-- eigen_solver.cpp:175-184: the square of `error_psi_`.  `nReg` is `sweeper()->n_reg()`, `nFissile` the number of fissile regions.  `none` is a read out of
bounds or a division by zero in `Normalize` (which gives values that are not numbers). -/
def errorSq (nReg nFissile : Nat) (fs prev : List K) : Option K :=
  (Normalize.normalize fs).bind fun a => (Normalize.normalize prev).bind fun b => (sumSq nReg a.1 b.1).map fun t => t / nFissile

end Verif.Source
