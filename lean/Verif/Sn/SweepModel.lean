import Verif.Mesh.Model

/-!
# Model of the one-angle Sn sweep (src/sweepers/sn/sn_sweeper_variant.hpp)

The loop over ordinates, threads and the boundary update are modelled in `Verif.Sn.AngleModel`; here is the body of
that loop from the upwind condition on.  The cell equation is a parameter, so that every scheme of `Verif.Sn.CellModel`
(and any other) is covered.
-/

namespace Verif.Sn

open Verif.Mesh (Dims coarseCell)

/-- The three face fluxes of the three-dimensional sweep. -/
inductive Ax3 | x | y | z
  deriving DecidableEq, Repr

/-- The two face fluxes of the two-dimensional sweep. -/
inductive Ax2 | x | y
  deriving DecidableEq, Repr

variable {K : Type} [Add K] [Mul K]

/-- sn_sweeper_variant.hpp:170-186: `flux .x` is the array behind `x_flux` (boundary slots of `bc_out_`), and so on;
`tflux` the thread's scalar flux.  `out i` records the arguments `current_work` is called with for cell `i`, together
with the cell flux. -/
structure State (κ K : Type) where
  flux : κ → Nat → K
  tflux : Nat → K
  out : Nat → K × (κ → K)

/-- sn_sweeper_variant.hpp:254-275 (and 381-398 in two dimensions): one cell.  `w` gives the slot of each face array,
`i` the cell and `ev` the scheme: incoming fluxes to cell flux and outgoing fluxes. -/
def cellStep {κ : Type} (wgt : K) (w : κ → Nat) (i : Nat) (ev : (κ → K) → K × (κ → K)) (s : State κ K) : State κ K :=
  let o := ev (fun k => s.flux k (w k))
  { flux := fun k j => if j = w k then o.2 k else s.flux k j
    tflux := fun j => if j = i then s.tflux j + o.1 * wgt else s.tflux j
    out := fun j => if j = i then o else s.out j }

/-- sn_sweeper_variant.hpp:206-234: the indices `for (i = stt; i != stp; i += dir)` runs through, from zero upwards, or
from `n - 1` downwards if the direction cosine is negative. -/
def order (n : Nat) (neg : Bool) : List Nat := if neg then (List.range n).reverse else List.range n

/-- sn_sweeper_variant.hpp:256-258: slots of the face arrays. -/
def slot3 (d : Dims) (ix iy iz : Nat) : Ax3 → Nat
  | .x => d.ny * iz + iy
  | .y => d.nx * iz + ix
  | .z => d.nx * iy + ix

/-- sn_sweeper_variant.hpp:383-384. -/
def slot2 (ix iy : Nat) : Ax2 → Nat
  | .x => iy
  | .y => ix

/-- sn_sweeper_variant.hpp:249-277: the three nested loops over the cells. -/
def sweep3 (d : Dims) (nx ny nz : Bool) (wgt : K) (ev : Nat → Nat → Nat → (Ax3 → K) → K × (Ax3 → K))
    (s : State Ax3 K) : State Ax3 K :=
  (order d.nz nz).foldl (fun s iz =>
    (order d.ny ny).foldl (fun s iy =>
      (order d.nx nx).foldl (fun s ix =>
        cellStep wgt (slot3 d ix iy iz) (coarseCell d ⟨ix, iy, iz⟩) (ev ix iy iz) s) s) s) s

/-- sn_sweeper_variant.hpp:379-399: the two nested loops in two dimensions. -/
def sweep2 (d : Dims) (nx ny : Bool) (wgt : K) (ev : Nat → Nat → (Ax2 → K) → K × (Ax2 → K))
    (s : State Ax2 K) : State Ax2 K :=
  (order d.ny ny).foldl (fun s iy =>
    (order d.nx nx).foldl (fun s ix =>
      cellStep wgt (slot2 ix iy) (coarseCell d ⟨ix, iy, 0⟩) (ev ix iy) s) s) s

end Verif.Sn
