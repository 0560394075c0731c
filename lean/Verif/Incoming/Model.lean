import Verif.Moc.CoarseModel
import Verif.Sn.CurrentModel

/-!
# Model of the update of incoming angular fluxes from CMFD results

`update_incoming_flux` of `src/sweepers/sn/sn_sweeper.cpp` and `src/sweepers/moc/moc_sweeper.cpp`, and `update_incoming_generic` of the
headers.  Partial currents are pairs: `.1` is element 0, `.2` element 1 (`cmfd.cpp:598-599`: positive and negative direction).
-/

namespace Verif.Incoming

open Verif.Mesh Verif.Sn

variable {K : Type} [Field K] [LinearOrder K]

/-- sn_sweeper.cpp:148-163, moc_sweeper.cpp:265-279: the lambda if there are old partial currents. -/
def ratio (part old : Nat → K × K) (v : K) (is : Nat) : K :=
  let new_ := 2 * ((part is).1 + (part is).2)
  let old_ := 2 * ((old is).1 + (old is).2)
  if 0 < old_ then v * (new_ / old_) else v

/-- sn_sweeper.cpp:167-170: the lambda without old partial currents; `rfpi` is `RFPI`, `sense` its argument `i`. -/
def firstSn (rfpi : K) (part : Nat → K × K) (_v : K) (is : Nat) (sense : Bool) : K :=
  let p := if sense then (part is).2 else (part is).1
  2 * rfpi * (p + p)

/-- moc_sweeper.cpp:281-286. -/
def firstMoc (rfpi : K) (part : Nat → K × K) (_v : K) (is : Nat) : K := 2 * rfpi * ((part is).1 + (part is).2)

/-- sn_sweeper.hpp:240-262 (and alike for the other normals): the two nested loops over a face, for the cells in order, with the counter
`i`.  `none`: access outside of the table of surfaces. -/
def walkFace (d : Dims) (up : Surface) (f : K → Nat → K) : List Pos → Nat → (Nat → K) → Option (Nat → K)
  | [], _, face => some face
  | p :: rest, i, face => do
    let is ← coarseSurf d (coarseCell d p) up
    walkFace d up f rest (i + 1) (fun j => if j = i then f (face j) is else face j)

/-- The cells of a face in the order of the loops: sn_sweeper.hpp:245-249, 266-270, 287-291. -/
def faceCells (d : Dims) (a : Ray3 K) : Ax3 → List Pos
  | .x => (List.range d.nz).flatMap fun iz => (List.range d.ny).map fun iy => ⟨if 0 < a.ox then 0 else d.nx - 1, iy, iz⟩
  | .y => (List.range d.nz).flatMap fun iz => (List.range d.nx).map fun ix => ⟨ix, if 0 < a.oy then 0 else d.ny - 1, iz⟩
  | .z => (List.range d.ny).flatMap fun iy => (List.range d.nx).map fun ix => ⟨ix, iy, if 0 < a.oz then 0 else d.nz - 1⟩

/-- sn_sweeper.hpp:241-243, 262-264, 283-285: the surface and the value of `sense`. -/
def upwindOf (a : Ray3 K) : Ax3 → Surface × Bool
  | .x => if 0 < a.ox then (.WEST, true) else (.EAST, false)
  | .y => if 0 < a.oy then (.SOUTH, true) else (.NORTH, false)
  | .z => if 0 < a.oz then (.BOTTOM, true) else (.TOP, false)

/-- sn_sweeper.hpp:236-299, one group and one ordinate: the incoming values `b` of the three faces. -/
def updateSn (d : Dims) (a : Ray3 K) (f : K → Nat → Bool → K) (b : Ax3 → Nat → K) (x : Ax3) : Option (Nat → K) :=
  walkFace d (upwindOf a x).1 (fun v is => f v is (upwindOf a x).2) (faceCells d a x) 0 (b x)

/-- A ray with the numbers of its slots in the boundary condition (ray.hpp `bc`). -/
structure BRay where
  ray : Moc.CoarseRay
  bc0 : Nat
  bc1 : Nat

/-- moc_sweeper.hpp:213-224, one group, plane and angle: the loop over the rays.  The indices handed to the lambda are the cells. -/
def updateRays (f : K → Nat → K) : List BRay → (Nat → K) × (Nat → K) → (Nat → K) × (Nat → K)
  | [], b => b
  | r :: rest, b =>
    updateRays f rest (fun j => if j = r.bc0 then f (b.1 j) r.ray.cellFw else b.1 j,
      fun j => if j = r.bc1 then f (b.2 j) r.ray.cellBw else b.2 j)

/-- moc_sweeper.hpp:204-206, 228: numbers of the elements of `boundary_` that are updated, for `nz` planes (`unique_plane_ids` has one
entry for each plane). -/
def updatedBoundaries (nz : Nat) : List Nat := List.range nz

end Verif.Incoming
