import Verif.Core.LatticeModel
import Verif.Mc.BankModel

/-!
# Model of the location of points in the core

`src/core/mesh.hpp` 837-854 (`plane_index`), `src/core/core_mesh.cpp` 212-227 (`get_pinmesh`), 246-279 (`get_location_info`),
`src/core/core_mesh.hpp` 320-336 (`region_at_point`).  `real_t` is an ordered field; `equiv` is `fp_equiv`.
-/

namespace Verif.Core

open Verif.Mc (Out)

variable {K : Type} [Field K] [LinearOrder K]

/-- mesh.hpp:837-854 `plane_index(z, oz)`: `zs` is `z_vec_`.  Reading `z_vec_` past its end is undefined. -/
def planeIndex (fuzz : K) (equiv : K → K → Bool) (zs : List K) (nz : Nat) (z oz : K) : Out Int :=
  let iz := Util.lowerBoundLoop (fun i => fuzzyLt fuzz (zs.getD i 0) z) 0 zs.length
  match zs[iz]? with
  | none => .ub
  | some c =>
    if equiv z c = true ∧ oz = 0 then .throw
    else
      let iz : Int := if equiv z c then (if 0 < oz then (iz : Int) + 1 else iz) else iz
      .ok (max 0 (min (iz - 1) ((nz : Int) - 1)))

/-- core_mesh.cpp:252-258: one coordinate of `info.pos`, an exact `std::lower_bound` minus one. -/
def posOf (xs : List K) (p : K) : Int := (Util.lowerBound (fun i => xs.getD i 0) xs.length p : Int) - 1

/-- Reading a vector with an `int` index. -/
def readInt {α : Type} (l : List α) (i : Int) : Option α := if i < 0 then none else l[i.toNat]?

/-- core_mesh.hpp:139-146 `LocationInfo`.  The pin mesh is given by the column and row of the lattice and the column and row of the pin in it. -/
structure Location (K : Type) where
  mesh : Nat × Nat × Nat × Nat
  localX : K
  localY : K
  reg : Nat
  pos : Int × Int × Int
  lower : K × K × K
  upper : K × K × K
  deriving DecidableEq

/-- Members of `CoreMesh` that are used: `x_vec_`, `y_vec_`, `z_vec_`, `nz_`, `first_reg_plane_`, `unique_plane_ids_`, `planes_`. -/
structure CoreG (K : Type) where
  xs : List K
  ys : List K
  zs : List K
  nz : Nat
  firstReg : List Nat
  uniq : List Nat
  planes : List (PlaneG K)

/-- core_mesh.cpp:246-279 `get_location_info`. -/
def locationInfo (fuzz : K) (equiv : K → K → Bool) (c : CoreG K) (px py pz ox oy oz : K) : Out (Location K) :=
  let x := posOf c.xs px
  let y := posOf c.ys py
  match planeIndex fuzz equiv c.zs c.nz pz oz with
  | .ub => .ub
  | .throw => .throw
  | .ok z =>
    match (do
      let first ← readInt c.firstReg z
      let u ← readInt c.uniq z
      let g ← c.planes[u]?
      let r ← planePin fuzz equiv g px py ox oy first
      let x0 ← readInt c.xs x
      let y0 ← readInt c.ys y
      let z0 ← readInt c.zs z
      let x1 ← readInt c.xs (x + 1)
      let y1 ← readInt c.ys (y + 1)
      let z1 ← readInt c.zs (z + 1)
      return ({ mesh := (r.1, r.2.1, r.2.2.1, r.2.2.2.1), localX := px - r.2.2.2.2.1, localY := py - r.2.2.2.2.2.1,
                reg := r.2.2.2.2.2.2, pos := (x, y, z), lower := (x0, y0, z0), upper := (x1, y1, z1) } : Location K)) with
    | some i => .ok i
    | none => .ub

/-- core_mesh.cpp:212-227 `get_pinmesh(p, iplane, first_reg)` as it is called for rays, with `Direction()` as direction (plane.hpp:71-72,
direction.hpp:46-52: all cosines positive and equal): position, place of the mesh, origin of the mesh (the new value of `p`) and first region.  `ix` and `iy` are
`unsigned`, and become `int` in the position. -/
def corePinmesh (fuzz : K) (equiv : K → K → Bool) (c : CoreG K) (iplane : Nat) (px py ox oy : K) (first : Nat) :
    Option ((Int × Int) × (Nat × Nat × Nat × Nat) × K × K × Nat) := do
  let g ← c.planes[iplane]?
  let r ← planePin fuzz equiv g px py ox oy first
  return ((posOf c.xs px, posOf c.ys py), (r.1, r.2.1, r.2.2.1, r.2.2.2.1), r.2.2.2.2.1, r.2.2.2.2.2.1, r.2.2.2.2.2.2)

/-- core_mesh.hpp:320-336 `region_at_point`: `get_pinmesh` of the plane replaces the point by the origin of the pin, and this is what is passed
to `find_reg`, which is a function of the place of the mesh and a point. -/
def regionAtPoint (fuzz : K) (equiv : K → K → Bool) (c : CoreG K) (findReg : Nat × Nat × Nat × Nat → K × K → Int)
    (px py pz ox oy : K) : Out Int :=
  match planeIndex fuzz equiv c.zs c.nz pz 0 with
  | .ub => .ub
  | .throw => .throw
  | .ok z =>
    match (do
      let u ← readInt c.uniq z
      let g ← c.planes[u]?
      let first ← readInt c.firstReg z
      let r ← planePin fuzz equiv g px py ox oy first
      return (r.2.2.2.2.2.2 : Int) + findReg (r.1, r.2.1, r.2.2.1, r.2.2.2.1) (r.2.2.2.2.1, r.2.2.2.2.2.1)) with
    | some i => .ok i
    | none => .ub

end Verif.Core
