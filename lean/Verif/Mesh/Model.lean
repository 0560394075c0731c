import Mathlib.Algebra.Order.Field.Basic

/-!
# Model of the coarse mesh (src/core/mesh.hpp, src/core/mesh.cpp)

Indices and sizes (`int`, `size_t`) are `Nat`; results that may be negative are `Int`.  32-bit overflow of
`int` products is modelled in `Verif.Mesh.IntModel` (C134).  Array reads are `Option`-valued:
`none` is an out-of-bounds access (undefined behaviour).
-/

namespace Verif.Mesh

/-- src/core/constants.hpp `enum class Surface` with its numeric values 0..5 (`INTERNAL = 6`). -/
inductive Surface
  | EAST | NORTH | WEST | SOUTH | TOP | BOTTOM | INTERNAL
  deriving DecidableEq, Repr

/-- Numeric value of the enumerator, used as an array offset (mesh.hpp:486). -/
def Surface.idx : Surface → Nat
  | .EAST => 0 | .NORTH => 1 | .WEST => 2 | .SOUTH => 3 | .TOP => 4 | .BOTTOM => 5 | .INTERNAL => 6

/-- src/core/constants.cpp `AllSurfaces`, in order. -/
def allSurfaces : List Surface := [.EAST, .NORTH, .WEST, .SOUTH, .TOP, .BOTTOM]

/-- src/core/constants.hpp `enum class Normal`. -/
inductive Normal
  | X | Y | Z
  deriving DecidableEq, Repr

/-- `nx_`, `ny_`, `nz_` (mesh.hpp:916-918). -/
structure Dims where
  nx : Nat
  ny : Nat
  nz : Nat
  deriving Repr, DecidableEq

/-- src/core/position.hpp: cell position. -/
structure Pos where
  x : Nat
  y : Nat
  z : Nat
  deriving Repr, DecidableEq

/-- mesh.hpp:326-329 `n_pin`. -/
def nPin (d : Dims) : Nat := d.nx * d.ny * d.nz

/-- mesh.cpp:37 `n_surf_plane_`. -/
def nSurfPlane (d : Dims) : Nat := (d.nx + 1) * d.ny + (d.ny + 1) * d.nx + d.nx * d.ny

/-- mesh.hpp:337-341 `n_surf`. -/
def nSurf (d : Dims) : Nat :=
  (d.nx + 1) * d.ny * d.nz + (d.ny + 1) * d.nx * d.nz + (d.nz + 1) * d.nx * d.ny

/-- mesh.hpp:437-440 `coarse_cell`. -/
def coarseCell (d : Dims) (p : Pos) : Nat := p.z * d.nx * d.ny + p.y * d.nx + p.x

/-- mesh.hpp:457-461 `coarse_position`. -/
def coarsePosition (d : Dims) (cell : Nat) : Pos :=
  ⟨cell % d.nx, (cell % (d.nx * d.ny)) / d.nx, cell / (d.nx * d.ny)⟩

/-- mesh.cpp:102-128: the six entries written for one cell, in the order of the enumerator values
(each entry is written at `cell_offset + (int)surf`, so the order of the assignments is immaterial). -/
def cellEntries (d : Dims) (off ix iy : Nat) : List Nat :=
  let nxsurf := d.nx + 1
  let nysurf := d.ny + 1
  let nxysurf := (d.nx + 1) * d.ny + (d.ny + 1) * d.nx
  [ off + nxsurf * iy + ix + 1 + d.nx * d.ny,                                     -- EAST
    off + d.nx * d.ny + (d.nx + 1) * d.ny + (d.ny + 1) * ix + iy + 1,             -- NORTH
    off + nxsurf * iy + ix + d.nx * d.ny,                                         -- WEST
    off + nxsurf * d.ny + nysurf * ix + iy + d.nx * d.ny,                         -- SOUTH
    off + d.nx * d.ny + nxysurf + d.nx * iy + ix,                                 -- TOP
    off + d.nx * iy + ix ]                                                        -- BOTTOM

/-- mesh.cpp:100-132: the table entries of one plane. -/
def planeEntries (d : Dims) (off : Nat) : List Nat :=
  (List.range d.ny).flatMap fun iy => (List.range d.nx).flatMap fun ix => cellEntries d off ix iy

/-- mesh.cpp:98-134: the loop over planes with the running `surf_offset`. -/
def planesLoop (d : Dims) : (remaining off : Nat) → List Nat
  | 0, _ => []
  | n + 1, off =>
    planeEntries d off ++
      planesLoop d n (off + ((d.nx + 1) * d.ny + (d.ny + 1) * d.nx + d.nx * d.ny))

/-- mesh.cpp:88-136 `prepare_surfaces`: the table `coarse_surf_`. -/
def surfTable (d : Dims) : List Nat := planesLoop d d.nz 0

/-- mesh.hpp:482-487 `coarse_surf`: a table lookup (`none` = out of bounds). -/
def coarseSurf (d : Dims) (cell : Nat) (s : Surface) : Option Nat := (surfTable d)[cell * 6 + s.idx]?

/-- mesh.hpp:859-871 `surface_normal`. -/
def surfaceNormal (d : Dims) (surf : Nat) : Normal :=
  let nsurfz := d.nx * d.ny + (d.nx + 1) * d.ny + (d.ny + 1) * d.nx
  if surf % nsurfz < d.nx * d.ny then .Z
  else if surf % nsurfz < d.nx * d.ny + (d.nx + 1) * d.ny then .X
  else .Y

/-- mesh.hpp:575-646 `coarse_neigh_cells`. -/
def coarseNeighCells (d : Dims) (surf : Nat) : Int × Int :=
  let iz := surf / nSurfPlane d
  let s := surf - iz * nSurfPlane d
  match surfaceNormal d surf with
  | .X =>
    let iy := (s - d.nx * d.ny) / (d.nx + 1)
    let ix := (s - d.nx * d.ny) % (d.nx + 1)
    (if ix > 0 then (coarseCell d ⟨ix - 1, iy, iz⟩ : Int) else -1,
     if ix < d.nx then (coarseCell d ⟨ix, iy, iz⟩ : Int) else -1)
  | .Y =>
    let s' := s - (d.nx * d.ny + (d.nx + 1) * d.ny)
    let iy := s' % (d.ny + 1)
    let ix := s' / (d.ny + 1)
    (if iy > 0 then (coarseCell d ⟨ix, iy - 1, iz⟩ : Int) else -1,
     if iy < d.ny then (coarseCell d ⟨ix, iy, iz⟩ : Int) else -1)
  | .Z =>
    let iy := s / d.nx
    let ix := s % d.nx
    (if iz > 0 then (coarseCell d ⟨ix, iy, iz - 1⟩ : Int) else -1,
     if iz < d.nz then (coarseCell d ⟨ix, iy, iz⟩ : Int) else -1)

/-- mesh.hpp:779-822 `coarse_neighbor`. -/
def coarseNeighbor (d : Dims) (cell : Nat) (s : Surface) : Int :=
  let pos := coarsePosition d cell
  match s with
  | .NORTH => if (pos.y : Int) < d.ny - 1 then cell + d.nx else -1
  | .SOUTH => if pos.y > 0 then cell - d.nx else -1
  | .EAST => if (pos.x : Int) < d.nx - 1 then cell + 1 else -1
  | .WEST => if pos.x > 0 then cell - 1 else -1
  | .TOP => if (pos.z : Int) < d.nz - 1 then cell + d.nx * d.ny else -1
  | .BOTTOM => if pos.z > 0 then cell - d.nx * d.ny else -1
  | .INTERNAL => -5

/-- mesh.hpp:687-699 `coarse_interface`: first surface in `AllSurfaces` order across which `cell2` lies;
`none` is the exception "Cells do not appear to be neighbors". -/
def coarseInterface (d : Dims) (cell1 cell2 : Nat) : Option (Option Nat × Surface) :=
  (allSurfaces.find? fun s => coarseNeighbor d cell1 s = (cell2 : Int)).map
    fun s => (coarseSurf d cell1 s, s)

section Reals
variable {K : Type} [Field K]

/-- `dx_vec_`, `dy_vec_`, `dz_vec_`. -/
structure Widths (K : Type) where
  dx : List K
  dy : List K
  dz : List K

/-- Product of two array reads. -/
def mul2 (a b : Option K) : Option K := do return (← a) * (← b)

/-- mesh.hpp:703-731 `coarse_area(cell, surf)` (the `default` branch asserts; `none` here). -/
def coarseAreaCell (d : Dims) (w : Widths K) (cell : Nat) (s : Surface) : Option K :=
  let p := coarsePosition d cell
  match s with
  | .EAST => mul2 w.dy[p.y]? w.dz[p.z]?
  | .WEST => mul2 w.dy[p.y]? w.dz[p.z]?
  | .NORTH => mul2 w.dx[p.x]? w.dz[p.z]?
  | .SOUTH => mul2 w.dx[p.x]? w.dz[p.z]?
  | .TOP => mul2 w.dx[p.x]? w.dy[p.y]?
  | .BOTTOM => mul2 w.dx[p.x]? w.dy[p.y]?
  | .INTERNAL => none

/-- mesh.hpp:736-771 `coarse_area(surf)`. -/
def coarseAreaSurf (d : Dims) (w : Widths K) (surf : Nat) : Option K :=
  let iz := surf / nSurfPlane d
  let s := surf - iz * nSurfPlane d
  match surfaceNormal d surf with
  | .X =>
    let iy := (s - d.nx * d.ny) / (d.nx + 1)
    mul2 w.dy[iy]? w.dz[iz]?
  | .Y =>
    let s' := s - (d.nx * d.ny + (d.nx + 1) * d.ny)
    let ix := s' / (d.ny + 1)
    mul2 w.dx[ix]? w.dz[iz]?
  | .Z =>
    let iy := s / d.nx
    let ix := s % d.nx
    mul2 w.dx[ix]? w.dy[iy]?

/-- mesh.hpp:299-318 `cell_thickness`. -/
def cellThickness (d : Dims) (w : Widths K) (cell : Nat) (n : Normal) : Option K :=
  let p := coarsePosition d cell
  match n with
  | .X => w.dx[p.x]?
  | .Y => w.dy[p.y]?
  | .Z => w.dz[p.z]?

/-- mesh.cpp:59-67: widths from divisions, `d[i-1] = v[i] - v[i-1]`. -/
def diffs : List K → List K
  | [] => []
  | [_] => []
  | a :: b :: t => (b - a) :: diffs (b :: t)

/-- mesh.cpp:69-72 `coarse_vol_[i] = dx[pos.x]*dy[pos.y]*dz[pos.z]`. -/
def coarseVolume (d : Dims) (w : Widths K) (cell : Nat) : Option K :=
  let p := coarsePosition d cell
  do return (← w.dx[p.x]?) * (← w.dy[p.y]?) * (← w.dz[p.z]?)

variable [LinearOrder K]

/-- Geometry needed by `boundary_surface`: domain extents and the constant `REAL_FUZZ`. -/
structure Extent (K : Type) where
  hx : K
  hy : K
  hz : K
  fuzz : K

/-- A point or a direction. -/
structure Vec3 (K : Type) where
  x : K
  y : K
  z : K

/-- mesh.hpp:539-559 `boundary_surface`. -/
def boundarySurface (e : Extent K) (p o : Vec3 K) : Surface × Surface × Surface :=
  let s0 := if p.x < e.fuzz ∧ o.x < 0 then Surface.WEST
            else if p.y < e.fuzz ∧ o.y < 0 then Surface.SOUTH else Surface.INTERNAL
  let s1 := if p.z < e.fuzz ∧ o.z < 0 then Surface.BOTTOM
            else if p.x / e.hx > 1 - e.fuzz ∧ o.x > 0 then Surface.EAST else Surface.INTERNAL
  let s2 := if p.y / e.hy > 1 - e.fuzz ∧ o.y > 0 then Surface.NORTH
            else if p.z / e.hz > 1 - e.fuzz ∧ o.z > 0 then Surface.TOP else Surface.INTERNAL
  (s0, s1, s2)

/-- The surfaces in the returned array other than `INTERNAL` markers. -/
def reported (r : Surface × Surface × Surface) (s : Surface) : Prop :=
  s ≠ .INTERNAL ∧ (r.1 = s ∨ r.2.1 = s ∨ r.2.2 = s)

end Reals
end Verif.Mesh
