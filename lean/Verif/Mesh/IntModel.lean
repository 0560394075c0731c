import Verif.Mesh.Model
import Verif.BC.Model

/-!
# Index arithmetic of the coarse mesh and of the boundary condition store in machine integers

The functions of `Verif.Mesh.Model` and `Verif.BC.Model` with the types of the code: `int` has 32 bits and its overflow is undefined behaviour, `size_t`
has 64 bits and wraps, and an `int` combined with a `size_t` is converted to it.  Conversion of a `size_t` to `int` keeps the lower 32 bits.
-/

namespace Verif.Mesh.Machine

open Verif.Mesh

/-- Result of an `int` expression. -/
inductive I32
  | ok (x : Int)
  | ub
  deriving DecidableEq

/-- A value of type `int`, if it is one; else the overflow is undefined behaviour. -/
def I32.of (x : Int) : I32 := if -2147483648 ≤ x ∧ x < 2147483648 then .ok x else .ub

/-- Operations on `int`. -/
def I32.bin (f : Int → Int → Int) : I32 → I32 → I32
  | .ok x, .ok y => I32.of (f x y)
  | _, _ => .ub

instance : Add I32 := ⟨I32.bin (· + ·)⟩
instance : Sub I32 := ⟨I32.bin (· - ·)⟩
instance : Mul I32 := ⟨I32.bin (· * ·)⟩

/-- Result of a `size_t` expression; `ub`: one of its `int` operands is undefined, or a division by zero. -/
inductive U64
  | ok (x : Nat)
  | ub
  deriving DecidableEq

/-- Operations on `size_t` other than division: modulo 2^64. -/
def U64.bin (f : Int → Int → Int) : U64 → U64 → U64
  | .ok x, .ok y => .ok (f x y % 18446744073709551616).toNat
  | _, _ => .ub

instance : Add U64 := ⟨U64.bin (· + ·)⟩
instance : Sub U64 := ⟨U64.bin (· - ·)⟩
instance : Mul U64 := ⟨U64.bin (· * ·)⟩

/-- Division and remainder of `size_t`. -/
def U64.div : U64 → U64 → U64
  | .ok x, .ok y => if y = 0 then .ub else .ok (x / y)
  | _, _ => .ub

def U64.mod : U64 → U64 → U64
  | .ok x, .ok y => if y = 0 then .ub else .ok (x % y)
  | _, _ => .ub

/-- Conversion of `int` to `size_t`. -/
def I32.u64 : I32 → U64
  | .ok x => .ok (x % 18446744073709551616).toNat
  | .ub => .ub

/-- Conversion of `size_t` to `int`: the lower 32 bits as a signed number. -/
def U64.i32 : U64 → I32
  | .ok x => .ok (((x : Int) + 2147483648) % 4294967296 - 2147483648)
  | .ub => .ub

/-- Remainder of `int`s, as in C++ with the sign of the dividend. -/
def I32.mod : I32 → I32 → I32
  | .ok x, .ok y => if y = 0 then .ub else I32.of (x.tmod y)
  | _, _ => .ub

/-- A variable of type `int` with a value of the mesh; a constant. -/
def int (n : Nat) : I32 := I32.of n

/-! ## Mesh -/

variable (d : Dims)

/-- `nx_`, `ny_`, `nz_` (mesh.hpp:916-918). -/
def nx : I32 := int d.nx
def ny : I32 := int d.ny
def nz : I32 := int d.nz

/-- mesh.hpp:326-329 `n_pin`. -/
def nPinM : I32 := nx d * ny d * nz d

/-- mesh.hpp:337-341 `n_surf`: an `int` expression, returned as `size_t`. -/
def nSurfM : U64 := ((nx d + int 1) * ny d * nz d + (ny d + int 1) * nx d * nz d + (nz d + int 1) * nx d * ny d).u64

/-- mesh.cpp:37 `n_surf_plane_`: an `int` expression kept as `size_t`. -/
def nSurfPlaneM : U64 := ((nx d + int 1) * ny d + (ny d + int 1) * nx d + nx d * ny d).u64

/-- mesh.hpp:356-359 `plane_cell_begin`. -/
def planeCellBeginM (plane : Nat) : I32 := nx d * ny d * int plane

/-- mesh.hpp:378-381 `plane_surf_begin`, and `coarse_surf_offset` (669-672). -/
def planeSurfBeginM (plane : Nat) : I32 := (nSurfPlaneM d * (int plane).u64).i32

/-- mesh.hpp:387-390 `plane_surf_end`. -/
def planeSurfEndM (plane : Nat) : I32 := (nSurfPlaneM d * (int plane + int 1).u64).i32

/-- mesh.hpp:402-405 `plane_surf_xy_begin`. -/
def planeSurfXyBeginM (plane : Nat) : I32 := (nSurfPlaneM d * (int plane).u64 + (nx d * ny d).u64).i32

/-- mesh.hpp:437-440 `coarse_cell`. -/
def coarseCellM (p : Pos) : I32 := int p.z * nx d * ny d + int p.y * nx d + int p.x

/-- mesh.hpp:457-461 `coarse_position`: the three arguments of `Position`, which are `int`. -/
def coarsePositionM (cell : Nat) : I32 × I32 × I32 :=
  let c : U64 := .ok cell
  ((c.mod (nx d).u64).i32, ((c.mod (nx d * ny d).u64).div (nx d).u64).i32, (c.div (nx d * ny d).u64).i32)

/-- mesh.cpp:104-128: the entries of one cell, in the order of `cellEntries`. -/
def cellEntriesM (off : I32) (ix iy : Nat) : List I32 :=
  let nxsurf := nx d + int 1
  let nysurf := ny d + int 1
  let nxysurf := (nx d + int 1) * ny d + (ny d + int 1) * nx d
  [ off + nxsurf * int iy + int ix + int 1 + nx d * ny d,
    off + nx d * ny d + (nx d + int 1) * ny d + (ny d + int 1) * int ix + int iy + int 1,
    off + nxsurf * int iy + int ix + nx d * ny d,
    off + nxsurf * ny d + nysurf * int ix + int iy + nx d * ny d,
    off + nx d * ny d + nxysurf + nx d * int iy + int ix,
    off + nx d * int iy + int ix ]

/-- mesh.cpp:100-132: the entries of one plane. -/
def planeEntriesM (off : I32) : List I32 :=
  (List.range d.ny).flatMap fun iy => (List.range d.nx).flatMap fun ix => cellEntriesM d off ix iy

/-- mesh.cpp:98-134: the loop over planes, with the `surf_offset` it ends with. -/
def planesLoopM : (remaining : Nat) → I32 → List I32 × I32
  | 0, off => ([], off)
  | n + 1, off =>
    let r := planesLoopM n (off + (((nx d + int 1) * ny d + (ny d + int 1) * nx d) + nx d * ny d))
    (planeEntriesM d off ++ r.1, r.2)

/-- The values of a list of expressions, if all are defined. -/
def values : List I32 → Option (List Int)
  | [] => some []
  | a :: rest => match a, values rest with
    | .ok x, some l => some (x :: l)
    | _, _ => none

/-- The table, if the number of elements it is allocated with, the `surf_offset` at the end and all elements are defined. -/
def tableOf : I32 → List I32 × I32 → Option (List Int)
  | .ok _, (l, .ok _) => values l
  | _, _ => none

/-- mesh.cpp:88-136 `prepare_surfaces`: the table, which is allocated with `6 * nx_ * ny_ * nz_` elements (line 97). -/
def prepareM : Option (List Int) := tableOf (int 6 * nx d * ny d * nz d) (planesLoopM d d.nz (int 0))

/-- mesh.hpp:482-487 `coarse_surf`, the index of the element that is read. -/
def coarseSurfIdxM (i : Nat) (s : Surface) : I32 := int i * int 6 + int s.idx

/-- mesh.hpp:864-870: the comparisons of `surface_normal`. -/
def normalOf : I32 → I32 → I32 → Option Normal
  | .ok r, .ok a, .ok b => some (if r < a then .Z else if r < b then .X else .Y)
  | _, _, _ => none

/-- mesh.hpp:859-871 `surface_normal`, with the conversion of the `size_t` it is called with (line 579). -/
def surfaceNormalM (surf : Nat) : Option Normal :=
  normalOf ((U64.ok surf).i32.mod (nx d * ny d + (nx d + int 1) * ny d + (ny d + int 1) * nx d)) (nx d * ny d) (nx d * ny d + (nx d + int 1) * ny d)

/-- mesh.hpp:437-440 `coarse_cell`, with a position that has been computed (position.hpp:27-29: the conversions to `unsigned` and back change nothing). -/
def cellAtM (x y z : I32) : I32 := z * nx d * ny d + y * nx d + x

/-- `if (i > 0)` and `if (i < n)` of `coarse_neigh_cells` with the assignments of their branches. -/
def pickM (c : Option Bool) (a : I32) : I32 :=
  match c with
  | some true => a
  | some false => I32.of (-1)
  | none => .ub

def ltM (a b : I32) : Option Bool :=
  match a, b with
  | .ok x, .ok y => some (decide (x < y))
  | _, _ => none

/-- mesh.hpp:592-646: the branches of `coarse_neigh_cells` for the three normals; `s` is the number of the surface in its plane. -/
def neighOf (s : U64) (iz : I32) : Normal → I32 × I32
  | .X =>
    let iy := ((s - (nx d * ny d).u64).div (nx d + int 1).u64).i32
    let ix := ((s - (nx d * ny d).u64).mod (nx d + int 1).u64).i32
    (pickM (ltM (int 0) ix) (cellAtM d (ix - int 1) iy iz), pickM (ltM ix (nx d)) (cellAtM d ix iy iz))
  | .Y =>
    let s' := s - (nx d * ny d + (nx d + int 1) * ny d).u64
    let iy := (s'.mod (ny d + int 1).u64).i32
    let ix := (s'.div (ny d + int 1).u64).i32
    (pickM (ltM (int 0) iy) (cellAtM d ix (iy - int 1) iz), pickM (ltM iy (ny d)) (cellAtM d ix iy iz))
  | .Z =>
    let iy := (s.div (nx d).u64).i32
    let ix := (s.mod (nx d).u64).i32
    (pickM (ltM (int 0) iz) (cellAtM d ix iy (iz - int 1)), pickM (ltM iz (nz d)) (cellAtM d ix iy iz))

/-- mesh.hpp:575-646 `coarse_neigh_cells`. -/
def neighCellsM (surf : Nat) : Option (I32 × I32) :=
  let iz := ((U64.ok surf).div (nSurfPlaneM d)).i32
  (surfaceNormalM d surf).map (neighOf d (.ok surf - iz.u64 * nSurfPlaneM d) iz)

/-! ## Boundary conditions -/

open Verif.BC in
/-- boundary_condition.cpp:57-60 `bc_per_group_`. -/
def perGroupM (size : List Size3) : I32 := size.foldl (fun acc n => acc + (int n.x + int n.y + int n.z)) (int 0)

open Verif.BC in
/-- boundary_condition.cpp:62 `total_size`: the product of two `int`s as `size_t`. -/
def totalM (size : List Size3) (nGroup : Nat) : U64 := (perGroupM size * int nGroup).u64

/-- boundary_condition.cpp:67-77: the offsets, and the value of `offset` at the end. -/
def runningM : List Nat → I32 → List I32 × I32
  | [], offset => ([], offset)
  | n :: ns, offset =>
    let r := runningM ns (offset + int n)
    (offset :: r.1, r.2)

/-- Number of values and offsets, if they and the last `offset` are defined. -/
def storeOf : U64 → List I32 × I32 → Option (Nat × List Int)
  | .ok t, (l, .ok _) => (values l).map fun offs => (t, offs)
  | _, _ => none

open Verif.BC in
/-- boundary_condition.cpp:33-78, the constructor: number of values and offsets. -/
def storeM (size : List Size3) (nGroup : Nat) : Option (Nat × List Int) :=
  storeOf (totalM size nGroup) (runningM (size.flatMap Size3.toList) (int 0))

open Verif.BC in
/-- boundary_condition.hpp:115, 126: the position of the first value of a face. -/
def faceM (size : List Size3) (off : Int) (group : Nat) : I32 := perGroupM size * int group + I32.of off

end Verif.Mesh.Machine
