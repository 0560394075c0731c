import Verif.Mesh.Model
import Mathlib.Algebra.BigOperators.Group.Finset.Basic
import Mathlib.Algebra.BigOperators.Group.List.Basic

/-!
# Model of the CMFD linear system (src/core/cmfd.cpp:333-638)

One group.  `K` stands for `real_t` in exact arithmetic; a division by zero that the code turns into a value with
`std::isfinite` is modelled by an explicit test.  Cell data (`D`, `xsrm`, flux) are functions of the cell number,
surface data functions of the surface number.  Lookups of areas, thicknesses, volumes and surface numbers are in
bounds by C11 and C13, so the model reads them with a default of zero.
-/

namespace Verif.Cmfd

open Verif.Mesh

variable {K : Type} [Field K] [LinearOrder K]

/-- Boundary conditions that matter to the CMFD solver (constants.hpp `Boundary`). -/
inductive BCType
  | reflect
  | vacuum
  | other
  deriving DecidableEq, Repr

/-- mesh.hpp:703-731 with the default. -/
def area (d : Dims) (w : Widths K) (cell : Nat) (s : Surface) : K := (coarseAreaCell d w cell s).getD 0

/-- mesh.hpp:299-318 with the default. -/
def thick (d : Dims) (w : Widths K) (cell : Nat) (n : Normal) : K := (cellThickness d w cell n).getD 0

/-- mesh.cpp:69-72 with the default. -/
def vol (d : Dims) (w : Widths K) (cell : Nat) : K := (coarseVolume d w cell).getD 0

/-- mesh.hpp:482-487 with the default. -/
def surf (d : Dims) (cell : Nat) (s : Surface) : Nat := (coarseSurf d cell s).getD 0

/-- cmfd.cpp:425-455: diffusivity on one side of a surface; `none` is the exception "Unsupported boundary type". -/
def diffusivity (d : Dims) (w : Widths K) (D : Nat → K) (cell : Int) (n : Normal) (bc : BCType) : Option K :=
  if -1 < cell then some (D cell.toNat / thick d w cell.toNat n)
  else match bc with
    | .reflect => some (0 / 2)
    | .vacuum => some (1 / 2 / 2)
    | .other => none

/-- cmfd.cpp:457-458. -/
def dTilde (d1 d2 : K) : K := 2 * d1 * d2 / (d1 + d2)

/-- cmfd.cpp:466-470. -/
def sTilde (d1 d2 : K) : K := if 0 < d1 then d1 / (d1 + d2) else d2 / (d1 + d2)

/-- cmfd.cpp:480-485 and 576-579: flux on a side of a surface, zero outside. -/
def side (flux : Nat → K) (cell : Int) : K := if 0 ≤ cell then flux cell.toNat else 0

/-- cmfd.cpp:486-490: the correction, zero if it is not finite. -/
def dHat (dt j fl fr : K) : K := if fl + fr = 0 then 0 else (j + dt * (fr - fl)) / (fl + fr)

/-- cmfd.cpp:491-495: surface flux correction (`left` = there is a cell on the left); the divisor must not be zero. -/
def sHat (left : Bool) (st sfc fl fr : K) : K :=
  if left then (sfc - st * fl - (1 - st) * fr) / (fl + fr) else (sfc - st * fr) / fr

/-- cmfd.cpp:583-584: current reconstructed from the flux. -/
def current (dt dh fl fr : K) : K := -dt * (fr - fl) + dh * (fr + fl)

/-- cmfd.cpp:590-594: surface flux reconstructed from the flux. -/
def surfaceFlux (left : Bool) (st sh fl fr : K) : K :=
  if left then st * fl + (1 - st) * fr + sh * (fl + fr) else st * fr + sh * (fl + fr)

/-- cmfd.cpp:598-599. -/
def partialCurrents (surfaceFlux current : K) : K × K :=
  (1 / 4 * surfaceFlux + 1 / 2 * current, 1 / 4 * surfaceFlux - 1 / 2 * current)

/-- cmfd.cpp:518-522, 533-538: sign of the correction seen from the cell. -/
def signed (s : Surface) (dh : K) : K :=
  if s = .WEST ∨ s = .SOUTH ∨ s = .BOTTOM then -dh else dh

/-- cmfd.cpp:512-526: diagonal element of row `i`. -/
def diag (d : Dims) (w : Widths K) (xsrm : Nat → K) (dt dh : Nat → K) (i : Nat) : K :=
  vol d w i * xsrm i +
    (allSurfaces.map fun s => area d w i s * (dt (surf d i s) + signed s (dh (surf d i s)))).sum

/-- cmfd.cpp:529-541: off-diagonal element; `coarse_interface` throws for cells that are not neighbours. -/
def offDiag (d : Dims) (w : Widths K) (dt dh : Nat → K) (i j : Nat) : K :=
  match coarseInterface d i j with
  | some (n, s) => area d w i s * (signed s (dh (n.getD 0)) - dt (n.getD 0))
  | none => 0

/-- cmfd.cpp:98-115: whether the matrix has an element `(i, j)`: the diagonal, `(i, n)` for every neighbour `n` of
`i`, and `(n, i)` for every neighbour `n` of `i`. -/
def stored (d : Dims) (i j : Nat) : Bool :=
  i == j || allSurfaces.any (fun s => coarseNeighbor d i s == (j : Int)) ||
    allSurfaces.any (fun s => coarseNeighbor d j s == (i : Int))

/-- cmfd.cpp:506-544: all matrix elements. -/
def entry (d : Dims) (w : Widths K) (xsrm : Nat → K) (dt dh : Nat → K) (i j : Nat) : K :=
  if stored d i j then
    if i = j then diag d w xsrm dt dh i else offDiag d w dt dh i j
  else 0

/-- Row `i` of the matrix times the flux. -/
def rowApply (d : Dims) (w : Widths K) (xsrm : Nat → K) (dt dh : Nat → K) (flux : Nat → K) (i : Nat) : K :=
  ∑ j ∈ Finset.range (nPin d), entry d w xsrm dt dh i j * flux j

/-- The current through surface `n` reconstructed from a flux (cmfd.cpp:574-586). -/
def currentAt (d : Dims) (dt dh : Nat → K) (flux : Nat → K) (n : Nat) : K :=
  current (dt n) (dh n) (side flux (coarseNeighCells d n).1) (side flux (coarseNeighCells d n).2)

/-- The corrections computed from transport currents and flux (cmfd.cpp:474-499, currents available). -/
def dHatAt (d : Dims) (dt : Nat → K) (J flux : Nat → K) (n : Nat) : K :=
  dHat (dt n) (J n) (side flux (coarseNeighCells d n).1) (side flux (coarseNeighCells d n).2)

/-! ### Sub-planes: transfer of currents between the fine mesh and the CMFD mesh

Surface `off` of plane `iz` has the number `iz * n_surf_plane + off` on both meshes; axial surfaces have
`off < nx * ny`.  `mi` is `macroplane_index_`. -/

/-- cmfd.cpp:367-389: radial currents of macroplane `mp`, `height` from the CMFD mesh. -/
def coarseRadial (nz : Nat) (mi : Nat → Nat) (dz height : Nat → K) (J : Nat → Nat → K) (mp off : Nat) : K :=
  (∑ iz ∈ (Finset.range nz).filter (fun iz => mi iz = mp), dz iz * J iz off) / height mp

/-- cmfd.cpp:392-405: the loop over planes `iz, iz+1, ...` (`n` of them) with `current_mplane = cur`. -/
def coarseAxialLoop (mi : Nat → Nat) (J : Nat → Nat → K) : (n iz : Nat) → (cur : Option Nat) → (Nat → Nat → K) →
    (Nat → Nat → K)
  | 0, _, _, c => c
  | n + 1, iz, cur, c =>
    if cur ≠ some (mi iz) then
      coarseAxialLoop mi J n (iz + 1) (some (mi iz)) (fun mp off => if mp = mi iz then J iz off else c mp off)
    else coarseAxialLoop mi J n (iz + 1) cur c

/-- cmfd.cpp:367-412: axial currents of the CMFD mesh including the top surface. -/
def coarseAxial (nz nmp : Nat) (mi : Nat → Nat) (J : Nat → Nat → K) : Nat → Nat → K :=
  fun mp off => if mp = nmp then J nz off else coarseAxialLoop mi J nz 0 none (fun _ _ => 0) mp off

/-- cmfd.cpp:607-631: axial currents written back to the fine mesh with sub-planes.  Everything is zeroed first;
`current_mplane` stays `-1` in the loop, so every plane is written; the top surface is not. -/
def storeAxial (nz : Nat) (mi : Nat → Nat) (C : Nat → Nat → K) : Nat → Nat → K :=
  fun iz off => if iz < nz then C (mi iz) off else 0

/-- cmfd.cpp:610-618: radial currents written back. -/
def storeRadial (mi : Nat → Nat) (C : Nat → Nat → K) : Nat → Nat → K := fun iz off => C (mi iz) off

end Verif.Cmfd
