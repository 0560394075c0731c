import Verif.Mesh.Model
import Mathlib.Algebra.Field.Defs
import Mathlib.Algebra.BigOperators.Group.List.Basic

/-!
# Model of the numbers of regions and the volumes for the four mesh treatments

`src/core/core_mesh.hpp` 61-82 (`n_reg`) and 338-397 (`volumes`), `src/core/core_mesh.cpp` 58-76, 149-162, `src/core/assembly.cpp` 123-129,
`src/core/lattice.cpp` 109-114.  `real_t` is a field.  A pin is the list of the areas of the regions of its mesh.  `none` is a read outside
of a vector or a division by zero.
-/

namespace Verif.Core

open Mesh

variable {K : Type} [Field K]

/-- The pins of a lattice, in order. -/
abbrev LatA (K : Type) := List (List K)

/-- lattice.cpp:109-114, assembly.cpp:124-129, core_mesh.cpp:155-162: `n_reg_` of the core, over assemblies (first list), the lattices of each
from the bottom (second) and pins. -/
def nRegCore (asys : List (List (LatA K))) : Nat := (asys.map fun a => (a.map fun l => (l.map List.length).sum).sum).sum

/-- core_mesh.cpp:62-76: the pins of plane `iz`, assembly by assembly. -/
def planePins (asys : List (List (LatA K))) (iz : Nat) : Option (List (List K)) := (asys.mapM fun a => a[iz]?).map List.flatten

/-- core_mesh.cpp:62-76: `core_pins_` for `nz` planes. -/
def listPins (asys : List (List (LatA K))) (nz : Nat) : Option (List (List K)) :=
  ((List.range nz).mapM (planePins asys)).map List.flatten

/-- core_mesh.hpp:344-353: `volumes(TRUE)`; `ipin` is the number of the first pin of the list. -/
def volTrue (nxy : Nat) (dz : List K) : List (List K) → Nat → Option (List K)
  | [], _ => some []
  | p :: ps, ipin =>
    if nxy = 0 then none
    else
      match dz[ipin / nxy]?, volTrue nxy dz ps (ipin + 1) with
      | some hz, some r => some (p.map (· * hz) ++ r)
      | _, _ => none

/-- core_mesh.hpp:355-378: `volumes(PLANE)` for the remaining sizes and heights of macroplanes, from plane `iz` on. -/
def volPlane (nxy : Nat) (pins : List (List K)) : List Nat → List K → Nat → Option (List K)
  | [], _, _ => some []
  | _ :: _, [], _ => none
  | np :: rest, h :: hs, iz =>
    if nxy * iz + nxy ≤ pins.length then
      (volPlane nxy pins rest hs (iz + np)).map fun r => ((pins.drop (nxy * iz)).take nxy).flatMap (·.map (· * h)) ++ r
    else none

/-- core_mesh.hpp:379-390: `volumes(PIN_PLANE)`; `hs` are the heights of the macroplanes. -/
def volPinPlane (nx ny : Nat) (dx dy hs : List K) : Option (List K) :=
  (hs.mapM fun h => ((List.range ny).mapM fun iy => (List.range nx).mapM fun ix => do
    let a ← dx[ix]?
    let b ← dy[iy]?
    return a * b * h).map List.flatten).map List.flatten

/-- core_mesh.cpp:149-153: `coarse_vol_`, which is `volumes(PIN)` (core_mesh.hpp:391-397). -/
def volPin (d : Dims) (dx dy dz : List K) : Option (List K) :=
  (List.range (d.nx * d.ny * d.nz)).mapM fun i => do
    let a ← dx[(coarsePosition d i).x]?
    let b ← dy[(coarsePosition d i).y]?
    let c ← dz[(coarsePosition d i).z]?
    return a * b * c

/-- core_mesh.hpp:68-74: `n_reg(PLANE)`; `regs` are the numbers of regions of the unique planes, `uniq` is `unique_plane_ids_`. -/
def nRegPlane (regs uniq : List Nat) : List Nat → Nat → Option Nat
  | [], _ => some 0
  | np :: rest, iz => do
    let u ← uniq[iz]?
    let n ← regs[u]?
    let m ← nRegPlane regs uniq rest (iz + np)
    return n + m

/-- core_mesh.hpp:75-80: `n_reg(PIN)` and `n_reg(PIN_PLANE)`. -/
def nRegPin (d : Dims) : Nat := d.nx * d.ny * d.nz
@[inherit_doc nRegPin] def nRegPinPlane (d : Dims) (sub : List Nat) : Nat := d.nx * d.ny * sub.length

end Verif.Core
