import Verif.Mesh.Model

/-!
# Coarse data

Model of the constructor of `CoarseData`, of `zero_data` and of `zero_data_radial` (src/core/coarse_data.cpp:20-86).  Arrays are functions of surface (or
cell) and group; an access with a surface that is not below `n_surf` is undefined behaviour (`none`).
-/

namespace Verif.Sweep.Coarse

open Verif.Mesh

variable {K : Type}

/-- coarse_data.hpp: the arrays by surface or cell and group. -/
structure Data (K : Type) where
  current : Nat → Nat → K
  surfaceFlux : Nat → Nat → K
  partialCurrent : Nat → Nat → K × K
  partialOld : Nat → Nat → K × K
  flux : Nat → Nat → K
  oldFlux : Nat → Nat → K

/-- coarse_data.cpp:20-49, the constructor. -/
def init [Zero K] [One K] : Data K :=
  ⟨fun _ _ => 0, fun _ _ => 0, fun _ _ => (0, 0), fun _ _ => (0, 0), fun _ _ => 1, fun _ _ => 1⟩

/-- `a(s, g) = v`. -/
def put {V : Type} (a : Nat → Nat → V) (s g : Nat) (v : V) : Nat → Nat → V := fun s' g' => if s' = s ∧ g' = g then v else a s' g'

/-- coarse_data.cpp:51-63 `zero_data`; assignment to a whole column of an array. -/
def zeroData [Zero K] (g : Nat) (zp : Bool) (c : Data K) : Data K :=
  { c with
    current := fun s' g' => if g' = g then 0 else c.current s' g'
    surfaceFlux := fun s' g' => if g' = g then 0 else c.surfaceFlux s' g'
    partialCurrent := if zp then fun s' g' => if g' = g then (0, 0) else c.partialCurrent s' g' else c.partialCurrent }

/-- coarse_data.cpp:78-82: one surface. -/
def zeroOne [Zero K] (g : Nat) (zp : Bool) (s : Nat) (c : Data K) : Data K :=
  { c with
    current := put c.current s g 0
    surfaceFlux := put c.surfaceFlux s g 0
    partialCurrent := if zp then put c.partialCurrent s g (0, 0) else c.partialCurrent }

/-- coarse_data.cpp:76-83: the loop from `plane_surf_xy_begin` (mesh.hpp:402-405), `n` surfaces from `s` on. -/
def surfLoop [Zero K] (d : Dims) (g : Nat) (zp : Bool) : Nat → Nat → Data K → Option (Data K)
  | 0, _, c => some c
  | n + 1, s, c => if s < nSurf d then surfLoop d g zp n (s + 1) (zeroOne g zp s c) else none

/-- coarse_data.cpp:75-84: the loop over planes, to `plane_surf_end` (mesh.hpp:387-390). -/
def planeLoop [Zero K] (d : Dims) (g : Nat) (zp : Bool) : Nat → Nat → Data K → Option (Data K)
  | 0, _, c => some c
  | n + 1, plane, c =>
    (surfLoop d g zp (nSurfPlane d * (plane + 1) - (nSurfPlane d * plane + d.nx * d.ny)) (nSurfPlane d * plane + d.nx * d.ny) c).bind
      (planeLoop d g zp n (plane + 1))

/-- coarse_data.cpp:65-86 `zero_data_radial`. -/
def zeroRadial [Zero K] (d : Dims) (g : Nat) (zp : Bool) (c : Data K) : Option (Data K) := planeLoop d g zp d.nz 0 c

end Verif.Sweep.Coarse
