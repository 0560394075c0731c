import Verif.Mesh.Model

/-!
# Model of the end of a MoC sweep: expansion of the radial currents over the sub-planes

src/sweepers/moc/moc_current_worker.hpp:272-318.  One group; the arrays of `CoarseData` are functions of the surface
number.  `mi` is `macroplane_index_` (core_mesh.cpp:190-198).
-/

namespace Verif.Moc.Expand

open Verif.Mesh

variable {K : Type}

/-- mesh.hpp:402-405 `plane_surf_xy_begin`. -/
def xyBegin (d : Dims) (plane : Nat) : Nat := nSurfPlane d * plane + d.nx * d.ny

/-- mesh.hpp:387-390 `plane_surf_end`. -/
def surfEnd (d : Dims) (plane : Nat) : Nat := nSurfPlane d * (plane + 1)

/-- moc_current_worker.hpp:289-299: one assignment of a range of currents.  `blitz::Range(a, b)` includes `b`. -/
def copyPlane (d : Dims) (mi : Nat → Nat) (c : Nat → K) (iz : Nat) : Nat → K := fun s =>
  if xyBegin d iz ≤ s ∧ s ≤ surfEnd d iz then c (s - xyBegin d iz + xyBegin d (mi iz)) else c s

/-- moc_current_worker.hpp:285-302: planes `n-1, ..., 0` in turn. -/
def expandFrom (d : Dims) (mi : Nat → Nat) : Nat → (Nat → K) → (Nat → K)
  | 0, c => c
  | n + 1, c => expandFrom d mi n (copyPlane d mi c n)

/-- moc_current_worker.hpp:277-303: currents; only if some macroplane has several planes. -/
def expandCurrent (d : Dims) (mi : Nat → Nat) (c : Nat → K) : Nat → K :=
  if d.nz - 1 ≠ mi (d.nz - 1) then expandFrom d mi d.nz c else c

/-- moc_current_worker.hpp:272-303: surface fluxes are not expanded. -/
def expandFlux (_d : Dims) (_mi : Nat → Nat) (f : Nat → K) : Nat → K := f

/-- moc_current_worker.hpp:305-317: radial surfaces of every plane are divided by their area. -/
def normaliseArea [Div K] (d : Dims) (area : Nat → K) (c : Nat → K) : Nat → K := fun s =>
  if d.nx * d.ny ≤ s % nSurfPlane d ∧ s / nSurfPlane d < d.nz then c s / area s else c s

end Verif.Moc.Expand
