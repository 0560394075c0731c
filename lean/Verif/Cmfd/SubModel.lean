import Verif.Cmfd.Model

/-!
# The mesh of CMFD and its data by surface

`CMFD` has a mesh of its own with one plane for each macroplane (src/core/cmfd.cpp:44-58), but surface fluxes and partial currents are kept in
`CoarseData`, which is made for the mesh of the core (cmfd.cpp:74, coarse_data.cpp:20-44), under the numbers of the surfaces of the mesh of CMFD.
One group; currents are in `Verif.Cmfd.Model`.
-/

namespace Verif.Cmfd

open Verif.Mesh

variable {K : Type} [Field K] [LinearOrder K]

/-- cmfd.cpp:49-54: the divisions along z, from `hz` on. -/
def divisionsFrom (hz : K) : List K → List K
  | [] => [hz]
  | h :: hs => hz :: divisionsFrom (hz + h) hs

/-- cmfd.cpp:44-58 and mesh.cpp:22-35: number of cells of the mesh of CMFD for the divisions of the core and the heights of the macroplanes. -/
def cmfdDims (xs ys : List K) (heights : List K) : Dims := ⟨xs.length - 1, ys.length - 1, (divisionsFrom 0 heights).length - 1⟩

/-- cmfd.cpp:44-58 and mesh.cpp:59-67: its widths. -/
def cmfdWidths (xs ys : List K) (heights : List K) : Widths K := ⟨diffs xs, diffs ys, diffs (divisionsFrom 0 heights)⟩

/-- What `CoarseData` holds for one group by number of surface besides the current, coarse_data.hpp:152-154. -/
structure SurfaceData (K : Type) where
  sfc : Nat → K
  part : Nat → K × K
  partOld : Nat → K × K

/-- cmfd.cpp:478-497: the correction factor of surface `n` of the mesh `dC` of CMFD; `sfc` is read at the number of the surface. -/
def sHatAt (dC : Dims) (st sfc flux : Nat → K) (n : Nat) : K :=
  let c := coarseNeighCells dC n
  sHat (decide (0 ≤ c.1)) (st n) (sfc n) (side flux c.1) (side flux c.2)

/-- cmfd.cpp:588-594: the surface flux of CMFD. -/
def surfaceAt (dC : Dims) (st sh flux : Nat → K) (n : Nat) : K :=
  let c := coarseNeighCells dC n
  surfaceFlux (decide (0 ≤ c.1)) (st n) (sh n) (side flux c.1) (side flux c.2)

/-- cmfd.cpp:561-600: what `store_currents` writes, for the surfaces of the mesh `dC` of CMFD, at the numbers they have there. -/
def storeSurfaces (dC : Dims) (st sh dt dh flux : Nat → K) (s : SurfaceData K) : SurfaceData K where
  sfc := fun n => if n < nSurf dC then surfaceAt dC st sh flux n else s.sfc n
  part := fun n => if n < nSurf dC then partialCurrents (surfaceAt dC st sh flux n) (currentAt dC dt dh flux n) else s.part n
  partOld := s.part

/-- cmfd.cpp:171-279: set-up with the flux `φ` and the currents `J` on the mesh of CMFD, solution `ψ`, results. -/
def solveSurfaces (dC : Dims) (st dt J φ ψ : Nat → K) (s : SurfaceData K) : SurfaceData K :=
  storeSurfaces dC st (sHatAt dC st s.sfc φ) dt (dHatAt dC dt J φ) ψ s

end Verif.Cmfd
