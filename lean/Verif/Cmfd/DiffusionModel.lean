import Verif.Cmfd.Model

/-!
# Model of the coefficients and results of one CMFD surface (src/core/cmfd.cpp:417-503, 557-589)

The pieces are those of `Verif.Cmfd.Model`; here they are put together as in the loops over surfaces.
-/

namespace Verif.Cmfd

open Verif.Mesh

variable {K : Type} [Field K] [LinearOrder K]

/-- The four coefficients of a surface. -/
structure Coef (K : Type) where
  dt : K
  st : K
  dh : K
  sh : K

/-- cmfd.cpp:457-503: coefficients from the diffusivities of the two sides; `data` is the transport current and surface
flux, if available; `left` tells whether there is a cell on the left. -/
def coefs (d1 d2 : K) (data : Option (K × K)) (left : Bool) (fl fr : K) : Coef K :=
  match data with
  | some (j, sf) =>
    ⟨dTilde d1 d2, sTilde d1 d2, dHat (dTilde d1 d2) j fl fr, sHat left (sTilde d1 d2) sf fl fr⟩
  | none => ⟨dTilde d1 d2, sTilde d1 d2, 0, 0⟩

/-- What is stored for a surface: net current, surface flux, partial currents towards higher and lower positions. -/
structure Result (K : Type) where
  current : K
  flux : K
  up : K
  down : K

/-- cmfd.cpp:557-589. -/
def result (c : Coef K) (left : Bool) (fl fr : K) : Result K :=
  let j := current c.dt c.dh fl fr
  let sf := surfaceFlux left c.st c.sh fl fr
  ⟨j, sf, (partialCurrents sf j).1, (partialCurrents sf j).2⟩

/-- cmfd.cpp:417-458: `d_tilde` of surface `n`; `none` is the exception.  `bc` gives the boundary condition on the low
and high side along each axis. -/
def dTildeAt (d : Dims) (w : Widths K) (D : Nat → K) (bc : Normal → Bool → BCType) (n : Nat) : Option K := do
  let cells := coarseNeighCells d n
  let norm := surfaceNormal d n
  let d1 ← diffusivity d w D cells.1 norm (bc norm false)
  let d2 ← diffusivity d w D cells.2 norm (bc norm true)
  return dTilde d1 d2

end Verif.Cmfd
