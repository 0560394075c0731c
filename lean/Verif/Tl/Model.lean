import Verif.Mesh.Model

/-!
# Model of the transverse leakage of the 2D3D sweeper and its use by the MoC sweeper

src/sweepers/cmdo/plane_sweeper_2d3d.cpp:241-280, src/sweepers/moc/moc_sweeper.cpp:435-472.

`K` stands for `real_t` in exact arithmetic; one group.  Each entry of `tl_` is read and written by exactly one pin of
one macroplane (C10), so the update is modelled entry by entry.
-/

namespace Verif.Tl

open Verif.Mesh

variable {K : Type} [Field K]

/-- Planes `izMin..izMax` and the height of a macroplane. -/
structure MacroPlane (K : Type) where
  izMin : Nat
  izMax : Nat
  height : K

/-- plane_sweeper_2d3d.cpp:252-268: new transverse leakage of the pin at column `x`, row `y` of a macroplane, from the
currents on the coarse surfaces, the relaxation factor and the previous leakage. -/
def newTl (d : Dims) (J : Nat → K) (relax : K) (x y : Nat) (mp : MacroPlane K) (old : K) : Option K := do
  let down ← coarseSurf d (coarseCell d ⟨x, y, mp.izMin⟩) .BOTTOM
  let up ← coarseSurf d (coarseCell d ⟨x, y, mp.izMax⟩) .TOP
  return old * (1 - relax) + relax * (J down - J up) / mp.height

/-- plane_sweeper_2d3d.cpp:249-275 restricted to one pin column: macroplanes with their previous leakages. -/
def columnTl (d : Dims) (J : Nat → K) (relax : K) (x y : Nat) : List (MacroPlane K × K) → Option (List K)
  | [] => some []
  | (mp, old) :: l => do
    let t ← newTl d J relax x y mp old
    let ts ← columnTl d J relax x y l
    return t :: ts

/-- What happens to one region in `apply_transverse_leakage`. -/
inductive Applied (K : Type)
  /-- Exception "Negative flux when splitting". -/
  | throws
  /-- The flux is zero: `-s / 0` is an infinite added removal. -/
  | infinite
  /-- New source and added removal. -/
  | ok (source split : K)

/-- moc_sweeper.cpp:443-460 (splitting allowed), one region. -/
def applySplit [LinearOrder K] (source tl flux : K) : Applied K :=
  let s := source + tl
  if s < 0 then
    if flux < 0 then .throws
    else if flux = 0 then .infinite
    else .ok 0 (-s / flux)
  else .ok s 0

/-- moc_sweeper.cpp:465-469 (splitting not allowed), one region. -/
def applyPlain (source tl : K) : Applied K := .ok (source + tl) 0

end Verif.Tl
