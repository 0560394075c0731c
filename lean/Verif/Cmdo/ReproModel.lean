import Verif.Cmdo.CorrModel
import Verif.Sn.SweepModel
import Verif.Moc.KernelModel

/-!
# Model of a MoC sweep of one plane as the correction worker sees it, and of the corrected Sn sweep behind it

src/sweepers/moc/moc_sweeper_kernel.inc.hpp:87-173, src/sweepers/cmdo/correction_worker.{hpp,cpp} and
src/sweepers/sn/sn_sweeper_variant.hpp:308-420 with src/sweepers/cmdo/sn_sweeper_cdd.hpp:77-100.  One group, a core of one plane, no
splitting.  A ray followed forwards and the same ray followed backwards are two beams, of two directions.
-/

namespace Verif.Cmdo

open Verif.Sn (Ax2 sweep2)
open Verif.Mesh (Dims coarseCell)

variable {K : Type} [Field K]

/-- The part of a beam in one pin: the pin, whether it enters and leaves through x-normal faces (else y-normal), and its
segments with the regions they are in (ray.hpp:33-190, `cm_data` of C73, C74). -/
structure Cross (K : Type) where
  ix : Nat
  iy : Nat
  inX : Bool
  outX : Bool
  segs : List (Nat × Seg K)

/-- A beam: incoming angular flux and the pins it passes. -/
structure Beam (K : Type) where
  psi : K
  path : List (Cross K)

/-- correction_worker.hpp:109-205: the chords of a beam; the flux that leaves a pin enters the next. -/
def beamChords (psi : K) : List (Cross K) → List ((Nat × Nat) × Chord K)
  | [] => []
  | c :: l =>
    let ch : Chord K := ⟨c.inX, c.outX, psi, c.segs.map Prod.snd⟩
    ((c.ix, c.iy), ch) :: beamChords (chordFw psi ch.segs).out l

/-- All chords in a pin. -/
def cellChords (bs : List (Beam K)) (i j : Nat) : List (Chord K) :=
  ((bs.flatMap fun b => beamChords b.psi b.path).filter (fun c => c.1 = (i, j))).map Prod.snd

/-- Sums of a pin.  In the code the sums on the faces are those of the surface (`surf_sum_`), to which a beam adds once;
from both sides it is the same number (`sums_linked`). -/
def cellSums (bs : List (Beam K)) (i j : Nat) : Sums K := gather (cellChords bs i j)

/-- One direction: signs (correction_worker.cpp:46-64 and sn_sweeper_variant.hpp:346-367), absolute cosines, weight times
pi (`wgt`, sn_sweeper_variant.hpp:341), spacing times sine of the polar angle (`tube`; `wt_v_st` of the kernel is
`wgt * tube` times the height of the plane), spacing over cosine and over sine of the azimuth (correction_worker.cpp:73-74), and the beams. -/
structure Dir (K : Type) where
  negX : Bool
  negY : Bool
  ox : K
  oy : K
  wgt : K
  tube : K
  areaX : K
  areaY : K
  beams : List (Beam K)

/-- sn_sweeper_cdd.hpp:77-100 `evaluate_2d` with the factors that the MoC sweep left for the direction. -/
def snEval (d : Dir K) (dx dy : Nat → K) (xstr q : Nat → Nat → K) (ix iy : Nat) (inc : Ax2 → K) : K × (Ax2 → K) :=
  let r := cddCell d.areaX d.areaY (dx ix) (dy iy) (xstr ix iy) (cellSums d.beams ix iy) d.ox d.oy (inc .x) (inc .y)
    (q ix iy)
  (r.psi, fun | .x => r.x | .y => r.y)

/-- sn_sweeper_variant.hpp:334-410: one direction, from its boundary values and the scalar flux so far. -/
def snDir (dim : Dims) (dx dy : Nat → K) (xstr q : Nat → Nat → K) (t : Nat → K) (d : Dir K × (Ax2 → Nat → K)) :
    Sn.State Ax2 K :=
  sweep2 dim d.1.negX d.1.negY d.1.wgt (snEval d.1 dx dy xstr q) ⟨d.2, t, fun _ => (0, fun _ => 0)⟩

/-- sn_sweeper_variant.hpp:308-420: scalar flux after all directions, each with its boundary values. -/
def snFlux (dim : Dims) (dx dy : Nat → K) (xstr q : Nat → Nat → K) (ds : List (Dir K × (Ax2 → Nat → K))) : Nat → K :=
  ds.foldl (fun t d => (snDir dim dx dy xstr q t d).tflux) (fun _ => 0)

/-- moc_sweeper_kernel.inc.hpp:106-114: what a beam leaves in the regions, segment by segment. -/
def beamGains (psi : K) : List (Nat × Seg K) → List (Nat × K)
  | [] => []
  | s :: l => (s.1, (psi - s.2.qbar) * s.2.e) :: beamGains (psi - (psi - s.2.qbar) * s.2.e) l

/-- Sum of the values with a label that satisfies `p`. -/
def labelSum (p : Nat → Bool) (l : List (Nat × K)) : K := (l.map fun x => if p x.1 then x.2 else 0).sum

/-- moc_sweeper_kernel.inc.hpp:51-162: what all beams leave in a region of a plane of the given height. -/
def mocGain (height : K) (ds : List (Dir K)) (r : Nat) : K :=
  (ds.map fun d => d.wgt * d.tube * height *
    (d.beams.map fun b => labelSum (· == r) (beamGains b.psi (b.path.flatMap Cross.segs))).sum).sum

/-- moc_sweeper_kernel.inc.hpp:38-180: scalar flux of a region; the last step is that of the kernel.  The volume of a
region is its area times the height of the plane (C85). -/
def mocFlux (fpi height : K) (sig area qbar : Nat → K) (ds : List (Dir K)) : Nat → K :=
  Moc.finish fpi sig (fun r => area r * height) qbar (mocGain height ds)

end Verif.Cmdo
