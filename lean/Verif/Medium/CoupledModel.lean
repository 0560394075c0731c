import Verif.Medium.AccelMocModel
import Verif.Cmdo.ReproModel

/-!
# The Sn sweeper of the 2D3D sweeper in the outer iteration

src/sweepers/cmdo/plane_sweeper_2d3d.cpp:178-217 with src/sweepers/sn/sn_sweeper_variant.hpp:94-154, 308-420 and
src/sweepers/cmdo/sn_sweeper_cdd.hpp:77-100.  A core of one plane.  The Sn sweeper has its own source (source_2d3d.hpp, C107), its own
scalar flux and cross sections, which are homogenised with the flux of the MoC sweeper before each of its sweeps (`coarseProblem`), and
the correction factors that the MoC sweep of the same group has left.
-/

namespace Verif.Medium

open Verif.XS Verif.Source Verif.Sn

variable {K : Type} [Field K] [LinearOrder K]

/-- sn_sweeper_variant.hpp:325-410 with the cells of sn_sweeper_cdd.hpp:77-100: an ordinate in two dimensions with the factors of direction `d`. -/
def cddOrd (dim : Mesh.Dims) (dx dy : Nat → K) (o : Nat × Cmdo.Dir K) : SnOrd Ax2 K :=
  ⟨o.1, fun q xs => sweep2 dim o.2.negX o.2.negY o.2.wgt
    (Cmdo.snEval o.2 dx dy (fun i j => xs (Mesh.coarseCell dim ⟨i, j, 0⟩)) fun i j => q (Mesh.coarseCell dim ⟨i, j, 0⟩))⟩

/-- sn_sweeper.hpp, sn_sweeper_cdd.hpp: the parts of the Sn sweeper that do not change while the MoC solution stays the same; `dirs` are the
directions of a group with their numbers. -/
structure CoupledSn (K : Type) where
  fpi : K
  gs : Bool
  u : SnUpdate Ax2 K
  nInner : Nat
  dirs : Nat → List (Nat × Cmdo.Dir K)

/-- The Sn sweeper of a group. -/
def CoupledSn.setup (c : CoupledSn K) (G : Grid K) (g : Nat) : SnSetup Ax2 K := ⟨c.fpi, c.gs, c.u, (c.dirs g).map (cddOrd G.d G.dx G.dy), c.nInner⟩

/-- plane_sweeper_2d3d.cpp:179: the sweeper of the homogenised problem `p`. -/
def coupledSweeper (p : Problem K) (G : Grid K) (c : CoupledSn K) : Sweeper K (SnState Ax2 K) :=
  ⟨SnState.flux, fun g src s => snSweep p (c.setup G g) g src s⟩

/-- plane_sweeper_2d3d.cpp:201-208: sum of the squares of the differences of the pin fluxes of MoC and Sn (`residual` before the root and
the division). -/
def residualSq (n : Nat) (moc sn : Nat → K) : K := (List.range n).foldl (fun a i => a + (moc i - sn i) * (moc i - sn i)) 0

end Verif.Medium
