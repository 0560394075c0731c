import Verif.Moc.KernelModel
import Verif.Moc.CoarseModel
import Verif.Moc.ExpandModel

/-!
# Model of the MoC sweep with currents

`MoCSweeper::sweep1g` (src/sweepers/moc/moc_sweeper_kernel.inc.hpp) with `moc::Current` (src/sweepers/moc/moc_current_worker.hpp).  Boundary values and fluxes are those
of `Verif.Moc.KernelModel`; here are the currents, on one thread.
-/

namespace Verif.Moc

open Verif.Mesh

variable {K : Type} [Field K] [LinearOrder K]

/-- moc_sweeper_kernel.inc.hpp:104-115: the values `psi1[0]`, ..., `psi1[nseg]`. -/
def fluxes (e : Seg K → K) (q : Nat → K) (first : Nat) : List (Seg K) → K → List K
  | [], psi => [psi]
  | s :: ss, psi => psi :: fluxes e q first ss (psi - (psi - q (s.reg + first)) * e s)

/-- What is needed to sweep one angle of a plane: as `AngleWork`, with the weights of `Current::set_angle` and the coarse data of the rays. -/
structure AngleCur (K : Type) where
  iang1 : Nat
  iang2 : Nat
  rst : K
  wt : K
  wx : K
  wy : K
  rays : List (Ray K × CoarseRay)

def AngleCur.work (w : AngleCur K) : AngleWork K := ⟨w.iang1, w.iang2, w.rst, w.wt, w.rays.map Prod.fst⟩

/-- moc_sweeper_kernel.inc.hpp:104-135: the fluxes of a ray in both directions, `psi2` filled from its end, and `post_ray`.  Indices of `psi1` and `psi2` are not checked
here: those used are from zero to the number of segments when the coarse data fit the ray (C75). -/
def rayCur (d : Dims) (plane : Nat) (e : Seg K → K) (q : Nat → K) (first : Nat) (in1 in2 : Nat → K) (wx wy : K) (cur : Nat → K) (r : Ray K × CoarseRay) :
    Option (Nat → K) :=
  let f := fluxes e q first r.1.segs (in1 r.1.bc0)
  let b := (fluxes e q first r.1.segs.reverse (in2 r.1.bc1)).reverse
  postRay d plane wx wy (fun n => f.getD n.toNat 0) (fun n => b.getD n.toNat 0) r.2 cur

/-- moc_sweeper_kernel.inc.hpp:84-137: the rays of an angle.  The incoming values do not change meanwhile. -/
def raysCur (d : Dims) (plane : Nat) (e : Seg K → K) (q : Nat → K) (first : Nat) (in1 in2 : Nat → K) (wx wy : K) : List (Ray K × CoarseRay) → (Nat → K) → Option (Nat → K)
  | [], cur => some cur
  | r :: rs, cur => (rayCur d plane e q first in1 in2 wx wy cur r).bind (raysCur d plane e q first in1 in2 wx wy rs)

/-- moc_sweeper_kernel.inc.hpp:60-148: the angles of a plane. -/
def anglesCur (d : Dims) (plane : Nat) (expo : K → K) (xstr q : Nat → K) (gs : Bool) (u : BcUpdate K) (first : Nat) :
    List (AngleCur K) → St K → (Nat → K) → Option (Nat → K)
  | [], _, cur => some cur
  | w :: ws, s, cur =>
    (raysCur d plane (eTau expo xstr w.rst first) q first (s.bin w.iang1) (s.bin w.iang2) w.wx w.wy w.rays cur).bind
      (anglesCur d plane expo xstr q gs u first ws (sweepAngle expo xstr q gs u first s w.work))

/-- One macroplane. -/
structure PlaneCur (K : Type) where
  first : Nat
  angles : List (AngleCur K)

def PlaneCur.work (p : PlaneCur K) : PlaneWork K := ⟨p.first, p.angles.map AngleCur.work⟩

/-- moc_sweeper_kernel.inc.hpp:50-157: the planes from number `k` on. -/
def planesCur (d : Dims) (expo : K → K) (xstr q : Nat → K) (gs : Bool) (u : BcUpdate K) :
    List (PlaneCur K × (Nat → Nat → K) × (Nat → Nat → K)) → Nat → (Nat → K) → (Nat → K) → Option (Nat → K)
  | [], _, _, cur => some cur
  | (p, bin, bout) :: ps, k, t, cur =>
    (anglesCur d k expo xstr q gs u p.first p.angles ⟨t, bin, bout⟩ cur).bind
      (planesCur d expo xstr q gs u ps (k + 1) (sweepPlane expo xstr q gs u p.work ⟨t, bin, bout⟩).tflux)

/-- moc_sweeper_kernel.inc.hpp:38-180 with moc_current_worker.hpp:272-318 `post_sweep`: the currents of the group; `mi` is `macroplane_index`, `area` the areas of the
surfaces. -/
def currents1g (d : Dims) (mi : Nat → Nat) (area : Nat → K) (expo : K → K) (xstr q : Nat → K) (gs : Bool) (u : BcUpdate K)
    (ps : List (PlaneCur K × (Nat → Nat → K) × (Nat → Nat → K))) (cur : Nat → K) : Option (Nat → K) :=
  (planesCur d expo xstr q gs u ps 0 (fun _ => 0) cur).map fun c => Expand.normaliseArea d area (Expand.expandCurrent d mi c)

end Verif.Moc
