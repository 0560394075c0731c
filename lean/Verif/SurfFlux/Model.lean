import Verif.Incoming.Model
import Verif.Cmfd.Model

/-!
# Model of the surface fluxes on the coarse mesh

`CoarseData::surface_flux` as the three current workers fill it: `moc::Current` (src/sweepers/moc/moc_current_worker.hpp), `CurrentCorrections`
(src/sweepers/cmdo/correction_worker.hpp) and `sn::Current` (src/sweepers/sn/sn_current_worker.hpp).  One group; the currents are those of
`Verif.Moc.CoarseModel` and `Verif.Sn.CurrentModel`.
-/

namespace Verif.SurfFlux

open Verif.Mesh Verif.Moc Verif.Sn

variable {K : Type} [Field K] [LinearOrder K]

/-! ## MoC -/

/-- moc_current_worker.hpp:188-197 `set_angle`: `flux_weights_`.  `cosA`, `sinA` are the cosine and sine of `ang.alpha`. -/
def fluxWeights (pi weight spacing cosA sinA dz : K) : K × K :=
  let w := weight * pi
  (w * spacing / |cosA| * dz, w * spacing / |sinA| * dz)

/-- moc_current_worker.hpp:239-247 for one entry, forward, surface flux (`Walker.cur` holds the array). -/
def fluxFw (d : Dims) (fx fy : K) (psi1 : Int → K) (r : Rcd) (w : Walker K) : Option (Walker K) :=
  match r.fw with
  | none => some w
  | some s => do
    let n ← surfOf d w.cellFw s
    return { w with segFw := w.segFw + r.nfw, cur := addAt w.cur n (psi1 (w.segFw + r.nfw) * weightOf fx fy s) }

/-- moc_current_worker.hpp:249-257 for one entry, backward, surface flux: it is added, where the current is subtracted. -/
def fluxBw (d : Dims) (fx fy : K) (psi2 : Int → K) (r : Rcd) (w : Walker K) : Option (Walker K) :=
  match r.bw with
  | none => some w
  | some s => do
    let n ← surfOf d w.cellBw s
    return { w with segBw := w.segBw - r.nbw, cur := addAt w.cur n (psi2 (w.segBw - r.nbw) * weightOf fx fy s) }

/-- moc_current_worker.hpp:235-261: the loop, surface fluxes. -/
def fluxLoop (d : Dims) (fx fy : K) (psi1 psi2 : Int → K) : List Rcd → Walker K → Option (Walker K)
  | [], w => some w
  | r :: rest, w => do
    let w1 ← fluxFw d fx fy psi1 r w
    let w2 ← fluxBw d fx fy psi2 r w1
    fluxLoop d fx fy psi1 psi2 rest { w2 with cellFw := moveOn d w2.cellFw r.fw, cellBw := moveOn d w2.cellBw r.bw }

/-- moc_current_worker.hpp:202-264 `post_ray`, the surface fluxes. -/
def fluxRay (d : Dims) (plane : Nat) (fx fy : K) (psi1 psi2 : Int → K) (ray : CoarseRay) (sf : Nat → K) : Option (Nat → K) := do
  let off := d.nx * d.ny * plane
  let soff := nSurfPlane d * plane
  let sf1 := addAt sf (ray.surfFw + soff) (psi1 0 * weightAt d fx fy (ray.surfFw + soff))
  let sf2 := addAt sf1 (ray.surfBw + soff) (psi2 ray.nseg * weightAt d fx fy (ray.surfBw + soff))
  let w ← fluxLoop d fx fy psi1 psi2 ray.data ⟨(ray.cellFw + off : Nat), (ray.cellBw + off : Nat), 0, ray.nseg, sf2⟩
  return w.cur

/-- correction_worker.hpp:148-172 for one entry, forward: the loop over the segments of the entry moves `iseg_fw` on.  The cell is one of the
plane; `soff` is added to the number of the surface. -/
def corrFw (d : Dims) (soff : Nat) (wx wy : K) (psi1 : Int → K) (r : Rcd) (w : Walker K) : Option (Walker K) :=
  match r.fw with
  | none => some w
  | some s => do
    let n ← surfOf d w.cellFw s
    return { w with segFw := w.segFw + r.nfw, cur := addAt w.cur (n + soff) (psi1 (w.segFw + r.nfw) * weightOf wx wy s) }

/-- correction_worker.hpp:174-198 for one entry, backward. -/
def corrBw (d : Dims) (soff : Nat) (wx wy : K) (psi2 : Int → K) (r : Rcd) (w : Walker K) : Option (Walker K) :=
  match r.bw with
  | none => some w
  | some s => do
    let n ← surfOf d w.cellBw s
    return { w with segBw := w.segBw - r.nbw, cur := addAt w.cur (n + soff) (-(psi2 (w.segBw - r.nbw) * weightOf wx wy s)) }

/-- correction_worker.hpp:144-202: the loop. -/
def corrLoop (d : Dims) (soff : Nat) (wx wy : K) (psi1 psi2 : Int → K) : List Rcd → Walker K → Option (Walker K)
  | [], w => some w
  | r :: rest, w => do
    let w1 ← corrFw d soff wx wy psi1 r w
    let w2 ← corrBw d soff wx wy psi2 r w1
    corrLoop d soff wx wy psi1 psi2 rest { w2 with cellFw := moveOn d w2.cellFw r.fw, cellBw := moveOn d w2.cellBw r.bw }

/-- correction_worker.hpp:109-205 `post_ray`: one of the two arrays `current` and `surface_flux`, which are kept in the same way, with the weights
`current_weights_` and `flux_weights_` (lines 128-137, 164-169, 190-195).  The sums for the correction factors are left out. -/
def corrRay (d : Dims) (plane : Nat) (wx wy : K) (psi1 psi2 : Int → K) (ray : CoarseRay) (arr : Nat → K) : Option (Nat → K) := do
  let soff := nSurfPlane d * plane
  let a1 := addAt arr (ray.surfFw + soff) (psi1 0 * weightAt d wx wy ray.surfFw)
  let a2 := addAt a1 (ray.surfBw + soff) (-(psi2 ray.nseg * weightAt d wx wy ray.surfBw))
  let w ← corrLoop d soff wx wy psi1 psi2 ray.data ⟨ray.cellFw, ray.cellBw, 0, ray.nseg, a2⟩
  return w.cur

/-! ## Sn -/

/-- sn_current_worker.hpp:49-124 `upwind_work`, surface fluxes. -/
def upwindFlux (d : Dims) (a : Ray3 K) (b : Ax3 → Nat → K) (sf : Nat → K) : Nat → K :=
  let ixx := if a.ox < 0 then d.nx - 1 else 0
  let iyy := if a.oy < 0 then d.ny - 1 else 0
  let izz := if a.oz < 0 then d.nz - 1 else 0
  let sf1 := (List.range d.nz).foldl (fun sf iz => (List.range d.ny).foldl (fun sf iy =>
    bump sf (coarseSurf d (coarseCell d ⟨ixx, iy, iz⟩) (upwindSurf a .x)) (b .x (d.ny * iz + iy))) sf) sf
  let sf2 := (List.range d.nz).foldl (fun sf iz => (List.range d.nx).foldl (fun sf ix =>
    bump sf (coarseSurf d (coarseCell d ⟨ix, iyy, iz⟩) (upwindSurf a .y)) (b .y (d.nx * iz + ix))) sf) sf1
  (List.range d.ny).foldl (fun sf iy => (List.range d.nx).foldl (fun sf ix =>
    bump sf (coarseSurf d (coarseCell d ⟨ix, iy, izz⟩) (upwindSurf a .z)) (b .z (d.nx * iy + ix))) sf) sf2

/-- sn_current_worker.hpp:182-224 `current_work`, surface fluxes. -/
def currentFlux (d : Dims) (a : Ray3 K) (psi : Ax3 → K) (i : Nat) (sf : Nat → K) : Nat → K :=
  let sf1 := bump sf (coarseSurf d i (downwind a .x)) (psi .x)
  let sf2 := bump sf1 (coarseSurf d i (downwind a .y)) (psi .y)
  bump sf2 (coarseSurf d i (downwind a .z)) (psi .z)

/-- sn_sweeper_variant.hpp:242-275: the calls for one ordinate, as in `sweepCurrent`. -/
def sweepFlux (d : Dims) (a : Ray3 K) (b : Ax3 → Nat → K) (out : Nat → K × (Ax3 → K)) (sf : Nat → K) : Nat → K :=
  (order d.nz (a.oz < 0)).foldl (fun sf iz =>
    (order d.ny (a.oy < 0)).foldl (fun sf iy =>
      (order d.nx (a.ox < 0)).foldl (fun sf ix =>
        currentFlux d a (out (coarseCell d ⟨ix, iy, iz⟩)).2 (coarseCell d ⟨ix, iy, iz⟩) sf) sf) sf) (upwindFlux d a b sf)

/-- sn_sweeper_variant.hpp:186-282: the ordinates one after the other, scalar flux and surface fluxes. -/
def sweepAllFlux (d : Dims) (hpi : K) : List (Sweep3 K) → (Nat → K) × (Nat → K) → (Nat → K) × (Nat → K)
  | [], s => s
  | o :: rest, s =>
    let r := sweep3 d (o.ray.ox < 0) (o.ray.oy < 0) (o.ray.oz < 0) (o.ray.weight * hpi) o.ev ⟨o.b, s.1, fun _ => (0, fun _ => 0)⟩
    sweepAllFlux d hpi rest (r.tflux, sweepFlux d o.ray o.b r.out s.2)

end Verif.SurfFlux
