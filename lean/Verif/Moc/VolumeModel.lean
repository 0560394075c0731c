import Verif.Moc.KernelModel

/-!
# Model of the ray volume correction (src/sweepers/moc/ray_data.cpp:345-489)

`K` stands for `real_t` in exact arithmetic; the statistics written to the log are left out.  A region that no ray
crosses has the correction factor `true / 0`; it is an infinity in C++ and 0 here, and in both cases it is never used.
-/

namespace Verif.Moc

variable {K : Type} [Field K]

/-- The rays of one angle of one plane with its weight and spacing (`ang->weight`, `spacing_[iang]`,
`rays_[iplane][iang]`). -/
structure AngleRays (K : Type) where
  weight : K
  space : K
  rays : List (Ray K)

/-- ray_data.cpp:371-376: one ray added to `fsr_vol`; `f` is the factor applied to each length. -/
def addRay (f : K) (vol : Nat → K) (r : Ray K) : Nat → K :=
  r.segs.foldl (fun v s => upd v s.reg (v s.reg + s.len * f)) vol

/-- ray_data.cpp:392-397 and 463-468: scale the segments of a ray by the factor of their region. -/
def scaleRay (cf : Nat → K) (r : Ray K) : Ray K :=
  { r with segs := r.segs.map fun s => { s with len := s.len * cf s.reg } }

/-- ray_data.cpp:366-398, FLAT: one angle. -/
def correctFlatAngle (trueVol : Nat → K) (a : AngleRays K) : AngleRays K :=
  let fsrVol := a.rays.foldl (addRay a.space) fun _ => 0
  { a with rays := a.rays.map (scaleRay fun r => trueVol r / fsrVol r) }

/-- ray_data.cpp:350-418, FLAT: each angle of a plane independently. -/
def correctFlat (trueVol : Nat → K) (as : List (AngleRays K)) : List (AngleRays K) :=
  as.map (correctFlatAngle trueVol)

/-- ray_data.cpp:433-449, ANGLE: the accumulated volume of each region over the angles, `wgt = weight * 0.5`. -/
def angleVol (as : List (AngleRays K)) : Nat → K :=
  as.foldl (fun v a => a.rays.foldl (addRay (a.space * (a.weight * (1 / 2)))) v) fun _ => 0

/-- ray_data.cpp:421-484, ANGLE: one factor per region for all angles. -/
def correctAngle (trueVol : Nat → K) (as : List (AngleRays K)) : List (AngleRays K) :=
  let fsrVol := angleVol as
  as.map fun a => { a with rays := a.rays.map (scaleRay fun r => trueVol r / fsrVol r) }

end Verif.Moc
