import Verif.Source.Model
import Verif.Fp.RoundModel

/-!
# Model of the multigroup source, the fission source and the eigenvalue in floating point
(src/core/source.cpp, src/core/source_isotropic.cpp, src/core/transport_sweeper.cpp, src/solvers/eigen_solver.cpp)

The functions of `Verif.Source.Model` with every operation rounded by `rnd` in the order of the source text (products and sums from the left; `+=` adds the rounded
product).  No contraction to fused operations; results beyond the largest double are not infinities here.  Without external source.
-/

namespace Verif.Source

open Verif.XS Verif.Scatter

variable {K : Type} [Field K] [LinearOrder K]

/-- `for (ireg : xsr.reg()) a[ireg] += f(ireg)`. -/
def addToF (rnd : K → K) (regs : List Nat) (f : Nat → K) (a : Nat → K) : Nat → K :=
  regs.foldl (fun a i => Function.update a i (rnd (a i + f i))) a

/-- source.cpp:64-79 `fission`. -/
def fissionF (rnd : K → K) (rs : List (XsRegion (Mat K))) (fs : Nat → K) (ig : Nat) (a : Nat → K) : Nat → K :=
  rs.foldl (fun a x => addToF rnd x.regs (fun i => rnd (x.mat.ch ig * fs i)) a) a

/-- source.cpp:85-112 `in_scatter`. -/
def inScatterF (rnd : K → K) (ng : Nat) (rs : List (XsRegion (Mat K))) (flux : Nat → Nat → K) (ig : Nat) (a : Nat → K) : Nat → K :=
  rs.foldl (fun a x =>
    if x.regs.length = 0 then a
    else
      let m := build ng x.mat.sc
      match m.rows[ig]? with
      | none => a
      | some row =>
        (groups row.minG row.maxG).foldl (fun a igg =>
          if igg ≠ ig then addToF rnd x.regs (fun i => rnd ((m.get ig igg).getD 0 * flux i igg)) a else a) a) a

/-- fixed_source_solver.cpp:108-120 with source.cpp:49-51: the source of a group as assembled, no external one. -/
def assembleF (rnd : K → K) (ng : Nat) (rs : List (XsRegion (Mat K))) (fs : Nat → K) (flux : Nat → Nat → K) (ig : Nat) : Nat → K :=
  inScatterF rnd ng rs flux ig (fissionF rnd rs fs ig (fun _ => 0))

/-- source_isotropic.cpp:21-44 `self_scatter`. -/
def selfScatterF (rnd : K → K) (fpi : K) (ng : Nat) (rs : List (XsRegion (Mat K))) (flux : Nat → Nat → K) (ig : Nat) (src : Nat → K) (given : Bool) (q : Nat → K) : Nat → K :=
  if given then
    rs.foldl (fun q x =>
      let xssc := ((build ng x.mat.sc).get ig ig).getD 0
      let r := rnd (1 / rnd (x.mat.tr ig * fpi))
      setTo x.regs (fun i => rnd (rnd (src i + rnd (flux i ig * xssc)) * r)) q) q
  else
    let r := rnd (1 / fpi)
    rs.foldl (fun q x =>
      let xssc := ((build ng x.mat.sc).get ig ig).getD 0
      setTo x.regs (fun i => rnd (rnd (src i + rnd (flux i ig * xssc)) * r)) q) q

/-- transport_sweeper.cpp:104-117 `total_fission`. -/
def totalFissionF (rnd : K → K) (ng : Nat) (rs : List (XsRegion (Mat K))) (vol : Nat → K) (flux : Nat → Nat → K) : K :=
  rs.foldl (fun t x => (List.range ng).foldl (fun t ig =>
    x.regs.foldl (fun t i => rnd (t + rnd (rnd (flux i ig * vol i) * x.mat.nf ig))) t) t) 0

/-- transport_sweeper.cpp:119-134 `calc_fission_source`. -/
def calcFissionSourceF (rnd : K → K) (ng : Nat) (rs : List (XsRegion (Mat K))) (k : K) (flux : Nat → Nat → K) : Nat → K :=
  let rkeff := rnd (1 / k)
  rs.foldl (fun a x => (List.range ng).foldl (fun a ig =>
    addToF rnd x.regs (fun i => rnd (rnd (rkeff * x.mat.nf ig) * flux i ig)) a) a) (fun _ => 0)

/-- eigen_solver.cpp:225-253 `step` without CMFD, `sweep` standing for the fixed-source step.  `none` when the eigenvalue is a quotient with a zero divisor (inf or NaN). -/
def eigenStepF (rnd : K → K) (ng : Nat) (rs : List (XsRegion (Mat K))) (vol : Nat → K) (sweep : (Nat → K) → (Nat → Nat → K) → (Nat → Nat → K)) (k : K) (flux : Nat → Nat → K) :
    Option (K × (Nat → Nat → K) × (Nat → K)) :=
  let fs := calcFissionSourceF rnd ng rs k flux
  let flux' := sweep fs flux
  let tfis1 := totalFissionF rnd ng rs vol flux'
  let tfis2 := totalFissionF rnd ng rs vol flux
  if tfis2 = 0 then none
  else
    let k' := rnd (rnd (k * tfis1) / tfis2)
    some (k', flux', calcFissionSourceF rnd ng rs k' flux')

end Verif.Source
