import Verif.XS.MapModel
import Verif.XS.HomogModel

/-!
# Model of the multigroup source (src/core/source.{hpp,cpp}, src/core/source_isotropic.cpp) and of the fission source
(src/core/transport_sweeper.cpp:104-134)

Per-region arrays are functions of the region index.  `fpi` stands for the constant `FPI` = 4 pi.
-/

namespace Verif.Source

open Verif.XS Verif.Scatter

variable {K : Type} [Field K] [LinearOrder K]

/-- `for (ireg : xsr.reg()) a[ireg] += f(ireg)`. -/
def addTo (regs : List Nat) (f : Nat → K) (a : Nat → K) : Nat → K :=
  regs.foldl (fun a i => Function.update a i (a i + f i)) a

/-- `for (ireg : xsr.reg()) a[ireg] = f(ireg)`. -/
def setTo (regs : List Nat) (f : Nat → K) (a : Nat → K) : Nat → K :=
  regs.foldl (fun a i => Function.update a i (f i)) a

/-- The external source array as read from the file, with its extents. -/
structure Ext (K : Type) where
  extent0 : Nat
  extent1 : Nat
  data : Nat → Nat → K

/-- Reading `external_source_(i, j)`: `none` outside the extents (undefined behaviour without bounds checking). -/
def Ext.get (e : Ext K) (i j : Nat) : Option K := if i < e.extent0 ∧ j < e.extent1 then some (e.data i j) else none

/-- source.cpp:123-144 `add_external`: `none` when the extents are refused. -/
def addExternal (nGroup nReg : Nat) (e : Ext K) : Option (Ext K) :=
  if e.extent0 ≠ nGroup then none else if e.extent1 ≠ nReg then none else some e

/-- source.cpp:41-54 `initialize_group`; `none` is an out-of-bounds read.  Positions at or above `nReg` do not exist
in the array. -/
def initializeGroup (nReg : Nat) (ext : Option (Ext K)) (ig : Nat) : Option (Nat → K) :=
  match ext with
  | none => some (fun _ => 0)
  | some e => (List.range nReg).foldl (fun (a : Option (Nat → K)) i =>
      match a, e.get i ig with
      | some a, some v => some (Function.update a i v)
      | _, _ => none) (some (fun _ => 0))

/-- source.cpp:64-79 `fission`. -/
def fission (rs : List (XsRegion (Mat K))) (fs : Nat → K) (ig : Nat) (a : Nat → K) : Nat → K :=
  rs.foldl (fun a x => addTo x.regs (fun i => x.mat.ch ig * fs i) a) a

/-- source.cpp:85-112 `in_scatter`: the stored row `to(ig)` from `min_g` to `max_g`. -/
def inScatter (ng : Nat) (rs : List (XsRegion (Mat K))) (flux : Nat → Nat → K) (ig : Nat) (a : Nat → K) : Nat → K :=
  rs.foldl (fun a x =>
    if x.regs.length = 0 then a
    else
      let m := build ng x.mat.sc
      match m.rows[ig]? with
      | none => a
      | some row =>
        (groups row.minG row.maxG).foldl (fun a igg =>
          if igg ≠ ig then addTo x.regs (fun i => (m.get ig igg).getD 0 * flux i igg) a else a) a) a

/-- source.cpp:114-121 `auxiliary`. -/
def auxiliary (nReg : Nat) (aux : Nat → K) (a : Nat → K) : Nat → K := addTo (List.range nReg) aux a

/-- source_isotropic.cpp:21-44 `self_scatter(ig, xstr)` without (`given = false`) and with (`true`) an `xstr`
argument.  The values of the argument are not used by the code. -/
def selfScatter (fpi : K) (ng : Nat) (rs : List (XsRegion (Mat K))) (flux : Nat → Nat → K) (ig : Nat) (src : Nat → K)
    (given : Bool) (q : Nat → K) : Nat → K :=
  if given then
    rs.foldl (fun q x =>
      let xssc := ((build ng x.mat.sc).get ig ig).getD 0
      let r := 1 / (x.mat.tr ig * fpi)
      setTo x.regs (fun i => (src i + flux i ig * xssc) * r) q) q
  else
    let r := 1 / fpi
    rs.foldl (fun q x =>
      let xssc := ((build ng x.mat.sc).get ig ig).getD 0
      setTo x.regs (fun i => (src i + flux i ig * xssc) * r) q) q

/-- fixed_source_solver.cpp:108-120: how a group's source is assembled. -/
def assemble (ng nReg : Nat) (rs : List (XsRegion (Mat K))) (ext : Option (Ext K)) (fs : Nat → K)
    (flux : Nat → Nat → K) (ig : Nat) : Option (Nat → K) :=
  (initializeGroup nReg ext ig).map fun a => inScatter ng rs flux ig (fission rs fs ig a)

/-- transport_sweeper.cpp:104-117 `total_fission`. -/
def totalFission (ng : Nat) (rs : List (XsRegion (Mat K))) (vol : Nat → K) (flux : Nat → Nat → K) : K :=
  rs.foldl (fun t x => (List.range ng).foldl (fun t ig =>
    x.regs.foldl (fun t i => t + flux i ig * vol i * x.mat.nf ig) t) t) 0

/-- transport_sweeper.cpp:119-134 `calc_fission_source`. -/
def calcFissionSource (ng : Nat) (rs : List (XsRegion (Mat K))) (k : K) (flux : Nat → Nat → K) : Nat → K :=
  rs.foldl (fun a x => (List.range ng).foldl (fun a ig =>
    addTo x.regs (fun i => 1 / k * x.mat.nf ig * flux i ig) a) a) (fun _ => 0)

/-- eigen_solver.cpp:225-253 `step` without CMFD, `sweep` standing for the fixed-source step (fixed_source_solver.cpp:
108-120): it gets the fission source and the flux and returns the new flux, the flux before it being kept as the old
one.  Returns the new eigenvalue, flux and fission source. -/
def eigenStep (ng : Nat) (rs : List (XsRegion (Mat K))) (vol : Nat → K)
    (sweep : (Nat → K) → (Nat → Nat → K) → (Nat → Nat → K)) (k : K) (flux : Nat → Nat → K) :
    K × (Nat → Nat → K) × (Nat → K) :=
  let fs := calcFissionSource ng rs k flux
  let flux' := sweep fs flux
  let tfis1 := totalFission ng rs vol flux'
  let tfis2 := totalFission ng rs vol flux
  let k' := k * tfis1 / tfis2
  (k', flux', calcFissionSource ng rs k' flux')

end Verif.Source
