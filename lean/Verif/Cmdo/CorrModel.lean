import Verif.Sn.CellModel

/-!
# Model of the correction factors computed from the MoC sweep

src/sweepers/cmdo/correction_worker.hpp:109-205 (sums over ray segments), :227-250 (normalisation) and
src/sweepers/cmdo/correction_worker.cpp:33-160.  One coarse cell (pin), one direction, one group; `K` stands for
`real_t` in exact arithmetic.
-/

namespace Verif.Cmdo

variable {K : Type} [Field K]

/-- A ray segment: `t` = length over sine of the polar angle, cross section used in the sweep (with splitting), true
cross section, source over cross section (`qbar`), and `e = 1 - exp(-xstr t)`. -/
structure Seg (K : Type) where
  t : K
  xstr : K
  xtrue : K
  qbar : K
  e : K

/-- Sums over one chord (the part of a ray inside the pin): outgoing angular flux, flux volume, collision rate. -/
structure ChordSums (K : Type) where
  out : K
  vol : K
  sigt : K
  norm : K

/-- correction_worker.hpp:148-161 (forward): the flux after the segment is the one of the MoC kernel
(moc_sweeper_kernel.inc.hpp:106-126, `psi - (psi - qbar) * e_tau`). -/
def chordFw (psi : K) : List (Seg K) → ChordSums K
  | [] => ⟨psi, 0, 0, 0⟩
  | s :: l =>
    let psi' := psi - (psi - s.qbar) * s.e
    let fluxvol := s.t * s.qbar + (psi - psi') / s.xstr
    let r := chordFw psi' l
    ⟨r.out, fluxvol + r.vol, s.xtrue * fluxvol + r.sigt, s.t + r.norm⟩

/-- correction_worker.hpp:175-188 (backward; `vol_norm_` is only summed in the forward direction). -/
def chordBw (psi : K) : List (Seg K) → ChordSums K
  | [] => ⟨psi, 0, 0, 0⟩
  | s :: l =>
    let psi' := psi - (psi - s.qbar) * s.e
    let fluxvol := s.t * s.qbar + s.e * (psi - s.qbar) / s.xstr
    let r := chordBw psi' l
    ⟨r.out, fluxvol + r.vol, s.xtrue * fluxvol + r.sigt, 0⟩

/-- Sums of one pin after all rays of an angle: ray fluxes on the four faces (upwind and downwind in x and y), flux
volume, collision rate, tracked length. -/
structure Sums (K : Type) where
  xl : K
  xr : K
  yl : K
  yr : K
  vol : K
  sigt : K
  norm : K

/-- A ray crossing the pin: whether it enters and leaves through x-normal faces (else y-normal), incoming angular flux,
segments. -/
structure Chord (K : Type) where
  inX : Bool
  outX : Bool
  psi : K
  segs : List (Seg K)

/-- correction_worker.hpp:109-205, the additions that concern one pin and the forward direction, for all rays.  The
assignment of segments and faces to pins (`cm_data` of the ray) is taken as correct here. -/
def gather : List (Chord K) → Sums K
  | [] => ⟨0, 0, 0, 0, 0, 0, 0⟩
  | c :: l =>
    let r := gather l
    let s := chordFw c.psi c.segs
    ⟨(if c.inX then c.psi else 0) + r.xl, (if c.outX then s.out else 0) + r.xr,
     (if c.inX then 0 else c.psi) + r.yl, (if c.outX then 0 else s.out) + r.yr,
     s.vol + r.vol, s.sigt + r.sigt, s.norm + r.norm⟩

/-- correction_worker.cpp:73-74, 83: `areaX` is ray spacing over |cos alpha|, divided by the pin width in x (sic). -/
def psiX (areaX dx : K) (sum : K) : K := sum * (areaX / dx)

/-- correction_worker.cpp:73-74, 84: `areaY` is ray spacing over |sin alpha|, divided by the pin width in y (sic). -/
def psiY (areaY dy : K) (sum : K) : K := sum * (areaY / dy)

/-- correction_worker.hpp:235, correction_worker.cpp:102. -/
def alphaX (areaX dx : K) (s : Sums K) : K := (s.vol / s.norm) / (psiX areaX dx s.xl + psiX areaX dx s.xr)

/-- correction_worker.cpp:103. -/
def alphaY (areaY dy : K) (s : Sums K) : K := (s.vol / s.norm) / (psiY areaY dy s.yl + psiY areaY dy s.yr)

/-- correction_worker.hpp:233, correction_worker.cpp:105. -/
def beta (xstrSn : K) (s : Sums K) : K := (s.sigt / s.vol) / xstrSn

/-- sn_sweeper_cdd.hpp:77-100: the corrected Sn cell with the factors of the pin. -/
def cddCell (areaX areaY dx dy xstrSn : K) (s : Sums K) (ox oy fx fy q : K) : Sn.Out2 K :=
  Sn.evalCDD2 (alphaX areaX dx s * beta xstrSn s) (alphaY areaY dy s * beta xstrSn s) (ox / dx) (oy / dy) fx fy q
    xstrSn

end Verif.Cmdo
