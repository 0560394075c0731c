import Mathlib.Algebra.Order.Field.Basic

/-!
# Model of the Sn cell equations (src/sweepers/sn/sn_sweeper_dd.hpp, src/sweepers/cmdo/sn_sweeper_cdd.hpp,
src/sweepers/cmdo/sn_sweeper_cdd_mb.hpp)

`tx`, `ty`, `tz` are the direction cosines (absolute values) divided by the cell widths, computed by the caller as in
`t_state.ox / mesh_.dx(ix)`; `gx`, `gy` the products `alpha * beta` of the correction factors.  The reference
arguments `flux_x`, `flux_y`, `flux_z` come back as components of the result.  Arithmetic is exact; a division by
zero (inf or NaN in the code) is excluded by hypotheses of the theorems.
-/

namespace Verif.Sn

variable {K : Type} [Field K] [LinearOrder K]

/-- Cell average and outgoing fluxes. -/
structure Out3 (K : Type) where
  psi : K
  x : K
  y : K
  z : K
  deriving DecidableEq, Repr

structure Out2 (K : Type) where
  psi : K
  x : K
  y : K
  deriving DecidableEq, Repr

/-- sn_sweeper_dd.hpp:40-55 `SnSweeper_DD::evaluate`. -/
def evalDD (tx ty tz fx fy fz q xstr : K) : Out3 K :=
  let psi := 2 * (tx * fx + ty * fy + tz * fz) + q
  let psi := psi / (2 * (tx + ty + tz) + xstr)
  { psi := psi, x := 2 * psi - fx, y := 2 * psi - fy, z := 2 * psi - fz }

/-- sn_sweeper_dd.hpp:57-70 and 86-98 `evaluate_2d` of both diamond difference sweepers. -/
def evalDD2 (tx ty fx fy q xstr : K) : Out2 K :=
  let psi := 2 * (tx * fx + ty * fy) + q
  let psi := psi / (2 * (tx + ty) + xstr)
  { psi := psi, x := 2 * psi - fx, y := 2 * psi - fy }

/-- sn_sweeper_dd.hpp:106-107, sn_sweeper_cdd.hpp:304-305: the step characteristics weight; `expo` is the exponential
function. -/
def rho (expo : K → K) (tau : K) : K := 1 / tau - 1 / (expo tau - 1)

/-- sn_sweeper_dd.hpp:100-119 `SnSweeper_DD_SC::evaluate`. -/
def evalDDSC (expo : K → K) (tx ty tz fx fy fz q xstr : K) : Out3 K :=
  let tau := xstr / tz
  let rho := rho expo tau
  let rhofac := rho / (1 - rho)
  let psi := 2 * (tx * fx + ty * fy) + tz * (rhofac + 1) * fz + q
  let psi := psi / (2 * (tx + ty) + tz / (1 - rho) + xstr)
  { psi := psi, x := 2 * psi - fx, y := 2 * psi - fy, z := (psi - rho * fz) / (1 - rho) }

/-- sn_sweeper_cdd.hpp:77-100 `SnSweeper_CDD::evaluate_2d`. -/
def evalCDD2 (gx gy tx ty fx fy q xstr : K) : Out2 K :=
  let psi := q + 2 * (tx * fx + ty * fy)
  let psi := psi / (tx / gx + ty / gy + xstr)
  { psi := psi, x := (psi - gx * fx) / gx, y := (psi - gy * fy) / gy }

/-- sn_sweeper_cdd.hpp:151-176 `SnSweeper_CDD_DD::evaluate`. -/
def evalCDDDD (gx gy tx ty tz fx fy fz q xstr : K) : Out3 K :=
  let psi := q + 2 * (tx * fx + ty * fy + tz * fz)
  let psi := psi / (tx / gx + ty / gy + 2 * tz + xstr)
  { psi := psi, x := psi / gx - fx, y := psi / gy - fy, z := 2 * psi - fz }

/-- sn_sweeper_cdd.hpp:198-234 `SnSweeper_CDD_DD_FF::evaluate`. -/
def evalCDDFF (gx gy tx ty tz fx fy fz q xstr : K) : Out3 K :=
  let psi := q + 2 * (tx * fx + ty * fy + tz * fz)
  let psi := psi / (tx / gx + ty / gy + 2 * tz + xstr)
  let temp := 2 * psi - fz
  if temp < 0 then
    let psi := q + 2 * (tx * fx + ty * fy) + tz * fz
    let psi := psi / (tx / gx + ty / gy + xstr)
    { psi := psi, x := psi / gx - fx, y := psi / gy - fy, z := 0 }
  else { psi := psi, x := psi / gx - fx, y := psi / gy - fy, z := temp }

/-- sn_sweeper_cdd.hpp:249-274 `SnSweeper_CDD_FW::evaluate`. -/
def evalCDDFW (gx gy tx ty tz fx fy fz q xstr : K) : Out3 K :=
  let psi := q + 2 * (tx * fx + ty * fy) + tz * fz
  let psi := psi / (tx / gx + ty / gy + tz + xstr)
  { psi := psi, x := (psi - gx * fx) / gx, y := (psi - gy * fy) / gy, z := psi }

/-- sn_sweeper_cdd.hpp:289-318 `SnSweeper_CDD_SC::evaluate`. -/
def evalCDDSC (expo : K → K) (gx gy tx ty tz fx fy fz q xstr : K) : Out3 K :=
  let tau := xstr / tz
  let rho := rho expo tau
  let rhofac := rho / (1 - rho)
  let psi := q + 2 * (tx * fx + ty * fy) + tz * (rhofac + 1) * fz
  let psi := psi / (tx / gx + ty / gy + tz / (1 - rho) + xstr)
  { psi := psi, x := (psi - gx * fx) / gx, y := (psi - gy * fy) / gy, z := (psi - rho * fz) / (1 - rho) }

/-- sn_sweeper_cdd_mb.hpp:41-70 `SnSweeper_CDD_PMB::evaluate` (the correction factors are read but replaced by one
half); `oz` is the axial direction cosine and `dz` the width read from `mesh_.dz(i % nx * ny)`. -/
def evalPMB (dz oz tx ty tz fx fy fz q xstr : K) : Out3 K :=
  let gx : K := 1 / 2
  let gy : K := 1 / 2
  let psi := q - (dz * oz * q) / (2 * tz + xstr) + 2 * (tx * fx + ty * fy) + tz * fz
  let psi := psi / (tx / gx + ty / gy + (oz * oz) / (tz + 1 / 2 * xstr) + xstr)
  { psi := psi, x := psi / gx - fx, y := psi / gy - fy, z := (2 * psi * tz + q) / (2 * tz + xstr) }

/-- sn_sweeper_cdd_mb.hpp:45-46: the index with which `mesh_.dz` is called for cell `i` (`%` and `*` have the same
precedence and associate to the left). -/
def pmbDzIndex (nx ny i : Nat) : Nat := i % nx * ny

end Verif.Sn
