import Verif.Sn.CellModel
import Verif.Fp.RoundModel

/-!
# Model of the Sn cell equations in floating point (src/sweepers/sn/sn_sweeper_dd.hpp,
src/sweepers/cmdo/sn_sweeper_cdd.hpp)

The functions of `Verif.Sn.CellModel` with every operation rounded by `rnd`, in the order in which the code evaluates
them (`+`, `-`, `*`, `/` of equal precedence from the left).  A division by a computed zero, which in the code gives an
infinity or a NaN, is the outcome `none`.  Range of the exponent: results beyond the largest double are not infinities
here.  Simplification: no contraction of a product and a sum to a fused operation by the compiler.  `gx` and `gy` are
the products `ax * b` as rounded.
-/

namespace Verif.Sn

variable {K : Type} [Field K] [LinearOrder K]

/-- Rounded quotient; `none` when the divisor is zero. -/
def divF (rnd : K → K) (a b : K) : Option K := if b = 0 then none else some (rnd (a / b))

/-- sn_sweeper_dd.hpp:40-55 `SnSweeper_DD::evaluate` (from line 46, `tx` given). -/
def evalDDF (rnd : K → K) (tx ty tz fx fy fz q xstr : K) : Option (Out3 K) := do
  let num := rnd (rnd (2 * rnd (rnd (rnd (tx * fx) + rnd (ty * fy)) + rnd (tz * fz))) + q)
  let den := rnd (rnd (2 * rnd (rnd (tx + ty) + tz)) + xstr)
  let psi ← divF rnd num den
  some { psi := psi, x := rnd (rnd (2 * psi) - fx), y := rnd (rnd (2 * psi) - fy), z := rnd (rnd (2 * psi) - fz) }

/-- sn_sweeper_dd.hpp:57-70 and 86-98 `evaluate_2d` of both diamond difference sweepers. -/
def evalDD2F (rnd : K → K) (tx ty fx fy q xstr : K) : Option (Out2 K) := do
  let num := rnd (rnd (2 * rnd (rnd (tx * fx) + rnd (ty * fy))) + q)
  let den := rnd (rnd (2 * rnd (tx + ty)) + xstr)
  let psi ← divF rnd num den
  some { psi := psi, x := rnd (rnd (2 * psi) - fx), y := rnd (rnd (2 * psi) - fy) }

/-- sn_sweeper_dd.hpp:106-107, sn_sweeper_cdd.hpp:305-306: weight of the step characteristics; `e` is `std::exp`
(`Exponential::exp`, exponential.hpp:38-41). -/
def rhoF (rnd : K → K) (e : K → K) (tau : K) : Option K := do
  let a ← divF rnd 1 tau
  let b ← divF rnd 1 (rnd (e tau - 1))
  some (rnd (a - b))

/-- sn_sweeper_dd.hpp:100-119 `SnSweeper_DD_SC::evaluate`. -/
def evalDDSCF (rnd : K → K) (e : K → K) (tx ty tz fx fy fz q xstr : K) : Option (Out3 K) := do
  let tau ← divF rnd xstr tz
  let rho ← rhoF rnd e tau
  let rhofac ← divF rnd rho (rnd (1 - rho))
  let num := rnd (rnd (rnd (2 * rnd (rnd (tx * fx) + rnd (ty * fy))) + rnd (rnd (tz * rnd (rhofac + 1)) * fz)) + q)
  let dz ← divF rnd tz (rnd (1 - rho))
  let den := rnd (rnd (rnd (2 * rnd (tx + ty)) + dz) + xstr)
  let psi ← divF rnd num den
  let z ← divF rnd (rnd (psi - rnd (rho * fz))) (rnd (1 - rho))
  some { psi := psi, x := rnd (rnd (2 * psi) - fx), y := rnd (rnd (2 * psi) - fy), z := z }

/-- sn_sweeper_cdd.hpp:77-100 `SnSweeper_CDD::evaluate_2d`. -/
def evalCDD2F (rnd : K → K) (gx gy tx ty fx fy q xstr : K) : Option (Out2 K) := do
  let num := rnd (q + rnd (2 * rnd (rnd (tx * fx) + rnd (ty * fy))))
  let dx ← divF rnd tx gx
  let dy ← divF rnd ty gy
  let den := rnd (rnd (dx + dy) + xstr)
  let psi ← divF rnd num den
  let x ← divF rnd (rnd (psi - rnd (gx * fx))) gx
  let y ← divF rnd (rnd (psi - rnd (gy * fy))) gy
  some { psi := psi, x := x, y := y }

/-- sn_sweeper_cdd.hpp:151-176 `SnSweeper_CDD_DD::evaluate`. -/
def evalCDDDDF (rnd : K → K) (gx gy tx ty tz fx fy fz q xstr : K) : Option (Out3 K) := do
  let num := rnd (q + rnd (2 * rnd (rnd (rnd (tx * fx) + rnd (ty * fy)) + rnd (tz * fz))))
  let dx ← divF rnd tx gx
  let dy ← divF rnd ty gy
  let den := rnd (rnd (rnd (dx + dy) + rnd (2 * tz)) + xstr)
  let psi ← divF rnd num den
  let px ← divF rnd psi gx
  let py ← divF rnd psi gy
  some { psi := psi, x := rnd (px - fx), y := rnd (py - fy), z := rnd (rnd (2 * psi) - fz) }

/-- sn_sweeper_cdd.hpp:198-234 `SnSweeper_CDD_DD_FF::evaluate`. -/
def evalCDDFFF (rnd : K → K) (gx gy tx ty tz fx fy fz q xstr : K) : Option (Out3 K) := do
  let num := rnd (q + rnd (2 * rnd (rnd (rnd (tx * fx) + rnd (ty * fy)) + rnd (tz * fz))))
  let dx ← divF rnd tx gx
  let dy ← divF rnd ty gy
  let den := rnd (rnd (rnd (dx + dy) + rnd (2 * tz)) + xstr)
  let psi ← divF rnd num den
  let temp := rnd (rnd (2 * psi) - fz)
  if temp < 0 then do
    let num := rnd (rnd (q + rnd (2 * rnd (rnd (tx * fx) + rnd (ty * fy)))) + rnd (tz * fz))
    let den := rnd (rnd (dx + dy) + xstr)
    let psi ← divF rnd num den
    let px ← divF rnd psi gx
    let py ← divF rnd psi gy
    some { psi := psi, x := rnd (px - fx), y := rnd (py - fy), z := 0 }
  else do
    let px ← divF rnd psi gx
    let py ← divF rnd psi gy
    some { psi := psi, x := rnd (px - fx), y := rnd (py - fy), z := temp }

/-- sn_sweeper_cdd.hpp:249-274 `SnSweeper_CDD_FW::evaluate`. -/
def evalCDDFWF (rnd : K → K) (gx gy tx ty tz fx fy fz q xstr : K) : Option (Out3 K) := do
  let num := rnd (rnd (q + rnd (2 * rnd (rnd (tx * fx) + rnd (ty * fy)))) + rnd (tz * fz))
  let dx ← divF rnd tx gx
  let dy ← divF rnd ty gy
  let den := rnd (rnd (rnd (dx + dy) + tz) + xstr)
  let psi ← divF rnd num den
  let x ← divF rnd (rnd (psi - rnd (gx * fx))) gx
  let y ← divF rnd (rnd (psi - rnd (gy * fy))) gy
  some { psi := psi, x := x, y := y, z := psi }

/-- sn_sweeper_cdd.hpp:289-318 `SnSweeper_CDD_SC::evaluate`. -/
def evalCDDSCF (rnd : K → K) (e : K → K) (gx gy tx ty tz fx fy fz q xstr : K) : Option (Out3 K) := do
  let tau ← divF rnd xstr tz
  let rho ← rhoF rnd e tau
  let rhofac ← divF rnd rho (rnd (1 - rho))
  let num := rnd (rnd (q + rnd (2 * rnd (rnd (tx * fx) + rnd (ty * fy)))) + rnd (rnd (tz * rnd (rhofac + 1)) * fz))
  let dx ← divF rnd tx gx
  let dy ← divF rnd ty gy
  let dz ← divF rnd tz (rnd (1 - rho))
  let den := rnd (rnd (rnd (dx + dy) + dz) + xstr)
  let psi ← divF rnd num den
  let x ← divF rnd (rnd (psi - rnd (gx * fx))) gx
  let y ← divF rnd (rnd (psi - rnd (gy * fy))) gy
  let z ← divF rnd (rnd (psi - rnd (rho * fz))) (rnd (1 - rho))
  some { psi := psi, x := x, y := y, z := z }

end Verif.Sn
