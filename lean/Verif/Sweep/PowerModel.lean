import Verif.Mesh.Model
import Verif.Normalize.Model
import Mathlib.Algebra.Order.Field.Basic

/-!
# Pin powers

Model of `TransportSweeper::pin_powers` (src/core/transport_sweeper.cpp:136-193), of `SnSweeper::pin_powers` and `SnSweeper::pin_powers_2d`
(src/sweepers/sn/sn_sweeper.cpp:176-211), of the number of fuel pins (src/core/core_mesh.cpp:61-77, src/core/plane.cpp:74-88), and of
`total_fission` and `flux_residual` (src/core/transport_sweeper.cpp:104-117 and 210-224).  `real_t` is a field.  Arrays are functions, so that indices of
regions are taken to be in range, which is C24 (C96) for the lists of the cross-section mesh.
-/

namespace Verif.Sweep.Power

open Verif.Mesh

variable {K : Type}

/-- A region of the cross-section mesh: its regions, kappa-fission and nu-fission cross section by group. -/
structure XsReg (K : Type) where
  regs : List Nat
  f : Nat → K
  nf : Nat → K

/-- `a(r) += v`. -/
def deposit [Add K] {I : Type} [DecidableEq I] (a : I → K) (r : I) (v : K) : I → K := fun x => if x = r then a x + v else a x

/-- transport_sweeper.cpp:150-161: `fsr_pow`. -/
def fsrPow [Field K] (xsm : List (XsReg K)) (ng : Nat) (flux : Nat → Nat → K) (vol : Nat → K) : Nat → K :=
  xsm.foldl (fun a x => (List.range ng).foldl (fun a g => x.regs.foldl (fun a r => deposit a r (flux r g * x.f g * vol r)) a) a) fun _ => 0

/-- State of the loops of transport_sweeper.cpp:163-183: `ireg`, `tot_pow` and `powers(iplane, y, x)`. -/
structure St (K : Type) where
  ireg : Nat
  tot : K
  pow : Nat × Nat × Nat → K

/-- transport_sweeper.cpp:174-178: the regions of one pin at `at_`. -/
def regLoop [Add K] (fsr : Nat → K) (at_ : Nat × Nat × Nat) : Nat → St K → St K
  | 0, s => s
  | n + 1, s => regLoop fsr at_ n ⟨s.ireg + 1, s.tot + fsr s.ireg, deposit s.pow at_ (fsr s.ireg)⟩

/-- transport_sweeper.cpp:168-180: the pins of one plane, given by their numbers of regions; `pos` is `pin_position` (column and row). -/
def pinLoop [Add K] (fsr : Nat → K) (pos : Nat → Nat × Nat) (iplane : Nat) : List Nat → Nat → St K → St K
  | [], _, s => s
  | n :: ns, ipin, s => pinLoop fsr pos iplane ns (ipin + 1) (regLoop fsr (iplane, (pos ipin).2, (pos ipin).1) n s)

/-- transport_sweeper.cpp:163-183: the macroplanes; `pins` are the numbers of regions of `core_pins_`, `nxy` the number of pins of a plane.  Iterators
past the end of the pins are undefined behaviour (`none`). -/
def planeLoop [Add K] (fsr : Nat → K) (pos : Nat → Nat × Nat) (nxy : Nat) (pins : List Nat) : List Nat → Nat → Nat → St K → Option (St K)
  | [], _, _, s => some s
  | np :: sub, iplane, iz, s =>
    if nxy * (iz + 1) ≤ pins.length then
      planeLoop fsr pos nxy pins sub (iplane + 1) (iz + np) (pinLoop fsr pos iplane ((pins.drop (nxy * iz)).take nxy) 0 s)
    else none

/-- transport_sweeper.cpp:140-193 `TransportSweeper::pin_powers`.  Division by a total power of zero gives no numbers: `none` as well. -/
def pinPowers [Field K] [LinearOrder K] (fsr : Nat → K) (pos : Nat → Nat × Nat) (nxy : Nat) (pins sub : List Nat) (nFuel : Nat) :
    Option (Nat × Nat × Nat → K) :=
  match planeLoop fsr pos nxy pins sub 0 0 ⟨0, 0, fun _ => 0⟩ with
  | none => none
  | some s => if s.tot = 0 then none else some fun i => s.pow i * ((nFuel : K) / s.tot)

/-- core_mesh.cpp:61-77 with plane.cpp:74-88: the largest number of fuel pins of a plane; each plane is the list of `is_fuel` of its pins. -/
def nFuel2d (planes : List (List Bool)) : Nat := planes.foldl (fun n p => max n (p.foldl (fun k b => if b then k + 1 else k) 0)) 0

/-- sn_sweeper.cpp:181-189: the powers of the cells before the normalisation, by position (plane, row, column). -/
def snRaw [Field K] (d : Dims) (xsm : List (XsReg K)) (ng : Nat) (flux : Nat → Nat → K) (vol : Nat → K) : Nat × Nat × Nat → K :=
  xsm.foldl (fun a x => x.regs.foldl (fun a r => (List.range ng).foldl
    (fun a g => deposit a ((coarsePosition d r).z, (coarsePosition d r).y, (coarsePosition d r).x) (vol r * flux r g * x.f g)) a) a) fun _ => 0

/-- sn_sweeper.cpp:176-193 `SnSweeper::pin_powers`: the array in the order of its elements. -/
def snPowers [Field K] [LinearOrder K] (d : Dims) (xsm : List (XsReg K)) (ng : Nat) (flux : Nat → Nat → K) (vol : Nat → K) : Option (List K) :=
  (Normalize.normalize ((List.range d.nz).flatMap fun z : Nat => (List.range d.ny).flatMap fun y : Nat => (List.range d.nx).map fun x : Nat =>
    snRaw d xsm ng flux vol (z, y, x))).map (·.1)

/-- sn_sweeper.cpp:199-207: the same, by row and column. -/
def snRaw2 [Field K] (d : Dims) (xsm : List (XsReg K)) (ng : Nat) (flux : Nat → Nat → K) (vol : Nat → K) : Nat × Nat → K :=
  xsm.foldl (fun a x => x.regs.foldl (fun a r => (List.range ng).foldl
    (fun a g => deposit a ((coarsePosition d r).y, (coarsePosition d r).x) (vol r * flux r g * x.f g)) a) a) fun _ => 0

/-- sn_sweeper.cpp:195-211 `SnSweeper::pin_powers_2d`. -/
def snPowers2 [Field K] [LinearOrder K] (d : Dims) (xsm : List (XsReg K)) (ng : Nat) (flux : Nat → Nat → K) (vol : Nat → K) : Option (List K) :=
  (Normalize.normalize ((List.range d.ny).flatMap fun y : Nat => (List.range d.nx).map fun x : Nat => snRaw2 d xsm ng flux vol (y, x))).map (·.1)

/-- transport_sweeper.cpp:104-117 `total_fission`, for the flux that is chosen. -/
def totalFission [Field K] (xsm : List (XsReg K)) (ng : Nat) (flux : Nat → Nat → K) (vol : Nat → K) : K :=
  xsm.foldl (fun t x => (List.range ng).foldl (fun t g => x.regs.foldl (fun t r => t + flux r g * vol r * x.nf g) t) t) 0

/-- transport_sweeper.cpp:119-134 `calc_fission_source`. -/
def fissionSource [Field K] (xsm : List (XsReg K)) (ng : Nat) (flux : Nat → Nat → K) (k : K) : Nat → K :=
  xsm.foldl (fun a x => (List.range ng).foldl (fun a g => x.regs.foldl (fun a r => deposit a r (1 / k * x.nf g * flux r g)) a) a) fun _ => 0

/-- transport_sweeper.cpp:210-224 `flux_residual`, squared: both arrays in the order of their elements. -/
def residualSq [Field K] : List K → List K → K → K
  | a :: as, b :: bs, r => residualSq as bs (r + (a - b) * (a - b))
  | _, _, r => r

end Verif.Sweep.Power
