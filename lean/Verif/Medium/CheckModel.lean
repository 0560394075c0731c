import Verif.Medium.AccelMocModel

/-!
# The printed balance of cells

`SnSweeper::check_balance` (src/sweepers/sn/sn_sweeper.cpp) and `MoCSweeper::check_balance` (src/sweepers/moc/moc_sweeper.cpp).  What they read of the sweeper is passed as
arguments: the source of the group swept last (`source_1g_`, source.hpp:134-145), fluxes, currents of the group and volumes.  The numbers that are printed are returned; `none` is an access
out of bounds.
-/

namespace Verif.Medium

open Verif.XS Verif.Source

variable {K : Type} [Field K] [LinearOrder K]

/-- sn_sweeper.cpp:222-224, moc_sweeper.cpp:509-510: current through a face of a cell times its area. -/
def faceFlow (G : Grid K) (cur : Nat → K) (icell : Nat) (s : Mesh.Surface) : Option K :=
  Mesh.mul2 ((Mesh.coarseSurf G.d icell s).map cur) (Mesh.coarseAreaCell G.d G.w icell s)

/-- sn_sweeper.cpp:222-239, moc_sweeper.cpp:509-520: the six faces, starting from `b`. -/
def minusFaces (G : Grid K) (cur : Nat → K) (icell : Nat) (b : K) : Option K := do
  let e ← faceFlow G cur icell .EAST
  let n ← faceFlow G cur icell .NORTH
  let t ← faceFlow G cur icell .TOP
  let w ← faceFlow G cur icell .WEST
  let s ← faceFlow G cur icell .SOUTH
  let o ← faceFlow G cur icell .BOTTOM
  return b - e - n - t + w + s + o

/-- sn_sweeper.cpp:219-248: one cell; `flux1g` is `flux_1g_`.  The cross sections are those of the region of the cross-section mesh with the number of the cell. -/
def snCell (G : Grid K) (rs : List (XsRegion (Mat K))) (g : Nat) (cur src flux1g vol : Nat → K) (icell : Nat) : Option K := do
  let b ← minusFaces G cur icell 0
  let x ← rs[icell]?
  return b + src icell * vol icell - flux1g icell * (x.mat.tr g - x.mat.sc g g) * vol icell

/-- sn_sweeper.cpp:218-249: the cells in a list one after the other. -/
def snCells (G : Grid K) (rs : List (XsRegion (Mat K))) (g : Nat) (cur src flux1g vol : Nat → K) : List Nat → Option (List K)
  | [] => some []
  | i :: l => do
    let b ← snCell G rs g cur src flux1g vol i
    let bs ← snCells G rs g cur src flux1g vol l
    return b :: bs

/-- sn_sweeper.cpp:213-251 `check_balance(group)`, if there are coarse data. -/
def snCheck (G : Grid K) (rs : List (XsRegion (Mat K))) (g : Nat) (cur src flux1g vol : Nat → K) : Option (List K) :=
  snCells G rs g cur src flux1g vol (List.range (Mesh.nPin G.d))

/-- moc_sweeper.cpp:502-506: the regions of a pin, `n` from `ireg` on; `nReg` is the number of regions of the sweeper. -/
def pinRegions (nReg : Nat) (rm src flux1g vol : Nat → K) : Nat → Nat → K → Option K
  | 0, _, b => some b
  | n + 1, ireg, b => if ireg < nReg then pinRegions nReg rm src flux1g vol n (ireg + 1) (b - flux1g ireg * vol ireg * rm ireg + src ireg * vol ireg) else none

/-- moc_sweeper.cpp:498-524: the pins of the core in order, each with its coarse cell (`coarse_cell(pin_position(ipin))`) and number of regions. -/
def mocPins (G : Grid K) (nReg : Nat) (rm cur src flux1g vol : Nat → K) : List (Nat × Nat) → Nat → (Nat → K) → Option (Nat → K)
  | [], _, b => some b
  | (icell, n) :: ps, ireg, b => do
    let bi ← pinRegions nReg rm src flux1g vol n ireg 0
    let bi ← minusFaces G cur icell bi
    mocPins G nReg rm cur src flux1g vol ps (ireg + n) (fun j => if j = icell then bi else b j)

/-- moc_sweeper.cpp:479-531 `check_balance(group)`; lines 485-492 are the loop of `rmOf`. -/
def mocCheck (G : Grid K) (nReg : Nat) (rs : List (XsRegion (Mat K))) (pins : List (Nat × Nat)) (g : Nat) (cur src flux1g vol : Nat → K) : Option (List K) :=
  (mocPins G nReg (rmOf rs g) cur src flux1g vol pins 0 (fun _ => 0)).map fun b => (List.range (Mesh.nPin G.d)).map b

/-- fixed_source_solver.cpp:106-117: the source of the last of the groups 0 to `n`, which the source object holds after the loop. -/
def lastSource {σ : Type} (p : Problem K) (w : Sweeper K σ) (fs : Nat → K) (n : Nat) (s : σ) : Option (Nat → K) :=
  (groupLoop p w fs n 0 s).bind fun s => assemble p.ng p.nReg p.rs none fs (w.flux s) n

end Verif.Medium
