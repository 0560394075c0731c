import Verif.Medium.AccelModel
import Verif.Moc.SweepCurModel
import Verif.PinFlux.Model
import Verif.XS.HomogModel

/-!
# Outer iterations with CMFD, MoC sweeper

As `Verif.Medium.AccelModel`, with the sweep and currents of `MoCSweeper` (src/sweepers/moc/moc_sweeper.cpp), the pin flux it exchanges with CMFD (`Verif.PinFlux.Model`)
and the cross sections of CMFD homogenised with the flux of the sweeper (`Verif.XS.HomogModel`).  One plane per macroplane.
-/

namespace Verif.Medium

open Verif.XS Verif.Source

variable {K : Type} [Field K] [LinearOrder K]

/-- moc_sweeper.hpp: the parts of the sweeper that do not change; `layers` are the macroplanes with their pins, `pinMats` the materials and numbers of regions of the pin in
a coarse cell. -/
structure MocAcc (K : Type) where
  G : Grid K
  expo : K → K
  fpi : K
  gs : Bool
  u : Moc.BcUpdate K
  planes : List (Moc.PlaneCur K)
  nInner : Nat
  layers : List (PinFlux.MacroPlane K)
  pinMats : Nat → List (Mat K × Nat)

/-- The sweeper of `Verif.Medium.Model`. -/
def MocAcc.moc (m : MocAcc K) : MocSetup K := ⟨m.expo, m.fpi, m.gs, m.u, m.planes.map Moc.PlaneCur.work, m.nInner⟩

/-- Cells of a plane. -/
def MocAcc.n2 (m : MocAcc K) : Nat := m.G.d.nx * m.G.d.ny

/-- moc_sweeper.cpp:317-319, 403-405: number of the coarse cell of a visited pin. -/
def MocAcc.cell (m : MocAcc K) (v : PinFlux.Visit K) : Nat := v.pin.cell + m.n2 * v.iz

/-- State of the solver: that of the sweeper, and the currents by group; `none` after accesses out of bounds. -/
structure MocAccState (K : Type) where
  s : MocState K
  cur : Nat → Option (Nat → K)

/-- coarse_data.hpp `zero_data_radial` (C103): values on surfaces with normal Z are kept. -/
def keepAxial (d : Mesh.Dims) (cur : Nat → K) : Nat → K := fun n => if Mesh.surfaceNormal d n = .Z then cur n else 0

/-- moc_sweeper.cpp:200-220: the currents of a group after a sweep from state `s`; those of the last inner iteration, which starts by setting the radial ones to zero. -/
def mocCurrents (p : Problem K) (m : MocAcc K) (g : Nat) (src : Nat → K) (s : MocState K) (old : Option (Nat → K)) : Option (Nat → K) :=
  if m.nInner = 0 then old else
    let t := (List.range (m.nInner - 1)).foldl (fun s _ => mocInner p m.moc g src s) s
    old.bind fun old =>
      Moc.currents1g m.G.d id (fun n => (Mesh.coarseAreaSurf m.G.d m.G.w n).getD 0) m.expo (trOf p.rs g) (selfScatter m.fpi p.ng p.rs t.flux g src true t.q) m.gs m.u
        (m.planes.zip ((t.bin g).zip t.bout)) (keepAxial m.G.d old)

/-- moc_sweeper.cpp:189-225 `sweep` with the currents. -/
def mocAccSweeper (p : Problem K) (m : MocAcc K) : Sweeper K (MocAccState K) :=
  ⟨fun a => a.s.flux, fun g src a => ⟨mocSweep p m.moc g src a.s, fun h => if h = g then mocCurrents p m g src a.s (a.cur g) else a.cur h⟩⟩

/-- The pin's cross sections: the result of `homogenize_region_flux` as a material. -/
def homMat (o : Homog K) : Mat K := ⟨o.tr, o.nf, o.f, o.ch, o.scat⟩

/-- xs_mesh_homogenized.cpp:176-196 `update`: the pin of one visit; areas of the pin, flux of its regions. -/
def visitMat (p : Problem K) (m : MocAcc K) (flux : Nat → Nat → K) (v : PinFlux.Visit K) : Mat K :=
  homMat (homogFlux p.ng v.pin.areas.length (m.pinMats (m.cell v)) (fun j => v.pin.areas.getD j 0) fun j g => flux (v.ireg + j) g)

/-- xs_mesh_homogenized.cpp:30-75, 176-196: the cross-section mesh of CMFD, a region for every pin; its cell is `mesh_.coarse_cell`. -/
def coarseProblem (p : Problem K) (m : MocAcc K) (flux : Nat → Nat → K) : Problem K where
  ng := p.ng
  nReg := Mesh.nPin m.G.d
  rs := (PinFlux.visits m.layers 0 0).map fun v => ⟨visitMat p m flux v, [m.cell v]⟩
  vol := Cmfd.vol m.G.d m.G.w

/-- moc_sweeper.cpp:293-327 for all groups (transport_sweeper.hpp `get_pin_flux`). -/
def pinFlux (m : MocAcc K) (flux : Nat → Nat → K) : Cmfd.Flux K := fun i g => PinFlux.getPlane m.n2 m.layers (fun r => flux r g) i

/-- cmfd.cpp:474-499, 583-584: `MoCSweeper` leaves no axial data, so that the corrections of axial surfaces are zero and the currents through them are those of
diffusion.  The corrections of these currents are zero (`C118_no_axial`). -/
def withDiffusion (d : Mesh.Dims) (dt : Nat → Nat → K) (f : Cmfd.Flux K) (cur : Nat → Nat → K) : Nat → Nat → K := fun g n =>
  if Mesh.surfaceNormal d n = .Z then
    Cmfd.current (dt g n) 0 (Cmfd.side (fun i => f i g) (Mesh.coarseNeighCells d n).1) (Cmfd.side (fun i => f i g) (Mesh.coarseNeighCells d n).2)
  else cur g n

/-- moc_sweeper.cpp:360-433 for all groups (transport_sweeper.hpp:124-134 `set_pin_flux`): `none` when a value is not positive. -/
def setPins (p : Problem K) (m : MocAcc K) (f : Cmfd.Flux K) (flux : Nat → Nat → K) : Option (Nat → Nat → K) :=
  let one := fun h => PinFlux.setPin m.n2 m.G.d.nz (Mesh.nPin m.G.d) m.G.dz id m.G.dz m.layers (fun r => flux r h) (fun i => f i h) .pinPlane
  if (List.range p.ng).all fun h => (one h).isSome then
    some fun i h => if h < p.ng then ((one h).map fun r => r.1 i).getD 0 else flux i h
  else none

/-- eigen_solver.cpp:263-291 `do_cmfd` with cmfd.cpp:171-277 `solve` and 555-638 `store_currents`. -/
def doCmfdMoc (c : CmfdSetup K) (p : Problem K) (m : MocAcc K) (k : K) (a : MocAccState K) : Option (K × MocAccState K) :=
  if (List.range p.ng).all fun g => (a.cur g).isSome then
    let f := pinFlux m a.s.flux
    let f0 := Cmfd.zeroFix c.fix f
    let cur := withDiffusion m.G.d c.dt f0 fun g => (a.cur g).getD fun _ => 0
    let r := cmfdRun c (coarseProblem p m a.s.flux) m.G k f cur
    (setPins p m r.2 a.s.flux).map fun flux =>
      (r.1.k, ⟨{ a.s with flux := flux }, fun g => if g < p.ng then
        some fun n => if n < Mesh.nSurf m.G.d then
          Cmfd.currentAt m.G.d (c.dt g) (Cmfd.dHatAt m.G.d (c.dt g) (cur g) (fun i => f0 i g)) (fun i => r.2 i g) n else cur g n
        else a.cur g⟩)
  else none

/-- eigen_solver.cpp:225-253 `step` with CMFD. -/
def accelStepMoc (c : CmfdSetup K) (p : Problem K) (m : MocAcc K) (k : K) (a : MocAccState K) : Option (K × MocAccState K) :=
  (doCmfdMoc c p m k a).bind fun r => outer p (mocAccSweeper p m) r.1 r.2

/-- eigen_solver.cpp:166-168: `n` steps with CMFD. -/
def accelStepsMoc (c : CmfdSetup K) (p : Problem K) (m : MocAcc K) : Nat → K → MocAccState K → Option (K × MocAccState K)
  | 0, k, a => some (k, a)
  | n + 1, k, a => (accelStepMoc c p m k a).bind fun r => accelStepsMoc c p m n r.1 r.2

end Verif.Medium
