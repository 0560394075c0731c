import Verif.Medium.Model
import Verif.Sn.CurrentModel
import Verif.Cmfd.Model
import Verif.Cmfd.LoopModel

/-!
# Outer iterations with CMFD, Sn sweeper in three dimensions

`EigenSolver::step` and `EigenSolver::do_cmfd` (src/solvers/eigen_solver.cpp), `CMFD::solve` (src/core/cmfd.cpp) and the coarse currents that `SnSweeperVariant::sweep`
(src/sweepers/sn/sn_sweeper_variant.hpp) leaves for it.  Every plane is a macroplane (no sub-planes), so that cells of the sweeper are cells of CMFD and both use the same
cross sections.  The linear solver and the couplings between cells (C40, C57) are parameters.  Partial currents and surface fluxes, which are not used when
`update_incoming_flux` is not called (eigen_solver.cpp:289), are left out.
-/

namespace Verif.Medium

open Verif.XS Verif.Source

variable {K : Type} [Field K] [LinearOrder K]

/-- The mesh, and the constant `HPI`. -/
structure Grid (K : Type) where
  d : Mesh.Dims
  w : Mesh.Widths K
  hpi : K

def Grid.dx (G : Grid K) (i : Nat) : K := G.w.dx.getD i 0
def Grid.dy (G : Grid K) (i : Nat) : K := G.w.dy.getD i 0
def Grid.dz (G : Grid K) (i : Nat) : K := G.w.dz.getD i 0

/-- An ordinate: number, direction and weight, scheme by cell. -/
structure CurOrd (K : Type) where
  iang : Nat
  ray : Sn.Ray3 K
  sch : Nat → Scheme3 K

/-- sn_sweeper_variant.hpp:186-275: its loops; the factor is weight times `HPI`. -/
def CurOrd.ord (G : Grid K) (o : CurOrd K) : SnOrd Sn.Ax3 K :=
  ord3 G.d G.dx G.dy G.dz o.iang o.ray.ox o.ray.oy o.ray.oz (o.ray.weight * G.hpi) o.sch

structure AccSetup (K : Type) where
  G : Grid K
  fpi : K
  gs : Bool
  u : SnUpdate Sn.Ax3 K
  ords : List (CurOrd K)
  nInner : Nat

/-- The sweeper of `Verif.Medium.Model`. -/
def AccSetup.sn (m : AccSetup K) : SnSetup Sn.Ax3 K := ⟨m.fpi, m.gs, m.u, m.ords.map (CurOrd.ord m.G), m.nInner⟩

/-- sn_sweeper_variant.hpp:186-282 with `sn::Current`: the ordinates one after the other; state of the pass and currents. -/
def sweepCur (m : AccSetup K) (q xs : Nat → K) : List (CurOrd K) → SnPass Sn.Ax3 K → (Nat → K) → SnPass Sn.Ax3 K × (Nat → K)
  | [], s, cur => (s, cur)
  | o :: l, s, cur =>
    let r := (o.ord m.G).loops q xs ⟨s.bin o.iang, s.tflux, fun _ => (0, fun _ => 0)⟩
    sweepCur m q xs l (snOrdinate m.sn q xs s (o.ord m.G)) (Sn.sweepCurrent m.G.d m.G.hpi o.ray (s.bin o.iang) r.out cur)

/-- sn_sweeper_variant.hpp:113-134: the currents of a group after a sweep from state `s`; those of the last inner iteration, which starts by setting them to zero. -/
def groupCurrents (p : Problem K) (m : AccSetup K) (g : Nat) (src : Nat → K) (s : SnState Sn.Ax3 K) (old : Nat → K) : Nat → K :=
  if m.nInner = 0 then old else
    let t := (List.range (m.nInner - 1)).foldl (fun s _ => snInner p m.sn g src s) s
    (sweepCur m (selfScatter m.fpi p.ng p.rs t.flux g src false t.q) (trOf p.rs g) m.ords ⟨fun _ => 0, t.bin g, t.bout⟩ (fun _ => 0)).2

/-- State of the solver: that of the sweeper, and the currents (group, surface). -/
structure AccState (K : Type) where
  s : SnState Sn.Ax3 K
  cur : Nat → Nat → K

/-- The sweep of a group with the currents. -/
def accSweeper (p : Problem K) (m : AccSetup K) : Sweeper K (AccState K) :=
  ⟨fun a => a.s.flux, fun g src a => ⟨snSweep p m.sn g src a.s, fun h => if h = g then groupCurrents p m g src a.s (a.cur g) else a.cur h⟩⟩

/-! ### CMFD -/

/-- cmfd.cpp:345-353, xs_mesh_region.hpp:161: removal cross sections by cell. -/
def rmOf (rs : List (XsRegion (Mat K))) (g : Nat) : Nat → K := rs.foldl (fun a x => setTo x.regs (fun _ => x.mat.tr g - x.mat.sc g g) a) (fun _ => 0)

/-- xs_mesh_region.hpp: fission cross sections by cell. -/
def nfOf (rs : List (XsRegion (Mat K))) (g : Nat) : Nat → K := rs.foldl (fun a x => setTo x.regs (fun _ => x.mat.nf g) a) (fun _ => 0)

/-- Options of CMFD (cmfd.cpp:118-164); couplings by group and surface; the linear solver, which takes a matrix, a right-hand side and a guess to a solution. -/
structure CmfdSetup (K : Type) where
  dt : Nat → Nat → K
  kTol : K
  psiTol : K
  residRed : K
  maxIter : Nat
  fix : Bool
  sqrt : K → K
  lin : (Nat → Nat → K) → (Nat → K) → (Nat → K) → (Nat → K)

/-- cmfd.cpp:224-227, 645-649: the source of a group times the volumes of the cells. -/
def cmfdSource (p : Problem K) (G : Grid K) (fs : Nat → K) (flux : Cmfd.Flux K) (g : Nat) : Nat → K := fun i =>
  ((assemble p.ng p.nReg p.rs none fs flux g).getD fun _ => 0) i * Cmfd.vol G.d G.w i

/-- cmfd.cpp:661-666 `residual(group)`: squared norm. -/
def residual1g (n : Nat) (A : Nat → Nat → K) (x b : Nat → K) : K :=
  ∑ i ∈ Finset.range n, ((∑ j ∈ Finset.range n, A i j * x j) - b i) * ((∑ j ∈ Finset.range n, A i j * x j) - b i)

/-- cmfd.cpp:220-229, 281-297 `solve_1g`: the groups in order; flux and sum of the residuals. -/
def cmfdGroups (c : CmfdSetup K) (p : Problem K) (G : Grid K) (A : Nat → Nat → Nat → K) (fs : Nat → K) : List Nat → Cmfd.Flux K × K → Cmfd.Flux K × K
  | [], r => r
  | g :: l, r =>
    let b := cmfdSource p G fs r.1 g
    let x := c.lin (A g) b (fun i => r.1 i g)
    cmfdGroups c p G A fs l (fun i h => if h = g then x i else r.1 i h, r.2 + residual1g (Mesh.nPin G.d) (A g) (fun i => r.1 i g) b)

/-- cmfd.cpp:640-658 `residual()`. -/
def cmfdResidual (c : CmfdSetup K) (p : Problem K) (G : Grid K) (A : Nat → Nat → Nat → K) (fs : Nat → K) (flux : Cmfd.Flux K) : K :=
  c.sqrt (∑ g ∈ Finset.range p.ng, residual1g (Mesh.nPin G.d) (A g) (fun i => flux i g) (cmfdSource p G fs flux g)) / ((p.ng : K) * (Mesh.nPin G.d : K))

/-- cmfd.cpp:333-553 `setup_solve`: the matrices by group, with the corrections from currents and flux. -/
def cmfdMatrix (c : CmfdSetup K) (p : Problem K) (G : Grid K) (cur : Nat → Nat → K) (flux : Cmfd.Flux K) (g : Nat) : Nat → Nat → K :=
  Cmfd.entry G.d G.w (rmOf p.rs g) (c.dt g) (Cmfd.dHatAt G.d (c.dt g) (cur g) (fun i => flux i g))

/-- The iteration of `Verif.Cmfd.LoopModel` with these systems. -/
def cmfdProblem (c : CmfdSetup K) (p : Problem K) (G : Grid K) (A : Nat → Nat → Nat → K) : Cmfd.Problem K where
  nCell := Mesh.nPin G.d
  nGroup := p.ng
  nf := fun i g => nfOf p.rs g i
  kTol := c.kTol
  psiTol := c.psiTol
  residRed := c.residRed
  maxIter := c.maxIter
  sqrt := c.sqrt
  solve := fun fs flux =>
    let r := cmfdGroups c p G A fs (List.range p.ng) (flux, 0)
    (r.1, c.sqrt r.2 / ((Mesh.nPin G.d : K) * (p.ng : K)))

/-- sn_sweeper.hpp:101-143 `set_pin_flux_1g` with `PIN_PLANE` and one plane per macroplane, for all groups (transport_sweeper.hpp:124-134): the flux of a cell is divided
by its ratio to the new one.  Where flux or new flux are zero the code gets values that are not finite; the theorems are about positive ones. -/
def setFlux (n ng : Nat) (f : Cmfd.Flux K) (flux : Nat → Nat → K) : Nat → Nat → K := fun i h => if i < n ∧ h < ng then flux i h / (flux i h / f i h) else flux i h

/-- cmfd.cpp:171-267: the solution of the systems for given flux and currents; state after the loop and flux. -/
def cmfdRun (c : CmfdSetup K) (p : Problem K) (G : Grid K) (k : K) (flux : Nat → Nat → K) (cur : Nat → Nat → K) : Cmfd.LoopState K × Cmfd.Flux K :=
  let f0 := Cmfd.zeroFix c.fix flux
  let A := cmfdMatrix c p G cur f0
  let pr := cmfdProblem c p G A
  pr.run (cmfdResidual c p G A (pr.fissionSource f0 k) f0) c.fix k flux

/-- eigen_solver.cpp:263-291 `do_cmfd` with cmfd.cpp:171-277 `solve` and 555-638 `store_currents`. -/
def doCmfd (c : CmfdSetup K) (p : Problem K) (m : AccSetup K) (k : K) (a : AccState K) : K × AccState K :=
  let f0 := Cmfd.zeroFix c.fix a.s.flux
  let r := cmfdRun c p m.G k a.s.flux a.cur
  (r.1.k, ⟨{ a.s with flux := setFlux (Mesh.nPin m.G.d) p.ng r.2 a.s.flux },
    fun g n => if g < p.ng ∧ n < Mesh.nSurf m.G.d then
      Cmfd.currentAt m.G.d (c.dt g) (Cmfd.dHatAt m.G.d (c.dt g) (a.cur g) (fun i => f0 i g)) (fun i => r.2 i g) n else a.cur g n⟩)

/-- eigen_solver.cpp:225-253 `step` with CMFD. -/
def accelStep (c : CmfdSetup K) (p : Problem K) (m : AccSetup K) (k : K) (a : AccState K) : Option (K × AccState K) :=
  let r := doCmfd c p m k a
  outer p (accSweeper p m) r.1 r.2

/-- eigen_solver.cpp:166-168: `n` steps with CMFD. -/
def accelSteps (c : CmfdSetup K) (p : Problem K) (m : AccSetup K) : Nat → K → AccState K → Option (K × AccState K)
  | 0, k, a => some (k, a)
  | n + 1, k, a => (accelStep c p m k a).bind fun r => accelSteps c p m n r.1 r.2

end Verif.Medium
