import Verif.Source.Model
import Verif.Moc.KernelModel
import Verif.Sn.AngleModel
import Verif.Sn.CellModel
import Verif.BC.Model

/-!
# Outer and inner iterations with a sweeper

`EigenSolver::step` (src/solvers/eigen_solver.cpp) and `FixedSourceSolver::step` (src/solvers/fixed_source_solver.cpp) on top of the inner iterations of
`MoCSweeper::sweep` (src/sweepers/moc/moc_sweeper.cpp) and `SnSweeperVariant::sweep` (src/sweepers/sn/sn_sweeper_variant.hpp).  CMFD, coarse data, source
splitting, external sources and flux-weighted cross sections (`xs_mesh_->update()` does nothing for the Sn sweeper used alone) are left out.  One thread
(C35 removes this restriction for the sweeps).  Boundary updates are parameters, as in `Verif.Moc.KernelModel`.
-/

namespace Verif.Medium

open Verif.XS Verif.Source

variable {K : Type} [Field K] [LinearOrder K]

/-- transport_sweeper.hpp: what the solvers need of a sweeper with state `σ`: its flux (region, group), and the sweep of a group with a given group source. -/
structure Sweeper (K σ : Type) where
  flux : σ → Nat → Nat → K
  sweep : Nat → (Nat → K) → σ → σ

/-- The problem: groups, regions, materials, volumes. -/
structure Problem (K : Type) where
  ng : Nat
  nReg : Nat
  rs : List (XsRegion (Mat K))
  vol : Nat → K

/-- fixed_source_solver.cpp:106-117: the groups in order, `n` groups from `g` on, with the fission source `fs`; `none` is a read out of bounds. -/
def groupLoop {σ : Type} (p : Problem K) (w : Sweeper K σ) (fs : Nat → K) : Nat → Nat → σ → Option σ
  | 0, _, s => some s
  | n + 1, g, s => (assemble p.ng p.nReg p.rs none fs (w.flux s) g).bind fun src => groupLoop p w fs n (g + 1) (w.sweep g src s)

/-- eigen_solver.cpp:237-250: an outer iteration without CMFD. -/
def outer {σ : Type} (p : Problem K) (w : Sweeper K σ) (k : K) (s : σ) : Option (K × σ) :=
  (groupLoop p w (calcFissionSource p.ng p.rs k (w.flux s)) p.ng 0 s).map fun s' =>
    (k * totalFission p.ng p.rs p.vol (w.flux s') / totalFission p.ng p.rs p.vol (w.flux s), s')

/-- eigen_solver.cpp:166-168: `n` outer iterations. -/
def outers {σ : Type} (p : Problem K) (w : Sweeper K σ) : Nat → K → σ → Option (K × σ)
  | 0, k, s => some (k, s)
  | n + 1, k, s => (outer p w k s).bind fun r => outers p w n r.1 r.2

/-- xs_mesh.hpp:261-276 `ExpandedXS::expand` without splitting: the transport cross section by region. -/
def trOf (rs : List (XsRegion (Mat K))) (g : Nat) : Nat → K := rs.foldl (fun a x => setTo x.regs (fun _ => x.mat.tr g) a) (fun _ => 0)

/-! ### MoC -/

/-- moc_sweeper.hpp: the parts of the sweeper that do not change. -/
structure MocSetup (K : Type) where
  expo : K → K
  fpi : K
  gs : Bool
  u : Moc.BcUpdate K
  planes : List (Moc.PlaneWork K)
  nInner : Nat

/-- moc_sweeper.hpp: flux (region, group), the source `q_` of the source object, incoming boundary values by group and plane, outgoing ones by plane. -/
structure MocState (K : Type) where
  flux : Nat → Nat → K
  q : Nat → K
  bin : Nat → List (Nat → Nat → K)
  bout : List (Nat → Nat → K)

/-- moc_sweeper.cpp:200-220: one inner iteration. -/
def mocInner (p : Problem K) (m : MocSetup K) (g : Nat) (src : Nat → K) (s : MocState K) : MocState K :=
  let q := selfScatter m.fpi p.ng p.rs s.flux g src true s.q
  let r := Moc.sweep1g m.expo m.fpi (trOf p.rs g) p.vol q m.gs m.u (m.planes.zip ((s.bin g).zip s.bout))
  { flux := fun i h => if h = g then r.1 i else s.flux i h
    q := q
    bin := fun h => if h = g then r.2.map Prod.fst else s.bin h
    bout := r.2.map Prod.snd }

/-- moc_sweeper.cpp:189-225 `sweep`. -/
def mocSweep (p : Problem K) (m : MocSetup K) (g : Nat) (src : Nat → K) (s : MocState K) : MocState K :=
  (List.range m.nInner).foldl (fun s _ => mocInner p m g src s) s

def mocSweeper (p : Problem K) (m : MocSetup K) : Sweeper K (MocState K) := ⟨MocState.flux, mocSweep p m⟩

/-! ### Sn -/

/-- An ordinate of the Sn sweeper: number, and the loops over the cells for a source and cross sections by region (`sweep3` or `sweep2`). -/
structure SnOrd (κ K : Type) where
  iang : Nat
  loops : (Nat → K) → (Nat → K) → Sn.State κ K → Sn.State κ K

/-- boundary_condition.cpp:145-191 on the values of one group, by ordinate, face and slot. -/
structure SnUpdate (κ K : Type) where
  one : Nat → (Nat → κ → Nat → K) → (Nat → κ → Nat → K) → (Nat → κ → Nat → K)
  all : (Nat → κ → Nat → K) → (Nat → κ → Nat → K) → (Nat → κ → Nat → K)

structure SnSetup (κ K : Type) where
  fpi : K
  gs : Bool
  u : SnUpdate κ K
  ords : List (SnOrd κ K)
  nInner : Nat

/-- `tflux` is the scalar flux of the thread, `bin` and `bout` the incoming and outgoing values of the group. -/
structure SnPass (κ K : Type) where
  tflux : Nat → K
  bin : Nat → κ → Nat → K
  bout : Nat → κ → Nat → K

/-- sn_sweeper_variant.hpp:186-280: one ordinate. -/
def snOrdinate {κ : Type} (m : SnSetup κ K) (q xs : Nat → K) (s : SnPass κ K) (o : SnOrd κ K) : SnPass κ K :=
  let r := o.loops q xs ⟨s.bin o.iang, s.tflux, fun _ => (0, fun _ => 0)⟩
  let bout := fun a => if a = o.iang then r.flux else s.bout a
  { tflux := r.tflux, bin := if m.gs then m.u.one o.iang s.bin bout else s.bin, bout := bout }

/-- sn_sweeper_variant.hpp:166-297 `sweep_1g`. -/
def snSweep1g {κ : Type} (m : SnSetup κ K) (q xs : Nat → K) (bin bout : Nat → κ → Nat → K) : SnPass κ K :=
  let s := m.ords.foldl (snOrdinate m q xs) ⟨fun _ => 0, bin, bout⟩
  { s with bin := if m.gs then s.bin else m.u.all s.bin s.bout }

structure SnState (κ K : Type) where
  flux : Nat → Nat → K
  q : Nat → K
  bin : Nat → Nat → κ → Nat → K
  bout : Nat → κ → Nat → K

/-- sn_sweeper_variant.hpp:113-134: one inner iteration. -/
def snInner {κ : Type} (p : Problem K) (m : SnSetup κ K) (g : Nat) (src : Nat → K) (s : SnState κ K) : SnState κ K :=
  let q := selfScatter m.fpi p.ng p.rs s.flux g src false s.q
  let r := snSweep1g m q (trOf p.rs g) (s.bin g) s.bout
  { flux := fun i h => if h = g then r.tflux i else s.flux i h
    q := q
    bin := fun h => if h = g then r.bin else s.bin h
    bout := r.bout }

/-- sn_sweeper_variant.hpp:94-154 `sweep`: the inner iterations, then negative fluxes of the group are set to zero. -/
def snSweep {κ : Type} (p : Problem K) (m : SnSetup κ K) (g : Nat) (src : Nat → K) (s : SnState κ K) : SnState κ K :=
  let s := (List.range m.nInner).foldl (fun s _ => snInner p m g src s) s
  { s with flux := fun i h => if h = g ∧ s.flux i h < 0 then 0 else s.flux i h }

def snSweeper {κ : Type} (p : Problem K) (m : SnSetup κ K) : Sweeper K (SnState κ K) := ⟨SnState.flux, snSweep p m⟩

/-! ### Ordinates of the differencing schemes -/

/-- A scheme in three dimensions: quotients of direction cosines and widths, incoming fluxes, source, cross section. -/
abbrev Scheme3 (K : Type) := K → K → K → K → K → K → K → K → Sn.Out3 K

/-- sn_sweeper_variant.hpp:186-275: the loops of an ordinate with direction cosines `ox`, `oy`, `oz` and factor `wgt`; `sch i` is the scheme in cell `i`. -/
def ord3 (d : Mesh.Dims) (dx dy dz : Nat → K) (iang : Nat) (ox oy oz wgt : K) (sch : Nat → Scheme3 K) : SnOrd Sn.Ax3 K :=
  ⟨iang, fun q xs => Sn.sweep3 d (ox < 0) (oy < 0) (oz < 0) wgt fun ix iy iz f =>
    let i := Mesh.coarseCell d ⟨ix, iy, iz⟩
    let o := sch i (|ox| / dx ix) (|oy| / dy iy) (|oz| / dz iz) (f .x) (f .y) (f .z) (q i) (xs i)
    (o.psi, fun | .x => o.x | .y => o.y | .z => o.z)⟩

/-- The same in two dimensions. -/
abbrev Scheme2 (K : Type) := K → K → K → K → K → K → Sn.Out2 K

/-- sn_sweeper_variant.hpp:325-400. -/
def ord2 (d : Mesh.Dims) (dx dy : Nat → K) (iang : Nat) (ox oy wgt : K) (sch : Nat → Scheme2 K) : SnOrd Sn.Ax2 K :=
  ⟨iang, fun q xs => Sn.sweep2 d (ox < 0) (oy < 0) wgt fun ix iy f =>
    let i := Mesh.coarseCell d ⟨ix, iy, 0⟩
    let o := sch i (|ox| / dx ix) (|oy| / dy iy) (f .x) (f .y) (q i) (xs i)
    (o.psi, fun | .x => o.x | .y => o.y)⟩

/-! ### The update of the boundary condition on arrays of one group -/

/-- All faces of all ordinates of a store. -/
def faces (sh : BC.Store K) : List (Nat × Quad.Normal) := (List.range sh.size.length).flatMap fun a => [(a, .X), (a, .Y), (a, .Z)]

/-- Number of values on a face. -/
def faceSize (sh : BC.Store K) (a : Nat) (n : Quad.Normal) : Nat := ((sh.size[a]?).map (·.get n)).getD 0

/-- boundary_condition.cpp:67-77: position of the first value of a face in a group. -/
def faceStart (sh : BC.Store K) (a : Nat) (n : Quad.Normal) : Nat := (BC.offset sh.size a n).getD 0

/-- The store of one group, laid out as `sh`, that holds the value `f a n e` at position `e` of face `n` of ordinate `a`. -/
def load (sh : BC.Store K) (f : Nat → Quad.Normal → Nat → K) : BC.Store K :=
  { sh with
    nGroup := 1
    data := fun p =>
      match (faces sh).find? fun x => decide (faceStart sh x.1 x.2 ≤ p ∧ p < faceStart sh x.1 x.2 + faceSize sh x.1 x.2) with
      | some x => f x.1 x.2 (p - faceStart sh x.1 x.2)
      | none => 0 }

/-- The values that a store of one group holds. -/
def view (b : BC.Store K) (a : Nat) (n : Quad.Normal) (e : Nat) : K := b.data (faceStart b a n + e)

/-- boundary_condition.cpp:145-191 on the values of a group; nothing happens when the call throws or is undefined. -/
def storeOne (sh : BC.Store K) (a : Nat) (b o : Nat → Quad.Normal → Nat → K) : Nat → Quad.Normal → Nat → K :=
  match BC.updateAngle 0 a (load sh o) (load sh b) with
  | .ok b' => view b'
  | _ => b

def storeAll (sh : BC.Store K) (b o : Nat → Quad.Normal → Nat → K) : Nat → Quad.Normal → Nat → K :=
  match BC.update 0 (load sh o) (load sh b) with
  | .ok b' => view b'
  | _ => b

/-- boundary_condition.hpp:144-164 `get_boundary`: the values of an ordinate in a row, X face first; slot of a value, and its face and position. -/
def slotOf (sh : BC.Store K) (a : Nat) : Quad.Normal → Nat → Nat
  | .X, e => e
  | .Y, e => faceSize sh a .X + e
  | .Z, e => faceSize sh a .X + faceSize sh a .Y + e

def faceOf (sh : BC.Store K) (a j : Nat) : Quad.Normal × Nat :=
  if j < faceSize sh a .X then (.X, j)
  else if j < faceSize sh a .X + faceSize sh a .Y then (.Y, j - faceSize sh a .X)
  else (.Z, j - faceSize sh a .X - faceSize sh a .Y)

/-- The update as the MoC sweeper uses it, on rows. -/
def mocUpdate (sh : BC.Store K) : Moc.BcUpdate K :=
  let fold (b : Nat → Nat → K) : Nat → Quad.Normal → Nat → K := fun a n e => b a (slotOf sh a n e)
  let unfold (f : Nat → Quad.Normal → Nat → K) : Nat → Nat → K := fun a j => f a (faceOf sh a j).1 (faceOf sh a j).2
  ⟨fun a b o => unfold (storeOne sh a (fold b) (fold o)), fun b o => unfold (storeAll sh (fold b) (fold o))⟩

/-- As the Sn sweeper uses it, on faces. -/
def snUpdate {κ : Type} (sh : BC.Store K) (toN : κ → Quad.Normal) (ofN : Quad.Normal → Option κ) : SnUpdate κ K :=
  let fold (b : Nat → κ → Nat → K) : Nat → Quad.Normal → Nat → K := fun a n e => match ofN n with | some k => b a k e | none => 0
  let unfold (f : Nat → Quad.Normal → Nat → K) : Nat → κ → Nat → K := fun a k e => f a (toN k) e
  ⟨fun a b o => unfold (storeOne sh a (fold b) (fold o)), fun b o => unfold (storeAll sh (fold b) (fold o))⟩

end Verif.Medium
