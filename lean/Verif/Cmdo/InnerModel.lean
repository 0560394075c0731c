import Verif.Cmdo.ReproModel
import Verif.XS.HomogModel

/-!
# Model of a sweep of a group by the MoC part of the 2D3D sweeper

src/sweepers/cmdo/moc_sweeper_2d3d.cpp:48-99 with src/sweepers/cmdo/correction_worker.cpp:66-160, src/core/xs_mesh_homogenized.cpp:176-197 and, for
comparison, src/sweepers/moc/moc_sweeper.cpp:189-225.  The state `S` of the MoC sweeper and its source, and what a sweep does to it, are parameters
(`InnerOps`); the workers do not act on them (moc_sweeper_kernel.inc.hpp:38-180 calls them with constant references).  Timers are left out (C126).
-/

namespace Verif.Cmdo

variable {K : Type} [Field K] [LinearOrder K] {S : Type}

/-- The factors of one pin and direction: correction_data.hpp:82-101. -/
structure Fac (K : Type) where
  ax : K
  ay : K
  b : K

/-- A pin as the homogenisation sees it: number of its first region, materials with numbers of regions, and areas (xs_mesh_homogenized.cpp:186-195). -/
structure HomPin (K : Type) where
  first : Nat
  mats : List (XS.Mat K × Nat)
  area : Nat → K

/-- xs_mesh_homogenized.cpp:176-197 and xs_mesh.hpp:261-276: the transport cross section of pin `p` in group `g` after `update` and `expand`; `flux` is by
region and group. -/
def snXs (ng : Nat) (flux : Nat → Nat → K) (g : Nat) (p : HomPin K) : K :=
  (XS.homogFlux ng (p.mats.map (·.2)).sum p.mats p.area fun i h => flux (p.first + i) h).tr g

/-- The MoC sweeper: its fluxes, `self_scatter` and `sweep1g` for a group, and the sums that the correction worker has for a pin and direction when the
sweep starts from a state (correction_worker.hpp:109-250). -/
structure InnerOps (S K : Type) where
  flux : S → Nat → Nat → K
  scatter : Nat → S → S
  sweep1g : Nat → S → S
  sums : Nat → S → Nat → Nat → Sums K

/-- Geometry of the factors: pins, and for each direction spacing over cosine and over sine, widths of pins (correction_worker.cpp:73-84); `visits` are
the directions and pins in the order of the worker, each angle with its reverse (correction_worker.cpp:75-159). -/
structure FacGeo (K : Type) where
  ng : Nat
  pin : Nat → HomPin K
  areaX : Nat → K
  areaY : Nat → K
  dx : Nat → K
  dy : Nat → K
  visits : List (Nat × Nat)

/-- correction_worker.cpp:86-105: the new factors of direction `a` and pin `c`; `xs` are the cross sections of the pins. -/
def newFac (G : FacGeo K) (xs : Nat → K) (s : Nat → Nat → Sums K) (a c : Nat) : Fac K :=
  ⟨alphaX (G.areaX a) (G.dx c) (s a c), alphaY (G.areaY a) (G.dy c) (s a c), beta (xs c) (s a c)⟩

/-- The array of factors of a group with one entry replaced. -/
def setFac (f : Nat → Nat → Fac K) (a c : Nat) (v : Fac K) : Nat → Nat → Fac K := fun a' c' => if a' = a ∧ c' = c then v else f a' c'

/-- correction_worker.cpp:107-118: the squares of the changes are added to the residuals, then the factors are stored. -/
def storeFac (v : Nat → Nat → Fac K) (x : (Nat → Nat → Fac K) × (K × K × K)) (w : Nat × Nat) : (Nat → Nat → Fac K) × (K × K × K) :=
  let n := v w.1 w.2
  let o := x.1 w.1 w.2
  (setFac x.1 w.1 w.2 n,
    x.2.1 + (n.ax - o.ax) * (n.ax - o.ax), x.2.2.1 + (n.ay - o.ay) * (n.ay - o.ay), x.2.2.2 + (n.b - o.b) * (n.b - o.b))

/-- correction_worker.hpp:81-86 (`set_group`) and all visits of the worker. -/
def storeAll (G : FacGeo K) (v : Nat → Nat → Fac K) (f : Nat → Nat → Fac K) : (Nat → Nat → Fac K) × (K × K × K) :=
  G.visits.foldl (storeFac v) (f, 0, 0, 0)

/-- What is done, in order: self-scatter, wiping of the radial currents, homogenisation, sweep (with the correction worker or without), radial data marked
as present. -/
inductive InnerEv
  | scatter | zero | update | sweep (worker : Bool) | mark
  deriving DecidableEq, Repr

/-- The 2D3D part: state of the MoC sweeper, cross sections of the Sn sweeper for the group, factors and residuals (squares, `residual()` takes roots) by
group, numbers of sweeps, and the log. -/
structure InnerSt (S K : Type) where
  s : S
  xs : Nat → K
  fac : Nat → Nat → Nat → Fac K
  resid : Nat → List (K × K × K)
  nSweep : Nat
  nInner : Nat
  log : List InnerEv

/-- moc_sweeper_2d3d.cpp:79-95: one inner iteration; `last` is `inner == n_inner_ - 1 && coarse_data_`. -/
def innerStep (G : FacGeo K) (o : InnerOps S K) (g : Nat) (last : Bool) (t : InnerSt S K) : InnerSt S K :=
  let s := o.scatter g t.s
  if last then
    let xs := fun c => snXs G.ng (o.flux s) g (G.pin c)
    let r := storeAll G (newFac G xs (o.sums g s)) (t.fac g)
    { s := o.sweep1g g s, xs := xs, fac := Function.update t.fac g r.1, resid := Function.update t.resid g (t.resid g ++ [r.2])
      nSweep := t.nSweep, nInner := t.nInner + 1, log := t.log ++ [.scatter, .zero, .update, .sweep true, .mark] }
  else { t with s := o.sweep1g g s, nInner := t.nInner + 1, log := t.log ++ [.scatter, .sweep false] }

/-- moc_sweeper_2d3d.cpp:48-99 `sweep`; `cd` tells whether there are coarse data, `none` is the exception. -/
def sweep2d3d (G : FacGeo K) (o : InnerOps S K) (cd : Bool) (n g : Nat) (t : InnerSt S K) : Option (InnerSt S K) :=
  if !cd then none
  else some ((List.range n).foldl (fun t i => innerStep G o g (i + 1 == n) t) { t with nSweep := t.nSweep + 1 })

/-- moc_sweeper.cpp:189-225 `MoCSweeper::sweep`, the state only. -/
def plainSweep (o : InnerOps S K) (n g : Nat) (s : S) : S := (List.range n).foldl (fun s _ => o.sweep1g g (o.scatter g s)) s

/-- sn_sweeper_variant.hpp:100, 113: the cross section of a pin in the Sn sweep that follows: homogenised again. -/
def nextXs (G : FacGeo K) (o : InnerOps S K) (g : Nat) (t : InnerSt S K) (c : Nat) : K := snXs G.ng (o.flux t.s) g (G.pin c)

/-- A plane with fixed incoming fluxes, one group: four pi, height, cross sections and areas of the regions, self-scattering, the rest of the source, and
the directions (`qbar` in their segments is replaced by the source of the state). -/
structure PlaneMoc (K : Type) where
  fpi : K
  height : K
  sig : Nat → K
  area : Nat → K
  ss : Nat → K
  ext : Nat → K
  dirs : List (Dir K)

/-- The beams of a direction with the source `q` of the regions. -/
def Dir.withSource (q : Nat → K) (d : Dir K) : Dir K :=
  { d with beams := d.beams.map fun b => { b with path := b.path.map fun c => { c with segs := c.segs.map fun s => (s.1, { s.2 with qbar := q s.1 }) } } }

/-- The state of `PlaneMoc`: scalar flux and source over cross section. -/
structure PlaneState (K : Type) where
  phi : Nat → K
  q : Nat → K

/-- source_isotropic.cpp:21-33 and moc_sweeper_kernel.inc.hpp:38-180 for one group and plane; pin `c` is column `c` of a row of pins. -/
def PlaneMoc.ops (P : PlaneMoc K) : InnerOps (PlaneState K) K where
  flux s r _ := s.phi r
  scatter _ s := { s with q := fun r => (P.ext r + P.ss r * s.phi r) / (P.sig r * P.fpi) }
  sweep1g _ s := { s with phi := mocFlux P.fpi P.height P.sig P.area s.q (P.dirs.map (Dir.withSource s.q)) }
  sums _ s a c := cellSums ((P.dirs.map (Dir.withSource s.q))[a]?.elim [] Dir.beams) c 0

end Verif.Cmdo
