import Verif.PinFlux.Model

/-!
# The 2D3D sweep

Model of `PlaneSweeper_2D3D::sweep` (src/sweepers/cmdo/plane_sweeper_2d3d.cpp:105-217) on top of the pin fluxes of C36.  The sweeps of MoC and Sn are
functions of the state (`Ops`) that give the new flux of the group; the transverse leakage is C37 and only logged here, its exception for negative fluxes
with splitting is left out.  Square roots of residuals are left out: sums of squares are recorded.
-/

namespace Verif.Cmdo.Sweep

open Verif.PinFlux

variable {K : Type} [Field K] [LinearOrder K]

/-- What is done, in order: transverse leakage, Sn sweep, MoC sweep of a group. -/
inductive Ev
  | tl (g : Nat) | sn (g : Nat) | moc (g : Nat)
  deriving DecidableEq

/-- plane_sweeper_2d3d.cpp:361-432: the options used by `sweep`; `int` attributes may be negative. -/
structure Opts where
  tl : Bool
  vCycle : Bool
  mocProject : Bool
  snProject : Bool
  inactive : Int
  modulo : Int

/-- The mesh, as in C36: pins of a plane, planes, heights, macroplane of a plane, heights of macroplanes, macroplanes. -/
structure Geo (K : Type) where
  n2 : Nat
  nz : Nat
  dz : Nat → K
  mplane : Nat → Nat
  heights : Nat → K
  ps : List (MacroPlane K)

/-- The sweeper: `i_outer_`, fluxes by group, `prev_moc_flux_`, `sn_resid_norm_` (squared and not divided), and the log. -/
structure St (K : Type) where
  outer : Int
  moc : Nat → Nat → K
  sn : Nat → Nat → K
  prev : Nat → Nat → K
  resid : Nat → List K
  log : List Ev

/-- The sweeps: group and state to the flux of the group. -/
structure Ops (K : Type) where
  moc : Nat → St K → Nat → K
  sn : Nat → St K → Nat → K

inductive Res (A : Type)
  | ok (a : A) | throw | ub

/-- `f` with entry `g` replaced. -/
def upd {V : Type} (f : Nat → V) (g : Nat) (v : V) : Nat → V := fun x => if x = g then v else f x

/-- sn_sweeper_variant.hpp:140-146 and plane_sweeper_2d3d.cpp:129-135: negative values are replaced by zero. -/
def clean (f : Nat → K) : Nat → K := fun i => if f i < 0 then 0 else f i

/-- sn_sweeper_variant.hpp:94-154: an Sn sweep of a group. -/
def snSweep (o : Ops K) (g : Nat) (s : St K) : St K := { s with sn := upd s.sn g (clean (o.sn g s)), log := s.log ++ [.sn g] }

/-- plane_sweeper_2d3d.cpp:125-141 and 181-198: the Sn flux on the macroplanes, corrected, becomes the pin flux of MoC. `none` is an exception. -/
def project (m : Geo K) (g : Nat) (s : St K) : Option (St K) :=
  let f := clean (snGetPlane m.n2 m.dz m.ps (s.sn g))
  match setPin m.n2 m.nz (m.n2 * m.ps.length) m.dz m.mplane m.heights m.ps (s.moc g) f .pinPlane with
  | none => none
  | some (fl, _) => some { s with moc := upd s.moc g fl }

/-- plane_sweeper_2d3d.cpp:145-168: the MoC sweep in active iterations.  The remainder for a modulus of zero is undefined. -/
def mocPart (o : Ops K) (op : Opts) (g : Nat) (s : St K) : Option (St K) :=
  if s.outer + 1 > op.inactive then
    if op.modulo = 0 then none
    else if s.outer.tmod op.modulo = 0 then some { s with moc := upd s.moc g (o.moc g s), log := s.log ++ [.moc g] }
    else some s
  else some s

/-- plane_sweeper_2d3d.cpp:170-176 and sn_sweeper.hpp:101-119: the MoC flux on the macroplanes is stored, and with `moc_project` written to the Sn sweeper,
where the default treatment `PIN` is used for the array of macroplanes: its entries become the leading entries of the flux.  `none`: the element 1 of the
flux is read and does not exist on a mesh of a single cell (C36). -/
def mocProject (m : Geo K) (op : Opts) (g : Nat) (s : St K) : Option (St K) :=
  let f := getPlane m.n2 m.ps (s.moc g)
  if op.mocProject then
    if m.n2 * m.nz = 1 then none
    else some { s with prev := upd s.prev g f, sn := upd s.sn g fun i => if i < m.n2 * m.ps.length then f i else s.sn g i }
  else some { s with prev := upd s.prev g f }

/-- plane_sweeper_2d3d.cpp:179-217: the Sn sweep, the projection and the residual. -/
def snPart (m : Geo K) (o : Ops K) (op : Opts) (g : Nat) (s : St K) : Option (St K) :=
  let s := snSweep o g s
  let f := snGetPlane m.n2 m.dz m.ps (s.sn g)
  match if op.snProject then (project m g s).map fun s => (s, clean f) else some (s, f) with
  | none => none
  | some (s, f) =>
    let r := ((List.range (m.n2 * m.ps.length)).map fun i : Nat => (s.prev g i - f i) * (s.prev g i - f i)).sum
    some { s with resid := upd s.resid g (s.resid g ++ [r]) }

/-- plane_sweeper_2d3d.cpp:105-217 `sweep`; `cd` tells whether there are coarse data. -/
def sweep (m : Geo K) (o : Ops K) (op : Opts) (cd : Bool) (g : Nat) (s : St K) : Res (St K) :=
  if !cd then .throw
  else
    let s := if g = 0 then { s with outer := s.outer + 1 } else s
    let s := if op.tl then { s with log := s.log ++ [.tl g] } else s
    match if op.vCycle then project m g (snSweep o g s) else some s with
    | none => .throw
    | some s =>
      match mocPart o op g s with
      | none => .ub
      | some s =>
        match mocProject m op g s with
        | none => .ub
        | some s =>
          match snPart m o op g s with
          | none => .throw
          | some s => .ok s

/-- fixed_source_solver.cpp:101-117: the groups of one outer iteration in order, `n` groups from `g` on. -/
def groups (m : Geo K) (o : Ops K) (op : Opts) (cd : Bool) : Nat → Nat → St K → Res (St K)
  | 0, _, s => .ok s
  | n + 1, g, s =>
    match sweep m o op cd g s with
    | .ok s => groups m o op cd n (g + 1) s
    | r => r

/-- `n` outer iterations of `ng` groups. -/
def outers (m : Geo K) (o : Ops K) (op : Opts) (cd : Bool) (ng : Nat) : Nat → St K → Res (St K)
  | 0, s => .ok s
  | n + 1, s =>
    match groups m o op cd ng 0 s with
    | .ok s => outers m o op cd ng n s
    | r => r

end Verif.Cmdo.Sweep
