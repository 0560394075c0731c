import Verif.H5.Model
import Mathlib.Data.Nat.Digits.Defs

/-!
# What the solvers write to the output file

A file is a tree of groups and datasets.  The output of a solver is the list of groups, datasets and links it creates, in this order, with paths from the root.  Values are
left out, only the number of values handed over is kept.  Text datasets count as one value without extents.
-/

namespace Verif.H5

/-- A component of a path: text, or a number written with at least `width` digits (`std::setw`, `std::setfill('0')`) followed by text.  Text used here never begins with a
digit. -/
inductive Name where
  | lit (s : String)
  | num (digits : List Nat) (suffix : String)
  deriving DecidableEq, Repr

/-- Decimal digits, most significant first, filled with zeros; zero is one digit. -/
def decimal (width n : Nat) : List Nat :=
  let d := if n = 0 then [0] else Nat.digits 10 n
  (d ++ List.replicate (width - d.length) 0).reverse

/-- `std::setfill('0') << std::setw(width) << n` with a text after it. -/
def numName (width n : Nat) (suffix : String := "") : Name := .num (decimal width n) suffix

/-- One call to the file. -/
inductive Item where
  | group (path : List Name)
  | data (path : List Name) (dims : List Nat) (len : Nat)
  | link (src dst : List Name)
  deriving DecidableEq, Repr

/-- The path that an item creates. -/
def Item.path : Item → List Name
  | .group p => p
  | .data p _ _ => p
  | .link _ d => d

/-- The same below a node. -/
def Item.below (pre : List Name) : Item → Item
  | .group p => .group (pre ++ p)
  | .data p d n => .data (pre ++ p) d n
  | .link s d => .link s d

/-- The library and h5file.cpp: creating something fails if the path is in use or the group it is in does not exist; a link needs its source.  `H5Node::write` handed fewer or
more values than the extents have reads or writes elsewhere (C114).  What exists: the items so far. -/
def fits (st : List Item) (it : Item) : Bool :=
  (it.path.dropLast = [] || st.any fun x => x = .group it.path.dropLast) && !(st.any fun x => x.path = it.path) &&
    match it with
    | .group _ => true
    | .data _ dims len => dims.prod = len
    | .link s _ => st.any fun x => x.path = s

/-- All items one after the other; `none` if one fails. -/
def perform : List Item → List Item → Option (List Item)
  | st, [] => some st
  | st, it :: l => if fits st it then perform (st ++ [it]) l else none

/-- Numbers of a case: groups, angles, the mesh, macroplanes, regions of the MoC (planes of macroplanes) and of all planes, material and correction data. -/
structure Sizes where
  ng : Nat
  ndir : Nat
  nx : Nat
  ny : Nat
  nz : Nat
  nMacro : Nat
  nRegPlane : Nat
  nRegTrue : Nat
  nAngCorr : Nat
  nIter : Nat

/-- mesh.hpp:347-351, then reversed. -/
def Sizes.dims (z : Sizes) : List Nat := [z.nz, z.ny, z.nx]

/-- angular_quadrature.cpp:213-249. -/
def quadOut (z : Sizes) : List Item :=
  .group [.lit "ang_quad"] :: (["n_polar", "n_azimuthal"].map fun s => Item.data [.lit "ang_quad", .lit s] [1] 1) ++
    ["alpha", "theta", "omega_x", "omega_y", "omega_z", "weight"].map fun s => Item.data [.lit "ang_quad", .lit s] [z.ndir] z.ndir

/-- moc_sweeper.cpp:534-585: pin fluxes (`get_pin_flux` with one value per pin, transport_sweeper.cpp:195-208), fluxes of regions if asked for, pin powers
(transport_sweeper.cpp:140-144: subplanes by y by x). -/
def mocOut (z : Sizes) (dumpFsr : Bool) : List Item :=
  .group [.lit "flux"] ::
  (if dumpFsr then
    .group [.lit "fsr_flux"] :: (List.range z.ng).map fun ig => Item.data [.lit "fsr_flux", numName 3 (ig + 1)] [z.nRegPlane, 1] z.nRegPlane
   else []) ++
  ((List.range z.ng).map fun ig => Item.data [.lit "flux", numName 3 (ig + 1)] z.dims (z.nx * z.ny * z.nz)) ++
  [.data [.lit "pin_powers"] [z.nMacro, z.ny, z.nx] (z.nMacro * z.ny * z.nx)] ++ quadOut z

/-- xs_mesh_homogenized.cpp:620-689: one region per pin of a macroplane. -/
def xsOut (z : Sizes) : List Item :=
  .group [.lit "xsmesh"] :: (["xstr", "xsnf", "xsf", "xsch"].map fun s => Item.group [.lit "xsmesh", .lit s]) ++
  [.data [.lit "xsmesh", .lit "eubounds"] [z.ng] z.ng] ++
  ((List.range z.ng).flatMap fun ig => ["xstr", "xsnf", "xsch", "xsf"].map fun s =>
    Item.data [.lit "xsmesh", .lit s, numName 0 ig] [z.nMacro, z.ny, z.nx] (z.nx * z.ny * z.nMacro)) ++
  [.data [.lit "xsmesh", .lit "xssc"] [z.nx * z.ny * z.nMacro, z.ng, z.ng] (z.nx * z.ny * z.nMacro * z.ng * z.ng)]

/-- correction_data.cpp:212-264, one layer of cells per macroplane (correction_data.hpp:45-57). -/
def corrOut (z : Sizes) : List Item :=
  (["alpha_x", "alpha_y", "beta"].map fun s => Item.group [.lit s]) ++
  (List.range z.ng).flatMap fun g => (["alpha_x", "alpha_y", "beta"].map fun s => Item.group [.lit s, numName 3 g]) ++
    (List.range z.nAngCorr).flatMap fun a => ["beta", "alpha_x", "alpha_y"].map fun s => Item.data [.lit s, numName 3 g, numName 3 a] [z.nMacro, z.ny, z.nx] (z.nx * z.ny * z.nMacro)

/-- sn_sweeper.cpp:253-290, and sn_sweeper_cdd.hpp:116-122 with `dump_corrections`. -/
def snOut (z : Sizes) (dumpCorr : Bool) : List Item :=
  .group [.lit "flux"] ::
  ((List.range z.ng).map fun ig => Item.data [.lit "flux", numName 3 (ig + 1)] z.dims (z.nx * z.ny * z.nz)) ++
  [.data [.lit "pin_powers"] [z.nz, z.ny, z.nx] (z.nz * z.ny * z.nx), .data [.lit "pin_powers_2d"] [z.ny, z.nx] (z.ny * z.nx)] ++ quadOut z ++ xsOut z ++
  if dumpCorr then corrOut z else []

/-- moc_sweeper_2d3d.cpp:101-135, `internal` if the sweeper holds its own corrections. -/
def moc2d3dOut (z : Sizes) (dumpFsr internal : Bool) : List Item :=
  mocOut z dumpFsr ++ (if internal then corrOut z ++ xsOut z else []) ++
  .group [.lit "correction_residual"] ::
  (List.range z.ng).flatMap fun ig => Item.group [.lit "correction_residual", numName 0 (ig + 1)] ::
    ["alpha_x", "alpha_y", "beta"].map fun s => Item.data [.lit "correction_residual", numName 0 (ig + 1), .lit s] [z.nIter] z.nIter

/-- plane_sweeper_2d3d.cpp:283-355: numbers in `SnResid` and `transverse_leakage` are `g`, those in `moc_flux` `ig + 1`. -/
def planeOut (z : Sizes) (snDump dumpFsr dumpCorr : Bool) : List Item :=
  .group [.lit "Sn"] :: (snOut z snDump).map (Item.below [.lit "Sn"]) ++
  [.link [.lit "Sn", .lit "xsmesh"] [.lit "xsmesh"], .link [.lit "Sn", .lit "ang_quad"] [.lit "ang_quad"]] ++
  .group [.lit "MoC"] :: (moc2d3dOut z dumpFsr false).map (Item.below [.lit "MoC"]) ++
  .group [.lit "SnResid"] :: ((List.range z.ng).map fun g => Item.data [.lit "SnResid", numName 3 g] [z.nIter] z.nIter) ++
  .group [.lit "moc_flux"] :: ((List.range z.ng).map fun ig => Item.data [.lit "moc_flux", numName 3 (ig + 1)] [z.nMacro, z.ny, z.nx] (z.nx * z.ny * z.nMacro)) ++
  .group [.lit "transverse_leakage"] ::
    ((List.range z.ng).map fun g => Item.data [.lit "transverse_leakage", numName 3 g] [z.nMacro, z.ny, z.nx] (z.nx * z.ny * z.nMacro)) ++
  if dumpCorr then corrOut z else []

/-- The sweepers of transport_sweeper_factory.cpp:28-70 with their options. -/
inductive Kind where
  | moc (dumpFsr : Bool)
  | sn (dumpCorr : Bool)
  | plane (snDump dumpFsr dumpCorr : Bool)
  | moc2d3d (dumpFsr : Bool)

def sweeperOut (z : Sizes) : Kind → List Item
  | .moc d => mocOut z d
  | .sn d => snOut z d
  | .plane a b c => planeOut z a b c
  | .moc2d3d d => moc2d3dOut z d true

/-- fixed_source_solver.cpp:119-129. -/
def fixedOut (z : Sizes) (k : Kind) : List Item := [.data [.lit "ng"] [1] 1, .data [.lit "eubounds"] [z.ng] z.ng] ++ sweeperOut z k

/-- cmfd.cpp:668-698 with `dump_current`, on a mesh of one plane per macroplane; names of surfaces from constants.cpp:28-57. -/
def cmfdOut (z : Sizes) : List Item :=
  [.group [.lit "current"], .data [.lit "current", .lit "source"] [] 1] ++
  (List.range z.ng).flatMap fun ig => Item.group [.lit "current", numName 0 (ig + 1)] ::
    ["east", "north", "west", "south", "top", "bottom"].map fun s => Item.data [.lit "current", numName 0 (ig + 1), .lit s] [z.nMacro, z.ny, z.nx] (z.nx * z.ny * z.nMacro)

/-- eigen_solver.cpp:293-322; `cmfd` if there is one that dumps its currents. -/
def eigenOut (z : Sizes) (k : Kind) (cmfd : Bool) : List Item :=
  .group [.lit "convergence"] :: (["k", "error_k", "error_psi", "iteration_time", "abscissae"].map fun s => Item.data [.lit "convergence", .lit s] [z.nIter] z.nIter) ++
  fixedOut z k ++ if cmfd then cmfdOut z else []

/-- particle_pusher.cpp:392-498. -/
def pusherOut (z : Sizes) : List Item :=
  [.data [.lit "ng"] [1] 1, .data [.lit "eubounds"] [z.ng] z.ng, .group [.lit "flux"]] ++
  ((List.range z.ng).flatMap fun ig => ["", "_stdev"].map fun s => Item.data [.lit "flux", numName 3 (ig + 1) s] z.dims (z.nx * z.ny * z.nz)) ++
  .group [.lit "fsr_flux"] :: ((List.range z.ng).flatMap fun ig => ["", "_stdev"].map fun s => Item.data [.lit "fsr_flux", numName 3 (ig + 1) s] [z.nRegTrue] z.nRegTrue) ++
  .group [.lit "fsr_flux_col"] :: ((List.range z.ng).flatMap fun ig => ["", "_stdev"].map fun s => Item.data [.lit "fsr_flux_col", numName 3 (ig + 1) s] [z.nRegTrue] z.nRegTrue) ++
  ["pin_power", "pin_power_stdev"].map fun s => Item.data [.lit s] z.dims (z.nx * z.ny * z.nz)

/-- monte_carlo_eigenvalue_solver.cpp:204-228, `nIter` cycles of which `nActive` are active. -/
def mcOut (z : Sizes) (nActive : Nat) : List Item :=
  (["k_history_tl", "k_history_col", "k_history_analog", "h_history"].map fun s => Item.data [.lit s] [z.nIter] z.nIter) ++
  (["k_mean_history_tl", "k_mean_history_col", "k_mean_history_analog", "k_stdev_history_tl", "k_stdev_history_col", "k_stdev_history_analog"].map fun s =>
    Item.data [.lit s] [nActive] nActive) ++
  [.data [.lit "seed"] [1] 1] ++ pusherOut z

/-- driver.cpp:52-66, after the output of the solver. -/
def driverOut (l : List Item) : List Item := l ++ [.data [.lit "input_file"] [] 1, .data [.lit "git_sha1"] [] 1]

end Verif.H5
