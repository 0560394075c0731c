import Verif.Input.FactoryModel
import Verif.Moc.VolumeModel

/-!
# Constructor of the ray data

Model of `RayData::RayData` (src/sweepers/moc/ray_data.cpp:67-343): options, tables by angle, warnings about regions without rays.  The counts of rays of an angle
(`modularize_angle`) are those of C34, the rays those of C32, their segments those of C74 and C75, the correction of lengths that of C33.
-/

namespace Verif.Rays.Options

open Verif.Input.Factory

/-- ray_data.hpp:31 `VolumeCorrection`. -/
inductive Correction | flat | angle | none
  deriving DecidableEq

/-- What the constructor reads from its node. -/
structure Opts (K : Type) where
  spacing : K
  correction : Correction
  core : Bool
  rational : Bool
  deriving DecidableEq

/-- ray_data.cpp:35-36. -/
def known : List String := ["modularity", "spacing", "volume_correction", "modularization"]

variable {Q K : Type}

/-- ray_data.cpp:86-99. -/
def readCorrection (n : Node Q) : Option Correction :=
  match attr n "volume_correction" with
  | .none => some .flat
  | some v =>
    if sanitize v = "flat".toList then some .flat
    else if sanitize v = "angle".toList then some .angle
    else if sanitize v = "none".toList then some .none
    else .none

/-- ray_data.cpp:106-124; `pinModular` is the answer of the mesh. -/
def readModularity (pinModular : Bool) (n : Node Q) : Option Bool :=
  match attr n "modularity" with
  | none => some true
  | some v =>
    if sanitize v = "pin".toList then (if pinModular then some false else none)
    else if sanitize v = "core".toList then some true
    else none

/-- ray_data.cpp:69, 133-143: `true` is `RATIONAL`. -/
def readMethod (n : Node Q) : Option Bool :=
  match attr n "modularization" with
  | none => some true
  | some v =>
    if sanitize v = "trig".toList then some false
    else if sanitize v = "rational_fraction".toList then some true
    else none

/-- ray_data.cpp:72-143: the options, and the number of warnings about attributes.  `node = none` is a missing node, `num` the conversion of text to a number
(`as_float`, with `-1` if there is no attribute); `none` is an exception. -/
def readOpts [Neg K] [One K] [Zero K] [LE K] [DecidableLE K] (num : Str → K) (pinModular : Bool) (node : Option (Node Q)) : Option (Opts K × Nat) :=
  match node with
  | none => none
  | some n =>
    let s := ((attr n "spacing").map num).getD (-1)
    if s ≤ 0 then none
    else (readCorrection n).bind fun c => (readModularity pinModular n).bind fun m => (readMethod n).map fun r => (⟨s, c, m, r⟩, (validate n known).2)

/-- core_mesh.hpp:197-206 `is_pin_modular`; `near` is `fp_equiv_ulp`. -/
def isPinModular [Zero K] (near : K → K → Bool) (dx dy : List K) : Bool := dx.all (fun v => near v (dx.getD 0 0)) && dy.all (fun v => near v (dy.getD 0 0))

/-- ray_data.cpp:153-156: extent of a module in one direction. -/
def moduleSize (core : Bool) (whole pitch : K) : K := if core then whole else pitch

/-- `Nx_`, `Ny_`, `Nrays_`, `spacing_`. -/
structure Tables (K : Type) where
  nx : List Nat
  ny : List Nat
  n : List Nat
  space : List K

/-- ray_data.cpp:167-192: one angle of octant 1; `N` is the result of `modularize_angle`, `space Nx Ny` the spacing of the modified angle. -/
def pushAngle (core : Bool) (mx my : Nat) (space : Nat → Nat → K) (t : Tables K) (N : Nat × Nat) : Tables K :=
  let Nx := if core then N.1 else N.1 * mx
  let Ny := if core then N.2 else N.2 * my
  ⟨t.nx ++ [Nx], t.ny ++ [Ny], t.n ++ [Nx + Ny], t.space ++ [space Nx Ny]⟩

/-- `v.push_back(v[i])`; `none` if `i` is out of bounds. -/
def pushCopy {α : Type} (v : List α) (i : Nat) : Option (List α) := (v[i]?).map fun x => v ++ [x]

/-- ray_data.cpp:198-203: one more angle. -/
def pushAgain (t : Tables K) (i : Nat) : Option (Tables K) :=
  (pushCopy t.nx i).bind fun a => (pushCopy t.ny i).bind fun b => (pushCopy t.n i).bind fun c => (pushCopy t.space i).map fun d => ⟨a, b, c, d⟩

/-- ray_data.cpp:161-203: the tables for the results of `modularize_angle` of octant 1. -/
def tables (core : Bool) (mx my : Nat) (space : Nat → Nat → K) (Ns : List (Nat × Nat)) : Option (Tables K) :=
  (List.range (Ns.length * 3)).foldlM pushAgain (Ns.foldl (pushAngle core mx my space) ⟨[], [], [], []⟩)

/-- ray_data.cpp:307-311: the regions of the rays of one angle counted. -/
def count (c : Nat → Nat) (rays : List (List Nat)) : Nat → Nat :=
  rays.foldl (fun c r => r.foldl (fun c i => fun j => if j = i then c j + 1 else c j) c) c

/-- ray_data.cpp:212-332: for each angle of a plane with `nreg` regions, whether there is a warning.  A ray is the list of its `seg_index()`. -/
def warnings (nreg : Nat) : (Nat → Nat) → List (List (List Nat)) → List Bool
  | _, [] => []
  | c, rays :: more => ((List.range nreg).any fun i => count c rays i == 0) :: warnings nreg (count c rays) more

end Verif.Rays.Options
