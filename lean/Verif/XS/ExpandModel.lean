import Mathlib.Algebra.Field.Defs
import Mathlib.Logic.Function.Basic

/-!
# Model of the shared expanded cross sections (src/core/xs_mesh.hpp:201-324)
-/

namespace Verif.XS

variable {K : Type} [Field K]

/-- One cross-section region: transport cross section by group, and the mesh regions it fills. -/
structure TrRegion (K : Type) where
  tr : Nat → K
  regs : List Nat

/-- The cross-section mesh: its regions and its `state_` counter (xs_mesh.hpp:160-166).  The counter is an `int`;
overflow after 2^31 updates is not modelled. -/
structure TrMesh (K : Type) where
  regions : List (TrRegion K)
  state : Int

/-- xs_mesh.hpp:315-323: the array `xstr_` and the shared pair `state_`. -/
structure Expanded (K : Type) where
  xstr : Nat → K
  group : Int
  meshState : Int

/-- The mesh together with one (possibly shared) expanded array: copies of `ExpandedXS` refer to the same array and
pair (xs_mesh.hpp:227-248), so one object stands for all of them. -/
structure World (K : Type) where
  mesh : TrMesh K
  e : Expanded K

/-- xs_mesh.hpp:215-221: a new object; the array is allocated uninitialised. -/
def World.init (mesh : TrMesh K) (garbage : Nat → K) : World K := ⟨mesh, ⟨garbage, -1, -1⟩⟩

/-- xs_mesh.hpp:268-273, 288-293: the assignment loops, `f` giving the value for a region's cross section and index. -/
def writeAll (regions : List (TrRegion K)) (g : Nat) (f : K → Nat → K) (a : Nat → K) : Nat → K :=
  regions.foldl (fun a xsr => xsr.regs.foldl (fun a i => Function.update a i (f (xsr.tr g) i)) a) a

/-- xs_mesh.hpp:261-276 `expand(group)`. -/
def World.expand (w : World K) (g : Nat) : World K :=
  if (g : Int) ≠ w.e.group ∨ w.mesh.state ≠ w.e.meshState then
    { w with e := { xstr := writeAll w.mesh.regions g (fun x _ => x) w.e.xstr, group := g, meshState := w.mesh.state } }
  else w

/-- xs_mesh.hpp:282-298 `expand(group, split)`; `none` is an empty `split` array. -/
def World.expandSplit (w : World K) (g : Nat) (split : Option (Nat → K)) : World K :=
  match split with
  | some s => { w with e := { w.e with xstr := writeAll w.mesh.regions g (fun x i => x + s i) w.e.xstr } }
  | none => w.expand g

/-- xs_mesh_homogenized.cpp:176-197 `update` with a flux: new cross sections in the same regions, `state_++`.
(Without a flux nothing at all happens.) -/
def World.update (w : World K) (tr : Nat → Nat → K) : World K :=
  { w with mesh := { regions := w.mesh.regions.mapIdx (fun x r => { r with tr := tr x }), state := w.mesh.state + 1 } }

/-- The operations a history is made of. -/
inductive Op (K : Type)
  | expand (g : Nat)
  | split (g : Nat) (s : Nat → K)
  | splitEmpty (g : Nat)
  | update (tr : Nat → Nat → K)

def World.step (w : World K) : Op K → World K
  | .expand g => w.expand g
  | .split g s => w.expandSplit g (some s)
  | .splitEmpty g => w.expandSplit g none
  | .update tr => w.update tr

def World.run (w : World K) (h : List (Op K)) : World K := h.foldl World.step w

end Verif.XS
