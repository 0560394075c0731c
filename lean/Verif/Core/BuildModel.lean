import Verif.Core.LatticeModel
import Mathlib.Algebra.Order.Field.Basic

/-!
# Pins, assemblies and the core from the input

Model of `Pin` (src/core/pin.cpp), `Assembly` (src/core/assembly.cpp), `Core` and `ParseCore` (src/core/core.cpp), of the arrangement in `Lattice`
with the arithmetic of `unsigned` (src/core/lattice.cpp:38-66), and of the maps by identifier that `ParsePins`, `ParsePinMeshes`, `ParseLattices` and
`ParseAssemblies` build.  A tag has the results of reading its attributes and text: `none` for an attribute that is missing, or for text on which
`explode_string` (C06) or `explode_braces` throws, as said at each field.
-/

namespace Verif.Core.Build

open Verif.Core

/-- Conversion of `int` to `unsigned int`. -/
def u32 (z : Int) : Nat := (z % 2^32).toNat

/-! ## Maps by identifier -/

/-- pin.cpp:104-122, pin_mesh.cpp:54-73, lattice.cpp:165-181, assembly.cpp:162-181: the tags in turn; an exception of the constructor (`none`) or an
identifier that is in the map already. -/
def parseMap {T A : Type} (mk : T → Option A) (id : A → Int) : List T → (Int → Option A) → Option (Int → Option A)
  | [], m => some m
  | t :: ts, m =>
    match mk t with
    | none => none
    | some a => if (m (id a)).isSome then none else parseMap mk id ts fun x => if x = id a then some a else m x

/-! ## Pins -/

/-- A `<pin>` tag; `mats` is `none` if the text cannot be read. -/
structure PinTag where
  id : Option Int
  mesh : Option Int
  mats : Option (List Int)
  fuel : Option Bool

/-- pin.hpp:113-122. -/
structure PinOf where
  id : Int
  mesh : Int
  mats : List Int
  fuel : Bool
deriving DecidableEq, Repr

/-- pin.cpp:68-78: the loop over the materials; `lib` says of a known material whether it is fissile. -/
def scanMats (lib : Int → Option Bool) : List Int → Option Bool
  | [] => some false
  | m :: ms =>
    match lib m with
    | none => none
    | some true => some true
    | some false => scanMats lib ms

/-- pin.cpp:36-86, the constructor; `meshes` gives the number of cross-section regions of a mesh. -/
def mkPin (meshes : Int → Option Nat) (lib : Int → Option Bool) (t : PinTag) : Option PinOf :=
  let id := t.id.getD 0
  if id = 0 then none
  else
    let mesh := t.mesh.getD 0
    if mesh = 0 then none
    else
      match meshes mesh, t.mats with
      | some n, some mats =>
        if mats.length ≠ n then none
        else
          match scanMats lib mats with
          | none => none
          | some f => some ⟨id, mesh, mats, t.fuel.getD f⟩
      | _, _ => none

/-! ## Assemblies -/

variable {K L : Type}

/-- An `<assembly>` tag: the attribute `hz`, the child `<hz>` (with its heights, `none` inside if unreadable), and the child `<lattices>` with the
groups of identifiers that `explode_braces` gives (`none` inside if it throws). -/
structure AsyTag (K : Type) where
  id : Option Int
  np : Option Int
  hz : Option K
  hzs : Option (Option (List K))
  lats : Option (Option (List (List Int)))

/-- assembly.hpp:129-146. -/
structure Asy (K L : Type) where
  id : Int
  nz : Nat
  dz : List K
  sub : List Nat
  lats : List L
  nReg : Nat
  nXs : Nat

/-- assembly.cpp:47-77: the heights.  Exactly one of attribute and child must be there; an attribute that is not positive leaves them empty. -/
def heights [Zero K] [LinearOrder K] (nz : Nat) (hz : Option K) (hzs : Option (Option (List K))) : Option (List K) :=
  match hz, hzs with
  | none, none => none
  | some _, some _ => none
  | some h, none => if 0 < h then some (List.replicate nz h) else some []
  | none, some none => none
  | none, some (some l) => if l.length ≠ nz then none else some l.reverse

/-- assembly.cpp:84-110: the lattices from bottom to top and the numbers of planes of the groups. -/
def stack (lat : Int → Option L) (groups : List (List Int)) : Option (List Nat × List L) :=
  (groups.reverse.map List.reverse).foldlM
    (fun acc block => (block.mapM lat).map fun ls => (acc.1 ++ [block.length], acc.2 ++ ls)) ([], [])

/-- assembly.cpp:29-135, the constructor; `compat` is `Lattice::compatible`. -/
def mkAsy [Zero K] [LinearOrder K] (lat : Int → Option L) (compat : L → L → Bool) (nReg nXs : L → Nat) (t : AsyTag K) : Option (Asy K L) :=
  let id := t.id.getD 0
  if id = 0 then none
  else
    let nz := u32 (t.np.getD 0)
    if nz = 0 then none
    else
      match heights nz t.hz t.hzs, t.lats with
      | some dz, some (some groups) =>
        match stack lat groups with
        | none => none
        | some (sub, ls) =>
          if ls.length ≠ nz then none
          else
            match ls with
            | [] => none
            | l0 :: _ =>
              if ls.all (compat · l0) then
                some ⟨id, nz, dz, sub, ls, ls.foldl (fun n l => n + nReg l) 0, ls.foldl (fun n l => n + nXs l) 0⟩
              else none
      | _, _ => none

/-- assembly.cpp:142-152: the comparison of the heights of `n` planes from number `i` on; `dz_[i]` past the end is undefined. -/
def sameHeights (near : K → K → Bool) (a b : List K) : Nat → Nat → Res Bool
  | 0, _ => .ok true
  | n + 1, i =>
    match a[i]?, b[i]? with
    | some x, some y => if near x y then sameHeights near a b n (i + 1) else .ok false
    | _, _ => .ub

/-- assembly.cpp:140-160 `compatible`; `near` is `fp_equiv_ulp`. -/
def compatible (near : K → K → Bool) (a b : Asy K L) : Res Bool :=
  if a.lats.length ≠ b.lats.length then .ok false
  else if a.sub.length ≠ b.sub.length then .ok false
  else
    match sameHeights near a.dz b.dz a.lats.length 0 with
    | .ok true => .ok ((List.range a.sub.length).all fun i : Nat => decide (a.sub[i]? = b.sub[i]?))
    | r => r

/-! ## The core -/

/-- Boundary conditions that the input can name, constants.hpp:69-103. -/
inductive Bc where
  | vacuum | reflect | prescribed
deriving DecidableEq, Repr

/-- core.cpp:26-38 `bc_parse`; `none` is INVALID, also for a missing attribute. -/
def bcParse (s : String) : Option Bc :=
  if s = "vacuum" then some .vacuum
  else if s = "reflect" then some .reflect
  else if s = "prescribed" then some .prescribed
  else none

/-- The surfaces with their numbers, constants.hpp. -/
inductive Surf where
  | east | north | west | south | top | bottom
deriving DecidableEq, Repr

/-- A `<core>` tag: the values of the attributes of boundary conditions (empty if missing), the identifiers of the text (`none` if unreadable). -/
structure CoreTag where
  nx : Option Int
  ny : Option Int
  bc : Surf → String
  ids : Option (List Int)
  enabled : Option Bool

/-- core.hpp:127-146. -/
structure CoreOf (A K : Type) where
  nx : Nat
  ny : Nat
  npinX : Nat
  npinY : Nat
  hx : List K
  hy : List K
  asys : List A
  bc : Surf → Bc

/-- The columns of one row with 32-bit indices, core.cpp:91-101 and lattice.cpp:61-65; `src` is the index into the identifiers. -/
def placeRowW {P : Type} (look : Int → Option P) (nx row : Nat) (src : Nat → Nat) (ids : List Int) :
    Nat → Nat → List (Option P) → Res (List (Option P))
  | 0, _, a => .ok a
  | count + 1, ix, a =>
    match ids[src ix]? with
    | none => .ub
    | some id =>
      match look id with
      | none => .throw
      | some p =>
        if (row * nx + ix) % 2^32 < a.length then
          placeRowW look nx row src ids count (ix + 1) (a.set ((row * nx + ix) % 2^32) (some p))
        else .ub

/-- The rows, core.cpp:88-102 and lattice.cpp:59-66.  `src iy ix` is the index of an identifier. -/
def placeRowsW {P : Type} (look : Int → Option P) (nx ny : Nat) (src : Nat → Nat → Nat) (ids : List Int) :
    Nat → Nat → List (Option P) → Res (List (Option P))
  | 0, _, a => .ok a
  | count + 1, iy, a =>
    match placeRowW look nx (ny - iy - 1) (src iy) ids nx 0 a with
    | .ok a' => placeRowsW look nx ny src ids count (iy + 1) a'
    | o => o

/-- core.cpp:79-102: the number of identifiers is compared with a product modulo 2^32, then they are placed.  `iasy` counts on. -/
def arrangeCore {P : Type} (look : Int → Option P) (nx ny : Nat) (ids : List Int) : Res (List (Option P)) :=
  if ids.length ≠ nx * ny % 2^32 then .throw
  else placeRowsW look nx ny (fun iy ix => iy * nx + ix) ids ny 0 (List.replicate (nx * ny % 2^32) none)

/-- lattice.cpp:47-66: the same for pins, the index of the identifier being computed in `unsigned`. -/
def arrangeLattice {P : Type} (look : Int → Option P) (nx ny : Nat) (ids : List Int) : Res (List (Option P)) :=
  if ids.length ≠ nx * ny % 2^32 then .throw
  else placeRowsW look nx ny (fun iy ix => (iy * nx + ix) % 2^32) ids ny 0 (List.replicate (nx * ny % 2^32) none)

/-- lattice.cpp:33-66: reading of a lattice up to the arrangement of its pins. -/
def latticePins {P : Type} (look : Int → Option P) (id nx ny : Option Int) (ids : Option (List Int)) : Res (Nat × Nat × List (Option P)) :=
  if id.getD 0 = 0 then .throw
  else
    let nx := u32 (nx.getD 0)
    let ny := u32 (ny.getD 0)
    if nx = 0 ∨ ny = 0 then .throw
    else
      match ids with
      | none => .throw
      | some l =>
        match arrangeLattice look nx ny l with
        | .ok a => .ok (nx, ny, a)
        | .throw => .throw
        | .ub => .ub

/-- core.cpp:108-112: all assemblies against the first. -/
def checkAll (compat : P → P → Res Bool) (front : P) : List P → Res Bool
  | [] => .ok true
  | p :: ps =>
    match compat front p with
    | .ok true => checkAll compat front ps
    | r => r

/-- core.cpp:126-135: boundaries, the sum of the widths so far. -/
def edges [Add K] : List K → K → List K
  | [], _ => []
  | h :: hs, prev => (prev + h) :: edges hs (prev + h)

/-- core.cpp:46-136, the constructor.  `nx`, `ny`, `hx`, `hy` of an assembly are those of its lowest lattice. -/
def mkCore [Zero K] [Add K] (look : Int → Option A) (compat : A → A → Res Bool) (anx any : A → Nat) (ahx ahy : A → K) (t : CoreTag) :
    Res (CoreOf A K) :=
  let nx := u32 (t.nx.getD 0)
  let ny := u32 (t.ny.getD 0)
  if nx < 1 ∨ ny < 1 then .throw
  else
    match bcParse (t.bc .north), bcParse (t.bc .south), bcParse (t.bc .east), bcParse (t.bc .west), bcParse (t.bc .top), bcParse (t.bc .bottom), t.ids with
    | some n, some s, some e, some w, some tp, some b, some ids =>
      match arrangeCore look nx ny ids with
      | .throw => .throw
      | .ub => .ub
      | .ok cells =>
        match cells.mapM (fun x => x) with
        | none => .ub
        | some asys =>
          match asys with
          | [] => .ub
          | front :: _ =>
            match checkAll compat front asys with
            | .ub => .ub
            | .throw => .throw
            | .ok false => .throw
            | .ok true =>
              let row0 := asys.take nx
              let col0 := (List.range ny).filterMap fun iy : Nat => asys[iy * nx]?
              .ok { nx := nx, ny := ny
                    npinX := row0.foldl (fun n a => n + anx a) 0, npinY := col0.foldl (fun n a => n + any a) 0
                    hx := edges (row0.map ahx) 0, hy := edges (col0.map ahy) 0
                    asys := asys
                    bc := fun
                      | .east => e | .north => n | .west => w | .south => s | .top => tp | .bottom => b }
    | _, _, _, _, _, _, _ => .throw

/-- core.cpp:141-168 `ParseCore`: `core` is the last enabled one so far, with the number of enabled ones. -/
def parseCore {C : Type} (mk : CoreTag → Res C) : List CoreTag → Option C → Nat → Res C
  | [], c, n =>
    if n = 0 then .throw
    else if 1 < n then .throw
    else match c with
      | some c => .ok c
      | none => .throw
  | t :: ts, c, n =>
    if t.enabled.getD true then
      match mk t with
      | .ok c' => parseCore mk ts (some c') (n + 1)
      | .throw => .throw
      | .ub => .ub
    else parseCore mk ts c n

end Verif.Core.Build
