import Mathlib.Data.Nat.Basic

/-!
# Model of the search for geometrically unique planes

`src/core/core_mesh.cpp` 54-97, `src/core/plane.cpp` 173-190, `src/core/lattice.cpp` 215-230.  `none` is a read outside of a vector.
-/

namespace Verif.Core

/-- What is compared of a lattice: dimensions, numbers of regions and cross-section regions, and the identifiers of the meshes of its pins. -/
structure LatKey where
  nx : Nat
  ny : Nat
  nReg : Nat
  nXsreg : Nat
  meshes : List Int
  deriving DecidableEq

/-- lattice.cpp:224-229. -/
def sameMeshes : List Int → List Int → Option Bool
  | [], _ => some true
  | _ :: _, [] => none
  | a :: as, b :: bs => if a ≠ b then some false else sameMeshes as bs

/-- lattice.cpp:215-230 `Lattice::geometrically_equivalent`. -/
def LatKey.equiv (a b : LatKey) : Option Bool :=
  if a.nx ≠ b.nx ∨ a.ny ≠ b.ny then some false
  else if a.nReg ≠ b.nReg ∨ a.nXsreg ≠ b.nXsreg then some false
  else sameMeshes a.meshes b.meshes

/-- The lattices of a plane. -/
structure PlaneKey where
  nx : Nat
  ny : Nat
  lats : List LatKey
  deriving DecidableEq

/-- plane.cpp:74-86: `n_reg_`, `n_xsreg_`. -/
def PlaneKey.nReg (p : PlaneKey) : Nat := (p.lats.map (·.nReg)).sum
@[inherit_doc PlaneKey.nReg] def PlaneKey.nXsreg (p : PlaneKey) : Nat := (p.lats.map (·.nXsreg)).sum

/-- plane.cpp:183-188. -/
def sameLats : List LatKey → List LatKey → Option Bool
  | [], _ => some true
  | _ :: _, [] => none
  | a :: as, b :: bs =>
    match a.equiv b with
    | some true => sameLats as bs
    | o => o

/-- plane.cpp:173-190 `Plane::geometrically_equivalent`. -/
def PlaneKey.equiv (p q : PlaneKey) : Option Bool :=
  if p.nx ≠ q.nx ∨ p.ny ≠ q.ny then some false
  else if p.nReg ≠ q.nReg ∨ p.nXsreg ≠ q.nXsreg then some false
  else sameLats p.lats q.lats

/-- core_mesh.cpp:81-85: `find_if` over the planes known so far, and the distance from the first. -/
def findPlane (t : PlaneKey) : List PlaneKey → Nat → Option Nat
  | [], i => some i
  | p :: ps, i =>
    match p.equiv t with
    | none => none
    | some true => some i
    | some false => findPlane t ps (i + 1)

/-- `planes_`, `first_unique_`, `unique_plane_ids_`, `first_reg_plane_` and the running `plane_reg`. -/
structure Unique where
  planes : List PlaneKey
  first : List Nat
  ids : List Nat
  firstReg : List Nat
  reg : Nat

/-- core_mesh.cpp:60-96: the loop over the planes, from plane `iz` on. -/
def uniqueLoop : List PlaneKey → Nat → Unique → Option Unique
  | [], _, u => some u
  | t :: ts, iz, u =>
    match findPlane t u.planes 0 with
    | none => none
    | some k =>
      uniqueLoop ts (iz + 1)
        { planes := if k = u.planes.length then u.planes ++ [t] else u.planes
          first := if k = u.planes.length then u.first ++ [iz] else u.first
          ids := u.ids ++ [k]
          firstReg := u.firstReg ++ [u.reg]
          reg := u.reg + t.nReg }

/-- core_mesh.cpp:56-96. -/
def uniquePlanes (ts : List PlaneKey) : Option Unique := uniqueLoop ts 0 ⟨[], [], [], [], 0⟩

end Verif.Core
