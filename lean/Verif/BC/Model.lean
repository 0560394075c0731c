import Verif.Quad.Model

/-!
# Model of the boundary condition store (src/core/boundary_condition.{hpp,cpp})

The flat array `data_` is a function from positions to values together with its length.  A failed assertion, an
out-of-bounds access or a read of the angle list past its end is the outcome `ub`.  Integers are unbounded
(`int` overflow of `bc_per_group_ * n_group` is modelled in `Verif.Mesh.IntModel`, C134).
-/

namespace Verif.BC

open Verif.Quad

/-- core/constants.hpp `Boundary`. -/
inductive Boundary
  | VACUUM | REFLECT | PARALLEL | PERIODIC | PRESCRIBED | INVALID
  deriving DecidableEq, Repr

/-- Outcome of a call. -/
inductive Outcome (α : Type)
  | ok (a : α)
  | throws
  | ub

/-- Numbers of boundary values on the X, Y and Z normal faces for one angle (`BC_Size_t`). -/
structure Size3 where
  x : Nat
  y : Nat
  z : Nat
  deriving DecidableEq, Repr

def Size3.get (s : Size3) : Normal → Nat
  | .X => s.x | .Y => s.y | .Z => s.z

def Size3.toList (s : Size3) : List Nat := [s.x, s.y, s.z]

/-- boundary_condition.hpp:200-230: the members used here. -/
structure Store (K : Type) where
  nGroup : Nat
  types : Surface → Boundary
  size : List Size3
  ndirOct : Nat
  angles : List (Angle K)
  data : Nat → K

variable {K : Type} [Field K] [LinearOrder K]

/-- boundary_condition.cpp:57-60 `bc_per_group_`. -/
def perGroup (size : List Size3) : Nat := size.foldl (fun acc n => acc + (n.x + n.y + n.z)) 0

/-- boundary_condition.cpp:67-77: running offsets, angle by angle and face by face. -/
def runningOffsets : List Nat → Nat → List Nat
  | [], _ => []
  | n :: ns, offset => offset :: runningOffsets ns (offset + n)

/-- boundary_condition.cpp:67-77 `offset_(iang, iface)`: the table is filled row by row, three entries per angle. -/
def offset (size : List Size3) (iang : Nat) (n : Normal) : Option Nat :=
  (runningOffsets (size.flatMap Size3.toList) 0)[3 * iang + n.toNat]?

/-- boundary_condition.hpp:111-128 `get_face`: (number of values, position of the first); `none` when an assertion
fails. -/
def getFace (b : Store K) (group angle : Nat) (n : Normal) : Option (Nat × Nat) :=
  if angle < b.size.length ∧ group < b.nGroup then
    match b.size[angle]?, offset b.size angle n with
    | some s, some off => some (s.get n, perGroup b.size * group + off)
    | _, _ => none
  else none

/-- boundary_condition.hpp:144-164 `get_boundary`. -/
def getBoundary (b : Store K) (group angle : Nat) : Option (Nat × Nat) :=
  if angle < b.size.length ∧ group < b.nGroup then
    match b.size[angle]?, offset b.size angle .X with
    | some s, some off => some (s.x + s.y + s.z, perGroup b.size * group + off)
    | _, _ => none
  else none

/-- Assignment of `size` values starting at position `lo`. -/
def write (data : Nat → K) (lo size : Nat) (v : Nat → K) : Nat → K :=
  fun p => if lo ≤ p ∧ p < lo + size then v (p - lo) else data p

/-- The store after such an assignment. -/
def Store.put (b : Store K) (lo size : Nat) (v : Nat → K) : Store K := { b with data := write b.data lo size v }

/-- boundary_condition.cpp:155-191 `update(group, angle, out)`: the loop over the normals; `break` on an empty
face ends it. -/
def updateNormals (group angle : Nat) (out : Store K) : List Normal → Store K → Outcome (Store K)
  | [], b => .ok b
  | n :: ns, b =>
    match b.size[angle]?, reflect b.ndirOct angle n with
    | some s, some iangIn =>
      let size := s.get n
      if size = 0 then .ok b
      else
        match b.angles[iangIn]?, offset b.size iangIn n, offset out.size angle n, out.size[iangIn]? with
        | some angleIn, some offIn, some offOut, some so =>
          if size ≠ so.get n then .ub
          else
            let lo := perGroup b.size * group + offIn
            match b.types (upwindSurface angleIn n) with
            | .VACUUM => updateNormals group angle out ns (b.put lo size (fun _ => 0))
            | .REFLECT =>
              updateNormals group angle out ns (b.put lo size (fun i => out.data (offOut + i)))
            | .PRESCRIBED => updateNormals group angle out ns b
            | _ => .throws
        | _, _, _, _ => .ub
    | _, _ => .ub

/-- boundary_condition.cpp:155-191 `update(group, angle, out)`. -/
def updateAngle (group angle : Nat) (out : Store K) (b : Store K) : Outcome (Store K) :=
  updateNormals group angle out [.X, .Y, .Z] b

def updateAngles (group : Nat) (out : Store K) : List Nat → Store K → Outcome (Store K)
  | [], b => .ok b
  | a :: as, b =>
    match updateAngle group a out b with
    | .ok b' => updateAngles group out as b'
    | .throws => .throws
    | .ub => .ub

/-- boundary_condition.cpp:145-153 `update(group, out)`. -/
def update (group : Nat) (out : Store K) (b : Store K) : Outcome (Store K) :=
  if out.nGroup = 1 then updateAngles group out (List.range b.size.length) b else .ub

/-- boundary_condition.cpp:86-131 `initialize_scalar`, one face. `prescribed` stands for `1.0 / FPI * factor_`. -/
def initFace (prescribed val : K) (b : Store K) (group ang : Nat) (n : Normal) : Store K :=
  match b.angles[ang]?, getFace b group ang n with
  | some a, some (cnt, lo) =>
    match b.types (upwindSurface a n) with
    | .VACUUM => b
    | .PRESCRIBED => b.put lo cnt (fun _ => prescribed)
    | .PARALLEL => b.put lo cnt (fun _ => val)
    | .REFLECT => b.put lo cnt (fun _ => val)
    | .PERIODIC => b.put lo cnt (fun _ => val)
    | .INVALID => b
  | _, _ => b

/-- boundary_condition.cpp:86-131 `initialize_scalar`. -/
def initializeScalar (prescribed val : K) (b : Store K) : Store K :=
  (List.range b.nGroup).foldl (fun b group =>
    (List.range b.size.length).foldl (fun b ang =>
      [Normal.X, .Y, .Z].foldl (fun b n => initFace prescribed val b group ang n) b) b)
    { b with data := fun _ => 0 }

/-- boundary_condition.cpp:133-143 `initialize_spectrum`. -/
def initializeSpectrum (spectrum : Nat → K) (b : Store K) : Store K :=
  { b with data := (List.range b.nGroup).foldl (fun d ig =>
      write d (ig * perGroup b.size) (perGroup b.size) (fun _ => spectrum ig)) b.data }

end Verif.BC
