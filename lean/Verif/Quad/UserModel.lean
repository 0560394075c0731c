import Verif.Dir.Model
import Verif.Quad.LevelSymModel

/-!
# Model of user-specified quadratures, of saving and restoring and of assignment

`src/core/geometry/angle.cpp`, `src/core/angular_quadrature_user.cpp`, `src/core/angular_quadrature.cpp`.  Arithmetic is exact over an ordered
field; the functions of the mathematical library and `fp_equiv_ulp` are parameters.
-/

namespace Verif.Quad.User

open Verif.Dir Verif.Quad.LS

variable {K : Type} [Field K] [LinearOrder K]

/-- The attributes of an `<angle>` tag (angle.cpp:28-106); `none` for a missing one.  Attributes that are not numbers are not modelled. -/
structure AngleTag (K : Type) where
  weight : Option K
  ox : Option K
  oy : Option K
  oz : Option K
  alpha : Option K
  theta : Option K

/-- angle.cpp:41-73: a direction given by its cosines; `none` for an exception. -/
def fromCosines (T : Trig K) (sqrt : K → K) (same : K → K → Bool) (t : AngleTag K) (weight : K) : Option (Direction K × K) :=
  if t.alpha.isSome || t.theta.isSome then none
  else
    let ox := t.ox.getD 2
    let oy := t.oy.getD 2
    let oz := t.oz.getD 2
    if ox ≤ -1 ∨ 1 ≤ ox then none
    else if oy ≤ -1 ∨ 1 ≤ oy then none
    else if oz ≤ -1 ∨ 1 ≤ oz then none
    else if same (sqrt (ox * ox + oy * oy + oz * oz)) 1 = false then none
    else some (ofCosines T ox oy oz, weight)

/-- angle.cpp:74-102: a direction given by its angles; a missing polar angle is zero (`as_double()`); `HPI` is half of `PI`. -/
def fromAngles (T : Trig K) (t : AngleTag K) (weight : K) : Option (Direction K × K) :=
  if t.ox.isSome || t.oy.isSome || t.oz.isSome then none
  else
    let hpi := T.pi / 2
    let theta := t.theta.getD 0
    let alpha := t.alpha.getD 0
    if theta ≤ -hpi ∨ hpi ≤ theta then none
    else if alpha < 0 ∨ T.twopi ≤ alpha ∨ alpha = 0 ∨ alpha = hpi ∨ alpha = T.pi ∨ alpha = 3 * hpi then none
    else some (ofAngles T alpha theta, weight)

/-- angle.cpp:28-106, the constructor from a tag; `none` for an exception. -/
def readAngle (T : Trig K) (sqrt : K → K) (same : K → K → Bool) (t : AngleTag K) : Option (Direction K × K) :=
  let weight := t.weight.getD 0
  if weight ≤ 0 then none
  else if t.ox.isSome then fromCosines T sqrt same t weight
  else if t.alpha.isSome then fromAngles T t weight
  else none

/-- angular_quadrature_user.cpp:22-62 `GenUserQuadrature`; `none` for an exception. -/
def genUser (T : Trig K) (sqrt : K → K) (same : K → K → Bool) (tags : List (AngleTag K)) : Option (List (Direction K × K)) :=
  match tags.mapM (readAngle T sqrt same) with
  | none => none
  | some angles =>
    if angles.any (fun a => decide (a.1.ox < 0 ∨ a.1.oy < 0 ∨ a.1.oz < 0)) then none
    else if same (angles.foldl (fun w a => w + a.2) 0) 1 = false then none
    else some angles

/-- angular_quadrature.hpp:28-35 `QuadratureType`. -/
inductive QType
  | LS | CHEB_GAUSS | CHEB_YAMAMOTO | IMPORT | USER
  deriving DecidableEq

/-- The members of `AngularQuadrature` (angular_quadrature.hpp:205-217). -/
structure AngQuad (K : Type) where
  type : QType
  ndirOct : Nat
  angles : List (Direction K × K)
  nPolar : Int
  nAzi : Int

/-- angular_quadrature.cpp:101-113: the angles of the first octant and their images in the others, octant after octant. -/
def expandAll (T : Trig K) (first : List (Direction K × K)) : List (Direction K × K) :=
  first ++ (List.range 7).flatMap fun i : Nat => first.map fun a => (toOctant T a.1 (i + 2), a.2)

/-- angular_quadrature.cpp:59-113: the quadrature made from the angles of the first octant. -/
def construct (T : Trig K) (type : QType) (nAzi nPolar : Int) (first : List (Direction K × K)) : AngQuad K :=
  ⟨type, first.length, expandAll T first, nPolar, nAzi⟩

/-- The group `ang_quad` in an HDF5 file.  Angles may be infinite or not a number (`none`). -/
structure Saved (K : Type) where
  nPolar : Int
  nAzi : Int
  alpha : List (Option K)
  theta : List (Option K)
  ox : List K
  oy : List K
  oz : List K
  weight : List K

/-- angular_quadrature.cpp:213-249 `output`. -/
def output (q : AngQuad K) : Saved K :=
  ⟨q.nPolar, q.nAzi, q.angles.map (·.1.alpha), q.angles.map (·.1.theta), q.angles.map (·.1.ox), q.angles.map (·.1.oy), q.angles.map (·.1.oz),
    q.angles.map (·.2)⟩

/-- angular_quadrature.cpp:147-154, one pass of the loop; `none` for a read past the end of a vector. -/
def restoreAngle (T : Trig K) (s : Saved K) (i : Nat) : Option (Direction K × K) :=
  match s.ox[i]?, s.oy[i]?, s.oz[i]?, s.weight[i]?, s.theta[i]?, s.alpha[i]? with
  | some x, some y, some z, some w, some t, some a => some ({ ofCosines T x y z with theta := t, alpha := a }, w)
  | _, _, _, _, _, _ => none

/-- angular_quadrature.cpp:115-159, the constructor from a file with all datasets. -/
def restore (T : Trig K) (s : Saved K) : Outcome (AngQuad K) :=
  if s.ox.length ≠ s.oy.length ∨ s.ox.length ≠ s.oz.length ∨ s.ox.length ≠ s.weight.length then .throws
  else if s.ox.length % 8 ≠ 0 then .throws
  else
    match (List.range s.ox.length).mapM (restoreAngle T s) with
    | some angles => .ok ⟨.IMPORT, s.ox.length / 8, angles, s.nPolar, s.nAzi⟩
    | none => .ub

/-- angular_quadrature.cpp:161-190 `operator=` between different objects; `none` for an exception.  The result is the object assigned to. -/
def assign (dest src : AngQuad K) : Option (AngQuad K) :=
  if dest.nPolar ≠ src.nPolar ∨ dest.nAzi ≠ src.nAzi then none
  else some ⟨src.type, src.ndirOct, src.angles, src.nPolar, src.nAzi⟩

end Verif.Quad.User
