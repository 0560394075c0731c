import Mathlib.Algebra.Field.Basic
import Mathlib.Algebra.Order.Field.Basic
import Mathlib.Algebra.BigOperators.Group.List.Basic

/-!
# Model of the tallies (src/sweepers/mc/tally_scalar.hpp, src/sweepers/mc/tally_spatial.hpp)

Exact arithmetic in an ordered field; `sqrt` is a parameter.  A result that is not a finite number in the C++
(division by zero, square root of a negative number) is `none`.
-/

namespace Verif.Mc

variable {K : Type} [Field K] [LinearOrder K]

/-- tally_scalar.hpp:95-98. -/
structure Tally (K : Type) where
  sum : K
  sumSq : K
  weight : K
deriving DecidableEq, Repr

/-- tally_scalar.hpp:36 (constructor) and 66-76 (`reset`). -/
def Tally.zero : Tally K := ⟨0, 0, 0⟩

/-- The calls a tally receives. -/
inductive TallyOp (K : Type)
  | score (v : K)
  | weight (w : K)

/-- tally_scalar.hpp:44-52 `score` and 57-61 `add_weight`; the additions are atomic. -/
def Tally.apply (t : Tally K) : TallyOp K → Tally K
  | .score v => ⟨t.sum + v, t.sumSq + v * v, t.weight⟩
  | .weight w => ⟨t.sum, t.sumSq, t.weight + w⟩

/-- A sequence of calls on a fresh tally. -/
def tallyAfter (ops : List (TallyOp K)) : Tally K := ops.foldl Tally.apply Tally.zero

/-- `a / b`, which is not a finite number for `b = 0`. -/
def fdiv (a b : K) : Option K := if b = 0 then none else some (a / b)

/-- `std::sqrt`, which is not a number for negative arguments. -/
def fsqrt (sqrt : K → K) (a : K) : Option K := if a < 0 then none else some (sqrt a)

/-- tally_scalar.hpp:89-90: the variance of the mean. -/
def Tally.variance (t : Tally K) : Option K := do
  let mean ← fdiv t.sum t.weight
  let a ← fdiv 1 (t.weight - 1)
  let b ← fdiv 1 t.weight
  return a * (b * t.sumSq - mean * mean)

/-- tally_scalar.hpp:82-93 `get`: the pair (mean, relative deviation). -/
def Tally.get (sqrt : K → K) (t : Tally K) : Option K × Option K :=
  (fdiv t.sum t.weight, do
    let mean ← fdiv t.sum t.weight
    let v ← t.variance
    let r ← fsqrt sqrt v
    fdiv r mean)

/-- tally_spatial.hpp:141-148, without the normalisation (an argument of `get`). -/
structure Spatial (K : Type) where
  first : Nat → K
  second : Nat → K
  scores : Nat → K
  weight : K
  n : Nat

/-- tally_spatial.hpp:46-55 (constructor) and 100-114 (`reset`). -/
def Spatial.zero : Spatial K := ⟨fun _ => 0, fun _ => 0, fun _ => 0, 0, 0⟩

/-- tally_spatial.hpp:60-66 `score` (atomic). -/
def Spatial.score (t : Spatial K) (i : Nat) (v : K) : Spatial K :=
  { t with scores := fun j => if j = i then t.scores j + v else t.scores j }

/-- tally_spatial.hpp:90-95 `add_weight` (atomic). -/
def Spatial.addWeight (t : Spatial K) (w : K) : Spatial K := { t with weight := t.weight + w }

/-- tally_spatial.hpp:71-85 `commit_realization`.  A zero weight (infinite or undefined values in the C++) is excluded
by the theorems. -/
def Spatial.commit (t : Spatial K) : Spatial K :=
  ⟨fun i => t.first i + t.scores i * (1 / t.weight),
   fun i => t.second i + (t.scores i * (1 / t.weight)) * (t.scores i * (1 / t.weight)), fun _ => 0, 0, t.n + 1⟩

/-- The calls a spatial tally receives within a realisation. -/
inductive SpatialOp (K : Type)
  | score (i : Nat) (v : K)
  | weight (w : K)

def Spatial.apply (t : Spatial K) : SpatialOp K → Spatial K
  | .score i v => t.score i v
  | .weight w => t.addWeight w

/-- A realisation: scores and weights in some order, then `commit_realization`. -/
def Spatial.realise (t : Spatial K) (ops : List (SpatialOp K)) : Spatial K := (ops.foldl Spatial.apply t).commit

/-- A sequence of realisations on a fresh tally. -/
def spatialAfter (rs : List (List (SpatialOp K))) : Spatial K := rs.foldl Spatial.realise Spatial.zero

/-- tally_spatial.hpp:120-139 `get` for region `i` with normalisation `norm`. -/
def Spatial.get (sqrt : K → K) (t : Spatial K) (norm : K) (i : Nat) : Option K × Option K :=
  (do let rn ← fdiv 1 norm
      let mean ← fdiv (t.first i) (t.n : K)
      return mean * rn,
   do let rn ← fdiv 1 norm
      let mean ← fdiv (t.first i) (t.n : K)
      let som ← fdiv (t.first i * t.first i) ((t.n : K) * ((t.n : K) - 1))
      let mos ← fdiv (t.second i) ((t.n : K) - 1)
      let r ← fsqrt sqrt ((mos - som) * rn)
      fdiv r (mean * rn))

end Verif.Mc
