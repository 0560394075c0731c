import Verif.Mc.TallyModel
import Verif.Fp.RoundModel

/-!
# Random numbers and tallies in floating-point arithmetic

As `Verif.Mc.TallyModel`, with the result of every operation rounded by `rnd` (`Fp.rnd64` for doubles), operation by operation in the order of the source text.
-/

namespace Verif.Mc

variable {K : Type} [Field K] [LinearOrder K]

/-- rng_lcg.hpp:71-77 `random(ubound)`; `r` is the number of `random()`. -/
def randomBelowF (rnd : K → K) (ub r : K) : K := rnd (r * ub)

/-- rng_lcg.hpp:83-90 `random(lbound, ubound)`. -/
def randomRangeF (rnd : K → K) (lb ub r : K) : K := rnd (lb + rnd (rnd (ub - lb) * r))

/-- rng_lcg.hpp:95-100 `random_int(ubound)`: the product is truncated. -/
def randomIntF [FloorRing K] (rnd : K → K) (n : Nat) (r : K) : ℤ := ⌊rnd (r * (n : K))⌋

/-- direction.hpp:127-132 `Isotropic`: the argument of `std::acos`. -/
def polarCosineF (rnd : K → K) (r : K) : K := rnd (rnd (r * 2) - 1)

/-- tally_scalar.hpp:44-52, 57-61. -/
def Tally.applyF (rnd : K → K) (t : Tally K) : TallyOp K → Tally K
  | .score v => ⟨rnd (t.sum + v), rnd (t.sumSq + rnd (v * v)), t.weight⟩
  | .weight w => ⟨t.sum, t.sumSq, rnd (t.weight + w)⟩

/-- A sequence of calls on a fresh tally. -/
def tallyAfterF (rnd : K → K) (ops : List (TallyOp K)) : Tally K := ops.foldl (Tally.applyF rnd) Tally.zero

/-- tally_scalar.hpp:86: the mean; division by zero is `none`. -/
def Tally.meanF (rnd : K → K) (t : Tally K) : Option K := (fdiv t.sum t.weight).map rnd

/-- tally_scalar.hpp:89-90: the variance of the mean. -/
def Tally.varianceF (rnd : K → K) (t : Tally K) : Option K := do
  let mean ← t.meanF rnd
  let a ← fdiv 1 (rnd (t.weight - 1))
  let b ← fdiv 1 t.weight
  return rnd (rnd a * rnd (rnd (rnd b * t.sumSq) - rnd (mean * mean)))

/-- tally_scalar.hpp:82-93 `get`: a deviation that is not a number is `none`. -/
def Tally.getF (rnd sqrt : K → K) (t : Tally K) : Option K × Option K :=
  (t.meanF rnd, do
    let mean ← t.meanF rnd
    let v ← t.varianceF rnd
    let r ← fsqrt sqrt v
    (fdiv r mean).map rnd)

/-- monte_carlo_eigenvalue_solver.cpp:152-159: what the tally of k receives in the active cycles. -/
def cyclesOps (ks : List K) : List (TallyOp K) := ks.flatMap fun k => [.score k, .weight 1]

end Verif.Mc
