import Verif.Util.LowerBound
import Mathlib.Algebra.Order.Field.Basic

/-!
# Model of the Monte Carlo reaction and spectrum distributions
(src/core/xs_mesh_region.hpp:103-139, src/util/rng_lcg.hpp:114-120)
-/

namespace Verif.XS

open Verif.Util

variable {K : Type} [Field K] [LinearOrder K]

/-- core/constants.hpp:46 `Reaction`, as positions in the distribution. -/
inductive Reaction
  | SCATTER | FISSION | CAPTURE
  deriving DecidableEq, Repr

def Reaction.toNat : Reaction → Nat
  | SCATTER => 0 | FISSION => 1 | CAPTURE => 2

/-- xs_mesh_region.hpp:103-115 `reaction_cdf` for one group: `out` is the total outscatter, `f` the fission and `tr`
the transport cross section.  A zero `tr` is a division by zero (`none`). -/
def reactionCdf (tr out f : K) : Option (List K) :=
  if tr = 0 then none
  else
    let scale := 1 / tr
    let c0 := out * scale
    let c1 := c0 + f * scale
    some [c0, c1, 1]

/-- xs_mesh_region.hpp:125-139 `chi_cdf`: running sums. -/
def chiCdf (chi : List K) : List K :=
  (chi.foldl (fun (acc : List K × K) c => (acc.1 ++ [acc.2 + c], acc.2 + c)) ([], 0)).1

/-- rng_lcg.hpp:114-120 `sample_cdf` for a drawn number `v`: the position found by `std::lower_bound`, which may be
one past the end. -/
def sampleCdf (cdf : List K) (v : K) : Nat := lowerBound (fun i => cdf[i]?.getD 0) cdf.length v

end Verif.XS
