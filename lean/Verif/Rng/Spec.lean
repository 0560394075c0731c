/-!
# Specification vocabulary for the random number generator

Independent of the model: plain natural-number arithmetic.
-/

namespace Verif.Rng.Spec

/-- The documented generator: `x ↦ (2806196910506780709 x + 1) mod 2^63` (the MCNP/OpenMC 63-bit LCG). -/
def lcg (x : Nat) : Nat := (2806196910506780709 * x + 1) % 9223372036854775808

/-- Two histories with stream positions `[a, a + len)` and `[b, b + len)` use disjoint draws of a stream. -/
def DisjointDraws {α : Type} (drawA drawB : Nat → α) (len : Nat) : Prop :=
  ∀ i j, i < len → j < len → drawA i ≠ drawB j

end Verif.Rng.Spec
