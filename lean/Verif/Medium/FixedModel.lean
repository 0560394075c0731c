import Verif.Medium.Model

/-!
# The top-level fixed-source solver

`FixedSourceSolver` (src/solvers/fixed_source_solver.cpp) with an explicit `<source>`: the external source instead of a fission source.
-/

namespace Verif.Medium

open Verif.XS Verif.Source

variable {K : Type} [Field K] [LinearOrder K]

/-- fixed_source_solver.cpp:106-117 without a fission source (`fs_` is null, which it stays unless the eigenvalue solver sets it): `n` groups from `g` on;
`none` is a read of the external source out of bounds (C28). -/
def extLoop {σ : Type} (p : Problem K) (w : Sweeper K σ) (ext : Option (Ext K)) : Nat → Nat → σ → Option σ
  | 0, _, s => some s
  | n + 1, g, s => (initializeGroup p.nReg ext g).bind fun a => extLoop p w ext n (g + 1) (w.sweep g (inScatter p.ng p.rs (w.flux s) g a) s)

/-- fixed_source_solver.cpp:78-101 `solve`: the states of `n` steps.  The loop ends at `max_iter` or by the tolerance (C60); `store_old_flux` only serves
the residual. -/
def fixedSteps {σ : Type} (p : Problem K) (w : Sweeper K σ) (ext : Option (Ext K)) : Nat → σ → Option σ
  | 0, s => some s
  | n + 1, s => (extLoop p w ext p.ng 0 s).bind (fixedSteps p w ext n)

end Verif.Medium
