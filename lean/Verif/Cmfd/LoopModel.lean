import Mathlib.Algebra.BigOperators.Group.Finset.Basic
import Mathlib.Algebra.Order.Field.Basic

/-!
# Model of the CMFD power iteration (src/core/cmfd.cpp:171-277, 299-331)

`K` stands for `real_t` in exact arithmetic.  The solution of the linear systems (Eigen's BiCGSTAB) is a parameter: it
takes the fission source and the flux to a new flux and the residual norm.  Every cell belongs to exactly one cross
section region, so the loops over regions are written as loops over cells.
-/

namespace Verif.Cmfd

variable {K : Type} [Field K] [LinearOrder K]

/-- Flux by cell and group. -/
abbrev Flux (K : Type) := Nat → Nat → K

/-- Sizes, fission cross sections, tolerances and solver. -/
structure Problem (K : Type) where
  nCell : Nat
  nGroup : Nat
  nf : Nat → Nat → K
  kTol : K
  psiTol : K
  residRed : K
  maxIter : Nat
  sqrt : K → K
  solve : (Nat → K) → Flux K → Flux K × K

/-- cmfd.cpp:301-317 `fission_source`. -/
def Problem.fissionSource (p : Problem K) (flux : Flux K) (k : K) (i : Nat) : K :=
  (∑ g ∈ Finset.range p.nGroup, p.nf i g * flux i g) * (1 / k)

/-- cmfd.cpp:319-331 `total_fission`: no cell volumes. -/
def Problem.totalFission (p : Problem K) (flux : Flux K) : K :=
  ∑ i ∈ Finset.range p.nCell, ∑ g ∈ Finset.range p.nGroup, p.nf i g * flux i g

/-- Variables of the loop; `iter` counts completed iterations. -/
structure LoopState (K : Type) where
  iter : Nat
  k : K
  kOld : K
  flux : Flux K
  fs : Nat → K
  psiErr : K
  ri : K
  tfis : K

/-- cmfd.cpp:216-243: one iteration. -/
def Problem.iteration (p : Problem K) (s : LoopState K) : LoopState K :=
  let fs := p.fissionSource s.flux s.k
  let r := p.solve fs s.flux
  let tfis := p.totalFission r.1
  { iter := s.iter + 1, k := s.k * tfis / s.tfis, kOld := s.k, flux := r.1, fs := fs,
    psiErr := p.sqrt (∑ i ∈ Finset.range p.nCell, (fs i - s.fs i) * (fs i - s.fs i)), ri := r.2, tfis := tfis }

/-- cmfd.cpp:245-246.  With an initial residual of zero the quotient is not a number or infinite, and the comparison is false. -/
def Problem.converged (p : Problem K) (r0 : K) (s : LoopState K) : Bool :=
  decide (|s.k - s.kOld| < p.kTol) && decide (s.psiErr < p.psiTol) && decide (r0 ≠ 0 ∧ s.ri / r0 < p.residRed)

/-- cmfd.cpp:215-254: the loop; `left` is `max_iter_` minus the completed iterations, so that `iter > max_iter_` holds
after an iteration made with `left = 0`. -/
def Problem.loop (p : Problem K) (r0 : K) : Nat → LoopState K → LoopState K
  | 0, s => p.iteration s
  | left + 1, s => if p.converged r0 (p.iteration s) then p.iteration s else p.loop r0 left (p.iteration s)

/-- cmfd.cpp:176-184: negative fluxes set to zero before the solve. -/
def zeroFix (fix : Bool) (flux : Flux K) : Flux K := fun i g => if fix then max (flux i g) 0 else flux i g

/-- cmfd.cpp:259-265: negative fluxes change sign after the solve. -/
def flip (flux : Flux K) : Flux K := fun i g => if flux i g < 0 then -(flux i g) else flux i g

/-- cmfd.cpp:194-214: state before the first iteration. -/
def Problem.start (p : Problem K) (k : K) (flux : Flux K) : LoopState K :=
  { iter := 0, k := k, kOld := k, flux := flux, fs := p.fissionSource flux k, psiErr := 1, ri := 0,
    tfis := p.totalFission flux }

/-- cmfd.cpp:171-277 `CMFD::solve`: state after the loop, and the flux left in the coarse data.  `r0` is the initial
residual. -/
def Problem.run (p : Problem K) (r0 : K) (fix : Bool) (k : K) (flux : Flux K) : LoopState K × Flux K :=
  let s := p.loop r0 p.maxIter (p.start k (zeroFix fix flux))
  (s, flip s.flux)

end Verif.Cmfd
