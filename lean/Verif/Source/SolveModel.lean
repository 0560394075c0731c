import Verif.Source.PairModel
import Verif.Solver.Model

/-!
# The eigenvalue solver from input flux to the end of the iterations (src/solvers/eigen_solver.cpp)

Joins `Verif.Source.Model` (one outer iteration), `Verif.Source.PairModel` (the error of the fission source) and `Verif.Solver.Model` (the loop).  Exact arithmetic, no CMFD.
-/

namespace Verif.Source

open Verif.XS

variable {K : Type} [Field K] [LinearOrder K]

/-- eigen_solver.cpp:95-109: the number of fissile regions, counted when the solver is constructed. -/
def nFissile (ng : Nat) (rs : List (XsRegion (Mat K))) : Nat :=
  rs.foldl (fun n x => if (List.range ng).any (fun ig => decide (0 < x.mat.nf ig)) then n + x.regs.length else n) 0

/-- The fission source as an array (eigen_solver.cpp:40-41, transport_sweeper.cpp:119-134). -/
def fsArray (ng nReg : Nat) (rs : List (XsRegion (Mat K))) (k : K) (flux : Nat → Nat → K) : List K := (List.range nReg).map (calcFissionSource ng rs k flux)

/-- eigen_solver.cpp:166-184, 225-253: one pass of the loop up to the check; what the check sees, and the eigenvalue and flux afterwards.  An eigenvalue `none` is infinite: the total fission was
zero before a step and not after it; its reciprocal is zero, and so is the fission source.  `0 / 0` and the product of zero and an infinite eigenvalue are not a number.  `errPsi` is the
square of `error_psi_`; errors that are infinite or not a number are `none`. -/
def outerPass (ng nReg : Nat) (rs : List (XsRegion (Mat K))) (vol : Nat → K) (sweep : (Nat → K) → (Nat → Nat → K) → (Nat → Nat → K)) (k : Option K) (flux : Nat → Nat → K) :
    Solver.Iter K × Option K × (Nat → Nat → K) :=
  match k with
  | none =>
    let flux' := sweep (fun _ => 0) flux
    (⟨none, none, decide (totalFission ng rs vol flux' = 0)⟩, none, flux')
  | some k =>
    let r := eigenStep ng rs vol sweep k flux
    if totalFission ng rs vol flux = 0 then (⟨none, none, decide (k * totalFission ng rs vol r.2.1 = 0)⟩, none, r.2.1)
    else (⟨some |r.1 - k|, errorSq nReg (nFissile ng rs) (fsArray ng nReg rs r.1 r.2.1) (fsArray ng nReg rs k flux), false⟩, some r.1, r.2.1)

/-- Eigenvalue and flux before iteration `n`, started with eigenvalue one (eigen_solver.cpp:142); `sweeps n` is the fixed-source step of iteration `n`. -/
def stateAt (ng nReg : Nat) (rs : List (XsRegion (Mat K))) (vol : Nat → K) (sweeps : Nat → (Nat → K) → (Nat → Nat → K) → (Nat → Nat → K)) (flux : Nat → Nat → K) :
    Nat → Option K × (Nat → Nat → K)
  | 0 => (some 1, flux)
  | n + 1 =>
    let s := stateAt ng nReg rs vol sweeps flux n
    (outerPass ng nReg rs vol (sweeps n) s.1 s.2).2

/-- eigen_solver.cpp:131-223 `solve`.  The tolerance of the fission source is squared like its error (`std::sqrt` is monotone and tolerances are positive, 54-66). -/
def solveAll (ng nReg : Nat) (rs : List (XsRegion (Mat K))) (vol : Nat → K) (s : Solver.Settings K) (requested : List Int)
    (sweeps : Nat → (Nat → K) → (Nat → Nat → K) → (Nat → Nat → K)) (flux : Nat → Nat → K) : Solver.Run :=
  Solver.eigenSolve { s with tolPsi := s.tolPsi * s.tolPsi } requested fun n =>
    let b := stateAt ng nReg rs vol sweeps flux n
    (outerPass ng nReg rs vol (sweeps n) b.1 b.2).1

end Verif.Source
