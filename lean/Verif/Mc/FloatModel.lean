import Verif.Fp.RoundModel
import Verif.Scatter.Model
import Verif.XS.CdfModel

/-!
# Distributions of Monte Carlo collisions in floating-point arithmetic

As `Verif.Scatter.Model` and `Verif.XS.CdfModel`, with the result of every operation rounded by `rnd` (`Fp.rnd64` for doubles).  Multiplications and additions are
rounded one by one: fused operations are not modelled.
-/

namespace Verif.Mc

variable {K : Type} [Field K] [LinearOrder K]

/-- scattering_matrix.cpp:107-122: `out_[g]` after the rows `0, ..., n-1`; rows that do not include `g` are passed over. -/
def outF (rnd : K → K) (ng : Nat) (scat : Nat → Nat → K) (g : Nat) : Nat → K
  | 0 => 0
  | n + 1 =>
    let b := Scatter.bounds ng scat n
    if b.1 ≤ g ∧ g ≤ b.2 then rnd (outF rnd ng scat g n + scat n g) else outF rnd ng scat g n

/-- scattering_matrix.hpp:187-203 `out_cdf`. -/
def outCdfF (rnd : K → K) (ng : Nat) (scat : Nat → Nat → K) (g : Nat) : List K :=
  let scale := rnd (1 / outF rnd ng scat g ng)
  ((List.range ng).foldl (fun (acc : List K × K) j =>
    let v := rnd (acc.2 + rnd ((Scatter.build ng scat).xssc g j * scale))
    (acc.1 ++ [v], v)) ([], 0)).1

/-- xs_mesh_region.hpp:103-115 `reaction_cdf` for one group; zero `tr` is a division by zero (`none`). -/
def reactionCdfF (rnd : K → K) (tr out f : K) : Option (List K) :=
  if tr = 0 then none
  else
    let scale := rnd (1 / tr)
    let c0 := rnd (out * scale)
    let c1 := rnd (c0 + rnd (f * scale))
    some [c0, c1, 1]

/-- material.cpp:47-56: the spectrum divided by its sum, if an entry is positive. -/
def normalizeF (rnd : K → K) (chi : List K) : List K :=
  if chi.any fun c => decide (0 < c) then
    let s := chi.foldl (fun s c => rnd (s + c)) 0
    chi.map fun c => rnd (c / s)
  else chi

/-- xs_mesh_region.hpp:125-139 `chi_cdf`. -/
def chiCdfF (rnd : K → K) (chi : List K) : List K :=
  (chi.foldl (fun (acc : List K × K) c => (acc.1 ++ [rnd (acc.2 + c)], rnd (acc.2 + c))) ([], 0)).1

end Verif.Mc
