import Verif.XS.HomogModel
import Verif.Fp.RoundModel

/-!
# Model of the homogenised cross sections in floating point (src/core/xs_mesh_homogenized.cpp:199-363)

The functions of `Verif.XS.HomogModel` with every operation rounded by `rnd` in the order of the source text (products from the left; `+=` adds the rounded product).
A quotient with a zero divisor (NaN or an infinity in the code) is the outcome `none`.  No contraction to fused operations; results beyond the largest double are not
infinities here.
-/

namespace Verif.XS

variable {K : Type} [Field K] [LinearOrder K]

/-- Rounded quotient; `none` when the divisor is zero. -/
def quotF (rnd : K → K) (a b : K) : Option K := if b = 0 then none else some (rnd (a / b))

/-- xs_mesh_homogenized.cpp:319-321 and 333: `igg >= gmin && igg <= gmax` for row `ig` of the material's scattering matrix. -/
def Mat.inBand (m : Mat K) (ng ig igg : Nat) : Bool :=
  match (Scatter.build ng m.sc).rows[ig]? with
  | some r => decide (r.minG ≤ igg) && decide (igg ≤ r.maxG)
  | none => false

/-- xs_mesh_homogenized.cpp:286-303: the fission source of each pin-local region. -/
def fissionSourceF (rnd : K → K) (ng : Nat) (mats : List (Mat K × Nat)) (area : Nat → K) (flux : Nat → Nat → K) : Nat → K :=
  (List.range ng).foldl (fun fs ig =>
    regionFold mats (fun fs m i => Function.update fs i (rnd (fs i + rnd (rnd (m.nf ig * flux i ig) * area i)))) fs) (fun _ => 0)

/-- xs_mesh_homogenized.cpp:305-308. -/
def fsSumF (rnd : K → K) (nReg : Nat) (fs : Nat → K) : K := (List.range nReg).foldl (fun s i => rnd (s + fs i)) 0

/-- xs_mesh_homogenized.cpp:322-341: body of the region loop for group `ig`. -/
def fluxBodyF (rnd : K → K) (ng : Nat) (area : Nat → K) (flux : Nat → Nat → K) (fs : Nat → K) (ig : Nat) (a : Acc K) (m : Mat K) (i : Nat) : Acc K :=
  let v := area i
  let fi := flux i ig
  { fluxvol := rnd (a.fluxvol + rnd (v * fi))
    tr := rnd (a.tr + rnd (rnd (v * fi) * m.tr ig))
    nf := rnd (a.nf + rnd (rnd (v * fi) * m.nf ig))
    f := rnd (a.f + rnd (rnd (v * fi) * m.f ig))
    ch := rnd (a.ch + rnd (fs i * m.ch ig))
    scat := fun igg => if m.inBand ng ig igg then rnd (a.scat igg + rnd (rnd (m.scat ng ig igg * v) * flux i igg)) else a.scat igg
    scatsum := fun igg => rnd (a.scatsum igg + rnd (flux i igg * v)) }

/-- xs_mesh_homogenized.cpp:310-342 for group `ig`: the accumulated sums. -/
def fluxAccF (rnd : K → K) (ng : Nat) (mats : List (Mat K × Nat)) (area : Nat → K) (flux : Nat → Nat → K) (ig : Nat) : Acc K :=
  regionFold mats (fluxBodyF rnd ng area flux (fissionSourceF rnd ng mats area flux) ig) Acc.zero

/-- xs_mesh_homogenized.cpp:261-363 `homogenize_region_flux`: only the quotients of scattering and spectrum are guarded. -/
def homogFluxF (rnd : K → K) (ng nReg : Nat) (mats : List (Mat K × Nat)) (area : Nat → K) (flux : Nat → Nat → K) : Homog (Option K) :=
  let total := fsSumF rnd nReg (fissionSourceF rnd ng mats area flux)
  let acc := fun ig => fluxAccF rnd ng mats area flux ig
  { tr := fun ig => quotF rnd (acc ig).tr (acc ig).fluxvol
    nf := fun ig => quotF rnd (acc ig).nf (acc ig).fluxvol
    f := fun ig => quotF rnd (acc ig).f (acc ig).fluxvol
    ch := fun ig => if 0 < total then quotF rnd (acc ig).ch total else some (acc ig).ch
    scat := fun ig igg => if 0 < (acc ig).scat igg then quotF rnd ((acc ig).scat igg) ((acc ig).scatsum igg) else some ((acc ig).scat igg) }

/-- xs_mesh_region.hpp:153-165 `update`, line 161: the removal cross section of group `g`, from the homogenised table. -/
def Homog.removalF (rnd : K → K) (o : Homog (Option K)) (g : Nat) : Option K := do
  let t ← o.tr g
  let s ← o.scat g g
  some (rnd (t - s))

end Verif.XS
