import Verif.Scatter.Model

/-!
# Model of the homogenised cross sections (src/core/xs_mesh_homogenized.cpp:199-363)

A pin is the list of the materials of its cross-section regions with the number of flat source regions each fills
(`mat_ids()`, `n_fsrs`); areas and fluxes are functions of the region index.
-/

namespace Verif.XS

variable {K : Type} [Field K] [LinearOrder K]

/-- core/material: the macroscopic cross sections; `sc dst src` is the dense scattering matrix the material was
read from, stored as `Scatter.build`. -/
structure Mat (K : Type) where
  tr : Nat → K
  nf : Nat → K
  f : Nat → K
  ch : Nat → K
  sc : Nat → Nat → K

/-- `mat.xssc().to(ig)` read at `igg`: only inside the row's bounds. -/
def Mat.scat (m : Mat K) (ng ig igg : Nat) : K := (Scatter.build ng m.sc).xssc igg ig

/-- The loop `for mat_id: for i < n_fsrs(ixsreg): { body; ireg++ }` that all of the functions below share
(e.g. xs_mesh_homogenized.cpp:316-342); the body gets the pin-local region index. -/
def regionFold {M σ : Type} (mats : List (M × Nat)) (body : σ → M → Nat → σ) (s : σ) : σ :=
  (mats.foldl (fun (acc : σ × Nat) m =>
    (List.range m.2).foldl (fun (acc : σ × Nat) _ => (body acc.1 m.1 acc.2, acc.2 + 1)) acc) (s, 0)).1

/-- The accumulators of one group. -/
structure Acc (K : Type) where
  fluxvol : K
  tr : K
  nf : K
  f : K
  ch : K
  scat : Nat → K
  scatsum : Nat → K

def Acc.zero : Acc K := ⟨0, 0, 0, 0, 0, fun _ => 0, fun _ => 0⟩

/-- xs_mesh_homogenized.cpp:286-303: the fission source of each pin-local region, added up group by group. -/
def fissionSource (ng : Nat) (mats : List (Mat K × Nat)) (area : Nat → K) (flux : Nat → Nat → K) : Nat → K :=
  (List.range ng).foldl (fun fs ig =>
    regionFold mats (fun fs m i => Function.update fs i (fs i + m.nf ig * flux i ig * area i)) fs) (fun _ => 0)

/-- xs_mesh_homogenized.cpp:305-308; `n_reg` is the number of regions of the pin mesh. -/
def fsSum (nReg : Nat) (fs : Nat → K) : K := (List.range nReg).foldl (fun s i => s + fs i) 0

/-- xs_mesh_homogenized.cpp:322-337: body of the region loop for group `ig`. -/
def fluxBody (ng : Nat) (area : Nat → K) (flux : Nat → Nat → K) (fs : Nat → K) (ig : Nat) (a : Acc K) (m : Mat K)
    (i : Nat) : Acc K :=
  let v := area i
  let fi := flux i ig
  { fluxvol := a.fluxvol + v * fi
    tr := a.tr + v * fi * m.tr ig
    nf := a.nf + v * fi * m.nf ig
    f := a.f + v * fi * m.f ig
    ch := a.ch + fs i * m.ch ig
    scat := fun igg => a.scat igg + m.scat ng ig igg * v * flux i igg
    scatsum := fun igg => a.scatsum igg + flux i igg * v }

/-- The homogenised data of a region (the argument of `xsr.update`). -/
structure Homog (K : Type) where
  tr : Nat → K
  nf : Nat → K
  f : Nat → K
  ch : Nat → K
  scat : Nat → Nat → K

/-- xs_mesh_homogenized.cpp:310-342 for group `ig`: the accumulated sums.  `flux i g` is `flux(first_reg + i, g)`. -/
def fluxAcc (ng : Nat) (mats : List (Mat K × Nat)) (area : Nat → K) (flux : Nat → Nat → K) (ig : Nat) : Acc K :=
  regionFold mats (fluxBody ng area flux (fissionSource ng mats area flux) ig) Acc.zero

/-- xs_mesh_homogenized.cpp:261-363 `homogenize_region_flux`.  Division by a zero flux integral gives NaN in the
code and an arbitrary value here (zero); the theorems assume it is not zero.  The inner loop over `igg` visits
`igg < ng`; entries above are never used. -/
def homogFlux (ng nReg : Nat) (mats : List (Mat K × Nat)) (area : Nat → K) (flux : Nat → Nat → K) : Homog K :=
  let fs := fissionSource ng mats area flux
  let total := fsSum nReg fs
  let acc := fun ig => fluxAcc ng mats area flux ig
  { tr := fun ig => (acc ig).tr / (acc ig).fluxvol
    nf := fun ig => (acc ig).nf / (acc ig).fluxvol
    f := fun ig => (acc ig).f / (acc ig).fluxvol
    ch := fun ig => if 0 < total then (acc ig).ch / total else (acc ig).ch
    scat := fun ig igg => if 0 < (acc ig).scat igg then (acc ig).scat igg / (acc ig).scatsum igg else (acc ig).scat igg }

/-- xs_mesh_homogenized.cpp:223-237: body of the region loop of the volume-weighted version; `fluxvol` is `farea`. -/
def areaBody (ng : Nat) (area : Nat → K) (ig : Nat) (a : Acc K) (m : Mat K) (i : Nat) : Acc K :=
  let fsrc := (List.range ng).foldl (fun s igg => s + m.nf igg) 0
  { a with
    fluxvol := a.fluxvol + area i * fsrc
    tr := a.tr + area i * m.tr ig
    nf := a.nf + area i * m.nf ig
    f := a.f + area i * m.f ig
    ch := a.ch + area i * fsrc * m.ch ig
    scat := fun igg => a.scat igg + m.scat ng ig igg * area i }

/-- xs_mesh_homogenized.cpp:199-259 `homogenize_region`; `pinArea` is `pin.area()`. -/
def homogArea (ng : Nat) (mats : List (Mat K × Nat)) (area : Nat → K) (pinArea : K) : Homog K :=
  let acc := fun ig => regionFold mats (areaBody ng area ig) Acc.zero
  { tr := fun ig => (acc ig).tr / pinArea
    nf := fun ig => (acc ig).nf / pinArea
    f := fun ig => (acc ig).f / pinArea
    ch := fun ig => if 0 < (acc ig).fluxvol then (acc ig).ch / (acc ig).fluxvol else (acc ig).ch
    scat := fun ig igg => (acc ig).scat igg / pinArea }

end Verif.XS
