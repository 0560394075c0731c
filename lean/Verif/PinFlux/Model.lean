import Mathlib.Algebra.Order.Field.Basic

/-!
# Model of getting and setting the pin flux

src/sweepers/moc/moc_sweeper.cpp:293-433 and src/sweepers/sn/sn_sweeper.hpp:47-83, 101-150.

`K` stands for `real_t` in exact arithmetic.  One group is modelled (the group index is passed through by the code).
The nested loops over macroplanes and pins are flattened to the list of visited pins.  The square root of the returned
residual is left out: the sum of squares is returned.
-/

namespace Verif.PinFlux

variable {K : Type} [Field K] [LinearOrder K]

/-- A pin of a macroplane: in-plane coarse cell `x + nx * y` of `mesh_.pin_position(ipin)`, region areas
(`pin->areas()`), and `pin->area()`. -/
structure Pin (K : Type) where
  cell : Nat
  areas : List K
  area : K

/-- macroplane.hpp / core_mesh.cpp: planes `izMin..izMax`, height, pins in order. -/
structure MacroPlane (K : Type) where
  izMin : Nat
  izMax : Nat
  height : K
  pins : List (Pin K)

/-- One iteration of the pin loop: index of the macroplane, the macroplane, the pin, and `ireg` on entry. -/
structure Visit (K : Type) where
  iz : Nat
  plane : MacroPlane K
  pin : Pin K
  ireg : Nat

/-- moc_sweeper.cpp:305-307 (and 330-332, 400-402): the pins of one macroplane. -/
def planeVisits (iz : Nat) (mp : MacroPlane K) : List (Pin K) → Nat → List (Visit K)
  | [], _ => []
  | p :: ps, ireg => ⟨iz, mp, p, ireg⟩ :: planeVisits iz mp ps (ireg + p.areas.length)

/-- moc_sweeper.cpp:303-326 (and 329-352, 398-425): all pins in order, with the running region index. -/
def visits : List (MacroPlane K) → Nat → Nat → List (Visit K)
  | [], _, _ => []
  | mp :: mps, iz, ireg =>
    planeVisits iz mp mp.pins ireg ++ visits mps (iz + 1) (ireg + (mp.pins.map (·.areas.length)).sum)

/-- Sum of flux times weight over consecutive regions starting at `ireg`. -/
def dot (flux : Nat → K) : Nat → List K → K
  | _, [] => 0
  | ireg, a :: as => flux ireg * a + dot flux (ireg + 1) as

/-- `a(i) = v`. -/
def put (a : Nat → K) (i : Nat) (v : K) : Nat → K := fun j => if j = i then v else a j

/-- moc_sweeper.cpp:308-315: volume-weighted average over the regions of a pin.  `vol_` holds area times macroplane
height (core_mesh.hpp:355-377 with treatment PLANE). -/
def pinAverage (flux : Nat → K) (v : Visit K) : K :=
  let vols := v.pin.areas.map (· * v.plane.height)
  dot flux v.ireg vols / vols.sum

/-- moc_sweeper.cpp:293-326 `get_pin_flux_1g` for PIN_PLANE; `n2 = nx * ny`. -/
def getPlane (n2 : Nat) (ps : List (MacroPlane K)) (flux : Nat → K) : Nat → K :=
  (visits ps 0 0).foldl (fun a v => put a (v.pin.cell + n2 * v.iz) (a (v.pin.cell + n2 * v.iz) + pinAverage flux v))
    fun _ => 0

/-- The planes of a macroplane (`for iz = iz_min; iz <= iz_max`). -/
def planesOf (mp : MacroPlane K) : List Nat := (List.range (mp.izMax + 1 - mp.izMin)).map (mp.izMin + ·)

/-- moc_sweeper.cpp:293-300, 328-352 `get_pin_flux_1g` for PIN. -/
def getPin (n2 : Nat) (ps : List (MacroPlane K)) (flux : Nat → K) : Nat → K :=
  (visits ps 0 0).foldl (fun a v => (planesOf v.plane).foldl
    (fun a iz => put a (v.pin.cell + n2 * iz) (a (v.pin.cell + n2 * iz) + pinAverage flux v)) a) fun _ => 0

/-- moc_sweeper.cpp:403-422: one pin; state is the flux and the sum of squared errors. -/
def setStep (n2 : Nat) (planePinFlux : Nat → K) (st : (Nat → K) × K) (v : Visit K) : (Nat → K) × K :=
  let t := planePinFlux (v.pin.cell + n2 * v.iz)
  let fm := dot st.1 v.ireg v.pin.areas / v.pin.area
  let e := t - fm
  let f := t / fm
  (fun i => if v.ireg ≤ i ∧ i < v.ireg + v.pin.areas.length then st.1 i * f else st.1 i, st.2 + e * e)

inductive Treatment | pin | pinPlane
  deriving DecidableEq

/-- moc_sweeper.cpp:383-395: the flux homogenised to the macroplanes (`moc_plane_index(iz)` is `mplane iz`). -/
def homogenise (n2 nz : Nat) (dz : Nat → K) (mplane : Nat → Nat) (heights : Nat → K) (pinFlux : Nat → K) : Nat → K :=
  let s := (List.range (n2 * nz)).foldl
    (fun a i => put a (i % n2 + n2 * mplane (i / n2)) (a (i % n2 + n2 * mplane (i / n2)) + pinFlux i * dz (i / n2)))
    fun _ => 0
  fun i => s i / heights (i / n2)

/-- `a = b` for blitz arrays: the previous content of `a` is lost. -/
def assign (_a b : Nat → K) : Nat → K := b

/-- moc_sweeper.cpp:360-433 `set_pin_flux_1g`.  `n` is the size of the argument; a value that is not positive throws
(`none`).  The PIN case computes the homogenised flux and falls through to `plane_pin_flux = pin_flux`, which
overwrites it; blitz assignment to the smaller array takes the leading elements. -/
def setPin (n2 nz n : Nat) (dz : Nat → K) (mplane : Nat → Nat) (heights : Nat → K) (ps : List (MacroPlane K))
    (flux pinFlux : Nat → K) (t : Treatment) : Option ((Nat → K) × K) :=
  if (List.range n).all fun i => decide (0 < pinFlux i) then
    let planePinFlux : Nat → K := match t with
      | .pin => homogenise n2 nz dz mplane heights pinFlux
      | .pinPlane => fun _ => 0
    let planePinFlux := assign planePinFlux pinFlux
    some ((visits ps 0 0).foldl (setStep n2 planePinFlux) (flux, 0))
  else none

/-! ### Sn -/

/-- sn_sweeper.hpp:47-83 `get_pin_flux_1g` for PIN_PLANE: entry `c + n2 * k` for macroplane `k`. -/
def snGetPlane (n2 : Nat) (dz : Nat → K) (ps : List (MacroPlane K)) (flux : Nat → K) : Nat → K := fun i =>
  match ps[i / n2]? with
  | none => 0
  | some mp => ((planesOf mp).map fun iz => flux (i % n2 + n2 * iz) * dz iz).sum / mp.height

/-- sn_sweeper.hpp:101-118 `set_pin_flux_1g` for PIN on `n` regions: the flux and the sum of squared errors.  The
error is taken against `flux_(1, group)`; with a single region that element does not exist and reading it is
undefined (`none`). -/
def snSetPin (n : Nat) (flux pinFlux : Nat → K) : Option ((Nat → K) × K) :=
  if n = 0 then some (flux, 0)
  else if n = 1 then none
  else some ((List.range n).foldl
    (fun st i => (put st.1 i (pinFlux i), st.2 + (st.1 1 - pinFlux i) * (st.1 1 - pinFlux i))) (flux, 0))

/-- sn_sweeper.hpp:101-109, 119-143 `set_pin_flux_1g` for PIN_PLANE: planes of macroplane `k` are divided by the ratio of old to
new macroplane flux.  The residual stays 0. -/
def snSetPlane (n2 : Nat) (dz : Nat → K) (ps : List (MacroPlane K)) (flux pinFlux : Nat → K) : (Nat → K) × K :=
  let ratio : Nat → K := fun i => snGetPlane n2 dz ps flux i / pinFlux i
  ((List.range ps.length).foldl (fun fl k =>
    match ps[k]? with
    | none => fl
    | some mp => (planesOf mp).foldl
        (fun fl iz => fun i => if n2 * iz ≤ i ∧ i < n2 * (iz + 1) then fl i / ratio (i % n2 + n2 * k) else fl i) fl)
    flux, 0)

end Verif.PinFlux
