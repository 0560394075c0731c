import Verif.Core.ExpModel
import Verif.Fp.RoundModel
import Verif.Moc.KernelModel

/-!
# The MoC sweep in floating-point arithmetic

As `Verif.Core.ExpModel` and `Verif.Moc.KernelModel`, with the result of every operation rounded by `rnd` (`Fp.rnd64` for doubles).  Operations are rounded one by one
in the order of the source text: fused operations and reordering are not modelled (the build files ask for neither).
-/

namespace Verif.Moc

open Verif.Core

section

variable {K : Type} [Field K] [LinearOrder K] [IsStrictOrderedRing K] [FloorRing K]

/-- exponential.hpp:58-67: the constructor; `e` is `std::exp`. -/
def expTableF (rnd e : K → K) (N : Nat) (min max : K) : ExpTable K :=
  let space := rnd (rnd (max - min) / (N : K))
  { min := min, max := max, space := space, rspace := rnd (1 / space),
    d := (List.range (N + 1)).map fun i : Nat => e (rnd (min + rnd ((i : K) * space))) }

/-- exponential.hpp:76-78: index and interpolation; reading outside the array is undefined (`none`). -/
def expInterpF (rnd : K → K) (t : ExpTable K) (v : K) : Option K :=
  let i := truncInt (rnd (rnd (v - t.min) * t.rspace))
  if i < 0 then none
  else
    let w := rnd (v - rnd (rnd (t.space * (i : K)) + t.min))
    match t.d[i.toNat]?, t.d[i.toNat + 1]? with
    | some a, some b => some (rnd (a + rnd (rnd (rnd (b - a) * w) * t.rspace)))
    | _, _ => none

/-- exponential.hpp:69-79 `Exponential_Linear::exp`. -/
def expLinearF (rnd e : K → K) (t : ExpTable K) (v : K) : Option K :=
  if v < t.min ∨ v > t.max then some (e v) else expInterpF rnd t v

end

variable {K : Type} [Field K]

/-- moc_sweeper_kernel.inc.hpp:94-99. -/
def eTauF (rnd expo : K → K) (xstr : Nat → K) (rst : K) (first : Nat) (s : Seg K) : K :=
  rnd (1 - expo (rnd (rnd (-xstr (s.reg + first) * s.len) * rst)))

/-- moc_sweeper_kernel.inc.hpp:106-114, 121-129. -/
def walkF (rnd : K → K) (e : Seg K → K) (q : Nat → K) (wt : K) (first : Nat) : List (Seg K) → K → (Nat → K) → K × (Nat → K)
  | [], psi, t => (psi, t)
  | s :: ss, psi, t =>
    let ireg := s.reg + first
    let diff := rnd (rnd (psi - q ireg) * e s)
    walkF rnd e q wt first ss (rnd (psi - diff)) (upd t ireg (rnd (t ireg + rnd (diff * wt))))

/-- moc_sweeper_kernel.inc.hpp:87-133. -/
def sweepRayF (rnd : K → K) (e : Seg K → K) (q : Nat → K) (wt : K) (first : Nat) (in1 in2 : Nat → K) (a : Acc K) (r : Ray K) : Acc K :=
  let f := walkF rnd e q wt first r.segs (in1 r.bc0) a.tflux
  let b := walkF rnd e q wt first r.segs.reverse (in2 r.bc1) f.2
  { tflux := b.2, out1 := upd a.out1 r.bc1 f.1, out2 := upd a.out2 r.bc0 b.1 }

/-- moc_sweeper_kernel.inc.hpp:59-145. -/
def sweepAngleF (rnd expo : K → K) (xstr q : Nat → K) (gs : Bool) (u : BcUpdate K) (first : Nat) (s : St K) (w : AngleWork K) : St K :=
  let a := w.rays.foldl (sweepRayF rnd (eTauF rnd expo xstr w.rst first) q w.wt first (s.bin w.iang1) (s.bin w.iang2)) ⟨s.tflux, s.bout w.iang1, s.bout w.iang2⟩
  let bout := upd (upd s.bout w.iang1 a.out1) w.iang2 a.out2
  { tflux := a.tflux
    bin := if gs then u.one w.iang2 (u.one w.iang1 s.bin bout) bout else s.bin
    bout := bout }

/-- moc_sweeper_kernel.inc.hpp:51-153. -/
def sweepPlaneF (rnd expo : K → K) (xstr q : Nat → K) (gs : Bool) (u : BcUpdate K) (p : PlaneWork K) (s : St K) : St K :=
  let s := p.angles.foldl (sweepAngleF rnd expo xstr q gs u p.first) s
  { s with bin := if gs then s.bin else u.all s.bin s.bout }

/-- moc_sweeper_kernel.inc.hpp:51-162. -/
def sweepPlanesF (rnd expo : K → K) (xstr q : Nat → K) (gs : Bool) (u : BcUpdate K) :
    List (PlaneWork K × (Nat → Nat → K) × (Nat → Nat → K)) → (Nat → K) → (Nat → K) × List ((Nat → Nat → K) × (Nat → Nat → K))
  | [], t => (t, [])
  | (p, bin, bout) :: ps, t =>
    let s := sweepPlaneF rnd expo xstr q gs u p ⟨t, bin, bout⟩
    let r := sweepPlanesF rnd expo xstr q gs u ps s.tflux
    (r.1, (s.bin, s.bout) :: r.2)

/-- moc_sweeper_kernel.inc.hpp:163-173. -/
def finishF (rnd : K → K) (fpi : K) (xstr vol q : Nat → K) (t : Nat → K) : Nat → K := fun i =>
  rnd (rnd (rnd (0 + t i) / rnd (xstr i * vol i)) + rnd (q i * fpi))

/-- moc_sweeper_kernel.inc.hpp:38-180: the sweep of one group on one thread. -/
def sweep1gF (rnd expo : K → K) (fpi : K) (xstr vol q : Nat → K) (gs : Bool) (u : BcUpdate K)
    (ps : List (PlaneWork K × (Nat → Nat → K) × (Nat → Nat → K))) : (Nat → K) × List ((Nat → Nat → K) × (Nat → Nat → K)) :=
  let r := sweepPlanesF rnd expo xstr q gs u ps (fun _ => 0)
  (finishF rnd fpi xstr vol q r.1, r.2)

end Verif.Moc
