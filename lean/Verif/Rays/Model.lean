import Mathlib.Algebra.Order.Floor.Ring
import Mathlib.Algebra.Order.Field.Basic

/-!
# Model of the modular ray layout (src/sweepers/moc/ray_data.cpp, src/core/geometry/box.cpp)

`K` stands for `real_t` in exact arithmetic.  An angle is given by `cos alpha` and `sin alpha` (both used by
`Box::intersect` and by the spacings).  Division by a zero cosine or sine (IEEE infinities) is not modelled: the
theorems assume both nonzero.  The segments of a ray (`Ray::Ray`) are not part of this model.
-/

namespace Verif.Rays

variable {K : Type} [Field K] [LinearOrder K] [FloorRing K]

/-- points.hpp:28-60 `Point2` (coordinates only; the flag `ok` is the `Option` in `intersect`). -/
structure Pt (K : Type) where
  x : K
  y : K
  deriving DecidableEq, Repr

/-- box.cpp:56-61 (and the three copies at 66-71, 77-82, 87-92): accept a candidate point at distance `d` if it is not the start,
is nearer than the best so far, and lies strictly within the side. -/
def consider (fuzz : K) (best : K × Option (Pt K)) (d : K) (inside : Bool) (q : Pt K) : K × Option (Pt K) :=
  if fuzz < |d| ∧ d < best.1 ∧ inside = true then (|d|, some q) else best

/-- box.cpp:39-95 `Box::intersect` for the box from the origin to `(hx, hy)`; `far` is the literal 1.0e12 and `fuzz`
is `REAL_FUZZ`.  `none` is a point with `ok = false` (its coordinates are never set). -/
def intersect (fuzz far hx hy : K) (p : Pt K) (ox oy : K) : Option (Pt K) :=
  let d1 := (0 - p.x) / ox
  let y1 := p.y + oy * d1
  let b1 := consider fuzz (far, none) d1 (decide (0 < y1) && decide (y1 < hy)) ⟨0, y1⟩
  let d2 := (hx - p.x) / ox
  let y2 := p.y + oy * d2
  let b2 := consider fuzz b1 d2 (decide (0 < y2) && decide (y2 < hy)) ⟨hx, y2⟩
  let d3 := (0 - p.y) / oy
  let x3 := p.x + ox * d3
  let b3 := consider fuzz b2 d3 (decide (0 < x3) && decide (x3 < hx)) ⟨x3, 0⟩
  let d4 := (hy - p.y) / oy
  let x4 := p.x + ox * d4
  let b4 := consider fuzz b3 d4 (decide (0 < x4) && decide (x4 < hx)) ⟨x4, hy⟩
  b4.2

/-- Conversion of a floating-point value to `int` (truncation toward zero). -/
def trunc (x : K) : Int := if 0 ≤ x then ⌊x⌋ else ⌈x⌉

/-- What the rays need to know about the mesh, the machine constants and `fp_equiv`. -/
structure Env (K : Type) where
  hx : K
  hy : K
  fuzz : K
  far : K
  near : K → K → Bool

/-- One traced ray: its ends and its boundary slots. -/
structure Traced (K : Type) where
  p1 : Pt K
  p2 : Pt K
  bc0 : Int
  bc1 : Int
  deriving DecidableEq, Repr

/-- ray_data.cpp:254-267 (and 284-297): boundary slot of the end of a ray; `none` is the exception. -/
def exitSlot (e : Env K) (sx sy : K) (Ny : Nat) (p2 : Pt K) : Option Int :=
  if e.near p2.x e.hx then some (trunc (p2.y / sy))
  else if e.near p2.y e.hy then some (trunc (p2.x / sx + Ny))
  else if e.near p2.x 0 then some (trunc (p2.y / sy))
  else none

/-- ray_data.cpp:244-272 and 282-302: trace the ray that starts at `p1` in slot `b`. -/
def traceOne (e : Env K) (ox oy sx sy : K) (Ny : Nat) (p1 : Pt K) (b : Int) : Option (Traced K) :=
  match intersect e.fuzz e.far e.hx e.hy p1 ox oy with
  | none => none
  | some p2 =>
    match exitSlot e sx sy Ny p2 with
    | none => none
    | some b1 => some ⟨p1, p2, b, b1⟩

/-- ray_data.cpp:233-243: start of the `iray`-th ray on the x-normal face; `ox > 0` is octant 1. -/
def startX (e : Env K) (ox sy : K) (iray : Nat) : Pt K :=
  ⟨if 0 < ox then 0 else e.hx, (1 / 2 + iray) * sy⟩

/-- ray_data.cpp:278-281: start of the `iray`-th ray on the bottom face. -/
def startY (sx : K) (iray : Nat) : Pt K := ⟨(1 / 2 + iray) * sx, 0⟩

/-- ray_data.cpp:187 `space`, with `c = cos alpha` of the octant-1 angle after modularisation. -/
def spacing (hy c : K) (Ny : Nat) : K := c * hy / Ny

/-- ray_data.cpp:218-304: the rays of one angle with cosine `ox` and sine `oy`, given `space` of that angle; `none`
if any of them throws.  The failure of `Box::intersect` (an unset point) is also `none`. -/
def layout (e : Env K) (ox oy space : K) (Nx Ny : Nat) : Option (List (Traced K)) :=
  let sx := |space / oy|
  let sy := |space / ox|
  (((List.range Ny).map fun i => (startX e ox sy i, (i : Int))) ++
    ((List.range Nx).map fun i => (startY sx i, ((i + Ny : Nat) : Int)))).mapM
      fun s => traceOne e ox oy sx sy Ny s.1 s.2

end Verif.Rays
