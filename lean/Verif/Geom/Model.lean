import Mathlib.Algebra.Order.Field.Basic

/-!
# Model of the plane geometry

`src/core/geometry/geom.hpp`, `line.cpp`, `circle.cpp`, `box.cpp`, `points.hpp`.  Coordinates are elements of an ordered
field; `sqrt` and `atan2` are parameters, `fuzz` is `REAL_FUZZ` (util/fp_utils.hpp:39).
-/

namespace Verif.Geom

variable {K : Type} [Field K] [LinearOrder K]

/-- The coordinates of a `Point2` (points.hpp:24-37); the flag `ok` is given apart, where it matters. -/
structure Pt (K : Type) where
  x : K
  y : K
deriving DecidableEq, Repr

/-- line.hpp:25-31 `Line`: its two end points. -/
structure Line (K : Type) where
  p1 : Pt K
  p2 : Pt K

/-- circle.hpp `Circle`: centre and radius. -/
structure Circle (K : Type) where
  c : Pt K
  r : K

/-- A division of doubles; division by zero gives an infinity or NaN, which is `none`. -/
def fdiv (a b : K) : Option K := if b = 0 then none else some (a / b)

/-- `(0.0 <= s) & (s <= 1.0)` (geom.hpp:133): false for infinities and NaN. -/
def unitClosed (s : Option K) : Bool :=
  match s with
  | none => false
  | some s => decide (0 ≤ s) && decide (s ≤ 1)

/-- `(0.0 < t) & (t < 1.0)` (geom.hpp:83, 90): false for infinities and NaN. -/
def unitOpen (t : Option K) : Bool :=
  match t with
  | none => false
  | some t => decide (0 < t) && decide (t < 1)

/-- `p = l.p1; p.x += t * u1; p.y += t * u2;` (geom.hpp:84-86, 94-96, 100-102, 135-137). -/
def along (l : Line K) (t : K) : Pt K := ⟨l.p1.x + (l.p2.x - l.p1.x) * t, l.p1.y + (l.p2.y - l.p1.y) * t⟩

/-- geom.hpp:111-145 `Intersect(Line, Line, Point2 &)`: `none` is the return value 0 with `p.ok = false`, `some p` is 1
with the point.  The test `fabs(d) < 0.0` (123) is never true and does not appear. -/
def meet (l1 l2 : Line K) : Option (Pt K) :=
  let u1 := l1.p2.x - l1.p1.x
  let u2 := l1.p2.y - l1.p1.y
  let v1 := l2.p2.x - l2.p1.x
  let v2 := l2.p2.y - l2.p1.y
  let w1 := l1.p1.x - l2.p1.x
  let w2 := l1.p1.y - l2.p1.y
  let d := u1 * v2 - u2 * v1
  let s := fdiv (v1 * w2 - v2 * w1) d
  let t := fdiv (u1 * w2 - u2 * w1) d
  if unitClosed s && unitClosed t then s.map (along l1) else none

/-- fp_utils.hpp:72-75 `fp_equiv_rel`. -/
def equivRel (fuzz v1 v2 : K) : Bool :=
  match fdiv |v1 - v2| |v1| with
  | none => false
  | some q => decide (q < fuzz)

/-- What `Intersect(Line, Circle, Point2 &p1, Point2 &p2)` leaves: its return value, the flags `ok` of the two points, the
coordinates assigned to them (`none`: left as they were), and whether `assert(false)` (geom.hpp:93) was reached. -/
structure Hits (K : Type) where
  ret : Nat
  ok1 : Bool
  ok2 : Bool
  p1 : Option (Pt K)
  p2 : Option (Pt K)
  asserted : Bool

/-- `p1.ok = false; p2.ok = false; return 0;` (geom.hpp:55-57, 64-66, 70-72). -/
def Hits.miss : Hits K := ⟨0, false, false, none, none, false⟩

/-- geom.hpp:83-107: the two parameters are tested in turn.  A flag `ok` is true for an assigned point. -/
def collect (l : Line K) (t1 t2 : Option K) : Hits K :=
  if unitOpen t1 then
    if unitOpen t2 then ⟨2, true, true, t1.map (along l), t2.map (along l), false⟩
    else ⟨1, true, true, t1.map (along l), none, false⟩
  else
    if unitOpen t2 then ⟨1, true, true, t2.map (along l), none, true⟩
    else ⟨0, true, true, none, none, false⟩

/-- geom.hpp:43-109 `Intersect(Line, Circle, Point2 &, Point2 &)`. -/
def hitCircle (sqrt : K → K) (fuzz : K) (l : Line K) (circ : Circle K) : Hits K :=
  let u1 := l.p2.x - l.p1.x
  let u2 := l.p2.y - l.p1.y
  let w1 := l.p1.x - circ.c.x
  let w2 := l.p1.y - circ.c.y
  let b := w1 * u1 + w2 * u2
  let c := w1 * w1 + w2 * w2 - circ.r * circ.r
  if 0 < c ∧ 0 < b then Hits.miss
  else
    let a := u1 * u1 + u2 * u2
    let disc := b * b - a * c
    if disc < 0 then Hits.miss
    else if equivRel fuzz disc 0 then Hits.miss
    else
      let ra := fdiv 1 a
      let q := sqrt disc
      collect l (ra.map fun ra => (-b - q) * ra) (ra.map fun ra => (-b + q) * ra)

/-- Direction cosines (direction.hpp); `alpha` is the azimuthal angle. -/
structure Dir (K : Type) where
  ox : K
  oy : K
  oz : K

/-- line.cpp:22-55 `Line::distance_to_surface`; `none` is `numeric_limits<real_t>::max()`. -/
def lineDist (fuzz : K) (l : Line K) (p : Pt K) (dir : Dir K) (coincident : Bool) : Option K :=
  if coincident then none
  else
    let a := l.p1.y - l.p2.y
    let b := l.p2.x - l.p1.x
    let c := l.p1.x * l.p2.y - l.p2.x * l.p1.y
    let f := a * p.x + b * p.y + c
    let proj := dir.ox * a + dir.oy * b
    if |proj| < fuzz then none
    else
      let d := -f / proj
      if 0 < d ∧ fuzz < |f| then some d else none

/-- circle.cpp:24-66 `Circle::distance_to_surface`; `none` is `numeric_limits<real_t>::max()`. -/
def circleDist (sqrt : K → K) (fuzz : K) (circ : Circle K) (p : Pt K) (dir : Dir K) (coincident : Bool) : Option K :=
  let a := 1 - dir.oz * dir.oz
  if a = 0 then none
  else
    let x := p.x - circ.c.x
    let y := p.y - circ.c.y
    let k := x * dir.ox + y * dir.oy
    let c := x * x + y * y - circ.r * circ.r
    let det := k * k - a * c
    if det < 0 then none
    else if coincident || decide (|c| < fuzz) then
      if 0 ≤ k then none else some ((-k + sqrt det) / a)
    else if c < 0 then some ((-k + sqrt det) / a)
    else
      let d := (-k - sqrt det) / a
      if 0 ≤ d then some d else none

/-- `if (d < dist)` (box.cpp:29, pin_mesh_cyl.cpp:318, 326, pin_mesh_rect.cpp:94) where both may be the largest double. -/
def closer (d dist : Option K) : Bool :=
  match d, dist with
  | none, _ => false
  | some _, none => true
  | some d, some e => decide (d < e)

/-- box.hpp:39-49 `Box`: the corners (after ordering them). -/
structure Box (K : Type) where
  lo : Pt K
  hi : Pt K

/-- box.hpp:39-49: the corners are sorted. -/
def Box.mk' (p1 p2 : Pt K) : Box K := ⟨⟨min p1.x p2.x, min p1.y p2.y⟩, ⟨max p1.x p2.x, max p1.y p2.y⟩⟩

/-- box.hpp:42-45 `lines_`, in the order of the enumeration `Surface`: east, north, west, south. -/
def Box.lines (b : Box K) : List (Line K) :=
  [⟨⟨b.hi.x, b.lo.y⟩, b.hi⟩, ⟨⟨b.lo.x, b.hi.y⟩, b.hi⟩, ⟨b.lo, ⟨b.lo.x, b.hi.y⟩⟩, ⟨b.lo, ⟨b.hi.x, b.lo.y⟩⟩]

/-- box.cpp:26-34: the loop over the lines with the index `il`, keeping the smallest distance and its index. -/
def boxLoop (fuzz : K) (p : Pt K) (dir : Dir K) : List (Line K) → Nat → Option K × Nat → Option K × Nat
  | [], _, best => best
  | l :: ls, il, best =>
    let d := lineDist fuzz l p dir false
    boxLoop fuzz p dir ls (il + 1) (if closer d best.1 then (d, il) else best)

/-- box.cpp:20-37 `Box::distance_to_surface`; the second component is the `Surface`, initially `INTERNAL` = 6. -/
def boxDist (fuzz : K) (b : Box K) (p : Pt K) (dir : Dir K) : Option K × Nat := boxLoop fuzz p dir b.lines 0 (none, 6)

/-- One face in box.cpp:53-92: the parameter `d` on its plane (`none`: an infinity or NaN, for which the comparisons of the
coordinate fail), the free coordinate there, the bounds of that coordinate, and the point to be stored. -/
def tryFace (fuzz : K) (d : Option K) (coord : K → K) (lo hi : K) (pt : K → Pt K) (best : K × Option (Pt K)) :
    K × Option (Pt K) :=
  match d with
  | none => best
  | some d => if fuzz < |d| ∧ d < best.1 ∧ lo < coord d ∧ coord d < hi then (|d|, some (pt (coord d))) else best

/-- box.cpp:39-95 `Box::intersect(Point2, Angle)`; `ox`, `oy` are cosine and sine of the angle, `far` is `1.0e12`.  `none`: the
result is a `Point2` without coordinates and with `ok` false. -/
def Box.intersect (fuzz far : K) (b : Box K) (p : Pt K) (ox oy : K) : Option (Pt K) :=
  let s := tryFace fuzz (fdiv (b.lo.x - p.x) ox) (fun d => p.y + oy * d) b.lo.y b.hi.y (fun y => ⟨b.lo.x, y⟩) (far, none)
  let s := tryFace fuzz (fdiv (b.hi.x - p.x) ox) (fun d => p.y + oy * d) b.lo.y b.hi.y (fun y => ⟨b.hi.x, y⟩) s
  let s := tryFace fuzz (fdiv (b.lo.y - p.y) oy) (fun d => p.x + ox * d) b.lo.x b.hi.x (fun x => ⟨x, b.lo.y⟩) s
  let s := tryFace fuzz (fdiv (b.hi.y - p.y) oy) (fun d => p.x + ox * d) b.lo.x b.hi.x (fun x => ⟨x, b.hi.y⟩) s
  s.2

/-- points.hpp:87-95 `Point2::alpha`. -/
def alpha (atan2 : K → K → K) (twopi : K) (p : Pt K) : K :=
  if 0 < p.y then atan2 p.y p.x else atan2 p.y p.x + twopi

/-- points.hpp:168-171 `Midpoint`. -/
def midpoint (p q : Pt K) : Pt K := ⟨1 / 2 * (p.x + q.x), 1 / 2 * (p.y + q.y)⟩

end Verif.Geom
