import Verif.Util.LowerBound
import Mathlib.Algebra.Order.Field.Basic
import Mathlib.Algebra.Order.Ring.Abs

/-!
# Lattices and the location of a point

src/core/lattice.cpp 47-163, src/core/core.cpp 84-102 (the same arrangement for assemblies),
src/core/plane.cpp 29-139, src/util/fp_utils.hpp 39, 76-79, 124-126.

`real_t` is an ordered field, so the sums of pitches are exact. The tolerance `REAL_FUZZ` is a parameter `fuzz`.
-/

namespace Verif.Core

/-- Result of a function that may throw or whose behaviour may be undefined. -/
inductive Res (α : Type) where
  | ok (a : α)
  | throw
  | ub
deriving DecidableEq, Repr

/-- The columns of one row, lattice.cpp:61-65: for `ix` from `ix` on, `count` times, look up the identifier (`pins.at`
throws for an unknown one) and store the pin at `row * nx + ix`. The number of identifiers has been checked. -/
def placeRow {P : Type} (look : Int → Option P) (nx row iy : Nat) (ids : List Int) :
    Nat → Nat → List (Option P) → Res (List (Option P))
  | 0, _, a => .ok a
  | count + 1, ix, a =>
    match ids[iy * nx + ix]? with
    | none => .ub
    | some id =>
      match look id with
      | none => .throw
      | some p =>
        if row * nx + ix < a.length then placeRow look nx row iy ids count (ix + 1) (a.set (row * nx + ix) (some p))
        else .ub

/-- The rows, lattice.cpp:59-66 (and core.cpp:89-102): row `iy` of the input becomes row `ny - iy - 1`. -/
def placeRows {P : Type} (look : Int → Option P) (nx ny : Nat) (ids : List Int) :
    Nat → Nat → List (Option P) → Res (List (Option P))
  | 0, _, a => .ok a
  | count + 1, iy, a =>
    match placeRow look nx (ny - iy - 1) iy ids nx 0 a with
    | .ok a' => placeRows look nx ny ids count (iy + 1) a'
    | o => o

/-- lattice.cpp:47-66: check the number of identifiers, then arrange the pins (null pointers at first). -/
def arrange {P : Type} (look : Int → Option P) (nx ny : Nat) (ids : List Int) : Res (List (Option P)) :=
  if ids.length ≠ nx * ny then .throw
  else placeRows look nx ny ids ny 0 (List.replicate (ny * nx) none)

/-- `Lattice::at`, lattice.hpp:84-89: the pin at column `x` and row `y`. -/
def pinAt {P : Type} (nx : Nat) (pins : List (Option P)) (x y : Nat) : Option P := (pins[y * nx + x]?).join

variable {K : Type} [Field K] [LinearOrder K] [IsStrictOrderedRing K]

/-- What a lattice asks of a pin. -/
structure Pin (K : Type) where
  pitchX : K
  pitchY : K
  nReg : Nat

/-- lattice.cpp:84-87: the interface coordinates, accumulated from the pitches. -/
def interfaces : List K → K → List K
  | [], x => [x]
  | h :: hs, x => x :: interfaces hs (x + h)

/-- lattice.cpp:116-121: the first region of each pin. -/
def firstRegs : List Nat → Nat → List Nat
  | [], _ => []
  | n :: ns, prev => prev :: firstRegs ns (prev + n)

/-- `fuzzy_lt`, fp_utils.hpp:124-126: relative to the right argument. For a zero right argument the quotient is not a
number (`l = 0`) or infinite with the sign of `l`. -/
def fuzzyLt (fuzz : K) (l r : K) : Bool :=
  if r = 0 then decide (l < 0) else decide ((l - r) / |r| < -fuzz)

/-- `fp_equiv_abs`, fp_utils.hpp:76-79. -/
def equivAbs (fuzz : K) (a b : K) : Bool := decide (|a - b| < fuzz)

/-- One coordinate of `Lattice::get_pinmesh`, lattice.cpp:137-144, and of `Plane::get_pinmesh`, plane.cpp:105-110 and
119: bisection in the interfaces `xs`, a step in the direction of flight (component `o`) on an interface, subtraction of
one in `unsigned` arithmetic, and the restriction to `0 … n - 1`. `none` is reading `xs` past its end. -/
def locate (fuzz : K) (equiv : K → K → Bool) (xs : List K) (n : Nat) (p o : K) : Option Nat :=
  let ix := Util.lowerBoundLoop (fun i => fuzzyLt fuzz (xs.getD i 0) p) 0 xs.length
  match xs[ix]? with
  | none => none
  | some x =>
    let ix := if equiv p x then (if 0 < o then ix + 1 else ix) else ix
    some (min (n - 1) (max 0 ((ix + (2^32 - 1)) % 2^32)))

/-- A lattice as `get_pinmesh` sees it: the interface coordinates of both directions, the numbers of pins and the first
region of each pin. -/
structure Lat (K : Type) where
  nx : Nat
  ny : Nat
  xs : List K
  ys : List K
  firstReg : List Nat

/-- `Lattice::get_pinmesh`, lattice.cpp:125-163: column and row of the pin, its centre, and the first region. -/
def latPin (fuzz : K) (l : Lat K) (px py ox oy : K) (firstReg : Nat) : Option (Nat × Nat × K × K × Nat) :=
  match locate fuzz (equivAbs fuzz) l.xs l.nx px ox, locate fuzz (equivAbs fuzz) l.ys l.ny py oy with
  | some ix, some iy =>
    match l.xs[ix]?, l.xs[ix + 1]?, l.ys[iy]?, l.ys[iy + 1]?, l.firstReg[iy * l.nx + ix]? with
    | some x0, some x1, some y0, some y1, some r =>
      some (ix, iy, (x1 + x0) / 2, (y1 + y0) / 2, firstReg + r)
    | _, _, _, _, _ => none
  | _, _ => none

/-- A plane: the coordinates of the lattice interfaces, the lattices row by row, and their first regions. -/
structure PlaneG (K : Type) where
  nx : Nat
  ny : Nat
  hx : List K
  hy : List K
  lats : List (Lat K)
  firstReg : List Nat

/-- `Plane::get_pinmesh`, plane.cpp:97-139. `equiv` is `fp_equiv`. The result is column and row of the lattice, column
and row of the pin in it, the centre of the pin in core coordinates, and the first region. -/
def planePin (fuzz : K) (equiv : K → K → Bool) (g : PlaneG K) (px py ox oy : K) (firstReg : Nat) :
    Option (Nat × Nat × Nat × Nat × K × K × Nat) :=
  match locate fuzz equiv g.hx g.nx px ox, locate fuzz equiv g.hy g.ny py oy with
  | some ax, some ay =>
    match g.hx[ax]?, g.hy[ay]?, g.firstReg[g.nx * ay + ax]?, g.lats[ay * g.nx + ax]? with
    | some x, some y, some r, some l =>
      match latPin fuzz l (px - x) (py - y) ox oy (firstReg + r) with
      | some (ix, iy, cx, cy, r') => some (ax, ay, ix, iy, cx + x, cy + y, r')
      | none => none
    | _, _, _, _ => none
  | _, _ => none

end Verif.Core
