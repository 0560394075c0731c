import Mathlib.Algebra.Order.Field.Basic
import Mathlib.Algebra.Order.Floor.Ring

/-!
# The tabulated exponential

src/core/exponential.hpp 56-112, `Exponential_Linear<N>`, and 122-136, `Exponential_UnsafeLinear<N>`. The library
exponential is the parameter `e`; arithmetic is exact.
-/

namespace Verif.Core

variable {K : Type} [Field K] [LinearOrder K] [IsStrictOrderedRing K] [FloorRing K]

/-- The members of the class, exponential.hpp:107-111. -/
structure ExpTable (K : Type) where
  min : K
  max : K
  space : K
  rspace : K
  d : List K

/-- The constructor, exponential.hpp:58-67: `N + 1` values at equal distances. -/
def expTable (e : K → K) (N : Nat) (min max : K) : ExpTable K :=
  let space := (max - min) / (N : K)
  { min := min, max := max, space := space, rspace := 1 / space,
    d := (List.range (N + 1)).map (fun i : Nat => e (min + (i : K) * space)) }

/-- Conversion of a floating-point number to `int`: truncation towards zero. -/
def truncInt (x : K) : Int := if 0 ≤ x then ⌊x⌋ else -⌊-x⌋

/-- `Exponential_UnsafeLinear::exp`, exponential.hpp:129-135, and the same lines 76-78 of `Exponential_Linear::exp`. The
conversion to `int` truncates; arguments below the table give a negative index. Reading outside the array is undefined
(`none`). -/
def expInterp (t : ExpTable K) (v : K) : Option K :=
  let i := truncInt ((v - t.min) * t.rspace)
  if i < 0 then none
  else
    match t.d[i.toNat]?, t.d[i.toNat + 1]? with
    | some a, some b => some (a + (b - a) * (v - (t.space * (i : K) + t.min)) * t.rspace)
    | _, _ => none

/-- `Exponential_Linear::exp`, exponential.hpp:69-79. The message printed outside the table is not modelled. -/
def expLinear (e : K → K) (t : ExpTable K) (v : K) : Option K :=
  if v < t.min ∨ v > t.max then some (e v) else expInterp t v

/-- The loop of `Exponential_Linear::max_error`, exponential.hpp:81-91: the largest relative error at the midpoints of
the cells from `i` on. -/
def maxErrorLoop (e : K → K) (t : ExpTable K) : Nat → Nat → K → Option K
  | 0, _, m => some m
  | n + 1, i, m =>
    let x := t.min + t.space * (1 / 2 + (i : K))
    match expLinear e t x with
    | none => none
    | some y => maxErrorLoop e t n (i + 1) (Max.max m |(y - e x) / e x|)

def maxError (e : K → K) (N : Nat) (t : ExpTable K) : Option K := maxErrorLoop e t N 0 0

end Verif.Core
