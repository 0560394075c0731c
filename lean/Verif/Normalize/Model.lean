import Mathlib.Algebra.Field.Defs
import Mathlib.Algebra.Order.Field.Basic
import Mathlib.Algebra.Order.BigOperators.Group.List
import Mathlib.Algebra.BigOperators.Ring.List

/-!
# Model of `Normalize`, `NormalizeScaled` and `Scale` (src/util/utils.hpp)

Arithmetic is exact, over an ordered field `K`.  The C++ division by a zero sum yields `inf`/`NaN`; this is the
distinct outcome `none`.
-/

namespace Verif.Normalize

variable {K : Type} [Field K] [LinearOrder K]

/-- utils.hpp:34-42 and 68-78: number of elements greater than zero. -/
def countPos (v : List K) : Nat := v.countP (fun x => decide (0 < x))

/-- utils.hpp:29-51 `Normalize`: new values and the returned factor. -/
def normalize (v : List K) : Option (List K × K) :=
  if v.sum = 0 then none
  else
    let f : K := (countPos v : K) / v.sum
    some (v.map (· * f), f)

/-- utils.hpp:67-91 `NormalizeScaled`: `countPos` looks at the values before they are scaled. -/
def normalizeScaled (v scale : List K) : Option (List K × K) :=
  let w := List.zipWith (· * ·) v scale
  if w.sum = 0 then none
  else
    let f : K := (countPos v : K) / w.sum
    some (w.map (· * f), f)

/-- utils.hpp:97-104 `Scale`. -/
def scale (v : List K) (f : K) : List K := v.map (· * f)

end Verif.Normalize
