import Mathlib.Data.Rat.Floor
import Mathlib.Data.Int.Log

/-!
# Rounding of double-precision arithmetic

`real_t` is `double` (src/util/global_config.hpp:27-33).  The results of `+ - * /` are the exact ones rounded to the nearest double, ties to even (IEEE-754 binary64).
Doubles are represented by their values.  Results beyond the largest double are not modelled: they are rounded as if the exponent had no upper limit.
-/

namespace Verif.Fp

/-- Nearest integer, ties to even. -/
def rne (q : ℚ) : ℤ :=
  let n := ⌊q⌋
  let d := q - n
  if d < 1 / 2 then n else if 1 / 2 < d then n + 1 else if n % 2 = 0 then n else n + 1

/-- Exponent of the last place of a double near `q`: 53 significant bits, and no places below `2^-1074`. -/
def lastPlace (q : ℚ) : ℤ := max (Int.log 2 |q|) (-1022) - 52

/-- The double nearest to `q`. -/
def rnd64 (q : ℚ) : ℚ := rne (q / 2 ^ lastPlace q) * 2 ^ lastPlace q

end Verif.Fp
