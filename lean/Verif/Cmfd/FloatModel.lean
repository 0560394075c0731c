import Verif.XS.HomogFloatModel

/-!
# The coupling coefficients of CMFD with rounded operations (src/core/cmfd.cpp:344-600)

Each operation of the source text is followed by `rnd`; a quotient with divisor zero is `none` (NaN or infinite).  The order of evaluation is that of C++, left to right for
products and sums of equal precedence.  Overflow and fused operations are not modelled.
-/

namespace Verif.Cmfd

open Verif.XS

variable {K : Type} [Field K] [LinearOrder K]

/-- What is on one side of a surface: a cell with transport cross section and thickness, or one of the two boundaries that CMFD knows. -/
inductive Side (K : Type) where
  | cell (tr h : K)
  | vacuum
  | reflect

/-- cmfd.cpp:348 and 425-455: `d = 1.0 / (3.0 * xstr)`, `d / thickness`; `0.5 / 2.0` and `0.0 / 2.0` at boundaries.  A cross section or thickness of zero is not considered. -/
def Side.diffF (rnd : K → K) : Side K → K
  | .cell tr h => rnd (rnd (1 / rnd (3 * tr)) / h)
  | .vacuum => rnd (rnd (1 / 2) / 2)
  | .reflect => rnd (0 / 2)

/-- cmfd.cpp:457-458 `2.0 * diffusivity_1 * diffusivity_2 / (diffusivity_1 + diffusivity_2)`. -/
def dTildeF (rnd : K → K) (d1 d2 : K) : Option K := quotF rnd (rnd (rnd (2 * d1) * d2)) (rnd (d1 + d2))

/-- cmfd.cpp:466-470. -/
def sTildeF (rnd : K → K) (d1 d2 : K) : Option K := if 0 < d1 then quotF rnd d1 (rnd (d1 + d2)) else quotF rnd d2 (rnd (d1 + d2))

/-- cmfd.cpp:486-490, with the test for a finite result. -/
def dHatF (rnd : K → K) (dt j fl fr : K) : K := (quotF rnd (rnd (j + rnd (dt * rnd (fr - fl)))) (rnd (fl + fr))).getD 0

/-- cmfd.cpp:491-495; `left` says whether there is a cell on the left. -/
def sHatF (rnd : K → K) (left : Bool) (st sfc fl fr : K) : Option K :=
  if left then quotF rnd (rnd (rnd (sfc - rnd (st * fl)) - rnd (rnd (1 - st) * fr))) (rnd (fl + fr)) else quotF rnd (rnd (sfc - rnd (st * fr))) fr

/-- cmfd.cpp:583-584 `-d_tilde * (flux_r - flux_l) + d_hat * (flux_r + flux_l)`. -/
def currentF (rnd : K → K) (dt dh fl fr : K) : K := rnd (rnd (-dt * rnd (fr - fl)) + rnd (dh * rnd (fr + fl)))

/-- cmfd.cpp:590-594. -/
def surfaceFluxF (rnd : K → K) (left : Bool) (st sh fl fr : K) : K :=
  if left then rnd (rnd (rnd (st * fl) + rnd (rnd (1 - st) * fr)) + rnd (sh * rnd (fl + fr))) else rnd (rnd (st * fr) + rnd (sh * rnd (fl + fr)))

/-- cmfd.cpp:598-599. -/
def partialF (rnd : K → K) (sf cur : K) : K × K := (rnd (rnd (1 / 4 * sf) + rnd (1 / 2 * cur)), rnd (rnd (1 / 4 * sf) - rnd (1 / 2 * cur)))

/-- cmfd.cpp:517-524: one surface's part of the diagonal element; `low` for west, south and bottom. -/
def diagTermF (rnd : K → K) (low : Bool) (a dt dh : K) : K := rnd (a * rnd (dt + if low then -dh else dh))

/-- cmfd.cpp:512-526: the diagonal element from the surfaces in the order of the loop. -/
def diagF (rnd : K → K) (vol rm : K) (ss : List (Bool × K × K × K)) : K :=
  ss.foldl (fun v s => rnd (v + diagTermF rnd s.1 s.2.1 s.2.2.1 s.2.2.2)) (rnd (vol * rm))

/-- cmfd.cpp:529-541: an element off the diagonal. -/
def offDiagF (rnd : K → K) (low : Bool) (a dt dh : K) : K := rnd (a * rnd ((if low then -dh else dh) - dt))

end Verif.Cmfd
