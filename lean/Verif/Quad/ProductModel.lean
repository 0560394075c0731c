import Verif.Dir.Model
import Verif.Quad.LevelSymModel
import Mathlib.Data.List.Sort

/-!
# Model of the product quadratures

`src/core/product_quadrature.hpp` and `AngularQuadrature::update_chebyshev_weights` (`src/core/angular_quadrature.cpp`).  Arithmetic is exact
over an ordered field; the functions of the mathematical library are parameters.
-/

namespace Verif.Quad.Product

open Verif.Dir Verif.Quad.LS

variable {K : Type} [Field K] [LinearOrder K]

/-- product_quadrature.hpp:31-45 `GenYamamoto`: pairs of polar angle and weight. -/
def genYamamoto (nPolar : Int) : Outcome (List (K × K)) :=
  if nPolar ≠ 3 then .throws
  else .ok [((167429147795 : K) / 10 ^ 12, (46233 : K) / 10 ^ 6), ((567715121084 : K) / 10 ^ 12, (283619 : K) / 10 ^ 6),
    ((120253314678900 : K) / 10 ^ 14, (670148 : K) / 10 ^ 6)]

/-- product_quadrature.hpp:49-63 `GenChebyshev`: pairs of azimuth and weight. -/
def genChebyshev (T : Trig K) (n : Nat) : List (K × K) :=
  let weight := 1 / (n : K)
  let del := 1 / 2 * T.pi / (2 * (n : K))
  (List.range n).map fun i : Nat => (del * (2 * (i : K) + 1), weight)

/-- product_quadrature.hpp:98-103: columns `k` and `k + 1` of the row of `L` for one point. -/
def legendre (y : K) : Nat → K × K
  | 0 => (1, y)
  | k + 1 =>
    let p := legendre y k
    (p.2, ((2 * ((k + 1 : ℕ) : K) + 1) * y * p.2 - ((k + 1 : ℕ) : K) * p.1) / (((k + 1 : ℕ) : K) + 1))

/-- product_quadrature.hpp:105-114: one point in one pass of the iteration, with `N1 = 2 n_polar` and `N2 = N1 + 1`: the new `y` and `Lp`;
`none` if one of the two divisions is by zero (the values would not be finite). -/
def point (n1 : Nat) (y : K) : Option (K × K) :=
  let l := legendre y (n1 - 1)
  (quot (((n1 + 1 : ℕ) : K) * (l.1 - y * l.2)) (1 - y * y)).bind fun lp => (quot l.2 lp).map fun d => (y - d, lp)

/-- product_quadrature.hpp:98-115: one pass over all points. -/
def pass (n1 : Nat) (ys : List K) : Option (List (K × K)) := ys.mapM (point n1)

/-- product_quadrature.hpp:78-82: the initial guess. -/
def start (T : Trig K) (n1 : Nat) : List K :=
  (List.range n1).map fun i : Nat =>
    let xu : K := -1 + (i : K) * (2 / ((n1 : K) - 1))
    T.cos ((2 * (i : K) + 1) * T.pi / (2 * (n1 : K))) + 27 / 100 / (n1 : K) * T.sin (T.pi * xu * ((n1 : K) - 1) / ((n1 : K) + 1))

/-- product_quadrature.hpp:94: `max(abs(y - y0)) > REAL_FUZZ`. -/
def moving (fuzz : K) (ys y0 : List K) : Bool := (List.zipWith (fun a b => decide (fuzz < |a - b|)) ys y0).any id

/-- product_quadrature.hpp:94-115: the iteration, `y` and `Lp` at its end; `none` if it has not ended after `fuel` passes or a value was not
finite. -/
def iterate (n1 : Nat) (fuzz : K) : Nat → List K → Option (List K × List K)
  | 0, _ => none
  | fuel + 1, y0 =>
    match pass n1 y0 with
    | none => none
    | some r => if moving fuzz (r.map Prod.fst) y0 then iterate n1 fuzz fuel (r.map Prod.fst) else some (r.map Prod.fst, r.map Prod.snd)

/-- product_quadrature.hpp:118-120: the weight of a point; `none` if the division is by zero. -/
def gaussWeight (n1 : Nat) (y lp : K) : Option K :=
  (quot 1 ((1 - y * y) * lp * lp)).map fun r => r * ((n1 + 1 : ℕ) : K) * ((n1 + 1 : ℕ) : K) / ((n1 : K) * (n1 : K))

/-- product_quadrature.hpp:118-139: weights, angles, reversal of the angles, and the second half of the pairs; `none` if a weight or an angle is
not a number. -/
def finish (T : Trig K) (nPolar : Nat) (ys lps : List K) : Option (List (K × K)) :=
  ((List.zip ys lps).mapM fun e => gaussWeight (2 * nPolar) e.1 e.2).bind fun w =>
    (ys.mapM (acosOf T)).map fun angles => (List.zip angles.reverse w).drop nPolar

/-- product_quadrature.hpp:67-139 `GenGauss`: pairs of polar angle and weight.  The first comparison of the loop is with `y0 = 2` and always
true. -/
def genGauss (T : Trig K) (fuzz : K) (fuel nPolar : Nat) : Option (List (K × K)) :=
  (iterate (2 * nPolar) fuzz fuel (start T (2 * nPolar))).bind fun r => finish T nPolar r.1 r.2

/-- product_quadrature.hpp:143-164 `GenProduct`: directions with weights.  A sum of weights that is zero is not distinguished. -/
def genProduct (T : Trig K) (azi pol : List (K × K)) : List (Direction K × K) :=
  let raw := azi.flatMap fun a => pol.map fun p => (ofAngles T a.1 p.1, a.2 * p.2)
  let wsum := raw.foldl (fun s r => s + r.2) 0
  raw.map fun r => (r.1, r.2 / wsum)

/-- angular_quadrature.cpp:74-91: the angles of the first octant for the types `cg` (`yamamoto` false) and `cy`; the outcome of `GenGauss` is
passed in. -/
def firstOctant (T : Trig K) (yamamoto : Bool) (nAzi nPolar : Int) (gauss : List (K × K)) : Outcome (List (Direction K × K)) :=
  if nAzi < 1 ∨ nPolar < 1 then .throws
  else if yamamoto then
    match genYamamoto (K := K) nPolar with
    | .ok pol => .ok (genProduct T (genChebyshev T nAzi.toNat) pol)
    | .throws => .throws
    | .ub => .ub
  else .ok (genProduct T (genChebyshev T nAzi.toNat) gauss)

/-- `std::unique` with a predicate: an element is dropped if it is the same as the last one kept. -/
def uniqueFrom (same : K → K → Bool) (last : K) : List K → List K
  | [] => []
  | x :: xs => if same last x then uniqueFrom same last xs else x :: uniqueFrom same x xs

/-- `std::unique`. -/
def uniques (same : K → K → Bool) : List K → List K
  | [] => []
  | x :: xs => x :: uniqueFrom same x xs

/-- angular_quadrature.cpp:327-330: midpoints between neighbours. -/
def midpoints : List K → List K
  | a :: b :: rest => (a + b) / 2 :: midpoints (b :: rest)
  | _ => []

/-- angular_quadrature.cpp:324-340: azimuths with the share of the quarter circle nearest to them. -/
def aziPairs (T : Trig K) (azi : List K) : List (K × K) :=
  let hpi := 1 / 2 * T.pi
  let bounds := 0 :: (midpoints azi ++ [hpi])
  List.zipWith (fun a b => (a, b)) azi (List.zipWith (fun hi lo => (hi - lo) / hpi) bounds.tail bounds)

/-- angular_quadrature.cpp:288-352 `update_chebyshev_weights`, first octant: `alphas` are the azimuths of the angles in the first octant, `same`
is `fp_equiv_ulp` and `pol` the polar angles generated again. -/
def updateChebyshev (T : Trig K) (same : K → K → Bool) (nAzi : Int) (pol : List (K × K)) (alphas : List K) : Outcome (List (Direction K × K)) :=
  let azi := uniques same (alphas.insertionSort (· ≤ ·))
  if (azi.length : Int) ≠ nAzi then .throws
  else .ok (genProduct T (aziPairs T azi) pol)

end Verif.Quad.Product
