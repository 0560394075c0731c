import Verif.Quad.Model
import Mathlib.Analysis.Real.Sqrt

/-!
# Model of the level-symmetric quadrature generator (src/core/level_symmetric.hpp)

The tables are exact rationals; the square roots are real.  Indexing a table out of bounds is the outcome `ub`.
-/

namespace Verif.Quad.LS

open Verif.Quad

/-- level_symmetric.hpp:30-32 `mu_base`. -/
def muBase : List ℚ := [0.577350269189626, 0.350021, 0.266636, 0.218218218218218, 0.192450089729876,
  0.174077655955702, 0.161575, 0.149071198499989]

/-- level_symmetric.hpp:34-39 `w_unique`. -/
def wUnique : List ℚ := [1, 1 / 3, 0.1761262, 0.1572071, 0.1209876, 0.0907408, 0.0925925, 0.0893043, 0.0725281,
  0.0450455, 0.0539274, 0.0707734, 0.0558760, 0.0373436, 0.0502654, 0.0258553, 0.0580031, 0.0488943, 0.0228095,
  0.0393955, 0.0380920, 0.0258382, 0.0082759, 0.0489967, 0.0413235, 0.0203158, 0.0265468, 0.0378883, 0.0135404,
  0.0326129, 0.0103825]

/-- level_symmetric.hpp:41 `w_offset`. -/
def wOffset : List Nat := [0, 1, 2, 4, 7, 11, 16, 23]

/-- level_symmetric.hpp:43-47 `w_map`. -/
def wMap : List Nat := [1, 1, 1, 1, 1, 2, 2, 1, 2, 1, 1, 2, 2, 2, 3, 2, 1, 2, 2, 1,
  1, 2, 2, 3, 4, 3, 2, 4, 4, 2, 1, 2, 3, 2, 1, 1, 2, 2, 3, 5,
  3, 4, 6, 6, 4, 3, 6, 7, 6, 3, 2, 5, 6, 6, 5, 2, 1, 2, 3, 4,
  3, 2, 1, 1, 2, 2, 3, 5, 3, 4, 6, 6, 4, 4, 7, 8, 7, 4, 3, 6,
  8, 8, 6, 3, 2, 5, 6, 7, 6, 5, 2, 1, 2, 3, 4, 4, 3, 2, 1]

/-- level_symmetric.hpp:49 `w_map_offset` (seven entries). -/
def wMapOffset : List Nat := [0, 1, 4, 10, 20, 35, 63]

/-- Outcome of a call. -/
inductive Outcome (α : Type)
  | ok (a : α)
  | throws
  | ub
  deriving DecidableEq

/-- level_symmetric.hpp:65-74: the square of the `i`-th base cosine, `mu0^2 + i * delta_mu` with
`delta_mu = 2 (1 - 3 mu0^2) / (order - 2)` and `order = 2 n`. -/
def muSq (n : Nat) (mu0 : ℚ) (i : Nat) : ℚ :=
  if i = 0 then mu0 * mu0 else mu0 * mu0 + i * (2 * (1 - 3 * (mu0 * mu0)) / ((2 * n : ℕ) - 2 : ℚ))

/-- level_symmetric.hpp:65-74: the `i`-th base cosine. -/
noncomputable def mu (n : Nat) (mu0 : ℚ) (i : Nat) : ℝ :=
  if i = 0 then (mu0 : ℝ) else Real.sqrt (muSq n mu0 i : ℝ)

/-- level_symmetric.hpp:87-90: the double loop: the three cosine indices and the running counter `k`. -/
def loopIndices (n : Nat) : List (Nat × Nat × Nat × Nat) :=
  (List.range n).flatMap (fun i => (List.range (i + 1)).map (fun j => (i - j, j, n - i - 1, i * (i + 1) / 2 + j)))

/-- level_symmetric.hpp:79-90: `weights[map[k]-1]` as `w_unique[w_offset[n-1] + w_map[w_map_offset[n-1]+k] - 1]`;
`none` if a table is read out of bounds. -/
def weightAt (n k : Nat) : Option ℚ :=
  match wOffset[n - 1]?, wMapOffset[n - 1]? with
  | some wo, some mo =>
    match wMap[mo + k]? with
    | some m => wUnique[wo + m - 1]?
    | none => none
  | _, _ => none

/-- level_symmetric.hpp:84-96 with the cosines still as indices: (ix, iy, iz, unnormalised weight). -/
def entries (n : Nat) : Option (List (Nat × Nat × Nat × ℚ)) :=
  (loopIndices n).mapM (fun e => (weightAt n e.2.2.2).map (fun w => (e.1, e.2.1, e.2.2.1, w)))

/-- level_symmetric.hpp:54-107 `GenSn`. -/
noncomputable def genSn (order : Int) : Outcome (List (Angle ℝ)) :=
  if order % 2 ≠ 0 then .throws
  else if order > 16 then .throws
  else if order ≤ 0 then .ub   -- `mu_base[n - 1]` with n - 1 < 0
  else
    let n := (order / 2).toNat
    match muBase[n - 1]?, entries n with
    | some mu0, some es =>
      let wsum := (es.map (fun e => e.2.2.2)).sum
      .ok (es.map (fun e => ⟨mu n mu0 e.1, mu n mu0 e.2.1, mu n mu0 e.2.2.1, ((e.2.2.2 / wsum : ℚ) : ℝ)⟩))
    | _, _ => .ub

end Verif.Quad.LS
