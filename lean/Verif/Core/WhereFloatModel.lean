import Verif.Core.WhereModel

/-!
# Model of the faces of pins and lattices and of the location of points, in double precision

`src/core/lattice.cpp` 68-92 and 125-163, `src/core/plane.cpp` 34-52 and 97-139, `src/core/core.cpp` 123-134, `src/core/core_mesh.cpp` 45-53,
98-122, 130-139 and 246-279, `src/core/mesh.hpp` 837-854, `src/util/fp_utils.hpp` 76-79 and 124-126.  The functions are those of `LatticeModel` and `WhereModel` with
every sum, difference, product and quotient rounded by `rnd`.  Comparisons are exact.
-/

namespace Verif.Core

open Verif.Mc (Out)

variable {K : Type} [Field K] [LinearOrder K]

/-- lattice.cpp:84-92 (`x_vec_`, `y_vec_` of a lattice), plane.cpp:36-52 (`hx_`, `hy_` of a plane), core_mesh.cpp:100-122 (`x_vec_`, `y_vec_` of the core), 134-139
(`z_vec_`): each face is the rounded sum of the face before and the pitch. -/
def facesF (rnd : K → K) : List K → K → List K
  | [], x => [x]
  | h :: hs, x => x :: facesF rnd hs (rnd (x + h))

/-- lattice.cpp:69-81 (`hx_`, `hy_` of a lattice), core_mesh.cpp:45-53 (`hx_`, `hy_` of the core, the corner of its bounding box, line 130). -/
def totalF (rnd : K → K) (hs : List K) : K := hs.foldl (fun s h => rnd (s + h)) 0

/-- fp_utils.hpp:124-126 `fuzzy_lt`; see `fuzzyLt` for a zero right argument. -/
def fuzzyLtF (rnd : K → K) (fuzz l r : K) : Bool := if r = 0 then decide (l < 0) else decide (rnd (rnd (l - r) / |r|) < -fuzz)

/-- fp_utils.hpp:76-79 `fp_equiv_abs`. -/
def equivAbsF (rnd : K → K) (fuzz a b : K) : Bool := decide (|rnd (a - b)| < fuzz)

/-- lattice.cpp:137-144, plane.cpp:105-110 and 119: one coordinate of `get_pinmesh`, see `locate`. -/
def locateF (rnd : K → K) (fuzz : K) (equiv : K → K → Bool) (xs : List K) (n : Nat) (p o : K) : Option Nat :=
  let ix := Util.lowerBoundLoop (fun i => fuzzyLtF rnd fuzz (xs.getD i 0) p) 0 xs.length
  match xs[ix]? with
  | none => none
  | some x =>
    let ix := if equiv p x then (if 0 < o then ix + 1 else ix) else ix
    some (min (n - 1) (max 0 ((ix + (2^32 - 1)) % 2^32)))

/-- lattice.cpp:137-146 and 148-155: column (or row) of the pin and its middle, `0.5 * (x_vec_[ix + 1] + x_vec_[ix])`. -/
def latAxisF (rnd : K → K) (fuzz : K) (xs : List K) (n : Nat) (p o : K) : Option (Nat × K) := do
  let i ← locateF rnd fuzz (equivAbsF rnd fuzz) xs n p o
  let x1 ← xs[i + 1]?
  let x0 ← xs[i]?
  return (i, rnd (1 / 2 * rnd (x1 + x0)))

/-- lattice.cpp:125-163 `Lattice::get_pinmesh`, see `latPin`. -/
def latPinF (rnd : K → K) (fuzz : K) (l : Lat K) (px py ox oy : K) (firstReg : Nat) : Option (Nat × Nat × K × K × Nat) := do
  let x ← latAxisF rnd fuzz l.xs l.nx px ox
  let y ← latAxisF rnd fuzz l.ys l.ny py oy
  let r ← l.firstReg[y.1 * l.nx + x.1]?
  return (x.1, y.1, x.2, y.2, firstReg + r)

/-- plane.cpp:97-139 `Plane::get_pinmesh`, see `planePin`. -/
def planePinF (rnd : K → K) (fuzz : K) (equiv : K → K → Bool) (g : PlaneG K) (px py ox oy : K) (firstReg : Nat) :
    Option (Nat × Nat × Nat × Nat × K × K × Nat) := do
  let ax ← locateF rnd fuzz equiv g.hx g.nx px ox
  let ay ← locateF rnd fuzz equiv g.hy g.ny py oy
  let x ← g.hx[ax]?
  let y ← g.hy[ay]?
  let r ← g.firstReg[g.nx * ay + ax]?
  let l ← g.lats[ay * g.nx + ax]?
  let q ← latPinF rnd fuzz l (rnd (px - x)) (rnd (py - y)) ox oy (firstReg + r)
  return (ax, ay, q.1, q.2.1, rnd (q.2.2.1 + x), rnd (q.2.2.2.1 + y), q.2.2.2.2)

/-- mesh.hpp:837-854 `plane_index(z, oz)`, see `planeIndex`. -/
def planeIndexF (rnd : K → K) (fuzz : K) (equiv : K → K → Bool) (zs : List K) (nz : Nat) (z oz : K) : Out Int :=
  let iz := Util.lowerBoundLoop (fun i => fuzzyLtF rnd fuzz (zs.getD i 0) z) 0 zs.length
  match zs[iz]? with
  | none => .ub
  | some c =>
    if equiv z c = true ∧ oz = 0 then .throw
    else
      let iz : Int := if equiv z c then (if 0 < oz then (iz : Int) + 1 else iz) else iz
      .ok (max 0 (min (iz - 1) ((nz : Int) - 1)))

/-- core_mesh.cpp:246-279 `get_location_info`, see `locationInfo`. -/
def locationInfoF (rnd : K → K) (fuzz : K) (equiv : K → K → Bool) (c : CoreG K) (px py pz ox oy oz : K) : Out (Location K) :=
  let x := posOf c.xs px
  let y := posOf c.ys py
  match planeIndexF rnd fuzz equiv c.zs c.nz pz oz with
  | .ub => .ub
  | .throw => .throw
  | .ok z =>
    match (do
      let first ← readInt c.firstReg z
      let u ← readInt c.uniq z
      let g ← c.planes[u]?
      let r ← planePinF rnd fuzz equiv g px py ox oy first
      let x0 ← readInt c.xs x
      let y0 ← readInt c.ys y
      let z0 ← readInt c.zs z
      let x1 ← readInt c.xs (x + 1)
      let y1 ← readInt c.ys (y + 1)
      let z1 ← readInt c.zs (z + 1)
      return ({ mesh := (r.1, r.2.1, r.2.2.1, r.2.2.2.1), localX := rnd (px - r.2.2.2.2.1), localY := rnd (py - r.2.2.2.2.2.1),
                reg := r.2.2.2.2.2.2, pos := (x, y, z), lower := (x0, y0, z0), upper := (x1, y1, z1) } : Location K)) with
    | some i => .ok i
    | none => .ub

end Verif.Core
