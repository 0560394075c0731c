import Verif.Core.LatticeModel
import Mathlib.Algebra.BigOperators.Group.List.Basic

/-!
# Model of the list of pins of the core and their positions

`src/core/lattice.cpp` (pitches), `src/core/plane.cpp` (constructor, `pin_position`), `src/core/core_mesh.cpp` (list of pins, pin
boundaries, `pin_position`, `pin_origin`).  `real_t` is a field.  Reading outside of a vector is `none`.
-/

namespace Verif.Core

variable {P K : Type}

/-- What planes use of a `Lattice` (lattice.hpp:178-195): numbers of pins, the pins row by row from the bottom, `hx_vec_` and `hy_vec_`. -/
structure Lattice (P K : Type) where
  nx : Nat
  ny : Nat
  pins : List P
  hxs : List K
  hys : List K

/-- lattice.cpp:68-110, after the pins have been arranged: the pitches are those of the first row and column, and all pins must have them;
`none`: exception (or missing pins). -/
def mkLattice [DecidableEq K] (pitchX pitchY : P → K) (nx ny : Nat) (pins : List P) : Option (Lattice P K) := do
  let hxs ← (List.range nx).mapM fun ix => pins[ix]?.map pitchX
  let hys ← (List.range ny).mapM fun iy => pins[iy * nx]?.map pitchY
  if (List.range ny).all fun iy => (List.range nx).all fun ix =>
      decide (pins[iy * nx + ix]?.map pitchX = hxs[ix]?) && decide (pins[iy * nx + ix]?.map pitchY = hys[iy]?)
  then some ⟨nx, ny, pins, hxs, hys⟩ else none

/-- A `Plane`: numbers of lattices, and the lattices row by row from the bottom (plane.hpp:171-181). -/
structure PlaneP (P K : Type) where
  nx : Nat
  ny : Nat
  lats : List (Lattice P K)

/-- plane.hpp:31-38 `at`. -/
def PlaneP.at_ (g : PlaneP P K) (ix iy : Nat) : Option (Lattice P K) := g.lats[ix + g.nx * iy]?

/-- lattice.cpp:69-81: `hx()`, the sum of the pitches; `hy()`. -/
def Lattice.hx [AddMonoid K] (l : Lattice P K) : K := l.hxs.sum
@[inherit_doc Lattice.hx] def Lattice.hy [AddMonoid K] (l : Lattice P K) : K := l.hys.sum

/-- plane.cpp:54-63: all lattices must be as wide as the first one of their column and as high as the first one of their row, up to
`near`. -/
def PlaneP.conform [AddMonoid K] (near : K → K → Bool) (g : PlaneP P K) : Bool :=
  (List.range g.ny).all fun iy => (List.range g.nx).all fun ix =>
    match g.at_ ix iy, g.at_ ix 0, g.at_ 0 iy with
    | some l, some c, some r => near l.hx c.hx && near l.hy r.hy
    | _, _, _ => false

/-- plane.cpp:41 and 50: `nx_pin_`, `ny_pin_`. -/
def PlaneP.nxPin (g : PlaneP P K) : Option Nat := ((List.range g.nx).mapM fun ix => (g.at_ ix 0).map (·.nx)).map List.sum
@[inherit_doc PlaneP.nxPin]
def PlaneP.nyPin (g : PlaneP P K) : Option Nat := ((List.range g.ny).mapM fun iy => (g.at_ 0 iy).map (·.ny)).map List.sum

/-- plane.cpp:72-86: `n_pin_`, counted over all lattices. -/
def PlaneP.nPin (g : PlaneP P K) : Nat := (g.lats.map fun l => l.pins.length).sum

/-- plane.cpp:145-151: find the lattice and the number within it. -/
def findLat : List (Lattice P K) → Nat → Nat → Nat × Nat
  | [], ipin, ilat => (ilat, ipin)
  | l :: ls, ipin, ilat => if ipin < l.pins.length then (ilat, ipin) else findLat ls (ipin - l.pins.length) (ilat + 1)

/-- plane.cpp:141-171 `pin_position`: column and row.  `none`: division by zero or a lattice out of range. -/
def PlaneP.pinPosition (g : PlaneP P K) (ipin : Nat) : Option (Nat × Nat) :=
  if g.nPin = 0 ∨ g.nx = 0 then none
  else do
    let r := findLat g.lats (ipin % g.nPin) 0
    let latX := r.1 % g.nx
    let latY := r.1 / g.nx
    let l ← g.at_ latX latY
    let xs ← (List.range latX).mapM fun ix => (g.at_ ix 0).map (·.nx)
    let ys ← (List.range latY).mapM fun iy => (g.at_ 0 iy).map (·.ny)
    if l.nx = 0 then none else some (xs.sum + r.2 % l.nx, ys.sum + r.2 / l.nx)

/-- core_mesh.cpp:62-76: `core_pins_`, plane by plane and lattice by lattice. -/
def corePins (planes : List (PlaneP P K)) : List P := planes.flatMap fun g => g.lats.flatMap (·.pins)

/-- core_mesh.cpp:102-112: `dx_vec_`, from the first row of lattices of plane 0. -/
def PlaneP.dx (g : PlaneP P K) : Option (List K) := ((List.range g.nx).mapM fun ix => (g.at_ ix 0).map (·.hxs)).map List.flatten

/-- core_mesh.cpp:113-123: `dy_vec_`, from the first column. -/
def PlaneP.dy (g : PlaneP P K) : Option (List K) := ((List.range g.ny).mapM fun iy => (g.at_ 0 iy).map (·.hys)).map List.flatten

/-- core_mesh.cpp:229-234 `CoreMesh::pin_position`: with `nx`, `ny` the numbers of pins of the core. -/
def corePosition (nx ny : Nat) (plane0 : PlaneP P K) (ipin : Nat) : Option (Nat × Nat × Nat) :=
  if nx * ny = 0 then none
  else (plane0.pinPosition (ipin % (nx * ny))).map fun q => (q.1, q.2, ipin / (nx * ny))

/-- core_mesh.cpp:236-244 `pin_origin`, given `x_vec_` and `y_vec_`. -/
def pinOrigin [Field K] (xs ys : List K) (pos : Nat × Nat) : Option (K × K) := do
  let x0 ← xs[pos.1]?
  let x1 ← xs[pos.1 + 1]?
  let y0 ← ys[pos.2]?
  let y1 ← ys[pos.2 + 1]?
  return ((x0 + x1) * (1 / 2), (y0 + y1) * (1 / 2))

end Verif.Core
