import Verif.Geom.Model
import Verif.Util.LowerBound
import Mathlib.Algebra.Order.Floor.Ring

/-!
# Model of the pin meshes

`src/core/pin_mesh_rect.cpp`, `src/core/pin_mesh_cyl.cpp`, `pin_mesh_base.cpp`.  Lengths are elements of an ordered field;
`sqrt`, `atan2`, π and the comparisons of `fp_utils.hpp` are parameters.
-/

namespace Verif.PinMesh

open Verif.Geom

variable {K : Type} [Field K] [LinearOrder K]

/-! ## Rectangular -/

/-- What the constructor of `PinMesh_Rect` keeps (pin_mesh_rect.cpp:28-76): the pitch (the same in x and y,
pin_mesh_base.cpp:31-37) and the numbers of divisions. -/
structure Rect (K : Type) where
  pitch : K
  nx : Nat
  ny : Nat

/-- pin_mesh_base.cpp:31-37 and pin_mesh_rect.cpp:32-41: which input is accepted (`none`: exception).  A pitch or division
that cannot be read is negative or zero here. -/
def mkRect (pitch : K) (subX subY : Int) : Option (Rect K) :=
  if pitch ≤ 0 then none
  else if subX < 1 then none
  else if subY < 1 then none
  else some ⟨pitch, subX.toNat, subY.toNat⟩

/-- pin_mesh_rect.cpp:48-60 `hx_`: `i * dx - h_pitch_x` for `i = 0 .. ndiv_x`; `hy_` alike. -/
def grid (pitch : K) (n : Nat) (i : Nat) : K := i * (pitch / n) - 1 / 2 * pitch

/-- pin_mesh_rect.cpp:42-43: `n_reg_`. -/
def Rect.nReg (m : Rect K) : Nat := m.nx * m.ny

/-- pin_mesh_rect.cpp:73 `areas_ = VecF(n_reg_, dx * dy)`. -/
def Rect.areas (m : Rect K) : List K := List.replicate m.nReg (m.pitch / m.nx * (m.pitch / m.ny))

/-- pin_mesh_rect.cpp:63-70 `lines_`: the interior grid lines, those of constant x first. -/
def Rect.lines (m : Rect K) : List (Line K) :=
  (List.range' 1 (m.nx - 1)).map (fun i =>
    ⟨⟨grid m.pitch m.nx i, -(1 / 2 * m.pitch)⟩, ⟨grid m.pitch m.nx i, 1 / 2 * m.pitch⟩⟩) ++
  (List.range' 1 (m.ny - 1)).map (fun i =>
    ⟨⟨-(1 / 2 * m.pitch), grid m.pitch m.ny i⟩, ⟨1 / 2 * m.pitch, grid m.pitch m.ny i⟩⟩)

/-- `std::distance(hx_.begin(), std::lower_bound(hx_.cbegin(), hx_.cend(), x))` (pin_mesh_rect.cpp:154-157). -/
def lowerGrid (pitch : K) (n : Nat) (x : K) : Nat :=
  Util.lowerBoundLoop (fun i => decide (grid pitch n i < x)) 0 (n + 1)

/-- pin_mesh_rect.cpp:144-165 `find_reg(Point2)`.  The unsigned product and sum have the value of the integer expression
when converted to `int`.  The assertion on the result is not modelled. -/
def Rect.findReg (m : Rect K) (p : Pt K) : Int :=
  if 1 / 2 * m.pitch < |p.x| then -1
  else if 1 / 2 * m.pitch < |p.y| then -1
  else
    let ix : Int := (lowerGrid m.pitch m.nx p.x : Int) - 1
    let iy : Int := (lowerGrid m.pitch m.ny p.y : Int) - 1
    m.nx * iy + ix

/-- fp_utils.hpp:124-126 `fuzzy_lt`: the quotient by zero is an infinity of the sign of the numerator, or NaN. -/
def fuzzyLt (fuzz l r : K) : Bool :=
  if r = 0 then decide (l < 0) else decide ((l - r) / |r| < -fuzz)

/-- One coordinate of pin_mesh_rect.cpp:177-188: the fuzzy lower bound, a step to the right on a grid line if the direction
points there, clamped.  `none`: `hx_[ix]` is read past its end. -/
def fuzzyCell (near : K → K → Bool) (fuzz pitch : K) (n : Nat) (x o : K) : Option Nat :=
  let ix := Util.lowerBoundLoop (fun i => fuzzyLt fuzz (grid pitch n i) x) 0 (n + 1)
  if n < ix then none
  else
    let ix := if near x (grid pitch n ix) then (if 0 < o then ix + 1 else ix) else ix
    some (max 0 (min ((n : Int) - 1) ((ix : Int) - 1))).toNat

/-- pin_mesh_rect.cpp:167-193 `find_reg(Point2, Direction)`; `near` is `fp_equiv`. -/
def Rect.findRegDir (m : Rect K) (near : K → K → Bool) (fuzz : K) (p : Pt K) (dir : Dir K) : Option Int :=
  if (p.x < -(1 / 2) * m.pitch + fuzz ∧ dir.ox < 0) ∨ (1 / 2 * m.pitch - fuzz < p.x ∧ 0 < dir.ox) ∨
      (p.y < -(1 / 2) * m.pitch + fuzz ∧ dir.oy < 0) ∨ (1 / 2 * m.pitch - fuzz < p.y ∧ 0 < dir.oy) then some (-1)
  else do
    let ix ← fuzzyCell near fuzz m.pitch m.nx p.x dir.ox
    let iy ← fuzzyCell near fuzz m.pitch m.ny p.y dir.oy
    return ((m.nx * iy + ix : Nat) : Int)

/-! ## Cylindrical -/

/-- Members of `PinMesh_Cyl` (pin_mesh_cyl.hpp:60-72) set by the constructor. -/
structure Cyl (K : Type) where
  pitch : K
  xsRadii : List K
  subRad : List Int
  nAzi : Int
  radii : List K

/-- pin_mesh_cyl.cpp:57-66: neighbouring radii are not decreasing. -/
def ordered : List K → Bool
  | r :: r' :: rs => decide (r ≤ r') && ordered (r' :: rs)
  | _ => true

/-- pin_mesh_cyl.cpp:121-125: the mesh radii of one material ring, `n` of them from the radius `ri`; also the last. -/
def ringLoop (sqrt : K → K) (vn : K) : (n : Nat) → (ri : K) → List K × K
  | 0, ri => ([], ri)
  | n + 1, ri =>
    let r := sqrt (vn + ri * ri)
    let q := ringLoop sqrt vn n r
    (r :: q.1, q.2)

/-- pin_mesh_cyl.cpp:114-127: the loop over the material rings.  A count below one makes no mesh ring (the quotient is then
not used). -/
def radiiLoop (sqrt : K → K) : List (K × Int) → (rxsi ri : K) → List K
  | [], _, _ => []
  | (rxs, sub) :: rest, rxsi, ri =>
    let vn := (rxs * rxs - rxsi * rxsi) / (sub : K)
    let q := ringLoop sqrt vn sub.toNat ri
    q.1 ++ radiiLoop sqrt rest rxs q.2

/-- pin_mesh_cyl.cpp:36-127: what the constructor accepts and stores.  The text is taken as already split into numbers; a
list that is empty cannot be read (46-50). -/
def mkCyl (sqrt : K → K) (pitch : K) (xsRadii : List K) (subAzi : Int) (subRad : List Int) : Option (Cyl K) :=
  if pitch ≤ 0 then none
  else
    match xsRadii.getLast? with
    | none => none
    | some last =>
      if ordered xsRadii = false then none
      else if pitch * (1 / 2) < last then none
      else if subAzi % 2 ≠ 0 ∨ 8 < subAzi then none
      else if subRad.length ≠ xsRadii.length then none
      else some ⟨pitch, xsRadii, subRad, subAzi, radiiLoop sqrt (xsRadii.zip subRad) 0 0⟩

/-- pin_mesh_cyl.cpp:150 `n_reg_`. -/
def Cyl.nReg (m : Cyl K) : Int := (m.radii.length + 1) * m.nAzi

/-- pin_mesh_cyl.cpp:153-160: the areas of the rings. -/
def ringAreas (pi : K) (nAzi : Int) : List K → (prev : K) → List K
  | [], _ => []
  | r :: rs, prev => List.replicate nAzi.toNat (pi * (r * r - prev * prev) / (nAzi : K)) ++ ringAreas pi nAzi rs r

/-- pin_mesh_cyl.cpp:153-167 `areas_`; `none`: there is no mesh ring and `radii_[-1]` is read (163). -/
def Cyl.areas (pi : K) (m : Cyl K) : Option (List K) := do
  let large ← m.radii.getLast?
  return ringAreas pi m.nAzi m.radii 0 ++
    List.replicate m.nAzi.toNat ((m.pitch * m.pitch - pi * large * large) / (m.nAzi : K))

/-- pin_mesh_cyl.hpp:38-48 `n_fsrs`. -/
def Cyl.nFsrs (m : Cyl K) (xsreg : Nat) : Int :=
  match m.subRad[xsreg]? with
  | some s => s * m.nAzi
  | none => m.nAzi

/-- pin_mesh_cyl.cpp:236-241: the first ring the point is inside of. -/
def ringOf (radii : List K) (r : K) : Nat :=
  match radii with
  | [] => 0
  | x :: xs => if r < x then 0 else ringOf xs r + 1

variable [FloorRing K]

/-- Conversion of a double to `int`: truncation towards zero. -/
def toInt (x : K) : Int := if 0 ≤ x then ⌊x⌋ else ⌈x⌉

/-- pin_mesh_cyl.cpp:227-256 `find_reg(Point2)`.  The assertion on the result is not modelled. -/
def Cyl.findReg (m : Cyl K) (sqrt : K → K) (atan2 : K → K → K) (twopi : K) (p : Pt K) : Int :=
  if 1 / 2 * m.pitch < |p.x| ∨ 1 / 2 * m.pitch < |p.y| then -1
  else
    let r := sqrt (p.x * p.x + p.y * p.y)
    let ir := ringOf m.radii r
    let azi := alpha atan2 twopi p
    let ia := toInt (azi / (twopi / (m.nAzi : K)))
    ir * m.nAzi + ia

/-- `std::round` for arguments that are not negative. -/
def roundNN (x : K) : Int := ⌊x + 1 / 2⌋

/-- pin_mesh_cyl.cpp:287-306: the azimuthal index chosen for a point at angle `azi0` and a direction at angle `dalpha`;
`near` is `fp_equiv_ulp`.  The result of `%` has the sign of the dividend. -/
def aziDir (near : K → K → Bool) (fuzz pi : K) (nAzi : Int) (azi0 dalpha : K) : Int :=
  let twopi := 2 * pi
  let azi := if near azi0 twopi then (if pi < dalpha then twopi else 0) else azi0
  let space := twopi / (nAzi : K)
  let div := azi / space
  let closest := roundNN div
  let ia := if |(closest : K) * space - azi| < fuzz then (if azi < dalpha then closest else closest - 1) else toInt div
  ia.tmod nAzi

/-- pin_mesh_cyl.cpp:268-285: the ring chosen for a point at distance `r` with `dot` the product of position and
direction. -/
def ringDir (near : K → K → Bool) (fuzz : K) (radii : List K) (r dot : K) : Nat :=
  let ir := Util.lowerBoundLoop (fun i => fuzzyLt fuzz (radii.getD i 0) r) 0 radii.length
  match radii[ir]? with
  | some x => if near r x then (if 0 < dot then ir + 1 else ir) else ir
  | none => ir

/-- pin_mesh_cyl.cpp:258-311 `find_reg(Point2, Direction)`; `dalpha` is the azimuthal angle of the direction. -/
def Cyl.findRegDir (m : Cyl K) (near : K → K → Bool) (fuzz : K) (sqrt : K → K) (atan2 : K → K → K) (pi : K) (p : Pt K)
    (dir : Dir K) (dalpha : K) : Int :=
  if (p.x < -(1 / 2) * m.pitch ∧ dir.ox < 0) ∨ (1 / 2 * m.pitch < p.x ∧ 0 < dir.ox) ∨
      (p.y < -(1 / 2) * m.pitch ∧ dir.oy < 0) ∨ (1 / 2 * m.pitch < p.y ∧ 0 < dir.oy) then -1
  else
    ringDir near fuzz m.radii (sqrt (p.x * p.x + p.y * p.y)) (p.x * dir.ox + p.y * dir.oy) * m.nAzi +
      aziDir near fuzz pi m.nAzi (alpha atan2 (2 * pi) p) dalpha

end Verif.PinMesh
