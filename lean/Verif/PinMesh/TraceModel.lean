import Verif.PinMesh.Model

/-!
# Model of tracing a ray through a pin

`PinMesh_Rect::trace` and `PinMesh_Cyl::trace`.  `std::sort` is a parameter: all that is known of it is that the result is a
permutation of the points in which none has a smaller `y` than one before it (`Point2::operator<`, points.hpp:51-54, compares
only `y`).  `eq` is `Point2::operator==` (59-62), `dist` is `Point2::distance` (39-42).
-/

namespace Verif.PinMesh

open Verif.Geom

variable {K : Type} [Field K] [LinearOrder K]

/-- `std::unique` after the element `last` was kept: an element equal to the last one kept is dropped. -/
def uniqueFrom (eq : Pt K → Pt K → Bool) : (last : Pt K) → List (Pt K) → List (Pt K)
  | _, [] => []
  | last, q :: qs => if eq last q then uniqueFrom eq last qs else q :: uniqueFrom eq q qs

/-- `ps.erase(std::unique(ps.begin(), ps.end()), ps.end())` (pin_mesh_rect.cpp:128, pin_mesh_cyl.cpp:210). -/
def unique (eq : Pt K → Pt K → Bool) : List (Pt K) → List (Pt K)
  | [] => []
  | p :: ps => p :: uniqueFrom eq p ps

/-- pin_mesh_rect.cpp:131-134, pin_mesh_cyl.cpp:213-217: lengths and regions of the pieces between neighbouring points. -/
def pieces (dist : Pt K → Pt K → K) (reg : Pt K → Int) : List (Pt K) → List (K × Int)
  | a :: b :: rest => (dist b a, reg (midpoint b a)) :: pieces dist reg (b :: rest)
  | _ => []

/-- pin_mesh_rect.cpp:105-137 `trace`: the segment lengths and regions appended. -/
def Rect.trace (m : Rect K) (sort : List (Pt K) → List (Pt K)) (eq : Pt K → Pt K → Bool) (dist : Pt K → Pt K → K) (p1 p2 : Pt K)
    (first : Int) : List (K × Int) :=
  pieces dist (fun q => m.findReg q + first)
    (unique eq (sort (p1 :: p2 :: m.lines.filterMap fun li => meet li ⟨p1, p2⟩)))

/-- pin_mesh_cyl.cpp:188-196: the points where the ray meets a ring; used only if there are two. -/
def ringCuts (sqrt : K → K) (fuzz : K) (l : Line K) (r : K) : List (Pt K) :=
  let h := hitCircle sqrt fuzz l ⟨⟨0, 0⟩, r⟩
  if h.ret = 2 then h.p1.toList ++ h.p2.toList else []

/-- pin_mesh_cyl.cpp:136-147 `lines_`: from the origin to where the direction at angle `iazi * 2π / n` meets the boundary of the
pin; `none`: that point has no coordinates. -/
def Cyl.lines (m : Cyl K) (fuzz far twopi : K) (cos sin : K → K) : List (Option (Line K)) :=
  (List.range m.nAzi.toNat).map fun i : Nat =>
    ((Box.mk' ⟨-(1 / 2 * m.pitch), -(1 / 2 * m.pitch)⟩ ⟨1 / 2 * m.pitch, 1 / 2 * m.pitch⟩).intersect fuzz far ⟨0, 0⟩
      (cos (i * (twopi / (m.nAzi : K)))) (sin (i * (twopi / (m.nAzi : K))))).map fun q => ⟨⟨0, 0⟩, q⟩

/-- pin_mesh_cyl.cpp:177-219 `trace`, given the lines between the sectors and `find_reg`. -/
def Cyl.trace (m : Cyl K) (sqrt : K → K) (fuzz : K) (lines : List (Line K)) (reg : Pt K → Int)
    (sort : List (Pt K) → List (Pt K)) (eq : Pt K → Pt K → Bool) (dist : Pt K → Pt K → K) (p1 p2 : Pt K)
    (first : Int) : List (K × Int) :=
  pieces dist (fun q => reg q + first)
    (unique eq (sort (p1 :: p2 :: (m.radii.flatMap (ringCuts sqrt fuzz ⟨p1, p2⟩) ++
      lines.filterMap fun li => meet li ⟨p1, p2⟩))))

end Verif.PinMesh
