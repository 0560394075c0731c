import Verif.Scatter.Model

/-!
# Cross-section regions

Model of `XSMeshRegion` in src/core/xs_mesh_region.{hpp,cpp}.  Cross sections are functions of the group.  The code keeps pointers into arrays of the
mesh; that copies of a region share them is modelled in `ShareModel` (C149).
-/

namespace Verif.XS.Region

variable {K : Type} [Field K] [LinearOrder K]

open Verif.Scatter

/-- xs_mesh_region.hpp:223-239: the members except for the list of flat source regions. -/
structure Region (K : Type) where
  fissile : Bool
  tr : Nat → K
  nf : Nat → K
  f : Nat → K
  ch : Nat → K
  rm : Nat → K
  sc : Matrix K

/-- xs_mesh_region.cpp:22-42, the constructor; `rm0` is what was in the array for the removal cross section before. -/
def create (tr nf ch f rm0 : Nat → K) (sc : Matrix K) : Region K :=
  { fissile := (List.range sc.ng).any fun g : Nat => decide (0 < nf g), tr := tr, nf := nf, f := f, ch := ch,
    rm := fun g => if g < sc.ng then tr g - (sc.selfScat g).getD 0 else rm0 g, sc := sc }

/-- xs_mesh_region.hpp:153-165 `update`. -/
def update (r : Region K) (tr nf ch f : Nat → K) (sc : Matrix K) : Region K :=
  { r with
    tr := fun g => if g < sc.ng then tr g else r.tr g
    nf := fun g => if g < sc.ng then nf g else r.nf g
    ch := fun g => if g < sc.ng then ch g else r.ch g
    f := fun g => if g < sc.ng then f g else r.f g
    rm := fun g => if g < sc.ng then tr g - (sc.selfScat g).getD 0 else r.rm g
    sc := sc }

/-- xs_mesh_region.hpp:175-181 `update_removal`. -/
def updateRemoval (r : Region K) : Region K :=
  { r with rm := fun g => if g < r.sc.ng then r.tr g - (r.sc.selfScat g).getD 0 else r.rm g }

/-- xs_mesh_region.hpp:183-213 `operator==` of different objects; `same` is `fp_equiv_ulp`.  The comparison of the matrices is done once per
group in the code. -/
def eqv (same : K → K → Bool) (a b : Region K) : Bool :=
  if a.sc.ng ≠ b.sc.ng then false
  else (List.range a.sc.ng).all fun g : Nat =>
    same (a.tr g) (b.tr g) && same (a.nf g) (b.nf g) && same (a.f g) (b.f g) && same (a.rm g) (b.rm g) && a.sc.eqv b.sc

/-- xs_mesh_homogenized.cpp:63-65: a region of the homogenised mesh begins with an empty scattering matrix (scattering_matrix.hpp:86-88) and
arrays with anything in them. -/
def empty (tr nf ch f rm : Nat → K) : Region K := create tr nf ch f rm ⟨0, [], fun _ => 0, []⟩

end Verif.XS.Region
