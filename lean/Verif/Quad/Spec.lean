import Verif.Quad.Model

/-!
# Specification vocabulary: mirror images of a direction
-/

namespace Verif.Quad.Spec

variable {K : Type} [Field K]

/-- Mirror image in the plane normal to an axis. -/
def mirror (a : Angle K) : Normal → Angle K
  | .X => ⟨-a.ox, a.oy, a.oz, a.weight⟩
  | .Y => ⟨a.ox, -a.oy, a.oz, a.weight⟩
  | .Z => ⟨a.ox, a.oy, -a.oz, a.weight⟩

/-- Sign flips of the three cosines. -/
def flipSigns (a : Angle K) (sx sy sz : Bool) : Angle K :=
  ⟨if sx then -a.ox else a.ox, if sy then -a.oy else a.oy, if sz then -a.oz else a.oz, a.weight⟩

/-- A direction of the first octant. -/
def FirstOctant [LinearOrder K] (a : Angle K) : Prop := 0 < a.ox ∧ 0 < a.oy ∧ 0 < a.oz

end Verif.Quad.Spec
