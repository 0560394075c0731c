import Verif.Mesh.Model

/-!
# Model of moving a particle

`src/sweepers/mc/particle_pusher.cpp` (`distance_to_pin`, crossing of a pin boundary in `simulate`) and `src/sweepers/mc/particle.hpp` (`move`).
-/

namespace Verif.Mc

open Verif.Mesh

variable {K : Type} [Field K] [LinearOrder K]

/-- particle_pusher.cpp:36-39 (and alike for y and z); `none` is the largest number.  A zero component of the direction gives an infinite
quotient or none at all, and then the largest number. -/
def axisDist (lo hi x o : K) : Option K :=
  if o = 0 then none
  else
    let t := if 0 < o then (hi - x) / o else (lo - x) / o
    if 0 < t then some t else none

/-- `std::min` with `none` as the largest number. -/
def minOpt : Option K → Option K → Option K
  | none, b => b
  | a, none => a
  | some a, some b => some (min a b)

/-- particle_pusher.cpp:30-57 `distance_to_pin`; the assertions are not modelled. -/
def distanceToPin (lo hi p o : Vec3 K) : Option K :=
  minOpt (axisDist lo.z hi.z p.z o.z) (minOpt (axisDist lo.y hi.y p.y o.y) (minOpt (axisDist lo.x hi.x p.x o.x) none))

/-- util/sign.hpp:23-25 `sgn`. -/
def sgn (v : K) : K := (if 0 < v then 1 else 0) - (if v < 0 then 1 else 0)

/-- particle.hpp:104-112: one coordinate. -/
def moveAxis (bump d x o : K) : K := x + ((d + bump) * o + bump * sgn o)

/-- The positions of a particle: in the pin (x and y) and in the core. -/
structure Place (K : Type) where
  lx : K
  ly : K
  g : Vec3 K

/-- particle.hpp:102-114 `move`; `bump` is `BUMP`. -/
def move (bump d : K) (o : Vec3 K) (p : Place K) : Place K :=
  ⟨moveAxis bump d p.lx o.x, moveAxis bump d p.ly o.y,
    ⟨moveAxis bump d p.g.x o.x, moveAxis bump d p.g.y o.y, moveAxis bump d p.g.z o.z⟩⟩

/-- Boundary conditions a particle can meet; others give an exception (particle_pusher.cpp:307-308). -/
inductive Bc
  | reflect | vacuum | other
deriving DecidableEq, Repr

/-- The cosines after `Direction::reflect` (direction.hpp:114-125). -/
def mirror (o : Vec3 K) : Surface → Vec3 K
  | .EAST | .WEST => ⟨-o.x, o.y, o.z⟩
  | .NORTH | .SOUTH => ⟨o.x, -o.y, o.z⟩
  | .TOP | .BOTTOM => ⟨o.x, o.y, -o.z⟩
  | .INTERNAL => o

/-- What the loop over the boundary surfaces changes. -/
structure Hit (K : Type) where
  o : Vec3 K
  alive : Bool
  reflected : Bool

/-- particle_pusher.cpp:288-311: one pass of the loop; `none` is the exception. -/
def meetSurface (bc : Surface → Bc) (h : Hit K) (s : Surface) : Option (Hit K) :=
  if s = .INTERNAL ∨ h.alive = false then some h
  else match bc s with
    | .reflect => some ⟨mirror h.o s, h.alive, true⟩
    | .vacuum => some ⟨h.o, false, h.reflected⟩
    | .other => none

/-- particle_pusher.cpp:276-320: a particle that crosses a pin boundary after the distance `d`: the place and the direction afterwards, and
whether it is alive; `none` is the exception. -/
def cross (e : Extent K) (bc : Surface → Bc) (bump d : K) (o : Vec3 K) (p : Place K) : Option (Place K × Hit K) := do
  let p1 := move bump d o p
  let b := boundarySurface e p1.g o
  let h0 ← meetSurface bc ⟨o, true, false⟩ b.1
  let h1 ← meetSurface bc h0 b.2.1
  let h2 ← meetSurface bc h1 b.2.2
  return (if h2.reflected then move bump bump h2.o p1 else p1, h2)

end Verif.Mc
