import Verif.Mc.PushModel
import Verif.Mc.BankModel
import Verif.XS.CdfModel
import Verif.Scatter.Model
import Mathlib.Algebra.Order.Floor.Defs

/-!
# Model of the history of one particle

`src/sweepers/mc/particle_pusher.cpp` (`collide` and `simulate(Particle)`).  The random numbers are a function of their position in the
stream of the history; the location of points and the distances to surfaces within a pin are parameters (the pin meshes have models of
their own).  Numbers that may be infinite are options.
-/

namespace Verif.Mc

open Verif.Mesh

variable {K : Type} [Field K] [LinearOrder K] [FloorSemiring K]

/-- xs_mesh_region.hpp:231-238: the data of one cross-section region that a history uses. -/
structure Xs (K : Type) where
  tr : Nat → K
  nf : Nat → K
  f : Nat → K
  sc : Scatter.Matrix K
  chi : List K

/-- particle_pusher.hpp:236-250: the tallies of a history. -/
structure Tallies (K : Type) where
  kTl : K
  kCol : K
  pinPower : Nat → K
  /-- by group and coarse cell -/
  flux : Nat → Nat → K
  /-- by group and region -/
  fine : Nat → Nat → K
  fineCol : Nat → Nat → K

/-- A new particle, particle.hpp:61-70; its weight is one. -/
structure Child (K : Type) where
  place : Vec3 K
  dir : Vec3 K
  group : Nat
  id : Nat

/-- core_mesh.hpp:139-146 `LocationInfo`; `find` is `pm->find_reg(p, dir)` and `dist` is `pm->distance_to_surface(p, dir, coincident)` with
the changed `coincident`; `pin` is the number of the coarse cell of `pos`. -/
structure Loc (K : Type) where
  ox : K
  oy : K
  offset : Int
  pin : Nat
  lo : Vec3 K
  hi : Vec3 K
  find : K → K → Vec3 K → Int
  dist : K → K → Vec3 K → Int → Option K × Bool × Int

/-- What `simulate` changes: the particle (particle.hpp:73-91), the location, the position in the random number stream, tallies and bank. -/
structure Hist (K : Type) where
  w : K
  group : Nat
  id : Nat
  place : Place K
  o : Vec3 K
  reg : Nat
  xsreg : Nat
  coincident : Int
  alive : Bool
  loc : Loc K
  n : Nat
  t : Tallies K
  bank : List (Child K)

/-- What `simulate` uses; `iso` is `Direction::Isotropic`, `lastFirst` tells whether the compiler evaluates the last argument of a call
first (the order is unspecified), `lg` is `std::log`, `xsOf` is `xsmesh_regions_`. -/
structure Env (K : Type) where
  xs : Nat → Xs K
  xsOf : Nat → Nat
  locate : Vec3 K → Vec3 K → Loc K
  extent : Extent K
  bc : Surface → Bc
  bump : K
  lg : K → K
  iso : K → K → Vec3 K
  lastFirst : Bool
  r : Nat → K

/-- particle_pusher.cpp:132 and 150: `Direction::Isotropic(RNG.random(), RNG.random())` from the numbers at `n` and `n + 1`. -/
def Env.direction (e : Env K) (n : Nat) : Vec3 K := if e.lastFirst then e.iso (e.r (n + 1)) (e.r n) else e.iso (e.r n) (e.r (n + 1))

/-- `SpatialTally::score`. -/
def add1 (a : Nat → K) (i : Nat) (v : K) : Nat → K := Function.update a i (a i + v)

/-- The same in the tally of group `g`. -/
def add2 (a : Nat → Nat → K) (g i : Nat) (v : K) : Nat → Nat → K := Function.update a g (add1 (a g) i v)

/-- particle_pusher.cpp:146-153: the new particles; three numbers are drawn for each. -/
def newSites (e : Env K) (xs : Xs K) (h : Hist K) (n : Nat) (k : Nat) : List (Child K) :=
  (List.range k).map fun i => ⟨h.place.g, e.direction (n + 3 * i + 1), XS.sampleCdf (XS.chiCdf xs.chi) (e.r (n + 3 * i)), h.id⟩

/-- particle_pusher.cpp:98-164 `collide`.  Divisions by zero and a sampled group beyond the last are undefined. -/
def collide (e : Env K) (h : Hist K) : Out (Hist K) :=
  let xs := e.xs h.xsreg
  match XS.reactionCdf (xs.tr h.group) (xs.sc.out h.group) (xs.f h.group) with
  | none => .ub
  | some cdf =>
    let reaction := XS.sampleCdf cdf (e.r h.n)
    let t := { h.t with kCol := h.t.kCol + h.w * xs.nf h.group / xs.tr h.group
                        fineCol := add2 h.t.fineCol h.group h.reg (h.w / xs.tr h.group) }
    if reaction = XS.Reaction.SCATTER.toNat then
      if xs.sc.out h.group = 0 then .ub
      else
        let g := XS.sampleCdf (xs.sc.outCdf h.group) (e.r (h.n + 1))
        if g < xs.sc.ng then .ok { h with group := g, o := e.direction (h.n + 2), n := h.n + 4, t := t } else .ub
    else if reaction = XS.Reaction.FISSION.toNat then
      if xs.f h.group = 0 then .ub
      else
        let nu := xs.nf h.group / xs.f h.group
        let k := ⌊h.w * nu + e.r (h.n + 1)⌋₊
        .ok { h with alive := false, n := h.n + 2 + 3 * k, t := t, bank := h.bank ++ newSites e xs h (h.n + 2) k }
    else .ok { h with alive := false, n := h.n + 1, t := t }

/-- particle_pusher.cpp:188-205 and 324-342: find the particle anew; a negative region is not in the lists. -/
def relocate (e : Env K) (h : Hist K) : Out (Hist K) :=
  let l := e.locate h.place.g h.o
  let place : Place K := ⟨h.place.g.x - l.ox, h.place.g.y - l.oy, h.place.g⟩
  let reg : Int := l.offset + l.find place.lx place.ly h.o
  if reg < 0 then .ub
  else .ok { h with place := place, loc := l, reg := reg.toNat, xsreg := e.xsOf reg.toNat }

/-- `a < b` with `none` as the largest number. -/
def ltOpt : Option K → Option K → Bool
  | none, _ => false
  | some _, none => true
  | some a, some b => decide (a < b)

/-- particle_pusher.cpp:212: `-log(r) / xstr`; `none` is infinite. -/
def flight (lg : K → K) (r tr : K) : Option K := if r = 0 ∨ tr = 0 then none else some (-lg r / tr)

/-- particle_pusher.cpp:238-245: the scores of a flight of length `tl`. -/
def scoreTrack (xs : Xs K) (h : Hist K) (tl : K) : Tallies K :=
  { h.t with
    kTl := h.t.kTl + tl * h.w * xs.nf h.group
    pinPower := add1 h.t.pinPower h.loc.pin (tl * h.w * xs.f h.group)
    flux := add2 h.t.flux h.group h.loc.pin (tl * h.w)
    fine := add2 h.t.fine h.group h.reg (tl * h.w) }

/-- What ends a flight. -/
inductive Fate
  | collision | inner | border
deriving DecidableEq, Repr

/-- particle_pusher.cpp:210-236 and 245-260: length and end of the next flight, and the changed `coincident`; `none` if all distances are
infinite, which does not happen for a direction other than zero. -/
def leg (e : Env K) (h : Hist K) : Option (K × Fate × Int) :=
  let dcol := flight e.lg (e.r h.n) ((e.xs h.xsreg).tr h.group)
  let s := h.loc.dist h.place.lx h.place.ly h.o h.coincident
  let dp := distanceToPin h.loc.lo h.loc.hi h.place.g h.o
  let d := if ltOpt dp s.1 then dp else s.1
  let atPin := if ltOpt dp s.1 then true else s.2.1
  (minOpt dcol d).map fun tl => (tl, if ltOpt dcol d then Fate.collision else if atPin then Fate.border else Fate.inner, s.2.2)

/-- particle_pusher.cpp:245-345: what happens at the end of a flight of length `tl`. -/
def act (e : Env K) (h : Hist K) (tl : K) : Fate → Out (Hist K)
  | .collision => collide e { h with place := move e.bump tl h.o h.place, coincident := -1 }
  | .inner =>
    let place := move e.bump tl h.o h.place
    let reg : Int := h.loc.find place.lx place.ly h.o + h.loc.offset
    if reg < 0 then .ub
    else .ok { h with place := place, reg := reg.toNat, xsreg := e.xsOf reg.toNat }
  | .border =>
    match cross e.extent e.bc e.bump tl h.o h.place with
    | none => .throw
    | some (p, hit) =>
      let h := { h with place := p, o := hit.o, alive := hit.alive, coincident := -1 }
      if hit.alive then relocate e h else .ok h

/-- particle_pusher.cpp:209-345: one pass of the loop. -/
def pass (e : Env K) (h : Hist K) : Out (Hist K) :=
  match leg e h with
  | none => .ub
  | some (tl, fate, co) => act e { h with n := h.n + 1, coincident := co, t := scoreTrack (e.xs h.xsreg) h tl } tl fate

/-- particle_pusher.cpp:209-346: the loop, at most `fuel` passes. -/
def passes (e : Env K) : Nat → Hist K → Out (Hist K)
  | 0, h => .ok h
  | fuel + 1, h => if h.alive then
      match pass e h with
      | .ok h' => passes e fuel h'
      | r => r
    else .ok h

/-- particle_pusher.cpp:166-208: `simulate` for the particle `h`, whose region and location are not set yet; at most `fuel` passes. -/
def simulate (e : Env K) (fuel : Nat) (h : Hist K) : Out (Hist K) :=
  match relocate e h with
  | .ok h' => passes e fuel { h' with alive := true }
  | r => r

end Verif.Mc
