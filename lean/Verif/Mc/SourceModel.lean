import Verif.Rng.Model
import Mathlib.Algebra.Order.Field.Rat
import Mathlib.Logic.Equiv.Defs

/-!
# Model of the constructors of the Monte Carlo solver and of its initial source

Sources: src/solvers/monte_carlo_eigenvalue_solver.cpp, src/sweepers/mc/fission_bank.cpp.

The six random numbers of a site are drawn in three statements.  The arguments of `Point3 p(…)` and of `Direction::Isotropic(…)` are evaluated in an order that the
language leaves to the compiler, so the order is a parameter, which may be another one for every site.  Numbers of the generator are the doubles that it returns
(`Rng.randomNum`), arithmetic with them is exact.  Allocation does not fail for numbers of sites that are not negative.
-/

namespace Verif.Mc

open Verif.Rng

/-- An order in which arguments are evaluated: the number of the draw that each argument takes. -/
structure ArgOrder where
  pt : Equiv.Perm (Fin 3)
  dir : Equiv.Perm (Fin 2)

/-- Attributes of `fission_box`, fission_bank.cpp:41-53; `none` is an attribute that is not there. -/
structure BoxInput where
  xmin : Option ℚ
  xmax : Option ℚ
  ymin : Option ℚ
  ymax : Option ℚ
  zmin : Option ℚ
  zmax : Option ℚ
  rejection : Option Bool

/-- Attributes of the solver, monte_carlo_eigenvalue_solver.cpp:37-42; `none` is an attribute or node that is not there. -/
structure McInput where
  cycles : Option Int
  inactive : Option Int
  particles : Option Int
  seed : Option Int
  box : Option BoxInput

structure Box where
  xmin : ℚ
  xmax : ℚ
  ymin : ℚ
  ymax : ℚ
  zmin : ℚ
  zmax : ℚ
deriving DecidableEq

/-- particle.hpp:59-70: the members that the constructor sets from its arguments; the direction as the two numbers it is made from. -/
structure SourceSite where
  x : ℚ
  y : ℚ
  z : ℚ
  r1 : ℚ
  r2 : ℚ
  group : Nat
  id : Nat
deriving DecidableEq, Repr

/-- rng_lcg.hpp:62-65: the number of draw `k` from the state `s` on. -/
def drawn (s : U64) (k : Nat) : ℚ := (randomNum (step^[k] s) : ℚ) / 2 ^ 63

/-- rng_lcg.hpp:83-90 `random(lbound, ubound)`. -/
def between (lo hi v : ℚ) : ℚ := lo + (hi - lo) * v

/-- fission_bank.cpp:67-71 and 77-81: a site; both branches do the same. -/
def sourceSite (o : ArgOrder) (ng : Nat) (b : Box) (s : U64) (i : Nat) : SourceSite :=
  { x := between b.xmin b.xmax (drawn s (o.pt 0))
    y := between b.ymin b.ymax (drawn s (o.pt 1))
    z := between b.zmin b.zmax (drawn s (o.pt 2))
    r1 := drawn s (3 + o.dir 0)
    r2 := drawn s (3 + o.dir 1)
    group := randomInt (step^[5] s) ng
    id := i }

/-- fission_bank.cpp:66-72, 76-82: the loop over the sites, `n` of them from number `i` on. -/
def sourceLoop (o : Nat → ArgOrder) (ng : Nat) (b : Box) : Nat → Nat → U64 → List SourceSite × U64
  | 0, _, s => ([], s)
  | n + 1, i, s =>
    let r := sourceLoop o ng b n (i + 1) (step^[6] s)
    (sourceSite (o i) ng b s i :: r.1, r.2)

/-- What a constructor does: make something, with a number of warnings; throw an exception of the program, which the driver reports (driver.cpp:174-180);
or throw `std::length_error`, which it does not catch. -/
inductive Built (α : Type)
  | ok (warnings : Nat) (a : α)
  | exception
  | lengthError
deriving DecidableEq

/-- fission_bank.cpp:40-62: the bounds. -/
def readBox (b : BoxInput) : Option Box :=
  match b.xmin, b.xmax, b.ymin, b.ymax, b.zmin, b.zmax with
  | some x0, some x1, some y0, some y1, some z0, some z1 => if x0 ≥ x1 ∨ y0 ≥ y1 ∨ z0 ≥ z1 then none else some ⟨x0, x1, y0, y1, z0, z1⟩
  | _, _, _, _, _, _ => none

/-- fission_bank.cpp:31-86: the constructor from input.  `reserve(n)` of a negative number asks for more than `max_size()`. -/
def buildBank (o : Nat → ArgOrder) (ng : Nat) (input : Option BoxInput) (n : Int) (s : U64) : Built (List SourceSite × U64) :=
  match input with
  | none => .exception
  | some i =>
    match readBox i with
    | none => .exception
    | some b =>
      if n < 0 then .lengthError
      else .ok (if i.rejection.getD true then 1 else 0) (sourceLoop o ng b n.toNat 0 s)

/-- monte_carlo_eigenvalue_solver.cpp:32-88: members are initialised first, then come the checks.  The seed is an `int` that becomes a `uint64_t`. -/
def buildSolver (o : Nat → ArgOrder) (ng : Nat) (i : McInput) : Built (List SourceSite × U64) :=
  let seed := BitVec.ofInt 64 (i.seed.getD 1)
  let cycles := i.cycles.getD (-1)
  let inactive := i.inactive.getD (-1)
  let n := i.particles.getD (-1)
  match buildBank o ng i.box n seed with
  | .exception => .exception
  | .lengthError => .lengthError
  | .ok w bank =>
    if seed.toNat % 2 = 0 then .exception
    else if cycles < 0 then .exception
    else if inactive < 0 then .exception
    else if n < 0 then .exception
    else .ok (w + (if cycles = 0 then 1 else 0) + (if inactive = 0 then 1 else 0) + (if n = 0 then 1 else 0)) bank

end Verif.Mc
