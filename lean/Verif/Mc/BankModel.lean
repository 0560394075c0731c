import Verif.Rng.Model
import Verif.Util.LowerBound
import Mathlib.Algebra.Field.Basic
import Mathlib.Algebra.BigOperators.Group.List.Basic

/-!
# Model of the fission bank (src/sweepers/mc/fission_bank.hpp, fission_bank.cpp) and of one Monte Carlo cycle

`std::vector<Particle>` is `List`.  Indexing outside the vector, and `back()`/`pop_back()` on an empty vector, are
undefined behaviour and are the distinct outcome `Out.ub`.  Exceptions are `Out.throw`.
-/

namespace Verif.Mc

open Verif.Rng

/-- Outcome of a piece of C++: a value, an exception, or undefined behaviour. -/
inductive Out (α : Type) where
  | ok (a : α)
  | throw
  | ub
deriving DecidableEq, Repr

/-- fission_bank.cpp:124-128: the loop that enlarges the bank.  `nOrig` is `n_orig`; the generator state is threaded
through.  `n_orig` is an `int`, banks of 2^31 sites or more are not considered. -/
def growLoop {α : Type} (n nOrig : Nat) (s : U64) (sites : List α) : Out (U64 × List α) :=
  if sites.length < n then
    match sites[randomInt s nOrig]? with
    | none => .ub
    | some p => growLoop n nOrig (step s) (sites ++ [p])
  else .ok (s, sites)
termination_by n - sites.length
decreasing_by simp; omega

/-- fission_bank.cpp:138-142: the loop that removes `k` sites; `sites_[i_rand] = sites_.back(); sites_.pop_back();`. -/
def shrinkLoop {α : Type} : (k : Nat) → U64 → List α → Out (U64 × List α)
  | 0, s, sites => .ok (s, sites)
  | k + 1, s, sites =>
    let i := randomInt s sites.length
    match sites.getLast? with
    | none => .ub
    | some b => if i < sites.length then shrinkLoop k (step s) (sites.set i b).dropLast else .ub

/-- fission_bank.cpp:114-147 `resize` (asserts compiled out). -/
def resize {α : Type} (n : Nat) (s : U64) (sites : List α) : Out (U64 × List α) :=
  let r := if n > sites.length then growLoop n sites.length s sites else .ok (s, sites)
  match r with
  | .ok (s', sites') =>
    if n < sites'.length then shrinkLoop (sites'.length - n) s' sites' else .ok (s', sites')
  | e => e

/-- A fission site: the parent's identifier and the rest of the particle (particle.hpp:55-92).  The comparison used
for sorting looks at the identifier only (particle.hpp:120-123). -/
structure Site (P : Type) where
  id : Nat
  data : P
deriving DecidableEq, Repr

/-- Insertion of a site after all sites with a smaller or equal identifier. -/
def insertSite {P : Type} (x : Site P) : List (Site P) → List (Site P)
  | [] => [x]
  | y :: l => if x.id < y.id then x :: y :: l else y :: insertSite x l

/-- monte_carlo_eigenvalue_solver.cpp:183 `std::stable_sort(begin, end)` with `operator<` on the identifiers.  The
library's algorithm is not modelled; insertion from the left is a stable sort, and a stable sort has only one result
(`C42_stable_sort_unique`). -/
def stableSort {P : Type} (l : List (Site P)) : List (Site P) := l.foldl (fun acc x => insertSite x acc) []

/-- monte_carlo_eigenvalue_solver.cpp:185-188: the bank is renumbered from zero. -/
def reindex {P : Type} (l : List (Site P)) : List (Site P) := l.mapIdx (fun i p => ⟨i, p.data⟩)

/-- particle_pusher.cpp:143-153: the sites a history pushes carry the identifier of the history.  `hist` gives what
the history of a source particle produces, in order; it depends only on the seed, the identifier offset and the
particle, because the generator is reset at the start of each history (particle_pusher.cpp:170-171) and the rest of
the state is read-only. -/
def children {P : Type} (hist : Nat → Site P → List P) (off : Nat) (p : Site P) : List (Site P) :=
  (hist off p).map (fun d => ⟨p.id, d⟩)

/-- What the end of `MonteCarloEigenvalueSolver::step` makes of the sites in the pusher's bank
(monte_carlo_eigenvalue_solver.cpp:178-188): swap, sort, resize with the solver's own generator, renumber. -/
def endOfCycle {P : Type} (particlesPerCycle : Nat) (s : U64) (fission : List (Site P)) : Out (U64 × List (Site P)) :=
  match resize particlesPerCycle s (stableSort fission) with
  | .ok (s', l) => .ok (s', reindex l)
  | .throw => .throw
  | .ub => .ub

section Entropy

variable {K : Type} [LinearOrder K]

/-- A point in the core. -/
structure Pt (K : Type) where
  x : K
  y : K
  z : K

/-- The parts of the mesh that point location uses: numbers of cells and the boundaries between them
(mesh.hpp `x_vec_`, `y_vec_`, `z_vec_`, which have one more element than there are cells). -/
structure Grid (K : Type) where
  nx : Nat
  ny : Nat
  nz : Nat
  xs : Nat → K
  ys : Nat → K
  zs : Nat → K

/-- mesh.hpp:326-329 `n_pin`. -/
def Grid.nPin (g : Grid K) : Nat := g.nx * g.ny * g.nz

/-- mesh.cpp:373-388 `coarse_cell_point(Point3)`: `lower_bound(..) - begin - 1` in each direction, then
`coarse_cell` (mesh.hpp:437-440), all in signed arithmetic. -/
def coarseCellPoint (g : Grid K) (p : Pt K) : Int :=
  let ix : Int := (Util.lowerBound g.xs (g.nx + 1) p.x : Int) - 1
  let iy : Int := (Util.lowerBound g.ys (g.ny + 1) p.y : Int) - 1
  let iz : Int := (Util.lowerBound g.zs (g.nz + 1) p.z : Int) - 1
  iz * g.nx * g.ny + iy * g.nx + ix

variable {F : Type} [AddMonoid F]

/-- fission_bank.cpp:94-102: the population count.  The guard lets `icell == n_pin` pass; the following access is
then outside the vector. -/
def populate (g : Grid K) : (pop : Nat → F) → (sites : List (Pt K × F)) → Out (Nat → F)
  | pop, [] => .ok pop
  | pop, (p, w) :: rest =>
    let icell := coarseCellPoint g p
    if icell < 0 ∨ icell > (g.nPin : Int) then .throw
    else if icell = g.nPin then .ub
    else populate g (fun i => if (i : Int) = icell then pop i + w else pop i) rest

/-- fission_bank.cpp:88-112 `shannon_entropy`; `lg` stands for `std::log2`. -/
def shannonEntropy {R : Type} [Field R] [LinearOrder R] (lg : R → R) (g : Grid K) (sites : List (Pt K × R)) : Out R :=
  match populate g (fun _ => (0 : R)) sites with
  | .ok pop => .ok ((List.range g.nPin).foldl (fun h i =>
      let pj := pop i / (sites.length : R)
      if pj > 0 then h - pj * lg pj else h) 0)
  | .throw => .throw
  | .ub => .ub

end Entropy

end Verif.Mc
