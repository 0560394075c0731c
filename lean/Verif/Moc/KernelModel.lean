import Mathlib.Algebra.Field.Defs

/-!
# Model of the MoC sweep kernel (src/sweepers/moc/moc_sweeper_kernel.inc.hpp)

`K` stands for `real_t` in exact arithmetic.  The source is isotropic (`SourceIsotropic::get_transport` ignores the
angle).  The current worker is not part of this model (see `Verif.Moc.CurrentModel`).  The update of the boundary
condition (`BoundaryCondition::update`, C17) is a parameter.
-/

namespace Verif.Moc

variable {K : Type} [Field K]

/-- ray.hpp:150-166: segment index (region within the plane) and length. -/
structure Seg (K : Type) where
  reg : Nat
  len : K
  deriving DecidableEq, Repr

/-- ray.hpp:33-190: segments from the first to the second end, and the two boundary slots `bc(0)`, `bc(1)`. -/
structure Ray (K : Type) where
  segs : List (Seg K)
  bc0 : Nat
  bc1 : Nat
  deriving DecidableEq, Repr

/-- `a(i) = v` on a one-dimensional array. -/
def upd {α : Type} (a : Nat → α) (i : Nat) (v : α) : Nat → α := fun j => if j = i then v else a j

/-- moc_sweeper_kernel.inc.hpp:94-99: `e_tau` of a segment; `expo` is the exponential function. -/
def eTau (expo : K → K) (xstr : Nat → K) (rst : K) (first : Nat) (s : Seg K) : K :=
  1 - expo (-xstr (s.reg + first) * s.len * rst)

/-- moc_sweeper_kernel.inc.hpp:106-114 (forward) and 121-129 (backward, on the reversed list): propagate along the
segments; returns the outgoing angular flux and the thread's scalar flux. -/
def walk (e : Seg K → K) (q : Nat → K) (wt : K) (first : Nat) : List (Seg K) → K → (Nat → K) → K × (Nat → K)
  | [], psi, t => (psi, t)
  | s :: ss, psi, t =>
    let ireg := s.reg + first
    let diff := (psi - q ireg) * e s
    walk e q wt first ss (psi - diff) (upd t ireg (t ireg + diff * wt))

/-- Scalar flux of the thread and the two outgoing boundary arrays of an angle and its reverse. -/
structure Acc (K : Type) where
  tflux : Nat → K
  out1 : Nat → K
  out2 : Nat → K

/-- moc_sweeper_kernel.inc.hpp:87-133: one ray, both directions. -/
def sweepRay (e : Seg K → K) (q : Nat → K) (wt : K) (first : Nat) (in1 in2 : Nat → K) (a : Acc K) (r : Ray K) : Acc K :=
  let f := walk e q wt first r.segs (in1 r.bc0) a.tflux
  let b := walk e q wt first r.segs.reverse (in2 r.bc1) f.2
  { tflux := b.2, out1 := upd a.out1 r.bc1 f.1, out2 := upd a.out2 r.bc0 b.1 }

/-- moc_sweeper_kernel.inc.hpp:59-82: what is needed to sweep one angle of a plane: indices of the angle and its
reverse, `ang.rsintheta`, `wt_v_st`, and the rays. -/
structure AngleWork (K : Type) where
  iang1 : Nat
  iang2 : Nat
  rst : K
  wt : K
  rays : List (Ray K)

/-- moc_sweeper_kernel.inc.hpp:51-58: one macroplane. -/
structure PlaneWork (K : Type) where
  first : Nat
  angles : List (AngleWork K)

/-- Boundary values of one plane and group, by angle and slot: incoming (`boundary_[iplane]`), outgoing
(`boundary_out_[iplane]`), and the scalar flux. -/
structure St (K : Type) where
  tflux : Nat → K
  bin : Nat → Nat → K
  bout : Nat → Nat → K

/-- How `boundary_in.update(group, angle, boundary_out)` and `boundary_in.update(group, boundary_out)` act on the
values of one group: incoming values and outgoing values to incoming values (see C17). -/
structure BcUpdate (K : Type) where
  one : Nat → (Nat → Nat → K) → (Nat → Nat → K) → (Nat → Nat → K)
  all : (Nat → Nat → K) → (Nat → Nat → K) → (Nat → Nat → K)

/-- moc_sweeper_kernel.inc.hpp:59-145: one angle, rays in order. -/
def sweepAngle (expo : K → K) (xstr q : Nat → K) (gs : Bool) (u : BcUpdate K) (first : Nat) (s : St K)
    (w : AngleWork K) : St K :=
  let a := w.rays.foldl (sweepRay (eTau expo xstr w.rst first) q w.wt first (s.bin w.iang1) (s.bin w.iang2))
    ⟨s.tflux, s.bout w.iang1, s.bout w.iang2⟩
  let bout := upd (upd s.bout w.iang1 a.out1) w.iang2 a.out2
  { tflux := a.tflux
    bin := if gs then u.one w.iang2 (u.one w.iang1 s.bin bout) bout else s.bin
    bout := bout }

/-- moc_sweeper_kernel.inc.hpp:51-153: one plane; the scalar flux is handed on, the boundary arrays are the plane's. -/
def sweepPlane (expo : K → K) (xstr q : Nat → K) (gs : Bool) (u : BcUpdate K) (p : PlaneWork K) (s : St K) : St K :=
  let s := p.angles.foldl (sweepAngle expo xstr q gs u p.first) s
  { s with bin := if gs then s.bin else u.all s.bin s.bout }

/-- moc_sweeper_kernel.inc.hpp:51-162: all planes; boundary values of plane `n` are `bcs[n]` (incoming, outgoing). -/
def sweepPlanes (expo : K → K) (xstr q : Nat → K) (gs : Bool) (u : BcUpdate K) :
    List (PlaneWork K × (Nat → Nat → K) × (Nat → Nat → K)) → (Nat → K) →
      (Nat → K) × List ((Nat → Nat → K) × (Nat → Nat → K))
  | [], t => (t, [])
  | (p, bin, bout) :: ps, t =>
    let s := sweepPlane expo xstr q gs u p ⟨t, bin, bout⟩
    let r := sweepPlanes expo xstr q gs u ps s.tflux
    (r.1, (s.bin, s.bout) :: r.2)

/-- moc_sweeper_kernel.inc.hpp:165-173: divide by cross section and volume and add the source; `fpi` is four pi. -/
def finish (fpi : K) (xstr vol q : Nat → K) (t : Nat → K) : Nat → K := fun i => t i / (xstr i * vol i) + q i * fpi

/-- moc_sweeper_kernel.inc.hpp:38-180: the sweep of one group on one thread. -/
def sweep1g (expo : K → K) (fpi : K) (xstr vol q : Nat → K) (gs : Bool) (u : BcUpdate K)
    (ps : List (PlaneWork K × (Nat → Nat → K) × (Nat → Nat → K))) :
    (Nat → K) × List ((Nat → Nat → K) × (Nat → Nat → K)) :=
  let r := sweepPlanes expo xstr q gs u ps (fun _ => 0)
  (finish fpi xstr vol q r.1, r.2)

end Verif.Moc
