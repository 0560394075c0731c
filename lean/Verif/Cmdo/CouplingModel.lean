import Verif.Quad.Model

/-!
# Model of the angular quadratures of the 2D3D sweeper and of what is indexed by angle

src/sweepers/cmdo/plane_sweeper_2d3d.cpp:46-102, sn_sweeper_cdd.hpp:43-75, sn_sweeper_factory_cdd.cpp:25-39,
correction_data.hpp:44-66, correction_worker.cpp:32-160, src/sweepers/sn/sn_sweeper.cpp:29-57,
sn_sweeper_variant.hpp:167-420 and src/core/boundary_condition.{hpp,cpp}.

A quadrature is the list of its angles in the first octant; the others follow by `Quad.expand`.  Only indices that
count angles are modelled; groups, cells and faces are taken to be in range, and each face to have at least one
value (a core has at least one pin; otherwise `update` leaves its loop early).
-/

namespace Verif.Cmdo

open Verif.Quad

variable {K : Type}

/-- What the input of a 2D3D sweeper says about angles: the `<ang_quad>` of `<sn_sweeper>`, the quadrature of
`<moc_sweeper>` after the rays have been made cyclic, the one in the file of `<data>` in `<sn_sweeper>`, if any, and
`preserve_sn_quadrature` (plane_sweeper_2d3d.cpp:395-397). -/
structure QuadInput (K : Type) where
  sn : List (Angle K)
  moc : List (Angle K)
  data : Option (List (Angle K))
  keep : Bool

/-- The quadrature of the Sn sweeper when the factory makes the correction data: sn_sweeper_cdd.hpp:49-60. -/
def QuadInput.early (inp : QuadInput K) : List (Angle K) := inp.data.getD inp.sn

/-- The quadrature of the Sn sweeper in the end: plane_sweeper_2d3d.cpp:91-93. -/
def QuadInput.final (inp : QuadInput K) : List (Angle K) := if inp.keep then inp.early else inp.moc

/-- boundary_condition.cpp:22-30 and sn_sweeper.cpp:54-56: number of angles of `bc_in_` and `bc_out_`, made in the
constructor of the base class. -/
def QuadInput.nBnd (inp : QuadInput K) : Nat := 8 * inp.sn.length

/-- sn_sweeper_factory_cdd.cpp:30-32: number of angles of the correction data, `ndir / 2`. -/
def QuadInput.nCor (inp : QuadInput K) : Nat := 8 * inp.early.length / 2

/-- Number of angles of the Sn sweeper, `ang_quad_.ndir()`. -/
def QuadInput.nDir (inp : QuadInput K) : Nat := 8 * inp.final.length

/-- One access by angle: what is indexed, with which index. -/
inductive Access
  /-- `AngularQuadrature::operator[]` of the Sn sweeper (angular_quadrature.hpp:90-93, no check). -/
  | angle (i : Nat)
  /-- the `reflection_` table, eight octants (angular_quadrature.cpp:43-45). -/
  | table (i : Nat)
  /-- `size_[i]`, `offset_(i, ·)` of `bc_in_` or `bc_out_` (boundary_condition.hpp:111-136). -/
  | bnd (i : Nat)
  /-- `alpha` or `beta` of the correction data (correction_data.hpp:82-101). -/
  | cor (i : Nat)
  deriving DecidableEq, Repr

/-- The access is in bounds. -/
def Access.ok (inp : QuadInput K) : Access → Bool
  | .angle i => i < inp.nDir
  | .table i => i < 8
  | .bnd i => i < inp.nBnd
  | .cor i => i < inp.nCor

/-- boundary_condition.cpp:86-131 `initialize_scalar`, accesses by angle for one group. -/
def initAccess (inp : QuadInput K) : List Access :=
  (List.range inp.nBnd).flatMap fun a => [.angle a, .bnd a]

/-- boundary_condition.cpp:155-191 `update(group, angle, out)`.  When the table is read out of bounds nothing more is
listed: that access alone is already undefined. -/
def updateAccess (inp : QuadInput K) (a : Nat) : List Access :=
  [Normal.X, Normal.Y, Normal.Z].flatMap fun n =>
    .bnd a :: .table (a / inp.final.length) ::
      match reflect inp.final.length a n with
      | none => []
      | some i => [.angle i, .bnd i]

/-- sn_sweeper_variant.hpp:188, 327: the loop over the angles, all of them in 3-D, the upper half in 2-D. -/
def sweepAngles (inp : QuadInput K) (dim : Nat) : Nat := if dim = 2 then inp.nDir / 2 else inp.nDir

/-- sn_sweeper_variant.hpp:192, 331 `iang_2d`. -/
def iang2d (inp : QuadInput K) (iang : Nat) : Nat := iang % (inp.nDir / 2)

/-- sn_sweeper_variant.hpp:188-300 (3-D), 327-415 (2-D): one sweep of a group; `gs` is `gs_boundary_`.  The cells read
the factors with `iang_2d` (sn_sweeper_cdd.hpp:77-100, 145-190). -/
def sweepAccess (inp : QuadInput K) (dim : Nat) (gs : Bool) : List Access :=
  ((List.range (sweepAngles inp dim)).flatMap fun a =>
    [.angle a, .bnd a, .cor (iang2d inp a)] ++ if gs then updateAccess inp a else []) ++
  if gs then [] else (List.range inp.nBnd).flatMap (updateAccess inp)

/-- The angles for which one MoC sweep computes factors: the loop runs over the first two octants
(moc_sweeper_kernel.inc.hpp:60-80), correction_worker.cpp:43-44 gives both indices.  With each index the direction in
the plane in which the rays are followed: that of the angle, or backwards. -/
def mocWrites [Field K] [LinearOrder K] (inp : QuadInput K) : List (Nat × (K × K)) :=
  (List.range (2 * inp.moc.length)).flatMap fun a =>
    match (expand inp.moc)[a]? with
    | none => []
    | some d => [(a, (d.ox, d.oy)), (reverse inp.moc.length a 2, (-d.ox, -d.oy))]

/-- Whether the initialisation, a MoC sweep and an Sn sweep of a group stay in bounds; `false` is undefined
behaviour. -/
def coupledOk [Field K] [LinearOrder K] (inp : QuadInput K) (dim : Nat) (gs : Bool) : Bool :=
  (initAccess inp).all (Access.ok inp) && ((mocWrites inp).map (fun w => Access.cor w.1)).all (Access.ok inp) &&
    (sweepAccess inp dim gs).all (Access.ok inp)

/-- The constructors compare none of the numbers of angles (plane_sweeper_2d3d.cpp:56-102, sn_sweeper.hpp:155-159): an
input is accepted if each quadrature is usable by itself. -/
def acceptedQuads (inp : QuadInput K) : Bool :=
  0 < inp.sn.length && 0 < inp.moc.length && (match inp.data with | none => true | some d => 0 < d.length)

end Verif.Cmdo
