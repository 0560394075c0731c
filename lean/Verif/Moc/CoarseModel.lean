import Verif.Mesh.TraceModel

/-!
# Model of the coarse ray data and of the currents tallied with them

`src/sweepers/moc/ray.cpp` (constructor), `ray.hpp`, `src/sweepers/moc/moc_current_worker.hpp` (class `Current`).
-/

namespace Verif.Moc

open Verif.Geom Verif.Mesh

variable {K : Type} [Field K] [LinearOrder K]

/-- ray.hpp:42-46 `RayCoarseData`; `none` is `Surface::INVALID`.  The numbers of segments have eight bits. -/
structure Rcd where
  fw : Option Surface
  bw : Option Surface
  nfw : Nat
  nbw : Nat
deriving DecidableEq, Repr

/-- ray.cpp:101-111 and 126-136: the crossings of one direction, from the points behind the first one and the numbers of segments. -/
def crossings (norm : Pt K → List Surface) : List (Pt K × Nat) → List Surface × List Nat
  | [] => ([], [])
  | (p, n) :: rest =>
    let r := crossings norm rest
    (norm p ++ r.1, n :: (if 1 < (norm p).length then 0 :: r.2 else r.2))

/-- ray.cpp:140-148: the entries for both directions; `none` is an access outside of a vector. -/
def pairUp (sf : List Surface) (nf : List Nat) (sb : List Surface) (nb : List Nat) : (i count : Nat) → Option (List Rcd)
  | _, 0 => some []
  | i, c + 1 => do
    let f ← sf[i]?
    let b ← sb[i]?
    let n ← nf[i]?
    let m ← nb[i]?
    let rest ← pairUp sf nf sb nb (i + 1) c
    return ⟨some f, some b, n % 256, m % 256⟩ :: rest

/-- ray.cpp:139-172 `cm_data_`. -/
def cmData (sf : List Surface) (nf : List Nat) (sb : List Surface) (nb : List Nat) : Option (List Rcd) := do
  let common ← pairUp sf nf sb nb 0 (min nf.length nb.length)
  let extraF ← if nb.length < nf.length then sf.getLast?.map (fun s => [⟨some s, none, 0, 0⟩]) else some []
  let extraB ← if nf.length < nb.length then sb.getLast?.map (fun s => [⟨none, some s, 0, 0⟩]) else some []
  return common ++ extraF ++ extraB

/-- ray.cpp:90, 116: octants of the two directions. -/
def octants (p1 p2 : Pt K) : Oct × Oct := if p1.x < p2.x then (.one, .three) else (.two, .four)

/-- What a `Ray` keeps for the coarse mesh (ray.hpp:196-201). -/
structure CoarseRay where
  cellFw : Nat
  cellBw : Nat
  surfFw : Nat
  surfBw : Nat
  nseg : Nat
  data : List Rcd

/-- ray.cpp:85-174, the coarse data from the points `cps` on the cell boundaries and the numbers of segments between them (whose sum is
the number of segments of the ray).  `none`: an exception or an access outside of an array. -/
def coarseRay (near nearAbs : K → K → Bool) (d : Dims) (xs ys : List K) (p1 p2 : Pt K) (cps : List (Pt K)) (nsegs : List Nat) :
    Option CoarseRay := do
  let o := octants p1 p2
  let first ← cps.head?
  let last ← cps.getLast?
  let cf ← boundaryCell near nearAbs d xs ys first o.1
  let s0 ← (normPoint near d xs ys first o.1).head?
  let sf ← coarseSurf d cf s0
  let fw := crossings (fun p => normPoint near d xs ys p o.1) (cps.tail.zip nsegs)
  let cb ← boundaryCell near nearAbs d xs ys last o.2
  let s1 ← (normPoint near d xs ys last o.2).head?
  let sb ← coarseSurf d cb s1
  let bw := crossings (fun p => normPoint near d xs ys p o.2) (cps.reverse.tail.zip nsegs.reverse)
  let data ← cmData fw.1 fw.2 bw.1 bw.2
  return ⟨cf, cb, sf, sb, nsegs.sum, data⟩

/-- constants.cpp:140-158 `surface_to_normal` as index of the weights. -/
def weightOf (wx wy : K) : Surface → K
  | .EAST | .WEST => wx
  | _ => wy

/-- moc_current_worker.hpp:220-261: what the loop over the coarse data changes. -/
structure Walker (K : Type) where
  cellFw : Int
  cellBw : Int
  segFw : Nat
  segBw : Int
  cur : Nat → K

/-- Read of the surface table; `none` for a cell outside of it. -/
def surfOf (d : Dims) (cell : Int) (s : Surface) : Option Nat := if cell < 0 then none else coarseSurf d cell.toNat s

/-- Change of one element of the array of currents. -/
def addAt (cur : Nat → K) (i : Nat) (v : K) : Nat → K := fun j => if j = i then cur j + v else cur j

/-- moc_current_worker.hpp:239-247 for one entry, forward. -/
def stepFw (d : Dims) (wx wy : K) (psi1 : Int → K) (r : Rcd) (w : Walker K) : Option (Walker K) :=
  match r.fw with
  | none => some w
  | some s => do
    let n ← surfOf d w.cellFw s
    return { w with segFw := w.segFw + r.nfw, cur := addAt w.cur n (psi1 (w.segFw + r.nfw) * weightOf wx wy s) }

/-- moc_current_worker.hpp:249-257 for one entry, backward. -/
def stepBw (d : Dims) (wx wy : K) (psi2 : Int → K) (r : Rcd) (w : Walker K) : Option (Walker K) :=
  match r.bw with
  | none => some w
  | some s => do
    let n ← surfOf d w.cellBw s
    return { w with segBw := w.segBw - r.nbw, cur := addAt w.cur n (-(psi2 (w.segBw - r.nbw) * weightOf wx wy s)) }

/-- `coarse_neighbor(cell, surf)`, -5 for `INVALID` (mesh.hpp:820).  A cell that is not in the mesh is only passed with the last entry. -/
def moveOn (d : Dims) (cell : Int) (s : Option Surface) : Int :=
  match s with
  | none => -5
  | some s => coarseNeighbor d cell.toNat s

/-- moc_current_worker.hpp:235-261: the loop. -/
def walkLoop (d : Dims) (wx wy : K) (psi1 psi2 : Int → K) : List Rcd → Walker K → Option (Walker K)
  | [], w => some w
  | r :: rest, w => do
    let w1 ← stepFw d wx wy psi1 r w
    let w2 ← stepBw d wx wy psi2 r w1
    walkLoop d wx wy psi1 psi2 rest { w2 with cellFw := moveOn d w2.cellFw r.fw, cellBw := moveOn d w2.cellBw r.bw }

/-- Index of the weight for a surface number (moc_current_worker.hpp:228-229). -/
def weightAt (d : Dims) (wx wy : K) (n : Nat) : K := if surfaceNormal d n = .X then wx else wy

/-- moc_current_worker.hpp:202-264 `post_ray`, the currents of the group.  `wx`, `wy` are the weights of `set_angle`; `psi1`, `psi2` the
angular fluxes at the ends of the segments for the two directions; the offsets are those of the plane.  The surface fluxes, kept in
the same way with other weights, are left out. -/
def postRay (d : Dims) (plane : Nat) (wx wy : K) (psi1 psi2 : Int → K) (ray : CoarseRay) (cur : Nat → K) : Option (Nat → K) := do
  let off := d.nx * d.ny * plane
  let soff := nSurfPlane d * plane
  let cur1 := addAt cur (ray.surfFw + soff) (psi1 0 * weightAt d wx wy (ray.surfFw + soff))
  let cur2 := addAt cur1 (ray.surfBw + soff) (-(psi2 ray.nseg * weightAt d wx wy (ray.surfBw + soff)))
  let w ← walkLoop d wx wy psi1 psi2 ray.data ⟨(ray.cellFw + off : Nat), (ray.cellBw + off : Nat), 0, ray.nseg, cur2⟩
  return w.cur

/-- moc_current_worker.hpp:182-200 `set_angle`: `current_weights_`.  `cosA`, `sinA` are the cosine and sine of `ang.alpha`. -/
def currentWeights (pi weight ox oy spacing cosA sinA dz : K) : K × K :=
  let w := weight * pi
  (w * ox * spacing / |cosA| * dz, w * oy * spacing / |sinA| * dz)

end Verif.Moc
