import Verif.Scatter.Model
import Verif.Cmdo.DataModel

/-!
# Homogenised cross sections in files

Model of `XSMeshHomogenized::output`, `read_data_single`, `read_data_multi` and the constructor from files in src/core/xs_mesh_homogenized.cpp.  Of
HDF5 it is assumed that a dataset has as many values as the product of its dimensions.
-/

namespace Verif.XS.Save

variable {K : Type} [Field K] [LinearOrder K]

open Verif.Scatter Verif.Cmdo.Data

/-- The quantities that are written per cell: `xstr`, `xsnf`, `xsch`, `xsf`. -/
inductive Quant where
  | tr | nf | ch | f
deriving DecidableEq, Repr

/-- Sizes of the mesh and the place of pin `j` of a plane among the cells of the plane (`coarse_cell(pin_position(j))` with plane 0, C83). -/
structure Layout where
  nx : Nat
  ny : Nat
  np : Nat
  ng : Nat
  loc : Nat → Nat

/-- Cells per plane. -/
def Layout.n (l : Layout) : Nat := l.nx * l.ny

/-- Number of regions: a pin for each cell of each macroplane. -/
def Layout.nreg (l : Layout) : Nat := l.nx * l.ny * l.np

/-- The cell of region `i`, xs_mesh_homogenized.cpp:440-442 and 644-646. -/
def Layout.cell (l : Layout) (i : Nat) : Nat := l.n * (i / l.n) + l.loc (i % l.n)

/-- The cross sections of the mesh: by quantity, region and group; removal; scattering matrices; bounds of the groups. -/
structure State (K : Type) where
  xs : Quant → Nat → Nat → K
  rm : Nat → Nat → K
  sc : Nat → Matrix K
  eub : List K

/-- A file. -/
structure XsFile (K : Type) where
  xs : Quant → Nat → Option (Dataset K)
  sc : Option (Dataset K)
  eub : Option (List K)

/-- A `<data>` tag; the file is `none` if the attribute is missing or the file cannot be opened, an exception in either case. -/
structure XsTag (K : Type) where
  file : Option (XsFile K)
  bottom : Option Int
  top : Option Int

/-- xs_mesh_homogenized.cpp:636-652: the array written for one quantity and group.  The cell of each region is overwritten in turn. -/
def gather (l : Layout) (x : Nat → K) : Nat → K :=
  (List.range l.nreg).foldl (fun a i => Function.update a (l.cell i) (x i)) (fun _ => 0)

/-- xs_mesh_homogenized.cpp:620-689 `output`.  All matrices have `ng` groups. -/
def output (l : Layout) (s : State K) : XsFile K where
  xs := fun q g => if g < l.ng then some ⟨[l.np, l.ny, l.nx], (List.range l.nreg).map (gather l fun i => s.xs q i g)⟩ else none
  sc := some ⟨[l.nreg, l.ng, l.ng], (List.range l.nreg).flatMap fun i : Nat => (List.range (l.ng * l.ng)).map (s.sc i).asVector⟩
  eub := some s.eub

/-- Values of the four datasets of every group; `none` if one is missing or has not `size` values (h5file.hpp:265-320). -/
def readXs (ng size : Nat) (f : XsFile K) : Option (Quant → Nat → List K) :=
  if (List.range ng).all (fun g : Nat => [Quant.tr, Quant.nf, Quant.ch, Quant.f].all fun q =>
    match f.xs q g with
    | some d => d.vals.length == size
    | none => false) then
    some fun q g => ((f.xs q g).map (·.vals)).getD []
  else none

/-- Row `i` of the scattering data as a matrix (`scat(i, Range::all(), Range::all())`). -/
def matrixOf (d1 : Nat) (vals : List K) (i : Nat) : Matrix K :=
  build d1 fun a b => (vals[(i * d1 + a) * d1 + b]?).getD 0

/-- xs_mesh_homogenized.cpp:365-471 `read_data_single`.  The matrices need as many columns as rows (assertion in scattering_matrix.cpp:61), and
`update_removal` writes past the end of the removal cross sections of the last region if they have more groups than the mesh. -/
def readSingle (l : Layout) (t : XsTag K) (s : State K) : Res (State K) :=
  let bot := t.bottom.getD 0
  let top := t.top.getD (l.np - 1)
  if bot ≠ 0 ∨ top ≠ (l.np : Int) - 1 then .throws
  else
    match t.file with
    | none => .throws
    | some f =>
      match readXs l.ng l.nreg f with
      | none => .throws
      | some buf =>
        match f.sc with
        | none => .throws
        | some d =>
          match d.dims with
          | [d0, d1, d2] =>
            if d0 ≠ l.nreg then .throws
            else if d1 ≠ d2 ∨ l.ng < d1 then .ub
            else
              let xs : Quant → Nat → Nat → K := fun q i g => if i < l.nreg ∧ g < l.ng then ((buf q g)[l.cell i]?).getD 0 else s.xs q i g
              .ok { xs := xs
                    sc := fun i => if i < l.nreg then matrixOf d1 d.vals i else s.sc i
                    rm := fun i g => if i < l.nreg ∧ g < d1 then xs .tr i g - ((matrixOf d1 d.vals i).selfScat g).getD 0 else s.rm i g
                    eub := s.eub }
          | _ => .throws

/-- Bounds of a tag in `read_data_multi`, xs_mesh_homogenized.cpp:481-488 and 541-548: zero if not given. -/
def XsTag.bot (t : XsTag K) : Int := t.bottom.getD 0

/-- See `XsTag.bot`. -/
def XsTag.tp (t : XsTag K) : Int := t.top.getD 0

/-- xs_mesh_homogenized.cpp:480-527: the checks of one tag.  `mark` is the same loop as in correction_data.cpp. -/
def validate (l : Layout) (marked : List Nat) (t : XsTag K) : Res (List Nat) :=
  if t.bot < 0 ∨ (l.np : Int) ≤ t.bot then .throws
  else if t.tp < 0 ∨ (l.np : Int) ≤ t.tp then .throws
  else
    match t.file with
    | none => .throws
    | some f =>
      match f.xs .tr 0 with
      | none => .throws
      | some d =>
        match d.dims with
        | d0 :: d1 :: d2 :: _ =>
          if d2 ≠ l.nx then .throws
          else if d1 ≠ l.ny then .throws
          else if d0 ≠ 1 then .throws
          else
            match mark marked t.bot t.tp with
            | some m => .ok m
            | none => .throws
        | _ => .ub

/-- xs_mesh_homogenized.cpp:540-615: reading one tag. -/
def readTag (l : Layout) (t : XsTag K) (s : State K) : Res (State K) :=
  match t.file with
  | none => .throws
  | some f =>
    match f.eub with
    | none => .throws
    | some eub =>
      if eub.length ≠ s.eub.length then .throws
      else
        match readXs l.ng l.n f with
        | none => .throws
        | some buf =>
          match f.sc with
          | none => .throws
          | some d =>
            match d.dims with
            | [d0, d1, d2] =>
              if d0 < l.n ∨ d1 ≠ d2 ∨ l.ng < d1 then .ub
              else
                let xs : Quant → Nat → Nat → K := fun q i g =>
                  if (t.bot ≤ (i / l.n : Nat) ∧ ((i / l.n : Nat) : Int) ≤ t.tp) ∧ g < l.ng then ((buf q g)[l.loc (i % l.n)]?).getD 0
                  else s.xs q i g
                .ok { xs := xs
                      sc := fun i => if t.bot ≤ (i / l.n : Nat) ∧ ((i / l.n : Nat) : Int) ≤ t.tp then matrixOf d1 d.vals (i % l.n) else s.sc i
                      rm := fun i g =>
                        if (t.bot ≤ (i / l.n : Nat) ∧ ((i / l.n : Nat) : Int) ≤ t.tp) ∧ g < d1 then
                          xs .tr i g - ((matrixOf d1 d.vals (i % l.n)).selfScat g).getD 0
                        else s.rm i g
                      eub := eub }
            | _ => .throws

/-- One step after another, up to the first that does not succeed. -/
def _root_.Verif.Cmdo.Data.Res.andThen {α β : Type} : Res α → (α → Res β) → Res β
  | .ok a, f => f a
  | .throws, _ => .throws
  | .ub, _ => .ub

/-- xs_mesh_homogenized.cpp:477-532: the checks of all tags. -/
def validateAll (l : Layout) : List (XsTag K) → List Nat → Res (List Nat)
  | [], m => .ok m
  | t :: ts, m => (validate l m t).andThen (validateAll l ts)

/-- xs_mesh_homogenized.cpp:540-617: all tags in turn. -/
def readAll (l : Layout) : List (XsTag K) → State K → Res (State K)
  | [], s => .ok s
  | t :: ts, s => (readTag l t s).andThen (readAll l ts)

/-- xs_mesh_homogenized.cpp:473-618 `read_data_multi`. -/
def readMulti (l : Layout) (tags : List (XsTag K)) (s : State K) : Res (State K) :=
  (validateAll l tags []).andThen fun _ => readAll l tags s

/-- xs_mesh_homogenized.cpp:96-136, the constructor from files; `s` are the cross sections by volume weighting. -/
def fromFiles (l : Layout) (tags : List (XsTag K)) (s : State K) : Res (State K) :=
  match tags with
  | [] => .throws
  | [t] =>
    match t.file with
    | none => .throws
    | some f =>
      match f.xs .tr 0 with
      | none => .throws
      | some d =>
        match d.dims with
        | d0 :: d1 :: d2 :: _ =>
          if d2 = l.nx ∧ d1 = l.ny ∧ d0 = l.np then readSingle l t s else readMulti l tags s
        | _ => .ub
  | _ => readMulti l tags s

end Verif.XS.Save
