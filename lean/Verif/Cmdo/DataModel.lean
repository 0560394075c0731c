/-!
# Correction factors in files

Model of `CorrectionData::from_data`, `read_data_single`, `read_data_multi` and `output` in src/sweepers/cmdo/correction_data.cpp.  Numbers are
arbitrary values.  Of HDF5 it is assumed that a dataset has as many values as the product of its dimensions and that paths are told apart; the
numbers in the paths are group and angle (`std::setw(3)`), written and read alike.
-/

namespace Verif.Cmdo.Data

/-- The three groups of a file: `alpha_x`, `alpha_y` and `beta`. -/
inductive Kind where
  | alphaX | alphaY | beta
deriving DecidableEq, Repr

/-- A dataset: dimensions and values in the order of the file. -/
structure Dataset (K : Type) where
  dims : List Nat
  vals : List K

/-- A file: the dataset of kind, group and angle, if it is there. -/
abbrev File (K : Type) := Kind → Nat → Nat → Option (Dataset K)

/-- A `<data>` tag.  The file is `none` if the attribute is missing or the file cannot be opened, which gives an exception in either case. -/
structure Tag (K : Type) where
  file : Option (File K)
  bottom : Option Int
  top : Option Int

/-- Sizes: cells in x and y, macroplanes, groups, angles (correction_data.hpp:46-55). -/
structure Size where
  nx : Nat
  ny : Nat
  np : Nat
  ng : Nat
  nang : Nat

/-- `alpha_` and `beta_` by kind, group, angle and cell. -/
abbrev Factors (K : Type) := Kind → Nat → Nat → Nat → K

/-- Outcome: a value, an exception, or undefined behaviour. -/
inductive Res (α : Type) where
  | ok (a : α)
  | throws
  | ub

/-- correction_data.cpp:104-109, 121-126 and 138-142: the buffer is copied to the cells of the planes from `bottom` to `top`;
`plane_cell_begin` and `plane_cell_end` are mesh.hpp:356-367.  Planes are not negative here (checked before). -/
def copyPlanes (n : Nat) (buf : List K) (old : Nat → K) (bottom top : Int) : Nat → K :=
  (List.range (top + 1 - bottom).toNat).foldl
    (fun f i =>
      let stt := n * (bottom.toNat + i)
      let stp := n * (bottom.toNat + i + 1) - 1
      fun c => if stt ≤ c ∧ c ≤ stp then (buf[c - stt]?).getD (f c) else f c)
    old

/-- correction_data.cpp:98-145 for one kind, group and angle: `read` throws if there is no such dataset or if the number of values is not that of
the buffer (h5file.hpp:265-320). -/
def readOne (sz : Size) (f : File K) (bottom top : Int) (s : Factors K) (k : Kind) (g a : Nat) : Option (Factors K) :=
  match f k g a with
  | none => none
  | some d =>
    if d.vals.length ≠ sz.nx * sz.ny then none
    else some fun k' g' a' =>
      if k' = k ∧ g' = g ∧ a' = a then copyPlanes (sz.nx * sz.ny) d.vals (s k g a) bottom top else s k' g' a'

/-- Groups, angles and kinds in the order of the loops of correction_data.cpp:92-146. -/
def steps (sz : Size) : List (Kind × Nat × Nat) :=
  (List.range sz.ng).flatMap fun g : Nat => (List.range sz.nang).flatMap fun a : Nat =>
    [(Kind.alphaX, g, a), (Kind.alphaY, g, a), (Kind.beta, g, a)]

/-- correction_data.cpp:67-148 `read_data_single`. -/
def readSingle (sz : Size) (t : Tag K) (bottom top : Int) (s : Factors K) : Option (Factors K) :=
  let topIn := t.top.getD (sz.np - 1)
  let botIn := t.bottom.getD 0
  if botIn ≠ bottom ∨ topIn ≠ top then none
  else
    match t.file with
    | none => none
    | some f => (steps sz).foldlM (fun s x => readOne sz f bottom top s x.1 x.2.1 x.2.2) s

/-- correction_data.cpp:179-186: mark the planes of a tag; `none` for a plane that is marked already. -/
def mark (marked : List Nat) (bottom top : Int) : Option (List Nat) :=
  (List.range (top + 1 - bottom).toNat).foldlM
    (fun m i => if bottom.toNat + i ∈ m then none else some (m ++ [bottom.toNat + i])) marked

/-- correction_data.cpp:159-187: the checks of one tag. -/
def validate (sz : Size) (marked : List Nat) (t : Tag K) : Option (List Nat) :=
  let top := t.top.getD (sz.np - 1)
  let bot := t.bottom.getD 0
  if bot < 0 ∨ (sz.np : Int) ≤ bot then none
  else if top < 0 ∨ (sz.np : Int) ≤ top then none
  else if t.file.isNone then none
  else mark marked bot top

/-- correction_data.cpp:150-210 `read_data_multi`. -/
def readMulti (sz : Size) (tags : List (Tag K)) (s : Factors K) : Option (Factors K) :=
  match tags.foldlM (validate sz) [] with
  | none => none
  | some _ => tags.foldlM (fun s t => readSingle sz t (t.bottom.getD 0) (t.top.getD 0) s) s

/-- correction_data.cpp:25-65 `from_data`.  `dims[2]` of a dataset with fewer dimensions is read past the end. -/
def fromData (sz : Size) (tags : List (Tag K)) (s : Factors K) : Res (Factors K) :=
  let wrap : Option (Factors K) → Res (Factors K) := fun r => match r with
    | some s' => .ok s'
    | none => .throws
  match tags with
  | [] => .ok s
  | [t] =>
    match t.file with
    | none => .throws
    | some f =>
      match f .alphaX 0 0 with
      | none => .throws
      | some d =>
        match d.dims with
        | d0 :: d1 :: d2 :: _ =>
          if d2 = sz.nx ∧ d1 = sz.ny ∧ d0 = sz.np then wrap (readSingle sz t 0 ((sz.np : Int) - 1) s)
          else wrap (readMulti sz tags s)
        | _ => .ub
  | _ => wrap (readMulti sz tags s)

/-- correction_data.cpp:212-264 `output`. -/
def output (sz : Size) (s : Factors K) : File K := fun k g a =>
  if g < sz.ng ∧ a < sz.nang then
    some ⟨[sz.np, sz.ny, sz.nx], (List.range (sz.nx * sz.ny * sz.np)).map fun c : Nat => s k g a c⟩
  else none

end Verif.Cmdo.Data
