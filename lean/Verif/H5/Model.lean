import Mathlib.Algebra.BigOperators.Group.List.Basic

/-!
# Reading and writing arrays in files

src/util/h5file.hpp and src/util/h5file.cpp.  The HDF5 library is trusted: a dataset has extents and as many values as their product; creating a dataset under a name
that exists fails; `DataSet::write` copies as many values as the dataset has from the given address, `DataSet::read` copies all of them to the given address.  Extents
are natural numbers and products do not overflow `int`.
-/

namespace Verif.H5

variable {α : Type}

/-- How a call ends: normally, with an exception, by `assert` (only in builds without `NDEBUG`), or with an access outside of the array. -/
inductive Res (β : Type) where
  | ok (b : β)
  | exc
  | abort
  | ub
  deriving DecidableEq, Repr

/-- A dataset of the file: extents and values in storage order. -/
structure Dataset (α : Type) where
  dims : List Nat
  data : List α
  deriving DecidableEq, Repr

/-- The datasets below a node by path. -/
abbrev File (α : Type) := List (String × Dataset α)

/-- `openDataSet`. -/
def open? (f : File α) (path : String) : Option (Dataset α) := (f.find? (·.1 = path)).map (·.2)

/-- `createDataSet` followed by `DataSet::write`, with the values that are copied. -/
def create (f : File α) (path : String) (dims : List Nat) (data : List α) : Res (File α) :=
  match open? f path with
  | some _ => .exc
  | none => .ok (f ++ [(path, ⟨dims, data⟩)])

/-- `createDataSet` followed by `DataSet::write(data.data())`: as many values as `dims` has are copied from the memory of the array.  The dataset is created before. -/
def createFrom (f : File α) (path : String) (dims : List Nat) (buf : List α) : Res (File α) :=
  match open? f path with
  | some _ => .exc
  | none => if dims.prod ≤ buf.length then .ok (f ++ [(path, ⟨dims, buf.take dims.prod⟩)]) else .ub

/-- h5file.cpp:105-124: `write(path, VecF)`. -/
def writeVec (f : File α) (path : String) (data : List α) : Res (File α) := createFrom f path [data.length] data

/-- h5file.cpp:126-150: `write(path, VecF, dims)`.  `assert(size == data.size())` exists without `NDEBUG` only. -/
def writeVecDims (debug : Bool) (f : File α) (path : String) (data : List α) (dims : List Nat) : Res (File α) :=
  if debug ∧ dims.prod ≠ data.length then .abort else createFrom f path dims data

/-- A Blitz array: extents, whether its elements are contiguous in memory, elements in memory order. -/
structure Arr (α : Type) where
  shape : List Nat
  contiguous : Bool
  data : List α
  deriving DecidableEq, Repr

/-- h5file.cpp:152-175: `write(path, ArrayB1, dims)`; nothing compares `dims` with the size. -/
def writeArr1 (f : File α) (path : String) (a : Arr α) (dims : List Nat) : Res (File α) :=
  if a.contiguous then createFrom f path dims a.data else .exc

/-- h5file.hpp:157-191: `write(path, BlitzArray)`. -/
def writeArr (f : File α) (path : String) (a : Arr α) : Res (File α) :=
  if ¬ a.contiguous then .exc
  else if a.data.length ≠ a.shape.prod then .exc
  else createFrom f path a.shape a.data

/-- h5file.hpp:376-402: `write(path, first, last, dims)`: `std::copy` to a vector of zeros of the size of `dims`; the `assert` compares that size with itself. -/
def writeIter [Zero α] (f : File α) (path : String) (data : List α) (dims : List Nat) : Res (File α) :=
  if data.length ≤ dims.prod then create f path dims (data ++ List.replicate (dims.prod - data.length) 0) else .ub

/-- h5file.cpp:177-211: `read_1d`.  Without a test whether the array is contiguous: if not, memory between its elements is overwritten. -/
def read1d (f : File α) (path : String) (a : Arr α) : Res (Arr α) :=
  match open? f path with
  | none => .exc
  | some d =>
    if a.data.length = 0 then .ok ⟨[d.dims.prod], true, d.data⟩
    else if a.data.length ≠ d.dims.prod then .exc
    else if a.contiguous then .ok ⟨a.shape, true, d.data⟩ else .ub

/-- h5file.cpp:213-252: `read(path, std::vector<double>)`. -/
def readVec (f : File α) (path : String) (v : List α) : Res (List α) :=
  match open? f path with
  | none => .exc
  | some d =>
    if d.dims.length ≠ 1 then .exc
    else if v.length = 0 then .ok d.data
    else if v.length ≠ d.dims.prod then .exc
    else .ok d.data

/-- h5file.hpp:318-324: the loop over the dimensions of the dataset, `shape[i]` being outside of the array of extents for `i ≥ data.dimensions()`.  `some` if all agree. -/
def sameShape : List Nat → List Nat → Res Unit
  | [], _ => .ok ()
  | _ :: _, [] => .ub
  | d :: ds, s :: ss => if s ≠ d then .exc else sameShape ds ss

/-- h5file.hpp:267-337: `read(path, BlitzArray)`.  The comparison of the numbers of dimensions in lines 292-293 has an empty body. -/
def readArr (f : File α) (path : String) (a : Arr α) : Res (Arr α) :=
  if 0 < a.data.length ∧ ¬ a.contiguous then .exc else
  match open? f path with
  | none => .exc
  | some d =>
    if a.data.length = 0 then
      if a.shape.length = 1 then .ok ⟨[d.dims.prod], true, d.data⟩
      else if a.shape.length ≠ d.dims.length then .exc
      else .ok ⟨d.dims, true, d.data⟩
    else if a.shape.length = 1 then
      if a.data.length ≠ d.dims.prod then .exc else .ok ⟨a.shape, true, d.data⟩
    else
      match sameShape d.dims a.shape with
      | .ok () => if d.dims.prod ≤ a.data.length then .ok ⟨a.shape, true, d.data ++ a.data.drop d.dims.prod⟩ else .ub
      | .exc => .exc
      | .abort => .abort
      | .ub => .ub

/-- h5file.hpp:342-362: `read(path, int &)`: all values of the dataset go to the address of one; one without values leaves it. -/
def readScalar (f : File α) (path : String) (x : α) : Res α :=
  match open? f path with
  | none => .exc
  | some d =>
    match d.data with
    | [] => .ok x
    | [y] => .ok y
    | _ => .ub

/-- h5file.hpp:197-214, 219-236: `write(path, int)` and `write(path, uint64_t)`. -/
def writeScalar (f : File α) (path : String) (x : α) : Res (File α) := createFrom f path [1] [x]

end Verif.H5
