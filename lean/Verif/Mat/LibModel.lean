import Verif.Scatter.Model
import Verif.Strings.Model

/-!
# Materials and the material library

Model of `Material` (src/core/material.{hpp,cpp}), of the constructor of `MaterialLib` from the input and its look-up functions
(src/core/material_lib.{hpp,cpp}) and of `FileScrubber` (src/util/file_scrubber.cpp).  The conversion of text to numbers is a parameter.  The
constructor from a `FileScrubber`, which only a test calls, is in `Verif.Mat.ScrubModel`.
-/

namespace Verif.Mat

open Verif.Scatter Verif.Strings

variable {K : Type} [Field K] [LinearOrder K]

/-- file_scrubber.cpp:41-48: a line without its comment and outer white space. -/
def clean (l : List Char) : List Char := trim (l.takeWhile (· ≠ '!'))

/-- file_scrubber.cpp:36-55 `getline`: the line returned and the lines left; the empty line at the end of the file. -/
def getline : List (List Char) → List Char × List (List Char)
  | [] => ([], [])
  | l :: ls => if (clean l).isEmpty then getline ls else (clean l, ls)

/-- A material, material.hpp:93-100. -/
structure Material (K : Type) where
  ab : List K
  tr : List K
  nf : List K
  f : List K
  ch : List K
  sc : Matrix K
  fissile : Bool

/-- material.cpp:45-55: chi divided by its sum if a value is positive. -/
def normChi (ch : List K) : List K :=
  if ch.any (fun v => decide (0 < v)) then
    let sum := ch.foldl (· + ·) 0
    ch.map (· / sum)
  else ch

/-- material.cpp:22-62, the constructor; all arguments have one value per group.  An exception if the scattering table is not square
(scattering_matrix.cpp:29-33). -/
def mkMaterial (ab nf f ch : List K) (scat : List (List K)) : Option (Material K) :=
  if scat.any (fun row => row.length ≠ scat.length) then none
  else
    let m := build scat.length fun a b => ((scat[a]?).bind (·[b]?)).getD 0
    some { ab := ab, nf := nf, f := f, ch := normChi ch, sc := m
           fissile := nf.any fun v => decide (0 < v)
           tr := (List.range ab.length).map fun g : Nat => (ab[g]?).getD 0 + m.out g }

/-- The parsers of the lines: the two counts and the group bounds by `operator>>`, further values by `explode_string` (string_utils.cpp:61-91);
`none` if they throw. -/
structure Parser (K : Type) where
  counts : List Char → Option (Nat × Nat)
  bounds : Nat → List Char → Option (List K)
  values : List Char → Option (List K)

/-- The rest of a header after `XSMACRO`, white space, name, white space, digits and white space; the name. -/
def headRest (s : List Char) : Option (List Char) :=
  let a := s.dropWhile isSpace
  let name := a.takeWhile (fun c => !isSpace c)
  let b := a.dropWhile (fun c => !isSpace c)
  let c := b.dropWhile isSpace
  let d := c.dropWhile isDigit
  if a.length < s.length ∧ name ≠ [] ∧ c.length < b.length ∧ d.length < c.length ∧ d.all isSpace then some name else none

/-- material_lib.cpp:99-102: the first group of `^\s*XSMACRO\s+([^\s]+)\s+([0-9]+)\s*$`, empty without a match. -/
def headName (line : List Char) : List Char :=
  let s := line.dropWhile isSpace
  if "XSMACRO".toList.isPrefixOf s then (headRest (s.drop 7)).getD [] else []

/-- material_lib.cpp:105-119: the cross sections of `n` groups. -/
def readRows (p : Parser K) (len : Nat) : Nat → List (List Char) → Option (List (List K) × List (List Char))
  | 0, ls => some ([], ls)
  | n + 1, ls =>
    let g := getline ls
    match p.values g.1 with
    | none => none
    | some row =>
      if row.length ≠ len then none
      else (readRows p len n g.2).map fun r => (row :: r.1, r.2)

/-- Column `i` of rows of four values. -/
def column (rows : List (List K)) (i : Nat) : List K := rows.map fun r => (r[i]?).getD 0

/-- material_lib.cpp:95-133: one material of the file. -/
def readOne (p : Parser K) (ng : Nat) (ls : List (List Char)) : Option ((List Char × Material K) × List (List Char)) :=
  let g := getline ls
  let name := headName g.1
  match readRows p 4 ng g.2 with
  | none => none
  | some (rows, ls1) =>
    match readRows p ng ng ls1 with
    | none => none
    | some (scat, ls2) =>
      match mkMaterial (column rows 0) (column rows 1) (column rows 2) (column rows 3) scat with
      | none => none
      | some m => some ((name, m), ls2)

/-- The library, material_lib.hpp:128-158; the maps as functions. -/
structure Lib (K : Type) where
  ng : Nat
  bounds : List K
  mats : List (Material K)
  names : List Char → Option Nat
  assigned : List (Material K)
  ids : Int → Option Nat
  dense : Int → Option Nat
  n : Nat

/-- material_lib.cpp:133-139: add a material; the map of names is overwritten. -/
def Lib.add (l : Lib K) (nm : List Char × Material K) : Lib K :=
  { l with mats := l.mats ++ [nm.2], names := fun x => if x = nm.1 then some l.mats.length else l.names x }

/-- material_lib.cpp:95-140: `n` materials. -/
def readMats (p : Parser K) : Nat → List (List Char) → Lib K → Option (Lib K)
  | 0, _, l => some l
  | n + 1, ls, l =>
    match readOne p l.ng ls with
    | none => none
    | some (m, ls') => readMats p n ls' (l.add m)

/-- material_lib.cpp:63-140: the file. -/
def readFile (p : Parser K) (ls : List (List Char)) : Option (Lib K) :=
  let g0 := getline ls
  let g1 := getline g0.2
  match p.counts g1.1 with
  | none => none
  | some (ng, nmat) =>
    let g2 := getline g1.2
    match p.bounds ng g2.1 with
    | none => none
    | some b => readMats p nmat g2.2 ⟨ng, b, [], fun _ => none, [], fun _ => none, fun _ => none, 0⟩

/-- material_lib.cpp:240-255 `assignID`. -/
def Lib.assign (l : Lib K) (id : Int) (name : List Char) : Option (Lib K) :=
  match l.names name with
  | none => none
  | some i =>
    match l.mats[i]? with
    | none => none
    | some m => some { l with assigned := l.assigned ++ [m], dense := fun x => if x = id then some l.n else l.dense x
                              ids := fun x => if x = id then some i else l.ids x, n := l.n + 1 }

/-- material_lib.cpp:143-147: the `<material>` tags in turn. -/
def Lib.assignAll (l : Lib K) (tags : List (Int × List Char)) : Option (Lib K) :=
  tags.foldlM (fun l t => l.assign t.1 t.2) l

/-- material_lib.hpp:80-91 `get_material_by_id` and `operator[]`; `none` is the exception of `at`. -/
def Lib.byId (l : Lib K) (id : Int) : Option (Material K) := (l.ids id).bind (l.mats[·]?)

/-- material_lib.hpp:72-75 `get_index_by_id`. -/
def Lib.indexOf (l : Lib K) (id : Int) : Option Nat := l.dense id

/-- material_lib.hpp:122-125 `has`. -/
def Lib.has (l : Lib K) (id : Int) : Bool := (l.ids id).isSome

end Verif.Mat
