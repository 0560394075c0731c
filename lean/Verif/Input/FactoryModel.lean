import Verif.Strings.Model

/-!
# Factories and options

Model of `SolverFactory` (src/solvers/solver_factory.cpp), `TransportSweeperFactory` (src/sweepers/transport_sweeper_factory.cpp), `SnSweeperFactory`
(src/sweepers/sn_sweeper_factory.cpp), `SnSweeperFactory_CDD` (src/sweepers/cmdo/sn_sweeper_factory_cdd.cpp), of the options read by the constructors of the
sweepers, `SourceFactory` (src/core/source_factory.cpp), `find_angquad` (src/core/transport_sweeper.cpp) and `validate_input`
(src/util/validate_input.cpp).  What the constructors do besides reading options (C90, C93, C95 and others) is taken to succeed.  Strings are lists of ASCII
characters; the conversion of text to `int` by pugixml is a parameter.
-/

namespace Verif.Input.Factory

open Verif.Strings

abbrev Str := List Char

/-- `tolower` in the C locale. -/
def lower (c : Char) : Char := if 'A' ≤ c ∧ c ≤ 'Z' then Char.ofNat (c.toNat + 32) else c

/-- string_utils.hpp:69-74 `sanitize`. -/
def sanitize (s : Str) : Str := trim (s.map lower)

/-- An XML node: attributes in order, and its `<ang_quad>` child if there is one. -/
structure Node (Q : Type) where
  attrs : List (Str × Str)
  quad : Option Q

variable {Q : Type}

/-- pugixml `attribute(name)`: the first of that name; `none` is `empty()`. -/
def attr (n : Node Q) (name : String) : Option Str := (n.attrs.find? fun a => a.1 = name.toList).map (·.2)

/-- transport_sweeper.cpp:30-55 `find_angquad` from a node (head of the list) through its parents to the document. `none` is an exception. -/
def findAngquad : List (Node Q) → Option Q
  | [] => none
  | n :: up => match n.quad with
    | some q => some q
    | none => findAngquad up

/-- validate_input.cpp:24-42: the result, and the number of warnings. -/
def validate (n : Node Q) (known : List String) : Bool × Nat :=
  n.attrs.foldl (fun s a => if (known.map String.toList).contains a.1 then s else (false, s.2 + 1)) (true, 0)

/-! ### Sn -/

inductive Axial | dd | ddFf | sc | fw | pmb
  deriving DecidableEq

/-- The classes: `SnSweeper_DD`, `SnSweeper_DD_SC`, `SnSweeper_CDD_*`. -/
inductive SnKind | dd | ddSc | cdd (a : Axial)
  deriving DecidableEq

/-- An Sn sweeper: class, `n_inner_`, `gs_boundary_`, quadrature. -/
structure Sn (Q : Type) where
  kind : SnKind
  inner : Int
  gs : Bool
  quad : Q
  deriving DecidableEq

/-- sn_sweeper.cpp:90-96 and moc_sweeper.cpp:93-99: `n_inner`; without the attribute it is -1. -/
def innerOf (asInt : Str → Int) (n : Node Q) : Int := match attr n "n_inner" with | none => -1 | some v => asInt v

/-- sn_sweeper.cpp:98-109: `boundary_update`, whether it is Gauss-Seidel. `none` is an exception. -/
def snUpdate (n : Node Q) : Option Bool :=
  match attr n "boundary_update" with
  | none => some true
  | some v =>
    if sanitize v = "gs".toList ∨ sanitize v = "gauss-seidel".toList then some true
    else if sanitize v = "jacobi".toList ∨ sanitize v = "j".toList then some false
    else none

/-- sn_sweeper.cpp:45-122: the options read by the constructor. -/
def makeSn (asInt : Str → Int) (threads : Nat) (kind : SnKind) : List (Node Q) → Option (Sn Q)
  | [] => none
  | n :: up =>
    match findAngquad (n :: up) with
    | none => none
    | some q =>
      if innerOf asInt n < 0 then none
      else (snUpdate n).map fun g => ⟨kind, innerOf asInt n, g && decide (threads ≤ 1), q⟩

/-- sn_sweeper_factory_cdd.cpp:72-98: the table of axial treatments. -/
def cddAxial (v : Str) : Option Axial :=
  if v = "dd".toList then some .dd
  else if v = "dd_ff".toList then some .ddFf
  else if v = "sc".toList then some .sc
  else if v = "fw".toList then some .fw
  else if v = "pmb".toList then some .pmb
  else none

/-- Result of mutually recursive functions: not finished within the given depth, or finished (`none` is an exception). -/
inductive Rec (A : Type)
  | deep | done (r : Option A)

/-- The attributes of the node at the head. -/
def attrOf (path : List (Node Q)) (name : String) : Option Str := path.head?.bind fun n => attr n name

mutual
/-- sn_sweeper_factory.cpp:34-77 `SnSweeperFactory`; the first argument bounds the depth of calls. -/
def snFactory (asInt : Str → Int) (threads : Nat) : Nat → List (Node Q) → Rec (Sn Q)
  | 0, _ => .deep
  | d + 1, path =>
    let equation := (attrOf path "equation").getD "dd".toList
    if equation = "dd".toList then
      let axial := (attrOf path "axial").getD "dd".toList
      if axial = "dd".toList then .done (makeSn asInt threads .dd path)
      else if axial = "sc".toList then .done (makeSn asInt threads .ddSc path)
      else .done none
    else if equation = "cdd".toList then cddFactory asInt threads d path
    else .done none
/-- sn_sweeper_factory_cdd.cpp:42-101 `SnSweeperFactory_CDD`. -/
def cddFactory (asInt : Str → Int) (threads : Nat) : Nat → List (Node Q) → Rec (Sn Q)
  | 0, _ => .deep
  | d + 1, path =>
    let equation := ((attrOf path "equation").map sanitize).getD "cdd".toList
    if equation ≠ "cdd".toList then snFactory asInt threads d path
    else
      match cddAxial (((attrOf path "axial").map sanitize).getD "dd".toList) with
      | some a => .done (makeSn asInt threads (.cdd a) path)
      | none => .done none
end

/-! ### MoC -/

/-- A MoC sweeper: `n_inner_`, `gauss_seidel_boundary_`, quadrature. -/
structure Moc (Q : Type) where
  inner : Int
  gs : Bool
  quad : Q
  deriving DecidableEq

/-- moc_sweeper.cpp:105-116: `boundary_update`. -/
def mocUpdate (n : Node Q) : Option Bool :=
  match attr n "boundary_update" with
  | none => some true
  | some v =>
    if sanitize v = "jacobi".toList ∨ sanitize v = "j".toList then some false
    else if sanitize v = "gs".toList then some true
    else none

/-- moc_sweeper.cpp:62-122: the options read by the constructor. -/
def makeMoc (asInt : Str → Int) : List (Node Q) → Option (Moc Q)
  | [] => none
  | n :: up =>
    match findAngquad (n :: up) with
    | none => none
    | some q =>
      if innerOf asInt n < 0 then none
      else (mocUpdate n).map fun g => ⟨innerOf asInt n, g, q⟩

/-! ### Sweepers -/

/-- A `<sweeper>` with its children `<sn_sweeper>` and `<moc_sweeper>`. -/
structure Tag (Q : Type) where
  node : Node Q
  sn : Option (Node Q)
  moc : Option (Node Q)

/-- What `TransportSweeperFactory` makes. -/
inductive Sweeper (Q : Type)
  | moc (m : Moc Q) | sn (s : Sn Q) | plane (s : Sn Q) (m : Moc Q) (q : Q) (v : Bool) | moc2d3d (m : Moc Q)
  deriving DecidableEq

/-- plane_sweeper_2d3d.cpp:407-416: the `cycle` attribute: whether a V cycle is made. -/
def cycleOf (n : Node Q) : Option Bool :=
  match attr n "cycle" with
  | none => some false
  | some v => if v = "v".toList then some true else if v = "saw".toList ∨ v = "sawtooth".toList then some false else none

/-- transport_sweeper_factory.cpp:27-73 and plane_sweeper_2d3d.cpp:47-75; `up` are the parents of the tag (the `<solver>` and the document).  A child that does
not exist is an empty node, for which `find_angquad` throws. -/
def sweeperFactory (asInt : Str → Int) (threads : Nat) (t : Tag Q) (up : List (Node Q)) : Rec (Sweeper Q) :=
  let type := (attr t.node "type").getD []
  if type = "moc".toList then .done ((makeMoc asInt (t.node :: up)).map .moc)
  else if type = "sn".toList then
    match snFactory asInt threads 3 (t.node :: up) with
    | .deep => .deep
    | .done r => .done (r.map .sn)
  else if type = "2d3d".toList then
    match t.sn with
    | none => .done none
    | some ns =>
      match cddFactory asInt threads 3 (ns :: t.node :: up) with
      | .deep => .deep
      | .done none => .done none
      | .done (some s) =>
        match t.moc with
        | none => .done none
        | some nm =>
          match makeMoc asInt (nm :: t.node :: up), findAngquad (t.node :: up), cycleOf t.node with
          | some m, some q, some v => .done (some (.plane s m q v))
          | _, _, _ => .done none
  else if type = "moc_2d3d".toList then .done ((makeMoc asInt (t.node :: up)).map .moc2d3d)
  else .done none

inductive Solver | eigenvalue | fixedSource | eigenvalueMc
  deriving DecidableEq

/-- solver_factory.cpp:28-55; `none` is an empty node. -/
def solverFactory (n : Option (Node Q)) : Option Solver :=
  match n with
  | none => none
  | some n =>
    let type := (attr n "type").getD []
    if type = "eigenvalue".toList then some .eigenvalue
    else if type = "fixed_source".toList then some .fixedSource
    else if type = "eigenvalue_mc".toList then some .eigenvalueMc
    else none

/-- source_factory.cpp:25-62: whether a source is made (there is one kind only). -/
def sourceFactory (n : Option (Node Q)) : Bool :=
  match n with
  | none => false
  | some n =>
    let s := (attr n "scattering").getD []
    if s.isEmpty then false else decide (sanitize s = "p0".toList)

end Verif.Input.Factory
