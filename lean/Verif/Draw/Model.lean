import Verif.Mesh.TraceModel
import Verif.Core.PinsModel

/-!
# The drawing of the geometry

`output_geometry` (src/auxiliary/geometry_output.cpp) writes a Python program that draws a plane with the library cairo.  The model of the program is the list of its calls on the context `ctx`; numbers are
exact, though they are written with six digits.  The rays (`angle = -1` in the file, geometry_output.cpp:56, 104-107) are not drawn.
-/

namespace Verif.Draw

open Verif.Geom

variable {K : Type} [Field K] [LinearOrder K]

/-- The calls on `ctx` in the file; angles of an arc are always 0 and 2π. -/
inductive Cmd (K : Type)
  | scale (x y : K)
  | translate (x y : K)
  | moveTo (p : Pt K)
  | lineTo (p : Pt K)
  | arc (c : Pt K) (r : K)
  | closePath
  | stroke

/-- What is in a path or on the page: a straight line, or a circle as the page shows it (an ellipse with axes `rx`, `ry`, which can be negative). -/
inductive Shape (K : Type)
  | seg (p q : Pt K)
  | ring (c : Pt K) (rx ry : K)

/-- State of a cairo context: transformation of user to page coordinates, current point and start of the subpath, path, and what has been stroked. -/
structure Pen (K : Type) where
  sx : K
  sy : K
  tx : K
  ty : K
  cur : Option (Pt K)
  start : Option (Pt K)
  path : List (Shape K)
  ink : List (Shape K)

/-- From user to page coordinates. -/
def Pen.page (s : Pen K) (p : Pt K) : Pt K := ⟨s.sx * p.x + s.tx, s.sy * p.y + s.ty⟩

/-- The part of the documented behaviour of cairo that the file uses (`cairo_scale`, `cairo_translate`, `cairo_move_to`, `cairo_line_to`, `cairo_arc`, `cairo_close_path`, `cairo_stroke`): points are
transformed when they are added to the path; `arc` first draws a line from the current point, if there is one, to the start of the arc. -/
def Pen.exec (s : Pen K) : Cmd K → Pen K
  | .scale x y => { s with sx := s.sx * x, sy := s.sy * y }
  | .translate x y => { s with tx := s.sx * x + s.tx, ty := s.sy * y + s.ty }
  | .moveTo p => { s with cur := some (s.page p), start := some (s.page p) }
  | .lineTo p =>
    match s.cur with
    | none => { s with cur := some (s.page p), start := some (s.page p) }
    | some a => { s with cur := some (s.page p), path := s.path ++ [.seg a (s.page p)] }
  | .arc c r =>
    let b := s.page ⟨c.x + r, c.y⟩
    let e := Shape.ring (s.page c) (s.sx * r) (s.sy * r)
    match s.cur with
    | none => { s with cur := some b, start := some b, path := s.path ++ [e] }
    | some a => { s with cur := some b, path := s.path ++ [.seg a b, e] }
  | .closePath =>
    match s.cur, s.start with
    | some a, some b => { s with cur := some b, path := s.path ++ [.seg a b] }
    | _, _ => s
  | .stroke => { s with cur := none, start := none, path := [], ink := s.ink ++ s.path }

/-- A new context. -/
def Pen.new : Pen K := ⟨1, 1, 0, 0, none, none, [], []⟩

/-- The page after a program. -/
def drawn (prog : List (Cmd K)) : List (Shape K) := (prog.foldl Pen.exec Pen.new).ink

/-! ### The program -/

/-- What `draw` needs of a pin mesh. -/
inductive PinDraw (K : Type)
  | rect (lines : List (Line K))
  | cyl (radii : List K) (lines : List (Line K))

/-- pin_mesh_rect.cpp:215-219 and pin_mesh_cyl.cpp:376-380: one line. -/
def lineCmds (l : Line K) : List (Cmd K) := [.moveTo l.p1, .lineTo l.p2, .closePath]

/-- pin_mesh_rect.cpp:211-223, pin_mesh_cyl.cpp:365-383: `draw`. -/
def PinDraw.cmds : PinDraw K → List (Cmd K)
  | .rect lines => lines.flatMap lineCmds ++ [.stroke]
  | .cyl radii lines => [.moveTo ⟨0, 0⟩] ++ radii.map (fun r => .arc ⟨0, 0⟩ r) ++ lines.flatMap lineCmds ++ [.stroke]

/-- geometry_output.cpp:60-67: a page of 720 by 720 points, the y axis upwards. -/
def pageCmds (w h : K) : List (Cmd K) := [.scale (720 / w) (-720 / h), .translate 0 (-h)]

/-- geometry_output.cpp:75-85: lines of the mesh. -/
def gridCmds (lines : List (Line K)) : List (Cmd K) := lines.flatMap fun l => [.moveTo l.p1, .lineTo l.p2]

/-- geometry_output.cpp:91-101: a pin. -/
def pinCmds (o : Pt K) (d : PinDraw K) : List (Cmd K) := [.translate o.x o.y] ++ d.cmds ++ [.translate (-o.x) (-o.y)]

/-- geometry_output.cpp:28-112 after the checks: `pins` are those from `mesh.begin(plane)` to `mesh.end(plane)` with their origins. -/
def program (xs ys : List K) (pins : List (Pt K × PinDraw K)) : List (Cmd K) :=
  pageCmds (xs.getLastD 0) (ys.getLastD 0) ++ gridCmds (Mesh.gridLines xs ys) ++ pins.flatMap fun x => pinCmds x.1 x.2

/-- core_mesh.hpp:230-242 `begin(iz)`, `end(iz)`: the pins of a plane. -/
def planePins {P : Type} (nx ny : Nat) (pins : List P) (iz : Nat) : List P := (pins.drop (nx * ny * iz)).take (nx * ny)

/-- geometry_output.cpp:40-43: the plane; the attribute `plane` is an integer, 0 when it is missing. `none`: exception. -/
def planeOf (nz : Nat) (attr : Option Int) : Option Nat :=
  let p := attr.getD 0
  if p < 0 ∨ (nz : Int) ≤ p then none else some p.toNat

/-- geometry_output.cpp:28-112: the program that is written, `none` for an exception or a read outside of an array; `origin` is `pin_origin`, called with the number of the pin in the plane. -/
def output {P : Type} (nx ny nz : Nat) (xs ys : List K) (origin : Nat → Option (K × K)) (shape : P → PinDraw K) (pins : List P) (attr : Option Int) : Option (List (Cmd K)) := do
  let plane ← planeOf nz attr
  let ps ← (planePins nx ny pins plane).zipIdx.mapM fun x => (origin x.2).map fun o => ((⟨o.1, o.2⟩ : Pt K), shape x.1)
  return program xs ys ps

end Verif.Draw
