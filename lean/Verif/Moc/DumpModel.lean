import Mathlib.Data.List.Basic

/-!
# The file of rays

`MoCSweeper` with `dump_rays` writes the rays to `rays.py` (src/sweepers/moc/moc_sweeper.cpp:175-178, src/sweepers/moc/ray_data.cpp `operator<<`).  The list in it is written with a
comma and a comment behind every item; the last comma is overwritten by a bracket afterwards.  How numbers are written is a parameter.
-/

namespace Verif.Moc

/-- A file that is written: contents and position. -/
structure OutFile where
  buf : List Char
  pos : Nat

/-- `os << s`: replaces what is at the position, and goes on behind the end. -/
def OutFile.write (o : OutFile) (s : List Char) : OutFile := ⟨o.buf.take o.pos ++ s ++ o.buf.drop (o.pos + s.length), o.pos + s.length⟩

/-- `os.seekp(p)`, for a position inside the file. -/
def OutFile.seek (o : OutFile) (p : Nat) : OutFile := ⟨o.buf, p⟩

/-- ray.hpp:205-215: the ends of a ray and its two boundary indices. -/
structure DumpRay (K : Type) where
  p1 : K × K
  p2 : K × K
  bc0 : Int
  bc1 : Int

/-- How `operator<<` writes `double` and `int`. -/
structure Format (K : Type) where
  num : K → List Char
  int : Int → List Char

variable {K : Type}

/-- geom.cpp:23-27. -/
def pointText (f : Format K) (p : K × K) : List Char := ['[', ' '] ++ f.num p.1 ++ [',', ' '] ++ f.num p.2 ++ [' ', ']']

/-- ray.cpp:149-154. -/
def rayText (f : Format K) (r : DumpRay K) : List Char := ['['] ++ pointText f r.p1 ++ [',', ' '] ++ pointText f r.p2 ++ [']']

/-- ray_data.cpp:558. -/
def rayTail (f : Format K) (r : DumpRay K) : List Char := [',', ' ', ' ', ' ', ' ', '#', ' '] ++ f.int r.bc0 ++ [' '] ++ f.int r.bc1 ++ ['\n']

/-- ray_data.cpp:555-559: the rays of an angle; file and `ray_pos`. -/
def dumpRays (f : Format K) : List (DumpRay K) → OutFile → Nat → OutFile × Nat
  | [], o, p => (o, p)
  | r :: rs, o, _ =>
    let o := o.write (rayText f r)
    dumpRays f rs (o.write (rayTail f r)) o.pos

/-- ray_data.cpp:552-567: the angles; file and `angle_pos`. -/
def dumpAngles (f : Format K) : List (List (DumpRay K)) → OutFile → Nat → OutFile × Nat
  | [], o, p => (o, p)
  | rs :: as, o, _ =>
    let r := dumpRays f rs (o.write ['[', ' ', '\n']) o.pos
    let o := ((r.1.seek r.2).write [' ', ']']).seek r.1.pos
    dumpAngles f as (o.write [',', '\n']) o.pos

/-- ray_data.cpp:536-550. -/
def dumpHead : List Char :=
  ("import cairo\ndef draw_rays( ctx, angle):\n    angle_rays = rays[angle]\n    for r in angle_rays:\n        p1 = r[0]\n        p2 = r[1]\n" ++
    "        ctx.move_to(p1[0], p1[1])\n        ctx.line_to(p2[0], p2[1])\n        ctx.close_path()\n    ctx.stroke()\n    return\nrays = ").toList

/-- ray_data.cpp:549-573 and moc_sweeper.cpp:176-177: the list of the rays of the first plane, by angle, behind what is in front of it. -/
def dumpBehind (f : Format K) (head : List Char) (angles : List (List (DumpRay K))) : OutFile :=
  let o := (OutFile.write ⟨[], 0⟩ head).write ['[', ' ']
  let r := dumpAngles f angles o o.pos
  ((r.1.seek r.2).write [' ', ']', '\n']).write ['\n']

/-- ray_data.cpp:529-573 and moc_sweeper.cpp:176-177: the file. -/
def dumpFile (f : Format K) (angles : List (List (DumpRay K))) : OutFile := dumpBehind f dumpHead angles

end Verif.Moc
