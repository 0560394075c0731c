import Verif.Moc.DumpModel
import Mathlib.Tactic.NormNum

/-!
# C137: the file of rays
-/

namespace Verif.Moc

variable {K : Type}

/-- What is left of a text inside brackets when it is read as Python: comments up to the end of the line and white space are skipped; `inside` is whether in a comment. -/
def visible : Bool → List Char → List Char
  | _, [] => []
  | true, c :: s => visible (c ≠ '\n') s
  | false, c :: s => if c = '#' then visible true s else if c = ' ' ∨ c = '\n' then visible false s else c :: visible false s

/-- Items separated by commas, in brackets. -/
def listText (items : List (List Char)) : List Char := ['['] ++ (List.intersperse [','] items).flatten ++ [']']

/-- A ray as list of its two points. -/
def rayList (f : Format K) (r : DumpRay K) : List Char := listText [listText [f.num r.p1.1, f.num r.p1.2], listText [f.num r.p2.1, f.num r.p2.2]]

/-- Numbers are written without white space and comment signs, boundary indices on one line. -/
structure Format.Ok (f : Format K) : Prop where
  num : ∀ x, ∀ c ∈ f.num x, c ≠ '#' ∧ c ≠ ' ' ∧ c ≠ '\n'
  int : ∀ n, '\n' ∉ f.int n

/-! ### Visible text -/

theorem visible_plain (s t : List Char) (h : ∀ c ∈ s, c ≠ '#' ∧ c ≠ ' ' ∧ c ≠ '\n') : visible false (s ++ t) = s ++ visible false t := by
  induction s with
  | nil => rfl
  | cons c s ih =>
    obtain ⟨h1, h2, h3⟩ := h c (by simp)
    rw [List.cons_append, visible, if_neg h1, if_neg (by simp [h2, h3]), ih fun d hd => h d (by simp [hd]), List.cons_append]

theorem visible_comment (s t : List Char) (h : '\n' ∉ s) : visible true (s ++ '\n' :: t) = visible false t := by
  induction s with
  | nil => simp [visible]
  | cons c s ih =>
    simp only [List.mem_cons, not_or] at h
    rw [List.cons_append, visible, ← ih h.2]
    simp [Ne.symm h.1]

theorem visible_ray (f : Format K) (hf : f.Ok) (r : DumpRay K) (t : List Char) : visible false (rayText f r ++ t) = rayList f r ++ visible false t := by
  have e := fun x t => visible_plain (f.num x) t (hf.num x)
  simp [rayText, pointText, rayList, listText, visible, e]

/-! ### The file -/

/-- Position at the end. -/
def atEnd (b : List Char) : OutFile := ⟨b, b.length⟩

theorem write_end (b s : List Char) : (atEnd b).write s = atEnd (b ++ s) := by
  simp [OutFile.write, atEnd]

/-- Going back in the file and writing again. -/
theorem write_back (b t s : List Char) : ((atEnd (b ++ t)).seek b.length).write s = ⟨b ++ s ++ t.drop s.length, b.length + s.length⟩ := by
  simp [OutFile.write, OutFile.seek, atEnd, List.drop_append]

/-- The lines of the rays of an angle, with `z` in place of the comma and the first blank behind the last of them. -/
def raysText (f : Format K) (z : List Char) : List (DumpRay K) → List Char
  | [] => []
  | [r] => rayText f r ++ z ++ (rayTail f r).drop 2
  | r :: rs => rayText f r ++ rayTail f r ++ raysText f z rs

theorem dumpRays_spec (f : Format K) (rs : List (DumpRay K)) (hr : rs ≠ []) (b : List Char) (p : Nat) :
    ((dumpRays f rs (atEnd b) p).1.seek (dumpRays f rs (atEnd b) p).2).write [' ', ']'] =
      ⟨b ++ raysText f [' ', ']'] rs, (dumpRays f rs (atEnd b) p).2 + 2⟩ ∧ (dumpRays f rs (atEnd b) p).1.pos = (b ++ raysText f [' ', ']'] rs).length := by
  induction rs generalizing b p with
  | nil => exact absurd rfl hr
  | cons r rs ih =>
    cases rs with
    | nil =>
      simp only [dumpRays, write_end, raysText]
      rw [show (atEnd (b ++ rayText f r)).pos = (b ++ rayText f r).length from rfl, write_back]
      refine ⟨by simp, ?_⟩
      have h2 : (rayTail f r).length = (f.int r.bc0).length + (f.int r.bc1).length + 9 := by simp [rayTail]; omega
      have h3 : [' ', ']'].length = 2 := rfl
      show (b ++ rayText f r ++ rayTail f r).length = _
      simp only [List.length_append, List.length_drop, h2, h3]
      omega
    | cons r' rs =>
      have := ih (by simp) (b ++ rayText f r ++ rayTail f r) (b ++ rayText f r).length
      simp only [dumpRays, write_end] at this ⊢
      simp only [raysText, List.append_assoc] at this ⊢
      exact this

/-- An angle. -/
def angleText (f : Format K) (rs : List (DumpRay K)) : List Char := ['[', ' ', '\n'] ++ raysText f [' ', ']'] rs

/-- The angles, with `z` in place of the last comma. -/
def anglesText (f : Format K) (z : List Char) : List (List (DumpRay K)) → List Char
  | [] => []
  | [rs] => angleText f rs ++ z
  | rs :: as => angleText f rs ++ [',', '\n'] ++ anglesText f z as

theorem dumpAngles_spec (f : Format K) (as : List (List (DumpRay K))) (ha : as ≠ []) (hr : ∀ rs ∈ as, rs ≠ []) (b : List Char) (p : Nat) :
    ((dumpAngles f as (atEnd b) p).1.seek (dumpAngles f as (atEnd b) p).2).write [' ', ']', '\n'] = atEnd (b ++ anglesText f [' ', ']', '\n'] as) := by
  induction as generalizing b p with
  | nil => exact absurd rfl ha
  | cons rs as ih =>
    obtain ⟨h1, h2⟩ := dumpRays_spec f rs (hr rs (by simp)) (b ++ ['[', ' ', '\n']) (atEnd b).pos
    have h3 : (((dumpRays f rs ((atEnd b).write ['[', ' ', '\n']) (atEnd b).pos).1.seek (dumpRays f rs ((atEnd b).write ['[', ' ', '\n']) (atEnd b).pos).2).write [' ', ']']).seek
        (dumpRays f rs ((atEnd b).write ['[', ' ', '\n']) (atEnd b).pos).1.pos = atEnd (b ++ angleText f rs) := by
      rw [write_end, h1, h2]
      simp [OutFile.seek, atEnd, angleText]
    rw [write_end] at h3
    cases as with
    | nil =>
      simp only [dumpAngles, write_end, h3, anglesText]
      rw [show (atEnd (b ++ angleText f rs)).pos = (b ++ angleText f rs).length from rfl, write_back]
      simp [atEnd, Nat.add_assoc]
    | cons rs' as =>
      have := ih (by simp) (fun rs hrs => hr rs (by simp [hrs])) (b ++ angleText f rs ++ [',', '\n']) (atEnd (b ++ angleText f rs)).pos
      rw [dumpAngles]
      simp only [write_end, h3]
      simp only [anglesText, List.append_assoc] at this ⊢
      exact this

theorem visible_rays (f : Format K) (hf : f.Ok) (rs : List (DumpRay K)) (hr : rs ≠ []) (t : List Char) :
    visible false (raysText f [' ', ']'] rs ++ t) = (List.intersperse [','] (rs.map (rayList f))).flatten ++ ']' :: visible false t := by
  induction rs with
  | nil => exact absurd rfl hr
  | cons r rs ih =>
    have hc : ∀ t, visible true (f.int r.bc0 ++ ' ' :: (f.int r.bc1 ++ '\n' :: t)) = visible false t := by
      intro t
      have := visible_comment (f.int r.bc0 ++ ' ' :: f.int r.bc1) t (by simp [hf.int])
      simpa using this
    cases rs with
    | nil =>
      simp only [raysText, List.append_assoc, visible_ray f hf]
      simp [rayTail, visible, hc]
    | cons r' rs =>
      have := ih (by simp)
      simp only [raysText, List.append_assoc, visible_ray f hf, List.map_cons, List.intersperse, List.flatten_cons] at this ⊢
      congr 1
      rw [← this]
      simp [rayTail, visible, hc]

theorem visible_angles (f : Format K) (hf : f.Ok) (as : List (List (DumpRay K))) (ha : as ≠ []) (hr : ∀ rs ∈ as, rs ≠ []) (t : List Char) :
    visible false (anglesText f [' ', ']', '\n'] as ++ t) = (List.intersperse [','] (as.map fun rs => listText (rs.map (rayList f)))).flatten ++ ']' :: visible false t := by
  induction as with
  | nil => exact absurd rfl ha
  | cons rs as ih =>
    have hv : ∀ t, visible false (angleText f rs ++ t) = listText (rs.map (rayList f)) ++ visible false t := by
      intro t
      have := visible_rays f hf rs (hr rs (by simp)) t
      simp [angleText, visible, listText, this]
    cases as with
    | nil =>
      simp only [anglesText, List.append_assoc, hv]
      simp [visible]
    | cons rs' as =>
      have := ih (by simp) fun rs hrs => hr rs (by simp [hrs])
      simp only [anglesText, List.append_assoc, hv, List.map_cons, List.intersperse, List.flatten_cons] at this ⊢
      congr 1
      rw [← this]
      simp [visible]

/-- C137: the file is the code for drawing and then, for whoever reads it as Python, the list of the angles, each a list of rays, each a list of two points. -/
theorem C137_file (f : Format K) (hf : f.Ok) (angles : List (List (DumpRay K))) (ha : angles ≠ []) (hr : ∀ rs ∈ angles, rs ≠ []) :
    ∃ s, (dumpFile f angles).buf = dumpHead ++ s ∧ visible false s = listText (angles.map fun rs => listText (rs.map (rayList f))) := by
  refine ⟨['[', ' '] ++ (anglesText f [' ', ']', '\n'] angles ++ ['\n']), ?_, ?_⟩
  · have key : ∀ h : List Char, dumpBehind f h angles = atEnd (h ++ (['[', ' '] ++ (anglesText f [' ', ']', '\n'] angles ++ ['\n']))) := by
      intro h
      have e : OutFile.write ⟨[], 0⟩ h = atEnd h := write_end [] h
      simp only [dumpBehind]
      rw [e, write_end, dumpAngles_spec f angles ha hr, write_end, List.append_assoc, List.append_assoc]
    rw [dumpFile, key]
    rfl
  · have := visible_angles f hf angles ha hr ['\n']
    simp [visible, listText, this]

/-- C137: the list is given the name under which the code for drawing looks up the rays of an angle, on a line of its own. -/
theorem C137_head : ∃ a b : List Char,
    dumpHead = a ++ ['\n', ' ', ' ', ' ', ' ', 'a', 'n', 'g', 'l', 'e', '_', 'r', 'a', 'y', 's', ' ', '=', ' ', 'r', 'a', 'y', 's', '[', 'a', 'n', 'g', 'l', 'e', ']', '\n'] ++
      b ++ ['\n', 'r', 'a', 'y', 's', ' ', '=', ' '] := by
  refine ⟨dumpHead.take 40, (dumpHead.drop 70).take (dumpHead.length - 78), ?_⟩
  decide +kernel

/-- Numbers as digits. -/
def exFormat : Format Int := ⟨fun n => if n = 0 then ['0'] else ['1'], fun n => if n = 0 then ['0'] else ['1']⟩

theorem exFormat_ok : exFormat.Ok := by
  constructor
  · intro x c hc
    simp only [exFormat] at hc
    split at hc <;> (simp only [List.mem_singleton] at hc; subst hc; decide)
  · intro n
    simp only [exFormat]
    split <;> decide

/-- C137: the assumption is needed.  An angle without rays, which the ray tracing does not produce, would lose its opening bracket. -/
theorem C137_needed : (dumpFile exFormat [[]]).buf = dumpHead ++ ['[', ' ', ' ', ']', '\n', ' ', ']', '\n', '\n'] := by
  decide +kernel

/-- Two angles with two rays and one. -/
example : ∃ s, (dumpFile exFormat [[⟨(0, 0), (1, 1), 0, 1⟩, ⟨(0, 1), (1, 0), 1, 1⟩], [⟨(1, 1), (0, 0), 0, 0⟩]]).buf = dumpHead ++ s ∧
    visible false s = "[[[[0,0],[1,1]],[[0,1],[1,0]]],[[[1,1],[0,0]]]]".toList := by
  obtain ⟨s, h1, h2⟩ := C137_file exFormat exFormat_ok [[⟨(0, 0), (1, 1), 0, 1⟩, ⟨(0, 1), (1, 0), 1, 1⟩], [⟨(1, 1), (0, 0), 0, 0⟩]] (by simp) (by simp)
  exact ⟨s, h1, h2.trans (by decide +kernel)⟩

end Verif.Moc
