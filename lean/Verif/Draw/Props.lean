import Verif.Draw.Model
import Mathlib.Algebra.Order.Field.Basic
import Mathlib.Tactic.Ring
import Mathlib.Tactic.FieldSimp
import Mathlib.Tactic.Linarith
import Mathlib.Tactic.LinearCombination
import Mathlib.Tactic.Positivity
import Mathlib.Tactic.NormNum

/-!
# C132: the drawing of the geometry
-/

namespace Verif.Draw

open Verif.Geom

variable {K : Type} [Field K] [LinearOrder K] [IsStrictOrderedRing K]

/-- A point of a straight line between two points. -/
def OnSeg (p q a : Pt K) : Prop := ∃ t, 0 ≤ t ∧ t ≤ 1 ∧ a.x = p.x + t * (q.x - p.x) ∧ a.y = p.y + t * (q.y - p.y)

/-- A point of a shape on the page. -/
def OnShape : Shape K → Pt K → Prop
  | .seg p q, a => OnSeg p q a
  | .ring c rx ry, a => ∃ u v, u * u + v * v = 1 ∧ a.x = c.x + rx * u ∧ a.y = c.y + ry * v

/-- The ink on the page after a program. -/
def Inked (prog : List (Cmd K)) (a : Pt K) : Prop := ∃ s ∈ drawn prog, OnShape s a

/-- Where a point of a core of width `w` and height `h` is on a page of 720 by 720, whose y axis points down. -/
def onPage (w h : K) (p : Pt K) : Pt K := ⟨720 * (p.x / w), 720 * (1 - p.y / h)⟩

/-- The boundaries within a pin, relative to its middle. -/
def OnPin : PinDraw K → Pt K → Prop
  | .rect lines, p => ∃ l ∈ lines, OnSeg l.p1 l.p2 p
  | .cyl radii lines, p => (∃ r ∈ radii, p.x * p.x + p.y * p.y = r * r) ∨ ∃ l ∈ lines, OnSeg l.p1 l.p2 p

/-- The line from the middle of a cylindrical pin to its outermost ring that `arc` adds. -/
def Extra : PinDraw K → Pt K → Prop
  | .rect _, _ => False
  | .cyl radii _, p => p.y = 0 ∧ 0 ≤ p.x ∧ ∃ r ∈ radii, p.x ≤ r

/-! ### Shapes of a list of commands -/

theorem onSeg_symm {p q a : Pt K} : OnSeg p q a ↔ OnSeg q p a := by
  constructor <;> (rintro ⟨t, h0, h1, hx, hy⟩; exact ⟨1 - t, by linarith, by linarith, by rw [hx]; ring, by rw [hy]; ring⟩)

/-- A transformation from user to page coordinates. -/
structure Tr (K : Type) where
  sx : K
  sy : K
  tx : K
  ty : K

def Tr.at_ (t : Tr K) (p : Pt K) : Pt K := ⟨t.sx * p.x + t.tx, t.sy * p.y + t.ty⟩

def Pen.tr (s : Pen K) : Tr K := ⟨s.sx, s.sy, s.tx, s.ty⟩

theorem page_at (s : Pen K) (p : Pt K) : s.page p = s.tr.at_ p := rfl

theorem at_seg (t : Tr K) (hx : t.sx ≠ 0) (hy : t.sy ≠ 0) (p q a : Pt K) : OnSeg (t.at_ p) (t.at_ q) (t.at_ a) ↔ OnSeg p q a := by
  constructor
  · rintro ⟨k, h0, h1, ex, ey⟩
    refine ⟨k, h0, h1, ?_, ?_⟩
    · apply mul_left_cancel₀ hx
      simp only [Tr.at_] at ex
      linear_combination ex
    · apply mul_left_cancel₀ hy
      simp only [Tr.at_] at ey
      linear_combination ey
  · rintro ⟨k, h0, h1, ex, ey⟩
    refine ⟨k, h0, h1, ?_, ?_⟩
    · simp only [Tr.at_, ex]; ring
    · simp only [Tr.at_, ey]; ring

theorem at_ring (t : Tr K) (hx : t.sx ≠ 0) (hy : t.sy ≠ 0) (r : K) (a : Pt K) :
    OnShape (.ring (t.at_ ⟨0, 0⟩) (t.sx * r) (t.sy * r)) (t.at_ a) ↔ a.x * a.x + a.y * a.y = r * r := by
  constructor
  · rintro ⟨u, v, huv, ex, ey⟩
    have e1 : a.x = r * u := by
      apply mul_left_cancel₀ hx
      simp only [Tr.at_] at ex
      linear_combination ex
    have e2 : a.y = r * v := by
      apply mul_left_cancel₀ hy
      simp only [Tr.at_] at ey
      linear_combination ey
    rw [e1, e2]
    linear_combination (r * r) * huv
  · intro h
    by_cases hr : r = 0
    · subst hr
      have hx0 : a.x = 0 := by nlinarith [mul_self_nonneg a.x, mul_self_nonneg a.y]
      have hy0 : a.y = 0 := by nlinarith [mul_self_nonneg a.x, mul_self_nonneg a.y]
      exact ⟨1, 0, by ring, by simp [Tr.at_, hx0], by simp [Tr.at_, hy0]⟩
    · refine ⟨a.x / r, a.y / r, ?_, ?_, ?_⟩
      · field_simp
        linear_combination h
      · simp only [Tr.at_]; field_simp; ring
      · simp only [Tr.at_]; field_simp; ring

theorem exec_tr_translate (s : Pen K) (x y : K) : ((s.exec (.translate x y)).exec (.translate (-x) (-y))) = s := by
  simp only [Pen.exec]
  cases s
  simp

/-- Lines of a pin. -/
theorem exec_lines (lines : List (Line K)) (s : Pen K) :
    ∃ c d, (lines.flatMap lineCmds).foldl Pen.exec s = { s with cur := c, start := d, path := s.path ++ lines.flatMap fun l => [.seg (s.page l.p1) (s.page l.p2), .seg (s.page l.p2) (s.page l.p1)] } := by
  induction lines generalizing s with
  | nil => exact ⟨s.cur, s.start, by simp⟩
  | cons l ls ih =>
    simp only [List.flatMap_cons, List.foldl_append, lineCmds, List.foldl_cons, List.foldl_nil, Pen.exec]
    obtain ⟨c, d, h⟩ := ih { s with cur := some (s.page l.p1), start := some (s.page l.p1), path := s.path ++ [.seg (s.page l.p1) (s.page l.p2)] ++ [.seg (s.page l.p2) (s.page l.p1)] }
    refine ⟨c, d, ?_⟩
    simp only [Pen.page] at h ⊢
    rw [h]
    simp

/-- The chain of rings, with the lines between their ends. -/
def chain (s : Pen K) : Pt K → List K → List (Shape K)
  | _, [] => []
  | a, r :: rs => .seg a (s.page ⟨0 + r, 0⟩) :: .ring (s.page ⟨0, 0⟩) (s.sx * r) (s.sy * r) :: chain s (s.page ⟨0 + r, 0⟩) rs

theorem exec_rings (radii : List K) (s : Pen K) (a : Pt K) (h : s.cur = some a) :
    ∃ c, (radii.map (fun r => Cmd.arc ⟨0, 0⟩ r)).foldl Pen.exec s = { s with cur := c, path := s.path ++ chain s a radii } := by
  induction radii generalizing s a with
  | nil => exact ⟨s.cur, by simp [chain]⟩
  | cons r rs ih =>
    simp only [List.map_cons, List.foldl_cons, Pen.exec, h]
    obtain ⟨c, hc⟩ := ih { s with cur := some (s.page ⟨0 + r, 0⟩), path := s.path ++ [.seg a (s.page ⟨0 + r, 0⟩), .ring (s.page ⟨0, 0⟩) (s.sx * r) (s.sy * r)] } (s.page ⟨0 + r, 0⟩) rfl
    refine ⟨c, ?_⟩
    rw [hc]
    have e : ∀ (b : Pt K) (l : List K), chain { s with cur := some (s.page ⟨0 + r, 0⟩), path := s.path ++ [.seg a (s.page ⟨0 + r, 0⟩), .ring (s.page ⟨0, 0⟩) (s.sx * r) (s.sy * r)] } b l = chain s b l := by
      intro b l
      induction l generalizing b with
      | nil => rfl
      | cons x l ih2 => simp only [chain, ih2]; rfl
    rw [e]
    simp [chain]

/-- The shapes that a pin adds. -/
def pinShapes (s : Pen K) : PinDraw K → List (Shape K)
  | .rect lines => lines.flatMap fun l => [.seg (s.page l.p1) (s.page l.p2), .seg (s.page l.p2) (s.page l.p1)]
  | .cyl radii lines => chain s (s.page ⟨0, 0⟩) radii ++ lines.flatMap fun l => [.seg (s.page l.p1) (s.page l.p2), .seg (s.page l.p2) (s.page l.p1)]

theorem exec_draw (d : PinDraw K) (s : Pen K) : d.cmds.foldl Pen.exec s = { s with cur := none, start := none, path := [], ink := s.ink ++ (s.path ++ pinShapes s d) } := by
  cases d with
  | rect lines =>
    simp only [PinDraw.cmds, List.foldl_append, List.foldl_cons, List.foldl_nil]
    obtain ⟨c, e, h⟩ := exec_lines lines s
    rw [h]
    simp [Pen.exec, pinShapes]
  | cyl radii lines =>
    simp only [PinDraw.cmds, List.foldl_append, List.foldl_cons, List.foldl_nil]
    obtain ⟨c, h⟩ := exec_rings radii (s.exec (.moveTo ⟨0, 0⟩)) (s.page ⟨0, 0⟩) rfl
    rw [h]
    obtain ⟨c', e', h'⟩ := exec_lines lines { s.exec (.moveTo ⟨0, 0⟩) with cur := c, path := (s.exec (.moveTo ⟨0, 0⟩)).path ++ chain (s.exec (.moveTo ⟨0, 0⟩)) (s.page ⟨0, 0⟩) radii }
    rw [h']
    have e : ∀ (b : Pt K) (l : List K), chain (s.exec (.moveTo ⟨0, 0⟩)) b l = chain s b l := by
      intro b l
      induction l generalizing b with
      | nil => rfl
      | cons x l ih2 => simp only [chain, ih2]; rfl
    simp only [e]
    simp [Pen.exec, pinShapes, Pen.page]

theorem exec_pin (o : Pt K) (d : PinDraw K) (s : Pen K) :
    (pinCmds o d).foldl Pen.exec s = { s with cur := none, start := none, path := [], ink := s.ink ++ (s.path ++ pinShapes (s.exec (.translate o.x o.y)) d) } := by
  simp only [pinCmds, List.foldl_append, List.foldl_cons, List.foldl_nil, exec_draw]
  cases s
  simp [Pen.exec]

theorem chain_congr {s s' : Pen K} (h : s.tr = s'.tr) (a : Pt K) (rs : List K) : chain s a rs = chain s' a rs := by
  have hp : ∀ p, s.page p = s'.page p := fun p => by rw [page_at, page_at, h]
  have hx : s.sx = s'.sx := congrArg Tr.sx h
  have hy : s.sy = s'.sy := congrArg Tr.sy h
  induction rs generalizing a with
  | nil => rfl
  | cons r rs ih => simp only [chain, hp, ih, hx, hy]

theorem pinShapes_congr {s s' : Pen K} (h : s.tr = s'.tr) (d : PinDraw K) : pinShapes s d = pinShapes s' d := by
  have hp : ∀ p, s.page p = s'.page p := fun p => by rw [page_at, page_at, h]
  cases d <;> simp only [pinShapes, hp, chain_congr h]

theorem exec_pins (pins : List (Pt K × PinDraw K)) (hne : pins ≠ []) (s : Pen K) :
    ((pins.flatMap fun x => pinCmds x.1 x.2).foldl Pen.exec s).ink = s.ink ++ s.path ++ pins.flatMap fun x => pinShapes (s.exec (.translate x.1.x x.1.y)) x.2 := by
  induction pins generalizing s with
  | nil => exact absurd rfl hne
  | cons x xs ih =>
    rw [List.flatMap_cons, List.foldl_append, exec_pin]
    by_cases hx : xs = []
    · subst hx
      simp
    · rw [ih hx]
      have e : ∀ y : Pt K × PinDraw K, pinShapes (Pen.exec { s with cur := none, start := none, path := [], ink := s.ink ++ (s.path ++ pinShapes (s.exec (.translate x.1.x x.1.y)) x.2) } (.translate y.1.x y.1.y)) y.2 =
          pinShapes (s.exec (.translate y.1.x y.1.y)) y.2 := fun y => pinShapes_congr (by rfl) y.2
      simp only [e]
      simp

omit [LinearOrder K] [IsStrictOrderedRing K] in
theorem exec_grid (lines : List (Line K)) (s : Pen K) :
    ∃ c d, (gridCmds lines).foldl Pen.exec s = { s with cur := c, start := d, path := s.path ++ lines.map fun l => .seg (s.page l.p1) (s.page l.p2) } := by
  induction lines generalizing s with
  | nil => exact ⟨s.cur, s.start, by simp [gridCmds]⟩
  | cons l ls ih =>
    simp only [gridCmds, List.flatMap_cons, List.foldl_append, List.foldl_cons, List.foldl_nil, Pen.exec] at ih ⊢
    obtain ⟨c, d, h⟩ := ih { s with cur := some (s.page l.p2), start := some (s.page l.p1), path := s.path ++ [.seg (s.page l.p1) (s.page l.p2)] }
    refine ⟨c, d, ?_⟩
    simp only [Pen.page] at h ⊢
    rw [h]
    simp

/-! ### Points of the shapes -/

theorem mem_lines (s : Pen K) (hx : s.sx ≠ 0) (hy : s.sy ≠ 0) (lines : List (Line K)) (a : Pt K) :
    (∃ sh ∈ lines.flatMap fun l => [Shape.seg (s.page l.p1) (s.page l.p2), .seg (s.page l.p2) (s.page l.p1)], OnShape sh (s.page a)) ↔ ∃ l ∈ lines, OnSeg l.p1 l.p2 a := by
  constructor
  · rintro ⟨sh, hs, ho⟩
    obtain ⟨l, hl, hs⟩ := List.mem_flatMap.mp hs
    simp only [List.mem_cons, List.not_mem_nil, or_false] at hs
    refine ⟨l, hl, ?_⟩
    rcases hs with rfl | rfl
    · exact (at_seg s.tr hx hy _ _ _).mp ho
    · exact onSeg_symm.mp ((at_seg s.tr hx hy _ _ _).mp ho)
  · rintro ⟨l, hl, ho⟩
    exact ⟨.seg (s.page l.p1) (s.page l.p2), List.mem_flatMap.mpr ⟨l, hl, by simp⟩, (at_seg s.tr hx hy _ _ _).mpr ho⟩

theorem onSeg_axis (b c : K) (a : Pt K) : OnSeg ⟨b, 0⟩ ⟨c, 0⟩ a ↔ a.y = 0 ∧ ((b ≤ a.x ∧ a.x ≤ c) ∨ (c ≤ a.x ∧ a.x ≤ b)) := by
  constructor
  · rintro ⟨t, h0, h1, ex, ey⟩
    refine ⟨by simpa using ey, ?_⟩
    simp only at ex
    rcases le_total b c with h | h
    · left; constructor <;> rw [ex] <;> nlinarith
    · right; constructor <;> rw [ex] <;> nlinarith
  · rintro ⟨ey, h⟩
    by_cases hbc : b = c
    · subst hbc
      refine ⟨0, le_rfl, zero_le_one, ?_, by simp [ey]⟩
      rcases h with h | h <;> simp <;> linarith
    · have hd : c - b ≠ 0 := fun h => hbc (by linarith)
      refine ⟨(a.x - b) / (c - b), ?_, ?_, by simp only; field_simp; ring, by simp [ey]⟩
      · rcases h with h | h
        · exact div_nonneg (by linarith) (by linarith)
        · exact div_nonneg_of_nonpos (by linarith) (by linarith)
      · rcases h with h | h
        · have : 0 < c - b := lt_of_le_of_ne (by linarith) (Ne.symm hd)
          rw [div_le_one this]; linarith
        · have : c - b < 0 := lt_of_le_of_ne (by linarith) hd
          rw [div_le_one_of_neg this]; linarith

theorem mem_chain (s : Pen K) (hx : s.sx ≠ 0) (hy : s.sy ≠ 0) (b : K) (rs : List K) (a : Pt K) :
    (∃ sh ∈ chain s (s.page ⟨b, 0⟩) rs, OnShape sh (s.page a)) ↔
      (∃ r ∈ rs, a.x * a.x + a.y * a.y = r * r) ∨ (rs ≠ [] ∧ a.y = 0 ∧ (∃ l ∈ b :: rs, l ≤ a.x) ∧ ∃ u ∈ b :: rs, a.x ≤ u) := by
  induction rs generalizing b with
  | nil => simp [chain]
  | cons r rs ih =>
    have e : (∃ sh ∈ chain s (s.page ⟨b, 0⟩) (r :: rs), OnShape sh (s.page a)) ↔
        OnSeg ⟨b, 0⟩ ⟨r, 0⟩ a ∨ a.x * a.x + a.y * a.y = r * r ∨ ∃ sh ∈ chain s (s.page ⟨r, 0⟩) rs, OnShape sh (s.page a) := by
      simp only [chain, List.mem_cons, exists_eq_or_imp, zero_add]
      exact or_congr (at_seg s.tr hx hy _ _ _) (or_congr (at_ring s.tr hx hy r a) Iff.rfl)
    rw [e, ih, onSeg_axis]
    constructor
    · rintro (⟨hy0, h⟩ | h | ⟨q, hq, h⟩ | ⟨hne, hy0, ⟨l, hl, h1⟩, u, hu, h2⟩)
      · right
        refine ⟨by simp, hy0, ?_⟩
        rcases h with h | h
        · exact ⟨⟨b, by simp, h.1⟩, r, by simp, h.2⟩
        · exact ⟨⟨r, by simp, h.1⟩, b, by simp, h.2⟩
      · exact Or.inl ⟨r, by simp, h⟩
      · exact Or.inl ⟨q, by simp [hq], h⟩
      · exact Or.inr ⟨by simp, hy0, ⟨l, List.mem_cons_of_mem _ hl, h1⟩, u, List.mem_cons_of_mem _ hu, h2⟩
    · rintro (⟨q, hq, h⟩ | ⟨-, hy0, ⟨l, hl, h1⟩, u, hu, h2⟩)
      · rcases List.mem_cons.mp hq with rfl | hq
        · exact Or.inr (Or.inl h)
        · exact Or.inr (Or.inr (Or.inl ⟨q, hq, h⟩))
      · by_cases hbr : (b ≤ a.x ∧ a.x ≤ r) ∨ (r ≤ a.x ∧ a.x ≤ b)
        · exact Or.inl ⟨hy0, hbr⟩
        · right; right; right
          rw [not_or, not_and_or, not_and_or] at hbr
          obtain ⟨g1, g2⟩ := hbr
          have hrs : ∀ z ∈ b :: r :: rs, (z ≤ a.x ∧ ∀ w ∈ r :: rs, ¬ w ≤ a.x) ∨ (a.x ≤ z ∧ ∀ w ∈ r :: rs, ¬ a.x ≤ w) → False := by
            rintro z hz (⟨h3, h4⟩ | ⟨h3, h4⟩)
            · rcases List.mem_cons.mp hz with rfl | hz
              · have := h4 r (by simp)
                rcases g1 with g | g
                · exact g h3
                · exact g (not_le.mp this).le
              · exact h4 z hz h3
            · rcases List.mem_cons.mp hz with rfl | hz
              · have := h4 r (by simp)
                rcases g2 with g | g
                · exact g (not_le.mp this).le
                · exact g h3
              · exact h4 z hz h3
          have hl' : ∃ w ∈ r :: rs, w ≤ a.x := by
            by_contra hc
            push Not at hc
            exact hrs l hl (Or.inl ⟨h1, fun w hw => not_le.mpr (hc w hw)⟩)
          have hu' : ∃ w ∈ r :: rs, a.x ≤ w := by
            by_contra hc
            push Not at hc
            exact hrs u hu (Or.inr ⟨h2, fun w hw => not_le.mpr (hc w hw)⟩)
          by_cases hne : rs = []
          · subst hne
            exfalso
            obtain ⟨w, hw, h3⟩ := hl'
            obtain ⟨w', hw', h4⟩ := hu'
            simp only [List.mem_singleton] at hw hw'
            rw [hw] at h3
            rw [hw'] at h4
            have : a.x = r := le_antisymm h4 h3
            rcases g1 with g | g
            · rcases g2 with g' | g'
              · exact g' this.symm.le
              · rcases le_total b a.x with h | h
                · exact g h
                · exact g' h
            · exact g this.le
          · exact ⟨hne, hy0, hl', hu'⟩

theorem mem_pin (s : Pen K) (hx : s.sx ≠ 0) (hy : s.sy ≠ 0) (d : PinDraw K) (hr : ∀ rs ls, d = .cyl rs ls → ∀ r ∈ rs, 0 ≤ r) (a : Pt K) :
    (∃ sh ∈ pinShapes s d, OnShape sh (s.page a)) ↔ OnPin d a ∨ Extra d a := by
  cases d with
  | rect lines => simp only [pinShapes, mem_lines s hx hy, OnPin, Extra, or_false]
  | cyl radii lines =>
    have h0 := hr radii lines rfl
    simp only [pinShapes, List.mem_append, or_and_right, exists_or, mem_lines s hx hy, mem_chain s hx hy, OnPin, Extra]
    have : (radii ≠ [] ∧ a.y = 0 ∧ (∃ l ∈ 0 :: radii, l ≤ a.x) ∧ ∃ u ∈ 0 :: radii, a.x ≤ u) ↔ a.y = 0 ∧ 0 ≤ a.x ∧ ∃ r ∈ radii, a.x ≤ r := by
      constructor
      · rintro ⟨hne, hy0, ⟨l, hl, h1⟩, u, hu, h2⟩
        have hax : 0 ≤ a.x := by
          rcases List.mem_cons.mp hl with rfl | hl
          · exact h1
          · exact (h0 l hl).trans h1
        refine ⟨hy0, hax, ?_⟩
        rcases List.mem_cons.mp hu with rfl | hu
        · obtain ⟨r, hr⟩ := List.exists_mem_of_ne_nil radii hne
          exact ⟨r, hr, h2.trans (h0 r hr)⟩
        · exact ⟨u, hu, h2⟩
      · rintro ⟨hy0, hax, r, hr, h⟩
        exact ⟨List.ne_nil_of_mem hr, hy0, ⟨0, by simp, hax⟩, r, by simp [hr], h⟩
    rw [this]
    constructor
    · rintro ((h | h) | h)
      · exact Or.inl (Or.inl h)
      · exact Or.inr h
      · exact Or.inl (Or.inr h)
    · rintro ((h | h) | h)
      · exact Or.inl (Or.inl h)
      · exact Or.inr h
      · exact Or.inl (Or.inr h)

/-- C132: what is on the page: the lines of the mesh, the boundaries within every pin at its place, and lines from the middle of cylindrical pins to their outermost ring; nothing else. -/
theorem C132_drawn (xs ys : List K) (pins : List (Pt K × PinDraw K)) (hw : xs.getLastD 0 ≠ 0) (hh : ys.getLastD 0 ≠ 0) (hne : pins ≠ [])
    (hr : ∀ x ∈ pins, ∀ rs ls, x.2 = .cyl rs ls → ∀ r ∈ rs, 0 ≤ r) (p : Pt K) :
    Inked (program xs ys pins) (onPage (xs.getLastD 0) (ys.getLastD 0) p) ↔
      (∃ l ∈ Mesh.gridLines xs ys, OnSeg l.p1 l.p2 p) ∨ ∃ x ∈ pins, OnPin x.2 ⟨p.x - x.1.x, p.y - x.1.y⟩ ∨ Extra x.2 ⟨p.x - x.1.x, p.y - x.1.y⟩ := by
  set w := xs.getLastD 0
  set h := ys.getLastD 0
  let s0 : Pen K := ⟨720 / w, -720 / h, 0, 720, none, none, [], []⟩
  have hsx : s0.sx ≠ 0 := div_ne_zero (by norm_num) hw
  have hsy : s0.sy ≠ 0 := div_ne_zero (by norm_num) hh
  have e0 : (pageCmds w h).foldl Pen.exec Pen.new = s0 := by
    simp only [pageCmds, List.foldl_cons, List.foldl_nil, Pen.exec, Pen.new, s0]
    congr 1
    · ring
    · ring
    · ring
    · field_simp; ring
  obtain ⟨c, d, hg⟩ := exec_grid (Mesh.gridLines xs ys) s0
  have hpage : onPage w h p = s0.page p := by
    simp only [onPage, Pen.page, s0]
    congr 1
    · ring
    · ring
  have hd : drawn (program xs ys pins) = ((Mesh.gridLines xs ys).map fun l => Shape.seg (s0.page l.p1) (s0.page l.p2)) ++ pins.flatMap fun x => pinShapes (s0.exec (.translate x.1.x x.1.y)) x.2 := by
    unfold drawn program
    rw [List.foldl_append, List.foldl_append, e0, hg, exec_pins pins hne]
    have e : ∀ y : Pt K × PinDraw K, pinShapes (Pen.exec { s0 with cur := c, start := d, path := s0.path ++ (Mesh.gridLines xs ys).map fun l => Shape.seg (s0.page l.p1) (s0.page l.p2) } (.translate y.1.x y.1.y)) y.2 =
        pinShapes (s0.exec (.translate y.1.x y.1.y)) y.2 := fun y => pinShapes_congr (by rfl) y.2
    simp only [e]
    simp [s0]
  unfold Inked
  rw [hd, hpage]
  constructor
  · rintro ⟨sh, hs, ho⟩
    rcases List.mem_append.mp hs with hs | hs
    · obtain ⟨l, hl, rfl⟩ := List.mem_map.mp hs
      exact Or.inl ⟨l, hl, (at_seg s0.tr hsx hsy _ _ _).mp ho⟩
    · obtain ⟨x, hx, hs⟩ := List.mem_flatMap.mp hs
      refine Or.inr ⟨x, hx, (mem_pin (s0.exec (.translate x.1.x x.1.y)) hsx hsy x.2 (hr x hx) _).mp ⟨sh, hs, ?_⟩⟩
      have : (s0.exec (.translate x.1.x x.1.y)).page ⟨p.x - x.1.x, p.y - x.1.y⟩ = s0.page p := by
        simp only [Pen.page, Pen.exec]
        congr 1 <;> ring
      rwa [this]
  · rintro (⟨l, hl, ho⟩ | ⟨x, hx, ho⟩)
    · exact ⟨_, List.mem_append_left _ (List.mem_map.mpr ⟨l, hl, rfl⟩), (at_seg s0.tr hsx hsy _ _ _).mpr ho⟩
    · obtain ⟨sh, hs, ho⟩ := (mem_pin (s0.exec (.translate x.1.x x.1.y)) hsx hsy x.2 (hr x hx) _).mpr ho
      refine ⟨sh, List.mem_append_right _ (List.mem_flatMap.mpr ⟨x, hx, hs⟩), ?_⟩
      have : (s0.exec (.translate x.1.x x.1.y)).page ⟨p.x - x.1.x, p.y - x.1.y⟩ = s0.page p := by
        simp only [Pen.page, Pen.exec]
        congr 1 <;> ring
      rwa [this] at ho

/-! ### The pins -/

/-- C132: within a rectangular pin the boundaries between its regions are drawn, over the whole pin. -/
theorem C132_rect (m : PinMesh.Rect K) (hp : 0 < m.pitch) (p : Pt K) :
    OnPin (.rect m.lines) p ↔ (∃ i, 0 < i ∧ i < m.nx ∧ p.x = -(m.pitch / 2) + i * (m.pitch / m.nx) ∧ |p.y| ≤ m.pitch / 2) ∨
      ∃ i, 0 < i ∧ i < m.ny ∧ p.y = -(m.pitch / 2) + i * (m.pitch / m.ny) ∧ |p.x| ≤ m.pitch / 2 := by
  have vert : ∀ x : K, OnSeg ⟨x, -(1 / 2 * m.pitch)⟩ ⟨x, 1 / 2 * m.pitch⟩ p ↔ p.x = x ∧ |p.y| ≤ m.pitch / 2 := by
    intro x
    constructor
    · rintro ⟨t, h0, h1, ex, ey⟩
      refine ⟨by simpa using ex, ?_⟩
      simp only at ey
      rw [ey, abs_le]
      constructor <;> nlinarith
    · rintro ⟨rfl, hy⟩
      rw [abs_le] at hy
      refine ⟨(p.y + m.pitch / 2) / m.pitch, div_nonneg (by linarith) hp.le, by rw [div_le_one hp]; linarith, by simp, by simp only; field_simp; ring⟩
  have horiz : ∀ y : K, OnSeg ⟨-(1 / 2 * m.pitch), y⟩ ⟨1 / 2 * m.pitch, y⟩ p ↔ p.y = y ∧ |p.x| ≤ m.pitch / 2 := by
    intro y
    constructor
    · rintro ⟨t, h0, h1, ex, ey⟩
      refine ⟨by simpa using ey, ?_⟩
      simp only at ex
      rw [ex, abs_le]
      constructor <;> nlinarith
    · rintro ⟨rfl, hx⟩
      rw [abs_le] at hx
      refine ⟨(p.x + m.pitch / 2) / m.pitch, div_nonneg (by linarith) hp.le, by rw [div_le_one hp]; linarith, by simp only; field_simp; ring, by simp⟩
  have hg : ∀ n i : Nat, PinMesh.grid m.pitch n i = -(m.pitch / 2) + i * (m.pitch / n) := by intro n i; unfold PinMesh.grid; ring
  unfold OnPin PinMesh.Rect.lines
  constructor
  · rintro ⟨l, hl, ho⟩
    rcases List.mem_append.mp hl with hl | hl
    · obtain ⟨i, hi, rfl⟩ := List.mem_map.mp hl
      rw [List.mem_range'_1] at hi
      obtain ⟨h1, h2⟩ := (vert _).mp ho
      exact Or.inl ⟨i, by omega, by omega, by rw [h1, hg], h2⟩
    · obtain ⟨i, hi, rfl⟩ := List.mem_map.mp hl
      rw [List.mem_range'_1] at hi
      obtain ⟨h1, h2⟩ := (horiz _).mp ho
      exact Or.inr ⟨i, by omega, by omega, by rw [h1, hg], h2⟩
  · rintro (⟨i, h0, h1, h2, h3⟩ | ⟨i, h0, h1, h2, h3⟩)
    · exact ⟨_, List.mem_append_left _ (List.mem_map.mpr ⟨i, by rw [List.mem_range'_1]; omega, rfl⟩), (vert _).mpr ⟨by rw [h2, hg], h3⟩⟩
    · exact ⟨_, List.mem_append_right _ (List.mem_map.mpr ⟨i, by rw [List.mem_range'_1]; omega, rfl⟩), (horiz _).mpr ⟨by rw [h2, hg], h3⟩⟩

omit [IsStrictOrderedRing K] in
theorem face_some {fuzz d : K} {coord : K → K} {lo hi : K} {pt : K → Pt K} {best : K × Option (Pt K)} (h : fuzz < |d| ∧ d < best.1 ∧ lo < coord d ∧ coord d < hi) :
    tryFace fuzz (some d) coord lo hi pt best = (|d|, some (pt (coord d))) := by
  unfold tryFace
  exact if_pos h

/-- C132: with an even number of sectors the line for the angle π goes from the middle of the pin to the middle of its right side; the one for the angle 0 goes to the left. -/
theorem C132_sector (m : PinMesh.Cyl K) (fuzz far twopi : K) (cos sin : K → K) (h0 : 0 < m.pitch) (hf : fuzz < m.pitch / 2) (hfar : m.pitch / 2 < far) :
    (0 < m.nAzi → cos 0 = 1 → sin 0 = 0 → (m.lines fuzz far twopi cos sin)[0]? = some (some ⟨⟨0, 0⟩, ⟨-(m.pitch / 2), 0⟩⟩)) ∧
    ∀ h : Nat, 0 < h → m.nAzi = (2 * h : Nat) → cos (twopi / 2) = -1 → sin (twopi / 2) = 0 → (m.lines fuzz far twopi cos sin)[h]? = some (some ⟨⟨0, 0⟩, ⟨m.pitch / 2, 0⟩⟩) := by
  have a1 : |m.pitch / 2| = m.pitch / 2 := abs_of_pos (by linarith)
  have a2 : |-(m.pitch / 2)| = m.pitch / 2 := by rw [abs_neg, a1]
  have hbox : Box.mk' (⟨-(1 / 2 * m.pitch), -(1 / 2 * m.pitch)⟩ : Pt K) ⟨1 / 2 * m.pitch, 1 / 2 * m.pitch⟩ = ⟨⟨-(m.pitch / 2), -(m.pitch / 2)⟩, ⟨m.pitch / 2, m.pitch / 2⟩⟩ := by
    unfold Box.mk'
    simp only
    rw [min_eq_left (by linarith), max_eq_right (by linarith)]
    congr 2 <;> ring
  constructor
  · intro hn hc hs
    unfold PinMesh.Cyl.lines
    rw [List.getElem?_map, List.getElem?_range (by omega)]
    simp only [Option.map_some, Nat.cast_zero, zero_mul, hc, hs, hbox, Box.intersect, fdiv, one_ne_zero, if_false, if_true, sub_zero, div_one, zero_mul, add_zero]
    have e1 : tryFace fuzz (some (-(m.pitch / 2))) (fun _ => (0 : K)) (-(m.pitch / 2)) (m.pitch / 2) (fun y => (⟨-(m.pitch / 2), y⟩ : Pt K)) (far, none) = (|-(m.pitch / 2)|, some ⟨-(m.pitch / 2), 0⟩) :=
      face_some ⟨by rw [a2]; exact hf, by simp only; linarith, by linarith, by linarith⟩
    rw [e1]
    have : tryFace fuzz (some (m.pitch / 2)) (fun _ => (0 : K)) (-(m.pitch / 2)) (m.pitch / 2) (fun y => (⟨m.pitch / 2, y⟩ : Pt K)) (|-(m.pitch / 2)|, some ⟨-(m.pitch / 2), 0⟩) =
        (|-(m.pitch / 2)|, some ⟨-(m.pitch / 2), 0⟩) := by
      unfold tryFace
      simp only [a2, lt_irrefl, false_and, and_false, if_false]
    rw [this]
    simp [tryFace]
  · intro h hh hn hc hs
    have hnz : ((2 * h : Nat) : K) ≠ 0 := by exact_mod_cast (by omega : 2 * h ≠ 0)
    have he : (h : K) * (twopi / ((m.nAzi : Int) : K)) = twopi / 2 := by
      rw [hn]
      have : (h : K) ≠ 0 := by exact_mod_cast hh.ne'
      push_cast
      field_simp
    unfold PinMesh.Cyl.lines
    rw [List.getElem?_map, List.getElem?_range (by omega)]
    simp only [Option.map_some, he, hc, hs, hbox, Box.intersect, fdiv, neg_eq_zero, one_ne_zero, if_false, if_true, sub_zero, div_neg, div_one, zero_mul, add_zero]
    have e1 : tryFace fuzz (some (- -(m.pitch / 2))) (fun _ => (0 : K)) (-(m.pitch / 2)) (m.pitch / 2) (fun y => (⟨-(m.pitch / 2), y⟩ : Pt K)) (far, none) = (|- -(m.pitch / 2)|, some ⟨-(m.pitch / 2), 0⟩) :=
      face_some ⟨by rw [neg_neg, a1]; exact hf, by simp only; linarith, by linarith, by linarith⟩
    rw [e1]
    have e2 : tryFace fuzz (some (-(m.pitch / 2))) (fun _ => (0 : K)) (-(m.pitch / 2)) (m.pitch / 2) (fun y => (⟨m.pitch / 2, y⟩ : Pt K)) (|- -(m.pitch / 2)|, some ⟨-(m.pitch / 2), 0⟩) =
        (|-(m.pitch / 2)|, some ⟨m.pitch / 2, 0⟩) :=
      face_some ⟨by rw [a2]; exact hf, by simp only [neg_neg, a1]; linarith, by linarith, by linarith⟩
    rw [e2]
    simp [tryFace]

/-- C132: the lines that `arc` adds are on that line, so that within a cylindrical pin there are only rings and lines between sectors. -/
theorem C132_cyl (radii : List K) (lines : List (Line K)) (h : K) (hl : ⟨⟨0, 0⟩, ⟨h, 0⟩⟩ ∈ lines) (hr : ∀ r ∈ radii, r ≤ h) (p : Pt K) :
    Extra (.cyl radii lines) p → OnPin (.cyl radii lines) p := by
  rintro ⟨hy, hx, r, hm, hle⟩
  exact Or.inr ⟨_, hl, (onSeg_axis 0 h p).mpr ⟨hy, Or.inl ⟨hx, hle.trans (hr r hm)⟩⟩⟩

/-- Full claim, false: within a cylindrical pin there are only rings and lines between sectors. -/
def C132_cyl_claim : Prop :=
  ∀ (m : PinMesh.Cyl ℚ) (fuzz far twopi : ℚ) (cos sin : ℚ → ℚ) (lines : List (Line ℚ)), cos 0 = 1 → sin 0 = 0 → 0 < m.nAzi → 0 < m.pitch → fuzz < m.pitch / 2 → m.pitch / 2 < far →
    m.lines fuzz far twopi cos sin = lines.map some → (∀ r ∈ m.radii, 0 ≤ r ∧ r ≤ m.pitch / 2) → ∀ p, Extra (.cyl m.radii lines) p → OnPin (.cyl m.radii lines) p

/-- C132: with one sector the line of the sector goes to the left, and `arc` adds one to the right. -/
theorem C132_cyl_claim_false : ¬ C132_cyl_claim := by
  intro h
  have hl : (⟨2, [], [], 1, [1 / 2]⟩ : PinMesh.Cyl ℚ).lines 0 100 6 (fun _ => 1) (fun _ => 0) = [⟨⟨0, 0⟩, ⟨-1, 0⟩⟩].map some := by
    have := (C132_sector (⟨2, [], [], 1, [1 / 2]⟩ : PinMesh.Cyl ℚ) 0 100 6 (fun _ => 1) (fun _ => 0) (by norm_num) (by norm_num) (by norm_num)).1 (by norm_num) rfl rfl
    unfold PinMesh.Cyl.lines at this ⊢
    norm_num at this ⊢
    simpa using this
  have := h ⟨2, [], [], 1, [1 / 2]⟩ 0 100 6 (fun _ => 1) (fun _ => 0) _ rfl rfl (by norm_num) (by norm_num) (by norm_num) (by norm_num) hl (by intro r hr; simp at hr; subst hr; norm_num) ⟨1 / 4, 0⟩
    ⟨rfl, by norm_num, 1 / 2, by simp, by norm_num⟩
  rcases this with ⟨r, hr, e⟩ | ⟨l, hm, ho⟩
  · simp at hr
    subst hr
    norm_num at e
  · simp only [List.mem_singleton] at hm
    subst hm
    rw [onSeg_axis] at ho
    norm_num at ho

/-- C132: what is drawn of a pin is inside its square. -/
theorem C132_inside (d : PinDraw K) (h : K) (hh : 0 ≤ h) (hl : ∀ ls rs, d = .rect ls ∨ d = .cyl rs ls → ∀ l ∈ ls, (|l.p1.x| ≤ h ∧ |l.p1.y| ≤ h) ∧ |l.p2.x| ≤ h ∧ |l.p2.y| ≤ h)
    (hr : ∀ rs ls, d = .cyl rs ls → ∀ r ∈ rs, 0 ≤ r ∧ r ≤ h) (p : Pt K) (hp : OnPin d p ∨ Extra d p) : |p.x| ≤ h ∧ |p.y| ≤ h := by
  have seg : ∀ l : Line K, ((|l.p1.x| ≤ h ∧ |l.p1.y| ≤ h) ∧ |l.p2.x| ≤ h ∧ |l.p2.y| ≤ h) → OnSeg l.p1 l.p2 p → |p.x| ≤ h ∧ |p.y| ≤ h := by
    rintro l ⟨⟨a, b⟩, c, e⟩ ⟨t, t0, t1, ex, ey⟩
    rw [abs_le] at a b c e
    rw [ex, ey, abs_le, abs_le]
    refine ⟨⟨?_, ?_⟩, ?_, ?_⟩ <;> nlinarith
  cases d with
  | rect ls =>
    rcases hp with ⟨l, hm, ho⟩ | hp
    · exact seg l (hl ls [] (Or.inl rfl) l hm) ho
    · exact absurd hp id
  | cyl rs ls =>
    rcases hp with (⟨r, hm, ho⟩ | ⟨l, hm, ho⟩) | ⟨hy, hx, r, hm, hle⟩
    · obtain ⟨h0, h1⟩ := hr rs ls rfl r hm
      constructor
      · exact (abs_le_of_sq_le_sq (by nlinarith [mul_self_nonneg p.y]) h0).trans h1
      · exact (abs_le_of_sq_le_sq (by nlinarith [mul_self_nonneg p.x]) h0).trans h1
    · exact seg l (hl ls rs (Or.inr rfl) l hm) ho
    · obtain ⟨h0, h1⟩ := hr rs ls rfl r hm
      rw [hy, abs_zero, abs_of_nonneg hx]
      exact ⟨hle.trans h1, hh⟩

omit [LinearOrder K] [IsStrictOrderedRing K] in
/-- C132: an exception for a plane that does not exist; else the pins of the plane in their order, each with the origin for its number. -/
theorem C132_output {P : Type} (nx ny nz : Nat) (xs ys : List K) (origin : Nat → Option (K × K)) (shape : P → PinDraw K) (pins : List P) (attr : Option Int)
    (hl : pins.length = nx * ny * nz) (ho : ∀ i, i < nx * ny → (origin i).isSome) :
    (output nx ny nz xs ys origin shape pins attr = none ↔ attr.getD 0 < 0 ∨ (nz : Int) ≤ attr.getD 0) ∧
    ∀ z : Nat, z < nz → attr.getD 0 = z → ∃ ps, output nx ny nz xs ys origin shape pins attr = some (program xs ys ps) ∧ ps.length = nx * ny ∧
      ∀ i, i < nx * ny → ∃ pin o, pins[nx * ny * z + i]? = some pin ∧ origin i = some o ∧ ps[i]? = some (⟨o.1, o.2⟩, shape pin) := by
  have key : ∀ z : Nat, z < nz → ∃ ps, ((planePins nx ny pins z).zipIdx.mapM fun x => (origin x.2).map fun o => ((⟨o.1, o.2⟩ : Pt K), shape x.1)) = some ps ∧ ps.length = nx * ny ∧
      ∀ i, i < nx * ny → ∃ pin o, pins[nx * ny * z + i]? = some pin ∧ origin i = some o ∧ ps[i]? = some (⟨o.1, o.2⟩, shape pin) := by
    intro z hz
    have hle : nx * ny * z + nx * ny ≤ pins.length := by
      rw [hl, ← Nat.mul_succ]
      exact Nat.mul_le_mul_left _ hz
    have hlen : (planePins nx ny pins z).length = nx * ny := by
      unfold planePins
      rw [List.length_take, List.length_drop]
      omega
    have hget : ∀ i, i < nx * ny → (planePins nx ny pins z)[i]? = pins[nx * ny * z + i]? := by
      intro i hi
      unfold planePins
      rw [List.getElem?_take_of_lt hi, List.getElem?_drop]
    have hex : ∀ i (hi : i < nx * ny), ∃ o, origin i = some o := fun i hi => Option.isSome_iff_exists.mp (ho i hi)
    let f : P × Nat → Pt K × PinDraw K := fun x => (⟨((origin x.2).getD (0, 0)).1, ((origin x.2).getD (0, 0)).2⟩, shape x.1)
    have hm : ((planePins nx ny pins z).zipIdx.mapM fun x => (origin x.2).map fun o => ((⟨o.1, o.2⟩ : Pt K), shape x.1)) = some ((planePins nx ny pins z).zipIdx.map f) := by
      have gen : ∀ L : List (P × Nat), (∀ x ∈ L, x.2 < nx * ny) → (L.mapM fun x => (origin x.2).map fun o => ((⟨o.1, o.2⟩ : Pt K), shape x.1)) = some (L.map f) := by
        intro L hL
        induction L with
        | nil => rfl
        | cons x L ih =>
          obtain ⟨o, h⟩ := hex x.2 (hL x (by simp))
          rw [List.mapM_cons, ih fun y hy => hL y (by simp [hy]), h]
          simp [f, h]
      apply gen
      rintro ⟨x, i⟩ hx
      have := (List.mem_zipIdx' hx).1
      simp only at this ⊢
      omega
    refine ⟨_, hm, by simp [hlen], ?_⟩
    intro i hi
    obtain ⟨o, h⟩ := hex i hi
    have hp : nx * ny * z + i < pins.length := by omega
    refine ⟨pins[nx * ny * z + i], o, List.getElem?_eq_getElem hp, h, ?_⟩
    rw [List.getElem?_map, List.getElem?_zipIdx, hget i hi, List.getElem?_eq_getElem hp]
    simp [f, h]
  unfold output planeOf
  constructor
  · constructor
    · intro hnone
      by_contra hc
      simp only [hc, if_false, Option.bind_eq_bind, Option.bind_some, Option.pure_def] at hnone
      obtain ⟨ps, h, -⟩ := key (attr.getD 0).toNat (by omega)
      rw [h] at hnone
      simp at hnone
    · intro h
      simp only [h, if_true]
      rfl
  · intro z hz ha
    have hc : ¬ (attr.getD 0 < 0 ∨ (nz : Int) ≤ attr.getD 0) := by omega
    obtain ⟨ps, h, h1, h2⟩ := key z hz
    refine ⟨ps, ?_, h1, h2⟩
    have hz' : (attr.getD 0).toNat = z := by omega
    simp only [hc, if_false, Option.bind_eq_bind, Option.bind_some, Option.pure_def, hz', h]

/-! ### The boundaries of the pins -/

/-- Full claim, false: the boundaries between pins are drawn over the whole core. -/
def C132_claim : Prop :=
  ∀ (xs ys : List ℚ) (pins : List (Pt ℚ × PinDraw ℚ)), xs.head? = some 0 → ys.head? = some 0 → xs.Pairwise (· < ·) → ys.Pairwise (· < ·) → 2 ≤ xs.length → 2 ≤ ys.length → pins ≠ [] →
    (∀ x ∈ pins, ∀ rs ls, x.2 = .cyl rs ls → ∀ r ∈ rs, 0 ≤ r) →
    (∀ x ∈ xs.tail.dropLast, ∀ y, 0 ≤ y → y ≤ ys.getLastD 0 → Inked (program xs ys pins) (onPage (xs.getLastD 0) (ys.getLastD 0) ⟨x, y⟩)) ∧
    ∀ y ∈ ys.tail.dropLast, ∀ x, 0 ≤ x → x ≤ xs.getLastD 0 → Inked (program xs ys pins) (onPage (xs.getLastD 0) (ys.getLastD 0) ⟨x, y⟩)

/-- C132: two pins of 1 by 3 side by side: the boundary between them ends at a height of 2. -/
theorem C132_claim_false : ¬ C132_claim := by
  intro h
  have := (h [0, 1, 2] [0, 3] [(⟨1 / 2, 3 / 2⟩, .rect []), (⟨3 / 2, 3 / 2⟩, .rect [])] rfl rfl (by decide +kernel) (by decide +kernel) (by decide) (by decide) (by simp) (by simp)).1 1 (by simp) 3 (by norm_num)
    (by simp)
  rw [C132_drawn _ _ _ (by simp) (by simp) (by simp) (by simp)] at this
  simp [Mesh.gridLines, OnPin, Extra, OnSeg] at this
  obtain ⟨t, h0, h1, h2⟩ := this
  linarith

/-- C132: boundaries across the core are drawn over its width; those along it over its height, if it is not higher than wide. -/
theorem C132_pins_partial (xs ys : List K) (pins : List (Pt K × PinDraw K)) (hw : 0 < xs.getLastD 0) (hh : 0 < ys.getLastD 0) (hne : pins ≠ [])
    (hr : ∀ x ∈ pins, ∀ rs ls, x.2 = .cyl rs ls → ∀ r ∈ rs, 0 ≤ r) :
    (∀ x ∈ xs.tail.dropLast, ∀ y, 0 ≤ y → y ≤ ys.getLastD 0 → y ≤ xs.getLastD 0 → Inked (program xs ys pins) (onPage (xs.getLastD 0) (ys.getLastD 0) ⟨x, y⟩)) ∧
    ∀ y ∈ ys.tail.dropLast, ∀ x, 0 ≤ x → x ≤ xs.getLastD 0 → Inked (program xs ys pins) (onPage (xs.getLastD 0) (ys.getLastD 0) ⟨x, y⟩) := by
  constructor
  · intro x hx y h0 _ h1
    rw [C132_drawn _ _ _ hw.ne' hh.ne' hne hr]
    refine Or.inl ⟨_, List.mem_append_left _ (List.mem_map.mpr ⟨x, hx, rfl⟩), y / xs.getLastD 0, div_nonneg h0 hw.le, by rw [div_le_one hw]; exact h1, by simp, ?_⟩
    simp only
    field_simp
    ring
  · intro y hy x h0 h1
    rw [C132_drawn _ _ _ hw.ne' hh.ne' hne hr]
    refine Or.inl ⟨_, List.mem_append_right _ (List.mem_map.mpr ⟨y, hy, rfl⟩), x / xs.getLastD 0, div_nonneg h0 hw.le, by rw [div_le_one hw]; exact h1, ?_, by simp⟩
    simp only
    field_simp
    ring

/-! ### The hypotheses can be met -/

/-- Two pins, one with a ring and two sectors, one divided into two by two. -/
def samplePins : List (Pt ℚ × PinDraw ℚ) :=
  [(⟨1, 1⟩, .cyl [1 / 2] [⟨⟨0, 0⟩, ⟨-1, 0⟩⟩, ⟨⟨0, 0⟩, ⟨1, 0⟩⟩]), (⟨3, 1⟩, .rect (⟨2, 2, 2⟩ : PinMesh.Rect ℚ).lines)]

/-- A point of the ring of the first pin is drawn, one outside of the ring is not. -/
example : Inked (program [0, 2, 4] [0, 2] samplePins) (onPage 4 2 ⟨13 / 10, 14 / 10⟩) ∧ ¬ Inked (program [0, 2, 4] [0, 2] samplePins) (onPage 4 2 ⟨13 / 10, 15 / 10⟩) := by
  have h : ∀ x ∈ samplePins, ∀ rs ls, x.2 = .cyl rs ls → ∀ r ∈ rs, 0 ≤ r := by
    intro x hx rs ls e r hr
    simp only [samplePins, List.mem_cons, List.not_mem_nil, or_false] at hx
    rcases hx with rfl | rfl
    · simp only [PinDraw.cyl.injEq] at e
      rw [← e.1] at hr
      simp at hr
      subst hr
      norm_num
    · simp at e
  have d := C132_drawn ([0, 2, 4] : List ℚ) [0, 2] samplePins (by simp) (by simp) (by simp [samplePins]) h
  constructor
  · have := (d ⟨13 / 10, 14 / 10⟩).mpr (Or.inr ⟨(⟨1, 1⟩, .cyl [1 / 2] [⟨⟨0, 0⟩, ⟨-1, 0⟩⟩, ⟨⟨0, 0⟩, ⟨1, 0⟩⟩]), by simp [samplePins], Or.inl (Or.inl ⟨1 / 2, by simp, by norm_num⟩)⟩)
    simpa using this
  · intro hc
    rcases (d ⟨13 / 10, 15 / 10⟩).mp (by simpa using hc) with ⟨l, hl, ho⟩ | ⟨x, hx, ho⟩
    · simp [Mesh.gridLines] at hl
      subst hl
      obtain ⟨t, -, -, ex, -⟩ := ho
      norm_num at ex
    · simp only [samplePins, List.mem_cons, List.not_mem_nil, or_false] at hx
      rcases hx with rfl | rfl
      · rcases ho with (⟨r, hr, e⟩ | ⟨l, hl, t, -, -, -, ey⟩) | ⟨e, -⟩
        · simp at hr
          subst hr
          norm_num at e
        · simp only [List.mem_cons, List.not_mem_nil, or_false] at hl
          rcases hl with rfl | rfl <;> norm_num at ey
        · norm_num at e
      · rcases ho with ho | ho
        · rw [C132_rect _ (by norm_num)] at ho
          rcases ho with ⟨i, h0, h1, e, -⟩ | ⟨i, h0, h1, e, -⟩
          · have : i = 1 := by simp only at h1; omega
            subst this
            norm_num at e
          · have : i = 1 := by simp only at h1; omega
            subst this
            norm_num at e
        · exact ho

example : (output 2 1 1 ([0, 2, 4] : List ℚ) [0, 2] (fun i => some (2 * i + 1, 1)) (fun d => d) (samplePins.map Prod.snd) (some 1)) = none := by
  rw [(C132_output 2 1 1 _ _ _ _ _ _ (by simp [samplePins]) (by simp)).1]
  right
  simp

end Verif.Draw
