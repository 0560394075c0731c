import Verif.PinMesh.DistModel
import Verif.Geom.DistProps
import Verif.PinMesh.RectProps
import Verif.Geom.CircleDistProps
import Mathlib.Topology.Order.IntermediateValue
import Mathlib.Topology.Algebra.Order.Field
import Mathlib.Tactic.Continuity

/-!
# C82: the distance to the next surface in a pin
-/

namespace Verif.PinMesh

open Verif.Geom

section
variable {K : Type} [Field K] [LinearOrder K]

/-- `a` is not beyond `b`, where `none` is infinite. -/
def UpTo (a b : Option K) : Prop := ∀ y, b = some y → ∃ x, a = some x ∧ x ≤ y

theorem UpTo.refl (a : Option K) : UpTo a a := fun y h => ⟨y, h, le_refl _⟩

theorem UpTo.trans {a b c : Option K} (h1 : UpTo a b) (h2 : UpTo b c) : UpTo a c := by
  intro z hz
  obtain ⟨y, hy, hyz⟩ := h2 z hz
  obtain ⟨x, hx, hxy⟩ := h1 y hy
  exact ⟨x, hx, le_trans hxy hyz⟩

theorem closer_upTo (d e : Option K) : UpTo (if closer d e then d else e) d ∧ UpTo (if closer d e then d else e) e := by
  cases d with
  | none => exact ⟨fun y h => absurd h (by simp), by simpa [closer] using UpTo.refl e⟩
  | some d =>
    cases e with
    | none => simp [closer, UpTo]
    | some e =>
      by_cases h : d < e
      · simp [closer, h, UpTo, h.le]
      · simp [closer, h, UpTo, not_lt.mp h]

/-- The loop gives the smallest distance, that of a surface whose number it returns; without a hit the number stays. -/
theorem nearest_spec (co : Int) (l : List (Int × (Bool → Option K))) : ∀ best : Option K × Int,
    UpTo (nearest co l best).1 best.1 ∧ (∀ x ∈ l, UpTo (nearest co l best).1 (x.2 (decide (co = x.1)))) ∧
    (nearest co l best = best ∨ ∃ x ∈ l, nearest co l best = (x.2 (decide (co = x.1)), x.1) ∧ ∃ d, x.2 (decide (co = x.1)) = some d) := by
  induction l with
  | nil => intro best; exact ⟨UpTo.refl _, by simp, Or.inl rfl⟩
  | cons x xs ih =>
    intro best
    obtain ⟨id, d⟩ := x
    simp only [nearest]
    obtain ⟨h1, h2, h3⟩ := ih (if closer (d (decide (co = id))) best.1 then (d (decide (co = id)), id) else best)
    have hfst : (if closer (d (decide (co = id))) best.1 then (d (decide (co = id)), id) else best).1 =
        if closer (d (decide (co = id))) best.1 then d (decide (co = id)) else best.1 := by split_ifs <;> rfl
    rw [hfst] at h1
    obtain ⟨c1, c2⟩ := closer_upTo (d (decide (co = id))) best.1
    refine ⟨h1.trans c2, ?_, ?_⟩
    · intro y hy
      rcases List.mem_cons.mp hy with rfl | hy
      · exact h1.trans c1
      · exact h2 y hy
    · rcases h3 with h3 | ⟨y, hy, h3, h4⟩
      · by_cases hcl : closer (d (decide (co = id))) best.1 = true
        · rw [if_pos hcl] at h3
          refine Or.inr ⟨(id, d), List.mem_cons_self .., ?_, ?_⟩
          · rw [if_pos hcl]; exact h3
          · simp only
            cases hd : d (decide (co = id)) with
            | none => rw [hd] at hcl; simp [closer] at hcl
            | some v => exact ⟨v, rfl⟩
        · rw [if_neg hcl] at h3
          rw [if_neg hcl]
          exact Or.inl h3
      · exact Or.inr ⟨y, List.mem_cons_of_mem _ hy, h3, h4⟩

end

section
variable {K : Type} [Field K] [LinearOrder K] [IsStrictOrderedRing K]

/-- Seen from `p` along `dir` the line is told apart by the tolerances: if the particle is said to be coincident with it, it is on it and
moves off it; otherwise it is not within the tolerance, and neither is the direction parallel to it, unless exactly. -/
def LineClear (fuzz : K) (co : Bool) (l : Line K) (p : Pt K) (dir : Dir K) : Prop :=
  (rate l dir = 0 ∨ fuzz ≤ |rate l dir|) ∧ (offLine l p = 0 ∨ fuzz < |offLine l p|) ∧ ¬ (rate l dir = 0 ∧ offLine l p = 0) ∧
  (co = true → offLine l p = 0)

/-- On which side of a line: the sign of a number. -/
def SameSign (a b : K) : Prop := (0 < a ∧ 0 < b) ∨ (a < 0 ∧ b < 0)

/-- Before the distance to the line the side of the line does not change. -/
theorem line_side (fuzz : K) (hf : 0 < fuzz) (co : Bool) (l : Line K) (p : Pt K) (dir : Dir K) (hc : LineClear fuzz co l p dir) (s s' : K)
    (hs : 0 < s) (hs' : 0 < s') (h : ∀ d, lineDist fuzz l p dir co = some d → s < d ∧ s' < d) :
    SameSign (offLine l (travel p dir s)) (offLine l (travel p dir s')) := by
  obtain ⟨c1, c2, c3, c4⟩ := hc
  rw [offLine_travel, offLine_travel]
  by_cases h0 : offLine l p = 0
  · have hr : rate l dir ≠ 0 := fun hr => c3 ⟨hr, h0⟩
    rw [h0]
    rcases lt_or_gt_of_ne hr with q | q
    · exact Or.inr ⟨by nlinarith, by nlinarith⟩
    · exact Or.inl ⟨by nlinarith, by nlinarith⟩
  · have hco : co = false := by cases co <;> simp_all
    subst hco
    rw [lineDist_eq] at h
    rcases c1 with c1 | c1
    · rw [c1]
      rcases lt_or_gt_of_ne h0 with q | q
      · exact Or.inr ⟨by linarith, by linarith⟩
      · exact Or.inl ⟨by linarith, by linarith⟩
    · rw [if_neg (not_lt.mpr c1)] at h
      have hr0 : rate l dir ≠ 0 := by intro e; rw [e, abs_zero] at c1; exact absurd hf (not_lt.mpr c1)
      have hoff : fuzz < |offLine l p| := c2.resolve_left h0
      by_cases hd : 0 < -offLine l p / rate l dir
      · obtain ⟨h1, h2⟩ := h _ (if_pos ⟨hd, hoff⟩)
        rcases lt_or_gt_of_ne hr0 with q | q
        · rw [lt_div_iff_of_neg q] at h1 h2
          exact Or.inl ⟨by linarith, by linarith⟩
        · rw [lt_div_iff₀ q] at h1 h2
          exact Or.inr ⟨by linarith, by linarith⟩
      · rw [not_lt] at hd
        rcases lt_or_gt_of_ne hr0 with q | q
        · have : offLine l p ≤ 0 := by
            rw [div_le_iff_of_neg q] at hd; linarith
          have h3 : offLine l p < 0 := lt_of_le_of_ne this h0
          exact Or.inr ⟨by nlinarith, by nlinarith⟩
        · have : 0 ≤ offLine l p := by
            rw [div_le_iff₀ q] at hd; linarith
          have h3 : 0 < offLine l p := lt_of_le_of_ne this (Ne.symm h0)
          exact Or.inl ⟨by nlinarith, by nlinarith⟩

/-- Distance `s` is before the returned one. -/
def Before (s : K) (d : Option K) : Prop := ∀ x, d = some x → s < x

omit [Field K] [IsStrictOrderedRing K] in
theorem before_upTo {s : K} {a b : Option K} (h : Before s a) (hu : UpTo a b) : Before s b := by
  intro y hy
  obtain ⟨x, hx, hxy⟩ := hu y hy
  exact lt_of_lt_of_le (h x hx) hxy

/-- C82, rectangular pins: for a point in the pin the pin is not reported as left; until the returned distance no grid line is crossed, i.e.
the particle stays on the same side of each; at this distance it is on the grid line whose number is returned; if no distance is returned, the
number stays and no line is ever crossed. -/
theorem C82_rect (m : Rect K) (fuzz : K) (hf : 0 < fuzz) (ids : Nat → Int) (p : Pt K) (dir : Dir K) (co : Int)
    (hp : |p.x| ≤ 1 / 2 * m.pitch ∧ |p.y| ≤ 1 / 2 * m.pitch)
    (hc : ∀ i (hi : i < m.lines.length), LineClear fuzz (decide (co = ids i)) (m.lines[i]) p dir) :
    (m.distance fuzz ids p dir co).2.1 = false ∧
    (∀ l ∈ m.lines, ∀ s s', 0 < s → 0 < s' → Before s (m.distance fuzz ids p dir co).1 → Before s' (m.distance fuzz ids p dir co).1 →
      SameSign (offLine l (travel p dir s)) (offLine l (travel p dir s'))) ∧
    (∀ d, (m.distance fuzz ids p dir co).1 = some d → 0 < d ∧ ∃ i, ∃ hi : i < m.lines.length, (m.distance fuzz ids p dir co).2.2 = ids i ∧
      offLine (m.lines[i]) (travel p dir d) = 0) ∧
    ((m.distance fuzz ids p dir co).1 = none → (m.distance fuzz ids p dir co).2.2 = co) := by
  have hin : ¬ (1 / 2 * m.pitch < |p.x| ∨ 1 / 2 * m.pitch < |p.y|) := by
    rintro (h | h)
    · exact absurd h (not_lt.mpr hp.1)
    · exact absurd h (not_lt.mpr hp.2)
  simp only [Rect.distance, if_neg hin]
  obtain ⟨-, n2, n3⟩ := nearest_spec co (m.surfaces fuzz ids p dir) (none, co)
  refine ⟨trivial, ?_, ?_, ?_⟩
  · intro l hl s s' hs hs' hb hb'
    obtain ⟨i, hi, rfl⟩ := List.getElem_of_mem hl
    have hmem : (ids i, lineDist fuzz m.lines[i] p dir) ∈ m.surfaces fuzz ids p dir := by
      simp only [Rect.surfaces, List.mem_map]
      exact ⟨(m.lines[i], i), by rw [List.mem_zipIdx_iff_getElem?]; simp [hi], rfl⟩
    have hu := n2 _ hmem
    refine line_side fuzz hf _ _ p dir (hc i hi) s s' hs hs' ?_
    intro d hd
    exact ⟨before_upTo hb hu d hd, before_upTo hb' hu d hd⟩
  · intro d hd
    rcases n3 with h | ⟨x, hx, h, -⟩
    · rw [h] at hd; exact absurd hd (by simp)
    · simp only [Rect.surfaces, List.mem_map] at hx
      obtain ⟨⟨l, i⟩, hmem, rfl⟩ := hx
      rw [List.mem_zipIdx_iff_getElem?] at hmem
      obtain ⟨hi, hl⟩ := List.getElem?_eq_some_iff.mp hmem
      simp only at hi hl h
      subst hl
      rw [h] at hd ⊢
      obtain ⟨h1, h2, -⟩ := C64_line_hit fuzz hf _ p dir _ d hd
      exact ⟨h1, i, hi, rfl, h2⟩
  · intro hn
    rcases n3 with h | ⟨x, hx, h, d, hd⟩
    · rw [h]
    · rw [h] at hn; simp only [hd] at hn; exact absurd hn (by simp)

theorem strip_same (pitch : K) (hp : 0 < pitch) (n i j : Nat) (hj : j < n) (x y : K) (hi : InStrip pitch n i x) (hj' : InStrip pitch n j y)
    (hs : ∀ k, 1 ≤ k → k < n → SameSign (grid pitch n k - x) (grid pitch n k - y)) : ¬ i < j := by
  intro h
  have hm := grid_mono pitch hp n (i + 1) j h
  have h1 := hi.2
  have h2 := hj'.1
  rw [grid_eq, grid_eq] at hm
  push_cast at hm
  rcases hs j (by omega) hj with ⟨a, b⟩ | ⟨a, b⟩
  · rw [grid_eq] at b; linarith
  · rw [grid_eq] at a; linarith

/-- C82, rectangular pins: until the returned distance, as long as the particle is in the pin, it is in the same region. -/
theorem C82_rect_region (m : Rect K) (hm : m.Valid) (fuzz : K) (hf : 0 < fuzz) (ids : Nat → Int) (p : Pt K) (dir : Dir K) (co : Int)
    (hp : |p.x| ≤ 1 / 2 * m.pitch ∧ |p.y| ≤ 1 / 2 * m.pitch)
    (hc : ∀ i (hi : i < m.lines.length), LineClear fuzz (decide (co = ids i)) (m.lines[i]) p dir) (s s' : K) (hs : 0 < s) (hs' : 0 < s')
    (hb : Before s (m.distance fuzz ids p dir co).1) (hb' : Before s' (m.distance fuzz ids p dir co).1)
    (hin : |(travel p dir s).x| < m.pitch / 2 ∧ |(travel p dir s).y| < m.pitch / 2)
    (hin' : |(travel p dir s').x| < m.pitch / 2 ∧ |(travel p dir s').y| < m.pitch / 2) :
    m.findReg (travel p dir s) = m.findReg (travel p dir s') := by
  have hside := (C82_rect m fuzz hf ids p dir co hp hc).2.1
  have hpp := hm.pitch
  have sx : ∀ t t' : K, 0 < t → 0 < t' → Before t (m.distance fuzz ids p dir co).1 → Before t' (m.distance fuzz ids p dir co).1 →
      ∀ k, 1 ≤ k → k < m.nx → SameSign (grid m.pitch m.nx k - (travel p dir t).x) (grid m.pitch m.nx k - (travel p dir t').x) := by
    intro t t' ht ht' b b' k hk hkn
    have hl : (⟨⟨grid m.pitch m.nx k, -(1 / 2 * m.pitch)⟩, ⟨grid m.pitch m.nx k, 1 / 2 * m.pitch⟩⟩ : Line K) ∈ m.lines := by
      unfold Rect.lines
      rw [List.mem_append]
      exact Or.inl (List.mem_map.mpr ⟨k, by rw [List.mem_range'_1]; omega, rfl⟩)
    have := hside _ hl t t' ht ht' b b'
    have e : ∀ q : Pt K, offLine ⟨⟨grid m.pitch m.nx k, -(1 / 2 * m.pitch)⟩, ⟨grid m.pitch m.nx k, 1 / 2 * m.pitch⟩⟩ q =
        m.pitch * (grid m.pitch m.nx k - q.x) := by intro q; simp only [offLine]; ring
    rw [e, e] at this
    rcases this with ⟨a, b⟩ | ⟨a, b⟩
    · exact Or.inl ⟨pos_of_mul_pos_right a hpp.le, pos_of_mul_pos_right b hpp.le⟩
    · exact Or.inr ⟨neg_of_mul_neg_right a hpp.le, neg_of_mul_neg_right b hpp.le⟩
  have sy : ∀ t t' : K, 0 < t → 0 < t' → Before t (m.distance fuzz ids p dir co).1 → Before t' (m.distance fuzz ids p dir co).1 →
      ∀ k, 1 ≤ k → k < m.ny → SameSign (grid m.pitch m.ny k - (travel p dir t).y) (grid m.pitch m.ny k - (travel p dir t').y) := by
    intro t t' ht ht' b b' k hk hkn
    have hl : (⟨⟨-(1 / 2 * m.pitch), grid m.pitch m.ny k⟩, ⟨1 / 2 * m.pitch, grid m.pitch m.ny k⟩⟩ : Line K) ∈ m.lines := by
      unfold Rect.lines
      rw [List.mem_append]
      exact Or.inr (List.mem_map.mpr ⟨k, by rw [List.mem_range'_1]; omega, rfl⟩)
    have := hside _ hl t t' ht ht' b b'
    have e : ∀ q : Pt K, offLine ⟨⟨-(1 / 2 * m.pitch), grid m.pitch m.ny k⟩, ⟨1 / 2 * m.pitch, grid m.pitch m.ny k⟩⟩ q =
        m.pitch * -(grid m.pitch m.ny k - q.y) := by intro q; simp only [offLine]; ring
    rw [e, e] at this
    rcases this with ⟨a, b⟩ | ⟨a, b⟩
    · have a := pos_of_mul_pos_right a hpp.le
      have b := pos_of_mul_pos_right b hpp.le
      exact Or.inr ⟨by linarith, by linarith⟩
    · have a := neg_of_mul_neg_right a hpp.le
      have b := neg_of_mul_neg_right b hpp.le
      exact Or.inl ⟨by linarith, by linarith⟩
  obtain ⟨⟨x1, x2⟩, y1, y2⟩ := And.imp abs_lt.mp abs_lt.mp hin
  obtain ⟨⟨x1', x2'⟩, y1', y2'⟩ := And.imp abs_lt.mp abs_lt.mp hin'
  obtain ⟨ix, iy, h1, h2, h3, -, -, h4, h5⟩ := C65_cell_partial m hm _ x1 x2.le y1 y2.le
  obtain ⟨jx, jy, k1, k2, k3, -, -, k4, k5⟩ := C65_cell_partial m hm _ x1' x2'.le y1' y2'.le
  have ex : ix = jx := le_antisymm (not_lt.mp (strip_same m.pitch hpp m.nx jx ix h1 _ _ k4 h4 (sx _ _ hs' hs hb' hb)))
    (not_lt.mp (strip_same m.pitch hpp m.nx ix jx k1 _ _ h4 k4 (sx _ _ hs hs' hb hb')))
  have ey : iy = jy := le_antisymm (not_lt.mp (strip_same m.pitch hpp m.ny jy iy h2 _ _ k5 h5 (sy _ _ hs' hs hb' hb)))
    (not_lt.mp (strip_same m.pitch hpp m.ny iy jy k2 _ _ h5 k5 (sy _ _ hs hs' hb hb')))
  rw [h3, k3, ex, ey]

omit [IsStrictOrderedRing K] in
/-- C82: outside of the pin the distance is zero and the pin is reported as left. -/
theorem C82_outside (m : Rect K) (fuzz : K) (ids : Nat → Int) (p : Pt K) (dir : Dir K) (co : Int)
    (hp : 1 / 2 * m.pitch < |p.x| ∨ 1 / 2 * m.pitch < |p.y|) : m.distance fuzz ids p dir co = (some 0, true, co) := if_pos hp

end

/-! ### Cylindrical pins -/

/-- On or off the ring as the flag says, apart from the tolerance. -/
def RingClear (fuzz : ℝ) (co : Bool) (r : ℝ) (p : Pt ℝ) : Prop :=
  if co then fromCentre ⟨⟨0, 0⟩, r⟩ p = r ^ 2 else fuzz ≤ |fromCentre ⟨⟨0, 0⟩, r⟩ p - r ^ 2|

/-- A continuous function without a zero between two points has the same sign at both. -/
theorem sameSign_of_ne (f : ℝ → ℝ) (hf : Continuous f) (a b : ℝ) (h : ∀ t, min a b ≤ t → t ≤ max a b → f t ≠ 0) : SameSign (f a) (f b) := by
  have hab : Set.uIcc (f a) (f b) ⊆ f '' Set.uIcc a b := intermediate_value_uIcc hf.continuousOn
  have ha : f a ≠ 0 := h a (min_le_left _ _) (le_max_left _ _)
  have hb : f b ≠ 0 := h b (min_le_right _ _) (le_max_right _ _)
  have key : (0 : ℝ) ∉ Set.uIcc (f a) (f b) := by
    intro h0
    obtain ⟨t, ht, h1⟩ := hab h0
    exact h t ht.1 ht.2 h1
  rcases lt_or_gt_of_ne ha with q | q <;> rcases lt_or_gt_of_ne hb with q' | q'
  · exact Or.inr ⟨q, q'⟩
  · exact absurd (Set.mem_uIcc_of_le q.le q'.le) key
  · exact absurd (Set.mem_uIcc_of_ge q'.le q.le) key
  · exact Or.inl ⟨q, q'⟩

theorem ring_continuous (r : ℝ) (p : Pt ℝ) (dir : Dir ℝ) : Continuous fun s => fromCentre ⟨⟨0, 0⟩, r⟩ (travel p dir s) - r ^ 2 := by
  simp only [fromCentre, travel]
  fun_prop

/-- Inside or outside of a ring, the ring itself counting as both. -/
def SameSide (a b : ℝ) : Prop := (0 ≤ a ∧ 0 ≤ b) ∨ (a ≤ 0 ∧ b ≤ 0)

theorem SameSign.side {a b : ℝ} (h : SameSign a b) : SameSide a b := by
  rcases h with h | h
  · exact Or.inl ⟨h.1.le, h.2.le⟩
  · exact Or.inr ⟨h.1.le, h.2.le⟩

/-- Before the distance to the ring it is not crossed. -/
theorem ring_side (fuzz : ℝ) (hf : 0 < fuzz) (co : Bool) (r : ℝ) (p : Pt ℝ) (dir : Dir ℝ) (hu : Unit3 dir) (hc : RingClear fuzz co r p)
    (s s' : ℝ) (hs : 0 < s) (hs' : 0 < s') (h : ∀ d, circleDist Real.sqrt fuzz ⟨⟨0, 0⟩, r⟩ p dir co = some d → s < d ∧ s' < d) :
    SameSide (fromCentre ⟨⟨0, 0⟩, r⟩ (travel p dir s) - r ^ 2) (fromCentre ⟨⟨0, 0⟩, r⟩ (travel p dir s') - r ^ 2) := by
  cases co with
  | true =>
    obtain ⟨h1, h2⟩ := C64_circle_surface fuzz hf ⟨⟨0, 0⟩, r⟩ p dir hu hc true
    cases hd : circleDist Real.sqrt fuzz ⟨⟨0, 0⟩, r⟩ p dir true with
    | none =>
      have a := h2 hd s hs
      have b := h2 hd s' hs'
      simp only at a b
      exact Or.inl ⟨by linarith, by linarith⟩
    | some d =>
      obtain ⟨-, -, h3⟩ := h1 d hd
      obtain ⟨a, b⟩ := h d hd
      have a := h3 s hs a
      have b := h3 s' hs' b
      simp only at a b
      exact Or.inr ⟨by linarith, by linarith⟩
  | false =>
    have hoff : fuzz ≤ |fromCentre ⟨⟨0, 0⟩, r⟩ p - r ^ 2| := hc
    have hne : fromCentre ⟨⟨0, 0⟩, r⟩ p ≠ r ^ 2 := by
      intro e; rw [e, sub_self, abs_zero] at hoff; linarith
    refine (sameSign_of_ne _ (ring_continuous r p dir) s s' ?_).side
    intro t h1 h2 h3
    have ht : 0 < t := lt_of_lt_of_le (lt_min hs hs') h1
    have h4 : fromCentre ⟨⟨0, 0⟩, r⟩ (travel p dir t) = r ^ 2 := by linarith
    cases hd : circleDist Real.sqrt fuzz ⟨⟨0, 0⟩, r⟩ p dir false with
    | none => exact C64_circle_miss fuzz ⟨⟨0, 0⟩, r⟩ p dir hu hoff hne hd t ht.le h4
    | some d =>
      obtain ⟨-, -, h5⟩ := C64_circle_hit fuzz ⟨⟨0, 0⟩, r⟩ p dir hu hoff hne d hd
      obtain ⟨a, b⟩ := h d hd
      exact h5 t ht.le (lt_of_le_of_lt h2 (max_lt a b)) h4

/-- At the distance to the ring the particle is on it. -/
theorem ring_hit (fuzz : ℝ) (hf : 0 < fuzz) (co : Bool) (r : ℝ) (p : Pt ℝ) (dir : Dir ℝ) (hu : Unit3 dir) (hc : RingClear fuzz co r p)
    (d : ℝ) (h : circleDist Real.sqrt fuzz ⟨⟨0, 0⟩, r⟩ p dir co = some d) :
    0 < d ∧ fromCentre ⟨⟨0, 0⟩, r⟩ (travel p dir d) = r ^ 2 := by
  cases co with
  | true =>
    obtain ⟨h1, -⟩ := C64_circle_surface fuzz hf ⟨⟨0, 0⟩, r⟩ p dir hu hc true
    exact ⟨(h1 d h).1, (h1 d h).2.1⟩
  | false =>
    have hoff : fuzz ≤ |fromCentre ⟨⟨0, 0⟩, r⟩ p - r ^ 2| := hc
    have hne : fromCentre ⟨⟨0, 0⟩, r⟩ p ≠ r ^ 2 := by
      intro e; rw [e, sub_self, abs_zero] at hoff; linarith
    obtain ⟨h0, h1, -⟩ := C64_circle_hit fuzz ⟨⟨0, 0⟩, r⟩ p dir hu hoff hne d h
    refine ⟨lt_of_le_of_ne h0 ?_, h1⟩
    rintro rfl
    apply hne
    simpa [travel, fromCentre] using h1

/-- What is known about a point of a cylindrical pin: it is told apart from rings and sector lines, or is on the one with the number. -/
structure CylClear (m : Cyl ℝ) (fuzz : ℝ) (lines : List (Line ℝ)) (ids idl : Nat → Int) (p : Pt ℝ) (dir : Dir ℝ) (co : Int) : Prop where
  unit : Unit3 dir
  inX : |p.x| ≤ 1 / 2 * m.pitch
  inY : |p.y| ≤ 1 / 2 * m.pitch
  ring : ∀ i (hi : i < m.radii.length), RingClear fuzz (decide (co = ids i)) (m.radii[i]) p
  line : ∀ i (hi : i < lines.length), LineClear fuzz (decide (co = idl i)) (lines[i]) p dir

/-- C82, cylindrical pins: until the returned distance no ring and no line through the centre along a sector boundary is crossed; at this
distance the particle is on the ring or line whose number is returned; if no distance is returned the number stays. -/
theorem C82_cyl (m : Cyl ℝ) (fuzz : ℝ) (hf : 0 < fuzz) (lines : List (Line ℝ)) (ids idl : Nat → Int) (p : Pt ℝ) (dir : Dir ℝ) (co : Int)
    (hc : CylClear m fuzz lines ids idl p dir co) :
    (m.distance Real.sqrt fuzz lines ids idl p dir co).2.1 = false ∧
    (∀ s s', 0 < s → 0 < s' → Before s (m.distance Real.sqrt fuzz lines ids idl p dir co).1 →
      Before s' (m.distance Real.sqrt fuzz lines ids idl p dir co).1 →
      (∀ r ∈ m.radii, SameSide (fromCentre ⟨⟨0, 0⟩, r⟩ (travel p dir s) - r ^ 2) (fromCentre ⟨⟨0, 0⟩, r⟩ (travel p dir s') - r ^ 2)) ∧
      ∀ l ∈ lines, SameSign (offLine l (travel p dir s)) (offLine l (travel p dir s'))) ∧
    (∀ d, (m.distance Real.sqrt fuzz lines ids idl p dir co).1 = some d → 0 < d ∧
      ((∃ i, ∃ hi : i < m.radii.length, (m.distance Real.sqrt fuzz lines ids idl p dir co).2.2 = ids i ∧
        fromCentre ⟨⟨0, 0⟩, m.radii[i]⟩ (travel p dir d) = m.radii[i] ^ 2) ∨
       ∃ i, ∃ hi : i < lines.length, (m.distance Real.sqrt fuzz lines ids idl p dir co).2.2 = idl i ∧
        offLine (lines[i]) (travel p dir d) = 0)) ∧
    ((m.distance Real.sqrt fuzz lines ids idl p dir co).1 = none → (m.distance Real.sqrt fuzz lines ids idl p dir co).2.2 = co) := by
  have hin : ¬ (1 / 2 * m.pitch < |p.x| ∨ 1 / 2 * m.pitch < |p.y|) := by
    rintro (h | h)
    · exact absurd h (not_lt.mpr hc.inX)
    · exact absurd h (not_lt.mpr hc.inY)
  simp only [Cyl.distance, if_neg hin]
  obtain ⟨-, n2, n3⟩ := nearest_spec co (m.surfaces Real.sqrt fuzz lines ids idl p dir) (none, co)
  refine ⟨trivial, ?_, ?_, ?_⟩
  · intro s s' hs hs' hb hb'
    constructor
    · intro r hr
      obtain ⟨i, hi, rfl⟩ := List.getElem_of_mem hr
      have hmem : (ids i, circleDist Real.sqrt fuzz ⟨⟨0, 0⟩, m.radii[i]⟩ p dir) ∈ m.surfaces Real.sqrt fuzz lines ids idl p dir := by
        simp only [Cyl.surfaces, List.mem_append, List.mem_map]
        exact Or.inl ⟨(m.radii[i], i), by rw [List.mem_zipIdx_iff_getElem?]; simp [hi], rfl⟩
      have hu := n2 _ hmem
      exact ring_side fuzz hf _ _ p dir hc.unit (hc.ring i hi) s s' hs hs' fun d hd => ⟨before_upTo hb hu d hd, before_upTo hb' hu d hd⟩
    · intro l hl
      obtain ⟨i, hi, rfl⟩ := List.getElem_of_mem hl
      have hmem : (idl i, lineDist fuzz lines[i] p dir) ∈ m.surfaces Real.sqrt fuzz lines ids idl p dir := by
        simp only [Cyl.surfaces, List.mem_append, List.mem_map]
        exact Or.inr ⟨(lines[i], i), by rw [List.mem_zipIdx_iff_getElem?]; simp [hi], rfl⟩
      have hu := n2 _ hmem
      exact line_side fuzz hf _ _ p dir (hc.line i hi) s s' hs hs' fun d hd => ⟨before_upTo hb hu d hd, before_upTo hb' hu d hd⟩
  · intro d hd
    rcases n3 with h | ⟨x, hx, h, -⟩
    · rw [h] at hd; exact absurd hd (by simp)
    · simp only [Cyl.surfaces, List.mem_append, List.mem_map] at hx
      rcases hx with ⟨⟨r, i⟩, hmem, rfl⟩ | ⟨⟨l, i⟩, hmem, rfl⟩
      · rw [List.mem_zipIdx_iff_getElem?] at hmem
        obtain ⟨hi, hl⟩ := List.getElem?_eq_some_iff.mp hmem
        simp only at hi hl h
        subst hl
        rw [h] at hd ⊢
        obtain ⟨h1, h2⟩ := ring_hit fuzz hf _ _ p dir hc.unit (hc.ring i hi) d hd
        exact ⟨h1, Or.inl ⟨i, hi, rfl, h2⟩⟩
      · rw [List.mem_zipIdx_iff_getElem?] at hmem
        obtain ⟨hi, hl⟩ := List.getElem?_eq_some_iff.mp hmem
        simp only at hi hl h
        subst hl
        rw [h] at hd ⊢
        obtain ⟨h1, h2, -⟩ := C64_line_hit fuzz hf _ p dir _ d hd
        exact ⟨h1, Or.inr ⟨i, hi, rfl, h2⟩⟩
  · intro hn
    rcases n3 with h | ⟨x, hx, h, d, hd⟩
    · rw [h]
    · rw [h] at hn; simp only [hd] at hn; exact absurd hn (by simp)

/-- C82: outside of the pin the distance is zero and the pin is reported as left. -/
theorem C82_cyl_outside (m : Cyl ℝ) (fuzz : ℝ) (lines : List (Line ℝ)) (ids idl : Nat → Int) (p : Pt ℝ) (dir : Dir ℝ) (co : Int)
    (hp : 1 / 2 * m.pitch < |p.x| ∨ 1 / 2 * m.pitch < |p.y|) :
    m.distance Real.sqrt fuzz lines ids idl p dir co = (some 0, true, co) := if_pos hp

/-- A pin with two columns and rows; the particle starts in the lower left cell and moves to the right. -/
example : (⟨2, 2, 2⟩ : Rect ℚ).distance (1 / 100) (fun i : Nat => i + 7) ⟨-1 / 2, -1 / 2⟩ ⟨1, 0, 0⟩ (-1) = (some (1 / 2), false, 7) := by
  decide +kernel

example : ∀ i (hi : i < (⟨2, 2, 2⟩ : Rect ℚ).lines.length),
    LineClear (1 / 100) (decide ((-1 : Int) = i + 7)) ((⟨2, 2, 2⟩ : Rect ℚ).lines[i]) ⟨-1 / 2, -1 / 2⟩ ⟨1, 0, 0⟩ := by
  unfold LineClear
  decide +kernel

/-- A point of a pin with a ring of radius 1, at half the radius, moving along x. -/
example : CylClear ⟨4, [1], [1], 4, [1]⟩ (1 / 100) [⟨⟨0, 0⟩, ⟨0, 2⟩⟩] (fun i : Nat => i) (fun i : Nat => i + 1) ⟨1 / 2, 0⟩ ⟨1, 0, 0⟩ (-1) := by
  refine ⟨by norm_num [Unit3], by norm_num [abs_of_pos], by norm_num, ?_, ?_⟩
  · intro i hi
    have h0 : i = 0 := by simpa using hi
    subst h0
    simp [RingClear, fromCentre]
    rw [abs_of_neg] <;> norm_num
  · intro i hi
    have h0 : i = 0 := by simpa using hi
    subst h0
    simp [LineClear, rate, offLine]
    norm_num

end Verif.PinMesh
