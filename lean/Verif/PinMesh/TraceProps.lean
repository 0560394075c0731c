import Verif.PinMesh.TraceModel
import Verif.PinMesh.RectProps
import Verif.Geom.MeetProps
import Mathlib.Analysis.Real.Sqrt
import Mathlib.Tactic.Ring
import Mathlib.Tactic.Linarith
import Mathlib.Tactic.NormNum
import Mathlib.Tactic.FieldSimp
import Mathlib.Tactic.LinearCombination

/-! # C71: tracing a ray through a rectangular pin -/

namespace Verif.PinMesh

open Verif.Geom

/-- What is known of `std::sort` with the comparison of `y`. -/
structure SortsByY {K : Type} [Field K] [LinearOrder K] (sort : List (Pt K) → List (Pt K)) : Prop where
  perm : ∀ l, (sort l).Perm l
  ordered : ∀ l, (sort l).Pairwise (fun a b => ¬ b.y < a.y)

/-- Distance of two points. -/
noncomputable def dist2 (a b : Pt ℝ) : ℝ := Real.sqrt ((a.x - b.x) * (a.x - b.x) + (a.y - b.y) * (a.y - b.y))

/-- Point of the segment from `p1` to `p2` at parameter `t`. -/
noncomputable def onRay (p1 p2 : Pt ℝ) (t : ℝ) : Pt ℝ := ⟨p1.x + t * (p2.x - p1.x), p1.y + t * (p2.y - p1.y)⟩

theorem dist2_onRay (p1 p2 : Pt ℝ) (s t : ℝ) (h : s ≤ t) : dist2 (onRay p1 p2 t) (onRay p1 p2 s) = (t - s) * dist2 p2 p1 := by
  unfold dist2 onRay
  simp only []
  rw [show (p1.x + t * (p2.x - p1.x) - (p1.x + s * (p2.x - p1.x))) * (p1.x + t * (p2.x - p1.x) - (p1.x + s * (p2.x - p1.x))) +
    (p1.y + t * (p2.y - p1.y) - (p1.y + s * (p2.y - p1.y))) * (p1.y + t * (p2.y - p1.y) - (p1.y + s * (p2.y - p1.y))) =
    (t - s) ^ 2 * ((p2.x - p1.x) * (p2.x - p1.x) + (p2.y - p1.y) * (p2.y - p1.y)) by ring, Real.sqrt_mul (sq_nonneg _),
    Real.sqrt_sq (by linarith)]

/-- `q` is a point of the segment from `p1` to `p2`, ends included. -/
def OnRay (p1 p2 q : Pt ℝ) : Prop := ∃ t, 0 ≤ t ∧ t ≤ 1 ∧ q = onRay p1 p2 t

/-- `q` is a point of the segment from `a` to `b`, ends excluded. -/
def Between (a b q : Pt ℝ) : Prop := ∃ t, 0 < t ∧ t < 1 ∧ q = onRay a b t

theorem onRay_y_inj (p1 p2 : Pt ℝ) (hy : p1.y < p2.y) (s t : ℝ) : (onRay p1 p2 s).y ≤ (onRay p1 p2 t).y ↔ s ≤ t := by
  unfold onRay
  simp only []
  constructor
  · intro h
    by_contra hc
    nlinarith
  · intro h; nlinarith

/-! ### Lists of points in order of `y` -/

theorem uniqueFrom_sub (eq : Pt ℝ → Pt ℝ → Bool) (last : Pt ℝ) (l : List (Pt ℝ)) (q : Pt ℝ) (h : q ∈ uniqueFrom eq last l) :
    q ∈ l := by
  induction l generalizing last with
  | nil => exact h
  | cons a as ih =>
    unfold uniqueFrom at h
    split at h
    · exact List.mem_cons_of_mem _ (ih last h)
    · rcases List.mem_cons.mp h with rfl | h
      · exact List.mem_cons_self
      · exact List.mem_cons_of_mem _ (ih a h)

/-- The last element kept is the last one or equal to it. -/
theorem uniqueFrom_last (eq : Pt ℝ → Pt ℝ → Bool) (last : Pt ℝ) (l : List (Pt ℝ)) :
    (last :: uniqueFrom eq last l).getLast (by simp) = (last :: l).getLast (by simp) ∨
    eq ((last :: uniqueFrom eq last l).getLast (by simp)) ((last :: l).getLast (by simp)) = true := by
  induction l generalizing last with
  | nil => left; rfl
  | cons a as ih =>
    unfold uniqueFrom
    split
    · rename_i he
      by_cases hn : as = []
      · subst hn
        right
        simpa [uniqueFrom] using he
      · rcases ih last with h | h
        · left
          rw [h, List.getLast_cons hn, List.getLast_cons (by simp), List.getLast_cons hn]
        · right
          rw [List.getLast_cons hn] at h
          rw [List.getLast_cons (l := a :: as) (by simp), List.getLast_cons hn]
          exact h
    · have := ih a
      simpa [List.getLast_cons] using this

/-- Between neighbours that were kept there is no point of the list, except points equal to the first of the two. -/
theorem uniqueFrom_gap (eq : Pt ℝ → Pt ℝ → Bool) (last : Pt ℝ) (l : List (Pt ℝ))
    (hs : (last :: l).Pairwise (fun a b => ¬ b.y < a.y)) (a b : Pt ℝ)
    (hab : (a, b) ∈ (last :: uniqueFrom eq last l).zip (uniqueFrom eq last l)) (c : Pt ℝ) (hc : c ∈ last :: l) :
    c.y ≤ a.y ∨ b.y ≤ c.y ∨ eq a c = true := by
  induction l generalizing last with
  | nil => simp [uniqueFrom] at hab
  | cons q qs ih =>
    obtain ⟨h1, h2⟩ := List.pairwise_cons.mp hs
    have hq := List.pairwise_cons.mp h2
    unfold uniqueFrom at hab
    split at hab
    · rename_i he
      have hs' : (last :: qs).Pairwise (fun a b => ¬ b.y < a.y) :=
        List.pairwise_cons.mpr ⟨fun x hx => h1 x (List.mem_cons_of_mem _ hx), hq.2⟩
      have hcase : c ∈ last :: qs ∨ c = q := by
        rcases List.mem_cons.mp hc with rfl | hc
        · left; exact List.mem_cons_self
        · rcases List.mem_cons.mp hc with rfl | hc
          · right; rfl
          · left; exact List.mem_cons_of_mem _ hc
      rcases hcase with hc' | rfl
      · exact ih last hs' hab hc'
      · -- the dropped element
        rcases hu : uniqueFrom eq last qs with _ | ⟨u, us⟩
        · rw [hu] at hab; simp at hab
        · rw [hu, List.zip_cons_cons] at hab
          rcases List.mem_cons.mp hab with e | hab'
          · rw [Prod.mk.injEq] at e
            right; right; rw [e.1]; exact he
          · left
            have hmem : a ∈ u :: us := (List.of_mem_zip hab').1
            have : a ∈ qs := uniqueFrom_sub eq last qs a (by rw [hu]; exact hmem)
            exact not_lt.mp (hq.1 a this)
    · rw [List.zip_cons_cons] at hab
      rcases List.mem_cons.mp hab with e | hab'
      · rw [Prod.mk.injEq] at e
        obtain ⟨rfl, rfl⟩ := e
        rcases List.mem_cons.mp hc with rfl | hc
        · left; exact le_refl _
        · rcases List.mem_cons.mp hc with rfl | hc
          · right; left; exact le_refl _
          · right; left; exact not_lt.mp (hq.1 c hc)
      · rcases List.mem_cons.mp hc with rfl | hc
        · left
          have hmem : a ∈ q :: uniqueFrom eq q qs := (List.of_mem_zip hab').1
          rcases List.mem_cons.mp hmem with rfl | hm
          · exact not_lt.mp (h1 a List.mem_cons_self)
          · exact not_lt.mp (h1 a (List.mem_cons_of_mem _ (uniqueFrom_sub eq q qs a hm)))
        · exact ih q h2 hab' hc

theorem pieces_zip (dist : Pt ℝ → Pt ℝ → ℝ) (reg : Pt ℝ → Int) (l : List (Pt ℝ)) :
    pieces dist reg l = (l.zip l.tail).map fun ab => (dist ab.2 ab.1, reg (midpoint ab.2 ab.1)) := by
  induction l with
  | nil => rfl
  | cons a l ih =>
    cases l with
    | nil => rfl
    | cons b rest =>
      rw [pieces, ih]
      simp

/-- Along a ray upwards the lengths of consecutive pieces add up. -/
theorem lengths_sum (p1 p2 : Pt ℝ) (reg : Pt ℝ → Int) (l : List (Pt ℝ)) (hl : ∀ q ∈ l, OnRay p1 p2 q) (hy : p1.y < p2.y)
    (hs : l.Pairwise (fun a b => ¬ b.y < a.y)) (hne : l ≠ []) :
    ((pieces dist2 reg l).map Prod.fst).sum = dist2 (l.getLast hne) (l.head hne) := by
  induction l with
  | nil => exact absurd rfl hne
  | cons a l ih =>
    cases l with
    | nil =>
      simp [pieces, dist2]
    | cons b rest =>
      obtain ⟨h1, h2⟩ := List.pairwise_cons.mp hs
      rw [pieces, List.map_cons, List.sum_cons, ih (fun q hq => hl q (List.mem_cons_of_mem _ hq)) h2 (by simp)]
      simp only [List.head_cons]
      rw [List.getLast_cons (l := b :: rest) (by simp)]
      have hlast : (b :: rest).getLast (by simp) ∈ b :: rest := List.getLast_mem _
      obtain ⟨ta, _, _, ea⟩ := hl a List.mem_cons_self
      obtain ⟨tb, _, _, eb⟩ := hl b (by simp)
      obtain ⟨tc, _, _, ec⟩ := hl _ (List.mem_cons_of_mem _ hlast)
      have hab : ta ≤ tb := by
        have := not_lt.mp (h1 b (by simp))
        rw [ea, eb] at this
        exact (onRay_y_inj p1 p2 hy _ _).mp this
      have hbc : tb ≤ tc := by
        rcases List.mem_cons.mp hlast with h | h
        · have h3 : (onRay p1 p2 tb).y ≤ (onRay p1 p2 tc).y := by rw [← ec, ← eb, h]
          exact (onRay_y_inj p1 p2 hy _ _).mp h3
        · have := not_lt.mp ((List.pairwise_cons.mp h2).1 _ h)
          rw [ec, eb] at this
          exact (onRay_y_inj p1 p2 hy _ _).mp this
      rw [ec, ea, eb, dist2_onRay _ _ _ _ hab, dist2_onRay _ _ _ _ hbc, dist2_onRay _ _ _ _ (le_trans hab hbc)]
      ring

/-- The points kept, and what is known of them. -/
structure Kept (eq : Pt ℝ → Pt ℝ → Bool) (p1 p2 : Pt ℝ) (pts kept : List (Pt ℝ)) : Prop where
  ne : kept ≠ []
  head : kept.head ne = p1
  last : kept.getLast ne = p2 ∨ eq (kept.getLast ne) p2 = true
  sub : ∀ q ∈ kept, q ∈ pts
  ordered : kept.Pairwise (fun a b => ¬ b.y < a.y)
  apart : ∀ a b, (a, b) ∈ kept.zip kept.tail → eq a b = false
  gap : ∀ a b, (a, b) ∈ kept.zip kept.tail → ∀ c ∈ pts, c.y ≤ a.y ∨ b.y ≤ c.y ∨ eq a c = true

theorem uniqueFrom_ordered (eq : Pt ℝ → Pt ℝ → Bool) (last : Pt ℝ) (l : List (Pt ℝ))
    (hs : (last :: l).Pairwise (fun a b => ¬ b.y < a.y)) : (last :: uniqueFrom eq last l).Pairwise (fun a b => ¬ b.y < a.y) := by
  induction l generalizing last with
  | nil => exact hs
  | cons q qs ih =>
    obtain ⟨h1, h2⟩ := List.pairwise_cons.mp hs
    unfold uniqueFrom
    split
    · exact ih last (List.pairwise_cons.mpr ⟨fun x hx => h1 x (List.mem_cons_of_mem _ hx), (List.pairwise_cons.mp h2).2⟩)
    · refine List.pairwise_cons.mpr ⟨?_, ih q h2⟩
      intro x hx
      rcases List.mem_cons.mp hx with rfl | hx
      · exact h1 x List.mem_cons_self
      · exact h1 x (List.mem_cons_of_mem _ (uniqueFrom_sub eq q qs x hx))

theorem uniqueFrom_apart (eq : Pt ℝ → Pt ℝ → Bool) (last : Pt ℝ) (l : List (Pt ℝ)) (a b : Pt ℝ)
    (hab : (a, b) ∈ (last :: uniqueFrom eq last l).zip (uniqueFrom eq last l)) : eq a b = false := by
  induction l generalizing last with
  | nil => simp [uniqueFrom] at hab
  | cons q qs ih =>
    unfold uniqueFrom at hab
    split at hab
    · exact ih last hab
    · rename_i he
      rw [List.zip_cons_cons] at hab
      rcases List.mem_cons.mp hab with e | hab'
      · rw [Prod.mk.injEq] at e
        rw [e.1, e.2]
        simpa using he
      · exact ih q hab'

/-- Sorting and removing duplicates of points of an upward ray, its ends among them. -/
theorem kept_of (sort : List (Pt ℝ) → List (Pt ℝ)) (hsort : SortsByY sort) (eq : Pt ℝ → Pt ℝ → Bool) (p1 p2 : Pt ℝ)
    (hy : p1.y < p2.y) (cuts : List (Pt ℝ)) (hc : ∀ q ∈ cuts, OnRay p1 p2 q) :
    Kept eq p1 p2 (p1 :: p2 :: cuts) (unique eq (sort (p1 :: p2 :: cuts))) := by
  have hall : ∀ q ∈ p1 :: p2 :: cuts, OnRay p1 p2 q := by
    intro q hq
    rcases List.mem_cons.mp hq with rfl | hq
    · exact ⟨0, le_refl _, zero_le_one, by simp [onRay]⟩
    · rcases List.mem_cons.mp hq with rfl | hq
      · exact ⟨1, zero_le_one, le_refl _, by simp [onRay]⟩
      · exact hc q hq
  have hmem : ∀ q, q ∈ sort (p1 :: p2 :: cuts) ↔ q ∈ p1 :: p2 :: cuts := fun q => (hsort.perm _).mem_iff
  have hord := hsort.ordered (p1 :: p2 :: cuts)
  rcases hS : sort (p1 :: p2 :: cuts) with _ | ⟨f, rest⟩
  · exfalso
    have := (hmem p1).mpr List.mem_cons_self
    rw [hS] at this
    cases this
  · rw [hS] at hord hmem
    obtain ⟨o1, o2⟩ := List.pairwise_cons.mp hord
    have hf : f = p1 := by
      obtain ⟨t, ht0, _, et⟩ := hall f ((hmem f).mp List.mem_cons_self)
      have h1 : f.y ≤ p1.y := by
        rcases List.mem_cons.mp ((hmem p1).mpr List.mem_cons_self) with h | h
        · rw [h]
        · exact not_lt.mp (o1 p1 h)
      have e0 : p1 = onRay p1 p2 0 := by simp [onRay]
      have h2 : (onRay p1 p2 t).y ≤ (onRay p1 p2 0).y := by rw [← et, ← e0]; exact h1
      have h3 : t = 0 := le_antisymm ((onRay_y_inj p1 p2 hy _ _).mp h2) ht0
      rw [et, h3, ← e0]
    have hl : (f :: rest).getLast (by simp) = p2 := by
      obtain ⟨t, _, ht1, et⟩ := hall _ ((hmem _).mp (List.getLast_mem (l := f :: rest) (by simp)))
      have h1 : p2.y ≤ ((f :: rest).getLast (by simp)).y := by
        have hp2 : p2 ∈ f :: rest := (hmem p2).mpr (by simp)
        have hdl : f :: rest = (f :: rest).dropLast ++ [(f :: rest).getLast (by simp)] :=
          (List.dropLast_append_getLast (by simp)).symm
        rw [hdl, List.mem_append] at hp2
        rcases hp2 with h | h
        · rw [hdl, List.pairwise_append] at hord
          exact not_lt.mp (hord.2.2 p2 h _ (by simp))
        · rw [List.mem_singleton] at h
          rw [← h]
      have e1 : p2 = onRay p1 p2 1 := by simp [onRay]
      have h2 : (onRay p1 p2 1).y ≤ (onRay p1 p2 t).y := by rw [← et, ← e1]; exact h1
      have h3 : t = 1 := le_antisymm ht1 ((onRay_y_inj p1 p2 hy _ _).mp h2)
      rw [et, h3, ← e1]
    unfold unique
    refine ⟨by simp, by simpa using hf, ?_, ?_, uniqueFrom_ordered eq f rest hord,
      fun a b hab => uniqueFrom_apart eq f rest a b hab, ?_⟩
    · have := uniqueFrom_last eq f rest
      rw [hl] at this
      exact this
    · intro q hq
      apply (hmem q).mp
      rcases List.mem_cons.mp hq with rfl | hq
      · exact List.mem_cons_self
      · exact List.mem_cons_of_mem _ (uniqueFrom_sub eq f rest q hq)
    · intro a b hab c hcm
      exact uniqueFrom_gap eq f rest hord a b hab c ((hmem c).mpr hcm)

/-! ### The rectangular pin -/

theorem onRay_seg (p1 p2 q : Pt ℝ) : OnSeg (⟨p1, p2⟩ : Line ℝ) q ↔ OnRay p1 p2 q := by
  constructor
  · rintro ⟨s, h0, h1, hx, hy⟩
    refine ⟨s, h0, h1, ?_⟩
    cases q
    simp only [onRay, Pt.mk.injEq] at *
    exact ⟨by rw [hx]; ring, by rw [hy]; ring⟩
  · rintro ⟨s, h0, h1, rfl⟩
    exact ⟨s, h0, h1, by simp only [onRay]; ring, by simp only [onRay]; ring⟩

theorem cuts_onRay (lines : List (Line ℝ)) (p1 p2 q : Pt ℝ) (hq : q ∈ lines.filterMap fun li => meet li ⟨p1, p2⟩) :
    OnRay p1 p2 q := by
  obtain ⟨li, _, h⟩ := List.mem_filterMap.mp hq
  exact (onRay_seg p1 p2 q).mp (C62_on_both li ⟨p1, p2⟩ q h).2

/-- C71: for a ray upwards through the pin the lengths add up to the distance from the entry to the last point kept, which is the
exit point or a point that compares equal to it. -/
theorem C71_length (m : Rect ℝ) (sort : List (Pt ℝ) → List (Pt ℝ)) (hsort : SortsByY sort) (eq : Pt ℝ → Pt ℝ → Bool)
    (p1 p2 : Pt ℝ) (hy : p1.y < p2.y) (first : Int) :
    ∃ q, (q = p2 ∨ eq q p2 = true) ∧ OnRay p1 p2 q ∧ ((m.trace sort eq dist2 p1 p2 first).map Prod.fst).sum = dist2 q p1 := by
  have k := kept_of sort hsort eq p1 p2 hy _ (cuts_onRay m.lines p1 p2)
  have hall : ∀ q ∈ unique eq (sort (p1 :: p2 :: m.lines.filterMap fun li => meet li ⟨p1, p2⟩)), OnRay p1 p2 q := by
    intro q hq
    rcases List.mem_cons.mp (k.sub q hq) with rfl | h
    · exact ⟨0, le_refl _, zero_le_one, by simp [onRay]⟩
    · rcases List.mem_cons.mp h with rfl | h
      · exact ⟨1, zero_le_one, le_refl _, by simp [onRay]⟩
      · exact cuts_onRay m.lines p1 p2 q h
  refine ⟨_, k.last, hall _ (List.getLast_mem k.ne), ?_⟩
  unfold Rect.trace
  rw [lengths_sum p1 p2 _ _ hall hy k.ordered k.ne, k.head]

/-- C71: the grid line `i`, other than the edges of the pin, is among the lines of the mesh. -/
theorem line_x_mem (m : Rect ℝ) (i : Nat) (h1 : 1 ≤ i) (h2 : i < m.nx) :
    (⟨⟨grid m.pitch m.nx i, -(1 / 2 * m.pitch)⟩, ⟨grid m.pitch m.nx i, 1 / 2 * m.pitch⟩⟩ : Line ℝ) ∈ m.lines := by
  unfold Rect.lines
  rw [List.mem_append]
  left
  exact List.mem_map.mpr ⟨i, by rw [List.mem_range'_1]; omega, rfl⟩

theorem line_y_mem (m : Rect ℝ) (i : Nat) (h1 : 1 ≤ i) (h2 : i < m.ny) :
    (⟨⟨-(1 / 2 * m.pitch), grid m.pitch m.ny i⟩, ⟨1 / 2 * m.pitch, grid m.pitch m.ny i⟩⟩ : Line ℝ) ∈ m.lines := by
  unfold Rect.lines
  rw [List.mem_append]
  right
  exact List.mem_map.mpr ⟨i, by rw [List.mem_range'_1]; omega, rfl⟩

/-- In the pin, its edges included. -/
def Rect.Has (m : Rect ℝ) (q : Pt ℝ) : Prop := |q.x| ≤ m.pitch / 2 ∧ |q.y| ≤ m.pitch / 2

/-- A crossing of an inner grid line is among the points. -/
theorem crossing_x (m : Rect ℝ) (hm : m.Valid) (p1 p2 : Pt ℝ) (hx : p1.x ≠ p2.x) (c : Pt ℝ) (hc : OnRay p1 p2 c) (hin : m.Has c)
    (i : Nat) (h1 : 1 ≤ i) (h2 : i < m.nx) (he : c.x = grid m.pitch m.nx i) :
    c ∈ m.lines.filterMap fun li => meet li ⟨p1, p2⟩ := by
  apply List.mem_filterMap.mpr
  refine ⟨_, line_x_mem m i h1 h2, C62_found_partial _ _ ?_ c ?_ ((onRay_seg p1 p2 c).mpr hc)⟩
  · unfold Parallel
    have hp := hm.pitch
    simp only [sub_self, zero_mul]
    intro h
    have h3 : 1 / 2 * m.pitch - -(1 / 2 * m.pitch) = m.pitch := by ring
    rw [h3] at h
    rcases mul_eq_zero.mp h.symm with h | h
    · linarith
    · exact hx (by linarith)
  · have hp := hm.pitch
    obtain ⟨_, hyb⟩ := hin
    obtain ⟨a, b⟩ := abs_le.mp hyb
    refine ⟨(c.y + m.pitch / 2) / m.pitch, div_nonneg (by linarith) hp.le, by rw [div_le_one hp]; linarith, ?_, ?_⟩
    · simp only []; rw [he]; ring
    · simp only []; field_simp; ring

theorem crossing_y (m : Rect ℝ) (hm : m.Valid) (p1 p2 : Pt ℝ) (hy : p1.y < p2.y) (c : Pt ℝ) (hc : OnRay p1 p2 c) (hin : m.Has c)
    (i : Nat) (h1 : 1 ≤ i) (h2 : i < m.ny) (he : c.y = grid m.pitch m.ny i) :
    c ∈ m.lines.filterMap fun li => meet li ⟨p1, p2⟩ := by
  apply List.mem_filterMap.mpr
  refine ⟨_, line_y_mem m i h1 h2, C62_found_partial _ _ ?_ c ?_ ((onRay_seg p1 p2 c).mpr hc)⟩
  · unfold Parallel
    have hp := hm.pitch
    simp only [sub_self, zero_mul]
    intro h
    have h3 : 1 / 2 * m.pitch - -(1 / 2 * m.pitch) = m.pitch := by ring
    rw [h3] at h
    rcases mul_eq_zero.mp h with h | h <;> linarith
  · have hp := hm.pitch
    obtain ⟨hxb, _⟩ := hin
    obtain ⟨a, b⟩ := abs_le.mp hxb
    refine ⟨(c.x + m.pitch / 2) / m.pitch, div_nonneg (by linarith) hp.le, by rw [div_le_one hp]; linarith, ?_, ?_⟩
    · simp only []; field_simp; ring
    · simp only []; rw [he]; ring

/-- If the cell index of one coordinate differs between two values, a grid line separates them. -/
theorem lowerGrid_sep (pitch : ℝ) (hp : 0 < pitch) (n : Nat) (x x' : ℝ) (h : lowerGrid pitch n x < lowerGrid pitch n x') :
    ∃ i, i ≤ n ∧ x ≤ grid pitch n i ∧ grid pitch n i < x' := by
  obtain ⟨_, _, c⟩ := lowerGrid_spec pitch hp n x
  obtain ⟨a', b', _⟩ := lowerGrid_spec pitch hp n x'
  exact ⟨lowerGrid pitch n x, by omega, c _ (le_refl _) (by omega), b' _ h⟩

theorem has_convex (m : Rect ℝ) (a b q : Pt ℝ) (ha : m.Has a) (hb : m.Has b) (hq : OnRay a b q) : m.Has q := by
  obtain ⟨t, h0, h1, rfl⟩ := hq
  obtain ⟨a1, a2⟩ := ha
  obtain ⟨b1, b2⟩ := hb
  rw [abs_le] at a1 a2 b1 b2
  unfold Rect.Has onRay
  simp only [abs_le]
  refine ⟨⟨?_, ?_⟩, ⟨?_, ?_⟩⟩ <;> nlinarith [a1.1, a1.2, a2.1, a2.2, b1.1, b1.2, b2.1, b2.2]

theorem onRay_trans (p1 p2 a b q : Pt ℝ) (ha : OnRay p1 p2 a) (hb : OnRay p1 p2 b) (hq : OnRay a b q) : OnRay p1 p2 q := by
  obtain ⟨s, s0, s1, rfl⟩ := ha
  obtain ⟨t, t0, t1, rfl⟩ := hb
  obtain ⟨u, u0, u1, rfl⟩ := hq
  refine ⟨s + u * (t - s), by nlinarith, by nlinarith, ?_⟩
  simp only [onRay, Pt.mk.injEq]
  constructor <;> ring

/-- Two points strictly within a piece that contains no cut are in the same column. -/
theorem same_index (pitch : ℝ) (hp : 0 < pitch) (n : Nat) (u v : ℝ) (hu : |u| ≤ pitch / 2) (hv : |v| ≤ pitch / 2)
    (hcut : ∀ i, 1 ≤ i → i < n → ∀ t, 0 < t → t < 1 → u ≠ v → u + t * (v - u) ≠ grid pitch n i) (s t : ℝ) (hs : 0 < s) (hs' : s < 1)
    (ht : 0 < t) (ht' : t < 1) : ¬ lowerGrid pitch n (u + s * (v - u)) < lowerGrid pitch n (u + t * (v - u)) := by
  intro h
  obtain ⟨i, hi, h1, h2⟩ := lowerGrid_sep pitch hp n _ _ h
  obtain ⟨ua, ub⟩ := abs_le.mp hu
  obtain ⟨va, vb⟩ := abs_le.mp hv
  have hne : u ≠ v := by
    intro e
    subst e
    simp only [sub_self, mul_zero, add_zero] at h1 h2
    linarith
  have hd : v - u ≠ 0 := sub_ne_zero.mpr (Ne.symm hne)
  -- parameter of the grid line
  have key : ∃ w, 0 < w ∧ w < 1 ∧ u + w * (v - u) = grid pitch n i := by
    refine ⟨(grid pitch n i - u) / (v - u), ?_, ?_, ?_⟩
    · rcases lt_or_gt_of_ne hd with hneg | hpos
      · rw [lt_div_iff_of_neg hneg]; nlinarith
      · rw [lt_div_iff₀ hpos]; nlinarith
    · rcases lt_or_gt_of_ne hd with hneg | hpos
      · rw [div_lt_iff_of_neg hneg]; nlinarith
      · rw [div_lt_iff₀ hpos]; nlinarith
    · rw [div_mul_cancel₀ _ hd]; ring
  obtain ⟨w, w0, w1, we⟩ := key
  have inner1 : -(pitch / 2) < u + w * (v - u) := by
    rcases lt_or_gt_of_ne hd with hneg | hpos <;> nlinarith
  have inner2 : u + w * (v - u) < pitch / 2 := by
    rcases lt_or_gt_of_ne hd with hneg | hpos <;> nlinarith
  have hi1 : 1 ≤ i := by
    rcases Nat.eq_zero_or_pos i with h0 | h0
    · exfalso
      rw [we, h0] at inner1
      unfold grid at inner1
      push_cast at inner1
      linarith
    · exact h0
  have hi2 : i < n := by
    rcases Nat.lt_or_ge i n with h0 | h0
    · exact h0
    · exfalso
      have e : i = n := by omega
      have hn : (0 : ℝ) < n := by exact_mod_cast (by omega : 0 < n)
      rw [we, e] at inner2
      unfold grid at inner2
      rw [mul_div_cancel₀ _ (ne_of_gt hn)] at inner2
      linarith
  exact hcut i hi1 hi2 w w0 w1 hne we

theorem between_has (m : Rect ℝ) (a b q : Pt ℝ) (ha : m.Has a) (hb : m.Has b) (h : Between a b q) : m.Has q := by
  obtain ⟨t, h0, h1, e⟩ := h
  exact has_convex m a b q ha hb ⟨t, h0.le, h1.le, e⟩

/-- C71: the pieces.  With exact comparison of points, a ray upwards through the pin is divided at points `Q` from the entry to
the exit, in order; each piece has its length and the region in which all of its inner points are. -/
theorem C71_pieces_partial (m : Rect ℝ) (hm : m.Valid) (sort : List (Pt ℝ) → List (Pt ℝ)) (hsort : SortsByY sort)
    (eq : Pt ℝ → Pt ℝ → Bool) (heq : ∀ a b, eq a b = true ↔ a = b) (p1 p2 : Pt ℝ) (hy : p1.y < p2.y) (h1 : m.Has p1) (h2 : m.Has p2)
    (first : Int) :
    ∃ Q : List (Pt ℝ), Q.head? = some p1 ∧ Q.getLast? = some p2 ∧ (∀ q ∈ Q, OnRay p1 p2 q) ∧
      m.trace sort eq dist2 p1 p2 first = (Q.zip Q.tail).map (fun ab => (dist2 ab.2 ab.1, m.findReg (midpoint ab.2 ab.1) + first)) ∧
      ∀ a b, (a, b) ∈ Q.zip Q.tail → a.y < b.y ∧ ∀ q, Between a b q → m.findReg q = m.findReg (midpoint b a) := by
  have k := kept_of sort hsort eq p1 p2 hy _ (cuts_onRay m.lines p1 p2)
  set Q := unique eq (sort (p1 :: p2 :: m.lines.filterMap fun li => meet li ⟨p1, p2⟩)) with hQ
  have hall : ∀ q ∈ Q, OnRay p1 p2 q := by
    intro q hq
    rcases List.mem_cons.mp (k.sub q hq) with rfl | h
    · exact ⟨0, le_refl _, zero_le_one, by simp [onRay]⟩
    · rcases List.mem_cons.mp h with rfl | h
      · exact ⟨1, zero_le_one, le_refl _, by simp [onRay]⟩
      · exact cuts_onRay m.lines p1 p2 q h
  refine ⟨Q, ?_, ?_, hall, ?_, ?_⟩
  · rw [List.head?_eq_some_head k.ne, k.head]
  · rw [List.getLast?_eq_some_getLast k.ne]
    rcases k.last with h | h
    · rw [h]
    · rw [(heq _ _).mp h]
  · unfold Rect.trace
    rw [pieces_zip]
  · intro a b hab
    have ha : a ∈ Q := (List.of_mem_zip hab).1
    have hb : b ∈ Q := List.mem_of_mem_tail (List.of_mem_zip hab).2
    have hab' : a.y ≤ b.y := by
      have := k.ordered
      rcases hq : Q with _ | ⟨c, cs⟩
      · rw [hq] at ha; cases ha
      · rw [hq] at hab this
        have pz : ∀ (l : List (Pt ℝ)), l.Pairwise (fun a b => ¬ b.y < a.y) → (a, b) ∈ l.zip l.tail → a.y ≤ b.y := by
          intro l
          induction l with
          | nil => intro _ h; cases h
          | cons x xs ih =>
            intro hp h
            cases xs with
            | nil => simp at h
            | cons y ys =>
              rw [List.tail_cons, List.zip_cons_cons] at h
              rcases List.mem_cons.mp h with e | h
              · rw [Prod.mk.injEq] at e
                rw [e.1, e.2]
                exact not_lt.mp ((List.pairwise_cons.mp hp).1 y List.mem_cons_self)
              · exact ih (List.pairwise_cons.mp hp).2 h
        exact pz _ this hab
    have hra := hall a ha
    have hrb := hall b hb
    have hne0 : a ≠ b := by
      intro e
      have := k.apart a b hab
      rw [(heq a b).mpr e] at this
      cases this
    have hyab : a.y < b.y := by
      rcases lt_or_eq_of_le hab' with h | h
      · exact h
      · exfalso
        obtain ⟨s, _, _, es⟩ := hra
        obtain ⟨s', _, _, es'⟩ := hrb
        have h3 : (onRay p1 p2 s).y ≤ (onRay p1 p2 s').y := by rw [← es, ← es', h]
        have h4 : (onRay p1 p2 s').y ≤ (onRay p1 p2 s).y := by rw [← es, ← es', h]
        rw [onRay_y_inj p1 p2 hy] at h3 h4
        exact hne0 (by rw [es, es', le_antisymm h3 h4])
    refine ⟨hyab, ?_⟩
    have hma := has_convex m p1 p2 a h1 h2 hra
    have hmb := has_convex m p1 p2 b h1 h2 hrb
    -- no cut strictly within the piece
    have nocut : ∀ t, 0 < t → t < 1 → onRay a b t ∉ m.lines.filterMap fun li => meet li ⟨p1, p2⟩ := by
      intro t t0 t1 hmem
      rcases k.gap a b hab (onRay a b t) (List.mem_cons_of_mem _ (List.mem_cons_of_mem _ hmem)) with h | h | h
      · simp only [onRay] at h; nlinarith
      · simp only [onRay] at h; nlinarith
      · rw [heq] at h
        have h5 : a.y = a.y + t * (b.y - a.y) := by
          conv_lhs => rw [h]
          rfl
        nlinarith
    have hxy : ∀ t, 0 ≤ t → t ≤ 1 → OnRay p1 p2 (onRay a b t) ∧ m.Has (onRay a b t) := by
      intro t t0 t1
      exact ⟨onRay_trans p1 p2 a b _ hra hrb ⟨t, t0, t1, rfl⟩, has_convex m a b _ hma hmb ⟨t, t0, t1, rfl⟩⟩
    have cutx : ∀ i, 1 ≤ i → i < m.nx → ∀ t, 0 < t → t < 1 → a.x ≠ b.x → a.x + t * (b.x - a.x) ≠ grid m.pitch m.nx i := by
      intro i i1 i2 t t0 t1 hne he
      obtain ⟨r1, r2⟩ := hxy t t0.le t1.le
      have hpx : p1.x ≠ p2.x := by
        intro e
        apply hne
        obtain ⟨s, _, _, es⟩ := hra
        obtain ⟨s', _, _, es'⟩ := hrb
        rw [es, es']
        simp only [onRay, e, sub_self, mul_zero]
      exact nocut t t0 t1 (crossing_x m hm p1 p2 hpx (onRay a b t) r1 r2 i i1 i2 he)
    have cuty : ∀ i, 1 ≤ i → i < m.ny → ∀ t, 0 < t → t < 1 → a.y ≠ b.y → a.y + t * (b.y - a.y) ≠ grid m.pitch m.ny i := by
      intro i i1 i2 t t0 t1 hne he
      obtain ⟨r1, r2⟩ := hxy t t0.le t1.le
      exact nocut t t0 t1 (crossing_y m hm p1 p2 hy (onRay a b t) r1 r2 i i1 i2 he)
    have hmid : midpoint b a = onRay a b (1 / 2) := by
      simp only [midpoint, onRay, Pt.mk.injEq]
      constructor <;> ring
    have idx : ∀ t, 0 < t → t < 1 → lowerGrid m.pitch m.nx (onRay a b t).x = lowerGrid m.pitch m.nx (onRay a b (1 / 2)).x ∧
        lowerGrid m.pitch m.ny (onRay a b t).y = lowerGrid m.pitch m.ny (onRay a b (1 / 2)).y := by
      intro t t0 t1
      constructor
      · have n1 := same_index m.pitch hm.pitch m.nx a.x b.x hma.1 hmb.1 cutx t (1 / 2) t0 t1 (by norm_num) (by norm_num)
        have n2 := same_index m.pitch hm.pitch m.nx a.x b.x hma.1 hmb.1 cutx (1 / 2) t (by norm_num) (by norm_num) t0 t1
        exact le_antisymm (not_lt.mp n2) (not_lt.mp n1)
      · have n1 := same_index m.pitch hm.pitch m.ny a.y b.y hma.2 hmb.2 cuty t (1 / 2) t0 t1 (by norm_num) (by norm_num)
        have n2 := same_index m.pitch hm.pitch m.ny a.y b.y hma.2 hmb.2 cuty (1 / 2) t (by norm_num) (by norm_num) t0 t1
        exact le_antisymm (not_lt.mp n2) (not_lt.mp n1)
    rintro q ⟨t, t0, t1, rfl⟩
    rw [hmid]
    obtain ⟨e1, e2⟩ := idx t t0 t1
    obtain ⟨_, q1, q2⟩ := hxy t t0.le t1.le
    obtain ⟨_, q3, q4⟩ := hxy (1 / 2) (by norm_num) (by norm_num)
    unfold Rect.findReg
    rw [if_neg (by linarith), if_neg (by linarith), if_neg (by linarith), if_neg (by linarith), e1, e2]

/-- C71, the full claim: the lengths of the pieces add up to the length of the ray, whatever its direction. -/
def C71_claim : Prop := ∀ (m : Rect ℝ), m.Valid → ∀ (sort : List (Pt ℝ) → List (Pt ℝ)), SortsByY sort →
  ∀ (eq : Pt ℝ → Pt ℝ → Bool), (∀ a b, eq a b = true ↔ a = b) → ∀ p1 p2 : Pt ℝ, m.Has p1 → m.Has p2 → ∀ first,
  ((m.trace sort eq dist2 p1 p2 first).map Prod.fst).sum = dist2 p2 p1

/-- A sorting procedure for the points exists. -/
theorem mergeSort_sorts : SortsByY (fun l : List (Pt ℝ) => l.mergeSort (fun a b => decide (a.y ≤ b.y))) := by
  constructor
  · intro l; exact List.mergeSort_perm l _
  · intro l
    have := List.pairwise_mergeSort (le := fun a b : Pt ℝ => decide (a.y ≤ b.y))
      (by intro a b c h1 h2; simp only [decide_eq_true_eq] at *; linarith)
      (by intro a b; simp only [Bool.or_eq_true, decide_eq_true_eq]; exact le_total _ _) l
    apply List.Pairwise.imp _ this
    intro a b h
    simp only [decide_eq_true_eq] at h
    exact not_lt.mpr h

/-- Points of equal height may be left as they are. -/
theorem mergeSort_flat (l : List (Pt ℝ)) (h : ∀ a ∈ l, a.y = 0) : l.mergeSort (fun a b => decide (a.y ≤ b.y)) = l := by
  apply List.mergeSort_of_pairwise
  apply List.pairwise_of_forall_mem_list
  intro a ha b hb
  rw [h a ha, h b hb]
  simp

/-- C71 is false for horizontal rays: their points compare as equivalent and need not be put in order.  From (-1, 0) to (1, 0)
through a pin of two columns the lengths are 2 and 1. -/
theorem C71_claim_false : ¬ C71_claim := by
  classical
  intro h
  have hv : (⟨2, 2, 1⟩ : Rect ℝ).Valid := ⟨by norm_num, by norm_num, by norm_num⟩
  have h1 := h ⟨2, 2, 1⟩ hv _ mergeSort_sorts (fun a b => decide (a = b)) (by intro a b; simp) ⟨-1, 0⟩ ⟨1, 0⟩
    (by norm_num [Rect.Has]) (by norm_num [Rect.Has]) 0
  have hl : (⟨2, 2, 1⟩ : Rect ℝ).lines = [⟨⟨0, -1⟩, ⟨0, 1⟩⟩] := by
    norm_num [Rect.lines, grid, List.range']
  have hmeet : meet (⟨⟨0, -1⟩, ⟨0, 1⟩⟩ : Line ℝ) ⟨⟨-1, 0⟩, ⟨1, 0⟩⟩ = some ⟨0, 0⟩ := by
    apply C62_found_partial
    · norm_num [Parallel]
    · exact ⟨1 / 2, by norm_num, by norm_num, by norm_num, by norm_num⟩
    · exact ⟨1 / 2, by norm_num, by norm_num, by norm_num, by norm_num⟩
  unfold Rect.trace at h1
  rw [hl] at h1
  simp only [List.filterMap_cons, List.filterMap_nil, hmeet] at h1
  rw [mergeSort_flat _ (by
    intro a ha
    simp only [List.mem_cons, List.not_mem_nil, or_false] at ha
    rcases ha with rfl | rfl | rfl <;> rfl)] at h1
  have e1 : decide ((⟨-1, 0⟩ : Pt ℝ) = ⟨1, 0⟩) = false := by
    rw [decide_eq_false_iff_not, Pt.mk.injEq]; norm_num
  have e2 : decide ((⟨1, 0⟩ : Pt ℝ) = ⟨0, 0⟩) = false := by
    rw [decide_eq_false_iff_not, Pt.mk.injEq]; norm_num
  simp only [unique, uniqueFrom, e1, e2, Bool.false_eq_true, if_false, pieces, List.map_cons, List.map_nil, List.sum_cons,
    List.sum_nil] at h1
  have d1 : dist2 ⟨1, 0⟩ ⟨-1, 0⟩ = 2 := by
    unfold dist2
    rw [show ((1 : ℝ) - -1) * (1 - -1) + (0 - 0) * (0 - 0) = 2 ^ 2 by norm_num, Real.sqrt_sq (by norm_num)]
  have d2 : dist2 ⟨0, 0⟩ ⟨1, 0⟩ = 1 := by
    unfold dist2
    rw [show ((0 : ℝ) - 1) * (0 - 1) + (0 - 0) * (0 - 0) = 1 ^ 2 by norm_num, Real.sqrt_sq (by norm_num)]
  rw [d1, d2] at h1
  norm_num at h1

/-- The hypotheses can be met: a ray of slope 1 / 2 through a pin of 2 by 2 cells. -/
example : (⟨2, 2, 2⟩ : Rect ℝ).Valid ∧ (⟨2, 2, 2⟩ : Rect ℝ).Has ⟨-1, -1 / 2⟩ ∧ (⟨2, 2, 2⟩ : Rect ℝ).Has ⟨1, 1 / 2⟩ :=
  ⟨⟨by norm_num, by norm_num, by norm_num⟩, by norm_num [Rect.Has, abs_le], by norm_num [Rect.Has, abs_le]⟩

end Verif.PinMesh
