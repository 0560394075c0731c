import Verif.Geom.Model
import Mathlib.Analysis.Real.Sqrt
import Mathlib.Tactic.Ring
import Mathlib.Tactic.Linarith
import Mathlib.Tactic.NormNum
import Mathlib.Tactic.FieldSimp
import Mathlib.Tactic.Positivity
import Mathlib.Tactic.LinearCombination

/-! # C63: intersection of a segment and a circle -/

namespace Verif.Geom

/-- `q` lies strictly between the end points of `l`. -/
def Within (l : Line ℝ) (q : Pt ℝ) : Prop := ∃ t : ℝ, 0 < t ∧ t < 1 ∧
  q.x = (1 - t) * l.p1.x + t * l.p2.x ∧ q.y = (1 - t) * l.p1.y + t * l.p2.y

/-- Square of the distance from the centre. -/
def fromCentre (circ : Circle ℝ) (q : Pt ℝ) : ℝ := (q.x - circ.c.x) ^ 2 + (q.y - circ.c.y) ^ 2

/-- The coefficients of the quadratic equation. -/
structure Quadratic (l : Line ℝ) (circ : Circle ℝ) (a b c : ℝ) : Prop where
  ha : a = (l.p2.x - l.p1.x) * (l.p2.x - l.p1.x) + (l.p2.y - l.p1.y) * (l.p2.y - l.p1.y)
  hb : b = (l.p1.x - circ.c.x) * (l.p2.x - l.p1.x) + (l.p1.y - circ.c.y) * (l.p2.y - l.p1.y)
  hc : c = (l.p1.x - circ.c.x) * (l.p1.x - circ.c.x) + (l.p1.y - circ.c.y) * (l.p1.y - circ.c.y) - circ.r * circ.r
  pos : 0 < a

theorem quadratic_exists (l : Line ℝ) (circ : Circle ℝ) (h : l.p1 ≠ l.p2) : ∃ a b c, Quadratic l circ a b c := by
  refine ⟨_, _, _, rfl, rfl, rfl, ?_⟩
  by_contra hn
  apply h
  have h1 := mul_self_nonneg (l.p2.x - l.p1.x)
  have h2 := mul_self_nonneg (l.p2.y - l.p1.y)
  have e1 : l.p2.x - l.p1.x = 0 := mul_self_eq_zero.mp (by linarith)
  have e2 : l.p2.y - l.p1.y = 0 := mul_self_eq_zero.mp (by linarith)
  obtain ⟨⟨x1, y1⟩, ⟨x2, y2⟩⟩ := l
  simp only at e1 e2
  simp only [Pt.mk.injEq]
  exact ⟨by linarith, by linarith⟩

theorem fromCentre_along {l : Line ℝ} {circ : Circle ℝ} {a b c : ℝ} (q : Quadratic l circ a b c) (t : ℝ) :
    fromCentre circ (along l t) - circ.r ^ 2 = a * t ^ 2 + 2 * b * t + c := by
  rw [q.ha, q.hb, q.hc]
  simp only [fromCentre, along]
  ring

/-- The test for tangents never succeeds. -/
theorem equivRel_zero (fuzz v : ℝ) (hf : fuzz ≤ 1) : equivRel fuzz v 0 = false := by
  unfold equivRel fdiv
  rw [sub_zero]
  by_cases h : |v| = 0
  · rw [if_pos h]
  · rw [if_neg h, div_self h]
    simpa using hf

theorem hitCircle_eq {l : Line ℝ} {circ : Circle ℝ} {a b c : ℝ} (q : Quadratic l circ a b c) (fuzz : ℝ) (hf : fuzz ≤ 1) :
    hitCircle Real.sqrt fuzz l circ = if (0 < c ∧ 0 < b) ∨ b * b - a * c < 0 then Hits.miss else
      collect l (some ((-b - Real.sqrt (b * b - a * c)) * (1 / a))) (some ((-b + Real.sqrt (b * b - a * c)) * (1 / a))) := by
  unfold hitCircle
  simp only [← q.ha, ← q.hb, ← q.hc, equivRel_zero _ _ hf, fdiv, if_neg (ne_of_gt q.pos), Option.map_some]
  by_cases h1 : 0 < c ∧ 0 < b
  · rw [if_pos h1, if_pos (Or.inl h1)]
  · by_cases h2 : b * b - a * c < 0
    · rw [if_neg h1, if_pos h2, if_pos (Or.inr h2)]
    · rw [if_neg h1, if_neg h2, if_neg Bool.false_ne_true, if_neg (not_or.mpr ⟨h1, h2⟩)]

/-- The roots and the factorisation. -/
structure Roots (a b c t1 t2 : ℝ) : Prop where
  factor : ∀ t, a * t ^ 2 + 2 * b * t + c = a * ((t - t1) * (t - t2))
  le : t1 ≤ t2
  lt : 0 < b * b - a * c → t1 < t2

theorem roots {l : Line ℝ} {circ : Circle ℝ} {a b c : ℝ} (q : Quadratic l circ a b c) (h : ¬ b * b - a * c < 0) :
    Roots a b c ((-b - Real.sqrt (b * b - a * c)) * (1 / a)) ((-b + Real.sqrt (b * b - a * c)) * (1 / a)) := by
  have hs := Real.sq_sqrt (le_of_not_gt h)
  have hn := Real.sqrt_nonneg (b * b - a * c)
  have hp : 0 < b * b - a * c → 0 < Real.sqrt (b * b - a * c) := Real.sqrt_pos.mpr
  have ha := q.pos
  generalize Real.sqrt (b * b - a * c) = d at *
  have hi : 0 < 1 / a := by positivity
  refine ⟨fun t => ?_, ?_, fun h => ?_⟩
  · field_simp
    linear_combination hs
  · exact mul_le_mul_of_nonneg_right (by linarith) hi.le
  · exact mul_lt_mul_of_pos_right (by linarith [hp h]) hi

/-- The possible results. -/
theorem hit_cases {l : Line ℝ} {circ : Circle ℝ} {a b c : ℝ} (q : Quadratic l circ a b c) (fuzz : ℝ) (hf : fuzz ≤ 1) :
    (hitCircle Real.sqrt fuzz l circ = Hits.miss ∧ ∀ t, 0 < t → t < 1 → a * t ^ 2 + 2 * b * t + c ≠ 0) ∨
    (¬ b * b - a * c < 0 ∧ ∃ t1 t2, Roots a b c t1 t2 ∧ hitCircle Real.sqrt fuzz l circ = collect l (some t1) (some t2)) := by
  rw [hitCircle_eq q fuzz hf]
  by_cases h : (0 < c ∧ 0 < b) ∨ b * b - a * c < 0
  · rw [if_pos h]
    refine Or.inl ⟨rfl, fun t h0 _ e => ?_⟩
    have ha := q.pos
    rcases h with ⟨hc, hb⟩ | h
    · have : 0 < a * t ^ 2 + 2 * b * t + c := by positivity
      linarith
    · nlinarith [sq_nonneg (a * t + b)]
  · rw [if_neg h]
    exact Or.inr ⟨fun h' => h (Or.inr h'), _, _, roots q (fun h' => h (Or.inr h')), rfl⟩

theorem within_along {l : Line ℝ} {t : ℝ} (h0 : 0 < t) (h1 : t < 1) : Within l (along l t) :=
  ⟨t, h0, h1, by simp only [along]; ring, by simp only [along]; ring⟩

theorem unitOpen_some (t : ℝ) : unitOpen (some t) = true ↔ 0 < t ∧ t < 1 := by simp [unitOpen]

theorem sound_aux {l : Line ℝ} {t1 t2 : ℝ} {p : Pt ℝ} (h : (collect l (some t1) (some t2)).p1 = some p ∨
    (collect l (some t1) (some t2)).p2 = some p) :
    (p = along l t1 ∧ 0 < t1 ∧ t1 < 1) ∨ (p = along l t2 ∧ 0 < t2 ∧ t2 < 1) := by
  unfold collect at h
  by_cases h1 : unitOpen (some t1) = true
  · by_cases h2 : unitOpen (some t2) = true
    · rw [if_pos h1, if_pos h2] at h
      simp only [Option.map_some, Option.some.injEq] at h
      rcases h with h | h
      · exact Or.inl ⟨h.symm, (unitOpen_some _).mp h1⟩
      · exact Or.inr ⟨h.symm, (unitOpen_some _).mp h2⟩
    · rw [if_pos h1, if_neg h2] at h
      simp only [Option.map_some, Option.some.injEq, reduceCtorEq, or_false] at h
      exact Or.inl ⟨h.symm, (unitOpen_some _).mp h1⟩
  · by_cases h2 : unitOpen (some t2) = true
    · rw [if_neg h1, if_pos h2] at h
      simp only [Option.map_some, Option.some.injEq, reduceCtorEq, or_false] at h
      exact Or.inr ⟨h.symm, (unitOpen_some _).mp h2⟩
    · rw [if_neg h1, if_neg h2] at h
      simp at h

/-- C63: the points returned are on the circle and strictly within the segment. -/
theorem C63_sound (fuzz : ℝ) (hf : fuzz ≤ 1) (l : Line ℝ) (circ : Circle ℝ) (hl : l.p1 ≠ l.p2) (p : Pt ℝ)
    (h : (hitCircle Real.sqrt fuzz l circ).p1 = some p ∨ (hitCircle Real.sqrt fuzz l circ).p2 = some p) :
    fromCentre circ p = circ.r ^ 2 ∧ Within l p := by
  obtain ⟨a, b, c, q⟩ := quadratic_exists l circ hl
  rcases hit_cases q fuzz hf with ⟨e, _⟩ | ⟨_, t1, t2, r, e⟩
  · rw [e] at h; simp [Hits.miss] at h
  · rw [e] at h
    have on : ∀ t, (t = t1 ∨ t = t2) → fromCentre circ (along l t) = circ.r ^ 2 := by
      intro t ht
      have h1 := fromCentre_along q t
      rw [r.factor] at h1
      rcases ht with rfl | rfl
      · rw [sub_self, zero_mul, mul_zero] at h1; linarith
      · rw [sub_self, mul_zero, mul_zero] at h1; linarith
    rcases sound_aux h with ⟨rfl, h0, h1⟩ | ⟨rfl, h0, h1⟩
    · exact ⟨on _ (Or.inl rfl), within_along h0 h1⟩
    · exact ⟨on _ (Or.inr rfl), within_along h0 h1⟩

/-- C63: every point of the circle strictly within the segment is returned. -/
theorem C63_complete (fuzz : ℝ) (hf : fuzz ≤ 1) (l : Line ℝ) (circ : Circle ℝ) (hl : l.p1 ≠ l.p2) (p : Pt ℝ)
    (hc : fromCentre circ p = circ.r ^ 2) (hw : Within l p) :
    (hitCircle Real.sqrt fuzz l circ).p1 = some p ∨ (hitCircle Real.sqrt fuzz l circ).p2 = some p := by
  obtain ⟨a, b, c, q⟩ := quadratic_exists l circ hl
  obtain ⟨t, h0, h1, ex, ey⟩ := hw
  have ep : p = along l t := by
    obtain ⟨px, py⟩ := p
    simp only at ex ey
    simp only [along, ex, ey]
    congr 1 <;> ring
  have hz := fromCentre_along q t
  rw [← ep, hc, sub_self] at hz
  rcases hit_cases q fuzz hf with ⟨_, hn⟩ | ⟨_, t1, t2, r, e⟩
  · exact absurd hz.symm (hn t h0 h1)
  · rw [r.factor] at hz
    have hz' : t = t1 ∨ t = t2 := by
      rcases mul_eq_zero.mp hz.symm with h | h
      · exact absurd h (ne_of_gt q.pos)
      · rcases mul_eq_zero.mp h with h | h
        · exact Or.inl (by linarith)
        · exact Or.inr (by linarith)
    rw [e, ep]
    unfold collect
    have hu := (unitOpen_some t).mpr ⟨h0, h1⟩
    rcases hz' with rfl | rfl
    · rw [if_pos hu]
      by_cases h2 : unitOpen (some t2) = true
      · rw [if_pos h2]; exact Or.inl rfl
      · rw [if_neg h2]; exact Or.inl rfl
    · rw [if_pos hu, if_pos hu]
      by_cases h1' : unitOpen (some t1) = true
      · rw [if_pos h1']; exact Or.inr rfl
      · rw [if_neg h1']; exact Or.inl rfl

/-- C63: the return value is the number of points assigned; the first is assigned before the second. -/
theorem C63_count_partial (fuzz : ℝ) (l : Line ℝ) (circ : Circle ℝ) :
    (hitCircle Real.sqrt fuzz l circ).ret =
      (hitCircle Real.sqrt fuzz l circ).p1.toList.length + (hitCircle Real.sqrt fuzz l circ).p2.toList.length ∧
    ((hitCircle Real.sqrt fuzz l circ).p2 ≠ none → (hitCircle Real.sqrt fuzz l circ).p1 ≠ none) := by
  have hcol : ∀ t1 t2 : Option ℝ, (collect l t1 t2).ret =
      (collect l t1 t2).p1.toList.length + (collect l t1 t2).p2.toList.length ∧
      ((collect l t1 t2).p2 ≠ none → (collect l t1 t2).p1 ≠ none) := by
    intro t1 t2
    unfold collect
    have open_some : ∀ t : Option ℝ, unitOpen t = true → ∃ x, t = some x := by
      intro t h
      cases t with
      | none => simp [unitOpen] at h
      | some x => exact ⟨x, rfl⟩
    by_cases h1 : unitOpen t1 = true
    · obtain ⟨x, rfl⟩ := open_some _ h1
      by_cases h2 : unitOpen t2 = true
      · obtain ⟨y, rfl⟩ := open_some _ h2
        rw [if_pos h1, if_pos h2]; simp
      · rw [if_pos h1, if_neg h2]; simp
    · by_cases h2 : unitOpen t2 = true
      · obtain ⟨y, rfl⟩ := open_some _ h2
        rw [if_neg h1, if_pos h2]; simp
      · rw [if_neg h1, if_neg h2]; simp
  have hmiss : (Hits.miss : Hits ℝ).ret = (Hits.miss : Hits ℝ).p1.toList.length + (Hits.miss : Hits ℝ).p2.toList.length ∧
      ((Hits.miss : Hits ℝ).p2 ≠ none → (Hits.miss : Hits ℝ).p1 ≠ none) := by simp [Hits.miss]
  unfold hitCircle
  simp only []
  split
  · exact hmiss
  · split
    · exact hmiss
    · split
      · exact hmiss
      · exact hcol _ _

/-- C63: with two points the first is the one nearer to the start of the segment, and they differ unless the segment
touches the circle without crossing it. -/
theorem C63_order (fuzz : ℝ) (hf : fuzz ≤ 1) (l : Line ℝ) (circ : Circle ℝ) (hl : l.p1 ≠ l.p2) (p p' : Pt ℝ)
    (h : (hitCircle Real.sqrt fuzz l circ).p1 = some p) (h' : (hitCircle Real.sqrt fuzz l circ).p2 = some p') :
    ∃ t t', t ≤ t' ∧ p = along l t ∧ p' = along l t' ∧
      ((∃ s, fromCentre circ (along l s) < circ.r ^ 2) → t < t' ∧
        ∀ s, fromCentre circ (along l s) < circ.r ^ 2 ↔ t < s ∧ s < t') := by
  obtain ⟨a, b, c, q⟩ := quadratic_exists l circ hl
  rcases hit_cases q fuzz hf with ⟨e, _⟩ | ⟨_, t1, t2, r, e⟩
  · rw [e] at h; simp [Hits.miss] at h
  rw [e] at h h'
  have inside : ∀ s, fromCentre circ (along l s) < circ.r ^ 2 ↔ (s - t1) * (s - t2) < 0 := by
    intro s
    have h1 := fromCentre_along q s
    rw [r.factor] at h1
    have ha := q.pos
    constructor
    · intro h
      by_contra hn
      have := mul_nonneg ha.le (le_of_not_gt hn)
      linarith
    · intro h
      have := mul_neg_of_pos_of_neg ha h
      linarith
  have between : ∀ s, (s - t1) * (s - t2) < 0 ↔ t1 < s ∧ s < t2 := by
    intro s
    have hle := r.le
    rw [mul_neg_iff]
    constructor
    · rintro (⟨h1, h2⟩ | ⟨h1, h2⟩)
      · exact ⟨by linarith, by linarith⟩
      · exact absurd hle (by linarith)
    · rintro ⟨h1, h2⟩
      exact Or.inl ⟨by linarith, by linarith⟩
  refine ⟨t1, t2, r.le, ?_, ?_, ?_⟩
  · unfold collect at h h'
    by_cases h1 : unitOpen (some t1) = true
    · rw [if_pos h1] at h
      by_cases h2 : unitOpen (some t2) = true
      · rw [if_pos h2] at h; simpa using h.symm
      · rw [if_neg h2] at h; simpa using h.symm
    · rw [if_neg h1] at h'
      by_cases h2 : unitOpen (some t2) = true
      · rw [if_pos h2] at h'; simp at h'
      · rw [if_neg h2] at h'; simp at h'
  · unfold collect at h'
    by_cases h1 : unitOpen (some t1) = true
    · rw [if_pos h1] at h'
      by_cases h2 : unitOpen (some t2) = true
      · rw [if_pos h2] at h'; simpa using h'.symm
      · rw [if_neg h2] at h'; simp at h'
    · rw [if_neg h1] at h'
      by_cases h2 : unitOpen (some t2) = true
      · rw [if_pos h2] at h'; simp at h'
      · rw [if_neg h2] at h'; simp at h'
  · rintro ⟨s, hs⟩
    rw [inside, between] at hs
    exact ⟨by linarith, fun s => by rw [inside, between]⟩

/-- C63: the statement marked `assert(false)` is reached exactly if the segment starts in the disc, or on the circle
heading inwards, and ends outside.  A pin whose outermost radius is half the pitch admits such rays. -/
theorem C63_assert (fuzz : ℝ) (hf : fuzz ≤ 1) (l : Line ℝ) (circ : Circle ℝ) (hl : l.p1 ≠ l.p2) :
    (hitCircle Real.sqrt fuzz l circ).asserted = true ↔
      (fromCentre circ l.p1 < circ.r ^ 2 ∨ (fromCentre circ l.p1 = circ.r ^ 2 ∧
        ∃ t, 0 < t ∧ fromCentre circ (along l t) < circ.r ^ 2)) ∧ circ.r ^ 2 < fromCentre circ l.p2 := by
  obtain ⟨a, b, c, q⟩ := quadratic_exists l circ hl
  have ha := q.pos
  have e0 : fromCentre circ l.p1 - circ.r ^ 2 = c := by
    have := fromCentre_along q 0
    simp only [along, mul_zero, add_zero] at this
    rw [show fromCentre circ l.p1 = fromCentre circ ⟨l.p1.x, l.p1.y⟩ from rfl, this]; ring
  have e1 : fromCentre circ l.p2 - circ.r ^ 2 = a + 2 * b + c := by
    have := fromCentre_along q 1
    rw [show along l 1 = l.p2 by
      obtain ⟨⟨x1, y1⟩, ⟨x2, y2⟩⟩ := l
      simp only [along]
      congr 1 <;> ring] at this
    rw [this]; ring
  rcases hit_cases q fuzz hf with ⟨e, hn⟩ | ⟨hd, t1, t2, r, e⟩
  · rw [e]
    simp only [Hits.miss, Bool.false_eq_true, false_iff, not_and]
    intro h h1
    rw [hitCircle_eq q fuzz hf] at e
    by_cases hc : (0 < c ∧ 0 < b) ∨ b * b - a * c < 0
    · rcases hc with ⟨hc, _⟩ | hc
      · rcases h with h | ⟨h, _⟩ <;> linarith
      · have : c ≤ 0 := by rcases h with h | ⟨h, _⟩ <;> linarith
        nlinarith [mul_self_nonneg b]
    · rw [if_neg hc] at e
      have : (collect l (some ((-b - Real.sqrt (b * b - a * c)) * (1 / a)))
        (some ((-b + Real.sqrt (b * b - a * c)) * (1 / a)))).ok1 = true := by
        unfold collect; split <;> split <;> rfl
      rw [e] at this
      simp [Hits.miss] at this
  · rw [e]
    have f0 := r.factor 0
    have f1 := r.factor 1
    have hle := r.le
    have key : (collect l (some t1) (some t2)).asserted = true ↔ t1 ≤ 0 ∧ 0 < t2 ∧ t2 < 1 := by
      unfold collect
      by_cases h1 : unitOpen (some t1) = true
      · have h1' := (unitOpen_some _).mp h1
        rw [if_pos h1]
        constructor
        · intro h
          by_cases h2 : unitOpen (some t2) = true
          · rw [if_pos h2] at h; simp at h
          · rw [if_neg h2] at h; simp at h
        · rintro ⟨h, _⟩; linarith [h1'.1]
      · rw [if_neg h1]
        by_cases h2 : unitOpen (some t2) = true
        · rw [if_pos h2]
          have h2' := (unitOpen_some _).mp h2
          simp only [true_iff]
          refine ⟨?_, h2'⟩
          by_contra hh
          exact h1 ((unitOpen_some _).mpr ⟨not_le.mp hh, by linarith⟩)
        · rw [if_neg h2]
          simp only [Bool.false_eq_true, false_iff]
          rintro ⟨_, h⟩
          exact h2 ((unitOpen_some _).mpr h)
    rw [key]
    have c0 : c = a * (t1 * t2) := by linear_combination f0
    have c1 : a + 2 * b + c = a * ((1 - t1) * (1 - t2)) := by linear_combination f1
    constructor
    · rintro ⟨h1, h2, h3⟩
      constructor
      · rcases lt_or_eq_of_le h1 with h | h
        · left
          have : a * (t1 * t2) < 0 := mul_neg_of_pos_of_neg ha (mul_neg_of_neg_of_pos h h2)
          linarith
        · right
          refine ⟨by rw [c0, h] at e0; linarith, t2 / 2, by linarith, ?_⟩
          have := fromCentre_along q (t2 / 2)
          rw [r.factor, h] at this
          have hn : a * ((t2 / 2 - 0) * (t2 / 2 - t2)) < 0 := by
            apply mul_neg_of_pos_of_neg ha
            nlinarith
          linarith
      · have : 0 < a * ((1 - t1) * (1 - t2)) := mul_pos ha (mul_pos (by linarith) (by linarith))
        linarith
    · rintro ⟨h, h1⟩
      have hp : 0 < (1 - t1) * (1 - t2) := by
        have : 0 < a * ((1 - t1) * (1 - t2)) := by linarith
        exact (mul_pos_iff_of_pos_left ha).mp this
      have hcle : t1 * t2 ≤ 0 := by
        have : a * (t1 * t2) ≤ 0 := by rcases h with h | ⟨h, _⟩ <;> linarith
        by_contra hn
        have := mul_pos ha (not_le.mp hn)
        linarith
      have ht1 : t1 ≤ 0 := by
        by_contra hn
        have : 0 < t1 * t2 := mul_pos (not_le.mp hn) (by linarith [not_le.mp hn])
        linarith
      have ht2 : 0 ≤ t2 := by
        by_contra hn
        have : 0 < t1 * t2 := mul_pos_of_neg_of_neg (by linarith [not_le.mp hn]) (not_le.mp hn)
        linarith
      refine ⟨ht1, ?_, ?_⟩
      · rcases h with h | ⟨h, s, hs0, hs⟩
        · rcases lt_or_eq_of_le ht2 with h' | h'
          · exact h'
          · rw [← h', mul_zero, mul_zero] at c0; linarith
        · have := fromCentre_along q s
          rw [r.factor] at this
          have hneg : a * ((s - t1) * (s - t2)) < 0 := by linarith
          by_contra hn
          have : 0 ≤ a * ((s - t1) * (s - t2)) := mul_nonneg ha.le (mul_nonneg (by linarith) (by linarith))
          linarith
      · by_contra hn
        have : (1 - t1) * (1 - t2) ≤ 0 := mul_nonpos_of_nonneg_of_nonpos (by linarith) (by linarith)
        linarith

/-- C63, the full claim: the return value is the number of different points returned, a touching line gives none, and a
flag `ok` tells whether the point was assigned. -/
def C63_claim : Prop := ∀ (l : Line ℝ) (circ : Circle ℝ), l.p1 ≠ l.p2 →
  (∀ p, (hitCircle Real.sqrt (200 / 2 ^ 52) l circ).p1 = some p →
    (hitCircle Real.sqrt (200 / 2 ^ 52) l circ).p2 ≠ some p) ∧
  ((hitCircle Real.sqrt (200 / 2 ^ 52) l circ).ok1 = true ↔ (hitCircle Real.sqrt (200 / 2 ^ 52) l circ).p1 ≠ none) ∧
  ((hitCircle Real.sqrt (200 / 2 ^ 52) l circ).ok2 = true ↔ (hitCircle Real.sqrt (200 / 2 ^ 52) l circ).p2 ≠ none)

/-- A horizontal line at height `r`, touching a circle about the origin, gives the point of contact twice. -/
theorem C63_tangent_twice (r : ℝ) (hr : 0 < r) :
    (hitCircle Real.sqrt (200 / 2 ^ 52) ⟨⟨-r, r⟩, ⟨r, r⟩⟩ ⟨⟨0, 0⟩, r⟩).ret = 2 ∧
    (hitCircle Real.sqrt (200 / 2 ^ 52) ⟨⟨-r, r⟩, ⟨r, r⟩⟩ ⟨⟨0, 0⟩, r⟩).p1 = some ⟨0, r⟩ ∧
    (hitCircle Real.sqrt (200 / 2 ^ 52) ⟨⟨-r, r⟩, ⟨r, r⟩⟩ ⟨⟨0, 0⟩, r⟩).p2 = some ⟨0, r⟩ := by
  have q : Quadratic ⟨⟨-r, r⟩, ⟨r, r⟩⟩ ⟨⟨0, 0⟩, r⟩ (4 * r ^ 2) (-(2 * r ^ 2)) (r ^ 2) :=
    ⟨by simp only []; ring, by simp only []; ring, by simp only []; ring, by positivity⟩
  have hr2 : 0 < r ^ 2 := by positivity
  have hd : -(2 * r ^ 2) * -(2 * r ^ 2) - 4 * r ^ 2 * r ^ 2 = 0 := by ring
  have hm : -(-(2 * r ^ 2)) * (1 / (4 * r ^ 2)) = 1 / 2 := by field_simp; norm_num
  have hu : unitOpen (some (1 / 2 : ℝ)) = true := (unitOpen_some _).mpr (by norm_num)
  rw [hitCircle_eq q _ (by norm_num), if_neg (by rw [hd]; intro h; rcases h with ⟨_, h⟩ | h <;> linarith), hd,
    Real.sqrt_zero, sub_zero, add_zero, hm]
  unfold collect
  rw [if_pos hu, if_pos hu]
  have : along ⟨⟨-r, r⟩, ⟨r, r⟩⟩ (1 / 2 : ℝ) = ⟨0, r⟩ := by simp only [along]; congr 1 <;> ring
  simp only [Option.map_some, this, and_self]

/-- A segment that ends before the circle leaves both flags true without assigning a point. -/
theorem C63_flags (fuzz : ℝ) (hf : fuzz ≤ 1) :
    (hitCircle Real.sqrt fuzz ⟨⟨-3, 0⟩, ⟨-2, 0⟩⟩ ⟨⟨0, 0⟩, 1⟩).ret = 0 ∧
    (hitCircle Real.sqrt fuzz ⟨⟨-3, 0⟩, ⟨-2, 0⟩⟩ ⟨⟨0, 0⟩, 1⟩).ok1 = true ∧
    (hitCircle Real.sqrt fuzz ⟨⟨-3, 0⟩, ⟨-2, 0⟩⟩ ⟨⟨0, 0⟩, 1⟩).p1 = none := by
  have q : Quadratic ⟨⟨-3, 0⟩, ⟨-2, 0⟩⟩ ⟨⟨0, 0⟩, 1⟩ 1 (-3) 8 := ⟨by norm_num, by norm_num, by norm_num, by norm_num⟩
  rw [hitCircle_eq q _ hf, if_neg (by norm_num), show (-3 : ℝ) * -3 - 1 * 8 = 1 by norm_num, Real.sqrt_one]
  have h1 : unitOpen (some ((-(-3) - 1) * (1 / 1) : ℝ)) = false := by
    rw [Bool.eq_false_iff]; intro h; have := (unitOpen_some _).mp h; norm_num at this
  have h2 : unitOpen (some ((-(-3) + 1) * (1 / 1) : ℝ)) = false := by
    rw [Bool.eq_false_iff]; intro h; have := (unitOpen_some _).mp h; norm_num at this
  unfold collect
  rw [h1, h2]
  simp

/-- C63 is false: a touching line gives the same point twice. -/
theorem C63_claim_false : ¬ C63_claim := by
  intro h
  have h1 := (h ⟨⟨-1, 1⟩, ⟨1, 1⟩⟩ ⟨⟨0, 0⟩, 1⟩ (by simp; norm_num)).1 ⟨0, 1⟩
  obtain ⟨_, e1, e2⟩ := C63_tangent_twice 1 (by norm_num)
  exact h1 e1 e2

/-- The situation of `C63_assert` at a pin of pitch 2 with a ring of radius 1: the ray enters where the ring touches the
west side. -/
example : (hitCircle Real.sqrt (200 / 2 ^ 52) ⟨⟨-1, 0⟩, ⟨1, 1 / 2⟩⟩ ⟨⟨0, 0⟩, 1⟩).asserted = true := by
  rw [C63_assert _ (by norm_num) _ _ (by simp)]
  refine ⟨Or.inr ⟨by norm_num [fromCentre], 1 / 2, by norm_num, by norm_num [fromCentre, along]⟩, by norm_num [fromCentre]⟩

/-- A chord of the unit circle, with its two points. -/
example : ∃ p p', (hitCircle Real.sqrt (200 / 2 ^ 52) ⟨⟨-2, 3 / 5⟩, ⟨2, 3 / 5⟩⟩ ⟨⟨0, 0⟩, 1⟩).p1 = some p ∧
    (hitCircle Real.sqrt (200 / 2 ^ 52) ⟨⟨-2, 3 / 5⟩, ⟨2, 3 / 5⟩⟩ ⟨⟨0, 0⟩, 1⟩).p2 = some p' := by
  have hl : (⟨⟨-2, 3 / 5⟩, ⟨2, 3 / 5⟩⟩ : Line ℝ).p1 ≠ (⟨⟨-2, 3 / 5⟩, ⟨2, 3 / 5⟩⟩ : Line ℝ).p2 := by simp; norm_num
  have w1 := C63_complete (200 / 2 ^ 52) (by norm_num) ⟨⟨-2, 3 / 5⟩, ⟨2, 3 / 5⟩⟩ ⟨⟨0, 0⟩, 1⟩ hl ⟨-4 / 5, 3 / 5⟩
    (by norm_num [fromCentre]) ⟨3 / 10, by norm_num⟩
  have w2 := C63_complete (200 / 2 ^ 52) (by norm_num) ⟨⟨-2, 3 / 5⟩, ⟨2, 3 / 5⟩⟩ ⟨⟨0, 0⟩, 1⟩ hl ⟨4 / 5, 3 / 5⟩
    (by norm_num [fromCentre]) ⟨7 / 10, by norm_num⟩
  rcases w1 with w1 | w1
  · rcases w2 with w2 | w2
    · rw [w1] at w2; norm_num at w2
    · exact ⟨_, _, w1, w2⟩
  · rcases w2 with w2 | w2
    · exact ⟨_, _, w2, w1⟩
    · rw [w1] at w2; norm_num at w2

end Verif.Geom
