import Verif.Geom.Model
import Mathlib.Analysis.Real.Sqrt
import Mathlib.Algebra.Order.Field.Rat
import Mathlib.Tactic.Ring
import Mathlib.Tactic.Linarith
import Mathlib.Tactic.NormNum
import Mathlib.Tactic.FieldSimp
import Mathlib.Tactic.Positivity
import Mathlib.Tactic.LinearCombination

/-! # C64: distances to surfaces along a direction -/

namespace Verif.Geom

section
variable {K : Type} [Field K] [LinearOrder K]

/-- The position after travelling `s` from `p`. -/
def travel (p : Pt K) (dir : Dir K) (s : K) : Pt K := ⟨p.x + s * dir.ox, p.y + s * dir.oy⟩

/-- Twice the area of the triangle formed by the ends of `l` and `q`; zero on the straight line through the ends. -/
def offLine (l : Line K) (q : Pt K) : K :=
  (l.p2.x - l.p1.x) * (q.y - l.p1.y) - (l.p2.y - l.p1.y) * (q.x - l.p1.x)

/-- The rate of change of `offLine`. -/
def rate (l : Line K) (dir : Dir K) : K := (l.p2.x - l.p1.x) * dir.oy - (l.p2.y - l.p1.y) * dir.ox

theorem offLine_travel (l : Line K) (p : Pt K) (dir : Dir K) (s : K) :
    offLine l (travel p dir s) = offLine l p + s * rate l dir := by
  simp only [offLine, travel, rate]; ring

theorem lineDist_eq (fuzz : K) (l : Line K) (p : Pt K) (dir : Dir K) :
    lineDist fuzz l p dir false =
      if |rate l dir| < fuzz then none
      else if 0 < -offLine l p / rate l dir ∧ fuzz < |offLine l p| then some (-offLine l p / rate l dir) else none := by
  have h1 : dir.ox * (l.p1.y - l.p2.y) + dir.oy * (l.p2.x - l.p1.x) = rate l dir := by simp only [rate]; ring
  have h2 : (l.p1.y - l.p2.y) * p.x + (l.p2.x - l.p1.x) * p.y + (l.p1.x * l.p2.y - l.p2.x * l.p1.y) = offLine l p := by
    simp only [offLine]; ring
  unfold lineDist
  simp only [h1, h2, Bool.false_eq_true, if_false]
end

section
variable {K : Type} [Field K] [LinearOrder K] [IsStrictOrderedRing K]

/-- C64: a distance returned for a line is positive, leads onto the straight line, and there is no earlier contact. -/
theorem C64_line_hit (fuzz : K) (hf : 0 < fuzz) (l : Line K) (p : Pt K) (dir : Dir K) (co : Bool) (d : K)
    (h : lineDist fuzz l p dir co = some d) :
    0 < d ∧ offLine l (travel p dir d) = 0 ∧ ∀ s, s ≠ d → offLine l (travel p dir s) ≠ 0 := by
  cases co with
  | true => simp [lineDist] at h
  | false =>
  rw [lineDist_eq] at h
  split at h
  · cases h
  · rename_i hr
    split at h
    · rename_i hd
      rw [Option.some.injEq] at h
      have hr0 : rate l dir ≠ 0 := by
        intro e; rw [e, abs_zero] at hr; exact hr hf
      subst h
      refine ⟨hd.1, ?_, fun s hs e => hs ?_⟩
      · rw [offLine_travel, div_mul_cancel₀ _ hr0]; ring
      · rw [offLine_travel] at e
        rw [eq_div_iff hr0]; linear_combination e
    · cases h

/-- C64: if no distance is returned for a line, there is none: the direction is parallel to it, or the starting point is on
it, or the contact is behind.  Excluded are directions and points within the tolerance that are not exactly parallel or
exactly on the line. -/
theorem C64_line_miss (fuzz : K) (hf : 0 < fuzz) (l : Line K) (p : Pt K) (dir : Dir K)
    (hr : rate l dir = 0 ∨ fuzz ≤ |rate l dir|) (ho : offLine l p = 0 ∨ fuzz < |offLine l p|)
    (hn : ¬ (rate l dir = 0 ∧ offLine l p = 0)) (h : lineDist fuzz l p dir false = none) (s : K) (hs : 0 < s) :
    offLine l (travel p dir s) ≠ 0 := by
  rw [lineDist_eq] at h
  rw [offLine_travel]
  intro e
  rcases hr with hr | hr
  · rw [hr, mul_zero, add_zero] at e
    exact hn ⟨hr, e⟩
  · rw [if_neg (not_lt.mpr hr)] at h
    have hr0 : rate l dir ≠ 0 := by
      intro e; rw [e, abs_zero] at hr; exact absurd hf (not_lt.mpr hr)
    have hsd : -offLine l p / rate l dir = s := by
      rw [div_eq_iff hr0]; linear_combination -e
    rw [hsd] at h
    rcases ho with ho | ho
    · rw [ho, zero_add] at e
      rcases mul_eq_zero.mp e with e | e
      · exact absurd hs (by rw [e]; exact lt_irrefl _)
      · exact hr0 e
    · rw [if_pos ⟨hs, ho⟩] at h; cases h

omit [IsStrictOrderedRing K] in
/-- C64: a surface the point is declared coincident with is never hit. -/
theorem C64_line_coincident (fuzz : K) (l : Line K) (p : Pt K) (dir : Dir K) : lineDist fuzz l p dir true = none := by
  simp [lineDist]

example : lineDist (1 / 100 : ℚ) ⟨⟨0, 0⟩, ⟨0, 2⟩⟩ ⟨-3, 1⟩ ⟨3 / 5, 4 / 5, 0⟩ false = some 5 := by decide +kernel
example : lineDist (1 / 100 : ℚ) ⟨⟨0, 0⟩, ⟨0, 2⟩⟩ ⟨3, 1⟩ ⟨3 / 5, 4 / 5, 0⟩ false = none := by decide +kernel

/-! ## Box -/

/-- `q` is on side `i` of the box: 0 east, 1 north, 2 west, 3 south. -/
def OnSide (b : Box K) (q : Pt K) (i : Nat) : Prop :=
  (i = 0 ∧ q.x = b.hi.x ∧ b.lo.y ≤ q.y ∧ q.y ≤ b.hi.y) ∨ (i = 1 ∧ q.y = b.hi.y ∧ b.lo.x ≤ q.x ∧ q.x ≤ b.hi.x) ∨
  (i = 2 ∧ q.x = b.lo.x ∧ b.lo.y ≤ q.y ∧ q.y ≤ b.hi.y) ∨ (i = 3 ∧ q.y = b.lo.y ∧ b.lo.x ≤ q.x ∧ q.x ≤ b.hi.x)

/-- `q` is inside the box, not on its boundary. -/
def Inside (b : Box K) (q : Pt K) : Prop := b.lo.x < q.x ∧ q.x < b.hi.x ∧ b.lo.y < q.y ∧ q.y < b.hi.y

/-- The direction leaves the box through side `i`. -/
def Outward (dir : Dir K) (i : Nat) : Prop :=
  (i = 0 ∧ 0 < dir.ox) ∨ (i = 1 ∧ 0 < dir.oy) ∨ (i = 2 ∧ dir.ox < 0) ∨ (i = 3 ∧ dir.oy < 0)

/-- The point is inside by more than the tolerance, which the code applies to the distance times the length of the side. -/
structure Clear (fuzz : K) (b : Box K) (p : Pt K) : Prop where
  east : fuzz < (b.hi.y - b.lo.y) * (b.hi.x - p.x)
  north : fuzz < (b.hi.x - b.lo.x) * (b.hi.y - p.y)
  west : fuzz < (b.hi.y - b.lo.y) * (p.x - b.lo.x)
  south : fuzz < (b.hi.x - b.lo.x) * (p.y - b.lo.y)

/-- The components of the direction are zero or above the tolerance, and not both zero. -/
structure Steady (fuzz : K) (b : Box K) (dir : Dir K) : Prop where
  x : dir.ox = 0 ∨ fuzz ≤ (b.hi.y - b.lo.y) * |dir.ox|
  y : dir.oy = 0 ∨ fuzz ≤ (b.hi.x - b.lo.x) * |dir.oy|
  some : dir.ox ≠ 0 ∨ dir.oy ≠ 0

/-- The distance to a side at signed distance `g` (positive inside) with outward speed `v` and side length `w`. -/
theorem side_dist {fuzz w g v : K} (hf : 0 < fuzz) (hw : 0 < w) (hg : fuzz < w * g) (hv : v = 0 ∨ fuzz ≤ w * |v|)
    (l : Line K) (p : Pt K) (dir : Dir K) (σ : K) (hσ : σ = 1 ∨ σ = -1) (h1 : offLine l p = σ * (w * g))
    (h2 : rate l dir = -(σ * (w * v))) :
    lineDist fuzz l p dir false = if 0 < v then some (g / v) else none := by
  have hg0 : 0 < g := by
    by_contra hn
    have := mul_nonpos_of_nonneg_of_nonpos hw.le (not_lt.mp hn)
    linarith
  have hσ2 : |σ| = 1 := by rcases hσ with rfl | rfl <;> simp
  have hσ0 : σ ≠ 0 := by rcases hσ with rfl | rfl <;> simp
  have habs : |rate l dir| = w * |v| := by rw [h2, abs_neg, abs_mul, hσ2, one_mul, abs_mul, abs_of_pos hw]
  have habs' : |offLine l p| = w * g := by rw [h1, abs_mul, hσ2, one_mul, abs_of_pos (mul_pos hw hg0)]
  rw [lineDist_eq, habs, habs']
  rcases hv with rfl | hv
  · rw [abs_zero, mul_zero, if_pos hf, if_neg (lt_irrefl _)]
  · rw [if_neg (not_lt.mpr hv)]
    have hv0 : v ≠ 0 := by
      rintro rfl; rw [abs_zero, mul_zero] at hv; linarith
    have hq : -offLine l p / rate l dir = g / v := by
      rw [h1, h2, neg_div_neg_eq, mul_div_mul_left _ _ hσ0, mul_div_mul_left _ _ (ne_of_gt hw)]
    rw [hq]
    by_cases hp : 0 < v
    · rw [if_pos ⟨div_pos hg0 hp, hg⟩, if_pos hp]
    · rw [if_neg hp, if_neg]
      rintro ⟨h, _⟩
      have hneg : v < 0 := lt_of_le_of_ne (not_lt.mp hp) hv0
      have := div_neg_of_pos_of_neg hg0 hneg
      linarith

theorem boxDist_eq (fuzz : K) (hf : 0 < fuzz) (b : Box K) (p : Pt K) (dir : Dir K) (hi : Inside b p) (hc : Clear fuzz b p)
    (hs : Steady fuzz b dir) :
    boxDist fuzz b p dir =
      (let e := if 0 < dir.ox then some ((b.hi.x - p.x) / dir.ox) else none
       let n := if 0 < dir.oy then some ((b.hi.y - p.y) / dir.oy) else none
       let w := if 0 < -dir.ox then some ((p.x - b.lo.x) / -dir.ox) else none
       let s := if 0 < -dir.oy then some ((p.y - b.lo.y) / -dir.oy) else none
       let b0 : Option K × Nat := if closer e none then (e, 0) else (none, 6)
       let b1 := if closer n b0.1 then (n, 1) else b0
       let b2 := if closer w b1.1 then (w, 2) else b1
       if closer s b2.1 then (s, 3) else b2) := by
  obtain ⟨i1, i2, i3, i4⟩ := hi
  have hH : 0 < b.hi.y - b.lo.y := by linarith
  have hW : 0 < b.hi.x - b.lo.x := by linarith
  have e := side_dist hf hH hc.east hs.x ⟨⟨b.hi.x, b.lo.y⟩, b.hi⟩ p dir 1 (Or.inl rfl)
    (by simp only [offLine]; ring) (by simp only [rate]; ring)
  have n := side_dist hf hW hc.north hs.y ⟨⟨b.lo.x, b.hi.y⟩, b.hi⟩ p dir (-1) (Or.inr rfl)
    (by simp only [offLine]; ring) (by simp only [rate]; ring)
  have w := side_dist (v := -dir.ox) hf hH hc.west (by rw [abs_neg, neg_eq_zero]; exact hs.x) ⟨b.lo, ⟨b.lo.x, b.hi.y⟩⟩ p dir (-1)
    (Or.inr rfl) (by simp only [offLine]; ring) (by simp only [rate]; ring)
  have s := side_dist (v := -dir.oy) hf hW hc.south (by rw [abs_neg, neg_eq_zero]; exact hs.y) ⟨b.lo, ⟨b.hi.x, b.lo.y⟩⟩ p dir 1
    (Or.inl rfl) (by simp only [offLine]; ring) (by simp only [rate]; ring)
  unfold boxDist Box.lines
  simp only [boxLoop, e, n, w, s]

/-- C64: from inside a box the distance leads onto its boundary, the surface is a side containing the point reached which
the direction leaves through, and everything before is inside. -/
theorem C64_box (fuzz : K) (hf : 0 < fuzz) (b : Box K) (p : Pt K) (dir : Dir K) (hi : Inside b p) (hc : Clear fuzz b p)
    (hs : Steady fuzz b dir) :
    ∃ d i, boxDist fuzz b p dir = (some d, i) ∧ 0 < d ∧ OnSide b (travel p dir d) i ∧ Outward dir i ∧
      ∀ t, 0 ≤ t → t < d → Inside b (travel p dir t) := by
  rw [boxDist_eq fuzz hf b p dir hi hc hs]
  obtain ⟨i1, i2, i3, i4⟩ := hi
  have hso := hs.some
  -- the exit in each coordinate
  have X : (∃ dx ix, 0 < dx ∧ (∀ t, 0 ≤ t → t < dx → b.lo.x < p.x + t * dir.ox ∧ p.x + t * dir.ox < b.hi.x) ∧
      (b.lo.x ≤ p.x + dx * dir.ox ∧ p.x + dx * dir.ox ≤ b.hi.x) ∧
      ((ix = 0 ∧ 0 < dir.ox ∧ dx = (b.hi.x - p.x) / dir.ox ∧ p.x + dx * dir.ox = b.hi.x) ∨
       (ix = 2 ∧ dir.ox < 0 ∧ dx = (p.x - b.lo.x) / -dir.ox ∧ p.x + dx * dir.ox = b.lo.x))) ∨ dir.ox = 0 := by
    rcases lt_trichotomy dir.ox 0 with h | h | h
    · left
      have hn : 0 < -dir.ox := by linarith
      have e1 : p.x + (p.x - b.lo.x) / -dir.ox * dir.ox = b.lo.x := by
        have : dir.ox ≠ 0 := ne_of_lt h
        field_simp; ring
      refine ⟨(p.x - b.lo.x) / -dir.ox, 2, div_pos (by linarith) hn, fun t h0 ht => ?_, ⟨by linarith, by linarith⟩,
        Or.inr ⟨rfl, h, rfl, e1⟩⟩
      have h2 : t * -dir.ox < p.x - b.lo.x := (lt_div_iff₀ hn).mp ht
      have h3 : 0 ≤ t * -dir.ox := mul_nonneg h0 hn.le
      constructor <;> linarith
    · exact Or.inr h
    · left
      have e1 : p.x + (b.hi.x - p.x) / dir.ox * dir.ox = b.hi.x := by
        rw [div_mul_cancel₀ _ (ne_of_gt h)]; ring
      refine ⟨(b.hi.x - p.x) / dir.ox, 0, div_pos (by linarith) h, fun t h0 ht => ?_, ⟨by linarith, by linarith⟩,
        Or.inl ⟨rfl, h, rfl, e1⟩⟩
      have h2 : t * dir.ox < b.hi.x - p.x := (lt_div_iff₀ h).mp ht
      have h3 : 0 ≤ t * dir.ox := mul_nonneg h0 h.le
      constructor <;> linarith
  have Y : (∃ dy iy, 0 < dy ∧ (∀ t, 0 ≤ t → t < dy → b.lo.y < p.y + t * dir.oy ∧ p.y + t * dir.oy < b.hi.y) ∧
      (b.lo.y ≤ p.y + dy * dir.oy ∧ p.y + dy * dir.oy ≤ b.hi.y) ∧
      ((iy = 1 ∧ 0 < dir.oy ∧ dy = (b.hi.y - p.y) / dir.oy ∧ p.y + dy * dir.oy = b.hi.y) ∨
       (iy = 3 ∧ dir.oy < 0 ∧ dy = (p.y - b.lo.y) / -dir.oy ∧ p.y + dy * dir.oy = b.lo.y))) ∨ dir.oy = 0 := by
    rcases lt_trichotomy dir.oy 0 with h | h | h
    · left
      have hn : 0 < -dir.oy := by linarith
      have e1 : p.y + (p.y - b.lo.y) / -dir.oy * dir.oy = b.lo.y := by
        have : dir.oy ≠ 0 := ne_of_lt h
        field_simp; ring
      refine ⟨(p.y - b.lo.y) / -dir.oy, 3, div_pos (by linarith) hn, fun t h0 ht => ?_, ⟨by linarith, by linarith⟩,
        Or.inr ⟨rfl, h, rfl, e1⟩⟩
      have h2 : t * -dir.oy < p.y - b.lo.y := (lt_div_iff₀ hn).mp ht
      have h3 : 0 ≤ t * -dir.oy := mul_nonneg h0 hn.le
      constructor <;> linarith
    · exact Or.inr h
    · left
      have e1 : p.y + (b.hi.y - p.y) / dir.oy * dir.oy = b.hi.y := by
        rw [div_mul_cancel₀ _ (ne_of_gt h)]; ring
      refine ⟨(b.hi.y - p.y) / dir.oy, 1, div_pos (by linarith) h, fun t h0 ht => ?_, ⟨by linarith, by linarith⟩,
        Or.inl ⟨rfl, h, rfl, e1⟩⟩
      have h2 : t * dir.oy < b.hi.y - p.y := (lt_div_iff₀ h).mp ht
      have h3 : 0 ≤ t * dir.oy := mul_nonneg h0 h.le
      constructor <;> linarith
  -- the exit through an x side
  have doneX : ∀ dx ix, 0 < dx → (∀ t, 0 ≤ t → t < dx → b.lo.x < p.x + t * dir.ox ∧ p.x + t * dir.ox < b.hi.x) →
      ((ix = 0 ∧ 0 < dir.ox ∧ dx = (b.hi.x - p.x) / dir.ox ∧ p.x + dx * dir.ox = b.hi.x) ∨
       (ix = 2 ∧ dir.ox < 0 ∧ dx = (p.x - b.lo.x) / -dir.ox ∧ p.x + dx * dir.ox = b.lo.x)) →
      (∀ t, 0 ≤ t → t < dx → b.lo.y < p.y + t * dir.oy ∧ p.y + t * dir.oy < b.hi.y) →
      (b.lo.y ≤ p.y + dx * dir.oy ∧ p.y + dx * dir.oy ≤ b.hi.y) →
      0 < dx ∧ OnSide b (travel p dir dx) ix ∧ Outward dir ix ∧ ∀ t, 0 ≤ t → t < dx → Inside b (travel p dir t) := by
    intro dx ix h0 hx hcase hy hyb
    refine ⟨h0, ?_, ?_, fun t t0 t1 => ⟨(hx t t0 t1).1, (hx t t0 t1).2, hy t t0 t1⟩⟩
    · rcases hcase with ⟨h, _, _, e⟩ | ⟨h, _, _, e⟩
      · exact Or.inl ⟨h, e, hyb⟩
      · exact Or.inr (Or.inr (Or.inl ⟨h, e, hyb⟩))
    · rcases hcase with ⟨h, h', _⟩ | ⟨h, h', _⟩
      · exact Or.inl ⟨h, h'⟩
      · exact Or.inr (Or.inr (Or.inl ⟨h, h'⟩))
  have doneY : ∀ dy iy, 0 < dy → (∀ t, 0 ≤ t → t < dy → b.lo.y < p.y + t * dir.oy ∧ p.y + t * dir.oy < b.hi.y) →
      ((iy = 1 ∧ 0 < dir.oy ∧ dy = (b.hi.y - p.y) / dir.oy ∧ p.y + dy * dir.oy = b.hi.y) ∨
       (iy = 3 ∧ dir.oy < 0 ∧ dy = (p.y - b.lo.y) / -dir.oy ∧ p.y + dy * dir.oy = b.lo.y)) →
      (∀ t, 0 ≤ t → t < dy → b.lo.x < p.x + t * dir.ox ∧ p.x + t * dir.ox < b.hi.x) →
      (b.lo.x ≤ p.x + dy * dir.ox ∧ p.x + dy * dir.ox ≤ b.hi.x) →
      0 < dy ∧ OnSide b (travel p dir dy) iy ∧ Outward dir iy ∧ ∀ t, 0 ≤ t → t < dy → Inside b (travel p dir t) := by
    intro dy iy h0 hy hcase hx hxb
    refine ⟨h0, ?_, ?_, fun t t0 t1 => ⟨(hx t t0 t1).1, (hx t t0 t1).2, hy t t0 t1⟩⟩
    · rcases hcase with ⟨h, _, _, e⟩ | ⟨h, _, _, e⟩
      · exact Or.inr (Or.inl ⟨h, e, hxb⟩)
      · exact Or.inr (Or.inr (Or.inr ⟨h, e, hxb⟩))
    · rcases hcase with ⟨h, h', _⟩ | ⟨h, h', _⟩
      · exact Or.inr (Or.inl ⟨h, h'⟩)
      · exact Or.inr (Or.inr (Or.inr ⟨h, h'⟩))
  -- at an earlier time the other coordinate is still inside
  rcases X with ⟨dx, ix, x0, xin, xb, xc⟩ | hx0
  · rcases Y with ⟨dy, iy, y0, yin, yb, yc⟩ | hy0
    · have atx : dx ≤ dy → (b.lo.y ≤ p.y + dx * dir.oy ∧ p.y + dx * dir.oy ≤ b.hi.y) := by
        intro h
        rcases lt_or_eq_of_le h with h | h
        · exact ⟨(yin dx x0.le h).1.le, (yin dx x0.le h).2.le⟩
        · rw [h]; exact yb
      have aty : dy ≤ dx → (b.lo.x ≤ p.x + dy * dir.ox ∧ p.x + dy * dir.ox ≤ b.hi.x) := by
        intro h
        rcases lt_or_eq_of_le h with h | h
        · exact ⟨(xin dy y0.le h).1.le, (xin dy y0.le h).2.le⟩
        · rw [h]; exact xb
      have finX : dx ≤ dy → _ := fun h =>
        doneX dx ix x0 xin xc (fun t t0 t1 => yin t t0 (lt_of_lt_of_le t1 h)) (atx h)
      have finY : dy ≤ dx → _ := fun h =>
        doneY dy iy y0 yin yc (fun t t0 t1 => xin t t0 (lt_of_lt_of_le t1 h)) (aty h)
      rcases xc with ⟨rfl, hx, ex, _⟩ | ⟨rfl, hx, ex, _⟩
      · rcases yc with ⟨rfl, hy, ey, _⟩ | ⟨rfl, hy, ey, _⟩
        · have nx : ¬ 0 < -dir.ox := by linarith
          have ny : ¬ 0 < -dir.oy := by linarith
          simp only [if_pos hx, if_pos hy, if_neg nx, if_neg ny, ← ex, ← ey, closer, if_true, if_false, Bool.false_eq_true]
          by_cases h : dy < dx
          · simp only [h, decide_true, if_true]
            exact ⟨dy, 1, rfl, finY h.le⟩
          · simp only [h, decide_false, if_false, Bool.false_eq_true]
            exact ⟨dx, 0, rfl, finX (not_lt.mp h)⟩
        · have nx : ¬ 0 < -dir.ox := by linarith
          have ny : ¬ 0 < dir.oy := by linarith
          have py : 0 < -dir.oy := by linarith
          simp only [if_pos hx, if_pos py, if_neg nx, if_neg ny, ← ex, ← ey, closer, if_true, if_false, Bool.false_eq_true]
          by_cases h : dy < dx
          · simp only [h, decide_true, if_true]
            exact ⟨dy, 3, rfl, finY h.le⟩
          · simp only [h, decide_false, if_false, Bool.false_eq_true]
            exact ⟨dx, 0, rfl, finX (not_lt.mp h)⟩
      · have nx : ¬ 0 < dir.ox := by linarith
        have px : 0 < -dir.ox := by linarith
        rcases yc with ⟨rfl, hy, ey, _⟩ | ⟨rfl, hy, ey, _⟩
        · have ny : ¬ 0 < -dir.oy := by linarith
          simp only [if_pos px, if_pos hy, if_neg nx, if_neg ny, ← ex, ← ey, closer, if_true, if_false, Bool.false_eq_true]
          by_cases h : dx < dy
          · simp only [h, decide_true, if_true]
            exact ⟨dx, 2, rfl, finX h.le⟩
          · simp only [h, decide_false, if_false, Bool.false_eq_true]
            exact ⟨dy, 1, rfl, finY (not_lt.mp h)⟩
        · have ny : ¬ 0 < dir.oy := by linarith
          have py : 0 < -dir.oy := by linarith
          simp only [if_pos px, if_pos py, if_neg nx, if_neg ny, ← ex, ← ey, closer, if_true, if_false, Bool.false_eq_true]
          by_cases h : dy < dx
          · simp only [h, decide_true, if_true]
            exact ⟨dy, 3, rfl, finY h.le⟩
          · simp only [h, decide_false, if_false, Bool.false_eq_true]
            exact ⟨dx, 2, rfl, finX (not_lt.mp h)⟩
    · have fin := doneX dx ix x0 xin xc (fun t _ _ => by rw [hy0, mul_zero, add_zero]; exact ⟨i3, i4⟩)
        (by rw [hy0, mul_zero, add_zero]; exact ⟨i3.le, i4.le⟩)
      have ny : ¬ 0 < dir.oy := by rw [hy0]; exact lt_irrefl _
      have ny' : ¬ 0 < -dir.oy := by rw [hy0, neg_zero]; exact lt_irrefl _
      rcases xc with ⟨rfl, hx, ex, _⟩ | ⟨rfl, hx, ex, _⟩
      · have nx : ¬ 0 < -dir.ox := by linarith
        simp only [if_pos hx, if_neg nx, if_neg ny, if_neg ny', ← ex, closer, if_true, if_false, Bool.false_eq_true]
        exact ⟨dx, 0, rfl, fin⟩
      · have nx : ¬ 0 < dir.ox := by linarith
        have px : 0 < -dir.ox := by linarith
        simp only [if_pos px, if_neg nx, if_neg ny, if_neg ny', ← ex, closer, if_true, if_false, Bool.false_eq_true]
        exact ⟨dx, 2, rfl, fin⟩
  · rcases Y with ⟨dy, iy, y0, yin, yb, yc⟩ | hy0
    · have fin := doneY dy iy y0 yin yc (fun t _ _ => by rw [hx0, mul_zero, add_zero]; exact ⟨i1, i2⟩)
        (by rw [hx0, mul_zero, add_zero]; exact ⟨i1.le, i2.le⟩)
      have nx : ¬ 0 < dir.ox := by rw [hx0]; exact lt_irrefl _
      have nx' : ¬ 0 < -dir.ox := by rw [hx0, neg_zero]; exact lt_irrefl _
      rcases yc with ⟨rfl, hy, ey, _⟩ | ⟨rfl, hy, ey, _⟩
      · have ny : ¬ 0 < -dir.oy := by linarith
        simp only [if_pos hy, if_neg nx, if_neg ny, if_neg nx', ← ey, closer, if_true, if_false, Bool.false_eq_true]
        exact ⟨dy, 1, rfl, fin⟩
      · have ny : ¬ 0 < dir.oy := by linarith
        have py : 0 < -dir.oy := by linarith
        simp only [if_pos py, if_neg nx, if_neg ny, if_neg nx', ← ey, closer, if_true, if_false, Bool.false_eq_true]
        exact ⟨dy, 3, rfl, fin⟩
    · exact absurd hso (by rw [hx0, hy0]; simp)

omit [IsStrictOrderedRing K] in
/-- C64: the constructor of the box orders its corners, whichever two opposite corners it is given. -/
theorem C64_box_corners (p q : Pt K) :
    (Box.mk' p q).lo.x ≤ (Box.mk' p q).hi.x ∧ (Box.mk' p q).lo.y ≤ (Box.mk' p q).hi.y ∧ Box.mk' p q = Box.mk' q p ∧
    ((Box.mk' p q).lo.x = p.x ∧ (Box.mk' p q).hi.x = q.x ∨ (Box.mk' p q).lo.x = q.x ∧ (Box.mk' p q).hi.x = p.x) ∧
    ((Box.mk' p q).lo.y = p.y ∧ (Box.mk' p q).hi.y = q.y ∨ (Box.mk' p q).lo.y = q.y ∧ (Box.mk' p q).hi.y = p.y) := by
  refine ⟨min_le_max, min_le_max, ?_, ?_, ?_⟩
  · simp only [Box.mk', min_comm, max_comm]
  · rcases le_total p.x q.x with h | h
    · exact Or.inl ⟨min_eq_left h, max_eq_right h⟩
    · exact Or.inr ⟨min_eq_right h, max_eq_left h⟩
  · rcases le_total p.y q.y with h | h
    · exact Or.inl ⟨min_eq_left h, max_eq_right h⟩
    · exact Or.inr ⟨min_eq_right h, max_eq_left h⟩

example : boxDist (1 / 100 : ℚ) (Box.mk' ⟨2, 0⟩ ⟨0, 1⟩) ⟨1, 1 / 2⟩ ⟨3 / 5, 4 / 5, 0⟩ = (some (5 / 8), 1) := by decide +kernel
example : Inside (Box.mk' ⟨2, 0⟩ ⟨0, 1⟩ : Box ℚ) ⟨1, 1 / 2⟩ ∧ Clear (1 / 100 : ℚ) (Box.mk' ⟨2, 0⟩ ⟨0, 1⟩) ⟨1, 1 / 2⟩ ∧
    Steady (1 / 100 : ℚ) (Box.mk' ⟨2, 0⟩ ⟨0, 1⟩) ⟨3 / 5, 4 / 5, 0⟩ := by
  have e : (Box.mk' ⟨2, 0⟩ ⟨0, 1⟩ : Box ℚ) = ⟨⟨0, 0⟩, ⟨2, 1⟩⟩ := by simp [Box.mk']
  rw [e]
  refine ⟨by norm_num [Inside], ⟨by norm_num, by norm_num, by norm_num, by norm_num⟩, ⟨?_, ?_, ?_⟩⟩
  · right; norm_num
  · right; norm_num
  · left; norm_num

end
end Verif.Geom
