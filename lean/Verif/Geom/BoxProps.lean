import Verif.Geom.Model
import Mathlib.Algebra.Order.Ring.Rat
import Mathlib.Algebra.Order.Field.Rat
import Mathlib.Algebra.Field.Rat
import Mathlib.Tactic.Ring
import Mathlib.Tactic.Linarith
import Mathlib.Tactic.NormNum
import Mathlib.Tactic.FieldSimp
import Mathlib.Tactic.Positivity

/-! # C70: where a line leaves a box -/

namespace Verif.Geom

variable {K : Type} [Field K] [LinearOrder K] [IsStrictOrderedRing K]

/-- The point at parameter `t` from `p`. -/
def goTo (p : Pt K) (ox oy t : K) : Pt K := ⟨p.x + ox * t, p.y + oy * t⟩

/-- In the box, its sides included. -/
def Box.Has (b : Box K) (q : Pt K) : Prop := b.lo.x ≤ q.x ∧ q.x ≤ b.hi.x ∧ b.lo.y ≤ q.y ∧ q.y ≤ b.hi.y

/-- Strictly inside of the box. -/
def Box.Inside (b : Box K) (q : Pt K) : Prop := b.lo.x < q.x ∧ q.x < b.hi.x ∧ b.lo.y < q.y ∧ q.y < b.hi.y

/-- On a side of the box but not at a corner. -/
def Box.OnSide (b : Box K) (q : Pt K) : Prop :=
  ((q.x = b.lo.x ∨ q.x = b.hi.x) ∧ b.lo.y < q.y ∧ q.y < b.hi.y) ∨
  ((q.y = b.lo.y ∨ q.y = b.hi.y) ∧ b.lo.x < q.x ∧ q.x < b.hi.x)

/-- A linear function that is not negative at both ends and zero between is zero everywhere. -/
theorem linear_zero (f0 f1 a c b m : K) (hac : a < c) (hcb : c < b) (ha : 0 ≤ f0 + f1 * a) (hb : 0 ≤ f0 + f1 * b)
    (hc : f0 + f1 * c = 0) : f0 + f1 * m = 0 := by
  have h1 : f1 = 0 := by
    rcases lt_trichotomy f1 0 with h | h | h
    · exfalso; nlinarith
    · exact h
    · exfalso; nlinarith
  rw [h1] at hc ⊢
  linarith

/-- Of three points of the box on one line that passes through its inside, the middle one is not on the boundary. -/
theorem middle (b : Box K) (p : Pt K) (ox oy a c e m : K) (hac : a < c) (hce : c < e) (ha : b.Has (goTo p ox oy a))
    (he : b.Has (goTo p ox oy e)) (hm : b.Inside (goTo p ox oy m)) :
    (goTo p ox oy c).x ≠ b.lo.x ∧ (goTo p ox oy c).x ≠ b.hi.x ∧ (goTo p ox oy c).y ≠ b.lo.y ∧ (goTo p ox oy c).y ≠ b.hi.y := by
  obtain ⟨a1, a2, a3, a4⟩ := ha
  obtain ⟨e1, e2, e3, e4⟩ := he
  obtain ⟨m1, m2, m3, m4⟩ := hm
  simp only [goTo] at *
  refine ⟨fun h => ?_, fun h => ?_, fun h => ?_, fun h => ?_⟩
  · have := linear_zero (p.x - b.lo.x) ox a c e m hac hce (by linarith) (by linarith) (by linarith)
    linarith
  · have := linear_zero (b.hi.x - p.x) (-ox) a c e m hac hce (by linarith) (by linarith) (by linarith)
    linarith
  · have := linear_zero (p.y - b.lo.y) oy a c e m hac hce (by linarith) (by linarith) (by linarith)
    linarith
  · have := linear_zero (b.hi.y - p.y) (-oy) a c e m hac hce (by linarith) (by linarith) (by linarith)
    linarith

/-- On the boundary. -/
def Box.Edge (b : Box K) (q : Pt K) : Prop := b.Has q ∧ (q.x = b.lo.x ∨ q.x = b.hi.x ∨ q.y = b.lo.y ∨ q.y = b.hi.y)

/-- A line through the inside meets the boundary in at most two points. -/
theorem two_points (b : Box K) (p : Pt K) (ox oy t1 t2 t m : K) (h12 : t1 < t2) (h1 : b.Edge (goTo p ox oy t1))
    (h2 : b.Edge (goTo p ox oy t2)) (h : b.Edge (goTo p ox oy t)) (hm : b.Inside (goTo p ox oy m)) : t = t1 ∨ t = t2 := by
  by_contra hc
  rw [not_or] at hc
  rcases lt_or_gt_of_ne hc.1 with ha | ha
  · obtain ⟨n1, n2, n3, n4⟩ := middle b p ox oy t t1 t2 m ha h12 h.1 h2.1 hm
    rcases h1.2 with e | e | e | e <;> contradiction
  · rcases lt_or_gt_of_ne hc.2 with hb | hb
    · obtain ⟨n1, n2, n3, n4⟩ := middle b p ox oy t1 t t2 m ha hb h1.1 h2.1 hm
      rcases h.2 with e | e | e | e <;> contradiction
    · obtain ⟨n1, n2, n3, n4⟩ := middle b p ox oy t1 t2 t m h12 hb h1.1 h.1 hm
      rcases h2.2 with e | e | e | e <;> contradiction

theorem fdiv_cases (a b : K) : (b = 0 ∧ fdiv a b = none) ∨ (b ≠ 0 ∧ fdiv a b = some (a / b)) := by
  unfold fdiv
  by_cases h : b = 0
  · left; exact ⟨h, if_pos h⟩
  · right; exact ⟨h, if_neg h⟩

/-- A face whose candidate is rejected or is the point already found. -/
theorem tryFace_skip (fuzz : K) (d : Option K) (coord : K → K) (lo hi : K) (pt : K → Pt K) (best : K × Option (Pt K))
    (h : ∀ d', d = some d' → lo < coord d' → coord d' < hi → |d'| ≤ fuzz) : tryFace fuzz d coord lo hi pt best = best := by
  unfold tryFace
  cases d with
  | none => rfl
  | some d' =>
    simp only []
    rw [if_neg]
    rintro ⟨h1, _, h3, h4⟩
    exact absurd (h d' rfl h3 h4) (not_le.mpr h1)

theorem tryFace_take (fuzz d : K) (coord : K → K) (lo hi : K) (pt : K → Pt K) (best : K × Option (Pt K))
    (h1 : fuzz < |d|) (h2 : d < best.1) (h3 : lo < coord d) (h4 : coord d < hi) :
    tryFace fuzz (some d) coord lo hi pt best = (|d|, some (pt (coord d))) := by
  unfold tryFace
  simp only []
  rw [if_pos ⟨h1, h2, h3, h4⟩]

/-- C70: from a point on the boundary, along a line through the inside that leaves at `d` (larger than the tolerance) not at a
corner, the point where it leaves is returned. -/
theorem C70_from_boundary_partial (fuzz far : K) (hf : 0 ≤ fuzz) (b : Box K) (hb : b.lo.x < b.hi.x) (hb' : b.lo.y < b.hi.y) (p : Pt K)
    (ox oy d : K) (hp : b.Edge p) (hd : fuzz < d) (hd' : d < far) (hin : b.Inside (goTo p ox oy (d / 2)))
    (hq : b.OnSide (goTo p ox oy d)) : b.intersect fuzz far p ox oy = some (goTo p ox oy d) := by
  have hd0 : 0 < d := lt_of_le_of_lt hf hd
  have hp0 : goTo p ox oy 0 = p := by simp [goTo]
  have he1 : b.Edge (goTo p ox oy 0) := by rw [hp0]; exact hp
  have he2 : b.Edge (goTo p ox oy d) := by
    rcases hq with ⟨h1, h2, h3⟩ | ⟨h1, h2, h3⟩
    · refine ⟨⟨?_, ?_, h2.le, h3.le⟩, by tauto⟩
      · rcases h1 with h | h <;> rw [h]; exact hb.le
      · rcases h1 with h | h <;> rw [h]; exact hb.le
    · refine ⟨⟨h2.le, h3.le, ?_, ?_⟩, by tauto⟩
      · rcases h1 with h | h <;> rw [h]; exact hb'.le
      · rcases h1 with h | h <;> rw [h]; exact hb'.le
  have two : ∀ t, b.Edge (goTo p ox oy t) → t = 0 ∨ t = d := fun t ht => two_points b p ox oy 0 d t (d / 2) hd0 he1 he2 ht hin
  -- candidates on planes of constant x and constant y
  have candx : ∀ X, X = b.lo.x ∨ X = b.hi.x → ∀ d', fdiv (X - p.x) ox = some d' → b.lo.y < p.y + oy * d' → p.y + oy * d' < b.hi.y →
      (d' = 0 ∨ d' = d) ∧ p.x + ox * d' = X := by
    intro X hX d' hd1 h1 h2
    rcases fdiv_cases (X - p.x) ox with ⟨_, e⟩ | ⟨hox, e⟩
    · rw [e] at hd1; cases hd1
    · rw [e, Option.some.injEq] at hd1
      have hx : p.x + ox * d' = X := by rw [← hd1]; field_simp; ring
      refine ⟨two d' ?_, hx⟩
      unfold Box.Edge Box.Has goTo
      simp only [hx]
      refine ⟨⟨?_, ?_, h1.le, h2.le⟩, by tauto⟩
      · rcases hX with h | h <;> rw [h]; exact hb.le
      · rcases hX with h | h <;> rw [h]; exact hb.le
  have candy : ∀ Y, Y = b.lo.y ∨ Y = b.hi.y → ∀ d', fdiv (Y - p.y) oy = some d' → b.lo.x < p.x + ox * d' → p.x + ox * d' < b.hi.x →
      (d' = 0 ∨ d' = d) ∧ p.y + oy * d' = Y := by
    intro Y hY d' hd1 h1 h2
    rcases fdiv_cases (Y - p.y) oy with ⟨_, e⟩ | ⟨hoy, e⟩
    · rw [e] at hd1; cases hd1
    · rw [e, Option.some.injEq] at hd1
      have hy : p.y + oy * d' = Y := by rw [← hd1]; field_simp; ring
      refine ⟨two d' ?_, hy⟩
      unfold Box.Edge Box.Has goTo
      simp only [hy]
      refine ⟨⟨h1.le, h2.le, ?_, ?_⟩, by tauto⟩
      · rcases hY with h | h <;> rw [h]; exact hb'.le
      · rcases hY with h | h <;> rw [h]; exact hb'.le
  have skipx : ∀ X best, X = b.lo.x ∨ X = b.hi.x → p.x + ox * d ≠ X →
      tryFace fuzz (fdiv (X - p.x) ox) (fun d => p.y + oy * d) b.lo.y b.hi.y (fun y => ⟨X, y⟩) best = best := by
    intro X best hX hne
    apply tryFace_skip
    intro d' h1 h2 h3
    obtain ⟨h4, h5⟩ := candx X hX d' h1 h2 h3
    rcases h4 with h | h
    · rw [h, abs_zero]; exact hf
    · rw [h] at h5; exact absurd h5 hne
  have skipy : ∀ Y best, Y = b.lo.y ∨ Y = b.hi.y → p.y + oy * d ≠ Y →
      tryFace fuzz (fdiv (Y - p.y) oy) (fun d => p.x + ox * d) b.lo.x b.hi.x (fun x => ⟨x, Y⟩) best = best := by
    intro Y best hY hne
    apply tryFace_skip
    intro d' h1 h2 h3
    obtain ⟨h4, h5⟩ := candy Y hY d' h1 h2 h3
    rcases h4 with h | h
    · rw [h, abs_zero]; exact hf
    · rw [h] at h5; exact absurd h5 hne
  have takex : ∀ X, X = b.lo.x ∨ X = b.hi.x → p.x + ox * d = X → b.lo.y < p.y + oy * d → p.y + oy * d < b.hi.y →
      tryFace fuzz (fdiv (X - p.x) ox) (fun d => p.y + oy * d) b.lo.y b.hi.y (fun y => ⟨X, y⟩) (far, none) =
        (|d|, some (goTo p ox oy d)) := by
    intro X hX hx h1 h2
    have hox : ox ≠ 0 := by
      intro h0
      obtain ⟨i1, i2, _, _⟩ := hin
      simp only [goTo, h0, zero_mul, add_zero] at i1 i2 hx
      rcases hX with h | h <;> rw [h] at hx <;> linarith
    have hdd : (X - p.x) / ox = d := by rw [← hx]; field_simp; ring
    rcases fdiv_cases (X - p.x) ox with ⟨h, _⟩ | ⟨_, e⟩
    · exact absurd h hox
    · rw [e, hdd, tryFace_take fuzz d _ _ _ _ _ (by rw [abs_of_pos hd0]; exact hd) hd' h1 h2]
      simp only [goTo, hx]
  have takey : ∀ Y, Y = b.lo.y ∨ Y = b.hi.y → p.y + oy * d = Y → b.lo.x < p.x + ox * d → p.x + ox * d < b.hi.x →
      tryFace fuzz (fdiv (Y - p.y) oy) (fun d => p.x + ox * d) b.lo.x b.hi.x (fun x => ⟨x, Y⟩) (far, none) =
        (|d|, some (goTo p ox oy d)) := by
    intro Y hY hy h1 h2
    have hoy : oy ≠ 0 := by
      intro h0
      obtain ⟨_, _, i1, i2⟩ := hin
      simp only [goTo, h0, zero_mul, add_zero] at i1 i2 hy
      rcases hY with h | h <;> rw [h] at hy <;> linarith
    have hdd : (Y - p.y) / oy = d := by rw [← hy]; field_simp; ring
    rcases fdiv_cases (Y - p.y) oy with ⟨h, _⟩ | ⟨_, e⟩
    · exact absurd h hoy
    · rw [e, hdd, tryFace_take fuzz d _ _ _ _ _ (by rw [abs_of_pos hd0]; exact hd) hd' h1 h2]
      simp only [goTo, hy]
  unfold Box.intersect
  simp only []
  rcases hq with ⟨h1, h2, h3⟩ | ⟨h1, h2, h3⟩
  · simp only [goTo] at h1 h2 h3
    rcases h1 with h1 | h1
    · rw [takex _ (Or.inl rfl) h1 h2 h3, skipx _ _ (Or.inr rfl) (by rw [h1]; exact ne_of_lt hb),
        skipy _ _ (Or.inl rfl) (ne_of_gt h2), skipy _ _ (Or.inr rfl) (ne_of_lt h3)]
    · rw [skipx _ _ (Or.inl rfl) (by rw [h1]; exact ne_of_gt hb), takex _ (Or.inr rfl) h1 h2 h3,
        skipy _ _ (Or.inl rfl) (ne_of_gt h2), skipy _ _ (Or.inr rfl) (ne_of_lt h3)]
  · simp only [goTo] at h1 h2 h3
    rcases h1 with h1 | h1
    · rw [skipx _ _ (Or.inl rfl) (ne_of_gt h2), skipx _ _ (Or.inr rfl) (ne_of_lt h3), takey _ (Or.inl rfl) h1 h2 h3,
        skipy _ _ (Or.inr rfl) (by rw [h1]; exact ne_of_lt hb')]
    · rw [skipx _ _ (Or.inl rfl) (ne_of_gt h2), skipx _ _ (Or.inr rfl) (ne_of_lt h3),
        skipy _ _ (Or.inl rfl) (by rw [h1]; exact ne_of_gt hb'), takey _ (Or.inr rfl) h1 h2 h3]

/-- A box with centre `p` and half widths `h` and `k`. -/
def around (p : Pt K) (h k : K) : Box K := ⟨⟨p.x - h, p.y - k⟩, ⟨p.x + h, p.y + k⟩⟩

theorem tryFace_out (fuzz : K) (d : Option K) (coord : K → K) (lo hi : K) (pt : K → Pt K) (best : K × Option (Pt K))
    (h : ∀ d', d = some d' → ¬ (lo < coord d' ∧ coord d' < hi)) : tryFace fuzz d coord lo hi pt best = best := by
  unfold tryFace
  cases d with
  | none => rfl
  | some d' =>
    simp only []
    rw [if_neg]
    rintro ⟨_, _, h3, h4⟩
    exact h d' rfl ⟨h3, h4⟩

/-- Both faces of one pair, seen from the centre in a direction with component `o` across them: the one behind wins. -/
theorem pair_behind (fuzz far h o c lo hi : K) (hh : 0 < h) (ho : o ≠ 0) (coord : K → K) (pt1 pt2 : K → Pt K)
    (hD : fuzz < h / |o|) (hD' : h / |o| < far)
    (hin : ∀ d, |d| = h / |o| → lo < coord d ∧ coord d < hi) :
    (tryFace fuzz (fdiv (c + h - c) o) coord lo hi pt2 (tryFace fuzz (fdiv (c - h - c) o) coord lo hi pt1 (far, none))) =
      (h / |o|, some ((if 0 < o then pt1 else pt2) (coord (-(h / |o|))))) := by
  rw [show c - h - c = -h by ring, show c + h - c = h by ring]
  have hpos : 0 < h / |o| := div_pos hh (abs_pos.mpr ho)
  rcases fdiv_cases (-h) o with ⟨h0, _⟩ | ⟨_, e1⟩
  · exact absurd h0 ho
  rcases fdiv_cases h o with ⟨h0, _⟩ | ⟨_, e2⟩
  · exact absurd h0 ho
  rw [e1, e2]
  rcases lt_or_gt_of_ne ho with hneg | hp
  · have a1 : -h / o = h / |o| := by rw [abs_of_neg hneg, div_neg, neg_div]
    have a2 : h / o = -(h / |o|) := by rw [abs_of_neg hneg, div_neg, neg_neg]
    rw [a1, a2]
    obtain ⟨i1, i2⟩ := hin (h / |o|) (abs_of_pos hpos)
    obtain ⟨j1, j2⟩ := hin (-(h / |o|)) (by rw [abs_neg, abs_of_pos hpos])
    rw [tryFace_take fuzz (h / |o|) coord lo hi pt1 (far, none) (by rw [abs_of_pos hpos]; exact hD) hD' i1 i2,
      tryFace_take fuzz (-(h / |o|)) coord lo hi pt2 _ (by rw [abs_neg, abs_of_pos hpos]; exact hD)
        (by show -(h / |o|) < |(h / |o|)|
            rw [abs_of_pos hpos]; linarith) j1 j2, abs_neg, abs_of_pos hpos, if_neg (not_lt.mpr hneg.le)]
  · have a1 : -h / o = -(h / |o|) := by rw [abs_of_pos hp, neg_div]
    have a2 : h / o = h / |o| := by rw [abs_of_pos hp]
    rw [a1, a2]
    obtain ⟨j1, j2⟩ := hin (-(h / |o|)) (by rw [abs_neg, abs_of_pos hpos])
    rw [tryFace_take fuzz (-(h / |o|)) coord lo hi pt1 (far, none) (by rw [abs_neg, abs_of_pos hpos]; exact hD)
      (by show -(h / |o|) < far
          linarith) j1 j2, abs_neg, abs_of_pos hpos, if_pos hp]
    unfold tryFace
    simp only []
    rw [if_neg]
    rintro ⟨_, h2, _⟩
    exact lt_irrefl _ h2

/-- The other pair has no point within bounds. -/
theorem pair_out (fuzz h k o o' c c' : K) (hk : 0 < k) (hlt : |o| * h ≤ |o'| * k) (pt1 pt2 : K → Pt K)
    (best : K × Option (Pt K)) :
    (tryFace fuzz (fdiv (c + k - c) o) (fun d => c' + o' * d) (c' - h) (c' + h) pt2
      (tryFace fuzz (fdiv (c - k - c) o) (fun d => c' + o' * d) (c' - h) (c' + h) pt1 best)) = best := by
  rw [show c - k - c = -k by ring, show c + k - c = k by ring]
  have key : ∀ d s : K, |s| = k → fdiv s o = some d → ¬ (c' - h < c' + o' * d ∧ c' + o' * d < c' + h) := by
    intro d s hs hd
    rcases fdiv_cases s o with ⟨_, e⟩ | ⟨ho, e⟩
    · rw [e] at hd; cases hd
    · rw [e, Option.some.injEq] at hd
      rintro ⟨h1, h2⟩
      have h3 : |o' * d| < h := abs_lt.mpr ⟨by linarith, by linarith⟩
      rw [← hd, abs_mul, abs_div, hs, ← mul_div_assoc, div_lt_iff₀ (abs_pos.mpr ho)] at h3
      linarith [mul_comm h |o|]
  rw [tryFace_out _ (fdiv (-k) o) _ _ _ _ _ (fun d hd => key d (-k) (by rw [abs_neg, abs_of_pos hk]) hd),
    tryFace_out _ (fdiv k o) _ _ _ _ _ (fun d hd => key d k (abs_of_pos hk) hd)]

/-- C70: from the centre of the box, where the line leaves through the sides of constant x, the point returned is the one
behind: at a negative parameter. -/
theorem C70_centre_x (fuzz far : K) (p : Pt K) (h k ox oy : K) (hh : 0 < h) (hk : 0 < k) (hlt : |oy| * h < |ox| * k)
    (hD : fuzz < h / |ox|) (hD' : h / |ox| < far) :
    (around p h k).intersect fuzz far p ox oy = some (goTo p ox oy (-(h / |ox|))) := by
  have ho : ox ≠ 0 := by
    rintro rfl
    rw [abs_zero, zero_mul] at hlt
    have := mul_nonneg (abs_nonneg oy) hh.le
    linarith
  have hp := abs_pos.mpr ho
  unfold Box.intersect around
  simp only []
  rw [pair_behind fuzz far h ox p.x (p.y - k) (p.y + k) hh ho _ _ _ hD hD', pair_out fuzz h k oy ox p.y p.x hk hlt.le]
  · simp only [Option.some.injEq]
    have hx : ox * (h / |ox|) = if 0 < ox then h else -h := by
      rcases lt_or_gt_of_ne ho with hn | hn
      · rw [if_neg (not_lt.mpr hn.le), abs_of_neg hn]; field_simp
      · rw [if_pos hn, abs_of_pos hn]; field_simp
    unfold goTo
    rw [mul_neg ox, hx]
    by_cases hn : 0 < ox
    · simp only [hn, if_true, sub_eq_add_neg]
    · simp only [hn, if_false, neg_neg]
  · intro d hd
    have h1 : |oy * d| < k := by
      rw [abs_mul, hd, ← mul_div_assoc, div_lt_iff₀ hp]; linarith [mul_comm k |ox|]
    obtain ⟨h2, h3⟩ := abs_lt.mp h1
    constructor <;> linarith

/-- The same where it leaves through the sides of constant y. -/
theorem C70_centre_y (fuzz far : K) (p : Pt K) (h k ox oy : K) (hh : 0 < h) (hk : 0 < k) (hlt : |ox| * k < |oy| * h)
    (hD : fuzz < k / |oy|) (hD' : k / |oy| < far) :
    (around p h k).intersect fuzz far p ox oy = some (goTo p ox oy (-(k / |oy|))) := by
  have ho : oy ≠ 0 := by
    rintro rfl
    rw [abs_zero, zero_mul] at hlt
    have := mul_nonneg (abs_nonneg ox) hk.le
    linarith
  have hp := abs_pos.mpr ho
  unfold Box.intersect around
  simp only []
  rw [pair_out fuzz k h ox oy p.x p.y hh hlt.le, pair_behind fuzz far k oy p.y (p.x - h) (p.x + h) hk ho _ _ _ hD hD']
  · simp only [Option.some.injEq]
    have hx : oy * (k / |oy|) = if 0 < oy then k else -k := by
      rcases lt_or_gt_of_ne ho with hn | hn
      · rw [if_neg (not_lt.mpr hn.le), abs_of_neg hn]; field_simp
      · rw [if_pos hn, abs_of_pos hn]; field_simp
    unfold goTo
    rw [mul_neg oy, hx]
    by_cases hn : 0 < oy
    · simp only [hn, if_true, sub_eq_add_neg]
    · simp only [hn, if_false, neg_neg]
  · intro d hd
    have h1 : |ox * d| < h := by
      rw [abs_mul, hd, ← mul_div_assoc, div_lt_iff₀ hp]; linarith [mul_comm h |oy|]
    obtain ⟨h2, h3⟩ := abs_lt.mp h1
    constructor <;> linarith

/-- C70: from the centre towards a corner no point is found at all. -/
theorem C70_corner (fuzz far : K) (p : Pt K) (h k ox oy : K) (hh : 0 < h) (hk : 0 < k) (heq : |oy| * h = |ox| * k) :
    (around p h k).intersect fuzz far p ox oy = none := by
  unfold Box.intersect around
  simp only []
  rw [pair_out fuzz k h ox oy p.x p.y hh heq.ge, pair_out fuzz h k oy ox p.y p.x hk heq.le]

/-- C70, the full claim: from every point of the box along every direction, the point on the boundary ahead is returned. -/
def C70_claim : Prop := ∀ (fuzz far : ℚ) (b : Box ℚ) (p : Pt ℚ) (ox oy d : ℚ), 0 < fuzz → b.Has p → fuzz < d → d < far →
  b.Inside (goTo p ox oy (d / 2)) → b.Edge (goTo p ox oy d) → b.intersect fuzz far p ox oy = some (goTo p ox oy d)

/-- C70 is false: from the centre along the x axis the point behind is returned. -/
theorem C70_claim_false : ¬ C70_claim := by
  intro h
  have h1 := h (1 / 1000) 1000 (around ⟨0, 0⟩ 1 1) ⟨0, 0⟩ 1 0 1 (by norm_num) (by norm_num [Box.Has, around]) (by norm_num)
    (by norm_num) (by norm_num [Box.Inside, around, goTo]) (by norm_num [Box.Edge, Box.Has, around, goTo])
  rw [C70_centre_x (1 / 1000) 1000 ⟨0, 0⟩ 1 1 1 0 (by norm_num) (by norm_num) (by norm_num) (by norm_num) (by norm_num)] at h1
  norm_num [goTo] at h1

/-- A ray of slope 3/4 across a box of 4 by 4 from the left side. -/
example : (around ⟨2, 2⟩ 2 2 : Box ℚ).intersect (1 / 1000) 1000 ⟨0, 1 / 2⟩ (4 / 5) (3 / 5) = some ⟨4, 7 / 2⟩ := by
  have := C70_from_boundary_partial (1 / 1000) 1000 (by norm_num) (around ⟨2, 2⟩ 2 2 : Box ℚ) (by norm_num [around]) (by norm_num [around])
    ⟨0, 1 / 2⟩ (4 / 5) (3 / 5) 5 (by norm_num [Box.Edge, Box.Has, around]) (by norm_num) (by norm_num)
    (by norm_num [Box.Inside, around, goTo]) (by norm_num [Box.OnSide, around, goTo])
  rw [this]
  norm_num [goTo]

end Verif.Geom
