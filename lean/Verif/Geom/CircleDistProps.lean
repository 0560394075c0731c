import Verif.Geom.CircleProps
import Verif.Geom.DistProps

/-! # C64 continued: distance to a circle -/

namespace Verif.Geom

/-- The direction is a unit vector. -/
def Unit3 (dir : Dir ℝ) : Prop := dir.ox ^ 2 + dir.oy ^ 2 + dir.oz ^ 2 = 1

/-- The coefficients used by the code. -/
structure CircCoef (circ : Circle ℝ) (p : Pt ℝ) (dir : Dir ℝ) (a k c : ℝ) : Prop where
  ha : a = 1 - dir.oz * dir.oz
  hk : k = (p.x - circ.c.x) * dir.ox + (p.y - circ.c.y) * dir.oy
  hc : c = (p.x - circ.c.x) * (p.x - circ.c.x) + (p.y - circ.c.y) * (p.y - circ.c.y) - circ.r * circ.r
  hu : a = dir.ox ^ 2 + dir.oy ^ 2

theorem circCoef (circ : Circle ℝ) (p : Pt ℝ) (dir : Dir ℝ) (h : Unit3 dir) : ∃ a k c, CircCoef circ p dir a k c :=
  ⟨_, _, _, rfl, rfl, rfl, by unfold Unit3 at h; linarith⟩

theorem fromCentre_travel {circ : Circle ℝ} {p : Pt ℝ} {dir : Dir ℝ} {a k c : ℝ} (q : CircCoef circ p dir a k c) (s : ℝ) :
    fromCentre circ (travel p dir s) - circ.r ^ 2 = a * s ^ 2 + 2 * k * s + c := by
  rw [q.hu, q.hk, q.hc]; simp only [fromCentre, travel]; ring

theorem circleDist_eq {circ : Circle ℝ} {p : Pt ℝ} {dir : Dir ℝ} {a k c : ℝ} (q : CircCoef circ p dir a k c) (fuzz : ℝ)
    (co : Bool) :
    circleDist Real.sqrt fuzz circ p dir co =
      if a = 0 then none
      else if k * k - a * c < 0 then none
      else if co || decide (|c| < fuzz) then
        if 0 ≤ k then none else some ((-k + Real.sqrt (k * k - a * c)) / a)
      else if c < 0 then some ((-k + Real.sqrt (k * k - a * c)) / a)
      else if 0 ≤ (-k - Real.sqrt (k * k - a * c)) / a then some ((-k - Real.sqrt (k * k - a * c)) / a) else none := by
  unfold circleDist
  simp only [← q.ha, ← q.hk, ← q.hc]

theorem circ_roots {circ : Circle ℝ} {p : Pt ℝ} {dir : Dir ℝ} {a k c : ℝ} (q : CircCoef circ p dir a k c) (ha : a ≠ 0)
    (hd : ¬ k * k - a * c < 0) :
    0 < a ∧ Roots a k c ((-k - Real.sqrt (k * k - a * c)) / a) ((-k + Real.sqrt (k * k - a * c)) / a) := by
  have hap : 0 < a := lt_of_le_of_ne (by rw [q.hu]; positivity) (Ne.symm ha)
  have hs := Real.sq_sqrt (le_of_not_gt hd)
  have hn := Real.sqrt_nonneg (k * k - a * c)
  have hp : 0 < k * k - a * c → 0 < Real.sqrt (k * k - a * c) := Real.sqrt_pos.mpr
  generalize Real.sqrt (k * k - a * c) = d at *
  refine ⟨hap, fun t => ?_, ?_, fun h => ?_⟩
  · field_simp
    linear_combination hs
  · exact div_le_div_of_nonneg_right (by linarith) hap.le
  · exact div_lt_div_of_pos_right (by linarith [hp h]) hap

/-- C64: from a point off the circle (by more than the tolerance), a returned distance is not negative, leads onto the
circle, and there is no contact before. -/
theorem C64_circle_hit (fuzz : ℝ) (circ : Circle ℝ) (p : Pt ℝ) (dir : Dir ℝ) (hu : Unit3 dir)
    (hoff : fuzz ≤ |fromCentre circ p - circ.r ^ 2|) (hne : fromCentre circ p ≠ circ.r ^ 2) (d : ℝ)
    (h : circleDist Real.sqrt fuzz circ p dir false = some d) :
    0 ≤ d ∧ fromCentre circ (travel p dir d) = circ.r ^ 2 ∧
      ∀ s, 0 ≤ s → s < d → fromCentre circ (travel p dir s) ≠ circ.r ^ 2 := by
  obtain ⟨a, k, c, q⟩ := circCoef circ p dir hu
  have e0 : fromCentre circ p - circ.r ^ 2 = c := by rw [q.hc]; simp only [fromCentre]; ring
  rw [e0] at hoff
  have hc0 : c ≠ 0 := by intro e; rw [e] at e0; exact hne (by linarith)
  rw [circleDist_eq q] at h
  by_cases ha : a = 0
  · rw [if_pos ha] at h; cases h
  by_cases hd : k * k - a * c < 0
  · rw [if_neg ha, if_pos hd] at h; cases h
  obtain ⟨hap, r⟩ := circ_roots q ha hd
  rw [if_neg ha, if_neg hd, Bool.false_or, if_neg (by simpa using hoff)] at h
  have at' : ∀ s, fromCentre circ (travel p dir s) = circ.r ^ 2 + a * ((s - (-k - Real.sqrt (k * k - a * c)) / a) *
      (s - (-k + Real.sqrt (k * k - a * c)) / a)) := fun s => by
    rw [← r.factor]; linarith [fromCentre_travel q s]
  have f0 := r.factor 0
  have hle := r.le
  generalize (-k - Real.sqrt (k * k - a * c)) / a = t1 at *
  generalize (-k + Real.sqrt (k * k - a * c)) / a = t2 at *
  have c0 : c = a * (t1 * t2) := by linear_combination f0
  by_cases hc : c < 0
  · rw [if_pos hc, Option.some.injEq] at h
    subst h
    have ht : t1 * t2 < 0 := by
      by_contra hn
      have := mul_nonneg hap.le (not_lt.mp hn)
      linarith
    have h1 : t1 < 0 ∧ 0 < t2 := by
      rcases mul_neg_iff.mp ht with ⟨x, y⟩ | ⟨x, y⟩
      · linarith
      · exact ⟨x, y⟩
    refine ⟨h1.2.le, by rw [at', sub_self, mul_zero, mul_zero, add_zero], fun s s0 s1 e => ?_⟩
    rw [at'] at e
    have : a * ((s - t1) * (s - t2)) < 0 := mul_neg_of_pos_of_neg hap (mul_neg_of_pos_of_neg (by linarith) (by linarith))
    linarith
  · rw [if_neg hc] at h
    split at h
    · rename_i hn
      rw [Option.some.injEq] at h
      subst h
      refine ⟨hn, by rw [at', sub_self, zero_mul, mul_zero, add_zero], fun s s0 s1 e => ?_⟩
      rw [at'] at e
      have : 0 < a * ((s - t1) * (s - t2)) := mul_pos hap (mul_pos_of_neg_of_neg (by linarith) (by linarith))
      linarith
    · cases h

/-- C64: from a point off the circle, no returned distance means that the circle is never met. -/
theorem C64_circle_miss (fuzz : ℝ) (circ : Circle ℝ) (p : Pt ℝ) (dir : Dir ℝ) (hu : Unit3 dir)
    (hoff : fuzz ≤ |fromCentre circ p - circ.r ^ 2|) (hne : fromCentre circ p ≠ circ.r ^ 2)
    (h : circleDist Real.sqrt fuzz circ p dir false = none) (s : ℝ) (hs : 0 ≤ s) :
    fromCentre circ (travel p dir s) ≠ circ.r ^ 2 := by
  obtain ⟨a, k, c, q⟩ := circCoef circ p dir hu
  have e0 : fromCentre circ p - circ.r ^ 2 = c := by rw [q.hc]; simp only [fromCentre]; ring
  rw [e0] at hoff
  have hc0 : c ≠ 0 := by intro e; rw [e] at e0; exact hne (by linarith)
  rw [circleDist_eq q] at h
  intro e
  have hz : a * s ^ 2 + 2 * k * s + c = 0 := by rw [← fromCentre_travel q s]; linarith
  by_cases ha : a = 0
  · have h1 : dir.ox = 0 := by
      have := q.hu; rw [ha] at this
      nlinarith [sq_nonneg dir.ox, sq_nonneg dir.oy]
    have h2 : dir.oy = 0 := by
      have := q.hu; rw [ha] at this
      nlinarith [sq_nonneg dir.ox, sq_nonneg dir.oy]
    have hk : k = 0 := by rw [q.hk, h1, h2]; ring
    rw [ha, hk] at hz
    exact hc0 (by linarith)
  rw [if_neg ha] at h
  by_cases hd : k * k - a * c < 0
  · have hap : 0 < a := lt_of_le_of_ne (by rw [q.hu]; positivity) (Ne.symm ha)
    nlinarith [sq_nonneg (a * s + k)]
  obtain ⟨hap, r⟩ := circ_roots q ha hd
  rw [if_neg hd, Bool.false_or, if_neg (by simpa using hoff)] at h
  rw [r.factor] at hz
  have f0 := r.factor 0
  have hle := r.le
  generalize (-k - Real.sqrt (k * k - a * c)) / a = t1 at *
  generalize (-k + Real.sqrt (k * k - a * c)) / a = t2 at *
  have c0 : c = a * (t1 * t2) := by linear_combination f0
  by_cases hc : c < 0
  · rw [if_pos hc] at h; cases h
  · rw [if_neg hc] at h
    split at h
    · cases h
    · rename_i hn
      have ht : 0 < t1 * t2 := by
        have : 0 < a * (t1 * t2) := by rw [← c0]; exact lt_of_le_of_ne (not_lt.mp hc) (Ne.symm hc0)
        exact (mul_pos_iff_of_pos_left hap).mp this
      have h1 : t1 < 0 := not_le.mp hn
      have h2 : t2 < 0 := by
        by_contra hh
        have := mul_nonpos_of_nonpos_of_nonneg h1.le (not_lt.mp hh)
        linarith
      have : 0 < a * ((s - t1) * (s - t2)) := mul_pos hap (mul_pos (by linarith) (by linarith))
      linarith

/-- C64: on the circle, whether or not it is declared coincident, the present contact does not count: a returned distance
is positive, leads to the other end of the chord and everything between is inside; without one the disc is not entered. -/
theorem C64_circle_surface (fuzz : ℝ) (hf : 0 < fuzz) (circ : Circle ℝ) (p : Pt ℝ) (dir : Dir ℝ) (hu : Unit3 dir)
    (hon : fromCentre circ p = circ.r ^ 2) (co : Bool) :
    (∀ d, circleDist Real.sqrt fuzz circ p dir co = some d → 0 < d ∧ fromCentre circ (travel p dir d) = circ.r ^ 2 ∧
      ∀ s, 0 < s → s < d → fromCentre circ (travel p dir s) < circ.r ^ 2) ∧
    (circleDist Real.sqrt fuzz circ p dir co = none → ∀ s, 0 < s → circ.r ^ 2 ≤ fromCentre circ (travel p dir s)) := by
  obtain ⟨a, k, c, q⟩ := circCoef circ p dir hu
  have e0 : c = 0 := by rw [q.hc]; simp only [fromCentre] at hon; linarith
  have har : 0 ≤ a := by rw [q.hu]; positivity
  have hk : a = 0 → k = 0 := by
    intro ha
    have h1 : dir.ox = 0 := by
      have := q.hu; rw [ha] at this
      nlinarith [sq_nonneg dir.ox, sq_nonneg dir.oy]
    have h2 : dir.oy = 0 := by
      have := q.hu; rw [ha] at this
      nlinarith [sq_nonneg dir.ox, sq_nonneg dir.oy]
    rw [q.hk, h1, h2]; ring
  have hd : ¬ k * k - a * c < 0 := by rw [e0]; nlinarith [mul_self_nonneg k]
  have hsq : Real.sqrt (k * k - a * c) = |k| := by rw [e0, mul_zero, sub_zero, Real.sqrt_mul_self_eq_abs]
  have hco : (co || decide (|c| < fuzz)) = true := by rw [e0, abs_zero, decide_eq_true hf, Bool.or_true]
  have at' : ∀ s, fromCentre circ (travel p dir s) = circ.r ^ 2 + s * (a * s + 2 * k) := fun s => by
    linarith [fromCentre_travel q s, e0]
  rw [circleDist_eq q, if_neg hd, if_pos hco, hsq]
  constructor
  · intro d h
    by_cases ha : a = 0
    · rw [if_pos ha] at h; cases h
    rw [if_neg ha] at h
    split at h
    · cases h
    · rename_i hk0
      have hap : 0 < a := lt_of_le_of_ne har (Ne.symm ha)
      have hkn : k < 0 := not_le.mp hk0
      rw [abs_of_neg hkn, Option.some.injEq] at h
      have hdd : a * d + 2 * k = 0 := by rw [← h]; field_simp; ring
      have hd0 : 0 < d := by rw [← h]; exact div_pos (by linarith) hap
      refine ⟨hd0, by rw [at', hdd, mul_zero, add_zero], fun s s0 s1 => ?_⟩
      rw [at']
      have : s * (a * s + 2 * k) < 0 := mul_neg_of_pos_of_neg s0 (by nlinarith)
      linarith
  · intro h s hs
    rw [at']
    by_cases ha : a = 0
    · rw [ha, hk ha]; linarith [mul_zero s]
    rw [if_neg ha] at h
    split at h
    · rename_i hk0
      have : 0 ≤ s * (a * s + 2 * k) := by positivity
      linarith
    · cases h

/-- A point outside, one inside and one on the unit circle, heading for it. -/
example : circleDist Real.sqrt (1 / 100) ⟨⟨0, 0⟩, 1⟩ ⟨-3, 0⟩ ⟨1, 0, 0⟩ false = some 2 := by
  have q : CircCoef ⟨⟨0, 0⟩, 1⟩ ⟨-3, 0⟩ ⟨1, 0, 0⟩ 1 (-3) 8 := ⟨by norm_num, by norm_num, by norm_num, by norm_num⟩
  rw [circleDist_eq q, show (-3 : ℝ) * -3 - 1 * 8 = 1 by norm_num, Real.sqrt_one, abs_of_pos (by norm_num : (0 : ℝ) < 8)]
  norm_num
example : circleDist Real.sqrt (1 / 100) ⟨⟨0, 0⟩, 1⟩ ⟨-1, 0⟩ ⟨1, 0, 0⟩ false = some 2 := by
  have q : CircCoef ⟨⟨0, 0⟩, 1⟩ ⟨-1, 0⟩ ⟨1, 0, 0⟩ 1 (-1) 0 := ⟨by norm_num, by norm_num, by norm_num, by norm_num⟩
  rw [circleDist_eq q, show (-1 : ℝ) * -1 - 1 * 0 = 1 by norm_num, Real.sqrt_one]
  norm_num

end Verif.Geom
