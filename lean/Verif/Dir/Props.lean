import Verif.Dir.Model
import Mathlib.Analysis.SpecialFunctions.Trigonometric.Inverse
import Mathlib.Tactic.Linarith
import Mathlib.Tactic.NormNum
import Mathlib.Tactic.Ring
import Mathlib.Tactic.IntervalCases
import Mathlib.Tactic.FieldSimp

/-!
# C78: directions
-/

namespace Verif.Dir

open Verif.Mesh

/-- The functions of the library as real functions. -/
noncomputable def real : Trig ℝ := ⟨Real.sin, Real.cos, Real.arccos, Real.pi, 2 * Real.pi⟩

/-- A vector of length one. -/
def Unit3 (x y z : ℝ) : Prop := x ^ 2 + y ^ 2 + z ^ 2 = 1

theorem quot_ne (a b : ℝ) (h : b ≠ 0) : quot a b = some (a / b) := if_neg h

theorem acosOf_in (x : ℝ) (h1 : -1 ≤ x) (h2 : x ≤ 1) : acosOf real x = some (Real.arccos x) := if_pos ⟨h1, h2⟩

/-- C78: a direction built from the cosines of a unit vector (other than the z axis) has angles that give back the cosines: azimuth in
[0, 2 pi), polar angle in (0, pi), and the reciprocal of its sine. -/
theorem C78_of_cosines (ox oy oz : ℝ) (h : Unit3 ox oy oz) (hz : oz ^ 2 ≠ 1) :
    ∃ alpha theta rs, (ofCosines real ox oy oz).alpha = some alpha ∧ (ofCosines real ox oy oz).theta = some theta ∧
      (ofCosines real ox oy oz).rsintheta = some rs ∧ 0 ≤ alpha ∧ alpha < 2 * Real.pi ∧ 0 < theta ∧ theta < Real.pi ∧
      Real.sin theta * Real.cos alpha = ox ∧ Real.sin theta * Real.sin alpha = oy ∧ Real.cos theta = oz ∧ rs * Real.sin theta = 1 := by
  unfold Unit3 at h
  have hlt : oz ^ 2 < 1 := lt_of_le_of_ne (by nlinarith [sq_nonneg ox, sq_nonneg oy]) hz
  have hz1 : -1 < oz := by nlinarith
  have hz2 : oz < 1 := by nlinarith
  set s := Real.sin (Real.arccos oz) with hs
  have hsq : s = Real.sqrt (1 - oz ^ 2) := Real.sin_arccos oz
  have hpos : 0 < s := by rw [hsq]; exact Real.sqrt_pos.mpr (by linarith)
  have hss : s ^ 2 = 1 - oz ^ 2 := by rw [hsq]; exact Real.sq_sqrt (by linarith)
  have hc : (ox / s) ^ 2 ≤ 1 := by
    rw [div_pow, div_le_one (by positivity)]
    nlinarith [sq_nonneg oy]
  have hc1 : -1 ≤ ox / s := by nlinarith
  have hc2 : ox / s ≤ 1 := by nlinarith
  have hsin : s * Real.sin (Real.arccos (ox / s)) = |oy| := by
    rw [Real.sin_arccos, ← Real.sqrt_sq hpos.le, ← Real.sqrt_mul (sq_nonneg s), ← Real.sqrt_sq_eq_abs]
    congr 1
    rw [Real.sqrt_sq hpos.le]
    field_simp
    nlinarith
  have hcos : s * Real.cos (Real.arccos (ox / s)) = ox := by
    rw [Real.cos_arccos hc1 hc2]; field_simp
  have ht1 : 0 < Real.arccos oz := Real.arccos_pos.mpr hz2
  have ht2 : Real.arccos oz < Real.pi := by
    rcases lt_or_eq_of_le (Real.arccos_le_pi oz) with h' | h'
    · exact h'
    · rw [Real.arccos_eq_pi] at h'; linarith
  have hT : (ofCosines real ox oy oz).theta = some (Real.arccos oz) := acosOf_in oz hz1.le hz2.le
  have hR : (ofCosines real ox oy oz).rsintheta = some (1 / s) := by
    simp only [ofCosines, acosOf_in oz hz1.le hz2.le, Option.bind_some]
    exact quot_ne 1 s hpos.ne'
  have hA : (ofCosines real ox oy oz).alpha = some (if oy < 0 then 2 * Real.pi - Real.arccos (ox / s) else Real.arccos (ox / s)) := by
    simp only [ofCosines, acosOf_in oz hz1.le hz2.le, Option.bind_some]
    rw [show quot ox (real.sin (Real.arccos oz)) = some (ox / s) from quot_ne ox s hpos.ne']
    simp only [Option.bind_some, acosOf_in _ hc1 hc2, Option.map_some]
    rfl
  refine ⟨_, _, _, hA, hT, hR, ?_, ?_, ht1, ht2, ?_, ?_, Real.cos_arccos hz1.le hz2.le, by rw [← hs]; field_simp⟩
  · have := Real.arccos_le_pi (ox / s)
    have := Real.arccos_nonneg (ox / s)
    have := Real.pi_pos
    split_ifs <;> linarith
  · have h1 := Real.arccos_le_pi (ox / s)
    have h0 := Real.pi_pos
    split_ifs with hy
    · have : 0 < Real.arccos (ox / s) := by
        rw [Real.arccos_pos]
        rcases lt_or_eq_of_le hc2 with h' | h'
        · exact h'
        · exfalso
          have : ox = s := by field_simp at h'; linarith
          nlinarith
      linarith
    · linarith
  · split_ifs with hy
    · rw [Real.cos_two_pi_sub, ← hs, hcos]
    · rw [← hs, hcos]
  · split_ifs with hy
    · rw [Real.sin_two_pi_sub, ← hs, mul_neg, hsin, abs_of_neg hy]; ring
    · rw [← hs, hsin, abs_of_nonneg (not_lt.mp hy)]

/-- C78: a direction built from angles is a unit vector, and building from its cosines gives back the angles. -/
theorem C78_of_angles (alpha theta : ℝ) (ha : 0 ≤ alpha) (ha2 : alpha < 2 * Real.pi) (ht : 0 < theta) (ht2 : theta < Real.pi) :
    let d := ofAngles real alpha theta
    Unit3 d.ox d.oy d.oz ∧ d.rsintheta = some (1 / Real.sin theta) ∧ ofCosines real d.ox d.oy d.oz = d := by
  intro d
  have hs : 0 < Real.sin theta := Real.sin_pos_of_pos_of_lt_pi ht ht2
  have e1 := Real.sin_sq_add_cos_sq theta
  have e2 := Real.sin_sq_add_cos_sq alpha
  have hu : Unit3 d.ox d.oy d.oz := by
    show (Real.sin theta * Real.cos alpha) ^ 2 + (Real.sin theta * Real.sin alpha) ^ 2 + Real.cos theta ^ 2 = 1
    linear_combination e1 + Real.sin theta ^ 2 * e2
  have hr : d.rsintheta = some (1 / Real.sin theta) := quot_ne 1 _ hs.ne'
  refine ⟨hu, hr, ?_⟩
  have hth : Real.arccos (Real.cos theta) = theta := Real.arccos_cos ht.le ht2.le
  have hT : acosOf real (Real.cos theta) = some theta := by
    rw [acosOf_in _ (Real.neg_one_le_cos theta) (Real.cos_le_one theta), hth]
  have hq : quot (Real.sin theta * Real.cos alpha) (real.sin theta) = some (Real.cos alpha) := by
    rw [quot_ne _ _ (show real.sin theta ≠ 0 from hs.ne')]
    show some (Real.sin theta * Real.cos alpha / Real.sin theta) = _
    rw [mul_div_cancel_left₀ _ hs.ne']
  show ofCosines real (Real.sin theta * Real.cos alpha) (Real.sin theta * Real.sin alpha) (Real.cos theta) = d
  simp only [ofCosines, hT, Option.bind_some, hq, acosOf_in _ (Real.neg_one_le_cos alpha) (Real.cos_le_one alpha), Option.map_some]
  have hal : (if Real.sin theta * Real.sin alpha < 0 then real.twopi - Real.arccos (Real.cos alpha) else Real.arccos (Real.cos alpha)) = alpha := by
    split_ifs with hy
    · have hneg : Real.sin alpha < 0 := by nlinarith
      have hpi : Real.pi < alpha := by
        by_contra hc
        have := Real.sin_nonneg_of_nonneg_of_le_pi ha (not_lt.mp hc)
        linarith
      rw [← Real.cos_two_pi_sub, Real.arccos_cos (by linarith) (by linarith)]
      show 2 * Real.pi - (2 * Real.pi - alpha) = alpha
      ring
    · have hle : alpha ≤ Real.pi := by
        by_contra hc
        have h1 : Real.pi < alpha := not_le.mp hc
        have : Real.sin alpha < 0 := by
          rw [← neg_pos, ← Real.sin_sub_pi] 
          exact Real.sin_pos_of_pos_of_lt_pi (by linarith) (by linarith)
        exact hy (by nlinarith)
      exact Real.arccos_cos ha hle
  rw [hal]
  rfl

/-- The component that changes its sign in a reflection. -/
def mirrored (x y z : ℝ) : Surface → ℝ × ℝ × ℝ
  | .EAST | .WEST => (-x, y, z)
  | .NORTH | .SOUTH => (x, -y, z)
  | .TOP | .BOTTOM => (x, y, -z)
  | .INTERNAL => (x, y, z)

/-- C78: reflection inverts the component along the normal of the surface and leaves the others; with the angles to match. -/
theorem C78_reflect (d : Direction ℝ) (s : Surface) :
    let r := reflect real d s
    (r.ox, r.oy, r.oz) = mirrored d.ox d.oy d.oz s ∧ (s ≠ .INTERNAL → r = ofCosines real r.ox r.oy r.oz) := by
  cases s <;> simp [reflect, mirrored, ofCosines]

/-- C78: reflecting twice at the same or the opposite surface gives back the cosines. -/
theorem C78_reflect_twice (d : Direction ℝ) (s : Surface) :
    let r := reflect real (reflect real d s) s
    r.ox = d.ox ∧ r.oy = d.oy ∧ r.oz = d.oz := by
  cases s <;> simp [reflect, ofCosines]

/-- Signs of the octants 1 to 8: the first four are above, counted from the positive quadrant against the clock; then those below. -/
def signs (o : Nat) : ℝ × ℝ × ℝ :=
  (if o % 4 = 1 ∨ o % 4 = 0 then 1 else -1, if o % 4 = 1 ∨ o % 4 = 2 then 1 else -1, if o ≤ 4 then 1 else -1)

/-- C78: to_octant changes signs only, to those of the octant. -/
theorem C78_octant (d : Direction ℝ) (o : Nat) (h1 : 1 ≤ o) (h2 : o ≤ 8) :
    let r := toOctant real d o
    r.ox = (signs o).1 * |d.ox| ∧ r.oy = (signs o).2.1 * |d.oy| ∧ r.oz = (signs o).2.2 * |d.oz| ∧ r = ofCosines real r.ox r.oy r.oz := by
  interval_cases o <;> simp [toOctant, signs, ofCosines]

/-- C78: the upwind surface is one the direction comes from: its outward normal points against it, if the component is not zero. -/
theorem C78_upwind (d : Direction ℝ) :
    (0 < d.ox → upwindSurface d .X = .WEST) ∧ (d.ox < 0 → upwindSurface d .X = .EAST) ∧
    (0 < d.oy → upwindSurface d .Y = .SOUTH) ∧ (d.oy < 0 → upwindSurface d .Y = .NORTH) ∧
    (0 < d.oz → upwindSurface d .Z = .BOTTOM) ∧ (d.oz < 0 → upwindSurface d .Z = .TOP) := by
  refine ⟨?_, ?_, ?_, ?_, ?_, ?_⟩ <;> intro h <;> simp [upwindSurface, h, h.le, not_lt.mpr h.le]

/-- C78: an isotropic direction is a unit vector whose z component is uniform if the second number is, at an azimuth proportional to the
first number; all angles are finite unless the second number is zero. -/
theorem C78_isotropic (r1 r2 : ℝ) (h2 : 0 ≤ r2) (h3 : r2 < 1) :
    ∃ d, isotropic real r1 r2 = some d ∧ Unit3 d.ox d.oy d.oz ∧ d.oz = 2 * r2 - 1 ∧ d.alpha = some (2 * Real.pi * r1) ∧
      d.ox = Real.sqrt (1 - d.oz ^ 2) * Real.cos (2 * Real.pi * r1) ∧ d.oy = Real.sqrt (1 - d.oz ^ 2) * Real.sin (2 * Real.pi * r1) ∧
      (d.rsintheta.isSome ↔ r2 ≠ 0) := by
  have hT := acosOf_in (r2 * 2 - 1) (by linarith) (by linarith)
  have hcz : Real.cos (Real.arccos (r2 * 2 - 1)) = r2 * 2 - 1 := Real.cos_arccos (by linarith) (by linarith)
  refine ⟨ofAngles real (r1 * (2 * Real.pi)) (Real.arccos (r2 * 2 - 1)), ?_, ?_, ?_, ?_, ?_, ?_, ?_⟩
  · unfold isotropic; rw [hT]; rfl
  · show (Real.sin _ * Real.cos _) ^ 2 + (Real.sin _ * Real.sin _) ^ 2 + Real.cos _ ^ 2 = 1
    linear_combination Real.sin_sq_add_cos_sq (Real.arccos (r2 * 2 - 1)) +
      Real.sin (Real.arccos (r2 * 2 - 1)) ^ 2 * Real.sin_sq_add_cos_sq (r1 * (2 * Real.pi))
  · show Real.cos (Real.arccos (r2 * 2 - 1)) = _
    rw [hcz]; ring
  · show some (r1 * (2 * Real.pi)) = _
    congr 1; ring
  · show Real.sin (Real.arccos (r2 * 2 - 1)) * Real.cos (r1 * (2 * Real.pi)) = Real.sqrt (1 - Real.cos (Real.arccos (r2 * 2 - 1)) ^ 2) * _
    rw [hcz, Real.sin_arccos, mul_comm r1]
  · show Real.sin (Real.arccos (r2 * 2 - 1)) * Real.sin (r1 * (2 * Real.pi)) = Real.sqrt (1 - Real.cos (Real.arccos (r2 * 2 - 1)) ^ 2) * _
    rw [hcz, Real.sin_arccos, mul_comm r1]
  · show (quot 1 (Real.sin (Real.arccos (r2 * 2 - 1)))).isSome ↔ _
    rw [Real.sin_arccos]
    unfold quot
    have : Real.sqrt (1 - (r2 * 2 - 1) ^ 2) = 0 ↔ r2 = 0 := by
      rw [Real.sqrt_eq_zero (by nlinarith)]
      constructor
      · intro h
        have : r2 * (1 - r2) = 0 := by nlinarith
        rcases mul_eq_zero.mp this with h' | h'
        · exact h'
        · linarith
      · rintro rfl; norm_num
    split_ifs with hq
    · simp [this.mp hq]
    · simp only [Option.isSome_some, true_iff]
      exact fun h => hq (this.mpr h)

/-- C78: along the z axis the azimuth does not exist and is not a number. -/
theorem C78_axis (oz : ℝ) (h : oz ^ 2 = 1) : (ofCosines real 0 0 oz).alpha = none ∧ (ofCosines real 0 0 oz).rsintheta = none := by
  have hs : Real.sin (Real.arccos oz) = 0 := by rw [Real.sin_arccos, h]; simp
  have h1 : -1 ≤ oz := by nlinarith
  have h2 : oz ≤ 1 := by nlinarith
  have hq : ∀ a : ℝ, quot a (real.sin (Real.arccos oz)) = none := fun a => if_pos hs
  simp only [ofCosines, acosOf_in oz h1 h2, Option.bind_some, hq, Option.bind_none]
  exact ⟨trivial, trivial⟩

/-- C78: modify_alpha keeps the polar angle. -/
theorem C78_modify (alpha theta new : ℝ) :
    modifyAlpha real (ofAngles real alpha theta) new = some (ofAngles real new theta) := rfl

/-- Instances. -/
example : Unit3 (3 / 5) (-4 / 5) 0 ∧ ((0 : ℝ) ^ 2 ≠ 1) ∧ ((ofCosines real (3 / 5) (-4 / 5) 0).alpha).isSome := by
  have hu : Unit3 (3 / 5) (-4 / 5) 0 := by unfold Unit3; norm_num
  refine ⟨hu, by norm_num, ?_⟩
  obtain ⟨a, _, _, h, _⟩ := C78_of_cosines _ _ _ hu (by norm_num)
  rw [h]; rfl

example : (toOctant real ⟨1 / 3, -2 / 3, 2 / 3, none, none, none⟩ 7).ox = -(1 / 3) ∧ (signs 7).1 = -1 := by
  simp [toOctant, ofCosines, signs]

end Verif.Dir
