import Verif.PinMesh.CylProps
import Mathlib.Analysis.SpecialFunctions.Complex.Arg
import Mathlib.Algebra.Order.Archimedean.Real.Basic

/-! # C68: the region of a point in the cylindrical pin mesh -/

namespace Verif.PinMesh

open Verif.Geom

/-- `atan2` on the reals: the argument in (-π, π], π on the negative x axis (`y` a positive zero). -/
noncomputable def atan2 (y x : ℝ) : ℝ := Complex.arg ⟨x, y⟩

/-- The angle of a point as the program computes it. -/
noncomputable def angle (p : Pt ℝ) : ℝ := alpha atan2 (2 * Real.pi) p

/-- Distance to the origin. -/
noncomputable def dist0 (p : Pt ℝ) : ℝ := Real.sqrt (p.x * p.x + p.y * p.y)

theorem norm_mk (x y : ℝ) : ‖(⟨x, y⟩ : ℂ)‖ = Real.sqrt (x * x + y * y) := by
  rw [Complex.norm_def, Complex.normSq_mk]

/-- C68: away from the x axis the angle is the polar angle of the point, between 0 and 2π. -/
theorem C68_angle_partial (p : Pt ℝ) (hy : p.y ≠ 0) :
    0 < angle p ∧ angle p < 2 * Real.pi ∧ p.x = dist0 p * Real.cos (angle p) ∧ p.y = dist0 p * Real.sin (angle p) := by
  have hpi := Real.pi_pos
  have hc : dist0 p * Real.cos (Complex.arg ⟨p.x, p.y⟩) = p.x := by
    have := Complex.norm_mul_cos_arg ⟨p.x, p.y⟩
    rwa [norm_mk] at this
  have hs : dist0 p * Real.sin (Complex.arg ⟨p.x, p.y⟩) = p.y := by
    have := Complex.norm_mul_sin_arg ⟨p.x, p.y⟩
    rwa [norm_mk] at this
  unfold angle alpha atan2
  by_cases h : 0 < p.y
  · rw [if_pos h]
    have h0 : 0 ≤ Complex.arg ⟨p.x, p.y⟩ := Complex.arg_nonneg_iff.mpr h.le
    have h1 : Complex.arg ⟨p.x, p.y⟩ ≤ Real.pi := Complex.arg_le_pi _
    refine ⟨lt_of_le_of_ne h0 ?_, by linarith, hc.symm, hs.symm⟩
    intro e
    rw [← e, Real.sin_zero, mul_zero] at hs
    exact hy hs.symm
  · rw [if_neg h]
    have hneg : p.y < 0 := lt_of_le_of_ne (not_lt.mp h) hy
    have h0 : Complex.arg ⟨p.x, p.y⟩ < 0 := Complex.arg_neg_iff.mpr hneg
    have h1 : -Real.pi < Complex.arg ⟨p.x, p.y⟩ := Complex.neg_pi_lt_arg _
    refine ⟨by linarith, by linarith, ?_, ?_⟩
    · rw [Real.cos_add_two_pi]; exact hc.symm
    · rw [Real.sin_add_two_pi]; exact hs.symm

/-- C68: on the positive x axis the angle is 2π and on the negative one it is 3π. -/
theorem C68_angle_axis (x : ℝ) (hx : x ≠ 0) : angle ⟨x, 0⟩ = if 0 < x then 2 * Real.pi else 3 * Real.pi := by
  unfold angle alpha atan2
  rw [if_neg (lt_irrefl 0)]
  by_cases h : 0 < x
  · rw [if_pos h, show (⟨x, 0⟩ : ℂ) = ((x : ℝ) : ℂ) from rfl, Complex.arg_ofReal_of_nonneg h.le, zero_add]
  · rw [if_neg h, show (⟨x, 0⟩ : ℂ) = ((x : ℝ) : ℂ) from rfl,
      Complex.arg_ofReal_of_neg (lt_of_le_of_ne (not_lt.mp h) hx)]
    ring

/-- The documentation of `Point2::alpha` (points.hpp): the angle lies between 0 and 2π. -/
def C68_angle_claim : Prop := ∀ p : Pt ℝ, 0 ≤ angle p ∧ angle p ≤ 2 * Real.pi

theorem C68_angle_claim_false : ¬ C68_angle_claim := by
  intro h
  have h1 := (h ⟨-1, 0⟩).2
  rw [C68_angle_axis (-1) (by norm_num), if_neg (by norm_num)] at h1
  linarith [Real.pi_pos]

theorem ringOf_spec (radii : List ℝ) (r : ℝ) :
    ringOf radii r ≤ radii.length ∧ (∀ i x, i < ringOf radii r → radii[i]? = some x → x ≤ r) ∧
    (∀ x, radii[ringOf radii r]? = some x → r < x) := by
  induction radii with
  | nil => exact ⟨le_refl _, fun i x h => by simp [ringOf] at h, fun x h => by simp at h⟩
  | cons a as ih =>
    obtain ⟨h1, h2, h3⟩ := ih
    unfold ringOf
    by_cases h : r < a
    · rw [if_pos h]
      refine ⟨Nat.zero_le _, fun i x hi => absurd hi (Nat.not_lt_zero _), ?_⟩
      intro x hx
      rw [List.getElem?_cons_zero, Option.some.injEq] at hx
      rw [← hx]; exact h
    · rw [if_neg h]
      refine ⟨by rw [List.length_cons]; omega, ?_, ?_⟩
      · intro i x hi hx
        cases i with
        | zero =>
          rw [List.getElem?_cons_zero, Option.some.injEq] at hx
          rw [← hx]; exact not_lt.mp h
        | succ i => rw [List.getElem?_cons_succ] at hx; exact h2 i x (by omega) hx
      · intro x hx
        rw [List.getElem?_cons_succ] at hx; exact h3 x hx

theorem sector_floor (a : ℝ) (n : Nat) (hn : 1 ≤ n) (h0 : 0 ≤ a) (h1 : a < 2 * Real.pi) :
    ∃ ia : Nat, toInt (a / (2 * Real.pi / ((n : Int) : ℝ))) = ia ∧ ia < n ∧
    ia * (2 * Real.pi / n) ≤ a ∧ a < (ia + 1) * (2 * Real.pi / n) := by
  have hn' : (0 : ℝ) < n := by exact_mod_cast hn
  have hpi := Real.pi_pos
  have hs : 0 < 2 * Real.pi / (n : ℝ) := by positivity
  have hq : 0 ≤ a / (2 * Real.pi / (n : ℝ)) := div_nonneg h0 hs.le
  rw [Int.cast_natCast, toInt, if_pos hq]
  obtain ⟨ia, hia⟩ := Int.eq_ofNat_of_zero_le (Int.floor_nonneg.mpr hq)
  have hf1 := Int.floor_le (a / (2 * Real.pi / (n : ℝ)))
  have hf2 := Int.lt_floor_add_one (a / (2 * Real.pi / (n : ℝ)))
  rw [hia, Int.cast_natCast] at hf1 hf2
  rw [le_div_iff₀ hs] at hf1
  rw [div_lt_iff₀ hs] at hf2
  refine ⟨ia, hia, ?_, hf1, hf2⟩
  have h2 : (ia : ℝ) * (2 * Real.pi / n) < n * (2 * Real.pi / n) := by
    rw [mul_div_cancel₀ _ (ne_of_gt hn')]; linarith
  have h3 := lt_of_mul_lt_mul_right h2 hs.le
  exact_mod_cast h3

/-- The region number of the program for a mesh with `n` sectors. -/
noncomputable def Cyl.regionAt (m : Cyl ℝ) (p : Pt ℝ) : Int := m.findReg Real.sqrt atan2 (2 * Real.pi) p

/-- C68: a point of the pin off the x axis gets a region `ir * n + ia` of the mesh, where the point lies between the mesh
radii `ir - 1` and `ir` (outside all of them for the last ring), and its angle in the sector number `ia`. -/
theorem C68_region_partial (m : Cyl ℝ) (n : Nat) (hn : 1 ≤ n) (hm : m.nAzi = n) (p : Pt ℝ) (hy : p.y ≠ 0)
    (hpx : |p.x| ≤ m.pitch / 2) (hpy : |p.y| ≤ m.pitch / 2) :
    ∃ ir ia : Nat, m.regionAt p = ir * n + ia ∧ ir ≤ m.radii.length ∧ ia < n ∧ (0 ≤ m.regionAt p ∧ m.regionAt p < m.nReg) ∧
      (∀ i x, i < ir → m.radii[i]? = some x → x ≤ dist0 p) ∧ (∀ x, m.radii[ir]? = some x → dist0 p < x) ∧
      ia * (2 * Real.pi / n) ≤ angle p ∧ angle p < (ia + 1) * (2 * Real.pi / n) := by
  obtain ⟨a0, a1, _, _⟩ := C68_angle_partial p hy
  obtain ⟨ia, e, i1, i2, i3⟩ := sector_floor (angle p) n hn a0.le a1
  obtain ⟨r1, r2, r3⟩ := ringOf_spec m.radii (dist0 p)
  have heq : m.regionAt p = (ringOf m.radii (dist0 p) : Int) * n + ia := by
    unfold Cyl.regionAt Cyl.findReg
    rw [if_neg (by rintro (h | h) <;> linarith), hm]
    show (ringOf m.radii (dist0 p) : Int) * n + toInt (angle p / (2 * Real.pi / ((n : Int) : ℝ))) = _
    rw [e]
  refine ⟨ringOf m.radii (dist0 p), ia, heq, r1, i1, ?_, r2, r3, i2, i3⟩
  rw [heq, Cyl.nReg, hm]
  constructor
  · positivity
  · have : (ringOf m.radii (dist0 p) : Int) * n ≤ m.radii.length * n := by
      apply mul_le_mul_of_nonneg_right _ (by positivity)
      exact_mod_cast r1
    rw [add_mul, one_mul]
    omega

/-- C68: a point outside of the pin gets -1. -/
theorem C68_outside (m : Cyl ℝ) (p : Pt ℝ) (h : m.pitch / 2 < |p.x| ∨ m.pitch / 2 < |p.y|) : m.regionAt p = -1 := by
  unfold Cyl.regionAt Cyl.findReg
  rw [if_pos (by rcases h with h | h; left; linarith; right; linarith)]

/-- C68: on the positive x axis the number returned is that of the first region of the next ring, and in the outermost region it
is the number of regions. -/
theorem C68_positive_axis (m : Cyl ℝ) (n : Nat) (hn : 1 ≤ n) (hm : m.nAzi = n) (x : ℝ) (hx : 0 < x) (hp : x ≤ m.pitch / 2) :
    m.regionAt ⟨x, 0⟩ = ((ringOf m.radii x + 1 : Nat) : Int) * n ∧
    ((∀ r ∈ m.radii, r ≤ x) → m.regionAt ⟨x, 0⟩ = m.nReg) := by
  have hn' : (0 : ℝ) < n := by exact_mod_cast hn
  have hpi := Real.pi_pos
  have hd : dist0 ⟨x, 0⟩ = x := by
    unfold dist0; simp only [mul_zero, add_zero]; exact Real.sqrt_mul_self hx.le
  have ha : angle ⟨x, 0⟩ = 2 * Real.pi := by rw [C68_angle_axis x (ne_of_gt hx), if_pos hx]
  have heq : m.regionAt ⟨x, 0⟩ = ((ringOf m.radii x + 1 : Nat) : Int) * n := by
    unfold Cyl.regionAt Cyl.findReg
    rw [if_neg (by
      simp only [abs_of_pos hx, abs_zero]
      rintro (h | h) <;> linarith), hm]
    show (ringOf m.radii (dist0 ⟨x, 0⟩) : Int) * n + toInt (angle ⟨x, 0⟩ / (2 * Real.pi / ((n : Int) : ℝ))) = _
    rw [hd, ha]
    have e : (2 * Real.pi) / (2 * Real.pi / ((n : Int) : ℝ)) = ((n : Int) : ℝ) := by
      rw [Int.cast_natCast]; field_simp
    rw [e, toInt, if_pos (by rw [Int.cast_natCast]; exact hn'.le), Int.floor_intCast]
    push_cast; ring
  refine ⟨heq, fun hall => ?_⟩
  rw [heq, Cyl.nReg, hm]
  have hlen : ringOf m.radii x = m.radii.length := by
    obtain ⟨r1, _, r3⟩ := ringOf_spec m.radii x
    rcases Nat.lt_or_ge (ringOf m.radii x) m.radii.length with h | h
    · exfalso
      have h1 := r3 _ (List.getElem?_eq_getElem h)
      exact absurd h1 (not_lt.mpr (hall _ (List.getElem_mem h)))
    · omega
  rw [hlen]
  push_cast; ring

/-- C68, the full claim: a point of the pin gets a region of the mesh. -/
def C68_claim : Prop := ∀ (m : Cyl ℝ) (n : Nat) (p : Pt ℝ), 1 ≤ n → m.nAzi = n → |p.x| ≤ m.pitch / 2 → |p.y| ≤ m.pitch / 2 →
  0 ≤ m.regionAt p ∧ m.regionAt p < m.nReg

/-- C68 is false: `(1.5, 0)` in a pin of width 4 with one ring of radius 1 and 4 sectors is given region 8 of 8. -/
theorem C68_claim_false : ¬ C68_claim := by
  intro h
  have h1 := (h ⟨4, [1], [1], 4, [1]⟩ 4 ⟨3 / 2, 0⟩ (by norm_num) rfl (by norm_num [abs_of_pos]) (by norm_num)).2
  rw [(C68_positive_axis ⟨4, [1], [1], 4, [1]⟩ 4 (by norm_num) rfl (3 / 2) (by norm_num) (by norm_num)).2
    (by intro r hr; rw [List.mem_singleton.mp hr]; norm_num)] at h1
  exact lt_irrefl _ h1

example : ∃ ir ia : Nat, (⟨4, [1], [1], 4, [1]⟩ : Cyl ℝ).regionAt ⟨-1, -1⟩ = ir * (4 : Nat) + ia ∧ ir = 1 := by
  obtain ⟨ir, ia, h1, h2, _, _, _, h3, _⟩ := C68_region_partial ⟨4, [1], [1], 4, [1]⟩ 4 (by norm_num) rfl ⟨-1, -1⟩ (by norm_num)
    (by norm_num) (by norm_num)
  refine ⟨ir, ia, h1, ?_⟩
  rcases Nat.lt_or_ge ir 1 with h | h
  · exfalso
    obtain rfl : ir = 0 := by omega
    have h4 := h3 1 rfl
    unfold dist0 at h4
    rw [Real.sqrt_lt' (by norm_num)] at h4
    norm_num at h4
  · simp at h2; omega

end Verif.PinMesh
