import Verif.Rays.SpacingModel
import Verif.Rational.Props
import Mathlib.Analysis.SpecialFunctions.Trigonometric.Arctan
import Mathlib.Algebra.Order.Archimedean.Real.Basic
import Mathlib.Analysis.SpecialFunctions.Sqrt
import Mathlib.Tactic.Ring
import Mathlib.Tactic.Linarith
import Mathlib.Tactic.FieldSimp
import Mathlib.Tactic.Positivity
import Mathlib.Tactic.NormNum

/-!
# C34: modularised rays are never coarser than requested
-/

namespace Verif.Rays

open Verif.Rational

/-- Tangent of the angle that the rays finally have, and their spacing (ray_data.cpp:183-187), for a domain `hx` by
`hy` with `Nx` and `Ny` rays on its faces. -/
noncomputable def newTan (hx hy : ℝ) (Nx Ny : Nat) : ℝ := hy * Nx / (hx * Ny)

noncomputable def newSpacing (hx hy : ℝ) (Nx Ny : Nat) : ℝ := Real.cos (Real.arctan (newTan hx hy Nx Ny)) * hy / Ny

/-- The sine of the inverse tangent used by the RATIONAL method. -/
noncomputable def sinAtan (t : ℝ) : ℝ := |Real.sin (Real.arctan t)|

theorem newSpacing_eq (hx hy : ℝ) (Nx Ny : Nat) (h1 : 0 < hx) (h2 : 0 < hy) (h4 : 0 < Ny) :
    newSpacing hx hy Nx Ny = 1 / √((Nx / hx) ^ 2 + (Ny / hy) ^ 2) := by
  have h4' : (0 : ℝ) < Ny := by exact_mod_cast h4
  unfold newSpacing newTan
  rw [Real.cos_arctan]
  have e : (1 : ℝ) + (hy * Nx / (hx * Ny)) ^ 2 = (hy / Ny) ^ 2 * ((Nx / hx) ^ 2 + (Ny / hy) ^ 2) := by
    field_simp; ring
  rw [e, Real.sqrt_mul (by positivity), Real.sqrt_sq (by positivity)]
  have : 0 < √(((Nx : ℝ) / hx) ^ 2 + (Ny / hy) ^ 2) := Real.sqrt_pos.mpr (by positivity)
  field_simp

/-- Enough rays on both faces make the spacing fine enough. -/
theorem spacing_le (hx hy nom a b : ℝ) (Nx Ny : Nat) (h1 : 0 < hx) (h2 : 0 < hy) (hn : 0 < nom) (h4 : 0 < Ny)
    (ha : 0 ≤ a) (hb : 0 ≤ b) (hab : a ^ 2 + b ^ 2 = 1) (hNx : a / nom ≤ Nx / hx) (hNy : b / nom ≤ Ny / hy) :
    newSpacing hx hy Nx Ny ≤ nom := by
  rw [newSpacing_eq hx hy Nx Ny h1 h2 h4]
  have h : (1 / nom) ^ 2 ≤ (Nx / hx) ^ 2 + (Ny / hy) ^ 2 := by
    calc (1 / nom) ^ 2 = (a / nom) ^ 2 + (b / nom) ^ 2 := by
          rw [div_pow, div_pow, div_pow, ← add_div, hab, one_pow]
      _ ≤ _ := by gcongr
  have h' : 1 / nom ≤ √((Nx / hx) ^ 2 + (Ny / hy) ^ 2) := Real.le_sqrt_of_sq_le h
  have hp : 0 < √(((Nx : ℝ) / hx) ^ 2 + (Ny / hy) ^ 2) := lt_of_lt_of_le (by positivity) h'
  rw [div_le_iff₀ hp]
  calc (1 : ℝ) = nom * (1 / nom) := by field_simp
    _ ≤ _ := by gcongr

theorem ceilEven_spec (x : ℝ) (h : 0 < x) : x ≤ ceilEven x ∧ (ceilEven x : ℝ) < x + 2 ∧ 2 ∣ ceilEven x ∧ 0 < ceilEven x := by
  have h1 : 0 < ⌈x⌉ := Int.ceil_pos.mpr h
  have h2 : ((⌈x⌉.toNat : Nat) : ℝ) = (⌈x⌉ : ℝ) := by
    have : ((⌈x⌉.toNat : Nat) : Int) = ⌈x⌉ := Int.toNat_of_nonneg h1.le
    exact_mod_cast this
  have h3 := Int.le_ceil x
  have h4 := Int.ceil_lt_add_one x
  unfold ceilEven
  refine ⟨?_, ?_, by omega, by omega⟩
  · push_cast; rw [h2]
    have : (0 : ℝ) ≤ ((⌈x⌉.toNat % 2 : Nat) : ℝ) := Nat.cast_nonneg _
    push_cast at this
    linarith
  · push_cast; rw [h2]
    have : ((⌈x⌉.toNat % 2 : Nat) : ℝ) ≤ 1 := by
      exact_mod_cast (by omega : ⌈x⌉.toNat % 2 ≤ 1)
    push_cast at this
    linarith

/-- C34: each face gets at least the rays the requested spacing needs, and fewer than two more. -/
theorem C34_trig_count (hx hy nom α : ℝ) (h1 : 0 < hx) (h2 : 0 < hy) (hn : 0 < nom) (ha0 : 0 < α)
    (ha1 : α < Real.pi / 2) :
    let N := modularizeTrig hx hy nom |Real.sin α| |Real.cos α|
    hx * Real.sin α / nom ≤ N.1 ∧ (N.1 : ℝ) < hx * Real.sin α / nom + 2 ∧
    hy * Real.cos α / nom ≤ N.2 ∧ (N.2 : ℝ) < hy * Real.cos α / nom + 2 := by
  intro N
  have hs : 0 < Real.sin α := Real.sin_pos_of_pos_of_lt_pi ha0 (by linarith [Real.pi_pos])
  have hc : 0 < Real.cos α := Real.cos_pos_of_mem_Ioo ⟨by linarith [Real.pi_pos], ha1⟩
  have e1 : hx / nom * |Real.sin α| = hx * Real.sin α / nom := by rw [abs_of_pos hs]; ring
  have e2 : hy / nom * |Real.cos α| = hy * Real.cos α / nom := by rw [abs_of_pos hc]; ring
  have a1 := ceilEven_spec (hx / nom * |Real.sin α|) (by rw [e1]; positivity)
  have a2 := ceilEven_spec (hy / nom * |Real.cos α|) (by rw [e2]; positivity)
  rw [← e1, ← e2]
  exact ⟨a1.1, a1.2.1, a2.1, a2.2.1⟩

/-- **C34, TRIG**: on every domain, for every angle strictly inside the octant and every requested spacing, both ray
counts are positive and even, and the rays are at least as fine as requested. -/
theorem C34_trig_spacing (hx hy nom α : ℝ) (h1 : 0 < hx) (h2 : 0 < hy) (hn : 0 < nom) (ha0 : 0 < α)
    (ha1 : α < Real.pi / 2) :
    let N := modularizeTrig hx hy nom |Real.sin α| |Real.cos α|
    0 < N.1 ∧ 0 < N.2 ∧ 2 ∣ N.1 ∧ 2 ∣ N.2 ∧ newSpacing hx hy N.1 N.2 ≤ nom := by
  intro N
  have hs : 0 < Real.sin α := Real.sin_pos_of_pos_of_lt_pi ha0 (by linarith [Real.pi_pos])
  have hc : 0 < Real.cos α := Real.cos_pos_of_mem_Ioo ⟨by linarith, ha1⟩
  obtain ⟨x1, _, x3, x4⟩ := ceilEven_spec (hx / nom * |Real.sin α|) (by positivity)
  obtain ⟨y1, _, y3, y4⟩ := ceilEven_spec (hy / nom * |Real.cos α|) (by positivity)
  refine ⟨x4, y4, x3, y3, ?_⟩
  rw [abs_of_pos hs] at x1
  rw [abs_of_pos hc] at y1
  refine spacing_le hx hy nom (Real.sin α) (Real.cos α) _ _ h1 h2 hn y4 hs.le hc.le (Real.sin_sq_add_cos_sq α) ?_ ?_
  · rw [le_div_iff₀ h1]
    calc Real.sin α / nom * hx = hx / nom * Real.sin α := by ring
      _ ≤ _ := by simpa [N, modularizeTrig, abs_of_pos hs] using x1
  · rw [le_div_iff₀ h2]
    calc Real.cos α / nom * hy = hy / nom * Real.cos α := by ring
      _ ≤ _ := by simpa [N, modularizeTrig, abs_of_pos hc] using y1

/-- **C34, TRIG**: the modularised tangent lies within the relative distance that two extra rays on a face can make;
the finer the rays, the closer the angle. -/
theorem C34_trig_angle (hx hy nom α : ℝ) (h1 : 0 < hx) (h2 : 0 < hy) (hn : 0 < nom) (ha0 : 0 < α)
    (ha1 : α < Real.pi / 2) :
    let N := modularizeTrig hx hy nom |Real.sin α| |Real.cos α|
    let X := hx / nom * Real.sin α
    let Y := hy / nom * Real.cos α
    Real.tan α * (Y / (Y + 2)) < newTan hx hy N.1 N.2 ∧ newTan hx hy N.1 N.2 < Real.tan α * ((X + 2) / X) := by
  intro N X Y
  have hs : 0 < Real.sin α := Real.sin_pos_of_pos_of_lt_pi ha0 (by linarith [Real.pi_pos])
  have hc : 0 < Real.cos α := Real.cos_pos_of_mem_Ioo ⟨by linarith, ha1⟩
  have hX : 0 < X := by positivity
  have hY : 0 < Y := by positivity
  obtain ⟨x1, x2, _, x4⟩ := ceilEven_spec X hX
  obtain ⟨y1, y2, _, y4⟩ := ceilEven_spec Y hY
  have hN1 : N.1 = ceilEven X := by simp only [N, modularizeTrig, X, abs_of_pos hs]
  have hN2 : N.2 = ceilEven Y := by simp only [N, modularizeTrig, Y, abs_of_pos hc]
  have hp1 : (0 : ℝ) < ceilEven X := by exact_mod_cast x4
  have hp2 : (0 : ℝ) < ceilEven Y := by exact_mod_cast y4
  have ht : Real.tan α = (hy * X) / (hx * Y) := by
    rw [Real.tan_eq_sin_div_cos]; simp only [X, Y]; field_simp
  rw [hN1, hN2, ht]
  unfold newTan
  constructor
  · rw [div_mul_div_comm, div_lt_div_iff₀ (by positivity) (by positivity)]
    have : X * (ceilEven Y : ℝ) < ceilEven X * (Y + 2) := by nlinarith
    have hh : 0 < hx * hy * Y := by positivity
    nlinarith [mul_lt_mul_of_pos_left this hh]
  · rw [div_mul_div_comm, div_lt_div_iff₀ (by positivity) (by positivity)]
    have : (ceilEven X : ℝ) * Y < (X + 2) * ceilEven Y := by nlinarith
    have hh : 0 < hx * hy * X := by positivity
    nlinarith [mul_lt_mul_of_pos_left this hh]

/-- The fraction that the RATIONAL method uses for a slope of at least 0.002. -/
theorem slope_spec (m : ℚ) (h0 : 1 / 500 ≤ m) (h1 : m ≤ 1) :
    let q := rationalApproximation m (1 / 500) (2 ^ 31 - 1)
    0 < q.1 ∧ 0 < q.2 ∧ |m - (q.1 : ℚ) / q.2| < 1 / 500 := by
  intro q
  have hm0 : (0 : ℚ) ≤ m := le_trans (by norm_num) h0
  obtain ⟨d1, d2, d3⟩ := C08_denominator_bounded m (1 / 500) (2 ^ 31 - 1) hm0 h1 (by norm_num)
  have herr := C08_error_bound m (1 / 500) (2 ^ 31 - 1) hm0 h1 (by norm_num)
  rw [max_eq_left (by norm_num)] at herr
  have herr' : |m - (q.1 : ℚ) / q.2| < 1 / 500 := herr
  refine ⟨?_, d1, herr'⟩
  rcases Nat.eq_zero_or_pos q.1 with h | h
  · exfalso
    rw [h] at herr'
    simp only [Nat.cast_zero, zero_div, sub_zero] at herr'
    rw [abs_of_nonneg hm0] at herr'
    linarith
  · exact h

theorem scale_spec (hx hy nom : ℝ) (q1 q2 : Nat) (h1 : 0 < hx) (h2 : 0 < hy) (hn : 0 < nom) (hq1 : 0 < q1)
    (hq2 : 0 < q2) :
    let scale := ⌈hx / q1 * sinAtan (q1 * hy / (q2 * hx)) / nom⌉.toNat
    0 < scale ∧ 1 / nom ^ 2 ≤ ((q1 * scale : Nat) / hx) ^ 2 + ((q2 * scale : Nat) / hy) ^ 2 := by
  intro scale
  have p1 : (0 : ℝ) < q1 := by exact_mod_cast hq1
  have p2 : (0 : ℝ) < q2 := by exact_mod_cast hq2
  set t : ℝ := q1 * hy / (q2 * hx) with ht
  have tpos : 0 < t := by positivity
  have hw : 0 < √(1 + t ^ 2) := Real.sqrt_pos.mpr (by positivity)
  have hsq : √(1 + t ^ 2) ^ 2 = 1 + t ^ 2 := Real.sq_sqrt (by positivity)
  have hsin : sinAtan t = t / √(1 + t ^ 2) := by
    unfold sinAtan; rw [Real.sin_arctan, abs_of_pos (by positivity)]
  set x := hx / q1 * sinAtan t / nom with hxdef
  have hxe : x = hx / q1 * (t / √(1 + t ^ 2)) / nom := by rw [hxdef, hsin]
  have hxpos : 0 < x := by rw [hxe]; positivity
  have hc : 0 < ⌈x⌉ := Int.ceil_pos.mpr hxpos
  have hsc : (scale : ℝ) = (⌈x⌉ : ℝ) := by
    have : ((⌈x⌉.toNat : Nat) : Int) = ⌈x⌉ := Int.toNat_of_nonneg hc.le
    have h : (scale : Int) = ⌈x⌉ := this
    exact_mod_cast h
  have hle : x ≤ scale := by rw [hsc]; exact Int.le_ceil x
  refine ⟨by show 0 < ⌈x⌉.toNat; omega, ?_⟩
  push_cast
  have e : 1 / nom ^ 2 = (q1 * x / hx) ^ 2 + (q2 * x / hy) ^ 2 := by
    have e1 : q1 * x / hx = t / √(1 + t ^ 2) / nom := by rw [hxe]; field_simp
    have e2 : q2 * x / hy = 1 / √(1 + t ^ 2) / nom := by
      rw [hxe]
      have : t * (q2 * hx) = q1 * hy := by rw [ht]; field_simp
      field_simp
      linear_combination this
    rw [e1, e2]
    have hw' := hw.ne'
    clear_value t
    have hsq' := hsq
    generalize √(1 + t ^ 2) = w at hsq' hw'
    field_simp
    linear_combination hsq'
  rw [e]
  gcongr

theorem spacing_le' (hx hy nom : ℝ) (Nx Ny : Nat) (h1 : 0 < hx) (h2 : 0 < hy) (hn : 0 < nom) (h4 : 0 < Ny)
    (h : 1 / nom ^ 2 ≤ (Nx / hx) ^ 2 + (Ny / hy) ^ 2) : newSpacing hx hy Nx Ny ≤ nom := by
  rw [newSpacing_eq hx hy Nx Ny h1 h2 h4]
  have h' : 1 / nom ≤ √((Nx / hx) ^ 2 + (Ny / hy) ^ 2) := Real.le_sqrt_of_sq_le (by rw [div_pow, one_pow]; exact h)
  have hp : 0 < √(((Nx : ℝ) / hx) ^ 2 + (Ny / hy) ^ 2) := lt_of_lt_of_le (by positivity) h'
  rw [div_le_iff₀ hp]
  calc (1 : ℝ) = nom * (1 / nom) := by field_simp
    _ ≤ _ := by gcongr

/-- **C34, RATIONAL, angle at most 45 degrees**: the spacing is fine enough on every domain.  Missing with respect to
the claim: the tangent is `hy / hx` times the approximated slope, so the angle is approximated only on a square
domain; slopes below 0.002 are undefined behaviour. -/
theorem C34_rational_shallow_partial (hx hy nom : ℝ) (m : ℚ) (h1 : 0 < hx) (h2 : 0 < hy) (hn : 0 < nom)
    (hm0 : 1 / 500 ≤ m) (hm1 : m ≤ 1) :
    ∃ N, modularizeRational sinAtan hx hy nom m false = some N ∧ 0 < N.1 ∧ 0 < N.2 ∧
      newSpacing hx hy N.1 N.2 ≤ nom ∧ |newTan hx hy N.1 N.2 - hy / hx * m| < hy / hx / 500 := by
  obtain ⟨q1, q2, q3⟩ := slope_spec m hm0 hm1
  set q := rationalApproximation m (1 / 500) (2 ^ 31 - 1) with hq
  obtain ⟨s1, s2⟩ := scale_spec hx hy nom q.1 q.2 h1 h2 hn q1 q2
  set scale := ⌈hx / q.1 * sinAtan (q.1 * hy / (q.2 * hx)) / nom⌉.toNat with hs
  refine ⟨(q.1 * scale, q.2 * scale), ?_, Nat.mul_pos q1 s1, Nat.mul_pos q2 s1,
    spacing_le' hx hy nom _ _ h1 h2 hn (Nat.mul_pos q2 s1) s2, ?_⟩
  · simp only [modularizeRational, ← hq, if_neg q1.ne', ← hs, Bool.false_eq_true, if_false]
  · have p2 : (0 : ℝ) < q.2 := by exact_mod_cast q2
    have ps : (0 : ℝ) < scale := by exact_mod_cast s1
    have e : newTan hx hy (q.1 * scale) (q.2 * scale) - hy / hx * m = hy / hx * ((q.1 : ℝ) / q.2 - m) := by
      unfold newTan; push_cast; field_simp
    have q3' : |(m : ℝ) - (q.1 : ℝ) / q.2| < 1 / 500 := by
      have : ((|m - (q.1 : ℚ) / q.2| : ℚ) : ℝ) < ((1 / 500 : ℚ) : ℝ) := by exact_mod_cast q3
      push_cast at this
      exact this
    simp only
    rw [e, abs_mul, abs_of_pos (div_pos h2 h1), abs_sub_comm]
    calc hy / hx * |(m : ℝ) - (q.1 : ℝ) / q.2| < hy / hx * (1 / 500) := by gcongr
      _ = _ := by ring

/-- **C34, RATIONAL, square domain**: for slopes of at least 0.002 (taken below or above 45 degrees) the spacing is
fine enough and the slope is met within 0.002.  Missing: non-square domains (`C34_claim_false`) and slopes below
0.002 (`C34_flat_undefined`). -/
theorem C34_rational_square_partial (h nom : ℝ) (m : ℚ) (steep : Bool) (h1 : 0 < h) (hn : 0 < nom)
    (hm0 : 1 / 500 ≤ m) (hm1 : m ≤ 1) :
    ∃ N, modularizeRational sinAtan h h nom m steep = some N ∧ 0 < N.1 ∧ 0 < N.2 ∧ newSpacing h h N.1 N.2 ≤ nom ∧
      (if steep then |(newTan h h N.1 N.2)⁻¹ - m| < 1 / 500 else |newTan h h N.1 N.2 - m| < 1 / 500) := by
  obtain ⟨N, e, p1, p2, p3, p4⟩ := C34_rational_shallow_partial h h nom m h1 h1 hn hm0 hm1
  have hh : h / h = 1 := div_self h1.ne'
  rw [hh, one_mul] at p4
  cases steep
  · exact ⟨N, e, p1, p2, p3, by simpa using p4⟩
  · refine ⟨(N.2, N.1), ?_, p2, p1, ?_, ?_⟩
    · simp only [modularizeRational] at e ⊢
      by_cases hz : (rationalApproximation m (1 / 500) (2 ^ 31 - 1)).1 = 0
      · rw [if_pos hz] at e; exact absurd e (by simp)
      · rw [if_neg hz] at e ⊢
        simp only [Bool.false_eq_true, if_false, Option.some.injEq] at e
        rw [← e]
        rfl
    · rw [newSpacing_eq h h _ _ h1 h1 p2] at p3
      rw [newSpacing_eq h h _ _ h1 h1 p1, add_comm]
      exact p3
    · simp only [if_true]
      have e2 : (newTan h h N.2 N.1)⁻¹ = newTan h h N.1 N.2 := by unfold newTan; rw [inv_div]
      rw [e2]; exact p4

/-- Pin-modular rays (ray_data.cpp:171-174): repeating the module `nx` by `ny` times changes neither spacing nor
tangent. -/
theorem C34_pin_modular (hx hy : ℝ) (Nx Ny nx ny : Nat) (h1 : 0 < hx) (h2 : 0 < hy) (h4 : 0 < Ny) (hnx : 0 < nx)
    (hny : 0 < ny) :
    newSpacing (nx * hx) (ny * hy) (Nx * nx) (Ny * ny) = newSpacing hx hy Nx Ny ∧
    newTan (nx * hx) (ny * hy) (Nx * nx) (Ny * ny) = newTan hx hy Nx Ny := by
  have p1 : (0 : ℝ) < nx := by exact_mod_cast hnx
  have p2 : (0 : ℝ) < ny := by exact_mod_cast hny
  have p4 : (0 : ℝ) < Ny := by exact_mod_cast h4
  have e : newTan (nx * hx) (ny * hy) (Nx * nx) (Ny * ny) = newTan hx hy Nx Ny := by
    unfold newTan; push_cast; field_simp
  refine ⟨?_, e⟩
  unfold newSpacing
  rw [e]; push_cast; field_simp

/-- The full claim for the RATIONAL method. -/
def C34_claim : Prop := ∀ (hx hy nom : ℝ) (m : ℚ) (steep : Bool), 0 < hx → 0 < hy → 0 < nom → 0 < m → m ≤ 1 →
  ∃ N, modularizeRational sinAtan hx hy nom m steep = some N ∧ newSpacing hx hy N.1 N.2 ≤ nom

/-- A slope below 0.002 (an angle within 0.11 degrees of an axis) has no defined result. -/
theorem C34_flat_undefined (hx hy nom : ℝ) (m : ℚ) (steep : Bool) (h0 : 0 ≤ m) (h1 : m < 1 / 500) :
    modularizeRational sinAtan hx hy nom m steep = none := by
  have : rationalApproximation m (1 / 500) (2 ^ 31 - 1) = (0, 1) := by
    unfold rationalApproximation
    rw [if_pos]
    rw [abs_lt]; constructor <;> norm_num <;> linarith
  simp only [modularizeRational, this, if_true]

theorem half_approx : rationalApproximation (1 / 2) (1 / 500) (2 ^ 31 - 1) = (1, 2) := by
  unfold rationalApproximation
  rw [if_neg (by norm_num [abs_of_neg]), if_neg (by norm_num [abs_of_pos])]
  rw [search, dif_pos (by norm_num)]
  norm_num

/-- On a domain of 6 by 5 with slope 1/2 taken above 45 degrees and a requested spacing of 30/13 the rays come out
15/√34 > 30/13 apart. -/
theorem C34_nonsquare : modularizeRational sinAtan 6 5 (30 / 13) (1 / 2) true = some (2, 1) ∧
    30 / 13 < newSpacing 6 5 2 1 := by
  constructor
  · have h1 : sinAtan ((1 : Nat) * 5 / ((2 : Nat) * 6)) = 5 / 13 := by
      unfold sinAtan
      rw [Real.sin_arctan]
      have : √(1 + (((1 : Nat) : ℝ) * 5 / ((2 : Nat) * 6)) ^ 2) = 13 / 12 := by
        rw [show (1 : ℝ) + (((1 : Nat) : ℝ) * 5 / ((2 : Nat) * 6)) ^ 2 = (13 / 12) ^ 2 by norm_num]
        exact Real.sqrt_sq (by norm_num)
      rw [this]; norm_num
    simp only [modularizeRational, half_approx]
    rw [if_neg (by norm_num), h1]
    norm_num
  · rw [newSpacing_eq 6 5 2 1 (by norm_num) (by norm_num) (by norm_num)]
    have hw : √((((2 : Nat) : ℝ) / 6) ^ 2 + (((1 : Nat) : ℝ) / 5) ^ 2) < 13 / 30 := by
      rw [Real.sqrt_lt' (by norm_num)]; norm_num
    have hp : 0 < √((((2 : Nat) : ℝ) / 6) ^ 2 + (((1 : Nat) : ℝ) / 5) ^ 2) := Real.sqrt_pos.mpr (by norm_num)
    rw [lt_div_iff₀ hp]
    calc 30 / 13 * √((((2 : Nat) : ℝ) / 6) ^ 2 + (((1 : Nat) : ℝ) / 5) ^ 2) < 30 / 13 * (13 / 30) := by gcongr
      _ = 1 := by norm_num

theorem C34_claim_false : ¬ C34_claim := by
  intro h
  obtain ⟨N, e, h1⟩ := h 6 5 (30 / 13) (1 / 2) true (by norm_num) (by norm_num) (by norm_num) (by norm_num) (by norm_num)
  rw [C34_nonsquare.1] at e
  cases e
  exact absurd C34_nonsquare.2 (not_lt.mpr h1)

/-- On a 2 by 1 domain the RATIONAL method replaces the requested slope 1/2 by 1/4: the angle itself is missed. -/
theorem C34_wrong_angle : ∃ N, modularizeRational sinAtan 2 1 (1 / 10) (1 / 2) false = some N ∧
    newTan 2 1 N.1 N.2 = 1 / 4 := by
  obtain ⟨s1, _⟩ := scale_spec 2 1 (1 / 10) 1 2 (by norm_num) (by norm_num) (by norm_num) (by norm_num) (by norm_num)
  set scale := ⌈(2 : ℝ) / (1 : Nat) * sinAtan ((1 : Nat) * 1 / ((2 : Nat) * 2)) / (1 / 10)⌉.toNat with hs
  refine ⟨(1 * scale, 2 * scale), ?_, ?_⟩
  · simp only [modularizeRational, half_approx]
    rw [if_neg (by norm_num), ← hs]
    rfl
  · have : (0 : ℝ) < scale := by exact_mod_cast s1
    unfold newTan; push_cast; field_simp; norm_num

example : ∃ (m : ℚ), (1 / 500 : ℚ) ≤ m ∧ m ≤ 1 ∧ m ≠ 1 := ⟨3 / 7, by norm_num, by norm_num, by norm_num⟩

example : ceilEven (5 / 2 : ℚ) = 4 ∧ ceilEven (4 : ℚ) = 4 := by decide +kernel

end Verif.Rays
