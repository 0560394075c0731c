import Verif.Sn.CellProps

/-!
# C29: the relation between average and face fluxes of each scheme

Balance alone does not tell the schemes apart; here is the second relation each of them is named after.
-/

set_option linter.unusedSectionVars false

namespace Verif.Sn

variable {K : Type} [Field K] [LinearOrder K] [IsStrictOrderedRing K]

/-- C29: diamond difference: the average is the mean of incoming and outgoing flux along every axis. -/
theorem C29_dd_closure (tx ty tz fx fy fz q xstr : K) :
    let o := evalDD tx ty tz fx fy fz q xstr
    o.psi = (fx + o.x) / 2 ∧ o.psi = (fy + o.y) / 2 ∧ o.psi = (fz + o.z) / 2 := by
  simp only [evalDD]
  refine ⟨?_, ?_, ?_⟩ <;> ring

/-- C29: the same in two dimensions. -/
theorem C29_dd_2d_closure (tx ty fx fy q xstr : K) :
    let o := evalDD2 tx ty fx fy q xstr
    o.psi = (fx + o.x) / 2 ∧ o.psi = (fy + o.y) / 2 := by
  simp only [evalDD2]
  refine ⟨?_, ?_⟩ <;> ring

/-- C29: corrected diamond difference: the average is the correction factor times the sum of incoming and outgoing flux. -/
theorem C29_cdd_2d_closure (gx gy tx ty fx fy q xstr : K) (hgx : gx ≠ 0) (hgy : gy ≠ 0) :
    let o := evalCDD2 gx gy tx ty fx fy q xstr
    o.psi = gx * (fx + o.x) ∧ o.psi = gy * (fy + o.y) := by
  simp only [evalCDD2]
  generalize (q + 2 * (tx * fx + ty * fy)) / (tx / gx + ty / gy + xstr) = p
  constructor <;> (field_simp; ring)

/-- C29: corrected radially, diamond difference axially. -/
theorem C29_cdd_dd_closure (gx gy tx ty tz fx fy fz q xstr : K) (hgx : gx ≠ 0) (hgy : gy ≠ 0) :
    let o := evalCDDDD gx gy tx ty tz fx fy fz q xstr
    o.psi = gx * (fx + o.x) ∧ o.psi = gy * (fy + o.y) ∧ o.psi = (fz + o.z) / 2 := by
  simp only [evalCDDDD]
  generalize (q + 2 * (tx * fx + ty * fy + tz * fz)) / (tx / gx + ty / gy + 2 * tz + xstr) = p
  refine ⟨?_, ?_, ?_⟩ <;> (field_simp; try ring)

/-- C29: with fixup: the outgoing axial flux is what diamond difference gives if that is not negative, and zero
otherwise; the radial relations hold in both cases. -/
theorem C29_cdd_ff_closure (gx gy tx ty tz fx fy fz q xstr : K) (hgx : gx ≠ 0) (hgy : gy ≠ 0) :
    let o := evalCDDFF gx gy tx ty tz fx fy fz q xstr
    let d := evalCDDDD gx gy tx ty tz fx fy fz q xstr
    o.psi = gx * (fx + o.x) ∧ o.psi = gy * (fy + o.y) ∧ (0 ≤ d.z → o = d) ∧ (d.z < 0 → o.z = 0) := by
  simp only [evalCDDFF, evalCDDDD]
  generalize (q + 2 * (tx * fx + ty * fy + tz * fz)) / (tx / gx + ty / gy + 2 * tz + xstr) = p
  generalize (q + 2 * (tx * fx + ty * fy) + tz * fz) / (tx / gx + ty / gy + xstr) = p'
  by_cases h : 2 * p - fz < 0
  · simp only [h, if_true]
    refine ⟨by field_simp; ring, by field_simp; ring, fun h' => absurd h (not_lt.mpr h'), fun _ => trivial⟩
  · simp only [h, if_false]
    refine ⟨by field_simp; ring, by field_simp; ring, fun _ => trivial, fun h' => h'.elim⟩

/-- C29: axial forward differencing: the outgoing axial flux is the average. -/
theorem C29_cdd_fw_closure (gx gy tx ty tz fx fy fz q xstr : K) (hgx : gx ≠ 0) (hgy : gy ≠ 0) :
    let o := evalCDDFW gx gy tx ty tz fx fy fz q xstr
    o.psi = gx * (fx + o.x) ∧ o.psi = gy * (fy + o.y) ∧ o.psi = o.z := by
  simp only [evalCDDFW]
  generalize (q + 2 * (tx * fx + ty * fy) + tz * fz) / (tx / gx + ty / gy + tz + xstr) = p
  refine ⟨?_, ?_, trivial⟩ <;> (field_simp; ring)

/-- C29: step characteristics: radial relations as in the diamond schemes, axially a weighted mean whose weight of the
incoming flux lies strictly between zero and one half. -/
theorem C29_sc_closure (gx gy tx ty tz fx fy fz q xstr : ℝ) (hgx : 0 < gx) (hgy : 0 < gy) (htz : 0 < tz) (hx : 0 < xstr) :
    let a := evalDDSC Real.exp tx ty tz fx fy fz q xstr
    let b := evalCDDSC Real.exp gx gy tx ty tz fx fy fz q xstr
    a.psi = (fx + a.x) / 2 ∧ a.psi = (fy + a.y) / 2 ∧ b.psi = gx * (fx + b.x) ∧ b.psi = gy * (fy + b.y) ∧
    ∃ r, 0 < r ∧ r < 1 ∧ a.psi = r * fz + (1 - r) * a.z ∧ b.psi = r * fz + (1 - r) * b.z := by
  obtain ⟨h0, h1⟩ := rho_bounds (xstr / tz) (by positivity)
  have hr : 1 - rho Real.exp (xstr / tz) ≠ 0 := by linarith
  refine ⟨?_, ?_, ?_, ?_, rho Real.exp (xstr / tz), h0, h1, ?_, ?_⟩
  · simp only [evalDDSC]; ring
  · simp only [evalDDSC]; ring
  · simp only [evalCDDSC]
    generalize (q + 2 * (tx * fx + ty * fy) + tz * (rho Real.exp (xstr / tz) / (1 - rho Real.exp (xstr / tz)) + 1) * fz) /
      (tx / gx + ty / gy + tz / (1 - rho Real.exp (xstr / tz)) + xstr) = p
    field_simp; ring
  · simp only [evalCDDSC]
    generalize (q + 2 * (tx * fx + ty * fy) + tz * (rho Real.exp (xstr / tz) / (1 - rho Real.exp (xstr / tz)) + 1) * fz) /
      (tx / gx + ty / gy + tz / (1 - rho Real.exp (xstr / tz)) + xstr) = p
    field_simp; ring
  · simp only [evalDDSC]
    rw [mul_div_cancel₀ _ hr]; ring
  · simp only [evalCDDSC]
    rw [mul_div_cancel₀ _ hr]; ring

theorem sc_exact_alg (tz fz q xstr E : ℝ) (htz : tz ≠ 0) (hx : xstr ≠ 0) (hE : E - 1 ≠ 0) (hE0 : E ≠ 0)
    (r : ℝ) (hrdef : r = 1 / (xstr / tz) - 1 / (E - 1)) (hr : 1 - r ≠ 0) :
    ((tz * (r / (1 - r) + 1) * fz + q) / (tz / (1 - r) + xstr) - r * fz) / (1 - r) =
      fz / E + q / xstr * (1 - 1 / E) := by
  have h1 : tz + xstr * (1 - r) = xstr * E / (E - 1) := by
    rw [hrdef]; field_simp; ring
  have h2 : tz + xstr * (1 - r) ≠ 0 := by
    rw [h1]; exact div_ne_zero (mul_ne_zero hx hE0) hE
  have h3 : (tz * (r / (1 - r) + 1) * fz + q) / (tz / (1 - r) + xstr) = (tz * fz + q * (1 - r)) / (tz + xstr * (1 - r)) := by
    have : tz / (1 - r) + xstr ≠ 0 := by
      have : tz / (1 - r) + xstr = (tz + xstr * (1 - r)) / (1 - r) := by field_simp
      rw [this]; exact div_ne_zero h2 hr
    rw [div_eq_div_iff this h2]
    field_simp
    ring
  rw [h3, div_eq_iff hr, sub_eq_iff_eq_add, h1, div_eq_iff (div_ne_zero (mul_ne_zero hx hE0) hE), hrdef]
  field_simp
  ring

/-- C29: where nothing streams radially, step characteristics give the exact attenuated flux: the incoming flux times
`exp (-τ)` plus the source's contribution `q / xstr * (1 - exp (-τ))`, with `τ` the optical height of the cell. -/
theorem C29_sc_exact (gx gy fx fy tz fz q xstr : ℝ) (htz : 0 < tz) (hx : 0 < xstr) :
    let e := Real.exp (-(xstr / tz))
    (evalDDSC Real.exp 0 0 tz fx fy fz q xstr).z = fz * e + q / xstr * (1 - e) ∧
    (evalCDDSC Real.exp gx gy 0 0 tz fx fy fz q xstr).z = fz * e + q / xstr * (1 - e) := by
  have ht : 0 < xstr / tz := by positivity
  obtain ⟨-, h1⟩ := rho_bounds (xstr / tz) ht
  have hr : 1 - rho Real.exp (xstr / tz) ≠ 0 := by linarith
  have hE : Real.exp (xstr / tz) - 1 ≠ 0 := by
    have := Real.add_one_lt_exp ht.ne'
    linarith
  have key := sc_exact_alg tz fz q xstr (Real.exp (xstr / tz)) htz.ne' hx.ne' hE (Real.exp_ne_zero _)
    (rho Real.exp (xstr / tz)) rfl hr
  simp only [evalDDSC, evalCDDSC, Real.exp_neg]
  generalize rho Real.exp (xstr / tz) = r at *
  generalize Real.exp (xstr / tz) = E at *
  constructor
  · rw [show 2 * (0 * fx + 0 * fy) + tz * (r / (1 - r) + 1) * fz + q = tz * (r / (1 - r) + 1) * fz + q by ring,
      show 2 * ((0 : ℝ) + 0) + tz / (1 - r) + xstr = tz / (1 - r) + xstr by ring, key]
    ring
  · rw [show q + 2 * (0 * fx + 0 * fy) + tz * (r / (1 - r) + 1) * fz = tz * (r / (1 - r) + 1) * fz + q by ring,
      show (0 : ℝ) / gx + 0 / gy + tz / (1 - r) + xstr = tz / (1 - r) + xstr by ring, key]
    ring

/-- C29: the average flux of the step characteristics schemes is non-negative too. -/
theorem C29_sc_average_nonneg (gx gy tx ty tz fx fy fz q xstr : ℝ) (hgx : 0 < gx) (hgy : 0 < gy) (htx : 0 < tx)
    (hty : 0 < ty) (htz : 0 < tz) (hfx : 0 ≤ fx) (hfy : 0 ≤ fy) (hfz : 0 ≤ fz) (hq : 0 ≤ q) (hx : 0 < xstr) :
    0 ≤ (evalDDSC Real.exp tx ty tz fx fy fz q xstr).psi ∧ 0 ≤ (evalCDDSC Real.exp gx gy tx ty tz fx fy fz q xstr).psi := by
  obtain ⟨h0, h1⟩ := rho_bounds (xstr / tz) (by positivity)
  have h2 : 0 < 1 - rho Real.exp (xstr / tz) := by linarith
  simp only [evalDDSC, evalCDDSC]
  generalize rho Real.exp (xstr / tz) = r at *
  constructor <;> positivity

example : (evalCDDFF (1/2 : ℚ) (1/2) 1 1 1 0 0 10 0 1).z = 0 ∧ (evalCDDDD (1/2 : ℚ) (1/2) 1 1 1 0 0 10 0 1).z < 0 := by
  decide +kernel

end Verif.Sn
