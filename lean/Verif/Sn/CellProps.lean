import Verif.Sn.CellModel
import Mathlib.Algebra.Order.Ring.Rat
import Mathlib.Algebra.Order.Field.Rat
import Mathlib.Algebra.Field.Rat
import Mathlib.Analysis.SpecialFunctions.Exp
import Mathlib.Tactic.NormNum
import Mathlib.Tactic.Linarith
import Mathlib.Tactic.FieldSimp
import Mathlib.Tactic.Ring
import Mathlib.Tactic.Positivity
import Mathlib.Tactic.LinearCombination

/-!
# C29: each Sn cell equation satisfies neutron balance
-/

set_option linter.unusedSectionVars false

namespace Verif.Sn

variable {K : Type} [Field K] [LinearOrder K] [IsStrictOrderedRing K]

/-- Cell balance per unit volume: what leaves minus what enters through the three pairs of faces, plus collisions,
is the source. -/
def Balance3 (tx ty tz fx fy fz q xstr : K) (o : Out3 K) : Prop :=
  tx * (o.x - fx) + ty * (o.y - fy) + tz * (o.z - fz) + xstr * o.psi = q

def Balance2 (tx ty fx fy q xstr : K) (o : Out2 K) : Prop :=
  tx * (o.x - fx) + ty * (o.y - fy) + xstr * o.psi = q

/-- C29: diamond difference. -/
theorem C29_dd (tx ty tz fx fy fz q xstr : K) (h : 0 < 2 * (tx + ty + tz) + xstr) :
    Balance3 tx ty tz fx fy fz q xstr (evalDD tx ty tz fx fy fz q xstr) := by
  have hd := h.ne'
  have key := div_mul_cancel₀ (2 * (tx * fx + ty * fy + tz * fz) + q) hd
  simp only [Balance3, evalDD]
  linear_combination key

/-- C29: diamond difference in two dimensions. -/
theorem C29_dd_2d (tx ty fx fy q xstr : K) (h : 0 < 2 * (tx + ty) + xstr) :
    Balance2 tx ty fx fy q xstr (evalDD2 tx ty fx fy q xstr) := by
  have key := div_mul_cancel₀ (2 * (tx * fx + ty * fy) + q) h.ne'
  simp only [Balance2, evalDD2]
  linear_combination key

theorem sc_axial (tz fz psi r : K) (hr : 1 - r ≠ 0) :
    tz * ((psi - r * fz) / (1 - r) - fz) = tz / (1 - r) * psi - tz * (r / (1 - r) + 1) * fz := by
  field_simp
  ring

/-- C29: diamond difference with step characteristics, for any function used as exponential. -/
theorem C29_dd_sc (expo : K → K) (tx ty tz fx fy fz q xstr : K) (hr : 1 - rho expo (xstr / tz) ≠ 0)
    (h : 0 < 2 * (tx + ty) + tz / (1 - rho expo (xstr / tz)) + xstr) :
    Balance3 tx ty tz fx fy fz q xstr (evalDDSC expo tx ty tz fx fy fz q xstr) := by
  simp only [Balance3, evalDDSC]
  generalize rho expo (xstr / tz) = r at *
  have key := div_mul_cancel₀ (2 * (tx * fx + ty * fy) + tz * (r / (1 - r) + 1) * fz + q) h.ne'
  have ax := sc_axial tz fz ((2 * (tx * fx + ty * fy) + tz * (r / (1 - r) + 1) * fz + q) /
    (2 * (tx + ty) + tz / (1 - r) + xstr)) r hr
  linear_combination key + ax

theorem cdd_face (t f psi g : K) (hg : g ≠ 0) : t * ((psi - g * f) / g - f) = t / g * psi - 2 * t * f := by
  field_simp
  ring

theorem cdd_face' (t f psi g : K) : t * (psi / g - f - f) = t / g * psi - 2 * t * f := by ring

/-- C29: corrected diamond difference in two dimensions. -/
theorem C29_cdd_2d (gx gy tx ty fx fy q xstr : K) (hgx : gx ≠ 0) (hgy : gy ≠ 0) (h : 0 < tx / gx + ty / gy + xstr) :
    Balance2 tx ty fx fy q xstr (evalCDD2 gx gy tx ty fx fy q xstr) := by
  have key := div_mul_cancel₀ (q + 2 * (tx * fx + ty * fy)) h.ne'
  simp only [Balance2, evalCDD2]
  linear_combination key + cdd_face tx fx ((q + 2 * (tx * fx + ty * fy)) / (tx / gx + ty / gy + xstr)) gx hgx +
    cdd_face ty fy ((q + 2 * (tx * fx + ty * fy)) / (tx / gx + ty / gy + xstr)) gy hgy

/-- C29: corrected diamond difference, axial diamond difference. -/
theorem C29_cdd_dd (gx gy tx ty tz fx fy fz q xstr : K) (h : 0 < tx / gx + ty / gy + 2 * tz + xstr) :
    Balance3 tx ty tz fx fy fz q xstr (evalCDDDD gx gy tx ty tz fx fy fz q xstr) := by
  have key := div_mul_cancel₀ (q + 2 * (tx * fx + ty * fy + tz * fz)) h.ne'
  simp only [Balance3, evalCDDDD]
  linear_combination key

/-- C29: the same with negative flux fixup. -/
theorem C29_cdd_ff (gx gy tx ty tz fx fy fz q xstr : K) (h : 0 < tx / gx + ty / gy + xstr) (htz : 0 ≤ tz) :
    Balance3 tx ty tz fx fy fz q xstr (evalCDDFF gx gy tx ty tz fx fy fz q xstr) ∧
    0 ≤ (evalCDDFF gx gy tx ty tz fx fy fz q xstr).z := by
  have h' : 0 < tx / gx + ty / gy + 2 * tz + xstr := by linarith
  simp only [Balance3, evalCDDFF]
  split_ifs with hc
  · have key := div_mul_cancel₀ (q + 2 * (tx * fx + ty * fy) + tz * fz) h.ne'
    refine ⟨?_, le_refl _⟩
    simp only
    linear_combination key
  · have key := div_mul_cancel₀ (q + 2 * (tx * fx + ty * fy + tz * fz)) h'.ne'
    refine ⟨?_, not_lt.mp hc⟩
    simp only
    linear_combination key

/-- C29: corrected diamond difference, axial forward differencing. -/
theorem C29_cdd_fw (gx gy tx ty tz fx fy fz q xstr : K) (hgx : gx ≠ 0) (hgy : gy ≠ 0)
    (h : 0 < tx / gx + ty / gy + tz + xstr) :
    Balance3 tx ty tz fx fy fz q xstr (evalCDDFW gx gy tx ty tz fx fy fz q xstr) := by
  have key := div_mul_cancel₀ (q + 2 * (tx * fx + ty * fy) + tz * fz) h.ne'
  simp only [Balance3, evalCDDFW]
  linear_combination key + cdd_face tx fx ((q + 2 * (tx * fx + ty * fy) + tz * fz) / (tx / gx + ty / gy + tz + xstr)) gx hgx +
    cdd_face ty fy ((q + 2 * (tx * fx + ty * fy) + tz * fz) / (tx / gx + ty / gy + tz + xstr)) gy hgy

/-- C29: corrected diamond difference with step characteristics, for any function used as exponential. -/
theorem C29_cdd_sc (expo : K → K) (gx gy tx ty tz fx fy fz q xstr : K) (hgx : gx ≠ 0) (hgy : gy ≠ 0)
    (hr : 1 - rho expo (xstr / tz) ≠ 0) (h : 0 < tx / gx + ty / gy + tz / (1 - rho expo (xstr / tz)) + xstr) :
    Balance3 tx ty tz fx fy fz q xstr (evalCDDSC expo gx gy tx ty tz fx fy fz q xstr) := by
  simp only [Balance3, evalCDDSC]
  generalize rho expo (xstr / tz) = r at *
  have key := div_mul_cancel₀ (q + 2 * (tx * fx + ty * fy) + tz * (r / (1 - r) + 1) * fz) h.ne'
  generalize hp : (q + 2 * (tx * fx + ty * fy) + tz * (r / (1 - r) + 1) * fz) / (tx / gx + ty / gy + tz / (1 - r) + xstr) = psi at *
  linear_combination key + cdd_face tx fx psi gx hgx + cdd_face ty fy psi gy hgy + sc_axial tz fz psi r hr

/-- The step characteristics weight lies strictly between zero and one for the true exponential, so the divisions
above are harmless. -/
theorem rho_bounds (tau : ℝ) (h : 0 < tau) : 0 < rho Real.exp tau ∧ rho Real.exp tau < 1 := by
  have h1 : tau + 1 < Real.exp tau := Real.add_one_lt_exp h.ne'
  have hpos : 0 < Real.exp tau - 1 := by linarith
  unfold rho
  constructor
  · rw [sub_pos, one_div_lt_one_div hpos h]
    linarith
  · by_cases ht : 1 ≤ tau
    · have : 1 / tau ≤ 1 := by rw [div_le_one h]; exact ht
      have : 0 < 1 / (Real.exp tau - 1) := by positivity
      linarith
    · have ht' : 0 < 1 - tau := by linarith
      have h2 : -tau + 1 < Real.exp (-tau) := Real.add_one_lt_exp (by linarith)
      have h3 : Real.exp tau * Real.exp (-tau) = 1 := by rw [← Real.exp_add]; simp
      have h4 : Real.exp tau * (1 - tau) < 1 := by
        rw [← h3]
        apply mul_lt_mul_of_pos_left _ (Real.exp_pos tau)
        linarith
      rw [sub_lt_iff_lt_add, div_lt_iff₀ h, add_mul, one_mul, one_div, ]
      have h5 : (Real.exp tau - 1) * (1 - tau) < tau := by nlinarith
      have h6 : (1 - tau) < (Real.exp tau - 1)⁻¹ * tau := by
        rw [inv_mul_eq_div, lt_div_iff₀ hpos]
        linarith
      linarith

/-- C29: the schemes with step characteristics satisfy balance for every physical cell. -/
theorem C29_sc_physical (gx gy tx ty tz fx fy fz q xstr : ℝ) (hgx : 0 < gx) (hgy : 0 < gy) (htx : 0 < tx) (hty : 0 < ty)
    (htz : 0 < tz) (hx : 0 < xstr) :
    Balance3 tx ty tz fx fy fz q xstr (evalDDSC Real.exp tx ty tz fx fy fz q xstr) ∧
    Balance3 tx ty tz fx fy fz q xstr (evalCDDSC Real.exp gx gy tx ty tz fx fy fz q xstr) := by
  obtain ⟨-, h1⟩ := rho_bounds (xstr / tz) (by positivity)
  have h2 : 0 < 1 - rho Real.exp (xstr / tz) := by linarith
  have h3 : 0 < tz / (1 - rho Real.exp (xstr / tz)) := by positivity
  refine ⟨C29_dd_sc _ _ _ _ _ _ _ _ _ h2.ne' (by positivity), ?_⟩
  exact C29_cdd_sc _ _ _ _ _ _ _ _ _ _ _ hgx.ne' hgy.ne' h2.ne' (by positivity)

/-- C29: with non-negative inputs the average flux of every scheme (other than the parabolic one) is non-negative. -/
theorem C29_average_nonneg (gx gy tx ty tz fx fy fz q xstr : K) (hgx : 0 < gx) (hgy : 0 < gy) (htx : 0 < tx)
    (hty : 0 < ty) (htz : 0 < tz) (hfx : 0 ≤ fx) (hfy : 0 ≤ fy) (hfz : 0 ≤ fz) (hq : 0 ≤ q) (hx : 0 ≤ xstr) :
    0 ≤ (evalDD tx ty tz fx fy fz q xstr).psi ∧ 0 ≤ (evalDD2 tx ty fx fy q xstr).psi ∧
    0 ≤ (evalCDD2 gx gy tx ty fx fy q xstr).psi ∧ 0 ≤ (evalCDDDD gx gy tx ty tz fx fy fz q xstr).psi ∧
    0 ≤ (evalCDDFF gx gy tx ty tz fx fy fz q xstr).psi ∧ 0 ≤ (evalCDDFW gx gy tx ty tz fx fy fz q xstr).psi := by
  refine ⟨?_, ?_, ?_, ?_, ?_, ?_⟩
  · simp only [evalDD]; positivity
  · simp only [evalDD2]; positivity
  · simp only [evalCDD2]; positivity
  · simp only [evalCDDDD]; positivity
  · simp only [evalCDDFF]; split_ifs <;> simp only <;> positivity
  · simp only [evalCDDFW]; positivity

/-- C29: an infinite medium in equilibrium is reproduced by the diamond difference scheme. -/
theorem C29_equilibrium (tx ty tz phi xstr : K) (h : 0 < 2 * (tx + ty + tz) + xstr) :
    evalDD tx ty tz phi phi phi (xstr * phi) xstr = ⟨phi, phi, phi, phi⟩ := by
  have : (2 * (tx * phi + ty * phi + tz * phi) + xstr * phi) / (2 * (tx + ty + tz) + xstr) = phi := by
    rw [div_eq_iff h.ne']; ring
  simp only [evalDD, this, Out3.mk.injEq]
  exact ⟨trivial, by ring, by ring, by ring⟩

/-- C29, the claim for the parabolic scheme: balance in every cell with the true width. -/
def C29_pmb_claim : Prop := ∀ dz oz tx ty fx fy fz q xstr : ℚ, 0 < dz → 0 < oz → 0 < tx → 0 < ty → 0 ≤ fx → 0 ≤ fy →
  0 ≤ fz → 0 ≤ q → 0 < xstr →
  Balance3 tx ty (oz / dz) fx fy fz q xstr (evalPMB dz oz tx ty (oz / dz) fx fy fz q xstr)

/-- C29 is false for the parabolic scheme (`SnSweeper_CDD_PMB`). -/
theorem C29_pmb_claim_false : ¬ C29_pmb_claim := by
  intro h
  have := h 2 1 1 1 0 0 0 1 1 (by norm_num) (by norm_num) (by norm_num) (by norm_num) (by norm_num) (by norm_num)
    (by norm_num) (by norm_num) (by norm_num)
  revert this
  unfold Balance3 evalPMB
  norm_num

/-- C29 for the parabolic scheme, only when every cell has unit height (missing: every other height). -/
theorem C29_pmb_partial (oz tx ty fx fy fz q xstr : K) (htx : 0 < tx) (hty : 0 < ty) (ho : 0 < oz) (hx : 0 < xstr) :
    Balance3 tx ty oz fx fy fz q xstr (evalPMB 1 oz tx ty oz fx fy fz q xstr) := by
  have h1 : 0 < 2 * oz + xstr := by linarith
  have h2 : 0 < oz + 1 / 2 * xstr := by linarith
  have hd : 0 < tx / (1 / 2) + ty / (1 / 2) + oz * oz / (oz + 1 / 2 * xstr) + xstr := by positivity
  have key := div_mul_cancel₀ (q - 1 * oz * q / (2 * oz + xstr) + 2 * (tx * fx + ty * fy) + oz * fz) hd.ne'
  simp only [Balance3, evalPMB]
  generalize (q - 1 * oz * q / (2 * oz + xstr) + 2 * (tx * fx + ty * fy) + oz * fz) /
    (tx / (1 / 2) + ty / (1 / 2) + oz * oz / (oz + 1 / 2 * xstr) + xstr) = psi at *
  have h3 : oz * ((2 * psi * oz + q) / (2 * oz + xstr)) =
      psi * (oz * oz / (oz + 1 / 2 * xstr)) + 1 * oz * q / (2 * oz + xstr) := by
    have : oz + 1 / 2 * xstr = (2 * oz + xstr) / 2 := by ring
    rw [this]
    field_simp
  linear_combination key + h3

example : Balance3 (1 : ℚ) 1 1 0 0 1 0 1 (evalPMB 1 1 1 1 1 0 0 1 0 1) :=
  C29_pmb_partial _ _ _ _ _ _ _ _ (by norm_num) (by norm_num) (by norm_num) (by norm_num)

/-- And it reads the cell height with an index that leaves the mesh: cell 1 of a 2 by 2 by 1 mesh asks for plane 2. -/
theorem C29_pmb_index : ∃ nx ny nz i, i < nx * ny * nz ∧ ¬ pmbDzIndex nx ny i < nz := ⟨2, 2, 1, 1, by decide, by decide⟩

example : Balance3 (1 : ℚ) 2 3 (1/2) (1/3) 1 5 (7/10) (evalDD 1 2 3 (1/2) (1/3) 1 5 (7/10)) :=
  C29_dd _ _ _ _ _ _ _ _ (by norm_num)

example : Balance3 (1 : ℚ) 1 1 0 0 9 0 1 (evalCDDFF (1/2) (1/2) 1 1 1 0 0 9 0 1) ∧
    (evalCDDFF (1/2 : ℚ) (1/2) 1 1 1 0 0 9 0 1).z = 0 := by
  refine ⟨(C29_cdd_ff _ _ _ _ _ _ _ _ _ _ (by norm_num) (by norm_num)).1, ?_⟩
  unfold evalCDDFF
  norm_num

end Verif.Sn
