import Verif.Sn.FloatModel
import Verif.Sn.CellProps
import Verif.Fp.NearLemmas
import Mathlib.Analysis.Complex.Exponential
import Mathlib.Analysis.Complex.ExponentialBounds
import Mathlib.Tactic.Linarith
import Mathlib.Tactic.NormNum
import Mathlib.Tactic.Positivity
import Mathlib.Tactic.Ring
import Mathlib.Tactic.FieldSimp

/-!
# C141: the Sn cell equations in floating-point arithmetic
-/

namespace Verif.Sn

open Verif.Fp

set_option linter.unusedSectionVars false

section

variable {K : Type} [Field K] [LinearOrder K] [IsStrictOrderedRing K]

theorem divF_some (rnd : K → K) (a b : K) (h : b ≠ 0) : divF rnd a b = some (rnd (a / b)) := if_neg h

variable {rnd : K → K}

/-- Without rounding the functions are those of C29. -/
theorem C141_exact (gx gy tx ty tz fx fy fz q xstr : K) (hgx : 0 < gx) (hgy : 0 < gy) (htx : 0 < tx) (hty : 0 < ty) (htz : 0 < tz) (hx : 0 ≤ xstr) :
    evalDDF id tx ty tz fx fy fz q xstr = some (evalDD tx ty tz fx fy fz q xstr) ∧
    evalDD2F id tx ty fx fy q xstr = some (evalDD2 tx ty fx fy q xstr) ∧
    evalCDD2F id gx gy tx ty fx fy q xstr = some (evalCDD2 gx gy tx ty fx fy q xstr) ∧
    evalCDDDDF id gx gy tx ty tz fx fy fz q xstr = some (evalCDDDD gx gy tx ty tz fx fy fz q xstr) ∧
    evalCDDFFF id gx gy tx ty tz fx fy fz q xstr = some (evalCDDFF gx gy tx ty tz fx fy fz q xstr) ∧
    evalCDDFWF id gx gy tx ty tz fx fy fz q xstr = some (evalCDDFW gx gy tx ty tz fx fy fz q xstr) := by
  have h1 : 2 * (tx + ty + tz) + xstr ≠ 0 := by positivity
  have h2 : 2 * (tx + ty) + xstr ≠ 0 := by positivity
  have h3 : tx / gx + ty / gy + xstr ≠ 0 := by positivity
  have h4 : tx / gx + ty / gy + 2 * tz + xstr ≠ 0 := by positivity
  have h5 : tx / gx + ty / gy + tz + xstr ≠ 0 := by positivity
  refine ⟨?_, ?_, ?_, ?_, ?_, ?_⟩
  · simp [evalDDF, evalDD, divF, h1]
  · simp [evalDD2F, evalDD2, divF, h2]
  · simp [evalCDD2F, evalCDD2, divF, h3, hgx.ne', hgy.ne']
  · simp [evalCDDDDF, evalCDDDD, divF, h4, hgx.ne', hgy.ne']
  · simp only [evalCDDFFF, evalCDDFF, divF, h4, h3, hgx.ne', hgy.ne', id, if_false, Option.bind_eq_bind, Option.bind_some]
    split <;> rfl
  · simp [evalCDDFWF, evalCDDFW, divF, h5, hgx.ne', hgy.ne']

/-- The same for the schemes with step characteristics. -/
theorem C141_exact_sc (e : K → K) (gx gy tx ty tz fx fy fz q xstr : K) (hgx : 0 < gx) (hgy : 0 < gy) (htx : 0 < tx) (hty : 0 < ty) (htz : 0 < tz) (hx : 0 < xstr)
    (he : e (xstr / tz) ≠ 1) (hr : rho e (xstr / tz) < 1) :
    evalDDSCF id e tx ty tz fx fy fz q xstr = some (evalDDSC e tx ty tz fx fy fz q xstr) ∧
    evalCDDSCF id e gx gy tx ty tz fx fy fz q xstr = some (evalCDDSC e gx gy tx ty tz fx fy fz q xstr) := by
  have ht : xstr / tz ≠ 0 := by positivity
  have he' : e (xstr / tz) - 1 ≠ 0 := sub_ne_zero.mpr he
  have hr' : 0 < 1 - rho e (xstr / tz) := by linarith
  have hz : 0 < tz / (1 - rho e (xstr / tz)) := div_pos htz hr'
  have h2 : 2 * (tx + ty) + tz / (1 - rho e (xstr / tz)) + xstr ≠ 0 := by positivity
  have h3 : tx / gx + ty / gy + tz / (1 - rho e (xstr / tz)) + xstr ≠ 0 := by positivity
  have hrf : rhoF id e (xstr / tz) = some (rho e (xstr / tz)) := by
    simp only [rhoF, rho, divF, ht, he', id, if_false, Option.bind_eq_bind, Option.bind_some]
  constructor
  · simp only [evalDDSCF, evalDDSC, divF, htz.ne', hrf, hr'.ne', h2, id, if_false, Option.bind_eq_bind, Option.bind_some]
  · simp only [evalCDDSCF, evalCDDSC, divF, htz.ne', hrf, hr'.ne', h3, hgx.ne', hgy.ne', id, if_false, Option.bind_eq_bind, Option.bind_some]

/-- Whatever the rounding, as long as it is monotone: the schemes divide by no zero, the average of a cell is not negative, and the scheme with the fix-up returns no negative
axial flux. -/
theorem C141_average (R : Rounding rnd) (gx gy tx ty tz fx fy fz q xstr : K) (hgx : 0 < gx) (hgy : 0 < gy) (htx : 0 < tx) (hty : 0 < ty) (htz : 0 < tz)
    (mx : rnd tx = tx) (ux : 0 < rnd (tx / gx)) (hfx : 0 ≤ fx) (hfy : 0 ≤ fy) (hfz : 0 ≤ fz) (hq : 0 ≤ q) (hx : 0 ≤ xstr) :
    (∃ o, evalDDF rnd tx ty tz fx fy fz q xstr = some o ∧ 0 ≤ o.psi) ∧
    (∃ o, evalDD2F rnd tx ty fx fy q xstr = some o ∧ 0 ≤ o.psi) ∧
    (∃ o, evalCDD2F rnd gx gy tx ty fx fy q xstr = some o ∧ 0 ≤ o.psi) ∧
    (∃ o, evalCDDDDF rnd gx gy tx ty tz fx fy fz q xstr = some o ∧ 0 ≤ o.psi) ∧
    (∃ o, evalCDDFFF rnd gx gy tx ty tz fx fy fz q xstr = some o ∧ 0 ≤ o.psi ∧ 0 ≤ o.z) ∧
    (∃ o, evalCDDFWF rnd gx gy tx ty tz fx fy fz q xstr = some o ∧ 0 ≤ o.psi ∧ o.z = o.psi) := by
  have n : ∀ {x : K}, 0 ≤ x → 0 ≤ rnd x := fun h => rnn R h
  have ax := n (mul_nonneg htx.le hfx)
  have ay := n (mul_nonneg hty.le hfy)
  have az := n (mul_nonneg htz.le hfz)
  have axy := n (add_nonneg ax ay)
  have axyz := n (add_nonneg axy az)
  have d2 : tx ≤ rnd (tx + ty) := rge R mx (by linarith)
  have d3 : tx ≤ rnd (rnd (tx + ty) + tz) := rge R mx (by linarith)
  have d22 : tx ≤ rnd (2 * rnd (tx + ty)) := rge R mx (by linarith)
  have d33 : tx ≤ rnd (2 * rnd (rnd (tx + ty) + tz)) := rge R mx (by linarith)
  have e2 : tx ≤ rnd (rnd (2 * rnd (tx + ty)) + xstr) := rge R mx (by linarith)
  have e3 : tx ≤ rnd (rnd (2 * rnd (rnd (tx + ty) + tz)) + xstr) := rge R mx (by linarith)
  have uy : 0 ≤ rnd (ty / gy) := n (by positivity)
  have g2 : rnd (tx / gx) ≤ rnd (rnd (tx / gx) + rnd (ty / gy)) := rge R (R.idem _) (by linarith)
  have g2z : rnd (tx / gx) ≤ rnd (rnd (rnd (tx / gx) + rnd (ty / gy)) + rnd (2 * tz)) := rge R (R.idem _) (by linarith [n (x := 2 * tz) (by linarith)])
  have g2w : rnd (tx / gx) ≤ rnd (rnd (rnd (tx / gx) + rnd (ty / gy)) + tz) := rge R (R.idem _) (by linarith)
  have k2 : rnd (tx / gx) ≤ rnd (rnd (rnd (tx / gx) + rnd (ty / gy)) + xstr) := rge R (R.idem _) (by linarith)
  have k3 : rnd (tx / gx) ≤ rnd (rnd (rnd (rnd (tx / gx) + rnd (ty / gy)) + rnd (2 * tz)) + xstr) := rge R (R.idem _) (by linarith)
  have k4 : rnd (tx / gx) ≤ rnd (rnd (rnd (rnd (tx / gx) + rnd (ty / gy)) + tz) + xstr) := rge R (R.idem _) (by linarith)
  have q2 : 0 ≤ rnd (q + rnd (2 * rnd (rnd (tx * fx) + rnd (ty * fy)))) := n (add_nonneg hq (n (by linarith)))
  have q3 : 0 ≤ rnd (q + rnd (2 * rnd (rnd (rnd (tx * fx) + rnd (ty * fy)) + rnd (tz * fz)))) := n (add_nonneg hq (n (by linarith)))
  have z2 := (ux.trans_le k2).ne'
  have z3 := (ux.trans_le k3).ne'
  have z4 := (ux.trans_le k4).ne'
  refine ⟨?_, ?_, ?_, ?_, ?_, ?_⟩
  · simp only [evalDDF, divF_some _ _ _ (htx.trans_le e3).ne', Option.bind_eq_bind, Option.bind_some]
    exact ⟨_, rfl, n (div_nonneg (n (add_nonneg (n (by linarith)) hq)) (htx.le.trans e3))⟩
  · simp only [evalDD2F, divF_some _ _ _ (htx.trans_le e2).ne', Option.bind_eq_bind, Option.bind_some]
    exact ⟨_, rfl, n (div_nonneg (n (add_nonneg (n (by linarith)) hq)) (htx.le.trans e2))⟩
  · simp only [evalCDD2F, divF_some _ _ _ hgx.ne', divF_some _ _ _ hgy.ne', divF_some _ _ _ z2, Option.bind_eq_bind, Option.bind_some]
    exact ⟨_, rfl, n (div_nonneg q2 (ux.le.trans k2))⟩
  · simp only [evalCDDDDF, divF_some _ _ _ hgx.ne', divF_some _ _ _ hgy.ne', divF_some _ _ _ z3, Option.bind_eq_bind, Option.bind_some]
    exact ⟨_, rfl, n (div_nonneg q3 (ux.le.trans k3))⟩
  · simp only [evalCDDFFF, divF_some _ _ _ hgx.ne', divF_some _ _ _ hgy.ne', divF_some _ _ _ z3, divF_some _ _ _ z2, Option.bind_eq_bind, Option.bind_some]
    split
    · exact ⟨_, rfl, n (div_nonneg (n (add_nonneg q2 az)) (ux.le.trans k2)), le_rfl⟩
    · next h => exact ⟨_, rfl, n (div_nonneg q3 (ux.le.trans k3)), not_lt.mp h⟩
  · simp only [evalCDDFWF, divF_some _ _ _ hgx.ne', divF_some _ _ _ hgy.ne', divF_some _ _ _ z4, Option.bind_eq_bind, Option.bind_some]
    exact ⟨_, rfl, n (div_nonneg (n (add_nonneg q2 az)) (ux.le.trans k4)), rfl⟩

end

/-! ### Errors -/

/-- What is assumed of the numbers of a cell: they are not negative, numbers of the machine, and the products are not so small that places are lost. -/
structure CellOk (tx ty tz fx fy fz q xstr : ℚ) : Prop where
  htx : 0 < tx
  hty : 0 < ty
  htz : 0 < tz
  hfx : 0 ≤ fx
  hfy : 0 ≤ fy
  hfz : 0 ≤ fz
  hq : 0 ≤ q
  hx : 0 ≤ xstr
  dtx : Dbl tx
  dty : Dbl ty
  dtz : Dbl tz
  dfx : Dbl fx
  dfy : Dbl fy
  dfz : Dbl fz
  dq : Dbl q
  dx : Dbl xstr
  nx : Normal (tx * fx)
  ny : Normal (ty * fy)
  nz : Normal (tz * fz)

theorem quot_err {k l : Nat} {a b c d : ℚ} (m : ℚ) (ha : Near k a b) (hc : Near l c d) (hc0 : 0 < c) (hkl : k + l ≤ 90) (hs : Sizeable (a / c)) (hm : ((k + l + 1 : ℕ) : ℚ) + 1 = m)
    (p : ℚ) (hp : divF rnd64 b d = some p) : |p - a / c| ≤ m / 2 ^ 53 * (a / c) := by
  have hd : d ≠ 0 := by
    intro h0
    rw [h0, divF, if_pos rfl] at hp
    exact absurd hp (by simp)
  have hd0 : 0 < d := lt_of_le_of_ne hc.nonneg hd.symm
  rw [divF_some _ _ _ hd] at hp
  have := (near_div (by omega) ha hc hc0 hd0 hs).err (by omega)
  rw [← Option.some.inj hp]
  rw [hm] at this
  calc _ ≤ _ := this
    _ = _ := by unfold uro; ring

/-- The average of a cell of the diamond difference schemes is the one of exact arithmetic to within a few units in the last place. -/
theorem C141_error_dd (tx ty tz fx fy fz q xstr : ℚ) (h : CellOk tx ty tz fx fy fz q xstr) :
    (∀ o, evalDDF rnd64 tx ty tz fx fy fz q xstr = some o → Sizeable (evalDD tx ty tz fx fy fz q xstr).psi →
      |o.psi - (evalDD tx ty tz fx fy fz q xstr).psi| ≤ 11 / 2 ^ 53 * (evalDD tx ty tz fx fy fz q xstr).psi) ∧
    (∀ o, evalDD2F rnd64 tx ty fx fy q xstr = some o → Sizeable (evalDD2 tx ty fx fy q xstr).psi →
      |o.psi - (evalDD2 tx ty fx fy q xstr).psi| ≤ 9 / 2 ^ 53 * (evalDD2 tx ty fx fy q xstr).psi) := by
  have px := near_prod h.htx.le h.hfx h.nx
  have py := near_prod h.hty.le h.hfy h.ny
  have pz := near_prod h.htz.le h.hfz h.nz
  have pxy := near_add px py (dbl_rnd _) (dbl_rnd _)
  have pxyz := near_add pxy pz (dbl_rnd _) (dbl_rnd _)
  have bxy := near_two pxy (dbl_rnd _)
  have bxyz := near_two pxyz (dbl_rnd _)
  have rq := Near.refl h.hq
  have rx := Near.refl h.hx
  have sxy := near_add (Near.refl h.htx.le) (Near.refl h.hty.le) h.dtx h.dty
  have sxyz := near_add sxy (Near.refl h.htz.le) (dbl_rnd _) h.dtz
  have txp := h.htx
  have typ := h.hty
  have tzp := h.htz
  have xsp := h.hx
  refine ⟨?_, ?_⟩
  · intro o ho hs
    simp only [evalDDF, Option.bind_eq_bind, Option.bind_eq_some_iff, Option.some.injEq] at ho
    obtain ⟨p, hp, rfl⟩ := ho
    exact quot_err 11 (near_add bxyz rq (dbl_rnd _) h.dq) (near_add (near_two sxyz (dbl_rnd _)) rx (dbl_rnd _) h.dx) (by positivity) (by norm_num) hs (by norm_num) p hp
  · intro o ho hs
    simp only [evalDD2F, Option.bind_eq_bind, Option.bind_eq_some_iff, Option.some.injEq] at ho
    obtain ⟨p, hp, rfl⟩ := ho
    exact quot_err 9 (near_add bxy rq (dbl_rnd _) h.dq) (near_add (near_two sxy (dbl_rnd _)) rx (dbl_rnd _) h.dx) (by positivity) (by norm_num) hs (by norm_num) p hp

/-- The same for the schemes with correction factors. -/
theorem C141_error_cdd (gx gy tx ty tz fx fy fz q xstr : ℚ) (h : CellOk tx ty tz fx fy fz q xstr) (hgx : 0 < gx) (hgy : 0 < gy) (sx : Sizeable (tx / gx)) (sy : Sizeable (ty / gy)) :
    (∀ o, evalCDD2F rnd64 gx gy tx ty fx fy q xstr = some o → Sizeable (evalCDD2 gx gy tx ty fx fy q xstr).psi →
      |o.psi - (evalCDD2 gx gy tx ty fx fy q xstr).psi| ≤ 9 / 2 ^ 53 * (evalCDD2 gx gy tx ty fx fy q xstr).psi) ∧
    (∀ o, evalCDDDDF rnd64 gx gy tx ty tz fx fy fz q xstr = some o → Sizeable (evalCDDDD gx gy tx ty tz fx fy fz q xstr).psi →
      |o.psi - (evalCDDDD gx gy tx ty tz fx fy fz q xstr).psi| ≤ 11 / 2 ^ 53 * (evalCDDDD gx gy tx ty tz fx fy fz q xstr).psi) ∧
    (∀ o, evalCDDFWF rnd64 gx gy tx ty tz fx fy fz q xstr = some o → Sizeable (evalCDDFW gx gy tx ty tz fx fy fz q xstr).psi →
      |o.psi - (evalCDDFW gx gy tx ty tz fx fy fz q xstr).psi| ≤ 11 / 2 ^ 53 * (evalCDDFW gx gy tx ty tz fx fy fz q xstr).psi) := by
  have px := near_prod h.htx.le h.hfx h.nx
  have py := near_prod h.hty.le h.hfy h.ny
  have pz := near_prod h.htz.le h.hfz h.nz
  have pxy := near_add px py (dbl_rnd _) (dbl_rnd _)
  have pxyz := near_add pxy pz (dbl_rnd _) (dbl_rnd _)
  have bxy := near_two pxy (dbl_rnd _)
  have bxyz := near_two pxyz (dbl_rnd _)
  have rq := Near.refl h.hq
  have rx := Near.refl h.hx
  have cx : Near 1 (tx / gx) (rnd64 (tx / gx)) := by
    have := near_div (by norm_num) (Near.refl h.htx.le) (Near.refl hgx.le) hgx hgx sx
    simpa using this
  have cy : Near 1 (ty / gy) (rnd64 (ty / gy)) := by
    have := near_div (by norm_num) (Near.refl h.hty.le) (Near.refl hgy.le) hgy hgy sy
    simpa using this
  have cxy := near_add cx cy (dbl_rnd _) (dbl_rnd _)
  have txp := h.htx
  have typ := h.hty
  have tzp := h.htz
  have xsp := h.hx
  refine ⟨?_, ?_, ?_⟩
  · intro o ho hs
    simp only [evalCDD2F, divF_some _ _ _ hgx.ne', divF_some _ _ _ hgy.ne', Option.bind_eq_bind, Option.bind_some, Option.bind_eq_some_iff, Option.some.injEq] at ho
    obtain ⟨p, hp, rfl⟩ := ho
    exact quot_err 9 (near_add rq bxy h.dq (dbl_rnd _)) (near_add cxy rx (dbl_rnd _) h.dx) (by positivity) (by norm_num) hs (by norm_num) p hp
  · intro o ho hs
    simp only [evalCDDDDF, divF_some _ _ _ hgx.ne', divF_some _ _ _ hgy.ne', Option.bind_eq_bind, Option.bind_some, Option.bind_eq_some_iff, Option.some.injEq] at ho
    obtain ⟨p, hp, rfl⟩ := ho
    exact quot_err 11 (near_add rq bxyz h.dq (dbl_rnd _)) (near_add (near_add cxy (near_two (Near.refl h.htz.le) h.dtz) (dbl_rnd _) (dbl_rnd _)) rx (dbl_rnd _) h.dx)
      (by positivity) (by norm_num) hs (by norm_num) p hp
  · intro o ho hs
    simp only [evalCDDFWF, divF_some _ _ _ hgx.ne', divF_some _ _ _ hgy.ne', Option.bind_eq_bind, Option.bind_some, Option.bind_eq_some_iff, Option.some.injEq] at ho
    obtain ⟨p, hp, rfl⟩ := ho
    exact quot_err 11 (near_add (near_add rq bxy h.dq (dbl_rnd _)) pz (dbl_rnd _) (dbl_rnd _)) (near_add (near_add cxy (Near.refl h.htz.le) (dbl_rnd _) h.dtz) rx (dbl_rnd _) h.dx)
      (by positivity) (by norm_num) hs (by norm_num) p hp

/-- Extrapolation to a face. -/
theorem face_err {p f : ℚ} (hp : 0 ≤ p) (hf : 0 ≤ f) (dp : Dbl p) (df : Dbl f) : |rnd64 (rnd64 (2 * p) - f) - (2 * p - f)| ≤ uro * (5 * p + 2 * f) := by
  have h1 := rel_two dp
  rw [abs_of_nonneg (show (0 : ℚ) ≤ 2 * p by linarith)] at h1
  have h2 := rel_sub (dbl_rnd (2 * p)) df
  have hu := uro_pos
  have u1 : uro ≤ 1 / 4 := by unfold uro; norm_num
  have h3 : |rnd64 (2 * p) - f| ≤ 5 / 2 * p + f := by
    have a := abs_le.mp h1
    rw [abs_le]
    constructor <;> nlinarith
  have h4 := h2.trans (mul_le_mul_of_nonneg_left h3 hu.le)
  have a := abs_le.mp h1
  have b := abs_le.mp h4
  rw [abs_le]
  constructor <;> nlinarith [mul_nonneg hu.le hp, mul_nonneg hu.le hf]

/-- Balance of particles over a cell of the diamond difference scheme, up to a few units in the last place of what comes in and is emitted. -/
theorem C141_balance (tx ty tz fx fy fz q xstr : ℚ) (h : CellOk tx ty tz fx fy fz q xstr) (hs : Sizeable (evalDD tx ty tz fx fy fz q xstr).psi) (o : Out3 ℚ)
    (ho : evalDDF rnd64 tx ty tz fx fy fz q xstr = some o) :
    |tx * (o.x - fx) + ty * (o.y - fy) + tz * (o.z - fz) + xstr * o.psi - q| ≤ 16 / 2 ^ 53 * (2 * (tx * fx + ty * fy + tz * fz) + q) := by
  have he := (C141_error_dd tx ty tz fx fy fz q xstr h).1 o ho hs
  simp only [evalDDF, Option.bind_eq_bind, Option.bind_eq_some_iff, Option.some.injEq] at ho
  obtain ⟨p, hp, rfl⟩ := ho
  have hpd : Dbl p := by
    unfold divF at hp
    split at hp
    · exact absurd hp (by simp)
    · rw [← Option.some.inj hp]; exact dbl_rnd _
  obtain ⟨htx, hty, htz, hfx, hfy, hfz, hq, hx, -, -, -, dfx, dfy, dfz, -, -, -, -, -⟩ := h
  simp only [evalDD] at he ⊢
  have hD : 0 < 2 * (tx + ty + tz) + xstr := by positivity
  have hN : 0 ≤ 2 * (tx * fx + ty * fy + tz * fz) + q := by positivity
  have key := div_mul_cancel₀ (2 * (tx * fx + ty * fy + tz * fz) + q) hD.ne'
  have hP : 0 ≤ (2 * (tx * fx + ty * fy + tz * fz) + q) / (2 * (tx + ty + tz) + xstr) := div_nonneg hN hD.le
  generalize (2 * (tx * fx + ty * fy + tz * fz) + q) / (2 * (tx + ty + tz) + xstr) = P at he key hP
  have hu : (11 : ℚ) / 2 ^ 53 = 11 * uro := by unfold uro; ring
  have hu' : (16 : ℚ) / 2 ^ 53 = 16 * uro := by unfold uro; ring
  rw [hu] at he
  rw [hu']
  have up := uro_pos
  have u1 : 11 * uro ≤ 1 / 8 := by unfold uro; norm_num
  obtain ⟨e1, e2⟩ := abs_le.mp he
  have hm : 11 * uro * P ≤ 1 / 8 * P := mul_le_mul_of_nonneg_right u1 hP
  have hp0 : 0 ≤ p := by linarith
  have hp1 : p ≤ 9 / 8 * P := by linarith
  obtain ⟨x1, x2⟩ := abs_le.mp (face_err hp0 hfx hpd dfx)
  obtain ⟨y1, y2⟩ := abs_le.mp (face_err hp0 hfy hpd dfy)
  obtain ⟨z1, z2⟩ := abs_le.mp (face_err hp0 hfz hpd dfz)
  generalize rnd64 (rnd64 (2 * p) - fx) = X at *
  generalize rnd64 (rnd64 (2 * p) - fy) = Y at *
  generalize rnd64 (rnd64 (2 * p) - fz) = Z at *
  generalize hNN : 2 * (tx * fx + ty * fy + tz * fz) + q = N at *
  -- the residual in terms of the errors
  have res : tx * (X - fx) + ty * (Y - fy) + tz * (Z - fz) + xstr * p - q =
      tx * (X - (2 * p - fx)) + ty * (Y - (2 * p - fy)) + tz * (Z - (2 * p - fz)) + (2 * (tx + ty + tz) + xstr) * (p - P) := by
    linear_combination key - hNN
  rw [res]
  -- sizes
  have sP : (2 * (tx + ty + tz) + xstr) * P = N := by rw [mul_comm]; exact key
  have b1 : |(2 * (tx + ty + tz) + xstr) * (p - P)| ≤ 11 * uro * N := by
    rw [abs_mul, abs_of_pos hD, ← sP]
    calc _ ≤ (2 * (tx + ty + tz) + xstr) * (11 * uro * P) := mul_le_mul_of_nonneg_left he hD.le
      _ = _ := by ring
  have fb : ∀ t f W : ℚ, 0 < t → -(uro * (5 * p + 2 * f)) ≤ W - (2 * p - f) → W - (2 * p - f) ≤ uro * (5 * p + 2 * f) → |t * (W - (2 * p - f))| ≤ uro * (5 * (t * p) + 2 * (t * f)) := by
    intro t f W ht h1 h2
    rw [abs_mul, abs_of_pos ht]
    calc _ ≤ t * (uro * (5 * p + 2 * f)) := mul_le_mul_of_nonneg_left (abs_le.mpr ⟨h1, h2⟩) ht.le
      _ = _ := by ring
  have bx := abs_le.mp (fb tx fx X htx x1 x2)
  have by' := abs_le.mp (fb ty fy Y hty y1 y2)
  have bz := abs_le.mp (fb tz fz Z htz z1 z2)
  have bb := abs_le.mp b1
  have sum : uro * (5 * (tx * p) + 2 * (tx * fx)) + uro * (5 * (ty * p) + 2 * (ty * fy)) + uro * (5 * (tz * p) + 2 * (tz * fz)) ≤ 5 * uro * N := by
    have h1 : (tx + ty + tz) * p ≤ 9 / 16 * N := by
      have : (tx + ty + tz) * p ≤ (tx + ty + tz) * (9 / 8 * P) := mul_le_mul_of_nonneg_left hp1 (by positivity)
      have : 0 ≤ xstr * P := mul_nonneg hx hP
      linarith
    have h2 : tx * fx + ty * fy + tz * fz ≤ 1 / 2 * N := by linarith
    have : 5 * ((tx + ty + tz) * p) + 2 * (tx * fx + ty * fy + tz * fz) ≤ 5 * N := by linarith
    have := mul_le_mul_of_nonneg_left this up.le
    linarith
  rw [abs_le]
  constructor <;> linarith [bx.1, bx.2, by'.1, by'.2, bz.1, bz.2, bb.1, bb.2]

/-! ### Step characteristics -/

/-- `std::exp` on arguments that are not negative: values are doubles within one unit in the last place of the exponential. -/
structure LibExpUp (e : ℚ → ℚ) : Prop where
  double : ∀ v, rnd64 (e v) = e v
  near : ∀ v : ℚ, 0 ≤ v → |(e v : ℝ) - Real.exp v| ≤ Real.exp v / 2 ^ 52

theorem expm1_raw (e : ℚ → ℚ) (he : LibExpUp e) (tau : ℚ) (ht : 1 / 2 ^ 20 ≤ tau) : tau ≤ e tau - 1 := by
  have h := (abs_le.mp (he.near tau (le_trans (by norm_num) ht))).1
  have hq := Real.quadratic_le_exp_of_nonneg (x := (tau : ℝ)) (by exact_mod_cast le_trans (by norm_num) ht)
  have ht' : (1 / 2 ^ 20 : ℝ) ≤ tau := by
    have := (Rat.cast_le (K := ℝ)).mpr ht
    push_cast at this
    exact this
  have : (tau : ℝ) ≤ e tau - 1 := by
    norm_num at h ht' ⊢
    nlinarith
  exact_mod_cast this

/-- The difference with which the weight is computed is not below the argument, unless that is tiny. -/
theorem expm1_ge (e : ℚ → ℚ) (he : LibExpUp e) (tau : ℚ) (ht : 1 / 2 ^ 20 ≤ tau) (hd : Dbl tau) : tau ≤ rnd64 (e tau - 1) :=
  rge rounding64 hd (expm1_raw e he tau ht)

theorem rel_real {x : ℚ} (h : |rnd64 x - x| ≤ uro * |x|) : |((rnd64 x : ℚ) : ℝ) - x| ≤ 1 / 2 ^ 53 * |(x : ℝ)| := by
  have := (Rat.cast_le (K := ℝ)).mpr h
  unfold uro at this
  push_cast at this
  exact this

theorem normal_ge {x : ℚ} (h : 1 / 2 ^ 20 ≤ x) : Normal x := by
  right
  rw [abs_of_nonneg (le_trans (by norm_num) h)]
  refine le_trans ?_ h
  rw [one_div, ← zpow_natCast, ← zpow_neg]
  exact zpow_le_zpow_right₀ (by norm_num) (by norm_num)

theorem exp_up {t : ℝ} (h0 : 0 ≤ t) (h1 : t ≤ 1) : Real.exp t ≤ 1 + t + 3 / 4 * t ^ 2 := by
  have := Real.exp_bound' h0 h1 (n := 2) (by norm_num)
  simp only [Finset.sum_range_succ, Finset.sum_range_zero, Nat.factorial] at this
  norm_num at this
  linarith

/-- Error of the difference of the reciprocals. -/
theorem recip_err (t x d A B r : ℝ) (t0 : 0 < t) (t1 : t ≤ 1) (xt : t ≤ x) (dt : t ≤ d) (hd : |d - x| ≤ 16 / 2 ^ 53) (hA : |A - 1 / t| ≤ 1 / 2 ^ 53 * (1 / t))
    (hB : |B - 1 / d| ≤ 1 / 2 ^ 53 * (1 / d)) (hr : |r - (A - B)| ≤ 1 / 2 ^ 53 * |A - B|) : |r - (1 / t - 1 / x)| ≤ 1 / 2 ^ 48 / t ^ 2 := by
  have x0 : 0 < x := t0.trans_le xt
  have d0 : 0 < d := t0.trans_le dt
  have it : 0 < 1 / t := by positivity
  have id' : 1 / d ≤ 1 / t := one_div_le_one_div_of_le t0 dt
  have id0 : 0 < 1 / d := by positivity
  have ix : 1 / x ≤ 1 / t := one_div_le_one_div_of_le t0 xt
  have it1 : 1 ≤ 1 / t := by rw [le_div_iff₀ t0]; linarith
  have sq : 1 / t ≤ 1 / t * (1 / t) := le_mul_of_one_le_left it.le it1
  have dif : |1 / d - 1 / x| ≤ 16 / 2 ^ 53 * (1 / t * (1 / t)) := by
    have h1 : 1 / d - 1 / x = -(d - x) * (1 / d * (1 / x)) := by field_simp; ring
    rw [h1, abs_mul, abs_neg, abs_of_nonneg (by positivity : 0 ≤ 1 / d * (1 / x))]
    exact mul_le_mul hd (mul_le_mul id' ix (by positivity) it.le) (by positivity) (by norm_num)
  have e48 : 1 / 2 ^ 48 / t ^ 2 = 1 / 2 ^ 48 * (1 / t * (1 / t)) := by field_simp
  rw [e48]
  have hAB : |A - B| ≤ 2 * (1 / t) := by
    have a := abs_le.mp hA
    have b := abs_le.mp hB
    norm_num at a b
    rw [abs_le]
    simp only [one_div] at *
    constructor <;> linarith [a.1, a.2, b.1, b.2]
  have hr' := abs_le.mp (hr.trans (mul_le_mul_of_nonneg_left hAB (by norm_num)))
  have a := abs_le.mp hA
  have b := abs_le.mp hB
  have c := abs_le.mp dif
  rw [abs_le]
  generalize 1 / t * (1 / t) = s at *
  generalize 1 / t = i at *
  generalize 1 / d = j at *
  generalize 1 / x = k at *
  norm_num at hr' a b c ⊢
  constructor <;> linarith [a.1, a.2, b.1, b.2, c.1, c.2, hr'.1, hr'.2]

/-- Weight of the step characteristics: digits are lost as the square of the optical thickness. -/
theorem C141_rho (e : ℚ → ℚ) (he : LibExpUp e) (tau : ℚ) (ht : 1 / 2 ^ 20 ≤ tau) (h1 : tau ≤ 1) (hd : Dbl tau) :
    ∃ r, rhoF rnd64 e tau = some r ∧ |(r : ℝ) - rho Real.exp tau| ≤ 1 / 2 ^ 48 / (tau : ℝ) ^ 2 := by
  have t0 : 0 < tau := lt_of_lt_of_le (by norm_num) ht
  have hge := expm1_ge e he tau ht hd
  have hraw := expm1_raw e he tau ht
  have d0 : 0 < rnd64 (e tau - 1) := t0.trans_le hge
  refine ⟨rnd64 (rnd64 (1 / tau) - rnd64 (1 / rnd64 (e tau - 1))), by simp only [rhoF, divF_some _ _ _ t0.ne', divF_some _ _ _ d0.ne', Option.bind_eq_bind, Option.bind_some], ?_⟩
  have t0r : (0 : ℝ) < tau := by exact_mod_cast t0
  have t1r : (tau : ℝ) ≤ 1 := by exact_mod_cast h1
  have xlo : (tau : ℝ) ≤ Real.exp tau - 1 := by linarith [Real.add_one_le_exp (tau : ℝ)]
  have xhi : Real.exp tau - 1 ≤ 2 * (tau : ℝ) := by
    have := exp_up t0r.le t1r
    nlinarith
  have hE := abs_le.mp (he.near tau t0.le)
  have em : (e tau - 1 : ℚ) ≤ 3 := by
    have : (e tau : ℝ) - 1 ≤ 3 := by
      have := hE.2
      norm_num at this ⊢
      nlinarith
    exact_mod_cast this
  have emr : (e tau : ℝ) - 1 ≤ 3 := by exact_mod_cast em
  have er0 : (0 : ℝ) ≤ e tau - 1 := by exact_mod_cast t0.le.trans hraw
  have rd := rel_real (rel_normal (normal_ge (ht.trans hraw)))
  push_cast at rd
  rw [abs_of_nonneg er0] at rd
  have dle : rnd64 (e tau - 1) ≤ 4 := (rnd64_mono _ 4 (by linarith)).trans (by decide +kernel)
  have nA : Normal (1 / tau) := normal_ge (by rw [le_div_iff₀ t0]; linarith)
  have nB : Normal (1 / rnd64 (e tau - 1)) := normal_ge (by rw [le_div_iff₀ d0]; linarith)
  have rA := rel_real (rel_normal nA)
  have rB := rel_real (rel_normal nB)
  have rS := rel_real (rel_sub (dbl_rnd (1 / tau)) (dbl_rnd (1 / rnd64 (e tau - 1))))
  push_cast at rA rB rS
  have d0r : (0 : ℝ) < rnd64 (e tau - 1) := by exact_mod_cast d0
  rw [abs_of_nonneg (by positivity : (0 : ℝ) ≤ 1 / tau)] at rA
  rw [abs_of_nonneg (by positivity : (0 : ℝ) ≤ 1 / (rnd64 (e tau - 1) : ℚ))] at rB
  refine recip_err tau (Real.exp tau - 1) (rnd64 (e tau - 1) : ℚ) _ _ _ t0r t1r xlo (by exact_mod_cast hge) ?_ rA rB rS
  have a := abs_le.mp rd
  norm_num at a hE
  rw [abs_le]
  norm_num
  constructor <;> linarith [a.1, a.2, hE.1, hE.2]

/-- The weight lies where it should unless the cell is very thin. -/
theorem C141_rho_range (e : ℚ → ℚ) (he : LibExpUp e) (tau : ℚ) (ht : 1 / 2 ^ 20 ≤ tau) (hd : Dbl tau) : ∃ r, rhoF rnd64 e tau = some r ∧ 0 ≤ r ∧ r ≤ 7 / 8 := by
  have t0 : 0 < tau := lt_of_lt_of_le (by norm_num) ht
  have hge := expm1_ge e he tau ht hd
  have d0 : 0 < rnd64 (e tau - 1) := t0.trans_le hge
  have val : rhoF rnd64 e tau = some (rnd64 (rnd64 (1 / tau) - rnd64 (1 / rnd64 (e tau - 1)))) := by
    simp only [rhoF, divF_some _ _ _ t0.ne', divF_some _ _ _ d0.ne', Option.bind_eq_bind, Option.bind_some]
  refine ⟨_, val, rnd64_nonneg (sub_nonneg.mpr (rnd64_mono _ _ (one_div_le_one_div_of_le t0 hge))), ?_⟩
  have B0 : 0 ≤ rnd64 (1 / rnd64 (e tau - 1)) := rnd64_nonneg (by positivity)
  rcases le_or_gt tau 1 with h1 | h1
  · obtain ⟨r, hr, hb⟩ := C141_rho e he tau ht h1 hd
    rw [val] at hr
    rw [Option.some.inj hr]
    have t0r : (0 : ℝ) < tau := by exact_mod_cast t0
    have t1r : (tau : ℝ) ≤ 1 := by exact_mod_cast h1
    have ht' : (1 / 2 ^ 20 : ℝ) ≤ tau := by
      have := (Rat.cast_le (K := ℝ)).mpr ht
      push_cast at this
      exact this
    have hx := exp_up t0r.le t1r
    have x0 : 0 < Real.exp (tau : ℝ) - 1 := by linarith [Real.add_one_lt_exp t0r.ne']
    have hrho : rho Real.exp (tau : ℝ) ≤ 3 / 4 := by
      have h2 : 1 / (tau * (1 + 3 / 4 * tau) : ℝ) ≤ 1 / (Real.exp tau - 1) := one_div_le_one_div_of_le x0 (by nlinarith)
      have h3 : 1 / (tau : ℝ) - 1 / (tau * (1 + 3 / 4 * tau) : ℝ) = 3 / 4 / (1 + 3 / 4 * tau) := by
        have : (1 + 3 / 4 * tau : ℝ) ≠ 0 := by positivity
        field_simp
        ring
      have h4 : 3 / 4 / (1 + 3 / 4 * tau : ℝ) ≤ 3 / 4 := div_le_self (by norm_num) (by linarith)
      unfold rho
      linarith
    have hsq : 1 / 2 ^ 48 / (tau : ℝ) ^ 2 ≤ 1 / 2 ^ 8 := by
      rw [div_le_iff₀ (by positivity)]
      have : (1 / 2 ^ 20 : ℝ) ^ 2 ≤ (tau : ℝ) ^ 2 := pow_le_pow_left₀ (by positivity) ht' 2
      norm_num at this ⊢
      linarith
    have : (r : ℝ) ≤ ((7 / 8 : ℚ) : ℝ) := by
      have := (abs_le.mp hb).2
      push_cast
      norm_num at this hsq ⊢
      linarith
    exact Rat.cast_le.mp this
  · rcases le_or_gt tau (5 / 4) with h2 | h2
    · have A1 : rnd64 (1 / tau) ≤ 1 := (rnd64_mono _ 1 (by rw [div_le_one t0]; exact h1.le)).trans (by decide +kernel)
      have em : e tau - 1 ≤ 4 := by
        have t2r : (tau : ℝ) ≤ 5 / 4 := by
          have := (Rat.cast_le (K := ℝ)).mpr h2
          push_cast at this
          exact this
        have h5 : Real.exp tau ≤ 4 := by
          have h6 : Real.exp tau ≤ Real.exp (5 / 4) := Real.exp_le_exp.mpr t2r
          have h7 : Real.exp (5 / 4) = Real.exp 1 * Real.exp (1 / 4) := by rw [← Real.exp_add]; norm_num
          have h8 := exp_up (t := 1 / 4) (by norm_num) (by norm_num)
          have h9 := Real.exp_one_lt_d9
          rw [h7] at h6
          have h10 := Real.exp_pos (1 / 4)
          norm_num at h8 h9
          nlinarith
        have hE := (abs_le.mp (he.near tau t0.le)).2
        have : (e tau : ℝ) - 1 ≤ 4 := by norm_num at hE ⊢; linarith
        exact_mod_cast this
      have dle : rnd64 (e tau - 1) ≤ 4 := (rnd64_mono _ 4 em).trans (by decide +kernel)
      have B1 : 1 / 4 ≤ rnd64 (1 / rnd64 (e tau - 1)) := rge rounding64 (by decide +kernel) (one_div_le_one_div_of_le d0 dle)
      exact (rnd64_mono _ (7 / 8) (by linarith)).trans (by decide +kernel)
    · have A1 : rnd64 (1 / tau) ≤ 7 / 8 := (rnd64_mono _ (7 / 8) (by rw [div_le_iff₀ t0]; linarith)).trans (by decide +kernel)
      exact (rnd64_mono _ (7 / 8) (by linarith)).trans (by decide +kernel)

/-- Step characteristics as the code uses them: results for every cell with positive cross section, averages not negative. -/
def C141_sc_claim : Prop :=
  ∀ e, LibExpUp e → ∀ gx gy tx ty tz fx fy fz q xstr : ℚ, 0 < gx → 0 < gy → CellOk tx ty tz fx fy fz q xstr → 0 < xstr → 0 < rnd64 (tx / gx) →
    (∃ o, evalDDSCF rnd64 e tx ty tz fx fy fz q xstr = some o ∧ 0 ≤ o.psi) ∧ (∃ o, evalCDDSCF rnd64 e gx gy tx ty tz fx fy fz q xstr = some o ∧ 0 ≤ o.psi)

/-- For cells whose optical thickness along the axis is at least a millionth. -/
theorem C141_sc_partial (e : ℚ → ℚ) (he : LibExpUp e) (gx gy tx ty tz fx fy fz q xstr : ℚ) (hgx : 0 < gx) (hgy : 0 < gy) (h : CellOk tx ty tz fx fy fz q xstr)
    (ux : 0 < rnd64 (tx / gx)) (ht : 1 / 2 ^ 20 ≤ rnd64 (xstr / tz)) :
    (∃ o, evalDDSCF rnd64 e tx ty tz fx fy fz q xstr = some o ∧ 0 ≤ o.psi) ∧ (∃ o, evalCDDSCF rnd64 e gx gy tx ty tz fx fy fz q xstr = some o ∧ 0 ≤ o.psi) := by
  obtain ⟨r, hr, r0, r1⟩ := C141_rho_range e he _ ht (dbl_rnd _)
  have R := rounding64
  have n : ∀ {x : ℚ}, 0 ≤ x → 0 ≤ rnd64 x := fun h => rnd64_nonneg h
  have w : 1 / 8 ≤ rnd64 (1 - r) := rge R (by decide +kernel) (by linarith)
  have w0 : 0 < rnd64 (1 - r) := lt_of_lt_of_le (by norm_num) w
  obtain ⟨htx, hty, htz, hfx, hfy, hfz, hq, hx, dtx, -, -, -, -, -, -, -, -, -, -⟩ := h
  have ax := n (mul_nonneg htx.le hfx)
  have ay := n (mul_nonneg hty.le hfy)
  have axy := n (add_nonneg ax ay)
  have bxy : 0 ≤ rnd64 (2 * rnd64 (rnd64 (tx * fx) + rnd64 (ty * fy))) := n (by linarith)
  have rf : 0 ≤ rnd64 (r / rnd64 (1 - r)) := n (div_nonneg r0 w0.le)
  have az : 0 ≤ rnd64 (rnd64 (tz * rnd64 (rnd64 (r / rnd64 (1 - r)) + 1)) * fz) := n (mul_nonneg (n (mul_nonneg htz.le (n (by linarith)))) hfz)
  have dz : 0 ≤ rnd64 (tz / rnd64 (1 - r)) := n (div_nonneg htz.le w0.le)
  have d2 : tx ≤ rnd64 (tx + ty) := rge R dtx (by linarith)
  have d22 : tx ≤ rnd64 (2 * rnd64 (tx + ty)) := rge R dtx (by linarith)
  have d3 : tx ≤ rnd64 (rnd64 (2 * rnd64 (tx + ty)) + rnd64 (tz / rnd64 (1 - r))) := rge R dtx (by linarith)
  have d4 : tx ≤ rnd64 (rnd64 (rnd64 (2 * rnd64 (tx + ty)) + rnd64 (tz / rnd64 (1 - r))) + xstr) := rge R dtx (by linarith)
  have uy : 0 ≤ rnd64 (ty / gy) := n (by positivity)
  have g2 : rnd64 (tx / gx) ≤ rnd64 (rnd64 (tx / gx) + rnd64 (ty / gy)) := rge R (R.idem _) (by linarith)
  have g3 : rnd64 (tx / gx) ≤ rnd64 (rnd64 (rnd64 (tx / gx) + rnd64 (ty / gy)) + rnd64 (tz / rnd64 (1 - r))) := rge R (R.idem _) (by linarith)
  have g4 : rnd64 (tx / gx) ≤ rnd64 (rnd64 (rnd64 (rnd64 (tx / gx) + rnd64 (ty / gy)) + rnd64 (tz / rnd64 (1 - r))) + xstr) := rge R (R.idem _) (by linarith)
  constructor
  · simp only [evalDDSCF, divF_some _ _ _ htz.ne', hr, divF_some _ _ _ w0.ne', divF_some _ _ _ (htx.trans_le d4).ne', Option.bind_eq_bind, Option.bind_some]
    exact ⟨_, rfl, n (div_nonneg (n (add_nonneg (n (add_nonneg bxy az)) hq)) (htx.le.trans d4))⟩
  · simp only [evalCDDSCF, divF_some _ _ _ htz.ne', hr, divF_some _ _ _ w0.ne', divF_some _ _ _ hgx.ne', divF_some _ _ _ hgy.ne', divF_some _ _ _ (ux.trans_le g4).ne',
      Option.bind_eq_bind, Option.bind_some]
    exact ⟨_, rfl, n (div_nonneg (n (add_nonneg (n (add_nonneg hq bxy)) az)) (ux.le.trans g4))⟩

/-- An optical thickness of about `1e-9`, the double nearest to its exponential, and another of about `1e-18`. -/
def thinTau : ℚ := 1 / 2 ^ 30 + 1 / 2 ^ 53

def thinExp : ℚ := 1 + 1 / 2 ^ 30 + 1 / 2 ^ 52

def voidTau : ℚ := 1 / 2 ^ 60

theorem exp_small {t : ℝ} (h0 : 0 ≤ t) (h1 : t ≤ 1) : 1 + t ≤ Real.exp t ∧ Real.exp t ≤ 1 + t + t ^ 2 := by
  constructor
  · linarith [Real.add_one_le_exp t]
  · have := exp_up h0 h1
    nlinarith [sq_nonneg t]

/-- It is the nearest: no double is closer than half a unit in the last place. -/
theorem thinExp_near : |((thinExp : ℚ) : ℝ) - Real.exp (thinTau : ℚ)| ≤ 1 / 2 ^ 53 := by
  have h := exp_small (t := ((thinTau : ℚ) : ℝ)) (by unfold thinTau; push_cast; positivity) (by unfold thinTau; push_cast; norm_num)
  unfold thinExp thinTau at *
  push_cast at *
  rw [abs_le]
  norm_num at h ⊢
  constructor <;> linarith [h.1, h.2]

theorem voidExp_near : |(1 : ℝ) - Real.exp (voidTau : ℚ)| ≤ 1 / 2 ^ 53 := by
  have h := exp_small (t := ((voidTau : ℚ) : ℝ)) (by unfold voidTau; push_cast; positivity) (by unfold voidTau; push_cast; norm_num)
  unfold voidTau at *
  push_cast at *
  rw [abs_le]
  norm_num at h ⊢
  constructor <;> linarith [h.1, h.2]

open Classical in
/-- An exponential of the library that returns the nearest double there. -/
theorem libExpUp_exists : ∃ e : ℚ → ℚ, LibExpUp e ∧ e thinTau = thinExp ∧ e voidTau = 1 := by
  have hex : ∀ v : ℚ, ∃ r : ℚ, Real.exp v * (1 - 1 / 2 ^ 60) < r ∧ (r : ℝ) < Real.exp v := fun v =>
    exists_rat_btwn (by have := Real.exp_pos (v : ℝ); norm_num; linarith)
  choose r hr1 hr2 using hex
  have ne : voidTau ≠ thinTau := by unfold voidTau thinTau; norm_num
  refine ⟨fun v => if v = thinTau then thinExp else if v = voidTau then 1 else rnd64 (r v), ⟨?_, ?_⟩, by simp, by simp [ne]⟩
  · intro v
    split
    · decide +kernel
    · split
      · decide +kernel
      · exact rnd64_idem _
  · intro v h0
    have e1 : 1 ≤ Real.exp v := Real.one_le_exp (by exact_mod_cast h0)
    have half : (1 : ℝ) / 2 ^ 53 ≤ Real.exp v / 2 ^ 52 := by norm_num; linarith
    split
    · next h => rw [h] at half ⊢; exact thinExp_near.trans half
    · split
      · next h => rw [h] at half ⊢; rw [Rat.cast_one]; exact voidExp_near.trans half
      · have rl : (1 / 2 ^ 20 : ℚ) ≤ r v := by
          have : ((1 / 2 ^ 20 : ℚ) : ℝ) ≤ r v := by
            have := hr1 v
            push_cast
            norm_num at this ⊢
            linarith
          exact_mod_cast this
        have er := rel_real (rel_normal (normal_ge rl))
        have a1 := hr1 v
        have a2 := hr2 v
        have rp : (0 : ℝ) ≤ r v := by exact_mod_cast le_trans (by norm_num) rl
        rw [abs_of_nonneg rp, abs_le] at er
        rw [abs_le]
        norm_num at er a1 ⊢
        constructor <;> linarith [er.1, er.2]

/-- A cell of unit widths met by particles from below only. -/
theorem thin_ok (t : ℚ) (h0 : 0 ≤ t) (hd : Dbl t) : CellOk 1 1 1 0 0 1 0 t := by
  have d0 : Dbl 0 := rnd64_zero
  have d1 : Dbl 1 := by unfold Dbl; decide +kernel
  refine ⟨by norm_num, by norm_num, by norm_num, le_rfl, le_rfl, by norm_num, le_rfl, h0, d1, d1, d1, d0, d0, d1, d0, hd, Or.inl (by norm_num), Or.inl (by norm_num), normal_ge (by norm_num)⟩

/-- At an optical thickness of about `1e-9` the weight is almost 128 although it lies between zero and one, and the average flux of the cell is negative. -/
theorem C141_thin (e : ℚ → ℚ) (h : e thinTau = thinExp) : rhoF rnd64 e thinTau = some (8388605 / 65536) ∧ (∃ o, evalDDSCF rnd64 e 1 1 1 0 0 1 0 thinTau = some o ∧ o.psi < 0) := by
  have hr : rhoF rnd64 e thinTau = some (8388605 / 65536) := by
    unfold rhoF
    rw [h]
    decide +kernel
  refine ⟨hr, ?_⟩
  have ht : divF rnd64 thinTau 1 = some thinTau := by decide +kernel
  unfold evalDDSCF
  rw [ht]
  simp only [Option.bind_eq_bind, Option.bind_some, hr]
  refine ⟨((divF rnd64 (8388605 / 65536) (rnd64 (1 - 8388605 / 65536))).bind fun rhofac => (divF rnd64 1 (rnd64 (1 - 8388605 / 65536))).bind fun dz =>
    (divF rnd64 (rnd64 (rnd64 (rnd64 (2 * rnd64 (rnd64 (1 * 0) + rnd64 (1 * 0))) + rnd64 (rnd64 (1 * rnd64 (rhofac + 1)) * 1)) + 0)) (rnd64 (rnd64 (rnd64 (2 * rnd64 (1 + 1)) + dz) + thinTau))).bind fun psi =>
    (divF rnd64 (rnd64 (psi - rnd64 (8388605 / 65536 * 1))) (rnd64 (1 - 8388605 / 65536))).bind fun z =>
    some ({ psi := psi, x := rnd64 (rnd64 (2 * psi) - 0), y := rnd64 (rnd64 (2 * psi) - 0), z := z } : Out3 ℚ)).get (by decide +kernel), ?_, ?_⟩
  · rw [Option.some_get]
  · decide +kernel

/-- Below about `1e-16` the exponential is one and the code divides by zero. -/
theorem C141_void (e : ℚ → ℚ) (tau : ℚ) (h : e tau = 1) : rhoF rnd64 e tau = none := by
  have : divF rnd64 1 (rnd64 (e tau - 1)) = none := by
    rw [h, sub_self, rnd64_zero, divF, if_pos rfl]
  unfold rhoF
  rw [this]
  cases divF rnd64 1 tau <;> rfl

/-- A cell without cross section: a division by zero whatever the exponential. -/
theorem C141_sc_vacuum (e : ℚ → ℚ) (gx gy tx ty tz fx fy fz q : ℚ) :
    evalDDSCF rnd64 e tx ty tz fx fy fz q 0 = none ∧ evalCDDSCF rnd64 e gx gy tx ty tz fx fy fz q 0 = none := by
  have h0 : rhoF rnd64 e 0 = none := by
    unfold rhoF divF
    rw [if_pos rfl]
    rfl
  by_cases htz : tz = 0
  · subst htz
    have : divF rnd64 0 0 = none := if_pos rfl
    unfold evalDDSCF evalCDDSCF
    rw [this]
    exact ⟨rfl, rfl⟩
  · have : divF rnd64 0 tz = some 0 := by rw [divF_some _ _ _ htz, zero_div, rnd64_zero]
    unfold evalDDSCF evalCDDSCF
    rw [this]
    simp only [Option.bind_eq_bind, Option.bind_some, h0, Option.bind_none, and_self]

theorem C141_sc_claim_false : ¬ C141_sc_claim := by
  intro h
  obtain ⟨e, he, h1, -⟩ := libExpUp_exists
  obtain ⟨o, ho, hn⟩ := (C141_thin e h1).2
  obtain ⟨⟨o', ho', hp⟩, -⟩ := h e he 1 1 1 1 1 0 0 1 0 thinTau (by norm_num) (by norm_num) (thin_ok _ (by unfold thinTau; norm_num) (by unfold Dbl; decide +kernel))
    (by unfold thinTau; norm_num) (by decide +kernel)
  rw [ho] at ho'
  rw [← Option.some.inj ho'] at hp
  exact absurd hp (not_le.mpr hn)

/-- With the true exponential and no rounding the same cell is in order. -/
theorem C141_thin_exact : 0 < rho Real.exp ((thinTau : ℚ) : ℝ) ∧ rho Real.exp ((thinTau : ℚ) : ℝ) < 1 :=
  rho_bounds _ (by unfold thinTau; push_cast; positivity)

/-! ### Examples -/

example : ∃ e, LibExpUp e ∧ rhoF rnd64 e voidTau = none := by
  obtain ⟨e, he, -, h⟩ := libExpUp_exists
  exact ⟨e, he, C141_void e _ h⟩

example : ∃ e r, LibExpUp e ∧ rhoF rnd64 e (1 / 2) = some r ∧ 0 ≤ r ∧ r ≤ 7 / 8 := by
  obtain ⟨e, he, -⟩ := libExpUp_exists
  obtain ⟨r, h⟩ := C141_rho_range e he (1 / 2) (by norm_num) (by unfold Dbl; decide +kernel)
  exact ⟨e, r, he, h⟩

example : ∃ e o, LibExpUp e ∧ evalDDSCF rnd64 e 1 1 1 0 0 1 0 (1 / 2) = some o ∧ 0 ≤ o.psi := by
  obtain ⟨e, he, -⟩ := libExpUp_exists
  obtain ⟨⟨o, h⟩, -⟩ := C141_sc_partial e he 1 1 1 1 1 0 0 1 0 (1 / 2) (by norm_num) (by norm_num) (thin_ok _ (by norm_num) (by unfold Dbl; decide +kernel)) (by decide +kernel)
    (by decide +kernel)
  exact ⟨e, o, he, h⟩

/-- A thick cell: the axial flux of the plain scheme is negative, that of the scheme with the fix-up zero. -/
example : ((evalDDF rnd64 1 1 1 0 0 1 0 9).map (fun o => decide (o.z < 0)) = some true) ∧ (evalCDDFFF rnd64 (1 / 2) (1 / 2) 1 1 1 0 0 1 0 9).map (fun o => o.z) = some 0 := by
  constructor <;> decide +kernel

example : ∃ o, evalCDDFFF rnd64 (1 / 2) (1 / 2) 1 1 1 0 0 1 0 9 = some o ∧ 0 ≤ o.psi ∧ 0 ≤ o.z :=
  (C141_average rounding64 (1 / 2) (1 / 2) 1 1 1 0 0 1 0 9 (by norm_num) (by norm_num) (by norm_num) (by norm_num) (by norm_num) (by decide +kernel) (by decide +kernel) (by norm_num)
    (by norm_num) (by norm_num) (by norm_num) (by norm_num)).2.2.2.2.1

example : ∃ o, evalDDF rnd64 1 1 1 0 0 1 0 9 = some o ∧
    |1 * (o.x - 0) + 1 * (o.y - 0) + 1 * (o.z - 1) + 9 * o.psi - 0| ≤ 16 / 2 ^ 53 * (2 * ((1 : ℚ) * 0 + 1 * 0 + 1 * 1) + 0) := by
  obtain ⟨⟨o, ho, -⟩, -⟩ := C141_average rounding64 1 1 1 1 1 0 0 1 0 9 (by norm_num) (by norm_num) (by norm_num) (by norm_num) (by norm_num) (by decide +kernel) (by decide +kernel) (by norm_num)
    (by norm_num) (by norm_num) (by norm_num) (by norm_num)
  refine ⟨o, ho, C141_balance _ _ _ _ _ _ _ _ (thin_ok 9 (by norm_num) (by unfold Dbl; decide +kernel)) (Or.inr ?_) o ho⟩
  refine le_trans ?_ (show (1 / 2 ^ 20 : ℚ) ≤ _ by unfold evalDD; norm_num)
  rw [one_div, ← zpow_natCast, ← zpow_neg]
  exact zpow_le_zpow_right₀ (by norm_num) (by norm_num)

end Verif.Sn
