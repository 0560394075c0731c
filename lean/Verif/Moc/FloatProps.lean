import Verif.Moc.FloatModel
import Verif.Fp.RoundLemmas
import Verif.Moc.KernelProps
import Mathlib.Algebra.Order.Floor.Ring
import Mathlib.Analysis.Complex.Exponential
import Mathlib.Analysis.Complex.ExponentialBounds

/-!
# C129: the MoC sweep in floating-point arithmetic
-/

namespace Verif.Moc

open Verif.Fp Verif.Core

/-! ### Angular flux -/

section

variable {K : Type} [Field K] [LinearOrder K] [IsStrictOrderedRing K]

/-- A number of the machine that is not negative. -/
def Good (rnd : K → K) (x : K) : Prop := 0 ≤ x ∧ rnd x = x

theorem _root_.Verif.Fp.Rounding.nonneg {rnd : K → K} (R : Rounding rnd) {x : K} (h : 0 ≤ x) : 0 ≤ rnd x := R.zero.symm.le.trans (R.mono 0 x h)

theorem _root_.Verif.Fp.Rounding.nonpos {rnd : K → K} (R : Rounding rnd) {x : K} (h : x ≤ 0) : rnd x ≤ 0 := (R.mono x 0 h).trans R.zero.le

/-- One segment. -/
theorem seg_good (rnd : K → K) (R : Rounding rnd) (psi q e : K) (hp : Good rnd psi) (hq : 0 ≤ q) (h0 : 0 ≤ e) (h1 : e ≤ 1) :
    Good rnd (rnd (psi - rnd (rnd (psi - q) * e))) := by
  refine ⟨R.nonneg ?_, R.idem _⟩
  rcases le_total q psi with h | h
  · have a0 : 0 ≤ rnd (psi - q) := R.nonneg (by linarith)
    have a1 : rnd (psi - q) ≤ psi := (R.mono _ psi (by linarith)).trans hp.2.le
    have a2 : rnd (psi - q) * e ≤ psi := by nlinarith
    have a3 : rnd (rnd (psi - q) * e) ≤ psi := (R.mono _ psi a2).trans hp.2.le
    linarith
  · have a0 : rnd (psi - q) ≤ 0 := R.nonpos (by linarith)
    have a1 : rnd (rnd (psi - q) * e) ≤ 0 := R.nonpos (mul_nonpos_of_nonpos_of_nonneg a0 h0)
    have := hp.1
    linarith

theorem walkF_good (rnd : K → K) (R : Rounding rnd) (e : Seg K → K) (q : Nat → K) (wt : K) (first : Nat) (l : List (Seg K)) (hq : ∀ i, 0 ≤ q i)
    (he : ∀ s ∈ l, 0 ≤ e s ∧ e s ≤ 1) (psi : K) (hp : Good rnd psi) (t : Nat → K) : Good rnd (walkF rnd e q wt first l psi t).1 := by
  induction l generalizing psi t with
  | nil => exact hp
  | cons s l ih =>
    rw [walkF]
    obtain ⟨h0, h1⟩ := he s (by simp)
    exact ih (fun s hs => he s (by simp [hs])) _ (seg_good rnd R psi _ _ hp (hq _) h0 h1) _

theorem rays_good (rnd : K → K) (R : Rounding rnd) (e : Seg K → K) (q : Nat → K) (wt : K) (first : Nat) (hq : ∀ i, 0 ≤ q i) (in1 in2 : Nat → K) (h1 : ∀ j, Good rnd (in1 j))
    (h2 : ∀ j, Good rnd (in2 j)) (l : List (Ray K)) (he : ∀ r ∈ l, ∀ s ∈ r.segs, 0 ≤ e s ∧ e s ≤ 1) (a : Acc K) (ha1 : ∀ j, Good rnd (a.out1 j))
    (ha2 : ∀ j, Good rnd (a.out2 j)) :
    (∀ j, Good rnd ((l.foldl (sweepRayF rnd e q wt first in1 in2) a).out1 j)) ∧ ∀ j, Good rnd ((l.foldl (sweepRayF rnd e q wt first in1 in2) a).out2 j) := by
  induction l generalizing a with
  | nil => exact ⟨ha1, ha2⟩
  | cons r l ih =>
    rw [List.foldl_cons]
    have hr := he r (by simp)
    refine ih (fun r hr => he r (by simp [hr])) _ (fun j => ?_) (fun j => ?_)
    · simp only [sweepRayF, upd]
      split
      · exact walkF_good rnd R e q wt first r.segs hq hr _ (h1 _) _
      · exact ha1 j
    · simp only [sweepRayF, upd]
      split
      · exact walkF_good rnd R e q wt first r.segs.reverse hq (by simpa using hr) _ (h2 _) _
      · exact ha2 j

/-- Boundary values of a plane. -/
def GoodBc (rnd : K → K) (b : Nat → Nat → K) : Prop := ∀ a j, Good rnd (b a j)

/-- The boundary update keeps such values (C17: it copies outgoing values or sets zero). -/
def KeepsGood (rnd : K → K) (u : BcUpdate K) : Prop :=
  (∀ a b o, GoodBc rnd b → GoodBc rnd o → GoodBc rnd (u.one a b o)) ∧ (∀ b o, GoodBc rnd b → GoodBc rnd o → GoodBc rnd (u.all b o))

/-- Argument of the exponential for a segment. -/
def argF (rnd : K → K) (xstr : Nat → K) (rst : K) (first : Nat) (s : Seg K) : K := rnd (rnd (-xstr (s.reg + first) * s.len) * rst)

theorem eTauF_range (rnd expo : K → K) (R : Rounding rnd) (xstr : Nat → K) (rst : K) (first : Nat) (s : Seg K)
    (h : 0 ≤ expo (argF rnd xstr rst first s) ∧ expo (argF rnd xstr rst first s) ≤ 1) : 0 ≤ eTauF rnd expo xstr rst first s ∧ eTauF rnd expo xstr rst first s ≤ 1 := by
  unfold eTauF
  exact ⟨R.nonneg (sub_nonneg.mpr h.2), (R.mono _ 1 (sub_le_self 1 h.1)).trans R.one.le⟩

theorem angle_good (rnd expo : K → K) (R : Rounding rnd) (xstr q : Nat → K) (hq : ∀ i, 0 ≤ q i) (gs : Bool) (u : BcUpdate K) (hu : KeepsGood rnd u) (first : Nat)
    (w : AngleWork K) (hw : ∀ r ∈ w.rays, ∀ s ∈ r.segs, 0 ≤ expo (argF rnd xstr w.rst first s) ∧ expo (argF rnd xstr w.rst first s) ≤ 1) (s : St K)
    (h1 : GoodBc rnd s.bin) (h2 : GoodBc rnd s.bout) :
    GoodBc rnd (sweepAngleF rnd expo xstr q gs u first s w).bin ∧ GoodBc rnd (sweepAngleF rnd expo xstr q gs u first s w).bout := by
  obtain ⟨r1, r2⟩ := rays_good rnd R (eTauF rnd expo xstr w.rst first) q w.wt first hq (s.bin w.iang1) (s.bin w.iang2) (h1 _) (h1 _) w.rays
    (fun r hr s hs => eTauF_range rnd expo R xstr w.rst first s (hw r hr s hs)) ⟨s.tflux, s.bout w.iang1, s.bout w.iang2⟩ (h2 _) (h2 _)
  have hbo : GoodBc rnd (sweepAngleF rnd expo xstr q gs u first s w).bout := by
    intro a j
    simp only [sweepAngleF, upd]
    split
    · exact r2 j
    · split
      · exact r1 j
      · exact h2 a j
  refine ⟨?_, hbo⟩
  cases gs
  · simpa [sweepAngleF] using h1
  · have : (sweepAngleF rnd expo xstr q true u first s w).bin = u.one w.iang2 (u.one w.iang1 s.bin
        (sweepAngleF rnd expo xstr q true u first s w).bout) (sweepAngleF rnd expo xstr q true u first s w).bout := rfl
    rw [this]
    exact hu.1 _ _ _ (hu.1 _ _ _ h1 hbo) hbo

theorem angles_good (rnd expo : K → K) (R : Rounding rnd) (xstr q : Nat → K) (hq : ∀ i, 0 ≤ q i) (gs : Bool) (u : BcUpdate K) (hu : KeepsGood rnd u) (first : Nat)
    (ws : List (AngleWork K)) (hw : ∀ w ∈ ws, ∀ r ∈ w.rays, ∀ s ∈ r.segs, 0 ≤ expo (argF rnd xstr w.rst first s) ∧ expo (argF rnd xstr w.rst first s) ≤ 1) (s : St K)
    (h1 : GoodBc rnd s.bin) (h2 : GoodBc rnd s.bout) :
    GoodBc rnd (ws.foldl (sweepAngleF rnd expo xstr q gs u first) s).bin ∧ GoodBc rnd (ws.foldl (sweepAngleF rnd expo xstr q gs u first) s).bout := by
  induction ws generalizing s with
  | nil => exact ⟨h1, h2⟩
  | cons w ws ih =>
    rw [List.foldl_cons]
    obtain ⟨a, b⟩ := angle_good rnd expo R xstr q hq gs u hu first w (hw w (by simp)) s h1 h2
    exact ih (fun w hw' => hw w (by simp [hw'])) _ a b

/-- C129: whatever the rounding, if sources are not negative and the exponential is between zero and one where it is needed, no boundary value is negative after a sweep. -/
theorem C129_boundary (rnd expo : K → K) (R : Rounding rnd) (fpi : K) (xstr vol q : Nat → K) (hq : ∀ i, 0 ≤ q i) (gs : Bool) (u : BcUpdate K) (hu : KeepsGood rnd u)
    (ps : List (PlaneWork K × (Nat → Nat → K) × (Nat → Nat → K)))
    (he : ∀ p ∈ ps, ∀ w ∈ p.1.angles, ∀ r ∈ w.rays, ∀ s ∈ r.segs, 0 ≤ expo (argF rnd xstr w.rst p.1.first s) ∧ expo (argF rnd xstr w.rst p.1.first s) ≤ 1)
    (hb : ∀ p ∈ ps, GoodBc rnd p.2.1 ∧ GoodBc rnd p.2.2) :
    ∀ b ∈ (sweep1gF rnd expo fpi xstr vol q gs u ps).2, GoodBc rnd b.1 ∧ GoodBc rnd b.2 := by
  have h : ∀ (ps : List (PlaneWork K × (Nat → Nat → K) × (Nat → Nat → K))) (t : Nat → K),
      (∀ p ∈ ps, ∀ w ∈ p.1.angles, ∀ r ∈ w.rays, ∀ s ∈ r.segs, 0 ≤ expo (argF rnd xstr w.rst p.1.first s) ∧ expo (argF rnd xstr w.rst p.1.first s) ≤ 1) →
      (∀ p ∈ ps, GoodBc rnd p.2.1 ∧ GoodBc rnd p.2.2) → ∀ b ∈ (sweepPlanesF rnd expo xstr q gs u ps t).2, GoodBc rnd b.1 ∧ GoodBc rnd b.2 := by
    intro ps
    induction ps with
    | nil => intro t _ _ b hb; simp [sweepPlanesF] at hb
    | cons p ps ih =>
      obtain ⟨p, bin, bout⟩ := p
      intro t he hb b hmem
      rw [sweepPlanesF] at hmem
      obtain ⟨g1, g2⟩ := hb (p, bin, bout) (by simp)
      obtain ⟨a1, a2⟩ := angles_good rnd expo R xstr q hq gs u hu p.first p.angles (he (p, bin, bout) (by simp)) ⟨t, bin, bout⟩ g1 g2
      rcases List.mem_cons.mp hmem with rfl | hmem
      · refine ⟨?_, a2⟩
        show GoodBc rnd (if gs then _ else _)
        split
        · exact a1
        · exact hu.2 _ _ a1 a2
      · exact ih _ (fun p hp => he p (by simp [hp])) (fun p hp => hb p (by simp [hp])) b hmem
  exact h ps _ he hb

/-- Without rounding it is the sweep of C31. -/
theorem C129_exact (expo : K → K) (fpi : K) (xstr vol q : Nat → K) (gs : Bool) (u : BcUpdate K) (ps : List (PlaneWork K × (Nat → Nat → K) × (Nat → Nat → K))) :
    sweep1gF id expo fpi xstr vol q gs u ps = sweep1g expo fpi xstr vol q gs u ps := by
  have hw : ∀ (e : Seg K → K) (wt : K) (first : Nat) (l : List (Seg K)) (psi : K) (t : Nat → K), walkF id e q wt first l psi t = walk e q wt first l psi t := by
    intro e wt first l
    induction l with
    | nil => intro psi t; rfl
    | cons s l ih => intro psi t; exact ih _ _
  have hr : ∀ (e : Seg K → K) (wt : K) (first : Nat) (in1 in2 : Nat → K), sweepRayF id e q wt first in1 in2 = sweepRay e q wt first in1 in2 := by
    intro e wt first in1 in2
    funext a r
    simp only [sweepRayF, sweepRay, hw]
  have ha : ∀ first, sweepAngleF id expo xstr q gs u first = sweepAngle expo xstr q gs u first := by
    intro first
    funext s w
    simp only [sweepAngleF, sweepAngle, hr]
    rfl
  have hp : ∀ (ps : List (PlaneWork K × (Nat → Nat → K) × (Nat → Nat → K))) (t : Nat → K), sweepPlanesF id expo xstr q gs u ps t = sweepPlanes expo xstr q gs u ps t := by
    intro ps
    induction ps with
    | nil => intro t; rfl
    | cons p ps ih =>
      intro t
      rw [sweepPlanesF, sweepPlanes]
      simp only [sweepPlaneF, sweepPlane, ha, ih]
  rw [sweep1gF, sweep1g, hp]
  congr 1
  funext i
  simp [finishF, finish]

end

/-! ### The table -/

/-- Distance between the nodes of the table of `MoCSweeper` (moc_sweeper.hpp, `Exponential_Linear<10000>` with the default range). -/
def mocSpace : ℚ := rnd64 (10 / 10000)

/-- Table of `MoCSweeper` with values `d`. -/
def mocTable (d : List ℚ) : ExpTable ℚ := ⟨-10, 0, mocSpace, 1000, d⟩

theorem mocTable_eq (e : ℚ → ℚ) : expTableF rnd64 e 10000 (-10) 0 =
    mocTable ((List.range 10001).map fun i : Nat => e (rnd64 (-10 + rnd64 ((i : ℚ) * mocSpace)))) := by
  have h1 : rnd64 (rnd64 (0 - -10) / ((10000 : ℕ) : ℚ)) = mocSpace := by decide +kernel
  have h2 : rnd64 (1 / mocSpace) = 1000 := by decide +kernel
  unfold expTableF mocTable
  dsimp only
  rw [h1, h2]

theorem abs_err (k : ℤ) (hk : -1022 ≤ k) (x : ℚ) (h : |x| ≤ 2 ^ k) : |rnd64 x - x| ≤ 2 ^ (k - 53) := by
  rcases eq_or_ne x 0 with h0 | h0
  · subst h0; rw [rnd64_zero, sub_zero, abs_zero]; exact (two_zpow_pos _).le
  have hp := two_zpow_pos (lastPlace x)
  have hl : lastPlace x ≤ k - 52 := by
    have h1 : Int.log 2 |x| ≤ k := by
      have h2 := (Int.zpow_log_le_self (b := 2) (by norm_num) (abs_pos.mpr h0)).trans h
      have h3 : (2 : ℚ) ^ (Int.log 2 |x|) ≤ 2 ^ k := by exact_mod_cast h2
      exact (zpow_le_zpow_iff_right₀ (by norm_num : (1 : ℚ) < 2)).mp h3
    unfold lastPlace
    omega
  have e : rnd64 x - x = -((x / 2 ^ lastPlace x - rne (x / 2 ^ lastPlace x)) * 2 ^ lastPlace x) := by
    rw [rnd64, sub_mul, div_mul_cancel₀ _ hp.ne']; ring
  rw [e, abs_neg, abs_mul, abs_of_pos hp]
  calc _ ≤ 1 / 2 * (2 : ℚ) ^ lastPlace x := mul_le_mul_of_nonneg_right (rne_spec _).1 hp.le
    _ ≤ 1 / 2 * 2 ^ (k - 52) := mul_le_mul_of_nonneg_left (zpow_le_zpow_right₀ (by norm_num) hl) (by norm_num)
    _ = 2 ^ (k - 53) := by
        rw [show (1 / 2 : ℚ) = 2 ^ (-1 : ℤ) by norm_num, ← zpow_add₀ (by norm_num : (2 : ℚ) ≠ 0)]
        congr 1; ring

/-- Just below the upper end: rounded to the double before 10. -/
theorem below_ten (v : ℚ) (h0 : -10 ≤ v) (h1 : v < -1 / 2 ^ 50) : rnd64 (v + 10) ≤ 10 - 1 / 2 ^ 49 := by
  rcases le_or_gt (v + 10) 8 with h | h
  · exact (rnd64_mono _ _ h).trans (by decide +kernel)
  · have hpos : 0 < v + 10 := by linarith
    have hlog : Int.log 2 (v + 10) = 3 := by
      apply le_antisymm
      · have : Int.log 2 (v + 10) < 4 := by
          rw [← Int.lt_zpow_iff_log_lt (by norm_num) hpos]
          norm_num
          norm_num at h1
          linarith
        omega
      · rw [← Int.zpow_le_iff_le_log (by norm_num) hpos]
        norm_num
        exact h.le
    have hl : lastPlace (v + 10) = -49 := by
      unfold lastPlace
      rw [abs_of_pos hpos, hlog]
      decide
    have hr : rne ((v + 10) / 2 ^ (-49 : ℤ)) ≤ 10 * 2 ^ 49 - 1 := by
      have h2 := (abs_le.mp (rne_spec ((v + 10) / 2 ^ (-49 : ℤ))).1).1
      have h3 : (v + 10) / 2 ^ (-49 : ℤ) < 10 * 2 ^ 49 - 1 / 2 := by
        rw [div_lt_iff₀ (two_zpow_pos _)]
        norm_num at h1 ⊢
        linarith
      have h4 : (rne ((v + 10) / 2 ^ (-49 : ℤ)) : ℚ) < ((10 * 2 ^ 49 : ℤ) : ℚ) := by
        push_cast
        linarith
      have := Int.cast_lt.mp h4
      omega
    have hr' : (rne ((v + 10) / 2 ^ (-49 : ℤ)) : ℚ) ≤ ((10 * 2 ^ 49 - 1 : ℤ) : ℚ) := by exact_mod_cast hr
    rw [rnd64, hl]
    refine (mul_le_mul_of_nonneg_right hr' (two_zpow_pos _).le).trans ?_
    norm_num

theorem scale_top : rnd64 (10 * 1000) = 10000 := by decide +kernel

theorem scale_below : rnd64 ((10 - 1 / 2 ^ 49) * 1000) < 10000 := by decide +kernel

/-- Interpolation between `a` and `b`. -/
def lerp (a b w : ℚ) : ℚ := rnd64 (a + rnd64 (rnd64 (rnd64 (b - a) * w) * 1000))

theorem moc_interp (e : ℚ → ℚ) (d : List ℚ) (v : ℚ) (h0 : -10 ≤ v) (h1 : v ≤ 0) :
    expLinearF rnd64 e (mocTable d) v = match d[(⌊rnd64 (rnd64 (v - -10) * 1000)⌋).toNat]?, d[(⌊rnd64 (rnd64 (v - -10) * 1000)⌋).toNat + 1]? with
      | some a, some b => some (lerp a b (rnd64 (v - rnd64 (rnd64 (mocSpace * (⌊rnd64 (rnd64 (v - -10) * 1000)⌋ : ℤ)) + -10))))
      | _, _ => none := by
  have hin : ¬ (v < (mocTable d).min ∨ v > (mocTable d).max) := by
    rintro (h | h)
    · exact absurd h0 (not_le.mpr h)
    · exact absurd h1 (not_le.mpr h)
  have hb0 : 0 ≤ rnd64 (rnd64 (v - -10) * 1000) := by
    have ha0 : 0 ≤ rnd64 (v - -10) := rnd64_nonneg (by linarith)
    exact rnd64_nonneg (by linarith)
  have hi : truncInt (rnd64 (rnd64 (v - (mocTable d).min) * (mocTable d).rspace)) = ⌊rnd64 (rnd64 (v - -10) * 1000)⌋ := by
    show truncInt (rnd64 (rnd64 (v - -10) * 1000)) = _
    rw [truncInt, if_pos hb0]
  have hi0 : 0 ≤ ⌊rnd64 (rnd64 (v - -10) * 1000)⌋ := Int.floor_nonneg.mpr hb0
  rw [expLinearF, if_neg hin, expInterpF]
  simp only [hi]
  rw [if_neg (not_lt.mpr hi0), show (mocTable d).d = d from rfl]
  rcases d[(⌊rnd64 (rnd64 (v - -10) * 1000)⌋).toNat]? with _ | a
  · rfl
  · rcases d[(⌊rnd64 (rnd64 (v - -10) * 1000)⌋).toNat + 1]? with _ | b <;> rfl

/-- C129: which arguments within the range of the table read outside the array. -/
theorem C129_index (e : ℚ → ℚ) (d : List ℚ) (hd : d.length = 10001) (v : ℚ) (h0 : -10 ≤ v) (h1 : v ≤ 0) :
    expLinearF rnd64 e (mocTable d) v = none ↔ -1 / 2 ^ 50 ≤ v := by
  have ha0 : 0 ≤ rnd64 (v - -10) := rnd64_nonneg (by linarith)
  have hb0 : 0 ≤ rnd64 (rnd64 (v - -10) * 1000) := rnd64_nonneg (by linarith)
  have hbt : rnd64 (rnd64 (v - -10) * 1000) ≤ 10000 := by
    have h2 : rnd64 (v - -10) ≤ 10 := (rnd64_mono _ 10 (by linarith)).trans (by decide +kernel)
    exact (rnd64_mono _ (10 * 1000) (by linarith)).trans scale_top.le
  have hi0 : 0 ≤ ⌊rnd64 (rnd64 (v - -10) * 1000)⌋ := Int.floor_nonneg.mpr hb0
  rw [moc_interp e d v h0 h1]
  constructor
  · intro h
    by_contra hv
    push Not at hv
    have hlt : ⌊rnd64 (rnd64 (v - -10) * 1000)⌋ < 10000 := by
      rw [Int.floor_lt]
      have h2 := below_ten v h0 hv
      rw [← sub_neg_eq_add] at h2
      exact_mod_cast ((rnd64_mono _ _ (mul_le_mul_of_nonneg_right h2 (by norm_num))).trans_lt scale_below)
    have l1 : (⌊rnd64 (rnd64 (v - -10) * 1000)⌋).toNat < d.length := by
      omega
    have l2 : (⌊rnd64 (rnd64 (v - -10) * 1000)⌋).toNat + 1 < d.length := by
      omega
    rw [List.getElem?_eq_getElem l1, List.getElem?_eq_getElem l2] at h
    cases h
  · intro hv
    have h2 : 10 ≤ rnd64 (v - -10) := by
      have h3 : rnd64 (10 - 1 / 2 ^ 50) = 10 := by decide +kernel
      rw [← h3]
      refine rnd64_mono _ _ ?_
      norm_num at hv ⊢
      linarith
    have h4 : (10000 : ℚ) ≤ rnd64 (rnd64 (v - -10) * 1000) := scale_top.symm.le.trans (rnd64_mono _ _ (by linarith))
    have h5 : ⌊rnd64 (rnd64 (v - -10) * 1000)⌋ = 10000 := by
      rw [Int.floor_eq_iff]
      constructor
      · exact_mod_cast h4
      · push_cast; linarith
    have l2 : d[(⌊rnd64 (rnd64 (v - -10) * 1000)⌋).toNat + 1]? = none := by
      rw [h5]
      apply List.getElem?_eq_none
      rw [hd]
      decide
    rw [l2]
    rcases d[(⌊rnd64 (rnd64 (v - -10) * 1000)⌋).toNat]? with _ | a <;> rfl

/-- No negative argument within the range reads outside the array (true without rounding: C50). -/
def C129_bounds_claim : Prop :=
  ∀ (e : ℚ → ℚ) (v : ℚ), -10 ≤ v → v < 0 → expLinearF rnd64 e (expTableF rnd64 e 10000 (-10) 0) v ≠ none

/-- False: an optical thickness of `1e-16`, whatever `exp`. -/
theorem C129_bounds_claim_false : ¬ C129_bounds_claim := by
  intro h
  refine h (fun v => v) (rnd64 (-1 / 10 ^ 16)) (by decide +kernel) (by decide +kernel) ?_
  rw [mocTable_eq]
  exact (C129_index _ _ (by simp) _ (by decide +kernel) (by decide +kernel)).mpr (by decide +kernel)

/-- What is needed from `std::exp` at the nodes. -/
structure TableOk (d : Nat → ℚ) : Prop where
  mono : ∀ i < 10000, d i ≤ d (i + 1)
  low : 1 / 2 ^ 15 ≤ d 0
  top : d 10000 = 1
  last : d 9999 ≤ 1 - 1 / 2 ^ 10

theorem TableOk.le {d : Nat → ℚ} (h : TableOk d) (i j : Nat) (hij : i ≤ j) (hj : j ≤ 10000) : d i ≤ d j := by
  induction j, hij using Nat.le_induction with
  | base => exact le_refl _
  | succ j _ ih => exact (ih (by omega)).trans (h.mono j (by omega))

theorem err53 (x : ℚ) (h : |x| ≤ 1) : |rnd64 x - x| ≤ 1 / 2 ^ 53 := by
  have := abs_err 0 (by norm_num) x (by simpa using h)
  norm_num at this ⊢
  exact this

theorem err52 (x : ℚ) (h : |x| ≤ 2) : |rnd64 x - x| ≤ 1 / 2 ^ 52 := by
  have := abs_err 1 (by norm_num) x (by simpa using h)
  norm_num at this ⊢
  exact this

theorem err49 (x : ℚ) (h : |x| ≤ 16) : |rnd64 x - x| ≤ 1 / 2 ^ 49 := by
  have := abs_err 4 (by norm_num) x (by norm_num; exact h)
  norm_num at this ⊢
  exact this

theorem err39 (x : ℚ) (h : |x| ≤ 16384) : |rnd64 x - x| ≤ 1 / 2 ^ 39 := by
  have := abs_err 14 (by norm_num) x (by norm_num; exact h)
  norm_num at this ⊢
  exact this

theorem mocSpace_near : |mocSpace - 1 / 1000| ≤ 1 / 2 ^ 62 := by decide +kernel

/-- Distance of the argument from the node below, as computed. -/
theorem offset_near (v : ℚ) (h0 : -10 ≤ v) (h1 : v < -1 / 2 ^ 50) (i : Nat) (hi : i ≤ 9999) (hl : (i : ℚ) ≤ rnd64 (rnd64 (v + 10) * 1000))
    (hu : rnd64 (rnd64 (v + 10) * 1000) < i + 1) :
    -1 / 2 ^ 46 ≤ rnd64 (v - rnd64 (rnd64 (mocSpace * i) + -10)) ∧ rnd64 (v - rnd64 (rnd64 (mocSpace * i) + -10)) ≤ 1 / 1000 + 1 / 2 ^ 46 := by
  have hi' : (i : ℚ) ≤ 9999 := by exact_mod_cast hi
  have hi0 : (0 : ℚ) ≤ i := Nat.cast_nonneg i
  have hv : v < 0 := h1.trans (by norm_num)
  have ea := abs_le.mp (err49 (v + 10) (by rw [abs_le]; constructor <;> linarith))
  have ha0 : 0 ≤ rnd64 (v + 10) := rnd64_nonneg (by linarith)
  have ha1 : rnd64 (v + 10) ≤ 10 := (rnd64_mono _ 10 (by linarith)).trans (by decide +kernel)
  have eb := abs_le.mp (err39 (rnd64 (v + 10) * 1000) (by rw [abs_le]; constructor <;> linarith))
  have es := abs_le.mp mocSpace_near
  have s1 : mocSpace * i - i / 1000 ≤ 9999 / 2 ^ 62 := by
    have : (mocSpace - 1 / 1000) * i ≤ 1 / 2 ^ 62 * 9999 := by
      calc _ ≤ 1 / 2 ^ 62 * (i : ℚ) := mul_le_mul_of_nonneg_right es.2 hi0
        _ ≤ _ := mul_le_mul_of_nonneg_left hi' (by norm_num)
    linarith
  have s2 : -(9999 / 2 ^ 62) ≤ mocSpace * i - i / 1000 := by
    have : -(1 / 2 ^ 62 * 9999) ≤ (mocSpace - 1 / 1000) * i := by
      calc -(1 / 2 ^ 62 * 9999) ≤ -(1 / 2 ^ 62) * (i : ℚ) := by
            rw [neg_mul]
            exact neg_le_neg (mul_le_mul_of_nonneg_left hi' (by norm_num))
        _ ≤ _ := mul_le_mul_of_nonneg_right es.1 hi0
    linarith
  norm_num at s1 s2 ea eb
  have ec := abs_le.mp (err49 (mocSpace * i) (by rw [abs_le]; constructor <;> linarith))
  norm_num at ec
  have en := abs_le.mp (err49 (rnd64 (mocSpace * i) + -10) (by rw [abs_le]; constructor <;> linarith))
  norm_num at en
  have ew := abs_le.mp (err53 (v - rnd64 (rnd64 (mocSpace * i) + -10)) (by rw [abs_le]; constructor <;> linarith))
  norm_num at ew ⊢
  constructor <;> linarith

/-- Distance of the last node from the end of the forbidden range. -/
theorem last_offset : rnd64 (-1 / 2 ^ 50 - rnd64 (rnd64 (mocSpace * (9999 : ℕ)) + -10)) * 1000 ≤ 1 - 1 / 2 ^ 40 ∧
    1 / 2 ^ 10 ≤ rnd64 (-1 / 2 ^ 50 - rnd64 (rnd64 (mocSpace * (9999 : ℕ)) + -10)) + 1 / 2 ^ 10 := by decide +kernel

theorem lerp_low (a b w : ℚ) (ha : 1 / 2 ^ 15 ≤ a) (hab : a ≤ b) (hb : b ≤ 1) (hw : -1 / 2 ^ 46 ≤ w) : 0 ≤ lerp a b w := by
  have d0 : 0 ≤ rnd64 (b - a) := rnd64_nonneg (by linarith)
  have d1 : rnd64 (b - a) ≤ 1 := (rnd64_mono _ 1 (by norm_num at ha; linarith)).trans (by decide +kernel)
  have p : -1 / 2 ^ 46 ≤ rnd64 (b - a) * w := by
    norm_num at hw ⊢
    nlinarith
  have s1 : -1 / 2 ^ 46 ≤ rnd64 (rnd64 (b - a) * w) := (by decide +kernel : (-1 / 2 ^ 46 : ℚ) ≤ rnd64 (-1 / 2 ^ 46)).trans (rnd64_mono _ _ p)
  have s2 : -1 / 2 ^ 36 ≤ rnd64 (rnd64 (rnd64 (b - a) * w) * 1000) :=
    (by decide +kernel : (-1 / 2 ^ 36 : ℚ) ≤ rnd64 (-1 / 2 ^ 36)).trans (rnd64_mono _ _ (by norm_num at s1 ⊢; linarith))
  refine rnd64_nonneg ?_
  norm_num at s2 ha
  linarith

theorem lerp_high (a b w : ℚ) (ha : 0 ≤ a) (hab : a ≤ b) (hb : b ≤ 1 - 1 / 2 ^ 10) (hw0 : -1 / 2 ^ 46 ≤ w) (hw : w ≤ 1 / 1000 + 1 / 2 ^ 46) : lerp a b w ≤ 1 := by
  norm_num at hb hw hw0
  have ed := abs_le.mp (err53 (b - a) (by rw [abs_le]; constructor <;> linarith))
  have d0 : 0 ≤ rnd64 (b - a) := rnd64_nonneg (by linarith)
  have d1 : rnd64 (b - a) ≤ 1 := (rnd64_mono _ 1 (by linarith)).trans (by decide +kernel)
  norm_num at ed
  have p : rnd64 (b - a) * w ≤ (b - a) / 1000 + 1 / 2 ^ 45 := by
    norm_num
    nlinarith
  have p' : -1 ≤ rnd64 (b - a) * w := by nlinarith
  norm_num at p
  have e1 := abs_le.mp (err53 (rnd64 (b - a) * w) (by rw [abs_le]; constructor <;> linarith))
  norm_num at e1
  have l1 : -1 / 2 ^ 46 ≤ rnd64 (rnd64 (b - a) * w) := (by decide +kernel : (-1 / 2 ^ 46 : ℚ) ≤ rnd64 (-1 / 2 ^ 46)).trans (rnd64_mono _ _ (by norm_num; nlinarith))
  norm_num at l1
  have e2 := abs_le.mp (err52 (rnd64 (rnd64 (b - a) * w) * 1000) (by rw [abs_le]; constructor <;> linarith))
  norm_num at e2
  refine (rnd64_mono _ 1 ?_).trans (by decide +kernel)
  linarith

theorem rel_err (x : ℚ) (h : 1 / 2 ^ 1000 ≤ x) : rnd64 x ≤ x * (1 + 1 / 2 ^ 53) := by
  have hx : 0 < x := lt_of_lt_of_le (by positivity) h
  have h1 := rnd64_error x (by
    rw [abs_of_pos hx]
    refine le_trans ?_ h
    rw [one_div, ← zpow_natCast, ← zpow_neg]
    exact zpow_le_zpow_right₀ (by norm_num) (by norm_num))
  rw [abs_of_pos hx] at h1
  have h2 := (abs_le.mp h1).2
  have h3 : (2 : ℚ) ^ (-53 : ℤ) = 1 / 2 ^ 53 := by norm_num
  rw [h3] at h2
  linarith

theorem lerp_last (a w W : ℚ) (ha : 0 ≤ a) (ha1 : a ≤ 1 - 1 / 2 ^ 10) (hw : w ≤ W) (hW : W * 1000 ≤ 1 - 1 / 2 ^ 40) (hW0 : 1 / 2 ^ 20 ≤ W) : lerp a 1 w ≤ 1 := by
  have d0 : 0 ≤ rnd64 (1 - a) := rnd64_nonneg (by norm_num at ha1; linarith)
  have small : (1 : ℚ) / 2 ^ 1000 ≤ 1 / 2 ^ 30 := one_div_le_one_div_of_le (by positivity) (pow_le_pow_right₀ (by norm_num) (by norm_num))
  have dl : 1 / 2 ^ 10 ≤ rnd64 (1 - a) := (by decide +kernel : (1 / 2 ^ 10 : ℚ) ≤ rnd64 (1 / 2 ^ 10)).trans (rnd64_mono _ _ (by linarith))
  have r1 := rel_err (1 - a) (small.trans (by norm_num at ha1 ⊢; linarith))
  have m1 : rnd64 (rnd64 (1 - a) * w) ≤ rnd64 (rnd64 (1 - a) * W) := rnd64_mono _ _ (mul_le_mul_of_nonneg_left hw d0)
  have pl : 1 / 2 ^ 30 ≤ rnd64 (1 - a) * W := by
    calc (1 / 2 ^ 30 : ℚ) = 1 / 2 ^ 10 * (1 / 2 ^ 20) := by norm_num
      _ ≤ _ := mul_le_mul dl hW0 (by norm_num) d0
  have r2 := rel_err (rnd64 (1 - a) * W) (small.trans pl)
  have ql : 1 / 2 ^ 30 ≤ rnd64 (rnd64 (1 - a) * W) := (by decide +kernel : (1 / 2 ^ 30 : ℚ) ≤ rnd64 (1 / 2 ^ 30)).trans (rnd64_mono _ _ pl)
  have r3 := rel_err (rnd64 (rnd64 (1 - a) * W) * 1000) (small.trans (by norm_num at ql ⊢; linarith))
  have m2 : rnd64 (rnd64 (rnd64 (1 - a) * w) * 1000) ≤ rnd64 (rnd64 (rnd64 (1 - a) * W) * 1000) := rnd64_mono _ _ (mul_le_mul_of_nonneg_right m1 (by norm_num))
  refine (rnd64_mono _ 1 ?_).trans (by decide +kernel)
  have key : rnd64 (rnd64 (rnd64 (1 - a) * W) * 1000) ≤ 1 - a := by
    have u0 : (0 : ℚ) ≤ 1 + 1 / 2 ^ 53 := by positivity
    have hA : 0 ≤ 1 - a := by norm_num at ha1; linarith
    calc _ ≤ rnd64 (rnd64 (1 - a) * W) * 1000 * (1 + 1 / 2 ^ 53) := r3
      _ ≤ rnd64 (1 - a) * W * (1 + 1 / 2 ^ 53) * 1000 * (1 + 1 / 2 ^ 53) := by gcongr
      _ = rnd64 (1 - a) * ((W * 1000) * ((1 + 1 / 2 ^ 53) * (1 + 1 / 2 ^ 53))) := by ring
      _ ≤ (1 - a) * (1 + 1 / 2 ^ 53) * ((1 - 1 / 2 ^ 40) * ((1 + 1 / 2 ^ 53) * (1 + 1 / 2 ^ 53))) := by
          apply mul_le_mul r1 _ _ (mul_nonneg hA u0)
          · exact mul_le_mul_of_nonneg_right hW (mul_nonneg u0 u0)
          · have : 0 ≤ W := le_trans (by norm_num) hW0
            positivity
      _ = (1 - a) * ((1 + 1 / 2 ^ 53) * ((1 - 1 / 2 ^ 40) * ((1 + 1 / 2 ^ 53) * (1 + 1 / 2 ^ 53)))) := by ring
      _ ≤ (1 - a) * 1 := mul_le_mul_of_nonneg_left (by norm_num) hA
      _ = 1 - a := mul_one _
  linarith

/-- C129: apart from those arguments the value is between zero and one, whatever the rounding errors of `exp` at the nodes. -/
theorem C129_range (e : ℚ → ℚ) (d : Nat → ℚ) (hd : TableOk d) (v : ℚ) (h0 : -10 ≤ v) (h1 : v < -1 / 2 ^ 50) :
    ∃ y, expLinearF rnd64 e (mocTable ((List.range 10001).map d)) v = some y ∧ 0 ≤ y ∧ y ≤ 1 := by
  have hlen : ((List.range 10001).map d).length = 10001 := by simp
  have hv0 : v ≤ 0 := (h1.trans (by norm_num)).le
  have ha0 : 0 ≤ rnd64 (v - -10) := rnd64_nonneg (by linarith)
  have hb0 : 0 ≤ rnd64 (rnd64 (v - -10) * 1000) := rnd64_nonneg (by linarith)
  have hi0 : 0 ≤ ⌊rnd64 (rnd64 (v - -10) * 1000)⌋ := Int.floor_nonneg.mpr hb0
  have hlt : ⌊rnd64 (rnd64 (v - -10) * 1000)⌋ < 10000 := by
    rw [Int.floor_lt]
    have h2 := below_ten v h0 h1
    rw [← sub_neg_eq_add] at h2
    exact_mod_cast ((rnd64_mono _ _ (mul_le_mul_of_nonneg_right h2 (by norm_num))).trans_lt scale_below)
  obtain ⟨i, hin'⟩ := Int.eq_ofNat_of_zero_le hi0
  rw [hin'] at hlt
  have hi9 : i ≤ 9999 := by omega
  have fl := Int.floor_eq_iff.mp hin'
  have off := offset_near v h0 h1 i hi9 (by rw [← sub_neg_eq_add]; exact_mod_cast fl.1) (by rw [← sub_neg_eq_add]; exact_mod_cast fl.2)
  have hval : expLinearF rnd64 e (mocTable ((List.range 10001).map d)) v =
      some (lerp (d i) (d (i + 1)) (rnd64 (v - rnd64 (rnd64 (mocSpace * i) + -10)))) := by
    rw [moc_interp e _ v h0 hv0, hin']
    have g1 : ((List.range 10001).map d)[((i : ℕ) : ℤ).toNat]? = some (d i) := by
      rw [Int.toNat_natCast, List.getElem?_map, List.getElem?_range (by omega), Option.map_some]
    have g2 : ((List.range 10001).map d)[((i : ℕ) : ℤ).toNat + 1]? = some (d (i + 1)) := by
      rw [Int.toNat_natCast, List.getElem?_map, List.getElem?_range (by omega), Option.map_some]
    rw [g1, g2, Int.cast_natCast]
  have dl : 1 / 2 ^ 15 ≤ d i := hd.low.trans (hd.le 0 i (by omega) (by omega))
  have dh : d (i + 1) ≤ 1 := (hd.le (i + 1) 10000 (by omega) (by omega)).trans hd.top.le
  refine ⟨_, hval, lerp_low _ _ _ dl (hd.mono i (by omega)) dh off.1, ?_⟩
  rcases Nat.lt_or_ge i 9999 with h | h
  · exact lerp_high _ _ _ (le_trans (by norm_num) dl) (hd.mono i (by omega)) ((hd.le (i + 1) 9999 (by omega) (by omega)).trans hd.last) off.1 off.2
  · have : i = 9999 := by omega
    subst this
    rw [hd.top]
    exact lerp_last _ _ _ (le_trans (by norm_num) dl) hd.last (rnd64_mono _ _ (sub_le_sub_right h1.le _)) last_offset.1 (by decide +kernel)

/-! ### The exponential of the library -/

/-- Node `i` of the table as computed. -/
def node (i : Nat) : ℚ := rnd64 (-10 + rnd64 ((i : ℚ) * mocSpace))

/-- `std::exp` on arguments that are not positive: values are doubles between zero and one, within one unit in the last place of the exponential in the range of the
table, and the exponential of zero is one. -/
structure LibExp (e : ℚ → ℚ) : Prop where
  zero : e 0 = 1
  double : ∀ v, rnd64 (e v) = e v
  range : ∀ v ≤ 0, 0 ≤ e v ∧ e v ≤ 1
  near : ∀ v : ℚ, -10 ≤ v → v ≤ 0 → |(e v : ℝ) - Real.exp v| ≤ Real.exp v / 2 ^ 52

theorem node_near (i : Nat) (hi : i ≤ 10000) : |node i - (i / 1000 - 10)| ≤ 1 / 2 ^ 47 ∧ -10 ≤ node i ∧ node i ≤ 0 := by
  have hi' : (i : ℚ) ≤ 10000 := by exact_mod_cast hi
  have hi0 : (0 : ℚ) ≤ i := Nat.cast_nonneg i
  have es := abs_le.mp mocSpace_near
  have sp : 0 ≤ mocSpace := by decide +kernel
  have s1 : i * mocSpace - i / 1000 ≤ 10000 / 2 ^ 62 := by
    have : i * (mocSpace - 1 / 1000) ≤ 10000 * (1 / 2 ^ 62) := by
      calc _ ≤ (i : ℚ) * (1 / 2 ^ 62) := mul_le_mul_of_nonneg_left es.2 hi0
        _ ≤ _ := mul_le_mul_of_nonneg_right hi' (by norm_num)
    linarith
  have s2 : -(10000 / 2 ^ 62) ≤ i * mocSpace - i / 1000 := by
    have : -(10000 * (1 / 2 ^ 62)) ≤ i * (mocSpace - 1 / 1000) := by
      calc -(10000 * (1 / 2 ^ 62)) ≤ (i : ℚ) * -(1 / 2 ^ 62) := by
            rw [mul_neg]
            exact neg_le_neg (mul_le_mul_of_nonneg_right hi' (by norm_num))
        _ ≤ _ := mul_le_mul_of_nonneg_left es.1 hi0
    linarith
  norm_num at s1 s2
  have ec := abs_le.mp (err49 (i * mocSpace) (by rw [abs_le]; constructor <;> linarith))
  norm_num at ec
  have c0 : 0 ≤ rnd64 (i * mocSpace) := rnd64_nonneg (mul_nonneg hi0 sp)
  have c1 : rnd64 (i * mocSpace) ≤ 10 :=
    (rnd64_mono _ (10000 * mocSpace) (mul_le_mul_of_nonneg_right hi' sp)).trans (by decide +kernel)
  have en := abs_le.mp (err49 (-10 + rnd64 (i * mocSpace)) (by rw [abs_le]; constructor <;> linarith))
  norm_num at en
  refine ⟨?_, ?_, ?_⟩
  · unfold node
    rw [abs_le]
    norm_num
    constructor <;> linarith
  · exact (by decide +kernel : (-10 : ℚ) ≤ rnd64 (-10)).trans (rnd64_mono _ _ (by linarith))
  · exact (rnd64_mono _ 0 (by linarith)).trans rnd64_zero.le

/-- The table of such an exponential is as needed. -/
theorem libExp_table (e : ℚ → ℚ) (he : LibExp e) : TableOk (fun i => e (node i)) where
  mono := by
    intro i hi
    obtain ⟨a1, a2, a3⟩ := node_near i (by omega)
    obtain ⟨b1, b2, b3⟩ := node_near (i + 1) (by omega)
    have a1' := abs_le.mp a1
    have b1' := abs_le.mp b1
    push_cast at b1'
    have gap : node i + 9 / 10000 ≤ node (i + 1) := by
      norm_num at a1' b1'
      linarith
    have gapR : (node i : ℝ) + 9 / 10000 ≤ node (i + 1) := by
      have := (Rat.cast_le (K := ℝ)).mpr gap
      push_cast at this
      exact this
    have na := (abs_le.mp (he.near _ a2 a3)).2
    have nb := (abs_le.mp (he.near _ b2 b3)).1
    have pos := Real.exp_pos (node i : ℝ)
    have grow : Real.exp (node i) * (1 + 9 / 10000) ≤ Real.exp (node (i + 1)) := by
      calc Real.exp (node i) * (1 + 9 / 10000) ≤ Real.exp (node i) * Real.exp (9 / 10000) := by
            apply mul_le_mul_of_nonneg_left _ pos.le
            have := Real.add_one_le_exp (9 / 10000 : ℝ)
            linarith
        _ = Real.exp (node i + 9 / 10000) := (Real.exp_add _ _).symm
        _ ≤ _ := Real.exp_le_exp.mpr gapR
    have : (e (node i) : ℝ) ≤ e (node (i + 1)) := by
      norm_num at na nb
      linarith
    exact_mod_cast this
  low := by
    have h10 : node 0 = -10 := by decide +kernel
    show 1 / 2 ^ 15 ≤ e (node 0)
    rw [h10]
    have nb := (abs_le.mp (he.near (-10) (by norm_num) (by norm_num))).1
    have h1 : (1 / 2 ^ 15 : ℝ) * (1 + 1 / 4) ≤ Real.exp ((-10 : ℚ) : ℝ) := by
      have h2 : Real.exp 10 ≤ 2 ^ 15 * (4 / 5) := by
        have : Real.exp 10 = Real.exp 1 ^ 10 := by rw [← Real.exp_nat_mul]; norm_num
        rw [this]
        calc Real.exp 1 ^ 10 ≤ 2.7182818286 ^ 10 := pow_le_pow_left₀ (Real.exp_pos 1).le Real.exp_one_lt_d9.le 10
          _ ≤ _ := by norm_num
      have h3 : Real.exp ((-10 : ℚ) : ℝ) * Real.exp 10 = 1 := by
        rw [← Real.exp_add]; norm_num
      have p := mul_le_mul_of_nonneg_left h2 (Real.exp_pos ((-10 : ℚ) : ℝ)).le
      rw [h3] at p
      norm_num at p ⊢
      linarith
    have : ((1 / 2 ^ 15 : ℚ) : ℝ) ≤ e (-10) := by
      push_cast at h1 ⊢
      push_cast at nb
      norm_num at nb h1 ⊢
      linarith
    exact_mod_cast this
  top := by
    have h : node 10000 = 0 := by decide +kernel
    show e (node 10000) = 1
    rw [h, he.zero]
  last := by
    have h : node 9999 = -562949953421 / 562949953421312 := by decide +kernel
    show e (node 9999) ≤ _
    have na := (abs_le.mp (he.near _ (node_near 9999 (by norm_num)).2.1 (node_near 9999 (by norm_num)).2.2)).2
    have h1 : Real.exp (node 9999) * (1 + 562949953421 / 562949953421312) ≤ 1 := by
      have h2 := Real.add_one_le_exp (562949953421 / 562949953421312 : ℝ)
      have p := Real.exp_pos (node 9999 : ℝ)
      have h3 : Real.exp (node 9999) * Real.exp (562949953421 / 562949953421312) = 1 := by
        rw [← Real.exp_add, h]
        push_cast
        norm_num
      nlinarith
    have p := Real.exp_pos (node 9999 : ℝ)
    have : (e (node 9999) : ℝ) ≤ ((1 - 1 / 2 ^ 10 : ℚ) : ℝ) := by
      push_cast
      norm_num at na h1 ⊢
      linarith
    exact_mod_cast this

/-- `exp_.exp` of the sweeper; where it reads outside the array, some value. -/
def mocExp (e : ℚ → ℚ) (junk : ℚ → ℚ) (v : ℚ) : ℚ := (expLinearF rnd64 e (expTableF rnd64 e 10000 (-10) 0) v).getD (junk v)

theorem mocExp_range (e junk : ℚ → ℚ) (he : LibExp e) (v : ℚ) (hv : v < -1 / 2 ^ 50) :
    expLinearF rnd64 e (expTableF rnd64 e 10000 (-10) 0) v ≠ none ∧ 0 ≤ mocExp e junk v ∧ mocExp e junk v ≤ 1 := by
  rcases lt_or_ge v (-10) with h | h
  · have h1 : expLinearF rnd64 e (expTableF rnd64 e 10000 (-10) 0) v = some (e v) := by
      rw [expLinearF, if_pos (show v < (expTableF rnd64 e 10000 (-10) 0).min ∨ v > (expTableF rnd64 e 10000 (-10) 0).max from Or.inl h)]
    rw [mocExp, h1]
    exact ⟨by simp, he.range v (h.trans (by norm_num)).le⟩
  · obtain ⟨y, hy, y0, y1⟩ := C129_range e (fun i => e (node i)) (libExp_table e he) v h hv
    rw [mocExp, mocTable_eq]
    have hy' : expLinearF rnd64 e (mocTable ((List.range 10001).map fun i : Nat => e (rnd64 (-10 + rnd64 ((i : ℚ) * mocSpace))))) v = some y := hy
    rw [hy']
    exact ⟨by simp, y0, y1⟩

/-- C129: with the table of the sweeper in doubles, if every segment is thicker than `2^-50` (as computed), no read is outside and no boundary value is negative after a
sweep. -/
theorem C129_sweep (e junk : ℚ → ℚ) (he : LibExp e) (fpi : ℚ) (xstr vol q : Nat → ℚ) (hq : ∀ i, 0 ≤ q i) (gs : Bool) (u : BcUpdate ℚ) (hu : KeepsGood rnd64 u)
    (ps : List (PlaneWork ℚ × (Nat → Nat → ℚ) × (Nat → Nat → ℚ)))
    (hthick : ∀ p ∈ ps, ∀ w ∈ p.1.angles, ∀ r ∈ w.rays, ∀ s ∈ r.segs, argF rnd64 xstr w.rst p.1.first s < -1 / 2 ^ 50)
    (hb : ∀ p ∈ ps, GoodBc rnd64 p.2.1 ∧ GoodBc rnd64 p.2.2) :
    (∀ p ∈ ps, ∀ w ∈ p.1.angles, ∀ r ∈ w.rays, ∀ s ∈ r.segs,
      expLinearF rnd64 e (expTableF rnd64 e 10000 (-10) 0) (argF rnd64 xstr w.rst p.1.first s) ≠ none) ∧
    ∀ b ∈ (sweep1gF rnd64 (mocExp e junk) fpi xstr vol q gs u ps).2, GoodBc rnd64 b.1 ∧ GoodBc rnd64 b.2 :=
  ⟨fun p hp w hw r hr s hs => (mocExp_range e junk he _ (hthick p hp w hw r hr s hs)).1,
    C129_boundary rnd64 (mocExp e junk) rounding64 fpi xstr vol q hq gs u hu ps
      (fun p hp w hw r hr s hs => (mocExp_range e junk he _ (hthick p hp w hw r hr s hs)).2) hb⟩

/-- The angular flux after a segment is between the one before and the source over cross section (true without rounding). -/
def C129_max_claim : Prop :=
  ∀ (psi q e : ℚ), Good rnd64 psi → Good rnd64 q → 0 ≤ e → e ≤ 1 → rnd64 (psi - rnd64 (rnd64 (psi - q) * e)) ≤ max psi q

theorem C129_max_claim_false : ¬ C129_max_claim := by
  intro h
  have := h (3 / 2) (2 ^ 53 - 1) 1 ⟨by norm_num, by decide +kernel⟩ ⟨by norm_num, by decide +kernel⟩ (by norm_num) (by norm_num)
  revert this
  decide +kernel

/-- The double nearest to the exponential at the node before the last. -/
def lastNode : ℚ := 8998196557585059 / 9007199254740992

theorem lastNode_near : |((lastNode : ℚ) : ℝ) - Real.exp ((node 9999 : ℚ) : ℝ)| ≤ Real.exp ((node 9999 : ℚ) : ℝ) / 2 ^ 52 := by
  have h : node 9999 = -562949953421 / 562949953421312 := by decide +kernel
  have hx : |((node 9999 : ℚ) : ℝ)| ≤ 1 := by
    rw [h]; push_cast; rw [abs_le]; norm_num
  have hb := Real.exp_bound hx (n := 6) (by norm_num)
  rw [h] at hb ⊢
  unfold lastNode
  push_cast at hb ⊢
  simp only [Finset.sum_range_succ, Finset.sum_range_zero, Nat.factorial, abs_div, abs_neg] at hb
  norm_num at hb
  rw [abs_le] at hb ⊢
  norm_num
  constructor <;> linarith [hb.1, hb.2]

open Classical in
/-- An exponential of the library that is exact to half a unit at that node. -/
theorem libExp_exists : ∃ e : ℚ → ℚ, LibExp e ∧ e (node 9999) = lastNode := by
  have hn : node 9999 = -562949953421 / 562949953421312 := by decide +kernel
  have hex : ∀ v : ℚ, ∃ r : ℚ, Real.exp v * (1 - 1 / 2 ^ 60) < r ∧ (r : ℝ) < Real.exp v := fun v =>
    exists_rat_btwn (by have := Real.exp_pos (v : ℝ); norm_num; linarith)
  choose r hr1 hr2 using hex
  have rpos : ∀ v, 0 < r v := by
    intro v
    have h1 : (0 : ℝ) < r v := lt_trans (mul_pos (Real.exp_pos _) (by norm_num)) (hr1 v)
    exact_mod_cast h1
  refine ⟨fun v => if v = node 9999 then lastNode else if v = 0 then 1 else if -10 ≤ v ∧ v ≤ 0 then rnd64 (r v) else 0, ⟨?_, ?_, ?_, ?_⟩, by simp⟩
  · rw [if_neg (by rw [hn]; norm_num), if_pos rfl]
  · intro v
    split
    · decide +kernel
    · split
      · decide +kernel
      · split
        · exact rounding64.idem _
        · exact rnd64_zero
  · intro v hv
    split
    · decide +kernel
    · split
      · norm_num
      · split
        · refine ⟨rnd64_nonneg (rpos v).le, (rnd64_mono _ 1 ?_).trans (by decide +kernel)⟩
          have h1 : (r v : ℝ) < 1 := (hr2 v).trans_le (Real.exp_le_one_iff.mpr (by exact_mod_cast hv))
          exact_mod_cast h1.le
        · norm_num
  · intro v h0 h1
    split
    · next h => rw [h]; exact lastNode_near
    · split
      · next h => rw [h]; norm_num
      · rw [if_pos ⟨h0, h1⟩]
        have hl : (1 / 2 ^ 15 : ℝ) ≤ Real.exp v := by
          have h2 : Real.exp 10 ≤ 2 ^ 15 := by
            have : Real.exp 10 = Real.exp 1 ^ 10 := by rw [← Real.exp_nat_mul]; norm_num
            rw [this]
            calc Real.exp 1 ^ 10 ≤ 2.7182818286 ^ 10 := pow_le_pow_left₀ (Real.exp_pos 1).le Real.exp_one_lt_d9.le 10
              _ ≤ _ := by norm_num
          have h3 : Real.exp (-10) * Real.exp 10 = 1 := by rw [← Real.exp_add]; norm_num
          have h4 : Real.exp (-10) ≤ Real.exp v := Real.exp_le_exp.mpr (by exact_mod_cast h0)
          have p := Real.exp_pos (-10 : ℝ)
          norm_num at h2 ⊢
          nlinarith
        have rl : (1 / 2 ^ 16 : ℚ) ≤ r v := by
          have : ((1 / 2 ^ 16 : ℚ) : ℝ) ≤ r v := by
            have := hr1 v
            push_cast
            norm_num at this hl ⊢
            linarith
          exact_mod_cast this
        have er := rnd64_error (r v) (by
          rw [abs_of_pos (rpos v)]
          refine le_trans ?_ rl
          rw [one_div, ← zpow_natCast, ← zpow_neg]
          exact zpow_le_zpow_right₀ (by norm_num) (by norm_num))
        rw [abs_of_pos (rpos v)] at er
        have erR : |((rnd64 (r v) : ℚ) : ℝ) - r v| ≤ (1 / 2 ^ 53 : ℝ) * r v := by
          have h3 : (2 : ℚ) ^ (-53 : ℤ) = 1 / 2 ^ 53 := by norm_num
          rw [h3] at er
          have := (Rat.cast_le (K := ℝ)).mpr er
          push_cast at this
          exact this
        have a1 := hr1 v
        have a2 := hr2 v
        have p := Real.exp_pos (v : ℝ)
        rw [abs_le] at erR ⊢
        norm_num at erR a1 ⊢
        constructor <;> linarith [erR.1, erR.2]

/-- Scalar flux is not negative under the hypotheses of C31, segments thick enough not to read outside. -/
def C129_flux_claim : Prop :=
  ∀ (e junk : ℚ → ℚ), LibExp e → ∀ (fpi : ℚ) (xstr vol q : Nat → ℚ), (∀ i, 0 < xstr i) → (∀ i, 0 < vol i) → (∀ i, 0 ≤ q i) → ∀ (gs : Bool) (u : BcUpdate ℚ),
    KeepsNonNeg u → ∀ (ps : List (PlaneWork ℚ × (Nat → Nat → ℚ) × (Nat → Nat → ℚ))),
    (∀ p ∈ ps, ∀ w ∈ p.1.angles, 0 ≤ w.rst ∧ 0 ≤ w.wt ∧ ∀ r ∈ w.rays, ∀ s ∈ r.segs, 0 ≤ s.len ∧ argF rnd64 xstr w.rst p.1.first s < -1 / 2 ^ 50) →
    (∀ p ∈ ps, NonNeg p.2.1 ∧ NonNeg p.2.2) → ∀ i, (ps.map (fun p => planeVolume i p.1)).sum ≤ fpi * vol i →
    0 ≤ (sweep1gF rnd64 (mocExp e junk) fpi xstr vol q gs u ps).1 i

/-- A region with a cross section of `1.2e-10`, crossed by one ray. -/
def thinPlane : PlaneWork ℚ := ⟨0, [⟨0, 1, 1, 1 / 2, [⟨[⟨0, 1 / 2 ^ 7⟩], 0, 0⟩]⟩]⟩

theorem thin_exp (e junk : ℚ → ℚ) (he : LibExp e) (hl : e (node 9999) = lastNode) : mocExp e junk (-1 / 2 ^ 40) = lerp lastNode 1 (rnd64 (-1 / 2 ^ 40 - node 9999)) := by
  have ht := libExp_table e he
  rw [mocExp, mocTable_eq, moc_interp _ _ _ (by norm_num) (by norm_num)]
  have hfl : ⌊rnd64 (rnd64 (-1 / 2 ^ 40 - -10) * 1000)⌋ = 9999 := by decide +kernel
  rw [hfl]
  have g : ∀ i : Nat, i < 10001 → ((List.range 10001).map fun i : Nat => e (rnd64 (-10 + rnd64 ((i : ℚ) * mocSpace))))[i]? = some (e (node i)) := by
    intro i hi
    rw [List.getElem?_map, List.getElem?_range hi, Option.map_some]
    rfl
  have g1 := g 9999 (by norm_num)
  have g2 := g 10000 (by norm_num)
  have t : e (node 10000) = 1 := ht.top
  rw [hl] at g1
  rw [t] at g2
  have c1 : (9999 : ℤ).toNat = 9999 := by decide
  have c2 : rnd64 (rnd64 (mocSpace * ((9999 : ℤ) : ℚ)) + -10) = node 9999 := by decide +kernel
  rw [c1, g1, g2, c2, Option.getD_some]

/-- False: with a source of one and no flux coming in, the scalar flux is negative, since the table gives an exponential that is too small next to zero. -/
theorem C129_flux_claim_false : ¬ C129_flux_claim := by
  intro h
  obtain ⟨e, he, hl⟩ := libExp_exists
  have h1 := h e (fun _ => 0) he 1 (fun _ => 1 / 2 ^ 33) (fun _ => 1 / 2 ^ 7) (fun _ => 1) (by intro; norm_num) (by intro; norm_num) (by intro; norm_num) false
    ⟨fun _ b _ => b, fun _ o => o⟩ ⟨fun _ _ _ h _ => h, fun _ _ _ h => h⟩ [(thinPlane, fun _ _ => 0, fun _ _ => 0)]
    (by
      have ha : argF rnd64 (fun _ => 1 / 2 ^ 33) 1 0 (⟨0, 1 / 2 ^ 7⟩ : Seg ℚ) < -1 / 2 ^ 50 := by decide +kernel
      simp [thinPlane]
      norm_num at ha ⊢
      exact ha)
    (by simp [NonNeg]) 0 (by decide +kernel)
  have hexp := thin_exp e (fun _ => 0) he hl
  have harg : rnd64 (rnd64 (-(1 / 2 ^ 33) * (1 / 2 ^ 7)) * 1) = -1 / 2 ^ 40 := by decide +kernel
  have h2 : eTauF rnd64 (mocExp e fun _ => 0) (fun _ => 1 / 2 ^ 33) 1 0 ⟨0, 1 / 2 ^ 7⟩ = rnd64 (1 - lerp lastNode 1 (rnd64 (-1 / 2 ^ 40 - node 9999))) := by
    rw [eTauF, ← hexp]
    show rnd64 (1 - mocExp e _ (rnd64 (rnd64 (-(1 / 2 ^ 33) * (1 / 2 ^ 7)) * 1))) = _
    rw [harg]
  have h3 : (sweep1gF rnd64 (mocExp e fun _ => 0) 1 (fun _ => 1 / 2 ^ 33) (fun _ => 1 / 2 ^ 7) (fun _ => 1) false ⟨fun _ b _ => b, fun _ o => o⟩
      [(thinPlane, fun _ _ => 0, fun _ _ => 0)]).1 0 =
      (fun E : ℚ => rnd64 (rnd64 (rnd64 (0 + rnd64 (rnd64 (0 + rnd64 (rnd64 (rnd64 (0 - 1) * E) * (1 / 2))) + rnd64 (rnd64 (rnd64 (0 - 1) * E) * (1 / 2)))) /
        rnd64 (1 / 2 ^ 33 * (1 / 2 ^ 7))) + rnd64 (1 * 1))) (eTauF rnd64 (mocExp e fun _ => 0) (fun _ => 1 / 2 ^ 33) 1 0 ⟨0, 1 / 2 ^ 7⟩) := by
    simp [sweep1gF, sweepPlanesF, sweepPlaneF, sweepAngleF, sweepRayF, walkF, finishF, thinPlane, upd]
  rw [h3, h2] at h1
  revert h1
  decide +kernel

/-! ### Examples -/

example : KeepsGood rnd64 (⟨fun _ b _ => b, fun _ o => o⟩ : BcUpdate ℚ) := ⟨fun _ _ _ h _ => h, fun _ _ _ h => h⟩

/-- Hypotheses of the theorems are met: an exponential of the library exists, and with it a table as needed. -/
example : ∃ e, LibExp e ∧ TableOk (fun i => e (node i)) := by
  obtain ⟨e, he, _⟩ := libExp_exists
  exact ⟨e, he, libExp_table e he⟩

example : ∀ w ∈ thinPlane.angles, ∀ r ∈ w.rays, ∀ s ∈ r.segs, argF rnd64 (fun _ => 1 / 2 ^ 33) w.rst thinPlane.first s < -1 / 2 ^ 50 := by
  have ha : argF rnd64 (fun _ => 1 / 2 ^ 33) 1 0 (⟨0, 1 / 2 ^ 7⟩ : Seg ℚ) < -1 / 2 ^ 50 := by decide +kernel
  simpa [thinPlane] using ha

/-- Both sides of C129_index. -/
example : ¬ (-1 / 2 ^ 50 ≤ rnd64 (-1 / 10 ^ 15)) ∧ -1 / 2 ^ 50 ≤ rnd64 (-1 / 10 ^ 16) := by decide +kernel

/-- Not every number is a double. -/
example : Good rnd64 (3 / 2) ∧ ¬ Good rnd64 (1 / 3) := by
  refine ⟨⟨by norm_num, by decide +kernel⟩, fun h => ?_⟩
  have := h.2
  revert this
  decide +kernel

end Verif.Moc
