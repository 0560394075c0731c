import Verif.Medium.MonotoneProps
import Mathlib.Analysis.SpecificLimits.Basic

/-!
# C113: convergence of the fixed-source iteration
-/

set_option linter.unusedSectionVars false

namespace Verif.Medium

open Verif.XS Verif.Source

section
variable {K : Type} [Field K] [LinearOrder K] [IsStrictOrderedRing K]

/-- Fluxes differ by at most `x` times `φ`, incoming values by at most `y` times `φ` (per unit solid angle). -/
structure Near (p : Problem K) (m : MocSetup K) (nAng : Nat) (n : Nat → Nat) (φ : Nat → K) (x y : K) (s s' : MocState K) : Prop where
  flux : ∀ i < p.nReg, ∀ g < p.ng, |s.flux i g - s'.flux i g| ≤ x * φ g
  bin : ∀ g < p.ng, ∀ z < m.planes.length, ∀ a < nAng, ∀ j < n a, |incoming s g z a j - incoming s' g z a j| ≤ y * φ g / m.fpi

theorem near_iff (p : Problem K) (m : MocSetup K) (nAng : Nat) (n : Nat → Nat) (φ : Nat → K) (x y : K) (s s' : MocState K) (hs : PlanesAt m s) (hs' : PlanesAt m s') :
    Near p m nAng n φ x y s s' ↔ Below p m nAng n φ x y (mocLin 1 (-1) s s') ∧ Below p m nAng n φ x y (mocLin 1 (-1) s' s) := by
  have hd := planesAt_lin 1 (-1) m s s' hs hs'
  have hd' := planesAt_lin 1 (-1) m s' s hs' hs
  constructor
  · rintro ⟨h1, h2⟩
    refine ⟨⟨fun i hi g hg => ?_, fun g hg => ?_⟩, ⟨fun i hi g hg => ?_, fun g hg => ?_⟩⟩
    · have := abs_le.mp (h1 i hi g hg)
      simp only [mocLin, Pi.add_apply, Pi.smul_apply, smul_eq_mul]
      linarith
    · rw [mem_incoming _ g _ (hd.1 g)]
      intro z hz a ha j hj
      rw [incoming_lin 1 (-1) s s' g _ (hs.1 g) (hs'.1 g) z hz]
      have := abs_le.mp (h2 g hg z hz a ha j hj)
      linarith
    · have := abs_le.mp (h1 i hi g hg)
      simp only [mocLin, Pi.add_apply, Pi.smul_apply, smul_eq_mul]
      linarith
    · rw [mem_incoming _ g _ (hd'.1 g)]
      intro z hz a ha j hj
      rw [incoming_lin 1 (-1) s' s g _ (hs'.1 g) (hs.1 g) z hz]
      have := abs_le.mp (h2 g hg z hz a ha j hj)
      linarith
  · rintro ⟨h1, h2⟩
    refine ⟨fun i hi g hg => abs_le.mpr ?_, fun g hg z hz a ha j hj => abs_le.mpr ?_⟩
    · have e1 := h1.flux i hi g hg
      have e2 := h2.flux i hi g hg
      simp only [mocLin, Pi.add_apply, Pi.smul_apply, smul_eq_mul] at e1 e2
      constructor <;> linarith
    · have e1 := (mem_incoming _ g _ (hd.1 g) _).mp (h1.bin g hg) z hz a ha j hj
      have e2 := (mem_incoming _ g _ (hd'.1 g) _).mp (h2.bin g hg) z hz a ha j hj
      rw [incoming_lin 1 (-1) s s' g _ (hs.1 g) (hs'.1 g) z hz] at e1
      rw [incoming_lin 1 (-1) s' s g _ (hs'.1 g) (hs.1 g) z hz] at e2
      constructor <;> linarith

theorem near_trans (p : Problem K) (m : MocSetup K) (nAng : Nat) (n : Nat → Nat) (φ : Nat → K) (x y x' y' : K) (s t r : MocState K)
    (h : Near p m nAng n φ x y s t) (h' : Near p m nAng n φ x' y' t r) : Near p m nAng n φ (x + x') (y + y') s r := by
  refine ⟨fun i hi g hg => ?_, fun g hg z hz a ha j hj => ?_⟩
  · rw [add_mul]
    exact (abs_sub_le _ (t.flux i g) _).trans (add_le_add (h.flux i hi g hg) (h'.flux i hi g hg))
  · rw [add_mul, add_div]
    exact (abs_sub_le _ (incoming t g z a j) _).trans (add_le_add (h.bin g hg z hz a ha j hj) (h'.bin g hg z hz a ha j hj))

theorem near_symm (p : Problem K) (m : MocSetup K) (nAng : Nat) (n : Nat → Nat) (φ : Nat → K) (x y : K) (s t : MocState K)
    (h : Near p m nAng n φ x y s t) : Near p m nAng n φ x y t s :=
  ⟨fun i hi g hg => by rw [abs_sub_comm]; exact h.flux i hi g hg, fun g hg z hz a ha j hj => by rw [abs_sub_comm]; exact h.bin g hg z hz a ha j hj⟩

theorem near_mono (p : Problem K) (m : MocSetup K) (nAng : Nat) (n : Nat → Nat) (φ : Nat → K) (hφ : ∀ g < p.ng, 0 ≤ φ g) (hfpi : 0 < m.fpi) (x y x' y' : K) (hx : x ≤ x')
    (hy : y ≤ y') (s t : MocState K) (h : Near p m nAng n φ x y s t) : Near p m nAng n φ x' y' s t :=
  ⟨fun i hi g hg => (h.flux i hi g hg).trans (mul_le_mul_of_nonneg_right hx (hφ g hg)),
    fun g hg z hz a ha j hj => (h.bin g hg z hz a ha j hj).trans (div_le_div_of_nonneg_right (mul_le_mul_of_nonneg_right hy (hφ g hg)) hfpi.le)⟩

theorem near_scale (p : Problem K) (m : MocSetup K) (nAng : Nat) (n : Nat → Nat) (φ : Nat → K) (c x y : K) (s t : MocState K) :
    Near p m nAng n (fun g => c * φ g) x y s t ↔ Near p m nAng n φ (x * c) (y * c) s t := by
  constructor
  · rintro ⟨h1, h2⟩
    exact ⟨fun i hi g hg => by rw [mul_assoc]; exact h1 i hi g hg, fun g hg z hz a ha j hj => by rw [mul_assoc]; exact h2 g hg z hz a ha j hj⟩
  · rintro ⟨h1, h2⟩
    exact ⟨fun i hi g hg => by rw [← mul_assoc]; exact h1 i hi g hg, fun g hg z hz a ha j hj => by rw [← mul_assoc]; exact h2 g hg z hz a ha j hj⟩

/-- The states of two steps with the same source. -/
theorem step_near (p : Problem K) (h : Physical p) (m : MocSetup K) (nAng : Nat) (n : Nat → Nat) (hm : MocBoundOk p m nAng n) (η : K) (hη : Loses p m nAng n η)
    (φ : Nat → K) (hφ : ∀ g < p.ng, 0 ≤ φ g) (x y κ : K) (h0 : 0 ≤ κ) (hκ : κ ≤ y) (hyx : y ≤ x)
    (hsc : ∀ z ∈ p.rs, ∀ g < p.ng, x * ∑ h ∈ Finset.range p.ng, z.mat.sc g h * φ h ≤ κ * (z.mat.tr g * φ g)) (base : Nat → Nat → K)
    (s s' : MocState K) (hs : PlanesAt m s) (hs' : PlanesAt m s') (hb : Near p m nAng n φ x y s s') :
    PlanesAt m (srcLoop p (mocSweeper p m) base p.ng 0 s) ∧
      Near p m nAng n φ y (κ + (y - κ) * η) (srcLoop p (mocSweeper p m) base p.ng 0 s) (srcLoop p (mocSweeper p m) base p.ng 0 s') := by
  obtain ⟨b1, b2⟩ := (near_iff p m nAng n φ x y s s' hs hs').mp hb
  obtain ⟨e1, e2, e3⟩ := srcLoop_lin 1 (-1) p m (hm.linear 1 (-1)) base base p.ng 0 s s' hs hs'
  obtain ⟨e4, -, -⟩ := srcLoop_lin 1 (-1) p m (hm.linear 1 (-1)) base base p.ng 0 s' s hs' hs
  refine ⟨e2, (near_iff p m nAng n φ _ _ _ _ e2 e3).mpr ?_⟩
  rw [← e1, ← e4]
  have hz : ∀ z ∈ p.rs, ∀ i ∈ z.regs, ∀ g < p.ng, ((1 : K) • base g + (-1 : K) • base g) i + x * ∑ h ∈ Finset.range p.ng, z.mat.sc g h * φ h ≤ κ * (z.mat.tr g * φ g) := by
    intro z hz i _ g hg
    have := hsc z hz g hg
    simp only [Pi.add_apply, Pi.smul_apply, smul_eq_mul]
    linarith
  exact ⟨(step_below p h m nAng n hm η hη φ hφ x y κ h0 hκ hyx _ hz _ (planesAt_lin 1 (-1) m s s' hs hs') b1).2,
    (step_below p h m nAng n hm η hη φ hφ x y κ h0 hκ hyx _ hz _ (planesAt_lin 1 (-1) m s' s hs' hs) b2).2⟩

/-- Scattering takes away a part `1 - ρ` of the collisions of fluxes `φ` in every material, and every ray and every face leaves at most the part `η`. -/
structure Subcritical (p : Problem K) (m : MocSetup K) (nAng : Nat) (n : Nat → Nat) (φ : Nat → K) (ρ η : K) : Prop where
  phi : ∀ g < p.ng, 0 < φ g
  rho : 0 ≤ ρ ∧ ρ < 1
  eta : 0 ≤ η ∧ η < 1
  scatter : ∀ z ∈ p.rs, ∀ g < p.ng, ∑ h ∈ Finset.range p.ng, z.mat.sc g h * φ h ≤ ρ * (z.mat.tr g * φ g)
  drains : Drains nAng n m.u
  rays : ∀ g < p.ng, ∀ w ∈ m.planes, Attenuates η m.expo (trOf p.rs g) w

/-- The factor of two steps. -/
def rate (ρ η : K) : K := ρ + (1 - ρ) * η

theorem rate_lt (ρ η : K) (h1 : 0 ≤ ρ) (h2 : ρ < 1) (h3 : 0 ≤ η) (h4 : η < 1) : ρ ≤ rate ρ η ∧ 0 ≤ rate ρ η ∧ rate ρ η < 1 := by
  unfold rate
  have h5 := mul_nonneg (sub_nonneg.mpr h2.le) h3
  have h6 := mul_lt_mul_of_pos_left h4 (sub_pos.mpr h2)
  refine ⟨by linarith, by linarith, by linarith⟩

theorem one_near (p : Problem K) (h : Physical p) (m : MocSetup K) (nAng : Nat) (n : Nat → Nat) (hm : MocBoundOk p m nAng n) (φ : Nat → K) (ρ η : K)
    (hs : Subcritical p m nAng n φ ρ η) (c : K) (hc : 0 ≤ c) (base : Nat → Nat → K) (s s' : MocState K) (h1 : PlanesAt m s) (h2 : PlanesAt m s')
    (hb : Near p m nAng n φ c c s s') :
    PlanesAt m (srcLoop p (mocSweeper p m) base p.ng 0 s) ∧
      Near p m nAng n φ c (c * rate ρ η) (srcLoop p (mocSweeper p m) base p.ng 0 s) (srcLoop p (mocSweeper p m) base p.ng 0 s') := by
  have := step_near p h m nAng n hm η (Or.inr ⟨hs.eta.1, hs.eta.2.le, hs.drains, hs.rays⟩) φ (fun g hg => (hs.phi g hg).le) c c (c * ρ) (mul_nonneg hc hs.rho.1)
    (by have := mul_le_mul_of_nonneg_left hs.rho.2.le hc; linarith) (le_refl _)
    (fun z hz g hg => by have := mul_le_mul_of_nonneg_left (hs.scatter z hz g hg) hc; rw [mul_assoc]; exact this) base s s' h1 h2 hb
  rw [show c * ρ + (c - c * ρ) * η = c * rate ρ η by unfold rate; ring] at this
  exact this

/-- C113: two steps with the same source bring any two states nearer by the factor `ρ + (1 - ρ) η`. -/
theorem two_near (p : Problem K) (h : Physical p) (m : MocSetup K) (nAng : Nat) (n : Nat → Nat) (hm : MocBoundOk p m nAng n) (φ : Nat → K) (ρ η : K)
    (hs : Subcritical p m nAng n φ ρ η) (c : K) (hc : 0 ≤ c) (base : Nat → Nat → K) (s s' : MocState K) (h1 : PlanesAt m s) (h2 : PlanesAt m s')
    (hb : Near p m nAng n φ c c s s') :
    Near p m nAng n φ (c * rate ρ η) (c * rate ρ η) ((srcLoop p (mocSweeper p m) base p.ng 0)^[2] s) ((srcLoop p (mocSweeper p m) base p.ng 0)^[2] s') := by
  obtain ⟨r1, r2, r3⟩ := rate_lt ρ η hs.rho.1 hs.rho.2 hs.eta.1 hs.eta.2
  obtain ⟨a1, a2⟩ := one_near p h m nAng n hm φ ρ η hs c hc base s s' h1 h2 hb
  obtain ⟨a3, -⟩ := one_near p h m nAng n hm φ ρ η hs c hc base s' s h2 h1 (near_symm _ _ _ _ _ _ _ _ _ hb)
  have hcr : c * rate ρ η ≤ c := by have := mul_le_mul_of_nonneg_left r3.le hc; linarith
  have := (step_near p h m nAng n hm η (Or.inr ⟨hs.eta.1, hs.eta.2.le, hs.drains, hs.rays⟩) φ (fun g hg => (hs.phi g hg).le) c (c * rate ρ η) (c * ρ)
    (mul_nonneg hc hs.rho.1) (mul_le_mul_of_nonneg_left r1 hc) hcr
    (fun z hz g hg => by have := mul_le_mul_of_nonneg_left (hs.scatter z hz g hg) hc; rw [mul_assoc]; exact this) base _ _ a1 a3 a2).2
  refine near_mono p m nAng n φ (fun g hg => (hs.phi g hg).le) hm.fpi _ _ _ _ (le_refl _) ?_ _ _ this
  have h3 : (c * rate ρ η - c * ρ) * η ≤ (c * rate ρ η - c * ρ) * 1 :=
    mul_le_mul_of_nonneg_left hs.eta.2.le (sub_nonneg.mpr (mul_le_mul_of_nonneg_left r1 hc))
  linarith

theorem planes_iter (p : Problem K) (m : MocSetup K) (hlin : ∀ α β, Combines α β m.u m.u m.u) (base : Nat → Nat → K) (N : Nat) (s : MocState K) (h : PlanesAt m s) :
    PlanesAt m ((srcLoop p (mocSweeper p m) base p.ng 0)^[N] s) := by
  induction N generalizing s with
  | zero => exact h
  | succ N ih => exact ih _ (srcLoop_lin 1 (-1) p m (hlin 1 (-1)) base base p.ng 0 s s h h).2.1

theorem iter_near (p : Problem K) (h : Physical p) (m : MocSetup K) (nAng : Nat) (n : Nat → Nat) (hm : MocBoundOk p m nAng n) (φ : Nat → K) (ρ η : K)
    (hs : Subcritical p m nAng n φ ρ η) (c : K) (hc : 0 ≤ c) (base : Nat → Nat → K) (N : Nat) (s s' : MocState K) (h1 : PlanesAt m s) (h2 : PlanesAt m s')
    (hb : Near p m nAng n φ c c s s') :
    Near p m nAng n φ (c * rate ρ η ^ (N / 2)) (c * rate ρ η ^ (N / 2)) ((srcLoop p (mocSweeper p m) base p.ng 0)^[N] s) ((srcLoop p (mocSweeper p m) base p.ng 0)^[N] s') := by
  obtain ⟨r1, r2, r3⟩ := rate_lt ρ η hs.rho.1 hs.rho.2 hs.eta.1 hs.eta.2
  induction N using Nat.twoStepInduction generalizing s s' c with
  | zero => simpa using hb
  | one =>
    have := (one_near p h m nAng n hm φ ρ η hs c hc base s s' h1 h2 hb).2
    refine near_mono p m nAng n φ (fun g hg => (hs.phi g hg).le) hm.fpi _ _ _ _ (by simp) ?_ _ _ this
    have := mul_le_mul_of_nonneg_left r3.le hc
    simpa using this
  | more N ih _ =>
    have := ih (c * rate ρ η) (mul_nonneg hc r2) _ _ (planes_iter p m hm.linear base 2 s h1) (planes_iter p m hm.linear base 2 s' h2)
      (two_near p h m nAng n hm φ ρ η hs c hc base s s' h1 h2 hb)
    rw [← Function.iterate_add_apply, ← Function.iterate_add_apply] at this
    rw [show (N + 2) / 2 = N / 2 + 1 by omega, pow_succ, show c * (rate ρ η ^ (N / 2) * rate ρ η) = c * rate ρ η * rate ρ η ^ (N / 2) by ring]
    exact this

/-- C113, contraction: `N` steps of the fixed-source solver with the same external source from two states whose difference is at most `c` times `φ`. -/
theorem C113_contract (p : Problem K) (h : Physical p) (m : MocSetup K) (nAng : Nat) (n : Nat → Nat) (hm : MocBoundOk p m nAng n) (φ : Nat → K) (ρ η : K)
    (hs : Subcritical p m nAng n φ ρ η) (ext : Option (Ext K)) (S : Nat → Nat → K) (hS : ∀ g < p.ng, initializeGroup p.nReg ext g = some (S g)) (c : K) (hc : 0 ≤ c)
    (N : Nat) (s s' : MocState K) (h1 : PlanesAt m s) (h2 : PlanesAt m s') (hb : Near p m nAng n φ c c s s') :
    ∃ t t', fixedSteps p (mocSweeper p m) ext N s = some t ∧ fixedSteps p (mocSweeper p m) ext N s' = some t' ∧
      Near p m nAng n φ (c * (ρ + (1 - ρ) * η) ^ (N / 2)) (c * (ρ + (1 - ρ) * η) ^ (N / 2)) t t' :=
  ⟨_, _, fixedSteps_eq p _ ext S hS N s, fixedSteps_eq p _ ext S hS N s', iter_near p h m nAng n hm φ ρ η hs c hc S N s s' h1 h2 hb⟩

/-- Some multiple of `φ` is a bound on the difference of two states. -/
theorem near_some (p : Problem K) (m : MocSetup K) (nAng : Nat) (n : Nat → Nat) (φ : Nat → K) (hφ : ∀ g < p.ng, 0 < φ g) (hfpi : 0 < m.fpi) (s s' : MocState K) :
    ∃ c, 0 ≤ c ∧ Near p m nAng n φ c c s s' := by
  have key : ∀ (M : Nat) (f : Nat → K), ∃ c, 0 ≤ c ∧ ∀ i < M, f i ≤ c := by
    intro M f
    induction M with
    | zero => exact ⟨0, le_refl _, by simp⟩
    | succ M ih =>
      obtain ⟨c, h0, h1⟩ := ih
      refine ⟨max c (f M), h0.trans (le_max_left _ _), fun i hi => ?_⟩
      by_cases e : i = M
      · rw [e]; exact le_max_right _ _
      · exact (h1 i (by omega)).trans (le_max_left _ _)
  choose cf hcf0 hcf using fun g => key p.nReg fun i => |s.flux i g - s'.flux i g| / φ g
  obtain ⟨c1, h10, h1⟩ := key p.ng cf
  choose cj hcj0 hcj using fun g z a => key (n a) fun j => |incoming s g z a j - incoming s' g z a j| / (φ g / m.fpi)
  choose ca hca0 hca using fun g z => key nAng (cj g z)
  choose cz hcz0 hcz using fun g => key m.planes.length (ca g)
  obtain ⟨c2, h20, h2⟩ := key p.ng cz
  refine ⟨max c1 c2, h10.trans (le_max_left _ _), fun i hi g hg => ?_, fun g hg z hz a ha j hj => ?_⟩
  · rw [← div_le_iff₀ (hφ g hg)]
    exact (hcf g i hi).trans ((h1 g hg).trans (le_max_left _ _))
  · have : 0 < φ g / m.fpi := div_pos (hφ g hg) hfpi
    rw [mul_div_assoc, ← div_le_iff₀ this]
    exact (hcj g z a j hj).trans ((hca g z a ha).trans ((hcz g z hz).trans ((h2 g hg).trans (le_max_right _ _))))

/-- The same flux and the same incoming values. -/
def Same (p : Problem K) (m : MocSetup K) (nAng : Nat) (n : Nat → Nat) (s s' : MocState K) : Prop :=
  (∀ i < p.nReg, ∀ g < p.ng, s.flux i g = s'.flux i g) ∧ ∀ g < p.ng, ∀ z < m.planes.length, ∀ a < nAng, ∀ j < n a, incoming s g z a j = incoming s' g z a j

theorem same_near (p : Problem K) (m : MocSetup K) (nAng : Nat) (n : Nat → Nat) (φ : Nat → K) (s s' : MocState K) :
    Same p m nAng n s s' ↔ Near p m nAng n φ 0 0 s s' := by
  constructor
  · rintro ⟨h1, h2⟩
    exact ⟨fun i hi g hg => by rw [h1 i hi g hg]; simp, fun g hg z hz a ha j hj => by rw [h2 g hg z hz a ha j hj]; simp⟩
  · rintro ⟨h1, h2⟩
    refine ⟨fun i hi g hg => ?_, fun g hg z hz a ha j hj => ?_⟩
    · have := h1 i hi g hg
      rw [zero_mul] at this
      exact sub_eq_zero.mp (abs_eq_zero.mp (le_antisymm this (abs_nonneg _)))
    · have := h2 g hg z hz a ha j hj
      rw [zero_mul, zero_div] at this
      exact sub_eq_zero.mp (abs_eq_zero.mp (le_antisymm this (abs_nonneg _)))

theorem same_of_small [Archimedean K] (p : Problem K) (m : MocSetup K) (nAng : Nat) (n : Nat → Nat) (φ : Nat → K) (c θ : K) (h0 : 0 ≤ θ) (h1 : θ < 1) (s s' : MocState K)
    (h : ∀ N : Nat, Near p m nAng n φ (c * θ ^ N) (c * θ ^ N) s s') : Same p m nAng n s s' := by
  have key : ∀ d v : K, (∀ N : Nat, |d| ≤ θ ^ N * v) → d = 0 := by
    intro d v hd
    by_contra hne
    have hpos : 0 < |d| := abs_pos.mpr hne
    have hv : 0 < v := by
      have := hd 0
      rw [pow_zero, one_mul] at this
      linarith
    obtain ⟨N, hN⟩ := exists_pow_lt_of_lt_one (div_pos hpos hv) h1
    rw [lt_div_iff₀ hv] at hN
    exact absurd (hd N) (not_le.mpr hN)
  refine ⟨fun i hi g hg => sub_eq_zero.mp (key _ (c * φ g) fun N => ?_), fun g hg z hz a ha j hj => sub_eq_zero.mp (key _ (c * φ g / m.fpi) fun N => ?_)⟩
  · have := (h N).flux i hi g hg
    rwa [show c * θ ^ N * φ g = θ ^ N * (c * φ g) by ring] at this
  · have := (h N).bin g hg z hz a ha j hj
    rwa [show c * θ ^ N * φ g / m.fpi = θ ^ N * (c * φ g / m.fpi) by ring] at this

/-- C113, uniqueness: two states that a step of the fixed-source solver leaves as they are have the same flux and incoming values. -/
theorem C113_unique [Archimedean K] (p : Problem K) (h : Physical p) (m : MocSetup K) (nAng : Nat) (n : Nat → Nat) (hm : MocBoundOk p m nAng n) (φ : Nat → K) (ρ η : K)
    (hs : Subcritical p m nAng n φ ρ η) (ext : Option (Ext K)) (S : Nat → Nat → K) (hS : ∀ g < p.ng, initializeGroup p.nReg ext g = some (S g))
    (s s' t t' : MocState K) (h1 : PlanesAt m s) (h2 : PlanesAt m s') (e1 : fixedSteps p (mocSweeper p m) ext 1 s = some t)
    (e2 : fixedSteps p (mocSweeper p m) ext 1 s' = some t') (f1 : Same p m nAng n t s) (f2 : Same p m nAng n t' s') : Same p m nAng n s s' := by
  rw [fixedSteps_eq p _ ext S hS] at e1 e2
  injection e1 with e1
  injection e2 with e2
  obtain ⟨r1, r2, r3⟩ := rate_lt ρ η hs.rho.1 hs.rho.2 hs.eta.1 hs.eta.2
  have stay : ∀ s t : MocState K, PlanesAt m s → (srcLoop p (mocSweeper p m) S p.ng 0)^[1] s = t → Same p m nAng n t s → ∀ N,
      Near p m nAng n φ 0 0 ((srcLoop p (mocSweeper p m) S p.ng 0)^[N] s) s := by
    intro s t hp he hsame N
    subst he
    induction N with
    | zero => exact ⟨fun i hi g hg => by simp, fun g hg z hz a ha j hj => by simp⟩
    | succ N ih =>
      have := (one_near p h m nAng n hm φ ρ η hs 0 (le_refl _) S _ _ (planes_iter p m hm.linear S N s hp) hp ih).2
      rw [zero_mul] at this
      have := near_trans _ _ _ _ _ _ _ _ _ _ _ _ this ((same_near p m nAng n φ _ _).mp hsame)
      rw [add_zero, ← Function.iterate_succ_apply' (srcLoop p (mocSweeper p m) S p.ng 0)] at this
      exact this
  obtain ⟨c, hc, hn⟩ := near_some p m nAng n φ hs.phi hm.fpi s s'
  refine same_of_small p m nAng n φ c (rate ρ η) r2 r3 s s' fun N => ?_
  have a := iter_near p h m nAng n hm φ ρ η hs c hc S (2 * N) s s' h1 h2 hn
  rw [show 2 * N / 2 = N by omega] at a
  have := near_trans _ _ _ _ _ _ _ _ _ _ _ _ (near_trans _ _ _ _ _ _ _ _ _ _ _ _ (near_symm _ _ _ _ _ _ _ _ _ (stay s t h1 e1 f1 (2 * N))) a) (stay s' t' h2 e2 f2 (2 * N))
  rwa [zero_add, add_zero] at this

end

/-! ### Convergence in the reals -/

/-- C113, convergence: there is a state that a step of the fixed-source solver leaves as it is, and the iteration from any start tends to it geometrically, with the
factor `ρ + (1 - ρ) η` in two steps. -/
theorem C113_converges (p : Problem ℝ) (h : Physical p) (m : MocSetup ℝ) (nAng : Nat) (n : Nat → Nat) (hm : MocBoundOk p m nAng n) (φ : Nat → ℝ) (ρ η : ℝ)
    (hs : Subcritical p m nAng n φ ρ η) (ext : Option (Ext ℝ)) (S : Nat → Nat → ℝ) (hS : ∀ g < p.ng, initializeGroup p.nReg ext g = some (S g)) :
    ∃ s t : MocState ℝ, PlanesAt m s ∧ fixedSteps p (mocSweeper p m) ext 1 s = some t ∧ Same p m nAng n t s ∧
      ∀ s₀, PlanesAt m s₀ → ∃ c, ∀ N, ∃ t, fixedSteps p (mocSweeper p m) ext N s₀ = some t ∧
        Near p m nAng n φ (c * (ρ + (1 - ρ) * η) ^ (N / 2)) (c * (ρ + (1 - ρ) * η) ^ (N / 2)) t s := by
  obtain ⟨r1, r2, r3⟩ := rate_lt ρ η hs.rho.1 hs.rho.2 hs.eta.1 hs.eta.2
  set T := srcLoop p (mocSweeper p m) S p.ng 0 with hT
  set θ := rate ρ η with hθ
  let o : MocState ℝ := ⟨fun _ _ => 0, fun _ => 0, fun _ => List.replicate m.planes.length 0, List.replicate m.planes.length 0⟩
  have ho : PlanesAt m o := ⟨fun _ => by simp [o], by simp [o]⟩
  have hpl := planes_iter p m hm.linear S
  -- the first two differences
  obtain ⟨c1, hc1, n1⟩ := near_some p m nAng n φ hs.phi hm.fpi (T^[1] o) o
  obtain ⟨c2, hc2, n2⟩ := near_some p m nAng n φ hs.phi hm.fpi (T^[2] o) o
  have d1 : ∀ k, Near p m nAng n φ (c1 * θ ^ k) (c1 * θ ^ k) (T^[2 * k + 1] o) (T^[2 * k] o) := by
    intro k
    have := iter_near p h m nAng n hm φ ρ η hs c1 hc1 S (2 * k) _ o (hpl 1 o ho) ho n1
    rwa [show 2 * k / 2 = k by omega, ← Function.iterate_add_apply] at this
  have d2 : ∀ k, Near p m nAng n φ (c2 * θ ^ k) (c2 * θ ^ k) (T^[2 * (k + 1)] o) (T^[2 * k] o) := by
    intro k
    have := iter_near p h m nAng n hm φ ρ η hs c2 hc2 S (2 * k) _ o (hpl 2 o ho) ho n2
    rwa [show 2 * k / 2 = k by omega, ← Function.iterate_add_apply] at this
  -- limits
  have lim : ∀ (f : Nat → ℝ) (C : ℝ), (∀ k, |f (k + 1) - f k| ≤ C * θ ^ k) → ∃ a, ∀ k, |f k - a| ≤ C * θ ^ k / (1 - θ) := by
    intro f C hf
    have hf' : ∀ k, dist (f k) (f (k + 1)) ≤ C * θ ^ k := fun k => by rw [dist_comm, Real.dist_eq]; exact hf k
    obtain ⟨a, ha⟩ := cauchySeq_tendsto_of_complete (cauchySeq_of_le_geometric θ C r3 hf')
    exact ⟨a, fun k => by rw [← Real.dist_eq]; exact dist_le_of_le_geometric_of_tendsto θ C r3 hf' ha k⟩
  choose fl hfl using fun i g => show ∃ a, (i < p.nReg → g < p.ng → ∀ k, |(T^[2 * k] o).flux i g - a| ≤ c2 * φ g * θ ^ k / (1 - θ)) by
    by_cases hh : i < p.nReg ∧ g < p.ng
    · obtain ⟨a, ha⟩ := lim (fun k => (T^[2 * k] o).flux i g) (c2 * φ g) fun k => by
        have := (d2 k).flux i hh.1 g hh.2
        rwa [show c2 * θ ^ k * φ g = c2 * φ g * θ ^ k by ring] at this
      exact ⟨a, fun _ _ => ha⟩
    · exact ⟨0, fun h1 h2 => absurd ⟨h1, h2⟩ hh⟩
  choose bi hbi using fun g z a j => show ∃ v, (g < p.ng → z < m.planes.length → a < nAng → j < n a → ∀ k, |incoming (T^[2 * k] o) g z a j - v| ≤ c2 * φ g / m.fpi * θ ^ k / (1 - θ)) by
    by_cases hh : g < p.ng ∧ z < m.planes.length ∧ a < nAng ∧ j < n a
    · obtain ⟨v, hv⟩ := lim (fun k => incoming (T^[2 * k] o) g z a j) (c2 * φ g / m.fpi) fun k => by
        have := (d2 k).bin g hh.1 z hh.2.1 a hh.2.2.1 j hh.2.2.2
        rwa [show c2 * θ ^ k * φ g / m.fpi = c2 * φ g / m.fpi * θ ^ k by ring] at this
      exact ⟨v, fun _ _ _ _ => hv⟩
    · exact ⟨0, fun h1 h2 h3 h4 => absurd ⟨h1, h2, h3, h4⟩ hh⟩
  let s : MocState ℝ := ⟨fl, fun _ => 0, fun g => (List.range m.planes.length).map (bi g), List.replicate m.planes.length 0⟩
  have hps : PlanesAt m s := ⟨fun _ => by simp [s], by simp [s]⟩
  have hin : ∀ g, ∀ z < m.planes.length, incoming s g z = bi g z := by
    intro g z hz
    funext a j
    simp [incoming, s, List.getD, hz]
  have h1θ : 0 < 1 - θ := sub_pos.mpr r3
  set c3 := c2 / (1 - θ) with hc3
  have hc30 : 0 ≤ c3 := div_nonneg hc2 h1θ.le
  have d3 : ∀ k, Near p m nAng n φ (c3 * θ ^ k) (c3 * θ ^ k) (T^[2 * k] o) s := by
    intro k
    refine ⟨fun i hi g hg => (hfl i g hi hg k).trans_eq (by rw [hc3]; ring), fun g hg z hz a ha j hj => ?_⟩
    rw [hin g z hz]
    exact (hbi g z a j hg hz ha hj k).trans_eq (by rw [hc3]; ring)
  have hnn : ∀ g < p.ng, 0 ≤ φ g := fun g hg => (hs.phi g hg).le
  have fix : Same p m nAng n (T^[1] s) s := by
    refine same_of_small p m nAng n φ (c3 + c1 + c3) θ r2 r3 _ _ fun k => ?_
    have hk : 0 ≤ c3 * θ ^ k := mul_nonneg hc30 (pow_nonneg r2 k)
    have a1 := (one_near p h m nAng n hm φ ρ η hs _ hk S _ _ hps (hpl (2 * k) o ho) (near_symm _ _ _ _ _ _ _ _ _ (d3 k))).2
    have a1' := near_mono p m nAng n φ hnn hm.fpi _ _ (c3 * θ ^ k) (c3 * θ ^ k) (le_refl _) (by have := mul_le_mul_of_nonneg_left r3.le hk; linarith) _ _ a1
    rw [← hT, ← Function.iterate_succ_apply' T] at a1'
    have := near_trans _ _ _ _ _ _ _ _ _ _ _ _ (near_trans _ _ _ _ _ _ _ _ _ _ _ _ a1' (d1 k)) (d3 k)
    rw [show (c3 + c1 + c3) * θ ^ k = c3 * θ ^ k + c1 * θ ^ k + c3 * θ ^ k by ring]
    exact this
  refine ⟨s, T^[1] s, hps, fixedSteps_eq p _ ext S hS 1 s, fix, fun s₀ hs₀ => ?_⟩
  obtain ⟨c, hc, hn⟩ := near_some p m nAng n φ hs.phi hm.fpi s₀ s
  refine ⟨c, fun N => ⟨T^[N] s₀, fixedSteps_eq p _ ext S hS N s₀, ?_⟩⟩
  have stay : ∀ N, Near p m nAng n φ 0 0 (T^[N] s) s := by
    intro N
    induction N with
    | zero => exact ⟨fun i hi g hg => by simp, fun g hg z hz a ha j hj => by simp⟩
    | succ N ih =>
      have := (one_near p h m nAng n hm φ ρ η hs 0 (le_refl _) S _ _ (hpl N s hps) hps ih).2
      rw [zero_mul] at this
      have := near_trans _ _ _ _ _ _ _ _ _ _ _ _ this ((same_near p m nAng n φ _ _).mp fix)
      rw [add_zero, ← hT, ← Function.iterate_succ_apply' T] at this
      exact this
  have := near_trans _ _ _ _ _ _ _ _ _ _ _ _ (iter_near p h m nAng n hm φ ρ η hs c hc S N s₀ s hs₀ hps hn) (stay N)
  rwa [add_zero] at this

end Verif.Medium
