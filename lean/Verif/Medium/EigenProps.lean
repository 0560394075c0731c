import Verif.Medium.MonotoneProps
import Verif.Medium.ContractProps
import Verif.Medium.DrainProps
import Mathlib.Data.Finset.Max
import Mathlib.Data.Finset.Prod
import Mathlib.Tactic.Linarith
import Mathlib.Tactic.FieldSimp
import Mathlib.Tactic.Ring

/-!
# C119: the eigenvalue of a converged MoC solution
-/

set_option linter.unusedSectionVars false

namespace Verif.Medium

open Verif.XS Verif.Source

section
variable {K : Type} [Field K] [LinearOrder K] [IsStrictOrderedRing K]

/-- The problem with other materials in the same regions. -/
def Problem.exchange (p : Problem K) (f : Mat K → Mat K) : Problem K := { p with rs := p.rs.map fun x => ⟨f x.mat, x.regs⟩ }

/-- The exchanged materials have the same transport cross sections, and no less fission, fission spectrum and scattering. -/
structure Raises (p : Problem K) (f : Mat K → Mat K) : Prop where
  tr : ∀ x ∈ p.rs, ∀ g < p.ng, (f x.mat).tr g = x.mat.tr g
  nf : ∀ x ∈ p.rs, ∀ g < p.ng, x.mat.nf g ≤ (f x.mat).nf g
  ch : ∀ x ∈ p.rs, ∀ g < p.ng, x.mat.ch g ≤ (f x.mat).ch g
  sc : ∀ x ∈ p.rs, ∀ g < p.ng, ∀ h < p.ng, x.mat.sc g h ≤ (f x.mat).sc g h

theorem partition_map (rs : List (XsRegion (Mat K))) (hp : Partition rs) (f : Mat K → Mat K) : Partition (rs.map fun x => (⟨f x.mat, x.regs⟩ : XsRegion (Mat K))) := by
  refine ⟨fun x hx => ?_, ?_⟩
  · obtain ⟨y, hy, rfl⟩ := List.mem_map.mp hx
    exact hp.1 y hy
  · rw [List.pairwise_map]
    exact hp.2

theorem exchange_physical (p : Problem K) (h : Physical p) (f : Mat K → Mat K) (hf : Raises p f) : Physical (p.exchange f) where
  part := partition_map p.rs h.part f
  cover i := by
    rw [show (p.exchange f).nReg = p.nReg from rfl, h.cover]
    simp [Problem.exchange]
  sc x hx := by
    obtain ⟨y, hy, rfl⟩ := List.mem_map.mp hx
    intro a b ha hb
    exact (h.sc y hy a b ha hb).trans (hf.sc y hy a ha b hb)
  nf x hx g hg := by
    obtain ⟨y, hy, rfl⟩ := List.mem_map.mp hx
    exact (h.nf y hy g hg).trans (hf.nf y hy g hg)
  ch x hx g hg := by
    obtain ⟨y, hy, rfl⟩ := List.mem_map.mp hx
    exact (h.ch y hy g hg).trans (hf.ch y hy g hg)
  tr x hx g hg := by
    obtain ⟨y, hy, rfl⟩ := List.mem_map.mp hx
    show 0 < (f y.mat).tr g
    rw [hf.tr y hy g hg]
    exact h.tr y hy g hg
  vol := h.vol

theorem foldl_set_out (rs : List (XsRegion (Mat K))) (F : XsRegion (Mat K) → Nat → K) (a : Nat → K) (i : Nat) (hi : ∀ x ∈ rs, i ∉ x.regs) :
    rs.foldl (fun a x => setTo x.regs (F x) a) a i = a i := by
  induction rs generalizing a with
  | nil => rfl
  | cons x l ih =>
    rw [List.foldl_cons, ih _ fun y hy => hi y (List.mem_cons_of_mem _ hy), setTo_eq, if_neg (hi x (List.mem_cons_self ..))]

theorem trOf_exchange (p : Problem K) (h : Physical p) (f : Mat K → Mat K) (hf : Raises p f) (g : Nat) (hg : g < p.ng) : trOf (p.exchange f).rs g = trOf p.rs g := by
  funext i
  by_cases hi : i < p.nReg
  · obtain ⟨x, hx, hxi⟩ := (h.cover i).mp hi
    rw [trOf_at p.rs h.part g x hx i hxi, trOf_at (p.exchange f).rs (partition_map p.rs h.part f) g ⟨f x.mat, x.regs⟩ (List.mem_map.mpr ⟨x, hx, rfl⟩) i hxi]
    exact hf.tr x hx g hg
  · have ho : ∀ x ∈ p.rs, i ∉ x.regs := fun x hx hxi => hi ((h.cover i).mpr ⟨x, hx, hxi⟩)
    unfold trOf
    rw [foldl_set_out p.rs _ _ i ho, foldl_set_out (p.exchange f).rs _ _ i]
    intro x hx
    obtain ⟨y, hy, rfl⟩ := List.mem_map.mp hx
    exact ho y hy

/-- A sweep with the exchanged materials is one with the materials of before and a larger source. -/
theorem inner_exchange (p : Problem K) (h : Physical p) (m : MocSetup K) (hfpi : 0 < m.fpi) (f : Mat K → Mat K) (hf : Raises p f) (g : Nat) (hg : g < p.ng)
    (src : Nat → K) (s : MocState K) (hs : PosFlux p s.flux) :
    ∃ src', (∀ i < p.nReg, src i ≤ src' i) ∧ mocInner (p.exchange f) m g src s = mocInner p m g src' s := by
  have hp := partition_map p.rs h.part f
  have hd := partition_map p.rs h.part fun y => { y with tr := fun g => (f y).sc g g - y.sc g g }
  set D := p.rs.map fun x => (⟨{ x.mat with tr := fun g => (f x.mat).sc g g - x.mat.sc g g }, x.regs⟩ : XsRegion (Mat K)) with hD
  have hat : ∀ x ∈ p.rs, ∀ i ∈ x.regs, trOf D g i = (f x.mat).sc g g - x.mat.sc g g := by
    intro x hx i hxi
    exact trOf_at D hd g ⟨{ x.mat with tr := fun g => (f x.mat).sc g g - x.mat.sc g g }, x.regs⟩ (List.mem_map.mpr ⟨x, hx, rfl⟩) i hxi
  refine ⟨fun i => src i + s.flux i g * trOf D g i, fun i hi => ?_, ?_⟩
  · obtain ⟨x, hx, hxi⟩ := (h.cover i).mp hi
    show src i ≤ src i + s.flux i g * trOf D g i
    rw [hat x hx i hxi]
    have := mul_nonneg (hs i hi g hg) (sub_nonneg.mpr (hf.sc x hx g hg g hg))
    linarith
  · have hq : selfScatter m.fpi (p.exchange f).ng (p.exchange f).rs s.flux g src true s.q =
        selfScatter m.fpi p.ng p.rs s.flux g (fun i => src i + s.flux i g * trOf D g i) true s.q := by
      funext i
      by_cases hi : i < p.nReg
      · obtain ⟨x, hx, hxi⟩ := (h.cover i).mp hi
        rw [selfScatter_at m.fpi p.ng p.rs h.part s.flux g hg _ true s.q x hx i hxi, hat x hx i hxi,
          selfScatter_at m.fpi (p.exchange f).ng (p.exchange f).rs hp s.flux g hg _ true s.q ⟨f x.mat, x.regs⟩ (List.mem_map.mpr ⟨x, hx, rfl⟩) i hxi]
        simp only [if_true]
        rw [hf.tr x hx g hg]
        ring
      · have ho : ∀ x ∈ p.rs, i ∉ x.regs := fun x hx hxi => hi ((h.cover i).mpr ⟨x, hx, hxi⟩)
        simp only [selfScatter, if_true]
        rw [foldl_set_out p.rs (fun x i => _) _ i ho, foldl_set_out (p.exchange f).rs (fun x i => _) _ i]
        intro x hx
        obtain ⟨y, hy, rfl⟩ := List.mem_map.mp hx
        exact ho y hy
    simp only [mocInner]
    rw [hq, trOf_exchange p h f hf g hg]
    rfl

theorem inner_mono (p : Problem K) (h : Physical p) (m : MocSetup K) (nAng : Nat) (n : Nat → Nat) (hm : MocPosOk p m nAng n) (hlin : ∀ α β, Combines α β m.u m.u m.u)
    (g : Nat) (hg : g < p.ng) (src src' : Nat → K) (hsrc : ∀ i < p.nReg, src i ≤ src' i) (s s' : MocState K) (hs : PlanesAt m s) (hs' : PlanesAt m s')
    (hle : MocLe p m nAng n s s') : MocLe p m nAng n (mocInner p m g src s) (mocInner p m g src' s') := by
  have e := inner_lin 1 (-1) p m m.u m.u m.u (hlin 1 (-1)) g src' src s' s hs' hs
  rw [mocLe_iff p m nAng n _ _ (inner_planes p m g src s hs) (inner_planes p m g src' s' hs')]
  have e' : mocLin 1 (-1) (mocInner p m g src' s') (mocInner p m g src s) = mocInner p m g ((1 : K) • src' + (-1 : K) • src) (mocLin 1 (-1) s' s) := e.symm
  rw [e']
  exact mocInner_pos p h m nAng n hm g hg _ (fun i hi => by
    have := hsrc i hi
    simp only [Pi.add_apply, Pi.smul_apply, smul_eq_mul]
    linarith) _ ((mocLe_iff p m nAng n s s' hs hs').mp hle)

theorem exchange_posOk (p : Problem K) (f : Mat K → Mat K) (m : MocSetup K) (nAng : Nat) (n : Nat → Nat) (hm : MocPosOk p m nAng n) : MocPosOk (p.exchange f) m nAng n :=
  ⟨hm.fpi, hm.expo, hm.planes, hm.update, hm.volume⟩

theorem mocLe_trans (p : Problem K) (m : MocSetup K) (nAng : Nat) (n : Nat → Nat) (s t u : MocState K) (h1 : MocLe p m nAng n s t) (h2 : MocLe p m nAng n t u) :
    MocLe p m nAng n s u :=
  ⟨fun i hi g hg => (h1.1 i hi g hg).trans (h2.1 i hi g hg), fun g hg z hz a ha j hj => (h1.2 g hg z hz a ha j hj).trans (h2.2 g hg z hz a ha j hj)⟩

theorem mocLe_refl (p : Problem K) (m : MocSetup K) (nAng : Nat) (n : Nat → Nat) (s : MocState K) : MocLe p m nAng n s s :=
  ⟨fun _ _ _ _ => le_refl _, fun _ _ _ _ _ _ _ _ => le_refl _⟩

theorem same_le (p : Problem K) (m : MocSetup K) (nAng : Nat) (n : Nat → Nat) (s t : MocState K) (h : Medium.Same p m nAng n s t) : MocLe p m nAng n s t :=
  ⟨fun i hi g hg => (h.1 i hi g hg).le, fun g hg z hz a ha j hj => (h.2 g hg z hz a ha j hj).le⟩

theorem sweep_exchange (p : Problem K) (h : Physical p) (m : MocSetup K) (nAng : Nat) (n : Nat → Nat) (hm : MocPosOk p m nAng n) (hlin : ∀ α β, Combines α β m.u m.u m.u)
    (f : Mat K → Mat K) (hf : Raises p f) (g : Nat) (hg : g < p.ng) (src src' : Nat → K) (hpos : ∀ i < p.nReg, 0 ≤ src' i) (hsrc : ∀ i < p.nReg, src i ≤ src' i)
    (s s' : MocState K) (hs : PlanesAt m s) (hs' : PlanesAt m s') (hp' : MocPos p m nAng n s') (hle : MocLe p m nAng n s s') :
    MocLe p m nAng n (mocSweep p m g src s) (mocSweep (p.exchange f) m g src' s') ∧ PlanesAt m (mocSweep p m g src s) ∧ PlanesAt m (mocSweep (p.exchange f) m g src' s') ∧
      MocPos p m nAng n (mocSweep (p.exchange f) m g src' s') := by
  unfold mocSweep
  induction m.nInner with
  | zero => exact ⟨hle, hs, hs', hp'⟩
  | succ N ih =>
    rw [List.range_succ, List.foldl_append, List.foldl_append]
    obtain ⟨h1, h2, h3, h4⟩ := ih
    simp only [List.foldl_cons, List.foldl_nil]
    refine ⟨?_, inner_planes p m g src _ h2, inner_planes (p.exchange f) m g src' _ h3, ?_⟩
    · obtain ⟨src2, k1, k2⟩ := inner_exchange p h m hm.fpi f hf g hg src' _ h4.flux
      rw [k2]
      exact inner_mono p h m nAng n hm hlin g hg src src2 (fun i hi => (hsrc i hi).trans (k1 i hi)) _ _ h2 h3 h1
    · have hp2 : MocPos (p.exchange f) m nAng n _ := ⟨h4.flux, h4.nin, h4.nout, h4.bin⟩
      have := mocInner_pos (p.exchange f) (exchange_physical p h f hf) m nAng n (exchange_posOk p f m nAng n hm) g hg src' hpos _ hp2
      exact ⟨this.flux, this.nin, this.nout, this.bin⟩

/-- A step with the exchanged materials, from a larger state and with a larger source. -/
theorem srcLoop_exchange (p : Problem K) (h : Physical p) (m : MocSetup K) (nAng : Nat) (n : Nat → Nat) (hm : MocPosOk p m nAng n)
    (hlin : ∀ α β, Combines α β m.u m.u m.u) (f : Mat K → Mat K) (hf : Raises p f) (base base' : Nat → Nat → K) (hpos : ∀ g < p.ng, ∀ i < p.nReg, 0 ≤ base' g i)
    (hbase : ∀ g < p.ng, ∀ i < p.nReg, base g i ≤ base' g i) (N g : Nat) (hN : g + N ≤ p.ng) (s s' : MocState K) (hs : PlanesAt m s) (hs' : PlanesAt m s')
    (hp' : MocPos p m nAng n s') (hle : MocLe p m nAng n s s') :
    MocLe p m nAng n (srcLoop p (mocSweeper p m) base N g s) (srcLoop (p.exchange f) (mocSweeper (p.exchange f) m) base' N g s') := by
  induction N generalizing g s s' with
  | zero => exact hle
  | succ N ih =>
    have hg : g < p.ng := by omega
    have hP := exchange_physical p h f hf
    have key : ∀ i < p.nReg, inScatter p.ng p.rs s.flux g (base g) i ≤ inScatter p.ng (p.exchange f).rs s'.flux g (base' g) i ∧
        0 ≤ inScatter p.ng (p.exchange f).rs s'.flux g (base' g) i := by
      intro i hi
      obtain ⟨x, hx, hxi⟩ := (h.cover i).mp hi
      rw [inScatter_at p.ng p.rs h.part _ g hg _ x hx i hxi (h.sc x hx),
        inScatter_at p.ng (p.exchange f).rs hP.part _ g hg _ ⟨f x.mat, x.regs⟩ (List.mem_map.mpr ⟨x, hx, rfl⟩) i hxi
          (hP.sc ⟨f x.mat, x.regs⟩ (List.mem_map.mpr ⟨x, hx, rfl⟩))]
      refine ⟨add_le_add (hbase g hg i hi) (Finset.sum_le_sum fun h' hh' => ?_), add_nonneg (hpos g hg i hi) (Finset.sum_nonneg fun h' hh' => ?_)⟩
      · have hh := Finset.mem_range.mp hh'
        split
        · exact (mul_le_mul_of_nonneg_left (hle.1 i hi h' hh) (h.sc x hx g h' hg hh)).trans (mul_le_mul_of_nonneg_right (hf.sc x hx g hg h' hh) (hp'.flux i hi h' hh))
        · exact le_refl _
      · have hh := Finset.mem_range.mp hh'
        split
        · exact mul_nonneg ((h.sc x hx g h' hg hh).trans (hf.sc x hx g hg h' hh)) (hp'.flux i hi h' hh)
        · exact le_refl _
    obtain ⟨h1, h2, h3, h4⟩ := sweep_exchange p h m nAng n hm hlin f hf g hg (inScatter p.ng p.rs s.flux g (base g)) (inScatter p.ng (p.exchange f).rs s'.flux g (base' g))
      (fun i hi => (key i hi).2) (fun i hi => (key i hi).1) s s' hs hs' hp' hle
    exact ih (g + 1) (by omega) _ _ h2 h3 h4 h1

/-- What a step leaves as it is stays so. -/
theorem iter_stay (p : Problem K) (h : Physical p) (m : MocSetup K) (nAng : Nat) (n : Nat → Nat) (hm : MocBoundOk p m nAng n) (φ : Nat → K) (ρ η : K)
    (hs : Subcritical p m nAng n φ ρ η) (S : Nat → Nat → K) (s : MocState K) (hp : PlanesAt m s)
    (hsame : Medium.Same p m nAng n (srcLoop p (mocSweeper p m) S p.ng 0 s) s) (N : Nat) :
    Near p m nAng n φ 0 0 ((srcLoop p (mocSweeper p m) S p.ng 0)^[N] s) s := by
  induction N with
  | zero => exact ⟨fun i hi g hg => by simp, fun g hg z hz a ha j hj => by simp⟩
  | succ N ih =>
    have := (one_near p h m nAng n hm φ ρ η hs 0 (le_refl _) S _ _ (planes_iter p m hm.linear S N s hp) hp ih).2
    rw [zero_mul] at this
    have := near_trans _ _ _ _ _ _ _ _ _ _ _ _ this ((same_near p m nAng n φ _ _).mp hsame)
    rw [add_zero, ← Function.iterate_succ_apply' (srcLoop p (mocSweeper p m) S p.ng 0)] at this
    exact this

/-- C119, comparison: a state that a step with given sources makes no larger is at least the state that the step leaves as it is. -/
theorem super_le [Archimedean K] (p : Problem K) (h : Physical p) (m : MocSetup K) (nAng : Nat) (n : Nat → Nat) (hm : MocBoundOk p m nAng n) (φ : Nat → K) (ρ η : K)
    (hs : Subcritical p m nAng n φ ρ η) (S : Nat → Nat → K) (s s' : MocState K) (h1 : PlanesAt m s) (h2 : PlanesAt m s')
    (hfix : Medium.Same p m nAng n (srcLoop p (mocSweeper p m) S p.ng 0 s) s) (hsup : MocLe p m nAng n (srcLoop p (mocSweeper p m) S p.ng 0 s') s') :
    ∀ i < p.nReg, ∀ g < p.ng, s.flux i g ≤ s'.flux i g := by
  obtain ⟨r1, r2, r3⟩ := rate_lt ρ η hs.rho.1 hs.rho.2 hs.eta.1 hs.eta.2
  obtain ⟨c, hc, hn⟩ := near_some p m nAng n φ hs.phi hm.fpi s s'
  have down : ∀ N, MocLe p m nAng n ((srcLoop p (mocSweeper p m) S p.ng 0)^[N] s') s' := by
    intro N
    induction N with
    | zero => exact mocLe_refl ..
    | succ N ih =>
      rw [Function.iterate_succ_apply']
      exact mocLe_trans _ _ _ _ _ _ _ (srcLoop_mono p h m nAng n hm.toMocPosOk hm.linear S S (fun _ _ _ _ => le_refl _) _ _ (planes_iter p m hm.linear S N s' h2) h2 ih).1 hsup
  intro i hi g hg
  refine le_of_forall_pos_le_add fun ε hε => ?_
  have hφ := hs.phi g hg
  obtain ⟨N, hN⟩ : ∃ N : Nat, c * rate ρ η ^ N * φ g ≤ ε := by
    rcases hc.eq_or_lt with e | e
    · exact ⟨0, by rw [← e]; simpa using hε.le⟩
    · obtain ⟨N, hN⟩ := exists_pow_lt_of_lt_one (div_pos hε (mul_pos e hφ)) r3
      rw [lt_div_iff₀ (mul_pos e hφ)] at hN
      exact ⟨N, by nlinarith⟩
  have a := iter_near p h m nAng n hm φ ρ η hs c hc S (2 * N) s s' h1 h2 hn
  rw [show 2 * N / 2 = N by omega] at a
  have b := near_trans _ _ _ _ _ _ _ _ _ _ _ _ (near_symm _ _ _ _ _ _ _ _ _ (iter_stay p h m nAng n hm φ ρ η hs S s h1 hfix (2 * N))) a
  have b1 := b.flux i hi g hg
  rw [zero_add] at b1
  have b2 := (abs_le.mp b1).2
  have b3 := (down (2 * N)).1 i hi g hg
  linarith

/-- The geometric bounds get small. -/
theorem small_pow [Archimedean K] (c θ v ε : K) (hc : 0 ≤ c) (hv : 0 < v) (h1 : θ < 1) (h0 : 0 ≤ θ) (hε : 0 < ε) : ∃ N : Nat, c * θ ^ N * v ≤ ε := by
  rcases hc.eq_or_lt with e | e
  · exact ⟨0, by rw [← e]; simpa using hε.le⟩
  · obtain ⟨N, hN⟩ := exists_pow_lt_of_lt_one (div_pos hε (mul_pos e hv)) h1
    rw [lt_div_iff₀ (mul_pos e hv)] at hN
    exact ⟨N, by nlinarith⟩

/-- C119: a state that a step with sources that are not negative leaves as it is has no negative flux and no negative incoming values. -/
theorem fixed_pos [Archimedean K] (p : Problem K) (h : Physical p) (m : MocSetup K) (nAng : Nat) (n : Nat → Nat) (hm : MocBoundOk p m nAng n) (φ : Nat → K) (ρ η : K)
    (hs : Subcritical p m nAng n φ ρ η) (S : Nat → Nat → K) (hS : ∀ g < p.ng, ∀ i < p.nReg, 0 ≤ S g i) (s : MocState K) (h1 : PlanesAt m s)
    (hfix : Medium.Same p m nAng n (srcLoop p (mocSweeper p m) S p.ng 0 s) s) : MocPos p m nAng n s := by
  obtain ⟨r1, r2, r3⟩ := rate_lt ρ η hs.rho.1 hs.rho.2 hs.eta.1 hs.eta.2
  set T := srcLoop p (mocSweeper p m) S p.ng 0 with hT
  let o : MocState K := ⟨fun _ _ => 0, fun _ => 0, fun _ => List.replicate m.planes.length 0, List.replicate m.planes.length 0⟩
  have ho : PlanesAt m o := ⟨fun _ => by simp [o], by simp [o]⟩
  have hpo : MocPos p m nAng n o := by
    refine ⟨fun i hi g hg => le_refl _, fun g _ => ho.1 g, ho.2, fun g hg b hb => ?_⟩
    rw [List.eq_of_mem_replicate hb]
    exact fun a ha j hj => le_refl _
  have hpN : ∀ N, MocPos p m nAng n (T^[N] o) := by
    intro N
    induction N with
    | zero => exact hpo
    | succ N ih =>
      rw [Function.iterate_succ_apply']
      exact srcLoop_pos p h _ _ (C109_moc p h m nAng n hm.toMocPosOk) S p.ng 0 (by omega) hS _ ih
  obtain ⟨c, hc, hn⟩ := near_some p m nAng n φ hs.phi hm.fpi o s
  have near : ∀ N : Nat, Near p m nAng n φ (c * rate ρ η ^ N) (c * rate ρ η ^ N) (T^[2 * N] o) s := by
    intro N
    have a := iter_near p h m nAng n hm φ ρ η hs c hc S (2 * N) o s ho h1 hn
    rw [show 2 * N / 2 = N by omega] at a
    have := near_trans _ _ _ _ _ _ _ _ _ _ _ _ a (iter_stay p h m nAng n hm φ ρ η hs S s h1 hfix (2 * N))
    rwa [add_zero] at this
  refine ⟨fun i hi g hg => ?_, fun g _ => h1.1 g, h1.2, fun g hg => (mem_incoming s g _ (h1.1 g) _).mpr fun z hz a ha j hj => ?_⟩
  · refine le_of_forall_pos_le_add fun ε hε => ?_
    obtain ⟨N, hN⟩ := small_pow c (rate ρ η) (φ g) ε hc (hs.phi g hg) r3 r2 hε
    have b1 := (abs_le.mp ((near N).flux i hi g hg)).2
    have b2 := (hpN (2 * N)).flux i hi g hg
    linarith
  · refine le_of_forall_pos_le_add fun ε hε => ?_
    have hv : 0 < φ g / m.fpi := div_pos (hs.phi g hg) hm.fpi
    obtain ⟨N, hN⟩ := small_pow c (rate ρ η) (φ g / m.fpi) ε hc hv r3 r2 hε
    have b1 := (abs_le.mp ((near N).bin g hg z hz a ha j hj)).2
    have b2 := (mem_incoming (T^[2 * N] o) g _ ((planes_iter p m hm.linear S (2 * N) o ho).1 g) _).mp ((hpN (2 * N)).bin g hg) z hz a ha j hj
    rw [mul_div_assoc] at b1
    linarith

/-- The source of fission by group with eigenvalue `k`. -/
theorem fissionBase_at (p : Problem K) (h : Physical p) (k : K) (flux : Nat → Nat → K) (g : Nat) (x : XsRegion (Mat K)) (hx : x ∈ p.rs) (i : Nat) (hxi : i ∈ x.regs) :
    fission p.rs (calcFissionSource p.ng p.rs k flux) g (fun _ => 0) i = x.mat.ch g * ((∑ g ∈ Finset.range p.ng, x.mat.nf g * flux i g) / k) := by
  rw [fission_at p.rs h.part _ g _ x hx i hxi, C47_fission_source p.ng p.rs h.part k flux x hx i hxi, zero_add]

/-- C119, comparison of eigenvalues: a converged solution with a flux that is not negative, positive somewhere, and a state with a positive flux that a step with
eigenvalue `k'` makes no larger. -/
theorem C119_compare [Archimedean K] (p : Problem K) (h : Physical p) (m : MocSetup K) (nAng : Nat) (n : Nat → Nat) (hm : MocBoundOk p m nAng n) (φ : Nat → K) (ρ η : K)
    (hs : Subcritical p m nAng n φ ρ η) (k k' k1 k1' : K) (hk : 0 < k) (hk' : 0 < k') (s s' t t' : MocState K)
    (h1 : PlanesAt m s) (h2 : PlanesAt m s') (e : outer p (mocSweeper p m) k s = some (k1, t)) (e' : outer p (mocSweeper p m) k' s' = some (k1', t'))
    (c : Medium.Same p m nAng n t s) (c' : MocLe p m nAng n t' s') (hpos : PosFlux p s.flux) (hsome : ∃ i < p.nReg, ∃ g < p.ng, 0 < s.flux i g)
    (hpos' : ∀ i < p.nReg, ∀ g < p.ng, 0 < s'.flux i g) : k ≤ k' := by
  obtain ⟨i0, hi0, g0, hg0, h0⟩ := hsome
  -- the smallest ratio of the fluxes
  obtain ⟨⟨i1, g1⟩, hm1, hmin⟩ := Finset.exists_min_image
    (((Finset.range p.nReg) ×ˢ (Finset.range p.ng)).filter fun x => 0 < s.flux x.1 x.2) (fun x => s'.flux x.1 x.2 / s.flux x.1 x.2)
    ⟨(i0, g0), by simp [hi0, hg0, h0]⟩
  simp only [Finset.mem_filter, Finset.mem_product, Finset.mem_range] at hm1 hmin
  obtain ⟨⟨hi1, hg1⟩, hp1⟩ := hm1
  set r := s'.flux i1 g1 / s.flux i1 g1 with hr
  have hrpos : 0 < r := div_pos (hpos' i1 hi1 g1 hg1) hp1
  have hle : ∀ i < p.nReg, ∀ g < p.ng, r * s.flux i g ≤ s'.flux i g := by
    intro i hi g hg
    rcases (hpos i hi g hg).eq_or_lt with e | e
    · rw [← e, mul_zero]
      exact (hpos' i hi g hg).le
    · have := hmin (i, g) ⟨⟨hi, hg⟩, e⟩
      rwa [le_div_iff₀ e] at this
  unfold outer at e e'
  rw [groupLoop_eq] at e e'
  simp only [Option.map_some, Option.some.injEq, Prod.mk.injEq] at e e'
  obtain ⟨-, rfl⟩ := e
  obtain ⟨-, rfl⟩ := e'
  change Medium.Same p m nAng n (srcLoop p (mocSweeper p m) (fun g => fission p.rs (calcFissionSource p.ng p.rs k s.flux) g fun _ => 0) p.ng 0 s) s at c
  change MocLe p m nAng n (srcLoop p (mocSweeper p m) (fun g => fission p.rs (calcFissionSource p.ng p.rs k' s'.flux) g fun _ => 0) p.ng 0 s') s' at c'
  set B := fun g => fission p.rs (calcFissionSource p.ng p.rs k s.flux) g fun _ => 0 with hB
  set B' := fun g => fission p.rs (calcFissionSource p.ng p.rs k' s'.flux) g fun _ => 0 with hB'
  set d := r * k / k' with hd
  have hBle : ∀ g < p.ng, ∀ i < p.nReg, (d • B g + (0 : K) • B g) i ≤ B' g i := by
    intro g hg i hi
    obtain ⟨x, hx, hxi⟩ := (h.cover i).mp hi
    have b1 : B g i = x.mat.ch g * ((∑ g ∈ Finset.range p.ng, x.mat.nf g * s.flux i g) / k) := fissionBase_at p h k s.flux g x hx i hxi
    have b2 : B' g i = x.mat.ch g * ((∑ g ∈ Finset.range p.ng, x.mat.nf g * s'.flux i g) / k') := fissionBase_at p h k' s'.flux g x hx i hxi
    have hsum : r * ∑ g ∈ Finset.range p.ng, x.mat.nf g * s.flux i g ≤ ∑ g ∈ Finset.range p.ng, x.mat.nf g * s'.flux i g := by
      rw [Finset.mul_sum]
      refine Finset.sum_le_sum fun q hq => ?_
      have hq := Finset.mem_range.mp hq
      calc r * (x.mat.nf q * s.flux i q) = x.mat.nf q * (r * s.flux i q) := by ring
        _ ≤ x.mat.nf q * s'.flux i q := mul_le_mul_of_nonneg_left (hle i hi q hq) (h.nf x hx q hq)
    simp only [Pi.add_apply, Pi.smul_apply, smul_eq_mul, zero_mul, add_zero]
    rw [b1, b2]
    calc d * (x.mat.ch g * ((∑ g ∈ Finset.range p.ng, x.mat.nf g * s.flux i g) / k))
        = x.mat.ch g * ((r * ∑ g ∈ Finset.range p.ng, x.mat.nf g * s.flux i g) / k') := by
          rw [hd]
          field_simp
      _ ≤ x.mat.ch g * ((∑ g ∈ Finset.range p.ng, x.mat.nf g * s'.flux i g) / k') :=
          mul_le_mul_of_nonneg_left (div_le_div_of_nonneg_right hsum hk'.le) (h.ch x hx g hg)
  -- a multiple of the first is left as it is by the step with the multiple of its source
  obtain ⟨l1, l2, -⟩ := srcLoop_lin d 0 p m (hm.linear d 0) B B p.ng 0 s s h1 h1
  have hfix : Medium.Same p m nAng n (srcLoop p (mocSweeper p m) (fun g => d • B g + (0 : K) • B g) p.ng 0 (mocLin d 0 s s)) (mocLin d 0 s s) := by
    rw [l1]
    refine ⟨fun i hi g hg => ?_, fun g hg z hz a ha j hj => ?_⟩
    · simp only [mocLin, Pi.add_apply, Pi.smul_apply, smul_eq_mul, zero_mul, add_zero]
      rw [c.1 i hi g hg]
    · rw [incoming_lin d 0 _ _ g _ (l2.1 g) (l2.1 g) z hz, incoming_lin d 0 _ _ g _ (h1.1 g) (h1.1 g) z hz, c.2 g hg z hz a ha j hj]
  have hsup := mocLe_trans _ _ _ _ _ _ _ (srcLoop_mono p h m nAng n hm.toMocPosOk hm.linear (fun g => d • B g + (0 : K) • B g) B' hBle s' s' h2 h2 (mocLe_refl ..)).1 c'
  have := super_le p h m nAng n hm φ ρ η hs _ (mocLin d 0 s s) s' (planesAt_lin d 0 m s s h1 h1) h2 hfix hsup i1 hi1 g1 hg1
  simp only [mocLin, Pi.add_apply, Pi.smul_apply, smul_eq_mul, zero_mul, add_zero] at this
  rw [← div_mul_cancel₀ (s'.flux i1 g1) hp1.ne', ← hr] at this
  have := le_of_mul_le_mul_right this hp1
  rw [hd, div_le_iff₀ hk'] at this
  exact le_of_mul_le_mul_left this hrpos

/-- C119: no converged solution with a flux that is not negative has an eigenvalue larger than one with a positive flux. -/
theorem C119_dominant [Archimedean K] (p : Problem K) (h : Physical p) (m : MocSetup K) (nAng : Nat) (n : Nat → Nat) (hm : MocBoundOk p m nAng n) (φ : Nat → K) (ρ η : K)
    (hs : Subcritical p m nAng n φ ρ η) (k k' k1 k1' : K) (hk : 0 < k) (hk' : 0 < k') (s s' t t' : MocState K) (h1 : PlanesAt m s) (h2 : PlanesAt m s')
    (e : outer p (mocSweeper p m) k s = some (k1, t)) (e' : outer p (mocSweeper p m) k' s' = some (k1', t'))
    (c : Medium.Same p m nAng n t s) (c' : Medium.Same p m nAng n t' s') (hpos : PosFlux p s.flux) (hsome : ∃ i < p.nReg, ∃ g < p.ng, 0 < s.flux i g)
    (hpos' : ∀ i < p.nReg, ∀ g < p.ng, 0 < s'.flux i g) : k ≤ k' :=
  C119_compare p h m nAng n hm φ ρ η hs k k' k1 k1' hk hk' s s' t t' h1 h2 e e' c (same_le _ _ _ _ _ _ c') hpos hsome hpos'

/-- C119: the eigenvalue of a converged solution with a positive flux does not depend on where the iteration started. -/
theorem C119_unique [Archimedean K] (p : Problem K) (h : Physical p) (m : MocSetup K) (nAng : Nat) (n : Nat → Nat) (hm : MocBoundOk p m nAng n) (φ : Nat → K) (ρ η : K)
    (hs : Subcritical p m nAng n φ ρ η) (hr : 0 < p.nReg) (hg : 0 < p.ng) (k k' k1 k1' : K) (hk : 0 < k) (hk' : 0 < k') (s s' t t' : MocState K) (h1 : PlanesAt m s)
    (h2 : PlanesAt m s') (e : outer p (mocSweeper p m) k s = some (k1, t)) (e' : outer p (mocSweeper p m) k' s' = some (k1', t'))
    (c : Medium.Same p m nAng n t s) (c' : Medium.Same p m nAng n t' s') (hpos : ∀ i < p.nReg, ∀ g < p.ng, 0 < s.flux i g)
    (hpos' : ∀ i < p.nReg, ∀ g < p.ng, 0 < s'.flux i g) : k = k' :=
  le_antisymm
    (C119_dominant p h m nAng n hm φ ρ η hs k k' k1 k1' hk hk' s s' t t' h1 h2 e e' c c' (fun i hi g hg => (hpos i hi g hg).le) ⟨0, hr, 0, hg, hpos 0 hr 0 hg⟩ hpos')
    (C119_dominant p h m nAng n hm φ ρ η hs k' k k1' k1 hk' hk s' s t' t h2 h1 e' e c' c (fun i hi g hg => (hpos' i hi g hg).le) ⟨0, hr, 0, hg, hpos' 0 hr 0 hg⟩ hpos)

theorem raises_subcritical (p : Problem K) (h : Physical p) (m : MocSetup K) (nAng : Nat) (n : Nat → Nat) (f : Mat K → Mat K) (hf : Raises p f) (φ : Nat → K) (ρ η : K)
    (hs : Subcritical (p.exchange f) m nAng n φ ρ η) : Subcritical p m nAng n φ ρ η where
  phi := hs.phi
  rho := hs.rho
  eta := hs.eta
  scatter z hz g hg := by
    have := hs.scatter ⟨f z.mat, z.regs⟩ (List.mem_map.mpr ⟨z, hz, rfl⟩) g hg
    simp only at this
    rw [hf.tr z hz g hg] at this
    exact (Finset.sum_le_sum fun h' hh' => mul_le_mul_of_nonneg_right (hf.sc z hz g hg h' (Finset.mem_range.mp hh')) (hs.phi h' (Finset.mem_range.mp hh')).le).trans this
  drains := hs.drains
  rays g hg := by
    rw [← trOf_exchange p h f hf g hg]
    exact hs.rays g hg

/-- C119: materials with no less fission, fission spectrum and scattering, and the same transport cross sections, make the eigenvalue no smaller. -/
theorem C119_monotone [Archimedean K] (p : Problem K) (h : Physical p) (m : MocSetup K) (nAng : Nat) (n : Nat → Nat) (hm : MocBoundOk p m nAng n) (f : Mat K → Mat K)
    (hf : Raises p f) (φ : Nat → K) (ρ η : K) (hs : Subcritical (p.exchange f) m nAng n φ ρ η) (k k' k1 k1' : K) (hk : 0 < k) (hk' : 0 < k') (s s' t t' : MocState K)
    (h1 : PlanesAt m s) (h2 : PlanesAt m s') (e : outer p (mocSweeper p m) k s = some (k1, t)) (e' : outer (p.exchange f) (mocSweeper (p.exchange f) m) k' s' = some (k1', t'))
    (c : Medium.Same p m nAng n t s) (c' : Medium.Same p m nAng n t' s') (hpos : PosFlux p s.flux) (hsome : ∃ i < p.nReg, ∃ g < p.ng, 0 < s.flux i g)
    (hpos' : ∀ i < p.nReg, ∀ g < p.ng, 0 < s'.flux i g) : k ≤ k' := by
  have hP := exchange_physical p h f hf
  obtain ⟨kk, tt, ee⟩ : ∃ kk tt, outer p (mocSweeper p m) k' s' = some (kk, tt) := ⟨_, _, by unfold outer; rw [groupLoop_eq]; rfl⟩
  refine C119_compare p h m nAng n hm φ ρ η (raises_subcritical p h m nAng n f hf φ ρ η hs) k k' k1 kk hk hk' s s' t tt h1 h2 e ee c ?_ hpos hsome hpos'
  unfold outer at ee e'
  rw [groupLoop_eq] at ee e'
  simp only [Option.map_some, Option.some.injEq, Prod.mk.injEq] at ee e'
  obtain ⟨-, rfl⟩ := ee
  obtain ⟨-, rfl⟩ := e'
  have key : ∀ g < p.ng, ∀ i < p.nReg, fission p.rs (calcFissionSource p.ng p.rs k' s'.flux) g (fun _ => 0) i ≤
      fission (p.exchange f).rs (calcFissionSource p.ng (p.exchange f).rs k' s'.flux) g (fun _ => 0) i ∧
      0 ≤ fission (p.exchange f).rs (calcFissionSource p.ng (p.exchange f).rs k' s'.flux) g (fun _ => 0) i := by
    intro g hg i hi
    obtain ⟨x, hx, hxi⟩ := (h.cover i).mp hi
    have b2 := fissionBase_at (p.exchange f) hP k' s'.flux g ⟨f x.mat, x.regs⟩ (List.mem_map.mpr ⟨x, hx, rfl⟩) i hxi
    change fission (p.exchange f).rs (calcFissionSource p.ng (p.exchange f).rs k' s'.flux) g (fun _ => 0) i =
      (f x.mat).ch g * ((∑ g ∈ Finset.range p.ng, (f x.mat).nf g * s'.flux i g) / k') at b2
    rw [fissionBase_at p h k' s'.flux g x hx i hxi, b2]
    have hn : 0 ≤ (∑ g ∈ Finset.range p.ng, (f x.mat).nf g * s'.flux i g) / k' :=
      div_nonneg (Finset.sum_nonneg fun q hq => mul_nonneg ((h.nf x hx q (Finset.mem_range.mp hq)).trans (hf.nf x hx q (Finset.mem_range.mp hq)))
        (hpos' i hi q (Finset.mem_range.mp hq)).le) hk'.le
    refine ⟨?_, mul_nonneg ((h.ch x hx g hg).trans (hf.ch x hx g hg)) hn⟩
    calc x.mat.ch g * ((∑ g ∈ Finset.range p.ng, x.mat.nf g * s'.flux i g) / k')
        ≤ x.mat.ch g * ((∑ g ∈ Finset.range p.ng, (f x.mat).nf g * s'.flux i g) / k') :=
          mul_le_mul_of_nonneg_left (div_le_div_of_nonneg_right (Finset.sum_le_sum fun q hq =>
            mul_le_mul_of_nonneg_right (hf.nf x hx q (Finset.mem_range.mp hq)) (hpos' i hi q (Finset.mem_range.mp hq)).le) hk'.le) (h.ch x hx g hg)
      _ ≤ _ := mul_le_mul_of_nonneg_right (hf.ch x hx g hg) hn
  have hmp : MocPos p m nAng n s' := by
    have := fixed_pos (p.exchange f) hP m nAng n ⟨exchange_posOk p f m nAng n hm.toMocPosOk, hm.linear, hm.below, hm.inner⟩ φ ρ η hs _ (fun g hg i hi => (key g hg i hi).2) s' h2 c'
    exact ⟨this.flux, this.nin, this.nout, this.bin⟩
  exact mocLe_trans _ _ _ _ _ _ _ (srcLoop_exchange p h m nAng n hm.toMocPosOk hm.linear f hf _ _ (fun g hg i hi => (key g hg i hi).2)
    (fun g hg i hi => (key g hg i hi).1) p.ng 0 (by omega) s' s' h2 h2 hmp (mocLe_refl ..)) (same_le _ _ _ _ _ _ c')

/-- C119: if fluxes `ψ` by group, were they uniform, would not make more neutrons than they use up in any material with eigenvalue `κ`, the eigenvalue is at most `κ`. -/
theorem C119_bound [Archimedean K] (p : Problem K) (h : Physical p) (m : MocSetup K) (nAng : Nat) (n : Nat → Nat) (hm : MocBoundOk p m nAng n) (φ : Nat → K) (ρ η : K)
    (hs : Subcritical p m nAng n φ ρ η) (κ : K) (hκ : 0 < κ) (ψ : Nat → K) (hψ : ∀ g < p.ng, 0 < ψ g)
    (hbal : ∀ z ∈ p.rs, ∀ g < p.ng, z.mat.ch g * ((∑ h ∈ Finset.range p.ng, z.mat.nf h * ψ h) / κ) + ∑ h ∈ Finset.range p.ng, z.mat.sc g h * ψ h ≤ z.mat.tr g * ψ g)
    (k k1 : K) (hk : 0 < k) (s t : MocState K) (h1 : PlanesAt m s) (e : outer p (mocSweeper p m) k s = some (k1, t)) (c : Medium.Same p m nAng n t s)
    (hpos : PosFlux p s.flux) (hsome : ∃ i < p.nReg, ∃ g < p.ng, 0 < s.flux i g) : k ≤ κ := by
  let u : MocState K := ⟨fun _ g => ψ g, fun _ => 0, fun g => List.replicate m.planes.length fun _ _ => ψ g / m.fpi, List.replicate m.planes.length 0⟩
  have hu : PlanesAt m u := ⟨fun _ => by simp [u], by simp [u]⟩
  have hinc : ∀ g, ∀ z < m.planes.length, ∀ a j, incoming u g z a j = ψ g / m.fpi := by
    intro g z hz a j
    simp [incoming, u, List.getD, hz]
  have hb : Below p m nAng n ψ 1 1 u := by
    refine ⟨fun i hi g hg => by simp [u], fun g hg => (mem_incoming u g _ (hu.1 g) _).mpr fun z hz a ha j hj => ?_⟩
    rw [hinc g z hz, one_mul]
  obtain ⟨w, e1, e2, e3⟩ := C112_bound p h m nAng n hm ψ (fun g hg => (hψ g hg).le) (calcFissionSource p.ng p.rs κ u.flux) (fun z hz i hi g hg => by
    rw [C47_fission_source p.ng p.rs h.part κ u.flux z hz i hi]
    exact hbal z hz g hg) u hu hb
  refine C119_compare p h m nAng n hm φ ρ η hs k κ k1 _ hk hκ s u t w h1 hu e (by
    unfold outer
    rw [show (mocSweeper p m).flux u = u.flux from rfl, e1]
    rfl) c ⟨fun i hi g hg => ?_, fun g hg z hz a ha j hj => ?_⟩ hpos hsome fun i hi g hg => hψ g hg
  · have := e3.flux i hi g hg
    rwa [one_mul] at this
  · have := (mem_incoming w g _ (e2.1 g) _).mp (e3.bin g hg) z hz a ha j hj
    rw [hinc g z hz]
    rwa [one_mul] at this

/-- C119: a converged solution whose fission source is nowhere negative has no negative flux and no negative incoming values. -/
theorem C119_nonneg [Archimedean K] (p : Problem K) (h : Physical p) (m : MocSetup K) (nAng : Nat) (n : Nat → Nat) (hm : MocBoundOk p m nAng n) (φ : Nat → K) (ρ η : K)
    (hs : Subcritical p m nAng n φ ρ η) (k k1 : K) (s t : MocState K) (h1 : PlanesAt m s) (e : outer p (mocSweeper p m) k s = some (k1, t))
    (c : Medium.Same p m nAng n t s) (hfis : ∀ x ∈ p.rs, ∀ i ∈ x.regs, 0 ≤ (∑ g ∈ Finset.range p.ng, x.mat.nf g * s.flux i g) / k) :
    PosFlux p s.flux ∧ ∀ g < p.ng, ∀ z < m.planes.length, ∀ a < nAng, ∀ j < n a, 0 ≤ incoming s g z a j := by
  unfold outer at e
  rw [groupLoop_eq] at e
  simp only [Option.map_some, Option.some.injEq, Prod.mk.injEq] at e
  obtain ⟨-, rfl⟩ := e
  have := fixed_pos p h m nAng n hm φ ρ η hs _ (fun g hg i hi => by
    obtain ⟨x, hx, hxi⟩ := (h.cover i).mp hi
    change 0 ≤ fission p.rs (calcFissionSource p.ng p.rs k s.flux) g (fun _ => 0) i
    rw [fissionBase_at p h k s.flux g x hx i hxi]
    exact mul_nonneg (h.ch x hx g hg) (hfis x hx i hxi)) s h1 c
  exact ⟨this.flux, fun g hg => (mem_incoming s g _ (h1.1 g) _).mp (this.bin g hg)⟩

end

/-! ### Example -/

/-- One group, one region, `ν` neutrons of fission for one that is absorbed. -/
noncomputable def oneFis (ν : ℝ) : Problem ℝ := ⟨1, 1, [⟨⟨fun _ => 2, fun _ => ν, fun _ => 0, fun _ => 1, fun _ _ => 1⟩, [0]⟩], fun _ => 1⟩

noncomputable def oneFlat : MocState ℝ := ⟨fun _ _ => 1, fun _ => 0, fun _ => [fun _ _ => 1 / 12], [fun _ _ => 0]⟩

theorem oneFis_physical (ν : ℝ) (hν : 0 ≤ ν) : Physical (oneFis ν) where
  part := ⟨by simp [oneFis], by simp [oneFis]⟩
  cover := by simp [oneFis]
  sc := by simp [oneFis, Source.NonNeg]
  nf := by simp [oneFis, hν]
  ch := by simp [oneFis]
  tr := by simp [oneFis]
  vol := by simp [oneFis]

theorem oneFis_boundOk (ν : ℝ) (gs : Bool) : MocBoundOk (oneFis ν) (oneMoc gs) 2 (fun _ => 1) :=
  let h := one_boundOk gs
  ⟨⟨h.fpi, h.expo, h.planes, h.update, h.volume⟩, h.linear, h.below, h.inner⟩

theorem oneFis_subcritical (ν : ℝ) (gs : Bool) : Subcritical (oneFis ν) (oneMoc gs) 2 (fun _ => 1) (fun _ => 1) (1 / 2) (Real.exp (-2)) where
  phi := fun _ _ => one_pos
  rho := by norm_num
  eta := ⟨Real.exp_nonneg _, Real.exp_lt_one_iff.2 (by norm_num)⟩
  scatter := by simp [oneFis]
  drains := one_drains gs
  rays := by
    intro g hg w hw
    have h0 : g = 0 := by
      have : g < 1 := hg
      omega
    subst h0
    simp only [oneMoc, List.mem_singleton] at hw
    subst hw
    intro w hw r hr
    simp only [List.mem_singleton] at hw
    subst hw
    simp only [List.mem_singleton] at hr
    subst hr
    simp [oneMoc, oneFis, trOf, Source.setTo]

theorem oneFlat_planes (gs : Bool) : PlanesAt (oneMoc gs) oneFlat := ⟨fun _ => rfl, rfl⟩

theorem oneFis_converged (ν : ℝ) (hν : 0 < ν) (gs : Bool) :
    ∃ t, outer (oneFis ν) (mocSweeper (oneFis ν) (oneMoc gs)) ν oneFlat = some (ν, t) ∧ Medium.Same (oneFis ν) (oneMoc gs) 2 (fun _ => 1) t oneFlat := by
  have hinf : Infinite (oneFis ν) ν fun _ => 1 := by
    refine ⟨(oneFis_physical ν hν.le).part, (oneFis_physical ν hν.le).cover, (oneFis_physical ν hν.le).sc, hν.ne', by simp [oneFis], ?_⟩
    intro x hx g hg
    simp only [oneFis, List.mem_singleton] at hx
    subst hx
    simp [oneFis, hν.ne']
    norm_num
  have hok : MocOk (oneFis ν) (oneMoc gs) 2 fun _ => 1 := by
    refine ⟨(oneFis_boundOk ν gs).fpi.ne', fun w hw => ((oneFis_boundOk ν gs).planes w hw).1, ?_, ?_⟩
    · intro c a ha b o hb ho a' ha' j hj
      simp only [oneMoc]
      split
      · exact ho j hj
      · exact hb a' ha' j hj
    · intro c b o hb ho a ha j hj
      exact ho (1 - a) (by omega) j hj
  obtain ⟨t, h1, h2⟩ := C108_moc (oneFis ν) ν (fun _ => 1) hinf (by simp [totalFission, oneFis, hν.ne']) (oneMoc gs) 2 (fun _ => 1) hok 1 oneFlat
    ⟨fun _ _ _ _ => rfl, fun _ _ => rfl, rfl, fun g hg b hb => by
      simp only [oneFlat, List.mem_singleton] at hb
      subst hb
      intro a ha j hj
      simp [oneMoc]⟩
  refine ⟨t, ?_, fun i hi g hg => h2.flux i hi g hg, fun g hg z hz a ha j hj => ?_⟩
  · simp only [outers] at h1
    cases h : outer (oneFis ν) (mocSweeper (oneFis ν) (oneMoc gs)) ν oneFlat with
    | none => rw [h] at h1; simp at h1
    | some r =>
      rw [h] at h1
      simpa [outers] using h1
  · have := (mem_incoming t g _ (h2.nin g hg) _).mp (h2.bin g hg) z hz a ha j hj
    rw [this]
    have hz0 : z = 0 := by
      have : z < 1 := hz
      omega
    subst hz0
    simp [oneMoc, incoming, oneFlat]

/-- Every converged solution of the example with a positive flux has the eigenvalue `ν`. -/
example (ν : ℝ) (hν : 0 < ν) (gs : Bool) (k k1 : ℝ) (hk : 0 < k) (s t : MocState ℝ) (h1 : PlanesAt (oneMoc gs) s)
    (e : outer (oneFis ν) (mocSweeper (oneFis ν) (oneMoc gs)) k s = some (k1, t)) (c : Medium.Same (oneFis ν) (oneMoc gs) 2 (fun _ => 1) t s)
    (hpos : 0 < s.flux 0 0) : k = ν := by
  obtain ⟨t', e', c'⟩ := oneFis_converged ν hν gs
  exact C119_unique (oneFis ν) (oneFis_physical ν hν.le) (oneMoc gs) 2 (fun _ => 1) (oneFis_boundOk ν gs) (fun _ => 1) (1 / 2) (Real.exp (-2)) (oneFis_subcritical ν gs)
    one_pos one_pos k ν k1 ν hk hν s oneFlat t t' h1 (oneFlat_planes gs) e e' c c' (fun i hi g hg => by
      have hi : i < 1 := hi
      have hg : g < 1 := hg
      rw [show i = 0 by omega, show g = 0 by omega]
      exact hpos) fun _ _ _ _ => one_pos

/-- More fission. -/
example (ν μ : ℝ) (hν : 0 < ν) (hμ : ν ≤ μ) (gs : Bool) : ν ≤ μ := by
  obtain ⟨t, e, c⟩ := oneFis_converged ν hν gs
  obtain ⟨t', e', c'⟩ := oneFis_converged μ (hν.trans_le hμ) gs
  have hx : (oneFis ν).exchange (fun y => { y with nf := fun _ => μ }) = oneFis μ := rfl
  exact C119_monotone (oneFis ν) (oneFis_physical ν hν.le) (oneMoc gs) 2 (fun _ => 1) (oneFis_boundOk ν gs) (fun y => { y with nf := fun _ => μ })
    ⟨fun _ _ _ _ => rfl, fun x hx g hg => by
      simp only [oneFis, List.mem_singleton] at hx
      subst hx
      exact hμ, fun _ _ _ _ => le_refl _, fun _ _ _ _ _ _ => le_refl _⟩ (fun _ => 1) (1 / 2) (Real.exp (-2)) (by rw [hx]; exact oneFis_subcritical μ gs) ν μ ν μ hν
    (hν.trans_le hμ) oneFlat oneFlat t t' (oneFlat_planes gs) (oneFlat_planes gs) e (by rw [hx]; exact e') c c' (fun _ _ _ _ => zero_le_one) ⟨0, one_pos, 0, one_pos, one_pos⟩
    fun _ _ _ _ => one_pos

/-- With two neutrons for one that is absorbed no converged solution has an eigenvalue above 2. -/
example (gs : Bool) : (2 : ℝ) ≤ 2 := by
  obtain ⟨t, e, c⟩ := oneFis_converged 2 two_pos gs
  exact C119_bound (oneFis 2) (oneFis_physical 2 zero_le_two) (oneMoc gs) 2 (fun _ => 1) (oneFis_boundOk 2 gs) (fun _ => 1) (1 / 2) (Real.exp (-2)) (oneFis_subcritical 2 gs) 2 two_pos
    (fun _ => 1) (fun _ _ => one_pos) (fun z hz g hg => by
      simp only [oneFis, List.mem_singleton] at hz
      subst hz
      simp [oneFis]
      norm_num) 2 2 two_pos oneFlat t (oneFlat_planes gs) e c (fun _ _ _ _ => zero_le_one) ⟨0, one_pos, 0, one_pos, one_pos⟩

end Verif.Medium
