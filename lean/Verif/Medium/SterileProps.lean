import Verif.Medium.DownSnProps

/-!
# C165: groups without fission and without scattering upwards do not change k
-/

set_option linter.unusedSectionVars false

namespace Verif.Medium

open Finset Verif.XS Verif.Source Verif.Scatter

section
variable {K : Type} [Field K] [LinearOrder K] [IsStrictOrderedRing K]

/-- Neutrons of the groups after the first `G` cause no fission. -/
def NoFission (G : Nat) (p : Problem K) : Prop := ∀ x ∈ p.rs, ∀ g, G ≤ g → g < p.ng → x.mat.nf g = 0

variable {G : Nat} {p : Problem K}

theorem nf_sum (hG : G ≤ p.ng) (hn : NoFission G p) (x : XsRegion (Mat K)) (hx : x ∈ p.rs) (φ φ' : Nat → K) (hf : ∀ g < G, φ g = φ' g) :
    ∑ g ∈ range p.ng, x.mat.nf g * φ g = ∑ g ∈ range G, x.mat.nf g * φ' g := by
  rw [← sum_subset (range_subset_range.mpr hG) fun b hb hb' => by rw [hn x hx b (by simpa using hb') (by simpa using hb), zero_mul]]
  exact sum_congr rfl fun b hb => by rw [hf b (mem_range.mp hb)]

/-- C165: the source of fission neutrons. -/
theorem C165_source (hG : G ≤ p.ng) (h : Physical p) (hn : NoFission G p) (k : K) (flux flux' : Nat → Nat → K) (hf : ∀ i < p.nReg, ∀ g < G, flux i g = flux' i g) (g : Nat) :
    fission p.rs (calcFissionSource p.ng p.rs k flux) g (fun _ => 0) = fission p.rs (calcFissionSource G p.rs k flux') g fun _ => 0 := by
  funext i
  by_cases hi : i < p.nReg
  · obtain ⟨x, hx, hxi⟩ := (h.cover i).mp hi
    rw [fission_at _ h.part _ g _ x hx i hxi, fission_at _ h.part _ g _ x hx i hxi, C47_fission_source _ _ h.part k _ x hx i hxi, C47_fission_source _ _ h.part k _ x hx i hxi,
      nf_sum hG hn x hx (flux i) (flux' i) (hf i hi)]
  · have ho : ∀ x ∈ p.rs, i ∉ x.regs := fun x hx e => hi ((h.cover i).mpr ⟨x, hx, e⟩)
    unfold fission
    rw [loop_out _ _ i ho fun x a hx => addTo_not_mem _ _ _ _ hx, loop_out _ _ i ho fun x a hx => addTo_not_mem _ _ _ _ hx]

/-- C165: the total of fission. -/
theorem C165_production (hG : G ≤ p.ng) (h : Physical p) (hn : NoFission G p) (flux flux' : Nat → Nat → K) (hf : ∀ i < p.nReg, ∀ g < G, flux i g = flux' i g) :
    totalFission p.ng p.rs p.vol flux = totalFission G p.rs p.vol flux' := by
  have e := production_regions (cutProblem G p) h.part h.cover flux'
  rw [production_regions p h.part h.cover]
  refine Eq.trans ?_ e.symm
  refine sum_congr rfl fun i hi => congrArg List.sum (List.map_congr_left fun x hx => ?_)
  split_ifs
  · rw [nf_sum hG hn x hx (flux i) (flux' i) (hf i (mem_range.mp hi))]
    rfl
  · rfl

/-- C165: any number of outer iterations, with any two sweepers whose loops over the groups keep a relation in which the fluxes of the first groups agree. -/
theorem C165_outers {σ : Type} (hG : G ≤ p.ng) (h : Physical p) (hn : NoFission G p) (v v' : Sweeper K σ) (R : σ → σ → Prop) (hR : ∀ s s', R s s' → ∀ i < p.nReg, ∀ g < G, v.flux s i g = v'.flux s' i g)
    (hv : ∀ (E E' : Nat → Nat → K), (∀ g < G, E g = E' g) → ∀ s s', R s s' → R (srcLoop p v E p.ng 0 s) (srcLoop (cutProblem G p) v' E' G 0 s')) (N : Nat) (k : K) (s s' : σ) (hs : R s s') :
    ∃ k' t t', outers p v N k s = some (k', t) ∧ outers (cutProblem G p) v' N k s' = some (k', t') ∧ R t t' := by
  induction N generalizing k s s' with
  | zero => exact ⟨k, s, s', rfl, rfl, hs⟩
  | succ N ih =>
    have hl := hv (fun g => fission p.rs (calcFissionSource p.ng p.rs k (v.flux s)) g fun _ => 0) (fun g => fission p.rs (calcFissionSource G p.rs k (v'.flux s')) g fun _ => 0)
      (fun g _ => C165_source hG h hn k _ _ (hR s s' hs) g) s s' hs
    obtain ⟨k', t, t', h1, h2, h3⟩ := ih (k * totalFission p.ng p.rs p.vol (v.flux (srcLoop p v (fun g => fission p.rs (calcFissionSource p.ng p.rs k (v.flux s)) g fun _ => 0) p.ng 0 s)) /
      totalFission p.ng p.rs p.vol (v.flux s)) _ _ hl
    refine ⟨k', t, t', ?_, ?_, h3⟩
    · rw [outers, outer, groupLoop_eq, Option.map_some, Option.bind_some]
      exact h1
    · rw [outers, outer, groupLoop_eq, Option.map_some, Option.bind_some]
      rw [C165_production hG h hn _ _ (hR _ _ hl), C165_production hG h hn _ _ (hR _ _ hs)] at h2
      exact h2

/-- C165: MoC. -/
theorem C165_moc (hG : G ≤ p.ng) (h : Physical p) (hu : NoUp G p) (hn : NoFission G p) (m : MocSetup K) (nAng : Nat) (n : Nat → Nat) (hm : MocFresh p.nReg m nAng n)
    (N : Nat) (k : K) (s s' : MocState K) (hs : PlanesAt m s) (hs' : PlanesAt m s') (hss : Same (cutProblem G p) m nAng n s s') :
    ∃ k' t t', outers p (mocSweeper p m) N k s = some (k', t) ∧ outers (cutProblem G p) (mocSweeper (cutProblem G p) m) N k s' = some (k', t') ∧ Same (cutProblem G p) m nAng n t t' := by
  obtain ⟨k', t, t', h1, h2, h3, -, -⟩ := C165_outers hG h hn (mocSweeper p m) (mocSweeper (cutProblem G p) m)
    (fun s s' => Same (cutProblem G p) m nAng n s s' ∧ PlanesAt m s ∧ PlanesAt m s') (fun s s' hs i hi g hg => hs.1.1 i hi g hg) (fun E E' hE s s' hs => by
      have := C164_groups hG h hu hm E E' (fun g hg i _ => by rw [hE g hg]) G 0 (by omega) s s' hs.2.1 hs.2.2 hs.1
      rwa [Nat.add_sub_cancel' hG] at this) N k s s' ⟨hss, hs, hs'⟩
  exact ⟨k', t, t', h1, h2, h3⟩

/-- C165: Sn. -/
theorem C165_sn {κ : Type} (hG : G ≤ p.ng) (h : Physical p) (hu : NoUp G p) (hn : NoFission G p) (m : SnSetup κ K) (hm : SnFresh m) (N : Nat) (k : K) (s s' : SnState κ K) (hs : SnAgree G p s s') :
    ∃ k' t t', outers p (snSweeper p m) N k s = some (k', t) ∧ outers (cutProblem G p) (snSweeper (cutProblem G p) m) N k s' = some (k', t') ∧ SnAgree G p t t' :=
  C165_outers hG h hn (snSweeper p m) (snSweeper (cutProblem G p) m) (SnAgree G p) (fun s s' hs i _ g hg => hs.flux i g hg) (fun E E' hE s s' hs => by
    have := C164_sn_groups hG h hu hm E E' hE G 0 (by omega) s s' hs
    rwa [Nat.add_sub_cancel' hG] at this) N k s s' hs

/-- C165: two libraries that agree in the first `G` groups give the same k, MoC and Sn. -/
theorem C165_libraries {κ : Type} {P : Problem K} (hG : G ≤ p.ng) (hG' : G ≤ P.ng) (h : Physical p) (h' : Physical P) (hu : NoUp G p) (hu' : NoUp G P) (hn : NoFission G p) (hn' : NoFission G P)
    (hc : SameCells (cutProblem G p) (cutProblem G P)) (N : Nat) (k : K) :
    (∀ (m : MocSetup K) (nAng : Nat) (n : Nat → Nat), MocFresh p.nReg m nAng n → ∀ s s' : MocState K, PlanesAt m s → PlanesAt m s' →
      Same (cutProblem G p) m nAng n s s' → ∃ k' t t', outers p (mocSweeper p m) N k s = some (k', t) ∧ outers P (mocSweeper P m) N k s' = some (k', t') ∧ ∀ i < p.nReg, ∀ g < G, t.flux i g = t'.flux i g) ∧
    ∀ (m : SnSetup κ K), SnFresh m → ∀ s s' : SnState κ K, SnAgree G p s s' →
      ∃ k' t t', outers p (snSweeper p m) N k s = some (k', t) ∧ outers P (snSweeper P m) N k s' = some (k', t') ∧ ∀ i < p.nReg, ∀ g < G, t.flux i g = t'.flux i g := by
  have hreg : P.nReg = p.nReg := hc.nReg
  constructor
  · intro m nAng n hm s s' hs hs' hss
    obtain ⟨k1, t, u, a1, a2, a3⟩ := C165_moc hG h hu hn m nAng n hm N k s s' hs hs' hss
    obtain ⟨k2, t', u', b1, b2, b3⟩ := C165_moc hG' h' hu' hn' m nAng n (by rw [hreg]; exact hm) N k s' s' hs' hs' ⟨fun _ _ _ _ => rfl, fun _ _ _ _ _ _ _ _ => rfl⟩
    rw [C162_moc hc m N k s', a2] at b2
    obtain ⟨rfl, rfl⟩ := Prod.mk.inj (Option.some.inj b2)
    exact ⟨k1, t, t', a1, b1, fun i hi g hg => (a3.1 i hi g hg).trans (b3.1 i (by show i < P.nReg; omega) g hg).symm⟩
  · intro m hm s s' hs
    obtain ⟨k1, t, u, a1, a2, a3⟩ := C165_sn hG h hu hn m hm N k s s' hs
    obtain ⟨k2, t', u', b1, b2, b3⟩ := C165_sn hG' h' hu' hn' m hm N k s' s' ⟨fun _ _ _ => rfl, fun _ _ => rfl, fun _ _ => rfl⟩
    rw [C162_sn hc m N k s', a2] at b2
    obtain ⟨rfl, rfl⟩ := Prod.mk.inj (Option.some.inj b2)
    exact ⟨k1, t, t', a1, b1, fun i _ g hg => (a3.flux i g hg).trans (b3.flux i g hg).symm⟩

end

/-! ### Example -/

/-- `demoMat` and `otherMat` with fission in the first group only. -/
def fastProblem : Problem ℚ := { demoProblem with rs := [⟨{ demoMat with nf := fun g => if g = 0 then 1 else 0 }, [0, 1]⟩] }

def fastOther : Problem ℚ := { otherProblem with rs := [⟨{ otherMat with nf := fun g => if g = 0 then 1 else 0 }, [0, 1]⟩] }

theorem fast_physical : Physical fastProblem where
  part := by simp [Partition, fastProblem]
  cover := by
    intro i
    simp only [fastProblem, demoProblem, exists_eq_left, List.mem_cons, List.not_mem_nil, or_false]
    omega
  sc := by
    intro x hx
    simp only [fastProblem, List.mem_singleton] at hx
    subst hx
    exact demo_physical.sc ⟨demoMat, [0, 1]⟩ (by simp [demoProblem])
  nf := by
    intro x hx g _
    simp only [fastProblem, List.mem_singleton] at hx
    subst hx
    simp only
    split_ifs <;> norm_num
  ch := by
    intro x hx
    simp only [fastProblem, List.mem_singleton] at hx
    subst hx
    exact demo_physical.ch ⟨demoMat, [0, 1]⟩ (by simp [demoProblem])
  tr := by
    intro x hx
    simp only [fastProblem, List.mem_singleton] at hx
    subst hx
    exact demo_physical.tr ⟨demoMat, [0, 1]⟩ (by simp [demoProblem])
  vol := demo_physical.vol

theorem fastOther_physical : Physical fastOther where
  part := by simp [Partition, fastOther]
  cover := by
    intro i
    simp only [fastOther, otherProblem, exists_eq_left, List.mem_cons, List.not_mem_nil, or_false]
    omega
  sc := by
    intro x hx
    simp only [fastOther, List.mem_singleton] at hx
    subst hx
    exact other_physical.sc ⟨otherMat, [0, 1]⟩ (by simp [otherProblem])
  nf := by
    intro x hx g _
    simp only [fastOther, List.mem_singleton] at hx
    subst hx
    simp only
    split_ifs <;> norm_num
  ch := by
    intro x hx
    simp only [fastOther, List.mem_singleton] at hx
    subst hx
    exact other_physical.ch ⟨otherMat, [0, 1]⟩ (by simp [otherProblem])
  tr := by
    intro x hx
    simp only [fastOther, List.mem_singleton] at hx
    subst hx
    exact other_physical.tr ⟨otherMat, [0, 1]⟩ (by simp [otherProblem])
  vol := other_physical.vol

theorem fast_noUp : NoUp 1 fastProblem ∧ NoUp 1 fastOther := by
  constructor
  · intro x hx
    simp only [fastProblem, List.mem_singleton] at hx
    subst hx
    exact demo_noUp ⟨demoMat, [0, 1]⟩ (by simp [demoProblem])
  · intro x hx
    simp only [fastOther, List.mem_singleton] at hx
    subst hx
    exact other_noUp ⟨otherMat, [0, 1]⟩ (by simp [otherProblem])

theorem fast_noFission : NoFission 1 fastProblem ∧ NoFission 1 fastOther := by
  constructor
  · intro x hx g hg _
    simp only [fastProblem, List.mem_singleton] at hx
    subst hx
    simp only
    rw [if_neg (by omega)]
  · intro x hx g hg _
    simp only [fastOther, List.mem_singleton] at hx
    subst hx
    simp only
    rw [if_neg (by omega)]

theorem fast_cells : SameCells (cutProblem 1 fastProblem) (cutProblem 1 fastOther) where
  ng := rfl
  nReg := rfl
  vol := rfl
  part := fast_physical.part
  part' := fastOther_physical.part
  cover := fast_physical.cover
  cover' := fastOther_physical.cover
  nonneg := (cut_physical (by decide) fast_physical).sc
  mat := by
    intro x hx x' hx' i _ _ g hg
    simp only [cutProblem, fastProblem, fastOther, List.mem_singleton] at hx hx'
    subst hx hx'
    obtain rfl : g = 0 := Nat.lt_one_iff.mp hg
    refine ⟨rfl, rfl, rfl, fun h hh => ?_⟩
    obtain rfl : h = 0 := Nat.lt_one_iff.mp hh
    rfl

/-- The hypotheses hold together, with two and three groups. -/
example (gs : Bool) (N : Nat) (k : ℚ) :
    (∃ k' t t', outers fastProblem (mocSweeper fastProblem (demoMoc gs)) N k ⟨fun _ _ => 1, fun _ => 5, fun _ => [fun _ _ => 1], [fun _ _ => 7]⟩ = some (k', t) ∧
      outers fastOther (mocSweeper fastOther (demoMoc gs)) N k ⟨fun _ g => if g = 0 then 1 else 3, fun _ => 6, fun g => [fun _ _ => if g = 0 then 1 else 2], [fun _ _ => -8]⟩ = some (k', t') ∧
      ∀ i < 2, ∀ g < 1, t.flux i g = t'.flux i g) ∧
    ∃ k' t t', outers fastProblem (snSweeper fastProblem (pairSn gs)) N k ⟨fun _ _ => 1, fun _ => 5, fun _ _ _ _ => 1, fun _ _ _ => 7⟩ = some (k', t) ∧
      outers fastOther (snSweeper fastOther (pairSn gs)) N k ⟨fun _ g => if g = 0 then 1 else 3, fun i => if i < 2 then 6 else 5, fun g _ _ _ => if g = 0 then 1 else 2, fun _ _ _ => -8⟩ = some (k', t') ∧
      ∀ i < 2, ∀ g < 1, t.flux i g = t'.flux i g := by
  obtain ⟨h1, h2⟩ := C165_libraries (κ := Sn.Ax2) (G := 1) (by decide) (by decide) fast_physical fastOther_physical fast_noUp.1 fast_noUp.2 fast_noFission.1 fast_noFission.2 fast_cells N k
  refine ⟨h1 (demoMoc gs) 2 (fun _ => 2) (demo_fresh gs) _ _
    ⟨fun _ => rfl, rfl⟩ ⟨fun _ => rfl, rfl⟩ ⟨fun i _ g hg => ?_, fun g hg z hz a ha j hj => ?_⟩, h2 (pairSn gs) (pair_fresh gs) _ _ ⟨fun i g hg => ?_, fun g hg => ?_, fun i hi => ?_⟩⟩
  · obtain rfl : g = 0 := Nat.lt_one_iff.mp hg
    rfl
  · obtain rfl : g = 0 := Nat.lt_one_iff.mp hg
    have h1 : z < 1 := hz
    interval_cases z
    rfl
  · obtain rfl : g = 0 := by omega
    rfl
  · obtain rfl : g = 0 := by omega
    rfl
  · have h2 : 2 ≤ i := hi
    simp only
    rw [if_neg (by omega)]

/-- k after one iteration; it differs when the second group causes fission too. -/
example : ∀ gs : Bool, ((outers fastProblem (mocSweeper fastProblem (demoMoc gs)) 1 1 ⟨fun _ _ => 1, fun _ => 5, fun _ => [fun _ _ => 1], [fun _ _ => 7]⟩).map Prod.fst) =
      ((outers fastOther (mocSweeper fastOther (demoMoc gs)) 1 1 ⟨fun _ _ => 1, fun _ => 5, fun _ => [fun _ _ => 1], [fun _ _ => 7]⟩).map Prod.fst) ∧
    ((outers demoProblem (mocSweeper demoProblem (demoMoc gs)) 1 1 ⟨fun i _ => i + 1, fun _ => 5, fun _ => [fun _ _ => 1], [fun _ _ => 7]⟩).map Prod.fst) ≠
      ((outers otherProblem (mocSweeper otherProblem (demoMoc gs)) 1 1 ⟨fun i _ => i + 1, fun _ => 5, fun _ => [fun _ _ => 1], [fun _ _ => 7]⟩).map Prod.fst) := by
  decide +kernel

end Verif.Medium
