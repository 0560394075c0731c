import Verif.Medium.PositiveProps
import Mathlib.Algebra.BigOperators.Ring.Finset
import Mathlib.Data.List.Perm.Basic

/-!
# C110: neutron balance of a converged eigenvalue calculation
-/

set_option linter.unusedSectionVars false

namespace Verif.Medium

open Verif.XS Verif.Source

section
variable {K : Type} [Field K] [LinearOrder K] [IsStrictOrderedRing K]

/-- Sum over the regions of all materials. -/
def regionSum (rs : List (XsRegion (Mat K))) (f : Mat K → Nat → K) : K := (rs.map fun x => (x.regs.map (f x.mat)).sum).sum

theorem sum_regions (n : Nat) (rs : List (XsRegion (Mat K))) (hp : Partition rs) (hc : ∀ i, i < n ↔ ∃ x ∈ rs, i ∈ x.regs) (f : Nat → K) :
    ∑ i ∈ Finset.range n, f i = regionSum rs fun _ i => f i := by
  have hperm : (rs.flatMap (·.regs)).Perm (List.range n) := by
    rw [List.perm_ext_iff_of_nodup ?_ List.nodup_range]
    · intro i
      rw [List.mem_flatMap, List.mem_range, hc]
    · rw [List.nodup_flatMap]
      refine ⟨hp.1, hp.2.imp fun h => ?_⟩
      intro i hi hj
      exact h i hi hj
  have h1 : ∑ i ∈ Finset.range n, f i = ((List.range n).map f).sum := by
    rw [← List.sum_toFinset f List.nodup_range, List.toFinset_range]
  rw [h1, ← (hperm.map f).sum_eq, regionSum]
  clear hperm h1 hc hp
  induction rs with
  | nil => rfl
  | cons x rs ih => rw [List.flatMap_cons, List.map_append, List.sum_append, List.map_cons, List.sum_cons, ih]

theorem regionSum_congr (rs : List (XsRegion (Mat K))) (f g : Mat K → Nat → K) (h : ∀ x ∈ rs, ∀ i ∈ x.regs, f x.mat i = g x.mat i) :
    regionSum rs f = regionSum rs g := by
  unfold regionSum
  congr 1
  refine List.map_congr_left fun x hx => ?_
  congr 1
  exact List.map_congr_left fun i hi => h x hx i hi

theorem regionSum_add (rs : List (XsRegion (Mat K))) (f g : Mat K → Nat → K) :
    regionSum rs (fun m i => f m i + g m i) = regionSum rs f + regionSum rs g := by
  unfold regionSum
  rw [← List.sum_map_add]
  congr 1
  refine List.map_congr_left fun x _ => ?_
  rw [← List.sum_map_add]

theorem regionSum_finset (rs : List (XsRegion (Mat K))) (s : Finset Nat) (f : Nat → Mat K → Nat → K) :
    regionSum rs (fun m i => ∑ g ∈ s, f g m i) = ∑ g ∈ s, regionSum rs (f g) := by
  classical
  induction s using Finset.induction_on with
  | empty =>
    simp only [Finset.sum_empty, regionSum]
    rw [List.sum_eq_zero]
    intro y hy
    obtain ⟨x, -, rfl⟩ := List.mem_map.mp hy
    rw [List.sum_eq_zero]
    intro z hz
    obtain ⟨i, -, rfl⟩ := List.mem_map.mp hz
    rfl
  | insert a s ha ih => simp only [Finset.sum_insert ha, regionSum_add, ih]

/-- Weighted outgoing minus incoming boundary values in the sweep of a group. -/
def mocLeak (p : Problem K) (m : MocSetup K) (n : Nat → Nat) (g : Nat) (src : Nat → K) (s : MocState K) : K :=
  -Moc.totalLoss m.expo (trOf p.rs g) (selfScatter m.fpi p.ng p.rs s.flux g src true s.q) m.gs m.u n (m.planes.zip ((s.bin g).zip s.bout)) (fun _ => 0)

/-- C110: balance of an inner iteration: collisions of the new flux plus leakage are source plus self-scatter of the old flux. -/
theorem C110_inner (p : Problem K) (part : Partition p.rs) (cover : ∀ i, i < p.nReg ↔ ∃ x ∈ p.rs, i ∈ x.regs)
    (m : MocSetup K) (n : Nat → Nat) (hm : ∀ w ∈ m.planes, ∀ a ∈ w.angles, Moc.AngleOk p.nReg w.first (n a.iang1) a)
    (g : Nat) (hg : g < p.ng) (hfpi : m.fpi ≠ 0) (htr : ∀ x ∈ p.rs, x.mat.tr g ≠ 0) (hv : ∀ i < p.nReg, p.vol i ≠ 0) (src : Nat → K) (s : MocState K) :
    (regionSum p.rs fun mat i => p.vol i * (mat.tr g * (mocInner p m g src s).flux i g)) + mocLeak p m n g src s =
      regionSum p.rs fun mat i => p.vol i * (src i + mat.sc g g * s.flux i g) := by
  set q := selfScatter m.fpi p.ng p.rs s.flux g src true s.q with hq
  have hx : ∀ i < p.nReg, trOf p.rs g i ≠ 0 := by
    intro i hi
    obtain ⟨x, hx, hxi⟩ := (cover i).mp hi
    rw [trOf_at p.rs part g x hx i hxi]
    exact htr x hx
  have h := Moc.C31_balance m.expo m.fpi (trOf p.rs g) p.vol q m.gs m.u p.nReg n (m.planes.zip ((s.bin g).zip s.bout)) (fun w hw => by
      obtain ⟨h1, -⟩ := List.of_mem_zip (a := w.1) (b := w.2) hw
      exact hm _ h1) hx hv
  rw [sum_regions p.nReg p.rs part cover, sum_regions p.nReg p.rs part cover] at h
  have e1 : (regionSum p.rs fun mat i => p.vol i * (mat.tr g * (mocInner p m g src s).flux i g)) =
      regionSum p.rs fun _ i => trOf p.rs g i * p.vol i * (Moc.sweep1g m.expo m.fpi (trOf p.rs g) p.vol q m.gs m.u (m.planes.zip ((s.bin g).zip s.bout))).1 i := by
    refine regionSum_congr _ _ _ fun x hx i hi => ?_
    rw [trOf_at p.rs part g x hx i hi]
    simp only [mocInner, if_true]
    ring
  have e2 : (regionSum p.rs fun _ i => m.fpi * (trOf p.rs g i * q i) * p.vol i) = regionSum p.rs fun mat i => p.vol i * (src i + mat.sc g g * s.flux i g) := by
    refine regionSum_congr _ _ _ fun x hx i hi => ?_
    rw [trOf_at p.rs part g x hx i hi, hq, selfScatter_at m.fpi p.ng p.rs part s.flux g hg src true s.q x hx i hi, if_pos rfl]
    have := htr x hx
    field_simp
  rw [e1, h, e2, mocLeak, ← hq]
  ring

/-- The groups swept before group `g`. -/
theorem groupLoop_split {σ : Type} (p : Problem K) (w : Sweeper K σ) (fs : Nat → K) (a b g : Nat) (s : σ) :
    groupLoop p w fs (a + b) g s = (groupLoop p w fs a g s).bind fun t => groupLoop p w fs b (g + a) t := by
  induction a generalizing g s with
  | zero => simp [groupLoop]
  | succ a ih =>
    rw [show a + 1 + b = (a + b) + 1 by omega, groupLoop, groupLoop]
    cases assemble p.ng p.nReg p.rs none fs (w.flux s) g with
    | none => rfl
    | some src =>
      simp only [Option.bind_some]
      rw [ih, show g + 1 + a = g + (a + 1) by omega]

/-- A sweeper that changes the flux of the swept group only. -/
def OnlyGroup {σ : Type} (w : Sweeper K σ) : Prop := ∀ g src s i h, h ≠ g → w.flux (w.sweep g src s) i h = w.flux s i h

theorem mocSweep_only (p : Problem K) (m : MocSetup K) : OnlyGroup (mocSweeper p m) := by
  intro g src s i h hne
  show (mocSweep p m g src s).flux i h = s.flux i h
  unfold mocSweep
  induction m.nInner with
  | zero => rfl
  | succ N ih =>
    rw [List.range_succ, List.foldl_append]
    simp only [List.foldl_cons, List.foldl_nil, mocInner, if_neg hne]
    exact ih

theorem loop_only {σ : Type} (p : Problem K) (w : Sweeper K σ) (hw : OnlyGroup w) (fs : Nat → K) (n g : Nat) (s s' : σ) (h : groupLoop p w fs n g s = some s')
    (i g' : Nat) (hg : g' < g ∨ g + n ≤ g') : w.flux s' i g' = w.flux s i g' := by
  induction n generalizing g s with
  | zero =>
    simp only [groupLoop, Option.some.injEq] at h
    rw [h]
  | succ n ih =>
    rw [groupLoop] at h
    obtain ⟨src, -, h2⟩ := Option.bind_eq_some_iff.mp h
    rw [ih (g + 1) _ h2 (by omega), hw g src s i g' (by omega)]

/-- The state before group `g` is swept in an outer iteration, and the source of the group. -/
def AtGroup {σ : Type} (p : Problem K) (w : Sweeper K σ) (k : K) (s : σ) (g : Nat) (t : σ) (src : Nat → K) : Prop :=
  groupLoop p w (calcFissionSource p.ng p.rs k (w.flux s)) g 0 s = some t ∧
    assemble p.ng p.nReg p.rs none (calcFissionSource p.ng p.rs k (w.flux s)) (w.flux t) g = some src

theorem atGroup {σ : Type} (p : Problem K) (w : Sweeper K σ) (hw : OnlyGroup w) (k k' : K) (s s' : σ) (h : outer p w k s = some (k', s')) (g : Nat)
    (hg : g < p.ng) :
    ∃ t src, AtGroup p w k s g t src ∧ (∀ i, w.flux s' i g = w.flux (w.sweep g src t) i g) ∧
      ∀ i g', w.flux t i g' = if g' < g then w.flux s' i g' else w.flux s i g' := by
  rw [outer] at h
  obtain ⟨u, h1, h2⟩ := Option.map_eq_some_iff.mp h
  rw [Prod.mk.injEq] at h2
  obtain ⟨-, rfl⟩ := h2
  obtain ⟨b, hb⟩ : ∃ b, p.ng = g + (b + 1) := ⟨p.ng - g - 1, by omega⟩
  rw [hb, groupLoop_split] at h1
  obtain ⟨t, h3, h4⟩ := Option.bind_eq_some_iff.mp h1
  rw [← hb] at h3 h4
  rw [Nat.zero_add, groupLoop] at h4
  obtain ⟨src, h5, h6⟩ := Option.bind_eq_some_iff.mp h4
  refine ⟨t, src, ⟨h3, h5⟩, fun i => loop_only p w hw _ _ _ _ _ h6 i g (by omega), fun i g' => ?_⟩
  split
  · next hlt => rw [loop_only p w hw _ _ _ _ _ h6 i g' (by omega), hw g src t i g' (by omega)]
  · next hge => exact loop_only p w hw _ _ _ _ _ h3 i g' (by omega)

/-- Neutrons from fission, absorption (collisions that do not scatter) integrated over all regions. -/
def production (p : Problem K) (flux : Nat → Nat → K) : K := regionSum p.rs fun mat i => p.vol i * ∑ g ∈ Finset.range p.ng, mat.nf g * flux i g

def absorption (p : Problem K) (flux : Nat → Nat → K) : K :=
  regionSum p.rs fun mat i => p.vol i * ∑ g ∈ Finset.range p.ng, (mat.tr g - ∑ h ∈ Finset.range p.ng, mat.sc h g) * flux i g

/-- C110: balance of a group in a calculation whose flux an outer iteration leaves as it is, with any sweeper that keeps balance in such a sweep. -/
theorem C110_group {σ : Type} (p : Problem K) (part : Partition p.rs) (cover : ∀ i, i < p.nReg ↔ ∃ x ∈ p.rs, i ∈ x.regs) (hsc : ∀ x ∈ p.rs, Source.NonNeg p.ng x.mat)
    (w : Sweeper K σ) (hw : OnlyGroup w) (leak : Nat → (Nat → K) → σ → K) (k k' : K) (s s' : σ) (h : outer p w k s = some (k', s'))
    (hbal : ∀ g < p.ng, ∀ t src, AtGroup p w k s g t src → (∀ i < p.nReg, w.flux (w.sweep g src t) i g = w.flux s i g) →
      (regionSum p.rs fun mat i => p.vol i * (mat.tr g * w.flux (w.sweep g src t) i g)) + leak g src t =
        regionSum p.rs fun mat i => p.vol i * (src i + mat.sc g g * w.flux t i g))
    (hfix : ∀ i < p.nReg, ∀ g < p.ng, w.flux s' i g = w.flux s i g) (g : Nat) (hg : g < p.ng) :
    ∃ t src, AtGroup p w k s g t src ∧
      (regionSum p.rs fun mat i => p.vol i * (mat.tr g * w.flux s i g)) + leak g src t =
      regionSum p.rs fun mat i => p.vol i * (mat.ch g * ((∑ h ∈ Finset.range p.ng, mat.nf h * w.flux s i h) / k) + ∑ h ∈ Finset.range p.ng, mat.sc g h * w.flux s i h) := by
  obtain ⟨t, src, h1, h2, h3⟩ := atGroup p w hw k k' s s' h g hg
  have ht : ∀ i < p.nReg, ∀ g' < p.ng, w.flux t i g' = w.flux s i g' := by
    intro i hi g' hg'
    rw [h3 i g', hfix i hi g' hg', ite_self]
  refine ⟨t, src, h1, ?_⟩
  have hb := hbal g hg t src h1 fun i hi => by rw [← h2 i, hfix i hi g hg]
  have e1 : (regionSum p.rs fun mat i => p.vol i * (mat.tr g * w.flux s i g)) =
      regionSum p.rs fun mat i => p.vol i * (mat.tr g * w.flux (w.sweep g src t) i g) := by
    refine regionSum_congr _ _ _ fun x hx i hi => ?_
    have hi' : i < p.nReg := (cover i).mpr ⟨x, hx, hi⟩
    rw [← h2 i, hfix i hi' g hg]
  rw [e1, hb]
  refine regionSum_congr _ _ _ fun x hx i hi => ?_
  have hi' : i < p.nReg := (cover i).mpr ⟨x, hx, hi⟩
  obtain ⟨src', h4, h5⟩ := C28_assemble_partial p.ng p.nReg p.rs (calcFissionSource p.ng p.rs k (w.flux s)) (w.flux t) g part hsc hg
  have h6 : assemble p.ng p.nReg p.rs none (calcFissionSource p.ng p.rs k (w.flux s)) (w.flux t) g = some src := h1.2
  rw [h4, Option.some.injEq] at h6
  rw [← h6, h5 x hx i hi, defined, C47_fission_source p.ng p.rs part k (w.flux s) x hx i hi, zero_add, ht i hi' g hg, add_assoc]
  congr 2
  have e : ∀ h ∈ Finset.range p.ng, (if h ≠ g then x.mat.sc g h * w.flux t i h else 0) = x.mat.sc g h * w.flux s i h - if h = g then x.mat.sc g g * w.flux s i g else 0 := by
    intro h hh
    rw [ht i hi' h (Finset.mem_range.mp hh)]
    by_cases e : h = g
    · subst e; simp
    · simp [e]
  rw [Finset.sum_congr rfl e, Finset.sum_sub_distrib, Finset.sum_ite_eq' (Finset.range p.ng) g, if_pos (Finset.mem_range.mpr hg)]
  ring

/-- C110: then production is `k` times absorption plus leakage, and `k` stays as it is. -/
theorem C110_any {σ : Type} (p : Problem K) (part : Partition p.rs) (cover : ∀ i, i < p.nReg ↔ ∃ x ∈ p.rs, i ∈ x.regs) (hsc : ∀ x ∈ p.rs, Source.NonNeg p.ng x.mat)
    (hch : ∀ x ∈ p.rs, (∃ g < p.ng, x.mat.nf g ≠ 0) → ∑ g ∈ Finset.range p.ng, x.mat.ch g = 1)
    (w : Sweeper K σ) (hw : OnlyGroup w) (leak : Nat → (Nat → K) → σ → K) (k k' : K) (hk : k ≠ 0) (s s' : σ) (h : outer p w k s = some (k', s'))
    (hbal : ∀ g < p.ng, ∀ t src, AtGroup p w k s g t src → (∀ i < p.nReg, w.flux (w.sweep g src t) i g = w.flux s i g) →
      (regionSum p.rs fun mat i => p.vol i * (mat.tr g * w.flux (w.sweep g src t) i g)) + leak g src t =
        regionSum p.rs fun mat i => p.vol i * (src i + mat.sc g g * w.flux t i g))
    (hfix : ∀ i < p.nReg, ∀ g < p.ng, w.flux s' i g = w.flux s i g) :
    ∃ l : Nat → K, (∀ g < p.ng, ∃ t src, AtGroup p w k s g t src ∧ l g = leak g src t) ∧
      production p (w.flux s) = k * (absorption p (w.flux s) + ∑ g ∈ Finset.range p.ng, l g) ∧ (production p (w.flux s) ≠ 0 → k' = k) := by
  have hgrp := C110_group p part cover hsc w hw leak k k' s s' h hbal hfix
  haveI : Nonempty σ := ⟨s⟩
  choose! t src ha hb using hgrp
  refine ⟨fun g => leak g (src g) (t g), fun g hg => ⟨t g, src g, ha g hg, rfl⟩, ?_, ?_⟩
  · have hsum := Finset.sum_congr (rfl : Finset.range p.ng = Finset.range p.ng) fun g hg => hb g (Finset.mem_range.mp hg)
    rw [Finset.sum_add_distrib, ← regionSum_finset, ← regionSum_finset] at hsum
    have e1 : (regionSum p.rs fun mat i => ∑ g ∈ Finset.range p.ng, p.vol i * (mat.ch g * ((∑ h ∈ Finset.range p.ng, mat.nf h * w.flux s i h) / k) +
          ∑ h ∈ Finset.range p.ng, mat.sc g h * w.flux s i h)) =
        (regionSum p.rs fun mat i => p.vol i * ((∑ h ∈ Finset.range p.ng, mat.nf h * w.flux s i h) / k)) +
          regionSum p.rs fun mat i => p.vol i * ∑ g ∈ Finset.range p.ng, (∑ h ∈ Finset.range p.ng, mat.sc h g) * w.flux s i g := by
      rw [← regionSum_add]
      refine regionSum_congr _ _ _ fun x hx i hi => ?_
      rw [← Finset.mul_sum, Finset.sum_add_distrib, mul_add, ← Finset.sum_mul, Finset.sum_comm]
      congr 2
      · by_cases hz : ∃ g < p.ng, x.mat.nf g ≠ 0
        · rw [hch x hx hz, one_mul]
        · push Not at hz
          rw [Finset.sum_eq_zero (s := Finset.range p.ng) (f := fun h => x.mat.nf h * w.flux s i h) fun g hg => by rw [hz g (Finset.mem_range.mp hg), zero_mul]]
          simp
      · exact Finset.sum_congr rfl fun g _ => by rw [Finset.sum_mul]
    have e2 : (regionSum p.rs fun mat i => ∑ g ∈ Finset.range p.ng, p.vol i * (mat.tr g * w.flux s i g)) =
        absorption p (w.flux s) + regionSum p.rs fun mat i => p.vol i * ∑ g ∈ Finset.range p.ng, (∑ h ∈ Finset.range p.ng, mat.sc h g) * w.flux s i g := by
      rw [absorption, ← regionSum_add]
      refine regionSum_congr _ _ _ fun x hx i hi => ?_
      rw [← Finset.mul_sum, ← mul_add, ← Finset.sum_add_distrib]
      congr 1
      exact Finset.sum_congr rfl fun g _ => by ring
    have e3 : (regionSum p.rs fun mat i => p.vol i * ((∑ h ∈ Finset.range p.ng, mat.nf h * w.flux s i h) / k)) * k = production p (w.flux s) := by
      unfold production regionSum
      rw [← List.sum_map_mul_right]
      congr 1
      refine List.map_congr_left fun x _ => ?_
      rw [← List.sum_map_mul_right]
      congr 1
      refine List.map_congr_left fun i _ => ?_
      field_simp
    rw [e1, e2] at hsum
    rw [← e3]
    linear_combination (-k) * hsum
  · intro hne
    rw [outer] at h
    obtain ⟨u, h1, h2⟩ := Option.map_eq_some_iff.mp h
    rw [Prod.mk.injEq] at h2
    obtain ⟨h2, rfl⟩ := h2
    have hp : ∀ flux : Nat → Nat → K, totalFission p.ng p.rs p.vol flux = production p flux := fun flux => totalFission_eq _ _ _ _
    rw [hp, hp] at h2
    change k * production p (w.flux u) / production p (w.flux s) = k' at h2
    have : production p (w.flux u) = production p (w.flux s) := by
      refine regionSum_congr _ _ _ fun x hx i hi => ?_
      rw [Finset.sum_congr rfl fun g hg => by rw [hfix i ((cover i).mpr ⟨x, hx, hi⟩) g (Finset.mem_range.mp hg)]]
    rw [← h2, this, mul_div_assoc, div_self hne, mul_one]

/-- C110: the same for MoC with one inner iteration. -/
theorem C110_balance (p : Problem K) (part : Partition p.rs) (cover : ∀ i, i < p.nReg ↔ ∃ x ∈ p.rs, i ∈ x.regs) (hsc : ∀ x ∈ p.rs, Source.NonNeg p.ng x.mat)
    (htr : ∀ x ∈ p.rs, ∀ g < p.ng, x.mat.tr g ≠ 0) (hv : ∀ i < p.nReg, p.vol i ≠ 0)
    (hch : ∀ x ∈ p.rs, (∃ g < p.ng, x.mat.nf g ≠ 0) → ∑ g ∈ Finset.range p.ng, x.mat.ch g = 1)
    (m : MocSetup K) (n : Nat → Nat) (hm : ∀ w ∈ m.planes, ∀ a ∈ w.angles, Moc.AngleOk p.nReg w.first (n a.iang1) a) (hfpi : m.fpi ≠ 0) (hin : m.nInner = 1)
    (k k' : K) (hk : k ≠ 0) (s s' : MocState K) (h : outer p (mocSweeper p m) k s = some (k', s'))
    (hfix : ∀ i < p.nReg, ∀ g < p.ng, s'.flux i g = s.flux i g) :
    ∃ leak : Nat → K, (∀ g < p.ng, ∃ t src, AtGroup p (mocSweeper p m) k s g t src ∧ leak g = mocLeak p m n g src t) ∧
      production p s.flux = k * (absorption p s.flux + ∑ g ∈ Finset.range p.ng, leak g) ∧ (production p s.flux ≠ 0 → k' = k) := by
  refine C110_any p part cover hsc hch (mocSweeper p m) (mocSweep_only p m) (mocLeak p m n) k k' hk s s' h (fun g hg t src _ _ => ?_) hfix
  have hsw : (mocSweeper p m).sweep g src t = mocInner p m g src t := by
    show mocSweep p m g src t = _
    simp [mocSweep, hin]
  rw [hsw]
  exact C110_inner p part cover m n hm g hg hfpi (fun x hx => htr x hx g hg) hv src t

/-! ### Closed systems -/

/-- Weighted sum of boundary values over the angles of a plane. -/
def boundarySum (n : Nat → Nat) (ws : List (Moc.AngleWork K)) (b : Nat → Nat → K) : K :=
  (ws.map fun w => w.wt * ∑ j ∈ Finset.range (n w.iang1), (b w.iang1 j + b w.iang2 j)).sum

/-- The angles of a plane are swept once. -/
def Once (ws : List (Moc.AngleWork K)) : Prop := (ws.flatMap fun w => [w.iang1, w.iang2]).Nodup

theorem bout_other (expo : K → K) (xstr q : Nat → K) (gs : Bool) (u : Moc.BcUpdate K) (first : Nat) (ws : List (Moc.AngleWork K)) (s : Moc.St K) (a : Nat)
    (ha : a ∉ ws.flatMap fun w => [w.iang1, w.iang2]) : (ws.foldl (Moc.sweepAngle expo xstr q gs u first) s).bout a = s.bout a := by
  induction ws generalizing s with
  | nil => rfl
  | cons w ws ih =>
    simp only [List.flatMap_cons, List.cons_append, List.nil_append, List.mem_cons, not_or] at ha
    rw [List.foldl_cons, ih _ ha.2.2]
    simp only [Moc.sweepAngle, Moc.upd, if_neg ha.1, if_neg ha.2.1]

theorem jacobi_bin (expo : K → K) (xstr q : Nat → K) (u : Moc.BcUpdate K) (first : Nat) (ws : List (Moc.AngleWork K)) (s : Moc.St K) :
    (ws.foldl (Moc.sweepAngle expo xstr q false u first) s).bin = s.bin := by
  induction ws generalizing s with
  | nil => rfl
  | cons w ws ih =>
    rw [List.foldl_cons, ih]
    simp [Moc.sweepAngle]

theorem jacobi_loss (expo : K → K) (xstr q : Nat → K) (u : Moc.BcUpdate K) (first : Nat) (n : Nat → Nat) (ws : List (Moc.AngleWork K)) (ho : Once ws)
    (s : Moc.St K) : Moc.planeLoss expo xstr q false u first n ws s =
      boundarySum n ws s.bin - boundarySum n ws (ws.foldl (Moc.sweepAngle expo xstr q false u first) s).bout := by
  induction ws generalizing s with
  | nil => simp [Moc.planeLoss, boundarySum]
  | cons w ws ih =>
    have ho' : (w.iang1 :: w.iang2 :: ws.flatMap fun w => [w.iang1, w.iang2]).Nodup := by simpa [Once] using ho
    rw [List.nodup_cons, List.nodup_cons] at ho'
    obtain ⟨h1, h2, h3⟩ := ho'
    rw [Moc.planeLoss, ih h3, List.foldl_cons]
    have e1 := bout_other expo xstr q false u first ws (Moc.sweepAngle expo xstr q false u first s w) w.iang1 (fun hh => h1 (List.mem_cons_of_mem _ hh))
    have e2 := bout_other expo xstr q false u first ws (Moc.sweepAngle expo xstr q false u first s w) w.iang2 h2
    have e3 : (Moc.sweepAngle expo xstr q false u first s w).bin = s.bin := by simp [Moc.sweepAngle]
    rw [e3]
    simp only [boundarySum, List.map_cons, List.sum_cons, Moc.slotLoss]
    rw [e1, e2]
    have : ∀ f g h k : Nat → K, ∑ j ∈ Finset.range (n w.iang1), ((f j - h j) + (g j - k j)) =
        (∑ j ∈ Finset.range (n w.iang1), (f j + g j)) - ∑ j ∈ Finset.range (n w.iang1), (h j + k j) := by
      intro f g h k
      rw [← Finset.sum_sub_distrib]
      exact Finset.sum_congr rfl fun j _ => by ring
    rw [this]
    ring

/-- All outgoing neutrons come in again: the update of all angles keeps the weighted sum. -/
def Closed (n : Nat → Nat) (u : Moc.BcUpdate K) (ws : List (Moc.AngleWork K)) : Prop := ∀ b o, boundarySum n ws (u.all b o) = boundarySum n ws o

/-- The boundary values of two lists of planes agree in the slots. -/
def SameOn (nAng : Nat) (n : Nat → Nat) (l l' : List (Nat → Nat → K)) : Prop := List.Forall₂ (fun b b' => ∀ a < nAng, ∀ j < n a, b a j = b' a j) l l'

theorem boundarySum_congr (nAng : Nat) (n : Nat → Nat) (ws : List (Moc.AngleWork K)) (hw : ∀ w ∈ ws, w.iang1 < nAng ∧ w.iang2 < nAng ∧ n w.iang2 = n w.iang1)
    (b b' : Nat → Nat → K) (h : ∀ a < nAng, ∀ j < n a, b a j = b' a j) : boundarySum n ws b = boundarySum n ws b' := by
  unfold boundarySum
  congr 1
  refine List.map_congr_left fun w hw' => ?_
  obtain ⟨h1, h2, h3⟩ := hw w hw'
  congr 1
  refine Finset.sum_congr rfl fun j hj => ?_
  have hj := Finset.mem_range.mp hj
  rw [h _ h1 j hj, h _ h2 j (by rw [h3]; exact hj)]

/-- C110: with the Jacobi update in a closed system nothing leaks if the incoming values stay as they are. -/
theorem C110_closed (p : Problem K) (m : MocSetup K) (nAng : Nat) (n : Nat → Nat) (hgs : m.gs = false) (hok : ∀ w ∈ m.planes, PlaneOk p.nReg nAng n w)
    (honce : ∀ w ∈ m.planes, Once w.angles) (hcl : ∀ w ∈ m.planes, Closed n m.u w.angles) (g : Nat) (src : Nat → K) (s : MocState K)
    (hin : (s.bin g).length = m.planes.length) (hout : s.bout.length = m.planes.length)
    (hfix : SameOn nAng n (s.bin g) ((mocInner p m g src s).bin g)) : mocLeak p m n g src s = 0 := by
  set q := selfScatter m.fpi p.ng p.rs s.flux g src true s.q with hq
  have hf : (mocInner p m g src s).bin g =
      (Moc.sweepPlanes m.expo (trOf p.rs g) q false m.u (m.planes.zip ((s.bin g).zip s.bout)) (fun _ => 0)).2.map Prod.fst := by
    simp only [mocInner, if_true, Moc.sweep1g, hgs]
    rfl
  rw [hf] at hfix
  have key : ∀ (ws : List (Moc.PlaneWork K)) (bi bo : List (Nat → Nat → K)) (t : Nat → K), (∀ w ∈ ws, w ∈ m.planes) → bi.length = ws.length →
      bo.length = ws.length → SameOn nAng n bi ((Moc.sweepPlanes m.expo (trOf p.rs g) q false m.u (ws.zip (bi.zip bo)) t).2.map Prod.fst) →
      Moc.totalLoss m.expo (trOf p.rs g) q false m.u n (ws.zip (bi.zip bo)) t = 0 := by
    intro ws
    induction ws with
    | nil => intro bi bo t _ _ _ _; simp [Moc.totalLoss]
    | cons w ws ih =>
      intro bi bo t hsub h1 h2 hs
      match bi, bo, h1, h2 with
      | b :: bi, o :: bo, h1, h2 =>
        simp only [List.zip_cons_cons, Moc.sweepPlanes, List.map_cons, SameOn, List.forall₂_cons] at hs
        obtain ⟨hs1, hs2⟩ := hs
        simp only [List.zip_cons_cons, Moc.totalLoss]
        rw [ih bi bo _ (fun x hx => hsub x (by simp [hx])) (by simpa using h1) (by simpa using h2) hs2, add_zero]
        have hw := hsub w (by simp)
        rw [jacobi_loss _ _ _ _ _ _ _ (honce w hw)]
        have hang : ∀ x ∈ w.angles, x.iang1 < nAng ∧ x.iang2 < nAng ∧ n x.iang2 = n x.iang1 := fun x hx => ((hok w hw).angle x hx).2
        have e : (Moc.sweepPlane m.expo (trOf p.rs g) q false m.u w ⟨t, b, o⟩).bin =
            m.u.all b (w.angles.foldl (Moc.sweepAngle m.expo (trOf p.rs g) q false m.u w.first) ⟨t, b, o⟩).bout := by
          simp only [Moc.sweepPlane, Bool.false_eq_true, if_false, jacobi_bin]
        rw [e] at hs1
        rw [boundarySum_congr nAng n _ hang _ _ hs1, hcl w hw, sub_self]
  rw [mocLeak, hgs, ← hq, key m.planes (s.bin g) s.bout _ (fun _ h => h) hin hout hfix, neg_zero]

theorem loop_other {σ α : Type} (p : Problem K) (w : Sweeper K σ) (F : σ → Nat → α) (hF : ∀ g src s h, h ≠ g → F (w.sweep g src s) h = F s h) (fs : Nat → K) (n g : Nat)
    (s s' : σ) (h : groupLoop p w fs n g s = some s') (g' : Nat) (hg : g' < g ∨ g + n ≤ g') : F s' g' = F s g' := by
  induction n generalizing g s with
  | zero =>
    simp only [groupLoop, Option.some.injEq] at h
    rw [h]
  | succ n ih =>
    rw [groupLoop] at h
    obtain ⟨src, -, h2⟩ := Option.bind_eq_some_iff.mp h
    rw [ih (g + 1) _ h2 (by omega), hF g src s g' (by omega)]

theorem loop_inv {σ : Type} (p : Problem K) (w : Sweeper K σ) (inv : σ → Prop) (hinv : ∀ g < p.ng, ∀ src s, inv s → inv (w.sweep g src s)) (fs : Nat → K) (n g : Nat)
    (hn : g + n ≤ p.ng) (s s' : σ) (h : groupLoop p w fs n g s = some s') (hs : inv s) : inv s' := by
  induction n generalizing g s with
  | zero =>
    simp only [groupLoop, Option.some.injEq] at h
    rw [← h]; exact hs
  | succ n ih =>
    rw [groupLoop] at h
    obtain ⟨src, -, h2⟩ := Option.bind_eq_some_iff.mp h
    exact ih (g + 1) (by omega) _ h2 (hinv g (by omega) src s hs)

/-- Numbers of planes. -/
def Planes (p : Problem K) (m : MocSetup K) (s : MocState K) : Prop := (∀ g < p.ng, (s.bin g).length = m.planes.length) ∧ s.bout.length = m.planes.length

theorem sweepPlanes_length (expo : K → K) (xstr q : Nat → K) (gs : Bool) (u : Moc.BcUpdate K) (ps : List (Moc.PlaneWork K × (Nat → Nat → K) × (Nat → Nat → K)))
    (t : Nat → K) : (Moc.sweepPlanes expo xstr q gs u ps t).2.length = ps.length := by
  induction ps generalizing t with
  | nil => rfl
  | cons p ps ih =>
    obtain ⟨p, b, o⟩ := p
    simp only [Moc.sweepPlanes, List.length_cons, ih]

theorem mocInner_planes (p : Problem K) (m : MocSetup K) (g : Nat) (hg : g < p.ng) (src : Nat → K) (s : MocState K) (hs : Planes p m s) :
    Planes p m (mocInner p m g src s) := by
  have hlen : (m.planes.zip ((s.bin g).zip s.bout)).length = m.planes.length := by
    rw [List.length_zip, List.length_zip, hs.1 g hg, hs.2]; simp
  constructor
  · intro g' hg'
    simp only [mocInner, Moc.sweep1g]
    split
    · rw [List.length_map, sweepPlanes_length, hlen]
    · exact hs.1 g' hg'
  · simp only [mocInner, Moc.sweep1g]
    rw [List.length_map, sweepPlanes_length, hlen]

/-- C110: an eigenvalue calculation with MoC in a closed system, one inner iteration and Jacobi update, that has converged (an outer iteration leaves flux
and incoming values as they are): `k` is production divided by absorption. -/
theorem C110_k (p : Problem K) (part : Partition p.rs) (cover : ∀ i, i < p.nReg ↔ ∃ x ∈ p.rs, i ∈ x.regs) (hsc : ∀ x ∈ p.rs, Source.NonNeg p.ng x.mat)
    (htr : ∀ x ∈ p.rs, ∀ g < p.ng, x.mat.tr g ≠ 0) (hv : ∀ i < p.nReg, p.vol i ≠ 0)
    (hch : ∀ x ∈ p.rs, (∃ g < p.ng, x.mat.nf g ≠ 0) → ∑ g ∈ Finset.range p.ng, x.mat.ch g = 1)
    (m : MocSetup K) (nAng : Nat) (n : Nat → Nat) (hfpi : m.fpi ≠ 0) (hin : m.nInner = 1) (hgs : m.gs = false) (hok : ∀ w ∈ m.planes, PlaneOk p.nReg nAng n w)
    (honce : ∀ w ∈ m.planes, Once w.angles) (hcl : ∀ w ∈ m.planes, Closed n m.u w.angles)
    (k k' : K) (hk : k ≠ 0) (s s' : MocState K) (hp : Planes p m s) (h : outer p (mocSweeper p m) k s = some (k', s'))
    (hfix : ∀ i < p.nReg, ∀ g < p.ng, s'.flux i g = s.flux i g) (hbc : ∀ g < p.ng, SameOn nAng n (s.bin g) (s'.bin g)) :
    production p s.flux = k * absorption p s.flux := by
  obtain ⟨leak, h1, h2, -⟩ := C110_balance p part cover hsc htr hv hch m n (fun w hw a ha => ((hok w hw).angle a ha).1) hfpi hin k k' hk s s' h hfix
  rw [h2, Finset.sum_eq_zero, add_zero]
  intro g hg
  have hg := Finset.mem_range.mp hg
  obtain ⟨t, src, ⟨ha, hb⟩, hl⟩ := h1 g hg
  have hsw : ∀ g src t, (mocSweeper p m).sweep g src t = mocInner p m g src t := by
    intro g src t
    show mocSweep p m g src t = _
    simp [mocSweep, hin]
  have hF : ∀ g src s h, h ≠ g → ((mocSweeper p m).sweep g src s).bin h = s.bin h := by
    intro g src s h hne
    rw [hsw]
    simp only [mocInner, if_neg hne]
  have ht1 : t.bin g = s.bin g := loop_other p (mocSweeper p m) MocState.bin hF _ _ _ _ _ ha g (by omega)
  have ht2 : Planes p m t := loop_inv p (mocSweeper p m) (Planes p m) (fun g hg src s hs => by rw [hsw]; exact mocInner_planes p m g hg src s hs) _ g 0 (by omega) _ _ ha hp
  have hs' : s'.bin g = (mocInner p m g src t).bin g := by
    rw [outer] at h
    obtain ⟨u, h3, h4⟩ := Option.map_eq_some_iff.mp h
    rw [Prod.mk.injEq] at h4
    obtain ⟨-, rfl⟩ := h4
    obtain ⟨b, hbn⟩ : ∃ b, p.ng = g + (b + 1) := ⟨p.ng - g - 1, by omega⟩
    have hsp := groupLoop_split p (mocSweeper p m) (calcFissionSource p.ng p.rs k ((mocSweeper p m).flux s)) g (b + 1) 0 s
    rw [← hbn, h3, ha, Option.bind_some, Nat.zero_add, groupLoop, hb, Option.bind_some, hsw] at hsp
    exact loop_other p (mocSweeper p m) MocState.bin hF _ _ _ _ _ hsp.symm g (by omega)
  rw [hl]
  refine C110_closed p m nAng n hgs hok honce hcl g src t (ht2.1 g hg) ht2.2 ?_
  rw [← hs', ht1]
  exact hbc g hg

end

/-- The closed system of `C108` with one inner iteration. -/
def demoClosed : MocSetup ℚ := { demoMoc false with nInner := 1 }

theorem demo_closedOk : MocOk demoProblem demoClosed 2 (fun _ => 2) := ⟨(demo_mocOk false).fpi, (demo_mocOk false).planes, (demo_mocOk false).reflects⟩

theorem demo_closed : ∀ w ∈ demoClosed.planes, Once w.angles ∧ Closed (fun _ => 2) demoClosed.u w.angles := by
  intro w hw
  simp only [demoClosed, demoMoc, List.mem_singleton] at hw
  subst hw
  refine ⟨by unfold Once; decide, ?_⟩
  intro b o
  simp only [boundarySum, Moc.demo, List.map_cons, List.map_nil, demoClosed, demoMoc, Finset.sum_range_succ, Finset.sum_range_zero]
  simp
  ring

/-- The hypotheses of `C110_k` hold for a state of the closed system. -/
example : ∃ s s' : MocState ℚ, outer demoProblem (mocSweeper demoProblem demoClosed) 2 s = some (2, s') ∧ Planes demoProblem demoClosed s ∧
    (∀ i < demoProblem.nReg, ∀ g < demoProblem.ng, s'.flux i g = s.flux i g) ∧ (∀ g < demoProblem.ng, SameOn 2 (fun _ => 2) (s.bin g) (s'.bin g)) ∧
    production demoProblem s.flux = 4 := by
  let s : MocState ℚ := ⟨fun _ _ => 1, fun _ => 7, fun _ => [fun _ _ => 1 / 12], [fun _ _ => 99]⟩
  obtain ⟨s', h1, h2⟩ := C108_moc demoProblem 2 (fun _ => 1) demo_infinite demo_fission demoClosed 2 (fun _ => 2) demo_closedOk 1 s
    ⟨fun _ _ _ _ => rfl, fun _ _ => rfl, rfl, fun g _ b hb => by
      simp only [s, List.mem_singleton] at hb
      subst hb
      intro a _ j _
      simp [demoClosed, demoMoc]⟩
  refine ⟨s, s', ?_, ⟨fun _ _ => rfl, rfl⟩, fun i hi g hg => h2.flux i hi g hg, fun g hg => ?_, by decide +kernel⟩
  · cases hh : outer demoProblem (mocSweeper demoProblem demoClosed) 2 s with
    | none => simp [outers, hh] at h1
    | some r => simpa [outers, hh] using h1
  · have hl := h2.nin g hg
    have hb := h2.bin g hg
    obtain ⟨b, hb'⟩ := List.length_eq_one_iff.mp (show (s'.bin g).length = 1 from hl)
    rw [hb'] at hb ⊢
    refine List.Forall₂.cons (fun a ha j hj => ?_) List.Forall₂.nil
    rw [hb b (by simp) a ha j hj]
    simp [demoClosed, demoMoc]

/-- One region with one ray between vacuum boundaries. -/
def leakProblem : Problem ℚ := ⟨1, 1, [⟨⟨fun _ => 2, fun _ => 1, fun _ => 1, fun _ => 1, fun _ _ => 1⟩, [0]⟩], fun _ => 1⟩

def leakMoc : MocSetup ℚ :=
  ⟨fun x => 1 / (1 - x), 12, false, ⟨fun _ _ _ _ _ => 0, fun _ _ _ _ => 0⟩, [⟨0, [⟨0, 1, 1, 1/2, [⟨[⟨0, 1⟩], 0, 0⟩]⟩]⟩], 1⟩

def leakState : MocState ℚ := ⟨fun _ _ => 1, fun _ => 7, fun _ => [fun _ _ => 0], [fun _ _ => 99]⟩

/-- The hypotheses of `C110_balance` hold for a system with leakage: 1 = 35/37 (1 + 2/35). -/
example : ((outer leakProblem (mocSweeper leakProblem leakMoc) (35 / 37) leakState).map fun r => (r.1, r.2.flux 0 0)) = some (35 / 37, 1) ∧
    production leakProblem leakState.flux = 1 ∧ absorption leakProblem leakState.flux = 1 ∧
    (∀ w ∈ leakMoc.planes, ∀ a ∈ w.angles, Moc.AngleOk 1 w.first 1 a) := by
  refine ⟨by decide +kernel, by decide +kernel, by decide +kernel, ?_⟩
  intro w hw a ha
  simp only [leakMoc, List.mem_singleton] at hw
  subst hw
  simp only [List.mem_singleton] at ha
  subst ha
  exact ⟨by decide, by decide +kernel, by decide +kernel, by decide +kernel⟩

end Verif.Medium
