import Verif.Source.Lemmas
import Mathlib.Algebra.Order.Ring.Rat
import Mathlib.Algebra.Order.Field.Rat
import Mathlib.Algebra.Field.Rat
import Mathlib.Tactic.NormNum

/-!
# C28 (source assembly), C47 (power iteration), C55 (source for given cross sections)
-/

set_option linter.unusedSectionVars false

namespace Verif.Source
open Verif.XS Verif.Scatter

variable {K : Type} [Field K] [LinearOrder K] [IsStrictOrderedRing K]

/-- Non-negative scattering data. -/
def NonNeg (ng : Nat) (m : Mat K) : Prop := ∀ p q, p < ng → q < ng → 0 ≤ m.sc p q

/-- The source the data define for group `ig` in region `i` filled with material `m`, without self-scatter. -/
def defined (ng : Nat) (m : Mat K) (ext : K) (fs : Nat → K) (flux : Nat → Nat → K) (ig i : Nat) : K :=
  ext + m.ch ig * fs i + ∑ g ∈ Finset.range ng, if g ≠ ig then m.sc ig g * flux i g else 0

/-- C28, the claim for an arbitrary external source that has been accepted: `e g i` is the source of group `g` in
region `i`, the file's array being indexed by group first as `add_external` demands. -/
def C28_claim (K : Type) [Field K] [LinearOrder K] : Prop :=
  ∀ (ng nReg : Nat) (rs : List (XsRegion (Mat K))) (e ex : Ext K) (fs : Nat → K) (flux : Nat → Nat → K) (ig : Nat),
    Partition rs → (∀ x ∈ rs, NonNeg ng x.mat) → addExternal ng nReg e = some ex → ig < ng →
    ∃ s, assemble ng nReg rs (some ex) fs flux ig = some s ∧
      ∀ x ∈ rs, ∀ i ∈ x.regs, i < nReg → s i = defined ng x.mat (e.data ig i) fs flux ig i

/-- C28, partial: without an external source the assembled source is the fission plus in-scattering source defined
by the data.  Missing: external sources, for which the claim is false. -/
theorem C28_assemble_partial (ng nReg : Nat) (rs : List (XsRegion (Mat K))) (fs : Nat → K) (flux : Nat → Nat → K) (ig : Nat)
    (hp : Partition rs) (hn : ∀ x ∈ rs, NonNeg ng x.mat) (hig : ig < ng) :
    ∃ s, assemble ng nReg rs none fs flux ig = some s ∧
      ∀ x ∈ rs, ∀ i ∈ x.regs, s i = defined ng x.mat 0 fs flux ig i := by
  refine ⟨_, rfl, ?_⟩
  intro x hx i hi
  simp only
  rw [inScatter_at ng rs hp flux ig hig _ x hx i hi (hn x hx), fission_at rs hp fs ig _ x hx i hi]
  rfl

/-- C28: the final isotropic source is the assembled source plus self-scatter, per unit solid angle. -/
theorem C28_self_scatter (fpi : K) (hfpi : fpi ≠ 0) (ng : Nat) (rs : List (XsRegion (Mat K))) (flux : Nat → Nat → K) (ig : Nat)
    (src q : Nat → K) (hp : Partition rs) (hig : ig < ng) (x : XsRegion (Mat K)) (hx : x ∈ rs) (i : Nat) (hi : i ∈ x.regs) :
    selfScatter fpi ng rs flux ig src false q i * fpi = src i + x.mat.sc ig ig * flux i ig := by
  rw [selfScatter_at fpi ng rs hp flux ig hig src false q x hx i hi]
  simp only [Bool.false_eq_true, if_false]
  field_simp

/-- C28: summed over groups, in-scatter plus self-scatter is the total out-scatter (`out(g)` times flux): scattering
neither creates nor destroys neutrons. -/
theorem C28_conservation (fpi : K) (hfpi : fpi ≠ 0) (ng nReg : Nat) (rs : List (XsRegion (Mat K))) (fs : Nat → K)
    (flux : Nat → Nat → K) (q : Nat → K) (hp : Partition rs) (hn : ∀ x ∈ rs, NonNeg ng x.mat)
    (x : XsRegion (Mat K)) (hx : x ∈ rs) (i : Nat) (hi : i ∈ x.regs) :
    ∑ ig ∈ Finset.range ng, (selfScatter fpi ng rs flux ig ((assemble ng nReg rs none fs flux ig).getD (fun _ => 0)) false q i * fpi
      - x.mat.ch ig * fs i) = ∑ g ∈ Finset.range ng, (build ng x.mat.sc).out g * flux i g := by
  have h1 : ∀ ig ∈ Finset.range ng, selfScatter fpi ng rs flux ig ((assemble ng nReg rs none fs flux ig).getD (fun _ => 0)) false q i * fpi
      - x.mat.ch ig * fs i = ∑ g ∈ Finset.range ng, x.mat.sc ig g * flux i g := by
    intro ig hig
    rw [Finset.mem_range] at hig
    obtain ⟨s, hs, hv⟩ := C28_assemble_partial ng nReg rs fs flux ig hp hn hig
    rw [hs, Option.getD_some, C28_self_scatter fpi hfpi ng rs flux ig s q hp hig x hx i hi, hv x hx i hi]
    unfold defined
    have : ∑ g ∈ Finset.range ng, x.mat.sc ig g * flux i g =
        (∑ g ∈ Finset.range ng, if g ≠ ig then x.mat.sc ig g * flux i g else 0) + x.mat.sc ig ig * flux i ig := by
      have hm : ig ∈ Finset.range ng := Finset.mem_range.mpr hig
      have e : x.mat.sc ig ig * flux i ig = ∑ g ∈ Finset.range ng, if g = ig then x.mat.sc ig g * flux i g else 0 := by
        rw [Finset.sum_ite_eq' (Finset.range ng) ig (fun g => x.mat.sc ig g * flux i g), if_pos hm]
      rw [e, ← Finset.sum_add_distrib]
      apply Finset.sum_congr rfl
      intro g _
      by_cases hg : g = ig <;> simp [hg]
    rw [this]; ring
  rw [Finset.sum_congr rfl h1, Finset.sum_comm]
  apply Finset.sum_congr rfl
  intro g hg
  rw [C22_out_partial ng x.mat.sc (hn x hx) g (Finset.mem_range.mp hg), Finset.sum_mul]

/-- An auxiliary source is added to every region. -/
theorem C28_auxiliary (nReg : Nat) (aux a : Nat → K) (i : Nat) (hi : i < nReg) : auxiliary nReg aux a i = a i + aux i := by
  unfold auxiliary
  rw [addTo_eq _ List.nodup_range, if_pos (List.mem_range.mpr hi)]

/-- A material without any cross sections. -/
def emptyMat : Mat ℚ := ⟨fun _ => 0, fun _ => 0, fun _ => 0, fun _ => 0, fun _ _ => 0⟩

/-- Two groups, two regions: what is accepted as (group, region) is read as (region, group). -/
theorem C28_claim_false : ¬ C28_claim ℚ := by
  intro h
  obtain ⟨s, hs, hv⟩ := h 2 2 [⟨emptyMat, [0, 1]⟩] ⟨2, 2, fun g i => if g = 0 ∧ i = 1 then 1 else 0⟩ _ (fun _ => 0)
    (fun _ _ => 0) 0 ⟨by simp, by simp⟩ (by intro x hx p q _ _; rw [List.mem_singleton] at hx; subst hx; simp [emptyMat])
    rfl (by decide)
  have h1 := hv _ (List.mem_singleton.mpr rfl) 1 (by simp) (by decide)
  have h2 : assemble 2 2 [(⟨emptyMat, [0, 1]⟩ : XsRegion (Mat ℚ))]
      (some ⟨2, 2, fun g i => if g = 0 ∧ i = 1 then 1 else 0⟩) (fun _ => 0) (fun _ _ => 0) 0 = some s := hs
  have h3 : (assemble 2 2 [(⟨emptyMat, [0, 1]⟩ : XsRegion (Mat ℚ))]
      (some ⟨2, 2, fun g i => if g = 0 ∧ i = 1 then 1 else 0⟩) (fun _ => 0) (fun _ _ => 0) 0).map (fun s => s 1) = some 0 := by
    decide +kernel
  rw [h2] at h3
  simp only [Option.map_some, Option.some.injEq] at h3
  rw [h3] at h1
  revert h1
  decide +kernel

/-- What the code does with an accepted external source of `nGroup` by `nReg` values: with more regions than groups
every group is read out of bounds. -/
theorem C28_external_out_of_bounds (ng nReg : Nat) (e ex : Ext K) (h : addExternal ng nReg e = some ex) (hlt : ng < nReg)
    (ig : Nat) : initializeGroup nReg (some ex) ig = none := by
  have hex : ex = e ∧ e.extent0 = ng := by
    unfold addExternal at h
    split_ifs at h with h1 h2
    exact ⟨(Option.some.inj h).symm, not_not.mp h1⟩
  obtain ⟨rfl, he⟩ := hex
  unfold initializeGroup
  have stuck : ∀ l : List Nat, l.foldl (fun (a : Option (Nat → K)) i =>
      match a, ex.get i ig with
      | some a, some v => some (Function.update a i v)
      | _, _ => none) none = none := by
    intro l
    induction l with
    | nil => rfl
    | cons i t ih => exact ih
  have key : ∀ m, ng < m → (List.range m).foldl (fun (a : Option (Nat → K)) i =>
      match a, ex.get i ig with
      | some a, some v => some (Function.update a i v)
      | _, _ => none) (some (fun _ => 0)) = none := by
    intro m hm
    induction m with
    | zero => omega
    | succ m ih =>
      rw [List.range_succ, List.foldl_append]
      by_cases hc : ng < m
      · rw [ih hc]; exact stuck [m]
      · have : m = ng := by omega
        have hg : ex.get m ig = none := by
          unfold Ext.get; rw [if_neg]; rintro ⟨h1, -⟩; omega
        rw [List.foldl_cons, List.foldl_nil, hg]
        split <;> simp_all
  exact key nReg hlt

/-! ## C55: the source for given cross sections -/

/-- C55, the claim: `self_scatter(g, xstr)` divides the source by the cross sections it is given. -/
def C55_claim (K : Type) [Field K] [LinearOrder K] : Prop :=
  ∀ (fpi : K) (ng : Nat) (rs : List (XsRegion (Mat K))) (flux : Nat → Nat → K) (ig : Nat) (src q xstr : Nat → K),
    0 < fpi → Partition rs → ig < ng → (∀ i, 0 < xstr i) → (∀ x ∈ rs, 0 < x.mat.tr ig) →
    ∀ x ∈ rs, ∀ i ∈ x.regs, selfScatter fpi ng rs flux ig src true q i * (xstr i * fpi) = src i + x.mat.sc ig ig * flux i ig

/-- C55, partial: true when the cross sections given are those of the materials.  Missing: cross sections changed by
source splitting. -/
theorem C55_self_scatter_partial (fpi : K) (hfpi : fpi ≠ 0) (ng : Nat) (rs : List (XsRegion (Mat K))) (flux : Nat → Nat → K) (ig : Nat)
    (src q xstr : Nat → K) (hp : Partition rs) (hig : ig < ng) (x : XsRegion (Mat K)) (hx : x ∈ rs) (htr : x.mat.tr ig ≠ 0)
    (i : Nat) (hi : i ∈ x.regs) (he : xstr i = x.mat.tr ig) :
    selfScatter fpi ng rs flux ig src true q i * (xstr i * fpi) = src i + x.mat.sc ig ig * flux i ig := by
  rw [selfScatter_at fpi ng rs hp flux ig hig src true q x hx i hi, he]
  simp only [if_true]
  field_simp

/-- C55: in general the source is off by the ratio of the given to the unmodified cross section. -/
theorem C55_error (fpi : K) (hfpi : fpi ≠ 0) (ng : Nat) (rs : List (XsRegion (Mat K))) (flux : Nat → Nat → K) (ig : Nat)
    (src q xstr : Nat → K) (hp : Partition rs) (hig : ig < ng) (x : XsRegion (Mat K)) (hx : x ∈ rs) (htr : x.mat.tr ig ≠ 0)
    (i : Nat) (hi : i ∈ x.regs) :
    selfScatter fpi ng rs flux ig src true q i * (xstr i * fpi) =
      (src i + x.mat.sc ig ig * flux i ig) * (xstr i / x.mat.tr ig) := by
  rw [selfScatter_at fpi ng rs hp flux ig hig src true q x hx i hi]
  simp only [if_true]
  field_simp

/-- A single region of cross section one. -/
def unitMat : Mat ℚ := ⟨fun _ => 1, fun _ => 1, fun _ => 0, fun _ => 1, fun _ _ => 0⟩

theorem C55_claim_false : ¬ C55_claim ℚ := by
  intro h
  have := h 1 1 [⟨unitMat, [0]⟩] (fun _ _ => 0) 0 (fun _ => 1) (fun _ => 0) (fun _ => 2) (by norm_num)
    ⟨by simp, by simp⟩ (by decide) (by intro i; norm_num)
    (by intro x hx; rw [List.mem_singleton] at hx; subst hx; norm_num [unitMat])
    _ (List.mem_singleton.mpr rfl) 0 (by simp)
  revert this
  decide +kernel

/-! ## C47: power iteration -/

/-- Volume-integrated fission source of a region list. -/
def integrated (rs : List (XsRegion (Mat K))) (vol fs : Nat → K) : K :=
  (rs.map fun x => (x.regs.map fun i => vol i * fs i).sum).sum

theorem fold_add_sum {α : Type} (l : List α) (f : α → K) (t : K) : l.foldl (fun t x => t + f x) t = t + (l.map f).sum := by
  induction l generalizing t with
  | nil => simp
  | cons a s ih => rw [List.foldl_cons, ih]; simp [add_assoc]

theorem totalFission_eq (ng : Nat) (rs : List (XsRegion (Mat K))) (vol : Nat → K) (flux : Nat → Nat → K) :
    totalFission ng rs vol flux =
      (rs.map fun x => (x.regs.map fun i => vol i * ∑ g ∈ Finset.range ng, x.mat.nf g * flux i g).sum).sum := by
  have inner : ∀ (x : XsRegion (Mat K)) (t : K), (List.range ng).foldl (fun t ig =>
      x.regs.foldl (fun t i => t + flux i ig * vol i * x.mat.nf ig) t) t =
      t + (x.regs.map fun i => vol i * ∑ g ∈ Finset.range ng, x.mat.nf g * flux i g).sum := by
    intro x t
    have : ∀ n, (List.range n).foldl (fun t ig => x.regs.foldl (fun t i => t + flux i ig * vol i * x.mat.nf ig) t) t =
        t + (x.regs.map fun i => vol i * ∑ g ∈ Finset.range n, x.mat.nf g * flux i g).sum := by
      intro n
      induction n with
      | zero => simp
      | succ n ih =>
        rw [List.range_succ, List.foldl_append, ih]
        simp only [List.foldl_cons, List.foldl_nil]
        rw [fold_add_sum, add_assoc, ← List.sum_map_add]
        congr 2
        apply List.map_congr_left
        intro i _
        rw [Finset.sum_range_succ]; ring
    exact this ng
  unfold totalFission
  have : (fun (t : K) (x : XsRegion (Mat K)) => (List.range ng).foldl (fun t ig =>
      x.regs.foldl (fun t i => t + flux i ig * vol i * x.mat.nf ig) t) t) =
      fun t x => t + (x.regs.map fun i => vol i * ∑ g ∈ Finset.range ng, x.mat.nf g * flux i g).sum := by
    funext t x; exact inner x t
  rw [this, fold_add_sum, zero_add]

/-- C47: the fission source of a region is its production divided by k. -/
theorem C47_fission_source (ng : Nat) (rs : List (XsRegion (Mat K))) (hp : Partition rs) (k : K) (flux : Nat → Nat → K)
    (x : XsRegion (Mat K)) (hx : x ∈ rs) (i : Nat) (hi : i ∈ x.regs) :
    calcFissionSource ng rs k flux i = (∑ g ∈ Finset.range ng, x.mat.nf g * flux i g) / k := by
  have hstep : ∀ y ∈ rs, ∀ (a : Nat → K) j, (List.range ng).foldl (fun a ig =>
      addTo y.regs (fun i => 1 / k * y.mat.nf ig * flux i ig) a) a j =
      a j + if j ∈ y.regs then (∑ g ∈ Finset.range ng, y.mat.nf g * flux j g) / k else 0 := by
    intro y hy a j
    have : ∀ n, (List.range n).foldl (fun a ig => addTo y.regs (fun i => 1 / k * y.mat.nf ig * flux i ig) a) a j =
      a j + if j ∈ y.regs then (∑ g ∈ Finset.range n, y.mat.nf g * flux j g) / k else 0 := by
      intro n
      induction n with
      | zero => simp
      | succ n ih =>
        rw [List.range_succ, List.foldl_append]
        simp only [List.foldl_cons, List.foldl_nil]
        rw [addTo_eq _ (hp.1 y hy), ih]
        by_cases hj : j ∈ y.regs
        · simp only [hj, if_true]
          rw [Finset.sum_range_succ]; ring
        · simp [hj]
    exact this ng
  unfold calcFissionSource
  rw [loop_at rs hp _ _ _ x hx i hi]
  · rw [hstep x hx, if_pos hi, zero_add]
  · intro y hy a j hj; rw [hstep y hy, if_neg hj, add_zero]
  · intro y hy a b j hj hab; rw [hstep y hy, hstep y hy, hab]

theorem integrated_eq (ng : Nat) (rs : List (XsRegion (Mat K))) (hp : Partition rs) (vol : Nat → K) (k : K)
    (flux : Nat → Nat → K) : integrated rs vol (calcFissionSource ng rs k flux) = totalFission ng rs vol flux / k := by
  rw [totalFission_eq]
  unfold integrated
  rw [div_eq_mul_inv, ← List.sum_map_mul_right]
  congr 1
  apply List.map_congr_left
  intro x hx
  rw [← List.sum_map_mul_right]
  congr 1
  apply List.map_congr_left
  intro i hi
  rw [C47_fission_source ng rs hp k flux x hx i hi]
  ring

/-- C47: an outer iteration, whatever its sweep does to the flux, keeps the volume-integrated fission source. -/
theorem C47_source_kept (ng : Nat) (rs : List (XsRegion (Mat K))) (hp : Partition rs) (vol : Nat → K)
    (sweep : (Nat → K) → (Nat → Nat → K) → (Nat → Nat → K)) (k : K) (hk : k ≠ 0) (flux : Nat → Nat → K)
    (h1 : totalFission ng rs vol flux ≠ 0)
    (h2 : totalFission ng rs vol (sweep (calcFissionSource ng rs k flux) flux) ≠ 0) :
    let r := eigenStep ng rs vol sweep k flux
    integrated rs vol r.2.2 = integrated rs vol (calcFissionSource ng rs k flux) ∧
    integrated rs vol r.2.2 = totalFission ng rs vol r.2.1 / r.1 := by
  simp only [eigenStep]
  rw [integrated_eq ng rs hp, integrated_eq ng rs hp]
  refine ⟨?_, rfl⟩
  field_simp

/-- The same over any number of iterations. -/
def iterate (ng : Nat) (rs : List (XsRegion (Mat K))) (vol : Nat → K)
    (sweep : Nat → (Nat → K) → (Nat → Nat → K) → (Nat → Nat → K)) (k : K) (flux : Nat → Nat → K) :
    Nat → K × (Nat → Nat → K)
  | 0 => (k, flux)
  | n + 1 => let s := iterate ng rs vol sweep k flux n
             let r := eigenStep ng rs vol (sweep n) s.1 s.2
             (r.1, r.2.1)

/-- C47: the ratio of total fission to k never changes during a power iteration. -/
theorem C47_invariant (ng : Nat) (rs : List (XsRegion (Mat K))) (vol : Nat → K)
    (sweep : Nat → (Nat → K) → (Nat → Nat → K) → (Nat → Nat → K)) (k : K) (flux : Nat → Nat → K)
    (h : ∀ n, totalFission ng rs vol (iterate ng rs vol sweep k flux n).2 ≠ 0) (hk : k ≠ 0) (n : Nat) :
    totalFission ng rs vol (iterate ng rs vol sweep k flux n).2 / (iterate ng rs vol sweep k flux n).1 =
      totalFission ng rs vol flux / k ∧ (iterate ng rs vol sweep k flux n).1 ≠ 0 := by
  induction n with
  | zero => exact ⟨rfl, hk⟩
  | succ n ih =>
    have h0 := h n
    have h1 := h (n + 1)
    obtain ⟨ih1, ih2⟩ := ih
    rw [← ih1]
    simp only [iterate, eigenStep] at h1 ⊢
    refine ⟨?_, ?_⟩
    · field_simp
    · exact div_ne_zero (mul_ne_zero ih2 h1) h0

/-- Region 0 holds one material, regions 1 and 2 another. -/
def demoRegions : List (XsRegion (Mat ℚ)) :=
  [⟨⟨fun _ => 2, fun _ => 1, fun _ => 1, fun g => if g = 0 then 1 else 0, fun p q => if p ≤ q then 1/4 else 0⟩, [0]⟩,
   ⟨⟨fun _ => 1, fun _ => 0, fun _ => 0, fun _ => 0, fun p q => if q ≤ p then 1/3 else 0⟩, [1, 2]⟩]

example : Partition demoRegions ∧ (∀ x ∈ demoRegions, NonNeg 2 x.mat) ∧
    (assemble 2 3 demoRegions none (fun _ => 1) (fun _ _ => 1) 0).map (fun s => s 0) = some (5/4) ∧
    totalFission 2 demoRegions (fun _ => 1) (fun _ _ => 1) = 2 := by
  refine ⟨⟨by simp [demoRegions], by simp [demoRegions]⟩, ?_, by decide +kernel, by decide +kernel⟩
  intro x hx p q _ _
  simp only [demoRegions, List.mem_cons, List.not_mem_nil, or_false] at hx
  rcases hx with rfl | rfl <;> simp only <;> split_ifs <;> norm_num

example : let r := eigenStep 2 demoRegions (fun _ => 1) (fun _ φ i g => 2 * φ i g) 1 (fun _ _ => 1)
    r.1 = 2 ∧ integrated demoRegions (fun _ => 1) r.2.2 = 2 := by decide +kernel

end Verif.Source
