import Verif.Mc.HistoryModel
import Verif.XS.CdfProps
import Verif.Scatter.Props
import Mathlib.Data.Rat.Floor
import Mathlib.MeasureTheory.Integral.IntervalIntegral.Basic
import Mathlib.Tactic.Linarith
import Mathlib.Tactic.NormNum
import Mathlib.Tactic.Ring
import Mathlib.Tactic.FieldSimp

/-!
# C80: collisions
-/

namespace Verif.Mc

open Verif.Mesh

variable {K : Type} [Field K] [LinearOrder K] [IsStrictOrderedRing K] [FloorSemiring K]

/-- Cross sections that make sense in group `g`: `d j g` from group `g` to group `j`. -/
structure GoodXs (xs : Xs K) (ng : Nat) (d : Nat → Nat → K) (g : Nat) : Prop where
  grp : g < ng
  sc : xs.sc = Scatter.build ng d
  nonneg : ∀ i j, i < ng → j < ng → 0 ≤ d i j
  tr : 0 < xs.tr g
  f : 0 ≤ xs.f g
  sum : ∑ j ∈ Finset.range ng, d j g + xs.f g ≤ xs.tr g
  chi0 : ∀ c ∈ xs.chi, 0 ≤ c
  chi1 : xs.chi.sum = 1
  chiLen : xs.chi.length = ng

/-- Total scattering from group `g`. -/
def scatters (ng : Nat) (d : Nat → Nat → K) (g : Nat) : K := ∑ j ∈ Finset.range ng, d j g

theorem GoodXs.out {xs : Xs K} {ng : Nat} {d : Nat → Nat → K} {g : Nat} (h : GoodXs xs ng d g) : xs.sc.out g = scatters ng d g := by
  rw [h.sc, Scatter.C22_out_partial ng d h.nonneg g h.grp, scatters]

theorem GoodXs.out_nonneg {xs : Xs K} {ng : Nat} {d : Nat → Nat → K} {g : Nat} (h : GoodXs xs ng d g) : 0 ≤ scatters ng d g :=
  Finset.sum_nonneg fun j hj => h.nonneg j g (Finset.mem_range.mp hj) h.grp

theorem sum_take_range (F : Nat → K) (ng k : Nat) (hk : k ≤ ng) : (((List.range ng).map F).take k).sum = ∑ j ∈ Finset.range k, F j := by
  rw [← List.map_take, List.take_range, Nat.min_eq_left hk]
  induction k with
  | zero => simp
  | succ k ih => rw [List.range_succ, List.map_append, List.sum_append, ih (by omega), Finset.sum_range_succ]; simp

/-- The distribution of scattering is that of a spectrum. -/
theorem outCdf_chi (ng : Nat) (d : Nat → Nat → K) (hn : ∀ i j, i < ng → j < ng → 0 ≤ d i j) (g : Nat) (hg : g < ng) :
    (Scatter.build ng d).outCdf g = XS.chiCdf ((List.range ng).map fun j => d j g / scatters ng d g) := by
  rw [Scatter.C23_values ng d hn g hg, XS.C27_chi]
  simp only [List.length_map, List.length_range]
  apply List.map_congr_left
  intro i hi
  rw [List.mem_range] at hi
  rw [sum_take_range _ ng (i + 1) (by omega), scatters, Finset.sum_div]

/-- C80: a group sampled for a scattered particle. -/
theorem sample_scatter (ng : Nat) (d : Nat → Nat → K) (hn : ∀ i j, i < ng → j < ng → 0 ≤ d i j) (g : Nat) (hg : g < ng)
    (hs : 0 < scatters ng d g) (v : K) (hv : 0 < v) (hv1 : v ≤ 1) :
    ∃ g', XS.sampleCdf ((Scatter.build ng d).outCdf g) v = g' ∧ g' < ng ∧ 0 < d g' g ∧
      (∑ j ∈ Finset.range g', d j g) < v * scatters ng d g ∧ v * scatters ng d g ≤ ∑ j ∈ Finset.range (g' + 1), d j g := by
  rw [outCdf_chi ng d hn g hg]
  have h0 : ∀ c ∈ (List.range ng).map (fun j => d j g / scatters ng d g), 0 ≤ c := by
    intro c hc
    obtain ⟨j, hj, rfl⟩ := List.mem_map.mp hc
    exact div_nonneg (hn j g (List.mem_range.mp hj) hg) hs.le
  have h1 : ((List.range ng).map (fun j => d j g / scatters ng d g)).sum = 1 := by
    have := sum_take_range (fun j => d j g / scatters ng d g) ng ng (le_refl _)
    rw [List.take_of_length_le (by simp)] at this
    rw [this, ← Finset.sum_div, ← scatters, div_self hs.ne']
  obtain ⟨g', hlt, e1, e2, e3, e4⟩ := XS.C27_chi_sample _ h0 h1 v hv hv1
  simp only [List.length_map, List.length_range] at hlt
  have hget : ((List.range ng).map (fun j => d j g / scatters ng d g))[g']'(by simpa using hlt) = d g' g / scatters ng d g := by simp
  rw [hget] at e2 e4
  rw [sum_take_range _ ng g' hlt.le, ← Finset.sum_div] at e3 e4
  refine ⟨g', e1, hlt, ?_, ?_, ?_⟩
  · by_contra hc
    exact absurd e2 (not_lt.mpr (div_nonpos_of_nonpos_of_nonneg (not_lt.mp hc) hs.le))
  · rwa [div_lt_iff₀ hs] at e3
  · rw [← add_div, le_div_iff₀ hs] at e4
    rwa [Finset.sum_range_succ]

/-- The three ranges of the first random number. -/
theorem reaction_of (xs : Xs K) (ng : Nat) (d : Nat → Nat → K) (g : Nat) (h : GoodXs xs ng d g) (v : K) (hv : 0 < v) (hv1 : v ≤ 1) :
    ∃ cdf, XS.reactionCdf (xs.tr g) (xs.sc.out g) (xs.f g) = some cdf ∧
      (v * xs.tr g ≤ scatters ng d g → XS.sampleCdf cdf v = 0) ∧
      (scatters ng d g < v * xs.tr g → v * xs.tr g ≤ scatters ng d g + xs.f g → XS.sampleCdf cdf v = 1) ∧
      (scatters ng d g + xs.f g < v * xs.tr g → XS.sampleCdf cdf v = 2) := by
  rw [h.out]
  obtain ⟨cdf, h0, i0⟩ := XS.C27_selection (xs.tr g) (scatters ng d g) (xs.f g) v h.tr h.out_nonneg h.f h.sum hv hv1 .SCATTER
  obtain ⟨cdf1, h1, i1⟩ := XS.C27_selection (xs.tr g) (scatters ng d g) (xs.f g) v h.tr h.out_nonneg h.f h.sum hv hv1 .FISSION
  obtain ⟨cdf2, h2, i2⟩ := XS.C27_selection (xs.tr g) (scatters ng d g) (xs.f g) v h.tr h.out_nonneg h.f h.sum hv hv1 .CAPTURE
  rw [h0] at h1 h2
  obtain rfl := Option.some.inj h1
  obtain rfl := Option.some.inj h2
  simp only [XS.Reaction.toNat, XS.lower, XS.share] at i0 i1 i2
  have ht := h.tr
  refine ⟨cdf, h0, fun a => i0.mpr ⟨hv, ?_⟩, fun a b => i1.mpr ⟨?_, ?_⟩, fun a => i2.mpr ⟨?_, ?_⟩⟩
  · rw [zero_add, le_div_iff₀ ht]; exact a
  · rw [div_lt_iff₀ ht]; exact a
  · rw [← add_div, le_div_iff₀ ht]; exact b
  · rw [div_lt_iff₀ ht]; exact a
  · rw [← add_div, le_div_iff₀ ht]
    have : v * xs.tr g ≤ 1 * xs.tr g := mul_le_mul_of_nonneg_right hv1 ht.le
    linarith

/-- The tallies after a collision. -/
def ScoredCollision (xs : Xs K) (h h' : Hist K) : Prop :=
  h'.t.kCol = h.t.kCol + h.w * xs.nf h.group / xs.tr h.group ∧
  (∀ g i, h'.t.fineCol g i = h.t.fineCol g i + if g = h.group ∧ i = h.reg then h.w / xs.tr h.group else 0) ∧
  h'.t.kTl = h.t.kTl ∧ h'.t.pinPower = h.t.pinPower ∧ h'.t.flux = h.t.flux ∧ h'.t.fine = h.t.fine

theorem add2_at (a : Nat → Nat → K) (g0 i0 : Nat) (v : K) (g i : Nat) :
    add2 a g0 i0 v g i = a g i + if g = g0 ∧ i = i0 then v else 0 := by
  unfold add2 add1
  by_cases hg : g = g0
  · subst hg
    by_cases hi : i = i0
    · subst hi; simp
    · simp [hi]
  · simp [hg]

theorem scored (xs : Xs K) (h : Hist K) :
    (∀ g i, add2 h.t.fineCol h.group h.reg (h.w / xs.tr h.group) g i =
      h.t.fineCol g i + if g = h.group ∧ i = h.reg then h.w / xs.tr h.group else 0) := fun g i => add2_at _ _ _ _ g i

/-- C80: a first random number up to the share of scattering: the particle goes on from the same place with the same weight, in a group
into which there is scattering (sampled by the shares), in an isotropic direction; nothing is banked and both estimators are scored. -/
theorem C80_scatter (e : Env K) (h : Hist K) (ng : Nat) (d : Nat → Nat → K) (hx : GoodXs (e.xs h.xsreg) ng d h.group)
    (h1 : 0 < e.r h.n) (h2 : e.r h.n ≤ 1) (h3 : 0 < e.r (h.n + 1)) (h4 : e.r (h.n + 1) ≤ 1)
    (hr : e.r h.n * (e.xs h.xsreg).tr h.group ≤ scatters ng d h.group) :
    ∃ h', collide e h = .ok h' ∧ h'.alive = h.alive ∧ h'.w = h.w ∧ h'.id = h.id ∧ h'.place = h.place ∧ h'.reg = h.reg ∧ h'.bank = h.bank ∧
      h'.n = h.n + 4 ∧ h'.group < ng ∧ 0 < d h'.group h.group ∧
      (∑ j ∈ Finset.range h'.group, d j h.group) < e.r (h.n + 1) * scatters ng d h.group ∧
      e.r (h.n + 1) * scatters ng d h.group ≤ ∑ j ∈ Finset.range (h'.group + 1), d j h.group ∧
      (h'.o = e.iso (e.r (h.n + 2)) (e.r (h.n + 3)) ∨ h'.o = e.iso (e.r (h.n + 3)) (e.r (h.n + 2))) ∧ ScoredCollision (e.xs h.xsreg) h h' := by
  obtain ⟨cdf, c1, c2, -, -⟩ := reaction_of _ ng d _ hx (e.r h.n) h1 h2
  have hs : 0 < scatters ng d h.group := lt_of_lt_of_le (mul_pos h1 hx.tr) hr
  obtain ⟨g', s1, s2, s3, s4, s5⟩ := sample_scatter ng d hx.nonneg h.group hx.grp hs (e.r (h.n + 1)) h3 h4
  rw [← hx.sc] at s1
  have hng : (e.xs h.xsreg).sc.ng = ng := by rw [hx.sc, Scatter.build_ng]
  refine ⟨{ h with group := g', o := e.direction (h.n + 2), n := h.n + 4, t := { h.t with
      kCol := h.t.kCol + h.w * (e.xs h.xsreg).nf h.group / (e.xs h.xsreg).tr h.group
      fineCol := add2 h.t.fineCol h.group h.reg (h.w / (e.xs h.xsreg).tr h.group) } }, ?_, rfl, rfl, rfl, rfl, rfl, rfl, rfl, s2, s3, s4, s5, ?_,
    rfl, scored _ _, rfl, rfl, rfl, rfl⟩
  · simp only [collide, c1, c2 hr, XS.Reaction.toNat, if_true, s1, hng, s2]
    rw [if_neg (by rw [hx.out]; exact hs.ne')]
  · simp only [Env.direction]
    split_ifs
    · exact Or.inr rfl
    · exact Or.inl rfl

/-- C80: a first random number in the share of fission: the particle ends, and the bank gets `⌊w nu + r⌋` particles at its place, with its
number, in isotropic directions and groups of the fission spectrum. -/
theorem C80_fission (e : Env K) (h : Hist K) (ng : Nat) (d : Nat → Nat → K) (hx : GoodXs (e.xs h.xsreg) ng d h.group)
    (h1 : 0 < e.r h.n) (h2 : e.r h.n ≤ 1) (hd : ∀ k, 0 < e.r k ∧ e.r k ≤ 1)
    (hr : scatters ng d h.group < e.r h.n * (e.xs h.xsreg).tr h.group)
    (hr2 : e.r h.n * (e.xs h.xsreg).tr h.group ≤ scatters ng d h.group + (e.xs h.xsreg).f h.group) :
    ∃ h' new, collide e h = .ok h' ∧ h'.alive = false ∧ h'.w = h.w ∧ h'.id = h.id ∧ h'.place = h.place ∧ h'.bank = h.bank ++ new ∧
      new.length = ⌊h.w * ((e.xs h.xsreg).nf h.group / (e.xs h.xsreg).f h.group) + e.r (h.n + 1)⌋₊ ∧ h'.n = h.n + 2 + 3 * new.length ∧
      (∀ i (hi : i < new.length), (new[i]).place = h.place.g ∧ (new[i]).id = h.id ∧
        (∃ hg : (new[i]).group < (e.xs h.xsreg).chi.length, 0 < (e.xs h.xsreg).chi[(new[i]).group] ∧
          ((e.xs h.xsreg).chi.take (new[i]).group).sum < e.r (h.n + 2 + 3 * i) ∧
          e.r (h.n + 2 + 3 * i) ≤ ((e.xs h.xsreg).chi.take (new[i]).group).sum + (e.xs h.xsreg).chi[(new[i]).group]) ∧
        ((new[i]).dir = e.iso (e.r (h.n + 2 + 3 * i + 1)) (e.r (h.n + 2 + 3 * i + 2)) ∨
          (new[i]).dir = e.iso (e.r (h.n + 2 + 3 * i + 2)) (e.r (h.n + 2 + 3 * i + 1)))) ∧
      ScoredCollision (e.xs h.xsreg) h h' := by
  obtain ⟨cdf, c1, -, c2, -⟩ := reaction_of _ ng d _ hx (e.r h.n) h1 h2
  have hf : (e.xs h.xsreg).f h.group ≠ 0 := by intro h0; rw [h0] at hr2; linarith
  let k := ⌊h.w * ((e.xs h.xsreg).nf h.group / (e.xs h.xsreg).f h.group) + e.r (h.n + 1)⌋₊
  refine ⟨{ h with alive := false, n := h.n + 2 + 3 * k, bank := h.bank ++ newSites e (e.xs h.xsreg) h (h.n + 2) k, t := { h.t with
      kCol := h.t.kCol + h.w * (e.xs h.xsreg).nf h.group / (e.xs h.xsreg).tr h.group
      fineCol := add2 h.t.fineCol h.group h.reg (h.w / (e.xs h.xsreg).tr h.group) } }, newSites e (e.xs h.xsreg) h (h.n + 2) k,
    ?_, rfl, rfl, rfl, rfl, rfl, by simp [newSites, k], by simp [newSites], ?_, rfl, scored _ _, rfl, rfl, rfl, rfl⟩
  · simp only [collide, c1, c2 hr hr2, XS.Reaction.toNat, if_true]
    rw [if_neg (by decide), if_neg hf]
  · intro i hi
    simp only [newSites, List.getElem_map, List.getElem_range, true_and]
    obtain ⟨g, g1, g2, g3, g4, g5⟩ := XS.C27_chi_sample _ hx.chi0 hx.chi1 (e.r (h.n + 2 + 3 * i)) (hd _).1 (hd _).2
    refine ⟨?_, ?_⟩
    · simp only [g2]; exact ⟨g1, g3, g4, g5⟩
    · simp only [Env.direction]
      split_ifs
      · exact Or.inr rfl
      · exact Or.inl rfl

/-- C80: otherwise the particle is captured. -/
theorem C80_capture (e : Env K) (h : Hist K) (ng : Nat) (d : Nat → Nat → K) (hx : GoodXs (e.xs h.xsreg) ng d h.group)
    (h1 : 0 < e.r h.n) (h2 : e.r h.n ≤ 1)
    (hr : scatters ng d h.group + (e.xs h.xsreg).f h.group < e.r h.n * (e.xs h.xsreg).tr h.group) :
    ∃ h', collide e h = .ok h' ∧ h'.alive = false ∧ h'.w = h.w ∧ h'.id = h.id ∧ h'.place = h.place ∧ h'.bank = h.bank ∧ h'.n = h.n + 1 ∧
      ScoredCollision (e.xs h.xsreg) h h' := by
  obtain ⟨cdf, c1, -, -, c2⟩ := reaction_of _ ng d _ hx (e.r h.n) h1 h2
  refine ⟨{ h with alive := false, n := h.n + 1, t := { h.t with
      kCol := h.t.kCol + h.w * (e.xs h.xsreg).nf h.group / (e.xs h.xsreg).tr h.group
      fineCol := add2 h.t.fineCol h.group h.reg (h.w / (e.xs h.xsreg).tr h.group) } }, ?_, rfl, rfl, rfl, rfl, rfl, rfl,
    rfl, scored _ _, rfl, rfl, rfl, rfl⟩
  simp only [collide, c1, c2 hr, XS.Reaction.toNat]
  rw [if_neg (by decide), if_neg (by decide)]

/-- C80 without the restriction to positive random numbers: a collision is always defined. -/
def C80_claim : Prop := ∀ (e : Env ℚ) (h : Hist ℚ) (ng : Nat) (d : Nat → Nat → ℚ), GoodXs (e.xs h.xsreg) ng d h.group →
  (∀ k, 0 ≤ e.r k ∧ e.r k < 1) → collide e h ≠ .ub

/-- The number of new particles: the expected number rounded down or up, up exactly for the upper part of the random numbers. -/
theorem C80_number (x r : K) (hx : 0 ≤ x) (h0 : 0 ≤ r) (h1 : r < 1) :
    (⌊x + r⌋₊ = ⌊x⌋₊ ∧ r < 1 - (x - ⌊x⌋₊)) ∨ (⌊x + r⌋₊ = ⌊x⌋₊ + 1 ∧ 1 - (x - ⌊x⌋₊) ≤ r) := by
  have f1 := Nat.floor_le hx
  have f2 := Nat.lt_floor_add_one x
  rcases lt_or_ge r (1 - (x - ⌊x⌋₊)) with h | h
  · refine Or.inl ⟨?_, h⟩
    rw [Nat.floor_eq_iff (by linarith)]
    exact ⟨by linarith, by linarith⟩
  · refine Or.inr ⟨?_, h⟩
    rw [Nat.floor_eq_iff (by linarith)]
    push_cast
    exact ⟨by linarith, by linarith⟩

/-- C80: on average over the random number, the expected number of particles is banked. -/
theorem C80_mean (x : ℝ) (hx : 0 ≤ x) : ∫ r in (0 : ℝ)..1, ((⌊x + r⌋₊ : Nat) : ℝ) = x := by
  have f1 := Nat.floor_le hx
  have f2 := Nat.lt_floor_add_one x
  set a : ℝ := 1 - (x - ⌊x⌋₊) with ha
  have e1 : Set.EqOn (fun r : ℝ => ((⌊x + r⌋₊ : Nat) : ℝ)) (fun _ => ((⌊x⌋₊ : Nat) : ℝ)) (Set.Ioo 0 a) := by
    intro r hr
    obtain ⟨h, -⟩ | ⟨-, h⟩ := C80_number x r hx hr.1.le (by have := hr.2; linarith)
    · simp only [h]
    · exact absurd hr.2 (not_lt.mpr h)
  have e2 : Set.EqOn (fun r : ℝ => ((⌊x + r⌋₊ : Nat) : ℝ)) (fun _ => ((⌊x⌋₊ : Nat) : ℝ) + 1) (Set.Ioo a 1) := by
    intro r hr
    obtain ⟨-, h⟩ | ⟨h, -⟩ := C80_number x r hx (by have := hr.1; linarith) hr.2
    · exact absurd h (not_lt.mpr hr.1.le)
    · simp only [h]; push_cast; ring
  have a0 : 0 ≤ a := by linarith
  have a1 : a ≤ 1 := by linarith
  have c1 : IntervalIntegrable (fun r : ℝ => ((⌊x + r⌋₊ : Nat) : ℝ)) MeasureTheory.volume 0 a :=
    (IntervalIntegrable.congr_uIoo (f := fun _ => ((⌊x⌋₊ : Nat) : ℝ)) (h := by rw [Set.uIoo_of_le a0]; exact e1.symm) (hf := intervalIntegrable_const))
  have c2 : IntervalIntegrable (fun r : ℝ => ((⌊x + r⌋₊ : Nat) : ℝ)) MeasureTheory.volume a 1 :=
    (IntervalIntegrable.congr_uIoo (f := fun _ => ((⌊x⌋₊ : Nat) : ℝ) + 1) (h := by rw [Set.uIoo_of_le a1]; exact e2.symm) (hf := intervalIntegrable_const))
  rw [← intervalIntegral.integral_add_adjacent_intervals c1 c2, intervalIntegral.integral_congr_Ioo_of_le a0 e1,
    intervalIntegral.integral_congr_Ioo_of_le a1 e2, intervalIntegral.integral_const, intervalIntegral.integral_const]
  simp only [smul_eq_mul]
  rw [ha]; ring

/-- C80: what the collision estimator of k scores is the expected number of banked particles: the share of fission in the random numbers
times their mean number. -/
theorem C80_estimator (xs : Xs K) (g : Nat) (w : K) (hf : xs.f g ≠ 0) :
    w * xs.nf g / xs.tr g = (xs.f g / xs.tr g) * (w * (xs.nf g / xs.f g)) := by
  by_cases h : xs.tr g = 0
  · simp [h]
  · field_simp

/-! ### Instances -/

/-- One group, capture only. -/
def exEnv (r : Nat → ℚ) (f s : ℚ) : Env ℚ :=
  { xs := fun _ => ⟨fun _ => 1, fun _ => 5 / 2 * f, fun _ => f, Scatter.build 1 (fun _ _ => s), [1]⟩, xsOf := fun _ => 0
    locate := fun _ _ => ⟨0, 0, 0, 0, ⟨0, 0, 0⟩, ⟨1, 1, 1⟩, fun _ _ _ => 0, fun _ _ _ _ => (none, false, 0)⟩
    extent := ⟨1, 1, 1, 1 / 10000⟩, bc := fun _ => .vacuum, bump := 1 / 1000, lg := fun _ => -1, iso := fun _ _ => ⟨1, 0, 0⟩, lastFirst := true, r := r }

def exHist (e : Env ℚ) : Hist ℚ :=
  { w := 1, group := 0, id := 3, place := ⟨1 / 2, 1 / 2, ⟨1 / 2, 1 / 2, 1 / 2⟩⟩, o := ⟨1, 0, 0⟩, reg := 0, xsreg := 0, coincident := -1, alive := true
    loc := e.locate ⟨1 / 2, 1 / 2, 1 / 2⟩ ⟨1, 0, 0⟩, n := 0, t := ⟨0, 0, fun _ => 0, fun _ _ => 0, fun _ _ => 0, fun _ _ => 0⟩, bank := [] }

theorem exGood (r : Nat → ℚ) (f s : ℚ) (hf : 0 ≤ f) (hs : 0 ≤ s) (h1 : s + f ≤ 1) :
    GoodXs ((exEnv r f s).xs 0) 1 (fun _ _ => s) 0 :=
  ⟨by decide, rfl, fun _ _ _ _ => hs, by norm_num [exEnv], hf, by simpa [exEnv] using h1, by simp [exEnv], by simp [exEnv], rfl⟩

/-- A random number that is exactly zero selects scattering, although there is none. -/
theorem C80_claim_false : ¬ C80_claim := by
  intro h
  have := h (exEnv (fun _ => 0) 0 0) (exHist (exEnv (fun _ => 0) 0 0)) 1 (fun _ _ => 0) (exGood _ 0 0 (by norm_num) (by norm_num) (by norm_num))
    (by intro k; simp [exEnv])
  apply this
  have hc : XS.reactionCdf (1 : ℚ) ((Scatter.build 1 (fun _ _ => (0 : ℚ))).out 0) 0 = some [0, 0, 1] := by decide +kernel
  have h0 : XS.sampleCdf [(0 : ℚ), 0, 1] 0 = 0 := by decide +kernel
  have h1 : (Scatter.build 1 (fun _ _ => (0 : ℚ))).out 0 = 0 := by decide +kernel
  rw [h1] at hc
  simp only [collide, exHist, exEnv, mul_zero, h1, hc, h0, XS.Reaction.toNat, if_true]

example : ∃ h', collide (exEnv (fun _ => 3 / 4) (1 / 2) (1 / 2)) (exHist (exEnv (fun _ => 3 / 4) (1 / 2) (1 / 2))) = .ok h' ∧ h'.bank.length = 3 := by
  obtain ⟨h', new, e1, -, -, -, -, e2, e3, -⟩ := C80_fission (exEnv (fun _ => 3 / 4) (1 / 2) (1 / 2)) (exHist (exEnv (fun _ => 3 / 4) (1 / 2) (1 / 2)))
    1 (fun _ _ => 1 / 2) (exGood _ _ _ (by norm_num) (by norm_num) (by norm_num)) (by norm_num [exEnv]) (by norm_num [exEnv])
    (by intro k; norm_num [exEnv]) (by norm_num [exEnv, scatters, exHist]) (by norm_num [exEnv, scatters, exHist])
  refine ⟨h', e1, ?_⟩
  rw [e2, List.length_append, e3]
  have : ⌊(13 / 4 : ℚ)⌋₊ = 3 := by rw [Nat.floor_eq_iff (by norm_num)]; norm_num
  norm_num [exHist, exEnv]
  exact this

end Verif.Mc
