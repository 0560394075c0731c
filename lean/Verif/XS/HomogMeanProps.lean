import Verif.XS.HomogProps

/-!
# C150: homogenised cross sections are averages of the pin's materials
-/

set_option linter.unusedSectionVars false

namespace Verif.XS

variable {K : Type} [Field K] [LinearOrder K] [IsStrictOrderedRing K]

/-- An average with non-negative weights lies between bounds of the values. -/
theorem average_bounds {n : Nat} {w x : Nat → K} {y lo hi : K} (hw : ∀ i < n, 0 ≤ w i) (hp : 0 < ∑ i ∈ Finset.range n, w i)
    (hy : y * ∑ i ∈ Finset.range n, w i = ∑ i ∈ Finset.range n, w i * x i) (h : ∀ i < n, lo ≤ x i ∧ x i ≤ hi) : lo ≤ y ∧ y ≤ hi := by
  constructor
  · refine le_of_mul_le_mul_right ?_ hp
    rw [hy, Finset.mul_sum]
    refine Finset.sum_le_sum fun i hi => ?_
    rw [mul_comm]
    exact mul_le_mul_of_nonneg_left (h i (Finset.mem_range.mp hi)).1 (hw i (Finset.mem_range.mp hi))
  · refine le_of_mul_le_mul_right ?_ hp
    rw [hy, Finset.mul_sum]
    refine Finset.sum_le_sum fun i hi' => ?_
    rw [mul_comm hi]
    exact mul_le_mul_of_nonneg_left (h i (Finset.mem_range.mp hi')).2 (hw i (Finset.mem_range.mp hi'))

/-- C150: transport, nu-fission and fission cross section of the pin lie between the smallest and the largest of its materials. -/
theorem C150_between (ng : Nat) (mats : List (Mat K × Nat)) (area : Nat → K) (flux : Nat → Nat → K) (g : Nat)
    (ha : ∀ i < nRegions mats, 0 ≤ area i) (hf : ∀ i < nRegions mats, 0 ≤ flux i g) (h : 0 < ∑ i ∈ Finset.range (nRegions mats), area i * flux i g)
    (lo hi : K) :
    let o := homogFlux ng (nRegions mats) mats area flux
    ((∀ i < nRegions mats, lo ≤ (mat mats i).tr g ∧ (mat mats i).tr g ≤ hi) → lo ≤ o.tr g ∧ o.tr g ≤ hi) ∧
    ((∀ i < nRegions mats, lo ≤ (mat mats i).nf g ∧ (mat mats i).nf g ≤ hi) → lo ≤ o.nf g ∧ o.nf g ≤ hi) ∧
    ((∀ i < nRegions mats, lo ≤ (mat mats i).f g ∧ (mat mats i).f g ≤ hi) → lo ≤ o.f g ∧ o.f g ≤ hi) := by
  intro o
  obtain ⟨h1, h2, h3⟩ := C26_rates ng mats area flux g h.ne'
  have hw : ∀ i < nRegions mats, 0 ≤ area i * flux i g := fun i hi => mul_nonneg (ha i hi) (hf i hi)
  exact ⟨average_bounds hw h h1, average_bounds hw h h2, average_bounds hw h h3⟩

/-- C150: so does each entry of the scattering matrix, as stored. -/
theorem C150_between_scatter (ng : Nat) (mats : List (Mat K × Nat)) (area : Nat → K) (flux : Nat → Nat → K)
    (hs : ∀ i, i < nRegions mats → ∀ a b, a < ng → b < ng → 0 ≤ (mat mats i).sc a b)
    (ha : ∀ i, i < nRegions mats → 0 < area i) (hf : ∀ i g, i < nRegions mats → 0 ≤ flux i g)
    (dst src : Nat) (hd : dst < ng) (hsrc : src < ng) (h : 0 < ∑ i ∈ Finset.range (nRegions mats), area i * flux i src)
    (lo hi : K) (hb : ∀ i < nRegions mats, lo ≤ (mat mats i).sc dst src ∧ (mat mats i).sc dst src ≤ hi) :
    let e := (Scatter.build ng (homogFlux ng (nRegions mats) mats area flux).scat).asVector (ng * dst + src)
    lo ≤ e ∧ e ≤ hi := by
  intro e
  exact average_bounds (fun i hi => mul_nonneg (ha i hi).le (hf i src hi)) h (C26_scattering ng mats area flux hs ha hf dst src hd hsrc) hb

/-- C150: the part of the transport cross section that does not scatter, `tr - Σ sc`, is the same average: when every material absorbs between `lo` and `hi`,
so does the pin.  With `lo = 0`: a pin of materials that scatter no more than they collide does so too. -/
theorem C150_absorption (ng : Nat) (mats : List (Mat K × Nat)) (area : Nat → K) (flux : Nat → Nat → K)
    (hs : ∀ i, i < nRegions mats → ∀ a b, a < ng → b < ng → 0 ≤ (mat mats i).sc a b)
    (ha : ∀ i, i < nRegions mats → 0 < area i) (hf : ∀ i g, i < nRegions mats → 0 ≤ flux i g)
    (src : Nat) (hsrc : src < ng) (h : 0 < ∑ i ∈ Finset.range (nRegions mats), area i * flux i src)
    (lo hi : K) (hb : ∀ i < nRegions mats, lo ≤ (mat mats i).tr src - ∑ d ∈ Finset.range ng, (mat mats i).sc d src ∧
      (mat mats i).tr src - ∑ d ∈ Finset.range ng, (mat mats i).sc d src ≤ hi) :
    let o := homogFlux ng (nRegions mats) mats area flux
    let a := o.tr src - ∑ d ∈ Finset.range ng, (Scatter.build ng o.scat).asVector (ng * d + src)
    lo ≤ a ∧ a ≤ hi := by
  intro o a
  refine average_bounds (fun i hi => mul_nonneg (ha i hi).le (hf i src hi)) h ?_ hb
  have e1 := (C26_rates ng mats area flux src h.ne').1
  have e2 : ∀ d ∈ Finset.range ng, (Scatter.build ng o.scat).asVector (ng * d + src) * fluxIntegral mats area flux src =
      rate mats area flux (fun m => m.sc d src) src := fun d hd =>
    C26_scattering ng mats area flux hs ha hf d src (Finset.mem_range.mp hd) hsrc
  show (o.tr src - ∑ d ∈ Finset.range ng, (Scatter.build ng o.scat).asVector (ng * d + src)) * fluxIntegral mats area flux src = _
  rw [sub_mul, Finset.sum_mul, Finset.sum_congr rfl e2]
  refine (congrArg₂ (· - ·) e1 rfl).trans ?_
  unfold rate
  rw [Finset.sum_comm, ← Finset.sum_sub_distrib]
  refine Finset.sum_congr rfl fun i _ => ?_
  rw [mul_sub, Finset.mul_sum]

/-- C150: the spectrum of a pin with fission lies between those of its fissile materials. -/
theorem C150_between_spectrum (ng : Nat) (mats : List (Mat K × Nat)) (area : Nat → K) (flux : Nat → Nat → K)
    (ha : ∀ i < nRegions mats, 0 ≤ area i) (hf : ∀ i < nRegions mats, ∀ g < ng, 0 ≤ flux i g) (hn : ∀ i < nRegions mats, ∀ g < ng, 0 ≤ (mat mats i).nf g)
    (h : 0 < ∑ i ∈ Finset.range (nRegions mats), ∑ g ∈ Finset.range ng, (mat mats i).nf g * flux i g * area i)
    (g : Nat) (lo hi : K) (hb : ∀ i < nRegions mats, (∃ g' < ng, (mat mats i).nf g' ≠ 0) → lo ≤ (mat mats i).ch g ∧ (mat mats i).ch g ≤ hi) :
    lo ≤ (homogFlux ng (nRegions mats) mats area flux).ch g ∧ (homogFlux ng (nRegions mats) mats area flux).ch g ≤ hi := by
  have e := C26_spectrum ng mats area flux h g
  have e' : (homogFlux ng (nRegions mats) mats area flux).ch g * (∑ i ∈ Finset.range (nRegions mats), ∑ g ∈ Finset.range ng, (mat mats i).nf g * flux i g * area i) =
      ∑ i ∈ Finset.range (nRegions mats), (∑ g' ∈ Finset.range ng, (mat mats i).nf g' * flux i g' * area i) *
        (if ∃ g' < ng, (mat mats i).nf g' ≠ 0 then (mat mats i).ch g else lo) := by
    refine e.trans (Finset.sum_congr rfl fun i _ => ?_)
    split
    · rfl
    · rename_i hz
      have : ∑ g' ∈ Finset.range ng, (mat mats i).nf g' * flux i g' * area i = 0 := by
        refine Finset.sum_eq_zero fun g' hg => ?_
        have : (mat mats i).nf g' = 0 := by
          by_contra hne
          exact hz ⟨g', Finset.mem_range.mp hg, hne⟩
        rw [this]; ring
      rw [this]; ring
  have hex : lo ≤ hi := by
    by_contra hc
    refine h.ne' (Finset.sum_eq_zero fun i hi => Finset.sum_eq_zero fun g' hg => ?_)
    have : (mat mats i).nf g' = 0 := by
      by_contra hne
      have := hb i (Finset.mem_range.mp hi) ⟨g', Finset.mem_range.mp hg, hne⟩
      exact hc (this.1.trans this.2)
    rw [this]; ring
  refine average_bounds (fun i hi => Finset.sum_nonneg fun g' hg => ?_) h e' fun i hi => ?_
  · exact mul_nonneg (mul_nonneg (hn i hi g' (Finset.mem_range.mp hg)) (hf i hi g' (Finset.mem_range.mp hg))) (ha i hi)
  · split
    · rename_i hz
      exact hb i hi hz
    · exact ⟨le_rfl, hex⟩

/-- C150: a pin of one material gets that material's cross sections, whatever the flux in it. -/
theorem C150_one_material (ng : Nat) (mats : List (Mat K × Nat)) (area : Nat → K) (flux : Nat → Nat → K) (m : Mat K) (hm : ∀ i < nRegions mats, mat mats i = m)
    (hs : ∀ a b, a < ng → b < ng → 0 ≤ m.sc a b) (hn : ∀ g < ng, 0 ≤ m.nf g)
    (ha : ∀ i, i < nRegions mats → 0 < area i) (hf : ∀ i g, i < nRegions mats → 0 ≤ flux i g)
    (h : ∀ g < ng, 0 < ∑ i ∈ Finset.range (nRegions mats), area i * flux i g) :
    let o := homogFlux ng (nRegions mats) mats area flux
    (∀ g < ng, o.tr g = m.tr g ∧ o.nf g = m.nf g ∧ o.f g = m.f g) ∧
    (∀ d < ng, ∀ s < ng, (Scatter.build ng o.scat).asVector (ng * d + s) = m.sc d s) ∧
    ((∃ g < ng, m.nf g ≠ 0) → ∀ g < ng, o.ch g = m.ch g) := by
  intro o
  refine ⟨fun g hg => ?_, fun d hd s hs' => ?_, fun hex g hg => ?_⟩
  · obtain ⟨h1, h2, h3⟩ := C150_between ng mats area flux g (fun i hi => (ha i hi).le) (fun i hi => hf i g hi) (h g hg) (m.tr g) (m.tr g)
    obtain ⟨-, g2, -⟩ := C150_between ng mats area flux g (fun i hi => (ha i hi).le) (fun i hi => hf i g hi) (h g hg) (m.nf g) (m.nf g)
    obtain ⟨-, -, k3⟩ := C150_between ng mats area flux g (fun i hi => (ha i hi).le) (fun i hi => hf i g hi) (h g hg) (m.f g) (m.f g)
    have a1 := h1 fun i hi => by rw [hm i hi]; exact ⟨le_rfl, le_rfl⟩
    have a2 := g2 fun i hi => by rw [hm i hi]; exact ⟨le_rfl, le_rfl⟩
    have a3 := k3 fun i hi => by rw [hm i hi]; exact ⟨le_rfl, le_rfl⟩
    exact ⟨le_antisymm a1.2 a1.1, le_antisymm a2.2 a2.1, le_antisymm a3.2 a3.1⟩
  · have := C150_between_scatter ng mats area flux (fun i hi a b => by rw [hm i hi]; exact hs a b) ha hf d s hd hs' (h s hs') (m.sc d s) (m.sc d s)
      fun i hi => by rw [hm i hi]; exact ⟨le_rfl, le_rfl⟩
    exact le_antisymm this.2 this.1
  · obtain ⟨g', hg', hne⟩ := hex
    have hpos : 0 < ∑ i ∈ Finset.range (nRegions mats), ∑ g ∈ Finset.range ng, (mat mats i).nf g * flux i g * area i := by
      have e : ∑ i ∈ Finset.range (nRegions mats), ∑ g ∈ Finset.range ng, (mat mats i).nf g * flux i g * area i =
          ∑ g ∈ Finset.range ng, m.nf g * ∑ i ∈ Finset.range (nRegions mats), area i * flux i g := by
        rw [Finset.sum_comm]
        refine Finset.sum_congr rfl fun g _ => ?_
        rw [Finset.mul_sum]
        refine Finset.sum_congr rfl fun i hi => ?_
        rw [hm i (Finset.mem_range.mp hi)]; ring
      rw [e]
      refine Finset.sum_pos' (fun g hg => mul_nonneg (hn g (Finset.mem_range.mp hg)) (h g (Finset.mem_range.mp hg)).le) ⟨g', Finset.mem_range.mpr hg', ?_⟩
      exact mul_pos (lt_of_le_of_ne (hn g' hg') hne.symm) (h g' hg')
    have := C150_between_spectrum ng mats area flux (fun i hi => (ha i hi).le) (fun i hi g _ => hf i g hi) (fun i hi g hg => by rw [hm i hi]; exact hn g hg) hpos g
      (m.ch g) (m.ch g) fun i hi _ => by rw [hm i hi]; exact ⟨le_rfl, le_rfl⟩
    exact le_antisymm this.2 this.1

/-- C150: only the shape of the flux counts.  A factor per group changes neither cross sections nor scattering, a common factor not the spectrum either. -/
theorem C150_shape (ng : Nat) (mats : List (Mat K × Nat)) (area : Nat → K) (flux : Nat → Nat → K) (c : Nat → K)
    (hc : ∀ g, 0 < c g) (hs : ∀ i, i < nRegions mats → ∀ a b, a < ng → b < ng → 0 ≤ (mat mats i).sc a b)
    (ha : ∀ i, i < nRegions mats → 0 ≤ area i) (hf : ∀ i g, i < nRegions mats → 0 ≤ flux i g) :
    let o := homogFlux ng (nRegions mats) mats area flux
    let o' := homogFlux ng (nRegions mats) mats area (fun i g => c g * flux i g)
    (∀ g, o'.tr g = o.tr g ∧ o'.nf g = o.nf g ∧ o'.f g = o.f g) ∧
    (∀ d < ng, ∀ s < ng, o'.scat d s = o.scat d s) ∧
    ((∀ g g', c g = c g') → 0 < production ng mats area flux → ∀ g, o'.ch g = o.ch g) := by
  intro o o'
  have hi : ∀ g, fluxIntegral mats area (fun i g => c g * flux i g) g = c g * fluxIntegral mats area flux g := by
    intro g
    unfold fluxIntegral
    rw [Finset.mul_sum]
    exact Finset.sum_congr rfl fun i _ => by ring
  have hr : ∀ x g, rate mats area (fun i g => c g * flux i g) x g = c g * rate mats area flux x g := by
    intro x g
    unfold rate
    rw [Finset.mul_sum]
    exact Finset.sum_congr rfl fun i _ => by ring
  refine ⟨fun g => ?_, fun d hd s hs' => ?_, fun he hp g => ?_⟩
  · simp only [o, o', homogFlux, fluxAcc, acc_eq, hi, hr, mul_div_mul_left _ _ (hc g).ne', and_self]
  · have e1 : (fluxAcc ng mats area (fun i g => c g * flux i g) d).scat s = c s * (fluxAcc ng mats area flux d).scat s := by
      simp only [fluxAcc, acc_eq, Finset.mul_sum]
      exact Finset.sum_congr rfl fun i _ => by ring
    have e2 : (fluxAcc ng mats area (fun i g => c g * flux i g) d).scatsum s = c s * (fluxAcc ng mats area flux d).scatsum s := by
      simp only [fluxAcc, acc_eq, Finset.mul_sum]
      exact Finset.sum_congr rfl fun i _ => by ring
    show (if 0 < _ then _ else _) = (if 0 < _ then _ else _)
    have e3 : 0 ≤ (fluxAcc ng mats area flux d).scat s := by
      simp only [fluxAcc, acc_eq]
      refine Finset.sum_nonneg fun i hi => ?_
      have hi' := Finset.mem_range.mp hi
      rw [scat_dense ng _ (hs i hi') d s hd hs']
      exact mul_nonneg (mul_nonneg (hs i hi' d s hd hs') (ha i hi')) (hf i s hi')
    rw [e1, e2]
    rcases e3.eq_or_lt with hz | hp
    · rw [← hz]; simp
    · rw [if_pos (mul_pos (hc s) hp), if_pos hp, mul_div_mul_left _ _ (hc s).ne']
  · have hpr : production ng mats area (fun i g => c g * flux i g) = c g * production ng mats area flux := by
      unfold production
      rw [Finset.mul_sum]
      refine Finset.sum_congr rfl fun i _ => ?_
      rw [Finset.mul_sum]
      refine Finset.sum_congr rfl fun g' _ => ?_
      show (mat mats i).nf g' * (c g' * flux i g') * area i = _
      rw [he g' g]; ring
    have hp' : 0 < production ng mats area (fun i g => c g * flux i g) := by rw [hpr]; exact mul_pos (hc g) hp
    refine mul_right_cancel₀ hp'.ne' ?_
    rw [C26_spectrum ng mats area _ hp' g, hpr]
    rw [show o.ch g * (c g * production ng mats area flux) = c g * (o.ch g * production ng mats area flux) by ring]
    rw [C26_spectrum ng mats area flux hp g, Finset.mul_sum]
    refine Finset.sum_congr rfl fun i _ => ?_
    rw [← mul_assoc, Finset.mul_sum]
    congr 1
    refine Finset.sum_congr rfl fun g' _ => ?_
    show (mat mats i).nf g' * (c g' * flux i g') * area i = _
    rw [he g' g]; ring

/-- C150: with volumes as weights (the first homogenisation) the same bounds hold, `pin.area()` being the sum of the regions' areas. -/
theorem C150_between_area (ng : Nat) (mats : List (Mat K × Nat)) (area : Nat → K) (g : Nat)
    (ha : ∀ i < nRegions mats, 0 ≤ area i) (h : 0 < ∑ i ∈ Finset.range (nRegions mats), area i) (lo hi : K) :
    let o := homogArea ng mats area (∑ i ∈ Finset.range (nRegions mats), area i)
    ((∀ i < nRegions mats, lo ≤ (mat mats i).tr g ∧ (mat mats i).tr g ≤ hi) → lo ≤ o.tr g ∧ o.tr g ≤ hi) ∧
    ((∀ i < nRegions mats, lo ≤ (mat mats i).nf g ∧ (mat mats i).nf g ≤ hi) → lo ≤ o.nf g ∧ o.nf g ≤ hi) ∧
    ((∀ i < nRegions mats, lo ≤ (mat mats i).f g ∧ (mat mats i).f g ≤ hi) → lo ≤ o.f g ∧ o.f g ≤ hi) := by
  intro o
  obtain ⟨h1, h2, h3⟩ := C26_area_rates ng mats area _ h.ne' g
  unfold rate at h1 h2 h3
  simp only [mul_one] at h1 h2 h3
  exact ⟨average_bounds ha h h1, average_bounds ha h h2, average_bounds ha h h3⟩

example : let o := homogFlux 2 3 demoMats (fun i => i + 1) (fun i g => i * 2 + g + 1)
    1 < o.tr 0 ∧ o.tr 0 < 2 ∧ 1/4 < o.scat 0 1 ∧ o.scat 0 1 < 1/3 ∧ o.ch 0 = 1 := by decide +kernel

end Verif.XS
