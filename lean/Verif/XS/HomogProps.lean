import Verif.XS.HomogModel
import Verif.Scatter.Props
import Mathlib.Algebra.BigOperators.Ring.Finset
import Mathlib.Algebra.BigOperators.Field
import Mathlib.Algebra.Order.BigOperators.Group.Finset
import Mathlib.Tactic.Ring
import Mathlib.Tactic.FieldSimp
import Mathlib.Tactic.Linarith
import Mathlib.Algebra.Order.Ring.Rat
import Mathlib.Algebra.Order.Field.Rat
import Mathlib.Algebra.Field.Rat

/-!
# C26: homogenisation preserves reaction rates
-/

set_option linter.unusedSectionVars false

namespace Verif.XS

variable {K : Type} [Field K] [LinearOrder K] [IsStrictOrderedRing K]

/-- Number of regions of the pin. -/
def nRegions {M : Type} (mats : List (M × Nat)) : Nat := (mats.map (·.2)).sum

/-- The material in pin-local region `i`: regions are numbered cross-section region by cross-section region. -/
def matAt {M : Type} : List (M × Nat) → Nat → Option M
  | [], _ => none
  | (m, n) :: t, i => if i < n then some m else matAt t (i - n)

theorem matAt_isSome {M : Type} (mats : List (M × Nat)) (i : Nat) (h : i < nRegions mats) : (matAt mats i).isSome := by
  induction mats generalizing i with
  | nil => simp [nRegions] at h
  | cons a t ih =>
    obtain ⟨m, n⟩ := a
    rw [matAt]
    split
    · rfl
    · apply ih
      simp only [nRegions, List.map_cons, List.sum_cons] at h ⊢
      omega

/-- The shared region loop visits every region once, in order, with its material. -/
theorem regionFold_aux {M σ : Type} (mats : List (M × Nat)) (body : σ → M → Nat → σ) (s : σ) (base : Nat) (d : M) :
    (mats.foldl (fun (acc : σ × Nat) m =>
      (List.range m.2).foldl (fun (acc : σ × Nat) _ => (body acc.1 m.1 acc.2, acc.2 + 1)) acc) (s, base)) =
    ((List.range (nRegions mats)).foldl (fun s i => body s ((matAt mats i).getD d) (base + i)) s, base + nRegions mats) := by
  induction mats generalizing s base with
  | nil => simp [nRegions]
  | cons a t ih =>
    obtain ⟨m, n⟩ := a
    rw [List.foldl_cons]
    have inner : ∀ k (s : σ), (List.range k).foldl (fun (acc : σ × Nat) _ => (body acc.1 m acc.2, acc.2 + 1)) (s, base) =
        ((List.range k).foldl (fun s i => body s m (base + i)) s, base + k) := by
      intro k s
      induction k with
      | zero => simp
      | succ k ihk => rw [List.range_succ, List.foldl_append, ihk, List.foldl_append]; simp; omega
    rw [inner n s, ih]
    have hn : nRegions ((m, n) :: t) = n + nRegions t := by simp [nRegions]
    rw [hn, List.range_add, List.foldl_append, List.foldl_map]
    refine Prod.ext ?_ (by simp only; omega)
    simp only
    have e1 : (List.range n).foldl (fun s i => body s m (base + i)) s =
        (List.range n).foldl (fun s i => body s ((matAt ((m, n) :: t) i).getD d) (base + i)) s := by
      apply List.foldl_ext
      intro a b hb
      rw [List.mem_range] at hb
      simp [matAt, hb]
    rw [e1]
    apply List.foldl_ext
    intro a b hb
    have : ¬ (n + b < n) := by omega
    simp only [matAt, this, if_false, Nat.add_sub_cancel_left]
    rw [Nat.add_assoc]

theorem regionFold_eq {M σ : Type} (mats : List (M × Nat)) (body : σ → M → Nat → σ) (s : σ) (d : M) :
    regionFold mats body s = (List.range (nRegions mats)).foldl (fun s i => body s ((matAt mats i).getD d) i) s := by
  unfold regionFold
  rw [regionFold_aux mats body s 0 d]
  simp only [Nat.zero_add]

/-- The zero material stands for "no region" and is never met below `nRegions`. -/
def Mat.zero : Mat K := ⟨fun _ => 0, fun _ => 0, fun _ => 0, fun _ => 0, fun _ _ => 0⟩

/-- Material of region `i`. -/
def mat (mats : List (Mat K × Nat)) (i : Nat) : Mat K := (matAt mats i).getD Mat.zero

/-- Volume (area) times flux, summed over the pin: the flux integral. -/
def fluxIntegral (mats : List (Mat K × Nat)) (area : Nat → K) (flux : Nat → Nat → K) (g : Nat) : K :=
  ∑ i ∈ Finset.range (nRegions mats), area i * flux i g

/-- The rate of a reaction with cross section `x m` for neutrons of group `g`, summed over the pin. -/
def rate (mats : List (Mat K × Nat)) (area : Nat → K) (flux : Nat → Nat → K) (x : Mat K → K) (g : Nat) : K :=
  ∑ i ∈ Finset.range (nRegions mats), area i * flux i g * x (mat mats i)

theorem foldl_sum (n : Nat) (f : Nat → K) (s : K) : (List.range n).foldl (fun s i => s + f i) s = s + ∑ i ∈ Finset.range n, f i := by
  induction n with
  | zero => simp
  | succ n ih => rw [List.range_succ, List.foldl_append, ih, Finset.sum_range_succ]; simp [add_assoc]

theorem acc_eq (ng : Nat) (mats : List (Mat K × Nat)) (area : Nat → K) (flux : Nat → Nat → K) (fs : Nat → K) (ig : Nat) :
    regionFold mats (fluxBody ng area flux fs ig) Acc.zero =
    { fluxvol := fluxIntegral mats area flux ig
      tr := rate mats area flux (·.tr ig) ig
      nf := rate mats area flux (·.nf ig) ig
      f := rate mats area flux (·.f ig) ig
      ch := ∑ i ∈ Finset.range (nRegions mats), fs i * (mat mats i).ch ig
      scat := fun igg => ∑ i ∈ Finset.range (nRegions mats), (mat mats i).scat ng ig igg * area i * flux i igg
      scatsum := fun igg => ∑ i ∈ Finset.range (nRegions mats), flux i igg * area i } := by
  rw [regionFold_eq mats _ _ Mat.zero]
  unfold fluxIntegral rate mat
  generalize nRegions mats = n
  induction n with
  | zero => simp [Acc.zero]
  | succ n ih =>
    rw [List.range_succ, List.foldl_append, ih]
    simp only [List.foldl_cons, List.foldl_nil, fluxBody, Finset.sum_range_succ]

theorem fs_inner (mats : List (Mat K × Nat)) (area : Nat → K) (flux : Nat → Nat → K) (ig : Nat) (fs : Nat → K) (j : Nat) :
    regionFold mats (fun fs m i => Function.update fs i (fs i + m.nf ig * flux i ig * area i)) fs j =
      fs j + if j < nRegions mats then (mat mats j).nf ig * flux j ig * area j else 0 := by
  rw [regionFold_eq mats _ _ Mat.zero]
  unfold mat
  generalize nRegions mats = n
  induction n with
  | zero => simp
  | succ n ih =>
    rw [List.range_succ, List.foldl_append]
    simp only [List.foldl_cons, List.foldl_nil]
    by_cases hj : j = n
    · subst hj
      rw [Function.update_self, ih]
      simp
    · rw [Function.update_of_ne hj, ih]
      have : (j < n + 1) ↔ (j < n) := by omega
      simp [this]

theorem fs_eq (ng : Nat) (mats : List (Mat K × Nat)) (area : Nat → K) (flux : Nat → Nat → K) (j : Nat)
    (hj : j < nRegions mats) :
    fissionSource ng mats area flux j = ∑ g ∈ Finset.range ng, (mat mats j).nf g * flux j g * area j := by
  unfold fissionSource
  induction ng with
  | zero => simp
  | succ n ih =>
    rw [List.range_succ, List.foldl_append]
    simp only [List.foldl_cons, List.foldl_nil]
    rw [fs_inner, ih, if_pos hj, Finset.sum_range_succ]

theorem scat_dense (ng : Nat) (m : Mat K) (hn : ∀ i j, i < ng → j < ng → 0 ≤ m.sc i j) (ig igg : Nat) (h : ig < ng)
    (h' : igg < ng) : m.scat ng ig igg = m.sc ig igg := Scatter.xssc_eq ng m.sc hn igg ig h h'

/-- C26: the homogenised transport, nu-fission and fission cross sections times the flux integral are the reaction
rates of the pin. -/
theorem C26_rates (ng : Nat) (mats : List (Mat K × Nat)) (area : Nat → K) (flux : Nat → Nat → K) (g : Nat)
    (h : fluxIntegral mats area flux g ≠ 0) :
    let o := homogFlux ng (nRegions mats) mats area flux
    o.tr g * fluxIntegral mats area flux g = rate mats area flux (·.tr g) g ∧
    o.nf g * fluxIntegral mats area flux g = rate mats area flux (·.nf g) g ∧
    o.f g * fluxIntegral mats area flux g = rate mats area flux (·.f g) g := by
  simp only [homogFlux, fluxAcc, acc_eq]
  exact ⟨div_mul_cancel₀ _ h, div_mul_cancel₀ _ h, div_mul_cancel₀ _ h⟩

/-- The homogenised scattering cross sections before they are stored: not negative, and times the flux integral the scattering rates. -/
theorem homog_scat (ng : Nat) (mats : List (Mat K × Nat)) (area : Nat → K) (flux : Nat → Nat → K)
    (hs : ∀ i, i < nRegions mats → ∀ a b, a < ng → b < ng → 0 ≤ (mat mats i).sc a b)
    (ha : ∀ i, i < nRegions mats → 0 < area i) (hf : ∀ i g, i < nRegions mats → g < ng → 0 ≤ flux i g) :
    (∀ d s, d < ng → s < ng → 0 ≤ (homogFlux ng (nRegions mats) mats area flux).scat d s) ∧
    ∀ dst src, dst < ng → src < ng → (homogFlux ng (nRegions mats) mats area flux).scat dst src * fluxIntegral mats area flux src =
      rate mats area flux (fun m => m.sc dst src) src := by
  set o := homogFlux ng (nRegions mats) mats area flux with ho
  have hscat : ∀ d s, d < ng → s < ng → (fluxAcc ng mats area flux d).scat s =
      rate mats area flux (fun m => m.sc d s) s := by
    intro d s hd hs'
    unfold fluxAcc
    rw [acc_eq]
    simp only [rate]
    apply Finset.sum_congr rfl
    intro i hi
    rw [Finset.mem_range] at hi
    rw [scat_dense ng _ (hs i hi) d s hd hs']
    ring
  have hsum : ∀ d s, (fluxAcc ng mats area flux d).scatsum s = fluxIntegral mats area flux s := by
    intro d s
    unfold fluxAcc
    rw [acc_eq]
    simp only [fluxIntegral]
    apply Finset.sum_congr rfl
    intro i _
    ring
  have hfi : ∀ s, s < ng → 0 ≤ fluxIntegral mats area flux s := fun s hs' => Finset.sum_nonneg (fun i hi =>
    mul_nonneg (ha i (Finset.mem_range.mp hi)).le (hf i s (Finset.mem_range.mp hi) hs'))
  have hr : ∀ d s, d < ng → s < ng → 0 ≤ rate mats area flux (fun m => m.sc d s) s := fun d s hd hs' =>
    Finset.sum_nonneg (fun i hi => mul_nonneg (mul_nonneg (ha i (Finset.mem_range.mp hi)).le (hf i s (Finset.mem_range.mp hi) hs'))
      (hs i (Finset.mem_range.mp hi) d s hd hs'))
  have hnn : ∀ d s, d < ng → s < ng → 0 ≤ o.scat d s := by
    intro d s hd hs'
    show 0 ≤ (if 0 < _ then _ else _)
    split
    · rename_i hp
      rw [hsum]
      exact div_nonneg hp.le (hfi s hs')
    · rw [hscat d s hd hs']
      exact hr d s hd hs'
  refine ⟨hnn, fun dst src hd hsrc => ?_⟩
  show (if 0 < _ then _ else _) * _ = _
  rw [hscat dst src hd hsrc, hsum]
  by_cases hp : 0 < rate mats area flux (fun m => m.sc dst src) src
  · rw [if_pos hp]
    apply div_mul_cancel₀
    intro hz
    have : ∀ i ∈ Finset.range (nRegions mats), area i * flux i src = 0 := by
      rw [← Finset.sum_eq_zero_iff_of_nonneg]
      · exact hz
      · intro i hi
        exact mul_nonneg (ha i (Finset.mem_range.mp hi)).le (hf i src (Finset.mem_range.mp hi) hsrc)
    have h0 : rate mats area flux (fun m => m.sc dst src) src = 0 := by
      unfold rate
      apply Finset.sum_eq_zero
      intro i hi
      rw [this i hi, zero_mul]
    rw [h0] at hp
    exact lt_irrefl _ hp
  · rw [if_neg hp]
    have h0 : rate mats area flux (fun m => m.sc dst src) src = 0 := le_antisymm (not_lt.mp hp) (hr dst src hd hsrc)
    rw [h0, zero_mul]

/-- C26: the homogenised scattering cross section from group `src` to `dst`, as stored in the region's scattering
matrix, times the flux integral of `src` is the scattering rate of the pin. -/
theorem C26_scattering (ng : Nat) (mats : List (Mat K × Nat)) (area : Nat → K) (flux : Nat → Nat → K)
    (hs : ∀ i, i < nRegions mats → ∀ a b, a < ng → b < ng → 0 ≤ (mat mats i).sc a b)
    (ha : ∀ i, i < nRegions mats → 0 < area i) (hf : ∀ i g, i < nRegions mats → 0 ≤ flux i g)
    (dst src : Nat) (hd : dst < ng) (hsrc : src < ng) :
    let o := homogFlux ng (nRegions mats) mats area flux
    (Scatter.build ng o.scat).asVector (ng * dst + src) * fluxIntegral mats area flux src =
      rate mats area flux (fun m => m.sc dst src) src := by
  intro o
  obtain ⟨hnn, h⟩ := homog_scat ng mats area flux hs ha fun i g hi _ => hf i g hi
  rw [Scatter.C22_as_vector_partial ng o.scat hnn dst src hd hsrc]
  exact h dst src hd hsrc

/-- The fission neutron production of the pin over all groups. -/
def production (ng : Nat) (mats : List (Mat K × Nat)) (area : Nat → K) (flux : Nat → Nat → K) : K :=
  ∑ i ∈ Finset.range (nRegions mats), ∑ g ∈ Finset.range ng, (mat mats i).nf g * flux i g * area i

/-- C26: the homogenised fission spectrum is the production-weighted average of the materials' spectra. -/
theorem C26_spectrum (ng : Nat) (mats : List (Mat K × Nat)) (area : Nat → K) (flux : Nat → Nat → K)
    (hp : 0 < production ng mats area flux) (g : Nat) :
    (homogFlux ng (nRegions mats) mats area flux).ch g * production ng mats area flux =
      ∑ i ∈ Finset.range (nRegions mats), (∑ g' ∈ Finset.range ng, (mat mats i).nf g' * flux i g' * area i) * (mat mats i).ch g := by
  have hfs : fsSum (nRegions mats) (fissionSource ng mats area flux) = production ng mats area flux := by
    unfold fsSum production
    rw [foldl_sum, zero_add]
    exact Finset.sum_congr rfl (fun i hi => fs_eq ng mats area flux i (Finset.mem_range.mp hi))
  simp only [homogFlux, fluxAcc, acc_eq]
  rw [hfs, if_pos hp, div_mul_cancel₀ _ hp.ne']
  exact Finset.sum_congr rfl (fun i hi => by rw [fs_eq ng mats area flux i (Finset.mem_range.mp hi)])

/-- C26: when there is fission and the spectrum of every fissile material sums to one, so does the homogenised
spectrum. -/
theorem C26_spectrum_sum (ng : Nat) (mats : List (Mat K × Nat)) (area : Nat → K) (flux : Nat → Nat → K)
    (hp : 0 < production ng mats area flux)
    (hc : ∀ i, i < nRegions mats → (∃ g, g < ng ∧ (mat mats i).nf g ≠ 0) → ∑ g ∈ Finset.range ng, (mat mats i).ch g = 1) :
    ∑ g ∈ Finset.range ng, (homogFlux ng (nRegions mats) mats area flux).ch g = 1 := by
  have h1 : (∑ g ∈ Finset.range ng, (homogFlux ng (nRegions mats) mats area flux).ch g) * production ng mats area flux =
      production ng mats area flux := by
    rw [Finset.sum_mul, Finset.sum_congr rfl (fun g _ => C26_spectrum ng mats area flux hp g), Finset.sum_comm]
    unfold production
    apply Finset.sum_congr rfl
    intro i hi
    rw [← Finset.mul_sum]
    by_cases hz : ∃ g, g < ng ∧ (mat mats i).nf g ≠ 0
    · rw [hc i (Finset.mem_range.mp hi) hz, mul_one]
    · have : ∑ g ∈ Finset.range ng, (mat mats i).nf g * flux i g * area i = 0 := by
        apply Finset.sum_eq_zero
        intro g hg
        have : (mat mats i).nf g = 0 := by
          by_contra hne; exact hz ⟨g, Finset.mem_range.mp hg, hne⟩
        rw [this]; ring
      rw [this, zero_mul]
  exact mul_right_cancel₀ hp.ne' (by rw [h1, one_mul])

theorem area_acc_eq (ng : Nat) (mats : List (Mat K × Nat)) (area : Nat → K) (ig : Nat) :
    regionFold mats (areaBody ng area ig) Acc.zero =
    { fluxvol := ∑ i ∈ Finset.range (nRegions mats), area i * ∑ g ∈ Finset.range ng, (mat mats i).nf g
      tr := ∑ i ∈ Finset.range (nRegions mats), area i * (mat mats i).tr ig
      nf := ∑ i ∈ Finset.range (nRegions mats), area i * (mat mats i).nf ig
      f := ∑ i ∈ Finset.range (nRegions mats), area i * (mat mats i).f ig
      ch := ∑ i ∈ Finset.range (nRegions mats), area i * (∑ g ∈ Finset.range ng, (mat mats i).nf g) * (mat mats i).ch ig
      scat := fun igg => ∑ i ∈ Finset.range (nRegions mats), (mat mats i).scat ng ig igg * area i
      scatsum := fun _ => 0 } := by
  rw [regionFold_eq mats _ _ Mat.zero]
  unfold mat
  generalize nRegions mats = n
  induction n with
  | zero => simp [Acc.zero]
  | succ n ih =>
    rw [List.range_succ, List.foldl_append, ih]
    simp only [List.foldl_cons, List.foldl_nil, areaBody, Finset.sum_range_succ, foldl_sum, zero_add]

/-- C26: the volume-weighted version preserves rates for a flat flux: cross section times pin area is the sum of the
regions' area times cross section. -/
theorem C26_area_rates (ng : Nat) (mats : List (Mat K × Nat)) (area : Nat → K) (pinArea : K) (hA : pinArea ≠ 0) (g : Nat) :
    let o := homogArea ng mats area pinArea
    o.tr g * pinArea = rate mats area (fun _ _ => 1) (·.tr g) g ∧
    o.nf g * pinArea = rate mats area (fun _ _ => 1) (·.nf g) g ∧
    o.f g * pinArea = rate mats area (fun _ _ => 1) (·.f g) g := by
  simp only [homogArea, area_acc_eq, rate, mul_one]
  exact ⟨div_mul_cancel₀ _ hA, div_mul_cancel₀ _ hA, div_mul_cancel₀ _ hA⟩

/-- C26: likewise for scattering. -/
theorem C26_area_scattering (ng : Nat) (mats : List (Mat K × Nat)) (area : Nat → K) (pinArea : K) (hA : 0 < pinArea)
    (hs : ∀ i, i < nRegions mats → ∀ a b, a < ng → b < ng → 0 ≤ (mat mats i).sc a b)
    (ha : ∀ i, i < nRegions mats → 0 ≤ area i) (dst src : Nat) (hd : dst < ng) (hsrc : src < ng) :
    (Scatter.build ng (homogArea ng mats area pinArea).scat).asVector (ng * dst + src) * pinArea =
      rate mats area (fun _ _ => 1) (fun m => m.sc dst src) src := by
  have hscat : ∀ d s, d < ng → s < ng → (homogArea ng mats area pinArea).scat d s =
      (∑ i ∈ Finset.range (nRegions mats), (mat mats i).sc d s * area i) / pinArea := by
    intro d s hd hs'
    simp only [homogArea, area_acc_eq]
    congr 1
    exact Finset.sum_congr rfl (fun i hi => by rw [scat_dense ng _ (hs i (Finset.mem_range.mp hi)) d s hd hs'])
  rw [Scatter.C22_as_vector_partial ng _ _ dst src hd hsrc, hscat dst src hd hsrc, div_mul_cancel₀ _ hA.ne']
  · unfold rate
    exact Finset.sum_congr rfl (fun i _ => by ring)
  · intro d s hd hs'
    rw [hscat d s hd hs']
    exact div_nonneg (Finset.sum_nonneg (fun i hi => mul_nonneg (hs i (Finset.mem_range.mp hi) d s hd hs') (ha i (Finset.mem_range.mp hi)))) hA.le

/-- C26: the spectrum of the volume-weighted version sums to one. -/
theorem C26_area_spectrum_sum (ng : Nat) (mats : List (Mat K × Nat)) (area : Nat → K) (pinArea : K)
    (hp : 0 < ∑ i ∈ Finset.range (nRegions mats), area i * ∑ g ∈ Finset.range ng, (mat mats i).nf g)
    (hc : ∀ i, i < nRegions mats → (∃ g, g < ng ∧ (mat mats i).nf g ≠ 0) → ∑ g ∈ Finset.range ng, (mat mats i).ch g = 1) :
    ∑ g ∈ Finset.range ng, (homogArea ng mats area pinArea).ch g = 1 := by
  simp only [homogArea, area_acc_eq]
  simp only [if_pos hp]
  rw [← Finset.sum_div, Finset.sum_comm, div_eq_one_iff_eq hp.ne']
  apply Finset.sum_congr rfl
  intro i hi
  rw [← Finset.mul_sum]
  by_cases hz : ∃ g, g < ng ∧ (mat mats i).nf g ≠ 0
  · rw [hc i (Finset.mem_range.mp hi) hz, mul_one]
  · have : ∑ g ∈ Finset.range ng, (mat mats i).nf g = 0 := by
      apply Finset.sum_eq_zero
      intro g hg
      by_contra hne; exact hz ⟨g, Finset.mem_range.mp hg, hne⟩
    rw [this]; ring

/-- C26: the spectrum of the volume-weighted version is the average of the materials' spectra, weighted with area times
total nu-fission. -/
theorem C26_area_spectrum (ng : Nat) (mats : List (Mat K × Nat)) (area : Nat → K) (pinArea : K)
    (hp : 0 < ∑ i ∈ Finset.range (nRegions mats), area i * ∑ g ∈ Finset.range ng, (mat mats i).nf g) (g : Nat) :
    (homogArea ng mats area pinArea).ch g *
        (∑ i ∈ Finset.range (nRegions mats), area i * ∑ g' ∈ Finset.range ng, (mat mats i).nf g') =
      ∑ i ∈ Finset.range (nRegions mats), area i * (∑ g' ∈ Finset.range ng, (mat mats i).nf g') * (mat mats i).ch g := by
  simp only [homogArea, area_acc_eq]
  simp only [if_pos hp]
  rw [div_mul_cancel₀ _ hp.ne']

/-- Two regions of fuel and one of moderator. -/
def demoMats : List (Mat ℚ × Nat) :=
  [(⟨fun _ => 2, fun _ => 1, fun _ => 1/2, fun g => if g = 0 then 1 else 0, fun _ _ => 1/4⟩, 2),
   (⟨fun _ => 1, fun _ => 0, fun _ => 0, fun _ => 0, fun _ _ => 1/3⟩, 1)]

example : fluxIntegral demoMats (fun _ => 1) (fun _ _ => 1) 0 ≠ 0 ∧ 0 < production 2 demoMats (fun _ => 1) (fun _ _ => 1) ∧
    (homogFlux 2 3 demoMats (fun _ => 1) (fun _ _ => 1)).tr 0 = 5/3 := by decide +kernel

end Verif.XS
