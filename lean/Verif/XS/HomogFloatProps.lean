import Verif.XS.HomogFloatModel
import Verif.XS.HomogMeanProps
import Verif.Source.FloatProps
import Mathlib.Tactic.IntervalCases

/-!
# C150: homogenised cross sections in floating-point arithmetic
-/

set_option linter.unusedSectionVars false

namespace Verif.XS
open Verif.Fp Verif.Source

section

variable {K : Type} [Field K] [LinearOrder K] [IsStrictOrderedRing K]

/-- A sum added up term by term, rounded each time. -/
def sumF (rnd : K → K) (n : Nat) (c : Nat → K) : K := (List.range n).foldl (fun s i => rnd (s + c i)) 0

/-- The same with terms left out. -/
def guardF (rnd : K → K) (n : Nat) (b : Nat → Bool) (c : Nat → K) : K := (List.range n).foldl (fun s i => if b i then rnd (s + c i) else s) 0

theorem sumF_succ (rnd : K → K) (n : Nat) (c : Nat → K) : sumF rnd (n + 1) c = rnd (sumF rnd n c + c n) := by
  unfold sumF
  rw [List.range_succ, List.foldl_append]; rfl

theorem sumF_congr (rnd : K → K) (n : Nat) (c d : Nat → K) (h : ∀ i < n, c i = d i) : sumF rnd n c = sumF rnd n d := by
  induction n with
  | zero => rfl
  | succ n ih => rw [sumF_succ, sumF_succ, ih fun i hi => h i (by omega), h n (by omega)]

theorem guardF_succ (rnd : K → K) (n : Nat) (b : Nat → Bool) (c : Nat → K) :
    guardF rnd (n + 1) b c = if b n then rnd (guardF rnd n b c + c n) else guardF rnd n b c := by
  unfold guardF
  rw [List.range_succ, List.foldl_append]; rfl

theorem sumF_still (rnd : K → K) (R : Rounding rnd) (n : Nat) (c : Nat → K) : rnd (sumF rnd n c) = sumF rnd n c := by
  cases n with
  | zero => exact R.zero
  | succ n => rw [sumF_succ]; exact R.idem _

theorem guardF_eq (rnd : K → K) (R : Rounding rnd) (n : Nat) (b : Nat → Bool) (c : Nat → K) (h : ∀ i < n, b i = false → c i = 0) : guardF rnd n b c = sumF rnd n c := by
  induction n with
  | zero => rfl
  | succ n ih =>
    rw [guardF_succ, sumF_succ, ih fun i hi => h i (by omega)]
    cases hb : b n with
    | true => rfl
    | false => rw [h n (by omega) hb, add_zero, sumF_still rnd R]; rfl

theorem sumF_nonneg (rnd : K → K) (R : Rounding rnd) (n : Nat) (c : Nat → K) (h : ∀ i < n, 0 ≤ c i) : 0 ≤ sumF rnd n c :=
  foldr_nonneg R _ c (fun i hi => h i (List.mem_range.mp hi)) 0 le_rfl

theorem sumF_id (n : Nat) (c : Nat → K) : sumF id n c = ∑ i ∈ Finset.range n, c i := by
  induction n with
  | zero => rfl
  | succ n ih => rw [sumF_succ, ih, Finset.sum_range_succ]; rfl

theorem accF_eq (rnd : K → K) (ng : Nat) (mats : List (Mat K × Nat)) (area : Nat → K) (flux : Nat → Nat → K) (fs : Nat → K) (ig : Nat) :
    regionFold mats (fluxBodyF rnd ng area flux fs ig) Acc.zero =
    { fluxvol := sumF rnd (nRegions mats) fun i => rnd (area i * flux i ig)
      tr := sumF rnd (nRegions mats) fun i => rnd (rnd (area i * flux i ig) * (mat mats i).tr ig)
      nf := sumF rnd (nRegions mats) fun i => rnd (rnd (area i * flux i ig) * (mat mats i).nf ig)
      f := sumF rnd (nRegions mats) fun i => rnd (rnd (area i * flux i ig) * (mat mats i).f ig)
      ch := sumF rnd (nRegions mats) fun i => rnd (fs i * (mat mats i).ch ig)
      scat := fun igg => guardF rnd (nRegions mats) (fun i => (mat mats i).inBand ng ig igg) fun i => rnd (rnd ((mat mats i).scat ng ig igg * area i) * flux i igg)
      scatsum := fun igg => sumF rnd (nRegions mats) fun i => rnd (flux i igg * area i) } := by
  rw [regionFold_eq mats _ _ Mat.zero]
  unfold mat
  generalize nRegions mats = n
  induction n with
  | zero => rfl
  | succ n ih =>
    rw [List.range_succ, List.foldl_append, ih]
    simp only [List.foldl_cons, List.foldl_nil, fluxBodyF, sumF_succ, guardF_succ]

theorem fsF_inner (rnd : K → K) (mats : List (Mat K × Nat)) (t : Mat K → Nat → K) (fs : Nat → K) (j : Nat) :
    regionFold mats (fun fs m i => Function.update fs i (rnd (fs i + t m i))) fs j =
      if j < nRegions mats then rnd (fs j + t (mat mats j) j) else fs j := by
  rw [regionFold_eq mats _ _ Mat.zero]
  unfold mat
  generalize nRegions mats = n
  induction n with
  | zero => simp
  | succ n ih =>
    rw [List.range_succ, List.foldl_append]
    simp only [List.foldl_cons, List.foldl_nil]
    by_cases hj : j = n
    · subst hj
      rw [Function.update_self, ih]
      simp
    · rw [Function.update_of_ne hj, ih]
      have : (j < n + 1) ↔ (j < n) := by omega
      simp [this]

theorem fsF_eq (rnd : K → K) (ng : Nat) (mats : List (Mat K × Nat)) (area : Nat → K) (flux : Nat → Nat → K) (j : Nat) (hj : j < nRegions mats) :
    fissionSourceF rnd ng mats area flux j = sumF rnd ng fun g => rnd (rnd ((mat mats j).nf g * flux j g) * area j) := by
  unfold fissionSourceF
  induction ng with
  | zero => rfl
  | succ n ih =>
    rw [List.range_succ, List.foldl_append, sumF_succ, ← ih]
    simp only [List.foldl_cons, List.foldl_nil]
    rw [fsF_inner rnd mats (fun m i => rnd (rnd (m.nf n * flux i n) * area i)), if_pos hj]

theorem fsSumF_eq (rnd : K → K) (ng : Nat) (mats : List (Mat K × Nat)) (area : Nat → K) (flux : Nat → Nat → K) :
    fsSumF rnd (nRegions mats) (fissionSourceF rnd ng mats area flux) =
      sumF rnd (nRegions mats) fun i => sumF rnd ng fun g => rnd (rnd ((mat mats i).nf g * flux i g) * area i) :=
  sumF_congr rnd _ _ _ fun i hi => fsF_eq rnd ng mats area flux i hi

theorem out_of_band (m : Mat K) (ng ig igg : Nat) (h : m.inBand ng ig igg = false) : m.scat ng ig igg = 0 := by
  unfold Mat.inBand at h
  unfold Mat.scat Scatter.Matrix.xssc
  split at h
  · rename_i r hr
    rw [hr]
    simp only
    rw [if_neg]
    rintro ⟨h1, h2⟩
    simp [h1, h2] at h
  · rename_i hr
    rw [hr]

theorem guardF_scat (rnd : K → K) (R : Rounding rnd) (ng : Nat) (mats : List (Mat K × Nat)) (area : Nat → K) (flux : Nat → Nat → K) (ig igg : Nat) :
    (guardF rnd (nRegions mats) (fun i => (mat mats i).inBand ng ig igg) fun i => rnd (rnd ((mat mats i).scat ng ig igg * area i) * flux i igg)) =
      sumF rnd (nRegions mats) fun i => rnd (rnd ((mat mats i).scat ng ig igg * area i) * flux i igg) := by
  refine guardF_eq rnd R _ _ _ fun i _ hb => ?_
  show rnd (rnd ((mat mats i).scat ng ig igg * area i) * flux i igg) = 0
  rw [out_of_band _ _ _ _ hb, zero_mul, R.zero, zero_mul, R.zero]

/-- The pin's data are not negative. -/
structure PinOk (ng : Nat) (mats : List (Mat K × Nat)) (area : Nat → K) (flux : Nat → Nat → K) : Prop where
  area : ∀ i < nRegions mats, 0 ≤ area i
  flux : ∀ i < nRegions mats, ∀ g < ng, 0 ≤ flux i g
  tr : ∀ i < nRegions mats, ∀ g < ng, 0 ≤ (mat mats i).tr g
  nf : ∀ i < nRegions mats, ∀ g < ng, 0 ≤ (mat mats i).nf g
  f : ∀ i < nRegions mats, ∀ g < ng, 0 ≤ (mat mats i).f g
  ch : ∀ i < nRegions mats, ∀ g < ng, 0 ≤ (mat mats i).ch g
  sc : ∀ i < nRegions mats, ∀ d s, d < ng → s < ng → 0 ≤ (mat mats i).sc d s

theorem quotF_nonneg (rnd : K → K) (R : Rounding rnd) {a b y : K} (ha : 0 ≤ a) (hb : 0 ≤ b) (h : quotF rnd a b = some y) : 0 ≤ y := by
  unfold quotF at h
  split at h
  · exact absurd h (by simp)
  · rw [← Option.some.inj h]
    exact rnn R (div_nonneg ha hb)

/-- C150: in any rounding arithmetic none of the homogenised data is negative. -/
theorem C150_nonneg (rnd : K → K) (R : Rounding rnd) (ng : Nat) (mats : List (Mat K × Nat)) (area : Nat → K) (flux : Nat → Nat → K) (ok : PinOk ng mats area flux) :
    let o := homogFluxF rnd ng (nRegions mats) mats area flux
    ∀ g < ng, (∀ y, o.tr g = some y → 0 ≤ y) ∧ (∀ y, o.nf g = some y → 0 ≤ y) ∧ (∀ y, o.f g = some y → 0 ≤ y) ∧ (∀ y, o.ch g = some y → 0 ≤ y) ∧
      ∀ s < ng, ∀ y, o.scat g s = some y → 0 ≤ y := by
  intro o g hg
  have n : ∀ {x : K}, 0 ≤ x → 0 ≤ rnd x := fun h => rnn R h
  have hv : ∀ g < ng, ∀ i < nRegions mats, 0 ≤ rnd (area i * flux i g) := fun g hg i hi => n (mul_nonneg (ok.area i hi) (ok.flux i hi g hg))
  have hden : 0 ≤ sumF rnd (nRegions mats) fun i => rnd (area i * flux i g) := sumF_nonneg rnd R _ _ fun i hi => hv g hg i hi
  have hfs : ∀ i < nRegions mats, 0 ≤ sumF rnd ng fun g => rnd (rnd ((mat mats i).nf g * flux i g) * area i) := fun i hi =>
    sumF_nonneg rnd R _ _ fun g hg => n (mul_nonneg (n (mul_nonneg (ok.nf i hi g hg) (ok.flux i hi g hg))) (ok.area i hi))
  simp only [o, homogFluxF, fluxAccF, accF_eq, guardF_scat rnd R, fsSumF_eq]
  refine ⟨fun y hy => ?_, fun y hy => ?_, fun y hy => ?_, fun y hy => ?_, fun s hs y hy => ?_⟩
  · exact quotF_nonneg rnd R (sumF_nonneg rnd R _ _ fun i hi => n (mul_nonneg (hv g hg i hi) (ok.tr i hi g hg))) hden hy
  · exact quotF_nonneg rnd R (sumF_nonneg rnd R _ _ fun i hi => n (mul_nonneg (hv g hg i hi) (ok.nf i hi g hg))) hden hy
  · exact quotF_nonneg rnd R (sumF_nonneg rnd R _ _ fun i hi => n (mul_nonneg (hv g hg i hi) (ok.f i hi g hg))) hden hy
  · have hc : 0 ≤ sumF rnd (nRegions mats) fun i => rnd (fissionSourceF rnd ng mats area flux i * (mat mats i).ch g) :=
      sumF_nonneg rnd R _ _ fun i hi => n (mul_nonneg (by rw [fsF_eq rnd ng mats area flux i hi]; exact hfs i hi) (ok.ch i hi g hg))
    split at hy
    · rename_i hp
      exact quotF_nonneg rnd R hc hp.le hy
    · rw [← Option.some.inj hy]; exact hc
  · have hc : 0 ≤ sumF rnd (nRegions mats) fun i => rnd (rnd ((mat mats i).scat ng g s * area i) * flux i s) :=
      sumF_nonneg rnd R _ _ fun i hi => n (mul_nonneg (n (mul_nonneg (by rw [scat_dense ng _ (ok.sc i hi) g s hg hs]; exact ok.sc i hi g s hg hs) (ok.area i hi)))
        (ok.flux i hi s hs))
    have hd : 0 ≤ sumF rnd (nRegions mats) fun i => rnd (flux i s * area i) :=
      sumF_nonneg rnd R _ _ fun i hi => n (mul_nonneg (ok.flux i hi s hs) (ok.area i hi))
    split at hy
    · exact quotF_nonneg rnd R hc hd hy
    · rw [← Option.some.inj hy]; exact hc

/-- Without rounding the function is that of C26. -/
theorem C150_exact (ng : Nat) (mats : List (Mat K × Nat)) (area : Nat → K) (flux : Nat → Nat → K) :
    let o := homogFlux ng (nRegions mats) mats area flux
    let o' := homogFluxF id ng (nRegions mats) mats area flux
    ∀ g, (∑ i ∈ Finset.range (nRegions mats), area i * flux i g ≠ 0 → o'.tr g = some (o.tr g) ∧ o'.nf g = some (o.nf g) ∧ o'.f g = some (o.f g) ∧
      ∀ d, o'.scat d g = some (o.scat d g)) ∧ o'.ch g = some (o.ch g) := by
  intro o o' g
  have e1 : ∀ ig, fluxAccF id ng mats area flux ig = fluxAcc ng mats area flux ig := by
    intro ig
    have hfs : fissionSourceF id ng mats area flux = fissionSource ng mats area flux := rfl
    unfold fluxAccF fluxAcc
    rw [hfs, accF_eq, acc_eq]
    have hR : ∀ igg, (guardF id (nRegions mats) (fun i => (mat mats i).inBand ng ig igg) fun i => (mat mats i).scat ng ig igg * area i * flux i igg) =
        ∑ i ∈ Finset.range (nRegions mats), (mat mats i).scat ng ig igg * area i * flux i igg := by
      intro igg
      exact (guardF_scat id ⟨fun _ _ h => h, fun _ => rfl, rfl, rfl, fun _ => rfl⟩ ng mats area flux ig igg).trans (sumF_id _ _)
    simp only [sumF_id, id, hR]
    rfl
  have e2 : fsSumF id (nRegions mats) (fissionSourceF id ng mats area flux) = fsSum (nRegions mats) (fissionSource ng mats area flux) := rfl
  have hfv : ∀ ig, (fluxAcc ng mats area flux ig).fluxvol = ∑ i ∈ Finset.range (nRegions mats), area i * flux i ig := fun ig => by
    unfold fluxAcc; rw [acc_eq]; rfl
  have hss : ∀ d ig, (fluxAcc ng mats area flux d).scatsum ig = ∑ i ∈ Finset.range (nRegions mats), area i * flux i ig := fun d ig => by
    unfold fluxAcc; rw [acc_eq]; show ∑ i ∈ Finset.range (nRegions mats), flux i ig * area i = _; exact Finset.sum_congr rfl fun i _ => mul_comm _ _
  refine ⟨fun h => ?_, ?_⟩
  · simp only [o, o', homogFluxF, homogFlux, e1, quotF, hfv, if_neg h, id, true_and, hss]
    intro d
    split <;> rfl
  · simp only [o', o, homogFluxF, homogFlux, e1, e2, quotF]
    split
    · rename_i hp
      rw [if_neg hp.ne']; rfl
    · rfl

/-- C150: the removal cross section of a group is its transport cross section less the scattering from the group into itself, rounded once. -/
theorem C150_removal (rnd : K → K) (ng : Nat) (mats : List (Mat K × Nat)) (area : Nat → K) (flux : Nat → Nat → K) (g : Nat) (t s : K) :
    let o := homogFluxF rnd ng (nRegions mats) mats area flux
    o.tr g = some t → o.scat g g = some s → o.removalF rnd g = some (rnd (t - s)) := by
  intro o ht hs
  unfold Homog.removalF
  rw [ht, hs]
  rfl

/-- Two groups: the second one removes 5 - 2. -/
example : (homogFluxF id 2 1 [((⟨fun g => g + 4, fun _ => 0, fun _ => 0, fun _ => 0, fun _ _ => 1 + 1⟩ : Mat ℚ), 1)] (fun _ => 1) (fun _ _ => 1)).removalF id 1 = some 3 := by decide +kernel

/-- C150: when the flux of a group is zero in the whole pin the three cross sections of that group, and with them the removal, are not numbers; nothing guards the quotient. -/
theorem C150_zero_flux (rnd : K → K) (R : Rounding rnd) (ng : Nat) (mats : List (Mat K × Nat)) (area : Nat → K) (flux : Nat → Nat → K) (g : Nat)
    (h : ∀ i < nRegions mats, flux i g = 0) :
    let o := homogFluxF rnd ng (nRegions mats) mats area flux
    o.tr g = none ∧ o.nf g = none ∧ o.f g = none ∧ o.removalF rnd g = none := by
  intro o
  have hz : (sumF rnd (nRegions mats) fun i => rnd (area i * flux i g)) = 0 := by
    have : ∀ n, n ≤ nRegions mats → (sumF rnd n fun i => rnd (area i * flux i g)) = 0 := by
      intro n
      induction n with
      | zero => intro _; rfl
      | succ n ih =>
        intro hn
        rw [sumF_succ, ih (by omega), h n (by omega), mul_zero, R.zero, add_zero, R.zero]
    exact this _ le_rfl
  have ht : o.tr g = none := by simp only [o, homogFluxF, fluxAccF, accF_eq, hz, quotF, if_true]
  refine ⟨ht, ?_, ?_, ?_⟩
  · simp only [o, homogFluxF, fluxAccF, accF_eq, hz, quotF, if_true]
  · simp only [o, homogFluxF, fluxAccF, accF_eq, hz, quotF, if_true]
  · unfold Homog.removalF
    rw [ht]; rfl

end

theorem list_sum_range (n : Nat) (t : Nat → ℚ) : ((List.range n).map t).sum = ∑ i ∈ Finset.range n, t i := by
  induction n with
  | zero => rfl
  | succ n ih => rw [List.range_succ, List.map_append, List.sum_append, ih, Finset.sum_range_succ]; simp

theorem near_sumF (n k : Nat) (t c : Nat → ℚ) (h : ∀ i < n, Near k (t i) (c i) ∧ Dbl (c i)) :
    Near (k + n) (∑ i ∈ Finset.range n, t i) (sumF rnd64 n c) ∧ Dbl (sumF rnd64 n c) := by
  have := near_fold (List.range n) t c k (fun i hi => h i (List.mem_range.mp hi)) k le_rfl 0 0 ((Near.refl le_rfl).mono (Nat.zero_le k)) rnd64_zero
  rwa [zero_add, List.length_range, list_sum_range] at this

/-- Every product of the computation is zero or well above the smallest doubles. -/
structure PinSize (ng : Nat) (mats : List (Mat ℚ × Nat)) (area : Nat → ℚ) (flux : Nat → Nat → ℚ) : Prop where
  vol : ∀ i < nRegions mats, ∀ g < ng, Sizeable (area i * flux i g)
  tr : ∀ i < nRegions mats, ∀ g < ng, Sizeable (area i * flux i g * (mat mats i).tr g)
  nf : ∀ i < nRegions mats, ∀ g < ng, Sizeable (area i * flux i g * (mat mats i).nf g)
  f : ∀ i < nRegions mats, ∀ g < ng, Sizeable (area i * flux i g * (mat mats i).f g)
  sc1 : ∀ i < nRegions mats, ∀ d < ng, ∀ s < ng, Sizeable ((mat mats i).sc d s * area i)
  sc2 : ∀ i < nRegions mats, ∀ d < ng, ∀ s < ng, Sizeable ((mat mats i).sc d s * area i * flux i s)
  fs1 : ∀ i < nRegions mats, ∀ g < ng, Sizeable ((mat mats i).nf g * flux i g)
  fs2 : ∀ i < nRegions mats, ∀ g < ng, Sizeable ((mat mats i).nf g * flux i g * area i)
  ch : ∀ i < nRegions mats, ∀ g < ng, Sizeable ((∑ g' ∈ Finset.range ng, (mat mats i).nf g' * flux i g' * area i) * (mat mats i).ch g)

/-- A quotient of sums as the code computes it. -/
theorem near_quot {k l n : Nat} (hn : k + l + 2 * n ≤ 2 ^ 26) (t c t' c' : Nat → ℚ) (h : ∀ i < n, Near k (t i) (c i) ∧ Dbl (c i)) (h' : ∀ i < n, Near l (t' i) (c' i) ∧ Dbl (c' i))
    (hp : 0 < ∑ i ∈ Finset.range n, t' i) (hs : Sizeable ((∑ i ∈ Finset.range n, t i) / ∑ i ∈ Finset.range n, t' i)) :
    ∃ y, quotF rnd64 (sumF rnd64 n c) (sumF rnd64 n c') = some y ∧ Near (k + l + 2 * n + 1) ((∑ i ∈ Finset.range n, t i) / ∑ i ∈ Finset.range n, t' i) y := by
  obtain ⟨a, -⟩ := near_sumF n k t c h
  obtain ⟨b, -⟩ := near_sumF n l t' c' h'
  have hb := near_pos b hp
  refine ⟨rnd64 (sumF rnd64 n c / sumF rnd64 n c'), by unfold quotF; rw [if_neg hb.ne'], ?_⟩
  exact (near_div (by omega) a b hp hb hs).mono (by omega)

theorem near_prod3 {a b c : ℚ} (ha : 0 ≤ a) (hb : 0 ≤ b) (hc : 0 ≤ c) (h1 : Sizeable (a * b)) (h2 : Sizeable (a * b * c)) :
    Near 2 (a * b * c) (rnd64 (rnd64 (a * b) * c)) ∧ Dbl (rnd64 (rnd64 (a * b) * c)) :=
  ⟨near_mul (by norm_num) (near_prod ha hb (sizeable_normal h1)) (Near.refl hc) h2, dbl_rnd _⟩

/-- C150: in doubles, transport, nu-fission and fission cross section of a group are numbers and within `2 n + 5` half units in the last place of the averages, `n` being the
number of the pin's regions. -/
theorem C150_error (ng : Nat) (mats : List (Mat ℚ × Nat)) (area : Nat → ℚ) (flux : Nat → Nat → ℚ) (ok : PinOk ng mats area flux) (sz : PinSize ng mats area flux)
    (hn : nRegions mats ≤ 2 ^ 24) (g : Nat) (hg : g < ng) (hp : 0 < ∑ i ∈ Finset.range (nRegions mats), area i * flux i g) :
    let o := homogFlux ng (nRegions mats) mats area flux
    let o' := homogFluxF rnd64 ng (nRegions mats) mats area flux
    let e : ℚ := (2 * nRegions mats + 5 : Nat) / 2 ^ 53
    (Sizeable (o.tr g) → ∃ y, o'.tr g = some y ∧ |y - o.tr g| ≤ e * o.tr g) ∧
    (Sizeable (o.nf g) → ∃ y, o'.nf g = some y ∧ |y - o.nf g| ≤ e * o.nf g) ∧
    (Sizeable (o.f g) → ∃ y, o'.f g = some y ∧ |y - o.f g| ≤ e * o.f g) := by
  intro o o' e
  have hd : ∀ i < nRegions mats, Near 1 (area i * flux i g) (rnd64 (area i * flux i g)) ∧ Dbl (rnd64 (area i * flux i g)) := fun i hi =>
    ⟨near_prod (ok.area i hi) (ok.flux i hi g hg) (sizeable_normal (sz.vol i hi g hg)), dbl_rnd _⟩
  have key : ∀ x : Nat → ℚ, (∀ i < nRegions mats, 0 ≤ x i) → (∀ i < nRegions mats, Sizeable (area i * flux i g * x i)) →
      Sizeable ((∑ i ∈ Finset.range (nRegions mats), area i * flux i g * x i) / ∑ i ∈ Finset.range (nRegions mats), area i * flux i g) →
      ∃ y, quotF rnd64 (sumF rnd64 (nRegions mats) fun i => rnd64 (rnd64 (area i * flux i g) * x i)) (sumF rnd64 (nRegions mats) fun i => rnd64 (area i * flux i g)) = some y ∧
        |y - (∑ i ∈ Finset.range (nRegions mats), area i * flux i g * x i) / ∑ i ∈ Finset.range (nRegions mats), area i * flux i g| ≤
          e * ((∑ i ∈ Finset.range (nRegions mats), area i * flux i g * x i) / ∑ i ∈ Finset.range (nRegions mats), area i * flux i g) := by
    intro x hx hs1 hs2
    obtain ⟨y, h1, h2⟩ := near_quot (k := 2) (l := 1) (by omega) _ _ _ _ (fun i hi => near_prod3 (ok.area i hi) (ok.flux i hi g hg) (hx i hi) (sz.vol i hi g hg) (hs1 i hi)) hd hp hs2
    exact ⟨y, h1, near_err (by omega) (by omega) h2⟩
  have e1 : o.tr g = (∑ i ∈ Finset.range (nRegions mats), area i * flux i g * (mat mats i).tr g) / ∑ i ∈ Finset.range (nRegions mats), area i * flux i g := by
    simp only [o, homogFlux, fluxAcc, acc_eq]; rfl
  have e2 : o.nf g = (∑ i ∈ Finset.range (nRegions mats), area i * flux i g * (mat mats i).nf g) / ∑ i ∈ Finset.range (nRegions mats), area i * flux i g := by
    simp only [o, homogFlux, fluxAcc, acc_eq]; rfl
  have e3 : o.f g = (∑ i ∈ Finset.range (nRegions mats), area i * flux i g * (mat mats i).f g) / ∑ i ∈ Finset.range (nRegions mats), area i * flux i g := by
    simp only [o, homogFlux, fluxAcc, acc_eq]; rfl
  simp only [o', homogFluxF, fluxAccF, accF_eq]
  rw [e1, e2, e3]
  exact ⟨key _ (fun i hi => ok.tr i hi g hg) fun i hi => sz.tr i hi g hg, key _ (fun i hi => ok.nf i hi g hg) fun i hi => sz.nf i hi g hg,
    key _ (fun i hi => ok.f i hi g hg) fun i hi => sz.f i hi g hg⟩

/-- C150: so is each entry of the scattering matrix. -/
theorem C150_error_scatter (ng : Nat) (mats : List (Mat ℚ × Nat)) (area : Nat → ℚ) (flux : Nat → Nat → ℚ) (ok : PinOk ng mats area flux) (sz : PinSize ng mats area flux)
    (hn : nRegions mats ≤ 2 ^ 24) (d s : Nat) (hd : d < ng) (hs : s < ng) (hp : 0 < ∑ i ∈ Finset.range (nRegions mats), area i * flux i s) :
    let o := homogFlux ng (nRegions mats) mats area flux
    let o' := homogFluxF rnd64 ng (nRegions mats) mats area flux
    Sizeable (o.scat d s) → ∃ y, o'.scat d s = some y ∧ |y - o.scat d s| ≤ (2 * nRegions mats + 5 : Nat) / 2 ^ 53 * o.scat d s := by
  intro o o' hsz
  have hnum : ∀ i < nRegions mats, Near 2 ((mat mats i).sc d s * area i * flux i s) (rnd64 (rnd64 ((mat mats i).scat ng d s * area i) * flux i s)) ∧
      Dbl (rnd64 (rnd64 ((mat mats i).scat ng d s * area i) * flux i s)) := by
    intro i hi
    rw [scat_dense ng _ (ok.sc i hi) d s hd hs]
    exact near_prod3 (ok.sc i hi d s hd hs) (ok.area i hi) (ok.flux i hi s hs) (sz.sc1 i hi d hd s hs) (sz.sc2 i hi d hd s hs)
  have hden : ∀ i < nRegions mats, Near 1 (flux i s * area i) (rnd64 (flux i s * area i)) ∧ Dbl (rnd64 (flux i s * area i)) := fun i hi =>
    ⟨near_prod (ok.flux i hi s hs) (ok.area i hi) (sizeable_normal (by rw [mul_comm]; exact sz.vol i hi s hs)), dbl_rnd _⟩
  have hp' : 0 < ∑ i ∈ Finset.range (nRegions mats), flux i s * area i := by
    rwa [Finset.sum_congr rfl fun i _ => mul_comm (flux i s) (area i)]
  have hnn := (near_sumF (nRegions mats) 2 _ _ hnum).1
  have hsum : ∑ i ∈ Finset.range (nRegions mats), (mat mats i).scat ng d s * area i * flux i s = ∑ i ∈ Finset.range (nRegions mats), (mat mats i).sc d s * area i * flux i s :=
    Finset.sum_congr rfl fun i hi => by rw [scat_dense ng _ (ok.sc i (Finset.mem_range.mp hi)) d s hd hs]
  have e1 : o.scat d s = (∑ i ∈ Finset.range (nRegions mats), (mat mats i).sc d s * area i * flux i s) / ∑ i ∈ Finset.range (nRegions mats), flux i s * area i := by
    simp only [o, homogFlux, fluxAcc, acc_eq, hsum]
    split
    · rfl
    · rename_i hz
      rw [le_antisymm (not_lt.mp hz) hnn.1, zero_div]
  have e2 : o'.scat d s = if 0 < sumF rnd64 (nRegions mats) fun i => rnd64 (rnd64 ((mat mats i).scat ng d s * area i) * flux i s) then
      quotF rnd64 (sumF rnd64 (nRegions mats) fun i => rnd64 (rnd64 ((mat mats i).scat ng d s * area i) * flux i s)) (sumF rnd64 (nRegions mats) fun i => rnd64 (flux i s * area i))
      else some (sumF rnd64 (nRegions mats) fun i => rnd64 (rnd64 ((mat mats i).scat ng d s * area i) * flux i s)) := by
    simp only [o', homogFluxF, fluxAccF, accF_eq, guardF_scat rnd64 rounding64]
  rw [e2]
  split
  · rw [e1] at hsz ⊢
    obtain ⟨y, h1, h2⟩ := near_quot (k := 2) (l := 1) (by omega) _ _ _ _ hnum hden hp' hsz
    exact ⟨y, h1, near_err (by omega) (by omega) h2⟩
  · rename_i hz
    have z1 := le_antisymm (not_lt.mp hz) hnn.nonneg
    have z2 : ∑ i ∈ Finset.range (nRegions mats), (mat mats i).sc d s * area i * flux i s = 0 := by
      by_contra hne
      exact hz (near_pos hnn (lt_of_le_of_ne hnn.1 (Ne.symm hne)))
    refine ⟨_, rfl, ?_⟩
    rw [e1, z1, z2]
    simp

/-- C150: and the fission spectrum, with one more rounding per group for the fission source that weights it. -/
theorem C150_error_spectrum (ng : Nat) (mats : List (Mat ℚ × Nat)) (area : Nat → ℚ) (flux : Nat → Nat → ℚ) (ok : PinOk ng mats area flux) (sz : PinSize ng mats area flux)
    (hn : nRegions mats + ng ≤ 2 ^ 24) (g : Nat) (hg : g < ng)
    (hp : 0 < ∑ i ∈ Finset.range (nRegions mats), ∑ g' ∈ Finset.range ng, (mat mats i).nf g' * flux i g' * area i) :
    let o := homogFlux ng (nRegions mats) mats area flux
    let o' := homogFluxF rnd64 ng (nRegions mats) mats area flux
    Sizeable (o.ch g) → ∃ y, o'.ch g = some y ∧ |y - o.ch g| ≤ (2 * nRegions mats + 2 * ng + 7 : Nat) / 2 ^ 53 * o.ch g := by
  intro o o' hsz
  have hfs : ∀ i < nRegions mats, Near (2 + ng) (∑ g' ∈ Finset.range ng, (mat mats i).nf g' * flux i g' * area i)
      (sumF rnd64 ng fun g => rnd64 (rnd64 ((mat mats i).nf g * flux i g) * area i)) ∧ Dbl (sumF rnd64 ng fun g => rnd64 (rnd64 ((mat mats i).nf g * flux i g) * area i)) := fun i hi =>
    near_sumF ng 2 _ _ fun g hg => near_prod3 (ok.nf i hi g hg) (ok.flux i hi g hg) (ok.area i hi) (sz.fs1 i hi g hg) (sz.fs2 i hi g hg)
  have hnum : ∀ i < nRegions mats, Near (3 + ng) ((∑ g' ∈ Finset.range ng, (mat mats i).nf g' * flux i g' * area i) * (mat mats i).ch g)
      (rnd64 (fissionSourceF rnd64 ng mats area flux i * (mat mats i).ch g)) ∧ Dbl (rnd64 (fissionSourceF rnd64 ng mats area flux i * (mat mats i).ch g)) := by
    intro i hi
    rw [fsF_eq rnd64 ng mats area flux i hi]
    exact ⟨(near_mul (by omega) (hfs i hi).1 (Near.refl (ok.ch i hi g hg)) (sz.ch i hi g hg)).mono (by omega), dbl_rnd _⟩
  have e1 : o.ch g = (∑ i ∈ Finset.range (nRegions mats), (∑ g' ∈ Finset.range ng, (mat mats i).nf g' * flux i g' * area i) * (mat mats i).ch g) /
      ∑ i ∈ Finset.range (nRegions mats), ∑ g' ∈ Finset.range ng, (mat mats i).nf g' * flux i g' * area i := by
    rw [eq_div_iff hp.ne']
    exact C26_spectrum ng mats area flux hp g
  have hpos := near_pos (near_sumF (nRegions mats) (2 + ng) _ _ hfs).1 hp
  have e2 : o'.ch g = quotF rnd64 (sumF rnd64 (nRegions mats) fun i => rnd64 (fissionSourceF rnd64 ng mats area flux i * (mat mats i).ch g))
      (sumF rnd64 (nRegions mats) fun i => sumF rnd64 ng fun g => rnd64 (rnd64 ((mat mats i).nf g * flux i g) * area i)) := by
    simp only [o', homogFluxF, fluxAccF, accF_eq, fsSumF_eq]
    rw [if_pos hpos]
  rw [e2]
  rw [e1] at hsz ⊢
  obtain ⟨y, h1, h2⟩ := near_quot (k := 3 + ng) (l := 2 + ng) (by omega) _ _ _ _ hnum hfs hp hsz
  exact ⟨y, h1, near_err (by omega) (by omega) h2⟩

/-- A material that only scatters, with the cross section 0.9. -/
def scatMat : Mat ℚ := ⟨fun _ => rnd64 (9 / 10), fun _ => 0, fun _ => 0, fun _ => 0, fun _ _ => rnd64 (9 / 10)⟩

/-- One region of it. -/
def scatterer : List (Mat ℚ × Nat) := [(scatMat, 1)]

/-- What the code makes of it, area and flux being 3. -/
theorem scatterer_result : let o := homogFluxF rnd64 1 1 scatterer (fun _ => 3) (fun _ _ => 3)
    o.tr 0 = some (rnd64 (9 / 10) - 1 / 2 ^ 53) ∧ o.scat 0 0 = some (rnd64 (9 / 10) + 1 / 2 ^ 53) ∧ o.removalF rnd64 0 = some (-1 / 2 ^ 52) := by decide +kernel

theorem scatterer_ok : PinOk 1 scatterer (fun _ => 3) (fun _ _ => 3) := by
  have h : ∀ i < nRegions scatterer, mat scatterer i = scatMat := by
    intro i hi
    have : i = 0 := by
      have : nRegions scatterer = 1 := rfl
      omega
    subst this; rfl
  have p : (0 : ℚ) ≤ rnd64 (9 / 10) := by decide +kernel
  exact ⟨fun _ _ => by norm_num, fun _ _ _ _ => by norm_num, fun i hi g _ => by rw [h i hi]; exact p, fun i hi g _ => by rw [h i hi]; exact le_rfl, fun i hi g _ => by rw [h i hi]; exact le_rfl,
    fun i hi g _ => by rw [h i hi]; exact le_rfl, fun i hi d s _ _ => by rw [h i hi]; exact p⟩

/-- C150, the claim: in doubles a pin of one material gets that material's cross sections. -/
def C150_one_material_claim : Prop := ∀ (ng : Nat) (mats : List (Mat ℚ × Nat)) (area : Nat → ℚ) (flux : Nat → Nat → ℚ) (m : Mat ℚ), PinOk ng mats area flux →
  (∀ i < nRegions mats, mat mats i = m) → (∀ i, Dbl (area i)) → (∀ i g, Dbl (flux i g)) → (∀ g, Dbl (m.tr g)) → ∀ g < ng, 0 < ∑ i ∈ Finset.range (nRegions mats), area i * flux i g →
  (homogFluxF rnd64 ng (nRegions mats) mats area flux).tr g = some (m.tr g)

theorem dbl_three : Dbl (3 : ℚ) := by unfold Dbl; decide +kernel

/-- C150: false; 0.9 comes back one unit in the last place smaller. -/
theorem C150_one_material_claim_false : ¬ C150_one_material_claim := by
  intro h
  have := h 1 scatterer (fun _ => 3) (fun _ _ => 3) scatMat scatterer_ok (fun i hi => by
    have : i = 0 := by
      have : nRegions scatterer = 1 := rfl
      omega
    subst this; rfl) (fun _ => dbl_three) (fun _ _ => dbl_three) (fun _ => dbl_rnd _) 0 (by norm_num) (by decide +kernel)
  exact absurd this (by decide +kernel)

/-- C150, the claim: in doubles the removal cross section of a pin is not negative when none of its materials scatters more than it collides. -/
def C150_removal_claim : Prop := ∀ (ng : Nat) (mats : List (Mat ℚ × Nat)) (area : Nat → ℚ) (flux : Nat → Nat → ℚ), PinOk ng mats area flux →
  (∀ i, Dbl (area i)) → (∀ i g, Dbl (flux i g)) → (∀ i < nRegions mats, ∀ g < ng, ∑ d ∈ Finset.range ng, (mat mats i).sc d g ≤ (mat mats i).tr g) →
  ∀ g < ng, ∀ y, (homogFluxF rnd64 ng (nRegions mats) mats area flux).removalF rnd64 g = some y → 0 ≤ y

/-- C150: false; collision and scattering rate are products in different order. -/
theorem C150_removal_claim_false : ¬ C150_removal_claim := by
  intro h
  have := h 1 scatterer (fun _ => 3) (fun _ _ => 3) scatterer_ok (fun _ => dbl_three) (fun _ _ => dbl_three) (fun i hi g hg => by
    have h0 : i = 0 := by
      have : nRegions scatterer = 1 := rfl
      omega
    subst h0
    rw [Finset.sum_range_one]
    exact le_rfl) 0 (by norm_num) _ scatterer_result.2.2
  exact absurd this (by norm_num)

/-- C150, the claim: the homogenised data are numbers for every flux that is not negative and not zero throughout. -/
def C150_finite_claim : Prop := ∀ (ng : Nat) (mats : List (Mat ℚ × Nat)) (area : Nat → ℚ) (flux : Nat → Nat → ℚ), PinOk ng mats area flux → (∀ i < nRegions mats, 0 < area i) →
  (∃ i < nRegions mats, ∃ g < ng, 0 < flux i g) → ∀ g < ng, (homogFluxF rnd64 ng (nRegions mats) mats area flux).tr g ≠ none

/-- C150: false; it takes one group without flux. -/
theorem C150_finite_claim_false : ¬ C150_finite_claim := by
  intro h
  have hm : ∀ i < nRegions demoMats, ∀ P : Mat ℚ → Prop, (∀ m ∈ demoMats, P m.1) → P (mat demoMats i) := by
    intro i hi P hP
    have h3 : nRegions demoMats = 3 := rfl
    rw [h3] at hi
    have h0 := hP _ (List.mem_cons_self)
    have h1 := hP _ (List.mem_cons_of_mem _ List.mem_cons_self)
    interval_cases i
    · exact h0
    · exact h0
    · exact h1
  refine h 2 demoMats (fun _ => 1) (fun _ g => if g = 0 then 1 else 0) ⟨fun _ _ => by norm_num, fun _ _ g _ => by split <;> norm_num, ?_, ?_, ?_, ?_, ?_⟩ (fun _ _ => by norm_num)
    ⟨0, by decide, 0, by norm_num, by norm_num⟩ 1 (by norm_num) ?_
  · intro i hi g _
    exact hm i hi (fun m => 0 ≤ m.tr g) (by simp [demoMats])
  · intro i hi g _
    exact hm i hi (fun m => 0 ≤ m.nf g) (by simp [demoMats])
  · intro i hi g _
    exact hm i hi (fun m => 0 ≤ m.f g) (by simp [demoMats])
  · intro i hi g _
    exact hm i hi (fun m => 0 ≤ m.ch g) (by simp only [demoMats, List.forall_mem_cons]; refine ⟨?_, le_rfl, by simp⟩; split <;> norm_num)
  · intro i hi d s _ _
    exact hm i hi (fun m => 0 ≤ m.sc d s) (by simp [demoMats])
  · exact (C150_zero_flux rnd64 rounding64 2 demoMats _ _ 1 fun i _ => by norm_num).1

/-- The error bounds apply to the witness: nothing in it is small. -/
example : PinSize 1 scatterer (fun _ => 3) (fun _ _ => 3) := by
  have h : ∀ i < nRegions scatterer, mat scatterer i = scatMat := by
    intro i hi
    have : i = 0 := by
      have : nRegions scatterer = 1 := rfl
      omega
    subst this; rfl
  have big : ∀ x : ℚ, 1 ≤ x → Sizeable x := fun x hx => Or.inr (le_trans (zpow_le_one_of_nonpos₀ (by norm_num) (by norm_num)) hx)
  have p1 : (1 : ℚ) ≤ 3 * 3 * rnd64 (9 / 10) := by decide +kernel
  have p2 : (1 : ℚ) ≤ rnd64 (9 / 10) * 3 := by decide +kernel
  have p3 : (1 : ℚ) ≤ rnd64 (9 / 10) * 3 * 3 := by decide +kernel
  refine ⟨fun _ _ _ _ => big _ (by norm_num), ?_, ?_, ?_, ?_, ?_, ?_, ?_, ?_⟩
  · intro i hi g _; rw [h i hi]; exact big _ p1
  · intro i hi g _; rw [h i hi]; exact Or.inl (by simp [scatMat])
  · intro i hi g _; rw [h i hi]; exact Or.inl (by simp [scatMat])
  · intro i hi d _ s _; rw [h i hi]; exact big _ p2
  · intro i hi d _ s _; rw [h i hi]; exact big _ p3
  · intro i hi g _; rw [h i hi]; exact Or.inl (by simp [scatMat])
  · intro i hi g _; rw [h i hi]; exact Or.inl (by simp [scatMat])
  · intro i hi g _; rw [h i hi]; exact Or.inl (by simp [scatMat])

end Verif.XS
