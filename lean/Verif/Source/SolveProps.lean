import Verif.Source.SolveModel
import Verif.Source.PairProps
import Verif.Source.FloatProps
import Verif.Solver.Props

/-!
# C143: what convergence of the eigenvalue solver means
-/

set_option linter.unusedSectionVars false

namespace Verif.Source

open Verif.XS

variable {K : Type} [Field K] [LinearOrder K] [IsStrictOrderedRing K]

/-- Region `i` is filled with a material that has nu-fission in some group. -/
def Fissile (ng : Nat) (rs : List (XsRegion (Mat K))) (i : Nat) : Prop := ∃ x ∈ rs, i ∈ x.regs ∧ ∃ g < ng, 0 < x.mat.nf g

open Classical in
/-- The fissile regions of the mesh. -/
noncomputable def fissileSet (ng nReg : Nat) (rs : List (XsRegion (Mat K))) : Finset Nat := (Finset.range nReg).filter (Fissile ng rs)

theorem any_iff (ng : Nat) (m : Mat K) : ((List.range ng).any fun ig => decide (0 < m.nf ig)) = true ↔ ∃ g < ng, 0 < m.nf g := by
  simp [List.any_eq_true]

theorem nFissile_from (ng : Nat) (rs : List (XsRegion (Mat K))) (n : Nat) :
    rs.foldl (fun n x => if (List.range ng).any (fun ig => decide (0 < x.mat.nf ig)) then n + x.regs.length else n) n = n + nFissile ng rs := by
  unfold nFissile
  induction rs generalizing n with
  | nil => simp
  | cons x t ih =>
    rw [List.foldl_cons, List.foldl_cons]
    by_cases hx : ((List.range ng).any fun ig => decide (0 < x.mat.nf ig)) = true
    · simp only [hx, if_true]
      rw [ih (n + _), ih (0 + _)]; omega
    · simp only [hx, Bool.false_eq_true, if_false]
      exact ih n

/-- The number counted is the number of fissile regions. -/
theorem C143_count (ng nReg : Nat) (rs : List (XsRegion (Mat K))) (hp : Partition rs) (hr : ∀ x ∈ rs, ∀ i ∈ x.regs, i < nReg) : nFissile ng rs = (fissileSet ng nReg rs).card := by
  classical
  induction rs with
  | nil =>
    symm
    unfold fissileSet
    rw [show nFissile ng ([] : List (XsRegion (Mat K))) = 0 from rfl, Finset.card_eq_zero, Finset.filter_eq_empty_iff]
    simp [Fissile]
  | cons x t ih =>
    have hp2 := List.pairwise_cons.mp hp.2
    have ht := ih ⟨fun y hy => hp.1 y (List.mem_cons_of_mem _ hy), hp2.2⟩ fun y hy => hr y (List.mem_cons_of_mem _ hy)
    have hstep : nFissile ng (x :: t) = (if (List.range ng).any (fun ig => decide (0 < x.mat.nf ig)) then x.regs.length else 0) + nFissile ng t := by
      conv_lhs => unfold nFissile
      rw [List.foldl_cons, nFissile_from]
      split <;> simp
    rw [hstep, ht]
    by_cases hx : ∃ g < ng, 0 < x.mat.nf g
    · rw [if_pos ((any_iff ng x.mat).mpr hx)]
      have e : fissileSet ng nReg (x :: t) = x.regs.toFinset ∪ fissileSet ng nReg t := by
        ext i
        simp only [fissileSet, Fissile, Finset.mem_filter, Finset.mem_range, Finset.mem_union, List.mem_toFinset]
        constructor
        · rintro ⟨h1, y, hy, h2, h3⟩
          rcases List.mem_cons.mp hy with rfl | hy
          · exact Or.inl h2
          · exact Or.inr ⟨h1, y, hy, h2, h3⟩
        · rintro (h | ⟨h1, y, hy, h2⟩)
          · exact ⟨hr x List.mem_cons_self i h, x, List.mem_cons_self, h, hx⟩
          · exact ⟨h1, y, List.mem_cons_of_mem _ hy, h2⟩
      have hd : Disjoint x.regs.toFinset (fissileSet ng nReg t) := by
        rw [Finset.disjoint_left]
        intro i hi hi2
        simp only [fissileSet, Fissile, Finset.mem_filter] at hi2
        obtain ⟨-, y, hy, hiy, -⟩ := hi2
        exact hp2.1 y hy i (List.mem_toFinset.mp hi) hiy
      rw [e, Finset.card_union_of_disjoint hd, List.toFinset_card_of_nodup (hp.1 x List.mem_cons_self)]
    · rw [if_neg (fun h => hx ((any_iff ng x.mat).mp h)), zero_add]
      congr 1
      ext i
      simp only [fissileSet, Fissile, Finset.mem_filter, Finset.mem_range]
      refine and_congr_right fun _ => ⟨?_, ?_⟩
      · rintro ⟨y, hy, h⟩; exact ⟨y, List.mem_cons_of_mem _ hy, h⟩
      · rintro ⟨y, hy, h2, h3⟩
        rcases List.mem_cons.mp hy with rfl | hy
        · exact absurd h3 hx
        · exact ⟨y, hy, h2, h3⟩

/-- Outside all cross-section regions the fission source stays zero. -/
theorem fs_outside (ng : Nat) (rs : List (XsRegion (Mat K))) (hp : Partition rs) (k : K) (flux : Nat → Nat → K) (i : Nat) (h : ∀ x ∈ rs, i ∉ x.regs) : calcFissionSource ng rs k flux i = 0 := by
  unfold calcFissionSource
  have hg : ∀ (x : XsRegion (Mat K)), x ∈ rs → ∀ (gs : List Nat) (a : Nat → K), gs.foldl (fun a ig => addTo x.regs (fun i => 1 / k * x.mat.nf ig * flux i ig) a) a i = a i := by
    intro x hx gs
    induction gs with
    | nil => intro a; rfl
    | cons g t ih => intro a; rw [List.foldl_cons, ih, addTo_eq _ (hp.1 x hx), if_neg (h x hx), add_zero]
  have : ∀ (l : List (XsRegion (Mat K))) (a : Nat → K), (∀ x ∈ l, x ∈ rs) →
      l.foldl (fun a x => (List.range ng).foldl (fun a ig => addTo x.regs (fun i => 1 / k * x.mat.nf ig * flux i ig) a) a) a i = a i := by
    intro l
    induction l with
    | nil => intro a _; rfl
    | cons x t ih => intro a hl; rw [List.foldl_cons, ih _ fun y hy => hl y (List.mem_cons_of_mem _ hy), hg x (hl x List.mem_cons_self)]
  exact this rs _ fun _ h => h

/-- Data and fluxes as they should be: nu-fission not negative, fluxes of the mesh positive. -/
structure Positive (ng nReg : Nat) (rs : List (XsRegion (Mat K))) (flux : Nat → Nat → K) : Prop where
  part : Partition rs
  range : ∀ x ∈ rs, ∀ i ∈ x.regs, i < nReg
  nf : ∀ x ∈ rs, ∀ g < ng, 0 ≤ x.mat.nf g
  flux : ∀ i < nReg, ∀ g < ng, 0 < flux i g

/-- With positive fluxes the fission source is positive in fissile regions and zero elsewhere. -/
theorem C143_sign (ng nReg : Nat) (rs : List (XsRegion (Mat K))) (flux : Nat → Nat → K) (h : Positive ng nReg rs flux) (k : K) (hk : 0 < k) (i : Nat) (hi : i < nReg) :
    (Fissile ng rs i → 0 < calcFissionSource ng rs k flux i) ∧ (¬ Fissile ng rs i → calcFissionSource ng rs k flux i = 0) := by
  constructor
  · rintro ⟨x, hx, hix, g, hg, hnf⟩
    rw [C47_fission_source ng rs h.part k flux x hx i hix]
    refine div_pos ?_ hk
    refine lt_of_lt_of_le (mul_pos hnf (h.flux i hi g hg)) (Finset.single_le_sum (f := fun g => x.mat.nf g * flux i g) ?_ (Finset.mem_range.mpr hg))
    intro g' hg'
    have hg' := Finset.mem_range.mp hg'
    exact mul_nonneg (h.nf x hx g' hg') (h.flux i hi g' hg').le
  · intro hn
    by_cases hc : ∃ x ∈ rs, i ∈ x.regs
    · obtain ⟨x, hx, hix⟩ := hc
      rw [C47_fission_source ng rs h.part k flux x hx i hix, Finset.sum_eq_zero, zero_div]
      intro g hg
      have hg := Finset.mem_range.mp hg
      have : x.mat.nf g = 0 := le_antisymm (not_lt.mp fun hp => hn ⟨x, hx, hix, g, hg, hp⟩) (h.nf x hx g hg)
      rw [this, zero_mul]
    · push Not at hc
      exact fs_outside ng rs h.part k flux i hc

/-- The fission source of a region over its average in the fissile regions. -/
noncomputable def shape (ng nReg : Nat) (rs : List (XsRegion (Mat K))) (k : K) (flux : Nat → Nat → K) (i : Nat) : K :=
  calcFissionSource ng rs k flux i / ((∑ j ∈ fissileSet ng nReg rs, calcFissionSource ng rs k flux j) / (fissileSet ng nReg rs).card)

theorem fsArray_getD (ng nReg : Nat) (rs : List (XsRegion (Mat K))) (k : K) (flux : Nat → Nat → K) (i : Nat) (hi : i < nReg) :
    (fsArray ng nReg rs k flux).getD i 0 = calcFissionSource ng rs k flux i := by
  unfold fsArray
  rw [List.getD_eq_getElem?_getD, List.getElem?_map, List.getElem?_range hi]
  rfl

theorem fsArray_dist (ng nReg : Nat) (rs : List (XsRegion (Mat K))) (flux : Nat → Nat → K) (h : Positive ng nReg rs flux) (k : K) (hk : 0 < k) (hf : (fissileSet ng nReg rs).Nonempty) :
    Dist (fsArray ng nReg rs k flux) ∧ mean (fsArray ng nReg rs k flux) = (∑ j ∈ fissileSet ng nReg rs, calcFissionSource ng rs k flux j) / (fissileSet ng nReg rs).card := by
  classical
  have hs := C143_sign ng nReg rs flux h k hk
  refine ⟨⟨?_, ?_⟩, ?_⟩
  · intro y hy
    obtain ⟨i, hi, rfl⟩ := List.mem_map.mp hy
    have hi := List.mem_range.mp hi
    by_cases hfi : Fissile ng rs i
    · exact ((hs i hi).1 hfi).le
    · exact ((hs i hi).2 hfi).ge
  · obtain ⟨i, hi⟩ := hf
    simp only [fissileSet, Finset.mem_filter, Finset.mem_range] at hi
    exact ⟨_, List.mem_map.mpr ⟨i, List.mem_range.mpr hi.1, rfl⟩, (hs i hi.1).1 hi.2⟩
  · unfold mean
    have e1 : (fsArray ng nReg rs k flux).sum = ∑ j ∈ fissileSet ng nReg rs, calcFissionSource ng rs k flux j := by
      unfold fsArray fissileSet
      rw [Finset.sum_filter, ← List.sum_toFinset _ List.nodup_range]
      refine Finset.sum_congr (by ext; simp) fun i hi => ?_
      have hi : i < nReg := by simpa using hi
      split_ifs with hfi
      · rfl
      · exact (hs i hi).2 hfi
    have e2 : ((fsArray ng nReg rs k flux).filter (fun x => 0 < x)).length = (fissileSet ng nReg rs).card := by
      unfold fsArray fissileSet
      rw [List.filter_map, List.length_map, ← List.toFinset_card_of_nodup (List.nodup_range.filter _)]
      congr 1
      ext i
      simp only [List.mem_toFinset, List.mem_filter, List.mem_range, Function.comp, decide_eq_true_eq, Finset.mem_filter, Finset.mem_range]
      refine and_congr_right fun hi => ⟨fun hp => ?_, (hs i hi).1⟩
      by_contra hc
      rw [(hs i hi).2 hc] at hp
      exact lt_irrefl _ hp
    rw [e1, e2]

/-- The error of the fission source: the mean square, over the fissile regions, of the change of the fission source relative to its average over these regions. -/
theorem C143_error (ng nReg : Nat) (rs : List (XsRegion (Mat K))) (flux flux' : Nat → Nat → K) (h : Positive ng nReg rs flux) (h' : Positive ng nReg rs flux') (k k' : K) (hk : 0 < k)
    (hk' : 0 < k') (hf : (fissileSet ng nReg rs).Nonempty) :
    errorSq nReg (nFissile ng rs) (fsArray ng nReg rs k' flux') (fsArray ng nReg rs k flux) =
      some ((∑ i ∈ fissileSet ng nReg rs, (shape ng nReg rs k' flux' i - shape ng nReg rs k flux i) ^ 2) / (fissileSet ng nReg rs).card) := by
  classical
  obtain ⟨d, m⟩ := fsArray_dist ng nReg rs flux h k hk hf
  obtain ⟨d', m'⟩ := fsArray_dist ng nReg rs flux' h' k' hk' hf
  rw [C107_error_value nReg _ _ _ d' d (by simp [fsArray]) (by simp [fsArray]), C143_count ng nReg rs h.part h.range, m, m']
  congr 2
  rw [show (∑ i ∈ fissileSet ng nReg rs, (shape ng nReg rs k' flux' i - shape ng nReg rs k flux i) ^ 2) =
    ∑ i ∈ Finset.range nReg, if Fissile ng rs i then (shape ng nReg rs k' flux' i - shape ng nReg rs k flux i) ^ 2 else 0 from Finset.sum_filter _ _]
  apply Finset.sum_congr rfl
  intro i hi
  have hi := Finset.mem_range.mp hi
  rw [fsArray_getD _ _ _ _ _ _ hi, fsArray_getD _ _ _ _ _ _ hi]
  split_ifs with hfi
  · rfl
  · rw [(C143_sign ng nReg rs flux h k hk i hi).2 hfi, (C143_sign ng nReg rs flux' h' k' hk' i hi).2 hfi]
    simp

/-- All fluxes before and after each iteration are positive, and so are the volumes of fissile regions. -/
structure Sound (ng nReg : Nat) (rs : List (XsRegion (Mat K))) (vol : Nat → K) (sweeps : Nat → (Nat → K) → (Nat → Nat → K) → (Nat → Nat → K)) (flux : Nat → Nat → K) : Prop where
  vol : ∀ i < nReg, 0 < vol i
  start : Positive ng nReg rs flux
  keep : ∀ n fs φ, (∀ i < nReg, 0 ≤ fs i) → (∀ i < nReg, ∀ g < ng, 0 < φ i g) → ∀ i < nReg, ∀ g < ng, 0 < sweeps n fs φ i g
  fissile : (fissileSet ng nReg rs).Nonempty

theorem total_pos (ng nReg : Nat) (rs : List (XsRegion (Mat K))) (vol : Nat → K) (hv : ∀ i < nReg, 0 < vol i) (flux : Nat → Nat → K) (h : Positive ng nReg rs flux)
    (hf : (fissileSet ng nReg rs).Nonempty) : 0 < totalFission ng rs vol flux := by
  classical
  obtain ⟨i, hi⟩ := hf
  simp only [fissileSet, Finset.mem_filter, Finset.mem_range] at hi
  obtain ⟨hi, x, hx, hix, g, hg, hnf⟩ := hi
  rw [total_eq]
  have hm : (x.mat, g, i) ∈ cells ng rs := by
    unfold cells
    simp only [List.mem_flatMap, List.mem_map, List.mem_range]
    exact ⟨x, hx, g, hg, i, hix, rfl⟩
  refine lt_of_lt_of_le (mul_pos (mul_pos (h.flux i hi g hg) (hv i hi)) hnf) (List.single_le_sum ?_ _ (List.mem_map.mpr ⟨_, hm, rfl⟩))
  intro y hy
  obtain ⟨c, hc, rfl⟩ := List.mem_map.mp hy
  obtain ⟨x', hx', e, hg', hj⟩ := mem_cells hc
  have hj' := h.range x' hx' _ hj
  rw [e]
  exact mul_nonneg (mul_nonneg (h.flux _ hj' _ hg').le (hv _ hj').le) (h.nf x' hx' _ hg')

/-- What the check of iteration `n` sees. -/
def seen (ng nReg : Nat) (rs : List (XsRegion (Mat K))) (vol : Nat → K) (sweeps : Nat → (Nat → K) → (Nat → Nat → K) → (Nat → Nat → K)) (flux : Nat → Nat → K) (n : Nat) : Solver.Iter K :=
  (outerPass ng nReg rs vol (sweeps n) (stateAt ng nReg rs vol sweeps flux n).1 (stateAt ng nReg rs vol sweeps flux n).2).1

/-- One pass with positive data. -/
theorem pass_eq (ng nReg : Nat) (rs : List (XsRegion (Mat K))) (vol : Nat → K) (sw : (Nat → K) → (Nat → Nat → K) → (Nat → Nat → K)) (k : K) (flux flux' : Nat → Nat → K)
    (e : flux' = sw (calcFissionSource ng rs k flux) flux) (ht : totalFission ng rs vol flux ≠ 0) :
    outerPass ng nReg rs vol sw (some k) flux = (⟨some |k * totalFission ng rs vol flux' / totalFission ng rs vol flux - k|,
      errorSq nReg (nFissile ng rs) (fsArray ng nReg rs (k * totalFission ng rs vol flux' / totalFission ng rs vol flux) flux') (fsArray ng nReg rs k flux), false⟩,
      some (k * totalFission ng rs vol flux' / totalFission ng rs vol flux), flux') := by
  unfold outerPass
  dsimp only
  rw [if_neg ht, e]
  rfl

/-- C143: what happens in iteration `n`: eigenvalue and fluxes stay positive, the new eigenvalue is the old one times the ratio of the total fissions, and the errors the check sees are the
change of the eigenvalue and the mean square change of the shape of the fission source over the fissile regions. -/
theorem C143_iteration (ng nReg : Nat) (rs : List (XsRegion (Mat K))) (vol : Nat → K) (sweeps : Nat → (Nat → K) → (Nat → Nat → K) → (Nat → Nat → K)) (flux : Nat → Nat → K)
    (h : Sound ng nReg rs vol sweeps flux) (n : Nat) :
    ∃ k k' φ φ', stateAt ng nReg rs vol sweeps flux n = (some k, φ) ∧ stateAt ng nReg rs vol sweeps flux (n + 1) = (some k', φ') ∧ 0 < k ∧ 0 < k' ∧
      φ' = sweeps n (calcFissionSource ng rs k φ) φ ∧ k' = k * totalFission ng rs vol φ' / totalFission ng rs vol φ ∧ Positive ng nReg rs φ ∧ Positive ng nReg rs φ' ∧
      seen ng nReg rs vol sweeps flux n = ⟨some |k' - k|,
        some ((∑ i ∈ fissileSet ng nReg rs, (shape ng nReg rs k' φ' i - shape ng nReg rs k φ i) ^ 2) / (fissileSet ng nReg rs).card), false⟩ := by
  have step : ∀ m k φ, stateAt ng nReg rs vol sweeps flux m = (some k, φ) → 0 < k → Positive ng nReg rs φ →
      ∃ k k' φ φ', stateAt ng nReg rs vol sweeps flux m = (some k, φ) ∧ stateAt ng nReg rs vol sweeps flux (m + 1) = (some k', φ') ∧ 0 < k ∧ 0 < k' ∧
      φ' = sweeps m (calcFissionSource ng rs k φ) φ ∧ k' = k * totalFission ng rs vol φ' / totalFission ng rs vol φ ∧ Positive ng nReg rs φ ∧ Positive ng nReg rs φ' ∧
      seen ng nReg rs vol sweeps flux m = ⟨some |k' - k|,
        some ((∑ i ∈ fissileSet ng nReg rs, (shape ng nReg rs k' φ' i - shape ng nReg rs k φ i) ^ 2) / (fissileSet ng nReg rs).card), false⟩ := by
    intro m k φ hm hk hφ
    have hs := C143_sign ng nReg rs φ hφ k hk
    have hφ' : Positive ng nReg rs (sweeps m (calcFissionSource ng rs k φ) φ) := by
      refine ⟨hφ.part, hφ.range, hφ.nf, h.keep m _ φ ?_ hφ.flux⟩
      intro i hi
      by_cases hfi : Fissile ng rs i
      · exact ((hs i hi).1 hfi).le
      · exact ((hs i hi).2 hfi).ge
    have t := total_pos ng nReg rs vol h.vol φ hφ h.fissile
    have t' := total_pos ng nReg rs vol h.vol _ hφ' h.fissile
    have hk' := div_pos (mul_pos hk t') t
    have pe := pass_eq ng nReg rs vol (sweeps m) k φ _ rfl t.ne'
    refine ⟨k, _, φ, _, hm, ?_, hk, hk', rfl, rfl, hφ, hφ', ?_⟩
    · change (outerPass ng nReg rs vol (sweeps m) (stateAt ng nReg rs vol sweeps flux m).1 (stateAt ng nReg rs vol sweeps flux m).2).2 = _
      rw [hm, pe]
    · unfold seen
      rw [hm, pe, C143_error ng nReg rs φ _ hφ hφ' k _ hk hk' h.fissile]
  induction n with
  | zero => exact step 0 1 flux rfl one_pos h.start
  | succ n ih =>
    obtain ⟨-, k', -, φ', -, h2, -, h4, -, -, -, h6, -⟩ := ih
    exact step (n + 1) k' φ' h2 h4 h6

/-- C143: when the solver says that the convergence criteria are satisfied, in the last iteration the eigenvalue changed by less than its tolerance, the root mean square change of the shape of
the fission source over the fissile regions was less than its tolerance, and so was the change in each region, but for the square root of the number of regions. -/
theorem C143_converged (ng nReg : Nat) (rs : List (XsRegion (Mat K))) (vol : Nat → K) (s : Solver.Settings K) (req : List Int) (sweeps : Nat → (Nat → K) → (Nat → Nat → K) → (Nat → Nat → K))
    (flux : Nat → Nat → K) (h : Sound ng nReg rs vol sweeps flux) (hc : (solveAll ng nReg rs vol s req sweeps flux).stop = .converged) :
    ∃ m k k' φ φ', (solveAll ng nReg rs vol s req sweeps flux).performed = m + 1 ∧ s.minIter ≤ m ∧ stateAt ng nReg rs vol sweeps flux m = (some k, φ) ∧
      stateAt ng nReg rs vol sweeps flux (m + 1) = (some k', φ') ∧ |k' - k| < s.tolK ∧
      (∑ i ∈ fissileSet ng nReg rs, (shape ng nReg rs k' φ' i - shape ng nReg rs k φ i) ^ 2) / (fissileSet ng nReg rs).card < s.tolPsi ^ 2 ∧
      ∀ i ∈ fissileSet ng nReg rs, (shape ng nReg rs k' φ' i - shape ng nReg rs k φ i) ^ 2 < (fissileSet ng nReg rs).card * s.tolPsi ^ 2 := by
  obtain ⟨-, -, -, h4, h5, -⟩ := Solver.eigenLoop_stop { s with tolPsi := s.tolPsi * s.tolPsi } (seen ng nReg rs vol sweeps flux) s.maxIter 0 (Solver.sortInt req)
    (Solver.firstDump (Solver.sortInt req)) []
  have hp := h4 (by intro e; exact absurd (hc.symm.trans e) (by simp))
  obtain ⟨hconv, hmin, -⟩ := h5 hc
  change 0 < (solveAll ng nReg rs vol s req sweeps flux).performed at hp
  change s.minIter < (solveAll ng nReg rs vol s req sweeps flux).performed at hmin
  change Solver.Converged _ (seen ng nReg rs vol sweeps flux ((solveAll ng nReg rs vol s req sweeps flux).performed - 1)) at hconv
  obtain ⟨m, hm⟩ : ∃ m, (solveAll ng nReg rs vol s req sweeps flux).performed = m + 1 := ⟨_, (Nat.succ_pred_eq_of_pos hp).symm⟩
  rw [hm] at hmin hconv
  obtain ⟨k, k', φ, φ', e1, e2, -, -, -, -, -, -, e3⟩ := C143_iteration ng nReg rs vol sweeps flux h m
  obtain ⟨a, b, ha, hb, la, lb⟩ := hconv
  rw [Nat.add_sub_cancel, e3] at ha hb
  rw [← Option.some.inj ha] at la
  rw [← Option.some.inj hb] at lb
  have lb' : (∑ i ∈ fissileSet ng nReg rs, (shape ng nReg rs k' φ' i - shape ng nReg rs k φ i) ^ 2) / (fissileSet ng nReg rs).card < s.tolPsi ^ 2 := by rw [sq]; exact lb
  refine ⟨m, k, k', φ, φ', hm, by omega, e1, e2, la, lb', ?_⟩
  intro i hi
  have hcard : (0 : K) < (fissileSet ng nReg rs).card := by exact_mod_cast Finset.card_pos.mpr h.fissile
  rw [div_lt_iff₀ hcard, mul_comm] at lb'
  exact lt_of_le_of_lt (Finset.single_le_sum (f := fun i => (shape ng nReg rs k' φ' i - shape ng nReg rs k φ i) ^ 2) (fun j _ => sq_nonneg _) hi) lb'

/-- C143: with fissile material and positive fluxes the solver does not give up. -/
theorem C143_number (ng nReg : Nat) (rs : List (XsRegion (Mat K))) (vol : Nat → K) (s : Solver.Settings K) (req : List Int) (sweeps : Nat → (Nat → K) → (Nat → Nat → K) → (Nat → Nat → K))
    (flux : Nat → Nat → K) (h : Sound ng nReg rs vol sweeps flux) : (solveAll ng nReg rs vol s req sweeps flux).stop ≠ .notANumber := by
  intro hc
  obtain ⟨-, -, -, -, -, h6, -⟩ := Solver.eigenLoop_stop { s with tolPsi := s.tolPsi * s.tolPsi } (seen ng nReg rs vol sweeps flux) s.maxIter 0 (Solver.sortInt req)
    (Solver.firstDump (Solver.sortInt req)) []
  have := h6 hc
  obtain ⟨k, k', φ, φ', -, -, -, -, -, -, -, -, e3⟩ := C143_iteration ng nReg rs vol sweeps flux h
    ((Solver.eigenLoop { s with tolPsi := s.tolPsi * s.tolPsi } (seen ng nReg rs vol sweeps flux) s.maxIter 0 (Solver.sortInt req) (Solver.firstDump (Solver.sortInt req)) []).performed - 1)
  rw [e3] at this
  exact absurd this (by simp)

/-- C143: without fissile material it gives up after the first iteration, whatever the sweeper does. -/
theorem C143_no_fission (ng nReg : Nat) (rs : List (XsRegion (Mat K))) (vol : Nat → K) (s : Solver.Settings K) (req : List Int) (sweeps : Nat → (Nat → K) → (Nat → Nat → K) → (Nat → Nat → K))
    (flux : Nat → Nat → K) (h : ∀ x ∈ rs, ∀ g < ng, x.mat.nf g = 0) (hm : 0 < s.maxIter) :
    (solveAll ng nReg rs vol s req sweeps flux).stop = .notANumber ∧ (solveAll ng nReg rs vol s req sweeps flux).performed = 1 := by
  have t : ∀ φ, totalFission ng rs vol φ = 0 := by
    intro φ
    rw [total_eq]
    apply List.sum_eq_zero
    intro y hy
    obtain ⟨c, hc, rfl⟩ := List.mem_map.mp hy
    obtain ⟨x, hx, e, hg, -⟩ := mem_cells hc
    rw [e, h x hx _ hg, mul_zero]
  have hn : (seen ng nReg rs vol sweeps flux 0).nan = true := by
    unfold seen stateAt outerPass
    dsimp only
    rw [if_pos (t flux)]
    simp [t]
  obtain ⟨m, hm'⟩ : ∃ m, s.maxIter = m + 1 := ⟨_, (Nat.succ_pred_eq_of_pos hm).symm⟩
  have e : solveAll ng nReg rs vol s req sweeps flux = Solver.eigenLoop { s with tolPsi := s.tolPsi * s.tolPsi } (seen ng nReg rs vol sweeps flux) s.maxIter 0 (Solver.sortInt req)
    (Solver.firstDump (Solver.sortInt req)) [] := rfl
  rw [e, hm']
  unfold Solver.eigenLoop
  dsimp only
  rw [if_pos hn]
  exact ⟨rfl, rfl⟩

/-- C143: fission that begins with an iteration makes the eigenvalue infinite, and it stays so: the solver does not converge any more, and gives up when there is no fission after an iteration. -/
theorem C143_infinite (ng nReg : Nat) (rs : List (XsRegion (Mat K))) (vol : Nat → K) (sweeps : Nat → (Nat → K) → (Nat → Nat → K) → (Nat → Nat → K)) (flux : Nat → Nat → K) (n : Nat)
    (h : totalFission ng rs vol (stateAt ng nReg rs vol sweeps flux n).2 = 0) :
    (stateAt ng nReg rs vol sweeps flux (n + 1)).1 = none ∧
    ∀ m, n < m → (stateAt ng nReg rs vol sweeps flux m).1 = none ∧ (stateAt ng nReg rs vol sweeps flux (m + 1)).2 = sweeps m (fun _ => 0) (stateAt ng nReg rs vol sweeps flux m).2 ∧
      (∀ s, ¬ Solver.Converged s (seen ng nReg rs vol sweeps flux m)) ∧
      ((seen ng nReg rs vol sweeps flux m).nan = true ↔ totalFission ng rs vol (stateAt ng nReg rs vol sweeps flux (m + 1)).2 = 0) := by
  have first : (stateAt ng nReg rs vol sweeps flux (n + 1)).1 = none := by
    change (outerPass ng nReg rs vol (sweeps n) (stateAt ng nReg rs vol sweeps flux n).1 (stateAt ng nReg rs vol sweeps flux n).2).2.1 = none
    cases hk : (stateAt ng nReg rs vol sweeps flux n).1 with
    | none => rfl
    | some k => unfold outerPass; dsimp only; rw [if_pos h]
  have step : ∀ m, (stateAt ng nReg rs vol sweeps flux m).1 = none →
      outerPass ng nReg rs vol (sweeps m) (stateAt ng nReg rs vol sweeps flux m).1 (stateAt ng nReg rs vol sweeps flux m).2 =
        (⟨none, none, decide (totalFission ng rs vol (sweeps m (fun _ => 0) (stateAt ng nReg rs vol sweeps flux m).2) = 0)⟩, none, sweeps m (fun _ => 0) (stateAt ng nReg rs vol sweeps flux m).2) := by
    intro m hm; rw [hm]; rfl
  have all : ∀ d, (stateAt ng nReg rs vol sweeps flux (n + 1 + d)).1 = none := by
    intro d
    induction d with
    | zero => exact first
    | succ d ih =>
      change (outerPass ng nReg rs vol (sweeps (n + 1 + d)) (stateAt ng nReg rs vol sweeps flux (n + 1 + d)).1 (stateAt ng nReg rs vol sweeps flux (n + 1 + d)).2).2.1 = none
      rw [step _ ih]
  refine ⟨first, fun m hm => ?_⟩
  have hmn : (stateAt ng nReg rs vol sweeps flux m).1 = none := by
    have := all (m - (n + 1))
    rwa [show n + 1 + (m - (n + 1)) = m by omega] at this
  have hs := step m hmn
  have e : (stateAt ng nReg rs vol sweeps flux (m + 1)).2 = sweeps m (fun _ => 0) (stateAt ng nReg rs vol sweeps flux m).2 := by
    change (outerPass ng nReg rs vol (sweeps m) (stateAt ng nReg rs vol sweeps flux m).1 (stateAt ng nReg rs vol sweeps flux m).2).2.2 = _
    rw [hs]
  refine ⟨hmn, e, ?_, ?_⟩
  · rintro s ⟨a, b, ha, -⟩
    unfold seen at ha
    rw [hs] at ha
    exact absurd ha (by simp)
  · unfold seen
    rw [hs, e]
    simp

theorem calc_scale (ng : Nat) (rs : List (XsRegion (Mat K))) (hp : Partition rs) (c : K) (hc : c ≠ 0) (k : K) (φ : Nat → Nat → K) :
    calcFissionSource ng rs (c * k) (fun i g => c * φ i g) = calcFissionSource ng rs k φ := by
  funext i
  by_cases hx : ∃ x ∈ rs, i ∈ x.regs
  · obtain ⟨x, hx, hi⟩ := hx
    rw [C47_fission_source ng rs hp _ _ x hx i hi, C47_fission_source ng rs hp _ _ x hx i hi]
    rw [show (∑ g ∈ Finset.range ng, x.mat.nf g * (c * φ i g)) = c * ∑ g ∈ Finset.range ng, x.mat.nf g * φ i g by
      rw [Finset.mul_sum]; exact Finset.sum_congr rfl fun g _ => by ring]
    exact mul_div_mul_left _ _ hc
  · push Not at hx
    rw [fs_outside ng rs hp _ _ i hx, fs_outside ng rs hp _ _ i hx]

theorem total_scale (ng : Nat) (rs : List (XsRegion (Mat K))) (vol : Nat → K) (c : K) (φ : Nat → Nat → K) : totalFission ng rs vol (fun i g => c * φ i g) = c * totalFission ng rs vol φ := by
  rw [total_eq, total_eq, ← List.sum_map_mul_left]
  congr 1
  apply List.map_congr_left
  intro x _; ring

/-- C143: a solution is recognised.  If the fixed-source step turns the fission source of `flux` into `c` times `flux`, then `c` is the eigenvalue after the first iteration and all later ones,
and the solver converges as soon as the minimum of iterations is over, in the second iteration at the latest. -/
theorem C143_mode (ng nReg : Nat) (rs : List (XsRegion (Mat K))) (vol : Nat → K) (s : Solver.Settings K) (hk : 0 < s.tolK) (hpsi : 0 < s.tolPsi) (req : List Int)
    (sweeps : Nat → (Nat → K) → (Nat → Nat → K) → (Nat → Nat → K)) (flux : Nat → Nat → K) (h : Sound ng nReg rs vol sweeps flux) (c : K) (hc : 0 < c)
    (hmode : ∀ n φ, sweeps n (calcFissionSource ng rs 1 flux) φ = fun i g => c * flux i g) (hm : max s.minIter 1 < s.maxIter) :
    (∀ n, stateAt ng nReg rs vol sweeps flux (n + 1) = (some c, fun i g => c * flux i g)) ∧ (solveAll ng nReg rs vol s req sweeps flux).stop = .converged ∧
      (solveAll ng nReg rs vol s req sweeps flux).performed ≤ max s.minIter 1 + 1 := by
  have t := total_pos ng nReg rs vol h.vol flux h.start h.fissile
  have p0 := pass_eq ng nReg rs vol (sweeps 0) 1 flux _ rfl t.ne'
  rw [hmode, total_scale, one_mul, mul_div_cancel_right₀ _ t.ne'] at p0
  have hcs : calcFissionSource ng rs c (fun i g => c * flux i g) = calcFissionSource ng rs 1 flux := by
    have := calc_scale ng rs h.start.part c hc.ne' 1 flux
    rwa [mul_one] at this
  have p1 : ∀ n, outerPass ng nReg rs vol (sweeps n) (some c) (fun i g => c * flux i g) = (⟨some |c - c|, errorSq nReg (nFissile ng rs) (fsArray ng nReg rs c fun i g => c * flux i g)
      (fsArray ng nReg rs c fun i g => c * flux i g), false⟩, some c, fun i g => c * flux i g) := by
    intro n
    have tc : totalFission ng rs vol (fun i g => c * flux i g) ≠ 0 := by rw [total_scale]; exact (mul_pos hc t).ne'
    have := pass_eq ng nReg rs vol (sweeps n) c (fun i g => c * flux i g) _ rfl tc
    rwa [hcs, hmode, mul_div_cancel_right₀ _ tc] at this
  have st : ∀ n, stateAt ng nReg rs vol sweeps flux (n + 1) = (some c, fun i g => c * flux i g) := by
    intro n
    induction n with
    | zero => change (outerPass ng nReg rs vol (sweeps 0) (some 1) flux).2 = _; rw [p0]
    | succ n ih =>
      change (outerPass ng nReg rs vol (sweeps (n + 1)) (stateAt ng nReg rs vol sweeps flux (n + 1)).1 (stateAt ng nReg rs vol sweeps flux (n + 1)).2).2 = _
      rw [ih, p1]
  have later : ∀ n, Solver.Converged { s with tolPsi := s.tolPsi * s.tolPsi } (seen ng nReg rs vol sweeps flux (n + 1)) := by
    intro n
    obtain ⟨k, k', φ, φ', e1, e2, -, -, -, -, -, -, e3⟩ := C143_iteration ng nReg rs vol sweeps flux h (n + 1)
    rw [st n] at e1
    rw [st (n + 1)] at e2
    rw [Prod.mk.injEq, Option.some.injEq] at e1 e2
    rw [← e1.1, ← e2.1, ← e1.2, ← e2.2] at e3
    rw [e3]
    refine ⟨_, _, rfl, rfl, by simpa using hk, ?_⟩
    simp only [sub_self, ne_eq, OfNat.ofNat_ne_zero, not_false_eq_true, zero_pow, Finset.sum_const_zero, zero_div]
    exact mul_pos hpsi hpsi
  refine ⟨st, ?_⟩
  have hnn := C143_number ng nReg rs vol s req sweeps flux h
  obtain ⟨-, -, h3, -, -, -, h7, h8⟩ := Solver.eigenLoop_stop { s with tolPsi := s.tolPsi * s.tolPsi } (seen ng nReg rs vol sweeps flux) s.maxIter 0 (Solver.sortInt req)
    (Solver.firstDump (Solver.sortInt req)) []
  have e : solveAll ng nReg rs vol s req sweeps flux = Solver.eigenLoop { s with tolPsi := s.tolPsi * s.tolPsi } (seen ng nReg rs vol sweeps flux) s.maxIter 0 (Solver.sortInt req)
    (Solver.firstDump (Solver.sortInt req)) [] := rfl
  rw [← e] at h3 h7 h8
  have hl : Solver.Converged { s with tolPsi := s.tolPsi * s.tolPsi } (seen ng nReg rs vol sweeps flux (max s.minIter 1)) := by
    have := later (max s.minIter 1 - 1)
    rwa [Nat.sub_add_cancel (le_max_right _ _)] at this
  constructor
  · cases hs : (solveAll ng nReg rs vol s req sweeps flux).stop with
    | converged => rfl
    | notANumber => exact absurd hs hnn
    | limit =>
      have := h3 hs
      exact absurd hl ((h8 hs (max s.minIter 1) (Nat.zero_le _) (by omega)).2 (le_max_left _ _))
  · by_contra hgt
    exact (h7 (max s.minIter 1) (Nat.zero_le _) (by omega)).2 (le_max_left _ _) hl

/-! ### The 2D3D sweeper -/

/-- The fission source of the 2D3D sweeper as an array (plane_sweeper_2d3d.hpp:170-185). -/
def pairArray (ng : Nat) (sn moc : Side K) (k : K) : List K := (List.range (sn.nReg + moc.nReg)).map (pairCalc ng sn moc k)

/-- C143, the claim for the 2D3D sweeper with the regions of MoC: the error is the mean square change over the fissile regions of MoC. -/
def C143_pair_claim (K : Type) [Field K] [LinearOrder K] : Prop :=
  ∀ (ng : Nat) (sn moc sn' moc' : Side K) (k k' : K), sn'.rs = sn.rs → moc'.rs = moc.rs → sn'.nReg = sn.nReg → moc'.nReg = moc.nReg → 0 < k → 0 < k' →
    Positive ng sn.nReg sn.rs sn.flux → Positive ng sn.nReg sn.rs sn'.flux → Positive ng moc.nReg moc.rs moc.flux → Positive ng moc.nReg moc.rs moc'.flux →
    (fissileSet ng moc.nReg moc.rs).Nonempty →
    errorSq (pairNReg false sn moc) (nFissile ng moc.rs) (pairArray ng sn' moc' k') (pairArray ng sn moc k) =
      some ((∑ i ∈ fissileSet ng moc.nReg moc.rs, (shape ng moc.nReg moc.rs k' moc'.flux i - shape ng moc.nReg moc.rs k moc.flux i) ^ 2) / (fissileSet ng moc.nReg moc.rs).card)

theorem unit_positive (c : ℚ) (hc : 0 < c) : Positive 1 1 unitRegion (fun _ _ => c) := by
  refine ⟨unit_ok.1, ?_, fun x hx g hg => (unit_ok.2 x hx).nf g hg, fun _ _ _ _ => hc⟩
  intro x hx i hi
  simp only [unitRegion, List.mem_cons, List.not_mem_nil, or_false] at hx
  subst hx
  simpa using hi

theorem unit_fissile : (fissileSet 1 1 unitRegion).Nonempty := by
  classical
  refine ⟨0, ?_⟩
  unfold fissileSet
  rw [Finset.mem_filter]
  refine ⟨by simp, _, List.mem_cons_self, by simp, 0, by norm_num, by norm_num⟩

/-- The flux of MoC does not change, that of Sn does. -/
theorem C143_pair_claim_false : ¬ C143_pair_claim ℚ := by
  intro h
  have := h 1 ⟨1, unitRegion, fun _ _ => 1⟩ ⟨1, unitRegion, fun _ _ => 1⟩ ⟨1, unitRegion, fun _ _ => 3⟩ ⟨1, unitRegion, fun _ _ => 1⟩ 1 1 rfl rfl rfl rfl one_pos one_pos
    (unit_positive 1 one_pos) (unit_positive 3 (by norm_num)) (unit_positive 1 one_pos) (unit_positive 1 one_pos) unit_fissile
  simp only [sub_self, ne_eq, OfNat.ofNat_ne_zero, not_false_eq_true, zero_pow, Finset.sum_const_zero, zero_div] at this
  exact absurd this (by decide +kernel)

/-! ### Examples -/

theorem unit_sound : Sound 1 1 unitRegion (fun _ => 1) (fun _ fs _ _ _ => 2 * fs 0 + 1 / 2) (fun _ _ => (1 : ℚ)) where
  vol := fun _ _ => one_pos
  start := unit_positive 1 one_pos
  keep := fun _ fs _ hfs _ _ _ _ _ => by have := hfs 0 one_pos; linarith
  fissile := unit_fissile

example : (solveAll 1 1 unitRegion (fun _ => 1) ⟨1 / 1000, 1 / 1000, 0, 10⟩ [] (fun _ fs _ _ _ => 2 * fs 0 + 1 / 2) (fun _ _ => (1 : ℚ))).performed = 2 ∧
    (stateAt 1 1 unitRegion (fun _ => 1) (fun _ fs _ _ _ => 2 * fs 0 + 1 / 2) (fun _ _ => (1 : ℚ)) 2).1 = some (5 / 2) := by
  refine ⟨by decide +kernel, by decide +kernel⟩

example : (solveAll 1 1 unitRegion (fun _ => 1) ⟨1 / 1000, 1 / 1000, 3, 10⟩ [] (fun _ fs _ _ _ => 2 * fs 0 + 1 / 2) (fun _ _ => (1 : ℚ))).stop = .converged := by
  refine (C143_mode 1 1 unitRegion (fun _ => 1) _ (by norm_num) (by norm_num) [] _ _ unit_sound (5 / 2) (by norm_num) ?_ (by norm_num)).2.1
  intro n φ
  funext i g
  have : calcFissionSource 1 unitRegion 1 (fun _ _ => (1 : ℚ)) 0 = 1 := by decide +kernel
  rw [this]; norm_num

end Verif.Source
