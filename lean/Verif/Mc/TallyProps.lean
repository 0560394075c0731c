import Verif.Mc.TallyModel
import Mathlib.Analysis.Real.Sqrt
import Mathlib.Algebra.BigOperators.Ring.List
import Mathlib.Algebra.Order.BigOperators.Group.List
import Mathlib.Tactic.Ring
import Mathlib.Tactic.Linarith
import Mathlib.Tactic.FieldSimp
import Mathlib.Tactic.NormNum
import Mathlib.Tactic.LinearCombination
import Mathlib.Tactic.Positivity

/-! # C44: tallies -/

namespace Verif.Mc

variable {K : Type} [Field K] [LinearOrder K]

/-- The scores among the calls. -/
def scoresOf : List (TallyOp K) → List K
  | [] => []
  | .score v :: l => v :: scoresOf l
  | .weight _ :: l => scoresOf l

/-- The weights among the calls. -/
def weightsOf : List (TallyOp K) → List K
  | [] => []
  | .score _ :: l => weightsOf l
  | .weight w :: l => w :: weightsOf l

theorem foldl_tally (ops : List (TallyOp K)) (t : Tally K) :
    ops.foldl Tally.apply t = ⟨t.sum + (scoresOf ops).sum, t.sumSq + ((scoresOf ops).map (fun v => v * v)).sum,
      t.weight + (weightsOf ops).sum⟩ := by
  induction ops generalizing t with
  | nil => simp [scoresOf, weightsOf]
  | cons o ops ih =>
    cases o with
    | score v => rw [List.foldl_cons, ih]; simp [Tally.apply, scoresOf, weightsOf, add_assoc]
    | weight w => rw [List.foldl_cons, ih]; simp [Tally.apply, scoresOf, weightsOf, add_assoc]

/-- C44: the mean is the sum of the scores divided by the total weight, for every sequence of calls. -/
theorem C44_scalar_mean (sqrt : K → K) (ops : List (TallyOp K)) (h : (weightsOf ops).sum ≠ 0) :
    ((tallyAfter ops).get sqrt).1 = some ((scoresOf ops).sum / (weightsOf ops).sum) := by
  unfold tallyAfter Tally.get
  rw [foldl_tally]
  simp [Tally.zero, fdiv, h]

theorem scores_perm {a b : List (TallyOp K)} (h : a.Perm b) : (scoresOf a).Perm (scoresOf b) := by
  induction h with
  | nil => exact .refl _
  | cons x _ ih => cases x <;> simp [scoresOf, ih]
  | swap x y l =>
    cases x <;> cases y <;> simp only [scoresOf] <;> first | exact .swap _ _ _ | exact .refl _
  | trans _ _ h1 h2 => exact h1.trans h2

theorem weights_perm {a b : List (TallyOp K)} (h : a.Perm b) : (weightsOf a).Perm (weightsOf b) := by
  induction h with
  | nil => exact .refl _
  | cons x _ ih => cases x <;> simp [weightsOf, ih]
  | swap x y l =>
    cases x <;> cases y <;> simp only [weightsOf] <;> first | exact .swap _ _ _ | exact .refl _
  | trans _ _ h1 h2 => exact h1.trans h2

/-- C44: the order of the calls does not matter (any interleaving of the threads' atomic additions). -/
theorem C44_scalar_order (a b : List (TallyOp K)) (h : a.Perm b) : tallyAfter a = tallyAfter b := by
  unfold tallyAfter
  rw [foldl_tally, foldl_tally, (scores_perm h).sum_eq, (weights_perm h).sum_eq,
    ((scores_perm h).map (fun v => v * v)).sum_eq]

/-- The calls of the eigenvalue solver (monte_carlo_eigenvalue_solver.cpp:152-158): one score and unit weight per cycle. -/
def realisations (xs : List K) : List (TallyOp K) := xs.flatMap (fun x => [.score x, .weight 1])

theorem scoresOf_realisations (xs : List K) : scoresOf (realisations xs) = xs := by
  induction xs with
  | nil => rfl
  | cons x xs ih =>
    change x :: scoresOf (realisations xs) = _
    rw [ih]

theorem weightsOf_realisations (xs : List K) : (weightsOf (realisations xs)).sum = xs.length := by
  induction xs with
  | nil => simp [realisations, weightsOf]
  | cons x xs ih =>
    change ((1 : K) :: weightsOf (realisations xs)).sum = _
    rw [List.sum_cons, ih, List.length_cons]; push_cast; ring

/-- Sample mean. -/
def sampleMean (xs : List K) : K := xs.sum / xs.length

/-- Sum of squared deviations from the sample mean. -/
def sumSqDev (xs : List K) : K := (xs.map (fun x => (x - sampleMean xs) ^ 2)).sum

theorem sum_sq_shift (xs : List K) (m : K) :
    (xs.map (fun x => (x - m) ^ 2)).sum = (xs.map (fun x => x * x)).sum - 2 * m * xs.sum + xs.length * m ^ 2 := by
  induction xs with
  | nil => simp
  | cons x xs ih =>
    simp only [List.map_cons, List.sum_cons, ih, List.length_cons]
    push_cast; ring

theorem sumSqDev_eq [CharZero K] (xs : List K) (h : xs ≠ []) :
    sumSqDev xs = (xs.map (fun x => x * x)).sum - xs.sum * xs.sum / xs.length := by
  have hn : (xs.length : K) ≠ 0 := by
    have := List.length_pos_iff.mpr h
    exact_mod_cast (by omega : xs.length ≠ 0)
  unfold sumSqDev
  rw [sum_sq_shift]
  unfold sampleMean
  field_simp
  ring

theorem sumSqDev_nonneg [IsStrictOrderedRing K] (xs : List K) : 0 ≤ sumSqDev xs := by
  unfold sumSqDev
  apply List.sum_nonneg
  intro y hy
  obtain ⟨x, -, rfl⟩ := List.mem_map.mp hy
  exact sq_nonneg _

/-- C44: for two or more realisations the scalar tally reports the sample mean, and the square root is taken of the
variance of the mean, the sum of squared deviations divided by `n (n - 1)`, which is never negative. -/
theorem C44_scalar_variance [IsStrictOrderedRing K] (xs : List K) (hn : 2 ≤ xs.length) :
    (tallyAfter (realisations xs)).variance = some (sumSqDev xs / (xs.length * (xs.length - 1))) ∧
    0 ≤ sumSqDev xs / ((xs.length : K) * (xs.length - 1)) := by
  have hne : xs ≠ [] := by intro h; subst h; simp at hn
  have h2 : (2 : K) ≤ xs.length := by exact_mod_cast hn
  have h0 : (xs.length : K) ≠ 0 := by linarith
  have h1 : (xs.length : K) - 1 ≠ 0 := by intro h; linarith
  constructor
  · unfold tallyAfter Tally.variance
    rw [foldl_tally, scoresOf_realisations, weightsOf_realisations, sumSqDev_eq xs hne]
    simp only [Tally.zero, fdiv, zero_add, h0, h1, if_false, Option.bind_eq_bind, Option.bind_some, Option.pure_def,
      Option.some.injEq]
    field_simp
  · refine div_nonneg (sumSqDev_nonneg xs) (mul_nonneg (by linarith) (by linarith))

/-- C44: the deviation reported is the relative standard deviation of the mean. -/
theorem C44_scalar_deviation (xs : List ℝ) (hn : 2 ≤ xs.length) (hm : sampleMean xs ≠ 0) :
    (tallyAfter (realisations xs)).get Real.sqrt =
      (some (sampleMean xs), some (Real.sqrt (sumSqDev xs / (xs.length * (xs.length - 1))) / sampleMean xs)) := by
  obtain ⟨hv, hv0⟩ := C44_scalar_variance xs hn
  have h2 : (2 : ℝ) ≤ xs.length := by exact_mod_cast hn
  have h0 : (xs.length : ℝ) ≠ 0 := by linarith
  have hmean : fdiv (tallyAfter (realisations xs)).sum (tallyAfter (realisations xs)).weight = some (sampleMean xs) := by
    unfold tallyAfter
    rw [foldl_tally, scoresOf_realisations, weightsOf_realisations]
    simp [Tally.zero, fdiv, h0, sampleMean]
  unfold Tally.get
  rw [hmean, hv]
  simp only [Option.bind_eq_bind, Option.bind_some, fsqrt, not_lt.mpr hv0, if_false, fdiv, hm]

/-- C44: after one realisation there is no deviation (the C++ divides by zero; the first active cycle reports NaN). -/
theorem C44_scalar_single (sqrt : K → K) (x : K) : ((tallyAfter (realisations [x])).get sqrt).2 = none := by
  unfold tallyAfter Tally.get Tally.variance
  rw [foldl_tally, scoresOf_realisations, weightsOf_realisations]
  simp [Tally.zero, fdiv]

/-- The full claim about the scalar tally: for every sequence of scores and positive weights whose total exceeds one,
the variance is not negative. -/
def C44_scalar_claim : Prop := ∀ ops : List (TallyOp ℝ), (∀ w ∈ weightsOf ops, 0 < w) → 1 < (weightsOf ops).sum →
  ∃ v, (tallyAfter ops).variance = some v ∧ 0 ≤ v

/-- C44: when a history scores several times per unit weight, as the track-length and collision estimators do
(particle_pusher.cpp:174-175, 241, 116), the variance can be negative. -/
theorem C44_scalar_claim_false : ¬ C44_scalar_claim := by
  intro h
  obtain ⟨v, hv, h0⟩ := h [.weight 1, .score 1, .score 1, .score 1, .weight 1] (by simp [weightsOf]) (by
    simp [weightsOf])
  unfold tallyAfter Tally.variance at hv
  rw [foldl_tally] at hv
  simp [Tally.zero, scoresOf, weightsOf, fdiv] at hv
  norm_num at hv
  linarith

/-! ## spatial -/

/-- Score of region `i` in a realisation. -/
def regionScore (i : Nat) : List (SpatialOp K) → K
  | [] => 0
  | .score j v :: l => (if i = j then v else 0) + regionScore i l
  | .weight _ :: l => regionScore i l

/-- Weight of a realisation. -/
def realWeight : List (SpatialOp K) → K
  | [] => 0
  | .score _ _ :: l => realWeight l
  | .weight w :: l => w + realWeight l

/-- The value a realisation contributes for region `i`: its score per unit weight. -/
def realValue (i : Nat) (ops : List (SpatialOp K)) : K := regionScore i ops / realWeight ops

theorem foldl_spatial (ops : List (SpatialOp K)) (t : Spatial K) :
    ops.foldl Spatial.apply t = ⟨t.first, t.second, fun i => t.scores i + regionScore i ops, t.weight + realWeight ops,
      t.n⟩ := by
  induction ops generalizing t with
  | nil => simp [regionScore, realWeight]
  | cons o ops ih =>
    cases o with
    | score j v =>
      rw [List.foldl_cons, ih]
      simp only [Spatial.apply, Spatial.score, realWeight, Spatial.mk.injEq, and_true, true_and]
      funext i
      simp only [regionScore]
      split <;> simp [add_assoc]
    | weight w =>
      rw [List.foldl_cons, ih]
      simp [Spatial.apply, Spatial.addWeight, realWeight, regionScore, add_assoc]

theorem spatialAfter_eq (rs : List (List (SpatialOp K))) :
    spatialAfter rs = ⟨fun i => (rs.map (realValue i)).sum, fun i => (rs.map (fun r => realValue i r * realValue i r)).sum,
      fun _ => 0, 0, rs.length⟩ := by
  unfold spatialAfter
  have key : ∀ (rs : List (List (SpatialOp K))) (t : Spatial K), t.scores = (fun _ => 0) → t.weight = 0 →
      rs.foldl Spatial.realise t = ⟨fun i => t.first i + (rs.map (realValue i)).sum,
        fun i => t.second i + (rs.map (fun r => realValue i r * realValue i r)).sum, fun _ => 0, 0, t.n + rs.length⟩ := by
    intro rs
    induction rs with
    | nil =>
      intro t h1 h2
      cases t
      simp at h1 h2
      simp [h1, h2]
    | cons r rs ih =>
      intro t h1 h2
      rw [List.foldl_cons, ih _ rfl rfl]
      unfold Spatial.realise
      rw [foldl_spatial]
      simp only [Spatial.commit, h1, h2, zero_add, List.map_cons, List.sum_cons, List.length_cons, Spatial.mk.injEq,
        true_and]
      refine ⟨?_, ?_, by omega⟩
      · funext i; simp only [realValue, mul_one_div]; ring
      · funext i; simp only [realValue, mul_one_div]; ring
  rw [key rs Spatial.zero rfl rfl]
  simp [Spatial.zero]

/-- C44: the spatial tally reports the mean of the realisations divided by the normalisation. -/
theorem C44_spatial_mean [CharZero K] (sqrt : K → K) (rs : List (List (SpatialOp K))) (i : Nat) (norm : K) (hn : rs ≠ [])
    (h : norm ≠ 0) :
    ((spatialAfter rs).get sqrt norm i).1 = some (sampleMean (rs.map (realValue i)) / norm) := by
  have h0 : (rs.length : K) ≠ 0 := by
    have := List.length_pos_iff.mpr hn
    exact_mod_cast (by omega : rs.length ≠ 0)
  rw [spatialAfter_eq]
  simp [Spatial.get, fdiv, h, h0, sampleMean, div_eq_mul_inv]

theorem regionScore_perm {a b : List (SpatialOp K)} (h : a.Perm b) (i : Nat) :
    regionScore i a = regionScore i b ∧ realWeight a = realWeight b := by
  induction h with
  | nil => exact ⟨rfl, rfl⟩
  | cons x _ ih => cases x <;> simp [regionScore, realWeight, ih.1, ih.2]
  | swap x y l => cases x <;> cases y <;> simp [regionScore, realWeight, add_left_comm]
  | trans _ _ h1 h2 => exact ⟨h1.1.trans h2.1, h1.2.trans h2.2⟩

/-- C44: the order of the calls within a realisation does not matter. -/
theorem C44_spatial_order (rs rs' : List (List (SpatialOp K))) (h : List.Forall₂ List.Perm rs rs') :
    spatialAfter rs = spatialAfter rs' := by
  have : ∀ i, rs.map (realValue i) = rs'.map (realValue i) := by
    intro i
    induction h with
    | nil => rfl
    | cons hab _ ih =>
      rw [List.map_cons, List.map_cons, ih]
      unfold realValue
      rw [(regionScore_perm hab i).1, (regionScore_perm hab i).2]
  rw [spatialAfter_eq, spatialAfter_eq]
  have e2 : ∀ i, rs.map (fun r => realValue i r * realValue i r) = rs'.map (fun r => realValue i r * realValue i r) := by
    intro i
    have := congrArg (List.map (fun v => v * v)) (this i)
    simpa [List.map_map, Function.comp_def] using this
  simp only [this, e2, h.length_eq]

/-- C44: the relative deviation the spatial tally reports is the relative standard deviation of the realisations times
the square root of the normalisation; it is right only for a normalisation of one.  The normalisation is the volume of
the region (particle_pusher.cpp:76-80). -/
theorem C44_spatial_deviation_partial (rs : List (List (SpatialOp ℝ))) (i : Nat) (norm : ℝ) (hn : 2 ≤ rs.length)
    (h : 0 < norm) (hm : sampleMean (rs.map (realValue i)) ≠ 0) :
    ((spatialAfter rs).get Real.sqrt norm i).2 =
      some (Real.sqrt norm * (Real.sqrt (sumSqDev (rs.map (realValue i)) / (rs.length - 1)) /
        sampleMean (rs.map (realValue i)))) := by
  have hlen : (rs.map (realValue i)).length = rs.length := List.length_map ..
  have hne : rs.map (realValue i) ≠ [] := by
    intro hc; rw [hc] at hlen; simp at hlen; omega
  have h2 : (2 : ℝ) ≤ rs.length := by exact_mod_cast hn
  have h0 : (rs.length : ℝ) ≠ 0 := by linarith
  have h1 : (rs.length : ℝ) - 1 ≠ 0 := by intro hc; linarith
  have hvar : (rs.map (fun r => realValue i r * realValue i r)).sum / ((rs.length : ℝ) - 1) -
      (rs.map (realValue i)).sum * (rs.map (realValue i)).sum / ((rs.length : ℝ) * ((rs.length : ℝ) - 1)) =
      sumSqDev (rs.map (realValue i)) / (rs.length - 1) := by
    rw [sumSqDev_eq _ hne, hlen, List.map_map]
    simp only [Function.comp_def]
    field_simp
  have hvar0 : 0 ≤ sumSqDev (rs.map (realValue i)) / ((rs.length : ℝ) - 1) :=
    div_nonneg (sumSqDev_nonneg _) (by linarith)
  have hmean : (rs.map (realValue i)).sum / (rs.length : ℝ) = sampleMean (rs.map (realValue i)) := by
    unfold sampleMean; rw [hlen]
  rw [spatialAfter_eq]
  simp only [Spatial.get, fdiv, ne_of_gt h, h0, h1, mul_ne_zero h0 h1, if_false, Option.bind_eq_bind, Option.bind_some,
    fsqrt, hvar, hmean]
  have hpos : 0 ≤ sumSqDev (rs.map (realValue i)) / ((rs.length : ℝ) - 1) * (1 / norm) := mul_nonneg hvar0 (by positivity)
  rw [if_neg (not_lt.mpr hpos)]
  simp only [Option.bind_some]
  rw [if_neg (mul_ne_zero hm (by positivity))]
  congr 1
  have hs : Real.sqrt (1 / norm) = Real.sqrt norm * (1 / norm) := by
    rw [Real.sqrt_div zero_le_one, Real.sqrt_one]
    have hsq : Real.sqrt norm * Real.sqrt norm = norm := Real.mul_self_sqrt h.le
    have hs0 : Real.sqrt norm ≠ 0 := ne_of_gt (Real.sqrt_pos.mpr h)
    field_simp
    nlinarith [hsq]
  rw [Real.sqrt_mul hvar0, hs]
  field_simp

/-- C44 in the particular case of unit normalisation. -/
theorem C44_spatial_deviation_unit_partial (rs : List (List (SpatialOp ℝ))) (i : Nat) (hn : 2 ≤ rs.length)
    (hm : sampleMean (rs.map (realValue i)) ≠ 0) :
    ((spatialAfter rs).get Real.sqrt 1 i).2 = some (Real.sqrt (sumSqDev (rs.map (realValue i)) / (rs.length - 1)) /
        sampleMean (rs.map (realValue i))) := by
  rw [C44_spatial_deviation_partial rs i 1 hn one_pos hm, Real.sqrt_one, one_mul]

/-- The full claim about the spatial tally: the relative deviation does not depend on the normalisation. -/
def C44_spatial_claim : Prop := ∀ (rs : List (List (SpatialOp ℝ))) (i : Nat) (norm norm' : ℝ), 2 ≤ rs.length → 0 < norm →
  0 < norm' → sampleMean (rs.map (realValue i)) ≠ 0 →
  ((spatialAfter rs).get Real.sqrt norm i).2 = ((spatialAfter rs).get Real.sqrt norm' i).2

theorem C44_spatial_claim_false : ¬ C44_spatial_claim := by
  intro h
  have hm : sampleMean ([[SpatialOp.weight (1 : ℝ), .score 0 1], [.score 0 3, .weight 1]].map (realValue 0)) = 2 := by
    simp [sampleMean, realValue, regionScore, realWeight]; norm_num
  have hv : sumSqDev ([[SpatialOp.weight (1 : ℝ), .score 0 1], [.score 0 3, .weight 1]].map (realValue 0)) = 2 := by
    unfold sumSqDev
    rw [hm]
    simp [realValue, regionScore, realWeight]; norm_num
  have := h [[.weight 1, .score 0 1], [.score 0 3, .weight 1]] 0 1 4 (by simp) one_pos (by norm_num) (by rw [hm]; norm_num)
  rw [C44_spatial_deviation_partial _ 0 1 (by simp) one_pos (by rw [hm]; norm_num),
    C44_spatial_deviation_partial _ 0 4 (by simp) (by norm_num) (by rw [hm]; norm_num), hm, hv] at this
  simp only [Option.some.injEq] at this
  have h4 : Real.sqrt 4 = 2 := by
    rw [show (4 : ℝ) = 2 ^ 2 by norm_num, Real.sqrt_sq (by norm_num)]
  have h2 : Real.sqrt (2 / (([[SpatialOp.weight (1 : ℝ), .score 0 1], [.score 0 3, .weight 1]].length : ℕ) - 1 : ℝ)) > 0 := by
    apply Real.sqrt_pos.mpr; norm_num
  rw [Real.sqrt_one, h4] at this
  linarith

example : 2 ≤ [(1 : ℝ), 3].length ∧ sampleMean [(1 : ℝ), 3] = 2 ∧ sumSqDev [(1 : ℝ), 3] = 2 := by
  refine ⟨by simp, ?_, ?_⟩
  · simp [sampleMean]; norm_num
  · simp [sumSqDev, sampleMean]; norm_num

end Verif.Mc
