import Verif.Quad.ProductProps

/-!
# Weights after a change of the azimuths (C89)
-/

namespace Verif.Quad.Product

open Verif.Dir Verif.Quad.LS

/-- `fp_equiv_ulp` tells the values of a list apart. -/
def Separates (same : ℝ → ℝ → Bool) (l : List ℝ) : Prop := ∀ a ∈ l, ∀ b ∈ l, (same a b = true ↔ a = b)

theorem uniqueFrom_spec (same : ℝ → ℝ → Bool) (l : List ℝ) : ∀ last, (last :: l).Pairwise (· ≤ ·) → Separates same (last :: l) →
    (last :: uniqueFrom same last l).Pairwise (· < ·) ∧ ∀ a, a ∈ last :: uniqueFrom same last l ↔ a ∈ last :: l := by
  induction l with
  | nil => intro last _ _; simp [uniqueFrom]
  | cons x l ih =>
    intro last hs hsep
    unfold uniqueFrom
    have hxs := (List.pairwise_cons.mp hs).2
    have hlast := (List.pairwise_cons.mp hs).1
    by_cases he : same last x = true
    · rw [if_pos he]
      have hx : last = x := (hsep last (by simp) x (by simp)).mp he
      subst hx
      obtain ⟨h1, h2⟩ := ih last hxs (fun a ha b hb => hsep a (List.mem_cons_of_mem _ ha) b (List.mem_cons_of_mem _ hb))
      refine ⟨h1, fun a => ?_⟩
      rw [h2]; simp
    · rw [if_neg he]
      have hne : last ≠ x := fun e => he ((hsep last (by simp) x (by simp)).mpr e)
      have hlt : last < x := lt_of_le_of_ne (hlast x (by simp)) hne
      obtain ⟨h1, h2⟩ := ih x hxs (fun a ha b hb => hsep a (List.mem_cons_of_mem _ ha) b (List.mem_cons_of_mem _ hb))
      refine ⟨?_, fun a => ?_⟩
      · rw [List.pairwise_cons]
        refine ⟨fun b hb => ?_, h1⟩
        rcases List.mem_cons.mp hb with rfl | hb
        · exact hlt
        · exact lt_trans hlt ((List.pairwise_cons.mp h1).1 b hb)
      · rw [List.mem_cons, h2, List.mem_cons (a := a) (b := last)]

theorem uniques_spec (same : ℝ → ℝ → Bool) (l : List ℝ) (hsep : Separates same l) :
    (uniques same (l.insertionSort (· ≤ ·))).Pairwise (· < ·) ∧ ∀ a, a ∈ uniques same (l.insertionSort (· ≤ ·)) ↔ a ∈ l := by
  have hp := List.perm_insertionSort (· ≤ ·) l
  have hs : (l.insertionSort (· ≤ ·)).Pairwise (· ≤ ·) := List.pairwise_insertionSort (· ≤ ·) l
  have hm : ∀ a, a ∈ l.insertionSort (· ≤ ·) ↔ a ∈ l := fun a => hp.mem_iff
  have hsep' : Separates same (l.insertionSort (· ≤ ·)) := fun a ha b hb => hsep a ((hm a).mp ha) b ((hm b).mp hb)
  cases hl : l.insertionSort (· ≤ ·) with
  | nil => rw [hl] at hm; exact ⟨by simp [uniques], fun a => by simp [uniques, ← hm a]⟩
  | cons x xs =>
    rw [hl] at hs hsep' hm
    obtain ⟨h1, h2⟩ := uniqueFrom_spec same xs x hs hsep'
    exact ⟨h1, fun a => by rw [← hm a, ← h2 a]; rfl⟩

/-- A list in increasing order with the members of another is what is left after sorting and removing duplicates. -/
theorem uniques_eq (same : ℝ → ℝ → Bool) (l azs : List ℝ) (hsep : Separates same l) (hinc : azs.Pairwise (· < ·)) (hmem : ∀ a, a ∈ azs ↔ a ∈ l) :
    uniques same (l.insertionSort (· ≤ ·)) = azs := by
  obtain ⟨h1, h2⟩ := uniques_spec same l hsep
  apply List.Perm.eq_of_pairwise (le := (· < ·)) (fun a b _ _ hab hba => absurd hab (not_lt.mpr hba.le)) h1 hinc
  rw [List.perm_ext_iff_of_nodup (h1.imp fun hab => ne_of_lt hab) (hinc.imp fun hab => ne_of_lt hab)]
  intro a
  rw [h2, hmem]

theorem midpoints_length : ∀ l : List ℝ, (midpoints l).length = l.length - 1
  | [] => rfl
  | [_] => rfl
  | a :: b :: rest => by
    rw [midpoints, List.length_cons, midpoints_length (b :: rest)]
    simp

theorem midpoints_at : ∀ (l : List ℝ) (i : Nat), i + 1 < l.length → (midpoints l)[i]? = some ((l.getD i 0 + l.getD (i + 1) 0) / 2)
  | [], i, h => by simp at h
  | [_], i, h => by simp at h
  | a :: b :: rest, 0, _ => by simp [midpoints]
  | a :: b :: rest, i + 1, h => by
    rw [midpoints, List.getElem?_cons_succ, midpoints_at (b :: rest) i (by simpa using h)]
    simp

theorem telescope (h : ℝ) (bs : List ℝ) : ∀ b, (List.zipWith (fun hi lo => (hi - lo) / h) bs (b :: bs)).sum = ((b :: bs).getLast (by simp) - b) / h := by
  induction bs with
  | nil => intro b; simp
  | cons c bs ih =>
    intro b
    rw [List.zipWith_cons_cons, List.sum_cons, ih c, List.getLast_cons (a := b) (List.cons_ne_nil c bs)]
    ring

/-- Left end of the part of the quarter circle nearest to the `i`-th azimuth. -/
noncomputable def leftEnd (azs : List ℝ) (i : Nat) : ℝ := if i = 0 then 0 else (azs.getD (i - 1) 0 + azs.getD i 0) / 2

/-- Right end of the part of the quarter circle nearest to the `i`-th azimuth. -/
noncomputable def rightEnd (azs : List ℝ) (i : Nat) : ℝ :=
  if i + 1 = azs.length then Real.pi / 2 else (azs.getD i 0 + azs.getD (i + 1) 0) / 2

theorem aziPairs_at (azs : List ℝ) (i : Nat) (hi : i < azs.length) :
    (aziPairs real azs)[i]? = some (azs.getD i 0, (rightEnd azs i - leftEnd azs i) / (Real.pi / 2)) := by
  unfold aziPairs
  simp only [List.tail_cons]
  have hlen := midpoints_length azs
  have hr : (midpoints azs ++ [1 / 2 * real.pi])[i]? = some (rightEnd azs i) := by
    unfold rightEnd
    by_cases he : i + 1 = azs.length
    · rw [if_pos he, List.getElem?_append_right (by omega), hlen, show i - (azs.length - 1) = 0 by omega]
      simp [real]; ring
    · rw [if_neg he, List.getElem?_append_left (by omega), midpoints_at azs i (by omega)]
  have hl : (0 :: (midpoints azs ++ [1 / 2 * real.pi]))[i]? = some (leftEnd azs i) := by
    unfold leftEnd
    cases i with
    | zero => simp
    | succ i =>
      rw [List.getElem?_cons_succ, List.getElem?_append_left (by omega), midpoints_at azs i (by omega), if_neg (by omega)]
      simp
  rw [List.getElem?_zipWith, List.getElem?_zipWith, hr, hl, List.getElem?_eq_getElem hi]
  simp [real, List.getD_eq_getElem?_getD, List.getElem?_eq_getElem hi]
  ring_nf

theorem aziPairs_length (azs : List ℝ) (h : azs ≠ []) : (aziPairs real azs).length = azs.length := by
  unfold aziPairs
  have := midpoints_length azs
  have := List.length_pos_of_ne_nil h
  simp
  omega

theorem aziPairs_sum (azs : List ℝ) (h : azs ≠ []) : ((aziPairs real azs).map Prod.snd).sum = 1 := by
  have hlen := midpoints_length azs
  have hpos := List.length_pos_of_ne_nil h
  unfold aziPairs
  simp only [List.tail_cons]
  have hz : ∀ (l r : List ℝ), r.length ≤ l.length → (List.zipWith (fun a b => (a, b)) l r).map Prod.snd = r := by
    intro l r hlr
    exact List.map_snd_zip hlr
  rw [hz _ _ (by simp; omega), telescope]
  have : (1 : ℝ) / 2 * real.pi ≠ 0 := by simp [real, Real.pi_ne_zero]
  rw [List.getLast_cons (by simp), List.getLast_append_of_ne_nil (by simp) (by simp), List.getLast_singleton, sub_zero, div_self this]

theorem getD_mem (l : List ℝ) (i : Nat) (hi : i < l.length) : l.getD i 0 ∈ l := by
  rw [List.getD_eq_getElem?_getD, List.getElem?_eq_getElem hi]
  exact List.getElem_mem hi

theorem getD_lt (l : List ℝ) (h : l.Pairwise (· < ·)) (i j : Nat) (hij : i < j) (hj : j < l.length) : l.getD i 0 < l.getD j 0 := by
  rw [List.getD_eq_getElem?_getD, List.getD_eq_getElem?_getD, List.getElem?_eq_getElem hj, List.getElem?_eq_getElem (by omega)]
  exact List.pairwise_iff_getElem.mp h i j (by omega) hj hij

/-- An azimuth lies inside its part. -/
theorem ends_around (azs : List ℝ) (hinc : azs.Pairwise (· < ·)) (hin : ∀ a ∈ azs, 0 < a ∧ a < Real.pi / 2) (i : Nat) (hi : i < azs.length) :
    leftEnd azs i < azs.getD i 0 ∧ azs.getD i 0 < rightEnd azs i := by
  have hm := hin _ (getD_mem azs i hi)
  unfold leftEnd rightEnd
  constructor
  · split_ifs with h0
    · exact hm.1
    · have := getD_lt azs hinc (i - 1) i (by omega) hi
      linarith
  · split_ifs with h0
    · exact hm.2
    · have := getD_lt azs hinc i (i + 1) (by omega) (by omega)
      linarith

/-- C89: the part of an azimuth consists of the angles that are nearer to it than to all others. -/
theorem C89_nearest (azs : List ℝ) (hinc : azs.Pairwise (· < ·)) (i j : Nat) (hi : i < azs.length) (hj : j < azs.length) (hij : i ≠ j)
    (x : ℝ) (h1 : leftEnd azs i < x) (h2 : x < rightEnd azs i) : |x - azs.getD i 0| < |x - azs.getD j 0| := by
  rcases lt_or_gt_of_ne hij with h | h
  · have hlt := getD_lt azs hinc i j h hj
    have hle : azs.getD (i + 1) 0 ≤ azs.getD j 0 := by
      rcases Nat.lt_or_ge (i + 1) j with h' | h'
      · exact (getD_lt azs hinc _ _ h' hj).le
      · rw [show j = i + 1 by omega]
    unfold rightEnd at h2
    rw [if_neg (by omega)] at h2
    rw [abs_of_neg (a := x - azs.getD j 0) (by linarith), abs_lt]
    constructor <;> linarith
  · have hlt := getD_lt azs hinc j i h hi
    have hle : azs.getD j 0 ≤ azs.getD (i - 1) 0 := by
      rcases Nat.lt_or_ge j (i - 1) with h' | h'
      · exact (getD_lt azs hinc _ _ h' (by omega)).le
      · rw [show j = i - 1 by omega]
    unfold leftEnd at h1
    rw [if_neg (by omega)] at h1
    rw [abs_of_pos (a := x - azs.getD j 0) (by linarith), abs_lt]
    constructor <;> linarith

/-- C89: update of the weights, for any azimuths inside (0, pi/2) in any order: refused unless the number of different azimuths is right;
otherwise, for the different azimuths in increasing order, all polar angles; the share of an azimuth is the part of the quarter circle
that is nearest to it; the result is an octant with positive weights of sum one. -/
theorem C89_update (same : ℝ → ℝ → Bool) (nAzi : Int) (pol : List (ℝ × ℝ)) (alphas azs : List ℝ) (hsep : Separates same alphas)
    (hinc : azs.Pairwise (· < ·)) (hmem : ∀ a, a ∈ azs ↔ a ∈ alphas) (hne : azs ≠ []) (hin : ∀ a ∈ azs, 0 < a ∧ a < Real.pi / 2)
    (hpol : ∀ e ∈ pol, 0 < e.1 ∧ e.1 < Real.pi / 2 ∧ 0 < e.2) (hpol0 : pol ≠ []) :
    ((azs.length : Int) ≠ nAzi → updateChebyshev real same nAzi pol alphas = .throws) ∧
    ((azs.length : Int) = nAzi → ∃ angles, updateChebyshev real same nAzi pol alphas = .ok angles ∧
      Octant (azs.length * pol.length) angles ∧
      ∀ i j p, i < azs.length → pol[j]? = some p → angles[i * pol.length + j]? = some (ofAngles real (azs.getD i 0) p.1,
        (rightEnd azs i - leftEnd azs i) / (Real.pi / 2) * (p.2 / (pol.map Prod.snd).sum))) := by
  have hu := uniques_eq same alphas azs hsep hinc hmem
  unfold updateChebyshev
  rw [hu]
  constructor
  · intro h; rw [if_pos h]
  · intro h
    rw [if_neg (not_not.mpr h)]
    have hp0 : 0 < (pol.map Prod.snd).sum := by
      apply List.sum_pos
      · intro w hw
        obtain ⟨e, he, rfl⟩ := List.mem_map.mp hw
        exact (hpol e he).2.2
      · simpa using hpol0
    have hs := aziPairs_sum azs hne
    have hl := aziPairs_length azs hne
    refine ⟨_, rfl, ?_, ?_⟩
    · rw [← hl]
      refine product_octant _ _ ?_ hpol (by rw [hs]; norm_num) hp0
      intro e he
      obtain ⟨i, hi, rfl⟩ := List.mem_iff_getElem.mp he
      have hi' : i < azs.length := by omega
      have hat := aziPairs_at azs i hi'
      rw [List.getElem?_eq_getElem hi, Option.some.injEq] at hat
      rw [hat]
      have hm := hin _ (getD_mem azs i hi')
      have ha := ends_around azs hinc hin i hi'
      have hpi := Real.pi_pos
      exact ⟨hm.1, hm.2, div_pos (by linarith [ha.1, ha.2]) (by linarith)⟩
    · intro i j p hi hj
      obtain ⟨-, -, hx, -⟩ := C88_product (aziPairs real azs) pol (by rw [hs]; norm_num) (ne_of_gt hp0)
      have := hx i j _ p (aziPairs_at azs i hi) hj
      rw [this, hs, one_mul, mul_div_assoc]

/-- C89: the angles keep their place if the azimuths were in increasing order, one after the other for all polar angles. -/
theorem C89_kept (same : ℝ → ℝ → Bool) (pol : List (ℝ × ℝ)) (azs : List ℝ) (hsep : Separates same azs)
    (hinc : azs.Pairwise (· < ·)) (hne : azs ≠ []) (hin : ∀ a ∈ azs, 0 < a ∧ a < Real.pi / 2)
    (hpol : ∀ e ∈ pol, 0 < e.1 ∧ e.1 < Real.pi / 2 ∧ 0 < e.2) (hpol0 : pol ≠ []) :
    ∃ angles, updateChebyshev real same azs.length pol (azs.flatMap fun a => List.replicate pol.length a) = .ok angles ∧
      ∀ (k : Nat) (a : ℝ), (azs.flatMap fun a => List.replicate pol.length a)[k]? = some a →
        ∃ r : Direction ℝ × ℝ, angles[k]? = some r ∧ r.1.alpha = some a := by
  have hmem : ∀ a, a ∈ azs ↔ a ∈ azs.flatMap fun a => List.replicate pol.length a := by
    intro a
    rw [List.mem_flatMap]
    constructor
    · intro ha
      exact ⟨a, ha, by simp [hpol0]⟩
    · rintro ⟨b, hb, hab⟩
      rw [(List.mem_replicate.mp hab).2]; exact hb
  obtain ⟨angles, h1, -, h3⟩ := (C89_update same azs.length pol (azs.flatMap fun a => List.replicate pol.length a) azs
    (fun a ha b hb => hsep a ((hmem a).mpr ha) b ((hmem b).mpr hb)) hinc hmem hne hin hpol hpol0).2 rfl
  refine ⟨angles, h1, ?_⟩
  intro k a hk
  have hnp : 0 < pol.length := List.length_pos_of_ne_nil hpol0
  obtain ⟨hkl, -⟩ := List.getElem?_eq_some_iff.mp hk
  have hkl' : k < azs.length * pol.length := by simpa [List.length_flatMap] using hkl
  have hdiv : k / pol.length < azs.length := (Nat.div_lt_iff_lt_mul hnp).mpr hkl'
  have hmod := Nat.mod_lt k hnp
  have hk2 : k / pol.length * pol.length + k % pol.length = k := Nat.div_add_mod' k pol.length
  have := h3 (k / pol.length) (k % pol.length) _ hdiv (List.getElem?_eq_getElem hmod)
  rw [hk2] at this
  refine ⟨_, this, ?_⟩
  rw [← hk2, Verif.Mesh.getElem?_flatMap_uniform _ pol.length (by simp) azs _ _ hmod _ (List.getElem?_eq_getElem hdiv)] at hk
  simp [hmod] at hk
  simp [ofAngles, hdiv, hk]

/-- C89: azimuths that have not been changed keep their weights. -/
theorem C89_unchanged (same : ℝ → ℝ → Bool) (n : Nat) (hn : 1 ≤ n) (pol : List (ℝ × ℝ)) (alphas : List ℝ) (hsep : Separates same alphas)
    (hmem : ∀ a, a ∈ (genChebyshev real n).map Prod.fst ↔ a ∈ alphas) :
    updateChebyshev real same n pol alphas = .ok (genProduct real (genChebyshev real n) pol) := by
  obtain ⟨c1, -, c3, -, c5⟩ := C88_chebyshev n hn
  unfold updateChebyshev
  rw [uniques_eq same alphas _ hsep c3 hmem]
  rw [if_neg (by simp [c1])]
  congr 2
  have hne : (genChebyshev real n).map Prod.fst ≠ [] := by
    intro h
    have := congrArg List.length h
    simp [c1] at this
    omega
  have hat : ∀ i, i < n → ((genChebyshev real n).map Prod.fst).getD i 0 = (2 * (i : ℝ) + 1) * (Real.pi / (4 * n)) := by
    intro i hi
    rw [List.getD_eq_getElem?_getD, List.getElem?_map, c5 i hi]
    rfl
  have hn' : (0 : ℝ) < n := by exact_mod_cast hn
  apply List.ext_getElem?
  intro i
  by_cases hi : i < n
  · rw [aziPairs_at _ i (by simpa [c1] using hi), c5 i hi, hat i hi]
    have hr : rightEnd ((genChebyshev real n).map Prod.fst) i = (2 * (i : ℝ) + 2) * (Real.pi / (4 * n)) := by
      unfold rightEnd
      split_ifs with h
      · rw [List.length_map, c1] at h
        rw [← h]; push_cast; field_simp; ring
      · rw [List.length_map, c1] at h
        rw [hat i hi, hat (i + 1) (by omega)]; push_cast; ring
    have hl : leftEnd ((genChebyshev real n).map Prod.fst) i = (2 * (i : ℝ)) * (Real.pi / (4 * n)) := by
      unfold leftEnd
      split_ifs with h
      · rw [h]; simp
      · rw [hat i hi, hat (i - 1) (by omega), Nat.cast_sub (by omega)]; push_cast; ring
    rw [hr, hl]
    congr 2
    have := Real.pi_ne_zero
    field_simp
    ring
  · rw [List.getElem?_eq_none (by rw [aziPairs_length _ hne]; simp [c1]; omega), List.getElem?_eq_none (by omega)]

/-- C89: in any other order they do not: the azimuths are sorted. -/
theorem C89_renumbered : ∃ (same : ℝ → ℝ → Bool) (angles : List (Direction ℝ × ℝ)),
    updateChebyshev real same 2 [(1, 1)] [1, 1 / 2] = .ok angles ∧ angles.map (fun r => r.1.alpha) = [some (1 / 2), some 1] := by
  refine ⟨fun a b => decide (a = b), genProduct real (aziPairs real [1 / 2, 1]) [(1, 1)], ?_, ?_⟩
  · unfold updateChebyshev
    rw [uniques_eq _ [1, 1 / 2] [1 / 2, 1] (fun a _ b _ => by simp) (by norm_num) (by intro a; simp [or_comm])]
    rw [if_neg (by simp)]
  · simp [genProduct, aziPairs, midpoints, ofAngles]

/-- Two azimuths with three polar angles, after a change. -/
example : ∃ angles, updateChebyshev real (fun a b => decide (a = b)) 2 [(1 / 4, 1 / 3), (1 / 2, 1 / 3), (1, 1 / 3)]
    [1 / 3, 1 / 3, 1 / 3, 1, 1, 1] = .ok angles ∧ Octant 6 angles := by
  have hpi := Real.pi_gt_d2
  obtain ⟨angles, h1, h2, -⟩ := (C89_update (fun a b => decide (a = b)) 2 [(1 / 4, 1 / 3), (1 / 2, 1 / 3), (1, 1 / 3)]
    [1 / 3, 1 / 3, 1 / 3, 1, 1, 1] [1 / 3, 1] (fun a _ b _ => by simp) (by norm_num) (by intro a; simp) (by simp)
    (by intro a ha; simp at ha; rcases ha with rfl | rfl <;> constructor <;> norm_num <;> linarith)
    (by intro e he; simp at he; rcases he with rfl | rfl | rfl <;> refine ⟨?_, ?_, ?_⟩ <;> norm_num <;> linarith) (by simp)).2 (by simp)
  exact ⟨angles, h1, h2⟩

end Verif.Quad.Product
