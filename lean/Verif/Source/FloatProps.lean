import Verif.Source.FloatModel
import Verif.Source.Props
import Verif.Fp.NearLemmas

/-!
# C142: source, fission source and eigenvalue in floating-point arithmetic
-/

set_option linter.unusedSectionVars false

namespace Verif.Source
open Verif.XS Verif.Scatter Verif.Fp

section

variable {K : Type} [Field K] [LinearOrder K] [IsStrictOrderedRing K]

theorem addToF_eq (rnd : K → K) (regs : List Nat) (hnd : regs.Nodup) (f a : Nat → K) (i : Nat) :
    addToF rnd regs f a i = if i ∈ regs then rnd (a i + f i) else a i := by
  unfold addToF
  induction regs generalizing a with
  | nil => simp
  | cons j t ih =>
    rw [List.nodup_cons] at hnd
    rw [List.foldl_cons, ih hnd.2]
    by_cases hj : i = j
    · subst hj; simp [hnd.1]
    · simp [hj]

theorem fissionF_at (rnd : K → K) (rs : List (XsRegion (Mat K))) (hp : Partition rs) (fs : Nat → K) (ig : Nat) (a : Nat → K)
    (x : XsRegion (Mat K)) (hx : x ∈ rs) (i : Nat) (hi : i ∈ x.regs) :
    fissionF rnd rs fs ig a i = rnd (a i + rnd (x.mat.ch ig * fs i)) := by
  unfold fissionF
  rw [loop_at rs hp _ _ _ x hx i hi]
  · rw [addToF_eq _ _ (hp.1 x hx), if_pos hi]
  · intro y hy a j hj; rw [addToF_eq _ _ (hp.1 y hy), if_neg hj]
  · intro y hy a b j hj hab
    rw [addToF_eq _ _ (hp.1 y hy), addToF_eq _ _ (hp.1 y hy), hab]

theorem groupsF_loop (rnd : K → K) (gs : List Nat) (ig : Nat) (regs : List Nat) (hnd : regs.Nodup) (f : Nat → Nat → K) (a : Nat → K) (i : Nat) :
    gs.foldl (fun a igg => if igg ≠ ig then addToF rnd regs (f igg) a else a) a i =
      if i ∈ regs then (gs.filter (· ≠ ig)).foldl (fun s g => rnd (s + f g i)) (a i) else a i := by
  induction gs generalizing a with
  | nil => simp
  | cons g t ih =>
    rw [List.foldl_cons, ih]
    by_cases hg : g ≠ ig
    · rw [if_pos hg, addToF_eq _ _ hnd]
      by_cases hi : i ∈ regs
      · simp [hi, hg]
      · simp [hi]
    · rw [if_neg hg]
      simp [not_not.mp hg]

/-- Groups other than `ig` from which the stored row scatters into `ig`. -/
def others (ng : Nat) (m : Mat K) (ig : Nat) : List Nat := (groups (bounds ng m.sc ig).1 (bounds ng m.sc ig).2).filter (· ≠ ig)

theorem inScatterF_at (rnd : K → K) (ng : Nat) (rs : List (XsRegion (Mat K))) (hp : Partition rs) (flux : Nat → Nat → K) (ig : Nat) (hig : ig < ng) (a : Nat → K) (x : XsRegion (Mat K))
    (hx : x ∈ rs) (i : Nat) (hi : i ∈ x.regs) :
    inScatterF rnd ng rs flux ig a i = (others ng x.mat ig).foldl (fun s g => rnd (s + rnd (x.mat.sc ig g * flux i g))) (a i) := by
  have hrow : ∀ y : XsRegion (Mat K), ∃ r, (build ng y.mat.sc).rows[ig]? = some r ∧ r.minG = (bounds ng y.mat.sc ig).1 ∧
      r.maxG = (bounds ng y.mat.sc ig).2 := by
    intro y
    obtain ⟨r, r1, r2, r3, -⟩ := (build_inv ng y.mat.sc ng).2.2.1 ig hig
    exact ⟨r, r1, r2, r3⟩
  have hstep : ∀ y ∈ rs, ∀ (a : Nat → K) j,
      (if y.regs.length = 0 then a
        else match (build ng y.mat.sc).rows[ig]? with
          | none => a
          | some row => (groups row.minG row.maxG).foldl (fun a igg =>
              if igg ≠ ig then addToF rnd y.regs (fun i => rnd (((build ng y.mat.sc).get ig igg).getD 0 * flux i igg)) a else a) a) j =
      if j ∈ y.regs then (others ng y.mat ig).foldl (fun s g => rnd (s + rnd (((build ng y.mat.sc).get ig g).getD 0 * flux j g))) (a j) else a j := by
    intro y hy a j
    by_cases hl : y.regs.length = 0
    · rw [if_pos hl]
      have : y.regs = [] := List.length_eq_zero_iff.mp hl
      simp [this]
    · rw [if_neg hl]
      obtain ⟨r, r1, r2, r3⟩ := hrow y
      rw [r1]
      simp only
      rw [groupsF_loop rnd _ ig y.regs (hp.1 y hy) (fun igg i => rnd (((build ng y.mat.sc).get ig igg).getD 0 * flux i igg)), r2, r3]
      rfl
  unfold inScatterF
  rw [loop_at rs hp _ _ _ x hx i hi]
  · refine (hstep x hx a i).trans ?_
    rw [if_pos hi]
    apply List.foldl_ext
    intro s g hg
    have hm := (mem_groups.mp (List.mem_filter.mp hg).1)
    rw [build_get ng x.mat.sc ig g hig, if_pos hm]
    rfl
  · intro y hy a j hj
    refine (hstep y hy a j).trans ?_
    rw [if_neg hj]
  · intro y hy a b j hj hab
    refine (hstep y hy a j).trans ((?_ : _ = _).trans (hstep y hy b j).symm)
    rw [hab]

/-- The source of a region as computed. -/
theorem assembleF_at (rnd : K → K) (ng : Nat) (rs : List (XsRegion (Mat K))) (hp : Partition rs) (fs : Nat → K) (flux : Nat → Nat → K) (ig : Nat) (hig : ig < ng) (x : XsRegion (Mat K))
    (hx : x ∈ rs) (i : Nat) (hi : i ∈ x.regs) :
    assembleF rnd ng rs fs flux ig i = (others ng x.mat ig).foldl (fun s g => rnd (s + rnd (x.mat.sc ig g * flux i g))) (rnd (0 + rnd (x.mat.ch ig * fs i))) := by
  unfold assembleF
  rw [inScatterF_at rnd ng rs hp flux ig hig _ x hx i hi, fissionF_at rnd rs hp fs ig _ x hx i hi]

theorem others_sum (ng : Nat) (m : Mat K) (hn : NonNeg ng m) (flux : Nat → Nat → K) (ig i : Nat) (hig : ig < ng) :
    ((others ng m ig).map fun g => m.sc ig g * flux i g).sum = ∑ g ∈ Finset.range ng, if g ≠ ig then m.sc ig g * flux i g else 0 := by
  have h1 : ((others ng m ig).map fun g => m.sc ig g * flux i g).sum =
      ((groups (bounds ng m.sc ig).1 (bounds ng m.sc ig).2).map fun g => if g ≠ ig then m.sc ig g * flux i g else 0).sum := by
    unfold others
    generalize groups (bounds ng m.sc ig).1 (bounds ng m.sc ig).2 = l
    induction l with
    | nil => rfl
    | cons g t ih =>
      by_cases hg : g = ig
      · simp [hg] at ih ⊢; exact ih
      · simp [hg] at ih ⊢; exact ih
  rw [h1, sum_groups_sub _ _ _ ng (bounds_props ng m.sc ig hig).2.2.1]
  apply Finset.sum_congr rfl
  intro g hg
  rw [Finset.mem_range] at hg
  have hb := band ng m.sc hn ig g hig hg
  by_cases hc : (bounds ng m.sc ig).1 ≤ g ∧ g ≤ (bounds ng m.sc ig).2
  · rw [if_pos hc]
  · rw [if_neg hc] at hb ⊢
    rw [← hb]; simp

theorem others_length (ng : Nat) (m : Mat K) (ig : Nat) (hig : ig < ng) : (others ng m ig).length + 1 ≤ ng ∧ ∀ g ∈ others ng m ig, g < ng := by
  have hb := (bounds_props ng m.sc ig hig).2.2.1
  have hlt : ∀ g ∈ others ng m ig, g < ng ∧ g ≠ ig := by
    intro g hg
    obtain ⟨h1, h2⟩ := List.mem_filter.mp hg
    exact ⟨lt_of_le_of_lt (mem_groups.mp h1).2 hb, by simpa using h2⟩
  refine ⟨?_, fun g hg => (hlt g hg).1⟩
  have hnd : (others ng m ig).Nodup := (groups_nodup _ _).filter _
  have hs : (others ng m ig).toFinset ⊆ (Finset.range ng).erase ig := by
    intro g hg
    rw [List.mem_toFinset] at hg
    rw [Finset.mem_erase, Finset.mem_range]
    exact ⟨(hlt g hg).2, (hlt g hg).1⟩
  have hc := Finset.card_le_card hs
  rw [List.toFinset_card_of_nodup hnd, Finset.card_erase_of_mem (Finset.mem_range.mpr hig), Finset.card_range] at hc
  omega

theorem selfScatterF_at (rnd : K → K) (fpi : K) (ng : Nat) (rs : List (XsRegion (Mat K))) (hp : Partition rs) (flux : Nat → Nat → K) (ig : Nat) (hig : ig < ng) (src : Nat → K) (given : Bool)
    (q : Nat → K) (x : XsRegion (Mat K)) (hx : x ∈ rs) (i : Nat) (hi : i ∈ x.regs) :
    selfScatterF rnd fpi ng rs flux ig src given q i =
      rnd (rnd (src i + rnd (flux i ig * x.mat.sc ig ig)) * (if given then rnd (1 / rnd (x.mat.tr ig * fpi)) else rnd (1 / fpi))) := by
  have hd : ((build ng x.mat.sc).get ig ig).getD 0 = x.mat.sc ig ig := by
    have := (C22_to_sound ng x.mat.sc ig ig hig hig).2.2
    unfold Matrix.selfScat at this
    rw [this]; rfl
  unfold selfScatterF
  cases given
  · simp only [Bool.false_eq_true, if_false]
    rw [loop_at rs hp _ _ _ x hx i hi]
    · rw [setTo_eq, if_pos hi, hd]
    · intro y _ a j hj; rw [setTo_eq, if_neg hj]
    · intro y _ a b j hj _; rw [setTo_eq, setTo_eq, if_pos hj, if_pos hj]
  · simp only [if_true]
    rw [loop_at rs hp _ _ _ x hx i hi]
    · rw [setTo_eq, if_pos hi, hd]
    · intro y _ a j hj; rw [setTo_eq, if_neg hj]
    · intro y _ a b j hj _; rw [setTo_eq, setTo_eq, if_pos hj, if_pos hj]

theorem fsF_loop (rnd : K → K) (gs : List Nat) (regs : List Nat) (hnd : regs.Nodup) (f : Nat → Nat → K) (a : Nat → K) (i : Nat) :
    gs.foldl (fun a ig => addToF rnd regs (f ig) a) a i = if i ∈ regs then gs.foldl (fun s g => rnd (s + f g i)) (a i) else a i := by
  induction gs generalizing a with
  | nil => simp
  | cons g t ih =>
    rw [List.foldl_cons, ih, addToF_eq _ _ hnd]
    by_cases hi : i ∈ regs
    · simp [hi]
    · simp [hi]

theorem fsF_at (rnd : K → K) (ng : Nat) (rs : List (XsRegion (Mat K))) (hp : Partition rs) (k : K) (flux : Nat → Nat → K) (x : XsRegion (Mat K)) (hx : x ∈ rs) (i : Nat) (hi : i ∈ x.regs) :
    calcFissionSourceF rnd ng rs k flux i = (List.range ng).foldl (fun s g => rnd (s + rnd (rnd (rnd (1 / k) * x.mat.nf g) * flux i g))) 0 := by
  unfold calcFissionSourceF
  rw [loop_at rs hp _ _ _ x hx i hi]
  · rw [fsF_loop rnd _ _ (hp.1 x hx) (fun ig i => rnd (rnd (rnd (1 / k) * x.mat.nf ig) * flux i ig)), if_pos hi]
  · intro y hy a j hj
    rw [fsF_loop rnd _ _ (hp.1 y hy) (fun ig i => rnd (rnd (rnd (1 / k) * y.mat.nf ig) * flux i ig)), if_neg hj]
  · intro y hy a b j hj hab
    rw [fsF_loop rnd _ _ (hp.1 y hy) (fun ig i => rnd (rnd (rnd (1 / k) * y.mat.nf ig) * flux i ig)), fsF_loop rnd _ _ (hp.1 y hy) (fun ig i => rnd (rnd (rnd (1 / k) * y.mat.nf ig) * flux i ig)), hab]

/-- Regions with their material, and groups, in the order of the loops of `total_fission`. -/
def cells (ng : Nat) (rs : List (XsRegion (Mat K))) : List (Mat K × Nat × Nat) := rs.flatMap fun x => (List.range ng).flatMap fun ig => x.regs.map fun i => (x.mat, ig, i)

theorem totalF_eq (rnd : K → K) (ng : Nat) (rs : List (XsRegion (Mat K))) (vol : Nat → K) (flux : Nat → Nat → K) :
    totalFissionF rnd ng rs vol flux = (cells ng rs).foldl (fun t c => rnd (t + rnd (rnd (flux c.2.2 c.2.1 * vol c.2.2) * c.1.nf c.2.1))) 0 := by
  unfold totalFissionF cells
  rw [List.foldl_flatMap]
  congr 1
  funext t x
  rw [List.foldl_flatMap]
  congr 1
  funext t ig
  rw [List.foldl_map]

theorem total_eq (ng : Nat) (rs : List (XsRegion (Mat K))) (vol : Nat → K) (flux : Nat → Nat → K) :
    totalFission ng rs vol flux = ((cells ng rs).map fun c => flux c.2.2 c.2.1 * vol c.2.2 * c.1.nf c.2.1).sum := by
  have h := totalF_eq id ng rs vol flux
  have h2 : totalFissionF id ng rs vol flux = totalFission ng rs vol flux := rfl
  rw [← h2, h]
  simp only [id]
  have : ∀ (l : List (Mat K × Nat × Nat)) (s : K), l.foldl (fun t c => t + flux c.2.2 c.2.1 * vol c.2.2 * c.1.nf c.2.1) s =
      s + (l.map fun c => flux c.2.2 c.2.1 * vol c.2.2 * c.1.nf c.2.1).sum := by
    intro l
    induction l with
    | nil => intro s; simp
    | cons c t ih => intro s; rw [List.foldl_cons, ih, List.map_cons, List.sum_cons]; ring
  rw [this, zero_add]

theorem mem_cells {ng : Nat} {rs : List (XsRegion (Mat K))} {c : Mat K × Nat × Nat} (h : c ∈ cells ng rs) : ∃ x ∈ rs, c.1 = x.mat ∧ c.2.1 < ng ∧ c.2.2 ∈ x.regs := by
  unfold cells at h
  simp only [List.mem_flatMap, List.mem_range, List.mem_map] at h
  obtain ⟨x, hx, ig, hig, i, hi, rfl⟩ := h
  exact ⟨x, hx, rfl, hig, hi⟩

/-- Without rounding the functions are those of C28 and C47. -/
theorem C142_exact (fpi : K) (ng nReg : Nat) (rs : List (XsRegion (Mat K))) (vol fs src q : Nat → K) (flux : Nat → Nat → K) (ig : Nat) (given : Bool) (k : K)
    (sweep : (Nat → K) → (Nat → Nat → K) → (Nat → Nat → K)) :
    assemble ng nReg rs none fs flux ig = some (assembleF id ng rs fs flux ig) ∧
    selfScatterF id fpi ng rs flux ig src given q = selfScatter fpi ng rs flux ig src given q ∧
    totalFissionF id ng rs vol flux = totalFission ng rs vol flux ∧
    calcFissionSourceF id ng rs k flux = calcFissionSource ng rs k flux ∧
    (totalFission ng rs vol flux ≠ 0 → eigenStepF id ng rs vol sweep k flux = some (eigenStep ng rs vol sweep k flux)) := by
  refine ⟨rfl, rfl, rfl, rfl, fun h => ?_⟩
  unfold eigenStepF
  have h2 : totalFissionF id ng rs vol flux = totalFission ng rs vol flux := rfl
  dsimp only
  rw [h2, if_neg h]
  rfl

/-- Data that are not negative. -/
structure DataOk (ng : Nat) (m : Mat K) : Prop where
  tr : ∀ g < ng, 0 < m.tr g
  nf : ∀ g < ng, 0 ≤ m.nf g
  ch : ∀ g < ng, 0 ≤ m.ch g
  sc : NonNeg ng m

/-- Whatever the rounding: no source, fission source, total or eigenvalue is negative. -/
theorem C142_nonneg (rnd : K → K) (R : Rounding rnd) (fpi : K) (hfpi : 0 < fpi) (ng : Nat) (rs : List (XsRegion (Mat K))) (hp : Partition rs) (hm : ∀ x ∈ rs, DataOk ng x.mat)
    (vol fs : Nat → K) (flux : Nat → Nat → K) (k : K) (hv : ∀ i, 0 ≤ vol i) (hfs : ∀ i, 0 ≤ fs i) (hfl : ∀ i g, 0 ≤ flux i g) (hk : 0 ≤ k) :
    (∀ x ∈ rs, ∀ i ∈ x.regs, ∀ ig < ng, 0 ≤ assembleF rnd ng rs fs flux ig i) ∧
    (∀ x ∈ rs, ∀ i ∈ x.regs, ∀ ig < ng, ∀ given q, 0 ≤ selfScatterF rnd fpi ng rs flux ig (assembleF rnd ng rs fs flux ig) given q i) ∧
    (∀ x ∈ rs, ∀ i ∈ x.regs, 0 ≤ calcFissionSourceF rnd ng rs k flux i) ∧
    0 ≤ totalFissionF rnd ng rs vol flux := by
  have n : ∀ {x : K}, 0 ≤ x → 0 ≤ rnd x := fun h => rnn R h
  have h1 : ∀ x ∈ rs, ∀ i ∈ x.regs, ∀ ig < ng, 0 ≤ assembleF rnd ng rs fs flux ig i := by
    intro x hx i hi ig hig
    rw [assembleF_at rnd ng rs hp fs flux ig hig x hx i hi]
    refine foldr_nonneg R _ _ (fun g hg => n (mul_nonneg ((hm x hx).sc ig g hig ((others_length ng x.mat ig hig).2 g hg)) (hfl i g))) _ (n ?_)
    rw [zero_add]
    exact n (mul_nonneg ((hm x hx).ch ig hig) (hfs i))
  refine ⟨h1, ?_, ?_, ?_⟩
  · intro x hx i hi ig hig given q
    rw [selfScatterF_at rnd fpi ng rs hp flux ig hig _ given q x hx i hi]
    refine n (mul_nonneg (n (add_nonneg (h1 x hx i hi ig hig) (n (mul_nonneg (hfl i ig) ((hm x hx).sc ig ig hig hig))))) ?_)
    split
    · exact n (div_nonneg zero_le_one (n (mul_nonneg ((hm x hx).tr ig hig).le hfpi.le)))
    · exact n (div_nonneg zero_le_one hfpi.le)
  · intro x hx i hi
    rw [fsF_at rnd ng rs hp k flux x hx i hi]
    exact foldr_nonneg R _ _ (fun g hg => n (mul_nonneg (n (mul_nonneg (n (div_nonneg zero_le_one hk)) ((hm x hx).nf g (List.mem_range.mp hg)))) (hfl i g))) _ le_rfl
  · rw [totalF_eq]
    refine foldr_nonneg R _ _ (fun c hc => ?_) _ le_rfl
    obtain ⟨x, hx, e, hg, -⟩ := mem_cells hc
    rw [e]
    exact n (mul_nonneg (n (mul_nonneg (hfl _ _) (hv _))) ((hm x hx).nf _ hg))

/-- Outer iterations in floating point, each with its own fixed-source step. -/
def stepsF (rnd : K → K) (ng : Nat) (rs : List (XsRegion (Mat K))) (vol : Nat → K) : List ((Nat → K) → (Nat → Nat → K) → (Nat → Nat → K)) → K → (Nat → Nat → K) → Option (K × (Nat → Nat → K))
  | [], k, flux => some (k, flux)
  | sw :: t, k, flux => (eigenStepF rnd ng rs vol sw k flux).bind fun r => stepsF rnd ng rs vol t r.1 r.2.1

/-- Power iteration with steps that keep fluxes from being negative: neither the eigenvalue nor fluxes become negative. -/
theorem C142_steps (rnd : K → K) (R : Rounding rnd) (ng : Nat) (rs : List (XsRegion (Mat K))) (hp : Partition rs) (hm : ∀ x ∈ rs, DataOk ng x.mat) (vol : Nat → K) (hv : ∀ i, 0 ≤ vol i)
    (sws : List ((Nat → K) → (Nat → Nat → K) → (Nat → Nat → K)))
    (hs : ∀ sw ∈ sws, ∀ fs flux, (∀ x ∈ rs, ∀ i ∈ x.regs, 0 ≤ fs i) → (∀ i g, 0 ≤ flux i g) → ∀ i g, 0 ≤ sw fs flux i g)
    (k : K) (hk : 0 ≤ k) (flux : Nat → Nat → K) (hfl : ∀ i g, 0 ≤ flux i g) (r : K × (Nat → Nat → K)) (h : stepsF rnd ng rs vol sws k flux = some r) : 0 ≤ r.1 ∧ ∀ i g, 0 ≤ r.2 i g := by
  induction sws generalizing k flux with
  | nil => rw [← Option.some.inj h]; exact ⟨hk, hfl⟩
  | cons sw t ih =>
    have n : ∀ {x : K}, 0 ≤ x → 0 ≤ rnd x := fun h => rnn R h
    unfold stepsF at h
    rw [Option.bind_eq_some_iff] at h
    obtain ⟨s, h1, h2⟩ := h
    unfold eigenStepF at h1
    dsimp only at h1
    split at h1
    · exact absurd h1 (by simp)
    · have nn := C142_nonneg rnd R 1 one_pos ng rs hp hm vol (fun _ => 0) flux k hv (fun _ => le_rfl) hfl hk
      have hf' := hs sw List.mem_cons_self _ flux nn.2.2.1 hfl
      have nn' := C142_nonneg rnd R 1 one_pos ng rs hp hm vol (fun _ => 0) (sw (calcFissionSourceF rnd ng rs k flux) flux) k hv (fun _ => le_rfl) hf' hk
      rw [← Option.some.inj h1] at h2
      exact ih (fun s hs' => hs s (List.mem_cons_of_mem _ hs')) _ (n (div_nonneg (n (mul_nonneg hk nn'.2.2.2)) nn.2.2.2)) _ hf' h2

end


/-! ### Errors in double precision -/

theorem near_trans {k l : Nat} {x y z : ℚ} (h : Near k x y) (h' : Near l y z) : Near (k + l) x z := by
  have hk : 0 ≤ (1 - uro) ^ k := pow_nonneg one_sub_uro.1.le _
  have hl : 0 ≤ (1 - uro) ^ l := pow_nonneg one_sub_uro.1.le _
  refine ⟨h.1, ?_, ?_⟩
  · rw [pow_add, ← mul_assoc]
    exact (mul_le_mul_of_nonneg_right h.2.1 hl).trans h'.2.1
  · rw [pow_add, mul_comm ((1 - uro) ^ k), ← mul_assoc]
    exact (mul_le_mul_of_nonneg_right h'.2.2 hk).trans h.2.2

theorem near_pos {k : Nat} {x y : ℚ} (h : Near k x y) (hx : 0 < x) : 0 < y := lt_of_lt_of_le (mul_pos hx (pow_pos one_sub_uro.1 _)) h.2.1

theorem near_pos' {k : Nat} {x y : ℚ} (h : Near k x y) (hy : 0 < y) : 0 < x := lt_of_lt_of_le (mul_pos hy (pow_pos one_sub_uro.1 _)) h.2.2

theorem near_err {k m : Nat} (hk : k + 1 ≤ m) (hm : m ≤ 2 ^ 26) {x y : ℚ} (h : Near k x y) : |y - x| ≤ m / 2 ^ 53 * x := by
  refine (h.err (by omega)).trans (mul_le_mul_of_nonneg_right ?_ h.1)
  have : ((k : ℚ) + 1) ≤ m := by exact_mod_cast hk
  calc ((k : ℚ) + 1) * uro ≤ m * uro := mul_le_mul_of_nonneg_right this uro_pos.le
    _ = _ := by unfold uro; ring

theorem sizeable_normal {x : ℚ} (h : Sizeable x) : Normal x := by
  rcases h with h | h
  · exact Or.inl h
  · refine Or.inr (le_trans ?_ (h.trans (le_abs_self x)))
    exact zpow_le_zpow_right₀ (by norm_num) (by norm_num)

/-- The products of a region's source are zero or well above the smallest doubles. -/
structure SourceOk (ng : Nat) (m : Mat ℚ) (fs : Nat → ℚ) (flux : Nat → Nat → ℚ) (ig i : Nat) : Prop where
  fis : Sizeable (m.ch ig * fs i)
  scat : ∀ g < ng, Sizeable (m.sc ig g * flux i g)

theorem source_near (ng : Nat) (rs : List (XsRegion (Mat ℚ))) (hp : Partition rs) (hm : ∀ x ∈ rs, DataOk ng x.mat) (fs : Nat → ℚ) (flux : Nat → Nat → ℚ)
    (hfs : ∀ i, 0 ≤ fs i) (hfl : ∀ i g, 0 ≤ flux i g) (ig : Nat) (hig : ig < ng) (x : XsRegion (Mat ℚ)) (hx : x ∈ rs) (i : Nat) (hi : i ∈ x.regs) (hs : SourceOk ng x.mat fs flux ig i) :
    Near ng (defined ng x.mat 0 fs flux ig i) (assembleF rnd64 ng rs fs flux ig i) ∧ Dbl (assembleF rnd64 ng rs fs flux ig i) := by
  rw [assembleF_at rnd64 ng rs hp fs flux ig hig x hx i hi, zero_add, rnd64_idem]
  obtain ⟨hl, hlt⟩ := others_length ng x.mat ig hig
  have h := near_fold (others ng x.mat ig) (fun g => x.mat.sc ig g * flux i g) (fun g => rnd64 (x.mat.sc ig g * flux i g)) 1
    (fun g hg => ⟨near_prod ((hm x hx).sc ig g hig (hlt g hg)) (hfl i g) (sizeable_normal (hs.scat g (hlt g hg))), dbl_rnd _⟩) 1 le_rfl _ _
    (near_prod ((hm x hx).ch ig hig) (hfs i) (sizeable_normal hs.fis)) (dbl_rnd _)
  refine ⟨?_, h.2⟩
  have e : defined ng x.mat 0 fs flux ig i = x.mat.ch ig * fs i + ((others ng x.mat ig).map fun g => x.mat.sc ig g * flux i g).sum := by
    rw [others_sum ng x.mat (hm x hx).sc flux ig i hig]
    unfold defined
    rw [zero_add]
  rw [e]
  exact h.1.mono (by omega)

/-- The source of a group, in doubles: within `ng + 1` half units of the last place, relative, of what the data define. -/
theorem C142_source (ng : Nat) (hng : ng ≤ 2 ^ 24) (rs : List (XsRegion (Mat ℚ))) (hp : Partition rs) (hm : ∀ x ∈ rs, DataOk ng x.mat) (fs : Nat → ℚ) (flux : Nat → Nat → ℚ)
    (hfs : ∀ i, 0 ≤ fs i) (hfl : ∀ i g, 0 ≤ flux i g) (ig : Nat) (hig : ig < ng) (x : XsRegion (Mat ℚ)) (hx : x ∈ rs) (i : Nat) (hi : i ∈ x.regs) (hs : SourceOk ng x.mat fs flux ig i) :
    |assembleF rnd64 ng rs fs flux ig i - defined ng x.mat 0 fs flux ig i| ≤ (ng + 1 : Nat) / 2 ^ 53 * defined ng x.mat 0 fs flux ig i :=
  near_err le_rfl (by omega) (source_near ng rs hp hm fs flux hfs hfl ig hig x hx i hi hs).1

/-- The source handed to a sweep. -/
theorem C142_self_scatter (fpi : ℚ) (hfpi : 0 < fpi) (ng : Nat) (hng : ng ≤ 2 ^ 24) (rs : List (XsRegion (Mat ℚ))) (hp : Partition rs) (hm : ∀ x ∈ rs, DataOk ng x.mat)
    (fs : Nat → ℚ) (flux : Nat → Nat → ℚ) (hfs : ∀ i, 0 ≤ fs i) (hfl : ∀ i g, 0 ≤ flux i g) (ig : Nat) (hig : ig < ng) (x : XsRegion (Mat ℚ)) (hx : x ∈ rs) (i : Nat) (hi : i ∈ x.regs)
    (hs : SourceOk ng x.mat fs flux ig i) (given : Bool) (q : Nat → ℚ) (d t : ℚ) (hd : d = if given then x.mat.tr ig * fpi else fpi)
    (ht : t = (defined ng x.mat 0 fs flux ig i + flux i ig * x.mat.sc ig ig) / d) (s1 : Sizeable d) (s2 : Sizeable (1 / d)) (s3 : Sizeable t) :
    |selfScatterF rnd64 fpi ng rs flux ig (assembleF rnd64 ng rs fs flux ig) given q i - t| ≤ (ng + 5 : Nat) / 2 ^ 53 * t := by
  rw [selfScatterF_at rnd64 fpi ng rs hp flux ig hig _ given q x hx i hi]
  obtain ⟨a, da⟩ := source_near ng rs hp hm fs flux hfs hfl ig hig x hx i hi hs
  have d0 : 0 < d := by
    rw [hd]; split
    · exact mul_pos ((hm x hx).tr ig hig) hfpi
    · exact hfpi
  have b : Near 1 (flux i ig * x.mat.sc ig ig) (rnd64 (flux i ig * x.mat.sc ig ig)) :=
    near_prod (hfl i ig) ((hm x hx).sc ig ig hig hig) (sizeable_normal (by have := hs.scat ig hig; rwa [mul_comm] at this))
  have c := near_add a b da (dbl_rnd _)
  rw [max_eq_left (by omega : 1 ≤ ng)] at c
  have one : Near 0 (1 : ℚ) 1 := Near.refl zero_le_one
  have r : Near 2 (1 / d) (if given then rnd64 (1 / rnd64 (x.mat.tr ig * fpi)) else rnd64 (1 / fpi)) := by
    cases given
    · simp only [Bool.false_eq_true, if_false] at hd ⊢
      rw [← hd]
      exact (near_div (by norm_num) one (Near.refl d0.le) d0 d0 s2).mono (by norm_num)
    · simp only [if_true] at hd ⊢
      have n1 : Near 1 d (rnd64 (x.mat.tr ig * fpi)) := by
        rw [hd]; exact near_prod ((hm x hx).tr ig hig).le hfpi.le (by rw [← hd]; exact sizeable_normal s1)
      exact near_div (by norm_num) one n1 d0 (near_pos n1 d0) s2
  have e : t = (defined ng x.mat 0 fs flux ig i + flux i ig * x.mat.sc ig ig) * (1 / d) := by rw [ht]; ring
  rw [e] at s3 ⊢
  exact near_err (by omega) (by omega) (near_mul (by omega) c r s3)

/-- The fission source. -/
theorem C142_fission_source (ng : Nat) (hng : ng ≤ 2 ^ 24) (rs : List (XsRegion (Mat ℚ))) (hp : Partition rs) (hm : ∀ x ∈ rs, DataOk ng x.mat) (k : ℚ) (hk : 0 < k) (flux : Nat → Nat → ℚ)
    (hfl : ∀ i g, 0 ≤ flux i g) (x : XsRegion (Mat ℚ)) (hx : x ∈ rs) (i : Nat) (hi : i ∈ x.regs) (s1 : Sizeable (1 / k)) (s2 : ∀ g < ng, Sizeable (x.mat.nf g / k))
    (s3 : ∀ g < ng, Sizeable (x.mat.nf g * flux i g / k)) :
    let t := (∑ g ∈ Finset.range ng, x.mat.nf g * flux i g) / k
    |calcFissionSourceF rnd64 ng rs k flux i - t| ≤ (ng + 4 : Nat) / 2 ^ 53 * t := by
  intro t
  rw [fsF_at rnd64 ng rs hp k flux x hx i hi]
  have r : Near 1 (1 / k) (rnd64 (1 / k)) := near_div (by norm_num) (Near.refl zero_le_one) (Near.refl hk.le) hk hk s1
  have h := (near_fold (List.range ng) (fun g => 1 / k * x.mat.nf g * flux i g) (fun g => rnd64 (rnd64 (rnd64 (1 / k) * x.mat.nf g) * flux i g)) 3
    (fun g hg => ⟨by
      have hg' := List.mem_range.mp hg
      have n1 := near_mul (by norm_num) r (Near.refl ((hm x hx).nf g hg')) (by have := s2 g hg'; rwa [← one_div_mul_eq_div] at this)
      exact near_mul (by norm_num) n1 (Near.refl (hfl i g)) (by have := s3 g hg'; rwa [← one_div_mul_eq_div, ← mul_assoc] at this), dbl_rnd _⟩) 3 le_rfl 0 0
    ((Near.refl le_rfl).mono (by norm_num)) rnd64_zero).1
  have e : t = 0 + ((List.range ng).map fun g => 1 / k * x.mat.nf g * flux i g).sum := by
    rw [zero_add, ← List.sum_toFinset _ List.nodup_range]
    simp only [t, Finset.sum_div]
    refine Finset.sum_congr (by ext; simp) ?_
    intro g _; ring
  rw [e]
  rw [List.length_range] at h
  exact near_err (by omega) (by omega) h

/-- Terms of the total fission that are zero or well above the smallest doubles. -/
def FissionOk (ng : Nat) (rs : List (XsRegion (Mat ℚ))) (vol : Nat → ℚ) (flux : Nat → Nat → ℚ) : Prop :=
  ∀ x ∈ rs, ∀ i ∈ x.regs, ∀ g < ng, Sizeable (flux i g * vol i) ∧ Sizeable (flux i g * vol i * x.mat.nf g)

theorem total_near (ng : Nat) (rs : List (XsRegion (Mat ℚ))) (hm : ∀ x ∈ rs, DataOk ng x.mat) (vol : Nat → ℚ) (hv : ∀ i, 0 ≤ vol i) (flux : Nat → Nat → ℚ)
    (hfl : ∀ i g, 0 ≤ flux i g) (hs : FissionOk ng rs vol flux) : Near (2 + (cells ng rs).length) (totalFission ng rs vol flux) (totalFissionF rnd64 ng rs vol flux) := by
  rw [totalF_eq, total_eq]
  have h := (near_fold (cells ng rs) (fun c => flux c.2.2 c.2.1 * vol c.2.2 * c.1.nf c.2.1) (fun c => rnd64 (rnd64 (flux c.2.2 c.2.1 * vol c.2.2) * c.1.nf c.2.1)) 2
    (fun c hc => ⟨by
      obtain ⟨x, hx, e, hg, hi⟩ := mem_cells hc
      obtain ⟨h1, h2⟩ := hs x hx _ hi _ hg
      rw [e]
      exact near_mul (by norm_num) (near_prod (hfl _ _) (hv _) (sizeable_normal h1)) (Near.refl ((hm x hx).nf _ hg)) h2, dbl_rnd _⟩) 2 le_rfl 0 0
    ((Near.refl le_rfl).mono (by norm_num)) rnd64_zero).1
  rwa [zero_add] at h

theorem cells_length (ng : Nat) (rs : List (XsRegion (Mat ℚ))) : (cells ng rs).length = ng * (rs.map fun x => x.regs.length).sum := by
  unfold cells
  induction rs with
  | nil => simp
  | cons x t ih => rw [List.flatMap_cons, List.length_append, ih]; simp [List.length_flatMap]; ring

/-- The total fission, summed over `n` regions and `ng` groups. -/
theorem C142_total (ng : Nat) (rs : List (XsRegion (Mat ℚ))) (hm : ∀ x ∈ rs, DataOk ng x.mat) (vol : Nat → ℚ) (hv : ∀ i, 0 ≤ vol i) (flux : Nat → Nat → ℚ)
    (hfl : ∀ i g, 0 ≤ flux i g) (hs : FissionOk ng rs vol flux) (n : Nat) (hn : n = (rs.map fun x => x.regs.length).sum) (hb : ng * n ≤ 2 ^ 24) :
    |totalFissionF rnd64 ng rs vol flux - totalFission ng rs vol flux| ≤ (ng * n + 3 : Nat) / 2 ^ 53 * totalFission ng rs vol flux := by
  refine near_err ?_ (by omega) (total_near ng rs hm vol hv flux hfl hs)
  rw [cells_length, ← hn]; omega

/-- What one outer iteration needs for its error to be bounded. -/
structure StepOk (ng : Nat) (rs : List (XsRegion (Mat ℚ))) (vol : Nat → ℚ) (k : ℚ) (flux flux' : Nat → Nat → ℚ) : Prop where
  nonneg : ∀ i g, 0 ≤ flux i g
  nonneg' : ∀ i g, 0 ≤ flux' i g
  ok : FissionOk ng rs vol flux
  ok' : FissionOk ng rs vol flux'
  pos : 0 < totalFission ng rs vol flux
  num : Sizeable (k * totalFission ng rs vol flux')
  quot : Sizeable (k * totalFission ng rs vol flux' / totalFission ng rs vol flux)

theorem step_near (ng : Nat) (rs : List (XsRegion (Mat ℚ))) (hm : ∀ x ∈ rs, DataOk ng x.mat) (vol : Nat → ℚ) (hv : ∀ i, 0 ≤ vol i) (hb : (cells ng rs).length ≤ 2 ^ 24)
    (sweep : (Nat → ℚ) → (Nat → Nat → ℚ) → (Nat → Nat → ℚ)) (k : ℚ) (hk : 0 < k) (flux flux' : Nat → Nat → ℚ) (hf : flux' = sweep (calcFissionSourceF rnd64 ng rs k flux) flux)
    (h : StepOk ng rs vol k flux flux') :
    ∃ k', eigenStepF rnd64 ng rs vol sweep k flux = some (k', flux', calcFissionSourceF rnd64 ng rs k' flux') ∧
      Near (2 * (cells ng rs).length + 6) (k * totalFission ng rs vol flux' / totalFission ng rs vol flux) k' := by
  have t1 := total_near ng rs hm vol hv flux' h.nonneg' h.ok'
  have t2 := total_near ng rs hm vol hv flux h.nonneg h.ok
  have p2 := near_pos t2 h.pos
  refine ⟨rnd64 (rnd64 (k * totalFissionF rnd64 ng rs vol flux') / totalFissionF rnd64 ng rs vol flux), ?_, ?_⟩
  · unfold eigenStepF
    dsimp only
    rw [if_neg p2.ne', hf]
  · have a := near_mul (by omega) (Near.refl hk.le) t1 h.num
    exact (near_div (by omega) a t2 h.pos p2 h.quot).mono (by omega)

/-- The eigenvalue after an outer iteration. -/
theorem C142_k (ng : Nat) (rs : List (XsRegion (Mat ℚ))) (hm : ∀ x ∈ rs, DataOk ng x.mat) (vol : Nat → ℚ) (hv : ∀ i, 0 ≤ vol i) (n : Nat) (hn : n = (rs.map fun x => x.regs.length).sum)
    (hb : ng * n ≤ 2 ^ 24) (sweep : (Nat → ℚ) → (Nat → Nat → ℚ) → (Nat → Nat → ℚ)) (k : ℚ) (hk : 0 < k) (flux flux' : Nat → Nat → ℚ)
    (hf : flux' = sweep (calcFissionSourceF rnd64 ng rs k flux) flux) (h : StepOk ng rs vol k flux flux') :
    ∃ k', eigenStepF rnd64 ng rs vol sweep k flux = some (k', flux', calcFissionSourceF rnd64 ng rs k' flux') ∧
      |k' - k * totalFission ng rs vol flux' / totalFission ng rs vol flux| ≤ (2 * (ng * n) + 7 : Nat) / 2 ^ 53 * (k * totalFission ng rs vol flux' / totalFission ng rs vol flux) := by
  have e : (cells ng rs).length = ng * n := by rw [cells_length, ← hn]
  obtain ⟨k', h1, h2⟩ := step_near ng rs hm vol hv (by omega) sweep k hk flux flux' hf h
  rw [e] at h2
  exact ⟨k', h1, near_err (by omega) (by omega) h2⟩

/-- Outer iterations all of which keep to the conditions, ending in eigenvalue `k'` and flux `flux'`. -/
inductive Run (ng : Nat) (rs : List (XsRegion (Mat ℚ))) (vol : Nat → ℚ) : Nat → ℚ → (Nat → Nat → ℚ) → ℚ → (Nat → Nat → ℚ) → Prop
  | stop (k flux) : Run ng rs vol 0 k flux k flux
  | step (m k flux sweep kk ff fs k' flux') : eigenStepF rnd64 ng rs vol sweep k flux = some (kk, ff, fs) → StepOk ng rs vol k flux ff → 0 < totalFission ng rs vol ff →
      Run ng rs vol m kk ff k' flux' → Run ng rs vol (m + 1) k flux k' flux'

/-- C47 in doubles: the fission rate over the eigenvalue, constant in exact arithmetic, drifts by no more than one allowance per iteration. -/
theorem C142_drift (ng : Nat) (rs : List (XsRegion (Mat ℚ))) (hm : ∀ x ∈ rs, DataOk ng x.mat) (vol : Nat → ℚ) (hv : ∀ i, 0 ≤ vol i) (n : Nat) (hn : n = (rs.map fun x => x.regs.length).sum)
    (m : Nat) (hb : ng * n ≤ 2 ^ 24) (hmb : m * (2 * (ng * n) + 6) + 1 ≤ 2 ^ 26) (k k' : ℚ) (hk : 0 < k) (flux flux' : Nat → Nat → ℚ) (h0 : 0 < totalFission ng rs vol flux)
    (h : Run ng rs vol m k flux k' flux') :
    |totalFission ng rs vol flux' / k' - totalFission ng rs vol flux / k| ≤ (m * (2 * (ng * n) + 6) + 1 : Nat) / 2 ^ 53 * (totalFission ng rs vol flux / k) ∧ 0 < k' := by
  have e : (cells ng rs).length = ng * n := by rw [cells_length, ← hn]
  have key : Near (m * (2 * (ng * n) + 6)) (totalFission ng rs vol flux / k) (totalFission ng rs vol flux' / k') ∧ 0 < k' := by
    clear hmb
    induction h with
    | stop k flux => exact ⟨by rw [Nat.zero_mul]; exact Near.refl (div_nonneg h0.le hk.le), hk⟩
    | step m k flux sweep kk ff fs k' flux' hstep hok hpos _ ih =>
      have hff : ff = sweep (calcFissionSourceF rnd64 ng rs k flux) flux := by
        unfold eigenStepF at hstep
        dsimp only at hstep
        split at hstep
        · exact absurd hstep (by simp)
        · have := Option.some.inj hstep
          rw [Prod.mk.injEq, Prod.mk.injEq] at this
          exact this.2.1.symm
      obtain ⟨k1, e1, n1⟩ := step_near ng rs hm vol hv (by omega) sweep k hk flux ff hff hok
      rw [hstep] at e1
      have := Option.some.inj e1
      rw [Prod.mk.injEq] at this
      rw [← this.1] at n1
      have hx : 0 < k * totalFission ng rs vol ff / totalFission ng rs vol flux := div_pos (mul_pos hk hpos) h0
      have hkk := near_pos n1 hx
      obtain ⟨n2, hk'⟩ := ih hkk hpos
      refine ⟨?_, hk'⟩
      have n3 := (Near.refl hpos.le).div n1 hx hkk
      have e3 : totalFission ng rs vol ff / (k * totalFission ng rs vol ff / totalFission ng rs vol flux) = totalFission ng rs vol flux / k := by
        have := hpos.ne'; have := hk.ne'; have := h0.ne'
        field_simp
      rw [e3, e] at n3
      exact (near_trans n3 n2).mono (by ring_nf; omega)
  exact ⟨near_err le_rfl hmb key.1, key.2⟩


/-! ### A flux that the fixed-source step gives back -/

/-- C142, the claim: a flux that the fixed-source step gives back, with its eigenvalue, is left as it is by an outer iteration in doubles. -/
def C142_still_claim : Prop :=
  ∀ (ng : Nat) (rs : List (XsRegion (Mat ℚ))) (vol : Nat → ℚ) (k : ℚ) (flux : Nat → Nat → ℚ), Partition rs → (∀ x ∈ rs, DataOk ng x.mat) → (∀ i, 0 ≤ vol i) → (∀ i g, 0 ≤ flux i g) → 0 < k →
    Dbl k → (∀ i, Dbl (vol i)) → (∀ i g, Dbl (flux i g)) → StepOk ng rs vol k flux flux →
    (eigenStepF rnd64 ng rs vol (fun _ φ => φ) k flux).map (fun r => r.1) = some k

/-- One region of a material with unit fission cross section. -/
def unitRegion : List (XsRegion (Mat ℚ)) := [⟨⟨fun _ => 1, fun _ => 1, fun _ => 1, fun _ => 1, fun _ _ => 1/2⟩, [0]⟩]

/-- The double nearest to one tenth. -/
def tenth : ℚ := 3602879701896397 / 36028797018963968

theorem unit_ok : Partition unitRegion ∧ ∀ x ∈ unitRegion, DataOk 1 x.mat := by
  refine ⟨⟨by simp [unitRegion], by simp [unitRegion]⟩, ?_⟩
  intro x hx
  simp only [unitRegion, List.mem_cons, List.not_mem_nil, or_false] at hx
  subst hx
  exact ⟨fun _ _ => by norm_num, fun _ _ => by norm_num, fun _ _ => by norm_num, fun _ _ _ _ => by norm_num⟩

theorem unit_sizeable {x : ℚ} (h : 1 / 1000 ≤ x) : Sizeable x := by
  right
  refine le_trans ?_ h
  calc (2 : ℚ) ^ (-1021 : ℤ) ≤ 2 ^ (-10 : ℤ) := zpow_le_zpow_right₀ (by norm_num) (by norm_num)
    _ ≤ _ := by norm_num

theorem unit_total (c : ℚ) : totalFission 1 unitRegion (fun _ => 1) (fun _ _ => c) = c := by simp [totalFission, unitRegion]

theorem unit_step {k c c' : ℚ} (hc : 1 / 100 ≤ c) (hc' : 1 / 100 ≤ c') (h2 : c ≤ 10) (hk : 1 ≤ k) : StepOk 1 unitRegion (fun _ => 1) k (fun _ _ => c) (fun _ _ => c') := by
  have f : ∀ b : ℚ, 1 / 100 ≤ b → FissionOk 1 unitRegion (fun _ => 1) (fun _ _ => b) := by
    intro b hb x hx i hi g hg
    simp only [unitRegion, List.mem_cons, List.not_mem_nil, or_false] at hx
    subst hx
    simp only [mul_one]
    exact ⟨unit_sizeable (by linarith), unit_sizeable (by linarith)⟩
  refine ⟨fun _ _ => by linarith, fun _ _ => by linarith, f c hc, f c' hc', ?_, ?_, ?_⟩
  · rw [unit_total]; linarith
  · rw [unit_total]; exact unit_sizeable (by nlinarith)
  · rw [unit_total, unit_total]
    refine unit_sizeable ?_
    rw [le_div_iff₀ (by linarith)]
    nlinarith

theorem tenth_step : (eigenStepF rnd64 1 unitRegion (fun _ => 1) (fun _ φ => φ) (3 / 2) (fun _ _ => tenth)).map (fun r => r.1) = some (3 / 2 + 1 / 2 ^ 52) := by decide +kernel

theorem C142_still_claim_false : ¬ C142_still_claim := by
  intro h
  have := h 1 unitRegion (fun _ => 1) (3 / 2) (fun _ _ => tenth) unit_ok.1 unit_ok.2 (fun _ => by norm_num) (fun _ _ => by unfold tenth; norm_num) (by norm_num)
    (by unfold Dbl; decide +kernel) (fun _ => by unfold Dbl; decide +kernel) (fun _ _ => by unfold Dbl; decide +kernel)
    (unit_step (by unfold tenth; norm_num) (by unfold tenth; norm_num) (by unfold tenth; norm_num) (by norm_num))
  have e := tenth_step
  rw [this] at e
  have := Option.some.inj e
  norm_num at this

/-- C142, partial: the eigenvalue changes by no more than three half units in the last place, however many regions there are.  Missing: no change, which is false. -/
theorem C142_still_partial (ng : Nat) (rs : List (XsRegion (Mat ℚ))) (hm : ∀ x ∈ rs, DataOk ng x.mat) (vol : Nat → ℚ) (hv : ∀ i, 0 ≤ vol i) (k : ℚ) (hk : 0 < k) (flux : Nat → Nat → ℚ)
    (h : StepOk ng rs vol k flux flux) (hn : Sizeable (k * totalFissionF rnd64 ng rs vol flux)) (hs : Sizeable k) :
    ∃ k', (eigenStepF rnd64 ng rs vol (fun _ φ => φ) k flux).map (fun r => r.1) = some k' ∧ |k' - k| ≤ 3 / 2 ^ 53 * k := by
  have p := near_pos (total_near ng rs hm vol hv flux h.nonneg h.ok) h.pos
  refine ⟨rnd64 (rnd64 (k * totalFissionF rnd64 ng rs vol flux) / totalFissionF rnd64 ng rs vol flux), ?_, ?_⟩
  · unfold eigenStepF
    dsimp only
    rw [if_neg p.ne']
    rfl
  · have a := near_mul (by norm_num) (Near.refl hk.le) (Near.refl p.le) hn
    have e : k * totalFissionF rnd64 ng rs vol flux / totalFissionF rnd64 ng rs vol flux = k := mul_div_cancel_right₀ k p.ne'
    have b := near_div (by norm_num) a (Near.refl p.le) p p (by rw [e]; exact hs)
    rw [e] at b
    have := near_err (m := 3) (by norm_num) (by norm_num) b
    simpa using this

/-- Fluxes and volumes so small that their product is no double: the total fission is zero and the eigenvalue not a number, though the exact total is positive. -/
theorem C142_underflow : eigenStepF rnd64 1 unitRegion (fun _ => 1 / 2 ^ 600) (fun _ φ => φ) 1 (fun _ _ => 1 / 2 ^ 600) = none ∧
    0 < totalFission 1 unitRegion (fun _ => 1 / 2 ^ 600) (fun _ _ => 1 / 2 ^ 600) := by
  refine ⟨?_, by decide +kernel⟩
  unfold eigenStepF
  dsimp only
  rw [if_pos (by decide +kernel)]

/-! ### Examples -/

example : ∃ k', eigenStepF rnd64 1 unitRegion (fun _ => 1) (fun _ φ i g => 3 * φ i g) 1 (fun _ _ => tenth) =
      some (k', (fun _ _ => 3 * tenth), calcFissionSourceF rnd64 1 unitRegion k' (fun _ _ => 3 * tenth)) ∧ |k' - 3| ≤ 9 / 2 ^ 53 * 3 := by
  obtain ⟨k', h1, h2⟩ := C142_k 1 unitRegion unit_ok.2 (fun _ => 1) (fun _ => by norm_num) 1 rfl (by norm_num) (fun _ φ i g => 3 * φ i g) 1 (by norm_num) (fun _ _ => tenth) (fun _ _ => 3 * tenth) rfl
    (unit_step (by unfold tenth; norm_num) (by unfold tenth; norm_num) (by unfold tenth; norm_num) le_rfl)
  refine ⟨k', h1, ?_⟩
  rw [unit_total, unit_total, show 1 * (3 * tenth) / tenth = 3 by unfold tenth; norm_num] at h2
  norm_num at h2 ⊢
  exact h2

example : let flux : Nat → Nat → ℚ := fun _ _ => tenth
    |assembleF rnd64 1 unitRegion (fun _ => tenth) flux 0 0 - tenth| ≤ 2 / 2 ^ 53 * tenth := by
  intro flux
  have h := C142_source 1 (by norm_num) unitRegion unit_ok.1 unit_ok.2 (fun _ => tenth) flux (fun _ => by unfold tenth; norm_num) (fun _ _ => by simp only [flux]; unfold tenth; norm_num) 0 (by norm_num)
    ⟨⟨fun _ => 1, fun _ => 1, fun _ => 1, fun _ => 1, fun _ _ => 1/2⟩, [0]⟩ (by simp [unitRegion]) 0 (by simp)
    ⟨unit_sizeable (by unfold tenth; norm_num), fun _ _ => unit_sizeable (by simp only [flux]; unfold tenth; norm_num)⟩
  simpa [defined] using h

example : ∃ k' f', Run 1 unitRegion (fun _ => 1) 1 (3 / 2) (fun _ _ => tenth) k' f' := by
  obtain ⟨k', h1, -⟩ := C142_k 1 unitRegion unit_ok.2 (fun _ => 1) (fun _ => by norm_num) 1 rfl (by norm_num) (fun _ φ => φ) (3 / 2) (by norm_num) (fun _ _ => tenth) (fun _ _ => tenth) rfl
    (unit_step (by unfold tenth; norm_num) (by unfold tenth; norm_num) (by unfold tenth; norm_num) (by norm_num))
  refine ⟨k', _, Run.step 0 _ _ _ _ _ _ _ _ h1 (unit_step (by unfold tenth; norm_num) (by unfold tenth; norm_num) (by unfold tenth; norm_num) (by norm_num)) ?_ (Run.stop _ _)⟩
  rw [unit_total]; unfold tenth; norm_num

end Verif.Source
