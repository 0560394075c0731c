import Verif.Medium.ContractProps
import Verif.Medium.ReflectProps

/-!
# C113: boundary conditions without prescribed faces
-/

set_option linter.unusedSectionVars false

namespace Verif.Medium

open Verif.Quad Verif.BC

section
variable {K : Type} [Field K] [LinearOrder K] [IsStrictOrderedRing K]

/-- C113: the update of one angle gives new values, by the type of the face, to the angles mirrored to it and leaves all others. -/
theorem C113_store_one (sh : Store K) (first : List (Angle K)) (b o : Nat → Normal → Nat → K) (h : Pre (load sh b) (load sh o) first) (x : Nat) (hx : x < sh.size.length)
    (a : Nat) (n : Normal) (e : Nat) (he : e < faceSize sh a n) (ang : Angle K) (hang : sh.angles[a]? = some ang) :
    (x = refl first.length a n → sh.types (upwindSurface ang n) = .VACUUM → storeOne sh x b o a n e = 0) ∧
    (x = refl first.length a n → sh.types (upwindSurface ang n) = .REFLECT → storeOne sh x b o a n e = o x n e) ∧
    (sh.types (upwindSurface ang n) = .PRESCRIBED → storeOne sh x b o a n e = b a n e) ∧
    (x ≠ refl first.length a n → storeOne sh x b o a n e = b a n e) := by
  have ha : a < sh.size.length := by
    by_contra hn
    have : sh.size[a]? = none := List.getElem?_eq_none (by omega)
    simp [faceSize, this] at he
  have hlen8 : sh.size.length ≤ 8 * first.length := by
    have : (load sh b).size.length = sh.size.length := rfl
    rcases h.nA with hh | hh <;> omega
  have hmir : faceSize sh (refl first.length a n) n = faceSize sh a n := h.mirror a n (show faceSize sh a n ≠ 0 by omega)
  obtain ⟨b', e1, s1, v1⟩ := normals_spec (load sh b) (load sh o) first h 0 x hx [.X, .Y, .Z] (by decide) (by
    have := h.noGap x
    simp only [List.pairwise_cons, List.mem_cons, List.not_mem_nil, or_false, forall_eq_or_imp, forall_eq]
    exact ⟨⟨this.1, fun hh => this.2 (this.1 hh)⟩, this.2, by simp⟩)
  have hu : updateAngle 0 x (load sh o) (load sh b) = .ok b' := e1
  have hst : storeOne sh x b o a n e = view b' a n e := by rw [storeOne, hu]
  have hsz : b'.size = sh.size := s1.2.2.1
  have hv : view b' a n e = value b' 0 a n e := by
    rw [view, value, faceStart_of _ _ _ (by rw [hsz]; exact ha)]; simp
  have h2 := v1 0 a n e he
  have hit : inType (load sh b) a n = some (sh.types (upwindSurface ang n)) := by
    have : (load sh b).angles[a]? = some ang := hang
    simp only [inType, this, Option.map_some]
    rfl
  have hn : n ∈ [Normal.X, .Y, .Z] := by cases n <;> simp
  rw [← hv, ← hst, target] at h2
  by_cases hc : a = refl first.length x n
  · have hxa : x = refl first.length a n := by
      have := (refl_props first.length x n (by omega)).2.2
      rw [hc]; exact this.symm
    rw [if_pos ⟨rfl, hn, hc⟩, hit, load_value sh b a n e he, load_value sh o _ n e (by rw [hmir]; exact he)] at h2
    simp only [Option.getD_some] at h2
    refine ⟨fun _ ht => ?_, fun _ ht => ?_, fun ht => ?_, fun hh => absurd hxa hh⟩
    · rw [h2, ht]; rfl
    · rw [h2, ht, ← hxa]; rfl
    · rw [h2, ht]; rfl
  · have hxa : x ≠ refl first.length a n := by
      intro hh
      have := (refl_props first.length a n (by omega)).2.2
      rw [← hh] at this
      exact hc this.symm
    rw [if_neg (fun hh => hc hh.2.2), load_value sh b a n e he] at h2
    exact ⟨fun hh => absurd hh hxa, fun hh => absurd hh hxa, fun _ => h2, fun _ => h2⟩

theorem angle_at (sh : Store K) (first : List (Angle K)) (b o : Nat → Normal → Nat → K) (h : Pre (load sh b) (load sh o) first) (a : Nat) (ha : a < sh.size.length) :
    ∃ ang, sh.angles[a]? = some ang := by
  have hlen8 : sh.size.length ≤ 8 * first.length := by
    have : (load sh b).size.length = sh.size.length := rfl
    rcases h.nA with hh | hh <;> omega
  have h1 : sh.angles = expand first := h.angles
  obtain ⟨p, k, hp, hk, hpk⟩ := split_index first.length a (by omega)
  have h2 := expand_get first h.firstOct p k hp hk
  rw [h1, hpk]
  exact ⟨_, h2⟩

/-- C113: with vacuum and reflection only, no incoming value stays. -/
theorem C113_store (sh : Store K) (first : List (Angle K)) (h : ∀ b o, Pre (load sh b) (load sh o) first) (hall : ∀ s, sh.types s = .VACUUM ∨ sh.types s = .REFLECT) :
    Drains sh.size.length (rowSize sh) (mocUpdate sh) := by
  have hmir : ∀ a n, faceSize sh a n ≠ 0 → faceSize sh (refl first.length a n) n = faceSize sh a n := fun a n => (h (fun _ _ _ => 0) fun _ _ _ => 0).mirror a n
  have hrl : ∀ a n e, e < faceSize sh a n → refl first.length a n < sh.size.length := by
    intro a n e he
    have := hmir a n (by omega)
    by_contra hn
    have h3 : sh.size[refl first.length a n]? = none := List.getElem?_eq_none (by omega)
    simp [faceSize, h3] at this
    rw [faceSize] at he
    omega
  refine ⟨?_, ?_, ?_⟩
  · intro c hc x hx b o ho a ha j hj hb
    obtain ⟨f1, f2⟩ := faceOf_lt sh a j hj
    obtain ⟨ang, hang⟩ := angle_at sh first (fun _ _ _ => 0) (fun _ _ _ => 0) (h _ _) a ha
    obtain ⟨v1, v2, -, v4⟩ := C113_store_one sh first (fun a n e => b a (slotOf sh a n e)) (fun a n e => o a (slotOf sh a n e)) (h _ _) x hx a _ _ f1 ang hang
    show storeOne sh x (fun a n e => b a (slotOf sh a n e)) (fun a n e => o a (slotOf sh a n e)) a (faceOf sh a j).1 (faceOf sh a j).2 ≤ c
    by_cases hxa : x = refl first.length a (faceOf sh a j).1
    · rcases hall (upwindSurface ang (faceOf sh a j).1) with ht | ht
      · rw [v1 hxa ht]; exact hc
      · rw [v2 hxa ht]
        refine ho _ (slot_lt_row sh x _ _ ?_)
        rw [hxa, hmir a _ (by omega)]
        exact f1
    · rw [v4 hxa, f2]
      exact hb
  · intro a ha j hj
    obtain ⟨f1, f2⟩ := faceOf_lt sh a j hj
    obtain ⟨ang, hang⟩ := angle_at sh first (fun _ _ _ => 0) (fun _ _ _ => 0) (h _ _) a ha
    refine ⟨refl first.length a (faceOf sh a j).1, hrl a _ _ f1, fun c hc b o ho => ?_⟩
    obtain ⟨v1, v2, -, -⟩ := C113_store_one sh first (fun a n e => b a (slotOf sh a n e)) (fun a n e => o a (slotOf sh a n e)) (h _ _) _ (hrl a _ _ f1) a _ _ f1 ang hang
    show storeOne sh _ (fun a n e => b a (slotOf sh a n e)) (fun a n e => o a (slotOf sh a n e)) a (faceOf sh a j).1 (faceOf sh a j).2 ≤ c
    rcases hall (upwindSurface ang (faceOf sh a j).1) with ht | ht
    · rw [v1 rfl ht]; exact hc
    · rw [v2 rfl ht]
      refine ho _ (slot_lt_row sh _ _ _ ?_)
      rw [hmir a _ (by omega)]
      exact f1
  · intro c hc b o ho a ha j hj
    obtain ⟨f1, f2⟩ := faceOf_lt sh a j hj
    obtain ⟨ang, hang⟩ := angle_at sh first (fun _ _ _ => 0) (fun _ _ _ => 0) (h _ _) a ha
    obtain ⟨v1, v2, -⟩ := C110_store_value sh first (fun a n e => b a (slotOf sh a n e)) (fun a n e => o a (slotOf sh a n e)) (h _ _) a _ _ f1 ang hang
    show storeAll sh (fun a n e => b a (slotOf sh a n e)) (fun a n e => o a (slotOf sh a n e)) a (faceOf sh a j).1 (faceOf sh a j).2 ≤ c
    rcases hall (upwindSurface ang (faceOf sh a j).1) with ht | ht
    · rw [v1 ht]; exact hc
    · rw [v2 ht]
      refine ho _ (hrl a _ _ f1) _ (slot_lt_row sh _ _ _ ?_)
      rw [hmir a _ (by omega)]
      exact f1

end

/-! ### Examples -/

theorem demo_drains (gs : Bool) : Drains 2 (fun _ => 2) (demoMoc gs).u where
  keep := by
    intro c _ a ha b o ho a' ha' j hj hb
    simp only [demoMoc]
    split
    · exact ho j hj
    · exact hb
  one := by
    intro a' ha' j hj
    refine ⟨1 - a', by omega, fun c _ b o ho => ?_⟩
    simp only [demoMoc]
    rw [if_pos (by omega)]
    exact ho j hj
  all := by
    intro c _ b o ho a ha j hj
    exact ho (1 - a) (by omega) j hj

theorem demo_boundOk (gs : Bool) : MocBoundOk demoProblem (demoMoc gs) 2 (fun _ => 2) where
  toMocPosOk := demo_mocPosOk gs
  linear := by
    intro α β
    constructor
    · intro a b b' o o'
      funext x j
      simp only [demoMoc, Pi.add_apply, Pi.smul_apply, smul_eq_mul]
      split <;> rfl
    · intro b b' o o'
      rfl
  below := (demo_drains gs).below
  inner := by simp [demoMoc]

theorem demo_subcritical (gs : Bool) : Subcritical demoProblem (demoMoc gs) 2 (fun _ => 2) (fun g => if g = 0 then 1 else 2) (5 / 6) (9 / 10) where
  phi := by intro g _; split <;> norm_num
  rho := by norm_num
  eta := by norm_num
  scatter := by
    intro z hz g hg
    simp only [demoProblem, List.mem_singleton] at hz
    subst hz
    have h2 : g < 2 := hg
    interval_cases g <;> decide +kernel
  drains := demo_drains gs
  rays := by
    intro g hg w hw
    simp only [demoMoc, List.mem_singleton] at hw
    subst hw
    have h2 : g < 2 := hg
    intro w hw r hr
    simp only [List.mem_singleton] at hw
    subst hw
    revert r
    interval_cases g <;> cases gs <;> decide +kernel

/-- The external source `1` in the first and `2` in the second group of two regions: the flux stays below `6` and `12`, from anything below. -/
example (gs : Bool) (N : Nat) : ∃ t, fixedSteps demoProblem (mocSweeper demoProblem (demoMoc gs)) (some ⟨2, 2, fun _ g => if g = 0 then 1 else 2⟩) N
    ⟨fun i _ => if i = 0 then 6 else -3, fun _ => 7, fun _ => [fun _ _ => 1 / 2], [fun _ _ => 99]⟩ = some t ∧ PlanesAt (demoMoc gs) t ∧
      Below demoProblem (demoMoc gs) 2 (fun _ => 2) (fun g => if g = 0 then 6 else 12) 1 1 t :=
  C112_fixed_bound demoProblem demo_physical (demoMoc gs) 2 (fun _ => 2) (demo_boundOk gs) _ (fun g _ => by split <;> norm_num) _
    (fun g i => if i < 2 then (if g = 0 then 1 else 2) else 0) (fun g hg => by
      have h2 : g < 2 := hg
      interval_cases g <;> (simp only [demoProblem, Source.initializeGroup, List.range_succ, List.range_zero]
                            simp [Source.Ext.get]
                            funext i
                            simp only [Function.update_apply]
                            split_ifs <;> first | rfl | omega)) (fun z hz i hi g hg => by
      simp only [demoProblem, List.mem_singleton] at hz
      subst hz
      have h2 : g < 2 := hg
      simp only [List.mem_cons, List.not_mem_nil, or_false] at hi
      rcases hi with rfl | rfl <;> interval_cases g <;> decide +kernel) N _ ⟨fun _ => rfl, rfl⟩
    ⟨fun i _ g _ => by dsimp only; split_ifs <;> norm_num, fun g _ b hb => by
      simp only [List.mem_singleton] at hb
      subst hb
      intro a _ j _
      dsimp only [demoMoc]
      split_ifs <;> norm_num⟩

/-- From a smaller flux and no incoming values. -/
example (gs : Bool) (fs : Nat → ℚ) : ∃ t t', groupLoop demoProblem (mocSweeper demoProblem (demoMoc gs)) fs 2 0 ⟨fun _ _ => -1, fun _ => 7, fun _ => [fun _ _ => 0], [fun _ _ => 99]⟩ = some t ∧
    groupLoop demoProblem (mocSweeper demoProblem (demoMoc gs)) (fun i => fs i + 1) 2 0 ⟨fun _ _ => 1, fun _ => 0, fun _ => [fun _ _ => 1 / 12], [fun _ _ => 0]⟩ = some t' ∧
    PlanesAt (demoMoc gs) t ∧ PlanesAt (demoMoc gs) t' ∧ MocLe demoProblem (demoMoc gs) 2 (fun _ => 2) t t' :=
  C112_monotone demoProblem demo_physical (demoMoc gs) 2 (fun _ => 2) (demo_mocPosOk gs) (demo_boundOk gs).linear fs _ (fun i _ => by linarith) _ _ ⟨fun _ => rfl, rfl⟩ ⟨fun _ => rfl, rfl⟩
    ⟨fun _ _ _ _ => by norm_num, fun g _ z hz a _ j _ => by
      have h0 : z = 0 := by
        have : z < 1 := hz
        omega
      subst h0
      norm_num [incoming]⟩

/-- Prescribed values on all faces. -/
example : (∀ α β, Combines α β (mocUpdate { raysStore with types := fun _ => .PRESCRIBED }) (mocUpdate { raysStore with types := fun _ => .PRESCRIBED })
      (mocUpdate { raysStore with types := fun _ => .PRESCRIBED })) ∧
    UpdateBelow 4 (rowSize { raysStore with types := fun _ => .PRESCRIBED }) (mocUpdate { raysStore with types := fun _ => .PRESCRIBED }) :=
  C112_store { raysStore with types := fun _ => .PRESCRIBED }

/-- Without external source only states without flux stay. -/
example (gs : Bool) (s t : MocState ℚ) (hs : PlanesAt (demoMoc gs) s) (h : fixedSteps demoProblem (mocSweeper demoProblem (demoMoc gs)) none 1 s = some t)
    (ht : Medium.Same demoProblem (demoMoc gs) 2 (fun _ => 2) t s) : s.flux 0 0 = 0 ∧ s.flux 1 1 = 0 := by
  have h0 : ∀ s₀ : MocState ℚ, s₀ = ⟨fun _ _ => 0, fun _ => 0, fun _ => [fun _ _ => 0], [fun _ _ => 0]⟩ → PlanesAt (demoMoc gs) s₀ := by
    rintro _ rfl
    exact ⟨fun _ => rfl, rfl⟩
  obtain ⟨t', h1, h2⟩ : ∃ t', fixedSteps demoProblem (mocSweeper demoProblem (demoMoc gs)) none 1 ⟨fun _ _ => 0, fun _ => 0, fun _ => [fun _ _ => 0], [fun _ _ => 0]⟩ = some t' ∧
      Medium.Same demoProblem (demoMoc gs) 2 (fun _ => 2) t' ⟨fun _ _ => 0, fun _ => 0, fun _ => [fun _ _ => 0], [fun _ _ => 0]⟩ := by
    refine ⟨_, fixedSteps_eq _ _ none (fun _ _ => 0) (fun _ _ => rfl) 1 _, ?_⟩
    unfold Medium.Same
    cases gs <;> decide +kernel
  have h3 := C113_unique demoProblem demo_physical (demoMoc gs) 2 (fun _ => 2) (demo_boundOk gs) _ _ _ (demo_subcritical gs) none (fun _ _ => 0) (fun _ _ => rfl) s _ t t' hs (h0 _ rfl) h h1 ht h2
  exact ⟨h3.1 0 (by decide) 0 (by decide), h3.1 1 (by decide) 1 (by decide)⟩

/-- Without external source every start dies out, at least by the factor 59/60 in two steps. -/
example (gs : Bool) (N : Nat) (s : MocState ℚ) (hs : PlanesAt (demoMoc gs) s) : ∃ c t t', fixedSteps demoProblem (mocSweeper demoProblem (demoMoc gs)) none N s = some t ∧
    fixedSteps demoProblem (mocSweeper demoProblem (demoMoc gs)) none N ⟨fun _ _ => 0, fun _ => 0, fun _ => [fun _ _ => 0], [fun _ _ => 0]⟩ = some t' ∧
      Near demoProblem (demoMoc gs) 2 (fun _ => 2) (fun g => if g = 0 then 1 else 2) (c * (59 / 60) ^ (N / 2)) (c * (59 / 60) ^ (N / 2)) t t' := by
  obtain ⟨c, h1, h2⟩ := near_some demoProblem (demoMoc gs) 2 (fun _ => 2) _ (demo_subcritical gs).phi (demo_boundOk gs).fpi s
    ⟨fun _ _ => 0, fun _ => 0, fun _ => [fun _ _ => 0], [fun _ _ => 0]⟩
  obtain ⟨t, t', h3, h4, h5⟩ := C113_contract demoProblem demo_physical (demoMoc gs) 2 (fun _ => 2) (demo_boundOk gs) _ _ _ (demo_subcritical gs) none (fun _ _ => 0)
    (fun _ _ => rfl) c h1 N s _ hs ⟨fun _ => rfl, rfl⟩ h2
  refine ⟨c, t, t', h3, h4, ?_⟩
  norm_num at h5
  exact h5

/-- Vacuum on all faces, or reflection. -/
example (t : Boundary) (ht : t = .VACUUM ∨ t = .REFLECT) : Drains 4 (rowSize { raysStore with types := fun _ => t }) (mocUpdate { raysStore with types := fun _ => t }) :=
  C113_store { raysStore with types := fun _ => t } exAngles (fun b o => by
    have := rays_pre b o
    exact { angles := this.angles, firstOct := this.firstOct, nd := this.nd, nA := this.nA, outSize := this.outSize, outGroup := this.outGroup, mirror := this.mirror,
            noGap := this.noGap, types := fun s => by rcases ht with rfl | rfl <;> simp [supported, load] }) fun _ => ht

/-- One group, one region, one ray. -/
noncomputable def oneProblem : Problem ℝ := ⟨1, 1, [⟨⟨fun _ => 2, fun _ => 0, fun _ => 0, fun _ => 0, fun _ _ => 1⟩, [0]⟩], fun _ => 1⟩

noncomputable def oneMoc (gs : Bool) : MocSetup ℝ :=
  ⟨Real.exp, 12, gs, ⟨fun a b o a' j => if a' = 1 - a then o a j else b a' j, fun _ o a j => o (1 - a) j⟩, [⟨0, [⟨0, 1, 1, 1, [⟨[⟨0, 1⟩], 0, 0⟩]⟩]⟩], 1⟩

theorem one_drains (gs : Bool) : Drains 2 (fun _ => 1) (oneMoc gs).u where
  keep := by
    intro c _ a ha b o ho a' ha' j hj hb
    simp only [oneMoc]
    split
    · exact ho j hj
    · exact hb
  one := by
    intro a' ha' j hj
    refine ⟨1 - a', by omega, fun c _ b o ho => ?_⟩
    simp only [oneMoc]
    rw [if_pos (by omega)]
    exact ho j hj
  all := by
    intro c _ b o ho a ha j hj
    exact ho (1 - a) (by omega) j hj

theorem one_physical : Physical oneProblem where
  part := ⟨by simp [oneProblem], by simp [oneProblem]⟩
  cover := by simp [oneProblem]
  sc := by simp [oneProblem, Source.NonNeg]
  nf := by simp [oneProblem]
  ch := by simp [oneProblem]
  tr := by simp [oneProblem]
  vol := by simp [oneProblem]

theorem one_boundOk (gs : Bool) : MocBoundOk oneProblem (oneMoc gs) 2 (fun _ => 1) where
  fpi := by simp [oneMoc]
  expo := ⟨fun x _ => Real.exp_nonneg x, fun x hx => Real.exp_le_one_iff.2 hx, fun x _ => by
    show 1 + x ≤ Real.exp x
    linarith [Real.add_one_le_exp x]⟩
  planes := by
    intro w hw
    simp only [oneMoc, List.mem_singleton] at hw
    subst hw
    refine ⟨⟨?_, ?_⟩, ?_⟩
    · intro w hw
      simp only [List.mem_singleton] at hw
      subst hw
      refine ⟨?_, by simp, by simp, rfl⟩
      constructor <;> simp [oneProblem]
    · intro a ha
      interval_cases a <;> simp
    · intro w hw
      simp only [List.mem_singleton] at hw
      subst hw
      simp
  update := by
    refine ⟨?_, ?_⟩
    · intro a ha b o hb ho a' ha' j hj
      simp only [oneMoc]
      split
      · exact ho j hj
      · exact hb a' ha' j hj
    · intro b o hb ho a ha j hj
      exact ho (1 - a) (by omega) j hj
  volume := by
    intro i hi
    have h2 : i = 0 := by
      have : i < 1 := hi
      omega
    subst h2
    simp [oneMoc, oneProblem, Moc.planeVolume, Moc.angleVolume, Moc.tracked]
    norm_num
  linear := by
    intro α β
    constructor
    · intro a b b' o o'
      funext x j
      simp only [oneMoc, Pi.add_apply, Pi.smul_apply, smul_eq_mul]
      split <;> rfl
    · intro b b' o o'
      rfl
  below := (one_drains gs).below
  inner := by simp [oneMoc]

/-- The iteration with the external source `1` converges, with both updates of the boundary values. -/
example (gs : Bool) : ∃ s t : MocState ℝ, PlanesAt (oneMoc gs) s ∧
    fixedSteps oneProblem (mocSweeper oneProblem (oneMoc gs)) (some ⟨1, 1, fun _ _ => 1⟩) 1 s = some t ∧ Medium.Same oneProblem (oneMoc gs) 2 (fun _ => 1) t s ∧
      ∀ s₀, PlanesAt (oneMoc gs) s₀ → ∃ c, ∀ N, ∃ t, fixedSteps oneProblem (mocSweeper oneProblem (oneMoc gs)) (some ⟨1, 1, fun _ _ => 1⟩) N s₀ = some t ∧
        Near oneProblem (oneMoc gs) 2 (fun _ => 1) (fun _ => 1) (c * (1 / 2 + (1 - 1 / 2) * Real.exp (-2)) ^ (N / 2))
          (c * (1 / 2 + (1 - 1 / 2) * Real.exp (-2)) ^ (N / 2)) t s :=
  C113_converges oneProblem one_physical (oneMoc gs) 2 (fun _ => 1) (one_boundOk gs) (fun _ => 1) (1 / 2) (Real.exp (-2))
    { phi := fun _ _ => one_pos
      rho := by norm_num
      eta := ⟨Real.exp_nonneg _, Real.exp_lt_one_iff.2 (by norm_num)⟩
      scatter := by simp [oneProblem]
      drains := one_drains gs
      rays := by
        intro g hg w hw
        have h0 : g = 0 := by
          have : g < 1 := hg
          omega
        subst h0
        simp only [oneMoc, List.mem_singleton] at hw
        subst hw
        intro w hw r hr
        simp only [List.mem_singleton] at hw
        subst hw
        simp only [List.mem_singleton] at hr
        subst hr
        simp [oneMoc, oneProblem, trOf, Source.setTo] } _ (fun _ i => if i = 0 then 1 else 0) fun g hg => by
      have h0 : g = 0 := by
        have : g < 1 := hg
        omega
      subst h0
      simp [oneProblem, Source.initializeGroup, Source.Ext.get]
      funext i
      simp [Function.update_apply]

end Verif.Medium
