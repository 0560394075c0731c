import Verif.Medium.DownProps
import Verif.Medium.MirrorSnProps

/-!
# C164 for Sn
-/

set_option linter.unusedSectionVars false

namespace Verif.Medium

open Finset Verif.XS Verif.Source Verif.Scatter Verif.BC Verif.Quad

section
variable {K : Type} [Field K] [LinearOrder K] [IsStrictOrderedRing K] {κ : Type}

/-- The updates read outgoing values of this sweep only: of the ordinate just swept, and of ordinates that are swept. -/
structure SnFresh (m : SnSetup κ K) : Prop where
  one : ∀ o ∈ m.ords, ∀ b x y, x o.iang = y o.iang → m.u.one o.iang b x = m.u.one o.iang b y
  all : ∀ b x y, (∀ o ∈ m.ords, x o.iang = y o.iang) → m.u.all b x = m.u.all b y

/-- Two states with the same fluxes and incoming values in the first `G` groups.  Positions that are no regions do not exist in the arrays. -/
structure SnAgree (G : Nat) (p : Problem K) (s s' : SnState κ K) : Prop where
  flux : ∀ i, ∀ g < G, s.flux i g = s'.flux i g
  bin : ∀ g < G, s.bin g = s'.bin g
  q : ∀ i, p.nReg ≤ i → s.q i = s'.q i

/-- Outgoing values left over do not matter. -/
theorem sn_fresh (m : SnSetup κ K) (h : SnFresh m) (q xs : Nat → K) (bin bout bout' : Nat → κ → Nat → K) :
    (snSweep1g m q xs bin bout).tflux = (snSweep1g m q xs bin bout').tflux ∧ (snSweep1g m q xs bin bout).bin = (snSweep1g m q xs bin bout').bin := by
  have key : ∀ (l : List (SnOrd κ K)), (∀ o ∈ l, o ∈ m.ords) → ∀ (x y : SnPass κ K), x.tflux = y.tflux → x.bin = y.bin →
      (l.foldl (snOrdinate m q xs) x).tflux = (l.foldl (snOrdinate m q xs) y).tflux ∧ (l.foldl (snOrdinate m q xs) x).bin = (l.foldl (snOrdinate m q xs) y).bin ∧
        ∀ a, (x.bout a = y.bout a ∨ ∃ o ∈ l, o.iang = a) → (l.foldl (snOrdinate m q xs) x).bout a = (l.foldl (snOrdinate m q xs) y).bout a := by
    intro l
    induction l with
    | nil => exact fun _ x y h1 h2 => ⟨h1, h2, fun a ha => by simpa using ha⟩
    | cons o l ih =>
      intro hl x y h1 h2
      rw [List.foldl_cons, List.foldl_cons]
      have e : ∀ a, (x.bout a = y.bout a ∨ a = o.iang) → (snOrdinate m q xs x o).bout a = (snOrdinate m q xs y o).bout a := by
        intro a ha
        simp only [snOrdinate, h1, h2]
        split_ifs with c
        · rfl
        · exact ha.resolve_right c
      obtain ⟨k1, k2, k3⟩ := ih (fun o' ho => hl o' (List.mem_cons_of_mem _ ho)) (snOrdinate m q xs x o) (snOrdinate m q xs y o) (by simp only [snOrdinate, h1, h2]) (by
        simp only [snOrdinate, h1, h2]
        split_ifs
        · exact h.one o (hl o List.mem_cons_self) _ _ _ (by simp)
        · rfl)
      refine ⟨k1, k2, fun a ha => k3 a ?_⟩
      rcases ha with ha | ⟨o', ho', rfl⟩
      · exact Or.inl (e a (Or.inl ha))
      · rcases List.mem_cons.mp ho' with rfl | ho'
        · exact Or.inl (e _ (Or.inr rfl))
        · exact Or.inr ⟨o', ho', rfl⟩
  obtain ⟨k1, k2, k3⟩ := key m.ords (fun o ho => ho) ⟨fun _ => 0, bin, bout⟩ ⟨fun _ => 0, bin, bout'⟩ rfl rfl
  refine ⟨k1, ?_⟩
  simp only [snSweep1g]
  split_ifs
  · exact k2
  · rw [k2]
    exact h.all _ _ _ fun o ho => k3 _ (Or.inr ⟨o, ho, rfl⟩)

variable {G : Nat} {p : Problem K} {m : SnSetup κ K}

/-- C164: an inner iteration, Sn. -/
theorem sn_inner_cut (hG : G ≤ p.ng) (h : Physical p) (hm : SnFresh m) (g : Nat) (hg : g < G) (src : Nat → K) (s s' : SnState κ K) (hs : SnAgree G p s s') :
    SnAgree G p (snInner p m g src s) (snInner (cutProblem G p) m g src s') := by
  have hq : selfScatter m.fpi p.ng p.rs s.flux g src false s.q = selfScatter m.fpi G p.rs s'.flux g src false s'.q := by
    rw [cut_self hG h m.fpi s.flux g hg]
    funext i
    by_cases hi : ∃ x ∈ p.rs, i ∈ x.regs
    · obtain ⟨x, hx, hxi⟩ := hi
      rw [selfScatter_at m.fpi G _ h.part s.flux g hg src false s.q x hx i hxi, selfScatter_at m.fpi G _ h.part s'.flux g hg src false s'.q x hx i hxi, hs.flux i g hg]
    · have ho : ∀ x ∈ p.rs, i ∉ x.regs := fun x hx e => hi ⟨x, hx, e⟩
      have e := hs.q i (not_lt.mp fun c => hi ((h.cover i).mp c))
      unfold selfScatter
      rw [if_neg (by simp), if_neg (by simp)]
      exact ((loop_out _ _ i ho (fun x a hx => by simp only [setTo_eq, if_neg hx]) s.q).trans e).trans (loop_out _ _ i ho (fun x a hx => by simp only [setTo_eq, if_neg hx]) s'.q).symm
  obtain ⟨k1, k2⟩ := sn_fresh m hm (selfScatter m.fpi G p.rs s'.flux g src false s'.q) (trOf p.rs g) (s'.bin g) s.bout s'.bout
  constructor
  · intro i g' hg'
    simp only [snInner]
    split_ifs with c
    · rw [hq, hs.bin g hg, k1]
      rfl
    · exact hs.flux i g' hg'
  · intro g' hg'
    simp only [snInner]
    split_ifs with c
    · rw [hq, hs.bin g hg, k2]
      rfl
    · exact hs.bin g' hg'
  · intro i _
    simp only [snInner]
    rw [hq]
    rfl

/-- C164: a sweep of one of the first groups, Sn. -/
theorem sn_sweep_cut (hG : G ≤ p.ng) (h : Physical p) (hm : SnFresh m) (g : Nat) (hg : g < G) (src : Nat → K) (s s' : SnState κ K) (hs : SnAgree G p s s') :
    SnAgree G p (snSweep p m g src s) (snSweep (cutProblem G p) m g src s') := by
  have key : SnAgree G p ((List.range m.nInner).foldl (fun s _ => snInner p m g src s) s) ((List.range m.nInner).foldl (fun s _ => snInner (cutProblem G p) m g src s) s') := by
    induction m.nInner with
    | zero => exact hs
    | succ N ih =>
      rw [List.range_succ, List.foldl_append, List.foldl_append]
      exact sn_inner_cut hG h hm g hg src _ _ ih
  exact ⟨fun i g' hg' => by simp only [snSweep, key.flux i g' hg'], key.bin, key.q⟩

/-- A sweep of a later group, Sn. -/
theorem sn_sweep_later (h : Physical p) (g : Nat) (hg : G ≤ g) (src : Nat → K) (s s' : SnState κ K) (hs : SnAgree G p s s') : SnAgree G p (snSweep p m g src s) s' := by
  have key : SnAgree G p ((List.range m.nInner).foldl (fun s _ => snInner p m g src s) s) s' := by
    induction m.nInner with
    | zero => exact hs
    | succ N ih =>
      rw [List.range_succ, List.foldl_append]
      generalize (List.range N).foldl (fun s _ => snInner p m g src s) s = t at ih
      refine ⟨fun i g' hg' => ?_, fun g' hg' => ?_, fun i hi => ?_⟩
      · simp only [List.foldl_cons, List.foldl_nil, snInner, if_neg (show ¬ g' = g by omega)]
        exact ih.flux i g' hg'
      · simp only [List.foldl_cons, List.foldl_nil, snInner, if_neg (show ¬ g' = g by omega)]
        exact ih.bin g' hg'
      · have ho : ∀ x ∈ p.rs, i ∉ x.regs := fun x hx e => absurd ((h.cover i).mpr ⟨x, hx, e⟩) (not_lt.mpr hi)
        simp only [List.foldl_cons, List.foldl_nil, snInner]
        rw [← ih.q i hi]
        unfold selfScatter
        rw [if_neg (by simp)]
        exact loop_out _ _ i ho (fun x a hx => by simp only [setTo_eq, if_neg hx]) t.q
  refine ⟨fun i g' hg' => ?_, key.bin, key.q⟩
  simp only [snSweep]
  rw [if_neg fun c => absurd c.1 (by omega)]
  exact key.flux i g' hg'

/-- In-scattering off all regions. -/
theorem in_off (ng : Nat) (rs : List (XsRegion (Mat K))) (flux : Nat → Nat → K) (g : Nat) (a : Nat → K) (i : Nat) (ho : ∀ x ∈ rs, i ∉ x.regs) : inScatter ng rs flux g a i = a i := by
  unfold inScatter
  refine loop_out _ _ i ho (fun x a hx => ?_) a
  split_ifs
  · rfl
  · simp only
    cases (build ng x.mat.sc).rows[g]? with
    | none => rfl
    | some row =>
      simp only
      generalize groups row.minG row.maxG = l
      induction l generalizing a with
      | nil => rfl
      | cons b l ih =>
        rw [List.foldl_cons, ih]
        split_ifs
        · exact addTo_not_mem _ _ _ _ hx
        · rfl

/-- C164: the groups in order, Sn. -/
theorem C164_sn_groups (hG : G ≤ p.ng) (h : Physical p) (hu : NoUp G p) (hm : SnFresh m) (E E' : Nat → Nat → K) (hE : ∀ g < G, E g = E' g) (c g : Nat) (hc : g + c = G) (s s' : SnState κ K)
    (hs : SnAgree G p s s') : SnAgree G p (srcLoop p (snSweeper p m) E (c + (p.ng - G)) g s) (srcLoop (cutProblem G p) (snSweeper (cutProblem G p) m) E' c g s') := by
  induction c generalizing g s s' with
  | zero =>
    rw [Nat.zero_add]
    have later : ∀ (d g : Nat) (s : SnState κ K), G ≤ g → SnAgree G p s s' → SnAgree G p (srcLoop p (snSweeper p m) E d g s) s' := by
      intro d
      induction d with
      | zero => exact fun _ _ _ hs => hs
      | succ d ih => exact fun g s hg hs => ih (g + 1) _ (by omega) (sn_sweep_later h g hg _ s s' hs)
    exact later _ g s (by omega) hs
  | succ c ih =>
    rw [Nat.succ_add, srcLoop, srcLoop]
    refine ih (g + 1) (by omega) _ _ ?_
    have e : inScatter p.ng p.rs s.flux g (E g) = inScatter G p.rs s'.flux g (E' g) := by
      funext i
      by_cases hi : i < p.nReg
      · exact C164_source hG h hu s.flux s'.flux (fun i _ => hs.flux i) g (by omega) (E g) (E' g) (fun i _ => by rw [hE g (by omega)]) i hi
      · have ho : ∀ x ∈ p.rs, i ∉ x.regs := fun x hx e => hi ((h.cover i).mpr ⟨x, hx, e⟩)
        rw [in_off p.ng p.rs _ g _ i ho, in_off G p.rs _ g _ i ho, hE g (by omega)]
    have k := sn_sweep_cut hG h hm g (by omega) (inScatter G p.rs s'.flux g (E' g)) s s' hs
    rw [← e] at k
    show SnAgree G p (snSweep p m g (inScatter p.ng p.rs s.flux g (E g)) s) (snSweep (cutProblem G p) m g (inScatter G p.rs s'.flux g (E' g)) s')
    rw [← e]
    exact k

/-- C164: any number of steps with an external source and the library cut after group `G`, Sn. -/
theorem C164_sn_cut (hG : G ≤ p.ng) (h : Physical p) (hu : NoUp G p) (hm : SnFresh m) (ext ext' : Option (Ext K)) (E E' : Nat → Nat → K)
    (hi : ∀ g < p.ng, initializeGroup p.nReg ext g = some (E g)) (hi' : ∀ g < G, initializeGroup p.nReg ext' g = some (E' g)) (hE : ∀ g < G, E g = E' g) (N : Nat) (s s' : SnState κ K)
    (hs : SnAgree G p s s') :
    ∃ t t', fixedSteps p (snSweeper p m) ext N s = some t ∧ fixedSteps (cutProblem G p) (snSweeper (cutProblem G p) m) ext' N s' = some t' ∧ SnAgree G p t t' := by
  refine ⟨_, _, fixedSteps_eq p (snSweeper p m) ext E hi N s, fixedSteps_eq (cutProblem G p) (snSweeper (cutProblem G p) m) ext' E' hi' N s', ?_⟩
  induction N generalizing s s' with
  | zero => exact hs
  | succ N ih =>
    have k := C164_sn_groups hG h hu hm E E' hE G 0 (by omega) s s' hs
    rw [Nat.add_sub_cancel' hG] at k
    exact ih _ _ k

/-- C164: two libraries that agree in the first `G` groups, Sn. -/
theorem C164_sn {P : Problem K} (hG : G ≤ p.ng) (hG' : G ≤ P.ng) (h : Physical p) (h' : Physical P) (hu : NoUp G p) (hu' : NoUp G P) (hm : SnFresh m)
    (hc : SameCells (cutProblem G p) (cutProblem G P)) (ext ext' : Option (Ext K)) (E E' : Nat → Nat → K)
    (hi : ∀ g < p.ng, initializeGroup p.nReg ext g = some (E g)) (hi' : ∀ g < P.ng, initializeGroup P.nReg ext' g = some (E' g)) (hE : ∀ g < G, E g = E' g) (N : Nat) (s s' : SnState κ K)
    (hs : SnAgree G p s s') :
    ∃ t t', fixedSteps p (snSweeper p m) ext N s = some t ∧ fixedSteps P (snSweeper P m) ext' N s' = some t' ∧ ∀ i, ∀ g < G, t.flux i g = t'.flux i g := by
  have hn : P.nReg = p.nReg := hc.nReg
  have hi2 : ∀ g < G, initializeGroup p.nReg ext' g = some (E' g) := fun g hg => by rw [← hn]; exact hi' g (by omega)
  obtain ⟨t, u, k1, k2, k3⟩ := C164_sn_cut hG h hu hm ext ext' E E' hi hi2 hE N s s' hs
  obtain ⟨t', u', l1, l2, l3⟩ := C164_sn_cut hG' h' hu' hm ext' ext' E' E' hi' (fun g hg => hi' g (by omega)) (fun _ _ => rfl) N s' s' ⟨fun _ _ _ => rfl, fun _ _ => rfl, fun _ _ => rfl⟩
  have e := C162_steps hc (snSweeper (cutProblem G p) m) (snSweeper (cutProblem G P) m) rfl (fun g hg => C162_sn_group hc m g hg) ext' E' hi2 N s'
  rw [e, k2] at l2
  obtain rfl := Option.some.inj l2
  exact ⟨t, t', k1, l1, fun i g hg => (k3.flux i g hg).trans (l3.flux i g hg).symm⟩

/-! ### The boundary update reads what was just swept -/

theorem normals_fresh (angle : Nat) (out out' : Store K) (hsize : out'.size = out.size)
    (hd : ∀ n s off, out.size[angle]? = some s → offset out.size angle n = some off → ∀ i < s.get n, out.data (off + i) = out'.data (off + i)) (ns : List Normal) (b : Store K)
    (hb : b.size = out.size) : updateNormals 0 angle out ns b = updateNormals 0 angle out' ns b := by
  induction ns generalizing b with
  | nil => rfl
  | cons n ns ih =>
    rw [updateNormals, updateNormals, hsize, hb]
    cases hs : out.size[angle]? with
    | none => rfl
    | some s =>
      cases reflect b.ndirOct angle n with
      | none => rfl
      | some c =>
        simp only
        split_ifs
        · rfl
        · cases b.angles[c]? with
          | none => rfl
          | some ac =>
            cases offset out.size c n with
            | none => rfl
            | some oi =>
              cases ho : offset out.size angle n with
              | none => rfl
              | some oo =>
                cases out.size[c]? with
                | none => rfl
                | some so =>
                  simp only
                  split_ifs
                  · rfl
                  · have e : b.put (perGroup out.size * 0 + oi) (s.get n) (fun i => out.data (oo + i)) = b.put (perGroup out.size * 0 + oi) (s.get n) (fun i => out'.data (oo + i)) := by
                      simp only [Store.put]
                      congr 1
                      funext q
                      simp only [write]
                      split_ifs with c
                      · exact hd n s oo hs ho _ (by omega)
                      · rfl
                    cases b.types (upwindSurface ac n) <;> simp only
                    · exact ih _ hb
                    · rw [e]
                      exact ih _ hb
                    · exact ih _ hb

theorem load_same (sh : Store K) (f f' : Nat → Normal → Nat → K) (h : ∀ a < sh.size.length, f a = f' a) : load sh f = load sh f' := by
  simp only [load]
  congr 1
  funext q
  split
  · rename_i x hx
    have := List.mem_of_find?_eq_some hx
    obtain ⟨a, ha, h3⟩ := List.mem_flatMap.mp this
    have : x.1 = a := by
      simp only [List.mem_cons, List.not_mem_nil, or_false] at h3
      rcases h3 with rfl | rfl | rfl <;> rfl
    rw [h x.1 (by rw [this]; exact List.mem_range.mp ha)]
  · rfl

/-- The boundary condition of the code reads outgoing values of this sweep only, when all ordinates are swept. -/
theorem C164_boundary (sh : Store K) (toN : κ → Normal) (ofN : Normal → Option κ) (m : SnSetup κ K) (hu : m.u = snUpdate sh toN ofN) (hall : ∀ a < sh.size.length, ∃ o ∈ m.ords, o.iang = a) :
    SnFresh m := by
  let F (b : Nat → κ → Nat → K) : Nat → Normal → Nat → K := fun a n e => (ofN n).elim 0 fun k => b a k e
  have h1 : ∀ a b o, (snUpdate sh toN ofN).one a b o = fun x k e => storeOne sh a (F b) (F o) x (toN k) e := by
    intro a b o
    funext x k e
    refine congrFun (congrFun (congrFun (congrArg₂ (storeOne sh a) ?_ ?_) x) (toN k)) e <;>
      · funext a n e
        simp only [F]
        cases ofN n <;> rfl
  have h2 : ∀ b o, (snUpdate sh toN ofN).all b o = fun x k e => storeAll sh (F b) (F o) x (toN k) e := by
    intro b o
    funext x k e
    refine congrFun (congrFun (congrFun (congrArg₂ (storeAll sh) ?_ ?_) x) (toN k)) e <;>
      · funext a n e
        simp only [F]
        cases ofN n <;> rfl
  constructor
  · intro o _ b x y hxy
    rw [hu, h1, h1]
    have e : updateAngle 0 o.iang (load sh (F x)) (load sh (F b)) = updateAngle 0 o.iang (load sh (F y)) (load sh (F b)) := by
      refine normals_fresh o.iang (load sh (F x)) (load sh (F y)) rfl (fun n s off hs ho i hi => ?_) _ (load sh (F b)) rfl
      have ha : o.iang < sh.size.length := (List.getElem?_eq_some_iff.mp hs).1
      have hst : faceStart sh o.iang n = off := by
        unfold faceStart
        rw [show offset sh.size o.iang n = some off from ho]
        rfl
      have hz : i < faceSize sh o.iang n := by
        rw [faceSize_of sh o.iang n s hs]
        exact hi
      have k1 : (load sh (F x)).data (faceStart sh o.iang n + i) = F x o.iang n i := C108_load sh (F x) o.iang n i ha hz
      have k2 : (load sh (F y)).data (faceStart sh o.iang n + i) = F y o.iang n i := C108_load sh (F y) o.iang n i ha hz
      rw [← hst, k1, k2]
      simp only [F, hxy]
    simp only [storeOne, e]
  · intro b x y hxy
    rw [hu, h2, h2]
    have e : load sh (F x) = load sh (F y) := load_same sh _ _ fun a ha => by
      obtain ⟨o, ho, rfl⟩ := hall a ha
      funext n i
      simp only [F, hxy o ho]
    simp only [storeAll, e]

end

/-! ### Example -/

theorem pair_fresh (gs : Bool) : SnFresh (pairSn gs) := by
  refine C164_boundary pairStore norm2 ax2 (pairSn gs) rfl fun a ha => ?_
  have h4 : a < 4 := ha
  refine ⟨_, List.mem_map.mpr ⟨a, ?_, rfl⟩, rfl⟩
  simp only [List.mem_cons, List.not_mem_nil, or_false]
  omega

/-- Diamond differences, vacuum at the western side: two and three groups, different states after the first. -/
example (gs : Bool) (N : Nat) : ∃ t t', fixedSteps demoProblem (snSweeper demoProblem (pairSn gs)) (some shortExt) N ⟨fun _ _ => 1, fun _ => 5, fun _ _ _ _ => 1, fun _ _ _ => 7⟩ = some t ∧
    fixedSteps otherProblem (snSweeper otherProblem (pairSn gs)) (some longExt) N
      ⟨fun _ g => if g = 0 then 1 else 3, fun i => if i < 2 then 6 else 5, fun g _ _ _ => if g = 0 then 1 else 2, fun _ _ _ => -8⟩ = some t' ∧ ∀ i, ∀ g < 1, t.flux i g = t'.flux i g :=
  C164_sn (by decide) (by decide) demo_physical other_physical demo_noUp other_noUp (pair_fresh gs) demo_other (some shortExt) (some longExt) (extValues shortExt) (extValues longExt)
    (fun g hg => by
      have h2 : g < 2 := hg
      interval_cases g <;> rfl)
    (fun g hg => by
      have h3 : g < 3 := hg
      interval_cases g <;> rfl)
    (fun g hg => by
      obtain rfl : g = 0 := by omega
      rfl) N _ _
    ⟨fun i g hg => by
      obtain rfl : g = 0 := by omega
      rfl, fun g hg => by
      obtain rfl : g = 0 := by omega
      rfl, fun i hi => by
      have h2 : 2 ≤ i := hi
      simp only
      rw [if_neg (by omega)]⟩

/-- The flux of the first group changes, that of the second differs. -/
example : ∀ gs : Bool, ((fixedSteps demoProblem (snSweeper demoProblem (pairSn gs)) (some shortExt) 1 ⟨fun _ _ => 1, fun _ => 5, fun _ _ _ _ => 1, fun _ _ _ => 7⟩).map fun t => t.flux 0 0) =
      ((fixedSteps otherProblem (snSweeper otherProblem (pairSn gs)) (some longExt) 1 ⟨fun _ _ => 1, fun _ => 5, fun _ _ _ _ => 1, fun _ _ _ => 7⟩).map fun t => t.flux 0 0) ∧
    ((fixedSteps demoProblem (snSweeper demoProblem (pairSn gs)) (some shortExt) 1 ⟨fun _ _ => 1, fun _ => 5, fun _ _ _ _ => 1, fun _ _ _ => 7⟩).map fun t => t.flux 0 0) ≠ some 1 ∧
    ((fixedSteps demoProblem (snSweeper demoProblem (pairSn gs)) (some shortExt) 1 ⟨fun _ _ => 1, fun _ => 5, fun _ _ _ _ => 1, fun _ _ _ => 7⟩).map fun t => t.flux 0 1) ≠
      ((fixedSteps otherProblem (snSweeper otherProblem (pairSn gs)) (some longExt) 1 ⟨fun _ _ => 1, fun _ => 5, fun _ _ _ _ => 1, fun _ _ _ => 7⟩).map fun t => t.flux 0 1) := by
  decide +kernel

end Verif.Medium
