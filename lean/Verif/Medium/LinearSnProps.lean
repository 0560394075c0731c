import Verif.Medium.LinearProps
import Verif.Medium.ReflectProps

/-!
# C111: superposition and scaling, Sn
-/

set_option linter.unusedSectionVars false

namespace Verif.Medium

open Verif.XS Verif.Source

section
variable {K : Type} [Field K] [LinearOrder K] [IsStrictOrderedRing K]

/-- The third state is the combination of the first two (what is handed to the current worker is not looked at). -/
def CellLin {κ : Type} (α β : K) (s s' s₃ : Sn.State κ K) : Prop := s₃.flux = α • s.flux + β • s'.flux ∧ s₃.tflux = α • s.tflux + β • s'.tflux

/-- The loops of an ordinate take combinations to combinations. -/
def OrdLin {κ : Type} (α β : K) (o : SnOrd κ K) : Prop :=
  ∀ (q q' xs : Nat → K) (s s' s₃ : Sn.State κ K), CellLin α β s s' s₃ → CellLin α β (o.loops q xs s) (o.loops q' xs s') (o.loops (α • q + β • q') xs s₃)

theorem cell_lin {κ : Type} (α β wgt : K) (w : κ → Nat) (i : Nat) (ev ev' ev₃ : (κ → K) → K × (κ → K))
    (hev : ∀ f f', (ev₃ (α • f + β • f')).1 = α * (ev f).1 + β * (ev' f').1 ∧ (ev₃ (α • f + β • f')).2 = α • (ev f).2 + β • (ev' f').2)
    (s s' s₃ : Sn.State κ K) (h : CellLin α β s s' s₃) : CellLin α β (Sn.cellStep wgt w i ev s) (Sn.cellStep wgt w i ev' s') (Sn.cellStep wgt w i ev₃ s₃) := by
  obtain ⟨h1, h2⟩ := h
  have hf : (fun k => s₃.flux k (w k)) = α • (fun k => s.flux k (w k)) + β • (fun k => s'.flux k (w k)) := by
    rw [h1]
    rfl
  obtain ⟨e1, e2⟩ := hev (fun k => s.flux k (w k)) (fun k => s'.flux k (w k))
  constructor
  · funext k j
    show (if j = w k then (ev₃ (fun k => s₃.flux k (w k))).2 k else s₃.flux k j) = _
    rw [hf, e2, h1]
    simp only [Sn.cellStep, Pi.add_apply, Pi.smul_apply, smul_eq_mul]
    split_ifs <;> rfl
  · funext j
    show (if j = i then s₃.tflux j + (ev₃ (fun k => s₃.flux k (w k))).1 * wgt else s₃.tflux j) = _
    rw [hf, e1, h2]
    simp only [Sn.cellStep, Pi.add_apply, Pi.smul_apply, smul_eq_mul]
    split_ifs <;> ring

theorem fold_rel {ι σ : Type} (R : σ → σ → σ → Prop) (f f' f₃ : σ → ι → σ) (l : List ι) (h : ∀ i s s' s₃, R s s' s₃ → R (f s i) (f' s' i) (f₃ s₃ i)) (s s' s₃ : σ)
    (hs : R s s' s₃) : R (l.foldl f s) (l.foldl f' s') (l.foldl f₃ s₃) := by
  induction l generalizing s s' s₃ with
  | nil => exact hs
  | cons i l ih => exact ih _ _ _ (h i _ _ _ hs)

/-- A scheme that takes combinations to combinations. -/
def Lin3 (α β : K) (sch : Scheme3 K) : Prop :=
  ∀ tx ty tz xs fx fy fz q fx' fy' fz' q' : K,
    let o := sch tx ty tz fx fy fz q xs
    let o' := sch tx ty tz fx' fy' fz' q' xs
    sch tx ty tz (α * fx + β * fx') (α * fy + β * fy') (α * fz + β * fz') (α * q + β * q') xs =
      ⟨α * o.psi + β * o'.psi, α * o.x + β * o'.x, α * o.y + β * o'.y, α * o.z + β * o'.z⟩

def Lin2 (α β : K) (sch : Scheme2 K) : Prop :=
  ∀ tx ty xs fx fy q fx' fy' q' : K,
    let o := sch tx ty fx fy q xs
    let o' := sch tx ty fx' fy' q' xs
    sch tx ty (α * fx + β * fx') (α * fy + β * fy') (α * q + β * q') xs = ⟨α * o.psi + β * o'.psi, α * o.x + β * o'.x, α * o.y + β * o'.y⟩

/-- C111: ordinates with such schemes. -/
theorem C111_ord3 (α β : K) (d : Mesh.Dims) (dx dy dz : Nat → K) (iang : Nat) (ox oy oz wgt : K) (sch : Nat → Scheme3 K) (h : ∀ i, Lin3 α β (sch i)) :
    OrdLin α β (ord3 d dx dy dz iang ox oy oz wgt sch) := by
  intro q q' xs s s' s₃ hs
  simp only [ord3, Sn.sweep3]
  refine fold_rel _ _ _ _ _ (fun iz s s' s₃ hs => ?_) _ _ _ hs
  refine fold_rel _ _ _ _ _ (fun iy s s' s₃ hs => ?_) _ _ _ hs
  refine fold_rel _ _ _ _ _ (fun ix s s' s₃ hs => ?_) _ _ _ hs
  refine cell_lin α β wgt _ _ _ _ _ (fun f f' => ?_) _ _ _ hs
  have hh := h (Mesh.coarseCell d ⟨ix, iy, iz⟩) (|ox| / dx ix) (|oy| / dy iy) (|oz| / dz iz) (xs (Mesh.coarseCell d ⟨ix, iy, iz⟩)) (f .x) (f .y) (f .z)
    (q (Mesh.coarseCell d ⟨ix, iy, iz⟩)) (f' .x) (f' .y) (f' .z) (q' (Mesh.coarseCell d ⟨ix, iy, iz⟩))
  simp only [Pi.add_apply, Pi.smul_apply, smul_eq_mul]
  dsimp only at hh
  rw [hh]
  refine ⟨rfl, ?_⟩
  funext k
  cases k <;> rfl

theorem C111_ord2 (α β : K) (d : Mesh.Dims) (dx dy : Nat → K) (iang : Nat) (ox oy wgt : K) (sch : Nat → Scheme2 K) (h : ∀ i, Lin2 α β (sch i)) :
    OrdLin α β (ord2 d dx dy iang ox oy wgt sch) := by
  intro q q' xs s s' s₃ hs
  simp only [ord2, Sn.sweep2]
  refine fold_rel _ _ _ _ _ (fun iy s s' s₃ hs => ?_) _ _ _ hs
  refine fold_rel _ _ _ _ _ (fun ix s s' s₃ hs => ?_) _ _ _ hs
  refine cell_lin α β wgt _ _ _ _ _ (fun f f' => ?_) _ _ _ hs
  have hh := h (Mesh.coarseCell d ⟨ix, iy, 0⟩) (|ox| / dx ix) (|oy| / dy iy) (xs (Mesh.coarseCell d ⟨ix, iy, 0⟩)) (f .x) (f .y)
    (q (Mesh.coarseCell d ⟨ix, iy, 0⟩)) (f' .x) (f' .y) (q' (Mesh.coarseCell d ⟨ix, iy, 0⟩))
  simp only [Pi.add_apply, Pi.smul_apply, smul_eq_mul]
  dsimp only at hh
  rw [hh]
  refine ⟨rfl, ?_⟩
  funext k
  cases k <;> rfl

/-- C111: all schemes but the one with a fix-up take combinations to combinations, whatever the coefficients. -/
theorem C111_schemes (α β gx gy dz oz : K) (expo : K → K) :
    Lin3 α β (Sn.evalDD (K := K)) ∧ Lin2 α β (Sn.evalDD2 (K := K)) ∧ Lin2 α β (Sn.evalCDD2 gx gy) ∧ Lin3 α β (Sn.evalCDDDD gx gy) ∧ Lin3 α β (Sn.evalCDDFW gx gy) ∧
      Lin3 α β (Sn.evalDDSC expo) ∧ Lin3 α β (Sn.evalCDDSC expo gx gy) ∧ Lin3 α β (Sn.evalPMB dz oz) := by
  refine ⟨?_, ?_, ?_, ?_, ?_, ?_, ?_, ?_⟩
  · intro tx ty tz xs fx fy fz q fx' fy' fz' q'
    simp only [Sn.evalDD, Sn.Out3.mk.injEq]
    exact ⟨by ring, by ring, by ring, by ring⟩
  · intro tx ty xs fx fy q fx' fy' q'
    simp only [Sn.evalDD2, Sn.Out2.mk.injEq]
    exact ⟨by ring, by ring, by ring⟩
  · intro tx ty xs fx fy q fx' fy' q'
    simp only [Sn.evalCDD2, Sn.Out2.mk.injEq]
    exact ⟨by ring, by ring, by ring⟩
  · intro tx ty tz xs fx fy fz q fx' fy' fz' q'
    simp only [Sn.evalCDDDD, Sn.Out3.mk.injEq]
    exact ⟨by ring, by ring, by ring, by ring⟩
  · intro tx ty tz xs fx fy fz q fx' fy' fz' q'
    simp only [Sn.evalCDDFW, Sn.Out3.mk.injEq]
    exact ⟨by ring, by ring, by ring, by ring⟩
  · intro tx ty tz xs fx fy fz q fx' fy' fz' q'
    simp only [Sn.evalDDSC, Sn.Out3.mk.injEq]
    exact ⟨by ring, by ring, by ring, by ring⟩
  · intro tx ty tz xs fx fy fz q fx' fy' fz' q'
    simp only [Sn.evalCDDSC, Sn.Out3.mk.injEq]
    exact ⟨by ring, by ring, by ring, by ring⟩
  · intro tx ty tz xs fx fy fz q fx' fy' fz' q'
    simp only [Sn.evalPMB, Sn.Out3.mk.injEq]
    exact ⟨by ring, by ring, by ring, by ring⟩

/-- C111: the scheme with a fix-up takes positive multiples to multiples. -/
theorem C111_fixup (c gx gy : K) (hc : 0 < c) : Lin3 c 0 (Sn.evalCDDFF gx gy) := by
  intro tx ty tz xs fx fy fz q fx' fy' fz' q'
  simp only [Sn.evalCDDFF, zero_mul, add_zero]
  have e : 2 * ((c * q + 2 * (tx * (c * fx) + ty * (c * fy) + tz * (c * fz))) / (tx / gx + ty / gy + 2 * tz + xs)) - c * fz =
      c * (2 * ((q + 2 * (tx * fx + ty * fy + tz * fz)) / (tx / gx + ty / gy + 2 * tz + xs)) - fz) := by ring
  rw [e]
  by_cases h : 2 * ((q + 2 * (tx * fx + ty * fy + tz * fz)) / (tx / gx + ty / gy + 2 * tz + xs)) - fz < 0
  · rw [if_pos (mul_neg_of_pos_of_neg hc h), if_pos h, Sn.Out3.mk.injEq]
    dsimp only
    exact ⟨by ring, by ring, by ring, by ring⟩
  · rw [if_neg (not_lt.mpr (mul_nonneg hc.le (not_lt.mp h))), if_neg h, Sn.Out3.mk.injEq]
    dsimp only
    exact ⟨by ring, by ring, by ring, by ring⟩

/-- C111: the fix-up is not additive: the sum of two solutions, one of which has been fixed up, is not a solution. -/
theorem C111_fixup_not_additive : ¬ ∀ α β : ℚ, Lin3 α β (Sn.evalCDDFF (1 / 2) (1 / 2)) := by
  intro h
  have := h 1 1 1 1 1 1 0 0 1 0 1 1 0 1
  revert this
  decide +kernel

/-! ### Sweeps -/

/-- The boundary update of a combination is the combination of the updates. -/
structure SnCombines {κ : Type} (α β : K) (u : SnUpdate κ K) : Prop where
  one : ∀ a b b' o o', u.one a (α • b + β • b') (α • o + β • o') = α • u.one a b o + β • u.one a b' o'
  all : ∀ b b' o o', u.all (α • b + β • b') (α • o + β • o') = α • u.all b o + β • u.all b' o'

def passLin {κ : Type} (α β : K) (s s' : SnPass κ K) : SnPass κ K := ⟨α • s.tflux + β • s'.tflux, α • s.bin + β • s'.bin, α • s.bout + β • s'.bout⟩

theorem ordinate_lin {κ : Type} (α β : K) (m : SnSetup κ K) (hu : SnCombines α β m.u) (q q' xs : Nat → K) (s s' : SnPass κ K) (o : SnOrd κ K) (ho : OrdLin α β o) :
    snOrdinate m (α • q + β • q') xs (passLin α β s s') o = passLin α β (snOrdinate m q xs s o) (snOrdinate m q' xs s' o) := by
  obtain ⟨h1, h2⟩ := ho q q' xs ⟨s.bin o.iang, s.tflux, fun _ => (0, fun _ => 0)⟩ ⟨s'.bin o.iang, s'.tflux, fun _ => (0, fun _ => 0)⟩
    ⟨(α • s.bin + β • s'.bin) o.iang, α • s.tflux + β • s'.tflux, fun _ => (0, fun _ => 0)⟩ ⟨rfl, rfl⟩
  have hb : (fun a => if a = o.iang then (o.loops (α • q + β • q') xs ⟨(α • s.bin + β • s'.bin) o.iang, α • s.tflux + β • s'.tflux, fun _ => (0, fun _ => 0)⟩).flux
      else (α • s.bout + β • s'.bout) a) =
      α • (fun a => if a = o.iang then (o.loops q xs ⟨s.bin o.iang, s.tflux, fun _ => (0, fun _ => 0)⟩).flux else s.bout a) +
      β • (fun a => if a = o.iang then (o.loops q' xs ⟨s'.bin o.iang, s'.tflux, fun _ => (0, fun _ => 0)⟩).flux else s'.bout a) := by
    funext a
    rw [h1]
    simp only [Pi.add_apply, Pi.smul_apply]
    split_ifs <;> rfl
  simp only [snOrdinate, passLin]
  rw [hb, h2, hu.one, SnPass.mk.injEq]
  refine ⟨rfl, ?_, rfl⟩
  cases m.gs <;> rfl

theorem ordinates_lin {κ : Type} (α β : K) (m : SnSetup κ K) (hu : SnCombines α β m.u) (q q' xs : Nat → K) (l : List (SnOrd κ K)) (hl : ∀ o ∈ l, OrdLin α β o)
    (s s' : SnPass κ K) :
    l.foldl (snOrdinate m (α • q + β • q') xs) (passLin α β s s') = passLin α β (l.foldl (snOrdinate m q xs) s) (l.foldl (snOrdinate m q' xs) s') := by
  induction l generalizing s s' with
  | nil => rfl
  | cons o l ih =>
    rw [List.foldl_cons, ordinate_lin α β m hu q q' xs s s' o (hl o (by simp)), ih fun o ho => hl o (by simp [ho])]
    rfl

/-- Combination of states of the Sn sweeper. -/
def snLin {κ : Type} (α β : K) (s s' : SnState κ K) : SnState κ K :=
  ⟨α • s.flux + β • s'.flux, α • s.q + β • s'.q, α • s.bin + β • s'.bin, α • s.bout + β • s'.bout⟩

/-- C111: an inner iteration of Sn of a combination of sources and states is the combination of the inner iterations. -/
theorem C111_sn_inner {κ : Type} (α β : K) (p : Problem K) (m : SnSetup κ K) (hu : SnCombines α β m.u) (ho : ∀ o ∈ m.ords, OrdLin α β o) (g : Nat)
    (src src' : Nat → K) (s s' : SnState κ K) :
    snInner p m g (α • src + β • src') (snLin α β s s') = snLin α β (snInner p m g src s) (snInner p m g src' s') := by
  have hq := self_lin α β m.fpi p.ng p.rs s.flux s'.flux g src src' false s.q s'.q
  have hz : (fun _ => 0 : Nat → K) = α • (fun _ => 0 : Nat → K) + β • (fun _ => 0) := by
    funext i
    simp
  have hp := ordinates_lin α β m hu (selfScatter m.fpi p.ng p.rs s.flux g src false s.q) (selfScatter m.fpi p.ng p.rs s'.flux g src' false s'.q) (trOf p.rs g)
    m.ords ho ⟨fun _ => 0, s.bin g, s.bout⟩ ⟨fun _ => 0, s'.bin g, s'.bout⟩
  rw [← hq] at hp
  simp only [passLin] at hp
  rw [← hz] at hp
  unfold snInner snLin snSweep1g
  dsimp only
  have hb : (α • s.bin + β • s'.bin) g = α • s.bin g + β • s'.bin g := rfl
  rw [hb, hp, SnState.mk.injEq]
  dsimp only
  refine ⟨?_, hq, ?_, rfl⟩
  · funext i h
    simp only [Pi.add_apply, Pi.smul_apply, smul_eq_mul]
    split_ifs <;> rfl
  · funext h
    simp only [Pi.add_apply, Pi.smul_apply]
    rw [hu.all]
    cases m.gs <;> (simp only [Bool.false_eq_true, if_true, if_false]; split_ifs <;> rfl)

/-- Multiple of a state. -/
def snScale {κ : Type} (c : K) (s : SnState κ K) : SnState κ K := ⟨c • s.flux, c • s.q, c • s.bin, c • s.bout⟩

theorem snLin_self {κ : Type} (c : K) (s : SnState κ K) : snLin c 0 s s = snScale c s := by
  simp [snLin, snScale]

/-- C111: the sweep of a group with Sn, negative fluxes replaced by zero at the end, of a positive multiple. -/
theorem C111_sn_sweep {κ : Type} (c : K) (hc : 0 < c) (p : Problem K) (m : SnSetup κ K) (hu : SnCombines c 0 m.u) (ho : ∀ o ∈ m.ords, OrdLin c 0 o) (g : Nat)
    (src : Nat → K) (s : SnState κ K) : snSweep p m g (c • src) (snScale c s) = snScale c (snSweep p m g src s) := by
  have h1 : ∀ s, snInner p m g (c • src) (snScale c s) = snScale c (snInner p m g src s) := by
    intro s
    have := C111_sn_inner c 0 p m hu ho g src src s s
    rwa [snLin_self, snLin_self, zero_smul, add_zero] at this
  have key : ∀ N, (List.range N).foldl (fun s _ => snInner p m g (c • src) s) (snScale c s) = snScale c ((List.range N).foldl (fun s _ => snInner p m g src s) s) := by
    intro N
    induction N with
    | zero => rfl
    | succ N ih =>
      simp only [List.range_succ, List.foldl_append, List.foldl_cons, List.foldl_nil]
      rw [ih, h1]
  unfold snSweep
  dsimp only
  rw [key]
  simp only [snScale, SnState.mk.injEq, and_true]
  funext i h
  simp only [Pi.smul_apply, smul_eq_mul, mul_neg_iff, hc, true_and, not_lt_of_gt hc, false_and, or_false]
  split_ifs <;> simp

/-- C111, scaling, any sweeper. -/
theorem C111_scale_any {σ : Type} (c : K) (hc : c ≠ 0) (p : Problem K) (w : Sweeper K σ) (sc : σ → σ) (hf : ∀ s, w.flux (sc s) = c • w.flux s)
    (hs : ∀ g src s, w.sweep g (c • src) (sc s) = sc (w.sweep g src s)) (N : Nat) (k : K) (s : σ) :
    outers p w N k (sc s) = (outers p w N k s).map fun r => (r.1, sc r.2) := by
  have hloop : ∀ n g fs s, groupLoop p w (c • fs) n g (sc s) = (groupLoop p w fs n g s).map sc := by
    intro n
    induction n with
    | zero => intro g fs s; rfl
    | succ n ih =>
      intro g fs s
      obtain ⟨a, a', h1, h2, h3⟩ := assemble_lin c 0 p.ng p.nReg p.rs fs fs (w.flux s) (w.flux s) g
      rw [h1] at h2
      injection h2 with h2
      subst h2
      simp only [zero_smul, add_zero] at h3
      simp only [groupLoop]
      rw [hf, h3, h1]
      simp only [Option.bind_some]
      rw [hs, ih]
  have htot : ∀ s, totalFission p.ng p.rs p.vol (w.flux (sc s)) = c * totalFission p.ng p.rs p.vol (w.flux s) := by
    intro s
    have := total_lin c 0 p.ng p.rs p.vol (w.flux s) (w.flux s)
    rw [zero_mul, add_zero, zero_smul, add_zero] at this
    rw [hf, this]
  have houter : ∀ k s, outer p w k (sc s) = (outer p w k s).map fun r => (r.1, sc r.2) := by
    intro k s
    have hfs : calcFissionSource p.ng p.rs k (w.flux (sc s)) = c • calcFissionSource p.ng p.rs k (w.flux s) := by
      have := calc_lin c 0 p.ng p.rs k (w.flux s) (w.flux s)
      rw [zero_smul, add_zero, zero_smul, add_zero] at this
      rw [hf, this]
    simp only [outer]
    rw [hfs, hloop, Option.map_map, Option.map_map]
    congr 1
    funext t
    simp only [Function.comp_apply, htot, mul_left_comm k c, mul_div_mul_left _ _ hc]
  induction N generalizing k s with
  | zero => rfl
  | succ N ih =>
    simp only [outers, houter]
    cases h : outer p w k s with
    | none => rfl
    | some r =>
      simp only [Option.map_some, Option.bind_some]
      exact ih r.1 r.2

/-- C111, scaling, Sn: from a positive multiple of a state, all outer iterations give the same eigenvalues and the multiple of the states. -/
theorem C111_sn_scale {κ : Type} (c : K) (hc : 0 < c) (p : Problem K) (m : SnSetup κ K) (hu : SnCombines c 0 m.u) (ho : ∀ o ∈ m.ords, OrdLin c 0 o) (N : Nat) (k : K)
    (s : SnState κ K) : outers p (snSweeper p m) N k (snScale c s) = (outers p (snSweeper p m) N k s).map fun r => (r.1, snScale c r.2) :=
  C111_scale_any c hc.ne' p (snSweeper p m) (snScale c) (fun _ => rfl) (fun g src s => C111_sn_sweep c hc p m hu ho g src s) N k s

/-- C111: the update of the boundary condition as Sn uses it. -/
theorem C111_update_sn {κ : Type} (α β : K) (sh : BC.Store K) (toN : κ → Quad.Normal) (ofN : Quad.Normal → Option κ) : SnCombines α β (snUpdate sh toN ofN) := by
  let F (b : Nat → κ → Nat → K) : Nat → Quad.Normal → Nat → K := fun a n e => (ofN n).elim 0 fun k => b a k e
  have hF : ∀ b b', F (α • b + β • b') = α • F b + β • F b' := by
    intro b b'
    funext a n e
    simp only [F, Pi.add_apply, Pi.smul_apply, smul_eq_mul]
    cases ofN n <;> simp
  have h1 : ∀ a b o, (snUpdate sh toN ofN).one a b o = fun x k e => storeOne sh a (F b) (F o) x (toN k) e := by
    intro a b o
    funext x k e
    refine congrFun (congrFun (congrFun (congrArg₂ (storeOne sh a) ?_ ?_) x) (toN k)) e <;>
      · funext a n e
        simp only [F]
        cases ofN n <;> rfl
  have h2 : ∀ b o, (snUpdate sh toN ofN).all b o = fun x k e => storeAll sh (F b) (F o) x (toN k) e := by
    intro b o
    funext x k e
    refine congrFun (congrFun (congrFun (congrArg₂ (storeAll sh) ?_ ?_) x) (toN k)) e <;>
      · funext a n e
        simp only [F]
        cases ofN n <;> rfl
  constructor
  · intro a b b' o o'
    rw [h1, h1, h1, hF, hF, (store_lin α β sh _ _ _ _).1 a]
    rfl
  · intro b b' o o'
    rw [h2, h2, h2, hF, hF, (store_lin α β sh _ _ _ _).2]
    rfl

end

/-! ### Examples -/

theorem demo_combines (α β : ℚ) (gs : Bool) : Combines α β (demoMoc gs).u (demoMoc gs).u (demoMoc gs).u := by
  constructor
  · intro a b b' o o'
    funext x j
    simp only [demoMoc, Pi.add_apply, Pi.smul_apply, smul_eq_mul]
    split_ifs <;> rfl
  · intro b b' o o'
    rfl

/-- From a flux that is not a solution: the eigenvalues of the iterations move, and are the same from five times the flux. -/
def moving : MocState ℚ := ⟨fun i g => if i = g then 1 else 2, fun _ => 0, fun _ => [fun a j => a + j], [fun _ _ => 0]⟩

example : ∃ k t, outers demoProblem (mocSweeper demoProblem (demoMoc true)) 3 1 moving = some (k, t) ∧
    outers demoProblem (mocSweeper demoProblem (demoMoc true)) 3 1 (mocScale 5 moving) = some (k, mocScale 5 t) := by
  obtain ⟨k, t, h1, -, h3⟩ := C111_scale 5 (by norm_num) demoProblem (demoMoc true) (demo_combines _ _ _) 3 1 moving ⟨fun _ => rfl, rfl⟩
  exact ⟨k, t, h1, h3⟩

example : ((outers demoProblem (mocSweeper demoProblem (demoMoc true)) 1 1 moving).map Prod.fst) ≠ some 1 ∧
    ((outers demoProblem (mocSweeper demoProblem (demoMoc true)) 1 1 moving).map Prod.fst).isSome = true := by decide +kernel

/-- A step from the sum of two states. -/
example (fs fs' : Nat → ℚ) (s : MocState ℚ) (hs : PlanesAt (demoMoc false) s) :
    ∃ t t', groupLoop demoProblem (mocSweeper demoProblem (demoMoc false)) fs 2 0 moving = some t ∧
      groupLoop demoProblem (mocSweeper demoProblem (demoMoc false)) fs' 2 0 s = some t' ∧
      groupLoop demoProblem (mocSweeper demoProblem (demoMoc false)) ((1 : ℚ) • fs + (1 : ℚ) • fs') 2 0 (mocLin 1 1 moving s) = some (mocLin 1 1 t t') := by
  obtain ⟨t, t', h1, h2, -, -, h5⟩ := C111_step 1 1 demoProblem (demoMoc false) (demo_combines _ _ _) fs fs' 2 0 moving s ⟨fun _ => rfl, rfl⟩ hs
  exact ⟨t, t', h1, h2, h5⟩

/-- The box of `Verif.Medium.ReflectProps`, any starting values. -/
example (N : Nat) (k : ℚ) (s : SnState Sn.Ax3 ℚ) : outers demoProblem (snSweeper demoProblem boxSn) N k (snScale 3 s) =
    (outers demoProblem (snSweeper demoProblem boxSn) N k s).map fun r => (r.1, snScale 3 r.2) :=
  C111_sn_scale 3 (by norm_num) demoProblem boxSn (C111_update_sn 3 0 boxStore norm3 ax3) (by
    intro o ho
    simp only [boxSn, List.mem_map, List.mem_range] at ho
    obtain ⟨a, -, rfl⟩ := ho
    exact C111_ord3 3 0 _ _ _ _ _ _ _ _ _ _ fun _ => (C111_schemes 3 0 1 1 1 1 id).1) N k s

example (α β : ℚ) : Combines α β (mocUpdate raysStore) (mocUpdate raysStore) (mocUpdate raysStore) := C111_update_moc α β raysStore

end Verif.Medium
