import Verif.Medium.BalanceProps
import Mathlib.Algebra.Module.Pi
import Mathlib.Tactic.Ring
import Mathlib.Tactic.Abel

/-!
# C111: superposition and scaling
-/

set_option linter.unusedSectionVars false

namespace Verif.Medium

open Verif.XS Verif.Source

section
variable {K : Type} [Field K] [LinearOrder K] [IsStrictOrderedRing K]

/-! ### The kernel of MoC -/

theorem upd_lin (α β : K) (t t' : Nat → K) (i : Nat) (v v' : K) :
    Moc.upd (α • t + β • t') i (α * v + β * v') = α • Moc.upd t i v + β • Moc.upd t' i v' := by
  funext j
  simp only [Moc.upd, Pi.add_apply, Pi.smul_apply, smul_eq_mul]
  split_ifs <;> rfl

theorem upd_lin2 (α β : K) (t t' : Nat → Nat → K) (i : Nat) (v v' : Nat → K) :
    Moc.upd (α • t + β • t') i (α • v + β • v') = α • Moc.upd t i v + β • Moc.upd t' i v' := by
  funext j
  simp only [Moc.upd, Pi.add_apply, Pi.smul_apply]
  split_ifs <;> rfl

theorem walk_lin (α β : K) (e : Moc.Seg K → K) (q q' : Nat → K) (wt : K) (first : Nat) (l : List (Moc.Seg K)) (psi psi' : K) (t t' : Nat → K) :
    Moc.walk e (α • q + β • q') wt first l (α * psi + β * psi') (α • t + β • t') =
      (α * (Moc.walk e q wt first l psi t).1 + β * (Moc.walk e q' wt first l psi' t').1,
        α • (Moc.walk e q wt first l psi t).2 + β • (Moc.walk e q' wt first l psi' t').2) := by
  induction l generalizing psi psi' t t' with
  | nil => rfl
  | cons s l ih =>
    simp only [Moc.walk]
    rw [← ih, ← upd_lin]
    congr 1
    · simp only [Pi.add_apply, Pi.smul_apply, smul_eq_mul]; ring
    · congr 1
      simp only [Pi.add_apply, Pi.smul_apply, smul_eq_mul]; ring

/-- Combination of accumulators. -/
def accLin (α β : K) (a a' : Moc.Acc K) : Moc.Acc K := ⟨α • a.tflux + β • a'.tflux, α • a.out1 + β • a'.out1, α • a.out2 + β • a'.out2⟩

theorem ray_lin (α β : K) (e : Moc.Seg K → K) (q q' : Nat → K) (wt : K) (first : Nat) (i1 i1' i2 i2' : Nat → K) (a a' : Moc.Acc K) (r : Moc.Ray K) :
    Moc.sweepRay e (α • q + β • q') wt first (α • i1 + β • i1') (α • i2 + β • i2') (accLin α β a a') r =
      accLin α β (Moc.sweepRay e q wt first i1 i2 a r) (Moc.sweepRay e q' wt first i1' i2' a' r) := by
  simp only [Moc.sweepRay, accLin, Pi.add_apply, Pi.smul_apply, smul_eq_mul, walk_lin, upd_lin]

theorem rays_lin (α β : K) (e : Moc.Seg K → K) (q q' : Nat → K) (wt : K) (first : Nat) (i1 i1' i2 i2' : Nat → K) (l : List (Moc.Ray K)) (a a' : Moc.Acc K) :
    l.foldl (Moc.sweepRay e (α • q + β • q') wt first (α • i1 + β • i1') (α • i2 + β • i2')) (accLin α β a a') =
      accLin α β (l.foldl (Moc.sweepRay e q wt first i1 i2) a) (l.foldl (Moc.sweepRay e q' wt first i1' i2') a') := by
  induction l generalizing a a' with
  | nil => rfl
  | cons r l ih => rw [List.foldl_cons, ray_lin, ih]; rfl

/-- The boundary update `u₃` of a combination is the combination of the updates `u₁` and `u₂`. -/
structure Combines (α β : K) (u₁ u₂ u₃ : Moc.BcUpdate K) : Prop where
  one : ∀ a b b' o o', u₃.one a (α • b + β • b') (α • o + β • o') = α • u₁.one a b o + β • u₂.one a b' o'
  all : ∀ b b' o o', u₃.all (α • b + β • b') (α • o + β • o') = α • u₁.all b o + β • u₂.all b' o'

def stLin (α β : K) (s s' : Moc.St K) : Moc.St K := ⟨α • s.tflux + β • s'.tflux, α • s.bin + β • s'.bin, α • s.bout + β • s'.bout⟩

theorem angle_lin (α β : K) (expo : K → K) (xs q q' : Nat → K) (gs : Bool) (u₁ u₂ u₃ : Moc.BcUpdate K) (hu : Combines α β u₁ u₂ u₃) (first : Nat)
    (s s' : Moc.St K) (w : Moc.AngleWork K) :
    Moc.sweepAngle expo xs (α • q + β • q') gs u₃ first (stLin α β s s') w =
      stLin α β (Moc.sweepAngle expo xs q gs u₁ first s w) (Moc.sweepAngle expo xs q' gs u₂ first s' w) := by
  have h := rays_lin α β (Moc.eTau expo xs w.rst first) q q' w.wt first (s.bin w.iang1) (s'.bin w.iang1) (s.bin w.iang2) (s'.bin w.iang2) w.rays
    ⟨s.tflux, s.bout w.iang1, s.bout w.iang2⟩ ⟨s'.tflux, s'.bout w.iang1, s'.bout w.iang2⟩
  have h' : w.rays.foldl (Moc.sweepRay (Moc.eTau expo xs w.rst first) (α • q + β • q') w.wt first ((stLin α β s s').bin w.iang1) ((stLin α β s s').bin w.iang2))
      ⟨(stLin α β s s').tflux, (stLin α β s s').bout w.iang1, (stLin α β s s').bout w.iang2⟩ = _ := h
  unfold Moc.sweepAngle
  dsimp only
  rw [h']
  simp only [accLin, stLin, upd_lin2, hu.one]
  cases gs <;> rfl

theorem plane_lin (α β : K) (expo : K → K) (xs q q' : Nat → K) (gs : Bool) (u₁ u₂ u₃ : Moc.BcUpdate K) (hu : Combines α β u₁ u₂ u₃)
    (s s' : Moc.St K) (p : Moc.PlaneWork K) :
    Moc.sweepPlane expo xs (α • q + β • q') gs u₃ p (stLin α β s s') =
      stLin α β (Moc.sweepPlane expo xs q gs u₁ p s) (Moc.sweepPlane expo xs q' gs u₂ p s') := by
  have h : ∀ (l : List (Moc.AngleWork K)) (s s' : Moc.St K), l.foldl (Moc.sweepAngle expo xs (α • q + β • q') gs u₃ p.first) (stLin α β s s') =
      stLin α β (l.foldl (Moc.sweepAngle expo xs q gs u₁ p.first) s) (l.foldl (Moc.sweepAngle expo xs q' gs u₂ p.first) s') := by
    intro l
    induction l with
    | nil => intro s s'; rfl
    | cons w l ih => intro s s'; rw [List.foldl_cons, angle_lin α β expo xs q q' gs u₁ u₂ u₃ hu, ih]; rfl
  unfold Moc.sweepPlane
  dsimp only
  rw [h]
  simp only [stLin, hu.all]
  cases gs <;> rfl

/-- Combination of lists of boundary arrays. -/
def listLin (α β : K) (l l' : List (Nat → Nat → K)) : List (Nat → Nat → K) := List.zipWith (fun b b' => α • b + β • b') l l'

theorem planes_lin (α β : K) (expo : K → K) (xs q q' : Nat → K) (gs : Bool) (u₁ u₂ u₃ : Moc.BcUpdate K) (hu : Combines α β u₁ u₂ u₃)
    (ps : List (Moc.PlaneWork K)) (b b' o o' : List (Nat → Nat → K)) (hb : b.length = ps.length) (hb' : b'.length = ps.length) (ho : o.length = ps.length)
    (ho' : o'.length = ps.length) (t t' : Nat → K) :
    let r := Moc.sweepPlanes expo xs q gs u₁ (ps.zip (b.zip o)) t
    let r' := Moc.sweepPlanes expo xs q' gs u₂ (ps.zip (b'.zip o')) t'
    let r₃ := Moc.sweepPlanes expo xs (α • q + β • q') gs u₃ (ps.zip ((listLin α β b b').zip (listLin α β o o'))) (α • t + β • t')
    r₃.1 = α • r.1 + β • r'.1 ∧ r₃.2.map Prod.fst = listLin α β (r.2.map Prod.fst) (r'.2.map Prod.fst) ∧
      r₃.2.map Prod.snd = listLin α β (r.2.map Prod.snd) (r'.2.map Prod.snd) := by
  induction ps generalizing b b' o o' t t' with
  | nil => simp [Moc.sweepPlanes, listLin]
  | cons p ps ih =>
    rcases b with _ | ⟨b0, b⟩ <;> rcases b' with _ | ⟨b0', b'⟩ <;> rcases o with _ | ⟨o0, o⟩ <;> rcases o' with _ | ⟨o0', o'⟩ <;>
      simp only [List.length_nil, List.length_cons] at hb hb' ho ho' <;> try omega
    have h0 := plane_lin α β expo xs q q' gs u₁ u₂ u₃ hu ⟨t, b0, o0⟩ ⟨t', b0', o0'⟩ p
    have h0' : Moc.sweepPlane expo xs (α • q + β • q') gs u₃ p ⟨α • t + β • t', α • b0 + β • b0', α • o0 + β • o0'⟩ = _ := h0
    have hi := ih b b' o o' (by omega) (by omega) (by omega) (by omega) (Moc.sweepPlane expo xs q gs u₁ p ⟨t, b0, o0⟩).tflux
      (Moc.sweepPlane expo xs q' gs u₂ p ⟨t', b0', o0'⟩).tflux
    dsimp only at hi ⊢
    simp only [listLin, List.zipWith_cons_cons, List.zip_cons_cons, Moc.sweepPlanes, h0', List.map_cons]
    simp only [listLin] at hi
    exact ⟨hi.1, congrArg₂ List.cons rfl hi.2.1, congrArg₂ List.cons rfl hi.2.2⟩

theorem finish_lin (α β fpi : K) (xs vol q q' t t' : Nat → K) :
    Moc.finish fpi xs vol (α • q + β • q') (α • t + β • t') = α • Moc.finish fpi xs vol q t + β • Moc.finish fpi xs vol q' t' := by
  funext i
  simp only [Moc.finish, Pi.add_apply, Pi.smul_apply, smul_eq_mul]
  ring

/-! ### Sources -/

theorem setTo_lin (α β : K) (regs : List Nat) (f f' a a' : Nat → K) :
    setTo regs (α • f + β • f') (α • a + β • a') = α • setTo regs f a + β • setTo regs f' a' := by
  unfold setTo
  induction regs generalizing a a' with
  | nil => rfl
  | cons i l ih =>
    simp only [List.foldl_cons]
    rw [← ih]
    congr 1
    funext j
    simp only [Function.update_apply, Pi.add_apply, Pi.smul_apply, smul_eq_mul]
    split_ifs <;> rfl

theorem addTo_lin (α β : K) (regs : List Nat) (f f' a a' : Nat → K) :
    addTo regs (α • f + β • f') (α • a + β • a') = α • addTo regs f a + β • addTo regs f' a' := by
  unfold addTo
  induction regs generalizing a a' with
  | nil => rfl
  | cons i l ih =>
    simp only [List.foldl_cons]
    rw [← ih]
    congr 1
    funext j
    simp only [Function.update_apply, Pi.add_apply, Pi.smul_apply, smul_eq_mul]
    split_ifs <;> ring

theorem foldl_lin {ι : Type} (α β : K) (l : List ι) (f f' f₃ : (Nat → K) → ι → (Nat → K)) (h : ∀ i ∈ l, ∀ a a', f₃ (α • a + β • a') i = α • f a i + β • f' a' i)
    (a a' : Nat → K) : l.foldl f₃ (α • a + β • a') = α • l.foldl f a + β • l.foldl f' a' := by
  induction l generalizing a a' with
  | nil => rfl
  | cons i l ih =>
    simp only [List.foldl_cons]
    rw [h i (by simp), ih fun j hj => h j (by simp [hj])]

theorem self_lin (α β fpi : K) (ng : Nat) (rs : List (XsRegion (Mat K))) (flux flux' : Nat → Nat → K) (g : Nat) (src src' : Nat → K) (given : Bool) (q q' : Nat → K) :
    selfScatter fpi ng rs (α • flux + β • flux') g (α • src + β • src') given (α • q + β • q') =
      α • selfScatter fpi ng rs flux g src given q + β • selfScatter fpi ng rs flux' g src' given q' := by
  unfold selfScatter
  cases given
  all_goals
    simp only [if_true, Bool.false_eq_true, if_false]
    refine foldl_lin α β rs _ _ _ ?_ q q'
    intro x _ a a'
    rw [← setTo_lin]
    congr 1
    funext i
    simp only [Pi.add_apply, Pi.smul_apply, smul_eq_mul]
    ring

theorem fission_lin (α β : K) (rs : List (XsRegion (Mat K))) (fs fs' : Nat → K) (g : Nat) (a a' : Nat → K) :
    fission rs (α • fs + β • fs') g (α • a + β • a') = α • fission rs fs g a + β • fission rs fs' g a' := by
  unfold fission
  refine foldl_lin α β rs _ _ _ ?_ a a'
  intro x _ a a'
  rw [← addTo_lin]
  congr 1
  funext i
  simp only [Pi.add_apply, Pi.smul_apply, smul_eq_mul]
  ring

theorem inScatter_lin (α β : K) (ng : Nat) (rs : List (XsRegion (Mat K))) (flux flux' : Nat → Nat → K) (g : Nat) (a a' : Nat → K) :
    inScatter ng rs (α • flux + β • flux') g (α • a + β • a') = α • inScatter ng rs flux g a + β • inScatter ng rs flux' g a' := by
  unfold inScatter
  refine foldl_lin α β rs _ _ _ ?_ a a'
  intro x _ a a'
  split
  · rfl
  · dsimp only
    cases hr : (Scatter.build ng x.mat.sc).rows[g]? with
    | none => rfl
    | some row =>
      dsimp only
      refine foldl_lin α β _ _ _ _ ?_ a a'
      intro h _ a a'
      split
      · rw [← addTo_lin]
        congr 1
        funext i
        simp only [Pi.add_apply, Pi.smul_apply, smul_eq_mul]
        ring
      · rfl

theorem assemble_lin (α β : K) (ng nReg : Nat) (rs : List (XsRegion (Mat K))) (fs fs' : Nat → K) (flux flux' : Nat → Nat → K) (g : Nat) :
    ∃ a a', assemble ng nReg rs none fs flux g = some a ∧ assemble ng nReg rs none fs' flux' g = some a' ∧
      assemble ng nReg rs none (α • fs + β • fs') (α • flux + β • flux') g = some (α • a + β • a') := by
  refine ⟨_, _, rfl, rfl, ?_⟩
  have hz : (fun _ => 0 : Nat → K) = α • (fun _ => 0 : Nat → K) + β • (fun _ => 0) := by
    funext i
    simp
  simp only [assemble, initializeGroup, Option.map_some, Option.some.injEq]
  conv_lhs => rw [hz]
  rw [fission_lin, inScatter_lin]

theorem calc_lin (α β : K) (ng : Nat) (rs : List (XsRegion (Mat K))) (k : K) (flux flux' : Nat → Nat → K) :
    calcFissionSource ng rs k (α • flux + β • flux') = α • calcFissionSource ng rs k flux + β • calcFissionSource ng rs k flux' := by
  unfold calcFissionSource
  have hz : (fun _ => 0 : Nat → K) = α • (fun _ => 0 : Nat → K) + β • (fun _ => 0) := by
    funext i
    simp
  conv_lhs => rw [hz]
  refine foldl_lin α β rs _ _ _ ?_ _ _
  intro x _ a a'
  refine foldl_lin α β _ _ _ _ ?_ a a'
  intro h _ a a'
  rw [← addTo_lin]
  congr 1
  funext i
  simp only [Pi.add_apply, Pi.smul_apply, smul_eq_mul]
  ring

theorem foldl_add_lin {ι : Type} (α β : K) (l : List ι) (f f' f₃ : K → ι → K) (h : ∀ i ∈ l, ∀ a a', f₃ (α * a + β * a') i = α * f a i + β * f' a' i)
    (a a' : K) : l.foldl f₃ (α * a + β * a') = α * l.foldl f a + β * l.foldl f' a' := by
  induction l generalizing a a' with
  | nil => rfl
  | cons i l ih =>
    simp only [List.foldl_cons]
    rw [h i (by simp), ih fun j hj => h j (by simp [hj])]

theorem total_lin (α β : K) (ng : Nat) (rs : List (XsRegion (Mat K))) (vol : Nat → K) (flux flux' : Nat → Nat → K) :
    totalFission ng rs vol (α • flux + β • flux') = α * totalFission ng rs vol flux + β * totalFission ng rs vol flux' := by
  unfold totalFission
  have hz : (0 : K) = α * 0 + β * 0 := by simp
  conv_lhs => rw [hz]
  refine foldl_add_lin α β rs _ _ _ ?_ _ _
  intro x _ a a'
  refine foldl_add_lin α β _ _ _ _ ?_ a a'
  intro h _ a a'
  refine foldl_add_lin α β _ _ _ _ ?_ a a'
  intro i _ a a'
  simp only [Pi.add_apply, Pi.smul_apply, smul_eq_mul]
  ring

/-! ### MoC -/

/-- Combination of states of the MoC sweeper: flux, source, boundary values. -/
def mocLin (α β : K) (s s' : MocState K) : MocState K :=
  ⟨α • s.flux + β • s'.flux, α • s.q + β • s'.q, fun g => listLin α β (s.bin g) (s'.bin g), listLin α β s.bout s'.bout⟩

/-- Boundary arrays for all planes. -/
def PlanesAt (m : MocSetup K) (s : MocState K) : Prop := (∀ g, (s.bin g).length = m.planes.length) ∧ s.bout.length = m.planes.length

theorem planes_len (expo : K → K) (xs q : Nat → K) (gs : Bool) (u : Moc.BcUpdate K) (l : List (Moc.PlaneWork K × (Nat → Nat → K) × (Nat → Nat → K))) (t : Nat → K) :
    (Moc.sweepPlanes expo xs q gs u l t).2.length = l.length := by
  induction l generalizing t with
  | nil => rfl
  | cons x l ih => obtain ⟨p, b, o⟩ := x; simp only [Moc.sweepPlanes, List.length_cons, ih]

theorem inner_planes (p : Problem K) (m : MocSetup K) (g : Nat) (src : Nat → K) (s : MocState K) (hs : PlanesAt m s) : PlanesAt m (mocInner p m g src s) := by
  obtain ⟨h1, h2⟩ := hs
  have hl : (m.planes.zip ((s.bin g).zip s.bout)).length = m.planes.length := by simp [h1, h2]
  constructor
  · intro h
    simp only [mocInner, Moc.sweep1g]
    split
    · rw [List.length_map, planes_len, hl]
    · exact h1 h
  · simp only [mocInner, Moc.sweep1g, List.length_map, planes_len, hl]

theorem inner_lin (α β : K) (p : Problem K) (m : MocSetup K) (u₁ u₂ u₃ : Moc.BcUpdate K) (hu : Combines α β u₁ u₂ u₃) (g : Nat) (src src' : Nat → K) (s s' : MocState K)
    (hs : PlanesAt m s) (hs' : PlanesAt m s') :
    mocInner p { m with u := u₃ } g (α • src + β • src') (mocLin α β s s') =
      mocLin α β (mocInner p { m with u := u₁ } g src s) (mocInner p { m with u := u₂ } g src' s') := by
  have hq := self_lin α β m.fpi p.ng p.rs s.flux s'.flux g src src' true s.q s'.q
  have hz : (fun _ => 0 : Nat → K) = α • (fun _ => 0 : Nat → K) + β • (fun _ => 0) := by
    funext i
    simp
  have hp := planes_lin α β m.expo (trOf p.rs g) (selfScatter m.fpi p.ng p.rs s.flux g src true s.q) (selfScatter m.fpi p.ng p.rs s'.flux g src' true s'.q) m.gs
    u₁ u₂ u₃ hu m.planes (s.bin g) (s'.bin g) s.bout s'.bout (hs.1 g) (hs'.1 g) hs.2 hs'.2 (fun _ => 0) (fun _ => 0)
  rw [← hz, ← hq] at hp
  dsimp only at hp
  obtain ⟨h1, h2, h3⟩ := hp
  unfold mocInner mocLin Moc.sweep1g
  dsimp only
  rw [MocState.mk.injEq]
  refine ⟨?_, hq, ?_, h3⟩
  · funext i h
    simp only [Pi.add_apply, Pi.smul_apply, smul_eq_mul]
    by_cases hh : h = g
    · simp only [if_pos hh]
      rw [h1, hq, finish_lin]
      rfl
    · simp only [if_neg hh]
  · funext h
    by_cases hh : h = g
    · simp only [if_pos hh]
      exact h2
    · simp only [if_neg hh]

/-- C111: the sweep of a group with MoC of a combination of sources and states is the combination of the sweeps. -/
theorem C111_sweep (α β : K) (p : Problem K) (m : MocSetup K) (u₁ u₂ u₃ : Moc.BcUpdate K) (hu : Combines α β u₁ u₂ u₃) (g : Nat) (src src' : Nat → K)
    (s s' : MocState K) (hs : PlanesAt m s) (hs' : PlanesAt m s') :
    mocSweep p { m with u := u₃ } g (α • src + β • src') (mocLin α β s s') =
      mocLin α β (mocSweep p { m with u := u₁ } g src s) (mocSweep p { m with u := u₂ } g src' s') ∧
    PlanesAt m (mocSweep p { m with u := u₁ } g src s) ∧ PlanesAt m (mocSweep p { m with u := u₂ } g src' s') := by
  have key : ∀ N, (List.range N).foldl (fun s _ => mocInner p { m with u := u₃ } g (α • src + β • src') s) (mocLin α β s s') =
      mocLin α β ((List.range N).foldl (fun s _ => mocInner p { m with u := u₁ } g src s) s) ((List.range N).foldl (fun s _ => mocInner p { m with u := u₂ } g src' s) s') ∧
      PlanesAt m ((List.range N).foldl (fun s _ => mocInner p { m with u := u₁ } g src s) s) ∧
      PlanesAt m ((List.range N).foldl (fun s _ => mocInner p { m with u := u₂ } g src' s) s') := by
    intro N
    induction N with
    | zero => exact ⟨rfl, hs, hs'⟩
    | succ N ih =>
      obtain ⟨h1, h2, h3⟩ := ih
      simp only [List.range_succ, List.foldl_append, List.foldl_cons, List.foldl_nil]
      refine ⟨?_, inner_planes p { m with u := u₁ } g src _ h2, inner_planes p { m with u := u₂ } g src' _ h3⟩
      rw [h1]
      exact inner_lin α β p m u₁ u₂ u₃ hu g src src' _ _ h2 h3
  exact key m.nInner

/-- C111, superposition: a step of the fixed-source solver with a combination of fission sources, from a combination of states, ends in the combination. -/
theorem C111_step (α β : K) (p : Problem K) (m : MocSetup K) (hu : Combines α β m.u m.u m.u) (fs fs' : Nat → K) (n g : Nat) (s s' : MocState K)
    (hs : PlanesAt m s) (hs' : PlanesAt m s') :
    ∃ t t', groupLoop p (mocSweeper p m) fs n g s = some t ∧ groupLoop p (mocSweeper p m) fs' n g s' = some t' ∧ PlanesAt m t ∧ PlanesAt m t' ∧
      groupLoop p (mocSweeper p m) (α • fs + β • fs') n g (mocLin α β s s') = some (mocLin α β t t') := by
  induction n generalizing g s s' with
  | zero => exact ⟨s, s', rfl, rfl, hs, hs', rfl⟩
  | succ n ih =>
    obtain ⟨a, a', h1, h2, h3⟩ := assemble_lin α β p.ng p.nReg p.rs fs fs' s.flux s'.flux g
    obtain ⟨h4, h5, h6⟩ := C111_sweep α β p m m.u m.u m.u hu g a a' s s' hs hs'
    obtain ⟨t, t', i1, i2, i3, i4, i5⟩ := ih (g + 1) _ _ h5 h6
    refine ⟨t, t', ?_, ?_, i3, i4, ?_⟩
    · simp only [groupLoop]
      rw [show (mocSweeper p m).flux s = s.flux from rfl, h1]
      exact i1
    · simp only [groupLoop]
      rw [show (mocSweeper p m).flux s' = s'.flux from rfl, h2]
      exact i2
    · simp only [groupLoop]
      rw [show (mocSweeper p m).flux (mocLin α β s s') = α • s.flux + β • s'.flux from rfl, h3]
      exact (congrArg _ h4).trans i5

/-- Multiple of a state. -/
def mocScale (c : K) (s : MocState K) : MocState K := ⟨c • s.flux, c • s.q, fun g => (s.bin g).map (c • ·), s.bout.map (c • ·)⟩

theorem listLin_self (α β : K) (l : List (Nat → Nat → K)) : listLin α β l l = l.map ((α + β) • ·) := by
  unfold listLin
  induction l with
  | nil => rfl
  | cons b l ih => simp only [List.zipWith_cons_cons, ih, List.map_cons, add_smul]

theorem mocLin_self (c : K) (s : MocState K) : mocLin c 0 s s = mocScale c s := by
  unfold mocLin mocScale
  simp only [listLin_self, add_zero, zero_smul]

/-- C111, scaling: the eigenvalue iteration does not depend on the magnitude of the flux.  From a multiple of a state, all outer iterations give the same
eigenvalues and the multiple of the states. -/
theorem C111_scale (c : K) (hc : c ≠ 0) (p : Problem K) (m : MocSetup K) (hu : Combines c 0 m.u m.u m.u) (N : Nat) (k : K) (s : MocState K) (hs : PlanesAt m s) :
    ∃ k' t, outers p (mocSweeper p m) N k s = some (k', t) ∧ PlanesAt m t ∧ outers p (mocSweeper p m) N k (mocScale c s) = some (k', mocScale c t) := by
  induction N generalizing k s with
  | zero => exact ⟨k, s, rfl, hs, rfl⟩
  | succ N ih =>
    have hfs : calcFissionSource p.ng p.rs k (mocScale c s).flux =
        c • calcFissionSource p.ng p.rs k s.flux + (0 : K) • calcFissionSource p.ng p.rs k s.flux := by
      rw [← calc_lin]
      congr 1
      simp [mocScale]
    obtain ⟨t, t', h1, h2, h3, -, h5⟩ := C111_step c 0 p m hu (calcFissionSource p.ng p.rs k s.flux) (calcFissionSource p.ng p.rs k s.flux) p.ng 0 s s hs hs
    rw [h1] at h2
    injection h2 with h2
    subst h2
    rw [mocLin_self, mocLin_self, ← hfs] at h5
    have htot : ∀ t : MocState K, totalFission p.ng p.rs p.vol (mocScale c t).flux = c * totalFission p.ng p.rs p.vol t.flux := by
      intro t
      have := total_lin c 0 p.ng p.rs p.vol t.flux t.flux
      rw [zero_mul, add_zero] at this
      rw [← this]
      congr 1
      simp [mocScale]
    have e1 : outer p (mocSweeper p m) k s =
        some (k * totalFission p.ng p.rs p.vol t.flux / totalFission p.ng p.rs p.vol s.flux, t) := by
      simp only [outer]
      rw [show (mocSweeper p m).flux s = s.flux from rfl, h1]
      rfl
    have e2 : outer p (mocSweeper p m) k (mocScale c s) =
        some (k * totalFission p.ng p.rs p.vol t.flux / totalFission p.ng p.rs p.vol s.flux, mocScale c t) := by
      simp only [outer]
      rw [show (mocSweeper p m).flux (mocScale c s) = (mocScale c s).flux from rfl, h5, Option.map_some,
        show (mocSweeper p m).flux (mocScale c t) = (mocScale c t).flux from rfl, htot, htot, mul_left_comm, mul_div_mul_left _ _ hc]
    obtain ⟨k', t', i1, i2, i3⟩ := ih (k * totalFission p.ng p.rs p.vol t.flux / totalFission p.ng p.rs p.vol s.flux) t h3
    exact ⟨k', t', by simp only [outers, e1]; exact i1, i2, by simp only [outers, e2]; exact i3⟩

/-! ### The boundary condition -/

/-- Where a value comes from in an update. -/
inductive Route
  | keep
  | zero
  | copy (q : Nat)

def Route.get (r : Route) (d o : Nat → K) (p : Nat) : K :=
  match r with
  | .keep => d p
  | .zero => 0
  | .copy q => o q

/-- An update that does the same with all values. -/
inductive Routed (sh : BC.Store K) (f : (Nat → K) → (Nat → K) → BC.Outcome (BC.Store K)) : Prop
  | ok (r : Nat → Route) (h : ∀ d o, f d o = .ok { sh with data := fun p => (r p).get d o p })
  | throws (h : ∀ d o, f d o = .throws)
  | ub (h : ∀ d o, f d o = .ub)

theorem routed_after (sh : BC.Store K) (f : (Nat → K) → (Nat → K) → BC.Outcome (BC.Store K)) (hf : Routed sh f) (r : Nat → Route) :
    Routed sh fun d o => f (fun p => (r p).get d o p) o := by
  cases hf with
  | ok r' h =>
    refine .ok (fun p => match r' p with | .keep => r p | .zero => .zero | .copy q => .copy q) fun d o => ?_
    rw [h]
    congr 2
    funext p
    cases r' p <;> rfl
  | throws h => exact .throws fun d o => h _ o
  | ub h => exact .ub fun d o => h _ o

theorem normals_routed (g a : Nat) (sh out : BC.Store K) (ns : List Quad.Normal) :
    Routed sh fun d o => BC.updateNormals g a { out with data := o } ns { sh with data := d } := by
  induction ns with
  | nil => exact .ok (fun _ => .keep) fun d o => rfl
  | cons n ns ih =>
    simp only [BC.updateNormals]
    cases h1 : sh.size[a]? with
    | none => exact .ub fun _ _ => rfl
    | some sz =>
      cases h2 : Quad.reflect sh.ndirOct a n with
      | none => exact .ub fun _ _ => rfl
      | some iin =>
        dsimp only
        by_cases h3 : sz.get n = 0
        · simp only [if_pos h3]
          exact .ok (fun _ => .keep) fun d o => rfl
        · simp only [if_neg h3]
          cases h4 : sh.angles[iin]? with
          | none => exact .ub fun _ _ => rfl
          | some ain =>
            cases h5 : BC.offset sh.size iin n with
            | none => exact .ub fun _ _ => rfl
            | some oin =>
              cases h6 : BC.offset out.size a n with
              | none => exact .ub fun _ _ => rfl
              | some oout =>
                cases h7 : out.size[iin]? with
                | none => exact .ub fun _ _ => rfl
                | some so =>
                  dsimp only
                  by_cases h8 : sz.get n ≠ so.get n
                  · simp only [if_pos h8]
                    exact .ub fun _ _ => rfl
                  · simp only [if_neg h8]
                    cases h9 : sh.types (Quad.upwindSurface ain n) with
                    | VACUUM =>
                      convert routed_after sh _ ih (fun p => if BC.perGroup sh.size * g + oin ≤ p ∧ p < BC.perGroup sh.size * g + oin + sz.get n then .zero else .keep) using 3
                      simp only [BC.Store.put]
                      congr 2
                      funext p
                      unfold BC.write
                      split_ifs <;> rfl
                    | REFLECT =>
                      convert routed_after sh _ ih (fun p => if BC.perGroup sh.size * g + oin ≤ p ∧ p < BC.perGroup sh.size * g + oin + sz.get n
                        then .copy (oout + (p - (BC.perGroup sh.size * g + oin))) else .keep) using 3
                      simp only [BC.Store.put]
                      congr 2
                      funext p
                      unfold BC.write
                      split_ifs <;> rfl
                    | PRESCRIBED => exact ih
                    | PERIODIC => exact .throws fun _ _ => rfl
                    | PARALLEL => exact .throws fun _ _ => rfl
                    | INVALID => exact .throws fun _ _ => rfl

theorem angles_routed (g : Nat) (sh out : BC.Store K) (as : List Nat) :
    Routed sh fun d o => BC.updateAngles g { out with data := o } as { sh with data := d } := by
  induction as with
  | nil => exact .ok (fun _ => .keep) fun d o => rfl
  | cons a as ih =>
    simp only [BC.updateAngles, BC.updateAngle]
    cases normals_routed g a sh out [.X, .Y, .Z] with
    | ok r h =>
      simp only [h]
      exact routed_after sh _ ih r
    | throws h => simp only [h]; exact .throws fun _ _ => rfl
    | ub h => simp only [h]; exact .ub fun _ _ => rfl

/-- C111: the update of the boundary condition does the same with all values: every value is kept, zero or the copy of an outgoing value, whatever the
values are. -/
theorem C111_update_routed (g : Nat) (sh out : BC.Store K) :
    (∀ a, Routed sh fun d o => BC.updateAngle g a { out with data := o } { sh with data := d }) ∧
      Routed sh fun d o => BC.update g { out with data := o } { sh with data := d } := by
  refine ⟨fun a => normals_routed g a sh out _, ?_⟩
  unfold BC.update
  by_cases h : out.nGroup = 1
  · simp only [if_pos h]
    exact angles_routed g sh out _
  · simp only [if_neg h]
    exact .ub fun _ _ => rfl

theorem load_lin (α β : K) (sh : BC.Store K) (f f' : Nat → Quad.Normal → Nat → K) :
    (load sh (α • f + β • f')).data = α • (load sh f).data + β • (load sh f').data := by
  funext p
  simp only [load, Pi.add_apply, Pi.smul_apply, smul_eq_mul]
  split <;> simp

theorem get_lin (α β : K) (r : Route) (d d' o o' : Nat → K) (p : Nat) : r.get (α • d + β • d') (α • o + β • o') p = α * r.get d o p + β * r.get d' o' p := by
  cases r <;> simp [Route.get]

theorem store_lin (α β : K) (sh : BC.Store K) (b b' o o' : Nat → Quad.Normal → Nat → K) :
    (∀ a, storeOne sh a (α • b + β • b') (α • o + β • o') = α • storeOne sh a b o + β • storeOne sh a b' o') ∧
      storeAll sh (α • b + β • b') (α • o + β • o') = α • storeAll sh b o + β • storeAll sh b' o' := by
  obtain ⟨h1, h2⟩ := C111_update_routed 0 { sh with nGroup := 1 } { sh with nGroup := 1 }
  constructor
  · intro a
    have e : ∀ b o, storeOne sh a b o = match BC.updateAngle 0 a { sh with nGroup := 1, data := (load sh o).data } { sh with nGroup := 1, data := (load sh b).data } with
      | .ok b' => view b'
      | _ => b := fun b o => rfl
    rw [e, e, e]
    cases h1 a with
    | ok r h =>
      simp only [h, load_lin]
      funext a n e
      simp only [view, faceStart, get_lin, Pi.add_apply, Pi.smul_apply, smul_eq_mul]
    | throws h => simp only [h]
    | ub h => simp only [h]
  · have e : ∀ b o, storeAll sh b o = match BC.update 0 { sh with nGroup := 1, data := (load sh o).data } { sh with nGroup := 1, data := (load sh b).data } with
      | .ok b' => view b'
      | _ => b := fun b o => rfl
    rw [e, e, e]
    cases h2 with
    | ok r h =>
      simp only [h, load_lin]
      funext a n e
      simp only [view, faceStart, get_lin, Pi.add_apply, Pi.smul_apply, smul_eq_mul]
    | throws h => simp only [h]
    | ub h => simp only [h]

/-- C111: the update of the boundary condition as MoC uses it. -/
theorem C111_update_moc (α β : K) (sh : BC.Store K) : Combines α β (mocUpdate sh) (mocUpdate sh) (mocUpdate sh) := by
  constructor
  · intro a b b' o o'
    funext x j
    exact congrFun (congrFun (congrFun ((store_lin α β sh (fun a n e => b a (slotOf sh a n e)) (fun a n e => b' a (slotOf sh a n e))
      (fun a n e => o a (slotOf sh a n e)) (fun a n e => o' a (slotOf sh a n e))).1 a) x) _) _
  · intro b b' o o'
    funext x j
    exact congrFun (congrFun (congrFun ((store_lin α β sh (fun a n e => b a (slotOf sh a n e)) (fun a n e => b' a (slotOf sh a n e))
      (fun a n e => o a (slotOf sh a n e)) (fun a n e => o' a (slotOf sh a n e))).2) x) _) _

end

end Verif.Medium
