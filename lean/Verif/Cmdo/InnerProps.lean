import Verif.Cmdo.InnerModel
import Verif.Cmdo.ReproProps
import Verif.XS.HomogProps
import Mathlib.Algebra.Order.Field.Basic
import Mathlib.Algebra.Order.Field.Rat
import Mathlib.Tactic.Ring
import Mathlib.Tactic.FieldSimp
import Mathlib.Tactic.NormNum
import Mathlib.Tactic.Linarith
import Mathlib.Tactic.Positivity

/-!
# C147: inner iterations and correction factors of the MoC part of the 2D3D sweeper
-/

namespace Verif.Cmdo

set_option linter.unusedSectionVars false

variable {K : Type} [Field K] [LinearOrder K] [IsStrictOrderedRing K] {S : Type}

/-- **C147, exception.** -/
theorem C147_throws (G : FacGeo K) (o : InnerOps S K) (n g : Nat) (t : InnerSt S K) : sweep2d3d G o false n g t = none := rfl

/-- The state at which the last inner iteration sweeps: after the iterations before it, with the self-scatter of their flux. -/
def lastStart (o : InnerOps S K) (n g : Nat) (s : S) : S := o.scatter g (plainSweep o (n - 1) g s)

theorem plainSweep_succ (o : InnerOps S K) (n g : Nat) (s : S) :
    plainSweep o (n + 1) g s = o.sweep1g g (o.scatter g (plainSweep o n g s)) := by
  simp [plainSweep, List.range_succ]

/-- The iterations before the last: nothing but MoC sweeps. -/
theorem inner_before (G : FacGeo K) (o : InnerOps S K) (g n : Nat) (t : InnerSt S K) (m : Nat) (hm : m < n) :
    (List.range m).foldl (fun t i => innerStep G o g (i + 1 == n) t) t =
      { t with s := plainSweep o m g t.s, nInner := t.nInner + m, log := t.log ++ (List.replicate m [InnerEv.scatter, .sweep false]).flatten } := by
  induction m with
  | zero => simp [plainSweep]
  | succ m ih =>
    rw [List.range_succ, List.foldl_append, ih (by omega)]
    have h : (m + 1 == n) = false := by simp; omega
    simp only [List.foldl_cons, List.foldl_nil, h, innerStep, Bool.false_eq_true, if_false, plainSweep_succ, List.replicate_succ',
      List.flatten_append, List.append_assoc, Nat.add_assoc]
    simp

/-- **C147, no inner iterations.**  Nothing but the number of sweeps changes. -/
theorem C147_zero (G : FacGeo K) (o : InnerOps S K) (g : Nat) (t : InnerSt S K) :
    sweep2d3d G o true 0 g t = some { t with nSweep := t.nSweep + 1 } := rfl

/-- A sweep with inner iterations, in full. -/
theorem sweep_eq (G : FacGeo K) (o : InnerOps S K) (m g : Nat) (t : InnerSt S K) :
    sweep2d3d G o true (m + 1) g t =
      let s := lastStart o (m + 1) g t.s
      let xs := fun c => snXs G.ng (o.flux s) g (G.pin c)
      let r := storeAll G (newFac G xs (o.sums g s)) (t.fac g)
      some { s := plainSweep o (m + 1) g t.s, xs := xs, fac := Function.update t.fac g r.1, resid := Function.update t.resid g (t.resid g ++ [r.2])
             nSweep := t.nSweep + 1, nInner := t.nInner + (m + 1)
             log := t.log ++ (List.replicate m [InnerEv.scatter, .sweep false]).flatten ++ [.scatter, .zero, .update, .sweep true, .mark] } := by
  simp only [sweep2d3d, Bool.not_true, Bool.false_eq_true, if_false]
  rw [List.range_succ, List.foldl_append, inner_before G o g (m + 1) _ m (by omega)]
  simp [innerStep, lastStart, plainSweep_succ, Nat.add_assoc]

/-- **C147, fluxes.**  The state of the MoC sweeper is that after a sweep of the plain MoC sweeper with the same number of inner iterations. -/
theorem C147_plain (G : FacGeo K) (o : InnerOps S K) (n g : Nat) (t : InnerSt S K) :
    ∃ t', sweep2d3d G o true n g t = some t' ∧ t'.s = plainSweep o n g t.s ∧ t'.nSweep = t.nSweep + 1 ∧ t'.nInner = t.nInner + n := by
  cases n with
  | zero => exact ⟨_, rfl, rfl, rfl, rfl⟩
  | succ m => exact ⟨_, sweep_eq G o m g t, rfl, rfl, rfl⟩

/-- **C147, order.**  The currents are wiped, the cross sections homogenised and the factors collected in the last inner iteration only, in this order
and before its sweep, after the self-scatter. -/
theorem C147_order (G : FacGeo K) (o : InnerOps S K) (n g : Nat) (hn : 0 < n) (t : InnerSt S K) :
    (sweep2d3d G o true n g t).map InnerSt.log =
      some (t.log ++ (List.replicate (n - 1) [InnerEv.scatter, .sweep false]).flatten ++ [.scatter, .zero, .update, .sweep true, .mark]) := by
  obtain ⟨m, rfl⟩ : ∃ m, n = m + 1 := ⟨n - 1, by omega⟩
  rw [sweep_eq]; rfl

/-! ## Storing the factors -/

theorem store_fac (v : Nat → Nat → Fac K) (l : List (Nat × Nat)) (x : (Nat → Nat → Fac K) × (K × K × K)) (a c : Nat) :
    (l.foldl (storeFac v) x).1 a c = if (a, c) ∈ l then v a c else x.1 a c := by
  induction l generalizing x with
  | nil => simp
  | cons w l ih =>
    rw [List.foldl_cons, ih]
    by_cases h : (a, c) ∈ l
    · simp [h]
    · by_cases hw : (a, c) = w
      · subst hw; simp [h, storeFac, setFac]
      · have : ¬ (a = w.1 ∧ c = w.2) := fun e => hw (Prod.ext e.1 e.2)
        simp [h, hw, storeFac, setFac, this]

theorem store_resid (v : Nat → Nat → Fac K) (l : List (Nat × Nat)) (hl : l.Nodup) (x : (Nat → Nat → Fac K) × (K × K × K)) :
    (l.foldl (storeFac v) x).2 =
      (x.2.1 + (l.map fun w => ((v w.1 w.2).ax - (x.1 w.1 w.2).ax) ^ 2).sum,
       x.2.2.1 + (l.map fun w => ((v w.1 w.2).ay - (x.1 w.1 w.2).ay) ^ 2).sum,
       x.2.2.2 + (l.map fun w => ((v w.1 w.2).b - (x.1 w.1 w.2).b) ^ 2).sum) := by
  induction l generalizing x with
  | nil => simp
  | cons w l ih =>
    obtain ⟨h1, h2⟩ := List.nodup_cons.1 hl
    have hne : ∀ w' ∈ l, (storeFac v x w).1 w'.1 w'.2 = x.1 w'.1 w'.2 := by
      intro w' hw'
      have : ¬ (w'.1 = w.1 ∧ w'.2 = w.2) := fun e => h1 (by rw [← Prod.ext e.1 e.2]; exact hw')
      simp [storeFac, setFac, this]
    have hs : ∀ p : Fac K → K, (l.map fun w' => (p (v w'.1 w'.2) - p ((storeFac v x w).1 w'.1 w'.2)) ^ 2).sum =
        (l.map fun w' => (p (v w'.1 w'.2) - p (x.1 w'.1 w'.2)) ^ 2).sum := by
      intro p
      rw [List.map_congr_left fun w' h => by rw [hne w' h]]
    rw [List.foldl_cons, ih h2, hs Fac.ax, hs Fac.ay, hs Fac.b]
    simp only [storeFac, List.map_cons, List.sum_cons]
    refine Prod.ext ?_ (Prod.ext ?_ ?_) <;> simp only <;> ring

theorem sum_sq_zero (l : List (Nat × Nat)) (f : Nat × Nat → K) : (l.map fun w => f w ^ 2).sum = 0 ↔ ∀ w ∈ l, f w = 0 := by
  induction l with
  | nil => simp
  | cons w l ih =>
    have h0 : 0 ≤ (l.map fun w => f w ^ 2).sum := List.sum_nonneg (by simp only [List.mem_map]; rintro _ ⟨w, _, rfl⟩; exact sq_nonneg _)
    have h1 : 0 ≤ f w ^ 2 := sq_nonneg _
    rw [List.map_cons, List.sum_cons, List.forall_mem_cons, ← ih]
    constructor
    · intro h; exact ⟨pow_eq_zero_iff (two_ne_zero) |>.1 (by linarith), by linarith⟩
    · rintro ⟨a, b⟩; rw [a, b]; ring

/-- **C147, factors.**  A sweep with inner iterations replaces the factors of the group in the directions and pins that the worker visits by those of the
state before the last sweep, with cross sections homogenised with the flux of that state; all others stay. -/
theorem C147_factors (G : FacGeo K) (o : InnerOps S K) (n g : Nat) (hn : 0 < n) (t t' : InnerSt S K) (h : sweep2d3d G o true n g t = some t')
    (g' a c : Nat) :
    t'.fac g' a c =
      if g' = g ∧ (a, c) ∈ G.visits then
        newFac G (fun c => snXs G.ng (o.flux (lastStart o n g t.s)) g (G.pin c)) (o.sums g (lastStart o n g t.s)) a c
      else t.fac g' a c := by
  obtain ⟨m, rfl⟩ : ∃ m, n = m + 1 := ⟨n - 1, by omega⟩
  rw [sweep_eq] at h
  obtain rfl := Option.some.inj h
  by_cases hg : g' = g
  · subst hg; simp only [Function.update_self, true_and, storeAll, store_fac]
  · simp [hg]

/-- **C147, residuals.**  One triple is recorded for each sweep with inner iterations, of the group only; an entry is zero exactly if none of the factors
has changed. -/
theorem C147_residuals (G : FacGeo K) (hG : G.visits.Nodup) (o : InnerOps S K) (n g : Nat) (hn : 0 < n) (t t' : InnerSt S K)
    (h : sweep2d3d G o true n g t = some t') :
    (∀ g', g' ≠ g → t'.resid g' = t.resid g') ∧
    ∃ r, t'.resid g = t.resid g ++ [r] ∧
      r.1 = (G.visits.map fun w => ((t'.fac g w.1 w.2).ax - (t.fac g w.1 w.2).ax) ^ 2).sum ∧
      r.2.1 = (G.visits.map fun w => ((t'.fac g w.1 w.2).ay - (t.fac g w.1 w.2).ay) ^ 2).sum ∧
      r.2.2 = (G.visits.map fun w => ((t'.fac g w.1 w.2).b - (t.fac g w.1 w.2).b) ^ 2).sum ∧
      (r.1 = 0 ↔ ∀ a c, (t'.fac g a c).ax = (t.fac g a c).ax) ∧
      (r.2.1 = 0 ↔ ∀ a c, (t'.fac g a c).ay = (t.fac g a c).ay) ∧
      (r.2.2 = 0 ↔ ∀ a c, (t'.fac g a c).b = (t.fac g a c).b) := by
  have hf := C147_factors G o n g hn t t' h g
  obtain ⟨m, rfl⟩ : ∃ m, n = m + 1 := ⟨n - 1, by omega⟩
  rw [sweep_eq] at h
  obtain rfl := Option.some.inj h
  dsimp only at hf ⊢
  set v := newFac G (fun c => snXs G.ng (o.flux (lastStart o (m + 1) g t.s)) g (G.pin c)) (o.sums g (lastStart o (m + 1) g t.s)) with hv
  have key : ∀ (p : Fac K → K), (G.visits.map fun w => (p (v w.1 w.2) - p (t.fac g w.1 w.2)) ^ 2).sum =
      (G.visits.map fun w => (p (Function.update t.fac g (storeAll G v (t.fac g)).1 g w.1 w.2) - p (t.fac g w.1 w.2)) ^ 2).sum := by
    intro p
    congr 1
    apply List.map_congr_left
    intro w hw
    rw [hf w.1 w.2, if_pos ⟨rfl, hw⟩]
  have zero : ∀ (p : Fac K → K), (G.visits.map fun w => (p (v w.1 w.2) - p (t.fac g w.1 w.2)) ^ 2).sum = 0 ↔
      ∀ a c, p (Function.update t.fac g (storeAll G v (t.fac g)).1 g a c) = p (t.fac g a c) := by
    intro p
    rw [sum_sq_zero G.visits (fun w => p (v w.1 w.2) - p (t.fac g w.1 w.2))]
    constructor
    · intro hz a c
      rw [hf a c]
      split_ifs with hm
      · exact sub_eq_zero.1 (hz (a, c) hm.2)
      · rfl
    · intro hz w hw
      have := hz w.1 w.2
      rw [hf w.1 w.2, if_pos ⟨rfl, hw⟩] at this
      exact sub_eq_zero.2 this
  refine ⟨fun g' hg => by rw [Function.update_of_ne hg], (storeAll G v (t.fac g)).2, by rw [Function.update_self], ?_⟩
  have hr := store_resid v G.visits hG (t.fac g, 0, 0, 0)
  simp only [zero_add] at hr
  simp only [storeAll] at key zero ⊢
  rw [hr]
  exact ⟨key Fac.ax, key Fac.ay, key Fac.b, zero Fac.ax, zero Fac.ay, zero Fac.b⟩

/-! ## Which cross sections the factors belong to -/

/-- The cross section that MoC has in the pin, in the direction: collisions over flux. -/
def dirXs (s : Sums K) : K := s.sigt / s.vol

/-- Flux integral of a pin in the group. -/
def pinFluxInt (flux : Nat → Nat → K) (g : Nat) (p : HomPin K) : K := XS.fluxIntegral p.mats p.area (fun i h => flux (p.first + i) h) g

theorem snXs_mul (ng : Nat) (flux : Nat → Nat → K) (g : Nat) (p : HomPin K) (h : pinFluxInt flux g p ≠ 0) :
    snXs ng flux g p * pinFluxInt flux g p = XS.rate p.mats p.area (fun i h => flux (p.first + i) h) (·.tr g) g :=
  (XS.C26_rates ng p.mats p.area (fun i h => flux (p.first + i) h) g h).1

/-- **C147, cross sections (partial: pins whose flux did not change in the last inner iteration, up to a factor, or whose regions have the same cross
section).**  The factor times the cross section of the Sn sweep that follows is the cross section of MoC in the direction. -/
theorem C147_beta_partial (G : FacGeo K) (o : InnerOps S K) (n g : Nat) (hn : 0 < n) (t t' : InnerSt S K) (h : sweep2d3d G o true n g t = some t')
    (a c : Nat) (hv : (a, c) ∈ G.visits)
    (h0 : pinFluxInt (o.flux (lastStart o n g t.s)) g (G.pin c) ≠ 0) (h1 : pinFluxInt (o.flux t'.s) g (G.pin c) ≠ 0)
    (hx : snXs G.ng (o.flux (lastStart o n g t.s)) g (G.pin c) ≠ 0)
    (hp : (∃ x, ∀ i < XS.nRegions (G.pin c).mats, (XS.mat (G.pin c).mats i).tr g = x) ∨
      ∃ k, ∀ i < XS.nRegions (G.pin c).mats,
        o.flux t'.s ((G.pin c).first + i) g = k * o.flux (lastStart o n g t.s) ((G.pin c).first + i) g) :
    (t'.fac g a c).b * nextXs G o g t' c = dirXs (o.sums g (lastStart o n g t.s) a c) := by
  have hf := C147_factors G o n g hn t t' h g a c
  rw [if_pos ⟨rfl, hv⟩] at hf
  have e0 := snXs_mul G.ng _ g _ h0
  have e1 := snXs_mul G.ng _ g _ h1
  have same : nextXs G o g t' c = snXs G.ng (o.flux (lastStart o n g t.s)) g (G.pin c) := by
    unfold nextXs
    rcases hp with ⟨x, hx⟩ | ⟨k, hk⟩
    · have r : ∀ flux : Nat → Nat → K, XS.rate (G.pin c).mats (G.pin c).area (fun i h => flux ((G.pin c).first + i) h) (·.tr g) g =
          x * pinFluxInt flux g (G.pin c) := by
        intro flux
        simp only [XS.rate, pinFluxInt, XS.fluxIntegral, Finset.mul_sum]
        refine Finset.sum_congr rfl fun i hi => ?_
        rw [hx i (Finset.mem_range.1 hi)]; ring
      rw [r] at e0 e1
      rw [mul_right_cancel₀ h0 e0, mul_right_cancel₀ h1 e1]
    · have i1 : pinFluxInt (o.flux t'.s) g (G.pin c) = k * pinFluxInt (o.flux (lastStart o n g t.s)) g (G.pin c) := by
        simp only [pinFluxInt, XS.fluxIntegral, Finset.mul_sum]
        refine Finset.sum_congr rfl fun i hi => ?_
        rw [hk i (Finset.mem_range.1 hi)]; ring
      have r1 : XS.rate (G.pin c).mats (G.pin c).area (fun i h => o.flux t'.s ((G.pin c).first + i) h) (·.tr g) g =
          k * XS.rate (G.pin c).mats (G.pin c).area (fun i h => o.flux (lastStart o n g t.s) ((G.pin c).first + i) h) (·.tr g) g := by
        simp only [XS.rate, Finset.mul_sum]
        refine Finset.sum_congr rfl fun i hi => ?_
        rw [hk i (Finset.mem_range.1 hi)]; ring
      rw [r1, ← e0, i1] at e1
      have hk0 : k ≠ 0 := by rintro rfl; exact h1 (by rw [i1]; ring)
      exact mul_right_cancel₀ (mul_ne_zero hk0 h0) (by rw [e1]; ring)
  rw [hf, same]
  simp only [newFac, beta, dirXs]
  exact div_mul_cancel₀ _ hx

/-- The same without any condition on the fluxes: the cross section that is met is the one of MoC times the ratio of the homogenised cross sections. -/
theorem C147_beta_ratio (G : FacGeo K) (o : InnerOps S K) (n g : Nat) (hn : 0 < n) (t t' : InnerSt S K) (h : sweep2d3d G o true n g t = some t')
    (a c : Nat) (hv : (a, c) ∈ G.visits) :
    (t'.fac g a c).b * nextXs G o g t' c =
      dirXs (o.sums g (lastStart o n g t.s) a c) * (nextXs G o g t' c / snXs G.ng (o.flux (lastStart o n g t.s)) g (G.pin c)) := by
  have hf := C147_factors G o n g hn t t' h g a c
  rw [if_pos ⟨rfl, hv⟩] at hf
  rw [hf]
  simp only [newFac, beta, dirXs]
  ring

/-- **C147, surface factors.**  The factor of a visited direction and pin times the sum of the two face averages, made with the ray spacing of that direction and
the size of that pin, is the average flux in the pin. -/
theorem C147_alpha (G : FacGeo K) (o : InnerOps S K) (n g : Nat) (hn : 0 < n) (t t' : InnerSt S K) (h : sweep2d3d G o true n g t = some t')
    (a c : Nat) (hv : (a, c) ∈ G.visits) :
    let s := o.sums g (lastStart o n g t.s) a c
    (s.xl * (G.areaX a / G.dx c) + s.xr * (G.areaX a / G.dx c) ≠ 0 →
      (t'.fac g a c).ax * (s.xl * (G.areaX a / G.dx c) + s.xr * (G.areaX a / G.dx c)) = s.vol / s.norm) ∧
    (s.yl * (G.areaY a / G.dy c) + s.yr * (G.areaY a / G.dy c) ≠ 0 →
      (t'.fac g a c).ay * (s.yl * (G.areaY a / G.dy c) + s.yr * (G.areaY a / G.dy c)) = s.vol / s.norm) := by
  intro s
  have hf := C147_factors G o n g hn t t' h g a c
  rw [if_pos ⟨rfl, hv⟩] at hf
  rw [hf]
  simp only [newFac, alphaX, alphaY, psiX, psiY]
  exact ⟨fun hx => div_mul_cancel₀ _ hx, fun hy => div_mul_cancel₀ _ hy⟩

/-- The MoC sweep used in the refutation makes its source from the external one and the self-scatter of the current flux. -/
theorem C147_plane_source (P : PlaneMoc K) (g : Nat) (s : PlaneState K) (r : Nat) (h : P.sig r * P.fpi ≠ 0) :
    (P.ops.scatter g s).q r * (P.sig r * P.fpi) = P.ext r + P.ss r * s.phi r ∧ (P.ops.scatter g s).phi = s.phi :=
  ⟨div_mul_cancel₀ _ h, rfl⟩

/-- A plane problem as it should be: positive data, tracks corrected to the areas, positive fluxes in every segment sum, the pins made of the regions. -/
structure PlaneMocOk (P : PlaneMoc K) (N : Nat) (G : FacGeo K) : Prop where
  fpi : 0 < P.fpi
  height : 0 < P.height
  sig : ∀ r < N, 0 < P.sig r
  area : ∀ r < N, 0 < P.area r
  ss : ∀ r < N, 0 ≤ P.ss r ∧ P.ss r < P.sig r
  ext : ∀ r < N, 0 ≤ P.ext r
  weights : (P.dirs.map fun d => d.wgt).sum = P.fpi
  tracks : ∀ d ∈ P.dirs, ∀ r < N, labelSum (· == r) (allLens d.beams) * d.tube = P.area r
  segs : ∀ d ∈ P.dirs, ∀ b ∈ d.beams, 0 ≤ b.psi ∧ ∀ c ∈ b.path, ∀ s ∈ c.segs,
    s.1 < N ∧ s.2.xstr = P.sig s.1 ∧ s.2.xtrue = P.sig s.1 ∧ 0 < s.2.t ∧ 0 < s.2.e ∧ s.2.e < 1
  pins : ∀ c, ∀ i < XS.nRegions (G.pin c).mats, (G.pin c).first + i < N ∧
    (XS.mat (G.pin c).mats i).tr 0 = P.sig ((G.pin c).first + i) ∧ (G.pin c).area i = P.area ((G.pin c).first + i)
  visits : ∀ w ∈ G.visits, w.1 < P.dirs.length ∧ 0 < XS.nRegions (G.pin w.2).mats

/-- The claim for all pins and fluxes, and any number of inner iterations except none (`C147_zero`). -/
def C147_claim (K : Type) [Field K] [LinearOrder K] [IsStrictOrderedRing K] : Prop :=
  ∀ (P : PlaneMoc K) (N : Nat) (G : FacGeo K), PlaneMocOk P N G → ∀ (n : Nat), 0 < n → ∀ (t t' : InnerSt (PlaneState K) K),
    (∀ r < N, 0 < t.s.phi r) → sweep2d3d G P.ops true n 0 t = some t' → ∀ a c, (a, c) ∈ G.visits →
    (t'.fac 0 a c).b * nextXs G P.ops 0 t' c = dirXs (P.ops.sums 0 (lastStart P.ops n 0 t.s) a c)

/-! ## Examples -/

/-- A material with a transport cross section only. -/
def trMat (x : ℚ) : XS.Mat ℚ := ⟨fun _ => x, fun _ => 0, fun _ => 0, fun _ => 0, fun _ _ => 0⟩

/-- One pin of two regions with cross sections `a` and `b`, crossed by one beam. -/
def exPin (a b : ℚ) : PlaneMoc ℚ :=
  ⟨1, 1, fun r => if r = 0 then a else b, fun _ => 1, fun r => if r = 0 then 1/2 else 0, fun r => if r = 0 then 0 else 1,
    [⟨false, false, 1/2, 1/2, 1, 1/2, 1, 1, [⟨0, [⟨0, 0, true, true, [(0, ⟨2, a, a, 0, 1/2⟩), (1, ⟨2, b, b, 0, 3/4⟩)]⟩]⟩]⟩]⟩

def exPinGeo (a b : ℚ) : FacGeo ℚ :=
  ⟨1, fun _ => ⟨0, [(trMat a, 1), (trMat b, 1)], fun _ => 1⟩, fun _ => 1, fun _ => 1, fun _ => 1, fun _ => 1, [(0, 0)]⟩

def exInner : InnerSt (PlaneState ℚ) ℚ := ⟨⟨fun _ => 1, fun _ => 0⟩, fun _ => 0, fun _ _ _ => ⟨1/2, 1/2, 1⟩, fun _ => [], 0, 0, []⟩

theorem exPin_ok (a b : ℚ) (ha : 1 ≤ a) (hb : 0 < b) : PlaneMocOk (exPin a b) 2 (exPinGeo a b) where
  fpi := by norm_num [exPin]
  height := by norm_num [exPin]
  sig r _ := by simp only [exPin]; split_ifs <;> linarith
  area r _ := by simp [exPin]
  ss r _ := by simp only [exPin]; split_ifs <;> constructor <;> linarith
  ext r _ := by simp only [exPin]; split_ifs <;> norm_num
  weights := by simp [exPin]
  tracks d hd r hr := by
    simp only [exPin, List.mem_singleton] at hd
    subst hd
    obtain rfl | rfl : r = 0 ∨ r = 1 := by omega
    all_goals norm_num [allLens, labelSum, exPin]
  segs d hd b' hb' := by
    simp only [exPin, List.mem_singleton] at hd
    subst hd
    simp only [List.mem_singleton] at hb'
    subst hb'
    refine ⟨le_refl _, ?_⟩
    intro c hc s hs
    simp only [List.mem_singleton] at hc
    subst hc
    simp only [List.mem_cons, List.not_mem_nil, or_false] at hs
    rcases hs with rfl | rfl <;> norm_num [exPin]
  pins c i hi := by
    have hi' : i < 2 := by simpa [exPinGeo, XS.nRegions] using hi
    obtain rfl | rfl : i = 0 ∨ i = 1 := by omega
    all_goals simp [exPinGeo, exPin, XS.mat, XS.matAt, trMat]
  visits w hw := by
    simp only [exPinGeo, List.mem_singleton] at hw
    subst hw
    simp [exPin, exPinGeo, XS.nRegions]

/-- Two regions with different cross sections: after one inner iteration the factor and the cross section of the Sn sweep do not belong together. -/
theorem C147_claim_false : ¬ C147_claim ℚ := by
  intro h
  have key := h (exPin 1 2) 2 (exPinGeo 1 2) (exPin_ok 1 2 (by norm_num) (by norm_num)) 1 Nat.one_pos exInner _ (fun r _ => by simp [exInner]) rfl 0 0
    (by simp [exPinGeo])
  revert key
  decide +kernel

/-- Without inner iterations there are no factors at all. -/
example : ∃ t', sweep2d3d (exPinGeo 1 1) (exPin 1 1).ops true 0 0 exInner = some t' ∧
    (t'.fac 0 0 0).b * nextXs (exPinGeo 1 1) (exPin 1 1).ops 0 t' 0 = 1 ∧ t'.resid 0 = [] ∧ t'.log = [] :=
  ⟨_, rfl, by decide +kernel, rfl, rfl⟩

/-- Equal cross sections: the hypotheses of `C147_beta_partial` hold after two inner iterations. -/
example : ∃ t', sweep2d3d (exPinGeo 2 2) (exPin 2 2).ops true 2 0 exInner = some t' ∧
    (t'.fac 0 0 0).b * nextXs (exPinGeo 2 2) (exPin 2 2).ops 0 t' 0 = 2 ∧ (t'.resid 0).length = 1 ∧
    t'.log = [.scatter, .sweep false, .scatter, .zero, .update, .sweep true, .mark] ∧ (t'.fac 0 0 0).ax ≠ 1/2 :=
  ⟨_, rfl, by decide +kernel, by decide +kernel, rfl, by decide +kernel⟩

example : (exPinGeo 2 2).visits.Nodup ∧ ((0, 0) : Nat × Nat) ∈ (exPinGeo 2 2).visits ∧
    pinFluxInt ((exPin 2 2).ops.flux (lastStart (exPin 2 2).ops 2 0 exInner.s)) 0 ((exPinGeo 2 2).pin 0) ≠ 0 ∧
    pinFluxInt ((exPin 2 2).ops.flux (plainSweep (exPin 2 2).ops 2 0 exInner.s)) 0 ((exPinGeo 2 2).pin 0) ≠ 0 ∧
    snXs 1 ((exPin 2 2).ops.flux (lastStart (exPin 2 2).ops 2 0 exInner.s)) 0 ((exPinGeo 2 2).pin 0) ≠ 0 := by
  decide +kernel

end Verif.Cmdo
