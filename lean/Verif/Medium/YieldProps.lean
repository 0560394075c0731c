import Verif.Medium.CellsProps

/-!
# C163: k is proportional to the yield of fission
-/

set_option linter.unusedSectionVars false

namespace Verif.Medium

open Finset Verif.XS Verif.Source Verif.Scatter

section
variable {K : Type} [Field K] [LinearOrder K] [IsStrictOrderedRing K]

/-- The material with `a` times as many neutrons from each fission and a spectrum multiplied by `b`. -/
def yieldMat (a b : K) (m : Mat K) : Mat K := ⟨m.tr, fun g => a * m.nf g, m.f, fun g => b * m.ch g, m.sc⟩

def yieldProblem (a b : K) (p : Problem K) : Problem K := { p with rs := p.rs.map fun x => ⟨yieldMat a b x.mat, x.regs⟩ }

variable (a b : K) (p : Problem K)

theorem tr_yield (g : Nat) : trOf (yieldProblem a b p).rs g = trOf p.rs g := by
  simp only [trOf, yieldProblem, List.foldl_map]
  rfl

theorem self_yield (fpi : K) (flux : Nat → Nat → K) (g : Nat) (src : Nat → K) (given : Bool) (q : Nat → K) :
    selfScatter fpi (yieldProblem a b p).ng (yieldProblem a b p).rs flux g src given q = selfScatter fpi p.ng p.rs flux g src given q := by
  simp only [selfScatter, yieldProblem, List.foldl_map]
  rfl

theorem in_yield (flux : Nat → Nat → K) (g : Nat) (s : Nat → K) : inScatter (yieldProblem a b p).ng (yieldProblem a b p).rs flux g s = inScatter p.ng p.rs flux g s := by
  simp only [inScatter, yieldProblem, List.foldl_map]
  rfl

/-- C163: the source of a group of fission neutrons is the same when k is multiplied too. -/
theorem C163_source (ha : a ≠ 0) (hb : b ≠ 0) (k : K) (flux : Nat → Nat → K) (g : Nat) (s : Nat → K) :
    fission (yieldProblem a b p).rs (calcFissionSource (yieldProblem a b p).ng (yieldProblem a b p).rs (a * b * k) flux) g s = fission p.rs (calcFissionSource p.ng p.rs k flux) g s := by
  have e1 : calcFissionSource (yieldProblem a b p).ng (yieldProblem a b p).rs (a * b * k) flux = fun i => calcFissionSource p.ng p.rs k flux i / b := by
    have key : ∀ (rs : List (XsRegion (Mat K))) (s : Nat → K), rs.foldl (fun s x => (List.range p.ng).foldl (fun s ig => addTo x.regs (fun i => 1 / (a * b * k) * (a * x.mat.nf ig) * flux i ig) s) s)
        (fun i => s i / b) = fun i => rs.foldl (fun s x => (List.range p.ng).foldl (fun s ig => addTo x.regs (fun i => 1 / k * x.mat.nf ig * flux i ig) s) s) s i / b := by
      intro rs
      induction rs with
      | nil => exact fun s => rfl
      | cons x rs ih =>
        intro s
        rw [List.foldl_cons, List.foldl_cons, ← ih]
        congr 1
        generalize List.range p.ng = l
        induction l generalizing s with
        | nil => rfl
        | cons g l ih2 =>
          rw [List.foldl_cons, List.foldl_cons, ← ih2, ← addTo_unit]
          congr 2
          funext i
          rcases eq_or_ne k 0 with rfl | hk
          · simp
          · field_simp
    have := key p.rs fun _ => 0
    simp only [zero_div] at this
    simp only [calcFissionSource, yieldProblem, List.foldl_map]
    exact this
  rw [e1]
  simp only [fission, yieldProblem, List.foldl_map, yieldMat]
  congr 1
  funext s x
  congr 1
  funext i
  field_simp

/-- C163: production is multiplied. -/
theorem C163_production (flux : Nat → Nat → K) :
    totalFission (yieldProblem a b p).ng (yieldProblem a b p).rs (yieldProblem a b p).vol flux = a * totalFission p.ng p.rs p.vol flux := by
  rw [totalFission_eq, totalFission_eq]
  simp only [yieldProblem, List.map_map, ← List.sum_map_mul_left]
  congr 1
  refine List.map_congr_left fun x _ => ?_
  simp only [Function.comp]
  congr 1
  refine List.map_congr_left fun i _ => ?_
  simp only [yieldMat, mul_sum]
  exact sum_congr rfl fun g _ => by ring

/-- C163: any number of outer iterations, with sweepers that do the same. -/
theorem C163_outers {σ : Type} (ha : a ≠ 0) (hb : b ≠ 0) (v v' : Sweeper K σ) (hf : v'.flux = v.flux) (hv : v'.sweep = v.sweep) (n : Nat) (k : K) (s : σ) :
    outers (yieldProblem a b p) v' n (a * b * k) s = (outers p v n k s).map fun r => (a * b * r.1, r.2) := by
  have loop : ∀ (base base' : Nat → Nat → K), base' = base → ∀ (n g : Nat) (s : σ), srcLoop (yieldProblem a b p) v' base' n g s = srcLoop p v base n g s := by
    rintro base _ rfl n
    induction n with
    | zero => exact fun g s => rfl
    | succ n ih => exact fun g s => by rw [srcLoop, srcLoop, ih, hf, hv, in_yield]
  have one : ∀ k s, outer (yieldProblem a b p) v' (a * b * k) s = (outer p v k s).map fun r => (a * b * r.1, r.2) := by
    intro k s
    rw [outer, outer, groupLoop_eq, groupLoop_eq, Option.map_some, Option.map_some, Option.map_some, hf,
      loop _ _ (funext fun g => C163_source a b p ha hb k (v.flux s) g fun _ => 0), C163_production, C163_production, mul_left_comm, mul_div_mul_left _ _ ha]
    congr 2
    rw [mul_assoc, mul_div_assoc]
    rfl
  induction n generalizing k s with
  | zero => rfl
  | succ n ih =>
    rw [outers, outers, one, Option.map_bind, Option.bind_map]
    congr 1
    funext r
    exact ih r.1 r.2

/-- C163: MoC. -/
theorem C163_moc (ha : a ≠ 0) (hb : b ≠ 0) (m : MocSetup K) (n : Nat) (k : K) (s : MocState K) :
    outers (yieldProblem a b p) (mocSweeper (yieldProblem a b p) m) n (a * b * k) s = (outers p (mocSweeper p m) n k s).map fun r => (a * b * r.1, r.2) := by
  refine C163_outers a b p ha hb (mocSweeper p m) (mocSweeper (yieldProblem a b p) m) rfl ?_ n k s
  funext g src s
  show mocSweep (yieldProblem a b p) m g src s = mocSweep p m g src s
  have one : ∀ s, mocInner (yieldProblem a b p) m g src s = mocInner p m g src s := by
    intro s
    simp only [mocInner, self_yield, tr_yield]
    rfl
  simp only [mocSweep, one]

/-- C163: Sn. -/
theorem C163_sn {κ : Type} (ha : a ≠ 0) (hb : b ≠ 0) (m : SnSetup κ K) (n : Nat) (k : K) (s : SnState κ K) :
    outers (yieldProblem a b p) (snSweeper (yieldProblem a b p) m) n (a * b * k) s = (outers p (snSweeper p m) n k s).map fun r => (a * b * r.1, r.2) := by
  refine C163_outers a b p ha hb (snSweeper p m) (snSweeper (yieldProblem a b p) m) rfl ?_ n k s
  funext g src s
  show snSweep (yieldProblem a b p) m g src s = snSweep p m g src s
  have one : ∀ s, snInner (yieldProblem a b p) m g src s = snInner p m g src s := by
    intro s
    simp only [snInner, self_yield, tr_yield]
  simp only [snSweep, one]

theorem outers_once {σ : Type} (p : Problem K) (v : Sweeper K σ) (k : K) (s : σ) : outers p v 1 k s = outer p v k s := by
  rw [outers]
  cases outer p v k s <;> rfl

/-- C163: divided by k, the yield makes the core critical: an iteration that repeats k, with whatever new state, gives the same new state and repeats 1. -/
theorem C163_critical (m : MocSetup K) (k : K) (hk : k ≠ 0) (s s' : MocState K) (hs : outer p (mocSweeper p m) k s = some (k, s')) :
    outer (yieldProblem (1 / k) 1 p) (mocSweeper (yieldProblem (1 / k) 1 p) m) 1 s = some (1, s') := by
  have h := C163_moc (1 / k) 1 p (one_div_ne_zero hk) one_ne_zero m 1 k s
  have e : 1 / k * 1 * k = 1 := by field_simp
  rw [outers_once, outers_once, e, hs, Option.map_some, e] at h
  exact h

end

/-! ### Examples -/

/-- Three more neutrons for each one, spectrum given in percent. -/
example (gs : Bool) (n : Nat) (k : ℚ) : outers (yieldProblem 4 100 pairProblem) (mocSweeper (yieldProblem 4 100 pairProblem) (alongMoc pairStore.types gs alongPlane 3)) n (4 * 100 * k) brightState =
    (outers pairProblem (mocSweeper pairProblem (alongMoc pairStore.types gs alongPlane 3)) n k brightState).map fun r => (4 * 100 * r.1, r.2) :=
  C163_moc 4 100 pairProblem (by norm_num) (by norm_num) _ n k brightState

/-- The hypotheses of `C163_critical` hold: a core of C155 with k = 1225/2738, made critical. -/
example (gs : Bool) : ∃ s', outer (yieldProblem (1 / (1225 / 2738)) 1 slowProblem) (mocSweeper (yieldProblem (1 / (1225 / 2738)) 1 slowProblem) (slowMoc gs)) 1 (slowState 74 35) = some (1, s') ∧
    StateConverged slowProblem (slowMoc gs) 2 (fun _ => 1) (slowState 74 35) s' := by
  obtain ⟨s', h1, h2⟩ := slow_converged slowProblem gs (1225 / 2738) 74 35 ⟨rfl, rfl⟩ (by cases gs <;> decide +kernel)
  exact ⟨s', C163_critical slowProblem _ _ (by norm_num) _ s' h1, h2⟩

/-- The hypotheses of `C163_sn` hold. -/
example (m : SnSetup Sn.Ax2 ℚ) (n : Nat) (k : ℚ) (s : SnState Sn.Ax2 ℚ) : outers (yieldProblem (5 / 2) 1 pairProblem) (snSweeper (yieldProblem (5 / 2) 1 pairProblem) m) n (5 / 2 * 1 * k) s =
    (outers pairProblem (snSweeper pairProblem m) n k s).map fun r => (5 / 2 * 1 * r.1, r.2) := C163_sn (5 / 2) 1 pairProblem (by norm_num) (by norm_num) m n k s

/-- In numbers; with the same first estimate the flux of the first iteration is another one. -/
example : ((outers (yieldProblem 4 1 pairProblem) (mocSweeper (yieldProblem 4 1 pairProblem) (alongMoc pairStore.types true alongPlane 1)) 2 4 brightState).map fun r => (r.1, r.2.flux 1 1)) =
      ((outers pairProblem (mocSweeper pairProblem (alongMoc pairStore.types true alongPlane 1)) 2 1 brightState).map fun r => (4 * r.1, r.2.flux 1 1)) ∧
    ((outers (yieldProblem 4 1 pairProblem) (mocSweeper (yieldProblem 4 1 pairProblem) (alongMoc pairStore.types true alongPlane 1)) 1 1 brightState).map fun r => r.2.flux 1 1) ≠
      ((outers pairProblem (mocSweeper pairProblem (alongMoc pairStore.types true alongPlane 1)) 1 1 brightState).map fun r => r.2.flux 1 1) := by
  decide +kernel

end Verif.Medium
