import Verif.Mc.StepLemmas
import Mathlib.Analysis.SpecificLimits.Basic

/-!
# C148: whole histories in a uniform medium without leakage

Random numbers are uniform real numbers; the average after `m` passes averages each pass over the five numbers it may draw.  `Closed` is the medium: one
set of cross sections, reflective boundaries and a set of states on which every pass is defined.  `Drift` says that particles do not fly for ever without
a collision.
-/

namespace Verif.Mc
open Verif.Mesh MeasureTheory ENNReal Filter Topology

/-- Without averages this is the history of the code. -/
theorem C148_run (e : Env ℝ) (F : Hist ℝ → ℝ≥0∞) (m : Nat) (h : Hist ℝ) :
    averaged (fun _ f => f e) F m h = match passes e m h with | .ok h' => F h' | _ => 0 := by
  induction m generalizing h with
  | zero => rfl
  | succ m ih =>
    unfold averaged passes
    split
    · dsimp only
      cases hp : pass e h with
      | ok h' => dsimp only; rw [ih]
      | ub => rfl
      | throw => rfl
    · rfl

theorem mean_dead (e : Env ℝ) (F : Hist ℝ → ℝ≥0∞) (m : Nat) (h : Hist ℝ) (ha : h.alive = false) : mean e F m h = F h := by
  cases m with
  | zero => rfl
  | succ m => unfold mean averaged; rw [ha]; rfl

variable {e : Env ℝ} {X : Xs ℝ} {ng N : Nat} {d : Nat → Nat → ℝ} {I : Hist ℝ → Prop}

/-- The states after one pass. -/
theorem after (hC : Closed e X ng N d I) (h : Hist ℝ) (hI : I h) (ha : h.alive = true) :
    ∃ h' : ℝ → ℝ → ℝ → ℝ → ℝ → Hist ℝ, ∀ x y z u v : ℝ, 0 < x → x < 1 → 0 < y → y < 1 → 0 < z → z < 1 → 0 < u → u < 1 → 0 < v → v < 1 →
      pass (e.five h.n x y z u v) h = .ok (h' x y z u v) ∧ I (h' x y z u v) := by
  classical
  refine ⟨fun x y z u v => if q : ∃ h', pass (e.five h.n x y z u v) h = .ok h' ∧ I h' then q.choose else h, fun x y z u v a1 a2 a3 a4 a5 a6 a7 a8 a9 a10 => ?_⟩
  have q : ∃ h', pass (e.five h.n x y z u v) h = .ok h' ∧ I h' :=
    hC.pass h hI ha (e.five h.n x y z u v).r (five_range e hC.r h.n x y z u v a1 a2 a3 a4 a5 a6 a7 a8 a9 a10)
  dsimp only
  rw [dif_pos q]
  exact q.choose_spec

theorem after_facts (hC : Closed e X ng N d I) (c : Coef) (hc : c.Nonneg) (h h' : Hist ℝ) (hI : I h) (ha : h.alive = true) (x y z u v : ℝ) (x0 : 0 < x) (x1 : x < 1)
    (y0 : 0 < y) (y1 : y < 1) (z0 : 0 < z) (z1 : z < 1) (u0 : 0 < u) (u1 : u < 1) (v0 : 0 < v) (v1 : v < 1) (hp : pass (e.five h.n x y z u v) h = .ok h') :
    h'.w = h.w ∧ (x < through X h → h'.alive = true ∧ h'.group = h.group) ∧ c.score ng N h ≤ c.score ng N h' := by
  have hg := hC.grp h hI
  have hX := hC.good _ hg
  have hw := hC.w h hI
  have rX : (e.five h.n x y z u v).xs h.xsreg = X := hC.xs _
  obtain ⟨tl, fate, co, k1, k2, k3, k4, k5⟩ := pass_scores _ _ _ hp
  have k6 := pass_way _ h _ ng d (by rw [rX]; exact hX) (five_range e hC.r h.n x y z u v x0 x1 y0 y1 z0 z1 u0 u1 v0 v1) hC.bc ha tl fate co k1 hp
  obtain ⟨a, D, -, -, -, -, hat, hway⟩ := way e X ng N d I hC h hI
  have k7 := score_after c ng N h h' hg (hC.reg h hI) _ _ _ _ (by rw [k2, mul_assoc]) k3 k4 k5
  have htl : 0 ≤ tl := by
    have hl := leg_draw ((((e.draw (h.n + 4) v).draw (h.n + 3) u).draw (h.n + 2) z).draw (h.n + 1) y) h hC.lg
      (by rw [show ((((e.draw (h.n + 4) v).draw (h.n + 3) u).draw (h.n + 2) z).draw (h.n + 1) y).xs h.xsreg = X from hC.xs _]; exact hX.tr) x x0 tl fate co k1
    have hlog : Real.log x ≤ 0 := Real.log_nonpos x0.le x1.le
    have hf : 0 ≤ -Real.log x / X.tr h.group := div_nonneg (by linarith) hX.tr.le
    rw [show ((((e.draw (h.n + 4) v).draw (h.n + 3) u).draw (h.n + 2) z).draw (h.n + 1) y).xs h.xsreg = X from hC.xs _] at hl
    cases hr : reach h with
    | none => rw [hr] at hl; rw [hl.1]; exact hf
    | some D =>
      rw [hr] at hl
      rw [hl.1]
      exact le_min hf (reach_nonneg h (hC.dist h hI) D hr)
  refine ⟨k6.1, fun hx => ?_, ?_⟩
  · rw [hat] at hx
    have := k6.2.1 ((hway x y z u v tl fate co x0 k1).1 hx).2
    exact ⟨this.1, this.2.1⟩
  · have hb : (h.bank.length : ℝ) ≤ h'.bank.length := by
      rw [Nat.cast_le]
      by_cases hf : fate = .collision
      · rcases k6.2.2 hf with ⟨-, -, b, -⟩ | ⟨-, -, -, b⟩ | ⟨-, -, b⟩
        · rw [b]
        · rw [b]; omega
        · rw [b]
      · rw [(k6.2.1 hf).2.2]
    rw [rX] at k7
    have hnf := hC.nf _ hg
    have hT := hX.tr
    have h1 := hc.tl
    have h2 := hc.col
    have h3 := hc.bank
    have h4 := hc.fine h.group
    have h5 := hc.fineCol h.group
    have e1 : 0 ≤ (if fate = .collision then h.w * X.nf h.group / X.tr h.group else 0) := by split_ifs <;> positivity
    have e2 : 0 ≤ (if fate = .collision then h.w / X.tr h.group else 0) := by split_ifs <;> positivity
    have e3 : 0 ≤ (h'.bank.length : ℝ) - h.bank.length := by linarith
    have p1 : 0 ≤ c.tl * (tl * (h.w * X.nf h.group)) := by positivity
    have p2 := mul_nonneg h2 e1
    have p3 := mul_nonneg h3 e3
    have p4 : 0 ≤ c.fine h.group * (tl * h.w) := by positivity
    have p5 := mul_nonneg h5 e2
    rw [k7]
    linarith

theorem through_range (hC : Closed e X ng N d I) (h : Hist ℝ) (hI : I h) : 0 ≤ through X h ∧ through X h ≤ 1 := by
  obtain ⟨a, D, -, a0, a1, -, hat, -⟩ := way e X ng N d I hC h hI
  rw [hat]
  exact ⟨a0, a1⟩

/-- The average over one more pass. -/
theorem mean_succ (h : Hist ℝ) (ha : h.alive = true) (F : Hist ℝ → ℝ≥0∞) (m : Nat)
    (h' : ℝ → ℝ → ℝ → ℝ → ℝ → Hist ℝ) (hp : ∀ x y z u v : ℝ, 0 < x → x < 1 → 0 < y → y < 1 → 0 < z → z < 1 → 0 < u → u < 1 → 0 < v → v < 1 →
      pass (e.five h.n x y z u v) h = .ok (h' x y z u v) ∧ I (h' x y z u v)) :
    mean e F (m + 1) h = over5 fun x y z u v => mean e F m (h' x y z u v) := by
  unfold mean
  rw [averaged, if_pos ha]
  refine over5_congr _ _ fun x y z u v a1 a2 a3 a4 a5 a6 a7 a8 a9 a10 => ?_
  dsimp only
  rw [(hp x y z u v a1 a2 a3 a4 a5 a6 a7 a8 a9 a10).1]

/-- C148: scores and worth together are the same on average after any number of passes. -/
theorem C148_conserved (hC : Closed e X ng N d I) (c : Coef) (hc : c.Nonneg) (v : Nat → ℝ) (hv0 : ∀ g < ng, 0 ≤ v g)
    (hv : ∀ g < ng, X.tr g * v g = c.rate X g + ∑ j ∈ Finset.range ng, d j g * v j) (m : Nat) (h : Hist ℝ) (hI : I h) (hs : 0 ≤ c.score ng N h) :
    mean e (fun h => ENNReal.ofReal (c.score ng N h + if h.alive then h.w * v h.group else 0)) m h =
      ENNReal.ofReal (c.score ng N h + if h.alive then h.w * v h.group else 0) := by
  induction m generalizing h with
  | zero => rfl
  | succ m ih =>
    cases ha : h.alive with
    | false => rw [mean_dead _ _ _ _ ha, ha]
    | true =>
      obtain ⟨h', hp⟩ := after hC h hI ha
      have hT := (hC.good _ (hC.grp h hI)).tr
      rw [mean_succ h ha _ m h' hp, if_pos rfl]
      have k := step e X ng N d I hC c hc h hI ha (v h.group) v (hv0 _ (hC.grp h hI)) hv0 hs h' (fun x y z u v a1 a2 a3 a4 a5 a6 a7 a8 a9 a10 => (hp x y z u v a1 a2 a3 a4 a5 a6 a7 a8 a9 a10).1)
      rw [← hv _ (hC.grp h hI), mul_div_cancel_left₀ _ hT.ne'] at k
      rw [show h.w * v h.group = h.w * (through X h * v h.group + (1 - through X h) * v h.group) by ring, ← k]
      refine over5_congr _ _ fun x y z u w a1 a2 a3 a4 a5 a6 a7 a8 a9 a10 => ?_
      obtain ⟨p1, p2⟩ := hp x y z u w a1 a2 a3 a4 a5 a6 a7 a8 a9 a10
      obtain ⟨f1, f2, f3⟩ := after_facts hC c hc h _ hI ha x y z u w a1 a2 a3 a4 a5 a6 a7 a8 a9 a10 p1
      rw [ih _ p2 (hs.trans f3), f1]
      congr 2
      split_ifs with q1 q2
      · rw [(f2 q2).2]
      · rfl
      · rfl

/-- C148: no score is larger on average than the worth of the particle. -/
theorem C148_upper (hC : Closed e X ng N d I) (c : Coef) (hc : c.Nonneg) (v : Nat → ℝ) (hv0 : ∀ g < ng, 0 ≤ v g)
    (hv : ∀ g < ng, X.tr g * v g = c.rate X g + ∑ j ∈ Finset.range ng, d j g * v j) (m : Nat) (h : Hist ℝ) (hI : I h) (hs : 0 ≤ c.score ng N h) (ha : h.alive = true) :
    mean e (fun h => ENNReal.ofReal (c.score ng N h)) m h ≤ ENNReal.ofReal (c.score ng N h + h.w * v h.group) := by
  have k := C148_conserved hC c hc v hv0 hv m h hI hs
  rw [if_pos ha] at k
  rw [← k]
  clear k hs ha
  induction m generalizing h with
  | zero =>
    show ENNReal.ofReal _ ≤ ENNReal.ofReal _
    refine ENNReal.ofReal_le_ofReal ?_
    have : 0 ≤ (if h.alive then h.w * v h.group else 0) := by
      split_ifs
      · exact mul_nonneg (hC.w h hI) (hv0 _ (hC.grp h hI))
      · exact le_rfl
    linarith
  | succ m ih =>
    cases ha : h.alive with
    | false => rw [mean_dead _ _ _ _ ha, mean_dead _ _ _ _ ha, ha]; simp
    | true =>
      obtain ⟨h', hp⟩ := after hC h hI ha
      rw [mean_succ h ha _ m h' hp, mean_succ h ha _ m h' hp]
      exact over5_mono _ _ fun x y z u v a1 a2 a3 a4 a5 a6 a7 a8 a9 a10 => ih _ (hp x y z u v a1 a2 a3 a4 a5 a6 a7 a8 a9 a10).2

/-- Particles do not live for ever: a function between 1 and `Bmax` that falls by the factor `q` on average in every pass. -/
structure Drift (e : Env ℝ) (X : Xs ℝ) (ng : Nat) (d : Nat → Nat → ℝ) (I : Hist ℝ → Prop) (B : Hist ℝ → ℝ) (Bmax q : ℝ) : Prop where
  q0 : 0 ≤ q
  q1 : q < 1
  lo : ∀ h, I h → 1 ≤ B h
  hi : ∀ h, I h → B h ≤ Bmax
  falls : ∀ h, I h → h.alive = true → ∃ b, 0 ≤ b ∧
    (∀ (r : Nat → ℝ) (h' : Hist ℝ), (∀ k, 0 < r k ∧ r k ≤ 1) → r h.n < through X h → pass { e with r := r } h = .ok h' → B h' ≤ b) ∧
    through X h * b + (1 - through X h) * (scatters ng d h.group / X.tr h.group * Bmax) ≤ q * B h

/-- C148: the probability that a history is not over falls geometrically. -/
theorem C148_ends (hC : Closed e X ng N d I) (B : Hist ℝ → ℝ) (Bmax q : ℝ) (hB : Drift e X ng d I B Bmax q) (m : Nat) (h : Hist ℝ) (hI : I h) :
    mean e (fun h => ENNReal.ofReal (if h.alive then h.w else 0)) m h ≤ ENNReal.ofReal (if h.alive then h.w * (q ^ m * B h) else 0) := by
  induction m generalizing h with
  | zero =>
    refine ENNReal.ofReal_le_ofReal ?_
    split_ifs
    · have := mul_le_mul_of_nonneg_left (hB.lo h hI) (hC.w h hI)
      simpa using this
    · exact le_rfl
  | succ m ih =>
    cases ha : h.alive with
    | false => rw [mean_dead _ _ _ _ ha, ha]; simp
    | true =>
      obtain ⟨h', hp⟩ := after hC h hI ha
      obtain ⟨b, b0, b1, b2⟩ := hB.falls h hI ha
      have hq : 0 ≤ q ^ m := pow_nonneg hB.q0 m
      have hBm : 0 ≤ Bmax := zero_le_one.trans ((hB.lo h hI).trans (hB.hi h hI))
      let c : Coef := ⟨0, 0, 0, fun _ => 0, fun _ => 0⟩
      have hc : c.Nonneg := ⟨le_rfl, le_rfl, le_rfl, fun _ => le_rfl, fun _ => le_rfl⟩
      have cs : ∀ h, c.score ng N h = 0 := fun h => by simp [Coef.score, c]
      have cr : c.rate X h.group = 0 := by simp [Coef.rate, c]
      have k := step e X ng N d I hC c hc h hI ha (q ^ m * b) (fun _ => q ^ m * Bmax) (by positivity) (fun _ _ => by positivity) (cs h).ge h'
        (fun x y z u v a1 a2 a3 a4 a5 a6 a7 a8 a9 a10 => (hp x y z u v a1 a2 a3 a4 a5 a6 a7 a8 a9 a10).1)
      rw [mean_succ h ha _ m h' hp, if_pos rfl]
      refine le_trans (over5_mono _ _ fun x y z u v a1 a2 a3 a4 a5 a6 a7 a8 a9 a10 => ?_) (k.le.trans (ENNReal.ofReal_le_ofReal ?_))
      · obtain ⟨p1, p2⟩ := hp x y z u v a1 a2 a3 a4 a5 a6 a7 a8 a9 a10
        obtain ⟨f1, f2, f3⟩ := after_facts hC c hc h _ hI ha x y z u v a1 a2 a3 a4 a5 a6 a7 a8 a9 a10 p1
        refine (ih _ p2).trans (ENNReal.ofReal_le_ofReal ?_)
        rw [cs, f1, zero_add]
        split_ifs with q1 q2
        · refine mul_le_mul_of_nonneg_left (mul_le_mul_of_nonneg_left ?_ hq) (hC.w h hI)
          exact b1 _ _ (five_range e hC.r h.n x y z u v a1 a2 a3 a4 a5 a6 a7 a8 a9 a10) (by rw [show (e.five h.n x y z u v).r h.n = x from draw_self _ _ _]; exact q2) p1
        · exact mul_le_mul_of_nonneg_left (mul_le_mul_of_nonneg_left (hB.hi _ p2) hq) (hC.w h hI)
        · exact le_rfl
      · rw [cs, cr, ← Finset.sum_mul, zero_add, zero_add]
        refine mul_le_mul_of_nonneg_left ?_ (hC.w h hI)
        have := mul_le_mul_of_nonneg_left b2 hq
        unfold scatters at this
        calc _ = q ^ m * (through X h * b + (1 - through X h) * ((∑ j ∈ Finset.range ng, d j h.group) / X.tr h.group * Bmax)) := by ring
          _ ≤ _ := this
          _ = _ := by rw [pow_succ]; ring

/-- C148: the scores come up to the worth of the particle. -/
theorem C148_lower (hC : Closed e X ng N d I) (B : Hist ℝ → ℝ) (Bmax q : ℝ) (hB : Drift e X ng d I B Bmax q) (c : Coef) (hc : c.Nonneg) (v : Nat → ℝ) (M : ℝ)
    (hM : ∀ g < ng, v g ≤ M) (hM0 : 0 ≤ M)
    (hv : ∀ g < ng, X.tr g * v g = c.rate X g + ∑ j ∈ Finset.range ng, d j g * v j) (m : Nat) (h : Hist ℝ) (hI : I h) (hs : 0 ≤ c.score ng N h) :
    ENNReal.ofReal (c.score ng N h + if h.alive then h.w * max 0 (v h.group - M * (q ^ m * B h)) else 0) ≤
      mean e (fun h => ENNReal.ofReal (c.score ng N h)) m h := by
  induction m generalizing h with
  | zero =>
    refine ENNReal.ofReal_le_ofReal ?_
    split_ifs
    · have h1 := mul_le_mul_of_nonneg_left (hB.lo h hI) hM0
      have h2 := hM _ (hC.grp h hI)
      rw [max_eq_left (by rw [pow_zero, one_mul]; linarith)]
      simp
    · simp
  | succ m ih =>
    cases ha : h.alive with
    | false => rw [mean_dead _ _ _ _ ha]; simp
    | true =>
      obtain ⟨h', hp⟩ := after hC h hI ha
      obtain ⟨b, b0, b1, b2⟩ := hB.falls h hI ha
      obtain ⟨t0, t1⟩ := through_range hC h hI
      have hg := hC.grp h hI
      have hX := hC.good _ hg
      have hT := hX.tr
      have hq : 0 ≤ q ^ m := pow_nonneg hB.q0 m
      have hBm : 0 ≤ Bmax := zero_le_one.trans ((hB.lo h hI).trans (hB.hi h hI))
      have k := step e X ng N d I hC c hc h hI ha (max 0 (v h.group - M * (q ^ m * b))) (fun j => max 0 (v j - M * (q ^ m * Bmax))) (le_max_left _ _)
        (fun _ _ => le_max_left _ _) hs h' (fun x y z u v a1 a2 a3 a4 a5 a6 a7 a8 a9 a10 => (hp x y z u v a1 a2 a3 a4 a5 a6 a7 a8 a9 a10).1)
      rw [mean_succ h ha _ m h' hp, if_pos rfl]
      refine le_trans (le_trans (ENNReal.ofReal_le_ofReal ?_) k.ge) (over5_mono _ _ fun x y z u w a1 a2 a3 a4 a5 a6 a7 a8 a9 a10 => ?_)
      · refine add_le_add le_rfl (mul_le_mul_of_nonneg_left ?_ (hC.w h hI))
        have hr : 0 ≤ c.rate X h.group := by
          have hnf := hC.nf _ hg
          have h1 := hc.tl
          have h2 := hc.col
          have h3 := hc.bank
          have h4 := hc.fine h.group
          have h5 := hc.fineCol h.group
          unfold Coef.rate
          positivity
        have hsum0 : 0 ≤ ∑ j ∈ Finset.range ng, d j h.group * max 0 (v j - M * (q ^ m * Bmax)) :=
          Finset.sum_nonneg fun j hj => mul_nonneg (hX.nonneg j _ (Finset.mem_range.1 hj) hg) (le_max_left _ _)
        refine max_le ?_ ?_
        · exact add_nonneg (mul_nonneg t0 (le_max_left _ _)) (mul_nonneg (by linarith) (div_nonneg (by linarith) hT.le))
        · have hsum : ∑ j ∈ Finset.range ng, d j h.group * v j - scatters ng d h.group * (M * (q ^ m * Bmax)) ≤
              ∑ j ∈ Finset.range ng, d j h.group * max 0 (v j - M * (q ^ m * Bmax)) := by
            unfold scatters
            rw [Finset.sum_mul, ← Finset.sum_sub_distrib]
            refine Finset.sum_le_sum fun j hj => ?_
            rw [← mul_sub]
            exact mul_le_mul_of_nonneg_left (le_max_right _ _) (hX.nonneg j _ (Finset.mem_range.1 hj) hg)
          have e1 : v h.group - scatters ng d h.group / X.tr h.group * (M * (q ^ m * Bmax)) ≤
              (c.rate X h.group + ∑ j ∈ Finset.range ng, d j h.group * max 0 (v j - M * (q ^ m * Bmax))) / X.tr h.group := by
            rw [le_div_iff₀ hT, sub_mul, div_mul_eq_mul_div, div_mul_cancel₀ _ hT.ne']
            have := hv _ hg
            linarith
          have e2 := mul_le_mul_of_nonneg_left (le_max_right 0 (v h.group - M * (q ^ m * b))) t0
          have e3 := mul_le_mul_of_nonneg_left e1 (by linarith : (0 : ℝ) ≤ 1 - through X h)
          have e4 := mul_le_mul_of_nonneg_left b2 (mul_nonneg hM0 hq)
          rw [pow_succ]
          linarith
      · obtain ⟨p1, p2⟩ := hp x y z u w a1 a2 a3 a4 a5 a6 a7 a8 a9 a10
        obtain ⟨f1, f2, f3⟩ := after_facts hC c hc h _ hI ha x y z u w a1 a2 a3 a4 a5 a6 a7 a8 a9 a10 p1
        refine le_trans (ENNReal.ofReal_le_ofReal ?_) (ih _ p2 (hs.trans f3))
        rw [f1]
        refine add_le_add le_rfl ?_
        split_ifs with q1 q2
        · refine mul_le_mul_of_nonneg_left (max_le_max le_rfl ?_) (hC.w h hI)
          have := b1 _ _ (five_range e hC.r h.n x y z u w a1 a2 a3 a4 a5 a6 a7 a8 a9 a10) (by rw [show (e.five h.n x y z u w).r h.n = x from draw_self _ _ _]; exact q2) p1
          have := mul_le_mul_of_nonneg_left (mul_le_mul_of_nonneg_left this hq) hM0
          rw [(f2 q2).2]
          linarith
        · refine mul_le_mul_of_nonneg_left (max_le_max le_rfl ?_) (hC.w h hI)
          have := mul_le_mul_of_nonneg_left (mul_le_mul_of_nonneg_left (hB.hi _ p2) hq) hM0
          linarith
        · exact le_rfl

/-- C148: over whole histories every score is on average the worth of the particle for it. -/
theorem C148_limit (hC : Closed e X ng N d I) (B : Hist ℝ → ℝ) (Bmax q : ℝ) (hB : Drift e X ng d I B Bmax q) (c : Coef) (hc : c.Nonneg) (v : Nat → ℝ)
    (hv0 : ∀ g < ng, 0 ≤ v g) (hv : ∀ g < ng, X.tr g * v g = c.rate X g + ∑ j ∈ Finset.range ng, d j g * v j) (h : Hist ℝ) (hI : I h) (hs : 0 ≤ c.score ng N h)
    (ha : h.alive = true) :
    Tendsto (fun m => mean e (fun h => ENNReal.ofReal (c.score ng N h)) m h) atTop (𝓝 (ENNReal.ofReal (c.score ng N h + h.w * v h.group))) := by
  have hM : ∀ g < ng, v g ≤ ∑ j ∈ Finset.range ng, v j := fun g hg =>
    Finset.single_le_sum (f := v) (fun j hj => hv0 j (Finset.mem_range.1 hj)) (Finset.mem_range.2 hg)
  have hM0 : 0 ≤ ∑ j ∈ Finset.range ng, v j := Finset.sum_nonneg fun j hj => hv0 j (Finset.mem_range.1 hj)
  refine tendsto_of_tendsto_of_tendsto_of_le_of_le (g := fun m => ENNReal.ofReal (c.score ng N h + h.w * max 0 (v h.group - (∑ j ∈ Finset.range ng, v j) * (q ^ m * B h))))
    (h := fun _ => ENNReal.ofReal (c.score ng N h + h.w * v h.group)) ?_ tendsto_const_nhds (fun m => ?_) (fun m => C148_upper hC c hc v hv0 hv m h hI hs ha)
  · have hp : Tendsto (fun m : Nat => q ^ m) atTop (𝓝 0) := tendsto_pow_atTop_nhds_zero_of_lt_one hB.q0 hB.q1
    have h1 : Tendsto (fun m : Nat => max 0 (v h.group - (∑ j ∈ Finset.range ng, v j) * (q ^ m * B h))) atTop (𝓝 (max 0 (v h.group - (∑ j ∈ Finset.range ng, v j) * (0 * B h)))) :=
      tendsto_const_nhds.max (tendsto_const_nhds.sub (tendsto_const_nhds.mul (hp.mul tendsto_const_nhds)))
    rw [zero_mul, mul_zero, sub_zero, max_eq_right (hv0 _ (hC.grp h hI))] at h1
    exact ENNReal.tendsto_ofReal (tendsto_const_nhds.add (tendsto_const_nhds.mul h1))
  · have := C148_lower hC B Bmax q hB c hc v _ hM hM0 hv m h hI hs
    rwa [if_pos ha] at this

/-- If every flight has a collision with at least the probability `p` and every collision ends the history with at least the probability `1 - s`, histories end. -/
theorem C148_drift (hC : Closed e X ng N d I) (p s : ℝ) (hp : 0 < p) (hp1 : p ≤ 1) (hs1 : s < 1) (hs0 : 0 ≤ s) (hw : ∀ h, I h → h.alive = true → p ≤ within (X.tr h.group) (reach h))
    (hsc : ∀ g < ng, scatters ng d g ≤ s * X.tr g) : Drift e X ng d I (fun _ => 1) 1 (1 - p * (1 - s)) where
  q0 := by nlinarith
  q1 := by nlinarith
  lo := fun _ _ => le_rfl
  hi := fun _ _ => le_rfl
  falls := by
    intro h hI ha
    refine ⟨1, zero_le_one, fun _ _ _ _ _ => le_rfl, ?_⟩
    have hT := (hC.good _ (hC.grp h hI)).tr
    have h1 : scatters ng d h.group / X.tr h.group ≤ s := (div_le_iff₀ hT).2 (hsc _ (hC.grp h hI))
    have h2 := hw h hI ha
    have h3 : 1 - through X h = within (X.tr h.group) (reach h) := by unfold through; ring
    rw [h3]
    have h4 : through X h = 1 - within (X.tr h.group) (reach h) := rfl
    rw [h4]
    have h5 := mul_le_mul_of_nonneg_left h1 (hp.le.trans h2)
    have h6 := mul_le_mul_of_nonneg_right h2 (by linarith : (0 : ℝ) ≤ 1 - s)
    linarith

/-! ### The infinite medium -/

/-- C148: the worths exist if no collision is always followed by another. -/
theorem C148_worth (hgood : ∀ g < ng, GoodXs X ng d g) (s : Nat → ℝ) (hs : ∀ g < ng, 0 ≤ s g) (hlt : ∀ g < ng, scatters ng d g < X.tr g) :
    ∃ v : Nat → ℝ, (∀ g < ng, 0 ≤ v g) ∧ ∀ g < ng, X.tr g * v g = s g + ∑ j ∈ Finset.range ng, d j g * v j := by
  let it : Nat → Nat → ℝ := fun n => Nat.rec (fun _ => 0) (fun _ v g => (s g + ∑ j ∈ Finset.range ng, d j g * v j) / X.tr g) n
  have it1 : ∀ n g, it (n + 1) g = (s g + ∑ j ∈ Finset.range ng, d j g * it n j) / X.tr g := fun n g => rfl
  have dn : ∀ g < ng, ∀ j ∈ Finset.range ng, 0 ≤ d j g := fun g hg j hj => (hgood g hg).nonneg j g (Finset.mem_range.1 hj) hg
  have hmono : ∀ n, ∀ g < ng, 0 ≤ it n g ∧ it n g ≤ it (n + 1) g := by
    intro n
    induction n with
    | zero =>
      intro g hg
      refine ⟨le_rfl, ?_⟩
      rw [it1]
      refine div_nonneg (add_nonneg (hs g hg) (Finset.sum_nonneg fun j hj => mul_nonneg (dn g hg j hj) le_rfl)) (hgood g hg).tr.le
    | succ n ih =>
      intro g hg
      have h1 := ih g hg
      refine ⟨h1.1.trans h1.2, ?_⟩
      rw [it1 n g, it1 (n + 1) g]
      have hT := (hgood g hg).tr
      gcongr with j hj
      · exact dn g hg j hj
      · exact (ih j (Finset.mem_range.1 hj)).2
  let M : ℝ := ∑ g ∈ Finset.range ng, s g / (X.tr g - scatters ng d g)
  have hM : ∀ g < ng, s g ≤ M * (X.tr g - scatters ng d g) := by
    intro g hg
    have hp := sub_pos.2 (hlt g hg)
    rw [← div_le_iff₀ hp]
    exact Finset.single_le_sum (f := fun g => s g / (X.tr g - scatters ng d g))
      (fun j hj => div_nonneg (hs j (Finset.mem_range.1 hj)) (sub_pos.2 (hlt j (Finset.mem_range.1 hj))).le) (Finset.mem_range.2 hg)
  have hM0 : 0 ≤ M := Finset.sum_nonneg fun j hj => div_nonneg (hs j (Finset.mem_range.1 hj)) (sub_pos.2 (hlt j (Finset.mem_range.1 hj))).le
  have hbound : ∀ n, ∀ g < ng, it n g ≤ M := by
    intro n
    induction n with
    | zero => intro g _; exact hM0
    | succ n ih =>
      intro g hg
      rw [it1, div_le_iff₀ (hgood g hg).tr]
      have h1 : ∑ j ∈ Finset.range ng, d j g * it n j ≤ scatters ng d g * M := by
        unfold scatters
        rw [Finset.sum_mul]
        exact Finset.sum_le_sum fun j hj => mul_le_mul_of_nonneg_left (ih j (Finset.mem_range.1 hj)) (dn g hg j hj)
      have := hM g hg
      linarith
  have hlim : ∀ g < ng, ∃ a, Tendsto (fun n => it n g) atTop (𝓝 a) := fun g hg =>
    ⟨_, tendsto_atTop_ciSup (monotone_nat_of_le_succ fun n => (hmono n g hg).2) ⟨M, by rintro _ ⟨n, rfl⟩; exact hbound n g hg⟩⟩
  classical
  refine ⟨fun g => if hg : g < ng then (hlim g hg).choose else 0, fun g hg => ?_, fun g hg => ?_⟩
  · dsimp only
    rw [dif_pos hg]
    exact ge_of_tendsto' (hlim g hg).choose_spec fun n => (hmono n g hg).1
  · have hl : ∀ g < ng, Tendsto (fun n => it n g) atTop (𝓝 (if hg : g < ng then (hlim g hg).choose else 0)) := fun g hg => by
      rw [dif_pos hg]; exact (hlim g hg).choose_spec
    have h1 : Tendsto (fun n => it (n + 1) g) atTop (𝓝 ((s g + ∑ j ∈ Finset.range ng, d j g * (if hg : j < ng then (hlim j hg).choose else 0)) / X.tr g)) := by
      simp only [it1]
      exact (tendsto_const_nhds.add (tendsto_finsetSum _ fun j hj => tendsto_const_nhds.mul (hl j (Finset.mem_range.1 hj)))).div_const _
    have h2 := tendsto_nhds_unique ((tendsto_add_atTop_iff_nat 1).2 (hl g hg)) h1
    dsimp only
    rw [h2, mul_div_cancel₀ _ (hgood g hg).tr.ne']

/-- C148: worths and the flux of the infinite medium. -/
theorem C148_dual (v s phi chi : Nat → ℝ) (k : ℝ) (hk : k ≠ 0) (hv : ∀ g < ng, X.tr g * v g = s g + ∑ j ∈ Finset.range ng, d j g * v j)
    (hphi : ∀ g < ng, X.tr g * phi g = ∑ j ∈ Finset.range ng, d g j * phi j + chi g / k * ∑ j ∈ Finset.range ng, X.nf j * phi j) :
    (∑ g ∈ Finset.range ng, chi g * v g) * ∑ j ∈ Finset.range ng, X.nf j * phi j = k * ∑ g ∈ Finset.range ng, s g * phi g := by
  have h1 : ∑ g ∈ Finset.range ng, X.tr g * v g * phi g = ∑ g ∈ Finset.range ng, s g * phi g + ∑ g ∈ Finset.range ng, ∑ j ∈ Finset.range ng, d j g * v j * phi g := by
    rw [← Finset.sum_add_distrib]
    refine Finset.sum_congr rfl fun g hg => ?_
    rw [hv g (Finset.mem_range.1 hg), add_mul, Finset.sum_mul]
  have h2 : ∑ g ∈ Finset.range ng, X.tr g * v g * phi g = ∑ g ∈ Finset.range ng, ∑ j ∈ Finset.range ng, d g j * v g * phi j +
      (∑ g ∈ Finset.range ng, chi g * v g) / k * ∑ j ∈ Finset.range ng, X.nf j * phi j := by
    rw [Finset.sum_div, Finset.sum_mul, ← Finset.sum_add_distrib]
    refine Finset.sum_congr rfl fun g hg => ?_
    rw [mul_right_comm, hphi g (Finset.mem_range.1 hg), add_mul, Finset.sum_mul]
    congr 1
    · exact Finset.sum_congr rfl fun j _ => by ring
    · ring
  rw [Finset.sum_comm] at h2
  have h3 : (∑ g ∈ Finset.range ng, chi g * v g) / k * ∑ j ∈ Finset.range ng, X.nf j * phi j = ∑ g ∈ Finset.range ng, s g * phi g := by linarith
  rw [← h3]
  field_simp

/-- C148: particles of weight one with the fission spectrum, one in each group: what they score on average over their histories is what the flux of the
infinite medium gives, for all estimators. -/
theorem C148_infinite (hC : Closed e X ng N d I) (B : Hist ℝ → ℝ) (Bmax q : ℝ) (hB : Drift e X ng d I B Bmax q) (hlt : ∀ g < ng, scatters ng d g < X.tr g)
    (phi : Nat → ℝ) (k : ℝ) (hk : k ≠ 0) (hpos : 0 < ∑ j ∈ Finset.range ng, X.nf j * phi j)
    (hphi : ∀ g < ng, X.tr g * phi g = ∑ j ∈ Finset.range ng, d g j * phi j + X.chi.getD g 0 / k * ∑ j ∈ Finset.range ng, X.nf j * phi j)
    (start : Nat → Hist ℝ) (hst : ∀ g < ng, I (start g) ∧ (start g).alive = true ∧ (start g).group = g ∧ (start g).w = 1) (c : Coef) (hc : c.Nonneg)
    (hs : ∀ g < ng, 0 ≤ c.score ng N (start g)) :
    ∃ gain : Nat → ℝ, (∀ g < ng, 0 ≤ gain g ∧ Tendsto (fun m => mean e (fun h => ENNReal.ofReal (c.score ng N h)) m (start g)) atTop
        (𝓝 (ENNReal.ofReal (c.score ng N (start g) + gain g)))) ∧
      ∑ g ∈ Finset.range ng, X.chi.getD g 0 * gain g = k * (∑ g ∈ Finset.range ng, c.rate X g * phi g) / ∑ j ∈ Finset.range ng, X.nf j * phi j := by
  have hr : ∀ g < ng, 0 ≤ c.rate X g := by
    intro g hg
    have hnf := hC.nf _ hg
    have h1 := hc.tl
    have h2 := hc.col
    have h3 := hc.bank
    have h4 := hc.fine g
    have h5 := hc.fineCol g
    unfold Coef.rate
    positivity
  obtain ⟨v, v0, hv⟩ := C148_worth hC.good (c.rate X) hr hlt
  refine ⟨v, fun g hg => ⟨v0 g hg, ?_⟩, ?_⟩
  · obtain ⟨s1, s2, s3, s4⟩ := hst g hg
    have := C148_limit hC B Bmax q hB c hc v v0 hv (start g) s1 (hs g hg) s2
    rwa [s3, s4, one_mul] at this
  · rw [eq_div_iff hpos.ne']
    exact C148_dual v (c.rate X) phi (fun g => X.chi.getD g 0) k hk hv hphi


/-- C148: the estimators of k by track length and by collisions and the number of banked particles are the same on average over the history of a particle of
weight one, whatever its group; with the fission spectrum they are k of the infinite medium. -/
theorem C148_k (hC : Closed e X ng N d I) (B : Hist ℝ → ℝ) (Bmax q : ℝ) (hB : Drift e X ng d I B Bmax q) (hlt : ∀ g < ng, scatters ng d g < X.tr g)
    (start : Nat → Hist ℝ) (hst : ∀ g < ng, I (start g) ∧ (start g).alive = true ∧ (start g).group = g ∧ (start g).w = 1)
    (h0 : ∀ g < ng, (start g).t.kTl = 0 ∧ (start g).t.kCol = 0 ∧ (start g).bank = []) :
    ∃ gain : Nat → ℝ, (∀ g < ng, 0 ≤ gain g ∧
      Tendsto (fun m => mean e (fun h => ENNReal.ofReal h.t.kTl) m (start g)) atTop (𝓝 (ENNReal.ofReal (gain g))) ∧
      Tendsto (fun m => mean e (fun h => ENNReal.ofReal h.t.kCol) m (start g)) atTop (𝓝 (ENNReal.ofReal (gain g))) ∧
      Tendsto (fun m => mean e (fun h => (h.bank.length : ℝ≥0∞)) m (start g)) atTop (𝓝 (ENNReal.ofReal (gain g)))) ∧
    ∀ (phi : Nat → ℝ) (k : ℝ), k ≠ 0 → 0 < ∑ j ∈ Finset.range ng, X.nf j * phi j →
      (∀ g < ng, X.tr g * phi g = ∑ j ∈ Finset.range ng, d g j * phi j + X.chi.getD g 0 / k * ∑ j ∈ Finset.range ng, X.nf j * phi j) →
      ∑ g ∈ Finset.range ng, X.chi.getD g 0 * gain g = k := by
  obtain ⟨v, v0, hv⟩ := C148_worth hC.good X.nf hC.nf hlt
  have lim : ∀ c : Coef, c.Nonneg → (∀ g < ng, c.rate X g = X.nf g) → ∀ g < ng, c.score ng N (start g) = 0 →
      Tendsto (fun m => mean e (fun h => ENNReal.ofReal (c.score ng N h)) m (start g)) atTop (𝓝 (ENNReal.ofReal (v g))) := by
    intro c hc hr g hg hs
    obtain ⟨s1, s2, s3, s4⟩ := hst g hg
    have := C148_limit hC B Bmax q hB c hc v v0 (fun g hg => by rw [hv g hg, hr g hg]) (start g) s1 hs.ge s2
    rwa [s3, s4, hs, zero_add, one_mul] at this
  have zero : ∀ g : Nat, (0 : ℝ) ≤ (fun _ : Nat => (0 : ℝ)) g := fun _ => le_rfl
  refine ⟨v, fun g hg => ⟨v0 g hg, ?_, ?_, ?_⟩, fun phi k hk hpos hphi => ?_⟩
  · have := lim ⟨1, 0, 0, fun _ => 0, fun _ => 0⟩ ⟨zero_le_one, le_rfl, le_rfl, zero, zero⟩ (fun g _ => by simp [Coef.rate]) g hg (by simp [Coef.score, h0 g hg])
    simpa [Coef.score] using this
  · have := lim ⟨0, 1, 0, fun _ => 0, fun _ => 0⟩ ⟨le_rfl, zero_le_one, le_rfl, zero, zero⟩ (fun g _ => by simp [Coef.rate]) g hg (by simp [Coef.score, h0 g hg])
    simpa [Coef.score] using this
  · have := lim ⟨0, 0, 1, fun _ => 0, fun _ => 0⟩ ⟨le_rfl, le_rfl, zero_le_one, zero, zero⟩ (fun g _ => by simp [Coef.rate]) g hg (by simp [Coef.score, h0 g hg])
    simpa [Coef.score] using this
  · exact mul_right_cancel₀ hpos.ne' (C148_dual v X.nf phi (fun g => X.chi.getD g 0) k hk hv hphi)

theorem pick (ng j : Nat) (hj : j < ng) (f : Nat → ℝ) : ∑ g ∈ Finset.range ng, (if g = j then (1 : ℝ) else 0) * f g = f j := by
  rw [Finset.sum_eq_single_of_mem j (Finset.mem_range.2 hj)]
  · simp
  · intro g _ hne; simp [hne]

/-- C148: both flux tallies of group `j`, summed over the regions, are the same on average over the history; with the fission spectrum they are
proportional to the flux of the infinite medium. -/
theorem C148_flux (hC : Closed e X ng N d I) (B : Hist ℝ → ℝ) (Bmax q : ℝ) (hB : Drift e X ng d I B Bmax q) (hlt : ∀ g < ng, scatters ng d g < X.tr g)
    (start : Nat → Hist ℝ) (hst : ∀ g < ng, I (start g) ∧ (start g).alive = true ∧ (start g).group = g ∧ (start g).w = 1)
    (h0 : ∀ g < ng, ∀ j i, (start g).t.fine j i = 0 ∧ (start g).t.fineCol j i = 0) (j : Nat) (hj : j < ng) :
    ∃ gain : Nat → ℝ, (∀ g < ng, 0 ≤ gain g ∧
      Tendsto (fun m => mean e (fun h => ENNReal.ofReal (∑ i ∈ Finset.range N, h.t.fine j i)) m (start g)) atTop (𝓝 (ENNReal.ofReal (gain g))) ∧
      Tendsto (fun m => mean e (fun h => ENNReal.ofReal (∑ i ∈ Finset.range N, h.t.fineCol j i)) m (start g)) atTop (𝓝 (ENNReal.ofReal (gain g)))) ∧
    ∀ (phi : Nat → ℝ) (k : ℝ), k ≠ 0 → 0 < ∑ j ∈ Finset.range ng, X.nf j * phi j →
      (∀ g < ng, X.tr g * phi g = ∑ j ∈ Finset.range ng, d g j * phi j + X.chi.getD g 0 / k * ∑ j ∈ Finset.range ng, X.nf j * phi j) →
      ∑ g ∈ Finset.range ng, X.chi.getD g 0 * gain g = k * phi j / ∑ j ∈ Finset.range ng, X.nf j * phi j := by
  have ind : ∀ g : Nat, (0 : ℝ) ≤ (fun g => if g = j then (1 : ℝ) else 0) g := fun g => by dsimp only; split_ifs <;> norm_num
  obtain ⟨v, v0, hv⟩ := C148_worth hC.good (fun g => if g = j then 1 else 0) (fun g _ => ind g) hlt
  have lim : ∀ c : Coef, c.Nonneg → (∀ g < ng, c.rate X g = if g = j then 1 else 0) → ∀ g < ng, c.score ng N (start g) = 0 →
      Tendsto (fun m => mean e (fun h => ENNReal.ofReal (c.score ng N h)) m (start g)) atTop (𝓝 (ENNReal.ofReal (v g))) := by
    intro c hc hr g hg hs
    obtain ⟨s1, s2, s3, s4⟩ := hst g hg
    have := C148_limit hC B Bmax q hB c hc v v0 (fun g hg => by rw [hv g hg, hr g hg]) (start g) s1 hs.ge s2
    rwa [s3, s4, hs, zero_add, one_mul] at this
  have zero : ∀ g : Nat, (0 : ℝ) ≤ (fun _ : Nat => (0 : ℝ)) g := fun _ => le_rfl
  have e1 : ∀ h : Hist ℝ, Coef.score ⟨0, 0, 0, fun g => if g = j then 1 else 0, fun _ => 0⟩ ng N h = ∑ i ∈ Finset.range N, h.t.fine j i := fun h => by
    unfold Coef.score
    simp only [zero_mul, add_zero, zero_add, ← Finset.mul_sum]
    exact pick ng j hj _
  have e2 : ∀ h : Hist ℝ, Coef.score ⟨0, 0, 0, fun _ => 0, fun g => if g = j then 1 else 0⟩ ng N h = ∑ i ∈ Finset.range N, h.t.fineCol j i := fun h => by
    unfold Coef.score
    simp only [zero_mul, zero_add, ← Finset.mul_sum]
    exact pick ng j hj _
  refine ⟨v, fun g hg => ⟨v0 g hg, ?_, ?_⟩, fun phi k hk hpos hphi => ?_⟩
  · have := lim ⟨0, 0, 0, fun g => if g = j then 1 else 0, fun _ => 0⟩ ⟨le_rfl, le_rfl, le_rfl, ind, zero⟩ (fun g _ => by simp [Coef.rate]) g hg
      (by rw [e1]; exact Finset.sum_eq_zero fun i _ => (h0 g hg j i).1)
    simpa only [e1] using this
  · have := lim ⟨0, 0, 0, fun _ => 0, fun g => if g = j then 1 else 0⟩ ⟨le_rfl, le_rfl, le_rfl, zero, ind⟩ (fun g _ => by simp [Coef.rate]) g hg
      (by rw [e2]; exact Finset.sum_eq_zero fun i _ => (h0 g hg j i).2)
    simpa only [e2] using this
  · rw [eq_div_iff hpos.ne', C148_dual v _ phi (fun g => X.chi.getD g 0) k hk hv hphi, pick ng j hj]

/-! ### Example: a rod between two mirrors -/

/-- Two groups; from the first half of the collisions scatter, evenly into both groups, from the second half into itself. -/
noncomputable def rodXs : Xs ℝ :=
  ⟨fun _ => 1, fun g => if g = 0 then 1 / 4 else 3 / 4, fun g => if g = 0 then 1 / 8 else 1 / 4,
    Scatter.build 2 (fun j g => if g = 0 then 1 / 4 else if j = 0 then 0 else 1 / 2), [1, 0]⟩

noncomputable def rodD : Nat → Nat → ℝ := fun j g => if g = 0 then 1 / 4 else if j = 0 then 0 else 1 / 2

noncomputable def rodLoc : Loc ℝ := ⟨0, 0, 0, 0, ⟨0, 0, 0⟩, ⟨1, 1, 1⟩, fun _ _ _ => 0, fun _ _ _ _ => (none, false, 0)⟩

/-- A unit cube in which particles fly up or down. -/
noncomputable def rodEnv : Env ℝ :=
  { xs := fun _ => rodXs, xsOf := fun _ => 0, locate := fun _ _ => rodLoc, extent := ⟨1, 1, 1, 1 / 10000⟩, bc := fun _ => .reflect, bump := 1 / 1000, lg := Real.log
    iso := fun a _ => if a ≤ 1 / 2 then ⟨0, 0, 1⟩ else ⟨0, 0, -1⟩, lastFirst := true, r := fun _ => 1 / 2 }

def UpDown (o : Vec3 ℝ) : Prop := o.x = 0 ∧ o.y = 0 ∧ (o.z = 1 ∨ o.z = -1)

def RodState (h : Hist ℝ) : Prop := h.group < 2 ∧ h.reg = 0 ∧ 0 ≤ h.w ∧ h.loc = rodLoc ∧ UpDown h.o

theorem rodGood (g : Nat) (hg : g < 2) : GoodXs rodXs 2 rodD g where
  grp := hg
  sc := rfl
  nonneg := fun i j _ _ => by unfold rodD; split_ifs <;> norm_num
  tr := one_pos
  f := by show (0 : ℝ) ≤ if g = 0 then 1 / 8 else 1 / 4; split_ifs <;> norm_num
  sum := by interval_cases g <;> norm_num [Finset.sum_range_succ, rodD, rodXs]
  chi0 := by norm_num [rodXs]
  chi1 := by norm_num [rodXs]
  chiLen := rfl

theorem mirror_updown (o : Vec3 ℝ) (s : Surface) (ho : UpDown o) : UpDown (mirror o s) := by
  obtain ⟨h1, h2, h3⟩ := ho
  cases s <;> simp only [mirror, UpDown, h1, h2, neg_zero, true_and] <;> rcases h3 with h | h <;> simp [h]

theorem meet_updown (bc : Surface → Bc) (hbc : ∀ s, bc s = .reflect) (h : Hit ℝ) (s : Surface) (ho : UpDown h.o) : ∃ h', meetSurface bc h s = some h' ∧ UpDown h'.o := by
  unfold meetSurface
  split
  · exact ⟨h, rfl, ho⟩
  · rw [hbc]
    exact ⟨_, rfl, mirror_updown _ _ ho⟩

theorem collide_keeps (e : Env ℝ) (h h' : Hist ℝ) (ng : Nat) (hng : (e.xs h.xsreg).sc.ng = ng) (hg : h.group < ng) (hc : collide e h = .ok h') :
    h'.group < ng ∧ h'.reg = h.reg ∧ h'.w = h.w ∧ h'.loc = h.loc ∧ (h'.o = h.o ∨ ∃ a b, h'.o = e.iso a b) := by
  unfold collide at hc
  dsimp only at hc
  split at hc
  · cases hc
  · split at hc
    · split at hc
      · cases hc
      · split at hc
        · rename_i hlt
          injection hc with hc; subst hc
          refine ⟨by rw [← hng]; exact hlt, rfl, rfl, rfl, Or.inr ?_⟩
          unfold Env.direction
          dsimp only
          split_ifs
          · exact ⟨_, _, rfl⟩
          · exact ⟨_, _, rfl⟩
        · cases hc
    · split at hc
      · split at hc
        · cases hc
        · injection hc with hc; subst hc; exact ⟨hg, rfl, rfl, rfl, Or.inl rfl⟩
      · injection hc with hc; subst hc; exact ⟨hg, rfl, rfl, rfl, Or.inl rfl⟩

theorem rodClosed : Closed rodEnv rodXs 2 1 rodD RodState where
  xs := fun _ => rfl
  good := rodGood
  nf := fun g _ => by show (0 : ℝ) ≤ if g = 0 then 1 / 4 else 3 / 4; split_ifs <;> norm_num
  nf0 := fun g _ h => by
    have : (if g = 0 then (1 : ℝ) / 8 else 1 / 4) = 0 := h
    split_ifs at this <;> norm_num at this
  lg := rfl
  r := fun _ => by norm_num [rodEnv]
  bc := fun _ => rfl
  grp := fun h hI => hI.1
  reg := fun h hI => by rw [hI.2.1]; exact one_pos
  w := fun h hI => hI.2.2.1
  dist := fun h hI t ht => by rw [hI.2.2.2.1] at ht; cases ht
  pass := by
    intro h hI ha r hr
    obtain ⟨i1, i2, i3, i4, i5⟩ := hI
    have hl : ∃ tl fate co, leg { rodEnv with r := r } h = some (tl, fate, co) := by
      unfold leg
      dsimp only
      have : flight rodEnv.lg (r h.n) ((rodEnv.xs h.xsreg).tr h.group) = some (-Real.log (r h.n) / 1) := by
        unfold flight
        rw [if_neg]
        · rfl
        · rintro (q | q)
          · exact (hr _).1.ne' q
          · exact one_ne_zero (α := ℝ) q
      rw [this]
      generalize (if ltOpt (distanceToPin h.loc.lo h.loc.hi h.place.g h.o) (h.loc.dist h.place.lx h.place.ly h.o h.coincident).1 = true then
        distanceToPin h.loc.lo h.loc.hi h.place.g h.o else (h.loc.dist h.place.lx h.place.ly h.o h.coincident).1) = D
      cases D <;> exact ⟨_, _, _, rfl⟩
    obtain ⟨tl, fate, co, hl⟩ := hl
    unfold Mc.pass
    rw [hl]
    cases fate with
    | collision =>
      obtain ⟨h', hc⟩ := collide_defined { rodEnv with r := r }
        { h with n := h.n + 1, t := scoreTrack (rodEnv.xs h.xsreg) h tl, place := move rodEnv.bump tl h.o h.place, coincident := -1 } 2 rodD (rodGood _ i1) hr
      refine ⟨h', hc, ?_⟩
      obtain ⟨c1, c2, c3, c4, c5⟩ := collide_keeps _ { h with n := h.n + 1, t := scoreTrack (rodEnv.xs h.xsreg) h tl, place := move rodEnv.bump tl h.o h.place, coincident := -1 } _ 2 (Scatter.build_ng 2 rodD) i1 hc
      refine ⟨c1, c2.trans i2, c3 ▸ i3, c4.trans i4, ?_⟩
      rcases c5 with q | ⟨a, b, q⟩
      · rw [q]; exact i5
      · rw [q]
        show UpDown (if a ≤ 1 / 2 then ⟨0, 0, 1⟩ else ⟨0, 0, -1⟩)
        split_ifs
        · exact ⟨rfl, rfl, Or.inl rfl⟩
        · exact ⟨rfl, rfl, Or.inr rfl⟩
    | inner =>
      simp only [act, i4]
      rw [if_neg (by simp [rodLoc])]
      exact ⟨_, rfl, i1, by simp [rodLoc], i3, rfl, i5⟩
    | border =>
      have hb : ∀ s, rodEnv.bc s = .reflect := fun _ => rfl
      obtain ⟨h0, a0, u0⟩ := meet_updown rodEnv.bc hb ⟨h.o, true, false⟩ (boundarySurface rodEnv.extent (move rodEnv.bump tl h.o h.place).g h.o).1 i5
      obtain ⟨h1, a1, u1⟩ := meet_updown rodEnv.bc hb h0 (boundarySurface rodEnv.extent (move rodEnv.bump tl h.o h.place).g h.o).2.1 u0
      obtain ⟨h2, a2, u2⟩ := meet_updown rodEnv.bc hb h1 (boundarySurface rodEnv.extent (move rodEnv.bump tl h.o h.place).g h.o).2.2 u1
      have hcr : ∃ p', cross rodEnv.extent rodEnv.bc rodEnv.bump tl h.o h.place = some (p', h2) := by
        unfold cross
        simp only [a0, a1, a2, Option.bind_eq_bind, Option.bind_some]
        exact ⟨_, rfl⟩
      obtain ⟨p', hcr⟩ := hcr
      have hal := cross_reflect _ _ hb _ _ _ _ _ _ hcr
      simp only [act, hcr, hal, if_true]
      unfold relocate
      dsimp only
      rw [if_neg (by simp [rodEnv, rodLoc])]
      exact ⟨_, rfl, i1, by simp [rodEnv, rodLoc], i3, rfl, u2⟩

theorem rodReach (h : Hist ℝ) (hI : RodState h) :
    reach h = if h.o.z = 1 then (if h.place.g.z < 1 then some (1 - h.place.g.z) else none) else if 0 < h.place.g.z then some h.place.g.z else none := by
  obtain ⟨-, -, -, i4, i5, i6, i7⟩ := hI
  unfold reach distanceToPin axisDist
  rw [i4, i5, i6]
  rcases i7 with q | q
  · rw [q]; simp [rodLoc]; split_ifs <;> simp [minOpt]
  · rw [q]
    have : ¬ ((-1 : ℝ) = 1) := by norm_num
    have h2 : ¬ ((0 : ℝ) < -1) := by norm_num
    simp [rodLoc, this, h2]
    split_ifs <;> simp [minOpt]

/-- A particle that comes to a mirror has the whole rod before it. -/
theorem rodBack (h h' : Hist ℝ) (hI : RodState h) (r : Nat → ℝ) (hr : ∀ k, 0 < r k ∧ r k ≤ 1) (hx : r h.n < through rodXs h) (hp : pass { rodEnv with r := r } h = .ok h') :
    through rodXs h' = Real.exp (-(999 / 1000)) := by
  have hre := rodReach h hI
  obtain ⟨i1, i2, i3, i4, i5, i6, i7⟩ := hI
  unfold through within at hx ⊢
  cases hD : reach h with
  | none => rw [hD] at hx; have := (hr h.n).1; simp at hx; linarith
  | some D =>
    rw [hD] at hx
    have hx' : r h.n < Real.exp (-D) := by
      have : (1 : ℝ) - (1 - Real.exp (-1 * D)) = Real.exp (-D) := by rw [neg_one_mul]; ring
      rw [← this]; exact hx
    have hlog : Real.log (r h.n) < -D := (Real.log_lt_iff_lt_exp (hr _).1).2 hx'
    have hl : leg { rodEnv with r := r } h = some (D, .border, 0) := by
      unfold leg
      dsimp only
      rw [reach_eq, hD]
      have hf : flight rodEnv.lg (r h.n) ((rodEnv.xs h.xsreg).tr h.group) = some (-Real.log (r h.n) / 1) := by
        unfold flight
        rw [if_neg]
        · rfl
        · rintro (q | q)
          · exact (hr _).1.ne' q
          · exact one_ne_zero (α := ℝ) q
      rw [hf]
      have hdp : distanceToPin h.loc.lo h.loc.hi h.place.g h.o = some D := by
        rw [← hD]; unfold reach
        rw [i4]
        show _ = minOpt _ none
        cases distanceToPin rodLoc.lo rodLoc.hi h.place.g h.o <;> rfl
      rw [hdp, i4]
      have hlt : ¬ (-Real.log (r h.n) / 1 < D) := by rw [div_one]; linarith
      simp only [rodLoc, ltOpt, minOpt, decide_eq_true_eq, hlt, if_true, if_false, Option.map_some]
      rw [min_eq_right (not_lt.1 hlt)]
    unfold pass at hp
    rw [hl] at hp
    rw [hD] at hre
    have key : ∀ z oz : ℝ, h.place.g.z + ((D + 1 / 1000) * h.o.z + 1 / 1000 * sgn h.o.z) = z → -h.o.z = oz →
        boundarySurface rodEnv.extent (move rodEnv.bump D h.o h.place).g h.o = (.INTERNAL, (if h.o.z = 1 then .INTERNAL else .BOTTOM), (if h.o.z = 1 then .TOP else .INTERNAL)) →
        reach h' = if oz = 1 then (if z + ((1 / 1000 + 1 / 1000) * oz + 1 / 1000 * sgn oz) < 1 then some (1 - (z + ((1 / 1000 + 1 / 1000) * oz + 1 / 1000 * sgn oz))) else none)
          else if 0 < z + ((1 / 1000 + 1 / 1000) * oz + 1 / 1000 * sgn oz) then some (z + ((1 / 1000 + 1 / 1000) * oz + 1 / 1000 * sgn oz)) else none := by
      intro z oz hz ho hs
      simp only [act] at hp
      have hcr : cross rodEnv.extent rodEnv.bc rodEnv.bump D h.o h.place =
          some (move rodEnv.bump rodEnv.bump ⟨h.o.x, h.o.y, -h.o.z⟩ (move rodEnv.bump D h.o h.place), ⟨⟨h.o.x, h.o.y, -h.o.z⟩, true, true⟩) := by
        unfold cross
        simp only [hs]
        rcases i7 with q | q
        · simp [meetSurface, q, rodEnv, mirror]
        · have : ¬ ((-1 : ℝ) = 1) := by norm_num
          simp [meetSurface, q, rodEnv, mirror, this]
      rw [hcr] at hp
      simp only [if_true] at hp
      unfold relocate at hp
      dsimp only at hp
      rw [if_neg (by simp [rodEnv, rodLoc])] at hp
      injection hp with hp
      have hst : RodState h' := by
        subst hp
        refine ⟨i1, by simp [rodEnv, rodLoc], i3, rfl, i5, i6, ?_⟩
        rcases i7 with q | q
        · right; show -h.o.z = -1; rw [q]
        · left; show -h.o.z = 1; rw [q]; norm_num
      have hz' : h'.place.g.z = z + ((1 / 1000 + 1 / 1000) * oz + 1 / 1000 * sgn oz) := by
        subst hp
        rw [← hz, ← ho]
        rfl
      have ho' : h'.o.z = oz := by subst hp; exact ho
      rw [rodReach h' hst, hz', ho']
    have bs : ∀ a : ℝ, h.o.z = a → boundarySurface rodEnv.extent (move rodEnv.bump D h.o h.place).g h.o =
        (.INTERNAL, (if h.place.g.z + ((D + 1 / 1000) * a + 1 / 1000 * sgn a) < 1 / 10000 ∧ a < 0 then .BOTTOM else .INTERNAL),
          (if h.place.g.z + ((D + 1 / 1000) * a + 1 / 1000 * sgn a) > 1 - 1 / 10000 ∧ 0 < a then .TOP else .INTERNAL)) := by
      intro a h3
      unfold boundarySurface move moveAxis
      simp only [i5, i6, h3, lt_irrefl, and_false, if_false, gt_iff_lt, rodEnv, div_one]
    have n1 : ¬ ((-1 : ℝ) = 1) := by norm_num
    have n2 : ¬ ((0 : ℝ) < -1) := by norm_num
    have n3 : ¬ ((1 : ℝ) < 0) := by norm_num
    have s1 : sgn (1 : ℝ) = 1 := by norm_num [sgn]
    have s2 : sgn (-1 : ℝ) = -1 := by norm_num [sgn]
    have fin : reach h' = some (999 / 1000) := by
      rcases i7 with q | q
      · have hz : h.place.g.z = 1 - D := by
          rw [q, if_pos rfl] at hre
          split_ifs at hre
          injection hre with hre
          linarith
        have hb := bs 1 q
        rw [hz, s1] at hb
        have b1 : ¬ ((1 - D + ((D + 1 / 1000) * 1 + 1 / 1000 * 1) < 1 / 10000) ∧ (1 : ℝ) < 0) := fun w => n3 w.2
        have b2 : (1 - D + ((D + 1 / 1000) * 1 + 1 / 1000 * 1) > 1 - 1 / 10000) ∧ (0 : ℝ) < 1 := ⟨by linarith, one_pos⟩
        rw [if_neg b1, if_pos b2] at hb
        have k := key (1 + 2 / 1000) (-1) (by rw [hz, q, s1]; ring) (by rw [q]) (by rw [hb, q]; simp)
        rw [k, if_neg n1, s2]
        norm_num
      · have hz : h.place.g.z = D := by
          rw [q, if_neg n1] at hre
          split_ifs at hre
          injection hre with hre
          exact hre.symm
        have hb := bs (-1) q
        rw [hz, s2] at hb
        have b1 : (D + ((D + 1 / 1000) * (-1) + 1 / 1000 * (-1)) < 1 / 10000) ∧ (-1 : ℝ) < 0 := ⟨by linarith, by norm_num⟩
        have b2 : ¬ ((D + ((D + 1 / 1000) * (-1) + 1 / 1000 * (-1)) > 1 - 1 / 10000) ∧ (0 : ℝ) < -1) := fun w => n2 w.2
        rw [if_pos b1, if_neg b2] at hb
        have k := key (-(2 / 1000)) 1 (by rw [hz, q, s2]; ring) (by rw [q]; norm_num) (by rw [hb, q, if_neg n1, if_neg n1])
        rw [k, if_pos rfl, s1]
        norm_num
    rw [fin]
    show 1 - (1 - Real.exp (-1 * (999 / 1000))) = _
    rw [neg_one_mul]
    ring

theorem rodScatter (g : Nat) (hg : g < 2) : scatters 2 rodD g = 1 / 2 := by
  interval_cases g <;> norm_num [scatters, Finset.sum_range_succ, rodD]

theorem rodDrift : Drift rodEnv rodXs 2 rodD RodState (fun h => 1 + through rodXs h / 4) (5 / 4) (14 / 15) where
  q0 := by norm_num
  q1 := by norm_num
  lo := fun h hI => by have := (through_range rodClosed h hI).1; linarith
  hi := fun h hI => by have := (through_range rodClosed h hI).2; linarith
  falls := by
    intro h hI ha
    obtain ⟨t0, t1⟩ := through_range rodClosed h hI
    refine ⟨7 / 6, by norm_num, fun r h' hr hx hp => ?_, ?_⟩
    · rw [rodBack h h' hI r hr hx hp]
      have h1 : Real.exp (-(999 / 1000)) ≤ 2 / 3 := by
        rw [Real.exp_neg, inv_le_comm₀ (Real.exp_pos _) (by norm_num)]
        have := Real.add_one_le_exp (999 / 1000 : ℝ)
        norm_num at this ⊢
        linarith
      linarith
    · rw [rodScatter _ hI.1]
      show _ + _ * (1 / 2 / 1 * (5 / 4)) ≤ _
      linarith

noncomputable def rodStart (g : Nat) : Hist ℝ :=
  { w := 1, group := g, id := 0, place := ⟨1 / 2, 1 / 2, ⟨1 / 2, 1 / 2, 1 / 2⟩⟩, o := ⟨0, 0, 1⟩, reg := 0, xsreg := 0, coincident := -1, alive := true
    loc := rodLoc, n := 0, t := ⟨0, 0, fun _ => 0, fun _ _ => 0, fun _ _ => 0, fun _ _ => 0⟩, bank := [] }

/-- A fission neutron in the rod banks 5/6 of a particle on average over its history, the k of the infinite medium, and so score both estimators. -/
example : Tendsto (fun m => mean rodEnv (fun h => ENNReal.ofReal h.t.kTl) m (rodStart 0)) atTop (𝓝 (ENNReal.ofReal (5 / 6))) ∧
    Tendsto (fun m => mean rodEnv (fun h => ENNReal.ofReal h.t.kCol) m (rodStart 0)) atTop (𝓝 (ENNReal.ofReal (5 / 6))) ∧
    Tendsto (fun m => mean rodEnv (fun h => (h.bank.length : ℝ≥0∞)) m (rodStart 0)) atTop (𝓝 (ENNReal.ofReal (5 / 6))) := by
  obtain ⟨gain, h1, h2⟩ := C148_k rodClosed _ _ _ rodDrift (fun g hg => by rw [rodScatter g hg]; show (1 : ℝ) / 2 < 1; norm_num) rodStart
    (fun g hg => ⟨⟨hg, rfl, zero_le_one, rfl, rfl, rfl, Or.inl rfl⟩, rfl, rfl, rfl⟩) (fun g _ => ⟨rfl, rfl, rfl⟩)
  have k := h2 (fun g => if g = 0 then 2 else 1) (5 / 6) (by norm_num) (by norm_num [Finset.sum_range_succ, rodXs]) (fun g hg => by
    interval_cases g <;> norm_num [Finset.sum_range_succ, rodXs, rodD])
  have hg : gain 0 = 5 / 6 := by simpa [Finset.sum_range_succ, rodXs] using k
  rw [← hg]
  exact (h1 0 (by norm_num)).2

/-- After 100 passes fewer than one history in 500 is not over. -/
example : mean rodEnv (fun h => ENNReal.ofReal (if h.alive then h.w else 0)) 100 (rodStart 1) ≤ ENNReal.ofReal (1 / 500) := by
  have hI : RodState (rodStart 1) := ⟨by decide, rfl, zero_le_one, rfl, rfl, rfl, Or.inl rfl⟩
  refine (C148_ends rodClosed _ _ _ rodDrift 100 (rodStart 1) hI).trans (ENNReal.ofReal_le_ofReal ?_)
  rw [if_pos (show (rodStart 1).alive = true from rfl)]
  have := (through_range rodClosed _ hI).2
  show 1 * ((14 / 15 : ℝ) ^ 100 * (1 + through rodXs (rodStart 1) / 4)) ≤ _
  have h2 : (14 / 15 : ℝ) ^ 100 * (1 + through rodXs (rodStart 1) / 4) ≤ (14 / 15 : ℝ) ^ 100 * (5 / 4) := mul_le_mul_of_nonneg_left (by linarith) (by positivity)
  have h3 : (14 / 15 : ℝ) ^ 100 * (5 / 4) ≤ 1 / 500 := by norm_num
  linarith

end Verif.Mc
