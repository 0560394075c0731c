import Verif.Mc.LintLemmas

/-!
# The average of one pass of a history
-/

namespace Verif.Mc
open Verif.Mesh MeasureTheory ENNReal

/-! ### One pass -/

theorem meet_reflect (bc : Surface → Bc) (hbc : ∀ s, bc s = .reflect) (h h' : Hit ℝ) (s : Surface) (ha : h.alive = true) (hm : meetSurface bc h s = some h') : h'.alive = true := by
  unfold meetSurface at hm
  split at hm
  · injection hm with hm; rw [← hm]; exact ha
  · rw [hbc] at hm
    injection hm with hm
    rw [← hm]; exact ha

theorem cross_reflect (x : Extent ℝ) (bc : Surface → Bc) (hbc : ∀ s, bc s = .reflect) (bump d : ℝ) (o : Vec3 ℝ) (p p' : Place ℝ) (h : Hit ℝ)
    (hc : cross x bc bump d o p = some (p', h)) : h.alive = true := by
  unfold cross at hc
  simp only [Option.bind_eq_bind, Option.bind_eq_some_iff] at hc
  obtain ⟨h0, a0, h1, a1, h2, a2, hc⟩ := hc
  have := meet_reflect bc hbc _ _ _ (meet_reflect bc hbc _ _ _ (meet_reflect bc hbc _ _ _ rfl a0) a1) a2
  injection hc with hc
  injection hc with hc1 hc2
  rw [← hc2]; exact this

/-- What one pass does to weight, group, life and bank; `y` and `z` are the second and third number. -/
def PassFacts (X : Xs ℝ) (ng : Nat) (d : Nat → Nat → ℝ) (h h' : Hist ℝ) (y z : ℝ) (fate : Fate) : Prop :=
    h'.w = h.w ∧ (fate ≠ .collision → h'.alive = true ∧ h'.group = h.group ∧ h'.bank = h.bank) ∧
    (fate = .collision →
      (y * X.tr h.group ≤ scatters ng d h.group ∧ h'.alive = true ∧ h'.bank = h.bank ∧ h'.group < ng ∧
        (∑ j ∈ Finset.range h'.group, d j h.group) < z * scatters ng d h.group ∧
        z * scatters ng d h.group ≤ ∑ j ∈ Finset.range (h'.group + 1), d j h.group) ∨
      (scatters ng d h.group < y * X.tr h.group ∧
        y * X.tr h.group ≤ scatters ng d h.group + X.f h.group ∧ h'.alive = false ∧
        h'.bank.length = h.bank.length + ⌊h.w * (X.nf h.group / X.f h.group) + z⌋₊) ∨
      (scatters ng d h.group + X.f h.group < y * X.tr h.group ∧ h'.alive = false ∧ h'.bank = h.bank))

/-- What one pass does to weight, group, life and bank, when all boundaries reflect. -/
theorem pass_way (e : Env ℝ) (h h' : Hist ℝ) (ng : Nat) (d : Nat → Nat → ℝ) (hx : GoodXs (e.xs h.xsreg) ng d h.group) (hr : ∀ k, 0 < e.r k ∧ e.r k ≤ 1)
    (hbc : ∀ s, e.bc s = .reflect) (ha : h.alive = true) (tl : ℝ) (fate : Fate) (co : Int) (hl : leg e h = some (tl, fate, co)) (hc : pass e h = .ok h') :
    PassFacts (e.xs h.xsreg) ng d h h' (e.r (h.n + 1)) (e.r (h.n + 2)) fate := by
  unfold pass at hc
  rw [hl] at hc
  cases fate with
  | collision =>
    have ho := outcome e { h with n := h.n + 1, t := scoreTrack (e.xs h.xsreg) h tl, place := move e.bump tl h.o h.place, coincident := -1 } h' ng d hx hr hc
    refine ⟨?_, fun q => absurd rfl q, fun _ => ?_⟩
    · change collide e _ = _ at hc
      unfold collide at hc
      dsimp only at hc
      split at hc
      · cases hc
      · split at hc
        · split at hc
          · cases hc
          · split at hc
            · injection hc with hc; rw [← hc]
            · cases hc
        · split at hc
          · split at hc
            · cases hc
            · injection hc with hc; rw [← hc]
          · injection hc with hc; rw [← hc]
    · rcases ho with ⟨k1, k2, k3⟩ | k | k
      · exact Or.inl ⟨k1, k2.trans ha, k3⟩
      · exact Or.inr (Or.inl k)
      · exact Or.inr (Or.inr k)
  | inner =>
    simp only [act] at hc
    split at hc
    · cases hc
    · injection hc with hc
      subst hc
      exact ⟨rfl, fun _ => ⟨ha, rfl, rfl⟩, fun q => by cases q⟩
  | border =>
    simp only [act] at hc
    split at hc
    · cases hc
    · rename_i p hit hcr
      have hal := cross_reflect _ _ hbc _ _ _ _ _ _ hcr
      rw [if_pos hal] at hc
      unfold relocate at hc
      dsimp only at hc
      split at hc
      · cases hc
      · injection hc with hc
        subst hc
        exact ⟨rfl, fun _ => ⟨hal, rfl, rfl⟩, fun q => by cases q⟩

/-! ### Averages over histories -/

/-- The same environment with five random numbers replaced: a pass that starts at position `n` draws the flight with the first, the reaction with the
second, the new group or the number of new particles with the third and the new direction with the others. -/
noncomputable def Env.five (e : Env ℝ) (n : Nat) (x y z u v : ℝ) : Env ℝ := ((((e.draw (n + 4) v).draw (n + 3) u).draw (n + 2) z).draw (n + 1) y).draw n x

/-- At most `m` passes, each combined by `M` over environments; `F` of what comes out, zero if it is undefined. -/
noncomputable def averaged (M : Nat → (Env ℝ → ℝ≥0∞) → ℝ≥0∞) (F : Hist ℝ → ℝ≥0∞) : Nat → Hist ℝ → ℝ≥0∞
  | 0, h => F h
  | m + 1, h => if h.alive then M h.n (fun e => match pass e h with | .ok h' => averaged M F m h' | _ => 0) else F h

/-- The average of `F` after at most `m` passes: each pass is averaged over the numbers it draws. -/
noncomputable def mean (e : Env ℝ) (F : Hist ℝ → ℝ≥0∞) (m : Nat) (h : Hist ℝ) : ℝ≥0∞ :=
  averaged (fun n f => over5 fun x y z u v => f (e.five n x y z u v)) F m h

/-- Factors of the scores: the estimators of k by track length and by collisions, the number of banked particles and the fluxes by group. -/
structure Coef where
  tl : ℝ
  col : ℝ
  bank : ℝ
  fine : Nat → ℝ
  fineCol : Nat → ℝ

/-- A sum of scores; fluxes are those of all regions together. -/
noncomputable def Coef.score (c : Coef) (ng N : Nat) (h : Hist ℝ) : ℝ :=
  c.tl * h.t.kTl + c.col * h.t.kCol + c.bank * h.bank.length +
    ∑ g ∈ Finset.range ng, ∑ i ∈ Finset.range N, (c.fine g * h.t.fine g i + c.fineCol g * h.t.fineCol g i)

/-- What a collision in group `g` is worth by itself, times the cross section. -/
def Coef.rate (c : Coef) (X : Xs ℝ) (g : Nat) : ℝ := c.tl * X.nf g + c.fine g + (c.col * X.nf g + c.fineCol g) + c.bank * X.nf g

structure Coef.Nonneg (c : Coef) : Prop where
  tl : 0 ≤ c.tl
  col : 0 ≤ c.col
  bank : 0 ≤ c.bank
  fine : ∀ g, 0 ≤ c.fine g
  fineCol : ∀ g, 0 ≤ c.fineCol g

theorem sum_one (ng N g0 i0 : Nat) (hg : g0 < ng) (hi : i0 < N) (f : Nat → ℝ) (v : ℝ) :
    ∑ g ∈ Finset.range ng, ∑ i ∈ Finset.range N, f g * (if g = g0 ∧ i = i0 then v else 0) = f g0 * v := by
  rw [Finset.sum_eq_single_of_mem g0 (Finset.mem_range.2 hg), Finset.sum_eq_single_of_mem i0 (Finset.mem_range.2 hi)]
  · simp
  · intro i _ hne; simp [hne]
  · intro g _ hne; simp [hne]

theorem score_after (c : Coef) (ng N : Nat) (h h' : Hist ℝ) (hg : h.group < ng) (hi : h.reg < N) (p q s u : ℝ) (h1 : h'.t.kTl = h.t.kTl + p)
    (h2 : h'.t.kCol = h.t.kCol + q) (h3 : ∀ g i, h'.t.fine g i = h.t.fine g i + if g = h.group ∧ i = h.reg then s else 0)
    (h4 : ∀ g i, h'.t.fineCol g i = h.t.fineCol g i + if g = h.group ∧ i = h.reg then u else 0) :
    c.score ng N h' = c.score ng N h + c.tl * p + c.col * q + c.bank * ((h'.bank.length : ℝ) - h.bank.length) + c.fine h.group * s + c.fineCol h.group * u := by
  have e : ∀ g i, c.fine g * h'.t.fine g i + c.fineCol g * h'.t.fineCol g i = (c.fine g * h.t.fine g i + c.fineCol g * h.t.fineCol g i) +
      (c.fine g * (if g = h.group ∧ i = h.reg then s else 0) + c.fineCol g * (if g = h.group ∧ i = h.reg then u else 0)) := by
    intro g i
    rw [h3, h4]; ring
  unfold Coef.score
  simp only [e, Finset.sum_add_distrib, sum_one ng N h.group h.reg hg hi]
  rw [h1, h2]
  ring

/-- A uniform medium from which nothing leaks: one set of cross sections, reflective boundaries and a set `I` of states on which every pass is defined. -/
structure Closed (e : Env ℝ) (X : Xs ℝ) (ng N : Nat) (d : Nat → Nat → ℝ) (I : Hist ℝ → Prop) : Prop where
  xs : ∀ i, e.xs i = X
  good : ∀ g < ng, GoodXs X ng d g
  nf : ∀ g < ng, 0 ≤ X.nf g
  nf0 : ∀ g < ng, X.f g = 0 → X.nf g = 0
  lg : e.lg = Real.log
  r : ∀ k, 0 < e.r k ∧ e.r k ≤ 1
  bc : ∀ s, e.bc s = .reflect
  grp : ∀ h, I h → h.group < ng
  reg : ∀ h, I h → h.reg < N
  w : ∀ h, I h → 0 ≤ h.w
  dist : ∀ h, I h → ∀ t, (h.loc.dist h.place.lx h.place.ly h.o h.coincident).1 = some t → 0 ≤ t
  pass : ∀ h, I h → h.alive = true → ∀ r : Nat → ℝ, (∀ k, 0 < r k ∧ r k ≤ 1) → ∃ h', pass { e with r := r } h = .ok h' ∧ I h'

/-- Probability that a flight comes to the end of the region. -/
noncomputable def through (X : Xs ℝ) (h : Hist ℝ) : ℝ := 1 - within (X.tr h.group) (reach h)

theorem five_range (e : Env ℝ) (hr : ∀ k, 0 < e.r k ∧ e.r k ≤ 1) (n : Nat) (x y z u v : ℝ) (x0 : 0 < x) (x1 : x < 1) (y0 : 0 < y) (y1 : y < 1) (z0 : 0 < z) (z1 : z < 1)
    (u0 : 0 < u) (u1 : u < 1) (v0 : 0 < v) (v1 : v < 1) (k : Nat) : 0 < (e.five n x y z u v).r k ∧ (e.five n x y z u v).r k ≤ 1 :=
  draw_range _ (draw_range _ (draw_range _ (draw_range _ (draw_range e hr _ v v0 v1) _ u u0 u1) _ z z0 z1) _ y y0 y1) _ x x0 x1 k

/-- The flight ends with a collision exactly for numbers above the probability to come through. -/
theorem way (e : Env ℝ) (X : Xs ℝ) (ng N : Nat) (d : Nat → Nat → ℝ) (I : Hist ℝ → Prop) (hC : Closed e X ng N d I) (h : Hist ℝ) (hI : I h) :
    ∃ a D : ℝ, 0 ≤ D ∧ 0 ≤ a ∧ a ≤ 1 ∧ a * Real.log a = -(a * (X.tr h.group * D)) ∧ through X h = a ∧
      ∀ x y z u v tl fate co, 0 < x → leg (e.five h.n x y z u v) h = some (tl, fate, co) →
        (x < a → tl = D ∧ fate ≠ .collision) ∧ (a < x → tl = -Real.log x / X.tr h.group ∧ fate = .collision) := by
  have hg := hC.grp h hI
  have hX := hC.good _ hg
  have hT := hX.tr
  have hx : GoodXs (e.xs h.xsreg) ng d h.group := by rw [hC.xs]; exact hX
  have hld : ∀ x y z u v tl fate co, 0 < x → leg (e.five h.n x y z u v) h = some (tl, fate, co) → _ := fun x y z u v tl fate co x0 hl =>
    leg_draw ((((e.draw (h.n + 4) v).draw (h.n + 3) u).draw (h.n + 2) z).draw (h.n + 1) y) h hC.lg hx.tr x x0 tl fate co hl
  have hxs : ∀ y z u v, ((((e.draw (h.n + 4) v).draw (h.n + 3) u).draw (h.n + 2) z).draw (h.n + 1) y).xs h.xsreg = X := fun y z u v => hC.xs _
  cases hr : reach h with
  | none =>
    refine ⟨0, 0, le_rfl, le_rfl, zero_le_one, by simp, by simp [through, within, hr], fun x y z u v tl fate co x0 hl => ⟨fun q => by linarith, fun _ => ?_⟩⟩
    have := hld x y z u v tl fate co x0 hl
    rw [hr, hxs] at this
    exact this
  | some D =>
    have hD := reach_nonneg h (hC.dist h hI) D hr
    refine ⟨Real.exp (-X.tr h.group * D), D, hD, (Real.exp_pos _).le, Real.exp_le_one_iff.2 (by nlinarith), by rw [Real.log_exp]; ring, by simp [through, within, hr],
      fun x y z u v tl fate co x0 hl => ?_⟩
    have := hld x y z u v tl fate co x0 hl
    rw [hr, hxs] at this
    dsimp only at this
    refine ⟨fun q => ?_, fun q => ?_⟩
    · have h1 : Real.log x < -X.tr h.group * D := (Real.log_lt_iff_lt_exp x0).2 q
      have h2 : D < -Real.log x / X.tr h.group := by rw [lt_div_iff₀ hT]; linarith
      exact ⟨by rw [this.1, min_eq_right h2.le], fun hf => absurd (this.2.1 hf) (not_lt.2 h2.le)⟩
    · have h1 : -X.tr h.group * D < Real.log x := (Real.lt_log_iff_exp_lt x0).2 q
      have h2 : -Real.log x / X.tr h.group < D := by rw [div_lt_iff₀ hT]; linarith
      exact ⟨by rw [this.1, min_eq_left h2.le], this.2.2 h2⟩

/-- The average of one pass; `nu0` is what a particle is worth at the end of the region, `nu` after scattering. -/
theorem step (e : Env ℝ) (X : Xs ℝ) (ng N : Nat) (d : Nat → Nat → ℝ) (I : Hist ℝ → Prop) (hC : Closed e X ng N d I) (c : Coef) (hc : c.Nonneg) (h : Hist ℝ) (hI : I h)
    (ha : h.alive = true) (nu0 : ℝ) (nu : Nat → ℝ) (hnu0 : 0 ≤ nu0) (hnu : ∀ j < ng, 0 ≤ nu j) (hs : 0 ≤ c.score ng N h)
    (h' : ℝ → ℝ → ℝ → ℝ → ℝ → Hist ℝ)
    (hp : ∀ x y z u v : ℝ, 0 < x → x < 1 → 0 < y → y < 1 → 0 < z → z < 1 → 0 < u → u < 1 → 0 < v → v < 1 → pass (e.five h.n x y z u v) h = .ok (h' x y z u v)) :
    (over5 fun x y z u v => ENNReal.ofReal (c.score ng N (h' x y z u v) +
      if (h' x y z u v).alive then h.w * (if x < through X h then nu0 else nu (h' x y z u v).group) else 0)) =
    ENNReal.ofReal (c.score ng N h + h.w * (through X h * nu0 + (1 - through X h) * ((c.rate X h.group + ∑ j ∈ Finset.range ng, d j h.group * nu j) / X.tr h.group))) := by
  have hg := hC.grp h hI
  have hi := hC.reg h hI
  have hw := hC.w h hI
  have hX := hC.good _ hg
  have hT := hX.tr
  have hnf := hC.nf _ hg
  have hx : GoodXs (e.xs h.xsreg) ng d h.group := by rw [hC.xs]; exact hX
  obtain ⟨a, D, hD, ha0, ha1, haD, hat, hway⟩ := way e X ng N d I hC h hI
  rw [hat]
  have r0 : ∀ x y z u v, (e.five h.n x y z u v).r h.n = x := fun x y z u v => draw_self _ _ _
  have r1 : ∀ x y z u v, (e.five h.n x y z u v).r (h.n + 1) = y := fun x y z u v => by
    unfold Env.five; rw [draw_ne _ _ _ _ (by omega), draw_self]
  have r2 : ∀ x y z u v, (e.five h.n x y z u v).r (h.n + 2) = z := fun x y z u v => by
    unfold Env.five; rw [draw_ne _ _ _ _ (by omega), draw_ne _ _ _ _ (by omega), draw_self]
  have rX : ∀ x y z u v, (e.five h.n x y z u v).xs h.xsreg = X := fun x y z u v => hC.xs _
  have all : ∀ x y z u v : ℝ, 0 < x → x < 1 → 0 < y → y < 1 → 0 < z → z < 1 → 0 < u → u < 1 → 0 < v → v < 1 → ∃ tl fate co, leg (e.five h.n x y z u v) h = some (tl, fate, co) ∧
      PassFacts X ng d h (h' x y z u v) y z fate ∧
      c.score ng N (h' x y z u v) = c.score ng N h + c.tl * (tl * (h.w * X.nf h.group)) + c.col * (if fate = .collision then h.w * X.nf h.group / X.tr h.group else 0) +
        c.bank * (((h' x y z u v).bank.length : ℝ) - h.bank.length) + c.fine h.group * (tl * h.w) +
        c.fineCol h.group * (if fate = .collision then h.w / X.tr h.group else 0) := by
    intro x y z u v a1 a2 a3 a4 a5 a6 a7 a8 a9 a10
    obtain ⟨tl, fate, co, k1, k2, k3, k4, k5⟩ := pass_scores _ _ _ (hp x y z u v a1 a2 a3 a4 a5 a6 a7 a8 a9 a10)
    have k6 := pass_way _ h _ ng d (by rw [rX]; exact hX) (five_range e hC.r h.n x y z u v a1 a2 a3 a4 a5 a6 a7 a8 a9 a10) hC.bc ha tl fate co k1
      (hp x y z u v a1 a2 a3 a4 a5 a6 a7 a8 a9 a10)
    have k7 := score_after c ng N h (h' x y z u v) hg hi _ _ _ _ (by rw [k2, mul_assoc]) k3 k4 k5
    rw [r1, r2, rX] at k6
    rw [rX] at k7
    exact ⟨tl, fate, co, k1, k6, k7⟩
  generalize hAll : c.score ng N h = A at *
  generalize hS : scatters ng d h.group = S at *
  have hS' : S = ∑ j ∈ Finset.range ng, d j h.group := hS.symm
  generalize hTT : X.tr h.group = T at *
  have hsum : S + X.f h.group ≤ T := by rw [hS', ← hTT]; exact hX.sum
  have hS0 : 0 ≤ S := by rw [hS']; exact Finset.sum_nonneg fun j hj => hX.nonneg j _ (Finset.mem_range.1 hj) hg
  have hF := hX.f
  have hct := hc.tl
  have hcc := hc.col
  have hcb := hc.bank
  have hcf := hc.fine h.group
  have hcg := hc.fineCol h.group
  have hST : S / T ≤ 1 := (div_le_one hT).2 (by linarith)
  have hSFT : (S + X.f h.group) / T ≤ 1 := (div_le_one hT).2 hsum
  have hST0 : 0 ≤ S / T := by positivity
  have hSSF : S / T ≤ (S + X.f h.group) / T := by gcongr; linarith
  rw [lint_pass _ ng (fun j => d j h.group) (fun j => h.w * nu j) a (h.w * (c.tl * X.nf h.group + c.fine h.group) / T)
    (A + D * (h.w * (c.tl * X.nf h.group + c.fine h.group)) + h.w * nu0) (A + h.w * (c.col * X.nf h.group + c.fineCol h.group) / T) c.bank
    (h.w * (X.nf h.group / X.f h.group)) S (X.f h.group) T ha0 ha1 (by positivity) (by positivity) (by positivity) hcb (by positivity)
    (fun j hj => hX.nonneg j _ hj hg) (fun j hj => mul_nonneg hw (hnu j hj)) hS' hF hT hsum]
  · congr 1
    have e1 : ∑ j ∈ Finset.range ng, d j h.group * (h.w * nu j) = h.w * ∑ j ∈ Finset.range ng, d j h.group * nu j := by
      rw [Finset.mul_sum]
      exact Finset.sum_congr rfl fun j _ => by ring
    have e2 : X.f h.group / T * (c.bank * (h.w * (X.nf h.group / X.f h.group))) = h.w * (c.bank * X.nf h.group) / T := by
      by_cases hz : X.f h.group = 0
      · rw [hz, hC.nf0 _ hg hz]; simp
      · field_simp
    rw [e1, e2, haD]
    unfold Coef.rate
    field_simp
    ring
  · intro x y z u v x0 x1 y0 y1 z0 z1 u0 u1 v0 v1
    obtain ⟨tl, fate, co, k1, k6, k7⟩ := all x y z u v x0 (x1.trans_le ha1) y0 y1 z0 z1 u0 u1 v0 v1
    obtain ⟨w1, w2⟩ := (hway x y z u v tl fate co x0 k1).1 x1
    obtain ⟨b1, b2, b3⟩ := k6.2.1 w2
    rw [k7, b1, b3, if_pos rfl, if_pos x1, w1, if_neg w2, if_neg w2]
    congr 1
    ring
  · intro x y z u v x0 x1 y0 y1 u0 u1 v0 v1 j hj z0 z1
    have hSp : 0 < S := by
      rcases hS0.lt_or_eq with h | h
      · exact h
      · rw [← h] at y1; simp at y1; linarith
    have m0 : ∀ j ≤ ng, 0 ≤ ∑ l ∈ Finset.range j, d l h.group := fun j hj => Finset.sum_nonneg fun l hl => hX.nonneg l _ (by have := Finset.mem_range.1 hl; omega) hg
    have mono : ∀ i k, i ≤ k → k ≤ ng → (∑ l ∈ Finset.range i, d l h.group) ≤ ∑ l ∈ Finset.range k, d l h.group := fun i k hik hk =>
      Finset.sum_le_sum_of_subset_of_nonneg (Finset.range_mono hik) fun l hl _ => hX.nonneg l _ (by have := Finset.mem_range.mp hl; omega) hg
    have zp : 0 < z := lt_of_le_of_lt (div_nonneg (m0 j hj.le) hS0) z0
    have zl : z < 1 := z1.trans_le ((div_le_one hSp).2 (by rw [hS']; exact mono _ _ hj le_rfl))
    obtain ⟨tl, fate, co, k1, k6, k7⟩ := all x y z u v (ha0.trans_lt x0) x1 y0 (y1.trans_le hST) zp zl u0 u1 v0 v1
    obtain ⟨w1, w2⟩ := (hway x y z u v tl fate co (ha0.trans_lt x0) k1).2 x0
    rw [lt_div_iff₀ hT] at y1
    rw [div_lt_iff₀ hSp] at z0
    rw [lt_div_iff₀ hSp] at z1
    have k8 := k6.2.2 w2
    simp only [hS, hTT] at k8
    rcases k8 with ⟨b1, b2, b3, b4, b5, b6⟩ | ⟨b1, -⟩ | ⟨b1, -⟩
    · have hj' : (h' x y z u v).group = j := by
        rcases lt_trichotomy (h' x y z u v).group j with q | q | q
        · have := mono _ _ (Nat.succ_le_of_lt q) hj.le
          simp only [Nat.succ_eq_add_one] at this
          linarith
        · exact q
        · have := mono (j + 1) _ (Nat.succ_le_of_lt q) b4.le
          linarith
      rw [k7, b2, b3, hj', if_pos rfl, if_neg (not_lt.2 x0.le), w1, if_pos w2, if_pos w2]
      congr 1
      field_simp
      ring
    · linarith
    · linarith
  · intro x y z u v x0 x1 y0 y1 z0 z1 u0 u1 v0 v1
    obtain ⟨tl, fate, co, k1, k6, k7⟩ := all x y z u v (ha0.trans_lt x0) x1 (hST0.trans_lt y0) (y1.trans_le hSFT) z0 z1 u0 u1 v0 v1
    obtain ⟨w1, w2⟩ := (hway x y z u v tl fate co (ha0.trans_lt x0) k1).2 x0
    rw [div_lt_iff₀ hT] at y0
    rw [lt_div_iff₀ hT] at y1
    have k8 := k6.2.2 w2
    simp only [hS, hTT] at k8
    rcases k8 with ⟨b1, -⟩ | ⟨b1, b2, b3, b4⟩ | ⟨b1, -⟩
    · linarith
    · rw [k7, b3, b4, w1, if_pos w2, if_pos w2, Nat.cast_add, add_sub_cancel_left]
      congr 1
      simp only [Bool.false_eq_true, if_false]
      field_simp
      ring
    · linarith
  · intro x y z u v x0 x1 y0 y1 z0 z1 u0 u1 v0 v1
    obtain ⟨tl, fate, co, k1, k6, k7⟩ := all x y z u v (ha0.trans_lt x0) x1 ((hST0.trans hSSF).trans_lt y0) y1 z0 z1 u0 u1 v0 v1
    obtain ⟨w1, w2⟩ := (hway x y z u v tl fate co (ha0.trans_lt x0) k1).2 x0
    rw [div_lt_iff₀ hT] at y0
    have k8 := k6.2.2 w2
    simp only [hS, hTT] at k8
    rcases k8 with ⟨b1, -⟩ | ⟨b1, b2, -⟩ | ⟨b1, b2, b3⟩
    · linarith
    · linarith
    · rw [k7, b2, b3, w1, if_pos w2, if_pos w2]
      congr 1
      simp only [Bool.false_eq_true, if_false]
      field_simp
      ring

end Verif.Mc
