import Verif.Mc.CollideProps
import Verif.Dir.Props
import Mathlib.Analysis.SpecialFunctions.Integrals.Basic
import Mathlib.Analysis.SpecialFunctions.Log.Basic

/-!
# C121: expected values of a history

Random numbers are uniform real numbers between zero and one; expected values are integrals over the one that matters, for any values of the others.
-/

namespace Verif.Mc

open Verif.Mesh MeasureTheory

/-- The same environment with the random number `n` replaced. -/
noncomputable def Env.draw (e : Env ℝ) (n : Nat) (x : ℝ) : Env ℝ := { e with r := Function.update e.r n x }

/-! ### Integrals -/

theorem integral_two (f : ℝ → ℝ) (u v : ℝ → ℝ) (a : ℝ) (h0 : 0 ≤ a) (h1 : a ≤ 1) (hu : ∀ x, 0 < x → x < a → f x = u x) (hv : ∀ x, a < x → x < 1 → f x = v x)
    (iu : IntervalIntegrable u volume 0 a) (iv : IntervalIntegrable v volume a 1) :
    ∫ x in (0 : ℝ)..1, f x = (∫ x in (0 : ℝ)..a, u x) + ∫ x in a..1, v x := by
  have e1 : Set.EqOn f u (Set.Ioo 0 a) := fun x hx => hu x hx.1 hx.2
  have e2 : Set.EqOn f v (Set.Ioo a 1) := fun x hx => hv x hx.1 hx.2
  have c1 : IntervalIntegrable f volume 0 a := IntervalIntegrable.congr_uIoo (f := u) (h := by rw [Set.uIoo_of_le h0]; exact e1.symm) (hf := iu)
  have c2 : IntervalIntegrable f volume a 1 := IntervalIntegrable.congr_uIoo (f := v) (h := by rw [Set.uIoo_of_le h1]; exact e2.symm) (hf := iv)
  rw [← intervalIntegral.integral_add_adjacent_intervals c1 c2, intervalIntegral.integral_congr_Ioo_of_le h0 e1, intervalIntegral.integral_congr_Ioo_of_le h1 e2]

/-- The integral of a function that is `c` between `a` and `b` and zero elsewhere. -/
theorem integral_share (f : ℝ → ℝ) (a b c : ℝ) (h0 : 0 ≤ a) (hab : a ≤ b) (h1 : b ≤ 1) (hin : ∀ x, a < x → x < b → f x = c) (hlo : ∀ x, 0 < x → x < a → f x = 0)
    (hhi : ∀ x, b < x → x < 1 → f x = 0) : ∫ x in (0 : ℝ)..1, f x = (b - a) * c := by
  have e1 : Set.EqOn f (fun _ => 0) (Set.Ioo 0 a) := fun x hx => hlo x hx.1 hx.2
  have e2 : Set.EqOn f (fun _ => c) (Set.Ioo a b) := fun x hx => hin x hx.1 hx.2
  have e3 : Set.EqOn f (fun _ => 0) (Set.Ioo b 1) := fun x hx => hhi x hx.1 hx.2
  have c1 : IntervalIntegrable f volume 0 a := IntervalIntegrable.congr_uIoo (f := fun _ => 0) (h := by rw [Set.uIoo_of_le h0]; exact e1.symm) (hf := intervalIntegrable_const)
  have c2 : IntervalIntegrable f volume a b := IntervalIntegrable.congr_uIoo (f := fun _ => c) (h := by rw [Set.uIoo_of_le hab]; exact e2.symm) (hf := intervalIntegrable_const)
  have c3 : IntervalIntegrable f volume b 1 := IntervalIntegrable.congr_uIoo (f := fun _ => 0) (h := by rw [Set.uIoo_of_le h1]; exact e3.symm) (hf := intervalIntegrable_const)
  rw [← intervalIntegral.integral_add_adjacent_intervals (c1.trans c2) c3, ← intervalIntegral.integral_add_adjacent_intervals c1 c2,
    intervalIntegral.integral_congr_Ioo_of_le h0 e1, intervalIntegral.integral_congr_Ioo_of_le hab e2, intervalIntegral.integral_congr_Ioo_of_le h1 e3,
    intervalIntegral.integral_const, intervalIntegral.integral_const, intervalIntegral.integral_const]
  simp

/-- Mean of a flight of which the cross section is `s`, cut off at `D`. -/
theorem mean_track (s D : ℝ) (hs : 0 < s) (hD : 0 ≤ D) : ∫ x in (0 : ℝ)..1, min (-Real.log x / s) D = (1 - Real.exp (-s * D)) / s := by
  have a0 : 0 < Real.exp (-s * D) := Real.exp_pos _
  have a1 : Real.exp (-s * D) ≤ 1 := Real.exp_le_one_iff.mpr (by nlinarith)
  rw [integral_two _ (fun _ => D) (fun x => (-1 / s) * Real.log x) (Real.exp (-s * D)) a0.le a1]
  · rw [intervalIntegral.integral_const, intervalIntegral.integral_const_mul, integral_log, Real.log_one, Real.log_exp]
    simp only [smul_eq_mul]
    field_simp
    ring
  · intro x h0 h1
    have : Real.log x < -s * D := (Real.log_lt_iff_lt_exp h0).mpr h1
    rw [min_eq_right]
    rw [le_div_iff₀ hs]
    linarith
  · intro x h0 h1
    have : -s * D < Real.log x := (Real.lt_log_iff_exp_lt (a0.trans h0)).mpr h0
    rw [min_eq_left]
    · ring
    · rw [div_le_iff₀ hs]
      linarith
  · exact intervalIntegrable_const
  · exact intervalIntegral.intervalIntegrable_log'.const_mul _

/-- Mean of a flight without end. -/
theorem mean_flight (s : ℝ) : ∫ x in (0 : ℝ)..1, -Real.log x / s = 1 / s := by
  have e : (fun x : ℝ => -Real.log x / s) = fun x => (-1 / s) * Real.log x := by
    funext x
    ring
  rw [e, intervalIntegral.integral_const_mul, integral_log, Real.log_one, Real.log_zero]
  ring

/-- Share of the random numbers with which a flight ends before `D`. -/
theorem share_collision (s D : ℝ) (hs : 0 < s) (hD : 0 ≤ D) (f : ℝ → ℝ) (c : ℝ) (h1 : ∀ x, 0 < x → x < 1 → -Real.log x / s < D → f x = c)
    (h2 : ∀ x, 0 < x → x < 1 → ¬ -Real.log x / s < D → f x = 0) : ∫ x in (0 : ℝ)..1, f x = (1 - Real.exp (-s * D)) * c := by
  have a0 : 0 < Real.exp (-s * D) := Real.exp_pos _
  have a1 : Real.exp (-s * D) ≤ 1 := Real.exp_le_one_iff.mpr (by nlinarith)
  apply integral_share f _ 1 c a0.le a1 le_rfl
  · intro x h0 hx
    refine h1 x (a0.trans h0) hx ?_
    have : -s * D < Real.log x := (Real.lt_log_iff_exp_lt (a0.trans h0)).mpr h0
    rw [div_lt_iff₀ hs]
    linarith
  · intro x h0 hx
    refine h2 x h0 (hx.trans_le a1) ?_
    have : Real.log x < -s * D := (Real.log_lt_iff_lt_exp h0).mpr hx
    rw [not_lt, le_div_iff₀ hs]
    linarith
  · intro x h0 hx
    linarith

/-! ### A flight -/

/-- What a collision scores, whatever comes out of it. -/
theorem collide_scores (e : Env ℝ) (h h' : Hist ℝ) (hc : collide e h = .ok h') :
    h'.t = { h.t with kCol := h.t.kCol + h.w * (e.xs h.xsreg).nf h.group / (e.xs h.xsreg).tr h.group
                      fineCol := add2 h.t.fineCol h.group h.reg (h.w / (e.xs h.xsreg).tr h.group) } := by
  unfold collide at hc
  dsimp only at hc
  split at hc
  · cases hc
  · split at hc
    · split at hc
      · cases hc
      · split at hc
        · injection hc with hc; rw [← hc]
        · cases hc
    · split at hc
      · split at hc
        · cases hc
        · injection hc with hc; rw [← hc]
      · injection hc with hc; rw [← hc]

theorem relocate_tallies (e : Env ℝ) (h h' : Hist ℝ) (hc : relocate e h = .ok h') : h'.t = h.t := by
  unfold relocate at hc
  dsimp only at hc
  split at hc
  · cases hc
  · injection hc with hc; rw [← hc]

/-- The scores of one pass. -/
theorem pass_scores (e : Env ℝ) (h h' : Hist ℝ) (hc : pass e h = .ok h') :
    ∃ tl fate co, leg e h = some (tl, fate, co) ∧ h'.t.kTl = h.t.kTl + tl * h.w * (e.xs h.xsreg).nf h.group ∧
      h'.t.kCol = h.t.kCol + (if fate = .collision then h.w * (e.xs h.xsreg).nf h.group / (e.xs h.xsreg).tr h.group else 0) ∧
      (∀ g i, h'.t.fine g i = h.t.fine g i + if g = h.group ∧ i = h.reg then tl * h.w else 0) ∧
      (∀ g i, h'.t.fineCol g i = h.t.fineCol g i + if g = h.group ∧ i = h.reg then (if fate = .collision then h.w / (e.xs h.xsreg).tr h.group else 0) else 0) := by
  unfold pass at hc
  split at hc
  · cases hc
  · rename_i tl fate co hl
    refine ⟨tl, fate, co, hl, ?_⟩
    cases fate with
    | collision =>
      have ht := collide_scores _ _ _ hc
      refine ⟨by rw [ht]; rfl, by rw [ht, if_pos rfl]; rfl, fun g i => by rw [ht]; exact add2_at _ _ _ _ g i, fun g i => ?_⟩
      rw [ht, if_pos rfl]
      exact add2_at _ _ _ _ g i
    | inner =>
      have ht : h'.t = scoreTrack (e.xs h.xsreg) h tl := by
        unfold act at hc
        dsimp only at hc
        split at hc
        · cases hc
        · injection hc with hc; rw [← hc]
      simp [ht, scoreTrack, add2_at]
    | border =>
      have ht : h'.t = scoreTrack (e.xs h.xsreg) h tl := by
        unfold act at hc
        dsimp only at hc
        split at hc
        · cases hc
        · split at hc
          · exact relocate_tallies _ _ _ hc
          · injection hc with hc; rw [← hc]
      simp [ht, scoreTrack, add2_at]

theorem axisDist_pos (lo hi x o : ℝ) (t : ℝ) (h : axisDist lo hi x o = some t) : 0 < t := by
  unfold axisDist at h
  split at h
  · cases h
  · dsimp only at h
    generalize (if 0 < o then (hi - x) / o else (lo - x) / o) = u at h
    split at h
    · rename_i hp
      injection h with h
      rw [← h]; exact hp
    · cases h

theorem minOpt_some (a b : Option ℝ) (P : ℝ → Prop) (ha : ∀ t, a = some t → P t) (hb : ∀ t, b = some t → P t) (t : ℝ) (h : minOpt a b = some t) : P t := by
  cases a with
  | none => exact hb t h
  | some x =>
    cases b with
    | none => exact ha t h
    | some y =>
      simp only [minOpt, Option.some.injEq] at h
      rcases le_total x y with hxy | hxy
      · rw [min_eq_left hxy] at h; exact ha t (by rw [h])
      · rw [min_eq_right hxy] at h; exact hb t (by rw [h])

/-- The distance to the end of the region: the next surface in the pin or the boundary of the pin, whichever is nearer. -/
noncomputable def reach (h : Hist ℝ) : Option ℝ := minOpt (distanceToPin h.loc.lo h.loc.hi h.place.g h.o) (h.loc.dist h.place.lx h.place.ly h.o h.coincident).1

theorem reach_eq (h : Hist ℝ) :
    (if ltOpt (distanceToPin h.loc.lo h.loc.hi h.place.g h.o) (h.loc.dist h.place.lx h.place.ly h.o h.coincident).1
      then distanceToPin h.loc.lo h.loc.hi h.place.g h.o else (h.loc.dist h.place.lx h.place.ly h.o h.coincident).1) = reach h := by
  unfold reach
  generalize distanceToPin h.loc.lo h.loc.hi h.place.g h.o = a
  generalize (h.loc.dist h.place.lx h.place.ly h.o h.coincident).1 = b
  cases a with
  | none => simp [ltOpt, minOpt]
  | some x =>
    cases b with
    | none => simp [ltOpt, minOpt]
    | some y =>
      simp only [ltOpt, minOpt, decide_eq_true_eq]
      split
      · rename_i hlt; rw [min_eq_left hlt.le]
      · rename_i hlt; rw [min_eq_right (not_lt.mp hlt)]

theorem reach_nonneg (h : Hist ℝ) (hd : ∀ t, (h.loc.dist h.place.lx h.place.ly h.o h.coincident).1 = some t → 0 ≤ t) (t : ℝ) (hr : reach h = some t) : 0 ≤ t := by
  refine minOpt_some _ _ (0 ≤ ·) (fun t ht => ?_) hd t hr
  unfold distanceToPin at ht
  exact minOpt_some _ _ (0 ≤ ·) (fun t ht => (axisDist_pos _ _ _ _ t ht).le)
    (fun t ht => minOpt_some _ _ (0 ≤ ·) (fun t ht => (axisDist_pos _ _ _ _ t ht).le)
      (fun t ht => minOpt_some _ _ (0 ≤ ·) (fun t ht => (axisDist_pos _ _ _ _ t ht).le) (fun t ht => by cases ht) t ht) t ht) t ht

/-- Length and end of a flight as functions of the random number. -/
theorem leg_draw (e : Env ℝ) (h : Hist ℝ) (hlg : e.lg = Real.log) (htr : 0 < (e.xs h.xsreg).tr h.group) (x : ℝ) (hx : 0 < x) (tl : ℝ) (fate : Fate) (co : Int)
    (hl : leg (e.draw h.n x) h = some (tl, fate, co)) :
    match reach h with
    | none => tl = -Real.log x / (e.xs h.xsreg).tr h.group ∧ fate = .collision
    | some D => tl = min (-Real.log x / (e.xs h.xsreg).tr h.group) D ∧ (fate = .collision ↔ -Real.log x / (e.xs h.xsreg).tr h.group < D) := by
  unfold leg at hl
  dsimp only at hl
  rw [reach_eq] at hl
  have hf : flight (e.draw h.n x).lg ((e.draw h.n x).r h.n) (((e.draw h.n x).xs h.xsreg).tr h.group) = some (-Real.log x / (e.xs h.xsreg).tr h.group) := by
    have h1 : (e.draw h.n x).r h.n = x := Function.update_self _ _ _
    have h2 : (e.draw h.n x).lg = Real.log := hlg
    rw [h1, h2]
    unfold flight
    rw [if_neg]
    · rfl
    · rintro (h | h)
      · exact hx.ne' h
      · exact htr.ne' h
  rw [hf] at hl
  generalize (if ltOpt (distanceToPin h.loc.lo h.loc.hi h.place.g h.o) (h.loc.dist h.place.lx h.place.ly h.o h.coincident).1 then true
    else (h.loc.dist h.place.lx h.place.ly h.o h.coincident).2.1) = pin at hl
  cases hr : reach h with
  | none =>
    rw [hr] at hl
    simp only [minOpt, Option.map_some, ltOpt, if_true, Option.some.injEq, Prod.mk.injEq] at hl
    exact ⟨hl.1.symm, hl.2.1.symm⟩
  | some D =>
    rw [hr] at hl
    simp only [minOpt, Option.map_some, ltOpt, decide_eq_true_eq, Option.some.injEq, Prod.mk.injEq] at hl
    refine ⟨hl.1.symm, ?_⟩
    rw [← hl.2.1]
    by_cases hlt : -Real.log x / (e.xs h.xsreg).tr h.group < D
    · rw [if_pos hlt]; exact ⟨fun _ => hlt, fun _ => rfl⟩
    · rw [if_neg hlt]
      refine ⟨fun h => ?_, fun h => absurd h hlt⟩
      cases pin <;> cases h

/-- Probability of a collision within a distance. -/
noncomputable def within (s : ℝ) : Option ℝ → ℝ
  | none => 1
  | some D => 1 - Real.exp (-s * D)

/-- C121: the track-length estimators and the collision estimators of k and of the flux score the same on average in every flight. -/
theorem C121_flight (e : Env ℝ) (h : Hist ℝ) (h' : ℝ → Hist ℝ) (hlg : e.lg = Real.log) (htr : 0 < (e.xs h.xsreg).tr h.group)
    (hd : ∀ t, (h.loc.dist h.place.lx h.place.ly h.o h.coincident).1 = some t → 0 ≤ t)
    (hp : ∀ x, 0 < x → x < 1 → pass (e.draw h.n x) h = .ok (h' x)) :
    (∫ x in (0 : ℝ)..1, ((h' x).t.kTl - h.t.kTl)) = within ((e.xs h.xsreg).tr h.group) (reach h) * (h.w * (e.xs h.xsreg).nf h.group / (e.xs h.xsreg).tr h.group) ∧
    (∫ x in (0 : ℝ)..1, ((h' x).t.kCol - h.t.kCol)) = within ((e.xs h.xsreg).tr h.group) (reach h) * (h.w * (e.xs h.xsreg).nf h.group / (e.xs h.xsreg).tr h.group) ∧
    ∀ g i, (∫ x in (0 : ℝ)..1, ((h' x).t.fine g i - h.t.fine g i)) =
        (if g = h.group ∧ i = h.reg then within ((e.xs h.xsreg).tr h.group) (reach h) * (h.w / (e.xs h.xsreg).tr h.group) else 0) ∧
      (∫ x in (0 : ℝ)..1, ((h' x).t.fineCol g i - h.t.fineCol g i)) =
        if g = h.group ∧ i = h.reg then within ((e.xs h.xsreg).tr h.group) (reach h) * (h.w / (e.xs h.xsreg).tr h.group) else 0 := by
  set s := (e.xs h.xsreg).tr h.group with hs
  set nf := (e.xs h.xsreg).nf h.group with hnf
  set X : ℝ → ℝ := fun x => match reach h with | none => -Real.log x / s | some D => min (-Real.log x / s) D with hX
  set C : ℝ → Prop := fun x => match reach h with | none => True | some D => -Real.log x / s < D with hC
  have key : ∀ x, 0 < x → x < 1 → (h' x).t.kTl - h.t.kTl = X x * h.w * nf ∧ (C x → (h' x).t.kCol - h.t.kCol = h.w * nf / s) ∧ (¬ C x → (h' x).t.kCol - h.t.kCol = 0) ∧
      (∀ g i, (h' x).t.fine g i - h.t.fine g i = if g = h.group ∧ i = h.reg then X x * h.w else 0) ∧
      (C x → ∀ g i, (h' x).t.fineCol g i - h.t.fineCol g i = if g = h.group ∧ i = h.reg then h.w / s else 0) ∧
      (¬ C x → ∀ g i, (h' x).t.fineCol g i - h.t.fineCol g i = 0) := by
    intro x h0 h1
    obtain ⟨tl, fate, co, a1, a2, a3, a4, a5⟩ := pass_scores _ _ _ (hp x h0 h1)
    have a6 := leg_draw e h hlg htr x h0 tl fate co a1
    have b : tl = X x ∧ (fate = .collision ↔ C x) := by
      rw [hX, hC]
      dsimp only
      cases hr : reach h with
      | none => rw [hr] at a6; exact ⟨a6.1, ⟨fun _ => trivial, fun _ => a6.2⟩⟩
      | some D => rw [hr] at a6; exact a6
    refine ⟨?_, fun hc => ?_, fun hc => ?_, fun g i => ?_, fun hc g i => ?_, fun hc g i => ?_⟩
    · rw [a2, b.1]; exact add_sub_cancel_left _ _
    · rw [a3, if_pos (b.2.mpr hc)]; exact add_sub_cancel_left _ _
    · rw [a3, if_neg (fun hf => hc (b.2.mp hf)), add_zero, sub_self]
    · rw [a4, b.1]; exact add_sub_cancel_left _ _
    · rw [a5, if_pos (b.2.mpr hc)]; exact add_sub_cancel_left _ _
    · rw [a5, if_neg (fun hf => hc (b.2.mp hf))]; simp
  have iX : ∫ x in (0 : ℝ)..1, X x = within s (reach h) / s := by
    rw [hX]
    cases hr : reach h with
    | none => exact mean_flight s
    | some D => exact mean_track s D htr (reach_nonneg h hd D hr)
  have iC : ∀ (f : ℝ → ℝ) (c : ℝ), (∀ x, 0 < x → x < 1 → C x → f x = c) → (∀ x, 0 < x → x < 1 → ¬ C x → f x = 0) → ∫ x in (0 : ℝ)..1, f x = within s (reach h) * c := by
    intro f c f1 f2
    rw [hC] at f1 f2
    cases hr : reach h with
    | none =>
      rw [hr] at f1
      refine (integral_share f 0 1 c le_rfl zero_le_one le_rfl (fun x a b => f1 x a b trivial) (fun x a b => by linarith) (fun x a b => by linarith)).trans ?_
      simp [within]
    | some D =>
      rw [hr] at f1 f2
      exact share_collision s D htr (reach_nonneg h hd D hr) f c f1 f2
  have iL : ∀ (f : ℝ → ℝ) (c : ℝ), (∀ x, 0 < x → x < 1 → f x = X x * c) → ∫ x in (0 : ℝ)..1, f x = within s (reach h) / s * c := by
    intro f c hf
    rw [intervalIntegral.integral_congr_Ioo_of_le (g := fun x => X x * c) zero_le_one (fun x hx => hf x hx.1 hx.2), intervalIntegral.integral_mul_const, iX]
  refine ⟨?_, ?_, fun g i => ⟨?_, ?_⟩⟩
  · rw [iL _ (h.w * nf) (fun x a b => by rw [(key x a b).1, mul_assoc])]; ring
  · exact iC _ _ (fun x a b c => (key x a b).2.1 c) (fun x a b c => (key x a b).2.2.1 c)
  · by_cases hgi : g = h.group ∧ i = h.reg
    · rw [if_pos hgi, iL _ h.w (fun x a b => by rw [(key x a b).2.2.2.1, if_pos hgi])]; ring
    · rw [if_neg hgi, iL _ 0 (fun x a b => by rw [(key x a b).2.2.2.1, if_neg hgi, mul_zero]), mul_zero]
  · by_cases hgi : g = h.group ∧ i = h.reg
    · rw [if_pos hgi]
      exact iC _ _ (fun x a b c => by rw [(key x a b).2.2.2.2.1 c, if_pos hgi]) (fun x a b c => (key x a b).2.2.2.2.2 c g i)
    · rw [if_neg hgi, iC _ 0 (fun x a b c => by rw [(key x a b).2.2.2.2.1 c, if_neg hgi]) (fun x a b c => (key x a b).2.2.2.2.2 c g i), mul_zero]

/-! ### A collision -/

theorem integral_prod2 (F : ℝ → ℝ → ℝ) (u v : ℝ → ℝ) (h : ∀ x y, 0 < x → x < 1 → 0 < y → y < 1 → F x y = u x * v y) :
    ∫ x in (0 : ℝ)..1, ∫ y in (0 : ℝ)..1, F x y = (∫ x in (0 : ℝ)..1, u x) * ∫ y in (0 : ℝ)..1, v y := by
  rw [intervalIntegral.integral_congr_Ioo_of_le (g := fun x => u x * ∫ y in (0 : ℝ)..1, v y) zero_le_one (fun x hx => ?_), intervalIntegral.integral_mul_const]
  dsimp only
  rw [intervalIntegral.integral_congr_Ioo_of_le (g := fun y => u x * v y) zero_le_one (fun y hy => h x y hx.1 hx.2 hy.1 hy.2), intervalIntegral.integral_const_mul]

theorem scatters_nonneg (xs : Xs ℝ) (ng : Nat) (d : Nat → Nat → ℝ) (g : Nat) (hx : GoodXs xs ng d g) : 0 ≤ scatters ng d g :=
  Finset.sum_nonneg fun j hj => hx.nonneg j g (Finset.mem_range.mp hj) hx.grp

/-- The three outcomes of a collision. -/
theorem outcome (e : Env ℝ) (h h' : Hist ℝ) (ng : Nat) (d : Nat → Nat → ℝ) (hx : GoodXs (e.xs h.xsreg) ng d h.group) (hr : ∀ k, 0 < e.r k ∧ e.r k ≤ 1)
    (hc : collide e h = .ok h') :
    (e.r h.n * (e.xs h.xsreg).tr h.group ≤ scatters ng d h.group ∧ h'.alive = h.alive ∧ h'.bank = h.bank ∧ h'.group < ng ∧
      (∑ j ∈ Finset.range h'.group, d j h.group) < e.r (h.n + 1) * scatters ng d h.group ∧
      e.r (h.n + 1) * scatters ng d h.group ≤ ∑ j ∈ Finset.range (h'.group + 1), d j h.group) ∨
    (scatters ng d h.group < e.r h.n * (e.xs h.xsreg).tr h.group ∧ e.r h.n * (e.xs h.xsreg).tr h.group ≤ scatters ng d h.group + (e.xs h.xsreg).f h.group ∧
      h'.alive = false ∧ h'.bank.length = h.bank.length + ⌊h.w * ((e.xs h.xsreg).nf h.group / (e.xs h.xsreg).f h.group) + e.r (h.n + 1)⌋₊) ∨
    (scatters ng d h.group + (e.xs h.xsreg).f h.group < e.r h.n * (e.xs h.xsreg).tr h.group ∧ h'.alive = false ∧ h'.bank = h.bank) := by
  rcases le_or_gt (e.r h.n * (e.xs h.xsreg).tr h.group) (scatters ng d h.group) with h1 | h1
  · obtain ⟨k, k1, k2, -, -, -, -, k3, -, k4, -, k5, k6, -⟩ := C80_scatter e h ng d hx (hr _).1 (hr _).2 (hr _).1 (hr _).2 h1
    rw [hc] at k1
    injection k1 with k1
    subst k1
    exact Or.inl ⟨h1, k2, k3, k4, k5, k6⟩
  · rcases le_or_gt (e.r h.n * (e.xs h.xsreg).tr h.group) (scatters ng d h.group + (e.xs h.xsreg).f h.group) with h2 | h2
    · obtain ⟨k, new, k1, k2, -, -, -, k3, k4, -⟩ := C80_fission e h ng d hx (hr _).1 (hr _).2 hr h1 h2
      rw [hc] at k1
      injection k1 with k1
      subst k1
      exact Or.inr (Or.inl ⟨h1, h2, k2, by rw [k3, List.length_append, k4]⟩)
    · obtain ⟨k, k1, k2, -, -, -, k3, -⟩ := C80_capture e h ng d hx (hr _).1 (hr _).2 h2
      rw [hc] at k1
      injection k1 with k1
      subst k1
      exact Or.inr (Or.inr ⟨h2, k2, k3⟩)

theorem draw_self (e : Env ℝ) (n : Nat) (x : ℝ) : (e.draw n x).r n = x := Function.update_self _ _ _

theorem draw_ne (e : Env ℝ) (n k : Nat) (x : ℝ) (h : k ≠ n) : (e.draw n x).r k = e.r k := Function.update_of_ne h _ _

theorem draw_range (e : Env ℝ) (hr : ∀ k, 0 < e.r k ∧ e.r k ≤ 1) (n : Nat) (x : ℝ) (h0 : 0 < x) (h1 : x < 1) (k : Nat) : 0 < (e.draw n x).r k ∧ (e.draw n x).r k ≤ 1 := by
  by_cases hk : k = n
  · subst hk; rw [draw_self]; exact ⟨h0, h1.le⟩
  · rw [draw_ne _ _ _ _ hk]; exact hr k

/-- C121: the expected number of particles that a collision banks is what the collision estimator of k scores in it, and the expected number that goes
on in group `j` is the share of the scattering to `j` in the total cross section. -/
theorem C121_collision (e : Env ℝ) (h : Hist ℝ) (h' : ℝ → ℝ → Hist ℝ) (ng : Nat) (d : Nat → Nat → ℝ) (hx : GoodXs (e.xs h.xsreg) ng d h.group)
    (hr : ∀ k, 0 < e.r k ∧ e.r k ≤ 1) (hw : 0 ≤ h.w) (hnf : 0 ≤ (e.xs h.xsreg).nf h.group) (hf : (e.xs h.xsreg).f h.group = 0 → (e.xs h.xsreg).nf h.group = 0)
    (ha : h.alive = true) (hp : ∀ x y, 0 < x → x < 1 → 0 < y → y < 1 → collide ((e.draw h.n x).draw (h.n + 1) y) h = .ok (h' x y)) :
    (∫ x in (0 : ℝ)..1, ∫ y in (0 : ℝ)..1, (((h' x y).bank.length : ℝ) - h.bank.length)) = h.w * (e.xs h.xsreg).nf h.group / (e.xs h.xsreg).tr h.group ∧
    (∀ x y, 0 < x → x < 1 → 0 < y → y < 1 → (h' x y).t.kCol - h.t.kCol = h.w * (e.xs h.xsreg).nf h.group / (e.xs h.xsreg).tr h.group) ∧
    ∀ j, j < ng → (∫ x in (0 : ℝ)..1, ∫ y in (0 : ℝ)..1, (if (h' x y).alive = true ∧ (h' x y).group = j then (1 : ℝ) else 0)) =
      d j h.group / (e.xs h.xsreg).tr h.group := by
  have htr := hx.tr
  have hs0 := scatters_nonneg _ ng d h.group hx
  have hout : ∀ x y : ℝ, 0 < x → x < 1 → 0 < y → y < 1 → _ := fun x y a b c b' =>
    outcome ((e.draw h.n x).draw (h.n + 1) y) h (h' x y) ng d hx (draw_range _ (draw_range e hr h.n x a b) _ y c b') (hp x y a b c b')
  have e1 : ∀ x y, ((e.draw h.n x).draw (h.n + 1) y).r h.n = x := fun x y => by rw [draw_ne _ _ _ _ (by omega), draw_self]
  have e2 : ∀ x y, ((e.draw h.n x).draw (h.n + 1) y).r (h.n + 1) = y := fun x y => draw_self _ _ _
  have e3 : ∀ x y, ((e.draw h.n x).draw (h.n + 1) y).xs = e.xs := fun _ _ => rfl
  simp only [e1, e2, e3] at hout
  generalize hS : scatters ng d h.group = S at *
  generalize hT : (e.xs h.xsreg).tr h.group = T at *
  generalize hF : (e.xs h.xsreg).f h.group = F at *
  generalize hN : (e.xs h.xsreg).nf h.group = N at *
  have hF0 : 0 ≤ F := hF ▸ hx.f
  have hsum : S + F ≤ T := by rw [← hS, ← hF, ← hT]; exact hx.sum
  have hlt : ∀ x a, x * T ≤ a ↔ x ≤ a / T := fun x a => (le_div_iff₀ htr).symm
  have hgt : ∀ x a, a < x * T ↔ a / T < x := fun x a => (div_lt_iff₀ htr).symm
  simp only [hlt, hgt] at hout
  refine ⟨?_, fun x y a b c b' => ?_, fun j hj => ?_⟩
  · rw [integral_share _ (S / T) ((S + F) / T) (h.w * (N / F)) (by positivity) (by gcongr; linarith) ((div_le_one htr).mpr hsum) ?_ ?_ ?_]
    · by_cases h0 : F = 0
      · rw [h0, hf h0]; simp
      · field_simp
        ring
    · intro x a b
      have a0 : 0 < x := lt_of_le_of_lt (by positivity) a
      have b1 : x < 1 := b.trans_le ((div_le_one htr).mpr hsum)
      rw [← C80_mean (h.w * (N / F)) (by positivity)]
      refine intervalIntegral.integral_congr_Ioo_of_le zero_le_one fun y hy => ?_
      rcases hout x y a0 b1 hy.1 hy.2 with ⟨k, -⟩ | ⟨-, -, -, k⟩ | ⟨k, -⟩
      · linarith
      · rw [k, Nat.cast_add, add_sub_cancel_left]
      · linarith
    · intro x a b
      have b1 : x < 1 := b.trans_le ((div_le_one htr).mpr (by linarith))
      rw [intervalIntegral.integral_congr_Ioo_of_le (g := fun _ => (0 : ℝ)) zero_le_one fun y hy => ?_, intervalIntegral.integral_zero]
      rcases hout x y a b1 hy.1 hy.2 with ⟨-, -, k, -⟩ | ⟨k, -⟩ | ⟨-, -, k⟩
      · dsimp only; rw [k, sub_self]
      · linarith
      · dsimp only; rw [k, sub_self]
    · intro x a b
      have a0 : 0 < x := lt_of_le_of_lt (by positivity) a
      rw [intervalIntegral.integral_congr_Ioo_of_le (g := fun _ => (0 : ℝ)) zero_le_one fun y hy => ?_, intervalIntegral.integral_zero]
      rcases hout x y a0 b hy.1 hy.2 with ⟨-, -, k, -⟩ | ⟨-, k, -⟩ | ⟨-, -, k⟩
      · dsimp only; rw [k, sub_self]
      · linarith
      · dsimp only; rw [k, sub_self]
  · rw [collide_scores _ _ _ (hp x y a b c b')]
    show _ + h.w * (e.xs h.xsreg).nf h.group / (e.xs h.xsreg).tr h.group - _ = _
    rw [hN, hT, add_sub_cancel_left]
  · have part : ∀ i, i ≤ ng → 0 ≤ (∑ l ∈ Finset.range i, d l h.group) ∧ (∑ l ∈ Finset.range i, d l h.group) ≤ S := by
      intro i hi
      refine ⟨Finset.sum_nonneg fun l hl => hx.nonneg l _ (by have := Finset.mem_range.mp hl; omega) hx.grp, ?_⟩
      rw [← hS]
      exact Finset.sum_le_sum_of_subset_of_nonneg (Finset.range_mono hi) fun l hl _ => hx.nonneg l _ (Finset.mem_range.mp hl) hx.grp
    have mono : ∀ i k, i ≤ k → k ≤ ng → (∑ l ∈ Finset.range i, d l h.group) ≤ ∑ l ∈ Finset.range k, d l h.group := fun i k hik hk =>
      Finset.sum_le_sum_of_subset_of_nonneg (Finset.range_mono hik) fun l hl _ => hx.nonneg l _ (by have := Finset.mem_range.mp hl; omega) hx.grp
    have succ : (∑ l ∈ Finset.range (j + 1), d l h.group) = (∑ l ∈ Finset.range j, d l h.group) + d j h.group := Finset.sum_range_succ _ _
    rw [integral_share _ 0 (S / T) (d j h.group / S) le_rfl (by positivity) ((div_le_one htr).mpr (by linarith)) ?_ ?_ ?_]
    · by_cases h0 : S = 0
      · have : d j h.group = 0 := by
          have h1 := (part (j + 1) hj).2
          have h2 := (part j hj.le).1
          have h3 := hx.nonneg j h.group hj hx.grp
          linarith
        rw [h0, this]; simp
      · field_simp
        ring
    · intro x a b
      have b1 : x < 1 := b.trans_le ((div_le_one htr).mpr (by linarith))
      have hSp : 0 < S := by
        by_contra hc
        have : S = 0 := le_antisymm (not_lt.mp hc) hs0
        rw [this, zero_div] at b
        linarith
      have sel : ∀ y, 0 < y → y < 1 → (h' x y).alive = true ∧ (h' x y).group < ng ∧ (∑ l ∈ Finset.range (h' x y).group, d l h.group) < y * S ∧
          y * S ≤ ∑ l ∈ Finset.range ((h' x y).group + 1), d l h.group := by
        intro y c c'
        rcases hout x y a b1 c c' with ⟨-, k1, -, k2, k3, k4⟩ | ⟨k, -⟩ | ⟨k, -⟩
        · exact ⟨k1.trans ha, k2, k3, k4⟩
        · linarith
        · have : S / T ≤ (S + F) / T := by gcongr; linarith
          linarith
      rw [integral_share _ ((∑ l ∈ Finset.range j, d l h.group) / S) ((∑ l ∈ Finset.range (j + 1), d l h.group) / S) 1
        (div_nonneg (part j hj.le).1 hs0) ((div_le_div_iff_of_pos_right hSp).mpr (mono j (j + 1) (by omega) hj)) ((div_le_one hSp).mpr (part (j + 1) hj).2) ?_ ?_ ?_]
      · rw [succ]; ring
      · intro y c c'
        have c0 : 0 < y := lt_of_le_of_lt (div_nonneg (part j hj.le).1 hs0) c
        have c1 : y < 1 := c'.trans_le ((div_le_one hSp).mpr (part (j + 1) hj).2)
        obtain ⟨k1, k2, k3, k4⟩ := sel y c0 c1
        rw [div_lt_iff₀ hSp] at c
        rw [lt_div_iff₀ hSp] at c'
        rw [if_pos]
        refine ⟨k1, ?_⟩
        rcases Nat.lt_trichotomy (h' x y).group j with q | q | q
        · have := mono ((h' x y).group + 1) j (by omega) hj.le
          linarith
        · exact q
        · have := mono (j + 1) (h' x y).group (by omega) k2.le
          linarith
      · intro y c c'
        have c1 : y < 1 := c'.trans_le ((div_le_one hSp).mpr (part j hj.le).2)
        obtain ⟨k1, k2, k3, k4⟩ := sel y c c1
        rw [lt_div_iff₀ hSp] at c'
        rw [if_neg]
        rintro ⟨-, q⟩
        rw [q] at k3
        linarith
      · intro y c c'
        have c0 : 0 < y := lt_of_le_of_lt (div_nonneg (part (j + 1) hj).1 hs0) c
        obtain ⟨k1, k2, k3, k4⟩ := sel y c0 c'
        rw [div_lt_iff₀ hSp] at c
        rw [if_neg]
        rintro ⟨-, q⟩
        rw [q] at k4
        linarith
    · intro x a b
      linarith
    · intro x a b
      have a0 : 0 < x := lt_of_le_of_lt (by positivity) a
      rw [intervalIntegral.integral_congr_Ioo_of_le (g := fun _ => (0 : ℝ)) zero_le_one fun y hy => ?_, intervalIntegral.integral_zero]
      rcases hout x y a0 b hy.1 hy.2 with ⟨k, -⟩ | ⟨-, -, k, -⟩ | ⟨-, k, -⟩
      · linarith
      · dsimp only; rw [k]; simp
      · dsimp only; rw [k]; simp

/-- C121: the group of every banked particle has the probability of the fission spectrum. -/
theorem C121_spectrum (e : Env ℝ) (h : Hist ℝ) (h' : ℝ → Hist ℝ) (ng : Nat) (d : Nat → Nat → ℝ) (hx : GoodXs (e.xs h.xsreg) ng d h.group)
    (hr : ∀ k, 0 < e.r k ∧ e.r k ≤ 1) (h1 : scatters ng d h.group < e.r h.n * (e.xs h.xsreg).tr h.group)
    (h2 : e.r h.n * (e.xs h.xsreg).tr h.group ≤ scatters ng d h.group + (e.xs h.xsreg).f h.group) (i : Nat)
    (hi : i < ⌊h.w * ((e.xs h.xsreg).nf h.group / (e.xs h.xsreg).f h.group) + e.r (h.n + 1)⌋₊)
    (hp : ∀ x, 0 < x → x < 1 → collide (e.draw (h.n + 2 + 3 * i) x) h = .ok (h' x)) (j : Nat) (hj : j < (e.xs h.xsreg).chi.length) :
    (∫ x in (0 : ℝ)..1, (if ((h' x).bank[h.bank.length + i]?.map Child.group) = some j then (1 : ℝ) else 0)) = (e.xs h.xsreg).chi[j] := by
  set chi := (e.xs h.xsreg).chi with hchi
  have part : ∀ k, 0 ≤ (chi.take k).sum := fun k => List.sum_nonneg fun c hc => hx.chi0 c (List.mem_of_mem_take hc)
  have mono : ∀ k l, k ≤ l → (chi.take k).sum ≤ (chi.take l).sum := by
    intro k l hkl
    have : chi.take l = chi.take k ++ (chi.take l).drop k := by
      conv_lhs => rw [← List.take_append_drop k (chi.take l)]
      rw [List.take_take, min_eq_left hkl]
    rw [this, List.sum_append]
    have : 0 ≤ ((chi.take l).drop k).sum := List.sum_nonneg fun c hc => hx.chi0 c (List.mem_of_mem_take (List.mem_of_mem_drop hc))
    linarith
  have tot : ∀ k, (chi.take k).sum ≤ 1 := by
    intro k
    rw [← hx.chi1]
    have := mono k (max k chi.length) (le_max_left _ _)
    rwa [List.take_of_length_le (le_max_right _ _)] at this
  have succ : ∀ k (hk : k < chi.length), (chi.take (k + 1)).sum = (chi.take k).sum + chi[k] := fun k hk => by rw [List.sum_take_succ]
  have sel : ∀ x, 0 < x → x < 1 → ∃ g, ∃ hg : g < chi.length, (h' x).bank[h.bank.length + i]?.map Child.group = some g ∧ (chi.take g).sum < x ∧ x ≤ (chi.take (g + 1)).sum := by
    intro x a b
    have n0 : (e.draw (h.n + 2 + 3 * i) x).r h.n = e.r h.n := draw_ne _ _ _ _ (by omega)
    have n1 : (e.draw (h.n + 2 + 3 * i) x).r (h.n + 1) = e.r (h.n + 1) := draw_ne _ _ _ _ (by omega)
    have rr := draw_range e hr (h.n + 2 + 3 * i) x a b
    obtain ⟨k, new, k1, -, -, -, -, k2, k3, -, k4, -⟩ := C80_fission (e.draw (h.n + 2 + 3 * i) x) h ng d hx (rr _).1 (rr _).2 rr (by rw [n0]; exact h1) (by rw [n0]; exact h2)
    rw [hp x a b] at k1
    injection k1 with k1
    subst k1
    rw [n1] at k3
    have hlen : i < new.length := by rw [k3]; exact hi
    obtain ⟨-, -, ⟨hg, -, q1, q2⟩, -⟩ := k4 i hlen
    rw [draw_self] at q1 q2
    refine ⟨(new[i]).group, hg, ?_, q1, ?_⟩
    · rw [k2, List.getElem?_append_right (by omega), Nat.add_sub_cancel_left, List.getElem?_eq_getElem hlen, Option.map_some]
    · rw [succ _ hg]; exact q2
  rw [integral_share _ (chi.take j).sum (chi.take (j + 1)).sum 1 (part j) (mono j (j + 1) (by omega)) (tot _) ?_ ?_ ?_]
  · rw [succ j hj]; ring
  · intro x a b
    obtain ⟨g, hg, k1, k2, k3⟩ := sel x ((part j).trans_lt a) (b.trans_le (tot _))
    rw [if_pos]
    rw [k1]
    rcases Nat.lt_trichotomy g j with q | q | q
    · have := mono (g + 1) j (by omega)
      linarith
    · rw [q]
    · have := mono (j + 1) g (by omega)
      linarith
  · intro x a b
    obtain ⟨g, hg, k1, k2, k3⟩ := sel x a (b.trans_le (tot _))
    rw [if_neg]
    rw [k1]
    intro q
    injection q with q
    rw [q] at k2
    linarith
  · intro x a b
    obtain ⟨g, hg, k1, k2, k3⟩ := sel x ((part _).trans_lt a) b
    rw [if_neg]
    rw [k1]
    intro q
    injection q with q
    rw [q] at k3
    linarith

/-! ### Directions -/

theorem integral_cos : ∫ x in (0 : ℝ)..1, Real.cos (2 * Real.pi * x) = 0 := by
  rw [intervalIntegral.integral_comp_mul_left (fun x => Real.cos x) (by positivity), _root_.integral_cos]
  simp [Real.sin_two_pi]

theorem integral_sin : ∫ x in (0 : ℝ)..1, Real.sin (2 * Real.pi * x) = 0 := by
  rw [intervalIntegral.integral_comp_mul_left (fun x => Real.sin x) (by positivity), _root_.integral_sin]
  simp [Real.cos_two_pi]

theorem integral_cos_sq : ∫ x in (0 : ℝ)..1, Real.cos (2 * Real.pi * x) ^ 2 = 1 / 2 := by
  rw [intervalIntegral.integral_comp_mul_left (fun x => Real.cos x ^ 2) (by positivity), _root_.integral_cos_sq]
  simp [Real.sin_two_pi]
  field_simp

theorem integral_sin_sq : ∫ x in (0 : ℝ)..1, Real.sin (2 * Real.pi * x) ^ 2 = 1 / 2 := by
  rw [intervalIntegral.integral_comp_mul_left (fun x => Real.sin x ^ 2) (by positivity), _root_.integral_sin_sq]
  simp [Real.sin_two_pi]
  field_simp

theorem integral_sin_cos : ∫ x in (0 : ℝ)..1, Real.sin (2 * Real.pi * x) * Real.cos (2 * Real.pi * x) = 0 := by
  rw [intervalIntegral.integral_comp_mul_left (fun x => Real.sin x * Real.cos x) (by positivity), integral_sin_mul_cos₁]
  simp [Real.sin_two_pi]

theorem integral_z : ∫ y in (0 : ℝ)..1, (2 * y - 1) = 0 := by
  rw [intervalIntegral.integral_sub (Continuous.intervalIntegrable (by fun_prop) _ _) (Continuous.intervalIntegrable (by fun_prop) _ _), intervalIntegral.integral_const_mul, integral_id]
  simp

theorem integral_z_sq : ∫ y in (0 : ℝ)..1, (2 * y - 1) ^ 2 = 1 / 3 := by
  have h := intervalIntegral.integral_comp_mul_sub (a := (0 : ℝ)) (b := 1) (fun y : ℝ => y ^ 2) (c := 2) two_ne_zero 1
  rw [h, integral_pow]
  norm_num

/-- C121: a direction from two uniform numbers is uniform on the sphere: the probability of every patch below `c` and before the azimuth `phi` is its area
over that of the sphere, whichever number is drawn first; all its components vanish on average, and so do the products of two of them; their squares
are 1/3. -/
theorem C121_direction (D : ℝ → ℝ → Dir.Direction ℝ) (hD : ∀ r1 r2, 0 < r1 → r1 < 1 → 0 < r2 → r2 < 1 → Dir.isotropic Dir.real r1 r2 = some (D r1 r2))
    (swap : Bool) (E : (Dir.Direction ℝ → ℝ) → ℝ)
    (hE : ∀ f, E f = ∫ x in (0 : ℝ)..1, ∫ y in (0 : ℝ)..1, f (if swap then D y x else D x y)) :
    (∀ c phi, -1 ≤ c → c ≤ 1 → 0 ≤ phi → phi ≤ 2 * Real.pi →
      E (fun o => if o.oz ≤ c ∧ ∃ a, o.alpha = some a ∧ a ≤ phi then 1 else 0) = (phi * (1 + c)) / (4 * Real.pi)) ∧
    E (fun o => o.ox) = 0 ∧ E (fun o => o.oy) = 0 ∧ E (fun o => o.oz) = 0 ∧
    E (fun o => o.ox ^ 2) = 1 / 3 ∧ E (fun o => o.oy ^ 2) = 1 / 3 ∧ E (fun o => o.oz ^ 2) = 1 / 3 ∧
    E (fun o => o.ox * o.oy) = 0 ∧ E (fun o => o.ox * o.oz) = 0 ∧ E (fun o => o.oy * o.oz) = 0 := by
  classical
  have prod : ∀ (f : Dir.Direction ℝ → ℝ) (u v : ℝ → ℝ), (∀ x y, 0 < x → x < 1 → 0 < y → y < 1 → f (D x y) = u x * v y) →
      E f = (∫ x in (0 : ℝ)..1, u x) * ∫ y in (0 : ℝ)..1, v y := by
    intro f u v hf
    rw [hE]
    cases swap
    · exact integral_prod2 _ u v fun x y a b c d => hf x y a b c d
    · rw [mul_comm]
      exact integral_prod2 _ v u fun x y a b c d => (hf y x c d a b).trans (mul_comm _ _)
  have comp : ∀ x y, 0 < x → x < 1 → 0 < y → y < 1 → (D x y).oz = 2 * y - 1 ∧ (D x y).alpha = some (2 * Real.pi * x) ∧
      (D x y).ox = Real.sqrt (1 - (2 * y - 1) ^ 2) * Real.cos (2 * Real.pi * x) ∧ (D x y).oy = Real.sqrt (1 - (2 * y - 1) ^ 2) * Real.sin (2 * Real.pi * x) := by
    intro x y a b c d
    obtain ⟨o, o1, -, o2, o3, o4, o5, -⟩ := Dir.C78_isotropic x y c.le d
    rw [hD x y a b c d] at o1
    injection o1 with o1
    rw [o1, o4, o5, o2]
    exact ⟨rfl, o3, rfl, rfl⟩
  have root : ∀ y : ℝ, 0 < y → y < 1 → Real.sqrt (1 - (2 * y - 1) ^ 2) ^ 2 = 1 - (2 * y - 1) ^ 2 := fun y a b => Real.sq_sqrt (by nlinarith)
  have half : ∫ y in (0 : ℝ)..1, (1 - (2 * y - 1) ^ 2) = 2 / 3 := by
    rw [intervalIntegral.integral_sub (Continuous.intervalIntegrable (by fun_prop) _ _) (Continuous.intervalIntegrable (by fun_prop) _ _), integral_z_sq]
    norm_num
  have pi0 := Real.pi_pos
  refine ⟨fun c phi c0 c1 p0 p1 => ?_, ?_, ?_, ?_, ?_, ?_, ?_, ?_, ?_, ?_⟩
  · rw [prod _ (fun x => if 2 * Real.pi * x ≤ phi then 1 else 0) (fun y => if 2 * y - 1 ≤ c then 1 else 0)]
    · rw [integral_share (fun x => if 2 * Real.pi * x ≤ phi then 1 else 0) 0 (phi / (2 * Real.pi)) 1 le_rfl (by positivity) ((div_le_one (by positivity)).mpr p1),
        integral_share (fun y => if 2 * y - 1 ≤ c then 1 else 0) 0 ((1 + c) / 2) 1 le_rfl (by linarith) (by linarith)]
      · field_simp
        ring
      · intro y a b; exact if_pos (by linarith)
      · intro y a b; linarith
      · intro y a b; exact if_neg (by linarith)
      · intro x a b
        rw [lt_div_iff₀ (by positivity)] at b
        exact if_pos (by linarith)
      · intro x a b; linarith
      · intro x a b
        rw [div_lt_iff₀ (by positivity)] at a
        exact if_neg (by linarith)
    · intro x y a b c' d
      obtain ⟨k1, k2, -, -⟩ := comp x y a b c' d
      have e1 : (∃ t, (D x y).alpha = some t ∧ t ≤ phi) ↔ 2 * Real.pi * x ≤ phi := by
        rw [k2]
        constructor
        · rintro ⟨t, t1, t2⟩
          injection t1 with t1
          rw [t1]; exact t2
        · intro q
          exact ⟨_, rfl, q⟩
      by_cases q1 : 2 * Real.pi * x ≤ phi <;> by_cases q2 : 2 * y - 1 ≤ c <;> simp [e1, k1, q1, q2]
  · rw [prod _ (fun x => Real.cos (2 * Real.pi * x)) (fun y => Real.sqrt (1 - (2 * y - 1) ^ 2)) fun x y a b c d => by rw [(comp x y a b c d).2.2.1, mul_comm], integral_cos, zero_mul]
  · rw [prod _ (fun x => Real.sin (2 * Real.pi * x)) (fun y => Real.sqrt (1 - (2 * y - 1) ^ 2)) fun x y a b c d => by rw [(comp x y a b c d).2.2.2, mul_comm], integral_sin, zero_mul]
  · rw [prod _ (fun _ => 1) (fun y => 2 * y - 1) fun x y a b c d => by rw [(comp x y a b c d).1, one_mul], integral_z, mul_zero]
  · rw [prod _ (fun x => Real.cos (2 * Real.pi * x) ^ 2) (fun y => 1 - (2 * y - 1) ^ 2) fun x y a b c d => by
      rw [(comp x y a b c d).2.2.1, mul_pow, root y c d, mul_comm], integral_cos_sq, half]
    norm_num
  · rw [prod _ (fun x => Real.sin (2 * Real.pi * x) ^ 2) (fun y => 1 - (2 * y - 1) ^ 2) fun x y a b c d => by
      rw [(comp x y a b c d).2.2.2, mul_pow, root y c d, mul_comm], integral_sin_sq, half]
    norm_num
  · rw [prod _ (fun _ => 1) (fun y => (2 * y - 1) ^ 2) fun x y a b c d => by rw [(comp x y a b c d).1, one_mul], integral_z_sq]
    simp
  · rw [prod _ (fun x => Real.sin (2 * Real.pi * x) * Real.cos (2 * Real.pi * x)) (fun y => 1 - (2 * y - 1) ^ 2) fun x y a b c d => by
      rw [(comp x y a b c d).2.2.1, (comp x y a b c d).2.2.2]; linear_combination (Real.sin (2 * Real.pi * x) * Real.cos (2 * Real.pi * x)) * root y c d, integral_sin_cos, zero_mul]
  · rw [prod _ (fun x => Real.cos (2 * Real.pi * x)) (fun y => Real.sqrt (1 - (2 * y - 1) ^ 2) * (2 * y - 1)) fun x y a b c d => by
      rw [(comp x y a b c d).2.2.1, (comp x y a b c d).1]; ring, integral_cos, zero_mul]
  · rw [prod _ (fun x => Real.sin (2 * Real.pi * x)) (fun y => Real.sqrt (1 - (2 * y - 1) ^ 2) * (2 * y - 1)) fun x y a b c d => by
      rw [(comp x y a b c d).2.2.2, (comp x y a b c d).1]; ring, integral_sin, zero_mul]

/-- C121: a particle that goes on after a collision has a direction made of the third and fourth random number, in an order that does not depend on the
numbers, and so has every banked particle from two numbers of its own; with `C121_direction` both are uniform on the sphere. -/
theorem C121_directions (e : Env ℝ) (h h' : Hist ℝ) (hc : collide e h = .ok h') (iso : ℝ → ℝ → Vec3 ℝ) (hiso : e.iso = iso) :
    (h'.alive = true → h'.o = if e.lastFirst then iso (e.r (h.n + 3)) (e.r (h.n + 2)) else iso (e.r (h.n + 2)) (e.r (h.n + 3))) ∧
    ∀ i c, h'.bank[h.bank.length + i]? = some c →
      c.dir = if e.lastFirst then iso (e.r (h.n + 4 + 3 * i)) (e.r (h.n + 3 + 3 * i)) else iso (e.r (h.n + 3 + 3 * i)) (e.r (h.n + 4 + 3 * i)) := by
  subst hiso
  have none : ∀ i (c : Child ℝ), h.bank[h.bank.length + i]? = some c → False := by
    intro i c hi
    rw [List.getElem?_eq_none (by omega)] at hi
    cases hi
  unfold collide at hc
  dsimp only at hc
  split at hc
  · cases hc
  · split at hc
    · split at hc
      · cases hc
      · split at hc
        · injection hc with hc
          subst hc
          exact ⟨fun _ => rfl, fun i c hi => (none i c hi).elim⟩
        · cases hc
    · split at hc
      · split at hc
        · cases hc
        · injection hc with hc
          subst hc
          refine ⟨fun q => (by cases q), fun i c hi => ?_⟩
          dsimp only at hi
          rw [List.getElem?_append_right (by omega), Nat.add_sub_cancel_left] at hi
          unfold newSites at hi
          rw [List.getElem?_map, Option.map_eq_some_iff] at hi
          obtain ⟨k, k1, k2⟩ := hi
          have : k = i := by
            obtain ⟨q, q1⟩ := List.getElem?_eq_some_iff.mp k1
            rw [List.getElem_range] at q1
            exact q1.symm
          rw [← k2, this]
          show e.direction _ = _
          unfold Env.direction
          rw [show h.n + 2 + 3 * i + 1 + 1 = h.n + 4 + 3 * i by omega, show h.n + 2 + 3 * i + 1 = h.n + 3 + 3 * i by omega]
      · injection hc with hc
        subst hc
        exact ⟨fun q => (by cases q), fun i c hi => (none i c hi).elim⟩

/-! ### Examples -/

/-- One group with scattering 1/2, fission 1/4 and capture 1/4; the next surface is 1/4 away. -/
noncomputable def meanEnv : Env ℝ :=
  { xs := fun _ => ⟨fun _ => 1, fun _ => 5 / 8, fun _ => 1 / 4, Scatter.build 1 (fun _ _ => 1 / 2), [1]⟩, xsOf := fun _ => 0
    locate := fun _ _ => ⟨0, 0, 0, 0, ⟨0, 0, 0⟩, ⟨1, 1, 1⟩, fun _ _ _ => 0, fun _ _ _ _ => (some (1 / 4), false, 0)⟩
    extent := ⟨1, 1, 1, 1 / 10000⟩, bc := fun _ => .vacuum, bump := 1 / 1000, lg := Real.log, iso := fun _ _ => ⟨1, 0, 0⟩, lastFirst := true, r := fun _ => 3 / 5 }

noncomputable def meanHist : Hist ℝ :=
  { w := 1, group := 0, id := 3, place := ⟨1 / 2, 1 / 2, ⟨1 / 2, 1 / 2, 1 / 2⟩⟩, o := ⟨1, 0, 0⟩, reg := 0, xsreg := 0, coincident := -1, alive := true
    loc := meanEnv.locate ⟨1 / 2, 1 / 2, 1 / 2⟩ ⟨1, 0, 0⟩, n := 0, t := ⟨0, 0, fun _ => 0, fun _ _ => 0, fun _ _ => 0, fun _ _ => 0⟩, bank := [] }

theorem meanGood (r : Nat → ℝ) (i : Nat) : GoodXs (({ meanEnv with r := r } : Env ℝ).xs i) 1 (fun _ _ => 1 / 2) 0 where
  grp := Nat.one_pos
  sc := rfl
  nonneg := fun _ _ _ _ => by norm_num
  tr := by norm_num [meanEnv]
  f := by norm_num [meanEnv]
  sum := by norm_num [meanEnv]
  chi0 := by norm_num [meanEnv]
  chi1 := by norm_num [meanEnv]
  chiLen := rfl

theorem collide_defined (e : Env ℝ) (h : Hist ℝ) (ng : Nat) (d : Nat → Nat → ℝ) (hx : GoodXs (e.xs h.xsreg) ng d h.group) (hr : ∀ k, 0 < e.r k ∧ e.r k ≤ 1) :
    ∃ h', collide e h = .ok h' := by
  rcases le_or_gt (e.r h.n * (e.xs h.xsreg).tr h.group) (scatters ng d h.group) with h1 | h1
  · obtain ⟨k, k1, -⟩ := C80_scatter e h ng d hx (hr _).1 (hr _).2 (hr _).1 (hr _).2 h1
    exact ⟨k, k1⟩
  · rcases le_or_gt (e.r h.n * (e.xs h.xsreg).tr h.group) (scatters ng d h.group + (e.xs h.xsreg).f h.group) with h2 | h2
    · obtain ⟨k, new, k1, -⟩ := C80_fission e h ng d hx (hr _).1 (hr _).2 hr h1 h2
      exact ⟨k, k1⟩
    · obtain ⟨k, k1, -⟩ := C80_capture e h ng d hx (hr _).1 (hr _).2 h2
      exact ⟨k, k1⟩

theorem meanRange (k : Nat) : 0 < meanEnv.r k ∧ meanEnv.r k ≤ 1 := by norm_num [meanEnv]

theorem meanPass (x : ℝ) (h0 : 0 < x) (h1 : x < 1) : ∃ h', pass (meanEnv.draw 0 x) meanHist = .ok h' := by
  have hr : ∀ k, 0 < (meanEnv.draw 0 x).r k ∧ (meanEnv.draw 0 x).r k ≤ 1 := draw_range meanEnv meanRange 0 x h0 h1
  unfold pass
  cases hl : leg (meanEnv.draw 0 x) meanHist with
  | none =>
    unfold leg at hl
    dsimp only at hl
    rw [reach_eq] at hl
    have hd : reach meanHist = some (1 / 4) := by norm_num [reach, meanHist, meanEnv, distanceToPin, axisDist, minOpt]
    rw [hd] at hl
    cases hf : flight (meanEnv.draw 0 x).lg ((meanEnv.draw 0 x).r meanHist.n) (((meanEnv.draw 0 x).xs meanHist.xsreg).tr meanHist.group) <;> rw [hf] at hl <;> cases hl
  | some l =>
    obtain ⟨tl, fate, co⟩ := l
    cases fate with
    | collision => exact collide_defined _ _ 1 (fun _ _ => 1 / 2) (meanGood _ _) hr
    | inner => exact ⟨_, rfl⟩
    | border =>
      exfalso
      unfold leg at hl
      dsimp only at hl
      have hd : distanceToPin meanHist.loc.lo meanHist.loc.hi meanHist.place.g meanHist.o = some (1 / 2) := by
        norm_num [meanHist, meanEnv, distanceToPin, axisDist, minOpt]
      have hq : (meanHist.loc.dist meanHist.place.lx meanHist.place.ly meanHist.o meanHist.coincident) = (some (1 / 4), false, 0) := rfl
      have hlt : ltOpt (some (1 / 2 : ℝ)) (some (1 / 4)) = false := by norm_num [ltOpt]
      rw [hd, hq] at hl
      simp only [hlt] at hl
      rw [Option.map_eq_some_iff] at hl
      obtain ⟨t, -, hl⟩ := hl
      simp only [Prod.mk.injEq] at hl
      have := hl.2.1
      simp only [Bool.false_eq_true, if_false] at this
      split at this <;> cases this

/-- The expected scores of a flight to a surface 1/4 away. -/
example : ∃ h' : ℝ → Hist ℝ, (∀ x, 0 < x → x < 1 → pass (meanEnv.draw meanHist.n x) meanHist = .ok (h' x)) ∧
    (∫ x in (0 : ℝ)..1, ((h' x).t.kTl - meanHist.t.kTl)) = (1 - Real.exp (-1 / 4)) * (5 / 8) ∧
    (∫ x in (0 : ℝ)..1, ((h' x).t.kCol - meanHist.t.kCol)) = (1 - Real.exp (-1 / 4)) * (5 / 8) := by
  classical
  let h' : ℝ → Hist ℝ := fun x => if hx : 0 < x ∧ x < 1 then (meanPass x hx.1 hx.2).choose else meanHist
  have hp : ∀ x, 0 < x → x < 1 → pass (meanEnv.draw meanHist.n x) meanHist = .ok (h' x) := by
    intro x a b
    have : h' x = (meanPass x a b).choose := dif_pos ⟨a, b⟩
    rw [this]
    exact (meanPass x a b).choose_spec
  have hd : reach meanHist = some (1 / 4) := by norm_num [reach, meanHist, meanEnv, distanceToPin, axisDist, minOpt]
  have k := C121_flight meanEnv meanHist h' rfl (by norm_num [meanEnv]) (fun t ht => by
    have : some (1 / 4 : ℝ) = some t := ht
    injection this with this
    rw [← this]; norm_num) hp
  have hw : within ((meanEnv.xs meanHist.xsreg).tr meanHist.group) (reach meanHist) = 1 - Real.exp (-1 / 4) := by
    rw [hd]
    show 1 - Real.exp (-1 * (1 / 4)) = _
    norm_num
  have hn : meanHist.w * (meanEnv.xs meanHist.xsreg).nf meanHist.group / (meanEnv.xs meanHist.xsreg).tr meanHist.group = 5 / 8 := by norm_num [meanEnv, meanHist]
  rw [hw, hn] at k
  exact ⟨h', hp, k.1, k.2.1⟩

/-- The expected outcome of a collision. -/
example : ∃ h' : ℝ → ℝ → Hist ℝ, (∀ x y, 0 < x → x < 1 → 0 < y → y < 1 → collide ((meanEnv.draw meanHist.n x).draw (meanHist.n + 1) y) meanHist = .ok (h' x y)) ∧
    (∫ x in (0 : ℝ)..1, ∫ y in (0 : ℝ)..1, (((h' x y).bank.length : ℝ) - meanHist.bank.length)) = 5 / 8 := by
  classical
  have ex : ∀ x y : ℝ, 0 < x → x < 1 → 0 < y → y < 1 → ∃ k, collide ((meanEnv.draw meanHist.n x).draw (meanHist.n + 1) y) meanHist = .ok k := fun x y a b c d =>
    collide_defined _ _ 1 (fun _ _ => 1 / 2) (meanGood _ _) (draw_range _ (draw_range meanEnv meanRange _ x a b) _ y c d)
  let h' : ℝ → ℝ → Hist ℝ := fun x y => if hx : 0 < x ∧ x < 1 ∧ 0 < y ∧ y < 1 then (ex x y hx.1 hx.2.1 hx.2.2.1 hx.2.2.2).choose else meanHist
  have hp : ∀ x y, 0 < x → x < 1 → 0 < y → y < 1 → collide ((meanEnv.draw meanHist.n x).draw (meanHist.n + 1) y) meanHist = .ok (h' x y) := by
    intro x y a b c d
    have : h' x y = (ex x y a b c d).choose := dif_pos ⟨a, b, c, d⟩
    rw [this]
    exact (ex x y a b c d).choose_spec
  have k := C121_collision meanEnv meanHist h' 1 (fun _ _ => 1 / 2) (meanGood _ _) meanRange (by norm_num [meanHist]) (by norm_num [meanEnv]) (by norm_num [meanEnv]) rfl hp
  refine ⟨h', hp, k.1.trans ?_⟩
  norm_num [meanEnv, meanHist]

/-- A first random number of 3/5 is fission; two particles are banked and the first is in the only group. -/
example (h' : ℝ → Hist ℝ) (hp : ∀ x, 0 < x → x < 1 → collide (meanEnv.draw (meanHist.n + 2 + 3 * 0) x) meanHist = .ok (h' x)) :
    (∫ x in (0 : ℝ)..1, (if ((h' x).bank[meanHist.bank.length + 0]?.map Child.group) = some 0 then (1 : ℝ) else 0)) = 1 := by
  have k := C121_spectrum meanEnv meanHist h' 1 (fun _ _ => 1 / 2) (meanGood _ _) meanRange (by norm_num [meanEnv, scatters, meanHist])
    (by norm_num [meanEnv, scatters, meanHist]) 0 (Nat.floor_pos.mpr (by norm_num [meanEnv, meanHist])) hp 0 (by norm_num [meanEnv])
  rw [k]
  rfl

/-- The hypothesis of `C121_direction` holds for the directions of the code. -/
example : ∃ D : ℝ → ℝ → Dir.Direction ℝ, ∀ r1 r2, 0 < r1 → r1 < 1 → 0 < r2 → r2 < 1 → Dir.isotropic Dir.real r1 r2 = some (D r1 r2) := by
  classical
  refine ⟨fun r1 r2 => if h : 0 ≤ r2 ∧ r2 < 1 then (Dir.C78_isotropic r1 r2 h.1 h.2).choose else (Dir.C78_isotropic 0 0 le_rfl one_pos).choose, fun r1 r2 _ _ c d => ?_⟩
  dsimp only
  rw [dif_pos ⟨c.le, d⟩]
  exact (Dir.C78_isotropic r1 r2 c.le d).choose_spec.1

end Verif.Mc
