import Verif.Quad.LevelSymProps

/-!
# C56: low even moments of the level-symmetric sets

The average of the square of a direction cosine over the sphere is 1/3, that of its fourth power 1/5. A level-symmetric
set of order four or more is chosen to reproduce them.
-/

namespace Verif.Quad.LS

open Verif.Quad

/-- The three cosines of a direction. -/
def cosine (a : Angle ℝ) : Normal → ℝ
  | .X => a.ox | .Y => a.oy | .Z => a.oz

/-- Weighted mean of a power of a cosine over the octant (the weights sum to one). -/
noncomputable def moment (angles : List (Angle ℝ)) (n : Normal) (p : Nat) : ℝ :=
  (angles.map (fun a => a.weight * cosine a n ^ p)).sum

/-- The full claim: second moments 1/3, fourth moments 1/5, up to the six or seven digits of the tables. -/
def C56_claim : Prop := ∀ order : Int, order % 2 = 0 → 4 ≤ order → order ≤ 16 →
  ∃ angles, genSn order = .ok angles ∧ ∀ n, |moment angles n 2 - 1 / 3| ≤ 1 / 10 ^ 14 ∧
    |moment angles n 4 - 1 / 5| ≤ 2 / 10 ^ 7

/-- Index of the cosine of a table row. -/
def rowIndex (e : Nat × Nat × Nat × ℚ) : Normal → Nat
  | .X => e.1 | .Y => e.2.1 | .Z => e.2.2.1

/-- The same mean in exact arithmetic, of the `p`-th power of the squares. -/
def ratMoment (n : Nat) (mu0 : ℚ) (es : List (Nat × Nat × Nat × ℚ)) (ax : Normal) (p : Nat) : ℚ :=
  (es.map (fun e => e.2.2.2 / (es.map (fun e => e.2.2.2)).sum * muSq n mu0 (rowIndex e ax) ^ p)).sum

theorem moment_build (n : Nat) (mu0 : ℚ) (es : List (Nat × Nat × Nat × ℚ)) (hs : rationalSound n mu0 es) (ax : Normal)
    (p : Nat) : moment (build n mu0 es) ax (2 * p) = (ratMoment n mu0 es ax p : ℝ) := by
  have hpos : ∀ e ∈ es, 0 < muSq n mu0 (rowIndex e ax) := by
    intro e he
    obtain ⟨-, -, -, h⟩ := hs
    obtain ⟨h1, h2, h3, -⟩ := h e he
    cases ax
    · exact h1
    · exact h2
    · exact h3
  unfold moment ratMoment build
  rw [List.map_map]
  generalize (es.map (fun e => e.2.2.2)).sum = w
  clear hs
  induction es with
  | nil => simp
  | cons e t ih =>
    simp only [List.map_cons, List.sum_cons, Function.comp_apply]
    rw [ih (fun x hx => hpos x (List.mem_cons_of_mem _ hx))]
    have hc : cosine ⟨mu n mu0 e.1, mu n mu0 e.2.1, mu n mu0 e.2.2.1, ((e.2.2.2 / w : ℚ) : ℝ)⟩ ax =
        mu n mu0 (rowIndex e ax) := by
      cases ax <;> rfl
    rw [hc, pow_mul, mu_sq n mu0 _ (hpos e (by simp)).le]
    push_cast
    ring

theorem moment_two (n : Nat) (mu0 : ℚ) (es : List (Nat × Nat × Nat × ℚ)) (hs : rationalSound n mu0 es) (ax : Normal) :
    moment (build n mu0 es) ax 2 = (ratMoment n mu0 es ax 1 : ℝ) := moment_build n mu0 es hs ax 1

theorem moment_four (n : Nat) (mu0 : ℚ) (es : List (Nat × Nat × Nat × ℚ)) (hs : rationalSound n mu0 es) (ax : Normal) :
    moment (build n mu0 es) ax 4 = (ratMoment n mu0 es ax 2 : ℝ) := moment_build n mu0 es hs ax 2

/-- C56: second and fourth moments of orders 4, 6 and 8.
Missing with respect to the full claim: order 10 (`C56_order10_fourth`), orders 12 and 14 (`C56_high_second`) and order
16, which is undefined. -/
theorem C56_low_orders_partial (order : Int) (heven : order % 2 = 0) (h4 : 4 ≤ order) (h8 : order ≤ 8) :
    ∃ angles, genSn order = .ok angles ∧ ∀ ax, |moment angles ax 2 - 1 / 3| ≤ 1 / 10 ^ 14 ∧
      |moment angles ax 4 - 1 / 5| ≤ 2 / 10 ^ 7 := by
  have all : ∀ n : Nat, n < 5 → 2 ≤ n → check n (fun mu0 es => decide (rationalSound n mu0 es ∧
      ratMoment n mu0 es .X 1 = 1 / 3 ∧ ratMoment n mu0 es .Y 1 = 1 / 3 ∧ ratMoment n mu0 es .Z 1 = 1 / 3 ∧
      (-2 / 10 ^ 7 ≤ ratMoment n mu0 es .X 2 - 1 / 5 ∧ ratMoment n mu0 es .X 2 - 1 / 5 ≤ 2 / 10 ^ 7) ∧
      (-2 / 10 ^ 7 ≤ ratMoment n mu0 es .Y 2 - 1 / 5 ∧ ratMoment n mu0 es .Y 2 - 1 / 5 ≤ 2 / 10 ^ 7) ∧
      (-2 / 10 ^ 7 ≤ ratMoment n mu0 es .Z 2 - 1 / 5 ∧ ratMoment n mu0 es .Z 2 - 1 / 5 ≤ 2 / 10 ^ 7))) = true := by
    decide +kernel
  obtain ⟨n, rfl⟩ : ∃ n : Nat, order = (2 * n : ℕ) := ⟨(order / 2).toNat, by omega⟩
  obtain ⟨mu0, es, hm, he, hp⟩ := of_check (all n (by omega) (by omega))
  rw [decide_eq_true_iff] at hp
  obtain ⟨hs, x1, y1, z1, x2, y2, z2⟩ := hp
  refine ⟨_, genSn_build n (by omega) (by omega) mu0 es hm he, ?_⟩
  have second : ∀ ax, ratMoment n mu0 es ax 1 = 1 / 3 := by intro ax; cases ax <;> assumption
  have fourth : ∀ ax, -2 / 10 ^ 7 ≤ ratMoment n mu0 es ax 2 - 1 / 5 ∧ ratMoment n mu0 es ax 2 - 1 / 5 ≤ 2 / 10 ^ 7 := by
    intro ax; cases ax <;> assumption
  intro ax
  constructor
  · rw [moment_two n mu0 es hs ax, second ax]
    push_cast
    norm_num
  · rw [moment_four n mu0 es hs ax, abs_le]
    obtain ⟨f1, f2⟩ := fourth ax
    have g1 : ((-2 / 10 ^ 7 : ℚ) : ℝ) ≤ ((ratMoment n mu0 es ax 2 - 1 / 5 : ℚ) : ℝ) := Rat.cast_le.mpr f1
    have g2 : ((ratMoment n mu0 es ax 2 - 1 / 5 : ℚ) : ℝ) ≤ ((2 / 10 ^ 7 : ℚ) : ℝ) := Rat.cast_le.mpr f2
    push_cast at g1 g2
    constructor <;> linarith

theorem moment_six (n : Nat) (mu0 : ℚ) (es : List (Nat × Nat × Nat × ℚ)) (hs : rationalSound n mu0 es) (ax : Normal) :
    moment (build n mu0 es) ax 6 = (ratMoment n mu0 es ax 3 : ℝ) := moment_build n mu0 es hs ax 3

/-- C56: orders 6 and 8 also reproduce the sixth moment, 1/7. -/
theorem C56_sixth (order : Int) (heven : order % 2 = 0) (h6 : 6 ≤ order) (h8 : order ≤ 8) :
    ∃ angles, genSn order = .ok angles ∧ ∀ ax, |moment angles ax 6 - 1 / 7| ≤ 3 / 10 ^ 7 := by
  have all : ∀ n : Nat, n < 5 → 3 ≤ n → check n (fun mu0 es => decide (rationalSound n mu0 es ∧
      (-3 / 10 ^ 7 ≤ ratMoment n mu0 es .X 3 - 1 / 7 ∧ ratMoment n mu0 es .X 3 - 1 / 7 ≤ 3 / 10 ^ 7) ∧
      (-3 / 10 ^ 7 ≤ ratMoment n mu0 es .Y 3 - 1 / 7 ∧ ratMoment n mu0 es .Y 3 - 1 / 7 ≤ 3 / 10 ^ 7) ∧
      (-3 / 10 ^ 7 ≤ ratMoment n mu0 es .Z 3 - 1 / 7 ∧ ratMoment n mu0 es .Z 3 - 1 / 7 ≤ 3 / 10 ^ 7))) = true := by
    decide +kernel
  obtain ⟨n, rfl⟩ : ∃ n : Nat, order = (2 * n : ℕ) := ⟨(order / 2).toNat, by omega⟩
  obtain ⟨mu0, es, hm, he, hp⟩ := of_check (all n (by omega) (by omega))
  rw [decide_eq_true_iff] at hp
  obtain ⟨hs, x1, y1, z1⟩ := hp
  refine ⟨_, genSn_build n (by omega) (by omega) mu0 es hm he, ?_⟩
  have sixth : ∀ ax, -3 / 10 ^ 7 ≤ ratMoment n mu0 es ax 3 - 1 / 7 ∧ ratMoment n mu0 es ax 3 - 1 / 7 ≤ 3 / 10 ^ 7 := by
    intro ax; cases ax <;> assumption
  intro ax
  rw [moment_six n mu0 es hs ax, abs_le]
  obtain ⟨f1, f2⟩ := sixth ax
  have g1 : ((-3 / 10 ^ 7 : ℚ) : ℝ) ≤ ((ratMoment n mu0 es ax 3 - 1 / 7 : ℚ) : ℝ) := Rat.cast_le.mpr f1
  have g2 : ((ratMoment n mu0 es ax 3 - 1 / 7 : ℚ) : ℝ) ≤ ((3 / 10 ^ 7 : ℚ) : ℝ) := Rat.cast_le.mpr f2
  push_cast at g1 g2
  constructor <;> linarith

/-- C56: second moments are right up to order 10. -/
theorem C56_second (order : Int) (heven : order % 2 = 0) (h2 : 2 ≤ order) (h10 : order ≤ 10) :
    ∃ angles, genSn order = .ok angles ∧ ∀ ax, |moment angles ax 2 - 1 / 3| ≤ 1 / 10 ^ 14 := by
  have all : ∀ n : Nat, n < 6 → 1 ≤ n → check n (fun mu0 es => decide (rationalSound n mu0 es ∧
      (-1 / 10 ^ 14 ≤ ratMoment n mu0 es .X 1 - 1 / 3 ∧ ratMoment n mu0 es .X 1 - 1 / 3 ≤ 1 / 10 ^ 14) ∧
      (-1 / 10 ^ 14 ≤ ratMoment n mu0 es .Y 1 - 1 / 3 ∧ ratMoment n mu0 es .Y 1 - 1 / 3 ≤ 1 / 10 ^ 14) ∧
      (-1 / 10 ^ 14 ≤ ratMoment n mu0 es .Z 1 - 1 / 3 ∧ ratMoment n mu0 es .Z 1 - 1 / 3 ≤ 1 / 10 ^ 14))) = true := by
    decide +kernel
  obtain ⟨n, rfl⟩ : ∃ n : Nat, order = (2 * n : ℕ) := ⟨(order / 2).toNat, by omega⟩
  obtain ⟨mu0, es, hm, he, hp⟩ := of_check (all n (by omega) (by omega))
  rw [decide_eq_true_iff] at hp
  obtain ⟨hs, x1, y1, z1⟩ := hp
  refine ⟨_, genSn_build n (by omega) (by omega) mu0 es hm he, ?_⟩
  have second : ∀ ax, -1 / 10 ^ 14 ≤ ratMoment n mu0 es ax 1 - 1 / 3 ∧ ratMoment n mu0 es ax 1 - 1 / 3 ≤ 1 / 10 ^ 14 := by
    intro ax; cases ax <;> assumption
  intro ax
  rw [moment_two n mu0 es hs ax, abs_le]
  obtain ⟨f1, f2⟩ := second ax
  have g1 : ((-1 / 10 ^ 14 : ℚ) : ℝ) ≤ ((ratMoment n mu0 es ax 1 - 1 / 3 : ℚ) : ℝ) := Rat.cast_le.mpr f1
  have g2 : ((ratMoment n mu0 es ax 1 - 1 / 3 : ℚ) : ℝ) ≤ ((1 / 10 ^ 14 : ℚ) : ℝ) := Rat.cast_le.mpr f2
  push_cast at g1 g2
  constructor <;> linarith

/-- C56: the fourth moment of order 10 is too small by more than 7e-4: its cosines and weights do not belong together. -/
theorem C56_order10_fourth : ∃ angles, genSn 10 = .ok angles ∧ ∀ ax, moment angles ax 4 < 1 / 5 - 7 / 10 ^ 4 := by
  have hc : check 5 (fun mu0 es => decide (rationalSound 5 mu0 es ∧ ratMoment 5 mu0 es .X 2 < 1 / 5 - 7 / 10 ^ 4 ∧
      ratMoment 5 mu0 es .Y 2 < 1 / 5 - 7 / 10 ^ 4 ∧ ratMoment 5 mu0 es .Z 2 < 1 / 5 - 7 / 10 ^ 4)) = true := by
    decide +kernel
  obtain ⟨mu0, es, hm, he, hp⟩ := of_check hc
  rw [decide_eq_true_iff] at hp
  obtain ⟨hs, x1, y1, z1⟩ := hp
  refine ⟨_, genSn_build 5 (by omega) (by omega) mu0 es hm he, ?_⟩
  have fourth : ∀ ax, ratMoment 5 mu0 es ax 2 < 1 / 5 - 7 / 10 ^ 4 := by intro ax; cases ax <;> assumption
  intro ax
  rw [moment_four 5 mu0 es hs ax]
  have g : ((ratMoment 5 mu0 es ax 2 : ℚ) : ℝ) < ((1 / 5 - 7 / 10 ^ 4 : ℚ) : ℝ) := Rat.cast_lt.mpr (fourth ax)
  push_cast at g
  linarith

/-- C56: the second moments of orders 12 and 14 about the z axis are too large by more than 0.013, those about the other
axes too small: diffusion is not isotropic. -/
theorem C56_high_second (order : Int) (heven : order % 2 = 0) (h12 : 12 ≤ order) (h14 : order ≤ 14) :
    ∃ angles, genSn order = .ok angles ∧ moment angles .X 2 < 1 / 3 - 6 / 10 ^ 3 ∧
      moment angles .Y 2 < 1 / 3 - 6 / 10 ^ 3 ∧ 1 / 3 + 13 / 10 ^ 3 < moment angles .Z 2 := by
  have all : ∀ n : Nat, n < 8 → 6 ≤ n → check n (fun mu0 es => decide (rationalSound n mu0 es ∧
      ratMoment n mu0 es .X 1 < 1 / 3 - 6 / 10 ^ 3 ∧ ratMoment n mu0 es .Y 1 < 1 / 3 - 6 / 10 ^ 3 ∧
      1 / 3 + 13 / 10 ^ 3 < ratMoment n mu0 es .Z 1)) = true := by decide +kernel
  obtain ⟨n, rfl⟩ : ∃ n : Nat, order = (2 * n : ℕ) := ⟨(order / 2).toNat, by omega⟩
  obtain ⟨mu0, es, hm, he, hp⟩ := of_check (all n (by omega) (by omega))
  rw [decide_eq_true_iff] at hp
  obtain ⟨hs, x1, y1, z1⟩ := hp
  refine ⟨_, genSn_build n (by omega) (by omega) mu0 es hm he, ?_⟩
  rw [moment_two n mu0 es hs .X, moment_two n mu0 es hs .Y,
    moment_two n mu0 es hs .Z]
  have gx : ((ratMoment n mu0 es .X 1 : ℚ) : ℝ) < ((1 / 3 - 6 / 10 ^ 3 : ℚ) : ℝ) := Rat.cast_lt.mpr x1
  have gy : ((ratMoment n mu0 es .Y 1 : ℚ) : ℝ) < ((1 / 3 - 6 / 10 ^ 3 : ℚ) : ℝ) := Rat.cast_lt.mpr y1
  have gz : ((1 / 3 + 13 / 10 ^ 3 : ℚ) : ℝ) < ((ratMoment n mu0 es .Z 1 : ℚ) : ℝ) := Rat.cast_lt.mpr z1
  push_cast at gx gy gz
  exact ⟨by linarith, by linarith, by linarith⟩

/-- C56: the full claim is false. -/
theorem C56_claim_false : ¬ C56_claim := by
  intro h
  obtain ⟨as, h1, h2⟩ := h 10 (by decide) (by decide) (by decide)
  obtain ⟨bs, h3, h4⟩ := C56_order10_fourth
  rw [h1] at h3
  injection h3 with h3
  subst h3
  have := (h2 .X).2
  have h5 := h4 .X
  rw [abs_le] at this
  norm_num at this h5
  linarith [this.1]

end Verif.Quad.LS
