import Verif.PinMesh.TraceProps
import Verif.PinMesh.CylDirProps
import Verif.Geom.CircleProps
import Verif.Geom.BoxProps
import Mathlib.Topology.Order.IntermediateValue
import Mathlib.Topology.Algebra.Order.Field
import Mathlib.Tactic.IntervalCases

/-! # C72: tracing a ray through a cylindrical pin -/

namespace Verif.PinMesh

open Verif.Geom

/-- With exact comparison the pieces have positive extent and no point of the list lies strictly within one. -/
theorem piece_free (eq : Pt ℝ → Pt ℝ → Bool) (heq : ∀ a b, eq a b = true ↔ a = b) (p1 p2 : Pt ℝ) (hy : p1.y < p2.y)
    (pts kept : List (Pt ℝ)) (k : Kept eq p1 p2 pts kept) (hall : ∀ q ∈ kept, OnRay p1 p2 q) (a b : Pt ℝ)
    (hab : (a, b) ∈ kept.zip kept.tail) : a.y < b.y ∧ ∀ t, 0 < t → t < 1 → onRay a b t ∉ pts := by
  have ha : a ∈ kept := (List.of_mem_zip hab).1
  have hb : b ∈ kept := List.mem_of_mem_tail (List.of_mem_zip hab).2
  have pz : ∀ (l : List (Pt ℝ)), l.Pairwise (fun a b => ¬ b.y < a.y) → (a, b) ∈ l.zip l.tail → a.y ≤ b.y := by
    intro l
    induction l with
    | nil => intro _ h; cases h
    | cons x xs ih =>
      intro hp h
      cases xs with
      | nil => simp at h
      | cons y ys =>
        rw [List.tail_cons, List.zip_cons_cons] at h
        rcases List.mem_cons.mp h with e | h
        · rw [Prod.mk.injEq] at e
          rw [e.1, e.2]
          exact not_lt.mp ((List.pairwise_cons.mp hp).1 y List.mem_cons_self)
        · exact ih (List.pairwise_cons.mp hp).2 h
  have hab' := pz kept k.ordered hab
  have hne0 : a ≠ b := by
    intro e
    have := k.apart a b hab
    rw [(heq a b).mpr e] at this
    cases this
  have hyab : a.y < b.y := by
    rcases lt_or_eq_of_le hab' with h | h
    · exact h
    · exfalso
      obtain ⟨s, _, _, es⟩ := hall a ha
      obtain ⟨s', _, _, es'⟩ := hall b hb
      have h3 : (onRay p1 p2 s).y ≤ (onRay p1 p2 s').y := by rw [← es, ← es', h]
      have h4 : (onRay p1 p2 s').y ≤ (onRay p1 p2 s).y := by rw [← es, ← es', h]
      rw [onRay_y_inj p1 p2 hy] at h3 h4
      exact hne0 (by rw [es, es', le_antisymm h3 h4])
  refine ⟨hyab, fun t t0 t1 hmem => ?_⟩
  rcases k.gap a b hab (onRay a b t) hmem with h | h | h
  · simp only [onRay] at h; nlinarith
  · simp only [onRay] at h; nlinarith
  · rw [heq] at h
    have h5 : a.y = a.y + t * (b.y - a.y) := by
      conv_lhs => rw [h]
      rfl
    nlinarith

/-! ### Rings -/

theorem along_onRay (p1 p2 : Pt ℝ) (t : ℝ) : along (⟨p1, p2⟩ : Line ℝ) t = onRay p1 p2 t := by
  simp only [along, onRay, Pt.mk.injEq]
  constructor <;> ring

/-- Points of a ring found by the intersection are on the ray. -/
theorem ringCuts_onRay (fuzz : ℝ) (hf : fuzz ≤ 1) (p1 p2 : Pt ℝ) (hne : p1 ≠ p2) (r : ℝ) (q : Pt ℝ)
    (hq : q ∈ ringCuts Real.sqrt fuzz ⟨p1, p2⟩ r) : OnRay p1 p2 q := by
  unfold ringCuts at hq
  simp only [] at hq
  split at hq
  · have h : (hitCircle Real.sqrt fuzz ⟨p1, p2⟩ ⟨⟨0, 0⟩, r⟩).p1 = some q ∨ (hitCircle Real.sqrt fuzz ⟨p1, p2⟩ ⟨⟨0, 0⟩, r⟩).p2 = some q := by
      rcases List.mem_append.mp hq with h | h
      · left; exact Option.mem_toList.mp h
      · right; exact Option.mem_toList.mp h
    obtain ⟨_, t, t0, t1, hx, hy⟩ := C63_sound fuzz hf ⟨p1, p2⟩ ⟨⟨0, 0⟩, r⟩ hne q h
    refine ⟨t, t0.le, t1.le, ?_⟩
    cases q
    simp only [onRay, Pt.mk.injEq] at *
    exact ⟨by rw [hx]; ring, by rw [hy]; ring⟩
  · cases hq

/-- With both ends outside of the ring, a crossing is among the points. -/
theorem ring_crossing (fuzz : ℝ) (hf : fuzz ≤ 1) (p1 p2 : Pt ℝ) (hne : p1 ≠ p2) (r : ℝ) (h1 : r ^ 2 < p1.x ^ 2 + p1.y ^ 2)
    (h2 : r ^ 2 < p2.x ^ 2 + p2.y ^ 2) (t : ℝ) (t0 : 0 < t) (t1 : t < 1)
    (hc : (onRay p1 p2 t).x ^ 2 + (onRay p1 p2 t).y ^ 2 = r ^ 2) : onRay p1 p2 t ∈ ringCuts Real.sqrt fuzz ⟨p1, p2⟩ r := by
  obtain ⟨a, b, c, q⟩ := quadratic_exists (⟨p1, p2⟩ : Line ℝ) ⟨⟨0, 0⟩, r⟩ hne
  have f0 := fromCentre_along q 0
  have f1 := fromCentre_along q 1
  have ft := fromCentre_along q t
  have hft : a * t ^ 2 + 2 * b * t + c = 0 := by
    rw [← ft, along_onRay]
    unfold fromCentre
    simp only [sub_zero]
    linarith
  have hf0 : 0 < a * 0 ^ 2 + 2 * b * 0 + c := by
    rw [← f0, along_onRay]
    unfold fromCentre onRay
    simp only [sub_zero, zero_mul, add_zero]
    linarith
  have hf1 : 0 < a * 1 ^ 2 + 2 * b * 1 + c := by
    rw [← f1, along_onRay]
    unfold fromCentre onRay
    simp only [sub_zero, one_mul]
    rw [show p1.x + (p2.x - p1.x) = p2.x by ring, show p1.y + (p2.y - p1.y) = p2.y by ring]
    linarith
  rcases hit_cases q fuzz hf with ⟨_, hno⟩ | ⟨_, s1, s2, R, e⟩
  · exact absurd hft (hno t t0 t1)
  · have ha := q.pos
    rw [R.factor] at hft hf0 hf1
    have g0 : 0 < (0 - s1) * (0 - s2) := pos_of_mul_pos_right hf0 ha.le
    have g1 : 0 < (1 - s1) * (1 - s2) := pos_of_mul_pos_right hf1 ha.le
    have gt : (t - s1) * (t - s2) = 0 := by
      rcases mul_eq_zero.mp hft with h | h
      · linarith
      · exact h
    have hboth : (0 < s1 ∧ s1 < 1) ∧ (0 < s2 ∧ s2 < 1) := by
      rcases mul_eq_zero.mp gt with h | h
      · have es : s1 = t := by linarith
        subst es
        refine ⟨⟨t0, t1⟩, ?_, ?_⟩
        · by_contra hc'; nlinarith
        · by_contra hc'; nlinarith
      · have es : s2 = t := by linarith
        subst es
        refine ⟨⟨?_, ?_⟩, t0, t1⟩
        · by_contra hc'; nlinarith
        · by_contra hc'; nlinarith
    have u1 := (unitOpen_some s1).mpr hboth.1
    have u2 := (unitOpen_some s2).mpr hboth.2
    unfold ringCuts
    rw [e]
    unfold collect
    simp only [u1, u2, if_true, Option.map_some, Option.toList_some]
    rw [List.mem_append, List.mem_singleton, List.mem_singleton, along_onRay, along_onRay]
    rcases mul_eq_zero.mp gt with h | h
    · left; rw [show t = s1 by linarith]
    · right; rw [show t = s2 by linarith]

/-- If the ring of two points of a segment differs, a ring is crossed between them. -/
theorem ring_between (radii : List ℝ) (hr : ∀ r ∈ radii, 0 ≤ r) (a b : Pt ℝ) (s t : ℝ)
    (h : ringOf radii (dist0 (onRay a b s)) < ringOf radii (dist0 (onRay a b t))) :
    ∃ r ∈ radii, ∃ w, min s t ≤ w ∧ w ≤ max s t ∧ (onRay a b w).x ^ 2 + (onRay a b w).y ^ 2 = r ^ 2 := by
  obtain ⟨a1, _, c1⟩ := ringOf_spec radii (dist0 (onRay a b s))
  obtain ⟨a2, b2, _⟩ := ringOf_spec radii (dist0 (onRay a b t))
  have hlt : ringOf radii (dist0 (onRay a b s)) < radii.length := by omega
  have e := List.getElem?_eq_getElem hlt
  have h1 := c1 _ e
  have h2 := b2 _ _ h e
  generalize radii[ringOf radii (dist0 (onRay a b s))] = r at h1 h2 e
  have hmem : r ∈ radii := List.mem_of_getElem? e
  have hr0 := hr r hmem
  refine ⟨r, hmem, ?_⟩
  set f : ℝ → ℝ := fun w => (onRay a b w).x ^ 2 + (onRay a b w).y ^ 2 with hf
  have hcont : Continuous f := by
    rw [hf]; unfold onRay; fun_prop
  have fs : f s ≤ r ^ 2 := by
    have : dist0 (onRay a b s) = Real.sqrt (f s) := by
      rw [hf]; unfold dist0; congr 1; ring
    rw [this] at h1
    have h3 := Real.sq_sqrt (show 0 ≤ f s by rw [hf]; positivity)
    nlinarith [Real.sqrt_nonneg (f s)]
  have ft : r ^ 2 ≤ f t := by
    have : dist0 (onRay a b t) = Real.sqrt (f t) := by
      rw [hf]; unfold dist0; congr 1; ring
    rw [this] at h2
    have h3 := Real.sq_sqrt (show 0 ≤ f t by rw [hf]; positivity)
    nlinarith [Real.sqrt_nonneg (f t)]
  have hiv := intermediate_value_uIcc (a := s) (b := t) (f := f) hcont.continuousOn
  have hm : r ^ 2 ∈ Set.uIcc (f s) (f t) := by
    rw [Set.uIcc_of_le (le_trans fs ft)]
    exact ⟨fs, ft⟩
  obtain ⟨w, hw, hwe⟩ := hiv hm
  exact ⟨w, hw.1, hw.2, hwe⟩

/-! ### Sectors -/

/-- Angle of sector line `k`. -/
noncomputable def lineAngle (n k : Nat) : ℝ := k * (2 * Real.pi / n)

/-- Two angles on the same side of every sector line are in the same sector. -/
theorem sector_same (h : Nat) (hh : 1 ≤ h) (θ θ' : ℝ) (ia ia' : Nat) (h0 : 0 < θ) (h2' : θ' < 2 * Real.pi)
    (hi' : ia' < 2 * h) (a2 : θ < (ia + 1) * (2 * Real.pi / (2 * h : Nat)))
    (a1 : ia * (2 * Real.pi / (2 * h : Nat)) ≤ θ) (b1 : ia' * (2 * Real.pi / (2 * h : Nat)) ≤ θ')
    (b2 : θ' < (ia' + 1) * (2 * Real.pi / (2 * h : Nat)))
    (hs : ∀ k, k < 2 * h → 0 < Real.sin (θ - lineAngle (2 * h) k) * Real.sin (θ' - lineAngle (2 * h) k)) : ¬ ia < ia' := by
  intro hlt
  have hpi := Real.pi_pos
  have hh' : (1 : ℝ) ≤ h := by exact_mod_cast hh
  have eβ : 2 * Real.pi / ((2 * h : Nat) : ℝ) = Real.pi / h := by push_cast; field_simp
  rw [eβ] at a1 a2 b1 b2
  have hβ : 0 < Real.pi / (h : ℝ) := by positivity
  have hβh : (h : ℝ) * (Real.pi / h) = Real.pi := by field_simp
  have hβpi : Real.pi / (h : ℝ) ≤ Real.pi := by rw [div_le_iff₀ (by linarith)]; nlinarith
  have hlt' : (ia : ℝ) + 1 ≤ ia' := by exact_mod_cast hlt
  rcases Nat.lt_or_ge h (ia' - ia) with hc | hc
  · have hk := hs 0 (by omega)
    have e0 : lineAngle (2 * h) 0 = 0 := by simp [lineAngle]
    rw [e0, sub_zero, sub_zero] at hk
    have g1 : (ia : ℝ) + 1 ≤ h := by exact_mod_cast (by omega : ia + 1 ≤ h)
    have g2 : (h : ℝ) ≤ ia' := by exact_mod_cast (by omega : h ≤ ia')
    have s1 : 0 ≤ Real.sin θ := Real.sin_nonneg_of_nonneg_of_le_pi h0.le (by
      have := mul_le_mul_of_nonneg_right g1 hβ.le
      rw [hβh] at this; linarith)
    have s2 : Real.sin θ' ≤ 0 := by
      rw [← Real.sin_sub_two_pi]
      apply Real.sin_nonpos_of_nonpos_of_neg_pi_le
      · linarith
      · have := mul_le_mul_of_nonneg_right g2 hβ.le
        rw [hβh] at this; linarith
    nlinarith
  · have hk := hs ia' hi'
    have e0 : lineAngle (2 * h) ia' = ia' * (Real.pi / h) := by unfold lineAngle; rw [eβ]
    rw [e0] at hk
    have s1 : 0 ≤ Real.sin (θ' - ia' * (Real.pi / h)) :=
      Real.sin_nonneg_of_nonneg_of_le_pi (by linarith) (by linarith)
    have g1 : (ia' : ℝ) ≤ ia + h := by exact_mod_cast (by omega : ia' ≤ ia + h)
    have s2 : Real.sin (θ - ia' * (Real.pi / h)) ≤ 0 := by
      apply Real.sin_nonpos_of_nonpos_of_neg_pi_le
      · have := mul_le_mul_of_nonneg_right hlt' hβ.le
        linarith
      · have := mul_le_mul_of_nonneg_right g1 hβ.le
        rw [add_mul, hβh] at this
        linarith
    nlinarith

/-- The lines reach, on either side of the centre, every point of the pin at the angles of the sectors. -/
def Complete (pitch : ℝ) (n : Nat) (lines : List (Line ℝ)) : Prop := ∀ k, k < n → ∀ c : Pt ℝ, |c.x| ≤ pitch / 2 → |c.y| ≤ pitch / 2 →
  Real.cos (lineAngle n k) * c.y = Real.sin (lineAngle n k) * c.x → ∃ q, (⟨⟨0, 0⟩, q⟩ : Line ℝ) ∈ lines ∧
    OnSeg (⟨⟨0, 0⟩, q⟩ : Line ℝ) c

/-- Position with respect to sector line `k`. -/
noncomputable def side (n k : Nat) (q : Pt ℝ) : ℝ := Real.cos (lineAngle n k) * q.y - Real.sin (lineAngle n k) * q.x

theorem side_sin (n k : Nat) (q : Pt ℝ) (hy : q.y ≠ 0) : side n k q = dist0 q * Real.sin (angle q - lineAngle n k) := by
  obtain ⟨_, _, hx, hy'⟩ := C68_angle_partial q hy
  unfold side
  rw [Real.sin_sub]
  conv_lhs => rw [hx, hy']
  ring

/-- A crossing of a sector line is among the points. -/
theorem sector_crossing (pitch : ℝ) (n : Nat) (lines : List (Line ℝ)) (hl : Complete pitch n lines) (p1 p2 : Pt ℝ)
    (hor : p1.x * p2.y ≠ p1.y * p2.x) (k : Nat) (hk : k < n) (c : Pt ℝ) (hc : OnRay p1 p2 c) (hx : |c.x| ≤ pitch / 2)
    (hy : |c.y| ≤ pitch / 2) (hs : side n k c = 0) : c ∈ lines.filterMap fun li => meet li ⟨p1, p2⟩ := by
  obtain ⟨q, hq, hon⟩ := hl k hk c hx hy (by unfold side at hs; linarith)
  apply List.mem_filterMap.mpr
  refine ⟨_, hq, C62_found_partial _ _ ?_ c hon ((onRay_seg p1 p2 c).mpr hc)⟩
  intro hpar
  unfold Parallel at hpar
  simp only [sub_zero] at hpar
  obtain ⟨s, _, _, e1, e2⟩ := hon
  obtain ⟨t, _, _, rfl⟩ := hc
  simp only [onRay, mul_zero, zero_add] at e1 e2
  apply hor
  have h3 : (p1.x + t * (p2.x - p1.x)) * (p2.y - p1.y) = (p1.y + t * (p2.y - p1.y)) * (p2.x - p1.x) := by
    rw [e1, e2]; linear_combination s * hpar
  linear_combination h3

/-- A linear function without zero strictly within the piece has one sign there. -/
theorem side_sign (n k : Nat) (a b : Pt ℝ) (hno : ∀ t, 0 < t → t < 1 → side n k (onRay a b t) ≠ 0) (s t : ℝ) (s0 : 0 < s) (s1 : s < 1)
    (t0 : 0 < t) (t1 : t < 1) : 0 < side n k (onRay a b s) * side n k (onRay a b t) := by
  by_contra hc
  rw [not_lt] at hc
  set f : ℝ → ℝ := fun w => side n k (onRay a b w) with hf
  have hcont : Continuous f := by rw [hf]; unfold side onRay; fun_prop
  have hm : (0 : ℝ) ∈ Set.uIcc (f s) (f t) := by
    rw [Set.mem_uIcc]
    have hc' : f s * f t ≤ 0 := hc
    rcases le_total (f s) 0 with h | h
    · rcases le_total 0 (f t) with h' | h'
      · left; exact ⟨h, h'⟩
      · have hz : f s * f t = 0 := le_antisymm hc' (mul_nonneg_of_nonpos_of_nonpos h h')
        rcases mul_eq_zero.mp hz with e | e
        · exact absurd e (hno s s0 s1)
        · exact absurd e (hno t t0 t1)
    · rcases le_total 0 (f t) with h' | h'
      · have hz : f s * f t = 0 := le_antisymm hc' (mul_nonneg h h')
        rcases mul_eq_zero.mp hz with e | e
        · exact absurd e (hno s s0 s1)
        · exact absurd e (hno t t0 t1)
      · right; exact ⟨h', h⟩
  obtain ⟨w, hw, hwe⟩ := intermediate_value_uIcc (a := s) (b := t) (f := f) hcont.continuousOn hm
  refine hno w ?_ ?_ hwe
  · exact lt_of_lt_of_le (lt_min s0 t0) hw.1
  · exact lt_of_le_of_lt hw.2 (max_lt s1 t1)

/-! ### The theorem -/

/-- In the pin, its edges included. -/
def Cyl.Has (m : Cyl ℝ) (q : Pt ℝ) : Prop := |q.x| ≤ m.pitch / 2 ∧ |q.y| ≤ m.pitch / 2

/-- What is required of the ray: upwards, within the pin, both ends outside of the rings, not through the centre. -/
structure Cyl.Ray (m : Cyl ℝ) (p1 p2 : Pt ℝ) : Prop where
  up : p1.y < p2.y
  has1 : m.Has p1
  has2 : m.Has p2
  out1 : ∀ r ∈ m.radii, r ^ 2 < p1.x ^ 2 + p1.y ^ 2
  out2 : ∀ r ∈ m.radii, r ^ 2 < p2.x ^ 2 + p2.y ^ 2
  off : p1.x * p2.y ≠ p1.y * p2.x

theorem cyl_cuts (m : Cyl ℝ) (fuzz : ℝ) (hf : fuzz ≤ 1) (lines : List (Line ℝ)) (p1 p2 : Pt ℝ) (hy : p1.y < p2.y) (q : Pt ℝ)
    (hq : q ∈ m.radii.flatMap (ringCuts Real.sqrt fuzz ⟨p1, p2⟩) ++ lines.filterMap fun li => meet li ⟨p1, p2⟩) :
    OnRay p1 p2 q := by
  rcases List.mem_append.mp hq with h | h
  · obtain ⟨r, _, h⟩ := List.mem_flatMap.mp h
    exact ringCuts_onRay fuzz hf p1 p2 (fun e => by rw [e] at hy; exact lt_irrefl _ hy) r q h
  · exact cuts_onRay lines p1 p2 q h

/-- C72: the lengths of the pieces of an upward ray add up to the distance from the entry to the last point kept, which is the exit
point or compares equal to it. -/
theorem C72_length (m : Cyl ℝ) (fuzz : ℝ) (hf : fuzz ≤ 1) (lines : List (Line ℝ)) (reg : Pt ℝ → Int)
    (sort : List (Pt ℝ) → List (Pt ℝ)) (hsort : SortsByY sort) (eq : Pt ℝ → Pt ℝ → Bool) (p1 p2 : Pt ℝ) (hy : p1.y < p2.y)
    (first : Int) :
    ∃ q, (q = p2 ∨ eq q p2 = true) ∧ OnRay p1 p2 q ∧
      ((m.trace Real.sqrt fuzz lines reg sort eq dist2 p1 p2 first).map Prod.fst).sum = dist2 q p1 := by
  have k := kept_of sort hsort eq p1 p2 hy _ (cyl_cuts m fuzz hf lines p1 p2 hy)
  have hall : ∀ q ∈ unique eq (sort (p1 :: p2 :: (m.radii.flatMap (ringCuts Real.sqrt fuzz ⟨p1, p2⟩) ++
      lines.filterMap fun li => meet li ⟨p1, p2⟩))), OnRay p1 p2 q := by
    intro q hq
    rcases List.mem_cons.mp (k.sub q hq) with rfl | h
    · exact ⟨0, le_refl _, zero_le_one, by simp [onRay]⟩
    · rcases List.mem_cons.mp h with rfl | h
      · exact ⟨1, zero_le_one, le_refl _, by simp [onRay]⟩
      · exact cyl_cuts m fuzz hf lines p1 p2 hy q h
  refine ⟨_, k.last, hall _ (List.getLast_mem k.ne), ?_⟩
  unfold Cyl.trace
  rw [lengths_sum p1 p2 _ _ hall hy k.ordered k.ne, k.head]

theorem cyl_convex (m : Cyl ℝ) (a b q : Pt ℝ) (ha : m.Has a) (hb : m.Has b) (hq : OnRay a b q) : m.Has q := by
  obtain ⟨t, h0, h1, rfl⟩ := hq
  obtain ⟨a1, a2⟩ := ha
  obtain ⟨b1, b2⟩ := hb
  rw [abs_le] at a1 a2 b1 b2
  unfold Cyl.Has onRay
  simp only [abs_le]
  refine ⟨⟨?_, ?_⟩, ⟨?_, ?_⟩⟩ <;> nlinarith [a1.1, a1.2, a2.1, a2.2, b1.1, b1.2, b2.1, b2.2]

/-- C72: the pieces.  With exact comparison of points, the ray is divided at points `Q` from the entry to the exit, in order; each
piece has its length and the region in which all of its inner points are. -/
theorem C72_pieces_partial (m : Cyl ℝ) (h : Nat) (hh : 1 ≤ h) (hn : m.nAzi = (2 * h : Nat)) (hrad : ∀ r ∈ m.radii, 0 ≤ r) (fuzz : ℝ)
    (hf : fuzz ≤ 1) (lines : List (Line ℝ)) (hl : Complete m.pitch (2 * h) lines)
    (sort : List (Pt ℝ) → List (Pt ℝ)) (hsort : SortsByY sort) (eq : Pt ℝ → Pt ℝ → Bool) (heq : ∀ a b, eq a b = true ↔ a = b)
    (p1 p2 : Pt ℝ) (hray : m.Ray p1 p2) (first : Int) :
    ∃ Q : List (Pt ℝ), Q.head? = some p1 ∧ Q.getLast? = some p2 ∧ (∀ q ∈ Q, OnRay p1 p2 q) ∧
      m.trace Real.sqrt fuzz lines m.regionAt sort eq dist2 p1 p2 first =
        (Q.zip Q.tail).map (fun ab => (dist2 ab.2 ab.1, m.regionAt (midpoint ab.2 ab.1) + first)) ∧
      ∀ a b, (a, b) ∈ Q.zip Q.tail → a.y < b.y ∧ ∀ q, Between a b q → m.regionAt q = m.regionAt (midpoint b a) := by
  have hy := hray.up
  have hne : p1 ≠ p2 := fun e => by rw [e] at hy; exact lt_irrefl _ hy
  have k := kept_of sort hsort eq p1 p2 hy _ (cyl_cuts m fuzz hf lines p1 p2 hy)
  set cuts := m.radii.flatMap (ringCuts Real.sqrt fuzz ⟨p1, p2⟩) ++ lines.filterMap fun li => meet li ⟨p1, p2⟩ with hcuts
  set Q := unique eq (sort (p1 :: p2 :: cuts)) with hQ
  have hall : ∀ q ∈ Q, OnRay p1 p2 q := by
    intro q hq
    rcases List.mem_cons.mp (k.sub q hq) with rfl | h
    · exact ⟨0, le_refl _, zero_le_one, by simp [onRay]⟩
    · rcases List.mem_cons.mp h with rfl | h
      · exact ⟨1, zero_le_one, le_refl _, by simp [onRay]⟩
      · exact cyl_cuts m fuzz hf lines p1 p2 hy q h
  refine ⟨Q, ?_, ?_, hall, ?_, ?_⟩
  · rw [List.head?_eq_some_head k.ne, k.head]
  · rw [List.getLast?_eq_some_getLast k.ne]
    rcases k.last with h | h
    · rw [h]
    · rw [(heq _ _).mp h]
  · unfold Cyl.trace
    rw [pieces_zip]
  · intro a b hab
    obtain ⟨hyab, free⟩ := piece_free eq heq p1 p2 hy _ Q k hall a b hab
    refine ⟨hyab, ?_⟩
    have hra := hall a (List.of_mem_zip hab).1
    have hrb := hall b (List.mem_of_mem_tail (List.of_mem_zip hab).2)
    have hma := cyl_convex m p1 p2 a hray.has1 hray.has2 hra
    have hmb := cyl_convex m p1 p2 b hray.has1 hray.has2 hrb
    have hon : ∀ t, 0 ≤ t → t ≤ 1 → OnRay p1 p2 (onRay a b t) ∧ m.Has (onRay a b t) := fun t t0 t1 =>
      ⟨onRay_trans p1 p2 a b _ hra hrb ⟨t, t0, t1, rfl⟩, cyl_convex m a b _ hma hmb ⟨t, t0, t1, rfl⟩⟩
    have notcut : ∀ t, 0 < t → t < 1 → onRay a b t ∉ cuts := fun t t0 t1 hm =>
      free t t0 t1 (List.mem_cons_of_mem _ (List.mem_cons_of_mem _ hm))
    -- rings
    have noring : ∀ r ∈ m.radii, ∀ t, 0 < t → t < 1 → (onRay a b t).x ^ 2 + (onRay a b t).y ^ 2 ≠ r ^ 2 := by
      intro r hr t t0 t1 he
      obtain ⟨⟨u, u0, u1, eu⟩, _⟩ := hon t t0.le t1.le
      have hu0 : 0 < u := by
        rcases lt_or_eq_of_le u0 with h | h
        · exact h
        · exfalso
          rw [eu, ← h] at he
          have := hray.out1 r hr
          simp only [onRay, zero_mul, add_zero] at he
          linarith
      have hu1 : u < 1 := by
        rcases lt_or_eq_of_le u1 with h | h
        · exact h
        · exfalso
          rw [eu, h] at he
          have := hray.out2 r hr
          simp only [onRay, one_mul] at he
          rw [show p1.x + (p2.x - p1.x) = p2.x by ring, show p1.y + (p2.y - p1.y) = p2.y by ring] at he
          linarith
      apply notcut t t0 t1
      rw [hcuts, List.mem_append]
      left
      rw [List.mem_flatMap]
      refine ⟨r, hr, ?_⟩
      rw [eu] at he ⊢
      exact ring_crossing fuzz hf p1 p2 hne r (hray.out1 r hr) (hray.out2 r hr) u hu0 hu1 he
    have ringEq : ∀ s t, 0 < s → s < 1 → 0 < t → t < 1 →
        ¬ ringOf m.radii (dist0 (onRay a b s)) < ringOf m.radii (dist0 (onRay a b t)) := by
      intro s t s0 s1 t0 t1 hlt
      obtain ⟨r, hr, w, w1, w2, hw⟩ := ring_between m.radii hrad a b s t hlt
      exact noring r hr w (lt_of_lt_of_le (lt_min s0 t0) w1) (lt_of_le_of_lt w2 (max_lt s1 t1)) hw
    -- sectors
    have noside : ∀ j, j < 2 * h → ∀ t, 0 < t → t < 1 → side (2 * h) j (onRay a b t) ≠ 0 := by
      intro j hj t t0 t1 he
      obtain ⟨r1, r2⟩ := hon t t0.le t1.le
      apply notcut t t0 t1
      rw [hcuts, List.mem_append]
      right
      exact sector_crossing m.pitch (2 * h) lines hl p1 p2 hray.off j hj _ r1 r2.1 r2.2 he
    have hy0 : ∀ t, 0 < t → t < 1 → (onRay a b t).y ≠ 0 := by
      intro t t0 t1 he
      apply noside 0 (by omega) t t0 t1
      unfold side lineAngle
      rw [he]
      simp
    have hd0 : ∀ t, 0 < t → t < 1 → 0 < dist0 (onRay a b t) := by
      intro t t0 t1
      unfold dist0
      apply Real.sqrt_pos.mpr
      have := mul_self_pos.mpr (hy0 t t0 t1)
      nlinarith [mul_self_nonneg (onRay a b t).x]
    have sgn : ∀ s t, 0 < s → s < 1 → 0 < t → t < 1 → ∀ j, j < 2 * h →
        0 < Real.sin (angle (onRay a b s) - lineAngle (2 * h) j) * Real.sin (angle (onRay a b t) - lineAngle (2 * h) j) := by
      intro s t s0 s1 t0 t1 j hj
      have h1 := side_sign (2 * h) j a b (noside j hj) s t s0 s1 t0 t1
      rw [side_sin _ _ _ (hy0 s s0 s1), side_sin _ _ _ (hy0 t t0 t1)] at h1
      have h2 := mul_pos (hd0 s s0 s1) (hd0 t t0 t1)
      have h3 : 0 < (dist0 (onRay a b s) * dist0 (onRay a b t)) *
          (Real.sin (angle (onRay a b s) - lineAngle (2 * h) j) * Real.sin (angle (onRay a b t) - lineAngle (2 * h) j)) := by
        linarith [show dist0 (onRay a b s) * Real.sin (angle (onRay a b s) - lineAngle (2 * h) j) *
          (dist0 (onRay a b t) * Real.sin (angle (onRay a b t) - lineAngle (2 * h) j)) =
          (dist0 (onRay a b s) * dist0 (onRay a b t)) *
          (Real.sin (angle (onRay a b s) - lineAngle (2 * h) j) * Real.sin (angle (onRay a b t) - lineAngle (2 * h) j)) by ring]
      exact pos_of_mul_pos_right h3 h2.le
    have hmid : midpoint b a = onRay a b (1 / 2) := by
      simp only [Geom.midpoint, onRay, Pt.mk.injEq]
      constructor <;> ring
    rintro q ⟨t, t0, t1, rfl⟩
    rw [hmid]
    have m0 : (0 : ℝ) < 1 / 2 := by norm_num
    have m1 : (1 / 2 : ℝ) < 1 := by norm_num
    have hring : ringOf m.radii (dist0 (onRay a b t)) = ringOf m.radii (dist0 (onRay a b (1 / 2))) :=
      le_antisymm (not_lt.mp (ringEq (1 / 2) t m0 m1 t0 t1)) (not_lt.mp (ringEq t (1 / 2) t0 t1 m0 m1))
    obtain ⟨_, q1, q2⟩ := hon t t0.le t1.le
    obtain ⟨_, q3, q4⟩ := hon (1 / 2) m0.le m1.le
    obtain ⟨aq0, aq1, _, _⟩ := C68_angle_partial _ (hy0 t t0 t1)
    obtain ⟨am0, am1, _, _⟩ := C68_angle_partial _ (hy0 (1 / 2) m0 m1)
    obtain ⟨iq, eq1, iq1, iq2, iq3⟩ := sector_floor _ (2 * h) (by omega) aq0.le aq1
    obtain ⟨im, em1, im1, im2, im3⟩ := sector_floor _ (2 * h) (by omega) am0.le am1
    have hsec : iq = im := by
      have n1 := sector_same h hh _ _ iq im aq0 am1 im1 iq3 iq2 im2 im3 (sgn t (1 / 2) t0 t1 m0 m1)
      have n2 := sector_same h hh _ _ im iq am0 aq1 iq1 im3 im2 iq2 iq3 (sgn (1 / 2) t m0 m1 t0 t1)
      omega
    have reg_eq : ∀ p : Pt ℝ, |p.x| ≤ m.pitch / 2 → |p.y| ≤ m.pitch / 2 → m.regionAt p =
        (ringOf m.radii (dist0 p) : Int) * (2 * h : Nat) + toInt (angle p / (2 * Real.pi / (((2 * h : Nat) : Int) : ℝ))) := by
      intro p hx1 hy1
      unfold Cyl.regionAt Cyl.findReg
      rw [if_neg (by rintro (h | h) <;> linarith), hn]
      rfl
    rw [reg_eq _ q1 q2, reg_eq _ q3 q4, hring, eq1, em1, hsec]

/-! ### The lines between the sectors -/

/-- C72: unless a sector line goes through a corner, the lines the constructor makes reach every point at the angles of the
sectors (those of the opposite direction each, C70). -/
theorem C72_lines (m : Cyl ℝ) (h : Nat) (hh : 1 ≤ h) (hn : m.nAzi = (2 * h : Nat)) (hp : 0 < m.pitch) (fuzz far : ℝ)
    (hf : fuzz < m.pitch / 2) (hfar : m.pitch < far)
    (hdiag : ∀ k, k < 2 * h → |Real.cos (lineAngle (2 * h) k)| ≠ |Real.sin (lineAngle (2 * h) k)|) :
    ∃ lines, m.lines fuzz far (2 * Real.pi) Real.cos Real.sin = lines.map some ∧ lines.length = 2 * h ∧
      Complete m.pitch (2 * h) lines := by
  have hbox : Box.mk' (⟨-(1 / 2 * m.pitch), -(1 / 2 * m.pitch)⟩ : Pt ℝ) ⟨1 / 2 * m.pitch, 1 / 2 * m.pitch⟩ =
      around ⟨0, 0⟩ (m.pitch / 2) (m.pitch / 2) := by
    unfold Box.mk' around
    simp only [zero_sub, zero_add]
    rw [min_eq_left (by linarith), max_eq_right (by linarith)]
    congr 2 <;> ring
  -- the end point of line k
  set D : Nat → ℝ := fun k => m.pitch / 2 / max |Real.cos (lineAngle (2 * h) k)| |Real.sin (lineAngle (2 * h) k)| with hD
  have hmax : ∀ k, 1 / 2 < max |Real.cos (lineAngle (2 * h) k)| |Real.sin (lineAngle (2 * h) k)| := by
    intro k
    by_contra hc
    rw [not_lt] at hc
    have c1 := le_trans (le_max_left _ _) hc
    have c2 := le_trans (le_max_right _ _) hc
    have e := Real.sin_sq_add_cos_sq (lineAngle (2 * h) k)
    rw [← sq_abs, ← sq_abs (Real.cos _)] at e
    nlinarith [abs_nonneg (Real.cos (lineAngle (2 * h) k)), abs_nonneg (Real.sin (lineAngle (2 * h) k))]
  have hmax1 : ∀ k, max |Real.cos (lineAngle (2 * h) k)| |Real.sin (lineAngle (2 * h) k)| ≤ 1 := by
    intro k
    exact max_le (Real.abs_cos_le_one _) (Real.abs_sin_le_one _)
  have hD1 : ∀ k, fuzz < D k := by
    intro k
    rw [hD]
    refine lt_of_lt_of_le hf ?_
    rw [le_div_iff₀ (by linarith [hmax k])]
    nlinarith [hmax1 k]
  have hD2 : ∀ k, D k < far := by
    intro k
    rw [hD]
    refine lt_of_le_of_lt ?_ hfar
    simp only []
    rw [div_le_iff₀ (by linarith [hmax k])]
    nlinarith [hmax k]
  have hline : ∀ k, k < 2 * h → (around (⟨0, 0⟩ : Pt ℝ) (m.pitch / 2) (m.pitch / 2)).intersect fuzz far ⟨0, 0⟩
      (Real.cos (lineAngle (2 * h) k)) (Real.sin (lineAngle (2 * h) k)) =
      some (goTo ⟨0, 0⟩ (Real.cos (lineAngle (2 * h) k)) (Real.sin (lineAngle (2 * h) k)) (-(D k))) := by
    intro k hk
    have h1 := hD1 k
    have h2 := hD2 k
    rcases lt_or_gt_of_ne (hdiag k hk) with hlt | hlt
    · have e : D k = m.pitch / 2 / |Real.sin (lineAngle (2 * h) k)| := by rw [hD]; simp only []; rw [max_eq_right hlt.le]
      rw [e] at h1 h2 ⊢
      exact C70_centre_y fuzz far _ _ _ _ _ (by linarith) (by linarith) (by nlinarith) h1 h2
    · have e : D k = m.pitch / 2 / |Real.cos (lineAngle (2 * h) k)| := by rw [hD]; simp only []; rw [max_eq_left hlt.le]
      rw [e] at h1 h2 ⊢
      exact C70_centre_x fuzz far _ _ _ _ _ (by linarith) (by linarith) (by nlinarith) h1 h2
  refine ⟨(List.range (2 * h)).map fun k => ⟨⟨0, 0⟩, goTo ⟨0, 0⟩ (Real.cos (lineAngle (2 * h) k)) (Real.sin (lineAngle (2 * h) k)) (-(D k))⟩,
    ?_, by simp, ?_⟩
  · unfold Cyl.lines
    rw [hn, Int.toNat_natCast, List.map_map]
    apply List.map_congr_left
    intro k hk
    rw [List.mem_range] at hk
    rw [hbox, Int.cast_natCast]
    have := hline k hk
    unfold lineAngle at this
    rw [this]
    rfl
  · intro k hk c hx hy hc
    have e := Real.sin_sq_add_cos_sq (lineAngle (2 * h) k)
    -- the coordinate along the line
    obtain ⟨l, hlx, hly⟩ : ∃ l, c.x = l * Real.cos (lineAngle (2 * h) k) ∧ c.y = l * Real.sin (lineAngle (2 * h) k) := by
      refine ⟨c.x * Real.cos (lineAngle (2 * h) k) + c.y * Real.sin (lineAngle (2 * h) k), ?_, ?_⟩
      · linear_combination (-c.x) * e + (-Real.sin (lineAngle (2 * h) k)) * hc
      · linear_combination (-c.y) * e + Real.cos (lineAngle (2 * h) k) * hc
    have hlD : |l| ≤ D k := by
      rw [hD]
      simp only []
      rw [le_div_iff₀ (by linarith [hmax k])]
      rcases max_cases |Real.cos (lineAngle (2 * h) k)| |Real.sin (lineAngle (2 * h) k)| with ⟨em, _⟩ | ⟨em, _⟩
      · rw [em, ← abs_mul, ← hlx]; exact hx
      · rw [em, ← abs_mul, ← hly]; exact hy
    have hDp : 0 < D k := by
      rw [hD]; exact div_pos (by linarith) (by linarith [hmax k])
    -- the line on the side of `c`
    have pick : ∀ j, j < 2 * h → ∀ μ, μ ≤ 0 → -μ ≤ D j → c.x = μ * Real.cos (lineAngle (2 * h) j) →
        c.y = μ * Real.sin (lineAngle (2 * h) j) → ∃ q, (⟨⟨0, 0⟩, q⟩ : Line ℝ) ∈ (List.range (2 * h)).map (fun k =>
          (⟨⟨0, 0⟩, goTo ⟨0, 0⟩ (Real.cos (lineAngle (2 * h) k)) (Real.sin (lineAngle (2 * h) k)) (-(D k))⟩ : Line ℝ)) ∧
          OnSeg (⟨⟨0, 0⟩, q⟩ : Line ℝ) c := by
      intro j hj μ h0 h1 e1 e2
      have hDj : 0 < D j := by
        rw [hD]; exact div_pos (by linarith) (by linarith [hmax j])
      refine ⟨_, List.mem_map.mpr ⟨j, List.mem_range.mpr hj, rfl⟩, -μ / D j, div_nonneg (by linarith) hDj.le,
        by rw [div_le_one hDj]; exact h1, ?_, ?_⟩
      · simp only [goTo, mul_zero, zero_add]; rw [e1]; field_simp
      · simp only [goTo, mul_zero, zero_add]; rw [e2]; field_simp
    rcases le_total l 0 with h0 | h0
    · exact pick k hk l h0 (by rw [← abs_of_nonpos h0]; exact hlD) hlx hly
    · -- the opposite sector line
      have hh' : (0 : ℝ) < h := by exact_mod_cast hh
      have hop : ∃ j, j < 2 * h ∧ Real.cos (lineAngle (2 * h) j) = -Real.cos (lineAngle (2 * h) k) ∧
          Real.sin (lineAngle (2 * h) j) = -Real.sin (lineAngle (2 * h) k) := by
        rcases Nat.lt_or_ge k h with hk' | hk'
        · refine ⟨k + h, by omega, ?_, ?_⟩
          · have ea : lineAngle (2 * h) (k + h) = lineAngle (2 * h) k + Real.pi := by
              unfold lineAngle; push_cast; field_simp
            rw [ea, Real.cos_add_pi]
          · have ea : lineAngle (2 * h) (k + h) = lineAngle (2 * h) k + Real.pi := by
              unfold lineAngle; push_cast; field_simp
            rw [ea, Real.sin_add_pi]
        · have ea : lineAngle (2 * h) (k - h) = lineAngle (2 * h) k - Real.pi := by
            unfold lineAngle
            rw [Nat.cast_sub hk']
            push_cast; field_simp
          refine ⟨k - h, by omega, ?_, ?_⟩
          · rw [ea, Real.cos_sub_pi]
          · rw [ea, Real.sin_sub_pi]
      obtain ⟨j, hj, ec, es⟩ := hop
      have eD : D j = D k := by
        rw [hD]; simp only []; rw [ec, es, abs_neg, abs_neg]
      refine pick j hj (-l) (by linarith) ?_ (by rw [ec, hlx]; ring) (by rw [es, hly]; ring)
      rw [neg_neg, eD, ← abs_of_nonneg h0]
      exact hlD

/-- With two, four or six sectors no sector line goes through a corner. -/
theorem C72_no_corner (h : Nat) (h1 : 1 ≤ h) (h3 : h ≤ 3) (k : Nat) :
    |Real.cos (lineAngle (2 * h) k)| ≠ |Real.sin (lineAngle (2 * h) k)| := by
  intro he
  have hsq : Real.cos (lineAngle (2 * h) k) ^ 2 = Real.sin (lineAngle (2 * h) k) ^ 2 := by
    rw [← sq_abs, he, sq_abs]
  have h0 : Real.cos (2 * lineAngle (2 * h) k) = 0 := by
    rw [Real.cos_two_mul]
    have := Real.sin_sq_add_cos_sq (lineAngle (2 * h) k)
    linarith
  have hper : Real.cos (k * (2 * Real.pi)) = 1 := Real.cos_nat_mul_two_pi k
  have hcase : h = 1 ∨ h = 2 ∨ h = 3 := by omega
  rcases hcase with rfl | rfl | rfl
  · have e : 2 * lineAngle (2 * 1) k = k * (2 * Real.pi) := by unfold lineAngle; push_cast; ring
    rw [e, hper] at h0
    norm_num at h0
  · have e : 2 * (2 * lineAngle (2 * 2) k) = k * (2 * Real.pi) := by unfold lineAngle; push_cast; ring
    rw [← e, Real.cos_two_mul, h0] at hper
    norm_num at hper
  · have e : 3 * (2 * lineAngle (2 * 3) k) = k * (2 * Real.pi) := by unfold lineAngle; push_cast; ring
    rw [← e, Real.cos_three_mul, h0] at hper
    norm_num at hper

/-- C72: with eight sectors the diagonals go through the corners, and in exact arithmetic no end point is found for them. -/
theorem C72_eight (m : Cyl ℝ) (hn : m.nAzi = 8) (hp : 0 < m.pitch) (fuzz far : ℝ) :
    (m.lines fuzz far (2 * Real.pi) Real.cos Real.sin)[1]? = some none := by
  have hbox : Box.mk' (⟨-(1 / 2 * m.pitch), -(1 / 2 * m.pitch)⟩ : Pt ℝ) ⟨1 / 2 * m.pitch, 1 / 2 * m.pitch⟩ =
      around ⟨0, 0⟩ (m.pitch / 2) (m.pitch / 2) := by
    unfold Box.mk' around
    simp only [zero_sub, zero_add]
    rw [min_eq_left (by linarith), max_eq_right (by linarith)]
    congr 2 <;> ring
  unfold Cyl.lines
  rw [hn, hbox]
  have ea : (((1 : Nat) : ℝ) * (2 * Real.pi / ((8 : Int) : ℝ))) = Real.pi / 4 := by push_cast; ring
  have hc := C70_corner fuzz far (⟨0, 0⟩ : Pt ℝ) (m.pitch / 2) (m.pitch / 2) (Real.cos (Real.pi / 4)) (Real.sin (Real.pi / 4))
    (by linarith) (by linarith) (by rw [Real.cos_pi_div_four, Real.sin_pi_div_four])
  rw [List.getElem?_map, show (8 : Int).toNat = 8 from rfl, List.getElem?_range (by norm_num)]
  simp only [Option.map_some]
  rw [ea, hc]
  rfl

/-- C72, the full claim: also for ends on or within a ring, the pieces lie within one ring each. -/
def C72_claim : Prop := ∀ (m : Cyl ℝ) (fuzz : ℝ) (lines : List (Line ℝ)) (sort : List (Pt ℝ) → List (Pt ℝ)) (eq : Pt ℝ → Pt ℝ → Bool),
  fuzz ≤ 1 → SortsByY sort → (∀ a b, eq a b = true ↔ a = b) → ∀ p1 p2 : Pt ℝ, p1.y < p2.y → m.Has p1 → m.Has p2 → ∀ first,
  ∃ Q : List (Pt ℝ), Q.head? = some p1 ∧ Q.getLast? = some p2 ∧
    (m.trace Real.sqrt fuzz lines m.regionAt sort eq dist2 p1 p2 first).map Prod.fst = (Q.zip Q.tail).map (fun ab => dist2 ab.2 ab.1) ∧
    ∀ a b, (a, b) ∈ Q.zip Q.tail → ∀ q, Between a b q → ringOf m.radii (dist0 q) = ringOf m.radii (dist0 (midpoint b a))

/-- C72 fails: a ray that enters at the point where a ring touches the edge of the pin (pitch 2, radius 1) crosses the ring once
within; that crossing is dropped, and the ray becomes a single piece. -/
theorem C72_claim_false : ¬ C72_claim := by
  classical
  intro h
  obtain ⟨Q, h1, h2, h3, h4⟩ := h ⟨2, [1], [1], 1, [1]⟩ (1 / 10) [] _ (fun a b => decide (a = b)) (by norm_num) mergeSort_sorts
    (by intro a b; simp) ⟨0, -1⟩ ⟨1, 1⟩ (by norm_num) (by norm_num [Cyl.Has]) (by norm_num [Cyl.Has]) 0
  have hcut : ringCuts Real.sqrt (1 / 10) (⟨⟨0, -1⟩, ⟨1, 1⟩⟩ : Line ℝ) 1 = [] := by
    have e4 : Real.sqrt 4 = 2 := by
      rw [show (4 : ℝ) = 2 ^ 2 by norm_num]; exact Real.sqrt_sq (by norm_num)
    unfold ringCuts hitCircle
    norm_num [equivRel, fdiv, collect, unitOpen, e4]
  unfold Cyl.trace at h3
  simp only [List.flatMap_cons, List.flatMap_nil, hcut, List.filterMap_nil, List.append_nil] at h3
  have hs : ([⟨0, -1⟩, ⟨1, 1⟩] : List (Pt ℝ)).mergeSort (fun a b => decide (a.y ≤ b.y)) = [⟨0, -1⟩, ⟨1, 1⟩] := by
    apply List.mergeSort_of_pairwise
    simp
  rw [hs] at h3
  have hu : unique (fun a b : Pt ℝ => decide (a = b)) [⟨0, -1⟩, ⟨1, 1⟩] = [⟨0, -1⟩, ⟨1, 1⟩] := by
    simp [unique, uniqueFrom]
  rw [hu] at h3
  simp only [pieces, List.map_cons, List.map_nil] at h3
  match Q, h1, h2, h3, h4 with
  | [a, b], h1, h2, h3, h4 =>
    simp only [List.head?_cons, Option.some.injEq] at h1
    simp only [List.getLast?_cons_cons, List.getLast?_singleton, Option.some.injEq] at h2
    subst h1 h2
    have := h4 _ _ (by simp) (onRay ⟨0, -1⟩ ⟨1, 1⟩ (9 / 10)) ⟨9 / 10, by norm_num, by norm_num, rfl⟩
    have d1 : ¬ dist0 (onRay ⟨0, -1⟩ ⟨1, 1⟩ (9 / 10)) < 1 := by
      unfold dist0 onRay
      rw [not_lt]
      apply Real.le_sqrt_of_sq_le
      norm_num
    have d2 : dist0 (Geom.midpoint (⟨1, 1⟩ : Pt ℝ) ⟨0, -1⟩) < 1 := by
      unfold dist0 Geom.midpoint
      rw [Real.sqrt_lt' (by norm_num)]
      norm_num
    simp only [ringOf, if_neg d1, if_pos d2] at this
    omega
  | [], h1, _, _, _ => simp at h1
  | [a], h1, h2, h3, _ => simp at h3
  | a :: b :: c :: r, h1, h2, h3, h4 => simp at h3

/-- A ray as required. -/
example : Cyl.Ray (⟨2, [1 / 4, 1 / 2], [1, 1], 4, [1 / 4, 1 / 2]⟩ : Cyl ℝ) ⟨-1, -1 / 2⟩ ⟨1, 1 / 4⟩ where
  up := by norm_num
  has1 := by norm_num [Cyl.Has, abs_le]
  has2 := by norm_num [Cyl.Has, abs_le]
  out1 := by norm_num
  out2 := by norm_num
  off := by norm_num

/-- The theorem applied to it, with the lines of the constructor. -/
example : ∃ (lines : List (Line ℝ)) (Q : List (Pt ℝ)), Complete 2 4 lines ∧ Q.head? = some (⟨-1, -1 / 2⟩ : Pt ℝ) ∧ Q.getLast? = some ⟨1, 1 / 4⟩ ∧
    (((⟨2, [1 / 4, 1 / 2], [1, 1], 4, [1 / 4, 1 / 2]⟩ : Cyl ℝ).trace Real.sqrt (1 / 10) lines (Cyl.regionAt ⟨2, [1 / 4, 1 / 2], [1, 1], 4, [1 / 4, 1 / 2]⟩)
      (fun l => l.mergeSort (fun a b => decide (a.y ≤ b.y))) (fun a b => by classical exact decide (a = b)) dist2 ⟨-1, -1 / 2⟩ ⟨1, 1 / 4⟩
      0).map Prod.fst) = (Q.zip Q.tail).map (fun ab => dist2 ab.2 ab.1) := by
  obtain ⟨lines, _, _, hc⟩ := C72_lines (⟨2, [1 / 4, 1 / 2], [1, 1], 4, [1 / 4, 1 / 2]⟩ : Cyl ℝ) 2 (by norm_num) rfl (by norm_num) (1 / 10) 3 (by norm_num)
    (by norm_num) (fun k _ => C72_no_corner 2 (by norm_num) (by norm_num) k)
  obtain ⟨Q, h1, h2, _, h3, _⟩ := C72_pieces_partial (⟨2, [1 / 4, 1 / 2], [1, 1], 4, [1 / 4, 1 / 2]⟩ : Cyl ℝ) 2 (by norm_num) rfl (by norm_num)
    (1 / 10) (by norm_num) lines hc _ mergeSort_sorts (fun a b => by classical exact decide (a = b)) (by intro a b; simp) ⟨-1, -1 / 2⟩ ⟨1, 1 / 4⟩
    ⟨by norm_num, by norm_num [Cyl.Has, abs_le], by norm_num [Cyl.Has, abs_le], by norm_num, by norm_num, by norm_num⟩ 0
  refine ⟨lines, Q, hc, h1, h2, ?_⟩
  rw [h3, List.map_map]
  rfl

end Verif.PinMesh
