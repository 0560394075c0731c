import Verif.Quad.UserModel
import Verif.Quad.ProductProps
import Verif.Dir.Props

/-!
# C90: user-specified quadratures
-/

namespace Verif.Quad.User

open Verif.Dir Verif.Quad.LS Verif.Quad.Product

/-- What is known of the comparison with one: it tolerates at most `ε`, and one passes. -/
structure Tells (same : ℝ → ℝ → Bool) (ε : ℝ) : Prop where
  close : ∀ a, same a 1 = true → |a - 1| ≤ ε
  one : same 1 1 = true

/-- The angle `a` is what the tag `t` says: its weight, and either its three cosines or its azimuth and polar angle (zero if missing). -/
def Gives (t : AngleTag ℝ) (a : Direction ℝ × ℝ) : Prop :=
  t.weight = some a.2 ∧
  ((t.ox = some a.1.ox ∧ t.oy = some a.1.oy ∧ t.oz = some a.1.oz ∧ t.alpha = none ∧ t.theta = none) ∨
   (t.ox = none ∧ t.oy = none ∧ t.oz = none ∧ ∃ alpha theta, t.alpha = some alpha ∧ t.theta.getD 0 = theta ∧ a.1.alpha = some alpha ∧
     a.1.theta = some theta ∧ a.1.ox = Real.sin theta * Real.cos alpha ∧ a.1.oy = Real.sin theta * Real.sin alpha ∧ a.1.oz = Real.cos theta))

/-- Length of the vector of cosines. -/
noncomputable def len (d : Direction ℝ) : ℝ := Real.sqrt (d.ox ^ 2 + d.oy ^ 2 + d.oz ^ 2)

theorem readAngle_spec {same : ℝ → ℝ → Bool} {ε : ℝ} (hs : Tells same ε) (h0 : 0 ≤ ε) (t : AngleTag ℝ) (a : Direction ℝ × ℝ)
    (h : readAngle real Real.sqrt same t = some a) : Gives t a ∧ 0 < a.2 ∧ |len a.1 - 1| ≤ ε := by
  unfold readAngle at h
  dsimp only at h
  split_ifs at h with hw hox hal
  · have hwt : t.weight = some (t.weight.getD 0) := by
      cases hh : t.weight with
      | none => rw [hh] at hw; simp at hw
      | some w => rfl
    unfold fromCosines at h
    split_ifs at h with h1
    dsimp only at h
    split_ifs at h with h2 h3 h4 h5
    simp only [Option.some.injEq] at h
    subst h
    simp only [Bool.or_eq_true, not_or, Bool.not_eq_true, Option.isSome_eq_false_iff, Option.isNone_iff_eq_none] at h1
    have get2 : ∀ o : Option ℝ, ¬ (o.getD 2 ≤ -1 ∨ 1 ≤ o.getD 2) → o = some (o.getD 2) := by
      intro o ho
      cases o with
      | none => exact absurd (Or.inr (by norm_num)) ho
      | some x => rfl
    refine ⟨⟨hwt, Or.inl ⟨get2 _ h2, get2 _ h3, get2 _ h4, h1.1, h1.2⟩⟩, not_le.mp hw, ?_⟩
    have := hs.close _ (by simpa using h5)
    unfold len
    show |Real.sqrt (t.ox.getD 2 ^ 2 + t.oy.getD 2 ^ 2 + t.oz.getD 2 ^ 2) - 1| ≤ ε
    simpa only [sq] using this
  · have hwt : t.weight = some (t.weight.getD 0) := by
      cases hh : t.weight with
      | none => rw [hh] at hw; simp at hw
      | some w => rfl
    unfold fromAngles at h
    split_ifs at h with h1
    dsimp only at h
    split_ifs at h with h2 h3
    simp only [Option.some.injEq] at h
    subst h
    simp only [Bool.or_eq_true, not_or, Bool.not_eq_true, Option.isSome_eq_false_iff, Option.isNone_iff_eq_none] at h1
    obtain ⟨al, hal'⟩ := Option.isSome_iff_exists.mp hal
    refine ⟨⟨hwt, Or.inr ⟨h1.1.1, h1.1.2, h1.2, t.alpha.getD 0, t.theta.getD 0, by rw [hal']; rfl, rfl, rfl, rfl, rfl, rfl, rfl⟩⟩, not_le.mp hw, ?_⟩
    unfold len
    have e1 := Real.sin_sq_add_cos_sq (t.theta.getD 0)
    have e2 := Real.sin_sq_add_cos_sq (t.alpha.getD 0)
    show |Real.sqrt ((Real.sin (t.theta.getD 0) * Real.cos (t.alpha.getD 0)) ^ 2 + (Real.sin (t.theta.getD 0) * Real.sin (t.alpha.getD 0)) ^ 2 +
      Real.cos (t.theta.getD 0) ^ 2) - 1| ≤ ε
    rw [show (Real.sin (t.theta.getD 0) * Real.cos (t.alpha.getD 0)) ^ 2 + (Real.sin (t.theta.getD 0) * Real.sin (t.alpha.getD 0)) ^ 2 +
      Real.cos (t.theta.getD 0) ^ 2 = 1 by linear_combination e1 + Real.sin (t.theta.getD 0) ^ 2 * e2, Real.sqrt_one, sub_self, abs_zero]
    exact h0

theorem foldl_weights (l : List (Direction ℝ × ℝ)) : ∀ s : ℝ, l.foldl (fun w a => w + a.2) s = s + (l.map Prod.snd).sum := by
  induction l with
  | nil => intro s; simp
  | cons a l ih => intro s; rw [List.foldl_cons, ih, List.map_cons, List.sum_cons, add_assoc]

theorem expandAll_sum (first : List (Direction ℝ × ℝ)) :
    ((expandAll real first).map Prod.snd).sum = 8 * (first.map Prod.snd).sum := by
  have h : ∀ i : Nat, ((first.map fun a => (toOctant real a.1 i, a.2)).map Prod.snd).sum = (first.map Prod.snd).sum := by
    intro i; rw [List.map_map]; rfl
  unfold expandAll
  simp only [List.range, List.range.loop, List.flatMap_cons, List.flatMap_nil, List.map_append, List.sum_append, h, List.append_nil]
  ring

/-- C90: what is accepted.  There is one angle for each tag, in their order and as the tags say; weights are positive, vectors have length one and
no negative component, weights of the first octant sum to one and those of all octants to eight, up to the tolerance of the comparison. -/
theorem C90_accepted {same : ℝ → ℝ → Bool} {ε : ℝ} (hs : Tells same ε) (h0 : 0 ≤ ε) (tags : List (AngleTag ℝ)) (as : List (Direction ℝ × ℝ))
    (h : genUser real Real.sqrt same tags = some as) :
    List.Forall₂ Gives tags as ∧ (∀ a ∈ as, 0 < a.2 ∧ |len a.1 - 1| ≤ ε ∧ 0 ≤ a.1.ox ∧ 0 ≤ a.1.oy ∧ 0 ≤ a.1.oz) ∧
      |(as.map Prod.snd).sum - 1| ≤ ε ∧ |((expandAll real as).map Prod.snd).sum - 8| ≤ 8 * ε := by
  unfold genUser at h
  cases hm : tags.mapM (readAngle real Real.sqrt same) with
  | none => rw [hm] at h; cases h
  | some angles =>
    rw [hm] at h
    dsimp only at h
    split_ifs at h with h1 h2
    cases h
    have hf := mapM_forall₂ _ _ _ hm
    have hw : |(as.map Prod.snd).sum - 1| ≤ ε := by
      have := hs.close _ (by simpa using h2)
      rwa [foldl_weights, zero_add] at this
    refine ⟨hf.imp fun t a e => (readAngle_spec hs h0 t a e).1, ?_, hw, ?_⟩
    · intro a ha
      obtain ⟨t, -, ht⟩ : ∃ t ∈ tags, readAngle real Real.sqrt same t = some a := by
        obtain ⟨i, hi, rfl⟩ := List.mem_iff_getElem.mp ha
        have := (List.forall₂_iff_get.mp hf).2 i (by rw [hf.length_eq]; exact hi) hi
        exact ⟨_, List.getElem_mem _, this⟩
      obtain ⟨-, p1, p2⟩ := readAngle_spec hs h0 t a ht
      have hn : ¬ (a.1.ox < 0 ∨ a.1.oy < 0 ∨ a.1.oz < 0) := by
        intro hc
        exact h1 (List.any_eq_true.mpr ⟨a, ha, by simpa using hc⟩)
      push Not at hn
      exact ⟨p1, p2, hn⟩
    · rw [expandAll_sum, show 8 * (as.map Prod.snd).sum - 8 = 8 * ((as.map Prod.snd).sum - 1) by ring, abs_mul,
        abs_of_pos (by norm_num : (0 : ℝ) < 8)]
      linarith

/-- A tag with positive weight `w` and a direction inside of the first octant, by cosines or by angles, and nothing else. -/
def Proper (t : AngleTag ℝ) : Prop :=
  (∃ w, t.weight = some w ∧ 0 < w) ∧
  ((∃ ox oy oz, t.ox = some ox ∧ t.oy = some oy ∧ t.oz = some oz ∧ t.alpha = none ∧ t.theta = none ∧ 0 < ox ∧ 0 < oy ∧ 0 < oz ∧
      ox ^ 2 + oy ^ 2 + oz ^ 2 = 1) ∨
   (∃ alpha theta, t.ox = none ∧ t.oy = none ∧ t.oz = none ∧ t.alpha = some alpha ∧ t.theta = some theta ∧ 0 < alpha ∧ alpha < Real.pi / 2 ∧
      0 < theta ∧ theta < Real.pi / 2))

/-- A direction inside of the first octant whose angles agree with its cosines. -/
def Inside (d : Direction ℝ) : Prop := 0 < d.ox ∧ 0 < d.oy ∧ 0 < d.oz ∧
  ∃ alpha theta rs, d.alpha = some alpha ∧ d.theta = some theta ∧ d.rsintheta = some rs ∧ 0 < alpha ∧ alpha < Real.pi / 2 ∧ 0 < theta ∧
    theta < Real.pi / 2 ∧ Real.sin theta * Real.cos alpha = d.ox ∧ Real.sin theta * Real.sin alpha = d.oy ∧ Real.cos theta = d.oz ∧
    rs * Real.sin theta = 1

theorem inside_of_cosines (ox oy oz : ℝ) (hx : 0 < ox) (hy : 0 < oy) (hz : 0 < oz) (h : ox ^ 2 + oy ^ 2 + oz ^ 2 = 1) :
    Inside (ofCosines real ox oy oz) := by
  have hz2 : oz ^ 2 ≠ 1 := by nlinarith
  obtain ⟨al, th, rs, e1, e2, e3, a0, a1, t0, t1, c1, c2, c3, c4⟩ := C78_of_cosines ox oy oz h hz2
  have hs : 0 < Real.sin th := Real.sin_pos_of_pos_of_lt_pi t0 t1
  have hca : 0 < Real.cos al := by nlinarith
  have hsa : 0 < Real.sin al := by nlinarith
  have hct : 0 < Real.cos th := by rw [c3]; exact hz
  have th2 : th < Real.pi / 2 := by
    by_contra hc
    have := Real.cos_nonpos_of_pi_div_two_le_of_le (not_lt.mp hc) (by linarith)
    linarith
  have al0 : 0 < al := by
    rcases a0.lt_or_eq with h | h
    · exact h
    · rw [← h, Real.sin_zero] at hsa; exact absurd hsa (lt_irrefl 0)
  have alpi : al < Real.pi := by
    by_contra hc
    have : Real.sin al ≤ 0 := by
      have h1 := Real.sin_nonneg_of_nonneg_of_le_pi (x := al - Real.pi) (by linarith) (by linarith)
      rw [Real.sin_sub_pi] at h1
      linarith
    linarith
  have al2 : al < Real.pi / 2 := by
    by_contra hc
    have := Real.cos_nonpos_of_pi_div_two_le_of_le (not_lt.mp hc) (by linarith)
    linarith
  exact ⟨hx, hy, hz, al, th, rs, e1, e2, e3, al0, al2, t0, th2, c1, c2, c3, c4⟩

theorem inside_of_angles (al th : ℝ) (a0 : 0 < al) (a1 : al < Real.pi / 2) (t0 : 0 < th) (t1 : th < Real.pi / 2) : Inside (ofAngles real al th) := by
  have hs : 0 < Real.sin th := Real.sin_pos_of_pos_of_lt_pi t0 (by linarith)
  have hc : 0 < Real.cos th := Real.cos_pos_of_mem_Ioo ⟨by linarith, t1⟩
  have hsa : 0 < Real.sin al := Real.sin_pos_of_pos_of_lt_pi a0 (by linarith)
  have hca : 0 < Real.cos al := Real.cos_pos_of_mem_Ioo ⟨by linarith, a1⟩
  refine ⟨mul_pos hs hca, mul_pos hs hsa, hc, al, th, 1 / Real.sin th, rfl, rfl, quot_ne 1 _ hs.ne', a0, a1, t0, t1, rfl, rfl, rfl, ?_⟩
  field_simp

theorem readAngle_proper {same : ℝ → ℝ → Bool} (h1 : same 1 1 = true) (t : AngleTag ℝ) (h : Proper t) :
    ∃ a, readAngle real Real.sqrt same t = some a ∧ Inside a.1 ∧ t.weight = some a.2 := by
  obtain ⟨⟨w, hw, hw0⟩, h⟩ := h
  rcases h with ⟨ox, oy, oz, ex, ey, ez, ea, et, x0, y0, z0, hu⟩ | ⟨al, th, ex, ey, ez, ea, et, a0, a1, t0, t1⟩
  · refine ⟨(ofCosines real ox oy oz, w), ?_, inside_of_cosines ox oy oz x0 y0 z0 hu, hw⟩
    have hx1 : ox < 1 := by nlinarith
    have hy1 : oy < 1 := by nlinarith
    have hz1 : oz < 1 := by nlinarith
    have hq : Real.sqrt (ox * ox + oy * oy + oz * oz) = 1 := by
      rw [show ox * ox + oy * oy + oz * oz = 1 by linear_combination hu, Real.sqrt_one]
    unfold readAngle fromCosines
    simp only [hw, ex, ey, ez, ea, et, Option.getD_some, Option.isSome_some, Option.isSome_none, Bool.or_self, if_true, hq, h1,
      if_neg (not_le.mpr hw0)]
    rw [if_neg (by decide), if_neg (by push Not; constructor <;> linarith), if_neg (by push Not; constructor <;> linarith),
      if_neg (by push Not; constructor <;> linarith), if_neg (by decide)]
  · refine ⟨(ofAngles real al th, w), ?_, inside_of_angles al th a0 a1 t0 t1, hw⟩
    unfold readAngle fromAngles
    have hpi := Real.pi_pos
    simp only [hw, ex, ey, ez, ea, et, Option.getD_some, Option.isSome_some, Option.isSome_none, Bool.or_self, if_true,
      if_neg (not_le.mpr hw0)]
    rw [if_neg (by decide), if_neg (by decide),
      if_neg (show ¬ (th ≤ -(real.pi / 2) ∨ real.pi / 2 ≤ th) by show ¬ (th ≤ -(Real.pi / 2) ∨ Real.pi / 2 ≤ th); push Not; constructor <;> linarith),
      if_neg]
    show ¬ (al < 0 ∨ 2 * Real.pi ≤ al ∨ al = 0 ∨ al = Real.pi / 2 ∨ al = Real.pi ∨ al = 3 * (Real.pi / 2))
    rintro (h | h | h | h | h | h) <;> linarith

/-- C90: every proper quadrature is accepted: directions inside of the first octant, positive weights that sum to one.  The angles are those of
the tags (`C90_accepted`), lie inside of the first octant, and azimuth, polar angle and reciprocal sine agree with the cosines. -/
theorem C90_complete {same : ℝ → ℝ → Bool} (h1 : same 1 1 = true) (tags : List (AngleTag ℝ)) (h : ∀ t ∈ tags, Proper t)
    (hw : (tags.map fun t => t.weight.getD 0).sum = 1) :
    ∃ as, genUser real Real.sqrt same tags = some as ∧ ∀ a ∈ as, Inside a.1 := by
  have key : ∀ tags : List (AngleTag ℝ), (∀ t ∈ tags, Proper t) → ∃ as, tags.mapM (readAngle real Real.sqrt same) = some as ∧
      (∀ a ∈ as, Inside a.1) ∧ (as.map Prod.snd).sum = (tags.map fun t => t.weight.getD 0).sum := by
    intro tags
    induction tags with
    | nil => intro _; exact ⟨[], rfl, by simp, rfl⟩
    | cons t l ih =>
      intro h
      obtain ⟨as, e, hin, hsum⟩ := ih fun t ht => h t (by simp [ht])
      obtain ⟨a, ea, ha, wa⟩ := readAngle_proper h1 t (h t (by simp))
      refine ⟨a :: as, ?_, ?_, ?_⟩
      · rw [List.mapM_cons, ea, e]; rfl
      · intro b hb
        rcases List.mem_cons.mp hb with rfl | hb
        · exact ha
        · exact hin b hb
      · rw [List.map_cons, List.map_cons, List.sum_cons, List.sum_cons, hsum, wa, Option.getD_some]
  obtain ⟨as, e, hin, hsum⟩ := key tags h
  refine ⟨as, ?_, hin⟩
  unfold genUser
  rw [e]
  dsimp only
  rw [if_neg, if_neg]
  · rw [foldl_weights, zero_add, hsum, hw, h1]; decide
  · rw [List.any_eq_true]
    rintro ⟨a, ha, hc⟩
    obtain ⟨x, y, z, -⟩ := hin a ha
    simp only [decide_eq_true_eq] at hc
    rcases hc with hc | hc | hc <;> linarith

/-- C90, the full claim (comments in angle.hpp and angle.cpp): what is accepted lies unambiguously within the first octant, not on an axis, and
its angles agree with its cosines. -/
def C90_claim : Prop := ∀ (same : ℝ → ℝ → Bool), Tells same 0 → ∀ (tags : List (AngleTag ℝ)) (as : List (Direction ℝ × ℝ)),
  genUser real Real.sqrt same tags = some as → ∀ a ∈ as, Inside a.1

/-- C90: cosines that are zero are accepted; the images of such an angle in two octants coincide. -/
theorem C90_on_axis {same : ℝ → ℝ → Bool} (h1 : same 1 1 = true) :
    ∃ a, genUser real Real.sqrt same [⟨some 1, some 0, some (3 / 5), some (4 / 5), none, none⟩] = some [a] ∧ a.1.ox = 0 ∧
      toOctant real a.1 2 = toOctant real a.1 1 := by
  have hq : Real.sqrt (0 * 0 + 3 / 5 * (3 / 5) + 4 / 5 * (4 / 5)) = 1 := by
    rw [show (0 : ℝ) * 0 + 3 / 5 * (3 / 5) + 4 / 5 * (4 / 5) = 1 by norm_num, Real.sqrt_one]
  refine ⟨(ofCosines real 0 (3 / 5) (4 / 5), 1), ?_, rfl, ?_⟩
  · have hr : readAngle real Real.sqrt same ⟨some 1, some 0, some (3 / 5), some (4 / 5), none, none⟩ =
        some (ofCosines real 0 (3 / 5) (4 / 5), 1) := by
      unfold readAngle fromCosines
      simp only [Option.getD_some, Option.isSome_some, Option.isSome_none, Bool.or_self, if_true, hq, h1]
      norm_num
    unfold genUser
    rw [List.mapM_cons, hr]
    simp only [List.mapM_nil, Option.pure_def, Option.bind_eq_bind, Option.bind_some]
    rw [if_neg, if_neg]
    · simp [h1]
    · simp only [List.any_cons, List.any_nil, Bool.or_false, ofCosines]
      norm_num
  · simp [toOctant, ofCosines]

theorem genUser_one {same : ℝ → ℝ → Bool} (h1 : same 1 1 = true) (t : AngleTag ℝ) (d : Direction ℝ)
    (h : readAngle real Real.sqrt same t = some (d, 1)) (hx : 0 ≤ d.ox) (hy : 0 ≤ d.oy) (hz : 0 ≤ d.oz) :
    genUser real Real.sqrt same [t] = some [(d, 1)] := by
  unfold genUser
  rw [List.mapM_cons, h]
  simp only [List.mapM_nil, Option.pure_def, Option.bind_eq_bind, Option.bind_some]
  rw [if_neg, if_neg]
  · simp [h1]
  · simp only [List.any_cons, List.any_nil, Bool.or_false, decide_eq_true_eq]
    push Not
    exact ⟨hx, hy, hz⟩

/-- C90: a negative polar angle with an azimuth in the third quadrant passes for a direction of the first octant; its azimuth is not in the first
quadrant and the reciprocal of the sine, by which lengths of rays are multiplied, is negative. -/
theorem C90_negative_polar {same : ℝ → ℝ → Bool} (h1 : same 1 1 = true) :
    ∃ (d : Direction ℝ) (rs : ℝ), genUser real Real.sqrt same [⟨some 1, none, none, none, some (5 * Real.pi / 4), some (-(Real.pi / 4))⟩] =
      some [(d, 1)] ∧ d.alpha = some (5 * Real.pi / 4) ∧ d.rsintheta = some rs ∧ rs < 0 := by
  have hpi := Real.pi_pos
  have hs : Real.sin (-(Real.pi / 4)) < 0 := by
    rw [Real.sin_neg, neg_lt_zero]; exact Real.sin_pos_of_pos_of_lt_pi (by linarith) (by linarith)
  have hc : 0 < Real.cos (-(Real.pi / 4)) := Real.cos_pos_of_mem_Ioo ⟨by linarith, by linarith⟩
  have hca : Real.cos (5 * Real.pi / 4) < 0 := by
    rw [show 5 * Real.pi / 4 = Real.pi / 4 + Real.pi by ring, Real.cos_add_pi, neg_lt_zero]
    exact Real.cos_pos_of_mem_Ioo ⟨by linarith, by linarith⟩
  have hsa : Real.sin (5 * Real.pi / 4) < 0 := by
    rw [show 5 * Real.pi / 4 = Real.pi / 4 + Real.pi by ring, Real.sin_add_pi, neg_lt_zero]
    exact Real.sin_pos_of_pos_of_lt_pi (by linarith) (by linarith)
  refine ⟨ofAngles real (5 * Real.pi / 4) (-(Real.pi / 4)), 1 / Real.sin (-(Real.pi / 4)), ?_, rfl, quot_ne 1 _ hs.ne,
    one_div_neg.mpr hs⟩
  refine genUser_one h1 _ _ ?_ (mul_pos_of_neg_of_neg hs hca).le (mul_pos_of_neg_of_neg hs hsa).le hc.le
  unfold readAngle fromAngles
  simp only [Option.getD_some, Option.isSome_some, Option.isSome_none, Bool.or_self]
  rw [if_neg (by norm_num), if_neg (by decide), if_pos trivial, if_neg (by decide), if_neg, if_neg]
  · show ¬ (5 * Real.pi / 4 < 0 ∨ 2 * Real.pi ≤ 5 * Real.pi / 4 ∨ 5 * Real.pi / 4 = 0 ∨ 5 * Real.pi / 4 = Real.pi / 2 ∨
      5 * Real.pi / 4 = Real.pi ∨ 5 * Real.pi / 4 = 3 * (Real.pi / 2))
    rintro (h | h | h | h | h | h) <;> linarith
  · show ¬ (-(Real.pi / 4) ≤ -(Real.pi / 2) ∨ Real.pi / 2 ≤ -(Real.pi / 4))
    push Not
    constructor <;> linarith

/-- C90: without a polar angle the direction is vertical and accepted; the reciprocal of the sine is infinite. -/
theorem C90_vertical {same : ℝ → ℝ → Bool} (h1 : same 1 1 = true) :
    ∃ d : Direction ℝ, genUser real Real.sqrt same [⟨some 1, none, none, none, some 1, none⟩] = some [(d, 1)] ∧
      d.ox = 0 ∧ d.oy = 0 ∧ d.oz = 1 ∧ d.rsintheta = none := by
  have hpi := Real.pi_gt_three
  have e1 : (ofAngles real 1 0).ox = 0 := by show Real.sin 0 * Real.cos 1 = 0; simp
  have e2 : (ofAngles real 1 0).oy = 0 := by show Real.sin 0 * Real.sin 1 = 0; simp
  have e3 : (ofAngles real 1 0).oz = 1 := Real.cos_zero
  refine ⟨ofAngles real 1 0, ?_, e1, e2, e3, if_pos Real.sin_zero⟩
  refine genUser_one h1 _ _ ?_ e1.ge e2.ge (by rw [e3]; norm_num)
  unfold readAngle fromAngles
  simp only [Option.getD_some, Option.getD_none, Option.isSome_some, Option.isSome_none, Bool.or_self]
  rw [if_neg (by norm_num), if_neg (by decide), if_pos trivial, if_neg (by decide), if_neg, if_neg]
  · show ¬ ((1 : ℝ) < 0 ∨ 2 * Real.pi ≤ 1 ∨ (1 : ℝ) = 0 ∨ 1 = Real.pi / 2 ∨ 1 = Real.pi ∨ 1 = 3 * (Real.pi / 2))
    rintro (h | h | h | h | h | h) <;> linarith
  · show ¬ ((0 : ℝ) ≤ -(Real.pi / 2) ∨ Real.pi / 2 ≤ 0)
    push Not
    constructor <;> linarith

/-- The comparison without tolerance. -/
noncomputable def exactly (a b : ℝ) : Bool := decide (a = b)

theorem tells_exactly : Tells exactly 0 := ⟨fun a h => by rw [show a = 1 by simpa [exactly] using h]; simp, by simp [exactly]⟩

theorem C90_claim_false : ¬ C90_claim := by
  intro h
  obtain ⟨a, e, hx, -⟩ := C90_on_axis tells_exactly.one
  have := (h exactly tells_exactly _ _ e a (by simp)).1
  linarith

/-- Two angles, one by its cosines and one by its angles. -/
noncomputable def exTags : List (AngleTag ℝ) := [⟨some (1 / 3), some (2 / 3), some (2 / 3), some (1 / 3), none, none⟩, ⟨some (2 / 3), none, none, none, some 1, some 1⟩]

example : (∀ t ∈ exTags, Proper t) ∧ (exTags.map fun t => t.weight.getD 0).sum = 1 := by
  have hpi := Real.pi_gt_three
  constructor
  · intro t ht
    simp only [exTags, List.mem_cons, List.not_mem_nil, or_false] at ht
    rcases ht with rfl | rfl
    · exact ⟨⟨_, rfl, by norm_num⟩, Or.inl ⟨_, _, _, rfl, rfl, rfl, rfl, rfl, by norm_num, by norm_num, by norm_num, by norm_num⟩⟩
    · exact ⟨⟨_, rfl, by norm_num⟩, Or.inr ⟨_, _, rfl, rfl, rfl, rfl, rfl, by norm_num, by linarith, by norm_num, by linarith⟩⟩
  · simp [exTags]; norm_num

end Verif.Quad.User
