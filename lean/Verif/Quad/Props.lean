import Verif.Quad.Lemmas
import Mathlib.Tactic.Linarith
import Mathlib.Tactic.NormNum
import Mathlib.Algebra.Order.Ring.Rat
import Mathlib.Algebra.Order.Field.Rat
import Mathlib.Algebra.Field.Rat

/-!
# C18, C19, C20: reflections, reversal and symmetry of the expanded quadrature
-/

set_option linter.unusedSectionVars false

namespace Verif.Quad
open Spec

variable {K : Type} [Field K] [LinearOrder K] [IsStrictOrderedRing K]

/-! ## C18 -/

/-- C18: reflecting any ordinate about any axis gives the ordinate whose direction is the mirror image. -/
theorem C18_reflect (first : List (Angle K)) (h : ∀ a ∈ first, FirstOctant a) (iang : Nat) (a : Angle K)
    (ha : (expand first)[iang]? = some a) (ax : Normal) :
    ∃ j, reflect first.length iang ax = some j ∧ (expand first)[j]? = some (mirror a ax) := by
  have hi : iang < 8 * first.length := by
    rw [← expand_length first]; exact (List.getElem?_eq_some_iff.mp ha).1
  obtain ⟨o, k, ho, hk, rfl⟩ := split_index _ _ hi
  rw [expand_get first h o k ho hk, Option.some.injEq] at ha
  refine ⟨_, reflect_eq' _ o k ho hk ax, ?_⟩
  rw [expand_get first h _ k (octMirror_lt ax o ho) hk, octImage_mirror _ ax o ho, ha]

/-- C18: reflecting twice about the same axis gives the original ordinate. -/
theorem C18_involution (n iang : Nat) (hi : iang < 8 * n) (ax : Normal) :
    ∃ j, j < 8 * n ∧ reflect n iang ax = some j ∧ reflect n j ax = some iang := by
  obtain ⟨o, k, ho, hk, rfl⟩ := split_index _ _ hi
  refine ⟨octMirror ax o * n + k, ?_, reflect_eq' n o k ho hk ax, ?_⟩
  · have := octMirror_lt ax o ho
    have := Nat.mul_le_mul_right n (Nat.succ_le_of_lt this)
    rw [Nat.succ_mul] at this; omega
  · rw [reflect_eq' n _ k (octMirror_lt ax o ho) hk ax, octMirror_invol ax o ho]

/-- C18: reflections about different axes commute. -/
theorem C18_commute (n iang : Nat) (hi : iang < 8 * n) (a b : Normal) :
    (reflect n iang a).bind (fun j => reflect n j b) = (reflect n iang b).bind (fun j => reflect n j a) := by
  obtain ⟨o, k, ho, hk, rfl⟩ := split_index _ _ hi
  rw [reflect_eq' n o k ho hk a, reflect_eq' n o k ho hk b]
  simp only [Option.bind_some]
  rw [reflect_eq' n _ k (octMirror_lt a o ho) hk b, reflect_eq' n _ k (octMirror_lt b o ho) hk a,
    octMirror_comm b a o ho]

/-- C18: reflecting off a surface negates the component normal to that surface. -/
theorem C18_reflect_surface (first : List (Angle K)) (h : ∀ a ∈ first, FirstOctant a) (iang : Nat) (a : Angle K)
    (ha : (expand first)[iang]? = some a) (s : Surface) :
    ∃ j b, reflectSurface first.length iang s = some j ∧ (expand first)[j]? = some b ∧ b.weight = a.weight ∧
      b.ox = (if s = .EAST ∨ s = .WEST then -a.ox else a.ox) ∧
      b.oy = (if s = .NORTH ∨ s = .SOUTH then -a.oy else a.oy) ∧
      b.oz = (if s = .TOP ∨ s = .BOTTOM then -a.oz else a.oz) := by
  obtain ⟨jx, hx, ex⟩ := C18_reflect first h iang a ha .X
  obtain ⟨jy, hy, ey⟩ := C18_reflect first h iang a ha .Y
  obtain ⟨jz, hz, ez⟩ := C18_reflect first h iang a ha .Z
  cases s
  · exact ⟨jx, _, by simpa [reflectSurface] using hx, ex, by simp [mirror]⟩
  · exact ⟨jy, _, by simpa [reflectSurface] using hy, ey, by simp [mirror]⟩
  · exact ⟨jx, _, by simpa [reflectSurface] using hx, ex, by simp [mirror]⟩
  · exact ⟨jy, _, by simpa [reflectSurface] using hy, ey, by simp [mirror]⟩
  · exact ⟨jz, _, by simpa [reflectSurface] using hz, ez, by simp [mirror]⟩
  · exact ⟨jz, _, by simpa [reflectSurface] using hz, ez, by simp [mirror]⟩

/-! ## C19 -/

/-- C19 (full claim, false in three dimensions). -/
def C19_claim : Prop := ∀ (first : List (Angle ℚ)), (∀ a ∈ first, FirstOctant a) → ∀ (iang : Nat) (a : Angle ℚ),
  (expand first)[iang]? = some a →
  (iang < 4 * first.length →
    (expand first)[reverse first.length iang 2]? = some ⟨-a.ox, -a.oy, a.oz, a.weight⟩) ∧
  (expand first)[reverse first.length iang 3]? = some ⟨-a.ox, -a.oy, -a.oz, a.weight⟩

/-- C19 in two dimensions (ordinates of the upper half space): both in-plane components are negated, and
reversing twice gives the original. -/
theorem C19_reverse_2d (first : List (Angle K)) (h : ∀ a ∈ first, FirstOctant a) (iang : Nat) (a : Angle K)
    (ha : (expand first)[iang]? = some a) (hup : iang < 4 * first.length) :
    (expand first)[reverse first.length iang 2]? = some ⟨-a.ox, -a.oy, a.oz, a.weight⟩ ∧
    reverse first.length (reverse first.length iang 2) 2 = iang := by
  obtain ⟨o, k, ho, hk, rfl⟩ := split_index first.length iang (by omega)
  rw [expand_get first h o k ho hk, Option.some.injEq] at ha
  have ho4 : o < 4 := by
    by_contra hc
    have := Nat.mul_le_mul_right first.length (show 4 ≤ o by omega)
    omega
  have e : ∀ o, o < 4 → reverse first.length (o * first.length + k) 2 = (if o < 2 then o + 2 else o - 2) * first.length + k := by
    intro o ho
    unfold reverse
    rw [if_pos rfl]
    interval_cases o
    · rw [Nat.mod_eq_of_lt (by omega)]; simp; omega
    · rw [Nat.mod_eq_of_lt (by omega)]; simp; omega
    · rw [Nat.mod_eq_sub_mod (by omega), Nat.mod_eq_of_lt (by omega)]; simp; omega
    · rw [Nat.mod_eq_sub_mod (by omega), Nat.mod_eq_of_lt (by omega)]; simp; omega
  constructor
  · rw [e o ho4, expand_get first h _ k (by split_ifs <;> omega) hk, ← ha]
    interval_cases o <;> simp [octImage, octSigns, flipSigns]
  · rw [e o ho4, e _ (by split_ifs <;> omega)]
    interval_cases o <;> simp

/-- C19 in two dimensions, any ordinate: the result is in the upper half space, as documented, with both in-plane
components negated. -/
theorem C19_reverse_2d_upper (first : List (Angle K)) (h : ∀ a ∈ first, FirstOctant a) (iang : Nat) (a : Angle K)
    (ha : (expand first)[iang]? = some a) :
    ∃ b, (expand first)[reverse first.length iang 2]? = some b ∧ b.ox = -a.ox ∧ b.oy = -a.oy ∧ b.oz = |a.oz| := by
  have hi : iang < 8 * first.length := by
    rw [← expand_length first]; exact (List.getElem?_eq_some_iff.mp ha).1
  obtain ⟨o, k, ho, hk, rfl⟩ := split_index _ iang hi
  rw [expand_get first h o k ho hk, Option.some.injEq] at ha
  have hpos := h _ (List.getElem_mem hk)
  have e : reverse first.length (o * first.length + k) 2 = ((o + 2) % 4) * first.length + k := by
    unfold reverse
    rw [if_pos rfl]
    interval_cases o <;> simp only [Nat.reduceAdd, Nat.reduceMod]
    · rw [Nat.mod_eq_of_lt (by omega)]; omega
    · rw [Nat.mod_eq_of_lt (by omega)]; omega
    · rw [Nat.mod_eq_sub_mod (by omega), Nat.mod_eq_of_lt (by omega)]; omega
    · rw [Nat.mod_eq_sub_mod (by omega), Nat.mod_eq_of_lt (by omega)]; omega
    · rw [Nat.mod_eq_sub_mod (by omega), Nat.mod_eq_of_lt (by omega)]; omega
    · rw [Nat.mod_eq_sub_mod (by omega), Nat.mod_eq_of_lt (by omega)]; omega
    · rw [Nat.mod_eq_sub_mod (by omega), Nat.mod_eq_sub_mod (by omega), Nat.mod_eq_of_lt (by omega)]; omega
    · rw [Nat.mod_eq_sub_mod (by omega), Nat.mod_eq_sub_mod (by omega), Nat.mod_eq_of_lt (by omega)]; omega
  refine ⟨_, by rw [e]; exact expand_get first h _ k (by omega) hk, ?_⟩
  rw [← ha]
  interval_cases o <;> simp [octImage, octSigns, flipSigns, abs_of_pos hpos.2.2]

theorem reverse3_eq (n o k : Nat) (ho : o < 8) (hk : k < n) :
    reverse n (o * n + k) 3 = ((o + 6) % 8) * n + k := by
  unfold reverse
  rw [if_neg (by decide)]
  interval_cases o <;> simp only [Nat.reduceAdd, Nat.reduceMod]
  · rw [Nat.mod_eq_of_lt (by omega)]; omega
  · rw [Nat.mod_eq_of_lt (by omega)]; omega
  all_goals rw [Nat.mod_eq_sub_mod (by omega), Nat.mod_eq_of_lt (by omega)]; omega

/-- C19 in three dimensions: right exactly for octants 1, 2, 5 and 6 (counted from one).
Missing with respect to the full claim: octants 3, 4, 7 and 8, where it is wrong (`C19_claim_false`). -/
theorem C19_reverse_3d_partial (first : List (Angle K)) (h : ∀ a ∈ first, FirstOctant a) (iang : Nat) (a : Angle K)
    (ha : (expand first)[iang]? = some a) :
    (expand first)[reverse first.length iang 3]? = some ⟨-a.ox, -a.oy, -a.oz, a.weight⟩ ↔
      (iang / first.length) % 4 < 2 := by
  have hi : iang < 8 * first.length := by
    rw [← expand_length first]; exact (List.getElem?_eq_some_iff.mp ha).1
  obtain ⟨o, k, ho, hk, rfl⟩ := split_index _ iang hi
  rw [expand_get first h o k ho hk, Option.some.injEq] at ha
  have hpos := h _ (List.getElem_mem hk)
  have hd : (o * first.length + k) / first.length = o := by
    rw [Nat.add_comm, Nat.add_mul_div_right _ _ (by omega), Nat.div_eq_of_lt hk]; omega
  rw [reverse3_eq _ o k ho hk, expand_get first h _ k (by omega) hk, hd, ← ha]
  obtain ⟨px, py, pz⟩ := hpos
  have hne : ∀ x : K, 0 < x → x ≠ -x ∧ -x ≠ x := fun x hx => ⟨by intro hc; linarith, by intro hc; linarith⟩
  interval_cases o <;> simp [octImage, octSigns, flipSigns, (hne _ pz).1, (hne _ pz).2]

/-- C19: in three dimensions `reverse` is not even an involution. -/
theorem C19_not_involution (n iang : Nat) (hi : iang < 8 * n) : reverse n (reverse n iang 3) 3 ≠ iang := by
  obtain ⟨o, k, ho, hk, rfl⟩ := split_index _ iang hi
  rw [reverse3_eq n o k ho hk, reverse3_eq n _ k (by omega) hk]
  interval_cases o <;> simp only [Nat.reduceAdd, Nat.reduceMod] <;> omega

/-- C19: the full claim is false: one direction per octant, ordinate 2 (third octant) reversed is ordinate 0, whose
z component is not negated. -/
theorem C19_claim_false : ¬ C19_claim := by
  intro hc
  have h := (hc [⟨1, 1, 1, 1⟩] (by intro a ha; simp only [List.mem_singleton] at ha; subst ha
                                   unfold FirstOctant; norm_num) 2 ⟨-1, -1, 1, 1⟩ (by decide +kernel)).2
  revert h
  decide +kernel

/-! ## C20 -/

/-- C20: every octant contains the image of each first-octant direction, with the same weight, once per octant. -/
theorem C20_images (first : List (Angle K)) (h : ∀ a ∈ first, FirstOctant a) :
    (expand first).length = 8 * first.length ∧
    ∀ k (hk : k < first.length) (sx sy sz : Bool), ∃! o, o < 8 ∧
      (expand first)[o * first.length + k]? = some (flipSigns first[k] sx sy sz) := by
  refine ⟨expand_length first, ?_⟩
  intro k hk sx sy sz
  obtain ⟨px, py, pz⟩ := h _ (List.getElem_mem hk)
  have hne : ∀ x : K, 0 < x → x ≠ -x ∧ -x ≠ x := fun x hx => ⟨by intro hc; linarith, by intro hc; linarith⟩
  have key : ∀ o, o < 8 → ((expand first)[o * first.length + k]? = some (flipSigns first[k] sx sy sz) ↔
      octSigns o = (sx, sy, sz)) := by
    intro o ho
    rw [expand_get first h o k ho hk, Option.some.injEq]
    unfold octImage
    generalize octSigns o = s
    obtain ⟨a, b, c⟩ := s
    cases a <;> cases b <;> cases c <;> cases sx <;> cases sy <;> cases sz <;>
      simp [flipSigns, (hne _ px).1, (hne _ px).2, (hne _ py).1, (hne _ py).2, (hne _ pz).1, (hne _ pz).2]
  have hex : ∃! o, o < 8 ∧ octSigns o = (sx, sy, sz) := by
    have hinj : ∀ o o', o < 8 → o' < 8 → octSigns o = octSigns o' → o = o' := by
      have hd : ∀ o < 8, ∀ o' < 8, octSigns o = octSigns o' → o = o' := by decide
      exact fun o o' ho ho' => hd o ho o' ho'
    have hs : ∃ o, o < 8 ∧ octSigns o = (sx, sy, sz) := by
      clear key
      cases sx <;> cases sy <;> cases sz <;> decide
    obtain ⟨o, ho, hs⟩ := hs
    exact ⟨o, ⟨ho, hs⟩, fun o' ⟨ho', hs'⟩ => hinj o' o ho' ho (hs'.trans hs.symm)⟩
  obtain ⟨o, ⟨ho, hs⟩, hu⟩ := hex
  exact ⟨o, ⟨ho, (key o ho).mpr hs⟩, fun o' ⟨ho', hs'⟩ => hu o' ⟨ho', (key o' ho').mp hs'⟩⟩

/-- C20: the weights of the expanded set sum to eight times the octant sum. -/
theorem C20_weights (first : List (Angle K)) (h : ∀ a ∈ first, FirstOctant a) :
    ((expand first).map (·.weight)).sum = 8 * (first.map (·.weight)).sum := by
  rw [sum_expand first h, ← List.sum_map_mul_left]
  congr 1
  apply List.map_congr_left
  intro a _
  simp only [octImage, flipSigns]; ring

/-- C20: first moments vanish. -/
theorem C20_first_moments (first : List (Angle K)) (h : ∀ a ∈ first, FirstOctant a) :
    ((expand first).map (fun a => a.weight * a.ox)).sum = 0 ∧
    ((expand first).map (fun a => a.weight * a.oy)).sum = 0 ∧
    ((expand first).map (fun a => a.weight * a.oz)).sum = 0 := by
  refine ⟨?_, ?_, ?_⟩ <;> rw [sum_expand first h] <;> apply List.sum_eq_zero <;> intro x hx <;>
    (rw [List.mem_map] at hx; obtain ⟨a, -, rfl⟩ := hx; simp [octImage, octSigns, flipSigns])

/-- C20: cross moments vanish. -/
theorem C20_cross_moments (first : List (Angle K)) (h : ∀ a ∈ first, FirstOctant a) :
    ((expand first).map (fun a => a.weight * (a.ox * a.oy))).sum = 0 ∧
    ((expand first).map (fun a => a.weight * (a.ox * a.oz))).sum = 0 ∧
    ((expand first).map (fun a => a.weight * (a.oy * a.oz))).sum = 0 := by
  refine ⟨?_, ?_, ?_⟩ <;> rw [sum_expand first h] <;> apply List.sum_eq_zero <;> intro x hx <;>
    (rw [List.mem_map] at hx; obtain ⟨a, -, rfl⟩ := hx; simp [octImage, octSigns, flipSigns])

/-- C20: second moments are eight times the octant's, so an isotropic octant gives an isotropic set. -/
theorem C20_second_moments (first : List (Angle K)) (h : ∀ a ∈ first, FirstOctant a) :
    ((expand first).map (fun a => a.weight * a.ox ^ 2)).sum = 8 * (first.map (fun a => a.weight * a.ox ^ 2)).sum ∧
    ((expand first).map (fun a => a.weight * a.oy ^ 2)).sum = 8 * (first.map (fun a => a.weight * a.oy ^ 2)).sum ∧
    ((expand first).map (fun a => a.weight * a.oz ^ 2)).sum = 8 * (first.map (fun a => a.weight * a.oz ^ 2)).sum := by
  refine ⟨?_, ?_, ?_⟩ <;> rw [sum_expand first h, ← List.sum_map_mul_left] <;> congr 1 <;>
    apply List.map_congr_left <;> intro a _ <;> simp [octImage, octSigns, flipSigns] <;> ring

/-- C20: unit vectors stay unit vectors. -/
theorem C20_unit (first : List (Angle K)) (h : ∀ a ∈ first, FirstOctant a)
    (hu : ∀ a ∈ first, a.ox ^ 2 + a.oy ^ 2 + a.oz ^ 2 = 1) :
    ∀ a ∈ expand first, a.ox ^ 2 + a.oy ^ 2 + a.oz ^ 2 = 1 := by
  intro a ha
  rw [expand_eq first h, List.mem_flatMap] at ha
  obtain ⟨o, ho, hm⟩ := ha
  rw [List.mem_map] at hm
  obtain ⟨b, hb, rfl⟩ := hm
  rw [← hu b hb]
  rw [List.mem_range] at ho
  interval_cases o <;> simp [octImage, octSigns, flipSigns]

/-- C20: `modify_angle` keeps the symmetry: it gives the expansion of the modified octant. -/
theorem C20_modify (first : List (Angle K)) (h : ∀ a ∈ first, FirstOctant a) (iang : Nat) (a : Angle K)
    (ha : FirstOctant a) (hi : iang < first.length) :
    modifyAngle first.length (expand first) iang a = some (expand (first.set iang a)) := by
  unfold modifyAngle
  rw [if_pos hi]
  congr 1
  have h' : ∀ b ∈ first.set iang a, FirstOctant b := by
    intro b hb
    rcases List.mem_or_eq_of_mem_set hb with hb | rfl
    · exact h b hb
    · exact ha
  have hlen : (first.set iang a).length = first.length := List.length_set
  apply List.ext_getElem?
  intro j
  simp only [List.foldl_cons, List.foldl_nil]
  by_cases hj : j < 8 * first.length
  · obtain ⟨o, k, ho, hk, rfl⟩ := split_index _ j hj
    have e1 := expand_get (first.set iang a) h' o k ho (by rw [hlen]; exact hk)
    simp only [hlen] at e1
    rw [e1]
    have e2 := expand_get first h o k ho hk
    have hl := expand_length first
    have hlt : o * first.length + k < (expand first).length := by rw [hl]; exact hj
    have iff : ∀ c, iang + c * first.length = o * first.length + k ↔ c = o ∧ iang = k := by
      intro c
      constructor
      · intro hc
        have h1 : (iang + c * first.length) / first.length = c := by
          rw [Nat.add_mul_div_right _ _ (by omega), Nat.div_eq_of_lt hi]; omega
        have h2 : (o * first.length + k) / first.length = o := by
          rw [Nat.add_comm, Nat.add_mul_div_right _ _ (by omega), Nat.div_eq_of_lt hk]; omega
        rw [hc, h2] at h1
        subst h1
        exact ⟨rfl, by omega⟩
      · rintro ⟨rfl, rfl⟩; omega
    have iff0 : iang = o * first.length + k ↔ 0 = o ∧ iang = k := by simpa using iff 0
    simp only [List.getElem?_set, List.length_set, iff, iff0, hlt, if_true, e2, List.getElem_set]
    by_cases hki : iang = k
    · simp only [hki, and_true, if_true]
      rw [← toOctant_eq a ha o ho]
      obtain ⟨p1, p2, p3⟩ := ha
      interval_cases o <;> simp [Angle.toOctant, abs_of_pos, p1, p2, p3] <;> omega
    · simp only [hki, and_false, if_false]
  · have hl := expand_length first
    rw [List.getElem?_eq_none (by simp only [List.length_set, hl]; omega),
      List.getElem?_eq_none (by rw [expand_length, hlen]; omega)]

/-! ## Satisfiability: a two-direction octant, not symmetric in its three cosines -/

/-- A concrete octant of two unit directions. -/
def exFirst : List (Angle ℚ) := [⟨3/13, 4/13, 12/13, 1/4⟩, ⟨2/3, 2/3, 1/3, 3/4⟩]

theorem exFirst_first : ∀ a ∈ exFirst, FirstOctant a := by
  intro a ha
  simp only [exFirst, List.mem_cons, List.not_mem_nil, or_false] at ha
  rcases ha with rfl | rfl <;> (unfold FirstOctant; norm_num)

example : ∃ j, reflect exFirst.length 5 .Y = some j ∧ (expand exFirst)[j]? = some ⟨-2/3, 2/3, 1/3, 3/4⟩ := by
  obtain ⟨j, h1, h2⟩ := C18_reflect exFirst exFirst_first 5 ⟨-2/3, -2/3, 1/3, 3/4⟩ (by decide +kernel) .Y
  exact ⟨j, h1, by rw [h2]; norm_num [mirror]⟩

example : (expand exFirst)[reverse exFirst.length 5 2]? = some ⟨2/3, 2/3, 1/3, 3/4⟩ := by
  have := (C19_reverse_2d exFirst exFirst_first 5 ⟨-2/3, -2/3, 1/3, 3/4⟩ (by decide +kernel) (by decide)).1
  rw [this]; norm_num

example : ((expand exFirst).map (·.weight)).sum = 8 := by
  rw [C20_weights exFirst exFirst_first]; norm_num [exFirst]

example : ∀ a ∈ expand exFirst, a.ox ^ 2 + a.oy ^ 2 + a.oz ^ 2 = 1 :=
  C20_unit exFirst exFirst_first (by
    intro a ha
    simp only [exFirst, List.mem_cons, List.not_mem_nil, or_false] at ha
    rcases ha with rfl | rfl <;> norm_num)

example : modifyAngle 2 (expand exFirst) 1 ⟨3/5, 4/25, 16/25, 3/4⟩ =
    some (expand [⟨3/13, 4/13, 12/13, 1/4⟩, ⟨3/5, 4/25, 16/25, 3/4⟩]) := by
  have := C20_modify exFirst exFirst_first 1 ⟨3/5, 4/25, 16/25, 3/4⟩ (by unfold FirstOctant; norm_num) (by decide)
  exact this

end Verif.Quad
