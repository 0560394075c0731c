import Verif.BC.UpdateLemmas
import Mathlib.Algebra.Order.Ring.Rat
import Mathlib.Algebra.Order.Field.Rat
import Mathlib.Algebra.Field.Rat
import Mathlib.Tactic.NormNum

/-!
# C17: the boundary update
-/

set_option linter.unusedSectionVars false

namespace Verif.BC
open Verif.Quad Verif.Quad.Spec Verif.Util

variable {K : Type} [Field K] [LinearOrder K] [IsStrictOrderedRing K]

/-- What the update of group `g` from `out` must do to every stored value. -/
def PhysicalUpdate (b out b' : Store K) (g : Nat) : Prop :=
  ∀ g' a n e p ang, StoredAt b g' a n e p → b.angles[a]? = some ang →
    StoredAt b' g' a n e p ∧
    (g' ≠ g → b'.data p = b.data p) ∧
    (g' = g → b.types (upwindSurface ang n) = .VACUUM → b'.data p = 0) ∧
    (g' = g → b.types (upwindSurface ang n) = .PRESCRIBED → b'.data p = b.data p) ∧
    (g' = g → b.types (upwindSurface ang n) = .REFLECT →
      ∃ a' q, b.angles[a']? = some (mirror ang n) ∧ reflect b.ndirOct a n = some a' ∧ StoredAt out 0 a' n e q ∧
        b'.data p = out.data q)

/-- C17 (full claim): as below, for every size table in which mirrored ordinates have equally many values. -/
def C17_claim : Prop := ∀ (b out : Store ℚ) (first : List (Angle ℚ)) (g : Nat),
  b.angles = expand first → (∀ a ∈ first, FirstOctant a) → b.ndirOct = first.length →
  b.size.length = 8 * first.length → out.size = b.size → out.nGroup = 1 → g < b.nGroup →
  (∀ a n, cnt b.size a n ≠ 0 → cnt b.size (refl first.length a n) n = cnt b.size a n) → (∀ s, supported (b.types s)) →
  ∃ b', update g out b = .ok b' ∧ PhysicalUpdate b out b' g

/-- C17: reflective faces get the outgoing value of the mirrored ordinate, vacuum faces zero, prescribed faces and
all other groups keep their values.
Missing with respect to the full claim: ordinates with an empty face followed by a non-empty one, for which the
loop stops early (`C17_claim_false`). -/
theorem C17_update_partial (b out : Store K) (first : List (Angle K)) (h : Pre b out first) (g : Nat) :
    ∃ b', update g out b = .ok b' ∧ Same b b' ∧ PhysicalUpdate b out b' g := by
  obtain ⟨b', e1, s1, v1⟩ := angles_spec b out first h g (List.range b.size.length) List.nodup_range
    (by intro a ha; exact List.mem_range.mp ha)
  refine ⟨b', by unfold update; rw [if_pos h.outGroup]; exact e1, s1, ?_⟩
  intro g' a n e p ang hst hang
  have hst' : StoredAt b' g' a n e p := by
    rw [storedAt_iff] at hst ⊢
    rw [s1.1, s1.2.2.1]; exact hst
  refine ⟨hst', ?_⟩
  rw [storedAt_iff] at hst
  obtain ⟨hg, s, hs, he, rfl⟩ := hst
  have hec : e < cnt b.size a n := by rw [cnt_of hs]; exact he
  have hlen8 : b.size.length ≤ 8 * first.length := by rcases h.nA with hh | hh <;> omega
  have hal : a < b.size.length := (List.getElem?_eq_some_iff.mp hs).1
  obtain ⟨hr8, hre, hrr⟩ := refl_props first.length a n (by omega)
  have hmir := h.mirror a n (by omega)
  have hrl : refl first.length a n < b.size.length := cnt_lt_length (n := n) (by omega)
  have hv := v1 g' a n e hec
  have hval : value b' g' a n e = b'.data (perGroup b.size * g' + off b.size a n + e) := by
    unfold value; rw [s1.2.2.1]
  rw [hval] at hv
  have hmem : refl first.length a n ∈ List.range b.size.length := List.mem_range.mpr hrl
  unfold target at hv
  simp only [hmem, and_true] at hv
  have hit : inType b a n = some (b.types (upwindSurface ang n)) := by simp [inType, hang]
  rw [hit] at hv
  refine ⟨?_, ?_, ?_, ?_⟩
  · intro hne; rw [if_neg hne] at hv; exact hv
  · intro heq ht; rw [if_pos heq, ht] at hv; exact hv
  · intro heq ht; rw [if_pos heq, ht] at hv; exact hv
  · intro heq ht
    rw [if_pos heq, ht] at hv
    obtain ⟨j, hj1, hj2⟩ : ∃ j, reflect first.length a n = some j ∧ (expand first)[j]? = some (mirror ang n) := by
      rw [h.angles] at hang
      have hi : a < 8 * first.length := by omega
      obtain ⟨o, k, ho, hk, rfl⟩ := split_index _ _ hi
      rw [expand_get first h.firstOct o k ho hk, Option.some.injEq] at hang
      refine ⟨_, reflect_eq' _ o k ho hk n, ?_⟩
      rw [expand_get first h.firstOct _ k (octMirror_lt n o ho) hk, octImage_mirror _ n o ho, hang]
    rw [hre, Option.some.injEq] at hj1
    subst hj1
    refine ⟨refl first.length a n, off b.size (refl first.length a n) n + e, by rw [h.angles]; exact hj2,
      by rw [h.nd]; exact hre, ?_, ?_⟩
    · rw [storedAt_iff, h.outGroup, h.outSize]
      refine ⟨by omega, _, List.getElem?_eq_getElem hrl, ?_, by omega⟩
      rw [← cnt_of (List.getElem?_eq_getElem hrl), hmir]; exact hec
    · rw [hv]
      simp [newValue, value, h.outSize]

/-- C17: the update of one outgoing ordinate `x`, which the Gauss-Seidel scheme uses: it changes the values of the ordinates that mirror into `x`, on the mirror, as above, and no others.
Same gap in the size table as `C17_update_partial`. -/
theorem C17_update_angle_partial (b out : Store K) (first : List (Angle K)) (h : Pre b out first) (g x : Nat) (hx : x < b.size.length) :
    ∃ b', updateAngle g x out b = .ok b' ∧ Same b b' ∧
      ∀ g' a n e p ang, StoredAt b g' a n e p → b.angles[a]? = some ang →
        (g' ≠ g ∨ reflect b.ndirOct a n ≠ some x → b'.data p = b.data p) ∧
        (g' = g → reflect b.ndirOct a n = some x →
          (b.types (upwindSurface ang n) = .VACUUM → b'.data p = 0) ∧
          (b.types (upwindSurface ang n) = .PRESCRIBED → b'.data p = b.data p) ∧
          (b.types (upwindSurface ang n) = .REFLECT → b.angles[x]? = some (mirror ang n) ∧ ∃ q, StoredAt out 0 x n e q ∧ b'.data p = out.data q)) := by
  obtain ⟨b', e1, s1, v1⟩ := angles_spec b out first h g [x] (by simp) (by simpa using hx)
  have e1' : updateAngle g x out b = .ok b' := by
    unfold updateAngles at e1
    cases hu : updateAngle g x out b with
    | ok c => rw [hu] at e1; simpa [updateAngles] using e1
    | throws => rw [hu] at e1; simp at e1
    | ub => rw [hu] at e1; simp at e1
  refine ⟨b', e1', s1, ?_⟩
  intro g' a n e p ang hst hang
  rw [storedAt_iff] at hst
  obtain ⟨hg, s, hs, he, rfl⟩ := hst
  have hec : e < cnt b.size a n := by rw [cnt_of hs]; exact he
  have hlen8 : b.size.length ≤ 8 * first.length := by rcases h.nA with hh | hh <;> omega
  have hal : a < b.size.length := (List.getElem?_eq_some_iff.mp hs).1
  obtain ⟨hr8, hre, hrr⟩ := refl_props first.length a n (by omega)
  have hmir := h.mirror a n (by omega)
  have hv := v1 g' a n e hec
  have hval : value b' g' a n e = b'.data (perGroup b.size * g' + off b.size a n + e) := by
    unfold value; rw [s1.2.2.1]
  rw [hval] at hv
  unfold target at hv
  simp only [List.mem_singleton] at hv
  have hit : inType b a n = some (b.types (upwindSurface ang n)) := by simp [inType, hang]
  rw [hit] at hv
  rw [h.nd, hre]
  refine ⟨?_, ?_⟩
  · intro hne
    rw [if_neg (by rintro ⟨c1, c2⟩; rcases hne with hne | hne; exacts [hne c1, hne (by rw [c2])])] at hv
    exact hv
  · intro heq hx'
    rw [Option.some.injEq] at hx'
    rw [if_pos ⟨heq, hx'⟩] at hv
    refine ⟨?_, ?_, ?_⟩
    · intro ht; rw [ht] at hv; exact hv
    · intro ht; rw [ht] at hv; exact hv
    · intro ht
      rw [ht] at hv
      refine ⟨?_, off b.size x n + e, ?_, ?_⟩
      · rw [h.angles] at hang ⊢
        have hi : a < 8 * first.length := by omega
        obtain ⟨o, k, ho, hk, rfl⟩ := split_index _ _ hi
        rw [expand_get first h.firstOct o k ho hk, Option.some.injEq] at hang
        have hx2 : x = octMirror n o * first.length + k := by
          rw [← hx', BC.refl, reflect_eq' _ o k ho hk n]; rfl
        rw [hx2, expand_get first h.firstOct _ k (octMirror_lt n o ho) hk, octImage_mirror _ n o ho, hang]
      · rw [storedAt_iff, h.outGroup, h.outSize]
        refine ⟨by omega, _, List.getElem?_eq_getElem hx, ?_, by omega⟩
        rw [← cnt_of (List.getElem?_eq_getElem hx), ← hx', hmir]; exact hec
      · rw [hv, hx']
        simp [newValue, value, h.outSize]

/-- Outward normals of the outer faces. -/
def outward : Surface → Int × Int × Int
  | .EAST => (1, 0, 0) | .WEST => (-1, 0, 0) | .NORTH => (0, 1, 0) | .SOUTH => (0, -1, 0)
  | .TOP => (0, 0, 1) | .BOTTOM => (0, 0, -1)

/-- C17: the face consulted for an ordinate is the one of the given orientation through which it enters: its
direction has a negative product with the outward normal. -/
theorem C17_entry_face (a : Angle K) (hx : a.ox ≠ 0) (hy : a.oy ≠ 0) (hz : a.oz ≠ 0) (n : Normal) :
    (outward (upwindSurface a n)).1 * a.ox + (outward (upwindSurface a n)).2.1 * a.oy +
      (outward (upwindSurface a n)).2.2 * a.oz < 0 ∧
    (match n with
      | .X => (outward (upwindSurface a n)).1 ≠ 0
      | .Y => (outward (upwindSurface a n)).2.1 ≠ 0
      | .Z => (outward (upwindSurface a n)).2.2 ≠ 0) := by
  cases n
  · unfold upwindSurface
    rcases lt_or_gt_of_ne hx with h | h
    · simp [not_lt.mpr h.le, outward, h]
    · simp [h, outward]
  · unfold upwindSurface
    rcases lt_or_gt_of_ne hy with h | h
    · simp [not_lt.mpr h.le, outward, h]
    · simp [h, outward]
  · unfold upwindSurface
    rcases lt_or_gt_of_ne hz with h | h
    · simp [not_lt.mpr h.le, outward, h]
    · simp [h, outward]

/-- C17: with reflective faces all round, the total of the incoming values of the group is the total of the
outgoing ones. Same gap in the size table as `C17_update_partial`. -/
theorem C17_conservation_partial (b out : Store K) (first : List (Angle K)) (h : Pre b out first) (g : Nat)
    (hall : ∀ s, b.types s = .REFLECT) :
    ∃ b', update g out b = .ok b' ∧
      ∑ p ∈ Finset.range (perGroup b.size), b'.data (perGroup b.size * g + p) =
      ∑ p ∈ Finset.range (perGroup b.size), out.data p := by
  obtain ⟨b', e1, s1, v1⟩ := angles_spec b out first h g (List.range b.size.length) List.nodup_range
    (by intro a ha; exact List.mem_range.mp ha)
  refine ⟨b', by unfold update; rw [if_pos h.outGroup]; exact e1, ?_⟩
  have hlen8 : b.size.length ≤ 8 * first.length := by rcases h.nA with hh | hh <;> omega
  have ex : ∀ p, p < perGroup b.size → ∃ q a n e, e < cnt b.size a n ∧ p = off b.size a n + e ∧
      q = off b.size (refl first.length a n) n + e := by
    intro p hp
    obtain ⟨a, n, e, s, hs, he, hpe⟩ := off_cover b.size hp
    exact ⟨_, a, n, e, by rw [cnt_of hs]; exact he, hpe, rfl⟩
  classical
  let f : Nat → Nat := fun p => if hp : p < perGroup b.size then (ex p hp).choose else 0
  have hf : ∀ p, p < perGroup b.size → ∃ a n e, e < cnt b.size a n ∧ p = off b.size a n + e ∧
      f p = off b.size (refl first.length a n) n + e := by
    intro p hp
    simp only [f, hp, dif_pos]
    exact (ex p hp).choose_spec
  have mapped : ∀ a n e, e < cnt b.size a n →
      f (off b.size a n + e) = off b.size (refl first.length a n) n + e ∧
      off b.size a n + e < perGroup b.size := by
    intro a n e he
    obtain ⟨s, hs, hes⟩ := cnt_pos_get he
    have hlt := off_add_lt b.size a n s hs e hes
    refine ⟨?_, hlt⟩
    obtain ⟨a', n', e', he', hp', hq'⟩ := hf _ hlt
    obtain ⟨s', hs', hes'⟩ := cnt_pos_get he'
    obtain ⟨rfl, rfl, rfl⟩ := off_inj b.size hs hs' hes hes' hp'
    exact hq'
  have partner : ∀ a n e, e < cnt b.size a n → e < cnt b.size (refl first.length a n) n ∧
      refl first.length (refl first.length a n) n = a := by
    intro a n e he
    have hal : a < b.size.length := cnt_lt_length (n := n) (by omega)
    have := h.mirror a n (by omega)
    exact ⟨by omega, (refl_props first.length a n (by omega)).2.2⟩
  have finv : ∀ p, p < perGroup b.size → f p < perGroup b.size ∧ f (f p) = p := by
    intro p hp
    obtain ⟨a, n, e, he, hp1, hq1⟩ := hf p hp
    obtain ⟨he2, hrr⟩ := partner a n e he
    obtain ⟨m1, m2⟩ := mapped _ n e he2
    rw [hq1]
    refine ⟨m2, ?_⟩
    rw [m1, hrr]; exact hp1.symm
  apply Finset.sum_nbij' f f
  · intro p hp; exact Finset.mem_range.mpr (finv p (Finset.mem_range.mp hp)).1
  · intro p hp; exact Finset.mem_range.mpr (finv p (Finset.mem_range.mp hp)).1
  · intro p hp; exact (finv p (Finset.mem_range.mp hp)).2
  · intro p hp; exact (finv p (Finset.mem_range.mp hp)).2
  · intro p hp
    obtain ⟨a, n, e, he, hp1, hq1⟩ := hf p (Finset.mem_range.mp hp)
    have hv := v1 g a n e he
    have hal : a < b.size.length := cnt_lt_length (n := n) (by omega)
    have hrl : refl first.length a n < b.size.length := cnt_lt_length (n := n) (by have := partner a n e he; omega)
    have hang : ∃ ang, b.angles[a]? = some ang := by
      rw [h.angles]; exact ⟨_, List.getElem?_eq_getElem (by rw [expand_length]; omega)⟩
    obtain ⟨ang, hang⟩ := hang
    have hit : inType b a n = some .REFLECT := by simp [inType, hang, hall]
    have hmem : refl first.length a n ∈ List.range b.size.length := List.mem_range.mpr hrl
    unfold target at hv
    simp only [hmem, and_true, if_true, hit, Option.getD_some, newValue] at hv
    rw [hq1, hp1]
    unfold value at hv
    rw [s1.2.2.1, h.outSize] at hv
    rw [← Nat.add_assoc, hv]
    congr 1; omega

/-! ## Witness against the full claim, and a satisfying instance -/

def exAngles : List (Angle ℚ) := [⟨1/3, 2/3, 2/3, 1⟩]

theorem exAngles_first : ∀ a ∈ exAngles, FirstOctant a := by
  intro a ha
  simp only [exAngles, List.mem_cons, List.not_mem_nil, or_false] at ha
  subst ha; unfold FirstOctant; norm_num

/-- A store with one value on every Y face and none on X faces, and everything reflective. -/
def gapStore (v : ℚ) (sz : Size3) : Store ℚ :=
  { nGroup := 1, types := fun _ => .REFLECT, size := List.replicate 8 sz, ndirOct := 1, angles := expand exAngles,
    data := fun _ => v }

theorem replicate_cnt (sz : Size3) (a : Nat) (n : Normal) :
    cnt (List.replicate 8 sz) a n = if a < 8 then sz.get n else 0 := by
  unfold cnt
  rw [List.getElem?_replicate]
  split_ifs <;> simp

theorem replicate_mirror (sz : Size3) (a : Nat) (n : Normal) (h : cnt (List.replicate 8 sz) a n ≠ 0) :
    cnt (List.replicate 8 sz) (refl 1 a n) n = cnt (List.replicate 8 sz) a n := by
  rw [replicate_cnt] at h ⊢
  have ha : a < 8 := by by_contra hc; simp [hc] at h
  rw [replicate_cnt, if_pos ha, if_pos (by have := (refl_props 1 a n (by omega)).1; omega)]

/-- C17: the full claim is false: with empty X faces the loop stops before the Y faces, which keep their old
values. -/
theorem C17_claim_false : ¬ C17_claim := by
  intro hc
  obtain ⟨b', hb', hph⟩ := hc (gapStore 0 ⟨0, 1, 0⟩) (gapStore 7 ⟨0, 1, 0⟩) exAngles 0 rfl exAngles_first rfl rfl rfl rfl
    (by decide) (replicate_mirror _) (fun _ => Or.inr (Or.inl rfl))
  have hun : update 0 (gapStore 7 ⟨0, 1, 0⟩) (gapStore 0 ⟨0, 1, 0⟩) = .ok (gapStore 0 ⟨0, 1, 0⟩) := by rfl
  rw [hun] at hb'
  injection hb' with hb'
  subst hb'
  have hst : StoredAt (gapStore 0 ⟨0, 1, 0⟩) 0 0 .Y 0 0 := ⟨1, 0, by rfl, by decide, rfl⟩
  obtain ⟨-, -, -, -, hr⟩ := hph 0 0 .Y 0 0 ⟨1/3, 2/3, 2/3, 1⟩ hst rfl
  obtain ⟨a', q, -, -, -, hd⟩ := hr rfl rfl
  simp [gapStore] at hd

theorem exPre : Pre (gapStore 0 ⟨2, 3, 6⟩) (gapStore 7 ⟨2, 3, 6⟩) exAngles where
  angles := rfl
  firstOct := exAngles_first
  nd := rfl
  nA := Or.inl rfl
  outSize := rfl
  outGroup := rfl
  mirror := replicate_mirror _
  noGap := by
    intro a
    simp only [gapStore, replicate_cnt]
    split_ifs <;> simp [Size3.get]
  types := fun _ => Or.inr (Or.inl rfl)

example : ∃ b', update 0 (gapStore 7 ⟨2, 3, 6⟩) (gapStore 0 ⟨2, 3, 6⟩) = .ok b' ∧
    ∑ p ∈ Finset.range 88, b'.data (88 * 0 + p) = ∑ p ∈ Finset.range 88, (7 : ℚ) :=
  C17_conservation_partial _ _ _ exPre 0 (fun _ => rfl)

example : ∃ b', update 0 (gapStore 7 ⟨2, 3, 6⟩) (gapStore 0 ⟨2, 3, 6⟩) = .ok b' ∧ b'.data 45 = 7 := by
  obtain ⟨b', h1, -, h3⟩ := C17_update_partial _ _ _ exPre 0
  refine ⟨b', h1, ?_⟩
  have hst : StoredAt (gapStore 0 ⟨2, 3, 6⟩) 0 4 .X 1 45 := ⟨2, 44, by rfl, by decide, rfl⟩
  obtain ⟨-, -, -, -, hr⟩ := h3 0 4 .X 1 45 ((⟨1/3, 2/3, 2/3, 1⟩ : Angle ℚ).toOctant 5) hst rfl
  obtain ⟨a', q, -, -, -, hd⟩ := hr rfl rfl
  rw [hd]; rfl

example : ∃ b', updateAngle 0 5 (gapStore 7 ⟨2, 3, 6⟩) (gapStore 0 ⟨2, 3, 6⟩) = .ok b' ∧ b'.data 45 = 7 ∧ b'.data 34 = 0 := by
  obtain ⟨b', h1, -, h3⟩ := C17_update_angle_partial _ _ _ exPre 0 5 (by decide)
  refine ⟨b', h1, ?_, ?_⟩
  · have hst : StoredAt (gapStore 0 ⟨2, 3, 6⟩) 0 4 .X 1 45 := ⟨2, 44, by rfl, by decide, rfl⟩
    obtain ⟨-, hr⟩ := h3 0 4 .X 1 45 ((⟨1/3, 2/3, 2/3, 1⟩ : Angle ℚ).toOctant 5) hst rfl
    obtain ⟨-, q, -, hd⟩ := (hr rfl (by decide)).2.2 rfl
    rw [hd]; rfl
  · have hst : StoredAt (gapStore 0 ⟨2, 3, 6⟩) 0 3 .X 1 34 := ⟨2, 33, by rfl, by decide, rfl⟩
    obtain ⟨hr, -⟩ := h3 0 3 .X 1 34 ((⟨1/3, 2/3, 2/3, 1⟩ : Angle ℚ).toOctant 4) hst rfl
    rw [hr (Or.inr (by decide))]; rfl

/-- Layout of a two-group store with sizes that differ by angle. -/
def exStore : Store ℚ :=
  { nGroup := 2, types := fun _ => .VACUUM, size := [⟨2, 3, 0⟩, ⟨1, 0, 4⟩], ndirOct := 1, angles := [], data := fun _ => 0 }

example : StoredAt exStore 1 1 .Z 3 19 := ⟨4, 16, by rfl, by decide, rfl⟩

example : ∃ g a n e, StoredAt exStore g a n e 19 := (C16_exact exStore 19).mpr (by decide)

end Verif.BC
