import Verif.BC.Props
import Mathlib.Algebra.BigOperators.Group.Finset.Basic

set_option linter.unusedSectionVars false

namespace Verif.BC
open Verif.Quad Verif.Quad.Spec Verif.Util

variable {K : Type} [Field K] [LinearOrder K] [IsStrictOrderedRing K]

/-- Value of an element of a face. -/
def value (b : Store K) (g a : Nat) (n : Normal) (e : Nat) : K :=
  b.data (perGroup b.size * g + off b.size a n + e)

/-- Number of values on a face (zero for angles that are not stored). -/
def cnt (size : List Size3) (a : Nat) (n : Normal) : Nat := ((size[a]?).map (fun s => s.get n)).getD 0

/-- Index of the mirrored ordinate. -/
def refl (nd a : Nat) (n : Normal) : Nat := (reflect nd a n).getD 0

theorem cnt_of {size : List Size3} {a : Nat} {s : Size3} (h : size[a]? = some s) (n : Normal) :
    cnt size a n = s.get n := by simp [cnt, h]

theorem cnt_pos_get {size : List Size3} {a : Nat} {n : Normal} {e : Nat} (h : e < cnt size a n) :
    ∃ s, size[a]? = some s ∧ e < s.get n := by
  unfold cnt at h
  cases hs : size[a]? with
  | none => simp [hs] at h
  | some s => simp [hs] at h; exact ⟨s, rfl, h⟩

theorem value_write (b : Store K) (g a0 : Nat) (n0 : Normal) (v : Nat → K) (g' a : Nat) (n : Normal) (e : Nat)
    (he : e < cnt b.size a n) (ha0 : a0 < b.size.length) :
    value (b.put (perGroup b.size * g + off b.size a0 n0) (cnt b.size a0 n0) v) g' a n e =
      if g' = g ∧ a = a0 ∧ n = n0 then v e else value b g' a n e := by
  obtain ⟨s, hs, hes⟩ := cnt_pos_get he
  have hs0 := List.getElem?_eq_getElem ha0
  unfold value Store.put write
  simp only
  by_cases hc : g' = g ∧ a = a0 ∧ n = n0
  · obtain ⟨rfl, rfl, rfl⟩ := hc
    rw [if_pos ⟨by omega, by omega⟩, if_pos ⟨rfl, rfl, rfl⟩]
    congr 1; omega
  · rw [if_neg hc, if_neg]
    rintro ⟨h1, h2⟩
    apply hc
    have he0 : perGroup b.size * g' + off b.size a n + e - (perGroup b.size * g + off b.size a0 n0) < cnt b.size a0 n0 := by
      omega
    rw [cnt_of hs0] at he0
    generalize hE : perGroup b.size * g' + off b.size a n + e - (perGroup b.size * g + off b.size a0 n0) = E at he0
    obtain ⟨q1, q2⟩ := group_split (perGroup b.size) g' g _ _ (off_add_lt _ a n s hs e hes)
      (off_add_lt _ a0 n0 _ hs0 E he0) (by omega)
    obtain ⟨q3, q4, -⟩ := off_inj _ hs hs0 hes he0 q2
    exact ⟨q1, q3, q4⟩

/-- What the physics asks of the new incoming value: `outv` is the outgoing value of the mirrored ordinate. -/
def newValue (t : Boundary) (outv old : K) : K :=
  match t with
  | .VACUUM => 0
  | .REFLECT => outv
  | _ => old

/-- Type of the face through which ordinate `a` enters. -/
def inType (b : Store K) (a : Nat) (n : Normal) : Option Boundary :=
  (b.angles[a]?).map (fun ang => b.types (upwindSurface ang n))

def supported (t : Boundary) : Prop := t = .VACUUM ∨ t = .REFLECT ∨ t = .PRESCRIBED

/-- Preconditions of the update: the store covers all ordinates or, with no Z faces, the upper half; the outgoing
store has the same layout; mirrored ordinates have the same number of values on the face; an ordinate with an empty
face has no values on the later faces; only the supported types occur. -/
structure Pre (b out : Store K) (first : List (Angle K)) : Prop where
  angles : b.angles = expand first
  firstOct : ∀ a ∈ first, FirstOctant a
  nd : b.ndirOct = first.length
  nA : b.size.length = 8 * first.length ∨ (b.size.length = 4 * first.length ∧ ∀ a, cnt b.size a .Z = 0)
  outSize : out.size = b.size
  outGroup : out.nGroup = 1
  mirror : ∀ a n, cnt b.size a n ≠ 0 → cnt b.size (refl first.length a n) n = cnt b.size a n
  noGap : ∀ a, (cnt b.size a .X = 0 → cnt b.size a .Y = 0) ∧ (cnt b.size a .Y = 0 → cnt b.size a .Z = 0)
  types : ∀ s, supported (b.types s)

theorem refl_props (nd a : Nat) (n : Normal) (h : a < 8 * nd) :
    refl nd a n < 8 * nd ∧ reflect nd a n = some (refl nd a n) ∧ refl nd (refl nd a n) n = a := by
  obtain ⟨o, k, ho, hk, rfl⟩ := split_index _ _ h
  have e1 := reflect_eq' nd o k ho hk n
  have h8 := octMirror_lt n o ho
  have e2 := reflect_eq' nd _ k h8 hk n
  rw [octMirror_invol n o ho] at e2
  have er : refl nd (o * nd + k) n = octMirror n o * nd + k := by simp [refl, e1]
  rw [er]
  refine ⟨?_, e1, ?_⟩
  · have := Nat.mul_le_mul_right nd (Nat.succ_le_of_lt h8)
    rw [Nat.succ_mul] at this; omega
  · simp [refl, e2]

theorem cnt_lt_length {size : List Size3} {a : Nat} {n : Normal} (h : cnt size a n ≠ 0) : a < size.length := by
  obtain ⟨s, hs, -⟩ := cnt_pos_get (Nat.pos_of_ne_zero h)
  exact (List.getElem?_eq_some_iff.mp hs).1

/-- Fields untouched by the update. -/
def Same (b b' : Store K) : Prop :=
  b'.nGroup = b.nGroup ∧ b'.types = b.types ∧ b'.size = b.size ∧ b'.ndirOct = b.ndirOct ∧ b'.angles = b.angles

theorem Pre.congr {b b' out : Store K} {first : List (Angle K)} (h : Pre b out first) (hs : Same b b') :
    Pre b' out first := by
  obtain ⟨-, h2, h3, h4, h5⟩ := hs
  exact ⟨by rw [h5]; exact h.angles, h.firstOct, by rw [h4]; exact h.nd, by rw [h3]; exact h.nA,
    by rw [h3]; exact h.outSize, h.outGroup, by rw [h3]; exact h.mirror, by rw [h3]; exact h.noGap,
    by rw [h2]; exact h.types⟩

/-- The new value at a position already reached, the old one elsewhere. -/
def target (b out : Store K) (nd g : Nat) (done : Nat → Normal → Prop) [∀ a n, Decidable (done a n)]
    (g' a : Nat) (n : Normal) (e : Nat) : K :=
  if g' = g ∧ done a n then newValue ((inType b a n).getD .INVALID) (value out 0 (refl nd a n) n e) (value b g' a n e)
  else value b g' a n e

theorem normals_spec (b out : Store K) (first : List (Angle K)) (h : Pre b out first) (g angle : Nat)
    (ha : angle < b.size.length) (ns : List Normal) (hnd : ns.Nodup)
    (hgap : ns.Pairwise (fun n m => cnt b.size angle n = 0 → cnt b.size angle m = 0)) :
    ∃ b', updateNormals g angle out ns b = .ok b' ∧ Same b b' ∧
      ∀ g' a n e, e < cnt b.size a n → value b' g' a n e =
        target b out first.length g (fun a n => n ∈ ns ∧ a = refl first.length angle n) g' a n e := by
  have hlen8 : b.size.length ≤ 8 * first.length := by rcases h.nA with hh | hh <;> omega
  induction ns generalizing b with
  | nil =>
    refine ⟨b, rfl, ⟨rfl, rfl, rfl, rfl, rfl⟩, ?_⟩
    intro g' a n e _
    simp [target]
  | cons m ms ih =>
    obtain ⟨hr8, hre, hrr⟩ := refl_props first.length angle m (by omega)
    have hsz := List.getElem?_eq_getElem ha
    rw [List.nodup_cons] at hnd
    rw [List.pairwise_cons] at hgap
    rw [updateNormals, hsz, h.nd, hre]
    simp only
    by_cases h0 : (b.size[angle]).get m = 0
    · rw [if_pos h0]
      refine ⟨b, rfl, ⟨rfl, rfl, rfl, rfl, rfl⟩, ?_⟩
      intro g' a n e he
      unfold target
      rw [if_neg]
      rintro ⟨-, hn, rfl⟩
      have hz : cnt b.size angle n = 0 := by
        have hm0 : cnt b.size angle m = 0 := by rw [cnt_of hsz]; exact h0
        rcases List.mem_cons.mp hn with rfl | hn
        · exact hm0
        · exact hgap.1 n hn hm0
      obtain ⟨hn8, -, hnn⟩ := refl_props first.length angle n (by omega)
      have hmir := h.mirror (refl first.length angle n) n (by omega)
      rw [hnn] at hmir
      omega
    · rw [if_neg h0]
      have hcn : cnt b.size angle m ≠ 0 := by rw [cnt_of hsz]; exact h0
      have hmir := h.mirror angle m hcn
      have hrl : refl first.length angle m < b.size.length := cnt_lt_length (n := m) (by omega)
      obtain ⟨ang, hang⟩ : ∃ ang, b.angles[refl first.length angle m]? = some ang := by
        rw [h.angles]
        exact ⟨_, List.getElem?_eq_getElem (by rw [expand_length]; exact hr8)⟩
      have hszr := List.getElem?_eq_getElem hrl
      rw [hang, offset_eq _ _ _ hrl, h.outSize, offset_eq _ _ _ ha, hszr]
      simp only
      have hsame : (b.size[angle]).get m = (b.size[refl first.length angle m]).get m := by
        rw [← cnt_of hsz, ← cnt_of hszr]; exact hmir.symm
      rw [if_neg (by simpa using hsame)]
      have hin : inType b (refl first.length angle m) m = some (b.types (upwindSurface ang m)) := by
        simp [inType, hang]
      have hcnt : (b.size[angle]).get m = cnt b.size (refl first.length angle m) m := by
        rw [hsame, cnt_of hszr]
      -- a generic continuation
      have cont : ∀ v : Nat → K,
          (∀ e, e < cnt b.size (refl first.length angle m) m →
            v e = newValue (b.types (upwindSurface ang m)) (value out 0 angle m e)
              (value b g (refl first.length angle m) m e)) →
          ∃ b', updateNormals g angle out ms (b.put (perGroup b.size * g + off b.size (refl first.length angle m) m) ((b.size[angle]).get m) v) = .ok b' ∧
            Same b b' ∧ ∀ g' a n e, e < cnt b.size a n → value b' g' a n e =
              target b out first.length g (fun a n => n ∈ m :: ms ∧ a = refl first.length angle n) g' a n e := by
        intro v hv
        have hS : Same b (b.put (perGroup b.size * g + off b.size (refl first.length angle m) m) ((b.size[angle]).get m) v) :=
          ⟨rfl, rfl, rfl, rfl, rfl⟩
        obtain ⟨b', e1, e2, e3⟩ := ih _ (h.congr hS) ha hnd.2 hgap.2 hlen8
        refine ⟨b', e1, e2, ?_⟩
        intro g' a n e he
        rw [e3 g' a n e he]
        have hvw : ∀ g' a n e, e < cnt b.size a n → value (b.put (perGroup b.size * g + off b.size (refl first.length angle m) m) ((b.size[angle]).get m) v) g' a n e =
            if g' = g ∧ a = refl first.length angle m ∧ n = m then v e else value b g' a n e := by
          intro g' a n e he
          rw [hcnt]
          exact value_write b g (refl first.length angle m) m v g' a n e he hrl
        unfold target
        rw [hvw g' a n e he]
        have hit : inType (b.put (perGroup b.size * g + off b.size (refl first.length angle m) m) ((b.size[angle]).get m) v) a n =
            inType b a n := rfl
        rw [hit]
        by_cases hg : g' = g
        · subst hg
          by_cases hnm : n = m
          · subst hnm
            simp only [true_and, hnd.1, false_and, if_false, and_true, List.mem_cons, true_or]
            by_cases har : a = refl first.length angle n
            · subst har
              simp only [if_true]
              rw [hv e he, hin, hrr]; rfl
            · simp only [har, if_false]
          · simp only [true_and, hnm, and_false, if_false, List.mem_cons, false_or]
        · simp only [hg, false_and, if_false]
      have ht := h.types (upwindSurface ang m)
      cases hty : b.types (upwindSurface ang m) with
      | VACUUM =>
        simp only
        exact cont (fun _ => 0) (by intro e he; simp [newValue, hty])
      | REFLECT =>
        simp only
        exact cont (fun i => out.data (off b.size angle m + i)) (by
          intro e he
          simp only [newValue, hty, value, h.outSize]
          congr 1; omega)
      | PRESCRIBED =>
        simp only
        obtain ⟨b', e1, e2, e3⟩ := ih b h ha hnd.2 hgap.2 hlen8
        refine ⟨b', e1, e2, ?_⟩
        intro g' a n e he
        rw [e3 g' a n e he]
        unfold target
        by_cases hnm : n = m
        · subst hnm
          simp only [hnd.1, false_and, and_false, if_false, List.mem_cons, true_or, true_and]
          by_cases har : g' = g ∧ a = refl first.length angle n
          · rw [if_pos har]
            obtain ⟨rfl, rfl⟩ := har
            rw [hin]; simp [newValue, hty]
          · rw [if_neg har]
        · simp only [hnm, List.mem_cons, false_or]
      | PARALLEL => rw [hty] at ht; simp [supported] at ht
      | PERIODIC => rw [hty] at ht; simp [supported] at ht
      | INVALID => rw [hty] at ht; simp [supported] at ht

theorem angles_spec (b out : Store K) (first : List (Angle K)) (h : Pre b out first) (g : Nat) (as : List Nat)
    (hnd : as.Nodup) (has : ∀ a ∈ as, a < b.size.length) :
    ∃ b', updateAngles g out as b = .ok b' ∧ Same b b' ∧
      ∀ g' a n e, e < cnt b.size a n → value b' g' a n e =
        target b out first.length g (fun a n => refl first.length a n ∈ as) g' a n e := by
  induction as generalizing b with
  | nil => refine ⟨b, rfl, ⟨rfl, rfl, rfl, rfl, rfl⟩, ?_⟩
           intro g' a n e _; simp [target]
  | cons x xs ih =>
    have hx := has x (by simp)
    have hlen8 : b.size.length ≤ 8 * first.length := by rcases h.nA with hh | hh <;> omega
    obtain ⟨b1, e1, s1, v1⟩ := normals_spec b out first h g x hx [.X, .Y, .Z] (by decide) (by
      have := h.noGap x
      simp only [List.pairwise_cons, List.mem_cons, List.not_mem_nil, or_false, forall_eq_or_imp, forall_eq]
      refine ⟨⟨this.1, fun hh => this.2 (this.1 hh)⟩, this.2, by simp⟩)
    rw [List.nodup_cons] at hnd
    have hsz : b1.size = b.size := s1.2.2.1
    obtain ⟨b2, e2, s2, v2⟩ := ih b1 (h.congr s1) hnd.2 (by intro a ha; rw [hsz]; exact has a (by simp [ha]))
    refine ⟨b2, ?_, ?_, ?_⟩
    · rw [updateAngles]
      unfold updateAngle
      rw [e1]; exact e2
    · obtain ⟨p1, p2, p3, p4, p5⟩ := s1
      obtain ⟨q1, q2, q3, q4, q5⟩ := s2
      exact ⟨q1.trans p1, q2.trans p2, q3.trans p3, q4.trans p4, q5.trans p5⟩
    · intro g' a n e he
      rw [v2 g' a n e (by rw [hsz]; exact he)]
      have hal : a < b.size.length := cnt_lt_length (n := n) (by omega)
      obtain ⟨hr8, -, hrr⟩ := refl_props first.length a n (by omega)
      obtain ⟨hx8, -, hxx⟩ := refl_props first.length x n (by omega)
      have hiff : a = refl first.length x n ↔ refl first.length a n = x := by
        constructor
        · rintro rfl; exact hxx
        · rintro rfl; exact hrr.symm
      have hit : inType b1 a n = inType b a n := by
        obtain ⟨-, p2, -, -, p5⟩ := s1; simp [inType, p2, p5]
      have hmem : n ∈ [Normal.X, .Y, .Z] := by cases n <;> decide
      have hv := v1 g' a n e he
      unfold target at hv ⊢
      rw [hit, hv]
      simp only [hmem, true_and, hiff, List.mem_cons]
      by_cases hg : g' = g
      · simp only [hg, true_and]
        by_cases hax : refl first.length a n = x
        · simp only [hax, true_or, if_true]
          simp [hnd.1]
        · simp only [hax, if_false, false_or]
      · simp only [hg, false_and, if_false]

end Verif.BC
