import Verif.BC.UpdateLemmas
import Mathlib.Algebra.Order.Ring.Rat
import Mathlib.Algebra.Order.Field.Rat
import Mathlib.Algebra.Field.Rat

/-!
# C53: initialisation of the boundary values
-/

set_option linter.unusedSectionVars false

namespace Verif.BC
open Verif.Quad Verif.Quad.Spec Verif.Util

variable {K : Type} [Field K] [LinearOrder K] [IsStrictOrderedRing K]

/-- What `initialize_scalar(val)` puts on a face of a given type. -/
def initValue (prescribed val : K) : Boundary → K
  | .VACUUM => 0
  | .PRESCRIBED => prescribed
  | .REFLECT => val
  | .PARALLEL => val
  | .PERIODIC => val
  | .INVALID => 0

/-- The type of the boundary through which ordinate `a` enters on the faces with normal `n`. -/
def entryType (b : Store K) (a : Nat) (n : Normal) : Boundary :=
  match b.angles[a]? with
  | some ang => b.types (upwindSurface ang n)
  | none => .INVALID

/-- The faces for which `P` holds have been initialised, the others are zero. -/
def Done (prescribed val : K) (b0 b : Store K) (P : Nat → Nat → Normal → Bool) : Prop :=
  Same b0 b ∧ ∀ g a n e, e < cnt b0.size a n →
    value b g a n e = if P g a n then initValue prescribed val (entryType b0 a n) else 0

theorem initFace_done (p v : K) (b0 b : Store K) (P : Nat → Nat → Normal → Bool) (h : Done p v b0 b P) (g a : Nat)
    (n : Normal) (hg : g < b0.nGroup) (ha : a < b0.size.length) (hang : a < b0.angles.length) :
    Done p v b0 (initFace p v b g a n) (fun g' a' n' => P g' a' n' || decide (g' = g ∧ a' = a ∧ n' = n)) := by
  obtain ⟨⟨s1, s2, s3, s4, s5⟩, hv⟩ := h
  have hs := List.getElem?_eq_getElem ha
  have hface : getFace b g a n = some (cnt b.size a n, perGroup b.size * g + off b.size a n) := by
    unfold getFace
    rw [s3, s1, if_pos ⟨ha, hg⟩, hs, offset_eq _ _ _ ha, cnt_of hs]
  have hput : ∀ w : K, Done p v b0 (b.put (perGroup b.size * g + off b.size a n) (cnt b.size a n) (fun _ => w))
      (fun g' a' n' => P g' a' n' || decide (g' = g ∧ a' = a ∧ n' = n)) ∨ w ≠ initValue p v (entryType b0 a n) := by
    intro w
    by_cases hw : w = initValue p v (entryType b0 a n)
    · left
      refine ⟨⟨s1, s2, s3, s4, s5⟩, ?_⟩
      intro g' a' n' e he
      rw [value_write b g a n _ g' a' n' e (by rw [s3]; exact he) (by rw [s3]; exact ha)]
      by_cases hc : g' = g ∧ a' = a ∧ n' = n
      · rw [if_pos hc]
        obtain ⟨rfl, rfl, rfl⟩ := hc
        simp [hw]
      · rw [if_neg hc, hv g' a' n' e he]
        simp [hc]
    · right; exact hw
  have hkeep : initValue p v (entryType b0 a n) = 0 → Done p v b0 b
      (fun g' a' n' => P g' a' n' || decide (g' = g ∧ a' = a ∧ n' = n)) := by
    intro h0
    refine ⟨⟨s1, s2, s3, s4, s5⟩, ?_⟩
    intro g' a' n' e he
    rw [hv g' a' n' e he]
    by_cases hc : g' = g ∧ a' = a ∧ n' = n
    · obtain ⟨rfl, rfl, rfl⟩ := hc
      simp [h0]
    · simp [hc]
  have hety : entryType b0 a n = b.types (upwindSurface b0.angles[a] n) := by
    unfold entryType
    rw [List.getElem?_eq_getElem hang, s2]
  unfold initFace
  rw [s5, List.getElem?_eq_getElem hang, hface]
  simp only
  cases ht : b.types (upwindSurface b0.angles[a] n) with
  | VACUUM => exact hkeep (by rw [hety, ht]; rfl)
  | INVALID => exact hkeep (by rw [hety, ht]; rfl)
  | PRESCRIBED => exact (hput p).resolve_right (by rw [hety, ht]; simp [initValue])
  | REFLECT => exact (hput v).resolve_right (by rw [hety, ht]; simp [initValue])
  | PARALLEL => exact (hput v).resolve_right (by rw [hety, ht]; simp [initValue])
  | PERIODIC => exact (hput v).resolve_right (by rw [hety, ht]; simp [initValue])

theorem Done.congr {p v : K} {b0 b : Store K} {P Q : Nat → Nat → Normal → Bool} (h : Done p v b0 b P)
    (hPQ : ∀ g a n, P g a n = Q g a n) : Done p v b0 b Q := by
  have : P = Q := by funext g a n; exact hPQ g a n
  rw [← this]; exact h

theorem initNormals_done (p v : K) (b0 b : Store K) (P : Nat → Nat → Normal → Bool) (h : Done p v b0 b P) (g a : Nat)
    (hg : g < b0.nGroup) (ha : a < b0.size.length) (hang : a < b0.angles.length) :
    Done p v b0 ([Normal.X, .Y, .Z].foldl (fun b n => initFace p v b g a n) b)
      (fun g' a' n' => P g' a' n' || decide (g' = g ∧ a' = a)) := by
  have h1 := initFace_done p v b0 b P h g a .X hg ha hang
  have h2 := initFace_done p v b0 _ _ h1 g a .Y hg ha hang
  have h3 := initFace_done p v b0 _ _ h2 g a .Z hg ha hang
  apply Done.congr h3
  intro g' a' n'
  cases n' <;> simp

theorem initAngles_done (p v : K) (b0 b : Store K) (P : Nat → Nat → Normal → Bool) (h : Done p v b0 b P) (g : Nat)
    (hg : g < b0.nGroup) (hang : b0.size.length ≤ b0.angles.length) (m : Nat) (hm : m ≤ b0.size.length) :
    Done p v b0 ((List.range m).foldl (fun b ang => [Normal.X, .Y, .Z].foldl (fun b n => initFace p v b g ang n) b) b)
      (fun g' a' n' => P g' a' n' || decide (g' = g ∧ a' < m)) := by
  induction m with
  | zero => exact h.congr (by simp)
  | succ m ih =>
    rw [List.range_succ, List.foldl_append]
    have := initNormals_done p v b0 _ _ (ih (by omega)) g m hg (by omega) (by omega)
    apply Done.congr this
    intro g' a' n'
    rw [Bool.or_assoc, ← Bool.decide_or]
    congr 2
    apply propext
    constructor
    · rintro (h | h) <;> exact ⟨h.1, by omega⟩
    · rintro ⟨h1, h2⟩
      by_cases hc : a' < m
      · exact Or.inl ⟨h1, hc⟩
      · exact Or.inr ⟨h1, by omega⟩

theorem initScalar_done (p v : K) (b0 : Store K) (hang : b0.size.length ≤ b0.angles.length) (m : Nat)
    (hm : m ≤ b0.nGroup) :
    Done p v b0 ((List.range m).foldl (fun b group => (List.range b.size.length).foldl (fun b ang =>
      [Normal.X, .Y, .Z].foldl (fun b n => initFace p v b group ang n) b) b) { b0 with data := fun _ => 0 })
      (fun g' a' _ => decide (g' < m ∧ a' < b0.size.length)) := by
  induction m with
  | zero =>
    refine ⟨⟨rfl, rfl, rfl, rfl, rfl⟩, ?_⟩
    intro g a n e he
    simp [value]
  | succ m ih =>
    have ih := ih (by omega)
    rw [List.range_succ, List.foldl_append]
    revert ih
    generalize List.foldl _ _ (List.range m) = b1
    intro ih
    have hsz := ih.1.2.2.1
    have := initAngles_done p v b0 _ _ ih m (by omega) hang b0.size.length (le_refl _)
    rw [List.foldl_cons, List.foldl_nil, hsz]
    apply Done.congr this
    intro g' a' n'
    rw [← Bool.decide_or]
    congr 1
    apply propext
    constructor
    · rintro (h | h) <;> exact ⟨by omega, h.2⟩
    · rintro ⟨h1, h2⟩
      by_cases hc : g' < m
      · exact Or.inl ⟨hc, h2⟩
      · exact Or.inr ⟨by omega, h2⟩

/-- C53: after `initialize_scalar(val)` every boundary value, as seen through `get_face`, is the one its boundary
type asks for: zero for vacuum, the prescribed constant, `val` for the reflecting kinds. -/
theorem C53_scalar (p v : K) (b : Store K) (hang : b.size.length ≤ b.angles.length) (g a : Nat) (n : Normal) (e q : Nat)
    (h : StoredAt b g a n e q) : (initializeScalar p v b).data q = initValue p v (entryType b a n) := by
  rw [storedAt_iff] at h
  obtain ⟨hg, s, hs, he, rfl⟩ := h
  have ha : a < b.size.length := (List.getElem?_eq_some_iff.mp hs).1
  obtain ⟨hsame, hv⟩ := initScalar_done p v b hang b.nGroup (le_refl _)
  have := hv g a n e (by rw [cnt_of hs]; exact he)
  unfold value at this
  rw [hsame.2.2.1] at this
  rw [if_pos (by simp [hg, ha])] at this
  exact this

/-- C53: layout and types are unchanged, so the values are found where they were. -/
theorem C53_scalar_layout (p v : K) (b : Store K) (hang : b.size.length ≤ b.angles.length) (g a : Nat) (n : Normal) :
    getFace (initializeScalar p v b) g a n = getFace b g a n := by
  obtain ⟨⟨h1, -, h3, -, -⟩, -⟩ := initScalar_done p v b hang b.nGroup (le_refl _)
  unfold initializeScalar getFace
  rw [h3, h1]

/-- C53: after `initialize_spectrum` every boundary value of group `g` is `spectrum(g)`. -/
theorem C53_spectrum (sp : Nat → K) (b : Store K) (g a : Nat) (n : Normal) (e q : Nat) (h : StoredAt b g a n e q) :
    (initializeSpectrum sp b).data q = sp g := by
  rw [storedAt_iff] at h
  obtain ⟨hg, s, hs, he, rfl⟩ := h
  have hlt := off_add_lt _ a n s hs e he
  unfold initializeSpectrum
  simp only
  have : ∀ m, ((List.range m).foldl (fun d ig => write d (ig * perGroup b.size) (perGroup b.size) (fun _ => sp ig)) b.data)
      (perGroup b.size * g + off b.size a n + e) = if g < m then sp g else b.data (perGroup b.size * g + off b.size a n + e) := by
    intro m
    induction m with
    | zero => simp
    | succ m ih =>
      rw [List.range_succ, List.foldl_append]
      simp only [List.foldl_cons, List.foldl_nil, write]
      rw [ih, Nat.mul_comm m]
      by_cases hc : g = m
      · subst hc
        rw [if_pos ⟨by omega, by omega⟩, if_pos (by omega)]
      · rw [if_neg]
        · by_cases hm : g < m
          · rw [if_pos hm, if_pos (by omega)]
          · rw [if_neg hm, if_neg (by omega)]
        · rintro ⟨h1, h2⟩
          rcases Nat.lt_or_gt_of_ne hc with hlt' | hgt
          · have := Nat.mul_le_mul_left (perGroup b.size) (show g + 1 ≤ m by omega)
            rw [Nat.mul_succ] at this
            omega
          · have := Nat.mul_le_mul_left (perGroup b.size) (show m + 1 ≤ g by omega)
            rw [Nat.mul_succ] at this
            omega
  rw [this, if_pos hg]

/-- One angle, one value per face: vacuum on the west, reflecting elsewhere. -/
def demoStore : Store ℚ where
  nGroup := 2
  types := fun s => if s = .WEST then .VACUUM else .REFLECT
  size := [⟨1, 2, 1⟩]
  ndirOct := 1
  angles := [⟨1/3, 2/3, 2/3, 1⟩]
  data := fun _ => 9

example : StoredAt demoStore 1 0 .Y 1 6 ∧ (initializeScalar (1/7) 5 demoStore).data 6 = 5 ∧
    StoredAt demoStore 1 0 .X 0 4 ∧ (initializeScalar (1/7) 5 demoStore).data 4 = 0 := by
  refine ⟨⟨2, 5, by decide +kernel, by decide, rfl⟩, by decide +kernel, ⟨1, 4, by decide +kernel, by decide, rfl⟩,
    by decide +kernel⟩

/-- Unlike `initialize_scalar`, `initialize_spectrum` does not look at the boundary types: vacuum faces get the
spectrum too. -/
example : StoredAt demoStore 1 0 .X 0 4 ∧ (initializeSpectrum (fun _ => 3) demoStore).data 4 = 3 :=
  ⟨⟨1, 4, by decide +kernel, by decide, rfl⟩, by decide +kernel⟩

end Verif.BC
