import Verif.BC.Lemmas

/-!
# C16: layout of the boundary condition store
-/

set_option linter.unusedSectionVars false

namespace Verif.BC
open Verif.Quad Verif.Util

variable {K : Type} [Field K] [LinearOrder K]

/-- Element `e` of a face is stored at position `p`, as seen through `get_face`. -/
def StoredAt (b : Store K) (group angle : Nat) (n : Normal) (e p : Nat) : Prop :=
  ∃ cnt lo, getFace b group angle n = some (cnt, lo) ∧ e < cnt ∧ p = lo + e

theorem storedAt_iff (b : Store K) (g a : Nat) (n : Normal) (e p : Nat) :
    StoredAt b g a n e p ↔ g < b.nGroup ∧ ∃ s, b.size[a]? = some s ∧ e < s.get n ∧
      p = perGroup b.size * g + off b.size a n + e := by
  unfold StoredAt getFace
  constructor
  · rintro ⟨cnt, lo, h, he, rfl⟩
    split_ifs at h with hc
    rw [offset_eq _ _ _ hc.1, List.getElem?_eq_getElem hc.1] at h
    simp only [Option.some.injEq, Prod.mk.injEq] at h
    obtain ⟨rfl, rfl⟩ := h
    exact ⟨hc.2, _, List.getElem?_eq_getElem hc.1, he, rfl⟩
  · rintro ⟨hg, s, hs, he, rfl⟩
    have ha : a < b.size.length := (List.getElem?_eq_some_iff.mp hs).1
    refine ⟨s.get n, perGroup b.size * g + off b.size a n, ?_, he, rfl⟩
    rw [if_pos ⟨ha, hg⟩, hs, offset_eq _ _ _ ha]

/-- C16: every face element of an existing group and angle has a place. -/
theorem C16_total (b : Store K) (g a : Nat) (n : Normal) (s : Size3) (hg : g < b.nGroup) (ha : b.size[a]? = some s) :
    ∃ lo, getFace b g a n = some (s.get n, lo) := by
  have hl : a < b.size.length := (List.getElem?_eq_some_iff.mp ha).1
  refine ⟨perGroup b.size * g + off b.size a n, ?_⟩
  unfold getFace
  rw [if_pos ⟨hl, hg⟩, ha, offset_eq _ _ _ hl]

/-- C16: different (group, angle, normal, element) never share a position. -/
theorem C16_disjoint (b : Store K) (g g' a a' : Nat) (n n' : Normal) (e e' p : Nat)
    (h : StoredAt b g a n e p) (h' : StoredAt b g' a' n' e' p) : g = g' ∧ a = a' ∧ n = n' ∧ e = e' := by
  rw [storedAt_iff] at h h'
  obtain ⟨hg, s, hs, he, hp⟩ := h
  obtain ⟨hg', s', hs', he', hp'⟩ := h'
  rw [hp] at hp'
  obtain ⟨h1, h2⟩ := group_split (perGroup b.size) g g' _ _ (off_add_lt _ _ _ _ hs _ he) (off_add_lt _ _ _ _ hs' _ he')
    (by omega)
  obtain ⟨h3, h4, h5⟩ := off_inj _ hs hs' he he' h2
  exact ⟨h1, h3, h4, h5⟩

/-- C16: the positions used are exactly those of the allocated array (`bc_per_group_ * n_group` values). -/
theorem C16_exact (b : Store K) (p : Nat) :
    (∃ g a n e, StoredAt b g a n e p) ↔ p < (b.size.map (fun s => s.x + s.y + s.z)).sum * b.nGroup := by
  have hpg : (b.size.map (fun s => s.x + s.y + s.z)).sum = perGroup b.size := by
    rw [perGroup_eq]
    generalize b.size = l
    induction l with
    | nil => rfl
    | cons a t ih => simp only [List.map_cons, List.sum_cons, ih, flat, List.flatMap_cons, List.sum_append, Size3.toList]
                     simp; omega
  rw [hpg]
  constructor
  · rintro ⟨g, a, n, e, h⟩
    rw [storedAt_iff] at h
    obtain ⟨hg, s, hs, he, rfl⟩ := h
    have h1 := off_add_lt b.size a n s hs e he
    have h2 := Nat.mul_le_mul_left (perGroup b.size) (Nat.succ_le_of_lt hg)
    rw [Nat.mul_succ] at h2
    omega
  · intro hp
    have hpos : 0 < perGroup b.size := by
      rcases Nat.eq_zero_or_pos (perGroup b.size) with h | h
      · rw [h] at hp; omega
      · exact h
    obtain ⟨a, n, e, s, hs, he, hpe⟩ := off_cover b.size (Nat.mod_lt p hpos)
    refine ⟨p / perGroup b.size, a, n, e, ?_⟩
    rw [storedAt_iff]
    refine ⟨by rw [Nat.div_lt_iff_lt_mul hpos, Nat.mul_comm]; exact hp, s, hs, he, ?_⟩
    have := Nat.div_add_mod p (perGroup b.size)
    omega

/-- C16: the block of one group and angle holds the X, Y and Z faces one after the other. -/
theorem C16_contiguous (b : Store K) (g a : Nat) (s : Size3) (hg : g < b.nGroup) (ha : b.size[a]? = some s) :
    ∃ lo, getBoundary b g a = some (s.x + s.y + s.z, lo) ∧ getFace b g a .X = some (s.x, lo) ∧
      getFace b g a .Y = some (s.y, lo + s.x) ∧ getFace b g a .Z = some (s.z, lo + s.x + s.y) := by
  have hl : a < b.size.length := (List.getElem?_eq_some_iff.mp ha).1
  have hfl := flat_length b.size
  have gx := flat_get b.size a .X s ha
  have gy := flat_get b.size a .Y s ha
  have hx : 3 * a + 0 < (flat b.size).length := by omega
  have hy : 3 * a + 1 < (flat b.size).length := by omega
  have ey : off b.size a .Y = off b.size a .X + s.x := by
    unfold off
    simp only [Normal.toNat] at *
    rw [take_sum_succ (flat b.size) (3 * a) (by omega)]
    rw [List.getElem?_eq_getElem hx] at gx
    simp only [Option.some.injEq] at gx
    simp only [Nat.add_zero] at *
    rw [gx]; rfl
  have ez : off b.size a .Z = off b.size a .Y + s.y := by
    unfold off
    simp only [Normal.toNat] at *
    rw [show 3 * a + 2 = 3 * a + 1 + 1 from rfl, take_sum_succ (flat b.size) (3 * a + 1) (by omega)]
    rw [List.getElem?_eq_getElem hy] at gy
    simp only [Option.some.injEq] at gy
    rw [gy]; rfl
  refine ⟨perGroup b.size * g + off b.size a .X, ?_, ?_, ?_, ?_⟩
  · unfold getBoundary; rw [if_pos ⟨hl, hg⟩, ha, offset_eq _ _ _ hl]
  · unfold getFace; rw [if_pos ⟨hl, hg⟩, ha, offset_eq _ _ _ hl]; rfl
  · unfold getFace; rw [if_pos ⟨hl, hg⟩, ha, offset_eq _ _ _ hl]; simp [Size3.get, ey]; omega
  · unfold getFace; rw [if_pos ⟨hl, hg⟩, ha, offset_eq _ _ _ hl]; simp [Size3.get, ez, ey]; omega

end Verif.BC
