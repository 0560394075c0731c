import Verif.BC.Model
import Verif.Util.Prefix
import Verif.Quad.Lemmas

set_option linter.unusedSectionVars false

namespace Verif.BC
open Verif.Quad Verif.Util

variable {K : Type} [Field K] [LinearOrder K]

def flat (size : List Size3) : List Nat := size.flatMap Size3.toList

theorem runningOffsets_get (l : List Nat) (o i : Nat) (h : i < l.length) :
    (runningOffsets l o)[i]? = some (o + (l.take i).sum) := by
  induction l generalizing o i with
  | nil => simp at h
  | cons a t ih =>
    cases i with
    | zero => simp [runningOffsets]
    | succ i =>
      simp only [runningOffsets, List.getElem?_cons_succ, List.take_succ_cons, List.sum_cons]
      rw [ih _ _ (by simpa using h)]
      congr 1; omega

theorem flat_length (size : List Size3) : (flat size).length = 3 * size.length := by
  induction size with
  | nil => rfl
  | cons a t ih => simp only [flat, List.flatMap_cons, List.length_append] at *; rw [ih]; simp [Size3.toList]; omega

theorem flat_get (size : List Size3) (a : Nat) (n : Normal) (s : Size3) (h : size[a]? = some s) :
    (flat size)[3 * a + n.toNat]? = some (s.get n) := by
  induction size generalizing a with
  | nil => simp at h
  | cons x t ih =>
    cases a with
    | zero =>
      simp only [List.getElem?_cons_zero, Option.some.injEq] at h
      subst h
      cases n <;> simp [flat, Size3.toList, Normal.toNat, Size3.get]
    | succ a =>
      have := ih a (by simpa using h)
      simp only [flat, List.flatMap_cons, Size3.toList] at *
      rw [← this]
      have e : 3 * (a + 1) + n.toNat = (3 * a + n.toNat) + 3 := by omega
      rw [e]; rfl

theorem foldl_add (l : List Size3) (acc : Nat) :
    l.foldl (fun acc n => acc + (n.x + n.y + n.z)) acc = acc + (flat l).sum := by
  induction l generalizing acc with
  | nil => simp [flat]
  | cons a t ih =>
    simp only [List.foldl_cons]
    rw [ih]; simp [flat, Size3.toList]; omega

theorem perGroup_eq (size : List Size3) : perGroup size = (flat size).sum := by
  unfold perGroup; rw [foldl_add]; omega

theorem toNat_lt (n : Normal) : n.toNat < 3 := by cases n <;> decide

theorem toNat_inj {n m : Normal} (h : n.toNat = m.toNat) : n = m := by
  cases n <;> cases m <;> simp_all [Normal.toNat]

/-- Explicit offset. -/
def off (size : List Size3) (a : Nat) (n : Normal) : Nat := ((flat size).take (3 * a + n.toNat)).sum

theorem offset_eq (size : List Size3) (a : Nat) (n : Normal) (h : a < size.length) :
    offset size a n = some (off size a n) := by
  have hn := toNat_lt n
  unfold offset off
  rw [show size.flatMap Size3.toList = flat size from rfl,
    runningOffsets_get _ _ _ (by rw [flat_length]; omega)]
  simp

theorem off_add_lt (size : List Size3) (a : Nat) (n : Normal) (s : Size3) (hs : size[a]? = some s) (e : Nat)
    (he : e < s.get n) : off size a n + e < perGroup size := by
  have ha : a < size.length := (List.getElem?_eq_some_iff.mp hs).1
  have hn := toNat_lt n
  have hl : 3 * a + n.toNat < (flat size).length := by rw [flat_length]; omega
  have hg := flat_get size a n s hs
  rw [List.getElem?_eq_getElem hl, Option.some.injEq] at hg
  rw [perGroup_eq]
  exact block_lt _ hl (by rw [hg]; exact he)

theorem off_inj (size : List Size3) {a a' : Nat} {n n' : Normal} {s s' : Size3} (hs : size[a]? = some s)
    (hs' : size[a']? = some s') {e e' : Nat} (he : e < s.get n) (he' : e' < s'.get n')
    (h : off size a n + e = off size a' n' + e') : a = a' ∧ n = n' ∧ e = e' := by
  have ha : a < size.length := (List.getElem?_eq_some_iff.mp hs).1
  have ha' : a' < size.length := (List.getElem?_eq_some_iff.mp hs').1
  have hn := toNat_lt n
  have hn' := toNat_lt n'
  have hl : 3 * a + n.toNat < (flat size).length := by rw [flat_length]; omega
  have hl' : 3 * a' + n'.toNat < (flat size).length := by rw [flat_length]; omega
  have hg := flat_get size a n s hs
  rw [List.getElem?_eq_getElem hl, Option.some.injEq] at hg
  have hg' := flat_get size a' n' s' hs'
  rw [List.getElem?_eq_getElem hl', Option.some.injEq] at hg'
  obtain ⟨h1, h2⟩ := block_unique (flat size) hl hl' (by rw [hg]; exact he) (by rw [hg']; exact he') h
  exact ⟨by omega, toNat_inj (by omega), h2⟩

theorem off_cover (size : List Size3) {p : Nat} (hp : p < perGroup size) :
    ∃ a n e s, size[a]? = some s ∧ e < s.get n ∧ p = off size a n + e := by
  rw [perGroup_eq] at hp
  obtain ⟨i, e, hi, he, hpe⟩ := block_cover (flat size) hp
  have hi' : i < 3 * size.length := by rw [← flat_length]; exact hi
  obtain ⟨n, hn⟩ : ∃ n : Normal, n.toNat = i % 3 := by
    have : i % 3 = 0 ∨ i % 3 = 1 ∨ i % 3 = 2 := by omega
    rcases this with h | h | h
    · exact ⟨.X, h.symm⟩
    · exact ⟨.Y, h.symm⟩
    · exact ⟨.Z, h.symm⟩
  have ha : i / 3 < size.length := by omega
  have hidx : 3 * (i / 3) + n.toNat = i := by omega
  refine ⟨i / 3, n, e, size[i / 3], List.getElem?_eq_getElem ha, ?_, ?_⟩
  · have hg := flat_get size (i / 3) n _ (List.getElem?_eq_getElem ha)
    rw [hidx, List.getElem?_eq_getElem hi, Option.some.injEq] at hg
    rw [← hg]; exact he
  · unfold off; rw [hidx]; exact hpe

theorem group_split (b g g' r r' : Nat) (hr : r < b) (hr' : r' < b) (h : b * g + r = b * g' + r') :
    g = g' ∧ r = r' := by
  have h1 : (b * g + r) / b = g := by
    rw [Nat.mul_add_div (by omega), Nat.div_eq_of_lt hr]; omega
  have h2 : (b * g' + r') / b = g' := by
    rw [Nat.mul_add_div (by omega), Nat.div_eq_of_lt hr']; omega
  rw [h, h2] at h1
  subst h1
  exact ⟨rfl, by omega⟩

end Verif.BC
