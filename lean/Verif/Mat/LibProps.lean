import Verif.Mat.LibModel
import Verif.Scatter.Props
import Mathlib.Algebra.BigOperators.Field
import Mathlib.Tactic.Ring
import Mathlib.Tactic.Linarith
import Mathlib.Tactic.FieldSimp
import Mathlib.Tactic.NormNum
import Mathlib.Algebra.Order.Ring.Rat

/-!
# C97: materials and the material library
-/

namespace Verif.Mat

open Verif.Scatter Verif.Strings

variable {K : Type} [Field K] [LinearOrder K]

/-! ## Lines of the file -/

/-- `c` is what a line says: nothing after the comment mark, no white space at the ends. -/
def Says (l c : List Char) : Prop :=
  ∃ a b r, l = a ++ c ++ b ++ r ∧ (∀ x ∈ a ++ c ++ b, x ≠ '!') ∧ (r = [] ∨ ∃ r', r = '!' :: r') ∧
    (∀ x ∈ a ++ b, isSpace x = true) ∧ (∀ x, c.head? = some x → isSpace x = false) ∧ ∀ x, c.getLast? = some x → isSpace x = false

theorem takeWhile_append {α : Type} (p : α → Bool) (u r : List α) (hu : ∀ x ∈ u, p x = true) (hr : r = [] ∨ ∃ y r', r = y :: r' ∧ p y = false) :
    (u ++ r).takeWhile p = u ∧ (u ++ r).dropWhile p = r := by
  induction u with
  | nil =>
    rcases hr with rfl | ⟨y, r', rfl, hy⟩
    · simp
    · simp [hy]
  | cons x u ih =>
    have hx := hu x (by simp)
    obtain ⟨i1, i2⟩ := ih (fun y hy => hu y (List.mem_cons_of_mem _ hy))
    simp [hx, i1, i2]

theorem dropWhile_spec {α : Type} (p : α → Bool) (l : List α) :
    l = l.takeWhile p ++ l.dropWhile p ∧ (∀ x ∈ l.takeWhile p, p x = true) ∧ ∀ x, (l.dropWhile p).head? = some x → p x = false := by
  refine ⟨(List.takeWhile_append_dropWhile).symm, ?_, ?_⟩
  · intro x hx
    exact List.all_eq_true.1 (List.all_takeWhile (p := p) (l := l)) x hx
  intro x hx
  induction l with
  | nil => simp at hx
  | cons y l ih =>
    by_cases hy : p y = true
    · rw [List.dropWhile_cons_of_pos hy] at hx
      exact ih hx
    · rw [List.dropWhile_cons_of_neg hy] at hx
      simp at hx
      subst hx
      simpa using hy

theorem clean_says (l : List Char) : Says l (clean l) := by
  obtain ⟨e1, t1, h1⟩ := dropWhile_spec (fun x => decide (x ≠ '!')) l
  set u := l.takeWhile (fun x => decide (x ≠ '!'))
  set r := l.dropWhile (fun x => decide (x ≠ '!'))
  have hc : clean l = trim u := rfl
  obtain ⟨e2, t2, h2⟩ := dropWhile_spec isSpace u.reverse
  set b := u.reverse.takeWhile isSpace
  set v := u.reverse.dropWhile isSpace
  have eu : u = v.reverse ++ b.reverse := by
    rw [← List.reverse_append, ← e2, List.reverse_reverse]
  obtain ⟨e3, t3, h3⟩ := dropWhile_spec isSpace v.reverse
  have ht : trim u = v.reverse.dropWhile isSpace := rfl
  set a := v.reverse.takeWhile isSpace
  set c := v.reverse.dropWhile isSpace
  rw [hc, ht]
  have eu' : u = a ++ c ++ b.reverse := by rw [← e3]; exact eu
  refine ⟨a, b.reverse, r, ?_, ?_, ?_, ?_, h3, ?_⟩
  · rw [← eu']
    exact e1
  · rw [← eu']
    intro x hx
    simpa using t1 x hx
  · cases hr : r with
    | nil => exact Or.inl rfl
    | cons y r' =>
      right
      have := h1 y (by rw [hr]; rfl)
      simp only [ne_eq, decide_not, Bool.not_eq_eq_eq_not, Bool.not_false, decide_eq_true_eq] at this
      exact ⟨r', by rw [this]⟩
  · intro x hx
    rcases List.mem_append.1 hx with hx | hx
    · exact t3 x hx
    · exact t2 x (List.mem_reverse.1 hx)
  · intro x hx
    have : v.head? = some x := by
      rw [← List.getLast?_reverse, e3, List.getLast?_append, hx]
      rfl
    exact h2 x this

theorem says_unique (l c : List Char) (h : Says l c) : c = clean l := by
  obtain ⟨a, b, r, e, hm, hr, hs, hh, hg⟩ := h
  have e1 : l.takeWhile (fun x => decide (x ≠ '!')) = a ++ c ++ b := by
    rw [e]
    refine (takeWhile_append _ _ _ (fun x hx => by simpa using hm x hx) ?_).1
    rcases hr with rfl | ⟨r', rfl⟩
    · exact Or.inl rfl
    · exact Or.inr ⟨'!', r', rfl, by simp⟩
  have key : ∀ s : List Char, (∀ x, s.head? = some x → isSpace x = false) → s = [] ∨ ∃ y r', s = y :: r' ∧ isSpace y = false := by
    intro s hs
    cases s with
    | nil => exact Or.inl rfl
    | cons y r' => exact Or.inr ⟨y, r', rfl, hs y rfl⟩
  unfold clean
  rw [e1]
  unfold trim ltrim rtrim
  by_cases hc : c = []
  · subst hc
    have hall : ∀ x ∈ (a ++ [] ++ b).reverse, isSpace x = true := by
      intro x hx
      rw [List.append_nil] at hx
      exact hs x (List.mem_reverse.1 hx)
    have := (takeWhile_append isSpace _ [] hall (Or.inl rfl)).2
    rw [List.append_nil] at this
    rw [this]
    rfl
  · have e2 : (a ++ c ++ b).reverse = b.reverse ++ (c.reverse ++ a.reverse) := by simp
    rw [e2, (takeWhile_append isSpace b.reverse (c.reverse ++ a.reverse)
      (fun x hx => hs x (List.mem_append_right _ (List.mem_reverse.1 hx))) ?_).2]
    · rw [List.reverse_append, List.reverse_reverse, List.reverse_reverse,
        (takeWhile_append isSpace a c (fun x hx => hs x (List.mem_append_left _ hx)) (key c hh)).2]
    · apply key
      intro x hx
      apply hg x
      rw [List.head?_append] at hx
      rw [← List.head?_reverse]
      cases hcr : c.reverse with
      | nil => exact absurd (List.reverse_eq_nil_iff.1 hcr) hc
      | cons y r' =>
        rw [hcr] at hx
        exact hx

/-- The contents of a file: what its lines say, without those that say nothing. -/
def contents (ls : List (List Char)) : List (List Char) := (ls.map clean).filter fun c => !c.isEmpty

/-- The lines left after `k` calls of `getline`. -/
def rest : Nat → List (List Char) → List (List Char)
  | 0, ls => ls
  | k + 1, ls => rest k (getline ls).2

/-- Result of call `k`, counted from zero. -/
def lineAt (ls : List (List Char)) (k : Nat) : List Char := (getline (rest k ls)).1

theorem getline_spec (ls : List (List Char)) :
    (getline ls).1 = ((contents ls)[0]?).getD [] ∧ contents (getline ls).2 = (contents ls).drop 1 := by
  induction ls with
  | nil => exact ⟨rfl, rfl⟩
  | cons l ls ih =>
    unfold getline
    by_cases h : (clean l).isEmpty = true
    · rw [if_pos h]
      have : contents (l :: ls) = contents ls := by simp [contents, h]
      rw [this]
      exact ih
    · rw [if_neg h]
      have : contents (l :: ls) = clean l :: contents ls := by
        simp only [contents, List.map_cons]
        rw [List.filter_cons_of_pos (by simpa using h)]
      rw [this]
      exact ⟨rfl, rfl⟩

theorem contents_rest (k : Nat) (ls : List (List Char)) : contents (rest k ls) = (contents ls).drop k := by
  induction k generalizing ls with
  | zero => rfl
  | succ k ih =>
    unfold rest
    rw [ih, (getline_spec ls).2, List.drop_drop, Nat.add_comm]

/-- C97: the calls of `getline` give, in their order, what the lines of the file say apart from comments and white space at their ends, leaving out
the lines that say nothing, and empty text at the end of the file. -/
theorem C97_lines (ls : List (List Char)) :
    (∀ k, lineAt ls k = ((contents ls)[k]?).getD []) ∧
    (∀ l c, Says l c ↔ c = clean l) := by
  constructor
  · intro k
    unfold lineAt
    rw [(getline_spec _).1, contents_rest, List.getElem?_drop, Nat.add_zero]
  · intro l c
    exact ⟨says_unique l c, fun h => h ▸ clean_says l⟩

theorem rest_rest (j k : Nat) (ls : List (List Char)) : rest j (rest k ls) = rest (k + j) ls := by
  induction k generalizing ls with
  | zero => rw [Nat.zero_add]; rfl
  | succ k ih =>
    rw [show k + 1 + j = (k + j) + 1 by omega]
    exact ih (getline ls).2

theorem lineAt_rest (j k : Nat) (ls : List (List Char)) : lineAt (rest k ls) j = lineAt ls (k + j) := by
  unfold lineAt
  rw [rest_rest]

/-! ## Headers -/

/-- A header of a material: `XSMACRO`, name, number, with white space between and around. -/
def IsHead (line name : List Char) : Prop :=
  ∃ w0 w1 w2 w3 ds, line = w0 ++ "XSMACRO".toList ++ w1 ++ name ++ w2 ++ ds ++ w3 ∧
    (∀ x ∈ w0 ++ w1 ++ w2 ++ w3, isSpace x = true) ∧ w1 ≠ [] ∧ w2 ≠ [] ∧ ds ≠ [] ∧ name ≠ [] ∧
    (∀ x ∈ ds, isDigit x = true) ∧ ∀ x ∈ name, isSpace x = false

theorem space_not_digit (x : Char) (h : isSpace x = true) : isDigit x = false := by
  simp only [isSpace, Bool.or_eq_true, beq_iff_eq] at h
  rcases h with ((((rfl | rfl) | rfl) | rfl) | rfl) | rfl <;> decide

theorem headRest_some (s name : List Char) : headRest s = some name ↔
    ∃ w1 w2 w3 ds, s = w1 ++ name ++ w2 ++ ds ++ w3 ∧
      (∀ x ∈ w1 ++ w2 ++ w3, isSpace x = true) ∧ w1 ≠ [] ∧ w2 ≠ [] ∧ ds ≠ [] ∧ name ≠ [] ∧
      (∀ x ∈ ds, isDigit x = true) ∧ ∀ x ∈ name, isSpace x = false := by
  constructor
  · intro h
    unfold headRest at h
    dsimp only at h
    obtain ⟨e1, t1, -⟩ := dropWhile_spec isSpace s
    set w1 := s.takeWhile isSpace
    set a := s.dropWhile isSpace
    obtain ⟨e2, t2, -⟩ := dropWhile_spec (fun c => !isSpace c) a
    set nm := a.takeWhile (fun c => !isSpace c)
    set b := a.dropWhile (fun c => !isSpace c)
    obtain ⟨e3, t3, -⟩ := dropWhile_spec isSpace b
    set w2 := b.takeWhile isSpace
    set c := b.dropWhile isSpace
    obtain ⟨e4, t4, -⟩ := dropWhile_spec isDigit c
    set ds := c.takeWhile isDigit
    set d := c.dropWhile isDigit
    split_ifs at h with hc
    obtain ⟨c1, c2, c3, c4, c5⟩ := hc
    have hnm : nm = name := Option.some.inj h
    rw [← hnm]
    refine ⟨w1, w2, d, ds, ?_, ?_, ?_, ?_, ?_, c2, t4, ?_⟩
    · simp only [List.append_assoc]
      rw [← e4, ← e3, ← e2, ← e1]
    · intro x hx
      simp only [List.mem_append] at hx
      rcases hx with (hx | hx) | hx
      · exact t1 x hx
      · exact t3 x hx
      · exact List.all_eq_true.1 c5 x hx
    · intro h0
      rw [h0] at e1
      rw [List.nil_append] at e1
      rw [← e1] at c1
      omega
    · intro h0
      rw [h0] at e3
      rw [List.nil_append] at e3
      rw [← e3] at c3
      omega
    · intro h0
      rw [h0] at e4
      rw [List.nil_append] at e4
      rw [← e4] at c4
      omega
    · intro x hx
      simpa using t2 x hx
  · rintro ⟨w1, w2, w3, ds, rfl, hs, h1, h2, h3, h4, hd, hn⟩
    have n1 : ∀ x ∈ w1, isSpace x = true := fun x hx => hs x (by simp [hx])
    have n2 : ∀ x ∈ w2, isSpace x = true := fun x hx => hs x (by simp [hx])
    have n3 : ∀ x ∈ w3, isSpace x = true := fun x hx => hs x (by simp [hx])
    have hds : ∀ x ∈ ds, isSpace x = false := by
      intro x hx
      by_contra hc
      have := space_not_digit x (by simpa using hc)
      rw [hd x hx] at this
      cases this
    have a1 := (takeWhile_append isSpace w1 (name ++ w2 ++ ds ++ w3) n1 (by
      cases name with
      | nil => exact absurd rfl h4
      | cons y r => exact Or.inr ⟨y, r ++ w2 ++ ds ++ w3, by simp, hn y (by simp)⟩)).2
    have a2 := takeWhile_append (fun c => !isSpace c) name (w2 ++ ds ++ w3) (fun x hx => by simp [hn x hx]) (by
      cases w2 with
      | nil => exact absurd rfl h2
      | cons y r => exact Or.inr ⟨y, r ++ ds ++ w3, by simp, by simp [n2 y (by simp)]⟩)
    have a3 := (takeWhile_append isSpace w2 (ds ++ w3) n2 (by
      cases ds with
      | nil => exact absurd rfl h3
      | cons y r => exact Or.inr ⟨y, r ++ w3, by simp, hds y (by simp)⟩)).2
    have a4 := (takeWhile_append isDigit ds w3 hd (by
      cases w3 with
      | nil => exact Or.inl rfl
      | cons y r => exact Or.inr ⟨y, r, rfl, space_not_digit y (n3 y (by simp))⟩)).2
    have e1 : (w1 ++ name ++ w2 ++ ds ++ w3).dropWhile isSpace = name ++ (w2 ++ ds ++ w3) := by
      rw [show w1 ++ name ++ w2 ++ ds ++ w3 = w1 ++ (name ++ w2 ++ ds ++ w3) by simp, a1]
      simp
    have e3 : (w2 ++ ds ++ w3).dropWhile isSpace = ds ++ w3 := by
      rw [List.append_assoc, a3]
    unfold headRest
    simp only [e1, a2.1, a2.2, e3, a4]
    rw [if_pos]
    have l1 := List.length_pos_of_ne_nil h1
    have l2 := List.length_pos_of_ne_nil h2
    have l3 := List.length_pos_of_ne_nil h3
    refine ⟨?_, h4, ?_, ?_, List.all_eq_true.2 n3⟩
    · simp only [List.length_append]; omega
    · simp only [List.length_append]; omega
    · simp only [List.length_append]; omega

/-- C97: the name of a material is that of its header; a line that is no header gives the empty name. -/
theorem C97_header (line : List Char) :
    (∀ name, IsHead line name → headName line = name) ∧ ((∀ name, ¬ IsHead line name) → headName line = []) := by
  have hx : isSpace 'X' = false := by decide
  have hpre : ∀ t : List Char, "XSMACRO".toList.isPrefixOf ("XSMACRO".toList ++ t) = true := by
    intro t
    rw [List.isPrefixOf_iff_prefix]
    exact List.prefix_append _ _
  constructor
  · rintro name ⟨w0, w1, w2, w3, ds, rfl, hs, h1, h2, h3, h4, hd, hn⟩
    unfold headName
    have e0 : (w0 ++ "XSMACRO".toList ++ w1 ++ name ++ w2 ++ ds ++ w3).dropWhile isSpace = "XSMACRO".toList ++ (w1 ++ name ++ w2 ++ ds ++ w3) := by
      rw [show w0 ++ "XSMACRO".toList ++ w1 ++ name ++ w2 ++ ds ++ w3 = w0 ++ ("XSMACRO".toList ++ (w1 ++ name ++ w2 ++ ds ++ w3)) by
        simp only [List.append_assoc]]
      exact (takeWhile_append isSpace w0 _ (fun x hx => hs x (by simp [hx])) (Or.inr ⟨'X', _, rfl, hx⟩)).2
    rw [e0]
    dsimp only
    rw [if_pos (hpre _), show ("XSMACRO".toList ++ (w1 ++ name ++ w2 ++ ds ++ w3)).drop 7 = w1 ++ name ++ w2 ++ ds ++ w3 by rfl,
      (headRest_some _ name).2 ⟨w1, w2, w3, ds, rfl, fun x hx' => hs x (by
        simp only [List.mem_append] at hx' ⊢
        tauto), h1, h2, h3, h4, hd, hn⟩]
    rfl
  · intro h
    unfold headName
    dsimp only
    split_ifs with hp
    · cases hr : headRest ((line.dropWhile isSpace).drop 7) with
      | none => rfl
      | some name =>
        exfalso
        obtain ⟨w1, w2, w3, ds, e, hs, h1, h2, h3, h4, hd, hn⟩ := (headRest_some _ name).1 hr
        obtain ⟨e1, t1, -⟩ := dropWhile_spec isSpace line
        obtain ⟨t, ht⟩ := List.isPrefixOf_iff_prefix.1 hp
        have e7 : (line.dropWhile isSpace).drop 7 = t := by
          rw [← ht]
          rfl
        refine h name ⟨line.takeWhile isSpace, w1, w2, w3, ds, ?_, ?_, h1, h2, h3, h4, hd, hn⟩
        · rw [e7] at e
          rw [show line.takeWhile isSpace ++ "XSMACRO".toList ++ w1 ++ name ++ w2 ++ ds ++ w3 =
            line.takeWhile isSpace ++ ("XSMACRO".toList ++ (w1 ++ name ++ w2 ++ ds ++ w3)) by simp only [List.append_assoc], ← e, ht]
          exact e1
        · intro x hx'
          simp only [List.mem_append] at hx'
          rcases hx' with ((hx' | hx') | hx') | hx'
          · exact t1 x hx'
          · exact hs x (by simp [hx'])
          · exact hs x (by simp [hx'])
          · exact hs x (by simp [hx'])
    · rfl

/-! ## Materials -/

/-- The values of a row. -/
def entry (r : List K) (i : Nat) : K := (r[i]?).getD 0

omit [LinearOrder K] in
theorem foldl_sum (l : List K) : l.foldl (· + ·) 0 = l.sum := by
  rw [List.sum_eq_foldl]

variable [IsStrictOrderedRing K]

/-- C97: chi is divided by its sum if a value is positive, and otherwise left as it is; without negative values it then sums to one. -/
theorem C97_chi (ch : List K) :
    ((∃ v ∈ ch, 0 < v) → normChi ch = ch.map (· / ch.sum) ∧ ((∀ v ∈ ch, 0 ≤ v) → (normChi ch).sum = 1)) ∧
    ((∀ v ∈ ch, v ≤ 0) → normChi ch = ch) := by
  constructor
  · rintro ⟨v, hv, hp⟩
    have h1 : normChi ch = ch.map (· / ch.sum) := by
      unfold normChi
      rw [if_pos (List.any_eq_true.2 ⟨v, hv, by simpa using hp⟩), foldl_sum]
    refine ⟨h1, fun hn => ?_⟩
    have hs : 0 < ch.sum := lt_of_lt_of_le hp (List.single_le_sum hn v hv)
    have hdiv : ∀ (l : List K) (s : K), (l.map (· / s)).sum = l.sum / s := by
      intro l s
      induction l with
      | nil => simp
      | cons a l ih => rw [List.map_cons, List.sum_cons, ih, List.sum_cons, add_div]
    rw [h1, hdiv]
    exact div_self hs.ne'
  · intro h
    unfold normChi
    rw [if_neg]
    intro hc
    obtain ⟨v, hv, hp⟩ := List.any_eq_true.1 hc
    simp only [decide_eq_true_eq] at hp
    exact absurd (h v hv) (not_le.2 hp)

omit [IsStrictOrderedRing K] in
theorem mk_some (ab nf f ch : List K) (scat : List (List K)) (hsq : ∀ r ∈ scat, r.length = scat.length) :
    mkMaterial ab nf f ch scat = some
      { ab := ab, nf := nf, f := f, ch := normChi ch, sc := build scat.length fun a b => ((scat[a]?).bind (·[b]?)).getD 0
        fissile := nf.any fun v => decide (0 < v)
        tr := (List.range ab.length).map fun g : Nat => (ab[g]?).getD 0 +
          (build scat.length fun a b => ((scat[a]?).bind (·[b]?)).getD 0).out g } := by
  unfold mkMaterial
  rw [if_neg]
  intro hc
  obtain ⟨r, hr, hl⟩ := List.any_eq_true.1 hc
  simp only [ne_eq, decide_not, Bool.not_eq_eq_eq_not, Bool.not_true, decide_eq_false_iff_not] at hl
  exact hl (hsq r hr)

/-- C97: the constructor of a material.  A scattering table that is not square is rejected.  The transport cross section of a group is absorption
plus scattering out of it to all groups (for a table without negative values), the material is fissile exactly if a nu-fission cross section is
positive, and the other cross sections are those given. -/
theorem C97_material (ab nf f ch : List K) (scat : List (List K)) :
    ((∃ m, mkMaterial ab nf f ch scat = some m) ↔ ∀ r ∈ scat, r.length = scat.length) ∧
    ∀ m, mkMaterial ab nf f ch scat = some m → m.ab = ab ∧ m.nf = nf ∧ m.f = f ∧ m.ch = normChi ch ∧
      (m.fissile = true ↔ ∃ v ∈ nf, 0 < v) ∧ m.tr.length = ab.length ∧
      (scat.length = ab.length → (∀ r ∈ scat, ∀ v ∈ r, 0 ≤ v) → ∀ g a, ab[g]? = some a → m.tr[g]? = some (a + (scat.map (entry · g)).sum)) ∧
      (∀ (a b : Nat) r v, scat[a]? = some r → r[b]? = some v → 0 < v → m.sc.get a b = some v) ∧
      (∀ (a b : Nat) v, a < scat.length → b < scat.length → m.sc.get a b = some v → (scat[a]?).bind (·[b]?) = some v) := by
  by_cases hsq : ∀ r ∈ scat, r.length = scat.length
  swap
  · have hnone : mkMaterial ab nf f ch scat = none := by
      unfold mkMaterial
      rw [if_pos]
      push Not at hsq
      obtain ⟨r, hr, hl⟩ := hsq
      exact List.any_eq_true.2 ⟨r, hr, by simpa using hl⟩
    rw [hnone]
    simp [hsq]
  rw [mk_some ab nf f ch scat hsq]
  refine ⟨⟨fun _ => hsq, fun _ => ⟨_, rfl⟩⟩, ?_⟩
  rintro m hm
  cases hm
  have hval : ∀ a b, a < scat.length → b < scat.length → ∃ r v, scat[a]? = some r ∧ r ∈ scat ∧ r[b]? = some v ∧ v ∈ r := by
    intro a b ha hb
    have hr : scat[a] ∈ scat := List.getElem_mem ha
    have hl : b < scat[a].length := by rw [hsq _ hr]; exact hb
    exact ⟨scat[a], scat[a][b], List.getElem?_eq_getElem ha, hr, List.getElem?_eq_getElem hl, List.getElem_mem hl⟩
  refine ⟨rfl, rfl, rfl, rfl, ?_, by simp, ?_, ?_, ?_⟩
  · simp [List.any_eq_true]
  · intro hlen hn g a hg
    have hgl : g < ab.length := (List.getElem?_eq_some_iff.1 hg).1
    have hnn : ∀ i j, i < scat.length → j < scat.length → 0 ≤ (fun a b => ((scat[a]?).bind (·[b]?)).getD (0 : K)) i j := by
      intro i j hi hj
      obtain ⟨r, v, h1, h2, h3, h4⟩ := hval i j hi hj
      simp only [h1, Option.bind_some, h3, Option.getD_some]
      exact hn r h2 v h4
    dsimp only
    rw [List.getElem?_map, List.getElem?_range hgl, Option.map_some, hg, C22_out_partial scat.length _ hnn g (by omega)]
    congr 2
    have hsum : ∀ (l : List (List K)), ∑ i ∈ Finset.range l.length, ((l[i]?).bind (·[g]?)).getD (0 : K) = (l.map (entry · g)).sum := by
      intro l
      induction l with
      | nil => simp
      | cons r l ih =>
        rw [List.length_cons, Finset.sum_range_succ', List.map_cons, List.sum_cons, ← ih, add_comm]
        simp [entry]
    exact hsum scat
  · intro a b r v hr hv hp
    have ha : a < scat.length := (List.getElem?_eq_some_iff.1 hr).1
    have hb : b < scat.length := by
      rw [← hsq r (List.mem_of_getElem? hr)]
      exact (List.getElem?_eq_some_iff.1 hv).1
    have := (C22_to_sound scat.length (fun a b => ((scat[a]?).bind (·[b]?)).getD (0 : K)) a b ha hb).2.1
    simp only [hr, Option.bind_some, hv, Option.getD_some] at this
    exact this hp
  · intro a b v ha hb hg
    have := (C22_to_sound scat.length (fun a b => ((scat[a]?).bind (·[b]?)).getD (0 : K)) a b ha hb).1 v hg
    obtain ⟨r, w, h1, h2, h3, h4⟩ := hval a b ha hb
    simp only [h1, Option.bind_some, h3, Option.getD_some] at this ⊢
    rw [this]

/-! ## The file -/

omit [Field K] [LinearOrder K] [IsStrictOrderedRing K] in
theorem readRows_spec (p : Parser K) (len n : Nat) (ls : List (List Char)) :
    ((∃ r, readRows p len n ls = some r) ↔ ∀ g, g < n → ∃ row, p.values (lineAt ls g) = some row ∧ row.length = len) ∧
    ∀ r, readRows p len n ls = some r → r.2 = rest n ls ∧ r.1.length = n ∧ (∀ row ∈ r.1, row.length = len) ∧
      ∀ g, g < n → p.values (lineAt ls g) = r.1[g]? := by
  induction n generalizing ls with
  | zero =>
    refine ⟨⟨fun _ g hg => absurd hg (by omega), fun _ => ⟨_, rfl⟩⟩, ?_⟩
    intro r hr
    cases hr
    exact ⟨rfl, rfl, fun _ h => absurd h (by simp), fun g hg => absurd hg (by omega)⟩
  | succ n ih =>
    obtain ⟨i1, i2⟩ := ih (getline ls).2
    have h0 : lineAt ls 0 = (getline ls).1 := rfl
    have hs : ∀ g, lineAt ls (g + 1) = lineAt (getline ls).2 g := fun g => rfl
    unfold readRows
    dsimp only
    cases hv : p.values (getline ls).1 with
    | none =>
      simp only [reduceCtorEq, exists_false, false_iff, false_implies, implies_true, and_true]
      intro h
      obtain ⟨row, h1, _⟩ := h 0 (by omega)
      rw [h0, hv] at h1
      cases h1
    | some row =>
      dsimp only
      by_cases hl : row.length ≠ len
      · simp only [if_pos hl, reduceCtorEq, exists_false, false_iff, false_implies, implies_true, and_true]
        intro h
        obtain ⟨row', h1, h2⟩ := h 0 (by omega)
        rw [h0, hv] at h1
        cases h1
        exact hl h2
      · simp only [if_neg hl]
        push Not at hl
        constructor
        · constructor
          · rintro ⟨r, hr⟩ g hg
            rw [Option.map_eq_some_iff] at hr
            obtain ⟨r', hr', _⟩ := hr
            cases g with
            | zero => exact ⟨row, hv, hl⟩
            | succ g =>
              rw [hs]
              exact i1.1 ⟨r', hr'⟩ g (by omega)
          · intro h
            obtain ⟨r', hr'⟩ := i1.2 (fun g hg => by
              have := h (g + 1) (by omega)
              rwa [hs] at this)
            exact ⟨_, by rw [hr']; rfl⟩
        · intro r hr
          rw [Option.map_eq_some_iff] at hr
          obtain ⟨r', hr', rfl⟩ := hr
          obtain ⟨j1, j2, j3, j4⟩ := i2 r' hr'
          refine ⟨j1, by simp [j2], ?_, ?_⟩
          · intro row' hrow
            rcases List.mem_cons.1 hrow with rfl | hrow
            · exact hl
            · exact j3 row' hrow
          · intro g hg
            cases g with
            | zero => rw [h0, hv]; rfl
            | succ g =>
              rw [hs, j4 g (by omega)]
              rfl

/-- The line at which material `k` begins. -/
def startOf (ng k : Nat) : Nat := 3 + k * (1 + 2 * ng)

/-- The file has the rows of a material from line `i` on. -/
def RowsAt (p : Parser K) (ls : List (List Char)) (ng i : Nat) : Prop :=
  (∀ g, g < ng → ∃ row, p.values (lineAt ls (i + 1 + g)) = some row ∧ row.length = 4) ∧
  ∀ g, g < ng → ∃ row, p.values (lineAt ls (i + 1 + ng + g)) = some row ∧ row.length = ng

/-- `m` is the material whose rows begin after line `i`. -/
def MatAt (p : Parser K) (ls : List (List Char)) (ng i : Nat) (m : Material K) : Prop :=
  ∃ rows scat : List (List K), rows.length = ng ∧ scat.length = ng ∧ (∀ g, g < ng → p.values (lineAt ls (i + 1 + g)) = rows[g]?) ∧
    (∀ g, g < ng → p.values (lineAt ls (i + 1 + ng + g)) = scat[g]?) ∧
    mkMaterial (rows.map (entry · 0)) (rows.map (entry · 1)) (rows.map (entry · 2)) (rows.map (entry · 3)) scat = some m

omit [IsStrictOrderedRing K] in
theorem readOne_spec (p : Parser K) (ng : Nat) (ls : List (List Char)) (i : Nat) :
    ((∃ r, readOne p ng (rest i ls) = some r) ↔ RowsAt p ls ng i) ∧
    ∀ r, readOne p ng (rest i ls) = some r → r.2 = rest (i + (1 + 2 * ng)) ls ∧ r.1.1 = headName (lineAt ls i) ∧ MatAt p ls ng i r.1.2 := by
  have hg : (getline (rest i ls)).2 = rest (i + 1) ls := rest_rest 1 i ls
  have hline : ∀ j k, lineAt (rest j ls) k = lineAt ls (j + k) := fun j k => lineAt_rest k j ls
  unfold readOne
  dsimp only
  rw [hg]
  obtain ⟨a1, a2⟩ := readRows_spec p 4 ng (rest (i + 1) ls)
  simp only [hline] at a1 a2
  cases h1 : readRows p 4 ng (rest (i + 1) ls) with
  | none =>
    simp only [reduceCtorEq, exists_false, false_iff, false_implies, implies_true, and_true]
    intro h
    obtain ⟨r, hr⟩ := a1.2 h.1
    rw [h1] at hr
    cases hr
  | some r1 =>
    obtain ⟨rows, ls1⟩ := r1
    obtain ⟨b1, b2, b3, b4⟩ := a2 _ h1
    dsimp only at b1 b2 b3 b4 ⊢
    rw [rest_rest] at b1
    rw [b1]
    obtain ⟨c1, c2⟩ := readRows_spec p ng ng (rest (i + 1 + ng) ls)
    simp only [hline] at c1 c2
    cases h2 : readRows p ng ng (rest (i + 1 + ng) ls) with
    | none =>
      simp only [reduceCtorEq, exists_false, false_iff, false_implies, implies_true, and_true]
      intro h
      obtain ⟨r, hr⟩ := c1.2 h.2
      rw [h2] at hr
      cases hr
    | some r2 =>
      obtain ⟨scat, ls2⟩ := r2
      obtain ⟨d1, d2, d3, d4⟩ := c2 _ h2
      dsimp only at d1 d2 d3 d4 ⊢
      have hsq : ∀ r ∈ scat, r.length = scat.length := fun r hr => by rw [d3 r hr, d2]
      have hmk := mk_some (column rows 0) (column rows 1) (column rows 2) (column rows 3) scat hsq
      rw [hmk]
      refine ⟨⟨fun _ => ⟨a1.1 ⟨_, h1⟩, c1.1 ⟨_, h2⟩⟩, fun _ => ⟨_, rfl⟩⟩, ?_⟩
      rintro r hr
      cases hr
      refine ⟨?_, rfl, rows, scat, b2, d2, b4, d4, hmk⟩
      dsimp only
      rw [d1, rest_rest]
      congr 1
      ring

omit [IsStrictOrderedRing K] in
theorem readMats_spec (p : Parser K) (ls : List (List Char)) (ng n k0 : Nat) (l : Lib K) (hng : l.ng = ng) (hk : l.mats.length = k0) :
    ((∃ r, readMats p n (rest (startOf ng k0) ls) l = some r) ↔ ∀ k, k0 ≤ k → k < k0 + n → RowsAt p ls ng (startOf ng k)) ∧
    ∀ r, readMats p n (rest (startOf ng k0) ls) l = some r →
      r.ng = ng ∧ r.bounds = l.bounds ∧ r.assigned = l.assigned ∧ r.ids = l.ids ∧ r.dense = l.dense ∧ r.n = l.n ∧
      r.mats.length = k0 + n ∧
      (∀ k, k < k0 → r.mats[k]? = l.mats[k]?) ∧
      (∀ k, k0 ≤ k → k < k0 + n → ∃ m, r.mats[k]? = some m ∧ MatAt p ls ng (startOf ng k) m) ∧
      ∀ x k, r.names x = some k ↔
        (k0 ≤ k ∧ k < k0 + n ∧ headName (lineAt ls (startOf ng k)) = x ∧ ∀ j, k < j → j < k0 + n → headName (lineAt ls (startOf ng j)) ≠ x) ∨
        (l.names x = some k ∧ ∀ j, k0 ≤ j → j < k0 + n → headName (lineAt ls (startOf ng j)) ≠ x) := by
  induction n generalizing k0 l with
  | zero =>
    refine ⟨⟨fun _ k h1 h2 => absurd h2 (by omega), fun _ => ⟨_, rfl⟩⟩, ?_⟩
    intro r hr
    cases hr
    refine ⟨hng, rfl, rfl, rfl, rfl, rfl, by omega, fun _ _ => rfl, fun k h1 h2 => absurd h2 (by omega), fun x k => ?_⟩
    constructor
    · intro h
      exact Or.inr ⟨h, fun j h1 h2 => absurd h2 (by omega)⟩
    · rintro (⟨h1, h2, _⟩ | ⟨h, _⟩)
      · omega
      · exact h
  | succ n ih =>
    unfold readMats
    rw [hng]
    obtain ⟨o1, o2⟩ := readOne_spec p ng ls (startOf ng k0)
    cases hv : readOne p ng (rest (startOf ng k0) ls) with
    | none =>
      simp only [reduceCtorEq, exists_false, false_iff, false_implies, implies_true, and_true]
      intro h
      obtain ⟨r, hr⟩ := o1.2 (h k0 le_rfl (by omega))
      rw [hv] at hr
      cases hr
    | some r1 =>
      obtain ⟨nm, ls'⟩ := r1
      obtain ⟨e1, e2, e3⟩ := o2 _ hv
      dsimp only at e1 e2 e3 ⊢
      have hst : startOf ng k0 + (1 + 2 * ng) = startOf ng (k0 + 1) := by unfold startOf; ring
      rw [e1, hst]
      obtain ⟨i1, i2⟩ := ih (k0 + 1) (l.add nm) hng (by simp [Lib.add, hk])
      constructor
      · rw [i1]
        constructor
        · intro h k h1 h2
          by_cases hkk : k = k0
          · subst hkk
            exact o1.1 ⟨_, hv⟩
          · exact h k (by omega) (by omega)
        · intro h k h1 h2
          exact h k (by omega) (by omega)
      · intro r hr
        obtain ⟨j1, j2, j3, j4, j5, j6, j7, j8, j9, j10⟩ := i2 r hr
        refine ⟨j1, j2, j3, j4, j5, j6, by omega, ?_, ?_, ?_⟩
        · intro k hkk
          rw [j8 k (by omega)]
          simp only [Lib.add]
          rw [List.getElem?_append_left (by omega)]
        · intro k h1 h2
          by_cases hkk : k = k0
          · subst hkk
            refine ⟨nm.2, ?_, e3⟩
            rw [j8 k (by omega)]
            simp only [Lib.add]
            rw [List.getElem?_append_right (by omega), hk]
            simp
          · exact j9 k (by omega) (by omega)
        · intro x k
          rw [j10 x k]
          simp only [Lib.add, hk, e2]
          constructor
          · rintro (⟨h1, h2, h3, h4⟩ | ⟨h1, h2⟩)
            · exact Or.inl ⟨by omega, by omega, h3, fun j hj hj' => h4 j hj (by omega)⟩
            · split_ifs at h1 with hx
              · cases h1
                exact Or.inl ⟨le_rfl, by omega, hx.symm, fun j hj hj' => h2 j (by omega) (by omega)⟩
              · right
                refine ⟨h1, fun j hj hj' => ?_⟩
                by_cases hjk : j = k0
                · subst hjk
                  exact fun hc => hx hc.symm
                · exact h2 j (by omega) (by omega)
          · rintro (⟨h1, h2, h3, h4⟩ | ⟨h1, h2⟩)
            · by_cases hkk : k = k0
              · subst hkk
                right
                refine ⟨if_pos h3.symm, fun j hj hj' => h4 j (by omega) (by omega)⟩
              · exact Or.inl ⟨by omega, by omega, h3, fun j hj hj' => h4 j hj (by omega)⟩
            · right
              refine ⟨?_, fun j hj hj' => h2 j (by omega) (by omega)⟩
              rw [if_neg (fun hc => h2 k0 le_rfl (by omega) hc.symm)]
              exact h1

/-- The name in the header of material `k`. -/
def nameAt (ls : List (List Char)) (ng k : Nat) : List Char := headName (lineAt ls (startOf ng k))

omit [IsStrictOrderedRing K] in
/-- C97: a file is accepted exactly if its second line has the two numbers, the third the bounds of the groups, and after them each material has, below
its header, a row of four values for each group and a square table; what follows the last material is ignored, and the headers do not matter.  The
library then has the materials of the file in their order, made from these values, and a name stands for the last material with this name. -/
theorem C97_file (p : Parser K) (ls : List (List Char)) :
    ((∃ l, readFile p ls = some l) ↔ ∃ ng n b, p.counts (lineAt ls 1) = some (ng, n) ∧ p.bounds ng (lineAt ls 2) = some b ∧
      ∀ k, k < n → RowsAt p ls ng (startOf ng k)) ∧
    ∀ l, readFile p ls = some l → ∃ n, p.counts (lineAt ls 1) = some (l.ng, n) ∧ p.bounds l.ng (lineAt ls 2) = some l.bounds ∧
      l.mats.length = n ∧ (∀ k, k < n → ∃ m, l.mats[k]? = some m ∧ MatAt p ls l.ng (startOf l.ng k) m) ∧
      (∀ x k, l.names x = some k ↔ k < n ∧ nameAt ls l.ng k = x ∧ ∀ j, k < j → j < n → nameAt ls l.ng j ≠ x) ∧
      l.assigned = [] ∧ l.n = 0 ∧ (∀ id, l.ids id = none) ∧ ∀ id, l.dense id = none := by
  unfold readFile
  dsimp only
  change ((∃ l, (match p.counts (lineAt ls 1) with
    | none => none
    | some (ng, nmat) =>
      match p.bounds ng (lineAt ls 2) with
      | none => none
      | some b => readMats p nmat (rest 3 ls) ⟨ng, b, [], fun _ => none, [], fun _ => none, fun _ => none, 0⟩) = some l) ↔ _) ∧ ∀ l, (match p.counts (lineAt ls 1) with
    | none => none
    | some (ng, nmat) =>
      match p.bounds ng (lineAt ls 2) with
      | none => none
      | some b => readMats p nmat (rest 3 ls) ⟨ng, b, [], fun _ => none, [], fun _ => none, fun _ => none, 0⟩) = some l → _
  cases hc : p.counts (lineAt ls 1) with
  | none => simp
  | some c =>
    obtain ⟨ng, n⟩ := c
    dsimp only
    cases hb : p.bounds ng (lineAt ls 2) with
    | none =>
      simp only [reduceCtorEq, exists_false, false_iff, false_implies, implies_true, and_true]
      rintro ⟨ng', n', b, h1, h2, _⟩
      cases h1
      rw [hb] at h2
      cases h2
    | some b =>
      dsimp only
      obtain ⟨m1, m2⟩ := readMats_spec p ls ng n 0 ⟨ng, b, [], fun _ => none, [], fun _ => none, fun _ => none, 0⟩ rfl rfl
      have h3 : startOf ng 0 = 3 := by simp [startOf]
      rw [h3] at m1 m2
      constructor
      · rw [m1]
        constructor
        · intro h
          exact ⟨ng, n, b, rfl, hb, fun k hk => h k (by omega) (by omega)⟩
        · rintro ⟨ng', n', b', h1, h2, h⟩ k hk hk'
          cases h1
          exact h k (by omega)
      · intro l hl
        obtain ⟨j1, j2, j3, j4, j5, j6, j7, j8, j9, j10⟩ := m2 l hl
        dsimp only at j2 j3 j4 j5 j6
        refine ⟨n, by rw [j1], by rw [j1, j2]; exact hb, by omega, ?_, ?_, j3, j6, fun id => by rw [j4], fun id => by rw [j5]⟩
        · intro k hk
          rw [j1]
          exact j9 k (by omega) (by omega)
        · intro x k
          rw [j10 x k, j1]
          constructor
          · rintro (⟨_, h2, h3, h4⟩ | ⟨h, _⟩)
            · exact ⟨by omega, h3, fun j hj hj' => h4 j hj (by omega)⟩
            · cases h
          · rintro ⟨h1, h2, h3⟩
            exact Or.inl ⟨by omega, by omega, h2, fun j hj hj' => h3 j hj (by omega)⟩

/-- C97, the claim on names: every material of an accepted file has a header of the required form, and no two have the same name. -/
def C97_claim : Prop := ∀ (p : Parser ℚ) (ls : List (List Char)) (l : Lib ℚ), readFile p ls = some l →
  (∀ k, k < l.mats.length → ∃ name, IsHead (lineAt ls (startOf l.ng k)) name) ∧
  ∀ j k, j < k → k < l.mats.length → nameAt ls l.ng j ≠ nameAt ls l.ng k

/-- Parsers for the example: every digit is a value. -/
def exParser : Parser ℚ where
  counts := fun s => match s.filter isDigit with
    | [a, b] => some (decimal [a], decimal [b])
    | _ => none
  bounds := fun _ s => some ((s.filter isDigit).map fun c => (decimal [c] : ℚ))
  values := fun s => some ((s.filter isDigit).map fun c => (decimal [c] : ℚ))

/-- A file of two materials of the same name for one group, with comments. -/
def exLines : List (List Char) := ["! library".toList, "test".toList, " 1 2 ! groups, materials".toList, "".toList, "9".toList,
  "XSMACRO fuel 0".toList, "1 3 2 5".toList, "4".toList, "XSMACRO fuel 0 ! again".toList, "2 0 0 0".toList, " 6".toList]

/-- The same with names that are no headers. -/
def exBad : List (List Char) := ["test".toList, "1 1".toList, "9".toList, "MACRO fuel".toList, "1 3 2 5".toList, "4".toList]

def exTr (o : Option (Lib ℚ)) : List (List ℚ) := match o with
  | some l => l.mats.map (·.tr)
  | none => []

def exNameIdx (o : Option (Lib ℚ)) (x : List Char) : Option Nat := match o with
  | some l => l.names x
  | none => none

example : exTr (readFile exParser exLines) = [[5], [8]] := by decide +kernel

/-- C97: of two materials with the same name only the last can be used. -/
example : exNameIdx (readFile exParser exLines) "fuel".toList = some 1 := by decide +kernel

example : exTr (readFile exParser exBad) = [[5]] ∧ exNameIdx (readFile exParser exBad) [] = some 0 := by decide +kernel

example : IsHead "XSMACRO fuel 0".toList "fuel".toList :=
  ⟨[], [' '], [' '], [], ['0'], by decide, by decide, by decide, by decide, by decide, by decide, by decide, by decide⟩

theorem exists_lib (o : Option (Lib ℚ)) (h : exTr o ≠ []) : ∃ l, o = some l ∧ l.mats.map (·.tr) = exTr o := by
  cases o with
  | none => exact absurd rfl h
  | some l => exact ⟨l, rfl, rfl⟩

theorem C97_claim_false : ¬ C97_claim := by
  intro h
  have ht : exTr (readFile exParser exLines) = [[5], [8]] := by decide +kernel
  obtain ⟨l, hl, hm⟩ := exists_lib (readFile exParser exLines) (by rw [ht]; simp)
  have hlen : l.mats.length = 2 := by
    have := congrArg List.length (hm.trans ht)
    simpa using this
  have hng : l.ng = 1 := by
    obtain ⟨n, hc, _⟩ := (C97_file exParser exLines).2 l hl
    have : exParser.counts (lineAt exLines 1) = some (1, 2) := by decide +kernel
    rw [this, Option.some.injEq, Prod.mk.injEq] at hc
    exact hc.1.symm
  have h2 := (h exParser exLines l hl).2 0 1 (by omega) (by omega)
  rw [hng] at h2
  exact h2 (by decide +kernel)

omit [IsStrictOrderedRing K] in
/-- C97: a material whose header does not match is in the library under the empty name. -/
theorem C97_no_header (p : Parser K) (ls : List (List Char)) (l : Lib K) (h : readFile p ls = some l) (k : Nat) (hk : k < l.mats.length)
    (hn : ∀ name, ¬ IsHead (lineAt ls (startOf l.ng k)) name) : ∃ j, l.names [] = some j ∧ k ≤ j := by
  obtain ⟨n, -, -, hlen, -, hnames, -⟩ := (C97_file p ls).2 l h
  have hk0 : nameAt ls l.ng k = [] := (C97_header _).2 hn
  have key : ∀ d k, n - k = d → k < n → nameAt ls l.ng k = [] → ∃ j, l.names [] = some j ∧ k ≤ j := by
    intro d
    induction d using Nat.strong_induction_on with
    | _ d ih =>
      intro k hd hk hk0
      by_cases hex : ∃ j, k < j ∧ j < n ∧ nameAt ls l.ng j = []
      · obtain ⟨j, h1, h2, h3⟩ := hex
        obtain ⟨i, hi, hji⟩ := ih (n - j) (by omega) j rfl h2 h3
        exact ⟨i, hi, by omega⟩
      · push Not at hex
        exact ⟨k, (hnames [] k).2 ⟨hk, hk0, hex⟩, le_rfl⟩
  exact key _ k rfl (by omega) hk0

/-! ## Identifiers -/

/-- The name given to an identifier last. -/
def lastName (tags : List (Int × List Char)) (id : Int) : Option (List Char) :=
  ((tags.reverse.find? fun t => decide (t.1 = id))).map (·.2)

/-- The library is consistent: names stand for materials. -/
def NamesOk (l : Lib K) : Prop := ∀ x i, l.names x = some i → i < l.mats.length

omit [Field K] [LinearOrder K] [IsStrictOrderedRing K] in
theorem assign_spec (l : Lib K) (hok : NamesOk l) (id : Int) (name : List Char) :
    (l.names name = none → l.assign id name = none) ∧
    ∀ i, l.names name = some i → ∃ m, l.mats[i]? = some m ∧ l.assign id name =
      some { l with assigned := l.assigned ++ [m], dense := fun x => if x = id then some l.n else l.dense x
                    ids := fun x => if x = id then some i else l.ids x, n := l.n + 1 } := by
  constructor
  · intro h
    unfold Lib.assign
    rw [h]
  · intro i h
    have hi := hok name i h
    refine ⟨l.mats[i], List.getElem?_eq_getElem hi, ?_⟩
    unfold Lib.assign
    rw [h]
    dsimp only
    rw [List.getElem?_eq_getElem hi]

/-- What holds of identifiers after the tags. -/
structure Assigned (l0 l : Lib K) (tags : List (Int × List Char)) : Prop where
  mats : l.mats = l0.mats
  names : l.names = l0.names
  n : l.n = tags.length
  len : l.assigned.length = tags.length
  ids : ∀ id, l.ids id = (lastName tags id).bind l0.names
  some_ids : ∀ t ∈ tags, (l0.names t.2).isSome = true
  dense : ∀ id i, l.dense id = some i ↔ i < tags.length ∧ (∃ t, tags[i]? = some t ∧ t.1 = id) ∧ ∀ j t, i < j → tags[j]? = some t → t.1 ≠ id
  list : ∀ (i : Nat) t, tags[i]? = some t → ∃ m, l.assigned[i]? = some m ∧ (l0.names t.2).bind (l0.mats[·]?) = some m

omit [Field K] [LinearOrder K] [IsStrictOrderedRing K] in
theorem assignAll_spec (l0 : Lib K) (hok : NamesOk l0) (h1 : l0.assigned = []) (h2 : l0.n = 0) (h3 : ∀ id, l0.ids id = none)
    (h4 : ∀ id, l0.dense id = none) (tags : List (Int × List Char)) :
    ((∃ l, l0.assignAll tags = some l) ↔ ∀ t ∈ tags, (l0.names t.2).isSome = true) ∧ ∀ l, l0.assignAll tags = some l → Assigned l0 l tags := by
  unfold Lib.assignAll
  induction tags using List.reverseRecOn with
  | nil =>
    refine ⟨⟨fun _ t ht => absurd ht (by simp), fun _ => ⟨_, rfl⟩⟩, ?_⟩
    intro l hl
    cases hl
    refine ⟨rfl, rfl, h2, by rw [h1]; rfl, fun id => by rw [h3]; rfl, fun t ht => absurd ht (by simp), fun id i => ?_, fun i t ht => by simp at ht⟩
    rw [h4]
    simp
  | append_singleton tags t ih =>
    obtain ⟨i1, i2⟩ := ih
    rw [List.foldlM_append]
    cases hv : tags.foldlM (fun l t => l.assign t.1 t.2) l0 with
    | none =>
      simp only [Option.bind_eq_bind, Option.bind_none, reduceCtorEq, exists_false, false_iff, false_implies, implies_true, and_true]
      intro h
      obtain ⟨l, hl⟩ := i1.2 (fun u hu => h u (List.mem_append_left _ hu))
      rw [hv] at hl
      cases hl
    | some l1 =>
      have a := i2 l1 hv
      simp only [Option.bind_eq_bind, Option.bind_some, List.foldlM_cons, List.foldlM_nil]
      have hok1 : NamesOk l1 := by
        intro x i hx
        rw [a.names] at hx
        rw [a.mats]
        exact hok x i hx
      obtain ⟨s1, s2⟩ := assign_spec l1 hok1 t.1 t.2
      rw [a.names] at s1 s2
      cases hn : l0.names t.2 with
      | none =>
        rw [s1 hn]
        simp only [Option.bind_none, reduceCtorEq, exists_false, false_iff, false_implies, implies_true, and_true]
        intro h
        have := h t (by simp)
        rw [hn] at this
        cases this
      | some i =>
        obtain ⟨m, hm, he⟩ := s2 i hn
        rw [he]
        simp only [Option.bind_some]
        have hsome : ∀ u ∈ tags ++ [t], (l0.names u.2).isSome = true := by
          intro u hu
          rcases List.mem_append.1 hu with hu | hu
          · exact a.some_ids u hu
          · simp only [List.mem_singleton] at hu
            rw [hu, hn]
            rfl
        refine ⟨⟨fun _ => hsome, fun _ => ⟨_, rfl⟩⟩, ?_⟩
        intro l hl
        cases hl
        refine ⟨a.mats, rfl, ?_, ?_, ?_, hsome, ?_, ?_⟩
        · dsimp only
          rw [a.n, List.length_append]
          rfl
        · dsimp only
          rw [List.length_append, a.len, List.length_append]
          rfl
        · intro id
          dsimp only
          unfold lastName
          rw [List.reverse_append, List.reverse_singleton, List.singleton_append, List.find?_cons]
          by_cases hid : id = t.1
          · subst hid
            simp [hn]
          · rw [if_neg hid]
            have hne : decide (t.1 = id) = false := by simpa using fun h => hid h.symm
            rw [hne]
            exact a.ids id
        · intro id k
          dsimp only
          rw [a.n]
          have hlast : (tags ++ [t])[tags.length]? = some t := by simp
          by_cases hid : id = t.1
          · subst hid
            rw [if_pos rfl, Option.some.injEq]
            constructor
            · rintro rfl
              refine ⟨by simp, ⟨t, hlast, rfl⟩, fun j u hj hu => ?_⟩
              have := (List.getElem?_eq_some_iff.1 hu).1
              simp at this
              omega
            · rintro ⟨hk, _, hno⟩
              by_contra hc
              simp at hk
              exact hno tags.length t (by omega) hlast rfl
          · rw [if_neg hid, a.dense id k]
            constructor
            · rintro ⟨hk, ⟨u, hu, hui⟩, hno⟩
              refine ⟨by simp; omega, ⟨u, by rw [List.getElem?_append_left hk]; exact hu, hui⟩, fun j w hj hw => ?_⟩
              by_cases hjl : j < tags.length
              · rw [List.getElem?_append_left hjl] at hw
                exact hno j w hj hw
              · have hjl' := (List.getElem?_eq_some_iff.1 hw).1
                simp at hjl'
                have : j = tags.length := by omega
                subst this
                rw [hlast] at hw
                cases hw
                exact fun h => hid h.symm
            · rintro ⟨hk, ⟨u, hu, hui⟩, hno⟩
              have hkl : k < tags.length := by
                by_contra hc
                simp at hk
                have : k = tags.length := by omega
                subst this
                rw [hlast] at hu
                cases hu
                exact hid hui.symm
              rw [List.getElem?_append_left hkl] at hu
              refine ⟨hkl, ⟨u, hu, hui⟩, fun j w hj hw => ?_⟩
              have hjl := (List.getElem?_eq_some_iff.1 hw).1
              exact hno j w hj (by rw [List.getElem?_append_left hjl]; exact hw)
        · intro k u hu
          dsimp only
          by_cases hkl : k < tags.length
          · rw [List.getElem?_append_left hkl] at hu
            obtain ⟨m', hm', hb⟩ := a.list k u hu
            exact ⟨m', by rw [List.getElem?_append_left (by rw [a.len]; exact hkl)]; exact hm', hb⟩
          · have hk := (List.getElem?_eq_some_iff.1 hu).1
            simp at hk
            have : k = tags.length := by omega
            subst this
            have hlast : (tags ++ [t])[tags.length]? = some t := by simp
            rw [hlast] at hu
            cases hu
            refine ⟨m, ?_, ?_⟩
            · rw [← a.len]
              simp
            · rw [hn]
              rw [a.mats] at hm
              exact hm

omit [IsStrictOrderedRing K] in
/-- C97: after the tags of the input have been assigned to the materials of a file, which fails exactly if a tag has a name that the file does not have,
an identifier stands for the (last) material of the file with the name that its last tag gives; identifiers without tag are unknown.  The material at
the index of an identifier in the list of assigned materials is the material of the identifier, and `n_materials` is the length of this list. -/
theorem C97_assign (p : Parser K) (ls : List (List Char)) (l0 : Lib K) (h : readFile p ls = some l0) (tags : List (Int × List Char)) :
    ((∃ l, l0.assignAll tags = some l) ↔ ∀ t ∈ tags, ∃ k, k < l0.mats.length ∧ nameAt ls l0.ng k = t.2) ∧
    ∀ l, l0.assignAll tags = some l →
      (∀ id, l.has id = true ↔ ∃ t ∈ tags, t.1 = id) ∧
      (∀ id, l.has id = true → ∃ x k m, lastName tags id = some x ∧ l.byId id = some m ∧ l0.mats[k]? = some m ∧ nameAt ls l0.ng k = x ∧
        ∀ j, k < j → j < l0.mats.length → nameAt ls l0.ng j ≠ x) ∧
      (∀ id, l.has id = false → l.byId id = none ∧ l.indexOf id = none) ∧
      (∀ id, l.has id = true → ∃ i, l.indexOf id = some i ∧ i < l.n ∧ l.assigned[i]? = l.byId id) ∧
      l.n = l.assigned.length ∧ l.n = tags.length := by
  obtain ⟨n, -, -, hlen, -, hnames, e1, e2, e3, e4⟩ := (C97_file p ls).2 l0 h
  have hok : NamesOk l0 := by
    intro x i hx
    rw [hlen]
    exact ((hnames x i).1 hx).1
  have hsome : ∀ x, (l0.names x).isSome = true ↔ ∃ k, k < l0.mats.length ∧ nameAt ls l0.ng k = x := by
    intro x
    rw [hlen, Option.isSome_iff_exists]
    constructor
    · rintro ⟨k, hk⟩
      exact ⟨k, ((hnames x k).1 hk).1, ((hnames x k).1 hk).2.1⟩
    · rintro ⟨k, hk, hx⟩
      have key : ∀ d k, n - k = d → k < n → nameAt ls l0.ng k = x → ∃ j, l0.names x = some j := by
        intro d
        induction d using Nat.strong_induction_on with
        | _ d ih =>
          intro k hd hk hk0
          by_cases hex : ∃ j, k < j ∧ j < n ∧ nameAt ls l0.ng j = x
          · obtain ⟨j, h1, h2, h3⟩ := hex
            exact ih (n - j) (by omega) j rfl h2 h3
          · push Not at hex
            exact ⟨k, (hnames x k).2 ⟨hk, hk0, hex⟩⟩
      exact key _ k rfl hk hx
  obtain ⟨a1, a2⟩ := assignAll_spec l0 hok e1 e2 e3 e4 tags
  refine ⟨?_, ?_⟩
  · rw [a1]
    constructor
    · intro hh t ht
      exact (hsome t.2).1 (hh t ht)
    · intro hh t ht
      exact (hsome t.2).2 (hh t ht)
  intro l hl
  have a := a2 l hl
  have hlast : ∀ id, (∃ t ∈ tags, t.1 = id) ↔ ∃ x, lastName tags id = some x := by
    intro id
    unfold lastName
    constructor
    · rintro ⟨t, ht, hid⟩
      cases hf : tags.reverse.find? (fun t => decide (t.1 = id)) with
      | none =>
        rw [List.find?_eq_none] at hf
        exact absurd hid (by simpa using hf t (List.mem_reverse.2 ht))
      | some u => exact ⟨u.2, rfl⟩
    · rintro ⟨x, hx⟩
      rw [Option.map_eq_some_iff] at hx
      obtain ⟨u, hu, _⟩ := hx
      exact ⟨u, List.mem_reverse.1 (List.mem_of_find?_eq_some hu), by simpa using List.find?_some hu⟩
  have hmem : ∀ id x, lastName tags id = some x → ∃ t ∈ tags, t.2 = x := by
    intro id x hx
    unfold lastName at hx
    rw [Option.map_eq_some_iff] at hx
    obtain ⟨u, hu, hux⟩ := hx
    exact ⟨u, List.mem_reverse.1 (List.mem_of_find?_eq_some hu), hux⟩
  have hhas : ∀ id, l.has id = true ↔ ∃ t ∈ tags, t.1 = id := by
    intro id
    unfold Lib.has
    rw [a.ids, hlast]
    constructor
    · intro hh
      cases hx : lastName tags id with
      | none => rw [hx] at hh; cases hh
      | some x => exact ⟨x, rfl⟩
    · rintro ⟨x, hx⟩
      obtain ⟨t, ht, rfl⟩ := hmem id x hx
      rw [hx]
      exact a.some_ids t ht
  have hdense : ∀ id, l.has id = true → ∃ i, l.indexOf id = some i := by
    intro id hh
    obtain ⟨t, ht, hid⟩ := (hhas id).1 hh
    obtain ⟨i, hi, hti⟩ := List.mem_iff_getElem.1 ht
    have key : ∀ d i, tags.length - i = d → i < tags.length → (∃ t, tags[i]? = some t ∧ t.1 = id) → ∃ j, l.indexOf id = some j := by
      intro d
      induction d using Nat.strong_induction_on with
      | _ d ih =>
        intro i hd hi hti
        by_cases hex : ∃ j u, i < j ∧ tags[j]? = some u ∧ u.1 = id
        · obtain ⟨j, u, h1, h2, h3⟩ := hex
          have hj := (List.getElem?_eq_some_iff.1 h2).1
          exact ih (tags.length - j) (by omega) j rfl hj ⟨u, h2, h3⟩
        · push Not at hex
          exact ⟨i, (a.dense id i).2 ⟨hi, hti, hex⟩⟩
    exact key _ i rfl hi ⟨t, by rw [List.getElem?_eq_getElem hi, hti], hid⟩
  refine ⟨hhas, ?_, ?_, ?_, by rw [a.n, a.len], a.n⟩
  · intro id hh
    obtain ⟨x, hx⟩ := (hlast id).1 ((hhas id).1 hh)
    obtain ⟨t, ht, rfl⟩ := hmem id x hx
    obtain ⟨k, hk⟩ := Option.isSome_iff_exists.1 (a.some_ids t ht)
    have hkl := hok _ _ hk
    refine ⟨t.2, k, l0.mats[k], hx, ?_, List.getElem?_eq_getElem hkl, ((hnames _ _).1 hk).2.1, ?_⟩
    · unfold Lib.byId
      rw [a.ids, hx, Option.bind_some, hk, Option.bind_some, a.mats]
      exact List.getElem?_eq_getElem hkl
    · rw [hlen]
      exact ((hnames _ _).1 hk).2.2
  · intro id hh
    have hno : l.ids id = none := by
      unfold Lib.has at hh
      cases hx : l.ids id with
      | none => rfl
      | some x => rw [hx] at hh; cases hh
    refine ⟨by unfold Lib.byId; rw [hno]; rfl, ?_⟩
    cases hd : l.indexOf id with
    | none => rfl
    | some i =>
      exfalso
      obtain ⟨hi, ⟨t, ht, hid⟩, _⟩ := (a.dense id i).1 hd
      have := (hhas id).2 ⟨t, List.mem_of_getElem? ht, hid⟩
      rw [hh] at this
      cases this
  · intro id hh
    obtain ⟨i, hi⟩ := hdense id hh
    obtain ⟨hlt, ⟨t, ht, hid⟩, hno⟩ := (a.dense id i).1 hi
    refine ⟨i, hi, by rw [a.n]; exact hlt, ?_⟩
    obtain ⟨m, hm, hb⟩ := a.list i t ht
    rw [hm, ← hb]
    unfold Lib.byId
    rw [a.ids, a.mats]
    have hl : lastName tags id = some t.2 := by
      unfold lastName
      have hfind : tags.reverse.find? (fun t => decide (t.1 = id)) = some t := by
        have hsplit : tags = tags.take i ++ t :: tags.drop (i + 1) := by
          have := List.getElem?_eq_some_iff.1 ht
          obtain ⟨h1, h2⟩ := this
          rw [← h2]
          simp
        rw [hsplit, List.reverse_append, List.reverse_cons, List.append_assoc, List.find?_append]
        have hnone : (tags.drop (i + 1)).reverse.find? (fun t => decide (t.1 = id)) = none := by
          rw [List.find?_eq_none]
          intro u hu
          obtain ⟨j, hj⟩ := List.mem_iff_getElem?.1 (List.mem_reverse.1 hu)
          rw [List.getElem?_drop] at hj
          simpa using hno (i + 1 + j) u (by omega) hj
        rw [hnone]
        simp [hid]
      rw [hfind]
      rfl
    rw [hl, Option.bind_some]

/-- C97, the claim on the number of materials: `n_materials` is the number of different identifiers. -/
def C97_count_claim : Prop := ∀ (p : Parser ℚ) (ls : List (List Char)) (l0 l : Lib ℚ) (tags : List (Int × List Char)),
  readFile p ls = some l0 → l0.assignAll tags = some l → l.n = (tags.map (·.1)).dedup.length

omit [IsStrictOrderedRing K] in
/-- C97: true if no identifier is given twice, and then the indices of the identifiers are all numbers below `n_materials`. -/
theorem C97_count_partial (p : Parser K) (ls : List (List Char)) (l0 l : Lib K) (tags : List (Int × List Char)) (h : readFile p ls = some l0)
    (hl : l0.assignAll tags = some l) (hn : (tags.map (·.1)).Nodup) :
    l.n = (tags.map (·.1)).dedup.length ∧ ∀ i, i < l.n → ∃ id, l.indexOf id = some i := by
  obtain ⟨n, -, -, hlen, -, hnames, e1, e2, e3, e4⟩ := (C97_file p ls).2 l0 h
  have hok : NamesOk l0 := by
    intro x i hx
    rw [hlen]
    exact ((hnames x i).1 hx).1
  have a := (assignAll_spec l0 hok e1 e2 e3 e4 tags).2 l hl
  refine ⟨by rw [List.Nodup.dedup hn, a.n, List.length_map], ?_⟩
  intro i hi
  rw [a.n] at hi
  refine ⟨tags[i].1, (a.dense _ i).2 ⟨hi, ⟨tags[i], List.getElem?_eq_getElem hi, rfl⟩, fun j u hj hu hc => ?_⟩⟩
  obtain ⟨hjl, rfl⟩ := List.getElem?_eq_some_iff.1 hu
  have := (List.nodup_iff_injective_get.1 hn)
  have hij := @this ⟨i, by simpa using hi⟩ ⟨j, by simpa using hjl⟩ (by simp [hc])
  simp at hij
  omega

/-- The example with one identifier given twice. -/
def exTags : List (Int × List Char) := [(3, "fuel".toList), (7, "fuel".toList), (3, "fuel".toList)]

def exCount (o : Option (Lib ℚ)) (tags : List (Int × List Char)) : Nat := match o with
  | some l => match l.assignAll tags with
    | some l' => l'.n
    | none => 0
  | none => 0

theorem C97_count_claim_false : ¬ C97_count_claim := by
  intro h
  have hc : exCount (readFile exParser exLines) exTags = 3 := by decide +kernel
  unfold exCount at hc
  cases h0 : readFile exParser exLines with
  | none => rw [h0] at hc; simp at hc
  | some l0 =>
    rw [h0] at hc
    dsimp only at hc
    cases h1 : l0.assignAll exTags with
    | none => rw [h1] at hc; simp at hc
    | some l =>
      rw [h1] at hc
      dsimp only at hc
      have := h exParser exLines l0 l exTags h0 h1
      rw [hc] at this
      exact absurd this (by decide)

def exById (o : Option (Lib ℚ)) (tags : List (Int × List Char)) (id : Int) : Option (List ℚ) := match o with
  | some l => match l.assignAll tags with
    | some l' => (l'.byId id).map (·.tr)
    | none => none
  | none => none

example : exById (readFile exParser exLines) exTags 7 = some [8] ∧ exById (readFile exParser exLines) exTags 4 = none := by decide +kernel

example : normChi ([1, 0, 3] : List ℚ) = [1/4, 0, 3/4] := by decide +kernel

end Verif.Mat
