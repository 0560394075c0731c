import Verif.Mc.BankModel
import Verif.Rng.Props
import Mathlib.Data.List.Perm.Subperm
import Mathlib.Data.List.Nodup
import Mathlib.Tactic.IntervalCases

/-! # C41, C42: the fission bank -/

namespace Verif.Mc

open Verif.Rng

variable {α : Type}

/-! ## C41 -/

theorem set_dropLast_subperm (l : List α) (b : α) (hb : l.getLast? = some b) (i : Nat) (hi : i < l.length) :
    ((l.set i b).dropLast).Subperm l := by
  obtain ⟨ini, rfl⟩ : ∃ ini, l = ini ++ [b] := by
    refine ⟨l.dropLast, ?_⟩
    have hne : l ≠ [] := by intro h; subst h; simp at hb
    have := List.dropLast_append_getLast hne
    rw [List.getLast?_eq_some_getLast hne] at hb
    rw [← this]
    simp only [Option.some.injEq] at hb
    simp [hb]
  rcases Nat.lt_or_ge i ini.length with h | h
  · rw [List.set_append_left _ _ h, List.dropLast_concat]
    refine (List.set_perm_cons_eraseIdx h b).subperm.trans ?_
    refine List.Subperm.trans ?_ (List.perm_append_comm (l₁ := [b]) (l₂ := ini)).subperm
    exact ((List.eraseIdx_sublist ini i).cons_cons b).subperm
  · have hi' : i = ini.length := by simp at hi; omega
    subst hi'
    rw [List.set_append_right _ _ (Nat.le_refl _)]
    simp only [Nat.sub_self, List.set_cons_zero, List.dropLast_concat]
    exact (List.sublist_append_left ini [b]).subperm

theorem shrinkLoop_spec (k : Nat) (s : U64) (l : List α) (s' : U64) (r : List α) (h : shrinkLoop k s l = .ok (s', r)) :
    r.length + k = l.length ∧ r.Subperm l ∧ s' = step^[k] s := by
  induction k generalizing s l with
  | zero =>
    simp only [shrinkLoop, Out.ok.injEq, Prod.mk.injEq] at h
    obtain ⟨rfl, rfl⟩ := h
    exact ⟨rfl, List.Subperm.refl _, rfl⟩
  | succ k ih =>
    simp only [shrinkLoop] at h
    cases hb : l.getLast? with
    | none => simp [hb] at h
    | some b =>
      simp only [hb] at h
      by_cases hi : randomInt s l.length < l.length
      · rw [if_pos hi] at h
        obtain ⟨h1, h2, h3⟩ := ih _ _ h
        rw [List.length_dropLast, List.length_set] at h1
        refine ⟨by omega, h2.trans (set_dropLast_subperm l b hb _ hi), ?_⟩
        rw [h3, Function.iterate_succ_apply]
      · rw [if_neg hi] at h; exact absurd h (by simp)

theorem growLoop_spec (n nOrig : Nat) (s : U64) (l0 l : List α) (s' : U64) (r : List α) (hl : l.length ≤ n)
    (hsub : ∀ x ∈ l, x ∈ l0) (h : growLoop n nOrig s l = .ok (s', r)) :
    r.length = n ∧ (∃ extra, r = l ++ extra ∧ ∀ x ∈ extra, x ∈ l0) ∧ s' = step^[n - l.length] s := by
  generalize hm : n - l.length = m
  induction m generalizing s l with
  | zero =>
    rw [growLoop, if_neg (by omega)] at h
    simp only [Out.ok.injEq, Prod.mk.injEq] at h
    obtain ⟨rfl, rfl⟩ := h
    exact ⟨by omega, ⟨[], by simp⟩, rfl⟩
  | succ m ih =>
    rw [growLoop, if_pos (by omega)] at h
    cases hp : l[randomInt s nOrig]? with
    | none => simp [hp] at h
    | some p =>
      simp only [hp] at h
      have hpl : p ∈ l := List.mem_of_getElem? hp
      obtain ⟨h1, ⟨e, he, hx⟩, h3⟩ := ih (step s) (l ++ [p]) (by simp; omega)
        (by intro x hx; rcases List.mem_append.mp hx with h | h
            · exact hsub x h
            · rw [List.mem_singleton.mp h]; exact hsub p hpl) h (by simp; omega)
      refine ⟨h1, ⟨p :: e, by rw [he]; simp, ?_⟩, ?_⟩
      · intro x hx'
        rcases List.mem_cons.mp hx' with h | h
        · rw [h]; exact hsub p hpl
        · exact hx x h
      · rw [h3, Function.iterate_succ_apply]

/-- C41 (shrinking): whatever the generator returns, when `resize(n)` completes there are exactly `n` sites, and with
multiplicities they are among the original ones; one draw is consumed per removed site. -/
theorem C41_shrink_partial (n : Nat) (s s' : U64) (l r : List α) (hn : n ≤ l.length) (h : resize n s l = .ok (s', r)) :
    r.length = n ∧ r.Subperm l ∧ s' = step^[l.length - n] s := by
  unfold resize at h
  rw [if_neg (by omega)] at h
  by_cases hlt : n < l.length
  · simp only [hlt, if_true] at h
    obtain ⟨h1, h2, h3⟩ := shrinkLoop_spec _ _ _ _ _ h
    exact ⟨by omega, h2, h3⟩
  · simp only [hlt, if_false, Out.ok.injEq, Prod.mk.injEq] at h
    obtain ⟨rfl, rfl⟩ := h
    have : l.length - n = 0 := by omega
    exact ⟨by omega, List.Subperm.refl _, by rw [this]; rfl⟩

/-- C41 (growing): whatever the generator returns, when `resize(n)` completes there are exactly `n` sites, the
original ones come first and unchanged, and each addition is a copy of an original. -/
theorem C41_grow_partial (n : Nat) (s s' : U64) (l r : List α) (hn : l.length ≤ n) (h : resize n s l = .ok (s', r)) :
    r.length = n ∧ (∃ extra, r = l ++ extra ∧ ∀ x ∈ extra, x ∈ l) ∧ s' = step^[n - l.length] s := by
  unfold resize at h
  by_cases hgt : n > l.length
  · rw [if_pos hgt] at h
    cases hg : growLoop n l.length s l with
    | ok q =>
      obtain ⟨s1, l1⟩ := q
      simp only [hg] at h
      obtain ⟨h1, h2, h3⟩ := growLoop_spec n l.length s l l s1 l1 (by omega) (fun _ h => h) hg
      rw [if_neg (by omega)] at h
      simp only [Out.ok.injEq, Prod.mk.injEq] at h
      obtain ⟨rfl, rfl⟩ := h
      exact ⟨h1, h2, h3⟩
    | throw => simp [hg] at h
    | ub => simp [hg] at h
  · rw [if_neg hgt] at h
    have e : n = l.length := by omega
    subst e
    simp only [Nat.lt_irrefl, if_false, Out.ok.injEq, Prod.mk.injEq] at h
    obtain ⟨rfl, rfl⟩ := h
    exact ⟨rfl, ⟨[], by simp⟩, by simp⟩

theorem growLoop_choice (n nOrig : Nat) (s : U64) (l0 : List α) (hn : nOrig = l0.length) (ex : List α) (s' : U64)
    (r : List α) (h : growLoop n nOrig s (l0 ++ ex) = .ok (s', r)) (hi : ∀ k, randomInt (step^[k] s) nOrig < nOrig) (k : Nat)
    (hk : l0.length + ex.length + k < n) :
    r[l0.length + ex.length + k]? = l0[randomInt (step^[k] s) l0.length]? := by
  generalize hm : n - (l0 ++ ex).length = m
  induction m generalizing s ex k with
  | zero => rw [List.length_append] at hm; omega
  | succ m ih =>
    rw [List.length_append] at hm
    rw [growLoop, if_pos (by rw [List.length_append]; omega)] at h
    cases hp : (l0 ++ ex)[randomInt s nOrig]? with
    | none => simp [hp] at h
    | some p =>
      simp only [hp] at h
      have h0 : randomInt s nOrig < nOrig := hi 0
      rw [List.append_assoc] at h
      have hlen : (ex ++ [p]).length = ex.length + 1 := by simp
      have hs : ∀ k, randomInt (step^[k] (step s)) nOrig < nOrig := by
        intro k
        have := hi (k + 1)
        rwa [Function.iterate_succ_apply] at this
      cases k with
      | zero =>
        obtain ⟨h1, ⟨e, he, -⟩, -⟩ := growLoop_spec n nOrig (step s) (l0 ++ (ex ++ [p])) (l0 ++ (ex ++ [p])) s' r
          (by rw [List.length_append, hlen]; omega) (fun _ h => h) h
        rw [he, Nat.add_zero, List.getElem?_append_left (by rw [List.length_append, hlen]; omega),
          List.getElem?_append_right (by omega), Nat.add_sub_cancel_left, List.getElem?_append_right (Nat.le_refl _),
          Nat.sub_self, List.getElem?_cons_zero, ← hp, hn, List.getElem?_append_left (by rw [← hn]; exact h0)]
        rfl
      | succ k =>
        have := ih (step s) (ex ++ [p]) h hs k (by rw [hlen]; omega) (by rw [List.length_append, hlen]; omega)
        rw [hlen] at this
        rw [Function.iterate_succ_apply, ← this]
        congr 1
        omega

/-- C41 (growing): the `k`-th added site is the original site whose number is the `k`-th draw of
`random_int(number of original sites)`, so every original site can be chosen and an added one never is. -/
theorem C41_grow_choice (n : Nat) (s s' : U64) (l r : List α) (h : resize n s l = .ok (s', r))
    (hi : ∀ k, randomInt (step^[k] s) l.length < l.length) (k : Nat) (hk : l.length + k < n) :
    r[l.length + k]? = l[randomInt (step^[k] s) l.length]? := by
  unfold resize at h
  rw [if_pos (by omega)] at h
  cases hg : growLoop n l.length s l with
  | ok q =>
    obtain ⟨s1, l1⟩ := q
    simp only [hg] at h
    obtain ⟨h1, h2, h3⟩ := growLoop_spec n l.length s l l s1 l1 (by omega) (fun _ h => h) hg
    rw [if_neg (by omega)] at h
    simp only [Out.ok.injEq, Prod.mk.injEq] at h
    obtain ⟨rfl, rfl⟩ := h
    have := growLoop_choice n l.length s l rfl [] s1 l1 (by rw [List.append_nil]; exact hg) hi k (by simpa using hk)
    simpa using this
  | throw => simp [hg] at h
  | ub => simp [hg] at h

/-- C41 (shrinking): removing one site takes out the one whose number was drawn; the last site moves to its place and
all others stay where they are. -/
theorem C41_shrink_one (s s' : U64) (l r : List α) (hl : 0 < l.length) (h : resize (l.length - 1) s l = .ok (s', r)) :
    randomInt s l.length < l.length ∧ ∀ j, j < l.length - 1 →
      r[j]? = if j = randomInt s l.length then l[l.length - 1]? else l[j]? := by
  unfold resize at h
  have e1 : ¬ (l.length - 1 > l.length) := by omega
  have e2 : l.length - 1 < l.length := by omega
  have e3 : l.length - (l.length - 1) = 0 + 1 := by omega
  rw [if_neg e1] at h
  simp only [e2, if_true, e3, shrinkLoop] at h
  cases hb : l.getLast? with
  | none => simp [hb] at h
  | some b =>
    simp only [hb] at h
    by_cases hi : randomInt s l.length < l.length
    · rw [if_pos hi] at h
      simp only [Out.ok.injEq, Prod.mk.injEq] at h
      obtain ⟨-, rfl⟩ := h
      refine ⟨hi, fun j hj => ?_⟩
      rw [List.getElem?_dropLast, if_pos (by rw [List.length_set]; exact hj), List.getElem?_set]
      rw [List.getLast?_eq_getElem?] at hb
      by_cases hji : j = randomInt s l.length
      · rw [if_pos hji.symm, if_pos hji, hb, if_pos (by omega)]
      · rw [if_neg (Ne.symm hji), if_neg hji]
    · rw [if_neg hi] at h; exact absurd h (by simp)

theorem resize_shrink (n : Nat) (s : U64) (l : List α) (hn : n ≤ l.length) :
    resize n s l = shrinkLoop (l.length - n) s l := by
  unfold resize
  rw [if_neg (by omega)]
  by_cases h : n < l.length
  · simp only [h, if_true]
  · simp only [h, if_false]
    rw [show l.length - n = 0 by omega, shrinkLoop]

theorem shrinkLoop_one (k : Nat) (s : U64) (l : List α) (s' : U64) (r : List α) (h : shrinkLoop 1 s l = .ok (s', r)) :
    shrinkLoop (k + 1) s l = shrinkLoop k s' r := by
  rw [shrinkLoop] at h
  rw [shrinkLoop]
  cases hb : l.getLast? with
  | none => simp [hb] at h
  | some b =>
    simp only [hb] at h ⊢
    by_cases hi : randomInt s l.length < l.length
    · rw [if_pos hi, shrinkLoop] at h
      simp only [Out.ok.injEq, Prod.mk.injEq] at h
      rw [if_pos hi, h.1, h.2]
    · rw [if_neg hi] at h; exact absurd h (by simp)

/-- C41 (shrinking): removing several sites is removing one after the other. -/
theorem C41_shrink_steps (n : Nat) (s s' : U64) (l r : List α) (hn : n < l.length)
    (h : resize (l.length - 1) s l = .ok (s', r)) : resize n s l = resize n s' r := by
  have hl := (C41_shrink_partial _ _ _ _ _ (by omega) h).1
  rw [resize_shrink _ _ _ (by omega), show l.length - (l.length - 1) = 1 by omega] at h
  rw [resize_shrink _ _ _ (by omega), resize_shrink _ _ _ (by omega), ← shrinkLoop_one (r.length - n) s l s' r h]
  congr 1
  omega

/-- State `s` is one whose draw is below one after rounding (all but 512 of the 2^63 states, C03). -/
def GoodDraw (s : U64) : Prop := (step s).toNat < 2 ^ 63 - 512

/-- C41: on a non-empty bank `resize` completes whenever none of the draws it makes is one of the 512 states for which
`random()` returns one.  What is missing from the full claim: those states, where it is false. -/
theorem C41_completes_partial (n : Nat) (s : U64) (l : List α) (hl : 0 < l.length) (hb : l.length < 2 ^ 31)
    (hs : ∀ k, k < (l.length - n) + (n - l.length) → GoodDraw (step^[k] s)) : ∃ r, resize n s l = .ok r := by
  have grow : ∀ (m : Nat) (s : U64) (l' : List α), n - l'.length = m → l.length ≤ l'.length →
      (∀ k, k < m → GoodDraw (step^[k] s)) → ∃ r, growLoop n l.length s l' = .ok r := by
    intro m
    induction m with
    | zero => intro s l' hm _ _; rw [growLoop, if_neg (by omega)]; exact ⟨_, rfl⟩
    | succ m ih =>
      intro s l' hm hle hs
      rw [growLoop, if_pos (by omega)]
      have hi : randomInt s l.length < l.length := C03_random_int_partial s _ hl hb (hs 0 (by omega))
      obtain ⟨p, hp⟩ : ∃ p, l'[randomInt s l.length]? = some p :=
        ⟨_, List.getElem?_eq_getElem (by omega)⟩
      rw [hp]
      refine ih (step s) (l' ++ [p]) (by simp; omega) (by simp; omega) ?_
      intro k hk
      have := hs (k + 1) (by omega)
      rwa [Function.iterate_succ_apply] at this
  have shrink : ∀ (m : Nat) (s : U64) (l' : List α), m ≤ l'.length → l'.length < 2 ^ 31 →
      (∀ k, k < m → GoodDraw (step^[k] s)) → ∃ r, shrinkLoop m s l' = .ok r := by
    intro m
    induction m with
    | zero => intro s l' _ _ _; exact ⟨_, rfl⟩
    | succ m ih =>
      intro s l' hm hlt hs
      have hne : l' ≠ [] := by intro h; subst h; simp at hm
      have hi : randomInt s l'.length < l'.length :=
        C03_random_int_partial s _ (by omega) hlt (hs 0 (by omega))
      simp only [shrinkLoop, List.getLast?_eq_some_getLast hne, if_pos hi]
      refine ih (step s) _ (by simp; omega) (by simp; omega) ?_
      intro k hk
      have := hs (k + 1) (by omega)
      rwa [Function.iterate_succ_apply] at this
  unfold resize
  by_cases hgt : n > l.length
  · obtain ⟨⟨s1, l1⟩, hr⟩ := grow (n - l.length) s l rfl (Nat.le_refl _) (fun k hk => hs k (by omega))
    obtain ⟨h1, -, -⟩ := growLoop_spec n l.length s l l s1 l1 (by omega) (fun _ h => h) hr
    simp only [hgt, if_true, hr, h1, Nat.lt_irrefl, if_false]
    exact ⟨_, rfl⟩
  · rw [if_neg hgt]
    by_cases hlt : n < l.length
    · simp only [hlt, if_true]
      exact shrink _ s l (by omega) hb (fun k hk => hs k (by omega))
    · simp only [hlt, if_false]; exact ⟨_, rfl⟩

/-- The full claim: `resize` of a non-empty bank always completes, with the right sites. -/
def C41_claim : Prop := ∀ (l : List Nat) (n : Nat) (s : U64), 0 < l.length → l.length < 2 ^ 31 →
  ∃ s' r, resize n s l = .ok (s', r) ∧ r.length = n ∧
    (n ≤ l.length → r.Subperm l) ∧ (l.length ≤ n → ∃ extra, r = l ++ extra ∧ ∀ x ∈ extra, x ∈ l)

/-- C41: from every seed there is a point in the random sequence at which enlarging or reducing a bank of any size is
undefined behaviour (an access one past the end of the vector). -/
theorem C41_out_of_bounds (seed : U64) (l : List α) (hl : 0 < l.length) (hb : l.length < 2 ^ 31) :
    ∃ i < 2 ^ 63, ∀ n, n ≠ l.length → resize n (step^[i] seed) l = .ub := by
  obtain ⟨i, hi, h⟩ := C03_random_int_reaches_bound seed l.length hl hb
  refine ⟨i, hi, fun n hn => ?_⟩
  unfold resize
  by_cases hgt : n > l.length
  · rw [if_pos hgt, growLoop, if_pos hgt, h, List.getElem?_eq_none (Nat.le_refl _)]
  · rw [if_neg hgt]
    have hlt : n < l.length := by omega
    have hne : l ≠ [] := by intro h; subst h; simp at hl
    obtain ⟨m, hm⟩ : ∃ m, l.length - n = m + 1 := ⟨l.length - n - 1, by omega⟩
    simp only [hlt, if_true, hm, shrinkLoop, List.getLast?_eq_some_getLast hne, h, Nat.lt_irrefl, if_false]

theorem C41_claim_false : ¬ C41_claim := by
  intro h
  obtain ⟨i, -, hi⟩ := C41_out_of_bounds 1#64 [7, 8] (by decide) (by decide)
  obtain ⟨s', r, hr, -⟩ := h [7, 8] 1 (step^[i] 1#64) (by decide) (by decide)
  rw [hi 1 (by decide)] at hr
  exact absurd hr (by simp)

/-- C41: an empty bank (a cycle without fission) cannot be resized: the first access is outside the vector. -/
theorem C41_empty_undefined (n : Nat) (s : U64) (hn : 0 < n) : resize n s ([] : List α) = .ub := by
  unfold resize
  rw [if_pos (by simpa using hn), growLoop, if_pos (by simpa using hn)]
  simp

/-- The hypotheses are satisfiable: both directions from a concrete state. -/
example : ∃ a b, resize 2 1#64 [10, 11, 12, 13] = .ok (step^[2] 1#64, [a, b]) := by
  obtain ⟨⟨s', r⟩, hr⟩ := C41_completes_partial 2 1#64 [10, 11, 12, 13] (by decide) (by decide)
    (by intro k hk
        have : k < 2 := by simpa using hk
        unfold GoodDraw
        interval_cases k <;> decide +kernel)
  obtain ⟨h1, -, h3⟩ := C41_shrink_partial 2 1#64 s' _ r (by decide) hr
  match r, h1 with
  | [a, b], _ => exact ⟨a, b, by rw [hr, h3]; rfl⟩

example : ∃ a b, resize 4 1#64 [10, 11] = .ok (step^[2] 1#64, [10, 11, a, b]) ∧ a ∈ [10, 11] ∧ b ∈ [10, 11] := by
  obtain ⟨⟨s', r⟩, hr⟩ := C41_completes_partial 4 1#64 [10, 11] (by decide) (by decide)
    (by intro k hk
        have : k < 2 := by simpa using hk
        unfold GoodDraw
        interval_cases k <;> decide +kernel)
  obtain ⟨h1, ⟨e, rfl, he⟩, h3⟩ := C41_grow_partial 4 1#64 s' _ r (by decide) hr
  have h1' : e.length = 2 := by simpa using h1
  match e, h1' with
  | [a, b], _ => exact ⟨a, b, by rw [hr, h3]; rfl, he a (by simp), he b (by simp)⟩

end Verif.Mc
