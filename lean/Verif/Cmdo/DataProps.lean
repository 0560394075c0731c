import Verif.Cmdo.DataModel
import Mathlib.Tactic.Ring
import Mathlib.Tactic.Linarith
import Mathlib.Data.List.Nodup
import Mathlib.Data.List.Range
import Mathlib.Algebra.Order.Ring.Int

/-!
# C93: correction factors in files
-/

namespace Verif.Cmdo.Data

variable {K : Type}

/-- First plane of a tag. -/
def Bot (t : Tag K) : Int := t.bottom.getD 0

/-- Last plane of a tag: the top of the core if it is not given. -/
def Top (sz : Size) (t : Tag K) : Int := t.top.getD (sz.np - 1)

/-- The tag is for plane `p`. -/
def Covers (sz : Size) (t : Tag K) (p : Nat) : Prop := Bot t ≤ p ∧ (p : Int) ≤ Top sz t

/-- The file has values for all cells of one plane in every group and angle. -/
def Complete (sz : Size) (f : File K) : Prop :=
  ∀ k g a, g < sz.ng → a < sz.nang → ∃ d, f k g a = some d ∧ d.vals.length = sz.nx * sz.ny

theorem cell_in {n p q j : Nat} (hj : j < n) : (n * q ≤ n * p + j ∧ n * p + j ≤ n * (q + 1) - 1) ↔ p = q := by
  have hn : 0 < n := by omega
  constructor
  · rintro ⟨h1, h2⟩
    have h3 : n * p + j < n * (q + 1) := by
      have : 0 < n * (q + 1) := Nat.mul_pos hn (by omega)
      omega
    have h4 : q < p + 1 := by
      by_contra h
      have : n * (p + 1) ≤ n * q := Nat.mul_le_mul_left n (by omega)
      rw [Nat.mul_add] at this
      omega
    have h5 : p < q + 1 := by
      by_contra h
      have : n * (q + 1) ≤ n * p := Nat.mul_le_mul_left n (by omega)
      omega
    omega
  · rintro rfl
    rw [Nat.mul_add]
    omega

theorem copy_fold (n : Nat) (buf : List K) (old : Nat → K) (b m p j : Nat) (hj : j < n) (hb : buf.length = n) :
    (List.range m).foldl
      (fun f i =>
        let stt := n * (b + i)
        let stp := n * (b + i + 1) - 1
        fun c => if stt ≤ c ∧ c ≤ stp then (buf[c - stt]?).getD (f c) else f c) old (n * p + j) =
    if b ≤ p ∧ p < b + m then buf[j]'(by omega) else old (n * p + j) := by
  induction m with
  | zero => simp
  | succ m ih =>
    rw [List.range_succ, List.foldl_append]
    simp only [List.foldl_cons, List.foldl_nil] at ih ⊢
    by_cases hp : p = b + m
    · subst hp
      rw [if_pos ((cell_in hj).2 rfl), if_pos (by omega)]
      have : n * (b + m) + j - n * (b + m) = j := by omega
      rw [this, List.getElem?_eq_getElem (by omega)]
      rfl
    · rw [if_neg (fun h => hp ((cell_in hj).1 h)), ih]
      by_cases hq : b ≤ p ∧ p < b + m
      · rw [if_pos hq, if_pos (by omega)]
      · rw [if_neg hq, if_neg (by omega)]

theorem copyPlanes_spec (n : Nat) (buf : List K) (old : Nat → K) (b t : Int) (h0 : 0 ≤ b) (p j : Nat) (hj : j < n) (hb : buf.length = n) :
    copyPlanes n buf old b t (n * p + j) = if b ≤ p ∧ (p : Int) ≤ t then buf[j]'(by omega) else old (n * p + j) := by
  unfold copyPlanes
  rw [copy_fold n buf old _ _ p j hj hb]
  by_cases h : b ≤ p ∧ (p : Int) ≤ t
  · rw [if_pos h, if_pos (by omega)]
  · rw [if_neg h, if_neg (by omega)]

theorem mem_steps (sz : Size) (k : Kind) (g a : Nat) : (k, g, a) ∈ steps sz ↔ g < sz.ng ∧ a < sz.nang := by
  unfold steps
  simp only [List.mem_flatMap, List.mem_range]
  constructor
  · rintro ⟨g', hg, a', ha, h⟩
    cases k <;> simp at h <;> omega
  · rintro ⟨hg, ha⟩
    exact ⟨g, hg, a, ha, by cases k <;> simp⟩

/-- All steps on a file: possible exactly if every dataset is there with the right number of values; then each entry is overwritten in the planes
from `b` to `t`. -/
theorem fold_steps (sz : Size) (f : File K) (b t : Int) (h0 : 0 ≤ b) (l : List (Kind × Nat × Nat)) (s : Factors K) :
    ((∃ s', l.foldlM (fun s x => readOne sz f b t s x.1 x.2.1 x.2.2) s = some s') ↔
      ∀ x ∈ l, ∃ d, f x.1 x.2.1 x.2.2 = some d ∧ d.vals.length = sz.nx * sz.ny) ∧
    ∀ s', l.foldlM (fun s x => readOne sz f b t s x.1 x.2.1 x.2.2) s = some s' → ∀ k g a p j, j < sz.nx * sz.ny →
      s' k g a (sz.nx * sz.ny * p + j) = if (k, g, a) ∈ l ∧ b ≤ p ∧ (p : Int) ≤ t then
        (((f k g a).map (·.vals)).getD [])[j]?.getD (s k g a (sz.nx * sz.ny * p + j)) else s k g a (sz.nx * sz.ny * p + j) := by
  induction l generalizing s with
  | nil => simp
  | cons x l ih =>
    rw [List.foldlM_cons]
    cases hx : readOne sz f b t s x.1 x.2.1 x.2.2 with
    | none =>
      constructor
      · simp only [Option.bind_eq_bind, Option.bind_none, reduceCtorEq, exists_false, false_iff]
        intro h
        obtain ⟨d, hd, hl⟩ := h x (by simp)
        rw [readOne] at hx
        simp [hd, hl] at hx
      · intro s' h
        cases h
    | some s1 =>
      obtain ⟨d, hd, hl, hs1⟩ : ∃ d, f x.1 x.2.1 x.2.2 = some d ∧ d.vals.length = sz.nx * sz.ny ∧ s1 = fun k' g' a' =>
          if k' = x.1 ∧ g' = x.2.1 ∧ a' = x.2.2 then copyPlanes (sz.nx * sz.ny) d.vals (s x.1 x.2.1 x.2.2) b t else s k' g' a' := by
        rw [readOne] at hx
        cases hd : f x.1 x.2.1 x.2.2 with
        | none => simp [hd] at hx
        | some d =>
          simp only [hd] at hx
          by_cases hl : d.vals.length = sz.nx * sz.ny
          · rw [if_neg (by simpa using hl)] at hx
            exact ⟨d, rfl, hl, (Option.some.inj hx).symm⟩
          · simp [hl] at hx
      simp only [Option.bind_eq_bind, Option.bind_some]
      constructor
      · rw [(ih s1).1]
        constructor
        · intro h y hy
          rcases List.mem_cons.1 hy with rfl | hy
          · exact ⟨d, hd, hl⟩
          · exact h y hy
        · intro h y hy
          exact h y (List.mem_cons_of_mem _ hy)
      · intro s' h k g a p j hj
        have h2 := (ih s1).2 s' h k g a p j hj
        rw [h2]
        have hs : s1 k g a (sz.nx * sz.ny * p + j) = if (k, g, a) = x ∧ b ≤ p ∧ (p : Int) ≤ t then
            (((f k g a).map (·.vals)).getD [])[j]?.getD (s k g a (sz.nx * sz.ny * p + j)) else s k g a (sz.nx * sz.ny * p + j) := by
          rw [hs1]
          dsimp only
          by_cases he : k = x.1 ∧ g = x.2.1 ∧ a = x.2.2
          · obtain ⟨rfl, rfl, rfl⟩ := he
            rw [if_pos ⟨rfl, rfl, rfl⟩, copyPlanes_spec _ _ _ _ _ h0 _ _ hj hl]
            by_cases hp : b ≤ p ∧ (p : Int) ≤ t
            · rw [if_pos hp, if_pos ⟨rfl, hp⟩, hd]
              simp [List.getElem?_eq_getElem (show j < d.vals.length by omega)]
            · rw [if_neg hp, if_neg (fun h => hp h.2)]
          · rw [if_neg he, if_neg]
            rintro ⟨rfl, _⟩
            exact he ⟨rfl, rfl, rfl⟩
        by_cases hp : b ≤ p ∧ (p : Int) ≤ t
        · by_cases hm : (k, g, a) ∈ l
          · rw [if_pos ⟨hm, hp⟩, if_pos ⟨List.mem_cons_of_mem _ hm, hp⟩, hs]
            by_cases he : (k, g, a) = x
            · rw [if_pos ⟨he, hp⟩]
              cases (((f k g a).map (·.vals)).getD [])[j]? <;> rfl
            · rw [if_neg (fun h => he h.1)]
          · rw [if_neg (fun h => hm h.1), hs]
            by_cases he : (k, g, a) = x
            · rw [if_pos ⟨he, hp⟩, if_pos ⟨by rw [he]; simp, hp⟩]
            · rw [if_neg (fun h => he h.1), if_neg]
              rintro ⟨h1, _⟩
              rcases List.mem_cons.1 h1 with h1 | h1
              · exact he h1
              · exact hm h1
        · rw [if_neg (fun h => hp h.2), hs, if_neg (fun h => hp h.2), if_neg (fun h => hp h.2)]

/-- One file for the planes from `b` to `t`. -/
theorem readSingle_spec (sz : Size) (tag : Tag K) (b t : Int) (h0 : 0 ≤ b) (s : Factors K) :
    ((∃ s', readSingle sz tag b t s = some s') ↔ Bot tag = b ∧ Top sz tag = t ∧ ∃ f, tag.file = some f ∧ Complete sz f) ∧
    ∀ s', readSingle sz tag b t s = some s' → ∀ (k : Kind) (g a p j : Nat), j < sz.nx * sz.ny → g < sz.ng → a < sz.nang →
      ((b ≤ p ∧ (p : Int) ≤ t → ∀ f d, tag.file = some f → f k g a = some d → d.vals[j]? = some (s' k g a (sz.nx * sz.ny * p + j))) ∧
       (¬ (b ≤ p ∧ (p : Int) ≤ t) → s' k g a (sz.nx * sz.ny * p + j) = s k g a (sz.nx * sz.ny * p + j))) := by
  unfold readSingle
  dsimp only
  change ((∃ s', (if Bot tag ≠ b ∨ Top sz tag ≠ t then none else _) = some s') ↔ _) ∧ ∀ s', (if Bot tag ≠ b ∨ Top sz tag ≠ t then none else _) = some s' → _
  by_cases hb : Bot tag ≠ b ∨ Top sz tag ≠ t
  · simp only [if_pos hb]
    constructor
    · constructor
      · rintro ⟨s', h⟩
        cases h
      · rintro ⟨h1, h2, _⟩
        rcases hb with hb | hb
        · exact absurd h1 hb
        · exact absurd h2 hb
    · intro s' h
      cases h
  · simp only [if_neg hb]
    push Not at hb
    cases hf : tag.file with
    | none =>
      constructor
      · simp
      · intro s' h
        cases h
    | some f =>
      dsimp only
      obtain ⟨h1, h2⟩ := fold_steps sz f b t h0 (steps sz) s
      constructor
      · rw [h1]
        constructor
        · intro h
          refine ⟨hb.1, hb.2, f, rfl, fun k g a hg ha => ?_⟩
          exact h (k, g, a) ((mem_steps sz k g a).2 ⟨hg, ha⟩)
        · rintro ⟨_, _, f', hf', hc⟩ ⟨k, g, a⟩ hx
          cases hf'
          obtain ⟨hg, ha⟩ := (mem_steps sz k g a).1 hx
          exact hc k g a hg ha
      · intro s' h k g a p j hj hg ha
        have h3 := h2 s' h k g a p j hj
        have hm := (mem_steps sz k g a).2 ⟨hg, ha⟩
        constructor
        · intro hp f' d hf' hd
          cases hf'
          rw [if_pos ⟨hm, hp⟩, hd] at h3
          obtain ⟨d', hd', hl⟩ := h1.1 ⟨s', h⟩ _ hm
          dsimp only at hd'
          rw [hd] at hd'
          cases hd'
          rw [h3]
          simp [List.getElem?_eq_getElem (show j < d.vals.length by omega)]
        · intro hp
          rw [h3, if_neg (fun h => hp h.2)]

theorem mark_fold (m : List Nat) (b n : Nat) :
    ((∃ m', (List.range n).foldlM (fun m i => if b + i ∈ m then none else some (m ++ [b + i])) m = some m') ↔ ∀ i < n, b + i ∉ m) ∧
    ∀ m', (List.range n).foldlM (fun m i => if b + i ∈ m then none else some (m ++ [b + i])) m = some m' →
      ∀ p, p ∈ m' ↔ p ∈ m ∨ (b ≤ p ∧ p < b + n) := by
  induction n with
  | zero => simp
  | succ n ih =>
    rw [List.range_succ, List.foldlM_append]
    cases hx : (List.range n).foldlM (fun m i => if b + i ∈ m then none else some (m ++ [b + i])) m with
    | none =>
      rw [hx] at ih
      constructor
      · simp only [Option.bind_eq_bind, Option.bind_none, reduceCtorEq, exists_false, false_iff]
        intro h
        obtain ⟨m', hm'⟩ := ih.1.2 (fun i hi => h i (by omega))
        cases hm'
      · intro m' h
        cases h
    | some m1 =>
      rw [hx] at ih
      have hm1 := ih.2 m1 rfl
      have hall := ih.1.1 ⟨m1, rfl⟩
      have hiff : b + n ∈ m1 ↔ b + n ∈ m := by
        rw [hm1]
        constructor
        · rintro (h | h)
          · exact h
          · omega
        · exact Or.inl
      simp only [List.foldlM_cons, List.foldlM_nil, Option.bind_eq_bind, Option.bind_some]
      by_cases hb : b + n ∈ m1
      · simp only [if_pos hb, Option.bind_none, reduceCtorEq, exists_false, false_iff, false_implies, implies_true, and_true]
        intro h
        exact h n (by omega) (hiff.1 hb)
      · simp only [if_neg hb, Option.bind_some]
        constructor
        · constructor
          · intro _ i hi
            by_cases hin : i = n
            · subst hin
              exact fun h => hb (hiff.2 h)
            · exact hall i (by omega)
          · intro _
            exact ⟨_, rfl⟩
        · rintro m' h p
          cases h
          rw [List.mem_append, hm1, List.mem_singleton]
          constructor
          · rintro ((h | h) | h)
            · exact Or.inl h
            · exact Or.inr (by omega)
            · exact Or.inr (by omega)
          · rintro (h | h)
            · exact Or.inl (Or.inl h)
            · by_cases hp : p = b + n
              · exact Or.inr hp
              · exact Or.inl (Or.inr (by omega))

theorem mark_spec (m : List Nat) (b t : Int) (h0 : 0 ≤ b) :
    ((∃ m', mark m b t = some m') ↔ ∀ p : Nat, b ≤ p → (p : Int) ≤ t → p ∉ m) ∧
    ∀ m', mark m b t = some m' → ∀ p : Nat, p ∈ m' ↔ p ∈ m ∨ (b ≤ p ∧ (p : Int) ≤ t) := by
  unfold mark
  obtain ⟨h1, h2⟩ := mark_fold m b.toNat (t + 1 - b).toNat
  constructor
  · rw [h1]
    constructor
    · intro h p hb ht
      have := h (p - b.toNat) (by omega)
      rwa [show b.toNat + (p - b.toNat) = p by omega] at this
    · intro h i hi
      exact h _ (by omega) (by omega)
  · intro m' h p
    rw [h2 m' h p]
    constructor
    · rintro (h | h)
      · exact Or.inl h
      · exact Or.inr (by omega)
    · rintro (h | h)
      · exact Or.inl h
      · exact Or.inr (by omega)

/-- The bounds of a tag are planes and there is a file. -/
def Bounds (sz : Size) (t : Tag K) : Prop :=
  (0 ≤ Bot t ∧ Bot t < sz.np) ∧ (0 ≤ Top sz t ∧ Top sz t < sz.np) ∧ t.file.isSome = true

/-- No plane belongs to both tags. -/
def Apart (sz : Size) (t u : Tag K) : Prop := ∀ p : Nat, ¬ (Covers sz t p ∧ Covers sz u p)

theorem validate_spec (sz : Size) (m : List Nat) (t : Tag K) :
    ((∃ m', validate sz m t = some m') ↔ Bounds sz t ∧ ∀ p, Covers sz t p → p ∉ m) ∧
    ∀ m', validate sz m t = some m' → ∀ p : Nat, p ∈ m' ↔ p ∈ m ∨ Covers sz t p := by
  unfold validate
  dsimp only
  change ((∃ m', (if Bot t < 0 ∨ (sz.np : Int) ≤ Bot t then none else if Top sz t < 0 ∨ (sz.np : Int) ≤ Top sz t then none else
    if t.file.isNone then none else mark m (Bot t) (Top sz t)) = some m') ↔ _) ∧ ∀ m', (if Bot t < 0 ∨ (sz.np : Int) ≤ Bot t then none else
    if Top sz t < 0 ∨ (sz.np : Int) ≤ Top sz t then none else if t.file.isNone then none else mark m (Bot t) (Top sz t)) = some m' → _
  by_cases h1 : Bot t < 0 ∨ (sz.np : Int) ≤ Bot t
  · simp only [if_pos h1, reduceCtorEq, exists_false, false_iff, false_implies, implies_true, and_true]
    rintro ⟨⟨h, _⟩, _⟩
    omega
  by_cases h2 : Top sz t < 0 ∨ (sz.np : Int) ≤ Top sz t
  · simp only [if_neg h1, if_pos h2, reduceCtorEq, exists_false, false_iff, false_implies, implies_true, and_true]
    rintro ⟨⟨_, h, _⟩, _⟩
    omega
  by_cases h3 : t.file.isNone = true
  · simp only [if_neg h1, if_neg h2, if_pos h3, reduceCtorEq, exists_false, false_iff, false_implies, implies_true, and_true]
    rintro ⟨⟨_, _, h⟩, _⟩
    simp_all
  · simp only [if_neg h1, if_neg h2, if_neg h3]
    have hb : Bounds sz t := ⟨by omega, by omega, by
      cases hf : t.file with
      | none => simp [hf] at h3
      | some f => rfl⟩
    obtain ⟨k1, k2⟩ := mark_spec m (Bot t) (Top sz t) (by omega)
    constructor
    · rw [k1]
      constructor
      · intro h
        exact ⟨hb, fun p hp => h p hp.1 hp.2⟩
      · rintro ⟨_, h⟩ p h1 h2
        exact h p ⟨h1, h2⟩
    · exact k2

theorem validate_all (sz : Size) (m : List Nat) (tags : List (Tag K)) :
    (∃ m', tags.foldlM (validate sz) m = some m') ↔ (∀ t ∈ tags, Bounds sz t ∧ ∀ p, Covers sz t p → p ∉ m) ∧ tags.Pairwise (Apart sz) := by
  induction tags generalizing m with
  | nil => simp
  | cons t tags ih =>
    rw [List.foldlM_cons]
    obtain ⟨v1, v2⟩ := validate_spec sz m t
    cases hv : validate sz m t with
    | none =>
      simp only [Option.bind_eq_bind, Option.bind_none, reduceCtorEq, exists_false, false_iff]
      rintro ⟨h, _⟩
      obtain ⟨m', hm'⟩ := v1.2 (h t (by simp))
      rw [hv] at hm'
      cases hm'
    | some m1 =>
      simp only [Option.bind_eq_bind, Option.bind_some]
      rw [ih m1, List.pairwise_cons]
      have hm1 := v2 m1 hv
      have ht := v1.1 ⟨m1, hv⟩
      constructor
      · rintro ⟨h1, h2⟩
        refine ⟨?_, ?_, h2⟩
        · intro u hu
          rcases List.mem_cons.1 hu with rfl | hu
          · exact ht
          · exact ⟨(h1 u hu).1, fun p hp hpm => (h1 u hu).2 p hp ((hm1 p).2 (Or.inl hpm))⟩
        · intro u hu p hp
          exact (h1 u hu).2 p hp.2 ((hm1 p).2 (Or.inr hp.1))
      · rintro ⟨h1, h2, h3⟩
        refine ⟨fun u hu => ⟨(h1 u (List.mem_cons_of_mem _ hu)).1, fun p hp hpm => ?_⟩, h3⟩
        rcases (hm1 p).1 hpm with h | h
        · exact (h1 u (List.mem_cons_of_mem _ hu)).2 p hp h
        · exact h2 u hu p ⟨h, hp⟩

/-- What one tag needs to be read. -/
def Readable (sz : Size) (t : Tag K) : Prop :=
  Bounds sz t ∧ (t.top = none → sz.np = 1) ∧ ∃ f, t.file = some f ∧ Complete sz f

theorem top_eq (sz : Size) (t : Tag K) (hb : Bounds sz t) : Top sz t = t.top.getD 0 ↔ (t.top = none → sz.np = 1) := by
  unfold Top
  obtain ⟨_, h, _⟩ := hb
  unfold Top at h
  cases ht : t.top with
  | none => simp [ht] at h ⊢; omega
  | some x => simp

theorem read_all (sz : Size) (tags : List (Tag K)) (s : Factors K) (hb : ∀ t ∈ tags, Bounds sz t) :
    (∃ s', tags.foldlM (fun s t => readSingle sz t (t.bottom.getD 0) (t.top.getD 0) s) s = some s') ↔ ∀ t ∈ tags, Readable sz t := by
  induction tags generalizing s with
  | nil => simp
  | cons t tags ih =>
    rw [List.foldlM_cons]
    have hbt := hb t (by simp)
    obtain ⟨r1, r2⟩ := readSingle_spec sz t (t.bottom.getD 0) (t.top.getD 0) hbt.1.1 s
    have hr : (∃ s', readSingle sz t (t.bottom.getD 0) (t.top.getD 0) s = some s') ↔ Readable sz t := by
      rw [r1, top_eq sz t hbt]
      constructor
      · rintro ⟨_, h1, h2⟩
        exact ⟨hbt, h1, h2⟩
      · rintro ⟨_, h1, h2⟩
        exact ⟨rfl, h1, h2⟩
    cases hv : readSingle sz t (t.bottom.getD 0) (t.top.getD 0) s with
    | none =>
      simp only [Option.bind_eq_bind, Option.bind_none, reduceCtorEq, exists_false, false_iff]
      intro h
      obtain ⟨s', hs'⟩ := hr.2 (h t (by simp))
      rw [hv] at hs'
      cases hs'
    | some s1 =>
      simp only [Option.bind_eq_bind, Option.bind_some]
      rw [ih s1 (fun u hu => hb u (List.mem_cons_of_mem _ hu))]
      simp only [List.mem_cons, forall_eq_or_imp]
      constructor
      · intro h
        exact ⟨hr.1 ⟨s1, hv⟩, h⟩
      · exact fun h => h.2

/-- C93: several tags are accepted exactly if every tag has planes of the core as its bounds, a file with values for one plane in every group and
angle, and an explicit `top_plane` unless there is only one macroplane, and no plane belongs to two tags. -/
theorem C93_accepted (sz : Size) (tags : List (Tag K)) (s : Factors K) :
    (∃ s', readMulti sz tags s = some s') ↔ (∀ t ∈ tags, Readable sz t) ∧ tags.Pairwise (Apart sz) := by
  unfold readMulti
  have hv := validate_all sz [] tags
  cases h : tags.foldlM (validate sz) [] with
  | none =>
    simp only [reduceCtorEq, exists_false, false_iff]
    rintro ⟨h1, h2⟩
    obtain ⟨m', hm'⟩ := hv.2 ⟨fun t ht => ⟨(h1 t ht).1, by simp⟩, h2⟩
    rw [h] at hm'
    cases hm'
  | some m =>
    have hv' := hv.1 ⟨m, h⟩
    dsimp only
    rw [read_all sz tags s (fun t ht => (hv'.1 t ht).1)]
    exact ⟨fun h => ⟨h, hv'.2⟩, fun h => h.1⟩

theorem values_all (sz : Size) (tags : List (Tag K)) (s s' : Factors K) (hb : ∀ t ∈ tags, Readable sz t) (ha : tags.Pairwise (Apart sz))
    (h : tags.foldlM (fun s t => readSingle sz t (t.bottom.getD 0) (t.top.getD 0) s) s = some s')
    (k : Kind) (g a p j : Nat) (hj : j < sz.nx * sz.ny) (hg : g < sz.ng) (hang : a < sz.nang) :
    (∀ t ∈ tags, Covers sz t p → ∀ f d, t.file = some f → f k g a = some d → d.vals[j]? = some (s' k g a (sz.nx * sz.ny * p + j))) ∧
    ((∀ t ∈ tags, ¬ Covers sz t p) → s' k g a (sz.nx * sz.ny * p + j) = s k g a (sz.nx * sz.ny * p + j)) := by
  induction tags generalizing s with
  | nil =>
    cases h
    simp
  | cons t tags ih =>
    rw [List.foldlM_cons] at h
    have hbt := hb t (by simp)
    have htop : Top sz t = t.top.getD 0 := (top_eq sz t hbt.1).2 hbt.2.1
    obtain ⟨r1, r2⟩ := readSingle_spec sz t (t.bottom.getD 0) (t.top.getD 0) hbt.1.1.1 s
    cases hv : readSingle sz t (t.bottom.getD 0) (t.top.getD 0) s with
    | none => simp [hv] at h
    | some s1 =>
      simp only [hv, Option.bind_eq_bind, Option.bind_some] at h
      rw [List.pairwise_cons] at ha
      obtain ⟨i1, i2⟩ := ih s1 (fun u hu => hb u (List.mem_cons_of_mem _ hu)) ha.2 h
      obtain ⟨v1, v2⟩ := r2 s1 hv k g a p j hj hg hang
      have hcov : Covers sz t p ↔ t.bottom.getD 0 ≤ (p : Int) ∧ (p : Int) ≤ t.top.getD 0 := by
        unfold Covers
        rw [htop]
        rfl
      constructor
      · intro u hu hp f d hf hd
        rcases List.mem_cons.1 hu with rfl | hu
        · have hno : ∀ w ∈ tags, ¬ Covers sz w p := fun w hw hwp => ha.1 w hw p ⟨hp, hwp⟩
          rw [i2 hno]
          exact v1 (hcov.1 hp) f d hf hd
        · exact i1 u hu hp f d hf hd
      · intro hno
        rw [i2 (fun u hu => hno u (List.mem_cons_of_mem _ hu))]
        exact v2 (fun hc => hno t (by simp) (hcov.2 hc))

/-- C93: after reading several tags every plane of a tag has the values of its file, cell by cell, for every kind, group and angle, whatever the
order of the tags; planes without a tag keep their values. -/
theorem C93_values (sz : Size) (tags : List (Tag K)) (s s' : Factors K) (h : readMulti sz tags s = some s')
    (k : Kind) (g a p j : Nat) (hj : j < sz.nx * sz.ny) (hg : g < sz.ng) (hang : a < sz.nang) :
    (∀ t ∈ tags, Covers sz t p → ∀ f d, t.file = some f → f k g a = some d → d.vals[j]? = some (s' k g a (sz.nx * sz.ny * p + j))) ∧
    ((∀ t ∈ tags, ¬ Covers sz t p) → s' k g a (sz.nx * sz.ny * p + j) = s k g a (sz.nx * sz.ny * p + j)) := by
  obtain ⟨h1, h2⟩ := (C93_accepted sz tags s).1 ⟨s', h⟩
  unfold readMulti at h
  cases hv : tags.foldlM (validate sz) [] with
  | none => simp [hv] at h
  | some m =>
    simp only [hv] at h
    exact values_all sz tags s s' h1 h2 h k g a p j hj hg hang

/-- A file as HDF5 has it: each dataset has as many values as its dimensions say. -/
def Proper (f : File K) : Prop := ∀ k g a d, f k g a = some d → d.vals.length = d.dims.prod

/-- C93: what becomes of one tag: undefined behaviour exactly if the first dataset has fewer than three dimensions; otherwise, for a proper file
with a plane more than one and the shape of the whole core, an exception. -/
theorem C93_whole_core (sz : Size) (t : Tag K) (f : File K) (s : Factors K) (hf : t.file = some f) (hp : Proper f) (d : Dataset K)
    (hd : f .alphaX 0 0 = some d) :
    ((fromData sz [t] s = .ub) ↔ d.dims.length < 3) ∧
    (d.dims = [sz.np, sz.ny, sz.nx] → 1 < sz.np → 0 < sz.nx * sz.ny → 0 < sz.ng → 0 < sz.nang → fromData sz [t] s = .throws) := by
  unfold fromData
  simp only [hf, hd]
  constructor
  · rcases hdd : d.dims with _ | ⟨d0, _ | ⟨d1, _ | ⟨d2, rest⟩⟩⟩
    · simp
    · simp
    · simp
    · dsimp only
      have : ¬ (d0 :: d1 :: d2 :: rest).length < 3 := by simp
      simp only [this, iff_false]
      split
      · cases readSingle sz t 0 ((sz.np : Int) - 1) s <;> simp
      · cases readMulti sz [t] s <;> simp
  · intro hdims h1 hn hg ha
    simp only [hdims, and_self, if_true]
    cases hr : readSingle sz t 0 ((sz.np : Int) - 1) s with
    | none => rfl
    | some s' =>
      obtain ⟨_, _, f', hf', hc⟩ := (readSingle_spec sz t 0 ((sz.np : Int) - 1) (le_refl 0) s).1.1 ⟨s', hr⟩
      rw [hf] at hf'
      cases hf'
      obtain ⟨d', hd', hl⟩ := hc .alphaX 0 0 hg ha
      rw [hd] at hd'
      cases hd'
      have := hp _ _ _ _ hd
      rw [hdims] at this
      simp only [List.prod_cons, List.prod_nil, mul_one] at this
      rw [hl] at this
      exfalso
      have h2 : sz.np * (sz.ny * sz.nx) = sz.np * (sz.nx * sz.ny) := by ring
      rw [h2] at this
      nlinarith

/-- C93, the claim: what `output` has written can be read back into an object of the same size, and gives the same factors. -/
def C93_claim (K : Type) : Prop := ∀ (sz : Size) (s s0 : Factors K), 0 < sz.nx * sz.ny → 0 < sz.np → 0 < sz.ng → 0 < sz.nang →
  ∃ s', fromData sz [⟨some (output sz s), none, none⟩] s0 = .ok s' ∧
    ∀ k g a c, g < sz.ng → a < sz.nang → c < sz.nx * sz.ny * sz.np → s' k g a c = s k g a c

/-- C93: true for one macroplane. -/
theorem C93_round_trip_partial (sz : Size) (s s0 : Factors K) (hn : 0 < sz.nx * sz.ny) (hp : sz.np = 1) (hg : 0 < sz.ng) (ha : 0 < sz.nang) :
    ∃ s', fromData sz [⟨some (output sz s), none, none⟩] s0 = .ok s' ∧
      ∀ k g a c, g < sz.ng → a < sz.nang → c < sz.nx * sz.ny * sz.np → s' k g a c = s k g a c := by
  have hc : Complete sz (output sz s) := by
    intro k g a hg ha
    exact ⟨_, by rw [output, if_pos ⟨hg, ha⟩], by simp [hp]⟩
  obtain ⟨r1, r2⟩ := readSingle_spec sz ⟨some (output sz s), none, none⟩ 0 ((sz.np : Int) - 1) (le_refl 0) s0
  obtain ⟨s', hs'⟩ := r1.2 ⟨rfl, rfl, _, rfl, hc⟩
  refine ⟨s', ?_, ?_⟩
  · unfold fromData
    simp only [output, if_pos (And.intro hg ha), and_self, if_true]
    rw [hs']
  · intro k g a c hg ha hlt
    have hc' : c < sz.nx * sz.ny := by simpa [hp] using hlt
    have h := (r2 s' hs' k g a 0 c hc' hg ha).1 (by simp [hp]) (output sz s)
      ⟨[sz.np, sz.ny, sz.nx], (List.range (sz.nx * sz.ny * sz.np)).map fun c : Nat => s k g a c⟩ rfl (by rw [output, if_pos ⟨hg, ha⟩])
    simp only [mul_zero, zero_add] at h
    rw [List.getElem?_map, List.getElem?_range hlt] at h
    simpa using h.symm

/-- C93 is false for every core of two macroplanes: reading what has been written throws. -/
theorem C93_two_planes (sz : Size) (s s0 : Factors K) (hn : 0 < sz.nx * sz.ny) (hp : 1 < sz.np) (hg : 0 < sz.ng) (ha : 0 < sz.nang) :
    fromData sz [⟨some (output sz s), none, none⟩] s0 = .throws := by
  refine (C93_whole_core sz _ (output sz s) s0 rfl ?_ ⟨[sz.np, sz.ny, sz.nx], (List.range (sz.nx * sz.ny * sz.np)).map fun c : Nat => s .alphaX 0 0 c⟩
    (by rw [output, if_pos ⟨hg, ha⟩])).2 rfl hp hn hg ha
  intro k g a d hd
  rw [output] at hd
  split at hd
  · cases hd
    simp
    ring
  · cases hd

theorem C93_claim_false [Inhabited K] : ¬ C93_claim K := by
  intro h
  obtain ⟨s', hs', _⟩ := h ⟨1, 1, 2, 1, 1⟩ (fun _ _ _ _ => default) (fun _ _ _ _ => default) (by decide) (by decide) (by decide) (by decide)
  rw [C93_two_planes _ _ _ (by decide) (by decide) (by decide) (by decide)] at hs'
  cases hs'

/-- C93: a tag without `top_plane` is rejected in every core of several macroplanes if it is one of several tags, also if its planes, up to the
top of the core, are fine. -/
theorem C93_top_missing (sz : Size) (tags : List (Tag K)) (s : Factors K) (t : Tag K) (ht : t ∈ tags) (htop : t.top = none) (hp : 1 < sz.np) :
    readMulti sz tags s = none := by
  cases h : readMulti sz tags s with
  | none => rfl
  | some s' =>
    have := ((C93_accepted sz tags s).1 ⟨s', h⟩).1 t ht
    have := this.2.1 htop
    omega

/-- C93: without a tag nothing changes, and more than one tag is read by `read_data_multi`. -/
theorem C93_dispatch (sz : Size) (s s' : Factors K) (t u : Tag K) (tags : List (Tag K)) :
    fromData sz [] s = .ok s ∧ (fromData sz (t :: u :: tags) s = .ok s' ↔ readMulti sz (t :: u :: tags) s = some s') ∧
      fromData sz (t :: u :: tags) s ≠ .ub := by
  refine ⟨rfl, ?_, ?_⟩
  · simp only [fromData]
    cases readMulti sz (t :: u :: tags) s <;> simp
  · simp only [fromData]
    cases readMulti sz (t :: u :: tags) s <;> simp

/-! ### Examples -/

/-- A file for one plane of two cells with one group and one angle. -/
def exFile (x y : Nat) : File Nat := fun _ g a => if g < 1 ∧ a < 1 then some ⟨[1, 1, 2], [x, y]⟩ else none

def exTags : List (Tag Nat) := [⟨some (exFile 5 6), some 2, some 2⟩, ⟨some (exFile 7 8), none, some 1⟩]

def exValues : Option (List Nat) :=
  (readMulti ⟨2, 1, 4, 1, 1⟩ exTags (fun _ _ _ _ => 0)).map fun s => (List.range 8).map fun c : Nat => s .beta 0 0 c

example : exValues = some [7, 8, 7, 8, 5, 6, 0, 0] := by decide

example : Readable ⟨2, 1, 4, 1, 1⟩ (⟨some (exFile 5 6), some 2, some 2⟩ : Tag Nat) := by
  refine ⟨?_, by simp, exFile 5 6, rfl, ?_⟩
  · simp [Bounds, Bot, Top]
  · intro k g a hg ha
    exact ⟨_, by rw [exFile, if_pos ⟨hg, ha⟩], rfl⟩

end Verif.Cmdo.Data
