import Verif.XS.MapModel
import Mathlib.Data.List.Nodup
import Mathlib.Algebra.Order.Group.Int
import Mathlib.Algebra.Order.Ring.Int
import Mathlib.Data.List.Count
import Mathlib.Algebra.BigOperators.Group.List.Basic

/-!
# C24: each flat source region belongs to exactly one cross-section region
-/

namespace Verif.XS

/-- The material filling each flat source region, in the order in which regions are numbered: pin after pin, within a
pin cross-section region after cross-section region. -/
def filling (pins : List Pin) : List Int :=
  pins.flatMap fun pin => pin.flatMap fun m => List.replicate m.2 m.1

/-- Positions of a material in a list of fillings. -/
def positions (L : List Int) (k : Int) : List Nat := (List.range L.length).filter fun i => L[i]? = some k

theorem mem_positions (L : List Int) (k : Int) (i : Nat) : i ∈ positions L k ↔ L[i]? = some k := by
  unfold positions
  rw [List.mem_filter, List.mem_range, decide_eq_true_eq]
  constructor
  · exact fun h => h.2
  · intro h
    refine ⟨?_, h⟩
    by_contra hc
    rw [List.getElem?_eq_none (by omega)] at h
    exact absurd h (by simp)

theorem positions_append_same (L : List Int) (k : Int) : positions (L ++ [k]) k = positions L k ++ [L.length] := by
  unfold positions
  rw [List.length_append, List.length_singleton, List.range_succ, List.filter_append]
  congr 1
  · apply List.filter_congr
    intro i hi
    rw [List.mem_range] at hi
    rw [List.getElem?_append_left hi]
  · simp

theorem positions_append_other (L : List Int) (k k' : Int) (h : k ≠ k') : positions (L ++ [k']) k = positions L k := by
  unfold positions
  rw [List.length_append, List.length_singleton, List.range_succ, List.filter_append]
  have : List.filter (fun i => decide ((L ++ [k'])[i]? = some k)) [L.length] = [] := by
    simp [Ne.symm h]
  rw [this, List.append_nil]
  apply List.filter_congr
  intro i hi
  rw [List.mem_range] at hi
  rw [List.getElem?_append_left hi]

/-- What the map holds after the fillings `L` have been entered. -/
def Holds (m : FsrMap) (L : List Int) : Prop :=
  m.Pairwise (fun a b => a.1 < b.1) ∧ (∀ e ∈ m, e.2 = positions L e.1 ∧ e.1 ∈ L) ∧ (∀ k ∈ L, ∃ e ∈ m, e.1 = k)

theorem mem_push_iff (m : FsrMap) (k : Int) (r : Nat) (hs : m.Pairwise (fun a b => a.1 < b.1)) (e : Int × List Nat) :
    e ∈ m.push k r ↔ (e.1 ≠ k ∧ e ∈ m) ∨ (e.1 = k ∧ ((∃ v, (k, v) ∈ m ∧ e.2 = v ++ [r]) ∨ ((∀ e' ∈ m, e'.1 ≠ k) ∧ e.2 = [r]))) := by
  induction m with
  | nil =>
    simp only [FsrMap.push, List.mem_singleton, List.not_mem_nil, and_false, false_or, false_and, exists_false,
      false_implies, implies_true, true_and]
    constructor
    · rintro rfl; exact ⟨rfl, rfl⟩
    · rintro ⟨h1, h2⟩; exact Prod.ext h1 h2
  | cons a t ih =>
    obtain ⟨k', v⟩ := a
    rw [List.pairwise_cons] at hs
    have iht := ih hs.2
    simp only [FsrMap.push]
    by_cases h1 : k = k'
    · subst h1
      rw [if_pos rfl]
      have hnot : ∀ v', (k, v') ∉ t := fun v' hv => absurd (hs.1 _ hv) (lt_irrefl _)
      have hne : ∀ e' ∈ t, e'.1 ≠ k := fun e' he => (hs.1 e' he).ne'
      constructor
      · intro he
        rcases List.mem_cons.mp he with rfl | he
        · exact Or.inr ⟨rfl, Or.inl ⟨v, List.mem_cons_self, rfl⟩⟩
        · exact Or.inl ⟨hne e he, List.mem_cons_of_mem _ he⟩
      · rintro (⟨h1, h2⟩ | ⟨h1, h2 | h2⟩)
        · rcases List.mem_cons.mp h2 with rfl | h2
          · exact absurd rfl h1
          · exact List.mem_cons_of_mem _ h2
        · obtain ⟨v', hv', he⟩ := h2
          rcases List.mem_cons.mp hv' with h | h
          · have : v' = v := by simpa using congrArg Prod.snd h
            subst this
            exact List.mem_cons.mpr (Or.inl (Prod.ext h1 he))
          · exact absurd h (hnot v')
        · exact absurd rfl (h2.1 _ List.mem_cons_self)
    · rw [if_neg h1]
      by_cases h2 : k < k'
      · rw [if_pos h2]
        have hne : ∀ e' ∈ (k', v) :: t, e'.1 ≠ k := by
          intro e' he
          rcases List.mem_cons.mp he with rfl | he
          · exact Ne.symm h1
          · exact (lt_trans h2 (hs.1 _ he)).ne'
        constructor
        · intro he
          rcases List.mem_cons.mp he with rfl | he
          · exact Or.inr ⟨rfl, Or.inr ⟨hne, rfl⟩⟩
          · exact Or.inl ⟨hne e he, he⟩
        · rintro (⟨q1, q2⟩ | ⟨q1, q2 | q2⟩)
          · exact List.mem_cons_of_mem _ q2
          · obtain ⟨v', hv', he⟩ := q2
            exact absurd rfl (hne _ hv')
          · exact List.mem_cons.mpr (Or.inl (Prod.ext q1 q2.2))
      · rw [if_neg h2, List.mem_cons, iht]
        constructor
        · rintro (rfl | ⟨q1, q2⟩ | ⟨q1, q2 | q2⟩)
          · exact Or.inl ⟨Ne.symm h1, List.mem_cons_self⟩
          · exact Or.inl ⟨q1, List.mem_cons_of_mem _ q2⟩
          · obtain ⟨v', hv', he⟩ := q2
            exact Or.inr ⟨q1, Or.inl ⟨v', List.mem_cons_of_mem _ hv', he⟩⟩
          · refine Or.inr ⟨q1, Or.inr ⟨?_, q2.2⟩⟩
            intro e' he'
            rcases List.mem_cons.mp he' with rfl | he'
            · exact Ne.symm h1
            · exact q2.1 e' he'
        · rintro (⟨q1, q2⟩ | ⟨q1, q2 | q2⟩)
          · rcases List.mem_cons.mp q2 with q2 | q2
            · exact Or.inl q2
            · exact Or.inr (Or.inl ⟨q1, q2⟩)
          · obtain ⟨v', hv', he⟩ := q2
            rcases List.mem_cons.mp hv' with h | h
            · exact absurd (congrArg Prod.fst h) h1
            · exact Or.inr (Or.inr ⟨q1, Or.inl ⟨v', h, he⟩⟩)
          · exact Or.inr (Or.inr ⟨q1, Or.inr ⟨fun e' he' => q2.1 e' (List.mem_cons_of_mem _ he'), q2.2⟩⟩)

theorem push_sorted (m : FsrMap) (k : Int) (r : Nat) (hs : m.Pairwise (fun a b => a.1 < b.1)) :
    (m.push k r).Pairwise (fun a b => a.1 < b.1) := by
  induction m with
  | nil => exact List.pairwise_singleton _ _
  | cons a t ih =>
    obtain ⟨k', v⟩ := a
    rw [List.pairwise_cons] at hs
    simp only [FsrMap.push]
    by_cases h1 : k = k'
    · rw [if_pos h1, List.pairwise_cons]; exact ⟨hs.1, hs.2⟩
    · rw [if_neg h1]
      by_cases h2 : k < k'
      · rw [if_pos h2, List.pairwise_cons]
        refine ⟨?_, List.pairwise_cons.mpr hs⟩
        intro e he
        rcases List.mem_cons.mp he with rfl | he
        · exact h2
        · exact lt_trans h2 (hs.1 _ he)
      · rw [if_neg h2, List.pairwise_cons]
        refine ⟨?_, ih hs.2⟩
        intro e he
        rw [mem_push_iff t k r hs.2] at he
        rcases he with ⟨-, he⟩ | ⟨he, -⟩
        · exact hs.1 _ he
        · rw [he]; show k' < k; omega

theorem holds_push (m : FsrMap) (L : List Int) (k : Int) (h : Holds m L) : Holds (m.push k L.length) (L ++ [k]) := by
  obtain ⟨hs, hv, hc⟩ := h
  refine ⟨push_sorted m k _ hs, ?_, ?_⟩
  · intro e he
    rw [mem_push_iff m k _ hs] at he
    rcases he with ⟨q1, q2⟩ | ⟨q1, q2 | q2⟩
    · rw [positions_append_other L e.1 k q1]
      exact ⟨(hv e q2).1, List.mem_append_left _ (hv e q2).2⟩
    · obtain ⟨v, hv', he⟩ := q2
      rw [q1, positions_append_same]
      have hvv : v = positions L k := (hv _ hv').1
      exact ⟨by rw [he, hvv], by simp⟩
    · rw [q1, positions_append_same]
      refine ⟨?_, by simp⟩
      have : positions L k = [] := by
        rw [List.eq_nil_iff_forall_not_mem]
        intro i hi
        rw [mem_positions] at hi
        obtain ⟨e', he', hk⟩ := hc k (List.mem_of_getElem? hi)
        exact q2.1 e' he' hk
      rw [this, q2.2]; rfl
  · intro k' hk'
    by_cases hkk : k' = k
    · subst hkk
      by_cases hin : ∃ e ∈ m, e.1 = k'
      · obtain ⟨e, he, hek⟩ := hin
        exact ⟨(k', e.2 ++ [L.length]), (mem_push_iff m k' _ hs _).mpr (Or.inr ⟨rfl, Or.inl ⟨e.2, by rw [← hek]; exact he, rfl⟩⟩), rfl⟩
      · exact ⟨(k', [L.length]), (mem_push_iff m k' _ hs _).mpr (Or.inr ⟨rfl, Or.inr ⟨fun e he hk => hin ⟨e, he, hk⟩, rfl⟩⟩), rfl⟩
    · have : k' ∈ L := by
        rcases List.mem_append.mp hk' with h | h
        · exact h
        · exact absurd (by simpa using h) hkk
      obtain ⟨e, he, hek⟩ := hc k' this
      exact ⟨e, (mem_push_iff m k _ hs e).mpr (Or.inl ⟨by rw [hek]; exact hkk, he⟩), hek⟩

theorem holds_inner (k : Int) (n : Nat) (acc : FsrMap × Nat) (L : List Int) (h : Holds acc.1 L) (hn : acc.2 = L.length) :
    Holds ((List.range n).foldl (fun (acc : FsrMap × Nat) _ => (acc.1.push k acc.2, acc.2 + 1)) acc).1 (L ++ List.replicate n k) ∧
    ((List.range n).foldl (fun (acc : FsrMap × Nat) _ => (acc.1.push k acc.2, acc.2 + 1)) acc).2 = (L ++ List.replicate n k).length := by
  induction n with
  | zero => simpa using ⟨h, hn⟩
  | succ n ih =>
    rw [List.range_succ, List.foldl_append, List.replicate_succ', ← List.append_assoc]
    simp only [List.foldl_cons, List.foldl_nil]
    refine ⟨?_, ?_⟩
    · rw [ih.2]; exact holds_push _ _ _ ih.1
    · rw [ih.2]; simp only [List.length_append, List.length_singleton]

theorem holds_pin (pin : Pin) (acc : FsrMap × Nat) (L : List Int) (h : Holds acc.1 L) (hn : acc.2 = L.length) :
    let r := pin.foldl (fun acc m =>
      (List.range m.2).foldl (fun (acc : FsrMap × Nat) _ => (acc.1.push m.1 acc.2, acc.2 + 1)) acc) acc
    Holds r.1 (L ++ pin.flatMap fun m => List.replicate m.2 m.1) ∧
    r.2 = (L ++ pin.flatMap fun m => List.replicate m.2 m.1).length := by
  induction pin generalizing acc L with
  | nil => simpa using ⟨h, hn⟩
  | cons m t ih =>
    have := holds_inner m.1 m.2 acc L h hn
    have := ih _ _ this.1 this.2
    simpa only [List.foldl_cons, List.flatMap_cons, List.append_assoc] using this

theorem holds_all (pins : List Pin) : Holds (fsrMap pins).1 (filling pins) ∧ (fsrMap pins).2 = (filling pins).length := by
  suffices H : ∀ (acc : FsrMap × Nat) (L : List Int), Holds acc.1 L → acc.2 = L.length →
      let r := pins.foldl (fun acc pin => pin.foldl (fun acc m =>
        (List.range m.2).foldl (fun (acc : FsrMap × Nat) _ => (acc.1.push m.1 acc.2, acc.2 + 1)) acc) acc) acc
      Holds r.1 (L ++ filling pins) ∧ r.2 = (L ++ filling pins).length by
    have := H ([], 0) [] ⟨List.Pairwise.nil, by simp, by simp⟩ rfl
    unfold fsrMap
    simpa using this
  induction pins with
  | nil => intro acc L h hn; simpa [filling] using ⟨h, hn⟩
  | cons p t ih =>
    intro acc L h hn
    have := holds_pin p acc L h hn
    have := ih _ _ this.1 this.2
    simpa only [List.foldl_cons, filling, List.flatMap_cons, List.append_assoc] using this

variable {M : Type}

theorem regions_eq (lib : Int → M) (pins : List Pin) :
    regions lib pins = (fsrMap pins).1.map fun e => { mat := lib e.1, regs := e.2 } := by
  unfold regions
  apply List.ext_getElem
  · simp
  · intro i h1 h2
    simp only [List.length_map, List.length_range] at h1
    simp [h1]

/-- C24: every flat source region is listed exactly once in exactly one cross-section region, and that region carries
the cross sections of the material filling it. -/
theorem C24_exactly_one (lib : Int → M) (pins : List Pin) (i : Nat) (hi : i < (filling pins).length) :
    ∃ x, ∃ hx : x < (regions lib pins).length,
      (regions lib pins)[x].regs.count i = 1 ∧ (regions lib pins)[x].mat = lib (filling pins)[i] ∧
      ∀ y, (hy : y < (regions lib pins).length) → i ∈ (regions lib pins)[y].regs → y = x := by
  obtain ⟨⟨hs, hv, hc⟩, -⟩ := holds_all pins
  obtain ⟨e, he, hek⟩ := hc (filling pins)[i] (List.getElem_mem hi)
  obtain ⟨x, hx, hxe⟩ := List.mem_iff_getElem.mp he
  have hlen : (regions lib pins).length = (fsrMap pins).1.length := by rw [regions_eq]; simp
  have hget : ∀ y, (hy : y < (regions lib pins).length) →
      (regions lib pins)[y] = { mat := lib ((fsrMap pins).1[y]'(by rw [← hlen]; exact hy)).1, regs := ((fsrMap pins).1[y]'(by rw [← hlen]; exact hy)).2 } := by
    intro y hy; simp only [regions_eq, List.getElem_map]
  refine ⟨x, by rw [hlen]; exact hx, ?_, ?_, ?_⟩
  · rw [hget, hxe]
    show e.2.count i = 1
    rw [(hv e he).1]
    apply List.count_eq_one_of_mem
    · exact List.Nodup.filter _ List.nodup_range
    · rw [mem_positions, hek, List.getElem?_eq_getElem hi]
  · rw [hget, hxe, hek]
  · intro y hy hmem
    rw [hget] at hmem
    have hy' : y < (fsrMap pins).1.length := by rw [← hlen]; exact hy
    have hmem' : i ∈ ((fsrMap pins).1[y]).2 := hmem
    rw [(hv _ (List.getElem_mem hy')).1, mem_positions, List.getElem?_eq_getElem hi, Option.some.injEq] at hmem'
    rcases Nat.lt_trichotomy y x with h | h | h
    · have := List.pairwise_iff_getElem.mp hs y x hy' hx h
      rw [hxe, hek, hmem'] at this
      exact absurd this (lt_irrefl _)
    · exact h
    · have := List.pairwise_iff_getElem.mp hs x y hx hy' h
      rw [hxe, hek, hmem'] at this
      exact absurd this (lt_irrefl _)

/-- C24: nothing but flat source regions is listed. -/
theorem C24_only (lib : Int → M) (pins : List Pin) (x : XsRegion M) (hx : x ∈ regions lib pins) (i : Nat)
    (hi : i ∈ x.regs) : i < (filling pins).length := by
  obtain ⟨⟨hs, hv, hc⟩, -⟩ := holds_all pins
  rw [regions_eq, List.mem_map] at hx
  obtain ⟨e, he, rfl⟩ := hx
  have hi' : i ∈ e.2 := hi
  rw [(hv e he).1, mem_positions] at hi'
  by_contra hc'
  rw [List.getElem?_eq_none (by omega)] at hi'
  exact absurd hi' (by simp)

/-- C24: one cross-section region per material in use, in increasing order of id, none empty. -/
theorem C24_one_per_material (pins : List Pin) :
    ((fsrMap pins).1.map (·.1)).Pairwise (· < ·) ∧ (∀ k, k ∈ (fsrMap pins).1.map (·.1) ↔ k ∈ filling pins) ∧
    ∀ e ∈ (fsrMap pins).1, e.2 ≠ [] := by
  obtain ⟨⟨hs, hv, hc⟩, -⟩ := holds_all pins
  refine ⟨by rw [List.pairwise_map]; exact hs, ?_, ?_⟩
  · intro k
    rw [List.mem_map]
    constructor
    · rintro ⟨e, he, rfl⟩; exact (hv e he).2
    · intro hk; exact hc k hk
  · intro e he h
    have h2 := (hv e he).2
    obtain ⟨i, hi⟩ := List.mem_iff_getElem?.mp h2
    have : i ∈ e.2 := by rw [(hv e he).1, mem_positions]; exact hi
    rw [h] at this
    exact absurd this (List.not_mem_nil)

theorem foldl_add_eq_sum (l : List Nat) (s : Nat) : l.foldl (· + ·) s = s + l.sum := by
  induction l generalizing s with
  | nil => simp
  | cons a t ih => rw [List.foldl_cons, ih, List.sum_cons]; omega

theorem count_push (m : FsrMap) (k : Int) (r : Nat) : ((m.push k r).map (·.2.length)).sum = (m.map (·.2.length)).sum + 1 := by
  induction m with
  | nil => simp [FsrMap.push]
  | cons a t ih =>
    obtain ⟨k', v⟩ := a
    simp only [FsrMap.push]
    split
    · simp; omega
    · split
      · simp; omega
      · simp only [List.map_cons, List.sum_cons, ih]; omega

theorem count_all (pins : List Pin) : ((fsrMap pins).1.map (·.2.length)).sum = (fsrMap pins).2 := by
  have inner : ∀ (k : Int) (n : Nat) (acc : FsrMap × Nat), (acc.1.map (·.2.length)).sum = acc.2 →
      let r := (List.range n).foldl (fun (acc : FsrMap × Nat) _ => (acc.1.push k acc.2, acc.2 + 1)) acc
      (r.1.map (·.2.length)).sum = r.2 := by
    intro k n acc h
    induction n with
    | zero => simpa using h
    | succ n ih =>
      rw [List.range_succ, List.foldl_append]
      simp only [List.foldl_cons, List.foldl_nil]
      rw [count_push]
      exact congrArg (· + 1) ih
  have pin : ∀ (p : Pin) (acc : FsrMap × Nat), (acc.1.map (·.2.length)).sum = acc.2 →
      let r := p.foldl (fun acc m => (List.range m.2).foldl (fun (acc : FsrMap × Nat) _ => (acc.1.push m.1 acc.2, acc.2 + 1)) acc) acc
      (r.1.map (·.2.length)).sum = r.2 := by
    intro p
    induction p with
    | nil => intro acc h; exact h
    | cons m t ih => intro acc h; exact ih _ (inner _ _ _ h)
  suffices H : ∀ (acc : FsrMap × Nat), (acc.1.map (·.2.length)).sum = acc.2 →
      let r := pins.foldl (fun acc pin => pin.foldl (fun acc m =>
        (List.range m.2).foldl (fun (acc : FsrMap × Nat) _ => (acc.1.push m.1 acc.2, acc.2 + 1)) acc) acc) acc
      (r.1.map (·.2.length)).sum = r.2 from H ([], 0) rfl
  induction pins with
  | nil => intro acc h; exact h
  | cons p t ih => intro acc h; exact ih _ (pin p _ h)

/-- C24: `n_reg_expanded` is the number of flat source regions. -/
theorem C24_count (pins : List Pin) : nRegExpanded pins = (filling pins).length := by
  unfold nRegExpanded
  rw [foldl_add_eq_sum, count_all, (holds_all pins).2, Nat.zero_add]

example : (fsrMap [[(7, 2), (3, 1)], [(3, 2)]]).1 = [(3, [2, 3, 4]), (7, [0, 1])] := by decide

example : ∃ x, ∃ hx : x < (regions id [[(7, 2), (3, 1)], [(3, 2)]]).length,
    (regions id [[(7, 2), (3, 1)], [(3, 2)]])[x].mat = 3 ∧ 3 ∈ (regions id [[(7, 2), (3, 1)], [(3, 2)]])[x].regs := by
  exact ⟨0, by decide, rfl, by decide⟩

end Verif.XS
