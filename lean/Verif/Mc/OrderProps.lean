import Verif.Mc.BankProps
import Mathlib.Data.List.Perm.Basic
import Mathlib.Data.List.Nodup
import Mathlib.Order.Basic
import Mathlib.Tactic.IntervalCases

/-! # C42: the fission bank does not depend on the interleaving of the threads -/

namespace Verif.Mc

open Verif.Rng

/-- `Interleave logs l`: `l` is a possible order in which the appends of the threads happen, when thread `t` appends
the elements of `logs[t]` in order.  Each append is atomic (fission_bank.hpp:93-97, a critical section). -/
inductive Interleave {α : Type} : List (List α) → List α → Prop
  | done (logs : List (List α)) : (∀ l ∈ logs, l = []) → Interleave logs []
  | append (logs : List (List α)) (t : Nat) (x : α) (rest l : List α) :
      logs[t]? = some (x :: rest) → Interleave (logs.set t rest) l → Interleave logs (x :: l)

/-- What each thread appends when thread `t` simulates the histories `sched[t]` in order. -/
def threadLogs {P : Type} (hist : Nat → Site P → List P) (off : Nat) (sched : List (List (Site P))) :
    List (List (Site P)) := sched.map (fun ps => ps.flatMap (children hist off))

/-- A bank numbered from zero (the state at the start of a cycle). -/
def Numbered {P : Type} (bank : List (Site P)) : Prop := ∀ (i : Nat) (h : i < bank.length), (bank[i]).id = i

/-- One cycle of the solver with an arbitrary distribution of the histories over threads and an arbitrary order of the
appends (particle_pusher.cpp:359-390, monte_carlo_eigenvalue_solver.cpp:178-188).  The state is the identifier offset,
the solver's generator and the source bank. -/
def Cycle {P : Type} (hist : Nat → Site P → List P) (ppc : Nat) (st : Nat × U64 × List (Site P))
    (out : Out (Nat × U64 × List (Site P))) : Prop :=
  ∃ (sched : List (List (Site P))) (l : List (Site P)), sched.flatten.Perm st.2.2 ∧
    Interleave (threadLogs hist st.1 sched) l ∧
    out = (match endOfCycle ppc st.2.1 l with
      | .ok (s', b) => .ok (st.1 + st.2.2.length, s', b)
      | .throw => .throw
      | .ub => .ub)

/-- `n` cycles; a cycle that does not complete ends the run. -/
def Run {P : Type} (hist : Nat → Site P → List P) (ppc : Nat) : Nat → Nat × U64 × List (Site P) →
    Out (Nat × U64 × List (Site P)) → Prop
  | 0, st, out => out = .ok st
  | n + 1, st, out => ∃ mid, Cycle hist ppc st mid ∧
      (match mid with
      | .ok st' => Run hist ppc n st' out
      | .throw => out = .throw
      | .ub => out = .ub)

variable {P : Type}

/-! ## stable sorting -/

/-- Sorted by identifier. -/
def SortedIds (l : List (Site P)) : Prop := l.Pairwise (fun a b => a.id ≤ b.id)

/-- The sites of parent `k`, in order. -/
def ofParent (k : Nat) (l : List (Site P)) : List (Site P) := l.filter (fun x => decide (x.id = k))

theorem mem_ofParent {k : Nat} {l : List (Site P)} {x : Site P} : x ∈ ofParent k l ↔ x ∈ l ∧ x.id = k := by
  simp [ofParent]

theorem eq_of_sorted (r1 r2 : List (Site P)) (h1 : SortedIds r1) (h2 : SortedIds r2)
    (hk : ∀ k, ofParent k r1 = ofParent k r2) : r1 = r2 := by
  induction r1 generalizing r2 with
  | nil =>
    cases r2 with
    | nil => rfl
    | cons b t2 => have := hk b.id; simp [ofParent] at this
  | cons a t1 ih =>
    cases r2 with
    | nil => have := hk a.id; simp [ofParent] at this
    | cons b t2 =>
      have hab : b.id ≤ a.id := by
        have : a ∈ ofParent a.id (b :: t2) := by rw [← hk]; simp [ofParent]
        rcases List.mem_cons.mp (mem_ofParent.mp this).1 with h | h
        · exact le_of_eq (by rw [h])
        · exact (List.pairwise_cons.mp h2).1 a h
      have hba : a.id ≤ b.id := by
        have : b ∈ ofParent b.id (a :: t1) := by rw [hk]; simp [ofParent]
        rcases List.mem_cons.mp (mem_ofParent.mp this).1 with h | h
        · exact le_of_eq (by rw [h])
        · exact (List.pairwise_cons.mp h1).1 b h
      have he : a.id = b.id := Nat.le_antisymm hba hab
      have h0 := hk a.id
      have hd : a = b := by
        simp only [ofParent, List.filter_cons, decide_true, if_true, ← he] at h0
        exact (List.cons.inj h0).1
      subst hd
      congr 1
      refine ih t2 (List.pairwise_cons.mp h1).2 (List.pairwise_cons.mp h2).2 fun k => ?_
      have h0 := hk k
      simp only [ofParent, List.filter_cons] at h0 ⊢
      by_cases hak : a.id = k
      · simpa [hak] using h0
      · simpa [hak] using h0

theorem insert_mem (x y : Site P) (l : List (Site P)) : y ∈ insertSite x l ↔ y = x ∨ y ∈ l := by
  induction l with
  | nil => simp [insertSite]
  | cons a l ih =>
    unfold insertSite
    split
    · simp
    · rw [List.mem_cons, ih, List.mem_cons]; tauto

theorem insert_sorted (x : Site P) (l : List (Site P)) (h : SortedIds l) : SortedIds (insertSite x l) := by
  induction l with
  | nil => simp [insertSite, SortedIds]
  | cons a l ih =>
    have ha := List.pairwise_cons.mp h
    unfold insertSite
    split
    · rename_i hlt
      refine List.pairwise_cons.mpr ⟨fun y hy => ?_, h⟩
      rcases List.mem_cons.mp hy with rfl | hy
      · omega
      · have := ha.1 y hy; omega
    · rename_i hge
      refine List.pairwise_cons.mpr ⟨fun y hy => ?_, ih ha.2⟩
      rcases (insert_mem x y l).mp hy with rfl | hy
      · omega
      · exact ha.1 y hy

theorem insert_ofParent (x : Site P) (l : List (Site P)) (h : SortedIds l) (k : Nat) :
    ofParent k (insertSite x l) = ofParent k l ++ ofParent k [x] := by
  induction l with
  | nil => simp [insertSite, ofParent]
  | cons a l ih =>
    have ha := List.pairwise_cons.mp h
    unfold insertSite
    split
    · rename_i hlt
      by_cases hx : x.id = k
      · have : ofParent k (a :: l) = [] := by
          rw [ofParent, List.filter_eq_nil_iff]
          intro y hy
          simp only [decide_eq_true_eq]
          rcases List.mem_cons.mp hy with rfl | hy
          · omega
          · have := ha.1 y hy; omega
        rw [this, List.nil_append]
        have e : ofParent k (x :: a :: l) = ofParent k [x] ++ ofParent k (a :: l) := by
          simp [ofParent, List.filter_cons]; split <;> simp
        rw [e, this, List.append_nil]
      · simp [ofParent, List.filter_cons, hx]
    · have := ih ha.2
      simp only [ofParent] at this ⊢
      simp only [List.filter_cons, this]
      split <;> simp

theorem foldl_sorted (l acc : List (Site P)) (h : SortedIds acc) :
    SortedIds (l.foldl (fun acc x => insertSite x acc) acc) ∧
    ∀ k, ofParent k (l.foldl (fun acc x => insertSite x acc) acc) = ofParent k acc ++ ofParent k l := by
  induction l generalizing acc with
  | nil => exact ⟨h, fun k => by simp [ofParent]⟩
  | cons x l ih =>
    obtain ⟨h1, h2⟩ := ih (insertSite x acc) (insert_sorted x acc h)
    refine ⟨h1, fun k => ?_⟩
    rw [List.foldl_cons, h2 k, insert_ofParent x acc h k, List.append_assoc]
    congr 1
    simp only [ofParent, ← List.filter_append, List.singleton_append]

/-- C42: the sort delivers what `std::stable_sort` guarantees: sorted, and sites with equal identifiers keep their
order. -/
theorem C42_sort_stable (l : List (Site P)) :
    SortedIds (stableSort l) ∧ ∀ k, ofParent k (stableSort l) = ofParent k l := by
  obtain ⟨h1, h2⟩ := foldl_sorted l [] (by simp [SortedIds])
  exact ⟨h1, fun k => by rw [stableSort, h2 k]; simp [ofParent]⟩

/-- C42: that guarantee determines the result, so it does not matter how the library sorts. -/
theorem C42_stable_sort_unique (l r : List (Site P)) (h : SortedIds r) (hk : ∀ k, ofParent k r = ofParent k l) :
    r = stableSort l :=
  eq_of_sorted r _ h (C42_sort_stable l).1 (fun k => by rw [hk, (C42_sort_stable l).2])

/-! ## interleavings -/

theorem interleave_filter {α : Type} (logs : List (List α)) (l : List α) (h : Interleave logs l) (q : α → Bool) (t : Nat)
    (lt : List α) (ht : logs[t]? = some lt)
    (hq : ∀ (t' : Nat) (m : List α), t' ≠ t → logs[t']? = some m → m.filter q = []) : l.filter q = lt.filter q := by
  induction h generalizing lt with
  | done logs hnil =>
    have : lt = [] := hnil lt (List.mem_of_getElem? ht)
    rw [this]
  | append logs t0 x rest l h0 hi ih =>
    have hlt0 : t0 < logs.length := by
      by_contra hc
      rw [List.getElem?_eq_none (by omega)] at h0
      exact absurd h0 (by simp)
    by_cases htt : t0 = t
    · subst htt
      rw [h0] at ht
      obtain rfl := Option.some.inj ht
      have := ih rest (by rw [List.getElem?_set_self hlt0]) (by
        intro t' m hne hm
        rw [List.getElem?_set_ne (by omega)] at hm
        exact hq t' m hne hm)
      rw [List.filter_cons, List.filter_cons, this]
    · have hx := hq t0 _ htt h0
      have hqx : q x = false := by
        rw [List.filter_eq_nil_iff] at hx
        simpa using hx x (by simp)
      have hrest : rest.filter q = [] := by
        rw [List.filter_cons, hqx] at hx
        simpa using hx
      rw [List.filter_cons, hqx]
      simp only [Bool.false_eq_true, if_false]
      refine ih lt (by rw [List.getElem?_set_ne htt]; exact ht) ?_
      intro t' m hne hm
      by_cases h' : t' = t0
      · subst h'
        rw [List.getElem?_set_self hlt0] at hm
        obtain rfl := Option.some.inj hm
        exact hrest
      · rw [List.getElem?_set_ne (fun h => h' h.symm)] at hm
        exact hq t' m hne hm

theorem interleave_perm {α : Type} (logs : List (List α)) (l : List α) (h : Interleave logs l) : l.Perm logs.flatten := by
  induction h with
  | done logs hnil =>
    rw [List.flatten_eq_nil_iff.mpr hnil]
  | append logs t x rest l h0 hrec ih =>
    refine (ih.cons x).trans ?_
    clear ih hrec
    induction logs generalizing t with
    | nil => simp at h0
    | cons a logs ihl =>
      cases t with
      | zero =>
        simp only [List.getElem?_cons_zero, Option.some.injEq] at h0
        subst h0
        simp
      | succ t =>
        simp only [List.getElem?_cons_succ] at h0
        simp only [List.set_cons_succ, List.flatten_cons]
        refine List.Perm.trans ?_ ((ihl t h0).append_left a)
        exact List.perm_middle.symm

theorem children_id (hist : Nat → Site P → List P) (off : Nat) (p x : Site P) (h : x ∈ children hist off p) :
    x.id = p.id := by
  simp only [children, List.mem_map] at h
  obtain ⟨d, -, rfl⟩ := h
  rfl

theorem ofParent_flatMap (hist : Nat → Site P → List P) (off k : Nat) (ps : List (Site P)) :
    ofParent k (ps.flatMap (children hist off)) = (ofParent k ps).flatMap (children hist off) := by
  induction ps with
  | nil => rfl
  | cons p ps ih =>
    rw [List.flatMap_cons]
    have e : ofParent k (children hist off p ++ ps.flatMap (children hist off)) =
        ofParent k (children hist off p) ++ ofParent k (ps.flatMap (children hist off)) := by
      simp [ofParent]
    rw [e, ih]
    by_cases hp : p.id = k
    · have h1 : ofParent k (children hist off p) = children hist off p := by
        rw [ofParent, List.filter_eq_self]
        intro x hx
        simpa [children_id hist off p x hx] using hp
      have h2 : ofParent k (p :: ps) = p :: ofParent k ps := by simp [ofParent, hp]
      rw [h1, h2, List.flatMap_cons]
    · have h1 : ofParent k (children hist off p) = [] := by
        rw [ofParent, List.filter_eq_nil_iff]
        intro x hx
        simpa [children_id hist off p x hx] using hp
      have h2 : ofParent k (p :: ps) = ofParent k ps := by simp [ofParent, hp]
      rw [h1, h2, List.nil_append]

theorem numbered_nodup (bank : List (Site P)) (h : Numbered bank) : (bank.map Site.id).Nodup := by
  have : bank.map Site.id = List.range bank.length := by
    apply List.ext_getElem (by simp)
    intro i h1 h2
    simp only [List.getElem_map, List.getElem_range]
    exact h i (by simpa using h1)
  rw [this]
  exact List.nodup_range

theorem numbered_sorted (bank : List (Site P)) (h : Numbered bank) : SortedIds bank := by
  rw [SortedIds, List.pairwise_iff_getElem]
  intro i j hi hj hij
  rw [h i hi, h j hj]
  omega

theorem flatMap_sorted (hist : Nat → Site P → List P) (off : Nat) (bank : List (Site P)) (h : SortedIds bank) :
    SortedIds (bank.flatMap (children hist off)) := by
  induction bank with
  | nil => simp [SortedIds]
  | cons p ps ih =>
    have hp := List.pairwise_cons.mp h
    rw [List.flatMap_cons, SortedIds, List.pairwise_append]
    refine ⟨?_, ih hp.2, ?_⟩
    · refine List.pairwise_of_forall_mem_list ?_
      intro a ha b hb
      exact le_of_eq (by rw [children_id _ _ _ _ ha, children_id _ _ _ _ hb])
    · intro a ha b hb
      obtain ⟨p', hp', hb'⟩ := List.mem_flatMap.mp hb
      rw [children_id _ _ _ _ ha, children_id _ _ _ _ hb']
      exact hp.1 p' hp'

theorem ofParent_length_le (bank : List (Site P)) (h : (bank.map Site.id).Nodup) (k : Nat) :
    (ofParent k bank).length ≤ 1 := by
  by_contra hc
  have hn : ((ofParent k bank).map Site.id).Nodup := by
    refine List.Nodup.sublist ?_ h
    exact (List.filter_sublist (l := bank)).map _
  match hl : ofParent k bank, hc with
  | [], hc => simp at hc
  | [_], hc => simp at hc
  | a :: b :: rest, _ =>
    have ha : a.id = k := (mem_ofParent.mp (by rw [hl]; simp)).2
    have hb : b.id = k := (mem_ofParent.mp (by rw [hl]; simp)).2
    rw [hl] at hn
    simp [ha, hb] at hn

theorem ofParent_flatten (k : Nat) (sched : List (List (Site P))) :
    ofParent k sched.flatten = (sched.map (ofParent k)).flatten := by
  unfold ofParent
  rw [List.filter_flatten]

theorem flatten_single {α : Type} (ls : List (List α)) (t : Nat) (lt : List α) (ht : ls[t]? = some lt)
    (h : ∀ (t' : Nat) (m : List α), t' ≠ t → ls[t']? = some m → m = []) : ls.flatten = lt := by
  induction ls generalizing t with
  | nil => simp at ht
  | cons a ls ih =>
    cases t with
    | zero =>
      simp only [List.getElem?_cons_zero, Option.some.injEq] at ht
      subst ht
      have : ls.flatten = [] := by
        rw [List.flatten_eq_nil_iff]
        intro m hm
        obtain ⟨i, hi⟩ := List.getElem?_of_mem hm
        exact h (i + 1) m (by omega) (by simpa using hi)
      rw [List.flatten_cons, this, List.append_nil]
    | succ t =>
      have ha : a = [] := h 0 a (by omega) (by simp)
      rw [List.flatten_cons, ha, List.nil_append]
      exact ih t (by simpa using ht) (fun t' m hne hm => h (t' + 1) m (by omega) (by simpa using hm))

/-- C42: for every number of threads, every distribution of the histories over them and every order of the appends, the
sorted bank is the sites of the histories in identifier order, each history's sites in the order produced. -/
theorem C42_interleaving (hist : Nat → Site P → List P) (off : Nat) (bank : List (Site P)) (hb : Numbered bank)
    (sched : List (List (Site P))) (hs : sched.flatten.Perm bank) (l : List (Site P))
    (hl : Interleave (threadLogs hist off sched) l) :
    stableSort l = bank.flatMap (children hist off) := by
  refine (C42_stable_sort_unique l _ (flatMap_sorted hist off bank (numbered_sorted bank hb)) fun k => ?_).symm
  rw [ofParent_flatMap]
  have hnd := numbered_nodup bank hb
  have hperm : (ofParent k sched.flatten).Perm (ofParent k bank) := hs.filter _
  have hlen := ofParent_length_le bank hnd k
  have heq : ofParent k sched.flatten = ofParent k bank := by
    match h : ofParent k bank, hlen with
    | [], _ => rw [h] at hperm; exact List.Perm.eq_nil hperm
    | [a], _ => rw [h] at hperm; exact List.perm_singleton.mp hperm
  by_cases hex : ∃ (t : Nat) (ps : List (Site P)), sched[t]? = some ps ∧ ofParent k ps ≠ []
  · obtain ⟨t, ps, ht, hne⟩ := hex
    have hother : ∀ (t' : Nat) (m : List (Site P)), t' ≠ t → sched[t']? = some m → ofParent k m = [] := by
      intro t' m hne' hm
      by_contra hm0
      have h2 : 2 ≤ (ofParent k sched.flatten).length := by
        rw [ofParent_flatten]
        have hlt : t < sched.length := by
          by_contra hc; rw [List.getElem?_eq_none (by omega)] at ht; exact absurd ht (by simp)
        have hlt' : t' < sched.length := by
          by_contra hc; rw [List.getElem?_eq_none (by omega)] at hm; exact absurd hm (by simp)
        have key : ∀ (ls : List (List (Site P))) (i j : Nat) (a b : List (Site P)), i < j → ls[i]? = some a →
            ls[j]? = some b → ofParent k a ≠ [] → ofParent k b ≠ [] → 2 ≤ (ls.map (ofParent k)).flatten.length := by
          intro ls
          induction ls with
          | nil => intro i j a b _ h; simp at h
          | cons c ls ih =>
            intro i j a b hij ha hb' h1 h2
            rw [List.map_cons, List.flatten_cons, List.length_append]
            cases i with
            | zero =>
              simp only [List.getElem?_cons_zero, Option.some.injEq] at ha
              subst ha
              obtain ⟨j, rfl⟩ : ∃ j', j = j' + 1 := ⟨j - 1, by omega⟩
              simp only [List.getElem?_cons_succ] at hb'
              have hbm : b ∈ ls := List.mem_of_getElem? hb'
              have h3 : 0 < (ls.map (ofParent k)).flatten.length := by
                rw [List.length_pos_iff]
                intro hnil
                rw [List.flatten_eq_nil_iff] at hnil
                exact h2 (hnil _ (List.mem_map.mpr ⟨b, hbm, rfl⟩))
              have := List.length_pos_iff.mpr h1
              omega
            | succ i =>
              obtain ⟨j, rfl⟩ : ∃ j', j = j' + 1 := ⟨j - 1, by omega⟩
              have := ih i j a b (by omega) (by simpa using ha) (by simpa using hb') h1 h2
              omega
        rcases Nat.lt_or_ge t t' with h | h
        · exact key sched t t' ps m h ht hm hne hm0
        · exact key sched t' t m ps (by omega) hm ht hm0 hne
      rw [heq] at h2
      omega
    have h1 : ofParent k l = ofParent k (ps.flatMap (children hist off)) := by
      refine interleave_filter _ l hl _ t _ (by rw [threadLogs, List.getElem?_map, ht]; rfl) ?_
      intro t' m hne' hm
      rw [threadLogs, List.getElem?_map] at hm
      cases hsm : sched[t']? with
      | none => rw [hsm] at hm; simp at hm
      | some m0 =>
        rw [hsm] at hm
        simp only [Option.map_some, Option.some.injEq] at hm
        subst hm
        have := ofParent_flatMap hist off k m0
        rw [hother t' m0 hne' hsm] at this
        exact this
    have h2 : ofParent k sched.flatten = ofParent k ps := by
      rw [ofParent_flatten]
      refine flatten_single _ t _ (by rw [List.getElem?_map, ht]; rfl) ?_
      intro t' m hne' hm
      rw [List.getElem?_map] at hm
      cases hsm : sched[t']? with
      | none => rw [hsm] at hm; simp at hm
      | some m0 =>
        rw [hsm] at hm
        simp only [Option.map_some, Option.some.injEq] at hm
        subst hm
        exact hother t' m0 hne' hsm
    rw [h1, ofParent_flatMap, ← h2, heq]
  · have hall : ∀ m ∈ sched, ofParent k m = [] := by
      intro m hm
      by_contra hne
      obtain ⟨t, ht⟩ := List.getElem?_of_mem hm
      exact hex ⟨t, m, ht, hne⟩
    have h0 : ofParent k sched.flatten = [] := by
      rw [ofParent_flatten, List.flatten_eq_nil_iff]
      intro x hx
      obtain ⟨m, hm, rfl⟩ := List.mem_map.mp hx
      exact hall m hm
    rw [← heq, h0, List.flatMap_nil]
    symm
    rw [ofParent, List.filter_eq_nil_iff]
    intro x hx
    have := (interleave_perm _ l hl).subset hx
    rw [List.mem_flatten] at this
    obtain ⟨m, hm, hxm⟩ := this
    obtain ⟨ps, hps, rfl⟩ := List.mem_map.mp hm
    simp only [decide_eq_true_eq]
    intro hid
    have : x ∈ ofParent k (ps.flatMap (children hist off)) := mem_ofParent.mpr ⟨hxm, hid⟩
    rw [ofParent_flatMap, hall ps hps] at this
    simp at this

theorem reindex_numbered (l : List (Site P)) : Numbered (reindex l) := by
  intro i h
  simp [reindex]

/-- C42: the bank a completed cycle hands to the next one has exactly the configured number of particles, each with the
data of a site that was banked, numbered in order from zero; the generator has moved on by one draw per site added or removed. -/
theorem C42_bank (ppc : Nat) (s s' : U64) (fission b : List (Site P)) (h : endOfCycle ppc s fission = .ok (s', b)) :
    b.length = ppc ∧ (∀ x ∈ b, ∃ y ∈ fission, y.data = x.data) ∧ Numbered b ∧
      s' = step^[(ppc - fission.length) + (fission.length - ppc)] s := by
  have hlen : (stableSort fission).length = fission.length := by
    have key : ∀ (l acc : List (Site P)), (l.foldl (fun acc x => insertSite x acc) acc).length = acc.length + l.length := by
      intro l
      induction l with
      | nil => intro acc; rfl
      | cons a as ih =>
        intro acc
        have hi : ∀ acc : List (Site P), (insertSite a acc).length = acc.length + 1 := by
          intro acc
          induction acc with
          | nil => rfl
          | cons y ys ihy =>
            unfold insertSite
            split
            · rfl
            · rw [List.length_cons, ihy, List.length_cons]
        rw [List.foldl_cons, ih, hi, List.length_cons]
        omega
    have := key fission []
    simpa [stableSort] using this
  unfold endOfCycle at h
  cases hr : resize ppc s (stableSort fission) with
  | ok q =>
    obtain ⟨s1, l⟩ := q
    simp only [hr, Out.ok.injEq, Prod.mk.injEq] at h
    obtain ⟨rfl, rfl⟩ := h
    have hl : l.length = ppc ∧ ∀ x ∈ l, x ∈ stableSort fission := by
      rcases Nat.le_total ppc (stableSort fission).length with hle | hle
      · obtain ⟨h1, h2, -⟩ := C41_shrink_partial _ _ _ _ _ hle hr
        exact ⟨h1, fun x hx => h2.subset hx⟩
      · obtain ⟨h1, ⟨e, rfl, he⟩, -⟩ := C41_grow_partial _ _ _ _ _ hle hr
        refine ⟨h1, fun x hx => ?_⟩
        rcases List.mem_append.mp hx with hx | hx
        · exact hx
        · exact he x hx
    refine ⟨by simp [reindex, hl.1], ?_, reindex_numbered _, ?_⟩
    rotate_left
    · rcases Nat.le_total ppc (stableSort fission).length with hle | hle
      · obtain ⟨-, -, e⟩ := C41_shrink_partial _ _ _ _ _ hle hr
        rw [e, hlen]
        rw [hlen] at hle
        congr 1
        omega
      · obtain ⟨-, -, e⟩ := C41_grow_partial _ _ _ _ _ hle hr
        rw [e, hlen]
        rw [hlen] at hle
        congr 1
        omega
    intro x hx
    obtain ⟨i, hi, rfl⟩ := List.mem_mapIdx.mp hx
    have hm : l[i] ∈ ofParent (l[i]).id (stableSort fission) := mem_ofParent.mpr ⟨hl.2 _ (List.getElem_mem hi), rfl⟩
    rw [(C42_sort_stable fission).2] at hm
    exact ⟨l[i], (mem_ofParent.mp hm).1, rfl⟩
  | throw => simp [hr] at h
  | ub => simp [hr] at h

/-- C42: the bank at the start of the next cycle (after sorting, resizing and renumbering), the generator state and the
identifier offset do not depend on the threads; the next bank is again numbered from zero. -/
theorem C42_cycle (hist : Nat → Site P → List P) (ppc : Nat) (st : Nat × U64 × List (Site P)) (hb : Numbered st.2.2)
    (o1 o2 : Out (Nat × U64 × List (Site P))) (h1 : Cycle hist ppc st o1) (h2 : Cycle hist ppc st o2) :
    o1 = o2 ∧ ∀ st', o1 = .ok st' → Numbered st'.2.2 := by
  obtain ⟨sc1, l1, p1, i1, e1⟩ := h1
  obtain ⟨sc2, l2, p2, i2, e2⟩ := h2
  have q1 := C42_interleaving hist st.1 st.2.2 hb sc1 p1 l1 i1
  have q2 := C42_interleaving hist st.1 st.2.2 hb sc2 p2 l2 i2
  constructor
  · rw [e1, e2]
    unfold endOfCycle
    rw [q1, q2]
  · intro st' h
    rw [e1] at h
    unfold endOfCycle at h
    cases hr : resize ppc st.2.1 (stableSort l1) with
    | ok q =>
      obtain ⟨s', b⟩ := q
      simp only [hr, Out.ok.injEq] at h
      rw [← h]
      exact reindex_numbered b
    | throw => simp [hr] at h
    | ub => simp [hr] at h

/-- C42: hence a run of any number of cycles gives the same banks with any number of threads. -/
theorem C42_run (hist : Nat → Site P → List P) (ppc n : Nat) (st : Nat × U64 × List (Site P)) (hb : Numbered st.2.2)
    (o1 o2 : Out (Nat × U64 × List (Site P))) (h1 : Run hist ppc n st o1) (h2 : Run hist ppc n st o2) : o1 = o2 := by
  induction n generalizing st with
  | zero => rw [Run] at h1 h2; rw [h1, h2]
  | succ n ih =>
    obtain ⟨m1, c1, r1⟩ := h1
    obtain ⟨m2, c2, r2⟩ := h2
    obtain ⟨hm, hnum⟩ := C42_cycle hist ppc st hb m1 m2 c1 c2
    subst hm
    cases m1 with
    | ok st' => exact ih st' (hnum st' rfl) r1 r2
    | throw => exact r1.trans r2.symm
    | ub => exact r1.trans r2.symm

/-- C42: the number of sites banked in a cycle (the analogue estimate of the eigenvalue) and any sum over the sites
(`total_fission_`) are independent of the threads as well. -/
theorem C42_totals {M : Type} [AddCommMonoid M] (hist : Nat → Site P → List P) (off : Nat) (bank : List (Site P))
    (sched : List (List (Site P))) (hs : sched.flatten.Perm bank) (l : List (Site P))
    (hl : Interleave (threadLogs hist off sched) l) (w : Site P → M) :
    l.length = (bank.flatMap (children hist off)).length ∧
    (l.map w).sum = ((bank.flatMap (children hist off)).map w).sum := by
  have hp : l.Perm (bank.flatMap (children hist off)) := by
    refine (interleave_perm _ l hl).trans ?_
    have e : (threadLogs hist off sched).flatten = sched.flatten.flatMap (children hist off) := by
      clear hs hl
      unfold threadLogs
      induction sched with
      | nil => rfl
      | cons a s ih => rw [List.map_cons, List.flatten_cons, ih, List.flatten_cons, List.flatMap_append]
    rw [e]
    exact hs.flatMap_right _
  exact ⟨hp.length_eq, (hp.map w).sum_eq⟩

/-- Two threads, three histories: two different orders of the appends, one sorted bank. -/
example : ∃ l1 l2, l1 ≠ l2 ∧
    Interleave (threadLogs (fun _ p => if p.id = 0 then [10, 11] else [20 + p.data]) 0 [[⟨0, 0⟩, ⟨2, 0⟩], [⟨1, 5⟩]]) l1 ∧
    Interleave (threadLogs (fun _ p => if p.id = 0 then [10, 11] else [20 + p.data]) 0 [[⟨0, 0⟩, ⟨2, 0⟩], [⟨1, 5⟩]]) l2 ∧
    stableSort l1 = [⟨0, 10⟩, ⟨0, 11⟩, ⟨1, 25⟩, ⟨2, 20⟩] ∧ stableSort l2 = stableSort l1 := by
  refine ⟨[⟨1, 25⟩, ⟨0, 10⟩, ⟨0, 11⟩, ⟨2, 20⟩], [⟨0, 10⟩, ⟨0, 11⟩, ⟨2, 20⟩, ⟨1, 25⟩], by decide, ?_, ?_, by decide, by decide⟩
  · refine .append _ 1 _ [] _ rfl (.append _ 0 _ [⟨0, 11⟩, ⟨2, 20⟩] _ rfl (.append _ 0 _ [⟨2, 20⟩] _ rfl
      (.append _ 0 _ [] _ rfl (.done _ ?_))))
    decide
  · refine .append _ 0 _ [⟨0, 11⟩, ⟨2, 20⟩] _ rfl (.append _ 0 _ [⟨2, 20⟩] _ rfl
      (.append _ 0 _ [] _ rfl (.append _ 1 _ [] _ rfl (.done _ ?_))))
    decide

example : Numbered [(⟨0, 0⟩ : Site Nat), ⟨1, 5⟩, ⟨2, 0⟩] ∧
    [[(⟨0, 0⟩ : Site Nat), ⟨2, 0⟩], [⟨1, 5⟩]].flatten.Perm [⟨0, 0⟩, ⟨1, 5⟩, ⟨2, 0⟩] := by
  constructor
  · intro i h
    have : i < 3 := h
    interval_cases i <;> rfl
  · decide

end Verif.Mc
