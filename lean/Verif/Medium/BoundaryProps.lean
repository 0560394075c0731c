import Verif.Medium.Props

/-!
# C108: the boundary update of the store, as both sweepers use it
-/

set_option linter.unusedSectionVars false

namespace Verif.Medium

open Verif.Quad

section
variable {K : Type} [Field K] [LinearOrder K] [IsStrictOrderedRing K]

/-- Values have the property `P` on all faces of the ordinates. -/
def OnStore (sh : BC.Store K) (P : K → Prop) (f : Nat → Normal → Nat → K) : Prop :=
  ∀ a < sh.size.length, ∀ n, ∀ e < faceSize sh a n, P (f a n e)

theorem faceSize_of (sh : BC.Store K) (a : Nat) (n : Normal) (s : BC.Size3) (h : sh.size[a]? = some s) : faceSize sh a n = s.get n := by
  simp [faceSize, h]

theorem faceStart_of (sh : BC.Store K) (a : Nat) (n : Normal) (h : a < sh.size.length) : faceStart sh a n = BC.off sh.size a n := by
  simp [faceStart, BC.offset_eq _ _ _ h]

/-- The loaded store holds the values. -/
theorem C108_load (sh : BC.Store K) (f : Nat → Normal → Nat → K) (a : Nat) (n : Normal) (e : Nat) (ha : a < sh.size.length) (he : e < faceSize sh a n) :
    view (load sh f) a n e = f a n e := by
  have hs : sh.size[a]? = some sh.size[a] := List.getElem?_eq_getElem ha
  have hv : view (load sh f) a n e = (load sh f).data (faceStart sh a n + e) := rfl
  rw [hv]
  simp only [load]
  have hmem : (a, n) ∈ faces sh := by
    refine List.mem_flatMap.mpr ⟨a, List.mem_range.mpr ha, ?_⟩
    cases n <;> simp
  cases hf : (faces sh).find? fun x => decide (faceStart sh x.1 x.2 ≤ faceStart sh a n + e ∧ faceStart sh a n + e < faceStart sh x.1 x.2 + faceSize sh x.1 x.2) with
  | none =>
    have := List.find?_eq_none.mp hf (a, n) hmem
    simp only [decide_eq_true_eq] at this
    omega
  | some x =>
    obtain ⟨a', n'⟩ := x
    have h1 := List.find?_some hf
    have h2 := List.mem_of_find?_eq_some hf
    simp only [decide_eq_true_eq] at h1
    obtain ⟨a'', ha'', h3⟩ := List.mem_flatMap.mp h2
    have ha' : a' < sh.size.length := by
      have := List.mem_range.mp ha''
      simp only [List.mem_cons, List.not_mem_nil, or_false, Prod.mk.injEq] at h3
      omega
    have hs' : sh.size[a']? = some sh.size[a'] := List.getElem?_eq_getElem ha'
    rw [faceSize_of sh a n _ hs] at he
    rw [faceSize_of sh a' n' _ hs', faceStart_of sh a n ha, faceStart_of sh a' n' ha'] at h1
    have h5 : BC.off sh.size a n + e - BC.off sh.size a' n' < sh.size[a'].get n' := by omega
    have h6 : BC.off sh.size a n + e = BC.off sh.size a' n' + (BC.off sh.size a n + e - BC.off sh.size a' n') := by omega
    obtain ⟨i1, i2, i3⟩ := BC.off_inj sh.size hs hs' he h5 h6
    subst i1
    subst i2
    simp only
    rw [Nat.add_sub_cancel_left]

theorem load_on (sh : BC.Store K) (P : K → Prop) (f : Nat → Normal → Nat → K) (a : Nat) (n : Normal) (e p : Nat)
    (hp : BC.StoredAt (load sh f) 0 a n e p) (h : ∀ e < faceSize sh a n, P (f a n e)) : P ((load sh f).data p) := by
  rw [BC.storedAt_iff] at hp
  obtain ⟨-, s, hs, he, rfl⟩ := hp
  have hs' : sh.size[a]? = some s := hs
  have ha : a < sh.size.length := (List.getElem?_eq_some_iff.mp hs').1
  have he' : e < faceSize sh a n := by rw [faceSize_of sh a n s hs']; exact he
  have := C108_load sh f a n e ha he'
  have h1 := h e he'
  rw [← this] at h1
  simp only [view] at h1
  rw [faceStart_of _ _ _ (show a < (load sh f).size.length from ha)] at h1
  simpa using h1

theorem view_on (b : BC.Store K) (P : K → Prop) (hg : 0 < b.nGroup) (h : ∀ a n e p, BC.StoredAt b 0 a n e p → P (b.data p)) (a : Nat) (n : Normal) (e : Nat)
    (ha : a < b.size.length) (he : e < faceSize b a n) : P (view b a n e) := by
  have hs : b.size[a]? = some b.size[a] := List.getElem?_eq_getElem ha
  refine h a n e _ ?_
  rw [BC.storedAt_iff]
  refine ⟨hg, _, hs, ?_, ?_⟩
  · rw [← faceSize_of b a n _ hs]; exact he
  · rw [faceStart_of b a n ha]; omega

theorem normals_keep (g a : Nat) (out : BC.Store K) (l : List Normal) (b b' : BC.Store K) (h : BC.updateNormals g a out l b = .ok b') :
    b'.size = b.size ∧ b'.nGroup = b.nGroup := by
  induction l generalizing b with
  | nil =>
    simp only [BC.updateNormals, BC.Outcome.ok.injEq] at h
    subst h
    exact ⟨rfl, rfl⟩
  | cons n ns ih =>
    simp only [BC.updateNormals] at h
    split at h
    · split at h
      · simp only [BC.Outcome.ok.injEq] at h
        subst h
        exact ⟨rfl, rfl⟩
      split at h
      · split at h
        · simp at h
        split at h
        · exact ih (b.put _ _ _) h
        · exact ih (b.put _ _ _) h
        · exact ih b h
        · simp at h
      · simp at h
    · simp at h

theorem angles_keep (g : Nat) (out : BC.Store K) (as : List Nat) (b b' : BC.Store K) (h : BC.updateAngles g out as b = .ok b') :
    b'.size = b.size ∧ b'.nGroup = b.nGroup := by
  induction as generalizing b with
  | nil =>
    simp only [BC.updateAngles, BC.Outcome.ok.injEq] at h
    subst h
    exact ⟨rfl, rfl⟩
  | cons a as ih =>
    simp only [BC.updateAngles] at h
    split at h
    · next b₁ hb1 =>
      obtain ⟨h1, h2⟩ := normals_keep g a out _ b b₁ hb1
      obtain ⟨h3, h4⟩ := ih b₁ h
      exact ⟨h3.trans h1, h4.trans h2⟩
    · simp at h
    · simp at h

theorem store_keeps (sh : BC.Store K) (P : K → Prop) (ht : ∀ s, sh.types s = .VACUUM → P 0) (b o : Nat → Normal → Nat → K) (hb : OnStore sh P b) :
    (∀ a, (∀ n, ∀ e < faceSize sh a n, P (o a n e)) → OnStore sh P (storeOne sh a b o)) ∧ (OnStore sh P o → OnStore sh P (storeAll sh b o)) := by
  have hb' : ∀ a n e p, BC.StoredAt (load sh b) 0 a n e p → P ((load sh b).data p) := by
    intro a n e p hp
    refine load_on sh P b a n e p hp fun e he => hb a ?_ n e he
    by_contra hn
    have : sh.size[a]? = none := List.getElem?_eq_none (by omega)
    simp [faceSize, this] at he
  constructor
  · intro a ho
    unfold storeOne
    split
    · next b' h =>
      obtain ⟨k1, k2⟩ := normals_keep 0 a _ _ _ _ h
      have key := (boundary_keeps 0 (load sh o) (load sh b) b' P rfl rfl ht hb').1 a (fun n e p hp => load_on sh P o a n e p hp (ho n)) h
      intro a' ha' n e he
      refine view_on b' P (by rw [k2]; exact Nat.one_pos) key a' n e (by rw [k1]; exact ha') ?_
      simp only [faceSize, k1]
      exact he
    · exact hb
  · intro ho
    unfold storeAll
    split
    · next b' h =>
      obtain ⟨k1, k2⟩ := angles_keep 0 (load sh o) (List.range (load sh b).size.length) (load sh b) b' (by
        unfold BC.update at h
        rwa [if_pos (show (load sh o).nGroup = 1 from rfl)] at h)
      have key := (boundary_keeps 0 (load sh o) (load sh b) b' P rfl rfl ht hb').2 (fun a n e p hp => load_on sh P o a n e p hp fun e he => ho a (by
        by_contra hn
        have : sh.size[a]? = none := List.getElem?_eq_none (by omega)
        simp [faceSize, this] at he) n e he) h
      intro a' ha' n e he
      refine view_on b' P (by rw [k2]; exact Nat.one_pos) key a' n e (by rw [k1]; exact ha') ?_
      simp only [faceSize, k1]
      exact he
    · exact hb

/-- C108: without vacuum the update of the store keeps a uniform flux. -/
theorem C108_store (sh : BC.Store K) (ht : ∀ s, sh.types s ≠ .VACUUM) (c : K) (b o : Nat → Normal → Nat → K) (hb : OnStore sh (· = c) b) :
    (∀ a, (∀ n, ∀ e < faceSize sh a n, o a n e = c) → OnStore sh (· = c) (storeOne sh a b o)) ∧
      (OnStore sh (· = c) o → OnStore sh (· = c) (storeAll sh b o)) :=
  store_keeps sh (· = c) (fun s hs => absurd hs (ht s)) b o hb

/-- Number of values of an ordinate. -/
def rowSize (sh : BC.Store K) (a : Nat) : Nat := faceSize sh a .X + faceSize sh a .Y + faceSize sh a .Z

theorem slot_lt_row (sh : BC.Store K) (a : Nat) (n : Normal) (e : Nat) (he : e < faceSize sh a n) : slotOf sh a n e < rowSize sh a := by
  unfold rowSize
  cases n <;> simp only [slotOf] <;> omega

theorem faceOf_lt (sh : BC.Store K) (a j : Nat) (hj : j < rowSize sh a) :
    (faceOf sh a j).2 < faceSize sh a (faceOf sh a j).1 ∧ slotOf sh a (faceOf sh a j).1 (faceOf sh a j).2 = j := by
  unfold rowSize at hj
  unfold faceOf
  split
  · next h => exact ⟨h, rfl⟩
  · split
    · simp only [slotOf]; omega
    · simp only [slotOf]; omega

/-- C108: the update as MoC uses it is one of those of `C108_moc`. -/
theorem C108_store_moc (sh : BC.Store K) (ht : ∀ s, sh.types s ≠ .VACUUM) : Reflects sh.size.length (rowSize sh) (mocUpdate sh) := by
  constructor
  · intro c a ha b o hb ho a' ha' j hj
    simp only [mocUpdate]
    refine (C108_store sh ht c _ _ ?_).1 a ?_ a' ha' _ _ (faceOf_lt sh a' j hj).1
    · intro a n hn e he
      exact hb a n _ (slot_lt_row sh a hn e he)
    · intro n e he
      exact ho _ (slot_lt_row sh a n e he)
  · intro c b o hb ho a' ha' j hj
    simp only [mocUpdate]
    refine (C108_store sh ht c _ _ ?_).2 ?_ a' ha' _ _ (faceOf_lt sh a' j hj).1
    · intro a n hn e he
      exact hb a n _ (slot_lt_row sh a hn e he)
    · intro a n hn e he
      exact ho a n _ (slot_lt_row sh a hn e he)

/-- C108: the update as Sn uses it is one of those of `C108_sn`, if all ordinates have the same numbers of values and the faces that Sn does not have are
empty. -/
theorem C108_store_sn {κ : Type} (sh : BC.Store K) (ht : ∀ s, sh.types s ≠ .VACUUM) (toN : κ → Normal) (ofN : Normal → Option κ) (hto : ∀ k, ofN (toN k) = some k)
    (hof : ∀ n k, ofN n = some k → toN k = n) (num : κ → Nat) (hnum : ∀ a < sh.size.length, ∀ k, faceSize sh a (toN k) = num k)
    (hnone : ∀ a < sh.size.length, ∀ n, ofN n = none → faceSize sh a n = 0) : SnReflects sh.size.length num (snUpdate sh toN ofN) := by
  have fold : ∀ (c : K) (b : Nat → κ → Nat → K), ∀ a < sh.size.length, (∀ k, ∀ j < num k, b a k j = c) → ∀ n, ∀ e < faceSize sh a n,
      (match ofN n with | some k => b a k e | none => 0) = c := by
    intro c b a ha hb n e he
    cases hn : ofN n with
    | none => rw [hnone a ha n hn] at he; omega
    | some k =>
      refine hb k e ?_
      rw [← hnum a ha k, hof n k hn]
      exact he
  constructor
  · intro c a ha b o hb ho a' ha' k j hj
    simp only [snUpdate]
    exact (C108_store sh ht c _ _ fun a ha => fold c b a ha (hb a ha)).1 a (fold c o a ha ho) a' ha' _ _ (by rw [hnum a' ha' k]; exact hj)
  · intro c b o hb ho a' ha' k j hj
    simp only [snUpdate]
    exact (C108_store sh ht c _ _ fun a ha => fold c b a ha (hb a ha)).2 (fun a ha => fold c o a ha (ho a ha)) a' ha' _ _ (by rw [hnum a' ha' k]; exact hj)

end

/-- Reflection on all faces, different numbers of values on X, Y and Z faces. -/
def demoStore : BC.Store ℚ := BC.gapStore 0 ⟨2, 3, 6⟩

example : Reflects 8 (rowSize demoStore) (mocUpdate demoStore) := C108_store_moc demoStore (by intro s; cases s <;> decide)

example : rowSize demoStore 3 = 11 := by decide +kernel

/-- The update of ordinate 0 moves its outgoing values on the X face to the incoming ones of ordinate 1, and nothing else there. -/
example : storeOne demoStore 0 (fun _ _ _ => 1) (fun _ _ e => 10 + e) 1 .X 1 = 11 ∧ storeOne demoStore 0 (fun _ _ _ => 1) (fun _ _ e => 10 + e) 1 .Y 1 = 1 := by
  decide +kernel

example : SnReflects 8 (fun | .x => 2 | .y => 3 | .z => 6)
    (snUpdate demoStore (fun | .x => .X | .y => .Y | .z => .Z) (fun | .X => some .x | .Y => some .y | .Z => some .z) : SnUpdate Sn.Ax3 ℚ) :=
  C108_store_sn demoStore (by intro s; cases s <;> decide) _ _ (by intro k; cases k <;> rfl) (by intro n k; cases n <;> (intro h; cases h; rfl)) _
    (by intro a ha k; have h8 : a < 8 := ha; interval_cases a <;> cases k <;> rfl) (by intro a _ n; cases n <;> simp)

end Verif.Medium
