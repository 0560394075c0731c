import Verif.XS.ExpandModel
import Mathlib.Algebra.Field.Rat
import Mathlib.Data.List.Pairwise
import Mathlib.Tactic.NormNum

/-!
# C25: expanded cross sections reflect the requested group
-/

set_option linter.unusedSectionVars false

namespace Verif.XS

variable {K : Type} [Field K]

/-- No region index is listed by two cross-section regions (C24 shows the cross-section mesh is like that). -/
def Separate (rs : List (TrRegion K)) : Prop := rs.Pairwise (fun a b => ∀ i, i ∈ a.regs → i ∉ b.regs)

/-- The array holds the current cross sections of group `g`. -/
def Current (w : World K) (g : Nat) : Prop := ∀ r ∈ w.mesh.regions, ∀ i ∈ r.regs, w.e.xstr i = r.tr g

/-- C25, the claim: expansion is right whatever came before. -/
def C25_claim (K : Type) [Field K] : Prop :=
  ∀ (mesh : TrMesh K) (garbage : Nat → K) (h : List (Op K)) (g : Nat), Separate mesh.regions → 0 ≤ mesh.state →
    Current (((World.init mesh garbage).run h).expand g) g

theorem inner_write (l : List Nat) (f : Nat → K) (a : Nat → K) (i : Nat) :
    (l.foldl (fun a i => Function.update a i (f i)) a) i = if i ∈ l then f i else a i := by
  induction l generalizing a with
  | nil => simp
  | cons j t ih =>
    rw [List.foldl_cons, ih]
    by_cases hi : i ∈ t
    · simp [hi]
    · by_cases hj : i = j
      · subst hj; simp [hi]
      · simp [hi, hj]

theorem writeAll_other (rs : List (TrRegion K)) (g : Nat) (f : K → Nat → K) (a : Nat → K) (i : Nat)
    (h : ∀ r ∈ rs, i ∉ r.regs) : writeAll rs g f a i = a i := by
  induction rs generalizing a with
  | nil => rfl
  | cons r t ih =>
    show writeAll t g f _ i = _
    rw [ih _ (fun r' hr' => h r' (List.mem_cons_of_mem _ hr'))]
    exact (inner_write r.regs (f (r.tr g)) a i).trans (if_neg (h r List.mem_cons_self))

theorem writeAll_spec (rs : List (TrRegion K)) (hs : Separate rs) (g : Nat) (f : K → Nat → K) (a : Nat → K)
    (r : TrRegion K) (hr : r ∈ rs) (i : Nat) (hi : i ∈ r.regs) : writeAll rs g f a i = f (r.tr g) i := by
  induction rs generalizing a with
  | nil => simp at hr
  | cons r' t ih =>
    unfold Separate at hs
    rw [List.pairwise_cons] at hs
    show writeAll t g f _ i = _
    rcases List.mem_cons.mp hr with rfl | hr
    · rw [writeAll_other t g f _ i (fun r' hr' => hs.1 r' hr' i hi)]
      exact (inner_write r.regs (f (r.tr g)) a i).trans (if_pos hi)
    · exact ih hs.2 _ hr

theorem update_separate (w : World K) (tr : Nat → Nat → K) (h : Separate w.mesh.regions) :
    Separate (w.update tr).mesh.regions := by
  unfold Separate World.update at *
  simp only
  rw [List.pairwise_iff_getElem] at *
  intro i j hi hj hij
  rw [List.length_mapIdx] at hi hj
  simp only [List.getElem_mapIdx]
  exact h i j hi hj hij

theorem expand_mesh (w : World K) (g : Nat) : (w.expand g).mesh = w.mesh := by
  unfold World.expand; split <;> rfl

theorem step_separate (w : World K) (o : Op K) (h : Separate w.mesh.regions) : Separate (w.step o).mesh.regions := by
  cases o with
  | expand g => simp only [World.step, expand_mesh]; exact h
  | split g s => exact h
  | splitEmpty g => simp only [World.step, World.expandSplit, expand_mesh]; exact h
  | update tr => exact update_separate w tr h

/-- Holds in every history: the recorded mesh state is never in the future. -/
def Past (w : World K) : Prop := w.e.meshState ≤ w.mesh.state

theorem expand_past (w : World K) (g : Nat) (h : Past w) : Past (w.expand g) := by
  unfold World.expand; split
  · exact Int.le_refl _
  · exact h

theorem step_past (w : World K) (o : Op K) (h : Past w) : Past (w.step o) := by
  cases o with
  | expand g => exact expand_past w g h
  | split g s => exact h
  | splitEmpty g => exact expand_past w g h
  | update tr =>
    unfold Past World.step World.update at *
    simp only
    omega

/-- What the array holds when it is not out of date. -/
def Fresh (w : World K) : Prop := w.e.meshState = w.mesh.state → ∀ g : Nat, (g : Int) = w.e.group → Current w g

theorem expand_current (w : World K) (g : Nat) (hs : Separate w.mesh.regions) (hf : Fresh w) : Current (w.expand g) g := by
  unfold World.expand
  split
  · intro r hr i hi
    exact writeAll_spec _ hs g (fun x _ => x) _ r hr i hi
  · rename_i h
    have h1 : (g : Int) = w.e.group := by
      by_contra hc; exact h (Or.inl hc)
    have h2 : w.mesh.state = w.e.meshState := by
      by_contra hc; exact h (Or.inr hc)
    exact hf h2.symm g h1

theorem expand_fresh (w : World K) (g : Nat) (hs : Separate w.mesh.regions) (hf : Fresh w) : Fresh (w.expand g) := by
  unfold World.expand
  split
  · intro _ g' hg'
    have : g' = g := by
      have : (g' : Int) = (g : Int) := hg'
      omega
    subst this
    intro r hr i hi
    exact writeAll_spec _ hs g' (fun x _ => x) _ r hr i hi
  · exact hf

/-- An operation that does not split. -/
def NoSplit : Op K → Prop
  | .split _ _ => False
  | _ => True

theorem step_fresh (w : World K) (o : Op K) (hs : Separate w.mesh.regions) (hp : Past w) (hf : Fresh w)
    (ho : NoSplit o) : Fresh (w.step o) := by
  cases o with
  | expand g => exact expand_fresh w g hs hf
  | split g s => exact absurd ho id
  | splitEmpty g => exact expand_fresh w g hs hf
  | update tr =>
    intro h
    unfold Past at hp
    have : w.e.meshState = w.mesh.state + 1 := h
    omega

theorem run_invariant (h : List (Op K)) (w : World K) (hs : Separate w.mesh.regions) (hp : Past w) :
    Separate (w.run h).mesh.regions ∧ Past (w.run h) := by
  induction h generalizing w with
  | nil => exact ⟨hs, hp⟩
  | cons o t ih => exact ih _ (step_separate w o hs) (step_past w o hp)

theorem run_fresh (h : List (Op K)) (w : World K) (hs : Separate w.mesh.regions) (hp : Past w) (hf : Fresh w)
    (ho : ∀ o ∈ h, NoSplit o) : Fresh (w.run h) := by
  induction h generalizing w with
  | nil => exact hf
  | cons o t ih =>
    exact ih _ (step_separate w o hs) (step_past w o hp) (step_fresh w o hs hp hf (ho o List.mem_cons_self))
      (fun o' ho' => ho o' (List.mem_cons_of_mem _ ho'))

theorem init_ok (mesh : TrMesh K) (garbage : Nat → K) (hst : 0 ≤ mesh.state) :
    Past (World.init mesh garbage) ∧ Fresh (World.init mesh garbage) := by
  constructor
  · unfold Past World.init; simp only; omega
  · intro h
    have : (-1 : Int) = mesh.state := h
    omega

/-- C25, partial: after any history without splitting, expansion gives the current cross sections of the requested
group (missing: histories with splitting, for which the claim is false). -/
theorem C25_expand_partial (mesh : TrMesh K) (garbage : Nat → K) (h : List (Op K)) (g : Nat)
    (hs : Separate mesh.regions) (hst : 0 ≤ mesh.state) (ho : ∀ o ∈ h, NoSplit o) :
    Current (((World.init mesh garbage).run h).expand g) g := by
  obtain ⟨hp, hf⟩ := init_ok mesh garbage hst
  exact expand_current _ g (run_invariant h _ hs hp).1 (run_fresh h _ hs hp hf ho)

/-- C25, partial: the same after any history at all, provided the cross sections were updated since the last
splitting. -/
theorem C25_expand_after_update_partial (mesh : TrMesh K) (garbage : Nat → K) (h1 h2 : List (Op K))
    (tr : Nat → Nat → K) (g : Nat) (hs : Separate mesh.regions) (hst : 0 ≤ mesh.state) (ho : ∀ o ∈ h2, NoSplit o) :
    Current (((World.init mesh garbage).run (h1 ++ .update tr :: h2)).expand g) g := by
  obtain ⟨hp, hf⟩ := init_ok mesh garbage hst
  have e : (World.init mesh garbage).run (h1 ++ .update tr :: h2) =
      (((World.init mesh garbage).run h1).update tr).run h2 := by
    unfold World.run; rw [List.foldl_append, List.foldl_cons]; rfl
  rw [e]
  obtain ⟨s1, p1⟩ := run_invariant h1 _ hs hp
  have s2 := update_separate _ tr s1
  have p2 : Past (((World.init mesh garbage).run h1).update tr) := step_past _ (.update tr) p1
  refine expand_current _ g (run_invariant h2 _ s2 p2).1 (run_fresh h2 _ s2 p2 ?_ ho)
  intro h
  unfold Past at p1
  have : ((World.init mesh garbage).run h1).e.meshState = ((World.init mesh garbage).run h1).mesh.state + 1 := h
  omega

/-- C25: expansion with splitting always gives the current cross sections plus the splitting, whatever came before. -/
theorem C25_split (mesh : TrMesh K) (garbage : Nat → K) (h : List (Op K)) (g : Nat) (s : Nat → K)
    (hs : Separate mesh.regions) (hst : 0 ≤ mesh.state) :
    let w := ((World.init mesh garbage).run h).expandSplit g (some s)
    ∀ r ∈ w.mesh.regions, ∀ i ∈ r.regs, w.e.xstr i = r.tr g + s i := by
  intro w r hr i hi
  obtain ⟨hp, -⟩ := init_ok mesh garbage hst
  exact writeAll_spec _ (run_invariant h _ hs hp).1 g (fun x i => x + s i) _ r hr i hi

/-- A single region with cross section one in every group. -/
def oneRegion : TrMesh ℚ := ⟨[⟨fun _ => 1, [0]⟩], 0⟩

/-- C25 is false: expand, expand with splitting, expand the same group again: the splitting stays in the array. -/
theorem C25_claim_false : ¬ C25_claim ℚ := by
  intro h
  have := h oneRegion (fun _ => 0) [.expand 0, .split 0 (fun _ => 5)] 0 (by simp [Separate, oneRegion])
    (by decide) _ (List.mem_singleton.mpr rfl) 0 (List.mem_singleton.mpr rfl)
  revert this
  decide +kernel

/-- What the three-call history leaves, for every mesh and splitting: the split values of the second call. -/
theorem C25_stale (mesh : TrMesh K) (garbage : Nat → K) (g : Nat) (s : Nat → K) (hs : Separate mesh.regions)
    (r : TrRegion K) (hr : r ∈ mesh.regions) (i : Nat) (hi : i ∈ r.regs) :
    (((World.init mesh garbage).run [.expand g, .split g s]).expand g).e.xstr i = r.tr g + s i := by
  have e1 : (World.init mesh garbage).expand g =
      ⟨mesh, ⟨writeAll mesh.regions g (fun x _ => x) garbage, g, mesh.state⟩⟩ := by
    unfold World.expand World.init
    rw [if_pos (Or.inl (by simp only; omega))]
  have e2 : (World.init mesh garbage).run [.expand g, .split g s] =
      ⟨mesh, ⟨writeAll mesh.regions g (fun x i => x + s i) (writeAll mesh.regions g (fun x _ => x) garbage), g, mesh.state⟩⟩ := by
    show ((World.init mesh garbage).expand g).expandSplit g (some s) = _
    rw [e1]; rfl
  rw [e2, World.expand, if_neg (by simp)]
  exact writeAll_spec _ hs g (fun x i => x + s i) _ r hr i hi

example : Current (((World.init oneRegion (fun _ => 7)).run [.expand 0, .update (fun _ _ => 3)]).expand 0) 0 :=
  C25_expand_partial oneRegion _ _ 0 (by simp [Separate, oneRegion]) (by decide)
    (by intro o ho; rcases List.mem_cons.mp ho with rfl | ho
        · trivial
        · rw [List.mem_singleton] at ho; subst ho; trivial)

end Verif.XS
