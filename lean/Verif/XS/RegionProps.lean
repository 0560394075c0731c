import Verif.XS.RegionModel
import Verif.Scatter.Props
import Mathlib.Tactic.NormNum

/-!
# C94: cross-section regions
-/

namespace Verif.XS.Region

variable {K : Type} [Field K] [LinearOrder K]

open Verif.Scatter

/-- Cross sections as given: one of each kind per group and the dense scattering matrix. -/
structure Given (K : Type) where
  ng : Nat
  tr : Nat → K
  nf : Nat → K
  ch : Nat → K
  f : Nat → K
  scat : Nat → Nat → K

/-- The region holds these cross sections; the removal cross section is what is left of the transport cross section without self-scatter. -/
def Holds (r : Region K) (x : Given K) : Prop :=
  r.sc = build x.ng x.scat ∧ ∀ g < x.ng, r.tr g = x.tr g ∧ r.nf g = x.nf g ∧ r.ch g = x.ch g ∧ r.f g = x.f g ∧ r.rm g = x.tr g - x.scat g g

/-- How a region is made and changed. -/
inductive History (K : Type) where
  | made (rm0 : Nat → K) (x : Given K)
  | empty (tr nf ch f rm : Nat → K)
  | updated (h : History K) (x : Given K)

/-- The region after a history. -/
def History.region : History K → Region K
  | .made rm0 x => create x.tr x.nf x.ch x.f rm0 (build x.ng x.scat)
  | .empty tr nf ch f rm => Region.empty tr nf ch f rm
  | .updated h x => update h.region x.tr x.nf x.ch x.f (build x.ng x.scat)

/-- What was given last. -/
def History.last : History K → Option (Given K)
  | .made _ x => some x
  | .empty _ _ _ _ _ => none
  | .updated _ x => some x

theorem build_ng (ng : Nat) (d : Nat → Nat → K) : (build ng d).ng = ng := by
  unfold build
  have key : ∀ (l : List Nat) (m : Matrix K), (l.foldl (addRow ng d) m).ng = m.ng := by
    intro l
    induction l with
    | nil => intro m; rfl
    | cons x l ih =>
      intro m
      rw [List.foldl_cons, ih]
      unfold addRow
      dsimp only
      have inner : ∀ (gs : List Nat) (m : Matrix K), (gs.foldl (fun (m : Matrix K) g =>
          { m with scat := m.scat ++ [d x g], out := Function.update m.out g (m.out g + d x g) }) m).ng = m.ng := by
        intro gs
        induction gs with
        | nil => intro m; rfl
        | cons g gs ih2 => intro m; rw [List.foldl_cons, ih2]
      exact inner _ _
  exact key _ _

section
variable [IsStrictOrderedRing K]

theorem self_build (ng : Nat) (d : Nat → Nat → K) (g : Nat) (h : g < ng) : ((build ng d).selfScat g).getD 0 = d g g := by
  rw [(C22_to_sound ng d g g h h).2.2]
  rfl

/-- C94: after every history the region holds what it was given last. -/
theorem C94_holds (h : History K) (x : Given K) (hx : h.last = some x) : Holds h.region x := by
  cases h with
  | made rm0 y =>
    cases hx
    refine ⟨rfl, fun g hg => ⟨rfl, rfl, rfl, rfl, ?_⟩⟩
    simp only [History.region, create, build_ng, if_pos hg]
    rw [self_build _ _ _ hg]
  | empty => cases hx
  | updated h y =>
    cases hx
    refine ⟨rfl, fun g hg => ?_⟩
    simp only [History.region, update, build_ng, if_pos hg, self_build _ _ _ hg, and_self]

/-- C94: `update_removal` after the arrays have been overwritten (reading from files) gives the removal cross section of the new values. -/
theorem C94_removal (r : Region K) (ng : Nat) (scat : Nat → Nat → K) (h : r.sc = build ng scat) (g : Nat) (hg : g < ng) :
    (updateRemoval r).rm g = r.tr g - scat g g ∧ (updateRemoval r).tr = r.tr ∧ (updateRemoval r).nf = r.nf ∧ (updateRemoval r).sc = r.sc := by
  refine ⟨?_, rfl, rfl, rfl⟩
  simp only [updateRemoval, h, build_ng, if_pos hg]
  rw [self_build _ _ _ hg]

end

/-- C94, full claim on fissile regions: `is_fissile` tells whether there is a group with fission. -/
def C94_fissile_claim : Prop := ∀ (h : History ℚ) (x : Given ℚ), h.last = some x →
  (h.region.fissile = true ↔ ∃ g < x.ng, 0 < x.nf g)

/-- C94: true of regions that have not been updated. -/
theorem C94_fissile_partial (rm0 : Nat → K) (x : Given K) :
    (History.region (.made rm0 x)).fissile = true ↔ ∃ g < x.ng, 0 < x.nf g := by
  simp [History.region, create, build_ng]

/-- C94: updates do not change whether a region counts as fissile. -/
theorem C94_fissile_kept (h : History K) (x : Given K) : (History.region (.updated h x)).fissile = h.region.fissile := rfl

/-- A region of the homogenised mesh, after any number of updates. -/
def Homogenised : History K → Prop
  | .made _ _ => False
  | .empty _ _ _ _ _ => True
  | .updated h _ => Homogenised h

/-- C94: no region of a homogenised mesh is ever fissile. -/
theorem C94_never_fissile (h : History K) (hh : Homogenised h) : h.region.fissile = false := by
  induction h with
  | made rm0 x => exact hh.elim
  | empty tr nf ch f rm => rfl
  | updated h x ih => exact ih hh

theorem C94_fissile_claim_false : ¬ C94_fissile_claim := by
  intro h
  have h1 := h (.updated (.empty (fun _ => 0) (fun _ => 0) (fun _ => 0) (fun _ => 0) (fun _ => 0))
    ⟨1, fun _ => 1, fun _ => 1, fun _ => 1, fun _ => 1, fun _ _ => 0⟩) _ rfl
  have h2 := h1.2 ⟨0, by decide, by norm_num⟩
  exact absurd h2 (by simp [History.region, update, Region.empty, create])

/-- C94: regions that compare equal have the same number of groups and, up to the tolerance of the comparison, the same transport, fission and
removal cross sections; their matrices compare equal (C54). -/
theorem C94_equal_partial (same : K → K → Bool) (a b : Region K) (h : eqv same a b = true) :
    a.sc.ng = b.sc.ng ∧ ∀ g < a.sc.ng, same (a.tr g) (b.tr g) = true ∧ same (a.nf g) (b.nf g) = true ∧ same (a.f g) (b.f g) = true ∧
      same (a.rm g) (b.rm g) = true ∧ a.sc.eqv b.sc = true := by
  unfold eqv at h
  split at h
  · cases h
  · next hn =>
    refine ⟨by simpa using hn, fun g hg => ?_⟩
    have := List.all_eq_true.1 h g (List.mem_range.2 hg)
    simp only [Bool.and_eq_true] at this
    obtain ⟨⟨⟨⟨h1, h2⟩, h3⟩, h4⟩, h5⟩ := this
    exact ⟨h1, h2, h3, h4, h5⟩

/-- C94: a copy compares equal, if every number is the same as itself. -/
theorem C94_equal_refl (same : K → K → Bool) (hs : ∀ a, same a a = true) (a : Region K) : eqv same a a = true := by
  simp [eqv, hs, Matrix.eqv]

/-- C94, full claim on equality: regions that compare equal have the same spectrum of fission neutrons, too. -/
def C94_equal_claim : Prop := ∀ (same : ℚ → ℚ → Bool), (∀ a b, same a b = true ↔ a = b) → ∀ a b : Region ℚ,
  eqv same a b = true → ∀ g < a.sc.ng, a.ch g = b.ch g

theorem C94_equal_claim_false : ¬ C94_equal_claim := by
  intro h
  have h1 := h (fun a b => decide (a = b)) (by simp) (create (fun _ => 1) (fun _ => 1) (fun _ => 0) (fun _ => 1) (fun _ => 0) (build 1 fun _ _ => 0))
    (create (fun _ => 1) (fun _ => 1) (fun _ => 1) (fun _ => 1) (fun _ => 0) (build 1 fun _ _ => 0)) (by decide +kernel) 0 (by decide +kernel)
  simp [create] at h1

example : (History.region (.made (fun _ => (0 : ℚ)) ⟨2, fun g => g + 1, fun g => g, fun _ => 0, fun _ => 0, fun i j => if i = j then 1/2 else 0⟩)).rm 1 = 3/2 := by
  decide +kernel

example : (History.updated (.empty (fun _ => (0 : ℚ)) (fun _ => 0) (fun _ => 0) (fun _ => 0) (fun _ => 0))
    ⟨1, fun _ => 1, fun _ => 1, fun _ => 1, fun _ => 1, fun _ _ => 0⟩).last.isSome = true := rfl

end Verif.XS.Region
