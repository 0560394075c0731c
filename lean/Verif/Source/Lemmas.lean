import Verif.Source.Model
import Verif.Scatter.Props
import Mathlib.Algebra.BigOperators.Ring.Finset
import Mathlib.Algebra.BigOperators.Field
import Mathlib.Tactic.Ring
import Mathlib.Tactic.FieldSimp
import Mathlib.Tactic.Linarith

set_option linter.unusedSectionVars false

namespace Verif.Source
open Verif.XS Verif.Scatter

variable {K : Type} [Field K] [LinearOrder K] [IsStrictOrderedRing K]

/-- Each region index is listed at most once (C24: the cross-section mesh is like that). -/
def Partition {M : Type} (rs : List (XsRegion M)) : Prop :=
  (∀ x ∈ rs, x.regs.Nodup) ∧ rs.Pairwise (fun x y => ∀ i, i ∈ x.regs → i ∉ y.regs)

theorem addTo_eq (regs : List Nat) (hnd : regs.Nodup) (f a : Nat → K) (i : Nat) :
    addTo regs f a i = a i + if i ∈ regs then f i else 0 := by
  unfold addTo
  induction regs generalizing a with
  | nil => simp
  | cons j t ih =>
    rw [List.nodup_cons] at hnd
    rw [List.foldl_cons, ih hnd.2]
    by_cases hj : i = j
    · subst hj; simp [hnd.1]
    · simp [hj]

theorem addTo_not_mem (regs : List Nat) (f a : Nat → K) (i : Nat) (h : i ∉ regs) : addTo regs f a i = a i := by
  unfold addTo
  induction regs generalizing a with
  | nil => rfl
  | cons j t ih =>
    rw [List.mem_cons, not_or] at h
    rw [List.foldl_cons, ih _ h.2, Function.update_of_ne h.1]

theorem setTo_eq (regs : List Nat) (f a : Nat → K) (i : Nat) : setTo regs f a i = if i ∈ regs then f i else a i := by
  unfold setTo
  induction regs generalizing a with
  | nil => simp
  | cons j t ih =>
    rw [List.foldl_cons, ih]
    by_cases hi : i ∈ t
    · simp [hi]
    · by_cases hj : i = j
      · subst hj; simp [hi]
      · simp [hi, hj]

/-- A loop over the cross-section regions, each acting only on its own indices, gives at index `i` what the region
containing `i` makes of it. -/
theorem loop_at {M : Type} (rs : List (XsRegion M)) (hp : Partition rs) (step : (Nat → K) → XsRegion M → (Nat → K))
    (hloc : ∀ x ∈ rs, ∀ a i, i ∉ x.regs → step a x i = a i)
    (hdep : ∀ x ∈ rs, ∀ a b i, i ∈ x.regs → a i = b i → step a x i = step b x i)
    (x : XsRegion M) (hx : x ∈ rs) (i : Nat) (hi : i ∈ x.regs) (a : Nat → K) :
    rs.foldl step a i = step a x i := by
  have other : ∀ (l : List (XsRegion M)), (∀ y ∈ l, ∀ a i, i ∉ y.regs → step a y i = a i) → (∀ y ∈ l, i ∉ y.regs) →
      ∀ a, l.foldl step a i = a i := by
    intro l h1 h2
    induction l with
    | nil => intro a; rfl
    | cons y t ih =>
      intro a
      rw [List.foldl_cons, ih (fun z hz => h1 z (List.mem_cons_of_mem _ hz)) (fun z hz => h2 z (List.mem_cons_of_mem _ hz)),
        h1 y List.mem_cons_self a i (h2 y List.mem_cons_self)]
  induction rs generalizing a with
  | nil => simp at hx
  | cons y t ih =>
    obtain ⟨hp1, hp2⟩ := hp
    rw [List.pairwise_cons] at hp2
    rw [List.foldl_cons]
    rcases List.mem_cons.mp hx with rfl | hx'
    · exact other t (fun z hz => hloc z (List.mem_cons_of_mem _ hz)) (fun z hz => hp2.1 z hz i hi) _
    · rw [ih ⟨fun z hz => hp1 z (List.mem_cons_of_mem _ hz), hp2.2⟩ (fun z hz => hloc z (List.mem_cons_of_mem _ hz))
        (fun z hz => hdep z (List.mem_cons_of_mem _ hz)) hx']
      apply hdep x hx _ _ i hi
      apply hloc y List.mem_cons_self
      intro hc
      exact hp2.1 x hx' i hc hi

theorem fission_at (rs : List (XsRegion (Mat K))) (hp : Partition rs) (fs : Nat → K) (ig : Nat) (a : Nat → K)
    (x : XsRegion (Mat K)) (hx : x ∈ rs) (i : Nat) (hi : i ∈ x.regs) :
    fission rs fs ig a i = a i + x.mat.ch ig * fs i := by
  unfold fission
  rw [loop_at rs hp _ _ _ x hx i hi]
  · rw [addTo_eq _ (hp.1 x hx), if_pos hi]
  · intro y _ a j hj; exact addTo_not_mem _ _ _ _ hj
  · intro y hy a b j hj hab
    rw [addTo_eq _ (hp.1 y hy), addTo_eq _ (hp.1 y hy), hab]

theorem groups_loop (gs : List Nat) (ig : Nat) (regs : List Nat) (hnd : regs.Nodup) (f : Nat → Nat → K) (a : Nat → K)
    (i : Nat) :
    gs.foldl (fun a igg => if igg ≠ ig then addTo regs (f igg) a else a) a i =
      a i + if i ∈ regs then (gs.map fun g => if g ≠ ig then f g i else 0).sum else 0 := by
  induction gs generalizing a with
  | nil => simp
  | cons g t ih =>
    rw [List.foldl_cons, ih]
    by_cases hg : g ≠ ig
    · rw [if_pos hg, addTo_eq _ hnd]
      by_cases hi : i ∈ regs
      · simp [hi, hg]; ring
      · simp [hi]
    · rw [if_neg hg]
      simp [not_not.mp hg]

theorem sum_groups_sub (f : Nat → K) (lo hi n : Nat) (h : hi < n) :
    ((groups lo hi).map f).sum = ∑ g ∈ Finset.range n, if lo ≤ g ∧ g ≤ hi then f g else 0 := by
  rw [← List.sum_toFinset f (groups_nodup lo hi), ← Finset.sum_filter]
  apply Finset.sum_congr _ (fun _ _ => rfl)
  ext g
  simp only [List.mem_toFinset, mem_groups, Finset.mem_filter, Finset.mem_range]
  constructor
  · rintro ⟨h1, h2⟩; exact ⟨by omega, h1, h2⟩
  · rintro ⟨-, h⟩; exact h

theorem inScatter_at (ng : Nat) (rs : List (XsRegion (Mat K))) (hp : Partition rs) (flux : Nat → Nat → K) (ig : Nat)
    (hig : ig < ng) (a : Nat → K) (x : XsRegion (Mat K)) (hx : x ∈ rs) (i : Nat) (hi : i ∈ x.regs)
    (hn : ∀ p q, p < ng → q < ng → 0 ≤ x.mat.sc p q) :
    inScatter ng rs flux ig a i = a i + ∑ g ∈ Finset.range ng, if g ≠ ig then x.mat.sc ig g * flux i g else 0 := by
  have hrow : ∀ y : XsRegion (Mat K), ∃ r, (build ng y.mat.sc).rows[ig]? = some r ∧ r.minG = (bounds ng y.mat.sc ig).1 ∧
      r.maxG = (bounds ng y.mat.sc ig).2 := by
    intro y
    obtain ⟨r, r1, r2, r3, -⟩ := (build_inv ng y.mat.sc ng).2.2.1 ig hig
    exact ⟨r, r1, r2, r3⟩
  have hstep : ∀ y ∈ rs, ∀ (a : Nat → K) j,
      (if y.regs.length = 0 then a
        else match (build ng y.mat.sc).rows[ig]? with
          | none => a
          | some row => (groups row.minG row.maxG).foldl (fun a igg =>
              if igg ≠ ig then addTo y.regs (fun i => ((build ng y.mat.sc).get ig igg).getD 0 * flux i igg) a else a) a) j =
      a j + if j ∈ y.regs then ((groups (bounds ng y.mat.sc ig).1 (bounds ng y.mat.sc ig).2).map fun g =>
        if g ≠ ig then ((build ng y.mat.sc).get ig g).getD 0 * flux j g else 0).sum else 0 := by
    intro y hy a j
    by_cases hl : y.regs.length = 0
    · rw [if_pos hl]
      have : y.regs = [] := List.length_eq_zero_iff.mp hl
      simp [this]
    · rw [if_neg hl]
      obtain ⟨r, r1, r2, r3⟩ := hrow y
      rw [r1]
      simp only
      rw [groups_loop _ ig y.regs (hp.1 y hy) (fun igg i => ((build ng y.mat.sc).get ig igg).getD 0 * flux i igg), r2, r3]
  unfold inScatter
  rw [loop_at rs hp _ _ _ x hx i hi]
  · refine (hstep x hx a i).trans ?_
    rw [if_pos hi, sum_groups_sub _ _ _ ng (bounds_props ng x.mat.sc ig hig).2.2.1]
    congr 1
    apply Finset.sum_congr rfl
    intro g hg
    rw [Finset.mem_range] at hg
    have hb := band ng x.mat.sc hn ig g hig hg
    rw [build_get ng x.mat.sc ig g hig]
    by_cases hc : (bounds ng x.mat.sc ig).1 ≤ g ∧ g ≤ (bounds ng x.mat.sc ig).2
    · rw [if_pos hc, if_pos hc]; rfl
    · rw [if_neg hc] at hb ⊢
      rw [← hb]; simp
  · intro y hy a j hj
    refine (hstep y hy a j).trans ?_
    rw [if_neg hj, add_zero]
  · intro y hy a b j hj hab
    refine (hstep y hy a j).trans ((?_ : _ = _).trans (hstep y hy b j).symm)
    rw [hab]

theorem selfScatter_at (fpi : K) (ng : Nat) (rs : List (XsRegion (Mat K))) (hp : Partition rs) (flux : Nat → Nat → K)
    (ig : Nat) (hig : ig < ng) (src : Nat → K) (given : Bool) (q : Nat → K) (x : XsRegion (Mat K)) (hx : x ∈ rs) (i : Nat)
    (hi : i ∈ x.regs) :
    selfScatter fpi ng rs flux ig src given q i =
      (src i + flux i ig * x.mat.sc ig ig) * (if given then 1 / (x.mat.tr ig * fpi) else 1 / fpi) := by
  have hd : ((build ng x.mat.sc).get ig ig).getD 0 = x.mat.sc ig ig := by
    have := (C22_to_sound ng x.mat.sc ig ig hig hig).2.2
    unfold Matrix.selfScat at this
    rw [this]; rfl
  unfold selfScatter
  cases given
  · simp only [Bool.false_eq_true, if_false]
    rw [loop_at rs hp _ _ _ x hx i hi]
    · rw [setTo_eq, if_pos hi, hd]
    · intro y _ a j hj; rw [setTo_eq, if_neg hj]
    · intro y _ a b j hj _; rw [setTo_eq, setTo_eq, if_pos hj, if_pos hj]
  · simp only [if_true]
    rw [loop_at rs hp _ _ _ x hx i hi]
    · rw [setTo_eq, if_pos hi, hd]
    · intro y _ a j hj; rw [setTo_eq, if_neg hj]
    · intro y _ a b j hj _; rw [setTo_eq, setTo_eq, if_pos hj, if_pos hj]

end Verif.Source
