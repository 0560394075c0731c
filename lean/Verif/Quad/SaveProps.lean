import Verif.Quad.UserProps
import Verif.Quad.LevelSymProps

/-!
# C91: saving, restoring and assigning quadratures
-/

namespace Verif.Quad.User

open Verif.Dir Verif.Quad.LS Verif.Quad.Product

section
variable {K : Type} [Field K] [LinearOrder K]

/-- The reciprocal sine of the angle is the one computed from its cosines. -/
def Agrees (T : Trig K) (d : Direction K) : Prop := (ofCosines T d.ox d.oy d.oz).rsintheta = d.rsintheta

theorem restoreAngle_output (T : Trig K) (q : AngQuad K) (i : Nat) (hi : i < q.angles.length) (h : ∀ a ∈ q.angles, Agrees T a.1) :
    restoreAngle T (output q) i = some q.angles[i] := by
  unfold restoreAngle output
  simp only [List.getElem?_map, List.getElem?_eq_getElem hi, Option.map_some]
  have := h q.angles[i] (List.getElem_mem hi)
  unfold Agrees at this
  congr 1
  ext1
  · show ({ ofCosines T _ _ _ with theta := _, alpha := _ } : Direction K) = _
    have e : ∀ d d' : Direction K, d.ox = d'.ox → d.oy = d'.oy → d.oz = d'.oz → d.alpha = d'.alpha → d.theta = d'.theta →
        d.rsintheta = d'.rsintheta → d = d' := by
      intro d d' h1 h2 h3 h4 h5 h6
      cases d; cases d'; simp_all
    exact e _ _ rfl rfl rfl rfl rfl this
  · rfl

/-- C91: a quadrature that has been written is read back with the same numbers and the same angles, in the same order; only its type becomes that
of an imported one. -/
theorem C91_round_trip (T : Trig K) (q : AngQuad K) (hn : q.angles.length = 8 * q.ndirOct) (h : ∀ a ∈ q.angles, Agrees T a.1) :
    restore T (output q) = .ok { q with type := .IMPORT } := by
  have hl : (output q).ox.length = q.angles.length := by simp [output]
  unfold restore
  rw [if_neg (by simp [output]), if_neg (by rw [hl, hn]; omega), hl]
  have hm : (List.range q.angles.length).mapM (restoreAngle T (output q)) = some q.angles := by
    rw [mapM_all (restoreAngle T (output q)) (fun i => (q.angles[i]?).getD (ofCosines T 0 0 0, 0)) (List.range q.angles.length)]
    · congr 1
      apply List.ext_getElem
      · simp
      · intro i h1 h2
        simp [List.getElem?_eq_getElem h2]
    · intro i hi
      rw [List.mem_range] at hi
      rw [restoreAngle_output T q i hi h, List.getElem?_eq_getElem hi]
      rfl
  rw [hm]
  dsimp only
  rw [show q.angles.length / 8 = q.ndirOct by omega]
  rfl

theorem octant_agrees (T : Trig K) (d : Direction K) (o : Nat) : Agrees T (toOctant T d o) := by
  unfold Agrees toOctant
  split <;> rfl

theorem length_expandAll (T : Trig K) (first : List (Direction K × K)) : (expandAll T first).length = 8 * first.length := by
  unfold expandAll
  simp only [List.range, List.range.loop, List.flatMap_cons, List.flatMap_nil, List.length_append, List.length_map, List.length_nil]
  omega

/-- C91: every quadrature made from angles of the first octant that agree with their cosines survives writing and reading. -/
theorem C91_constructed (T : Trig K) (type : QType) (nAzi nPolar : Int) (first : List (Direction K × K)) (h : ∀ a ∈ first, Agrees T a.1) :
    restore T (output (construct T type nAzi nPolar first)) = .ok { construct T type nAzi nPolar first with type := .IMPORT } := by
  apply C91_round_trip
  · exact length_expandAll T first
  · intro a ha
    unfold construct expandAll at ha
    rcases List.mem_append.mp ha with ha | ha
    · exact h a ha
    · obtain ⟨i, -, hi⟩ := List.mem_flatMap.mp ha
      obtain ⟨b, -, rfl⟩ := List.mem_map.mp hi
      exact octant_agrees T b.1 (i + 2)

/-- Sizes that are accepted: as many components and weights of each kind, a multiple of eight. -/
def Sizes (s : Saved K) : Prop :=
  s.oy.length = s.ox.length ∧ s.oz.length = s.ox.length ∧ s.weight.length = s.ox.length ∧ 8 ∣ s.ox.length

theorem restoreAngle_some (T : Trig K) (s : Saved K) (hs : Sizes s) (i : Nat) (hi : i < s.ox.length) :
    (∃ a, restoreAngle T s i = some a) ↔ i < s.alpha.length ∧ i < s.theta.length := by
  obtain ⟨h1, h2, h3, -⟩ := hs
  unfold restoreAngle
  rw [List.getElem?_eq_getElem hi, List.getElem?_eq_getElem (by omega : i < s.oy.length), List.getElem?_eq_getElem (by omega : i < s.oz.length),
    List.getElem?_eq_getElem (by omega : i < s.weight.length)]
  constructor
  · rintro ⟨a, ha⟩
    by_contra hc
    rw [not_and_or] at hc
    rcases hc with hc | hc
    · rw [List.getElem?_eq_none (by omega : s.alpha.length ≤ i)] at ha
      simp at ha
    · rw [List.getElem?_eq_none (by omega : s.theta.length ≤ i)] at ha
      simp at ha
  · rintro ⟨ha, ht⟩
    rw [List.getElem?_eq_getElem ha, List.getElem?_eq_getElem ht]
    exact ⟨_, rfl⟩

theorem mapM_range_some {β : Type} (f : Nat → Option β) (n : Nat) :
    (∃ r, (List.range n).mapM f = some r) ↔ ∀ i < n, ∃ b, f i = some b := by
  constructor
  · rintro ⟨r, hr⟩ i hi
    have hf := mapM_forall₂ _ _ _ hr
    have := (List.forall₂_iff_get.mp hf).2 i (by simpa using hi) (by rw [← hf.length_eq]; simpa using hi)
    simp only [List.get_eq_getElem, List.getElem_range] at this
    exact ⟨_, this⟩
  · intro h
    rcases Nat.eq_zero_or_pos n with rfl | hn
    · exact ⟨[], rfl⟩
    · obtain ⟨b0, -⟩ := h 0 hn
      refine ⟨_, mapM_all f (fun i => (f i).getD b0) _ ?_⟩
      intro i hi
      obtain ⟨b, hb⟩ := h i (by simpa using hi)
      rw [hb]; rfl

/-- C91: what becomes of any file.  It is rejected exactly if the numbers of components and weights differ or are no multiple of eight; otherwise
a read past the end of a vector occurs exactly if there are fewer azimuths or polar angles, whose numbers are not compared. -/
theorem C91_outcomes (T : Trig K) (s : Saved K) :
    (restore T s = .throws ↔ ¬ Sizes s) ∧
    (restore T s = .ub ↔ Sizes s ∧ (s.alpha.length < s.ox.length ∨ s.theta.length < s.ox.length)) := by
  unfold restore
  by_cases h1 : s.ox.length ≠ s.oy.length ∨ s.ox.length ≠ s.oz.length ∨ s.ox.length ≠ s.weight.length
  · have hn : ¬ Sizes s := fun ⟨a, b, c, _⟩ => by omega
    rw [if_pos h1]
    simp [hn]
  rw [if_neg h1]
  push Not at h1
  by_cases h2 : s.ox.length % 8 ≠ 0
  · have hn : ¬ Sizes s := fun ⟨_, _, _, d⟩ => by omega
    rw [if_pos h2]
    simp [hn]
  rw [if_neg h2]
  push Not at h2
  have hs : Sizes s := ⟨h1.1.symm, h1.2.1.symm, h1.2.2.symm, Nat.dvd_of_mod_eq_zero h2⟩
  have key := mapM_range_some (restoreAngle T s) s.ox.length
  cases hm : (List.range s.ox.length).mapM (restoreAngle T s) with
  | some r =>
    have hall := key.mp ⟨r, hm⟩
    have : ¬ (s.alpha.length < s.ox.length ∨ s.theta.length < s.ox.length) := by
      rintro (hc | hc)
      · have := (restoreAngle_some T s hs s.alpha.length hc).mp (hall _ hc); omega
      · have := (restoreAngle_some T s hs s.theta.length hc).mp (hall _ hc); omega
    simp [hs, this]
  | none =>
    have : s.alpha.length < s.ox.length ∨ s.theta.length < s.ox.length := by
      by_contra hc
      push Not at hc
      have := key.mpr fun i hi => (restoreAngle_some T s hs i hi).mpr ⟨by omega, by omega⟩
      rw [hm] at this
      obtain ⟨r, hr⟩ := this
      cases hr
    simp [hs, this]

/-- C91: assignment is refused exactly if the numbers of azimuths or polar angles differ, and otherwise copies everything. -/
theorem C91_assign (dest src : AngQuad K) :
    (assign dest src = none ↔ dest.nPolar ≠ src.nPolar ∨ dest.nAzi ≠ src.nAzi) ∧
    (∀ q, assign dest src = some q → q = src) := by
  unfold assign
  split_ifs with h
  · exact ⟨⟨fun _ => h, fun _ => rfl⟩, fun q hq => by cases hq⟩
  · constructor
    · constructor
      · intro hc; cases hc
      · intro hc; exact absurd hc h
    · intro q hq; cases hq; rfl

/-- C91, the claim of the comment in `operator=`: what passes the check is compatible, that is the number of directions does not change. -/
def C91_claim : Prop := ∀ (dest src q : AngQuad ℝ), dest.angles.length = 8 * dest.ndirOct → src.angles.length = 8 * src.ndirOct →
  assign dest src = some q → q.ndirOct = dest.ndirOct

end

/-- The quadrature of the tag `ang_quad` of type `ls`: `n_azimuthal` and `n_polar` are missing and taken as -1 (angular_quadrature.cpp:59-60). -/
noncomputable def lsQuad (angles : List (Quad.Angle ℝ)) : AngQuad ℝ :=
  construct real .LS (-1) (-1) (angles.map fun a => (ofCosines real a.ox a.oy a.oz, a.weight))

/-- C91: level-symmetric quadratures of any two orders pass the check. -/
theorem C91_level_symmetric (a b : List (Quad.Angle ℝ)) : assign (lsQuad a) (lsQuad b) = some (lsQuad b) := by
  unfold assign
  rw [if_neg (by simp [lsQuad, construct])]

/-- C91 is false: a level-symmetric quadrature of order 2 takes over one of order 4, with three times as many directions. -/
theorem C91_claim_false : ¬ C91_claim := by
  intro h
  obtain ⟨a, -, ha, -⟩ := C21_low_orders_partial 2 (by decide) (by decide) (by decide)
  obtain ⟨b, -, hb, -⟩ := C21_low_orders_partial 4 (by decide) (by decide) (by decide)
  have := h (lsQuad a) (lsQuad b) _ (length_expandAll _ _) (length_expandAll _ _) (C91_level_symmetric _ _)
  simp only [lsQuad, construct, List.length_map] at this
  have h1 := ha.1
  have h2 := hb.1
  omega

/-- Angles inside of the first octant, those of accepted proper user quadratures among them, agree with their cosines. -/
theorem agrees_of_inside (d : Direction ℝ) (h : Inside d) : Agrees real d := by
  obtain ⟨hx, hy, hz, al, th, rs, e1, e2, e3, a0, a1, t0, t1, c1, c2, c3, c4⟩ := h
  have hs : 0 < Real.sin th := Real.sin_pos_of_pos_of_lt_pi t0 (by linarith [Real.pi_pos])
  have := (C78_of_angles al th a0.le (by linarith [Real.pi_pos]) t0 (by linarith [Real.pi_pos])).2
  unfold Agrees
  rw [e3, ← c1, ← c2, ← c3]
  have e : ofCosines real (Real.sin th * Real.cos al) (Real.sin th * Real.sin al) (Real.cos th) = ofAngles real al th := this.2
  rw [e, this.1]
  congr 1
  field_simp
  linarith

/-- C91: a proper user quadrature survives writing and reading. -/
theorem C91_user {same : ℝ → ℝ → Bool} (h1 : same 1 1 = true) (tags : List (AngleTag ℝ)) (h : ∀ t ∈ tags, Proper t)
    (hw : (tags.map fun t => t.weight.getD 0).sum = 1) :
    ∃ as, genUser real Real.sqrt same tags = some as ∧ restore real (output (construct real .USER (-1) (-1) as)) =
      .ok { construct real .USER (-1) (-1) as with type := .IMPORT } := by
  obtain ⟨as, e, hin⟩ := C90_complete h1 tags h hw
  exact ⟨as, e, C91_constructed _ _ _ _ _ fun a ha => agrees_of_inside a.1 (hin a ha)⟩

/-- Eight directions, seven azimuths. -/
example : restore real ⟨1, 1, List.replicate 7 (some 0), List.replicate 8 (some 1), List.replicate 8 1, List.replicate 8 1, List.replicate 8 1,
    List.replicate 8 1⟩ = .ub := by
  rw [(C91_outcomes real _).2]
  simp [Sizes]

end Verif.Quad.User
