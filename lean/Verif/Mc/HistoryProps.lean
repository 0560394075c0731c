import Verif.Mc.CollideProps
import Verif.Mc.PushProps
import Mathlib.Algebra.BigOperators.Ring.Finset
import Mathlib.Algebra.BigOperators.Group.Finset.Piecewise

/-!
# C81: the tallies of a history
-/

namespace Verif.Mc

open Verif.Mesh

variable {K : Type} [Field K] [LinearOrder K] [IsStrictOrderedRing K] [FloorSemiring K]

/-- The location gives regions of the pin it names: `owner` is the coarse cell of a region. -/
def GoodGeo (e : Env K) (nReg : Nat) (owner : Nat → Nat) : Prop :=
  ∀ p o x y o', 0 ≤ (e.locate p o).offset + (e.locate p o).find x y o' →
    ((e.locate p o).offset + (e.locate p o).find x y o').toNat < nReg ∧
    owner ((e.locate p o).offset + (e.locate p o).find x y o').toNat = (e.locate p o).pin

/-- Sum over the regions of the coarse cell `c`. -/
def inCell (nReg : Nat) (owner : Nat → Nat) (c : Nat) (a : Nat → K) : K := ∑ i ∈ (Finset.range nReg).filter (fun i => owner i = c), a i

/-- The track-length and collision tallies say the same about a history: coarse flux is the sum of the fine fluxes of the cell; k and
fission rates are those of the fine fluxes. -/
structure Consistent (e : Env K) (ng nReg : Nat) (owner : Nat → Nat) (t : Tallies K) : Prop where
  flux : ∀ g c, t.flux g c = inCell nReg owner c (t.fine g)
  kTl : t.kTl = ∑ g ∈ Finset.range ng, ∑ i ∈ Finset.range nReg, t.fine g i * (e.xs (e.xsOf i)).nf g
  power : ∀ c, t.pinPower c = ∑ g ∈ Finset.range ng, inCell nReg owner c (fun i => t.fine g i * (e.xs (e.xsOf i)).f g)
  kCol : t.kCol = ∑ g ∈ Finset.range ng, ∑ i ∈ Finset.range nReg, t.fineCol g i * (e.xs (e.xsOf i)).nf g

/-- What holds of a history at the start of each pass of the loop. -/
structure Ready (e : Env K) (ng nReg : Nat) (owner : Nat → Nat) (h : Hist K) : Prop where
  loc : ∃ p o, h.loc = e.locate p o
  reg : h.reg < nReg
  own : owner h.reg = h.loc.pin
  xsreg : h.xsreg = e.xsOf h.reg
  grp : h.group < ng
  lx : h.place.lx = h.place.g.x - h.loc.ox
  ly : h.place.ly = h.place.g.y - h.loc.oy
  tallies : Consistent e ng nReg owner h.t

theorem sum_ite_add (S : Finset Nat) (a : Nat → K) (i0 : Nat) (v : K) :
    ∑ i ∈ S, (a i + if i = i0 then v else 0) = ∑ i ∈ S, a i + if i0 ∈ S then v else 0 := by
  rw [Finset.sum_add_distrib, Finset.sum_ite_eq']

theorem sum_add2 (ng : Nat) (S : Finset Nat) (a c : Nat → Nat → K) (g0 i0 : Nat) (v : K) (hg : g0 < ng) :
    ∑ g ∈ Finset.range ng, ∑ i ∈ S, add2 a g0 i0 v g i * c g i =
      ∑ g ∈ Finset.range ng, ∑ i ∈ S, a g i * c g i + if i0 ∈ S then v * c g0 i0 else 0 := by
  have h1 : ∀ g, ∑ i ∈ S, add2 a g0 i0 v g i * c g i =
      ∑ i ∈ S, a g i * c g i + if g = g0 then (if i0 ∈ S then v * c g0 i0 else 0) else 0 := by
    intro g
    have h2 : ∀ i, add2 a g0 i0 v g i * c g i = a g i * c g i + if i = i0 then (if g = g0 then v * c g0 i0 else 0) else 0 := by
      intro i
      rw [add2_at, add_mul]
      congr 1
      by_cases hgg : g = g0
      · subst hgg
        by_cases hi : i = i0
        · subst hi; simp
        · simp [hi]
      · simp [hgg]
    simp only [h2]
    rw [sum_ite_add]
    congr 1
    by_cases hgg : g = g0 <;> simp [hgg]
  simp only [h1]
  rw [Finset.sum_add_distrib, Finset.sum_ite_eq', if_pos (Finset.mem_range.mpr hg)]

/-- A flight keeps the tallies consistent. -/
theorem consistent_track (e : Env K) (ng nReg : Nat) (owner : Nat → Nat) (h : Hist K) (hr : Ready e ng nReg owner h) (tl : K) :
    Consistent e ng nReg owner (scoreTrack (e.xs h.xsreg) h tl) := by
  obtain ⟨c1, c2, c3, c4⟩ := hr.tallies
  have hmem : h.reg ∈ Finset.range nReg := Finset.mem_range.mpr hr.reg
  refine ⟨fun g c => ?_, ?_, fun c => ?_, c4⟩
  · simp only [scoreTrack, inCell, add2_at]
    rw [c1]
    by_cases hg : g = h.group
    · subst hg
      simp only [true_and]
      rw [sum_ite_add, inCell]
      congr 1
      simp only [Finset.mem_filter, hmem, hr.own, true_and, eq_comm]
    · simp [hg, inCell]
  · simp only [scoreTrack]
    rw [sum_add2 ng _ _ (fun g i => (e.xs (e.xsOf i)).nf g) _ _ _ hr.grp, if_pos hmem, ← c2, hr.xsreg]
  · simp only [scoreTrack, inCell]
    rw [sum_add2 ng _ _ (fun g i => (e.xs (e.xsOf i)).f g) _ _ _ hr.grp]
    have h3 := c3 c
    simp only [inCell] at h3
    rw [← h3, ← hr.xsreg]
    by_cases hc : c = h.loc.pin
    · subst hc; simp [add1, Finset.mem_filter, hr.reg, hr.own]
    · have : ¬ h.loc.pin = c := fun h => hc h.symm
      simp [add1, hc, Finset.mem_filter, hr.own, this]

theorem move_lx (bump d : K) (o : Vec3 K) (p : Place K) (a : K) (h : p.lx = p.g.x - a) : (move bump d o p).lx = (move bump d o p).g.x - a := by
  have := (C79_move_alike bump d o p).1
  linarith

theorem move_ly (bump d : K) (o : Vec3 K) (p : Place K) (a : K) (h : p.ly = p.g.y - a) : (move bump d o p).ly = (move bump d o p).g.y - a := by
  have := (C79_move_alike bump d o p).2
  linarith

theorem collide_ready (e : Env K) (ng nReg : Nat) (owner : Nat → Nat) (hng : ∀ i, (e.xs i).sc.ng = ng) (h h' : Hist K)
    (hr : Ready e ng nReg owner h) (hc : collide e h = .ok h') : Ready e ng nReg owner h' := by
  obtain ⟨r1, r2, r3, r4, r5, r6, r7, c1, c2, c3, c4⟩ := hr
  have hmem : h.reg ∈ Finset.range nReg := Finset.mem_range.mpr r2
  have hT : ∀ kk, kk = h.w * (e.xs h.xsreg).nf h.group / (e.xs h.xsreg).tr h.group →
      Consistent e ng nReg owner { h.t with
        kCol := h.t.kCol + kk
        fineCol := add2 h.t.fineCol h.group h.reg (h.w / (e.xs h.xsreg).tr h.group) } := by
    intro kk hk
    refine ⟨c1, c2, c3, ?_⟩
    simp only
    rw [sum_add2 ng _ _ (fun g i => (e.xs (e.xsOf i)).nf g) _ _ _ r5, if_pos hmem, ← c4, hk, r4]
    ring
  have hT := hT _ rfl
  simp only [collide] at hc
  split at hc
  · exact absurd hc (by simp)
  · split_ifs at hc with q1 q2 q3 q4 q5
    · obtain rfl := Out.ok.inj hc
      exact ⟨r1, r2, r3, r4, by rw [hng] at q3; exact q3, r6, r7, hT⟩
    · obtain rfl := Out.ok.inj hc
      exact ⟨r1, r2, r3, r4, r5, r6, r7, hT⟩
    · obtain rfl := Out.ok.inj hc
      exact ⟨r1, r2, r3, r4, r5, r6, r7, hT⟩

theorem relocate_ready (e : Env K) (ng nReg : Nat) (owner : Nat → Nat) (hg : GoodGeo e nReg owner) (h h' : Hist K)
    (hgrp : h.group < ng) (ht : Consistent e ng nReg owner h.t) (hc : relocate e h = .ok h') : Ready e ng nReg owner h' := by
  simp only [relocate] at hc
  split_ifs at hc with q
  obtain rfl := Out.ok.inj hc
  obtain ⟨g1, g2⟩ := hg h.place.g h.o _ _ _ (not_lt.mp q)
  exact ⟨⟨_, _, rfl⟩, g1, g2, rfl, hgrp, rfl, rfl, ht⟩

theorem cross_local (e : Env K) (d : K) (h : Hist K) (p : Place K) (hit : Hit K) (a b : K) (hx : h.place.lx = h.place.g.x - a)
    (hy : h.place.ly = h.place.g.y - b) (hc : cross e.extent e.bc e.bump d h.o h.place = some (p, hit)) :
    p.lx = p.g.x - a ∧ p.ly = p.g.y - b := by
  simp only [cross, Option.bind_eq_bind, Option.bind_eq_some_iff, Option.pure_def, Option.some.injEq, Prod.mk.injEq] at hc
  obtain ⟨h0, -, h1, -, h2, -, hp, -⟩ := hc
  rw [← hp]
  split_ifs
  · exact ⟨move_lx _ _ _ _ _ (move_lx _ _ _ _ _ hx), move_ly _ _ _ _ _ (move_ly _ _ _ _ _ hy)⟩
  · exact ⟨move_lx _ _ _ _ _ hx, move_ly _ _ _ _ _ hy⟩

/-- C81: one pass of the loop. -/
theorem C81_pass (e : Env K) (ng nReg : Nat) (owner : Nat → Nat) (hg : GoodGeo e nReg owner) (hng : ∀ i, (e.xs i).sc.ng = ng) (h h' : Hist K)
    (hr : Ready e ng nReg owner h) (hc : pass e h = .ok h') : Ready e ng nReg owner h' := by
  simp only [pass] at hc
  split at hc
  · exact absurd hc (by simp)
  · rename_i tl fate co htl
    have ht := consistent_track e ng nReg owner h hr tl
    cases fate with
    | collision =>
      refine collide_ready e ng nReg owner hng _ h' ?_ hc
      exact ⟨hr.loc, hr.reg, hr.own, hr.xsreg, hr.grp, move_lx _ _ _ _ _ hr.lx, move_ly _ _ _ _ _ hr.ly, ht⟩
    | inner =>
      simp only [act] at hc
      split_ifs at hc with q3
      obtain rfl := Out.ok.inj hc
      obtain ⟨p, o, hl⟩ := hr.loc
      have := hg p o (move e.bump tl h.o h.place).lx (move e.bump tl h.o h.place).ly h.o
      rw [← hl, add_comm] at this
      obtain ⟨g1, g2⟩ := this (not_lt.mp q3)
      exact ⟨⟨p, o, hl⟩, g1, g2, rfl, hr.grp, move_lx _ _ _ _ _ hr.lx, move_ly _ _ _ _ _ hr.ly, ht⟩
    | border =>
      simp only [act] at hc
      split at hc
      · exact absurd hc (by simp)
      · rename_i p hit hcr
        obtain ⟨l1, l2⟩ := cross_local e tl h p hit _ _ hr.lx hr.ly hcr
        split_ifs at hc with q4
        · exact relocate_ready e ng nReg owner hg { h with place := p, o := hit.o, alive := hit.alive, coincident := -1, n := h.n + 1, t := scoreTrack (e.xs h.xsreg) h tl } h' hr.grp ht hc
        · obtain rfl := Out.ok.inj hc
          exact ⟨hr.loc, hr.reg, hr.own, hr.xsreg, hr.grp, l1, l2, ht⟩

theorem passes_ready (e : Env K) (ng nReg : Nat) (owner : Nat → Nat) (hg : GoodGeo e nReg owner) (hng : ∀ i, (e.xs i).sc.ng = ng) (fuel : Nat) :
    ∀ (h h' : Hist K), Ready e ng nReg owner h → passes e fuel h = .ok h' → Ready e ng nReg owner h' := by
  induction fuel with
  | zero => intro h h' hr hc; obtain rfl := Out.ok.inj hc; exact hr
  | succ fuel ih =>
    intro h h' hr hc
    simp only [passes] at hc
    split_ifs at hc
    · split at hc
      · rename_i h1 hp
        exact ih h1 h' (C81_pass e ng nReg owner hg hng h h1 hr hp) hc
      · rename_i hne
        exact absurd hc (hne h')
    · obtain rfl := Out.ok.inj hc; exact hr

/-- C81: after any number of passes of any history the tallies are consistent, if they were at its start, the particle's region belongs
to the coarse cell it is scored in, and its position in the pin is that in the core relative to the pin. -/
theorem C81_history (e : Env K) (ng nReg : Nat) (owner : Nat → Nat) (hg : GoodGeo e nReg owner) (hng : ∀ i, (e.xs i).sc.ng = ng) (fuel : Nat)
    (h h' : Hist K) (hgrp : h.group < ng) (ht : Consistent e ng nReg owner h.t) (hc : simulate e fuel h = .ok h') : Ready e ng nReg owner h' := by
  simp only [simulate] at hc
  split at hc
  · rename_i h1 hr
    have h2 := relocate_ready e ng nReg owner hg h h1 hgrp ht hr
    exact passes_ready e ng nReg owner hg hng fuel { h1 with alive := true } h' ⟨h2.loc, h2.reg, h2.own, h2.xsreg, h2.grp, h2.lx, h2.ly, h2.tallies⟩ hc
  · rename_i hne
    exact absurd hc (hne h')

/-- C81: empty tallies are consistent. -/
theorem C81_start (e : Env K) (ng nReg : Nat) (owner : Nat → Nat) :
    Consistent e ng nReg owner ⟨0, 0, fun _ => 0, fun _ _ => 0, fun _ _ => 0, fun _ _ => 0⟩ :=
  ⟨fun _ _ => by simp [inCell], by simp, fun _ => by simp [inCell], by simp⟩

/-- C81: hence the total of the coarse fluxes of a group is that of the fine fluxes. -/
theorem C81_total (e : Env K) (ng nReg nPin : Nat) (owner : Nat → Nat) (ho : ∀ i, i < nReg → owner i < nPin) (t : Tallies K)
    (h : Consistent e ng nReg owner t) (g : Nat) : ∑ c ∈ Finset.range nPin, t.flux g c = ∑ i ∈ Finset.range nReg, t.fine g i := by
  simp only [h.flux, inCell]
  rw [Finset.sum_fiberwise_of_maps_to]
  intro i hi
  exact Finset.mem_range.mpr (ho i (Finset.mem_range.mp hi))

theorem minOpt_le (a b : Option K) (m : K) (h : minOpt a b = some m) : (∀ x, a = some x → m ≤ x) ∧ (∀ x, b = some x → m ≤ x) := by
  cases a <;> cases b <;> simp only [minOpt, reduceCtorEq, Option.some.injEq, false_implies, forall_const, forall_eq', true_and, and_true] at *
  · exact h.symm.le
  · exact h.symm.le
  · subst h; exact ⟨min_le_left _ _, min_le_right _ _⟩

/-- The tallies of tracks are not changed by what happens at the end of a flight. -/
theorem act_track (e : Env K) (h h' : Hist K) (tl : K) (fate : Fate) (hc : act e h tl fate = .ok h') :
    h'.t.kTl = h.t.kTl ∧ h'.t.pinPower = h.t.pinPower ∧ h'.t.flux = h.t.flux ∧ h'.t.fine = h.t.fine := by
  cases fate with
  | collision =>
    simp only [act, collide] at hc
    split at hc
    · exact absurd hc (by simp)
    · split_ifs at hc <;> obtain rfl := Out.ok.inj hc <;> exact ⟨rfl, rfl, rfl, rfl⟩
  | inner =>
    simp only [act] at hc
    split_ifs at hc
    obtain rfl := Out.ok.inj hc
    exact ⟨rfl, rfl, rfl, rfl⟩
  | border =>
    simp only [act] at hc
    split at hc
    · exact absurd hc (by simp)
    · split_ifs at hc
      · simp only [relocate] at hc
        split_ifs at hc
        obtain rfl := Out.ok.inj hc
        exact ⟨rfl, rfl, rfl, rfl⟩
      · obtain rfl := Out.ok.inj hc
        exact ⟨rfl, rfl, rfl, rfl⟩

/-- C81: what is scored in a pass is the length of a flight that stays within the pin, for a particle in the pin that is not on a face it
moves out of; it is at most the distance to the next surface and to the collision, and equal to one of these three. -/
theorem C81_in_pin (e : Env K) (h h' : Hist K) (hc : pass e h = .ok h') (hp : InBox h.loc.lo h.loc.hi h.place.g)
    (ho : h.o.x ≠ 0 ∨ h.o.y ≠ 0 ∨ h.o.z ≠ 0)
    (hx : NotLeaving h.loc.lo.x h.loc.hi.x h.place.g.x h.o.x) (hy : NotLeaving h.loc.lo.y h.loc.hi.y h.place.g.y h.o.y)
    (hz : NotLeaving h.loc.lo.z h.loc.hi.z h.place.g.z h.o.z) :
    ∃ tl, h'.t.kTl = h.t.kTl + tl * h.w * (e.xs h.xsreg).nf h.group ∧
      h'.t.pinPower = add1 h.t.pinPower h.loc.pin (tl * h.w * (e.xs h.xsreg).f h.group) ∧
      h'.t.flux = add2 h.t.flux h.group h.loc.pin (tl * h.w) ∧ h'.t.fine = add2 h.t.fine h.group h.reg (tl * h.w) ∧
      (∀ s, 0 ≤ s → s ≤ tl → InBox h.loc.lo h.loc.hi (at_ h.place.g h.o s)) ∧
      (∀ a, (h.loc.dist h.place.lx h.place.ly h.o h.coincident).1 = some a → tl ≤ a) ∧
      (∀ a, flight e.lg (e.r h.n) ((e.xs h.xsreg).tr h.group) = some a → tl ≤ a) ∧
      (flight e.lg (e.r h.n) ((e.xs h.xsreg).tr h.group) = some tl ∨ (h.loc.dist h.place.lx h.place.ly h.o h.coincident).1 = some tl ∨
        distanceToPin h.loc.lo h.loc.hi h.place.g h.o = some tl) := by
  obtain ⟨t, t1, t2, t3⟩ := C79_distance_partial _ _ _ _ hp ho hx hy hz
  simp only [pass] at hc
  split at hc
  · exact absurd hc (by simp)
  · rename_i tl fate co htl
    obtain ⟨a1, a2, a3, a4⟩ := act_track _ _ _ _ _ hc
    simp only [leg, Option.map_eq_some_iff, Prod.mk.injEq] at htl
    obtain ⟨m, hm, rfl, -, -⟩ := htl
    obtain ⟨m1, m2⟩ := minOpt_le _ _ _ hm
    rw [t1] at hm m2
    refine ⟨m, a1, a2, a3, a4, ?_, ?_, m1, ?_⟩
    · intro s hs hsm
      rw [t3 s hs]
      refine le_trans hsm ?_
      cases hd : (h.loc.dist h.place.lx h.place.ly h.o h.coincident).1 with
      | none => rw [hd] at m2; exact m2 t (by simp [ltOpt])
      | some a =>
        rw [hd] at m2
        by_cases hta : t < a
        · exact m2 t (by simp [ltOpt, hta])
        · exact le_trans (m2 a (by simp [ltOpt, hta])) (not_lt.mp hta)
    · intro a ha
      rw [ha] at m2
      by_cases hta : t < a
      · exact le_trans (m2 t (by simp [ltOpt, hta])) hta.le
      · exact m2 a (by simp [ltOpt, hta])
    · rw [t1]
      have key : ∀ a b : Option K, minOpt a b = some m → a = some m ∨ b = some m := by
        intro a b hh
        cases a <;> cases b <;> simp only [minOpt, reduceCtorEq, Option.some.injEq, false_or, or_false] at *
        · exact hh
        · exact hh
        · rename_i a b
          rcases le_total a b with q | q
          · left; rw [← hh, min_eq_left q]
          · right; rw [← hh, min_eq_right q]
      rcases key _ _ hm with q | q
      · exact Or.inl q
      · split_ifs at q
        · exact Or.inr (Or.inr q)
        · exact Or.inr (Or.inl q)

/-- Weight and number are kept and what is banked has the number. -/
def Kept (h h' : Hist K) : Prop := h'.w = h.w ∧ h'.id = h.id ∧ ∃ new, h'.bank = h.bank ++ new ∧ ∀ c ∈ new, c.id = h.id

theorem Kept.refl (h : Hist K) : Kept h h := ⟨rfl, rfl, [], by simp, by simp⟩

theorem Kept.trans {a b c : Hist K} (h1 : Kept a b) (h2 : Kept b c) : Kept a c := by
  obtain ⟨u1, u2, n1, u3, u4⟩ := h1
  obtain ⟨v1, v2, n2, v3, v4⟩ := h2
  refine ⟨v1.trans u1, v2.trans u2, n1 ++ n2, by rw [v3, u3, List.append_assoc], ?_⟩
  intro x hx
  rcases List.mem_append.mp hx with h | h
  · exact u4 x h
  · rw [v4 x h, u2]

theorem relocate_kept (e : Env K) (h h' : Hist K) (hc : relocate e h = .ok h') : Kept h h' := by
  simp only [relocate] at hc
  split_ifs at hc
  obtain rfl := Out.ok.inj hc
  exact ⟨rfl, rfl, [], by simp, by simp⟩

theorem act_kept (e : Env K) (h h' : Hist K) (tl : K) (fate : Fate) (hc : act e h tl fate = .ok h') : Kept h h' := by
  cases fate with
  | collision =>
    simp only [act, collide] at hc
    split at hc
    · exact absurd hc (by simp)
    · split_ifs at hc <;> obtain rfl := Out.ok.inj hc
      · exact ⟨rfl, rfl, [], by simp, by simp⟩
      · exact ⟨rfl, rfl, _, rfl, by intro c hc; simp only [newSites, List.mem_map] at hc; obtain ⟨i, -, rfl⟩ := hc; rfl⟩
      · exact ⟨rfl, rfl, [], by simp, by simp⟩
  | inner =>
    simp only [act] at hc
    split_ifs at hc
    obtain rfl := Out.ok.inj hc
    exact ⟨rfl, rfl, [], by simp, by simp⟩
  | border =>
    simp only [act] at hc
    split at hc
    · exact absurd hc (by simp)
    · split_ifs at hc
      · have q := relocate_kept _ _ _ hc
        exact q
      · obtain rfl := Out.ok.inj hc
        exact ⟨rfl, rfl, [], by simp, by simp⟩

theorem passes_kept (e : Env K) (fuel : Nat) : ∀ h h' : Hist K, passes e fuel h = .ok h' → Kept h h' := by
  induction fuel with
  | zero => intro h h' hc; obtain rfl := Out.ok.inj hc; exact Kept.refl _
  | succ fuel ih =>
    intro h h' hc
    simp only [passes] at hc
    split_ifs at hc
    · split at hc
      · rename_i h1 hp
        refine Kept.trans ?_ (ih h1 h' hc)
        simp only [pass] at hp
        split at hp
        · exact absurd hp (by simp)
        · have q := act_kept _ _ _ _ _ hp
          exact q
      · rename_i hne
        exact absurd hc (hne h')
    · obtain rfl := Out.ok.inj hc; exact Kept.refl _

/-- C81: the weight and the number of the particle do not change, and everything new in the bank carries its number. -/
theorem C81_constant (e : Env K) (fuel : Nat) (h h' : Hist K) (hc : simulate e fuel h = .ok h') :
    h'.w = h.w ∧ h'.id = h.id ∧ ∃ new, h'.bank = h.bank ++ new ∧ ∀ c ∈ new, c.id = h.id := by
  simp only [simulate] at hc
  split at hc
  · rename_i h1 hr
    have h2 := relocate_kept e h h1 hr
    have h3 := passes_kept e fuel _ h' hc
    exact Kept.trans h2 h3
  · rename_i hne
    exact absurd hc (hne h')

theorem passes_more (e : Env K) (fuel more : Nat) : ∀ h h' : Hist K, passes e fuel h = .ok h' → h'.alive = false → passes e (fuel + more) h = .ok h' := by
  induction fuel with
  | zero =>
    intro h h' hc hd
    obtain rfl := Out.ok.inj hc
    cases more with
    | zero => rfl
    | succ m => rw [Nat.zero_add]; simp [passes, hd]
  | succ fuel ih =>
    intro h h' hc hd
    rw [Nat.succ_add]
    simp only [passes] at hc ⊢
    split_ifs at hc ⊢
    · split at hc
      · rename_i h1 hp
        exact ih h1 h' hc hd
      · rename_i hne
        exact absurd hc (hne h')
    · exact hc

/-- C81: a history that has ended is not changed by more passes. -/
theorem C81_ended (e : Env K) (fuel more : Nat) (h h' : Hist K) (hc : simulate e fuel h = .ok h') (hd : h'.alive = false) :
    simulate e (fuel + more) h = .ok h' := by
  simp only [simulate] at hc ⊢
  split at hc
  · exact passes_more e fuel more _ h' hc hd
  · rename_i hne
    exact absurd hc (hne h')

/-! ### Instances -/

example : GoodGeo (exEnv (fun _ => 3 / 4) (1 / 2) (1 / 2)) 1 (fun _ => 0) := by
  intro p o x y o' _
  simp [exEnv]

/-- A particle that leaves the pin (and the core, through a vacuum) after half a unit. -/
example : ∃ h', simulate (exEnv (fun _ => 3 / 4) (1 / 2) (1 / 2)) 5 (exHist (exEnv (fun _ => 3 / 4) (1 / 2) (1 / 2))) = .ok h' ∧ h'.alive = false ∧
    h'.t.flux 0 0 = 1 / 2 ∧ h'.t.kTl = 5 / 8 := by
  have key : ∀ x : Out (Hist ℚ), (match x with | .ok h' => decide (h'.alive = false ∧ h'.t.flux 0 0 = 1 / 2 ∧ h'.t.kTl = 5 / 8) | _ => false) = true →
      ∃ h', x = .ok h' ∧ h'.alive = false ∧ h'.t.flux 0 0 = 1 / 2 ∧ h'.t.kTl = 5 / 8 := by
    intro x hx
    cases x with
    | ok h' => exact ⟨h', rfl, by simpa using hx⟩
    | throw => simp at hx
    | ub => simp at hx
  apply key
  decide +kernel

end Verif.Mc
