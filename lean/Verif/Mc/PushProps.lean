import Verif.Mc.PushModel
import Mathlib.Algebra.Order.Field.Basic
import Mathlib.Algebra.Order.Field.Rat
import Mathlib.Tactic.Linarith
import Mathlib.Tactic.NormNum
import Mathlib.Tactic.Ring
import Mathlib.Tactic.LinearCombination
import Mathlib.Tactic.FieldSimp

/-!
# C79: moving a particle to the boundary of a pin and across it
-/

namespace Verif.Mc

open Verif.Mesh

variable {K : Type} [Field K] [LinearOrder K] [IsStrictOrderedRing K]

/-- The point at the distance `s` along `o`. -/
def at_ (p o : Vec3 K) (s : K) : Vec3 K := ⟨p.x + s * o.x, p.y + s * o.y, p.z + s * o.z⟩

/-- In the closed box. -/
def InBox (lo hi p : Vec3 K) : Prop := (lo.x ≤ p.x ∧ p.x ≤ hi.x) ∧ (lo.y ≤ p.y ∧ p.y ≤ hi.y) ∧ (lo.z ≤ p.z ∧ p.z ≤ hi.z)

/-- Not on a face towards which the direction points. -/
def NotLeaving (lo hi x o : K) : Prop := (0 < o → x < hi) ∧ (o < 0 → lo < x)

theorem axisDist_spec (lo hi x o : K) (hb : lo ≤ x ∧ x ≤ hi) (hn : NotLeaving lo hi x o) :
    (o = 0 ∧ axisDist lo hi x o = none ∧ ∀ s, 0 ≤ s → lo ≤ x + s * o ∧ x + s * o ≤ hi) ∨
    (o ≠ 0 ∧ ∃ t, axisDist lo hi x o = some t ∧ 0 < t ∧ ∀ s, 0 ≤ s → ((lo ≤ x + s * o ∧ x + s * o ≤ hi) ↔ s ≤ t)) := by
  rcases lt_trichotomy o 0 with h | h | h
  · refine Or.inr ⟨h.ne, (lo - x) / o, ?_, ?_, ?_⟩
    · have : 0 < (lo - x) / o := div_pos_of_neg_of_neg (by linarith [hn.2 h]) h
      simp only [axisDist, if_neg h.ne, if_neg (not_lt.mpr h.le), if_pos this]
    · exact div_pos_of_neg_of_neg (by linarith [hn.2 h]) h
    · intro s hs
      rw [le_div_iff_of_neg h]
      constructor
      · rintro ⟨h1, -⟩; linarith
      · intro h1; exact ⟨by linarith, by nlinarith⟩
  · subst h
    exact Or.inl ⟨rfl, by simp [axisDist], fun s _ => by rw [mul_zero, add_zero]; exact hb⟩
  · refine Or.inr ⟨h.ne', (hi - x) / o, ?_, ?_, ?_⟩
    · have : 0 < (hi - x) / o := div_pos (by linarith [hn.1 h]) h
      simp only [axisDist, if_neg h.ne', if_pos h, if_pos this]
    · exact div_pos (by linarith [hn.1 h]) h
    · intro s hs
      rw [le_div_iff₀ h]
      constructor
      · rintro ⟨-, h1⟩; linarith
      · intro h1; exact ⟨by nlinarith, by linarith⟩

/-- `t` is the largest distance (none: there is no largest) for which `P` holds. -/
def Until (P : K → Prop) (t : Option K) : Prop :=
  match t with
  | none => ∀ s, 0 ≤ s → P s
  | some t => 0 < t ∧ ∀ s, 0 ≤ s → (P s ↔ s ≤ t)

theorem until_min (P Q : K → Prop) (a b : Option K) (hp : Until P a) (hq : Until Q b) : Until (fun s => P s ∧ Q s) (minOpt a b) := by
  cases a <;> cases b <;> simp only [minOpt, Until] at *
  · exact fun s hs => ⟨hp s hs, hq s hs⟩
  · exact ⟨hq.1, fun s hs => by rw [← hq.2 s hs]; exact ⟨fun h => h.2, fun h => ⟨hp s hs, h⟩⟩⟩
  · exact ⟨hp.1, fun s hs => by rw [← hp.2 s hs]; exact ⟨fun h => h.1, fun h => ⟨h, hq s hs⟩⟩⟩
  · exact ⟨lt_min hp.1 hq.1, fun s hs => by rw [le_min_iff, hp.2 s hs, hq.2 s hs]⟩

theorem axisDist_until (lo hi x o : K) (hb : lo ≤ x ∧ x ≤ hi) (hn : NotLeaving lo hi x o) :
    Until (fun s => lo ≤ x + s * o ∧ x + s * o ≤ hi) (axisDist lo hi x o) ∧ (axisDist lo hi x o = none → o = 0) := by
  rcases axisDist_spec lo hi x o hb hn with ⟨h0, h1, h2⟩ | ⟨h0, t, h1, h2, h3⟩
  · rw [h1]; exact ⟨h2, fun _ => h0⟩
  · rw [h1]; exact ⟨⟨h2, h3⟩, fun h => absurd h (by simp)⟩

/-- C79, distance: for every particle in a pin the distance is that at which it leaves the pin. -/
def C79_distance_claim : Prop := ∀ (lo hi p o : Vec3 ℚ), InBox lo hi p → (o.x ≠ 0 ∨ o.y ≠ 0 ∨ o.z ≠ 0) →
  ∃ t, distanceToPin lo hi p o = some t ∧ ∀ s, 0 ≤ s → (InBox lo hi (at_ p o s) ↔ s ≤ t)

/-- C79: true of particles that are not on a face they move out of. -/
theorem C79_distance_partial (lo hi p o : Vec3 K) (hp : InBox lo hi p) (ho : o.x ≠ 0 ∨ o.y ≠ 0 ∨ o.z ≠ 0)
    (hx : NotLeaving lo.x hi.x p.x o.x) (hy : NotLeaving lo.y hi.y p.y o.y) (hz : NotLeaving lo.z hi.z p.z o.z) :
    ∃ t, distanceToPin lo hi p o = some t ∧ 0 < t ∧ ∀ s, 0 ≤ s → (InBox lo hi (at_ p o s) ↔ s ≤ t) := by
  obtain ⟨ux, nx⟩ := axisDist_until _ _ _ _ hp.1 hx
  obtain ⟨uy, ny⟩ := axisDist_until _ _ _ _ hp.2.1 hy
  obtain ⟨uz, nz⟩ := axisDist_until _ _ _ _ hp.2.2 hz
  have u := until_min _ _ _ _ uz (until_min _ _ _ _ uy (until_min _ (fun _ => True) _ none ux (fun _ _ => trivial)))
  change Until _ (distanceToPin lo hi p o) at u
  cases hd : distanceToPin lo hi p o with
  | none =>
    exfalso
    unfold distanceToPin at hd
    have key : ∀ a b : Option K, minOpt a b = none → a = none ∧ b = none := by
      intro a b h; cases a <;> cases b <;> simp [minOpt] at h ⊢
    obtain ⟨h1, h2⟩ := key _ _ hd
    obtain ⟨h3, h4⟩ := key _ _ h2
    obtain ⟨h5, -⟩ := key _ _ h4
    rcases ho with h | h | h
    · exact h (nx h5)
    · exact h (ny h3)
    · exact h (nz h1)
  | some t =>
    rw [hd] at u
    refine ⟨t, rfl, u.1, fun s hs => ?_⟩
    rw [← u.2 s hs]
    simp only [InBox, at_]
    tauto

/-- On the face it leaves through, the distance to another face is returned. -/
theorem C79_distance_claim_false : ¬ C79_distance_claim := by
  intro h
  obtain ⟨t, h1, h2⟩ := h ⟨0, 0, 0⟩ ⟨1, 1, 1⟩ ⟨1, 0, 0⟩ ⟨1/2, 1/2, 0⟩ (by unfold InBox; norm_num) (by norm_num)
  have h3 : distanceToPin (K := ℚ) ⟨0, 0, 0⟩ ⟨1, 1, 1⟩ ⟨1, 0, 0⟩ ⟨1/2, 1/2, 0⟩ = some 2 := by decide +kernel
  rw [h3] at h1
  obtain rfl := Option.some.inj h1
  have := (h2 1 (by norm_num)).mpr (by norm_num)
  simp only [InBox, at_] at this
  norm_num at this

/-! ### Moving -/

/-- C79: the position in the pin and that in the core change alike. -/
theorem C79_move_alike (bump d : K) (o : Vec3 K) (p : Place K) :
    (move bump d o p).lx - p.lx = (move bump d o p).g.x - p.g.x ∧ (move bump d o p).ly - p.ly = (move bump d o p).g.y - p.g.y := by
  simp only [move, moveAxis]
  exact ⟨by ring, by ring⟩

/-- C79: `move(d)` moves by `d` along the direction. -/
def C79_move_claim : Prop := ∀ (bump d : ℚ) (o : Vec3 ℚ) (p : Place ℚ), (move bump d o p).g = at_ p.g o d

/-- C79: each coordinate goes further by at most twice the bump, in the direction of the motion. -/
theorem C79_move_partial (bump d x o : K) (hb : 0 ≤ bump) (h1 : -1 ≤ o) (h2 : o ≤ 1) :
    (0 < o → x + d * o + bump ≤ moveAxis bump d x o ∧ moveAxis bump d x o ≤ x + d * o + 2 * bump) ∧
    (o < 0 → x + d * o - 2 * bump ≤ moveAxis bump d x o ∧ moveAxis bump d x o ≤ x + d * o - bump) ∧
    (o = 0 → moveAxis bump d x o = x) := by
  refine ⟨fun h => ?_, fun h => ?_, fun h => ?_⟩ <;> simp only [moveAxis, sgn]
  · rw [if_pos h, if_neg (not_lt.mpr h.le)]
    constructor <;> nlinarith
  · rw [if_neg (not_lt.mpr h.le), if_pos h]
    constructor <;> nlinarith
  · subst h; simp

/-- C79: exactly, the place of `move` is the one at the distance `d` and a bump, and another bump along each axis on which the particle moves. -/
theorem C79_move_exact (bump d : K) (o : Vec3 K) (p : Place K) :
    ∃ sx sy sz : K, (move bump d o p).g = ⟨(at_ p.g o (d + bump)).x + bump * sx, (at_ p.g o (d + bump)).y + bump * sy,
        (at_ p.g o (d + bump)).z + bump * sz⟩ ∧
      (sx = 1 ∧ 0 < o.x ∨ sx = -1 ∧ o.x < 0 ∨ sx = 0 ∧ o.x = 0) ∧ (sy = 1 ∧ 0 < o.y ∨ sy = -1 ∧ o.y < 0 ∨ sy = 0 ∧ o.y = 0) ∧
      (sz = 1 ∧ 0 < o.z ∨ sz = -1 ∧ o.z < 0 ∨ sz = 0 ∧ o.z = 0) := by
  have key : ∀ a : K, sgn a = 1 ∧ 0 < a ∨ sgn a = -1 ∧ a < 0 ∨ sgn a = 0 ∧ a = 0 := by
    intro a
    rcases lt_trichotomy a 0 with h | h | h
    · exact Or.inr (Or.inl ⟨by simp [sgn, h, h.le, not_lt.mpr h.le], h⟩)
    · exact Or.inr (Or.inr ⟨by simp [sgn, h], h⟩)
    · exact Or.inl ⟨by simp [sgn, h, not_lt.mpr h.le], h⟩
  refine ⟨sgn o.x, sgn o.y, sgn o.z, ?_, key _, key _, key _⟩
  simp only [move, moveAxis, at_, Vec3.mk.injEq]
  refine ⟨?_, ?_, ?_⟩ <;> ring

theorem C79_move_claim_false : ¬ C79_move_claim := by
  intro h
  have := congrArg Vec3.x (h 1 1 ⟨1, 0, 0⟩ ⟨0, 0, ⟨0, 0, 0⟩⟩)
  simp [move, moveAxis, sgn, at_] at this
  norm_num at this

theorem move_any (bump d x o : K) (hb : 0 ≤ bump) (h1 : -1 ≤ o) (h2 : o ≤ 1) :
    x + d * o - 2 * bump ≤ moveAxis bump d x o ∧ moveAxis bump d x o ≤ x + d * o + 2 * bump := by
  obtain ⟨m1, m2, m3⟩ := C79_move_partial bump d x o hb h1 h2
  rcases lt_trichotomy o 0 with h | h | h
  · have := m2 h; exact ⟨this.1, by linarith⟩
  · rw [m3 h, h]; constructor <;> linarith
  · have := m1 h; exact ⟨by linarith, this.2⟩

/-! ### Crossing the boundary of the core -/

/-- Strictly within the core. -/
def Inside (e : Extent K) (p : Vec3 K) : Prop := (0 < p.x ∧ p.x < e.hx) ∧ (0 < p.y ∧ p.y < e.hy) ∧ (0 < p.z ∧ p.z < e.hz)

/-- In the closed core. -/
def InCore (e : Extent K) (p : Vec3 K) : Prop := (0 ≤ p.x ∧ p.x ≤ e.hx) ∧ (0 ≤ p.y ∧ p.y ≤ e.hy) ∧ (0 ≤ p.z ∧ p.z ≤ e.hz)

/-- A coordinate farther from both ends than any of the moves together. -/
def Away (bump h q : K) : Prop := 5 * bump < q ∧ q < h - 5 * bump

/-- The particle ends its flight on the face `s`, moving outwards, and away from the other faces. -/
def Exits (e : Extent K) (bump : K) (q o : Vec3 K) : Surface → Prop
  | .WEST => (q.x = 0 ∧ o.x < 0) ∧ Away bump e.hy q.y ∧ Away bump e.hz q.z
  | .EAST => (q.x = e.hx ∧ 0 < o.x) ∧ Away bump e.hy q.y ∧ Away bump e.hz q.z
  | .SOUTH => (q.y = 0 ∧ o.y < 0) ∧ Away bump e.hx q.x ∧ Away bump e.hz q.z
  | .NORTH => (q.y = e.hy ∧ 0 < o.y) ∧ Away bump e.hx q.x ∧ Away bump e.hz q.z
  | .BOTTOM => (q.z = 0 ∧ o.z < 0) ∧ Away bump e.hx q.x ∧ Away bump e.hy q.y
  | .TOP => (q.z = e.hz ∧ 0 < o.z) ∧ Away bump e.hx q.x ∧ Away bump e.hy q.y
  | .INTERNAL => False

/-- C79, boundary: a particle that is alive after crossing is in the core. -/
def C79_inside_claim : Prop := ∀ (e : Extent ℚ) (bc : Surface → Bc) (bump d : ℚ) (o : Vec3 ℚ) (p : Place ℚ) (p' : Place ℚ) (h : Hit ℚ),
  0 < bump → 0 < e.fuzz → e.fuzz < bump → 10 * bump < e.hx → 10 * bump < e.hy → 10 * bump < e.hz → o.x ^ 2 + o.y ^ 2 + o.z ^ 2 = 1 → 0 ≤ d →
  Inside e p.g → InCore e (at_ p.g o d) → cross e bc bump d o p = some (p', h) → h.alive = true → InCore e p'.g

theorem flags_away (bump fuzz h d x o : K) (hb : 0 < bump) (hf2 : fuzz ≤ bump) (hh : 0 < h) (hfh : fuzz * h ≤ bump)
    (h1 : -1 ≤ o) (h2 : o ≤ 1) (ha : Away bump h (x + d * o)) :
    ¬ moveAxis bump d x o < fuzz ∧ ¬ moveAxis bump d x o / h > 1 - fuzz := by
  obtain ⟨m1, m2⟩ := move_any bump d x o hb.le h1 h2
  obtain ⟨a1, a2⟩ := ha
  refine ⟨by linarith, ?_⟩
  rw [gt_iff_lt, lt_div_iff₀ hh]
  intro hc
  nlinarith

theorem flags_high (bump fuzz h d x o : K) (hb : 0 < bump) (hf : 0 < fuzz) (hh : 0 < h)
    (h2 : o ≤ 1) (ho : 0 < o) (ha : x + d * o = h) :
    moveAxis bump d x o / h > 1 - fuzz := by
  have := ((C79_move_partial bump d x o hb.le (by linarith) h2).1 ho).1
  rw [gt_iff_lt, lt_div_iff₀ hh]
  nlinarith

theorem flags_low (bump fuzz d x o : K) (hb : 0 < bump) (hf : 0 < fuzz)
    (h1 : -1 ≤ o) (ho : o < 0) (ha : x + d * o = 0) : moveAxis bump d x o < fuzz := by
  have := ((C79_move_partial bump d x o hb.le h1 (by linarith)).2.1 ho).2
  linarith

/-- The second move, for a coordinate away from the faces. -/
theorem away_twice (bump h d x o : K) (hb : 0 < bump) (h1 : -1 ≤ o) (h2 : o ≤ 1) (ha : Away bump h (x + d * o)) :
    0 < moveAxis bump bump (moveAxis bump d x o) o ∧ moveAxis bump bump (moveAxis bump d x o) o < h := by
  obtain ⟨m1, m2⟩ := move_any bump d x o hb.le h1 h2
  obtain ⟨n1, n2⟩ := move_any bump bump (moveAxis bump d x o) o hb.le h1 h2
  obtain ⟨a1, a2⟩ := ha
  constructor <;> nlinarith

/-- The second move, back from a face. -/
theorem back_high (bump h d x o : K) (ho : 0 < o) (ha : x + d * o = h) :
    moveAxis bump bump (moveAxis bump d x o) (-o) = h - bump * o := by
  simp only [moveAxis, sgn, if_pos ho, if_neg (not_lt.mpr ho.le), if_neg (show ¬ 0 < -o by linarith), if_pos (show -o < 0 by linarith)]
  linear_combination ha

theorem back_low (bump d x o : K) (ho : o < 0) (ha : x + d * o = 0) :
    moveAxis bump bump (moveAxis bump d x o) (-o) = -(bump * o) := by
  simp only [moveAxis, sgn, if_neg (not_lt.mpr ho.le), if_pos ho, if_pos (show 0 < -o by linarith), if_neg (show ¬ -o < 0 by linarith)]
  linear_combination ha

set_option maxHeartbeats 1000000 in
/-- C79: a particle that reaches one face of the core away from its edges: with a vacuum it dies; with a reflective boundary it is alive,
within the core, and moves in the mirrored direction; other conditions are rejected. -/
theorem C79_inside_partial (e : Extent K) (bc : Surface → Bc) (bump d : K) (o : Vec3 K) (p : Place K) (s : Surface)
    (hb : 0 < bump) (hf : 0 < e.fuzz) (hf2 : e.fuzz ≤ bump)
    (hx : 0 < e.hx) (hy : 0 < e.hy) (hz : 0 < e.hz) (hx2 : e.fuzz * e.hx ≤ bump) (hy2 : e.fuzz * e.hy ≤ bump) (hz2 : e.fuzz * e.hz ≤ bump)
    (hbig : 10 * bump < e.hx ∧ 10 * bump < e.hy ∧ 10 * bump < e.hz)
    (ox : -1 ≤ o.x ∧ o.x ≤ 1) (oy : -1 ≤ o.y ∧ o.y ≤ 1) (oz : -1 ≤ o.z ∧ o.z ≤ 1) (hs : Exits e bump (at_ p.g o d) o s) :
    (bc s = .vacuum → ∃ p' h, cross e bc bump d o p = some (p', h) ∧ h.alive = false) ∧
    (bc s = .other → cross e bc bump d o p = none) ∧
    (bc s = .reflect → ∃ p' h, cross e bc bump d o p = some (p', h) ∧ h.alive = true ∧ h.o = mirror o s ∧ Inside e p'.g) := by
  obtain ⟨b1, b2, b3⟩ := hbig
  cases s <;> simp only [Exits, at_] at hs
  · obtain ⟨⟨q, ho⟩, ay, az⟩ := hs
    have fx := flags_high bump e.fuzz e.hx d p.g.x o.x hb hf hx ox.2 ho q
    have fy := flags_away bump e.fuzz e.hy d p.g.y o.y hb hf2 hy hy2 oy.1 oy.2 ay
    have fz := flags_away bump e.fuzz e.hz d p.g.z o.z hb hf2 hz hz2 oz.1 oz.2 az
    have hbs : boundarySurface e (move bump d o p).g o = (.INTERNAL, .EAST, .INTERNAL) := by
      simp only [boundarySurface, move, fx, fy.1, fy.2, fz.1, fz.2, false_and, if_false, ho, not_lt.mpr ho.le, and_false, true_and, and_true, if_true]
    have t2 := away_twice bump e.hy d p.g.y o.y hb oy.1 oy.2 ay
    have t3 := away_twice bump e.hz d p.g.z o.z hb oz.1 oz.2 az
    have t1 := back_high bump e.hx d p.g.x o.x ho q
    refine ⟨fun hc => ?_, fun hc => ?_, fun hc => ?_⟩ <;> simp [cross, hbs, meetSurface, hc]
    refine ⟨⟨?_, ?_⟩, t2, t3⟩ <;> simp only [mirror, move] <;> rw [t1] <;> nlinarith
  · obtain ⟨⟨q, ho⟩, ax, az⟩ := hs
    have fy := flags_high bump e.fuzz e.hy d p.g.y o.y hb hf hy oy.2 ho q
    have fx := flags_away bump e.fuzz e.hx d p.g.x o.x hb hf2 hx hx2 ox.1 ox.2 ax
    have fz := flags_away bump e.fuzz e.hz d p.g.z o.z hb hf2 hz hz2 oz.1 oz.2 az
    have hbs : boundarySurface e (move bump d o p).g o = (.INTERNAL, .INTERNAL, .NORTH) := by
      simp only [boundarySurface, move, fy, fx.1, fx.2, fz.1, fz.2, false_and, if_false, ho, not_lt.mpr ho.le, and_false, true_and, and_true, if_true]
    have t1 := away_twice bump e.hx d p.g.x o.x hb ox.1 ox.2 ax
    have t3 := away_twice bump e.hz d p.g.z o.z hb oz.1 oz.2 az
    have t2 := back_high bump e.hy d p.g.y o.y ho q
    refine ⟨fun hc => ?_, fun hc => ?_, fun hc => ?_⟩ <;> simp [cross, hbs, meetSurface, hc]
    refine ⟨t1, ⟨?_, ?_⟩, t3⟩ <;> simp only [mirror, move] <;> rw [t2] <;> nlinarith
  · obtain ⟨⟨q, ho⟩, ay, az⟩ := hs
    have fx := flags_low bump e.fuzz d p.g.x o.x hb hf ox.1 ho q
    have fy := flags_away bump e.fuzz e.hy d p.g.y o.y hb hf2 hy hy2 oy.1 oy.2 ay
    have fz := flags_away bump e.fuzz e.hz d p.g.z o.z hb hf2 hz hz2 oz.1 oz.2 az
    have hbs : boundarySurface e (move bump d o p).g o = (.WEST, .INTERNAL, .INTERNAL) := by
      simp only [boundarySurface, move, fx, fy.1, fy.2, fz.1, fz.2, false_and, if_false, ho, not_lt.mpr ho.le, gt_iff_lt, and_false, true_and, and_true, if_true]
    have t2 := away_twice bump e.hy d p.g.y o.y hb oy.1 oy.2 ay
    have t3 := away_twice bump e.hz d p.g.z o.z hb oz.1 oz.2 az
    have t1 := back_low bump d p.g.x o.x ho q
    refine ⟨fun hc => ?_, fun hc => ?_, fun hc => ?_⟩ <;> simp [cross, hbs, meetSurface, hc]
    refine ⟨⟨?_, ?_⟩, t2, t3⟩ <;> simp only [mirror, move] <;> rw [t1] <;> nlinarith
  · obtain ⟨⟨q, ho⟩, ax, az⟩ := hs
    have fy := flags_low bump e.fuzz d p.g.y o.y hb hf oy.1 ho q
    have fx := flags_away bump e.fuzz e.hx d p.g.x o.x hb hf2 hx hx2 ox.1 ox.2 ax
    have fz := flags_away bump e.fuzz e.hz d p.g.z o.z hb hf2 hz hz2 oz.1 oz.2 az
    have hbs : boundarySurface e (move bump d o p).g o = (.SOUTH, .INTERNAL, .INTERNAL) := by
      simp only [boundarySurface, move, fy, fx.1, fx.2, fz.1, fz.2, false_and, if_false, ho, not_lt.mpr ho.le, gt_iff_lt, and_false, true_and, and_true, if_true]
    have t1 := away_twice bump e.hx d p.g.x o.x hb ox.1 ox.2 ax
    have t3 := away_twice bump e.hz d p.g.z o.z hb oz.1 oz.2 az
    have t2 := back_low bump d p.g.y o.y ho q
    refine ⟨fun hc => ?_, fun hc => ?_, fun hc => ?_⟩ <;> simp [cross, hbs, meetSurface, hc]
    refine ⟨t1, ⟨?_, ?_⟩, t3⟩ <;> simp only [mirror, move] <;> rw [t2] <;> nlinarith
  · obtain ⟨⟨q, ho⟩, ax, ay⟩ := hs
    have fz := flags_high bump e.fuzz e.hz d p.g.z o.z hb hf hz oz.2 ho q
    have fx := flags_away bump e.fuzz e.hx d p.g.x o.x hb hf2 hx hx2 ox.1 ox.2 ax
    have fy := flags_away bump e.fuzz e.hy d p.g.y o.y hb hf2 hy hy2 oy.1 oy.2 ay
    have hbs : boundarySurface e (move bump d o p).g o = (.INTERNAL, .INTERNAL, .TOP) := by
      simp only [boundarySurface, move, fz, fx.1, fx.2, fy.1, fy.2, false_and, if_false, ho, not_lt.mpr ho.le, and_false, true_and, and_true, if_true]
    have t1 := away_twice bump e.hx d p.g.x o.x hb ox.1 ox.2 ax
    have t2 := away_twice bump e.hy d p.g.y o.y hb oy.1 oy.2 ay
    have t3 := back_high bump e.hz d p.g.z o.z ho q
    refine ⟨fun hc => ?_, fun hc => ?_, fun hc => ?_⟩ <;> simp [cross, hbs, meetSurface, hc]
    refine ⟨t1, t2, ⟨?_, ?_⟩⟩ <;> simp only [mirror, move] <;> rw [t3] <;> nlinarith
  · obtain ⟨⟨q, ho⟩, ax, ay⟩ := hs
    have fz := flags_low bump e.fuzz d p.g.z o.z hb hf oz.1 ho q
    have fx := flags_away bump e.fuzz e.hx d p.g.x o.x hb hf2 hx hx2 ox.1 ox.2 ax
    have fy := flags_away bump e.fuzz e.hy d p.g.y o.y hb hf2 hy hy2 oy.1 oy.2 ay
    have hbs : boundarySurface e (move bump d o p).g o = (.INTERNAL, .BOTTOM, .INTERNAL) := by
      simp only [boundarySurface, move, fz, fx.1, fx.2, fy.1, fy.2, false_and, if_false, ho, not_lt.mpr ho.le, gt_iff_lt, and_false, true_and, and_true, if_true]
    have t1 := away_twice bump e.hx d p.g.x o.x hb ox.1 ox.2 ax
    have t2 := away_twice bump e.hy d p.g.y o.y hb oy.1 oy.2 ay
    have t3 := back_low bump d p.g.z o.z ho q
    refine ⟨fun hc => ?_, fun hc => ?_, fun hc => ?_⟩ <;> simp [cross, hbs, meetSurface, hc]
    refine ⟨t1, t2, ⟨?_, ?_⟩⟩ <;> simp only [mirror, move] <;> rw [t3] <;> nlinarith

/-- C79: a particle that crosses between two pins, away from the faces of the core, is only moved. -/
theorem C79_inner (e : Extent K) (bc : Surface → Bc) (bump d : K) (o : Vec3 K) (p : Place K)
    (hb : 0 < bump) (hf2 : e.fuzz ≤ bump)
    (hx : 0 < e.hx) (hy : 0 < e.hy) (hz : 0 < e.hz) (hx2 : e.fuzz * e.hx ≤ bump) (hy2 : e.fuzz * e.hy ≤ bump) (hz2 : e.fuzz * e.hz ≤ bump)
    (ox : -1 ≤ o.x ∧ o.x ≤ 1) (oy : -1 ≤ o.y ∧ o.y ≤ 1) (oz : -1 ≤ o.z ∧ o.z ≤ 1)
    (ax : Away bump e.hx (at_ p.g o d).x) (ay : Away bump e.hy (at_ p.g o d).y) (az : Away bump e.hz (at_ p.g o d).z) :
    cross e bc bump d o p = some (move bump d o p, ⟨o, true, false⟩) := by
  have fx := flags_away bump e.fuzz e.hx d p.g.x o.x hb hf2 hx hx2 ox.1 ox.2 ax
  have fy := flags_away bump e.fuzz e.hy d p.g.y o.y hb hf2 hy hy2 oy.1 oy.2 ay
  have fz := flags_away bump e.fuzz e.hz d p.g.z o.z hb hf2 hz hz2 oz.1 oz.2 az
  have hbs : boundarySurface e (move bump d o p).g o = (.INTERNAL, .INTERNAL, .INTERNAL) := by
    simp only [boundarySurface, move, fx.1, fx.2, fy.1, fy.2, fz.1, fz.2, false_and, if_false]
  simp [cross, hbs, meetSurface]

theorem cross_some (P : Place ℚ → Hit ℚ → Prop) [∀ a b, Decidable (P a b)] {r : Option (Place ℚ × Hit ℚ)}
    (h : (r.map fun x => decide (P x.1 x.2)) = some true) : ∃ p' h', r = some (p', h') ∧ P p' h' := by
  cases r with
  | none => simp at h
  | some x => exact ⟨x.1, x.2, rfl, by simpa using h⟩

/-- In an edge of the core with reflective sides the particle is left outside, alive: only one of the two surfaces is reported (C15). -/
theorem C79_inside_claim_false : ¬ C79_inside_claim := by
  intro h
  have hc : ∃ p' h', cross (K := ℚ) ⟨1, 1, 1, 1/10000⟩ (fun _ => .reflect) (1/1000) (5/8) ⟨-3/5, -4/5, 0⟩ ⟨0, 0, ⟨3/8, 1/2, 1/2⟩⟩ = some (p', h') ∧
      h'.alive = true ∧ p'.g.y < 0 := by
    apply cross_some (fun p' h' => h'.alive = true ∧ p'.g.y < 0)
    decide +kernel
  obtain ⟨p', h', h1, h2, h3⟩ := hc
  have h4 := h _ _ _ _ _ _ p' h'
    (by norm_num) (by norm_num) (by norm_num) (by norm_num) (by norm_num) (by norm_num) (by norm_num) (by norm_num)
    (by unfold Inside; norm_num) (by unfold InCore at_; norm_num) h1 h2
  exact absurd h4.2.1.1 (not_le.mpr h3)

/-- The same next to an edge: the bump after a reflection pushes the particle out through the other face. -/
theorem C79_pushed_out : ∃ (p' : Place ℚ) (h : Hit ℚ),
    cross ⟨1, 1, 1, 1/10000⟩ (fun _ => .reflect) (1/1000) (1/2) ⟨3/5, 4/5, 0⟩ ⟨0, 0, ⟨7/10, 1 - 4/10 - 2/1000 - 1/2000, 1/2⟩⟩ = some (p', h) ∧
    h.alive = true ∧ 1 < p'.g.y := by
  apply cross_some (fun p' h => h.alive = true ∧ 1 < p'.g.y)
  decide +kernel

/-! ### Examples -/

example : distanceToPin (K := ℚ) ⟨0, 0, 0⟩ ⟨1, 1, 2⟩ ⟨1/2, 1/4, 1⟩ ⟨3/5, -4/5, 0⟩ = some (5/16) := by decide +kernel

example : InBox (K := ℚ) ⟨0, 0, 0⟩ ⟨1, 1, 2⟩ ⟨1/2, 1/4, 1⟩ ∧ NotLeaving (K := ℚ) 0 1 (1/2) (3/5) ∧ NotLeaving (K := ℚ) 0 1 (1/4) (-4/5) := by
  unfold InBox NotLeaving; norm_num

example : Exits (K := ℚ) ⟨1, 1, 1, 1/10000⟩ (1/1000) (at_ ⟨7/10, 1/10, 1/2⟩ ⟨3/5, 4/5, 0⟩ (1/2)) ⟨3/5, 4/5, 0⟩ .EAST := by
  simp only [Exits, at_, Away]; norm_num

end Verif.Mc
