import Verif.Core.PlanesModel
import Verif.Util.Prefix
import Mathlib.Algebra.BigOperators.Group.List.Basic
import Mathlib.Algebra.Field.Rat
import Mathlib.Tactic.Ring
import Mathlib.Tactic.NormNum

/-!
# C48: macroplanes partition the axial mesh

`sub` are the sizes of the macroplanes from the bottom up. `explode_braces` rejects empty blocks (string_utils.cpp
159-161), the assembly constructor checks that the sizes add up to the number of planes (assembly.cpp:105-109).
-/

namespace Verif.Core

open Util

variable {K : Type} [Field K]

/-- Plane `iz` belongs to macroplane `k` of the specification `sub`: the macroplanes below `k` hold at most `iz`
planes, those up to and including `k` hold more. -/
def InMacro (sub : List Nat) (k iz : Nat) : Prop :=
  k < sub.length ∧ (sub.take k).sum ≤ iz ∧ iz < (sub.take (k + 1)).sum

theorem addHeights_spec (dz : List K) (np iz : Nat) (h : K) (hb : iz + np ≤ dz.length) :
    addHeights dz np iz h = some (h + ((dz.drop iz).take np).sum) := by
  induction np generalizing iz h with
  | zero => simp [addHeights]
  | succ np ih =>
    have hi : iz < dz.length := by omega
    rw [addHeights, List.getElem?_eq_getElem hi]
    simp only
    rw [ih (iz + 1) _ (by omega), List.drop_eq_getElem_cons hi, List.take_succ_cons, List.sum_cons, add_assoc]

theorem heights_spec (dz : List K) (sub : List Nat) (iz : Nat) (hb : iz + sub.sum ≤ dz.length) :
    ∃ hs, heights dz sub iz = some hs ∧ hs.length = sub.length ∧
      (∀ k, (hk : k < sub.length) → hs[k]? = some (((dz.drop (iz + (sub.take k).sum)).take sub[k]).sum)) ∧
      hs.sum = ((dz.drop iz).take sub.sum).sum := by
  induction sub generalizing iz with
  | nil => exact ⟨[], rfl, rfl, by intro k hk; simp at hk, by simp⟩
  | cons np rest ih =>
    rw [List.sum_cons] at hb
    obtain ⟨hs, h1, h2, h3, h4⟩ := ih (iz + np) (by omega)
    refine ⟨((dz.drop iz).take np).sum :: hs, ?_, by simp [h2], ?_, ?_⟩
    · rw [heights, addHeights_spec dz np iz 0 (by omega)]
      simp only [h1, zero_add]
    · intro k hk
      cases k with
      | zero => simp
      | succ k =>
        have hk' : k < rest.length := by simpa using hk
        rw [List.getElem?_cons_succ, h3 k hk']
        simp only [List.take_succ_cons, List.sum_cons, List.getElem_cons_succ]
        congr 4; omega
    · rw [List.sum_cons, h4, List.sum_cons]
      have : (dz.drop iz).take (np + rest.sum) = (dz.drop iz).take np ++ ((dz.drop iz).drop np).take rest.sum := by
        rw [List.take_add]
      rw [this, List.sum_append, List.drop_drop]

theorem macroplanes_spec (nxy : Nat) (uniq : List Nat) (sub : List Nat) (hs : List K) (iz : Nat)
    (hl : hs.length = sub.length) (hpos : ∀ s ∈ sub, 0 < s) (hb : iz + sub.sum ≤ uniq.length) :
    ∃ ms, macroplanes nxy uniq sub hs iz = some ms ∧ ms.length = sub.length ∧
      ∀ k m, ms[k]? = some m → k < sub.length ∧ m.izMin = iz + (sub.take k).sum ∧
        m.izMax = (iz : Int) + (sub.take (k + 1)).sum - 1 ∧ hs[k]? = some m.height ∧
        m.firstPin = (iz + (sub.take k).sum) * nxy ∧ uniq[iz + (sub.take k).sum]? = some m.plane := by
  induction sub generalizing hs iz with
  | nil => exact ⟨[], rfl, rfl, by intro k m hk; simp at hk⟩
  | cons np rest ih =>
    cases hs with
    | nil => simp at hl
    | cons h hs =>
      rw [List.sum_cons] at hb
      have hnp := hpos np (by simp)
      have hu : iz < uniq.length := by omega
      obtain ⟨ms, h1, h2, h3⟩ := ih hs (iz + np) (by simpa using hl) (fun s hs => hpos s (by simp [hs])) (by omega)
      refine ⟨⟨uniq[iz], iz, (iz : Int) + np - 1, h, iz * nxy⟩ :: ms, ?_, ?_, ?_⟩
      · unfold macroplanes
        simp only [List.getElem?_eq_getElem hu, h1]
      · simp [h2]
      · intro k m hk
        cases k with
        | zero =>
          simp only [List.getElem?_cons_zero, Option.some.injEq] at hk
          subst hk
          simp [List.getElem?_eq_getElem hu]
        | succ k =>
          rw [List.getElem?_cons_succ] at hk
          obtain ⟨q1, q2, q3, q4, q5, q6⟩ := h3 k m hk
          simp only [List.take_succ_cons, List.sum_cons, List.length_cons, List.getElem?_cons_succ]
          refine ⟨by omega, by omega, ?_, q4, ?_, ?_⟩
          · rw [q3]; push_cast; ring
          · rw [q5]; congr 1; omega
          · rw [← q6]; congr 1; omega

theorem fillOne_spec (ip count iz : Nat) (a : List Nat) (hb : iz + count ≤ a.length) :
    ∃ a', fillOne ip count iz a = some a' ∧ a'.length = a.length ∧
      ∀ j, j < a.length → a'[j]? = if iz ≤ j ∧ j < iz + count then some ip else a[j]? := by
  induction count generalizing iz a with
  | zero =>
    refine ⟨a, rfl, rfl, ?_⟩
    intro j hj
    rw [if_neg (by omega)]
  | succ count ih =>
    obtain ⟨a', h1, h2, h3⟩ := ih (iz + 1) (a.set iz ip) (by rw [List.length_set]; omega)
    rw [List.length_set] at h2 h3
    refine ⟨a', ?_, h2, ?_⟩
    · rw [fillOne, if_pos (by omega), h1]
    · intro j hj
      rw [h3 j hj]
      by_cases hji : j = iz
      · subst hji
        rw [if_neg (by omega), if_pos (by omega), List.getElem?_set_self (by omega)]
      · rw [List.getElem?_set_ne (fun h => hji h.symm)]
        by_cases hc : iz + 1 ≤ j ∧ j < iz + 1 + count
        · rw [if_pos hc, if_pos (by omega)]
        · rw [if_neg hc, if_neg (by omega)]

theorem fillIndex_spec (ms : List (MacroPlane K)) (sub : List Nat) (ip iz : Nat) (a : List Nat)
    (hl : ms.length = sub.length) (hb : iz + sub.sum ≤ a.length)
    (hm : ∀ k m, ms[k]? = some m → m.izMin = iz + (sub.take k).sum ∧
      m.izMax = (iz : Int) + (sub.take (k + 1)).sum - 1) :
    ∃ a', fillIndex ms ip a = some a' ∧ a'.length = a.length ∧
      (∀ j, j < iz → a'[j]? = a[j]?) ∧
      (∀ k j, InMacro sub k j → a'[iz + j]? = some (ip + k)) := by
  induction sub generalizing ms ip iz a with
  | nil =>
    have : ms = [] := List.length_eq_zero_iff.mp (by simpa using hl)
    subst this
    exact ⟨a, rfl, rfl, fun _ _ => rfl, by rintro k j ⟨h, -, -⟩; simp at h⟩
  | cons np rest ih =>
    cases ms with
    | nil => simp at hl
    | cons m ms =>
      rw [List.sum_cons] at hb
      obtain ⟨m1, m2⟩ := hm 0 m (by simp)
      simp only [List.take_zero, List.sum_nil, add_zero, Nat.zero_add, List.take_succ_cons, List.sum_cons] at m1 m2
      have hcount : (m.izMax - m.izMin + 1).toNat = np := by rw [m2, m1]; push_cast; omega
      obtain ⟨a1, f1, f2, f3⟩ := fillOne_spec ip np iz a (by omega)
      obtain ⟨a2, g1, g2, g3, g4⟩ := ih ms (ip + 1) (iz + np) a1 (by simpa using hl) (by omega) (by
        intro k m' hk
        obtain ⟨q1, q2⟩ := hm (k + 1) m' (by rw [List.getElem?_cons_succ]; exact hk)
        simp only [List.take_succ_cons, List.sum_cons] at q1 q2
        refine ⟨by omega, ?_⟩
        rw [q2]; push_cast; ring)
      refine ⟨a2, ?_, by omega, ?_, ?_⟩
      · rw [fillIndex, hcount, m1, f1]
        simp only [g1]
      · intro j hj
        rw [g3 j (by omega), f3 j (by omega), if_neg (by omega)]
      · rintro k j ⟨h1, h2, h3⟩
        cases k with
        | zero =>
          simp only [List.take_succ_cons, List.take_zero, List.sum_cons, List.sum_nil, add_zero] at h2 h3
          rw [g3 (iz + j) (by omega), f3 (iz + j) (by omega), if_pos (by omega), add_zero]
        | succ k =>
          simp only [List.take_succ_cons, List.sum_cons] at h2 h3
          have hk : k < rest.length := by simpa using h1
          have := g4 k (j - np) ⟨hk, by omega, by omega⟩
          have e : iz + np + (j - np) = iz + j := by omega
          rw [e] at this
          rw [this]; congr 1; omega

/-- Every plane below the total is in exactly one macroplane of the specification. -/
theorem inMacro_existsUnique (sub : List Nat) (iz : Nat) (h : iz < sub.sum) : ∃ k, InMacro sub k iz ∧
    ∀ k', InMacro sub k' iz → k' = k := by
  have hex : ∃ k, InMacro sub k iz := by
    induction sub generalizing iz with
    | nil => simp at h
    | cons np rest ih =>
      rw [List.sum_cons] at h
      by_cases hlt : iz < np
      · exact ⟨0, by simp, by simp, by simpa using hlt⟩
      · obtain ⟨k, h1, h2, h3⟩ := ih (iz - np) (by omega)
        refine ⟨k + 1, by simpa using h1, ?_, ?_⟩
        · simp only [List.take_succ_cons, List.sum_cons]; omega
        · simp only [List.take_succ_cons, List.sum_cons]; omega
  obtain ⟨k, hk⟩ := hex
  refine ⟨k, hk, ?_⟩
  intro k' hk'
  obtain ⟨-, h2, h3⟩ := hk
  obtain ⟨-, h2', h3'⟩ := hk'
  rcases Nat.lt_trichotomy k' k with hl | hl | hl
  · have := take_sum_mono sub (show k' + 1 ≤ k by omega); omega
  · exact hl
  · have := take_sum_mono sub (show k + 1 ≤ k' by omega); omega

/-- C48: for every specification the constructor accepts the macroplanes are built without an access out of bounds;
each plane is in exactly one of them (its first plane is not above, its last plane not below), and that one is the one
its entry of the index names. -/
theorem C48_partition (nxy : Nat) (uniq : List Nat) (dz : List K) (sub : List Nat) (hpos : ∀ s ∈ sub, 0 < s)
    (hsum : sub.sum = dz.length) (hu : uniq.length = dz.length) :
    ∃ ax, buildAxial nxy uniq dz sub = some ax ∧ ax.index.length = dz.length ∧ ax.planes.length = sub.length ∧
      ∀ iz, iz < dz.length → ∃ k m, ax.index[iz]? = some k ∧ ax.planes[k]? = some m ∧
        m.izMin ≤ iz ∧ (iz : Int) ≤ m.izMax ∧
        ∀ k' m', ax.planes[k']? = some m' → m'.izMin ≤ iz → (iz : Int) ≤ m'.izMax → k' = k := by
  obtain ⟨hs, h1, h2, -, -⟩ := heights_spec dz sub 0 (by omega)
  obtain ⟨ms, g1, g2, g3⟩ := macroplanes_spec nxy uniq sub hs 0 h2 hpos (by omega)
  simp only [Nat.zero_add] at g3
  obtain ⟨a, f1, f2, -, f4⟩ := fillIndex_spec ms sub 0 0 (List.replicate dz.length 0) g2 (by simp; omega)
    (by intro k m hk; obtain ⟨-, q2, q3, -⟩ := g3 k m hk; exact ⟨by omega, q3⟩)
  refine ⟨⟨hs, ms, a⟩, ?_, by simpa using f2, g2, ?_⟩
  · unfold buildAxial; rw [h1]; simp only [g1, f1]
  · intro iz hiz
    obtain ⟨k, hk, huniq⟩ := inMacro_existsUnique sub iz (by omega)
    have hkl : k < ms.length := by rw [g2]; exact hk.1
    refine ⟨k, ms[k], ?_, List.getElem?_eq_getElem hkl, ?_, ?_, ?_⟩
    · have := f4 k iz hk; simpa using this
    · obtain ⟨-, q2, -⟩ := g3 k ms[k] (List.getElem?_eq_getElem hkl)
      rw [q2]; exact hk.2.1
    · obtain ⟨-, -, q3, -⟩ := g3 k ms[k] (List.getElem?_eq_getElem hkl)
      have := hk.2.2
      rw [q3]; push_cast; omega
    · intro k' m' hk' hlo hhi
      obtain ⟨q1, q2, q3, -⟩ := g3 k' m' hk'
      refine huniq k' ⟨q1, by omega, ?_⟩
      rw [q3] at hhi; push_cast at hhi; omega

/-- C48, order: the first macroplane starts at plane 0, every further one directly above its predecessor, the last one
ends with the top plane; each holds at least one plane and as many as the specification says; its pins start at its
first plane. -/
theorem C48_order (nxy : Nat) (uniq : List Nat) (dz : List K) (sub : List Nat) (hpos : ∀ s ∈ sub, 0 < s)
    (hsum : sub.sum = dz.length) (hu : uniq.length = dz.length) (ax : Axial K)
    (hax : buildAxial nxy uniq dz sub = some ax) :
    (∀ m, ax.planes[0]? = some m → m.izMin = 0) ∧
    (∀ (k : Nat) (m m' : MacroPlane K), ax.planes[k]? = some m → ax.planes[k + 1]? = some m' → (m'.izMin : Int) = m.izMax + 1) ∧
    (∀ m, ax.planes.getLast? = some m → m.izMax + 1 = (dz.length : Int)) ∧
    (∀ (k : Nat) (m : MacroPlane K), ax.planes[k]? = some m → sub[k]? = some (m.izMax - m.izMin + 1).toNat ∧ (m.izMin : Int) ≤ m.izMax ∧
      m.firstPin = m.izMin * nxy ∧ uniq[m.izMin]? = some m.plane) := by
  obtain ⟨hs, h1, h2, -, -⟩ := heights_spec dz sub 0 (by omega)
  obtain ⟨ms, g1, g2, g3⟩ := macroplanes_spec nxy uniq sub hs 0 h2 hpos (by omega)
  simp only [Nat.zero_add] at g3
  have hpl : ax.planes = ms := by
    unfold buildAxial at hax
    rw [h1] at hax; simp only [g1] at hax
    cases hf : fillIndex ms 0 (List.replicate dz.length 0) with
    | none => rw [hf] at hax; simp at hax
    | some a => rw [hf] at hax; simp only [Option.some.injEq] at hax; rw [← hax]
  rw [hpl]
  refine ⟨?_, ?_, ?_, ?_⟩
  · intro m hm
    obtain ⟨-, q2, -⟩ := g3 0 m hm
    simpa using q2
  · intro k m m' hm hm'
    obtain ⟨-, -, q3, -⟩ := g3 k m hm
    obtain ⟨-, q2, -⟩ := g3 (k + 1) m' hm'
    rw [q2, q3]; push_cast; ring
  · intro m hm
    have hl : ms[ms.length - 1]? = some m := by rw [← List.getLast?_eq_getElem?]; exact hm
    obtain ⟨q1, -, q3, -⟩ := g3 _ m hl
    have e : ms.length - 1 + 1 = sub.length := by omega
    rw [e, List.take_length] at q3
    rw [q3, hsum]; push_cast; ring
  · intro k m hm
    obtain ⟨q1, q2, q3, -, q5, q6⟩ := g3 k m hm
    have hk : 0 < sub[k] := hpos _ (List.getElem_mem q1)
    have e := take_sum_succ sub k q1
    refine ⟨?_, ?_, by rw [q5, q2], by rw [q2]; exact q6⟩
    · rw [List.getElem?_eq_getElem q1]; congr 1; rw [q3, q2, e]; push_cast; omega
    · rw [q3, q2, e]; push_cast; omega

/-- C48, heights: the height of a macroplane is the sum of the heights of its planes, and the heights of the
macroplanes add up to the height of the core, which is the last entry of `z_vec_`. -/
theorem C48_heights (nxy : Nat) (uniq : List Nat) (dz : List K) (sub : List Nat) (hpos : ∀ s ∈ sub, 0 < s)
    (hsum : sub.sum = dz.length) (hu : uniq.length = dz.length) (ax : Axial K)
    (hax : buildAxial nxy uniq dz sub = some ax) :
    (∀ (k : Nat) (m : MacroPlane K), ax.planes[k]? = some m → ax.heights[k]? = some m.height ∧
      m.height = ((dz.drop m.izMin).take (m.izMax - m.izMin + 1).toNat).sum) ∧
    ax.heights.sum = (zVec dz).2 ∧ (zVec dz).2 = dz.sum := by
  obtain ⟨hs, h1, h2, h3, h4⟩ := heights_spec dz sub 0 (by omega)
  obtain ⟨ms, g1, g2, g3⟩ := macroplanes_spec nxy uniq sub hs 0 h2 hpos (by omega)
  simp only [Nat.zero_add] at g3 h3
  have hpl : ax.planes = ms ∧ ax.heights = hs := by
    unfold buildAxial at hax
    rw [h1] at hax; simp only [g1] at hax
    cases hf : fillIndex ms 0 (List.replicate dz.length 0) with
    | none => rw [hf] at hax; simp at hax
    | some a => rw [hf] at hax; simp only [Option.some.injEq] at hax; rw [← hax]; exact ⟨rfl, rfl⟩
  rw [hpl.1, hpl.2]
  have hz : ∀ (l : List K) (h : K) (o : List K), (zLoop l h o).2 = h + l.sum := by
    intro l
    induction l with
    | nil => intro h o; simp [zLoop]
    | cons d ds ih => intro h o; rw [zLoop, ih, List.sum_cons, add_assoc]
  have hzv : (zVec dz).2 = dz.sum := by unfold zVec; rw [hz, zero_add]
  refine ⟨?_, ?_, hzv⟩
  · intro k m hm
    obtain ⟨q1, q2, q3, q4, -⟩ := g3 k m hm
    refine ⟨q4, ?_⟩
    have e := take_sum_succ sub k q1
    have hc : (m.izMax - m.izMin + 1).toNat = sub[k] := by rw [q3, q2, e]; push_cast; omega
    have := h3 k q1
    rw [q4] at this
    rw [hc, q2]
    exact Option.some.inj this
  · rw [hzv, h4, List.drop_zero, hsum, List.take_length]

theorem subplaneBounds_spec (sub : List Nat) (prev : Nat) : (subplaneBounds sub prev).length = sub.length ∧
    ∀ k, k < sub.length → (subplaneBounds sub prev).getD k 0 = prev + (sub.take (k + 1)).sum := by
  induction sub generalizing prev with
  | nil => exact ⟨rfl, by intro k hk; simp at hk⟩
  | cons np rest ih =>
    obtain ⟨h1, h2⟩ := ih (prev + np)
    refine ⟨by simp [subplaneBounds, h1], ?_⟩
    intro k hk
    cases k with
    | zero => simp [subplaneBounds]
    | succ k =>
      have := h2 k (by simpa using hk)
      simp only [subplaneBounds, List.getD_cons_succ, this, List.take_succ_cons, List.sum_cons]
      omega

/-- C48: the plane number the MoC sweeper computes by bisection is the entry of the macroplane index. -/
theorem C48_moc_index (nxy : Nat) (uniq : List Nat) (dz : List K) (sub : List Nat) (hpos : ∀ s ∈ sub, 0 < s)
    (hsum : sub.sum = dz.length) (hu : uniq.length = dz.length) (ax : Axial K)
    (hax : buildAxial nxy uniq dz sub = some ax) (iz : Nat) (hiz : iz < dz.length) :
    ax.index[iz]? = some (mocPlaneIndex sub iz) := by
  obtain ⟨ax', e1, -, -, e4⟩ := C48_partition nxy uniq dz sub hpos hsum hu
  rw [hax] at e1
  obtain rfl : ax = ax' := Option.some.inj e1
  obtain ⟨b1, b2⟩ := subplaneBounds_spec sub 0
  have hmono : ∀ i j, i ≤ j → j < (subplaneBounds sub 0).length →
      (subplaneBounds sub 0).getD i 0 ≤ (subplaneBounds sub 0).getD j 0 := by
    intro i j hij hj
    rw [b2 i (by omega), b2 j (by omega)]
    have := take_sum_mono sub (show i + 1 ≤ j + 1 by omega)
    omega
  obtain ⟨u1, u2, u3⟩ := upperBound_spec (fun i => (subplaneBounds sub 0).getD i 0) (subplaneBounds sub 0).length iz hmono
  obtain ⟨k, hk, huniq⟩ := inMacro_existsUnique sub iz (by omega)
  -- the bisection finds the macroplane containing `iz`
  have hmem : mocPlaneIndex sub iz = k := by
    obtain ⟨hk1, hk2, hk3⟩ := hk
    have hle : mocPlaneIndex sub iz ≤ k := by
      by_contra hc
      have := u2 k (Nat.lt_of_not_le hc)
      rw [b2 k hk1] at this
      omega
    rcases Nat.lt_or_ge (mocPlaneIndex sub iz) k with hlt | hge
    · have := u3 (mocPlaneIndex sub iz) (Nat.le_refl _) (by omega)
      rw [b2 _ (by omega)] at this
      have h' := take_sum_mono sub (show mocPlaneIndex sub iz + 1 ≤ k by omega)
      omega
    · omega
  obtain ⟨k', m, i1, i2, i3, i4, -⟩ := e4 iz hiz
  rw [i1, hmem]; congr 1
  -- `k'` contains `iz`
  obtain ⟨hs, h1, h2, -, -⟩ := heights_spec dz sub 0 (by omega)
  obtain ⟨ms, g1, g2, g3⟩ := macroplanes_spec nxy uniq sub hs 0 h2 hpos (by omega)
  simp only [Nat.zero_add] at g3
  have hpl : ax.planes = ms := by
    unfold buildAxial at hax
    rw [h1] at hax; simp only [g1] at hax
    cases hf : fillIndex ms 0 (List.replicate dz.length 0) with
    | none => rw [hf] at hax; simp at hax
    | some a => rw [hf] at hax; simp only [Option.some.injEq] at hax; rw [← hax]
  rw [hpl] at i2
  obtain ⟨q1, q2, q3, -⟩ := g3 k' m i2
  refine huniq k' ⟨q1, by omega, ?_⟩
  rw [q3] at i4; push_cast at i4; omega

/-- C48: the lattices of an assembly are stored so that the last one written in the input is the bottom plane, and the
macroplane sizes are the sizes of the blocks in the same order. -/
theorem C48_stacking (blocks : List (List Int)) :
    (storeBlocks blocks).2 = blocks.flatten.reverse ∧
    (storeBlocks blocks).1 = (blocks.map List.length).reverse ∧
    (storeBlocks blocks).1.sum = (storeBlocks blocks).2.length := by
  have h1 : (storeBlocks blocks).2 = blocks.flatten.reverse := by
    unfold storeBlocks
    simp only [List.reverse_flatten, List.map_reverse]
  have h2 : (storeBlocks blocks).1 = (blocks.map List.length).reverse := by
    unfold storeBlocks
    simp only [List.map_map, List.map_reverse]
    congr 1
    apply List.map_congr_left
    intro a _; simp
  refine ⟨h1, h2, ?_⟩
  rw [h1, h2, List.sum_reverse, List.length_reverse, List.length_flatten]

theorem sameFrom_spec (lats : List Int) (id : Int) (ip count k : Nat) (hb : ip + k + count ≤ lats.length) :
    sameFrom lats id ip count k = some (decide (∀ j, j < count → lats[ip + k + j]? = some id)) := by
  induction count generalizing k with
  | zero => simp [sameFrom]
  | succ count ih =>
    have hi : ip + k < lats.length := by omega
    rw [sameFrom, List.getElem?_eq_getElem hi]
    simp only
    by_cases he : lats[ip + k] = id
    · rw [if_neg (by simpa using he), ih (k + 1) (by omega)]
      congr 1
      apply decide_eq_decide.mpr
      constructor
      · intro h j hj
        cases j with
        | zero => simp [List.getElem?_eq_getElem hi, he]
        | succ j =>
          have := h j (by omega)
          rw [← this]; congr 1; omega
      · intro h j hj
        have := h (j + 1) (by omega)
        rw [← this]; congr 1; omega
    · rw [if_pos he]
      congr 1
      symm
      rw [decide_eq_false_iff_not]
      intro h
      have := h 0 (by omega)
      rw [Nat.add_zero, List.getElem?_eq_getElem hi] at this
      exact he (Option.some.inj this)

/-- C48: the MoC sweeper accepts an assembly exactly when all planes of each macroplane hold the same lattice. -/
theorem C48_same_lattice (lats : List Int) (sub : List Nat) (ip : Nat) (hpos : ∀ s ∈ sub, 0 < s)
    (hsum : ip + sub.sum ≤ lats.length) :
    ∃ b, sameLattices lats sub ip = some b ∧
      (b = true ↔ ∀ k i j, InMacro sub k i → InMacro sub k j → lats[ip + i]? = lats[ip + j]?) := by
  induction sub generalizing ip with
  | nil => exact ⟨true, rfl, by simp [InMacro]⟩
  | cons np rest ih =>
    rw [List.sum_cons] at hsum
    have hnp := hpos np (by simp)
    have hi : ip < lats.length := by omega
    obtain ⟨b, hb1, hb2⟩ := ih (ip + np) (fun s hs => hpos s (by simp [hs])) (by omega)
    rw [sameLattices, List.getElem?_eq_getElem hi]
    simp only
    rw [sameFrom_spec lats lats[ip] ip (np - 1) 1 (by omega)]
    by_cases hall : ∀ j, j < np - 1 → lats[ip + 1 + j]? = some lats[ip]
    · rw [decide_eq_true hall]
      simp only
      refine ⟨b, hb1, ?_⟩
      rw [hb2]
      have hfirst : ∀ i, i < np → lats[ip + i]? = some lats[ip] := by
        intro i hi'
        cases i with
        | zero => simp [List.getElem?_eq_getElem hi]
        | succ i => rw [← hall i (by omega)]; congr 1; omega
      constructor
      · intro h k i j hk hj
        cases k with
        | zero =>
          obtain ⟨-, -, h3⟩ := hk
          obtain ⟨-, -, h3'⟩ := hj
          simp only [List.take_succ_cons, List.take_zero, List.sum_cons, List.sum_nil, add_zero] at h3 h3'
          rw [hfirst i h3, hfirst j h3']
        | succ k =>
          obtain ⟨h1, h2, h3⟩ := hk
          obtain ⟨h1', h2', h3'⟩ := hj
          simp only [List.take_succ_cons, List.sum_cons, List.length_cons] at h1 h2 h3 h1' h2' h3'
          have := h k (i - np) (j - np) ⟨by omega, by omega, by omega⟩ ⟨by omega, by omega, by omega⟩
          have e1 : ip + np + (i - np) = ip + i := by omega
          have e2 : ip + np + (j - np) = ip + j := by omega
          rwa [e1, e2] at this
      · intro h k i j hk hj
        obtain ⟨h1, h2, h3⟩ := hk
        obtain ⟨h1', h2', h3'⟩ := hj
        have := h (k + 1) (np + i) (np + j)
          ⟨by simpa using h1, by simp only [List.take_succ_cons, List.sum_cons]; omega,
            by simp only [List.take_succ_cons, List.sum_cons]; omega⟩
          ⟨by simpa using h1, by simp only [List.take_succ_cons, List.sum_cons]; omega,
            by simp only [List.take_succ_cons, List.sum_cons]; omega⟩
        rwa [← add_assoc, ← add_assoc] at this
    · rw [decide_eq_false hall]
      refine ⟨false, rfl, ?_⟩
      simp only [Bool.false_eq_true, false_iff]
      intro h
      apply hall
      intro j hj
      have := h 0 (1 + j) 0 ⟨by simp, by simp, by simp; omega⟩ ⟨by simp, by simp, by simp; omega⟩
      rw [Nat.add_zero, List.getElem?_eq_getElem hi, ← add_assoc] at this
      exact this

/-- Non-trivial instance: three macroplanes of 2, 1 and 3 planes. -/
example : ∃ ax, buildAxial 4 [0, 0, 1, 2, 2, 2] ([1, 2, 3, 4, 5, 6] : List ℚ) [2, 1, 3] = some ax ∧
    ax.heights = [3, 3, 15] ∧ ax.index = [0, 0, 1, 2, 2, 2] ∧ ax.planes.map (·.izMin) = [0, 2, 3] ∧
    ax.planes.map (·.izMax) = [1, 2, 5] ∧ ax.planes.map (·.firstPin) = [0, 8, 12] ∧
    (List.range 6).map (mocPlaneIndex [2, 1, 3]) = [0, 0, 1, 2, 2, 2] := by
  refine ⟨_, rfl, ?_, rfl, rfl, rfl, rfl, by decide +kernel⟩
  norm_num

example : storeBlocks [[7, 7], [5], [1, 2, 3]] = ([3, 1, 2], [3, 2, 1, 5, 7, 7]) := by decide
example : sameLattices [3, 3, 5, 7, 8] [2, 1, 2] 0 = some false := by decide
example : sameLattices [3, 3, 5, 7, 7] [2, 1, 2] 0 = some true := by decide

/-- C48, axial coordinates: entry `k` of `z_vec_` is the sum of the heights of the first `k` planes, from the bottom of
the core (`k = 0`) to its top. -/
theorem C48_z_vec (dz : List K) :
    (zVec dz).1.length = dz.length + 1 ∧ ∀ k, k ≤ dz.length → (zVec dz).1[k]? = some (dz.take k).sum := by
  have hz : ∀ (l : List K) (h : K) (o : List K), (zLoop l h o).1.length = o.length + l.length ∧
      (∀ k, k < o.length → (zLoop l h o).1[k]? = o[k]?) ∧
      ∀ k, k < l.length → (zLoop l h o).1[o.length + k]? = some (h + (l.take (k + 1)).sum) := by
    intro l
    induction l with
    | nil => intro h o; exact ⟨rfl, fun _ _ => rfl, fun k hk => absurd hk (Nat.not_lt_zero k)⟩
    | cons d ds ih =>
      intro h o
      obtain ⟨h1, h2, h3⟩ := ih (h + d) (o ++ [h + d])
      rw [zLoop]
      refine ⟨by rw [h1]; simp; omega, ?_, ?_⟩
      · intro k hk
        rw [h2 k (by simp; omega), List.getElem?_append_left hk]
      · intro k hk
        cases k with
        | zero =>
          rw [h2 _ (by simp), List.getElem?_append_right (by omega)]
          simp
        | succ k =>
          have := h3 k (by simpa using hk)
          rw [List.length_append, List.length_singleton] at this
          rw [show o.length + (k + 1) = o.length + 1 + k by omega, this, List.take_succ_cons, List.sum_cons, add_assoc]
  obtain ⟨h1, h2, h3⟩ := hz dz 0 [0]
  refine ⟨by unfold zVec; rw [h1]; simp; omega, ?_⟩
  intro k hk
  unfold zVec
  cases k with
  | zero => rw [h2 0 (by simp)]; simp
  | succ k =>
    have := h3 k hk
    rw [List.length_singleton, Nat.add_comm 1 k, zero_add] at this
    exact this

/-- C48: the heights of an assembly are accepted exactly when there are as many as planes, and the one written last is
that of the bottom plane. -/
theorem C48_assembly_heights (nz : Nat) (read : List K) :
    (read.length ≠ nz → storeHeights nz read = none) ∧
    (read.length = nz → ∃ l, storeHeights nz read = some l ∧ l.length = nz ∧
      ∀ k, k < nz → l[k]? = read[nz - 1 - k]?) := by
  unfold storeHeights
  constructor
  · intro h; rw [if_pos h]
  · intro h
    rw [if_neg (not_not.mpr h)]
    refine ⟨_, rfl, by rw [List.length_reverse, h], ?_⟩
    intro k hk
    rw [List.getElem?_reverse (by omega), h]

example : zVec [(2 : ℚ), 3] = ([0, 2, 5], 5) := by norm_num [zVec, zLoop]

/-- An empty macroplane on top, which `explode_braces` excludes, would be an access out of bounds. -/
theorem C48_empty_undefined (nxy : Nat) (uniq : List Nat) (dz : List K) (sub : List Nat)
    (hsum : sub.sum = dz.length) (hu : uniq.length = dz.length) (hpos : ∀ s ∈ sub, 0 < s) :
    buildAxial nxy uniq dz (sub ++ [0]) = none := by
  obtain ⟨hs, h1, -⟩ := heights_spec dz (sub ++ [0]) 0 (by simp; omega)
  have key : ∀ (sub : List Nat) (hs : List K) (iz : Nat), iz + sub.sum = uniq.length →
      macroplanes nxy uniq (sub ++ [0]) hs iz = none := by
    intro sub
    induction sub with
    | nil =>
      intro hs iz h
      simp only [List.nil_append, macroplanes]
      rw [List.getElem?_eq_none (by simp at h; omega)]
    | cons np rest ih =>
      intro hs iz h
      rw [List.sum_cons] at h
      rw [List.cons_append]
      unfold macroplanes
      cases hg : uniq[iz]? with
      | none => rfl
      | some u =>
        cases hs with
        | nil => rfl
        | cons h' hs' =>
          simp only [ih hs' (iz + np) (by omega)]
  unfold buildAxial
  rw [h1]
  simp only
  rw [key sub hs 0 (by omega)]

end Verif.Core
