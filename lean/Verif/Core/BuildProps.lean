import Verif.Core.BuildModel
import Verif.Core.LatticeProps
import Verif.Fp.Model
import Mathlib.Data.List.Nodup
import Mathlib.Algebra.Order.Ring.Rat
import Mathlib.Tactic.NormNum

/-!
# C98 to C100: pins, assemblies and the core from the input
-/

namespace Verif.Core.Build

open Verif.Core

/-! ## C98: pins and maps by identifier -/

/-- The objects that the tags give, if all constructors succeed. -/
def Gives {T A : Type} (mk : T → Option A) (ts : List T) (as : List A) : Prop := ts.map mk = as.map some

theorem parseMap_spec {T A : Type} (mk : T → Option A) (id : A → Int) (ts : List T) (m : Int → Option A) :
    ((∃ r, parseMap mk id ts m = some r) ↔
      ∃ as, Gives mk ts as ∧ (as.map id).Nodup ∧ ∀ a ∈ as, m (id a) = none) ∧
    ∀ r as, parseMap mk id ts m = some r → Gives mk ts as →
      ∀ x a, r x = some a ↔ (a ∈ as ∧ id a = x) ∨ (m x = some a ∧ ∀ b ∈ as, id b ≠ x) := by
  induction ts generalizing m with
  | nil =>
    refine ⟨⟨fun _ => ⟨[], rfl, by simp, by simp⟩, fun _ => ⟨m, rfl⟩⟩, ?_⟩
    intro r as hr hg x a
    cases hr
    have : as = [] := by
      unfold Gives at hg
      simpa using hg.symm
    subst this
    simp
  | cons t ts ih =>
    unfold parseMap
    cases hm : mk t with
    | none =>
      refine ⟨⟨?_, ?_⟩, ?_⟩
      · rintro ⟨r, hr⟩
        cases hr
      · rintro ⟨as, hg, _⟩
        unfold Gives at hg
        rw [List.map_cons, hm] at hg
        cases as with
        | nil => simp at hg
        | cons a as => simp at hg
      · intro r as hr
        cases hr
    | some a0 =>
      dsimp only
      have split : ∀ as, Gives mk (t :: ts) as → ∃ as', as = a0 :: as' ∧ Gives mk ts as' := by
        intro as hg
        unfold Gives at hg ⊢
        rw [List.map_cons, hm] at hg
        cases as with
        | nil => simp at hg
        | cons a as =>
          rw [List.map_cons, List.cons.injEq, Option.some.injEq] at hg
          exact ⟨as, by rw [hg.1], hg.2⟩
      by_cases hd : (m (id a0)).isSome = true
      · simp only [if_pos hd]
        refine ⟨⟨?_, ?_⟩, ?_⟩
        · rintro ⟨r, hr⟩
          cases hr
        · rintro ⟨as, hg, _, h0⟩
          obtain ⟨as', rfl, -⟩ := split as hg
          rw [h0 a0 (by simp)] at hd
          cases hd
        · intro r as hr
          cases hr
      · simp only [if_neg hd]
        have hn : m (id a0) = none := by simpa using hd
        obtain ⟨i1, i2⟩ := ih fun x => if x = id a0 then some a0 else m x
        refine ⟨?_, ?_⟩
        · rw [i1]
          constructor
          · rintro ⟨as, hg, hnd, h0⟩
            refine ⟨a0 :: as, ?_, ?_, ?_⟩
            · unfold Gives at hg ⊢
              rw [List.map_cons, hm, hg, List.map_cons]
            · rw [List.map_cons, List.nodup_cons]
              refine ⟨fun hc => ?_, hnd⟩
              obtain ⟨b, hb, hbe⟩ := List.mem_map.1 hc
              have := h0 b hb
              rw [if_pos hbe] at this
              cases this
            · intro b hb
              rcases List.mem_cons.1 hb with rfl | hb
              · exact hn
              · have := h0 b hb
                split_ifs at this
                exact this
          · rintro ⟨as, hg, hnd, h0⟩
            obtain ⟨as', rfl, hg'⟩ := split as hg
            rw [List.map_cons, List.nodup_cons] at hnd
            refine ⟨as', hg', hnd.2, fun b hb => ?_⟩
            rw [if_neg]
            · exact h0 b (List.mem_cons_of_mem _ hb)
            · intro hc
              exact hnd.1 (List.mem_map.2 ⟨b, hb, hc⟩)
        · intro r as hr hg x a
          obtain ⟨as', rfl, hg'⟩ := split as hg
          rw [i2 r as' hr hg' x a]
          constructor
          · rintro (⟨h1, h2⟩ | ⟨h1, h2⟩)
            · exact Or.inl ⟨List.mem_cons_of_mem _ h1, h2⟩
            · split_ifs at h1 with hx
              · cases h1
                exact Or.inl ⟨by simp, hx.symm⟩
              · refine Or.inr ⟨h1, fun b hb => ?_⟩
                rcases List.mem_cons.1 hb with rfl | hb
                · exact fun hc => hx hc.symm
                · exact h2 b hb
          · rintro (⟨h1, h2⟩ | ⟨h1, h2⟩)
            · rcases List.mem_cons.1 h1 with rfl | h1
              · right
                refine ⟨if_pos h2.symm, fun b hb hc => ?_⟩
                have hex : ∃ r, parseMap mk id ts (fun x => if x = id a then some a else m x) = some r := ⟨r, hr⟩
                obtain ⟨as'', hg'', -, h0⟩ := i1.1 hex
                have e : as'' = as' := by
                  have := hg''.symm.trans hg'
                  exact List.map_injective_iff.2 (Option.some_injective A) this
                subst e
                have := h0 b hb
                rw [if_pos (hc.trans h2.symm)] at this
                cases this
              · exact Or.inl ⟨h1, h2⟩
            · right
              refine ⟨?_, fun b hb => h2 b (List.mem_cons_of_mem _ hb)⟩
              rw [if_neg (fun hc => h2 a0 (by simp) hc.symm)]
              exact h1

/-- C98: the tags of pins, pin meshes, lattices or assemblies are accepted exactly if each of them is and no two have the same identifier; an
identifier then stands for the object of its tag, and for nothing if no tag has it. -/
theorem C98_maps {T A : Type} (mk : T → Option A) (id : A → Int) (ts : List T) :
    ((∃ r, parseMap mk id ts (fun _ => none) = some r) ↔ ∃ as, Gives mk ts as ∧ (as.map id).Nodup) ∧
    ∀ r as, parseMap mk id ts (fun _ => none) = some r → Gives mk ts as → ∀ x a, r x = some a ↔ a ∈ as ∧ id a = x := by
  obtain ⟨h1, h2⟩ := parseMap_spec mk id ts fun _ => none
  constructor
  · rw [h1]
    simp
  · intro r as hr hg x a
    rw [h2 r as hr hg x a]
    simp

theorem scanMats_spec (lib : Int → Option Bool) (ms : List Int) :
    ((∃ f, scanMats lib ms = some f) ↔ ∀ (k : Nat) m, ms[k]? = some m → lib m ≠ none ∨ ∃ j m', j < k ∧ ms[j]? = some m' ∧ lib m' = some true) ∧
    ∀ f, scanMats lib ms = some f → (f = true ↔ ∃ m ∈ ms, lib m = some true) := by
  induction ms with
  | nil =>
    refine ⟨⟨fun _ k m h => by simp at h, fun _ => ⟨false, rfl⟩⟩, ?_⟩
    intro f hf
    cases hf
    simp
  | cons m0 ms ih =>
    obtain ⟨i1, i2⟩ := ih
    unfold scanMats
    cases hl : lib m0 with
    | none =>
      refine ⟨⟨?_, ?_⟩, ?_⟩
      · rintro ⟨f, hf⟩
        cases hf
      · intro h
        rcases h 0 m0 rfl with h | ⟨j, m', hj, -⟩
        · exact absurd hl h
        · omega
      · intro f hf
        cases hf
    | some b =>
      cases b with
      | true =>
        refine ⟨⟨?_, fun _ => ⟨true, rfl⟩⟩, ?_⟩
        · intro _ k m hk
          cases k with
          | zero =>
            cases hk
            exact Or.inl (by rw [hl]; simp)
          | succ k => exact Or.inr ⟨0, m0, by omega, rfl, hl⟩
        · intro f hf
          cases hf
          simp [hl]
      | false =>
        dsimp only
        refine ⟨?_, ?_⟩
        · rw [i1]
          constructor
          · intro h k m hk
            cases k with
            | zero =>
              cases hk
              exact Or.inl (by rw [hl]; simp)
            | succ k =>
              rcases h k m (by simpa using hk) with h | ⟨j, m', hj, h1, h2⟩
              · exact Or.inl h
              · exact Or.inr ⟨j + 1, m', by omega, by simpa using h1, h2⟩
          · intro h k m hk
            rcases h (k + 1) m (by simpa using hk) with h | ⟨j, m', hj, h1, h2⟩
            · exact Or.inl h
            · cases j with
              | zero =>
                cases h1
                rw [hl] at h2
                cases h2
              | succ j => exact Or.inr ⟨j, m', by omega, by simpa using h1, h2⟩
        · intro f hf
          rw [i2 f hf]
          simp [hl]

/-- A pin as the input should have it. -/
def PinWell (meshes : Int → Option Nat) (t : PinTag) (ms : List Int) : Prop :=
  t.id.getD 0 ≠ 0 ∧ t.mesh.getD 0 ≠ 0 ∧ t.mats = some ms ∧ meshes (t.mesh.getD 0) = some ms.length

/-- C98, exactly: a pin is accepted if it has an identifier and a mesh that exists, and as many materials as the mesh has regions, of which all up to
the first fissile one exist.  It then has these; it is fuel as the input says, and without that if and only if a material is fissile. -/
theorem C98_pin (meshes : Int → Option Nat) (lib : Int → Option Bool) (t : PinTag) :
    ((∃ p, mkPin meshes lib t = some p) ↔ ∃ ms, PinWell meshes t ms ∧
      ∀ (k : Nat) m, ms[k]? = some m → lib m ≠ none ∨ ∃ j m', j < k ∧ ms[j]? = some m' ∧ lib m' = some true) ∧
    ∀ p, mkPin meshes lib t = some p → some p.id = t.id ∧ some p.mesh = t.mesh ∧ some p.mats = t.mats ∧
      (∀ b, t.fuel = some b → p.fuel = b) ∧ (t.fuel = none → (p.fuel = true ↔ ∃ m ∈ p.mats, lib m = some true)) := by
  unfold mkPin PinWell
  dsimp only
  by_cases h1 : t.id.getD 0 = 0
  · simp [h1]
  by_cases h2 : t.mesh.getD 0 = 0
  · simp [h1, h2]
  simp only [if_neg h1, if_neg h2]
  have g1 : some (t.id.getD 0) = t.id := by
    cases hi : t.id with
    | none => rw [hi] at h1; exact absurd rfl h1
    | some i => rfl
  have g2 : some (t.mesh.getD 0) = t.mesh := by
    cases hi : t.mesh with
    | none => rw [hi] at h2; exact absurd rfl h2
    | some i => rfl
  cases hm : meshes (t.mesh.getD 0) with
  | none => simp
  | some n =>
    cases ht : t.mats with
    | none => simp
    | some ms =>
      dsimp only
      by_cases hl : ms.length ≠ n
      · simp only [if_pos hl]
        refine ⟨⟨?_, ?_⟩, ?_⟩
        · rintro ⟨p, hp⟩
          cases hp
        · rintro ⟨ms', ⟨-, -, h3, h4⟩, -⟩
          cases h3
          exact absurd (Option.some.inj h4).symm hl
        · intro p hp
          cases hp
      · simp only [if_neg hl]
        push Not at hl
        obtain ⟨s1, s2⟩ := scanMats_spec lib ms
        cases hs : scanMats lib ms with
        | none =>
          refine ⟨⟨?_, ?_⟩, ?_⟩
          · rintro ⟨p, hp⟩
            cases hp
          · rintro ⟨ms', ⟨-, -, h3, -⟩, h5⟩
            cases h3
            obtain ⟨f, hf⟩ := s1.2 h5
            rw [hs] at hf
            cases hf
          · intro p hp
            cases hp
        | some f =>
          refine ⟨⟨fun _ => ⟨ms, ⟨h1, h2, rfl, by rw [hl]⟩, s1.1 ⟨f, hs⟩⟩, fun _ => ⟨_, rfl⟩⟩, ?_⟩
          rintro p hp
          cases hp
          refine ⟨g1, g2, rfl, ?_, ?_⟩
          · intro b hb
            simp [hb]
          · intro hn
            simp only [hn, Option.getD_none]
            exact s2 f hs

/-- C98, the claim: a pin is accepted if and only if it is well-formed and all of its materials exist. -/
def C98_claim : Prop := ∀ (meshes : Int → Option Nat) (lib : Int → Option Bool) (t : PinTag),
  (∃ p, mkPin meshes lib t = some p) ↔ ∃ ms, PinWell meshes t ms ∧ ∀ m ∈ ms, lib m ≠ none

/-- C98: true if no material before the last is fissile; in particular for pins without fissile material. -/
theorem C98_pin_partial (meshes : Int → Option Nat) (lib : Int → Option Bool) (t : PinTag)
    (h : ∀ ms, t.mats = some ms → ∀ m ∈ ms.dropLast, lib m ≠ some true) :
    (∃ p, mkPin meshes lib t = some p) ↔ ∃ ms, PinWell meshes t ms ∧ ∀ m ∈ ms, lib m ≠ none := by
  rw [(C98_pin meshes lib t).1]
  constructor
  · rintro ⟨ms, hw, hk⟩
    refine ⟨ms, hw, fun m hm => ?_⟩
    obtain ⟨k, hk', rfl⟩ := List.mem_iff_getElem.1 hm
    rcases hk k _ (List.getElem?_eq_getElem hk') with h' | ⟨j, m', hj, h1, h2⟩
    · exact h'
    · exfalso
      apply h ms hw.2.2.1 m' _ h2
      rw [List.mem_iff_getElem?]
      refine ⟨j, ?_⟩
      rw [List.getElem?_dropLast, if_pos (by omega), h1]
  · rintro ⟨ms, hw, hk⟩
    exact ⟨ms, hw, fun k m hm => Or.inl (hk m (List.mem_of_getElem? hm))⟩

/-- The first material is fissile, the second does not exist. -/
def exPin : PinTag := ⟨some 1, some 2, some [7, 99], none⟩

/-- One mesh of two regions. -/
def exMeshes : Int → Option Nat := fun i => if i = 2 then some 2 else none

/-- Material 7 is fissile and 8 is not. -/
def exLib : Int → Option Bool := fun i => if i = 7 then some true else if i = 8 then some false else none

example : mkPin exMeshes exLib exPin = some ⟨1, 2, [7, 99], true⟩ := by decide

example : mkPin exMeshes exLib ⟨some 1, some 2, some [8, 99], none⟩ = none := by decide

example : mkPin exMeshes exLib ⟨some 1, some 2, some [8, 7], some false⟩ = some ⟨1, 2, [8, 7], false⟩ := by decide

example : ∃ r, parseMap (mkPin exMeshes exLib) (·.id) [exPin, ⟨some 4, some 2, some [8, 8], none⟩] (fun _ => none) = some r ∧
    r 4 = some ⟨4, 2, [8, 8], false⟩ ∧ r 5 = none := ⟨_, rfl, by decide, by decide⟩

theorem C98_claim_false : ¬ C98_claim := by
  intro h
  obtain ⟨ms, hw, hk⟩ := (h exMeshes exLib exPin).1 ⟨⟨1, 2, [7, 99], true⟩, by decide⟩
  have e : ms = [7, 99] := by
    have := hw.2.2.1
    cases this
    rfl
  subst e
  exact hk 99 (by simp) (by decide)

/-! ## C99: assemblies -/

section Assembly

variable {K L : Type}

theorem mapM_get {α β : Type} (f : α → Option β) (l : List α) :
    ((∃ r, l.mapM f = some r) ↔ ∀ a ∈ l, (f a).isSome = true) ∧ ∀ r, l.mapM f = some r → l.map f = r.map some := by
  induction l with
  | nil => simp [List.mapM_nil]
  | cons a l ih =>
    obtain ⟨i1, i2⟩ := ih
    rw [List.mapM_cons]
    cases ha : f a with
    | none =>
      refine ⟨⟨?_, ?_⟩, ?_⟩
      · rintro ⟨r, hr⟩
        cases hr
      · intro h
        have := h a (by simp)
        rw [ha] at this
        cases this
      · intro r hr
        cases hr
    | some b =>
      cases hl : l.mapM f with
      | none =>
        refine ⟨⟨?_, ?_⟩, ?_⟩
        · rintro ⟨r, hr⟩
          cases hr
        · intro h
          obtain ⟨r, hr⟩ := i1.2 fun x hx => h x (List.mem_cons_of_mem _ hx)
          rw [hl] at hr
          cases hr
        · intro r hr
          cases hr
      | some r =>
        refine ⟨⟨fun _ x hx => ?_, fun _ => ⟨_, rfl⟩⟩, ?_⟩
        · rcases List.mem_cons.1 hx with rfl | hx
          · rw [ha]; rfl
          · exact i1.1 ⟨r, hl⟩ x hx
        · intro r' hr'
          cases hr'
          simp [ha, i2 r hl]

theorem stackFold_spec (lat : Int → Option L) (bs : List (List Int)) (s : List Nat) (ls : List L) :
    ((∃ r, bs.foldlM (fun acc block => (block.mapM lat).map fun l => (acc.1 ++ [block.length], acc.2 ++ l)) (s, ls) = some r) ↔
      ∀ i ∈ bs.flatten, (lat i).isSome = true) ∧
    ∀ r : List Nat × List L, bs.foldlM (fun acc block => (block.mapM lat).map fun l => (acc.1 ++ [block.length], acc.2 ++ l)) (s, ls) = some r →
      r.1 = s ++ bs.map List.length ∧ ∃ l', r.2 = ls ++ l' ∧ bs.flatten.map lat = l'.map some := by
  induction bs generalizing s ls with
  | nil =>
    refine ⟨⟨fun _ i hi => by simp at hi, fun _ => ⟨_, rfl⟩⟩, ?_⟩
    intro r hr
    cases hr
    exact ⟨by simp, [], by simp, rfl⟩
  | cons b bs ih =>
    obtain ⟨m1, m2⟩ := mapM_get lat b
    rw [List.foldlM_cons]
    cases hb : b.mapM lat with
    | none =>
      refine ⟨⟨?_, ?_⟩, ?_⟩
      · rintro ⟨r, hr⟩
        cases hr
      · intro h
        obtain ⟨r, hr⟩ := m1.2 fun i hi => h i (by simp [hi])
        rw [hb] at hr
        cases hr
      · intro r hr
        cases hr
    | some lb =>
      simp only [Option.map_some, Option.bind_eq_bind, Option.bind_some]
      obtain ⟨i1, i2⟩ := ih (s ++ [b.length]) (ls ++ lb)
      constructor
      · rw [i1]
        constructor
        · intro h i hi
          rw [List.flatten_cons, List.mem_append] at hi
          rcases hi with hi | hi
          · exact m1.1 ⟨lb, hb⟩ i hi
          · exact h i hi
        · intro h i hi
          exact h i (by rw [List.flatten_cons, List.mem_append]; exact Or.inr hi)
      · intro r hr
        obtain ⟨j1, l', j2, j3⟩ := i2 r hr
        refine ⟨by rw [j1]; simp, lb ++ l', by rw [j2]; simp, ?_⟩
        rw [List.flatten_cons, List.map_append, j3, m2 lb hb, List.map_append]

theorem reverse_flatten_blocks (gs : List (List Int)) : (gs.reverse.map List.reverse).flatten = gs.flatten.reverse := by
  rw [List.reverse_flatten, List.map_reverse]

/-- The heights that a tag gives, bottom plane first: the attribute in all planes, or the list of the child, written top plane first. -/
def HeightsOf [Zero K] [LinearOrder K] (nz : Nat) (t : AsyTag K) (dz : List K) : Prop :=
  (∃ h, t.hz = some h ∧ t.hzs = none ∧ dz = if 0 < h then List.replicate nz h else []) ∨
  (∃ l, t.hz = none ∧ t.hzs = some (some l) ∧ l.length = nz ∧ dz = l.reverse)

theorem heights_spec [Zero K] [LinearOrder K] (nz : Nat) (t : AsyTag K) (dz : List K) :
    heights nz t.hz t.hzs = some dz ↔ HeightsOf nz t dz := by
  unfold heights HeightsOf
  cases t.hz with
  | none =>
    cases t.hzs with
    | none => simp
    | some o =>
      cases o with
      | none => simp
      | some l =>
        dsimp only
        by_cases hl : l.length ≠ nz
        · rw [if_pos hl]
          simp only [reduceCtorEq, false_and, and_false, exists_false, false_or, Option.some.injEq, true_and, false_iff, not_exists, not_and]
          rintro l' rfl h
          exact absurd h hl
        · rw [if_neg hl]
          push Not at hl
          simp only [Option.some.injEq, reduceCtorEq, false_and, and_false, exists_false, false_or, true_and]
          constructor
          · rintro rfl
            exact ⟨l, rfl, hl, rfl⟩
          · rintro ⟨l', rfl, -, rfl⟩
            rfl
  | some h =>
    cases t.hzs with
    | some o => simp
    | none =>
      simp only [Option.some.injEq, reduceCtorEq, false_and, and_false, exists_false, or_false, true_and]
      constructor
      · intro hh
        refine ⟨h, rfl, ?_⟩
        split_ifs at hh ⊢ <;> cases hh <;> rfl
      · rintro ⟨h', rfl, hh⟩
        rw [hh]
        split_ifs <;> rfl

/-- C99: an assembly is accepted exactly if it has an identifier, a number of planes, heights in one of the two ways, and groups of known lattices,
as many as planes, that are compatible with the lowest one. -/
theorem C99_accepted [Zero K] [LinearOrder K] (lat : Int → Option L) (compat : L → L → Bool) (nReg nXs : L → Nat) (t : AsyTag K) :
    (∃ a, mkAsy lat compat nReg nXs t = some a) ↔
      t.id.getD 0 ≠ 0 ∧ u32 (t.np.getD 0) ≠ 0 ∧ (∃ dz, HeightsOf (u32 (t.np.getD 0)) t dz) ∧
      ∃ gs, t.lats = some (some gs) ∧ gs.flatten.length = u32 (t.np.getD 0) ∧
        ∃ ls : List L, gs.flatten.map lat = ls.map some ∧ ∃ bottom, ls.getLast? = some bottom ∧ ∀ l ∈ ls, compat l bottom = true := by
  unfold mkAsy
  dsimp only
  by_cases h1 : t.id.getD 0 = 0
  · simp [h1]
  by_cases h2 : u32 (t.np.getD 0) = 0
  · simp [h2]
  simp only [if_neg h1, if_neg h2]
  cases hh : heights (u32 (t.np.getD 0)) t.hz t.hzs with
  | none =>
    simp only [reduceCtorEq, exists_false, false_iff, not_and, not_exists]
    rintro - - ⟨dz, hdz⟩
    rw [(heights_spec _ t dz).2 hdz] at hh
    cases hh
  | some dz =>
    have hdz := (heights_spec _ t dz).1 hh
    cases hl : t.lats with
    | none => simp
    | some o =>
      cases o with
      | none => simp
      | some gs =>
        dsimp only
        obtain ⟨s1, s2⟩ := stackFold_spec lat (gs.reverse.map List.reverse) [] []
        rw [reverse_flatten_blocks] at s1 s2
        cases hs : stack lat gs with
        | none =>
          simp only [reduceCtorEq, exists_false, false_iff, not_and, not_exists]
          rintro - - - gs' hgs' - ls hls - - -
          cases hgs'
          obtain ⟨r, hr⟩ := s1.2 (fun i hi => by
            have hi' := List.mem_reverse.1 hi
            have : lat i ∈ gs.flatten.map lat := List.mem_map.2 ⟨i, hi', rfl⟩
            rw [hls] at this
            obtain ⟨l, -, hl⟩ := List.mem_map.1 this
            rw [← hl]
            rfl)
          unfold stack at hs
          rw [hs] at hr
          cases hr
        | some r =>
          obtain ⟨sub, ls⟩ := r
          obtain ⟨j1, l', j2, j3⟩ := s2 (sub, ls) hs
          simp only [List.nil_append] at j1 j2
          subst j2
          dsimp only
          have hrev : gs.flatten.map lat = ls.reverse.map some := by
            rw [List.map_reverse, ← j3, List.map_reverse, List.reverse_reverse]
          have hlen : ls.length = gs.flatten.length := by
            have := congrArg List.length j3
            rw [List.length_map, List.length_map, List.length_reverse] at this
            exact this.symm
          have huniq : ∀ ls' : List L, gs.flatten.map lat = ls'.map some → ls' = ls.reverse := fun ls' h =>
            List.map_injective_iff.2 (Option.some_injective L) (h.symm.trans hrev)
          by_cases hn : ls.length ≠ u32 (t.np.getD 0)
          · simp only [if_pos hn, reduceCtorEq, exists_false, false_iff, not_and, not_exists]
            rintro - - - gs' hgs' hlen' - - - -
            cases hgs'
            exact absurd (hlen.trans hlen') hn
          · simp only [if_neg hn]
            push Not at hn
            cases hc : ls with
            | nil =>
              rw [hc] at hn
              exact absurd hn.symm h2
            | cons l0 rest =>
              dsimp only
              have hlast : ls.reverse.getLast? = some l0 := by rw [List.getLast?_reverse, hc]; rfl
              have hall : (l0 :: rest).all (compat · l0) = true ↔ ∀ l ∈ ls.reverse, compat l l0 = true := by
                rw [← hc, List.all_eq_true]
                simp
              by_cases ha : (l0 :: rest).all (compat · l0) = true
              · simp only [ha, if_true]
                constructor
                · intro _
                  exact ⟨h1, h2, ⟨dz, hdz⟩, gs, rfl, hlen.symm.trans hn, ls.reverse, hrev, l0, hlast, hall.1 ha⟩
                · intro _
                  exact ⟨_, rfl⟩
              · simp only [if_neg ha, reduceCtorEq, exists_false, false_iff, not_and, not_exists]
                rintro - - - gs' hgs' - ls' hls' b hb hb'
                cases hgs'
                have := huniq ls' hls'
                subst this
                rw [hlast] at hb
                cases hb
                exact ha (hall.2 hb')

/-- C99: the planes of an accepted assembly from bottom to top are the lattices of the input from the last to the first, and the macroplanes the groups
of the input from the last to the first; the numbers of regions are the sums over the lattices, and the macroplanes have all planes. -/
theorem C99_planes [Zero K] [LinearOrder K] (lat : Int → Option L) (compat : L → L → Bool) (nReg nXs : L → Nat) (t : AsyTag K) (a : Asy K L)
    (h : mkAsy lat compat nReg nXs t = some a) :
    some a.id = t.id ∧ a.nz = u32 (t.np.getD 0) ∧ 0 < a.nz ∧ HeightsOf a.nz t a.dz ∧
    ∃ gs, t.lats = some (some gs) ∧ gs.flatten.reverse.map lat = a.lats.map some ∧ a.sub = (gs.map List.length).reverse ∧
      a.lats.length = a.nz ∧ a.sub.sum = a.nz ∧ a.nReg = (a.lats.map nReg).sum ∧ a.nXs = (a.lats.map nXs).sum ∧
      ∀ l ∈ a.lats, ∀ b, a.lats.head? = some b → compat l b = true := by
  unfold mkAsy at h
  dsimp only at h
  split_ifs at h with h1 h2
  cases hh : heights (u32 (t.np.getD 0)) t.hz t.hzs with
  | none => rw [hh] at h; cases h
  | some dz =>
    have hdz := (heights_spec _ t dz).1 hh
    rw [hh] at h
    cases hl : t.lats with
    | none => rw [hl] at h; cases h
    | some o =>
      cases o with
      | none => rw [hl] at h; cases h
      | some gs =>
        rw [hl] at h
        dsimp only at h
        obtain ⟨s1, s2⟩ := stackFold_spec lat (gs.reverse.map List.reverse) [] []
        rw [reverse_flatten_blocks] at s1 s2
        cases hs : stack lat gs with
        | none => rw [hs] at h; cases h
        | some r =>
          obtain ⟨sub, ls⟩ := r
          rw [hs] at h
          dsimp only at h
          obtain ⟨j1, l', j2, j3⟩ := s2 (sub, ls) hs
          simp only [List.nil_append] at j1 j2
          subst j2
          split_ifs at h with hn
          push Not at hn
          have hlen : ls.length = gs.flatten.length := by
            have := congrArg List.length j3
            rw [List.length_map, List.length_map, List.length_reverse] at this
            exact this.symm
          cases hc : ls with
          | nil => rw [hc] at h; cases h
          | cons l0 rest =>
            rw [hc] at h
            dsimp only at h
            rw [← hc] at h
            split_ifs at h with ha
            cases h
            have hsum : ∀ (f : L → Nat) (l : List L) (n : Nat), l.foldl (fun n l => n + f l) n = n + (l.map f).sum := by
              intro f l
              induction l with
              | nil => intro n; simp
              | cons x l ih => intro n; rw [List.foldl_cons, ih, List.map_cons, List.sum_cons]; omega
            have hsub : sub = (gs.map List.length).reverse := by
              rw [j1, List.map_map, List.map_reverse, ← List.map_reverse, List.map_reverse]
              congr 1
              exact List.map_congr_left fun x _ => by simp
            refine ⟨?_, rfl, Nat.pos_of_ne_zero h2, hdz, gs, rfl, j3, hsub, hn, ?_, ?_, ?_, ?_⟩
            · cases hi : t.id with
              | none => rw [hi] at h1; exact absurd rfl h1
              | some i => rfl
            · dsimp only
              rw [hsub, List.sum_reverse, ← List.length_flatten, ← hlen, hn]
            · dsimp only
              rw [hsum, Nat.zero_add]
            · dsimp only
              rw [hsum, Nat.zero_add]
            · intro l hl' b hb
              dsimp only at hl' hb
              rw [hc] at hb
              cases hb
              exact List.all_eq_true.1 ha l hl'

/-- C99, the claim: an accepted assembly has a positive height for each plane. -/
def C99_claim : Prop := ∀ (lat : Int → Option Nat) (compat : Nat → Nat → Bool) (nReg nXs : Nat → Nat) (t : AsyTag ℚ) (a : Asy ℚ Nat),
  mkAsy lat compat nReg nXs t = some a → a.dz.length = a.nz ∧ ∀ h ∈ a.dz, 0 < h

/-- C99: true if the input gives positive heights. -/
theorem C99_heights_partial [Zero K] [LinearOrder K] (lat : Int → Option L) (compat : L → L → Bool) (nReg nXs : L → Nat) (t : AsyTag K)
    (a : Asy K L) (h : mkAsy lat compat nReg nXs t = some a) (h1 : ∀ v, t.hz = some v → 0 < v)
    (h2 : ∀ l, t.hzs = some (some l) → ∀ v ∈ l, 0 < v) : a.dz.length = a.nz ∧ ∀ v ∈ a.dz, 0 < v := by
  obtain ⟨-, -, -, hd, -⟩ := C99_planes lat compat nReg nXs t a h
  rcases hd with ⟨v, hv, -, hd⟩ | ⟨l, -, hl, hlen, hd⟩
  · rw [hd, if_pos (h1 v hv)]
    refine ⟨by simp, fun w hw => ?_⟩
    rw [List.eq_of_mem_replicate hw]
    exact h1 v hv
  · rw [hd]
    refine ⟨by simp [hlen], fun w hw => h2 l hl w (List.mem_reverse.1 hw)⟩

/-- An assembly of two planes whose height is given as zero. -/
def exAsy : AsyTag ℚ := ⟨some 1, some 2, some 0, none, some (some [[3], [4]])⟩

def exAsyOf (t : AsyTag ℚ) : Option (Asy ℚ Int) := mkAsy (fun i => if i = 3 ∨ i = 4 then some i else none) (fun _ _ => true) (fun _ => 5) (fun _ => 2) t

example : (exAsyOf ⟨some 1, some 3, none, some (some [1, 2, 7]), some (some [[3], [4, 3]])⟩).map (fun a => (a.dz, a.sub, a.lats, a.nReg)) =
    some ([7, 2, 1], [2, 1], [3, 4, 3], 15) := by decide +kernel

theorem C99_claim_false : ¬ C99_claim := by
  intro h
  have := h (fun _ => some 0) (fun _ _ => true) (fun _ => 1) (fun _ => 1) exAsy ⟨1, 2, [], [1, 1], [0, 0], 2, 2⟩ rfl
  exact absurd this.1 (by decide)

theorem sameHeights_spec (near : K → K → Bool) (a b : List K) (n i : Nat) (ha : i + n ≤ a.length) (hb : i + n ≤ b.length) :
    ∃ r, sameHeights near a b n i = .ok r ∧
      (r = true ↔ ∀ (k : Nat) x y, i ≤ k → k < i + n → a[k]? = some x → b[k]? = some y → near x y = true) := by
  induction n generalizing i with
  | zero => exact ⟨true, rfl, by simp; intro k x y h1 h2; omega⟩
  | succ n ih =>
    unfold sameHeights
    have h1 : i < a.length := by omega
    have h2 : i < b.length := by omega
    rw [List.getElem?_eq_getElem h1, List.getElem?_eq_getElem h2]
    dsimp only
    by_cases hn : near a[i] b[i] = true
    · rw [if_pos hn]
      obtain ⟨r, hr, hr'⟩ := ih (i + 1) (by omega) (by omega)
      refine ⟨r, hr, hr'.trans ⟨?_, ?_⟩⟩
      · intro h k x y hk hk' hx hy
        by_cases hki : k = i
        · subst hki
          rw [List.getElem?_eq_getElem h1] at hx
          rw [List.getElem?_eq_getElem h2] at hy
          cases hx
          cases hy
          exact hn
        · exact h k x y (by omega) (by omega) hx hy
      · intro h k x y hk hk' hx hy
        exact h k x y (by omega) (by omega) hx hy
    · rw [if_neg hn]
      refine ⟨false, rfl, ?_⟩
      simp only [Bool.false_eq_true, false_iff]
      intro h
      exact hn (h i _ _ le_rfl (by omega) (List.getElem?_eq_getElem h1) (List.getElem?_eq_getElem h2))

/-- C99: assemblies with a height for each plane are compatible exactly if they have the same number of planes, the same macroplanes, and heights that
agree plane by plane. -/
theorem C99_compatible (near : K → K → Bool) (a b : Asy K L) (ha : a.dz.length = a.lats.length) (hb : b.dz.length = b.lats.length) :
    ∃ r, compatible near a b = .ok r ∧ (r = true ↔ a.lats.length = b.lats.length ∧ a.sub = b.sub ∧ List.Forall₂ (fun x y => near x y = true) a.dz b.dz) := by
  unfold compatible
  by_cases h1 : a.lats.length ≠ b.lats.length
  · rw [if_pos h1]
    exact ⟨false, rfl, by simp [h1]⟩
  · rw [if_neg h1]
    push Not at h1
    by_cases h2 : a.sub.length ≠ b.sub.length
    · rw [if_pos h2]
      refine ⟨false, rfl, ?_⟩
      simp only [Bool.false_eq_true, false_iff, not_and]
      intro _ h
      rw [h] at h2
      exact absurd rfl h2
    · rw [if_neg h2]
      push Not at h2
      obtain ⟨r, hr, hr'⟩ := sameHeights_spec near a.dz b.dz a.lats.length 0 (by omega) (by omega)
      rw [hr]
      have hfa : (∀ (k : Nat) x y, 0 ≤ k → k < 0 + a.lats.length → a.dz[k]? = some x → b.dz[k]? = some y → near x y = true) ↔
          List.Forall₂ (fun x y => near x y = true) a.dz b.dz := by
        rw [List.forall₂_iff_get]
        constructor
        · intro h
          refine ⟨by omega, fun i hi hj => ?_⟩
          exact h i _ _ (by omega) (by omega) (by simp [List.getElem?_eq_getElem hi]) (by simp [List.getElem?_eq_getElem hj])
        · rintro ⟨-, h⟩ k x y - - hx hy
          obtain ⟨hi, rfl⟩ := List.getElem?_eq_some_iff.1 hx
          obtain ⟨hj, rfl⟩ := List.getElem?_eq_some_iff.1 hy
          exact h k hi hj
      rw [hfa] at hr'
      cases r with
      | false =>
        refine ⟨false, rfl, ?_⟩
        simp only [Bool.false_eq_true, false_iff] at hr' ⊢
        exact fun h => hr' h.2.2
      | true =>
        refine ⟨_, rfl, ?_⟩
        rw [List.all_eq_true]
        have hsub : (∀ x ∈ List.range a.sub.length, decide (a.sub[x]? = b.sub[x]?) = true) ↔ a.sub = b.sub := by
          constructor
          · intro h
            apply List.ext_getElem? fun i => ?_
            by_cases hi : i < a.sub.length
            · simpa using h i (List.mem_range.2 hi)
            · rw [List.getElem?_eq_none (by omega), List.getElem?_eq_none (by omega)]
          · intro h x _
            rw [h]
            simp
        rw [hsub]
        have := hr'.1 rfl
        tauto

/-- C99: an assembly whose height is not positive cannot even be compared with itself: the constructor of the core reads its heights past the end. -/
theorem C99_undefined [Zero K] [LinearOrder K] (lat : Int → Option L) (compat : L → L → Bool) (nReg nXs : L → Nat) (near : K → K → Bool)
    (t : AsyTag K) (a : Asy K L) (v : K) (h : mkAsy lat compat nReg nXs t = some a) (hv : t.hz = some v) (hv0 : ¬ 0 < v) :
    compatible near a a = .ub := by
  obtain ⟨-, -, hz, hd, gs, -, -, -, hl, -⟩ := C99_planes lat compat nReg nXs t a h
  have hd0 : a.dz = [] := by
    rcases hd with ⟨w, hw, -, hd⟩ | ⟨l, hn, -⟩
    · rw [hv] at hw
      cases hw
      rw [hd, if_neg hv0]
    · rw [hv] at hn
      cases hn
  unfold compatible
  rw [if_neg (by simp), if_neg (by simp), hl, hd0]
  cases hn : a.nz with
  | zero => omega
  | succ n => rfl

/-- C99, what the constructor of the core relies on: compatibility is transitive.  Heights are given by their bit patterns (C05). -/
def C99_transitive_claim : Prop := ∀ a b c : Asy Int Nat,
  compatible (fun x y => Fp.fpEquivUlp x y == some true) a b = .ok true →
  compatible (fun x y => Fp.fpEquivUlp x y == some true) b c = .ok true → compatible (fun x y => Fp.fpEquivUlp x y == some true) a c = .ok true

/-- One plane with a height of one and `d` units in the last place. -/
def exNear (d : Int) : Asy Int Nat := ⟨1, 1, [1023 * 2^52 + d], [1], [0], 1, 1⟩

theorem C99_transitive_claim_false : ¬ C99_transitive_claim := by
  intro h
  exact absurd (h (exNear 0) (exNear 150) (exNear 300) (by decide +kernel) (by decide +kernel)) (by decide +kernel)

end Assembly

/-! ## C100: the core -/

section Core

theorem placeRowW_eq {P : Type} (look : Int → Option P) (nx row iy : Nat) (src : Nat → Nat) (ids : List Int) (count ix : Nat)
    (a : List (Option P)) (hsrc : ∀ j, j < nx → src j = iy * nx + j) (hix : ix + count ≤ nx) (hrow : (row + 1) * nx < 2^32 + 1) :
    placeRowW look nx row src ids count ix a = placeRow look nx row iy ids count ix a := by
  induction count generalizing ix a with
  | zero => rfl
  | succ count ih =>
    unfold placeRowW placeRow
    have e : (row * nx + ix) % 2^32 = row * nx + ix := by
      apply Nat.mod_eq_of_lt
      have : (row + 1) * nx = row * nx + nx := by ring
      omega
    rw [hsrc ix (by omega), e]
    cases ids[iy * nx + ix]? with
    | none => rfl
    | some id =>
      dsimp only
      cases look id with
      | none => rfl
      | some p =>
        dsimp only
        rw [ih (ix + 1) _ (by omega)]

theorem placeRowsW_eq {P : Type} (look : Int → Option P) (nx ny : Nat) (src : Nat → Nat → Nat) (ids : List Int) (count iy : Nat)
    (a : List (Option P)) (hsrc : ∀ i j, i < ny → j < nx → src i j = i * nx + j) (hc : iy + count ≤ ny) (hs : nx * ny < 2^32) :
    placeRowsW look nx ny src ids count iy a = placeRows look nx ny ids count iy a := by
  induction count generalizing iy a with
  | zero => rfl
  | succ count ih =>
    unfold placeRowsW placeRows
    rw [placeRowW_eq look nx (ny - iy - 1) iy (src iy) ids nx 0 a (fun j hj => hsrc iy j (by omega) hj) (by omega) ?_]
    · cases placeRow look nx (ny - iy - 1) iy ids nx 0 a with
      | ok a' => exact ih (iy + 1) a' (by omega)
      | throw => rfl
      | ub => rfl
    · have h1 : (ny - iy - 1 + 1) * nx ≤ ny * nx := Nat.mul_le_mul_right _ (by omega)
      have h2 : ny * nx = nx * ny := Nat.mul_comm _ _
      omega

/-- C100: in 32 bits, as long as the product of the dimensions is below 2^32, assemblies and pins are placed as in C49. -/
theorem C100_arrange {P : Type} (look : Int → Option P) (nx ny : Nat) (ids : List Int) (hs : nx * ny < 2^32) :
    arrangeCore look nx ny ids = arrange look nx ny ids ∧ arrangeLattice look nx ny ids = arrange look nx ny ids := by
  unfold arrangeCore arrangeLattice arrange
  rw [Nat.mod_eq_of_lt hs]
  constructor
  · split_ifs with h
    · rfl
    · rw [placeRowsW_eq look nx ny _ ids ny 0 _ (fun _ _ _ _ => rfl) (by omega) hs, Nat.mul_comm nx ny]
  · split_ifs with h
    · rfl
    · rw [placeRowsW_eq look nx ny _ ids ny 0 _ ?_ (by omega) hs, Nat.mul_comm nx ny]
      intro i j hi hj
      apply Nat.mod_eq_of_lt
      have h1 : (i + 1) * nx ≤ ny * nx := Nat.mul_le_mul_right _ hi
      have h2 : (i + 1) * nx = i * nx + nx := by ring
      have h3 : ny * nx = nx * ny := Nat.mul_comm _ _
      omega

theorem u32_of (z : Int) (h0 : 0 ≤ z) (h1 : z < 2^32) : (u32 z : Int) = z := by
  unfold u32
  rw [Int.emod_eq_of_lt h0 h1]
  exact Int.toNat_of_nonneg h0

/-- C100, the claim: no `<core>` tag and no `<lattice>` tag leads to undefined behaviour while assemblies and pins are placed.  Attributes are `int`. -/
def C100_claim : Prop := ∀ (look : Int → Option Nat) (nx ny : Int) (ids : List Int), -2^31 ≤ nx → nx < 2^31 → -2^31 ≤ ny → ny < 2^31 →
  u32 nx ≠ 0 → u32 ny ≠ 0 → arrangeCore look (u32 nx) (u32 ny) ids ≠ .ub ∧ arrangeLattice look (u32 nx) (u32 ny) ids ≠ .ub

/-- C100: dimensions of minus one in both directions with a single identifier pass the checks, and then the identifier is written behind the end of the
array of one. -/
theorem C100_negative {P : Type} (look : Int → Option P) (id : Int) (p : P) (h : look id = some p) :
    arrangeCore look (u32 (-1)) (u32 (-1)) [id] = .ub ∧ arrangeLattice look (u32 (-1)) (u32 (-1)) [id] = .ub := by
  have hu : u32 (-1) = 4294967295 := by decide
  have e1 : (4294967295 * 4294967295) % 2^32 = 1 := by norm_num
  have e2 : ((4294967295 - 0 - 1) * 4294967295 + 0) % 2^32 = 2 := by norm_num
  rw [hu]
  have key : ∀ src : Nat → Nat → Nat, src 0 0 = 0 →
      placeRowsW look 4294967295 4294967295 src [id] 4294967295 0 (List.replicate 1 none) = .ub := by
    intro src hsrc
    have hrow : placeRowW look 4294967295 (4294967295 - 0 - 1) (src 0) [id] 4294967295 0 (List.replicate 1 none) = .ub := by
      rw [show (4294967295 : Nat) = 4294967294 + 1 from rfl, placeRowW]
      rw [show src 0 0 = 0 from hsrc]
      simp only [List.getElem?_cons_zero, h]
      rw [if_neg]
      rw [show (4294967294 + 1 - 0 - 1) * (4294967294 + 1) + 0 = (4294967295 - 0 - 1) * 4294967295 + 0 from rfl, e2]
      simp
    rw [show placeRowsW look 4294967295 4294967295 src [id] 4294967295 0 (List.replicate 1 none) =
      placeRowsW look 4294967295 4294967295 src [id] (4294967294 + 1) 0 (List.replicate 1 none) from rfl, placeRowsW, hrow]
  constructor
  · unfold arrangeCore
    rw [e1, if_neg (by simp)]
    exact key _ (by norm_num)
  · unfold arrangeLattice
    rw [e1, if_neg (by simp)]
    exact key _ (by norm_num)

theorem C100_claim_false : ¬ C100_claim := by
  intro h
  exact (h (fun _ => some 0) (-1) (-1) [1] (by norm_num) (by norm_num) (by norm_num) (by norm_num) (by decide) (by decide)).1
    (C100_negative _ 1 0 rfl).1

theorem mem_flatten_arranged {P : Type} (look : Int → Option P) (nx ny : Nat) (ids : List Int) (hs : nx * ny < 2^32) :
    (∀ a, arrangeCore look nx ny ids = .ok a → ids.length = nx * ny ∧ (∀ i ∈ ids, (look i).isSome = true) ∧ a.length = nx * ny ∧
      ∀ x y, x < nx → y < ny → a[y * nx + x]? = some ((ids[(ny - 1 - y) * nx + x]?).bind look)) ∧
    (arrangeCore look nx ny ids = .throw → ids.length ≠ nx * ny ∨ ∃ i ∈ ids, look i = none) ∧ arrangeCore look nx ny ids ≠ .ub := by
  rw [(C100_arrange look nx ny ids hs).1]
  by_cases hl : ids.length = nx * ny
  swap
  · rw [C49_map_count look nx ny ids hl]
    refine ⟨?_, fun _ => Or.inl hl, by simp⟩
    intro a ha
    cases ha
  by_cases hk : ∀ i ∈ ids, (look i).isSome = true
  swap
  · push Not at hk
    obtain ⟨i, hi, hn⟩ := hk
    have hn' : look i = none := by simpa using hn
    rw [C49_map_unknown look nx ny ids hl i hi hn']
    refine ⟨?_, fun _ => Or.inr ⟨i, hi, hn'⟩, by simp⟩
    intro a ha
    cases ha
  obtain ⟨a, h1, h2, h3⟩ := placeRows_spec look nx ny ids ny 0 (List.replicate (ny * nx) none) (by omega) hl (by simp)
    (fun i hi => Option.isSome_iff_exists.1 (hk i hi))
  have ha : arrange look nx ny ids = .ok a := by
    unfold arrange
    rw [if_neg (by simpa using hl), h1]
  rw [ha]
  refine ⟨?_, by simp, by simp⟩
  rintro a' ha'
  cases ha'
  have hlen : a.length = nx * ny := by rw [h2, List.length_replicate, Nat.mul_comm]
  refine ⟨hl, hk, hlen, ?_⟩
  intro x y hx hy
  have := h3 x y hx hy
  rw [if_pos hy] at this
  have hb : y * nx + x < a.length := by
    rw [hlen]
    have h4 : (y + 1) * nx ≤ ny * nx := Nat.mul_le_mul_right _ hy
    have h5 : (y + 1) * nx = y * nx + nx := by ring
    have h6 : ny * nx = nx * ny := Nat.mul_comm _ _
    omega
  rw [List.getElem?_eq_getElem hb] at this ⊢
  rw [this]

/-- C100: a lattice is read exactly if it has an identifier, dimensions (with a product below 2^32), and as many pins as places, all known; the first row of
the text is its uppermost row. -/
theorem C100_lattice_partial {P : Type} (look : Int → Option P) (id nx ny : Option Int) (ids : Option (List Int))
    (hs : u32 (nx.getD 0) * u32 (ny.getD 0) < 2^32) :
    ((∃ r, latticePins look id nx ny ids = .ok r) ↔ id.getD 0 ≠ 0 ∧ 0 < u32 (nx.getD 0) ∧ 0 < u32 (ny.getD 0) ∧
      ∃ l, ids = some l ∧ l.length = u32 (nx.getD 0) * u32 (ny.getD 0) ∧ ∀ i ∈ l, (look i).isSome = true) ∧
    latticePins look id nx ny ids ≠ .ub ∧
    ∀ mx my a, latticePins look id nx ny ids = .ok (mx, my, a) → mx = u32 (nx.getD 0) ∧ my = u32 (ny.getD 0) ∧ a.length = mx * my ∧
      ∃ l, ids = some l ∧ ∀ x y, x < mx → y < my → a[y * mx + x]? = some ((l[(my - 1 - y) * mx + x]?).bind look) := by
  unfold latticePins
  dsimp only
  by_cases h1 : id.getD 0 = 0
  · simp [h1]
  rw [if_neg h1]
  by_cases h2 : u32 (nx.getD 0) = 0 ∨ u32 (ny.getD 0) = 0
  · rw [if_pos h2]
    refine ⟨⟨?_, ?_⟩, by simp, by simp⟩
    · rintro ⟨r, hr⟩
      cases hr
    · rintro ⟨-, g1, g2, -⟩
      omega
  rw [if_neg h2]
  cases ids with
  | none => simp
  | some l =>
    dsimp only
    obtain ⟨a1, a2, a3⟩ := mem_flatten_arranged look (u32 (nx.getD 0)) (u32 (ny.getD 0)) l hs
    rw [(C100_arrange look _ _ l hs).1, ← (C100_arrange look _ _ l hs).2] at a1 a2 a3
    cases ha : arrangeLattice look (u32 (nx.getD 0)) (u32 (ny.getD 0)) l with
    | ub => exact absurd ha a3
    | throw =>
      refine ⟨⟨?_, ?_⟩, by simp, by simp⟩
      · rintro ⟨r, hr⟩
        cases hr
      · rintro ⟨-, -, -, l', hl', g1, g2⟩
        cases hl'
        rcases a2 ha with h | ⟨i, hi, hn⟩
        · exact absurd g1 h
        · have := g2 i hi
          rw [hn] at this
          cases this
    | ok a =>
      obtain ⟨g1, g2, g3, g4⟩ := a1 a ha
      refine ⟨⟨fun _ => ⟨h1, by omega, by omega, l, rfl, g1, g2⟩, fun _ => ⟨_, rfl⟩⟩, by simp, ?_⟩
      intro mx my a' h
      simp only [Res.ok.injEq, Prod.mk.injEq] at h
      obtain ⟨rfl, rfl, rfl⟩ := h
      exact ⟨rfl, rfl, g3, l, rfl, g4⟩

theorem checkAll_spec {P : Type} (compat : P → P → Res Bool) (front : P) (ps : List P) :
    (checkAll compat front ps = .ok true ↔ ∀ p ∈ ps, compat front p = .ok true) := by
  induction ps with
  | nil => simp [checkAll]
  | cons p ps ih =>
    unfold checkAll
    cases hc : compat front p with
    | ok b =>
      cases b with
      | true => simp [ih, hc]
      | false => simp [hc]
    | throw => simp [hc]
    | ub => simp [hc]

variable {A K : Type}

theorem edges_get [AddCommMonoid K] (hs : List K) (prev : K) : (edges hs prev).length = hs.length ∧
    ∀ i, i < hs.length → (edges hs prev)[i]? = some (prev + (hs.take (i + 1)).sum) := by
  induction hs generalizing prev with
  | nil => exact ⟨rfl, fun i hi => by simp at hi⟩
  | cons h hs ih =>
    obtain ⟨i1, i2⟩ := ih (prev + h)
    refine ⟨by simp [edges, i1], fun i hi => ?_⟩
    cases i with
    | zero => simp [edges]
    | succ i =>
      rw [edges, List.getElem?_cons_succ, i2 i (by simpa using hi)]
      simp [add_assoc]

/-- C100: what an accepted core is (dimensions whose product is below 2^32).  The boundary conditions are those of the attributes, there are as many
identifiers as places, all known; the assembly in column `x` and row `y` from the bottom is that of column `x` and the `y`-th row from the bottom of the
text; all assemblies are compatible with the one in the lower left corner; and the numbers of pins and boundaries are the sums over the bottom row and
the left column. -/
theorem C100_core_partial [AddCommMonoid K] (look : Int → Option A) (compat : A → A → Res Bool) (anx any : A → Nat) (ahx ahy : A → K) (t : CoreTag)
    (c : CoreOf A K) (hs : u32 (t.nx.getD 0) * u32 (t.ny.getD 0) < 2^32) (h : mkCore look compat anx any ahx ahy t = .ok c) :
    c.nx = u32 (t.nx.getD 0) ∧ c.ny = u32 (t.ny.getD 0) ∧ 0 < c.nx ∧ 0 < c.ny ∧ (∀ s, bcParse (t.bc s) = some (c.bc s)) ∧
    ∃ ids, t.ids = some ids ∧ ids.length = c.nx * c.ny ∧ c.asys.length = c.nx * c.ny ∧
      (∀ x y, x < c.nx → y < c.ny → ∃ id a, ids[(c.ny - 1 - y) * c.nx + x]? = some id ∧ look id = some a ∧ c.asys[y * c.nx + x]? = some a) ∧
      (∀ f, c.asys[0]? = some f → ∀ a ∈ c.asys, compat f a = .ok true) ∧
      c.npinX = ((c.asys.take c.nx).map anx).sum ∧
      c.npinY = (((List.range c.ny).filterMap fun iy : Nat => c.asys[iy * c.nx]?).map any).sum ∧
      c.hx.length = c.nx ∧ c.hy.length = c.ny ∧
      (∀ i, i < c.nx → c.hx[i]? = some (((c.asys.take c.nx).map ahx).take (i + 1)).sum) ∧
      ∀ i, i < c.ny → c.hy[i]? = some ((((List.range c.ny).filterMap fun iy : Nat => c.asys[iy * c.nx]?).map ahy).take (i + 1)).sum := by
  unfold mkCore at h
  dsimp only at h
  split_ifs at h with hd
  push Not at hd
  cases hn : bcParse (t.bc .north) with
  | none => simp only [hn] at h; cases h
  | some bn =>
  cases hso : bcParse (t.bc .south) with
  | none => simp only [hn, hso] at h; cases h
  | some bs =>
  cases he : bcParse (t.bc .east) with
  | none => simp only [hn, hso, he] at h; cases h
  | some be =>
  cases hw : bcParse (t.bc .west) with
  | none => simp only [hn, hso, he, hw] at h; cases h
  | some bw =>
  cases ht : bcParse (t.bc .top) with
  | none => simp only [hn, hso, he, hw, ht] at h; cases h
  | some bt =>
  cases hb : bcParse (t.bc .bottom) with
  | none => simp only [hn, hso, he, hw, ht, hb] at h; cases h
  | some bb =>
  cases hi : t.ids with
  | none => simp only [hn, hso, he, hw, ht, hb, hi] at h; cases h
  | some ids =>
    simp only [hn, hso, he, hw, ht, hb, hi] at h
    obtain ⟨a1, -, -⟩ := mem_flatten_arranged look (u32 (t.nx.getD 0)) (u32 (t.ny.getD 0)) ids hs
    set nx := u32 (t.nx.getD 0)
    set ny := u32 (t.ny.getD 0)
    cases ha : arrangeCore look nx ny ids with
    | throw => rw [ha] at h; cases h
    | ub => rw [ha] at h; cases h
    | ok cells =>
      rw [ha] at h
      dsimp only at h
      obtain ⟨l1, l2, l3, l4⟩ := a1 cells ha
      cases hm : cells.mapM (fun x => x) with
      | none => rw [hm] at h; cases h
      | some asys =>
        rw [hm] at h
        dsimp only at h
        have hms := (mapM_get (fun x : Option A => x) cells).2 asys hm
        rw [List.map_id'] at hms
        have hal : asys.length = nx * ny := by
          rw [← l3, hms]
          simp
        cases hc : asys with
        | nil => rw [hc] at h; cases h
        | cons f rest =>
          rw [hc] at h
          dsimp only at h
          rw [← hc] at h
          cases hck : checkAll compat f asys with
          | throw => rw [hck] at h; cases h
          | ub => rw [hck] at h; cases h
          | ok b =>
            cases b with
            | false => rw [hck] at h; cases h
            | true =>
              rw [hck] at h
              cases h
              dsimp only
              have hsum : ∀ (g : A → Nat) (l : List A) (n : Nat), l.foldl (fun n l => n + g l) n = n + (l.map g).sum := by
                intro g l
                induction l with
                | nil => intro n; simp
                | cons x l ih => intro n; rw [List.foldl_cons, ih, List.map_cons, List.sum_cons]; omega
              have hrow : (asys.take nx).length = nx := by
                rw [List.length_take, hal]
                have : nx ≤ nx * ny := Nat.le_mul_of_pos_right _ (by omega)
                omega
              have hcol : ((List.range ny).filterMap fun iy : Nat => asys[iy * nx]?).length = ny := by
                have : ∀ k, k ≤ ny → ((List.range k).filterMap fun iy : Nat => asys[iy * nx]?).length = k := by
                  intro k
                  induction k with
                  | zero => intro _; rfl
                  | succ k ih =>
                    intro hk
                    rw [List.range_succ, List.filterMap_append, List.length_append, ih (by omega)]
                    have hlt : k * nx < asys.length := by
                      rw [hal, Nat.mul_comm nx ny]
                      exact Nat.mul_lt_mul_of_pos_right (by omega) (by omega)
                    simp [List.getElem?_eq_getElem hlt]
                exact this ny le_rfl
              refine ⟨rfl, rfl, by omega, by omega, ?_, ids, rfl, l1, hal, ?_, ?_, ?_, ?_, ?_, ?_, ?_, ?_⟩
              · intro s
                cases s <;> assumption
              · intro x y hx hy
                have hcell := l4 x y hx hy
                have hlt : (ny - 1 - y) * nx + x < ids.length := by
                  rw [l1]
                  have h4 : (ny - 1 - y + 1) * nx ≤ ny * nx := Nat.mul_le_mul_right _ (by omega)
                  have h5 : (ny - 1 - y + 1) * nx = (ny - 1 - y) * nx + nx := by ring
                  have h6 : ny * nx = nx * ny := Nat.mul_comm _ _
                  omega
                rw [List.getElem?_eq_getElem hlt, Option.bind_some] at hcell
                obtain ⟨a, hla⟩ := Option.isSome_iff_exists.1 (l2 _ (List.getElem_mem hlt))
                refine ⟨_, a, List.getElem?_eq_getElem hlt, hla, ?_⟩
                rw [hla, hms, List.getElem?_map] at hcell
                cases hq : asys[y * nx + x]? with
                | none => rw [hq] at hcell; simp at hcell
                | some a' =>
                  rw [hq] at hcell
                  simp only [Option.map_some, Option.some.injEq] at hcell
                  rw [hcell]
              · intro f' hf' a ha'
                rw [hc] at hf'
                cases hf'
                exact (checkAll_spec compat f asys).1 hck a ha'
              · rw [hsum, Nat.zero_add]
              · rw [hsum, Nat.zero_add]
              · rw [(edges_get _ _).1, List.length_map, hrow]
              · rw [(edges_get _ _).1, List.length_map, hcol]
              · intro i hi'
                rw [(edges_get _ _).2 i (by rw [List.length_map, hrow]; exact hi'), zero_add]
              · intro i hi'
                rw [(edges_get _ _).2 i (by rw [List.length_map, hcol]; exact hi'), zero_add]

/-- C100: conversely the input is accepted if the dimensions are positive with a product below 2^32, all boundary conditions are named, there are as many identifiers
as places, all known, and all assemblies are compatible with that of the lower left corner. -/
theorem C100_accepted_partial [AddCommMonoid K] (look : Int → Option A) (compat : A → A → Res Bool) (anx any : A → Nat) (ahx ahy : A → K) (t : CoreTag)
    (hs : u32 (t.nx.getD 0) * u32 (t.ny.getD 0) < 2^32) (h1 : 0 < u32 (t.nx.getD 0)) (h2 : 0 < u32 (t.ny.getD 0))
    (hbc : ∀ s, (bcParse (t.bc s)).isSome = true) (ids : List Int) (hi : t.ids = some ids)
    (hl : ids.length = u32 (t.nx.getD 0) * u32 (t.ny.getD 0)) (hk : ∀ i ∈ ids, (look i).isSome = true)
    (corner : Int) (hcor : ids[(u32 (t.ny.getD 0) - 1) * u32 (t.nx.getD 0)]? = some corner)
    (hc : ∀ f, look corner = some f → ∀ j ∈ ids, ∀ b, look j = some b → compat f b = .ok true) :
    ∃ c, mkCore look compat anx any ahx ahy t = .ok c := by
  unfold mkCore
  dsimp only
  rw [if_neg (by omega)]
  obtain ⟨bn, hn⟩ := Option.isSome_iff_exists.1 (hbc .north)
  obtain ⟨bs, hso⟩ := Option.isSome_iff_exists.1 (hbc .south)
  obtain ⟨be, he⟩ := Option.isSome_iff_exists.1 (hbc .east)
  obtain ⟨bw, hw⟩ := Option.isSome_iff_exists.1 (hbc .west)
  obtain ⟨bt, ht⟩ := Option.isSome_iff_exists.1 (hbc .top)
  obtain ⟨bb, hb⟩ := Option.isSome_iff_exists.1 (hbc .bottom)
  simp only [hn, hso, he, hw, ht, hb, hi]
  obtain ⟨a1, a2, a3⟩ := mem_flatten_arranged look (u32 (t.nx.getD 0)) (u32 (t.ny.getD 0)) ids hs
  set nx := u32 (t.nx.getD 0)
  set ny := u32 (t.ny.getD 0)
  cases ha : arrangeCore look nx ny ids with
  | throw =>
    exfalso
    rcases a2 ha with h | ⟨i, hi', hn'⟩
    · exact h hl
    · have := hk i hi'
      rw [hn'] at this
      cases this
  | ub => exact absurd ha a3
  | ok cells =>
    obtain ⟨l1, l2, l3, l4⟩ := a1 cells ha
    have hcells : ∀ k, k < cells.length → ∃ i ∈ ids, cells[k]? = some (look i) := by
      intro k hk'
      rw [l3] at hk'
      have hy : k / nx < ny := Nat.div_lt_of_lt_mul hk'
      have hx : k % nx < nx := Nat.mod_lt _ h1
      have := l4 (k % nx) (k / nx) hx hy
      rw [Nat.div_add_mod' k nx] at this
      have hlt : (ny - 1 - k / nx) * nx + k % nx < ids.length := by
        rw [l1]
        generalize k / nx = q at hy ⊢
        generalize k % nx = m at hx ⊢
        have h4 : (ny - 1 - q + 1) * nx ≤ ny * nx := Nat.mul_le_mul_right _ (by omega)
        have h5 : (ny - 1 - q + 1) * nx = (ny - 1 - q) * nx + nx := by ring
        have h6 : ny * nx = nx * ny := Nat.mul_comm _ _
        omega
      rw [List.getElem?_eq_getElem hlt, Option.bind_some] at this
      exact ⟨_, List.getElem_mem hlt, this⟩
    obtain ⟨m1, m2⟩ := mapM_get (fun x : Option A => x) cells
    obtain ⟨asys, hm⟩ := m1.2 (fun x hx => by
      obtain ⟨k, hk', rfl⟩ := List.mem_iff_getElem.1 hx
      obtain ⟨i, hi', he'⟩ := hcells k hk'
      rw [List.getElem?_eq_getElem hk', Option.some.injEq] at he'
      rw [he']
      exact hk i hi')
    have hms := m2 asys hm
    rw [List.map_id'] at hms
    have hmem : ∀ a ∈ asys, ∃ i ∈ ids, look i = some a := by
      intro a ha'
      obtain ⟨k, hk', rfl⟩ := List.mem_iff_getElem.1 ha'
      obtain ⟨i, hi', he'⟩ := hcells k (by rw [hms]; simpa using hk')
      rw [hms, List.getElem?_map, List.getElem?_eq_getElem hk', Option.map_some, Option.some.injEq] at he'
      exact ⟨i, hi', he'.symm⟩
    dsimp only
    rw [hm]
    dsimp only
    cases hcs : asys with
    | nil =>
      exfalso
      have : cells.length = 0 := by rw [hms, hcs]; rfl
      rw [l3] at this
      have := Nat.mul_pos h1 h2
      omega
    | cons f rest =>
      dsimp only
      rw [← hcs]
      have hck : checkAll compat f asys = .ok true := by
        rw [checkAll_spec]
        intro p hp
        have h0 := l4 0 0 h1 h2
        rw [Nat.zero_mul, Nat.zero_add, Nat.sub_zero, Nat.add_zero, hcor, hms, hcs, List.map_cons, List.getElem?_cons_zero, Option.bind_some,
          Option.some.injEq] at h0
        obtain ⟨j, hj', hlj⟩ := hmem p hp
        exact hc f h0.symm j hj' p hlj
      rw [hck]
      exact ⟨_, rfl⟩

theorem checkAll_defined {P : Type} (compat : P → P → Res Bool) (front : P) (ps : List P) (h : ∀ a b, compat a b ≠ .ub) :
    checkAll compat front ps ≠ .ub := by
  induction ps with
  | nil => simp [checkAll]
  | cons p ps ih =>
    unfold checkAll
    cases hc : compat front p with
    | ok b => cases b <;> simp [ih]
    | throw => simp
    | ub => exact absurd hc (h _ _)

/-- C100: all other inputs are rejected with an error (dimensions whose product is below 2^32, assemblies that can be compared, see C99). -/
theorem C100_defined_partial [AddCommMonoid K] (look : Int → Option A) (compat : A → A → Res Bool) (anx any : A → Nat) (ahx ahy : A → K) (t : CoreTag)
    (hs : u32 (t.nx.getD 0) * u32 (t.ny.getD 0) < 2^32) (hcm : ∀ a b, compat a b ≠ .ub) : mkCore look compat anx any ahx ahy t ≠ .ub := by
  unfold mkCore
  dsimp only
  split_ifs with hd
  · simp
  push Not at hd
  cases hn : bcParse (t.bc .north) with
  | none => simp
  | some bn =>
  cases hso : bcParse (t.bc .south) with
  | none => simp
  | some bs =>
  cases he : bcParse (t.bc .east) with
  | none => simp
  | some be =>
  cases hw : bcParse (t.bc .west) with
  | none => simp
  | some bw =>
  cases ht : bcParse (t.bc .top) with
  | none => simp
  | some bt =>
  cases hb : bcParse (t.bc .bottom) with
  | none => simp
  | some bb =>
  cases hi : t.ids with
  | none => simp
  | some ids =>
    dsimp only
    obtain ⟨a1, -, a3⟩ := mem_flatten_arranged look (u32 (t.nx.getD 0)) (u32 (t.ny.getD 0)) ids hs
    set nx := u32 (t.nx.getD 0)
    set ny := u32 (t.ny.getD 0)
    cases ha : arrangeCore look nx ny ids with
    | throw => simp
    | ub => exact absurd ha a3
    | ok cells =>
      obtain ⟨l1, l2, l3, l4⟩ := a1 cells ha
      obtain ⟨m1, m2⟩ := mapM_get (fun x : Option A => x) cells
      obtain ⟨asys, hm⟩ := m1.2 (fun x hx => by
        obtain ⟨k, hk, rfl⟩ := List.mem_iff_getElem.1 hx
        have hk' := hk
        rw [l3] at hk'
        have hy : k / nx < ny := Nat.div_lt_of_lt_mul hk'
        have hxx : k % nx < nx := Nat.mod_lt _ (by omega)
        have := l4 (k % nx) (k / nx) hxx hy
        rw [Nat.div_add_mod' k nx] at this
        have hlt : (ny - 1 - k / nx) * nx + k % nx < ids.length := by
          rw [l1]
          generalize k / nx = q at hy ⊢
          generalize k % nx = m at hxx ⊢
          have h4 : (ny - 1 - q + 1) * nx ≤ ny * nx := Nat.mul_le_mul_right _ (by omega)
          have h5 : (ny - 1 - q + 1) * nx = (ny - 1 - q) * nx + nx := by ring
          have h6 : ny * nx = nx * ny := Nat.mul_comm _ _
          omega
        rw [List.getElem?_eq_getElem hlt, Option.bind_some, List.getElem?_eq_getElem hk, Option.some.injEq] at this
        rw [this]
        exact l2 _ (List.getElem_mem hlt))
      have hms := m2 asys hm
      rw [List.map_id'] at hms
      dsimp only
      rw [hm]
      dsimp only
      cases hcs : asys with
      | nil =>
        exfalso
        have : cells.length = 0 := by rw [hms, hcs]; rfl
        rw [l3] at this
        have := Nat.mul_pos (show 0 < nx by omega) (show 0 < ny by omega)
        omega
      | cons f rest =>
        dsimp only
        rw [← hcs]
        have hck := checkAll_defined compat f asys hcm
        cases hr : checkAll compat f asys with
        | ub => exact absurd hr hck
        | throw => simp
        | ok b => cases b <;> simp

/-- C100: the boundary conditions that can be named. -/
theorem C100_bc (s : String) (b : Bc) : bcParse s = some b ↔
    s = match b with | .vacuum => "vacuum" | .reflect => "reflect" | .prescribed => "prescribed" := by
  unfold bcParse
  split_ifs with h1 h2 h3
  · subst h1; cases b <;> simp
  · subst h2; cases b <;> simp
  · subst h3; cases b <;> simp
  · cases b <;> simp [h1, h2, h3]

/-- C100: of the `<core>` tags exactly one must be enabled, as they are by default; the result is that core.  Tags that are not enabled are not looked
at. -/
theorem C100_parse {C : Type} (mk : CoreTag → Res C) (ts : List CoreTag) (c : C) :
    parseCore mk ts none 0 = .ok c ↔ ∃ t, ts.filter (fun t => t.enabled.getD true) = [t] ∧ mk t = .ok c := by
  have key : ∀ (ts : List CoreTag) (o : Option C) (n : Nat), (n = 0 ↔ o = none) →
      (parseCore mk ts o n = .ok c ↔ (n = 0 ∧ ∃ t, ts.filter (fun t => t.enabled.getD true) = [t] ∧ mk t = .ok c) ∨
        (n = 1 ∧ o = some c ∧ ts.filter (fun t => t.enabled.getD true) = [])) := by
    intro ts
    induction ts with
    | nil =>
      intro o n hn
      unfold parseCore
      by_cases h0 : n = 0
      · simp [h0]
      · rw [if_neg h0]
        by_cases h1 : 1 < n
        · rw [if_pos h1]
          simp
          omega
        · rw [if_neg h1]
          have : n = 1 := by omega
          subst this
          cases o with
          | none => simp at hn
          | some c' => simp
    | cons t ts ih =>
      intro o n hn
      unfold parseCore
      by_cases he : t.enabled.getD true = true
      · rw [if_pos he, List.filter_cons_of_pos (by simpa using he)]
        cases hm : mk t with
        | ok c' =>
          dsimp only
          rw [ih (some c') (n + 1) (by simp)]
          constructor
          · rintro (⟨h, -⟩ | ⟨h1, h2, h3⟩)
            · omega
            · cases h2
              exact Or.inl ⟨by omega, t, by rw [h3], hm⟩
          · rintro (⟨h1, t', h2, h3⟩ | ⟨h1, h2, h3⟩)
            · rw [List.cons.injEq] at h2
              obtain ⟨rfl, h2⟩ := h2
              rw [hm] at h3
              cases h3
              exact Or.inr ⟨by omega, rfl, h2⟩
            · simp at h3
        | throw =>
          simp only [reduceCtorEq, List.cons_ne_nil, and_false, or_false, false_iff, not_and, not_exists]
          rintro - t' h2
          rw [List.cons.injEq] at h2
          rw [← h2.1, hm]
          simp
        | ub =>
          simp only [reduceCtorEq, List.cons_ne_nil, and_false, or_false, false_iff, not_and, not_exists]
          rintro - t' h2
          rw [List.cons.injEq] at h2
          rw [← h2.1, hm]
          simp
      · rw [if_neg he, List.filter_cons_of_neg (by simpa using he)]
        exact ih o n hn
  rw [key ts none 0 (by simp)]
  simp

/-- Two by one assemblies, numbered 1 and 2, all of one size. -/
def exCore : CoreTag := ⟨some 1, some 2, fun s => if s = .top then "vacuum" else "reflect", some [1, 2], none⟩

def exMk (t : CoreTag) : Res (CoreOf Int ℚ) :=
  mkCore (fun i => if i = 1 ∨ i = 2 then some i else none) (fun _ _ => .ok true) (fun _ => 3) (fun i => i.toNat) (fun _ => 2) (fun i => i) t

def exShow (r : Res (CoreOf Int ℚ)) : Option (List Int × Nat × Nat × List ℚ × Bc) := match r with
  | .ok c => some (c.asys, c.npinX, c.npinY, c.hy, c.bc .top)
  | _ => none

/-- Assemblies that are not compatible. -/
example : (mkCore (K := ℚ) (fun i => some i) (fun a b => .ok (a == b)) (fun _ => 3) (fun i => i.toNat) (fun _ => 2) (fun i => i) exCore matches .throw) = true := by
  decide +kernel

/-- The second identifier is at the bottom. -/
example : exShow (exMk exCore) = some ([2, 1], 3, 3, [2, 3], .vacuum) := by decide +kernel

example : exShow (parseCore exMk [exCore, { exCore with enabled := some false, ids := none }] none 0) = some ([2, 1], 3, 3, [2, 3], .vacuum) := by
  decide +kernel

example : (match latticePins (fun i => if i < 3 then some i else none) (some 5) (some 2) (some 1) (some [1, 2]) with
  | .ok r => r.2.2
  | _ => []) = [some 1, some 2] := by decide +kernel

example : exShow (parseCore exMk [exCore, exCore] none 0) = none := by decide +kernel

end Core

end Verif.Core.Build
