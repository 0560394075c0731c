import Verif.Cmdo.CouplingModel
import Verif.Quad.Props
import Mathlib.Data.List.Range
import Mathlib.Data.List.Nodup

set_option linter.unusedSectionVars false

/-!
# C144: quadratures of the 2D3D sweeper, boundary values and correction factors
-/

namespace Verif.Cmdo

open Verif.Quad Verif.Quad.Spec

variable {K : Type} [Field K] [LinearOrder K] [IsStrictOrderedRing K]

theorem reverse2_of_lt (n a : Nat) (h : a < 2 * n) : reverse n a 2 = a + 2 * n := by
  unfold reverse
  rw [if_pos rfl, Nat.mod_eq_of_lt (by omega)]; omega

theorem expand_some (l : List (Angle K)) (a : Nat) (h : a < 8 * l.length) : ∃ d, (expand l)[a]? = some d := by
  have h' : a < (expand l).length := by rw [expand_length]; exact h
  exact ⟨_, List.getElem?_eq_getElem h'⟩

theorem moc_indices (inp : QuadInput K) :
    (mocWrites inp).map Prod.fst =
      (List.range (2 * inp.moc.length)).flatMap fun a => [a, a + 2 * inp.moc.length] := by
  unfold mocWrites
  rw [List.map_flatMap]
  have : ∀ l : List Nat, (∀ a ∈ l, a < 2 * inp.moc.length) →
      (l.flatMap fun a => List.map Prod.fst (match (expand inp.moc)[a]? with
        | none => []
        | some d => [(a, (d.ox, d.oy)), (reverse inp.moc.length a 2, (-d.ox, -d.oy))])) =
      l.flatMap fun a => [a, a + 2 * inp.moc.length] := by
    intro l
    induction l with
    | nil => intro _; rfl
    | cons a l ih =>
      intro h
      rw [List.flatMap_cons, List.flatMap_cons, ih (fun b hb => h b (List.mem_cons_of_mem _ hb))]
      have ha := h a List.mem_cons_self
      obtain ⟨d, hd⟩ := expand_some inp.moc a (by omega)
      rw [hd]
      simp [reverse2_of_lt _ _ ha]
  exact this _ (fun a ha => List.mem_range.1 ha)

theorem reflect_ok (n a : Nat) (h : a < 8 * n) (ax : Normal) : ∃ i, reflect n a ax = some i ∧ i < 8 * n := by
  obtain ⟨o, k, ho, hk, rfl⟩ := split_index n a h
  refine ⟨_, reflect_eq' n o k ho hk ax, ?_⟩
  have := octMirror_lt ax o ho
  have := Nat.mul_le_mul_right n (show octMirror ax o ≤ 7 by omega)
  omega

theorem reflectZ_low (n a : Nat) (h : a < 4 * n) : reflect n a .Z = some (a + 4 * n) := by
  obtain ⟨o, k, ho, hk, rfl⟩ := split_index n a (by omega)
  have ho4 : o < 4 := by
    by_contra hc
    have := Nat.mul_le_mul_right n (show 4 ≤ o by omega)
    omega
  rw [reflect_eq' n o k ho hk]
  congr 1
  interval_cases o <;> simp [octMirror] <;> omega

/-- The conditions in terms of the quadratures at the three times. -/
theorem coupled_iff (inp : QuadInput K) (h0 : 0 < inp.sn.length) (hf : 0 < inp.final.length) (dim : Nat) (gs : Bool) :
    coupledOk inp dim gs = true ↔
      inp.final.length = inp.sn.length ∧ inp.final.length ≤ inp.early.length ∧
        inp.moc.length ≤ inp.early.length := by
  have hcor : inp.nCor = 4 * inp.early.length := by unfold QuadInput.nCor; omega
  have hhalf : inp.nDir / 2 = 4 * inp.final.length := by unfold QuadInput.nDir; omega
  have hD : inp.nDir = 8 * inp.final.length := rfl
  have hB : inp.nBnd = 8 * inp.sn.length := rfl
  have hmoc : ((mocWrites inp).map (fun w => Access.cor w.1)).all (Access.ok inp) = true ↔
      inp.moc.length ≤ inp.early.length := by
    have e : (mocWrites inp).map (fun w => Access.cor w.1) = ((mocWrites inp).map Prod.fst).map Access.cor := by
      rw [List.map_map]; rfl
    rw [e, moc_indices, List.all_eq_true]
    simp only [List.mem_map, List.mem_flatMap, List.mem_range, List.mem_cons, List.not_mem_nil, or_false]
    constructor
    · intro h
      by_contra hc
      have := h (.cor (2 * inp.moc.length - 1 + 2 * inp.moc.length))
        ⟨_, ⟨2 * inp.moc.length - 1, by omega, Or.inr rfl⟩, rfl⟩
      simp only [Access.ok, decide_eq_true_eq] at this
      omega
    · rintro h x ⟨i, ⟨a, ha, hi⟩, rfl⟩
      simp only [Access.ok, decide_eq_true_eq]
      rcases hi with rfl | rfl <;> omega
  have hinit : (initAccess inp).all (Access.ok inp) = true ↔ inp.sn.length ≤ inp.final.length := by
    unfold initAccess
    rw [List.all_eq_true]
    simp only [List.mem_flatMap, List.mem_range, List.mem_cons, List.not_mem_nil, or_false]
    constructor
    · intro h
      have := h (.angle (inp.nBnd - 1)) ⟨inp.nBnd - 1, by omega, Or.inl rfl⟩
      simp only [Access.ok, decide_eq_true_eq] at this
      omega
    · rintro h x ⟨a, ha, rfl | rfl⟩ <;> simp only [Access.ok, decide_eq_true_eq] <;> omega
  have hupd : inp.final.length = inp.sn.length → ∀ a, a < 8 * inp.sn.length → ∀ x ∈ updateAccess inp a,
      Access.ok inp x = true := by
    intro hEq a ha x hx
    unfold updateAccess at hx
    simp only [List.mem_flatMap, List.mem_cons, List.not_mem_nil, or_false] at hx
    obtain ⟨n, -, hx⟩ := hx
    obtain ⟨i, hi, hlt⟩ := reflect_ok inp.final.length a (by omega) n
    rw [hi] at hx
    simp only [List.mem_cons, List.not_mem_nil, or_false] at hx
    rcases hx with rfl | rfl | rfl | rfl <;> simp only [Access.ok, decide_eq_true_eq]
    · omega
    · rw [Nat.div_lt_iff_lt_mul hf]; omega
    · omega
    · omega
  have hlow : 4 * inp.final.length ≤ sweepAngles inp dim := by
    unfold sweepAngles; split_ifs
    · omega
    · omega
  unfold coupledOk
  rw [Bool.and_eq_true, Bool.and_eq_true, hinit, hmoc]
  constructor
  · rintro ⟨⟨hi, hm⟩, hs⟩
    rw [List.all_eq_true] at hs
    have hbad : ∀ a, a < 4 * inp.final.length → (∀ x ∈ updateAccess inp a, Access.ok inp x = true) →
        a + 4 * inp.final.length < 8 * inp.sn.length := by
      intro a ha hall
      have : Access.ok inp (.bnd (a + 4 * inp.final.length)) = true := by
        apply hall
        unfold updateAccess
        simp only [List.mem_flatMap, List.mem_cons, List.not_mem_nil, or_false]
        refine ⟨.Z, by simp, ?_⟩
        rw [reflectZ_low _ _ ha]
        simp
      simp only [Access.ok, decide_eq_true_eq] at this
      omega
    have hcorr : inp.final.length ≤ inp.early.length := by
      have := hs (.cor (iang2d inp (4 * inp.final.length - 1))) (by
        unfold sweepAccess
        rw [List.mem_append]; left
        rw [List.mem_flatMap]
        exact ⟨4 * inp.final.length - 1, List.mem_range.2 (by omega), by simp⟩)
      unfold iang2d at this
      rw [hhalf, Nat.mod_eq_of_lt (by omega)] at this
      simp only [Access.ok, decide_eq_true_eq] at this
      omega
    refine ⟨le_antisymm ?_ hi, hcorr, hm⟩
    cases gs with
    | true =>
      have := hbad (4 * inp.final.length - 1) (by omega) (fun x hx => hs x (by
        unfold sweepAccess
        rw [List.mem_append]; left
        rw [List.mem_flatMap]
        exact ⟨4 * inp.final.length - 1, List.mem_range.2 (by omega), by simp [hx]⟩))
      omega
    | false =>
      have := hbad (4 * inp.sn.length - 1) (by omega) (fun x hx => hs x (by
        unfold sweepAccess
        rw [List.mem_append]; right
        rw [if_neg (by simp), List.mem_flatMap]
        exact ⟨4 * inp.sn.length - 1, List.mem_range.2 (by omega), hx⟩))
      omega
  · rintro ⟨hEq, hc, hm⟩
    refine ⟨⟨by omega, hm⟩, ?_⟩
    rw [List.all_eq_true]
    have hhigh : sweepAngles inp dim ≤ 8 * inp.final.length := by
      unfold sweepAngles; split_ifs
      · omega
      · exact le_refl _
    intro x hx
    unfold sweepAccess at hx
    rw [List.mem_append, List.mem_flatMap] at hx
    rcases hx with ⟨a, ha, hx⟩ | hx
    · have ha := List.mem_range.1 ha
      rw [List.mem_append] at hx
      rcases hx with hx | hx
      · simp only [List.mem_cons, List.not_mem_nil, or_false] at hx
        rcases hx with rfl | rfl | rfl <;> simp only [Access.ok, decide_eq_true_eq]
        · omega
        · omega
        · unfold iang2d
          rw [hhalf, hcor]
          have := Nat.mod_lt a (show 0 < 4 * inp.final.length by omega)
          omega
      · cases gs with
        | true => exact hupd hEq a (by omega) x (by simpa using hx)
        | false => simp at hx
    · cases gs with
      | true => simp at hx
      | false =>
        simp only [Bool.false_eq_true, if_false, List.mem_flatMap] at hx
        obtain ⟨a, ha, hx⟩ := hx
        have ha := List.mem_range.1 ha
        exact hupd hEq a (by omega) x hx

/-- C144: when everything that is indexed by angle stays in bounds, in two and three dimensions and with both kinds of
boundary update.  Without a data file: the Sn input must have the same number of angles per octant as MoC, or, if its
quadrature is preserved, at least as many.  With a data file of a different number of angles also the file counts. -/
theorem C144_bounds (sn moc d : List (Angle K)) (hs : 0 < sn.length) (hm : 0 < moc.length) (hd : 0 < d.length)
    (dim : Nat) (gs : Bool) :
    (coupledOk ⟨sn, moc, none, false⟩ dim gs = true ↔ moc.length = sn.length) ∧
    (coupledOk ⟨sn, moc, none, true⟩ dim gs = true ↔ moc.length ≤ sn.length) ∧
    (coupledOk ⟨sn, moc, some d, false⟩ dim gs = true ↔ moc.length = sn.length ∧ moc.length ≤ d.length) ∧
    (coupledOk ⟨sn, moc, some d, true⟩ dim gs = true ↔ d.length = sn.length ∧ moc.length ≤ d.length) := by
  refine ⟨?_, ?_, ?_, ?_⟩
  · rw [coupled_iff _ hs (by simpa [QuadInput.final] using hm)]
    simp only [QuadInput.final, QuadInput.early, Option.getD]
    constructor
    · rintro ⟨h, -⟩; simpa using h
    · intro h; simp [h]
  · rw [coupled_iff _ hs (by simpa [QuadInput.final, QuadInput.early] using hs)]
    simp [QuadInput.final, QuadInput.early]
  · rw [coupled_iff _ hs (by simpa [QuadInput.final] using hm)]
    simp [QuadInput.final, QuadInput.early]
  · rw [coupled_iff _ hs (by simpa [QuadInput.final, QuadInput.early] using hd)]
    simp [QuadInput.final, QuadInput.early]

/-- C144, the claim: an input that is accepted does not lead to undefined behaviour. -/
def C144_claim (K : Type) [Field K] [LinearOrder K] : Prop :=
  ∀ (inp : QuadInput K) (dim : Nat) (gs : Bool), acceptedQuads inp = true → coupledOk inp dim gs = true

/-- An Sn sweeper with one angle per octant under a MoC sweeper with two. -/
theorem C144_claim_false : ¬ C144_claim ℚ := by
  intro h
  have := h ⟨[⟨3/5, 4/5, 1, 1⟩], [⟨3/5, 4/5, 1, 1⟩, ⟨4/5, 3/5, 1, 1⟩], none, false⟩ 3 true (by decide)
  rw [(C144_bounds _ _ [⟨3/5, 4/5, 1, 1⟩] (by simp) (by simp) (by simp) 3 true).1] at this
  simp at this

/-- C144: one MoC sweep computes the factors of each of the angles of the upper half space exactly once, and for the
direction with that index; it computes no others. -/
theorem C144_once (inp : QuadInput K) (h : ∀ a ∈ inp.moc, FirstOctant a) :
    ((mocWrites inp).map Prod.fst).Nodup ∧
    ∀ j v, (j, v) ∈ mocWrites inp ↔
      j < 4 * inp.moc.length ∧ ∃ d, (expand inp.moc)[j]? = some d ∧ v = (d.ox, d.oy) := by
  constructor
  · rw [moc_indices, List.nodup_flatMap]
    constructor
    · intro a ha
      have := List.mem_range.1 ha
      have : 0 < inp.moc.length := by omega
      simp only [List.nodup_cons, List.mem_cons, List.not_mem_nil, or_false, not_false_iff, List.nodup_nil, and_true]
      omega
    · apply List.Pairwise.imp_of_mem _ (List.pairwise_lt_range (n := 2 * inp.moc.length))
      intro a b ha hb hab
      have := List.mem_range.1 ha
      have := List.mem_range.1 hb
      intro x hx hy
      simp only [List.mem_cons, List.not_mem_nil, or_false] at hx hy
      omega
  · intro j v
    unfold mocWrites
    rw [List.mem_flatMap]
    constructor
    · rintro ⟨a, ha, hx⟩
      have ha := List.mem_range.1 ha
      obtain ⟨d, hd⟩ := expand_some inp.moc a (by omega)
      rw [hd] at hx
      simp only [List.mem_cons, List.not_mem_nil, or_false, Prod.mk.injEq] at hx
      rcases hx with ⟨rfl, rfl⟩ | ⟨rfl, rfl⟩
      · exact ⟨by omega, d, hd, rfl⟩
      · refine ⟨by rw [reverse2_of_lt _ _ ha]; omega, _, (C19_reverse_2d inp.moc h a d hd (by omega)).1, rfl⟩
    · rintro ⟨hj, d, hd, rfl⟩
      by_cases hlt : j < 2 * inp.moc.length
      · exact ⟨j, List.mem_range.2 hlt, by rw [hd]; simp⟩
      · refine ⟨j - 2 * inp.moc.length, List.mem_range.2 (by omega), ?_⟩
        obtain ⟨e, he⟩ := expand_some inp.moc (j - 2 * inp.moc.length) (by omega)
        have hr : reverse inp.moc.length (j - 2 * inp.moc.length) 2 = j := by
          rw [reverse2_of_lt _ _ (by omega)]; omega
        have := (C19_reverse_2d inp.moc h _ e he (by omega)).1
        rw [hr, hd, Option.some.injEq] at this
        rw [he, hr, this]
        simp

/-- In-plane components of an angle and of its partner in the upper half space. -/
theorem lower_half (l : List (Angle K)) (h : ∀ a ∈ l, FirstOctant a) (i : Nat) (d : Angle K)
    (hd : (expand l)[i]? = some d) :
    ∃ e, (expand l)[i % (4 * l.length)]? = some e ∧ e.ox = d.ox ∧ e.oy = d.oy ∧ e.oz = |d.oz| := by
  have hi : i < 8 * l.length := by
    have := (List.getElem?_eq_some_iff.1 hd).1
    rwa [expand_length] at this
  obtain ⟨o, k, ho, hk, rfl⟩ := split_index l.length i hi
  rw [expand_get l h o k ho hk, Option.some.injEq] at hd
  obtain ⟨-, -, hz⟩ := h _ (List.getElem_mem hk)
  have key : (o * l.length + k) % (4 * l.length) = (o % 4) * l.length + k := by
    interval_cases o <;> simp only [Nat.reduceMod]
    · rw [Nat.mod_eq_of_lt (by omega)]
    · rw [Nat.mod_eq_of_lt (by omega)]
    · rw [Nat.mod_eq_of_lt (by omega)]
    · rw [Nat.mod_eq_of_lt (by omega)]
    · rw [Nat.mod_eq_sub_mod (by omega), Nat.mod_eq_of_lt (by omega)]; omega
    · rw [Nat.mod_eq_sub_mod (by omega), Nat.mod_eq_of_lt (by omega)]; omega
    · rw [Nat.mod_eq_sub_mod (by omega), Nat.mod_eq_of_lt (by omega)]; omega
    · rw [Nat.mod_eq_sub_mod (by omega), Nat.mod_eq_of_lt (by omega)]; omega
  rw [key, expand_get l h (o % 4) k (by omega) hk]
  refine ⟨_, rfl, ?_⟩
  rw [← hd]
  interval_cases o <;> simp [octImage, octSigns, flipSigns, abs_of_pos hz]

/-- C144: unless the Sn quadrature is preserved, every Sn angle, in the upper and the lower half space, uses factors that
were computed for its own in-plane direction. -/
theorem C144_match (inp : QuadInput K) (hk : inp.keep = false) (h : ∀ a ∈ inp.moc, FirstOctant a) (i : Nat) (d : Angle K)
    (hd : (expand inp.final)[i]? = some d) : (iang2d inp i, (d.ox, d.oy)) ∈ mocWrites inp := by
  have hfin : inp.final = inp.moc := by simp [QuadInput.final, hk]
  rw [hfin] at hd
  have hpos : 0 < inp.moc.length := by
    have := (List.getElem?_eq_some_iff.1 hd).1
    rw [expand_length] at this; omega
  have hidx : iang2d inp i = i % (4 * inp.moc.length) := by
    unfold iang2d QuadInput.nDir
    rw [hfin]; congr 1; omega
  rw [(C144_once inp h).2, hidx]
  obtain ⟨e, he, h1, h2, -⟩ := lower_half inp.moc h i d hd
  exact ⟨Nat.mod_lt _ (by omega), e, he, by rw [h1, h2]⟩

/-- C144: if the Sn quadrature is preserved and has as many angles as that of MoC, the factors fit exactly if both have
the same in-plane directions. -/
theorem C144_preserve (inp : QuadInput K) (hs : ∀ a ∈ inp.final, FirstOctant a) (h : ∀ a ∈ inp.moc, FirstOctant a)
    (hlen : inp.final.length = inp.moc.length) :
    (∀ i d, (expand inp.final)[i]? = some d → (iang2d inp i, (d.ox, d.oy)) ∈ mocWrites inp) ↔
      inp.final.map (fun a => (a.ox, a.oy)) = inp.moc.map (fun a => (a.ox, a.oy)) := by
  have hidx : ∀ i, iang2d inp i = i % (4 * inp.moc.length) := by
    intro i
    unfold iang2d QuadInput.nDir
    rw [hlen]; congr 1; omega
  constructor
  · intro hall
    apply List.ext_getElem (by simp [hlen])
    intro k h1 h2
    simp only [List.length_map] at h1 h2
    simp only [List.getElem_map]
    have e1 := expand_get inp.final hs 0 k (by decide) h1
    rw [Nat.zero_mul, Nat.zero_add] at e1
    have := hall k _ e1
    rw [(C144_once inp h).2, hidx, Nat.mod_eq_of_lt (by omega)] at this
    obtain ⟨-, e, he, hv⟩ := this
    have e2 := expand_get inp.moc h 0 k (by decide) h2
    rw [Nat.zero_mul, Nat.zero_add, he, Option.some.injEq] at e2
    rw [e2] at hv
    simpa [octImage, octSigns, flipSigns] using hv
  · intro hall i d hd
    have hi : i < 8 * inp.final.length := by
      have := (List.getElem?_eq_some_iff.1 hd).1
      rwa [expand_length] at this
    rw [(C144_once inp h).2, hidx]
    refine ⟨Nat.mod_lt _ (by omega), ?_⟩
    obtain ⟨o, k, ho, hk, rfl⟩ := split_index inp.final.length i hi
    rw [expand_get inp.final hs o k ho hk, Option.some.injEq] at hd
    have hk' : k < inp.moc.length := by omega
    have e2 := expand_get inp.moc h o k ho hk'
    rw [← hlen] at e2
    obtain ⟨e, he, h1, h2, -⟩ := lower_half inp.moc h _ _ e2
    refine ⟨e, he, ?_⟩
    have hkk : (inp.final[k].ox, inp.final[k].oy) = (inp.moc[k].ox, inp.moc[k].oy) := by
      have a1 : (inp.final.map (fun a => (a.ox, a.oy)))[k]'(by simpa using hk) = (inp.final[k].ox, inp.final[k].oy) := by simp
      have a2 : (inp.moc.map (fun a => (a.ox, a.oy)))[k]'(by simpa using hk') = (inp.moc[k].ox, inp.moc[k].oy) := by simp
      rw [← a1, ← a2]
      congr 1
    simp only [Prod.mk.injEq] at hkk
    rw [h1, h2, ← hd]
    interval_cases o <;> simp [octImage, octSigns, flipSigns, hkk.1, hkk.2]

/-- C144: if the Sn quadrature is preserved and has more angles than that of MoC, some Sn angles use factors that are
never computed. -/
theorem C144_uncomputed (inp : QuadInput K) (h : ∀ a ∈ inp.moc, FirstOctant a) (i : Nat) (hi : 4 * inp.moc.length ≤ i) (hi' : i < 4 * inp.final.length)
    (v : K × K) : (iang2d inp i, v) ∉ mocWrites inp := by
  intro hv
  rw [(C144_once inp h).2] at hv
  unfold iang2d QuadInput.nDir at hv
  rw [Nat.mod_eq_of_lt (by omega)] at hv
  omega

/-- Two Sn quadratures for the examples. -/
def exQuad1 : List (Angle ℚ) := [⟨2/7, 3/7, 6/7, 1⟩, ⟨6/7, 3/7, 2/7, 1⟩]
def exQuad2 : List (Angle ℚ) := [⟨2/3, 1/3, 2/3, 1⟩, ⟨1/3, 2/3, 2/3, 1⟩]

theorem ex_first : (∀ a ∈ exQuad1, FirstOctant a) ∧ (∀ a ∈ exQuad2, FirstOctant a) := by
  constructor <;> simp [exQuad1, exQuad2, FirstOctant]

example : coupledOk ⟨exQuad1, exQuad2, none, false⟩ 3 true = true :=
  (C144_bounds exQuad1 exQuad2 exQuad1 (by decide) (by decide) (by decide) 3 true).1.2 rfl

/-- Same numbers of angles, preserved quadrature: no access is out of bounds, but the factors belong to other
directions. -/
example : coupledOk ⟨exQuad1, exQuad2, none, true⟩ 3 true = true ∧
    ¬ ∀ i d, (expand exQuad1)[i]? = some d →
      (iang2d (⟨exQuad1, exQuad2, none, true⟩ : QuadInput ℚ) i, (d.ox, d.oy)) ∈ mocWrites ⟨exQuad1, exQuad2, none, true⟩ := by
  refine ⟨(C144_bounds exQuad1 exQuad2 exQuad1 (by decide) (by decide) (by decide) 3 true).2.1.2 le_rfl, ?_⟩
  intro hall
  have := (C144_preserve (⟨exQuad1, exQuad2, none, true⟩ : QuadInput ℚ) ex_first.1 ex_first.2 rfl).1 hall
  revert this
  decide +kernel

example : (mocWrites (⟨exQuad1, exQuad2, none, false⟩ : QuadInput ℚ)).length = 8 := by decide +kernel

example : (7, ((1 : ℚ)/3, -(2 : ℚ)/3)) ∈ mocWrites (⟨exQuad1, exQuad2, none, false⟩ : QuadInput ℚ) := by decide +kernel

end Verif.Cmdo
