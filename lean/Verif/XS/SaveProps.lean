import Verif.XS.SaveModel
import Verif.Scatter.Props
import Verif.Cmdo.DataProps
import Verif.Mesh.Lemmas
import Mathlib.Tactic.Ring
import Mathlib.Tactic.Linarith
import Mathlib.Logic.Function.Basic
import Mathlib.Algebra.Order.Ring.Rat

/-!
# C95: homogenised cross sections in files
-/

namespace Verif.XS.Save

open Verif.Scatter Verif.Cmdo.Data

variable {K : Type} [Field K] [LinearOrder K]

/-- Each pin of a plane has its own cell of the plane (C83). -/
def LocOk (l : Layout) : Prop :=
  (∀ j, j < l.nx * l.ny → l.loc j < l.nx * l.ny) ∧
  ∀ i j, i < l.nx * l.ny → j < l.nx * l.ny → l.loc i = l.loc j → i = j

theorem cell_lt (l : Layout) (hl : LocOk l) (i : Nat) (hi : i < l.nreg) : l.cell i < l.nreg := by
  unfold Layout.cell Layout.nreg Layout.n at *
  have hn : 0 < l.nx * l.ny := by
    rcases Nat.eq_zero_or_pos (l.nx * l.ny) with h | h
    · simp [h] at hi
    · exact h
  have h1 := hl.1 (i % (l.nx * l.ny)) (Nat.mod_lt _ hn)
  have h2 : i / (l.nx * l.ny) < l.np := Nat.div_lt_of_lt_mul hi
  calc l.nx * l.ny * (i / (l.nx * l.ny)) + l.loc (i % (l.nx * l.ny)) < l.nx * l.ny * (i / (l.nx * l.ny)) + l.nx * l.ny := by omega
    _ = l.nx * l.ny * (i / (l.nx * l.ny) + 1) := by ring
    _ ≤ l.nx * l.ny * l.np := Nat.mul_le_mul_left _ h2

theorem cell_inj (l : Layout) (hl : LocOk l) (i j : Nat) (hi : i < l.nreg) (h : l.cell i = l.cell j) : i = j := by
  unfold Layout.cell Layout.nreg Layout.n at *
  have hn : 0 < l.nx * l.ny := by
    rcases Nat.eq_zero_or_pos (l.nx * l.ny) with h | h
    · simp [h] at hi
    · exact h
  have h1 := hl.1 (i % (l.nx * l.ny)) (Nat.mod_lt _ hn)
  have h2 := hl.1 (j % (l.nx * l.ny)) (Nat.mod_lt _ hn)
  have hd : i / (l.nx * l.ny) = j / (l.nx * l.ny) := by
    have e := congrArg (· / (l.nx * l.ny)) h
    simp only [Nat.mul_add_div hn, Nat.div_eq_of_lt h1, Nat.div_eq_of_lt h2, Nat.add_zero] at e
    exact e
  rw [hd] at h
  have hm := hl.2 _ _ (Nat.mod_lt i hn) (Nat.mod_lt j hn) (by omega)
  rw [← Nat.div_add_mod i (l.nx * l.ny), ← Nat.div_add_mod j (l.nx * l.ny), hd, hm]

omit [LinearOrder K] in
theorem gather_spec (l : Layout) (hl : LocOk l) (x : Nat → K) (i : Nat) (hi : i < l.nreg) : gather l x (l.cell i) = x i := by
  unfold gather
  have key : ∀ m, m ≤ l.nreg → i < m → (List.range m).foldl (fun a i => Function.update a (l.cell i) (x i)) (fun _ => (0 : K)) (l.cell i) = x i := by
    intro m
    induction m with
    | zero => intro _ h; omega
    | succ m ih =>
      intro hm him
      rw [List.range_succ, List.foldl_append]
      simp only [List.foldl_cons, List.foldl_nil]
      by_cases h : i = m
      · subst h
        simp
      · rw [Function.update_of_ne]
        · exact ih (by omega) (by omega)
        · intro e
          exact h (cell_inj l hl i m hi e)
  exact key _ le_rfl hi

theorem bounds_congr (ng : Nat) (d e : Nat → Nat → K) (h : ∀ a b, a < ng → b < ng → d a b = e a b) (dst : Nat) (hd : dst < ng) :
    bounds ng d dst = bounds ng e dst := by
  have hs : ∀ (p q : Nat → Bool) (l : List Nat) (c : Nat), (∀ x ∈ l, p x = q x) → scan p l c = scan q l c := by
    intro p q l
    induction l with
    | nil => intro c _; rfl
    | cons f fs ih =>
      intro c hx
      unfold scan
      rw [hx f (by simp), ih f (fun x hx' => hx x (List.mem_cons_of_mem _ hx'))]
  unfold bounds
  dsimp only
  rw [hs (fun g => decide (0 < d dst g)) (fun g => decide (0 < e dst g)) (List.range ng) 0
      (fun x hx => by simp only [h dst x hd (List.mem_range.1 hx)]),
    hs (fun g => decide (0 < d dst g)) (fun g => decide (0 < e dst g)) (List.range ng).reverse 0
      (fun x hx => by simp only [h dst x hd (List.mem_range.1 (List.mem_reverse.1 hx))])]

theorem scan_lt (p : Nat → Bool) (ng : Nat) (l : List Nat) (c : Nat) (hc : c < ng) (hl : ∀ x ∈ l, x < ng) : scan p l c < ng := by
  induction l generalizing c with
  | nil => exact hc
  | cons f fs ih =>
    unfold scan
    split_ifs
    · exact hl f (by simp)
    · exact ih f (hl f (by simp)) (fun x hx => hl x (List.mem_cons_of_mem _ hx))

theorem bounds_lt (ng : Nat) (d : Nat → Nat → K) (dst : Nat) (hd : dst < ng) : (bounds ng d dst).2 < ng := by
  have h2 := scan_lt (fun g => decide (0 < d dst g)) ng (List.range ng).reverse 0 (by omega)
    (fun x hx => List.mem_range.1 (List.mem_reverse.1 hx))
  unfold bounds
  dsimp only
  split_ifs <;> dsimp only at * <;> omega

theorem build_congr (ng : Nat) (d e : Nat → Nat → K) (h : ∀ a b, a < ng → b < ng → d a b = e a b) : build ng d = build ng e := by
  unfold build
  have key : ∀ (l : List Nat) (m : Matrix K), (∀ x ∈ l, x < ng) → l.foldl (addRow ng d) m = l.foldl (addRow ng e) m := by
    intro l
    induction l with
    | nil => intro m _; rfl
    | cons x l ih =>
      intro m hx
      rw [List.foldl_cons, List.foldl_cons]
      have hxn := hx x (by simp)
      have : addRow ng d m x = addRow ng e m x := by
        unfold addRow
        dsimp only
        rw [← bounds_congr ng d e h x hxn]
        have hin : ∀ g ∈ groups (bounds ng d x).1 (bounds ng d x).2, d x g = e x g := by
          intro g hg
          apply h x g hxn
          have hb := bounds_lt ng d x hxn
          simp only [groups, List.mem_map, List.mem_range] at hg
          omega
        have hf : ∀ (gs : List Nat) (m : Matrix K), (∀ g ∈ gs, d x g = e x g) →
            gs.foldl (fun (m : Matrix K) g => { m with scat := m.scat ++ [d x g], out := Function.update m.out g (m.out g + d x g) }) m =
            gs.foldl (fun (m : Matrix K) g => { m with scat := m.scat ++ [e x g], out := Function.update m.out g (m.out g + e x g) }) m := by
          intro gs
          induction gs with
          | nil => intro m _; rfl
          | cons g gs ihg =>
            intro m hg
            rw [List.foldl_cons, List.foldl_cons, hg g (by simp)]
            exact ihg _ (fun g' hg' => hg g' (List.mem_cons_of_mem _ hg'))
        rw [hf _ m hin]
      rw [this]
      exact ih _ (fun y hy => hx y (List.mem_cons_of_mem _ hy))
  exact key _ _ (fun x hx => List.mem_range.1 hx)

/-- All datasets are there with `size` values. -/
def Whole (ng size : Nat) (f : XsFile K) : Prop := ∀ q g, g < ng → ∃ d, f.xs q g = some d ∧ d.vals.length = size

omit [Field K] [LinearOrder K] in
theorem readXs_spec (ng size : Nat) (f : XsFile K) :
    (Whole ng size f → readXs ng size f = some fun q g => ((f.xs q g).map (·.vals)).getD []) ∧ (¬ Whole ng size f → readXs ng size f = none) := by
  have hiff : ((List.range ng).all (fun g : Nat => [Quant.tr, Quant.nf, Quant.ch, Quant.f].all fun q =>
      match f.xs q g with
      | some d => d.vals.length == size
      | none => false) = true) ↔ Whole ng size f := by
    rw [List.all_eq_true]
    constructor
    · intro h q g hg
      have h1 := h g (List.mem_range.2 hg)
      rw [List.all_eq_true] at h1
      have h2 := h1 q (by cases q <;> simp)
      cases hf : f.xs q g with
      | none => simp [hf] at h2
      | some d =>
        simp only [hf, beq_iff_eq] at h2
        exact ⟨d, rfl, h2⟩
    · intro h g hg
      rw [List.all_eq_true]
      intro q _
      obtain ⟨d, hd, hl⟩ := h q g (List.mem_range.1 hg)
      simp [hd, hl]
  unfold readXs
  constructor
  · intro h
    exact if_pos (hiff.2 h)
  · intro h
    exact if_neg (fun hc => h (hiff.1 hc))

variable [IsStrictOrderedRing K]

/-- C95: what `output` has written is restored by the constructor in a mesh of the same shape, whatever its cross sections were: transport,
nu-fission, fission and chi of every region and group, and scattering; the removal cross section is the one that belongs to them.  The bounds of the
groups stay those of the library.  Missing: matrices with negative entries outside of their bands, which `as_vector` loses (C22), and the bounds
(`C95_claim_false`). -/
theorem C95_round_trip_partial (l : Layout) (hl : LocOk l) (hg : 0 < l.ng) (s s0 : State K) (D : Nat → Nat → Nat → K)
    (hD : ∀ i, i < l.nreg → s.sc i = build l.ng (D i)) (hn : ∀ i a b, i < l.nreg → a < l.ng → b < l.ng → 0 ≤ D i a b) :
    ∃ s', fromFiles l [⟨some (output l s), none, none⟩] s0 = .ok s' ∧
      (∀ q i g, i < l.nreg → g < l.ng → s'.xs q i g = s.xs q i g) ∧
      (∀ i, i < l.nreg → s'.sc i = s.sc i) ∧
      (∀ i g, i < l.nreg → g < l.ng → s'.rm i g = s.xs .tr i g - D i g g) ∧
      s'.eub = s0.eub := by
  have hw : Whole l.ng l.nreg (output l s) := by
    intro q g h
    refine ⟨_, if_pos h, ?_⟩
    simp
  have hx : ∀ q i g, i < l.nreg → g < l.ng → (((((output l s).xs q g).map (·.vals)).getD [])[l.cell i]?).getD 0 = s.xs q i g := by
    intro q i g hi h
    have e : (output l s).xs q g = some ⟨[l.np, l.ny, l.nx], (List.range l.nreg).map (gather l fun i => s.xs q i g)⟩ := if_pos h
    rw [e]
    have hc := cell_lt l hl i hi
    simp only [Option.map_some, Option.getD_some]
    rw [List.getElem?_map, List.getElem?_range hc]
    exact gather_spec l hl (fun i => s.xs q i g) i hi
  have hm : ∀ i, i < l.nreg → matrixOf l.ng ((List.range l.nreg).flatMap fun i : Nat => (List.range (l.ng * l.ng)).map (s.sc i).asVector) i = s.sc i := by
    intro i hi
    rw [hD i hi]
    unfold matrixOf
    apply build_congr
    intro a b ha hb
    have hab : a * l.ng + b < l.ng * l.ng := by
      calc a * l.ng + b < a * l.ng + l.ng := by omega
        _ = (a + 1) * l.ng := by ring
        _ ≤ l.ng * l.ng := Nat.mul_le_mul_right _ ha
    rw [show (i * l.ng + a) * l.ng + b = i * (l.ng * l.ng) + (a * l.ng + b) by ring,
      Verif.Mesh.getElem?_flatMap_uniform _ (l.ng * l.ng) (fun i => by simp) (List.range l.nreg) i _ hab i (List.getElem?_range hi),
      List.getElem?_map, List.getElem?_range hab]
    simp only [Option.map_some, Option.getD_some]
    rw [hD i hi, Nat.mul_comm a l.ng, C22_as_vector_partial l.ng (D i) (fun a b ha hb => hn i a b hi ha hb) a b ha hb]
  have e0 : (output l s).xs .tr 0 = some ⟨[l.np, l.ny, l.nx], (List.range l.nreg).map (gather l fun i => s.xs .tr i 0)⟩ := if_pos hg
  have hr : fromFiles l [⟨some (output l s), none, none⟩] s0 = readSingle l ⟨some (output l s), none, none⟩ s0 := by
    unfold fromFiles
    simp only [e0, and_self, if_true]
  have hs : readSingle l ⟨some (output l s), none, none⟩ s0 = .ok
      { xs := fun q i g => if i < l.nreg ∧ g < l.ng then (((((output l s).xs q g).map (·.vals)).getD [])[l.cell i]?).getD 0 else s0.xs q i g
        sc := fun i => if i < l.nreg then matrixOf l.ng ((List.range l.nreg).flatMap fun i : Nat => (List.range (l.ng * l.ng)).map (s.sc i).asVector) i
          else s0.sc i
        rm := fun i g => if i < l.nreg ∧ g < l.ng then
          (if i < l.nreg ∧ g < l.ng then (((((output l s).xs .tr g).map (·.vals)).getD [])[l.cell i]?).getD 0 else s0.xs .tr i g) -
            ((matrixOf l.ng ((List.range l.nreg).flatMap fun i : Nat => (List.range (l.ng * l.ng)).map (s.sc i).asVector) i).selfScat g).getD 0
          else s0.rm i g
        eub := s0.eub } := by
    unfold readSingle
    simp only [(readXs_spec l.ng l.nreg (output l s)).1 hw, Option.getD_none, ne_eq, not_true_eq_false, or_self, if_false]
    simp only [output, not_true_eq_false, if_false, lt_irrefl, or_self]
  refine ⟨_, hr.trans hs, ?_, ?_, ?_, rfl⟩
  · intro q i g hi h
    dsimp only
    rw [if_pos ⟨hi, h⟩]
    exact hx q i g hi h
  · intro i hi
    dsimp only
    rw [if_pos hi]
    exact hm i hi
  · intro i g hi h
    dsimp only
    rw [if_pos ⟨hi, h⟩, if_pos ⟨hi, h⟩, hx .tr i g hi h, hm i hi, hD i hi, (C22_to_sound l.ng (D i) g g h h).2.2]
    rfl

/-- C95, the claim: all that has been written is restored, the bounds of the groups included. -/
def C95_claim : Prop := ∀ (l : Layout), LocOk l → 0 < l.ng → ∀ (s s0 : State ℚ) (D : Nat → Nat → Nat → ℚ),
  (∀ i, i < l.nreg → s.sc i = build l.ng (D i)) → (∀ i a b, i < l.nreg → a < l.ng → b < l.ng → 0 ≤ D i a b) →
  ∃ s', fromFiles l [⟨some (output l s), none, none⟩] s0 = .ok s' ∧
    (∀ q i g, i < l.nreg → g < l.ng → s'.xs q i g = s.xs q i g) ∧ (∀ i, i < l.nreg → s'.sc i = s.sc i) ∧ s'.eub = s.eub

/-- A core of one pin. -/
def onePin : Layout := ⟨1, 1, 1, 1, fun _ => 0⟩

theorem onePin_ok : LocOk onePin := by
  constructor
  · intro j hj
    exact Nat.one_pos
  · intro i j hi hj _
    simp [onePin] at hi hj
    omega

theorem C95_claim_false : ¬ C95_claim := by
  intro h
  let s : State ℚ := ⟨fun _ _ _ => 1, fun _ _ => 1, fun _ => build 1 fun _ _ => 1, [5]⟩
  let s0 : State ℚ := ⟨fun _ _ _ => 1, fun _ _ => 1, fun _ => build 1 fun _ _ => 1, [7]⟩
  have hD : ∀ i, i < onePin.nreg → s.sc i = build onePin.ng ((fun _ _ _ => 1 : Nat → Nat → Nat → ℚ) i) := fun _ _ => rfl
  have hn : ∀ i a b, i < onePin.nreg → a < onePin.ng → b < onePin.ng → 0 ≤ (fun _ _ _ => 1 : Nat → Nat → Nat → ℚ) i a b :=
    fun _ _ _ _ _ _ => zero_le_one
  obtain ⟨s1, h1, _, _, _, e1⟩ := C95_round_trip_partial onePin onePin_ok Nat.one_pos s s0 (fun _ _ _ => 1) hD hn
  obtain ⟨s2, h2, _, _, e2⟩ := h onePin onePin_ok Nat.one_pos s s0 (fun _ _ _ => 1) hD hn
  rw [h1] at h2
  cases h2
  rw [e1] at e2
  exact absurd e2 (by simp [s, s0])

/-- The tag is for plane `p`. -/
def XCovers (t : XsTag K) (p : Nat) : Prop := t.bottom.getD 0 ≤ (p : Int) ∧ (p : Int) ≤ t.top.getD 0

/-- The checks of one tag. -/
def Checked (l : Layout) (t : XsTag K) : Prop :=
  (0 ≤ t.bottom.getD 0 ∧ t.bottom.getD 0 < l.np) ∧ (0 ≤ t.top.getD 0 ∧ t.top.getD 0 < l.np) ∧
  ∃ f d rest, t.file = some f ∧ f.xs .tr 0 = some d ∧ d.dims = 1 :: l.ny :: l.nx :: rest

/-- What a file needs to be read. -/
def Readable (l : Layout) (neub : Nat) (t : XsTag K) : Prop :=
  ∃ f eub d d0 d1, t.file = some f ∧ f.eub = some eub ∧ eub.length = neub ∧ Whole l.ng (l.nx * l.ny) f ∧ f.sc = some d ∧
    d.dims = [d0, d1, d1] ∧ l.nx * l.ny ≤ d0 ∧ d1 ≤ l.ng

omit [Field K] [LinearOrder K] [IsStrictOrderedRing K] in
theorem validate_spec (l : Layout) (m : List Nat) (t : XsTag K) :
    ((∃ m', validate l m t = .ok m') ↔ Checked l t ∧ ∀ p, XCovers t p → p ∉ m) ∧
    ∀ m', validate l m t = .ok m' → ∀ p : Nat, p ∈ m' ↔ p ∈ m ∨ XCovers t p := by
  unfold validate XsTag.bot XsTag.tp
  by_cases h1 : t.bottom.getD 0 < 0 ∨ (l.np : Int) ≤ t.bottom.getD 0
  · simp only [if_pos h1, reduceCtorEq, exists_false, false_iff, false_implies, implies_true, and_true]
    rintro ⟨⟨h, _⟩, _⟩
    omega
  by_cases h2 : t.top.getD 0 < 0 ∨ (l.np : Int) ≤ t.top.getD 0
  · simp only [if_neg h1, if_pos h2, reduceCtorEq, exists_false, false_iff, false_implies, implies_true, and_true]
    rintro ⟨⟨_, h, _⟩, _⟩
    omega
  simp only [if_neg h1, if_neg h2]
  cases hf : t.file with
  | none =>
    simp only [reduceCtorEq, exists_false, false_iff, false_implies, implies_true, and_true]
    rintro ⟨⟨_, _, f, d, r, h, _⟩, _⟩
    rw [hf] at h
    cases h
  | some f =>
    dsimp only
    cases hd : f.xs .tr 0 with
    | none =>
      simp only [reduceCtorEq, exists_false, false_iff, false_implies, implies_true, and_true]
      rintro ⟨⟨_, _, f', d, r, h, h', _⟩, _⟩
      rw [hf] at h
      cases h
      rw [hd] at h'
      cases h'
    | some d =>
      have hno : (∀ rest, d.dims ≠ 1 :: l.ny :: l.nx :: rest) → ¬ (Checked l t ∧ ∀ p, XCovers t p → p ∉ m) := by
        rintro hne ⟨⟨_, _, f', d', r, h, h', h''⟩, _⟩
        rw [hf] at h
        cases h
        rw [hd] at h'
        cases h'
        exact hne r h''
      dsimp only
      split
      · rename_i d0 d1 d2 rest hdims
        by_cases c2 : d2 ≠ l.nx
        · simp only [if_pos c2, reduceCtorEq, exists_false, false_iff, false_implies, implies_true, and_true]
          apply hno
          intro r hr
          rw [hdims] at hr
          simp only [List.cons.injEq] at hr
          exact c2 hr.2.2.1
        by_cases c1 : d1 ≠ l.ny
        · simp only [if_neg c2, if_pos c1, reduceCtorEq, exists_false, false_iff, false_implies, implies_true, and_true]
          apply hno
          intro r hr
          rw [hdims] at hr
          simp only [List.cons.injEq] at hr
          exact c1 hr.2.1
        by_cases c0 : d0 ≠ 1
        · simp only [if_neg c2, if_neg c1, if_pos c0, reduceCtorEq, exists_false, false_iff, false_implies, implies_true, and_true]
          apply hno
          intro r hr
          rw [hdims] at hr
          simp only [List.cons.injEq] at hr
          exact c0 hr.1
        simp only [if_neg c2, if_neg c1, if_neg c0]
        push Not at c2 c1 c0
        subst c2 c1 c0
        have hck : Checked l t := ⟨by omega, by omega, f, d, rest, hf, hd, hdims⟩
        obtain ⟨k1, k2⟩ := mark_spec m (t.bottom.getD 0) (t.top.getD 0) (by omega)
        cases hm : mark m (t.bottom.getD 0) (t.top.getD 0) with
        | none =>
          simp only [reduceCtorEq, exists_false, false_iff, false_implies, implies_true, and_true]
          rintro ⟨_, h⟩
          obtain ⟨m', hm'⟩ := k1.2 (fun p hp hp' => h p ⟨hp, hp'⟩)
          rw [hm] at hm'
          cases hm'
        | some m1 =>
          constructor
          · constructor
            · intro _
              exact ⟨hck, fun p hp => k1.1 ⟨m1, hm⟩ p hp.1 hp.2⟩
            · intro _
              exact ⟨m1, rfl⟩
          · rintro m' h
            cases h
            exact k2 m1 hm
      · rename_i hdims
        simp only [reduceCtorEq, exists_false, false_iff, false_implies, implies_true, and_true]
        apply hno
        intro r hr
        exact hdims _ _ _ _ hr

omit [Field K] [LinearOrder K] [IsStrictOrderedRing K] in
theorem validateAll_spec (l : Layout) (m : List Nat) (tags : List (XsTag K)) :
    (∃ m', validateAll l tags m = .ok m') ↔ (∀ t ∈ tags, Checked l t ∧ ∀ p, XCovers t p → p ∉ m) ∧
      tags.Pairwise fun t u => ∀ p, ¬ (XCovers t p ∧ XCovers u p) := by
  induction tags generalizing m with
  | nil => simp [validateAll]
  | cons t tags ih =>
    unfold validateAll
    obtain ⟨v1, v2⟩ := validate_spec l m t
    have hbad : ¬ (∃ m', validate l m t = .ok m') → ¬ ((∀ u ∈ t :: tags, Checked l u ∧ ∀ p, XCovers u p → p ∉ m) ∧
        (t :: tags).Pairwise fun t u => ∀ p, ¬ (XCovers t p ∧ XCovers u p)) := by
      rintro h ⟨h1, _⟩
      exact h (v1.2 (h1 t (by simp)))
    cases hv : validate l m t with
    | throws =>
      simp only [Res.andThen, reduceCtorEq, exists_false, false_iff]
      exact hbad (by simp [hv])
    | ub =>
      simp only [Res.andThen, reduceCtorEq, exists_false, false_iff]
      exact hbad (by simp [hv])
    | ok m1 =>
      simp only [Res.andThen]
      rw [ih m1, List.pairwise_cons]
      have hm1 := v2 m1 hv
      have ht := v1.1 ⟨m1, hv⟩
      constructor
      · rintro ⟨h1, h2⟩
        refine ⟨?_, ?_, h2⟩
        · intro u hu
          rcases List.mem_cons.1 hu with rfl | hu
          · exact ht
          · exact ⟨(h1 u hu).1, fun p hp hpm => (h1 u hu).2 p hp ((hm1 p).2 (Or.inl hpm))⟩
        · intro u hu p hp
          exact (h1 u hu).2 p hp.2 ((hm1 p).2 (Or.inr hp.1))
      · rintro ⟨h1, h2, h3⟩
        refine ⟨fun u hu => ⟨(h1 u (List.mem_cons_of_mem _ hu)).1, fun p hp hpm => ?_⟩, h3⟩
        rcases (hm1 p).1 hpm with h | h
        · exact (h1 u (List.mem_cons_of_mem _ hu)).2 p hp h
        · exact h2 u hu p ⟨h, hp⟩

/-- Region `i` has cross sections and scattering of the pin that file `f` has at cell `c` and place `j`. -/
def Given (l : Layout) (f : XsFile K) (s : State K) (i c j : Nat) : Prop :=
  (∀ q g d, g < l.ng → f.xs q g = some d → d.vals[c]? = some (s.xs q i g)) ∧
  ∀ d d0 d1, f.sc = some d → d.dims = [d0, d1, d1] →
    s.sc i = build d1 (fun a b => (d.vals[(j * d1 + a) * d1 + b]?).getD 0) ∧
    ∀ g, g < d1 → s.rm i g = s.xs .tr i g - (d.vals[(j * d1 + g) * d1 + g]?).getD 0

/-- Region `i` is as before. -/
def Same (s s' : State K) (i : Nat) : Prop := (∀ q g, s'.xs q i g = s.xs q i g) ∧ s'.sc i = s.sc i ∧ ∀ g, s'.rm i g = s.rm i g

theorem readTag_spec (l : Layout) (hl : LocOk l) (t : XsTag K) (s : State K) :
    ((∃ s', readTag l t s = .ok s') ↔ Readable l s.eub.length t) ∧
    ∀ s', readTag l t s = .ok s' → (∀ f, t.file = some f → f.eub = some s'.eub) ∧ s'.eub.length = s.eub.length ∧
      ∀ p j, j < l.nx * l.ny →
        (XCovers t p → ∀ f, t.file = some f → Given l f s' (l.nx * l.ny * p + j) (l.loc j) j) ∧
        (¬ XCovers t p → Same s s' (l.nx * l.ny * p + j)) := by
  unfold readTag
  cases hf : t.file with
  | none =>
    simp only [reduceCtorEq, exists_false, false_iff, false_implies, implies_true, and_true]
    rintro ⟨f, _, _, _, _, h, _⟩
    rw [hf] at h
    cases h
  | some f =>
    dsimp only
    cases he : f.eub with
    | none =>
      simp only [reduceCtorEq, exists_false, false_iff, false_implies, implies_true, and_true]
      rintro ⟨f', e, _, _, _, h, h', _⟩
      rw [hf] at h
      cases h
      rw [he] at h'
      cases h'
    | some eub =>
      dsimp only
      by_cases hlen : eub.length ≠ s.eub.length
      · simp only [if_pos hlen, reduceCtorEq, exists_false, false_iff, false_implies, implies_true, and_true]
        rintro ⟨f', e, _, _, _, h, h', h'', _⟩
        rw [hf] at h
        cases h
        rw [he] at h'
        cases h'
        exact hlen h''
      simp only [if_neg hlen]
      push Not at hlen
      by_cases hw : Whole l.ng (l.nx * l.ny) f
      swap
      · have hr : readXs l.ng l.n f = none := (readXs_spec l.ng (l.nx * l.ny) f).2 hw
        simp only [hr, reduceCtorEq, exists_false, false_iff, false_implies, implies_true, and_true]
        rintro ⟨f', e, _, _, _, h, _, _, h', _⟩
        rw [hf] at h
        cases h
        exact hw h'
      have hr : readXs l.ng l.n f = some fun q g => ((f.xs q g).map (·.vals)).getD [] := (readXs_spec l.ng (l.nx * l.ny) f).1 hw
      simp only [hr]
      cases hsc : f.sc with
      | none =>
        simp only [reduceCtorEq, exists_false, false_iff, false_implies, implies_true, and_true]
        rintro ⟨f', e, _, _, _, h, _, _, _, h', _⟩
        rw [hf] at h
        cases h
        rw [hsc] at h'
        cases h'
      | some d =>
        have hno : (∀ d0 d1, d.dims = [d0, d1, d1] → l.nx * l.ny ≤ d0 → ¬ d1 ≤ l.ng) → ¬ Readable l s.eub.length t := by
          rintro hne ⟨f', e, d', d0, d1, h, _, _, _, h', hd, h1, h2⟩
          rw [hf] at h
          cases h
          rw [hsc] at h'
          cases h'
          exact hne d0 d1 hd h1 h2
        dsimp only
        split
        · rename_i d0 d1 d2 hdims
          by_cases hb : d0 < l.n ∨ d1 ≠ d2 ∨ l.ng < d1
          · simp only [if_pos hb, reduceCtorEq, exists_false, false_iff, false_implies, implies_true, and_true]
            apply hno
            intro e0 e1 hd h1 h2
            rw [hdims] at hd
            simp only [List.cons.injEq, and_true] at hd
            obtain ⟨rfl, rfl, rfl⟩ := hd
            rcases hb with hb | hb | hb
            · exact absurd hb (by unfold Layout.n; omega)
            · exact hb rfl
            · omega
          simp only [if_neg hb]
          have hb0 : l.nx * l.ny ≤ d0 := by
            by_contra hc
            exact hb (Or.inl (by unfold Layout.n; omega))
          have hb1 : d1 = d2 := by
            by_contra hc
            exact hb (Or.inr (Or.inl hc))
          have hb2 : d1 ≤ l.ng := by
            by_contra hc
            exact hb (Or.inr (Or.inr (by omega)))
          subst hb1
          constructor
          · constructor
            · intro _
              exact ⟨f, eub, d, d0, d1, hf, he, hlen, hw, hsc, hdims, hb0, hb2⟩
            · intro _
              exact ⟨_, rfl⟩
          · intro s' hs'
            cases hs'
            refine ⟨?_, hlen, ?_⟩
            · rintro f' h
              cases h
              exact he
            · intro p j hj
              have hdv : (l.nx * l.ny * p + j) / l.n = p := by
                unfold Layout.n
                rw [Nat.mul_add_div (by omega), Nat.div_eq_of_lt hj, Nat.add_zero]
              have hmd : (l.nx * l.ny * p + j) % l.n = j := by
                unfold Layout.n
                rw [Nat.mul_add_mod, Nat.mod_eq_of_lt hj]
              constructor
              · rintro hc f' h
                cases h
                have hc' : t.bot ≤ (p : Int) ∧ (p : Int) ≤ t.tp := hc
                constructor
                · intro q g e hg hq
                  obtain ⟨e', hq', hle⟩ := hw q g hg
                  rw [hq] at hq'
                  cases hq'
                  dsimp only
                  rw [hdv, hmd, if_pos ⟨hc', hg⟩, hq]
                  have hlt : l.loc j < e.vals.length := by
                    rw [hle]
                    exact hl.1 j hj
                  simp only [Option.map_some, Option.getD_some]
                  rw [List.getElem?_eq_getElem hlt]
                  rfl
                · intro e e0 e1 hsc' hdims'
                  rw [hsc] at hsc'
                  cases hsc'
                  rw [hdims] at hdims'
                  simp only [List.cons.injEq, and_true] at hdims'
                  obtain ⟨rfl, rfl, _⟩ := hdims'
                  constructor
                  · dsimp only
                    rw [hdv, hmd, if_pos hc']
                    rfl
                  · intro g hg
                    dsimp only
                    rw [hdv, hmd, if_pos ⟨hc', hg⟩]
                    unfold matrixOf
                    rw [(C22_to_sound d1 _ g g hg hg).2.2]
                    rfl
              · intro hc
                have hc' : ¬ (t.bot ≤ (p : Int) ∧ (p : Int) ≤ t.tp) := hc
                refine ⟨fun q g => ?_, ?_, fun g => ?_⟩
                · dsimp only
                  rw [hdv, if_neg (fun h => hc' h.1)]
                · dsimp only
                  rw [hdv, if_neg hc']
                · dsimp only
                  rw [hdv, if_neg (fun h => hc' h.1)]
        · rename_i hdims
          simp only [reduceCtorEq, exists_false, false_iff, false_implies, implies_true, and_true]
          apply hno
          intro d0 d1 hd
          exact absurd hd (hdims _ _ _)

theorem readAll_spec (l : Layout) (hl : LocOk l) (tags : List (XsTag K)) (s : State K) :
    (∃ s', readAll l tags s = .ok s') ↔ ∀ t ∈ tags, Readable l s.eub.length t := by
  induction tags generalizing s with
  | nil => simp [readAll]
  | cons t tags ih =>
    unfold readAll
    obtain ⟨r1, r2⟩ := readTag_spec l hl t s
    cases hv : readTag l t s with
    | throws =>
      simp only [Res.andThen, reduceCtorEq, exists_false, false_iff]
      intro h
      obtain ⟨s', hs'⟩ := r1.2 (h t (by simp))
      rw [hv] at hs'
      cases hs'
    | ub =>
      simp only [Res.andThen, reduceCtorEq, exists_false, false_iff]
      intro h
      obtain ⟨s', hs'⟩ := r1.2 (h t (by simp))
      rw [hv] at hs'
      cases hs'
    | ok s1 =>
      simp only [Res.andThen]
      rw [ih s1, (r2 s1 hv).2.1, List.forall_mem_cons]
      exact ⟨fun h => ⟨r1.1 ⟨s1, hv⟩, h⟩, fun h => h.2⟩

/-- C95: several tags are accepted exactly if all have macroplanes of the core as their bounds (0 if not given) and a file of one plane of the shape
of the core, with bounds for each group, all cross sections of every group, square scattering matrices for at least as many pins as a plane has and
for no more groups than the mesh, and no macroplane belongs to two of them. -/
theorem C95_accepted (l : Layout) (hl : LocOk l) (tags : List (XsTag K)) (s : State K) :
    (∃ s', readMulti l tags s = .ok s') ↔ (∀ t ∈ tags, Checked l t ∧ Readable l s.eub.length t) ∧
      tags.Pairwise fun t u => ∀ p, ¬ (XCovers t p ∧ XCovers u p) := by
  unfold readMulti
  have hv := validateAll_spec l [] tags
  simp only [List.not_mem_nil, not_false_eq_true, implies_true, and_true] at hv
  cases h : validateAll l tags [] with
  | throws =>
    rw [h] at hv
    simp only [reduceCtorEq, exists_false, false_iff] at hv
    simp only [Res.andThen, reduceCtorEq, exists_false, false_iff]
    rintro ⟨h1, h2⟩
    exact hv ⟨fun t ht => (h1 t ht).1, h2⟩
  | ub =>
    rw [h] at hv
    simp only [reduceCtorEq, exists_false, false_iff] at hv
    simp only [Res.andThen, reduceCtorEq, exists_false, false_iff]
    rintro ⟨h1, h2⟩
    exact hv ⟨fun t ht => (h1 t ht).1, h2⟩
  | ok m =>
    rw [h] at hv
    have hv' := hv.1 ⟨m, rfl⟩
    simp only [Res.andThen]
    rw [readAll_spec l hl tags s]
    exact ⟨fun h => ⟨fun t ht => ⟨hv'.1 t ht, h t ht⟩, hv'.2⟩, fun h t ht => (h.1 t ht).2⟩

theorem values_all (l : Layout) (hl : LocOk l) (tags : List (XsTag K)) (s s' : State K)
    (ha : tags.Pairwise fun t u => ∀ p, ¬ (XCovers t p ∧ XCovers u p)) (h : readAll l tags s = .ok s') (p j : Nat) (hj : j < l.nx * l.ny) :
    (∀ t ∈ tags, XCovers t p → ∀ f, t.file = some f → Given l f s' (l.nx * l.ny * p + j) (l.loc j) j) ∧
    ((∀ t ∈ tags, ¬ XCovers t p) → Same s s' (l.nx * l.ny * p + j)) := by
  induction tags generalizing s with
  | nil =>
    cases h
    exact ⟨fun t ht => absurd ht (by simp), fun _ => ⟨fun _ _ => rfl, rfl, fun _ => rfl⟩⟩
  | cons t tags ih =>
    unfold readAll at h
    obtain ⟨r1, r2⟩ := readTag_spec l hl t s
    cases hv : readTag l t s with
    | throws => simp [hv, Res.andThen] at h
    | ub => simp [hv, Res.andThen] at h
    | ok s1 =>
      simp only [hv, Res.andThen] at h
      rw [List.pairwise_cons] at ha
      obtain ⟨i1, i2⟩ := ih s1 ha.2 h
      obtain ⟨v1, v2⟩ := (r2 s1 hv).2.2 p j hj
      constructor
      · intro u hu hp f hf
        rcases List.mem_cons.1 hu with rfl | hu
        · have hs := i2 (fun w hw hwp => ha.1 w hw p ⟨hp, hwp⟩)
          obtain ⟨g1, g2⟩ := v1 hp f hf
          refine ⟨fun q g d hg hd => ?_, fun d d0 d1 hd hdims => ?_⟩
          · rw [hs.1]
            exact g1 q g d hg hd
          · rw [hs.2.1]
            refine ⟨(g2 d d0 d1 hd hdims).1, fun g hg => ?_⟩
            rw [hs.2.2, hs.1]
            exact (g2 d d0 d1 hd hdims).2 g hg
        · exact i1 u hu hp f hf
      · intro hno
        have hs := i2 (fun u hu => hno u (List.mem_cons_of_mem _ hu))
        have hs1 := v2 (hno t (by simp))
        exact ⟨fun q g => (hs.1 q g).trans (hs1.1 q g), hs.2.1.trans hs1.2.1, fun g => (hs.2.2 g).trans (hs1.2.2 g)⟩

/-- C95: after reading several tags the regions of a macroplane have the cross sections that the file of its tag has at the cell of the pin, and the
scattering that it has for the pin, with the removal cross section that follows; regions of macroplanes without tag keep theirs.  The order of the
tags does not matter. -/
theorem C95_values (l : Layout) (hl : LocOk l) (tags : List (XsTag K)) (s s' : State K) (h : readMulti l tags s = .ok s')
    (p j : Nat) (hj : j < l.nx * l.ny) :
    (∀ t ∈ tags, XCovers t p → ∀ f, t.file = some f → Given l f s' (l.nx * l.ny * p + j) (l.loc j) j) ∧
    ((∀ t ∈ tags, ¬ XCovers t p) → Same s s' (l.nx * l.ny * p + j)) := by
  have ha := ((C95_accepted l hl tags s).1 ⟨s', h⟩).2
  unfold readMulti at h
  cases hv : validateAll l tags [] with
  | throws => simp [hv, Res.andThen] at h
  | ub => simp [hv, Res.andThen] at h
  | ok m =>
    simp only [hv, Res.andThen] at h
    exact values_all l hl tags s s' ha h p j hj

/-- C95: the bounds of the groups become those of the last file, whatever those of the others are. -/
theorem C95_bounds (l : Layout) (hl : LocOk l) (tags : List (XsTag K)) (t : XsTag K) (s s' : State K) (h : readMulti l (tags ++ [t]) s = .ok s') :
    ∀ f, t.file = some f → f.eub = some s'.eub := by
  unfold readMulti at h
  cases hv : validateAll l (tags ++ [t]) [] with
  | throws => simp [hv, Res.andThen] at h
  | ub => simp [hv, Res.andThen] at h
  | ok m =>
    simp only [hv, Res.andThen] at h
    clear hv
    induction tags generalizing s with
    | nil =>
      simp only [List.nil_append, readAll] at h
      cases hr : readTag l t s with
      | throws => simp [hr, Res.andThen] at h
      | ub => simp [hr, Res.andThen] at h
      | ok s1 =>
        simp only [hr, Res.andThen, Res.ok.injEq] at h
        subst h
        exact ((readTag_spec l hl t s).2 s1 hr).1
    | cons u tags ih =>
      simp only [List.cons_append, readAll] at h
      cases hr : readTag l u s with
      | throws => simp [hr, Res.andThen] at h
      | ub => simp [hr, Res.andThen] at h
      | ok s1 =>
        simp only [hr, Res.andThen] at h
        exact ih s1 h

/-- C95: without a `<data>` tag nothing is accepted. -/
theorem C95_no_data (l : Layout) (s : State K) : fromFiles l [] s = .throws := rfl

/-- C95: a single tag with a file of the shape of the core is accepted exactly if its bounds, where given, are those of the core, all datasets of the
groups of the core are there for all regions, and the scattering data are square matrices of at most as many groups, one for each region. -/
theorem C95_single (l : Layout) (t : XsTag K) (f : XsFile K) (d : Dataset K) (s : State K) (hf : t.file = some f) (hd : f.xs .tr 0 = some d)
    (hs : d.dims = [l.np, l.ny, l.nx]) :
    (∃ s', fromFiles l [t] s = .ok s') ↔ (∀ b, t.bottom = some b → b = 0) ∧ (∀ b, t.top = some b → b = (l.np : Int) - 1) ∧
      Whole l.ng l.nreg f ∧ ∃ m n, f.sc = some m ∧ m.dims = [l.nreg, n, n] ∧ n ≤ l.ng := by
  have hr : fromFiles l [t] s = readSingle l t s := by
    unfold fromFiles
    simp only [hf, hd, hs, and_self, if_true]
  rw [hr]
  unfold readSingle
  dsimp only
  have hbt : (¬ (t.bottom.getD 0 ≠ 0 ∨ t.top.getD ((l.np : Int) - 1) ≠ (l.np : Int) - 1)) ↔
      (∀ b, t.bottom = some b → b = 0) ∧ (∀ b, t.top = some b → b = (l.np : Int) - 1) := by
    push Not
    cases t.bottom <;> cases t.top <;> simp
  by_cases hb : t.bottom.getD 0 ≠ 0 ∨ t.top.getD ((l.np : Int) - 1) ≠ (l.np : Int) - 1
  · rw [if_pos hb]
    constructor
    · rintro ⟨s', h⟩
      cases h
    · rintro ⟨h1, h2, -⟩
      exact absurd hb (hbt.2 ⟨h1, h2⟩)
  rw [if_neg hb, hf]
  dsimp only
  by_cases hw : Whole l.ng l.nreg f
  swap
  · rw [(readXs_spec l.ng l.nreg f).2 hw]
    constructor
    · rintro ⟨s', h⟩
      cases h
    · rintro ⟨-, -, h, -⟩
      exact absurd h hw
  rw [(readXs_spec l.ng l.nreg f).1 hw]
  dsimp only
  constructor
  · rintro ⟨s', h⟩
    refine ⟨(hbt.1 hb).1, (hbt.1 hb).2, hw, ?_⟩
    cases hm : f.sc with
    | none => rw [hm] at h; cases h
    | some m =>
      rw [hm] at h
      dsimp only at h
      split at h
      · next d0 d1 d2 hdim =>
        split_ifs at h with h1 h2
        push Not at h1 h2
        exact ⟨m, d1, rfl, by rw [hdim, h1, h2.1], h2.2⟩
      · cases h
  · rintro ⟨-, -, -, m, n, hm, hdim, hn⟩
    rw [hm]
    dsimp only
    rw [hdim]
    dsimp only
    rw [if_neg (by simp), if_neg (by simp; exact hn)]
    exact ⟨_, rfl⟩

/-- A file as HDF5 has it. -/
def Proper (f : XsFile K) : Prop := (∀ q g d, f.xs q g = some d → d.vals.length = d.dims.prod) ∧ ∀ d, f.sc = some d → d.vals.length = d.dims.prod

/-- C95, the claim: no file leads to undefined behaviour. -/
def C95_safe_claim : Prop := ∀ (l : Layout), LocOk l → ∀ (tags : List (XsTag ℚ)) (s : State ℚ),
  (∀ t ∈ tags, ∀ f, t.file = some f → Proper f) → fromFiles l tags s ≠ .ub

/-- C95: a file of the same core with more groups is read as a single file, and the removal cross sections are written past their end. -/
theorem C95_more_groups (l : Layout) (hl : LocOk l) (hg : 0 < l.ng) (more : Nat) (hm : l.ng < more) (s s0 : State K) :
    fromFiles l [⟨some (output { l with ng := more } s), none, none⟩] s0 = .ub := by
  have hw : Whole l.ng l.nreg (output { l with ng := more } s) := by
    intro q g h
    refine ⟨_, if_pos (lt_trans h hm), ?_⟩
    simp [Layout.nreg]
  have e0 : (output { l with ng := more } s).xs .tr 0 =
      some ⟨[l.np, l.ny, l.nx], (List.range l.nreg).map (gather { l with ng := more } fun i => s.xs .tr i 0)⟩ := if_pos (lt_trans hg hm)
  have hr : fromFiles l [⟨some (output { l with ng := more } s), none, none⟩] s0 =
      readSingle l ⟨some (output { l with ng := more } s), none, none⟩ s0 := by
    unfold fromFiles
    simp only [e0, and_self, if_true]
  rw [hr]
  unfold readSingle
  simp only [(readXs_spec l.ng l.nreg (output { l with ng := more } s)).1 hw, Option.getD_none, ne_eq, not_true_eq_false, or_self, if_false]
  simp only [output, Layout.nreg, not_true_eq_false, if_false, hm, or_true, if_true]

theorem C95_safe_claim_false : ¬ C95_safe_claim := by
  intro h
  let s : State ℚ := ⟨fun _ _ _ => 1, fun _ _ => 1, fun _ => build 2 fun _ _ => 1, [5, 7]⟩
  apply h onePin onePin_ok [⟨some (output { onePin with ng := 2 } s), none, none⟩] s ?_
    (C95_more_groups onePin onePin_ok Nat.one_pos 2 Nat.one_lt_two s s)
  intro t ht f hf
  simp only [List.mem_singleton] at ht
  subst ht
  cases hf
  constructor
  · intro q g d hd
    simp only [output] at hd
    split_ifs at hd
    cases hd
    rfl
  · intro d hd
    cases hd
    rfl

/-- C95: files of several tags are not checked for scattering matrices of all pins either. -/
theorem C95_few_matrices (l : Layout) (t : XsTag K) (f : XsFile K) (s : State K) (hf : t.file = some f) (eub : List K) (he : f.eub = some eub)
    (hlen : eub.length = s.eub.length) (hw : Whole l.ng (l.nx * l.ny) f) (d : Dataset K) (hd : f.sc = some d) (d0 d1 d2 : Nat)
    (hdims : d.dims = [d0, d1, d2]) (h : d0 < l.nx * l.ny) : readTag l t s = .ub := by
  have hr : readXs l.ng l.n f = some fun q g => ((f.xs q g).map (·.vals)).getD [] := (readXs_spec l.ng (l.nx * l.ny) f).1 hw
  unfold readTag
  simp only [hf, he, hlen, hr, hd, hdims, ne_eq, not_true_eq_false, if_false]
  exact if_pos (Or.inl h)

/-- A file of one plane of two pins and one group. -/
def exXsFile (x y : ℚ) : XsFile ℚ where
  xs := fun _ g => if g < 1 then some ⟨[1, 1, 2], [x, y]⟩ else none
  sc := some ⟨[2, 1, 1], [1 / 2, 1 / 4]⟩
  eub := some [20]

/-- A core of two pins, numbered against the cells, in three macroplanes. -/
def exLayout : Layout := ⟨2, 1, 3, 1, fun j => 1 - j⟩

def exState : State ℚ := ⟨fun _ _ _ => 9, fun _ _ => 8, fun _ => build 1 fun _ _ => 1, [10]⟩

def exShow (r : Res (State ℚ)) : List (ℚ × ℚ) :=
  match r with
  | .ok s => (List.range 6).map fun i : Nat => (s.xs .tr i 0, s.rm i 0)
  | _ => []

/-- Planes 2 and 0 by two tags, plane 1 as it was. -/
example : exShow (fromFiles exLayout [⟨some (exXsFile 5 6), some 2, some 2⟩, ⟨some (exXsFile 3 4), none, none⟩] exState) =
    [(4, 7/2), (3, 11/4), (9, 8), (9, 8), (6, 11/2), (5, 19/4)] := by decide +kernel

example : LocOk exLayout := by
  constructor
  · intro j hj
    simp [exLayout] at *
    omega
  · intro i j hi hj h
    simp [exLayout] at *
    omega

/-- Round trip of the same core. -/
example : exShow (fromFiles exLayout [⟨some (output exLayout ⟨fun _ i _ => i, fun _ _ => 0, fun _ => build 1 fun _ _ => 1 / 2, [4]⟩), none, none⟩] exState) =
    [(0, -1/2), (1, 1/2), (2, 3/2), (3, 5/2), (4, 7/2), (5, 9/2)] := by decide +kernel

end Verif.XS.Save
