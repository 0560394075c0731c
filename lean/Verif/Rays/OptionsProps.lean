import Verif.Rays.OptionsModel
import Verif.Moc.VolumeProps
import Verif.Input.FactoryProps
import Mathlib.Tactic.Linarith
import Mathlib.Tactic.NormNum
import Mathlib.Algebra.Order.BigOperators.Group.List

/-!
# C123: options and tables of the ray data, and the warning about regions without rays
-/

set_option linter.unusedSectionVars false

namespace Verif.Rays.Options

open Verif.Input.Factory

/-! ### Options -/

/-- What an attribute with words may be: absent, or one of the words after trimming and lower case. -/
def Says {Q : Type} (n : Node Q) (name : String) (words : List String) : Prop := ∀ v, attr n name = some v → ∃ w ∈ words, sanitize v = w.toList

section
variable {Q K : Type} [Field K] [LinearOrder K] [IsStrictOrderedRing K]

/-- C123: the inputs that are accepted: a node with a positive spacing, known words, and pin modularity only for a mesh that has it. -/
theorem C123_accept (num : Str → K) (pm : Bool) (node : Option (Node Q)) : (readOpts num pm node).isSome ↔ ∃ n, node = some n ∧
    (∃ v, attr n "spacing" = some v ∧ 0 < num v) ∧ Says n "volume_correction" ["flat", "angle", "none"] ∧ Says n "modularity" ["pin", "core"] ∧
    (∀ v, attr n "modularity" = some v → sanitize v = "pin".toList → pm = true) ∧ Says n "modularization" ["trig", "rational_fraction"] := by
  cases node with
  | none => simp [readOpts]
  | some n =>
    have h1 : (readCorrection n).isSome ↔ Says n "volume_correction" ["flat", "angle", "none"] := by
      unfold readCorrection Says
      cases attr n "volume_correction" with
      | none => simp
      | some v => simp only [Option.some.injEq, forall_eq', List.mem_cons, List.not_mem_nil, or_false, exists_eq_or_imp, exists_eq_left]; split_ifs <;> simp_all
    have h2 : (readModularity pm n).isSome ↔ Says n "modularity" ["pin", "core"] ∧ (∀ v, attr n "modularity" = some v → sanitize v = "pin".toList → pm = true) := by
      unfold readModularity Says
      cases attr n "modularity" with
      | none => simp
      | some v => simp only [Option.some.injEq, forall_eq', List.mem_cons, List.not_mem_nil, or_false, exists_eq_or_imp, exists_eq_left]; split_ifs <;> simp_all
    have h3 : (readMethod n).isSome ↔ Says n "modularization" ["trig", "rational_fraction"] := by
      unfold readMethod Says
      cases attr n "modularization" with
      | none => simp
      | some v => simp only [Option.some.injEq, forall_eq', List.mem_cons, List.not_mem_nil, or_false, exists_eq_or_imp, exists_eq_left]; split_ifs <;> simp_all
    have h4 : (¬ ((attr n "spacing").map num).getD (-1) ≤ 0) ↔ ∃ v, attr n "spacing" = some v ∧ 0 < num v := by
      cases attr n "spacing" with
      | none => simp
      | some v => simp
    constructor
    · intro h
      refine ⟨n, rfl, ?_⟩
      unfold readOpts at h
      dsimp only at h
      split at h
      · simp at h
      · next hs =>
        obtain ⟨o, ho⟩ := Option.isSome_iff_exists.mp h
        obtain ⟨c, hc, ho⟩ := Option.bind_eq_some_iff.mp ho
        obtain ⟨m, hm, ho⟩ := Option.bind_eq_some_iff.mp ho
        obtain ⟨r, hr, ho⟩ := Option.map_eq_some_iff.mp ho
        obtain ⟨h5, h6⟩ := h2.mp (by rw [hm]; rfl)
        exact ⟨h4.mp hs, h1.mp (by rw [hc]; rfl), h5, h6, h3.mp (by rw [hr]; rfl)⟩
    · rintro ⟨n', e, hs, hc, hm, hp, hr⟩
      cases e
      obtain ⟨c, hc⟩ := Option.isSome_iff_exists.mp (h1.mpr hc)
      obtain ⟨m, hm⟩ := Option.isSome_iff_exists.mp (h2.mpr ⟨hm, hp⟩)
      obtain ⟨r, hr⟩ := Option.isSome_iff_exists.mp (h3.mpr hr)
      simp [readOpts, if_neg (h4.mpr hs), hc, hm, hr]

/-- C123: what is read: the spacing given, the correction and the methods by their words, with flat correction, modular cores and rational fractions if nothing is said; unknown attributes
are warned about and have no other effect. -/
theorem C123_read (num : Str → K) (pm : Bool) (n : Node Q) (o : Opts K) (w : Nat) (h : readOpts num pm (some n) = some (o, w)) :
    (∀ v, attr n "spacing" = some v → o.spacing = num v) ∧ 0 < o.spacing ∧
    (attr n "volume_correction" = none → o.correction = .flat) ∧ (attr n "modularity" = none → o.core = true) ∧ (attr n "modularization" = none → o.rational = true) ∧
    (∀ v, attr n "volume_correction" = some v → (o.correction = .flat ↔ sanitize v = "flat".toList) ∧ (o.correction = .angle ↔ sanitize v = "angle".toList) ∧
      (o.correction = .none ↔ sanitize v = "none".toList)) ∧
    (∀ v, attr n "modularity" = some v → (o.core = false ↔ sanitize v = "pin".toList) ∧ (o.core = true ↔ sanitize v = "core".toList)) ∧
    (∀ v, attr n "modularization" = some v → (o.rational = false ↔ sanitize v = "trig".toList) ∧ (o.rational = true ↔ sanitize v = "rational_fraction".toList)) ∧
    (o.core = false → pm = true) ∧ w = (n.attrs.filter fun a => decide (∀ k ∈ known, a.1 ≠ k.toList)).length := by
  unfold readOpts at h
  dsimp only at h
  split at h
  · cases h
  · next hs =>
    obtain ⟨c, hc, h⟩ := Option.bind_eq_some_iff.mp h
    obtain ⟨m, hm, h⟩ := Option.bind_eq_some_iff.mp h
    obtain ⟨r, hr, h⟩ := Option.map_eq_some_iff.mp h
    rw [Prod.mk.injEq] at h
    obtain ⟨rfl, rfl⟩ := h
    dsimp only
    refine ⟨fun v hv => by rw [hv]; rfl, not_le.mp hs, ?_, ?_, ?_, ?_, ?_, ?_, ?_, (Verif.Input.Factory.C105_validate n known).2⟩
    · intro h; simp [readCorrection, h] at hc; exact hc.symm
    · intro h; simpa [readModularity, h, eq_comm] using hm
    · intro h; simpa [readMethod, h, eq_comm] using hr
    · intro v h
      simp only [readCorrection, h] at hc
      split_ifs at hc with h1 h2 h3 <;> cases hc <;> simp_all
    · intro v h
      simp only [readModularity, h] at hm
      split_ifs at hm with h1 h2 h3 <;> cases hm <;> simp_all
    · intro v h
      simp only [readMethod, h] at hr
      split_ifs at hr with h1 h2 <;> cases hr <;> simp_all
    · intro h
      subst h
      unfold readModularity at hm
      split at hm
      · cases hm
      · by_contra hp
        rw [if_neg hp] at hm
        split_ifs at hm
        all_goals simp_all

/-- C123: with pin modularity the domain is made of whole modules, if pitches are compared exactly and the first pin has the pitch of the first column. -/
theorem C123_modules (near : K → K → Bool) (hnear : ∀ a b, near a b = true ↔ a = b) (dx dy : List K) (hx : dx ≠ []) (hy : dy ≠ []) (core : Bool)
    (h : core = false → isPinModular near dx dy = true) :
    ∃ ax ay : Nat, dx.sum = ax * moduleSize core dx.sum (dx.getD 0 0) ∧ dy.sum = ay * moduleSize core dy.sum (dy.getD 0 0) ∧
      (core = false → ax = dx.length ∧ ay = dy.length) ∧ (core = true → ax = 1 ∧ ay = 1) := by
  cases core with
  | true => exact ⟨1, 1, by simp [moduleSize], by simp [moduleSize], by simp, by simp⟩
  | false =>
    have h := h rfl
    rw [isPinModular, Bool.and_eq_true, List.all_eq_true, List.all_eq_true] at h
    have key : ∀ l : List K, (∀ v ∈ l, near v (l.getD 0 0) = true) → l.sum = l.length * l.getD 0 0 := by
      intro l hl
      rw [List.sum_eq_card_nsmul l _ fun v hv => (hnear _ _).mp (hl v hv), nsmul_eq_mul]
    exact ⟨dx.length, dy.length, by simpa [moduleSize] using key dx h.1, by simpa [moduleSize] using key dy h.2, by simp, by simp⟩

end

/-! ### Tables -/

section
variable {K : Type}

theorem push_fold (core : Bool) (mx my : Nat) (space : Nat → Nat → K) (Ns : List (Nat × Nat)) (t : Tables K) :
    Ns.foldl (pushAngle core mx my space) t =
      ⟨t.nx ++ Ns.map (fun N => if core then N.1 else N.1 * mx), t.ny ++ Ns.map (fun N => if core then N.2 else N.2 * my),
        t.n ++ Ns.map (fun N => (if core then N.1 else N.1 * mx) + (if core then N.2 else N.2 * my)),
        t.space ++ Ns.map (fun N => space (if core then N.1 else N.1 * mx) (if core then N.2 else N.2 * my))⟩ := by
  induction Ns generalizing t with
  | nil => simp
  | cons N Ns ih => rw [List.foldl_cons, ih, pushAngle]; simp [List.append_assoc]

/-- The first `m` entries of a list repeated for ever. -/
def cycle {α : Type} (l : List α) (m : Nat) : List α := (List.range m).filterMap fun i => l[i % l.length]?

theorem cycle_length {α : Type} (l : List α) (hl : l ≠ []) (m : Nat) : (cycle l m).length = m := by
  have hp : 0 < l.length := List.length_pos_of_ne_nil hl
  induction m with
  | zero => rfl
  | succ m ih =>
    have hi : m % l.length < l.length := Nat.mod_lt _ hp
    rw [cycle, List.range_succ, List.filterMap_append, List.length_append, ← cycle, ih]
    simp [List.getElem?_eq_getElem hi]

theorem cycle_get {α : Type} (l : List α) (hl : l ≠ []) (m i : Nat) (hi : i < m) : (cycle l m)[i]? = l[i % l.length]? := by
  have hp : 0 < l.length := List.length_pos_of_ne_nil hl
  induction m with
  | zero => omega
  | succ m ih =>
    have e : cycle l (m + 1) = cycle l m ++ [l[m % l.length]'(Nat.mod_lt _ hp)] := by
      rw [cycle, List.range_succ, List.filterMap_append, ← cycle]
      simp [List.getElem?_eq_getElem (Nat.mod_lt m hp)]
    rw [e]
    by_cases him : i < m
    · rw [List.getElem?_append_left (by rw [cycle_length l hl]; exact him), ih him]
    · obtain rfl : i = m := by omega
      rw [List.getElem?_append_right (by rw [cycle_length l hl]), cycle_length l hl, Nat.sub_self, List.getElem?_eq_getElem (Nat.mod_lt i hp)]
      rfl

theorem cycle_self {α : Type} (l : List α) : cycle l l.length = l := by
  rcases eq_or_ne l [] with rfl | hl
  · rfl
  · apply List.ext_getElem?
    intro i
    by_cases hi : i < l.length
    · rw [cycle_get l hl _ _ hi, Nat.mod_eq_of_lt hi]
    · rw [List.getElem?_eq_none (by rw [cycle_length l hl]; omega), List.getElem?_eq_none (by omega)]

theorem pushCopy_cycle {α : Type} (l : List α) (hl : l ≠ []) (i : Nat) : pushCopy (cycle l (l.length + i)) i = some (cycle l (l.length + (i + 1))) := by
  have hp : 0 < l.length := List.length_pos_of_ne_nil hl
  rw [pushCopy, cycle_get l hl _ _ (by omega), List.getElem?_eq_getElem (Nat.mod_lt i hp), Option.map_some, ← Nat.add_assoc, cycle, cycle, List.range_succ, List.filterMap_append]
  simp [List.getElem?_eq_getElem (Nat.mod_lt i hp)]

theorem again_fold (t : Tables K) (n : Nat) (h0 : t.nx ≠ []) (h1 : t.nx.length = n) (h2 : t.ny.length = n) (h3 : t.n.length = n) (h4 : t.space.length = n) (m : Nat) :
    (List.range m).foldlM pushAgain t = some ⟨cycle t.nx (n + m), cycle t.ny (n + m), cycle t.n (n + m), cycle t.space (n + m)⟩ := by
  have hn : n ≠ 0 := by rw [← h1]; exact fun h => h0 (List.length_eq_zero_iff.mp h)
  have g : ∀ {α : Type} (l : List α), l.length = n → l ≠ [] := fun l hl h => hn (by rw [← hl, h]; rfl)
  induction m with
  | zero =>
    simp only [List.range_zero, List.foldlM_nil, Nat.add_zero]
    have e1 := cycle_self t.nx
    have e2 := cycle_self t.ny
    have e3 := cycle_self t.n
    have e4 := cycle_self t.space
    rw [h1] at e1
    rw [h2] at e2
    rw [h3] at e3
    rw [h4] at e4
    rw [e1, e2, e3, e4]
    rfl
  | succ m ih =>
    rw [List.range_succ, List.foldlM_append, ih]
    have p1 := pushCopy_cycle t.nx (g _ h1) m
    have p2 := pushCopy_cycle t.ny (g _ h2) m
    have p3 := pushCopy_cycle t.n (g _ h3) m
    have p4 := pushCopy_cycle t.space (g _ h4) m
    rw [h1] at p1
    rw [h2] at p2
    rw [h3] at p3
    rw [h4] at p4
    simp [pushAgain, p1, p2, p3, p4]

/-- C123: the tables have an entry for each direction of four octants, the one of the direction with the same number in the first octant: counts (of the module times the modules in that
direction), their sum, and the spacing made from these counts. -/
theorem C123_tables (core : Bool) (mx my : Nat) (space : Nat → Nat → K) (Ns : List (Nat × Nat)) (hN : Ns ≠ []) :
    ∃ t, tables core mx my space Ns = some t ∧ t.nx.length = 4 * Ns.length ∧ t.ny.length = 4 * Ns.length ∧ t.n.length = 4 * Ns.length ∧ t.space.length = 4 * Ns.length ∧
      ∀ o < 4, ∀ i, (hi : i < Ns.length) → ∃ a b, a = (if core then Ns[i].1 else Ns[i].1 * mx) ∧ b = (if core then Ns[i].2 else Ns[i].2 * my) ∧
        t.nx[o * Ns.length + i]? = some a ∧ t.ny[o * Ns.length + i]? = some b ∧ t.n[o * Ns.length + i]? = some (a + b) ∧ t.space[o * Ns.length + i]? = some (space a b) := by
  unfold tables
  rw [push_fold]
  simp only [List.nil_append]
  rw [again_fold _ Ns.length (by simpa using hN) (by simp) (by simp) (by simp) (by simp)]
  have e : Ns.length + Ns.length * 3 = 4 * Ns.length := by omega
  have gl : ∀ {α : Type} (f : Nat × Nat → α), (cycle (Ns.map f) (4 * Ns.length)).length = 4 * Ns.length := fun f => cycle_length _ (by simpa using hN) _
  have gg : ∀ {α : Type} (f : Nat × Nat → α) (o i : Nat), o < 4 → (hi : i < Ns.length) → (cycle (Ns.map f) (4 * Ns.length))[o * Ns.length + i]? = some (f Ns[i]) := by
    intro α f o i ho hi
    rw [cycle_get _ (by simpa using hN) _ _ (by
      calc o * Ns.length + i < o * Ns.length + Ns.length := by omega
        _ = (o + 1) * Ns.length := by rw [Nat.add_mul, Nat.one_mul]
        _ ≤ 4 * Ns.length := Nat.mul_le_mul_right _ (by omega))]
    rw [List.length_map, Nat.mul_comm o, Nat.mul_add_mod, Nat.mod_eq_of_lt hi]
    simp [hi]
  refine ⟨_, rfl, ?_⟩
  rw [e]
  refine ⟨gl _, gl _, gl _, gl _, fun o ho i hi => ⟨_, _, rfl, rfl, gg _ o i ho hi, gg _ o i ho hi, gg _ o i ho hi, gg _ o i ho hi⟩⟩

end

/-! ### Warnings -/

theorem count_ray (r : List Nat) (c : Nat → Nat) (j : Nat) : (r.foldl (fun c i => fun j => if j = i then c j + 1 else c j) c) j = c j + r.count j := by
  induction r generalizing c with
  | nil => simp
  | cons i r ih =>
    rw [List.foldl_cons, ih, List.count_cons]
    by_cases h : j = i
    · subst h; simp; omega
    · have : (i == j) = false := by simpa using fun e => h e.symm
      simp [h, this]

theorem count_eq (rays : List (List Nat)) (c : Nat → Nat) (j : Nat) : count c rays j = c j + (rays.map fun r => r.count j).sum := by
  unfold count
  induction rays generalizing c with
  | nil => simp
  | cons r rays ih => rw [List.foldl_cons, ih, count_ray, List.map_cons, List.sum_cons, Nat.add_assoc]

theorem count_zero (rays : List (List Nat)) (c : Nat → Nat) (j : Nat) : count c rays j = 0 ↔ c j = 0 ∧ ∀ r ∈ rays, j ∉ r := by
  rw [count_eq, Nat.add_eq_zero_iff, List.sum_eq_zero_iff]
  simp [List.count_eq_zero]

/-- C123: the warning of an angle is about regions that neither this angle nor one before has crossed. -/
theorem C123_warn (nreg : Nat) (angles : List (List (List Nat))) (j : Nat) : (warnings nreg (fun _ => 0) angles)[j]? = some true ↔
    j < angles.length ∧ ∃ i < nreg, ∀ rays ∈ angles.take (j + 1), ∀ r ∈ rays, i ∉ r := by
  suffices h : ∀ (angles : List (List (List Nat))) (c : Nat → Nat) (j : Nat), (warnings nreg c angles)[j]? = some true ↔
      j < angles.length ∧ ∃ i < nreg, c i = 0 ∧ ∀ rays ∈ angles.take (j + 1), ∀ r ∈ rays, i ∉ r by
    simpa using h angles (fun _ => 0) j
  intro angles
  induction angles with
  | nil => intro c j; simp [warnings]
  | cons rays more ih =>
    intro c j
    rw [warnings]
    cases j with
    | zero =>
      rw [List.getElem?_cons_zero, Option.some.injEq, List.any_eq_true]
      simp only [List.mem_range, beq_iff_eq, count_zero]
      simp
    | succ j =>
      rw [List.getElem?_cons_succ, ih]
      simp only [List.length_cons, Nat.add_lt_add_iff_right, List.take_succ_cons, List.mem_cons, forall_eq_or_imp, count_zero, and_assoc]

/-- C123: so there is none at all exactly if the rays of the first angle cross every region, whatever those of the others do. -/
theorem C123_silent (nreg : Nat) (rays : List (List Nat)) (more : List (List (List Nat))) :
    (∀ w ∈ warnings nreg (fun _ => 0) (rays :: more), w = false) ↔ ∀ i < nreg, ∃ r ∈ rays, i ∈ r := by
  constructor
  · intro h i hi
    by_contra hc
    push Not at hc
    have := (C123_warn nreg (rays :: more) 0).mpr ⟨by simp, i, hi, by simpa using hc⟩
    have := h true (List.mem_of_getElem? this)
    cases this
  · intro h w hw
    by_contra hc
    have hw' : w = true := by simpa using hc
    subst hw'
    obtain ⟨j, hj⟩ := List.getElem?_of_mem hw
    obtain ⟨-, i, hi, hall⟩ := (C123_warn nreg (rays :: more) j).mp hj
    obtain ⟨r, hr, hir⟩ := h i hi
    exact hall rays (by simp) r hr hir

/-- The claim: each angle whose rays miss a region is warned about. -/
def C123_claim : Prop := ∀ (nreg : Nat) (angles : List (List (List Nat))) (j : Nat) (rays : List (List Nat)), angles[j]? = some rays →
  ((warnings nreg (fun _ => 0) angles)[j]? = some true ↔ ∃ i < nreg, ∀ r ∈ rays, i ∉ r)

/-- C123: it is false; the counts of the angles before are kept. -/
theorem C123_claim_false : ¬ C123_claim := by
  intro h
  have := (h 2 [[[0, 1]], [[0]]] 1 [[0]] rfl).mpr ⟨1, by decide, by simp⟩
  revert this
  decide

section
variable {K : Type} [Field K] [LinearOrder K] [IsStrictOrderedRing K]

open Verif.Moc

/-- C123: what the missed region loses: with flat correction and weights of sum two over the angles of two octants, a region has less than its area in the sum over the angles if the rays of
one of them miss it. -/
theorem C123_lost (trueVol : Nat → K) (as : List (AngleRays K)) (i : Nat) (hv : 0 < trueVol i) (hw : ∀ a ∈ as, 0 < a.weight) (hs : (as.map (·.weight)).sum = 2)
    (a : AngleRays K) (ha : a ∈ as) (hmiss : ∀ r ∈ a.rays, i ∉ r.segs.map (·.reg)) : weightedArea i (correctFlat trueVol as) < trueVol i := by
  have e : weightedArea i (correctFlat trueVol as) = (as.map fun a => a.weight / 2 * (lengthIn i (correctFlatAngle trueVol a).rays * a.space)).sum := by
    unfold weightedArea correctFlat
    rw [List.map_map]
    rfl
  have hz : lengthIn i a.rays = 0 := by
    refine List.sum_eq_zero fun y hy => ?_
    obtain ⟨r, hr, rfl⟩ := List.mem_map.mp hy
    refine List.sum_eq_zero fun y hy => ?_
    obtain ⟨s, hs, rfl⟩ := List.mem_map.mp hy
    exact if_neg fun h => hmiss r hr (List.mem_map.mpr ⟨s, hs, h⟩)
  have hle : ∀ b ∈ as, b.weight / 2 * (lengthIn i (correctFlatAngle trueVol b).rays * b.space) ≤ b.weight / 2 * trueVol i := by
    intro b hb
    have hb0 := hw b hb
    rcases C33_flat_any trueVol as i (correctFlatAngle trueVol b) (List.mem_map.mpr ⟨b, hb, rfl⟩) with h | h
    · exact le_of_eq (by rw [show lengthIn i (correctFlatAngle trueVol b).rays * b.space = trueVol i from h])
    · rw [show lengthIn i (correctFlatAngle trueVol b).rays * b.space = 0 from h, mul_zero]
      positivity
  have hlt : a.weight / 2 * (lengthIn i (correctFlatAngle trueVol a).rays * a.space) < a.weight / 2 * trueVol i := by
    have ha0 := hw a ha
    have : lengthIn i (correctFlatAngle trueVol a).rays = 0 := by
      rw [correctFlatAngle]
      dsimp only
      rw [lengthIn_scale, hz, zero_mul]
    rw [this, zero_mul, mul_zero]
    positivity
  rw [e]
  calc _ < (as.map fun b => b.weight / 2 * trueVol i).sum := List.sum_lt_sum _ _ hle ⟨a, ha, hlt⟩
    _ = (as.map (·.weight)).sum / 2 * trueVol i := by
      rw [List.sum_map_mul_right]
      congr 1
      clear e hz hle hlt hs ha hw
      induction as with
      | nil => simp
      | cons b l ih => rw [List.map_cons, List.sum_cons, ih, List.map_cons, List.sum_cons, add_div]
    _ = trueVol i := by rw [hs]; ring

end

/-- Two angles, the second with rays in region 0 only. -/
def demoMissed : List (Moc.AngleRays ℚ) := [⟨1, 1 / 2, [⟨[⟨0, 2⟩, ⟨1, 3⟩], 0, 1⟩]⟩, ⟨1, 1 / 3, [⟨[⟨0, 4⟩], 0, 1⟩]⟩]

/-- No warning, and region 1 has half of its area. -/
example : warnings 2 (fun _ => 0) (demoMissed.map fun a => a.rays.map fun r => r.segs.map (·.reg)) = [false, false] ∧
    Moc.weightedArea 1 (Moc.correctFlat (fun _ => 1) demoMissed) = 1 / 2 := by
  constructor
  · decide
  · decide +kernel

/-- The other way round there is a warning for the first angle only. -/
example : warnings 2 (fun _ => 0) (demoMissed.reverse.map fun a => a.rays.map fun r => r.segs.map (·.reg)) = [true, false] := by decide

/-- A node that is accepted, with an attribute nobody knows. -/
example : readOpts (Q := Unit) (K := ℚ) (fun s => s.length) true (some ⟨[("spacing".toList, "0.05".toList), ("modularity".toList, " PIN ".toList), ("color".toList, "red".toList)], none⟩) =
    some (⟨4, .flat, false, true⟩, 1) := by decide +kernel

example : (readOpts (Q := Unit) (K := ℚ) (fun s => s.length) false (some ⟨[("spacing".toList, "0.05".toList), ("modularity".toList, "pin".toList)], none⟩)) = none := by decide +kernel

example : ((tables false 3 2 (fun a b => a + 10 * b) [(1, 2), (2, 1)]).map fun t => (t.nx, t.ny, t.n, t.space)) =
    some ([3, 6, 3, 6, 3, 6, 3, 6], [4, 2, 4, 2, 4, 2, 4, 2], [7, 8, 7, 8, 7, 8, 7, 8], [43, 26, 43, 26, 43, 26, 43, 26]) := by decide

end Verif.Rays.Options
