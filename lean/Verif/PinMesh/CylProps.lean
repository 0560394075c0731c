import Verif.PinMesh.Model
import Mathlib.Analysis.Real.Sqrt
import Mathlib.Analysis.SpecialFunctions.Trigonometric.Basic
import Mathlib.Analysis.Real.Pi.Bounds
import Mathlib.Algebra.BigOperators.Group.List.Basic
import Mathlib.Tactic.Ring
import Mathlib.Tactic.Linarith
import Mathlib.Tactic.NormNum
import Mathlib.Tactic.FieldSimp
import Mathlib.Tactic.Positivity

/-! # C67: rings and areas of the cylindrical pin mesh -/

namespace Verif.PinMesh

open Verif.Geom

/-- Radii that divide the ring between `r0` and `r` into `n` rings of equal area. -/
noncomputable def equalRings (r0 r : ℝ) (n : Nat) : List ℝ :=
  (List.range n).map fun k : Nat => Real.sqrt (r0 ^ 2 + ((k : ℝ) + 1) * ((r ^ 2 - r0 ^ 2) / n))

/-- The mesh radii asked for: each material ring divided into rings of equal area. -/
noncomputable def wanted : List (ℝ × Nat) → ℝ → List ℝ
  | [], _ => []
  | (r, n) :: rest, r0 => equalRings r0 r n ++ wanted rest r

theorem ringLoop_eq (vn : ℝ) (hv : 0 ≤ vn) (n : Nat) (ri : ℝ) (hr : 0 ≤ ri) :
    ringLoop Real.sqrt vn n ri = ((List.range n).map (fun k : Nat => Real.sqrt (ri ^ 2 + (k + 1) * vn)),
      Real.sqrt (ri ^ 2 + n * vn)) := by
  induction n generalizing ri with
  | zero =>
    simp only [ringLoop, List.range_zero, List.map_nil, Nat.cast_zero, zero_mul, add_zero, Real.sqrt_sq hr]
  | succ n ih =>
    have hs : Real.sqrt (vn + ri * ri) ^ 2 = vn + ri * ri := Real.sq_sqrt (by nlinarith [mul_self_nonneg ri])
    rw [ringLoop, ih (Real.sqrt (vn + ri * ri)) (Real.sqrt_nonneg _), hs]
    simp only [Prod.mk.injEq]
    constructor
    · rw [List.range_succ_eq_map, List.map_cons, List.map_map]
      congr 1
      · congr 1; push_cast; ring
      · apply List.map_congr_left
        intro k _
        simp only [Function.comp]
        congr 1; push_cast; ring
    · congr 1; push_cast; ring

/-- Every count is positive and the radii are not decreasing from `r0`. -/
def Proper : List (ℝ × Nat) → ℝ → Prop
  | [], _ => True
  | (r, n) :: rest, r0 => r0 ≤ r ∧ 1 ≤ n ∧ Proper rest r

theorem radiiLoop_eq (l : List (ℝ × Nat)) (r0 : ℝ) (h0 : 0 ≤ r0) (h : Proper l r0) :
    radiiLoop Real.sqrt (l.map fun q => (q.1, (q.2 : Int))) r0 r0 = wanted l r0 := by
  induction l generalizing r0 with
  | nil => rfl
  | cons q rest ih =>
    obtain ⟨r, n⟩ := q
    obtain ⟨h1, h2, h3⟩ := h
    have hn : (0 : ℝ) < n := by exact_mod_cast h2
    have hv : 0 ≤ (r * r - r0 * r0) / (n : ℝ) := div_nonneg (by nlinarith) hn.le
    simp only [List.map_cons, radiiLoop, wanted, Int.cast_natCast, Int.toNat_natCast]
    rw [ringLoop_eq _ hv n r0 h0]
    have hlast : Real.sqrt (r0 ^ 2 + n * ((r * r - r0 * r0) / n)) = r := by
      rw [mul_div_cancel₀ _ (ne_of_gt hn), show r0 ^ 2 + (r * r - r0 * r0) = r ^ 2 by ring, Real.sqrt_sq (le_trans h0 h1)]
    simp only [hlast, ih r (le_trans h0 h1) h3]
    congr 1
    unfold equalRings
    apply List.map_congr_left
    intro k _
    congr 2; ring

/-- Input as intended: a positive pitch, radii between zero and half of it in order, a positive number of rings for each, and
an even number of sectors up to 8. -/
structure Input (pitch : ℝ) (rings : List (ℝ × Nat)) (nAzi : Nat) : Prop where
  pitchPos : 0 < pitch
  proper : Proper rings 0
  nonempty : rings ≠ []
  fits : ∀ q ∈ rings, q.1 ≤ pitch / 2
  even : nAzi % 2 = 0
  pos : 1 ≤ nAzi
  le : nAzi ≤ 8

theorem proper_ordered (l : List (ℝ × Nat)) (r0 : ℝ) (h : Proper l r0) : ordered (l.map Prod.fst) = true := by
  induction l generalizing r0 with
  | nil => rfl
  | cons q rest ih =>
    cases rest with
    | nil => rfl
    | cons q' rest' =>
      simp only [List.map_cons, ordered, Bool.and_eq_true, decide_eq_true_eq]
      exact ⟨h.2.2.1, ih q.1 h.2.2⟩

/-- The mesh built from intended input. -/
noncomputable def built (pitch : ℝ) (rings : List (ℝ × Nat)) (nAzi : Nat) : Cyl ℝ :=
  ⟨pitch, rings.map Prod.fst, rings.map (fun q => (q.2 : Int)), nAzi, wanted rings 0⟩

theorem zip_maps (l : List (ℝ × Nat)) : (l.map Prod.fst).zip (l.map fun q => (q.2 : Int)) = l.map fun q => (q.1, (q.2 : Int)) := by
  induction l with
  | nil => rfl
  | cons q rest ih => simp only [List.map_cons, List.zip_cons_cons, ih]

/-- C67: whatever is accepted has a positive pitch, radii that fit the pin, an even number of sectors up to 8, and one number of rings for
each radius; these are stored as given. -/
theorem C67_accepted (pitch : ℝ) (xsRadii : List ℝ) (subAzi : Int) (subRad : List Int) (m : Cyl ℝ)
    (h : mkCyl Real.sqrt pitch xsRadii subAzi subRad = some m) :
    0 < pitch ∧ (∃ last, xsRadii.getLast? = some last ∧ last ≤ pitch / 2) ∧ subAzi % 2 = 0 ∧ subAzi ≤ 8 ∧
    subRad.length = xsRadii.length ∧ m.pitch = pitch ∧ m.xsRadii = xsRadii ∧ m.subRad = subRad ∧ m.nAzi = subAzi := by
  unfold mkCyl at h
  by_cases h1 : pitch ≤ 0
  · rw [if_pos h1] at h; cases h
  rw [if_neg h1] at h
  cases hl : xsRadii.getLast? with
  | none => rw [hl] at h; cases h
  | some last =>
    rw [hl] at h
    simp only at h
    split_ifs at h with h2 h3 h4 h5
    obtain rfl := Option.some.inj h
    push Not at h4 h5
    exact ⟨not_le.mp h1, ⟨last, rfl, by linarith [not_lt.mp h3]⟩, h4.1, h4.2, h5, rfl, rfl, rfl, rfl⟩

/-- C67: intended input is accepted, and the mesh radii divide every material ring into rings of equal area. -/
theorem C67_built_partial (pitch : ℝ) (rings : List (ℝ × Nat)) (nAzi : Nat) (h : Input pitch rings nAzi) :
    mkCyl Real.sqrt pitch (rings.map Prod.fst) nAzi (rings.map (fun q => (q.2 : Int))) = some (built pitch rings nAzi) := by
  unfold mkCyl
  rw [if_neg (not_le.mpr h.pitchPos)]
  have hl : (rings.map Prod.fst).getLast? = some ((rings.map Prod.fst).getLast (by simpa using h.nonempty)) :=
    List.getLast?_eq_some_getLast _
  rw [hl]
  simp only []
  have hm := List.getLast_mem (l := rings.map Prod.fst) (by simpa using h.nonempty)
  obtain ⟨q, hq, e⟩ := List.mem_map.mp hm
  rw [if_neg (by rw [proper_ordered rings 0 h.proper]; simp), if_neg (by
    rw [← e, not_lt]; linarith [h.fits q hq]), if_neg (by
    have h1 := h.even
    have h2 := h.le
    intro hh
    rcases hh with hh | hh <;> omega), if_neg (by simp)]
  congr 1
  unfold built
  congr 1
  rw [← radiiLoop_eq rings 0 (le_refl 0) h.proper]
  congr 1
  exact zip_maps rings

/-- Every material radius is a mesh radius. -/
theorem wanted_mem (l : List (ℝ × Nat)) (r0 : ℝ) (h0 : 0 ≤ r0) (h : Proper l r0) (q : ℝ × Nat) (hq : q ∈ l) :
    q.1 ∈ wanted l r0 := by
  induction l generalizing r0 with
  | nil => cases hq
  | cons q' rest ih =>
    obtain ⟨r, n⟩ := q'
    obtain ⟨h1, h2, h3⟩ := h
    have hn : (0 : ℝ) < n := by exact_mod_cast h2
    rw [wanted, List.mem_append]
    rcases List.mem_cons.mp hq with rfl | hq
    · left
      unfold equalRings
      rw [List.mem_map]
      refine ⟨n - 1, by rw [List.mem_range]; omega, ?_⟩
      have : ((n - 1 : Nat) : ℝ) + 1 = n := by
        rw [← Nat.cast_succ, show (n - 1).succ = n by omega]
      rw [this, mul_div_cancel₀ _ (ne_of_gt hn), show r0 ^ 2 + (r ^ 2 - r0 ^ 2) = r ^ 2 by ring,
        Real.sqrt_sq (le_trans h0 h1)]
    · right
      exact ih r (le_trans h0 h1) h3 hq

/-- C67: so no ring of the mesh lies across a material boundary. -/
theorem C67_material_radii (pitch : ℝ) (rings : List (ℝ × Nat)) (nAzi : Nat) (h : Input pitch rings nAzi) (r : ℝ)
    (hr : r ∈ (built pitch rings nAzi).xsRadii) : r ∈ (built pitch rings nAzi).radii := by
  obtain ⟨q, hq, rfl⟩ := List.mem_map.mp hr
  exact wanted_mem rings 0 (le_refl 0) h.proper q hq

theorem wanted_ge (l : List (ℝ × Nat)) (r0 : ℝ) (h0 : 0 ≤ r0) (h : Proper l r0) (x : ℝ) (hx : x ∈ wanted l r0) : r0 ≤ x := by
  induction l generalizing r0 with
  | nil => cases hx
  | cons q rest ih =>
    obtain ⟨r, n⟩ := q
    obtain ⟨h1, h2, h3⟩ := h
    rw [wanted, List.mem_append] at hx
    rcases hx with hx | hx
    · unfold equalRings at hx
      obtain ⟨k, _, rfl⟩ := List.mem_map.mp hx
      apply Real.le_sqrt_of_sq_le
      have : 0 ≤ ((k : ℝ) + 1) * ((r ^ 2 - r0 ^ 2) / n) := by
        apply mul_nonneg (by positivity)
        exact div_nonneg (by nlinarith) (Nat.cast_nonneg n)
      linarith
    · exact le_trans h1 (ih r (le_trans h0 h1) h3 hx)

theorem equalRings_le (r0 r : ℝ) (n : Nat) (h0 : 0 ≤ r0) (h1 : r0 ≤ r) (hn : 1 ≤ n) (x : ℝ) (hx : x ∈ equalRings r0 r n) : x ≤ r := by
  unfold equalRings at hx
  obtain ⟨k, hk, rfl⟩ := List.mem_map.mp hx
  have hn' : (0 : ℝ) < n := by exact_mod_cast hn
  have hk' : (k : ℝ) + 1 ≤ n := by exact_mod_cast List.mem_range.mp hk
  rw [show r = Real.sqrt (r ^ 2) from (Real.sqrt_sq (le_trans h0 h1)).symm]
  apply Real.sqrt_le_sqrt
  rw [Real.sqrt_sq (le_trans h0 h1)]
  have h2 : 0 ≤ (r ^ 2 - r0 ^ 2) / n := div_nonneg (by nlinarith) hn'.le
  have h3 : ((k : ℝ) + 1) * ((r ^ 2 - r0 ^ 2) / n) ≤ n * ((r ^ 2 - r0 ^ 2) / n) := mul_le_mul_of_nonneg_right hk' h2
  rw [mul_div_cancel₀ _ (ne_of_gt hn')] at h3
  linarith

theorem wanted_sorted (l : List (ℝ × Nat)) (r0 : ℝ) (h0 : 0 ≤ r0) (h : Proper l r0) : (wanted l r0).Pairwise (· ≤ ·) := by
  induction l generalizing r0 with
  | nil => exact List.Pairwise.nil
  | cons q rest ih =>
    obtain ⟨r, n⟩ := q
    obtain ⟨h1, h2, h3⟩ := h
    rw [wanted, List.pairwise_append]
    refine ⟨?_, ih r (le_trans h0 h1) h3, ?_⟩
    · unfold equalRings
      rw [List.pairwise_map]
      apply List.Pairwise.imp _ List.pairwise_lt_range
      intro a b hab
      apply Real.sqrt_le_sqrt
      have h4 : 0 ≤ (r ^ 2 - r0 ^ 2) / (n : ℝ) := div_nonneg (by nlinarith) (Nat.cast_nonneg n)
      have h5 : (a : ℝ) + 1 ≤ b + 1 := by
        have : (a : ℝ) ≤ b := by exact_mod_cast hab.le
        linarith
      linarith [mul_le_mul_of_nonneg_right h5 h4]
    · intro a ha b hb
      exact le_trans (equalRings_le r0 r n h0 h1 h2 a ha) (wanted_ge rest r (le_trans h0 h1) h3 b hb)

theorem wanted_bound (l : List (ℝ × Nat)) (r0 R : ℝ) (h0 : 0 ≤ r0) (h : Proper l r0) (hb : ∀ q ∈ l, q.1 ≤ R) (x : ℝ)
    (hx : x ∈ wanted l r0) : x ≤ R := by
  induction l generalizing r0 with
  | nil => cases hx
  | cons q rest ih =>
    obtain ⟨r, n⟩ := q
    obtain ⟨h1, h2, h3⟩ := h
    rw [wanted, List.mem_append] at hx
    rcases hx with hx | hx
    · exact le_trans (equalRings_le r0 r n h0 h1 h2 x hx) (hb (r, n) List.mem_cons_self)
    · exact ih r (le_trans h0 h1) h3 (fun q hq => hb q (List.mem_cons_of_mem _ hq)) hx

/-- C67: the mesh radii are not negative, in order, and at most half the pitch. -/
theorem C67_radii_order (pitch : ℝ) (rings : List (ℝ × Nat)) (nAzi : Nat) (h : Input pitch rings nAzi) :
    (built pitch rings nAzi).radii.Pairwise (· ≤ ·) ∧
    ∀ r ∈ (built pitch rings nAzi).radii, 0 ≤ r ∧ r ≤ pitch / 2 :=
  ⟨wanted_sorted rings 0 (le_refl 0) h.proper, fun r hr => ⟨wanted_ge rings 0 (le_refl 0) h.proper r hr,
    wanted_bound rings 0 (pitch / 2) (le_refl 0) h.proper h.fits r hr⟩⟩

theorem ringAreas_sum (pi : ℝ) (nAzi : Nat) (hn : 1 ≤ nAzi) (l : List ℝ) (prev : ℝ) :
    (ringAreas pi nAzi l prev).sum = pi * ((l.getLast?.getD prev) ^ 2 - prev ^ 2) := by
  have hn' : (nAzi : ℝ) ≠ 0 := by
    have : (0 : ℝ) < nAzi := by exact_mod_cast hn
    exact ne_of_gt this
  induction l generalizing prev with
  | nil => simp [ringAreas]
  | cons r rs ih =>
    rw [ringAreas, List.sum_append, List.sum_replicate, ih, nsmul_eq_mul, Int.toNat_natCast, Int.cast_natCast,
      mul_div_cancel₀ _ hn']
    have : (r :: rs).getLast?.getD prev = rs.getLast?.getD r := by
      cases rs with
      | nil => rfl
      | cons a b => simp [List.getLast?_eq_some_getLast]
    rw [this]
    ring

/-- C67: whatever the radii, the areas add up to the area of the pin, and there is one for every region. -/
theorem C67_areas_sum (m : Cyl ℝ) (n : Nat) (hn : 1 ≤ n) (hm : m.nAzi = n) (l : List ℝ) (h : m.areas Real.pi = some l) :
    l.sum = m.pitch * m.pitch ∧ (l.length : Int) = m.nReg := by
  unfold Cyl.areas at h
  cases e : m.radii.getLast? with
  | none => rw [e] at h; cases h
  | some large =>
    rw [e] at h
    have h' : ringAreas Real.pi m.nAzi m.radii 0 ++
      List.replicate m.nAzi.toNat ((m.pitch * m.pitch - Real.pi * large * large) / (m.nAzi : ℝ)) = l := by simpa using h
    have hn' : (n : ℝ) ≠ 0 := by
      have : (0 : ℝ) < n := by exact_mod_cast hn
      exact ne_of_gt this
    rw [← h', hm]
    constructor
    · rw [List.sum_append, ringAreas_sum _ n hn, e, List.sum_replicate, nsmul_eq_mul, Int.toNat_natCast, Int.cast_natCast,
        mul_div_cancel₀ _ hn', Option.getD_some]
      ring
    · have len : ∀ (rs : List ℝ) (prev : ℝ), (ringAreas Real.pi (n : Int) rs prev).length = rs.length * n := by
        intro rs
        induction rs with
        | nil => intro; simp [ringAreas]
        | cons r rs ih => intro prev; rw [ringAreas, List.length_append, List.length_replicate, ih]; simp; ring
      rw [List.length_append, len, List.length_replicate, Cyl.nReg, hm]
      push_cast
      simp
      ring

theorem ringAreas_nonneg (pi : ℝ) (hp : 0 ≤ pi) (nAzi : Nat) (l : List ℝ) (prev : ℝ) (h0 : 0 ≤ prev) (hs : l.Pairwise (· ≤ ·))
    (hl : ∀ r ∈ l, prev ≤ r) (a : ℝ) (ha : a ∈ ringAreas pi nAzi l prev) : 0 ≤ a := by
  induction l generalizing prev with
  | nil => cases ha
  | cons r rs ih =>
    rw [ringAreas, List.mem_append] at ha
    have hr := hl r List.mem_cons_self
    rcases ha with ha | ha
    · rw [List.eq_of_mem_replicate ha]
      apply div_nonneg _ (by exact_mod_cast Nat.cast_nonneg nAzi)
      apply mul_nonneg hp
      nlinarith
    · exact ih r (le_trans h0 hr) (List.pairwise_cons.mp hs).2 (fun x hx => (List.pairwise_cons.mp hs).1 x hx) ha

/-- C67: for intended input no area is negative. -/
theorem C67_areas_nonneg (pitch : ℝ) (rings : List (ℝ × Nat)) (nAzi : Nat) (h : Input pitch rings nAzi) (l : List ℝ)
    (hl : (built pitch rings nAzi).areas Real.pi = some l) (a : ℝ) (ha : a ∈ l) : 0 ≤ a := by
  obtain ⟨hsort, hbd⟩ := C67_radii_order pitch rings nAzi h
  unfold Cyl.areas at hl
  cases e : (built pitch rings nAzi).radii.getLast? with
  | none => rw [e] at hl; cases hl
  | some large =>
    rw [e] at hl
    have hl' : ringAreas Real.pi nAzi (built pitch rings nAzi).radii 0 ++
      List.replicate nAzi ((pitch * pitch - Real.pi * large * large) / (nAzi : ℝ)) = l := by
      simpa [built] using hl
    rw [← hl', List.mem_append] at ha
    rcases ha with ha | ha
    · exact ringAreas_nonneg Real.pi Real.pi_pos.le nAzi _ 0 (le_refl 0) hsort (fun r hr => (hbd r hr).1) a ha
    · rw [List.eq_of_mem_replicate ha]
      apply div_nonneg _ (Nat.cast_nonneg nAzi)
      obtain ⟨b1, b2⟩ := hbd large (List.mem_of_getLast? e)
      have hp := h.pitchPos
      have h4 := Real.pi_lt_four
      have h5 : large * large ≤ pitch / 2 * (pitch / 2) := mul_le_mul b2 b2 b1 (by linarith)
      have h6 : Real.pi * (large * large) ≤ 4 * (pitch / 2 * (pitch / 2)) :=
        mul_le_mul h4.le h5 (mul_nonneg b1 b1) (by norm_num)
      nlinarith

/-- C67: within a material ring all the regions have the same area. -/
theorem C67_equal_area (r0 r : ℝ) (h0 : 0 ≤ r0) (h1 : r0 ≤ r) (n nAzi : Nat) (a : ℝ)
    (ha : a ∈ ringAreas Real.pi nAzi (equalRings r0 r n) r0) : a = Real.pi * ((r ^ 2 - r0 ^ 2) / n) / nAzi := by
  have hv : 0 ≤ (r ^ 2 - r0 ^ 2) / (n : ℝ) := div_nonneg (by nlinarith) (Nat.cast_nonneg n)
  have gen : ∀ (k : Nat) (v s : ℝ), 0 ≤ v → 0 ≤ s → ∀ a ∈ ringAreas Real.pi nAzi
      ((List.range k).map fun j : Nat => Real.sqrt (s ^ 2 + ((j : ℝ) + 1) * v)) s, a = Real.pi * v / nAzi := by
    intro k
    induction k with
    | zero => intro v s _ _ a ha; simp [ringAreas] at ha
    | succ k ih =>
      intro v s hv hs a ha
      rw [List.range_succ_eq_map, List.map_cons, List.map_map, ringAreas, List.mem_append] at ha
      have hq : Real.sqrt (s ^ 2 + (((0 : Nat) : ℝ) + 1) * v) ^ 2 = s ^ 2 + v := by
        rw [Real.sq_sqrt (by positivity)]; push_cast; ring
      rcases ha with ha | ha
      · rw [List.eq_of_mem_replicate ha, ← sq, hq, Int.cast_natCast]
        congr 1; ring
      · refine ih v _ hv (Real.sqrt_nonneg (s ^ 2 + (((0 : Nat) : ℝ) + 1) * v)) a ?_
        rw [hq]
        convert ha using 2
        apply List.map_congr_left
        intro j _
        simp only [Function.comp]
        congr 1; push_cast; ring
  exact gen n _ r0 hv h0 a ha

theorem wanted_length (l : List (ℝ × Nat)) (r0 : ℝ) : (wanted l r0).length = (l.map Prod.snd).sum := by
  induction l generalizing r0 with
  | nil => rfl
  | cons q rest ih => obtain ⟨r, n⟩ := q; simp [wanted, equalRings, ih]

/-- C67: the numbers of regions per material ring add up to the number of regions. -/
theorem C67_fsrs (pitch : ℝ) (rings : List (ℝ × Nat)) (nAzi : Nat) :
    ((List.range (rings.length + 1)).map (built pitch rings nAzi).nFsrs).sum = (built pitch rings nAzi).nReg := by
  have key : ∀ l : List (ℝ × Nat), ((List.range l.length).map fun i =>
      (match (l.map fun q => (q.2 : Int))[i]? with | some s => s * (nAzi : Int) | none => (nAzi : Int))).sum =
      ((l.map Prod.snd).sum : Nat) * (nAzi : Int) := by
    intro l
    induction l with
    | nil => simp
    | cons q rest ih =>
      rw [List.length_cons, List.range_succ_eq_map, List.map_cons, List.map_map, List.sum_cons]
      simp only [Function.comp_def, List.map_cons, List.getElem?_cons_zero, List.getElem?_cons_succ, Nat.succ_eq_add_one]
      rw [ih, List.sum_cons]
      push_cast
      ring
  rw [List.range_succ, List.map_append, List.sum_append]
  have h1 : ((List.range rings.length).map (built pitch rings nAzi).nFsrs).sum = ((rings.map Prod.snd).sum : Nat) * (nAzi : Int) :=
    key rings
  rw [h1]
  have h2 : (built pitch rings nAzi).nFsrs rings.length = nAzi := by
    simp [Cyl.nFsrs, built]
  simp only [List.map_cons, List.map_nil, List.sum_cons, List.sum_nil, h2, add_zero]
  simp only [Cyl.nReg, built, wanted_length]
  push_cast
  ring

/-- C67, the full claim: whatever input is accepted, every material radius is a mesh radius and there are regions. -/
def C67_claim : Prop := ∀ (pitch : ℝ) (xs : List ℝ) (azi : Int) (sub : List Int) (m : Cyl ℝ),
  mkCyl Real.sqrt pitch xs azi sub = some m → (∀ r ∈ xs, r ∈ m.radii) ∧ 0 < m.nReg

/-- C67: a material ring with no mesh ring is accepted, and the next one then starts from the wrong radius. -/
theorem C67_zero_rings (pitch : ℝ) (hp : 4 ≤ pitch) :
    ∃ m, mkCyl Real.sqrt pitch [1, 2] 4 [0, 1] = some m ∧ m.radii = [Real.sqrt 3] := by
  refine ⟨⟨pitch, [1, 2], [0, 1], 4, [Real.sqrt 3]⟩, ?_, rfl⟩
  unfold mkCyl
  have ho : ordered ([1, 2] : List ℝ) = true := by simp [ordered]
  have hr : radiiLoop Real.sqrt ([1, 2].zip [0, 1]) 0 0 = [Real.sqrt 3] := by
    simp only [List.zip_cons_cons, List.zip_nil_right, radiiLoop, ringLoop, Int.toNat_zero, Int.toNat_one, List.nil_append, List.append_nil]
    norm_num
  have hl : ([1, 2] : List ℝ).getLast? = some 2 := rfl
  rw [if_neg (by linarith), hl]
  simp only [ho, hr]
  rw [if_neg (by simp), if_neg (by linarith), if_neg (by decide), if_neg (by simp)]

/-- C67 is false. -/
theorem C67_claim_false : ¬ C67_claim := by
  intro h
  obtain ⟨m, e, hr⟩ := C67_zero_rings 4 (le_refl 4)
  have := (h 4 [1, 2] 4 [0, 1] m e).1 2 (by simp)
  rw [hr, List.mem_singleton] at this
  have h4 : (2 : ℝ) ^ 2 = 3 := by rw [this, Real.sq_sqrt (by norm_num)]
  norm_num at h4

/-- C67: zero or a negative even number of sectors is accepted as well; there are then no regions. -/
theorem C67_no_sectors (k : Nat) : ∃ m, mkCyl Real.sqrt 4 [1] (-(2 * k : Int)) [1] = some m ∧ m.nReg ≤ 0 := by
  refine ⟨⟨4, [1], [1], -(2 * k : Int), radiiLoop Real.sqrt ([1].zip [1]) 0 0⟩, ?_, ?_⟩
  · unfold mkCyl
    have hl : ([1] : List ℝ).getLast? = some 1 := rfl
    rw [if_neg (by norm_num), hl]
    have ho : ordered ([1] : List ℝ) = true := rfl
    simp only []
    rw [if_neg (by rw [ho]; simp), if_neg (by norm_num), if_neg (by omega), if_neg (by simp)]
  · unfold Cyl.nReg
    apply mul_nonpos_of_nonneg_of_nonpos
    · positivity
    · simp only []; omega

/-- Area of a polygon by the shoelace formula: sum over the edges. -/
noncomputable def edgeSum : Pt ℝ → List (Pt ℝ) → Pt ℝ → ℝ
  | p, [], q => p.x * q.y - q.x * p.y
  | p, r :: rs, q => p.x * r.y - r.x * p.y + edgeSum r rs q

noncomputable def polygon : List (Pt ℝ) → ℝ
  | [] => 0
  | p :: ps => 1 / 2 * edgeSum p ps p

/-- C67: with eight sectors the outer regions have the area given to them: an eighth of the square of half width `h` is the
triangle between the positive x axis and the diagonal. -/
theorem C67_eighths (h R : ℝ) :
    polygon [⟨0, 0⟩, ⟨h, 0⟩, ⟨h, h⟩] - Real.pi * R ^ 2 / 8 = ((2 * h) * (2 * h) - Real.pi * R * R) / 8 := by
  simp only [polygon, edgeSum]; ring

/-- C67: with six sectors, which are accepted too, they do not: the sector between the x axis and the ray at 60 degrees
reaches the boundary of the square at `(h / sqrt 3, h)`, and its part of the square is larger than a sixth. -/
theorem C67_sixths (h R : ℝ) (hh : 0 < h) :
    h / Real.sqrt 3 * Real.sin (Real.pi / 3) = h * Real.cos (Real.pi / 3) ∧
    ((2 * h) * (2 * h) - Real.pi * R * R) / 6 < polygon [⟨0, 0⟩, ⟨h, 0⟩, ⟨h, h⟩, ⟨h / Real.sqrt 3, h⟩] - Real.pi * R ^ 2 / 6 := by
  have h3 : Real.sqrt 3 ^ 2 = 3 := Real.sq_sqrt (by norm_num)
  have hp : 0 < Real.sqrt 3 := Real.sqrt_pos.mpr (by norm_num)
  constructor
  · rw [Real.sin_pi_div_three, Real.cos_pi_div_three]; field_simp
  · have e : polygon [⟨0, 0⟩, ⟨h, 0⟩, ⟨h, h⟩, ⟨h / Real.sqrt 3, h⟩] = h * h - h * (h / Real.sqrt 3) / 2 := by
      simp only [polygon, edgeSum]; ring
    rw [e]
    have h32 : 3 / 2 < Real.sqrt 3 := by
      apply Real.lt_sqrt_of_sq_lt; norm_num
    have h5 : h / Real.sqrt 3 < h * (2 / 3) := by
      rw [div_lt_iff₀ hp]; nlinarith
    nlinarith

/-- Intended input exists: the pin of the C5G7 benchmark, two rings of two and three. -/
example : Input (63 / 50) [(27 / 100, 2), (54 / 100, 3)] 8 := by
  refine ⟨by norm_num, ?_, by simp, ?_, by norm_num, by norm_num, by norm_num⟩
  · norm_num [Proper]
  · intro q hq
    simp only [List.mem_cons, List.not_mem_nil, or_false] at hq
    rcases hq with rfl | rfl <;> norm_num

end Verif.PinMesh
