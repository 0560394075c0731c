import Verif.PinFlux.Model
import Mathlib.Algebra.BigOperators.Group.List.Basic
import Mathlib.Algebra.BigOperators.Ring.List
import Mathlib.Data.List.Nodup
import Mathlib.Algebra.Order.Ring.Rat
import Mathlib.Algebra.Order.Field.Rat
import Mathlib.Algebra.Field.Rat
import Mathlib.Tactic.Ring
import Mathlib.Tactic.Linarith
import Mathlib.Tactic.FieldSimp
import Mathlib.Tactic.NormNum

/-!
# C36: setting a pin flux makes it the pin flux
-/

set_option linter.unusedSectionVars false

namespace Verif.PinFlux

variable {K : Type} [Field K] [LinearOrder K]

/-! ### The visited pins -/

theorem planeVisits_bounds (iz : Nat) (mp : MacroPlane K) (pins : List (Pin K)) (r : Nat) :
    ∀ v ∈ planeVisits iz mp pins r, v.iz = iz ∧ v.plane = mp ∧ v.pin ∈ pins ∧ r ≤ v.ireg ∧
      v.ireg + v.pin.areas.length ≤ r + (pins.map (·.areas.length)).sum := by
  induction pins generalizing r with
  | nil => intro v hv; simp [planeVisits] at hv
  | cons p ps ih =>
    intro v hv
    rw [planeVisits, List.mem_cons] at hv
    rw [List.map_cons, List.sum_cons]
    rcases hv with rfl | hv
    · exact ⟨rfl, rfl, by simp, le_rfl, by simp only; omega⟩
    · obtain ⟨a, b, c, d, e⟩ := ih _ v hv
      exact ⟨a, b, by simp [c], by omega, by omega⟩

theorem visits_bounds (ps : List (MacroPlane K)) (iz r : Nat) :
    ∀ v ∈ visits ps iz r, iz ≤ v.iz ∧ r ≤ v.ireg ∧ v.plane ∈ ps ∧ v.pin ∈ v.plane.pins ∧
      ps[v.iz - iz]? = some v.plane := by
  induction ps generalizing iz r with
  | nil => intro v hv; simp [visits] at hv
  | cons mp mps ih =>
    intro v hv
    rw [visits, List.mem_append] at hv
    rcases hv with hv | hv
    · obtain ⟨a, b, c, d, _⟩ := planeVisits_bounds _ _ _ _ v hv
      refine ⟨a.ge, d, by simp [b], by rw [b]; exact c, ?_⟩
      rw [a, b, Nat.sub_self]; rfl
    · obtain ⟨a, b, c, d, e⟩ := ih _ _ v hv
      refine ⟨by omega, by omega, by simp [c], d, ?_⟩
      rw [show v.iz - iz = (v.iz - (iz + 1)) + 1 by omega, List.getElem?_cons_succ]
      exact e

/-- Regions of later visits come later. -/
def Before (v w : Visit K) : Prop := v.ireg + v.pin.areas.length ≤ w.ireg

theorem planeVisits_before (iz : Nat) (mp : MacroPlane K) (pins : List (Pin K)) (r : Nat) :
    (planeVisits iz mp pins r).Pairwise Before := by
  induction pins generalizing r with
  | nil => simp [planeVisits]
  | cons p ps ih =>
    rw [planeVisits, List.pairwise_cons]
    exact ⟨fun w hw => (planeVisits_bounds _ _ _ _ w hw).2.2.2.1, ih _⟩

theorem visits_before (ps : List (MacroPlane K)) (iz r : Nat) : (visits ps iz r).Pairwise Before := by
  induction ps generalizing iz r with
  | nil => simp [visits]
  | cons mp mps ih =>
    rw [visits, List.pairwise_append]
    refine ⟨planeVisits_before _ _ _ _, ih _ _, ?_⟩
    intro v hv w hw
    have h1 := (planeVisits_bounds _ _ _ _ v hv).2.2.2.2
    have h2 := (visits_bounds _ _ _ w hw).2.1
    exact le_trans h1 h2

/-- Geometry of the pins of a macroplane: every coarse cell of the plane holds at most one pin. -/
def PinsOk (n2 : Nat) (ps : List (MacroPlane K)) : Prop :=
  ∀ mp ∈ ps, (mp.pins.map (·.cell)).Nodup ∧ ∀ p ∈ mp.pins, p.cell < n2

/-- Coarse index of a visited pin on the macroplane grid. -/
def idx (n2 : Nat) (v : Visit K) : Nat := v.pin.cell + n2 * v.iz

theorem planeVisits_idx (n2 iz : Nat) (mp : MacroPlane K) (pins : List (Pin K)) (r : Nat)
    (h : (pins.map (·.cell)).Nodup) :
    (planeVisits iz mp pins r).Pairwise (fun v w => idx n2 v ≠ idx n2 w) := by
  induction pins generalizing r with
  | nil => simp [planeVisits]
  | cons p ps ih =>
    rw [List.map_cons, List.nodup_cons] at h
    rw [planeVisits, List.pairwise_cons]
    refine ⟨fun w hw => ?_, ih _ h.2⟩
    obtain ⟨a, _, c, _⟩ := planeVisits_bounds _ _ _ _ w hw
    intro e
    simp only [idx, a] at e
    exact h.1 (List.mem_map.mpr ⟨w.pin, c, by omega⟩)

theorem idx_ne (n2 : Nat) (v w : Visit K) (hv : v.pin.cell < n2) (hw : w.pin.cell < n2) (h : v.iz < w.iz) :
    idx n2 v ≠ idx n2 w := by
  unfold idx
  have h2 := Nat.mul_le_mul (Nat.le_refl n2) (Nat.succ_le_of_lt h)
  rw [Nat.mul_succ] at h2
  omega

theorem visits_idx (n2 : Nat) (ps : List (MacroPlane K)) (iz r : Nat) (h : PinsOk n2 ps) :
    (visits ps iz r).Pairwise (fun v w => idx n2 v ≠ idx n2 w) := by
  induction ps generalizing iz r with
  | nil => simp [visits]
  | cons mp mps ih =>
    rw [visits, List.pairwise_append]
    refine ⟨planeVisits_idx _ _ _ _ _ (h mp (by simp)).1, ih _ _ (fun m hm => h m (by simp [hm])), ?_⟩
    intro v hv w hw
    obtain ⟨a, b, c, _⟩ := planeVisits_bounds _ _ _ _ v hv
    obtain ⟨a', _, c', d', _⟩ := visits_bounds _ _ _ w hw
    exact idx_ne n2 v w ((h mp (by simp)).2 _ c) ((h w.plane (by simp [c'])).2 _ d') (by omega)

/-! ### The loops -/

theorem dot_congr (f g : Nat → K) (l : List K) (r : Nat) (h : ∀ i, r ≤ i → i < r + l.length → f i = g i) :
    dot f r l = dot g r l := by
  induction l generalizing r with
  | nil => rfl
  | cons a l ih =>
    simp only [dot]
    rw [h r le_rfl (by simp), ih (r + 1) (fun i h1 h2 => h i (by omega) (by simp at h2 ⊢; omega))]

theorem dot_scale (f g : Nat → K) (c : K) (l : List K) (r : Nat) (h : ∀ i, r ≤ i → i < r + l.length → f i = g i * c) :
    dot f r l = dot g r l * c := by
  induction l generalizing r with
  | nil => simp [dot]
  | cons a l ih =>
    simp only [dot]
    rw [h r le_rfl (by simp), ih (r + 1) (fun i h1 h2 => h i (by omega) (by simp at h2 ⊢; omega))]
    ring

theorem dot_height (f : Nat → K) (c : K) (l : List K) (r : Nat) : dot f r (l.map (· * c)) = dot f r l * c := by
  induction l generalizing r with
  | nil => simp [dot]
  | cons a l ih => simp only [List.map_cons, dot]; rw [ih]; ring

/-- Area-weighted average flux of a visited pin. -/
def areaAverage (flux : Nat → K) (v : Visit K) : K := dot flux v.ireg v.pin.areas / v.pin.area

theorem setStep_out (n2 : Nat) (t : Nat → K) (st : (Nat → K) × K) (v : Visit K) (i : Nat)
    (h : ¬ (v.ireg ≤ i ∧ i < v.ireg + v.pin.areas.length)) : (setStep n2 t st v).1 i = st.1 i := by
  simp only [setStep, if_neg h]

theorem set_out (n2 : Nat) (t : Nat → K) (vs : List (Visit K)) (st : (Nat → K) × K) (i : Nat)
    (h : ∀ v ∈ vs, ¬ (v.ireg ≤ i ∧ i < v.ireg + v.pin.areas.length)) :
    (vs.foldl (setStep n2 t) st).1 i = st.1 i := by
  induction vs generalizing st with
  | nil => rfl
  | cons v vs ih =>
    rw [List.foldl_cons, ih _ (fun w hw => h w (by simp [hw])), setStep_out _ _ _ _ _ (h v (by simp))]

theorem areaAverage_step (n2 : Nat) (t : Nat → K) (st : (Nat → K) × K) (v w : Visit K) (h : Before v w) :
    areaAverage (setStep n2 t st v).1 w = areaAverage st.1 w := by
  unfold areaAverage
  rw [dot_congr (setStep n2 t st v).1 st.1 w.pin.areas w.ireg]
  intro i h1 _
  apply setStep_out
  rintro ⟨_, h3⟩
  unfold Before at h
  omega

theorem set_in (n2 : Nat) (t : Nat → K) (vs : List (Visit K)) (hp : vs.Pairwise Before) (st : (Nat → K) × K)
    (v : Visit K) (hv : v ∈ vs) (i : Nat) (h1 : v.ireg ≤ i) (h2 : i < v.ireg + v.pin.areas.length) :
    (vs.foldl (setStep n2 t) st).1 i = st.1 i * (t (idx n2 v) / areaAverage st.1 v) := by
  induction vs generalizing st with
  | nil => simp at hv
  | cons w vs ih =>
    rw [List.pairwise_cons] at hp
    rw [List.foldl_cons]
    rcases List.mem_cons.mp hv with rfl | hv
    · rw [set_out]
      · simp only [setStep, if_pos (And.intro h1 h2)]
        rfl
      · intro x hx
        have := hp.1 x hx
        unfold Before at this
        omega
    · rw [ih hp.2 _ hv]
      have hb := hp.1 v hv
      rw [areaAverage_step _ _ _ _ _ hb, setStep_out]
      unfold Before at hb
      omega

theorem set_resid (n2 : Nat) (t : Nat → K) (vs : List (Visit K)) (hp : vs.Pairwise Before) (st : (Nat → K) × K) :
    (vs.foldl (setStep n2 t) st).2 =
      st.2 + (vs.map fun v => (t (idx n2 v) - areaAverage st.1 v) * (t (idx n2 v) - areaAverage st.1 v)).sum := by
  induction vs generalizing st with
  | nil => simp
  | cons w vs ih =>
    rw [List.pairwise_cons] at hp
    rw [List.foldl_cons, ih hp.2, List.map_cons, List.sum_cons, ← add_assoc]
    congr 1
    congr 1
    apply List.map_congr_left
    intro v hv
    rw [areaAverage_step _ _ _ _ _ (hp.1 v hv)]

theorem get_out (n2 : Nat) (g : Visit K → K) (vs : List (Visit K)) (a : Nat → K) (j : Nat)
    (h : ∀ v ∈ vs, idx n2 v ≠ j) :
    vs.foldl (fun a v => put a (v.pin.cell + n2 * v.iz) (a (v.pin.cell + n2 * v.iz) + g v)) a j = a j := by
  induction vs generalizing a with
  | nil => rfl
  | cons v vs ih =>
    rw [List.foldl_cons, ih _ (fun w hw => h w (by simp [hw]))]
    have := h v (by simp)
    unfold idx at this
    simp only [put, if_neg (Ne.symm this)]

theorem get_in (n2 : Nat) (g : Visit K → K) (vs : List (Visit K))
    (hp : vs.Pairwise (fun v w => idx n2 v ≠ idx n2 w)) (a : Nat → K) (v : Visit K) (hv : v ∈ vs) :
    vs.foldl (fun a v => put a (v.pin.cell + n2 * v.iz) (a (v.pin.cell + n2 * v.iz) + g v)) a (idx n2 v) =
      a (idx n2 v) + g v := by
  induction vs generalizing a with
  | nil => simp at hv
  | cons w vs ih =>
    rw [List.pairwise_cons] at hp
    rw [List.foldl_cons]
    rcases List.mem_cons.mp hv with rfl | hv
    · rw [get_out n2 g vs _ _ (fun x hx => (hp.1 x hx).symm)]
      simp [put, idx]
    · rw [ih hp.2 _ hv]
      have := hp.1 v hv
      unfold idx at this ⊢
      simp only [put, if_neg (Ne.symm this)]

theorem pinAverage_eq (flux : Nat → K) (v : Visit K) (hh : v.plane.height ≠ 0) (ha : v.pin.area = v.pin.areas.sum) :
    pinAverage flux v = areaAverage flux v := by
  unfold pinAverage areaAverage
  simp only
  rw [dot_height, List.sum_map_mul_right, List.map_id', ha, mul_div_mul_right _ _ hh]

/-! ### MoC -/

/-- The geometry and the present flux of a MoC sweeper: cells distinct, heights nonzero, `pin->area()` is the sum of
the region areas (C49 for the pin meshes), and no pin has average flux zero. -/
structure MocOk (n2 : Nat) (ps : List (MacroPlane K)) (flux : Nat → K) : Prop where
  pins : PinsOk n2 ps
  height : ∀ mp ∈ ps, mp.height ≠ 0
  area : ∀ mp ∈ ps, ∀ p ∈ mp.pins, p.area = p.areas.sum
  area0 : ∀ mp ∈ ps, ∀ p ∈ mp.pins, p.area ≠ 0
  flux0 : ∀ v ∈ visits ps 0 0, pinAverage flux v ≠ 0

/-- **C36, MoC, PIN_PLANE.**  If every entry of the new pin flux is positive the call succeeds; afterwards the pin flux
of every pin is the one that was set, every region's flux is its old flux times one factor per pin (the shape inside
the pin is unchanged), and the residual is the sum of squared changes of the pin flux. -/
theorem C36_moc_plane (n2 nz n : Nat) (dz : Nat → K) (mplane : Nat → Nat) (heights : Nat → K)
    (ps : List (MacroPlane K)) (flux pinFlux : Nat → K) (ok : MocOk n2 ps flux) (hpos : ∀ i < n, 0 < pinFlux i) :
    ∃ flux' res, setPin n2 nz n dz mplane heights ps flux pinFlux .pinPlane = some (flux', res) ∧
      (∀ v ∈ visits ps 0 0, getPlane n2 ps flux' (idx n2 v) = pinFlux (idx n2 v)) ∧
      (∀ v ∈ visits ps 0 0, ∃ c : K, ∀ i, v.ireg ≤ i → i < v.ireg + v.pin.areas.length → flux' i = flux i * c) ∧
      res = ((visits ps 0 0).map fun v => (pinFlux (idx n2 v) - getPlane n2 ps flux (idx n2 v)) ^ 2).sum := by
  have hb := visits_before ps 0 0
  have hi := visits_idx n2 ps 0 0 ok.pins
  have havg : ∀ fl, ∀ v ∈ visits ps 0 0, pinAverage fl v = areaAverage fl v := by
    intro fl v hv
    obtain ⟨_, _, h1, h2, _⟩ := visits_bounds _ _ _ v hv
    exact pinAverage_eq fl v (ok.height _ h1) (ok.area _ h1 _ h2)
  have hget : ∀ fl, ∀ v ∈ visits ps 0 0, getPlane n2 ps fl (idx n2 v) = areaAverage fl v := by
    intro fl v hv
    unfold getPlane
    rw [get_in n2 (pinAverage fl) _ hi _ v hv, zero_add, havg fl v hv]
  have hin := set_in n2 pinFlux (visits ps 0 0) hb (flux, 0)
  refine ⟨((visits ps 0 0).foldl (setStep n2 pinFlux) (flux, 0)).1,
    ((visits ps 0 0).foldl (setStep n2 pinFlux) (flux, 0)).2, ?_, ?_, ?_, ?_⟩
  · unfold setPin
    rw [if_pos]
    · rfl
    · rw [List.all_eq_true]
      intro i hi
      simpa using hpos i (List.mem_range.mp hi)
  · intro v hv
    rw [hget _ v hv]
    unfold areaAverage
    rw [dot_scale _ flux (pinFlux (idx n2 v) / areaAverage flux v) _ _ (fun i h1 h2 => hin v hv i h1 h2)]
    obtain ⟨_, _, h1, h2, _⟩ := visits_bounds _ _ _ v hv
    have h0 := ok.flux0 v hv
    rw [havg flux v hv] at h0
    have ha := ok.area0 _ h1 _ h2
    have hd : dot flux v.ireg v.pin.areas ≠ 0 := by
      intro h; apply h0; unfold areaAverage; rw [h, zero_div]
    unfold areaAverage
    field_simp
  · intro v hv
    exact ⟨_, fun i h1 h2 => hin v hv i h1 h2⟩
  · rw [set_resid n2 pinFlux _ hb, zero_add]
    congr 1
    apply List.map_congr_left
    intro v hv
    rw [hget flux v hv, sq]

/-- Every macroplane is a single plane. -/
def NoSubplanes (ps : List (MacroPlane K)) : Prop := ∀ (k : Nat) (mp : MacroPlane K), ps[k]? = some mp → mp.izMin = k ∧ mp.izMax = k

theorem foldl_congr_mem {α β : Type} (f g : α → β → α) (l : List β) (a : α) (h : ∀ b ∈ l, ∀ a, f a b = g a b) :
    l.foldl f a = l.foldl g a := by
  induction l generalizing a with
  | nil => rfl
  | cons b l ih => rw [List.foldl_cons, List.foldl_cons, h b (by simp), ih _ (fun c hc => h c (by simp [hc]))]

theorem getPin_eq_getPlane (n2 : Nat) (ps : List (MacroPlane K)) (h : NoSubplanes ps) (flux : Nat → K) :
    getPin n2 ps flux = getPlane n2 ps flux := by
  unfold getPin getPlane
  apply foldl_congr_mem
  intro v hv a
  obtain ⟨_, _, _, _, e⟩ := visits_bounds _ _ _ v hv
  obtain ⟨e1, e2⟩ := h _ _ e
  have : planesOf v.plane = [v.iz] := by
    unfold planesOf; rw [e1, e2]; simp
  rw [this]
  rfl

/-- **C36, MoC, PIN, without sub-planes**: as for PIN_PLANE.  Missing: macroplanes of several planes, for which the
claim fails (`C36_moc_claim_false`). -/
theorem C36_moc_pin_partial (n2 nz n : Nat) (dz : Nat → K) (mplane : Nat → Nat) (heights : Nat → K)
    (ps : List (MacroPlane K)) (hs : NoSubplanes ps) (flux pinFlux : Nat → K) (ok : MocOk n2 ps flux)
    (hpos : ∀ i < n, 0 < pinFlux i) :
    ∃ flux' res, setPin n2 nz n dz mplane heights ps flux pinFlux .pin = some (flux', res) ∧
      (∀ v ∈ visits ps 0 0, getPin n2 ps flux' (idx n2 v) = pinFlux (idx n2 v)) ∧
      (∀ v ∈ visits ps 0 0, ∃ c : K, ∀ i, v.ireg ≤ i → i < v.ireg + v.pin.areas.length → flux' i = flux i * c) ∧
      res = ((visits ps 0 0).map fun v => (pinFlux (idx n2 v) - getPin n2 ps flux (idx n2 v)) ^ 2).sum := by
  obtain ⟨fl, r, h1, h2, h3, h4⟩ := C36_moc_plane n2 nz n dz mplane heights ps flux pinFlux ok hpos
  refine ⟨fl, r, ?_, ?_, h3, ?_⟩
  · rw [← h1]; rfl
  · intro v hv; rw [getPin_eq_getPlane n2 ps hs]; exact h2 v hv
  · rw [h4]; simp only [getPin_eq_getPlane n2 ps hs]

/-- A value that is not positive is refused. -/
theorem C36_moc_refuses (n2 nz n : Nat) (dz : Nat → K) (mplane : Nat → Nat) (heights : Nat → K)
    (ps : List (MacroPlane K)) (flux pinFlux : Nat → K) (t : Treatment) (i : Nat) (hi : i < n) (h : pinFlux i ≤ 0) :
    setPin n2 nz n dz mplane heights ps flux pinFlux t = none := by
  unfold setPin
  rw [if_neg]
  rw [List.all_eq_true]
  intro hall
  have := hall i (List.mem_range.mpr hi)
  exact absurd (of_decide_eq_true this) (not_lt.mpr h)

/-- The claim for MoC with treatment PIN, asked only for pin fluxes that are constant on each macroplane. -/
def C36_moc_claim : Prop := ∀ (n2 nz : Nat) (dz : Nat → ℚ) (mplane : Nat → Nat) (heights : Nat → ℚ)
  (ps : List (MacroPlane ℚ)) (flux pinFlux : Nat → ℚ), MocOk n2 ps flux → (∀ i < n2 * nz, 0 < pinFlux i) →
  (∀ v ∈ visits ps 0 0, ∀ z ∈ planesOf v.plane, ∀ w ∈ planesOf v.plane,
    pinFlux (v.pin.cell + n2 * z) = pinFlux (v.pin.cell + n2 * w)) →
  ∃ flux' res, setPin n2 nz (n2 * nz) dz mplane heights ps flux pinFlux .pin = some (flux', res) ∧
    ∀ v ∈ visits ps 0 0, ∀ z ∈ planesOf v.plane,
      getPin n2 ps flux' (v.pin.cell + n2 * z) = pinFlux (v.pin.cell + n2 * z)

/-- One column of three planes in two macroplanes: planes 0-1 and plane 2. -/
def column : List (MacroPlane ℚ) := [⟨0, 1, 2, [⟨0, [1], 1⟩]⟩, ⟨2, 2, 1, [⟨0, [1], 1⟩]⟩]

/-- Setting the fluxes 1, 1, 2 in that column gives 1, 1, 1: the second macroplane receives the flux of plane 1. -/
theorem C36_moc_claim_false : ¬ C36_moc_claim := by
  intro h
  obtain ⟨fl, r, h1, h2⟩ := h 1 3 (fun _ => 1) (fun z => if z < 2 then 0 else 1) (fun k => if k = 0 then 2 else 1) column
    (fun _ => 1) (fun i => if i = 2 then 2 else 1)
    ⟨by unfold PinsOk; decide +kernel, by decide +kernel, by decide +kernel, by decide +kernel, by decide +kernel⟩
    (by decide +kernel) (by decide +kernel)
  have h3 := h2 ⟨1, ⟨2, 2, 1, [⟨0, [1], 1⟩]⟩, ⟨0, [1], 1⟩, 1⟩ (by simp [visits, planeVisits, column]) 2
    (by decide +kernel)
  have h4 : (setPin 1 3 (1 * 3) (fun _ => (1 : ℚ)) (fun z => if z < 2 then 0 else 1) (fun k => if k = 0 then 2 else 1)
      column (fun _ => 1) (fun i => if i = 2 then 2 else 1) .pin).map (fun x => getPin 1 column x.1 2) = some 1 := by
    decide +kernel
  rw [h1] at h4
  simp only [Option.map_some, Option.some.injEq] at h4
  rw [h4] at h3
  exact absurd h3 (by decide +kernel)

/-! ### Sn -/

/-- **C36, Sn, PIN**: with at least two regions the flux afterwards is the one that was set.  Missing: the residual,
which is not the norm of the change (`C36_sn_residual_claim_false`), and a mesh of one region, where the code reads
outside the array (`C36_sn_one_region`). -/
theorem C36_sn_pin_partial (n : Nat) (hn : n ≠ 1) (flux pinFlux : Nat → K) :
    ∃ flux' res, snSetPin n flux pinFlux = some (flux', res) ∧ (∀ i < n, flux' i = pinFlux i) ∧
      ∀ i, n ≤ i → flux' i = flux i := by
  unfold snSetPin
  rw [if_neg hn]
  by_cases h0 : n = 0
  · rw [if_pos h0]; exact ⟨flux, 0, rfl, by omega, fun _ _ => rfl⟩
  rw [if_neg h0]
  refine ⟨_, _, rfl, ?_⟩
  clear hn h0
  induction n with
  | zero => exact ⟨by omega, fun _ _ => rfl⟩
  | succ n ih =>
    rw [List.range_succ, List.foldl_append, List.foldl_cons, List.foldl_nil]
    simp only [put]
    refine ⟨fun i hi => ?_, fun i hi => ?_⟩
    · by_cases h : i = n
      · rw [if_pos h, h]
      · rw [if_neg h]; exact ih.1 i (by omega)
    · rw [if_neg (by omega)]; exact ih.2 i (by omega)

theorem C36_sn_one_region (flux pinFlux : Nat → K) : snSetPin 1 flux pinFlux = none := rfl

/-- The residual part of the claim for Sn. -/
def C36_sn_residual_claim : Prop :=
  (∀ (n : Nat) (flux pinFlux flux' : Nat → ℚ) (res : ℚ), snSetPin n flux pinFlux = some (flux', res) →
    res = ((List.range n).map fun i => (pinFlux i - flux i) ^ 2).sum)

/-- Setting the flux that is already there gives a residual of 1. -/
theorem C36_sn_residual_claim_false : ¬ C36_sn_residual_claim := by
  intro h
  have h2 : (snSetPin 2 (fun i => if i = 0 then (1 : ℚ) else 2) (fun i => if i = 0 then 1 else 2)).map (·.2) = some 1 := by
    decide +kernel
  cases hs : snSetPin 2 (fun i => if i = 0 then (1 : ℚ) else 2) (fun i => if i = 0 then 1 else 2) with
  | none => rw [hs] at h2; simp at h2
  | some x =>
    have h3 := h 2 _ _ x.1 x.2 (by rw [hs])
    rw [hs] at h2
    simp only [Option.map_some, Option.some.injEq] at h2
    rw [h2] at h3
    exact absurd h3 (by decide +kernel)

/-- No plane belongs to two macroplanes. -/
def PlanesDisjoint (ps : List (MacroPlane K)) : Prop :=
  ∀ (k l : Nat) (mp mq : MacroPlane K) (z : Nat), ps[k]? = some mp → ps[l]? = some mq → z ∈ planesOf mp → z ∈ planesOf mq → k = l

theorem planesOf_nodup (mp : MacroPlane K) : (planesOf mp).Nodup := by
  unfold planesOf
  exact List.Nodup.map (fun a b h => by omega) List.nodup_range

theorem scale_planes (n2 k : Nat) (hn2 : 0 < n2) (ratio : Nat → K) (zs : List Nat) (hz : zs.Nodup) (fl : Nat → K)
    (i : Nat) :
    zs.foldl (fun fl iz => fun i => if n2 * iz ≤ i ∧ i < n2 * (iz + 1) then fl i / ratio (i % n2 + n2 * k) else fl i) fl i
      = if i / n2 ∈ zs then fl i / ratio (i % n2 + n2 * k) else fl i := by
  induction zs generalizing fl with
  | nil => simp
  | cons z zs ih =>
    rw [List.nodup_cons] at hz
    rw [List.foldl_cons, ih hz.2]
    have hd : (n2 * z ≤ i ∧ i < n2 * (z + 1)) ↔ i / n2 = z := by
      rw [Nat.div_eq_iff hn2, Nat.mul_succ, Nat.mul_comm n2 z]
      omega
    by_cases h : i / n2 = z
    · have h1 : i / n2 ∉ zs := by rw [h]; exact hz.1
      rw [if_neg h1, if_pos (hd.mpr h), if_pos (by simp [h])]
    · have h2 : ¬ (n2 * z ≤ i ∧ i < n2 * (z + 1)) := fun hh => h (hd.mp hh)
      simp only [if_neg h2]
      by_cases h1 : i / n2 ∈ zs
      · rw [if_pos h1, if_pos (by simp [h1])]
      · rw [if_neg h1, if_neg (by simp [h, h1])]

theorem snSetPlane_apply (n2 : Nat) (hn2 : 0 < n2) (dz : Nat → K) (ps : List (MacroPlane K)) (hd : PlanesDisjoint ps)
    (flux pinFlux : Nat → K) (k : Nat) (mp : MacroPlane K) (hk : ps[k]? = some mp) (i : Nat)
    (hi : i / n2 ∈ planesOf mp) :
    (snSetPlane n2 dz ps flux pinFlux).1 i =
      flux i / (snGetPlane n2 dz ps flux (i % n2 + n2 * k) / pinFlux (i % n2 + n2 * k)) := by
  unfold snSetPlane
  simp only
  have hlt : k < ps.length := (List.getElem?_eq_some_iff.mp hk).1
  suffices h : ∀ m, (List.range m).foldl (fun fl k =>
      match ps[k]? with
      | none => fl
      | some mp => (planesOf mp).foldl
          (fun fl iz => fun i => if n2 * iz ≤ i ∧ i < n2 * (iz + 1) then
            fl i / (snGetPlane n2 dz ps flux (i % n2 + n2 * k) / pinFlux (i % n2 + n2 * k)) else fl i) fl) flux i =
      if k < m then flux i / (snGetPlane n2 dz ps flux (i % n2 + n2 * k) / pinFlux (i % n2 + n2 * k)) else flux i by
    refine (h ps.length).trans ?_
    rw [if_pos hlt]
  intro m
  induction m with
  | zero => simp
  | succ m ih =>
    rw [List.range_succ, List.foldl_append, List.foldl_cons, List.foldl_nil]
    by_cases hm : m = k
    · subst hm
      rw [hk]
      simp only
      rw [scale_planes n2 m hn2 (fun j => snGetPlane n2 dz ps flux j / pinFlux j) _ (planesOf_nodup mp), if_pos hi, ih,
        if_neg (by omega), if_pos (by omega)]
    · have h2 : (if k < m + 1 then flux i / (snGetPlane n2 dz ps flux (i % n2 + n2 * k) / pinFlux (i % n2 + n2 * k))
          else flux i) = (if k < m then flux i / (snGetPlane n2 dz ps flux (i % n2 + n2 * k) / pinFlux (i % n2 + n2 * k))
          else flux i) := by
        by_cases h3 : k < m
        · rw [if_pos h3, if_pos (by omega)]
        · rw [if_neg h3, if_neg (by omega)]
      rw [h2, ← ih]
      cases hq : ps[m]? with
      | none => rfl
      | some mq =>
        simp only
        rw [scale_planes n2 m hn2 (fun j => snGetPlane n2 dz ps flux j / pinFlux j) _ (planesOf_nodup mq), if_neg]
        intro hmem
        exact hm (hd m k mq mp _ hq hk hmem hi)

/-- **C36, Sn, PIN_PLANE**: afterwards the macroplane flux is the one that was set, and the axial shape inside each
macroplane column is unchanged.  Missing: the residual, which is always 0 (`C36_sn_plane_residual`). -/
theorem C36_sn_plane_partial (n2 : Nat) (dz : Nat → K) (ps : List (MacroPlane K)) (hd : PlanesDisjoint ps)
    (flux pinFlux : Nat → K) (k c : Nat) (hc : c < n2) (mp : MacroPlane K) (hk : ps[k]? = some mp)
    (h0 : snGetPlane n2 dz ps flux (c + n2 * k) ≠ 0) :
    snGetPlane n2 dz ps (snSetPlane n2 dz ps flux pinFlux).1 (c + n2 * k) = pinFlux (c + n2 * k) ∧
    ∃ f : K, ∀ z ∈ planesOf mp, (snSetPlane n2 dz ps flux pinFlux).1 (c + n2 * z) = flux (c + n2 * z) * f := by
  have hn2 : 0 < n2 := by omega
  have hdiv : ∀ z, (c + n2 * z) / n2 = z := fun z => by
    rw [Nat.add_mul_div_left _ _ hn2, Nat.div_eq_of_lt hc, Nat.zero_add]
  have hmod : ∀ z, (c + n2 * z) % n2 = c := fun z => by rw [Nat.add_mul_mod_self_left, Nat.mod_eq_of_lt hc]
  have key : ∀ z ∈ planesOf mp, (snSetPlane n2 dz ps flux pinFlux).1 (c + n2 * z) =
      flux (c + n2 * z) * (pinFlux (c + n2 * k) / snGetPlane n2 dz ps flux (c + n2 * k)) := by
    intro z hz
    rw [snSetPlane_apply n2 hn2 dz ps hd flux pinFlux k mp hk _ (by rw [hdiv]; exact hz), hmod]
    rw [div_div_eq_mul_div, mul_div_assoc]
  refine ⟨?_, _, key⟩
  have e : snGetPlane n2 dz ps (snSetPlane n2 dz ps flux pinFlux).1 (c + n2 * k) =
      snGetPlane n2 dz ps flux (c + n2 * k) * (pinFlux (c + n2 * k) / snGetPlane n2 dz ps flux (c + n2 * k)) := by
    conv_lhs => unfold snGetPlane
    conv_rhs => lhs; unfold snGetPlane
    rw [hdiv, hk, hmod]
    simp only
    rw [div_mul_eq_mul_div, ← List.sum_map_mul_right]
    congr 2
    apply List.map_congr_left
    intro z hz
    rw [key z hz]
    ring
  rw [e]
  field_simp

theorem C36_sn_plane_residual (n2 : Nat) (dz : Nat → K) (ps : List (MacroPlane K)) (flux pinFlux : Nat → K) :
    (snSetPlane n2 dz ps flux pinFlux).2 = 0 := rfl

/-! ### The hypotheses can be met -/

/-- Two pins per plane; macroplanes of two planes and one plane. -/
def twoPins : List (MacroPlane ℚ) :=
  [⟨0, 1, 3, [⟨0, [1, 2], 3⟩, ⟨1, [3], 3⟩]⟩, ⟨2, 2, 2, [⟨0, [1, 1, 1], 3⟩, ⟨1, [2, 1], 3⟩]⟩]

example : MocOk 2 twoPins (fun i => i + 1) :=
  ⟨by unfold PinsOk; decide +kernel, by decide +kernel, by decide +kernel, by decide +kernel, by decide +kernel⟩

example : NoSubplanes [(⟨0, 0, 3, [⟨0, [1, 2], 3⟩]⟩ : MacroPlane ℚ), ⟨1, 1, 2, [⟨0, [1, 1, 1], 3⟩]⟩] := by
  intro k mp h
  match k with
  | 0 => simp at h; subst h; simp
  | 1 => simp at h; subst h; simp
  | k + 2 => simp at h

example : PlanesDisjoint twoPins := by
  intro k l mp mq z h1 h2 h3 h4
  match k, l with
  | 0, 0 => rfl
  | 1, 1 => rfl
  | 0, 1 => simp [twoPins] at h1 h2; subst h1; subst h2; simp [planesOf] at h3 h4; omega
  | 1, 0 => simp [twoPins] at h1 h2; subst h1; subst h2; simp [planesOf] at h3 h4; omega
  | k + 2, _ => simp [twoPins] at h1
  | _, l + 2 => simp [twoPins] at h2

example : ((setPin 2 3 4 (fun _ => 1) (fun _ => 0) (fun _ => 1) twoPins (fun i => (i : ℚ) + 1)
    (fun i => 2 * (i : ℚ) + 1) .pinPlane).map fun x => (List.range 4).map (getPlane 2 twoPins x.1)) =
    some [1, 3, 5, 7] := by decide +kernel

end Verif.PinFlux
