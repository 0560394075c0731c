import Verif.PinFlux.Props
import Mathlib.Algebra.BigOperators.Group.Finset.Basic
import Mathlib.Algebra.BigOperators.Intervals

/-!
# C36: what the pin flux is

The theorems of `Verif.PinFlux.Props` compare the flux that was set with the flux that is read; here what is read is
tied to the region fluxes, with the numbering of the regions spelled out.
-/

set_option linter.unusedSectionVars false

namespace Verif.PinFlux
open Finset

variable {K : Type} [Field K] [LinearOrder K]

/-- Number of regions of a macroplane. -/
def planeRegions (mp : MacroPlane K) : Nat := (mp.pins.map (·.areas.length)).sum

/-- First region of pin `j` of macroplane `k`: the regions of all macroplanes below and of all pins before. -/
def firstRegion (ps : List (MacroPlane K)) (k j : Nat) : Nat :=
  ((ps.take k).map planeRegions).sum + (((ps[k]?.map (·.pins)).getD []).take j |>.map (·.areas.length)).sum

theorem planeVisits_mem (iz : Nat) (mp : MacroPlane K) (pins : List (Pin K)) (r j : Nat) (p : Pin K)
    (h : pins[j]? = some p) :
    (⟨iz, mp, p, r + ((pins.take j).map (·.areas.length)).sum⟩ : Visit K) ∈ planeVisits iz mp pins r := by
  induction pins generalizing r j with
  | nil => simp at h
  | cons q qs ih =>
    cases j with
    | zero =>
      simp at h; subst h
      simp [planeVisits]
    | succ j =>
      rw [planeVisits, List.mem_cons]
      right
      have := ih (r + q.areas.length) j (by simpa using h)
      simpa [Nat.add_assoc] using this

theorem visits_mem (ps : List (MacroPlane K)) (iz r k j : Nat) (mp : MacroPlane K) (p : Pin K)
    (hk : ps[k]? = some mp) (hj : mp.pins[j]? = some p) :
    (⟨iz + k, mp, p, r + firstRegion ps k j⟩ : Visit K) ∈ visits ps iz r := by
  induction ps generalizing iz r k with
  | nil => simp at hk
  | cons m ms ih =>
    rw [visits, List.mem_append]
    cases k with
    | zero =>
      simp at hk; subst hk
      left
      have := planeVisits_mem iz m m.pins r j p hj
      simpa [firstRegion] using this
    | succ k =>
      right
      have := ih (iz + 1) (r + (m.pins.map (·.areas.length)).sum) k (by simpa using hk)
      have e : r + firstRegion (m :: ms) (k + 1) j = r + (m.pins.map (·.areas.length)).sum + firstRegion ms k j := by
        simp [firstRegion, planeRegions, Nat.add_assoc]
      rw [e, show iz + (k + 1) = iz + 1 + k by omega]
      exact this

theorem planeVisits_length (iz : Nat) (mp : MacroPlane K) (pins : List (Pin K)) (r : Nat) :
    (planeVisits iz mp pins r).length = pins.length := by
  induction pins generalizing r with
  | nil => rfl
  | cons p ps ih => simp [planeVisits, ih]

theorem visits_length (ps : List (MacroPlane K)) (iz r : Nat) :
    (visits ps iz r).length = (ps.map (·.pins.length)).sum := by
  induction ps generalizing iz r with
  | nil => rfl
  | cons m ms ih => simp [visits, ih, planeVisits_length]

/-- C36: the loops visit every pin of every macroplane once, each with the regions that follow those of all earlier
pins. -/
theorem C36_visits (ps : List (MacroPlane K)) :
    (visits ps 0 0).length = (ps.map (·.pins.length)).sum ∧
    ∀ (k j : Nat) (mp : MacroPlane K) (p : Pin K), ps[k]? = some mp → mp.pins[j]? = some p →
      (⟨k, mp, p, firstRegion ps k j⟩ : Visit K) ∈ visits ps 0 0 := by
  refine ⟨visits_length ps 0 0, fun k j mp p hk hj => ?_⟩
  have := visits_mem ps 0 0 k j mp p hk hj
  simpa using this

theorem dot_sum (f : Nat → K) (l : List K) (r : Nat) :
    dot f r l = ∑ i ∈ range l.length, f (r + i) * (l[i]?).getD 0 := by
  induction l generalizing r with
  | nil => simp [dot]
  | cons a l ih =>
    rw [dot, ih, List.length_cons, sum_range_succ']
    simp only [List.getElem?_cons_succ, List.getElem?_cons_zero, Option.getD_some, Nat.add_zero]
    rw [add_comm]
    congr 1
    apply sum_congr rfl
    intro i _
    rw [show r + 1 + i = r + (i + 1) by omega]

/-- The average flux of a pin with areas `as` whose regions start at `r`. -/
def average (flux : Nat → K) (r : Nat) (as : List K) : K :=
  (∑ i ∈ range as.length, flux (r + i) * (as[i]?).getD 0) / as.sum

theorem pinAverage_average (flux : Nat → K) (v : Visit K) (hh : v.plane.height ≠ 0) :
    pinAverage flux v = average flux v.ireg v.pin.areas := by
  have := pinAverage_eq flux { v with pin := { v.pin with area := v.pin.areas.sum } } hh rfl
  unfold average
  rw [← dot_sum]
  exact this

/-- C36: `get_pin_flux_1g` with PIN_PLANE returns the area-weighted average flux of every pin of every macroplane. -/
theorem C36_get_plane (n2 : Nat) (ps : List (MacroPlane K)) (hp : PinsOk n2 ps) (hh : ∀ mp ∈ ps, mp.height ≠ 0)
    (flux : Nat → K) (k j : Nat) (mp : MacroPlane K) (p : Pin K) (hk : ps[k]? = some mp) (hj : mp.pins[j]? = some p) :
    getPlane n2 ps flux (p.cell + n2 * k) = average flux (firstRegion ps k j) p.areas := by
  have hv := (C36_visits ps).2 k j mp p hk hj
  have hm : mp ∈ ps := List.mem_of_getElem? hk
  have h := get_in n2 (pinAverage flux) (visits ps 0 0) (visits_idx n2 ps 0 0 hp) (fun _ => 0) _ hv
  unfold getPlane
  simp only [idx] at h
  rw [h, zero_add, pinAverage_average flux _ (hh mp hm)]

theorem addFold_out (l : List (Nat × K)) (a : Nat → K) (j : Nat) (h : ∀ q ∈ l, q.1 ≠ j) :
    l.foldl (fun a q => put a q.1 (a q.1 + q.2)) a j = a j := by
  induction l generalizing a with
  | nil => rfl
  | cons q l ih =>
    rw [List.foldl_cons, ih _ (fun x hx => h x (by simp [hx]))]
    simp [put, Ne.symm (h q (by simp))]

theorem addFold_in (l : List (Nat × K)) (hl : l.Pairwise (fun p q => p.1 ≠ q.1)) (a : Nat → K) (q : Nat × K) (hq : q ∈ l) :
    l.foldl (fun a q => put a q.1 (a q.1 + q.2)) a q.1 = a q.1 + q.2 := by
  induction l generalizing a with
  | nil => simp at hq
  | cons p l ih =>
    rw [List.pairwise_cons] at hl
    rw [List.foldl_cons]
    rcases List.mem_cons.mp hq with rfl | hq
    · rw [addFold_out l _ _ (fun x hx => (hl.1 x hx).symm)]
      simp [put]
    · rw [ih hl.2 _ hq]
      simp [put, Ne.symm (hl.1 q hq)]

theorem cell_plane_inj {n2 c c' z z' : Nat} (hc : c < n2) (hc' : c' < n2) (h : c + n2 * z = c' + n2 * z') :
    c = c' ∧ z = z' := by
  have h1 : (c + n2 * z) % n2 = c := by rw [Nat.add_mul_mod_self_left, Nat.mod_eq_of_lt hc]
  have h2 : (c' + n2 * z') % n2 = c' := by rw [Nat.add_mul_mod_self_left, Nat.mod_eq_of_lt hc']
  have e : c = c' := by rw [← h1, h, h2]
  refine ⟨e, ?_⟩
  subst e
  exact Nat.eq_of_mul_eq_mul_left (by omega : 0 < n2) (by omega)

/-- The additions `get_pin_flux_1g` makes with PIN. -/
def pinAdds (n2 : Nat) (flux : Nat → K) (vs : List (Visit K)) : List (Nat × K) :=
  vs.flatMap fun v => (planesOf v.plane).map fun z => (v.pin.cell + n2 * z, pinAverage flux v)

theorem getPin_adds (n2 : Nat) (ps : List (MacroPlane K)) (flux : Nat → K) :
    getPin n2 ps flux = (pinAdds n2 flux (visits ps 0 0)).foldl (fun a q => put a q.1 (a q.1 + q.2)) (fun _ => 0) := by
  unfold getPin pinAdds
  rw [List.foldl_flatMap]
  congr 1
  funext a v
  rw [List.foldl_map]

/-- C36: `get_pin_flux_1g` with PIN returns the same average on every plane of the macroplane. -/
theorem C36_get_pin (n2 : Nat) (ps : List (MacroPlane K)) (hp : PinsOk n2 ps) (hd : PlanesDisjoint ps)
    (hh : ∀ mp ∈ ps, mp.height ≠ 0)
    (flux : Nat → K) (k j : Nat) (mp : MacroPlane K) (p : Pin K) (hk : ps[k]? = some mp) (hj : mp.pins[j]? = some p)
    (z : Nat) (hz : mp.izMin ≤ z) (hz' : z ≤ mp.izMax) :
    getPin n2 ps flux (p.cell + n2 * z) = average flux (firstRegion ps k j) p.areas := by
  have hv := (C36_visits ps).2 k j mp p hk hj
  have hm : mp ∈ ps := List.mem_of_getElem? hk
  have hzm : z ∈ planesOf mp := by
    unfold planesOf
    rw [List.mem_map]
    exact ⟨z - mp.izMin, List.mem_range.mpr (by omega), by omega⟩
  have key : (pinAdds n2 flux (visits ps 0 0)).Pairwise (fun p q => p.1 ≠ q.1) := by
    unfold pinAdds
    rw [List.pairwise_flatMap]
    constructor
    · intro v hv
      obtain ⟨_, _, h1, h2, _⟩ := visits_bounds _ _ _ v hv
      have hc := (hp _ h1).2 _ h2
      rw [List.pairwise_map]
      refine (planesOf_nodup v.plane).imp ?_
      intro a b hab e
      exact hab (cell_plane_inj hc hc e).2
    · refine List.Pairwise.imp_of_mem ?_ (visits_idx n2 ps 0 0 hp)
      intro v w hv hw hne x hx y hy e
      obtain ⟨_, _, h1, h2, h3⟩ := visits_bounds _ _ _ v hv
      obtain ⟨_, _, h1', h2', h3'⟩ := visits_bounds _ _ _ w hw
      obtain ⟨a, ha, rfl⟩ := List.mem_map.mp hx
      obtain ⟨b, hb, rfl⟩ := List.mem_map.mp hy
      obtain ⟨e1, e2⟩ := cell_plane_inj ((hp _ h1).2 _ h2) ((hp _ h1').2 _ h2') e
      subst e2
      have := hd _ _ _ _ _ h3 h3' ha hb
      apply hne
      unfold idx
      rw [e1, show v.iz = w.iz by omega]
  rw [getPin_adds]
  have := addFold_in _ key (fun _ => 0) (p.cell + n2 * z, pinAverage flux ⟨k, mp, p, firstRegion ps k j⟩)
    (List.mem_flatMap.mpr ⟨_, hv, List.mem_map.mpr ⟨z, hzm, rfl⟩⟩)
  rw [this, zero_add, pinAverage_average flux _ (hh mp hm)]

theorem list_range_sum (f : Nat → K) (n : Nat) : ((List.range n).map f).sum = ∑ i ∈ range n, f i := by
  induction n with
  | zero => rfl
  | succ n ih => rw [List.range_succ, List.map_append, List.sum_append, ih, sum_range_succ]; simp

/-- C36: `get_pin_flux_1g` of the Sn sweeper with PIN_PLANE returns the height-weighted average over the planes. -/
theorem C36_sn_get_plane (n2 : Nat) (dz : Nat → K) (ps : List (MacroPlane K)) (flux : Nat → K) (k c : Nat) (hc : c < n2)
    (mp : MacroPlane K) (hk : ps[k]? = some mp) (hle : mp.izMin ≤ mp.izMax) :
    snGetPlane n2 dz ps flux (c + n2 * k) =
      (∑ z ∈ range (mp.izMax - mp.izMin + 1), flux (c + n2 * (mp.izMin + z)) * dz (mp.izMin + z)) / mp.height := by
  have hn : 0 < n2 := by omega
  unfold snGetPlane
  rw [Nat.add_mul_div_left _ _ hn, Nat.div_eq_of_lt hc, Nat.zero_add, hk, Nat.add_mul_mod_self_left,
    Nat.mod_eq_of_lt hc]
  simp only [planesOf, List.map_map]
  congr 1
  rw [show mp.izMax + 1 - mp.izMin = mp.izMax - mp.izMin + 1 by omega]
  rw [list_range_sum]
  rfl

example : PinsOk 2 twoPins ∧ PlanesDisjoint twoPins ∧ firstRegion twoPins 1 1 = 6 := by
  refine ⟨?_, ?_, by decide⟩
  · intro mp hmp
    simp only [twoPins, List.mem_cons, List.not_mem_nil, or_false] at hmp
    rcases hmp with rfl | rfl <;> simp
  · intro k l mp mq z hk hl hz hz'
    match k, l with
    | 0, 0 => rfl
    | 1, 1 => rfl
    | 0, 1 =>
      simp [twoPins] at hk hl; subst hk; subst hl
      simp [planesOf] at hz hz'; omega
    | 1, 0 =>
      simp [twoPins] at hk hl; subst hk; subst hl
      simp [planesOf] at hz hz'; omega
    | (k + 2), _ => simp [twoPins] at hk
    | _, (l + 2) => simp [twoPins] at hl

end Verif.PinFlux
