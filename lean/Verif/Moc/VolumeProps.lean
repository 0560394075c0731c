import Verif.Moc.VolumeModel
import Verif.Moc.KernelProps
import Mathlib.Algebra.BigOperators.Ring.List

/-!
# C33: volume correction makes the rays reproduce region areas
-/

set_option linter.unusedSectionVars false

namespace Verif.Moc

variable {K : Type} [Field K]

/-- Total length of the segments of a list of rays that lie in region `i`. -/
def lengthIn (i : Nat) (rays : List (Ray K)) : K :=
  (rays.map fun r => (r.segs.map fun s => if s.reg = i then s.len else 0).sum).sum

theorem addRay_apply (f : K) (vol : Nat → K) (r : Ray K) (i : Nat) :
    addRay f vol r i = vol i + (r.segs.map fun s => if s.reg = i then s.len else 0).sum * f := by
  unfold addRay
  generalize r.segs = l
  induction l generalizing vol with
  | nil => simp
  | cons s l ih =>
    rw [List.foldl_cons, ih, List.map_cons, List.sum_cons]
    simp only [upd]
    by_cases h : s.reg = i
    · subst h; simp; ring
    · rw [if_neg (Ne.symm h), if_neg h]; ring

theorem addRays_apply (f : K) (vol : Nat → K) (rays : List (Ray K)) (i : Nat) :
    rays.foldl (addRay f) vol i = vol i + lengthIn i rays * f := by
  unfold lengthIn
  induction rays generalizing vol with
  | nil => simp
  | cons r l ih => rw [List.foldl_cons, ih, addRay_apply, List.map_cons, List.sum_cons]; ring

theorem lengthIn_scale (cf : Nat → K) (i : Nat) (rays : List (Ray K)) :
    lengthIn i (rays.map (scaleRay cf)) = lengthIn i rays * cf i := by
  unfold lengthIn
  rw [List.map_map, ← List.sum_map_mul_right]
  congr 1
  apply List.map_congr_left
  intro r _
  simp only [Function.comp, scaleRay]
  rw [List.map_map, ← List.sum_map_mul_right]
  congr 1
  apply List.map_congr_left
  intro s _
  simp only [Function.comp]
  by_cases h : s.reg = i
  · simp [h]
  · simp [h]

/-- What the ANGLE correction preserves: the weighted angular sum of tracked areas. -/
def weightedArea (i : Nat) (as : List (AngleRays K)) : K :=
  (as.map fun a => a.weight / 2 * (lengthIn i a.rays * a.space)).sum

theorem angleVol_apply (as : List (AngleRays K)) (i : Nat) : angleVol as i = weightedArea i as := by
  unfold angleVol weightedArea
  suffices h : ∀ (v : Nat → K), as.foldl (fun v a => a.rays.foldl (addRay (a.space * (a.weight * (1 / 2)))) v) v i =
      v i + (as.map fun a => a.weight / 2 * (lengthIn i a.rays * a.space)).sum by
    rw [h]; simp
  intro v
  induction as generalizing v with
  | nil => simp
  | cons a l ih => rw [List.foldl_cons, ih, addRays_apply, List.map_cons, List.sum_cons]; ring

/-- **C33, FLAT**: in every angle, in every region that the rays of the angle cross, corrected length times spacing
adds up to the region's area. -/
theorem C33_flat (trueVol : Nat → K) (as : List (AngleRays K)) (i : Nat)
    (hcross : ∀ a ∈ as, lengthIn i a.rays * a.space ≠ 0) :
    ∀ a' ∈ correctFlat trueVol as, lengthIn i a'.rays * a'.space = trueVol i := by
  intro a' ha'
  obtain ⟨a, ha, rfl⟩ := List.mem_map.mp ha'
  have h := hcross a ha
  simp only [correctFlatAngle]
  rw [lengthIn_scale, addRays_apply, zero_add]
  have h1 : lengthIn i a.rays ≠ 0 := left_ne_zero_of_mul h
  have h2 : a.space ≠ 0 := right_ne_zero_of_mul h
  field_simp

/-- **C33, FLAT**, region not necessarily crossed by every angle: in every angle the tracked area is the region's area
or, if no ray of the angle crosses the region, zero. -/
theorem C33_flat_any (trueVol : Nat → K) (as : List (AngleRays K)) (i : Nat) :
    ∀ a' ∈ correctFlat trueVol as, lengthIn i a'.rays * a'.space = trueVol i ∨ lengthIn i a'.rays * a'.space = 0 := by
  intro a' ha'
  obtain ⟨a, ha, rfl⟩ := List.mem_map.mp ha'
  by_cases h : lengthIn i a.rays * a.space = 0
  · right
    simp only [correctFlatAngle]
    rw [lengthIn_scale, addRays_apply, zero_add, h, div_zero, mul_zero, zero_mul]
  · left
    simp only [correctFlatAngle]
    rw [lengthIn_scale, addRays_apply, zero_add]
    have h1 : lengthIn i a.rays ≠ 0 := left_ne_zero_of_mul h
    have h2 : a.space ≠ 0 := right_ne_zero_of_mul h
    field_simp

/-- **C33, ANGLE**: in every region that the rays cross, the weighted angular sum of corrected length times spacing is
the region's area. -/
theorem C33_angle (trueVol : Nat → K) (as : List (AngleRays K)) (i : Nat) (hcross : weightedArea i as ≠ 0) :
    weightedArea i (correctAngle trueVol as) = trueVol i := by
  have h : weightedArea i (correctAngle trueVol as) = weightedArea i as * (trueVol i / weightedArea i as) := by
    rw [show weightedArea i as * (trueVol i / weightedArea i as) = weightedArea i as * (trueVol i / angleVol as i) by
      rw [angleVol_apply]]
    unfold weightedArea correctAngle
    rw [List.map_map, ← List.sum_map_mul_right]
    congr 1
    apply List.map_congr_left
    intro a _
    simp only [Function.comp]
    rw [lengthIn_scale]
    ring
  rw [h]
  field_simp

/-- The correction changes only segment lengths: weights, spacings, ends of rays and the regions they cross
stay. -/
theorem C33_only_lengths (trueVol : Nat → K) (as : List (AngleRays K)) :
    ∀ as' ∈ [correctFlat trueVol as, correctAngle trueVol as],
      as'.map (fun a => (a.weight, a.space, a.rays.map fun r => (r.bc0, r.bc1, r.segs.map (·.reg)))) =
        as.map (fun a => (a.weight, a.space, a.rays.map fun r => (r.bc0, r.bc1, r.segs.map (·.reg)))) := by
  intro as' h
  simp only [List.mem_cons, List.not_mem_nil, or_false] at h
  rcases h with rfl | rfl <;>
  · simp [correctFlat, correctAngle, correctFlatAngle, scaleRay, Function.comp_def]

/-- The angles of a plane of rays as the sweep kernel uses them (moc_sweeper_kernel.inc.hpp:76-83): `pi` and `height`
are constants, `st` the sine of the polar angle of each direction. -/
def toWork (pi height : K) (l : List (K × AngleRays K)) : List (AngleWork K) :=
  l.map fun x => { iang1 := 0, iang2 := 0, rst := 1 / x.1, wt := x.2.weight * x.2.space * height * x.1 * pi,
                   rays := x.2.rays }

theorem planeVolume_toWork {K : Type} [Field K] [LinearOrder K] [IsStrictOrderedRing K] (pi height : K)
    (l : List (K × AngleRays K)) (hst : ∀ x ∈ l, x.1 ≠ 0) (first i : Nat) :
    planeVolume (i + first) ⟨first, toWork pi height l⟩ =
      4 * pi * height * weightedArea i (l.map (·.2)) := by
  unfold planeVolume weightedArea toWork
  rw [List.map_map, List.map_map, ← List.sum_map_mul_left]
  congr 1
  apply List.map_congr_left
  intro x hx
  have h := hst x hx
  simp only [Function.comp, angleVolume, tracked, lengthIn, Nat.add_right_cancel_iff]
  rw [List.sum_map_mul_left, List.sum_map_mul_left]
  field_simp
  ring

/-- **C33 meets C31**: with the ANGLE correction, or with the FLAT correction and weights of octants 1 and 2 that sum to
2, the volume the sweep kernel tracks in a crossed region is exactly `4 pi` times area times height, which is the
hypothesis of `C31_nonneg`. -/
theorem C33_kernel {K : Type} [Field K] [LinearOrder K] [IsStrictOrderedRing K] (pi height : K) (trueVol : Nat → K)
    (sts : List K) (as : List (AngleRays K)) (hlen : sts.length = as.length) (hst : ∀ x ∈ sts, x ≠ 0) (first i : Nat) :
    (weightedArea i as ≠ 0 →
      planeVolume (i + first) ⟨first, toWork pi height (sts.zip (correctAngle trueVol as))⟩ =
        4 * pi * (trueVol i * height)) ∧
    ((∀ a ∈ as, lengthIn i a.rays * a.space ≠ 0) → (as.map (·.weight)).sum = 2 →
      planeVolume (i + first) ⟨first, toWork pi height (sts.zip (correctFlat trueVol as))⟩ =
        4 * pi * (trueVol i * height)) := by
  have hz : ∀ bs : List (AngleRays K), bs.length = as.length → (sts.zip bs).map (·.2) = bs := by
    intro bs hb
    exact List.map_snd_zip (by omega)
  have hs : ∀ bs : List (AngleRays K), ∀ x ∈ sts.zip bs, x.1 ≠ 0 := fun bs x hx => hst _ (List.of_mem_zip hx).1
  refine ⟨fun hc => ?_, fun hc hw => ?_⟩
  · rw [planeVolume_toWork pi height _ (hs _), hz _ (by simp [correctAngle]), C33_angle trueVol as i hc]
    ring
  · rw [planeVolume_toWork pi height _ (hs _), hz _ (by simp [correctFlat])]
    have h1 : weightedArea i (correctFlat trueVol as) = ((as.map (·.weight)).sum / 2) * trueVol i := by
      unfold weightedArea
      have h2 : ∀ bs : List (AngleRays K), (∀ a' ∈ bs, lengthIn i a'.rays * a'.space = trueVol i) →
          (bs.map fun a => a.weight / 2 * (lengthIn i a.rays * a.space)).sum =
            ((bs.map (·.weight)).sum / 2) * trueVol i := by
        intro bs
        induction bs with
        | nil => simp
        | cons b bs ih =>
          intro hb
          rw [List.map_cons, List.sum_cons, hb b (by simp), ih (fun a h => hb a (by simp [h])), List.map_cons,
            List.sum_cons]
          ring
      rw [h2 _ (C33_flat trueVol as i hc)]
      simp [correctFlat, correctFlatAngle, Function.comp_def]
    rw [h1, hw]
    ring

/-- With the FLAT correction the tracked volume never exceeds `4 pi` times the volume, whether or not every angle
crosses the region; this is all that `C31_nonneg` needs. -/
theorem C33_kernel_le {K : Type} [Field K] [LinearOrder K] [IsStrictOrderedRing K] (pi height : K) (hpi : 0 ≤ pi)
    (hh : 0 ≤ height) (trueVol : Nat → K) (sts : List K) (as : List (AngleRays K)) (hlen : sts.length = as.length)
    (hst : ∀ x ∈ sts, x ≠ 0) (hw0 : ∀ a ∈ as, 0 ≤ a.weight) (hw : (as.map (·.weight)).sum = 2) (first i : Nat)
    (hv : 0 ≤ trueVol i) :
    planeVolume (i + first) ⟨first, toWork pi height (sts.zip (correctFlat trueVol as))⟩ ≤
      4 * pi * (trueVol i * height) := by
  rw [planeVolume_toWork pi height _ (fun x hx => hst _ (List.of_mem_zip hx).1),
    List.map_snd_zip (by simp [correctFlat]; omega)]
  have h2 : ∀ bs : List (AngleRays K), (∀ a' ∈ bs, 0 ≤ a'.weight) →
      (∀ a' ∈ bs, lengthIn i a'.rays * a'.space = trueVol i ∨ lengthIn i a'.rays * a'.space = 0) →
      weightedArea i bs ≤ ((bs.map (·.weight)).sum / 2) * trueVol i := by
    intro bs
    unfold weightedArea
    induction bs with
    | nil => intro _ _; simp
    | cons b bs ih =>
      intro hn hb
      rw [List.map_cons, List.sum_cons, List.map_cons, List.sum_cons]
      have h3 := ih (fun a h => hn a (by simp [h])) (fun a h => hb a (by simp [h]))
      have h4 := hn b (by simp)
      have h5 : b.weight / 2 * (lengthIn i b.rays * b.space) ≤ b.weight / 2 * trueVol i := by
        rcases hb b (by simp) with h | h
        · rw [h]
        · rw [h, mul_zero]; positivity
      calc _ ≤ _ := add_le_add h5 h3
        _ = _ := by ring
  have h3 := h2 (correctFlat trueVol as) (by
    intro a' ha'
    obtain ⟨a, ha, rfl⟩ := List.mem_map.mp ha'
    exact hw0 a ha) (C33_flat_any trueVol as i)
  have h4 : ((correctFlat trueVol as).map (·.weight)).sum = 2 := by
    rw [← hw]; simp [correctFlat, correctFlatAngle, Function.comp_def]
  rw [h4] at h3
  calc 4 * pi * height * weightedArea i (correctFlat trueVol as) ≤ 4 * pi * height * (2 / 2 * trueVol i) :=
        mul_le_mul_of_nonneg_left h3 (by positivity)
    _ = _ := by ring

/-- Two angles with two rays each over two regions. -/
def demoRays : List (AngleRays ℚ) :=
  [⟨3 / 4, 1 / 10, [⟨[⟨0, 2⟩, ⟨1, 3⟩], 0, 1⟩, ⟨[⟨1, 1⟩], 1, 0⟩]⟩,
   ⟨5 / 4, 1 / 7, [⟨[⟨0, 1⟩, ⟨1, 5⟩, ⟨0, 2⟩], 0, 0⟩, ⟨[⟨0, 1 / 2⟩, ⟨1, 1⟩], 1, 1⟩]⟩]

example : ∀ i < 2, (∀ a ∈ demoRays, lengthIn i a.rays * a.space ≠ 0) ∧ weightedArea i demoRays ≠ 0 := by
  decide +kernel

example : ((demoRays.map (·.weight)).sum = 2) := by decide +kernel

/-- The corrections really change the lengths. -/
example : (correctFlat (fun _ => (1 : ℚ)) demoRays).map (fun a => lengthIn 0 a.rays) = [10, 7] := by decide +kernel

end Verif.Moc
