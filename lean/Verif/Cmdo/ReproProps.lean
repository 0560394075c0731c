import Verif.Cmdo.ReproModel
import Verif.Cmdo.CorrProps
import Verif.Sn.SweepProps
import Mathlib.Algebra.BigOperators.Group.Finset.Piecewise
import Mathlib.Algebra.BigOperators.Ring.Finset
import Mathlib.Tactic.FieldSimp
import Mathlib.Tactic.IntervalCases

set_option linter.unusedSectionVars false

/-!
# C145: the corrected Sn sweep reproduces a MoC sweep
-/

namespace Verif.Cmdo

open Verif.Sn (Ax2 sweep2 upwind incoming2)
open Verif.Mesh (Dims coarseCell)
open Finset (range)

section field
variable {K : Type} [Field K]

/-! ### Labelled sums -/

theorem labelSum_nil (p : Nat → Bool) : labelSum p ([] : List (Nat × K)) = 0 := rfl

theorem labelSum_cons (p : Nat → Bool) (x : Nat × K) (l : List (Nat × K)) :
    labelSum p (x :: l) = (if p x.1 then x.2 else 0) + labelSum p l := by simp [labelSum]

theorem labelSum_append (p : Nat → Bool) (l l' : List (Nat × K)) : labelSum p (l ++ l') = labelSum p l + labelSum p l' := by
  simp [labelSum]

/-- Regions of a cell: sum of the region sums. -/
theorem labelSum_regions (N : Nat) (p : Nat → Bool) (l : List (Nat × K)) (h : ∀ x ∈ l, x.1 < N) :
    labelSum p l = ∑ r ∈ (range N).filter (fun r => p r = true), labelSum (· == r) l := by
  induction l with
  | nil => simp [labelSum_nil]
  | cons x l ih =>
    rw [labelSum_cons, ih (fun y hy => h y (List.mem_cons_of_mem _ hy))]
    simp only [labelSum_cons, Finset.sum_add_distrib]
    congr 1
    have hx := h x List.mem_cons_self
    simp only [beq_iff_eq]
    rw [Finset.sum_ite_eq]
    simp [hx]

/-! ### Beams -/

/-- Collisions of a beam, segment by segment: cross section times flux volume. -/
def beamColl (psi : K) : List (Nat × Seg K) → List (Nat × K)
  | [] => []
  | s :: l =>
    let psi' := psi - (psi - s.2.qbar) * s.2.e
    (s.1, s.2.xtrue * (s.2.t * s.2.qbar + (psi - psi') / s.2.xstr)) :: beamColl psi' l

theorem beamColl_labels (psi : K) (l : List (Nat × Seg K)) : (beamColl psi l).map Prod.fst = l.map Prod.fst := by
  induction l generalizing psi with
  | nil => rfl
  | cons s l ih => simp [beamColl, ih]

theorem beamColl_append (psi : K) (l l' : List (Nat × Seg K)) :
    beamColl psi (l ++ l') = beamColl psi l ++ beamColl (chordFw psi (l.map Prod.snd)).out l' := by
  induction l generalizing psi with
  | nil => rfl
  | cons s l ih => simp [beamColl, chordFw, ih]

theorem chord_sigt (psi : K) (l : List (Nat × Seg K)) :
    (chordFw psi (l.map Prod.snd)).sigt = ((beamColl psi l).map Prod.snd).sum := by
  induction l generalizing psi with
  | nil => rfl
  | cons s l ih => simp [beamColl, chordFw, ih]

theorem chord_norm (psi : K) (l : List (Seg K)) : (chordFw psi l).norm = (l.map Seg.t).sum := by
  induction l generalizing psi with
  | nil => rfl
  | cons s l ih => simp [chordFw, ih]

theorem gather_eq (cs : List (Chord K)) :
    (gather cs).xl = (cs.map fun c => if c.inX then c.psi else 0).sum ∧
    (gather cs).xr = (cs.map fun c => if c.outX then (chordFw c.psi c.segs).out else 0).sum ∧
    (gather cs).yl = (cs.map fun c => if c.inX then 0 else c.psi).sum ∧
    (gather cs).yr = (cs.map fun c => if c.outX then 0 else (chordFw c.psi c.segs).out).sum ∧
    (gather cs).sigt = (cs.map fun c => (chordFw c.psi c.segs).sigt).sum ∧
    (gather cs).norm = (cs.map fun c => (chordFw c.psi c.segs).norm).sum := by
  induction cs with
  | nil => simp [gather]
  | cons c cs ih =>
    obtain ⟨h1, h2, h3, h4, h5, h6⟩ := ih
    simp [gather, h1, h2, h3, h4, h5, h6]

/-- A sum over the chords of a pin, beam by beam. -/
theorem cell_sum (bs : List (Beam K)) (i j : Nat) (f : Chord K → K) :
    ((cellChords bs i j).map f).sum =
      (bs.map fun b => ((beamChords b.psi b.path).map fun c => if c.1 = (i, j) then f c.2 else 0).sum).sum := by
  unfold cellChords
  have key : ∀ l : List ((Nat × Nat) × Chord K), (((l.filter fun c => c.1 = (i, j)).map Prod.snd).map f).sum =
      (l.map fun c => if c.1 = (i, j) then f c.2 else 0).sum := by
    intro l
    induction l with
    | nil => rfl
    | cons c l ih =>
      by_cases h : c.1 = (i, j)
      · simp [List.filter_cons, h]
        simpa using ih
      · simp [List.filter_cons, h]
        simpa using ih
  rw [key]
  induction bs with
  | nil => rfl
  | cons b bs ih => simp [List.flatMap_cons, ih]

/-! ### What a sweep is like -/

/-- Consecutive pins of a beam are neighbours through the face between them. -/
def Linked (dim : Dims) (negX negY : Bool) : List (Cross K) → Prop
  | [] => True
  | [c] => if c.outX then ∀ i < dim.nx, upwind dim.nx negX i ≠ some c.ix else ∀ j < dim.ny, upwind dim.ny negY j ≠ some c.iy
  | c :: c' :: l =>
    c'.inX = c.outX ∧
    (if c.outX then c'.iy = c.iy ∧ upwind dim.nx negX c'.ix = some c.ix
      else c'.ix = c.ix ∧ upwind dim.ny negY c'.iy = some c.iy) ∧
    Linked dim negX negY (c' :: l)

/-- A beam starts at the boundary, goes from pin to pin and ends at the boundary. -/
structure BeamOk (dim : Dims) (negX negY : Bool) (cellOf : Nat → Nat × Nat) (N : Nat) (sig qbar : Nat → K)
    (b : Beam K) : Prop where
  inside : ∀ c ∈ b.path, c.ix < dim.nx ∧ c.iy < dim.ny
  first : ∀ c l, b.path = c :: l →
    if c.inX then upwind dim.nx negX c.ix = none else upwind dim.ny negY c.iy = none
  linked : Linked dim negX negY b.path
  regions : ∀ c ∈ b.path, ∀ s ∈ c.segs, s.1 < N ∧ cellOf s.1 = (c.ix, c.iy)
  data : ∀ c ∈ b.path, ∀ s ∈ c.segs, s.2.xstr = sig s.1 ∧ s.2.xtrue = sig s.1 ∧ s.2.qbar = qbar s.1

/-- Lengths of all segments of a direction. -/
def allLens (bs : List (Beam K)) : List (Nat × K) :=
  bs.flatMap fun b => (b.path.flatMap Cross.segs).map fun s => (s.1, s.2.t)

/-- Number of cells before a cell. -/
def dist (n : Nat) (neg : Bool) (i : Nat) : Nat := if neg then n - 1 - i else i

theorem dist_upwind (n : Nat) (neg : Bool) (i k : Nat) (hi : i < n) (h : upwind n neg i = some k) :
    k < n ∧ dist n neg k < dist n neg i := by
  unfold upwind at h
  unfold dist
  split_ifs at h ⊢ <;> simp at h <;> omega

theorem upwind_inj (n : Nat) (b : Bool) (i i' k : Nat) (h : upwind n b i = some k) (h' : upwind n b i' = some k) : i = i' := by
  unfold upwind at h h'
  split_ifs at h h' <;> simp at h h' <;> omega

/-- What a beam brings to pin (i, j) through its x-normal face is what it takes out of the pin before. -/
theorem beam_linked_x (dim : Dims) (negX negY : Bool) (i i' j : Nat) (hi : i < dim.nx)
    (hu : upwind dim.nx negX i = some i') (c : Cross K) (l : List (Cross K)) (psi : K)
    (h : Linked dim negX negY (c :: l)) :
    ((beamChords psi (c :: l)).map fun x => if x.1 = (i, j) then (if x.2.inX then x.2.psi else 0) else 0).sum =
    (if (c.ix, c.iy) = (i, j) then (if c.inX then psi else 0) else 0) +
    ((beamChords psi (c :: l)).map fun x =>
      if x.1 = (i', j) then (if x.2.outX then (chordFw x.2.psi x.2.segs).out else 0) else 0).sum := by
  induction l generalizing c psi with
  | nil =>
    simp only [beamChords, List.map_cons, List.map_nil, List.sum_cons, List.sum_nil, add_zero]
    by_cases hc : (c.ix, c.iy) = (i', j)
    · by_cases ho : c.outX = true
      · have h' : if c.outX then ∀ i < dim.nx, upwind dim.nx negX i ≠ some c.ix
            else ∀ j < dim.ny, upwind dim.ny negY j ≠ some c.iy := h
        rw [if_pos ho] at h'
        rw [Prod.mk.injEq] at hc
        exact absurd (hc.1 ▸ hu) (h' i hi)
      · simp [ho]
    · simp [hc]
  | cons c' l ih =>
    obtain ⟨h1, h2, h3⟩ := h
    have key := ih c' (chordFw psi (c.segs.map Prod.snd)).out h3
    have e1 : ∀ f : (Nat × Nat) × Chord K → K, ((beamChords psi (c :: c' :: l)).map f).sum =
        f ((c.ix, c.iy), ⟨c.inX, c.outX, psi, c.segs.map Prod.snd⟩) +
        ((beamChords (chordFw psi (c.segs.map Prod.snd)).out (c' :: l)).map f).sum := by
      intro f
      rw [beamChords, List.map_cons, List.sum_cons]
    rw [e1, e1, key]
    have e2 : (if (c'.ix, c'.iy) = (i, j) then (if c'.inX then (chordFw psi (c.segs.map Prod.snd)).out else 0) else 0) =
        (if (c.ix, c.iy) = (i', j) then (if c.outX then (chordFw psi (c.segs.map Prod.snd)).out else 0) else 0) := by
      rw [h1]
      by_cases ho : c.outX = true
      · rw [if_pos ho] at h2
        obtain ⟨hy, hx⟩ := h2
        have : (c'.ix, c'.iy) = (i, j) ↔ (c.ix, c.iy) = (i', j) := by
          simp only [Prod.mk.injEq]
          constructor
          · rintro ⟨rfl, rfl⟩
            rw [hu] at hx
            exact ⟨(Option.some.inj hx).symm, hy.symm⟩
          · rintro ⟨rfl, rfl⟩
            exact ⟨upwind_inj _ _ _ _ _ hx hu, hy⟩
        simp only [this]
      · simp [ho]
    simp only [e2]

theorem beam_linked_y (dim : Dims) (negX negY : Bool) (i j j' : Nat) (hj : j < dim.ny)
    (hu : upwind dim.ny negY j = some j') (c : Cross K) (l : List (Cross K)) (psi : K)
    (h : Linked dim negX negY (c :: l)) :
    ((beamChords psi (c :: l)).map fun x => if x.1 = (i, j) then (if x.2.inX then 0 else x.2.psi) else 0).sum =
    (if (c.ix, c.iy) = (i, j) then (if c.inX then 0 else psi) else 0) +
    ((beamChords psi (c :: l)).map fun x =>
      if x.1 = (i, j') then (if x.2.outX then 0 else (chordFw x.2.psi x.2.segs).out) else 0).sum := by
  induction l generalizing c psi with
  | nil =>
    simp only [beamChords, List.map_cons, List.map_nil, List.sum_cons, List.sum_nil, add_zero]
    by_cases hc : (c.ix, c.iy) = (i, j')
    · by_cases ho : c.outX = true
      · simp [ho]
      · have h' : if c.outX then ∀ i < dim.nx, upwind dim.nx negX i ≠ some c.ix
            else ∀ j < dim.ny, upwind dim.ny negY j ≠ some c.iy := h
        rw [if_neg ho] at h'
        rw [Prod.mk.injEq] at hc
        exact absurd (hc.2 ▸ hu) (h' j hj)
    · simp [hc]
  | cons c' l ih =>
    obtain ⟨h1, h2, h3⟩ := h
    have key := ih c' (chordFw psi (c.segs.map Prod.snd)).out h3
    have e1 : ∀ f : (Nat × Nat) × Chord K → K, ((beamChords psi (c :: c' :: l)).map f).sum =
        f ((c.ix, c.iy), ⟨c.inX, c.outX, psi, c.segs.map Prod.snd⟩) +
        ((beamChords (chordFw psi (c.segs.map Prod.snd)).out (c' :: l)).map f).sum := by
      intro f
      rw [beamChords, List.map_cons, List.sum_cons]
    rw [e1, e1, key]
    have e2 : (if (c'.ix, c'.iy) = (i, j) then (if c'.inX then 0 else (chordFw psi (c.segs.map Prod.snd)).out) else 0) =
        (if (c.ix, c.iy) = (i, j') then (if c.outX then 0 else (chordFw psi (c.segs.map Prod.snd)).out) else 0) := by
      rw [h1]
      by_cases ho : c.outX = true
      · simp [ho]
      · rw [if_neg ho] at h2
        obtain ⟨hx, hy⟩ := h2
        have : (c'.ix, c'.iy) = (i, j) ↔ (c.ix, c.iy) = (i, j') := by
          simp only [Prod.mk.injEq]
          constructor
          · rintro ⟨rfl, rfl⟩
            rw [hu] at hy
            exact ⟨hx.symm, (Option.some.inj hy).symm⟩
          · rintro ⟨rfl, rfl⟩
            exact ⟨hx, upwind_inj _ _ _ _ _ hy hu⟩
        simp only [this]
    simp only [e2]

variable {dim : Dims} {cellOf : Nat → Nat × Nat} {N : Nat} {sig qbar : Nat → K}

/-- C145: sums on a face are the same from both sides. -/
theorem sums_linked (negX negY : Bool) (bs : List (Beam K))
    (h : ∀ b ∈ bs, BeamOk dim negX negY cellOf N sig qbar b) (i j : Nat) (hi : i < dim.nx) (hj : j < dim.ny) :
    (∀ i', upwind dim.nx negX i = some i' → (cellSums bs i' j).xr = (cellSums bs i j).xl) ∧
    (∀ j', upwind dim.ny negY j = some j' → (cellSums bs i j').yr = (cellSums bs i j).yl) := by
  constructor
  · intro i' hu
    unfold cellSums
    rw [(gather_eq _).1, (gather_eq _).2.1, cell_sum, cell_sum]
    congr 1
    apply List.map_congr_left
    intro b hb
    have hok := h b hb
    cases hp : b.path with
    | nil => rfl
    | cons c l =>
      have := beam_linked_x dim negX negY i i' j hi hu c l b.psi (hp ▸ hok.linked)
      rw [this]
      have hf := hok.first c l hp
      have : (if (c.ix, c.iy) = (i, j) then (if c.inX then b.psi else 0) else 0) = 0 := by
        by_cases hc : (c.ix, c.iy) = (i, j)
        · by_cases hin : c.inX = true
          · rw [if_pos hin] at hf
            rw [Prod.mk.injEq] at hc
            rw [hc.1, hu] at hf
            cases hf
          · simp [hin]
        · simp [hc]
      rw [this, zero_add]
  · intro j' hu
    unfold cellSums
    rw [(gather_eq _).2.2.1, (gather_eq _).2.2.2.1, cell_sum, cell_sum]
    congr 1
    apply List.map_congr_left
    intro b hb
    have hok := h b hb
    cases hp : b.path with
    | nil => rfl
    | cons c l =>
      have := beam_linked_y dim negX negY i j j' hj hu c l b.psi (hp ▸ hok.linked)
      rw [this]
      have hf := hok.first c l hp
      have : (if (c.ix, c.iy) = (i, j) then (if c.inX then 0 else b.psi) else 0) = 0 := by
        by_cases hc : (c.ix, c.iy) = (i, j)
        · by_cases hin : c.inX = true
          · simp [hin]
          · rw [if_neg hin] at hf
            rw [Prod.mk.injEq] at hc
            rw [hc.2, hu] at hf
            cases hf
        · simp [hc]
      rw [this, zero_add]

/-- Sums over the pins of a path, by the cells of the regions. -/
theorem path_cells (cellOf : Nat → Nat × Nat) (i j : Nat) (f : Chord K → K) (g : K → List (Nat × Seg K) → List (Nat × K))
    (hg : ∀ psi l l', g psi (l ++ l') = g psi l ++ g (chordFw psi (l.map Prod.snd)).out l')
    (hnil : ∀ psi, g psi [] = [])
    (hl : ∀ psi l, (g psi l).map Prod.fst = l.map Prod.fst)
    (hf : ∀ a b psi l, f ⟨a, b, psi, l.map Prod.snd⟩ = ((g psi l).map Prod.snd).sum)
    (path : List (Cross K)) (hp : ∀ c ∈ path, ∀ s ∈ c.segs, cellOf s.1 = (c.ix, c.iy)) (psi : K) :
    ((beamChords psi path).map fun c => if c.1 = (i, j) then f c.2 else 0).sum =
      labelSum (fun r => cellOf r == (i, j)) (g psi (path.flatMap Cross.segs)) := by
  induction path generalizing psi with
  | nil => rw [List.flatMap_nil, hnil]; rfl
  | cons c l ih =>
    rw [List.flatMap_cons, hg, labelSum_append, beamChords, List.map_cons, List.sum_cons,
      ih (fun c' hc' => hp c' (List.mem_cons_of_mem _ hc'))]
    congr 1
    have hc := hp c List.mem_cons_self
    have hlab : ∀ x ∈ g psi c.segs, cellOf x.1 = (c.ix, c.iy) := by
      intro x hx
      have : x.1 ∈ (g psi c.segs).map Prod.fst := List.mem_map_of_mem hx
      rw [hl, List.mem_map] at this
      obtain ⟨s, hs, he⟩ := this
      rw [← he]; exact hc s hs
    simp only []
    rw [hf]
    unfold labelSum
    by_cases h : (c.ix, c.iy) = (i, j)
    · rw [if_pos h]
      congr 1
      apply List.map_congr_left
      intro x hx
      have := hlab x hx
      simp [this, h]
    · rw [if_neg h]
      symm
      have : (g psi c.segs).map (fun x => if (cellOf x.1 == (i, j)) = true then x.2 else 0) =
          (g psi c.segs).map (fun _ => (0 : K)) := by
        apply List.map_congr_left
        intro x hx
        rw [hlab x hx]; simp [h]
      rw [this]
      simp

/-- Collisions of a pin, summed over its regions. -/
theorem cell_sigt (negX negY : Bool) (bs : List (Beam K)) (h : ∀ b ∈ bs, BeamOk dim negX negY cellOf N sig qbar b)
    (i j : Nat) :
    (cellSums bs i j).sigt = ∑ r ∈ (range N).filter (fun r => cellOf r = (i, j)),
      (bs.map fun b => labelSum (· == r) (beamColl b.psi (b.path.flatMap Cross.segs))).sum := by
  unfold cellSums
  rw [(gather_eq _).2.2.2.2.1, cell_sum]
  have : ∀ b ∈ bs, ((beamChords b.psi b.path).map fun c => if c.1 = (i, j) then (chordFw c.2.psi c.2.segs).sigt else 0).sum =
      ∑ r ∈ (range N).filter (fun r => cellOf r = (i, j)), labelSum (· == r) (beamColl b.psi (b.path.flatMap Cross.segs)) := by
    intro b hb
    have hok := h b hb
    rw [path_cells cellOf i j (fun c => (chordFw c.psi c.segs).sigt) beamColl beamColl_append (fun _ => rfl) beamColl_labels
      (fun _ _ psi l => chord_sigt psi l) b.path (fun c hc s hs => (hok.regions c hc s hs).2) b.psi]
    rw [labelSum_regions N]
    · congr 1
      ext r; simp
    · intro x hx
      have : x.1 ∈ (beamColl b.psi (b.path.flatMap Cross.segs)).map Prod.fst := List.mem_map_of_mem hx
      rw [beamColl_labels, List.mem_map] at this
      obtain ⟨s, hs, he⟩ := this
      rw [List.mem_flatMap] at hs
      obtain ⟨c, hc, hs⟩ := hs
      rw [← he]; exact (hok.regions c hc s hs).1
  rw [List.map_congr_left this]
  clear this h
  induction bs with
  | nil => simp
  | cons b bs ih => simp only [List.map_cons, List.sum_cons, ih, Finset.sum_add_distrib]

theorem cell_norm (negX negY : Bool) (bs : List (Beam K)) (h : ∀ b ∈ bs, BeamOk dim negX negY cellOf N sig qbar b)
    (i j : Nat) :
    (cellSums bs i j).norm = ∑ r ∈ (range N).filter (fun r => cellOf r = (i, j)), labelSum (· == r) (allLens bs) := by
  unfold cellSums
  rw [(gather_eq _).2.2.2.2.2, cell_sum]
  have : ∀ b ∈ bs, ((beamChords b.psi b.path).map fun c => if c.1 = (i, j) then (chordFw c.2.psi c.2.segs).norm else 0).sum =
      ∑ r ∈ (range N).filter (fun r => cellOf r = (i, j)),
        labelSum (· == r) ((b.path.flatMap Cross.segs).map fun s => (s.1, s.2.t)) := by
    intro b hb
    have hok := h b hb
    rw [path_cells cellOf i j (fun c => (chordFw c.psi c.segs).norm) (fun _ l => l.map fun s => (s.1, s.2.t))
      (fun _ _ _ => by simp) (fun _ => rfl) (fun _ l => by simp)
      (fun _ _ psi l => by simp only []; rw [chord_norm]; simp [Function.comp_def]) b.path
      (fun c hc s hs => (hok.regions c hc s hs).2) b.psi]
    rw [labelSum_regions N]
    · congr 1
      ext r; simp
    · intro x hx
      rw [List.mem_map] at hx
      obtain ⟨s, hs, rfl⟩ := hx
      rw [List.mem_flatMap] at hs
      obtain ⟨c, hc, hs⟩ := hs
      exact (hok.regions c hc s hs).1
  rw [List.map_congr_left this]
  clear this h
  unfold allLens
  induction bs with
  | nil => simp [labelSum_nil]
  | cons b bs ih => simp only [List.map_cons, List.sum_cons, ih, List.flatMap_cons, labelSum_append, Finset.sum_add_distrib]

/-- Collisions in a region are what the beams leave there and what is emitted. -/
theorem region_coll (negX negY : Bool) (bs : List (Beam K)) (h : ∀ b ∈ bs, BeamOk dim negX negY cellOf N sig qbar b)
    (r : Nat) (hr : sig r ≠ 0) :
    (bs.map fun b => labelSum (· == r) (beamColl b.psi (b.path.flatMap Cross.segs))).sum =
      sig r * qbar r * labelSum (· == r) (allLens bs) +
      (bs.map fun b => labelSum (· == r) (beamGains b.psi (b.path.flatMap Cross.segs))).sum := by
  have one : ∀ (l : List (Nat × Seg K)) (psi : K),
      (∀ s ∈ l, s.2.xstr = sig s.1 ∧ s.2.xtrue = sig s.1 ∧ s.2.qbar = qbar s.1) →
      labelSum (· == r) (beamColl psi l) =
        sig r * qbar r * labelSum (· == r) (l.map fun s => (s.1, s.2.t)) + labelSum (· == r) (beamGains psi l) := by
    intro l
    induction l with
    | nil => intro psi _; simp [beamColl, beamGains, labelSum_nil]
    | cons s l ih =>
      intro psi hd
      obtain ⟨h1, h2, h3⟩ := hd s List.mem_cons_self
      simp only [beamColl, beamGains, List.map_cons, labelSum_cons]
      rw [ih _ (fun x hx => hd x (List.mem_cons_of_mem _ hx))]
      by_cases hs : s.1 = r
      · simp only [hs, beq_self_eq_true, if_true]
        rw [h1, h2, h3, hs]
        field_simp
        ring
      · simp [hs]
  induction bs with
  | nil => simp [allLens, labelSum_nil]
  | cons b bs ih =>
    have hb := h b List.mem_cons_self
    rw [List.map_cons, List.sum_cons, ih (fun x hx => h x (List.mem_cons_of_mem _ hx)),
      one _ _ (by
        intro s hs
        rw [List.mem_flatMap] at hs
        obtain ⟨c, hc, hs⟩ := hs
        exact hb.data c hc s hs)]
    simp only [allLens, List.flatMap_cons, labelSum_append, List.map_cons, List.sum_cons]
    ring

/-- Emission of a pin, summed over its regions. -/
theorem cell_emission (negX negY : Bool) (bs : List (Beam K)) (h : ∀ b ∈ bs, BeamOk dim negX negY cellOf N sig qbar b)
    (i j : Nat) :
    totalEmission (cellChords bs i j) = ∑ r ∈ (range N).filter (fun r => cellOf r = (i, j)),
      sig r * qbar r * labelSum (· == r) (allLens bs) := by
  have hem : ∀ l : List (Nat × Seg K), emission (l.map Prod.snd) = ((l.map fun s => (s.1, s.2.t * (s.2.xstr * s.2.qbar))).map Prod.snd).sum := by
    intro l
    induction l with
    | nil => rfl
    | cons s l ih =>
      rw [List.map_cons, List.map_cons, List.map_cons, List.sum_cons, ← ih]
      simp [emission]
  unfold totalEmission
  rw [cell_sum]
  have : ∀ b ∈ bs, ((beamChords b.psi b.path).map fun c => if c.1 = (i, j) then emission c.2.segs else 0).sum =
      ∑ r ∈ (range N).filter (fun r => cellOf r = (i, j)),
        sig r * qbar r * labelSum (· == r) ((b.path.flatMap Cross.segs).map fun s => (s.1, s.2.t)) := by
    intro b hb
    have hok := h b hb
    rw [path_cells cellOf i j (fun c => emission c.segs) (fun _ l => l.map fun s => (s.1, s.2.t * (s.2.xstr * s.2.qbar)))
      (fun _ _ _ => by simp) (fun _ => rfl) (fun _ l => by simp) (fun _ _ _ l => hem l) b.path
      (fun c hc s hs => (hok.regions c hc s hs).2) b.psi]
    have hd : ∀ s ∈ b.path.flatMap Cross.segs, s.1 < N ∧ s.2.xstr = sig s.1 ∧ s.2.qbar = qbar s.1 := by
      intro s hs
      rw [List.mem_flatMap] at hs
      obtain ⟨c, hc, hs⟩ := hs
      exact ⟨(hok.regions c hc s hs).1, (hok.data c hc s hs).1, (hok.data c hc s hs).2.2⟩
    rw [labelSum_regions N]
    · refine Finset.sum_congr (by ext r; simp) fun r _ => ?_
      generalize b.path.flatMap Cross.segs = l at hd
      induction l with
      | nil => simp [labelSum_nil]
      | cons s l ih =>
        simp only [List.map_cons, labelSum_cons]
        rw [ih (fun x hx => hd x (List.mem_cons_of_mem _ hx))]
        obtain ⟨-, h2, h3⟩ := hd s List.mem_cons_self
        by_cases hs : s.1 = r
        · simp only [hs, beq_self_eq_true, if_true]
          rw [h2, h3, hs]
          ring
        · simp [hs]
    · intro x hx
      rw [List.mem_map] at hx
      obtain ⟨s, hs, rfl⟩ := hx
      exact (hd s hs).1
  rw [List.map_congr_left this]
  clear this h
  unfold allLens
  induction bs with
  | nil => simp [labelSum_nil]
  | cons b bs ih =>
    simp only [List.map_cons, List.sum_cons, ih, List.flatMap_cons, labelSum_append, mul_add, Finset.sum_add_distrib]

theorem cell_segs (negX negY : Bool) (bs : List (Beam K)) (h : ∀ b ∈ bs, BeamOk dim negX negY cellOf N sig qbar b)
    (i j : Nat) (hsig : ∀ r < N, sig r ≠ 0) :
    ∀ c ∈ cellChords bs i j, ∀ s ∈ c.segs, s.xtrue = s.xstr ∧ s.xstr ≠ 0 := by
  intro c hc s hs
  unfold cellChords at hc
  simp only [List.mem_map, List.mem_filter, List.mem_flatMap] at hc
  obtain ⟨x, ⟨⟨b, hb, hx⟩, -⟩, rfl⟩ := hc
  have hok := h b hb
  have key : ∀ (l : List (Cross K)) (psi : K), x ∈ beamChords psi l → ∃ c ∈ l, x.2.segs = c.segs.map Prod.snd := by
    intro l
    induction l with
    | nil => intro psi hx; simp [beamChords] at hx
    | cons c l ih =>
      intro psi hx
      rw [beamChords, List.mem_cons] at hx
      rcases hx with rfl | hx
      · exact ⟨c, List.mem_cons_self, rfl⟩
      · obtain ⟨c', hc', he⟩ := ih _ hx
        exact ⟨c', List.mem_cons_of_mem _ hc', he⟩
  obtain ⟨c, hc, he⟩ := key _ _ hx
  rw [he, List.mem_map] at hs
  obtain ⟨s', hs', rfl⟩ := hs
  obtain ⟨h1, h2, -⟩ := hok.data c hc s' hs'
  rw [h1, h2]
  exact ⟨rfl, hsig _ (hok.regions c hc s' hs').1⟩

/-! ### The kernel -/

/-- What the correction worker sees of a segment of the kernel. -/
def seen (e : Moc.Seg K → K) (q sig : Nat → K) (rst : K) (first : Nat) (s : Moc.Seg K) : Nat × Seg K :=
  (s.reg + first, ⟨s.len * rst, sig (s.reg + first), sig (s.reg + first), q (s.reg + first), e s⟩)

/-- **C145, link to the kernel.**  A beam leaves in the regions and at its end what the MoC kernel computes for the ray. -/
theorem C145_kernel (e : Moc.Seg K → K) (q sig : Nat → K) (rst wt : K) (first : Nat) (l : List (Moc.Seg K)) (psi : K)
    (t : Nat → K) :
    (Moc.walk e q wt first l psi t).1 = (chordFw psi ((l.map (seen e q sig rst first)).map Prod.snd)).out ∧
    ∀ r, (Moc.walk e q wt first l psi t).2 r = t r + wt * labelSum (· == r) (beamGains psi (l.map (seen e q sig rst first))) := by
  induction l generalizing psi t with
  | nil => simp [Moc.walk, chordFw, beamGains, labelSum_nil]
  | cons s l ih =>
    obtain ⟨h1, h2⟩ := ih (psi - (psi - q (s.reg + first)) * e s)
      (Moc.upd t (s.reg + first) (t (s.reg + first) + (psi - q (s.reg + first)) * e s * wt))
    refine ⟨?_, fun r => ?_⟩
    · rw [Moc.walk, h1]
      simp [chordFw, seen]
    · rw [Moc.walk, h2 r]
      simp only [List.map_cons, beamGains, labelSum_cons, seen, Moc.upd]
      by_cases hr : r = s.reg + first
      · subst hr
        simp
        ring
      · have : ¬ (s.reg + first = r) := fun h => hr h.symm
        simp [hr, this]

end field

section ordered
variable {K : Type} [Field K] [LinearOrder K] [IsStrictOrderedRing K]

/-! ### The plane -/

/-- One direction of a plane: beams from boundary to boundary, cosines and spacings that belong together, tracks corrected
to the areas of the regions (C33), and Sn boundary values that are the averages of the MoC values on the boundary. -/
structure DirOk (dim : Dims) (dx dy : Nat → K) (cellOf : Nat → Nat × Nat) (N : Nat) (sig qbar area : Nat → K) (d : Dir K)
    (b : Ax2 → Nat → K) : Prop where
  beams : ∀ x ∈ d.beams, BeamOk dim d.negX d.negY cellOf N sig qbar x
  pos : ∀ i < dim.nx, ∀ j < dim.ny, Positive (cellSums d.beams i j)
  ox : 0 < d.ox
  oy : 0 < d.oy
  areaX : 0 < d.areaX
  areaY : 0 < d.areaY
  tubeX : d.ox * d.areaX = d.tube
  tubeY : d.oy * d.areaY = d.tube
  tracks : ∀ r < N, labelSum (· == r) (allLens d.beams) * d.tube = area r
  bx : ∀ i < dim.nx, ∀ j < dim.ny, upwind dim.nx d.negX i = none →
    b .x j = (cellSums d.beams i j).xl * d.areaX / dy j
  byy : ∀ i < dim.nx, ∀ j < dim.ny, upwind dim.ny d.negY j = none →
    b .y i = (cellSums d.beams i j).yl * d.areaY / dx i

/-- The pins: regions fill them, the Sn source is the area average of the MoC source. -/
structure PlaneOk (dim : Dims) (dx dy : Nat → K) (cellOf : Nat → Nat × Nat) (N : Nat) (sig qbar area : Nat → K)
    (xstr q : Nat → Nat → K) : Prop where
  hdx : ∀ i < dim.nx, 0 < dx i
  hdy : ∀ j < dim.ny, 0 < dy j
  hxstr : ∀ i < dim.nx, ∀ j < dim.ny, 0 < xstr i j
  hsig : ∀ r < N, 0 < sig r
  harea : ∀ r < N, 0 < area r
  fill : ∀ i < dim.nx, ∀ j < dim.ny, ∑ r ∈ (range N).filter (fun r => cellOf r = (i, j)), area r = dx i * dy j
  src : ∀ i < dim.nx, ∀ j < dim.ny,
    q i j * (dx i * dy j) = ∑ r ∈ (range N).filter (fun r => cellOf r = (i, j)), sig r * qbar r * area r

/-- What is to be reproduced in one direction: the averages of the MoC flux on all faces, and the collisions of the pins. -/
def Reproduced (dim : Dims) (dx dy : Nat → K) (xstr : Nat → Nat → K) (d : Dir K) (s : Sn.State Ax2 K) : Prop :=
  ∀ i < dim.nx, ∀ j < dim.ny,
    (s.out (coarseCell dim ⟨i, j, 0⟩)).2 .x = (cellSums d.beams i j).xr * d.areaX / dy j ∧
    (s.out (coarseCell dim ⟨i, j, 0⟩)).2 .y = (cellSums d.beams i j).yr * d.areaY / dx i ∧
    xstr i j * (s.out (coarseCell dim ⟨i, j, 0⟩)).1 = (cellSums d.beams i j).sigt / (cellSums d.beams i j).norm

variable {dim : Dims} {dx dy : Nat → K} {cellOf : Nat → Nat × Nat} {N : Nat} {sig qbar area : Nat → K}
  {xstr q : Nat → Nat → K}

theorem norm_tube (h : PlaneOk dim dx dy cellOf N sig qbar area xstr q) (d : Dir K) (b : Ax2 → Nat → K)
    (hd : DirOk dim dx dy cellOf N sig qbar area d b) (i j : Nat) (hi : i < dim.nx) (hj : j < dim.ny) :
    (cellSums d.beams i j).norm * d.tube = dx i * dy j := by
  rw [cell_norm d.negX d.negY d.beams hd.beams, ← h.fill i hi j hj, Finset.sum_mul]
  refine Finset.sum_congr rfl fun r hr => ?_
  exact hd.tracks r (Finset.mem_range.mp (Finset.mem_filter.mp hr).1)

theorem emission_norm (h : PlaneOk dim dx dy cellOf N sig qbar area xstr q) (d : Dir K) (b : Ax2 → Nat → K)
    (hd : DirOk dim dx dy cellOf N sig qbar area d b) (i j : Nat) (hi : i < dim.nx) (hj : j < dim.ny) :
    totalEmission (cellChords d.beams i j) / (gather (cellChords d.beams i j)).norm = q i j := by
  have hn := norm_tube h d b hd i j hi hj
  have hp := (hd.pos i hi j hj).norm
  have ht : 0 < d.tube := by rw [← hd.tubeX]; exact mul_pos hd.ox hd.areaX
  have hs := h.src i hi j hj
  have he : totalEmission (cellChords d.beams i j) * d.tube = q i j * (dx i * dy j) := by
    rw [hs, cell_emission d.negX d.negY d.beams hd.beams, Finset.sum_mul]
    refine Finset.sum_congr rfl fun r hr => ?_
    rw [mul_assoc, hd.tracks r (Finset.mem_range.mp (Finset.mem_filter.mp hr).1)]
  change totalEmission (cellChords d.beams i j) / (cellSums d.beams i j).norm = q i j
  rw [div_eq_iff hp.ne']
  apply mul_right_cancel₀ ht.ne'
  rw [he, mul_assoc, hn]

/-- The corrected cell, given the MoC averages on its upwind faces. -/
theorem cell_repro (h : PlaneOk dim dx dy cellOf N sig qbar area xstr q) (hsq : ∀ i < dim.nx, ∀ j < dim.ny, dx i = dy j)
    (d : Dir K) (b : Ax2 → Nat → K) (hd : DirOk dim dx dy cellOf N sig qbar area d b) (i j : Nat) (hi : i < dim.nx)
    (hj : j < dim.ny) (inc : Ax2 → K) (hx : inc .x = (cellSums d.beams i j).xl * d.areaX / dy j)
    (hy : inc .y = (cellSums d.beams i j).yl * d.areaY / dx i) :
    let r := snEval d dx dy xstr q i j inc
    r.2 .x = (cellSums d.beams i j).xr * d.areaX / dy j ∧ r.2 .y = (cellSums d.beams i j).yr * d.areaY / dx i ∧
    xstr i j * r.1 = (cellSums d.beams i j).sigt / (cellSums d.beams i j).norm := by
  have hw := hsq i hi j hj
  have hn := norm_tube h d b hd i j hi hj
  have ht : 0 < d.tube := by rw [← hd.tubeX]; exact mul_pos hd.ox hd.areaX
  have key := C39_rays_partial (cellChords d.beams i j)
    (cell_segs d.negX d.negY d.beams hd.beams i j (fun r hr => (h.hsig r hr).ne')) (hd.pos i hi j hj) 1 d.tube d.areaX d.areaY
    (dy j) (xstr i j) d.ox d.oy hd.areaX hd.areaY (h.hdy j hj) (h.hxstr i hi j hj) hd.ox hd.oy
    (by rw [hd.tubeX, mul_one]) (by rw [hd.tubeY, mul_one])
    (by rw [mul_one]; change (cellSums d.beams i j).norm * d.tube = _; rw [hn, hw])
  dsimp only at key
  rw [emission_norm h d b hd i j hi hj] at key
  intro r
  simp only [r, snEval, hx, hy]
  rw [hw]
  exact key

/-- **C145, one direction (partial: square pins, no splitting).**  The corrected Sn sweep through the whole plane reproduces
the averages of the MoC flux on all faces, and the collisions of all pins; at the far boundary too. -/
theorem C145_direction_partial (h : PlaneOk dim dx dy cellOf N sig qbar area xstr q)
    (hsq : ∀ i < dim.nx, ∀ j < dim.ny, dx i = dy j) (t : Nat → K) (d : Dir K) (b : Ax2 → Nat → K)
    (hd : DirOk dim dx dy cellOf N sig qbar area d b) :
    let s := snDir dim dx dy xstr q t (d, b)
    Reproduced dim dx dy xstr d s ∧
    (∀ j < dim.ny, 0 < dim.nx → s.flux .x j = (cellSums d.beams (Sn.last dim.nx d.negX) j).xr * d.areaX / dy j) ∧
    (∀ i < dim.nx, 0 < dim.ny → s.flux .y i = (cellSums d.beams i (Sn.last dim.ny d.negY)).yr * d.areaY / dx i) := by
  intro s
  have hup : ∀ i < dim.nx, ∀ j < dim.ny, _ := fun i hi j hj =>
    Sn.C30_upwind_2d dim d.negX d.negY d.wgt (snEval d dx dy xstr q) ⟨b, t, fun _ => (0, fun _ => 0)⟩ i j hi hj
  have hrep : Reproduced dim dx dy xstr d s := by
    have key : ∀ n : Nat, ∀ i < dim.nx, ∀ j < dim.ny, dist dim.nx d.negX i + dist dim.ny d.negY j = n →
        (s.out (coarseCell dim ⟨i, j, 0⟩)).2 .x = (cellSums d.beams i j).xr * d.areaX / dy j ∧
        (s.out (coarseCell dim ⟨i, j, 0⟩)).2 .y = (cellSums d.beams i j).yr * d.areaY / dx i ∧
        xstr i j * (s.out (coarseCell dim ⟨i, j, 0⟩)).1 = (cellSums d.beams i j).sigt / (cellSums d.beams i j).norm := by
      intro n
      induction n using Nat.strong_induction_on with
      | _ n ih =>
        intro i hi j hj hn
        have hl := sums_linked d.negX d.negY d.beams hd.beams i j hi hj
        rw [show s.out (coarseCell dim ⟨i, j, 0⟩) = _ from (hup i hi j hj).1]
        refine cell_repro h hsq d b hd i j hi hj _ ?_ ?_
        · unfold incoming2
          cases hu : upwind dim.nx d.negX i with
          | none => exact hd.bx i hi j hj hu
          | some i' =>
            obtain ⟨h1, h2⟩ := dist_upwind _ _ _ _ hi hu
            simp only []
            rw [← hl.1 i' hu]
            exact (ih _ (by omega) i' h1 j hj rfl).1
        · unfold incoming2
          cases hu : upwind dim.ny d.negY j with
          | none => exact hd.byy i hi j hj hu
          | some j' =>
            obtain ⟨h1, h2⟩ := dist_upwind _ _ _ _ hj hu
            simp only []
            rw [← hl.2 j' hu]
            exact (ih _ (by omega) i hi j' h1 rfl).2.1
    intro i hi j hj
    exact key _ i hi j hj rfl
  have hlast : ∀ n neg, 0 < n → Sn.last n neg < n := by
    intro n neg hn
    unfold Sn.last
    split <;> omega
  refine ⟨hrep, fun j hj hx => ?_, fun i hi hy => ?_⟩
  · rw [show s.flux .x j = _ from (hup 0 hx j hj).2.2.1]
    exact (hrep _ (hlast _ _ hx) j hj).1
  · rw [show s.flux .y i = _ from (hup i hi 0 hy).2.2.2]
    exact (hrep i hi _ (hlast _ _ hy)).2.1

/-- **C145 (partial: square pins, no splitting).**  After all directions the Sn scalar flux of a pin is the area average of
the MoC scalar flux of its regions, if its cross section is the flux-weighted average. -/
theorem C145_flux_partial (h : PlaneOk dim dx dy cellOf N sig qbar area xstr q)
    (hsq : ∀ i < dim.nx, ∀ j < dim.ny, dx i = dy j) (ds : List (Dir K × (Ax2 → Nat → K)))
    (hds : ∀ d ∈ ds, DirOk dim dx dy cellOf N sig qbar area d.1 d.2) (fpi height : K) (hh : 0 < height)
    (hw : (ds.map fun d => d.1.wgt).sum = fpi)
    (i j : Nat) (hi : i < dim.nx) (hj : j < dim.ny) :
    let phi := mocFlux fpi height sig area qbar (ds.map Prod.fst)
    let cell := (range N).filter (fun r => cellOf r = (i, j))
    xstr i j * (snFlux dim dx dy xstr q ds (coarseCell dim ⟨i, j, 0⟩) * (dx i * dy j)) = ∑ r ∈ cell, sig r * area r * phi r ∧
    (xstr i j * ∑ r ∈ cell, area r * phi r = ∑ r ∈ cell, sig r * area r * phi r →
      snFlux dim dx dy xstr q ds (coarseCell dim ⟨i, j, 0⟩) * (dx i * dy j) = ∑ r ∈ cell, area r * phi r) := by
  intro phi cell
  have first : xstr i j * (snFlux dim dx dy xstr q ds (coarseCell dim ⟨i, j, 0⟩) * (dx i * dy j)) =
      ∑ r ∈ cell, sig r * area r * phi r := by
    have gen : ∀ (l : List (Dir K × (Ax2 → Nat → K))) (t : Nat → K),
        (∀ d ∈ l, DirOk dim dx dy cellOf N sig qbar area d.1 d.2) →
        xstr i j * ((l.foldl (fun t d => (snDir dim dx dy xstr q t d).tflux) t) (coarseCell dim ⟨i, j, 0⟩) * (dx i * dy j)) =
        xstr i j * (t (coarseCell dim ⟨i, j, 0⟩) * (dx i * dy j)) +
        ∑ r ∈ cell, ((l.map fun d => d.1.wgt).sum * (sig r * qbar r * area r) + mocGain 1 (l.map Prod.fst) r) := by
      intro l
      induction l with
      | nil => intro t _; simp [mocGain]
      | cons d l ih =>
        intro t hl
        have hd := hl d List.mem_cons_self
        rw [List.foldl_cons, ih _ (fun x hx => hl x (List.mem_cons_of_mem _ hx))]
        have hrep := ((C145_direction_partial h hsq t d.1 d.2 hd).1 i hi j hj).2.2
        have htf := (Sn.C30_upwind_2d dim d.1.negX d.1.negY d.1.wgt (snEval d.1 dx dy xstr q)
          ⟨d.2, t, fun _ => (0, fun _ => 0)⟩ i j hi hj).2.1
        have hn := norm_tube h d.1 d.2 hd i j hi hj
        have hp := (hd.pos i hi j hj).norm
        have htf' : (snDir dim dx dy xstr q t d).tflux (coarseCell dim ⟨i, j, 0⟩) = t (coarseCell dim ⟨i, j, 0⟩) +
            ((snDir dim dx dy xstr q t d).out (coarseCell dim ⟨i, j, 0⟩)).1 * d.1.wgt := htf
        have hcoll : (cellSums d.1.beams i j).sigt * d.1.tube = ∑ r ∈ cell, (sig r * qbar r * area r + d.1.tube *
            (d.1.beams.map fun b => labelSum (· == r) (beamGains b.psi (b.path.flatMap Cross.segs))).sum) := by
          rw [cell_sigt d.1.negX d.1.negY d.1.beams hd.beams, Finset.sum_mul]
          refine Finset.sum_congr rfl fun r hr => ?_
          have hr' := Finset.mem_range.mp (Finset.mem_filter.mp hr).1
          rw [region_coll d.1.negX d.1.negY d.1.beams hd.beams r (h.hsig r hr').ne', ← hd.tracks r hr']
          ring
        have hmul : xstr i j * (((snDir dim dx dy xstr q t d).out (coarseCell dim ⟨i, j, 0⟩)).1 * d.1.wgt * (dx i * dy j)) =
            d.1.wgt * ((cellSums d.1.beams i j).sigt * d.1.tube) := by
          have : xstr i j * ((snDir dim dx dy xstr q t d).out (coarseCell dim ⟨i, j, 0⟩)).1 =
            (cellSums d.1.beams i j).sigt / (cellSums d.1.beams i j).norm := hrep
          rw [← hn]
          calc _ = (xstr i j * ((snDir dim dx dy xstr q t d).out (coarseCell dim ⟨i, j, 0⟩)).1) * d.1.wgt *
                ((cellSums d.1.beams i j).norm * d.1.tube) := by ring
            _ = _ := by
              rw [this]
              field_simp
        rw [htf', add_mul, mul_add, hmul, hcoll, Finset.mul_sum, add_assoc, ← Finset.sum_add_distrib]
        congr 1
        refine Finset.sum_congr rfl fun r _ => ?_
        simp only [mocGain, List.map_cons, List.sum_cons]
        ring
    have := gen ds (fun _ => 0) hds
    unfold snFlux
    rw [this, zero_mul, mul_zero, zero_add, hw]
    refine Finset.sum_congr rfl fun r hr => ?_
    have hr' := Finset.mem_range.mp (Finset.mem_filter.mp hr).1
    have h1 := (h.hsig r hr').ne'
    have h2 := (h.harea r hr').ne'
    have h3 : mocGain height (ds.map Prod.fst) r = height * mocGain 1 (ds.map Prod.fst) r := by
      unfold mocGain
      rw [← List.sum_map_mul_left]
      congr 1
      exact List.map_congr_left fun d _ => by ring
    have h4 := hh.ne'
    simp only [phi, mocFlux, Moc.finish]
    rw [h3]
    field_simp
    ring
  refine ⟨first, fun hx => ?_⟩
  apply mul_left_cancel₀ (h.hxstr i hi j hj).ne'
  rw [first, hx]

/-- The claim for pins of any shape. -/
def C145_claim (K : Type) [Field K] [LinearOrder K] [IsStrictOrderedRing K] : Prop :=
  ∀ (dim : Dims) (dx dy : Nat → K) (cellOf : Nat → Nat × Nat) (N : Nat) (sig qbar area : Nat → K) (xstr q : Nat → Nat → K),
    PlaneOk dim dx dy cellOf N sig qbar area xstr q → ∀ (t : Nat → K) (d : Dir K) (b : Ax2 → Nat → K),
    DirOk dim dx dy cellOf N sig qbar area d b → Reproduced dim dx dy xstr d (snDir dim dx dy xstr q t (d, b))

end ordered

/-! ### Witness against the claim: one pin of 1 x 2 with a flat flux of one -/

/-- Two beams, straight through in x and in y. -/
def flatDir : Dir ℚ :=
  ⟨false, false, 1/4, 1/2, 1, 1/2, 2, 1,
    [⟨1, [⟨0, 0, true, true, [(0, ⟨2, 1, 1, 1, 1/2⟩)]⟩]⟩, ⟨1, [⟨0, 0, false, false, [(0, ⟨2, 1, 1, 1, 1/2⟩)]⟩]⟩]⟩

theorem flat_plane : PlaneOk (K := ℚ) ⟨1, 1, 1⟩ (fun _ => 1) (fun _ => 2) (fun _ => (0, 0)) 1 (fun _ => 1) (fun _ => 1)
    (fun _ => 2) (fun _ _ => 1) (fun _ _ => 1) := by
  constructor <;> decide +kernel

theorem flat_dir : DirOk (K := ℚ) ⟨1, 1, 1⟩ (fun _ => 1) (fun _ => 2) (fun _ => (0, 0)) 1 (fun _ => 1) (fun _ => 1)
    (fun _ => 2) flatDir (fun _ _ => 1) where
  beams := by
    intro x hx
    simp only [flatDir, List.mem_cons, List.not_mem_nil, or_false] at hx
    rcases hx with rfl | rfl
    · refine ⟨by decide +kernel, ?_, ?_, by decide +kernel, by decide +kernel⟩
      · intro c l h
        cases h
        decide +kernel
      · show if true = true then _ else _
        decide +kernel
    · refine ⟨by decide +kernel, ?_, ?_, by decide +kernel, by decide +kernel⟩
      · intro c l h
        cases h
        decide +kernel
      · show if false = true then _ else _
        decide +kernel
  pos := by
    intro i hi j hj
    have hi' : i = 0 := Nat.lt_one_iff.mp hi
    have hj' : j = 0 := Nat.lt_one_iff.mp hj
    subst hi' hj'
    constructor <;> decide +kernel
  ox := by decide +kernel
  oy := by decide +kernel
  areaX := by decide +kernel
  areaY := by decide +kernel
  tubeX := by decide +kernel
  tubeY := by decide +kernel
  tracks := by decide +kernel
  bx := by decide +kernel
  byy := by decide +kernel

theorem C145_claim_false : ¬ C145_claim ℚ := by
  intro h
  have := (h _ _ _ _ _ _ _ _ _ _ flat_plane (fun _ => 0) flatDir _ flat_dir 0 (by decide) 0 (by decide)).1
  revert this
  decide +kernel

/-! ### Example: two pins, two directions -/

/-- Up and to the right: one beam through both pins, one through the left pin. -/
def exUp : Dir ℚ :=
  ⟨false, false, 1/2, 1/2, 1, 1/2, 1, 1,
    [⟨2, [⟨0, 0, true, true, [(0, ⟨1, 1, 1, 1, 1/2⟩)]⟩, ⟨1, 0, true, false, [(1, ⟨2, 2, 2, 1/2, 3/4⟩)]⟩]⟩,
     ⟨3, [⟨0, 0, false, false, [(0, ⟨1, 1, 1, 1, 1/2⟩)]⟩]⟩]⟩

/-- The same rays backwards. -/
def exDown : Dir ℚ :=
  ⟨true, true, 1/2, 1/2, 1, 1/2, 1, 1,
    [⟨1, [⟨1, 0, false, true, [(1, ⟨2, 2, 2, 1/2, 3/4⟩)]⟩, ⟨0, 0, true, true, [(0, ⟨1, 1, 1, 1, 1/2⟩)]⟩]⟩,
     ⟨5, [⟨0, 0, false, false, [(0, ⟨1, 1, 1, 1, 1/2⟩)]⟩]⟩]⟩

def exCell (r : Nat) : Nat × Nat := (r, 0)
def exSig (r : Nat) : ℚ := if r = 0 then 1 else 2
def exQbar (r : Nat) : ℚ := if r = 0 then 1 else 1/2

def exDirs : List (Dir ℚ × (Ax2 → Nat → ℚ)) :=
  [(exUp, fun a i => match a with | .x => 2 | .y => if i = 0 then 3 else 0),
   (exDown, fun a i => match a with | .x => 0 | .y => if i = 0 then 5 else 1)]

theorem ex_plane : PlaneOk (K := ℚ) ⟨2, 1, 1⟩ (fun _ => 1) (fun _ => 1) exCell 2 exSig exQbar (fun _ => 1)
    (fun i _ => exSig i) (fun _ _ => 1) := by
  constructor <;> decide +kernel

theorem ex_dirs : ∀ d ∈ exDirs, DirOk (K := ℚ) ⟨2, 1, 1⟩ (fun _ => 1) (fun _ => 1) exCell 2 exSig exQbar (fun _ => 1) d.1 d.2 := by
  intro d hd
  simp only [exDirs, List.mem_cons, List.not_mem_nil, or_false] at hd
  rcases hd with rfl | rfl
  · refine ⟨?_, ?_, by decide +kernel, by decide +kernel, by decide +kernel, by decide +kernel, by decide +kernel,
      by decide +kernel, by decide +kernel, by decide +kernel, by decide +kernel⟩
    · intro x hx
      simp only [exUp, List.mem_cons, List.not_mem_nil, or_false] at hx
      rcases hx with rfl | rfl
      · refine ⟨by decide +kernel, ?_, ?_, by decide +kernel, by decide +kernel⟩
        · intro c l h
          cases h
          decide +kernel
        · refine ⟨rfl, by decide +kernel, ?_⟩
          show if false = true then _ else _
          decide +kernel
      · refine ⟨by decide +kernel, ?_, ?_, by decide +kernel, by decide +kernel⟩
        · intro c l h
          cases h
          decide +kernel
        · show if false = true then _ else _
          decide +kernel
    · intro i hi j hj
      have hj' : j = 0 := Nat.lt_one_iff.mp hj
      subst hj'
      change i < 2 at hi
      interval_cases i <;> constructor <;> decide +kernel
  · refine ⟨?_, ?_, by decide +kernel, by decide +kernel, by decide +kernel, by decide +kernel, by decide +kernel,
      by decide +kernel, by decide +kernel, by decide +kernel, by decide +kernel⟩
    · intro x hx
      simp only [exDown, List.mem_cons, List.not_mem_nil, or_false] at hx
      rcases hx with rfl | rfl
      · refine ⟨by decide +kernel, ?_, ?_, by decide +kernel, by decide +kernel⟩
        · intro c l h
          cases h
          decide +kernel
        · refine ⟨rfl, by decide +kernel, ?_⟩
          show if true = true then _ else _
          decide +kernel
      · refine ⟨by decide +kernel, ?_, ?_, by decide +kernel, by decide +kernel⟩
        · intro c l h
          cases h
          decide +kernel
        · show if false = true then _ else _
          decide +kernel
    · intro i hi j hj
      have hj' : j = 0 := Nat.lt_one_iff.mp hj
      subst hj'
      change i < 2 at hi
      interval_cases i <;> constructor <;> decide +kernel

/-- Sn scalar flux of the two pins: the MoC scalar flux, which is not flat. -/
example : snFlux ⟨2, 1, 1⟩ (fun _ => 1) (fun _ => 1) (fun i _ => exSig i) (fun _ _ => 1) exDirs 0 =
      mocFlux 2 3 exSig (fun _ => 1) exQbar (exDirs.map Prod.fst) 0 ∧
    snFlux ⟨2, 1, 1⟩ (fun _ => 1) (fun _ => 1) (fun i _ => exSig i) (fun _ _ => 1) exDirs 1 =
      mocFlux 2 3 exSig (fun _ => 1) exQbar (exDirs.map Prod.fst) 1 ∧
    mocFlux 2 3 exSig (fun _ => 1) exQbar (exDirs.map Prod.fst) 0 ≠ mocFlux 2 3 exSig (fun _ => 1) exQbar (exDirs.map Prod.fst) 1 := by
  decide +kernel

end Verif.Cmdo
