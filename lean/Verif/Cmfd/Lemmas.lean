import Verif.Cmfd.Model
import Verif.Mesh.Props
import Mathlib.Algebra.BigOperators.Ring.Finset
import Mathlib.Algebra.BigOperators.Intervals
import Mathlib.Tactic.Ring
import Mathlib.Tactic.Linarith
import Mathlib.Tactic.LinearCombination

/-! Lemmas about the rows of the CMFD matrix. -/

namespace Verif.Cmfd

open Verif.Mesh Verif.Mesh.Spec

variable {K : Type} [Field K] [LinearOrder K]

theorem surf_enc (d : Dims) (i j k : Nat) (s : Surface) (f : Face) (hf : faceOf i j k s = some f)
    (hi : i < d.nx) (hj : j < d.ny) (hk : k < d.nz) : surf d (coarseCell d ⟨i, j, k⟩) s = enc d f := by
  unfold surf
  rw [coarseSurf_enc d i j k s f hf hi hj hk]; rfl

theorem side_nat (flux : Nat → K) (n : Nat) : side flux (n : Int) = flux n := by
  unfold side
  rw [if_pos (Int.natCast_nonneg n)]; rfl

theorem side_idx (d : Dims) (flux : Nat → K) (i j k : Nat) :
    side flux (idx d.nx d.ny (some (i, j, k))) = flux (coarseCell d ⟨i, j, k⟩) := by
  rw [C10_natural_order]
  exact side_nat flux _

/-- Directions along an axis. -/
def up (s : Surface) : Bool := s == .EAST || s == .NORTH || s == .TOP

theorem face_up (nx ny nz i j k : Nat) (s : Surface) (f : Face) (hu : up s = true) (hf : faceOf i j k s = some f)
    (hi : i < nx) (hj : j < ny) (hk : k < nz) :
    below f = some (i, j, k) ∧ above nx ny nz f = adjacent nx ny nz i j k s := by
  cases s <;> simp [up] at hu <;> simp only [faceOf, Option.some.injEq] at hf <;> subst hf <;>
    simp only [below, above, adjacent]
  · refine ⟨by simp, ?_⟩
    by_cases h : i + 1 = nx
    · rw [if_pos h, if_neg (by omega)]
    · rw [if_neg h, if_pos (by omega)]
  · refine ⟨by simp, ?_⟩
    by_cases h : j + 1 = ny
    · rw [if_pos h, if_neg (by omega)]
    · rw [if_neg h, if_pos (by omega)]
  · refine ⟨by simp, ?_⟩
    by_cases h : k + 1 = nz
    · rw [if_pos h, if_neg (by omega)]
    · rw [if_neg h, if_pos (by omega)]

theorem face_down (nx ny nz i j k : Nat) (s : Surface) (f : Face) (hu : up s = false) (hf : faceOf i j k s = some f)
    (hi : i < nx) (hj : j < ny) (hk : k < nz) :
    above nx ny nz f = some (i, j, k) ∧ below f = adjacent nx ny nz i j k s := by
  cases s <;> simp [up] at hu <;> simp only [faceOf, Option.some.injEq, reduceCtorEq] at hf <;> subst hf <;>
    simp only [below, above, adjacent]
  · refine ⟨by rw [if_neg (by omega)], ?_⟩
    by_cases h : i = 0
    · rw [if_pos h, if_neg (by omega)]
    · rw [if_neg h, if_pos (by omega)]
  · refine ⟨by rw [if_neg (by omega)], ?_⟩
    by_cases h : j = 0
    · rw [if_pos h, if_neg (by omega)]
    · rw [if_neg h, if_pos (by omega)]
  · refine ⟨by rw [if_neg (by omega)], ?_⟩
    by_cases h : k = 0
    · rw [if_pos h, if_neg (by omega)]
    · rw [if_neg h, if_pos (by omega)]

theorem face_exists (i j k : Nat) (s : Surface) (hs : s ≠ .INTERNAL) : ∃ f, faceOf i j k s = some f := by
  cases s <;> simp [faceOf] at hs ⊢

theorem signed_up (s : Surface) (hs : s ≠ .INTERNAL) (x : K) : signed s x = if up s then x else -x := by
  cases s <;> simp [signed, up] at hs ⊢

/-- Outflow through one face of a cell, in terms of the elements of the row. -/
theorem outflow (d : Dims) (dt dh flux : Nat → K) (i j k : Nat) (s : Surface) (hs : s ≠ .INTERNAL)
    (hi : i < d.nx) (hj : j < d.ny) (hk : k < d.nz) :
    signed s (currentAt d dt dh flux (surf d (coarseCell d ⟨i, j, k⟩) s)) =
      (dt (surf d (coarseCell d ⟨i, j, k⟩) s) + signed s (dh (surf d (coarseCell d ⟨i, j, k⟩) s))) *
        flux (coarseCell d ⟨i, j, k⟩) +
      (signed s (dh (surf d (coarseCell d ⟨i, j, k⟩) s)) - dt (surf d (coarseCell d ⟨i, j, k⟩) s)) *
        side flux (coarseNeighbor d (coarseCell d ⟨i, j, k⟩) s) := by
  rw [C14_neighbour d i j k s hs hi hj]
  obtain ⟨f, hf⟩ := face_exists i j k s hs
  rw [surf_enc d i j k s f hf hi hj hk]
  unfold currentAt current
  rw [coarseNeighCells_enc d f (faceOf_valid d i j k s f hf hi hj hk)]
  rw [signed_up s hs, signed_up s hs]
  cases hu : up s
  · obtain ⟨h1, h2⟩ := face_down d.nx d.ny d.nz i j k s f hu hf hi hj hk
    simp only [h1, h2, side_idx, if_false, Bool.false_eq_true]
    ring
  · obtain ⟨h1, h2⟩ := face_up d.nx d.ny d.nz i j k s f hu hf hi hj hk
    simp only [h1, h2, side_idx, if_true]
    ring

/-- No cell is its own neighbour. -/
theorem neighbour_ne (d : Dims) (i j k : Nat) (s : Surface) (hs : s ≠ .INTERNAL) (hi : i < d.nx) (hj : j < d.ny)
    (hk : k < d.nz) : coarseNeighbor d (coarseCell d ⟨i, j, k⟩) s ≠ (coarseCell d ⟨i, j, k⟩ : Nat) := by
  intro h
  have h1 := C14_interface d i j k s hs hi hj _ h
  have h2 := C14_step_back d i j k s hs hi hj hk _ h
  have h3 := C14_interface d i j k (opposite s) (by cases s <;> simp [opposite] at hs ⊢) hi hj _ h2.1
  rw [h1] at h3
  have := (Prod.mk.inj (Option.some.inj h3)).2
  cases s <;> simp [opposite] at this hs

theorem mem_all {s : Surface} (h : s ∈ allSurfaces) : s ≠ .INTERNAL := by
  rintro rfl; simp [allSurfaces] at h

theorem all_mem {s : Surface} (h : s ≠ .INTERNAL) : s ∈ allSurfaces := by
  cases s <;> simp [allSurfaces] at h ⊢

/-- An element of the row of cell `(i,j,k)`, written as a sum over directions. -/
theorem entry_eq (d : Dims) (w : Widths K) (xsrm dt dh : Nat → K) (i j k : Nat)
    (hi : i < d.nx) (hj : j < d.ny) (hk : k < d.nz) (m : Nat) (hm : m < nPin d) :
    entry d w xsrm dt dh (coarseCell d ⟨i, j, k⟩) m =
      (if m = coarseCell d ⟨i, j, k⟩ then diag d w xsrm dt dh (coarseCell d ⟨i, j, k⟩) else 0) +
      (allSurfaces.map fun s => if coarseNeighbor d (coarseCell d ⟨i, j, k⟩) s = (m : Int) then
        area d w (coarseCell d ⟨i, j, k⟩) s * (signed s (dh (surf d (coarseCell d ⟨i, j, k⟩) s)) -
          dt (surf d (coarseCell d ⟨i, j, k⟩) s)) else 0).sum := by
  by_cases hmc : m = coarseCell d ⟨i, j, k⟩
  · subst hmc
    have h0 : ∀ s ∈ allSurfaces, (if coarseNeighbor d (coarseCell d ⟨i, j, k⟩) s =
        ((coarseCell d ⟨i, j, k⟩ : Nat) : Int) then
        area d w (coarseCell d ⟨i, j, k⟩) s * (signed s (dh (surf d (coarseCell d ⟨i, j, k⟩) s)) -
          dt (surf d (coarseCell d ⟨i, j, k⟩) s)) else 0) = (fun _ => (0 : K)) s := by
      intro s hs
      rw [if_neg (neighbour_ne d i j k s (mem_all hs) hi hj hk)]
    rw [List.map_congr_left h0, if_pos rfl]
    unfold entry stored
    simp
  · rw [if_neg hmc, zero_add]
    by_cases hn : ∃ s, s ∈ allSurfaces ∧ coarseNeighbor d (coarseCell d ⟨i, j, k⟩) s = (m : Int)
    · obtain ⟨s, hs, hsm⟩ := hn
      have hif := C14_interface d i j k s (mem_all hs) hi hj m hsm
      have hst : stored d (coarseCell d ⟨i, j, k⟩) m = true := by
        unfold stored
        simp only [Bool.or_eq_true, List.any_eq_true, beq_iff_eq]
        exact Or.inl (Or.inr ⟨s, hs, hsm⟩)
      have uniq : ∀ s' ∈ allSurfaces, (coarseNeighbor d (coarseCell d ⟨i, j, k⟩) s' = (m : Int)) ↔ s' = s := by
        intro s' hs'
        constructor
        · intro h
          have h2 := C14_interface d i j k s' (mem_all hs') hi hj m h
          rw [hif] at h2
          exact (Prod.mk.inj (Option.some.inj h2)).2.symm
        · rintro rfl; exact hsm
      unfold entry offDiag
      rw [hst, if_pos rfl, if_neg (Ne.symm hmc), hif]
      change area d w (coarseCell d ⟨i, j, k⟩) s * (signed s (dh (surf d (coarseCell d ⟨i, j, k⟩) s)) -
          dt (surf d (coarseCell d ⟨i, j, k⟩) s)) = _
      have hcongr : ∀ s' ∈ allSurfaces, (if coarseNeighbor d (coarseCell d ⟨i, j, k⟩) s' = (m : Int) then
        area d w (coarseCell d ⟨i, j, k⟩) s' * (signed s' (dh (surf d (coarseCell d ⟨i, j, k⟩) s')) -
          dt (surf d (coarseCell d ⟨i, j, k⟩) s')) else 0) = (fun s' => if s' = s then
        area d w (coarseCell d ⟨i, j, k⟩) s * (signed s (dh (surf d (coarseCell d ⟨i, j, k⟩) s)) -
          dt (surf d (coarseCell d ⟨i, j, k⟩) s)) else 0) s' := by
        intro s' hs'
        by_cases h : s' = s
        · subst h; rw [if_pos hsm]; simp
        · rw [if_neg (fun h' => h ((uniq s' hs').mp h'))]; simp [h]
      rw [List.map_congr_left hcongr]
      generalize area d w (coarseCell d ⟨i, j, k⟩) s * _ = X
      cases s <;> simp [allSurfaces] at hs ⊢
    · have h0 : ∀ s ∈ allSurfaces, (if coarseNeighbor d (coarseCell d ⟨i, j, k⟩) s = (m : Int) then
        area d w (coarseCell d ⟨i, j, k⟩) s * (signed s (dh (surf d (coarseCell d ⟨i, j, k⟩) s)) -
          dt (surf d (coarseCell d ⟨i, j, k⟩) s)) else 0) = (fun _ => (0 : K)) s := by
        intro s hs
        rw [if_neg (fun h => hn ⟨s, hs, h⟩)]
      rw [List.map_congr_left h0]
      have hst : stored d (coarseCell d ⟨i, j, k⟩) m = false := by
        rw [Bool.eq_false_iff]
        unfold stored
        intro h
        simp only [Bool.or_eq_true, List.any_eq_true, beq_iff_eq] at h
        rcases h with (h | h) | ⟨s, hs, h⟩
        · exact hmc h.symm
        · exact hn h
        · have hp := pos_lt d m hm
          have hc := cell_pos d m
          rw [← hc] at h
          have h2 := C14_step_back d (coarsePosition d m).x (coarsePosition d m).y (coarsePosition d m).z s
            (mem_all hs) hp.1 hp.2.1 hp.2.2 (coarseCell d ⟨i, j, k⟩) h
          refine hn ⟨opposite s, all_mem ?_, by rw [h2.1]; exact congrArg _ hc⟩
          have := mem_all hs
          cases s <;> simp [opposite] at this ⊢
      unfold entry
      rw [hst]
      simp

/-- A sum over cells that picks one neighbour. -/
theorem pick_neighbour (d : Dims) (flux : Nat → K) (X : K) (n : Int) (hn : n < nPin d) :
    (∑ m ∈ Finset.range (nPin d), (if n = (m : Int) then X else 0) * flux m) = X * side flux n := by
  unfold side
  by_cases h : 0 ≤ n
  · obtain ⟨m, rfl⟩ := Int.eq_ofNat_of_zero_le h
    rw [if_pos h, Finset.sum_eq_single m]
    · simp
    · intro b _ hb; rw [if_neg (by omega)]; simp
    · intro hm; exact absurd (Finset.mem_range.mpr (by omega)) hm
  · rw [if_neg h, Finset.sum_eq_zero]
    · simp
    · intro m _; rw [if_neg (by omega)]; simp

theorem neighbour_lt (d : Dims) (i j k : Nat) (s : Surface) (hs : s ≠ .INTERNAL) (hi : i < d.nx) (hj : j < d.ny)
    (hk : k < d.nz) : coarseNeighbor d (coarseCell d ⟨i, j, k⟩) s < nPin d := by
  rcases lt_or_ge (coarseNeighbor d (coarseCell d ⟨i, j, k⟩) s) 0 with h | h
  · omega
  · obtain ⟨m, hm⟩ := Int.eq_ofNat_of_zero_le h
    have := (C14_step_back d i j k s hs hi hj hk m hm).2.2
    omega

/-- The row of a cell applied to a flux: removal plus outflow through the six faces. -/
theorem row_eq (d : Dims) (w : Widths K) (xsrm dt dh flux : Nat → K) (i j k : Nat)
    (hi : i < d.nx) (hj : j < d.ny) (hk : k < d.nz) :
    rowApply d w xsrm dt dh flux (coarseCell d ⟨i, j, k⟩) =
      vol d w (coarseCell d ⟨i, j, k⟩) * xsrm (coarseCell d ⟨i, j, k⟩) * flux (coarseCell d ⟨i, j, k⟩) +
      (allSurfaces.map fun s => area d w (coarseCell d ⟨i, j, k⟩) s *
        signed s (currentAt d dt dh flux (surf d (coarseCell d ⟨i, j, k⟩) s))).sum := by
  unfold rowApply
  rw [Finset.sum_congr rfl (fun m hm => by
    rw [entry_eq d w xsrm dt dh i j k hi hj hk m (Finset.mem_range.mp hm), add_mul])]
  rw [Finset.sum_add_distrib]
  have hc : coarseCell d ⟨i, j, k⟩ < nPin d := cell_lt d i j k hi hj hk
  have e1 : (∑ m ∈ Finset.range (nPin d), (if m = coarseCell d ⟨i, j, k⟩ then
      diag d w xsrm dt dh (coarseCell d ⟨i, j, k⟩) else 0) * flux m) =
      diag d w xsrm dt dh (coarseCell d ⟨i, j, k⟩) * flux (coarseCell d ⟨i, j, k⟩) := by
    rw [Finset.sum_eq_single (coarseCell d ⟨i, j, k⟩)]
    · simp
    · intro b _ hb; rw [if_neg hb]; simp
    · intro h; exact absurd (Finset.mem_range.mpr hc) h
  rw [e1]
  have o := fun s hs => outflow d dt dh flux i j k s hs hi hj hk
  have p := fun (X : K) s hs => pick_neighbour d flux X (coarseNeighbor d (coarseCell d ⟨i, j, k⟩) s)
    (neighbour_lt d i j k s hs hi hj hk)
  simp only [allSurfaces, List.map_cons, List.map_nil, List.sum_cons, List.sum_nil, add_mul, add_zero,
    Finset.sum_add_distrib, diag]
  rw [p _ .EAST (by simp), p _ .NORTH (by simp), p _ .WEST (by simp), p _ .SOUTH (by simp), p _ .TOP (by simp),
    p _ .BOTTOM (by simp), o .EAST (by simp), o .NORTH (by simp), o .WEST (by simp), o .SOUTH (by simp),
    o .TOP (by simp), o .BOTTOM (by simp)]
  ring

/-- Sum over a product range. -/
theorem sum_mul_range {M : Type*} [AddCommMonoid M] (a b : Nat) (g : Nat → M) :
    ∑ c ∈ Finset.range (b * a), g c = ∑ q ∈ Finset.range b, ∑ r ∈ Finset.range a, g (q * a + r) := by
  induction b with
  | zero => simp
  | succ b ih => rw [Nat.succ_mul, Finset.sum_range_add, ih, Finset.sum_range_succ]

/-- Sum over all cells. -/
theorem sum_cells {M : Type*} [AddCommMonoid M] (d : Dims) (g : Nat → M) :
    ∑ c ∈ Finset.range (nPin d), g c =
      ∑ k ∈ Finset.range d.nz, ∑ j ∈ Finset.range d.ny, ∑ i ∈ Finset.range d.nx, g (coarseCell d ⟨i, j, k⟩) := by
  have : nPin d = d.nz * (d.ny * d.nx) := by unfold nPin; ring
  rw [this, sum_mul_range]
  refine Finset.sum_congr rfl fun k _ => ?_
  rw [sum_mul_range]
  refine Finset.sum_congr rfl fun j _ => Finset.sum_congr rfl fun i _ => ?_
  unfold coarseCell
  congr 1
  simp only
  ring

end Verif.Cmfd
