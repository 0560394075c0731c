import Verif.Tl.Model
import Verif.Mesh.Props
import Mathlib.Algebra.Order.Field.Basic
import Mathlib.Algebra.Order.Ring.Rat
import Mathlib.Algebra.Order.Field.Rat
import Mathlib.Algebra.Field.Rat
import Mathlib.Algebra.BigOperators.Group.List.Basic
import Mathlib.Tactic.Ring
import Mathlib.Tactic.Linarith
import Mathlib.Tactic.FieldSimp
import Mathlib.Tactic.NormNum

/-!
# C37: transverse leakage is conservative and splitting keeps sources non-negative
-/

namespace Verif.Tl

open Verif.Mesh

variable {K : Type} [Field K]

/-- Macroplanes stacked without gaps from plane `iz` to plane `nz - 1`. -/
def Stacked (nz : Nat) : Nat → List (MacroPlane K) → Prop
  | iz, [] => iz = nz
  | iz, mp :: l => mp.izMin = iz ∧ iz ≤ mp.izMax ∧ mp.izMax < nz ∧ Stacked nz (mp.izMax + 1) l

theorem bottom_top (d : Dims) (x y z : Nat) (hx : x < d.nx) (hy : y < d.ny) (hz : z + 1 < d.nz) :
    coarseSurf d (coarseCell d ⟨x, y, z⟩) .TOP = coarseSurf d (coarseCell d ⟨x, y, z + 1⟩) .BOTTOM := by
  rw [coarseSurf_enc d x y z .TOP _ rfl hx hy (by omega), coarseSurf_enc d x y (z + 1) .BOTTOM _ rfl hx hy hz]

theorem column_from (d : Dims) (J : Nat → K) (relax : K) (x y : Nat) (hx : x < d.nx) (hy : y < d.ny)
    (l : List (MacroPlane K × K)) (iz : Nat) (hne : l ≠ []) (hs : Stacked d.nz iz (l.map (·.1)))
    (hh : ∀ p ∈ l, p.1.height ≠ 0) :
    ∃ ts down up, columnTl d J relax x y l = some ts ∧
      coarseSurf d (coarseCell d ⟨x, y, iz⟩) .BOTTOM = some down ∧
      coarseSurf d (coarseCell d ⟨x, y, d.nz - 1⟩) .TOP = some up ∧
      ts.length = l.length ∧
      ((l.zip ts).map fun p => p.1.1.height * p.2).sum =
        (1 - relax) * (l.map fun p => p.1.height * p.2).sum + relax * (J down - J up) := by
  induction l generalizing iz with
  | nil => exact absurd rfl hne
  | cons a l ih =>
    obtain ⟨mp, old⟩ := a
    rw [List.map_cons] at hs
    obtain ⟨h1, h2, h3, h4⟩ := hs
    simp only at h1 h2 h3 h4
    have hd : ∃ n, coarseSurf d (coarseCell d ⟨x, y, iz⟩) .BOTTOM = some n :=
      ⟨_, coarseSurf_enc d x y iz .BOTTOM _ rfl hx hy (by omega)⟩
    have hu : ∃ n, coarseSurf d (coarseCell d ⟨x, y, mp.izMax⟩) .TOP = some n :=
      ⟨_, coarseSurf_enc d x y mp.izMax .TOP _ rfl hx hy (by omega)⟩
    obtain ⟨dn, hd⟩ := hd
    obtain ⟨un, hu⟩ := hu
    have hm : mp.height ≠ 0 := hh (mp, old) (by simp)
    have ht : newTl d J relax x y mp old = some (old * (1 - relax) + relax * (J dn - J un) / mp.height) := by
      unfold newTl
      rw [h1, hd, hu]; rfl
    by_cases hl : l = []
    · subst hl
      have hend : mp.izMax + 1 = d.nz := h4
      have hz : d.nz - 1 = mp.izMax := by omega
      refine ⟨[old * (1 - relax) + relax * (J dn - J un) / mp.height], dn, un, ?_, hd, by rw [hz]; exact hu, rfl, ?_⟩
      · simp [columnTl, ht]
      · simp
        field_simp
    · have hnext : mp.izMax + 1 < d.nz := by
        cases l with
        | nil => exact absurd rfl hl
        | cons b l => rw [List.map_cons] at h4; obtain ⟨_, g2, g3, _⟩ := h4; omega
      obtain ⟨ts, dn', up, e1, e2, e3, e4, e5⟩ := ih (mp.izMax + 1) hl h4 (fun p hp => hh p (by simp [hp]))
      have hsame : un = dn' := by
        have := bottom_top d x y mp.izMax hx hy hnext
        rw [hu, e2] at this
        exact Option.some.inj this
      refine ⟨(old * (1 - relax) + relax * (J dn - J un) / mp.height) :: ts, dn, up, ?_, hd, e3, by simp [e4], ?_⟩
      · simp [columnTl, ht, e1]
      · rw [List.zip_cons_cons, List.map_cons, List.sum_cons, e5, List.map_cons, List.sum_cons, hsame]
        field_simp
        ring

/-- **C37, leakage.**  In every pin column, for macroplanes stacked over the whole height, the height-weighted sum of
the new transverse leakage is the net axial inflow through the bottom and the top of the column, mixed with the old
leakage by the relaxation factor. -/
theorem C37_column (d : Dims) (J : Nat → K) (relax : K) (x y : Nat) (hx : x < d.nx) (hy : y < d.ny)
    (l : List (MacroPlane K × K)) (hne : l ≠ []) (hs : Stacked d.nz 0 (l.map (·.1)))
    (hh : ∀ p ∈ l, p.1.height ≠ 0) :
    ∃ ts down up, columnTl d J relax x y l = some ts ∧
      coarseSurf d (coarseCell d ⟨x, y, 0⟩) .BOTTOM = some down ∧
      coarseSurf d (coarseCell d ⟨x, y, d.nz - 1⟩) .TOP = some up ∧
      ts.length = l.length ∧
      ((l.zip ts).map fun p => p.1.1.height * p.2).sum =
        (1 - relax) * (l.map fun p => p.1.height * p.2).sum + relax * (J down - J up) :=
  column_from d J relax x y hx hy l 0 hne hs hh

/-- **C37, leakage, no relaxation**: exactly the net inflow. -/
theorem C37_column_unrelaxed (d : Dims) (J : Nat → K) (x y : Nat) (hx : x < d.nx) (hy : y < d.ny)
    (l : List (MacroPlane K × K)) (hne : l ≠ []) (hs : Stacked d.nz 0 (l.map (·.1)))
    (hh : ∀ p ∈ l, p.1.height ≠ 0) :
    ∃ ts down up, columnTl d J 1 x y l = some ts ∧
      coarseSurf d (coarseCell d ⟨x, y, 0⟩) .BOTTOM = some down ∧
      coarseSurf d (coarseCell d ⟨x, y, d.nz - 1⟩) .TOP = some up ∧
      ((l.zip ts).map fun p => p.1.1.height * p.2).sum = J down - J up := by
  obtain ⟨ts, dn, up, e1, e2, e3, _, e5⟩ := C37_column d J 1 x y hx hy l hne hs hh
  exact ⟨ts, dn, up, e1, e2, e3, by rw [e5]; ring⟩

section
variable {K : Type} [Field K] [LinearOrder K] [IsStrictOrderedRing K]

/-- **C37, splitting.**  With a positive flux the region always succeeds; the source and the added removal are
non-negative, at most one of them is used, and source minus added removal times flux is the unsplit source. -/
theorem C37_split_partial (source tl flux : K) (hf : 0 < flux) :
    ∃ s r, applySplit source tl flux = .ok s r ∧ 0 ≤ s ∧ 0 ≤ r ∧ (s = 0 ∨ r = 0) ∧ s - r * flux = source + tl := by
  unfold applySplit
  simp only
  by_cases h : source + tl < 0
  · rw [if_pos h, if_neg (not_lt.mpr hf.le), if_neg hf.ne']
    refine ⟨0, _, rfl, le_rfl, div_nonneg (by linarith) hf.le, Or.inl rfl, ?_⟩
    field_simp
    ring
  · rw [if_neg h]
    exact ⟨_, 0, rfl, not_lt.mp h, le_rfl, Or.inr rfl, by ring⟩

/-- For a flux of any sign: when the region is not refused and not infinite, the same holds. -/
theorem C37_split_any (source tl flux s r : K) (h : applySplit source tl flux = .ok s r) :
    0 ≤ s ∧ 0 ≤ r ∧ s - r * flux = source + tl := by
  unfold applySplit at h
  simp only at h
  by_cases h1 : source + tl < 0
  · rw [if_pos h1] at h
    by_cases h2 : flux < 0
    · rw [if_pos h2] at h; cases h
    · rw [if_neg h2] at h
      by_cases h3 : flux = 0
      · rw [if_pos h3] at h; cases h
      · rw [if_neg h3] at h
        cases h
        have hf : 0 < flux := lt_of_le_of_ne (not_lt.mp h2) (Ne.symm h3)
        refine ⟨le_rfl, div_nonneg (by linarith) hf.le, ?_⟩
        field_simp
        ring
  · rw [if_neg h1] at h
    cases h
    exact ⟨not_lt.mp h1, le_rfl, by ring⟩

/-- The claim for every flux. -/
def C37_claim (K : Type) [Field K] [LinearOrder K] : Prop := ∀ source tl flux : K, 0 ≤ flux →
  ∃ s r, applySplit source tl flux = .ok s r ∧ 0 ≤ s ∧ s - r * flux = source + tl

/-- A region whose flux is zero and whose source would be negative gets an infinite added removal. -/
theorem C37_claim_false : ¬ C37_claim ℚ := by
  intro h
  obtain ⟨s, r, h1, _⟩ := h 0 (-1) 0 le_rfl
  have : applySplit (0 : ℚ) (-1) 0 = .infinite := by unfold applySplit; norm_num
  rw [this] at h1
  cases h1
end

/-- Three macroplanes over six planes. -/
def stack : List (MacroPlane ℚ × ℚ) := [(⟨0, 1, 3⟩, 1), (⟨2, 2, 1⟩, -2), (⟨3, 5, 4⟩, 5)]

example : stack ≠ [] ∧ Stacked 6 0 (stack.map (·.1)) ∧ ∀ p ∈ stack, p.1.height ≠ 0 := by
  refine ⟨by simp [stack], by simp [stack, Stacked], by decide +kernel⟩

example : ∃ s r, applySplit (1 : ℚ) (-3) 2 = .ok s r ∧ s = 0 ∧ r = 1 := ⟨0, 1, by unfold applySplit; norm_num, rfl, rfl⟩

end Verif.Tl
