import Verif.Medium.ReciprocalProps
import Verif.Medium.BalanceSnProps
import Verif.Sn.ClosureProps
import Mathlib.Tactic.Linarith
import Mathlib.Tactic.Ring

/-!
# C156: reciprocity of the Sn sweep
-/

set_option linter.unusedSectionVars false

namespace Verif.Sn

open Finset
open Verif.Mesh (Dims coarseCell)

section
variable {K : Type} [Field K]

instance : Fintype Ax3 := ⟨{.x, .y, .z}, by intro k; cases k <;> simp⟩
instance : Fintype Ax2 := ⟨{.x, .y}, by intro k; cases k <;> simp⟩

theorem sum_ax3 (f : Ax3 → K) : ∑ k, f k = f .x + f .y + f .z := by
  show ∑ k ∈ ({.x, .y, .z} : Finset Ax3), f k = _
  rw [sum_insert (by decide), sum_insert (by decide), sum_singleton, add_assoc]

theorem sum_ax2 (f : Ax2 → K) : ∑ k, f k = f .x + f .y := by
  show ∑ k ∈ ({.x, .y} : Finset Ax2), f k = _
  rw [sum_insert (by decide), sum_singleton]

/-- Along a line, in one direction with values `f` going out of the cells and `b` coming in at the end, and in the other with `g` and `b'`. -/
theorem line_pair (n : Nat) (neg : Bool) (hn : 0 < n) (b b' : K) (f g : Nat → K) :
    ∑ i ∈ range n, (f i * (match upwind n (!neg) i with | none => b' | some j => g j) - (match upwind n neg i with | none => b | some j => f j) * g i) =
      f (last n neg) * b' - b * g (last n (!neg)) := by
  cases neg
  · have h : ∀ i ∈ range n, (f i * (match upwind n (!false) i with | none => b' | some j => g j) - (match upwind n false i with | none => b | some j => f j) * g i) =
        (fun a => (if a = 0 then b else f (a - 1)) * (if a = n then b' else g a)) (i + 1) - (fun a => (if a = 0 then b else f (a - 1)) * (if a = n then b' else g a)) i := by
      intro i hi
      have hi := mem_range.mp hi
      have e1 : (match upwind n (!false) i with | none => b' | some j => g j) = if i + 1 = n then b' else g (i + 1) := by
        by_cases h : i + 1 = n
        · simp [upwind, h]
        · simp [upwind, h, show i + 1 < n by omega]
      have e2 : (match upwind n false i with | none => b | some j => f j) = if i = 0 then b else f (i - 1) := by
        by_cases h : i = 0 <;> simp [upwind, h]
      rw [e1, e2]
      simp [show i ≠ n by omega]
    rw [sum_congr rfl h, sum_range_sub fun a => (if a = 0 then b else f (a - 1)) * (if a = n then b' else g a)]
    simp [last, hn.ne', hn.ne]
  · have h : ∀ i ∈ range n, (f i * (match upwind n (!true) i with | none => b' | some j => g j) - (match upwind n true i with | none => b | some j => f j) * g i) =
        (fun a => (if a = n then b else f a) * (if a = 0 then b' else g (a - 1))) i - (fun a => (if a = n then b else f a) * (if a = 0 then b' else g (a - 1))) (i + 1) := by
      intro i hi
      have hi := mem_range.mp hi
      have e1 : (match upwind n true i with | none => b | some j => f j) = if i + 1 = n then b else f (i + 1) := by
        by_cases h : i + 1 = n
        · simp [upwind, h]
        · simp [upwind, h, show i + 1 < n by omega]
      have e2 : (match upwind n (!true) i with | none => b' | some j => g j) = if i = 0 then b' else g (i - 1) := by
        by_cases h : i = 0 <;> simp [upwind, h]
      rw [e1, e2]
      simp [show i ≠ n by omega]
    rw [sum_congr rfl h, sum_range_sub' fun a => (if a = n then b else f a) * (if a = 0 then b' else g (a - 1))]
    simp [last, hn.ne', hn.ne]

/-- Two solutions of a cell, in opposite directions: `a` goes in and `b` out of the first, `a'` and `b'` of the second, along one axis. -/
theorem axis_pair (r a b a' b' psi psi' : K) (h : psi = r * a + (1 - r) * b) (h' : psi' = r * a' + (1 - r) * b') :
    (b - a) * psi' - (b' - a') * psi = b * a' - a * b' := by
  rw [h, h']
  ring

/-- C156: an ordinate and its opposite through the same cells, any sources and boundary values, with a scheme that keeps the balance and takes the average of a cell as the same
weighted mean of the values before and behind it for both. -/
theorem C156_ordinates (d : Dims) (nx ny nz : Bool) (wgt : K) (ev ev' : Nat → Nat → Nat → (Ax3 → K) → K × (Ax3 → K))
    (s0 s0' : State Ax3 K) (ox oy oz : K) (dx dy dz : Nat → K) (xstr q q' : Nat → Nat → Nat → K) (r : Nat → Nat → Nat → Ax3 → K)
    (hdx : ∀ i, dx i ≠ 0) (hdy : ∀ i, dy i ≠ 0) (hdz : ∀ i, dz i ≠ 0) (hx : 0 < d.nx) (hy : 0 < d.ny) (hz : 0 < d.nz)
    (hbal : ∀ ix iy iz, ix < d.nx → iy < d.ny → iz < d.nz → ∀ f : Ax3 → K,
      ox / dx ix * ((ev ix iy iz f).2 .x - f .x) + oy / dy iy * ((ev ix iy iz f).2 .y - f .y) +
        oz / dz iz * ((ev ix iy iz f).2 .z - f .z) + xstr ix iy iz * (ev ix iy iz f).1 = q ix iy iz)
    (hbal' : ∀ ix iy iz, ix < d.nx → iy < d.ny → iz < d.nz → ∀ f : Ax3 → K,
      ox / dx ix * ((ev' ix iy iz f).2 .x - f .x) + oy / dy iy * ((ev' ix iy iz f).2 .y - f .y) +
        oz / dz iz * ((ev' ix iy iz f).2 .z - f .z) + xstr ix iy iz * (ev' ix iy iz f).1 = q' ix iy iz)
    (hm : ∀ ix iy iz, ix < d.nx → iy < d.ny → iz < d.nz → ∀ (f : Ax3 → K) k, (ev ix iy iz f).1 = r ix iy iz k * f k + (1 - r ix iy iz k) * (ev ix iy iz f).2 k)
    (hm' : ∀ ix iy iz, ix < d.nx → iy < d.ny → iz < d.nz → ∀ (f : Ax3 → K) k, (ev' ix iy iz f).1 = r ix iy iz k * f k + (1 - r ix iy iz k) * (ev' ix iy iz f).2 k) :
    let s := sweep3 d nx ny nz wgt ev s0
    let s' := sweep3 d (!nx) (!ny) (!nz) wgt ev' s0'
    (∑ iz ∈ range d.nz, ∑ iy ∈ range d.ny, ∑ ix ∈ range d.nx, dx ix * dy iy * dz iz *
      (q ix iy iz * (s'.out (coarseCell d ⟨ix, iy, iz⟩)).1 - q' ix iy iz * (s.out (coarseCell d ⟨ix, iy, iz⟩)).1)) =
    (∑ iz ∈ range d.nz, ∑ iy ∈ range d.ny, ox * dy iy * dz iz *
      (s.flux .x (d.ny * iz + iy) * s0'.flux .x (d.ny * iz + iy) - s0.flux .x (d.ny * iz + iy) * s'.flux .x (d.ny * iz + iy))) +
    (∑ iz ∈ range d.nz, ∑ ix ∈ range d.nx, oy * dx ix * dz iz *
      (s.flux .y (d.nx * iz + ix) * s0'.flux .y (d.nx * iz + ix) - s0.flux .y (d.nx * iz + ix) * s'.flux .y (d.nx * iz + ix))) +
    (∑ iy ∈ range d.ny, ∑ ix ∈ range d.nx, oz * dx ix * dy iy *
      (s.flux .z (d.nx * iy + ix) * s0'.flux .z (d.nx * iy + ix) - s0.flux .z (d.nx * iy + ix) * s'.flux .z (d.nx * iy + ix))) := by
  intro s s'
  set c := fun ix iy iz => coarseCell d ⟨ix, iy, iz⟩ with hc
  set inn := incoming3 d nx ny nz s0.flux s.out with hinn
  set inn' := incoming3 d (!nx) (!ny) (!nz) s0'.flux s'.out with hinn'
  have cell : ∀ ix iy iz, ix < d.nx → iy < d.ny → iz < d.nz →
      dx ix * dy iy * dz iz * (q ix iy iz * (s'.out (c ix iy iz)).1 - q' ix iy iz * (s.out (c ix iy iz)).1) =
        ox * dy iy * dz iz * ((s.out (c ix iy iz)).2 .x * inn' ix iy iz .x - inn ix iy iz .x * (s'.out (c ix iy iz)).2 .x) +
        oy * dx ix * dz iz * ((s.out (c ix iy iz)).2 .y * inn' ix iy iz .y - inn ix iy iz .y * (s'.out (c ix iy iz)).2 .y) +
        oz * dx ix * dy iy * ((s.out (c ix iy iz)).2 .z * inn' ix iy iz .z - inn ix iy iz .z * (s'.out (c ix iy iz)).2 .z) := by
    intro ix iy iz h1 h2 h3
    have hc1 := (C30_upwind d nx ny nz wgt ev s0 ix iy iz h1 h2 h3).1
    have hc2 := (C30_upwind d (!nx) (!ny) (!nz) wgt ev' s0' ix iy iz h1 h2 h3).1
    have hb := hbal ix iy iz h1 h2 h3 (inn ix iy iz)
    have hb' := hbal' ix iy iz h1 h2 h3 (inn' ix iy iz)
    have m1 := hm ix iy iz h1 h2 h3 (inn ix iy iz)
    have m2 := hm' ix iy iz h1 h2 h3 (inn' ix iy iz)
    rw [show ev ix iy iz (inn ix iy iz) = s.out (c ix iy iz) from hc1.symm] at hb m1
    rw [show ev' ix iy iz (inn' ix iy iz) = s'.out (c ix iy iz) from hc2.symm] at hb' m2
    have ax := axis_pair _ _ _ _ _ _ _ (m1 .x) (m2 .x)
    have ay := axis_pair _ _ _ _ _ _ _ (m1 .y) (m2 .y)
    have az := axis_pair _ _ _ _ _ _ _ (m1 .z) (m2 .z)
    rw [← hb, ← hb']
    generalize (s.out (c ix iy iz)).1 = p at *
    generalize (s'.out (c ix iy iz)).1 = p' at *
    rw [← ax, ← ay, ← az]
    have e1 := hdx ix
    have e2 := hdy iy
    have e3 := hdz iz
    field_simp
    ring
  have hX : ∀ iz ∈ range d.nz, ∀ iy ∈ range d.ny,
      ∑ ix ∈ range d.nx, ox * dy iy * dz iz * ((s.out (c ix iy iz)).2 .x * inn' ix iy iz .x - inn ix iy iz .x * (s'.out (c ix iy iz)).2 .x) =
      ox * dy iy * dz iz * (s.flux .x (d.ny * iz + iy) * s0'.flux .x (d.ny * iz + iy) - s0.flux .x (d.ny * iz + iy) * s'.flux .x (d.ny * iz + iy)) := by
    intro iz h3 iy h2
    rw [← mul_sum, (C30_outgoing d nx ny nz wgt ev s0 0 iy iz hx (mem_range.mp h2) (mem_range.mp h3)).1,
      (C30_outgoing d (!nx) (!ny) (!nz) wgt ev' s0' 0 iy iz hx (mem_range.mp h2) (mem_range.mp h3)).1]
    congr 1
    exact line_pair d.nx nx hx _ _ (fun j => (s.out (coarseCell d ⟨j, iy, iz⟩)).2 .x) (fun j => (s'.out (coarseCell d ⟨j, iy, iz⟩)).2 .x)
  have hY : ∀ iz ∈ range d.nz, ∀ ix ∈ range d.nx,
      ∑ iy ∈ range d.ny, oy * dx ix * dz iz * ((s.out (c ix iy iz)).2 .y * inn' ix iy iz .y - inn ix iy iz .y * (s'.out (c ix iy iz)).2 .y) =
      oy * dx ix * dz iz * (s.flux .y (d.nx * iz + ix) * s0'.flux .y (d.nx * iz + ix) - s0.flux .y (d.nx * iz + ix) * s'.flux .y (d.nx * iz + ix)) := by
    intro iz h3 ix h1
    rw [← mul_sum, (C30_outgoing d nx ny nz wgt ev s0 ix 0 iz (mem_range.mp h1) hy (mem_range.mp h3)).2.1,
      (C30_outgoing d (!nx) (!ny) (!nz) wgt ev' s0' ix 0 iz (mem_range.mp h1) hy (mem_range.mp h3)).2.1]
    congr 1
    exact line_pair d.ny ny hy _ _ (fun j => (s.out (coarseCell d ⟨ix, j, iz⟩)).2 .y) (fun j => (s'.out (coarseCell d ⟨ix, j, iz⟩)).2 .y)
  have hZ : ∀ iy ∈ range d.ny, ∀ ix ∈ range d.nx,
      ∑ iz ∈ range d.nz, oz * dx ix * dy iy * ((s.out (c ix iy iz)).2 .z * inn' ix iy iz .z - inn ix iy iz .z * (s'.out (c ix iy iz)).2 .z) =
      oz * dx ix * dy iy * (s.flux .z (d.nx * iy + ix) * s0'.flux .z (d.nx * iy + ix) - s0.flux .z (d.nx * iy + ix) * s'.flux .z (d.nx * iy + ix)) := by
    intro iy h2 ix h1
    rw [← mul_sum, (C30_outgoing d nx ny nz wgt ev s0 ix iy 0 (mem_range.mp h1) (mem_range.mp h2) hz).2.2,
      (C30_outgoing d (!nx) (!ny) (!nz) wgt ev' s0' ix iy 0 (mem_range.mp h1) (mem_range.mp h2) hz).2.2]
    congr 1
    exact line_pair d.nz nz hz _ _ (fun j => (s.out (coarseCell d ⟨ix, iy, j⟩)).2 .z) (fun j => (s'.out (coarseCell d ⟨ix, iy, j⟩)).2 .z)
  refine (sum_congr rfl fun iz h3 => sum_congr rfl fun iy h2 => sum_congr rfl fun ix h1 =>
    cell ix iy iz (mem_range.mp h1) (mem_range.mp h2) (mem_range.mp h3)).trans ?_
  simp only [sum_add_distrib]
  congr 1
  · congr 1
    · exact sum_congr rfl fun iz h3 => sum_congr rfl fun iy h2 => hX iz h3 iy h2
    · refine sum_congr rfl fun iz h3 => ?_
      rw [sum_comm]
      exact sum_congr rfl fun ix h1 => hY iz h3 ix h1
  · rw [sum_comm]
    refine sum_congr rfl fun iy h2 => ?_
    rw [sum_comm]
    exact sum_congr rfl fun ix h1 => hZ iy h2 ix h1

/-- C156: the same in two dimensions. -/
theorem C156_ordinates_2d (d : Dims) (nx ny : Bool) (wgt : K) (ev ev' : Nat → Nat → (Ax2 → K) → K × (Ax2 → K)) (s0 s0' : State Ax2 K) (ox oy : K) (dx dy : Nat → K)
    (xstr q q' : Nat → Nat → K) (r : Nat → Nat → Ax2 → K) (hdx : ∀ i, dx i ≠ 0) (hdy : ∀ i, dy i ≠ 0) (hx : 0 < d.nx) (hy : 0 < d.ny)
    (hbal : ∀ ix iy, ix < d.nx → iy < d.ny → ∀ f : Ax2 → K,
      ox / dx ix * ((ev ix iy f).2 .x - f .x) + oy / dy iy * ((ev ix iy f).2 .y - f .y) + xstr ix iy * (ev ix iy f).1 = q ix iy)
    (hbal' : ∀ ix iy, ix < d.nx → iy < d.ny → ∀ f : Ax2 → K,
      ox / dx ix * ((ev' ix iy f).2 .x - f .x) + oy / dy iy * ((ev' ix iy f).2 .y - f .y) + xstr ix iy * (ev' ix iy f).1 = q' ix iy)
    (hm : ∀ ix iy, ix < d.nx → iy < d.ny → ∀ (f : Ax2 → K) k, (ev ix iy f).1 = r ix iy k * f k + (1 - r ix iy k) * (ev ix iy f).2 k)
    (hm' : ∀ ix iy, ix < d.nx → iy < d.ny → ∀ (f : Ax2 → K) k, (ev' ix iy f).1 = r ix iy k * f k + (1 - r ix iy k) * (ev' ix iy f).2 k) :
    let s := sweep2 d nx ny wgt ev s0
    let s' := sweep2 d (!nx) (!ny) wgt ev' s0'
    (∑ iy ∈ range d.ny, ∑ ix ∈ range d.nx, dx ix * dy iy * (q ix iy * (s'.out (coarseCell d ⟨ix, iy, 0⟩)).1 - q' ix iy * (s.out (coarseCell d ⟨ix, iy, 0⟩)).1)) =
    (∑ iy ∈ range d.ny, ox * dy iy * (s.flux .x iy * s0'.flux .x iy - s0.flux .x iy * s'.flux .x iy)) +
    ∑ ix ∈ range d.nx, oy * dx ix * (s.flux .y ix * s0'.flux .y ix - s0.flux .y ix * s'.flux .y ix) := by
  intro s s'
  set c := fun ix iy => coarseCell d ⟨ix, iy, 0⟩ with hc
  set inn := incoming2 d nx ny s0.flux s.out with hinn
  set inn' := incoming2 d (!nx) (!ny) s0'.flux s'.out with hinn'
  have cell : ∀ ix iy, ix < d.nx → iy < d.ny →
      dx ix * dy iy * (q ix iy * (s'.out (c ix iy)).1 - q' ix iy * (s.out (c ix iy)).1) =
        ox * dy iy * ((s.out (c ix iy)).2 .x * inn' ix iy .x - inn ix iy .x * (s'.out (c ix iy)).2 .x) +
        oy * dx ix * ((s.out (c ix iy)).2 .y * inn' ix iy .y - inn ix iy .y * (s'.out (c ix iy)).2 .y) := by
    intro ix iy h1 h2
    have hc1 := (C30_upwind_2d d nx ny wgt ev s0 ix iy h1 h2).1
    have hc2 := (C30_upwind_2d d (!nx) (!ny) wgt ev' s0' ix iy h1 h2).1
    have hb := hbal ix iy h1 h2 (inn ix iy)
    have hb' := hbal' ix iy h1 h2 (inn' ix iy)
    have m1 := hm ix iy h1 h2 (inn ix iy)
    have m2 := hm' ix iy h1 h2 (inn' ix iy)
    rw [show ev ix iy (inn ix iy) = s.out (c ix iy) from hc1.symm] at hb m1
    rw [show ev' ix iy (inn' ix iy) = s'.out (c ix iy) from hc2.symm] at hb' m2
    have ax := axis_pair _ _ _ _ _ _ _ (m1 .x) (m2 .x)
    have ay := axis_pair _ _ _ _ _ _ _ (m1 .y) (m2 .y)
    rw [← hb, ← hb']
    generalize (s.out (c ix iy)).1 = p at *
    generalize (s'.out (c ix iy)).1 = p' at *
    rw [← ax, ← ay]
    have e1 := hdx ix
    have e2 := hdy iy
    field_simp
    ring
  have hX : ∀ iy ∈ range d.ny,
      ∑ ix ∈ range d.nx, ox * dy iy * ((s.out (c ix iy)).2 .x * inn' ix iy .x - inn ix iy .x * (s'.out (c ix iy)).2 .x) =
      ox * dy iy * (s.flux .x iy * s0'.flux .x iy - s0.flux .x iy * s'.flux .x iy) := by
    intro iy h2
    rw [← mul_sum, (C30_upwind_2d d nx ny wgt ev s0 0 iy hx (mem_range.mp h2)).2.2.1, (C30_upwind_2d d (!nx) (!ny) wgt ev' s0' 0 iy hx (mem_range.mp h2)).2.2.1]
    congr 1
    exact line_pair d.nx nx hx _ _ (fun j => (s.out (coarseCell d ⟨j, iy, 0⟩)).2 .x) (fun j => (s'.out (coarseCell d ⟨j, iy, 0⟩)).2 .x)
  have hY : ∀ ix ∈ range d.nx,
      ∑ iy ∈ range d.ny, oy * dx ix * ((s.out (c ix iy)).2 .y * inn' ix iy .y - inn ix iy .y * (s'.out (c ix iy)).2 .y) =
      oy * dx ix * (s.flux .y ix * s0'.flux .y ix - s0.flux .y ix * s'.flux .y ix) := by
    intro ix h1
    rw [← mul_sum, (C30_upwind_2d d nx ny wgt ev s0 ix 0 (mem_range.mp h1) hy).2.2.2, (C30_upwind_2d d (!nx) (!ny) wgt ev' s0' ix 0 (mem_range.mp h1) hy).2.2.2]
    congr 1
    exact line_pair d.ny ny hy _ _ (fun j => (s.out (coarseCell d ⟨ix, j, 0⟩)).2 .y) (fun j => (s'.out (coarseCell d ⟨ix, j, 0⟩)).2 .y)
  refine (sum_congr rfl fun iy h2 => sum_congr rfl fun ix h1 => cell ix iy (mem_range.mp h1) (mem_range.mp h2)).trans ?_
  simp only [sum_add_distrib]
  congr 1
  · exact sum_congr rfl fun iy h2 => hX iy h2
  · rw [sum_comm]
    exact sum_congr rfl fun ix h1 => hY ix h1

end

end Verif.Sn

namespace Verif.Medium

open Finset Verif.XS Verif.Source

section
variable {K : Type} [Field K] [LinearOrder K] [IsStrictOrderedRing K]

/-- An ordinate `o` and its opposite `o'` with different sources: the source of each weighted with the flux that the other adds is what goes out of one times what comes into the
other, over the faces with weights `A`. -/
def OrdPair {κ : Type} [Fintype κ] (nReg : Nat) (vol : Nat → K) (n : κ → Nat) (A : κ → Nat → K) (o o' : SnOrd κ K) : Prop :=
  ∀ (q q' xs : Nat → K) (s s' : Sn.State κ K), (∀ i < nReg, 0 < xs i) →
    (∑ i ∈ range nReg, vol i * (q i * ((o'.loops q' xs s').tflux i - s'.tflux i) - q' i * ((o.loops q xs s).tflux i - s.tflux i))) =
      ∑ k, ∑ j ∈ range (n k), A k j * ((o.loops q xs s).flux k j * s'.flux k j - s.flux k j * (o'.loops q' xs s').flux k j)

/-- Schemes that take the average of a cell as a weighted mean of the values before and behind it, along each axis, with weights that do not depend on the fluxes. -/
def Mean3 (sch : Scheme3 K) : Prop :=
  ∀ tx ty tz xs, 0 < tx → 0 < ty → 0 < tz → 0 < xs → ∃ rx ry rz : K, ∀ fx fy fz q,
    let o := sch tx ty tz fx fy fz q xs
    o.psi = rx * fx + (1 - rx) * o.x ∧ o.psi = ry * fy + (1 - ry) * o.y ∧ o.psi = rz * fz + (1 - rz) * o.z

def Mean2 (sch : Scheme2 K) : Prop :=
  ∀ tx ty xs, 0 < tx → 0 < ty → 0 < xs → ∃ rx ry : K, ∀ fx fy q,
    let o := sch tx ty fx fy q xs
    o.psi = rx * fx + (1 - rx) * o.x ∧ o.psi = ry * fy + (1 - ry) * o.y

/-- Numbers of values on the faces. -/
def slots3 (d : Mesh.Dims) : Sn.Ax3 → Nat
  | .x => d.ny * d.nz
  | .y => d.nx * d.nz
  | .z => d.nx * d.ny

def slots2 (d : Mesh.Dims) : Sn.Ax2 → Nat
  | .x => d.ny
  | .y => d.nx

/-- Weight times direction cosine times area. -/
def faceWeight3 (d : Mesh.Dims) (dx dy dz : Nat → K) (ox oy oz wgt : K) : Sn.Ax3 → Nat → K
  | .x, j => wgt * (|ox| * dy (j % d.ny) * dz (j / d.ny))
  | .y, j => wgt * (|oy| * dx (j % d.nx) * dz (j / d.nx))
  | .z, j => wgt * (|oz| * dx (j % d.nx) * dy (j / d.nx))

def faceWeight2 (dx dy : Nat → K) (ox oy wgt : K) : Sn.Ax2 → Nat → K
  | .x, j => wgt * (|ox| * dy j)
  | .y, j => wgt * (|oy| * dx j)

theorem sum_cells3 (d : Mesh.Dims) (f : Nat → K) : ∑ i ∈ range (d.nx * d.ny * d.nz), f i =
    ∑ iz ∈ range d.nz, ∑ iy ∈ range d.ny, ∑ ix ∈ range d.nx, f (Mesh.coarseCell d ⟨ix, iy, iz⟩) := by
  rw [sum_mul_range]
  refine sum_congr rfl fun iz _ => ?_
  rw [sum_mul_range d.nx d.ny fun j => f (d.nx * d.ny * iz + j)]
  refine sum_congr rfl fun iy _ => sum_congr rfl fun ix _ => ?_
  congr 1
  unfold Mesh.coarseCell
  ring

theorem cell_lt3 (d : Mesh.Dims) (ix iy iz : Nat) (hx : ix < d.nx) (hy : iy < d.ny) (hz : iz < d.nz) : Mesh.coarseCell d ⟨ix, iy, iz⟩ < d.nx * d.ny * d.nz := by
  have h1 := slot_lt (slot_lt hx hy) hz
  have h2 : Mesh.coarseCell d ⟨ix, iy, iz⟩ = d.nx * d.ny * iz + (d.nx * iy + ix) := by
    unfold Mesh.coarseCell
    ring
  omega

theorem not_neg_lt (x : K) (h : x ≠ 0) : (decide (-x < 0)) = !decide (x < 0) := by
  rcases lt_or_gt_of_ne h with h | h
  · simp [h, h.le]
  · simp [h, h.le]

theorem face_sum (a b : Nat) (w : Nat → Nat → K) (f : Nat → K) :
    ∑ j ∈ range (a * b), w (j % a) (j / a) * f j = ∑ k ∈ range b, ∑ i ∈ range a, w i k * f (a * k + i) := by
  rw [sum_mul_range]
  refine sum_congr rfl fun k _ => sum_congr rfl fun i hi => ?_
  have hi := mem_range.mp hi
  rw [Nat.mul_add_mod, Nat.mod_eq_of_lt hi, Nat.mul_add_div (by omega), Nat.div_eq_of_lt hi, add_zero]

/-- C156: an ordinate and its opposite in three dimensions, with such schemes in the cells, the same for both. -/
theorem C156_ord3 (d : Mesh.Dims) (hnx : 0 < d.nx) (hny : 0 < d.ny) (hnz : 0 < d.nz) (dx dy dz : Nat → K) (hdx : ∀ i, 0 < dx i) (hdy : ∀ i, 0 < dy i) (hdz : ∀ i, 0 < dz i)
    (vol : Nat → K) (hvol : ∀ ix < d.nx, ∀ iy < d.ny, ∀ iz < d.nz, vol (Mesh.coarseCell d ⟨ix, iy, iz⟩) = dx ix * dy iy * dz iz)
    (a a' : Nat) (ox oy oz wgt : K) (hox : ox ≠ 0) (hoy : oy ≠ 0) (hoz : oz ≠ 0) (sch : Nat → Scheme3 K) (hb : ∀ i, Bal3 (sch i)) (hm : ∀ i, Mean3 (sch i)) :
    OrdPair (d.nx * d.ny * d.nz) vol (slots3 d) (faceWeight3 d dx dy dz ox oy oz wgt) (ord3 d dx dy dz a ox oy oz wgt sch) (ord3 d dx dy dz a' (-ox) (-oy) (-oz) wgt sch) := by
  intro q q' xs s s' hxs
  set ev : (Nat → K) → Nat → Nat → Nat → (Sn.Ax3 → K) → K × (Sn.Ax3 → K) := fun q ix iy iz f =>
    let i := Mesh.coarseCell d ⟨ix, iy, iz⟩
    let o := sch i (|ox| / dx ix) (|oy| / dy iy) (|oz| / dz iz) (f .x) (f .y) (f .z) (q i) (xs i)
    (o.psi, fun | .x => o.x | .y => o.y | .z => o.z) with hev
  have hl : (ord3 d dx dy dz a ox oy oz wgt sch).loops q xs s = Sn.sweep3 d (ox < 0) (oy < 0) (oz < 0) wgt (ev q) s := rfl
  have hl' : (ord3 d dx dy dz a' (-ox) (-oy) (-oz) wgt sch).loops q' xs s' = Sn.sweep3 d (!decide (ox < 0)) (!decide (oy < 0)) (!decide (oz < 0)) wgt (ev q') s' := by
    show Sn.sweep3 d (decide (-ox < 0)) (decide (-oy < 0)) (decide (-oz < 0)) wgt _ s' = _
    rw [not_neg_lt ox hox, not_neg_lt oy hoy, not_neg_lt oz hoz]
    simp only [hev, abs_neg]
    rfl
  have hmean : ∀ ix iy iz, ∃ r : Sn.Ax3 → K, ix < d.nx → iy < d.ny → iz < d.nz → ∀ (q : Nat → K) (f : Sn.Ax3 → K) k,
      (ev q ix iy iz f).1 = r k * f k + (1 - r k) * (ev q ix iy iz f).2 k := by
    intro ix iy iz
    by_cases h : ix < d.nx ∧ iy < d.ny ∧ iz < d.nz
    · obtain ⟨rx, ry, rz, hr⟩ := hm (Mesh.coarseCell d ⟨ix, iy, iz⟩) _ _ _ _ (div_pos (abs_pos.mpr hox) (hdx ix)) (div_pos (abs_pos.mpr hoy) (hdy iy))
        (div_pos (abs_pos.mpr hoz) (hdz iz)) (hxs _ (cell_lt3 d ix iy iz h.1 h.2.1 h.2.2))
      refine ⟨fun | .x => rx | .y => ry | .z => rz, fun _ _ _ q f k => ?_⟩
      obtain ⟨h1, h2, h3⟩ := hr (f .x) (f .y) (f .z) (q (Mesh.coarseCell d ⟨ix, iy, iz⟩))
      cases k
      · exact h1
      · exact h2
      · exact h3
    · exact ⟨fun _ => 0, fun h1 h2 h3 => absurd ⟨h1, h2, h3⟩ h⟩
  choose r hr using hmean
  have hbal : ∀ (q : Nat → K) ix iy iz, ix < d.nx → iy < d.ny → iz < d.nz → ∀ f : Sn.Ax3 → K,
      |ox| / dx ix * ((ev q ix iy iz f).2 .x - f .x) + |oy| / dy iy * ((ev q ix iy iz f).2 .y - f .y) +
        |oz| / dz iz * ((ev q ix iy iz f).2 .z - f .z) + xs (Mesh.coarseCell d ⟨ix, iy, iz⟩) * (ev q ix iy iz f).1 = q (Mesh.coarseCell d ⟨ix, iy, iz⟩) :=
    fun q ix iy iz hx hy hz f => hb (Mesh.coarseCell d ⟨ix, iy, iz⟩) _ _ _ _ _ _ _ _ (div_pos (abs_pos.mpr hox) (hdx ix)) (div_pos (abs_pos.mpr hoy) (hdy iy))
      (div_pos (abs_pos.mpr hoz) (hdz iz)) (hxs _ (cell_lt3 d ix iy iz hx hy hz))
  have key := Sn.C156_ordinates d (ox < 0) (oy < 0) (oz < 0) wgt (ev q) (ev q') s s' |ox| |oy| |oz| dx dy dz (fun ix iy iz => xs (Mesh.coarseCell d ⟨ix, iy, iz⟩))
    (fun ix iy iz => q (Mesh.coarseCell d ⟨ix, iy, iz⟩)) (fun ix iy iz => q' (Mesh.coarseCell d ⟨ix, iy, iz⟩)) r
    (fun i => (hdx i).ne') (fun i => (hdy i).ne') (fun i => (hdz i).ne') hnx hny hnz (hbal q) (hbal q') (fun ix iy iz h1 h2 h3 => hr ix iy iz h1 h2 h3 q)
    (fun ix iy iz h1 h2 h3 => hr ix iy iz h1 h2 h3 q')
  dsimp only at key
  rw [hl, hl']
  have u1 := fun ix iy iz hx hy hz => (Sn.C30_upwind d (ox < 0) (oy < 0) (oz < 0) wgt (ev q) s ix iy iz hx hy hz).2
  have u2 := fun ix iy iz hx hy hz => (Sn.C30_upwind d (!decide (ox < 0)) (!decide (oy < 0)) (!decide (oz < 0)) wgt (ev q') s' ix iy iz hx hy hz).2
  set R := Sn.sweep3 d (ox < 0) (oy < 0) (oz < 0) wgt (ev q) s with hR
  set R' := Sn.sweep3 d (!decide (ox < 0)) (!decide (oy < 0)) (!decide (oz < 0)) wgt (ev q') s' with hR'
  have e1 : (∑ i ∈ range (d.nx * d.ny * d.nz), vol i * (q i * (R'.tflux i - s'.tflux i) - q' i * (R.tflux i - s.tflux i))) =
      wgt * ∑ iz ∈ range d.nz, ∑ iy ∈ range d.ny, ∑ ix ∈ range d.nx, dx ix * dy iy * dz iz *
        (q (Mesh.coarseCell d ⟨ix, iy, iz⟩) * (R'.out (Mesh.coarseCell d ⟨ix, iy, iz⟩)).1 - q' (Mesh.coarseCell d ⟨ix, iy, iz⟩) * (R.out (Mesh.coarseCell d ⟨ix, iy, iz⟩)).1) := by
    rw [sum_cells3]
    simp only [mul_sum]
    refine sum_congr rfl fun iz hz => sum_congr rfl fun iy hy => sum_congr rfl fun ix hx => ?_
    have hx := mem_range.mp hx
    have hy := mem_range.mp hy
    have hz := mem_range.mp hz
    rw [hvol ix hx iy hy iz hz, u1 ix iy iz hx hy hz, u2 ix iy iz hx hy hz]
    ring
  rw [e1, key, Sn.sum_ax3]
  simp only [slots3, faceWeight3]
  rw [face_sum d.ny d.nz (fun i k => wgt * (|ox| * dy i * dz k)) fun j => R.flux .x j * s'.flux .x j - s.flux .x j * R'.flux .x j,
    face_sum d.nx d.nz (fun i k => wgt * (|oy| * dx i * dz k)) fun j => R.flux .y j * s'.flux .y j - s.flux .y j * R'.flux .y j,
    face_sum d.nx d.ny (fun i k => wgt * (|oz| * dx i * dy k)) fun j => R.flux .z j * s'.flux .z j - s.flux .z j * R'.flux .z j]
  simp only [mul_add, mul_sum, mul_assoc]

/-- C156: the same in two dimensions. -/
theorem C156_ord2 (d : Mesh.Dims) (hnx : 0 < d.nx) (hny : 0 < d.ny) (dx dy : Nat → K) (hdx : ∀ i, 0 < dx i) (hdy : ∀ i, 0 < dy i)
    (vol : Nat → K) (hvol : ∀ ix < d.nx, ∀ iy < d.ny, vol (Mesh.coarseCell d ⟨ix, iy, 0⟩) = dx ix * dy iy)
    (a a' : Nat) (ox oy wgt : K) (hox : ox ≠ 0) (hoy : oy ≠ 0) (sch : Nat → Scheme2 K) (hb : ∀ i, Bal2 (sch i)) (hm : ∀ i, Mean2 (sch i)) :
    OrdPair (d.nx * d.ny) vol (slots2 d) (faceWeight2 dx dy ox oy wgt) (ord2 d dx dy a ox oy wgt sch) (ord2 d dx dy a' (-ox) (-oy) wgt sch) := by
  intro q q' xs s s' hxs
  have cellEq : ∀ ix iy, Mesh.coarseCell d ⟨ix, iy, 0⟩ = d.nx * iy + ix := by
    intro ix iy
    unfold Mesh.coarseCell
    ring
  have cellLt : ∀ ix iy, ix < d.nx → iy < d.ny → Mesh.coarseCell d ⟨ix, iy, 0⟩ < d.nx * d.ny := by
    intro ix iy hx hy
    have h1 := slot_lt hx hy
    have h2 := cellEq ix iy
    omega
  set ev : (Nat → K) → Nat → Nat → (Sn.Ax2 → K) → K × (Sn.Ax2 → K) := fun q ix iy f =>
    let i := Mesh.coarseCell d ⟨ix, iy, 0⟩
    let o := sch i (|ox| / dx ix) (|oy| / dy iy) (f .x) (f .y) (q i) (xs i)
    (o.psi, fun | .x => o.x | .y => o.y) with hev
  have hl : (ord2 d dx dy a ox oy wgt sch).loops q xs s = Sn.sweep2 d (ox < 0) (oy < 0) wgt (ev q) s := rfl
  have hl' : (ord2 d dx dy a' (-ox) (-oy) wgt sch).loops q' xs s' = Sn.sweep2 d (!decide (ox < 0)) (!decide (oy < 0)) wgt (ev q') s' := by
    show Sn.sweep2 d (decide (-ox < 0)) (decide (-oy < 0)) wgt _ s' = _
    rw [not_neg_lt ox hox, not_neg_lt oy hoy]
    simp only [hev, abs_neg]
    rfl
  have hmean : ∀ ix iy, ∃ r : Sn.Ax2 → K, ix < d.nx → iy < d.ny → ∀ (q : Nat → K) (f : Sn.Ax2 → K) k,
      (ev q ix iy f).1 = r k * f k + (1 - r k) * (ev q ix iy f).2 k := by
    intro ix iy
    by_cases h : ix < d.nx ∧ iy < d.ny
    · obtain ⟨rx, ry, hr⟩ := hm (Mesh.coarseCell d ⟨ix, iy, 0⟩) _ _ _ (div_pos (abs_pos.mpr hox) (hdx ix)) (div_pos (abs_pos.mpr hoy) (hdy iy))
        (hxs _ (cellLt ix iy h.1 h.2))
      refine ⟨fun | .x => rx | .y => ry, fun _ _ q f k => ?_⟩
      obtain ⟨h1, h2⟩ := hr (f .x) (f .y) (q (Mesh.coarseCell d ⟨ix, iy, 0⟩))
      cases k
      · exact h1
      · exact h2
    · exact ⟨fun _ => 0, fun h1 h2 => absurd ⟨h1, h2⟩ h⟩
  choose r hr using hmean
  have hbal : ∀ (q : Nat → K) ix iy, ix < d.nx → iy < d.ny → ∀ f : Sn.Ax2 → K,
      |ox| / dx ix * ((ev q ix iy f).2 .x - f .x) + |oy| / dy iy * ((ev q ix iy f).2 .y - f .y) + xs (Mesh.coarseCell d ⟨ix, iy, 0⟩) * (ev q ix iy f).1 =
        q (Mesh.coarseCell d ⟨ix, iy, 0⟩) :=
    fun q ix iy hx hy f => hb (Mesh.coarseCell d ⟨ix, iy, 0⟩) _ _ _ _ _ _ (div_pos (abs_pos.mpr hox) (hdx ix)) (div_pos (abs_pos.mpr hoy) (hdy iy)) (hxs _ (cellLt ix iy hx hy))
  have key := Sn.C156_ordinates_2d d (ox < 0) (oy < 0) wgt (ev q) (ev q') s s' |ox| |oy| dx dy (fun ix iy => xs (Mesh.coarseCell d ⟨ix, iy, 0⟩))
    (fun ix iy => q (Mesh.coarseCell d ⟨ix, iy, 0⟩)) (fun ix iy => q' (Mesh.coarseCell d ⟨ix, iy, 0⟩)) r
    (fun i => (hdx i).ne') (fun i => (hdy i).ne') hnx hny (hbal q) (hbal q') (fun ix iy h1 h2 => hr ix iy h1 h2 q) (fun ix iy h1 h2 => hr ix iy h1 h2 q')
  dsimp only at key
  rw [hl, hl']
  have u1 := fun ix iy hx hy => (Sn.C30_upwind_2d d (ox < 0) (oy < 0) wgt (ev q) s ix iy hx hy).2.1
  have u2 := fun ix iy hx hy => (Sn.C30_upwind_2d d (!decide (ox < 0)) (!decide (oy < 0)) wgt (ev q') s' ix iy hx hy).2.1
  set R := Sn.sweep2 d (ox < 0) (oy < 0) wgt (ev q) s with hR
  set R' := Sn.sweep2 d (!decide (ox < 0)) (!decide (oy < 0)) wgt (ev q') s' with hR'
  have e1 : (∑ i ∈ range (d.nx * d.ny), vol i * (q i * (R'.tflux i - s'.tflux i) - q' i * (R.tflux i - s.tflux i))) =
      wgt * ∑ iy ∈ range d.ny, ∑ ix ∈ range d.nx, dx ix * dy iy *
        (q (Mesh.coarseCell d ⟨ix, iy, 0⟩) * (R'.out (Mesh.coarseCell d ⟨ix, iy, 0⟩)).1 - q' (Mesh.coarseCell d ⟨ix, iy, 0⟩) * (R.out (Mesh.coarseCell d ⟨ix, iy, 0⟩)).1) := by
    rw [sum_mul_range]
    simp only [mul_sum]
    refine sum_congr rfl fun iy hy => sum_congr rfl fun ix hx => ?_
    have hx := mem_range.mp hx
    have hy := mem_range.mp hy
    rw [← cellEq, hvol ix hx iy hy, u1 ix iy hx hy, u2 ix iy hx hy]
    ring
  rw [e1, key, Sn.sum_ax2]
  simp only [slots2, faceWeight2, mul_add, mul_sum, mul_assoc]

/-- C156: diamond difference takes such means. -/
theorem C156_diamond : Mean3 (K := K) Sn.evalDD ∧ Mean2 (K := K) Sn.evalDD2 := by
  refine ⟨fun tx ty tz xs _ _ _ _ => ⟨1 / 2, 1 / 2, 1 / 2, fun fx fy fz q => ?_⟩, fun tx ty xs _ _ _ => ⟨1 / 2, 1 / 2, fun fx fy q => ?_⟩⟩
  · obtain ⟨h1, h2, h3⟩ := Sn.C29_dd_closure tx ty tz fx fy fz q xs
    exact ⟨h1.trans (by ring), h2.trans (by ring), h3.trans (by ring)⟩
  · obtain ⟨h1, h2⟩ := Sn.C29_dd_2d_closure tx ty fx fy q xs
    exact ⟨h1.trans (by ring), h2.trans (by ring)⟩

/-- C156: so do the corrected schemes with factors of one half, forward differences along z. -/
theorem C156_half : Mean3 (K := K) (Sn.evalCDDDD (1 / 2) (1 / 2)) ∧ Mean3 (K := K) (Sn.evalCDDFW (1 / 2) (1 / 2)) ∧ Mean2 (K := K) (Sn.evalCDD2 (1 / 2) (1 / 2)) := by
  refine ⟨fun tx ty tz xs _ _ _ _ => ⟨1 / 2, 1 / 2, 1 / 2, fun fx fy fz q => ?_⟩, fun tx ty tz xs _ _ _ _ => ⟨1 / 2, 1 / 2, 0, fun fx fy fz q => ?_⟩,
    fun tx ty xs _ _ _ => ⟨1 / 2, 1 / 2, fun fx fy q => ?_⟩⟩
  · obtain ⟨h1, h2, h3⟩ := Sn.C29_cdd_dd_closure (1 / 2) (1 / 2) tx ty tz fx fy fz q xs (by norm_num) (by norm_num)
    exact ⟨h1.trans (by ring), h2.trans (by ring), h3.trans (by ring)⟩
  · obtain ⟨h1, h2, h3⟩ := Sn.C29_cdd_fw_closure (1 / 2) (1 / 2) tx ty tz fx fy fz q xs (by norm_num) (by norm_num)
    exact ⟨h1.trans (by ring), h2.trans (by ring), h3.trans (by ring)⟩
  · obtain ⟨h1, h2⟩ := Sn.C29_cdd_2d_closure (1 / 2) (1 / 2) tx ty fx fy q xs (by norm_num) (by norm_num)
    exact ⟨h1.trans (by ring), h2.trans (by ring)⟩

end

/-- C156: step characteristics with the true exponential. -/
theorem C156_sc : Mean3 (K := ℝ) (Sn.evalDDSC Real.exp) ∧ Mean3 (K := ℝ) (Sn.evalCDDSC Real.exp (1 / 2) (1 / 2)) := by
  refine ⟨fun tx ty tz xs _ _ hz hx => ⟨1 / 2, 1 / 2, Sn.rho Real.exp (xs / tz), fun fx fy fz q => ?_⟩,
    fun tx ty tz xs _ _ hz hx => ⟨1 / 2, 1 / 2, Sn.rho Real.exp (xs / tz), fun fx fy fz q => ?_⟩⟩
  all_goals
    obtain ⟨h0, h1⟩ := Sn.rho_bounds (xs / tz) (by positivity)
    have hr : 1 - Sn.rho Real.exp (xs / tz) ≠ 0 := by linarith
    obtain ⟨h1, h2, h3, h4, -⟩ := Sn.C29_sc_closure (1 / 2) (1 / 2) tx ty tz fx fy fz q xs (by norm_num) (by norm_num) hz hx
  · refine ⟨h1.trans (by ring), h2.trans (by ring), ?_⟩
    simp only [Sn.evalDDSC]
    rw [mul_div_cancel₀ _ hr]; ring
  · refine ⟨h3.trans (by ring), h4.trans (by ring), ?_⟩
    simp only [Sn.evalCDDSC]
    rw [mul_div_cancel₀ _ hr]; ring

end Verif.Medium

namespace Verif.Medium

open Finset Verif.XS Verif.Source

section
variable {K : Type} [Field K] [LinearOrder K] [IsStrictOrderedRing K] {κ : Type} [Fintype κ]

/-- Ordinates of a sweep, numbered; what comes in on face `k` of ordinate `a` is zero or what went out of the mirrored ordinate there. -/
structure SnLinked (nAng : Nat) (n : κ → Nat) (m : SnSetup κ K) (ordOf : Nat → SnOrd κ K) (mir : Nat → κ → Nat) (vac : Nat → κ → Bool) : Prop where
  perm : (m.ords.map SnOrd.iang).Perm (List.range nAng)
  num : ∀ o ∈ m.ords, ordOf o.iang = o
  lt : ∀ a < nAng, ∀ k, mir a k < nAng
  twice : ∀ a < nAng, ∀ k, mir (mir a k) k = a
  all : ∀ b o, ∀ a < nAng, ∀ k, ∀ j < n k, m.u.all b o a k j = if vac a k then 0 else o (mir a k) k j
  one : ∀ c < nAng, ∀ b o, ∀ a < nAng, ∀ k, ∀ j < n k, m.u.one c b o a k j = if c = mir a k then (if vac a k then 0 else o (mir a k) k j) else b a k j

/-- Besides, `rev a` is opposite to `a`. -/
structure SnMirror (nReg nAng : Nat) (vol : Nat → K) (n : κ → Nat) (m : SnSetup κ K) (ordOf : Nat → SnOrd κ K) (mir : Nat → κ → Nat) (vac : Nat → κ → Bool) (rev : Nat → Nat)
    (A : Nat → κ → Nat → K) : Prop extends SnLinked nAng n m ordOf mir vac where
  pair : ∀ a < nAng, OrdPair nReg vol n (A a) (ordOf a) (ordOf (rev a))
  revLt : ∀ a < nAng, rev a < nAng
  revTwice : ∀ a < nAng, rev (rev a) = a
  same : ∀ a < nAng, ∀ k, ∀ j < n k, A (mir a k) k j = A a k j
  revMir : ∀ a < nAng, ∀ k, rev (mir a k) = mir (rev a) k
  revVac : ∀ a < nAng, ∀ k, vac (mir a k) k = vac (rev a) k

section mirror
variable {nReg nAng : Nat} {vol : Nat → K} {n : κ → Nat} {m : SnSetup κ K} {ordOf : Nat → SnOrd κ K} {mir : Nat → κ → Nat} {vac : Nat → κ → Bool} {rev : Nat → Nat}
  {A : Nat → κ → Nat → K}

/-- Sum over the ordinates in the order of the sweep. -/
theorem sn_sum_ords (h : SnLinked nAng n m ordOf mir vac) (F : SnOrd κ K → K) : (m.ords.map F).sum = ∑ a ∈ range nAng, F (ordOf a) := by
  have e : m.ords.map F = (m.ords.map SnOrd.iang).map fun a => F (ordOf a) := by
    rw [List.map_map]
    exact List.map_congr_left fun o ho => by rw [Function.comp, h.num o ho]
  rw [e, (h.perm.map _).sum_eq, sum_list_range]

theorem sn_iang_lt (h : SnLinked nAng n m ordOf mir vac) (o : SnOrd κ K) (ho : o ∈ m.ords) : o.iang < nAng :=
  List.mem_range.mp (h.perm.subset (List.mem_map.mpr ⟨o, ho, rfl⟩))

theorem sn_ord_of (h : SnLinked nAng n m ordOf mir vac) (a : Nat) (ha : a < nAng) : ordOf a ∈ m.ords ∧ (ordOf a).iang = a := by
  obtain ⟨o, ho, rfl⟩ := List.mem_map.mp (h.perm.symm.subset (List.mem_range.mpr ha))
  rw [h.num o ho]
  exact ⟨ho, rfl⟩

/-- What goes out of an ordinate stays as it is when others follow. -/
theorem sn_bout_keep (m : SnSetup κ K) (q xs : Nat → K) (a : Nat) (l : List (SnOrd κ K)) (ha : a ∉ l.map SnOrd.iang) (s : SnPass κ K) :
    (l.foldl (snOrdinate m q xs) s).bout a = s.bout a := by
  induction l generalizing s with
  | nil => rfl
  | cons o l ih =>
    simp only [List.map_cons, List.mem_cons, not_or] at ha
    rw [List.foldl_cons, ih ha.2]
    simp [snOrdinate, ha.1]

/-- What comes into an ordinate stays as it is until its mirror has been swept. -/
theorem sn_bin_keep (h : SnLinked nAng n m ordOf mir vac) (q xs : Nat → K) (a : Nat) (ha : a < nAng) (k : κ) (j : Nat) (hj : j < n k)
    (l : List (SnOrd κ K)) (hl : ∀ o ∈ l, o ∈ m.ords) (hm : mir a k ∉ l.map SnOrd.iang) (s : SnPass κ K) :
    (l.foldl (snOrdinate m q xs) s).bin a k j = s.bin a k j := by
  induction l generalizing s with
  | nil => rfl
  | cons o l ih =>
    simp only [List.map_cons, List.mem_cons, not_or] at hm
    rw [List.foldl_cons, ih (fun o ho => hl o (by simp [ho])) hm.2]
    simp only [snOrdinate]
    split_ifs
    · rw [h.one o.iang (sn_iang_lt h o (hl o (by simp))) _ _ a ha k j hj, if_neg (Ne.symm hm.1)]
    · rfl

/-- Same values on the faces. -/
def SnSame (nAng : Nat) (n : κ → Nat) (b b' : Nat → κ → Nat → K) : Prop := ∀ a < nAng, ∀ k, ∀ j < n k, b a k j = b' a k j

theorem sn_steady_prefix (h : SnLinked nAng n m ordOf mir vac) (q xs : Nat → K) (b0 o0 : Nat → κ → Nat → K) (hs : SnSame nAng n b0 (snSweep1g m q xs b0 o0).bin)
    (l1 l2 : List (SnOrd κ K)) (hl : m.ords = l1 ++ l2) : SnSame nAng n b0 (l1.foldl (snOrdinate m q xs) ⟨fun _ => 0, b0, o0⟩).bin := by
  intro a ha k j hj
  cases hg : m.gs
  · rw [(sn_jacobi m hg q xs l1 _).1]
  · by_cases hm : mir a k ∈ l1.map SnOrd.iang
    · have hnd : (m.ords.map SnOrd.iang).Nodup := h.perm.nodup_iff.mpr List.nodup_range
      rw [hl, List.map_append, List.nodup_append] at hnd
      have h2 : mir a k ∉ l2.map SnOrd.iang := fun h2 => hnd.2.2 _ hm _ h2 rfl
      rw [hs a ha k j hj]
      simp only [snSweep1g, hg, if_true]
      rw [hl, List.foldl_append]
      exact sn_bin_keep h q xs a ha k j hj l2 (fun o ho => by rw [hl]; simp [ho]) h2 _
    · exact (sn_bin_keep h q xs a ha k j hj l1 (fun o ho => by rw [hl]; simp [ho]) hm ⟨fun _ => 0, b0, o0⟩).symm

theorem sn_steady_joined (h : SnLinked nAng n m ordOf mir vac) (q xs : Nat → K) (b0 o0 : Nat → κ → Nat → K) (hs : SnSame nAng n b0 (snSweep1g m q xs b0 o0).bin)
    (a : Nat) (ha : a < nAng) (k : κ) (j : Nat) (hj : j < n k) : b0 a k j = if vac a k then 0 else (snSweep1g m q xs b0 o0).bout (mir a k) k j := by
  rw [hs a ha k j hj]
  cases hg : m.gs
  · simp only [snSweep1g, hg, Bool.false_eq_true, if_false]
    exact h.all _ _ a ha k j hj
  · simp only [snSweep1g, hg, if_true]
    obtain ⟨ho, hi⟩ := sn_ord_of h (mir a k) (h.lt a ha k)
    obtain ⟨l1, l2, hl⟩ := List.append_of_mem ho
    have hnd : (m.ords.map SnOrd.iang).Nodup := h.perm.nodup_iff.mpr List.nodup_range
    rw [hl, List.map_append, List.map_cons, hi, List.nodup_append, List.nodup_cons] at hnd
    rw [hl, List.foldl_append, List.foldl_cons, sn_bin_keep h q xs a ha k j hj l2 (fun o ho => by rw [hl]; simp [ho]) hnd.2.1.1,
      sn_bout_keep m q xs _ l2 hnd.2.1.1]
    generalize l1.foldl (snOrdinate m q xs) ⟨fun _ => 0, b0, o0⟩ = t
    simp only [snOrdinate, hg, if_true, hi]
    rw [h.one _ (h.lt a ha k) _ _ a ha k j hj, if_pos rfl, if_pos rfl]

/-- The ordinates one after the other, and what each of them adds to the flux. -/
theorem sn_trace (m : SnSetup κ K) (q xs : Nat → K) (l : List (SnOrd κ K)) (hn : (l.map SnOrd.iang).Nodup) (s : SnPass κ K) :
    ∃ st : Nat → SnPass κ K, (∀ o ∈ l, ∃ l1 l2, l = l1 ++ o :: l2 ∧ st o.iang = l1.foldl (snOrdinate m q xs) s) ∧
      ∀ i, (l.foldl (snOrdinate m q xs) s).tflux i =
        s.tflux i + (l.map fun o => (o.loops q xs ⟨(st o.iang).bin o.iang, (st o.iang).tflux, fun _ => (0, fun _ => 0)⟩).tflux i - (st o.iang).tflux i).sum := by
  induction l generalizing s with
  | nil => exact ⟨fun _ => s, nofun, fun i => by simp⟩
  | cons o l ih =>
    rw [List.map_cons, List.nodup_cons] at hn
    obtain ⟨st, h1, h2⟩ := ih hn.2 (snOrdinate m q xs s o)
    have hne : ∀ o' ∈ l, o'.iang ≠ o.iang := fun o' ho' e => hn.1 (List.mem_map.mpr ⟨o', ho', e⟩)
    refine ⟨fun a => if a = o.iang then s else st a, fun o' ho' => ?_, fun i => ?_⟩
    · rcases List.mem_cons.mp ho' with rfl | ho'
      · exact ⟨[], l, rfl, by simp⟩
      · obtain ⟨l1, l2, e1, e2⟩ := h1 o' ho'
        exact ⟨o :: l1, l2, by rw [e1]; rfl, (if_neg (hne o' ho')).trans (by rw [e2, List.foldl_cons])⟩
    · have e : (l.map fun o' => (o'.loops q xs ⟨((fun a => if a = o.iang then s else st a) o'.iang).bin o'.iang, ((fun a => if a = o.iang then s else st a) o'.iang).tflux,
          fun _ => (0, fun _ => 0)⟩).tflux i - ((fun a => if a = o.iang then s else st a) o'.iang).tflux i) =
          l.map fun o' => (o'.loops q xs ⟨(st o'.iang).bin o'.iang, (st o'.iang).tflux, fun _ => (0, fun _ => 0)⟩).tflux i - (st o'.iang).tflux i :=
        List.map_congr_left fun o' ho' => by simp only [if_neg (hne o' ho')]
      rw [List.foldl_cons, h2 i, List.map_cons, List.sum_cons, e]
      simp only [if_true, snOrdinate]
      ring

/-- Boundary values that do not change: what each ordinate finds, leaves and adds. -/
theorem sn_steady (h : SnLinked nAng n m ordOf mir vac) (q xs : Nat → K) (b0 o0 : Nat → κ → Nat → K) (hs : SnSame nAng n b0 (snSweep1g m q xs b0 o0).bin) :
    ∃ st : Nat → Sn.State κ K, (∀ a < nAng, ∀ k, ∀ j < n k, (st a).flux k j = b0 a k j) ∧
      (∀ a < nAng, ((ordOf a).loops q xs (st a)).flux = (snSweep1g m q xs b0 o0).bout a) ∧
      ∀ i, (snSweep1g m q xs b0 o0).tflux i = ∑ a ∈ range nAng, (((ordOf a).loops q xs (st a)).tflux i - (st a).tflux i) := by
  have hnd : (m.ords.map SnOrd.iang).Nodup := h.perm.nodup_iff.mpr List.nodup_range
  obtain ⟨st, h1, h2⟩ := sn_trace m q xs m.ords hnd ⟨fun _ => 0, b0, o0⟩
  refine ⟨fun a => ⟨(st a).bin a, (st a).tflux, fun _ => (0, fun _ => 0)⟩, fun a ha k j hj => ?_, fun a ha => ?_, fun i => ?_⟩
  · obtain ⟨ho, hi⟩ := sn_ord_of h a ha
    obtain ⟨l1, l2, e1, e2⟩ := h1 _ ho
    rw [hi] at e2
    show (st a).bin a k j = _
    rw [e2]
    exact (sn_steady_prefix h q xs b0 o0 hs l1 _ e1 a ha k j hj).symm
  · obtain ⟨ho, hi⟩ := sn_ord_of h a ha
    obtain ⟨l1, l2, e1, e2⟩ := h1 _ ho
    rw [hi] at e2
    have hnd' := hnd
    rw [e1, List.map_append, List.map_cons, hi, List.nodup_append, List.nodup_cons] at hnd'
    show _ = (m.ords.foldl (snOrdinate m q xs) ⟨fun _ => 0, b0, o0⟩).bout a
    conv_rhs => rw [e1, List.foldl_append, List.foldl_cons, sn_bout_keep m q xs _ l2 hnd'.2.1.1, ← e2]
    simp only [snOrdinate, hi, if_true]
  · show (m.ords.foldl (snOrdinate m q xs) ⟨fun _ => 0, b0, o0⟩).tflux i = _
    rw [h2 i, sn_sum_ords h]
    simp only [zero_add]
    exact sum_congr rfl fun a ha => by rw [(sn_ord_of h a (mem_range.mp ha)).2]

/-- What goes out of one calculation times what comes into the other is the same both ways round. -/
theorem sn_pairing_cancel (h : SnMirror nReg nAng vol n m ordOf mir vac rev A) (B O B' O' : Nat → κ → Nat → K)
    (hB : ∀ a < nAng, ∀ k, ∀ j < n k, B a k j = if vac a k then 0 else O (mir a k) k j)
    (hB' : ∀ a < nAng, ∀ k, ∀ j < n k, B' a k j = if vac a k then 0 else O' (mir a k) k j) :
    ∑ a ∈ range nAng, ∑ k, ∑ j ∈ range (n k), A a k j * (O a k j * B' (rev a) k j) = ∑ a ∈ range nAng, ∑ k, ∑ j ∈ range (n k), A a k j * (B a k j * O' (rev a) k j) := by
  rw [sum_comm, sum_comm (s := range nAng)]
  refine sum_congr rfl fun k _ => ?_
  refine sum_bij' (fun a _ => mir a k) (fun a _ => mir a k) (fun a ha => mem_range.mpr (h.lt a (mem_range.mp ha) k)) (fun a ha => mem_range.mpr (h.lt a (mem_range.mp ha) k))
    (fun a ha => h.twice a (mem_range.mp ha) k) (fun a ha => h.twice a (mem_range.mp ha) k) fun a ha => sum_congr rfl fun j hj => ?_
  have ha := mem_range.mp ha
  have hj := mem_range.mp hj
  rw [hB' (rev a) (h.revLt a ha) k j hj, hB (mir a k) (h.lt a ha k) k j hj, h.twice a ha k, h.same a ha k j hj, h.revMir a ha k, h.revVac a ha k]
  split_ifs <;> simp

/-- C156: two sweeps of a group with the same cross sections and different sources, boundary values unchanged by each of them: the source of one weighted with the flux of the
other is the same both ways round, with either kind of boundary update. -/
theorem C156_sweep (h : SnMirror nReg nAng vol n m ordOf mir vac rev A) (q q' xs : Nat → K) (hx : ∀ i < nReg, 0 < xs i) (b o b' o' : Nat → κ → Nat → K)
    (hs : SnSame nAng n b (snSweep1g m q xs b o).bin) (hs' : SnSame nAng n b' (snSweep1g m q' xs b' o').bin) :
    ∑ i ∈ range nReg, vol i * (q' i * (snSweep1g m q xs b o).tflux i) = ∑ i ∈ range nReg, vol i * (q i * (snSweep1g m q' xs b' o').tflux i) := by
  obtain ⟨st, a1, a2, a3⟩ := sn_steady h.toSnLinked q xs b o hs
  obtain ⟨st', b1, b2, b3⟩ := sn_steady h.toSnLinked q' xs b' o' hs'
  have j1 := sn_steady_joined h.toSnLinked q xs b o hs
  have j2 := sn_steady_joined h.toSnLinked q' xs b' o' hs'
  have hc := sn_pairing_cancel h b (snSweep1g m q xs b o).bout b' (snSweep1g m q' xs b' o').bout j1 j2
  have hp : ∀ a ∈ range nAng, (∑ i ∈ range nReg, vol i * (q i * (((ordOf (rev a)).loops q' xs (st' (rev a))).tflux i - (st' (rev a)).tflux i) -
      q' i * (((ordOf a).loops q xs (st a)).tflux i - (st a).tflux i))) =
      (∑ k, ∑ j ∈ range (n k), A a k j * ((snSweep1g m q xs b o).bout a k j * b' (rev a) k j)) -
        ∑ k, ∑ j ∈ range (n k), A a k j * (b a k j * (snSweep1g m q' xs b' o').bout (rev a) k j) := by
    intro a ha
    have ha := mem_range.mp ha
    rw [h.pair a ha q q' xs (st a) (st' (rev a)) hx, a2 a ha, b2 _ (h.revLt a ha), ← sum_sub_distrib]
    refine sum_congr rfl fun k _ => ?_
    rw [← sum_sub_distrib]
    refine sum_congr rfl fun j hj => ?_
    have hj := mem_range.mp hj
    rw [a1 a ha k j hj, b1 _ (h.revLt a ha) k j hj]
    ring
  have ht := sum_congr (rfl : range nAng = range nAng) hp
  rw [sum_sub_distrib, hc, sub_self, sum_comm] at ht
  have e : ∀ i, ∑ a ∈ range nAng, (((ordOf (rev a)).loops q' xs (st' (rev a))).tflux i - (st' (rev a)).tflux i) = (snSweep1g m q' xs b' o').tflux i := by
    intro i
    rw [b3 i]
    exact sum_bij' (fun a _ => rev a) (fun a _ => rev a) (fun a ha => mem_range.mpr (h.revLt a (mem_range.mp ha))) (fun a ha => mem_range.mpr (h.revLt a (mem_range.mp ha)))
      (fun a ha => h.revTwice a (mem_range.mp ha)) (fun a ha => h.revTwice a (mem_range.mp ha)) fun a ha => rfl
  have e2 : ∀ i ∈ range nReg, ∑ a ∈ range nAng, vol i * (q i * (((ordOf (rev a)).loops q' xs (st' (rev a))).tflux i - (st' (rev a)).tflux i) -
      q' i * (((ordOf a).loops q xs (st a)).tflux i - (st a).tflux i)) = vol i * (q i * (snSweep1g m q' xs b' o').tflux i) - vol i * (q' i * (snSweep1g m q xs b o).tflux i) := by
    intro i _
    rw [← mul_sum, sum_sub_distrib, ← mul_sum, ← mul_sum, e i, ← a3 i]
    ring
  rw [sum_congr rfl e2, sum_sub_distrib] at ht
  exact (sub_eq_zero.mp ht).symm

end mirror

end

end Verif.Medium

namespace Verif.Medium

open Finset Verif.XS Verif.Source

section
variable {K : Type} [Field K] [LinearOrder K] [IsStrictOrderedRing K] {κ : Type} [Fintype κ]

/-- Positive flux, and incoming values, that are the same after a pass over all groups. -/
structure SnConverged (p : Problem K) (nAng : Nat) (n : κ → Nat) (s s' : SnState κ K) : Prop where
  pos : ∀ i < p.nReg, ∀ g < p.ng, 0 < s.flux i g
  flux : ∀ i < p.nReg, ∀ g < p.ng, s'.flux i g = s.flux i g
  bin : ∀ g < p.ng, SnSame nAng n (s.bin g) (s'.bin g)

/-- Then the sweep of group `g`: source and result. -/
theorem sn_converged_group (p : Problem K) (part : Partition p.rs) (cover : ∀ i, i < p.nReg ↔ ∃ x ∈ p.rs, i ∈ x.regs) (hsc : ∀ x ∈ p.rs, Source.NonNeg p.ng x.mat)
    (m : SnSetup κ K) (nAng : Nat) (n : κ → Nat) (hfpi : m.fpi ≠ 0) (hin : m.nInner = 1)
    (base : Nat → Nat → K) (s : SnState κ K) (hc : SnConverged p nAng n s (srcLoop p (snSweeper p m) base p.ng 0 s)) (g : Nat) (hg : g < p.ng) :
    ∃ (q : Nat → K) (bo : Nat → κ → Nat → K), SnSame nAng n (s.bin g) (snSweep1g m q (trOf p.rs g) (s.bin g) bo).bin ∧
      (∀ i < p.nReg, (snSweep1g m q (trOf p.rs g) (s.bin g) bo).tflux i = s.flux i g) ∧
      ∀ x ∈ p.rs, ∀ i ∈ x.regs, m.fpi * q i = base g i + ∑ h ∈ range p.ng, x.mat.sc g h * s.flux i h := by
  have hsw : ∀ g src t, (snSweeper p m).sweep g src t =
      { snInner p m g src t with flux := fun i h => if h = g ∧ (snInner p m g src t).flux i h < 0 then 0 else (snInner p m g src t).flux i h } := by
    intro g src t
    show snSweep p m g src t = _
    simp [snSweep, hin]
  have hF : ∀ g src s h, h ≠ g → ((snSweeper p m).sweep g src s).bin h = s.bin h := by
    intro g src s h hne
    rw [hsw]
    simp only [snInner, if_neg hne]
  have hG : ∀ g src (s : SnState κ K) h, h ≠ g → (fun i => ((snSweeper p m).sweep g src s).flux i h) = fun i => s.flux i h := by
    intro g src s h hne
    funext i
    exact snSweep_only p m g src s i h hne
  obtain ⟨b, hbn⟩ : ∃ b, p.ng = g + (b + 1) := ⟨p.ng - g - 1, by omega⟩
  set t := srcLoop p (snSweeper p m) base g 0 s with htd
  set src := inScatter p.ng p.rs t.flux g (base g) with hsrc
  have hsp : srcLoop p (snSweeper p m) base p.ng 0 s = srcLoop p (snSweeper p m) base b (g + 1) ((snSweeper p m).sweep g src t) := by
    conv_lhs => rw [hbn]
    rw [src_split, srcLoop, Nat.zero_add]
    rfl
  have ht1 : t.bin g = s.bin g := src_other p (snSweeper p m) SnState.bin hF base g 0 s g (by omega)
  have hs1 : (srcLoop p (snSweeper p m) base p.ng 0 s).bin g = (snInner p m g src t).bin g := by
    rw [hsp, src_other p (snSweeper p m) SnState.bin hF base b (g + 1) _ g (by omega), hsw]
  have hs2 : ∀ i, (srcLoop p (snSweeper p m) base p.ng 0 s).flux i g = if (snInner p m g src t).flux i g < 0 then 0 else (snInner p m g src t).flux i g := by
    intro i
    rw [hsp]
    refine (congrFun (src_other p (snSweeper p m) (fun (s : SnState κ K) g i => s.flux i g) hG base b (g + 1) _ g (by omega)) i).trans ?_
    rw [hsw]
    simp only [true_and]
  have ht : ∀ i < p.nReg, ∀ g' < p.ng, t.flux i g' = s.flux i g' := by
    intro i hi g' hg'
    by_cases hlt : g' < g
    · rw [← hc.flux i hi g' hg', show srcLoop p (snSweeper p m) base p.ng 0 s = srcLoop p (snSweeper p m) base (b + 1) (0 + g) t by rw [hbn, src_split]]
      exact (congrFun (src_other p (snSweeper p m) (fun (s : SnState κ K) g i => s.flux i g) hG base (b + 1) (0 + g) t g' (by omega)) i).symm
    · exact congrFun (src_other p (snSweeper p m) (fun (s : SnState κ K) g i => s.flux i g) hG base g 0 s g' (by omega)) i
  rw [← ht1]
  refine ⟨selfScatter m.fpi p.ng p.rs t.flux g src false t.q, t.bout, ?_, ?_, ?_⟩
  · have := hc.bin g hg
    rw [← ht1, hs1] at this
    simpa only [snInner, if_true] using this
  · intro i hi
    have h1 := hs2 i
    have h2 := hc.pos i hi g hg
    rw [hc.flux i hi g hg] at h1
    split_ifs at h1
    · rw [h1] at h2
      exact absurd h2 (lt_irrefl _)
    · simpa only [snInner, if_true] using h1.symm
  · intro x hx i hi
    have hi' : i < p.nReg := (cover i).mpr ⟨x, hx, hi⟩
    rw [selfScatter_at m.fpi p.ng p.rs part t.flux g hg src false t.q x hx i hi, if_neg (by decide), hsrc,
      inScatter_at p.ng p.rs part t.flux g hg (base g) x hx i hi (hsc x hx), ht i hi' g hg]
    have e : ∀ h ∈ range p.ng, (if h ≠ g then x.mat.sc g h * t.flux i h else 0) = x.mat.sc g h * s.flux i h - if h = g then x.mat.sc g g * s.flux i g else 0 := by
      intro h hh
      rw [ht i hi' h (mem_range.mp hh)]
      by_cases e : h = g
      · subst e; simp
      · simp [e]
    rw [sum_congr rfl e, sum_sub_distrib, sum_ite_eq' (range p.ng) g, if_pos (mem_range.mpr hg)]
    field_simp
    ring

/-- C156: two converged calculations with Sn, one with transposed data, for any sources by group. -/
theorem C156_reciprocity (p : Problem K) (part : Partition p.rs) (cover : ∀ i, i < p.nReg ↔ ∃ x ∈ p.rs, i ∈ x.regs) (hsc : ∀ x ∈ p.rs, Source.NonNeg p.ng x.mat)
    (htr : ∀ x ∈ p.rs, ∀ g < p.ng, 0 < x.mat.tr g) (m : SnSetup κ K) (nAng : Nat) (n : κ → Nat) (hfpi : m.fpi ≠ 0) (hin : m.nInner = 1)
    (ordOf : Nat → SnOrd κ K) (mir : Nat → κ → Nat) (vac : Nat → κ → Bool) (rev : Nat → Nat) (A : Nat → κ → Nat → K)
    (hm : SnMirror p.nReg nAng p.vol n m ordOf mir vac rev A) (base base' : Nat → Nat → K) (s a : SnState κ K)
    (hc : SnConverged p nAng n s (srcLoop p (snSweeper p m) base p.ng 0 s))
    (hc' : SnConverged (transposed p) nAng n a (srcLoop (transposed p) (snSweeper (transposed p) m) base' p.ng 0 a)) :
    response p s.flux base' = response p a.flux base := by
  refine response_of_groups p s.flux a.flux base base' fun g hg => ?_
  obtain ⟨q, bo, f1, f2, f3⟩ := sn_converged_group p part cover hsc m nAng n hfpi hin base s hc g hg
  obtain ⟨q', bo', f1', f2', f3'⟩ := sn_converged_group (transposed p) (transposed_part p part) (transposed_cover p cover) (transposed_nonneg p hsc) m nAng n hfpi hin
    base' a hc' g hg
  have hx : ∀ i < p.nReg, 0 < trOf p.rs g i := by
    intro i hi
    obtain ⟨x, hx, hxi⟩ := (cover i).mp hi
    rw [trOf_at p.rs part g x hx i hxi]
    exact htr x hx g hg
  have etr : trOf (transposed p).rs g = trOf p.rs g := by
    unfold trOf transposed
    simp only [List.foldl_map, transposedMat]
  rw [etr] at f1' f2'
  have hr := C156_sweep hm q q' (trOf p.rs g) hx _ bo _ bo' f1 f1'
  have g1 : ∑ i ∈ range p.nReg, p.vol i * (q' i * (snSweep1g m q (trOf p.rs g) (s.bin g) bo).tflux i) = ∑ i ∈ range p.nReg, p.vol i * (q' i * s.flux i g) :=
    sum_congr rfl fun i hi => by rw [f2 i (mem_range.mp hi)]
  have g2 : ∑ i ∈ range p.nReg, p.vol i * (q i * (snSweep1g m q' (trOf p.rs g) (a.bin g) bo').tflux i) = ∑ i ∈ range p.nReg, p.vol i * (q i * a.flux i g) :=
    sum_congr rfl fun i hi => by rw [f2' i (mem_range.mp hi)]
  rw [g1, g2, sum_regions p.nReg p.rs part cover, sum_regions p.nReg p.rs part cover] at hr
  have hr' := congrArg (m.fpi * ·) hr
  rw [← regionSum_mul, ← regionSum_mul] at hr'
  refine Eq.trans (regionSum_congr _ _ _ fun x hx i hi => ?_) (hr'.trans (regionSum_congr _ _ _ fun x hx i hi => ?_))
  · have := f3' ⟨transposedMat x.mat, x.regs⟩ (List.mem_map.mpr ⟨x, hx, rfl⟩) i hi
    change m.fpi * q' i = base' g i + ∑ h ∈ range p.ng, x.mat.sc h g * a.flux i h at this
    rw [← this]
    ring
  · rw [← f3 x hx i hi]
    ring

/-- C156: fixed-source calculations with external sources, one with transposed data, that have converged: the source of each weighted with the flux of the other. -/
theorem C156_fixed (p : Problem K) (part : Partition p.rs) (cover : ∀ i, i < p.nReg ↔ ∃ x ∈ p.rs, i ∈ x.regs) (hsc : ∀ x ∈ p.rs, Source.NonNeg p.ng x.mat)
    (htr : ∀ x ∈ p.rs, ∀ g < p.ng, 0 < x.mat.tr g) (m : SnSetup κ K) (nAng : Nat) (n : κ → Nat) (hfpi : m.fpi ≠ 0) (hin : m.nInner = 1)
    (ordOf : Nat → SnOrd κ K) (mir : Nat → κ → Nat) (vac : Nat → κ → Bool) (rev : Nat → Nat) (A : Nat → κ → Nat → K)
    (hm : SnMirror p.nReg nAng p.vol n m ordOf mir vac rev A) (ext ext' : Option (Ext K)) (S S' : Nat → Nat → K)
    (hS : ∀ g < p.ng, initializeGroup p.nReg ext g = some (S g)) (hS' : ∀ g < p.ng, initializeGroup p.nReg ext' g = some (S' g)) (s s' a a' : SnState κ K)
    (h : fixedSteps p (snSweeper p m) ext 1 s = some s') (hc : SnConverged p nAng n s s')
    (h' : fixedSteps (transposed p) (snSweeper (transposed p) m) ext' 1 a = some a') (hc' : SnConverged (transposed p) nAng n a a') :
    response p s.flux S' = response p a.flux S := by
  rw [fixedSteps, extLoop_eq p _ ext S p.ng 0 fun g _ hg => hS g (by omega), Option.bind_some, fixedSteps, Option.some.injEq] at h
  rw [fixedSteps, extLoop_eq (transposed p) _ ext' S' (transposed p).ng 0 fun g _ hg => hS' g (by have : (transposed p).ng = p.ng := rfl; omega), Option.bind_some, fixedSteps, Option.some.injEq] at h'
  subst h
  subst h'
  exact C156_reciprocity p part cover hsc htr m nAng n hfpi hin ordOf mir vac rev A hm S S' s a hc hc'

/-- C156: an eigenvalue calculation and the one with transposed data, both converged: the same eigenvalue. -/
theorem C156_k (p : Problem K) (part : Partition p.rs) (cover : ∀ i, i < p.nReg ↔ ∃ x ∈ p.rs, i ∈ x.regs) (hsc : ∀ x ∈ p.rs, Source.NonNeg p.ng x.mat)
    (htr : ∀ x ∈ p.rs, ∀ g < p.ng, 0 < x.mat.tr g) (m : SnSetup κ K) (nAng : Nat) (n : κ → Nat) (hfpi : m.fpi ≠ 0) (hin : m.nInner = 1)
    (ordOf : Nat → SnOrd κ K) (mir : Nat → κ → Nat) (vac : Nat → κ → Bool) (rev : Nat → Nat) (A : Nat → κ → Nat → K)
    (hm : SnMirror p.nReg nAng p.vol n m ordOf mir vac rev A)
    (k k' : K) (s s' : SnState κ K) (h : outer p (snSweeper p m) k s = some (k', s')) (hc : SnConverged p nAng n s s')
    (l l' : K) (a a' : SnState κ K) (ha : outer (transposed p) (snSweeper (transposed p) m) l a = some (l', a')) (hc' : SnConverged (transposed p) nAng n a a')
    (hv : ∀ x ∈ p.rs, ∀ i ∈ x.regs, 0 < p.vol i) (hnf : ∀ x ∈ p.rs, ∀ g < p.ng, 0 ≤ x.mat.nf g) (hch : ∀ x ∈ p.rs, ∀ g < p.ng, 0 ≤ x.mat.ch g)
    (hf : ∃ x ∈ p.rs, x.regs ≠ [] ∧ (∃ g < p.ng, x.mat.nf g ≠ 0) ∧ ∃ g < p.ng, x.mat.ch g ≠ 0) : k = l := by
  rw [outer, groupLoop_eq, Option.map_some, Option.some.injEq, Prod.mk.injEq] at h
  rw [outer, groupLoop_eq, Option.map_some, Option.some.injEq, Prod.mk.injEq] at ha
  obtain ⟨-, rfl⟩ := h
  obtain ⟨-, rfl⟩ := ha
  have hk := overlap_of_response p part k l s.flux a.flux (C156_reciprocity p part cover hsc htr m nAng n hfpi hin ordOf mir vac rev A hm _ _ s a hc hc')
  obtain ⟨x, hx, hne, ⟨g, hg, hg0⟩, ⟨g', hg', hg0'⟩⟩ := hf
  obtain ⟨i, hi⟩ := List.exists_mem_of_ne_nil _ hne
  have pos : ∀ x ∈ p.rs, ∀ i ∈ x.regs, ∀ g < p.ng, 0 < s.flux i g := fun x hx i hi g hg => hc.pos i ((cover i).mpr ⟨x, hx, hi⟩) g hg
  have pos' : ∀ x ∈ p.rs, ∀ i ∈ x.regs, ∀ g < p.ng, 0 < a.flux i g := fun x hx i hi g hg => hc'.pos i ((cover i).mpr ⟨x, hx, hi⟩) g hg
  have hov := C155_overlap_pos p hv hnf hch s.flux a.flux (fun x hx i hi g hg => (pos x hx i hi g hg).le) (fun x hx i hi g hg => (pos' x hx i hi g hg).le) x hx i hi g g' hg hg'
    (mul_pos (lt_of_le_of_ne (hnf x hx g hg) (Ne.symm hg0)) (pos x hx i hi g hg)) (mul_pos (lt_of_le_of_ne (hch x hx g' hg') (Ne.symm hg0')) (pos' x hx i hi g' hg'))
  have := mul_right_cancel₀ hov hk
  rw [one_div, one_div] at this
  exact inv_injective this

end

end Verif.Medium

namespace Verif.Medium

open Finset Verif.XS Verif.Source Verif.Quad Verif.Quad.Spec Verif.BC

section
variable {K : Type} [Field K] [LinearOrder K] [IsStrictOrderedRing K]

/-- Where an ordinate comes in from a vacuum. -/
def vacuumOn (sh : Store K) (a : Nat) (n : Normal) : Bool :=
  ((sh.angles[a]?).map fun ang => decide (sh.types (upwindSurface ang n) = .VACUUM)).getD false

/-- The update of the code as Sn uses it, with reflection or vacuum on each face. -/
theorem sn_update_values {κ : Type} (sh : Store K) (first : List (Angle K)) (h : ∀ b o, Pre (load sh b) (load sh o) first)
    (ht : ∀ s, sh.types s = .REFLECT ∨ sh.types s = .VACUUM) (toN : κ → Normal) (ofN : Normal → Option κ) (hto : ∀ k, ofN (toN k) = some k) (n : κ → Nat)
    (hnum : ∀ a < sh.size.length, ∀ k, faceSize sh a (toN k) = n k) (b o : Nat → κ → Nat → K) (a : Nat) (ha : a < sh.size.length) (k : κ) (j : Nat) (hj : j < n k) :
    ((snUpdate sh toN ofN).all b o a k j = if vacuumOn sh a (toN k) then 0 else o (refl first.length a (toN k)) k j) ∧
    ∀ c < sh.size.length, (snUpdate sh toN ofN).one c b o a k j =
      if c = refl first.length a (toN k) then (if vacuumOn sh a (toN k) then 0 else o (refl first.length a (toN k)) k j) else b a k j := by
  have hP := h (fun _ _ _ => 0) fun _ _ _ => 0
  have hangles : sh.angles = expand first := hP.angles
  have h8 : sh.size.length ≤ 8 * first.length := by
    have hl : (load sh fun _ _ _ => 0).size.length = sh.size.length := rfl
    rcases hP.nA with hh | hh <;> omega
  obtain ⟨ang, he⟩ : ∃ ang, sh.angles[a]? = some ang := by
    rw [hangles]
    exact ⟨_, List.getElem?_eq_getElem (by rw [expand_length]; omega)⟩
  have hval : ∀ x y : K, newValue (sh.types (upwindSurface ang (toN k))) x y = if vacuumOn sh a (toN k) then 0 else x := by
    intro x y
    rw [vacuumOn, he, Option.map_some, Option.getD_some]
    rcases ht (upwindSurface ang (toN k)) with e | e <;> simp [e, newValue]
  have hf : ∀ (f : Nat → κ → Nat → K) (a e : Nat), (fun a n e => match ofN n with | some k => f a k e | none => 0 : Nat → Normal → Nat → K) a (toN k) e = f a k e := by
    intro f a e
    simp only [hto]
  constructor
  · obtain ⟨v1, v2, -⟩ := C110_store_value sh first (fun a n e => match ofN n with | some k => b a k e | none => 0)
      (fun a n e => match ofN n with | some k => o a k e | none => 0) (h _ _) a (toN k) j (by rw [hnum a ha k]; exact hj) ang he
    rw [← hval _ 0]
    rcases ht (upwindSurface ang (toN k)) with e | e
    · refine Eq.trans (v2 e) ?_
      rw [e]
      exact hf o _ _
    · refine Eq.trans (v1 e) ?_
      rw [e]
      rfl
  · intro c hc
    have v := store_one_value sh first (fun a n e => match ofN n with | some k => b a k e | none => 0)
      (fun a n e => match ofN n with | some k => o a k e | none => 0) (h _ _) c hc a (toN k) j (by rw [hnum a ha k]; exact hj) ang he
    refine Eq.trans v ?_
    rw [hval]
    simp only [hto]

/-- The ordinate opposite to `a` in three dimensions, and in a plane. -/
def opposite3 (nd a : Nat) : Nat := refl nd (refl nd (refl nd a .Z) .Y) .X

def opposite2 (nd a : Nat) : Nat := refl nd (refl nd a .Y) .X

theorem opposite3_eq (nd o k : Nat) (ho : o < 8) (hk : k < nd) : opposite3 nd (o * nd + k) = octMirror .X (octMirror .Y (octMirror .Z o)) * nd + k := by
  unfold opposite3
  rw [refl_eq nd o k ho hk, refl_eq nd _ k (octMirror_lt .Z o ho) hk, refl_eq nd _ k (octMirror_lt .Y _ (octMirror_lt .Z o ho)) hk]

theorem opposite2_eq (nd o k : Nat) (ho : o < 8) (hk : k < nd) : opposite2 nd (o * nd + k) = octMirror .X (octMirror .Y o) * nd + k := by
  unfold opposite2
  rw [refl_eq nd o k ho hk, refl_eq nd _ k (octMirror_lt .Y o ho) hk]

/-- Components of the opposite direction. -/
theorem opposite3_get (first : List (Angle K)) (hf : ∀ a ∈ first, FirstOctant a) (a : Nat) (ang : Angle K) (h : (expand first)[a]? = some ang) :
    (expand first)[opposite3 first.length a]? = some (mirror (mirror (mirror ang .Z) .Y) .X) := by
  obtain ⟨o, k, ho, hk, rfl⟩ := split_index first.length a (by
    have := (List.getElem?_eq_some_iff.mp h).1
    rwa [expand_length] at this)
  rw [expand_get first hf o k ho hk, Option.some.injEq] at h
  rw [opposite3_eq _ o k ho hk, expand_get first hf _ k (octMirror_lt _ _ (octMirror_lt _ _ (octMirror_lt _ o ho))) hk, octImage_mirror _ _ _ (octMirror_lt _ _ (octMirror_lt _ o ho)),
    octImage_mirror _ _ _ (octMirror_lt _ o ho), octImage_mirror _ _ _ ho, h]

theorem opposite2_get (first : List (Angle K)) (hf : ∀ a ∈ first, FirstOctant a) (a : Nat) (ang : Angle K) (h : (expand first)[a]? = some ang) :
    (expand first)[opposite2 first.length a]? = some (mirror (mirror ang .Y) .X) := by
  obtain ⟨o, k, ho, hk, rfl⟩ := split_index first.length a (by
    have := (List.getElem?_eq_some_iff.mp h).1
    rwa [expand_length] at this)
  rw [expand_get first hf o k ho hk, Option.some.injEq] at h
  rw [opposite2_eq _ o k ho hk, expand_get first hf _ k (octMirror_lt _ _ (octMirror_lt _ o ho)) hk, octImage_mirror _ _ _ (octMirror_lt _ o ho), octImage_mirror _ _ _ ho, h]

theorem refl_get (first : List (Angle K)) (hf : ∀ a ∈ first, FirstOctant a) (a : Nat) (n : Normal) (ang : Angle K) (h : (expand first)[a]? = some ang) :
    (expand first)[refl first.length a n]? = some (mirror ang n) := by
  obtain ⟨o, k, ho, hk, rfl⟩ := split_index first.length a (by
    have := (List.getElem?_eq_some_iff.mp h).1
    rwa [expand_length] at this)
  rw [expand_get first hf o k ho hk, Option.some.injEq] at h
  rw [refl_eq _ o k ho hk, expand_get first hf _ k (octMirror_lt _ o ho) hk, octImage_mirror _ _ _ ho, h]

/-- C156: the Sn sweepers in three dimensions with the boundary conditions of the code, reflection or vacuum on each face, and the ordinates of the code, are of this kind. -/
theorem C156_boundary3 (sh : Store K) (first : List (Angle K)) (h : ∀ b o, Pre (load sh b) (load sh o) first) (h8 : sh.size.length = 8 * first.length)
    (ht : ∀ s, sh.types s = .REFLECT ∨ sh.types s = .VACUUM) (d : Mesh.Dims) (hnx : 0 < d.nx) (hny : 0 < d.ny) (hnz : 0 < d.nz)
    (dx dy dz : Nat → K) (hdx : ∀ i, 0 < dx i) (hdy : ∀ i, 0 < dy i) (hdz : ∀ i, 0 < dz i)
    (vol : Nat → K) (hvol : ∀ ix < d.nx, ∀ iy < d.ny, ∀ iz < d.nz, vol (Mesh.coarseCell d ⟨ix, iy, iz⟩) = dx ix * dy iy * dz iz)
    (hsz : ∀ a < sh.size.length, faceSize sh a .X = d.ny * d.nz ∧ faceSize sh a .Y = d.nx * d.nz ∧ faceSize sh a .Z = d.nx * d.ny)
    (ang : Nat → Angle K) (hang : ∀ a < sh.size.length, sh.angles[a]? = some (ang a)) (hcos : ∀ a < sh.size.length, (ang a).ox ≠ 0 ∧ (ang a).oy ≠ 0 ∧ (ang a).oz ≠ 0)
    (wgt : Nat → K) (hwgt : ∀ a < sh.size.length, ∀ n, wgt (refl first.length a n) = wgt a) (sch : Nat → Scheme3 K) (hb : ∀ i, Bal3 (sch i)) (hm : ∀ i, Mean3 (sch i))
    (m : SnSetup Sn.Ax3 K) (hu : m.u = snUpdate sh norm3 ax3) (order : List Nat) (hperm : order.Perm (List.range sh.size.length))
    (hords : m.ords = order.map fun a => ord3 d dx dy dz a (ang a).ox (ang a).oy (ang a).oz (wgt a) sch) :
    SnMirror (d.nx * d.ny * d.nz) sh.size.length vol (slots3 d) m (fun a => ord3 d dx dy dz a (ang a).ox (ang a).oy (ang a).oz (wgt a) sch)
      (fun a k => refl first.length a (norm3 k)) (fun a k => vacuumOn sh a (norm3 k)) (opposite3 first.length)
      fun a => faceWeight3 d dx dy dz (ang a).ox (ang a).oy (ang a).oz (wgt a) := by
  have hP := h (fun _ _ _ => 0) fun _ _ _ => 0
  have hangles : sh.angles = expand first := hP.angles
  have hlt : ∀ a < sh.size.length, ∀ n, refl first.length a n < sh.size.length := by
    intro a ha n
    rw [h8] at ha ⊢
    exact (refl_props first.length a n ha).1
  have hop : ∀ a < sh.size.length, opposite3 first.length a < sh.size.length := fun a ha => hlt _ (hlt _ (hlt a ha .Z) .Y) .X
  have hnum : ∀ a < sh.size.length, ∀ k, faceSize sh a (norm3 k) = slots3 d k := by
    intro a ha k
    obtain ⟨h1, h2, h3⟩ := hsz a ha
    cases k
    · exact h1
    · exact h2
    · exact h3
  have hro : ∀ a < sh.size.length, ang (opposite3 first.length a) = mirror (mirror (mirror (ang a) .Z) .Y) .X := by
    intro a ha
    have h1 := hang a ha
    have h2 := hang _ (hop a ha)
    rw [hangles] at h1 h2
    rw [opposite3_get first hP.firstOct a _ h1, Option.some.injEq] at h2
    exact h2.symm
  have hrm : ∀ a < sh.size.length, ∀ n, ang (refl first.length a n) = mirror (ang a) n := by
    intro a ha n
    have h1 := hang a ha
    have h2 := hang _ (hlt a ha n)
    rw [hangles] at h1 h2
    rw [refl_get first hP.firstOct a n _ h1, Option.some.injEq] at h2
    exact h2.symm
  have hwo : ∀ a < sh.size.length, wgt (opposite3 first.length a) = wgt a := by
    intro a ha
    unfold opposite3
    rw [hwgt _ (hlt _ (hlt a ha .Z) .Y), hwgt _ (hlt a ha .Z), hwgt a ha]
  have hval := sn_update_values sh first h ht norm3 ax3 (fun k => by cases k <;> rfl) (slots3 d) hnum
  have hvac : ∀ a < sh.size.length, ∀ n, vacuumOn sh a n = decide (sh.types (upwindSurface (ang a) n) = .VACUUM) := by
    intro a ha n
    rw [vacuumOn, hang a ha]
    rfl
  exact
    { perm := by
        rw [hords, List.map_map]
        have : (SnOrd.iang ∘ fun a => ord3 d dx dy dz a (ang a).ox (ang a).oy (ang a).oz (wgt a) sch) = id := rfl
        rw [this, List.map_id]
        exact hperm
      num := fun o ho => by
        rw [hords, List.mem_map] at ho
        obtain ⟨a, -, rfl⟩ := ho
        rfl
      pair := fun a ha => by
        obtain ⟨c1, c2, c3⟩ := hcos a ha
        rw [hro a ha, hwo a ha]
        exact C156_ord3 d hnx hny hnz dx dy dz hdx hdy hdz vol hvol a (opposite3 first.length a) _ _ _ (wgt a) c1 c2 c3 sch hb hm
      revLt := hop
      revTwice := fun a ha => by
        rw [h8] at ha
        obtain ⟨o, k, ho, hk, rfl⟩ := split_index first.length a ha
        have l3 := octMirror_lt .X _ (octMirror_lt .Y _ (octMirror_lt .Z o ho))
        rw [opposite3_eq _ o k ho hk, opposite3_eq _ _ k l3 hk]
        congr 2
        clear l3 hk
        interval_cases o <;> rfl
      lt := fun a ha k => hlt a ha _
      twice := fun a ha k => (refl_props first.length a _ (by omega)).2.2
      same := fun a ha k j _ => by
        rw [hrm a ha, hwgt a ha]
        cases k <;> simp [faceWeight3, norm3, mirror]
      revMir := fun a ha k => by
        rw [h8] at ha
        obtain ⟨o, i, ho, hi, rfl⟩ := split_index first.length a ha
        rw [refl_eq _ o i ho hi, opposite3_eq _ _ i (octMirror_lt _ o ho) hi, opposite3_eq _ o i ho hi, refl_eq _ _ i (octMirror_lt .X _ (octMirror_lt .Y _ (octMirror_lt .Z o ho))) hi]
        congr 2
        clear hi
        cases k <;> interval_cases o <;> rfl
      revVac := fun a ha k => by
        rw [hvac _ (hlt a ha _), hvac _ (hop a ha), hrm a ha, hro a ha]
        cases k <;> rfl
      all := fun b o a ha k j hj => by rw [hu]; exact (hval b o a ha k j hj).1
      one := fun c hc b o a ha k j hj => by rw [hu]; exact (hval b o a ha k j hj).2 c hc }

/-- Normals of the faces in a plane. -/
def norm2 : Sn.Ax2 → Normal
  | .x => .X
  | .y => .Y

def ax2 : Normal → Option Sn.Ax2
  | .X => some .x
  | .Y => some .y
  | .Z => none

/-- C156: the same in a plane, with half of the ordinates. -/
theorem C156_boundary2 (sh : Store K) (first : List (Angle K)) (h : ∀ b o, Pre (load sh b) (load sh o) first) (h4 : sh.size.length = 4 * first.length)
    (ht : ∀ s, sh.types s = .REFLECT ∨ sh.types s = .VACUUM) (d : Mesh.Dims) (hnx : 0 < d.nx) (hny : 0 < d.ny)
    (dx dy : Nat → K) (hdx : ∀ i, 0 < dx i) (hdy : ∀ i, 0 < dy i)
    (vol : Nat → K) (hvol : ∀ ix < d.nx, ∀ iy < d.ny, vol (Mesh.coarseCell d ⟨ix, iy, 0⟩) = dx ix * dy iy)
    (hsz : ∀ a < sh.size.length, faceSize sh a .X = d.ny ∧ faceSize sh a .Y = d.nx)
    (ang : Nat → Angle K) (hang : ∀ a < sh.size.length, sh.angles[a]? = some (ang a)) (hcos : ∀ a < sh.size.length, (ang a).ox ≠ 0 ∧ (ang a).oy ≠ 0)
    (wgt : Nat → K) (hwgt : ∀ a < sh.size.length, ∀ n, n ≠ .Z → wgt (refl first.length a n) = wgt a) (sch : Nat → Scheme2 K) (hb : ∀ i, Bal2 (sch i)) (hm : ∀ i, Mean2 (sch i))
    (m : SnSetup Sn.Ax2 K) (hu : m.u = snUpdate sh norm2 ax2) (order : List Nat) (hperm : order.Perm (List.range sh.size.length))
    (hords : m.ords = order.map fun a => ord2 d dx dy a (ang a).ox (ang a).oy (wgt a) sch) :
    SnMirror (d.nx * d.ny) sh.size.length vol (slots2 d) m (fun a => ord2 d dx dy a (ang a).ox (ang a).oy (wgt a) sch)
      (fun a k => refl first.length a (norm2 k)) (fun a k => vacuumOn sh a (norm2 k)) (opposite2 first.length)
      fun a => faceWeight2 dx dy (ang a).ox (ang a).oy (wgt a) := by
  have hP := h (fun _ _ _ => 0) fun _ _ _ => 0
  have hangles : sh.angles = expand first := hP.angles
  have hsplit : ∀ a < sh.size.length, ∃ o k, o < 4 ∧ k < first.length ∧ a = o * first.length + k := by
    intro a ha
    obtain ⟨o, k, ho, hk, rfl⟩ := split_index first.length a (by omega)
    refine ⟨o, k, ?_, hk, rfl⟩
    by_contra hc
    have := Nat.mul_le_mul_right first.length (show 4 ≤ o by omega)
    omega
  have oct4 : ∀ n : Normal, n ≠ .Z → ∀ o < 4, octMirror n o < 4 := by
    intro n hn o ho
    cases n
    · interval_cases o <;> decide
    · interval_cases o <;> decide
    · exact absurd rfl hn
  have nz : ∀ k, norm2 k ≠ .Z := by intro k; cases k <;> exact nofun
  have hlt : ∀ a < sh.size.length, ∀ n, n ≠ .Z → refl first.length a n < sh.size.length := by
    intro a ha n hn
    obtain ⟨o, k, ho, hk, rfl⟩ := hsplit a ha
    rw [refl_eq _ o k (by omega) hk, h4]
    have := Nat.mul_le_mul_right first.length (show octMirror n o ≤ 3 by have := oct4 n hn o ho; omega)
    omega
  have hop : ∀ a < sh.size.length, opposite2 first.length a < sh.size.length := fun a ha => hlt _ (hlt a ha .Y nofun) .X nofun
  have hnum : ∀ a < sh.size.length, ∀ k, faceSize sh a (norm2 k) = slots2 d k := by
    intro a ha k
    obtain ⟨h1, h2⟩ := hsz a ha
    cases k
    · exact h1
    · exact h2
  have hro : ∀ a < sh.size.length, ang (opposite2 first.length a) = mirror (mirror (ang a) .Y) .X := by
    intro a ha
    have h1 := hang a ha
    have h2 := hang _ (hop a ha)
    rw [hangles] at h1 h2
    rw [opposite2_get first hP.firstOct a _ h1, Option.some.injEq] at h2
    exact h2.symm
  have hrm : ∀ a < sh.size.length, ∀ n, n ≠ .Z → ang (refl first.length a n) = mirror (ang a) n := by
    intro a ha n hn
    have h1 := hang a ha
    have h2 := hang _ (hlt a ha n hn)
    rw [hangles] at h1 h2
    rw [refl_get first hP.firstOct a n _ h1, Option.some.injEq] at h2
    exact h2.symm
  have hwo : ∀ a < sh.size.length, wgt (opposite2 first.length a) = wgt a := by
    intro a ha
    unfold opposite2
    rw [hwgt _ (hlt a ha .Y nofun) .X nofun, hwgt a ha .Y nofun]
  have hval := sn_update_values sh first h ht norm2 ax2 (fun k => by cases k <;> rfl) (slots2 d) hnum
  have hvac : ∀ a < sh.size.length, ∀ n, vacuumOn sh a n = decide (sh.types (upwindSurface (ang a) n) = .VACUUM) := by
    intro a ha n
    rw [vacuumOn, hang a ha]
    rfl
  exact
    { perm := by
        rw [hords, List.map_map]
        have : (SnOrd.iang ∘ fun a => ord2 d dx dy a (ang a).ox (ang a).oy (wgt a) sch) = id := rfl
        rw [this, List.map_id]
        exact hperm
      num := fun o ho => by
        rw [hords, List.mem_map] at ho
        obtain ⟨a, -, rfl⟩ := ho
        rfl
      pair := fun a ha => by
        obtain ⟨c1, c2⟩ := hcos a ha
        rw [hro a ha, hwo a ha]
        exact C156_ord2 d hnx hny dx dy hdx hdy vol hvol a (opposite2 first.length a) _ _ (wgt a) c1 c2 sch hb hm
      revLt := hop
      revTwice := fun a ha => by
        obtain ⟨o, k, ho, hk, rfl⟩ := hsplit a ha
        have l3 := octMirror_lt .X _ (octMirror_lt .Y o (by omega))
        rw [opposite2_eq _ o k (by omega) hk, opposite2_eq _ _ k l3 hk]
        congr 2
        clear l3 hk ha
        interval_cases o <;> rfl
      lt := fun a ha k => hlt a ha _ (nz k)
      twice := fun a ha k => (refl_props first.length a _ (by omega)).2.2
      same := fun a ha k j _ => by
        rw [hrm a ha _ (nz k), hwgt a ha _ (nz k)]
        cases k <;> simp [faceWeight2, norm2, mirror]
      revMir := fun a ha k => by
        obtain ⟨o, i, ho, hi, rfl⟩ := hsplit a ha
        rw [refl_eq _ o i (by omega) hi, opposite2_eq _ _ i (octMirror_lt _ o (by omega)) hi, opposite2_eq _ o i (by omega) hi,
          refl_eq _ _ i (octMirror_lt .X _ (octMirror_lt .Y o (by omega))) hi]
        congr 2
        clear hi ha
        cases k <;> interval_cases o <;> rfl
      revVac := fun a ha k => by
        rw [hvac _ (hlt a ha _ (nz k)), hvac _ (hop a ha), hrm a ha _ (nz k), hro a ha]
        cases k <;> rfl
      all := fun b o a ha k j hj => by rw [hu]; exact (hval b o a ha k j hj).1
      one := fun c hc b o a ha k j hj => by rw [hu]; exact (hval b o a ha k j hj).2 c hc }

end

end Verif.Medium

namespace Verif.Medium

open Finset Verif.XS Verif.Source Verif.Quad Verif.Quad.Spec Verif.BC

/-! ### Correction factors and the fix-up -/

/-- The claim for corrected diamond difference with any positive factors, the same for the two directions: two cells side by side. -/
def C156_corrected_claim : Prop :=
  ∀ gx gy : Nat → ℚ, (∀ i, 0 < gx i ∧ 0 < gy i) → OrdPair 2 (fun _ => 1) (slots2 ⟨2, 1, 1⟩) (faceWeight2 (fun _ => 1) (fun _ => 1) 1 1 1)
    (ord2 ⟨2, 1, 1⟩ (fun _ => 1) (fun _ => 1) 0 1 1 1 fun i => Sn.evalCDD2 (gx i) (gy i))
    (ord2 ⟨2, 1, 1⟩ (fun _ => 1) (fun _ => 1) 2 (-1) (-1) 1 fun i => Sn.evalCDD2 (gx i) (gy i))

/-- C156: it is false: with different factors in the two cells, what a source in one cell gives in the other, with nothing coming in, differs from the reverse. -/
theorem C156_corrected_claim_false : ¬ C156_corrected_claim := by
  intro h
  have := h (fun i => if i = 0 then 1 / 2 else 1) (fun _ => 1 / 2) (fun i => by split_ifs <;> norm_num) (fun i => if i = 0 then 1 else 0) (fun i => if i = 0 then 0 else 1)
    (fun _ => 1) ⟨fun _ _ => 0, fun _ => 0, fun _ => (0, fun _ => 0)⟩ ⟨fun _ _ => 0, fun _ => 0, fun _ => (0, fun _ => 0)⟩ (fun _ _ => one_pos)
  revert this
  decide +kernel

/-- The claim for the scheme with the fix-up of negative fluxes along z: two cells on top of each other. -/
def C156_fixup_claim : Prop :=
  OrdPair (K := ℚ) 2 (fun _ => 1) (slots3 ⟨1, 1, 2⟩) (faceWeight3 ⟨1, 1, 2⟩ (fun _ => 1) (fun _ => 1) (fun _ => 1) 1 1 1 1)
    (ord3 ⟨1, 1, 2⟩ (fun _ => 1) (fun _ => 1) (fun _ => 1) 0 1 1 1 1 fun _ => Sn.evalCDDFF (1 / 2) (1 / 2))
    (ord3 ⟨1, 1, 2⟩ (fun _ => 1) (fun _ => 1) (fun _ => 1) 6 (-1) (-1) (-1) 1 fun _ => Sn.evalCDDFF (1 / 2) (1 / 2))

/-- C156: it is false: a source below gives 1/49 above, one above gives 1/40 below. -/
theorem C156_fixup_claim_false : ¬ C156_fixup_claim := by
  intro h
  have := h (fun i => if i = 0 then 1 else 0) (fun i => if i = 0 then 0 else 1) (fun i => if i = 0 then 1 else 10)
    ⟨fun _ _ => 0, fun _ => 0, fun _ => (0, fun _ => 0)⟩ ⟨fun _ _ => 0, fun _ => 0, fun _ => (0, fun _ => 0)⟩ (fun i _ => by split_ifs <;> norm_num)
  revert this
  decide +kernel

/-! ### Examples -/

/-- Two cells of different width side by side, vacuum on the west side, reflection elsewhere, four ordinates. -/
def pairStore : Store ℚ := { gapStore 0 ⟨1, 2, 0⟩ with size := List.replicate 4 ⟨1, 2, 0⟩, types := fun s => if s = .WEST then .VACUUM else .REFLECT }

theorem pair_size (a : Nat) (n : Normal) : faceSize pairStore a n = if a < 4 then (⟨1, 2, 0⟩ : Size3).get n else 0 := by
  show ((List.replicate 4 (⟨1, 2, 0⟩ : Size3))[a]?.map (·.get n)).getD 0 = _
  rw [List.getElem?_replicate]
  split_ifs <;> rfl

theorem pair_pre (b o : Nat → Normal → Nat → ℚ) : Pre (load pairStore b) (load pairStore o) exAngles := by
  have hc : ∀ a n, cnt (List.replicate 4 (⟨1, 2, 0⟩ : Size3)) a n = if a < 4 then (⟨1, 2, 0⟩ : Size3).get n else 0 := by
    intro a n
    unfold cnt
    rw [List.getElem?_replicate]
    split_ifs <;> simp
  exact
    { angles := rfl
      firstOct := exAngles_first
      nd := rfl
      nA := Or.inr ⟨rfl, fun a => by
        show cnt (List.replicate 4 (⟨1, 2, 0⟩ : Size3)) a .Z = 0
        rw [hc]
        split_ifs <;> rfl⟩
      outSize := rfl
      outGroup := rfl
      mirror := by
        intro a n h
        change cnt (List.replicate 4 (⟨1, 2, 0⟩ : Size3)) a n ≠ 0 at h
        have ha : a < 4 := by
          by_contra hn
          rw [hc, if_neg hn] at h
          exact h rfl
        show cnt (List.replicate 4 (⟨1, 2, 0⟩ : Size3)) (refl 1 a n) n = cnt (List.replicate 4 (⟨1, 2, 0⟩ : Size3)) a n
        have hz : n ≠ .Z := by
          rintro rfl
          rw [hc, if_pos ha] at h
          exact h rfl
        have : refl 1 a n < 4 := by
          clear h
          interval_cases a <;> cases n <;> first | decide | exact absurd rfl hz
        rw [hc, hc, if_pos this, if_pos ha]
      noGap := by
        intro a
        show (cnt (List.replicate 4 (⟨1, 2, 0⟩ : Size3)) a .X = 0 → _) ∧ _
        simp only [load, pairStore, hc]
        split_ifs <;> simp [Size3.get]
      types := fun s => by
        show supported (if s = .WEST then .VACUUM else .REFLECT)
        split_ifs
        · exact Or.inl rfl
        · exact Or.inr (Or.inl rfl) }

def pairAngle (a : Nat) : Angle ℚ := ((expand exAngles)[a]?).getD ⟨1, 1, 1, 1⟩

def pairWidth (i : Nat) : ℚ := if i = 0 then 1 / 3 else 2 / 3

def pairSn (gs : Bool) : SnSetup Sn.Ax2 ℚ :=
  ⟨4, gs, snUpdate pairStore norm2 ax2, [2, 0, 3, 1].map fun a => ord2 ⟨2, 1, 1⟩ pairWidth (fun _ => 1) a (pairAngle a).ox (pairAngle a).oy 1 fun _ => Sn.evalDD2, 1⟩

/-- The hypotheses of `C156_boundary2` hold for it. -/
theorem pair_mirror (gs : Bool) : SnMirror 2 4 pairWidth (slots2 ⟨2, 1, 1⟩) (pairSn gs)
    (fun a => ord2 ⟨2, 1, 1⟩ pairWidth (fun _ => 1) a (pairAngle a).ox (pairAngle a).oy 1 fun _ => Sn.evalDD2) (fun a k => refl 1 a (norm2 k))
    (fun a k => vacuumOn pairStore a (norm2 k)) (opposite2 1) fun a => faceWeight2 pairWidth (fun _ => 1) (pairAngle a).ox (pairAngle a).oy 1 :=
  C156_boundary2 pairStore exAngles pair_pre rfl
    (fun s => by
      show (if s = .WEST then Boundary.VACUUM else .REFLECT) = .REFLECT ∨ (if s = .WEST then Boundary.VACUUM else .REFLECT) = .VACUUM
      split_ifs <;> simp)
    ⟨2, 1, 1⟩ (by decide) (by decide) pairWidth (fun _ => 1) (fun i => by unfold pairWidth; split_ifs <;> norm_num) (fun _ => one_pos) pairWidth (by decide +kernel)
    (by decide +kernel) pairAngle (by decide +kernel) (by decide +kernel) (fun _ => 1) (fun _ _ _ _ => rfl) (fun _ => Sn.evalDD2)
    (fun _ => (C110_schemes 1 1 one_pos one_pos).2.1) (fun _ => C156_diamond.2) (pairSn gs) rfl [2, 0, 3, 1] (by decide) rfl

/-- Two cells, fission in the first one by slow neutrons, slowing down in both. -/
def pairProblem : Problem ℚ :=
  ⟨2, 2, [⟨slowMat, [0]⟩, ⟨⟨fun g => if g = 0 then 2 else 3, fun _ => 0, fun _ => 0, fun _ => 0, fun g h => if g = h then 1 else if g = 1 ∧ h = 0 then 1 else 0⟩, [1]⟩], pairWidth⟩

/-- State with given fluxes, angular fluxes in the cells of the ordinates that go east and west and on the east side. -/
def pairState (f : Nat → Nat → ℚ) (east west : Nat → Nat → ℚ) (side : Nat → ℚ) : SnState Sn.Ax2 ℚ :=
  ⟨f, fun _ => 7, fun g a k j => match k with
    | .x => if a = 0 ∨ a = 3 then 0 else side g
    | .y => if a = 0 ∨ a = 3 then east g j else west g j, fun _ _ _ => 99⟩

/-- By group and cell. -/
def four (a b c d : ℚ) (g i : Nat) : ℚ := if g = 0 then (if i = 0 then a else b) else if i = 0 then c else d

def pairFlux : SnState Sn.Ax2 ℚ := pairState (fun i g => four 924 336 226 184 g i) (four 210 168 43 54) (four 252 0 70 38) (fun g => if g = 0 then -84 else 22)

def pairAdjoint : SnState Sn.Ax2 ℚ := pairState (fun i g => four 678 584 2900 464 g i) (four 133 176 638 348) (four 206 116 812 (-116)) (fun g => if g = 0 then 86 else -580)

def pairSame (b b' : Nat → Sn.Ax2 → Nat → ℚ) : Bool :=
  (List.range 4).all fun a => decide (b a .x 0 = b' a .x 0) && decide (b a .y 0 = b' a .y 0) && decide (b a .y 1 = b' a .y 1)

/-- Positive flux, and nothing changes. -/
def pairFixed (s s' : SnState Sn.Ax2 ℚ) : Bool :=
  ((List.range 2).all fun i => (List.range 2).all fun g => decide (0 < s.flux i g) && decide (s'.flux i g = s.flux i g)) &&
    (List.range 2).all fun g => pairSame (s.bin g) (s'.bin g)

theorem pair_fixed (p : Problem ℚ) (hp : p.ng = 2 ∧ p.nReg = 2) (s s' : SnState Sn.Ax2 ℚ) (h : pairFixed s s' = true) : SnConverged p 4 (slots2 ⟨2, 1, 1⟩) s s' := by
  simp only [pairFixed, pairSame, Bool.and_eq_true, List.all_eq_true, List.mem_range, decide_eq_true_eq] at h
  refine ⟨?_, ?_, ?_⟩
  · rw [hp.1, hp.2]; exact fun i hi g hg => (h.1 i hi g hg).1
  · rw [hp.1, hp.2]; exact fun i hi g hg => (h.1 i hi g hg).2
  · rw [hp.1]
    intro g hg a ha k j hj
    obtain ⟨⟨h1, h2⟩, h3⟩ := h.2 g hg a ha
    cases k
    · have hj : j < 1 := hj
      interval_cases j
      exact h1
    · have hj : j < 2 := hj
      interval_cases j
      · exact h2
      · exact h3

theorem pair_converged (p : Problem ℚ) (hp : p.ng = 2 ∧ p.nReg = 2) (gs : Bool) (k : ℚ) (s : SnState Sn.Ax2 ℚ)
    (h : ((outer p (snSweeper p (pairSn gs)) k s).map fun (r : ℚ × SnState Sn.Ax2 ℚ) => (r.1, pairFixed s r.2)) = some (k, true)) :
    ∃ s', outer p (snSweeper p (pairSn gs)) k s = some (k, s') ∧ SnConverged p 4 (slots2 ⟨2, 1, 1⟩) s s' := by
  obtain ⟨⟨k', s'⟩, h1, h2⟩ := Option.map_eq_some_iff.mp h
  rw [Prod.mk.injEq] at h2
  obtain ⟨h3, h4⟩ := h2
  dsimp only at h3
  subst h3
  exact ⟨s', h1, pair_fixed p hp s s' h4⟩

theorem pair_converged_fixed (p : Problem ℚ) (hp : p.ng = 2 ∧ p.nReg = 2) (gs : Bool) (e : Ext ℚ) (s : SnState Sn.Ax2 ℚ)
    (h : ((fixedSteps p (snSweeper p (pairSn gs)) (some e) 1 s).map (pairFixed s)) = some true) :
    ∃ s', fixedSteps p (snSweeper p (pairSn gs)) (some e) 1 s = some s' ∧ SnConverged p 4 (slots2 ⟨2, 1, 1⟩) s s' := by
  obtain ⟨s', h1, h2⟩ := Option.map_eq_some_iff.mp h
  exact ⟨s', h1, pair_fixed p hp s s' h2⟩

/-- The hypotheses of `C156_k` hold for it and the transposed data, with both updates of the boundary values. -/
example (gs : Bool) : (∃ s', outer pairProblem (snSweeper pairProblem (pairSn gs)) (113 / 1218) pairFlux = some (113 / 1218, s') ∧
      SnConverged pairProblem 4 (slots2 ⟨2, 1, 1⟩) pairFlux s') ∧
    (∃ a', outer (transposed pairProblem) (snSweeper (transposed pairProblem) (pairSn gs)) (113 / 1218) pairAdjoint = some (113 / 1218, a') ∧
      SnConverged (transposed pairProblem) 4 (slots2 ⟨2, 1, 1⟩) pairAdjoint a') ∧
    Partition pairProblem.rs ∧ (∀ i, i < pairProblem.nReg ↔ ∃ x ∈ pairProblem.rs, i ∈ x.regs) ∧ (∀ x ∈ pairProblem.rs, Source.NonNeg pairProblem.ng x.mat) := by
  refine ⟨pair_converged _ ⟨rfl, rfl⟩ gs _ _ (by cases gs <;> decide +kernel), pair_converged _ ⟨rfl, rfl⟩ gs _ _ (by cases gs <;> decide +kernel),
    ⟨by decide, by simp [pairProblem]⟩, fun i => by simp [pairProblem]; omega, ?_⟩
  intro x hx a b _ _
  simp only [pairProblem, List.mem_cons, List.not_mem_nil, or_false] at hx
  rcases hx with rfl | rfl
  · simp only [slowMat]
    split_ifs <;> norm_num
  · dsimp only
    split_ifs <;> norm_num

/-- The hypotheses of `C156_fixed` hold: an external source of fast neutrons in the first cell, and the transposed calculation with a detector of slow neutrons there. -/
example (gs : Bool) : let e : Ext ℚ := ⟨2, 2, fun i g => if g = 0 ∧ i = 0 then 2436 else 0⟩
    let d : Ext ℚ := ⟨2, 2, fun i g => if g = 1 ∧ i = 0 then 7308 else 0⟩
    (∃ s', fixedSteps pairProblem (snSweeper pairProblem (pairSn gs)) (some e) 1 pairFlux = some s' ∧ SnConverged pairProblem 4 (slots2 ⟨2, 1, 1⟩) pairFlux s') ∧
    (∃ a', fixedSteps (transposed pairProblem) (snSweeper (transposed pairProblem) (pairSn gs)) (some d) 1 pairAdjoint = some a' ∧
      SnConverged (transposed pairProblem) 4 (slots2 ⟨2, 1, 1⟩) pairAdjoint a') ∧
    response pairProblem pairFlux.flux (fun g i => if g = 1 ∧ i = 0 then 7308 else 0) = 550536 ∧
    response pairProblem pairAdjoint.flux (fun g i => if g = 0 ∧ i = 0 then 2436 else 0) = 550536 := by
  refine ⟨pair_converged_fixed _ ⟨rfl, rfl⟩ gs _ _ (by cases gs <;> decide +kernel), pair_converged_fixed _ ⟨rfl, rfl⟩ gs _ _ (by cases gs <;> decide +kernel), ?_, ?_⟩ <;>
    decide +kernel

/-- The hypotheses of `C156_boundary3` hold for the box of `C110`. -/
example : SnMirror 2 8 (fun _ => 1) (slots3 ⟨2, 1, 1⟩) boxSn boxOrd (fun a k => refl 1 a (norm3 k)) (fun a k => vacuumOn boxStore a (norm3 k)) (opposite3 1)
    fun a => faceWeight3 ⟨2, 1, 1⟩ (fun _ => 1) (fun _ => 1) (fun _ => 1) (boxAngle a).ox (boxAngle a).oy (boxAngle a).oz 1 :=
  C156_boundary3 boxStore exAngles box_pre rfl (fun _ => Or.inl rfl) ⟨2, 1, 1⟩ (by decide) (by decide) (by decide) _ _ _ (by norm_num) (by norm_num) (by norm_num) _
    (by intros; norm_num) (by decide +kernel) boxAngle (by decide +kernel) box_cos (fun _ => 1) (fun _ _ _ => rfl) (fun _ => Sn.evalDD) (fun _ => (C110_schemes 1 1 one_pos one_pos).1)
    (fun _ => C156_diamond.1) boxSn rfl (List.range 8) (by decide) rfl

end Verif.Medium
