import Verif.Sn.SweepLemmas
import Verif.Sn.CellProps
import Mathlib.Algebra.BigOperators.Group.Finset.Basic
import Mathlib.Algebra.BigOperators.Ring.Finset
import Mathlib.Algebra.BigOperators.Intervals

/-!
# C30: the Sn sweep couples each cell to its upwind neighbours
-/

set_option linter.unusedSectionVars false

namespace Verif.Sn

open Verif.Mesh (Dims coarseCell)

/-! ## Specification -/

/-- Index of the neighbour the ordinate comes from, along one axis with `n` cells. -/
def upwind (n : Nat) (neg : Bool) (i : Nat) : Option Nat :=
  if neg then (if i + 1 < n then some (i + 1) else none) else (if i = 0 then none else some (i - 1))

/-- The last cell along an axis in the direction of flight. -/
def last (n : Nat) (neg : Bool) : Nat := if neg then 0 else n - 1

section

variable {K : Type} [Add K] [Mul K]

/-- Incoming flux of cell (ix, iy, iz): what the upwind neighbour sends out through the shared face, or the boundary value. -/
def incoming3 (d : Dims) (nx ny nz : Bool) (b : Ax3 → Nat → K) (out : Nat → K × (Ax3 → K)) (ix iy iz : Nat) : Ax3 → K
  | .x => match upwind d.nx nx ix with
    | none => b .x (d.ny * iz + iy)
    | some jx => (out (coarseCell d ⟨jx, iy, iz⟩)).2 .x
  | .y => match upwind d.ny ny iy with
    | none => b .y (d.nx * iz + ix)
    | some jy => (out (coarseCell d ⟨ix, jy, iz⟩)).2 .y
  | .z => match upwind d.nz nz iz with
    | none => b .z (d.nx * iy + ix)
    | some jz => (out (coarseCell d ⟨ix, iy, jz⟩)).2 .z

def incoming2 (d : Dims) (nx ny : Bool) (b : Ax2 → Nat → K) (out : Nat → K × (Ax2 → K)) (ix iy : Nat) : Ax2 → K
  | .x => match upwind d.nx nx ix with
    | none => b .x iy
    | some jx => (out (coarseCell d ⟨jx, iy, 0⟩)).2 .x
  | .y => match upwind d.ny ny iy with
    | none => b .y ix
    | some jy => (out (coarseCell d ⟨ix, jy, 0⟩)).2 .y

theorem upwind_place {α : Type} (n : Nat) (neg : Bool) (i : Nat) (hi : i < n) (b : α) (f : Nat → α) :
    (match upwind n neg i with | none => b | some j => f j) =
      if place n neg i = 0 then b else f (place n neg (place n neg i - 1)) := by
  unfold upwind place
  cases neg
  · by_cases h : i = 0 <;> simp [h]
  · by_cases h : i + 1 < n
    · have h1 : n - 1 - i ≠ 0 := by omega
      have h2 : n - 1 - (n - 1 - i - 1) = i + 1 := by omega
      simp [h, h1, h2]
    · have h1 : n - 1 - i = 0 := by omega
      simp [h, h1]

theorem last_place (n : Nat) (neg : Bool) : place n neg (n - 1) = last n neg := by
  unfold last place; split <;> omega

/-! ## Proofs -/

theorem inv3 (d : Dims) (nx ny nz : Bool) (wgt : K) (ev : Nat → Nat → Nat → (Ax3 → K) → K × (Ax3 → K))
    (s0 : State Ax3 K) :
    Inv wgt
      (fun t => slot3 d (place d.nx nx (t % d.nx)) (place d.ny ny (t / d.nx % d.ny)) (place d.nz nz (t / d.nx / d.ny)))
      (fun t => coarseCell d ⟨place d.nx nx (t % d.nx), place d.ny ny (t / d.nx % d.ny), place d.nz nz (t / d.nx / d.ny)⟩)
      (fun t => ev (place d.nx nx (t % d.nx)) (place d.ny ny (t / d.nx % d.ny)) (place d.nz nz (t / d.nx / d.ny)))
      s0 (d.nx * d.ny * d.nz) (sweep3 d nx ny nz wgt ev s0) := by
  rw [sweep3_eq]
  apply inv_run wgt
    (fun t => slot3 d (place d.nx nx (t % d.nx)) (place d.ny ny (t / d.nx % d.ny)) (place d.nz nz (t / d.nx / d.ny)))
    (fun t => coarseCell d ⟨place d.nx nx (t % d.nx), place d.ny ny (t / d.nx % d.ny), place d.nz nz (t / d.nx / d.ny)⟩)
    (fun t => ev (place d.nx nx (t % d.nx)) (place d.ny ny (t / d.nx % d.ny)) (place d.nz nz (t / d.nx / d.ny)))
  intro t u htu huN he
  obtain ⟨h1, h2, h3, h4⟩ := seq_enc (Nat.lt_trans htu huN)
  obtain ⟨g1, g2, g3, g4⟩ := seq_enc huN
  obtain ⟨e1, e2, e3⟩ := cell_inj d (place_lt nx h1) (place_lt ny h2) (place_lt nx g1) (place_lt ny g2) he
  rw [place_inj nx h1 g1 e1, place_inj ny h2 g2 e2, place_inj nz h3 g3 e3, g4] at h4
  omega

theorem channels3 (d : Dims) (nx ny nz : Bool) (wgt : K) (ev : Nat → Nat → Nat → (Ax3 → K) → K × (Ax3 → K))
    (s0 : State Ax3 K) (a b c : Nat) (ha : a < d.nx) (hb : b < d.ny) (hc : c < d.nz) :
    let s := sweep3 d nx ny nz wgt ev s0
    let cell := fun a b c => coarseCell d ⟨place d.nx nx a, place d.ny ny b, place d.nz nz c⟩
    (∃ inp : Ax3 → K,
      s.out (cell a b c) = ev (place d.nx nx a) (place d.ny ny b) (place d.nz nz c) inp ∧
      inp .x = (if a = 0 then s0.flux .x (d.ny * place d.nz nz c + place d.ny ny b) else (s.out (cell (a - 1) b c)).2 .x) ∧
      inp .y = (if b = 0 then s0.flux .y (d.nx * place d.nz nz c + place d.nx nx a) else (s.out (cell a (b - 1) c)).2 .y) ∧
      inp .z = (if c = 0 then s0.flux .z (d.nx * place d.ny ny b + place d.nx nx a) else (s.out (cell a b (c - 1))).2 .z)) ∧
    s.tflux (cell a b c) = s0.tflux (cell a b c) + (s.out (cell a b c)).1 * wgt ∧
    s.flux .x (d.ny * place d.nz nz c + place d.ny ny b) = (s.out (cell (d.nx - 1) b c)).2 .x ∧
    s.flux .y (d.nx * place d.nz nz c + place d.nx nx a) = (s.out (cell a (d.ny - 1) c)).2 .y ∧
    s.flux .z (d.nx * place d.ny ny b + place d.nx nx a) = (s.out (cell a b (d.nz - 1))).2 .z := by
  intro s cell
  let w : Nat → Ax3 → Nat := fun t =>
    slot3 d (place d.nx nx (t % d.nx)) (place d.ny ny (t / d.nx % d.ny)) (place d.nz nz (t / d.nx / d.ny))
  let idx : Nat → Nat := fun t =>
    coarseCell d ⟨place d.nx nx (t % d.nx), place d.ny ny (t / d.nx % d.ny), place d.nz nz (t / d.nx / d.ny)⟩
  let ev' : Nat → (Ax3 → K) → K × (Ax3 → K) := fun t =>
    ev (place d.nx nx (t % d.nx)) (place d.ny ny (t / d.nx % d.ny)) (place d.nz nz (t / d.nx / d.ny))
  have hinv : Inv wgt w idx ev' s0 (d.nx * d.ny * d.nz) s := inv3 d nx ny nz wgt ev s0
  have dec : ∀ a b c, a < d.nx → b < d.ny → w (seqNo d.nx d.ny a b c) = slot3 d (place d.nx nx a) (place d.ny ny b) (place d.nz nz c) ∧
      idx (seqNo d.nx d.ny a b c) = cell a b c ∧
      ev' (seqNo d.nx d.ny a b c) = ev (place d.nx nx a) (place d.ny ny b) (place d.nz nz c) := by
    intro a b c ha hb
    obtain ⟨h1, h2, h3⟩ := seq_dec (c := c) ha hb
    refine ⟨?_, ?_, ?_⟩
    · simp only [w, h1, h2, h3]
    · simp only [idx, h1, h2, h3, cell]
    · simp only [ev', h1, h2, h3]
  have lt := seq_lt ha hb hc
  obtain ⟨dw, di, de⟩ := dec a b c ha hb
  have cx := channel hinv .x d.nx (fun a => seqNo d.nx d.ny a b c) (fun _ _ => seq_lt_x) (fun a ha => seq_lt ha hb hc)
    (d.ny * place d.nz nz c + place d.ny ny b) (by
      intro p hp
      obtain ⟨h1, h2, h3, h4⟩ := seq_enc hp
      constructor
      · intro e
        obtain ⟨e1, e2⟩ := Verif.Mesh.mul_add_inj (place_lt ny h2) (place_lt ny hb) e
        refine ⟨p % d.nx, h1, ?_⟩
        rw [← place_inj nz h3 hc e1, ← place_inj ny h2 hb e2, h4]
      · rintro ⟨a', ha', rfl⟩
        rw [(dec a' b c ha' hb).1]; rfl)
  have cy := channel hinv .y d.ny (fun b => seqNo d.nx d.ny a b c) (fun _ _ => seq_lt_y (by omega)) (fun b hb => seq_lt ha hb hc)
    (d.nx * place d.nz nz c + place d.nx nx a) (by
      intro p hp
      obtain ⟨h1, h2, h3, h4⟩ := seq_enc hp
      constructor
      · intro e
        obtain ⟨e1, e2⟩ := Verif.Mesh.mul_add_inj (place_lt nx h1) (place_lt nx ha) e
        refine ⟨p / d.nx % d.ny, h2, ?_⟩
        rw [← place_inj nz h3 hc e1, ← place_inj nx h1 ha e2, h4]
      · rintro ⟨b', hb', rfl⟩
        rw [(dec a b' c ha hb').1]; rfl)
  have cz := channel hinv .z d.nz (fun c => seqNo d.nx d.ny a b c) (fun _ _ => seq_lt_z (by omega) (by omega))
    (fun c hc => seq_lt ha hb hc) (d.nx * place d.ny ny b + place d.nx nx a) (by
      intro p hp
      obtain ⟨h1, h2, h3, h4⟩ := seq_enc hp
      constructor
      · intro e
        obtain ⟨e1, e2⟩ := Verif.Mesh.mul_add_inj (place_lt nx h1) (place_lt nx ha) e
        refine ⟨p / d.nx / d.ny, h3, ?_⟩
        rw [← place_inj ny h2 hb e1, ← place_inj nx h1 ha e2, h4]
      · rintro ⟨c', hc', rfl⟩
        rw [(dec a b c' ha hb).1]; rfl)
  refine ⟨?_, ?_, ?_, ?_, ?_⟩
  · obtain ⟨inp, h1, h2⟩ := hinv.out_eq _ lt
    rw [di, de] at h1
    refine ⟨inp, h1, ?_, ?_, ?_⟩
    · have := cx.1 a ha inp (h2 .x)
      rw [(dec (a - 1) b c (by omega) hb).2.1] at this
      exact this
    · have := cy.1 b hb inp (h2 .y)
      rw [(dec a (b - 1) c ha (by omega)).2.1] at this
      exact this
    · have := cz.1 c hc inp (h2 .z)
      rw [(dec a b (c - 1) ha hb).2.1] at this
      exact this
  · have := hinv.tflux_new _ lt
    rw [di] at this
    exact this
  · have := cx.2 (by omega)
    rw [(dec (d.nx - 1) b c (by omega) hb).2.1] at this
    exact this
  · have := cy.2 (by omega)
    rw [(dec a (d.ny - 1) c ha (by omega)).2.1] at this
    exact this
  · have := cz.2 (by omega)
    rw [(dec a b (d.nz - 1) ha hb).2.1] at this
    exact this

/-- C30: every cell is evaluated with the outgoing fluxes of its upwind neighbours (or the boundary values), and its
flux is added to the scalar flux exactly once. -/
theorem C30_upwind (d : Dims) (nx ny nz : Bool) (wgt : K) (ev : Nat → Nat → Nat → (Ax3 → K) → K × (Ax3 → K))
    (s0 : State Ax3 K) (ix iy iz : Nat) (hx : ix < d.nx) (hy : iy < d.ny) (hz : iz < d.nz) :
    let s := sweep3 d nx ny nz wgt ev s0
    s.out (coarseCell d ⟨ix, iy, iz⟩) = ev ix iy iz (incoming3 d nx ny nz s0.flux s.out ix iy iz) ∧
    s.tflux (coarseCell d ⟨ix, iy, iz⟩) =
      s0.tflux (coarseCell d ⟨ix, iy, iz⟩) + (s.out (coarseCell d ⟨ix, iy, iz⟩)).1 * wgt := by
  intro s
  have h := channels3 d nx ny nz wgt ev s0 _ _ _ (place_lt nx hx) (place_lt ny hy) (place_lt nz hz)
  simp only [place_place nx hx, place_place ny hy, place_place nz hz] at h
  obtain ⟨⟨inp, h1, h2, h3, h4⟩, h5, -⟩ := h
  refine ⟨?_, h5⟩
  rw [h1]
  congr 1
  funext k
  cases k
  · rw [h2]
    exact (upwind_place d.nx nx ix hx _ (fun j => (s.out (coarseCell d ⟨j, iy, iz⟩)).2 .x)).symm
  · rw [h3]
    exact (upwind_place d.ny ny iy hy _ (fun j => (s.out (coarseCell d ⟨ix, j, iz⟩)).2 .y)).symm
  · rw [h4]
    exact (upwind_place d.nz nz iz hz _ (fun j => (s.out (coarseCell d ⟨ix, iy, j⟩)).2 .z)).symm

/-- C30: after the sweep each boundary slot holds the outgoing flux of the last cell of its line. -/
theorem C30_outgoing (d : Dims) (nx ny nz : Bool) (wgt : K) (ev : Nat → Nat → Nat → (Ax3 → K) → K × (Ax3 → K))
    (s0 : State Ax3 K) (ix iy iz : Nat) (hx : ix < d.nx) (hy : iy < d.ny) (hz : iz < d.nz) :
    let s := sweep3 d nx ny nz wgt ev s0
    s.flux .x (d.ny * iz + iy) = (s.out (coarseCell d ⟨last d.nx nx, iy, iz⟩)).2 .x ∧
    s.flux .y (d.nx * iz + ix) = (s.out (coarseCell d ⟨ix, last d.ny ny, iz⟩)).2 .y ∧
    s.flux .z (d.nx * iy + ix) = (s.out (coarseCell d ⟨ix, iy, last d.nz nz⟩)).2 .z := by
  have h := channels3 d nx ny nz wgt ev s0 _ _ _ (place_lt nx hx) (place_lt ny hy) (place_lt nz hz)
  simp only [place_place nx hx, place_place ny hy, place_place nz hz, last_place] at h
  exact h.2.2

/-- C30: nothing outside the mesh and its faces is touched. -/
theorem C30_frame (d : Dims) (nx ny nz : Bool) (wgt : K) (ev : Nat → Nat → Nat → (Ax3 → K) → K × (Ax3 → K))
    (s0 : State Ax3 K) (i : Nat) :
    let s := sweep3 d nx ny nz wgt ev s0
    (d.nx * d.ny * d.nz ≤ i → s.tflux i = s0.tflux i) ∧
    (d.ny * d.nz ≤ i → s.flux .x i = s0.flux .x i) ∧
    (d.nx * d.nz ≤ i → s.flux .y i = s0.flux .y i) ∧
    (d.nx * d.ny ≤ i → s.flux .z i = s0.flux .z i) := by
  intro s
  have hinv := inv3 d nx ny nz wgt ev s0
  have bnd : ∀ {n m a b : Nat}, a < m → b < n → n * a + b < n * m := by
    intro n m a b ha hb
    have := Nat.mul_le_mul_left n (Nat.succ_le_of_lt ha)
    rw [Nat.mul_succ] at this
    omega
  refine ⟨fun h => (hinv.rest i ?_).1, fun h => hinv.flux_old .x i ?_, fun h => hinv.flux_old .y i ?_,
    fun h => hinv.flux_old .z i ?_⟩
  · intro t ht e
    obtain ⟨h1, h2, h3, -⟩ := seq_enc ht
    have := Verif.Mesh.cell_lt d _ _ _ (place_lt nx h1) (place_lt ny h2) (place_lt nz h3)
    unfold Verif.Mesh.nPin at this
    omega
  · intro p hp e
    obtain ⟨h1, h2, h3, -⟩ := seq_enc hp
    have := bnd (place_lt nz h3) (place_lt ny h2)
    simp only [slot3] at e
    omega
  · intro p hp e
    obtain ⟨h1, h2, h3, -⟩ := seq_enc hp
    have := bnd (place_lt nz h3) (place_lt nx h1)
    simp only [slot3] at e
    omega
  · intro p hp e
    obtain ⟨h1, h2, h3, -⟩ := seq_enc hp
    have := bnd (place_lt ny h2) (place_lt nx h1)
    simp only [slot3] at e
    omega

/-- C30 in two dimensions. -/
theorem C30_upwind_2d (d : Dims) (nx ny : Bool) (wgt : K) (ev : Nat → Nat → (Ax2 → K) → K × (Ax2 → K))
    (s0 : State Ax2 K) (ix iy : Nat) (hx : ix < d.nx) (hy : iy < d.ny) :
    let s := sweep2 d nx ny wgt ev s0
    s.out (coarseCell d ⟨ix, iy, 0⟩) = ev ix iy (incoming2 d nx ny s0.flux s.out ix iy) ∧
    s.tflux (coarseCell d ⟨ix, iy, 0⟩) =
      s0.tflux (coarseCell d ⟨ix, iy, 0⟩) + (s.out (coarseCell d ⟨ix, iy, 0⟩)).1 * wgt ∧
    s.flux .x iy = (s.out (coarseCell d ⟨last d.nx nx, iy, 0⟩)).2 .x ∧
    s.flux .y ix = (s.out (coarseCell d ⟨ix, last d.ny ny, 0⟩)).2 .y := by
  intro s
  have hs : s = _ := sweep2_eq d nx ny wgt ev s0
  let cell := fun a b => coarseCell d ⟨place d.nx nx a, place d.ny ny b, 0⟩
  let w : Nat → Ax2 → Nat := fun t => slot2 (place d.nx nx (t % d.nx)) (place d.ny ny (t / d.nx))
  let idx : Nat → Nat := fun t => coarseCell d ⟨place d.nx nx (t % d.nx), place d.ny ny (t / d.nx), 0⟩
  let ev' : Nat → (Ax2 → K) → K × (Ax2 → K) := fun t => ev (place d.nx nx (t % d.nx)) (place d.ny ny (t / d.nx))
  have enc : ∀ t, t < d.nx * d.ny → t % d.nx < d.nx ∧ t / d.nx < d.ny ∧ d.nx * (t / d.nx) + t % d.nx = t := by
    intro t ht
    exact ⟨Nat.mod_lt _ (Nat.pos_of_ne_zero (by rintro h; simp [h] at ht)), Nat.div_lt_of_lt_mul ht, Nat.div_add_mod t d.nx⟩
  have hinv : Inv wgt w idx ev' s0 (d.nx * d.ny) s := by
    rw [hs]
    apply inv_run
    intro t u htu huN he
    obtain ⟨h1, h2, h4⟩ := enc t (Nat.lt_trans htu huN)
    obtain ⟨g1, g2, g4⟩ := enc u huN
    obtain ⟨e1, e2, -⟩ := cell_inj d (place_lt nx h1) (place_lt ny h2) (place_lt nx g1) (place_lt ny g2) he
    rw [place_inj nx h1 g1 e1, place_inj ny h2 g2 e2, g4] at h4
    omega
  have dec : ∀ a b, a < d.nx → w (d.nx * b + a) = slot2 (place d.nx nx a) (place d.ny ny b) ∧
      idx (d.nx * b + a) = cell a b ∧ ev' (d.nx * b + a) = ev (place d.nx nx a) (place d.ny ny b) := by
    intro a b ha
    have h1 : (d.nx * b + a) % d.nx = a := by rw [Nat.mul_add_mod, Nat.mod_eq_of_lt ha]
    have h2 : (d.nx * b + a) / d.nx = b := by rw [Nat.mul_add_div (by omega), Nat.div_eq_of_lt ha, Nat.add_zero]
    refine ⟨?_, ?_, ?_⟩
    · simp only [w, h1, h2]
    · simp only [idx, h1, h2, cell]
    · simp only [ev', h1, h2]
  have hlt : ∀ a b, a < d.nx → b < d.ny → d.nx * b + a < d.nx * d.ny := by
    intro a b ha hb
    have := Nat.mul_le_mul_left d.nx (Nat.succ_le_of_lt hb)
    rw [Nat.mul_succ] at this
    omega
  have ha := place_lt nx hx
  have hb := place_lt ny hy
  obtain ⟨dw, di, de⟩ := dec (place d.nx nx ix) (place d.ny ny iy) ha
  have cx := channel hinv .x d.nx (fun a => d.nx * place d.ny ny iy + a) (fun _ _ => by omega) (fun a ha => hlt _ _ ha hb)
    iy (by
      intro p hp
      obtain ⟨h1, h2, h4⟩ := enc p hp
      constructor
      · intro e
        refine ⟨p % d.nx, h1, ?_⟩
        have e' : place d.ny ny (p / d.nx) = iy := e
        rw [← e', place_place ny h2, h4]
      · rintro ⟨a', ha', rfl⟩
        rw [(dec a' _ ha').1]
        exact place_place ny hy)
  have cy := channel hinv .y d.ny (fun b => d.nx * b + place d.nx nx ix)
    (fun _ _ => by rw [Nat.add_lt_add_iff_right, mul_lt_iff (by omega)]) (fun b hb => hlt _ _ ha hb)
    ix (by
      intro p hp
      obtain ⟨h1, h2, h4⟩ := enc p hp
      constructor
      · intro e
        refine ⟨p / d.nx, h2, ?_⟩
        have e' : place d.nx nx (p % d.nx) = ix := e
        rw [← e', place_place nx h1, h4]
      · rintro ⟨b', hb', rfl⟩
        rw [(dec _ b' ha).1]
        exact place_place nx hx)
  have di' : cell (place d.nx nx ix) (place d.ny ny iy) = coarseCell d ⟨ix, iy, 0⟩ := by
    simp only [cell, place_place nx hx, place_place ny hy]
  rw [place_place nx hx, place_place ny hy] at de
  rw [di'] at di
  refine ⟨?_, ?_, ?_, ?_⟩
  · obtain ⟨inp, h1, h2⟩ := hinv.out_eq _ (hlt _ _ ha hb)
    rw [di, de] at h1
    rw [h1]
    congr 1
    funext k
    cases k
    · have := cx.1 _ ha inp (h2 .x)
      have hc : idx (d.nx * place d.ny ny iy + (place d.nx nx ix - 1)) = coarseCell d ⟨place d.nx nx (place d.nx nx ix - 1), iy, 0⟩ := by
        rw [(dec _ _ (by omega)).2.1]; simp only [cell, place_place ny hy]
      rw [hc] at this
      rw [this]
      exact (upwind_place d.nx nx ix hx _ (fun j => (s.out (coarseCell d ⟨j, iy, 0⟩)).2 .x)).symm
    · have := cy.1 _ hb inp (h2 .y)
      have hc : idx (d.nx * (place d.ny ny iy - 1) + place d.nx nx ix) = coarseCell d ⟨ix, place d.ny ny (place d.ny ny iy - 1), 0⟩ := by
        rw [(dec _ _ ha).2.1]; simp only [cell, place_place nx hx]
      rw [hc] at this
      rw [this]
      exact (upwind_place d.ny ny iy hy _ (fun j => (s.out (coarseCell d ⟨ix, j, 0⟩)).2 .y)).symm
  · have := hinv.tflux_new _ (hlt _ _ ha hb)
    rw [di] at this
    exact this
  · have := cx.2 (by omega)
    have hc : idx (d.nx * place d.ny ny iy + (d.nx - 1)) = coarseCell d ⟨last d.nx nx, iy, 0⟩ := by
      rw [(dec _ _ (by omega)).2.1]; simp only [cell, place_place ny hy, last_place]
    rw [hc] at this
    exact this
  · have := cy.2 (by omega)
    have hc : idx (d.nx * (d.ny - 1) + place d.nx nx ix) = coarseCell d ⟨ix, last d.ny ny, 0⟩ := by
      rw [(dec _ _ ha).2.1]; simp only [cell, place_place nx hx, last_place]
    rw [hc] at this
    exact this

end

/-! ## Global balance -/

section

open Finset

variable {K : Type} [Field K]

/-- The sum along a line of what leaves minus what enters each cell telescopes to the last outgoing minus the first
incoming flux. -/
theorem line_sum (n : Nat) (neg : Bool) (hn : 0 < n) (b : K) (f : Nat → K) :
    ∑ i ∈ range n, (f i - (match upwind n neg i with | none => b | some j => f j)) = f (last n neg) - b := by
  have h1 : ∀ i ∈ range n, f i - (match upwind n neg i with | none => b | some j => f j) =
      (fun a => f (place n neg a) - if a = 0 then b else f (place n neg (a - 1))) (place n neg i) := by
    intro i hi
    have hi := mem_range.mp hi
    rw [upwind_place n neg i hi]
    simp only [place_place neg hi]
  rw [sum_congr rfl h1]
  have h2 : ∑ i ∈ range n, (fun a => f (place n neg a) - if a = 0 then b else f (place n neg (a - 1))) (place n neg i) =
      ∑ a ∈ range n, (f (place n neg a) - if a = 0 then b else f (place n neg (a - 1))) := by
    cases neg
    · rfl
    · exact sum_range_reflect (fun a => f (place n true a) - if a = 0 then b else f (place n true (a - 1))) n
  rw [h2]
  obtain ⟨m, rfl⟩ : ∃ m, n = m + 1 := ⟨n - 1, by omega⟩
  rw [sum_range_succ', if_pos rfl, ← last_place]
  have h3 : ∀ k ∈ range m, (f (place (m + 1) neg (k + 1)) - if k + 1 = 0 then b else f (place (m + 1) neg (k + 1 - 1))) =
      (fun k => f (place (m + 1) neg k)) (k + 1) - (fun k => f (place (m + 1) neg k)) k := by
    intro k _
    simp
  rw [sum_congr rfl h3, sum_range_sub (fun k => f (place (m + 1) neg k))]
  simp

/-- C30: global balance of a sweep with any scheme that satisfies cell balance: net leakage through the boundary plus
collisions equals the source.  `ox`, `oy`, `oz` are the absolute direction cosines; `dx`, `dy`, `dz` the widths. -/
theorem C30_global_balance (d : Dims) (nx ny nz : Bool) (wgt : K) (ev : Nat → Nat → Nat → (Ax3 → K) → K × (Ax3 → K))
    (s0 : State Ax3 K) (ox oy oz : K) (dx dy dz : Nat → K) (xstr q : Nat → Nat → Nat → K)
    (hdx : ∀ i, dx i ≠ 0) (hdy : ∀ i, dy i ≠ 0) (hdz : ∀ i, dz i ≠ 0)
    (hx : 0 < d.nx) (hy : 0 < d.ny) (hz : 0 < d.nz)
    (hbal : ∀ ix iy iz, ix < d.nx → iy < d.ny → iz < d.nz → ∀ f : Ax3 → K,
      ox / dx ix * ((ev ix iy iz f).2 .x - f .x) + oy / dy iy * ((ev ix iy iz f).2 .y - f .y) +
        oz / dz iz * ((ev ix iy iz f).2 .z - f .z) + xstr ix iy iz * (ev ix iy iz f).1 = q ix iy iz) :
    let s := sweep3 d nx ny nz wgt ev s0
    (∑ iz ∈ range d.nz, ∑ iy ∈ range d.ny, ox * dy iy * dz iz * (s.flux .x (d.ny * iz + iy) - s0.flux .x (d.ny * iz + iy))) +
    (∑ iz ∈ range d.nz, ∑ ix ∈ range d.nx, oy * dx ix * dz iz * (s.flux .y (d.nx * iz + ix) - s0.flux .y (d.nx * iz + ix))) +
    (∑ iy ∈ range d.ny, ∑ ix ∈ range d.nx, oz * dx ix * dy iy * (s.flux .z (d.nx * iy + ix) - s0.flux .z (d.nx * iy + ix))) +
    (∑ iz ∈ range d.nz, ∑ iy ∈ range d.ny, ∑ ix ∈ range d.nx,
      dx ix * dy iy * dz iz * xstr ix iy iz * (s.out (coarseCell d ⟨ix, iy, iz⟩)).1) =
    ∑ iz ∈ range d.nz, ∑ iy ∈ range d.ny, ∑ ix ∈ range d.nx, dx ix * dy iy * dz iz * q ix iy iz := by
  intro s
  have cellbal : ∀ ix iy iz, ix < d.nx → iy < d.ny → iz < d.nz →
      dx ix * dy iy * dz iz * q ix iy iz =
        ox * dy iy * dz iz * ((s.out (coarseCell d ⟨ix, iy, iz⟩)).2 .x - incoming3 d nx ny nz s0.flux s.out ix iy iz .x) +
        oy * dx ix * dz iz * ((s.out (coarseCell d ⟨ix, iy, iz⟩)).2 .y - incoming3 d nx ny nz s0.flux s.out ix iy iz .y) +
        oz * dx ix * dy iy * ((s.out (coarseCell d ⟨ix, iy, iz⟩)).2 .z - incoming3 d nx ny nz s0.flux s.out ix iy iz .z) +
        dx ix * dy iy * dz iz * xstr ix iy iz * (s.out (coarseCell d ⟨ix, iy, iz⟩)).1 := by
    intro ix iy iz h1 h2 h3
    have hc := (C30_upwind d nx ny nz wgt ev s0 ix iy iz h1 h2 h3).1
    have hb := hbal ix iy iz h1 h2 h3 (incoming3 d nx ny nz s0.flux s.out ix iy iz)
    rw [show ev ix iy iz (incoming3 d nx ny nz s0.flux s.out ix iy iz) = s.out (coarseCell d ⟨ix, iy, iz⟩) from hc.symm] at hb
    rw [← hb]
    have e1 := hdx ix
    have e2 := hdy iy
    have e3 := hdz iz
    field_simp
  have hX : ∀ iz ∈ range d.nz, ∀ iy ∈ range d.ny,
      ∑ ix ∈ range d.nx, ox * dy iy * dz iz * ((s.out (coarseCell d ⟨ix, iy, iz⟩)).2 .x - incoming3 d nx ny nz s0.flux s.out ix iy iz .x) =
      ox * dy iy * dz iz * (s.flux .x (d.ny * iz + iy) - s0.flux .x (d.ny * iz + iy)) := by
    intro iz h3 iy h2
    rw [← mul_sum, (C30_outgoing d nx ny nz wgt ev s0 0 iy iz hx (mem_range.mp h2) (mem_range.mp h3)).1]
    congr 1
    exact line_sum d.nx nx hx _ (fun j => (s.out (coarseCell d ⟨j, iy, iz⟩)).2 .x)
  have hY : ∀ iz ∈ range d.nz, ∀ ix ∈ range d.nx,
      ∑ iy ∈ range d.ny, oy * dx ix * dz iz * ((s.out (coarseCell d ⟨ix, iy, iz⟩)).2 .y - incoming3 d nx ny nz s0.flux s.out ix iy iz .y) =
      oy * dx ix * dz iz * (s.flux .y (d.nx * iz + ix) - s0.flux .y (d.nx * iz + ix)) := by
    intro iz h3 ix h1
    rw [← mul_sum, (C30_outgoing d nx ny nz wgt ev s0 ix 0 iz (mem_range.mp h1) hy (mem_range.mp h3)).2.1]
    congr 1
    exact line_sum d.ny ny hy _ (fun j => (s.out (coarseCell d ⟨ix, j, iz⟩)).2 .y)
  have hZ : ∀ iy ∈ range d.ny, ∀ ix ∈ range d.nx,
      ∑ iz ∈ range d.nz, oz * dx ix * dy iy * ((s.out (coarseCell d ⟨ix, iy, iz⟩)).2 .z - incoming3 d nx ny nz s0.flux s.out ix iy iz .z) =
      oz * dx ix * dy iy * (s.flux .z (d.nx * iy + ix) - s0.flux .z (d.nx * iy + ix)) := by
    intro iy h2 ix h1
    rw [← mul_sum, (C30_outgoing d nx ny nz wgt ev s0 ix iy 0 (mem_range.mp h1) (mem_range.mp h2) hz).2.2]
    congr 1
    exact line_sum d.nz nz hz _ (fun j => (s.out (coarseCell d ⟨ix, iy, j⟩)).2 .z)
  have htot : ∑ iz ∈ range d.nz, ∑ iy ∈ range d.ny, ∑ ix ∈ range d.nx, dx ix * dy iy * dz iz * q ix iy iz =
      ∑ iz ∈ range d.nz, ∑ iy ∈ range d.ny, ∑ ix ∈ range d.nx, (
        ox * dy iy * dz iz * ((s.out (coarseCell d ⟨ix, iy, iz⟩)).2 .x - incoming3 d nx ny nz s0.flux s.out ix iy iz .x) +
        oy * dx ix * dz iz * ((s.out (coarseCell d ⟨ix, iy, iz⟩)).2 .y - incoming3 d nx ny nz s0.flux s.out ix iy iz .y) +
        oz * dx ix * dy iy * ((s.out (coarseCell d ⟨ix, iy, iz⟩)).2 .z - incoming3 d nx ny nz s0.flux s.out ix iy iz .z) +
        dx ix * dy iy * dz iz * xstr ix iy iz * (s.out (coarseCell d ⟨ix, iy, iz⟩)).1) :=
    sum_congr rfl fun iz h3 => sum_congr rfl fun iy h2 => sum_congr rfl fun ix h1 =>
      cellbal ix iy iz (mem_range.mp h1) (mem_range.mp h2) (mem_range.mp h3)
  rw [htot]
  simp only [sum_add_distrib]
  congr 1
  congr 1
  · congr 1
    · exact (sum_congr rfl fun iz h3 => sum_congr rfl fun iy h2 => hX iz h3 iy h2).symm
    · refine sum_congr rfl fun iz h3 => ?_
      rw [sum_comm]
      exact (sum_congr rfl fun ix h1 => hY iz h3 ix h1).symm
  · symm
    rw [sum_comm]
    refine sum_congr rfl fun iy h2 => ?_
    rw [sum_comm]
    exact sum_congr rfl fun ix h1 => hZ iy h2 ix h1

/-- C30: global balance in two dimensions. -/
theorem C30_global_balance_2d (d : Dims) (nx ny : Bool) (wgt : K) (ev : Nat → Nat → (Ax2 → K) → K × (Ax2 → K))
    (s0 : State Ax2 K) (ox oy : K) (dx dy : Nat → K) (xstr q : Nat → Nat → K) (hdx : ∀ i, dx i ≠ 0) (hdy : ∀ i, dy i ≠ 0)
    (hx : 0 < d.nx) (hy : 0 < d.ny)
    (hbal : ∀ ix iy, ix < d.nx → iy < d.ny → ∀ f : Ax2 → K,
      ox / dx ix * ((ev ix iy f).2 .x - f .x) + oy / dy iy * ((ev ix iy f).2 .y - f .y) + xstr ix iy * (ev ix iy f).1 = q ix iy) :
    let s := sweep2 d nx ny wgt ev s0
    (∑ iy ∈ range d.ny, ox * dy iy * (s.flux .x iy - s0.flux .x iy)) + (∑ ix ∈ range d.nx, oy * dx ix * (s.flux .y ix - s0.flux .y ix)) +
    (∑ iy ∈ range d.ny, ∑ ix ∈ range d.nx, dx ix * dy iy * xstr ix iy * (s.out (coarseCell d ⟨ix, iy, 0⟩)).1) =
    ∑ iy ∈ range d.ny, ∑ ix ∈ range d.nx, dx ix * dy iy * q ix iy := by
  intro s
  have cellbal : ∀ ix iy, ix < d.nx → iy < d.ny →
      dx ix * dy iy * q ix iy =
        ox * dy iy * ((s.out (coarseCell d ⟨ix, iy, 0⟩)).2 .x - incoming2 d nx ny s0.flux s.out ix iy .x) +
        oy * dx ix * ((s.out (coarseCell d ⟨ix, iy, 0⟩)).2 .y - incoming2 d nx ny s0.flux s.out ix iy .y) +
        dx ix * dy iy * xstr ix iy * (s.out (coarseCell d ⟨ix, iy, 0⟩)).1 := by
    intro ix iy h1 h2
    have hc := (C30_upwind_2d d nx ny wgt ev s0 ix iy h1 h2).1
    have hb := hbal ix iy h1 h2 (incoming2 d nx ny s0.flux s.out ix iy)
    rw [show ev ix iy (incoming2 d nx ny s0.flux s.out ix iy) = s.out (coarseCell d ⟨ix, iy, 0⟩) from hc.symm] at hb
    rw [← hb]
    have e1 := hdx ix
    have e2 := hdy iy
    field_simp
  have hX : ∀ iy ∈ range d.ny,
      ∑ ix ∈ range d.nx, ox * dy iy * ((s.out (coarseCell d ⟨ix, iy, 0⟩)).2 .x - incoming2 d nx ny s0.flux s.out ix iy .x) =
      ox * dy iy * (s.flux .x iy - s0.flux .x iy) := by
    intro iy h2
    rw [← mul_sum, (C30_upwind_2d d nx ny wgt ev s0 0 iy hx (mem_range.mp h2)).2.2.1]
    congr 1
    exact line_sum d.nx nx hx _ (fun j => (s.out (coarseCell d ⟨j, iy, 0⟩)).2 .x)
  have hY : ∀ ix ∈ range d.nx,
      ∑ iy ∈ range d.ny, oy * dx ix * ((s.out (coarseCell d ⟨ix, iy, 0⟩)).2 .y - incoming2 d nx ny s0.flux s.out ix iy .y) =
      oy * dx ix * (s.flux .y ix - s0.flux .y ix) := by
    intro ix h1
    rw [← mul_sum, (C30_upwind_2d d nx ny wgt ev s0 ix 0 (mem_range.mp h1) hy).2.2.2]
    congr 1
    exact line_sum d.ny ny hy _ (fun j => (s.out (coarseCell d ⟨ix, j, 0⟩)).2 .y)
  have htot : ∑ iy ∈ range d.ny, ∑ ix ∈ range d.nx, dx ix * dy iy * q ix iy =
      ∑ iy ∈ range d.ny, ∑ ix ∈ range d.nx, (
        ox * dy iy * ((s.out (coarseCell d ⟨ix, iy, 0⟩)).2 .x - incoming2 d nx ny s0.flux s.out ix iy .x) +
        oy * dx ix * ((s.out (coarseCell d ⟨ix, iy, 0⟩)).2 .y - incoming2 d nx ny s0.flux s.out ix iy .y) +
        dx ix * dy iy * xstr ix iy * (s.out (coarseCell d ⟨ix, iy, 0⟩)).1) :=
    sum_congr rfl fun iy h2 => sum_congr rfl fun ix h1 => cellbal ix iy (mem_range.mp h1) (mem_range.mp h2)
  rw [htot]
  simp only [sum_add_distrib]
  congr 1
  congr 1
  · exact (sum_congr rfl fun iy h2 => hX iy h2).symm
  · rw [sum_comm]
    exact (sum_congr rfl fun ix h1 => hY ix h1).symm

end

/-- C30: in particular for diamond difference. -/
theorem C30_diamond_balance (d : Dims) (nx ny nz : Bool) (wgt ox oy oz : ℚ) (s0 : State Ax3 ℚ) (dx dy dz : Nat → ℚ)
    (xstr q : Nat → Nat → Nat → ℚ) (hox : 0 < ox) (hoy : 0 < oy) (hoz : 0 < oz) (hdx : ∀ i, 0 < dx i) (hdy : ∀ i, 0 < dy i)
    (hdz : ∀ i, 0 < dz i) (hxs : ∀ i j k, 0 ≤ xstr i j k) (hx : 0 < d.nx) (hy : 0 < d.ny) (hz : 0 < d.nz) :
    let ev : Nat → Nat → Nat → (Ax3 → ℚ) → ℚ × (Ax3 → ℚ) := fun ix iy iz f =>
      let o := evalDD (ox / dx ix) (oy / dy iy) (oz / dz iz) (f .x) (f .y) (f .z) (q ix iy iz) (xstr ix iy iz)
      (o.psi, fun | .x => o.x | .y => o.y | .z => o.z)
    let s := sweep3 d nx ny nz wgt ev s0
    (∑ iz ∈ Finset.range d.nz, ∑ iy ∈ Finset.range d.ny, ox * dy iy * dz iz * (s.flux .x (d.ny * iz + iy) - s0.flux .x (d.ny * iz + iy))) +
    (∑ iz ∈ Finset.range d.nz, ∑ ix ∈ Finset.range d.nx, oy * dx ix * dz iz * (s.flux .y (d.nx * iz + ix) - s0.flux .y (d.nx * iz + ix))) +
    (∑ iy ∈ Finset.range d.ny, ∑ ix ∈ Finset.range d.nx, oz * dx ix * dy iy * (s.flux .z (d.nx * iy + ix) - s0.flux .z (d.nx * iy + ix))) +
    (∑ iz ∈ Finset.range d.nz, ∑ iy ∈ Finset.range d.ny, ∑ ix ∈ Finset.range d.nx,
      dx ix * dy iy * dz iz * xstr ix iy iz * (s.out (coarseCell d ⟨ix, iy, iz⟩)).1) =
    ∑ iz ∈ Finset.range d.nz, ∑ iy ∈ Finset.range d.ny, ∑ ix ∈ Finset.range d.nx, dx ix * dy iy * dz iz * q ix iy iz := by
  intro ev s
  apply C30_global_balance d nx ny nz wgt ev s0 ox oy oz dx dy dz xstr q (fun i => (hdx i).ne') (fun i => (hdy i).ne')
    (fun i => (hdz i).ne') hx hy hz
  intro ix iy iz _ _ _ f
  have h1 := div_pos hox (hdx ix)
  have h2 := div_pos hoy (hdy iy)
  have h3 := div_pos hoz (hdz iz)
  have h4 := hxs ix iy iz
  exact C29_dd (ox / dx ix) (oy / dy iy) (oz / dz iz) (f .x) (f .y) (f .z) (q ix iy iz) (xstr ix iy iz) (by linarith)

/-- A scheme that tells cells apart, on a 3 by 2 by 2 mesh, going down in x and z: cell (1, 1, 0) gets the x flux of
(2, 1, 0), the y flux of (1, 0, 0) and the z flux of (1, 1, 1). -/
example :
    let ev : Nat → Nat → Nat → (Ax3 → ℚ) → ℚ × (Ax3 → ℚ) := fun ix iy iz f =>
      (f .x + f .y + f .z, fun | .x => f .x + ix + 1 | .y => f .y + 10 * (iy + 1) | .z => f .z + 100 * (iz + 1))
    let s := sweep3 ⟨3, 2, 2⟩ true false true 1 ev ⟨fun _ _ => 0, fun _ => 0, fun _ => (0, fun _ => 0)⟩
    (s.out (coarseCell ⟨3, 2, 2⟩ ⟨1, 1, 0⟩)).1 = 3 + 10 + 200 ∧ s.flux .x 1 = 6 := by
  decide +kernel

end Verif.Sn
