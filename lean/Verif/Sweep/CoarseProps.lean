import Verif.Sweep.CoarseModel
import Verif.Mesh.Props
import Mathlib.Tactic.Ring
import Mathlib.Tactic.Linarith

/-!
# C103: zeroing of coarse data
-/

namespace Verif.Sweep.Coarse

open Verif.Mesh

variable {K : Type}

/-- `c'` is `c` with zeros on the surfaces for which `P` holds, in group `g` only; partial currents only if `zp`; nothing else is changed. -/
def ZeroedOn [Zero K] (P : Nat → Prop) (g : Nat) (zp : Bool) (c c' : Data K) : Prop :=
  (∀ s, P s → c'.current s g = 0 ∧ c'.surfaceFlux s g = 0 ∧ (zp = true → c'.partialCurrent s g = (0, 0))) ∧
  (∀ s g', ¬ (P s ∧ g' = g) → c'.current s g' = c.current s g' ∧ c'.surfaceFlux s g' = c.surfaceFlux s g' ∧
    c'.partialCurrent s g' = c.partialCurrent s g') ∧
  (zp = false → c'.partialCurrent = c.partialCurrent) ∧ c'.partialOld = c.partialOld ∧ c'.flux = c.flux ∧ c'.oldFlux = c.oldFlux

theorem zeroedOn_one [Zero K] (g : Nat) (zp : Bool) (s : Nat) (c : Data K) : ZeroedOn (fun x => x = s) g zp c (zeroOne g zp s c) := by
  refine ⟨?_, ?_, ?_, rfl, rfl, rfl⟩
  · rintro x rfl
    refine ⟨by simp [zeroOne, put], by simp [zeroOne, put], ?_⟩
    rintro rfl
    simp [zeroOne, put]
  · intro x g' h
    refine ⟨by simp only [zeroOne, put, if_neg h], by simp only [zeroOne, put, if_neg h], ?_⟩
    cases zp
    · rfl
    · simp only [zeroOne, put, if_true, if_neg h]
  · rintro rfl
    rfl

theorem zeroedOn_trans [Zero K] {P Q R : Nat → Prop} {g : Nat} {zp : Bool} {a b c : Data K} (h1 : ZeroedOn P g zp a b) (h2 : ZeroedOn Q g zp b c)
    (hR : ∀ s, R s ↔ P s ∨ Q s) : ZeroedOn R g zp a c := by
  obtain ⟨a1, a2, a3, a4, a5, a6⟩ := h1
  obtain ⟨b1, b2, b3, b4, b5, b6⟩ := h2
  refine ⟨?_, ?_, fun h => (b3 h).trans (a3 h), b4.trans a4, b5.trans a5, b6.trans a6⟩
  · intro s hs
    by_cases hq : Q s
    · exact b1 s hq
    · have hp : P s := ((hR s).1 hs).resolve_right hq
      obtain ⟨e1, e2, e3⟩ := b2 s g (fun h => hq h.1)
      obtain ⟨f1, f2, f3⟩ := a1 s hp
      exact ⟨e1.trans f1, e2.trans f2, fun h => e3.trans (f3 h)⟩
  · intro s g' h
    obtain ⟨e1, e2, e3⟩ := b2 s g' (fun hh => h ⟨(hR s).2 (Or.inr hh.1), hh.2⟩)
    obtain ⟨f1, f2, f3⟩ := a2 s g' (fun hh => h ⟨(hR s).2 (Or.inl hh.1), hh.2⟩)
    exact ⟨e1.trans f1, e2.trans f2, e3.trans f3⟩

theorem zeroedOn_refl [Zero K] {P : Nat → Prop} (g : Nat) (zp : Bool) (c : Data K) (h : ∀ s, ¬ P s) : ZeroedOn P g zp c c :=
  ⟨fun s hs => absurd hs (h s), fun _ _ _ => ⟨rfl, rfl, rfl⟩, fun _ => rfl, rfl, rfl, rfl⟩

theorem surfLoop_spec [Zero K] (d : Dims) (g : Nat) (zp : Bool) (n s : Nat) (c : Data K) (h : s + n ≤ nSurf d) :
    ∃ c', surfLoop d g zp n s c = some c' ∧ ZeroedOn (fun x => s ≤ x ∧ x < s + n) g zp c c' := by
  induction n generalizing s c with
  | zero => exact ⟨c, rfl, zeroedOn_refl g zp c (by intro x hx; omega)⟩
  | succ n ih =>
    obtain ⟨c', e, hz⟩ := ih (s + 1) (zeroOne g zp s c) (by omega)
    refine ⟨c', ?_, zeroedOn_trans (zeroedOn_one g zp s c) hz ?_⟩
    · rw [surfLoop, if_pos (by omega), e]
    · intro x
      omega

theorem nSurf_eq (d : Dims) : nSurf d = d.nz * nSurfPlane d + d.nx * d.ny := by
  unfold nSurf nSurfPlane
  ring

theorem planeLoop_spec [Zero K] (d : Dims) (g : Nat) (zp : Bool) (n p : Nat) (c : Data K) (h : p + n ≤ d.nz) :
    ∃ c', planeLoop d g zp n p c = some c' ∧
      ZeroedOn (fun x => ∃ q, p ≤ q ∧ q < p + n ∧ nSurfPlane d * q + d.nx * d.ny ≤ x ∧ x < nSurfPlane d * (q + 1)) g zp c c' := by
  induction n generalizing p c with
  | zero => exact ⟨c, rfl, zeroedOn_refl g zp c (by rintro x ⟨q, hq, hq', -⟩; omega)⟩
  | succ n ih =>
    have hle : nSurfPlane d * p + d.nx * d.ny ≤ nSurfPlane d * (p + 1) := by
      have : d.nx * d.ny ≤ nSurfPlane d := by unfold nSurfPlane; omega
      rw [Nat.mul_succ]
      omega
    have hmax : nSurfPlane d * (p + 1) ≤ nSurf d := by
      rw [nSurf_eq, Nat.mul_comm d.nz]
      have : nSurfPlane d * (p + 1) ≤ nSurfPlane d * d.nz := Nat.mul_le_mul_left _ (by omega)
      omega
    obtain ⟨c1, e1, h1⟩ := surfLoop_spec d g zp (nSurfPlane d * (p + 1) - (nSurfPlane d * p + d.nx * d.ny)) (nSurfPlane d * p + d.nx * d.ny) c (by omega)
    obtain ⟨c2, e2, h2⟩ := ih (p + 1) c1 (by omega)
    refine ⟨c2, ?_, zeroedOn_trans h1 h2 ?_⟩
    · rw [planeLoop, e1, Option.bind_some, e2]
    · intro x
      constructor
      · rintro ⟨q, g1, g2, g3, g4⟩
        rcases Nat.eq_or_lt_of_le g1 with rfl | hlt
        · left
          omega
        · exact Or.inr ⟨q, by omega, by omega, g3, g4⟩
      · rintro (⟨g1, g2⟩ | ⟨q, g1, g2, g3, g4⟩)
        · exact ⟨p, by omega, by omega, g1, by omega⟩
        · exact ⟨q, by omega, by omega, g3, g4⟩

theorem not_z_iff (d : Dims) (s : Nat) (hs : s < nSurf d) :
    surfaceNormal d s ≠ .Z ↔ ∃ q, 0 ≤ q ∧ q < 0 + d.nz ∧ nSurfPlane d * q + d.nx * d.ny ≤ s ∧ s < nSurfPlane d * (q + 1) := by
  have hz : surfaceNormal d s = .Z ↔ s % nSurfPlane d < d.nx * d.ny := by
    have e : d.nx * d.ny + (d.nx + 1) * d.ny + (d.ny + 1) * d.nx = nSurfPlane d := by unfold nSurfPlane; ring
    unfold surfaceNormal
    dsimp only
    rw [e]
    split_ifs <;> simp_all
  rw [Ne, hz, Nat.not_lt]
  have hsp : 0 < nSurfPlane d := by
    by_contra h
    have h0 : nSurfPlane d = 0 := by omega
    have : d.nx * d.ny ≤ nSurfPlane d := by unfold nSurfPlane; omega
    rw [nSurf_eq, h0] at hs
    omega
  rw [nSurf_eq, Nat.mul_comm d.nz] at hs
  generalize nSurfPlane d = m at *
  generalize d.nx * d.ny = a at *
  constructor
  · intro h
    have e := Nat.div_add_mod s m
    have hm := Nat.mod_lt s hsp
    refine ⟨s / m, Nat.zero_le _, ?_, by omega, by rw [Nat.mul_succ]; omega⟩
    by_contra hq
    have : m * d.nz ≤ m * (s / m) := Nat.mul_le_mul_left _ (by omega)
    omega
  · rintro ⟨q, -, -, h1, h2⟩
    rw [Nat.mul_succ] at h2
    have hq : s / m = q := by
      apply Nat.div_eq_of_lt_le
      · rw [Nat.mul_comm]; omega
      · rw [Nat.mul_comm, Nat.mul_succ]; omega
    have e := Nat.div_add_mod s m
    rw [hq] at e
    omega

/-- C103, `zero_data_radial`.  No access is out of range; the data of the group are zero afterwards on the surfaces that are normal to X or Y; those of the
other surfaces, of the other groups, and, unless asked for, all partial currents keep their values. -/
theorem C103_radial [Zero K] (d : Dims) (g : Nat) (zp : Bool) (c : Data K) :
    ∃ c', zeroRadial d g zp c = some c' ∧
      (∀ s, s < nSurf d → surfaceNormal d s ≠ .Z → c'.current s g = 0 ∧ c'.surfaceFlux s g = 0 ∧ (zp = true → c'.partialCurrent s g = (0, 0))) ∧
      (∀ s g', s < nSurf d → surfaceNormal d s = .Z ∨ g' ≠ g → c'.current s g' = c.current s g' ∧ c'.surfaceFlux s g' = c.surfaceFlux s g' ∧
        c'.partialCurrent s g' = c.partialCurrent s g') ∧
      (zp = false → c'.partialCurrent = c.partialCurrent) ∧ c'.partialOld = c.partialOld ∧ c'.flux = c.flux ∧ c'.oldFlux = c.oldFlux := by
  obtain ⟨c', e, h1, h2, h3⟩ := planeLoop_spec d g zp d.nz 0 c (by omega)
  refine ⟨c', e, ?_, ?_, h3⟩
  · intro s hs hn
    exact h1 s ((not_z_iff d s hs).1 hn)
  · intro s g' hs hn
    apply h2
    rintro ⟨hq, hg⟩
    rcases hn with hn | hn
    · exact (not_z_iff d s hs).2 hq hn
    · exact hn hg

/-- C103, the same by the faces of cells: lateral faces are zeroed, faces at top and bottom keep their values. -/
theorem C103_faces [Zero K] (d : Dims) (g : Nat) (zp : Bool) (c c' : Data K) (h : zeroRadial d g zp c = some c') (i j k : Nat)
    (hi : i < d.nx) (hj : j < d.ny) (hk : k < d.nz) (s : Surface) (n : Nat) (hn : coarseSurf d (coarseCell d ⟨i, j, k⟩) s = some n) :
    (s = .EAST ∨ s = .NORTH ∨ s = .WEST ∨ s = .SOUTH → c'.current n g = 0 ∧ c'.surfaceFlux n g = 0) ∧
    (s = .TOP ∨ s = .BOTTOM → c'.current n g = c.current n g ∧ c'.surfaceFlux n g = c.surfaceFlux n g) := by
  obtain ⟨c2, e, h1, h2, -⟩ := C103_radial d g zp c
  rw [h] at e
  cases e
  have hlt : s ≠ .INTERNAL → n < nSurf d := by
    intro hs
    obtain ⟨m, e, hm⟩ := C11_surface_in_range d i j k s hs hi hj hk
    rw [hn] at e
    cases e
    exact hm
  constructor
  · rintro (rfl | rfl | rfl | rfl)
    all_goals
      have hl := hlt (by simp)
      have hno := C13_normal d i j k _ _ n hi hj hk rfl hn
      obtain ⟨r1, r2, -⟩ := h1 n hl (by rw [hno]; intro hh; cases hh)
      exact ⟨r1, r2⟩
  · rintro (rfl | rfl)
    all_goals
      have hl := hlt (by simp)
      have hno := C13_normal d i j k _ _ n hi hj hk rfl hn
      obtain ⟨r1, r2, -⟩ := h2 n g hl (Or.inl hno)
      exact ⟨r1, r2⟩

/-- C103, `zero_data`: the data of the group on all surfaces. -/
theorem C103_all [Zero K] (g : Nat) (zp : Bool) (c : Data K) : ZeroedOn (fun _ => True) g zp c (zeroData g zp c) := by
  refine ⟨?_, ?_, ?_, rfl, rfl, rfl⟩
  · intro s _
    refine ⟨by simp [zeroData], by simp [zeroData], ?_⟩
    rintro rfl
    simp [zeroData]
  · intro s g' h
    have hg : g' ≠ g := fun hg => h ⟨trivial, hg⟩
    refine ⟨by simp [zeroData, hg], by simp [zeroData, hg], ?_⟩
    cases zp <;> simp [zeroData, hg]
  · rintro rfl
    rfl

/-- C103: zeroing the groups one after the other in any order gives the data of the constructor, except for the fluxes. -/
theorem C103_groups [Zero K] [One K] (gs : List Nat) (c : Data K) (s g : Nat) (hg : g ∈ gs) :
    (gs.foldl (fun c g => zeroData g true c) c).current s g = (init : Data K).current s g ∧
    (gs.foldl (fun c g => zeroData g true c) c).surfaceFlux s g = (init : Data K).surfaceFlux s g ∧
    (gs.foldl (fun c g => zeroData g true c) c).partialCurrent s g = (init : Data K).partialCurrent s g := by
  have keep : ∀ (gs : List Nat) (c : Data K), c.current s g = 0 ∧ c.surfaceFlux s g = 0 ∧ c.partialCurrent s g = (0, 0) →
      (gs.foldl (fun c g => zeroData g true c) c).current s g = 0 ∧ (gs.foldl (fun c g => zeroData g true c) c).surfaceFlux s g = 0 ∧
      (gs.foldl (fun c g => zeroData g true c) c).partialCurrent s g = (0, 0) := by
    intro gs
    induction gs with
    | nil => exact fun c h => h
    | cons g' gs ih =>
      intro c h
      apply ih
      by_cases e : g = g'
      · simp [zeroData, e]
      · simpa [zeroData, e] using h
  induction gs generalizing c with
  | nil => simp at hg
  | cons g' gs ih =>
    rcases List.mem_cons.1 hg with rfl | hg
    · exact keep gs _ (by simp [zeroData])
    · exact ih _ hg

/-- Two by one cells in one plane: surfaces 0 and 1 and, at the top, 9 and 10 are normal to Z. -/
example : (zeroRadial (K := Nat) ⟨2, 1, 1⟩ 1 false ⟨fun s g => 10 * s + g, fun _ _ => 1, fun _ _ => (1, 1), fun _ _ => (1, 1), fun _ _ => 1, fun _ _ => 1⟩).map
    (fun c => ((List.range (nSurf ⟨2, 1, 1⟩)).map fun s : Nat => c.current s 1, c.current 5 0)) = some ([1, 11, 0, 0, 0, 0, 0, 0, 0, 91, 101], 50) := by
  decide +kernel

end Verif.Sweep.Coarse
