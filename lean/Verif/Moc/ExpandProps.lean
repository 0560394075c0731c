import Verif.Moc.ExpandModel
import Verif.Mesh.Props
import Mathlib.Algebra.Order.Field.Rat
import Mathlib.Algebra.Field.Rat
import Mathlib.Tactic.Ring
import Mathlib.Tactic.Linarith
import Mathlib.Tactic.NormNum
import Mathlib.Tactic.FieldSimp

/-!
# C38: radial currents are expanded to every plane and only there
-/

namespace Verif.Moc.Expand

open Verif.Mesh Verif.Mesh.Spec

variable {K : Type}

/-- `mi` numbers consecutive groups of planes from zero. -/
structure Layout (nz : Nat) (mi : Nat → Nat) : Prop where
  zero : mi 0 = 0
  step : ∀ k, k + 1 < nz → mi (k + 1) = mi k ∨ mi (k + 1) = mi k + 1

theorem Layout.le {nz : Nat} {mi : Nat → Nat} (h : Layout nz mi) : ∀ k, k < nz → mi k ≤ k
  | 0, _ => by rw [h.zero]
  | k + 1, hk => by
    have := h.le k (by omega)
    rcases h.step k hk with e | e <;> omega

/-- If the last plane has its own number, so has every other plane. -/
theorem Layout.eq {nz : Nat} {mi : Nat → Nat} (h : Layout nz mi) (hl : mi (nz - 1) = nz - 1) (k : Nat)
    (hk : k < nz) : mi k = k := by
  have key : ∀ j, j ≤ nz - 1 - k → mi (k + j) ≤ mi k + j := by
    intro j
    induction j with
    | zero => intro; simp
    | succ j ih =>
      intro hj
      have := ih (by omega)
      rcases h.step (k + j) (by omega) with e | e <;> rw [← Nat.add_assoc, e] <;> omega
  have h1 := key (nz - 1 - k) le_rfl
  have h2 : k + (nz - 1 - k) = nz - 1 := by omega
  rw [h2, hl] at h1
  have := h.le k hk
  omega

/-- Surface `off` of plane `k`. -/
def at' (d : Dims) (k off : Nat) : Nat := k * nSurfPlane d + off

theorem nxy_lt (d : Dims) (hx : 0 < d.nx) : d.nx * d.ny < nSurfPlane d := by
  unfold nSurfPlane
  have : 0 < (d.ny + 1) * d.nx := Nat.mul_pos (by omega) hx
  omega

theorem mul_lt_step {P a b : Nat} (h : a < b) : a * P + P ≤ b * P := by
  have := Nat.mul_le_mul_right P (Nat.succ_le_of_lt h)
  rw [Nat.succ_mul] at this
  exact this

/-- One copy, at a surface of plane `k`. -/
theorem copyPlane_at (d : Dims) (mi : Nat → Nat) (c : Nat → K) (iz k off : Nat) (hx : 0 < d.nx) (hy : 0 < d.ny)
    (ho : off < nSurfPlane d) :
    copyPlane d mi c iz (at' d k off) =
      if k = iz ∧ d.nx * d.ny ≤ off then c (at' d (mi iz) off)
      else if k = iz + 1 ∧ off = 0 then c (at' d (mi iz + 1) 0)
      else c (at' d k off) := by
  have hxy : 0 < d.nx * d.ny := Nat.mul_pos hx hy
  have hlt := nxy_lt d hx
  unfold copyPlane xyBegin surfEnd at'
  have e0 : ∀ n, nSurfPlane d * n = n * nSurfPlane d := fun n => Nat.mul_comm _ _
  simp only [e0, Nat.succ_mul]
  rcases Nat.lt_trichotomy k iz with h | h | h
  · have := mul_lt_step (P := nSurfPlane d) h
    rw [if_neg (by omega), if_neg (by omega), if_neg (by omega)]
  · subst h
    by_cases h2 : d.nx * d.ny ≤ off
    · rw [if_pos (by omega), if_pos ⟨rfl, h2⟩]
      congr 1
      omega
    · rw [if_neg (by omega), if_neg (by omega), if_neg (by omega)]
  · rcases Nat.lt_or_ge (iz + 1) k with h2 | h2
    · have := mul_lt_step (P := nSurfPlane d) h2
      rw [Nat.succ_mul] at this
      rw [if_neg (by omega), if_neg (by omega), if_neg (by omega)]
    · have h3 : k = iz + 1 := by omega
      subst h3
      rw [Nat.succ_mul]
      by_cases h4 : off = 0
      · subst h4
        rw [if_pos (by omega), if_neg (by omega), if_pos ⟨rfl, rfl⟩]
        congr 1
        omega
      · rw [if_neg (by omega), if_neg (by omega), if_neg (by omega)]

/-- The whole loop over planes `n-1, ..., 0`. -/
theorem expandFrom_at (d : Dims) (mi : Nat → Nat) (hx : 0 < d.nx) (hy : 0 < d.ny) (n : Nat) (c : Nat → K)
    (hle : ∀ k, k < n → mi k ≤ k) (k off : Nat) (ho : off < nSurfPlane d) :
    expandFrom d mi n c (at' d k off) =
      if k < n ∧ d.nx * d.ny ≤ off then c (at' d (mi k) off)
      else if 0 < k ∧ k ≤ n ∧ off = 0 then c (at' d (mi (k - 1) + 1) 0)
      else c (at' d k off) := by
  have hxy : 0 < d.nx * d.ny := Nat.mul_pos hx hy
  induction n generalizing c with
  | zero =>
    unfold expandFrom
    rw [if_neg (by omega), if_neg (by omega)]
  | succ n ih =>
    unfold expandFrom
    rw [ih (copyPlane d mi c n) (fun k hk => hle k (by omega))]
    by_cases h1 : k < n ∧ d.nx * d.ny ≤ off
    · rw [if_pos h1, if_pos ⟨by omega, h1.2⟩, copyPlane_at d mi c n _ off hx hy ho]
      have := hle k (by omega)
      rw [if_neg (by omega), if_neg (by omega)]
    · rw [if_neg h1]
      by_cases h2 : 0 < k ∧ k ≤ n ∧ off = 0
      · rw [if_pos h2, if_neg (by omega), if_pos ⟨h2.1, by omega, h2.2.2⟩,
          copyPlane_at d mi c n _ 0 hx hy (by omega)]
        have := hle (k - 1) (by omega)
        rw [if_neg (by omega), if_neg (by omega)]
      · rw [if_neg h2, copyPlane_at d mi c n k off hx hy ho]
        by_cases h3 : k = n ∧ d.nx * d.ny ≤ off
        · rw [if_pos h3, if_pos ⟨by omega, h3.2⟩, h3.1]
        · rw [if_neg h3]
          by_cases h4 : k = n + 1 ∧ off = 0
          · rw [if_pos h4, if_neg (by omega), if_pos ⟨by omega, by omega, h4.2⟩, h4.1, Nat.add_sub_cancel]
          · rw [if_neg h4, if_neg (by omega), if_neg (by omega)]

/-- Radial surfaces are in the second part of the numbers of a plane. -/
theorem enc_split (d : Dims) (f : Face) (hv : f.Valid d.nx d.ny d.nz) :
    ∃ off, off < nSurfPlane d ∧ enc d f = at' d f.k off ∧ (f.axis ≠ .z → d.nx * d.ny ≤ off) ∧
      (f.axis = .z → off = d.nx * f.j + f.i ∧ off < d.nx * d.ny) ∧
      (f.axis ≠ .z → ∀ k, enc d ⟨f.axis, f.i, f.j, k⟩ = at' d k off) := by
  have h := inner_lt d f hv
  obtain ⟨a, i, j, k⟩ := f
  refine ⟨enc d ⟨a, i, j, k⟩ - k * nSurfPlane d, h.1, ?_, ?_, ?_, ?_⟩
  · unfold at'; have := h.2; simp only at this ⊢; omega
  · cases a <;> intro h' <;> simp only [enc, Nat.add_sub_cancel_left]
    · omega
    · omega
    · exact absurd rfl h'
  · intro h'; simp only at h'; subst h'
    simp only [enc, Nat.add_sub_cancel_left, Face.Valid] at hv ⊢
    refine ⟨trivial, ?_⟩
    have := Nat.mul_le_mul_left d.nx (Nat.succ_le_of_lt hv.2.1)
    rw [Nat.mul_succ] at this
    omega
  · intro h' k'
    cases a <;> simp only [enc, at', Nat.add_sub_cancel_left]
    first | done | exact absurd rfl h'

/-- **C38, radial currents (partial).**  For every layout of sub-planes and every content, the current on a radial face
of plane `k` becomes the current that was stored on the same face of plane `mi k`, the storage place of its
macroplane.  What is missing: the axial currents and the surface flux (see `C38_claim`). -/
theorem C38_radial_partial (d : Dims) (mi : Nat → Nat) (hx : 0 < d.nx) (hy : 0 < d.ny)
    (hl : Layout d.nz mi) (c : Nat → K) (a : Axis) (i j k : Nat) (ha : a ≠ .z) (hk : k < d.nz)
    (hv : (Face.mk a i j k).Valid d.nx d.ny d.nz) :
    expandCurrent d mi c (enc d ⟨a, i, j, k⟩) = c (enc d ⟨a, i, j, mi k⟩) := by
  obtain ⟨off, h1, h2, h3, h4, h5⟩ := enc_split d ⟨a, i, j, k⟩ hv
  simp only at h2 h3 h4 h5
  have h6 := h5 ha
  unfold expandCurrent
  by_cases h : d.nz - 1 ≠ mi (d.nz - 1)
  · rw [if_pos h, h6, h6, expandFrom_at d mi hx hy d.nz c hl.le k off h1, if_pos ⟨hk, h3 ha⟩]
  · rw [if_neg h, hl.eq (not_not.mp h).symm k hk]

/-- **C38, axial currents of all columns but the first (partial)** are untouched. -/
theorem C38_axial_partial (d : Dims) (mi : Nat → Nat) (hx : 0 < d.nx) (hy : 0 < d.ny)
    (hl : Layout d.nz mi) (c : Nat → K) (i j k : Nat) (hij : i ≠ 0 ∨ j ≠ 0)
    (hv : (Face.mk .z i j k).Valid d.nx d.ny d.nz) :
    expandCurrent d mi c (enc d ⟨.z, i, j, k⟩) = c (enc d ⟨.z, i, j, k⟩) := by
  obtain ⟨off, h1, h2, h3, h4, h5⟩ := enc_split d ⟨.z, i, j, k⟩ hv
  simp only at h2 h4
  obtain ⟨h6, h7⟩ := h4 trivial
  have h8 : off ≠ 0 := by
    rcases hij with h | h
    · omega
    · have : 0 < d.nx * j := Nat.mul_pos hx (by omega)
      omega
  unfold expandCurrent
  by_cases h : d.nz - 1 ≠ mi (d.nz - 1)
  · rw [if_pos h, h2, expandFrom_at d mi hx hy d.nz c hl.le k off h1, if_neg (by omega), if_neg (by omega)]
  · rw [if_neg h]

/-- What happens to the first column: with sub-planes its axial current at the top of plane `k` is replaced by the one
stored at the top of plane `mi k`, because the copied range is one surface too long. -/
theorem C38_axial_first (d : Dims) (mi : Nat → Nat) (hx : 0 < d.nx) (hy : 0 < d.ny)
    (hl : Layout d.nz mi) (hs : mi (d.nz - 1) ≠ d.nz - 1) (c : Nat → K) (k : Nat) (hk : k < d.nz) :
    expandCurrent d mi c (enc d ⟨.z, 0, 0, k + 1⟩) = c (enc d ⟨.z, 0, 0, mi k + 1⟩) := by
  have e : ∀ n, enc d ⟨.z, 0, 0, n⟩ = at' d n 0 := fun n => by simp [enc, at']
  have hxy : 0 < d.nx * d.ny := Nat.mul_pos hx hy
  have := nxy_lt d hx
  unfold expandCurrent
  rw [if_pos (fun h => hs h.symm), e, e, expandFrom_at d mi hx hy d.nz c hl.le (k + 1) 0 (by omega),
    if_neg (by omega), if_pos ⟨by omega, by omega, rfl⟩, Nat.add_sub_cancel]

/-- Writes stay inside the array of `n_surf` currents (the overrun of the top plane hits the top boundary surface). -/
theorem C38_in_bounds (d : Dims) (hx : 0 < d.nx) (hy : 0 < d.ny) (iz : Nat) (hz : iz < d.nz) :
    surfEnd d iz < nSurf d := by
  have hxy : 0 < d.nx * d.ny := Nat.mul_pos hx hy
  have h1 : surfEnd d iz ≤ nSurfPlane d * d.nz := Nat.mul_le_mul_left _ hz
  have h2 : nSurf d = nSurfPlane d * d.nz + d.nx * d.ny := by unfold nSurf nSurfPlane; ring
  omega

/-- The claim: radial values follow the macroplane for currents and surface fluxes, axial currents are untouched. -/
def C38_claim (K : Type) : Prop := ∀ (d : Dims) (mi : Nat → Nat), 0 < d.nx → 0 < d.ny → Layout d.nz mi →
  ∀ (c f : Nat → K) (a : Axis) (i j k : Nat), (Face.mk a i j k).Valid d.nx d.ny d.nz →
    (a ≠ .z → expandCurrent d mi c (enc d ⟨a, i, j, k⟩) = c (enc d ⟨a, i, j, mi k⟩)) ∧
    (a = .z → expandCurrent d mi c (enc d ⟨a, i, j, k⟩) = c (enc d ⟨a, i, j, k⟩)) ∧
    (a ≠ .z → expandFlux d mi f (enc d ⟨a, i, j, k⟩) = f (enc d ⟨a, i, j, mi k⟩))

/-- Two planes per macroplane. -/
def halves (k : Nat) : Nat := k / 2

theorem halves_layout (nz : Nat) : Layout nz halves :=
  ⟨rfl, fun k _ => by unfold halves; omega⟩

/-- The claim fails for axial currents: 2 x 2 pins, four planes in two macroplanes; the axial current at the top of
plane 1 in the first column is lost. -/
theorem C38_claim_false : ¬ C38_claim ℚ := by
  intro h
  have h1 := (h ⟨2, 2, 4⟩ halves (by decide) (by decide) (halves_layout 4) (fun s => s) (fun _ => 0) .z 0 0 2
    (by simp [Face.Valid])).2.1 rfl
  have h2 := C38_axial_first ⟨2, 2, 4⟩ halves (by decide) (by decide) (halves_layout 4) (by decide)
    (fun s : Nat => (s : ℚ)) 1 (by decide)
  rw [h2] at h1
  norm_num [enc, nSurfPlane, halves] at h1

/-- The claim also fails for the surface flux, which is left packed in the lower planes. -/
theorem C38_claim_false_flux : ¬ ∀ (d : Dims) (mi : Nat → Nat), 0 < d.nx → 0 < d.ny → Layout d.nz mi →
    ∀ (f : Nat → ℚ) (i j k : Nat), (Face.mk .x i j k).Valid d.nx d.ny d.nz →
      expandFlux d mi f (enc d ⟨.x, i, j, k⟩) = f (enc d ⟨.x, i, j, mi k⟩) := by
  intro h
  have h1 := h ⟨2, 2, 4⟩ halves (by decide) (by decide) (halves_layout 4) (fun s => s) 0 0 3 (by simp [Face.Valid])
  norm_num [expandFlux, enc, nSurfPlane, halves] at h1

/-! ### Area of the expanded currents

During the sweep of macroplane `p` the contributions are multiplied by `dz p`, the height of *plane* number `p`
(moc_current_worker.hpp:188), and at the end those of plane `k` are divided by an area that contains `dz k`. -/

section
variable {K : Type} [Field K]

/-- **C38, current density.**  If the sweep stored `lin p * dz p` on a radial face of macroplane `p`, with `lin p` the
current per unit height, the final current density on plane `k` is the density of its macroplane times
`dz (mi k) / dz k`. -/
theorem C38_density (d : Dims) (mi : Nat → Nat) (hx : 0 < d.nx) (hy : 0 < d.ny) (hl : Layout d.nz mi)
    (c area : Nat → K) (dz lin : Nat → K) (w : K) (a : Axis) (i j k : Nat) (ha : a ≠ .z) (hk : k < d.nz)
    (hv : (Face.mk a i j k).Valid d.nx d.ny d.nz) (hw : w ≠ 0) (hz : dz k ≠ 0)
    (hc : c (enc d ⟨a, i, j, mi k⟩) = lin (mi k) * dz (mi k))
    (harea : area (enc d ⟨a, i, j, k⟩) = w * dz k) :
    normaliseArea d area (expandCurrent d mi c) (enc d ⟨a, i, j, k⟩) = lin (mi k) / w * (dz (mi k) / dz k) := by
  obtain ⟨off, h1, h2, h3, h4, h5⟩ := enc_split d ⟨a, i, j, k⟩ hv
  simp only at h2 h3
  have hmod : enc d ⟨a, i, j, k⟩ % nSurfPlane d = off := by
    rw [h2, at', Nat.add_comm, Nat.add_mul_mod_self_right, Nat.mod_eq_of_lt h1]
  have hdiv : enc d ⟨a, i, j, k⟩ / nSurfPlane d = k := by
    rw [h2, at', Nat.add_comm, Nat.add_mul_div_right _ _ (by omega), Nat.div_eq_of_lt h1]; simp
  unfold normaliseArea
  rw [if_pos ⟨by rw [hmod]; exact h3 ha, by rw [hdiv]; exact hk⟩, harea,
    C38_radial_partial d mi hx hy hl c a i j k ha hk hv, hc]
  field_simp

/-- With equal plane heights the density of the macroplane is reproduced. -/
theorem C38_density_uniform (d : Dims) (mi : Nat → Nat) (hx : 0 < d.nx) (hy : 0 < d.ny) (hl : Layout d.nz mi)
    (c area : Nat → K) (h : K) (lin : Nat → K) (w : K) (a : Axis) (i j k : Nat) (ha : a ≠ .z) (hk : k < d.nz)
    (hv : (Face.mk a i j k).Valid d.nx d.ny d.nz) (hw : w ≠ 0) (hz : h ≠ 0)
    (hc : c (enc d ⟨a, i, j, mi k⟩) = lin (mi k) * h)
    (harea : area (enc d ⟨a, i, j, k⟩) = w * h) :
    normaliseArea d area (expandCurrent d mi c) (enc d ⟨a, i, j, k⟩) = lin (mi k) / w := by
  rw [C38_density d mi hx hy hl c area (fun _ => h) lin w a i j k ha hk hv hw hz hc harea, div_self hz, mul_one]
end

example : expandCurrent ⟨2, 2, 4⟩ halves (fun s => s) (enc ⟨2, 2, 4⟩ ⟨.x, 1, 1, 3⟩)
    = enc ⟨2, 2, 4⟩ ⟨.x, 1, 1, 1⟩ := by decide

example : (Face.mk .x 1 1 3).Valid 2 2 4 := by simp [Face.Valid]

end Verif.Moc.Expand
