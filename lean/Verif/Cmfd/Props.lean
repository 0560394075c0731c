import Verif.Cmfd.Lemmas
import Mathlib.Algebra.Order.Field.Basic
import Mathlib.Algebra.Order.Field.Rat
import Mathlib.Algebra.Field.Rat
import Mathlib.Tactic.FieldSimp
import Mathlib.Tactic.NormNum
import Mathlib.Tactic.Positivity

/-!
# C40: CMFD reproduces the transport solution when nothing changes
-/

namespace Verif.Cmfd

open Verif.Mesh Verif.Mesh.Spec

variable {K : Type} [Field K] [LinearOrder K]

/-- **C40, rows are balances.**  On every mesh, for every coefficient set and every flux, the row of a cell applied to
the flux is removal in the cell plus the outflow of the reconstructed currents through its six faces. -/
theorem C40_row (d : Dims) (w : Widths K) (xsrm dt dh flux : Nat → K) (i j k : Nat)
    (hi : i < d.nx) (hj : j < d.ny) (hk : k < d.nz) :
    rowApply d w xsrm dt dh flux (coarseCell d ⟨i, j, k⟩) =
      vol d w (coarseCell d ⟨i, j, k⟩) * xsrm (coarseCell d ⟨i, j, k⟩) * flux (coarseCell d ⟨i, j, k⟩) +
      (allSurfaces.map fun s => area d w (coarseCell d ⟨i, j, k⟩) s *
        signed s (currentAt d dt dh flux (surf d (coarseCell d ⟨i, j, k⟩) s))).sum :=
  row_eq d w xsrm dt dh flux i j k hi hj hk

/-- **C40, unchanged flux gives back the transport current**, for every `d_tilde`, on every surface whose side fluxes
do not add to zero. -/
theorem C40_reconstruct (dt j fl fr : K) (h : fl + fr ≠ 0) : current dt (dHat dt j fl fr) fl fr = j := by
  unfold current dHat
  rw [if_neg h]
  field_simp
  ring

/-- On surfaces between cells with no flux the current is lost: `d_hat` is not finite and replaced by zero. -/
theorem C40_zero_flux (dt j fl fr : K) (h : fl + fr = 0) : current dt (dHat dt j fl fr) fl fr = -dt * (fr - fl) := by
  unfold current dHat
  rw [if_pos h]
  ring

/-- With currents `J` and positive fluxes from the transport sweep, every surface of the mesh gets its current back. -/
theorem C40_reconstruct_mesh [IsStrictOrderedRing K] (d : Dims) (hx : 0 < d.nx) (hy : 0 < d.ny) (hz : 0 < d.nz)
    (dt J flux : Nat → K) (hpos : ∀ c, c < nPin d → 0 < flux c) (n : Nat) (hn : n < nSurf d) :
    currentAt d dt (dHatAt d dt J flux) flux n = J n := by
  unfold currentAt dHatAt
  refine C40_reconstruct _ _ _ _ (ne_of_gt ?_)
  obtain ⟨h1, h2, h3⟩ := C12_cells_touch_surface d hx hy hz n hn
  have nonneg : ∀ m : Int, (m = -1 ∨ ∃ c : Nat, m = c ∧ c < nPin d) → 0 ≤ side flux m := by
    rintro m (rfl | ⟨c, rfl, hc⟩)
    · simp [side]
    · rw [side_nat]; exact (hpos c hc).le
  have n1 := nonneg _ (h1.imp id (fun ⟨c, a, b, _⟩ => ⟨c, a, b⟩))
  have n2 := nonneg _ (h2.imp id (fun ⟨c, a, b, _⟩ => ⟨c, a, b⟩))
  rcases h1 with h1 | ⟨c, hc, hlt, _⟩
  · rcases h2 with h2 | ⟨c, hc, hlt, _⟩
    · exact absurd ⟨h1, h2⟩ h3
    · have : 0 < side flux (coarseNeighCells d n).2 := by rw [hc, side_nat]; exact hpos c hlt
      linarith
  · have : 0 < side flux (coarseNeighCells d n).1 := by rw [hc, side_nat]; exact hpos c hlt
    linarith

/-- **C40, fixed point.**  If the transport solution is in balance in every cell - removal plus net outflow of the
transport currents equals the source `Q` - then the transport flux solves the CMFD system with that source. -/
theorem C40_fixed_point [IsStrictOrderedRing K] (d : Dims) (w : Widths K) (xsrm dt J flux Q : Nat → K)
    (hpos : ∀ c, c < nPin d → 0 < flux c) (i j k : Nat) (hi : i < d.nx) (hj : j < d.ny) (hk : k < d.nz)
    (hbal : vol d w (coarseCell d ⟨i, j, k⟩) * xsrm (coarseCell d ⟨i, j, k⟩) * flux (coarseCell d ⟨i, j, k⟩) +
      (allSurfaces.map fun s => area d w (coarseCell d ⟨i, j, k⟩) s *
        signed s (J (surf d (coarseCell d ⟨i, j, k⟩) s))).sum = Q (coarseCell d ⟨i, j, k⟩)) :
    rowApply d w xsrm dt (dHatAt d dt J flux) flux (coarseCell d ⟨i, j, k⟩) = Q (coarseCell d ⟨i, j, k⟩) := by
  rw [C40_row d w xsrm dt _ flux i j k hi hj hk, ← hbal]
  congr 2
  refine List.map_congr_left fun s hs => ?_
  obtain ⟨f, hf⟩ := face_exists i j k s (mem_all hs)
  have hlt : surf d (coarseCell d ⟨i, j, k⟩) s < nSurf d := by
    rw [surf_enc d i j k s f hf hi hj hk]
    exact enc_lt d f (faceOf_valid d i j k s f hf hi hj hk)
  rw [C40_reconstruct_mesh d (by omega) (by omega) (by omega) dt J flux hpos _ hlt]

theorem mul2_getD (a b : List K) (i j : Nat) : (mul2 a[i]? b[j]?).getD 0 = a.getD i 0 * b.getD j 0 := by
  rw [List.getD_eq_getElem?_getD, List.getD_eq_getElem?_getD]
  cases a[i]? <;> cases b[j]? <;> simp [mul2]

theorem area_eq (d : Dims) (w : Widths K) (i j k : Nat) (s : Surface) (hi : i < d.nx) (hj : j < d.ny) :
    area d w (coarseCell d ⟨i, j, k⟩) s =
      match s with
      | .EAST => w.dy.getD j 0 * w.dz.getD k 0
      | .WEST => w.dy.getD j 0 * w.dz.getD k 0
      | .NORTH => w.dx.getD i 0 * w.dz.getD k 0
      | .SOUTH => w.dx.getD i 0 * w.dz.getD k 0
      | .TOP => w.dx.getD i 0 * w.dy.getD j 0
      | .BOTTOM => w.dx.getD i 0 * w.dy.getD j 0
      | .INTERNAL => 0 := by
  unfold area coarseAreaCell
  simp only
  rw [pos_cell d i j k hi hj]
  cases s <;> simp only [mul2_getD]
  rfl

open Finset in
/-- **C40, interior currents cancel.**  Summed over all cells, the CMFD operator is total removal plus the outflow
through the six sides of the domain. -/
theorem C40_total (d : Dims) (w : Widths K) (xsrm dt dh flux : Nat → K) :
    ∑ c ∈ range (nPin d), rowApply d w xsrm dt dh flux c =
      (∑ c ∈ range (nPin d), vol d w c * xsrm c * flux c) +
      (∑ k ∈ range d.nz, ∑ j ∈ range d.ny, w.dy.getD j 0 * w.dz.getD k 0 *
        (currentAt d dt dh flux (enc d ⟨.x, d.nx, j, k⟩) - currentAt d dt dh flux (enc d ⟨.x, 0, j, k⟩))) +
      (∑ k ∈ range d.nz, ∑ i ∈ range d.nx, w.dx.getD i 0 * w.dz.getD k 0 *
        (currentAt d dt dh flux (enc d ⟨.y, i, d.ny, k⟩) - currentAt d dt dh flux (enc d ⟨.y, i, 0, k⟩))) +
      (∑ j ∈ range d.ny, ∑ i ∈ range d.nx, w.dx.getD i 0 * w.dy.getD j 0 *
        (currentAt d dt dh flux (enc d ⟨.z, i, j, d.nz⟩) - currentAt d dt dh flux (enc d ⟨.z, i, j, 0⟩))) := by
  set C := currentAt d dt dh flux with hC
  have hrow : ∀ k ∈ range d.nz, ∀ j ∈ range d.ny, ∀ i ∈ range d.nx,
      rowApply d w xsrm dt dh flux (coarseCell d ⟨i, j, k⟩) =
        vol d w (coarseCell d ⟨i, j, k⟩) * xsrm (coarseCell d ⟨i, j, k⟩) * flux (coarseCell d ⟨i, j, k⟩) +
        (w.dy.getD j 0 * w.dz.getD k 0 * (C (enc d ⟨.x, i + 1, j, k⟩) - C (enc d ⟨.x, i, j, k⟩)) +
         w.dx.getD i 0 * w.dz.getD k 0 * (C (enc d ⟨.y, i, j + 1, k⟩) - C (enc d ⟨.y, i, j, k⟩)) +
         w.dx.getD i 0 * w.dy.getD j 0 * (C (enc d ⟨.z, i, j, k + 1⟩) - C (enc d ⟨.z, i, j, k⟩))) := by
    intro k hk j hj i hi
    rw [mem_range] at hi hj hk
    rw [C40_row d w xsrm dt dh flux i j k hi hj hk]
    congr 1
    have e := fun s f hf => surf_enc d i j k s f hf hi hj hk
    simp only [allSurfaces, List.map_cons, List.map_nil, List.sum_cons, List.sum_nil, area_eq d w i j k _ hi hj,
      e .EAST _ rfl, e .NORTH _ rfl, e .WEST _ rfl, e .SOUTH _ rfl, e .TOP _ rfl, e .BOTTOM _ rfl, signed, ← hC]
    simp
    ring
  rw [sum_cells, sum_cells, sum_congr rfl fun k hk => sum_congr rfl fun j hj => sum_congr rfl (hrow k hk j hj)]
  simp only [sum_add_distrib]
  have assoc : ∀ a b c e b' c' e' : K, b = b' → c = c' → e = e' → a + (b + c + e) = a + b' + c' + e' := by
    intro a b c e b' c' e' h1 h2 h3; rw [h1, h2, h3]; ring
  refine assoc _ _ _ _ _ _ _ ?_ ?_ ?_
  · refine sum_congr rfl fun k _ => sum_congr rfl fun j _ => ?_
    rw [← mul_sum, sum_range_sub (fun i => C (enc d ⟨.x, i, j, k⟩))]
  · refine sum_congr rfl fun k _ => ?_
    rw [sum_comm]
    refine sum_congr rfl fun i _ => ?_
    rw [← mul_sum, sum_range_sub (fun j => C (enc d ⟨.y, i, j, k⟩))]
  · rw [sum_comm]
    refine sum_congr rfl fun j _ => ?_
    rw [sum_comm]
    refine sum_congr rfl fun i _ => ?_
    rw [← mul_sum, sum_range_sub (fun k => C (enc d ⟨.z, i, j, k⟩))]

/-- **C40, partial currents** differ by the net current and add to half the surface flux. -/
theorem C40_partial_currents [IsStrictOrderedRing K] (sf j : K) :
    (partialCurrents sf j).1 - (partialCurrents sf j).2 = j ∧
    (partialCurrents sf j).1 + (partialCurrents sf j).2 = sf / 2 := by
  unfold partialCurrents
  constructor <;> ring

/-- **C40, surface flux**: an unchanged flux gives back the transport surface flux; outside fluxes are zero, so
without a left cell `fl = 0`. -/
theorem C40_surface_flux (left : Bool) (st sfc fl fr : K) (h : fl + fr ≠ 0) (hl : left = false → fl = 0) :
    surfaceFlux left st (sHat left st sfc fl fr) fl fr = sfc := by
  cases left
  · have := hl rfl
    subst this
    unfold surfaceFlux sHat
    simp only [zero_add] at h ⊢
    simp
    field_simp
    ring
  · unfold surfaceFlux sHat
    simp
    field_simp
    ring

section
variable [IsStrictOrderedRing K]

/-- Reflective sides do not leak by diffusion, vacuum sides do. -/
theorem C40_boundary (d : Dims) (w : Widths K) (D : Nat → K) (n : Normal) (d2 : K) (hd : 0 < d2) :
    (∃ d1, diffusivity d w D (-1) n .reflect = some d1 ∧ dTilde d1 d2 = 0) ∧
    (∃ d1, diffusivity d w D (-1) n .vacuum = some d1 ∧ dTilde d1 d2 = 2 * d2 / (1 + 4 * d2)) ∧
    diffusivity d w D (-1) n .other = none := by
  refine ⟨⟨0, by simp [diffusivity], by simp [dTilde]⟩, ⟨1 / 2 / 2, by simp [diffusivity], ?_⟩, by simp [diffusivity]⟩
  unfold dTilde
  have : (1 / 2 / 2 + d2 : K) ≠ 0 := by positivity
  have : (1 + 4 * d2 : K) ≠ 0 := by positivity
  rw [div_eq_div_iff (by positivity) (by positivity)]
  ring

/-- The coupling is symmetric, positive between cells, and at most twice the smaller diffusivity. -/
theorem C40_coupling (d1 d2 : K) (h1 : 0 < d1) (h2 : 0 < d2) :
    dTilde d1 d2 = dTilde d2 d1 ∧ 0 < dTilde d1 d2 ∧ dTilde d1 d2 ≤ 2 * d1 ∧ dTilde d1 d2 ≤ 2 * d2 := by
  have h : 0 < d1 + d2 := by positivity
  refine ⟨by unfold dTilde; rw [add_comm]; ring, by unfold dTilde; positivity, ?_, ?_⟩
  · unfold dTilde; rw [div_le_iff₀ h]; nlinarith [mul_pos h1 h1]
  · unfold dTilde; rw [div_le_iff₀ h]; nlinarith [mul_pos h2 h2]
end

/-! ### Sub-planes -/

/-- `mi` numbers consecutive groups of planes. -/
structure Layout (nz nmp : Nat) (mi : Nat → Nat) : Prop where
  zero : mi 0 = 0
  step : ∀ k, k + 1 < nz → mi (k + 1) = mi k ∨ mi (k + 1) = mi k + 1
  last : mi (nz - 1) + 1 = nmp
  pos : 0 < nz

/-- Plane `k` is the lowest of its macroplane. -/
def First (mi : Nat → Nat) (k : Nat) : Prop := k = 0 ∨ mi (k - 1) ≠ mi k

theorem loop_eq (mi : Nat → Nat) (J : Nat → Nat → K) (nz : Nat)
    (hstep : ∀ k, k + 1 < nz → mi (k + 1) = mi k ∨ mi (k + 1) = mi k + 1) (n iz : Nat) (c : Nat → Nat → K)
    (hn : iz + 1 + n = nz) (hinv : ∀ k, k ≤ iz → First mi k → ∀ off, c (mi k) off = J k off)
    (k : Nat) (hk : k < nz) (hf : First mi k) (off : Nat) :
    coarseAxialLoop mi J n (iz + 1) (some (mi iz)) c (mi k) off = J k off := by
  induction n generalizing iz c with
  | zero => unfold coarseAxialLoop; exact hinv k (by omega) hf off
  | succ n ih =>
    have mono : ∀ a b, a ≤ b → b < nz → mi a ≤ mi b := by
      intro a b hab
      induction b with
      | zero => intro _; have : a = 0 := by omega
                subst this; exact le_rfl
      | succ b ihb =>
        intro hb
        rcases Nat.lt_or_ge b a with h | h
        · have : a = b + 1 := by omega
          subst this; exact le_rfl
        · have := ihb h (by omega)
          rcases hstep b hb with e | e <;> omega
    unfold coarseAxialLoop
    by_cases h : mi iz = mi (iz + 1)
    · rw [if_neg (by simp [h]), h]
      refine ih (iz + 1) c (by omega) ?_
      intro k' hk' hf' off'
      rcases Nat.lt_or_ge iz k' with h2 | h2
      · have : k' = iz + 1 := by omega
        subst this
        rcases hf' with hf' | hf'
        · omega
        · exact absurd (by simpa using h) hf'
      · exact hinv k' h2 hf' off'
    · rw [if_pos (by simpa using h)]
      refine ih (iz + 1) _ (by omega) ?_
      intro k' hk' hf' off'
      have hup : mi (iz + 1) = mi iz + 1 := by
        rcases hstep iz (by omega) with e | e
        · exact absurd e.symm h
        · exact e
      rcases Nat.lt_or_ge iz k' with h2 | h2
      · have : k' = iz + 1 := by omega
        subst this
        simp
      · have h3 := mono k' iz h2 (by omega)
        rw [if_neg (by omega)]
        exact hinv k' h2 hf' off'

/-- Transfer to the CMFD mesh: the axial current at the bottom of macroplane `mi k` is that of its lowest plane, and
at the top that of the top of the core. -/
theorem C40_coarse_axial (nz nmp : Nat) (mi : Nat → Nat) (hl : Layout nz nmp mi) (J : Nat → Nat → K) (off : Nat) :
    (∀ k, k < nz → First mi k → coarseAxial nz nmp mi J (mi k) off = J k off) ∧
    coarseAxial nz nmp mi J nmp off = J nz off := by
  have mono : ∀ b, b < nz → mi b ≤ mi (nz - 1) := by
    intro b hb
    have : ∀ n, b + n < nz → mi b ≤ mi (b + n) := by
      intro n
      induction n with
      | zero => intro _; exact le_rfl
      | succ n ih =>
        intro h
        have := ih (by omega)
        rcases hl.step (b + n) (by omega) with e | e <;> rw [← Nat.add_assoc, e] <;> omega
    have h := this (nz - 1 - b) (by omega)
    rwa [show b + (nz - 1 - b) = nz - 1 by omega] at h
  constructor
  · intro k hk hf
    unfold coarseAxial
    have := mono k hk
    have := hl.last
    rw [if_neg (by omega)]
    obtain ⟨n, hn⟩ : ∃ n, nz = n + 1 := ⟨nz - 1, by have := hl.pos; omega⟩
    rw [hn]
    unfold coarseAxialLoop
    rw [if_pos (by simp)]
    refine loop_eq mi J nz hl.step n 0 _ (by omega) ?_ k hk hf off
    intro k' hk' _ off'
    have : k' = 0 := by omega
    subst this
    simp
  · unfold coarseAxial; rw [if_pos rfl]

/-- **C40 with sub-planes (partial).**  An unchanged axial current survives the round trip through the CMFD mesh at
the bottom of every macroplane.  What is missing: the top of the core (`C40_claim`). -/
theorem C40_subplane_partial (nz nmp : Nat) (mi : Nat → Nat) (hl : Layout nz nmp mi) (J : Nat → Nat → K) (k off : Nat)
    (hk : k < nz) (hf : First mi k) : storeAxial nz mi (coarseAxial nz nmp mi J) k off = J k off := by
  unfold storeAxial
  rw [if_pos hk]
  exact (C40_coarse_axial nz nmp mi hl J off).1 k hk hf

open Finset in
/-- Radial currents survive if they are equal on all planes of a macroplane and the height of the macroplane is the
sum of its planes. -/
theorem C40_subplane_radial (nz nmp : Nat) (mi : Nat → Nat) (dz height : Nat → K) (J : Nat → Nat → K)
    (hh : ∀ mp, height mp = ∑ iz ∈ (range nz).filter (fun iz => mi iz = mp), dz iz) (hne : ∀ mp, mp < nmp → height mp ≠ 0)
    (k off : Nat) (hm : mi k < nmp) (hJ : ∀ k', k' < nz → mi k' = mi k → J k' off = J k off) :
    storeRadial mi (coarseRadial nz mi dz height J) k off = J k off := by
  unfold storeRadial coarseRadial
  have e : ∀ iz ∈ (range nz).filter (fun iz => mi iz = mi k), dz iz * J iz off = dz iz * J k off := by
    intro iz hiz
    rw [mem_filter, mem_range] at hiz
    rw [hJ iz hiz.1 hiz.2]
  rw [sum_congr rfl e, ← sum_mul, ← hh]
  have := hne (mi k) hm
  field_simp

/-- The claim: unchanged axial currents survive on the boundaries of all macroplanes, including the top. -/
def C40_claim (K : Type) [Field K] : Prop := ∀ (nz nmp : Nat) (mi : Nat → Nat), Layout nz nmp mi →
  ∀ (J : Nat → Nat → K) (k off : Nat), (k < nz ∧ First mi k ∨ k = nz) →
    storeAxial nz mi (coarseAxial nz nmp mi J) k off = J k off

/-- Whatever the axial current at the top of the core was, CMFD replaces it by zero when there are sub-planes. -/
theorem C40_top_lost (nz : Nat) (mi : Nat → Nat) (C : Nat → Nat → K) (off : Nat) : storeAxial nz mi C nz off = 0 := by
  unfold storeAxial; simp

/-- Inside a macroplane the current is not zero (as the comment in the code intends) but that of its bottom. -/
theorem C40_inside (nz : Nat) (mi : Nat → Nat) (C : Nat → Nat → K) (k k' off : Nat) (hk : k < nz) (hk' : k' < nz)
    (h : mi k' = mi k) : storeAxial nz mi C k' off = storeAxial nz mi C k off := by
  unfold storeAxial; rw [if_pos hk, if_pos hk', h]

theorem C40_claim_false : ¬ C40_claim ℚ := by
  intro h
  have h1 := h 2 1 (fun _ => 0) ⟨rfl, fun _ _ => Or.inl rfl, rfl, by decide⟩ (fun _ _ => 1) 2 0 (Or.inr rfl)
  rw [C40_top_lost] at h1
  norm_num at h1

example : Layout 5 3 (fun k => k / 2) := ⟨rfl, fun k _ => by omega, by decide, by decide⟩

/-- A 2 x 1 x 1 mesh with a current between its cells. -/
example : currentAt ⟨2, 1, 1⟩ (fun _ => (1 : ℚ)) (dHatAt ⟨2, 1, 1⟩ (fun _ => 1) (fun n => n) (fun c => c + 1))
    (fun c => c + 1) 3 = 3 := by decide +kernel

end Verif.Cmfd
