import Verif.Cmfd.DiffusionModel
import Verif.Cmfd.SystemProps
import Mathlib.Algebra.Order.BigOperators.Group.Finset
import Mathlib.Algebra.Order.Ring.Rat
import Mathlib.Tactic.IntervalCases

/-!
# C57 and C58: the CMFD system without transport data is a diffusion problem
-/

namespace Verif.Cmfd

open Verif.Mesh Verif.Mesh.Spec

variable {K : Type} [Field K] [LinearOrder K] [IsStrictOrderedRing K]

/-- **C57, between cells.**  The stored current is that of diffusion through both half cells with the stored surface
flux between them. -/
theorem C57_interior (d1 d2 fl fr : K) (h1 : 0 < d1) (h2 : 0 < d2) :
    let r := result (coefs d1 d2 none true fl fr) true fl fr
    r.current = 2 * d1 * (fl - r.flux) ∧ r.current = 2 * d2 * (r.flux - fr) := by
  simp only [result, coefs, current, surfaceFlux, sTilde, if_pos h1, dTilde, if_true]
  constructor <;> field_simp <;> ring

/-- **C57, reflective sides.**  No net current; the surface flux is that of the cell; as much comes in as goes out. -/
theorem C57_reflect (x f : K) (hx : 0 < x) :
    let lo := result (coefs (0 / 2) x none false 0 f) false 0 f
    let hi := result (coefs x (0 / 2) none true f 0) true f 0
    (lo.current = 0 ∧ lo.flux = f ∧ lo.up = lo.down) ∧ (hi.current = 0 ∧ hi.flux = f ∧ hi.up = hi.down) := by
  have hne : x ≠ 0 := hx.ne'
  constructor
  · simp only [result, coefs, current, surfaceFlux, sTilde, dTilde, partialCurrents]
    simp [hne]
  · simp only [result, coefs, current, surfaceFlux, sTilde, dTilde, partialCurrents]
    simp [hne, hx]

/-- **C57, vacuum on the high side (partial).**  The current through the surface is that of the half cell and nothing
comes in.  What is missing: vacuum on the low side, `C57_claim_false`. -/
theorem C57_vacuum_high_partial (x f : K) (hx : 0 < x) :
    let r := result (coefs x (1 / 2 / 2) none true f 0) true f 0
    r.current = 2 * x * (f - r.flux) ∧ r.down = 0 ∧ r.up = r.flux / 2 ∧ (0 ≤ f → 0 ≤ r.up) := by
  have h : 0 < x + 1 / 2 / 2 := by positivity
  have hu : (result (coefs x (1 / 2 / 2) none true f 0) true f 0).up = x / (x + 1 / 2 / 2) * f / 2 := by
    simp only [result, coefs, current, surfaceFlux, sTilde, dTilde, partialCurrents, if_pos hx, if_true]
    field_simp
    ring
  refine ⟨?_, ?_, ?_, ?_⟩
  · simp only [result, coefs, current, surfaceFlux, sTilde, dTilde, if_pos hx, if_true]
    field_simp
    ring
  · simp only [result, coefs, current, surfaceFlux, sTilde, dTilde, partialCurrents, if_pos hx, if_true]
    field_simp
    ring
  · rw [hu]
    simp only [result, coefs, surfaceFlux, sTilde, if_pos hx, if_true]
    ring
  · intro hf; rw [hu]; positivity

/-- The claim for both sides: nothing comes in through a vacuum side. -/
def C57_claim (K : Type) [Field K] [LinearOrder K] : Prop := ∀ x f : K, 0 < x → 0 ≤ f →
  (result (coefs x (1 / 2 / 2) none true f 0) true f 0).down = 0 ∧
  (result (coefs (1 / 2 / 2) x none false 0 f) false 0 f).up = 0

/-- What the low side gets: the weight of the outside instead of that of the cell, hence an incoming current whose sign
is that of `1/4` minus the diffusivity of the cell. -/
theorem C57_vacuum_low (x f : K) (hx : 0 < x) :
    let r := result (coefs (1 / 2 / 2) x none false 0 f) false 0 f
    r.flux = 1 / 4 / (1 / 4 + x) * f ∧ r.up = 1 / 4 * (1 / 4 - x) / (1 / 4 + x) * f := by
  have h : 0 < (1 / 2 / 2 : K) := by norm_num
  have h4 : 0 < 1 / 4 + x := by positivity
  simp only [result, coefs, current, surfaceFlux, sTilde, dTilde, partialCurrents, if_pos h]
  constructor
  · norm_num
  · norm_num
    field_simp
    ring

theorem C57_claim_false : ¬ C57_claim ℚ := by
  intro h
  have := (h 1 1 (by norm_num) (by norm_num)).2
  rw [(C57_vacuum_low (1 : ℚ) 1 (by norm_num)).2] at this
  norm_num at this

/-- **C57 with transport data**: as long as the flux is unchanged, current and surface flux are given back whatever the
diffusivities (both sides of the domain). -/
theorem C57_data (d1 d2 j sf fl fr : K) (left : Bool) (h : fl + fr ≠ 0) (hl : left = false → fl = 0) :
    let r := result (coefs d1 d2 (some (j, sf)) left fl fr) left fl fr
    r.current = j ∧ r.flux = sf ∧ r.up - r.down = j ∧ r.up + r.down = sf / 2 := by
  have e1 := C40_reconstruct (dTilde d1 d2) j fl fr h
  have e2 := C40_surface_flux left (sTilde d1 d2) sf fl fr h hl
  have e3 := C40_partial_currents sf j
  simp only [result, coefs, e1, e2, e3, true_and]

/-! ### C58 -/

/-- Positive widths for every cell of the mesh. -/
def PosWidths (d : Dims) (w : Widths K) : Prop :=
  (∀ i, i < d.nx → 0 < w.dx.getD i 0) ∧ (∀ j, j < d.ny → 0 < w.dy.getD j 0) ∧ (∀ k, k < d.nz → 0 < w.dz.getD k 0)

theorem area_pos (d : Dims) (w : Widths K) (hw : PosWidths d w) (i j k : Nat) (hi : i < d.nx) (hj : j < d.ny)
    (hk : k < d.nz) (s : Surface) : 0 ≤ area d w (coarseCell d ⟨i, j, k⟩) s := by
  have h1 := (hw.1 i hi).le
  have h2 := (hw.2.1 j hj).le
  have h3 := (hw.2.2 k hk).le
  rw [area_eq d w i j k s hi hj]
  cases s <;> simp only <;> positivity

theorem cell_cases (d : Dims) (c : Nat) (hc : c < nPin d) :
    ∃ i j k, i < d.nx ∧ j < d.ny ∧ k < d.nz ∧ c = coarseCell d ⟨i, j, k⟩ :=
  ⟨_, _, _, (pos_lt d c hc).1, (pos_lt d c hc).2.1, (pos_lt d c hc).2.2, (cell_pos d c).symm⟩

theorem list_sum_nonneg (l : List K) (h : ∀ x ∈ l, 0 ≤ x) : 0 ≤ l.sum := by
  induction l with
  | nil => simp
  | cons a l ih =>
    rw [List.sum_cons]
    exact add_nonneg (h a (by simp)) (ih fun x hx => h x (by simp [hx]))

theorem list_sum_nonpos (l : List K) (h : ∀ x ∈ l, x ≤ 0) : l.sum ≤ 0 := by
  induction l with
  | nil => simp
  | cons a l ih =>
    rw [List.sum_cons]
    exact add_nonpos (h a (by simp)) (ih fun x hx => h x (by simp [hx]))

/-- **C58, signs.**  Without corrections and with non-negative couplings, the elements off the diagonal are not
positive. -/
theorem C58_offdiag (d : Dims) (w : Widths K) (hw : PosWidths d w) (xsrm dt : Nat → K) (hdt : ∀ n, 0 ≤ dt n)
    (c m : Nat) (hc : c < nPin d) (hm : m < nPin d) (hne : m ≠ c) :
    entry d w xsrm dt (fun _ => 0) c m ≤ 0 := by
  obtain ⟨i, j, k, hi, hj, hk, rfl⟩ := cell_cases d c hc
  rw [entry_eq d w xsrm dt _ i j k hi hj hk m hm, if_neg hne, zero_add]
  apply list_sum_nonpos
  intro x hx
  obtain ⟨s, hs, rfl⟩ := List.mem_map.mp hx
  split
  · have h1 := area_pos d w hw i j k hi hj hk s
    have h2 := hdt (surf d (coarseCell d ⟨i, j, k⟩) s)
    have h3 : signed s (0 : K) = 0 := by unfold signed; split <;> simp
    rw [h3, zero_sub, mul_neg]
    exact neg_nonpos.mpr (mul_nonneg h1 h2)
  · exact le_rfl

/-- **C58, row sums.**  Without corrections the elements of a row add up to at least volume times removal. -/
theorem C58_row_sum (d : Dims) (w : Widths K) (hw : PosWidths d w) (xsrm dt : Nat → K) (hdt : ∀ n, 0 ≤ dt n)
    (i j k : Nat) (hi : i < d.nx) (hj : j < d.ny) (hk : k < d.nz) :
    w.dx.getD i 0 * w.dy.getD j 0 * w.dz.getD k 0 * xsrm (coarseCell d ⟨i, j, k⟩) ≤
      ∑ m ∈ Finset.range (nPin d), entry d w xsrm dt (fun _ => 0) (coarseCell d ⟨i, j, k⟩) m := by
  have h := C40_row d w xsrm dt (fun _ => 0) (fun _ => 1) i j k hi hj hk
  unfold rowApply at h
  simp only [mul_one] at h
  rw [h, vol_eq d w i j k hi hj]
  refine le_add_of_nonneg_right (list_sum_nonneg _ fun x hx => ?_)
  obtain ⟨s, hs, rfl⟩ := List.mem_map.mp hx
  refine mul_nonneg (area_pos d w hw i j k hi hj hk s) ?_
  rw [outflow d dt _ _ i j k s (mem_all hs) hi hj hk]
  have h3 : signed s (0 : K) = 0 := by unfold signed; split <;> simp
  have h2 := hdt (surf d (coarseCell d ⟨i, j, k⟩) s)
  rw [h3]
  unfold side
  split <;> linarith

/-- **C58, non-negative solutions.**  Without corrections, with non-negative couplings and positive removal, every
solution of the system with a non-negative source is non-negative. -/
theorem C58_nonneg (d : Dims) (w : Widths K) (hw : PosWidths d w) (xsrm dt : Nat → K) (hdt : ∀ n, 0 ≤ dt n)
    (hrm : ∀ c, c < nPin d → 0 < xsrm c) (flux : Nat → K)
    (hq : ∀ c, c < nPin d → 0 ≤ rowApply d w xsrm dt (fun _ => 0) flux c) (c : Nat) (hc : c < nPin d) :
    0 ≤ flux c := by
  obtain ⟨m, hm, hmin⟩ := Finset.exists_min_image (Finset.range (nPin d)) flux ⟨c, Finset.mem_range.mpr hc⟩
  by_contra hneg
  have hmneg : flux m < 0 := lt_of_le_of_lt (hmin c (Finset.mem_range.mpr hc)) (not_le.mp hneg)
  have hm' := Finset.mem_range.mp hm
  obtain ⟨i, j, k, hi, hj, hk, e⟩ := cell_cases d m hm'
  have hs := C58_row_sum d w hw xsrm dt hdt i j k hi hj hk
  rw [← e] at hs
  have hpos : 0 < w.dx.getD i 0 * w.dy.getD j 0 * w.dz.getD k 0 * xsrm m := by
    have h1 := hw.1 i hi
    have h2 := hw.2.1 j hj
    have h3 := hw.2.2 k hk
    have h4 := hrm m hm'
    positivity
  have hle : rowApply d w xsrm dt (fun _ => 0) flux m ≤
      (∑ x ∈ Finset.range (nPin d), entry d w xsrm dt (fun _ => 0) m x) * flux m := by
    unfold rowApply
    rw [Finset.sum_mul]
    refine Finset.sum_le_sum fun x hx => ?_
    by_cases hxm : x = m
    · rw [hxm]
    · exact mul_le_mul_of_nonpos_left (hmin x hx)
        (C58_offdiag d w hw xsrm dt hdt m x hm' (Finset.mem_range.mp hx) hxm)
  have := hq m hm'
  have h5 : (∑ x ∈ Finset.range (nPin d), entry d w xsrm dt (fun _ => 0) m x) * flux m < 0 :=
    mul_neg_of_pos_of_neg (lt_of_lt_of_le hpos hs) hmneg
  linarith

/-- **C58, one solution.**  Under the same conditions two fluxes with the same source are equal. -/
theorem C58_unique (d : Dims) (w : Widths K) (hw : PosWidths d w) (xsrm dt : Nat → K) (hdt : ∀ n, 0 ≤ dt n)
    (hrm : ∀ c, c < nPin d → 0 < xsrm c) (f g : Nat → K)
    (h : ∀ c, c < nPin d → rowApply d w xsrm dt (fun _ => 0) f c = rowApply d w xsrm dt (fun _ => 0) g c)
    (c : Nat) (hc : c < nPin d) : f c = g c := by
  have lin : ∀ u v : Nat → K, ∀ c, rowApply d w xsrm dt (fun _ => 0) (fun x => u x - v x) c =
      rowApply d w xsrm dt (fun _ => 0) u c - rowApply d w xsrm dt (fun _ => 0) v c := by
    intro u v c
    unfold rowApply
    simp only [mul_sub, Finset.sum_sub_distrib]
  have h1 := C58_nonneg d w hw xsrm dt hdt hrm (fun x => f x - g x) (fun x hx => by rw [lin, h x hx, sub_self]) c hc
  have h2 := C58_nonneg d w hw xsrm dt hdt hrm (fun x => g x - f x) (fun x hx => by rw [lin, h x hx, sub_self]) c hc
  linarith

theorem diffusivity_nonneg (d : Dims) (w : Widths K) (hw : PosWidths d w) (D : Nat → K)
    (hD : ∀ c, c < nPin d → 0 < D c) (m : Int) (hm : m = -1 ∨ ∃ c : Nat, m = c ∧ c < nPin d) (n : Normal) (bc : BCType)
    (hbc : bc ≠ .other) : ∃ x, diffusivity d w D m n bc = some x ∧ 0 ≤ x := by
  rcases hm with rfl | ⟨c, rfl, hc⟩
  · unfold diffusivity
    rw [if_neg (by omega)]
    cases bc
    · exact ⟨_, rfl, by norm_num⟩
    · exact ⟨_, rfl, by norm_num⟩
    · exact absurd rfl hbc
  · obtain ⟨i, j, k, hi, hj, hk, rfl⟩ := cell_cases d c hc
    obtain ⟨h1, h2, h3⟩ := C40_diffusivity d w D i j k hi hj bc
    have p := hD _ hc
    cases n
    · exact ⟨_, h1, (div_pos p (hw.1 i hi)).le⟩
    · exact ⟨_, h2, (div_pos p (hw.2.1 j hj)).le⟩
    · exact ⟨_, h3, (div_pos p (hw.2.2 k hk)).le⟩

/-- **C58, couplings.**  With positive diffusion coefficients and reflective or vacuum sides no exception is raised and
every coupling is non-negative. -/
theorem C58_couplings (d : Dims) (hx : 0 < d.nx) (hy : 0 < d.ny) (hz : 0 < d.nz) (w : Widths K) (hw : PosWidths d w)
    (D : Nat → K) (hD : ∀ c, c < nPin d → 0 < D c) (bc : Normal → Bool → BCType) (hbc : ∀ n b, bc n b ≠ .other)
    (n : Nat) (hn : n < nSurf d) : ∃ x, dTildeAt d w D bc n = some x ∧ 0 ≤ x := by
  obtain ⟨h1, h2, _⟩ := C12_cells_touch_surface d hx hy hz n hn
  obtain ⟨x1, e1, p1⟩ := diffusivity_nonneg d w hw D hD (coarseNeighCells d n).1
    (h1.imp id fun ⟨c, a, b, _⟩ => ⟨c, a, b⟩) (surfaceNormal d n) _ (hbc (surfaceNormal d n) false)
  obtain ⟨x2, e2, p2⟩ := diffusivity_nonneg d w hw D hD (coarseNeighCells d n).2
    (h2.imp id fun ⟨c, a, b, _⟩ => ⟨c, a, b⟩) (surfaceNormal d n) _ (hbc (surfaceNormal d n) true)
  refine ⟨dTilde x1 x2, ?_, ?_⟩
  · unfold dTildeAt
    simp only [e1, e2]
    rfl
  · unfold dTilde; positivity

/-- **C58, symmetry.**  Without corrections the matrix is symmetric. -/
theorem C58_symmetric (d : Dims) (w : Widths K) (xsrm dt : Nat → K) (c m : Nat) (hc : c < nPin d) (hm : m < nPin d) :
    entry d w xsrm dt (fun _ => 0) c m = entry d w xsrm dt (fun _ => 0) m c := by
  by_cases hne : c = m
  · rw [hne]
  have hst : stored d c m = stored d m c := by
    unfold stored
    rw [show (c == m) = (m == c) from Bool.beq_comm, Bool.or_assoc, Bool.or_assoc]
    congr 1
    exact Bool.or_comm _ _
  unfold entry
  rw [hst, if_neg hne, if_neg (Ne.symm hne)]
  by_cases h : stored d m c = true
  · rw [if_pos h, if_pos h]
    have hex : ∃ s, s ∈ allSurfaces ∧ coarseNeighbor d c s = (m : Int) := by
      rw [← hst] at h
      unfold stored at h
      simp only [Bool.or_eq_true, List.any_eq_true, beq_iff_eq] at h
      rcases h with (h | h) | ⟨s, hs, h⟩
      · exact absurd h hne
      · exact h
      · obtain ⟨i, j, k, hi, hj, hk, e⟩ := cell_cases d m hm
        rw [e] at h
        have := C14_step_back d i j k s (mem_all hs) hi hj hk c h
        refine ⟨opposite s, all_mem ?_, by rw [this.1, ← e]⟩
        have := mem_all hs
        cases s <;> simp [opposite] at this ⊢
    obtain ⟨s, hs, hsm⟩ := hex
    obtain ⟨i, j, k, hi, hj, hk, ec⟩ := cell_cases d c hc
    obtain ⟨i', j', k', hi', hj', hk', em⟩ := cell_cases d m hm
    have hs' := mem_all hs
    have hso : opposite s ≠ .INTERNAL := by cases s <;> simp [opposite] at hs' ⊢
    rw [ec] at hsm
    have hb := (C14_step_back d i j k s hs' hi hj hk m hsm)
    have i1 := C14_interface d i j k s hs' hi hj m hsm
    have hb1 := hb.1
    rw [em] at hb1
    have i2 := C14_interface d i' j' k' (opposite s) hso hi' hj' _ hb1
    rw [← ec] at i1
    rw [← em, ← ec] at i2
    unfold offDiag
    rw [i1, i2]
    have hsurf : coarseSurf d c s = coarseSurf d m (opposite s) := by
      have := hb.2.1
      rw [← ec] at this
      exact this.symm
    have harea : area d w c s = area d w m (opposite s) := by
      have hnb := C14_neighbour d i j k s hs' hi hj
      rw [hsm] at hnb
      rw [ec, em, area_eq d w i j k s hi hj, area_eq d w i' j' k' (opposite s) hi' hj']
      have cellinj : ∀ a b c' : Nat, a < d.nx → b < d.ny → ((m : Nat) : Int) = idx d.nx d.ny (some (a, b, c')) →
          a = i' ∧ b = j' ∧ c' = k' := by
        intro a b c' ha hb' hh
        have : coarseCell d ⟨a, b, c'⟩ = coarseCell d ⟨i', j', k'⟩ := by
          rw [← em, C10_natural_order]; exact (Int.ofNat.inj hh).symm
        have q := congrArg (coarsePosition d) this
        rw [pos_cell d a b c' ha hb', pos_cell d i' j' k' hi' hj'] at q
        exact ⟨congrArg Pos.x q, congrArg Pos.y q, congrArg Pos.z q⟩
      cases s <;> simp only [adjacent] at hnb <;> simp only [opposite]
      all_goals first
        | exact absurd rfl hs'
        | (split at hnb
           · obtain ⟨q1, q2, q3⟩ := cellinj _ _ _ (by omega) (by omega) hnb
             simp only [← q1, ← q2, ← q3]
           · simp [idx] at hnb)
    have hsg : ∀ s : Surface, signed s (0 : K) = 0 := fun s => by unfold signed; split <;> simp
    simp only [hsg, hsurf, harea]
  · rw [if_neg h, if_neg h]

/-- Two cells of different width, reflective below and vacuum above. -/
def twoCells : Widths ℚ := ⟨[1, 2], [1], [1]⟩

example : PosWidths ⟨2, 1, 1⟩ twoCells ∧
    (∀ c, c < nPin ⟨2, 1, 1⟩ → 0 ≤ rowApply ⟨2, 1, 1⟩ twoCells (fun _ => 1) (fun n => if n = 3 then 1/2 else 0) (fun _ => 0)
      (fun c => if c = 0 then 3 else 1) c) := by
  refine ⟨⟨?_, ?_, ?_⟩, ?_⟩
  · intro i hi; simp only at hi; interval_cases i <;> simp [twoCells]
  · intro i hi; simp only at hi; interval_cases i; simp [twoCells]
  · intro i hi; simp only at hi; interval_cases i; simp [twoCells]
  · intro c hc
    have : c < 2 := hc
    interval_cases c <;> decide +kernel

end Verif.Cmfd
