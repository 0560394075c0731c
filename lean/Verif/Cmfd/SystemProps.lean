import Verif.Cmfd.Props

/-!
# C40: the rows of the CMFD system in terms of cells, faces and widths

`C40_row` speaks of areas, volumes and surface numbers through the functions of the code; here they are spelled out.
-/

namespace Verif.Cmfd

open Verif.Mesh Verif.Mesh.Spec

variable {K : Type} [Field K] [LinearOrder K]

theorem vol_eq (d : Dims) (w : Widths K) (i j k : Nat) (hi : i < d.nx) (hj : j < d.ny) :
    vol d w (coarseCell d ⟨i, j, k⟩) = w.dx.getD i 0 * w.dy.getD j 0 * w.dz.getD k 0 := by
  unfold vol coarseVolume
  simp only
  rw [pos_cell d i j k hi hj]
  simp only [List.getD_eq_getElem?_getD]
  cases w.dx[i]? <;> cases w.dy[j]? <;> cases w.dz[k]? <;> simp

/-- C40: the row of cell `(i, j, k)` applied to a flux is volume times removal times flux plus, along each axis, the
area times the difference of the currents through the two faces. -/
theorem C40_row_faces (d : Dims) (w : Widths K) (xsrm dt dh flux : Nat → K) (i j k : Nat)
    (hi : i < d.nx) (hj : j < d.ny) (hk : k < d.nz) :
    rowApply d w xsrm dt dh flux (coarseCell d ⟨i, j, k⟩) =
      w.dx.getD i 0 * w.dy.getD j 0 * w.dz.getD k 0 * xsrm (coarseCell d ⟨i, j, k⟩) * flux (coarseCell d ⟨i, j, k⟩) +
      w.dy.getD j 0 * w.dz.getD k 0 *
        (currentAt d dt dh flux (enc d ⟨.x, i + 1, j, k⟩) - currentAt d dt dh flux (enc d ⟨.x, i, j, k⟩)) +
      w.dx.getD i 0 * w.dz.getD k 0 *
        (currentAt d dt dh flux (enc d ⟨.y, i, j + 1, k⟩) - currentAt d dt dh flux (enc d ⟨.y, i, j, k⟩)) +
      w.dx.getD i 0 * w.dy.getD j 0 *
        (currentAt d dt dh flux (enc d ⟨.z, i, j, k + 1⟩) - currentAt d dt dh flux (enc d ⟨.z, i, j, k⟩)) := by
  rw [C40_row d w xsrm dt dh flux i j k hi hj hk, vol_eq d w i j k hi hj]
  have e := fun s f hf => surf_enc d i j k s f hf hi hj hk
  simp only [allSurfaces, List.map_cons, List.map_nil, List.sum_cons, List.sum_nil, area_eq d w i j k _ hi hj,
    e .EAST _ rfl, e .NORTH _ rfl, e .WEST _ rfl, e .SOUTH _ rfl, e .TOP _ rfl, e .BOTTOM _ rfl, signed]
  simp
  ring

/-- Flux of a cell given by position; zero outside. -/
def cellFlux (d : Dims) (flux : Nat → K) : Option (Nat × Nat × Nat) → K
  | some (i, j, k) => flux (i + d.nx * j + d.nx * d.ny * k)
  | none => 0

/-- C40: the current through a face, positive towards higher positions, is the coupling times the drop of the flux from
the cell below to the cell above plus the correction times their sum. -/
theorem C40_current (d : Dims) (dt dh flux : Nat → K) (f : Face) (hv : f.Valid d.nx d.ny d.nz) :
    currentAt d dt dh flux (enc d f) =
      dt (enc d f) * (cellFlux d flux (below f) - cellFlux d flux (above d.nx d.ny d.nz f)) +
      dh (enc d f) * (cellFlux d flux (below f) + cellFlux d flux (above d.nx d.ny d.nz f)) := by
  have h : ∀ c, side flux (idx d.nx d.ny c) = cellFlux d flux c := by
    rintro (_ | ⟨i, j, k⟩)
    · simp [idx, side, cellFlux]
    · rw [side_idx]
      unfold cellFlux coarseCell
      congr 1
      simp only
      ring
  unfold currentAt current
  rw [coarseNeighCells_enc d f hv, h, h]
  ring

/-- C40: the diffusivity of a cell across a face is its diffusion coefficient over its width along the axis. -/
theorem C40_diffusivity (d : Dims) (w : Widths K) (D : Nat → K) (i j k : Nat) (hi : i < d.nx) (hj : j < d.ny)
    (bc : BCType) :
    diffusivity d w D (coarseCell d ⟨i, j, k⟩ : Nat) .X bc = some (D (coarseCell d ⟨i, j, k⟩) / w.dx.getD i 0) ∧
    diffusivity d w D (coarseCell d ⟨i, j, k⟩ : Nat) .Y bc = some (D (coarseCell d ⟨i, j, k⟩) / w.dy.getD j 0) ∧
    diffusivity d w D (coarseCell d ⟨i, j, k⟩ : Nat) .Z bc = some (D (coarseCell d ⟨i, j, k⟩) / w.dz.getD k 0) := by
  unfold diffusivity
  rw [if_pos (by omega), if_pos (by omega), if_pos (by omega)]
  simp only [Int.toNat_natCast, thick, cellThickness, pos_cell d i j k hi hj, List.getD_eq_getElem?_getD]
  exact ⟨trivial, trivial, trivial⟩

/-- C40: the coupling between two cells is that of diffusion through two half cells: with one flux on the face, the
same current flows through both halves. -/
theorem C40_harmonic [IsStrictOrderedRing K] (d1 d2 fl fr : K) (h1 : 0 < d1) (h2 : 0 < d2) :
    ∃ fs, 2 * d1 * (fl - fs) = dTilde d1 d2 * (fl - fr) ∧ 2 * d2 * (fs - fr) = dTilde d1 d2 * (fl - fr) := by
  refine ⟨(d1 * fl + d2 * fr) / (d1 + d2), ?_, ?_⟩ <;> unfold dTilde <;> field_simp <;> ring

example : (⟨.x, 1, 0, 0⟩ : Face).Valid 2 1 1 ∧
    currentAt ⟨2, 1, 1⟩ (fun _ => 3) (fun _ => 1) (fun c => if c = 0 then (5 : ℚ) else 2) (enc ⟨2, 1, 1⟩ ⟨.x, 1, 0, 0⟩) = 16 := by
  refine ⟨by simp [Face.Valid], by decide +kernel⟩

end Verif.Cmfd
