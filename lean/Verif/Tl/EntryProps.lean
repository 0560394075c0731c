import Verif.Tl.Props
import Mathlib.Tactic.NormNum

/-!
# C37: the leakage of each macroplane

`C37_column` fixes the sum over a column; here every entry is tied to the two faces that bound its macroplane.
-/

namespace Verif.Tl

open Verif.Mesh Verif.Mesh.Spec

variable {K : Type} [Field K]

/-- C37: the leakage of a macroplane is the current through the lower face of its lowest plane minus the current through
the upper face of its highest plane, over its height, mixed with the old leakage. -/
theorem C37_entry (d : Dims) (J : Nat → K) (relax : K) (x y : Nat) (hx : x < d.nx) (hy : y < d.ny)
    (mp : MacroPlane K) (old : K) (h1 : mp.izMin < d.nz) (h2 : mp.izMax < d.nz) :
    newTl d J relax x y mp old = some ((1 - relax) * old +
      relax * ((J (enc d ⟨.z, x, y, mp.izMin⟩) - J (enc d ⟨.z, x, y, mp.izMax + 1⟩)) / mp.height)) := by
  unfold newTl
  rw [coarseSurf_enc d x y mp.izMin .BOTTOM _ rfl hx hy h1, coarseSurf_enc d x y mp.izMax .TOP _ rfl hx hy h2]
  simp only [Option.bind_eq_bind, Option.bind_some, Option.pure_def, Option.some.injEq]
  ring

/-- C37: the same for every macroplane of a column, in order. -/
theorem C37_column_entries (d : Dims) (J : Nat → K) (relax : K) (x y : Nat) (hx : x < d.nx) (hy : y < d.ny)
    (l : List (MacroPlane K × K)) (h : ∀ p ∈ l, p.1.izMin < d.nz ∧ p.1.izMax < d.nz) :
    columnTl d J relax x y l = some (l.map fun p => (1 - relax) * p.2 +
      relax * ((J (enc d ⟨.z, x, y, p.1.izMin⟩) - J (enc d ⟨.z, x, y, p.1.izMax + 1⟩)) / p.1.height)) := by
  induction l with
  | nil => rfl
  | cons p l ih =>
    obtain ⟨mp, old⟩ := p
    have h0 := h (mp, old) (by simp)
    rw [columnTl, C37_entry d J relax x y hx hy mp old h0.1 h0.2, ih (fun q hq => h q (by simp [hq]))]
    rfl

/-- C37: without splitting the leakage is simply added, with no removal; with splitting the same happens whenever the
sum is not negative. -/
theorem C37_plain [LinearOrder K] (source tl flux : K) :
    applyPlain source tl = .ok (source + tl) 0 ∧ (0 ≤ source + tl → applySplit source tl flux = .ok (source + tl) 0) := by
  refine ⟨rfl, fun h => ?_⟩
  unfold applySplit
  rw [if_neg (not_lt.mpr h)]

/-- C37: a region is refused exactly for a negative sum and a negative flux. -/
theorem C37_throws [LinearOrder K] (source tl flux : K) :
    applySplit source tl flux = .throws ↔ source + tl < 0 ∧ flux < 0 := by
  unfold applySplit
  simp only
  split
  · split
    · simp_all
    · split <;> simp_all
  · simp_all

example : ∀ p ∈ stack, p.1.izMin < 6 ∧ p.1.izMax < 6 := by decide +kernel

end Verif.Tl
