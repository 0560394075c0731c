import Mathlib.Order.Basic

/-!
# Model of the cross-section mesh construction (src/core/xs_mesh.cpp:27-117)
-/

namespace Verif.XS

/-- The part of a pin the constructor looks at: for each cross-section region of the pin mesh its material id
(`mat_ids()`) and number of flat source regions (`n_fsrs(ixsreg)`).  core/pin.cpp checks that both have the same
length. -/
abbrev Pin := List (Int × Nat)

/-- `std::map<int, VecI>` as the list of its entries in key order. -/
abbrev FsrMap := List (Int × List Nat)

/-- xs_mesh.cpp:54 and 68 `fsr_map[mat_id].push_back(ireg)`. -/
def FsrMap.push : FsrMap → Int → Nat → FsrMap
  | [], k, r => [(k, [r])]
  | (k', v) :: t, k, r =>
    if k = k' then (k', v ++ [r]) :: t
    else if k < k' then (k, [r]) :: (k', v) :: t
    else (k', v) :: FsrMap.push t k r

/-- xs_mesh.cpp:46-59 (whole mesh) and 60-74 (macroplanes): the loops over pins, cross-section regions of the pin
and flat source regions, with the running counter `ireg`. -/
def fsrMap (pins : List Pin) : FsrMap × Nat :=
  pins.foldl (fun acc pin =>
    pin.foldl (fun acc m =>
      (List.range m.2).foldl (fun (acc : FsrMap × Nat) _ => (acc.1.push m.1 acc.2, acc.2 + 1)) acc) acc) ([], 0)

/-- What xs_mesh.cpp:86-116 stores per cross-section region: the material data and the list of regions. -/
structure XsRegion (M : Type) where
  mat : M
  regs : List Nat

/-- xs_mesh.cpp:92-117: entry `imat` gets the cross sections of `mat_lib[mat_ids[imat]]` and the region list of the
`imat`-th map entry. -/
def regions {M : Type} (lib : Int → M) (pins : List Pin) : List (XsRegion M) :=
  let m := (fsrMap pins).1
  let matIds := m.map (·.1)
  (List.range m.length).map fun imat =>
    { mat := lib (matIds[imat]?.getD 0), regs := (m[imat]?.map (·.2)).getD [] }

/-- xs_mesh.cpp:98 `n_reg_expanded_`. -/
def nRegExpanded (pins : List Pin) : Nat := ((fsrMap pins).1.map (·.2.length)).foldl (· + ·) 0

end Verif.XS
