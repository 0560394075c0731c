import Verif.XS.PinMapModel
import Verif.Core.PlanesProps
import Verif.Mesh.Lemmas
import Mathlib.Tactic.Ring
import Mathlib.Data.List.Nodup
import Mathlib.Tactic.Linarith
import Mathlib.Algebra.Order.Ring.Rat

/-!
# C96: regions of the homogenised cross-section mesh
-/

namespace Verif.XS.PinMap

open Verif.Core

variable {K : Type}

theorem addPlane_eq (n : Nat) (loc : Nat → Nat) (s : Mesh) (m : MacroPlane K) :
    addPlane n loc s m = { regions := s.regions ++ (List.range n).map (cells n loc m)
                           nExpanded := s.nExpanded + n * (m.izMax + 1 - m.izMin).toNat
                           state := s.state } := by
  unfold addPlane
  have key : ∀ k, (List.range k).foldl (fun s j =>
      let ireg := cells n loc m j
      { s with regions := s.regions ++ [ireg], nExpanded := s.nExpanded + ireg.length }) s =
      { regions := s.regions ++ (List.range k).map (cells n loc m)
        nExpanded := s.nExpanded + k * (m.izMax + 1 - m.izMin).toNat
        state := s.state } := by
    intro k
    induction k with
    | zero => simp
    | succ k ih =>
      rw [List.range_succ, List.foldl_append, ih]
      simp only [List.foldl_cons, List.foldl_nil, List.map_append, List.map_cons, List.map_nil, List.append_assoc]
      congr 1
      simp only [cells, List.length_map, List.length_range]
      ring
  exact key n

theorem construct_eq (n : Nat) (loc : Nat → Nat) (planes : List (MacroPlane K)) :
    construct n loc planes = { regions := planes.flatMap fun m => (List.range n).map (cells n loc m)
                               nExpanded := (planes.map fun m => n * (m.izMax + 1 - m.izMin).toNat).sum
                               state := 0 } := by
  unfold construct
  have key : ∀ (s : Mesh), planes.foldl (addPlane n loc) s =
      { regions := s.regions ++ planes.flatMap fun m => (List.range n).map (cells n loc m)
        nExpanded := s.nExpanded + (planes.map fun m => n * (m.izMax + 1 - m.izMin).toNat).sum
        state := s.state } := by
    induction planes with
    | nil => intro s; simp
    | cons m ms ih =>
      intro s
      rw [List.foldl_cons, ih, addPlane_eq]
      simp only [List.flatMap_cons, List.map_cons, List.sum_cons, List.append_assoc, Nat.add_assoc]
  rw [key]
  simp

/-- The region of pin `j` of macroplane `p`. -/
theorem region_at (n : Nat) (loc : Nat → Nat) (planes : List (MacroPlane K)) (p j : Nat) (m : MacroPlane K) (hm : planes[p]? = some m) (hj : j < n) :
    (construct n loc planes).regions[p * n + j]? = some (cells n loc m j) := by
  rw [construct_eq]
  dsimp only
  rw [Verif.Mesh.getElem?_flatMap_uniform _ n (fun a => by simp) planes p j hj m hm, List.getElem?_map, List.getElem?_range hj]
  rfl

theorem region_len (n : Nat) (loc : Nat → Nat) (planes : List (MacroPlane K)) : (construct n loc planes).regions.length = planes.length * n := by
  rw [construct_eq]
  exact Verif.Mesh.length_flatMap_uniform _ n (fun a => by simp) planes

theorem mem_cells (n : Nat) (loc : Nat → Nat) (m : MacroPlane K) (j c : Nat) (hn : ∀ j, j < n → loc j < n) (hj : j < n) :
    c ∈ cells n loc m j ↔ (m.izMin : Int) ≤ (c / n : Nat) ∧ ((c / n : Nat) : Int) ≤ m.izMax ∧ c % n = loc j := by
  have hl := hn j hj
  unfold cells
  simp only [List.mem_map, List.mem_range]
  constructor
  · rintro ⟨k, hk, rfl⟩
    rw [Nat.mul_add_div (by omega), Nat.div_eq_of_lt hl, Nat.mul_add_mod, Nat.mod_eq_of_lt hl]
    refine ⟨by omega, by omega, rfl⟩
  · rintro ⟨h1, h2, h3⟩
    refine ⟨c / n - m.izMin, by omega, ?_⟩
    rw [← h3, show m.izMin + (c / n - m.izMin) = c / n by omega]
    exact Nat.div_add_mod c n

theorem cells_nodup (n : Nat) (loc : Nat → Nat) (m : MacroPlane K) (j : Nat) (hn : 0 < n) : (cells n loc m j).Nodup := by
  unfold cells
  apply List.Nodup.map _ List.nodup_range
  intro a b h
  simp only [Nat.add_right_cancel_iff] at h
  have := Nat.eq_of_mul_eq_mul_left hn h
  omega

variable [Field K]

/-- C96: the regions of the mesh are a partition of the cells of the core.  There is a region for each pin of each macroplane; the one for pin `j` of
macroplane `k` is number `k n + j` and consists of the cells at the place of the pin in all planes of the macroplane, each once.  Every cell of the
core is in exactly one region, and the regions have as many cells as the core. -/
theorem C96_partition (n nxy : Nat) (loc : Nat → Nat) (hn : 0 < n) (hl : ∀ j, j < n → loc j < n) (hs : ∀ c, c < n → ∃ j, j < n ∧ loc j = c)
    (hi : ∀ i j, i < n → j < n → loc i = loc j → i = j)
    (uniq : List Nat) (dz : List K) (sub : List Nat) (hpos : ∀ s ∈ sub, 0 < s) (hsum : sub.sum = dz.length) (hu : uniq.length = dz.length)
    (ax : Axial K) (hax : buildAxial nxy uniq dz sub = some ax) :
    (construct n loc ax.planes).regions.length = sub.length * n ∧
    (construct n loc ax.planes).nExpanded = dz.length * n ∧
    (∀ (k j : Nat) (m : MacroPlane K), ax.planes[k]? = some m → j < n → ∃ r, (construct n loc ax.planes).regions[k * n + j]? = some r ∧ r.Nodup ∧
      ∀ z c, c < n → (n * z + c ∈ r ↔ m.izMin ≤ z ∧ (z : Int) ≤ m.izMax ∧ c = loc j)) ∧
    ∀ z c, z < dz.length → c < n → ∃! i : Nat, ∃ r : List Nat, (construct n loc ax.planes).regions[i]? = some r ∧ n * z + c ∈ r := by
  obtain ⟨ax', h', -, hlen, hp⟩ := C48_partition nxy uniq dz sub hpos hsum hu
  rw [hax] at h'
  cases h'
  have hmem : ∀ (m : MacroPlane K) (j z c : Nat), j < n → c < n → (n * z + c ∈ cells n loc m j ↔ m.izMin ≤ z ∧ (z : Int) ≤ m.izMax ∧ c = loc j) := by
    intro m j z c hj hc
    rw [mem_cells n loc m j _ hl hj, Nat.mul_add_div hn, Nat.div_eq_of_lt hc, Nat.mul_add_mod, Nat.mod_eq_of_lt hc]
    constructor
    · rintro ⟨h1, h2, h3⟩
      exact ⟨by omega, by omega, h3⟩
    · rintro ⟨h1, h2, h3⟩
      exact ⟨by omega, by omega, h3⟩
  refine ⟨by rw [region_len, hlen], ?_, ?_, ?_⟩
  · rw [construct_eq]
    dsimp only
    obtain ⟨-, -, -, ho⟩ := C48_order nxy uniq dz sub hpos hsum hu ax hax
    have hsub : ax.planes.map (fun m => (m.izMax + 1 - m.izMin).toNat) = sub := by
      apply List.ext_getElem?
      intro k
      rw [List.getElem?_map]
      cases hk : ax.planes[k]? with
      | none =>
        have : ax.planes.length ≤ k := List.getElem?_eq_none_iff.1 hk
        rw [Option.map_none, List.getElem?_eq_none (by omega)]
      | some m =>
        rw [(ho k m hk).1, Option.map_some]
        congr 2
        omega
    have hmul : ∀ (l : List (MacroPlane K)), (l.map fun m => n * (m.izMax + 1 - m.izMin).toNat).sum =
        n * (l.map fun m => (m.izMax + 1 - m.izMin).toNat).sum := by
      intro l
      induction l with
      | nil => simp
      | cons m l ih =>
        simp only [List.map_cons, List.sum_cons, ih]
        ring
    rw [hmul, hsub, hsum, Nat.mul_comm]
  · intro k j m hm hj
    exact ⟨_, region_at n loc ax.planes k j m hm hj, cells_nodup n loc m j hn, fun z c hc => hmem m j z c hj hc⟩
  · intro z c hz hc
    obtain ⟨k, m, -, hk, h1, h2, huq⟩ := hp z hz
    obtain ⟨j, hj, rfl⟩ := hs c hc
    refine ⟨k * n + j, ⟨_, region_at n loc ax.planes k j m hk hj, (hmem m j z _ hj hc).2 ⟨h1, h2, rfl⟩⟩, ?_⟩
    rintro i ⟨r, hr, hin⟩
    have hil : i < ax.planes.length * n := by
      rw [← region_len n loc ax.planes]
      exact (List.getElem?_eq_some_iff.1 hr).1
    have hk' : i / n < ax.planes.length := Nat.div_lt_of_lt_mul (by rw [Nat.mul_comm]; exact hil)
    have hj' := Nat.mod_lt i hn
    have hm' := List.getElem?_eq_getElem hk'
    have hreg := region_at n loc ax.planes (i / n) (i % n) _ hm' hj'
    rw [Nat.mul_comm, Nat.div_add_mod] at hreg
    rw [hreg] at hr
    cases hr
    obtain ⟨g1, g2, g3⟩ := (hmem _ (i % n) z _ hj' hc).1 hin
    have e1 := huq (i / n) _ hm' g1 g2
    have e2 := hi j (i % n) hj hj' g3
    rw [← e1, e2, Nat.mul_comm, Nat.div_add_mod]

omit [Field K]

theorem condense_plane (n : Nat) (loc : Nat → Nat) (z : Nat) (l : List (List Nat)) (i0 k : Nat) :
    let a := (List.range k).foldl (fun (a : List (List Nat) × Nat) j => (a.1.set a.2 [n * z + loc j], a.2 + 1)) (l, i0)
    a.2 = i0 + k ∧ a.1.length = l.length ∧
    ∀ i, i < l.length → a.1[i]? = if i0 ≤ i ∧ i < i0 + k then some [n * z + loc (i - i0)] else l[i]? := by
  induction k with
  | zero =>
    refine ⟨rfl, rfl, fun i hi => ?_⟩
    rw [if_neg (by omega)]
    rfl
  | succ k ih =>
    dsimp only at ih ⊢
    rw [List.range_succ, List.foldl_append]
    simp only [List.foldl_cons, List.foldl_nil]
    obtain ⟨h1, h2, h3⟩ := ih
    refine ⟨by rw [h1]; omega, by rw [List.length_set, h2], fun i hi => ?_⟩
    rw [List.getElem?_set, h1, h2]
    by_cases hik : i0 + k = i
    · subst hik
      rw [if_pos rfl, if_pos hi, if_pos (by omega)]
      congr 4
      omega
    · rw [if_neg hik, h3 i hi]
      by_cases hc : i0 ≤ i ∧ i < i0 + k
      · rw [if_pos hc, if_pos (by omega)]
      · rw [if_neg hc, if_neg (by omega)]

/-- C96: after the copy for a mesh with one plane per macroplane, region `k n + j` is the single cell of the pin in plane `k`, for all regions, and
there are as many cells as regions. -/
theorem C96_condensed (n : Nat) (loc : Nat → Nat) (planes : List (MacroPlane K)) (s : Mesh) (hs : s.regions.length = planes.length * n) :
    (condense n loc planes s).nExpanded = planes.length * n ∧ (condense n loc planes s).state = s.state ∧
    (condense n loc planes s).regions.length = planes.length * n ∧
    ∀ k j, k < planes.length → j < n → (condense n loc planes s).regions[k * n + j]? = some [n * k + loc j] := by
  have key : ∀ (ps : List (MacroPlane K)) (l : List (List Nat)) (z : Nat), l.length = (z + ps.length) * n →
      let r := ps.foldl (fun (acc : List (List Nat) × Nat × Nat) _ =>
        let a := (List.range n).foldl (fun (a : List (List Nat) × Nat) j => (a.1.set a.2 [n * acc.2.2 + loc j], a.2 + 1)) (acc.1, acc.2.1)
        (a.1, a.2, acc.2.2 + 1)) (l, z * n, z)
      r.1.length = l.length ∧ ∀ k j, k < z + ps.length → j < n →
        r.1[k * n + j]? = if z ≤ k then some [n * k + loc j] else l[k * n + j]? := by
    intro ps
    induction ps with
    | nil =>
      intro l z hl
      refine ⟨rfl, fun k j hk hj => ?_⟩
      rw [if_neg (by simp at hk; omega)]
      rfl
    | cons m ps ih =>
      intro l z hl
      dsimp only at ih ⊢
      rw [List.foldl_cons]
      obtain ⟨c1, c2, c3⟩ := condense_plane n loc z l (z * n) n
      dsimp only at c1 c2 c3 ⊢
      rw [c1, show z * n + n = (z + 1) * n by ring]
      rw [List.length_cons] at hl
      have hl' : ((List.range n).foldl (fun (a : List (List Nat) × Nat) j => (a.1.set a.2 [n * z + loc j], a.2 + 1)) (l, z * n)).1.length =
          (z + 1 + ps.length) * n := by
        rw [c2, hl]
        ring
      obtain ⟨i1, i2⟩ := ih _ (z + 1) hl'
      refine ⟨by rw [i1, c2], fun k j hk hj => ?_⟩
      rw [List.length_cons] at hk
      rw [i2 k j (by omega) hj]
      by_cases hz : z + 1 ≤ k
      · rw [if_pos hz, if_pos (by omega)]
      · have hkl : k * n + j < l.length := by
          rw [hl]
          calc k * n + j < k * n + n := by omega
            _ = (k + 1) * n := by ring
            _ ≤ (z + (ps.length + 1)) * n := Nat.mul_le_mul_right _ (by omega)
        rw [if_neg hz, c3 _ hkl]
        by_cases hzk : z = k
        · subst hzk
          rw [if_pos (by omega), if_pos le_rfl]
          congr 4
          omega
        · have : (k + 1) * n ≤ z * n := Nat.mul_le_mul_right _ (by omega)
          have h2 : (k + 1) * n = k * n + n := by ring
          rw [if_neg (by omega), if_neg (by omega)]
  obtain ⟨k1, k2⟩ := key planes s.regions 0 (by rw [hs, Nat.zero_add])
  rw [Nat.zero_mul] at k1 k2
  unfold condense
  dsimp only at k1 k2 ⊢
  refine ⟨by rw [k1, hs], rfl, by rw [k1, hs], fun k j hk hj => ?_⟩
  rw [k2 k j (by omega) hj, if_pos (Nat.zero_le _)]

/-- C96: `update` without a flux changes nothing; with a flux all regions are computed again, once each in their order, from the part of the flux
that belongs to the pin: it begins after the regions of all pins before.  The state is counted up once. -/
theorem C96_update (pins : List (List Nat)) (s : Mesh) :
    update false pins s = ([], s) ∧
    (update true pins s).2 = { s with state := s.state + 1 } ∧
    (update true pins s).1.length = pins.flatten.length ∧
    ∀ i, i < pins.flatten.length → (update true pins s).1[i]? = some (i, (pins.flatten.take i).sum) := by
  have hrow : ∀ (row : List Nat) (acc : List (Nat × Nat)) (i f : Nat),
      row.foldl (fun (acc : List (Nat × Nat) × Nat × Nat) nreg => (acc.1 ++ [(acc.2.1, acc.2.2)], acc.2.1 + 1, acc.2.2 + nreg)) (acc, i, f) =
      (acc ++ (List.range row.length).map (fun k : Nat => (i + k, f + (row.take k).sum)), i + row.length, f + row.sum) := by
    intro row
    induction row with
    | nil => intro acc i f; simp
    | cons a row ih =>
      intro acc i f
      rw [List.foldl_cons, ih, List.length_cons, List.range_succ_eq_map]
      simp only [List.map_cons, List.map_map, List.take_zero, List.sum_nil, Nat.add_zero, List.append_assoc, List.singleton_append, List.sum_cons]
      refine Prod.ext ?_ (Prod.ext ?_ ?_)
      · dsimp only
        congr 2
        apply List.map_congr_left
        intro k _
        simp only [Function.comp, List.take_succ_cons, List.sum_cons]
        refine Prod.ext ?_ ?_
        · dsimp only; omega
        · dsimp only; omega
      · dsimp only; omega
      · dsimp only; omega
  have hflat : ∀ (pins : List (List Nat)) (acc : List (Nat × Nat) × Nat × Nat),
      pins.foldl (fun (acc : List (Nat × Nat) × Nat × Nat) row =>
        row.foldl (fun acc nreg => (acc.1 ++ [(acc.2.1, acc.2.2)], acc.2.1 + 1, acc.2.2 + nreg)) acc) acc =
      pins.flatten.foldl (fun (acc : List (Nat × Nat) × Nat × Nat) nreg => (acc.1 ++ [(acc.2.1, acc.2.2)], acc.2.1 + 1, acc.2.2 + nreg)) acc := by
    intro pins
    induction pins with
    | nil => intro acc; rfl
    | cons row pins ih =>
      intro acc
      rw [List.foldl_cons, ih, List.flatten_cons, List.foldl_append]
  have hw : walk pins = (List.range pins.flatten.length).map (fun k : Nat => (k, (pins.flatten.take k).sum)) := by
    unfold walk
    rw [hflat, hrow]
    simp
  refine ⟨rfl, rfl, ?_, ?_⟩
  · change (walk pins).length = _
    rw [hw]
    simp
  · intro i hi
    change (walk pins)[i]? = _
    rw [hw, List.getElem?_map, List.getElem?_range hi]
    rfl

/-- Two macroplanes, of one and of two planes, of two pins that are numbered against the cells. -/
def exPlanes : List (MacroPlane ℚ) := [⟨0, 0, 0, 1, 0⟩, ⟨1, 1, 2, 2, 2⟩]

example : (construct 2 (fun j => 1 - j) exPlanes).regions = [[1], [0], [3, 5], [2, 4]] := by decide +kernel

example : (buildAxial 2 [0, 1, 1] [1, 1, 1] [1, 2] : Option (Axial ℚ)).map (fun a => a.planes.map fun m => (m.izMin, m.izMax)) =
    some (exPlanes.map fun m => (m.izMin, m.izMax)) := by decide +kernel

example : (condense 2 (fun j => 1 - j) exPlanes (construct 2 (fun j => 1 - j) exPlanes)).regions = [[1], [0], [3], [2]] := by decide +kernel

example : (update true [[3, 5], [5, 3]] (construct 2 (fun j => 1 - j) exPlanes)).1 = [(0, 0), (1, 3), (2, 8), (3, 13)] := by decide +kernel

end Verif.XS.PinMap
