import Verif.Core.VolumesModel
import Verif.Core.PinsProps
import Verif.Mesh.Props
import Mathlib.Tactic.Ring

/-!
# C85: numbers of regions and volumes
-/

namespace Verif.Core

open Mesh

variable {K : Type} [Field K]

theorem sum_map_mul (l : List K) (h : K) : (l.map (· * h)).sum = l.sum * h := by
  induction l with
  | nil => simp
  | cons a l ih => simp only [List.map_cons, List.sum_cons, ih]; ring

theorem flatMap_sum (q : List (List K)) (h : K) : (q.flatMap (·.map (· * h))).sum = (q.map List.sum).sum * h := by
  induction q with
  | nil => simp
  | cons a l ih => simp only [List.flatMap_cons, List.sum_append, List.map_cons, List.sum_cons, ih, sum_map_mul]; ring

theorem flatMap_len (q : List (List K)) (h : K) : (q.flatMap (·.map (· * h))).length = (q.map List.length).sum := by
  induction q with
  | nil => simp
  | cons a l ih => simp only [List.flatMap_cons, List.length_append, List.map_cons, List.sum_cons, ih, List.length_map]

/-- The volumes of a rectangular grid, x fastest. -/
def boxes (dx dy hs : List K) : List K := hs.flatMap fun h => dy.flatMap fun b => dx.map fun a => a * b * h

theorem boxes_sum (dx dy hs : List K) : (boxes dx dy hs).sum = dx.sum * dy.sum * hs.sum := by
  have h1 : ∀ b h : K, (dx.map fun a => a * b * h).sum = dx.sum * b * h := by
    intro b h
    induction dx with
    | nil => simp
    | cons a l ih => simp only [List.map_cons, List.sum_cons, ih]; ring
  have h2 : ∀ h : K, (dy.flatMap fun b => dx.map fun a => a * b * h).sum = dx.sum * dy.sum * h := by
    intro h
    induction dy with
    | nil => simp
    | cons a l ih => simp only [List.flatMap_cons, List.sum_append, List.sum_cons, ih, h1]; ring
  unfold boxes
  induction hs with
  | nil => simp
  | cons a l ih => simp only [List.flatMap_cons, List.sum_append, List.sum_cons, ih, h2]; ring

theorem boxes_length (dx dy hs : List K) : (boxes dx dy hs).length = dx.length * dy.length * hs.length := by
  have h2 : ∀ h : K, (dy.flatMap fun b => dx.map fun a => a * b * h).length = dx.length * dy.length := by
    intro h
    induction dy with
    | nil => simp
    | cons a l ih => simp only [List.flatMap_cons, List.length_append, List.length_map, List.length_cons, ih]; ring
  unfold boxes
  induction hs with
  | nil => simp
  | cons a l ih => simp only [List.flatMap_cons, List.length_append, List.length_cons, ih, h2]; ring

theorem boxes_get (dx dy hs : List K) (x y z : Nat) (a b h : K) (ha : dx[x]? = some a) (hb : dy[y]? = some b) (hh : hs[z]? = some h) :
    (boxes dx dy hs)[z * (dy.length * dx.length) + (y * dx.length + x)]? = some (a * b * h) := by
  have hx := (List.getElem?_eq_some_iff.mp ha).1
  have hy := (List.getElem?_eq_some_iff.mp hb).1
  have hl : ∀ h : K, (dy.flatMap fun b => dx.map fun a => a * b * h).length = dy.length * dx.length := by
    intro h
    clear hb hy
    induction dy with
    | nil => simp
    | cons a l ih => simp only [List.flatMap_cons, List.length_append, List.length_map, List.length_cons, ih]; ring
  unfold boxes
  rw [getElem?_flatMap_uniform _ (dy.length * dx.length) hl hs z _ ?_ h hh,
    getElem?_flatMap_uniform _ dx.length (by intro; simp) dy y x hx b hb]
  · simp [ha]
  · calc y * dx.length + x < y * dx.length + dx.length := by omega
      _ = (y + 1) * dx.length := by ring
      _ ≤ dy.length * dx.length := Nat.mul_le_mul_right _ hy

/-- C85: the coarse volumes.  There is one for each cell, that of the cell at `(x, y, z)` is the product of its widths, and they add up to the
volume of the core. -/
theorem C85_pin (d : Dims) (dx dy dz : List K) (hx : dx.length = d.nx) (hy : dy.length = d.ny) (hz : dz.length = d.nz) :
    ∃ v, volPin d dx dy dz = some v ∧ v.length = nRegPin d ∧ v.sum = dx.sum * dy.sum * dz.sum ∧
      ∀ x y z (h1 : x < dx.length) (h2 : y < dy.length) (h3 : z < dz.length),
        v[coarseCell d ⟨x, y, z⟩]? = some (dx[x] * dy[y] * dz[z]) := by
  have get : ∀ x y z (h1 : x < dx.length) (h2 : y < dy.length) (h3 : z < dz.length),
      (boxes dx dy dz)[coarseCell d ⟨x, y, z⟩]? = some (dx[x] * dy[y] * dz[z]) := by
    intro x y z h1 h2 h3
    have := boxes_get dx dy dz x y z _ _ _ (List.getElem?_eq_getElem h1) (List.getElem?_eq_getElem h2) (List.getElem?_eq_getElem h3)
    rw [← this]
    congr 1
    simp only [coarseCell, hx, hy]; ring
  refine ⟨boxes dx dy dz, ?_, ?_, boxes_sum dx dy dz, get⟩
  · unfold volPin
    have key : (List.range (d.nx * d.ny * d.nz)).map (fun i => (boxes dx dy dz).getD i 0) = boxes dx dy dz := by
      apply List.ext_getElem?
      intro i
      rw [List.getElem?_map]
      by_cases hi : i < d.nx * d.ny * d.nz
      · rw [List.getElem?_range hi]
        have : i < (boxes dx dy dz).length := by rw [boxes_length, hx, hy, hz]; exact hi
        simp [List.getD, List.getElem?_eq_getElem this]
      · rw [List.getElem?_eq_none (by simpa using hi), List.getElem?_eq_none (by rw [boxes_length, hx, hy, hz]; omega)]
        rfl
    rw [mapM_some _ (fun i => (boxes dx dy dz).getD i 0), key]
    intro i hi
    rw [List.mem_range] at hi
    obtain ⟨e, p1, p2, p3⟩ := C10_cell_of_position d i hi
    have g := get _ _ _ (by rw [hx]; exact p1) (by rw [hy]; exact p2) (by rw [hz]; exact p3)
    have e' : coarseCell d ⟨(coarsePosition d i).x, (coarsePosition d i).y, (coarsePosition d i).z⟩ = i := e
    rw [e'] at g
    rw [List.getElem?_eq_getElem (by rw [hx]; exact p1), List.getElem?_eq_getElem (by rw [hy]; exact p2),
      List.getElem?_eq_getElem (by rw [hz]; exact p3)]
    simp only [List.getD, g]
    rfl
  · rw [boxes_length, hx, hy, hz]; rfl

/-- C85: the volumes of the pins in macroplanes. -/
theorem C85_pin_plane (d : Dims) (sub : List Nat) (dx dy hs : List K) (hx : dx.length = d.nx) (hy : dy.length = d.ny)
    (hz : hs.length = sub.length) :
    ∃ v, volPinPlane d.nx d.ny dx dy hs = some v ∧ v.length = nRegPinPlane d sub ∧ v.sum = dx.sum * dy.sum * hs.sum ∧
      ∀ x y m (h1 : x < dx.length) (h2 : y < dy.length) (h3 : m < hs.length),
        v[coarseCell d ⟨x, y, m⟩]? = some (dx[x] * dy[y] * hs[m]) := by
  refine ⟨boxes dx dy hs, ?_, by rw [boxes_length, hx, hy, hz]; rfl, boxes_sum dx dy hs, ?_⟩
  · unfold volPinPlane
    rw [mapM_some _ (fun h => dy.flatMap fun b => dx.map fun a => a * b * h)]
    · rfl
    · intro h _
      rw [mapM_some _ (fun iy => dx.map fun a => a * dy.getD iy 0 * h)]
      · simp only [Option.map_some, ← List.flatMap_def]
        congr 1
        have : dy = (List.range d.ny).map fun i => dy.getD i 0 := by
          apply List.ext_getElem?
          intro i
          rw [List.getElem?_map]
          by_cases hi : i < d.ny
          · rw [List.getElem?_range hi, List.getElem?_eq_getElem (by omega)]
            simp [List.getD, List.getElem?_eq_getElem (show i < dy.length by omega)]
          · rw [List.getElem?_eq_none (by omega), List.getElem?_eq_none (by simpa using hi)]; rfl
        conv_rhs => rw [this]
        rw [List.flatMap_map]
      · intro iy hiy
        rw [List.mem_range] at hiy
        rw [mapM_some _ (fun ix => dx.getD ix 0 * dy.getD iy 0 * h)]
        · congr 1
          apply List.ext_getElem?
          intro i
          rw [List.getElem?_map, List.getElem?_map]
          by_cases hi : i < d.nx
          · rw [List.getElem?_range hi, List.getElem?_eq_getElem (show i < dx.length by omega)]
            simp [List.getD, List.getElem?_eq_getElem (show i < dx.length by omega)]
          · rw [List.getElem?_eq_none (show dx.length ≤ i by omega), List.getElem?_eq_none (by simpa using hi)]; rfl
        · intro ix hix
          rw [List.mem_range] at hix
          simp [List.getD, List.getElem?_eq_getElem (show ix < dx.length by omega), List.getElem?_eq_getElem (show iy < dy.length by omega)]
  · intro x y m h1 h2 h3
    rw [← boxes_get dx dy hs x y m _ _ _ (List.getElem?_eq_getElem h1) (List.getElem?_eq_getElem h2) (List.getElem?_eq_getElem h3)]
    congr 1
    simp only [coarseCell, hx, hy]; ring

theorem volTrue_some (nxy : Nat) (hn : 0 < nxy) (dz : List K) (pins : List (List K)) : ∀ k, (∀ j, j < pins.length → (k + j) / nxy < dz.length) →
    ∃ v, volTrue nxy dz pins k = some v := by
  induction pins with
  | nil => intro k _; exact ⟨[], rfl⟩
  | cons p ps ih =>
    intro k h
    obtain ⟨v, hv⟩ := ih (k + 1) fun j hj => by
      have := h (j + 1) (by simpa using hj)
      rwa [show k + (j + 1) = k + 1 + j by omega] at this
    have h0 := h 0 (by simp)
    rw [Nat.add_zero] at h0
    exact ⟨p.map (· * dz[k / nxy]) ++ v, by
      simp only [volTrue, if_neg (Nat.pos_iff_ne_zero.mp hn), List.getElem?_eq_getElem h0, hv]⟩

theorem volTrue_cons (nxy : Nat) (dz : List K) (p : List K) (ps : List (List K)) (k : Nat) (v : List K)
    (h : volTrue nxy dz (p :: ps) k = some v) :
    ∃ hz r, dz[k / nxy]? = some hz ∧ volTrue nxy dz ps (k + 1) = some r ∧ v = p.map (· * hz) ++ r := by
  simp only [volTrue] at h
  by_cases hn : nxy = 0
  · rw [if_pos hn] at h; cases h
  · rw [if_neg hn] at h
    cases h1 : dz[k / nxy]? with
    | none => rw [h1] at h; cases h
    | some hz =>
      cases h2 : volTrue nxy dz ps (k + 1) with
      | none => rw [h1, h2] at h; cases h
      | some r =>
        rw [h1, h2] at h
        exact ⟨hz, r, rfl, rfl, (Option.some.inj h).symm⟩

theorem volTrue_blocks (nxy : Nat) (dz : List K) (pins : List (List K)) : ∀ k v, volTrue nxy dz pins k = some v →
    v.length = (pins.map List.length).sum ∧
    ∀ (j : Nat) p, pins[j]? = some p → ∃ h, dz[(k + j) / nxy]? = some h ∧
      (v.drop ((pins.take j).map List.length).sum).take p.length = p.map (· * h) := by
  induction pins with
  | nil => intro k v hv; cases hv; simp
  | cons q ps ih =>
    intro k v hv
    obtain ⟨hz, r, e1, e2, rfl⟩ := volTrue_cons nxy dz q ps k v hv
    obtain ⟨l, b⟩ := ih _ _ e2
    refine ⟨by simp [l], ?_⟩
    intro j p hp
    cases j with
    | zero =>
      simp only [List.getElem?_cons_zero, Option.some.injEq] at hp
      subst hp
      refine ⟨hz, e1, ?_⟩
      simp
    | succ j =>
      obtain ⟨h, h1, h2⟩ := b j p (by simpa using hp)
      refine ⟨h, by rwa [show k + (j + 1) = k + 1 + j by omega], ?_⟩
      rw [← h2, List.take_succ_cons, List.map_cons, List.sum_cons,
        show q.length + ((ps.take j).map List.length).sum = (q.map (· * hz)).length + ((ps.take j).map List.length).sum by simp,
        List.drop_length_add_append]

/-- C85: with `TRUE` the volumes are those of the regions of the pins in order: the regions of pin `j` follow those of the pins before it and
have their area times the height of plane `j / (nx ny)` as volume. -/
theorem C85_true (nxy : Nat) (hn : 0 < nxy) (dz : List K) (pins : List (List K)) (hl : pins.length = nxy * dz.length) :
    ∃ v, volTrue nxy dz pins 0 = some v ∧ v.length = (pins.map List.length).sum ∧
      ∀ (z i : Nat) (p : List K) (hz : z < dz.length), i < nxy → pins[z * nxy + i]? = some p →
        (v.drop ((pins.take (z * nxy + i)).map List.length).sum).take p.length = p.map (· * dz[z]) := by
  obtain ⟨v, hv⟩ := volTrue_some nxy hn dz pins 0 fun j hj => by
    rw [Nat.zero_add]
    apply Nat.div_lt_of_lt_mul
    omega
  obtain ⟨l, b⟩ := volTrue_blocks nxy dz pins 0 v hv
  refine ⟨v, hv, l, ?_⟩
  intro z i p hz hi hp
  obtain ⟨h, h1, h2⟩ := b _ p hp
  have e : (0 + (z * nxy + i)) / nxy = z := by
    rw [Nat.zero_add, Nat.mul_comm z, Nat.mul_add_div hn, Nat.div_eq_of_lt hi, Nat.add_zero]
  rw [e, List.getElem?_eq_getElem hz] at h1
  rw [h2, Option.some.inj h1]

/-- C85: hence the volumes of the regions of a pin add up to the volume of the coarse cell at its position. -/
theorem C85_consistent (d : Dims) (hn : 0 < d.nx * d.ny) (dx dy dz : List K) (hx : dx.length = d.nx) (hy : dy.length = d.ny)
    (hz : dz.length = d.nz) (pins : List (List K)) (hl : pins.length = d.nx * d.ny * d.nz)
    (v vc : List K) (hv : volTrue (d.nx * d.ny) dz pins 0 = some v) (hvc : volPin d dx dy dz = some vc)
    (x y z i : Nat) (p : List K) (h1 : x < dx.length) (h2 : y < dy.length) (h3 : z < dz.length) (hi : i < d.nx * d.ny)
    (hp : pins[z * (d.nx * d.ny) + i]? = some p) (harea : p.sum = dx[x] * dy[y]) :
    vc[coarseCell d ⟨x, y, z⟩]? =
      some ((v.drop ((pins.take (z * (d.nx * d.ny) + i)).map List.length).sum).take p.length).sum := by
  obtain ⟨v', hv', -, hb⟩ := C85_true (d.nx * d.ny) hn dz pins (by rw [hl, hz])
  rw [hv] at hv'
  obtain rfl := Option.some.inj hv'
  obtain ⟨w, hw, -, -, hg⟩ := C85_pin d dx dy dz hx hy hz
  rw [hvc] at hw
  obtain rfl := Option.some.inj hw
  rw [hb z i p h3 hi hp, hg x y z h1 h2 h3, sum_map_mul, harea]

theorem volTrue_append (nxy : Nat) (dz : List K) (z : Nat) (h : K) (hz : dz[z]? = some h) (q rest : List (List K)) :
    ∀ k v, (∀ j, j < q.length → (k + j) / nxy = z) → volTrue nxy dz (q ++ rest) k = some v →
      ∃ r, volTrue nxy dz rest (k + q.length) = some r ∧ v = q.flatMap (·.map (· * h)) ++ r := by
  induction q with
  | nil => intro k v _ hv; exact ⟨v, by simpa using hv, by simp⟩
  | cons p ps ih =>
    intro k v hj hv
    rw [List.cons_append] at hv
    obtain ⟨h', r, e1, e2, rfl⟩ := volTrue_cons _ _ _ _ _ _ hv
    have h0 := hj 0 (by simp)
    rw [Nat.add_zero] at h0
    rw [h0, hz] at e1
    obtain rfl := Option.some.inj e1
    obtain ⟨r', r1, r2⟩ := ih (k + 1) r (fun j hj' => by
      have := hj (j + 1) (by simpa using hj')
      rwa [show k + (j + 1) = k + 1 + j by omega] at this) e2
    refine ⟨r', ?_, by rw [r2]; simp⟩
    rw [← r1]
    congr 1
    simp; omega

theorem volTrue_sum (nxy : Nat) (hn : 0 < nxy) (dz : List K) (A : K) (planes : List (List (List K))) :
    ∀ z v, (∀ pl ∈ planes, pl.length = nxy ∧ (pl.map List.sum).sum = A) → z + planes.length = dz.length →
      volTrue nxy dz planes.flatten (z * nxy) = some v → v.sum = A * (dz.drop z).sum := by
  induction planes with
  | nil =>
    intro z v _ hl hv
    cases hv
    rw [List.drop_eq_nil_of_le (by simp at hl; omega)]
    simp
  | cons pl ps ih =>
    intro z v h hl hv
    rw [List.length_cons] at hl
    have hz : z < dz.length := by omega
    obtain ⟨l1, l2⟩ := h pl (List.mem_cons_self ..)
    rw [List.flatten_cons] at hv
    obtain ⟨r, r1, r2⟩ := volTrue_append nxy dz z dz[z] (List.getElem?_eq_getElem hz) pl ps.flatten (z * nxy) v (fun j hj => by
      rw [Nat.mul_comm, Nat.mul_add_div hn, Nat.div_eq_of_lt (by omega), Nat.add_zero]) hv
    have := ih (z + 1) r (fun q hq => h q (List.mem_cons_of_mem _ hq)) (by omega) (by rw [← r1, l1, Nat.add_mul, Nat.one_mul])
    rw [r2, List.sum_append, this, flatMap_sum, l2, List.drop_eq_getElem_cons hz, List.sum_cons]
    ring

/-- C85: if the regions of every plane cover the core, the volumes of all regions add up to that of the core. -/
theorem C85_true_sum (nxy : Nat) (hn : 0 < nxy) (dz : List K) (A : K) (planes : List (List (List K))) (v : List K)
    (h : ∀ pl ∈ planes, pl.length = nxy ∧ (pl.map List.sum).sum = A) (hl : planes.length = dz.length)
    (hv : volTrue nxy dz planes.flatten 0 = some v) : v.sum = A * dz.sum := by
  have := volTrue_sum nxy hn dz A planes 0 v h (by omega) (by rwa [Nat.zero_mul])
  simpa using this

omit [Field K] in
/-- C85: the number of regions with `TRUE`, counted over the assemblies, is that of the list of pins, which comes plane by plane. -/
theorem C85_true_count (asys : List (List (LatA K))) (nz : Nat) (h : ∀ a ∈ asys, a.length = nz) :
    ∃ pins, listPins asys nz = some pins ∧ (pins.map List.length).sum = nRegCore asys := by
  have hp : ∀ iz, iz < nz → planePins asys iz = some (asys.map fun a => a.getD iz []).flatten := by
    intro iz hiz
    unfold planePins
    rw [mapM_some _ fun a => a.getD iz []]
    · rfl
    · intro a ha
      rw [List.getElem?_eq_getElem (by rw [h a ha]; exact hiz)]
      simp [List.getD, List.getElem?_eq_getElem (show iz < a.length by rw [h a ha]; exact hiz)]
  refine ⟨_, by
    unfold listPins
    rw [mapM_some _ (fun iz => (asys.map fun a => a.getD iz []).flatten) _ fun iz hiz => hp iz (List.mem_range.mp hiz)]
    rfl, ?_⟩
  have key : ∀ l : List (List (List K)), (l.flatten.map List.length).sum = (l.map fun q => (q.map List.length).sum).sum := by
    intro l
    induction l with
    | nil => rfl
    | cons a l ih => simp only [List.flatten_cons, List.map_append, List.sum_append, ih, List.map_cons, List.sum_cons]
  rw [key, List.map_map]
  have : ((fun q : List (List K) => (q.map List.length).sum) ∘ fun iz => (asys.map fun a => a.getD iz []).flatten) =
      fun iz => (asys.map fun a => ((a.getD iz []).map List.length).sum).sum := by
    funext iz
    simp only [Function.comp, key, List.map_map]
    rfl
  rw [this]
  unfold nRegCore
  clear hp this
  induction asys with
  | nil => simp
  | cons a l ih =>
    simp only [List.map_cons, List.sum_cons]
    rw [← ih fun b hb => h b (List.mem_cons_of_mem _ hb)]
    have h1 : (a.map fun l => (l.map List.length).sum) = (List.range nz).map fun iz => ((a.getD iz []).map List.length).sum := by
      apply List.ext_getElem?
      intro i
      have hla := h a (List.mem_cons_self ..)
      rw [List.getElem?_map, List.getElem?_map]
      by_cases hi : i < nz
      · rw [List.getElem?_range hi, List.getElem?_eq_getElem (by omega)]
        simp [List.getD, List.getElem?_eq_getElem (show i < a.length by omega)]
      · rw [List.getElem?_eq_none (by omega), List.getElem?_eq_none (by simpa using hi)]; rfl
    rw [h1]
    have h2 : ∀ (f g : Nat → Nat) (r : List Nat), (r.map fun i => f i + g i).sum = (r.map f).sum + (r.map g).sum := by
      intro f g r
      induction r with
      | nil => rfl
      | cons b r ih => simp only [List.map_cons, List.sum_cons, ih]; omega
    rw [h2]

/-- C85: with `PLANE` there are the regions of the lowest plane of each macroplane, with the height of the macroplane; as many as `n_reg`
says, if `regs` has the numbers of regions of the unique planes. -/
theorem C85_plane (nxy : Nat) (pins : List (List K)) (regs uniq sub : List Nat) : ∀ (hs : List K) (iz : Nat),
    (∀ s ∈ sub, 0 < s) → sub.length = hs.length → nxy * (iz + sub.sum) ≤ pins.length →
    (∀ j, j < iz + sub.sum → ∃ u, uniq[j]? = some u ∧ regs[u]? = some (((pins.drop (nxy * j)).take nxy).map List.length).sum) →
    ∃ v, volPlane nxy pins sub hs iz = some v ∧ nRegPlane regs uniq sub iz = some v.length ∧
      v = ((List.range sub.length).map fun k => ((pins.drop (nxy * (iz + (sub.take k).sum))).take nxy).flatMap
        (·.map (· * hs.getD k 0))).flatten := by
  induction sub with
  | nil => intro hs iz _ _ _ _; exact ⟨[], by cases hs <;> rfl, rfl, rfl⟩
  | cons np rest ih =>
    intro hs iz hpos hlen hsz hu
    cases hs with
    | nil => simp at hlen
    | cons h hs =>
      have hnp := hpos np (List.mem_cons_self ..)
      rw [List.sum_cons] at hsz hu
      obtain ⟨v, v1, v2, v3⟩ := ih hs (iz + np) (fun s hs => hpos s (List.mem_cons_of_mem _ hs)) (by simpa using hlen)
        (by rwa [Nat.add_assoc]) (fun j hj => hu j (by omega))
      obtain ⟨u, u1, u2⟩ := hu iz (by omega)
      have hle : nxy * iz + nxy ≤ pins.length := by
        refine le_trans ?_ hsz
        rw [← Nat.mul_succ]
        exact Nat.mul_le_mul_left _ (by omega)
      refine ⟨((pins.drop (nxy * iz)).take nxy).flatMap (·.map (· * h)) ++ v, ?_, ?_, ?_⟩
      · simp only [volPlane, if_pos hle, v1, Option.map_some]
      · rw [List.length_append, flatMap_len]; simp [nRegPlane, u1, u2, v2]
      · rw [List.length_cons, List.range_succ_eq_map, List.map_cons, List.flatten_cons, List.map_map]
        congr 1
        · rw [v3]
          congr 1
          apply List.map_congr_left
          intro k _
          simp [Nat.add_assoc]

/-- C85: and their volumes add up to that of the core. -/
theorem C85_plane_sum (nxy : Nat) (pins : List (List K)) (A : K) (sub : List Nat) : ∀ (hs : List K) (iz : Nat) (v : List K),
    sub.length = hs.length → (∀ j, j < iz + sub.sum → (((pins.drop (nxy * j)).take nxy).map List.sum).sum = A) → (∀ s ∈ sub, 0 < s) →
    volPlane nxy pins sub hs iz = some v → v.sum = A * hs.sum := by
  induction sub with
  | nil =>
    intro hs iz v hl _ _ hv
    have : hs = [] := by simpa using hl.symm
    subst this
    cases hv
    simp
  | cons np rest ih =>
    intro hs iz v hl hA hpos hv
    cases hs with
    | nil => simp at hl
    | cons h hs =>
      have hnp := hpos np (List.mem_cons_self ..)
      rw [List.sum_cons] at hA
      simp only [volPlane] at hv
      split_ifs at hv with hle
      obtain ⟨r, r1, rfl⟩ := Option.map_eq_some_iff.mp hv
      rw [List.sum_append, flatMap_sum, hA iz (by omega), ih hs (iz + np) r (by simpa using hl) (fun j hj => hA j (by omega))
        (fun s hs => hpos s (List.mem_cons_of_mem _ hs)) r1, List.sum_cons]
      ring

/-- Two planes of one pin with two regions, one macroplane. -/
example : volTrue 1 [(2 : ℚ), 3] [[1, 4], [1, 4]] 0 = some [2, 8, 3, 12] ∧ volPlane 1 [[1, 4], [1, 4]] [2] [(5 : ℚ)] 0 = some [5, 20] ∧
    volPin ⟨1, 1, 2⟩ [5] [1] [2, (3 : ℚ)] = some [10, 15] ∧ volPinPlane 1 1 [5] [1] [(5 : ℚ)] = some [25] := by
  decide +kernel

end Verif.Core
