import Verif.Moc.TablesModel
import Verif.Core.PlanesProps
import Verif.Core.VolumesProps
import Verif.Rays.OptionsProps
import Verif.BC.UpdateProps

/-!
# C124: tables of the macroplanes and sizes of the boundary conditions
-/

namespace Verif.Moc.Tables

open Verif.BC Verif.Quad Verif.Core

theorem macroIds_spec (uniq : List Nat) (sub : List Nat) (iz : Nat) (hpos : ∀ s ∈ sub, 0 < s) (hb : iz + sub.sum ≤ uniq.length) :
    ∃ ids, macroIds uniq sub iz = some ids ∧ ids.length = sub.length ∧ ∀ k, k < sub.length → ids[k]? = uniq[iz + (sub.take k).sum]? := by
  induction sub generalizing iz with
  | nil => exact ⟨[], rfl, rfl, by intro k hk; simp at hk⟩
  | cons np rest ih =>
    rw [List.sum_cons] at hb
    have hnp := hpos np (by simp)
    have hu : iz < uniq.length := by omega
    obtain ⟨ids, h1, h2, h3⟩ := ih (iz + np) (fun s hs => hpos s (by simp [hs])) (by omega)
    refine ⟨uniq[iz] :: ids, ?_, by simp [h2], ?_⟩
    · unfold macroIds
      simp [List.getElem?_eq_getElem hu, h1]
    · intro k hk
      cases k with
      | zero => simp [List.getElem?_eq_getElem hu]
      | succ k =>
        rw [List.getElem?_cons_succ, h3 k (by simpa using hk), List.take_succ_cons, List.sum_cons]
        congr 1; omega

theorem nregPlane_spec (regs ids : List Nat) (h : ∀ u ∈ ids, u < regs.length) :
    ∃ ns, nregPlane regs ids = some ns ∧ ns.length = ids.length ∧ ∀ k u : Nat, ids[k]? = some u → ns[k]? = regs[u]? := by
  induction ids with
  | nil => exact ⟨[], rfl, rfl, by intro k u hk; simp at hk⟩
  | cons a rest ih =>
    have ha := h a (by simp)
    obtain ⟨ns, h1, h2, h3⟩ := ih (fun u hu => h u (by simp [hu]))
    refine ⟨regs[a] :: ns, ?_, by simp [h2], ?_⟩
    · unfold nregPlane at h1 ⊢
      rw [List.mapM_cons, List.getElem?_eq_getElem ha, h1]; rfl
    · intro k u hk
      cases k with
      | zero =>
        simp only [List.getElem?_cons_zero, Option.some.injEq] at hk ⊢
        subst hk
        rw [List.getElem?_eq_getElem ha]
      | succ k => rw [List.getElem?_cons_succ] at hk ⊢; exact h3 k u hk

theorem sums_spec (ns v : List Nat) (hv : v ≠ []) :
    ns.foldl (fun v n => v ++ [v.getLastD 0 + n]) v = v ++ (List.range ns.length).map fun k => v.getLastD 0 + (ns.take (k + 1)).sum := by
  induction ns generalizing v with
  | nil => simp
  | cons n rest ih =>
    rw [List.foldl_cons, ih _ (by simp)]
    simp only [List.getLastD_concat, List.length_cons, List.range_succ_eq_map, List.map_cons, List.map_map, List.append_assoc, List.singleton_append,
      List.take_succ_cons, List.sum_cons, List.take_zero, List.sum_nil, add_zero]
    congr 2
    apply List.map_congr_left
    intro k _
    simp only [Function.comp, Nat.succ_eq_add_one]
    omega

theorem firstRegs_eq (ns : List Nat) : firstRegs ns = (List.range ns.length).map fun k => (ns.take k).sum := by
  unfold firstRegs
  rw [sums_spec ns [0] (by simp)]
  have : [0] ++ (List.range ns.length).map (fun k => [0].getLastD 0 + (ns.take (k + 1)).sum) = (List.range (ns.length + 1)).map fun k => (ns.take k).sum := by
    rw [List.range_succ_eq_map]; simp [Function.comp_def]
  rw [this, List.range_succ, List.map_append]
  simp

theorem nRegPlane_eq (regs uniq sub : List Nat) (iz : Nat) (ids ns : List Nat) (h1 : macroIds uniq sub iz = some ids) (h2 : nregPlane regs ids = some ns) :
    nRegPlane regs uniq sub iz = some ns.sum := by
  induction sub generalizing iz ids ns with
  | nil =>
    simp only [macroIds, Option.some.injEq] at h1
    subst h1
    simp only [nregPlane, List.mapM_nil, Option.pure_def, Option.some.injEq] at h2
    subst h2; rfl
  | cons np rest ih =>
    unfold macroIds at h1
    simp only [Option.bind_eq_bind, Option.bind_eq_some_iff, Option.pure_def, Option.some.injEq] at h1
    obtain ⟨u, hu, r, hr, rfl⟩ := h1
    unfold nregPlane at h2
    rw [List.mapM_cons] at h2
    simp only [Option.bind_eq_bind, Option.bind_eq_some_iff, Option.pure_def, Option.some.injEq] at h2
    obtain ⟨n, hn, m, hm, rfl⟩ := h2
    unfold nRegPlane
    rw [hu, ih (iz + np) r m hr hm]
    simp [hn]

/-- C124: the tables of the MoC sweeper.  Each macroplane has the geometry of its lowest plane and as many regions as that geometry; the regions of the first macroplane have the numbers from
zero on, those of each further one the numbers after them; together they are the regions of the treatment `PLANE`, each in exactly one macroplane. -/
theorem C124_regions (regs uniq sub : List Nat) (hpos : ∀ s ∈ sub, 0 < s) (hsum : sub.sum = uniq.length) (hu : ∀ u ∈ uniq, u < regs.length) :
    ∃ ids ns, macroIds uniq sub 0 = some ids ∧ nregPlane regs ids = some ns ∧ ids.length = sub.length ∧ ns.length = sub.length ∧ (firstRegs ns).length = sub.length ∧
      nRegPlane regs uniq sub 0 = some ns.sum ∧
      (∀ k : Nat, k < sub.length → ids[k]? = uniq[(sub.take k).sum]? ∧ ∃ u : Nat, ids[k]? = some u ∧ ns[k]? = regs[u]?) ∧
      ((firstRegs ns)[0]? = some 0 ∨ sub = []) ∧
      (∀ k a n : Nat, (firstRegs ns)[k]? = some a → ns[k]? = some n → k + 1 < sub.length → (firstRegs ns)[k + 1]? = some (a + n)) ∧
      ∀ r, r < ns.sum → ∃ k : Nat, (∃ a n : Nat, (firstRegs ns)[k]? = some a ∧ ns[k]? = some n ∧ a ≤ r ∧ r < a + n) ∧
        ∀ k' a n : Nat, (firstRegs ns)[k']? = some a → ns[k']? = some n → a ≤ r → r < a + n → k' = k := by
  obtain ⟨ids, h1, h2, h3⟩ := macroIds_spec uniq sub 0 hpos (by omega)
  simp only [Nat.zero_add] at h3
  have hids : ∀ u ∈ ids, u < regs.length := by
    intro u hmem
    obtain ⟨k, hk, hk'⟩ := List.getElem_of_mem hmem
    have := h3 k (by omega)
    rw [List.getElem?_eq_getElem hk, hk'] at this
    exact hu u (List.mem_of_getElem? this.symm)
  obtain ⟨ns, n1, n2, n3⟩ := nregPlane_spec regs ids hids
  have hf : ∀ k, k < ns.length → (firstRegs ns)[k]? = some (ns.take k).sum := by
    intro k hk
    rw [firstRegs_eq]; simp [hk]
  have hfl : (firstRegs ns).length = ns.length := by rw [firstRegs_eq]; simp
  have htake : ∀ k n, ns[k]? = some n → (ns.take (k + 1)).sum = (ns.take k).sum + n := by
    intro k n hn
    rw [List.take_succ, hn]; simp
  refine ⟨ids, ns, h1, n1, h2, by omega, by omega, nRegPlane_eq regs uniq sub 0 ids ns h1 n1, ?_, ?_, ?_, ?_⟩
  · intro k hk
    refine ⟨h3 k hk, ids[k]'(by omega), List.getElem?_eq_getElem _, n3 k _ (List.getElem?_eq_getElem _)⟩
  · rcases Nat.eq_zero_or_pos sub.length with h0 | h0
    · right; exact List.length_eq_zero_iff.mp h0
    · left; rw [hf 0 (by omega)]; simp
  · intro k a n ha hn hk
    have hkn : k < ns.length := by omega
    rw [hf k hkn, Option.some.injEq] at ha
    rw [hf (k + 1) (by omega), htake k n hn, ha]
  · intro r hr
    obtain ⟨k, ⟨k1, k2, k3⟩, kun⟩ := inMacro_existsUnique ns r hr
    refine ⟨k, ⟨_, _, hf k k1, List.getElem?_eq_getElem k1, k2, ?_⟩, ?_⟩
    · rw [htake k _ (List.getElem?_eq_getElem k1)] at k3; exact k3
    · intro k' a n ha hn h1 h2
      have hk' : k' < ns.length := (List.getElem?_eq_some_iff.mp hn).1
      rw [hf k' hk', Option.some.injEq] at ha
      apply kun
      refine ⟨hk', by omega, ?_⟩
      rw [htake k' n hn]; omega

variable {K : Type} [Field K]

theorem volPlane_at (nxy : Nat) (pins : List (List K)) (sub : List Nat) (hs v : List K) (hv : volPlane nxy pins sub hs 0 = some v)
    (hl : sub.length = hs.length) (ns : List Nat) (hn : ns.length = sub.length)
    (hns : ∀ k, k < sub.length → ns[k]? = some (((pins.drop (nxy * (sub.take k).sum)).take nxy).map List.length).sum)
    (hve : v = ((List.range sub.length).map fun k => ((pins.drop (nxy * (0 + (sub.take k).sum))).take nxy).flatMap (·.map (· * hs.getD k 0))).flatten)
    (k : Nat) (hk : k < sub.length) :
    (v.drop (ns.take k).sum).take (ns.getD k 0) = ((pins.drop (nxy * (sub.take k).sum)).take nxy).flatMap (·.map (· * hs.getD k 0)) := by
  subst hve
  set L := (List.range sub.length).map fun k => ((pins.drop (nxy * (0 + (sub.take k).sum))).take nxy).flatMap (·.map (· * hs.getD k 0)) with hL
  have hlen : L.map List.length = ns := by
    apply List.ext_getElem?
    intro j
    by_cases hj : j < sub.length
    · rw [hns j hj, hL]
      simp [hj, List.length_flatMap, Function.comp_def]
    · rw [List.getElem?_eq_none (by simp [hL]; omega), List.getElem?_eq_none (by omega)]
  have hLl : L.length = sub.length := by simp [hL]
  have e : L = L.take k ++ (L[k]'(by omega)) :: L.drop (k + 1) := by simp
  have h1 : (ns.take k).sum = (L.take k).flatten.length := by
    rw [← hlen, ← List.map_take, List.length_flatten]
  have h2 : ns.getD k 0 = (L[k]'(by omega)).length := by
    simp [← hlen, hLl, hk]
  have h3 : L[k]'(by omega) = ((pins.drop (nxy * (sub.take k).sum)).take nxy).flatMap (·.map (· * hs.getD k 0)) := by
    simp [hL]
  conv_lhs => rw [e]
  rw [List.flatten_append, List.flatten_cons, h1, List.drop_left, h2, List.take_left, h3]

/-- C124: so the numbers with which the sweep addresses the regions of a macroplane are those of its regions in the list of volumes: the regions of the pins of its lowest plane, in order,
each with its area times the height of the macroplane. -/
theorem C124_volumes (nxy : Nat) (pins : List (List K)) (regs uniq sub : List Nat) (hs : List K) (hpos : ∀ s ∈ sub, 0 < s) (hsum : sub.sum = uniq.length)
    (hl : sub.length = hs.length) (hp : nxy * sub.sum ≤ pins.length)
    (hu : ∀ (j : Nat) (u : Nat), uniq[j]? = some u → regs[u]? = some (((pins.drop (nxy * j)).take nxy).map List.length).sum)
    (ids ns : List Nat) (v : List K) (hi : macroIds uniq sub 0 = some ids) (hn : nregPlane regs ids = some ns) (hv : volPlane nxy pins sub hs 0 = some v)
    (k a n : Nat) (ha : (firstRegs ns)[k]? = some a) (hnk : ns[k]? = some n) :
    (v.drop a).take n = ((pins.drop (nxy * (sub.take k).sum)).take nxy).flatMap (·.map (· * hs.getD k 0)) := by
  obtain ⟨v', q1, -, q3⟩ := C85_plane nxy pins regs uniq sub hs 0 hpos hl (by simpa using hp) (by
    intro j hj
    have hj' : j < uniq.length := by omega
    exact ⟨uniq[j], List.getElem?_eq_getElem hj', hu j _ (List.getElem?_eq_getElem hj')⟩)
  rw [hv, Option.some.injEq] at q1
  subst q1
  obtain ⟨ids', ns', r1, r2, r3, r4, r5, -, r7, -⟩ := C124_regions regs uniq sub hpos hsum (by
    intro u hm
    obtain ⟨j, hj, rfl⟩ := List.getElem_of_mem hm
    exact (List.getElem?_eq_some_iff.mp (hu j _ (List.getElem?_eq_getElem hj))).1)
  rw [hi, Option.some.injEq] at r1
  subst r1
  rw [hn, Option.some.injEq] at r2
  subst r2
  have hk : k < sub.length := by rw [← r4]; exact (List.getElem?_eq_some_iff.mp hnk).1
  rw [firstRegs_eq] at ha
  have hae : a = (ns.take k).sum := by
    rw [List.getElem?_map, List.getElem?_range (by omega)] at ha
    simpa using ha.symm
  have hne : ns.getD k 0 = n := by simp [hnk]
  rw [hae, ← hne]
  refine volPlane_at nxy pins sub hs v hv hl ns r4 ?_ q3 k hk
  intro j hj
  obtain ⟨s1, u, s2, s3⟩ := r7 j hj
  rw [s3]
  exact hu _ u (by rw [← s1]; exact s2)

/-- The macroplane of each plane, from the sizes. -/
def blocks : List Nat → Nat → List Nat
  | [], _ => []
  | s :: r, ip => List.replicate s ip ++ blocks r (ip + 1)

theorem blocks_length (sub : List Nat) (ip : Nat) : (blocks sub ip).length = sub.sum := by
  induction sub generalizing ip with
  | nil => rfl
  | cons s r ih => simp [blocks, ih]

theorem blocks_get (sub : List Nat) (ip k j : Nat) (h : InMacro sub k j) : (blocks sub ip)[j]? = some (ip + k) := by
  induction sub generalizing ip k j with
  | nil => obtain ⟨h, -, -⟩ := h; simp at h
  | cons s r ih =>
    obtain ⟨h1, h2, h3⟩ := h
    cases k with
    | zero =>
      simp only [List.take_succ_cons, List.take_zero, List.sum_cons, List.sum_nil, add_zero] at h3
      rw [blocks, List.getElem?_append_left (by simpa using h3)]
      simp [h3]
    | succ k =>
      simp only [List.take_succ_cons, List.sum_cons] at h2 h3
      rw [blocks, List.getElem?_append_right (by simp; omega), List.length_replicate, ih (ip + 1) k (j - s) ⟨by simpa using h1, by omega, by omega⟩]
      congr 1; omega

theorem step_replicate (cells s ip : Nat) (v : List Nat) (o : Nat) : (List.replicate s ip).foldl (offsetStep cells) (v, ip, o) = (v, ip, o + s * cells) := by
  induction s generalizing o with
  | zero => simp
  | succ s ih =>
    rw [List.replicate_succ, List.foldl_cons]
    have : offsetStep cells (v, ip, o) ip = (v, ip, o + cells) := by simp [offsetStep]
    rw [this, ih]
    congr 2; ring

theorem step_blocks (cells : Nat) (sub : List Nat) (hpos : ∀ s ∈ sub, 0 < s) (ip : Nat) (v : List Nat) (o : Nat) :
    ((blocks sub (ip + 1)).foldl (offsetStep cells) (v, ip, o)).1 = v ++ (List.range sub.length).map fun k => o + (sub.take k).sum * cells := by
  induction sub generalizing ip v o with
  | nil => simp [blocks]
  | cons s r ih =>
    obtain ⟨t, rfl⟩ : ∃ t, s = t + 1 := ⟨s - 1, by have := hpos s (by simp); omega⟩
    rw [blocks, List.foldl_append, List.replicate_succ, List.foldl_cons]
    have : offsetStep cells (v, ip, o) (ip + 1) = (v ++ [o], ip + 1, o + cells) := by simp [offsetStep]
    rw [this, step_replicate, ih (fun s hs => hpos s (by simp [hs]))]
    rw [List.length_cons, List.range_succ_eq_map]
    simp only [List.map_cons, List.take_zero, List.sum_nil, Nat.zero_mul, Nat.add_zero, List.map_map, List.append_assoc, List.singleton_append]
    congr 2
    apply List.map_congr_left
    intro k _
    simp only [Function.comp, Nat.succ_eq_add_one, List.take_succ_cons, List.sum_cons]
    ring

/-- C124: the offset that the correction worker uses for a macroplane is the number of the first coarse cell of the lowest plane of the macroplane, so that a cell of the macroplane gets the cross
sections of the cell at the same place in that plane. -/
theorem C124_offsets (d : Mesh.Dims) (uniq : List Nat) (dz : List K) (sub : List Nat) (hne : sub ≠ []) (hpos : ∀ s ∈ sub, 0 < s) (hsum : sub.sum = dz.length)
    (hu : uniq.length = dz.length) (ax : Axial K) (hax : buildAxial (d.nx * d.ny) uniq dz sub = some ax) :
    (mplaneOffsets (d.nx * d.ny) ax.index).length = ax.planes.length ∧
    ∀ (k : Nat) (m : MacroPlane K), ax.planes[k]? = some m → ∃ o : Nat, (mplaneOffsets (d.nx * d.ny) ax.index)[k]? = some o ∧ ∀ x y, Mesh.coarseCell d ⟨x, y, 0⟩ + o = Mesh.coarseCell d ⟨x, y, m.izMin⟩ := by
  obtain ⟨hs, a1, a2, -, -⟩ := heights_spec dz sub 0 (by omega)
  obtain ⟨ms, b1, b2, b3⟩ := macroplanes_spec (d.nx * d.ny) uniq sub hs 0 a2 hpos (by omega)
  obtain ⟨idx, c1, c2, -, c4⟩ := fillIndex_spec ms sub 0 0 (List.replicate dz.length 0) b2 (by simp; omega) (by
    intro k m hk; obtain ⟨-, q2, q3, -⟩ := b3 k m hk; exact ⟨q2, q3⟩)
  unfold buildAxial at hax
  rw [a1] at hax
  simp only [b1, c1, Option.some.injEq] at hax
  subst hax
  rw [List.length_replicate] at c2
  have hidx : idx = blocks sub 0 := by
    apply List.ext_getElem?
    intro j
    by_cases hj : j < sub.sum
    · obtain ⟨k, hk, -⟩ := inMacro_existsUnique sub j hj
      have := c4 k j hk
      rw [Nat.zero_add] at this
      rw [this, blocks_get sub 0 k j hk]
    · rw [List.getElem?_eq_none (by omega), List.getElem?_eq_none (by rw [blocks_length]; omega)]
  have hoff : mplaneOffsets (d.nx * d.ny) idx = (List.range sub.length).map fun k => (sub.take k).sum * (d.nx * d.ny) := by
    rw [hidx]
    cases sub with
    | nil => exact absurd rfl hne
    | cons s r =>
      unfold mplaneOffsets
      rw [blocks, List.foldl_append, step_replicate, step_blocks _ _ (fun s hs => hpos s (by simp [hs])), List.length_cons, List.range_succ_eq_map]
      simp only [List.map_cons, List.take_zero, List.sum_nil, Nat.zero_mul, List.map_map, List.singleton_append, Nat.zero_add]
      congr 1
      apply List.map_congr_left
      intro k _
      simp only [Function.comp, Nat.succ_eq_add_one, List.take_succ_cons, List.sum_cons]
      ring
  show (mplaneOffsets (d.nx * d.ny) idx).length = ms.length ∧ ∀ (k : Nat) (m : MacroPlane K), ms[k]? = some m → _
  rw [hoff]
  refine ⟨by simp [b2], ?_⟩
  intro k m hk
  obtain ⟨q1, q2, -⟩ := b3 k m hk
  refine ⟨(sub.take k).sum * (d.nx * d.ny), by simp [q1], ?_⟩
  intro x y
  rw [q2]
  unfold Mesh.coarseCell
  simp only [Nat.zero_add]
  ring

theorem bcDims_loop (n : Nat) (hn : 0 < n) (nx ny : List Nat) (hx : 2 * n ≤ nx.length) (hy : 2 * n ≤ ny.length) (m : Nat) (hm : m ≤ 2 * n) :
    ∃ dims, bcDims n m nx ny = some dims ∧ dims.length = n * 4 ∧
      ∀ j, j < m → dims[j]? = some ⟨ny.getD j 0, nx.getD j 0, 0⟩ ∧ dims[j + 2 * n]? = some ⟨ny.getD j 0, nx.getD j 0, 0⟩ := by
  induction m with
  | zero => exact ⟨_, rfl, by simp, by intro j hj; omega⟩
  | succ m ih =>
    obtain ⟨dims, h1, h2, h3⟩ := ih (by omega)
    have hr : reverse n m 2 = m + 2 * n := by
      unfold reverse; rw [if_pos rfl, Nat.mod_eq_of_lt (by omega)]; omega
    refine ⟨(dims.set m ⟨ny.getD m 0, nx.getD m 0, 0⟩).set (m + 2 * n) ⟨ny.getD m 0, nx.getD m 0, 0⟩, ?_, by simp [h2], ?_⟩
    · unfold bcDims at h1 ⊢
      rw [List.range_succ, List.foldlM_append, h1]
      have ex : nx[m]? = some (nx.getD m 0) := by rw [List.getElem?_eq_getElem (by omega)]; simp [List.getElem?_eq_getElem (show m < nx.length by omega)]
      have ey : ny[m]? = some (ny.getD m 0) := by rw [List.getElem?_eq_getElem (by omega)]; simp [List.getElem?_eq_getElem (show m < ny.length by omega)]
      simp only [Option.bind_eq_bind, Option.bind_some, List.foldlM_cons, List.foldlM_nil, bcStep, ex, ey, hr]
      rw [if_pos ⟨by omega, by omega⟩]
      simp
    · intro j hj
      rcases Nat.lt_or_ge j m with hlt | hge
      · obtain ⟨q1, q2⟩ := h3 j hlt
        rw [List.getElem?_set_ne (by omega), List.getElem?_set_ne (by omega), List.getElem?_set_ne (by omega), List.getElem?_set_ne (by omega)]
        exact ⟨q1, q2⟩
      · obtain rfl : j = m := by omega
        rw [List.getElem?_set_ne (by omega), List.getElem?_set_self (by omega), List.getElem?_set_self (by simp; omega)]
        exact ⟨rfl, rfl⟩

omit [Field K] in
/-- C124: each of the directions of four octants has as many boundary values on the faces normal to x as rays enter there, and as many on those normal to y, and none on top and bottom: one for each
ray of the direction. -/
theorem C124_sizes (core : Bool) (mx my : Nat) (space : Nat → Nat → K) (Ns : List (Nat × Nat)) (hN : Ns ≠ []) :
    ∃ t dims, Rays.Options.tables core mx my space Ns = some t ∧ bcDims Ns.length (2 * Ns.length) t.nx t.ny = some dims ∧ dims.length = 4 * Ns.length ∧
      ∀ o < 4, ∀ i < Ns.length, ∃ a b, t.nx[o * Ns.length + i]? = some a ∧ t.ny[o * Ns.length + i]? = some b ∧ t.n[o * Ns.length + i]? = some (a + b) ∧
        t.nx[i]? = some a ∧ t.ny[i]? = some b ∧ dims[o * Ns.length + i]? = some ⟨b, a, 0⟩ := by
  obtain ⟨t, h1, h2, h3, -, -, h6⟩ := Rays.Options.C123_tables core mx my space Ns hN
  have hpos : 0 < Ns.length := List.length_pos_iff.mpr hN
  obtain ⟨dims, d1, d2, d3⟩ := bcDims_loop Ns.length hpos t.nx t.ny (by omega) (by omega) (2 * Ns.length) le_rfl
  refine ⟨t, dims, h1, d1, by omega, ?_⟩
  intro o ho i hi
  obtain ⟨a, b, ea, eb, q1, q2, q3, -⟩ := h6 o ho i hi
  obtain ⟨a', b', ea', eb', r1, r2, -, -⟩ := h6 0 (by omega) i hi
  obtain ⟨a'', b'', ea'', eb'', s1, s2, -, -⟩ := h6 1 (by omega) i hi
  have e1 : a' = a := by rw [ea, ea']
  have e2 : b' = b := by rw [eb, eb']
  have e3 : a'' = a := by rw [ea, ea'']
  have e4 : b'' = b := by rw [eb, eb'']
  subst e1 e2 e3 e4
  rw [Nat.zero_mul, Nat.zero_add] at r1 r2
  rw [Nat.one_mul] at s1 s2
  refine ⟨_, _, q1, q2, q3, r1, r2, ?_⟩
  obtain ⟨u1, u2⟩ := d3 i (by omega)
  obtain ⟨v1, v2⟩ := d3 (Ns.length + i) (by omega)
  have gr1 : t.nx.getD i 0 = a'' := by simp [r1]
  have gr2 : t.ny.getD i 0 = b'' := by simp [r2]
  have gs1 : t.nx.getD (Ns.length + i) 0 = a'' := by simp [s1]
  have gs2 : t.ny.getD (Ns.length + i) 0 = b'' := by simp [s2]
  rw [gr1, gr2] at u1 u2
  rw [gs1, gs2] at v1 v2
  rcases (by omega : o = 0 ∨ o = 1 ∨ o = 2 ∨ o = 3) with rfl | rfl | rfl | rfl
  · rw [Nat.zero_mul, Nat.zero_add]; exact u1
  · rw [Nat.one_mul]; exact v1
  · rw [Nat.add_comm]; exact u2
  · rw [show 3 * Ns.length + i = Ns.length + i + 2 * Ns.length by ring]; exact v2

theorem mocPre [LinearOrder K] [IsStrictOrderedRing K] (core : Bool) (mx my : Nat) (hmx : 0 < mx) (hmy : 0 < my) (space : Nat → Nat → K) (Ns : List (Nat × Nat))
    (hN : Ns ≠ []) (hNp : ∀ N ∈ Ns, 0 < N.1 ∧ 0 < N.2) (t : Rays.Options.Tables K) (ht : Rays.Options.tables core mx my space Ns = some t) (dims : List Size3)
    (hd : bcDims Ns.length (2 * Ns.length) t.nx t.ny = some dims) (b out : Store K) (first : List (Angle K)) (h1 : b.angles = expand first)
    (h2 : ∀ a ∈ first, Spec.FirstOctant a) (h3 : first.length = Ns.length) (h4 : b.ndirOct = first.length) (h5 : b.size = dims) (h6 : out.size = dims) (h7 : out.nGroup = 1)
    (h8 : ∀ s, b.types s = .VACUUM ∨ b.types s = .REFLECT ∨ b.types s = .PRESCRIBED) :
    Pre b out first := by
  obtain ⟨t', dims', e1, e2, e3, e4⟩ := C124_sizes core mx my space Ns hN
  rw [ht, Option.some.injEq] at e1
  subst e1
  rw [hd, Option.some.injEq] at e2
  subst e2
  have hpos : 0 < Ns.length := List.length_pos_iff.mpr hN
  obtain ⟨t'', q1, -, -, -, -, q6⟩ := Rays.Options.C123_tables core mx my space Ns hN
  rw [ht, Option.some.injEq] at q1
  subst q1
  have key : ∀ o < 4, ∀ i < Ns.length, ∃ a b, 0 < a ∧ 0 < b ∧ t.nx[i]? = some a ∧ t.ny[i]? = some b ∧ dims[o * Ns.length + i]? = some ⟨b, a, 0⟩ := by
    intro o ho i hi
    obtain ⟨a, b, ea, eb, r1, r2, -, -⟩ := q6 0 (by omega) i hi
    rw [Nat.zero_mul, Nat.zero_add] at r1 r2
    obtain ⟨a', b', -, -, -, s4, s5, s6⟩ := e4 o ho i hi
    rw [s4, Option.some.injEq] at r1
    rw [s5, Option.some.injEq] at r2
    subst r1 r2
    obtain ⟨p1, p2⟩ := hNp _ (List.getElem_mem hi)
    refine ⟨a', b', ?_, ?_, s4, s5, s6⟩
    · rw [ea]; split_ifs
      · exact p1
      · exact Nat.mul_pos p1 hmx
    · rw [eb]; split_ifs
      · exact p2
      · exact Nat.mul_pos p2 hmy
  have hz : ∀ a, cnt dims a .Z = 0 := by
    intro a
    by_cases ha : a < dims.length
    · obtain ⟨x, y, -, -, -, -, hs⟩ := key (a / Ns.length) (by rw [Nat.div_lt_iff_lt_mul hpos]; omega) (a % Ns.length) (Nat.mod_lt _ hpos)
      rw [Nat.div_add_mod' a Ns.length] at hs
      rw [cnt_of hs]; rfl
    · simp [cnt, List.getElem?_eq_none (show dims.length ≤ a by omega)]
  refine ⟨h1, h2, h4, Or.inr ⟨by rw [h5, h3]; exact e3, by rw [h5]; exact hz⟩, by rw [h5, h6], h7, ?_, ?_, ?_⟩
  · intro a n hc
    rw [h5] at hc ⊢
    rw [h3]
    have ha : a < dims.length := cnt_lt_length hc
    have ho : a / Ns.length < 4 := by rw [Nat.div_lt_iff_lt_mul hpos]; omega
    have hi := Nat.mod_lt a hpos
    have hsplit := Nat.div_add_mod' a Ns.length
    obtain ⟨x, y, -, -, u1, u2, hs⟩ := key _ ho _ hi
    have hne : n ≠ .Z := by rintro rfl; exact hc (hz a)
    have hrf := reflect_eq' Ns.length (a / Ns.length) (a % Ns.length) (by omega) hi n
    rw [hsplit] at hrf hs
    have ho' : octMirror n (a / Ns.length) < 4 := by
      generalize a / Ns.length = o at ho
      rcases (by omega : o = 0 ∨ o = 1 ∨ o = 2 ∨ o = 3) with rfl | rfl | rfl | rfl <;> cases n <;> first | exact absurd rfl hne | decide
    obtain ⟨x', y', -, -, v1, v2, hs'⟩ := key _ ho' _ hi
    rw [u1, Option.some.injEq] at v1
    rw [u2, Option.some.injEq] at v2
    subst v1 v2
    have : BC.refl Ns.length a n = octMirror n (a / Ns.length) * Ns.length + a % Ns.length := by simp [BC.refl, hrf]
    rw [this, cnt_of hs, cnt_of hs']
  · intro a
    rw [h5]
    refine ⟨?_, fun _ => hz a⟩
    by_cases ha : a < dims.length
    · obtain ⟨x, y, p1, p2, -, -, hs⟩ := key (a / Ns.length) (by rw [Nat.div_lt_iff_lt_mul hpos]; omega) (a % Ns.length) (Nat.mod_lt _ hpos)
      rw [Nat.div_add_mod' a Ns.length] at hs
      rw [cnt_of hs, cnt_of hs]
      intro h0
      have : y = 0 := h0
      omega
    · intro _
      simp [cnt, List.getElem?_eq_none (show dims.length ≤ a by omega)]
  · exact h8

/-- C124: with these sizes the boundary update does what it has to (C17): if each direction has at least one ray on each side, the update is defined for all groups and boundary conditions that it
knows, reflected values come from the mirrored direction, vacuum gives zero, and all other values stay.  The gap of C17 (an empty face before one with values) does not occur. -/
theorem C124_update [LinearOrder K] [IsStrictOrderedRing K] (core : Bool) (mx my : Nat) (hmx : 0 < mx) (hmy : 0 < my) (space : Nat → Nat → K) (Ns : List (Nat × Nat))
    (hN : Ns ≠ []) (hNp : ∀ N ∈ Ns, 0 < N.1 ∧ 0 < N.2) (t : Rays.Options.Tables K) (ht : Rays.Options.tables core mx my space Ns = some t) (dims : List Size3)
    (hd : bcDims Ns.length (2 * Ns.length) t.nx t.ny = some dims) (b out : Store K) (first : List (Angle K)) (h1 : b.angles = expand first)
    (h2 : ∀ a ∈ first, Spec.FirstOctant a) (h3 : first.length = Ns.length) (h4 : b.ndirOct = first.length) (h5 : b.size = dims) (h6 : out.size = dims) (h7 : out.nGroup = 1)
    (h8 : ∀ s, b.types s = .VACUUM ∨ b.types s = .REFLECT ∨ b.types s = .PRESCRIBED) (g : Nat) :
    ∃ b', update g out b = .ok b' ∧ Same b b' ∧ PhysicalUpdate b out b' g :=
  C17_update_partial b out first (mocPre core mx my hmx hmy space Ns hN hNp t ht dims hd b out first h1 h2 h3 h4 h5 h6 h7 h8) g

/-- C124: the same for the update after one direction `x` (Gauss-Seidel): the values of the directions that mirror into `x` change, and no others. -/
theorem C124_update_angle [LinearOrder K] [IsStrictOrderedRing K] (core : Bool) (mx my : Nat) (hmx : 0 < mx) (hmy : 0 < my) (space : Nat → Nat → K) (Ns : List (Nat × Nat))
    (hN : Ns ≠ []) (hNp : ∀ N ∈ Ns, 0 < N.1 ∧ 0 < N.2) (t : Rays.Options.Tables K) (ht : Rays.Options.tables core mx my space Ns = some t) (dims : List Size3)
    (hd : bcDims Ns.length (2 * Ns.length) t.nx t.ny = some dims) (b out : Store K) (first : List (Angle K)) (h1 : b.angles = expand first)
    (h2 : ∀ a ∈ first, Spec.FirstOctant a) (h3 : first.length = Ns.length) (h4 : b.ndirOct = first.length) (h5 : b.size = dims) (h6 : out.size = dims) (h7 : out.nGroup = 1)
    (h8 : ∀ s, b.types s = .VACUUM ∨ b.types s = .REFLECT ∨ b.types s = .PRESCRIBED) (g x : Nat) (hx : x < 4 * Ns.length) :
    ∃ b', updateAngle g x out b = .ok b' ∧ Same b b' ∧
      ∀ g' a n e p ang, StoredAt b g' a n e p → b.angles[a]? = some ang →
        (g' ≠ g ∨ reflect b.ndirOct a n ≠ some x → b'.data p = b.data p) ∧
        (g' = g → reflect b.ndirOct a n = some x →
          (b.types (upwindSurface ang n) = .VACUUM → b'.data p = 0) ∧
          (b.types (upwindSurface ang n) = .PRESCRIBED → b'.data p = b.data p) ∧
          (b.types (upwindSurface ang n) = .REFLECT → b.angles[x]? = some (Spec.mirror ang n) ∧ ∃ q, StoredAt out 0 x n e q ∧ b'.data p = out.data q)) := by
  obtain ⟨t', dims', e1, e2, e3, -⟩ := C124_sizes core mx my space Ns hN
  rw [ht, Option.some.injEq] at e1
  subst e1
  rw [hd, Option.some.injEq] at e2
  subst e2
  exact C17_update_angle_partial b out first (mocPre core mx my hmx hmy space Ns hN hNp t ht dims hd b out first h1 h2 h3 h4 h5 h6 h7 h8) g x (by rw [h5, e3]; exact hx)

/-! ## Instances -/

/-- Three macroplanes of one, two and one planes with two geometries of 5 and 7 regions. -/
example : macroIds [0, 1, 1, 0] [1, 2, 1] 0 = some [0, 1, 0] ∧ nregPlane [5, 7] [0, 1, 0] = some [5, 7, 5] ∧ firstRegs [5, 7, 5] = [0, 5, 12] := by decide

example : ∃ k : Nat, ∃ a n : Nat, (firstRegs [5, 7, 5])[k]? = some a ∧ ([5, 7, 5] : List Nat)[k]? = some n ∧ a ≤ 11 ∧ 11 < a + n := by
  obtain ⟨ids, ns, h1, h2, -, -, -, h3, -, -, -, h4⟩ := C124_regions [5, 7] [0, 1, 1, 0] [1, 2, 1] (by decide) (by decide) (by decide)
  obtain rfl : ids = [0, 1, 0] := by
    have : macroIds [0, 1, 1, 0] [1, 2, 1] 0 = some [0, 1, 0] := by decide
    rw [this] at h1; simpa using h1.symm
  obtain rfl : ns = [5, 7, 5] := by
    have : nregPlane [5, 7] [0, 1, 0] = some [5, 7, 5] := by decide
    rw [this] at h2; simpa using h2.symm
  obtain ⟨k, ⟨a, n, q⟩, -⟩ := h4 11 (by decide)
  exact ⟨k, a, n, q⟩

example : mplaneOffsets 6 [0, 1, 1, 2] = [0, 6, 18] := by decide

example : ∃ ax : Axial ℚ, buildAxial 6 [0, 1, 1, 0] [1, 2, 2, 1] [1, 2, 1] = some ax ∧ (mplaneOffsets 6 ax.index).length = ax.planes.length := by
  obtain ⟨ax, h1, -⟩ := C48_partition (K := ℚ) 6 [0, 1, 1, 0] [1, 2, 2, 1] [1, 2, 1] (by decide) (by decide) (by decide)
  exact ⟨ax, h1, (C124_offsets (K := ℚ) ⟨2, 3, 4⟩ [0, 1, 1, 0] [1, 2, 2, 1] [1, 2, 1] (by decide) (by decide) (by decide) (by decide) ax h1).1⟩

/-- Two planes of one pin each, with two and one regions, in two macroplanes of heights 10 and 20. -/
example : ([10, 20, 80] : List ℚ).drop 2 = [80] := by
  have := C124_volumes (K := ℚ) 1 [[1, 2], [4]] [2, 1] [0, 1] [1, 1] [10, 20] (by decide) (by decide) (by decide) (by decide) (by
    intro j u h
    rcases (by have := (List.getElem?_eq_some_iff.mp h).1; simp at this; omega : j = 0 ∨ j = 1) with rfl | rfl <;> · simp at h; subst h; rfl)
    [0, 1] [2, 1] [10, 20, 80] (by decide) (by decide) (by norm_num [volPlane]) 1 2 1 (by decide) (by decide)
  simpa using this

/-- Two angles in the first octant with 3 and 1 rays on the faces normal to y and 2 and 4 on those normal to x. -/
example : bcDims 2 4 [3, 1, 3, 1, 3, 1, 3, 1] [2, 4, 2, 4, 2, 4, 2, 4] =
    some [⟨2, 3, 0⟩, ⟨4, 1, 0⟩, ⟨2, 3, 0⟩, ⟨4, 1, 0⟩, ⟨2, 3, 0⟩, ⟨4, 1, 0⟩, ⟨2, 3, 0⟩, ⟨4, 1, 0⟩] := by decide

/-- One angle with rays (3, 2), reflected everywhere; the value 7 leaves. -/
def demoSides (v : ℚ) : Store ℚ :=
  { nGroup := 1, types := fun _ => .REFLECT, size := List.replicate 4 ⟨2, 3, 0⟩, ndirOct := 1, angles := expand exAngles, data := fun _ => v }

example : ∃ b', updateAngle 0 1 (demoSides 7) (demoSides 0) = .ok b' ∧ b'.data 1 = 7 ∧ b'.data 2 = 0 := by
  obtain ⟨b', h1, -, h3⟩ := C124_update_angle (K := ℚ) true 1 1 (by decide) (by decide) (fun _ _ => 1) [(3, 2)] (by decide) (by decide) ⟨[3, 3, 3, 3], [2, 2, 2, 2], [5, 5, 5, 5], [1, 1, 1, 1]⟩
    (by rfl) (List.replicate 4 ⟨2, 3, 0⟩) (by decide) (demoSides 0) (demoSides 7) exAngles rfl exAngles_first rfl rfl rfl rfl rfl (fun _ => Or.inr (Or.inl rfl)) 0 1 (by decide)
  refine ⟨b', h1, ?_, ?_⟩
  · have hst : StoredAt (demoSides 0) 0 0 .X 1 1 := ⟨2, 0, by rfl, by decide, rfl⟩
    obtain ⟨-, hr⟩ := h3 0 0 .X 1 1 _ hst rfl
    obtain ⟨-, q, -, hd⟩ := (hr rfl (by decide)).2.2 rfl
    rw [hd]; rfl
  · have hst : StoredAt (demoSides 0) 0 0 .Y 0 2 := ⟨3, 2, by rfl, by decide, rfl⟩
    obtain ⟨hr, -⟩ := h3 0 0 .Y 0 2 _ hst rfl
    rw [hr (Or.inr (by decide))]; rfl

end Verif.Moc.Tables
