import Verif.Core.UniqueModel
import Verif.Util.Prefix

/-!
# C84: planes of equal geometry are recognised
-/

namespace Verif.Core

/-- The dimensions and meshes of a lattice. -/
def LatKey.shape (l : LatKey) : Nat × Nat × List Int := (l.nx, l.ny, l.meshes)

/-- The dimensions of a plane and of its lattices, and the mesh of every pin. -/
def PlaneKey.shape (p : PlaneKey) : Nat × Nat × List (Nat × Nat × List Int) := (p.nx, p.ny, p.lats.map LatKey.shape)

/-- A plane as it is built: as many lattices as places, as many pins as places in each, and `regs m` regions and `xsregs m` cross-section
regions in a pin with mesh `m`. -/
structure Sized (regs xsregs : Int → Nat) (p : PlaneKey) : Prop where
  len : p.lats.length = p.nx * p.ny
  lat : ∀ l ∈ p.lats, l.meshes.length = l.nx * l.ny ∧ l.nReg = (l.meshes.map regs).sum ∧ l.nXsreg = (l.meshes.map xsregs).sum

theorem sameMeshes_eq (a : List Int) : ∀ b : List Int, a.length = b.length → sameMeshes a b = some (decide (a = b)) := by
  induction a with
  | nil => intro b h; have : b = [] := by simpa using h.symm
           subst this; rfl
  | cons x a ih =>
    intro b h
    cases b with
    | nil => simp at h
    | cons y b =>
      simp only [sameMeshes]
      by_cases hxy : x = y
      · subst hxy
        simp [ih b (by simpa using h)]
      · simp [hxy]

theorem lat_equiv (regs xsregs : Int → Nat) (a b : LatKey) (ha : a.meshes.length = a.nx * a.ny ∧ a.nReg = (a.meshes.map regs).sum ∧
    a.nXsreg = (a.meshes.map xsregs).sum) (hb : b.meshes.length = b.nx * b.ny ∧ b.nReg = (b.meshes.map regs).sum ∧
    b.nXsreg = (b.meshes.map xsregs).sum) : a.equiv b = some (decide (a.shape = b.shape)) := by
  unfold LatKey.equiv LatKey.shape
  split_ifs with h1 h2
  · congr 1
    symm
    rw [decide_eq_false_iff_not]
    intro h
    simp only [Prod.mk.injEq] at h
    rcases h1 with h1 | h1
    · exact h1 h.1
    · exact h1 h.2.1
  · congr 1
    symm
    rw [decide_eq_false_iff_not]
    intro h
    simp only [Prod.mk.injEq] at h
    rcases h2 with h2 | h2
    · exact h2 (by rw [ha.2.1, hb.2.1, h.2.2])
    · exact h2 (by rw [ha.2.2, hb.2.2, h.2.2])
  · push Not at h1
    rw [sameMeshes_eq _ _ (by rw [ha.1, hb.1, h1.1, h1.2])]
    simp [h1.1, h1.2]

theorem sameLats_eq (regs xsregs : Int → Nat) (a : List LatKey) : ∀ b : List LatKey, a.length = b.length →
    (∀ l ∈ a, l.meshes.length = l.nx * l.ny ∧ l.nReg = (l.meshes.map regs).sum ∧ l.nXsreg = (l.meshes.map xsregs).sum) →
    (∀ l ∈ b, l.meshes.length = l.nx * l.ny ∧ l.nReg = (l.meshes.map regs).sum ∧ l.nXsreg = (l.meshes.map xsregs).sum) →
    sameLats a b = some (decide (a.map LatKey.shape = b.map LatKey.shape)) := by
  induction a with
  | nil => intro b h _ _; have : b = [] := by simpa using h.symm
           subst this; rfl
  | cons x a ih =>
    intro b h ha hb
    cases b with
    | nil => simp at h
    | cons y b =>
      simp only [sameLats]
      rw [lat_equiv regs xsregs x y (ha x (List.mem_cons_self ..)) (hb y (List.mem_cons_self ..))]
      by_cases hxy : x.shape = y.shape
      · simp only [hxy, decide_true]
        rw [ih b (by simpa using h) (fun l hl => ha l (List.mem_cons_of_mem _ hl)) (fun l hl => hb l (List.mem_cons_of_mem _ hl))]
        simp [hxy]
      · simp [hxy]

theorem sums_of_shapes (regs : Int → Nat) (f : LatKey → Nat) (a : List LatKey) : ∀ b : List LatKey,
    (∀ l ∈ a, f l = (l.meshes.map regs).sum) → (∀ l ∈ b, f l = (l.meshes.map regs).sum) →
    a.map LatKey.shape = b.map LatKey.shape → (a.map f).sum = (b.map f).sum := by
  intro b ha hb h
  have key : ∀ c : List LatKey, (∀ l ∈ c, f l = (l.meshes.map regs).sum) →
      c.map f = (c.map LatKey.shape).map fun s => (s.2.2.map regs).sum := by
    intro c hc
    rw [List.map_map]
    exact List.map_congr_left fun l hl => hc l hl
  rw [key a ha, key b hb, h]

/-- C84: planes are equivalent if and only if the same meshes are at the same places. -/
theorem C84_equiv (regs xsregs : Int → Nat) (p q : PlaneKey) (hp : Sized regs xsregs p) (hq : Sized regs xsregs q) :
    p.equiv q = some (decide (p.shape = q.shape)) := by
  unfold PlaneKey.equiv
  split_ifs with h1 h2
  · congr 1
    symm
    rw [decide_eq_false_iff_not]
    intro h
    simp only [PlaneKey.shape, Prod.mk.injEq] at h
    rcases h1 with h1 | h1
    · exact h1 h.1
    · exact h1 h.2.1
  · congr 1
    symm
    rw [decide_eq_false_iff_not]
    intro h
    simp only [PlaneKey.shape, Prod.mk.injEq] at h
    rcases h2 with h2 | h2
    · exact h2 (sums_of_shapes regs _ _ _ (fun l hl => (hp.lat l hl).2.1) (fun l hl => (hq.lat l hl).2.1) h.2.2)
    · exact h2 (sums_of_shapes xsregs _ _ _ (fun l hl => (hp.lat l hl).2.2) (fun l hl => (hq.lat l hl).2.2) h.2.2)
  · push Not at h1
    rw [sameLats_eq regs xsregs _ _ (by rw [hp.len, hq.len, h1.1, h1.2]) hp.lat hq.lat]
    simp [PlaneKey.shape, h1.1, h1.2]

theorem findPlane_spec (regs xsregs : Int → Nat) (t : PlaneKey) (ht : Sized regs xsregs t) (ps : List PlaneKey) :
    ∀ i, (∀ p ∈ ps, Sized regs xsregs p) → ∃ k, findPlane t ps i = some (i + k) ∧ k ≤ ps.length ∧
      (∀ p, ps[k]? = some p → p.shape = t.shape) ∧ (∀ j p, j < k → ps[j]? = some p → p.shape ≠ t.shape) := by
  induction ps with
  | nil => intro i _; exact ⟨0, rfl, Nat.le_refl _, by simp, by simp⟩
  | cons p ps ih =>
    intro i h
    simp only [findPlane]
    rw [C84_equiv regs xsregs p t (h p (List.mem_cons_self ..)) ht]
    by_cases hs : p.shape = t.shape
    · refine ⟨0, by simp [hs], Nat.zero_le _, by simp [hs], by intro j p hj; omega⟩
    · obtain ⟨k, h1, h2, h3, h4⟩ := ih (i + 1) fun q hq => h q (List.mem_cons_of_mem _ hq)
      refine ⟨k + 1, ?_, by simpa using h2, by simpa using h3, ?_⟩
      · simp only [hs, decide_false, h1]
        congr 1; omega
      · intro j q hj hq
        cases j with
        | zero => simp at hq; subst hq; exact hs
        | succ j => exact h4 j q (by omega) (by simpa using hq)

/-- What holds after some planes `done`. -/
structure UniqueGood (done : List PlaneKey) (u : Unique) : Prop where
  lenIds : u.ids.length = done.length
  lenReg : u.firstReg.length = done.length
  lenFirst : u.first.length = u.planes.length
  ids : ∀ (iz : Nat) t, done[iz]? = some t → ∃ (k : Nat) (p : PlaneKey), u.ids[iz]? = some k ∧ u.planes[k]? = some p ∧ p.shape = t.shape
  apart : ∀ (i j : Nat) p q, u.planes[i]? = some p → u.planes[j]? = some q → p.shape = q.shape → i = j
  first : ∀ (k iz : Nat), u.first[k]? = some iz → ∃ t, done[iz]? = some t ∧ u.planes[k]? = some t ∧ u.ids[iz]? = some k ∧
    ∀ jz : Nat, u.ids[jz]? = some k → iz ≤ jz
  reg : u.reg = (done.map (·.nReg)).sum
  firstReg : ∀ iz : Nat, iz < done.length → u.firstReg[iz]? = some ((done.take iz).map (·.nReg)).sum

theorem get_append_last {α : Type} (l : List α) (a : α) (i : Nat) (b : α) :
    (l ++ [a])[i]? = some b ↔ (i < l.length ∧ l[i]? = some b) ∨ (i = l.length ∧ a = b) := by
  rcases Nat.lt_trichotomy i l.length with h | h | h
  · rw [List.getElem?_append_left h]
    constructor
    · intro hh; exact Or.inl ⟨h, hh⟩
    · rintro (⟨-, hh⟩ | ⟨hh, -⟩)
      · exact hh
      · omega
  · subst h
    simp
  · rw [List.getElem?_eq_none (by simp; omega)]
    constructor
    · intro hh; cases hh
    · rintro (⟨hh, -⟩ | ⟨hh, -⟩) <;> omega

theorem uniqueLoop_spec (regs xsregs : Int → Nat) (ts : List PlaneKey) : ∀ (done : List PlaneKey) (u : Unique), UniqueGood done u →
    (∀ p ∈ u.planes, Sized regs xsregs p) → (∀ t ∈ ts, Sized regs xsregs t) →
    ∃ v, uniqueLoop ts done.length u = some v ∧ UniqueGood (done ++ ts) v := by
  induction ts with
  | nil => intro done u h _ _; exact ⟨u, rfl, by simpa using h⟩
  | cons t ts ih =>
    intro done u h hp ht
    obtain ⟨k, h1, h2, h3, h4⟩ := findPlane_spec regs xsregs t (ht t (List.mem_cons_self ..)) u.planes 0 hp
    rw [Nat.zero_add] at h1
    simp only [uniqueLoop, h1]
    have hlt : ∀ (iz : Nat) b, u.ids[iz]? = some b → iz < done.length := fun iz b hb => by
      rw [← h.lenIds]; exact (List.getElem?_eq_some_iff.mp hb).1
    have good : UniqueGood (done ++ [t])
        { planes := if k = u.planes.length then u.planes ++ [t] else u.planes
          first := if k = u.planes.length then u.first ++ [done.length] else u.first
          ids := u.ids ++ [k]
          firstReg := u.firstReg ++ [u.reg]
          reg := u.reg + t.nReg } := by
      by_cases hk : k = u.planes.length
      · simp only [if_pos hk]
        constructor
        · simp [h.lenIds]
        · simp [h.lenReg]
        · simp [h.lenFirst]
        · intro iz s hs
          rw [get_append_last] at hs
          rcases hs with ⟨hi, hs⟩ | ⟨hi, rfl⟩
          · obtain ⟨j, p, j1, j2, j3⟩ := h.ids iz s hs
            refine ⟨j, p, ?_, ?_, j3⟩
            · simp only [get_append_last]; exact Or.inl ⟨by rw [h.lenIds]; exact hi, j1⟩
            · simp only [get_append_last]; exact Or.inl ⟨(List.getElem?_eq_some_iff.mp j2).1, j2⟩
          · refine ⟨k, t, ?_, ?_, rfl⟩
            · simp only [get_append_last]; exact Or.inr ⟨by rw [h.lenIds]; exact hi, trivial⟩
            · simp only [get_append_last]; exact Or.inr ⟨hk, trivial⟩
        · intro i j p q hi hj hpq
          simp only [get_append_last] at hi hj
          rcases hi with ⟨hi, hi'⟩ | ⟨hi, rfl⟩ <;> rcases hj with ⟨hj, hj'⟩ | ⟨hj, rfl⟩
          · exact h.apart i j p q hi' hj' hpq
          · exact absurd hpq (h4 i p (by omega) hi')
          · exact absurd hpq.symm (h4 j q (by omega) hj')
          · omega
        · intro j iz hj
          simp only [get_append_last] at hj
          rcases hj with ⟨hj, hj'⟩ | ⟨hj, rfl⟩
          · obtain ⟨s, s1, s2, s3, s4⟩ := h.first j iz hj'
            refine ⟨s, ?_, ?_, ?_, ?_⟩
            · rw [get_append_last]; exact Or.inl ⟨(List.getElem?_eq_some_iff.mp s1).1, s1⟩
            · rw [get_append_last]; exact Or.inl ⟨(List.getElem?_eq_some_iff.mp s2).1, s2⟩
            · rw [get_append_last]; exact Or.inl ⟨(List.getElem?_eq_some_iff.mp s3).1, s3⟩
            · intro jz hjz
              rw [get_append_last] at hjz
              rcases hjz with ⟨-, hjz⟩ | ⟨-, hjz⟩
              · exact s4 jz hjz
              · have := (List.getElem?_eq_some_iff.mp s2).1; omega
          · refine ⟨t, ?_, ?_, ?_, ?_⟩
            · rw [get_append_last]; exact Or.inr ⟨rfl, rfl⟩
            · rw [get_append_last]; exact Or.inr ⟨by rw [hj, h.lenFirst], rfl⟩
            · rw [get_append_last]; exact Or.inr ⟨h.lenIds.symm, by rw [hk, hj, h.lenFirst]⟩
            · intro jz hjz
              rw [get_append_last] at hjz
              rcases hjz with ⟨hl, hjz⟩ | ⟨hl, -⟩
              · have hl' := hlt jz _ hjz
                obtain ⟨t', ht'⟩ : ∃ t', done[jz]? = some t' := ⟨done[jz], List.getElem?_eq_getElem hl'⟩
                obtain ⟨k', p', k1, k2, -⟩ := h.ids jz t' ht'
                rw [hjz] at k1
                obtain rfl := Option.some.inj k1
                have := (List.getElem?_eq_some_iff.mp k2).1
                rw [hj, h.lenFirst] at this; omega
              · rw [hl, h.lenIds]
        · simp [h.reg]
        · intro iz hiz
          simp only [get_append_last]
          rw [List.length_append, List.length_singleton] at hiz
          by_cases hi : iz < done.length
          · left
            refine ⟨by rw [h.lenReg]; exact hi, ?_⟩
            rw [h.firstReg iz hi, List.take_append_of_le_length (by omega)]
          · right
            have : iz = done.length := by omega
            subst this
            exact ⟨h.lenReg.symm, by rw [h.reg, List.take_left']; rfl⟩
      · simp only [if_neg hk]
        have hkl : k < u.planes.length := by omega
        have hsame := h3 _ (List.getElem?_eq_getElem hkl)
        constructor
        · simp [h.lenIds]
        · simp [h.lenReg]
        · exact h.lenFirst
        · intro iz s hs
          rw [get_append_last] at hs
          rcases hs with ⟨hi, hs⟩ | ⟨hi, rfl⟩
          · obtain ⟨j, p, j1, j2, j3⟩ := h.ids iz s hs
            refine ⟨j, p, ?_, j2, j3⟩
            simp only [get_append_last]; exact Or.inl ⟨by rw [h.lenIds]; exact hi, j1⟩
          · refine ⟨k, _, ?_, List.getElem?_eq_getElem hkl, hsame⟩
            simp only [get_append_last]; exact Or.inr ⟨by rw [h.lenIds]; exact hi, trivial⟩
        · exact h.apart
        · intro j iz hj
          obtain ⟨s, s1, s2, s3, s4⟩ := h.first j iz hj
          refine ⟨s, ?_, s2, ?_, ?_⟩
          · rw [get_append_last]; exact Or.inl ⟨(List.getElem?_eq_some_iff.mp s1).1, s1⟩
          · rw [get_append_last]; exact Or.inl ⟨(List.getElem?_eq_some_iff.mp s3).1, s3⟩
          · intro jz hjz
            rw [get_append_last] at hjz
            rcases hjz with ⟨-, hjz⟩ | ⟨hjz, -⟩
            · exact s4 jz hjz
            · have := (List.getElem?_eq_some_iff.mp s3).1; omega
        · simp [h.reg]
        · intro iz hiz
          simp only [get_append_last]
          rw [List.length_append, List.length_singleton] at hiz
          by_cases hi : iz < done.length
          · left
            refine ⟨by rw [h.lenReg]; exact hi, ?_⟩
            rw [h.firstReg iz hi, List.take_append_of_le_length (by omega)]
          · right
            have : iz = done.length := by omega
            subst this
            exact ⟨h.lenReg.symm, by rw [h.reg, List.take_left']; rfl⟩
    have hpl : ∀ p ∈ (if k = u.planes.length then u.planes ++ [t] else u.planes), Sized regs xsregs p := by
      intro p hpm
      split_ifs at hpm with hk
      · rcases List.mem_append.mp hpm with hpm | hpm
        · exact hp p hpm
        · rw [List.mem_singleton.mp hpm]; exact ht t (List.mem_cons_self ..)
      · exact hp p hpm
    obtain ⟨v, hv, gv⟩ := ih (done ++ [t]) _ good hpl fun s hs => ht s (List.mem_cons_of_mem _ hs)
    refine ⟨v, ?_, by simpa using gv⟩
    rw [List.length_append, List.length_singleton] at hv
    exact hv

/-- C84: the search succeeds.  Plane `iz` has the meshes of unique plane `unique_plane_ids_[iz]` at the same places, no two unique planes
have, `first_unique_` is the lowest plane of each kind, and `first_reg_plane_` counts the regions of the planes below. -/
theorem C84_unique (regs xsregs : Int → Nat) (ts : List PlaneKey) (h : ∀ t ∈ ts, Sized regs xsregs t) :
    ∃ u, uniquePlanes ts = some u ∧ UniqueGood ts u := by
  have g0 : UniqueGood [] (⟨[], [], [], [], 0⟩ : Unique) := by
    constructor <;> simp
  obtain ⟨v, hv, gv⟩ := uniqueLoop_spec regs xsregs ts [] _ g0 (by simp) h
  exact ⟨v, hv, by simpa using gv⟩

/-- C84: two planes get the same unique plane if and only if they have the same meshes at the same places. -/
theorem C84_shared (regs xsregs : Int → Nat) (ts : List PlaneKey) (h : ∀ t ∈ ts, Sized regs xsregs t) (u : Unique)
    (hu : uniquePlanes ts = some u) (i j : Nat) (s t : PlaneKey) (hs : ts[i]? = some s) (ht : ts[j]? = some t) :
    u.ids[i]? = u.ids[j]? ↔ s.shape = t.shape := by
  obtain ⟨v, hv, g⟩ := C84_unique regs xsregs ts h
  rw [hu] at hv
  obtain rfl := Option.some.inj hv
  obtain ⟨k, p, k1, k2, k3⟩ := g.ids i s hs
  obtain ⟨k', p', k1', k2', k3'⟩ := g.ids j t ht
  rw [k1, k1', ← k3, ← k3']
  constructor
  · intro e
    obtain rfl := Option.some.inj e
    rw [k2] at k2'
    obtain rfl := Option.some.inj k2'
    rfl
  · intro e
    rw [g.apart k k' p p' k2 k2' e]

/-- Three planes of one lattice of one pin, the first and the last with the same mesh. -/
example : (uniquePlanes [⟨1, 1, [⟨1, 1, 4, 2, [7]⟩]⟩, ⟨1, 1, [⟨1, 1, 5, 1, [8]⟩]⟩, ⟨1, 1, [⟨1, 1, 4, 2, [7]⟩]⟩]).map
    (fun u => (u.ids, u.first, u.firstReg)) = some ([0, 1, 0], [0, 1], [0, 4, 9]) := by decide

example : Sized (fun m => if m = 7 then 4 else 5) (fun m => if m = 7 then 2 else 1) ⟨1, 1, [⟨1, 1, 4, 2, [7]⟩]⟩ := by
  refine ⟨rfl, ?_⟩
  decide

end Verif.Core
