import Verif.Core.PinsModel
import Verif.Core.LatticeProps
import Verif.Util.Prefix
import Verif.Mesh.Lemmas
import Mathlib.Tactic.Ring
import Mathlib.Tactic.FieldSimp
import Mathlib.Tactic.Linarith

/-!
# C83: numbering and positions of the pins of the core
-/

namespace Verif.Core

open Verif.Util

variable {P K : Type}

/-- The lattices of a plane fit together pin by pin: those in column `ax` have `wx[ax]` columns of pins, those in row `ay` have `wy[ay]`
rows. -/
structure Layout (g : PlaneP P K) (wx wy : List Nat) : Prop where
  lx : wx.length = g.nx
  ly : wy.length = g.ny
  len : g.lats.length = g.nx * g.ny
  lat : ∀ ax ay (hx : ax < wx.length) (hy : ay < wy.length), ∃ l, g.lats[ay * g.nx + ax]? = some l ∧ l.nx = wx[ax] ∧ l.ny = wy[ay] ∧
    l.pins.length = wx[ax] * wy[ay]
  posx : ∀ w ∈ wx, 0 < w
  posy : ∀ w ∈ wy, 0 < w

theorem mapM_some {α β : Type} (f : α → Option β) (h : α → β) (l : List α) (hl : ∀ a ∈ l, f a = some (h a)) :
    l.mapM f = some (l.map h) := by
  induction l with
  | nil => rfl
  | cons a l ih =>
    rw [List.mapM_cons, hl a (List.mem_cons_self ..), ih fun b hb => hl b (List.mem_cons_of_mem _ hb)]
    rfl

theorem mapM_length {α β : Type} (f : α → Option β) (l : List α) : ∀ r, l.mapM f = some r → r.length = l.length := by
  induction l with
  | nil => intro r h; cases h; rfl
  | cons a l ih =>
    intro r h
    rw [List.mapM_cons] at h
    cases h1 : f a with
    | none => rw [h1] at h; cases h
    | some b =>
      cases h2 : l.mapM f with
      | none => rw [h1, h2] at h; cases h
      | some bs =>
        rw [h1, h2] at h
        cases h
        simp [ih bs h2]

/-- C83: in an accepted lattice all pins of a column have the same pitch in x and all pins of a row the same pitch in y; these are stored. -/
theorem C83_lattice [DecidableEq K] (pitchX pitchY : P → K) (nx ny : Nat) (pins : List P) (l : Lattice P K)
    (h : mkLattice pitchX pitchY nx ny pins = some l) :
    l.nx = nx ∧ l.ny = ny ∧ l.pins = pins ∧ l.hxs.length = nx ∧ l.hys.length = ny ∧
    ∀ ix iy (hix : ix < l.hxs.length) (hiy : iy < l.hys.length),
      ∃ p, pins[iy * nx + ix]? = some p ∧ pitchX p = l.hxs[ix] ∧ pitchY p = l.hys[iy] := by
  unfold mkLattice at h
  cases h1 : (List.range nx).mapM fun ix => pins[ix]?.map pitchX with
  | none => simp only [h1] at h; cases h
  | some hxs =>
    cases h2 : (List.range ny).mapM fun iy => pins[iy * nx]?.map pitchY with
    | none => simp only [h1, h2] at h; cases h
    | some hys =>
      simp only [h1, h2, Option.bind_eq_bind, Option.bind_some] at h
      split_ifs at h with h3
      obtain rfl := Option.some.inj h
      have l1 := mapM_length _ _ _ h1
      have l2 := mapM_length _ _ _ h2
      rw [List.length_range] at l1 l2
      refine ⟨rfl, rfl, rfl, l1, l2, ?_⟩
      intro ix iy hix hiy
      simp only at hix hiy
      rw [List.all_eq_true] at h3
      have h4 := h3 iy (List.mem_range.mpr (by omega))
      rw [List.all_eq_true] at h4
      have h5 := h4 ix (List.mem_range.mpr (by omega))
      simp only [Bool.and_eq_true, decide_eq_true_eq, List.getElem?_eq_getElem hix, List.getElem?_eq_getElem hiy,
        Option.map_eq_some_iff] at h5
      obtain ⟨⟨p, p1, p2⟩, q, q1, q2⟩ := h5
      rw [p1] at q1
      obtain rfl := Option.some.inj q1
      exact ⟨p, p1, p2, q2⟩

theorem findLat_spec (ls : List (Lattice P K)) : ∀ (ipin ilat k e : Nat) (l : Lattice P K), ls[k]? = some l → e < l.pins.length →
    ipin = ((ls.take k).map fun l => l.pins.length).sum + e → findLat ls ipin ilat = (ilat + k, e) := by
  induction ls with
  | nil => intro ipin ilat k e l h; simp at h
  | cons a ls ih =>
    intro ipin ilat k e l h he hp
    cases k with
    | zero =>
      simp only [List.getElem?_cons_zero, Option.some.injEq] at h
      subst h
      simp only [List.take_zero, List.map_nil, List.sum_nil, Nat.zero_add] at hp
      subst hp
      simp [findLat, he]
    | succ k =>
      simp only [List.getElem?_cons_succ] at h
      simp only [List.take_succ_cons, List.map_cons, List.sum_cons] at hp
      have hn : ¬ ipin < a.pins.length := by omega
      rw [findLat, if_neg hn, ih (ipin - a.pins.length) (ilat + 1) k e l h he (by omega)]
      congr 1; omega

theorem Layout.sizes {g : PlaneP P K} {wx wy : List Nat} (h : Layout g wx wy) :
    (g.lats.map fun l => l.pins.length) = wy.flatMap fun b => wx.map fun a => a * b := by
  apply List.ext_getElem?
  intro k
  by_cases hk : k < g.nx * g.ny
  · have hnx : 0 < g.nx := Nat.pos_of_ne_zero fun e => by rw [e, Nat.zero_mul] at hk; omega
    have hax : k % g.nx < wx.length := by rw [h.lx]; exact Nat.mod_lt _ hnx
    have hay : k / g.nx < wy.length := by rw [h.ly]; exact Nat.div_lt_of_lt_mul hk
    obtain ⟨l, h1, -, -, h4⟩ := h.lat (k % g.nx) (k / g.nx) hax hay
    have e : k / g.nx * g.nx + k % g.nx = k := by rw [Nat.mul_comm]; exact Nat.div_add_mod k g.nx
    rw [e] at h1
    have hr := Mesh.getElem?_flatMap_uniform (fun b => wx.map fun a => a * b) wx.length (by simp) wy (k / g.nx) (k % g.nx) hax
      wy[k / g.nx] (List.getElem?_eq_getElem hay)
    rw [h.lx, e] at hr
    rw [hr, List.getElem?_map, h1, List.getElem?_map, List.getElem?_eq_getElem hax]
    simp [h4]
  · rw [List.getElem?_eq_none (by rw [List.length_map, h.len]; omega), List.getElem?_eq_none]
    have : (wy.flatMap fun b => wx.map fun a => a * b).length = wy.length * wx.length := by
      simp [List.length_flatMap]
    rw [this, h.lx, h.ly, Nat.mul_comm]; omega

theorem sum_map_mul_const (wx : List Nat) (b : Nat) : (wx.map fun a => a * b).sum = wx.sum * b := by
  induction wx with
  | nil => simp
  | cons a as ih => rw [List.map_cons, List.sum_cons, ih, List.sum_cons, Nat.add_mul]

theorem sum_flatMap_mul (wx wy : List Nat) : (wy.flatMap fun b => wx.map fun a => a * b).sum = wx.sum * wy.sum := by
  induction wy with
  | nil => simp
  | cons b bs ih =>
    rw [List.flatMap_cons, List.sum_append, ih, List.sum_cons, Nat.mul_add, sum_map_mul_const]

/-- C83: a plane has as many pins as it has positions. -/
theorem C83_count {g : PlaneP P K} {wx wy : List Nat} (h : Layout g wx wy) :
    g.nPin = wx.sum * wy.sum ∧ (0 < g.ny → g.nxPin = some wx.sum) ∧ (0 < g.nx → g.nyPin = some wy.sum) := by
  refine ⟨by rw [PlaneP.nPin, h.sizes, sum_flatMap_mul], ?_, ?_⟩
  · intro hy
    have : ((List.range g.nx).mapM fun ix => (g.at_ ix 0).map (·.nx)) = some ((List.range g.nx).map fun ix => wx.getD ix 0) := by
      apply mapM_some
      intro ix hix
      rw [List.mem_range] at hix
      obtain ⟨l, h1, h2, -⟩ := h.lat ix 0 (by rw [h.lx]; exact hix) (by rw [h.ly]; exact hy)
      simp only [Nat.zero_mul, Nat.zero_add] at h1
      simp [PlaneP.at_, h1, h2, List.getD, List.getElem?_eq_getElem (show ix < wx.length by rw [h.lx]; exact hix)]
    rw [PlaneP.nxPin, this, Option.map_some, ← h.lx]
    congr 2
    apply List.ext_getElem (by simp)
    intro i h1 h2
    simp [List.getD, List.getElem?_eq_getElem h2]
  · intro hx
    have : ((List.range g.ny).mapM fun iy => (g.at_ 0 iy).map (·.ny)) = some ((List.range g.ny).map fun iy => wy.getD iy 0) := by
      apply mapM_some
      intro iy hiy
      rw [List.mem_range] at hiy
      obtain ⟨l, h1, -, h2, -⟩ := h.lat 0 iy (by rw [h.lx]; exact hx) (by rw [h.ly]; exact hiy)
      simp only [Nat.add_zero] at h1
      simp [PlaneP.at_, Nat.mul_comm g.nx, h1, h2, List.getD, List.getElem?_eq_getElem (show iy < wy.length by rw [h.ly]; exact hiy)]
    rw [PlaneP.nyPin, this, Option.map_some, ← h.ly]
    congr 2
    apply List.ext_getElem (by simp)
    intro i h1 h2
    simp [List.getD, List.getElem?_eq_getElem h2]

/-- The number of the pin in column `ix` and row `iy` of lattice `(ax, ay)`: the lattices come row by row from the bottom, the pins of each
as well. -/
def pinNumber (g : PlaneP P K) (wx : List Nat) (ax ay ix iy : Nat) : Nat :=
  ((g.lats.take (ay * g.nx + ax)).map fun l => l.pins.length).sum + (iy * wx.getD ax 0 + ix)

theorem take_range_sum (w : List Nat) (a : Nat) (h : a ≤ w.length) : ((List.range a).map fun i => w.getD i 0).sum = (w.take a).sum := by
  congr 1
  apply List.ext_getElem (by simp [h])
  intro i h1 h2
  have : i < w.length := by simp at h1; omega
  simp [List.getD, List.getElem?_eq_getElem this]

/-- C83: this pin is in column `ix` and row `iy` counted from the first column and row of the lattice. -/
theorem C83_position {g : PlaneP P K} {wx wy : List Nat} (h : Layout g wx wy) (ax ay ix iy : Nat) (hax : ax < wx.length)
    (hay : ay < wy.length) (hix : ix < wx[ax]) (hiy : iy < wy[ay]) :
    pinNumber g wx ax ay ix iy < g.nPin ∧
    g.pinPosition (pinNumber g wx ax ay ix iy) = some ((wx.take ax).sum + ix, (wy.take ay).sum + iy) := by
  have hgx : wx.getD ax 0 = wx[ax] := by simp [List.getD, hax]
  obtain ⟨l, h1, h2, h3, h4⟩ := h.lat ax ay hax hay
  have hin : iy * wx[ax] + ix < l.pins.length := by
    rw [h4]
    calc iy * wx[ax] + ix < iy * wx[ax] + wx[ax] := by omega
      _ = wx[ax] * (iy + 1) := by ring
      _ ≤ wx[ax] * wy[ay] := Nat.mul_le_mul_left _ hiy
  have hk : ay * g.nx + ax < g.lats.length := (List.getElem?_eq_some_iff.mp h1).1
  have hlt : pinNumber g wx ax ay ix iy < g.nPin := by
    have := block_lt (g.lats.map fun l => l.pins.length) (i := ay * g.nx + ax) (e := iy * wx[ax] + ix) (by simpa using hk)
      (by rw [List.getElem_map]; rw [(List.getElem?_eq_some_iff.mp h1).2]; exact hin)
    rw [pinNumber, hgx, PlaneP.nPin]
    rwa [← List.map_take] at this
  refine ⟨hlt, ?_⟩
  have hnx : 0 < g.nx := by rw [← h.lx]; omega
  have hmod : (ay * g.nx + ax) % g.nx = ax := by
    rw [Nat.mul_comm, Nat.mul_add_mod]; exact Nat.mod_eq_of_lt (by rw [← h.lx]; exact hax)
  have hdiv : (ay * g.nx + ax) / g.nx = ay := by
    rw [Nat.mul_comm, Nat.mul_add_div hnx, Nat.div_eq_of_lt (by rw [← h.lx]; exact hax), Nat.add_zero]
  have hf : findLat g.lats (pinNumber g wx ax ay ix iy % g.nPin) 0 = (ay * g.nx + ax, iy * wx[ax] + ix) := by
    rw [Nat.mod_eq_of_lt hlt, findLat_spec g.lats _ 0 _ (iy * wx[ax] + ix) l h1 hin (by rw [pinNumber, hgx]), Nat.zero_add]
  have hxs : ((List.range ax).mapM fun ix => (g.at_ ix 0).map (·.nx)) = some ((List.range ax).map fun ix => wx.getD ix 0) := by
    apply mapM_some
    intro i hi
    rw [List.mem_range] at hi
    obtain ⟨m, m1, m2, -⟩ := h.lat i 0 (by omega) (by omega)
    simp only [Nat.zero_mul, Nat.zero_add] at m1
    simp [PlaneP.at_, m1, m2, List.getD, List.getElem?_eq_getElem (show i < wx.length by omega)]
  have hys : ((List.range ay).mapM fun iy => (g.at_ 0 iy).map (·.ny)) = some ((List.range ay).map fun iy => wy.getD iy 0) := by
    apply mapM_some
    intro i hi
    rw [List.mem_range] at hi
    obtain ⟨m, m1, -, m2, -⟩ := h.lat 0 i (by omega) (by omega)
    simp only [Nat.add_zero] at m1
    simp [PlaneP.at_, Nat.mul_comm g.nx, m1, m2, List.getD, List.getElem?_eq_getElem (show i < wy.length by omega)]
  have hat : g.at_ ax ay = some l := by rw [PlaneP.at_, Nat.add_comm, Nat.mul_comm]; exact h1
  have hw : 0 < wx[ax] := h.posx _ (List.getElem_mem hax)
  rw [PlaneP.pinPosition, if_neg (by omega)]
  simp only [hf, hmod, hdiv, hat, hxs, hys, Option.bind_eq_bind, Option.bind_some, h2]
  rw [if_neg (by omega), take_range_sum wx ax hax.le, take_range_sum wy ay hay.le]
  have e1 : (iy * wx[ax] + ix) % wx[ax] = ix := by
    rw [Nat.mul_comm, Nat.mul_add_mod]; exact Nat.mod_eq_of_lt hix
  have e2 : (iy * wx[ax] + ix) / wx[ax] = iy := by
    rw [Nat.mul_comm, Nat.mul_add_div hw, Nat.div_eq_of_lt hix, Nat.add_zero]
  rw [e1, e2]

/-- Every number is that of one pin. -/
theorem pinNumber_surj {g : PlaneP P K} {wx wy : List Nat} (h : Layout g wx wy) (i : Nat) (hi : i < g.nPin) :
    ∃ ax ay ix iy, ∃ (hax : ax < wx.length) (hay : ay < wy.length), ix < wx[ax] ∧ iy < wy[ay] ∧ i = pinNumber g wx ax ay ix iy := by
  obtain ⟨k, e, hk, he, hp⟩ := block_cover (g.lats.map fun l => l.pins.length) hi
  rw [List.length_map, h.len] at hk
  have hnx : 0 < g.nx := Nat.pos_of_ne_zero fun e => by rw [e, Nat.zero_mul] at hk; omega
  have hax : k % g.nx < wx.length := by rw [h.lx]; exact Nat.mod_lt _ hnx
  have hay : k / g.nx < wy.length := by rw [h.ly]; exact Nat.div_lt_of_lt_mul hk
  obtain ⟨l, h1, -, -, h4⟩ := h.lat (k % g.nx) (k / g.nx) hax hay
  have ek : k / g.nx * g.nx + k % g.nx = k := by rw [Nat.mul_comm]; exact Nat.div_add_mod k g.nx
  rw [ek] at h1
  rw [List.getElem_map, (List.getElem?_eq_some_iff.mp h1).2, h4] at he
  have hw : 0 < wx[k % g.nx] := h.posx _ (List.getElem_mem hax)
  refine ⟨k % g.nx, k / g.nx, e % wx[k % g.nx], e / wx[k % g.nx], hax, hay, Nat.mod_lt _ hw, Nat.div_lt_of_lt_mul he, ?_⟩
  rw [pinNumber, ek, hp, List.map_take]
  congr 1
  have : wx.getD (k % g.nx) 0 = wx[k % g.nx] := by simp [List.getD, hax]
  rw [this, Nat.mul_comm]
  exact (Nat.div_add_mod _ _).symm

/-- C83: every position of the plane is that of exactly one pin. -/
theorem C83_bijective {g : PlaneP P K} {wx wy : List Nat} (h : Layout g wx wy) :
    (∀ i, i < g.nPin → ∃ x y, g.pinPosition i = some (x, y) ∧ x < wx.sum ∧ y < wy.sum) ∧
    (∀ i j, i < g.nPin → j < g.nPin → g.pinPosition i = g.pinPosition j → i = j) ∧
    (∀ x y, x < wx.sum → y < wy.sum → ∃ i, i < g.nPin ∧ g.pinPosition i = some (x, y)) := by
  refine ⟨?_, ?_, ?_⟩
  · intro i hi
    obtain ⟨ax, ay, ix, iy, hax, hay, hix, hiy, rfl⟩ := pinNumber_surj h i hi
    exact ⟨_, _, (C83_position h ax ay ix iy hax hay hix hiy).2, block_lt wx hax hix, block_lt wy hay hiy⟩
  · intro i j hi hj he
    obtain ⟨ax, ay, ix, iy, hax, hay, hix, hiy, rfl⟩ := pinNumber_surj h i hi
    obtain ⟨bx, byy, jx, jy, hbx, hby, hjx, hjy, rfl⟩ := pinNumber_surj h j hj
    rw [(C83_position h ax ay ix iy hax hay hix hiy).2, (C83_position h bx byy jx jy hbx hby hjx hjy).2] at he
    obtain ⟨e1, e2⟩ := Prod.mk.inj (Option.some.inj he)
    obtain ⟨rfl, rfl⟩ := block_unique wx hax hbx hix hjx e1
    obtain ⟨rfl, rfl⟩ := block_unique wy hay hby hiy hjy e2
    rfl
  · intro x y hx hy
    obtain ⟨ax, ix, hax, hix, rfl⟩ := block_cover wx hx
    obtain ⟨ay, iy, hay, hiy, rfl⟩ := block_cover wy hy
    obtain ⟨p1, p2⟩ := C83_position h ax ay ix iy hax hay hix hiy
    exact ⟨_, p1, p2⟩

/-- C83: numbers of further planes are reduced. -/
theorem C83_periodic (g : PlaneP P K) (i k : Nat) : g.pinPosition (i + k * g.nPin) = g.pinPosition i := by
  rw [PlaneP.pinPosition, PlaneP.pinPosition, Nat.add_mul_mod_self_right]

theorem flatMap_block {α β : Type} (f : α → List β) (l : List α) : ∀ (k e : Nat) (a : α), l[k]? = some a → e < (f a).length →
    (l.flatMap f)[((l.take k).map fun a => (f a).length).sum + e]? = (f a)[e]? := by
  induction l with
  | nil => intro k e a h; simp at h
  | cons b l ih =>
    intro k e a h he
    cases k with
    | zero =>
      simp only [List.getElem?_cons_zero, Option.some.injEq] at h
      subst h
      simp only [List.take_zero, List.map_nil, List.sum_nil, Nat.zero_add, List.flatMap_cons]
      rw [List.getElem?_append_left he]
    | succ k =>
      simp only [List.getElem?_cons_succ] at h
      simp only [List.take_succ_cons, List.map_cons, List.sum_cons, List.flatMap_cons]
      rw [List.getElem?_append_right (by omega), ← ih k e a h he]
      congr 1; omega

theorem flatMap_length_sum {α β : Type} (f : α → List β) (l : List α) : (l.flatMap f).length = (l.map fun a => (f a).length).sum := by
  rw [List.length_flatMap]

/-- C83: the list of pins of the core: number `z n + i` is pin `i` of plane `z`, where `n` is the number of pins of a plane; pin `i` of a
plane is the one drawn at this place of its lattice. -/
theorem C83_list (planes : List (PlaneP P K)) (wx wy : List Nat) (h : ∀ g ∈ planes, Layout g wx wy) (z : Nat) (g : PlaneP P K)
    (hg : planes[z]? = some g) (ax ay ix iy : Nat) (hax : ax < wx.length) (hay : ay < wy.length) (hix : ix < wx[ax]) (hiy : iy < wy[ay]) :
    ∃ l, g.lats[ay * g.nx + ax]? = some l ∧ iy * l.nx + ix < l.pins.length ∧
      (corePins planes)[z * (wx.sum * wy.sum) + pinNumber g wx ax ay ix iy]? = l.pins[iy * l.nx + ix]? := by
  have hmem : g ∈ planes := List.mem_of_getElem? hg
  have hl := h g hmem
  obtain ⟨l, h1, h2, h3, h4⟩ := hl.lat ax ay hax hay
  have hin : iy * l.nx + ix < l.pins.length := by
    rw [h4, h2]
    calc iy * wx[ax] + ix < iy * wx[ax] + wx[ax] := by omega
      _ = wx[ax] * (iy + 1) := by ring
      _ ≤ wx[ax] * wy[ay] := Nat.mul_le_mul_left _ hiy
  refine ⟨l, h1, hin, ?_⟩
  have hlen : ∀ g' ∈ planes, (g'.lats.flatMap (·.pins)).length = wx.sum * wy.sum := by
    intro g' hg'
    rw [List.length_flatMap]
    exact (C83_count (h g' hg')).1
  have e1 : ((planes.take z).map fun g => (g.lats.flatMap (·.pins)).length).sum = z * (wx.sum * wy.sum) := by
    have : ((planes.take z).map fun g => (g.lats.flatMap (·.pins)).length) = List.replicate z (wx.sum * wy.sum) := by
      rw [List.eq_replicate_iff]
      refine ⟨?_, ?_⟩
      · rw [List.length_map, List.length_take]
        have := (List.getElem?_eq_some_iff.mp hg).1
        omega
      · intro b hb
        obtain ⟨g', hg', rfl⟩ := List.mem_map.mp hb
        exact hlen g' (List.mem_of_mem_take hg')
    rw [this, List.sum_replicate_nat]
  have hlt : pinNumber g wx ax ay ix iy < (g.lats.flatMap (·.pins)).length := by
    rw [hlen g hmem, ← (C83_count hl).1]
    exact (C83_position hl ax ay ix iy hax hay hix hiy).1
  have hgx : wx.getD ax 0 = l.nx := by rw [h2]; simp [List.getD, hax]
  rw [corePins, ← e1, flatMap_block _ planes z _ g hg hlt, pinNumber, hgx]
  exact flatMap_block _ g.lats (ay * g.nx + ax) _ l h1 hin

/-- C83: `CoreMesh::pin_position` gives the position in the plane and the plane. -/
theorem C83_core_position {g : PlaneP P K} {wx wy : List Nat} (h : Layout g wx wy) (i z : Nat) (hi : i < g.nPin) :
    corePosition wx.sum wy.sum g (z * (wx.sum * wy.sum) + i) = (g.pinPosition i).map fun q => (q.1, q.2, z) := by
  rw [(C83_count h).1] at hi
  have hn : 0 < wx.sum * wy.sum := by omega
  rw [corePosition, if_neg (by omega), Nat.mul_comm z, Nat.mul_add_mod, Nat.mod_eq_of_lt hi, Nat.mul_add_div hn, Nat.div_eq_of_lt hi,
    Nat.add_zero]

section
variable [Field K]

theorem interfaces_get (hs : List K) : ∀ (x : K) (i : Nat), i ≤ hs.length → (interfaces hs x)[i]? = some (x + (hs.take i).sum) := by
  induction hs with
  | nil => intro x i hi; have : i = 0 := by simpa using hi
           subst this; simp [interfaces]
  | cons h hs ih =>
    intro x i hi
    cases i with
    | zero => simp [interfaces]
    | succ i =>
      simp only [interfaces, List.getElem?_cons_succ, List.take_succ_cons, List.sum_cons]
      rw [ih (x + h) i (by simpa using hi), add_assoc]

omit [Field K] in
theorem take_flatten (cs : List (List K)) : ∀ (a i : Nat) (c : List K), cs[a]? = some c → i ≤ c.length →
    (cs.flatten.take (((cs.take a).map List.length).sum + i)) = (cs.take a).flatten ++ c.take i := by
  induction cs with
  | nil => intro a i c h; simp at h
  | cons b cs ih =>
    intro a i c h hi
    cases a with
    | zero =>
      simp only [List.getElem?_cons_zero, Option.some.injEq] at h
      subst h
      simp [List.take_append_of_le_length hi]
    | succ a =>
      simp only [List.getElem?_cons_succ] at h
      simp only [List.take_succ_cons, List.map_cons, List.sum_cons, List.flatten_cons]
      rw [Nat.add_assoc, List.take_length_add_append, ih a i c h hi, List.append_assoc]

omit [Field K] in
/-- C83: the pitches of the core are those of the lattices of the first row and column. -/
theorem C83_pitches (g : PlaneP P K) (cxs cys : List (List K)) (hx : cxs.length = g.nx) (hy : cys.length = g.ny)
    (hcx : ∀ ax (h : ax < cxs.length), ∃ l, g.lats[ax]? = some l ∧ l.hxs = cxs[ax])
    (hcy : ∀ ay (h : ay < cys.length), ∃ l, g.lats[ay * g.nx]? = some l ∧ l.hys = cys[ay]) :
    g.dx = some cxs.flatten ∧ g.dy = some cys.flatten := by
  constructor
  · rw [PlaneP.dx, mapM_some _ (fun ix => cxs.getD ix [])]
    · rw [Option.map_some, ← hx]
      congr 2
      apply List.ext_getElem (by simp)
      intro i h1 h2
      simp [List.getD, List.getElem?_eq_getElem h2]
    · intro ix hix
      rw [List.mem_range, ← hx] at hix
      obtain ⟨l, h1, h2⟩ := hcx ix hix
      simp [PlaneP.at_, h1, h2, List.getD, List.getElem?_eq_getElem hix]
  · rw [PlaneP.dy, mapM_some _ (fun iy => cys.getD iy [])]
    · rw [Option.map_some, ← hy]
      congr 2
      apply List.ext_getElem (by simp)
      intro i h1 h2
      simp [List.getD, List.getElem?_eq_getElem h2]
    · intro iy hiy
      rw [List.mem_range, ← hy] at hiy
      obtain ⟨l, h1, h2⟩ := hcy iy hiy
      simp [PlaneP.at_, Nat.mul_comm g.nx, h1, h2, List.getD, List.getElem?_eq_getElem hiy]

/-- C83: in an accepted plane each lattice is as wide as the bottom one of its column and as high as the left one of its row. -/
theorem C83_conform (near : K → K → Bool) (g : PlaneP P K) (h : g.conform near = true) (ax ay : Nat) (hax : ax < g.nx) (hay : ay < g.ny) :
    ∃ l c r, g.lats[ay * g.nx + ax]? = some l ∧ g.lats[ax]? = some c ∧ g.lats[ay * g.nx]? = some r ∧
      near l.hxs.sum c.hxs.sum = true ∧ near l.hys.sum r.hys.sum = true := by
  unfold PlaneP.conform at h
  rw [List.all_eq_true] at h
  have h1 := h ay (List.mem_range.mpr hay)
  rw [List.all_eq_true] at h1
  have h2 := h1 ax (List.mem_range.mpr hax)
  simp only [PlaneP.at_, Nat.zero_add, Nat.mul_comm g.nx, Nat.add_comm ax] at h2
  split at h2
  · rename_i l c r e1 e2 e3
    rw [Bool.and_eq_true] at h2
    exact ⟨l, c, r, e1, by simpa using e2, e3, h2.1, h2.2⟩
  · cases h2

/-- C83: the pin boundaries of the core.  If `c` are the pitches of the lattices in column (row) `a`, then the boundary `i` of this lattice is
at the sum of the widths of the lattices before and of the pitches before it. -/
theorem C83_boundary (cs : List (List K)) (a i : Nat) (c : List K) (h : cs[a]? = some c) (hi : i ≤ c.length) :
    (interfaces cs.flatten 0)[((cs.take a).map List.length).sum + i]? = some (((cs.take a).map List.sum).sum + (c.take i).sum) := by
  have hlen : ((cs.take a).map List.length).sum + i ≤ cs.flatten.length := by
    have e : cs = cs.take a ++ c :: cs.drop (a + 1) := by
      obtain ⟨ha, rfl⟩ := List.getElem?_eq_some_iff.mp h
      rw [← List.drop_eq_getElem_cons ha, List.take_append_drop]
    have : cs.flatten.length = (cs.map List.length).sum := List.length_flatten
    rw [this]
    conv_rhs => rw [e]
    rw [List.map_append, List.sum_append, List.map_cons, List.sum_cons]
    omega
  rw [interfaces_get _ _ _ hlen, zero_add, take_flatten cs a i c h hi, List.sum_append, List.sum_flatten]

/-- C83: `pin_origin` is the middle of the pin at a position: the corner of the lattice plus the middle of the pin in the lattice. -/
theorem C83_origin [LinearOrder K] [IsStrictOrderedRing K] (cxs cys : List (List K)) (ax ay ix iy : Nat) (cx cy : List K)
    (hx : cxs[ax]? = some cx) (hy : cys[ay]? = some cy) (hix : ix < cx.length) (hiy : iy < cy.length) :
    pinOrigin (interfaces cxs.flatten 0) (interfaces cys.flatten 0)
      (((cxs.take ax).map List.length).sum + ix, ((cys.take ay).map List.length).sum + iy) =
    some (((cxs.take ax).map List.sum).sum + (cx.take ix).sum + cx[ix] / 2,
      ((cys.take ay).map List.sum).sum + (cy.take iy).sum + cy[iy] / 2) := by
  have x0 := C83_boundary cxs ax ix cx hx hix.le
  have x1 := C83_boundary cxs ax (ix + 1) cx hx hix
  have y0 := C83_boundary cys ay iy cy hy hiy.le
  have y1 := C83_boundary cys ay (iy + 1) cy hy hiy
  simp only [pinOrigin, Nat.add_assoc, x0, x1, y0, y1, Option.bind_eq_bind, Option.bind_some, Option.pure_def]
  rw [List.take_succ_eq_append_getElem hix, List.take_succ_eq_append_getElem hiy, List.sum_append, List.sum_append]
  simp only [List.sum_cons, List.sum_nil, add_zero]
  congr 2 <;> ring

end

/-- The lattices of a plane that has been built from input. -/
def BuiltPlane (g : PlaneP ℚ ℚ) : Prop :=
  g.lats.length = g.nx * g.ny ∧ (∀ l ∈ g.lats, ∃ nx ny pins, 0 < nx ∧ 0 < ny ∧ pins.length = nx * ny ∧ mkLattice id id nx ny pins = some l) ∧
  g.conform (fun a b => decide (a = b)) = true

/-- The claim without the assumption that the lattices fit pin by pin: it is enough that the plane is accepted.  (Pins are their pitches.) -/
def C83_claim : Prop := ∀ (g : PlaneP ℚ ℚ) (nx ny : Nat), BuiltPlane g → g.nxPin = some nx → g.nyPin = some ny →
  g.nPin = nx * ny ∧ ∀ i, i < g.nPin → ∃ x y, g.pinPosition i = some (x, y) ∧ x < nx ∧ y < ny

/-- A lattice of one pin of pitch 2 and above it one of four pins of pitch 1. -/
def badPlane : PlaneP ℚ ℚ := ⟨1, 2, [⟨1, 1, [2], [2], [2]⟩, ⟨2, 2, [1, 1, 1, 1], [1, 1], [1, 1]⟩]⟩

/-- C83 is false without this assumption: only the outer dimensions of the lattices are compared.  The core then has three positions for five
pins. -/
theorem C83_claim_false : ¬ C83_claim := by
  intro h
  have hb : BuiltPlane badPlane := by
    refine ⟨rfl, ?_, by decide +kernel⟩
    intro l hl
    simp only [badPlane, List.mem_cons, List.not_mem_nil, or_false] at hl
    rcases hl with rfl | rfl
    · exact ⟨1, 1, [2], by norm_num, by norm_num, rfl, rfl⟩
    · refine ⟨2, 2, [1, 1, 1, 1], by norm_num, by norm_num, rfl, ?_⟩
      have : mkLattice (K := ℚ) id id 2 2 [1, 1, 1, 1] = some ⟨2, 2, [1, 1, 1, 1], [1, 1], [1, 1]⟩ := by
        unfold mkLattice
        simp [List.range, List.range.loop]
      exact this
  have := (h badPlane 1 3 hb (by decide +kernel) (by decide +kernel)).1
  revert this
  decide +kernel

/-- A plane of two lattices with three columns of pins. -/
example : Layout (⟨2, 1, [⟨2, 1, [10, 11], [1, 1], [1]⟩, ⟨1, 1, [12], [1], [1]⟩]⟩ : PlaneP Nat Nat) [2, 1] [1] := by
  refine ⟨rfl, rfl, rfl, ?_, by decide, by decide⟩
  intro ax ay hx hy
  have : ay = 0 := by simpa using hy
  subst this
  have : ax = 0 ∨ ax = 1 := by simp at hx; omega
  rcases this with rfl | rfl
  · exact ⟨_, rfl, rfl, rfl, rfl⟩
  · exact ⟨_, rfl, rfl, rfl, rfl⟩

end Verif.Core
