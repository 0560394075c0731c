import Verif.Core.LatticeModel
import Mathlib.Algebra.BigOperators.Group.List.Basic
import Mathlib.Algebra.Order.Ring.Rat
import Mathlib.Algebra.Field.Rat
import Mathlib.Algebra.Order.Field.Rat
import Mathlib.Tactic.Ring
import Mathlib.Tactic.Linarith
import Mathlib.Tactic.NormNum
import Mathlib.Tactic.FieldSimp
import Mathlib.Tactic.Positivity

/-!
# C49: lattice and core maps place pins where the input draws them
-/

namespace Verif.Core

/-! ## The map -/

theorem placeRow_spec {P : Type} (look : Int → Option P) (nx row iy : Nat) (ids : List Int) (count ix : Nat)
    (a : List (Option P)) (hix : ix + count = nx) (hids : (iy + 1) * nx ≤ ids.length)
    (ha : (row + 1) * nx ≤ a.length)
    (hk : ∀ id ∈ ids, ∃ p, look id = some p) :
    ∃ a', placeRow look nx row iy ids count ix a = .ok a' ∧ a'.length = a.length ∧
      ∀ j, j < a.length → a'[j]? =
        if row * nx + ix ≤ j ∧ j < row * nx + nx then some ((ids[iy * nx + (j - row * nx)]?).bind look) else a[j]? := by
  have e1 : (iy + 1) * nx = iy * nx + nx := by ring
  have e2 : (row + 1) * nx = row * nx + nx := by ring
  rw [e1] at hids
  rw [e2] at ha
  induction count generalizing ix a with
  | zero =>
    refine ⟨a, rfl, rfl, ?_⟩
    intro j _
    rw [if_neg (by omega)]
  | succ count ih =>
    have hi : iy * nx + ix < ids.length := by omega
    obtain ⟨p, hp⟩ := hk _ (List.getElem_mem hi)
    obtain ⟨a', h1, h2, h3⟩ := ih (ix + 1) (a.set (row * nx + ix) (some p)) (by omega) (by rw [List.length_set]; exact ha)
    rw [List.length_set] at h2 h3
    refine ⟨a', ?_, h2, ?_⟩
    · rw [placeRow, List.getElem?_eq_getElem hi]
      simp only [hp]
      rw [if_pos (by omega), h1]
    · intro j hj
      rw [h3 j hj]
      by_cases hji : j = row * nx + ix
      · subst hji
        rw [if_neg (by omega), if_pos (by omega), List.getElem?_set_self (by omega)]
        have : row * nx + ix - row * nx = ix := by omega
        rw [this, List.getElem?_eq_getElem hi]
        simp [hp]
      · rw [List.getElem?_set_ne (fun h => hji h.symm)]
        by_cases hc : row * nx + (ix + 1) ≤ j ∧ j < row * nx + nx
        · rw [if_pos hc, if_pos (by omega)]
        · rw [if_neg hc, if_neg (by omega)]

theorem placeRows_spec {P : Type} (look : Int → Option P) (nx ny : Nat) (ids : List Int) (count iy : Nat)
    (a : List (Option P)) (hiy : iy + count = ny) (hids : ids.length = nx * ny) (ha : a.length = ny * nx)
    (hk : ∀ id ∈ ids, ∃ p, look id = some p) :
    ∃ a', placeRows look nx ny ids count iy a = .ok a' ∧ a'.length = a.length ∧
      ∀ x y, x < nx → y < ny → a'[y * nx + x]? =
        if y < count then some ((ids[(ny - 1 - y) * nx + x]?).bind look) else a[y * nx + x]? := by
  induction count generalizing iy a with
  | zero => exact ⟨a, rfl, rfl, by intro x y _ _; rw [if_neg (by omega)]⟩
  | succ count ih =>
    have hrow : ny - iy - 1 = count := by omega
    have hb1 : (iy + 1) * nx ≤ ids.length := by
      rw [hids, Nat.mul_comm nx ny]; exact Nat.mul_le_mul_right _ (by omega)
    have hb2 : (count + 1) * nx ≤ a.length := by rw [ha]; exact Nat.mul_le_mul_right _ (by omega)
    obtain ⟨a1, h1, h2, h3⟩ := placeRow_spec look nx count iy ids nx 0 a (by omega) hb1 hb2 hk
    obtain ⟨a2, g1, g2, g3⟩ := ih (iy + 1) a1 (by omega) (by omega)
    refine ⟨a2, ?_, by omega, ?_⟩
    · rw [placeRows, hrow, h1]
      simp only [g1]
    · intro x y hx hy
      rw [g3 x y hx hy]
      by_cases hlt : y < count
      · rw [if_pos hlt, if_pos (by omega)]
      · rw [if_neg hlt]
        have hbound : y * nx + x < a.length := by
          rw [ha]
          have := Nat.mul_le_mul_right nx (show y + 1 ≤ ny by omega)
          have e : (y + 1) * nx = y * nx + nx := by ring
          omega
        rw [h3 _ hbound]
        by_cases he : y = count
        · subst he
          rw [if_pos (by omega), if_pos (by omega)]
          have e1 : y * nx + x - y * nx = x := by omega
          have e2 : ny - 1 - y = iy := by omega
          rw [e1, e2]
        · have hgt : count + 1 ≤ y := by omega
          have := Nat.mul_le_mul_right nx hgt
          have e : (count + 1) * nx = count * nx + nx := by ring
          rw [if_neg (by omega), if_neg (by omega)]

/-- The element `x` of row `y` of rows of equal length. -/
theorem flatten_getElem? {α : Type} (rows : List (List α)) (nx : Nat) (hr : ∀ r ∈ rows, r.length = nx) (x y : Nat)
    (hx : x < nx) : rows.flatten[y * nx + x]? = (rows[y]?).bind (·[x]?) := by
  induction rows generalizing y with
  | nil => simp
  | cons r rest ih =>
    have hrl := hr r (by simp)
    cases y with
    | zero =>
      simp only [Nat.zero_mul, Nat.zero_add, List.flatten_cons, List.getElem?_cons_zero, Option.bind_some]
      rw [List.getElem?_append_left (by omega)]
    | succ y =>
      have e : (y + 1) * nx + x - r.length = y * nx + x := by
        have : (y + 1) * nx = y * nx + nx := by ring
        omega
      rw [List.flatten_cons, List.getElem?_append_right (by
        have : (y + 1) * nx = y * nx + nx := by ring
        omega), e, ih (fun r hr' => hr r (by simp [hr'])) y]
      simp

/-- C49: writing the rows of identifiers as the input draws them (first row on top), the pin stored at column `x` and
row `y` from the bottom is the one written in column `x` of the `y`-th row from the bottom. The same code arranges the
assemblies of the core. -/
theorem C49_map {P : Type} (look : Int → Option P) (rows : List (List Int)) (nx : Nat)
    (hr : ∀ r ∈ rows, r.length = nx) (hk : ∀ r ∈ rows, ∀ id ∈ r, ∃ p, look id = some p) :
    ∃ pins, arrange look nx rows.length rows.flatten = .ok pins ∧ pins.length = nx * rows.length ∧
      ∀ x y, x < nx → y < rows.length →
        pinAt nx pins x y = ((rows.reverse[y]?).bind (·[x]?)).bind look ∧ (pinAt nx pins x y).isSome := by
  have hlen : rows.flatten.length = nx * rows.length := by
    clear hk
    induction rows with
    | nil => simp
    | cons r rest ih =>
      rw [List.flatten_cons, List.length_append, ih (fun r' h => hr r' (by simp [h])), hr r (by simp), List.length_cons]
      ring
  have hk' : ∀ id ∈ rows.flatten, ∃ p, look id = some p := by
    intro id hid
    obtain ⟨r, h1, h2⟩ := List.mem_flatten.mp hid
    exact hk r h1 id h2
  obtain ⟨a, h1, h2, h3⟩ := placeRows_spec look nx rows.length rows.flatten rows.length 0
    (List.replicate (rows.length * nx) none) (by omega) hlen (by simp) hk'
  refine ⟨a, ?_, by rw [h2, List.length_replicate, Nat.mul_comm], ?_⟩
  · unfold arrange
    rw [if_neg (by simpa using hlen), h1]
  · intro x y hx hy
    have hrev : rows.reverse[y]? = rows[rows.length - 1 - y]? := List.getElem?_reverse hy
    have hq : pinAt nx a x y = ((rows.reverse[y]?).bind (·[x]?)).bind look := by
      unfold pinAt
      rw [h3 x y hx hy, if_pos hy, flatten_getElem? rows nx hr x _ hx, hrev]
      rfl
    refine ⟨hq, ?_⟩
    rw [hq, hrev]
    have hb : rows.length - 1 - y < rows.length := by omega
    rw [List.getElem?_eq_getElem hb]
    have hl := hr _ (List.getElem_mem hb)
    have hx' : x < (rows[rows.length - 1 - y]).length := by omega
    rw [Option.bind_some, List.getElem?_eq_getElem hx', Option.bind_some]
    obtain ⟨p, hp⟩ := hk _ (List.getElem_mem hb) _ (List.getElem_mem hx')
    rw [hp]; rfl

/-- C49: a wrong number of identifiers is an exception. -/
theorem C49_map_count {P : Type} (look : Int → Option P) (nx ny : Nat) (ids : List Int) (h : ids.length ≠ nx * ny) :
    arrange look nx ny ids = .throw := by
  unfold arrange; rw [if_pos h]

theorem placeRow_unknown {P : Type} (look : Int → Option P) (nx row iy : Nat) (ids : List Int) (count ix : Nat)
    (a : List (Option P)) (hix : ix + count = nx) (hids : (iy + 1) * nx ≤ ids.length)
    (ha : (row + 1) * nx ≤ a.length) :
    (∃ a', placeRow look nx row iy ids count ix a = .ok a' ∧ a'.length = a.length ∧
      ∀ j, ix ≤ j → j < nx → ∀ id, ids[iy * nx + j]? = some id → ∃ p, look id = some p) ∨
    placeRow look nx row iy ids count ix a = .throw := by
  have e1 : (iy + 1) * nx = iy * nx + nx := by ring
  have e2 : (row + 1) * nx = row * nx + nx := by ring
  rw [e1] at hids
  rw [e2] at ha
  induction count generalizing ix a with
  | zero => left; exact ⟨a, rfl, rfl, by intro j h1 h2; omega⟩
  | succ count ih =>
    have hi : iy * nx + ix < ids.length := by omega
    rw [placeRow, List.getElem?_eq_getElem hi]
    simp only
    cases hl : look ids[iy * nx + ix] with
    | none => right; rfl
    | some p =>
      simp only
      rw [if_pos (by omega)]
      rcases ih (ix + 1) (a.set (row * nx + ix) (some p)) (by omega) (by rw [List.length_set]; exact ha) with ⟨a', q1, q2, q3⟩ | q
      · left
        refine ⟨a', q1, by rw [q2, List.length_set], ?_⟩
        intro j h1 h2 id hid
        by_cases hj : j = ix
        · subst hj
          rw [List.getElem?_eq_getElem hi] at hid
          cases hid
          exact ⟨p, hl⟩
        · exact q3 j (by omega) h2 id hid
      · right; exact q

/-- C49: an identifier that is not in the list of pins is an exception, never a null entry or an access out of
bounds. -/
theorem C49_map_unknown {P : Type} (look : Int → Option P) (nx ny : Nat) (ids : List Int) (h : ids.length = nx * ny)
    (id : Int) (hid : id ∈ ids) (hu : look id = none) : arrange look nx ny ids = .throw := by
  unfold arrange
  rw [if_neg (by simpa using h)]
  have key : ∀ (count iy : Nat) (a : List (Option P)), iy + count = ny → a.length = ny * nx →
      (∃ a', placeRows look nx ny ids count iy a = .ok a' ∧
        ∀ k, iy * nx ≤ k → k < ny * nx → ∀ id, ids[k]? = some id → ∃ p, look id = some p) ∨
      placeRows look nx ny ids count iy a = .throw := by
    intro count
    induction count with
    | zero =>
      intro iy a h1 h2; left
      refine ⟨a, rfl, ?_⟩
      intro k h3 h4
      have : iy = ny := by omega
      subst this; omega
    | succ count ih =>
      intro iy a h1 h2
      have hb1 : (iy + 1) * nx ≤ ids.length := by
        rw [h, Nat.mul_comm nx ny]; exact Nat.mul_le_mul_right _ (by omega)
      have hb2 : (ny - iy - 1 + 1) * nx ≤ a.length := by rw [h2]; exact Nat.mul_le_mul_right _ (by omega)
      rw [placeRows]
      rcases placeRow_unknown look nx (ny - iy - 1) iy ids nx 0 a (by omega) hb1 hb2 with ⟨a', q1, q2, q3⟩ | q
      · rw [q1]
        simp only
        rcases ih (iy + 1) a' (by omega) (by omega) with ⟨a2, r1, r2⟩ | r
        · left
          refine ⟨a2, r1, ?_⟩
          intro k h3 h4 id' hid'
          by_cases hk : (iy + 1) * nx ≤ k
          · exact r2 k hk h4 id' hid'
          · have e : (iy + 1) * nx = iy * nx + nx := by ring
            have e2 : iy * nx + (k - iy * nx) = k := by omega
            exact q3 (k - iy * nx) (by omega) (by omega) id' (by rw [e2]; exact hid')
        · right; exact r
      · right; rw [q]
  rcases key ny 0 (List.replicate (ny * nx) none) (by omega) (by simp) with ⟨a', -, q⟩ | q
  · obtain ⟨k, hk, hk'⟩ := List.getElem_of_mem hid
    obtain ⟨p, hp⟩ := q k (by omega) (by rw [Nat.mul_comm]; omega) id (by rw [List.getElem?_eq_getElem hk, hk'])
    rw [hu] at hp; simp at hp
  · exact q

/-- C49: the regions of the pins are numbered consecutively, row by row from the lower left. -/
theorem C49_first_regs (ns : List Nat) (prev : Nat) : (firstRegs ns prev).length = ns.length ∧
    ∀ k, k < ns.length → (firstRegs ns prev)[k]? = some (prev + (ns.take k).sum) := by
  induction ns generalizing prev with
  | nil => exact ⟨rfl, by intro k hk; simp at hk⟩
  | cons n ns ih =>
    obtain ⟨h1, h2⟩ := ih (prev + n)
    refine ⟨by simp [firstRegs, h1], ?_⟩
    intro k hk
    cases k with
    | zero => simp [firstRegs]
    | succ k =>
      rw [firstRegs, List.getElem?_cons_succ, h2 k (by simpa using hk)]
      simp only [List.take_succ_cons, List.sum_cons]
      congr 1; omega

/-! ## Point location -/

variable {K : Type} [Field K] [LinearOrder K] [IsStrictOrderedRing K]

/-- Interfaces of `n` cells from zero, every cell wider than `w`. -/
structure Faces (xs : List K) (n : Nat) (w : K) : Prop where
  len : xs.length = n + 1
  pos : 0 < n
  small : n < 2^32
  zero : xs.getD 0 0 = 0
  width : 0 ≤ w
  step : ∀ i, i < n → xs.getD i 0 + w < xs.getD (i + 1) 0

theorem Faces.lt {xs : List K} {n : Nat} {w : K} (f : Faces xs n w) {i j : Nat} (hij : i < j) (hj : j ≤ n) :
    xs.getD i 0 + w < xs.getD j 0 := by
  induction j with
  | zero => omega
  | succ j ih =>
    by_cases h : i = j
    · subst h; exact f.step i (by omega)
    · have h1 := ih (by omega) (by omega)
      have h2 := f.step j (by omega)
      have := f.width
      linarith

theorem Faces.le {xs : List K} {n : Nat} {w : K} (f : Faces xs n w) {i j : Nat} (hij : i ≤ j) (hj : j ≤ n) :
    xs.getD i 0 ≤ xs.getD j 0 := by
  rcases Nat.eq_or_lt_of_le hij with h | h
  · subst h; exact le_refl _
  · have := f.lt h hj; have := f.width; linarith

theorem Faces.nonneg {xs : List K} {n : Nat} {w : K} (f : Faces xs n w) {j : Nat} (hj : j ≤ n) : 0 ≤ xs.getD j 0 := by
  have := f.le (Nat.zero_le j) hj
  rwa [f.zero] at this

/-- `fuzzy_lt` for a positive right argument. -/
theorem fuzzyLt_pos (fuzz l r : K) (hr : 0 < r) : fuzzyLt fuzz l r = true ↔ l < r * (1 - fuzz) := by
  unfold fuzzyLt
  rw [if_neg (ne_of_gt hr), decide_eq_true_eq, abs_of_pos hr, div_lt_iff₀ hr]
  constructor <;> intro h <;> linarith

/-- What the bisection returns for a positive coordinate. -/
theorem locate_bisect (fuzz : K) (hf : 0 < fuzz) (hf1 : fuzz < 1) {xs : List K} {n : Nat} {w : K} (f : Faces xs n w)
    (p : K) (hp : 0 < p) (hpn : p ≤ xs.getD n 0) :
    let ix := Util.lowerBoundLoop (fun i => fuzzyLt fuzz (xs.getD i 0) p) 0 xs.length
    0 < ix ∧ ix ≤ n ∧ xs.getD (ix - 1) 0 < p * (1 - fuzz) ∧ p * (1 - fuzz) ≤ xs.getD ix 0 := by
  intro ix
  have hlen := f.len
  obtain ⟨h1, h2, h3, h4⟩ := Util.lowerBoundLoop_spec (fun i => fuzzyLt fuzz (xs.getD i 0) p) 0 xs.length (by
    intro i j _ hij hj hl
    rw [fuzzyLt_pos fuzz _ p hp] at *
    have := f.le hij (by omega)
    linarith)
  have hpf : 0 < p * (1 - fuzz) := mul_pos hp (by linarith)
  have hpp : p * (1 - fuzz) < p := by nlinarith
  have hix0 : 0 < ix := by
    rcases Nat.eq_zero_or_pos ix with h | h
    · exfalso
      have := h4 0 (by change ix ≤ 0; omega) (by omega)
      rw [← Bool.not_eq_true, fuzzyLt_pos fuzz _ p hp, f.zero] at this
      exact this hpf
    · exact h
  have hixn : ix ≤ n := by
    by_contra hc
    have := h3 n (by omega) (by change n < ix; omega)
    rw [fuzzyLt_pos fuzz _ p hp] at this
    linarith
  refine ⟨hix0, hixn, ?_, ?_⟩
  · have := h3 (ix - 1) (by omega) (by change ix - 1 < ix; omega)
    rwa [fuzzyLt_pos fuzz _ p hp] at this
  · have := h4 ix (by change ix ≤ ix; omega) (by omega)
    rw [← Bool.not_eq_true, fuzzyLt_pos fuzz _ p hp] at this
    exact not_lt.mp this

theorem wrap_pred (ix n : Nat) (h0 : 0 < ix) (hn : ix ≤ n) (hs : n < 2^32) :
    min (n - 1) (max 0 ((ix + (2^32 - 1)) % 2^32)) = ix - 1 := by
  have : (ix + (2^32 - 1)) % 2^32 = ix - 1 := by omega
  rw [this]; omega

theorem wrap_pred' (ix n : Nat) (hn : ix ≤ n) (hpos : 0 < n) (hs : n < 2^32) :
    min (n - 1) (max 0 ((ix + 1 + (2^32 - 1)) % 2^32)) = min (n - 1) ix := by
  have : (ix + 1 + (2^32 - 1)) % 2^32 = ix := by omega
  rw [this]; omega

/-- The result for a positive coordinate: the cell left of the interface found, or the one right of it if the point is
on the interface and the direction is positive. -/
theorem locate_pos (fuzz : K) (hf : 0 < fuzz) (hf1 : fuzz < 1) (equiv : K → K → Bool) {xs : List K} {n : Nat} {w : K}
    (f : Faces xs n w) (p o : K) (hp : 0 < p) (hpn : p ≤ xs.getD n 0) :
    ∃ ix, 0 < ix ∧ ix ≤ n ∧ xs.getD (ix - 1) 0 < p * (1 - fuzz) ∧ p * (1 - fuzz) ≤ xs.getD ix 0 ∧
      locate fuzz equiv xs n p o =
        some (if equiv p (xs.getD ix 0) = true ∧ 0 < o then min (n - 1) ix else ix - 1) := by
  obtain ⟨h1, h2, h3, h4⟩ := locate_bisect fuzz hf hf1 f p hp hpn
  have hlen := f.len
  obtain ⟨ix, hix⟩ : ∃ ix, ix = Util.lowerBoundLoop (fun i => fuzzyLt fuzz (xs.getD i 0) p) 0 xs.length := ⟨_, rfl⟩
  rw [← hix] at h1 h2 h3 h4
  refine ⟨ix, h1, h2, h3, h4, ?_⟩
  unfold locate
  simp only [← hix]
  have hb : ix < xs.length := by omega
  rw [List.getElem?_eq_getElem hb]
  have hd : xs.getD ix 0 = xs[ix] := by rw [List.getD_eq_getElem?_getD, List.getElem?_eq_getElem hb]; rfl
  simp only
  congr 1
  rw [hd]
  by_cases he : equiv p xs[ix] = true
  · rw [if_pos he]
    by_cases ho : 0 < o
    · rw [if_pos ho, if_pos ⟨he, ho⟩]
      exact wrap_pred' ix n h2 f.pos f.small
    · rw [if_neg ho, if_neg (fun h => ho h.2)]
      exact wrap_pred ix n h1 h2 f.small
  · rw [if_neg he, if_neg (fun h => he h.1)]
    exact wrap_pred ix n h1 h2 f.small

/-- C49, location in one coordinate: for every point of the lattice not on its lower face and every direction the cell
found contains the point, up to the tolerance. -/
theorem C49_locate_partial (fuzz : K) (hf : 0 < fuzz) (hf1 : fuzz < 1) {xs : List K} {n : Nat}
    (f : Faces xs n fuzz) (p o : K) (hp : 0 < p) (hpn : p ≤ xs.getD n 0) :
    ∃ i, locate fuzz (equivAbs fuzz) xs n p o = some i ∧ i < n ∧
      xs.getD i 0 - fuzz < p ∧ p ≤ xs.getD (i + 1) 0 + fuzz * p := by
  obtain ⟨ix, h1, h2, h3, h4, h5⟩ := locate_pos fuzz hf hf1 (equivAbs fuzz) f p o hp hpn
  refine ⟨_, h5, ?_⟩
  have hpos := f.pos
  have hpp : p * (1 - fuzz) = p - fuzz * p := by ring
  have hfp : 0 < fuzz * p := mul_pos hf hp
  by_cases hc : equivAbs fuzz p (xs.getD ix 0) = true ∧ 0 < o
  · rw [if_pos hc]
    have habs := hc.1
    unfold equivAbs at habs
    rw [decide_eq_true_eq, abs_lt] at habs
    rcases Nat.lt_or_ge ix n with hlt | hge
    · have e : min (n - 1) ix = ix := by omega
      rw [e]
      have := f.step ix hlt
      exact ⟨hlt, by linarith [habs.1], by linarith [habs.2]⟩
    · have e : min (n - 1) ix = n - 1 := by omega
      have e' : n - 1 + 1 = n := by omega
      rw [e, e']
      have hixn : ix = n := by omega
      rw [hixn] at h3
      exact ⟨by omega, by linarith, by linarith⟩
  · rw [if_neg hc]
    have e : ix - 1 + 1 = ix := by omega
    rw [e]
    exact ⟨by omega, by linarith, by linarith⟩

/-- C49, interior points: a point further from the interfaces of its cell than the tolerance is found in exactly that
cell, whatever the direction. -/
theorem C49_locate_interior (fuzz : K) (hf : 0 < fuzz) (hf1 : fuzz < 1) (equiv : K → K → Bool) (m : K) {xs : List K}
    {n : Nat} {w : K} (f : Faces xs n w)
    (p o : K) (k : Nat) (hk : k < n) (hm1 : fuzz ≤ m) (hm2 : fuzz * xs.getD n 0 ≤ m)
    (heq : ∀ i, i ≤ n → equiv p (xs.getD i 0) = true → |p - xs.getD i 0| < m)
    (hlo : xs.getD k 0 + m ≤ p) (hhi : p + m ≤ xs.getD (k + 1) 0) :
    locate fuzz equiv xs n p o = some k := by
  have hx0 := f.nonneg (show k ≤ n by omega)
  have hp : 0 < p := by linarith
  have hle : xs.getD (k + 1) 0 ≤ xs.getD n 0 := f.le (by omega) (le_refl n)
  have hpn : p < xs.getD n 0 := by linarith
  obtain ⟨ix, h1, h2, h3, h4, h5⟩ := locate_pos fuzz hf hf1 equiv f p o hp hpn.le
  have hpp : p * (1 - fuzz) = p - fuzz * p := by ring
  have hfp : fuzz * p < m := lt_of_lt_of_le (mul_lt_mul_of_pos_left hpn hf) hm2
  have hfp0 : 0 < fuzz * p := mul_pos hf hp
  -- the interface found is the upper one of the cell
  have hix : ix = k + 1 := by
    rcases Nat.lt_trichotomy ix (k + 1) with h | h | h
    · have := f.le (show ix ≤ k by omega) (by omega)
      linarith
    · exact h
    · have := f.le (show k + 1 ≤ ix - 1 by omega) (by omega)
      linarith
  subst hix
  rw [h5]
  congr 1
  rw [if_neg]
  · omega
  · rintro ⟨he, -⟩
    have := heq (k + 1) (by omega) he
    rw [abs_lt] at this
    linarith [this.1]

/-- C49, interfaces: a point exactly on the interface between two cells is found in the cell the direction points
to. -/
theorem C49_locate_interface (fuzz : K) (hf : 0 < fuzz) (hf1 : fuzz < 1) {xs : List K} {n : Nat} {w : K}
    (f : Faces xs n w) (hw : fuzz * xs.getD n 0 ≤ w) (o : K) (k : Nat) (hk0 : 0 < k) (hkn : k < n) :
    locate fuzz (equivAbs fuzz) xs n (xs.getD k 0) o = some (if 0 < o then k else k - 1) := by
  have hp : 0 < xs.getD k 0 := by
    have := f.lt hk0 (by omega); rw [f.zero] at this; linarith [f.width]
  have hpn : xs.getD k 0 ≤ xs.getD n 0 := f.le (by omega) (le_refl n)
  obtain ⟨ix, h1, h2, h3, h4, h5⟩ := locate_pos fuzz hf hf1 (equivAbs fuzz) f _ o hp hpn
  have hpp : xs.getD k 0 * (1 - fuzz) = xs.getD k 0 - fuzz * xs.getD k 0 := by ring
  have hfp0 : 0 < fuzz * xs.getD k 0 := mul_pos hf hp
  have hfp : fuzz * xs.getD k 0 ≤ w := le_trans (mul_le_mul_of_nonneg_left hpn hf.le) hw
  have hix : ix = k := by
    rcases Nat.lt_trichotomy ix k with h | h | h
    · have := f.lt h (by omega); linarith
    · exact h
    · have := f.le (show k ≤ ix - 1 by omega) (by omega); linarith
  subst hix
  rw [h5]
  congr 1
  have he : equivAbs fuzz (xs.getD ix 0) (xs.getD ix 0) = true := by
    unfold equivAbs; rw [sub_self, abs_zero, decide_eq_true_eq]; exact hf
  by_cases ho : 0 < o
  · rw [if_pos ⟨he, ho⟩, if_pos ho]; omega
  · rw [if_neg (fun h => ho h.2), if_neg ho]

/-- C49, upper face: a point on the upper face is found in the last cell, whatever the direction. -/
theorem C49_locate_upper (fuzz : K) (hf : 0 < fuzz) (hf1 : fuzz < 1) {xs : List K} {n : Nat} {w : K}
    (f : Faces xs n w) (hw : fuzz * xs.getD n 0 ≤ w) (o : K) :
    locate fuzz (equivAbs fuzz) xs n (xs.getD n 0) o = some (n - 1) := by
  have hp : 0 < xs.getD n 0 := by
    have := f.lt f.pos (le_refl n); rw [f.zero] at this; linarith [f.width]
  obtain ⟨ix, h1, h2, h3, h4, h5⟩ := locate_pos fuzz hf hf1 (equivAbs fuzz) f _ o hp (le_refl _)
  have hpp : xs.getD n 0 * (1 - fuzz) = xs.getD n 0 - fuzz * xs.getD n 0 := by ring
  have hix : ix = n := by
    rcases Nat.lt_or_ge ix n with h | h
    · have := f.lt h (le_refl n); linarith
    · omega
  subst hix
  rw [h5]; congr 1
  by_cases hc : equivAbs fuzz (xs.getD ix 0) (xs.getD ix 0) = true ∧ 0 < o
  · rw [if_pos hc]; omega
  · rw [if_neg hc]

/-- C49, lower face: with a positive direction the first cell is found; with any other the subtraction wraps around and
the restriction to the lattice turns it into the *last* cell. -/
theorem C49_locate_lower (fuzz : K) (hf : 0 < fuzz) {xs : List K} {n : Nat} {w : K} (f : Faces xs n w) (o : K) :
    locate fuzz (equivAbs fuzz) xs n 0 o = some (if 0 < o then 0 else n - 1) := by
  have hlen := f.len
  have hix : Util.lowerBoundLoop (fun i => fuzzyLt fuzz (xs.getD i 0) 0) 0 xs.length = 0 := by
    obtain ⟨h1, h2, h3, h4⟩ := Util.lowerBoundLoop_spec (fun i => fuzzyLt fuzz (xs.getD i 0) 0) 0 xs.length (by
      intro i j _ hij hj hl
      unfold fuzzyLt at *
      simp only [if_pos, decide_eq_true_eq] at *
      have := f.le hij (by omega)
      linarith)
    rcases Nat.eq_zero_or_pos (Util.lowerBoundLoop (fun i => fuzzyLt fuzz (xs.getD i 0) 0) 0 xs.length) with h | h
    · exact h
    · have := h3 0 (by omega) h
      unfold fuzzyLt at this
      rw [f.zero] at this
      simp at this
  unfold locate
  simp only [hix]
  have hb : 0 < xs.length := by omega
  have hz : xs[0] = 0 := by
    have := f.zero
    rwa [List.getD_eq_getElem?_getD, List.getElem?_eq_getElem hb] at this
  rw [List.getElem?_eq_getElem hb]
  simp only [hz]
  have he : equivAbs fuzz (0 : K) 0 = true := by
    unfold equivAbs; rw [sub_self, abs_zero, decide_eq_true_eq]; exact hf
  rw [if_pos he]
  have hs := f.small
  have hpos := f.pos
  by_cases ho : 0 < o
  · rw [if_pos ho, if_pos ho]; congr 1
    have : (0 + 1 + (2^32 - 1)) % 2^32 = 0 := by norm_num
    rw [this]; omega
  · rw [if_neg ho, if_neg ho]; congr 1
    have : (0 + (2^32 - 1)) % 2^32 = 2^32 - 1 := by norm_num
    rw [this]; omega

/-- The claim: the cell found contains the point, up to the tolerance, for every point of the lattice and every
direction. -/
def C49_claim : Prop := ∀ (fuzz : ℚ) (xs : List ℚ) (n : Nat) (p o : ℚ), 0 < fuzz → fuzz < 1 → Faces xs n fuzz →
    0 ≤ p → p ≤ xs.getD n 0 →
    ∃ i, locate fuzz (equivAbs fuzz) xs n p o = some i ∧ i < n ∧
      xs.getD i 0 - fuzz < p ∧ p ≤ xs.getD (i + 1) 0 + fuzz * p

theorem faces_two : Faces ([0, 1, 2] : List ℚ) 2 (200 / 2^52) := by
  refine ⟨rfl, by norm_num, by norm_num, rfl, by norm_num, ?_⟩
  intro i hi
  rcases (by omega : i = 0 ∨ i = 1) with rfl | rfl
  · norm_num
  · norm_num

/-- C49 is violated on the lower face: in a lattice of two unit pins the point at zero is put in the second one. -/
theorem C49_claim_false : ¬ C49_claim := by
  intro h
  obtain ⟨i, h1, -, h3, -⟩ := h (200 / 2^52) [0, 1, 2] 2 0 (-1) (by norm_num) (by norm_num) faces_two (by norm_num)
    (by norm_num)
  rw [C49_locate_lower _ (by norm_num) faces_two] at h1
  simp only [Option.some.injEq] at h1
  norm_num at h1
  subst h1
  norm_num at h3

theorem interfaces_getD (hs : List K) (x : K) : (interfaces hs x).length = hs.length + 1 ∧
    ∀ i, i ≤ hs.length → (interfaces hs x).getD i 0 = x + (hs.take i).sum := by
  induction hs generalizing x with
  | nil => exact ⟨rfl, by intro i hi; have : i = 0 := by simpa using hi
                          subst this; simp [interfaces]⟩
  | cons h hs ih =>
    obtain ⟨h1, h2⟩ := ih (x + h)
    refine ⟨by simp [interfaces, h1], ?_⟩
    intro i hi
    cases i with
    | zero => simp [interfaces]
    | succ i =>
      simp only [interfaces, List.getD_cons_succ, List.take_succ_cons, List.sum_cons]
      rw [h2 i (by simpa using hi)]; ring

/-- The interfaces the constructor accumulates from pitches larger than `w` are such faces. -/
theorem C49_interfaces (hs : List K) (w : K) (hw : 0 ≤ w) (hne : hs ≠ []) (hsm : hs.length < 2^32)
    (hp : ∀ h ∈ hs, w < h) : Faces (interfaces hs 0) hs.length w ∧ (interfaces hs 0).getD hs.length 0 = hs.sum := by
  obtain ⟨h1, h2⟩ := interfaces_getD hs 0
  refine ⟨⟨h1, List.length_pos_iff.mpr hne, hsm, ?_, hw, ?_⟩, ?_⟩
  · rw [h2 0 (Nat.zero_le _)]; simp
  · intro i hi
    rw [h2 i (by omega), h2 (i + 1) (by omega), List.take_succ_eq_append_getElem hi, List.sum_append]
    have := hp _ (List.getElem_mem hi)
    simp only [List.sum_cons, List.sum_nil]
    linarith
  · rw [h2 _ (le_refl _), List.take_length, zero_add]

/-- C49, lattice: a point in the interior of pin `(kx, ky)` is found there; the point becomes the centre of the pin and
the region index moves on by the number of regions of the pins before. -/
theorem C49_lattice (fuzz : K) (hf : 0 < fuzz) (hf1 : fuzz < 1) (l : Lat K) (w m : K)
    (fx : Faces l.xs l.nx w) (fy : Faces l.ys l.ny w) (hr : l.firstReg.length = l.nx * l.ny)
    (px py ox oy : K) (first kx ky : Nat) (hkx : kx < l.nx) (hky : ky < l.ny) (hm1 : fuzz ≤ m)
    (hm2 : fuzz * l.xs.getD l.nx 0 ≤ m) (hm3 : fuzz * l.ys.getD l.ny 0 ≤ m)
    (hx0 : l.xs.getD kx 0 + m ≤ px) (hx1 : px + m ≤ l.xs.getD (kx + 1) 0)
    (hy0 : l.ys.getD ky 0 + m ≤ py) (hy1 : py + m ≤ l.ys.getD (ky + 1) 0) :
    latPin fuzz l px py ox oy first = some (kx, ky, (l.xs.getD (kx + 1) 0 + l.xs.getD kx 0) / 2,
      (l.ys.getD (ky + 1) 0 + l.ys.getD ky 0) / 2, first + l.firstReg.getD (ky * l.nx + kx) 0) := by
  have heq : ∀ (p : K) (a : K), equivAbs fuzz p a = true → |p - a| < m := by
    intro p a h
    unfold equivAbs at h
    rw [decide_eq_true_eq] at h
    linarith
  have e1 := C49_locate_interior fuzz hf hf1 (equivAbs fuzz) m fx px ox kx hkx hm1 hm2 (fun i _ h => heq _ _ h) hx0 hx1
  have e2 := C49_locate_interior fuzz hf hf1 (equivAbs fuzz) m fy py oy ky hky hm1 hm3 (fun i _ h => heq _ _ h) hy0 hy1
  have l1 := fx.len
  have l2 := fy.len
  have hb : ky * l.nx + kx < l.firstReg.length := by
    rw [hr, Nat.mul_comm l.nx]
    have := Nat.mul_le_mul_right l.nx (show ky + 1 ≤ l.ny by omega)
    have e : (ky + 1) * l.nx = ky * l.nx + l.nx := by ring
    omega
  unfold latPin
  rw [e1, e2]
  simp only [List.getD_eq_getElem?_getD]
  rw [List.getElem?_eq_getElem (show kx < l.xs.length by omega), List.getElem?_eq_getElem (show kx + 1 < l.xs.length by omega),
    List.getElem?_eq_getElem (show ky < l.ys.length by omega), List.getElem?_eq_getElem (show ky + 1 < l.ys.length by omega),
    List.getElem?_eq_getElem hb]
  rfl

/-- C49, plane: a point in the interior of pin `(kx, ky)` of lattice `(ax, ay)` is found there. `equiv` is any
comparison that holds only for numbers closer than the margin (`fp_equiv`: 200 units in the last place or `REAL_FUZZ`,
see C05). -/
theorem C49_plane (fuzz : K) (hf : 0 < fuzz) (hf1 : fuzz < 1) (equiv : K → K → Bool) (g : PlaneG K) (w m : K)
    (fx : Faces g.hx g.nx w) (fy : Faces g.hy g.ny w) (ax ay : Nat) (hax : ax < g.nx) (hay : ay < g.ny)
    (hr : g.firstReg.length = g.nx * g.ny) (l : Lat K) (hl : g.lats[ay * g.nx + ax]? = some l)
    (lx : Faces l.xs l.nx w) (ly : Faces l.ys l.ny w) (hlr : l.firstReg.length = l.nx * l.ny)
    (hwx : l.xs.getD l.nx 0 = g.hx.getD (ax + 1) 0 - g.hx.getD ax 0)
    (hwy : l.ys.getD l.ny 0 = g.hy.getD (ay + 1) 0 - g.hy.getD ay 0)
    (px py ox oy : K) (first kx ky : Nat) (hkx : kx < l.nx) (hky : ky < l.ny) (hm1 : fuzz ≤ m)
    (hm2 : fuzz * g.hx.getD g.nx 0 ≤ m) (hm3 : fuzz * g.hy.getD g.ny 0 ≤ m)
    (heq : ∀ a b : K, equiv a b = true → |a - b| < m)
    (hx0 : g.hx.getD ax 0 + l.xs.getD kx 0 + m ≤ px) (hx1 : px + m ≤ g.hx.getD ax 0 + l.xs.getD (kx + 1) 0)
    (hy0 : g.hy.getD ay 0 + l.ys.getD ky 0 + m ≤ py) (hy1 : py + m ≤ g.hy.getD ay 0 + l.ys.getD (ky + 1) 0) :
    planePin fuzz equiv g px py ox oy first = some (ax, ay, kx, ky,
      (l.xs.getD (kx + 1) 0 + l.xs.getD kx 0) / 2 + g.hx.getD ax 0,
      (l.ys.getD (ky + 1) 0 + l.ys.getD ky 0) / 2 + g.hy.getD ay 0,
      first + g.firstReg.getD (g.nx * ay + ax) 0 + l.firstReg.getD (ky * l.nx + kx) 0) := by
  have n1 := lx.nonneg (show kx ≤ l.nx by omega)
  have n2 := ly.nonneg (show ky ≤ l.ny by omega)
  have t1 := lx.le (show kx + 1 ≤ l.nx by omega) (le_refl _)
  have t2 := ly.le (show ky + 1 ≤ l.ny by omega) (le_refl _)
  have e1 := C49_locate_interior fuzz hf hf1 equiv m fx px ox ax hax hm1 hm2 (fun i _ h => heq _ _ h)
    (by linarith) (by linarith)
  have e2 := C49_locate_interior fuzz hf hf1 equiv m fy py oy ay hay hm1 hm3 (fun i _ h => heq _ _ h)
    (by linarith) (by linarith)
  have g1 := fx.nonneg (show ax ≤ g.nx by omega)
  have g2 := fy.nonneg (show ay ≤ g.ny by omega)
  have g3 := fx.le (show ax + 1 ≤ g.nx by omega) (le_refl _)
  have g4 := fy.le (show ay + 1 ≤ g.ny by omega) (le_refl _)
  have b1 := fx.len
  have b2 := fy.len
  have hb : g.nx * ay + ax < g.firstReg.length := by
    rw [hr]
    have := Nat.mul_le_mul_left g.nx (show ay + 1 ≤ g.ny by omega)
    have e : g.nx * (ay + 1) = g.nx * ay + g.nx := by ring
    omega
  have s1 : fuzz * l.xs.getD l.nx 0 ≤ m := le_trans (mul_le_mul_of_nonneg_left (by linarith) hf.le) hm2
  have s2 : fuzz * l.ys.getD l.ny 0 ≤ m := le_trans (mul_le_mul_of_nonneg_left (by linarith) hf.le) hm3
  have e3 := C49_lattice fuzz hf hf1 l w m lx ly hlr (px - g.hx.getD ax 0) (py - g.hy.getD ay 0) ox oy
    (first + g.firstReg.getD (g.nx * ay + ax) 0) kx ky hkx hky hm1 s1 s2 (by linarith) (by linarith) (by linarith)
    (by linarith)
  have d1 : g.hx[ax]? = some (g.hx.getD ax 0) := by
    rw [List.getD_eq_getElem?_getD, List.getElem?_eq_getElem (by omega)]; rfl
  have d2 : g.hy[ay]? = some (g.hy.getD ay 0) := by
    rw [List.getD_eq_getElem?_getD, List.getElem?_eq_getElem (by omega)]; rfl
  have d3 : g.firstReg[g.nx * ay + ax]? = some (g.firstReg.getD (g.nx * ay + ax) 0) := by
    rw [List.getD_eq_getElem?_getD, List.getElem?_eq_getElem hb]; rfl
  unfold planePin
  rw [e1, e2]
  simp only [d1, d2, d3, hl, e3]

theorem locate_back (fuzz : K) (equiv : K → K → Bool) (xs : List K) (n : Nat) (p o : K) (ix : Nat) (x : K)
    (hix : Util.lowerBoundLoop (fun i => fuzzyLt fuzz (xs.getD i 0) p) 0 xs.length = ix) (hx : xs[ix]? = some x)
    (ho : ¬ 0 < o) (h0 : 0 < ix) (hn : ix ≤ n) (hs : n < 2^32) : locate fuzz equiv xs n p o = some (ix - 1) := by
  unfold locate
  simp only [hix, hx, if_neg ho, ite_self]
  rw [wrap_pred ix n h0 hn hs]

theorem locate_single (fuzz : K) (equiv : K → K → Bool) (xs : List K) (p o : K) (ix : Nat) (x : K)
    (hix : Util.lowerBoundLoop (fun i => fuzzyLt fuzz (xs.getD i 0) p) 0 xs.length = ix) (hx : xs[ix]? = some x) :
    locate fuzz equiv xs 1 p o = some 0 := by
  unfold locate
  simp only [hix, hx, Nat.sub_self, Nat.zero_min]

theorem planePin_none (fuzz : K) (equiv : K → K → Bool) (g : PlaneG K) (px py ox oy : K) (first ax ay r : Nat) (x y : K)
    (l : Lat K) (h1 : locate fuzz equiv g.hx g.nx px ox = some ax) (h2 : locate fuzz equiv g.hy g.ny py oy = some ay)
    (h3 : g.hx[ax]? = some x) (h4 : g.hy[ay]? = some y) (h5 : g.firstReg[g.nx * ay + ax]? = some r)
    (h6 : g.lats[ay * g.nx + ax]? = some l) (h7 : latPin fuzz l (px - x) (py - y) ox oy (first + r) = none) :
    planePin fuzz equiv g px py ox oy first = none := by
  unfold planePin
  rw [h1, h2]
  simp only [h3, h4, h5, h6, h7]

/-- Three lattices side by side, of widths 80, 20 and 80; the middle one has two pins. -/
def threeLats : PlaneG ℚ where
  nx := 3
  ny := 1
  hx := [0, 80, 100, 180]
  hy := [0, 1]
  lats := [⟨1, 1, [0, 80], [0, 1], [0]⟩, ⟨2, 1, [0, 10, 20], [0, 1], [0, 1]⟩, ⟨1, 1, [0, 80], [0, 1], [0]⟩]
  firstReg := [0, 1, 3]

theorem threeLats_x (equiv : ℚ → ℚ → Bool) :
    locate (200 / 2^52) equiv threeLats.hx threeLats.nx (100 + 140 / 2^46) (-1/2) = some 1 :=
  locate_back _ equiv _ 3 _ _ 2 100 (by decide +kernel) rfl (by norm_num) (by norm_num) (by norm_num) (by norm_num)

theorem threeLats_y (equiv : ℚ → ℚ → Bool) :
    locate (200 / 2^52) equiv threeLats.hy threeLats.ny (1/2) (1/2) = some 0 :=
  locate_single _ equiv _ _ _ 1 1 (by decide +kernel) rfl

theorem threeLats_lat : latPin (200 / 2^52 : ℚ) ⟨2, 1, [0, 10, 20], [0, 1], [0, 1]⟩ (100 + 140 / 2^46 - 80) (1/2 - 0)
    (-1/2) (1/2) (0 + 1) = none := by decide +kernel

/-- C49, the boundary between two lattices: the plane compares with a tolerance relative to the coordinate in the core,
the lattice with one relative to the coordinate in the lattice. A point 140 units in the last place beyond the lattice
boundary at 100, flying in the negative direction, is assigned to the lattice below, whose bisection then runs off the
end and reads past the end of its interfaces. All numbers are doubles, and the point is inside the core. -/
theorem C49_plane_undefined (equiv : ℚ → ℚ → Bool) :
    ∃ px : ℚ, 100 < px ∧ px < 101 ∧ threeLats.hx.getD threeLats.nx 0 = 180 ∧
      planePin (200 / 2^52) equiv threeLats px (1/2) (-1/2) (1/2) 0 = none :=
  ⟨100 + 140 / 2^46, by norm_num, by norm_num, rfl,
    planePin_none _ equiv threeLats _ _ _ _ 0 1 0 1 80 0 _ (threeLats_x equiv) (threeLats_y equiv) rfl rfl rfl rfl
      threeLats_lat⟩

/-! ## Instances -/

example : arrange (fun i => if i < 10 then some i else none) 3 2 [1, 2, 3, 4, 5, 6] =
    .ok [some 4, some 5, some 6, some 1, some 2, some 3] := by decide +kernel
example : arrange (fun i => if i < 10 then some i else none) 3 2 [1, 2, 3, 4, 15, 6] = .throw := by decide +kernel
example : latPin (200 / 2^52 : ℚ) ⟨2, 1, [0, 10, 20], [0, 1], [0, 7]⟩ 12 (1/2) 1 1 3 = some (1, 0, 15, 1/2, 10) := by
  decide +kernel
example : locate (200 / 2^52 : ℚ) (equivAbs (200 / 2^52)) [0, 1, 2] 2 1 (-1) = some 0 := by decide +kernel
example : locate (200 / 2^52 : ℚ) (equivAbs (200 / 2^52)) [0, 1, 2] 2 1 1 = some 1 := by decide +kernel

end Verif.Core
