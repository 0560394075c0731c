import Verif.Core.WhereModel
import Verif.Core.PinsProps
import Verif.PinMesh.Model
import Mathlib.Tactic.NormNum
import Mathlib.Algebra.Order.BigOperators.Group.List

/-!
# C86, C87: location of points in the core
-/

namespace Verif.Core

open Verif.Mc (Out)

variable {K : Type} [Field K] [LinearOrder K] [IsStrictOrderedRing K]

/-- What `plane_index` gives in terms of the interface found. -/
theorem planeIndex_pos (fuzz : K) (hf : 0 < fuzz) (hf1 : fuzz < 1) (equiv : K → K → Bool) {zs : List K} {n : Nat} {w : K}
    (f : Faces zs n w) (z oz : K) (hp : 0 < z) (hpn : z ≤ zs.getD n 0) :
    ∃ iz, 0 < iz ∧ iz ≤ n ∧ zs.getD (iz - 1) 0 < z * (1 - fuzz) ∧ z * (1 - fuzz) ≤ zs.getD iz 0 ∧
      planeIndex fuzz equiv zs n z oz =
        if equiv z (zs.getD iz 0) = true ∧ oz = 0 then .throw
        else .ok (if equiv z (zs.getD iz 0) = true ∧ 0 < oz then ((min (n - 1) iz : Nat) : Int) else ((iz - 1 : Nat) : Int)) := by
  obtain ⟨h1, h2, h3, h4⟩ := locate_bisect fuzz hf hf1 f z hp hpn
  have hlen := f.len
  obtain ⟨iz, hiz⟩ : ∃ iz, iz = Util.lowerBoundLoop (fun i => fuzzyLt fuzz (zs.getD i 0) z) 0 zs.length := ⟨_, rfl⟩
  rw [← hiz] at h1 h2 h3 h4
  refine ⟨iz, h1, h2, h3, h4, ?_⟩
  unfold planeIndex
  simp only [← hiz]
  have hb : iz < zs.length := by omega
  have hd : zs.getD iz 0 = zs[iz] := by rw [List.getD_eq_getElem?_getD, List.getElem?_eq_getElem hb]; rfl
  rw [List.getElem?_eq_getElem hb, hd]
  simp only
  by_cases he : equiv z zs[iz] = true
  · by_cases ho : oz = 0
    · simp [he, ho]
    · by_cases hp : 0 < oz
      · simp only [he, ho, hp, and_false, and_true, if_true, if_false]
        congr 1; omega
      · simp only [he, ho, hp, and_false, if_true, if_false]
        congr 1; omega
  · simp only [he, false_and, if_false, Bool.false_eq_true]
    congr 1; omega

/-- C86: a point within plane `k`, further from its faces than the tolerance, is found in plane `k`, also without a direction. -/
theorem C86_plane (fuzz : K) (hf : 0 < fuzz) (hf1 : fuzz < 1) (equiv : K → K → Bool) (m : K) {zs : List K} {n : Nat} {w : K}
    (f : Faces zs n w) (z oz : K) (k : Nat) (hk : k < n) (hm1 : fuzz ≤ m) (hm2 : fuzz * zs.getD n 0 ≤ m)
    (heq : ∀ i, i ≤ n → equiv z (zs.getD i 0) = true → |z - zs.getD i 0| < m)
    (hlo : zs.getD k 0 + m ≤ z) (hhi : z + m ≤ zs.getD (k + 1) 0) : planeIndex fuzz equiv zs n z oz = .ok k := by
  have hx0 := f.nonneg (show k ≤ n by omega)
  have hp : 0 < z := by linarith
  have hle : zs.getD (k + 1) 0 ≤ zs.getD n 0 := f.le (by omega) (le_refl n)
  have hpn : z < zs.getD n 0 := by linarith
  obtain ⟨ix, h1, h2, h3, h4, h5⟩ := planeIndex_pos fuzz hf hf1 equiv f z oz hp hpn.le
  have hpp : z * (1 - fuzz) = z - fuzz * z := by ring
  have hfp : fuzz * z < m := lt_of_lt_of_le (mul_lt_mul_of_pos_left hpn hf) hm2
  have hfp0 : 0 < fuzz * z := mul_pos hf hp
  have hix : ix = k + 1 := by
    rcases Nat.lt_trichotomy ix (k + 1) with h | h | h
    · have := f.le (show ix ≤ k by omega) (by omega)
      linarith
    · exact h
    · have := f.le (show k + 1 ≤ ix - 1 by omega) (by omega)
      linarith
  subst hix
  have hne : ¬ equiv z (zs.getD (k + 1) 0) = true := by
    intro he
    have := heq (k + 1) (by omega) he
    rw [abs_lt] at this
    linarith [this.1]
  rw [h5, if_neg (fun h => hne h.1), if_neg (fun h => hne h.1)]
  simp

/-- C86: on the interface between two planes the direction decides: without one there is an exception. -/
theorem C86_plane_interface (fuzz : K) (hf : 0 < fuzz) (hf1 : fuzz < 1) (equiv : K → K → Bool) (he : ∀ a, equiv a a = true) {zs : List K}
    {n : Nat} {w : K} (f : Faces zs n w) (hw : fuzz * zs.getD n 0 ≤ w) (oz : K) (k : Nat) (hk0 : 0 < k) (hkn : k < n) :
    planeIndex fuzz equiv zs n (zs.getD k 0) oz =
      if oz = 0 then .throw else .ok (if 0 < oz then (k : Int) else k - 1) := by
  have hp : 0 < zs.getD k 0 := by
    have := f.lt hk0 (by omega); rw [f.zero] at this; linarith [f.width]
  have hpn : zs.getD k 0 ≤ zs.getD n 0 := f.le (by omega) (le_refl n)
  obtain ⟨ix, h1, h2, h3, h4, h5⟩ := planeIndex_pos fuzz hf hf1 equiv f _ oz hp hpn
  have hpp : zs.getD k 0 * (1 - fuzz) = zs.getD k 0 - fuzz * zs.getD k 0 := by ring
  have hfp0 : 0 < fuzz * zs.getD k 0 := mul_pos hf hp
  have hfp : fuzz * zs.getD k 0 ≤ w := le_trans (mul_le_mul_of_nonneg_left hpn hf.le) hw
  have hix : ix = k := by
    rcases Nat.lt_trichotomy ix k with h | h | h
    · have := f.lt h (by omega); linarith
    · exact h
    · have := f.le (show k ≤ ix - 1 by omega) (by omega); linarith
  subst hix
  rw [h5]
  simp only [he, true_and]
  by_cases h0 : oz = 0
  · rw [if_pos h0, if_pos h0]
  · rw [if_neg h0, if_neg h0]
    congr 1
    by_cases ho : 0 < oz
    · rw [if_pos ho, if_pos ho]; omega
    · rw [if_neg ho, if_neg ho]; omega

/-- C86: at the top of the core the topmost plane is found. -/
theorem C86_plane_top (fuzz : K) (hf : 0 < fuzz) (hf1 : fuzz < 1) (equiv : K → K → Bool) (he : ∀ a, equiv a a = true) {zs : List K}
    {n : Nat} {w : K} (f : Faces zs n w) (hw : fuzz * zs.getD n 0 ≤ w) (oz : K) (ho : oz ≠ 0) :
    planeIndex fuzz equiv zs n (zs.getD n 0) oz = .ok ((n : Int) - 1) := by
  have hp : 0 < zs.getD n 0 := by
    have := f.lt f.pos (le_refl n); rw [f.zero] at this; linarith [f.width]
  obtain ⟨ix, h1, h2, h3, h4, h5⟩ := planeIndex_pos fuzz hf hf1 equiv f _ oz hp (le_refl _)
  have hpp : zs.getD n 0 * (1 - fuzz) = zs.getD n 0 - fuzz * zs.getD n 0 := by ring
  have hix : ix = n := by
    rcases Nat.lt_or_ge ix n with h | h
    · have := f.lt h (le_refl n); linarith
    · omega
  subst hix
  have := f.pos
  rw [h5, if_neg (fun h => ho h.2)]
  congr 1
  simp only [he, true_and]
  split_ifs <;> omega

/-- C86: at the bottom the lowest plane is found. -/
theorem C86_plane_bottom (fuzz : K) (equiv : K → K → Bool) {zs : List K} {n : Nat} {w : K}
    (f : Faces zs n w) (oz : K) (ho : oz ≠ 0) : planeIndex fuzz equiv zs n 0 oz = .ok 0 := by
  have hlen := f.len
  have hix : Util.lowerBoundLoop (fun i => fuzzyLt fuzz (zs.getD i 0) 0) 0 zs.length = 0 := by
    obtain ⟨h1, h2, h3, h4⟩ := Util.lowerBoundLoop_spec (fun i => fuzzyLt fuzz (zs.getD i 0) 0) 0 zs.length (by
      intro i j _ hij hj hl
      unfold fuzzyLt at *
      simp only [if_pos, decide_eq_true_eq] at *
      have := f.le hij (by omega)
      linarith)
    rcases Nat.eq_zero_or_pos (Util.lowerBoundLoop (fun i => fuzzyLt fuzz (zs.getD i 0) 0) 0 zs.length) with h | h
    · exact h
    · have := h3 0 (by omega) h
      unfold fuzzyLt at this
      rw [f.zero] at this
      simp at this
  have hb : 0 < zs.length := by omega
  unfold planeIndex
  simp only [hix]
  rw [List.getElem?_eq_getElem hb]
  simp only
  rw [if_neg (fun h => ho h.2)]
  have := f.pos
  congr 1
  split_ifs <;> simp <;> omega

/-- C86: above the core, by more than the tolerance, `z_vec_` is read past its end. -/
theorem C86_plane_above (fuzz : K) (hf1 : fuzz < 1) (equiv : K → K → Bool) {zs : List K} {n : Nat} {w : K}
    (f : Faces zs n w) (z oz : K) (hz : zs.getD n 0 < z * (1 - fuzz)) : planeIndex fuzz equiv zs n z oz = .ub := by
  have hlen := f.len
  have hz0 : 0 < z := by
    have := f.nonneg (le_refl n)
    by_contra hc
    have : z * (1 - fuzz) ≤ 0 := mul_nonpos_of_nonpos_of_nonneg (not_lt.mp hc) (by linarith)
    linarith
  have hix : Util.lowerBoundLoop (fun i => fuzzyLt fuzz (zs.getD i 0) z) 0 zs.length = n + 1 := by
    obtain ⟨h1, h2, h3, h4⟩ := Util.lowerBoundLoop_spec (fun i => fuzzyLt fuzz (zs.getD i 0) z) 0 zs.length (by
      intro i j _ hij hj hl
      rw [fuzzyLt_pos fuzz _ z hz0] at *
      have := f.le hij (by omega)
      linarith)
    by_contra hne
    have := h4 n (by omega) (by omega)
    rw [← Bool.not_eq_true, fuzzyLt_pos fuzz _ z hz0] at this
    exact this hz
  unfold planeIndex
  simp only [hix]
  rw [List.getElem?_eq_none (by omega)]

/-! ## Columns and rows -/

theorem posOf_interior {xs : List K} {n : Nat} {w : K} (f : Faces xs n w) (p : K) (k : Nat) (hk : k < n) (h0 : xs.getD k 0 < p)
    (h1 : p ≤ xs.getD (k + 1) 0) : posOf xs p = k := by
  have hlen := f.len
  obtain ⟨a, b, c⟩ := Util.lowerBound_spec (fun i => xs.getD i 0) xs.length p (fun i j hij hj => f.le hij (by omega))
  have : Util.lowerBound (fun i => xs.getD i 0) xs.length p = k + 1 := by
    rcases Nat.lt_trichotomy (Util.lowerBound (fun i => xs.getD i 0) xs.length p) (k + 1) with h | h | h
    · have := c k (by omega) (by omega)
      exact absurd h0 (not_lt.mpr this)
    · exact h
    · have := b (k + 1) h
      exact absurd h1 (not_le.mpr this)
  unfold posOf
  rw [this]; simp

/-- The core and its planes are built from the pitches: `cxs[ax]` are the pitches of the pins in the lattices of column `ax`, `cys[ay]` those of
row `ay`, `dz` the heights of the planes. -/
structure LaidPlane (g : PlaneG K) (cxs cys : List (List K)) : Prop where
  nx : g.nx = cxs.length
  ny : g.ny = cys.length
  hx : g.hx = interfaces (cxs.map List.sum) 0
  hy : g.hy = interfaces (cys.map List.sum) 0
  reg : g.firstReg.length = g.nx * g.ny
  lat : ∀ (ax ay : Nat) cx cy, cxs[ax]? = some cx → cys[ay]? = some cy → ∃ l, g.lats[ay * g.nx + ax]? = some l ∧ l.nx = cx.length ∧
    l.ny = cy.length ∧ l.xs = interfaces cx 0 ∧ l.ys = interfaces cy 0 ∧ l.firstReg.length = l.nx * l.ny

@[inherit_doc LaidPlane]
structure LaidCore (c : CoreG K) (cxs cys : List (List K)) (dz : List K) : Prop where
  xs : c.xs = interfaces cxs.flatten 0
  ys : c.ys = interfaces cys.flatten 0
  zs : c.zs = interfaces dz 0
  nz : c.nz = dz.length
  reg : c.firstReg.length = dz.length
  plane : ∀ z : Nat, z < dz.length → ∃ u g, c.uniq[z]? = some u ∧ c.planes[u]? = some g ∧ LaidPlane g cxs cys

omit [LinearOrder K] [IsStrictOrderedRing K] in
theorem interfaces_at (hs : List K) : ∀ (x : K) (k : Nat), k ≤ hs.length → (interfaces hs x).getD k 0 = x + (hs.take k).sum := by
  induction hs with
  | nil => intro x k hk; have : k = 0 := by simpa using hk
           subst this; simp [interfaces]
  | cons h hs ih =>
    intro x k hk
    cases k with
    | zero => simp [interfaces]
    | succ k =>
      simp only [interfaces, List.getD_cons_succ, List.take_succ_cons, List.sum_cons]
      rw [ih (x + h) k (by simpa using hk)]; ring

omit [LinearOrder K] [IsStrictOrderedRing K] in
theorem interfaces_length (hs : List K) : ∀ x : K, (interfaces hs x).length = hs.length + 1 := by
  induction hs with
  | nil => intro x; rfl
  | cons h hs ih => intro x; simp [interfaces, ih]

omit [Field K] [LinearOrder K] [IsStrictOrderedRing K] in
theorem flat_lt (cs : List (List K)) (a i : Nat) (c : List K) (h : cs[a]? = some c) (hi : i < c.length) :
    ((cs.take a).map List.length).sum + i < cs.flatten.length := by
  have ha := (List.getElem?_eq_some_iff.mp h).1
  have hc : (cs.map List.length)[a]'(by simpa using ha) = c.length := by
    rw [List.getElem_map]; rw [(List.getElem?_eq_some_iff.mp h).2]
  have := Util.block_lt (cs.map List.length) (i := a) (e := i) (by simpa using ha) (by rw [hc]; exact hi)
  rw [List.length_flatten, List.map_take]
  exact this

theorem sum_gt (c : List K) (w : K) (hw : 0 ≤ w) (hne : c ≠ []) (h : ∀ x ∈ c, w < x) : w < c.sum := by
  cases c with
  | nil => exact absurd rfl hne
  | cons a c =>
    rw [List.sum_cons]
    have h1 := h a (List.mem_cons_self ..)
    have h2 : 0 ≤ c.sum := List.sum_nonneg fun x hx => le_of_lt (lt_of_le_of_lt hw (h x (List.mem_cons_of_mem _ hx)))
    linarith

/-- The core coordinate of the lower face of pin `k` in lattice `a`. -/
def faceAt (cs : List (List K)) (a : Nat) (c : List K) (k : Nat) : K := ((cs.take a).map List.sum).sum + (c.take k).sum

/-- The column of this pin in the core. -/
def columnOf (cs : List (List K)) (a k : Nat) : Nat := ((cs.take a).map List.length).sum + k

omit [LinearOrder K] [IsStrictOrderedRing K] in
theorem take_succ_sum (c : List K) (k : Nat) (h : k < c.length) : (c.take (k + 1)).sum = (c.take k).sum + c[k] := by
  rw [List.take_succ_eq_append_getElem h, List.sum_append]; simp

/-- Everything needed in one coordinate. -/
theorem axis (cs : List (List K)) (w : K) (hw : 0 ≤ w) (hne : cs ≠ []) (hsm : cs.flatten.length < 2^32)
    (hc : ∀ c ∈ cs, c ≠ [] ∧ ∀ x ∈ c, w < x) (a : Nat) (c : List K) (hac : cs[a]? = some c) (k : Nat) (hk : k < c.length) :
    Faces (interfaces (cs.map List.sum) 0) cs.length w ∧ Faces (interfaces c 0) c.length w ∧
    Faces (interfaces cs.flatten 0) cs.flatten.length w ∧ a < cs.length ∧
    (interfaces (cs.map List.sum) 0).getD a 0 = ((cs.take a).map List.sum).sum ∧
    (interfaces (cs.map List.sum) 0).getD (a + 1) 0 = ((cs.take a).map List.sum).sum + c.sum ∧
    (interfaces c 0).getD k 0 = (c.take k).sum ∧ (interfaces c 0).getD (k + 1) 0 = (c.take k).sum + c[k] ∧
    (interfaces c 0).getD c.length 0 = c.sum ∧
    (interfaces (cs.map List.sum) 0).getD cs.length 0 = cs.flatten.sum ∧
    columnOf cs a k < cs.flatten.length ∧
    (interfaces cs.flatten 0)[columnOf cs a k]? = some (faceAt cs a c k) ∧
    (interfaces cs.flatten 0)[columnOf cs a k + 1]? = some (faceAt cs a c k + c[k]) := by
  have ha := (List.getElem?_eq_some_iff.mp hac).1
  have hmem : c ∈ cs := List.mem_of_getElem? hac
  have hlen : cs.length ≤ cs.flatten.length := by
    clear hac ha hmem hsm hne
    induction cs with
    | nil => simp
    | cons b cs ih =>
      have h1 := (hc b (List.mem_cons_self ..)).1
      have h2 : 0 < b.length := List.length_pos_iff.mpr h1
      have h3 := ih fun c hc' => hc c (List.mem_cons_of_mem _ hc')
      simp; simp at h3; omega
  have hcl : c.length ≤ cs.flatten.length := by
    have := flat_lt cs a (c.length - 1) c hac (by have := List.length_pos_iff.mpr (hc c hmem).1; omega)
    omega
  have f1 := C49_interfaces (cs.map List.sum) w hw (by simpa using hne) (by simp only [List.length_map]; omega) (by
    intro h hh
    obtain ⟨b, hb, rfl⟩ := List.mem_map.mp hh
    exact sum_gt b w hw (hc b hb).1 (hc b hb).2)
  have f2 := C49_interfaces c w hw (hc c hmem).1 (by omega) (hc c hmem).2
  have f3 := C49_interfaces cs.flatten w hw (by
      intro h
      have : cs.flatten.length = 0 := by rw [h]; rfl
      have := List.length_pos_iff.mpr (hc c hmem).1
      omega) hsm (by
    intro h hh
    obtain ⟨b, hb, hhb⟩ := List.mem_flatten.mp hh
    exact (hc b hb).2 h hhb)
  rw [List.length_map] at f1
  have hsum : (cs.map List.sum).sum = cs.flatten.sum := by rw [List.sum_flatten]
  have hcs : cs[a] = c := (List.getElem?_eq_some_iff.mp hac).2
  refine ⟨f1.1, f2.1, f3.1, ha, ?_, ?_, ?_, ?_, ?_, ?_, flat_lt cs a k c hac hk, ?_, ?_⟩
  · rw [interfaces_at _ _ _ (by simp only [List.length_map]; omega), zero_add, List.map_take]
  · rw [interfaces_at _ _ _ (by simp only [List.length_map]; omega), zero_add, List.map_take,
      take_succ_sum _ _ (by simpa using ha), List.getElem_map, hcs]
  · rw [interfaces_at _ _ _ (by omega), zero_add]
  · rw [interfaces_at _ _ _ (by omega), zero_add, take_succ_sum _ _ hk]
  · exact f2.2
  · rw [f1.2, hsum]
  · exact C83_boundary cs a k c hac (by omega)
  · have := C83_boundary cs a (k + 1) c hac (by omega)
    rw [take_succ_sum _ _ hk, ← add_assoc] at this
    rw [← add_assoc] at this
    exact this

/-- C86: a point within a pin, further from its faces than the tolerance, is located in this pin for every direction: the mesh is that of the
pin, `pos` its column, row and plane, `pin_boundary` its two corners, the local point is relative to its centre, and the first region is that of
the plane plus those of the lattice and the pin. -/
theorem C86_location (fuzz : K) (hf : 0 < fuzz) (hf1 : fuzz < 1) (equiv : K → K → Bool) (c : CoreG K) (cxs cys : List (List K))
    (dz : List K) (h : LaidCore c cxs cys dz) (w m : K) (hw : 0 ≤ w)
    (hnx : cxs ≠ []) (hny : cys ≠ []) (hnz : dz ≠ []) (hsx : cxs.flatten.length < 2^32) (hsy : cys.flatten.length < 2^32)
    (hsz : dz.length < 2^32) (hcx : ∀ c ∈ cxs, c ≠ [] ∧ ∀ x ∈ c, w < x) (hcy : ∀ c ∈ cys, c ≠ [] ∧ ∀ x ∈ c, w < x)
    (hcz : ∀ x ∈ dz, w < x) (hm0 : fuzz ≤ m) (hmx : fuzz * cxs.flatten.sum ≤ m) (hmy : fuzz * cys.flatten.sum ≤ m)
    (hmz : fuzz * dz.sum ≤ m) (heq : ∀ a b : K, equiv a b = true → |a - b| < m)
    (ax ay kx ky kz : Nat) (cx cy : List K) (hax : cxs[ax]? = some cx) (hay : cys[ay]? = some cy) (hkx : kx < cx.length)
    (hky : ky < cy.length) (hkz : kz < dz.length) (px py pz ox oy oz : K)
    (hx0 : faceAt cxs ax cx kx + m ≤ px) (hx1 : px + m ≤ faceAt cxs ax cx kx + cx[kx])
    (hy0 : faceAt cys ay cy ky + m ≤ py) (hy1 : py + m ≤ faceAt cys ay cy ky + cy[ky])
    (hz0 : (dz.take kz).sum + m ≤ pz) (hz1 : pz + m ≤ (dz.take kz).sum + dz[kz]) :
    ∃ u g l, c.uniq[kz]? = some u ∧ c.planes[u]? = some g ∧ g.lats[ay * g.nx + ax]? = some l ∧
      locationInfo fuzz equiv c px py pz ox oy oz = .ok
        { mesh := (ax, ay, kx, ky)
          localX := px - (faceAt cxs ax cx kx + cx[kx] / 2)
          localY := py - (faceAt cys ay cy ky + cy[ky] / 2)
          reg := c.firstReg.getD kz 0 + g.firstReg.getD (g.nx * ay + ax) 0 + l.firstReg.getD (ky * l.nx + kx) 0
          pos := (columnOf cxs ax kx, columnOf cys ay ky, kz)
          lower := (faceAt cxs ax cx kx, faceAt cys ay cy ky, (dz.take kz).sum)
          upper := (faceAt cxs ax cx kx + cx[kx], faceAt cys ay cy ky + cy[ky], (dz.take kz).sum + dz[kz]) } := by
  obtain ⟨fx1, fx2, fx3, x4, x5, x6, x7, x8, x9, x10, x11, x12, x13⟩ := axis cxs w hw hnx hsx hcx ax cx hax kx hkx
  obtain ⟨fy1, fy2, fy3, y4, y5, y6, y7, y8, y9, y10, y11, y12, y13⟩ := axis cys w hw hny hsy hcy ay cy hay ky hky
  obtain ⟨u, g, hu, hg, L⟩ := h.plane kz hkz
  obtain ⟨l, l1, l2, l3, l4, l5, l6⟩ := L.lat ax ay cx cy hax hay
  refine ⟨u, g, l, hu, hg, l1, ?_⟩
  have fz := C49_interfaces dz w hw hnz hsz hcz
  have z0 : (interfaces dz 0).getD kz 0 = (dz.take kz).sum := by rw [interfaces_at _ _ _ (by omega), zero_add]
  have z1 : (interfaces dz 0).getD (kz + 1) 0 = (dz.take kz).sum + dz[kz] := by
    rw [interfaces_at _ _ _ (by omega), zero_add, take_succ_sum _ _ hkz]
  have hmpos : 0 < m := lt_of_lt_of_le hf hm0
  have hpl : planeIndex fuzz equiv c.zs c.nz pz oz = .ok (kz : Int) := by
    rw [h.zs, h.nz]
    exact C86_plane fuzz hf hf1 equiv m fz.1 pz oz kz hkz hm0 (by rw [fz.2]; exact hmz) (fun i _ he => heq _ _ he)
      (by rw [z0]; exact hz0) (by rw [z1]; exact hz1)
  have getx : (interfaces cxs.flatten 0).getD (columnOf cxs ax kx) 0 = faceAt cxs ax cx kx := by
    rw [List.getD_eq_getElem?_getD, x12]; rfl
  have getx1 : (interfaces cxs.flatten 0).getD (columnOf cxs ax kx + 1) 0 = faceAt cxs ax cx kx + cx[kx] := by
    rw [List.getD_eq_getElem?_getD, x13]; rfl
  have gety : (interfaces cys.flatten 0).getD (columnOf cys ay ky) 0 = faceAt cys ay cy ky := by
    rw [List.getD_eq_getElem?_getD, y12]; rfl
  have gety1 : (interfaces cys.flatten 0).getD (columnOf cys ay ky + 1) 0 = faceAt cys ay cy ky + cy[ky] := by
    rw [List.getD_eq_getElem?_getD, y13]; rfl
  have hpx : posOf c.xs px = (columnOf cxs ax kx : Nat) := by
    rw [h.xs]
    exact posOf_interior fx3 px _ x11 (by rw [getx]; linarith) (by rw [getx1]; linarith)
  have hpy : posOf c.ys py = (columnOf cys ay ky : Nat) := by
    rw [h.ys]
    exact posOf_interior fy3 py _ y11 (by rw [gety]; linarith) (by rw [gety1]; linarith)
  have hpp := C49_plane fuzz hf hf1 equiv g w m (by rw [L.hx, L.nx]; exact fx1) (by rw [L.hy, L.ny]; exact fy1) ax ay
    (by rw [L.nx]; exact x4) (by rw [L.ny]; exact y4) L.reg l l1 (by rw [l4, l2]; exact fx2) (by rw [l5, l3]; exact fy2) l6
    (by rw [l4, l2, L.hx, x9, x6, x5]; ring) (by rw [l5, l3, L.hy, y9, y6, y5]; ring) px py ox oy (c.firstReg.getD kz 0) kx ky
    (by rw [l2]; exact hkx) (by rw [l3]; exact hky) hm0 (by rw [L.hx, L.nx, x10]; exact hmx) (by rw [L.hy, L.ny, y10]; exact hmy) heq
    (by rw [L.hx, l4, x5, x7]; exact hx0) (by rw [L.hx, l4, x5, x8, ← add_assoc]; exact hx1)
    (by rw [L.hy, l5, y5, y7]; exact hy0) (by rw [L.hy, l5, y5, y8, ← add_assoc]; exact hy1)
  have rd : ∀ {α : Type} (l : List α) (n : Nat), readInt l (n : Int) = l[n]? := by
    intro α l n
    unfold readInt
    rw [if_neg (by omega), Int.toNat_natCast]
  have rd1 : ∀ {α : Type} (l : List α) (n : Nat), readInt l ((n : Int) + 1) = l[n + 1]? := by
    intro α l n
    rw [← rd l (n + 1)]; rfl
  have hz0' : c.zs[kz]? = some ((dz.take kz).sum) := by
    rw [h.zs, ← z0, List.getD_eq_getElem?_getD, List.getElem?_eq_getElem (by rw [interfaces_length]; omega)]; rfl
  have hz1' : c.zs[kz + 1]? = some ((dz.take kz).sum + dz[kz]) := by
    rw [h.zs, ← z1, List.getD_eq_getElem?_getD, List.getElem?_eq_getElem (by rw [interfaces_length]; omega)]; rfl
  have hfr : c.firstReg[kz]? = some (c.firstReg.getD kz 0) := by
    rw [List.getD_eq_getElem?_getD, List.getElem?_eq_getElem (by rw [h.reg]; exact hkz)]; rfl
  rw [← h.xs] at x12 x13
  rw [← h.ys] at y12 y13
  unfold locationInfo
  simp only [hpl, hpx, hpy, rd, rd1, hfr, hu, hg, hpp, Option.bind_eq_bind, Option.bind_some, x12, x13, y12, y13, hz0', hz1',
    Option.pure_def]
  rw [L.hx, L.hy, l4, l5, x5, x7, x8, y5, y7, y8]
  congr 2
  · unfold faceAt; ring
  · unfold faceAt; ring

/-- C86: the look-up for rays, in a plane given by its number: for a point within a pin the position and the place of the mesh are those of the pin, the point is replaced by the
centre of the pin, and the regions of the lattice and the pin are added to the first region. -/
theorem C86_pinmesh (fuzz : K) (hf : 0 < fuzz) (hf1 : fuzz < 1) (equiv : K → K → Bool) (c : CoreG K) (cxs cys : List (List K))
    (hxs : c.xs = interfaces cxs.flatten 0) (hys : c.ys = interfaces cys.flatten 0) (iplane : Nat) (g : PlaneG K) (hg : c.planes[iplane]? = some g)
    (L : LaidPlane g cxs cys) (w m : K) (hw : 0 ≤ w)
    (hnx : cxs ≠ []) (hny : cys ≠ []) (hsx : cxs.flatten.length < 2^32) (hsy : cys.flatten.length < 2^32)
    (hcx : ∀ c ∈ cxs, c ≠ [] ∧ ∀ x ∈ c, w < x) (hcy : ∀ c ∈ cys, c ≠ [] ∧ ∀ x ∈ c, w < x)
    (hm0 : fuzz ≤ m) (hmx : fuzz * cxs.flatten.sum ≤ m) (hmy : fuzz * cys.flatten.sum ≤ m)
    (heq : ∀ a b : K, equiv a b = true → |a - b| < m)
    (ax ay kx ky : Nat) (cx cy : List K) (hax : cxs[ax]? = some cx) (hay : cys[ay]? = some cy) (hkx : kx < cx.length)
    (hky : ky < cy.length) (px py ox oy : K) (first : Nat)
    (hx0 : faceAt cxs ax cx kx + m ≤ px) (hx1 : px + m ≤ faceAt cxs ax cx kx + cx[kx])
    (hy0 : faceAt cys ay cy ky + m ≤ py) (hy1 : py + m ≤ faceAt cys ay cy ky + cy[ky]) :
    ∃ l, g.lats[ay * g.nx + ax]? = some l ∧
      corePinmesh fuzz equiv c iplane px py ox oy first = some
        (((columnOf cxs ax kx : Int), (columnOf cys ay ky : Int)), (ax, ay, kx, ky), faceAt cxs ax cx kx + cx[kx] / 2, faceAt cys ay cy ky + cy[ky] / 2,
          first + g.firstReg.getD (g.nx * ay + ax) 0 + l.firstReg.getD (ky * l.nx + kx) 0) := by
  obtain ⟨fx1, fx2, fx3, x4, x5, x6, x7, x8, x9, x10, x11, x12, x13⟩ := axis cxs w hw hnx hsx hcx ax cx hax kx hkx
  obtain ⟨fy1, fy2, fy3, y4, y5, y6, y7, y8, y9, y10, y11, y12, y13⟩ := axis cys w hw hny hsy hcy ay cy hay ky hky
  obtain ⟨l, l1, l2, l3, l4, l5, l6⟩ := L.lat ax ay cx cy hax hay
  refine ⟨l, l1, ?_⟩
  have hmpos : 0 < m := lt_of_lt_of_le hf hm0
  have getx : (interfaces cxs.flatten 0).getD (columnOf cxs ax kx) 0 = faceAt cxs ax cx kx := by
    rw [List.getD_eq_getElem?_getD, x12]; rfl
  have getx1 : (interfaces cxs.flatten 0).getD (columnOf cxs ax kx + 1) 0 = faceAt cxs ax cx kx + cx[kx] := by
    rw [List.getD_eq_getElem?_getD, x13]; rfl
  have gety : (interfaces cys.flatten 0).getD (columnOf cys ay ky) 0 = faceAt cys ay cy ky := by
    rw [List.getD_eq_getElem?_getD, y12]; rfl
  have gety1 : (interfaces cys.flatten 0).getD (columnOf cys ay ky + 1) 0 = faceAt cys ay cy ky + cy[ky] := by
    rw [List.getD_eq_getElem?_getD, y13]; rfl
  have hpx : posOf c.xs px = (columnOf cxs ax kx : Nat) := by
    rw [hxs]
    exact posOf_interior fx3 px _ x11 (by rw [getx]; linarith) (by rw [getx1]; linarith)
  have hpy : posOf c.ys py = (columnOf cys ay ky : Nat) := by
    rw [hys]
    exact posOf_interior fy3 py _ y11 (by rw [gety]; linarith) (by rw [gety1]; linarith)
  have hpp := C49_plane fuzz hf hf1 equiv g w m (by rw [L.hx, L.nx]; exact fx1) (by rw [L.hy, L.ny]; exact fy1) ax ay
    (by rw [L.nx]; exact x4) (by rw [L.ny]; exact y4) L.reg l l1 (by rw [l4, l2]; exact fx2) (by rw [l5, l3]; exact fy2) l6
    (by rw [l4, l2, L.hx, x9, x6, x5]; ring) (by rw [l5, l3, L.hy, y9, y6, y5]; ring) px py ox oy first kx ky
    (by rw [l2]; exact hkx) (by rw [l3]; exact hky) hm0 (by rw [L.hx, L.nx, x10]; exact hmx) (by rw [L.hy, L.ny, y10]; exact hmy) heq
    (by rw [L.hx, l4, x5, x7]; exact hx0) (by rw [L.hx, l4, x5, x8, ← add_assoc]; exact hx1)
    (by rw [L.hy, l5, y5, y7]; exact hy0) (by rw [L.hy, l5, y5, y8, ← add_assoc]; exact hy1)
  unfold corePinmesh
  simp only [hpx, hpy, hg, hpp, Option.bind_eq_bind, Option.bind_some, Option.pure_def]
  rw [L.hx, L.hy, l4, l5, x5, x7, x8, y5, y7, y8]
  congr 4
  · unfold faceAt; ring
  · unfold faceAt; ring

/-! ## Interfaces -/

/-- The claim for all points of the core: the local point is relative to the centre of the pin whose corners are given, as far as there is an
outcome at all, and there is one for all directions with three non-zero components. -/
def C86_claim : Prop := ∀ (fuzz : ℚ) (c : CoreG ℚ) (cxs cys : List (List ℚ)) (dz : List ℚ), 0 < fuzz → fuzz < 1 / 1000 →
  LaidCore c cxs cys dz → (∀ c ∈ cxs, c ≠ [] ∧ ∀ x ∈ c, 1 < x) → (∀ c ∈ cys, c ≠ [] ∧ ∀ x ∈ c, 1 < x) → (∀ x ∈ dz, 1 < x) →
  ∀ px py pz ox oy oz : ℚ, 0 ≤ px → px ≤ cxs.flatten.sum → 0 ≤ py → py ≤ cys.flatten.sum → 0 ≤ pz → pz ≤ dz.sum →
    ox ≠ 0 → oy ≠ 0 → oz ≠ 0 →
    ∃ i, locationInfo fuzz (equivAbs fuzz) c px py pz ox oy oz = .ok i ∧ i.lower.1 ≤ px ∧ px ≤ i.upper.1 ∧
      i.localX = px - (i.lower.1 + i.upper.1) / 2

/-- One lattice of two pins of pitch 2, one plane. -/
def twoPins : CoreG ℚ where
  xs := [0, 2, 4]
  ys := [0, 2]
  zs := [0, 2]
  nz := 1
  firstReg := [0]
  uniq := [0]
  planes := [⟨1, 1, [0, 4], [0, 2], [⟨2, 1, [0, 2, 4], [0, 2], [0, 1]⟩], [0]⟩]

example : corePinmesh (1 / 10000) (equivAbs (1 / 10000)) twoPins 0 3 (1 / 2) 1 1 7 = some ((1, 0), (0, 0, 1, 0), 3, 1, 8) := by decide +kernel

theorem twoPins_laid : LaidCore twoPins [[2, 2]] [[2]] [2] := by
  refine ⟨by decide +kernel, by decide +kernel, by decide +kernel, rfl, rfl, ?_⟩
  intro z hz
  have : z = 0 := by simpa using hz
  subst this
  refine ⟨0, _, rfl, rfl, rfl, rfl, by decide +kernel, by decide +kernel, rfl, ?_⟩
  intro ax ay cx cy hx hy
  obtain ⟨h1, e1⟩ := List.getElem?_eq_some_iff.mp hx
  obtain ⟨h2, e2⟩ := List.getElem?_eq_some_iff.mp hy
  have : ax = 0 := by simpa using h1
  have : ay = 0 := by simpa using h2
  subst ax ay
  simp at e1 e2
  subst e1 e2
  exact ⟨_, rfl, rfl, rfl, by decide +kernel, by decide +kernel, rfl⟩

/-- C86 is false on interfaces between pins: with a positive direction the mesh and the local point are those of the pin above, the position and
the boundary those of the pin below. -/
theorem C86_claim_false : ¬ C86_claim := by
  intro h
  obtain ⟨i, h1, -, -, h4⟩ := h (1 / 10000) twoPins [[2, 2]] [[2]] [2] (by norm_num) (by norm_num) twoPins_laid
    (by intro c hc; simp at hc; subst hc; exact ⟨by simp, by intro x hx; simp at hx; subst hx; norm_num⟩)
    (by intro c hc; simp at hc; subst hc; exact ⟨by simp, by intro x hx; simp at hx; subst hx; norm_num⟩)
    (by intro x hx; simp at hx; subst hx; norm_num) 2 1 1 1 1 1 (by norm_num) (by norm_num) (by norm_num) (by norm_num) (by norm_num)
    (by norm_num) (by norm_num) (by norm_num) (by norm_num)
  have e : locationInfo (1 / 10000) (equivAbs (1 / 10000)) twoPins 2 1 1 1 1 1 =
      .ok ⟨(0, 0, 1, 0), -1, 0, 1, (0, 0, 0), (0, 0, 0), (2, 2, 2)⟩ := by decide +kernel
  rw [e] at h1
  obtain rfl : _ = i := by injection h1
  norm_num at h4

/-- C86: on the lower faces `x = 0` and `y = 0` of the core the boundary is read before the beginning of the vector. -/
theorem C86_lower_face (fuzz : K) (equiv : K → K → Bool) (c : CoreG K) (cxs cys : List (List K)) (dz : List K)
    (h : LaidCore c cxs cys dz) (py pz ox oy oz : K) (i : Location K) (hcx : ∀ x ∈ cxs.flatten, 0 < x) :
    locationInfo fuzz equiv c 0 py pz ox oy oz ≠ .ok i := by
  intro hh
  have hlb : posOf c.xs (0 : K) = -1 := by
    unfold posOf
    have : Util.lowerBound (fun i => c.xs.getD i 0) c.xs.length (0 : K) = 0 := by
      have nn : ∀ j, j ≤ cxs.flatten.length → 0 ≤ c.xs.getD j 0 := by
        intro j hj
        rw [h.xs, interfaces_at _ _ _ hj, zero_add]
        exact List.sum_nonneg fun x hx => le_of_lt (hcx x (List.mem_of_mem_take hx))
      have mono : ∀ i j, i ≤ j → j < c.xs.length → c.xs.getD i 0 ≤ c.xs.getD j 0 := by
        intro i j hij hj
        rw [h.xs, interfaces_length] at hj
        rw [h.xs, interfaces_at _ _ _ (by omega), interfaces_at _ _ _ (by omega), zero_add, zero_add]
        have e : cxs.flatten.take j = cxs.flatten.take i ++ (cxs.flatten.drop i).take (j - i) := by
          rw [← List.take_add]; congr 1; omega
        rw [e, List.sum_append]
        have : 0 ≤ ((cxs.flatten.drop i).take (j - i)).sum :=
          List.sum_nonneg fun x hx => le_of_lt (hcx x (List.mem_of_mem_drop (List.mem_of_mem_take hx)))
        linarith
      obtain ⟨-, b, -⟩ := Util.lowerBound_spec (fun i => c.xs.getD i 0) c.xs.length (0 : K) mono
      by_contra hne
      have := b 0 (Nat.pos_of_ne_zero hne)
      exact absurd this (not_lt.mpr (nn 0 (Nat.zero_le _)))
    rw [this]; rfl
  unfold locationInfo at hh
  simp only [hlb] at hh
  have rd : readInt c.xs (-1) = none := rfl
  cases hp : planeIndex fuzz equiv c.zs c.nz pz oz with
  | ub => rw [hp] at hh; cases hh
  | throw => rw [hp] at hh; cases hh
  | ok z =>
    rw [hp] at hh
    simp only [rd, Option.bind_eq_bind, Option.bind_none, Option.bind_fun_none] at hh
    cases hh

/-! ## `region_at_point` -/

/-- C87, what is computed: for all points within a pin the same number, that of the region `find_reg` reports for the centre of the pin in core
coordinates. -/
theorem C87_constant (fuzz : K) (hf : 0 < fuzz) (hf1 : fuzz < 1) (equiv : K → K → Bool) (c : CoreG K) (cxs cys : List (List K))
    (dz : List K) (h : LaidCore c cxs cys dz) (w m : K) (hw : 0 ≤ w)
    (hnx : cxs ≠ []) (hny : cys ≠ []) (hnz : dz ≠ []) (hsx : cxs.flatten.length < 2^32) (hsy : cys.flatten.length < 2^32)
    (hsz : dz.length < 2^32) (hcx : ∀ c ∈ cxs, c ≠ [] ∧ ∀ x ∈ c, w < x) (hcy : ∀ c ∈ cys, c ≠ [] ∧ ∀ x ∈ c, w < x)
    (hcz : ∀ x ∈ dz, w < x) (hm0 : fuzz ≤ m) (hmx : fuzz * cxs.flatten.sum ≤ m) (hmy : fuzz * cys.flatten.sum ≤ m)
    (hmz : fuzz * dz.sum ≤ m) (heq : ∀ a b : K, equiv a b = true → |a - b| < m)
    (ax ay kx ky kz : Nat) (cx cy : List K) (hax : cxs[ax]? = some cx) (hay : cys[ay]? = some cy) (hkx : kx < cx.length)
    (hky : ky < cy.length) (hkz : kz < dz.length) (findReg : Nat × Nat × Nat × Nat → K × K → Int) (px py pz ox oy : K)
    (hx0 : faceAt cxs ax cx kx + m ≤ px) (hx1 : px + m ≤ faceAt cxs ax cx kx + cx[kx])
    (hy0 : faceAt cys ay cy ky + m ≤ py) (hy1 : py + m ≤ faceAt cys ay cy ky + cy[ky])
    (hz0 : (dz.take kz).sum + m ≤ pz) (hz1 : pz + m ≤ (dz.take kz).sum + dz[kz]) :
    ∃ i, locationInfo fuzz equiv c px py pz ox oy 0 = .ok i ∧
      regionAtPoint fuzz equiv c findReg px py pz ox oy = .ok ((i.reg : Int) + findReg (ax, ay, kx, ky)
        (faceAt cxs ax cx kx + cx[kx] / 2, faceAt cys ay cy ky + cy[ky] / 2)) := by
  obtain ⟨u, g, l, hu, hg, hl, he⟩ := C86_location fuzz hf hf1 equiv c cxs cys dz h w m hw hnx hny hnz hsx hsy hsz hcx hcy hcz hm0 hmx hmy hmz heq
    ax ay kx ky kz cx cy hax hay hkx hky hkz px py pz ox oy 0 hx0 hx1 hy0 hy1 hz0 hz1
  refine ⟨_, he, ?_⟩
  unfold locationInfo at he
  unfold regionAtPoint
  cases hp : planeIndex fuzz equiv c.zs c.nz pz 0 with
  | ub => rw [hp] at he; cases he
  | throw => rw [hp] at he; cases he
  | ok z =>
    rw [hp] at he
    simp only at he ⊢
    cases h1 : readInt c.firstReg z with
    | none => simp only [h1, Option.bind_eq_bind, Option.bind_none] at he; cases he
    | some first =>
      cases h2 : readInt c.uniq z with
      | none => simp only [h1, h2, Option.bind_eq_bind, Option.bind_none, Option.bind_some] at he; cases he
      | some u' =>
        cases h3 : c.planes[u']? with
        | none => simp only [h1, h2, h3, Option.bind_eq_bind, Option.bind_none, Option.bind_some] at he; cases he
        | some g' =>
          cases h4 : planePin fuzz equiv g' px py ox oy first with
          | none => simp only [h1, h2, h3, h4, Option.bind_eq_bind, Option.bind_none, Option.bind_some] at he; cases he
          | some r =>
            simp only [h1, h2, h3, h4, Option.bind_eq_bind, Option.bind_some] at he
            simp only [h3, h4, Option.bind_eq_bind, Option.bind_some, Option.pure_def]
            generalize readInt c.xs (posOf c.xs px) = o1 at he
            generalize readInt c.ys (posOf c.ys py) = o2 at he
            generalize readInt c.zs z = o3 at he
            generalize readInt c.xs (posOf c.xs px + 1) = o4 at he
            generalize readInt c.ys (posOf c.ys py + 1) = o5 at he
            generalize readInt c.zs (z + 1) = o6 at he
            rcases o1 with _ | o1 <;> rcases o2 with _ | o2 <;> rcases o3 with _ | o3 <;> rcases o4 with _ | o4 <;> rcases o5 with _ | o5 <;>
              rcases o6 with _ | o6 <;> simp at he
            obtain ⟨⟨e1, e2, e3, e4⟩, e5, e6, e7, -⟩ := he
            rw [e1, e2, e3, e4, e5, e6, e7]
            simp only [List.getD_eq_getElem?_getD]

/-- The claim: the region is the one `find_reg` reports for the point relative to the centre of its pin. -/
def C87_claim : Prop := ∀ (fuzz : ℚ) (c : CoreG ℚ) (cxs cys : List (List ℚ)) (dz : List ℚ) (m : PinMesh.Rect ℚ), 0 < fuzz → fuzz < 1 / 1000 →
  LaidCore c cxs cys dz → (∀ c ∈ cxs, c ≠ [] ∧ ∀ x ∈ c, x = m.pitch) → (∀ c ∈ cys, c ≠ [] ∧ ∀ x ∈ c, x = m.pitch) →
  ∀ (px py pz : ℚ) (i : Location ℚ), locationInfo fuzz (equivAbs fuzz) c px py pz 1 1 1 = .ok i →
    i.lower.1 < px → px < i.upper.1 → i.lower.2.1 < py → py < i.upper.2.1 → i.lower.2.2 < pz → pz < i.upper.2.2 →
    regionAtPoint fuzz (equivAbs fuzz) c (fun _ p => m.findReg ⟨p.1, p.2⟩) px py pz 1 1 =
      .ok ((i.reg : Int) + m.findReg ⟨i.localX, i.localY⟩)

/-- C87 is false: `region_at_point` passes the origin of the pin, which has replaced the point, to `find_reg`.  In the first of two pins, divided in
two, the right half is reported for a point in the left one; in the second pin the last region of the first one is. -/
theorem C87_claim_false : ¬ C87_claim := by
  intro h
  have e := h (1 / 10000) twoPins [[2, 2]] [[2]] [2] ⟨2, 2, 1⟩ (by norm_num) (by norm_num) twoPins_laid
    (by intro c hc; simp at hc; subst hc; exact ⟨by simp, by intro x hx; simpa using hx⟩)
    (by intro c hc; simp at hc; subst hc; exact ⟨by simp, by intro x hx; simpa using hx⟩)
    (1 / 2) 1 1 ⟨(0, 0, 0, 0), -1 / 2, 0, 0, (0, 0, 0), (0, 0, 0), (2, 2, 2)⟩ (by decide +kernel) (by norm_num) (by norm_num) (by norm_num)
    (by norm_num) (by norm_num) (by norm_num)
  revert e
  decide +kernel

example : regionAtPoint (1 / 10000) (equivAbs (1 / 10000)) twoPins (fun _ p => (⟨2, 2, 1⟩ : PinMesh.Rect ℚ).findReg ⟨p.1, p.2⟩) 3 1 1 1 1 = .ok 0 := by
  decide +kernel

end Verif.Core
