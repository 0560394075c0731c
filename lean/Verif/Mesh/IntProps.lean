import Verif.Mesh.IntModel
import Verif.Mesh.Props
import Verif.BC.Props
import Mathlib.Tactic.Ring
import Mathlib.Tactic.Linarith
import Mathlib.Tactic.NormNum

/-! # C134: index arithmetic in machine integers -/

namespace Verif.Mesh.Machine

open Verif.Mesh

/-! ## Evaluation of expressions -/

/-- The expression is defined and has this value. -/
def Is (e : I32) (v : Nat) : Prop := e = .ok (v : Int) ∧ v < 2147483648

def Is64 (e : U64) (v : Nat) : Prop := e = .ok v ∧ v < 18446744073709551616

theorem add_ok (x y : Int) : I32.ok x + .ok y = I32.of (x + y) := rfl
theorem mul_ok (x y : Int) : I32.ok x * .ok y = I32.of (x * y) := rfl
theorem i32_ok (x : Nat) : (U64.ok x).i32 = .ok (((x : Int) + 2147483648) % 4294967296 - 2147483648) := rfl

theorem Is.int {n : Nat} (h : n < 2147483648) : Is (int n) n := by
  refine ⟨?_, h⟩
  unfold Machine.int I32.of
  rw [if_pos ⟨by omega, by omega⟩]

theorem Is.add {a b : I32} {x y : Nat} (ha : Is a x) (hb : Is b y) (h : x + y < 2147483648) : Is (a + b) (x + y) := by
  obtain ⟨rfl, _⟩ := ha
  obtain ⟨rfl, _⟩ := hb
  refine ⟨?_, h⟩
  rw [add_ok]
  have e : (x : Int) + y = ((x + y : Nat) : Int) := by push_cast; rfl
  rw [e]
  unfold I32.of
  rw [if_pos ⟨by omega, by omega⟩]

theorem Is.mul {a b : I32} {x y : Nat} (ha : Is a x) (hb : Is b y) (h : x * y < 2147483648) : Is (a * b) (x * y) := by
  obtain ⟨rfl, _⟩ := ha
  obtain ⟨rfl, _⟩ := hb
  refine ⟨?_, h⟩
  rw [mul_ok]
  have e : (x : Int) * y = ((x * y : Nat) : Int) := by push_cast; rfl
  rw [e]
  unfold I32.of
  rw [if_pos ⟨by omega, by omega⟩]

theorem Is.sub {a b : I32} {x y : Nat} (ha : Is a x) (hb : Is b y) (h : y ≤ x) : Is (a - b) (x - y) := by
  obtain ⟨rfl, h1⟩ := ha
  obtain ⟨rfl, _⟩ := hb
  refine ⟨?_, by omega⟩
  show I32.of ((x : Int) - y) = _
  have e : (x : Int) - y = ((x - y : Nat) : Int) := by omega
  rw [e]
  unfold I32.of
  rw [if_pos ⟨by omega, by omega⟩]

theorem Is.mod {a b : I32} {x y : Nat} (ha : Is a x) (hb : Is b y) (h : 0 < y) : Is (a.mod b) (x % y) := by
  obtain ⟨rfl, h1⟩ := ha
  obtain ⟨rfl, _⟩ := hb
  have hlt : x % y ≤ x := Nat.mod_le _ _
  refine ⟨?_, by omega⟩
  show (if (y : Int) = 0 then I32.ub else I32.of ((x : Int).tmod y)) = _
  rw [if_neg (by omega)]
  have e : (x : Int).tmod y = ((x % y : Nat) : Int) := by rw [Int.tmod_eq_emod_of_nonneg (by omega)]; push_cast; rfl
  rw [e]
  unfold I32.of
  rw [if_pos ⟨by omega, by omega⟩]

theorem Is.u64 {a : I32} {x : Nat} (ha : Is a x) : Is64 a.u64 x := by
  obtain ⟨rfl, h⟩ := ha
  refine ⟨?_, by omega⟩
  show U64.ok ((x : Int) % 18446744073709551616).toNat = U64.ok x
  congr 1
  omega

theorem Is64.add {a b : U64} {x y : Nat} (ha : Is64 a x) (hb : Is64 b y) (h : x + y < 18446744073709551616) : Is64 (a + b) (x + y) := by
  obtain ⟨rfl, _⟩ := ha
  obtain ⟨rfl, _⟩ := hb
  refine ⟨?_, h⟩
  show U64.ok (((x : Int) + y) % 18446744073709551616).toNat = _
  congr 1
  omega

theorem Is64.sub {a b : U64} {x y : Nat} (ha : Is64 a x) (hb : Is64 b y) (h : y ≤ x) : Is64 (a - b) (x - y) := by
  obtain ⟨rfl, h1⟩ := ha
  obtain ⟨rfl, _⟩ := hb
  refine ⟨?_, by omega⟩
  show U64.ok (((x : Int) - y) % 18446744073709551616).toNat = _
  congr 1
  omega

theorem Is64.mul {a b : U64} {x y : Nat} (ha : Is64 a x) (hb : Is64 b y) (h : x * y < 18446744073709551616) : Is64 (a * b) (x * y) := by
  obtain ⟨rfl, _⟩ := ha
  obtain ⟨rfl, _⟩ := hb
  refine ⟨?_, h⟩
  show U64.ok (((x : Int) * y) % 18446744073709551616).toNat = _
  have e : (x : Int) * y = ((x * y : Nat) : Int) := by push_cast; rfl
  rw [e]
  congr 1
  omega

theorem Is64.div {a b : U64} {x y : Nat} (ha : Is64 a x) (hb : Is64 b y) (h : 0 < y) : Is64 (a.div b) (x / y) := by
  obtain ⟨rfl, h1⟩ := ha
  obtain ⟨rfl, _⟩ := hb
  have : x / y ≤ x := Nat.div_le_self _ _
  refine ⟨?_, by omega⟩
  show (if y = 0 then U64.ub else .ok (x / y)) = _
  rw [if_neg (by omega)]

theorem Is64.mod {a b : U64} {x y : Nat} (ha : Is64 a x) (hb : Is64 b y) (h : 0 < y) : Is64 (a.mod b) (x % y) := by
  obtain ⟨rfl, h1⟩ := ha
  obtain ⟨rfl, _⟩ := hb
  have : x % y ≤ x := Nat.mod_le _ _
  refine ⟨?_, by omega⟩
  show (if y = 0 then U64.ub else .ok (x % y)) = _
  rw [if_neg (by omega)]

theorem Is64.i32 {a : U64} {x : Nat} (ha : Is64 a x) (h : x < 2147483648) : Is a.i32 x := by
  obtain ⟨rfl, _⟩ := ha
  refine ⟨?_, h⟩
  have e : ((x : Int) + 2147483648) % 4294967296 - 2147483648 = x := by omega
  rw [i32_ok, e]

/-! ## Mesh -/

/-- A mesh for which the size of the table of surfaces is an `int`. -/
structure Fits (d : Dims) : Prop where
  x : 0 < d.nx
  y : 0 < d.ny
  z : 0 < d.nz
  lt : 6 * (d.nx * d.ny * d.nz) < 2147483648

/-- Products of the dimensions are bounded by the number of cells. -/
theorem Fits.bounds {d : Dims} (h : Fits d) : d.nx ≤ d.nx * d.ny ∧ d.ny ≤ d.nx * d.ny ∧ d.nx * d.ny ≤ d.nx * d.ny * d.nz ∧ d.nx * d.nz ≤ d.nx * d.ny * d.nz ∧
    d.ny * d.nz ≤ d.nx * d.ny * d.nz ∧ d.nz ≤ d.nx * d.ny * d.nz := by
  obtain ⟨hx, hy, hz, _⟩ := h
  refine ⟨Nat.le_mul_of_pos_right _ hy, Nat.le_mul_of_pos_left _ hx, Nat.le_mul_of_pos_right _ hz, Nat.mul_le_mul_right _ (Nat.le_mul_of_pos_right _ hy),
    Nat.mul_le_mul_right _ (Nat.le_mul_of_pos_left _ hx), Nat.le_mul_of_pos_left _ (Nat.mul_pos hx hy)⟩

theorem nSurf_eq (d : Dims) : nSurf d = 3 * (d.nx * d.ny * d.nz) + d.ny * d.nz + d.nx * d.nz + d.nx * d.ny := by
  unfold nSurf; ring

theorem nSurfPlane_eq (d : Dims) : nSurfPlane d = 3 * (d.nx * d.ny) + d.ny + d.nx := by
  unfold nSurfPlane; ring

/-- The surfaces are not more than the entries of the table. -/
theorem Fits.surf {d : Dims} (h : Fits d) : nSurf d < 2147483648 ∧ nSurfPlane d * d.nz + d.nx * d.ny = nSurf d ∧ nSurfPlane d ≤ nSurf d := by
  obtain ⟨b1, b2, b3, b4, b5, b6⟩ := h.bounds
  have := h.lt
  refine ⟨by rw [nSurf_eq]; omega, by rw [nSurf_eq, nSurfPlane_eq]; ring, ?_⟩
  rw [nSurf_eq, nSurfPlane_eq]
  have h1 : d.ny ≤ d.ny * d.nz := Nat.le_mul_of_pos_right _ h.z
  have h2 : d.nx ≤ d.nx * d.nz := Nat.le_mul_of_pos_right _ h.z
  omega

section
variable {d : Dims} (h : Fits d)
include h

theorem is_nx : Is (nx d) d.nx := Is.int (by have := h.bounds; have := h.lt; omega)
theorem is_ny : Is (ny d) d.ny := Is.int (by have := h.bounds; have := h.lt; omega)
theorem is_nz : Is (nz d) d.nz := Is.int (by have := h.bounds; have := h.lt; omega)
theorem is_xy : Is (nx d * ny d) (d.nx * d.ny) := (is_nx h).mul (is_ny h) (by have := h.bounds; have := h.lt; omega)

theorem is_nx1 : Is (nx d + int 1) (d.nx + 1) := (is_nx h).add (Is.int (by norm_num)) (by have := h.bounds; have := h.lt; omega)
theorem is_ny1 : Is (ny d + int 1) (d.ny + 1) := (is_ny h).add (Is.int (by norm_num)) (by have := h.bounds; have := h.lt; omega)

theorem is_xs : Is ((nx d + int 1) * ny d) ((d.nx + 1) * d.ny) :=
  (is_nx1 h).mul (is_ny h) (by have := h.bounds; have := h.lt; have : (d.nx + 1) * d.ny = d.nx * d.ny + d.ny := by ring
                               omega)

theorem is_ys : Is ((ny d + int 1) * nx d) ((d.ny + 1) * d.nx) :=
  (is_ny1 h).mul (is_nx h) (by have := h.bounds; have := h.lt; have : (d.ny + 1) * d.nx = d.nx * d.ny + d.nx := by ring
                               omega)

theorem is_plane : Is64 (nSurfPlaneM d) (nSurfPlane d) := by
  have hb := h.bounds
  have hl := h.lt
  have e1 : (d.nx + 1) * d.ny = d.nx * d.ny + d.ny := by ring
  have e2 : (d.ny + 1) * d.nx = d.nx * d.ny + d.nx := by ring
  exact (((is_xs h).add (is_ys h) (by omega)).add (is_xy h) (by omega)).u64

end

/-- C134: numbers of cells and surfaces and of the first of a plane, for planes up to the one above the mesh. -/
theorem C134_counts (d : Dims) (h : Fits d) : nPinM d = .ok (nPin d : Int) ∧ nSurfM d = .ok (nSurf d) ∧
    ∀ k, k ≤ d.nz → planeCellBeginM d k = .ok ((d.nx * d.ny * k : Nat) : Int) ∧ planeSurfBeginM d k = .ok ((nSurfPlane d * k : Nat) : Int) ∧
      planeSurfXyBeginM d k = .ok ((nSurfPlane d * k + d.nx * d.ny : Nat) : Int) ∧
      (k < d.nz → planeSurfEndM d k = .ok ((nSurfPlane d * (k + 1) : Nat) : Int)) := by
  obtain ⟨b1, b2, b3, b4, b5, b6⟩ := h.bounds
  have hl := h.lt
  obtain ⟨s1, s2, s3⟩ := h.surf
  have hse := nSurf_eq d
  refine ⟨((is_xy h).mul (is_nz h) (by omega)).1, ?_, fun k hk => ?_⟩
  · have hz1 : Is (nz d + int 1) (d.nz + 1) := (is_nz h).add (Is.int (by norm_num)) (by omega)
    have e1 : (d.nx + 1) * d.ny * d.nz = d.nx * d.ny * d.nz + d.ny * d.nz := by ring
    have e2 : (d.ny + 1) * d.nx * d.nz = d.nx * d.ny * d.nz + d.nx * d.nz := by ring
    have e3 : (d.nz + 1) * d.nx * d.ny = d.nx * d.ny * d.nz + d.nx * d.ny := by ring
    have e4 : (d.nz + 1) * d.nx = d.nx * d.nz + d.nx := by ring
    exact (((((is_xs h).mul (is_nz h) (by omega)).add ((is_ys h).mul (is_nz h) (by omega)) (by omega)).add
      ((hz1.mul (is_nx h) (by omega)).mul (is_ny h) (by omega)) (by omega)).u64).1
  · have hk1 : nSurfPlane d * k ≤ nSurfPlane d * d.nz := Nat.mul_le_mul_left _ hk
    have hk2 : d.nx * d.ny * k ≤ d.nx * d.ny * d.nz := Nat.mul_le_mul_left _ hk
    have ik : Is (int k) k := Is.int (by omega)
    have p1 : Is64 (nSurfPlaneM d * (int k).u64) (nSurfPlane d * k) := (is_plane h).mul ik.u64 (by omega)
    refine ⟨((is_xy h).mul ik (by omega)).1, (p1.i32 (by omega)).1, ((p1.add (is_xy h).u64 (by omega)).i32 (by omega)).1, fun hk' => ?_⟩
    have hk3 : nSurfPlane d * (k + 1) ≤ nSurfPlane d * d.nz := Nat.mul_le_mul_left _ hk'
    exact (((is_plane h).mul (ik.add (Is.int (by norm_num)) (by omega)).u64 (by omega)).i32 (by omega)).1

/-- C134: cell numbers and positions. -/
theorem is_cell {d : Dims} (h : Fits d) {x y z : I32} {p : Pos} (hx : Is x p.x) (hy : Is y p.y) (hz : Is z p.z) (px : p.x < d.nx) (py : p.y < d.ny) (pz : p.z < d.nz) :
    Is (cellAtM d x y z) (coarseCell d p) ∧ coarseCell d p < d.nx * d.ny * d.nz := by
  have hl := h.lt
  have hc : coarseCell d p < d.nx * d.ny * d.nz := by
    have h1 : p.z * (d.nx * d.ny) + (d.nx * d.ny) ≤ d.nx * d.ny * d.nz := by
      have := Nat.mul_le_mul_left (d.nx * d.ny) pz
      calc p.z * (d.nx * d.ny) + d.nx * d.ny = d.nx * d.ny * (p.z + 1) := by ring
        _ ≤ _ := this
    have h2 : p.y * d.nx + d.nx ≤ d.nx * d.ny := by
      have := Nat.mul_le_mul_left d.nx py
      calc p.y * d.nx + d.nx = d.nx * (p.y + 1) := by ring
        _ ≤ _ := this
    have e : p.z * d.nx * d.ny = p.z * (d.nx * d.ny) := by ring
    unfold coarseCell
    omega
  have hc' := hc
  unfold coarseCell at hc
  have e1 : p.z * d.nx ≤ p.z * d.nx * d.ny := Nat.le_mul_of_pos_right _ h.y
  exact ⟨((((hz.mul (is_nx h) (by omega)).mul (is_ny h) (by omega)).add (hy.mul (is_nx h) (by omega)) (by omega)).add hx (by omega)), hc'⟩

theorem C134_cell (d : Dims) (h : Fits d) (p : Pos) (px : p.x < d.nx) (py : p.y < d.ny) (pz : p.z < d.nz) :
    coarseCellM d p = .ok (coarseCell d p : Int) ∧
      coarsePositionM d (coarseCell d p) = (.ok p.x, .ok p.y, .ok p.z) := by
  obtain ⟨b1, b2, b3, b4, b5, b6⟩ := h.bounds
  have hl := h.lt
  obtain ⟨h1, h2⟩ := is_cell h (Is.int (by omega)) (Is.int (by omega)) (Is.int (by omega)) px py pz
  refine ⟨h1.1, ?_⟩
  have hc : Is64 (.ok (coarseCell d p)) (coarseCell d p) := ⟨rfl, by omega⟩
  have hp : coarsePosition d (coarseCell d p) = p := (C10_position_of_cell d p.x p.y p.z px py pz).1
  have q1 := congrArg Pos.x hp
  have q2 := congrArg Pos.y hp
  have q3 := congrArg Pos.z hp
  simp only [coarsePosition] at q1 q2 q3
  have a1 := (hc.mod (is_nx h).u64 h.x).i32 (by omega)
  have a2 := ((hc.mod (is_xy h).u64 (by omega)).div (is_nx h).u64 h.x).i32 (by omega)
  have a3 := (hc.div (is_xy h).u64 (by omega)).i32 (by omega)
  rw [q1] at a1
  rw [q2] at a2
  rw [q3] at a3
  unfold coarsePositionM
  simp only [a1.1, a2.1, a3.1]

/-! ## The table -/

theorem values_ok : ∀ (l : List I32) (v : List Nat), List.Forall₂ Is l v → values l = some (v.map Int.ofNat)
  | _, _, .nil => rfl
  | _, _, .cons ⟨e, _⟩ ht => by
    simp only [values, e, values_ok _ _ ht, List.map_cons]
    rfl

theorem forall₂_flatMap {β : Type} {P : I32 → Nat → Prop} (f : β → List I32) (g : β → List Nat) : ∀ l : List β, (∀ x ∈ l, List.Forall₂ P (f x) (g x)) →
    List.Forall₂ P (l.flatMap f) (l.flatMap g)
  | [], _ => .nil
  | a :: t, h => by
    rw [List.flatMap_cons, List.flatMap_cons]
    exact List.rel_append (h a (List.mem_cons_self ..)) (forall₂_flatMap f g t fun x hx => h x (List.mem_cons_of_mem _ hx))

theorem cell_entries {d : Dims} (h : Fits d) {o : I32} {off : Nat} (ho : Is o off) (hb : off + nSurfPlane d + d.nx * d.ny ≤ nSurf d) (ix iy : Nat) (hx : ix < d.nx)
    (hy : iy < d.ny) : List.Forall₂ Is (cellEntriesM d o ix iy) (cellEntries d off ix iy) := by
  obtain ⟨s1, s2, s3⟩ := h.surf
  have h1 : (d.nx + 1) * iy + (d.nx + 1) ≤ (d.nx + 1) * d.ny := by
    calc (d.nx + 1) * iy + (d.nx + 1) = (d.nx + 1) * (iy + 1) := by ring
      _ ≤ _ := Nat.mul_le_mul_left _ hy
  have h2 : (d.ny + 1) * ix + (d.ny + 1) ≤ (d.ny + 1) * d.nx := by
    calc (d.ny + 1) * ix + (d.ny + 1) = (d.ny + 1) * (ix + 1) := by ring
      _ ≤ _ := Nat.mul_le_mul_left _ hx
  have h3 : d.nx * iy + d.nx ≤ d.nx * d.ny := by
    calc d.nx * iy + d.nx = d.nx * (iy + 1) := by ring
      _ ≤ _ := Nat.mul_le_mul_left _ hy
  unfold nSurfPlane at hb
  have jx : Is (int ix) ix := Is.int (by omega)
  have jy : Is (int iy) iy := Is.int (by omega)
  have j1 : Is (int 1) 1 := Is.int (by omega)
  have xs := is_xs h
  have ys := is_ys h
  have xy := is_xy h
  have ax : Is ((nx d + int 1) * int iy) ((d.nx + 1) * iy) := (is_nx1 h).mul jy (by omega)
  have ay : Is ((ny d + int 1) * int ix) ((d.ny + 1) * ix) := (is_ny1 h).mul jx (by omega)
  have az : Is (nx d * int iy) (d.nx * iy) := (is_nx h).mul jy (by omega)
  have xys := xs.add ys (by omega)
  refine .cons ?_ (.cons ?_ (.cons ?_ (.cons ?_ (.cons ?_ (.cons ?_ .nil)))))
  · exact (((ho.add ax (by omega)).add jx (by omega)).add j1 (by omega)).add xy (by omega)
  · exact ((((ho.add xy (by omega)).add xs (by omega)).add ay (by omega)).add jy (by omega)).add j1 (by omega)
  · exact ((ho.add ax (by omega)).add jx (by omega)).add xy (by omega)
  · exact (((ho.add xs (by omega)).add ay (by omega)).add jy (by omega)).add xy (by omega)
  · exact (((ho.add xy (by omega)).add xys (by omega)).add az (by omega)).add jx (by omega)
  · exact (ho.add az (by omega)).add jx (by omega)

theorem planes_loop {d : Dims} (h : Fits d) : ∀ (n : Nat) (o : I32) (off : Nat), Is o off → off + nSurfPlane d * n + d.nx * d.ny ≤ nSurf d →
    List.Forall₂ Is (planesLoopM d n o).1 (planesLoop d n off) ∧ Is (planesLoopM d n o).2 (off + nSurfPlane d * n)
  | 0, o, off, ho, _ => ⟨.nil, by simpa [planesLoopM] using ho⟩
  | n + 1, o, off, ho, hb => by
    obtain ⟨s1, s2, s3⟩ := h.surf
    have e : nSurfPlane d * (n + 1) = nSurfPlane d + nSurfPlane d * n := by ring
    rw [e] at hb
    have hstep : Is (o + (((nx d + int 1) * ny d + (ny d + int 1) * nx d) + nx d * ny d)) (off + ((d.nx + 1) * d.ny + (d.ny + 1) * d.nx + d.nx * d.ny)) := by
      unfold nSurfPlane at hb
      exact ho.add (((is_xs h).add (is_ys h) (by omega)).add (is_xy h) (by omega)) (by omega)
    obtain ⟨r1, r2⟩ := planes_loop h n _ _ hstep (by unfold nSurfPlane at hb ⊢; omega)
    refine ⟨List.rel_append ?_ r1, ?_⟩
    · exact forall₂_flatMap _ _ _ fun iy hy => forall₂_flatMap _ _ _ fun ix hx =>
        cell_entries h ho (by omega) ix iy (List.mem_range.mp hx) (List.mem_range.mp hy)
    · rw [e, ← Nat.add_assoc]
      exact r2

/-- If an expression is defined, it has this value. -/
def Sound (e : I32) (v : Int) : Prop := ∀ x, e = .ok x → x = v ∧ x < 2147483648

theorem Sound.int (n : Nat) : Sound (int n) n := by
  intro x h
  unfold Machine.int I32.of at h
  split at h
  · injection h with h; omega
  · exact absurd h (by simp)

theorem Sound.add {a b : I32} {u v : Int} (ha : Sound a u) (hb : Sound b v) : Sound (a + b) (u + v) := by
  intro x h
  cases a with
  | ub => exact absurd h (by show I32.ub ≠ _; simp)
  | ok y =>
    cases b with
    | ub => exact absurd h (by show I32.ub ≠ _; simp)
    | ok z =>
      rw [add_ok] at h
      obtain ⟨rfl, _⟩ := ha y rfl
      obtain ⟨rfl, _⟩ := hb z rfl
      unfold I32.of at h
      split at h
      · injection h with h; omega
      · exact absurd h (by simp)

theorem Sound.mul {a b : I32} {u v : Int} (ha : Sound a u) (hb : Sound b v) : Sound (a * b) (u * v) := by
  intro x h
  cases a with
  | ub => exact absurd h (by show I32.ub ≠ _; simp)
  | ok y =>
    cases b with
    | ub => exact absurd h (by show I32.ub ≠ _; simp)
    | ok z =>
      rw [mul_ok] at h
      obtain ⟨rfl, _⟩ := ha y rfl
      obtain ⟨rfl, _⟩ := hb z rfl
      unfold I32.of at h
      split at h
      · next q => injection h with h; exact ⟨h.symm, h ▸ q.2⟩
      · exact absurd h (by simp)

theorem table_ok {a : I32} {n : Nat} (ha : Is a n) {r : List I32 × I32} {l : List Nat} {m : Nat} (hl : List.Forall₂ Is r.1 l) (hr : Is r.2 m) :
    tableOf a r = some (l.map Int.ofNat) := by
  obtain ⟨r1, r2⟩ := r
  obtain ⟨rfl, _⟩ := ha
  obtain ⟨h, _⟩ := hr
  simp only at h hl
  subst h
  exact values_ok _ _ hl

theorem table_none {a : I32} {v : Int} (ha : Sound a v) (hv : 2147483648 ≤ v) (r : List I32 × I32) : tableOf a r = none := by
  cases a with
  | ub => rfl
  | ok x =>
    obtain ⟨rfl, h⟩ := ha x rfl
    omega

/-- C134: the table of surfaces is made without overflow, with the numbers of the surfaces, exactly if the mesh has less than 2^31 / 6 cells; else the
behaviour is undefined. -/
theorem C134_table (d : Dims) (hx : 0 < d.nx) (hy : 0 < d.ny) (hz : 0 < d.nz) :
    (6 * (d.nx * d.ny * d.nz) < 2 ^ 31 → prepareM d = some ((surfTable d).map Int.ofNat)) ∧
    (2 ^ 31 ≤ 6 * (d.nx * d.ny * d.nz) → prepareM d = none) := by
  have hp : 2 ^ 31 = 2147483648 := by norm_num
  rw [hp]
  constructor
  · intro hl
    have h : Fits d := ⟨hx, hy, hz, hl⟩
    obtain ⟨b1, b2, b3, b4, b5, b6⟩ := h.bounds
    have hl := h.lt
    obtain ⟨s1, s2, s3⟩ := h.surf
    have e1 : 6 * d.nx * d.ny = 6 * (d.nx * d.ny) := by ring
    have e2 : 6 * d.nx * d.ny * d.nz = 6 * (d.nx * d.ny * d.nz) := by ring
    have h6 : Is (int 6 * nx d * ny d * nz d) (6 * d.nx * d.ny * d.nz) :=
      ((((Is.int (by norm_num)).mul (is_nx h) (by omega)).mul (is_ny h) (by omega)).mul (is_nz h) (by omega))
    obtain ⟨r1, r2⟩ := planes_loop h d.nz (int 0) 0 (Is.int (by norm_num)) (by omega)
    exact table_ok h6 r1 r2
  · intro hl
    have hs : Sound (int 6 * nx d * ny d * nz d) (((6 : Nat) : Int) * d.nx * d.ny * d.nz) :=
      ((((Sound.int 6).mul (Sound.int _)).mul (Sound.int _)).mul (Sound.int _))
    have e : ((6 : Nat) : Int) * d.nx * d.ny * d.nz = ((6 * (d.nx * d.ny * d.nz) : Nat) : Int) := by push_cast; ring
    exact table_none hs (by rw [e]; omega) _

/-- C134: the index of an entry of the table. -/
theorem C134_index (d : Dims) (h : Fits d) (i : Nat) (hi : i < nPin d) (s : Surface) (hs : s ≠ .INTERNAL) :
    coarseSurfIdxM i s = .ok ((i * 6 + s.idx : Nat) : Int) ∧ i * 6 + s.idx < (surfTable d).length := by
  have hl := h.lt
  unfold nPin at hi
  have h1 : s.idx < 6 := by cases s <;> first | decide | exact absurd rfl hs
  refine ⟨(((Is.int (by omega)).mul (Is.int (by norm_num)) (by omega)).add (Is.int (by omega)) (by omega)).1, ?_⟩
  have hp : i = coarseCell d (coarsePosition d i) := (C10_cell_of_position d i hi).1.symm
  obtain ⟨_, p1, p2, p3⟩ := C10_cell_of_position d i hi
  obtain ⟨f, hf⟩ : ∃ f, Spec.faceOf (coarsePosition d i).x (coarsePosition d i).y (coarsePosition d i).z s = some f := by
    cases s <;> simp [Spec.faceOf] at hs ⊢
  have := coarseSurf_enc d _ _ _ s f hf p1 p2 p3
  rw [← show (⟨(coarsePosition d i).x, (coarsePosition d i).y, (coarsePosition d i).z⟩ : Pos) = coarsePosition d i from rfl] at hp
  rw [← hp] at this
  unfold coarseSurf at this
  exact (List.getElem?_eq_some_iff.mp this).1

theorem normal_ok {a b c : I32} {x y z : Nat} (ha : Is a x) (hb : Is b y) (hc : Is c z) :
    normalOf a b c = some (if x < y then .Z else if x < z then .X else .Y) := by
  obtain ⟨rfl, _⟩ := ha
  obtain ⟨rfl, _⟩ := hb
  obtain ⟨rfl, _⟩ := hc
  simp only [normalOf, Nat.cast_lt]

/-- C134: the normal of a surface. -/
theorem C134_normal (d : Dims) (h : Fits d) (n : Nat) (hn : n < nSurf d) : surfaceNormalM d n = some (surfaceNormal d n) := by
  obtain ⟨s1, s2, s3⟩ := h.surf
  have e1 : d.nx * d.ny + (d.nx + 1) * d.ny + (d.ny + 1) * d.nx = nSurfPlane d := by unfold nSurfPlane; ring
  have x1 := (is_xy h).add (is_xs h) (by omega)
  have x2 := x1.add (is_ys h) (by omega)
  have i0 : Is64 (.ok n) n := ⟨rfl, by omega⟩
  have x3 := (i0.i32 (by omega)).mod x2 (by have : 0 < d.nx * d.ny := Nat.mul_pos h.x h.y; omega)
  unfold surfaceNormalM surfaceNormal
  rw [normal_ok x3 (is_xy h) x1]

theorem pick_ok {c : Bool} {a : I32} {v : Int} (h : c = true → a = .ok v) : pickM (some c) a = .ok (if c = true then v else -1) := by
  cases c with
  | true => simpa [pickM] using h rfl
  | false => rfl

theorem lt_ok {a b : I32} {x y : Nat} (ha : Is a x) (hb : Is b y) : ltM a b = some (decide (x < y)) := by
  obtain ⟨rfl, _⟩ := ha
  obtain ⟨rfl, _⟩ := hb
  simp [ltM]

/-- Two cells of `neighOf`, from the cells and the conditions. -/
theorem pair_ok {c e : Bool} {a b : I32} {u v : Nat} (h1 : c = true → Is a u) (h2 : e = true → Is b v) :
    (pickM (some c) a, pickM (some e) b) = (I32.ok (if c = true then (u : Int) else -1), I32.ok (if e = true then (v : Int) else -1)) := by
  rw [pick_ok fun q => (h1 q).1, pick_ok fun q => (h2 q).1]

theorem neigh_X {d : Dims} (h : Fits d) {s : U64} {iz : I32} {r z : Nat} (hs : Is64 s r) (hiz : Is iz z) (h1 : d.nx * d.ny ≤ r)
    (h2 : r < d.nx * d.ny + (d.nx + 1) * d.ny) (hz : z < d.nz) :
    neighOf d s iz .X =
      (.ok (if 0 < (r - d.nx * d.ny) % (d.nx + 1) then
        ((coarseCell d ⟨(r - d.nx * d.ny) % (d.nx + 1) - 1, (r - d.nx * d.ny) / (d.nx + 1), z⟩ : Nat) : Int) else -1),
       .ok (if (r - d.nx * d.ny) % (d.nx + 1) < d.nx then
        ((coarseCell d ⟨(r - d.nx * d.ny) % (d.nx + 1), (r - d.nx * d.ny) / (d.nx + 1), z⟩ : Nat) : Int) else -1)) := by
  obtain ⟨b1, b2, b3, b4, b5, b6⟩ := h.bounds
  have hl := h.lt
  have one : Is (int 1) 1 := Is.int (by norm_num)
  have zero : Is (int 0) 0 := Is.int (by norm_num)
  have a := hs.sub (is_xy h).u64 h1
  have hy : (r - d.nx * d.ny) / (d.nx + 1) < d.ny := Nat.div_lt_of_lt_mul (by omega)
  have hx : (r - d.nx * d.ny) % (d.nx + 1) < d.nx + 1 := Nat.mod_lt _ (by omega)
  have iy := (a.div (is_nx1 h).u64 (by omega)).i32 (by omega)
  have ix := (a.mod (is_nx1 h).u64 (by omega)).i32 (by omega)
  generalize (r - d.nx * d.ny) / (d.nx + 1) = y at *
  generalize (r - d.nx * d.ny) % (d.nx + 1) = x at *
  simp only [neighOf, lt_ok zero ix, lt_ok ix (is_nx h)]
  rw [pair_ok
    (fun q => (is_cell h (p := ⟨x - 1, y, z⟩) (ix.sub one (by have := of_decide_eq_true q; omega)) iy hiz (by have := of_decide_eq_true q; show x - 1 < _; omega) hy hz).1)
    (fun q => (is_cell h (p := ⟨x, y, z⟩) ix iy hiz (of_decide_eq_true q) hy hz).1)]
  simp only [decide_eq_true_eq]

theorem neigh_Y {d : Dims} (h : Fits d) {s : U64} {iz : I32} {r z : Nat} (hs : Is64 s r) (hiz : Is iz z) (h1 : d.nx * d.ny + (d.nx + 1) * d.ny ≤ r)
    (h2 : r < d.nx * d.ny + (d.nx + 1) * d.ny + (d.ny + 1) * d.nx) (hz : z < d.nz) :
    neighOf d s iz .Y =
      (.ok (if 0 < (r - (d.nx * d.ny + (d.nx + 1) * d.ny)) % (d.ny + 1) then
        ((coarseCell d ⟨(r - (d.nx * d.ny + (d.nx + 1) * d.ny)) / (d.ny + 1), (r - (d.nx * d.ny + (d.nx + 1) * d.ny)) % (d.ny + 1) - 1, z⟩ : Nat) : Int) else -1),
       .ok (if (r - (d.nx * d.ny + (d.nx + 1) * d.ny)) % (d.ny + 1) < d.ny then
        ((coarseCell d ⟨(r - (d.nx * d.ny + (d.nx + 1) * d.ny)) / (d.ny + 1), (r - (d.nx * d.ny + (d.nx + 1) * d.ny)) % (d.ny + 1), z⟩ : Nat) : Int) else -1)) := by
  obtain ⟨b1, b2, b3, b4, b5, b6⟩ := h.bounds
  have hl := h.lt
  have one : Is (int 1) 1 := Is.int (by norm_num)
  have zero : Is (int 0) 0 := Is.int (by norm_num)
  have e1 : (d.nx + 1) * d.ny = d.nx * d.ny + d.ny := by ring
  have a := hs.sub ((is_xy h).add (is_xs h) (by omega)).u64 h1
  have hx : (r - (d.nx * d.ny + (d.nx + 1) * d.ny)) / (d.ny + 1) < d.nx := Nat.div_lt_of_lt_mul (by omega)
  have hy : (r - (d.nx * d.ny + (d.nx + 1) * d.ny)) % (d.ny + 1) < d.ny + 1 := Nat.mod_lt _ (by omega)
  have iy := (a.mod (is_ny1 h).u64 (by omega)).i32 (by omega)
  have ix := (a.div (is_ny1 h).u64 (by omega)).i32 (by omega)
  generalize (r - (d.nx * d.ny + (d.nx + 1) * d.ny)) % (d.ny + 1) = y at *
  generalize (r - (d.nx * d.ny + (d.nx + 1) * d.ny)) / (d.ny + 1) = x at *
  simp only [neighOf, lt_ok zero iy, lt_ok iy (is_ny h)]
  rw [pair_ok
    (fun q => (is_cell h (p := ⟨x, y - 1, z⟩) ix (iy.sub one (by have := of_decide_eq_true q; omega)) hiz hx (by have := of_decide_eq_true q; show y - 1 < _; omega) hz).1)
    (fun q => (is_cell h (p := ⟨x, y, z⟩) ix iy hiz hx (of_decide_eq_true q) hz).1)]
  simp only [decide_eq_true_eq]

theorem neigh_Z {d : Dims} (h : Fits d) {s : U64} {iz : I32} {r z : Nat} (hs : Is64 s r) (hiz : Is iz z) (h2 : r < d.nx * d.ny) (hz : z ≤ d.nz) :
    neighOf d s iz .Z =
      (.ok (if 0 < z then ((coarseCell d ⟨r % d.nx, r / d.nx, z - 1⟩ : Nat) : Int) else -1),
       .ok (if z < d.nz then ((coarseCell d ⟨r % d.nx, r / d.nx, z⟩ : Nat) : Int) else -1)) := by
  obtain ⟨b1, b2, b3, b4, b5, b6⟩ := h.bounds
  have hl := h.lt
  have one : Is (int 1) 1 := Is.int (by norm_num)
  have zero : Is (int 0) 0 := Is.int (by norm_num)
  have hy : r / d.nx < d.ny := Nat.div_lt_of_lt_mul h2
  have hx : r % d.nx < d.nx := Nat.mod_lt _ h.x
  have iy := (hs.div (is_nx h).u64 h.x).i32 (by omega)
  have ix := (hs.mod (is_nx h).u64 h.x).i32 (by omega)
  generalize r / d.nx = y at *
  generalize r % d.nx = x at *
  simp only [neighOf, lt_ok zero hiz, lt_ok hiz (is_nz h)]
  rw [pair_ok
    (fun q => (is_cell h (p := ⟨x, y, z - 1⟩) ix iy (hiz.sub one (by have := of_decide_eq_true q; omega)) hx hy (by have := of_decide_eq_true q; show z - 1 < _; omega)).1)
    (fun q => (is_cell h (p := ⟨x, y, z⟩) ix iy hiz hx hy (of_decide_eq_true q)).1)]
  simp only [decide_eq_true_eq]

/-- C134: the cells on both sides of a surface. -/
theorem C134_neighbours (d : Dims) (h : Fits d) (n : Nat) (hn : n < nSurf d) :
    neighCellsM d n = some (.ok (coarseNeighCells d n).1, .ok (coarseNeighCells d n).2) := by
  obtain ⟨b1, b2, b3, b4, b5, b6⟩ := h.bounds
  have hl := h.lt
  obtain ⟨s1, s2, s3⟩ := h.surf
  have hpos : 0 < nSurfPlane d := by rw [nSurfPlane_eq]; have := h.x; omega
  have i0 : Is64 (.ok n) n := ⟨rfl, by omega⟩
  have z64 := i0.div (is_plane h) hpos
  have hdiv : n / nSurfPlane d ≤ n := Nat.div_le_self _ _
  have iz := z64.i32 (by omega)
  have hdm : n / nSurfPlane d * nSurfPlane d + n % nSurfPlane d = n := Nat.div_add_mod' _ _
  have hmod : n % nSurfPlane d < nSurfPlane d := Nat.mod_lt _ hpos
  have es : n - n / nSurfPlane d * nSurfPlane d = n % nSurfPlane d := by omega
  have is0 := i0.sub (iz.u64.mul (is_plane h) (by omega)) (by omega)
  rw [es] at is0
  have enp : d.nx * d.ny + (d.nx + 1) * d.ny + (d.ny + 1) * d.nx = nSurfPlane d := by unfold nSurfPlane; ring
  have hz : n / nSurfPlane d ≤ d.nz := by
    by_contra hc
    have h1 : nSurfPlane d * (d.nz + 1) ≤ nSurfPlane d * (n / nSurfPlane d) := Nat.mul_le_mul_left _ (by omega)
    have h2 : nSurfPlane d * (n / nSurfPlane d) ≤ n := Nat.mul_div_le _ _
    have e : nSurfPlane d * (d.nz + 1) = nSurfPlane d * d.nz + nSurfPlane d := by ring
    have e' := nSurfPlane_eq d
    omega
  have hz' : d.nx * d.ny ≤ n % nSurfPlane d → n / nSurfPlane d < d.nz := by
    intro hr
    by_contra hc
    have : n / nSurfPlane d = d.nz := by omega
    rw [this] at hdm
    have : d.nz * nSurfPlane d = nSurfPlane d * d.nz := Nat.mul_comm _ _
    omega
  unfold neighCellsM
  rw [C134_normal d h n hn]
  cases hc : surfaceNormal d n with
  | X =>
    have hr : d.nx * d.ny ≤ n % nSurfPlane d ∧ n % nSurfPlane d < d.nx * d.ny + (d.nx + 1) * d.ny := by
      unfold surfaceNormal at hc
      simp only [enp] at hc
      split at hc
      · exact absurd hc (by decide)
      · split at hc
        · omega
        · exact absurd hc (by decide)
    rw [Option.map_some, neigh_X h is0 iz hr.1 hr.2 (hz' hr.1)]
    simp only [coarseNeighCells, hc, es]
  | Y =>
    have hr : d.nx * d.ny + (d.nx + 1) * d.ny ≤ n % nSurfPlane d := by
      unfold surfaceNormal at hc
      simp only [enp] at hc
      split at hc
      · exact absurd hc (by decide)
      · split at hc
        · exact absurd hc (by decide)
        · omega
    rw [Option.map_some, neigh_Y h is0 iz hr (by omega) (hz' (by omega))]
    simp only [coarseNeighCells, hc, es]
  | Z =>
    have hr : n % nSurfPlane d < d.nx * d.ny := by
      unfold surfaceNormal at hc
      simp only [enp] at hc
      split at hc
      · assumption
      · split at hc <;> exact absurd hc (by decide)
    rw [Option.map_some, neigh_Z h is0 iz hr hz]
    simp only [coarseNeighCells, hc, es]

/-- What C134 says of the mesh: all meshes whose surfaces have numbers of type `int` get a table. -/
def C134_claim : Prop := ∀ d : Dims, 0 < d.nx → 0 < d.ny → 0 < d.nz → nSurf d < 2 ^ 31 → prepareM d ≠ none

/-- False: 720 cells in each direction have 1121299200 surfaces, but the size of the table overflows. -/
theorem C134_claim_false : ¬ C134_claim := by
  intro h
  exact h ⟨720, 720, 720⟩ (by norm_num) (by norm_num) (by norm_num) (by norm_num [nSurf])
    ((C134_table ⟨720, 720, 720⟩ (by norm_num) (by norm_num) (by norm_num)).2 (by norm_num))

/-- A mesh of 600 cells in each direction has the table. -/
example : Fits ⟨600, 600, 600⟩ := ⟨by norm_num, by norm_num, by norm_num, by norm_num⟩

example : prepareM ⟨2, 1, 1⟩ = some [3, 6, 2, 5, 9, 0, 4, 8, 3, 7, 10, 1] := by decide +kernel

example : neighCellsM ⟨2, 1, 1⟩ 3 = some (.ok 0, .ok 1) := by decide +kernel

/-! ## Boundary conditions -/

section
open Verif.BC

theorem sizes_mono : ∀ (l : List Size3) (b : Nat), b ≤ l.foldl (fun acc n => acc + (n.x + n.y + n.z)) b
  | [], _ => le_refl _
  | s :: l, b => by
    rw [List.foldl_cons]
    have := sizes_mono l (b + (s.x + s.y + s.z))
    omega

theorem perGroup_is : ∀ (size : List Size3) (a : I32) (acc : Nat), Is a acc → size.foldl (fun acc n => acc + (n.x + n.y + n.z)) acc < 2147483648 →
    Is (size.foldl (fun acc n => acc + (int n.x + int n.y + int n.z)) a) (size.foldl (fun acc n => acc + (n.x + n.y + n.z)) acc)
  | [], _, _, ha, _ => ha
  | s :: rest, a, acc, ha, h => by
    rw [List.foldl_cons] at h ⊢
    rw [List.foldl_cons]
    have := sizes_mono rest (acc + (s.x + s.y + s.z))
    exact perGroup_is rest _ _ (ha.add (((Is.int (by omega)).add (Is.int (by omega)) (by omega)).add (Is.int (by omega)) (by omega)) (by omega)) h

theorem perGroup_sound : ∀ (size : List Size3) (a : I32) (acc : Nat), Sound a acc →
    Sound (size.foldl (fun acc n => acc + (int n.x + int n.y + int n.z)) a) (size.foldl (fun acc n => acc + (n.x + n.y + n.z)) acc : Nat)
  | [], _, _, ha => ha
  | s :: rest, a, acc, ha => by
    rw [List.foldl_cons, List.foldl_cons]
    refine perGroup_sound rest _ _ ?_
    have := ha.add (((Sound.int s.x).add (Sound.int s.y)).add (Sound.int s.z))
    push_cast
    exact this

theorem running_is : ∀ (l : List Nat) (o : I32) (off : Nat), Is o off → off + l.sum < 2147483648 →
    List.Forall₂ Is (runningM l o).1 (runningOffsets l off) ∧ Is (runningM l o).2 (off + l.sum)
  | [], _, _, ho, _ => ⟨.nil, ho⟩
  | n :: ns, o, off, ho, h => by
    rw [List.sum_cons] at h ⊢
    obtain ⟨r1, r2⟩ := running_is ns (o + int n) (off + n) (ho.add (Is.int (by omega)) (by omega)) (by omega)
    refine ⟨.cons ho r1, ?_⟩
    rw [← Nat.add_assoc]
    exact r2

theorem store_ok {a : U64} {n : Nat} (ha : Is64 a n) {r : List I32 × I32} {l : List Nat} {m : Nat} (hl : List.Forall₂ Is r.1 l) (hr : Is r.2 m) :
    storeOf a r = some (n, l.map Int.ofNat) := by
  obtain ⟨r1, r2⟩ := r
  obtain ⟨rfl, _⟩ := ha
  obtain ⟨h, _⟩ := hr
  simp only at h hl
  subst h
  simp only [storeOf, values_ok _ _ hl, Option.map_some]

theorem store_none {a : I32} {v : Int} (ha : Sound a v) (hv : 2147483648 ≤ v) (r : List I32 × I32) : storeOf a.u64 r = none := by
  cases a with
  | ub => rfl
  | ok x =>
    obtain ⟨rfl, h⟩ := ha x rfl
    omega

theorem perGroup_fits {size : List Size3} (h : perGroup size < 2147483648) : Is (perGroupM size) (perGroup size) :=
  perGroup_is size (int 0) 0 (Is.int (by norm_num)) h

/-- C134: the boundary condition store is made with the right number of values and offsets exactly if the number of values of all groups is below 2^31, else
the behaviour is undefined. -/
theorem C134_store (size : List Size3) (nGroup : Nat) (hg : 0 < nGroup) (hg' : nGroup < 2 ^ 31) :
    (perGroup size * nGroup < 2 ^ 31 → storeM size nGroup = some (perGroup size * nGroup, (runningOffsets (size.flatMap Size3.toList) 0).map Int.ofNat)) ∧
    (2 ^ 31 ≤ perGroup size * nGroup → storeM size nGroup = none) := by
  have hp : 2 ^ 31 = 2147483648 := by norm_num
  rw [hp] at hg' ⊢
  have ho : (size.flatMap Size3.toList).sum = perGroup size := (perGroup_eq size).symm
  constructor
  · intro h
    have h1 : perGroup size ≤ perGroup size * nGroup := Nat.le_mul_of_pos_right _ hg
    have h0 := perGroup_fits (size := size) (by omega)
    obtain ⟨r1, r2⟩ := running_is (size.flatMap Size3.toList) (int 0) 0 (Is.int (by norm_num)) (by omega)
    exact store_ok (h0.mul (Is.int hg') h).u64 r1 r2
  · intro h
    have hs : Sound (perGroupM size * int nGroup) ((perGroup size : Int) * (nGroup : Nat)) :=
      Sound.mul (perGroup_sound size (int 0) 0 (Sound.int 0)) (Sound.int nGroup)
    exact store_none hs (by
      have e : (perGroup size : Int) * (nGroup : Nat) = ((perGroup size * nGroup : Nat) : Int) := by push_cast; rfl
      rw [e]
      omega) _

/-- C134: in a store that is made, the position of each face is that of C16. -/
theorem C134_face {K : Type} (b : Store K) (h : perGroup b.size * b.nGroup < 2 ^ 31) (hg : b.nGroup < 2 ^ 31) (g a : Nat) (n : Verif.Quad.Normal) (cnt lo : Nat)
    (hf : getFace b g a n = some (cnt, lo)) : ∃ off, offset b.size a n = some off ∧ faceM b.size off g = .ok (lo : Int) := by
  have hp : 2 ^ 31 = 2147483648 := by norm_num
  rw [hp] at h hg
  unfold getFace at hf
  split at hf
  case isFalse => exact absurd hf (by simp)
  case isTrue hc =>
    obtain ⟨h1, h2⟩ := hc
    cases hs : b.size[a]? with
    | none => rw [hs] at hf; exact absurd hf (by simp)
    | some s =>
      rw [hs, offset_eq _ _ _ h1] at hf
      simp only [Option.some.injEq, Prod.mk.injEq] at hf
      refine ⟨_, offset_eq _ _ _ h1, ?_⟩
      have h3 : perGroup b.size * g + perGroup b.size ≤ perGroup b.size * b.nGroup := by
        calc perGroup b.size * g + perGroup b.size = perGroup b.size * (g + 1) := by ring
          _ ≤ _ := Nat.mul_le_mul_left _ h2
      have h4 : off b.size a n ≤ perGroup b.size := by
        rw [perGroup_eq]
        have := congrArg List.sum (List.take_append_drop (3 * a + n.toNat) (flat b.size))
        rw [List.sum_append] at this
        unfold off
        omega
      have h5 : perGroup b.size ≤ perGroup b.size * b.nGroup := Nat.le_mul_of_pos_right _ (by omega)
      rw [← hf.2]
      exact (((perGroup_fits (size := b.size) (by omega)).mul (Is.int (n := g) (by omega)) (by omega)).add (Is.int (by omega)) (by omega)).1

/-- What C134 says of the boundary condition: if the values of one group are counted by an `int`, the store is made. -/
def C134_store_claim : Prop := ∀ (size : List Size3) (nGroup : Nat), 0 < nGroup → nGroup < 2 ^ 31 → perGroup size < 2 ^ 31 → storeM size nGroup ≠ none

/-- False: for 192 directions on a mesh of 255 × 255 × 100 cells one group has 22276800 values, and the number of those of 172 groups overflows. -/
theorem C134_store_claim_false : ¬ C134_store_claim := by
  intro h
  have hp : perGroup (List.replicate 192 ⟨25500, 25500, 65025⟩) = 22276800 := by decide +kernel
  refine h (List.replicate 192 ⟨25500, 25500, 65025⟩) 172 (by norm_num) (by norm_num) (by rw [hp]; norm_num) ?_
  exact (C134_store _ 172 (by norm_num) (by norm_num)).2 (by rw [hp]; norm_num)

example : storeM [⟨2, 1, 0⟩, ⟨2, 3, 0⟩] 3 = some (24, [0, 2, 3, 3, 5, 8]) := by decide +kernel

example : faceM [⟨2, 1, 0⟩, ⟨2, 3, 0⟩] 5 2 = .ok 21 := by decide +kernel

end

end Verif.Mesh.Machine
