import Verif.Rays.Lemmas
import Mathlib.Data.List.Perm.Subperm
import Mathlib.Data.Rat.Floor
import Mathlib.Tactic.NormNum
import Mathlib.Analysis.SpecialFunctions.Trigonometric.Arctan
import Mathlib.Algebra.Order.Archimedean.Real.Basic

/-!
# C32: modular rays connect boundary slots one to one
-/

namespace Verif.Rays

variable {K : Type} [Field K] [LinearOrder K] [IsStrictOrderedRing K] [FloorRing K]

/-- A modularised angle: `c`, `s` are the cosine and sine of the octant-1 angle, whose tangent is
`hy * Nx / (hx * Ny)` (ray_data.cpp:183-184).  The machine tolerances are below half a ray spacing, and the core is
smaller than the limit 1.0e12 of `Box::intersect`. -/
structure Modular (e : Env K) (c s : K) (Nx Ny : Nat) : Prop where
  hx : 0 < e.hx
  hy : 0 < e.hy
  nx : 0 < Nx
  ny : 0 < Ny
  c0 : 0 < c
  c1 : c ≤ 1
  s0 : 0 < s
  s1 : s ≤ 1
  tan : s * (e.hx * Ny) = c * (e.hy * Nx)
  fuzz0 : 0 ≤ e.fuzz
  fuzzx : e.fuzz < e.hx / Nx / 2
  fuzzy : e.fuzz < e.hy / Ny / 2
  farx : e.hx / c < e.far
  fary : e.hy / s < e.far
  near_refl : ∀ a, e.near a a = true
  near_x : ∀ a, 0 ≤ a → e.near a e.hx = true → e.hx - a < e.hx / Nx / 2
  near_y : ∀ a, 0 ≤ a → e.near a e.hy = true → e.hy - a < e.hy / Ny / 2

/-- Middle of boundary slot `k`: the first `Ny` slots divide the x-normal face `x = xf` evenly, the other `Nx` slots
divide the y-normal face `y = yf` evenly. -/
def slotPoint (e : Env K) (Nx Ny : Nat) (xf yf : K) (k : Nat) : Pt K :=
  if k < Ny then ⟨xf, (k + 1 / 2) * (e.hy / Ny)⟩ else ⟨((k : K) - Ny + 1 / 2) * (e.hx / Nx), yf⟩

theorem trunc_half (k : Nat) : trunc ((k : K) + 1 / 2) = k := by
  have h0 : (0 : K) ≤ k + 1 / 2 := by positivity
  unfold trunc
  rw [if_pos h0, Int.floor_eq_iff]
  push_cast
  constructor <;> linarith

/-- The rational rule behind the slots (octant 1: reflection of the diagonal; octant 2: rotation). -/
def exit1 (Nx Ny k : Nat) : Nat :=
  if k < Ny then (if k + Nx < Ny then k + Nx else 2 * Ny - 1 - k)
  else (if Nx ≤ k then Nx + Ny - 1 - k else Ny + k)

def exit2 (Nx Ny k : Nat) : Nat := if k < Ny then k + Nx else k - Ny

theorem perm_of_inj (n : Nat) (f : Nat → Nat) (hlt : ∀ k < n, f k < n)
    (hinj : ∀ i < n, ∀ j < n, f i = f j → i = j) : ((List.range n).map f).Perm (List.range n) := by
  have hnd : ((List.range n).map f).Nodup := by
    refine List.Nodup.map_on ?_ List.nodup_range
    intro i hi j hj h
    exact hinj i (List.mem_range.mp hi) j (List.mem_range.mp hj) h
  have hsub : ((List.range n).map f) ⊆ List.range n := by
    intro x hx
    obtain ⟨k, hk, rfl⟩ := List.mem_map.mp hx
    exact List.mem_range.mpr (hlt k (List.mem_range.mp hk))
  exact (List.subperm_of_subset hnd hsub).perm_of_length_le (by simp)

theorem exit1_perm (Nx Ny : Nat) :
    ((List.range (Nx + Ny)).map (exit1 Nx Ny)).Perm (List.range (Nx + Ny)) := by
  apply perm_of_inj
  · intro k hk; unfold exit1; split_ifs <;> omega
  · intro i hi j hj h; unfold exit1 at h; split_ifs at h <;> omega

theorem exit2_perm (Nx Ny : Nat) :
    ((List.range (Nx + Ny)).map (exit2 Nx Ny)).Perm (List.range (Nx + Ny)) := by
  apply perm_of_inj
  · intro k hk; unfold exit2; split_ifs <;> omega
  · intro i hi j hj h; unfold exit2 at h; split_ifs at h <;> omega

section
variable {e : Env K} {c s : K} {Nx Ny : Nat} (M : Modular e c s Nx Ny)
include M

theorem slot_right (k : Nat) :
    exitSlot e (e.hx / Nx) (e.hy / Ny) Ny ⟨e.hx, ((k : K) + 1 / 2) * (e.hy / Ny)⟩ = some (k : Int) := by
  have hsy : e.hy / Ny ≠ 0 := (div_pos M.hy (by exact_mod_cast M.ny)).ne'
  simp only [exitSlot, M.near_refl, if_true]
  rw [mul_div_cancel_right₀ _ hsy, trunc_half]

theorem slot_top (k : Nat) (hk : k < Nx) :
    exitSlot e (e.hx / Nx) (e.hy / Ny) Ny ⟨((k : K) + 1 / 2) * (e.hx / Nx), e.hy⟩ = some ((k + Ny : Nat) : Int) := by
  have hn : (0 : K) < Nx := by exact_mod_cast M.nx
  have hsx : 0 < e.hx / Nx := div_pos M.hx hn
  have hx : e.hx = Nx * (e.hx / Nx) := by field_simp
  have hk' : (k : K) + 1 ≤ Nx := by exact_mod_cast hk
  have hno : e.near (((k : K) + 1 / 2) * (e.hx / Nx)) e.hx = false := by
    by_contra h
    have h := M.near_x (((k : K) + 1 / 2) * (e.hx / Nx)) (by positivity) (by simpa using h)
    nlinarith
  simp only [exitSlot, hno, M.near_refl, if_true, Bool.false_eq_true, if_false]
  rw [mul_div_cancel_right₀ _ hsx.ne', show (k : K) + 1 / 2 + Ny = ((k + Ny : Nat) : K) + 1 / 2 by push_cast; ring,
    trunc_half]

theorem slot_left (k : Nat) (hk : k < Ny) :
    exitSlot e (e.hx / Nx) (e.hy / Ny) Ny ⟨0, ((k : K) + 1 / 2) * (e.hy / Ny)⟩ = some (k : Int) := by
  have hn : (0 : K) < Nx := by exact_mod_cast M.nx
  have hm : (0 : K) < Ny := by exact_mod_cast M.ny
  have hsx : 0 < e.hx / Nx := div_pos M.hx hn
  have hsy : 0 < e.hy / Ny := div_pos M.hy hm
  have hx : e.hx = Nx * (e.hx / Nx) := by field_simp
  have hy : e.hy = Ny * (e.hy / Ny) := by field_simp
  have hk' : (k : K) + 1 ≤ Ny := by exact_mod_cast hk
  have hn1 : (1 : K) ≤ Nx := by exact_mod_cast M.nx
  have hno : e.near 0 e.hx = false := by
    by_contra h
    have h := M.near_x _ le_rfl (by simpa using h)
    nlinarith
  have hno2 : e.near (((k : K) + 1 / 2) * (e.hy / Ny)) e.hy = false := by
    by_contra h
    have h := M.near_y (((k : K) + 1 / 2) * (e.hy / Ny)) (by positivity) (by simpa using h)
    nlinarith
  simp only [exitSlot, hno, hno2, M.near_refl, if_true, Bool.false_eq_true, if_false]
  rw [mul_div_cancel_right₀ _ hsy.ne', trunc_half]

theorem trace1 (k : Nat) (hk : k < Nx + Ny) :
    traceOne e c s (e.hx / Nx) (e.hy / Ny) Ny (slotPoint e Nx Ny 0 0 k) k =
      some ⟨slotPoint e Nx Ny 0 0 k, slotPoint e Nx Ny e.hx e.hy (exit1 Nx Ny k), k, (exit1 Nx Ny k : Nat)⟩ := by
  have hn : (0 : K) < Nx := by exact_mod_cast M.nx
  have hm : (0 : K) < Ny := by exact_mod_cast M.ny
  have hn1 : (1 : K) ≤ Nx := by exact_mod_cast M.nx
  have hm1 : (1 : K) ≤ Ny := by exact_mod_cast M.ny
  have hsx : 0 < e.hx / Nx := div_pos M.hx hn
  have hsy : 0 < e.hy / Ny := div_pos M.hy hm
  have hx : (Nx : K) * (e.hx / Nx) = e.hx := by field_simp
  have hy : (Ny : K) * (e.hy / Ny) = e.hy := by field_simp
  have ht : s * (e.hx / Nx) = c * (e.hy / Ny) := by
    field_simp
    linear_combination M.tan
  have fx := M.farx
  have fy := M.fary
  rw [← hx] at fx
  rw [← hy] at fy
  have hk0 : (0 : K) ≤ k := Nat.cast_nonneg k
  unfold exit1
  by_cases h1 : k < Ny
  · have hk1 : (k : K) + 1 ≤ Ny := by exact_mod_cast h1
    rw [if_pos h1]
    by_cases h2 : k + Nx < Ny
    · have h2' : (k : K) + Nx + 1 ≤ Ny := by exact_mod_cast h2
      have I := inter_right (u := 0) (v := (k : K) + 1 / 2) (nx := (Nx : K)) (ny := (Ny : K)) M.fuzz0 hsx hsy M.c0 M.c1
        M.s0 M.s1 ht M.fuzzx M.fuzzy fx fy le_rfl (by linarith) (Or.inl rfl) (by linarith) (by linarith)
      rw [hx, hy, zero_mul, show (k : K) + 1 / 2 + (Nx - 0) = ((k + Nx : Nat) : K) + 1 / 2 by push_cast; ring] at I
      simp only [if_pos h2, slotPoint, if_pos h1, traceOne, I, slot_right M]
    · have h2' : (Ny : K) ≤ k + Nx := by exact_mod_cast Nat.le_of_not_lt h2
      have I := inter_top (u := 0) (v := (k : K) + 1 / 2) (nx := (Nx : K)) (ny := (Ny : K)) M.fuzz0 hsx hsy M.c0 M.c1
        M.s0 M.s1 ht M.fuzzx M.fuzzy fx fy le_rfl (by linarith) (Or.inl rfl) (by linarith) (by linarith)
      have hq : (0 : K) + (Ny - (k + 1 / 2)) = ((Ny - 1 - k : Nat) : K) + 1 / 2 := by
        rw [Nat.sub_sub, Nat.cast_sub (by omega)]; push_cast; ring
      have hq2 : ((2 * Ny - 1 - k : Nat) : K) - Ny + 1 / 2 = ((Ny - 1 - k : Nat) : K) + 1 / 2 := by
        rw [Nat.sub_sub, Nat.sub_sub, Nat.cast_sub (by omega), Nat.cast_sub (by omega)]; push_cast; ring
      rw [hx, hy, zero_mul, hq] at I
      have hge : ¬ 2 * Ny - 1 - k < Ny := by omega
      simp only [if_neg h2, slotPoint, if_pos h1, if_neg hge, traceOne, I, slot_top M (Ny - 1 - k) (by omega), hq2]
      rw [show Ny - 1 - k + Ny = 2 * Ny - 1 - k by omega]
  · have hk1 : (Ny : K) ≤ k := by exact_mod_cast Nat.le_of_not_lt h1
    have hk2 : (k : K) + 1 ≤ Nx + Ny := by exact_mod_cast hk
    rw [if_neg h1]
    by_cases h2 : Nx ≤ k
    · have h2' : (Nx : K) ≤ k := by exact_mod_cast h2
      have I := inter_right (u := (k : K) - Ny + 1 / 2) (v := 0) (nx := (Nx : K)) (ny := (Ny : K)) M.fuzz0 hsx hsy M.c0
        M.c1 M.s0 M.s1 ht M.fuzzx M.fuzzy fx fy (by linarith) le_rfl (Or.inr rfl) (by linarith) (by linarith)
      have hq : (0 : K) + (Nx - (k - Ny + 1 / 2)) = ((Nx + Ny - 1 - k : Nat) : K) + 1 / 2 := by
        rw [Nat.sub_sub, Nat.cast_sub (by omega)]; push_cast; ring
      rw [hx, hy, zero_mul, hq] at I
      have hge : Nx + Ny - 1 - k < Ny := by omega
      simp only [if_pos h2, slotPoint, if_neg h1, if_pos hge, traceOne, I, slot_right M]
    · have h2' : (k : K) + 1 ≤ Nx := by exact_mod_cast Nat.lt_of_not_le h2
      have I := inter_top (u := (k : K) - Ny + 1 / 2) (v := 0) (nx := (Nx : K)) (ny := (Ny : K)) M.fuzz0 hsx hsy M.c0
        M.c1 M.s0 M.s1 ht M.fuzzx M.fuzzy fx fy (by linarith) le_rfl (Or.inr rfl) (by linarith) (by linarith)
      have hq : (k : K) - Ny + 1 / 2 + (Ny - 0) = (k : K) + 1 / 2 := by ring
      have hq2 : ((Ny + k : Nat) : K) - Ny + 1 / 2 = (k : K) + 1 / 2 := by push_cast; ring
      rw [hx, hy, zero_mul, hq] at I
      have hge : ¬ Ny + k < Ny := by omega
      simp only [if_neg h2, slotPoint, if_neg h1, if_neg hge, traceOne, I, slot_top M k (by omega), hq2]
      rw [Nat.add_comm k Ny]

theorem trace2 (k : Nat) (hk : k < Nx + Ny) :
    traceOne e (-c) s (e.hx / Nx) (e.hy / Ny) Ny (slotPoint e Nx Ny e.hx 0 k) k =
      some ⟨slotPoint e Nx Ny e.hx 0 k, slotPoint e Nx Ny 0 e.hy (exit2 Nx Ny k), k, (exit2 Nx Ny k : Nat)⟩ := by
  have hn : (0 : K) < Nx := by exact_mod_cast M.nx
  have hm : (0 : K) < Ny := by exact_mod_cast M.ny
  have hn1 : (1 : K) ≤ Nx := by exact_mod_cast M.nx
  have hm1 : (1 : K) ≤ Ny := by exact_mod_cast M.ny
  have hsx : 0 < e.hx / Nx := div_pos M.hx hn
  have hsy : 0 < e.hy / Ny := div_pos M.hy hm
  have hx : (Nx : K) * (e.hx / Nx) = e.hx := by field_simp
  have hy : (Ny : K) * (e.hy / Ny) = e.hy := by field_simp
  have ht : s * (e.hx / Nx) = c * (e.hy / Ny) := by
    field_simp
    linear_combination M.tan
  have fx := M.farx
  have fy := M.fary
  rw [← hx] at fx
  rw [← hy] at fy
  have hk0 : (0 : K) ≤ k := Nat.cast_nonneg k
  unfold exit2
  by_cases h1 : k < Ny
  · have hk1 : (k : K) + 1 ≤ Ny := by exact_mod_cast h1
    rw [if_pos h1]
    by_cases h2 : k + Nx < Ny
    · have h2' : (k : K) + Nx + 1 ≤ Ny := by exact_mod_cast h2
      have I := inter_left (u := (Nx : K)) (v := (k : K) + 1 / 2) (nx := (Nx : K)) (ny := (Ny : K)) M.fuzz0 hsx hsy M.c0
        M.c1 M.s0 M.s1 ht M.fuzzx M.fuzzy fx fy hn.le (by linarith) (Or.inl rfl) (by linarith) le_rfl (by linarith)
      rw [hx, hy, show (k : K) + 1 / 2 + Nx = ((k + Nx : Nat) : K) + 1 / 2 by push_cast; ring] at I
      simp only [slotPoint, if_pos h1, if_pos h2, traceOne, I, slot_left M _ h2]
    · have h2' : (Ny : K) ≤ k + Nx := by exact_mod_cast Nat.le_of_not_lt h2
      have I := inter_top2 (u := (Nx : K)) (v := (k : K) + 1 / 2) (nx := (Nx : K)) (ny := (Ny : K)) M.fuzz0 hsx hsy M.c0
        M.c1 M.s0 M.s1 ht M.fuzzx M.fuzzy fx fy hn.le (by linarith) (Or.inl rfl) (by linarith) le_rfl (by linarith)
      have hq : (Nx : K) - (Ny - (k + 1 / 2)) = ((k + Nx - Ny : Nat) : K) + 1 / 2 := by
        rw [Nat.cast_sub (by omega)]; push_cast; ring
      have hq2 : ((k + Nx : Nat) : K) - Ny + 1 / 2 = ((k + Nx - Ny : Nat) : K) + 1 / 2 := by
        rw [Nat.cast_sub (by omega)]
      rw [hx, hy, hq] at I
      simp only [slotPoint, if_pos h1, if_neg h2, traceOne, I, slot_top M (k + Nx - Ny) (by omega), hq2]
      rw [show k + Nx - Ny + Ny = k + Nx by omega]
  · have hk1 : (Ny : K) ≤ k := by exact_mod_cast Nat.le_of_not_lt h1
    have hk2 : (k : K) + 1 ≤ Nx + Ny := by exact_mod_cast hk
    rw [if_neg h1]
    have hcast : ((k - Ny : Nat) : K) = k - Ny := Nat.cast_sub (by omega)
    by_cases h2 : k - Ny < Ny
    · have h2' : (k : K) - Ny + 1 ≤ Ny := by rw [← hcast]; exact_mod_cast h2
      have I := inter_left (u := (k : K) - Ny + 1 / 2) (v := 0) (nx := (Nx : K)) (ny := (Ny : K)) M.fuzz0 hsx hsy M.c0
        M.c1 M.s0 M.s1 ht M.fuzzx M.fuzzy fx fy (by linarith) le_rfl (Or.inr rfl) (by linarith) (by linarith)
        (by linarith)
      rw [hx, hy, zero_mul, show (0 : K) + (k - Ny + 1 / 2) = ((k - Ny : Nat) : K) + 1 / 2 by rw [hcast]; ring] at I
      simp only [slotPoint, if_neg h1, if_pos h2, traceOne, I, slot_left M _ h2]
    · have h2' : (Ny : K) ≤ k - Ny := by rw [← hcast]; exact_mod_cast Nat.le_of_not_lt h2
      have I := inter_top2 (u := (k : K) - Ny + 1 / 2) (v := 0) (nx := (Nx : K)) (ny := (Ny : K)) M.fuzz0 hsx hsy M.c0
        M.c1 M.s0 M.s1 ht M.fuzzx M.fuzzy fx fy (by linarith) le_rfl (Or.inr rfl) (by linarith) (by linarith)
        (by linarith)
      have hq : (k : K) - Ny + 1 / 2 - (Ny - 0) = ((k - Ny - Ny : Nat) : K) + 1 / 2 := by
        rw [Nat.cast_sub (by omega), hcast]; ring
      have hq2 : ((k - Ny : Nat) : K) - Ny + 1 / 2 = ((k - Ny - Ny : Nat) : K) + 1 / 2 := by
        rw [Nat.cast_sub (by omega : Ny ≤ k - Ny)]
      rw [hx, hy, zero_mul, hq] at I
      simp only [slotPoint, if_neg h1, if_neg h2, traceOne, I, slot_top M (k - Ny - Ny) (by omega), hq2]
      rw [show k - Ny - Ny + Ny = k - Ny by omega]

theorem space_x : |spacing e.hy c Ny / s| = e.hx / Nx := by
  have hn : (0 : K) < Nx := by exact_mod_cast M.nx
  have hm : (0 : K) < Ny := by exact_mod_cast M.ny
  have := M.s0
  have h : spacing e.hy c Ny / s = e.hx / Nx := by
    unfold spacing; field_simp; linear_combination -M.tan
  rw [h, abs_of_pos (div_pos M.hx hn)]

theorem space_y (ox : K) (h : |ox| = c) : |spacing e.hy c Ny / ox| = e.hy / Ny := by
  have hm : (0 : K) < Ny := by exact_mod_cast M.ny
  have hc := M.c0
  rw [abs_div, h, spacing, abs_of_pos (div_pos (mul_pos hc M.hy) hm)]
  field_simp

theorem starts (ox : K) (xin : K) (hxin : (if 0 < ox then 0 else e.hx) = xin) :
    (((List.range Ny).map fun i => (startX e ox (e.hy / Ny) i, (i : Int))) ++
    ((List.range Nx).map fun i => (startY (e.hx / Nx) i, ((i + Ny : Nat) : Int)))) =
    (List.range (Nx + Ny)).map fun k => (slotPoint e Nx Ny xin 0 k, (k : Int)) := by
  rw [Nat.add_comm Nx Ny, List.range_add, List.map_append, List.map_map]
  congr 1
  · apply List.map_congr_left
    intro k hk
    have hk := List.mem_range.mp hk
    simp only [startX, hxin, slotPoint, if_pos hk, Prod.mk.injEq, and_true]
    rw [add_comm]
  · apply List.map_congr_left
    intro k _
    have hk : ¬ Ny + k < Ny := by omega
    simp only [startY, slotPoint, Function.comp, if_neg hk, Prod.mk.injEq]
    constructor
    · congr 1; push_cast; ring
    · push_cast; ring

end

theorem mapM_some {α β : Type} (f : α → Option β) (g : α → β) (l : List α) (h : ∀ a ∈ l, f a = some (g a)) :
    l.mapM f = some (l.map g) := by
  induction l with
  | nil => rfl
  | cons a l ih =>
    rw [List.mapM_cons, h a (by simp), ih (fun b hb => h b (by simp [hb]))]
    rfl

/-- **C32, octant 1.**  Every ray is traced.  In the order of the rays the entry slots are `0, 1, ..., Nx+Ny-1`, the
exit slots are those numbers in another order, each ray starts in the middle of its entry slot on the left or bottom
face and ends in the middle of its exit slot on the right or top face. -/
theorem C32_octant1 {e : Env K} {c s : K} {Nx Ny : Nat} (M : Modular e c s Nx Ny) :
    ∃ rs, layout e c s (spacing e.hy c Ny) Nx Ny = some rs ∧
      rs.map (·.bc0) = (List.range (Nx + Ny)).map (fun k : Nat => (k : Int)) ∧
      (rs.map (·.bc1)).Perm ((List.range (Nx + Ny)).map (fun k : Nat => (k : Int))) ∧
      ∀ r ∈ rs, r.p1 = slotPoint e Nx Ny 0 0 r.bc0.toNat ∧ r.p2 = slotPoint e Nx Ny e.hx e.hy r.bc1.toNat := by
  refine ⟨(List.range (Nx + Ny)).map fun k => ⟨slotPoint e Nx Ny 0 0 k,
    slotPoint e Nx Ny e.hx e.hy (exit1 Nx Ny k), k, (exit1 Nx Ny k : Nat)⟩, ?_, ?_, ?_, ?_⟩
  · simp only [layout, space_x M, space_y M c (abs_of_pos M.c0)]
    rw [starts M c 0 (if_pos M.c0)]
    rw [mapM_some (g := fun st => (⟨st.1, slotPoint e Nx Ny e.hx e.hy (exit1 Nx Ny st.2.toNat), st.2,
      (exit1 Nx Ny st.2.toNat : Nat)⟩ : Traced K)), List.map_map]
    · simp [Function.comp_def]
    · intro a ha
      obtain ⟨k, hk, rfl⟩ := List.mem_map.mp ha
      exact trace1 M k (List.mem_range.mp hk)
  · simp [Function.comp_def]
  · have := (exit1_perm Nx Ny).map (fun k : Nat => (k : Int))
    simpa [Function.comp_def] using this
  · intro r hr
    obtain ⟨k, hk, rfl⟩ := List.mem_map.mp hr
    simp

/-- **C32, octant 2.**  The same with rays entering through the right and bottom faces and leaving through the left
and top faces. -/
theorem C32_octant2 {e : Env K} {c s : K} {Nx Ny : Nat} (M : Modular e c s Nx Ny) :
    ∃ rs, layout e (-c) s (spacing e.hy c Ny) Nx Ny = some rs ∧
      rs.map (·.bc0) = (List.range (Nx + Ny)).map (fun k : Nat => (k : Int)) ∧
      (rs.map (·.bc1)).Perm ((List.range (Nx + Ny)).map (fun k : Nat => (k : Int))) ∧
      ∀ r ∈ rs, r.p1 = slotPoint e Nx Ny e.hx 0 r.bc0.toNat ∧ r.p2 = slotPoint e Nx Ny 0 e.hy r.bc1.toNat := by
  have hneg : ¬ (0 : K) < -c := by have := M.c0; linarith
  refine ⟨(List.range (Nx + Ny)).map fun k => ⟨slotPoint e Nx Ny e.hx 0 k,
    slotPoint e Nx Ny 0 e.hy (exit2 Nx Ny k), k, (exit2 Nx Ny k : Nat)⟩, ?_, ?_, ?_, ?_⟩
  · simp only [layout, space_x M, space_y M (-c) (by rw [abs_neg, abs_of_pos M.c0])]
    rw [starts M (-c) e.hx (if_neg hneg)]
    rw [mapM_some (g := fun st => (⟨st.1, slotPoint e Nx Ny 0 e.hy (exit2 Nx Ny st.2.toNat), st.2,
      (exit2 Nx Ny st.2.toNat : Nat)⟩ : Traced K)), List.map_map]
    · simp [Function.comp_def]
    · intro a ha
      obtain ⟨k, hk, rfl⟩ := List.mem_map.mp ha
      exact trace2 M k (List.mem_range.mp hk)
  · simp [Function.comp_def]
  · have := (exit2_perm Nx Ny).map (fun k : Nat => (k : Int))
    simpa [Function.comp_def] using this
  · intro r hr
    obtain ⟨k, hk, rfl⟩ := List.mem_map.mp hr
    simp

/-- The cosine and sine of the angle that the code computes (`atan(hy * Nx / (hx * Ny))`, ray_data.cpp:183) satisfy
the trigonometric part of `Modular`. -/
theorem C32_atan (hx hy : ℝ) (Nx Ny : Nat) (h1 : 0 < hx) (h2 : 0 < hy) (h3 : 0 < Nx) (h4 : 0 < Ny) :
    let a := Real.arctan (hy * Nx / (hx * Ny))
    0 < Real.cos a ∧ Real.cos a ≤ 1 ∧ 0 < Real.sin a ∧ Real.sin a ≤ 1 ∧
      Real.sin a * (hx * Ny) = Real.cos a * (hy * Nx) := by
  intro a
  have h3' : (0 : ℝ) < Nx := by exact_mod_cast h3
  have h4' : (0 : ℝ) < Ny := by exact_mod_cast h4
  have hc : 0 < Real.cos a := Real.cos_arctan_pos _
  have ht : Real.sin a / Real.cos a = hy * Nx / (hx * Ny) := by
    rw [← Real.tan_eq_sin_div_cos]; exact Real.tan_arctan _
  have hs : Real.sin a = hy * Nx / (hx * Ny) * Real.cos a := by rw [← ht]; field_simp
  refine ⟨hc, Real.cos_le_one a, ?_, Real.sin_le_one a, ?_⟩
  · rw [hs]; positivity
  · rw [hs]; field_simp

/-- A 3-4-5 angle on a 3 by 4 core with four rays through each face. -/
def exEnv : Env ℚ := { hx := 4, hy := 3, fuzz := 1 / 2 ^ 44, far := 10 ^ 12, near := fun a b => decide (|a - b| < 1 / 2 ^ 44) }

example : Modular exEnv (4 / 5) (3 / 5) 4 4 := by
  constructor <;> norm_num [exEnv]
  · intro a _ h
    rw [abs_lt] at h; linarith [h.1, h.2]
  · intro a _ h
    rw [abs_lt] at h; linarith [h.1, h.2]

example : (layout exEnv (4 / 5) (3 / 5) (spacing 3 (4 / 5) 4) 4 4).map (·.map (·.bc1)) =
    some [7, 6, 5, 4, 3, 2, 1, 0] := by decide +kernel

end Verif.Rays
