import Verif.Mc.BankModel
import Verif.Mesh.Props
import Mathlib.Analysis.SpecialFunctions.Log.Base
import Mathlib.Algebra.BigOperators.Field
import Mathlib.Algebra.BigOperators.Ring.Finset
import Mathlib.Algebra.Order.BigOperators.Group.Finset
import Mathlib.Tactic.Ring
import Mathlib.Tactic.Linarith
import Mathlib.Tactic.FieldSimp
import Mathlib.Tactic.NormNum

/-! # C43: Shannon entropy of the fission bank -/

namespace Verif.Mc

open Verif.Mesh (Dims Pos coarseCell coarsePosition)

section Locate

variable {K : Type} [LinearOrder K]

/-- The mesh lines increase strictly. -/
def Grid.Good (g : Grid K) : Prop :=
  (∀ i j, i < j → j ≤ g.nx → g.xs i < g.xs j) ∧ (∀ i j, i < j → j ≤ g.ny → g.ys i < g.ys j) ∧
  (∀ i j, i < j → j ≤ g.nz → g.zs i < g.zs j)

/-- The point is in the mesh (with its boundary). -/
def InMesh (g : Grid K) (p : Pt K) : Prop :=
  (g.xs 0 ≤ p.x ∧ p.x ≤ g.xs g.nx) ∧ (g.ys 0 ≤ p.y ∧ p.y ≤ g.ys g.ny) ∧ (g.zs 0 ≤ p.z ∧ p.z ≤ g.zs g.nz)

/-- The point is in the mesh but on none of its west, south and bottom faces. -/
def InMeshOpen (g : Grid K) (p : Pt K) : Prop :=
  (g.xs 0 < p.x ∧ p.x ≤ g.xs g.nx) ∧ (g.ys 0 < p.y ∧ p.y ≤ g.ys g.ny) ∧ (g.zs 0 < p.z ∧ p.z ≤ g.zs g.nz)

/-- The point is in the pin at `q`; points on an interface belong to the lower pin. -/
def InPin (g : Grid K) (q : Pos) (p : Pt K) : Prop :=
  (q.x < g.nx ∧ g.xs q.x < p.x ∧ p.x ≤ g.xs (q.x + 1)) ∧ (q.y < g.ny ∧ g.ys q.y < p.y ∧ p.y ≤ g.ys (q.y + 1)) ∧
  (q.z < g.nz ∧ g.zs q.z < p.z ∧ p.z ≤ g.zs (q.z + 1))

instance (g : Grid K) (q : Pos) (p : Pt K) : Decidable (InPin g q p) := by unfold InPin; infer_instance

theorem mono_of_strict (a : Nat → K) (n : Nat) (h : ∀ i j, i < j → j ≤ n → a i < a j) :
    ∀ i j, i ≤ j → j < n + 1 → a i ≤ a j := by
  intro i j hij hj
  rcases Nat.lt_or_ge i j with h' | h'
  · exact le_of_lt (h i j h' (by omega))
  · rw [Nat.le_antisymm hij h']

theorem lb_eq (a : Nat → K) (n i : Nat) (v : K) (h : ∀ i j, i < j → j ≤ n → a i < a j) (hi : i < n) (h1 : a i < v)
    (h2 : v ≤ a (i + 1)) : Util.lowerBound a (n + 1) v = i + 1 := by
  rw [Util.lowerBound_eq_iff a (n + 1) v (mono_of_strict a n h) (i + 1) (by omega)]
  exact ⟨fun j hj => lt_of_le_of_lt (mono_of_strict a n h j i (by omega) (by omega)) h1, h2⟩

theorem exists_slot (a : Nat → K) (n : Nat) (v : K) (h1 : a 0 < v) (h2 : v ≤ a n) : ∃ i, i < n ∧ a i < v ∧ v ≤ a (i + 1) := by
  induction n with
  | zero => exact absurd h1 (not_lt.mpr h2)
  | succ n ih =>
    rcases le_or_gt v (a n) with h | h
    · obtain ⟨i, hi, h3⟩ := ih h
      exact ⟨i, by omega, h3⟩
    · exact ⟨n, by omega, h, h2⟩

/-- C43: point location finds the pin containing the point. -/
theorem C43_located (g : Grid K) (hg : g.Good) (q : Pos) (p : Pt K) (h : InPin g q p) :
    coarseCellPoint g p = (coarseCell ⟨g.nx, g.ny, g.nz⟩ q : Nat) := by
  obtain ⟨⟨a1, a2, a3⟩, ⟨b1, b2, b3⟩, c1, c2, c3⟩ := h
  unfold coarseCellPoint coarseCell
  rw [lb_eq g.xs g.nx q.x p.x hg.1 a1 a2 a3, lb_eq g.ys g.ny q.y p.y hg.2.1 b1 b2 b3,
    lb_eq g.zs g.nz q.z p.z hg.2.2 c1 c2 c3]
  push_cast
  ring

theorem exists_pin (g : Grid K) (p : Pt K) (h : InMeshOpen g p) : ∃ q, InPin g q p := by
  obtain ⟨⟨a1, a2⟩, ⟨b1, b2⟩, c1, c2⟩ := h
  obtain ⟨i, hi⟩ := exists_slot g.xs g.nx p.x a1 a2
  obtain ⟨j, hj⟩ := exists_slot g.ys g.ny p.y b1 b2
  obtain ⟨k, hk⟩ := exists_slot g.zs g.nz p.z c1 c2
  exact ⟨⟨i, j, k⟩, hi, hj, hk⟩

theorem pin_lt (g : Grid K) (q : Pos) (p : Pt K) (h : InPin g q p) : coarseCell ⟨g.nx, g.ny, g.nz⟩ q < g.nPin :=
  (Verif.Mesh.C10_position_of_cell ⟨g.nx, g.ny, g.nz⟩ q.x q.y q.z h.1.1 h.2.1.1 h.2.2.1).2

theorem located_iff (g : Grid K) (hg : g.Good) (p : Pt K) (hp : InMeshOpen g p) (q : Pos) (hx : q.x < g.nx) (hy : q.y < g.ny)
    (hz : q.z < g.nz) : coarseCellPoint g p = (coarseCell ⟨g.nx, g.ny, g.nz⟩ q : Nat) ↔ InPin g q p := by
  refine ⟨fun h => ?_, C43_located g hg q p⟩
  obtain ⟨q', hq'⟩ := exists_pin g p hp
  have h' := C43_located g hg q' p hq'
  rw [h] at h'
  have e : coarseCell ⟨g.nx, g.ny, g.nz⟩ q = coarseCell ⟨g.nx, g.ny, g.nz⟩ q' := by exact_mod_cast h'
  have p1 := (Verif.Mesh.C10_position_of_cell ⟨g.nx, g.ny, g.nz⟩ q.x q.y q.z hx hy hz).1
  have p2 := (Verif.Mesh.C10_position_of_cell ⟨g.nx, g.ny, g.nz⟩ q'.x q'.y q'.z hq'.1.1 hq'.2.1.1 hq'.2.2.1).1
  have : q = q' := by
    have e1 : (⟨q.x, q.y, q.z⟩ : Pos) = q := rfl
    have e2 : (⟨q'.x, q'.y, q'.z⟩ : Pos) = q' := rfl
    rw [e1] at p1
    rw [e2] at p2
    rw [← p1, ← p2, e]
  rw [this]; exact hq'

variable {F : Type} [AddCommMonoid F]

theorem populate_ok (g : Grid K) (sites : List (Pt K × F)) (pop : Nat → F)
    (h : ∀ s ∈ sites, 0 ≤ coarseCellPoint g s.1 ∧ coarseCellPoint g s.1 < g.nPin) :
    populate g pop sites = .ok (fun i => pop i +
      ((sites.filter (fun s => decide (coarseCellPoint g s.1 = (i : Int)))).map Prod.snd).sum) := by
  induction sites generalizing pop with
  | nil => simp [populate]
  | cons s rest ih =>
    obtain ⟨p, w⟩ := s
    have hs := h (p, w) (by simp)
    simp only at hs
    simp only [populate]
    rw [if_neg (by omega), if_neg (by omega), ih _ (fun s hs' => h s (List.mem_cons_of_mem _ hs'))]
    congr 1
    funext i
    simp only [List.filter_cons]
    by_cases hi : (i : Int) = coarseCellPoint g p
    · rw [if_pos hi]
      simp only [← hi, decide_true, if_true, List.map_cons, List.sum_cons]
      rw [add_assoc]
    · rw [if_neg hi]
      have : ¬ coarseCellPoint g p = (i : Int) := fun h => hi h.symm
      simp [this]

end Locate

/-! ## the bounds -/

theorem mul_log_ge (x : ℝ) (hx : 0 ≤ x) : x - 1 ≤ x * Real.log x ∧ (x * Real.log x = x - 1 → x = 1) := by
  rcases eq_or_lt_of_le hx with h | h
  · rw [← h]; constructor
    · simp
    · intro h; norm_num at h
  · have hinv : 0 < x⁻¹ := inv_pos.mpr h
    have hxx : x * x⁻¹ = 1 := mul_inv_cancel₀ (ne_of_gt h)
    constructor
    · have := mul_le_mul_of_nonneg_left (Real.log_le_sub_one_of_pos hinv) hx
      rw [Real.log_inv, mul_sub, hxx] at this
      linarith
    · intro he
      by_contra hne
      have hne' : x⁻¹ ≠ 1 := fun h' => hne (inv_eq_one.mp h')
      have := mul_lt_mul_of_pos_left (Real.log_lt_sub_one_of_pos hinv hne') h
      rw [Real.log_inv, mul_sub, hxx] at this
      linarith

theorem foldl_entropy (n : Nat) (p : Nat → ℝ) (hp : ∀ i, 0 ≤ p i) :
    (List.range n).foldl (fun h i => if p i > 0 then h - p i * Real.logb 2 (p i) else h) 0 =
      - ∑ i ∈ Finset.range n, p i * Real.logb 2 (p i) := by
  induction n with
  | zero => simp
  | succ n ih =>
    rw [List.range_succ, List.foldl_append, ih, Finset.sum_range_succ]
    simp only [List.foldl_cons, List.foldl_nil]
    rcases eq_or_lt_of_le (hp n) with h | h
    · rw [← h]; simp
    · rw [if_pos h]; ring

theorem entropy_upper (n : Nat) (hn : 0 < n) (p : Nat → ℝ) (hp : ∀ i, 0 ≤ p i) (hs : ∑ i ∈ Finset.range n, p i = 1) :
    (- ∑ i ∈ Finset.range n, p i * Real.logb 2 (p i) ≤ Real.logb 2 n) ∧
    (- ∑ i ∈ Finset.range n, p i * Real.logb 2 (p i) = Real.logb 2 n ↔ ∀ i < n, p i = 1 / n) := by
  have hl2 : 0 < Real.log 2 := Real.log_pos (by norm_num)
  have hn' : (0 : ℝ) < n := by exact_mod_cast hn
  have term : ∀ i, p i * (Real.log (p i) + Real.log n) = (1 / n) * ((n * p i) * Real.log (n * p i)) := by
    intro i
    rcases eq_or_lt_of_le (hp i) with h | h
    · rw [← h]; simp
    · rw [Real.log_mul (ne_of_gt hn') (ne_of_gt h)]; field_simp; ring
  -- gap = log n − H log 2, written as a sum of non-negative terms
  have gap : Real.log n - (- ∑ i ∈ Finset.range n, p i * Real.logb 2 (p i)) * Real.log 2 =
      ∑ i ∈ Finset.range n, (p i * (Real.log (p i) + Real.log n) - (p i - 1 / n)) := by
    have e1 : ∑ i ∈ Finset.range n, (p i - 1 / (n : ℝ)) = 0 := by
      rw [Finset.sum_sub_distrib, hs, Finset.sum_const, Finset.card_range, nsmul_eq_mul]
      field_simp
      norm_num
    have e2 : (∑ i ∈ Finset.range n, p i * Real.logb 2 (p i)) * Real.log 2 =
        ∑ i ∈ Finset.range n, p i * Real.log (p i) := by
      rw [Finset.sum_mul]
      refine Finset.sum_congr rfl fun i _ => ?_
      rw [Real.logb]; field_simp
    rw [Finset.sum_sub_distrib, e1, sub_zero]
    have e3 : ∑ i ∈ Finset.range n, p i * (Real.log (p i) + Real.log n) =
        ∑ i ∈ Finset.range n, p i * Real.log (p i) + Real.log n := by
      have : ∀ i, p i * (Real.log (p i) + Real.log n) = p i * Real.log (p i) + p i * Real.log n := fun i => by ring
      simp only [this]
      rw [Finset.sum_add_distrib, ← Finset.sum_mul, hs, one_mul]
    rw [e3, ← e2]; ring
  have nonneg : ∀ i ∈ Finset.range n, 0 ≤ p i * (Real.log (p i) + Real.log n) - (p i - 1 / n) := by
    intro i _
    rw [term i]
    have h1 := (mul_log_ge (n * p i) (mul_nonneg hn'.le (hp i))).1
    have h2 := mul_le_mul_of_nonneg_left h1 (by positivity : (0 : ℝ) ≤ 1 / n)
    have h3 : 1 / (n : ℝ) * (n * p i - 1) = p i - 1 / n := by field_simp
    linarith
  have logb_n : Real.logb 2 n = Real.log n / Real.log 2 := rfl
  constructor
  · have := Finset.sum_nonneg nonneg
    rw [← gap] at this
    rw [logb_n, le_div_iff₀ hl2]
    linarith
  · constructor
    · intro he i hi
      have hz : ∑ i ∈ Finset.range n, (p i * (Real.log (p i) + Real.log n) - (p i - 1 / n)) = 0 := by
        rw [← gap, he, logb_n]; field_simp; ring
      have := (Finset.sum_eq_zero_iff_of_nonneg nonneg).mp hz i (Finset.mem_range.mpr hi)
      rw [term i] at this
      have h2 : (n * p i) * Real.log (n * p i) = n * p i - 1 := by
        have h3 : 1 / (n : ℝ) * (n * p i - 1) = p i - 1 / n := by field_simp
        have h4 : 1 / (n : ℝ) * ((n * p i) * Real.log (n * p i)) = 1 / (n : ℝ) * (n * p i - 1) := by linarith
        exact mul_left_cancel₀ (by positivity) h4
      have := (mul_log_ge _ (mul_nonneg hn'.le (hp i))).2 h2
      field_simp
      linarith
    · intro h
      have : ∀ i ∈ Finset.range n, p i * Real.logb 2 (p i) = (1 / n) * (- Real.logb 2 n) := by
        intro i hi
        rw [h i (Finset.mem_range.mp hi), one_div, Real.logb_inv]
      rw [Finset.sum_congr rfl this, Finset.sum_const, Finset.card_range, nsmul_eq_mul]
      field_simp

theorem entropy_lower (n : Nat) (p : Nat → ℝ) (hp : ∀ i, 0 ≤ p i) (hs : ∑ i ∈ Finset.range n, p i = 1) :
    (0 ≤ - ∑ i ∈ Finset.range n, p i * Real.logb 2 (p i)) ∧
    (- ∑ i ∈ Finset.range n, p i * Real.logb 2 (p i) = 0 ↔ ∃ i < n, p i = 1) := by
  have hl2 : 0 < Real.log 2 := Real.log_pos (by norm_num)
  have le1 : ∀ i, i < n → p i ≤ 1 := by
    intro i hi
    rw [← hs]
    exact Finset.single_le_sum (fun j _ => hp j) (Finset.mem_range.mpr hi)
  have nonneg : ∀ i ∈ Finset.range n, 0 ≤ - (p i * Real.logb 2 (p i)) := by
    intro i hi
    have h1 : Real.logb 2 (p i) ≤ 0 := by
      rw [Real.logb]
      exact div_nonpos_of_nonpos_of_nonneg (Real.log_nonpos (hp i) (le1 i (Finset.mem_range.mp hi))) hl2.le
    have := mul_nonneg (hp i) (neg_nonneg.mpr h1)
    linarith
  rw [← Finset.sum_neg_distrib]
  refine ⟨Finset.sum_nonneg nonneg, ?_⟩
  rw [Finset.sum_eq_zero_iff_of_nonneg nonneg]
  constructor
  · intro h
    by_contra hc
    have hc : ∀ i, i < n → p i ≠ 1 := fun i hi h1 => hc ⟨i, hi, h1⟩
    have : ∀ i ∈ Finset.range n, p i = 0 := by
      intro i hi
      have h0 := h i hi
      have h1 := hc i (Finset.mem_range.mp hi)
      have h2 := le1 i (Finset.mem_range.mp hi)
      rcases mul_eq_zero.mp (neg_eq_zero.mp h0) with h' | h'
      · exact h'
      · rw [Real.logb, div_eq_zero_iff] at h'
        rcases h' with h' | h'
        · rcases Real.log_eq_zero.mp h' with h3 | h3 | h3
          · exact h3
          · exact absurd h3 h1
          · have := hp i; linarith
        · exact absurd h' (ne_of_gt hl2)
    rw [Finset.sum_eq_zero this] at hs
    norm_num at hs
  · rintro ⟨i, hi, h1⟩ j hj
    by_cases hij : j = i
    · rw [hij, h1]; simp
    · have : p j = 0 := by
        have hsub : p i + p j ≤ ∑ k ∈ Finset.range n, p k := by
          rw [← Finset.add_sum_erase _ _ (Finset.mem_range.mpr hi)]
          have := Finset.single_le_sum (f := p) (s := (Finset.range n).erase i) (fun k _ => hp k)
            (Finset.mem_erase.mpr ⟨hij, hj⟩)
          linarith
        have := hp j
        rw [hs, h1] at hsub
        linarith
      rw [this]; simp

/-! ## C43 -/

section C43

variable {K : Type} [LinearOrder K]

/-- Number of sites in the pin at `q`. -/
def sitesIn (g : Grid K) (sites : List (Pt K × ℝ)) (q : Pos) : Nat := (sites.filter (fun s => decide (InPin g q s.1))).length

theorem sum_counts {α : Type} (n : Nat) (c : α → Int) (l : List α) (h : ∀ s ∈ l, 0 ≤ c s ∧ c s < n) :
    ∑ i ∈ Finset.range n, ((l.filter (fun s => decide (c s = (i : Int)))).length : ℝ) = l.length := by
  induction l with
  | nil => simp
  | cons a l ih =>
    have ha := h a (by simp)
    obtain ⟨k, hk⟩ := Int.eq_ofNat_of_zero_le ha.1
    have hkn : k < n := by omega
    have : ∀ i ∈ Finset.range n, (((a :: l).filter (fun s => decide (c s = (i : Int)))).length : ℝ) =
        (if i = k then 1 else 0) + ((l.filter (fun s => decide (c s = (i : Int)))).length : ℝ) := by
      intro i _
      rw [List.filter_cons]
      by_cases hik : i = k
      · simp only [hik, hk, decide_true, if_true, List.length_cons]; push_cast; ring
      · have : ¬ (c a = (i : Int)) := by omega
        simp [this, hik]
    rw [Finset.sum_congr rfl this, Finset.sum_add_distrib, ih (fun s hs => h s (List.mem_cons_of_mem _ hs)),
      Finset.sum_ite_eq' (Finset.range n) k, if_pos (Finset.mem_range.mpr hkn), List.length_cons]
    push_cast; ring

theorem entropy_value (g : Grid K) (hg : g.Good) (sites : List (Pt K × ℝ)) (hne : sites ≠ [])
    (hin : ∀ s ∈ sites, InMeshOpen g s.1) (hw : ∀ s ∈ sites, s.2 = 1) :
    ∃ p : Nat → ℝ, (∀ i, 0 ≤ p i) ∧ ∑ i ∈ Finset.range g.nPin, p i = 1 ∧
      (∀ q : Pos, q.x < g.nx → q.y < g.ny → q.z < g.nz →
        p (coarseCell ⟨g.nx, g.ny, g.nz⟩ q) = sitesIn g sites q / sites.length) ∧
      shannonEntropy (Real.logb 2) g sites = .ok (- ∑ i ∈ Finset.range g.nPin, p i * Real.logb 2 (p i)) := by
  have hcell : ∀ s ∈ sites, 0 ≤ coarseCellPoint g s.1 ∧ coarseCellPoint g s.1 < (g.nPin : Int) := by
    intro s hs
    obtain ⟨q, hq⟩ := exists_pin g s.1 (hin s hs)
    rw [C43_located g hg q s.1 hq]
    have := pin_lt g q s.1 hq
    omega
  have hlen : (0 : ℝ) < sites.length := by
    have := List.length_pos_iff.mpr hne
    exact_mod_cast this
  obtain ⟨cnt, hcnt⟩ : ∃ cnt : Nat → ℝ, ∀ i : Nat,
      cnt i = ((sites.filter (fun s => decide (coarseCellPoint g s.1 = (i : Int)))).length : ℝ) := ⟨_, fun _ => rfl⟩
  have hc0 : ∀ i, 0 ≤ cnt i := fun i => by rw [hcnt]; positivity
  have hpop : ∀ i : Nat, ((sites.filter (fun s => decide (coarseCellPoint g s.1 = (i : Int)))).map Prod.snd).sum = cnt i := by
    intro i
    have : (sites.filter (fun s => decide (coarseCellPoint g s.1 = (i : Int)))).map Prod.snd =
        List.replicate (sites.filter (fun s => decide (coarseCellPoint g s.1 = (i : Int)))).length (1 : ℝ) := by
      rw [List.eq_replicate_iff]
      refine ⟨by simp, ?_⟩
      intro b hb
      obtain ⟨s, hs, rfl⟩ := List.mem_map.mp hb
      exact hw s (List.mem_of_mem_filter hs)
    rw [this, List.sum_replicate, nsmul_eq_mul, mul_one, hcnt]
  refine ⟨fun i => cnt i / sites.length, fun i => div_nonneg (hc0 i) hlen.le, ?_, ?_, ?_⟩
  · have h1 : ∑ i ∈ Finset.range g.nPin, cnt i = sites.length := by
      have h2 := sum_counts g.nPin (fun s : Pt K × ℝ => coarseCellPoint g s.1) sites hcell
      rw [← h2]
      exact Finset.sum_congr rfl fun i _ => hcnt i
    rw [← Finset.sum_div, h1]
    exact div_self (ne_of_gt hlen)
  · intro q hx hy hz
    change cnt _ / _ = _
    rw [hcnt]
    unfold sitesIn
    congr 3
    refine List.filter_congr fun s hs => ?_
    rw [decide_eq_decide]
    exact located_iff g hg s.1 (hin s hs) q hx hy hz
  · unfold shannonEntropy
    rw [populate_ok g sites _ hcell]
    have e : (fun i : Nat => (0 : ℝ) +
        ((sites.filter (fun s => decide (coarseCellPoint g s.1 = (i : Int)))).map Prod.snd).sum) = cnt :=
      funext fun i => by rw [zero_add, hpop i]
    rw [e]
    have := foldl_entropy g.nPin (fun i => cnt i / sites.length) (fun i => div_nonneg (hc0 i) hlen.le)
    exact congrArg Out.ok this

theorem nPin_pos (g : Grid K) (sites : List (Pt K × ℝ)) (hne : sites ≠ []) (hin : ∀ s ∈ sites, InMeshOpen g s.1) :
    0 < g.nPin := by
  obtain ⟨s, hs⟩ := List.exists_mem_of_ne_nil sites hne
  obtain ⟨q, hq⟩ := exists_pin g s.1 (hin s hs)
  exact lt_of_le_of_lt (Nat.zero_le _) (pin_lt g q s.1 hq)

/-- C43: for a non-empty bank whose sites lie in the mesh and not on its west, south or bottom face (sites have weight
one, particle.hpp:62), the computation completes without touching memory outside the pin array and the entropy is
between 0 and the base-2 logarithm of the number of pins. What is missing from the full claim: sites on the three faces. -/
theorem C43_bounds_partial (g : Grid K) (hg : g.Good) (sites : List (Pt K × ℝ)) (hne : sites ≠ [])
    (hin : ∀ s ∈ sites, InMeshOpen g s.1) (hw : ∀ s ∈ sites, s.2 = 1) :
    ∃ h, shannonEntropy (Real.logb 2) g sites = .ok h ∧ 0 ≤ h ∧ h ≤ Real.logb 2 (g.nx * g.ny * g.nz) := by
  obtain ⟨p, hp, hs, -, he⟩ := entropy_value g hg sites hne hin hw
  refine ⟨_, he, (entropy_lower _ p hp hs).1, ?_⟩
  have := (entropy_upper _ (nPin_pos g sites hne hin) p hp hs).1
  have e : ((g.nPin : Nat) : ℝ) = (g.nx : ℝ) * g.ny * g.nz := by unfold Grid.nPin; push_cast; ring
  rwa [e] at this

/-- C43: the value is the base-2 Shannon entropy of the distribution of the sites over the pins, `-Σ p log2 p` with `p`
the fraction of the sites that lie in the pin (and `0 log2 0 = 0`). -/
theorem C43_value (g : Grid K) (hg : g.Good) (sites : List (Pt K × ℝ)) (hne : sites ≠ [])
    (hin : ∀ s ∈ sites, InMeshOpen g s.1) (hw : ∀ s ∈ sites, s.2 = 1) :
    shannonEntropy (Real.logb 2) g sites = .ok (- ∑ c ∈ Finset.range (g.nx * g.ny * g.nz),
      (sitesIn g sites ⟨c % g.nx, c % (g.nx * g.ny) / g.nx, c / (g.nx * g.ny)⟩ / sites.length : ℝ) *
        Real.logb 2 (sitesIn g sites ⟨c % g.nx, c % (g.nx * g.ny) / g.nx, c / (g.nx * g.ny)⟩ / sites.length)) := by
  obtain ⟨p, -, -, hq, he⟩ := entropy_value g hg sites hne hin hw
  rw [he]
  refine congrArg (fun x => Out.ok (-x)) (Finset.sum_congr rfl fun c hc => ?_)
  have hc' : c < g.nx * g.ny * g.nz := Finset.mem_range.mp hc
  obtain ⟨ec, hx, hy, hz⟩ := Verif.Mesh.C10_cell_of_position ⟨g.nx, g.ny, g.nz⟩ c hc'
  have h1 := hq _ hx hy hz
  rw [ec] at h1
  have h2 : p c = (sitesIn g sites ⟨c % g.nx, c % (g.nx * g.ny) / g.nx, c / (g.nx * g.ny)⟩ : ℝ) / sites.length := by
    rw [h1]
    rfl
  rw [h2]

theorem sitesIn_eq_length (g : Grid K) (sites : List (Pt K × ℝ)) (q : Pos) :
    sitesIn g sites q = sites.length ↔ ∀ s ∈ sites, InPin g q s.1 := by
  unfold sitesIn
  rw [List.length_filter_eq_length_iff]
  simp

/-- C43: it is zero exactly when all sites are in one pin. -/
theorem C43_zero_iff (g : Grid K) (hg : g.Good) (sites : List (Pt K × ℝ)) (hne : sites ≠ [])
    (hin : ∀ s ∈ sites, InMeshOpen g s.1) (hw : ∀ s ∈ sites, s.2 = 1) :
    shannonEntropy (Real.logb 2) g sites = .ok 0 ↔ ∃ q, ∀ s ∈ sites, InPin g q s.1 := by
  obtain ⟨p, hp, hs, hq, he⟩ := entropy_value g hg sites hne hin hw
  have hlen : (0 : ℝ) < sites.length := by
    have := List.length_pos_iff.mpr hne
    exact_mod_cast this
  rw [he, Out.ok.injEq, (entropy_lower _ p hp hs).2]
  constructor
  · rintro ⟨c, hc, h1⟩
    obtain ⟨e, hx, hy, hz⟩ := Verif.Mesh.C10_cell_of_position ⟨g.nx, g.ny, g.nz⟩ c hc
    have := hq (coarsePosition ⟨g.nx, g.ny, g.nz⟩ c) hx hy hz
    rw [e, h1, eq_div_iff (ne_of_gt hlen), one_mul] at this
    refine ⟨coarsePosition ⟨g.nx, g.ny, g.nz⟩ c, (sitesIn_eq_length g sites _).mp ?_⟩
    exact_mod_cast this.symm
  · rintro ⟨q, h⟩
    obtain ⟨s, hs'⟩ := List.exists_mem_of_ne_nil sites hne
    have hin' := h s hs'
    refine ⟨_, pin_lt g q s.1 hin', ?_⟩
    rw [hq q hin'.1.1 hin'.2.1.1 hin'.2.2.1, (sitesIn_eq_length g sites q).mpr h]
    exact div_self (ne_of_gt hlen)

/-- C43: it attains the logarithm of the number of pins exactly when all pins hold equally many sites. -/
theorem C43_max_iff (g : Grid K) (hg : g.Good) (sites : List (Pt K × ℝ)) (hne : sites ≠ [])
    (hin : ∀ s ∈ sites, InMeshOpen g s.1) (hw : ∀ s ∈ sites, s.2 = 1) :
    shannonEntropy (Real.logb 2) g sites = .ok (Real.logb 2 (g.nx * g.ny * g.nz)) ↔
      ∀ q : Pos, q.x < g.nx → q.y < g.ny → q.z < g.nz → sitesIn g sites q * (g.nx * g.ny * g.nz) = sites.length := by
  obtain ⟨p, hp, hs, hq, he⟩ := entropy_value g hg sites hne hin hw
  have hlen : (0 : ℝ) < sites.length := by
    have := List.length_pos_iff.mpr hne
    exact_mod_cast this
  have hn := nPin_pos g sites hne hin
  have hn' : (0 : ℝ) < (g.nPin : ℝ) := by exact_mod_cast hn
  have e : ((g.nPin : Nat) : ℝ) = (g.nx : ℝ) * g.ny * g.nz := by unfold Grid.nPin; push_cast; ring
  rw [he, Out.ok.injEq, ← e, (entropy_upper _ hn p hp hs).2]
  constructor
  · intro h q hx hy hz
    have h1 := h _ (Verif.Mesh.C10_position_of_cell ⟨g.nx, g.ny, g.nz⟩ q.x q.y q.z hx hy hz).2
    have h2 := hq q hx hy hz
    have h3 : (sitesIn g sites q : ℝ) / sites.length = 1 / g.nPin := h2.symm.trans h1
    rw [div_eq_div_iff (ne_of_gt hlen) (ne_of_gt hn'), one_mul] at h3
    have h4 : sitesIn g sites q * g.nPin = sites.length := by exact_mod_cast h3
    exact h4
  · intro h c hc
    obtain ⟨ec, hx, hy, hz⟩ := Verif.Mesh.C10_cell_of_position ⟨g.nx, g.ny, g.nz⟩ c hc
    have h1 := hq _ hx hy hz
    rw [ec] at h1
    rw [h1, div_eq_div_iff (ne_of_gt hlen) (ne_of_gt hn'), one_mul]
    have h2 := h _ hx hy hz
    have h3 : sitesIn g sites (coarsePosition ⟨g.nx, g.ny, g.nz⟩ c) * g.nPin = sites.length := h2
    exact_mod_cast h3

end C43

/-- The full claim, with sites anywhere in the mesh. -/
def C43_claim : Prop := ∀ (g : Grid ℝ), g.Good → ∀ (sites : List (Pt ℝ × ℝ)), sites ≠ [] →
  (∀ s ∈ sites, InMesh g s.1) → (∀ s ∈ sites, s.2 = 1) →
  ∃ h, shannonEntropy (Real.logb 2) g sites = .ok h ∧ 0 ≤ h ∧ h ≤ Real.logb 2 (g.nx * g.ny * g.nz)

/-- C43: one site on the west face of a one-pin core is not located and an exception is thrown. -/
theorem C43_claim_false : ¬ C43_claim := by
  intro h
  obtain ⟨h', he, -⟩ := h ⟨1, 1, 1, fun i => i, fun i => i, fun i => i⟩
    ⟨fun i j hij _ => Nat.cast_lt.mpr hij, fun i j hij _ => Nat.cast_lt.mpr hij, fun i j hij _ => Nat.cast_lt.mpr hij⟩
    [(⟨0, 1, 1⟩, 1)] (by simp) (by intro s hs; simp only [List.mem_singleton] at hs; subst hs; simp [InMesh])
    (by intro s hs; simp only [List.mem_singleton] at hs; subst hs; rfl)
  have hb : ∀ v : ℝ, 0 < v → v ≤ 1 → Util.lowerBound (fun i : Nat => (i : ℝ)) 2 v = 1 := by
    intro v h0 h1
    exact lb_eq (fun i : Nat => (i : ℝ)) 1 0 v (fun i j hij _ => by exact_mod_cast hij) (by norm_num) (by simpa using h0)
      (by simpa using h1)
  have hb0 : Util.lowerBound (fun i : Nat => (i : ℝ)) 2 0 = 0 := by
    rw [Util.lowerBound_eq_iff _ 2 (0 : ℝ)
      (mono_of_strict _ 1 (fun i j hij _ => by exact_mod_cast hij)) 0 (by norm_num)]
    exact ⟨fun i hi => by omega, by simp⟩
  simp only [shannonEntropy, populate, coarseCellPoint, Nat.reduceAdd, hb0, hb 1 one_pos le_rfl] at he
  norm_num at he
  exact absurd he (by simp)

/-- C43: the bounds test admits the index one past the last pin: a site just above the first pin of the top plane writes
outside the array instead of being reported. -/
theorem C43_guard_out_of_bounds (w : ℝ) :
    shannonEntropy (Real.logb 2) ⟨1, 1, 1, fun i => (i : ℝ), fun i => (i : ℝ), fun i => (i : ℝ)⟩ [(⟨1, 1, 2⟩, w)] = .ub := by
  have hb : ∀ v : ℝ, 0 < v → v ≤ 1 → Util.lowerBound (fun i : Nat => (i : ℝ)) 2 v = 1 := by
    intro v h0 h1
    exact lb_eq (fun i : Nat => (i : ℝ)) 1 0 v (fun i j hij _ => by exact_mod_cast hij) (by norm_num) (by simpa using h0)
      (by simpa using h1)
  have hb2 : Util.lowerBound (fun i : Nat => (i : ℝ)) 2 2 = 2 := by
    obtain ⟨h1, h2, h3⟩ := Util.lowerBound_spec (fun i : Nat => (i : ℝ)) 2 2
      (mono_of_strict _ 1 (fun i j hij _ => by exact_mod_cast hij))
    rcases Nat.lt_or_ge (Util.lowerBound (fun i : Nat => (i : ℝ)) 2 2) 2 with h | h
    · have := h3 _ (Nat.le_refl _) h
      have h4 : (Util.lowerBound (fun i : Nat => (i : ℝ)) 2 2 : ℝ) < 2 := by exact_mod_cast h
      exact absurd this (not_le.mpr h4)
    · omega
  simp only [shannonEntropy, populate, coarseCellPoint, Nat.reduceAdd, hb2, hb 1 one_pos le_rfl, Grid.nPin]
  norm_num

/-- The hypotheses are satisfiable: two pins, one site in each. -/
example : ∃ (g : Grid ℝ) (sites : List (Pt ℝ × ℝ)), g.Good ∧ sites.length = 2 ∧ g.nPin = 2 ∧
    (∀ s ∈ sites, InMeshOpen g s.1) ∧ (∀ s ∈ sites, s.2 = 1) := by
  refine ⟨⟨2, 1, 1, fun i => i, fun i => i, fun i => i⟩, [(⟨1 / 2, 1, 1⟩, 1), (⟨3 / 2, 1, 1⟩, 1)],
    ⟨fun i j hij _ => Nat.cast_lt.mpr hij, fun i j hij _ => Nat.cast_lt.mpr hij, fun i j hij _ => Nat.cast_lt.mpr hij⟩,
    rfl, rfl, ?_, ?_⟩
  · intro s hs
    simp only [List.mem_cons, List.not_mem_nil, or_false] at hs
    rcases hs with rfl | rfl <;> simp [InMeshOpen] <;> norm_num
  · intro s hs
    simp only [List.mem_cons, List.not_mem_nil, or_false] at hs
    rcases hs with rfl | rfl <;> rfl

end Verif.Mc
