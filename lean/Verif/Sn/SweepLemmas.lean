import Verif.Sn.SweepModel
import Verif.Mesh.Lemmas

/-! # The sweep as a sequence of cell steps -/

namespace Verif.Sn

open Verif.Mesh (Dims coarseCell mul_add_inj)

variable {K : Type} [Add K] [Mul K]

/-- What is known after the first `n` of a sequence of cell steps. -/
structure Inv {κ : Type} (wgt : K) (w : Nat → κ → Nat) (idx : Nat → Nat) (ev : Nat → (κ → K) → K × (κ → K))
    (s0 : State κ K) (n : Nat) (s : State κ K) : Prop where
  out_eq : ∀ t, t < n → ∃ inp : κ → K, s.out (idx t) = ev t inp ∧ ∀ k,
    ((∀ p, p < t → w p k ≠ w t k) → inp k = s0.flux k (w t k)) ∧
    (∀ p, p < t → w p k = w t k → (∀ q, p < q → q < t → w q k ≠ w t k) → inp k = (s.out (idx p)).2 k)
  flux_old : ∀ k j, (∀ p, p < n → w p k ≠ j) → s.flux k j = s0.flux k j
  flux_new : ∀ k j p, p < n → w p k = j → (∀ q, p < q → q < n → w q k ≠ j) → s.flux k j = (s.out (idx p)).2 k
  tflux_new : ∀ t, t < n → s.tflux (idx t) = s0.tflux (idx t) + (s.out (idx t)).1 * wgt
  rest : ∀ j, (∀ t, t < n → idx t ≠ j) → s.tflux j = s0.tflux j ∧ s.out j = s0.out j

theorem inv_step {κ : Type} (wgt : K) (w : Nat → κ → Nat) (idx : Nat → Nat) (ev : Nat → (κ → K) → K × (κ → K))
    (s0 : State κ K) (n : Nat) (s : State κ K) (h : Inv wgt w idx ev s0 n s) (hi : ∀ t, t < n → idx t ≠ idx n) :
    Inv wgt w idx ev s0 (n + 1) (cellStep wgt (w n) (idx n) (ev n) s) := by
  have hout : ∀ t, t < n → (cellStep wgt (w n) (idx n) (ev n) s).out (idx t) = s.out (idx t) := by
    intro t ht
    simp [cellStep, hi t ht]
  have houtn : (cellStep wgt (w n) (idx n) (ev n) s).out (idx n) = ev n (fun k => s.flux k (w n k)) := by
    simp [cellStep]
  refine ⟨?_, ?_, ?_, ?_, ?_⟩
  · intro t ht
    by_cases htn : t < n
    · obtain ⟨inp, h1, h2⟩ := h.out_eq t htn
      refine ⟨inp, by rw [hout t htn]; exact h1, fun k => ⟨(h2 k).1, fun p hp hw hq => ?_⟩⟩
      rw [hout p (by omega)]
      exact (h2 k).2 p hp hw hq
    · have : t = n := by omega
      subst this
      refine ⟨fun k => s.flux k (w t k), houtn, fun k => ⟨fun hp => h.flux_old k _ hp, fun p hp hw hq => ?_⟩⟩
      rw [hout p hp]
      exact h.flux_new k _ p hp hw hq
  · intro k j hp
    have : j ≠ w n k := fun e => hp n (by omega) e.symm
    have h1 : (cellStep wgt (w n) (idx n) (ev n) s).flux k j = s.flux k j := by simp [cellStep, this]
    rw [h1]
    exact h.flux_old k j (fun p hpn => hp p (by omega))
  · intro k j p hp hw hq
    by_cases hj : j = w n k
    · have hpn : p = n := by
        by_contra hne
        exact hq n (by omega) (by omega) hj.symm
      subst hpn
      rw [houtn]
      simp [cellStep, hj]
    · have hpn : p < n := by
        rcases Nat.lt_succ_iff_lt_or_eq.mp hp with h' | h'
        · exact h'
        · subst h'; exact absurd hw.symm hj
      rw [hout p hpn]
      have h1 : (cellStep wgt (w n) (idx n) (ev n) s).flux k j = s.flux k j := by simp [cellStep, hj]
      rw [h1]
      exact h.flux_new k j p hpn hw (fun q h1 h2 => hq q h1 (by omega))
  · intro t ht
    by_cases htn : t < n
    · rw [hout t htn]
      have h1 : (cellStep wgt (w n) (idx n) (ev n) s).tflux (idx t) = s.tflux (idx t) := by simp [cellStep, hi t htn]
      rw [h1]
      exact h.tflux_new t htn
    · have : t = n := by omega
      subst this
      rw [houtn]
      simp only [cellStep, if_true]
      rw [(h.rest _ hi).1]
  · intro j hj
    have hne : j ≠ idx n := fun e => hj n (by omega) e.symm
    obtain ⟨h1, h2⟩ := h.rest j (fun t ht => hj t (by omega))
    simp [cellStep, hne, h1, h2]

theorem inv_run {κ : Type} (wgt : K) (w : Nat → κ → Nat) (idx : Nat → Nat) (ev : Nat → (κ → K) → K × (κ → K))
    (s0 : State κ K) (n : Nat) (hi : ∀ t u, t < u → u < n → idx t ≠ idx u) :
    Inv wgt w idx ev s0 n ((List.range n).foldl (fun s t => cellStep wgt (w t) (idx t) (ev t) s) s0) := by
  induction n with
  | zero => exact ⟨by intros; omega, fun _ _ _ => rfl, by intros; omega, by intros; omega, fun _ _ => ⟨rfl, rfl⟩⟩
  | succ n ih =>
    rw [List.range_succ, List.foldl_append]
    exact inv_step wgt w idx ev s0 n _ (ih (fun t u h1 h2 => hi t u h1 (by omega))) (fun t ht => hi t n ht (by omega))

/-- Two nested counting loops are one. -/
theorem fold_nest {σ : Type} (n m : Nat) (h : σ → Nat → Nat → σ) (s : σ) :
    (List.range m).foldl (fun s c => (List.range n).foldl (fun s t => h s t c) s) s =
      (List.range (n * m)).foldl (fun s t => h s (t % n) (t / n)) s := by
  induction m generalizing s with
  | zero => simp
  | succ m ih =>
    rw [List.range_succ, List.foldl_append, ih, Nat.mul_succ, List.range_add, List.foldl_append, List.foldl_cons,
      List.foldl_nil, List.foldl_map]
    generalize (List.range (n * m)).foldl _ s = s1
    have hcong : ∀ (l : List Nat) (s1 : σ), (∀ t ∈ l, t < n) → l.foldl (fun s t => h s t m) s1 =
        l.foldl (fun s t => h s ((n * m + t) % n) ((n * m + t) / n)) s1 := by
      intro l
      induction l with
      | nil => intros; rfl
      | cons a l ih =>
        intro s1 hl
        have ha : a < n := hl a (by simp)
        rw [List.foldl_cons, List.foldl_cons, ih _ (fun t ht => hl t (by simp [ht]))]
        rw [Nat.mul_add_mod, Nat.mod_eq_of_lt ha, Nat.mul_add_div (by omega), Nat.div_eq_of_lt ha, Nat.add_zero]
    exact hcong _ _ (fun t ht => List.mem_range.mp ht)

/-- Mesh index of the `a`-th index of a loop. -/
def place (n : Nat) (neg : Bool) (a : Nat) : Nat := if neg then n - 1 - a else a

theorem range_reverse (n : Nat) : (List.range n).reverse = (List.range n).map (fun a => n - 1 - a) := by
  apply List.ext_getElem
  · simp
  · intro i h1 h2
    simp

theorem order_eq (n : Nat) (neg : Bool) : order n neg = (List.range n).map (place n neg) := by
  cases neg
  · have : place n false = id := rfl
    simp [order, this]
  · simp only [order, if_true, range_reverse]
    rfl

theorem place_lt {n : Nat} (neg : Bool) {a : Nat} (h : a < n) : place n neg a < n := by
  unfold place; split <;> omega

theorem place_place {n : Nat} (neg : Bool) {a : Nat} (h : a < n) : place n neg (place n neg a) = a := by
  unfold place; split <;> omega

theorem place_inj {n : Nat} (neg : Bool) {a b : Nat} (ha : a < n) (hb : b < n) (h : place n neg a = place n neg b) :
    a = b := by
  rw [← place_place neg ha, h, place_place neg hb]

/-- Sequence number of the cell at loop counters `a`, `b`, `c`. -/
def seqNo (nx ny a b c : Nat) : Nat := nx * (ny * c + b) + a

theorem seq_dec {nx ny a b c : Nat} (ha : a < nx) (hb : b < ny) :
    seqNo nx ny a b c % nx = a ∧ seqNo nx ny a b c / nx % ny = b ∧ seqNo nx ny a b c / nx / ny = c := by
  unfold seqNo
  have h1 : (nx * (ny * c + b) + a) / nx = ny * c + b := by
    rw [Nat.mul_add_div (by omega), Nat.div_eq_of_lt ha, Nat.add_zero]
  refine ⟨by rw [Nat.mul_add_mod, Nat.mod_eq_of_lt ha], ?_, ?_⟩
  · rw [h1, Nat.mul_add_mod, Nat.mod_eq_of_lt hb]
  · rw [h1, Nat.mul_add_div (by omega), Nat.div_eq_of_lt hb, Nat.add_zero]

theorem seq_enc {nx ny nz t : Nat} (h : t < nx * ny * nz) :
    t % nx < nx ∧ t / nx % ny < ny ∧ t / nx / ny < nz ∧ seqNo nx ny (t % nx) (t / nx % ny) (t / nx / ny) = t := by
  have hx : 0 < nx := Nat.pos_of_ne_zero (by rintro rfl; simp at h)
  have hy : 0 < ny := Nat.pos_of_ne_zero (by rintro rfl; simp at h)
  refine ⟨Nat.mod_lt _ hx, Nat.mod_lt _ hy, ?_, ?_⟩
  · rw [Nat.div_div_eq_div_mul]
    exact Nat.div_lt_of_lt_mul h
  · unfold seqNo
    rw [Nat.div_add_mod (t / nx) ny, Nat.div_add_mod t nx]

theorem seq_lt {nx ny nz a b c : Nat} (ha : a < nx) (hb : b < ny) (hc : c < nz) : seqNo nx ny a b c < nx * ny * nz := by
  unfold seqNo
  have h1 : ny * c + ny ≤ ny * nz := by rw [← Nat.mul_succ]; exact Nat.mul_le_mul_left _ hc
  have h2 : nx * (ny * c + b) + nx ≤ nx * (ny * nz) := by rw [← Nat.mul_succ]; exact Nat.mul_le_mul_left _ (by omega)
  rw [Nat.mul_assoc]
  omega

theorem cell_inj (d : Dims) {i j k i' j' k' : Nat} (hi : i < d.nx) (hj : j < d.ny) (hi' : i' < d.nx) (hj' : j' < d.ny)
    (h : coarseCell d ⟨i, j, k⟩ = coarseCell d ⟨i', j', k'⟩) : i = i' ∧ j = j' ∧ k = k' := by
  unfold coarseCell at h
  simp only at h
  have h1 : d.nx * (d.ny * k + j) + i = d.nx * (d.ny * k' + j') + i' := by
    rw [Nat.mul_add, Nat.mul_add, ← Nat.mul_assoc, ← Nat.mul_assoc]
    have e1 : k * d.nx * d.ny = d.nx * d.ny * k := by rw [Nat.mul_assoc, Nat.mul_comm]
    have e2 : k' * d.nx * d.ny = d.nx * d.ny * k' := by rw [Nat.mul_assoc, Nat.mul_comm]
    rw [e1, e2, Nat.mul_comm j, Nat.mul_comm j'] at h
    exact h
  obtain ⟨h2, h3⟩ := mul_add_inj hi hi' h1
  obtain ⟨h4, h5⟩ := mul_add_inj hj hj' h2
  exact ⟨h3, h5, h4⟩

/-- The three loops as one sequence of cell steps. -/
theorem sweep3_eq (d : Dims) (nx ny nz : Bool) (wgt : K) (ev : Nat → Nat → Nat → (Ax3 → K) → K × (Ax3 → K))
    (s : State Ax3 K) : sweep3 d nx ny nz wgt ev s = (List.range (d.nx * d.ny * d.nz)).foldl (fun s t =>
      cellStep wgt (slot3 d (place d.nx nx (t % d.nx)) (place d.ny ny (t / d.nx % d.ny)) (place d.nz nz (t / d.nx / d.ny)))
        (coarseCell d ⟨place d.nx nx (t % d.nx), place d.ny ny (t / d.nx % d.ny), place d.nz nz (t / d.nx / d.ny)⟩)
        (ev (place d.nx nx (t % d.nx)) (place d.ny ny (t / d.nx % d.ny)) (place d.nz nz (t / d.nx / d.ny))) s) s := by
  unfold sweep3
  simp only [order_eq, List.foldl_map]
  have h := fold_nest d.ny d.nz (fun (s : State Ax3 K) iy iz => (List.range d.nx).foldl (fun s ix =>
        cellStep wgt (slot3 d (place d.nx nx ix) (place d.ny ny iy) (place d.nz nz iz))
          (coarseCell d ⟨place d.nx nx ix, place d.ny ny iy, place d.nz nz iz⟩)
          (ev (place d.nx nx ix) (place d.ny ny iy) (place d.nz nz iz)) s) s) s
  refine h.trans ?_
  have h2 := fold_nest d.nx (d.ny * d.nz) (fun (s : State Ax3 K) ix t =>
        cellStep wgt (slot3 d (place d.nx nx ix) (place d.ny ny (t % d.ny)) (place d.nz nz (t / d.ny)))
          (coarseCell d ⟨place d.nx nx ix, place d.ny ny (t % d.ny), place d.nz nz (t / d.ny)⟩)
          (ev (place d.nx nx ix) (place d.ny ny (t % d.ny)) (place d.nz nz (t / d.ny))) s) s
  refine h2.trans ?_
  rw [Nat.mul_assoc]

theorem sweep2_eq (d : Dims) (nx ny : Bool) (wgt : K) (ev : Nat → Nat → (Ax2 → K) → K × (Ax2 → K))
    (s : State Ax2 K) : sweep2 d nx ny wgt ev s = (List.range (d.nx * d.ny)).foldl (fun s t =>
      cellStep wgt (slot2 (place d.nx nx (t % d.nx)) (place d.ny ny (t / d.nx)))
        (coarseCell d ⟨place d.nx nx (t % d.nx), place d.ny ny (t / d.nx), 0⟩)
        (ev (place d.nx nx (t % d.nx)) (place d.ny ny (t / d.nx))) s) s := by
  unfold sweep2
  simp only [order_eq, List.foldl_map]
  exact fold_nest d.nx d.ny (fun (s : State Ax2 K) ix iy =>
        cellStep wgt (slot2 (place d.nx nx ix) (place d.ny ny iy))
          (coarseCell d ⟨place d.nx nx ix, place d.ny ny iy, 0⟩) (ev (place d.nx nx ix) (place d.ny ny iy)) s) s

theorem seq_lt_x {nx ny a a' b c : Nat} : seqNo nx ny a' b c < seqNo nx ny a b c ↔ a' < a := by
  unfold seqNo; omega

theorem mul_lt_iff {n a b : Nat} (h : 0 < n) : n * a < n * b ↔ a < b := Nat.mul_lt_mul_left h

theorem seq_lt_y {nx ny a b b' c : Nat} (h : 0 < nx) : seqNo nx ny a b' c < seqNo nx ny a b c ↔ b' < b := by
  unfold seqNo
  rw [Nat.add_lt_add_iff_right, mul_lt_iff h, Nat.add_lt_add_iff_left]

theorem seq_lt_z {nx ny a b c c' : Nat} (h : 0 < nx) (h' : 0 < ny) : seqNo nx ny a b c' < seqNo nx ny a b c ↔ c' < c := by
  unfold seqNo
  rw [Nat.add_lt_add_iff_right, mul_lt_iff h, Nat.add_lt_add_iff_right, mul_lt_iff h']

/-- The incoming flux and the last value of a face array, in terms of loop counters along the axis of the array. -/
theorem channel {κ : Type} {wgt : K} {w : Nat → κ → Nat} {idx : Nat → Nat} {ev : Nat → (κ → K) → K × (κ → K)}
    {s0 s : State κ K} {N : Nat} (hinv : Inv wgt w idx ev s0 N s) (k : κ) (m : Nat) (line : Nat → Nat)
    (hmono : ∀ a a', line a' < line a ↔ a' < a) (hlt : ∀ a, a < m → line a < N) (j : Nat)
    (hw : ∀ p, p < N → (w p k = j ↔ ∃ a, a < m ∧ p = line a)) :
    (∀ a, a < m → ∀ inp : κ → K,
      ((∀ p, p < line a → w p k ≠ w (line a) k) → inp k = s0.flux k (w (line a) k)) ∧
      (∀ p, p < line a → w p k = w (line a) k → (∀ q, p < q → q < line a → w q k ≠ w (line a) k) →
        inp k = (s.out (idx p)).2 k) →
      inp k = if a = 0 then s0.flux k j else (s.out (idx (line (a - 1)))).2 k) ∧
    (0 < m → s.flux k j = (s.out (idx (line (m - 1)))).2 k) := by
  have hwj : ∀ a, a < m → w (line a) k = j := fun a ha => (hw _ (hlt a ha)).mpr ⟨a, ha, rfl⟩
  constructor
  · intro a ha inp h
    rw [hwj a ha] at h
    split_ifs with h0
    · apply h.1
      intro p hp hpj
      have hpN : p < N := Nat.lt_trans hp (hlt a ha)
      obtain ⟨a', ha', rfl⟩ := (hw p hpN).mp hpj
      rw [hmono] at hp
      omega
    · apply h.2 _ ((hmono _ _).mpr (by omega)) (hwj _ (by omega))
      intro q hq1 hq2 hqj
      have hqN : q < N := Nat.lt_trans hq2 (hlt a ha)
      obtain ⟨a', ha', rfl⟩ := (hw q hqN).mp hqj
      rw [hmono] at hq1 hq2
      omega
  · intro hm
    apply hinv.flux_new k j _ (hlt _ (by omega)) (hwj _ (by omega))
    intro q hq1 hq2 hqj
    obtain ⟨a', ha', rfl⟩ := (hw q hq2).mp hqj
    rw [hmono] at hq1
    omega

end Verif.Sn
