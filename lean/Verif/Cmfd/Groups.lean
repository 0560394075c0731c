import Verif.Cmfd.Perron

/-!
# Multigroup problems without up-scattering: fission sources and their flux

Mathematical background of C125: cells `0 … n - 1`, groups `0 … ng - 1`.
-/

namespace Verif.Cmfd.Groups

open Finset Filter Topology

/-- Row of a matrix times vector. -/
def row (n : ℕ) (A : ℕ → ℕ → ℝ) (x : ℕ → ℝ) (i : ℕ) : ℝ := ∑ j ∈ range n, A i j * x j

/-- What is needed of the matrix of a group: there is a solution for every source, and a source nowhere negative, positive somewhere, gives a positive flux. -/
structure Good (n : ℕ) (A : ℕ → ℕ → ℝ) : Prop where
  ex : ∀ b : ℕ → ℝ, ∃ x : ℕ → ℝ, ∀ i < n, row n A x i = b i
  nonneg : ∀ x, (∀ i < n, 0 ≤ row n A x i) → ∀ i < n, 0 ≤ x i
  pos : ∀ x, (∀ i < n, 0 ≤ row n A x i) → (∃ i < n, 0 < row n A x i) → ∀ i < n, 0 < x i

/-- Matrices and cross sections (cell, group; `sc i g h` is from group `h` to group `g`). -/
structure Data where
  n : ℕ
  ng : ℕ
  A : ℕ → ℕ → ℕ → ℝ
  vol : ℕ → ℝ
  ch : ℕ → ℕ → ℝ
  nf : ℕ → ℕ → ℝ
  sc : ℕ → ℕ → ℕ → ℝ

/-- Source of group `g` in cell `i` for a fission source `s` and a flux `φ`. -/
def Data.src (D : Data) (s : ℕ → ℝ) (φ : ℕ → ℕ → ℝ) (g i : ℕ) : ℝ := D.vol i * (D.ch i g * s i + ∑ h ∈ range D.ng, if h ≠ g then D.sc i g h * φ i h else 0)

/-- Flux of a fission source. -/
def Data.Solves (D : Data) (s : ℕ → ℝ) (φ : ℕ → ℕ → ℝ) : Prop := ∀ g < D.ng, ∀ i < D.n, row D.n (D.A g) (fun j => φ j g) i = D.src s φ g i

/-- Fission rate of a cell. -/
def Data.fis (D : Data) (φ : ℕ → ℕ → ℝ) (i : ℕ) : ℝ := ∑ g ∈ range D.ng, D.nf i g * φ i g

/-- Cells with fission. -/
def Data.Fissile (D : Data) (i : ℕ) : Prop := i < D.n ∧ ∃ g < D.ng, 0 < D.nf i g

structure Data.Ok (D : Data) : Prop where
  good : ∀ g < D.ng, Good D.n (D.A g)
  vol : ∀ i < D.n, 0 < D.vol i
  ch : ∀ i < D.n, ∀ g < D.ng, 0 ≤ D.ch i g
  nf : ∀ i < D.n, ∀ g < D.ng, 0 ≤ D.nf i g
  sc : ∀ i < D.n, ∀ g < D.ng, ∀ h < D.ng, 0 ≤ D.sc i g h
  down : ∀ i < D.n, ∀ g < D.ng, ∀ h < D.ng, g < h → D.sc i g h = 0
  feed : ∀ g < D.ng, (∀ i, D.Fissile i → 0 < D.ch i g) ∨ ∃ h < g, ∃ i < D.n, 0 < D.sc i g h
  some : ∃ i, D.Fissile i

theorem row_lin (n : ℕ) (A : ℕ → ℕ → ℝ) (a b : ℝ) (x y : ℕ → ℝ) (i : ℕ) : row n A (fun j => a * x j + b * y j) i = a * row n A x i + b * row n A y i := by
  unfold row; rw [mul_sum, mul_sum, ← sum_add_distrib]; exact sum_congr rfl fun j _ => by ring

theorem src_lin (D : Data) (a b : ℝ) (s t : ℕ → ℝ) (φ ψ : ℕ → ℕ → ℝ) (g i : ℕ) :
    D.src (fun i => a * s i + b * t i) (fun i h => a * φ i h + b * ψ i h) g i = a * D.src s φ g i + b * D.src t ψ g i := by
  unfold Data.src
  have : (∑ h ∈ range D.ng, if h ≠ g then D.sc i g h * (a * φ i h + b * ψ i h) else 0) =
      a * (∑ h ∈ range D.ng, if h ≠ g then D.sc i g h * φ i h else 0) + b * ∑ h ∈ range D.ng, if h ≠ g then D.sc i g h * ψ i h else 0 := by
    rw [mul_sum, mul_sum, ← sum_add_distrib]
    refine sum_congr rfl fun h _ => ?_
    split <;> ring
  rw [this]; ring

theorem solves_lin {D : Data} (a b : ℝ) {s t : ℕ → ℝ} {φ ψ : ℕ → ℕ → ℝ} (h1 : D.Solves s φ) (h2 : D.Solves t ψ) :
    D.Solves (fun i => a * s i + b * t i) (fun i h => a * φ i h + b * ψ i h) := by
  intro g hg i hi
  rw [src_lin, row_lin, h1 g hg i hi, h2 g hg i hi]

/-- The source of a group depends on the groups above only. -/
theorem src_congr {D : Data} (hD : D.Ok) {s t : ℕ → ℝ} {φ ψ : ℕ → ℕ → ℝ} {g i : ℕ} (hg : g < D.ng) (hi : i < D.n) (hs : s i = t i) (h : ∀ h < g, φ i h = ψ i h) :
    D.src s φ g i = D.src t ψ g i := by
  unfold Data.src
  rw [hs]
  congr 2
  refine sum_congr rfl fun k hk => ?_
  rcases lt_trichotomy k g with hlt | heq | hgt
  · rw [h k hlt]
  · rw [if_neg (by simp [heq]), if_neg (by simp [heq])]
  · rw [hD.down i hi g hg k (mem_range.mp hk) hgt]; simp

/-- A source that is not negative: neither is the flux. -/
theorem solves_nonneg {D : Data} (hD : D.Ok) {s : ℕ → ℝ} {φ : ℕ → ℕ → ℝ} (h : D.Solves s φ) (hs : ∀ i < D.n, 0 ≤ s i) : ∀ g < D.ng, ∀ i < D.n, 0 ≤ φ i g := by
  intro g
  induction g using Nat.strong_induction_on with
  | _ g ih =>
    intro hg i hi
    refine (hD.good g hg).nonneg (fun j => φ j g) (fun j hj => ?_) i hi
    rw [h g hg j hj]
    refine mul_nonneg (hD.vol j hj).le (add_nonneg (mul_nonneg (hD.ch j hj g hg) (hs j hj)) (sum_nonneg fun k hk => ?_))
    split
    · rcases lt_or_gt_of_ne ‹k ≠ g› with hlt | hgt
      · exact mul_nonneg (hD.sc j hj g hg k (mem_range.mp hk)) (ih k hlt (mem_range.mp hk) j hj)
      · rw [hD.down j hj g hg k (mem_range.mp hk) hgt, zero_mul]
    · exact le_rfl

/-- A source in a fissile cell: flux everywhere. -/
theorem solves_pos {D : Data} (hD : D.Ok) {s : ℕ → ℝ} {φ : ℕ → ℕ → ℝ} (h : D.Solves s φ) (hs : ∀ i < D.n, 0 ≤ s i) (hp : ∃ i, D.Fissile i ∧ 0 < s i) :
    ∀ g < D.ng, ∀ i < D.n, 0 < φ i g := by
  have hn := solves_nonneg hD h hs
  have hterm : ∀ g < D.ng, ∀ j < D.n, ∀ k ∈ range D.ng, 0 ≤ if k ≠ g then D.sc j g k * φ j k else 0 := by
    intro g hg j hj k hk
    split
    · exact mul_nonneg (hD.sc j hj g hg k (mem_range.mp hk)) (hn k (mem_range.mp hk) j hj)
    · exact le_rfl
  intro g
  induction g using Nat.strong_induction_on with
  | _ g ih =>
    intro hg i hi
    refine (hD.good g hg).pos (fun j => φ j g) (fun j hj => ?_) ?_ i hi
    · rw [h g hg j hj]
      exact mul_nonneg (hD.vol j hj).le (add_nonneg (mul_nonneg (hD.ch j hj g hg) (hs j hj)) (sum_nonneg (hterm g hg j hj)))
    · rcases hD.feed g hg with hf | ⟨k, hk, j, hj, hsc⟩
      · obtain ⟨j, hj, hsj⟩ := hp
        refine ⟨j, hj.1, ?_⟩
        rw [h g hg j hj.1]
        exact mul_pos (hD.vol j hj.1) (add_pos_of_pos_of_nonneg (mul_pos (hf j hj) hsj) (sum_nonneg (hterm g hg j hj.1)))
      · refine ⟨j, hj, ?_⟩
        rw [h g hg j hj]
        refine mul_pos (hD.vol j hj) (add_pos_of_nonneg_of_pos (mul_nonneg (hD.ch j hj g hg) (hs j hj)) ?_)
        refine sum_pos' (hterm g hg j hj) ⟨k, mem_range.mpr (hk.trans hg), ?_⟩
        rw [if_pos hk.ne]
        exact mul_pos hsc (ih k hk (hk.trans hg) j hj)

theorem solves_unique {D : Data} (hD : D.Ok) {s t : ℕ → ℝ} {φ ψ : ℕ → ℕ → ℝ} (h1 : D.Solves s φ) (h2 : D.Solves t ψ) (hst : ∀ i < D.n, s i = t i) :
    ∀ g < D.ng, ∀ i < D.n, φ i g = ψ i g := by
  intro g hg i hi
  have a := solves_nonneg hD (solves_lin 1 (-1) h1 h2) (fun i hi => by rw [hst i hi]; linarith) g hg i hi
  have b := solves_nonneg hD (solves_lin (-1) 1 h1 h2) (fun i hi => by rw [hst i hi]; linarith) g hg i hi
  linarith

theorem solves_exists {D : Data} (hD : D.Ok) (s : ℕ → ℝ) : ∃ φ, D.Solves s φ := by
  have : ∀ m ≤ D.ng, ∃ φ : ℕ → ℕ → ℝ, ∀ g < m, ∀ i < D.n, row D.n (D.A g) (fun j => φ j g) i = D.src s φ g i := by
    intro m
    induction m with
    | zero => intro _; exact ⟨fun _ _ => 0, fun g hg => by omega⟩
    | succ m ih =>
      intro hm
      obtain ⟨φ, hφ⟩ := ih (by omega)
      obtain ⟨x, hx⟩ := (hD.good m (by omega)).ex (fun i => D.src s φ m i)
      refine ⟨fun i h => if h = m then x i else φ i h, fun g hg i hi => ?_⟩
      have e : ∀ k ≤ m, D.src s (fun i h => if h = m then x i else φ i h) k i = D.src s φ k i := fun k hk =>
        src_congr hD (by omega) hi rfl fun h hh => if_neg (by omega)
      rcases Nat.lt_succ_iff_lt_or_eq.mp hg with hlt | rfl
      · rw [e g hlt.le, ← hφ g hlt i hi]
        have : (fun j => if g = m then x j else φ j g) = fun j => φ j g := by funext j; rw [if_neg hlt.ne]
        rw [this]
      · rw [e g le_rfl, ← hx i hi]
        have : (fun j => if g = g then x j else φ j g) = x := by funext j; rw [if_pos rfl]
        rw [this]
  exact this D.ng le_rfl

/-! ### Response to a unit source -/

/-- Fissile cells. -/
abbrev Data.I (D : Data) := {i : Fin D.n // ∃ g < D.ng, 0 < D.nf i g}

theorem fissile_I (D : Data) (j : D.I) : D.Fissile j.1 := ⟨j.1.2, j.2⟩

noncomputable instance (D : Data) : Fintype D.I := by classical exact inferInstance

def unit (j : ℕ) : ℕ → ℝ := fun i => if i = j then 1 else 0

noncomputable def resp (D : Data) (hD : D.Ok) (j : ℕ) : ℕ → ℕ → ℝ := Classical.choose (solves_exists hD (unit j))

theorem resp_solves (D : Data) (hD : D.Ok) (j : ℕ) : D.Solves (unit j) (resp D hD j) := Classical.choose_spec (solves_exists hD (unit j))

theorem resp_pos (D : Data) (hD : D.Ok) (j : D.I) : ∀ g < D.ng, ∀ i < D.n, 0 < resp D hD j.1 i g :=
  solves_pos hD (resp_solves D hD j.1) (fun i _ => by unfold unit; split <;> norm_num) ⟨j.1, fissile_I D j, by simp [unit]⟩

theorem solves_sum {D : Data} (hD : D.Ok) {ι : Type} [DecidableEq ι] (S : Finset ι) (c : ι → ℝ) (s : ι → ℕ → ℝ) (φ : ι → ℕ → ℕ → ℝ) (h : ∀ k ∈ S, D.Solves (s k) (φ k)) :
    D.Solves (fun i => ∑ k ∈ S, c k * s k i) (fun i g => ∑ k ∈ S, c k * φ k i g) := by
  induction S using Finset.induction_on with
  | empty =>
    intro g hg i hi
    simp [row, Data.src]
  | insert a S ha ih =>
    have := solves_lin (c a) 1 (h a (mem_insert_self _ _)) (ih fun k hk => h k (mem_insert_of_mem hk))
    simpa [sum_insert ha] using this

/-- The flux of a fission source on fissile cells is the sum of the responses. -/
theorem superpose {D : Data} (hD : D.Ok) {s : ℕ → ℝ} {φ : ℕ → ℕ → ℝ} (h : D.Solves s φ) (hs : ∀ i < D.n, ¬ D.Fissile i → s i = 0) :
    ∀ g < D.ng, ∀ i < D.n, φ i g = ∑ j : D.I, s j.1 * resp D hD j.1 i g := by
  classical
  refine solves_unique hD h (solves_sum hD univ (fun j : D.I => s j.1) (fun j => unit j.1) (fun j => resp D hD j.1) fun j _ => resp_solves D hD j.1) ?_
  intro i hi
  by_cases hf : D.Fissile i
  · rw [sum_eq_single (⟨⟨i, hi⟩, hf.2⟩ : D.I)]
    · simp [unit]
    · intro j _ hj
      have : i ≠ j.1 := fun e => hj (Subtype.ext (Fin.ext e.symm))
      simp [unit, this]
    · intro h; exact absurd (mem_univ _) h
  · rw [hs i hi hf]
    refine (sum_eq_zero fun j _ => ?_).symm
    have : i ≠ j.1 := fun e => hf (e ▸ fissile_I D j)
    simp [unit, this]

/-- Fission rate in a fissile cell per unit source in another. -/
noncomputable def mat (D : Data) (hD : D.Ok) (i j : D.I) : ℝ := D.fis (resp D hD j.1) i.1

theorem mat_pos (D : Data) (hD : D.Ok) (i j : D.I) : 0 < mat D hD i j := by
  obtain ⟨g, hg, hgn⟩ := i.2
  refine sum_pos' (fun k hk => mul_nonneg (hD.nf i.1 i.1.2 k (mem_range.mp hk)) (resp_pos D hD j k (mem_range.mp hk) i.1 i.1.2).le) ⟨g, mem_range.mpr hg, ?_⟩
  exact mul_pos hgn (resp_pos D hD j g hg i.1 i.1.2)

theorem fis_zero {D : Data} (hD : D.Ok) (φ : ℕ → ℕ → ℝ) {i : ℕ} (hi : i < D.n) (hf : ¬ D.Fissile i) : D.fis φ i = 0 := by
  refine sum_eq_zero fun g hg => ?_
  have : D.nf i g = 0 := by
    by_contra hne
    exact hf ⟨hi, g, mem_range.mp hg, lt_of_le_of_ne (hD.nf i hi g (mem_range.mp hg)) (Ne.symm hne)⟩
  rw [this, zero_mul]

/-- Fission rates of the flux of a source. -/
theorem fis_app {D : Data} (hD : D.Ok) {s : ℕ → ℝ} {φ : ℕ → ℕ → ℝ} (h : D.Solves s φ) (hs : ∀ i < D.n, ¬ D.Fissile i → s i = 0) (i : D.I) :
    D.fis φ i.1 = Perron.app (mat D hD) (fun j => s j.1) i := by
  unfold Perron.app mat Data.fis
  simp only [sum_mul]
  rw [sum_comm]
  refine sum_congr rfl fun g hg => ?_
  rw [superpose hD h hs g (mem_range.mp hg) i.1 i.1.2, mul_sum]
  exact sum_congr rfl fun j _ => by ring

/-- Sum over the cells of something that vanishes in cells without fission. -/
theorem tot_cells {D : Data} (u : ℕ → ℝ) (hu : ∀ i < D.n, ¬ D.Fissile i → u i = 0) : ∑ i ∈ range D.n, u i = Perron.tot (fun j : D.I => u j.1) := by
  classical
  unfold Perron.tot
  rw [← Fin.sum_univ_eq_sum_range]
  have h1 := Finset.sum_subtype (univ.filter fun i : Fin D.n => ∃ g < D.ng, 0 < D.nf i g) (p := fun i : Fin D.n => ∃ g < D.ng, 0 < D.nf i g) (F := (inferInstance : Fintype D.I)) (by simp) (fun i : Fin D.n => u i)
  have h2 : ∑ i ∈ univ.filter (fun i : Fin D.n => ∃ g < D.ng, 0 < D.nf i g), u i = ∑ i : Fin D.n, u i := by
    refine sum_filter_of_ne fun i _ hne => ?_
    by_contra hcon
    exact hne (hu i i.2 fun h => hcon h.2)
  rw [← h2, h1]

/-! ### Solutions -/

/-- Sum of the fission rates. -/
def Data.total (D : Data) (φ : ℕ → ℕ → ℝ) : ℝ := ∑ i ∈ range D.n, D.fis φ i

/-- An eigenvalue with its flux, not negative and with fission. -/
structure Data.Sol (D : Data) (k : ℝ) (φ : ℕ → ℕ → ℝ) : Prop where
  kpos : 0 < k
  nonneg : ∀ i < D.n, ∀ g < D.ng, 0 ≤ φ i g
  fis : 0 < D.total φ
  solves : D.Solves (fun i => D.fis φ i / k) φ

theorem fis_nonneg {D : Data} (hD : D.Ok) {φ : ℕ → ℕ → ℝ} (h : ∀ i < D.n, ∀ g < D.ng, 0 ≤ φ i g) : ∀ i < D.n, 0 ≤ D.fis φ i := fun i hi =>
  sum_nonneg fun g hg => mul_nonneg (hD.nf i hi g (mem_range.mp hg)) (h i hi g (mem_range.mp hg))

theorem fis_some {D : Data} (hD : D.Ok) {φ : ℕ → ℕ → ℝ} (h : ∀ i < D.n, ∀ g < D.ng, 0 ≤ φ i g) (ht : 0 < D.total φ) : ∃ j : D.I, 0 < D.fis φ j.1 := by
  by_contra hcon
  push Not at hcon
  have : D.total φ ≤ 0 := by
    unfold Data.total
    rw [tot_cells (D := D) (D.fis φ) (fun i hi hf => fis_zero hD φ hi hf)]
    exact sum_nonpos fun j _ => hcon j
  linarith

theorem source_zero {D : Data} (hD : D.Ok) (φ : ℕ → ℕ → ℝ) (k : ℝ) : ∀ i < D.n, ¬ D.Fissile i → D.fis φ i / k = 0 := fun i hi hf => by
  rw [fis_zero hD φ hi hf, zero_div]

theorem sol_eigen {D : Data} (hD : D.Ok) {k : ℝ} {φ : ℕ → ℕ → ℝ} (h : D.Sol k φ) (i : D.I) : Perron.app (mat D hD) (fun j => D.fis φ j.1) i = k * D.fis φ i.1 := by
  have e := fis_app hD h.solves (source_zero hD φ k) i
  have e2 : (fun j : D.I => D.fis φ j.1 / k) = fun j : D.I => (1 / k) * D.fis φ j.1 := by funext j; ring
  rw [e2, Perron.app_smul] at e
  rw [e]
  have := h.kpos.ne'
  field_simp

theorem nonempty_I {D : Data} (hD : D.Ok) : Nonempty D.I := by
  obtain ⟨i, hi, hf⟩ := hD.some
  exact ⟨⟨⟨i, hi⟩, hf⟩⟩

/-- Flux of a solution is positive. -/
theorem sol_pos {D : Data} (hD : D.Ok) {k : ℝ} {φ : ℕ → ℕ → ℝ} (h : D.Sol k φ) : ∀ g < D.ng, ∀ i < D.n, 0 < φ i g := by
  obtain ⟨j, hj⟩ := fis_some hD h.nonneg h.fis
  exact solves_pos hD h.solves (fun i hi => div_nonneg (fis_nonneg hD h.nonneg i hi) h.kpos.le) ⟨j.1, fissile_I D j, div_pos hj h.kpos⟩

theorem sol_exists {D : Data} (hD : D.Ok) : ∃ k φ, D.Sol k φ := by
  have := nonempty_I hD
  obtain ⟨k, v, hk, hv, -, hvk, -⟩ := Perron.converges (mat_pos D hD) (x := fun _ => 1) (fun _ => zero_le_one) ⟨Classical.arbitrary D.I, one_pos⟩
  classical
  let s : ℕ → ℝ := fun i => if h : D.Fissile i then v ⟨⟨i, h.1⟩, h.2⟩ else 0
  have hsI : (fun j : D.I => s j.1) = v := by
    funext j
    exact dif_pos (fissile_I D j)
  have hs0 : ∀ i < D.n, ¬ D.Fissile i → s i = 0 := fun i _ hf => dif_neg hf
  have hsn : ∀ i < D.n, 0 ≤ s i := by
    intro i _
    by_cases hf : D.Fissile i
    · rw [show s i = v ⟨⟨i, hf.1⟩, hf.2⟩ from dif_pos hf]; exact (hv _).le
    · rw [show s i = 0 from dif_neg hf]
  obtain ⟨φ, hφ⟩ := solves_exists hD s
  have hfis : ∀ j : D.I, D.fis φ j.1 = k * s j.1 := by
    intro j
    rw [fis_app hD hφ hs0 j, hsI, hvk, ← hsI]
  have hall : ∀ i < D.n, D.fis φ i / k = s i := by
    intro i hi
    by_cases hf : D.Fissile i
    · have := hfis ⟨⟨i, hi⟩, hf.2⟩
      rw [show D.fis φ i = k * s i from this, mul_div_cancel_left₀ _ hk.ne']
    · rw [fis_zero hD φ hi hf, zero_div, hs0 i hi hf]
  refine ⟨k, φ, hk, fun i hi g hg => solves_nonneg hD hφ hsn g hg i hi, ?_, ?_⟩
  · unfold Data.total
    rw [tot_cells (D := D) (D.fis φ) (fun i hi hf => fis_zero hD φ hi hf)]
    refine sum_pos (fun j _ => ?_) univ_nonempty
    rw [hfis j, show s j.1 = v j from congrFun hsI j]
    exact mul_pos hk (hv j)
  · intro g hg i hi
    rw [hφ g hg i hi]
    exact src_congr hD hg hi (hall i hi).symm fun _ _ => rfl

/-- Only one eigenvalue, and one flux up to a factor. -/
theorem sol_unique {D : Data} (hD : D.Ok) {k l : ℝ} {φ ψ : ℕ → ℕ → ℝ} (h1 : D.Sol k φ) (h2 : D.Sol l ψ) :
    l = k ∧ ∃ c, 0 < c ∧ ∀ i < D.n, ∀ g < D.ng, ψ i g = c * φ i g := by
  have := nonempty_I hD
  have hpos : ∀ j : D.I, 0 < D.fis φ j.1 := by
    intro j
    obtain ⟨g, hg, hn⟩ := j.2
    exact sum_pos' (fun g hg => mul_nonneg (hD.nf j.1 j.1.2 g (mem_range.mp hg)) (h1.nonneg j.1 j.1.2 g (mem_range.mp hg)))
      ⟨g, mem_range.mpr hg, mul_pos hn (sol_pos hD h1 g hg j.1 j.1.2)⟩
  obtain ⟨hlk, c, hc, hcw⟩ := Perron.unique (mat_pos D hD) (v := fun j => D.fis φ j.1) (w := fun j => D.fis ψ j.1) hpos (sol_eigen hD h1)
    (fun j => fis_nonneg hD h2.nonneg j.1 j.1.2) (fis_some hD h2.nonneg h2.fis) (sol_eigen hD h2)
  refine ⟨hlk, c, hc, ?_⟩
  have hs := solves_lin c 0 h1.solves h1.solves
  intro i hi g hg
  have := solves_unique hD h2.solves hs (fun i hi => ?_) g hg i hi
  · rw [this]; ring
  · by_cases hf : D.Fissile i
    · have := hcw ⟨⟨i, hi⟩, hf.2⟩
      rw [show D.fis ψ i = c * D.fis φ i from this, hlk]; ring
    · rw [fis_zero hD φ hi hf, fis_zero hD ψ hi hf]; simp

/-! ### The iteration -/

/-- Flux and eigenvalue of the power iteration. -/
structure Data.Iter (D : Data) (Φ : ℕ → ℕ → ℕ → ℝ) (k : ℕ → ℝ) : Prop where
  k0 : 0 < k 0
  start : ∀ i < D.n, ∀ g < D.ng, 0 ≤ Φ 0 i g
  fis : 0 < D.total (Φ 0)
  solve : ∀ m, D.Solves (fun i => D.fis (Φ m) i / k m) (Φ (m + 1))
  knext : ∀ m, k (m + 1) = k m * D.total (Φ (m + 1)) / D.total (Φ m)

theorem total_pos {D : Data} (hD : D.Ok) {φ : ℕ → ℕ → ℝ} (h : ∀ g < D.ng, ∀ i < D.n, 0 < φ i g) : 0 < D.total φ := by
  obtain ⟨i, hi, g, hg, hn⟩ := hD.some
  have hnn : ∀ i < D.n, ∀ g < D.ng, 0 ≤ φ i g := fun i hi g hg => (h g hg i hi).le
  refine sum_pos' (fun i hi => fis_nonneg hD hnn i (mem_range.mp hi)) ⟨i, mem_range.mpr hi, ?_⟩
  exact sum_pos' (fun g hg => mul_nonneg (hD.nf i hi g (mem_range.mp hg)) (hnn i hi g (mem_range.mp hg))) ⟨g, mem_range.mpr hg, mul_pos hn (h g hg i hi)⟩

theorem iter_inv {D : Data} (hD : D.Ok) {Φ : ℕ → ℕ → ℕ → ℝ} {k : ℕ → ℝ} (h : D.Iter Φ k) (m : ℕ) :
    0 < k m ∧ (∀ i < D.n, ∀ g < D.ng, 0 ≤ Φ m i g) ∧ 0 < D.total (Φ m) ∧ (0 < m → ∀ g < D.ng, ∀ i < D.n, 0 < Φ m i g) := by
  induction m with
  | zero => exact ⟨h.k0, h.start, h.fis, fun h => absurd h (lt_irrefl _)⟩
  | succ m ih =>
    obtain ⟨i1, i2, i3, -⟩ := ih
    obtain ⟨j, hj⟩ := fis_some hD i2 i3
    have hp := solves_pos hD (h.solve m) (fun i hi => div_nonneg (fis_nonneg hD i2 i hi) i1.le) ⟨j.1, fissile_I D j, div_pos hj i1⟩
    have ht := total_pos hD hp
    exact ⟨by rw [h.knext]; exact div_pos (mul_pos i1 ht) i3, fun i hi g hg => (hp g hg i hi).le, ht, fun _ => hp⟩

/-- The sum of the fission source does not change. -/
theorem iter_sum {D : Data} (hD : D.Ok) {Φ : ℕ → ℕ → ℕ → ℝ} {k : ℕ → ℝ} (h : D.Iter Φ k) (m : ℕ) : D.total (Φ m) / k m = D.total (Φ 0) / k 0 := by
  induction m with
  | zero => rfl
  | succ m ih =>
    obtain ⟨a1, -, a3, -⟩ := iter_inv hD h m
    obtain ⟨b1, -, b3, -⟩ := iter_inv hD h (m + 1)
    rw [← ih, h.knext]
    have := a1.ne'; have := a3.ne'; have := b3.ne'
    field_simp

theorem iter_seq {D : Data} (hD : D.Ok) {Φ : ℕ → ℕ → ℕ → ℝ} {k : ℕ → ℝ} (h : D.Iter Φ k) (m : ℕ) :
    ∃ c, 0 < c ∧ ∀ j : D.I, D.fis (Φ m) j.1 = c * Perron.seq (mat D hD) (fun j => D.fis (Φ 0) j.1) m j := by
  induction m with
  | zero => exact ⟨1, one_pos, fun j => (one_mul _).symm⟩
  | succ m ih =>
    obtain ⟨c, hc, hcm⟩ := ih
    have hk := (iter_inv hD h m).1
    refine ⟨c / k m, div_pos hc hk, fun j => ?_⟩
    rw [fis_app hD (h.solve m) (source_zero hD (Φ m) (k m)) j]
    have e : (fun j : D.I => D.fis (Φ m) j.1 / k m) = fun j : D.I => (c / k m) * Perron.seq (mat D hD) (fun j => D.fis (Φ 0) j.1) m j := by
      funext j; rw [hcm j]; ring
    rw [e, Perron.app_smul]
    rfl

theorem total_tot {D : Data} (hD : D.Ok) (φ : ℕ → ℕ → ℝ) : D.total φ = Perron.tot (fun j : D.I => D.fis φ j.1) :=
  tot_cells (D := D) (D.fis φ) (fun i hi hf => fis_zero hD φ hi hf)

/-- The iteration converges to every solution with the same sum of the fission source. -/
theorem iter_converges {D : Data} (hD : D.Ok) {Φ : ℕ → ℕ → ℕ → ℝ} {k : ℕ → ℝ} (h : D.Iter Φ k) {κ : ℝ} {φ : ℕ → ℕ → ℝ} (hs : D.Sol κ φ) :
    Tendsto k atTop (𝓝 κ) ∧ (∀ i < D.n, Tendsto (fun m => D.fis (Φ m) i / k m) atTop (𝓝 ((D.total (Φ 0) / k 0) / (D.total φ / κ) * (D.fis φ i / κ)))) ∧
      ∀ g < D.ng, ∀ i < D.n, Tendsto (fun m => Φ m i g) atTop (𝓝 ((D.total (Φ 0) / k 0) / (D.total φ / κ) * φ i g)) := by
  have := nonempty_I hD
  have hx0 : ∀ j : D.I, 0 ≤ D.fis (Φ 0) j.1 := fun j => fis_nonneg hD h.start j.1 j.1.2
  obtain ⟨κ', v, hk', hv, hv1, hve, hlim, hvl⟩ := Perron.converges (mat_pos D hD) hx0 (fis_some hD h.start h.fis)
  obtain ⟨hkk, c, hc, hcw⟩ := Perron.unique (mat_pos D hD) hv hve (w := fun j => D.fis φ j.1) (fun j => fis_nonneg hD hs.nonneg j.1 j.1.2) (fis_some hD hs.nonneg hs.fis) (sol_eigen hD hs)
  subst hkk
  set x0 : D.I → ℝ := fun j => D.fis (Φ 0) j.1 with hx0d
  set S := D.total (Φ 0) / k 0 with hS
  have hctot : D.total φ = c := by
    rw [total_tot hD]
    unfold Perron.tot
    simp only [hcw]
    rw [← mul_sum]
    change c * Perron.tot v = c
    rw [hv1, mul_one]
  have hκ := hs.kpos
  -- eigenvalue
  have hk : Tendsto k atTop (𝓝 κ) := by
    refine (tendsto_add_atTop_iff_nat 1).mp ?_
    refine hlim.congr fun m => ?_
    obtain ⟨c1, hc1, e1⟩ := iter_seq hD h m
    obtain ⟨a1, a2, a3, -⟩ := iter_inv hD h m
    have e2 : ∀ j : D.I, D.fis (Φ (m + 1)) j.1 = (c1 / k m) * Perron.seq (mat D hD) x0 (m + 1) j := by
      intro j
      rw [fis_app hD (h.solve m) (source_zero hD (Φ m) (k m)) j]
      have e : (fun j : D.I => D.fis (Φ m) j.1 / k m) = fun j : D.I => (c1 / k m) * Perron.seq (mat D hD) x0 m j := by
        funext j; rw [e1 j]; ring
      rw [e, Perron.app_smul]
      rfl
    have t1 : D.total (Φ m) = c1 * Perron.tot (Perron.seq (mat D hD) x0 m) := by
      rw [total_tot hD]; unfold Perron.tot; rw [mul_sum]; exact sum_congr rfl fun j _ => e1 j
    have t2 : D.total (Φ (m + 1)) = (c1 / k m) * Perron.tot (Perron.seq (mat D hD) x0 (m + 1)) := by
      rw [total_tot hD]; unfold Perron.tot; rw [mul_sum]; exact sum_congr rfl fun j _ => e2 j
    rw [h.knext, t2, t1]
    rw [t1] at a3
    have h0 : Perron.tot (Perron.seq (mat D hD) x0 m) ≠ 0 := fun h0 => by rw [h0, mul_zero] at a3; exact lt_irrefl _ a3
    have := a1.ne'; have := hc1.ne'
    field_simp
  -- fission source
  have hf : ∀ i < D.n, Tendsto (fun m => D.fis (Φ m) i / k m) atTop (𝓝 (S / (D.total φ / κ) * (D.fis φ i / κ))) := by
    intro i hi
    by_cases hfi : D.Fissile i
    · let j : D.I := ⟨⟨i, hi⟩, hfi.2⟩
      have e : S / (D.total φ / κ) * (D.fis φ i / κ) = S * v j := by
        rw [show D.fis φ i = c * v j from hcw j, hctot]
        have := hc.ne'; have := hκ.ne'
        field_simp
      rw [e]
      refine ((hvl j).const_mul S).congr fun m => ?_
      obtain ⟨c1, hc1, e1⟩ := iter_seq hD h m
      obtain ⟨a1, a2, a3, -⟩ := iter_inv hD h m
      have t1 : D.total (Φ m) = c1 * Perron.tot (Perron.seq (mat D hD) x0 m) := by
        rw [total_tot hD]; unfold Perron.tot; rw [mul_sum]; exact sum_congr rfl fun j _ => e1 j
      rw [hS, ← iter_sum hD h m, show D.fis (Φ m) i = c1 * Perron.seq (mat D hD) x0 m j from e1 j, t1]
      rw [t1] at a3
      have h0 : Perron.tot (Perron.seq (mat D hD) x0 m) ≠ 0 := fun h0 => by rw [h0, mul_zero] at a3; exact lt_irrefl _ a3
      have := a1.ne'; have := hc1.ne'
      field_simp
    · have e : ∀ ψ : ℕ → ℕ → ℝ, D.fis ψ i = 0 := fun ψ => fis_zero hD ψ hi hfi
      simp only [e, zero_div, mul_zero]
      exact tendsto_const_nhds
  refine ⟨hk, hf, fun g hg i hi => ?_⟩
  refine (tendsto_add_atTop_iff_nat 1).mp ?_
  have e1 : ∀ m, Φ (m + 1) i g = ∑ j : D.I, D.fis (Φ m) j.1 / k m * resp D hD j.1 i g := fun m =>
    superpose hD (h.solve m) (source_zero hD (Φ m) (k m)) g hg i hi
  simp only [e1]
  have e2 : S / (D.total φ / κ) * φ i g = ∑ j : D.I, (S / (D.total φ / κ) * (D.fis φ j.1 / κ)) * resp D hD j.1 i g := by
    rw [superpose hD hs.solves (source_zero hD φ κ) g hg i hi, mul_sum]
    exact sum_congr rfl fun j _ => by ring
  rw [e2]
  exact tendsto_finsetSum _ fun j _ => (hf j.1 j.1.2).mul_const _

end Verif.Cmfd.Groups
