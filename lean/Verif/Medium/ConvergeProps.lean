import Verif.Medium.AccelProps
import Verif.Cmfd.StrictProps
import Verif.Cmfd.Groups
import Mathlib.Analysis.SpecialFunctions.Pow.Real

/-!
# C125: the power iteration of CMFD converges
-/

set_option linter.unusedSectionVars false

namespace Verif.Medium

open Verif.XS Verif.Source Filter Topology

/-- A linear solver that returns a solution, whatever the guess, if there is one. -/
def ExactSolver (n : Nat) (lin : (Nat → Nat → ℝ) → (Nat → ℝ) → (Nat → ℝ) → (Nat → ℝ)) : Prop :=
  ∀ A b x0, (∃ x : Nat → ℝ, ∀ i < n, ∑ j ∈ Finset.range n, A i j * x j = b i) → ∀ i < n, ∑ j ∈ Finset.range n, A i j * lin A b x0 j = b i

/-- The problems: cells coupled with each other in all groups, positive removal, cross sections not negative, no scattering to groups before; every group gets neutrons, from fission in all
cells with fission, or by scattering from a group before in some cell; some cell has fission. -/
structure Regular (c : CmfdSetup ℝ) (p : Problem ℝ) (G : Grid ℝ) (cur : Nat → Nat → ℝ) (f0 : Cmfd.Flux ℝ) : Prop where
  fits : Fits p G
  solid : Cmfd.Solid G.d G.w
  coupled : ∀ g < p.ng, Cmfd.Coupled G.d (c.dt g) (Cmfd.dHatAt G.d (c.dt g) (cur g) (fun i => f0 i g))
  rm : ∀ x ∈ p.rs, ∀ g < p.ng, x.mat.sc g g < x.mat.tr g
  nf : ∀ x ∈ p.rs, ∀ g < p.ng, 0 ≤ x.mat.nf g
  ch : ∀ x ∈ p.rs, ∀ g < p.ng, 0 ≤ x.mat.ch g
  down : ∀ x ∈ p.rs, ∀ g < p.ng, ∀ h < p.ng, g < h → x.mat.sc g h = 0
  feed : ∀ g < p.ng, (∀ x ∈ p.rs, (∃ h < p.ng, 0 < x.mat.nf h) → 0 < x.mat.ch g) ∨ ∃ h < g, ∃ x ∈ p.rs, x.regs ≠ [] ∧ 0 < x.mat.sc g h
  fissile : ∃ x ∈ p.rs, x.regs ≠ [] ∧ ∃ h < p.ng, 0 < x.mat.nf h

/-- Eigenvalue and flux, not negative and with fission, that solve the systems `A` of all groups. -/
structure Solution (p : Problem ℝ) (G : Grid ℝ) (A : Nat → Nat → Nat → ℝ) (k : ℝ) (φ : Nat → Nat → ℝ) : Prop where
  kpos : 0 < k
  nonneg : ∀ i < p.nReg, ∀ g < p.ng, 0 ≤ φ i g
  fission : ∃ x ∈ p.rs, ∃ i ∈ x.regs, ∃ g < p.ng, 0 < x.mat.nf g * φ i g
  solves : ∀ g < p.ng, ∀ x ∈ p.rs, ∀ i ∈ x.regs, ∑ j ∈ Finset.range (Mesh.nPin G.d), A g i j * φ j g = Cmfd.vol G.d G.w i * groupSource p.ng x.mat k φ g i

/-! ### Cell data -/

/-- Material of a cell. -/
noncomputable def cellMat (p : Problem ℝ) (i : Nat) : Mat ℝ := by
  classical exact if h : ∃ x ∈ p.rs, i ∈ x.regs then (Classical.choose h).mat else ⟨fun _ => 0, fun _ => 0, fun _ => 0, fun _ => 0, fun _ _ => 0⟩

theorem cellMat_at (p : Problem ℝ) (hp : Partition p.rs) (x : XsRegion (Mat ℝ)) (hx : x ∈ p.rs) (i : Nat) (hi : i ∈ x.regs) : cellMat p i = x.mat := by
  unfold cellMat
  have h : ∃ x ∈ p.rs, i ∈ x.regs := ⟨x, hx, hi⟩
  rw [dif_pos h]
  obtain ⟨h1, h2⟩ := Classical.choose_spec h
  congr 1
  by_contra hne
  have hsym : Std.Symm (fun x y : XsRegion (Mat ℝ) => ∀ i, i ∈ x.regs → i ∉ y.regs) := ⟨fun a b hab i hb ha => hab i ha hb⟩
  exact (List.Pairwise.forall hp.2) h1 hx hne i h2 hi

/-- The problem by cells. -/
noncomputable def cells (p : Problem ℝ) (G : Grid ℝ) (A : Nat → Nat → Nat → ℝ) : Cmfd.Groups.Data where
  n := Mesh.nPin G.d
  ng := p.ng
  A := A
  vol := Cmfd.vol G.d G.w
  ch := fun i g => (cellMat p i).ch g
  nf := fun i g => (cellMat p i).nf g
  sc := fun i g h => (cellMat p i).sc g h

section
variable {c : CmfdSetup ℝ} {p : Problem ℝ} {G : Grid ℝ} {cur : Nat → Nat → ℝ} {f0 : Cmfd.Flux ℝ}

theorem region (h : Fits p G) {i : Nat} (hi : i < Mesh.nPin G.d) : ∃ x ∈ p.rs, i ∈ x.regs ∧ cellMat p i = x.mat := by
  obtain ⟨x, hx, hxi⟩ := (h.cover i).mp (h.cells ▸ hi)
  exact ⟨x, hx, hxi, cellMat_at p h.part x hx i hxi⟩

theorem in_cells (h : Fits p G) {x : XsRegion (Mat ℝ)} (hx : x ∈ p.rs) {i : Nat} (hi : i ∈ x.regs) : i < Mesh.nPin G.d := h.cells ▸ (h.cover i).mpr ⟨x, hx, hi⟩

theorem vol_pos (hw : Cmfd.Solid G.d G.w) (i : Nat) (hi : i < Mesh.nPin G.d) : 0 < Cmfd.vol G.d G.w i := by
  obtain ⟨h1, h2, h3⟩ := Mesh.pos_lt G.d i hi
  have hv := Cmfd.vol_eq G.d G.w _ _ (Mesh.coarsePosition G.d i).z h1 h2
  have he : Mesh.coarseCell G.d ⟨(Mesh.coarsePosition G.d i).x, (Mesh.coarsePosition G.d i).y, (Mesh.coarsePosition G.d i).z⟩ = i := Mesh.cell_pos G.d i
  rw [he] at hv
  rw [hv]
  exact mul_pos (mul_pos (hw.dx _ h1) (hw.dy _ h2)) (hw.dz _ h3)

theorem cells_ok (h : Regular c p G cur f0) : (cells p G (cmfdMatrix c p G cur f0)).Ok where
  good := by
    intro g hg
    have hrm : ∀ i < Mesh.nPin G.d, 0 < rmOf p.rs g i := by
      intro i hi
      obtain ⟨x, hx, hxi, -⟩ := region h.fits hi
      rw [rmOf_at p.rs h.fits.part g x hx i hxi]
      exact sub_pos.mpr (h.rm x hx g hg)
    exact ⟨fun b => Cmfd.C122_exists G.d G.w _ _ _ b h.solid (h.coupled g hg).tame hrm,
      fun x hx => Cmfd.C122_nonneg G.d G.w _ _ _ x h.solid (h.coupled g hg).tame hrm hx,
      fun x hx hp => Cmfd.C125_everywhere G.d G.w _ _ _ x h.solid (h.coupled g hg) hrm hx hp⟩
  vol := vol_pos h.solid
  ch := by
    intro i hi g hg
    obtain ⟨x, hx, hxi, e⟩ := region h.fits hi
    show 0 ≤ (cellMat p i).ch g
    rw [e]; exact h.ch x hx g hg
  nf := by
    intro i hi g hg
    obtain ⟨x, hx, hxi, e⟩ := region h.fits hi
    show 0 ≤ (cellMat p i).nf g
    rw [e]; exact h.nf x hx g hg
  sc := by
    intro i hi g hg k hk
    obtain ⟨x, hx, hxi, e⟩ := region h.fits hi
    show 0 ≤ (cellMat p i).sc g k
    rw [e]; exact h.fits.sc x hx g k hg hk
  down := by
    intro i hi g hg k hk hgk
    obtain ⟨x, hx, hxi, e⟩ := region h.fits hi
    show (cellMat p i).sc g k = 0
    rw [e]; exact h.down x hx g hg k hk hgk
  feed := by
    intro g hg
    rcases h.feed g hg with hf | ⟨k, hk, x, hx, hne, hsc⟩
    · left
      rintro i ⟨hi, k, hk, hn⟩
      obtain ⟨x, hx, hxi, e⟩ := region h.fits hi
      change 0 < (cellMat p i).nf k at hn
      show 0 < (cellMat p i).ch g
      rw [e] at hn ⊢
      exact hf x hx ⟨k, hk, hn⟩
    · right
      obtain ⟨i, hi⟩ := List.exists_mem_of_ne_nil _ hne
      refine ⟨k, hk, i, in_cells h.fits hx hi, ?_⟩
      show 0 < (cellMat p i).sc g k
      rw [cellMat_at p h.fits.part x hx i hi]; exact hsc
  some := by
    obtain ⟨x, hx, hne, k, hk, hn⟩ := h.fissile
    obtain ⟨i, hi⟩ := List.exists_mem_of_ne_nil _ hne
    refine ⟨i, in_cells h.fits hx hi, k, hk, ?_⟩
    show 0 < (cellMat p i).nf k
    rw [cellMat_at p h.fits.part x hx i hi]; exact hn

theorem src_eq (h : Fits p G) (A : Nat → Nat → Nat → ℝ) (k : ℝ) (φ : Nat → Nat → ℝ) (g : Nat) (x : XsRegion (Mat ℝ)) (hx : x ∈ p.rs) (i : Nat) (hi : i ∈ x.regs) :
    (cells p G A).src (fun i => (cells p G A).fis φ i / k) φ g i = Cmfd.vol G.d G.w i * groupSource p.ng x.mat k φ g i := by
  show Cmfd.vol G.d G.w i * ((cellMat p i).ch g * ((∑ h ∈ Finset.range p.ng, (cellMat p i).nf h * φ i h) / k) + ∑ h ∈ Finset.range p.ng, if h ≠ g then (cellMat p i).sc g h * φ i h else 0) = _
  rw [cellMat_at p h.part x hx i hi]
  rfl

theorem sol_iff (h : Regular c p G cur f0) (k : ℝ) (φ : Nat → Nat → ℝ) :
    Solution p G (cmfdMatrix c p G cur f0) k φ ↔ (cells p G (cmfdMatrix c p G cur f0)).Sol k φ := by
  have hD := cells_ok h
  constructor
  · intro s
    have hn : ∀ i < (cells p G (cmfdMatrix c p G cur f0)).n, ∀ g < (cells p G (cmfdMatrix c p G cur f0)).ng, 0 ≤ φ i g := fun i hi g hg => s.nonneg i (h.fits.cells ▸ hi) g hg
    refine ⟨s.kpos, hn, ?_, ?_⟩
    · obtain ⟨x, hx, i, hi, g, hg, hpos⟩ := s.fission
      have hi' := in_cells h.fits hx hi
      refine Finset.sum_pos' (fun i hi => Cmfd.Groups.fis_nonneg hD hn i (Finset.mem_range.mp hi)) ⟨i, Finset.mem_range.mpr hi', ?_⟩
      refine Finset.sum_pos' (fun g hg => mul_nonneg (hD.nf i hi' g (Finset.mem_range.mp hg)) (hn i hi' g (Finset.mem_range.mp hg))) ⟨g, Finset.mem_range.mpr hg, ?_⟩
      show 0 < (cellMat p i).nf g * φ i g
      rw [cellMat_at p h.fits.part x hx i hi]; exact hpos
    · intro g hg i hi
      obtain ⟨x, hx, hxi, -⟩ := region h.fits hi
      rw [src_eq h.fits _ k φ g x hx i hxi]
      exact s.solves g hg x hx i hxi
  · intro s
    refine ⟨s.kpos, fun i hi g hg => s.nonneg i (by rw [h.fits.cells] at hi; exact hi) g hg, ?_, ?_⟩
    · obtain ⟨j, hj⟩ := Cmfd.Groups.fis_some hD s.nonneg s.fis
      obtain ⟨x, hx, hxi, e⟩ := region h.fits j.1.2
      obtain ⟨g, hg, hp⟩ := Finset.exists_lt_of_sum_lt (s := Finset.range p.ng) (f := fun _ => (0 : ℝ)) (g := fun g => (cellMat p j.1).nf g * φ j.1 g) (by
        rw [Finset.sum_const_zero]; exact hj)
      exact ⟨x, hx, j.1, hxi, g, Finset.mem_range.mp hg, by rw [← e]; exact hp⟩
    · intro g hg x hx i hi
      rw [← src_eq h.fits (cmfdMatrix c p G cur f0) k φ g x hx i hi]
      exact s.solves g hg i (in_cells h.fits hx hi)

/-- C125: the systems of CMFD have a solution; its flux is positive; the eigenvalue is the only one with a flux that is not negative, and the flux is determined up to a factor. -/
theorem C125_solution (h : Regular c p G cur f0) : ∃ k φ, Solution p G (cmfdMatrix c p G cur f0) k φ ∧ (∀ i < p.nReg, ∀ g < p.ng, 0 < φ i g) ∧
    ∀ l ψ, Solution p G (cmfdMatrix c p G cur f0) l ψ → l = k ∧ ∃ a, 0 < a ∧ ∀ i < p.nReg, ∀ g < p.ng, ψ i g = a * φ i g := by
  have hD := cells_ok h
  obtain ⟨k, φ, hs⟩ := Cmfd.Groups.sol_exists hD
  refine ⟨k, φ, (sol_iff h k φ).mpr hs, fun i hi g hg => Cmfd.Groups.sol_pos hD hs g hg i (by rw [h.fits.cells] at hi; exact hi), fun l ψ hl => ?_⟩
  obtain ⟨e, a, ha, h2⟩ := Cmfd.Groups.sol_unique hD hs ((sol_iff h l ψ).mp hl)
  exact ⟨e, a, ha, fun i hi g hg => h2 i (by rw [h.fits.cells] at hi; exact hi) g hg⟩

/-! ### The iteration of the code -/

theorem cmfdSource_src (h : Regular c p G cur f0) (fs : Nat → ℝ) (f : Nat → Nat → ℝ) (g : Nat) (hg : g < p.ng) (i : Nat) (hi : i < Mesh.nPin G.d) :
    cmfdSource p G fs f g i = (cells p G (cmfdMatrix c p G cur f0)).src fs f g i := by
  obtain ⟨x, hx, hxi, e⟩ := region h.fits hi
  obtain ⟨src, h1, h2⟩ := C28_assemble_partial p.ng p.nReg p.rs fs f g h.fits.part h.fits.sc hg
  show _ = Cmfd.vol G.d G.w i * ((cellMat p i).ch g * fs i + ∑ h ∈ Finset.range p.ng, if h ≠ g then (cellMat p i).sc g h * f i h else 0)
  rw [cmfdSource, h1, Option.getD_some, h2 x hx i hxi, defined, zero_add, mul_comm, e]

/-- One iteration solves the systems with the new flux of the groups before. -/
theorem groups_solve (h : Regular c p G cur f0) (hlin : ExactSolver (Mesh.nPin G.d) c.lin) (fs : Nat → ℝ) (flux : Nat → Nat → ℝ) (m : Nat) (hm : m ≤ p.ng) (g : Nat) (hg : g < m) (i : Nat)
    (hi : i < Mesh.nPin G.d) :
    Cmfd.Groups.row (Mesh.nPin G.d) (cmfdMatrix c p G cur f0 g) (fun j => (cmfdGroups c p G (cmfdMatrix c p G cur f0) fs (List.range m) (flux, 0)).1 j g) i =
      (cells p G (cmfdMatrix c p G cur f0)).src fs (cmfdGroups c p G (cmfdMatrix c p G cur f0) fs (List.range m) (flux, 0)).1 g i := by
  have hD := cells_ok h
  induction m with
  | zero => omega
  | succ m ih =>
    set A := cmfdMatrix c p G cur f0 with hA
    have e0 : cmfdGroups c p G A fs (List.range (m + 1)) (flux, 0) = cmfdGroups c p G A fs [m] (cmfdGroups c p G A fs (List.range m) (flux, 0)) := by
      rw [List.range_succ, cmfdGroups_append]
    set r := cmfdGroups c p G A fs (List.range m) (flux, 0) with hr
    have e1 : (cmfdGroups c p G A fs [m] r).1 = fun i h => if h = m then c.lin (A m) (cmfdSource p G fs r.1 m) (fun i => r.1 i m) i else r.1 i h := rfl
    rw [e0, e1]
    have e2 : ∀ k ≤ m, (cells p G A).src fs (fun i h => if h = m then c.lin (A m) (cmfdSource p G fs r.1 m) (fun i => r.1 i m) i else r.1 i h) k i = (cells p G A).src fs r.1 k i := fun k hk =>
      Cmfd.Groups.src_congr hD (by show k < p.ng; omega) hi rfl fun h hh => if_neg (by omega)
    rcases Nat.lt_succ_iff_lt_or_eq.mp hg with hlt | rfl
    · rw [e2 g hlt.le, ← ih (by omega) hlt]
      simp only [if_neg hlt.ne]
    · rw [e2 g le_rfl]
      simp only [if_true]
      have := hlin (A g) (cmfdSource p G fs r.1 g) (fun i => r.1 i g) ((hD.good g (by show g < p.ng; omega)).ex _) i hi
      rw [cmfdSource_src h fs r.1 g (by omega) i hi] at this
      exact this

theorem fs_eq (h : Regular c p G cur f0) (A : Nat → Nat → Nat → ℝ) (φ : Nat → Nat → ℝ) (k : ℝ) (i : Nat) (hi : i < Mesh.nPin G.d) :
    (cmfdProblem c p G A).fissionSource φ k i = (cells p G (cmfdMatrix c p G cur f0)).fis φ i / k := by
  obtain ⟨x, hx, hxi, e⟩ := region h.fits hi
  rw [fissionSource_eq c p G h.fits A k φ φ (fun _ _ _ _ => rfl) x hx i hxi]
  show _ = (∑ g ∈ Finset.range p.ng, (cellMat p i).nf g * φ i g) / k
  rw [e]

theorem total_eq (h : Regular c p G cur f0) (A : Nat → Nat → Nat → ℝ) (φ : Nat → Nat → ℝ) : (cmfdProblem c p G A).totalFission φ = (cells p G (cmfdMatrix c p G cur f0)).total φ := by
  refine Finset.sum_congr rfl fun i hi => Finset.sum_congr rfl fun g hg => ?_
  obtain ⟨x, hx, hxi, e⟩ := region h.fits (Finset.mem_range.mp hi)
  show nfOf p.rs g i * _ = (cellMat p i).nf g * _
  rw [nfOf_at p.rs h.fits.part g x hx i hxi, e]

theorem after_tfis (q : Cmfd.Problem ℝ) (k : ℝ) (φ : Nat → Nat → ℝ) (m : Nat) : (q.after (q.start k φ) m).tfis = q.totalFission (q.after (q.start k φ) m).flux := by
  cases m with
  | zero => rfl
  | succ m => rfl

/-- The states of the code are an iteration in the sense of `Verif.Cmfd.Groups`. -/
theorem iter (h : Regular c p G cur f0) (hlin : ExactSolver (Mesh.nPin G.d) c.lin) (k0 : ℝ) (hk0 : 0 < k0) (φ0 : Nat → Nat → ℝ) (hφ : ∀ i < p.nReg, ∀ g < p.ng, 0 ≤ φ0 i g)
    (hf : 0 < (cmfdProblem c p G (cmfdMatrix c p G cur f0)).totalFission φ0) :
    let q := cmfdProblem c p G (cmfdMatrix c p G cur f0)
    (cells p G (cmfdMatrix c p G cur f0)).Iter (fun m => (q.after (q.start k0 φ0) m).flux) (fun m => (q.after (q.start k0 φ0) m).k) := by
  intro q
  refine ⟨hk0, fun i hi g hg => hφ i (by rw [h.fits.cells]; exact hi) g hg, by rw [← total_eq h]; exact hf, ?_, ?_⟩
  · intro m g hg i hi
    set s := q.after (q.start k0 φ0) m with hs
    have e := groups_solve h hlin (q.fissionSource s.flux s.k) s.flux p.ng le_rfl g hg i hi
    change Cmfd.Groups.row _ _ (fun j => (cmfdGroups c p G (cmfdMatrix c p G cur f0) (q.fissionSource s.flux s.k) (List.range p.ng) (s.flux, 0)).1 j g) i = _
    refine e.trans (Cmfd.Groups.src_congr (cells_ok h) hg hi ?_ fun _ _ => rfl)
    exact fs_eq h _ _ _ i hi
  · intro m
    show (q.after (q.start k0 φ0) m).k * q.totalFission (q.iteration (q.after (q.start k0 φ0) m)).flux / (q.after (q.start k0 φ0) m).tfis = _
    rw [after_tfis, total_eq h, total_eq h]
    rfl

/-- C125: from every flux that is not negative, with some fission, and every positive eigenvalue, eigenvalue and flux of the iterations tend to the solution; the factor of the flux is
determined by the sum of the fission source, which does not change. -/
theorem C125_converges (h : Regular c p G cur f0) (hlin : ExactSolver (Mesh.nPin G.d) c.lin) (k : ℝ) (φ : Nat → Nat → ℝ) (hs : Solution p G (cmfdMatrix c p G cur f0) k φ)
    (k0 : ℝ) (hk0 : 0 < k0) (φ0 : Nat → Nat → ℝ) (hφ : ∀ i < p.nReg, ∀ g < p.ng, 0 ≤ φ0 i g) (hf : 0 < (cmfdProblem c p G (cmfdMatrix c p G cur f0)).totalFission φ0) :
    let q := cmfdProblem c p G (cmfdMatrix c p G cur f0)
    Tendsto (fun m => (q.after (q.start k0 φ0) m).k) atTop (𝓝 k) ∧
    (∀ i < p.nReg, ∀ g < p.ng, Tendsto (fun m => (q.after (q.start k0 φ0) m).flux i g) atTop (𝓝 ((q.totalFission φ0 / k0) / (q.totalFission φ / k) * φ i g))) ∧
    ∀ m, q.totalFission (q.after (q.start k0 φ0) m).flux / (q.after (q.start k0 φ0) m).k = q.totalFission φ0 / k0 := by
  intro q
  have hit := iter h hlin k0 hk0 φ0 hφ hf
  obtain ⟨h1, -, h3⟩ := Cmfd.Groups.iter_converges (cells_ok h) hit ((sol_iff h k φ).mp hs)
  refine ⟨h1, fun i hi g hg => ?_, fun m => ?_⟩
  · rw [total_eq h, total_eq h]
    exact h3 g hg i (by rw [h.fits.cells] at hi; exact hi)
  · rw [total_eq h, total_eq h]
    exact Cmfd.Groups.iter_sum (cells_ok h) hit m

/-- C125: all fluxes after the first iteration are positive, and all eigenvalues. -/
theorem C125_positive (h : Regular c p G cur f0) (hlin : ExactSolver (Mesh.nPin G.d) c.lin) (k0 : ℝ) (hk0 : 0 < k0) (φ0 : Nat → Nat → ℝ)
    (hφ : ∀ i < p.nReg, ∀ g < p.ng, 0 ≤ φ0 i g) (hf : 0 < (cmfdProblem c p G (cmfdMatrix c p G cur f0)).totalFission φ0) (m : Nat) :
    let q := cmfdProblem c p G (cmfdMatrix c p G cur f0)
    0 < (q.after (q.start k0 φ0) (m + 1)).k ∧ ∀ i < p.nReg, ∀ g < p.ng, 0 < (q.after (q.start k0 φ0) (m + 1)).flux i g := by
  intro q
  obtain ⟨h1, -, -, h4⟩ := Cmfd.Groups.iter_inv (cells_ok h) (iter h hlin k0 hk0 φ0 hφ hf) (m + 1)
  exact ⟨h1, fun i hi g hg => h4 (Nat.succ_pos m) g hg i (by rw [h.fits.cells] at hi; exact hi)⟩

/-- The residual norm of an iteration: that of the difference of the fluxes before and after. -/
theorem residual_eq (h : Regular c p G cur f0) (hlin : ExactSolver (Mesh.nPin G.d) c.lin) (s : Cmfd.LoopState ℝ) :
    ((cmfdProblem c p G (cmfdMatrix c p G cur f0)).iteration s).ri = c.sqrt (∑ g ∈ Finset.range p.ng, ∑ i ∈ Finset.range (Mesh.nPin G.d),
      (Cmfd.Groups.row (Mesh.nPin G.d) (cmfdMatrix c p G cur f0 g) (fun j => s.flux j g) i -
        Cmfd.Groups.row (Mesh.nPin G.d) (cmfdMatrix c p G cur f0 g) (fun j => ((cmfdProblem c p G (cmfdMatrix c p G cur f0)).iteration s).flux j g) i) ^ 2) /
      ((Mesh.nPin G.d : ℝ) * (p.ng : ℝ)) := by
  set q := cmfdProblem c p G (cmfdMatrix c p G cur f0) with hq
  show c.sqrt (cmfdGroups c p G (cmfdMatrix c p G cur f0) (q.fissionSource s.flux s.k) (List.range p.ng) (s.flux, 0)).2 / _ = _
  rw [C116_residuals]
  congr 2
  refine Finset.sum_congr rfl fun g hg => Finset.sum_congr rfl fun i hi => ?_
  have hg := Finset.mem_range.mp hg
  have hi := Finset.mem_range.mp hi
  congr 2
  have e1 := groups_solve h hlin (q.fissionSource s.flux s.k) s.flux p.ng le_rfl g hg i hi
  refine Eq.trans ?_ e1.symm
  rw [cmfdSource_src h _ _ g hg i hi]
  refine Cmfd.Groups.src_congr (cells_ok h) hg hi rfl fun k hk => ?_
  obtain ⟨b, hb⟩ : ∃ b, p.ng = g + b := ⟨p.ng - g, by omega⟩
  have hk' : k ∉ (List.range b).map (g + ·) := by
    intro hk'
    obtain ⟨a, -, ha⟩ := List.mem_map.mp hk'
    omega
  have e2 := cmfdGroups_other c p G (cmfdMatrix c p G cur f0) (q.fissionSource s.flux s.k) _
    (cmfdGroups c p G (cmfdMatrix c p G cur f0) (q.fissionSource s.flux s.k) (List.range g) (s.flux, 0)) k hk' i
  rw [← cmfdGroups_append, ← List.range_add, ← hb] at e2
  exact e2.symm

/-- C125: with positive tolerances the iterations meet the criteria for stopping, if only enough of them are allowed: the loop ends, after a number of iterations that does not depend on
`max_iter`, with all three criteria met. -/
theorem C125_stops (h : Regular c p G cur f0) (hlin : ExactSolver (Mesh.nPin G.d) c.lin) (hsq : c.sqrt = Real.sqrt) (h1 : 0 < c.kTol) (h2 : 0 < c.psiTol) (h3 : 0 < c.residRed)
    (k0 : ℝ) (hk0 : 0 < k0) (flux : Nat → Nat → ℝ) (hφ : ∀ i < p.nReg, ∀ g < p.ng, 0 ≤ flux i g)
    (hf : 0 < (cmfdProblem c p G (cmfdMatrix c p G cur f0)).totalFission flux) (r0 : ℝ) (hr0 : 0 < r0) :
    ∃ N, ∀ m ≥ N, (cmfdProblem c p G (cmfdMatrix c p G cur f0)).Stop r0 ((cmfdProblem c p G (cmfdMatrix c p G cur f0)).start k0 flux) m := by
  obtain ⟨k, φ, hs, -⟩ := C125_solution h
  have hit := iter h hlin k0 hk0 flux hφ hf
  obtain ⟨l1, l2, l3⟩ := Cmfd.Groups.iter_converges (cells_ok h) hit ((sol_iff h k φ).mp hs)
  set q := cmfdProblem c p G (cmfdMatrix c p G cur f0) with hq
  set s := q.start k0 flux with hsd
  have t1 : Tendsto (fun m => |(q.after s (m + 1)).k - (q.after s m).k|) atTop (𝓝 0) := by
    have := (((tendsto_add_atTop_iff_nat 1).mpr l1).sub l1).abs
    rwa [sub_self, abs_zero] at this
  have t2 : Tendsto (fun m => (q.after s (m + 1)).psiErr) atTop (𝓝 0) := by
    refine (tendsto_add_atTop_iff_nat 1).mp ?_
    have e : ∀ m, (q.after s (m + 1 + 1)).psiErr = Real.sqrt (∑ i ∈ Finset.range (Mesh.nPin G.d),
        ((cells p G (cmfdMatrix c p G cur f0)).fis (q.after s (m + 1)).flux i / (q.after s (m + 1)).k - (cells p G (cmfdMatrix c p G cur f0)).fis (q.after s m).flux i / (q.after s m).k) ^ 2) := by
      intro m
      have := Cmfd.C59_later_change q (q.after s m)
      rw [← hsq]
      refine this.trans ?_
      show c.sqrt _ = _
      congr 1
      refine Finset.sum_congr rfl fun i hi => ?_
      rw [fs_eq h _ _ _ i (Finset.mem_range.mp hi), fs_eq h _ _ _ i (Finset.mem_range.mp hi)]
      rfl
    simp only [e]
    have t : Tendsto (fun m => ∑ i ∈ Finset.range (Mesh.nPin G.d),
        ((cells p G (cmfdMatrix c p G cur f0)).fis (q.after s (m + 1)).flux i / (q.after s (m + 1)).k - (cells p G (cmfdMatrix c p G cur f0)).fis (q.after s m).flux i / (q.after s m).k) ^ 2)
        atTop (𝓝 (∑ i ∈ Finset.range (Mesh.nPin G.d), (0 : ℝ) ^ 2)) := by
      refine tendsto_finsetSum _ fun i hi => ?_
      have l := l2 i (Finset.mem_range.mp hi)
      have := (((tendsto_add_atTop_iff_nat 1).mpr l).sub l).pow 2
      rwa [sub_self] at this
    have := t.sqrt
    simpa using this
  have t3 : Tendsto (fun m => (q.after s (m + 1)).ri / r0) atTop (𝓝 0) := by
    have e : ∀ m, (q.after s (m + 1)).ri = _ := fun m => residual_eq h hlin (q.after s m)
    simp only [e, hsq]
    have lr : ∀ g < p.ng, ∀ i, Tendsto (fun m => Cmfd.Groups.row (Mesh.nPin G.d) (cmfdMatrix c p G cur f0 g) (fun j => (q.after s m).flux j g) i) atTop
        (𝓝 (Cmfd.Groups.row (Mesh.nPin G.d) (cmfdMatrix c p G cur f0 g) (fun j => ((cells p G (cmfdMatrix c p G cur f0)).total (q.after s 0).flux / (q.after s 0).k) /
          ((cells p G (cmfdMatrix c p G cur f0)).total φ / k) * φ j g) i)) := by
      intro g hg i
      unfold Cmfd.Groups.row
      exact tendsto_finsetSum _ fun j hj => (l3 g hg j (Finset.mem_range.mp hj)).const_mul _
    have t : Tendsto (fun m => ∑ g ∈ Finset.range p.ng, ∑ i ∈ Finset.range (Mesh.nPin G.d),
        (Cmfd.Groups.row (Mesh.nPin G.d) (cmfdMatrix c p G cur f0 g) (fun j => (q.after s m).flux j g) i -
        Cmfd.Groups.row (Mesh.nPin G.d) (cmfdMatrix c p G cur f0 g) (fun j => (q.after s (m + 1)).flux j g) i) ^ 2) atTop
        (𝓝 (∑ g ∈ Finset.range p.ng, ∑ i ∈ Finset.range (Mesh.nPin G.d), (0 : ℝ) ^ 2)) := by
      refine tendsto_finsetSum _ fun g hg => tendsto_finsetSum _ fun i hi => ?_
      have l := lr g (Finset.mem_range.mp hg) i
      have := (l.sub ((tendsto_add_atTop_iff_nat 1).mpr l)).pow 2
      rwa [sub_self] at this
    have := (t.sqrt.div_const ((Mesh.nPin G.d : ℝ) * (p.ng : ℝ))).div_const r0
    have e0 : Real.sqrt (∑ g ∈ Finset.range p.ng, ∑ i ∈ Finset.range (Mesh.nPin G.d), (0 : ℝ) ^ 2) / ((Mesh.nPin G.d : ℝ) * (p.ng : ℝ)) / r0 = 0 := by simp
    rw [e0] at this
    exact this
  have ev := ((t1.eventually_lt_const h1).and ((t2.eventually_lt_const h2).and (t3.eventually_lt_const h3)))
  obtain ⟨N, hN⟩ := eventually_atTop.mp ev
  exact ⟨N, fun m hm => ⟨(hN m hm).1, (hN m hm).2.1, hr0.ne', (hN m hm).2.2⟩⟩

theorem cmfdGroups_maxIter (M : Nat) (A : Nat → Nat → Nat → ℝ) (fs : Nat → ℝ) (l : List Nat) (r : Cmfd.Flux ℝ × ℝ) :
    cmfdGroups { c with maxIter := M } p G A fs l r = cmfdGroups c p G A fs l r := by
  induction l generalizing r with
  | nil => rfl
  | cons g l ih => exact ih _

theorem cmfdProblem_maxIter (M : Nat) (A : Nat → Nat → Nat → ℝ) : cmfdProblem { c with maxIter := M } p G A = { cmfdProblem c p G A with maxIter := M } := by
  unfold cmfdProblem
  simp only [cmfdGroups_maxIter]

theorem after_maxIter (q : Cmfd.Problem ℝ) (M : Nat) (s : Cmfd.LoopState ℝ) (n : Nat) : ({ q with maxIter := M } : Cmfd.Problem ℝ).after s n = q.after s n := by
  induction n with
  | zero => rfl
  | succ n ih =>
    show ({ q with maxIter := M } : Cmfd.Problem ℝ).iteration _ = q.iteration _
    rw [ih]
    rfl

theorem after_iter (q : Cmfd.Problem ℝ) (s : Cmfd.LoopState ℝ) (n : Nat) : (q.after s n).iter = s.iter + n := by
  induction n with
  | zero => rfl
  | succ n ih =>
    show (q.after s n).iter + 1 = _
    rw [ih]; omega

/-- C125, `solve`: for positive tolerances and an initial residual that is not zero there is a number of iterations after which the loop ends with the three criteria met, however large
`max_iter` is; the flux it leaves is positive. -/
theorem C125_run (flux : Nat → Nat → ℝ) (h : Regular c p G cur (Cmfd.zeroFix c.fix flux)) (hlin : ExactSolver (Mesh.nPin G.d) c.lin) (hsq : c.sqrt = Real.sqrt) (h1 : 0 < c.kTol)
    (h2 : 0 < c.psiTol) (h3 : 0 < c.residRed) (k0 : ℝ) (hk0 : 0 < k0) (hφ : ∀ i < p.nReg, ∀ g < p.ng, 0 ≤ Cmfd.zeroFix c.fix flux i g)
    (hf : ∃ x ∈ p.rs, ∃ i ∈ x.regs, ∃ g < p.ng, 0 < x.mat.nf g * Cmfd.zeroFix c.fix flux i g)
    (hr0 : cmfdResidual c p G (cmfdMatrix c p G cur (Cmfd.zeroFix c.fix flux))
      ((cmfdProblem c p G (cmfdMatrix c p G cur (Cmfd.zeroFix c.fix flux))).fissionSource (Cmfd.zeroFix c.fix flux) k0) (Cmfd.zeroFix c.fix flux) ≠ 0) :
    ∃ N, ∀ M ≥ N, let r := cmfdRun { c with maxIter := M } p G k0 flux cur
      r.1.iter ≤ N + 1 ∧ |r.1.k - r.1.kOld| < c.kTol ∧ r.1.psiErr < c.psiTol ∧
      r.1.ri / cmfdResidual c p G (cmfdMatrix c p G cur (Cmfd.zeroFix c.fix flux))
        ((cmfdProblem c p G (cmfdMatrix c p G cur (Cmfd.zeroFix c.fix flux))).fissionSource (Cmfd.zeroFix c.fix flux) k0) (Cmfd.zeroFix c.fix flux) < c.residRed ∧
      0 < r.1.k ∧ ∀ i < p.nReg, ∀ g < p.ng, 0 < r.2 i g ∧ r.2 i g = r.1.flux i g := by
  set f0 := Cmfd.zeroFix c.fix flux with hf0
  set q := cmfdProblem c p G (cmfdMatrix c p G cur f0) with hq
  set r0 := cmfdResidual c p G (cmfdMatrix c p G cur f0) (q.fissionSource f0 k0) f0 with hr
  have hr0' : 0 < r0 := by
    refine lt_of_le_of_ne ?_ (Ne.symm hr0)
    rw [hr, cmfdResidual, hsq]
    positivity
  have hfis : 0 < q.totalFission f0 := by
    obtain ⟨x, hx, i, hi, g, hg, hpos⟩ := hf
    have hi' := in_cells h.fits hx hi
    have hnn : ∀ i < Mesh.nPin G.d, ∀ g < p.ng, 0 ≤ f0 i g := fun i hi g hg => hφ i (by rw [h.fits.cells]; exact hi) g hg
    rw [total_eq h]
    refine Finset.sum_pos' (fun i hi => Cmfd.Groups.fis_nonneg (cells_ok h) hnn i (Finset.mem_range.mp hi)) ⟨i, Finset.mem_range.mpr hi', ?_⟩
    refine Finset.sum_pos' (fun g hg => mul_nonneg ((cells_ok h).nf i hi' g (Finset.mem_range.mp hg)) (hnn i hi' g (Finset.mem_range.mp hg))) ⟨g, Finset.mem_range.mpr hg, ?_⟩
    show 0 < (cellMat p i).nf g * f0 i g
    rw [cellMat_at p h.fits.part x hx i hi]; exact hpos
  obtain ⟨N, hN⟩ := C125_stops h hlin hsq h1 h2 h3 k0 hk0 f0 hφ hfis r0 hr0'
  refine ⟨N, fun M hM => ?_⟩
  intro r
  have er : r = ({ q with maxIter := M } : Cmfd.Problem ℝ).run r0 c.fix k0 flux := by
    show (cmfdProblem { c with maxIter := M } p G (cmfdMatrix c p G cur f0)).run _ c.fix k0 flux = _
    rw [cmfdProblem_maxIter]
    rfl
  obtain ⟨n, hn, e1, e2, e3⟩ := Cmfd.C59_stops ({ q with maxIter := M } : Cmfd.Problem ℝ) r0 c.fix k0 flux
  have hstop : ∀ j, ({ q with maxIter := M } : Cmfd.Problem ℝ).Stop r0 (({ q with maxIter := M } : Cmfd.Problem ℝ).start k0 f0) j ↔ q.Stop r0 (q.start k0 f0) j := by
    intro j
    unfold Cmfd.Problem.Stop
    rw [after_maxIter q M _ (j + 1), after_maxIter q M _ j]
    rfl
  have hnN : n ≤ N := by
    by_contra hcon
    exact e3 N (by omega) ((hstop N).mpr (hN N le_rfl))
  have hS : q.Stop r0 (q.start k0 f0) n := by
    rcases Nat.lt_or_ge n M with hlt | hge
    · exact (hstop n).mp (e2 hlt)
    · exact hN n (by omega)
  rw [after_maxIter] at e1
  have e1' : r.1 = q.after (q.start k0 f0) (n + 1) := by rw [er]; exact e1
  have hpos := C125_positive h hlin k0 hk0 f0 hφ hfis n
  rw [e1']
  refine ⟨?_, hS.1, hS.2.1, hS.2.2.2, hpos.1, fun i hi g hg => ?_⟩
  · rw [after_iter]
    show 0 + (n + 1) ≤ _
    omega
  · have hfl : r.2 i g = |r.1.flux i g| := by rw [er]; exact Cmfd.C59_nonneg _ r0 c.fix k0 flux i g
    rw [hfl, e1', abs_of_pos (hpos.2 i hi g hg)]
    exact ⟨hpos.2 i hi g hg, rfl⟩

end

/-! ### Example: fuel beside a reflector, two groups -/

/-- A solver by choice. -/
noncomputable def anySolver (n : Nat) (A : Nat → Nat → ℝ) (b _x0 : Nat → ℝ) : Nat → ℝ := by
  classical exact if h : ∃ x : Nat → ℝ, ∀ i < n, ∑ j ∈ Finset.range n, A i j * x j = b i then Classical.choose h else fun _ => 0

theorem anySolver_exact (n : Nat) : ExactSolver n (anySolver n) := by
  intro A b x0 h
  unfold anySolver
  rw [dif_pos h]
  exact Classical.choose_spec h

noncomputable def cvFuel : Mat ℝ := { tr := fun _ => 1, nf := fun g => if g = 1 then 1 else 0, f := fun _ => 0, ch := fun g => if g = 0 then 1 else 0, sc := fun g h => if g = 1 ∧ h = 0 then 1 / 2 else 0 }
noncomputable def cvWater : Mat ℝ := { tr := fun _ => 2, nf := fun _ => 0, f := fun _ => 0, ch := fun _ => 0, sc := fun g h => if g = 1 ∧ h = 0 then 1 / 3 else 0 }
noncomputable def cvProblem : Problem ℝ := { ng := 2, nReg := 2, rs := [⟨cvFuel, [0]⟩, ⟨cvWater, [1]⟩], vol := fun _ => 1 }
noncomputable def cvGrid : Grid ℝ := { d := ⟨2, 1, 1⟩, w := ⟨[1, 1], [1], [1]⟩, hpi := 1 }
noncomputable def cvSetup : CmfdSetup ℝ :=
  { dt := fun _ _ => 1 / 5, kTol := 1 / 100, psiTol := 1 / 100, residRed := 1 / 100, maxIter := 3, fix := true, sqrt := Real.sqrt, lin := anySolver 2 }

/-- No currents: at the sides of the domain the correction cancels the coupling. -/
theorem cvRegular : Regular cvSetup cvProblem cvGrid (fun _ _ => 0) (Cmfd.zeroFix true fun _ _ => 1) where
  fits := by
    refine ⟨⟨?_, ?_⟩, ?_, rfl, ?_⟩
    · simp [cvProblem]
    · simp [cvProblem]
    · intro i; simp only [cvProblem, List.mem_cons, List.not_mem_nil, or_false, exists_eq_or_imp, exists_eq_left]; omega
    · simp only [cvProblem, List.mem_cons, List.not_mem_nil, or_false, forall_eq_or_imp, forall_eq]
      refine ⟨?_, ?_⟩ <;> intro a b _ _ <;> simp only [cvFuel, cvWater] <;> split <;> norm_num
  solid := by
    refine ⟨?_, ?_, ?_⟩ <;> intro i hi <;> simp only [cvGrid] at hi ⊢ <;> interval_cases i <;> simp
  coupled := by
    intro g _
    have hone : ∀ c : Option (Nat × Nat × Nat), Cmfd.side (fun i => Cmfd.zeroFix true (fun _ _ => (1 : ℝ)) i g) (Mesh.idx cvGrid.d.nx cvGrid.d.ny c) = if c.isSome then 1 else 0 := by
      rintro (_ | ⟨i, j, k⟩)
      · simp [Mesh.idx, Cmfd.side]
      · rw [Cmfd.side_idx]; simp [Cmfd.zeroFix]
    refine ⟨fun f hv => ?_, fun f hv hb ha => ?_⟩
    · unfold Cmfd.dHatAt
      rw [Mesh.coarseNeighCells_enc _ f hv, hone, hone]
      cases (Mesh.Spec.below f).isSome <;> cases (Mesh.Spec.above cvGrid.d.nx cvGrid.d.ny cvGrid.d.nz f).isSome <;> simp [Cmfd.dHat, cvSetup]
    · unfold Cmfd.dHatAt
      rw [Mesh.coarseNeighCells_enc _ f hv, hone, hone, hb, ha]
      simp [Cmfd.dHat, cvSetup]
  rm := by
    simp only [cvProblem, List.mem_cons, List.not_mem_nil, or_false, forall_eq_or_imp, forall_eq]
    refine ⟨?_, ?_⟩ <;> intro g _ <;> simp only [cvFuel, cvWater] <;> rw [if_neg (by omega)] <;> norm_num
  nf := by
    simp only [cvProblem, List.mem_cons, List.not_mem_nil, or_false, forall_eq_or_imp, forall_eq]
    refine ⟨?_, ?_⟩ <;> intro g _ <;> simp only [cvFuel, cvWater] <;> try split
    all_goals norm_num
  ch := by
    simp only [cvProblem, List.mem_cons, List.not_mem_nil, or_false, forall_eq_or_imp, forall_eq]
    refine ⟨?_, ?_⟩ <;> intro g _ <;> simp only [cvFuel, cvWater] <;> try split
    all_goals norm_num
  down := by
    simp only [cvProblem, List.mem_cons, List.not_mem_nil, or_false, forall_eq_or_imp, forall_eq]
    refine ⟨?_, ?_⟩ <;> intro g _ h _ hgh <;> simp only [cvFuel, cvWater] <;> exact if_neg (by omega)
  feed := by
    intro g hg
    simp only [cvProblem] at hg
    interval_cases g
    · left
      simp only [cvProblem, List.mem_cons, List.not_mem_nil, or_false, forall_eq_or_imp, forall_eq]
      simp [cvFuel, cvWater]
    · right
      exact ⟨0, one_pos, ⟨cvFuel, [0]⟩, by simp [cvProblem], by simp, by simp [cvFuel]⟩
  fissile := ⟨⟨cvFuel, [0]⟩, by simp [cvProblem], by simp, 1, by simp [cvProblem], by simp [cvFuel]⟩

/-- C125 applies to it. -/
example : ∃ k φ, Solution cvProblem cvGrid (cmfdMatrix cvSetup cvProblem cvGrid (fun _ _ => 0) (Cmfd.zeroFix true fun _ _ => 1)) k φ ∧
    Tendsto (fun m => ((cmfdProblem cvSetup cvProblem cvGrid (cmfdMatrix cvSetup cvProblem cvGrid (fun _ _ => 0) (Cmfd.zeroFix true fun _ _ => 1))).after
      ((cmfdProblem cvSetup cvProblem cvGrid (cmfdMatrix cvSetup cvProblem cvGrid (fun _ _ => 0) (Cmfd.zeroFix true fun _ _ => 1))).start 1 fun _ _ => 1) m).k) atTop (𝓝 k) := by
  obtain ⟨k, φ, hs, -⟩ := C125_solution cvRegular
  refine ⟨k, φ, hs, (C125_converges cvRegular (anySolver_exact 2) k φ hs 1 one_pos (fun _ _ => 1) (fun _ _ _ _ => zero_le_one) ?_).1⟩
  have e : Mesh.nPin cvGrid.d = 2 := rfl
  have hn : ∀ g : Nat, nfOf cvProblem.rs g 0 = cvFuel.nf g := fun g => nfOf_at _ cvRegular.fits.part g ⟨cvFuel, [0]⟩ (by simp [cvProblem]) 0 (by simp)
  have hn' : ∀ g : Nat, nfOf cvProblem.rs g 1 = cvWater.nf g := fun g => nfOf_at _ cvRegular.fits.part g ⟨cvWater, [1]⟩ (by simp [cvProblem]) 1 (by simp)
  show 0 < ∑ i ∈ Finset.range (Mesh.nPin cvGrid.d), ∑ g ∈ Finset.range 2, nfOf cvProblem.rs g i * 1
  rw [e]
  simp [Finset.sum_range_succ, hn, hn', cvFuel, cvWater]

/-- And so does the theorem about `solve`: the flat flux is not a solution, as the reflector absorbs. -/
example : ∃ N, ∀ M ≥ N, (cmfdRun { cvSetup with maxIter := M } cvProblem cvGrid 1 (fun _ _ => 1) fun _ _ => 0).1.iter ≤ N + 1 := by
  have hone : ∀ i g, Cmfd.zeroFix cvSetup.fix (fun _ _ => (1 : ℝ)) i g = 1 := fun i g => by simp [Cmfd.zeroFix]
  obtain ⟨N, hN⟩ := C125_run (c := cvSetup) (fun _ _ => 1) cvRegular (anySolver_exact 2) rfl (by norm_num [cvSetup]) (by norm_num [cvSetup]) (by norm_num [cvSetup]) 1 one_pos
    (fun i _ g _ => by rw [hone]; exact zero_le_one) ⟨⟨cvFuel, [0]⟩, by simp [cvProblem], 0, by simp, 1, by simp [cvProblem], by rw [hone]; simp [cvFuel]⟩ (by
      set f0 := Cmfd.zeroFix cvSetup.fix (fun _ _ => (1 : ℝ)) with hf0
      set A := cmfdMatrix cvSetup cvProblem cvGrid (fun _ _ => 0) f0 with hA
      set fs := (cmfdProblem cvSetup cvProblem cvGrid A).fissionSource f0 1 with hfs
      have hrow : Cmfd.Groups.row 2 (A 0) (fun j => f0 j 0) 1 = 2 := by
        have hv : Cmfd.vol cvGrid.d cvGrid.w 1 = 1 := by
          have := Cmfd.vol_eq cvGrid.d cvGrid.w 1 0 0 (by decide) (by decide)
          rw [show Mesh.coarseCell cvGrid.d ⟨1, 0, 0⟩ = 1 from rfl] at this
          rw [this]; simp [cvGrid]
        have hm : rmOf cvProblem.rs 0 1 = 2 := by
          rw [rmOf_at _ cvRegular.fits.part 0 ⟨cvWater, [1]⟩ (by simp [cvProblem]) 1 (by simp)]
          simp [cvWater]
        have := Cmfd.C40_fixed_point cvGrid.d cvGrid.w (rmOf cvProblem.rs 0) (cvSetup.dt 0) (fun _ => 0) (fun j => f0 j 0) (fun _ => 2) (fun c _ => by rw [hone]; exact one_pos) 1 0 0
          (by decide) (by decide) (by decide) (by
            rw [show Mesh.coarseCell cvGrid.d ⟨1, 0, 0⟩ = 1 from rfl, hv, hm, hone, List.sum_eq_zero]
            · norm_num
            · intro y hy
              obtain ⟨f, -, rfl⟩ := List.mem_map.mp hy
              unfold Cmfd.signed
              split <;> simp)
        exact this
      have hsrc : cmfdSource cvProblem cvGrid fs f0 0 1 = 0 := by
        rw [cmfdSource_src cvRegular fs f0 0 (by simp [cvProblem]) 1 (by decide)]
        show Cmfd.vol cvGrid.d cvGrid.w 1 * ((cellMat cvProblem 1).ch 0 * fs 1 + ∑ h ∈ Finset.range 2, if h ≠ 0 then (cellMat cvProblem 1).sc 0 h * f0 1 h else 0) = 0
        rw [cellMat_at cvProblem cvRegular.fits.part ⟨cvWater, [1]⟩ (by simp [cvProblem]) 1 (by simp)]
        simp [cvWater]
      have hres : 0 < residual1g 2 (A 0) (fun i => f0 i 0) (cmfdSource cvProblem cvGrid fs f0 0) := by
        refine Finset.sum_pos' (fun i _ => mul_self_nonneg _) ⟨1, by simp, ?_⟩
        change 0 < (Cmfd.Groups.row 2 (A 0) (fun j => f0 j 0) 1 - _) * (Cmfd.Groups.row 2 (A 0) (fun j => f0 j 0) 1 - _)
        rw [hrow, hsrc]; norm_num
      have hsum : 0 < ∑ g ∈ Finset.range 2, residual1g 2 (A g) (fun i => f0 i g) (cmfdSource cvProblem cvGrid fs f0 g) :=
        Finset.sum_pos' (fun g _ => Finset.sum_nonneg fun i _ => mul_self_nonneg _) ⟨0, by simp, hres⟩
      have hden : ((cvProblem.ng : ℝ) * (Mesh.nPin cvGrid.d : ℝ)) ≠ 0 := by
        rw [show cvProblem.ng = 2 from rfl, show Mesh.nPin cvGrid.d = 2 from rfl]; norm_num
      exact div_ne_zero (Real.sqrt_pos.mpr hsum).ne' hden)
  exact ⟨N, fun M hM => (hN M hM).1⟩

end Verif.Medium
