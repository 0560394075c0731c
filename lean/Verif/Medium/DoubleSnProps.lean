import Verif.Medium.ReciprocalSnProps
import Mathlib.Tactic.Linarith
import Mathlib.Tactic.Ring

/-!
# C157: reflection on the east side and the core with its mirror image beside it, Sn
-/

set_option linter.unusedSectionVars false

namespace Verif.Sn

open Finset
open Verif.Mesh (Dims coarseCell)

/-- Column `ix` of a core of `2 * n` columns, seen in the western half. -/
def fold (n ix : Nat) : Nat := if ix < n then ix else 2 * n - 1 - ix

/-- Rows of `2 * n` values one after another: the place of value `j` in rows of `n`, and whether it is in the eastern half. -/
def foldIx (n j : Nat) : Nat := n * (j / (2 * n)) + fold n (j % (2 * n))

def right (n j : Nat) : Bool := decide (n ≤ j % (2 * n))

/-- The mesh with its mirror image east of it. -/
def wide (d : Dims) : Dims := { d with nx := 2 * d.nx }

theorem fold_lt (n ix : Nat) (h : ix < 2 * n) : fold n ix < n := by
  unfold fold; split_ifs <;> omega

theorem foldIx_row (n r ix : Nat) (h : ix < 2 * n) : foldIx n (2 * n * r + ix) = n * r + fold n ix ∧ right n (2 * n * r + ix) = decide (n ≤ ix) := by
  unfold foldIx right
  rw [Nat.mul_add_mod, Nat.mod_eq_of_lt h, Nat.mul_add_div (by omega), Nat.div_eq_of_lt h, Nat.add_zero]
  exact ⟨rfl, rfl⟩

theorem row_split (n M j : Nat) (h : j < 2 * (n * M)) : ∃ r < M, ∃ ix < 2 * n, j = 2 * n * r + ix := by
  have hn : 0 < 2 * n := by
    rcases Nat.eq_zero_or_pos n with rfl | h0
    · simp at h
    · omega
  refine ⟨j / (2 * n), Nat.div_lt_of_lt_mul (by rw [Nat.mul_assoc]; exact h), j % (2 * n), Nat.mod_lt _ hn, (Nat.div_add_mod _ _).symm⟩

theorem foldIx_lt (n M j : Nat) (h : j < 2 * (n * M)) : foldIx n j < n * M := by
  obtain ⟨r, hr, ix, hi, rfl⟩ := row_split n M j h
  rw [(foldIx_row n r ix hi).1]
  have h1 := fold_lt n ix hi
  have h2 := Nat.mul_le_mul_left n (Nat.succ_le_of_lt hr)
  rw [Nat.mul_succ] at h2
  omega

/-- The column upwind, in both halves and in one of them, where the direction is turned in the eastern half. -/
theorem upwind_fold (n : Nat) (neg : Bool) (ix : Nat) (h : ix < 2 * n) :
    match upwind (2 * n) neg ix with
    | none => upwind n (neg ^^ decide (n ≤ ix)) (fold n ix) = none ∧ decide (n ≤ ix) = neg
    | some j => j < 2 * n ∧ place (2 * n) neg j < place (2 * n) neg ix ∧
      ((decide (n ≤ j) = decide (n ≤ ix) ∧ upwind n (neg ^^ decide (n ≤ ix)) (fold n ix) = some (fold n j)) ∨
        (decide (n ≤ ix) = !neg ∧ decide (n ≤ j) = neg ∧ upwind n (neg ^^ decide (n ≤ ix)) (fold n ix) = none ∧ fold n j = last n (neg ^^ decide (n ≤ j)))) := by
  cases neg
  · rcases Nat.eq_zero_or_pos ix with rfl | h0
    · have : ¬ n ≤ 0 := by omega
      simp [upwind, fold, this]
    · have e : upwind (2 * n) false ix = some (ix - 1) := by simp [upwind]; omega
      rw [e]
      refine ⟨by omega, by simp [place]; omega, ?_⟩
      rcases Nat.lt_trichotomy ix n with hh | rfl | hh
      · left
        have h1 : ¬ n ≤ ix := by omega
        have h2 : ¬ n ≤ ix - 1 := by omega
        refine ⟨by simp [h1, h2], ?_⟩
        simp only [fold, upwind, decide_eq_false h1, if_pos hh, if_pos (show ix - 1 < n by omega)]
        simp; omega
      · right
        have h2 : ¬ ix ≤ ix - 1 := by omega
        refine ⟨by simp, by simp [h2], ?_, ?_⟩
        · simp [fold, upwind]; omega
        · simp only [fold, last, decide_eq_false h2, if_pos (show ix - 1 < ix by omega)]; simp
      · left
        have h1 : n ≤ ix := by omega
        have h2 : n ≤ ix - 1 := by omega
        refine ⟨by simp [h1, h2], ?_⟩
        simp only [fold, upwind, decide_eq_true h1, if_neg (show ¬ ix < n by omega), if_neg (show ¬ ix - 1 < n by omega), Bool.xor_true, Bool.not_false, if_true]
        rw [if_pos (by omega)]
        congr 1
        omega
  · by_cases h0 : ix + 1 < 2 * n
    · have e : upwind (2 * n) true ix = some (ix + 1) := by simp [upwind, h0]
      rw [e]
      refine ⟨by omega, by simp [place]; omega, ?_⟩
      rcases Nat.lt_trichotomy (ix + 1) n with hh | rfl | hh
      · left
        have h1 : ¬ n ≤ ix := by omega
        have h2 : ¬ n ≤ ix + 1 := by omega
        refine ⟨by simp [h1, h2], ?_⟩
        simp only [fold, upwind, decide_eq_false h1, if_pos hh, if_pos (show ix < n by omega)]
        simp
      · right
        refine ⟨by simp, by simp, ?_, ?_⟩
        · simp [fold, upwind]
        · simp [fold, last]; omega
      · left
        have h1 : n ≤ ix := by omega
        have h2 : n ≤ ix + 1 := by omega
        refine ⟨by simp [h1, h2], ?_⟩
        simp only [fold, upwind, decide_eq_true h1, if_neg (show ¬ ix < n by omega), if_neg (show ¬ ix + 1 < n by omega), Bool.xor_true, Bool.not_true]
        simp; omega
    · have e : upwind (2 * n) true ix = none := by simp [upwind, h0]
      rw [e]
      have h1 : n ≤ ix := by omega
      refine ⟨?_, by simp [h1]⟩
      simp only [fold, upwind, decide_eq_true h1, if_neg (show ¬ ix < n by omega), Bool.xor_true, Bool.not_true]
      simp; omega

theorem upwind_before (n : Nat) (neg : Bool) (i j : Nat) (hi : i < n) (h : upwind n neg i = some j) : j < n ∧ place n neg j < place n neg i := by
  unfold upwind at h
  unfold place
  cases neg
  · simp only [Bool.false_eq_true, if_false] at h ⊢
    split_ifs at h
    rw [Option.some.injEq] at h
    omega
  · simp only [if_true] at h ⊢
    split_ifs at h
    rw [Option.some.injEq] at h
    omega

theorem last_fold (n : Nat) (neg : Bool) (h : 0 < n) : last (2 * n) neg < 2 * n ∧ decide (n ≤ last (2 * n) neg) = !neg ∧ fold n (last (2 * n) neg) = last n (neg ^^ !neg) := by
  cases neg
  · have : n ≤ 2 * n - 1 := by omega
    have h' : ¬ 2 * n - 1 < n := by omega
    refine ⟨by simp [last]; omega, by simp [last, this], by simp [last, fold, h']⟩
  · have : ¬ n ≤ 0 := by omega
    simp [last, fold, this]; omega

section
variable {K : Type} [Field K]

/-- The sweep through the core and its mirror image: in the western half what the sweep of one half finds, in the eastern half what the sweep of the mirrored ordinate finds. -/
theorem double3_out (d : Dims) (nx ny nz : Bool) (wgt : K) (ev : Bool → Nat → Nat → Nat → (Ax3 → K) → K × (Ax3 → K))
    (evw : Nat → Nat → Nat → (Ax3 → K) → K × (Ax3 → K))
    (hev : ∀ ix < 2 * d.nx, ∀ iy < d.ny, ∀ iz < d.nz, evw ix iy iz = ev (decide (d.nx ≤ ix)) (fold d.nx ix) iy iz) (S : Bool → State Ax3 K) (s : State Ax3 K)
    (hx : ∀ iy < d.ny, ∀ iz < d.nz, s.flux .x (d.ny * iz + iy) = (S nx).flux .x (d.ny * iz + iy))
    (hy : ∀ ix < 2 * d.nx, ∀ iz < d.nz, s.flux .y (2 * d.nx * iz + ix) = (S (decide (d.nx ≤ ix))).flux .y (d.nx * iz + fold d.nx ix))
    (hz : ∀ ix < 2 * d.nx, ∀ iy < d.ny, s.flux .z (2 * d.nx * iy + ix) = (S (decide (d.nx ≤ ix))).flux .z (d.nx * iy + fold d.nx ix))
    (hj : ∀ iy < d.ny, ∀ iz < d.nz, (S (!nx)).flux .x (d.ny * iz + iy) = (sweep3 d (nx ^^ nx) ny nz wgt (ev nx) (S nx)).flux .x (d.ny * iz + iy))
    (ix iy iz : Nat) (hix : ix < 2 * d.nx) (hiy : iy < d.ny) (hiz : iz < d.nz) :
    (sweep3 (wide d) nx ny nz wgt evw s).out (coarseCell (wide d) ⟨ix, iy, iz⟩) =
      (sweep3 d (nx ^^ decide (d.nx ≤ ix)) ny nz wgt (ev (decide (d.nx ≤ ix))) (S (decide (d.nx ≤ ix)))).out (coarseCell d ⟨fold d.nx ix, iy, iz⟩) := by
  have key : ∀ m ix iy iz, ix < 2 * d.nx → iy < d.ny → iz < d.nz → place (2 * d.nx) nx ix + place d.ny ny iy + place d.nz nz iz < m →
      (sweep3 (wide d) nx ny nz wgt evw s).out (coarseCell (wide d) ⟨ix, iy, iz⟩) =
        (sweep3 d (nx ^^ decide (d.nx ≤ ix)) ny nz wgt (ev (decide (d.nx ≤ ix))) (S (decide (d.nx ≤ ix)))).out (coarseCell d ⟨fold d.nx ix, iy, iz⟩) := by
    intro m
    induction m with
    | zero => exact fun ix iy iz _ _ _ h => absurd h (Nat.not_lt_zero _)
    | succ m ih =>
      intro ix iy iz hix hiy hiz hm
      rw [(C30_upwind (wide d) nx ny nz wgt evw s ix iy iz hix hiy hiz).1,
        (C30_upwind d (nx ^^ decide (d.nx ≤ ix)) ny nz wgt (ev (decide (d.nx ≤ ix))) (S (decide (d.nx ≤ ix))) (fold d.nx ix) iy iz (fold_lt _ _ hix) hiy hiz).1, hev ix hix iy hiy iz hiz]
      congr 1
      funext k
      cases k
      · have hu := upwind_fold d.nx nx ix hix
        show (match upwind (2 * d.nx) nx ix with | none => _ | some jx => _) = _
        cases e : upwind (2 * d.nx) nx ix with
        | none =>
          rw [e] at hu
          simp only [incoming3, hu.1]
          rw [hu.2]
          exact hx iy hiy iz hiz
        | some j =>
          rw [e] at hu
          obtain ⟨hj1, hj2, hu⟩ := hu
          have hi := ih j iy iz hj1 hiy hiz (by omega)
          rcases hu with ⟨h1, h2⟩ | ⟨h1, h2, h3, h4⟩
          · simp only [incoming3, h2]
            rw [hi, h1]
          · simp only [incoming3, h3]
            rw [hi, h4, ← (C30_outgoing d (nx ^^ decide (d.nx ≤ j)) ny nz wgt (ev (decide (d.nx ≤ j))) (S (decide (d.nx ≤ j))) (fold d.nx j) iy iz (fold_lt _ _ hj1) hiy hiz).1, h2, h1]
            exact (hj iy hiy iz hiz).symm
      · show (match upwind d.ny ny iy with | none => _ | some jy => _) = _
        simp only [incoming3]
        cases e : upwind d.ny ny iy with
        | none => exact hy ix hix iz hiz
        | some j =>
          obtain ⟨h1, h2⟩ := upwind_before d.ny ny iy j hiy e
          exact congrFun (congrArg Prod.snd (ih ix j iz hix h1 hiz (by omega))) .y
      · show (match upwind d.nz nz iz with | none => _ | some jz => _) = _
        simp only [incoming3]
        cases e : upwind d.nz nz iz with
        | none => exact hz ix hix iy hiy
        | some j =>
          obtain ⟨h1, h2⟩ := upwind_before d.nz nz iz j hiz e
          exact congrFun (congrArg Prod.snd (ih ix iy j hix hiy h1 (by omega))) .z
  exact key _ ix iy iz hix hiy hiz (Nat.lt_succ_self _)

/-- The same in a plane. -/
theorem double2_out (d : Dims) (nx ny : Bool) (wgt : K) (ev : Bool → Nat → Nat → (Ax2 → K) → K × (Ax2 → K)) (evw : Nat → Nat → (Ax2 → K) → K × (Ax2 → K))
    (hev : ∀ ix < 2 * d.nx, ∀ iy < d.ny, evw ix iy = ev (decide (d.nx ≤ ix)) (fold d.nx ix) iy) (S : Bool → State Ax2 K) (s : State Ax2 K)
    (hx : ∀ iy < d.ny, s.flux .x iy = (S nx).flux .x iy)
    (hy : ∀ ix < 2 * d.nx, s.flux .y ix = (S (decide (d.nx ≤ ix))).flux .y (fold d.nx ix))
    (hj : ∀ iy < d.ny, (S (!nx)).flux .x iy = (sweep2 d (nx ^^ nx) ny wgt (ev nx) (S nx)).flux .x iy)
    (ix iy : Nat) (hix : ix < 2 * d.nx) (hiy : iy < d.ny) :
    (sweep2 (wide d) nx ny wgt evw s).out (coarseCell (wide d) ⟨ix, iy, 0⟩) =
      (sweep2 d (nx ^^ decide (d.nx ≤ ix)) ny wgt (ev (decide (d.nx ≤ ix))) (S (decide (d.nx ≤ ix)))).out (coarseCell d ⟨fold d.nx ix, iy, 0⟩) := by
  have key : ∀ m ix iy, ix < 2 * d.nx → iy < d.ny → place (2 * d.nx) nx ix + place d.ny ny iy < m →
      (sweep2 (wide d) nx ny wgt evw s).out (coarseCell (wide d) ⟨ix, iy, 0⟩) =
        (sweep2 d (nx ^^ decide (d.nx ≤ ix)) ny wgt (ev (decide (d.nx ≤ ix))) (S (decide (d.nx ≤ ix)))).out (coarseCell d ⟨fold d.nx ix, iy, 0⟩) := by
    intro m
    induction m with
    | zero => exact fun ix iy _ _ h => absurd h (Nat.not_lt_zero _)
    | succ m ih =>
      intro ix iy hix hiy hm
      rw [(C30_upwind_2d (wide d) nx ny wgt evw s ix iy hix hiy).1,
        (C30_upwind_2d d (nx ^^ decide (d.nx ≤ ix)) ny wgt (ev (decide (d.nx ≤ ix))) (S (decide (d.nx ≤ ix))) (fold d.nx ix) iy (fold_lt _ _ hix) hiy).1, hev ix hix iy hiy]
      congr 1
      funext k
      cases k
      · have hu := upwind_fold d.nx nx ix hix
        show (match upwind (2 * d.nx) nx ix with | none => _ | some jx => _) = _
        cases e : upwind (2 * d.nx) nx ix with
        | none =>
          rw [e] at hu
          simp only [incoming2, hu.1]
          rw [hu.2]
          exact hx iy hiy
        | some j =>
          rw [e] at hu
          obtain ⟨hj1, hj2, hu⟩ := hu
          have hi := ih j iy hj1 hiy (by omega)
          rcases hu with ⟨h1, h2⟩ | ⟨h1, h2, h3, h4⟩
          · simp only [incoming2, h2]
            rw [hi, h1]
          · simp only [incoming2, h3]
            rw [hi, h4, ← (C30_upwind_2d d (nx ^^ decide (d.nx ≤ j)) ny wgt (ev (decide (d.nx ≤ j))) (S (decide (d.nx ≤ j))) (fold d.nx j) iy (fold_lt _ _ hj1) hiy).2.2.1, h2, h1]
            exact (hj iy hiy).symm
      · show (match upwind d.ny ny iy with | none => _ | some jy => _) = _
        simp only [incoming2]
        cases e : upwind d.ny ny iy with
        | none => exact hy ix hix
        | some j =>
          obtain ⟨h1, h2⟩ := upwind_before d.ny ny iy j hiy e
          exact congrFun (congrArg Prod.snd (ih ix j hix h1 (by omega))) .y
  exact key _ ix iy hix hiy (Nat.lt_succ_self _)

end

end Verif.Sn

namespace Verif.Medium

open Finset Verif.XS Verif.Source

section
variable {K : Type} [Field K] [LinearOrder K] [IsStrictOrderedRing K] {κ : Type} [Fintype κ] [DecidableEq κ]

/-- Values on the faces of both halves, `ax` the face to the east and west: the half, with `x` for the faces to the east and west, the place in the half, and how many there are. -/
def faceHalf (ax : κ) (nx : Nat) (x : Bool) (k : κ) (j : Nat) : Bool := if k = ax then x else Sn.right nx j

def faceFold (ax : κ) (nx : Nat) (k : κ) (j : Nat) : Nat := if k = ax then j else Sn.foldIx nx j

def faceSlots (ax : κ) (n : κ → Nat) (k : κ) : Nat := if k = ax then n k else 2 * n k

/-- An ordinate `o` through both halves, `oh false` the same and `oh true` the mirrored ordinate through one half, `neg` whether it goes west: what goes out of one half eastward
comes in again, then both halves have what one of them has. -/
def OrdDouble (nx nReg : Nat) (ax : κ) (n : κ → Nat) (neg : Bool) (o : SnOrd κ K) (oh : Bool → SnOrd κ K) : Prop :=
  ∀ q xs q2 xs2 : Nat → K, (∀ i < 2 * nReg, q2 i = q (Sn.foldIx nx i)) → (∀ i < 2 * nReg, xs2 i = xs (Sn.foldIx nx i)) → ∀ (S : Bool → Sn.State κ K) (s : Sn.State κ K),
    (∀ k, ∀ j < faceSlots ax n k, s.flux k j = (S (faceHalf ax nx neg k j)).flux k (faceFold ax nx k j)) →
    (∀ j < n ax, (S (!neg)).flux ax j = ((oh neg).loops q xs (S neg)).flux ax j) →
    (∀ k, ∀ j < faceSlots ax n k, (o.loops q2 xs2 s).flux k j =
      ((oh (faceHalf ax nx (!neg) k j)).loops q xs (S (faceHalf ax nx (!neg) k j))).flux k (faceFold ax nx k j)) ∧
    ∀ i < 2 * nReg, (o.loops q2 xs2 s).tflux i - s.tflux i =
      ((oh (Sn.right nx i)).loops q xs (S (Sn.right nx i))).tflux (Sn.foldIx nx i) - (S (Sn.right nx i)).tflux (Sn.foldIx nx i)

end

section
variable {K : Type} [Field K] [LinearOrder K] [IsStrictOrderedRing K]

/-- C157: an ordinate in three dimensions, with any scheme in each cell, that of the ordinate in the western half and that of the mirrored ordinate in the eastern half. -/
theorem C157_ord3 (d : Mesh.Dims) (hnx : 0 < d.nx) (hny : 0 < d.ny) (hnz : 0 < d.nz) (dx dy dz : Nat → K) (a : Nat) (b : Bool → Nat) (ox oy oz wgt : K) (hox : ox ≠ 0) (sch : Bool → Nat → Scheme3 K) :
    OrdDouble d.nx (d.nx * d.ny * d.nz) .x (slots3 d) (decide (ox < 0)) (ord3 (Sn.wide d) (fun i => dx (Sn.fold d.nx i)) dy dz a ox oy oz wgt fun i => sch (Sn.right d.nx i) (Sn.foldIx d.nx i))
      fun r => ord3 d dx dy dz (b r) (if r then -ox else ox) oy oz wgt (sch r) := by
  intro q xs q2 xs2 hq hxs S s hs hj
  have hcell : ∀ ix < 2 * d.nx, ∀ iy iz, Sn.foldIx d.nx (Mesh.coarseCell (Sn.wide d) ⟨ix, iy, iz⟩) = Mesh.coarseCell d ⟨Sn.fold d.nx ix, iy, iz⟩ ∧
      Sn.right d.nx (Mesh.coarseCell (Sn.wide d) ⟨ix, iy, iz⟩) = decide (d.nx ≤ ix) := by
    intro ix hix iy iz
    have e : Mesh.coarseCell (Sn.wide d) ⟨ix, iy, iz⟩ = 2 * d.nx * (iz * d.ny + iy) + ix := by simp only [Mesh.coarseCell, Sn.wide]; ring
    rw [e, (Sn.foldIx_row d.nx _ ix hix).1, (Sn.foldIx_row d.nx _ ix hix).2]
    refine ⟨?_, rfl⟩
    simp only [Mesh.coarseCell]; ring
  have hlt : ∀ ix < 2 * d.nx, ∀ iy < d.ny, ∀ iz < d.nz, Mesh.coarseCell (Sn.wide d) ⟨ix, iy, iz⟩ < 2 * (d.nx * d.ny * d.nz) := by
    intro ix hix iy hiy iz hiz
    have e : Mesh.coarseCell (Sn.wide d) ⟨ix, iy, iz⟩ = 2 * d.nx * (iz * d.ny + iy) + ix := by simp only [Mesh.coarseCell, Sn.wide]; ring
    have h1 : iz * d.ny + iy + 1 ≤ d.nz * d.ny := by
      have := Nat.mul_le_mul_right d.ny (Nat.succ_le_of_lt hiz)
      rw [Nat.succ_mul] at this
      omega
    have h2 := Nat.mul_le_mul_left (2 * d.nx) h1
    rw [Nat.mul_add] at h2
    have h3 : 2 * (d.nx * d.ny * d.nz) = 2 * d.nx * (d.nz * d.ny) := by ring
    omega
  have hneg : ∀ r : Bool, decide ((if r then -ox else ox) < 0) = (decide (ox < 0) ^^ r) := by
    intro r
    cases r
    · simp
    · rcases lt_or_gt_of_ne hox with h | h
      · simp [h, h.le]
      · simp [h, h.le]
  have habs : ∀ r : Bool, |if r then -ox else ox| = |ox| := by intro r; cases r <;> simp
  set ev : Bool → Nat → Nat → Nat → (Sn.Ax3 → K) → K × (Sn.Ax3 → K) := fun r ix iy iz f =>
    let i := Mesh.coarseCell d ⟨ix, iy, iz⟩
    let o := sch r i (|ox| / dx ix) (|oy| / dy iy) (|oz| / dz iz) (f .x) (f .y) (f .z) (q i) (xs i)
    (o.psi, fun | .x => o.x | .y => o.y | .z => o.z) with hev
  have hh : ∀ (r : Bool) (t : Sn.State Sn.Ax3 K), (ord3 d dx dy dz (b r) (if r then -ox else ox) oy oz wgt (sch r)).loops q xs t =
      Sn.sweep3 d (decide (ox < 0) ^^ r) (oy < 0) (oz < 0) wgt (ev r) t := by
    intro r t
    simp only [ord3, hneg, habs, hev]
    rfl
  set evw : Nat → Nat → Nat → (Sn.Ax3 → K) → K × (Sn.Ax3 → K) := fun ix iy iz f =>
    let i := Mesh.coarseCell (Sn.wide d) ⟨ix, iy, iz⟩
    let o := sch (Sn.right d.nx i) (Sn.foldIx d.nx i) (|ox| / dx (Sn.fold d.nx ix)) (|oy| / dy iy) (|oz| / dz iz) (f .x) (f .y) (f .z) (q2 i) (xs2 i)
    (o.psi, fun | .x => o.x | .y => o.y | .z => o.z) with hevw
  have hw : ∀ t : Sn.State Sn.Ax3 K, (ord3 (Sn.wide d) (fun i => dx (Sn.fold d.nx i)) dy dz a ox oy oz wgt fun i => sch (Sn.right d.nx i) (Sn.foldIx d.nx i)).loops q2 xs2 t =
      Sn.sweep3 (Sn.wide d) (ox < 0) (oy < 0) (oz < 0) wgt evw t := fun t => rfl
  have hee : ∀ ix < 2 * d.nx, ∀ iy < d.ny, ∀ iz < d.nz, evw ix iy iz = ev (decide (d.nx ≤ ix)) (Sn.fold d.nx ix) iy iz := by
    intro ix hix iy hiy iz hiz
    simp only [hev, hevw]
    rw [hq _ (hlt ix hix iy hiy iz hiz), hxs _ (hlt ix hix iy hiy iz hiz), (hcell ix hix iy iz).1, (hcell ix hix iy iz).2]
  simp only [hh] at hj ⊢
  rw [hw]
  have hx' : ∀ iy < d.ny, ∀ iz < d.nz, d.ny * iz + iy < d.ny * d.nz := by
    intro iy hiy iz hiz
    have := Nat.mul_le_mul_left d.ny (Nat.succ_le_of_lt hiz)
    rw [Nat.mul_succ] at this
    omega
  have hlt2 : ∀ ix < 2 * d.nx, ∀ M, ∀ r < M, 2 * d.nx * r + ix < 2 * (d.nx * M) := by
    intro ix hix M r hr
    have := Nat.mul_le_mul_left (2 * d.nx) (Nat.succ_le_of_lt hr)
    rw [Nat.mul_succ] at this
    rw [← Nat.mul_assoc]
    omega
  have out := Sn.double3_out d (decide (ox < 0)) (decide (oy < 0)) (decide (oz < 0)) wgt ev evw hee S s
    (fun iy hiy iz hiz => hs .x _ (hx' iy hiy iz hiz))
    (fun ix hix iz hiz => by
      have := hs .y (2 * d.nx * iz + ix) (hlt2 ix hix d.nz iz hiz)
      simp only [faceHalf, faceFold, if_neg (show Sn.Ax3.y ≠ .x from nofun)] at this
      rwa [(Sn.foldIx_row d.nx iz ix hix).1, (Sn.foldIx_row d.nx iz ix hix).2] at this)
    (fun ix hix iy hiy => by
      have := hs .z (2 * d.nx * iy + ix) (hlt2 ix hix d.ny iy hiy)
      simp only [faceHalf, faceFold, if_neg (show Sn.Ax3.z ≠ .x from nofun)] at this
      rwa [(Sn.foldIx_row d.nx iy ix hix).1, (Sn.foldIx_row d.nx iy ix hix).2] at this)
    (fun iy hiy iz hiz => hj _ (hx' iy hiy iz hiz))
  have og := fun ix iy iz (h1 : ix < 2 * d.nx) (h2 : iy < d.ny) (h3 : iz < d.nz) =>
    Sn.C30_outgoing (Sn.wide d) (decide (ox < 0)) (decide (oy < 0)) (decide (oz < 0)) wgt evw s ix iy iz h1 h2 h3
  have oh := fun r ix iy iz (h1 : ix < d.nx) (h2 : iy < d.ny) (h3 : iz < d.nz) =>
    Sn.C30_outgoing d (decide (ox < 0) ^^ r) (decide (oy < 0)) (decide (oz < 0)) wgt (ev r) (S r) ix iy iz h1 h2 h3
  have hlast : ∀ (n : Nat) (neg : Bool), 0 < n → Sn.last n neg < n := by intro n neg h; unfold Sn.last; split_ifs <;> omega
  refine ⟨fun k j hjj => ?_, fun i hi => ?_⟩
  · cases k
    · have hjj : j < d.ny * d.nz := hjj
      obtain ⟨iz, iy, hiz, hiy, rfl⟩ : ∃ iz iy, iz < d.nz ∧ iy < d.ny ∧ j = d.ny * iz + iy :=
        ⟨j / d.ny, j % d.ny, Nat.div_lt_of_lt_mul hjj, Nat.mod_lt _ hny, (Nat.div_add_mod _ _).symm⟩
      obtain ⟨l1, l2, l3⟩ := Sn.last_fold d.nx (decide (ox < 0)) hnx
      show (Sn.sweep3 _ _ _ _ _ _ _).flux .x _ = (Sn.sweep3 _ _ _ _ _ _ _).flux .x _
      refine ((og 0 iy iz (by omega) hiy hiz).1.trans ?_).trans (oh _ 0 iy iz hnx hiy hiz).1.symm
      have := out (Sn.last (2 * d.nx) (decide (ox < 0))) iy iz l1 hiy hiz
      rw [l2, l3] at this
      exact congrFun (congrArg Prod.snd this) .x
    · obtain ⟨iz, hiz, ix, hix, rfl⟩ := Sn.row_split d.nx d.nz j hjj
      simp only [faceHalf, faceFold, if_neg (show Sn.Ax3.y ≠ .x from nofun)]
      rw [(Sn.foldIx_row d.nx iz ix hix).1, (Sn.foldIx_row d.nx iz ix hix).2]
      refine ((og ix 0 iz hix hny hiz).2.1.trans ?_).trans (oh _ (Sn.fold d.nx ix) 0 iz (Sn.fold_lt _ _ hix) hny hiz).2.1.symm
      exact congrFun (congrArg Prod.snd (out ix (Sn.last d.ny (decide (oy < 0))) iz hix (hlast _ _ hny) hiz)) .y
    · obtain ⟨iy, hiy, ix, hix, rfl⟩ := Sn.row_split d.nx d.ny j hjj
      simp only [faceHalf, faceFold, if_neg (show Sn.Ax3.z ≠ .x from nofun)]
      rw [(Sn.foldIx_row d.nx iy ix hix).1, (Sn.foldIx_row d.nx iy ix hix).2]
      refine ((og ix iy 0 hix hiy hnz).2.2.trans ?_).trans (oh _ (Sn.fold d.nx ix) iy 0 (Sn.fold_lt _ _ hix) hiy hnz).2.2.symm
      exact congrFun (congrArg Prod.snd (out ix iy (Sn.last d.nz (decide (oz < 0))) hix hiy (hlast _ _ hnz))) .z
  · rw [Nat.mul_assoc] at hi
    obtain ⟨r, hr, ix, hix, rfl⟩ := Sn.row_split d.nx (d.ny * d.nz) i hi
    obtain ⟨iz, iy, hiz, hiy, rfl⟩ : ∃ iz iy, iz < d.nz ∧ iy < d.ny ∧ r = iz * d.ny + iy :=
      ⟨r / d.ny, r % d.ny, Nat.div_lt_of_lt_mul hr, Nat.mod_lt _ hny, by rw [Nat.mul_comm]; exact (Nat.div_add_mod _ _).symm⟩
    have e : 2 * d.nx * (iz * d.ny + iy) + ix = Mesh.coarseCell (Sn.wide d) ⟨ix, iy, iz⟩ := by simp only [Mesh.coarseCell, Sn.wide]; ring
    rw [e, (hcell ix hix iy iz).1, (hcell ix hix iy iz).2, (Sn.C30_upwind (Sn.wide d) (decide (ox < 0)) (decide (oy < 0)) (decide (oz < 0)) wgt evw s ix iy iz hix hiy hiz).2,
      (Sn.C30_upwind d (decide (ox < 0) ^^ decide (d.nx ≤ ix)) (decide (oy < 0)) (decide (oz < 0)) wgt (ev (decide (d.nx ≤ ix))) (S (decide (d.nx ≤ ix))) (Sn.fold d.nx ix) iy iz (Sn.fold_lt _ _ hix) hiy hiz).2,
      out ix iy iz hix hiy hiz]
    ring

/-- C157: the same in a plane. -/
theorem C157_ord2 (d : Mesh.Dims) (hnx : 0 < d.nx) (hny : 0 < d.ny) (dx dy : Nat → K) (a : Nat) (b : Bool → Nat) (ox oy wgt : K) (hox : ox ≠ 0) (sch : Bool → Nat → Scheme2 K) :
    OrdDouble d.nx (d.nx * d.ny) .x (slots2 d) (decide (ox < 0)) (ord2 (Sn.wide d) (fun i => dx (Sn.fold d.nx i)) dy a ox oy wgt fun i => sch (Sn.right d.nx i) (Sn.foldIx d.nx i))
      fun r => ord2 d dx dy (b r) (if r then -ox else ox) oy wgt (sch r) := by
  intro q xs q2 xs2 hq hxs S s hs hj
  have ecell : ∀ ix iy, Mesh.coarseCell (Sn.wide d) ⟨ix, iy, 0⟩ = 2 * d.nx * iy + ix := by
    intro ix iy
    simp only [Mesh.coarseCell, Sn.wide]; ring
  have hcell : ∀ ix < 2 * d.nx, ∀ iy, Sn.foldIx d.nx (Mesh.coarseCell (Sn.wide d) ⟨ix, iy, 0⟩) = Mesh.coarseCell d ⟨Sn.fold d.nx ix, iy, 0⟩ ∧
      Sn.right d.nx (Mesh.coarseCell (Sn.wide d) ⟨ix, iy, 0⟩) = decide (d.nx ≤ ix) := by
    intro ix hix iy
    rw [ecell, (Sn.foldIx_row d.nx _ ix hix).1, (Sn.foldIx_row d.nx _ ix hix).2]
    refine ⟨?_, rfl⟩
    simp only [Mesh.coarseCell]; ring
  have hlt : ∀ ix < 2 * d.nx, ∀ iy < d.ny, Mesh.coarseCell (Sn.wide d) ⟨ix, iy, 0⟩ < 2 * (d.nx * d.ny) := by
    intro ix hix iy hiy
    rw [ecell]
    have := Nat.mul_le_mul_left (2 * d.nx) (Nat.succ_le_of_lt hiy)
    rw [Nat.mul_succ] at this
    rw [← Nat.mul_assoc]
    omega
  have hneg : ∀ r : Bool, decide ((if r then -ox else ox) < 0) = (decide (ox < 0) ^^ r) := by
    intro r
    cases r
    · simp
    · rcases lt_or_gt_of_ne hox with h | h
      · simp [h, h.le]
      · simp [h, h.le]
  have habs : ∀ r : Bool, |if r then -ox else ox| = |ox| := by intro r; cases r <;> simp
  set ev : Bool → Nat → Nat → (Sn.Ax2 → K) → K × (Sn.Ax2 → K) := fun r ix iy f =>
    let i := Mesh.coarseCell d ⟨ix, iy, 0⟩
    let o := sch r i (|ox| / dx ix) (|oy| / dy iy) (f .x) (f .y) (q i) (xs i)
    (o.psi, fun | .x => o.x | .y => o.y) with hev
  have hh : ∀ (r : Bool) (t : Sn.State Sn.Ax2 K), (ord2 d dx dy (b r) (if r then -ox else ox) oy wgt (sch r)).loops q xs t =
      Sn.sweep2 d (decide (ox < 0) ^^ r) (oy < 0) wgt (ev r) t := by
    intro r t
    simp only [ord2, hneg, habs, hev]
    rfl
  set evw : Nat → Nat → (Sn.Ax2 → K) → K × (Sn.Ax2 → K) := fun ix iy f =>
    let i := Mesh.coarseCell (Sn.wide d) ⟨ix, iy, 0⟩
    let o := sch (Sn.right d.nx i) (Sn.foldIx d.nx i) (|ox| / dx (Sn.fold d.nx ix)) (|oy| / dy iy) (f .x) (f .y) (q2 i) (xs2 i)
    (o.psi, fun | .x => o.x | .y => o.y) with hevw
  have hw : ∀ t : Sn.State Sn.Ax2 K, (ord2 (Sn.wide d) (fun i => dx (Sn.fold d.nx i)) dy a ox oy wgt fun i => sch (Sn.right d.nx i) (Sn.foldIx d.nx i)).loops q2 xs2 t =
      Sn.sweep2 (Sn.wide d) (ox < 0) (oy < 0) wgt evw t := fun t => rfl
  have hee : ∀ ix < 2 * d.nx, ∀ iy < d.ny, evw ix iy = ev (decide (d.nx ≤ ix)) (Sn.fold d.nx ix) iy := by
    intro ix hix iy hiy
    simp only [hev, hevw]
    rw [hq _ (hlt ix hix iy hiy), hxs _ (hlt ix hix iy hiy), (hcell ix hix iy).1, (hcell ix hix iy).2]
  simp only [hh] at hj ⊢
  rw [hw]
  have hrow0 : ∀ ix < 2 * d.nx, Sn.foldIx d.nx ix = Sn.fold d.nx ix ∧ Sn.right d.nx ix = decide (d.nx ≤ ix) := by
    intro ix hix
    have := Sn.foldIx_row d.nx 0 ix hix
    simpa using this
  have out := Sn.double2_out d (decide (ox < 0)) (decide (oy < 0)) wgt ev evw hee S s
    (fun iy hiy => hs .x _ hiy)
    (fun ix hix => by
      have := hs .y ix hix
      simp only [faceHalf, faceFold, if_neg (show Sn.Ax2.y ≠ .x from nofun)] at this
      rwa [(hrow0 ix hix).1, (hrow0 ix hix).2] at this)
    (fun iy hiy => hj _ hiy)
  have og := fun ix iy (h1 : ix < 2 * d.nx) (h2 : iy < d.ny) =>
    Sn.C30_upwind_2d (Sn.wide d) (decide (ox < 0)) (decide (oy < 0)) wgt evw s ix iy h1 h2
  have oh := fun r ix iy (h1 : ix < d.nx) (h2 : iy < d.ny) =>
    Sn.C30_upwind_2d d (decide (ox < 0) ^^ r) (decide (oy < 0)) wgt (ev r) (S r) ix iy h1 h2
  have hlast : ∀ (n : Nat) (neg : Bool), 0 < n → Sn.last n neg < n := by intro n neg h; unfold Sn.last; split_ifs <;> omega
  refine ⟨fun k j hjj => ?_, fun i hi => ?_⟩
  · cases k
    · have hjj : j < d.ny := hjj
      obtain ⟨l1, l2, l3⟩ := Sn.last_fold d.nx (decide (ox < 0)) hnx
      show (Sn.sweep2 _ _ _ _ _ _).flux .x _ = (Sn.sweep2 _ _ _ _ _ _).flux .x _
      refine ((og 0 j (by omega) hjj).2.2.1.trans ?_).trans (oh _ 0 j hnx hjj).2.2.1.symm
      have := out (Sn.last (2 * d.nx) (decide (ox < 0))) j l1 hjj
      rw [l2, l3] at this
      exact congrFun (congrArg Prod.snd this) .x
    · have hjj : j < 2 * d.nx := hjj
      simp only [faceHalf, faceFold, if_neg (show Sn.Ax2.y ≠ .x from nofun)]
      rw [(hrow0 j hjj).1, (hrow0 j hjj).2]
      refine ((og j 0 hjj hny).2.2.2.trans ?_).trans (oh _ (Sn.fold d.nx j) 0 (Sn.fold_lt _ _ hjj) hny).2.2.2.symm
      exact congrFun (congrArg Prod.snd (out j (Sn.last d.ny (decide (oy < 0))) hjj (hlast _ _ hny))) .y
  · obtain ⟨iy, hiy, ix, hix, rfl⟩ := Sn.row_split d.nx d.ny i hi
    rw [← ecell, (hcell ix hix iy).1, (hcell ix hix iy).2, (og ix iy hix hiy).2.1, (oh _ (Sn.fold d.nx ix) iy (Sn.fold_lt _ _ hix) hiy).2.1, out ix iy hix hiy]
    ring

end

end Verif.Medium

namespace Verif.Medium

open Finset Verif.XS Verif.Source

section
variable {K : Type} [Field K] [LinearOrder K] [IsStrictOrderedRing K] {κ : Type} [Fintype κ] [DecidableEq κ]

/-- Incoming values that give back themselves: then nothing changes in the sweep. -/
theorem sn_steady_of {nAng : Nat} {n : κ → Nat} {m : SnSetup κ K} {ordOf : Nat → SnOrd κ K} {mir : Nat → κ → Nat} {vac : Nat → κ → Bool} (h : SnLinked nAng n m ordOf mir vac)
    (q xs : Nat → K) (b o out : Nat → κ → Nat → K) (inc : Nat → Nat → K) (nReg : Nat)
    (hd : ∀ a < nAng, ∀ s : Sn.State κ K, (∀ k, ∀ j < n k, s.flux k j = b a k j) →
      (∀ k, ∀ j < n k, ((ordOf a).loops q xs s).flux k j = out a k j) ∧ ∀ i < nReg, ((ordOf a).loops q xs s).tflux i - s.tflux i = inc a i)
    (hb : ∀ a < nAng, ∀ k, ∀ j < n k, b a k j = if vac a k then 0 else out (mir a k) k j) :
    SnSame nAng n b (snSweep1g m q xs b o).bin ∧ ∀ i < nReg, (snSweep1g m q xs b o).tflux i = ∑ a ∈ range nAng, inc a i := by
  have key : ∀ (l : List (SnOrd κ K)) (s : SnPass κ K), (∀ x ∈ l, x ∈ m.ords) → SnSame nAng n b s.bin →
      SnSame nAng n b (l.foldl (snOrdinate m q xs) s).bin ∧ (∀ i < nReg, (l.foldl (snOrdinate m q xs) s).tflux i = s.tflux i + (l.map fun x => inc x.iang i).sum) ∧
      ∀ a < nAng, (a ∈ l.map SnOrd.iang ∨ ∀ k, ∀ j < n k, s.bout a k j = out a k j) → ∀ k, ∀ j < n k, (l.foldl (snOrdinate m q xs) s).bout a k j = out a k j := by
    intro l
    induction l with
    | nil =>
      intro s _ hs
      refine ⟨hs, fun i _ => by simp, fun a ha h k j hj => ?_⟩
      rcases h with h | h
      · simp at h
      · exact h k j hj
    | cons x l ih =>
      intro s hl hs
      have hx := hl x (by simp)
      have hi := sn_iang_lt h x hx
      have hxo := h.num x hx
      obtain ⟨d1, d2⟩ := hd x.iang hi ⟨s.bin x.iang, s.tflux, fun _ => (0, fun _ => 0)⟩ fun k j hj => (hs _ hi k j hj).symm
      rw [hxo] at d1 d2
      have hs' : SnSame nAng n b (snOrdinate m q xs s x).bin := by
        intro a ha k j hj
        simp only [snOrdinate]
        split_ifs
        · rw [h.one _ hi _ _ a ha k j hj]
          by_cases e1 : x.iang = mir a k
          · rw [if_pos e1, hb a ha k j hj]
            simp only [← e1, if_true, d1 k j hj]
          · rw [if_neg e1]
            exact hs a ha k j hj
        · exact hs a ha k j hj
      obtain ⟨r1, r2, r3⟩ := ih (snOrdinate m q xs s x) (fun y hy => hl y (by simp [hy])) hs'
      refine ⟨r1, fun i hi => ?_, fun a ha hh => ?_⟩
      · rw [List.foldl_cons, r2 i hi, List.map_cons, List.sum_cons, ← add_assoc, ← d2 i hi]
        simp only [snOrdinate]
        ring
      · rw [List.foldl_cons]
        refine r3 a ha ?_
        rcases hh with hh | hh
        · rw [List.map_cons, List.mem_cons] at hh
          rcases hh with rfl | hh
          · right
            intro k j hj
            simp only [snOrdinate, if_true]
            exact d1 k j hj
          · exact Or.inl hh
        · right
          intro k j hj
          simp only [snOrdinate]
          split_ifs with e
          · rw [e]; exact d1 k j hj
          · exact hh k j hj
  obtain ⟨k1, k2, k3⟩ := key m.ords ⟨fun _ => 0, b, o⟩ (fun _ h => h) fun _ _ _ _ _ => rfl
  refine ⟨fun a ha k j hj => ?_, fun i hi => ?_⟩
  · cases hg : m.gs
    · simp only [snSweep1g, hg, Bool.false_eq_true, if_false]
      rw [h.all _ _ a ha k j hj, hb a ha k j hj]
      split_ifs
      · rfl
      · have hm := h.lt a ha k
        exact (k3 _ hm (Or.inl (h.perm.symm.subset (List.mem_range.mpr hm))) k j hj).symm
    · simp only [snSweep1g, hg, if_true]
      exact k1 a ha k j hj
  · show (m.ords.foldl (snOrdinate m q xs) ⟨fun _ => 0, b, o⟩).tflux i = _
    rw [k2 i hi, zero_add, sn_sum_ords h fun x => inc x.iang i]
    exact sum_congr rfl fun a ha => by rw [(sn_ord_of h a (mem_range.mp ha)).2]

/-- A sweep through one half with reflection on the side to the east, `m`, and one through both halves, `M`: `neg a` whether ordinate `a` goes west. -/
structure SnDoubled (nx nReg nAng : Nat) (ax : κ) (n : κ → Nat) (m M : SnSetup κ K) (ordOf ordW : Nat → SnOrd κ K) (mir : Nat → κ → Nat) (vac vacW : Nat → κ → Bool)
    (neg : Nat → Bool) : Prop where
  half : SnLinked nAng n m ordOf mir vac
  both : SnLinked nAng (faceSlots ax n) M ordW mir vacW
  negMir : ∀ a < nAng, neg (mir a ax) = !neg a
  negKeep : ∀ a < nAng, ∀ k, k ≠ ax → neg (mir a k) = neg a
  comm : ∀ a < nAng, ∀ k, k ≠ ax → mir (mir a k) ax = mir (mir a ax) k
  reflect : ∀ a < nAng, neg a = true → vac a ax = false
  vacX : ∀ a < nAng, vacW a ax = vac (if neg a then mir a ax else a) ax
  vacK : ∀ a < nAng, ∀ k, k ≠ ax → vacW a k = vac a k ∧ vac (mir a ax) k = vac a k
  ord : ∀ a < nAng, OrdDouble nx nReg ax n (neg a) (ordW a) fun r => ordOf (if r then mir a ax else a)
  slot : ∀ k, k ≠ ax → ∀ j < 2 * n k, Sn.foldIx nx j < n k

/-- Incoming values of both halves from those of one. -/
def doubledBin (ax : κ) (nx : Nat) (mir : Nat → κ → Nat) (neg : Nat → Bool) (b : Nat → κ → Nat → K) (a : Nat) (k : κ) (j : Nat) : K :=
  b (if faceHalf ax nx (neg a) k j then mir a ax else a) k (faceFold ax nx k j)

/-- C157: incoming values that do not change in the half, doubled, do not change in both halves, and the flux is that of the half. -/
theorem C157_sweep {nx nReg nAng : Nat} {ax : κ} {n : κ → Nat} {m M : SnSetup κ K} {ordOf ordW : Nat → SnOrd κ K} {mir : Nat → κ → Nat} {vac vacW : Nat → κ → Bool} {neg : Nat → Bool}
    (h : SnDoubled nx nReg nAng ax n m M ordOf ordW mir vac vacW neg) (q xs q2 xs2 : Nat → K) (hq : ∀ i < 2 * nReg, q2 i = q (Sn.foldIx nx i))
    (hx : ∀ i < 2 * nReg, xs2 i = xs (Sn.foldIx nx i)) (b o B O : Nat → κ → Nat → K) (hs : SnSame nAng n b (snSweep1g m q xs b o).bin)
    (hB : SnSame nAng (faceSlots ax n) (doubledBin ax nx mir neg b) B) :
    SnSame nAng (faceSlots ax n) B (snSweep1g M q2 xs2 B O).bin ∧ ∀ i < 2 * nReg, (snSweep1g M q2 xs2 B O).tflux i = (snSweep1g m q xs b o).tflux (Sn.foldIx nx i) := by
  obtain ⟨st, a1, a2, a3⟩ := sn_steady h.half q xs b o hs
  have aj := sn_steady_joined h.half q xs b o hs
  set bout := (snSweep1g m q xs b o).bout with hbout
  have hsel : ∀ a < nAng, ∀ r : Bool, (if r then mir a ax else a) < nAng := by
    intro a ha r
    cases r
    · exact ha
    · exact h.half.lt a ha ax
  have hslot : ∀ k, ∀ j < faceSlots ax n k, faceFold ax nx k j < n k := by
    intro k j hj
    unfold faceSlots at hj
    unfold faceFold
    split_ifs at hj ⊢ with e
    · exact hj
    · exact h.slot k e j hj
  have hjoin : ∀ a < nAng, ∀ j < n ax, (st (if !neg a then mir a ax else a)).flux ax j =
      ((ordOf (if neg a then mir a ax else a)).loops q xs (st (if neg a then mir a ax else a))).flux ax j := by
    intro a ha j hj
    have hw := hsel a ha (!neg a)
    have hnw : neg (if !neg a then mir a ax else a) = true := by
      cases e : neg a
      · simp [h.negMir a ha, e]
      · simp [e]
    have hme : mir (if !neg a then mir a ax else a) ax = if neg a then mir a ax else a := by
      cases e : neg a
      · simp [h.half.twice a ha]
      · simp
    rw [a1 _ hw ax j hj, aj _ hw ax j hj, h.reflect _ hw hnw, hme, a2 _ (hsel a ha (neg a))]
    simp
  have main := sn_steady_of h.both q2 xs2 B O (fun a k j => bout (if faceHalf ax nx (!neg a) k j then mir a ax else a) k (faceFold ax nx k j))
    (fun a i => ((ordOf (if Sn.right nx i then mir a ax else a)).loops q xs (st (if Sn.right nx i then mir a ax else a))).tflux (Sn.foldIx nx i) -
      (st (if Sn.right nx i then mir a ax else a)).tflux (Sn.foldIx nx i)) (2 * nReg)
    (fun a ha s hs => by
      obtain ⟨d1, d2⟩ := h.ord a ha q xs q2 xs2 hq hx (fun r => st (if r then mir a ax else a)) s
        (fun k j hj => by rw [hs k j hj, ← hB a ha k j hj, a1 _ (hsel a ha _) k _ (hslot k j hj)]; rfl) (hjoin a ha)
      refine ⟨fun k j hj => ?_, d2⟩
      rw [d1 k j hj, a2 _ (hsel a ha _)])
    (fun a ha k j hj => by
      rw [← hB a ha k j hj]
      unfold doubledBin
      rw [aj _ (hsel a ha _) k _ (hslot k j hj)]
      by_cases e : k = ax
      · subst e
        simp only [faceHalf, if_true]
        rw [h.vacX a ha, h.negMir a ha, Bool.not_not]
        cases en : neg a
        · simp
        · simp [h.half.twice a ha]
      · simp only [faceHalf, if_neg e]
        rw [(h.vacK a ha k e).1]
        cases er : Sn.right nx j
        · simp
        · simp [(h.vacK a ha k e).2, h.comm a ha k e])
  refine ⟨main.1, fun i hi => ?_⟩
  rw [main.2 i hi, a3]
  cases er : Sn.right nx i
  · simp
  · simp only [if_true]
    exact sum_bij' (fun a _ => mir a ax) (fun a _ => mir a ax) (fun a ha => mem_range.mpr (h.half.lt a (mem_range.mp ha) ax)) (fun a ha => mem_range.mpr (h.half.lt a (mem_range.mp ha) ax))
      (fun a ha => h.half.twice a (mem_range.mp ha) ax) (fun a ha => h.half.twice a (mem_range.mp ha) ax) fun a ha => rfl

end

end Verif.Medium

namespace Verif.Medium

open Finset Verif.XS Verif.Source

section
variable {K : Type} [Field K] [LinearOrder K] [IsStrictOrderedRing K] {κ : Type} [Fintype κ] [DecidableEq κ]

/-- The problem with its mirror image to the east. -/
def doubleProblem (nx : Nat) (p : Problem K) : Problem K :=
  ⟨p.ng, 2 * p.nReg, p.rs.map fun x => ⟨x.mat, (List.range (2 * p.nReg)).filter fun i => decide (Sn.foldIx nx i ∈ x.regs)⟩, fun i => p.vol (Sn.foldIx nx i)⟩

theorem double_part (nx : Nat) (p : Problem K) (part : Partition p.rs) : Partition (doubleProblem nx p).rs := by
  refine ⟨fun x hx => ?_, ?_⟩
  · obtain ⟨y, _, rfl⟩ := List.mem_map.mp hx
    exact List.nodup_range.filter _
  · refine List.pairwise_map.mpr (part.2.imp fun h i hi hj => ?_)
    simp only [List.mem_filter, decide_eq_true_eq] at hi hj
    exact h _ hi.2 hj.2

theorem double_region (nx M : Nat) (p : Problem K) (hM : p.nReg = nx * M) (cover : ∀ i, i < p.nReg ↔ ∃ x ∈ p.rs, i ∈ x.regs) (i : Nat) (hi : i < 2 * p.nReg) :
    ∃ x ∈ p.rs, Sn.foldIx nx i ∈ x.regs ∧ i ∈ (List.range (2 * p.nReg)).filter fun i => decide (Sn.foldIx nx i ∈ x.regs) := by
  obtain ⟨x, hx, hxi⟩ := (cover (Sn.foldIx nx i)).mp (by rw [hM] at hi ⊢; exact Sn.foldIx_lt nx M i hi)
  exact ⟨x, hx, hxi, List.mem_filter.mpr ⟨List.mem_range.mpr hi, by simpa using hxi⟩⟩

theorem double_cover (nx M : Nat) (p : Problem K) (hM : p.nReg = nx * M) (cover : ∀ i, i < p.nReg ↔ ∃ x ∈ p.rs, i ∈ x.regs) (i : Nat) :
    i < (doubleProblem nx p).nReg ↔ ∃ x ∈ (doubleProblem nx p).rs, i ∈ x.regs := by
  constructor
  · intro hi
    obtain ⟨x, hx, -, h⟩ := double_region nx M p hM cover i hi
    exact ⟨_, List.mem_map.mpr ⟨x, hx, rfl⟩, h⟩
  · rintro ⟨x, hx, hi⟩
    obtain ⟨y, _, rfl⟩ := List.mem_map.mp hx
    exact List.mem_range.mp (List.mem_filter.mp hi).1

theorem double_nonneg (nx : Nat) (p : Problem K) (hsc : ∀ x ∈ p.rs, Source.NonNeg p.ng x.mat) : ∀ x ∈ (doubleProblem nx p).rs, Source.NonNeg (doubleProblem nx p).ng x.mat := by
  intro x hx
  obtain ⟨y, hy, rfl⟩ := List.mem_map.mp hx
  exact hsc y hy

/-- C157: all groups. A state that has converged in the half, doubled, has converged in both halves, with sources that are mirrored. -/
theorem C157_groups (p : Problem K) (part : Partition p.rs) (cover : ∀ i, i < p.nReg ↔ ∃ x ∈ p.rs, i ∈ x.regs) (hsc : ∀ x ∈ p.rs, Source.NonNeg p.ng x.mat)
    {nx nAng : Nat} {ax : κ} {n : κ → Nat} {m M : SnSetup κ K} {ordOf ordW : Nat → SnOrd κ K} {mir : Nat → κ → Nat} {vac vacW : Nat → κ → Bool} {neg : Nat → Bool}
    (h : SnDoubled nx p.nReg nAng ax n m M ordOf ordW mir vac vacW neg) (rows : Nat) (hrows : p.nReg = nx * rows) (hfpi : m.fpi ≠ 0) (hfpi' : M.fpi = m.fpi) (hin : m.nInner = 1)
    (hin' : M.nInner = 1) (base base' : Nat → Nat → K) (hbase : ∀ g < p.ng, ∀ i < 2 * p.nReg, base' g i = base g (Sn.foldIx nx i)) (s S : SnState κ K)
    (hc : SnConverged p nAng n s (srcLoop p (snSweeper p m) base p.ng 0 s)) (hflux : ∀ i < 2 * p.nReg, ∀ g < p.ng, S.flux i g = s.flux (Sn.foldIx nx i) g)
    (hbin : ∀ g < p.ng, SnSame nAng (faceSlots ax n) (doubledBin ax nx mir neg (s.bin g)) (S.bin g)) :
    SnConverged (doubleProblem nx p) nAng (faceSlots ax n) S (srcLoop (doubleProblem nx p) (snSweeper (doubleProblem nx p) M) base' p.ng 0 S) := by
  have hlt : ∀ i < 2 * p.nReg, Sn.foldIx nx i < p.nReg := by
    intro i hi
    rw [hrows] at hi ⊢
    exact Sn.foldIx_lt nx rows i hi
  have key : ∀ c g (T : SnState κ K), g + c ≤ p.ng → (∀ i < 2 * p.nReg, ∀ g < p.ng, T.flux i g = S.flux i g) → (∀ g < p.ng, SnSame nAng (faceSlots ax n) (S.bin g) (T.bin g)) →
      (∀ i < 2 * p.nReg, ∀ h < p.ng, (srcLoop (doubleProblem nx p) (snSweeper (doubleProblem nx p) M) base' c g T).flux i h = S.flux i h) ∧
      ∀ h < p.ng, SnSame nAng (faceSlots ax n) (S.bin h) ((srcLoop (doubleProblem nx p) (snSweeper (doubleProblem nx p) M) base' c g T).bin h) := by
    intro c
    induction c with
    | zero => exact fun g T _ h1 h2 => ⟨h1, h2⟩
    | succ c ih =>
      intro g T hg h1 h2
      have hg' : g < p.ng := by omega
      obtain ⟨q, bo, f1, f2, f3⟩ := sn_converged_group p part cover hsc m nAng n hfpi hin base s hc g hg'
      set src := inScatter p.ng (doubleProblem nx p).rs T.flux g (base' g) with hsrc
      set q2 := selfScatter M.fpi p.ng (doubleProblem nx p).rs T.flux g src false T.q with hq2
      have hreg : ∀ i < 2 * p.nReg, q2 i = q (Sn.foldIx nx i) ∧ trOf (doubleProblem nx p).rs g i = trOf p.rs g (Sn.foldIx nx i) := by
        intro i hi
        obtain ⟨x, hx, hxi, hxi'⟩ := double_region nx rows p hrows cover i hi
        have hX : (⟨x.mat, (List.range (2 * p.nReg)).filter fun i => decide (Sn.foldIx nx i ∈ x.regs)⟩ : XsRegion (Mat K)) ∈ (doubleProblem nx p).rs := List.mem_map.mpr ⟨x, hx, rfl⟩
        constructor
        · apply mul_left_cancel₀ hfpi
          rw [f3 x hx _ hxi, hq2, selfScatter_at M.fpi p.ng _ (double_part nx p part) T.flux g hg' src false T.q _ hX i hxi', if_neg (by decide), hsrc,
            inScatter_at p.ng _ (double_part nx p part) T.flux g hg' (base' g) _ hX i hxi' (hsc x hx), hfpi', hbase g hg' i hi]
          have e : ∀ h ∈ range p.ng, (if h ≠ g then x.mat.sc g h * T.flux i h else 0) =
              x.mat.sc g h * s.flux (Sn.foldIx nx i) h - if h = g then x.mat.sc g g * s.flux (Sn.foldIx nx i) g else 0 := by
            intro h hh
            rw [h1 i hi h (mem_range.mp hh), hflux i hi h (mem_range.mp hh)]
            by_cases e : h = g
            · subst e; simp
            · simp [e]
          rw [sum_congr rfl e, sum_sub_distrib, sum_ite_eq' (range p.ng) g, if_pos (mem_range.mpr hg'), h1 i hi g hg', hflux i hi g hg']
          field_simp
          ring
        · rw [trOf_at _ (double_part nx p part) g _ hX i hxi', trOf_at p.rs part g x hx _ hxi]
      obtain ⟨r1, r2⟩ := C157_sweep h q (trOf p.rs g) q2 (trOf (doubleProblem nx p).rs g) (fun i hi => (hreg i hi).1) (fun i hi => (hreg i hi).2) (s.bin g) bo (T.bin g) T.bout f1
        (fun a ha k j hj => (hbin g hg' a ha k j hj).trans (h2 g hg' a ha k j hj))
      have hsw : (snSweeper (doubleProblem nx p) M).sweep g src T =
          { snInner (doubleProblem nx p) M g src T with
            flux := fun i h => if h = g ∧ (snInner (doubleProblem nx p) M g src T).flux i h < 0 then 0 else (snInner (doubleProblem nx p) M g src T).flux i h } := by
        show snSweep (doubleProblem nx p) M g src T = _
        simp [snSweep, hin']
      have hval : ∀ i < 2 * p.nReg, (snInner (doubleProblem nx p) M g src T).flux i g = S.flux i g := by
        intro i hi
        show (if g = g then (snSweep1g M q2 (trOf (doubleProblem nx p).rs g) (T.bin g) T.bout).tflux i else T.flux i g) = _
        rw [if_pos rfl, r2 i hi, f2 _ (hlt i hi), hflux i hi g hg']
      rw [srcLoop]
      refine ih (g + 1) _ (by omega) (fun i hi h' hh => ?_) (fun h' hh a ha k j hj => ?_)
      · show ((snSweeper (doubleProblem nx p) M).sweep g src T).flux i h' = _
        rw [hsw]
        by_cases e : h' = g
        · subst e
          have hp : 0 < S.flux i h' := by
            rw [hflux i hi h' hh]
            exact hc.pos _ (hlt i hi) h' hh
          simp only [hval i hi]
          exact if_neg fun hn => absurd hn.2 (not_lt.mpr hp.le)
        · simp only [if_neg (fun hn : h' = g ∧ (snInner (doubleProblem nx p) M g src T).flux i h' < 0 => e hn.1)]
          show (if h' = g then _ else T.flux i h') = _
          rw [if_neg e]
          exact h1 i hi h' hh
      · show S.bin h' a k j = ((snSweeper (doubleProblem nx p) M).sweep g src T).bin h' a k j
        rw [hsw]
        show _ = (if h' = g then (snSweep1g M q2 (trOf (doubleProblem nx p).rs g) (T.bin g) T.bout).bin else T.bin h') a k j
        by_cases e : h' = g
        · subst e
          rw [if_pos rfl, ← r1 a ha k j hj]
          exact h2 h' hh a ha k j hj
        · rw [if_neg e]
          exact h2 h' hh a ha k j hj
  obtain ⟨k1, k2⟩ := key p.ng 0 S (by omega) (fun _ _ _ _ => rfl) fun _ _ _ _ _ _ _ => rfl
  refine ⟨fun i hi g hg => ?_, k1, k2⟩
  rw [hflux i hi g hg]
  exact hc.pos _ (hlt i hi) g hg

/-- Sums over both halves. -/
theorem sum_double (n M : Nat) (f : Nat → K) : ∑ i ∈ range (2 * (n * M)), f (Sn.foldIx n i) = 2 * ∑ i ∈ range (n * M), f i := by
  induction M with
  | zero => simp
  | succ M ih =>
    have e1 : 2 * (n * (M + 1)) = 2 * (n * M) + (n + n) := by ring
    have e2 : n * (M + 1) = n * M + n := by ring
    rw [e1, e2, sum_range_add _ (2 * (n * M)), sum_range_add _ (n * M), ih, mul_add]
    congr 1
    have hrow : ∀ j ∈ range (n + n), f (Sn.foldIx n (2 * (n * M) + j)) = f (n * M + Sn.fold n j) := by
      intro j hj
      rw [← Nat.mul_assoc, (Sn.foldIx_row n M j (by have := mem_range.mp hj; omega)).1]
    rw [sum_congr rfl hrow, sum_range_add, two_mul]
    congr 1
    · exact sum_congr rfl fun j hj => by rw [Sn.fold, if_pos (mem_range.mp hj)]
    · rw [← sum_range_reflect]
      refine sum_congr rfl fun j hj => ?_
      have := mem_range.mp hj
      rw [Sn.fold, if_neg (by omega)]
      congr 2
      omega

/-- Production of both halves. -/
theorem double_production (nx rows : Nat) (p : Problem K) (hrows : p.nReg = nx * rows) (part : Partition p.rs) (cover : ∀ i, i < p.nReg ↔ ∃ x ∈ p.rs, i ∈ x.regs) (φ Φ : Nat → Nat → K)
    (h : ∀ i < 2 * p.nReg, ∀ g < p.ng, Φ i g = φ (Sn.foldIx nx i) g) :
    totalFission (doubleProblem nx p).ng (doubleProblem nx p).rs (doubleProblem nx p).vol Φ = 2 * totalFission p.ng p.rs p.vol φ := by
  rw [totalFission_eq, totalFission_eq, ← List.sum_map_mul_left]
  show ((p.rs.map _).map _).sum = _
  rw [List.map_map]
  congr 1
  refine List.map_congr_left fun x hx => ?_
  have hnd := part.1 x hx
  set f : Nat → K := fun i => p.vol i * ∑ g ∈ range p.ng, x.mat.nf g * φ i g with hf
  show (((List.range (2 * p.nReg)).filter fun i => decide (Sn.foldIx nx i ∈ x.regs)).map fun i => p.vol (Sn.foldIx nx i) * ∑ g ∈ range p.ng, x.mat.nf g * Φ i g).sum = 2 * (x.regs.map f).sum
  have e1 : ((List.range (2 * p.nReg)).filter fun i => decide (Sn.foldIx nx i ∈ x.regs)).map (fun i => p.vol (Sn.foldIx nx i) * ∑ g ∈ range p.ng, x.mat.nf g * Φ i g) =
      ((List.range (2 * p.nReg)).filter fun i => decide (Sn.foldIx nx i ∈ x.regs)).map fun i => f (Sn.foldIx nx i) := by
    refine List.map_congr_left fun i hi => ?_
    have hi := List.mem_range.mp (List.mem_filter.mp hi).1
    simp only [hf]
    congr 1
    exact sum_congr rfl fun g hg => by rw [h i hi g (mem_range.mp hg)]
  rw [e1, ← List.sum_toFinset _ (List.nodup_range.filter _), ← List.sum_toFinset _ hnd]
  have e2 : ((List.range (2 * p.nReg)).filter fun i => decide (Sn.foldIx nx i ∈ x.regs)).toFinset = (range (2 * p.nReg)).filter fun i => Sn.foldIx nx i ∈ x.regs := by
    ext i; simp
  have e3 : x.regs.toFinset = (range p.nReg).filter fun i => i ∈ x.regs := by
    ext i
    simp only [List.mem_toFinset, mem_filter, mem_range]
    exact ⟨fun hi => ⟨(cover i).mpr ⟨x, hx, hi⟩, hi⟩, And.right⟩
  rw [e2, e3, sum_filter, sum_filter, hrows]
  exact sum_double nx rows fun i => if i ∈ x.regs then f i else 0

/-- C157: an eigenvalue calculation of the half that has converged, and that of both halves: converged with the doubled flux and the same eigenvalue. -/
theorem C157_k (p : Problem K) (part : Partition p.rs) (cover : ∀ i, i < p.nReg ↔ ∃ x ∈ p.rs, i ∈ x.regs) (hsc : ∀ x ∈ p.rs, Source.NonNeg p.ng x.mat)
    {nx nAng : Nat} {ax : κ} {n : κ → Nat} {m M : SnSetup κ K} {ordOf ordW : Nat → SnOrd κ K} {mir : Nat → κ → Nat} {vac vacW : Nat → κ → Bool} {neg : Nat → Bool}
    (h : SnDoubled nx p.nReg nAng ax n m M ordOf ordW mir vac vacW neg) (rows : Nat) (hrows : p.nReg = nx * rows) (hfpi : m.fpi ≠ 0) (hfpi' : M.fpi = m.fpi) (hin : m.nInner = 1)
    (hin' : M.nInner = 1) (k k' : K) (s s' S : SnState κ K) (ho : outer p (snSweeper p m) k s = some (k', s')) (hc : SnConverged p nAng n s s')
    (hflux : ∀ i < 2 * p.nReg, ∀ g < p.ng, S.flux i g = s.flux (Sn.foldIx nx i) g)
    (hbin : ∀ g < p.ng, SnSame nAng (faceSlots ax n) (doubledBin ax nx mir neg (s.bin g)) (S.bin g)) :
    ∃ S', outer (doubleProblem nx p) (snSweeper (doubleProblem nx p) M) k S = some (k', S') ∧ SnConverged (doubleProblem nx p) nAng (faceSlots ax n) S S' := by
  have hlt : ∀ i < 2 * p.nReg, Sn.foldIx nx i < p.nReg := by
    intro i hi
    rw [hrows] at hi ⊢
    exact Sn.foldIx_lt nx rows i hi
  rw [outer, groupLoop_eq, Option.map_some, Option.some.injEq, Prod.mk.injEq] at ho
  obtain ⟨hk, rfl⟩ := ho
  have hG := C157_groups p part cover hsc h rows hrows hfpi hfpi' hin hin' _
    (fun g => fission (doubleProblem nx p).rs (calcFissionSource (doubleProblem nx p).ng (doubleProblem nx p).rs k ((snSweeper (doubleProblem nx p) M).flux S)) g fun _ => 0)
    (fun g _ i hi => by
      obtain ⟨x, hx, hxi, hxi'⟩ := double_region nx rows p hrows cover i hi
      have hX : (⟨x.mat, (List.range (2 * p.nReg)).filter fun i => decide (Sn.foldIx nx i ∈ x.regs)⟩ : XsRegion (Mat K)) ∈ (doubleProblem nx p).rs := List.mem_map.mpr ⟨x, hx, rfl⟩
      rw [fission_at _ (double_part nx p part) _ g _ _ hX i hxi', fission_at _ part _ g _ x hx _ hxi, C47_fission_source _ _ (double_part nx p part) k _ _ hX i hxi',
        C47_fission_source _ _ part k _ x hx _ hxi]
      congr 3
      exact sum_congr rfl fun g hg => congrArg (x.mat.nf g * ·) (hflux i hi g (mem_range.mp hg))) s S hc hflux hbin
  refine ⟨_, ?_, hG⟩
  rw [outer, groupLoop_eq, Option.map_some, Option.some.injEq, Prod.mk.injEq]
  refine ⟨?_, rfl⟩
  rw [← hk]
  show k * totalFission _ _ _ (srcLoop (doubleProblem nx p) _ _ p.ng 0 S).flux / totalFission _ _ _ S.flux = _
  rw [double_production nx rows p hrows part cover s.flux S.flux hflux,
    double_production nx rows p hrows part cover (srcLoop p (snSweeper p m) (fun g => fission p.rs (calcFissionSource p.ng p.rs k ((snSweeper p m).flux s)) g fun _ => 0) p.ng 0 s).flux _
      fun i hi g hg => (hG.flux i hi g hg).trans ((hflux i hi g hg).trans (hc.flux _ (hlt i hi) g hg).symm), mul_left_comm, mul_div_mul_left _ _ (two_ne_zero)]
  rfl

/-- C157: a calculation with an external source, mirrored for both halves. -/
theorem C157_fixed (p : Problem K) (part : Partition p.rs) (cover : ∀ i, i < p.nReg ↔ ∃ x ∈ p.rs, i ∈ x.regs) (hsc : ∀ x ∈ p.rs, Source.NonNeg p.ng x.mat)
    {nx nAng : Nat} {ax : κ} {n : κ → Nat} {m M : SnSetup κ K} {ordOf ordW : Nat → SnOrd κ K} {mir : Nat → κ → Nat} {vac vacW : Nat → κ → Bool} {neg : Nat → Bool}
    (h : SnDoubled nx p.nReg nAng ax n m M ordOf ordW mir vac vacW neg) (rows : Nat) (hrows : p.nReg = nx * rows) (hfpi : m.fpi ≠ 0) (hfpi' : M.fpi = m.fpi) (hin : m.nInner = 1)
    (hin' : M.nInner = 1) (ext ext' : Option (Ext K)) (E E' : Nat → Nat → K) (hE : ∀ g < p.ng, initializeGroup p.nReg ext g = some (E g))
    (hE' : ∀ g < p.ng, initializeGroup (2 * p.nReg) ext' g = some (E' g)) (hEE : ∀ g < p.ng, ∀ i < 2 * p.nReg, E' g i = E g (Sn.foldIx nx i)) (s s' S : SnState κ K)
    (ho : fixedSteps p (snSweeper p m) ext 1 s = some s') (hc : SnConverged p nAng n s s') (hflux : ∀ i < 2 * p.nReg, ∀ g < p.ng, S.flux i g = s.flux (Sn.foldIx nx i) g)
    (hbin : ∀ g < p.ng, SnSame nAng (faceSlots ax n) (doubledBin ax nx mir neg (s.bin g)) (S.bin g)) :
    ∃ S', fixedSteps (doubleProblem nx p) (snSweeper (doubleProblem nx p) M) ext' 1 S = some S' ∧ SnConverged (doubleProblem nx p) nAng (faceSlots ax n) S S' := by
  rw [fixedSteps, extLoop_eq p _ ext E p.ng 0 fun g _ hg => hE g (by omega), Option.bind_some, fixedSteps, Option.some.injEq] at ho
  subst ho
  refine ⟨_, ?_, C157_groups p part cover hsc h rows hrows hfpi hfpi' hin hin' E E' hEE s S hc hflux hbin⟩
  rw [fixedSteps, extLoop_eq (doubleProblem nx p) _ ext' E' (doubleProblem nx p).ng 0 fun g _ hg => hE' g (by have : (doubleProblem nx p).ng = p.ng := rfl; omega), Option.bind_some, fixedSteps]
  rfl

end

end Verif.Medium

namespace Verif.Medium

open Finset Verif.XS Verif.Source Verif.Quad Verif.Quad.Spec Verif.BC

section
variable {K : Type} [Field K] [LinearOrder K] [IsStrictOrderedRing K]

/-- The sweep with the boundary conditions of the code, reflection or vacuum on each face. -/
theorem sn_linked {κ : Type} [Fintype κ] (sh : Store K) (first : List (Angle K)) (h : ∀ b o, Pre (load sh b) (load sh o) first)
    (ht : ∀ s, sh.types s = .REFLECT ∨ sh.types s = .VACUUM) (toN : κ → Normal) (ofN : Normal → Option κ) (hto : ∀ k, ofN (toN k) = some k) (n : κ → Nat)
    (hnum : ∀ a < sh.size.length, ∀ k, faceSize sh a (toN k) = n k) (hlt : ∀ a < sh.size.length, ∀ k, refl first.length a (toN k) < sh.size.length)
    (m : SnSetup κ K) (hu : m.u = snUpdate sh toN ofN) (order : List Nat) (hperm : order.Perm (List.range sh.size.length)) (ordOf : Nat → SnOrd κ K)
    (hi : ∀ a, (ordOf a).iang = a) (hords : m.ords = order.map ordOf) :
    SnLinked sh.size.length n m ordOf (fun a k => refl first.length a (toN k)) fun a k => vacuumOn sh a (toN k) := by
  have hP := h (fun _ _ _ => 0) fun _ _ _ => 0
  have h8 : sh.size.length ≤ 8 * first.length := by
    have hl : (load sh fun _ _ _ => 0).size.length = sh.size.length := rfl
    rcases hP.nA with hh | hh <;> omega
  have hval := sn_update_values sh first h ht toN ofN hto n hnum
  exact
    { perm := by
        rw [hords, List.map_map]
        have : SnOrd.iang ∘ ordOf = id := funext hi
        rw [this, List.map_id]
        exact hperm
      num := fun o ho => by
        rw [hords, List.mem_map] at ho
        obtain ⟨a, -, rfl⟩ := ho
        rw [hi]
      lt := hlt
      twice := fun a ha k => (refl_props first.length a _ (by omega)).2.2
      all := fun b o a ha k j hj => by rw [hu]; exact (hval b o a ha k j hj).1
      one := fun c hc b o a ha k j hj => by rw [hu]; exact (hval b o a ha k j hj).2 c hc }

/-- Conditions on the sides of both halves: those of the half, on the east side that of its west side. -/
def wideTypes (t : Surface → Boundary) : Surface → Boundary
  | .EAST => t .WEST
  | s => t s

theorem refl_comm (nd a : Nat) (n : Normal) (h : a < 8 * nd) : refl nd (refl nd a n) .X = refl nd (refl nd a .X) n := by
  obtain ⟨o, k, ho, hk, rfl⟩ := split_index nd a h
  rw [refl_eq nd o k ho hk, refl_eq nd o k ho hk, refl_eq nd _ k (octMirror_lt _ o ho) hk, refl_eq nd _ k (octMirror_lt _ o ho) hk]
  congr 2
  cases n <;> interval_cases o <;> rfl

theorem vacuum_at (sh : Store K) (ang : Nat → Angle K) (hang : ∀ a < sh.size.length, sh.angles[a]? = some (ang a)) (a : Nat) (ha : a < sh.size.length) (n : Normal) :
    vacuumOn sh a n = decide (sh.types (upwindSurface (ang a) n) = .VACUUM) := by
  rw [vacuumOn, hang a ha]
  rfl

/-- The conditions on the sides fit together. -/
theorem wide_vacuum (sh SH : Store K) (hl : SH.size.length = sh.size.length) (htypes : SH.types = wideTypes sh.types) (heast : sh.types .EAST = .REFLECT) (ang : Nat → Angle K)
    (hang : ∀ a < sh.size.length, sh.angles[a]? = some (ang a)) (hang' : ∀ a < sh.size.length, SH.angles[a]? = some (ang a)) (hcos : ∀ a < sh.size.length, (ang a).ox ≠ 0)
    (mir : Nat → Nat) (hlt : ∀ a < sh.size.length, mir a < sh.size.length) (hm : ∀ a < sh.size.length, ang (mir a) = mirror (ang a) .X) (a : Nat) (ha : a < sh.size.length) :
    (decide ((ang a).ox < 0) = true → vacuumOn sh a .X = false) ∧ (vacuumOn SH a .X = vacuumOn sh (if decide ((ang a).ox < 0) then mir a else a) .X) ∧
    ∀ n, n ≠ .X → vacuumOn SH a n = vacuumOn sh a n ∧ vacuumOn sh (mir a) n = vacuumOn sh a n := by
  have hang2 : ∀ a < SH.size.length, SH.angles[a]? = some (ang a) := by rw [hl]; exact hang'
  have ha' : a < SH.size.length := by rw [hl]; exact ha
  have v := vacuum_at sh ang hang
  have V := vacuum_at SH ang hang2 a ha'
  refine ⟨fun hn => ?_, ?_, fun n hn => ?_⟩
  · have hn : (ang a).ox < 0 := by simpa using hn
    rw [v a ha]
    simp only [upwindSurface, if_neg (not_lt.mpr hn.le), heast]
    decide
  · rw [V, htypes]
    rcases lt_or_gt_of_ne (hcos a ha) with hn | hp
    · rw [if_pos (by simpa using hn), v _ (hlt a ha), hm a ha]
      have e1 : upwindSurface (ang a) .X = .EAST := if_neg (not_lt.mpr hn.le)
      have e2 : upwindSurface (mirror (ang a) .X) .X = .WEST := if_pos (show 0 < -(ang a).ox from neg_pos.mpr hn)
      rw [e1, e2]
      rfl
    · rw [if_neg (by simpa using hp.le), v a ha]
      simp only [upwindSurface, if_pos hp, wideTypes]
  · rw [V, htypes, v a ha, v _ (hlt a ha), hm a ha]
    cases n
    · exact absurd rfl hn
    · constructor
      · simp only [upwindSurface]; split_ifs <;> rfl
      · rfl
    · constructor
      · simp only [upwindSurface]; split_ifs <;> rfl
      · rfl

/-- C157: the Sn sweepers in three dimensions with the boundary conditions and the ordinates of the code, reflection on the east side of the half, are of this kind. -/
theorem C157_boundary3 (sh SH : Store K) (first : List (Angle K)) (h : ∀ b o, Pre (load sh b) (load sh o) first) (h' : ∀ b o, Pre (load SH b) (load SH o) first)
    (h8 : sh.size.length = 8 * first.length) (hl : SH.size.length = sh.size.length) (ht : ∀ s, sh.types s = .REFLECT ∨ sh.types s = .VACUUM)
    (heast : sh.types .EAST = .REFLECT) (htypes : SH.types = wideTypes sh.types) (d : Mesh.Dims) (hnx : 0 < d.nx) (hny : 0 < d.ny) (hnz : 0 < d.nz) (dx dy dz : Nat → K)
    (hsz : ∀ a < sh.size.length, faceSize sh a .X = d.ny * d.nz ∧ faceSize sh a .Y = d.nx * d.nz ∧ faceSize sh a .Z = d.nx * d.ny)
    (hsz' : ∀ a < sh.size.length, faceSize SH a .X = d.ny * d.nz ∧ faceSize SH a .Y = 2 * d.nx * d.nz ∧ faceSize SH a .Z = 2 * d.nx * d.ny)
    (ang : Nat → Angle K) (hang : ∀ a < sh.size.length, sh.angles[a]? = some (ang a)) (hcos : ∀ a < sh.size.length, (ang a).ox ≠ 0)
    (wgt : Nat → K) (hwgt : ∀ a < sh.size.length, wgt (refl first.length a .X) = wgt a) (sch : Nat → Nat → Scheme3 K) (m M : SnSetup Sn.Ax3 K) (hu : m.u = snUpdate sh norm3 ax3)
    (hu' : M.u = snUpdate SH norm3 ax3) (order order' : List Nat) (hperm : order.Perm (List.range sh.size.length)) (hperm' : order'.Perm (List.range sh.size.length))
    (hords : m.ords = order.map fun a => ord3 d dx dy dz a (ang a).ox (ang a).oy (ang a).oz (wgt a) (sch a))
    (hords' : M.ords = order'.map fun a => ord3 (Sn.wide d) (fun i => dx (Sn.fold d.nx i)) dy dz a (ang a).ox (ang a).oy (ang a).oz (wgt a) fun i => sch (if Sn.right d.nx i then refl first.length a .X else a) (Sn.foldIx d.nx i)) :
    SnDoubled d.nx (d.nx * d.ny * d.nz) sh.size.length .x (slots3 d) m M (fun a => ord3 d dx dy dz a (ang a).ox (ang a).oy (ang a).oz (wgt a) (sch a))
      (fun a => ord3 (Sn.wide d) (fun i => dx (Sn.fold d.nx i)) dy dz a (ang a).ox (ang a).oy (ang a).oz (wgt a) fun i => sch (if Sn.right d.nx i then refl first.length a .X else a) (Sn.foldIx d.nx i))
      (fun a k => refl first.length a (norm3 k)) (fun a k => vacuumOn sh a (norm3 k)) (fun a k => vacuumOn SH a (norm3 k)) fun a => decide ((ang a).ox < 0) := by
  have hP := h (fun _ _ _ => 0) fun _ _ _ => 0
  have hangles : sh.angles = expand first := hP.angles
  have hangles' : SH.angles = expand first := (h' (fun _ _ _ => 0) fun _ _ _ => 0).angles
  have hlt : ∀ a < sh.size.length, ∀ n, refl first.length a n < sh.size.length := by
    intro a ha n
    rw [h8] at ha ⊢
    exact (refl_props first.length a n ha).1
  have hrm : ∀ a < sh.size.length, ∀ n, ang (refl first.length a n) = mirror (ang a) n := by
    intro a ha n
    have h1 := hang a ha
    have h2 := hang _ (hlt a ha n)
    rw [hangles] at h1 h2
    rw [refl_get first hP.firstOct a n _ h1, Option.some.injEq] at h2
    exact h2.symm
  have hv := wide_vacuum sh SH hl htypes heast ang hang (by rw [hangles', ← hangles]; exact hang) hcos (fun a => refl first.length a .X) (fun a ha => hlt a ha .X) (fun a ha => hrm a ha .X)
  have ht' : ∀ s, SH.types s = .REFLECT ∨ SH.types s = .VACUUM := by
    intro s
    rw [htypes]
    cases s <;> exact ht _
  have nX : ∀ k : Sn.Ax3, k ≠ .x → norm3 k ≠ .X := by
    intro k hk
    cases k
    · exact absurd rfl hk
    · exact nofun
    · exact nofun
  exact
    { half := sn_linked sh first h ht norm3 ax3 (fun k => by cases k <;> rfl) (slots3 d)
        (fun a ha k => by
          obtain ⟨h1, h2, h3⟩ := hsz a ha
          cases k
          · exact h1
          · exact h2
          · exact h3) (fun a ha k => hlt a ha _) m hu order hperm _ (fun _ => rfl) hords
      both := by
        rw [← hl]
        exact sn_linked SH first h' ht' norm3 ax3 (fun k => by cases k <;> rfl) (faceSlots .x (slots3 d))
          (fun a ha k => by
            obtain ⟨h1, h2, h3⟩ := hsz' a (by rw [← hl]; exact ha)
            cases k
            · exact h1
            · exact h2.trans (Nat.mul_assoc _ _ _)
            · exact h3.trans (Nat.mul_assoc _ _ _)) (fun a ha k => by rw [hl] at ha ⊢; exact hlt a ha _) M hu' order' (by rw [hl]; exact hperm') _ (fun _ => rfl) hords'
      negMir := fun a ha => by
        show decide ((ang (refl first.length a .X)).ox < 0) = !decide ((ang a).ox < 0)
        rw [hrm a ha]
        rcases lt_or_gt_of_ne (hcos a ha) with hh | hh
        · simp [mirror, hh, hh.le]
        · simp [mirror, hh, hh.le]
      negKeep := fun a ha k hk => by
        rw [hrm a ha]
        cases k
        · exact absurd rfl hk
        · rfl
        · rfl
      comm := fun a ha k hk => refl_comm first.length a _ (by omega)
      reflect := fun a ha => (hv a ha).1
      vacX := fun a ha => (hv a ha).2.1
      vacK := fun a ha k hk => (hv a ha).2.2 _ (nX k hk)
      ord := fun a ha => by
        have := C157_ord3 d hnx hny hnz dx dy dz a (fun r => if r then refl first.length a .X else a) (ang a).ox (ang a).oy (ang a).oz (wgt a) (hcos a ha) fun r => sch (if r then refl first.length a .X else a)
        have e : (fun r : Bool => ord3 d dx dy dz (if r then refl first.length a .X else a) (if r then -(ang a).ox else (ang a).ox) (ang a).oy (ang a).oz (wgt a)
            (sch (if r then refl first.length a .X else a))) =
            fun r : Bool => (fun a => ord3 d dx dy dz a (ang a).ox (ang a).oy (ang a).oz (wgt a) (sch a)) (if r then refl first.length a (norm3 .x) else a) := by
          funext r
          cases r
          · rfl
          · simp only [if_true, norm3, hrm a ha, hwgt a ha, mirror]
        rw [e] at this
        exact this
      slot := fun k hk j hj => by
        cases k
        · exact absurd rfl hk
        · exact Sn.foldIx_lt _ _ j hj
        · exact Sn.foldIx_lt _ _ j hj }

/-- C157: the same in a plane, with half of the ordinates. -/
theorem C157_boundary2 (sh SH : Store K) (first : List (Angle K)) (h : ∀ b o, Pre (load sh b) (load sh o) first) (h' : ∀ b o, Pre (load SH b) (load SH o) first)
    (h4 : sh.size.length = 4 * first.length) (hl : SH.size.length = sh.size.length) (ht : ∀ s, sh.types s = .REFLECT ∨ sh.types s = .VACUUM)
    (heast : sh.types .EAST = .REFLECT) (htypes : SH.types = wideTypes sh.types) (d : Mesh.Dims) (hnx : 0 < d.nx) (hny : 0 < d.ny) (dx dy : Nat → K)
    (hsz : ∀ a < sh.size.length, faceSize sh a .X = d.ny ∧ faceSize sh a .Y = d.nx)
    (hsz' : ∀ a < sh.size.length, faceSize SH a .X = d.ny ∧ faceSize SH a .Y = 2 * d.nx)
    (ang : Nat → Angle K) (hang : ∀ a < sh.size.length, sh.angles[a]? = some (ang a)) (hcos : ∀ a < sh.size.length, (ang a).ox ≠ 0)
    (wgt : Nat → K) (hwgt : ∀ a < sh.size.length, wgt (refl first.length a .X) = wgt a) (sch : Nat → Nat → Scheme2 K) (m M : SnSetup Sn.Ax2 K) (hu : m.u = snUpdate sh norm2 ax2)
    (hu' : M.u = snUpdate SH norm2 ax2) (order order' : List Nat) (hperm : order.Perm (List.range sh.size.length)) (hperm' : order'.Perm (List.range sh.size.length))
    (hords : m.ords = order.map fun a => ord2 d dx dy a (ang a).ox (ang a).oy (wgt a) (sch a))
    (hords' : M.ords = order'.map fun a => ord2 (Sn.wide d) (fun i => dx (Sn.fold d.nx i)) dy a (ang a).ox (ang a).oy (wgt a) fun i => sch (if Sn.right d.nx i then refl first.length a .X else a) (Sn.foldIx d.nx i)) :
    SnDoubled d.nx (d.nx * d.ny) sh.size.length .x (slots2 d) m M (fun a => ord2 d dx dy a (ang a).ox (ang a).oy (wgt a) (sch a))
      (fun a => ord2 (Sn.wide d) (fun i => dx (Sn.fold d.nx i)) dy a (ang a).ox (ang a).oy (wgt a) fun i => sch (if Sn.right d.nx i then refl first.length a .X else a) (Sn.foldIx d.nx i))
      (fun a k => refl first.length a (norm2 k)) (fun a k => vacuumOn sh a (norm2 k)) (fun a k => vacuumOn SH a (norm2 k)) fun a => decide ((ang a).ox < 0) := by
  have hP := h (fun _ _ _ => 0) fun _ _ _ => 0
  have hangles : sh.angles = expand first := hP.angles
  have hangles' : SH.angles = expand first := (h' (fun _ _ _ => 0) fun _ _ _ => 0).angles
  have hlt : ∀ a < sh.size.length, ∀ k : Sn.Ax2, refl first.length a (norm2 k) < sh.size.length := by
    intro a ha k
    obtain ⟨o, i, ho, hi, rfl⟩ := split_index first.length a (by omega)
    have ho4 : o < 4 := by
      by_contra hc
      have := Nat.mul_le_mul_right first.length (show 4 ≤ o by omega)
      omega
    rw [refl_eq _ o i (by omega) hi, h4]
    have : octMirror (norm2 k) o < 4 := by
      clear ha hi
      cases k <;> interval_cases o <;> decide
    have := Nat.mul_le_mul_right first.length (show octMirror (norm2 k) o ≤ 3 by omega)
    omega
  have hrm : ∀ a < sh.size.length, ∀ k : Sn.Ax2, ang (refl first.length a (norm2 k)) = mirror (ang a) (norm2 k) := by
    intro a ha k
    have h1 := hang a ha
    have h2 := hang _ (hlt a ha k)
    rw [hangles] at h1 h2
    rw [refl_get first hP.firstOct a _ _ h1, Option.some.injEq] at h2
    exact h2.symm
  have hv := wide_vacuum sh SH hl htypes heast ang hang (by rw [hangles', ← hangles]; exact hang) hcos (fun a => refl first.length a .X) (fun a ha => hlt a ha .x) (fun a ha => hrm a ha .x)
  have ht' : ∀ s, SH.types s = .REFLECT ∨ SH.types s = .VACUUM := by
    intro s
    rw [htypes]
    cases s <;> exact ht _
  have nX : ∀ k : Sn.Ax2, k ≠ .x → norm2 k ≠ .X := by
    intro k hk
    cases k
    · exact absurd rfl hk
    · exact nofun
  exact
    { half := sn_linked sh first h ht norm2 ax2 (fun k => by cases k <;> rfl) (slots2 d)
        (fun a ha k => by
          obtain ⟨h1, h2⟩ := hsz a ha
          cases k
          · exact h1
          · exact h2) (fun a ha k => hlt a ha _) m hu order hperm _ (fun _ => rfl) hords
      both := by
        rw [← hl]
        exact sn_linked SH first h' ht' norm2 ax2 (fun k => by cases k <;> rfl) (faceSlots .x (slots2 d))
          (fun a ha k => by
            obtain ⟨h1, h2⟩ := hsz' a (by rw [← hl]; exact ha)
            cases k
            · exact h1
            · exact h2) (fun a ha k => by rw [hl] at ha ⊢; exact hlt a ha _) M hu' order' (by rw [hl]; exact hperm') _ (fun _ => rfl) hords'
      negMir := fun a ha => by
        show decide ((ang (refl first.length a (norm2 .x))).ox < 0) = !decide ((ang a).ox < 0)
        rw [hrm a ha]
        rcases lt_or_gt_of_ne (hcos a ha) with hh | hh
        · simp [mirror, norm2, hh, hh.le]
        · simp [mirror, norm2, hh, hh.le]
      negKeep := fun a ha k hk => by
        rw [hrm a ha]
        cases k
        · exact absurd rfl hk
        · rfl
      comm := fun a ha k hk => refl_comm first.length a _ (by omega)
      reflect := fun a ha => (hv a ha).1
      vacX := fun a ha => (hv a ha).2.1
      vacK := fun a ha k hk => (hv a ha).2.2 _ (nX k hk)
      ord := fun a ha => by
        have := C157_ord2 d hnx hny dx dy a (fun r => if r then refl first.length a .X else a) (ang a).ox (ang a).oy (wgt a) (hcos a ha) fun r => sch (if r then refl first.length a .X else a)
        have e : (fun r : Bool => ord2 d dx dy (if r then refl first.length a .X else a) (if r then -(ang a).ox else (ang a).ox) (ang a).oy (wgt a)
            (sch (if r then refl first.length a .X else a))) =
            fun r : Bool => (fun a => ord2 d dx dy a (ang a).ox (ang a).oy (wgt a) (sch a)) (if r then refl first.length a (norm2 .x) else a) := by
          funext r
          cases r
          · rfl
          · have h1 := hrm a ha .x
            simp only [norm2] at h1
            simp only [if_true, norm2, h1, hwgt a ha, mirror]
        rw [e] at this
        exact this
      slot := fun k hk j hj => by
        cases k
        · exact absurd rfl hk
        · have := Sn.foldIx_lt d.nx 1 j (by simpa [slots2] using hj)
          simpa [slots2] using this }

end

/-! ### The pair of cells of C156 and its mirror image -/

/-- Four cells in a row, vacuum on the west and east sides. -/
def rowStore : Store ℚ := { gapStore 0 ⟨1, 4, 0⟩ with size := List.replicate 4 ⟨1, 4, 0⟩, types := wideTypes pairStore.types }

theorem row_pre (b o : Nat → Normal → Nat → ℚ) : Pre (load rowStore b) (load rowStore o) exAngles := by
  have hc : ∀ a n, cnt (List.replicate 4 (⟨1, 4, 0⟩ : Size3)) a n = if a < 4 then (⟨1, 4, 0⟩ : Size3).get n else 0 := by
    intro a n
    unfold cnt
    rw [List.getElem?_replicate]
    split_ifs <;> simp
  exact
    { angles := rfl
      firstOct := exAngles_first
      nd := rfl
      nA := Or.inr ⟨rfl, fun a => by
        show cnt (List.replicate 4 (⟨1, 4, 0⟩ : Size3)) a .Z = 0
        rw [hc]
        split_ifs <;> rfl⟩
      outSize := rfl
      outGroup := rfl
      mirror := by
        intro a n h
        change cnt (List.replicate 4 (⟨1, 4, 0⟩ : Size3)) a n ≠ 0 at h
        have ha : a < 4 := by
          by_contra hn
          rw [hc, if_neg hn] at h
          exact h rfl
        show cnt (List.replicate 4 (⟨1, 4, 0⟩ : Size3)) (refl 1 a n) n = cnt (List.replicate 4 (⟨1, 4, 0⟩ : Size3)) a n
        have hz : n ≠ .Z := by
          rintro rfl
          rw [hc, if_pos ha] at h
          exact h rfl
        have : refl 1 a n < 4 := by
          clear h
          interval_cases a <;> cases n <;> first | decide | exact absurd rfl hz
        rw [hc, hc, if_pos this, if_pos ha]
      noGap := by
        intro a
        show (cnt (List.replicate 4 (⟨1, 4, 0⟩ : Size3)) a .X = 0 → _) ∧ _
        simp only [load, rowStore, hc]
        split_ifs <;> simp [Size3.get]
      types := fun s => by
        show supported (wideTypes (fun s => if s = .WEST then .VACUUM else .REFLECT) s)
        cases s
        all_goals first | exact Or.inl rfl | exact Or.inr (Or.inl rfl) }

def rowSn (gs : Bool) : SnSetup Sn.Ax2 ℚ :=
  ⟨4, gs, snUpdate rowStore norm2 ax2, [0, 1, 2, 3].map fun a => ord2 (Sn.wide ⟨2, 1, 1⟩) (fun i => pairWidth (Sn.fold 2 i)) (fun _ => 1) a (pairAngle a).ox (pairAngle a).oy 1
    fun _ => Sn.evalDD2, 1⟩

/-- The hypotheses of `C157_boundary2` hold for it. -/
theorem row_double (gs gs' : Bool) : SnDoubled 2 2 4 .x (slots2 ⟨2, 1, 1⟩) (pairSn gs) (rowSn gs')
    (fun a => ord2 ⟨2, 1, 1⟩ pairWidth (fun _ => 1) a (pairAngle a).ox (pairAngle a).oy 1 fun _ => Sn.evalDD2)
    (fun a => ord2 (Sn.wide ⟨2, 1, 1⟩) (fun i => pairWidth (Sn.fold 2 i)) (fun _ => 1) a (pairAngle a).ox (pairAngle a).oy 1 fun _ => Sn.evalDD2)
    (fun a k => refl 1 a (norm2 k)) (fun a k => vacuumOn pairStore a (norm2 k)) (fun a k => vacuumOn rowStore a (norm2 k)) fun a => decide ((pairAngle a).ox < 0) :=
  C157_boundary2 pairStore rowStore exAngles pair_pre row_pre rfl rfl
    (fun s => by
      show (if s = .WEST then Boundary.VACUUM else .REFLECT) = .REFLECT ∨ (if s = .WEST then Boundary.VACUUM else .REFLECT) = .VACUUM
      split_ifs <;> simp)
    rfl rfl ⟨2, 1, 1⟩ (by decide) (by decide) pairWidth (fun _ => 1) (by decide +kernel) (by decide +kernel) pairAngle (by decide +kernel) (by decide +kernel) (fun _ => 1) (fun _ _ => rfl)
    (fun _ _ => Sn.evalDD2) (pairSn gs) (rowSn gs') rfl rfl [2, 0, 3, 1] [0, 1, 2, 3] (by decide) (by decide) rfl rfl

def rowFlux : SnState Sn.Ax2 ℚ :=
  ⟨fun i g => pairFlux.flux (Sn.foldIx 2 i) g, fun _ => 5, fun g => doubledBin .x 2 (fun a k => refl 1 a (norm2 k)) (fun a => decide ((pairAngle a).ox < 0)) (pairFlux.bin g), fun _ _ _ => 0⟩

/-- The hypotheses of `C157_k` hold for it, and so both halves have the eigenvalue of one. -/
example (gs gs' : Bool) : ∃ S', outer (doubleProblem 2 pairProblem) (snSweeper (doubleProblem 2 pairProblem) (rowSn gs')) (113 / 1218) rowFlux = some (113 / 1218, S') ∧
    SnConverged (doubleProblem 2 pairProblem) 4 (faceSlots .x (slots2 ⟨2, 1, 1⟩)) rowFlux S' := by
  obtain ⟨s', h1, h2⟩ := pair_converged pairProblem ⟨rfl, rfl⟩ gs (113 / 1218) pairFlux (by cases gs <;> decide +kernel)
  refine C157_k pairProblem ⟨by decide, by simp [pairProblem]⟩ (fun i => by simp [pairProblem]; omega) ?_ (row_double gs gs') 1 rfl (by norm_num [pairSn]) rfl rfl rfl _ _ pairFlux s' rowFlux
    h1 h2 (fun _ _ _ _ => rfl) fun _ _ _ _ _ _ _ => rfl
  intro x hx a b _ _
  simp only [pairProblem, List.mem_cons, List.not_mem_nil, or_false] at hx
  rcases hx with rfl | rfl
  · simp only [slowMat]
    split_ifs <;> norm_num
  · dsimp only
    split_ifs <;> norm_num

/-- What is doubled: cells of width 1/3, 2/3, 2/3, 1/3, and the regions of the materials. -/
example : (List.range 4).map (doubleProblem 2 pairProblem).vol = [1 / 3, 2 / 3, 2 / 3, 1 / 3] ∧ (doubleProblem 2 pairProblem).rs.map (·.regs) = [[0, 3], [1, 2]] ∧
    (List.range 4).map (fun i => rowFlux.flux i 0) = [924, 336, 336, 924] := by
  decide +kernel

/-- The hypotheses of `C157_fixed` hold: an external source of fast neutrons in the outer cells. -/
example (gs gs' : Bool) : ∃ S', fixedSteps (doubleProblem 2 pairProblem) (snSweeper (doubleProblem 2 pairProblem) (rowSn gs')) (some ⟨4, 2, fun i g => if g = 0 ∧ (i = 0 ∨ i = 3) then 2436 else 0⟩) 1
      rowFlux = some S' ∧ SnConverged (doubleProblem 2 pairProblem) 4 (faceSlots .x (slots2 ⟨2, 1, 1⟩)) rowFlux S' := by
  obtain ⟨s', h1, h2⟩ := pair_converged_fixed pairProblem ⟨rfl, rfl⟩ gs ⟨2, 2, fun i g => if g = 0 ∧ i = 0 then 2436 else 0⟩ pairFlux (by cases gs <;> decide +kernel)
  refine C157_fixed pairProblem ⟨by decide, by simp [pairProblem]⟩ (fun i => by simp [pairProblem]; omega) ?_ (row_double gs gs') 1 rfl (by norm_num [pairSn]) rfl rfl rfl _ _
    (fun g => (initializeGroup 2 (some (⟨2, 2, fun i g => if g = 0 ∧ i = 0 then 2436 else 0⟩ : Ext ℚ)) g).getD fun _ => 0)
    (fun g => (initializeGroup 4 (some (⟨4, 2, fun i g => if g = 0 ∧ (i = 0 ∨ i = 3) then 2436 else 0⟩ : Ext ℚ)) g).getD fun _ => 0) ?_ ?_ (by decide +kernel) pairFlux s' rowFlux
    h1 h2 (fun _ _ _ _ => rfl) fun _ _ _ _ _ _ _ => rfl
  · intro x hx a b _ _
    simp only [pairProblem, List.mem_cons, List.not_mem_nil, or_false] at hx
    rcases hx with rfl | rfl
    · simp only [slowMat]
      split_ifs <;> norm_num
    · dsimp only
      split_ifs <;> norm_num
  · intro g hg
    have hg : g < 2 := hg
    interval_cases g <;> rfl
  · intro g hg
    have hg : g < 2 := hg
    interval_cases g <;> rfl

/-- The box of `C110`, doubled. -/
def longStore : Store ℚ := gapStore 0 ⟨1, 4, 4⟩

theorem long_pre (b o : Nat → Normal → Nat → ℚ) : Pre (load longStore b) (load longStore o) exAngles where
  angles := rfl
  firstOct := exAngles_first
  nd := rfl
  nA := Or.inl rfl
  outSize := rfl
  outGroup := rfl
  mirror := replicate_mirror _
  noGap := by
    intro a
    simp only [load, longStore, gapStore, replicate_cnt]
    split_ifs <;> simp [Size3.get]
  types := fun _ => Or.inr (Or.inl rfl)

/-- The hypotheses of `C157_boundary3` hold for it, with a scheme that depends on the ordinate. -/
example (sch : Nat → Nat → Scheme3 ℚ) : ∃ m M : SnSetup Sn.Ax3 ℚ, ∃ ordOf ordW mir vac vacW neg, SnDoubled 2 2 8 .x (slots3 ⟨2, 1, 1⟩) m M ordOf ordW mir vac vacW neg :=
  ⟨⟨8, false, snUpdate boxStore norm3 ax3, (List.range 8).map fun a => ord3 ⟨2, 1, 1⟩ (fun i => if i = 0 then 1 else 2) (fun _ => 1) (fun _ => 1) a (boxAngle a).ox (boxAngle a).oy
      (boxAngle a).oz 1 (sch a), 1⟩,
    ⟨8, true, snUpdate longStore norm3 ax3, (List.range 8).reverse.map fun a => ord3 (Sn.wide ⟨2, 1, 1⟩) (fun i => if Sn.fold 2 i = 0 then 1 else 2) (fun _ => 1) (fun _ => 1) a (boxAngle a).ox
      (boxAngle a).oy (boxAngle a).oz 1 fun i => sch (if Sn.right 2 i then refl 1 a .X else a) (Sn.foldIx 2 i), 1⟩, _, _, _, _, _, _,
    C157_boundary3 boxStore longStore exAngles box_pre long_pre rfl rfl (fun _ => Or.inl rfl) rfl (by funext s; cases s <;> rfl) ⟨2, 1, 1⟩ (by decide) (by decide) (by decide)
      (fun i => if i = 0 then 1 else 2) (fun _ => 1) (fun _ => 1) (by decide +kernel) (by decide +kernel) boxAngle (by decide +kernel) (fun a ha => (box_cos a ha).1) (fun _ => 1) (fun _ _ => rfl) sch
      _ _ rfl rfl (List.range 8) (List.range 8).reverse (by decide) (by decide) rfl rfl⟩

end Verif.Medium
