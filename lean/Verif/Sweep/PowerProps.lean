import Verif.Sweep.PowerModel
import Verif.Normalize.Props
import Verif.Mesh.Lemmas
import Verif.Util.Sum
import Mathlib.Algebra.BigOperators.Group.Finset.Basic
import Mathlib.Algebra.BigOperators.Ring.Finset
import Mathlib.Algebra.Order.Ring.Rat
import Mathlib.Tactic.NormNum
import Mathlib.Tactic.Ring
import Mathlib.Tactic.FieldSimp
import Mathlib.Tactic.Linarith

/-!
# C101 and C102: pin powers, fission sources and residuals
-/

namespace Verif.Sweep.Power

open Verif.Mesh

variable {K : Type} [Field K]

/-- The lists of regions of the cross-section mesh have each of the regions `0, …, n-1` once (C24, C96), and `own r` is the one that has `r`. -/
structure Owned (xsm : List (XsReg K)) (n : Nat) (own : Nat → XsReg K) : Prop where
  perm : (xsm.flatMap (·.regs)).Perm (List.range n)
  own : ∀ x ∈ xsm, ∀ r ∈ x.regs, own r = x

/-- The power of a region: flux times kappa-fission cross section, summed over groups, times volume. -/
def power (ng : Nat) (own : Nat → XsReg K) (flux : Nat → Nat → K) (vol : Nat → K) (r : Nat) : K :=
  vol r * ∑ g ∈ Finset.range ng, flux r g * (own r).f g

theorem deposit_eq {I : Type} [DecidableEq I] (a : I → K) (r : I) (v : K) (x : I) : deposit a r v x = a x + if x = r then v else 0 := by
  unfold deposit
  split_ifs <;> simp

theorem fold_add {I A : Type} (step : (I → K) → A → I → K) (v : A → I → K) (h : ∀ a y x, step a y x = a x + v y x) (l : List A) (a : I → K) (x : I) :
    l.foldl step a x = a x + (l.map fun y => v y x).sum := by
  induction l generalizing a with
  | nil => simp
  | cons y l ih => rw [List.foldl_cons, ih, h, List.map_cons, List.sum_cons, add_assoc]

theorem fold_sum {A : Type} (step : K → A → K) (v : A → K) (h : ∀ a y, step a y = a + v y) (l : List A) (a : K) :
    l.foldl step a = a + (l.map v).sum := by
  induction l generalizing a with
  | nil => simp
  | cons y l ih => rw [List.foldl_cons, ih, h, List.map_cons, List.sum_cons, add_assoc]

theorem owned_sum {xsm : List (XsReg K)} {n : Nat} {own : Nat → XsReg K} (h : Owned xsm n own) (w : XsReg K → Nat → K) :
    (xsm.map fun x => (x.regs.map fun r => w x r).sum).sum = ∑ r ∈ Finset.range n, w (own r) r := by
  have e : xsm.map (fun x => (x.regs.map fun r => w x r).sum) = xsm.map (fun x => (x.regs.map fun r => w (own r) r).sum) := by
    apply List.map_congr_left
    intro x hx
    congr 1
    apply List.map_congr_left
    intro r hr
    rw [h.own x hx r hr]
  rw [e, ← Util.list_sum_range n (fun r => w (own r) r), ← (h.perm.map fun r => w (own r) r).sum_eq, List.map_flatMap]
  generalize xsm = l
  induction l with
  | nil => rfl
  | cons x l ih => simp [ih]

theorem sum_pick (n r : Nat) (hr : r < n) (w : Nat → K) : ∑ i ∈ Finset.range n, (if r = i then w i else 0) = w r := by
  rw [Finset.sum_ite_eq]
  simp [hr]

/-- C101: `fsr_pow` of a region is its power. -/
theorem C101_regions {xsm : List (XsReg K)} {n : Nat} {own : Nat → XsReg K} (h : Owned xsm n own) (ng : Nat) (flux : Nat → Nat → K) (vol : Nat → K)
    (r : Nat) (hr : r < n) : fsrPow xsm ng flux vol r = power ng own flux vol r := by
  unfold fsrPow
  rw [fold_add _ (fun x r' => (x.regs.map fun q => if r' = q then vol q * ∑ g ∈ Finset.range ng, flux q g * x.f g else 0).sum)]
  · rw [zero_add, owned_sum h fun x q => if r = q then vol q * ∑ g ∈ Finset.range ng, flux q g * x.f g else 0]
    exact sum_pick n r hr _
  · intro a x r'
    rw [fold_add _ (fun g r' => (x.regs.map fun q => if r' = q then flux q g * x.f g * vol q else 0).sum)]
    · congr 1
      rw [Util.list_sum_range]
      generalize x.regs = l
      induction l with
      | nil => simp
      | cons q l ih =>
        simp only [List.map_cons, List.sum_cons]
        rw [Finset.sum_add_distrib, ih]
        congr 1
        split_ifs
        · rw [Finset.mul_sum]
          exact Finset.sum_congr rfl fun g _ => by ring
        · simp
    · intro a g r''
      rw [fold_add _ (fun q r' => if r' = q then flux q g * x.f g * vol q else 0)]
      intro a q x
      exact deposit_eq _ _ _ _

/-- Sum over `n` regions from number `off` on. -/
def blk (fsr : Nat → K) (off n : Nat) : K := ∑ j ∈ Finset.range n, fsr (off + j)

theorem blk_add (fsr : Nat → K) (off n m : Nat) : blk fsr off (n + m) = blk fsr off n + blk fsr (off + n) m := by
  unfold blk
  rw [Finset.sum_range_add]
  simp [add_assoc]

theorem regLoop_spec (fsr : Nat → K) (at_ : Nat × Nat × Nat) (n : Nat) (s : St K) :
    (regLoop fsr at_ n s).ireg = s.ireg + n ∧ (regLoop fsr at_ n s).tot = s.tot + blk fsr s.ireg n ∧
    ∀ i, (regLoop fsr at_ n s).pow i = s.pow i + if i = at_ then blk fsr s.ireg n else 0 := by
  induction n generalizing s with
  | zero => simp [regLoop, blk]
  | succ n ih =>
    obtain ⟨h1, h2, h3⟩ := ih ⟨s.ireg + 1, s.tot + fsr s.ireg, deposit s.pow at_ (fsr s.ireg)⟩
    have e : blk fsr s.ireg (n + 1) = fsr s.ireg + blk fsr (s.ireg + 1) n := by
      rw [Nat.add_comm n 1, blk_add]
      simp [blk]
    unfold regLoop
    refine ⟨by rw [h1]; dsimp only; omega, by rw [h2, e]; dsimp only; ring, fun i => ?_⟩
    rw [h3, e]
    dsimp only
    rw [deposit_eq]
    split_ifs <;> ring

theorem pinLoop_spec (fsr : Nat → K) (pos : Nat → Nat × Nat) (iplane : Nat) (ns : List Nat) (ipin : Nat) (s : St K) :
    (pinLoop fsr pos iplane ns ipin s).ireg = s.ireg + ns.sum ∧ (pinLoop fsr pos iplane ns ipin s).tot = s.tot + blk fsr s.ireg ns.sum ∧
    ∀ i, (pinLoop fsr pos iplane ns ipin s).pow i = s.pow i + ∑ q ∈ Finset.range ns.length,
      if i = (iplane, (pos (ipin + q)).2, (pos (ipin + q)).1) then blk fsr (s.ireg + (ns.take q).sum) (ns.getD q 0) else 0 := by
  induction ns generalizing ipin s with
  | nil => simp [pinLoop, blk]
  | cons n ns ih =>
    unfold pinLoop
    obtain ⟨r1, r2, r3⟩ := regLoop_spec fsr (iplane, (pos ipin).2, (pos ipin).1) n s
    obtain ⟨h1, h2, h3⟩ := ih (ipin + 1) (regLoop fsr (iplane, (pos ipin).2, (pos ipin).1) n s)
    refine ⟨by rw [h1, r1, List.sum_cons]; omega, by rw [h2, r2, r1, List.sum_cons, blk_add]; ring, fun i => ?_⟩
    rw [h3, r3, List.length_cons, Finset.sum_range_succ', r1]
    simp only [List.take_succ_cons, List.sum_cons, List.getD_cons_succ, List.take_zero, List.sum_nil, List.getD_cons_zero, Nat.add_zero]
    rw [add_assoc]
    congr 1
    rw [add_comm]
    congr 1
    apply Finset.sum_congr rfl
    intro q _
    rw [show ipin + (q + 1) = ipin + 1 + q by omega, Nat.add_assoc s.ireg]

/-- Numbers of regions of the pins of macroplane `k`: those of its lowest plane; the macroplanes with sizes `sub` begin at plane `iz`. -/
def pinsOf (nxy : Nat) (pins : List Nat) (iz : Nat) (sub : List Nat) (k : Nat) : List Nat := (pins.drop (nxy * (iz + (sub.take k).sum))).take nxy

/-- The number of the first region of macroplane `k`. -/
def regOf (nxy : Nat) (pins : List Nat) (iz : Nat) (sub : List Nat) (k : Nat) : Nat := ((List.range k).map fun j : Nat => (pinsOf nxy pins iz sub j).sum).sum

theorem pinsOf_succ (nxy : Nat) (pins : List Nat) (iz np : Nat) (sub : List Nat) (k : Nat) :
    pinsOf nxy pins iz (np :: sub) (k + 1) = pinsOf nxy pins (iz + np) sub k := by
  unfold pinsOf
  rw [List.take_succ_cons, List.sum_cons, Nat.add_assoc]

theorem regOf_succ (nxy : Nat) (pins : List Nat) (iz np : Nat) (sub : List Nat) (k : Nat) :
    regOf nxy pins iz (np :: sub) (k + 1) = (pinsOf nxy pins iz (np :: sub) 0).sum + regOf nxy pins (iz + np) sub k := by
  unfold regOf
  rw [List.range_succ_eq_map, List.map_cons, List.sum_cons, List.map_map]
  congr 2
  apply List.map_congr_left
  intro j _
  simp only [Function.comp]
  rw [pinsOf_succ]

theorem planeLoop_spec (fsr : Nat → K) (pos : Nat → Nat × Nat) (nxy : Nat) (pins sub : List Nat) (iplane iz : Nat) (s : St K)
    (hl : nxy * (iz + sub.sum) ≤ pins.length) (hs : ∀ n ∈ sub, 0 < n) :
    ∃ s', planeLoop fsr pos nxy pins sub iplane iz s = some s' ∧
      s'.tot = s.tot + blk fsr s.ireg (regOf nxy pins iz sub sub.length) ∧
      (∀ i, i.1 < iplane → s'.pow i = s.pow i) ∧
      ∀ k, k < sub.length → ∀ y x, s'.pow (iplane + k, y, x) = s.pow (iplane + k, y, x) + ∑ q ∈ Finset.range nxy,
        if (y, x) = ((pos q).2, (pos q).1) then
          blk fsr (s.ireg + regOf nxy pins iz sub k + ((pinsOf nxy pins iz sub k).take q).sum) ((pinsOf nxy pins iz sub k).getD q 0)
        else 0 := by
  induction sub generalizing iplane iz s with
  | nil => exact ⟨s, rfl, by simp [regOf, blk], fun _ _ => rfl, fun k hk => by simp at hk⟩
  | cons np sub ih =>
    have hnp : 0 < np := hs np (by simp)
    rw [List.sum_cons] at hl
    have hb : nxy * (iz + 1) ≤ pins.length := le_trans (Nat.mul_le_mul_left _ (by omega)) hl
    have hp0 : pinsOf nxy pins iz (np :: sub) 0 = (pins.drop (nxy * iz)).take nxy := by
      unfold pinsOf
      simp
    have hlen : ((pins.drop (nxy * iz)).take nxy).length = nxy := by
      rw [List.length_take, List.length_drop]
      have : nxy * (iz + 1) = nxy * iz + nxy := by ring
      omega
    obtain ⟨p1, p2, p3⟩ := pinLoop_spec fsr pos iplane ((pins.drop (nxy * iz)).take nxy) 0 s
    obtain ⟨s', h1, h2, h3, h4⟩ := ih (iplane + 1) (iz + np) (pinLoop fsr pos iplane ((pins.drop (nxy * iz)).take nxy) 0 s)
      (by rw [Nat.add_assoc]; exact hl) (fun n hn => hs n (by simp [hn]))
    refine ⟨s', ?_, ?_, ?_, ?_⟩
    · unfold planeLoop
      rw [if_pos hb, h1]
    · rw [h2, p1, p2, List.length_cons, regOf_succ, hp0, blk_add]
      ring
    · intro i hi
      rw [h3 i (by omega), p3]
      simp only [add_eq_left]
      apply Finset.sum_eq_zero
      intro q _
      rw [if_neg]
      rintro rfl
      exact absurd hi (lt_irrefl _)
    · intro k hk y x
      cases k with
      | zero =>
        rw [Nat.add_zero, h3 _ (by dsimp only; omega), p3, hlen, hp0]
        congr 1
        apply Finset.sum_congr rfl
        intro q _
        have e : (((iplane, y, x) : Nat × Nat × Nat) = (iplane, (pos (0 + q)).2, (pos (0 + q)).1)) ↔ (y, x) = ((pos q).2, (pos q).1) := by
          rw [Nat.zero_add, Prod.mk.injEq]
          simp
        simp only [e]
        simp [regOf]
      | succ k =>
        rw [show iplane + (k + 1) = iplane + 1 + k by omega, h4 k (by simpa using hk) y x, p1, p3]
        have z : ∑ q ∈ Finset.range ((pins.drop (nxy * iz)).take nxy).length,
            (if ((iplane + 1 + k, y, x) : Nat × Nat × Nat) = (iplane, (pos (0 + q)).2, (pos (0 + q)).1) then
              blk fsr (s.ireg + (((pins.drop (nxy * iz)).take nxy).take q).sum) (((pins.drop (nxy * iz)).take nxy).getD q 0) else 0) = 0 := by
          apply Finset.sum_eq_zero
          intro q _
          rw [if_neg]
          intro hc
          rw [Prod.mk.injEq] at hc
          omega
        rw [z, add_zero]
        congr 1
        apply Finset.sum_congr rfl
        intro q _
        rw [pinsOf_succ, regOf_succ, hp0, ← Nat.add_assoc]

theorem blk_split (fsr : Nat → K) (off : Nat) (ns : List Nat) :
    ∑ q ∈ Finset.range ns.length, blk fsr (off + (ns.take q).sum) (ns.getD q 0) = blk fsr off ns.sum := by
  induction ns generalizing off with
  | nil => simp [blk]
  | cons n ns ih =>
    rw [List.length_cons, Finset.sum_range_succ']
    simp only [List.take_succ_cons, List.sum_cons, List.getD_cons_succ, List.take_zero, List.sum_nil, List.getD_cons_zero, Nat.add_zero]
    rw [blk_add, ← ih (off + n), add_comm]
    congr 1
    apply Finset.sum_congr rfl
    intro q _
    rw [Nat.add_assoc]

theorem blk_planes (fsr : Nat → K) (nxy : Nat) (pins : List Nat) (iz : Nat) (sub : List Nat) (m : Nat) :
    ∑ k ∈ Finset.range m, blk fsr (regOf nxy pins iz sub k) (pinsOf nxy pins iz sub k).sum = blk fsr 0 (regOf nxy pins iz sub m) := by
  induction m with
  | zero => simp [regOf, blk]
  | succ m ih =>
    rw [Finset.sum_range_succ, ih]
    have : regOf nxy pins iz sub (m + 1) = regOf nxy pins iz sub m + (pinsOf nxy pins iz sub m).sum := by
      unfold regOf
      rw [List.range_succ, List.map_append, List.sum_append]
      simp
    rw [this, blk_add, Nat.zero_add]

variable [LinearOrder K]

/-- C101, `TransportSweeper::pin_powers`.  The element of pin `i` and macroplane `k` is the power of its regions, times the factor for which all powers
sum to the number of fuel pins of a plane; no numbers if the total power is zero. -/
theorem C101_moc (fsr : Nat → K) (pos : Nat → Nat × Nat) (nxy : Nat) (pins sub : List Nat) (nFuel : Nat)
    (hpos : ∀ i j, i < nxy → j < nxy → pos i = pos j → i = j) (hl : nxy * sub.sum ≤ pins.length) (hs : ∀ n ∈ sub, 0 < n) :
    (blk fsr 0 (regOf nxy pins 0 sub sub.length) = 0 → pinPowers fsr pos nxy pins sub nFuel = none) ∧
    (blk fsr 0 (regOf nxy pins 0 sub sub.length) ≠ 0 → ∃ pw, pinPowers fsr pos nxy pins sub nFuel = some pw ∧
      (∀ k i, k < sub.length → i < nxy → pw (k, (pos i).2, (pos i).1) =
        blk fsr (regOf nxy pins 0 sub k + ((pinsOf nxy pins 0 sub k).take i).sum) ((pinsOf nxy pins 0 sub k).getD i 0) *
          ((nFuel : K) / blk fsr 0 (regOf nxy pins 0 sub sub.length))) ∧
      (∀ k y x, k < sub.length → (∀ i, i < nxy → pos i ≠ (x, y)) → pw (k, y, x) = 0) ∧
      ∑ k ∈ Finset.range sub.length, ∑ i ∈ Finset.range nxy, pw (k, (pos i).2, (pos i).1) = nFuel) := by
  obtain ⟨s, h1, h2, -, h4⟩ := planeLoop_spec fsr pos nxy pins sub 0 0 ⟨0, 0, fun _ => 0⟩ (by simpa using hl) hs
  simp only [zero_add] at h2 h4
  unfold pinPowers
  rw [h1]
  dsimp only
  rw [h2]
  constructor
  · intro h0
    rw [if_pos h0]
  · intro h0
    rw [if_neg h0]
    have hv : ∀ k i, k < sub.length → i < nxy → s.pow (k, (pos i).2, (pos i).1) =
        blk fsr (regOf nxy pins 0 sub k + ((pinsOf nxy pins 0 sub k).take i).sum) ((pinsOf nxy pins 0 sub k).getD i 0) := by
      intro k i hk hi
      rw [h4 k hk]
      rw [Finset.sum_eq_single i]
      · rw [if_pos rfl]
      · intro q hq hqi
        rw [if_neg]
        intro hc
        rw [Prod.mk.injEq] at hc
        exact hqi (hpos q i (Finset.mem_range.1 hq) hi (Prod.ext hc.2.symm hc.1.symm))
      · intro hq
        exact absurd (Finset.mem_range.2 hi) hq
    refine ⟨_, rfl, ?_, ?_, ?_⟩
    · intro k i hk hi
      rw [hv k i hk hi]
    · intro k y x hk hp
      rw [h4 k hk, Finset.sum_eq_zero, zero_mul]
      intro q hq
      rw [if_neg]
      intro hc
      rw [Prod.mk.injEq] at hc
      exact hp q (Finset.mem_range.1 hq) (Prod.ext hc.2.symm hc.1.symm)
    · have : ∀ k ∈ Finset.range sub.length, ∑ i ∈ Finset.range nxy,
          s.pow (k, (pos i).2, (pos i).1) * ((nFuel : K) / blk fsr 0 (regOf nxy pins 0 sub sub.length)) =
          blk fsr (regOf nxy pins 0 sub k) (pinsOf nxy pins 0 sub k).sum * ((nFuel : K) / blk fsr 0 (regOf nxy pins 0 sub sub.length)) := by
        intro k hk
        have hk := Finset.mem_range.1 hk
        rw [← Finset.sum_mul]
        congr 1
        have hlen : (pinsOf nxy pins 0 sub k).length = nxy := by
          unfold pinsOf
          rw [List.length_take, List.length_drop]
          have h5 : (sub.take k).sum + 1 ≤ sub.sum := by
            have e : sub.sum = (sub.take k).sum + (sub.drop k).sum := by rw [← List.sum_append, List.take_append_drop]
            rw [List.drop_eq_getElem_cons hk, List.sum_cons] at e
            have := hs sub[k] (List.getElem_mem hk)
            omega
          have h6 := Nat.mul_le_mul_left nxy h5
          have h7 : nxy * ((sub.take k).sum + 1) = nxy * (sub.take k).sum + nxy := by ring
          rw [Nat.zero_add]
          omega
        rw [← blk_split, hlen]
        exact Finset.sum_congr rfl fun i hi => hv k i hk (Finset.mem_range.1 hi)
      rw [Finset.sum_congr rfl this, ← Finset.sum_mul, blk_planes]
      field_simp

/-- C101: the number of fuel pins of a plane is the largest of those of the planes. -/
theorem C101_fuel (planes : List (List Bool)) :
    (∀ p ∈ planes, p.count true ≤ nFuel2d planes) ∧ (planes ≠ [] → ∃ p ∈ planes, p.count true = nFuel2d planes) := by
  have hc : ∀ (p : List Bool) (n : Nat), p.foldl (fun k b => if b then k + 1 else k) n = n + p.count true := by
    intro p
    induction p with
    | nil => intro n; rfl
    | cons b p ih =>
      intro n
      rw [List.foldl_cons, ih]
      cases b <;> simp
      omega
  have key : ∀ (ps : List (List Bool)) (n : Nat),
      n ≤ ps.foldl (fun n p => max n (p.foldl (fun k b => if b then k + 1 else k) 0)) n ∧
      (∀ p ∈ ps, p.count true ≤ ps.foldl (fun n p => max n (p.foldl (fun k b => if b then k + 1 else k) 0)) n) ∧
      (ps.foldl (fun n p => max n (p.foldl (fun k b => if b then k + 1 else k) 0)) n = n ∨
        ∃ p ∈ ps, p.count true = ps.foldl (fun n p => max n (p.foldl (fun k b => if b then k + 1 else k) 0)) n) := by
    intro ps
    induction ps with
    | nil => intro n; simp
    | cons p ps ih =>
      intro n
      rw [List.foldl_cons]
      obtain ⟨i1, i2, i3⟩ := ih (max n (p.foldl (fun k b => if b then k + 1 else k) 0))
      rw [hc, Nat.zero_add] at i1 i2 i3 ⊢
      refine ⟨by omega, ?_, ?_⟩
      · intro q hq
        rcases List.mem_cons.1 hq with rfl | hq
        · omega
        · exact i2 q hq
      · rcases i3 with i3 | ⟨q, hq, hqe⟩
        · rcases Nat.le_total (p.count true) n with h | h
          · left
            rw [i3]
            omega
          · right
            exact ⟨p, by simp, by rw [i3]; omega⟩
        · exact Or.inr ⟨q, by simp [hq], hqe⟩
  obtain ⟨-, k2, k3⟩ := key planes 0
  refine ⟨k2, fun hne => ?_⟩
  rcases k3 with k3 | k3
  · cases planes with
    | nil => exact absurd rfl hne
    | cons p ps =>
      have := k2 p (by simp)
      exact ⟨p, by simp, by unfold nFuel2d at *; omega⟩
  · exact k3

/-- C101, the claim of the header: the powers sum to the number of elements of the array. -/
def C101_claim : Prop := ∀ (fsr : Nat → ℚ) (pos : Nat → Nat × Nat) (nx ny : Nat) (pins sub : List Nat) (planes : List (List Bool)),
  (∀ i j, i < nx * ny → j < nx * ny → pos i = pos j → i = j) → (∀ i, i < nx * ny → (pos i).1 < nx ∧ (pos i).2 < ny) → (∀ n ∈ sub, 0 < n) →
  nx * ny * sub.sum = pins.length → planes.length = sub.sum → (∀ p ∈ planes, p.length = nx * ny) → (∀ r, 0 ≤ fsr r) →
  ∀ pw, pinPowers fsr pos (nx * ny) pins sub (nFuel2d planes) = some pw →
    ∑ k ∈ Finset.range sub.length, ∑ y ∈ Finset.range ny, ∑ x ∈ Finset.range nx, pw (k, y, x) = ((sub.length * ny * nx : Nat) : ℚ)

/-- Two planes of one fuel pin of one region each, with powers 1 and 3. -/
theorem C101_claim_false : ¬ C101_claim := by
  intro h
  have h1 : (pinPowers (K := ℚ) (fun r => if r = 0 then 1 else 3) (fun _ => (0, 0)) (1 * 1) [1, 1] [1, 1] (nFuel2d [[true], [true]])).isSome := by
    decide +kernel
  have := h (fun r => if r = 0 then 1 else 3) (fun _ => (0, 0)) 1 1 [1, 1] [1, 1] [[true], [true]] (by omega) (by simp) (by simp) rfl rfl (by simp)
    (by intro r; split_ifs <;> norm_num) _ (Option.some_get h1).symm
  revert this h1
  decide +kernel

theorem power_nonneg [IsStrictOrderedRing K] (ng : Nat) (own : Nat → XsReg K) (flux : Nat → Nat → K) (vol : Nat → K) (r : Nat)
    (h1 : 0 ≤ vol r) (h2 : ∀ g, g < ng → 0 ≤ flux r g ∧ 0 ≤ (own r).f g) : 0 ≤ power ng own flux vol r := by
  unfold power
  apply mul_nonneg h1
  apply Finset.sum_nonneg
  intro g hg
  exact mul_nonneg (h2 g (Finset.mem_range.1 hg)).1 (h2 g (Finset.mem_range.1 hg)).2

omit [LinearOrder K] in
theorem pos_iff (d : Dims) (x y z r : Nat) (hx : x < d.nx) (hy : y < d.ny) :
    ((z, y, x) = ((coarsePosition d r).z, (coarsePosition d r).y, (coarsePosition d r).x)) ↔ coarseCell d ⟨x, y, z⟩ = r := by
  constructor
  · intro h
    simp only [Prod.mk.injEq] at h
    obtain ⟨h1, h2, h3⟩ := h
    subst h1 h2 h3
    exact cell_pos d r
  · rintro rfl
    rw [pos_cell d x y z hx hy]

omit [LinearOrder K] in
/-- C101, Sn: the element of a cell is its power before the normalisation. -/
theorem C101_sn_raw {xsm : List (XsReg K)} (d : Dims) {own : Nat → XsReg K} (h : Owned xsm (d.nx * d.ny * d.nz) own) (ng : Nat)
    (flux : Nat → Nat → K) (vol : Nat → K) (x y z : Nat) (hx : x < d.nx) (hy : y < d.ny) (hz : z < d.nz) :
    snRaw d xsm ng flux vol (z, y, x) = power ng own flux vol (coarseCell d ⟨x, y, z⟩) := by
  unfold snRaw
  rw [fold_add _ (fun X p => (X.regs.map fun q => if p = ((coarsePosition d q).z, (coarsePosition d q).y, (coarsePosition d q).x) then
    vol q * ∑ g ∈ Finset.range ng, flux q g * X.f g else 0).sum)]
  · rw [zero_add, owned_sum h fun X q => if (z, y, x) = ((coarsePosition d q).z, (coarsePosition d q).y, (coarsePosition d q).x) then
      vol q * ∑ g ∈ Finset.range ng, flux q g * X.f g else 0]
    simp only [pos_iff d x y z _ hx hy]
    exact sum_pick _ _ (cell_lt d x y z hx hy hz) _
  · intro a X p
    rw [fold_add _ (fun q p => if p = ((coarsePosition d q).z, (coarsePosition d q).y, (coarsePosition d q).x) then
      vol q * ∑ g ∈ Finset.range ng, flux q g * X.f g else 0)]
    intro a q p
    rw [fold_add _ (fun g p => if p = ((coarsePosition d q).z, (coarsePosition d q).y, (coarsePosition d q).x) then vol q * flux q g * X.f g else 0)]
    · rw [Util.list_sum_range]
      congr 1
      split_ifs
      · rw [Finset.mul_sum]
        exact Finset.sum_congr rfl fun g _ => by ring
      · simp
    · intro a g p
      exact deposit_eq _ _ _ _

omit [LinearOrder K] in
/-- C101, Sn in two dimensions: the sum over the column of cells. -/
theorem C101_sn_raw2 {xsm : List (XsReg K)} (d : Dims) {own : Nat → XsReg K} (h : Owned xsm (d.nx * d.ny * d.nz) own) (ng : Nat)
    (flux : Nat → Nat → K) (vol : Nat → K) (x y : Nat) (hx : x < d.nx) (hy : y < d.ny) :
    snRaw2 d xsm ng flux vol (y, x) = ∑ z ∈ Finset.range d.nz, power ng own flux vol (coarseCell d ⟨x, y, z⟩) := by
  unfold snRaw2
  rw [fold_add _ (fun X p => (X.regs.map fun q => if p = ((coarsePosition d q).y, (coarsePosition d q).x) then
    vol q * ∑ g ∈ Finset.range ng, flux q g * X.f g else 0).sum)]
  · rw [zero_add, owned_sum h fun X q => if (y, x) = ((coarsePosition d q).y, (coarsePosition d q).x) then
      vol q * ∑ g ∈ Finset.range ng, flux q g * X.f g else 0, ← Finset.sum_filter]
    refine Finset.sum_nbij' (fun r => (coarsePosition d r).z) (fun z => coarseCell d ⟨x, y, z⟩) ?_ ?_ ?_ ?_ ?_
    · intro r hr
      rw [Finset.mem_filter, Finset.mem_range] at hr
      exact Finset.mem_range.2 (pos_lt d r hr.1).2.2
    · intro z hz
      rw [Finset.mem_filter, Finset.mem_range]
      refine ⟨cell_lt d x y z hx hy (Finset.mem_range.1 hz), ?_⟩
      rw [pos_cell d x y z hx hy]
    · intro r hr
      rw [Finset.mem_filter, Prod.mk.injEq] at hr
      rw [hr.2.1, hr.2.2]
      exact cell_pos d r
    · intro z hz
      rw [pos_cell d x y z hx hy]
    · intro r hr
      rw [Finset.mem_filter, Prod.mk.injEq] at hr
      rw [hr.2.1, hr.2.2, cell_pos d r]
      rfl
  · intro a X p
    rw [fold_add _ (fun q p => if p = ((coarsePosition d q).y, (coarsePosition d q).x) then
      vol q * ∑ g ∈ Finset.range ng, flux q g * X.f g else 0)]
    intro a q p
    rw [fold_add _ (fun g p => if p = ((coarsePosition d q).y, (coarsePosition d q).x) then vol q * flux q g * X.f g else 0)]
    · rw [Util.list_sum_range]
      congr 1
      split_ifs
      · rw [Finset.mul_sum]
        exact Finset.sum_congr rfl fun g _ => by ring
      · simp
    · intro a g p
      exact deposit_eq _ _ _ _

theorem flat_range {A : Type} (f : Nat → A) (a m : Nat) :
    ((List.range a).flatMap fun z : Nat => (List.range m).map fun i : Nat => f (z * m + i)) = (List.range (a * m)).map f := by
  induction a with
  | zero => simp
  | succ a ih => rw [List.range_succ, List.flatMap_append, ih, Nat.succ_mul, List.range_add, List.map_append, List.map_map]; simp

theorem flatMap_congr' {A B : Type} (l : List A) (f g : A → List B) (h : ∀ a ∈ l, f a = g a) : l.flatMap f = l.flatMap g := by
  induction l with
  | nil => rfl
  | cons a l ih => rw [List.flatMap_cons, List.flatMap_cons, h a (by simp), ih fun b hb => h b (by simp [hb])]

/-- C101, `SnSweeper::pin_powers`: the powers of the cells in their order, normalised as in C09. -/
theorem C101_sn {xsm : List (XsReg K)} (d : Dims) {own : Nat → XsReg K} (h : Owned xsm (d.nx * d.ny * d.nz) own) (ng : Nat)
    (flux : Nat → Nat → K) (vol : Nat → K) :
    snPowers d xsm ng flux vol = (Normalize.normalize ((List.range (d.nx * d.ny * d.nz)).map (power ng own flux vol))).map (·.1) := by
  unfold snPowers
  congr 2
  rw [flatMap_congr' (List.range d.nz) _ (fun z : Nat => (List.range (d.nx * d.ny)).map fun i : Nat => power ng own flux vol (z * (d.nx * d.ny) + i)),
    flat_range, Nat.mul_comm d.nz]
  intro z hz
  rw [flatMap_congr' (List.range d.ny) _ (fun y : Nat => (List.range d.nx).map fun x : Nat =>
    (fun i => power ng own flux vol (z * (d.nx * d.ny) + i)) (y * d.nx + x)),
    flat_range (fun i => power ng own flux vol (z * (d.nx * d.ny) + i)), Nat.mul_comm d.ny]
  intro y hy
  apply List.map_congr_left
  intro x hx
  rw [C101_sn_raw d h ng flux vol x y z (List.mem_range.1 hx) (List.mem_range.1 hy) (List.mem_range.1 hz)]
  congr 1
  unfold coarseCell
  dsimp only
  ring

/-- C101, `SnSweeper::pin_powers_2d`: the sums over the planes, normalised as in C09. -/
theorem C101_sn2 {xsm : List (XsReg K)} (d : Dims) {own : Nat → XsReg K} (h : Owned xsm (d.nx * d.ny * d.nz) own) (ng : Nat)
    (flux : Nat → Nat → K) (vol : Nat → K) :
    snPowers2 d xsm ng flux vol = (Normalize.normalize ((List.range (d.nx * d.ny)).map fun i : Nat =>
      ∑ z ∈ Finset.range d.nz, power ng own flux vol (z * (d.nx * d.ny) + i))).map (·.1) := by
  unfold snPowers2
  congr 2
  rw [flatMap_congr' (List.range d.ny) _ (fun y : Nat => (List.range d.nx).map fun x : Nat =>
    (fun i => ∑ z ∈ Finset.range d.nz, power ng own flux vol (z * (d.nx * d.ny) + i)) (y * d.nx + x)),
    flat_range (fun i => ∑ z ∈ Finset.range d.nz, power ng own flux vol (z * (d.nx * d.ny) + i)), Nat.mul_comm d.ny]
  intro y hy
  apply List.map_congr_left
  intro x hx
  rw [C101_sn_raw2 d h ng flux vol x y (List.mem_range.1 hx) (List.mem_range.1 hy)]
  apply Finset.sum_congr rfl
  intro z _
  congr 1
  unfold coarseCell
  dsimp only
  ring

/-- C101: hence for non-negative powers of which one is positive the powers of an Sn sweeper sum to the number of cells with power. -/
theorem C101_sn_total [IsStrictOrderedRing K] {xsm : List (XsReg K)} (d : Dims) {own : Nat → XsReg K} (h : Owned xsm (d.nx * d.ny * d.nz) own)
    (ng : Nat) (flux : Nat → Nat → K) (vol : Nat → K) (h0 : ∀ r, r < d.nx * d.ny * d.nz → 0 ≤ power ng own flux vol r)
    (r : Nat) (hr : r < d.nx * d.ny * d.nz) (h1 : 0 < power ng own flux vol r) :
    ∃ w f, snPowers d xsm ng flux vol = some w ∧ 0 < f ∧ w.length = d.nx * d.ny * d.nz ∧
      (∀ c, c < d.nx * d.ny * d.nz → w[c]? = some (power ng own flux vol c * f)) ∧
      w.sum = (((List.range (d.nx * d.ny * d.nz)).filter fun c => 0 < power ng own flux vol c).length : K) := by
  obtain ⟨f, hf, w, hn, hw, hsum⟩ := Normalize.C09_total ((List.range (d.nx * d.ny * d.nz)).map (power ng own flux vol))
    (by
      intro x hx
      obtain ⟨c, hc, rfl⟩ := List.mem_map.1 hx
      exact h0 c (List.mem_range.1 hc))
    ⟨_, List.mem_map.2 ⟨r, List.mem_range.2 hr, rfl⟩, h1⟩
  refine ⟨w, f, ?_, hf, ?_, ?_, ?_⟩
  · rw [C101_sn d h, hn]
    rfl
  · rw [hw]
    simp
  · intro c hc
    rw [hw]
    simp [hc]
  · rw [hsum, List.filter_map, List.length_map]
    rfl

/-- C101: the two ways of normalising agree for one macroplane in which as many pins have power as are marked as fuel in a plane. -/
theorem C101_same (fsr : Nat → K) (pos : Nat → Nat × Nat) (nxy : Nat) (pins : List Nat) (np nFuel : Nat) (hnp : 0 < np)
    (hpos : ∀ i j, i < nxy → j < nxy → pos i = pos j → i = j) (hl : nxy * np ≤ pins.length)
    (hfuel : (((List.range nxy).map fun i : Nat => blk fsr ((pins.take i).sum) (pins.getD i 0)).filter fun p => 0 < p).length = nFuel)
    (pw : Nat × Nat × Nat → K) (h : pinPowers fsr pos nxy pins [np] nFuel = some pw) :
    some ((List.range nxy).map fun i : Nat => pw (0, (pos i).2, (pos i).1)) =
      (Normalize.normalize ((List.range nxy).map fun i : Nat => blk fsr ((pins.take i).sum) (pins.getD i 0))).map (·.1) := by
  obtain ⟨g0, g1⟩ := C101_moc fsr pos nxy pins [np] nFuel hpos (by simpa using hl) (by simpa using hnp)
  by_cases ht : blk fsr 0 (regOf nxy pins 0 [np] [np].length) = 0
  · rw [g0 ht] at h
    cases h
  obtain ⟨pw', e, g2, -, g3⟩ := g1 ht
  rw [h] at e
  cases e
  have hp : pinsOf nxy pins 0 [np] 0 = pins.take nxy := by simp [pinsOf]
  have hnx : nxy ≤ pins.length := le_trans (Nat.le_mul_of_pos_right _ hnp) hl
  have hval : ∀ i, i < nxy → blk fsr (regOf nxy pins 0 [np] 0 + ((pinsOf nxy pins 0 [np] 0).take i).sum) ((pinsOf nxy pins 0 [np] 0).getD i 0) =
      blk fsr ((pins.take i).sum) (pins.getD i 0) := by
    intro i hi
    rw [hp, List.take_take, Nat.min_eq_left (by omega)]
    congr 1
    · simp [regOf]
    · simp [List.getD, hi]
  have htot : blk fsr 0 (regOf nxy pins 0 [np] [np].length) =
      ((List.range nxy).map fun i : Nat => blk fsr ((pins.take i).sum) (pins.getD i 0)).sum := by
    have e : regOf nxy pins 0 [np] [np].length = (pins.take nxy).sum := by
      unfold regOf
      simp [hp]
    have e2 := blk_split fsr 0 (pins.take nxy)
    rw [List.length_take, Nat.min_eq_left hnx] at e2
    rw [e, ← e2, Util.list_sum_range]
    apply Finset.sum_congr rfl
    intro i hi
    have hi := Finset.mem_range.1 hi
    rw [List.take_take, Nat.min_eq_left (by omega), Nat.zero_add]
    congr 1
    simp [List.getD, hi]
  unfold Normalize.normalize
  rw [← htot, if_neg ht]
  dsimp only [Option.map_some]
  congr 1
  rw [List.map_map]
  apply List.map_congr_left
  intro i hi
  have hi := List.mem_range.1 hi
  rw [g2 0 i (by simp) hi, hval i hi]
  simp only [Function.comp]
  congr 2
  unfold Normalize.countPos
  rw [List.countP_eq_length_filter, hfuel]

/-- Two planes of two pins, of which the first is marked as fuel; three regions, powers 1, 2 and 3, 4 in the first pin. -/
example : (pinPowers (K := ℚ) (fun r => if r = 0 then 1 else if r = 1 then 2 else if r = 3 then 3 else if r = 4 then 4 else 0) (fun i => (i, 0)) 2
    [2, 1, 2, 1] [1, 1] (nFuel2d [[true, false], [true, false]])).map (fun p => (p (0, 0, 0), p (0, 0, 1), p (1, 0, 0))) = some (3/10, 0, 7/10) := by
  decide +kernel

/-- Two cells, the second of which has another cross section. -/
def exXs : List (XsReg ℚ) := [⟨[0], fun _ => 1, fun _ => 2⟩, ⟨[1], fun _ => 3, fun _ => 5⟩]

example : Owned exXs 2 (fun r => if r = 0 then ⟨[0], fun _ => 1, fun _ => 2⟩ else ⟨[1], fun _ => 3, fun _ => 5⟩) :=
  ⟨by decide, by simp [exXs]⟩

example : snPowers ⟨2, 1, 1⟩ exXs 2 (fun r g => r + g) (fun _ => 1 / 2) = some [1 / 5, 9 / 5] := by decide +kernel

/-! ## C102 -/

omit [LinearOrder K] in
theorem fissionSource_eq {xsm : List (XsReg K)} {n : Nat} {own : Nat → XsReg K} (h : Owned xsm n own) (ng : Nat) (flux : Nat → Nat → K) (k : K)
    (r : Nat) (hr : r < n) : fissionSource xsm ng flux k r = 1 / k * ∑ g ∈ Finset.range ng, (own r).nf g * flux r g := by
  unfold fissionSource
  rw [fold_add _ (fun x r' => (x.regs.map fun q => if r' = q then 1 / k * ∑ g ∈ Finset.range ng, x.nf g * flux q g else 0).sum)]
  · rw [zero_add, owned_sum h fun x q => if r = q then 1 / k * ∑ g ∈ Finset.range ng, x.nf g * flux q g else 0]
    exact sum_pick n r hr _
  · intro a x r'
    rw [fold_add _ (fun g r' => (x.regs.map fun q => if r' = q then 1 / k * x.nf g * flux q g else 0).sum)]
    · congr 1
      rw [Util.list_sum_range]
      generalize x.regs = l
      induction l with
      | nil => simp
      | cons q l ih =>
        simp only [List.map_cons, List.sum_cons]
        rw [Finset.sum_add_distrib, ih]
        congr 1
        split_ifs
        · rw [Finset.mul_sum]
          exact Finset.sum_congr rfl fun g _ => by ring
        · simp
    · intro a g r''
      rw [fold_add _ (fun q r' => if r' = q then 1 / k * x.nf g * flux q g else 0)]
      intro a q x
      exact deposit_eq _ _ _ _

omit [LinearOrder K] in
/-- C102: the fission source of a region is the sum over the groups of nu-fission cross section times flux, divided by `k`. -/
theorem C102_source {xsm : List (XsReg K)} {n : Nat} {own : Nat → XsReg K} (h : Owned xsm n own) (ng : Nat) (flux : Nat → Nat → K) (k : K)
    (r : Nat) (hr : r < n) : fissionSource xsm ng flux k r = (∑ g ∈ Finset.range ng, (own r).nf g * flux r g) / k := by
  rw [fissionSource_eq h ng flux k r hr]
  ring

omit [LinearOrder K] in
/-- C102: the total fission is the fission rate integrated over the regions. -/
theorem C102_total {xsm : List (XsReg K)} {n : Nat} {own : Nat → XsReg K} (h : Owned xsm n own) (ng : Nat) (flux : Nat → Nat → K) (vol : Nat → K) :
    totalFission xsm ng flux vol = ∑ r ∈ Finset.range n, vol r * ∑ g ∈ Finset.range ng, (own r).nf g * flux r g := by
  unfold totalFission
  rw [fold_sum _ (fun x => (x.regs.map fun q => vol q * ∑ g ∈ Finset.range ng, x.nf g * flux q g).sum)]
  · rw [zero_add, owned_sum h fun x q => vol q * ∑ g ∈ Finset.range ng, x.nf g * flux q g]
  · intro a x
    rw [fold_sum _ (fun g => (x.regs.map fun q => flux q g * vol q * x.nf g).sum)]
    · congr 1
      rw [Util.list_sum_range]
      generalize x.regs = l
      induction l with
      | nil => simp
      | cons q l ih =>
        simp only [List.map_cons, List.sum_cons]
        rw [Finset.sum_add_distrib, ih, Finset.mul_sum]
        congr 1
        exact Finset.sum_congr rfl fun g _ => by ring
    · intro a g
      rw [fold_sum _ (fun q => flux q g * vol q * x.nf g)]
      intro a q
      rfl

omit [LinearOrder K] in
/-- C102: so the total fission is `k` times the integral of the fission source of that `k`. -/
theorem C102_consistent {xsm : List (XsReg K)} {n : Nat} {own : Nat → XsReg K} (h : Owned xsm n own) (ng : Nat) (flux : Nat → Nat → K)
    (vol : Nat → K) (k : K) (hk : k ≠ 0) :
    totalFission xsm ng flux vol = k * ∑ r ∈ Finset.range n, vol r * fissionSource xsm ng flux k r := by
  rw [C102_total h, Finset.mul_sum]
  apply Finset.sum_congr rfl
  intro r hr
  rw [C102_source h ng flux k r (Finset.mem_range.1 hr)]
  field_simp

omit [LinearOrder K] in
theorem residualSq_eq (as bs : List K) (r : K) : residualSq as bs r = r + ((as.zip bs).map fun p => (p.1 - p.2) * (p.1 - p.2)).sum := by
  induction as generalizing bs r with
  | nil => cases bs <;> simp [residualSq]
  | cons a as ih =>
    cases bs with
    | nil => simp [residualSq]
    | cons b bs =>
      rw [residualSq, ih]
      simp [add_assoc]

/-- C102: the square of the residual is the sum of the squares of the differences; it is not negative, does not change if the fluxes are exchanged, and
is zero if and only if they are equal. -/
theorem C102_residual [IsStrictOrderedRing K] (as bs : List K) (h : as.length = bs.length) :
    residualSq as bs 0 = ((as.zip bs).map fun p => (p.1 - p.2) ^ 2).sum ∧ 0 ≤ residualSq as bs 0 ∧ residualSq as bs 0 = residualSq bs as 0 ∧
    (residualSq as bs 0 = 0 ↔ as = bs) := by
  have e : ∀ as bs : List K, residualSq as bs 0 = ((as.zip bs).map fun p => (p.1 - p.2) ^ 2).sum := by
    intro as bs
    rw [residualSq_eq, zero_add]
    congr 1
    apply List.map_congr_left
    intro p _
    ring
  rw [e, e]
  have hn : ∀ l : List (K × K), 0 ≤ (l.map fun p => (p.1 - p.2) ^ 2).sum := by
    intro l
    induction l with
    | nil => simp
    | cons p l ih => rw [List.map_cons, List.sum_cons]; exact add_nonneg (sq_nonneg _) ih
  refine ⟨rfl, hn _, ?_, ?_⟩
  · clear e
    induction as generalizing bs with
    | nil => cases bs <;> simp
    | cons a as ih =>
      cases bs with
      | nil => simp
      | cons b bs =>
        simp only [List.zip_cons_cons, List.map_cons, List.sum_cons]
        rw [ih bs (by simpa using h)]
        ring
  · clear e
    induction as generalizing bs with
    | nil =>
      cases bs with
      | nil => simp
      | cons b bs => simp at h
    | cons a as ih =>
      cases bs with
      | nil => simp at h
      | cons b bs =>
        simp only [List.zip_cons_cons, List.map_cons, List.sum_cons]
        constructor
        · intro h0
          have h1 := sq_nonneg (a - b)
          have h2 := hn (as.zip bs)
          have h3 : (a - b) ^ 2 = 0 := by linarith
          have h4 : ((as.zip bs).map fun p => (p.1 - p.2) ^ 2).sum = 0 := by linarith
          rw [(ih bs (by simpa using h)).1 h4, sub_eq_zero.1 (pow_eq_zero_iff (two_ne_zero)|>.1 h3)]
        · intro h0
          cases h0
          rw [(ih as rfl).2 rfl]
          simp

example : totalFission exXs 2 (fun r g => r + g) (fun _ => 1 / 2) = 17 / 2 := by decide +kernel

example : residualSq [(1 : ℚ), 2, 3] [1, 0, 4] 0 = 5 := by decide +kernel

end Verif.Sweep.Power
