import Verif.Medium.DoubleSnProps

/-!
# C157, the other direction: a core that is its own mirror image, and its western half with reflection on the east side, Sn
-/

set_option linter.unusedSectionVars false

namespace Verif.Sn

open Verif.Mesh (Dims coarseCell)

/-- Rows of `n` values: the place of value `j` in the western half of rows of `2 * n`. -/
def west (n j : Nat) : Nat := 2 * n * (j / n) + j % n

theorem west_fold (n j : Nat) (hn : 0 < n) : foldIx n (west n j) = j ∧ right n (west n j) = false := by
  have h := Nat.mod_lt j hn
  obtain ⟨h1, h2⟩ := foldIx_row n (j / n) (j % n) (by omega)
  refine ⟨?_, ?_⟩
  · rw [west, h1, fold, if_pos h, Nat.div_add_mod]
  · rw [west, h2]
    simpa using h

theorem fold_west (n j : Nat) (hn : 0 < n) (h : right n j = false) : west n (foldIx n j) = j := by
  have h' : j % (2 * n) < n := by simpa [right] using h
  rw [foldIx, fold, if_pos h', west, Nat.mul_add_div hn, Nat.div_eq_of_lt h', Nat.add_zero, Nat.mul_add_mod, Nat.mod_eq_of_lt h', Nat.div_add_mod]

theorem west_lt (n c j : Nat) (hn : 0 < n) (h : j < n * c) : west n j < 2 * (n * c) := by
  have h1 : j / n < c := Nat.div_lt_of_lt_mul h
  have h2 := Nat.mod_lt j hn
  have h3 := Nat.mul_le_mul_left (2 * n) (Nat.succ_le_of_lt h1)
  rw [Nat.mul_succ] at h3
  rw [west, ← Nat.mul_assoc]
  omega

variable {K : Type} [Field K] [LinearOrder K] [IsStrictOrderedRing K]

/-- A walk through cells sees only the values on its faces. -/
theorem walk_local {κ : Type} (wgt : K) (n : κ → Nat) (w : Nat → κ → Nat) (c : Nat → Nat) (ev ev' : Nat → (κ → K) → K × (κ → K)) (l : List Nat)
    (hw : ∀ t ∈ l, ∀ k, w t k < n k) (hev : ∀ t ∈ l, ev t = ev' t) (s s' : State κ K) (h : ∀ k, ∀ j < n k, s.flux k j = s'.flux k j) :
    (∀ k, ∀ j < n k, (l.foldl (fun s t => cellStep wgt (w t) (c t) (ev t) s) s).flux k j = (l.foldl (fun s t => cellStep wgt (w t) (c t) (ev' t) s) s').flux k j) ∧
    ∀ i, (l.foldl (fun s t => cellStep wgt (w t) (c t) (ev t) s) s).tflux i - s.tflux i = (l.foldl (fun s t => cellStep wgt (w t) (c t) (ev' t) s) s').tflux i - s'.tflux i := by
  induction l generalizing s s' with
  | nil => exact ⟨h, fun i => by simp⟩
  | cons t l ih =>
    have hin : (fun k => s.flux k (w t k)) = fun k => s'.flux k (w t k) := funext fun k => h k _ (hw t (by simp) k)
    have he := hev t (by simp)
    obtain ⟨r1, r2⟩ := ih (fun x hx => hw x (by simp [hx])) (fun x hx => hev x (by simp [hx])) (cellStep wgt (w t) (c t) (ev t) s) (cellStep wgt (w t) (c t) (ev' t) s')
      (fun k j hj => by
        simp only [cellStep, hin, he]
        split_ifs
        · rfl
        · exact h k j hj)
    refine ⟨r1, fun i => ?_⟩
    have r3 := r2 i
    rw [List.foldl_cons, List.foldl_cons]
    have e : (cellStep wgt (w t) (c t) (ev t) s).tflux i - s.tflux i = (cellStep wgt (w t) (c t) (ev' t) s').tflux i - s'.tflux i := by
      simp only [cellStep, hin, he]
      split_ifs <;> ring
    linear_combination r3 + e

end Verif.Sn

namespace Verif.Medium

open Finset Verif.XS Verif.Source

section
variable {K : Type} [Field K] [LinearOrder K] [IsStrictOrderedRing K] {κ : Type} [Fintype κ] [DecidableEq κ]

/-- An ordinate uses nothing but the incoming values on its faces and the sources in its cells. -/
def OrdLocal (nReg : Nat) (n : κ → Nat) (o : SnOrd κ K) : Prop :=
  ∀ q q' xs : Nat → K, (∀ i < nReg, q' i = q i) → ∀ s s' : Sn.State κ K, (∀ k, ∀ j < n k, s.flux k j = s'.flux k j) →
    (∀ k, ∀ j < n k, (o.loops q' xs s).flux k j = (o.loops q xs s').flux k j) ∧ ∀ i, (o.loops q' xs s).tflux i - s.tflux i = (o.loops q xs s').tflux i - s'.tflux i

/-- C157: so do the ordinates of the sweepers, with any scheme. -/
theorem C157_local3 (d : Mesh.Dims) (dx dy dz : Nat → K) (a : Nat) (ox oy oz wgt : K) (sch : Nat → Scheme3 K) :
    OrdLocal (d.nx * d.ny * d.nz) (slots3 d) (ord3 d dx dy dz a ox oy oz wgt sch) := by
  intro q q' xs hq s s' h
  simp only [ord3, Sn.sweep3_eq]
  refine Sn.walk_local wgt (slots3 d) (fun t => Sn.slot3 d (Sn.place d.nx (decide (ox < 0)) (t % d.nx)) (Sn.place d.ny (decide (oy < 0)) (t / d.nx % d.ny))
    (Sn.place d.nz (decide (oz < 0)) (t / d.nx / d.ny))) _ _ _ _ (fun t ht k => ?_) (fun t ht => ?_) s s' h
  all_goals
    have ht := List.mem_range.mp ht
    have hpos : 0 < d.nx ∧ 0 < d.ny := by
      constructor
      · rcases Nat.eq_zero_or_pos d.nx with e | e
        · rw [e] at ht; simp at ht
        · exact e
      · rcases Nat.eq_zero_or_pos d.ny with e | e
        · rw [e] at ht; simp at ht
        · exact e
    have hx := Sn.place_lt (decide (ox < 0)) (Nat.mod_lt t hpos.1)
    have hy := Sn.place_lt (decide (oy < 0)) (Nat.mod_lt (t / d.nx) hpos.2)
    have hz := Sn.place_lt (decide (oz < 0)) (show t / d.nx / d.ny < d.nz from Nat.div_lt_of_lt_mul (Nat.div_lt_of_lt_mul (by rw [← Nat.mul_assoc]; exact ht)))
    generalize Sn.place d.nx _ _ = ix at *
    generalize Sn.place d.ny _ _ = iy at *
    generalize Sn.place d.nz _ _ = iz at *
  · cases k
    · exact slot_lt hy hz
    · exact slot_lt hx hz
    · exact slot_lt hx hy
  · funext f
    have hc : Mesh.coarseCell d ⟨ix, iy, iz⟩ < d.nx * d.ny * d.nz := by
      have h1 := slot_lt (slot_lt hx hy) hz
      have h2 : Mesh.coarseCell d ⟨ix, iy, iz⟩ = d.nx * d.ny * iz + (d.nx * iy + ix) := by
        unfold Mesh.coarseCell
        ring
      omega
    simp only [hq _ hc]

theorem C157_local2 (d : Mesh.Dims) (dx dy : Nat → K) (a : Nat) (ox oy wgt : K) (sch : Nat → Scheme2 K) :
    OrdLocal (d.nx * d.ny) (slots2 d) (ord2 d dx dy a ox oy wgt sch) := by
  intro q q' xs hq s s' h
  simp only [ord2, Sn.sweep2_eq]
  refine Sn.walk_local wgt (slots2 d) (fun t => Sn.slot2 (Sn.place d.nx (decide (ox < 0)) (t % d.nx)) (Sn.place d.ny (decide (oy < 0)) (t / d.nx))) _ _ _ _
    (fun t ht k => ?_) (fun t ht => ?_) s s' h
  all_goals
    have ht := List.mem_range.mp ht
    have hpos : 0 < d.nx := by
      rcases Nat.eq_zero_or_pos d.nx with e | e
      · rw [e] at ht; simp at ht
      · exact e
    have hx := Sn.place_lt (decide (ox < 0)) (Nat.mod_lt t hpos)
    have hy := Sn.place_lt (decide (oy < 0)) (show t / d.nx < d.ny from Nat.div_lt_of_lt_mul ht)
    generalize Sn.place d.nx _ _ = ix at *
    generalize Sn.place d.ny _ _ = iy at *
  · cases k
    · exact hy
    · exact hx
  · funext f
    have hc : Mesh.coarseCell d ⟨ix, iy, 0⟩ < d.nx * d.ny := by
      have h1 := slot_lt hx hy
      have h2 : Mesh.coarseCell d ⟨ix, iy, 0⟩ = d.nx * iy + ix := by
        unfold Mesh.coarseCell
        ring
      omega
    simp only [hq _ hc]

/-- Incoming values that are their own mirror image: what ordinate `a` has in a place, the mirrored ordinate has in the mirrored place. -/
def SnSymmetric (nx nAng : Nat) (ax : κ) (n : κ → Nat) (mir : Nat → κ → Nat) (neg : Nat → Bool) (B : Nat → κ → Nat → K) : Prop :=
  ∀ a < nAng, ∀ k, ∀ j < faceSlots ax n k, ∀ j' < faceSlots ax n k, faceFold ax nx k j' = faceFold ax nx k j →
    faceHalf ax nx (neg (mir a ax)) k j' = !faceHalf ax nx (neg a) k j → B (mir a ax) k j' = B a k j

/-- C157: symmetrical incoming values that do not change in a sweep of both halves; those of the half then do not change either, and the flux is the same. -/
theorem C157_half_sweep {nx nReg nAng : Nat} {ax : κ} {n : κ → Nat} {m M : SnSetup κ K} {ordOf ordW : Nat → SnOrd κ K} {mir : Nat → κ → Nat} {vac vacW : Nat → κ → Bool} {neg : Nat → Bool}
    (h : SnDoubled nx nReg nAng ax n m M ordOf ordW mir vac vacW neg) (hloc : ∀ a < nAng, OrdLocal nReg n (ordOf a)) (hnx : 0 < nx) (hdiv : ∀ k, k ≠ ax → nx ∣ n k)
    (rows : Nat) (hrows : nReg = nx * rows) (q xs q2 xs2 : Nat → K) (hq : ∀ i < 2 * nReg, q2 i = q (Sn.foldIx nx i)) (hx : ∀ i < 2 * nReg, xs2 i = xs (Sn.foldIx nx i))
    (B O : Nat → κ → Nat → K) (hS : SnSame nAng (faceSlots ax n) B (snSweep1g M q2 xs2 B O).bin) (hsym : SnSymmetric nx nAng ax n mir neg B) :
    ∃ b, SnSame nAng (faceSlots ax n) (doubledBin ax nx mir neg b) B ∧ ∀ q', (∀ i < nReg, q' i = q i) → ∀ o, SnSame nAng n b (snSweep1g m q' xs b o).bin ∧
      ∀ i < 2 * nReg, (snSweep1g M q2 xs2 B O).tflux i = (snSweep1g m q' xs b o).tflux (Sn.foldIx nx i) := by
  obtain ⟨st', a1, a2, -⟩ := sn_steady h.both q2 xs2 B O hS
  have aj := sn_steady_joined h.both q2 xs2 B O hS
  set bout := (snSweep1g M q2 xs2 B O).bout with hbout
  set wb : Nat → κ → Nat → K := fun a k j => if k = ax then B a k j else B a k (Sn.west nx j) with hwb
  set mk : (κ → Nat → K) → Sn.State κ K := fun f => ⟨f, fun _ => 0, fun _ => (0, fun _ => 0)⟩ with hmk
  set b : Nat → κ → Nat → K := fun a k j => if k = ax ∧ neg a = true then ((ordOf (mir a ax)).loops q xs (mk (wb (mir a ax)))).flux ax j else wb a k j with hb
  have hpos : ∀ a, neg a = false → b a = wb a := by
    intro a ha
    funext k j
    simp [hb, ha]
  have hsel : ∀ a < nAng, ∀ r : Bool, (if r then mir a ax else a) < nAng := by
    intro a ha r
    cases r
    · exact ha
    · exact h.half.lt a ha ax
  have hslot : ∀ k, ∀ j < faceSlots ax n k, faceFold ax nx k j < n k := by
    intro k j hj
    unfold faceSlots at hj
    unfold faceFold
    split_ifs at hj ⊢ with e
    · exact hj
    · exact h.slot k e j hj
  have hw : ∀ k, k ≠ ax → ∀ j < n k, Sn.west nx j < faceSlots ax n k := by
    intro k e j hj
    obtain ⟨c, hc⟩ := hdiv k e
    rw [faceSlots, if_neg e, hc]
    exact Sn.west_lt nx c j hnx (hc ▸ hj)
  have hB : SnSame nAng (faceSlots ax n) (doubledBin ax nx mir neg b) B := by
    intro a ha k j hj
    unfold doubledBin
    by_cases e : k = ax
    · subst e
      simp only [faceHalf, faceFold, if_true]
      have hj' : j < faceSlots k n k := hj
      cases en : neg a
      · simp [hb, hwb, en]
      · have hm := h.negMir a ha
        rw [en] at hm
        have := hsym a ha k j hj j hj rfl (by simp [faceHalf, h.negMir a ha])
        simp [hb, hwb, hm, this]
    · simp only [faceHalf, faceFold, if_neg e]
      cases er : Sn.right nx j
      · simp [hb, hwb, e, Sn.fold_west nx j hnx er]
      · have hj2 : Sn.foldIx nx j < n k := by simpa [faceFold, e] using hslot k j hj
        have := hsym a ha k j hj (Sn.west nx (Sn.foldIx nx j)) (hw k e _ hj2) (by simp [faceFold, e, (Sn.west_fold nx (Sn.foldIx nx j) hnx).1])
          (by simp [faceHalf, e, er, (Sn.west_fold nx (Sn.foldIx nx j) hnx).2])
        simp [hb, hwb, e, this]
  set out : Nat → κ → Nat → K := fun a => ((ordOf a).loops q xs (mk (b a))).flux with hout
  have hjoin : ∀ a < nAng, ∀ j, b (if !neg a then mir a ax else a) ax j = out (if neg a then mir a ax else a) ax j := by
    intro a ha j
    cases en : neg a
    · have hm := h.negMir a ha
      rw [en] at hm
      simp only [Bool.not_false, if_true, Bool.false_eq_true, if_false]
      rw [hout]
      dsimp only
      rw [hpos a en]
      simp only [hb, hm, Bool.not_false, and_self, if_true, h.half.twice a ha ax]
    · have hm := h.negMir a ha
      rw [en] at hm
      simp only [Bool.not_true, Bool.false_eq_true, if_false, if_true]
      rw [hout]
      dsimp only
      rw [hpos _ hm]
      simp only [hb, en, and_self, if_true]
  have d : ∀ a < nAng, ∀ k, ∀ j < faceSlots ax n k, bout a k j = out (if faceHalf ax nx (!neg a) k j then mir a ax else a) k (faceFold ax nx k j) := by
    intro a ha k j hj
    obtain ⟨d1, -⟩ := h.ord a ha q xs q2 xs2 hq hx (fun r => mk (b (if r then mir a ax else a))) (st' a)
      (fun k j hj => by rw [a1 a ha k j hj, ← hB a ha k j hj]; rfl) (fun j _ => hjoin a ha j)
    rw [← a2 a ha, d1 k j hj]
  refine ⟨b, hB, fun q' hq' o => ?_⟩
  have hst : SnSame nAng n b (snSweep1g m q' xs b o).bin := by
    refine (sn_steady_of h.half q' xs b o out (fun a i => ((ordOf a).loops q xs (mk (b a))).tflux i - (mk (b a)).tflux i) nReg (fun a ha s hs => ?_) (fun a ha k j hj => ?_)).1
    · obtain ⟨l1, l2⟩ := hloc a ha q q' xs hq' s (mk (b a)) hs
      exact ⟨l1, fun i _ => l2 i⟩
    · by_cases e : k = ax
      · subst e
        have hj' : j < faceSlots k n k := by simpa [faceSlots] using hj
        cases en : neg a
        · rw [hpos a en]
          have e1 := aj a ha k j hj'
          rw [h.vacX a ha, en] at e1
          have hm := h.negMir a ha
          rw [en] at hm
          rw [d _ (h.half.lt a ha k) k j hj', hm] at e1
          simpa [hwb, faceHalf, faceFold] using e1
        · have := hjoin a ha j
          rw [en] at this
          simp only [Bool.not_true, Bool.false_eq_true, if_false, if_true] at this
          rw [this, h.reflect a ha en]
          simp
      · have hww := hw k e j hj
        have e1 := aj a ha k _ hww
        rw [(h.vacK a ha k e).1, d _ (h.half.lt a ha k) k _ hww] at e1
        simp only [faceHalf, faceFold, if_neg e, Sn.west_fold nx j hnx, Bool.false_eq_true, if_false] at e1
        simpa [hb, hwb, e] using e1
  refine ⟨hst, (C157_sweep h q' xs q2 xs2 (fun i hi => ?_) hx b o B O hst hB).2⟩
  rw [hq i hi, hq']
  rw [hrows] at hi ⊢
  exact Sn.foldIx_lt nx rows i hi

/-- C157: all groups. A state of both halves that has converged and is its own mirror image; the half has a state that has converged, with the same flux. -/
theorem C157_half_groups (p : Problem K) (part : Partition p.rs) (cover : ∀ i, i < p.nReg ↔ ∃ x ∈ p.rs, i ∈ x.regs) (hsc : ∀ x ∈ p.rs, Source.NonNeg p.ng x.mat)
    {nx nAng : Nat} {ax : κ} {n : κ → Nat} {m M : SnSetup κ K} {ordOf ordW : Nat → SnOrd κ K} {mir : Nat → κ → Nat} {vac vacW : Nat → κ → Bool} {neg : Nat → Bool}
    (h : SnDoubled nx p.nReg nAng ax n m M ordOf ordW mir vac vacW neg) (hloc : ∀ a < nAng, OrdLocal p.nReg n (ordOf a)) (hnx : 0 < nx) (hdiv : ∀ k, k ≠ ax → nx ∣ n k)
    (rows : Nat) (hrows : p.nReg = nx * rows) (hfpi : m.fpi ≠ 0) (hfpi' : M.fpi = m.fpi) (hin : m.nInner = 1)
    (hin' : M.nInner = 1) (base base' : Nat → Nat → K) (hbase : ∀ g < p.ng, ∀ i < 2 * p.nReg, base' g i = base g (Sn.foldIx nx i)) (S : SnState κ K)
    (hc : SnConverged (doubleProblem nx p) nAng (faceSlots ax n) S (srcLoop (doubleProblem nx p) (snSweeper (doubleProblem nx p) M) base' p.ng 0 S))
    (φ : Nat → Nat → K) (hflux : ∀ i < 2 * p.nReg, ∀ g < p.ng, S.flux i g = φ (Sn.foldIx nx i) g) (hsym : ∀ g < p.ng, SnSymmetric nx nAng ax n mir neg (S.bin g)) :
    ∃ bin : Nat → Nat → κ → Nat → K, (∀ g < p.ng, SnSame nAng (faceSlots ax n) (doubledBin ax nx mir neg (bin g)) (S.bin g)) ∧
      ∀ s : SnState κ K, s.flux = φ → s.bin = bin → SnConverged p nAng n s (srcLoop p (snSweeper p m) base p.ng 0 s) := by
  have hfl : ∀ i < p.nReg, Sn.foldIx nx (Sn.west nx i) = i ∧ Sn.west nx i < 2 * p.nReg := by
    intro i hi
    refine ⟨(Sn.west_fold nx i hnx).1, ?_⟩
    rw [hrows] at hi ⊢
    exact Sn.west_lt nx rows i hnx hi
  have hreg : ∀ i < 2 * p.nReg, ∃ x ∈ p.rs, Sn.foldIx nx i ∈ x.regs ∧ ∃ X ∈ (doubleProblem nx p).rs, X.mat = x.mat ∧ i ∈ X.regs := by
    intro i hi
    obtain ⟨x, hx, hxi, hxi'⟩ := double_region nx rows p hrows cover i hi
    exact ⟨x, hx, hxi, ⟨x.mat, (List.range (2 * p.nReg)).filter fun i => decide (Sn.foldIx nx i ∈ x.regs)⟩, List.mem_map.mpr ⟨x, hx, rfl⟩, rfl, hxi'⟩
  have htr : ∀ g, ∀ i < 2 * p.nReg, trOf (doubleProblem nx p).rs g i = trOf p.rs g (Sn.foldIx nx i) := by
    intro g i hi
    obtain ⟨x, hx, hxi, X, hX, hXm, hXi⟩ := hreg i hi
    rw [trOf_at _ (double_part nx p part) g _ hX i hXi, trOf_at p.rs part g x hx _ hxi, hXm]
  have hgrp : ∀ g, ∃ b : Nat → κ → Nat → K, g < p.ng → SnSame nAng (faceSlots ax n) (doubledBin ax nx mir neg b) (S.bin g) ∧
      ∀ q' : Nat → K, (∀ x ∈ p.rs, ∀ i ∈ x.regs, m.fpi * q' i = base g i + ∑ h ∈ range p.ng, x.mat.sc g h * φ i h) → ∀ o, SnSame nAng n b (snSweep1g m q' (trOf p.rs g) b o).bin ∧
        ∀ i < p.nReg, (snSweep1g m q' (trOf p.rs g) b o).tflux i = φ i g := by
    intro g
    by_cases hg : g < p.ng
    · obtain ⟨q2, bo, f1, f2, f3⟩ := sn_converged_group (doubleProblem nx p) (double_part nx p part) (double_cover nx rows p hrows cover) (double_nonneg nx p hsc) M nAng (faceSlots ax n)
        (hfpi' ▸ hfpi) hin' base' S hc g hg
      have hq2 : ∀ i < 2 * p.nReg, ∀ x ∈ p.rs, Sn.foldIx nx i ∈ x.regs → m.fpi * q2 i = base g (Sn.foldIx nx i) + ∑ h ∈ range p.ng, x.mat.sc g h * φ (Sn.foldIx nx i) h := by
        intro i hi x hx hxi
        have hX : (⟨x.mat, (List.range (2 * p.nReg)).filter fun i => decide (Sn.foldIx nx i ∈ x.regs)⟩ : XsRegion (Mat K)) ∈ (doubleProblem nx p).rs := List.mem_map.mpr ⟨x, hx, rfl⟩
        rw [← hfpi', f3 _ hX i (List.mem_filter.mpr ⟨List.mem_range.mpr hi, by simpa using hxi⟩), hbase g hg i hi]
        congr 1
        exact sum_congr rfl fun h hh => by rw [hflux i hi h (mem_range.mp hh)]
      have hqq : ∀ i < 2 * p.nReg, q2 i = q2 (Sn.west nx (Sn.foldIx nx i)) := by
        intro i hi
        obtain ⟨x, hx, hxi, -⟩ := hreg i hi
        have hf : Sn.foldIx nx i < p.nReg := (cover _).mpr ⟨x, hx, hxi⟩
        apply mul_left_cancel₀ hfpi
        rw [hq2 i hi x hx hxi, hq2 _ (hfl _ hf).2 x hx (by rw [(hfl _ hf).1]; exact hxi), (hfl _ hf).1]
      obtain ⟨b, b1, b2⟩ := C157_half_sweep h hloc hnx hdiv rows hrows (fun i => q2 (Sn.west nx i)) (trOf p.rs g) q2 (trOf (doubleProblem nx p).rs g) hqq (htr g) (S.bin g) bo f1 (hsym g hg)
      refine ⟨b, fun _ => ⟨b1, fun q' hq' o => ?_⟩⟩
      obtain ⟨c1, c2⟩ := b2 q' (fun i hi => by
        obtain ⟨x, hx, hxi⟩ := (cover i).mp hi
        apply mul_left_cancel₀ hfpi
        rw [hq' x hx i hxi, hq2 _ (hfl i hi).2 x hx (by rw [(hfl i hi).1]; exact hxi), (hfl i hi).1]) o
      refine ⟨c1, fun i hi => ?_⟩
      have := c2 _ (hfl i hi).2
      rw [(hfl i hi).1, f2 _ (hfl i hi).2, hflux _ (hfl i hi).2 g hg, (hfl i hi).1] at this
      exact this.symm
    · exact ⟨fun _ _ _ => 0, fun hh => absurd hh hg⟩
  choose bin hbin using hgrp
  refine ⟨bin, fun g hg => (hbin g hg).1, fun s hs1 hs2 => ?_⟩
  have hpos : ∀ i < p.nReg, ∀ g < p.ng, 0 < φ i g := by
    intro i hi g hg
    have := hc.pos _ (hfl i hi).2 g hg
    rwa [hflux _ (hfl i hi).2 g hg, (hfl i hi).1] at this
  have key : ∀ c g (T : SnState κ K), g + c ≤ p.ng → (∀ i < p.nReg, ∀ g < p.ng, T.flux i g = φ i g) → (∀ h < p.ng, SnSame nAng n (bin h) (T.bin h)) →
      (∀ h, g ≤ h → T.bin h = bin h) →
      (∀ i < p.nReg, ∀ h < p.ng, (srcLoop p (snSweeper p m) base c g T).flux i h = φ i h) ∧ ∀ h < p.ng, SnSame nAng n (bin h) ((srcLoop p (snSweeper p m) base c g T).bin h) := by
    intro c
    induction c with
    | zero => exact fun g T _ h1 h2 _ => ⟨h1, h2⟩
    | succ c ih =>
      intro g T hg h1 h2 h3
      have hg' : g < p.ng := by omega
      set src := inScatter p.ng p.rs T.flux g (base g) with hsrc
      set q := selfScatter m.fpi p.ng p.rs T.flux g src false T.q with hq
      obtain ⟨r1, r2⟩ := (hbin g hg').2 q (fun x hx i hi => by
        have hir : i < p.nReg := (cover i).mpr ⟨x, hx, hi⟩
        rw [hq, selfScatter_at m.fpi p.ng _ part T.flux g hg' src false T.q _ hx i hi, if_neg (by decide), hsrc, inScatter_at p.ng _ part T.flux g hg' (base g) _ hx i hi (hsc x hx)]
        have e : ∀ h ∈ range p.ng, (if h ≠ g then x.mat.sc g h * T.flux i h else 0) = x.mat.sc g h * φ i h - if h = g then x.mat.sc g g * φ i g else 0 := by
          intro h hh
          rw [h1 i hir h (mem_range.mp hh)]
          by_cases e : h = g
          · subst e; simp
          · simp [e]
        rw [sum_congr rfl e, sum_sub_distrib, sum_ite_eq' (range p.ng) g, if_pos (mem_range.mpr hg'), h1 i hir g hg']
        field_simp
        ring) T.bout
      have hsw : (snSweeper p m).sweep g src T =
          { snInner p m g src T with flux := fun i h => if h = g ∧ (snInner p m g src T).flux i h < 0 then 0 else (snInner p m g src T).flux i h } := by
        show snSweep p m g src T = _
        simp [snSweep, hin]
      have hval : ∀ i < p.nReg, (snInner p m g src T).flux i g = φ i g := by
        intro i hi
        show (if g = g then (snSweep1g m q (trOf p.rs g) (T.bin g) T.bout).tflux i else T.flux i g) = _
        rw [if_pos rfl, h3 g le_rfl, r2 i hi]
      rw [srcLoop]
      refine ih (g + 1) _ (by omega) (fun i hi h' hh => ?_) (fun h' hh a ha k j hj => ?_) fun h' hh => ?_
      · show ((snSweeper p m).sweep g src T).flux i h' = _
        rw [hsw]
        by_cases e : h' = g
        · subst e
          simp only [hval i hi]
          exact if_neg fun hn => absurd hn.2 (not_lt.mpr (hpos i hi h' hh).le)
        · simp only [if_neg (fun hn : h' = g ∧ (snInner p m g src T).flux i h' < 0 => e hn.1)]
          show (if h' = g then _ else T.flux i h') = _
          rw [if_neg e]
          exact h1 i hi h' hh
      · show bin h' a k j = ((snSweeper p m).sweep g src T).bin h' a k j
        rw [hsw]
        show _ = (if h' = g then (snSweep1g m q (trOf p.rs g) (T.bin g) T.bout).bin else T.bin h') a k j
        by_cases e : h' = g
        · subst e
          rw [if_pos rfl, h3 h' le_rfl]
          exact r1 a ha k j hj
        · rw [if_neg e]
          exact h2 h' hh a ha k j hj
      · show ((snSweeper p m).sweep g src T).bin h' = bin h'
        rw [hsw]
        show (if h' = g then (snSweep1g m q (trOf p.rs g) (T.bin g) T.bout).bin else T.bin h') = _
        rw [if_neg (by omega)]
        exact h3 h' (by omega)
  obtain ⟨k1, k2⟩ := key p.ng 0 s (by omega) (fun i _ g _ => by rw [hs1]) (fun h _ a _ k j _ => by rw [hs2]) fun h _ => by rw [hs2]
  refine ⟨fun i hi g hg => ?_, fun i hi g hg => ?_, fun g hg => ?_⟩
  · rw [hs1]; exact hpos i hi g hg
  · rw [hs1]; exact k1 i hi g hg
  · rw [hs2]; exact k2 g hg

/-- C157: an eigenvalue calculation of both halves that has converged to a flux that is its own mirror image, and that of the half: converged with the same flux and the same eigenvalue. -/
theorem C157_half_k (p : Problem K) (part : Partition p.rs) (cover : ∀ i, i < p.nReg ↔ ∃ x ∈ p.rs, i ∈ x.regs) (hsc : ∀ x ∈ p.rs, Source.NonNeg p.ng x.mat)
    {nx nAng : Nat} {ax : κ} {n : κ → Nat} {m M : SnSetup κ K} {ordOf ordW : Nat → SnOrd κ K} {mir : Nat → κ → Nat} {vac vacW : Nat → κ → Bool} {neg : Nat → Bool}
    (h : SnDoubled nx p.nReg nAng ax n m M ordOf ordW mir vac vacW neg) (hloc : ∀ a < nAng, OrdLocal p.nReg n (ordOf a)) (hnx : 0 < nx) (hdiv : ∀ k, k ≠ ax → nx ∣ n k)
    (rows : Nat) (hrows : p.nReg = nx * rows) (hfpi : m.fpi ≠ 0) (hfpi' : M.fpi = m.fpi) (hin : m.nInner = 1) (hin' : M.nInner = 1) (k k' : K) (S S' : SnState κ K)
    (ho : outer (doubleProblem nx p) (snSweeper (doubleProblem nx p) M) k S = some (k', S')) (hc : SnConverged (doubleProblem nx p) nAng (faceSlots ax n) S S')
    (φ : Nat → Nat → K) (hflux : ∀ i < 2 * p.nReg, ∀ g < p.ng, S.flux i g = φ (Sn.foldIx nx i) g) (hsym : ∀ g < p.ng, SnSymmetric nx nAng ax n mir neg (S.bin g)) :
    ∃ s s', s.flux = φ ∧ (∀ g < p.ng, SnSame nAng (faceSlots ax n) (doubledBin ax nx mir neg (s.bin g)) (S.bin g)) ∧
      outer p (snSweeper p m) k s = some (k', s') ∧ SnConverged p nAng n s s' := by
  rw [outer, groupLoop_eq, Option.map_some, Option.some.injEq, Prod.mk.injEq] at ho
  obtain ⟨hk, rfl⟩ := ho
  obtain ⟨bin, hb1, hb2⟩ := C157_half_groups p part cover hsc h hloc hnx hdiv rows hrows hfpi hfpi' hin hin'
    (fun g => fission p.rs (calcFissionSource p.ng p.rs k φ) g fun _ => 0) _ (fun g _ i hi => by
      obtain ⟨x, hx, hxi, hxi'⟩ := double_region nx rows p hrows cover i hi
      have hX : (⟨x.mat, (List.range (2 * p.nReg)).filter fun i => decide (Sn.foldIx nx i ∈ x.regs)⟩ : XsRegion (Mat K)) ∈ (doubleProblem nx p).rs := List.mem_map.mpr ⟨x, hx, rfl⟩
      rw [fission_at _ (double_part nx p part) _ g _ _ hX i hxi', fission_at _ part _ g _ x hx _ hxi, C47_fission_source _ _ (double_part nx p part) k _ _ hX i hxi',
        C47_fission_source _ _ part k _ x hx _ hxi]
      congr 3
      exact sum_congr rfl fun g hg => congrArg (x.mat.nf g * ·) (hflux i hi g (mem_range.mp hg))) S hc φ hflux hsym
  set s : SnState κ K := ⟨φ, fun _ => 0, bin, fun _ _ _ => 0⟩ with hs
  have hC := hb2 s rfl rfl
  refine ⟨s, _, rfl, hb1, ?_, hC⟩
  have hlt : ∀ i < 2 * p.nReg, Sn.foldIx nx i < p.nReg := by
    intro i hi
    rw [hrows] at hi ⊢
    exact Sn.foldIx_lt nx rows i hi
  rw [outer, groupLoop_eq, Option.map_some, Option.some.injEq, Prod.mk.injEq]
  refine ⟨?_, rfl⟩
  rw [← hk]
  symm
  show k * totalFission _ _ _ (srcLoop (doubleProblem nx p) _ _ (doubleProblem nx p).ng 0 S).flux / totalFission _ _ _ S.flux = _
  rw [double_production nx rows p hrows part cover φ S.flux hflux,
    double_production nx rows p hrows part cover (srcLoop p (snSweeper p m) (fun g => fission p.rs (calcFissionSource p.ng p.rs k φ) g fun _ => 0) p.ng 0 s).flux _
      fun i hi g hg => (hc.flux i hi g hg).trans ((hflux i hi g hg).trans (hC.flux _ (hlt i hi) g hg).symm), mul_left_comm, mul_div_mul_left _ _ (two_ne_zero)]
  rfl

/-- C157: the same for a calculation with an external source. -/
theorem C157_half_fixed (p : Problem K) (part : Partition p.rs) (cover : ∀ i, i < p.nReg ↔ ∃ x ∈ p.rs, i ∈ x.regs) (hsc : ∀ x ∈ p.rs, Source.NonNeg p.ng x.mat)
    {nx nAng : Nat} {ax : κ} {n : κ → Nat} {m M : SnSetup κ K} {ordOf ordW : Nat → SnOrd κ K} {mir : Nat → κ → Nat} {vac vacW : Nat → κ → Bool} {neg : Nat → Bool}
    (h : SnDoubled nx p.nReg nAng ax n m M ordOf ordW mir vac vacW neg) (hloc : ∀ a < nAng, OrdLocal p.nReg n (ordOf a)) (hnx : 0 < nx) (hdiv : ∀ k, k ≠ ax → nx ∣ n k)
    (rows : Nat) (hrows : p.nReg = nx * rows) (hfpi : m.fpi ≠ 0) (hfpi' : M.fpi = m.fpi) (hin : m.nInner = 1) (hin' : M.nInner = 1)
    (ext ext' : Option (Ext K)) (E E' : Nat → Nat → K) (hE : ∀ g < p.ng, initializeGroup p.nReg ext g = some (E g))
    (hE' : ∀ g < p.ng, initializeGroup (2 * p.nReg) ext' g = some (E' g)) (hEE : ∀ g < p.ng, ∀ i < 2 * p.nReg, E' g i = E g (Sn.foldIx nx i)) (S S' : SnState κ K)
    (ho : fixedSteps (doubleProblem nx p) (snSweeper (doubleProblem nx p) M) ext' 1 S = some S') (hc : SnConverged (doubleProblem nx p) nAng (faceSlots ax n) S S')
    (φ : Nat → Nat → K) (hflux : ∀ i < 2 * p.nReg, ∀ g < p.ng, S.flux i g = φ (Sn.foldIx nx i) g) (hsym : ∀ g < p.ng, SnSymmetric nx nAng ax n mir neg (S.bin g)) :
    ∃ s s', s.flux = φ ∧ (∀ g < p.ng, SnSame nAng (faceSlots ax n) (doubledBin ax nx mir neg (s.bin g)) (S.bin g)) ∧
      fixedSteps p (snSweeper p m) ext 1 s = some s' ∧ SnConverged p nAng n s s' := by
  rw [fixedSteps, extLoop_eq (doubleProblem nx p) _ ext' E' (doubleProblem nx p).ng 0 fun g _ hg => hE' g (by have : (doubleProblem nx p).ng = p.ng := rfl; omega), Option.bind_some, fixedSteps,
    Option.some.injEq] at ho
  subst ho
  obtain ⟨bin, hb1, hb2⟩ := C157_half_groups p part cover hsc h hloc hnx hdiv rows hrows hfpi hfpi' hin hin' E E' hEE S hc φ hflux hsym
  refine ⟨⟨φ, fun _ => 0, bin, fun _ _ _ => 0⟩, _, rfl, hb1, ?_, hb2 _ rfl rfl⟩
  rw [fixedSteps, extLoop_eq p _ ext E p.ng 0 fun g _ hg => hE g (by omega), Option.bind_some, fixedSteps]

end

end Verif.Medium

namespace Verif.Medium

open Finset Verif.XS Verif.Source Verif.Quad Verif.Quad.Spec Verif.BC

/-- Doubled values are their own mirror image. -/
theorem doubled_symmetric {K κ : Type} [Field K] [LinearOrder K] [IsStrictOrderedRing K] [DecidableEq κ] {nx nAng : Nat} {ax : κ} {n : κ → Nat} {mir : Nat → κ → Nat} {neg : Nat → Bool}
    (htwice : ∀ a < nAng, mir (mir a ax) ax = a) (b : Nat → κ → Nat → K) : SnSymmetric nx nAng ax n mir neg (doubledBin ax nx mir neg b) := by
  intro a ha k j _ j' _ h1 h2
  unfold doubledBin
  rw [h1, h2]
  cases faceHalf ax nx (neg a) k j
  · simp [htwice a ha]
  · simp

theorem row_symmetric (gs gs' : Bool) (g : Nat) :
    SnSymmetric 2 4 .x (slots2 ⟨2, 1, 1⟩) (fun a k => refl 1 a (norm2 k)) (fun a => decide ((pairAngle a).ox < 0)) (rowFlux.bin g) :=
  doubled_symmetric (mir := fun a k => refl 1 a (norm2 k)) (fun a ha => (row_double gs gs').half.twice a ha .x) (pairFlux.bin g)

/-- The hypotheses of `C157_half_k` hold for the row of four cells of `C157_k`: its half has the same eigenvalue. -/
example (gs gs' : Bool) : ∃ s s', s.flux = pairFlux.flux ∧ outer pairProblem (snSweeper pairProblem (pairSn gs)) (113 / 1218) s = some (113 / 1218, s') ∧
    SnConverged pairProblem 4 (slots2 ⟨2, 1, 1⟩) s s' := by
  have part : Partition pairProblem.rs := ⟨by decide, by simp [pairProblem]⟩
  have cover : ∀ i, i < pairProblem.nReg ↔ ∃ x ∈ pairProblem.rs, i ∈ x.regs := fun i => by simp [pairProblem]; omega
  have hsc : ∀ x ∈ pairProblem.rs, Source.NonNeg pairProblem.ng x.mat := by
    intro x hx a b _ _
    simp only [pairProblem, List.mem_cons, List.not_mem_nil, or_false] at hx
    rcases hx with rfl | rfl
    · simp only [slowMat]
      split_ifs <;> norm_num
    · dsimp only
      split_ifs <;> norm_num
  obtain ⟨s', h1, h2⟩ := pair_converged pairProblem ⟨rfl, rfl⟩ gs (113 / 1218) pairFlux (by cases gs <;> decide +kernel)
  obtain ⟨S', H1, H2⟩ := C157_k pairProblem part cover hsc (row_double gs gs') 1 rfl (by norm_num [pairSn]) rfl rfl rfl _ _ pairFlux s' rowFlux h1 h2 (fun _ _ _ _ => rfl) fun _ _ _ _ _ _ _ => rfl
  obtain ⟨s, s', r1, -, r2, r3⟩ := C157_half_k pairProblem part cover hsc (row_double gs gs') (fun a _ => C157_local2 ⟨2, 1, 1⟩ _ _ _ _ _ _ _) (by decide)
    (fun k hk => by cases k <;> first | exact absurd rfl hk | exact ⟨1, rfl⟩) 1 rfl (by norm_num [pairSn]) rfl rfl rfl _ _ rowFlux S' H1 H2 pairFlux.flux (fun _ _ _ _ => rfl)
    fun g _ => row_symmetric gs gs' g
  exact ⟨s, s', r1, r2, r3⟩

/-- The hypotheses of `C157_half_fixed` hold: an external source of fast neutrons in the outer cells. -/
example (gs gs' : Bool) : ∃ s s', s.flux = pairFlux.flux ∧
    fixedSteps pairProblem (snSweeper pairProblem (pairSn gs)) (some ⟨2, 2, fun i g => if g = 0 ∧ i = 0 then 2436 else 0⟩) 1 s = some s' ∧ SnConverged pairProblem 4 (slots2 ⟨2, 1, 1⟩) s s' := by
  have part : Partition pairProblem.rs := ⟨by decide, by simp [pairProblem]⟩
  have cover : ∀ i, i < pairProblem.nReg ↔ ∃ x ∈ pairProblem.rs, i ∈ x.regs := fun i => by simp [pairProblem]; omega
  have hsc : ∀ x ∈ pairProblem.rs, Source.NonNeg pairProblem.ng x.mat := by
    intro x hx a b _ _
    simp only [pairProblem, List.mem_cons, List.not_mem_nil, or_false] at hx
    rcases hx with rfl | rfl
    · simp only [slowMat]
      split_ifs <;> norm_num
    · dsimp only
      split_ifs <;> norm_num
  have e1 : ∀ g < pairProblem.ng, initializeGroup 2 (some (⟨2, 2, fun i g => if g = 0 ∧ i = 0 then 2436 else 0⟩ : Ext ℚ)) g =
      some ((initializeGroup 2 (some (⟨2, 2, fun i g => if g = 0 ∧ i = 0 then 2436 else 0⟩ : Ext ℚ)) g).getD fun _ => 0) := by
    intro g hg
    have hg : g < 2 := hg
    interval_cases g <;> rfl
  have e2 : ∀ g < pairProblem.ng, initializeGroup 4 (some (⟨4, 2, fun i g => if g = 0 ∧ (i = 0 ∨ i = 3) then 2436 else 0⟩ : Ext ℚ)) g =
      some ((initializeGroup 4 (some (⟨4, 2, fun i g => if g = 0 ∧ (i = 0 ∨ i = 3) then 2436 else 0⟩ : Ext ℚ)) g).getD fun _ => 0) := by
    intro g hg
    have hg : g < 2 := hg
    interval_cases g <;> rfl
  obtain ⟨s', h1, h2⟩ := pair_converged_fixed pairProblem ⟨rfl, rfl⟩ gs ⟨2, 2, fun i g => if g = 0 ∧ i = 0 then 2436 else 0⟩ pairFlux (by cases gs <;> decide +kernel)
  obtain ⟨S', H1, H2⟩ := C157_fixed pairProblem part cover hsc (row_double gs gs') 1 rfl (by norm_num [pairSn]) rfl rfl rfl _ _ _ _ e1 e2 (by decide +kernel) pairFlux s' rowFlux h1 h2
    (fun _ _ _ _ => rfl) fun _ _ _ _ _ _ _ => rfl
  obtain ⟨s, s', r1, -, r2, r3⟩ := C157_half_fixed pairProblem part cover hsc (row_double gs gs') (fun a _ => C157_local2 ⟨2, 1, 1⟩ _ _ _ _ _ _ _) (by decide)
    (fun k hk => by cases k <;> first | exact absurd rfl hk | exact ⟨1, rfl⟩) 1 rfl (by norm_num [pairSn]) rfl rfl rfl _ _ _ _ e1 e2 (by decide +kernel) rowFlux S' H1 H2 pairFlux.flux
    (fun _ _ _ _ => rfl) fun g _ => row_symmetric gs gs' g
  exact ⟨s, s', r1, r2, r3⟩

end Verif.Medium
