import Verif.Medium.StrictPosProps
import Verif.Medium.EigenProps
import Verif.Source.SolveProps
import Mathlib.Tactic.Linarith
import Mathlib.Tactic.FieldSimp
import Mathlib.Tactic.Ring

/-!
# C154: the eigenvalue iteration with one fissile region
-/

set_option linter.unusedSectionVars false

namespace Verif.Medium

open Verif.XS Verif.Source

section
variable {K : Type} [Field K] [LinearOrder K] [IsStrictOrderedRing K]

/-- Region `i₀`, of material `x₀`, is the only one with fission. -/
structure OneFissile (p : Problem K) (x₀ : XsRegion (Mat K)) (i₀ : Nat) : Prop where
  mem : x₀ ∈ p.rs
  reg : i₀ ∈ x₀.regs
  only : ∀ x ∈ p.rs, ∀ i ∈ x.regs, i ≠ i₀ → ∀ g < p.ng, x.mat.nf g = 0

theorem sum_zero' {α : Type} (l : List α) (f : α → K) (h : ∀ a ∈ l, f a = 0) : (l.map f).sum = 0 := by
  induction l with
  | nil => rfl
  | cons a l ih => rw [List.map_cons, List.sum_cons, h a (by simp), ih fun b hb => h b (by simp [hb]), add_zero]

theorem sum_single (l : List Nat) (f : Nat → K) (a : Nat) (ha : a ∈ l) (hd : l.Nodup) (h : ∀ b ∈ l, b ≠ a → f b = 0) : (l.map f).sum = f a := by
  induction l with
  | nil => simp at ha
  | cons b l ih =>
    rw [List.nodup_cons] at hd
    rw [List.map_cons, List.sum_cons]
    rcases List.mem_cons.mp ha with rfl | ha
    · rw [sum_zero' l f fun c hc => h c (by simp [hc]) fun e => hd.1 (e ▸ hc), add_zero]
    · rw [ih ha hd.2 fun c hc => h c (by simp [hc]), h b (by simp) fun e => hd.1 (e ▸ ha), zero_add]

theorem region_single (rs : List (XsRegion (Mat K))) (hp : Partition rs) (F : Mat K → Nat → K) (x₀ : XsRegion (Mat K)) (h0 : x₀ ∈ rs) (i₀ : Nat) (hi : i₀ ∈ x₀.regs)
    (h : ∀ x ∈ rs, ∀ i ∈ x.regs, i ≠ i₀ → F x.mat i = 0) : (rs.map fun x => (x.regs.map (F x.mat)).sum).sum = F x₀.mat i₀ := by
  obtain ⟨h1, h2⟩ := hp
  induction rs with
  | nil => simp at h0
  | cons y rs ih =>
    rw [List.pairwise_cons] at h2
    rw [List.map_cons, List.sum_cons]
    rcases List.mem_cons.mp h0 with rfl | h0
    · rw [sum_single _ _ i₀ hi (h1 _ (by simp)) (h x₀ (by simp)), sum_zero' rs _ fun z hz => ?_, add_zero]
      exact sum_zero' _ _ fun i hiz => h z (by simp [hz]) i hiz fun e => h2.1 z hz i₀ hi (e ▸ hiz)
    · rw [ih h0 (fun x hx => h x (by simp [hx])) (fun x hx => h1 x (by simp [hx])) h2.2, sum_zero' _ _ fun i hiy => ?_, zero_add]
      exact h y (by simp) i hiy fun e => h2.1 x₀ h0 i₀ (e ▸ hiy) hi

/-- The total fission is that of the region. -/
theorem one_total (p : Problem K) (h : Physical p) {x₀ : XsRegion (Mat K)} {i₀ : Nat} (h1 : OneFissile p x₀ i₀) (flux : Nat → Nat → K) :
    totalFission p.ng p.rs p.vol flux = p.vol i₀ * ∑ g ∈ Finset.range p.ng, x₀.mat.nf g * flux i₀ g := by
  rw [totalFission_eq]
  exact region_single p.rs h.part (fun mat i => p.vol i * ∑ g ∈ Finset.range p.ng, mat.nf g * flux i g) x₀ h1.mem i₀ h1.reg fun x hx i hi hne => by
    rw [Finset.sum_eq_zero fun g hg => by rw [h1.only x hx i hi hne g (Finset.mem_range.mp hg), zero_mul], mul_zero]

/-- The fission source is that of the region. -/
theorem one_source (p : Problem K) (h : Physical p) {x₀ : XsRegion (Mat K)} {i₀ : Nat} (h1 : OneFissile p x₀ i₀) (k : K) (flux : Nat → Nat → K) :
    calcFissionSource p.ng p.rs k flux = fun i => if i = i₀ then totalFission p.ng p.rs p.vol flux / k / p.vol i₀ else 0 := by
  have hv : p.vol i₀ ≠ 0 := (h.vol i₀ ((h.cover i₀).mpr ⟨x₀, h1.mem, h1.reg⟩)).ne'
  funext i
  by_cases e : i = i₀
  · subst e
    rw [if_pos rfl, C47_fission_source p.ng p.rs h.part k flux x₀ h1.mem i h1.reg, one_total p h h1]
    field_simp
  · rw [if_neg e]
    by_cases hc : ∃ x ∈ p.rs, i ∈ x.regs
    · obtain ⟨x, hx, hxi⟩ := hc
      rw [C47_fission_source p.ng p.rs h.part k flux x hx i hxi, Finset.sum_eq_zero fun g hg => by rw [h1.only x hx i hxi e g (Finset.mem_range.mp hg), zero_mul], zero_div]
    · push Not at hc
      exact fs_outside p.ng p.rs h.part k flux i hc

/-- A step with the fission source `a` in region `i₀`. -/
def unitStep {σ : Type} (p : Problem K) (w : Sweeper K σ) (i₀ : Nat) (a : K) : σ → σ :=
  srcLoop p w (fun g => fission p.rs (fun i => if i = i₀ then a else 0) g fun _ => 0) p.ng 0

theorem outer_one {σ : Type} (p : Problem K) (h : Physical p) {x₀ : XsRegion (Mat K)} {i₀ : Nat} (h1 : OneFissile p x₀ i₀) (w : Sweeper K σ) (k : K) (s : σ) :
    outer p w k s = some (k * totalFission p.ng p.rs p.vol (w.flux (unitStep p w i₀ (totalFission p.ng p.rs p.vol (w.flux s) / k / p.vol i₀) s)) / totalFission p.ng p.rs p.vol (w.flux s),
      unitStep p w i₀ (totalFission p.ng p.rs p.vol (w.flux s) / k / p.vol i₀) s) := by
  unfold outer
  rw [groupLoop_eq, one_source p h h1]
  rfl

theorem outers_one {σ : Type} (p : Problem K) (h : Physical p) {x₀ : XsRegion (Mat K)} {i₀ : Nat} (h1 : OneFissile p x₀ i₀) (w : Sweeper K σ) (N : Nat) (k : K) (hk : k ≠ 0) (s : σ)
    (a : K) (ha : a = totalFission p.ng p.rs p.vol (w.flux s) / k / p.vol i₀)
    (hf : ∀ m < N, totalFission p.ng p.rs p.vol (w.flux ((unitStep p w i₀ a)^[m] s)) ≠ 0) :
    outers p w N k s = some (if N = 0 then k else k * totalFission p.ng p.rs p.vol (w.flux ((unitStep p w i₀ a)^[N] s)) / totalFission p.ng p.rs p.vol (w.flux s), (unitStep p w i₀ a)^[N] s) := by
  have hv : p.vol i₀ ≠ 0 := (h.vol i₀ ((h.cover i₀).mpr ⟨x₀, h1.mem, h1.reg⟩)).ne'
  induction N generalizing k s with
  | zero => rfl
  | succ N ih =>
    have f0 : totalFission p.ng p.rs p.vol (w.flux s) ≠ 0 := hf 0 (by omega)
    rw [outers, outer_one p h h1, ← ha, Option.bind_some]
    rcases Nat.eq_zero_or_pos N with rfl | hN
    · rfl
    · have f1 : totalFission p.ng p.rs p.vol (w.flux (unitStep p w i₀ a s)) ≠ 0 := hf 1 (by omega)
      rw [ih _ (div_ne_zero (mul_ne_zero hk f1) f0) (unitStep p w i₀ a s) (by
        generalize totalFission p.ng p.rs p.vol (w.flux (unitStep p w i₀ a s)) = F at f1 ⊢
        rw [ha]
        field_simp) fun m hm => by
        rw [← Function.iterate_succ_apply]; exact hf (m + 1) (by omega)]
      rw [if_neg (by omega), if_neg (by omega), ← Function.iterate_succ_apply]
      congr 2
      field_simp

theorem errorSq_self (n c : Nat) (a : List K) (hl : a.length = n) (h : a.sum ≠ 0) : errorSq n c a a = some 0 := by
  have key : ∀ b : List K, b.length = n → sumSq n b b = some 0 := by
    intro b hb
    unfold sumSq
    have : ∀ m ≤ n, (List.range m).foldl (fun (t : Option K) i =>
        match t, b[i]?, b[i]? with
        | some t, some x, some y => some (t + (x - y) * (x - y))
        | _, _, _ => none) (some 0) = some 0 := by
      intro m
      induction m with
      | zero => intro _; rfl
      | succ m ih =>
        intro hm
        rw [List.range_succ, List.foldl_append, ih (by omega)]
        simp [List.getElem?_eq_getElem (show m < b.length by omega)]
    exact this n le_rfl
  unfold errorSq Normalize.normalize
  rw [if_neg h]
  simp only [Option.bind_some]
  rw [key _ (by simp [hl])]
  simp

/-- The error of the fission source is zero after every iteration, whatever the flux. -/
theorem C154_error {σ : Type} (p : Problem K) (h : Physical p) (x₀ : XsRegion (Mat K)) (i₀ : Nat) (h1 : OneFissile p x₀ i₀) (w : Sweeper K σ) (k : K) (hk : k ≠ 0) (s : σ)
    (hf : totalFission p.ng p.rs p.vol (w.flux s) ≠ 0) (k' : K) (s' : σ) (ho : outer p w k s = some (k', s')) (hf' : totalFission p.ng p.rs p.vol (w.flux s') ≠ 0) :
    errorSq p.nReg (nFissile p.ng p.rs) (fsArray p.ng p.nReg p.rs k' (w.flux s')) (fsArray p.ng p.nReg p.rs k (w.flux s)) = some 0 := by
  have hi : i₀ < p.nReg := (h.cover i₀).mpr ⟨x₀, h1.mem, h1.reg⟩
  have hv : p.vol i₀ ≠ 0 := (h.vol i₀ hi).ne'
  have hk' : k' = k * totalFission p.ng p.rs p.vol (w.flux s') / totalFission p.ng p.rs p.vol (w.flux s) := by
    unfold outer at ho
    cases hl : groupLoop p w (calcFissionSource p.ng p.rs k (w.flux s)) p.ng 0 s with
    | none => rw [hl] at ho; simp at ho
    | some z =>
      rw [hl, Option.map_some, Option.some.injEq, Prod.mk.injEq] at ho
      rw [← ho.2, ← ho.1]
  have e : fsArray p.ng p.nReg p.rs k' (w.flux s') = fsArray p.ng p.nReg p.rs k (w.flux s) := by
    unfold fsArray
    rw [one_source p h h1, one_source p h h1, hk']
    generalize totalFission p.ng p.rs p.vol (w.flux s) = F at *
    generalize totalFission p.ng p.rs p.vol (w.flux s') = F' at *
    refine List.map_congr_left fun i _ => ?_
    split
    · field_simp
    · rfl
  rw [e]
  refine errorSq_self _ _ _ (by simp [fsArray]) ?_
  unfold fsArray
  rw [one_source p h h1, sum_single _ _ i₀ (List.mem_range.mpr hi) List.nodup_range fun b _ hb => if_neg hb, if_pos rfl]
  exact div_ne_zero (div_ne_zero hf hk) hv

/-- C154: as long as there is fission the fission source does not change from iteration to iteration, whatever the sweeper; the eigenvalue is proportional to the total fission. -/
theorem C154_constant {σ : Type} (p : Problem K) (h : Physical p) (x₀ : XsRegion (Mat K)) (i₀ : Nat) (h1 : OneFissile p x₀ i₀) (w : Sweeper K σ) (N : Nat) (k : K) (hk : k ≠ 0) (s : σ)
    (hf : ∀ m ≤ N, ∀ k' s', outers p w m k s = some (k', s') → totalFission p.ng p.rs p.vol (w.flux s') ≠ 0) :
    ∃ k' s', outers p w N k s = some (k', s') ∧ k' = k * totalFission p.ng p.rs p.vol (w.flux s') / totalFission p.ng p.rs p.vol (w.flux s) ∧
      calcFissionSource p.ng p.rs k' (w.flux s') = calcFissionSource p.ng p.rs k (w.flux s) := by
  have f0 : totalFission p.ng p.rs p.vol (w.flux s) ≠ 0 := hf 0 (by omega) k s rfl
  have key : ∀ m ≤ N, ∃ k' s', outers p w m k s = some (k', s') ∧ s' = (unitStep p w i₀ (totalFission p.ng p.rs p.vol (w.flux s) / k / p.vol i₀))^[m] s ∧
      k' = k * totalFission p.ng p.rs p.vol (w.flux s') / totalFission p.ng p.rs p.vol (w.flux s) ∧ totalFission p.ng p.rs p.vol (w.flux s') ≠ 0 := by
    intro m
    induction m using Nat.strong_induction_on with
    | _ m ih =>
      intro hm
      have := outers_one p h h1 w m k hk s _ rfl fun j hj => by
        obtain ⟨k', s', -, e2, -, e4⟩ := ih j hj (by omega)
        rw [← e2]; exact e4
      refine ⟨_, _, this, rfl, ?_, hf m hm _ _ this⟩
      split
      · next e => subst e; rw [Function.iterate_zero, id, mul_div_cancel_right₀ _ f0]
      · rfl
  obtain ⟨k', s', e1, e2, e3, e4⟩ := key N (le_refl _)
  refine ⟨k', s', e1, e3, ?_⟩
  rw [one_source p h h1, one_source p h h1, e3]
  generalize totalFission p.ng p.rs p.vol (w.flux s') = F at e4
  funext i
  split
  · field_simp
  · rfl

/-- The external source of region `i₀` with the spectrum of fission of material `mat` and magnitude `a`. -/
def fissionExt (p : Problem K) (mat : Mat K) (i₀ : Nat) (a : K) : Ext K := ⟨p.nReg, p.ng, fun i g => if i = i₀ then mat.ch g * a else 0⟩

theorem init_range (e : Ext K) (g : Nat) (nReg : Nat) (h : ∀ i < nReg, e.get i g = some (e.data i g)) :
    initializeGroup nReg (some e) g = some fun i => if i < nReg then e.data i g else 0 := by
  unfold initializeGroup
  simp only
  induction nReg with
  | zero => rfl
  | succ N ih =>
    rw [List.range_succ, List.foldl_append, ih fun i hi => h i (by omega)]
    simp only [List.foldl_cons, List.foldl_nil, h N (by omega)]
    congr 1
    funext i
    by_cases e1 : i = N
    · subst e1; simp
    · rw [Function.update_of_ne e1]
      by_cases e2 : i < N
      · rw [if_pos e2, if_pos (by omega)]
      · rw [if_neg e2, if_neg (by omega)]

theorem fissionExt_init (p : Problem K) (h : Physical p) {x₀ : XsRegion (Mat K)} {i₀ : Nat} (h1 : OneFissile p x₀ i₀) (a : K) (g : Nat) (hg : g < p.ng) :
    initializeGroup p.nReg (some (fissionExt p x₀.mat i₀ a)) g = some (fission p.rs (fun i => if i = i₀ then a else 0) g fun _ => 0) := by
  rw [init_range _ _ _ fun i hi => by simp [fissionExt, Ext.get, hi, hg]]
  congr 1
  funext i
  by_cases hi : i < p.nReg
  · rw [if_pos hi]
    obtain ⟨x, hx, hxi⟩ := (h.cover i).mp hi
    by_cases e : i = i₀
    · subst e
      rw [fission_at p.rs h.part _ g _ x₀ h1.mem i h1.reg]
      simp [fissionExt]
    · rw [fission_at p.rs h.part _ g _ x hx i hxi]
      simp [fissionExt, e]
  · rw [if_neg hi]
    have ho : ∀ x ∈ p.rs, i ∉ x.regs := fun x hx hxi => hi ((h.cover i).mpr ⟨x, hx, hxi⟩)
    have key : ∀ (rs : List (XsRegion (Mat K))) (b : Nat → K), (∀ x ∈ rs, i ∉ x.regs) → rs.foldl (fun a' x => addTo x.regs (fun j => x.mat.ch g * if j = i₀ then a else 0) a') b i = b i := by
      intro rs
      induction rs with
      | nil => intro b _; rfl
      | cons x rs ih =>
        intro b hb
        rw [List.foldl_cons, ih _ fun y hy => hb y (by simp [hy]), addTo_not_mem _ _ _ _ (hb x (by simp))]
    exact (key p.rs (fun _ => 0) ho).symm

/-- C154: the eigenvalue solver then does what the fixed-source solver does with the fission source of the start as its external source. -/
theorem C154_same {σ : Type} (p : Problem K) (h : Physical p) (x₀ : XsRegion (Mat K)) (i₀ : Nat) (h1 : OneFissile p x₀ i₀) (w : Sweeper K σ) (N : Nat) (k : K) (hk : k ≠ 0) (s : σ)
    (hf : ∀ m < N, ∀ s', fixedSteps p w (some (fissionExt p x₀.mat i₀ (totalFission p.ng p.rs p.vol (w.flux s) / k / p.vol i₀))) m s = some s' →
      totalFission p.ng p.rs p.vol (w.flux s') ≠ 0) (h0 : totalFission p.ng p.rs p.vol (w.flux s) ≠ 0) :
    ∃ s', fixedSteps p w (some (fissionExt p x₀.mat i₀ (totalFission p.ng p.rs p.vol (w.flux s) / k / p.vol i₀))) N s = some s' ∧
      outers p w N k s = some (k * totalFission p.ng p.rs p.vol (w.flux s') / totalFission p.ng p.rs p.vol (w.flux s), s') := by
  set a := totalFission p.ng p.rs p.vol (w.flux s) / k / p.vol i₀ with ha
  have e := fun m => fixedSteps_eq p w (some (fissionExt p x₀.mat i₀ a)) _ (fissionExt_init p h h1 a) m s
  refine ⟨_, e N, ?_⟩
  rw [outers_one p h h1 w N k hk s a ha fun m hm => hf m hm _ (e m)]
  split
  · next e => subst e; simp [h0]
  · rfl

/-- Neutrons of fission get to group `g` in material `mat`: they are born there or scatter there from a group before. -/
inductive Fed (mat : Mat K) : Nat → Prop
  | born (g : Nat) (h : 0 < mat.ch g) : Fed mat g
  | slowed (h g : Nat) (hlt : h < g) (hf : Fed mat h) (hsc : 0 < mat.sc g h) : Fed mat g

theorem fed_loop (p : Problem K) (h : Physical p) (m : MocSetup K) (nAng : Nat) (n : Nat → Nat) (hm : MocPosOk p m nAng n) (ht : AboveTangent m.expo) (hin : 1 ≤ m.nInner)
    (base : Nat → Nat → K) (hbase : ∀ g < p.ng, ∀ i < p.nReg, 0 ≤ base g i) (x₀ : XsRegion (Mat K)) (hx : x₀ ∈ p.rs) (i₀ : Nat) (hi : i₀ ∈ x₀.regs)
    (hb : ∀ g < p.ng, 0 < x₀.mat.ch g → 0 < base g i₀) (N g : Nat) (hg : g + N ≤ p.ng) (s : MocState K) (hs : MocPos p m nAng n s)
    (hpos : ∀ g' < g, Fed x₀.mat g' → 0 < s.flux i₀ g') :
    ∀ g' < g + N, Fed x₀.mat g' → 0 < (srcLoop p (mocSweeper p m) base N g s).flux i₀ g' := by
  have hi0 : i₀ < p.nReg := (h.cover i₀).mpr ⟨x₀, hx, hi⟩
  induction N generalizing g s with
  | zero => exact hpos
  | succ N ih =>
    have hsrc : ∀ i < p.nReg, 0 ≤ inScatter p.ng p.rs s.flux g (base g) i := by
      intro i hi
      obtain ⟨x, hx, hxi⟩ := (h.cover i).mp hi
      rw [inScatter_at p.ng p.rs h.part _ g (by omega) _ x hx i hxi (h.sc x hx)]
      refine add_nonneg (hbase g (by omega) i hi) (Finset.sum_nonneg fun h' hh' => ?_)
      have hh := Finset.mem_range.mp hh'
      split
      · exact mul_nonneg (h.sc x hx g h' (by omega) hh) (hs.flux i hi h' hh)
      · exact le_refl _
    have := ih (g + 1) (by omega) (mocSweep p m g (inScatter p.ng p.rs s.flux g (base g)) s)
      ((C109_moc p h m nAng n hm).keep g (by omega) _ s hsrc hs) fun g' hg' hfed => by
        by_cases e : g' = g
        · subst e
          refine mocSweep_strict p h m nAng n hm ht hin g' (by omega) _ hsrc s hs i₀ hi0 ?_
          rw [inScatter_at p.ng p.rs h.part _ g' (by omega) _ x₀ hx i₀ hi (h.sc x₀ hx)]
          have hterm : ∀ q ∈ Finset.range p.ng, 0 ≤ (if q ≠ g' then x₀.mat.sc g' q * s.flux i₀ q else 0) := by
            intro q hq
            split
            · exact mul_nonneg (h.sc x₀ hx g' q (by omega) (Finset.mem_range.mp hq)) (hs.flux i₀ hi0 q (Finset.mem_range.mp hq))
            · exact le_refl _
          cases hfed with
          | born _ hc => exact add_pos_of_pos_of_nonneg (hb g' (by omega) hc) (Finset.sum_nonneg hterm)
          | slowed q _ hlt hq hsc =>
            refine add_pos_of_nonneg_of_pos (hbase g' (by omega) i₀ hi0) (lt_of_lt_of_le ?_ (Finset.single_le_sum hterm (Finset.mem_range.mpr (show q < p.ng by omega))))
            rw [if_pos (by omega)]
            exact mul_pos hsc (hpos q hlt hq)
        · have := mocSweep_only p m g (inScatter p.ng p.rs s.flux g (base g)) s i₀ g' e
          change (mocSweep p m g (inScatter p.ng p.rs s.flux g (base g)) s).flux i₀ g' = s.flux i₀ g' at this
          rw [this]
          exact hpos g' (by omega) hfed
    intro g' hg'
    exact this g' (by omega)

theorem unit_base (p : Problem K) (h : Physical p) {x₀ : XsRegion (Mat K)} {i₀ : Nat} (h1 : OneFissile p x₀ i₀) (a : K) (ha : 0 < a) :
    (∀ g < p.ng, ∀ i < p.nReg, 0 ≤ fission p.rs (fun i => if i = i₀ then a else 0) g (fun _ => 0) i) ∧
      ∀ g < p.ng, 0 < x₀.mat.ch g → 0 < fission p.rs (fun i => if i = i₀ then a else 0) g (fun _ => 0) i₀ := by
  constructor
  · intro g hg i hi
    obtain ⟨x, hx, hxi⟩ := (h.cover i).mp hi
    rw [fission_at p.rs h.part _ g _ x hx i hxi, zero_add]
    refine mul_nonneg (h.ch x hx g hg) ?_
    split
    · exact ha.le
    · exact le_refl _
  · intro g hg hc
    rw [fission_at p.rs h.part _ g _ x₀ h1.mem i₀ h1.reg, zero_add, if_pos rfl]
    exact mul_pos hc ha

theorem unit_pos (p : Problem K) (h : Physical p) {x₀ : XsRegion (Mat K)} {i₀ : Nat} (h1 : OneFissile p x₀ i₀) (m : MocSetup K) (nAng : Nat) (n : Nat → Nat) (hm : MocPosOk p m nAng n)
    (a : K) (ha : 0 < a) (s : MocState K) (hs : MocPos p m nAng n s) : MocPos p m nAng n (unitStep p (mocSweeper p m) i₀ a s) :=
  srcLoop_pos p h _ _ (C109_moc p h m nAng n hm) _ p.ng 0 (by omega) (unit_base p h h1 a ha).1 s hs

theorem unit_fission (p : Problem K) (h : Physical p) {x₀ : XsRegion (Mat K)} {i₀ : Nat} (h1 : OneFissile p x₀ i₀) (m : MocSetup K) (nAng : Nat) (n : Nat → Nat) (hm : MocPosOk p m nAng n)
    (ht : AboveTangent m.expo) (hin : 1 ≤ m.nInner) (hfed : ∃ g < p.ng, Fed x₀.mat g ∧ 0 < x₀.mat.nf g) (a : K) (ha : 0 < a) (s : MocState K) (hs : MocPos p m nAng n s) :
    0 < totalFission p.ng p.rs p.vol (unitStep p (mocSweeper p m) i₀ a s).flux := by
  have hi0 : i₀ < p.nReg := (h.cover i₀).mpr ⟨x₀, h1.mem, h1.reg⟩
  obtain ⟨g, hg, hf, hn⟩ := hfed
  have := fed_loop p h m nAng n hm ht hin _ (unit_base p h h1 a ha).1 x₀ h1.mem i₀ h1.reg (unit_base p h h1 a ha).2 p.ng 0 (by omega) s hs (by simp) g (by omega) hf
  have hp := unit_pos p h h1 m nAng n hm a ha s hs
  rw [one_total p h h1]
  refine mul_pos (h.vol i₀ hi0) (lt_of_lt_of_le (mul_pos hn this) ?_)
  exact Finset.single_le_sum (f := fun g => x₀.mat.nf g * (unitStep p (mocSweeper p m) i₀ a s).flux i₀ g)
    (fun q hq => mul_nonneg (h.nf x₀ h1.mem q (Finset.mem_range.mp hq)) (hp.flux i₀ hi0 q (Finset.mem_range.mp hq))) (Finset.mem_range.mpr hg)

theorem unit_iter (p : Problem K) (h : Physical p) {x₀ : XsRegion (Mat K)} {i₀ : Nat} (h1 : OneFissile p x₀ i₀) (m : MocSetup K) (nAng : Nat) (n : Nat → Nat) (hm : MocPosOk p m nAng n)
    (ht : AboveTangent m.expo) (hin : 1 ≤ m.nInner) (hfed : ∃ g < p.ng, Fed x₀.mat g ∧ 0 < x₀.mat.nf g) (a : K) (ha : 0 < a) (s : MocState K) (hs : MocPos p m nAng n s)
    (h0 : 0 < totalFission p.ng p.rs p.vol s.flux) (N : Nat) :
    MocPos p m nAng n ((unitStep p (mocSweeper p m) i₀ a)^[N] s) ∧ 0 < totalFission p.ng p.rs p.vol ((unitStep p (mocSweeper p m) i₀ a)^[N] s).flux := by
  induction N with
  | zero => exact ⟨hs, h0⟩
  | succ N ih =>
    rw [Function.iterate_succ_apply']
    exact ⟨unit_pos p h h1 m nAng n hm a ha _ ih.1, unit_fission p h h1 m nAng n hm ht hin hfed a ha _ ih.1⟩

theorem unit_planes (p : Problem K) (m : MocSetup K) (hlin : ∀ α β, Combines α β m.u m.u m.u) (i₀ : Nat) (a : K) (s : MocState K) (h : PlanesAt m s) :
    PlanesAt m (unitStep p (mocSweeper p m) i₀ a s) := planes_iter p m hlin _ 1 s h

theorem same_total (p : Problem K) (h : Physical p) {x₀ : XsRegion (Mat K)} {i₀ : Nat} (h1 : OneFissile p x₀ i₀) (m : MocSetup K) (nAng : Nat) (n : Nat → Nat) (s t : MocState K)
    (hs : Medium.Same p m nAng n s t) : totalFission p.ng p.rs p.vol s.flux = totalFission p.ng p.rs p.vol t.flux := by
  rw [one_total p h h1, one_total p h h1]
  congr 1
  exact Finset.sum_congr rfl fun g hg => by rw [hs.1 i₀ ((h.cover i₀).mpr ⟨x₀, h1.mem, h1.reg⟩) g (Finset.mem_range.mp hg)]

/-- A multiple of a state that a step leaves as it is, with the multiple of the source. -/
theorem unit_scale (p : Problem K) (m : MocSetup K) (nAng : Nat) (n : Nat → Nat) (hlin : ∀ α β, Combines α β m.u m.u m.u) (i₀ : Nat) (a b : K) (s : MocState K) (hp : PlanesAt m s)
    (hs : Medium.Same p m nAng n (unitStep p (mocSweeper p m) i₀ b s) s) :
    Medium.Same p m nAng n (unitStep p (mocSweeper p m) i₀ (a * b) (mocLin a 0 s s)) (mocLin a 0 s s) := by
  have e : (fun g => fission p.rs (fun i => if i = i₀ then a * b else 0) g fun _ => 0) =
      fun g => a • (fission p.rs (fun i => if i = i₀ then b else 0) g fun _ => 0) + (0 : K) • fission p.rs (fun i => if i = i₀ then b else 0) g fun _ => 0 := by
    funext g
    rw [← fission_lin]
    congr 1
    · funext i
      simp only [Pi.add_apply, Pi.smul_apply, smul_eq_mul]
      split <;> ring
    · funext i
      simp
  obtain ⟨e1, e2, e3⟩ := srcLoop_lin a 0 p m (hlin a 0) _ _ p.ng 0 s s hp hp
  unfold unitStep
  rw [e, e1]
  refine ⟨fun i hi g hg => ?_, fun g hg z hz q hq j hj => ?_⟩
  · have := hs.1 i hi g hg
    simp only [unitStep] at this
    simp only [mocLin, Pi.add_apply, Pi.smul_apply, smul_eq_mul, this]
  · have := hs.2 g hg z hz q hq j hj
    simp only [unitStep] at this
    rw [incoming_lin a 0 _ _ g _ (e2.1 g) (e2.1 g) z hz, incoming_lin a 0 s s g _ (hp.1 g) (hp.1 g) z hz, this]

/-- A converged solution: an outer iteration leaves the flux and the incoming values as they are; there is fission. -/
structure Converged (p : Problem K) (m : MocSetup K) (nAng : Nat) (n : Nat → Nat) (k : K) (s : MocState K) : Prop where
  eig : k ≠ 0
  planes : PlanesAt m s
  fission : totalFission p.ng p.rs p.vol s.flux ≠ 0
  stays : ∃ k' t, outer p (mocSweeper p m) k s = some (k', t) ∧ Medium.Same p m nAng n t s

theorem converged_unit (p : Problem K) (h : Physical p) {x₀ : XsRegion (Mat K)} {i₀ : Nat} (h1 : OneFissile p x₀ i₀) (m : MocSetup K) (nAng : Nat) (n : Nat → Nat) (k : K) (s : MocState K)
    (hc : Converged p m nAng n k s) : Medium.Same p m nAng n (unitStep p (mocSweeper p m) i₀ (totalFission p.ng p.rs p.vol s.flux / k / p.vol i₀) s) s := by
  obtain ⟨k', t, e, hs⟩ := hc.stays
  rw [outer_one p h h1] at e
  simp only [Option.some.injEq, Prod.mk.injEq] at e
  obtain ⟨-, rfl⟩ := e
  exact hs

/-- C154: there is only one eigenvalue of converged solutions, whatever the sign of their fluxes, and their fluxes differ by a factor. -/
theorem C154_unique [Archimedean K] (p : Problem K) (h : Physical p) (x₀ : XsRegion (Mat K)) (i₀ : Nat) (h1 : OneFissile p x₀ i₀) (m : MocSetup K) (nAng : Nat) (n : Nat → Nat)
    (hm : MocBoundOk p m nAng n) (φ : Nat → K) (ρ η : K) (hs : Subcritical p m nAng n φ ρ η) (k k' : K) (s s' : MocState K) (hc : Converged p m nAng n k s)
    (hc' : Converged p m nAng n k' s') :
    k = k' ∧ ∃ a, a ≠ 0 ∧ (∀ i < p.nReg, ∀ g < p.ng, s'.flux i g = a * s.flux i g) ∧
      ∀ g < p.ng, ∀ z < m.planes.length, ∀ q < nAng, ∀ j < n q, incoming s' g z q j = a * incoming s g z q j := by
  have hv : p.vol i₀ ≠ 0 := (h.vol i₀ ((h.cover i₀).mpr ⟨x₀, h1.mem, h1.reg⟩)).ne'
  have u := converged_unit p h h1 m nAng n k s hc
  have u' := converged_unit p h h1 m nAng n k' s' hc'
  set F := totalFission p.ng p.rs p.vol s.flux with hF
  set F' := totalFission p.ng p.rs p.vol s'.flux with hF'
  have f1 := hc.fission
  have f2 := hc'.fission
  rw [← hF] at f1
  rw [← hF'] at f2
  have k1 := hc.eig
  have k2 := hc'.eig
  set a := (F' / k') / (F / k) with ha
  have ha0 : a ≠ 0 := div_ne_zero (div_ne_zero f2 k2) (div_ne_zero f1 k1)
  have sc := unit_scale p m nAng n hm.linear i₀ a _ s hc.planes u
  rw [show a * (F / k / p.vol i₀) = F' / k' / p.vol i₀ by rw [ha]; field_simp] at sc
  have e := fixedSteps_eq p (mocSweeper p m) (some (fissionExt p x₀.mat i₀ (F' / k' / p.vol i₀))) _ (fissionExt_init p h h1 _) 1
  have same := C113_unique p h m nAng n hm φ ρ η hs _ _ (fissionExt_init p h h1 (F' / k' / p.vol i₀)) s' (mocLin a 0 s s) _ _ hc'.planes (planesAt_lin a 0 m s s hc.planes hc.planes)
    (e s') (e _) u' sc
  have flux : ∀ i < p.nReg, ∀ g < p.ng, s'.flux i g = a * s.flux i g := by
    intro i hi g hg
    rw [same.1 i hi g hg]
    simp [mocLin]
  refine ⟨?_, a, ha0, flux, fun g hg z hz q hq j hj => ?_⟩
  · have t : F' = a * F := by
      have e1 : ∑ g ∈ Finset.range p.ng, x₀.mat.nf g * s'.flux i₀ g = a * ∑ g ∈ Finset.range p.ng, x₀.mat.nf g * s.flux i₀ g := by
        rw [Finset.mul_sum]
        refine Finset.sum_congr rfl fun g hg => ?_
        rw [flux i₀ ((h.cover i₀).mpr ⟨x₀, h1.mem, h1.reg⟩) g (Finset.mem_range.mp hg)]
        ring
      rw [hF', hF, one_total p h h1, one_total p h h1, e1, mul_left_comm]
    rw [ha] at t
    field_simp at t
    exact t.symm
  · rw [same.2 g hg z hz q hq j hj, incoming_lin a 0 s s g _ (hc.planes.1 g) (hc.planes.1 g) z hz]
    ring

end

/-- C154, convergence: there is a converged solution with a positive eigenvalue and a flux that is not negative; from every start with a flux and incoming values that are not negative, with
some fission, eigenvalue and flux tend to it geometrically, with the factor `ρ + (1 - ρ) η` in two steps; the factor of the flux is determined by the fission source of the start. -/
theorem C154_converges (p : Problem ℝ) (h : Physical p) (x₀ : XsRegion (Mat ℝ)) (i₀ : Nat) (h1 : OneFissile p x₀ i₀) (hfed : ∃ g < p.ng, Fed x₀.mat g ∧ 0 < x₀.mat.nf g)
    (m : MocSetup ℝ) (nAng : Nat) (n : Nat → Nat) (hm : MocBoundOk p m nAng n) (ht : AboveTangent m.expo) (φ : Nat → ℝ) (ρ η : ℝ) (hs : Subcritical p m nAng n φ ρ η) :
    ∃ k s, 0 < k ∧ MocPos p m nAng n s ∧ Converged p m nAng n k s ∧
      ∀ k₀ s₀, 0 < k₀ → PlanesAt m s₀ → MocPos p m nAng n s₀ → 0 < totalFission p.ng p.rs p.vol s₀.flux →
        ∃ c, ∀ N, ∃ k' t, outers p (mocSweeper p m) N k₀ s₀ = some (k', t) ∧ 0 < k' ∧ MocPos p m nAng n t ∧
          |k' - k| ≤ c * (ρ + (1 - ρ) * η) ^ (N / 2) ∧
          (∀ i < p.nReg, ∀ g < p.ng, |t.flux i g - (totalFission p.ng p.rs p.vol s₀.flux / k₀) / (totalFission p.ng p.rs p.vol s.flux / k) * s.flux i g| ≤
            c * (ρ + (1 - ρ) * η) ^ (N / 2) * φ g) ∧
          totalFission p.ng p.rs p.vol t.flux / k' = totalFission p.ng p.rs p.vol s₀.flux / k₀ := by
  have hi0 : i₀ < p.nReg := (h.cover i₀).mpr ⟨x₀, h1.mem, h1.reg⟩
  have hv := h.vol i₀ hi0
  obtain ⟨r1, r2, r3⟩ := rate_lt ρ η hs.rho.1 hs.rho.2 hs.eta.1 hs.eta.2
  obtain ⟨s, t, hp, e, hsame, -⟩ := C113_converges p h m nAng n hm φ ρ η hs _ _ (fissionExt_init p h h1 1)
  rw [fixedSteps_eq p (mocSweeper p m) _ _ (fissionExt_init p h h1 1) 1 s] at e
  injection e with e
  subst e
  have hsame : Medium.Same p m nAng n (unitStep p (mocSweeper p m) i₀ 1 s) s := hsame
  have hpos : MocPos p m nAng n s := fixed_pos p h m nAng n hm φ ρ η hs _ (unit_base p h h1 1 one_pos).1 s hp hsame
  have hF : 0 < totalFission p.ng p.rs p.vol s.flux := by
    rw [← same_total p h h1 m nAng n _ _ hsame]
    exact unit_fission p h h1 m nAng n hm.toMocPosOk ht hm.inner hfed 1 one_pos s hpos
  set F := totalFission p.ng p.rs p.vol s.flux with hFd
  have hk : 0 < F / p.vol i₀ := div_pos hF hv
  have h1' : F / (F / p.vol i₀) / p.vol i₀ = 1 := by field_simp
  refine ⟨F / p.vol i₀, s, hk, hpos, ⟨hk.ne', hp, hF.ne', ?_⟩, fun k₀ s₀ hk0 hp0 hpos0 hf0 => ?_⟩
  · rw [outer_one p h h1]
    refine ⟨_, _, rfl, ?_⟩
    change Medium.Same p m nAng n (unitStep p (mocSweeper p m) i₀ (F / (F / p.vol i₀) / p.vol i₀) s) s
    rw [h1']
    exact hsame
  set F₀ := totalFission p.ng p.rs p.vol s₀.flux with hF0
  set a := F₀ / k₀ / p.vol i₀ with ha
  have ha0 : 0 < a := div_pos (div_pos hf0 hk0) hv
  have sc := unit_scale p m nAng n hm.linear i₀ a 1 s hp hsame
  rw [mul_one] at sc
  have hpl := planesAt_lin a 0 m s s hp hp
  obtain ⟨c, hc, hn⟩ := near_some p m nAng n φ hs.phi hm.fpi s₀ (mocLin a 0 s s)
  have near : ∀ N, Near p m nAng n φ (c * rate ρ η ^ (N / 2)) (c * rate ρ η ^ (N / 2)) ((unitStep p (mocSweeper p m) i₀ a)^[N] s₀) (mocLin a 0 s s) := by
    intro N
    have := near_trans _ _ _ _ _ _ _ _ _ _ _ _ (iter_near p h m nAng n hm φ ρ η hs c hc _ N s₀ _ hp0 hpl hn) (iter_stay p h m nAng n hm φ ρ η hs _ _ hpl sc N)
    rwa [add_zero] at this
  have hit := unit_iter p h h1 m nAng n hm.toMocPosOk ht hm.inner hfed a ha0 s₀ hpos0 hf0
  set W := ∑ g ∈ Finset.range p.ng, x₀.mat.nf g * φ g with hW
  have hW0 : 0 ≤ W := Finset.sum_nonneg fun g hg => mul_nonneg (h.nf x₀ h1.mem g (Finset.mem_range.mp hg)) (hs.phi g (Finset.mem_range.mp hg)).le
  have hcW : 0 ≤ c * W / a := div_nonneg (mul_nonneg hc hW0) ha0.le
  refine ⟨c + c * W / a, fun N => ?_⟩
  have hN := near N
  obtain ⟨p1, p2⟩ := hit N
  set u := (unitStep p (mocSweeper p m) i₀ a)^[N] s₀ with hu
  have run : outers p (mocSweeper p m) N k₀ s₀ = some (k₀ * totalFission p.ng p.rs p.vol u.flux / F₀, u) := by
    rw [outers_one p h h1 (mocSweeper p m) N k₀ hk0.ne' s₀ a ha fun j _ => (hit j).2.ne']
    split
    · next e0 =>
      have : u = s₀ := by rw [hu, e0]; rfl
      rw [← hu, this]
      rw [← hF0, mul_div_assoc, div_self hf0.ne', mul_one]
    · rfl
  have hpw : 0 ≤ rate ρ η ^ (N / 2) := pow_nonneg r2 _
  have flux : ∀ i < p.nReg, ∀ g < p.ng, |u.flux i g - a * s.flux i g| ≤ c * rate ρ η ^ (N / 2) * φ g := by
    intro i hi g hg
    have := hN.flux i hi g hg
    simpa [mocLin] using this
  have fac : F₀ / k₀ / (F / (F / p.vol i₀)) = a := by
    rw [ha]; field_simp
  refine ⟨_, u, run, div_pos (mul_pos hk0 p2) hf0, p1, ?_, fun i hi g hg => ?_, ?_⟩
  · have dif : |totalFission p.ng p.rs p.vol u.flux - a * F| ≤ p.vol i₀ * (c * rate ρ η ^ (N / 2) * W) := by
      rw [hFd, one_total p h h1, one_total p h h1, mul_left_comm, ← mul_sub, abs_mul, abs_of_pos hv, Finset.mul_sum, ← Finset.sum_sub_distrib]
      refine mul_le_mul_of_nonneg_left ((Finset.abs_sum_le_sum_abs _ _).trans ?_) hv.le
      rw [hW, Finset.mul_sum]
      refine Finset.sum_le_sum fun g hg => ?_
      have hg := Finset.mem_range.mp hg
      have hnf := h.nf x₀ h1.mem g hg
      rw [show x₀.mat.nf g * u.flux i₀ g - a * (x₀.mat.nf g * s.flux i₀ g) = x₀.mat.nf g * (u.flux i₀ g - a * s.flux i₀ g) by ring, abs_mul, abs_of_nonneg hnf]
      calc x₀.mat.nf g * |u.flux i₀ g - a * s.flux i₀ g| ≤ x₀.mat.nf g * (c * rate ρ η ^ (N / 2) * φ g) := mul_le_mul_of_nonneg_left (flux i₀ hi0 g hg) hnf
        _ = c * rate ρ η ^ (N / 2) * (x₀.mat.nf g * φ g) := by ring
    have e : k₀ * totalFission p.ng p.rs p.vol u.flux / F₀ - F / p.vol i₀ = (totalFission p.ng p.rs p.vol u.flux - a * F) / (a * p.vol i₀) := by
      rw [ha]; field_simp
    rw [e, abs_div, abs_of_pos (mul_pos ha0 hv), div_le_iff₀ (mul_pos ha0 hv)]
    refine dif.trans ?_
    have : p.vol i₀ * (c * rate ρ η ^ (N / 2) * W) = c * W / a * rate ρ η ^ (N / 2) * (a * p.vol i₀) := by field_simp
    rw [this]
    refine mul_le_mul_of_nonneg_right ?_ (mul_pos ha0 hv).le
    exact mul_le_mul_of_nonneg_right (by linarith) hpw
  · rw [fac]
    refine (flux i hi g hg).trans (mul_le_mul_of_nonneg_right (mul_le_mul_of_nonneg_right ?_ hpw) (hs.phi g hg).le)
    linarith
  · field_simp

/-! ### Example, and a calculation that stops at once -/

/-- moc_sweeper.cpp:235-252, eigen_solver.cpp:142: the start of a calculation: the flux is one, the incoming values are the same in all directions. -/
noncomputable def flatStart (m : MocSetup ℝ) : MocState ℝ :=
  ⟨fun _ _ => 1, fun _ => 0, fun _ => List.replicate m.planes.length fun _ _ => 1 / m.fpi, List.replicate m.planes.length fun _ _ => 0⟩

/-- The claim that a calculation which meets both criteria of convergence, for any tolerance, after the first iteration, has found the eigenvalue. -/
def C154_claim : Prop :=
  ∀ (p : Problem ℝ), Physical p → ∀ x₀ i₀, OneFissile p x₀ i₀ → (∃ g < p.ng, Fed x₀.mat g ∧ 0 < x₀.mat.nf g) → ∀ (m : MocSetup ℝ) (nAng : Nat) (n : Nat → Nat), MocBoundOk p m nAng n →
    AboveTangent m.expo → ∀ φ ρ η, Subcritical p m nAng n φ ρ η → ∀ k' t, outer p (mocSweeper p m) 1 (flatStart m) = some (k', t) → |k' - 1| = 0 →
    errorSq p.nReg (nFissile p.ng p.rs) (fsArray p.ng p.nReg p.rs k' t.flux) (fsArray p.ng p.nReg p.rs 1 (flatStart m).flux) = some 0 → ∃ s, Converged p m nAng n k' s

/-- The cross section of scattering from the first to the second group. -/
noncomputable def stallC : ℝ := 4 / (5 + Real.exp (-2))

theorem stallC_pos : 0 < stallC := div_pos (by norm_num) (by have := Real.exp_pos (-2); linarith)

theorem stallC_le : stallC ≤ 4 / 5 := by
  unfold stallC
  have := Real.exp_pos (-2)
  exact div_le_div_of_nonneg_left (by norm_num) (by norm_num) (by linarith)

theorem stallC_gt : 2 / 3 < stallC := by
  unfold stallC
  have h := Real.exp_pos (-2)
  have h1 : Real.exp (-2) < 1 := Real.exp_lt_one_iff.2 (by norm_num)
  rw [lt_div_iff₀ (by linarith)]
  linarith

theorem stallC_inv : 1 / stallC = (5 + Real.exp (-2)) / 4 := by
  unfold stallC
  rw [one_div_div]

/-- Fission by the neutrons of the second group makes neutrons in the first. -/
noncomputable def stallMat : Mat ℝ :=
  { tr := fun _ => 2, nf := fun g => if g = 1 then 2 else 0, f := fun _ => 0, ch := fun g => if g = 0 then 1 else 0, sc := fun g h => if g = h then 1 else if g = 1 ∧ h = 0 then stallC else 0 }

noncomputable def stallProblem : Problem ℝ := ⟨2, 1, [⟨stallMat, [0]⟩], fun _ => 1⟩

/-- One ray of both directions, reflected at its ends. -/
noncomputable def stallMoc (gs : Bool) : MocSetup ℝ :=
  ⟨Real.exp, 12, gs, ⟨fun a b o a' j => if a' = 1 - a then o a j else b a' j, fun _ o a j => o (1 - a) j⟩, [⟨0, [⟨0, 1, 1, 6, [⟨[⟨0, 1⟩], 0, 0⟩]⟩]⟩], 1⟩

theorem stall_physical : Physical stallProblem where
  part := ⟨by simp [stallProblem], by simp [stallProblem]⟩
  cover := by simp [stallProblem]
  sc := by
    intro x hx g h _ _
    simp only [stallProblem, List.mem_singleton] at hx
    subst hx
    simp only [stallMat]
    split_ifs <;> first | exact stallC_pos.le | norm_num
  nf := by
    intro x hx g _
    simp only [stallProblem, List.mem_singleton] at hx
    subst hx
    simp only [stallMat]
    split_ifs <;> norm_num
  ch := by
    intro x hx g _
    simp only [stallProblem, List.mem_singleton] at hx
    subst hx
    simp only [stallMat]
    split_ifs <;> norm_num
  tr := by simp [stallProblem, stallMat]
  vol := by simp [stallProblem]

theorem stall_one : OneFissile stallProblem ⟨stallMat, [0]⟩ 0 where
  mem := by simp [stallProblem]
  reg := (by simp)
  only := by
    intro x hx i hi hne
    simp only [stallProblem, List.mem_singleton] at hx
    subst hx
    simp only [List.mem_singleton] at hi
    exact absurd hi hne

theorem stall_fed : ∃ g < stallProblem.ng, Fed stallMat g ∧ 0 < stallMat.nf g :=
  ⟨1, by simp [stallProblem], .slowed 0 1 (by omega) (.born 0 (by simp [stallMat])) (by simpa [stallMat] using stallC_pos), by simp [stallMat]⟩

theorem stall_drains (gs : Bool) : Drains 2 (fun _ => 1) (stallMoc gs).u := one_drains gs

theorem stall_boundOk (gs : Bool) : MocBoundOk stallProblem (stallMoc gs) 2 (fun _ => 1) where
  fpi := by simp [stallMoc]
  expo := (one_boundOk gs).expo
  planes := by
    intro w hw
    simp only [stallMoc, List.mem_singleton] at hw
    subst hw
    refine ⟨⟨?_, ?_⟩, ?_⟩
    · intro w hw
      simp only [List.mem_singleton] at hw
      subst hw
      refine ⟨?_, by simp, by simp, rfl⟩
      constructor <;> simp [stallProblem]
    · intro a ha
      interval_cases a <;> simp
    · intro w hw
      simp only [List.mem_singleton] at hw
      subst hw
      simp
  update := (one_boundOk gs).update
  volume := by
    intro i hi
    have h2 : i = 0 := by
      have : i < 1 := hi
      omega
    subst h2
    simp [stallMoc, stallProblem, Moc.planeVolume, Moc.angleVolume, Moc.tracked]
    norm_num
  linear := (one_boundOk gs).linear
  below := (one_drains gs).below
  inner := by simp [stallMoc]

theorem stall_above (gs : Bool) : AboveTangent (stallMoc gs).expo := by
  intro x hx
  show 1 + x < Real.exp x
  linarith [Real.add_one_lt_exp hx.ne]

theorem stall_tr (g i : Nat) (hi : i = 0) : trOf stallProblem.rs g i = 2 := by
  subst hi
  simp [trOf, stallProblem, stallMat, Source.setTo]

theorem stall_subcritical (gs : Bool) : Subcritical stallProblem (stallMoc gs) 2 (fun _ => 1) (fun _ => 1) (9 / 10) (Real.exp (-2)) where
  phi := fun _ _ => one_pos
  rho := by norm_num
  eta := ⟨Real.exp_nonneg _, Real.exp_lt_one_iff.2 (by norm_num)⟩
  scatter := by
    intro z hz g hg
    simp only [stallProblem, List.mem_singleton] at hz
    subst hz
    have hg : g < 2 := hg
    interval_cases g
    · simp [stallProblem, stallMat, Finset.sum_range_succ]; norm_num
    · simp [stallProblem, stallMat, Finset.sum_range_succ]; linarith [stallC_le]
  drains := one_drains gs
  rays := by
    intro g hg w hw
    simp only [stallMoc, List.mem_singleton] at hw
    subst hw
    intro w hw r hr
    simp only [List.mem_singleton] at hw
    subst hw
    simp only [List.mem_singleton] at hr
    subst hr
    simp [stallMoc, stall_tr]

/-- The solution, with eigenvalue `2 * stallC`. -/
noncomputable def stallFlat : MocState ℝ := ⟨fun _ g => if g = 0 then 1 / stallC else 1, fun _ => 0, fun g => [fun _ _ => (if g = 0 then 1 / stallC else 1) / 12], [fun _ _ => 0]⟩

theorem stall_converged (gs : Bool) : Converged stallProblem (stallMoc gs) 2 (fun _ => 1) (2 * stallC) stallFlat := by
  have hinf : Infinite stallProblem (2 * stallC) fun g => if g = 0 then 1 / stallC else 1 := by
    refine ⟨stall_physical.part, stall_physical.cover, stall_physical.sc, (mul_pos two_pos stallC_pos).ne', by simp [stallProblem, stallMat], ?_⟩
    intro x hx g hg
    simp only [stallProblem, List.mem_singleton] at hx
    subst hx
    have hg : g < 2 := hg
    interval_cases g
    · have := stallC_pos.ne'
      simp [stallProblem, stallMat, Finset.sum_range_succ]; field_simp; norm_num
    · have := stallC_pos.ne'
      simp [stallProblem, stallMat, Finset.sum_range_succ]; field_simp; norm_num
  have hok : MocOk stallProblem (stallMoc gs) 2 fun _ => 1 := by
    refine ⟨(stall_boundOk gs).fpi.ne', fun w hw => ((stall_boundOk gs).planes w hw).1, ?_, ?_⟩
    · intro c a ha b o hb ho a' ha' j hj
      simp only [stallMoc]
      split
      · exact ho j hj
      · exact hb a' ha' j hj
    · intro c b o hb ho a ha j hj
      exact ho (1 - a) (by omega) j hj
  obtain ⟨t, h1, h2⟩ := C108_moc stallProblem (2 * stallC) _ hinf (by rw [one_total _ stall_physical stall_one]; simp [stallProblem, stallMat, Finset.sum_range_succ]) (stallMoc gs) 2 (fun _ => 1) hok 1
    stallFlat ⟨fun _ _ _ _ => rfl, fun _ _ => rfl, rfl, fun g hg b hb => by
      simp only [stallFlat, List.mem_singleton] at hb
      subst hb
      intro a ha j hj
      simp [stallMoc]⟩
  refine ⟨(mul_pos two_pos stallC_pos).ne', ⟨fun _ => rfl, rfl⟩, by rw [one_total _ stall_physical stall_one]; simp [stallProblem, stallMat, stallFlat, Finset.sum_range_succ], 2 * stallC, t, ?_, fun i hi g hg => h2.flux i hi g hg,
    fun g hg z hz a ha j hj => ?_⟩
  · simp only [outers] at h1
    cases h : outer stallProblem (mocSweeper stallProblem (stallMoc gs)) (2 * stallC) stallFlat with
    | none => rw [h] at h1; simp at h1
    | some r =>
      rw [h] at h1
      simpa [outers] using h1
  · have := (mem_incoming t g _ (h2.nin g hg) _).mp (h2.bin g hg) z hz a ha j hj
    rw [this]
    have hz0 : z = 0 := by
      have : z < 1 := hz
      omega
    subst hz0
    simp [stallMoc, incoming, stallFlat]

theorem stall_inner (gs : Bool) (g : Nat) (hg : g < 2) (src : Nat → ℝ) (s : MocState ℝ) (c : ℝ) (b : Nat → Nat → ℝ) (hb : s.bin g = [fun _ _ => c]) (ho : s.bout = [b]) :
    (mocSweep stallProblem (stallMoc gs) g src s).flux 0 g = 6 * (1 - Real.exp (-2)) * (c - (src 0 + s.flux 0 g) / 24) + (src 0 + s.flux 0 g) / 2 ∧
      (∀ h, h ≠ g → (mocSweep stallProblem (stallMoc gs) g src s).flux 0 h = s.flux 0 h ∧ (mocSweep stallProblem (stallMoc gs) g src s).bin h = s.bin h) ∧
      ∃ b', (mocSweep stallProblem (stallMoc gs) g src s).bout = [b'] := by
  have hq : selfScatter (stallMoc gs).fpi stallProblem.ng stallProblem.rs s.flux g src true s.q 0 = (src 0 + s.flux 0 g) / 24 := by
    rw [selfScatter_at _ _ _ stall_physical.part s.flux g (show g < stallProblem.ng from hg) src true s.q ⟨stallMat, [0]⟩ (by simp [stallProblem]) 0 (by simp), if_pos rfl]
    simp [stallMat, stallMoc]
    ring
  have e : mocSweep stallProblem (stallMoc gs) g src s = mocInner stallProblem (stallMoc gs) g src s := rfl
  rw [e]
  refine ⟨?_, fun h hne => ⟨?_, ?_⟩, ?_⟩
  · simp only [mocInner, if_pos, hb, ho]
    generalize hQ : selfScatter (stallMoc gs).fpi stallProblem.ng stallProblem.rs s.flux g src true s.q = Q at hq ⊢
    simp [stallMoc, Moc.sweep1g, Moc.sweepPlanes, Moc.sweepPlane, Moc.sweepAngle, Moc.sweepRay, Moc.walk, Moc.finish, Moc.upd, Moc.eTau, stall_tr, hq]
    simp [stallProblem]
    ring
  · simp [mocInner, hne]
  · simp [mocInner, hne]
  · simp [mocInner, hb, ho, stallMoc, Moc.sweep1g, Moc.sweepPlanes]

theorem stall_fission (flux : Nat → Nat → ℝ) : totalFission stallProblem.ng stallProblem.rs stallProblem.vol flux = 2 * flux 0 1 := by
  rw [one_total _ stall_physical stall_one]
  simp [stallProblem, stallMat, Finset.sum_range_succ]

/-- The first iteration of the calculation: the flux of the second group, and with it the eigenvalue, is what it was. -/
theorem stall_first (gs : Bool) : ∃ t, outer stallProblem (mocSweeper stallProblem (stallMoc gs)) 1 (flatStart (stallMoc gs)) = some (1, t) ∧ t.flux 0 1 = 1 := by
  set s := flatStart (stallMoc gs) with hs
  have hfs : calcFissionSource stallProblem.ng stallProblem.rs 1 s.flux 0 = 2 := by
    rw [one_source _ stall_physical stall_one]
    simp only [if_true]
    rw [stall_fission]
    simp [stallProblem, hs, flatStart]
  generalize hF : calcFissionSource stallProblem.ng stallProblem.rs 1 s.flux = fs at hfs
  obtain ⟨src0, a0, b0⟩ := C28_assemble_partial stallProblem.ng stallProblem.nReg stallProblem.rs fs s.flux 0 stall_physical.part stall_physical.sc (by simp [stallProblem])
  have v0 : src0 0 = 2 := by
    rw [b0 ⟨stallMat, [0]⟩ (by simp [stallProblem]) 0 (by simp), defined, hfs]
    simp [stallProblem, stallMat, Finset.sum_range_succ]
  obtain ⟨f0, o0, b', hb'⟩ := stall_inner gs 0 (by omega) src0 s (1 / 12) (fun _ _ => 0) (by simp [hs, flatStart, stallMoc]) (by simp [hs, flatStart, stallMoc])
  set s1 := mocSweep stallProblem (stallMoc gs) 0 src0 s with hs1
  have g0 : s1.flux 0 0 = 1 / stallC := by
    rw [f0, v0, stallC_inv]
    simp only [hs, flatStart]
    ring
  have g1 : s1.flux 0 1 = 1 := by
    rw [(o0 1 (by omega)).1]
    simp [hs, flatStart]
  obtain ⟨src1, a1, b1⟩ := C28_assemble_partial stallProblem.ng stallProblem.nReg stallProblem.rs fs s1.flux 1 stall_physical.part stall_physical.sc (by simp [stallProblem])
  have v1 : src1 0 = 1 := by
    rw [b1 ⟨stallMat, [0]⟩ (by simp [stallProblem]) 0 (by simp), defined]
    simp [stallProblem, stallMat, Finset.sum_range_succ, g0, stallC_pos.ne']
  obtain ⟨f1, -, -⟩ := stall_inner gs 1 (by omega) src1 s1 (1 / 12) b' (by rw [(o0 1 (by omega)).2]; simp [hs, flatStart, stallMoc]) hb'
  set s2 := mocSweep stallProblem (stallMoc gs) 1 src1 s1 with hs2
  have h2 : s2.flux 0 1 = 1 := by
    rw [f1, v1, g1]
    norm_num
  have hloop : groupLoop stallProblem (mocSweeper stallProblem (stallMoc gs)) fs stallProblem.ng 0 s = some s2 := by
    show groupLoop stallProblem (mocSweeper stallProblem (stallMoc gs)) fs 2 0 s = some s2
    simp only [groupLoop]
    rw [show (mocSweeper stallProblem (stallMoc gs)).flux s = s.flux from rfl, a0, Option.bind_some]
    rw [show (mocSweeper stallProblem (stallMoc gs)).sweep 0 src0 s = s1 from rfl, show (mocSweeper stallProblem (stallMoc gs)).flux s1 = s1.flux from rfl, a1, Option.bind_some]
    rfl
  refine ⟨s2, ?_, h2⟩
  unfold outer
  rw [show (mocSweeper stallProblem (stallMoc gs)).flux s = s.flux from rfl, hF]
  rw [hloop, Option.map_some]
  rw [show (mocSweeper stallProblem (stallMoc gs)).flux s2 = s2.flux from rfl]
  rw [stall_fission, stall_fission, h2]
  simp [hs, flatStart]

theorem C154_claim_false : ¬ C154_claim := by
  intro hc
  obtain ⟨t, h1, h2⟩ := stall_first false
  have f0 : totalFission stallProblem.ng stallProblem.rs stallProblem.vol (flatStart (stallMoc false)).flux ≠ 0 := by
    rw [stall_fission]
    simp [flatStart]
  have f1 : totalFission stallProblem.ng stallProblem.rs stallProblem.vol t.flux ≠ 0 := by
    rw [stall_fission, h2]
    norm_num
  have he := C154_error stallProblem stall_physical _ 0 stall_one (mocSweeper stallProblem (stallMoc false)) 1 one_ne_zero (flatStart (stallMoc false)) f0 1 t h1 f1
  obtain ⟨s, hs⟩ := hc stallProblem stall_physical _ 0 stall_one stall_fed (stallMoc false) 2 (fun _ => 1) (stall_boundOk false) (stall_above false) _ _ _ (stall_subcritical false) 1 t h1 (by simp) he
  have := (C154_unique stallProblem stall_physical _ 0 stall_one (stallMoc false) 2 (fun _ => 1) (stall_boundOk false) _ _ _ (stall_subcritical false) _ _ _ _ hs (stall_converged false)).1
  linarith [stallC_gt]

/-- In the same problem, from the same start, the eigenvalue tends to `2 * stallC`, more than 4 / 3, though it is 1 after the first iteration. -/
example (gs : Bool) : ∃ c, ∀ N, ∃ k' t, outers stallProblem (mocSweeper stallProblem (stallMoc gs)) N 1 (flatStart (stallMoc gs)) = some (k', t) ∧ 0 < k' ∧
    |k' - 2 * stallC| ≤ c * (9 / 10 + (1 - 9 / 10) * Real.exp (-2)) ^ (N / 2) := by
  obtain ⟨k, s, -, -, hc, hall⟩ := C154_converges stallProblem stall_physical _ 0 stall_one stall_fed (stallMoc gs) 2 (fun _ => 1) (stall_boundOk gs) (stall_above gs) _ _ _ (stall_subcritical gs)
  have hk := (C154_unique stallProblem stall_physical _ 0 stall_one (stallMoc gs) 2 (fun _ => 1) (stall_boundOk gs) _ _ _ (stall_subcritical gs) _ _ _ _ hc (stall_converged gs)).1
  obtain ⟨c, hN⟩ := hall 1 (flatStart (stallMoc gs)) one_pos ⟨fun _ => by simp [flatStart, stallMoc], by simp [flatStart, stallMoc]⟩
    ⟨fun _ _ _ _ => by simp [flatStart], fun _ _ => by simp [flatStart], by simp [flatStart], fun g _ b hb => by
      simp only [flatStart, stallMoc, List.length_singleton, List.replicate_one, List.mem_singleton] at hb
      subst hb
      intro a ha j hj
      norm_num⟩ (by rw [stall_fission]; simp [flatStart])
  refine ⟨c, fun N => ?_⟩
  obtain ⟨k', t, e, p1, -, b, -⟩ := hN N
  refine ⟨k', t, e, p1, ?_⟩
  rw [hk] at b
  exact b

/-- The fission source of the first iteration, for the sweeps of the method of characteristics with any boundary treatment. -/
example (gs : Bool) : ∃ t, outers stallProblem (mocSweeper stallProblem (stallMoc gs)) 1 1 (flatStart (stallMoc gs)) = some (1, t) ∧
    calcFissionSource 2 stallProblem.rs 1 t.flux = calcFissionSource 2 stallProblem.rs 1 (flatStart (stallMoc gs)).flux := by
  obtain ⟨t, h1, h2⟩ := stall_first gs
  have e1 : outers stallProblem (mocSweeper stallProblem (stallMoc gs)) 1 1 (flatStart (stallMoc gs)) = some (1, t) := by
    simp [outers, h1]
  obtain ⟨k', s', e, -, hfs⟩ := C154_constant stallProblem stall_physical _ 0 stall_one (mocSweeper stallProblem (stallMoc gs)) 1 1 one_ne_zero (flatStart (stallMoc gs)) (by
    intro m hm k' s' e
    show totalFission stallProblem.ng stallProblem.rs stallProblem.vol s'.flux ≠ 0
    rw [stall_fission]
    interval_cases m
    · simp only [outers, Option.some.injEq, Prod.mk.injEq] at e
      rw [← e.2]
      simp [flatStart]
    · rw [e1] at e
      simp only [Option.some.injEq, Prod.mk.injEq] at e
      rw [← e.2, h2]
      norm_num)
  rw [e1] at e
  simp only [Option.some.injEq, Prod.mk.injEq] at e
  refine ⟨t, e1, ?_⟩
  rw [← e.1, ← e.2] at hfs
  exact hfs

end Verif.Medium
