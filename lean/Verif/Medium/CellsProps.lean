import Verif.Medium.StackProps

/-!
# C162: results depend on the cross sections of each region only
-/

set_option linter.unusedSectionVars false

namespace Verif.Medium

open Finset Verif.XS Verif.Source Verif.Scatter

section
variable {K : Type} [Field K] [LinearOrder K] [IsStrictOrderedRing K]

/-- Alike in all that transport uses: nothing is said of the fission cross section and of groups that do not exist. -/
def SameMat (ng : Nat) (a b : Mat K) : Prop := ∀ g < ng, a.tr g = b.tr g ∧ a.nf g = b.nf g ∧ a.ch g = b.ch g ∧ ∀ h < ng, a.sc g h = b.sc g h

/-- The same core with its regions divided among materials in two ways. -/
structure SameCells (p P : Problem K) : Prop where
  ng : P.ng = p.ng
  nReg : P.nReg = p.nReg
  vol : P.vol = p.vol
  part : Partition p.rs
  part' : Partition P.rs
  cover : ∀ i, i < p.nReg ↔ ∃ x ∈ p.rs, i ∈ x.regs
  cover' : ∀ i, i < P.nReg ↔ ∃ x ∈ P.rs, i ∈ x.regs
  nonneg : ∀ x ∈ p.rs, Source.NonNeg p.ng x.mat
  mat : ∀ x ∈ p.rs, ∀ x' ∈ P.rs, ∀ i, i ∈ x.regs → i ∈ x'.regs → SameMat p.ng x'.mat x.mat

/-- A loop over the materials leaves what is in no region. -/
theorem loop_out (rs : List (XsRegion (Mat K))) (f : (Nat → K) → XsRegion (Mat K) → Nat → K) (i : Nat) (hi : ∀ x ∈ rs, i ∉ x.regs) (hf : ∀ x a, i ∉ x.regs → f a x i = a i) (a : Nat → K) :
    rs.foldl f a i = a i := by
  induction rs generalizing a with
  | nil => rfl
  | cons x rs ih =>
    rw [List.foldl_cons, ih fun y hy => hi y (List.mem_cons_of_mem _ hy)]
    exact hf x a (hi x List.mem_cons_self)

variable {p P : Problem K}

theorem cells_both (h : SameCells p P) (F G : Nat → K)
    (hin : ∀ i < p.nReg, ∀ x ∈ p.rs, ∀ x' ∈ P.rs, i ∈ x.regs → i ∈ x'.regs → SameMat p.ng x'.mat x.mat → F i = G i)
    (hout : ∀ i, (∀ x ∈ p.rs, i ∉ x.regs) → (∀ x ∈ P.rs, i ∉ x.regs) → F i = G i) : F = G := by
  funext i
  by_cases hi : i < p.nReg
  · obtain ⟨x, hx, hxi⟩ := (h.cover i).mp hi
    obtain ⟨x', hx', hxi'⟩ := (h.cover' i).mp (h.nReg ▸ hi)
    exact hin i hi x hx x' hx' hxi hxi' (h.mat x hx x' hx' i hxi hxi')
  · exact hout i (fun x hx e => hi ((h.cover i).mpr ⟨x, hx, e⟩)) fun x hx e => hi (h.nReg ▸ (h.cover' i).mpr ⟨x, hx, e⟩)

/-- C162: the transport cross sections by region. -/
theorem C162_tr (h : SameCells p P) (g : Nat) (hg : g < p.ng) : trOf P.rs g = trOf p.rs g := by
  refine cells_both h _ _ (fun i _ x hx x' hx' hi hi' hm => ?_) fun i ho ho' => ?_
  · rw [trOf_at P.rs h.part' g x' hx' i hi', trOf_at p.rs h.part g x hx i hi, (hm g hg).1]
  · unfold trOf
    rw [loop_out _ _ i ho' fun x a hx => by rw [setTo_eq, if_neg hx], loop_out _ _ i ho fun x a hx => by rw [setTo_eq, if_neg hx]]

/-- C162: the source of a sweep. -/
theorem C162_self (h : SameCells p P) (fpi : K) (flux : Nat → Nat → K) (g : Nat) (hg : g < p.ng) (src : Nat → K) (given : Bool) (q : Nat → K) :
    selfScatter fpi P.ng P.rs flux g src given q = selfScatter fpi p.ng p.rs flux g src given q := by
  refine cells_both h _ _ (fun i _ x hx x' hx' hi hi' hm => ?_) fun i ho ho' => ?_
  · rw [selfScatter_at fpi P.ng _ h.part' flux g (h.ng ▸ hg) src given q x' hx' i hi', selfScatter_at fpi p.ng _ h.part flux g hg src given q x hx i hi, (hm g hg).1, (hm g hg).2.2.2 g hg]
  · unfold selfScatter
    split_ifs
    · exact (loop_out _ _ i ho' (fun x a hx => by simp only [setTo_eq, if_neg hx]) q).trans (loop_out _ _ i ho (fun x a hx => by simp only [setTo_eq, if_neg hx]) q).symm
    · exact (loop_out _ _ i ho' (fun x a hx => by simp only [setTo_eq, if_neg hx]) q).trans (loop_out _ _ i ho (fun x a hx => by simp only [setTo_eq, if_neg hx]) q).symm

/-- C162: the source of scattering from other groups. -/
theorem C162_in (h : SameCells p P) (flux : Nat → Nat → K) (g : Nat) (hg : g < p.ng) (a : Nat → K) : inScatter P.ng P.rs flux g a = inScatter p.ng p.rs flux g a := by
  refine cells_both h _ _ (fun i _ x hx x' hx' hi hi' hm => ?_) fun i ho ho' => ?_
  · rw [inScatter_at p.ng _ h.part flux g hg a x hx i hi (h.nonneg x hx),
      inScatter_at P.ng _ h.part' flux g (h.ng ▸ hg) a x' hx' i hi' (by rw [h.ng]; exact fun b c hb hc => by rw [(hm b hb).2.2.2 c hc]; exact h.nonneg x hx b c hb hc), h.ng]
    congr 1
    exact sum_congr rfl fun b hb => by rw [(hm g hg).2.2.2 b (mem_range.mp hb)]
  · have key : ∀ (ng : Nat) (x : XsRegion (Mat K)) (a : Nat → K), i ∉ x.regs →
        (if x.regs.length = 0 then a
          else
            let m := build ng x.mat.sc
            match m.rows[g]? with
            | none => a
            | some row => (groups row.minG row.maxG).foldl (fun a b => if b ≠ g then addTo x.regs (fun i => (m.get g b).getD 0 * flux i b) a else a) a) i = a i := by
      intro ng x a hx
      split_ifs
      · rfl
      · simp only
        cases (build ng x.mat.sc).rows[g]? with
        | none => rfl
        | some row =>
          simp only
          generalize groups row.minG row.maxG = l
          induction l generalizing a with
          | nil => rfl
          | cons b l ih =>
            rw [List.foldl_cons, ih]
            split_ifs
            · exact addTo_not_mem _ _ _ _ hx
            · rfl
    unfold inScatter
    exact (loop_out _ _ i ho' (fun x a hx => key P.ng x a hx) a).trans (loop_out _ _ i ho (fun x a hx => key p.ng x a hx) a).symm

/-- C162: the fission source. -/
theorem C162_fission_source (h : SameCells p P) (k : K) (flux : Nat → Nat → K) : calcFissionSource P.ng P.rs k flux = calcFissionSource p.ng p.rs k flux := by
  refine cells_both h _ _ (fun i _ x hx x' hx' hi hi' hm => ?_) fun i ho ho' => ?_
  · rw [C47_fission_source _ _ h.part' k _ x' hx' i hi', C47_fission_source _ _ h.part k _ x hx i hi, h.ng]
    congr 1
    exact sum_congr rfl fun g hg => by rw [(hm g (mem_range.mp hg)).2.1]
  · have key : ∀ (l : List Nat) (x : XsRegion (Mat K)) (a : Nat → K), i ∉ x.regs → l.foldl (fun a ig => addTo x.regs (fun i => 1 / k * x.mat.nf ig * flux i ig) a) a i = a i := by
      intro l x a hx
      induction l generalizing a with
      | nil => rfl
      | cons b l ih => rw [List.foldl_cons, ih, addTo_not_mem _ _ _ _ hx]
    unfold calcFissionSource
    exact (loop_out _ _ i ho' (fun x a hx => key (List.range P.ng) x a hx) fun _ => 0).trans (loop_out _ _ i ho (fun x a hx => key (List.range p.ng) x a hx) fun _ => 0).symm

/-- C162: its part in a group. -/
theorem C162_fission (h : SameCells p P) (fs : Nat → K) (g : Nat) (hg : g < p.ng) (a : Nat → K) : fission P.rs fs g a = fission p.rs fs g a := by
  refine cells_both h _ _ (fun i _ x hx x' hx' hi hi' hm => ?_) fun i ho ho' => ?_
  · rw [fission_at _ h.part' fs g a x' hx' i hi', fission_at _ h.part fs g a x hx i hi, (hm g hg).2.2.1]
  · unfold fission
    exact (loop_out _ _ i ho' (fun x a hx => addTo_not_mem _ _ _ _ hx) a).trans (loop_out _ _ i ho (fun x a hx => addTo_not_mem _ _ _ _ hx) a).symm

/-- C162: the total of fission. -/
theorem C162_production (h : SameCells p P) (flux : Nat → Nat → K) : totalFission P.ng P.rs P.vol flux = totalFission p.ng p.rs p.vol flux := by
  rw [production_regions p h.part h.cover, production_regions P h.part' h.cover', h.nReg]
  refine sum_congr rfl fun i hi => ?_
  have hi := mem_range.mp hi
  obtain ⟨x, hx, hxi⟩ := (h.cover i).mp hi
  obtain ⟨x', hx', hxi'⟩ := (h.cover' i).mp (h.nReg ▸ hi)
  rw [only_one p.rs h.part.2 i (fun x => p.vol i * ∑ g ∈ range p.ng, x.mat.nf g * flux i g) x hx hxi,
    only_one P.rs h.part'.2 i (fun x => P.vol i * ∑ g ∈ range P.ng, x.mat.nf g * flux i g) x' hx' hxi', h.vol, h.ng]
  congr 1
  exact sum_congr rfl fun g hg => by rw [(h.mat x hx x' hx' i hxi hxi' g (mem_range.mp hg)).2.1]

/-- C162: the groups in turn, with any two sweepers that do the same. -/
theorem C162_groups {σ : Type} (h : SameCells p P) (v v' : Sweeper K σ) (hf : v'.flux = v.flux) (hv : ∀ g < p.ng, v'.sweep g = v.sweep g) (base base' : Nat → Nat → K)
    (hb : ∀ g < p.ng, base' g = base g) (n g : Nat) (hg : g + n ≤ p.ng) (s : σ) : srcLoop P v' base' n g s = srcLoop p v base n g s := by
  induction n generalizing g s with
  | zero => rfl
  | succ n ih => rw [srcLoop, srcLoop, ih (g + 1) (by omega), hf, hv g (by omega), hb g (by omega), C162_in h _ g (by omega)]

/-- C162: any number of outer iterations. -/
theorem C162_outers {σ : Type} (h : SameCells p P) (v v' : Sweeper K σ) (hf : v'.flux = v.flux) (hv : ∀ g < p.ng, v'.sweep g = v.sweep g) (n : Nat) (k : K) (s : σ) :
    outers P v' n k s = outers p v n k s := by
  have one : ∀ k s, outer P v' k s = outer p v k s := by
    intro k s
    rw [outer, outer, groupLoop_eq, groupLoop_eq, C162_production h, Option.map_some, Option.map_some, C162_production h, C162_fission_source h, h.ng, hf,
      C162_groups h v v' hf hv _ _ (fun g hg => C162_fission h _ g hg _) p.ng 0 (by omega)]
  induction n generalizing k s with
  | zero => rfl
  | succ n ih => rw [outers, outers, one]; exact congrArg _ (funext fun r => ih r.1 r.2)

/-- C162: any number of steps with an external source. -/
theorem C162_steps {σ : Type} (h : SameCells p P) (v v' : Sweeper K σ) (hf : v'.flux = v.flux) (hv : ∀ g < p.ng, v'.sweep g = v.sweep g) (ext : Option (Ext K)) (E : Nat → Nat → K)
    (hE : ∀ g < p.ng, initializeGroup p.nReg ext g = some (E g)) (n : Nat) (s : σ) : fixedSteps P v' ext n s = fixedSteps p v ext n s := by
  induction n generalizing s with
  | zero => rfl
  | succ n ih =>
    rw [fixedSteps, fixedSteps, extLoop_eq p _ ext E p.ng 0 fun g _ hg => hE g (by omega), h.ng, extLoop_eq P _ ext E p.ng 0 fun g _ hg => by rw [h.nReg]; exact hE g (by omega),
      C162_groups h v v' hf hv E E (fun _ _ => rfl) p.ng 0 (by omega)]
    exact ih _

/-- C162: a sweep of a group, MoC. -/
theorem C162_moc_group (h : SameCells p P) (m : MocSetup K) (g : Nat) (hg : g < p.ng) : (mocSweeper P m).sweep g = (mocSweeper p m).sweep g := by
  funext src s
  show mocSweep P m g src s = mocSweep p m g src s
  have one : ∀ s, mocInner P m g src s = mocInner p m g src s := by
    intro s
    simp only [mocInner, C162_self h m.fpi s.flux g hg src true s.q, C162_tr h g hg, h.vol]
  simp only [mocSweep, one]

/-- C162: a sweep of a group, Sn. -/
theorem C162_sn_group {κ : Type} (h : SameCells p P) (m : SnSetup κ K) (g : Nat) (hg : g < p.ng) : (snSweeper P m).sweep g = (snSweeper p m).sweep g := by
  funext src s
  show snSweep P m g src s = snSweep p m g src s
  have one : ∀ s, snInner P m g src s = snInner p m g src s := by
    intro s
    simp only [snInner, C162_self h m.fpi s.flux g hg src false s.q, C162_tr h g hg]
  simp only [snSweep, one]

/-- C162: MoC, eigenvalue calculation: the same eigenvalues, fluxes and boundary values. -/
theorem C162_moc (h : SameCells p P) (m : MocSetup K) (n : Nat) (k : K) (s : MocState K) : outers P (mocSweeper P m) n k s = outers p (mocSweeper p m) n k s :=
  C162_outers h (mocSweeper p m) (mocSweeper P m) rfl (fun g hg => C162_moc_group h m g hg) n k s

/-- C162: Sn, eigenvalue calculation. -/
theorem C162_sn {κ : Type} (h : SameCells p P) (m : SnSetup κ K) (n : Nat) (k : K) (s : SnState κ K) : outers P (snSweeper P m) n k s = outers p (snSweeper p m) n k s :=
  C162_outers h (snSweeper p m) (snSweeper P m) rfl (fun g hg => C162_sn_group h m g hg) n k s

/-- C162: with an external source. -/
theorem C162_fixed {κ : Type} (h : SameCells p P) (m : MocSetup K) (m' : SnSetup κ K) (ext : Option (Ext K)) (E : Nat → Nat → K) (hE : ∀ g < p.ng, initializeGroup p.nReg ext g = some (E g))
    (n : Nat) : (∀ s, fixedSteps P (mocSweeper P m) ext n s = fixedSteps p (mocSweeper p m) ext n s) ∧ ∀ s, fixedSteps P (snSweeper P m') ext n s = fixedSteps p (snSweeper p m') ext n s :=
  ⟨fun s => C162_steps h (mocSweeper p m) (mocSweeper P m) rfl (fun g hg => C162_moc_group h m g hg) ext E hE n s, fun s => C162_steps h (snSweeper p m') (snSweeper P m') rfl (fun g hg => C162_sn_group h m' g hg) ext E hE n s⟩

/-! ### Ways to divide the regions -/

variable (p)

theorem same_region {l : List (XsRegion (Mat K))} (hl : l.Pairwise fun x y => ∀ i, i ∈ x.regs → i ∉ y.regs) {x y : XsRegion (Mat K)} (hx : x ∈ l) (hy : y ∈ l) {i : Nat} (hi : i ∈ x.regs)
    (hj : i ∈ y.regs) : x = y := by
  induction l with
  | nil => simp at hx
  | cons z l ih =>
    rw [List.pairwise_cons] at hl
    rcases List.mem_cons.mp hx with e | hx' <;> rcases List.mem_cons.mp hy with e' | hy'
    · rw [e, e']
    · exact absurd hj (hl.1 y hy' i (e ▸ hi))
    · exact absurd hi (hl.1 x hx' i (e' ▸ hj))
    · exact ih hl.2 hx' hy'

theorem same_mat (ng : Nat) (a : Mat K) : SameMat ng a a := fun _ _ => ⟨rfl, rfl, rfl, fun _ _ => rfl⟩

/-- C162: the order of the materials. -/
theorem C162_order (part : Partition p.rs) (cover : ∀ i, i < p.nReg ↔ ∃ x ∈ p.rs, i ∈ x.regs) (nonneg : ∀ x ∈ p.rs, Source.NonNeg p.ng x.mat) (rs : List (XsRegion (Mat K))) (hrs : rs.Perm p.rs) :
    SameCells p { p with rs := rs } where
  ng := rfl
  nReg := rfl
  vol := rfl
  part := part
  part' := ⟨fun x hx => part.1 x (hrs.mem_iff.mp hx), part.2.perm hrs.symm fun {x y} hxy i hi hj => hxy i hj hi⟩
  cover := cover
  cover' := fun i => (cover i).trans ⟨fun ⟨x, hx, hi⟩ => ⟨x, hrs.mem_iff.mpr hx, hi⟩, fun ⟨x, hx, hi⟩ => ⟨x, hrs.mem_iff.mp hx, hi⟩⟩
  nonneg := nonneg
  mat := by
    intro x hx x' hx' i hi hi'
    have e : x' = x := same_region part.2 (hrs.mem_iff.mp hx') hx hi' hi
    rw [e]
    exact same_mat _ _

/-- C162: regions of one material under two names, the second with other fission cross sections; `b` may be empty (a material that is not used). -/
theorem C162_split (x : XsRegion (Mat K)) (l : List (XsRegion (Mat K))) (hrs : p.rs = x :: l) (part : Partition p.rs) (cover : ∀ i, i < p.nReg ↔ ∃ x ∈ p.rs, i ∈ x.regs)
    (nonneg : ∀ x ∈ p.rs, Source.NonNeg p.ng x.mat) (a b : List Nat) (hab : (a ++ b).Perm x.regs) (y : Mat K) (hy : SameMat p.ng y x.mat) :
    SameCells p { p with rs := ⟨x.mat, a⟩ :: ⟨y, b⟩ :: l } := by
  rw [hrs] at part cover nonneg
  have hn : (a ++ b).Nodup := hab.nodup_iff.mpr (part.1 x List.mem_cons_self)
  have hpw := List.pairwise_cons.mp part.2
  have ha : ∀ i ∈ a, i ∈ x.regs := fun i hi => hab.mem_iff.mp (List.mem_append_left _ hi)
  have hb : ∀ i ∈ b, i ∈ x.regs := fun i hi => hab.mem_iff.mp (List.mem_append_right _ hi)
  refine ⟨rfl, rfl, rfl, hrs ▸ part, ⟨?_, ?_⟩, hrs ▸ cover, fun i => (cover i).trans ?_, hrs ▸ nonneg, ?_⟩
  · intro z hz
    rcases List.mem_cons.mp hz with rfl | hz
    · exact (List.nodup_append.mp hn).1
    · rcases List.mem_cons.mp hz with rfl | hz
      · exact (List.nodup_append.mp hn).2.1
      · exact part.1 z (List.mem_cons_of_mem _ hz)
  · refine List.pairwise_cons.mpr ⟨fun z hz i hi hj => ?_, List.pairwise_cons.mpr ⟨fun z hz i hi => hpw.1 z hz i (hb i hi), hpw.2⟩⟩
    rcases List.mem_cons.mp hz with rfl | hz
    · exact (List.nodup_append.mp hn).2.2 i hi i hj rfl
    · exact hpw.1 z hz i (ha i hi) hj
  · constructor
    · rintro ⟨z, hz, hi⟩
      rcases List.mem_cons.mp hz with rfl | hz
      · rcases List.mem_append.mp (hab.mem_iff.mpr hi) with hi | hi
        · exact ⟨_, List.mem_cons_self, hi⟩
        · exact ⟨_, List.mem_cons_of_mem _ List.mem_cons_self, hi⟩
      · exact ⟨z, List.mem_cons_of_mem _ (List.mem_cons_of_mem _ hz), hi⟩
    · rintro ⟨z, hz, hi⟩
      rcases List.mem_cons.mp hz with rfl | hz
      · exact ⟨x, List.mem_cons_self, ha i hi⟩
      · rcases List.mem_cons.mp hz with rfl | hz
        · exact ⟨x, List.mem_cons_self, hb i hi⟩
        · exact ⟨z, List.mem_cons_of_mem _ hz, hi⟩
  · intro z hz z' hz' i hi hi'
    rw [hrs] at hz
    rcases List.mem_cons.mp hz' with rfl | hz'
    · rw [same_region part.2 hz List.mem_cons_self hi (ha i hi')]
      exact same_mat _ _
    · rcases List.mem_cons.mp hz' with rfl | hz'
      · rw [same_region part.2 hz List.mem_cons_self hi (hb i hi')]
        exact hy
      · rw [same_region part.2 hz (List.mem_cons_of_mem _ hz') hi hi']
        exact same_mat _ _

end

/-! ### Examples -/

/-- The tower of C161 with its fuel under two names, the second with other fission cross sections and other data for a group that does not exist. -/
def twinMat : Mat ℚ := { slowMat with f := fun _ => 4, tr := fun g => if g < 2 then slowMat.tr g else 9 }

theorem twin_cells : SameCells towerProblem { towerProblem with rs := [⟨slowMat, [4]⟩, ⟨twinMat, [2, 0]⟩, ⟨sinkMat, [1, 3, 5]⟩] } := by
  refine C162_split towerProblem ⟨slowMat, [0, 2, 4]⟩ [⟨sinkMat, [1, 3, 5]⟩] rfl (tower_stack.plane 0 (by decide)).part' tower_stack.cover' ?_ [4] [2, 0] (by decide) twinMat ?_
  · intro x hx
    rcases List.mem_cons.mp hx with rfl | hx
    · exact pair_nonneg ⟨slowMat, [0]⟩ List.mem_cons_self
    · rcases List.mem_cons.mp hx with rfl | hx
      · exact pair_nonneg ⟨sinkMat, [1]⟩ (List.mem_cons_of_mem _ List.mem_cons_self)
      · simp at hx
  · intro g hg
    have hg : g < 2 := hg
    exact ⟨if_pos hg, rfl, rfl, fun _ _ => rfl⟩

/-- The hypotheses of `C162_moc` hold. -/
example (t : Quad.Surface → BC.Boundary) (gs : Bool) (n : Nat) (k : ℚ) (s : MocState ℚ) :
    outers { towerProblem with rs := [⟨slowMat, [4]⟩, ⟨twinMat, [2, 0]⟩, ⟨sinkMat, [1, 3, 5]⟩] }
      (mocSweeper { towerProblem with rs := [⟨slowMat, [4]⟩, ⟨twinMat, [2, 0]⟩, ⟨sinkMat, [1, 3, 5]⟩] } (stacked 3 2 heights (alongMoc t gs alongPlane 3) alongPlane)) n k s =
    outers towerProblem (mocSweeper towerProblem (stacked 3 2 heights (alongMoc t gs alongPlane 3) alongPlane)) n k s :=
  C162_moc twin_cells _ n k s

/-- Another order. -/
example : SameCells pairProblem { pairProblem with rs := pairProblem.rs.reverse } := C162_order pairProblem pair_flip.part pair_flip.cover pair_nonneg _ (List.reverse_perm _)

/-- With another transport cross section the numbers are others. -/
example : ((outers { towerProblem with rs := [⟨slowMat, [4]⟩, ⟨{ twinMat with tr := fun _ => 3 }, [2, 0]⟩, ⟨sinkMat, [1, 3, 5]⟩] }
      (mocSweeper { towerProblem with rs := [⟨slowMat, [4]⟩, ⟨{ twinMat with tr := fun _ => 3 }, [2, 0]⟩, ⟨sinkMat, [1, 3, 5]⟩] }
        (stacked 3 2 heights (alongMoc pairStore.types true alongPlane 1) alongPlane)) 1 1 towerState).map fun r => r.1) ≠
    (outers towerProblem (mocSweeper towerProblem (stacked 3 2 heights (alongMoc pairStore.types true alongPlane 1) alongPlane)) 1 1 towerState).map fun r => r.1 := by
  decide +kernel

end Verif.Medium
