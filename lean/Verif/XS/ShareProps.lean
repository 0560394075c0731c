import Verif.XS.ShareModel
import Verif.XS.RegionProps
import Verif.XS.ExpandProps
import Mathlib.Tactic.NormNum
import Mathlib.Tactic.SplitIfs
import Mathlib.Data.Rat.Defs

/-!
# C149: cross sections of meshes that share their tables

The statements refer to the flux at the time of the latest update, which is found from the list of what happened (`last`) and not from the state of
the model.
-/

namespace Verif.XS.Share

open Verif.Scatter

section

variable {K : Type} [Field K] [LinearOrder K] [IsStrictOrderedRing K] {Φ : Type}

/-- The flux now, and the flux at the latest of the operations `p`, if there was any. -/
def track (p : Op Φ → Bool) (s : Φ × Option Φ) : Op Φ → Φ × Option Φ
  | .flux φ => (φ, s.2)
  | o => if p o then (s.1, some s.1) else s

/-- The flux after a history. -/
def now (φ₀ : Φ) (h : List (Op Φ)) : Φ := (h.foldl (track fun _ => false) (φ₀, none)).1

/-- The flux at the latest operation `p` of a history. -/
def last (p : Op Φ → Bool) (φ₀ : Φ) (h : List (Op Φ)) : Option Φ := (h.foldl (track p) (φ₀, none)).2

/-- Updates of the mesh of the sweeper, of the copy of CMFD, of any of them; updates without a flux do nothing. -/
def bySn (snFlux : Bool) : Op Φ → Bool
  | .sn => snFlux
  | _ => false

def byCmfd (cmFlux : Bool) : Op Φ → Bool
  | .cmfd => cmFlux
  | _ => false

def byAny (snFlux cmFlux : Bool) (o : Op Φ) : Bool := bySn snFlux o || byCmfd cmFlux o

/-- The data of region `i` for a flux; without one those of the constructor. -/
def given (data : Nat → Homog K) (hom : Φ → Nat → Homog K) : Option Φ → Nat → Homog K
  | none => data
  | some φ => hom φ

/-- The table holds the data `d` of all regions. -/
def TabIs (ng n : Nat) (t : Table K) (d : Nat → Homog K) : Prop :=
  ∀ i < n, ∀ g < ng, t.tr i g = (d i).tr g ∧ t.nf i g = (d i).nf g ∧ t.ch i g = (d i).ch g ∧ t.f i g = (d i).f g ∧
    t.rm i g = (d i).tr g - (d i).scat g g

theorem put_fields (ng : Nat) (s : Table K × View K) (i : Nat) (h : Homog K) :
    (put ng s i h).2.state = s.2.state ∧ (put ng s i h).2.hasFlux = s.2.hasFlux ∧
    (put ng s i h).2.scat = Function.update s.2.scat i (build ng h.scat) := ⟨rfl, rfl, rfl⟩

theorem put_same (ng : Nat) (s : Table K × View K) (i : Nat) (h : Homog K) (g : Nat) (hg : g < ng) :
    (put ng s i h).1.tr i g = h.tr g ∧ (put ng s i h).1.nf i g = h.nf g ∧ (put ng s i h).1.ch i g = h.ch g ∧
    (put ng s i h).1.f i g = h.f g ∧ (put ng s i h).1.rm i g = h.tr g - h.scat g g := by
  have e : (build ng h.scat).ng = ng := Region.build_ng ng h.scat
  have e2 := Region.self_build ng h.scat g hg
  refine ⟨?_, ?_, ?_, ?_, ?_⟩ <;> simp [put, store, Region.update, e, hg, e2]

theorem put_other (ng : Nat) (s : Table K × View K) (i j : Nat) (h : Homog K) (hj : j ≠ i) :
    (put ng s i h).1.tr j = s.1.tr j ∧ (put ng s i h).1.nf j = s.1.nf j ∧ (put ng s i h).1.ch j = s.1.ch j ∧
    (put ng s i h).1.f j = s.1.f j ∧ (put ng s i h).1.rm j = s.1.rm j := by
  refine ⟨?_, ?_, ?_, ?_, ?_⟩ <;> simp [put, store, Function.update_of_ne hj]

theorem putAll_spec (ng n : Nat) (d : Nat → Homog K) (s : Table K × View K) :
    TabIs ng n (putAll ng n d s).1 d ∧ (∀ i < n, (putAll ng n d s).2.scat i = build ng (d i).scat) ∧
    (putAll ng n d s).2.state = s.2.state ∧ (putAll ng n d s).2.hasFlux = s.2.hasFlux := by
  induction n with
  | zero => exact ⟨fun i hi => absurd hi (Nat.not_lt_zero i), fun i hi => absurd hi (Nat.not_lt_zero i), rfl, rfl⟩
  | succ n ih =>
    have e : putAll ng (n + 1) d s = put ng (putAll ng n d s) n (d n) := by
      simp only [putAll, List.range_succ, List.foldl_append, List.foldl_cons, List.foldl_nil]
    obtain ⟨h1, h2, h3, h4⟩ := ih
    rw [e]
    obtain ⟨f1, f2, f3⟩ := put_fields ng (putAll ng n d s) n (d n)
    refine ⟨fun i hi g hg => ?_, fun i hi => ?_, f1.trans h3, f2.trans h4⟩
    · rcases Nat.lt_succ_iff_lt_or_eq.mp hi with h | h
      · obtain ⟨a1, a2, a3, a4, a5⟩ := put_other ng (putAll ng n d s) n i (d n) (Nat.ne_of_lt h)
        rw [a1, a2, a3, a4, a5]
        exact h1 i h g hg
      · subst h
        exact put_same ng _ i (d i) g hg
    · rw [f3]
      rcases Nat.lt_succ_iff_lt_or_eq.mp hi with h | h
      · rw [Function.update_of_ne (Nat.ne_of_lt h)]
        exact h2 i h
      · subst h
        rw [Function.update_self]

/-- C149: a mesh with a flux has after `update` the data of that flux in every region and group, whatever was in the tables and in the matrices
before: the removal cross section belongs to its own matrix, and the counter has changed. -/
theorem C149_updated (ng n : Nat) (d : Nat → Homog K) (t : Table K) (v : View K) (hv : v.hasFlux = true) :
    TabIs ng n (update ng n d t v).1 d ∧ (∀ i < n, (update ng n d t v).2.scat i = build ng (d i).scat) ∧
    (update ng n d t v).2.state = v.state + 1 ∧ (update ng n d t v).2.hasFlux = true := by
  obtain ⟨h1, h2, h3, h4⟩ := putAll_spec ng n d (t, v)
  unfold update
  rw [if_pos hv]
  exact ⟨h1, h2, congrArg (· + 1) h3, h4.trans hv⟩

/-- C149: without a flux nothing is changed. -/
theorem C149_still (ng n : Nat) (d : Nat → Homog K) (t : Table K) (v : View K) (hv : v.hasFlux = false) :
    update ng n d t v = (t, v) := by
  unfold update
  rw [hv]
  rfl

/-! ## Histories -/

theorem track_fst (p q : Op Φ → Bool) (a b : Φ × Option Φ) (o : Op Φ) (h : a.1 = b.1) : (track p a o).1 = (track q b o).1 := by
  cases o with
  | flux φ => rfl
  | sn => simp only [track]; split_ifs <;> exact h
  | cmfd => simp only [track]; split_ifs <;> exact h
  | expand g => simp only [track]; split_ifs <;> exact h

theorem track_now (p : Op Φ → Bool) (φ₀ : Φ) (h : List (Op Φ)) : (h.foldl (track p) (φ₀, none)).1 = now φ₀ h := by
  unfold now
  have key : ∀ (a b : Φ × Option Φ), a.1 = b.1 → (h.foldl (track p) a).1 = (h.foldl (track fun _ => false) b).1 := by
    induction h with
    | nil => exact fun a b h => h
    | cons o l ih => exact fun a b h => ih _ _ (track_fst p _ a b o h)
  exact key _ _ rfl

theorem last_snoc (p : Op Φ → Bool) (φ₀ : Φ) (h : List (Op Φ)) (o : Op Φ) :
    last p φ₀ (h ++ [o]) = match o with
      | .flux _ => last p φ₀ h
      | o => if p o then some (now φ₀ h) else last p φ₀ h := by
  unfold last
  rw [List.foldl_append, List.foldl_cons, List.foldl_nil, ← track_now p φ₀ h]
  cases o with
  | flux φ => rfl
  | sn => simp only [track]; split_ifs <;> rfl
  | cmfd => simp only [track]; split_ifs <;> rfl
  | expand g => simp only [track]; split_ifs <;> rfl

theorem now_snoc (φ₀ : Φ) (h : List (Op Φ)) (o : Op Φ) :
    now φ₀ (h ++ [o]) = match o with
      | .flux φ => φ
      | _ => now φ₀ h := by
  unfold now
  rw [List.foldl_append, List.foldl_cons, List.foldl_nil]
  cases o <;> rfl

variable (ng n : Nat) (data : Nat → Homog K) (hom : Φ → Nat → Homog K) (cells : Nat → List Nat) (junk : Table K) (a : Nat → K)
  (snFlux cmFlux : Bool) (φ₀ : Φ)

/-- The state after a history. -/
def after (h : List (Op Φ)) : Sys K Φ := run ng n hom cells (start ng n data junk a snFlux cmFlux φ₀) h

theorem after_snoc (h : List (Op Φ)) (o : Op Φ) :
    after ng n data hom cells junk a snFlux cmFlux φ₀ (h ++ [o]) =
      step ng n hom cells (after ng n data hom cells junk a snFlux cmFlux φ₀ h) o := by
  simp only [after, run, List.foldl_append, List.foldl_cons, List.foldl_nil]

/-- Everything about the storage after a history. -/
structure Stored (h : List (Op Φ)) (s : Sys K Φ) : Prop where
  flux : s.flux = now φ₀ h
  snSet : s.sn.hasFlux = snFlux
  cmSet : s.cm.hasFlux = cmFlux
  tab : TabIs ng n s.tab (given data hom (last (byAny snFlux cmFlux) φ₀ h))
  sn : ∀ i < n, s.sn.scat i = build ng (given data hom (last (bySn snFlux) φ₀ h) i).scat
  cm : ∀ i < n, s.cm.scat i = build ng (given data hom (last (byCmfd cmFlux) φ₀ h) i).scat
  cache : s.e.meshState ≤ s.sn.state

theorem stored (h : List (Op Φ)) :
    Stored ng n data hom snFlux cmFlux φ₀ h (after ng n data hom cells junk a snFlux cmFlux φ₀ h) := by
  induction h using List.reverseRecOn with
  | nil =>
    obtain ⟨h1, h2, h3, -⟩ := putAll_spec ng n data
      (junk, { scat := fun _ => ⟨0, [], fun _ => 0, []⟩, state := 0, hasFlux := false })
    refine ⟨rfl, rfl, rfl, h1, h2, h2, ?_⟩
    change (-1 : Int) ≤ _
    simp only [after, run, List.foldl_nil, start]
    rw [h3]
    exact (by decide : (-1 : Int) ≤ 0)
  | append_singleton h o ih =>
    rw [after_snoc]
    generalize after ng n data hom cells junk a snFlux cmFlux φ₀ h = s at ih ⊢
    obtain ⟨i1, i2, i3, i4, i5, i6, i7⟩ := ih
    cases o with
    | flux φ =>
      refine ⟨?_, i2, i3, ?_, ?_, ?_, i7⟩
      · rw [now_snoc]; rfl
      · rw [last_snoc]; exact i4
      · rw [last_snoc]; exact i5
      · rw [last_snoc]; exact i6
    | sn =>
      cases hs : snFlux with
      | true =>
        subst hs
        obtain ⟨u1, u2, u3, u4⟩ := C149_updated ng n (hom s.flux) s.tab s.sn i2
        refine ⟨?_, u4, i3, ?_, ?_, ?_, ?_⟩
        · rw [now_snoc]; exact i1
        · rw [last_snoc]; simp only [byAny, bySn, byCmfd, Bool.or_false, if_true, given]; rw [← i1]; exact u1
        · rw [last_snoc]; simp only [bySn, if_true, given]; rw [← i1]; exact u2
        · rw [last_snoc]; exact i6
        · change s.e.meshState ≤ (update ng n (hom s.flux) s.tab s.sn).2.state
          rw [u3]; omega
      | false =>
        subst hs
        have e := C149_still ng n (hom s.flux) s.tab s.sn i2
        have e2 : step ng n hom cells s .sn = s := by simp only [step]; rw [e]
        rw [e2]
        refine ⟨?_, i2, i3, ?_, ?_, ?_, i7⟩
        · rw [now_snoc]; exact i1
        · rw [last_snoc]; exact i4
        · rw [last_snoc]; exact i5
        · rw [last_snoc]; exact i6
    | cmfd =>
      cases hs : cmFlux with
      | true =>
        subst hs
        obtain ⟨u1, u2, u3, u4⟩ := C149_updated ng n (hom s.flux) s.tab s.cm i3
        refine ⟨?_, i2, u4, ?_, ?_, ?_, i7⟩
        · rw [now_snoc]; exact i1
        · rw [last_snoc]; simp only [byAny, bySn, byCmfd, Bool.false_or, if_true, given]; rw [← i1]; exact u1
        · rw [last_snoc]; exact i5
        · rw [last_snoc]; simp only [byCmfd, if_true, given]; rw [← i1]; exact u2
      | false =>
        subst hs
        have e := C149_still ng n (hom s.flux) s.tab s.cm i3
        have e2 : step ng n hom cells s .cmfd = s := by simp only [step]; rw [e]
        rw [e2]
        refine ⟨?_, i2, i3, ?_, ?_, ?_, i7⟩
        · rw [now_snoc]; exact i1
        · rw [last_snoc]; exact i4
        · rw [last_snoc]; exact i5
        · rw [last_snoc]; exact i6
    | expand g =>
      refine ⟨?_, i2, i3, ?_, ?_, ?_, ?_⟩
      · rw [now_snoc]; exact i1
      · rw [last_snoc]; exact i4
      · rw [last_snoc]; exact i5
      · rw [last_snoc]; exact i6
      · simp only [step, World.expand]
        split_ifs with hc
        · exact le_refl _
        · exact i7

/-- C149: what both meshes read as transport, nu-fission, fission and removal cross sections and as spectrum is what was homogenised with the flux at
the latest update of any of them; before that what the constructor computed.  -/
theorem C149_tables (h : List (Op Φ)) (i : Nat) (hi : i < n) (g : Nat) (hg : g < ng) :
    let s := after ng n data hom cells junk a snFlux cmFlux φ₀ h
    let d := given data hom (last (byAny snFlux cmFlux) φ₀ h) i
    s.tab.tr i g = d.tr g ∧ s.tab.nf i g = d.nf g ∧ s.tab.ch i g = d.ch g ∧ s.tab.f i g = d.f g ∧
      s.tab.rm i g = d.tr g - d.scat g g :=
  (stored ng n data hom cells junk a snFlux cmFlux φ₀ h).tab i hi g hg

/-- C149: the scattering matrices of each mesh are those of the flux at its own latest update. -/
theorem C149_matrices (h : List (Op Φ)) (i : Nat) (hi : i < n) :
    let s := after ng n data hom cells junk a snFlux cmFlux φ₀ h
    s.sn.scat i = build ng (given data hom (last (bySn snFlux) φ₀ h) i).scat ∧
    s.cm.scat i = build ng (given data hom (last (byCmfd cmFlux) φ₀ h) i).scat :=
  ⟨(stored ng n data hom cells junk a snFlux cmFlux φ₀ h).sn i hi, (stored ng n data hom cells junk a snFlux cmFlux φ₀ h).cm i hi⟩

/-- C149: the removal cross section that is read through the mesh of the sweeper belongs to its matrix exactly if the fluxes of both updates give the
same self-scatter. -/
theorem C149_removal_iff (h : List (Op Φ)) (i : Nat) (hi : i < n) (g : Nat) (hg : g < ng) :
    let s := after ng n data hom cells junk a snFlux cmFlux φ₀ h
    s.tab.rm i g = s.tab.tr i g - ((s.sn.scat i).selfScat g).getD 0 ↔
      (given data hom (last (byAny snFlux cmFlux) φ₀ h) i).scat g g = (given data hom (last (bySn snFlux) φ₀ h) i).scat g g := by
  obtain ⟨h1, -, -, -, h5⟩ := C149_tables ng n data hom cells junk a snFlux cmFlux φ₀ h i hi g hg
  have h6 := (C149_matrices ng n data hom cells junk a snFlux cmFlux φ₀ h i hi).1
  dsimp only at h1 h5 h6 ⊢
  rw [h5, h1, h6, Region.self_build _ _ _ hg]
  exact sub_right_inj

/-- The cells of different regions are different. -/
def Apart (n : Nat) (cells : Nat → List Nat) : Prop := ∀ i < n, ∀ j < n, ∀ c, c ∈ cells i → c ∈ cells j → i = j

theorem write_map (l : List Nat) (t : Nat → Nat → K) (cells : Nat → List Nat) (g : Nat) (b : Nat → K) (i c : Nat)
    (hl : ∀ j ∈ l, c ∈ cells j → j = i) (hi : i ∈ l) (hc : c ∈ cells i) :
    writeAll (l.map fun i => ({ tr := t i, regs := cells i } : TrRegion K)) g (fun x _ => x) b c = t i g := by
  induction l using List.reverseRecOn with
  | nil => cases hi
  | append_singleton l j ih =>
    rw [List.map_append, writeAll, List.foldl_append]
    change ((cells j).foldl (fun a i => Function.update a i (t j g))
      (writeAll (l.map fun i => ({ tr := t i, regs := cells i } : TrRegion K)) g (fun x _ => x) b)) c = t i g
    rw [inner_write]
    split_ifs with h
    · rw [hl j (by simp) h]
    · apply ih (fun j hj => hl j (by simp [hj]))
      rcases List.mem_append.mp hi with h1 | h1
      · exact h1
      · rw [List.mem_singleton] at h1
        subst h1
        exact absurd hc h

/-- C149: at the beginning of every Sn sweep the expanded cross sections and the matrices are those of the present flux, whatever updates of the
mesh and of its copy and whatever expansions came before. -/
theorem C149_sweep (hap : Apart n cells) (h : List (Op Φ)) (g : Nat) (hg : g < ng) (i : Nat) (hi : i < n) (c : Nat) (hc : c ∈ cells i) :
    let s := after ng n data hom cells junk a true cmFlux φ₀ (h ++ snSweep g)
    s.e.xstr c = (hom (now φ₀ h) i).tr g ∧ s.sn.scat i = build ng (hom (now φ₀ h) i).scat ∧
      s.tab.rm i g = (hom (now φ₀ h) i).tr g - (hom (now φ₀ h) i).scat g g := by
  have e : h ++ snSweep (Φ := Φ) g = (h ++ [.sn]) ++ [.expand g] := by simp [snSweep]
  have hst := stored ng n data hom cells junk a true cmFlux φ₀ h
  have hst1 := stored ng n data hom cells junk a true cmFlux φ₀ (h ++ [.sn])
  intro s
  have es : s = step ng n hom cells (step ng n hom cells (after ng n data hom cells junk a true cmFlux φ₀ h) .sn) (.expand g) := by
    simp only [s]
    rw [e, after_snoc, after_snoc]
  rw [after_snoc] at hst1
  rw [es]
  generalize after ng n data hom cells junk a true cmFlux φ₀ h = w at hst hst1 ⊢
  have l1 : last (byAny true cmFlux) φ₀ (h ++ [.sn]) = some (now φ₀ h) := by rw [last_snoc]; simp [byAny, bySn]
  have l2 : last (bySn true) φ₀ (h ++ [.sn]) = some (now φ₀ h) := by rw [last_snoc]; simp [bySn]
  have t1 := hst1.tab i hi g hg
  have t2 := hst1.sn i hi
  rw [l1] at t1
  rw [l2] at t2
  have hstate : (step ng n hom cells w .sn).sn.state = w.sn.state + 1 := (C149_updated ng n (hom w.flux) w.tab w.sn hst.snSet).2.2.1
  have hcache : (step ng n hom cells w .sn).e = w.e := rfl
  have hle := hst.cache
  generalize step ng n hom cells w .sn = x at *
  refine ⟨?_, t2, t1.2.2.2.2⟩
  have hcond : (g : Int) ≠ x.e.group ∨ (trMesh n cells x.tab x.sn).state ≠ x.e.meshState := by
    right
    change x.sn.state ≠ x.e.meshState
    rw [hstate, hcache]
    omega
  simp only [step, World.expand]
  rw [if_pos hcond]
  change writeAll ((List.range n).map _) g (fun x _ => x) x.e.xstr c = _
  rw [write_map (List.range n) x.tab.tr cells g x.e.xstr i c
    (fun j hj hcj => hap j (List.mem_range.mp hj) i hi c hcj hc) (List.mem_range.mpr hi) hc]
  exact t1.1

theorem now_append (φ₀ : Φ) (h l : List (Op Φ)) : now φ₀ (h ++ l) = now (now φ₀ h) l := by
  induction l using List.reverseRecOn generalizing h with
  | nil => simp only [List.append_nil]; rfl
  | append_singleton l o ih =>
    rw [← List.append_assoc, now_snoc, now_snoc, ih]

/-- C149: the Sn sweep at the end of a sweep of the 2D3D sweeper has the cross sections of the flux that the MoC sweep left, or the Sn sweep of the V
cycle if there was no MoC sweep, or that of before. -/
theorem C149_group (hap : Apart n cells) (h : List (Op Φ)) (g : Nat) (hg : g < ng) (v : Option Φ) (moc : Option (Φ × Φ)) (i : Nat) (hi : i < n)
    (c : Nat) (hc : c ∈ cells i) :
    let s := after ng n data hom cells junk a true cmFlux φ₀ (h ++ sweepGroup g v moc)
    let φ := match moc with
      | some (_, ψ) => ψ
      | none => match v with
        | some ψ => ψ
        | none => now φ₀ h
    s.e.xstr c = (hom φ i).tr g ∧ s.sn.scat i = build ng (hom φ i).scat := by
  have key : ∀ l : List (Op Φ), sweepGroup g v moc = l ++ snSweep g →
      let s := after ng n data hom cells junk a true cmFlux φ₀ (h ++ sweepGroup g v moc)
      s.e.xstr c = (hom (now (now φ₀ h) l) i).tr g ∧ s.sn.scat i = build ng (hom (now (now φ₀ h) l) i).scat := by
    intro l e
    obtain ⟨h1, h2, -⟩ := C149_sweep ng n data hom cells junk a cmFlux φ₀ hap (h ++ l) g hg i hi c hc
    rw [now_append] at h1 h2
    dsimp only
    rw [e, ← List.append_assoc]
    exact ⟨h1, h2⟩
  rcases moc with _ | ⟨φ, ψ⟩ <;> rcases v with _ | χ
  · exact key [] rfl
  · exact key (snSweep g ++ [.flux χ]) (by simp [sweepGroup])
  · exact key (mocSweep g φ ψ) (by simp [sweepGroup])
  · exact key (snSweep g ++ [.flux χ] ++ mocSweep g φ ψ) (by simp [sweepGroup])

/-- C149: the correction factors are computed with the Sn cross sections of the flux before the last inner iteration of MoC, not with those of the flux
that comes out of it, which the Sn sweep uses (`C149_group`). -/
theorem C149_moc (hap : Apart n cells) (h : List (Op Φ)) (g : Nat) (hg : g < ng) (φ ψ : Φ) (i : Nat) (hi : i < n) (c : Nat) (hc : c ∈ cells i) :
    (after ng n data hom cells junk a true cmFlux φ₀ (h ++ mocSweep g φ ψ)).e.xstr c = (hom φ i).tr g := by
  have h1 := (C149_sweep ng n data hom cells junk a cmFlux φ₀ hap (h ++ [.flux φ]) g hg i hi c hc).1
  rw [now_append] at h1
  have e : h ++ mocSweep g φ ψ = (h ++ [.flux φ] ++ snSweep g) ++ [.flux ψ] := by simp [mocSweep, snSweep]
  rw [e, after_snoc]
  exact h1

/-- C149: after CMFD the fission source of the sweeper uses the cross sections of the flux that CMFD had, but its scattering source uses the matrices of
the latest update by the sweeper. -/
theorem C149_source (h : List (Op Φ)) (ψ : Φ) (i : Nat) (hi : i < n) (g : Nat) (hg : g < ng) :
    let s := after ng n data hom cells junk a snFlux true φ₀ (h ++ doCmfd ψ)
    s.tab.nf i g = (hom (now φ₀ h) i).nf g ∧ s.tab.ch i g = (hom (now φ₀ h) i).ch g ∧ s.cm.scat i = build ng (hom (now φ₀ h) i).scat ∧
      s.sn.scat i = build ng (given data hom (last (bySn snFlux) φ₀ h) i).scat := by
  have e : h ++ doCmfd ψ = (h ++ [.cmfd]) ++ [.flux ψ] := by simp [doCmfd]
  have hs := stored ng n data hom cells junk a snFlux true φ₀ (h ++ doCmfd ψ)
  have l1 : last (byAny snFlux true) φ₀ (h ++ doCmfd ψ) = some (now φ₀ h) := by
    rw [e, last_snoc, last_snoc]; simp [byAny, byCmfd]
  have l2 : last (bySn snFlux) φ₀ (h ++ doCmfd ψ) = last (bySn snFlux) φ₀ h := by
    rw [e, last_snoc, last_snoc]; simp [bySn]
  have l3 : last (byCmfd true) φ₀ (h ++ doCmfd ψ) = some (now φ₀ h) := by
    rw [e, last_snoc, last_snoc]; simp [byCmfd]
  have t := hs.tab i hi g hg
  have u := hs.sn i hi
  have w := hs.cm i hi
  rw [l1] at t
  rw [l2] at u
  rw [l3] at w
  exact ⟨t.2.1, t.2.2.1, w, u⟩

theorem last_of_data (p : Op Φ → Bool) (D : Nat → Homog K) (h : List (Op Φ)) (h0 : hom φ₀ = D) (hh : ∀ φ, Op.flux φ ∈ h → hom φ = D) :
    hom (now φ₀ h) = D ∧ ∀ φ, last p φ₀ h = some φ → hom φ = D := by
  induction h using List.reverseRecOn with
  | nil => exact ⟨h0, fun φ h => by cases h⟩
  | append_singleton h o ih =>
    obtain ⟨i1, i2⟩ := ih fun φ hφ => hh φ (List.mem_append_left _ hφ)
    rw [now_snoc, last_snoc]
    cases o with
    | flux φ => exact ⟨hh φ (by simp), i2⟩
    | sn => exact ⟨i1, fun φ e => by simp only at e; split_ifs at e <;> [(cases e; exact i1); exact i2 φ e]⟩
    | cmfd => exact ⟨i1, fun φ e => by simp only at e; split_ifs at e <;> [(cases e; exact i1); exact i2 φ e]⟩
    | expand g => exact ⟨i1, fun φ e => by simp only at e; split_ifs at e <;> [(cases e; exact i1); exact i2 φ e]⟩

/-- C149: if the flux no longer changes what is homogenised, then after the first update of the mesh of the sweeper all of the meshes agree with their
tables, at any time. -/
theorem C149_converged (D : Nat → Homog K) (h : List (Op Φ)) (h0 : hom φ₀ = D) (hh : ∀ φ, Op.flux φ ∈ h → hom φ = D)
    (hs : last (bySn snFlux) φ₀ h ≠ none) (i : Nat) (hi : i < n) (g : Nat) (hg : g < ng) :
    let s := after ng n data hom cells junk a snFlux cmFlux φ₀ h
    s.tab.tr i g = (D i).tr g ∧ s.sn.scat i = build ng (D i).scat ∧
      s.tab.rm i g = s.tab.tr i g - ((s.sn.scat i).selfScat g).getD 0 := by
  have ha : last (byAny snFlux cmFlux) φ₀ h ≠ none := by
    clear h0 hh
    induction h using List.reverseRecOn with
    | nil => exact hs
    | append_singleton h o ih =>
      rw [last_snoc] at hs ⊢
      cases o with
      | flux φ => exact ih hs
      | sn => cases snFlux <;> simp_all [byAny, bySn, byCmfd]
      | cmfd => cases cmFlux <;> simp_all [byAny, bySn, byCmfd]
      | expand g => simp_all [byAny, bySn, byCmfd]
  obtain ⟨φ, hφ⟩ := Option.ne_none_iff_exists'.mp hs
  obtain ⟨ψ, hψ⟩ := Option.ne_none_iff_exists'.mp ha
  have d1 := (last_of_data hom φ₀ (bySn snFlux) D h h0 hh).2 φ hφ
  have d2 := (last_of_data hom φ₀ (byAny snFlux cmFlux) D h h0 hh).2 ψ hψ
  have t := (stored ng n data hom cells junk a snFlux cmFlux φ₀ h)
  have t1 := t.tab i hi g hg
  have t2 := t.sn i hi
  rw [hψ] at t1
  rw [hφ] at t2
  simp only [given, d1, d2] at t1 t2
  intro s
  refine ⟨t1.1, t2, ?_⟩
  refine (C149_removal_iff ng n data hom cells junk a snFlux cmFlux φ₀ h i hi g hg).mpr ?_
  rw [hφ, hψ]
  simp only [given, d1, d2]

/-- C149: in a calculation without flux weighting (Sn sweepers with cross sections of the input) nothing changes: at any time the tables and the
matrices of both meshes are those of the constructor. -/
theorem C149_unweighted (h : List (Op Φ)) (i : Nat) (hi : i < n) (g : Nat) (hg : g < ng) :
    let s := after ng n data hom cells junk a false false φ₀ h
    s.tab.tr i g = (data i).tr g ∧ s.tab.rm i g = (data i).tr g - (data i).scat g g ∧ s.sn.scat i = build ng (data i).scat ∧
      s.cm.scat i = build ng (data i).scat := by
  have l : ∀ p : Op Φ → Bool, (∀ o, p o = false) → last p φ₀ h = none := by
    intro p hp
    induction h using List.reverseRecOn with
    | nil => rfl
    | append_singleton h o ih =>
      rw [last_snoc]
      cases o <;> simp [hp, ih]
  have t := (stored ng n data hom cells junk a false false φ₀ h)
  have t1 := t.tab i hi g hg
  have t2 := t.sn i hi
  have t3 := t.cm i hi
  rw [l _ (by intro o; cases o <;> rfl)] at t1 t2 t3
  exact ⟨t1.1, t1.2.2.2.2, t2, t3⟩

end

/-! ## What is not so -/

/-- C149, full claim: the removal cross section that is read through a mesh is the transport cross section less the self-scatter of its matrix, at any
time, for the mesh of the sweeper and for its copy. -/
def C149_removal_claim : Prop := ∀ (ng n : Nat) (data : Nat → Homog ℚ) (hom : ℚ × ℚ → Nat → Homog ℚ) (cells : Nat → List Nat) (junk : Table ℚ)
  (a : Nat → ℚ) (φ₀ : ℚ × ℚ) (h : List (Op (ℚ × ℚ))), ∀ i < n, ∀ g < ng,
  let s := after ng n data hom cells junk a true true φ₀ h
  s.tab.rm i g = s.tab.tr i g - ((s.sn.scat i).selfScat g).getD 0 ∧ s.tab.rm i g = s.tab.tr i g - ((s.cm.scat i).selfScat g).getD 0

/-- C149, full claim: `expand` gives the transport cross sections that the mesh has now. -/
def C149_expand_claim : Prop := ∀ (ng n : Nat) (data : Nat → Homog ℚ) (hom : ℚ × ℚ → Nat → Homog ℚ) (cells : Nat → List Nat) (junk : Table ℚ)
  (a : Nat → ℚ) (φ₀ : ℚ × ℚ) (h : List (Op (ℚ × ℚ))) (_ : Apart n cells), ∀ i < n, ∀ g < ng, ∀ c ∈ cells i,
  let s := after ng n data hom cells junk a true true φ₀ (h ++ [.expand g])
  s.e.xstr c = s.tab.tr i g

/-- C149, full claim: the sources and the sweeps of one group use the same scattering matrices. -/
def C149_source_claim : Prop := ∀ (ng n : Nat) (data : Nat → Homog ℚ) (hom : ℚ × ℚ → Nat → Homog ℚ) (cells : Nat → List Nat) (junk : Table ℚ)
  (a : Nat → ℚ) (φ₀ : ℚ × ℚ) (h : List (Op (ℚ × ℚ))) (ψ : ℚ × ℚ), ∀ i < n, ∀ g < ng,
  (after ng n data hom cells junk a true true φ₀ (h ++ doCmfd ψ)).sn.scat i =
    (after ng n data hom cells junk a true true φ₀ (h ++ doCmfd ψ ++ snSweep g)).sn.scat i

/-- A pin of fuel and water with one region each, in one group. -/
def fuel : Mat ℚ := ⟨fun _ => 1, fun _ => 1/2, fun _ => 1/5, fun _ => 1, fun _ _ => 1/2⟩

def water : Mat ℚ := ⟨fun _ => 3, fun _ => 0, fun _ => 0, fun _ => 0, fun _ _ => 2⟩

/-- The homogenised pin with given fluxes in fuel and water. -/
def pinHom (φ : ℚ × ℚ) (_ : Nat) : Homog ℚ := homogFlux 1 2 [(fuel, 1), (water, 1)] (fun _ => 1) fun i _ => if i = 0 then φ.1 else φ.2

/-- The same without a flux. -/
def pinVol (_ : Nat) : Homog ℚ := homogArea 1 [(fuel, 1), (water, 1)] (fun _ => 1) 2

def blank : Table ℚ := ⟨fun _ _ => 0, fun _ _ => 0, fun _ _ => 0, fun _ _ => 0, fun _ _ => 0⟩

theorem pin_vol : (pinVol 0).tr 0 = 2 ∧ (pinVol 0).scat 0 0 = 5/4 := by decide +kernel

theorem pin_flat : (pinHom (1, 1) 0).tr 0 = 2 ∧ (pinHom (1, 1) 0).scat 0 0 = 5/4 := by decide +kernel

theorem pin_tilt : (pinHom (3, 1) 0).tr 0 = 3/2 ∧ (pinHom (3, 1) 0).scat 0 0 = 7/8 := by decide +kernel

/-- After a solution of CMFD the matrix of the sweeper is that of before. -/
theorem C149_removal_claim_false : ¬ C149_removal_claim := by
  intro h
  have h1 := (C149_removal_iff 1 1 pinVol pinHom (fun _ => [0]) blank (fun _ => 0) true true (3, 1) [.cmfd] 0 (by decide) 0 (by decide)).mp
    (h 1 1 pinVol pinHom (fun _ => [0]) blank (fun _ => 0) (3, 1) [.cmfd] 0 (by decide) 0 (by decide)).1
  have e1 : last (byAny true true) ((3, 1) : ℚ × ℚ) [.cmfd] = some (3, 1) := rfl
  have e2 : last (bySn true) ((3, 1) : ℚ × ℚ) [.cmfd] = none := rfl
  rw [e1, e2] at h1
  simp only [given] at h1
  rw [pin_vol.2, pin_tilt.2] at h1
  norm_num at h1

/-- CMFD changes the tables and not the counter of the mesh of the sweeper. -/
theorem C149_expand_claim_false : ¬ C149_expand_claim := by
  intro h
  have h1 := h 1 1 pinVol pinHom (fun _ => [0]) blank (fun _ => 0) (1, 1) [.expand 0, .flux (3, 1), .cmfd]
    (by intro i hi j hj; omega) 0 (by decide) 0 (by decide) 0 (by decide)
  have h2 := (C149_tables 1 1 pinVol pinHom (fun _ => [0]) blank (fun _ => 0) true true (1, 1)
    ([.expand 0, .flux (3, 1), .cmfd] ++ [.expand 0]) 0 (by decide) 0 (by decide)).1
  have e1 : last (byAny true true) ((1, 1) : ℚ × ℚ) ([.expand 0, .flux (3, 1), .cmfd] ++ [.expand 0]) = some (3, 1) := rfl
  dsimp only at h1 h2
  rw [e1] at h2
  simp only [given] at h2
  rw [h2, pin_tilt.1] at h1
  revert h1
  decide +kernel

theorem C149_source_claim_false : ¬ C149_source_claim := by
  intro h
  have h1 := h 1 1 pinVol pinHom (fun _ => [0]) blank (fun _ => 0) (1, 1) [] (3, 1) 0 (by decide) 0 (by decide)
  have h2 := (C149_source 1 1 pinVol pinHom (fun _ => [0]) blank (fun _ => 0) true (1, 1) [] (3, 1) 0 (by decide) 0 (by decide)).2.2.2
  have h3 := (C149_sweep 1 1 pinVol pinHom (fun _ => [0]) blank (fun _ => 0) true (1, 1) (by intro i hi j hj; omega)
    ([] ++ doCmfd (3, 1)) 0 (by decide) 0 (by decide) 0 (by decide)).2.1
  rw [h2, h3] at h1
  have h4 := congrArg (fun m : Matrix ℚ => (m.selfScat 0).getD 0) h1
  simp only [Region.self_build _ _ _ (by decide : 0 < 1)] at h4
  have e2 : last (bySn true) ((1, 1) : ℚ × ℚ) [] = none := rfl
  have e3 : now ((1, 1) : ℚ × ℚ) ([] ++ doCmfd (3, 1)) = (3, 1) := rfl
  rw [e2, e3] at h4
  simp only [given] at h4
  rw [pin_vol.2, pin_tilt.2] at h4
  norm_num at h4

/-- The pin in a calculation: after the sweep of the group the cross sections are those of the flux from MoC, in spite of CMFD. -/
example : (after 1 1 pinVol pinHom (fun _ => [0]) blank (fun _ => 0) true true (1, 1)
    ([.expand 0] ++ doCmfd (1, 1) ++ sweepGroup 0 none (some ((1, 1), (3, 1))))).e.xstr 0 = 3/2 := by
  have h := (C149_group 1 1 pinVol pinHom (fun _ => [0]) blank (fun _ => 0) true (1, 1) (by intro i hi j hj; omega)
    ([.expand 0] ++ doCmfd (1, 1)) 0 (by decide) none (some ((1, 1), (3, 1))) 0 (by decide) 0 (by decide)).1
  exact h.trans pin_tilt.1

end Verif.XS.Share
