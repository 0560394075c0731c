import Verif.Mc.CycleModel
import Verif.Mc.TallyProps

set_option linter.unusedSectionVars false

/-! # C140: a whole run of the Monte Carlo solver -/

namespace Verif.Mc

open Verif.Rng

variable {P K : Type} [Field K] [LinearOrder K]

/-- The sites a history banks, in order. -/
def sitesOf : List (Ev P K) → List P
  | [] => []
  | .site d :: l => d :: sitesOf l
  | _ :: l => sitesOf l

/-- Sum of the track-length scores of a history. -/
def tlOf : List (Ev P K) → K
  | [] => 0
  | .tl v :: l => v + tlOf l
  | _ :: l => tlOf l

/-- Sum of the collision scores of a history. -/
def colOf : List (Ev P K) → K
  | [] => 0
  | .col v :: l => v + colOf l
  | _ :: l => colOf l

/-- The scores of a history for region `i`. -/
def pinOf (i : Nat) : List (Ev P K) → K
  | [] => 0
  | .pin j v :: l => (if i = j then v else 0) + pinOf i l
  | _ :: l => pinOf i l

/-- A history registers its weight once, at its start. -/
def NoWeight (l : List (Ev P K)) : Prop := ∀ e ∈ l, ∀ w, e ≠ .weight w

/-- Track-length estimate of a cycle: scores of all histories by the weight of the source. -/
def kTlOf (wt : P → K) (hist : Nat → Site P → List (Ev P K)) (off : Nat) (bank : List (Site P)) : Option K :=
  fdiv (bank.map (fun p => tlOf (hist off p))).sum (bank.map (fun p => wt p.data)).sum

/-- Collision estimate of a cycle. -/
def kColOf (wt : P → K) (hist : Nat → Site P → List (Ev P K)) (off : Nat) (bank : List (Site P)) : Option K :=
  fdiv (bank.map (fun p => colOf (hist off p))).sum (bank.map (fun p => wt p.data)).sum

/-- Analogue estimate of a cycle: sites banked by particles of the source. -/
def kAnOf (hist : Nat → Site P → List (Ev P K)) (off : Nat) (bank : List (Site P)) : Option K :=
  fdiv ((bank.map (fun p => (sitesOf (hist off p)).length)).sum : K) (bank.length : K)

/-- Value of region `i` in a cycle: scores of all histories by the weight of the source.  For a source of weight zero (no
particles) this is zero here and not a number in the C++. -/
def pinValue (wt : P → K) (hist : Nat → Site P → List (Ev P K)) (i off : Nat) (bank : List (Site P)) : K :=
  (bank.map (fun p => pinOf i (hist off p))).sum / (bank.map (fun p => wt p.data)).sum

/-- All of them numbers. -/
def allSome : List (Option K) → Option (List K)
  | [] => some []
  | none :: _ => none
  | some x :: l => (allSome l).map (x :: ·)

/-! ## events -/

/-- The site of an event. -/
def siteEv (e : Nat × Ev P K) : Option (Site P) := match e.2 with | .site d => some ⟨e.1, d⟩ | _ => none
/-- The call of the track-length tally. -/
def tlEv (e : Nat × Ev P K) : Option (TallyOp K) := match e.2 with
  | .weight w => some (.weight w) | .tl v => some (.score v) | _ => none
/-- The call of the collision tally. -/
def colEv (e : Nat × Ev P K) : Option (TallyOp K) := match e.2 with
  | .weight w => some (.weight w) | .col v => some (.score v) | _ => none
/-- The call of the spatial tally. -/
def pinEv (e : Nat × Ev P K) : Option (SpatialOp K) := match e.2 with
  | .weight w => some (.weight w) | .pin i v => some (.score i v) | _ => none

theorem foldl_pusher (evs : List (Nat × Ev P K)) (pu : Pusher P K) :
    evs.foldl Pusher.apply pu =
      { pu with
        fission := pu.fission ++ evs.filterMap siteEv
        kTl := (evs.filterMap tlEv).foldl Tally.apply pu.kTl
        kCol := (evs.filterMap colEv).foldl Tally.apply pu.kCol
        pin := (evs.filterMap pinEv).foldl Spatial.apply pu.pin } := by
  induction evs generalizing pu with
  | nil => simp
  | cons e evs ih =>
    obtain ⟨i, e⟩ := e
    rw [List.foldl_cons, ih]
    cases e <;> simp [Pusher.apply, List.filterMap_cons, siteEv, tlEv, colEv, pinEv, Spatial.apply]

theorem interleave_filterMap {α β : Type} (f : α → Option β) (logs : List (List α)) (l : List α) (h : Interleave logs l) :
    Interleave (logs.map (List.filterMap f)) (l.filterMap f) := by
  induction h with
  | done logs hnil =>
    refine .done _ ?_
    intro m hm
    obtain ⟨a, ha, rfl⟩ := List.mem_map.mp hm
    simp [hnil a ha]
  | append logs t x rest l h0 hi ih =>
    cases hx : f x with
    | none =>
      rw [List.filterMap_cons_none hx]
      have e : (logs.set t rest).map (List.filterMap f) = logs.map (List.filterMap f) := by
        apply List.ext_getElem?
        intro i
        simp only [List.getElem?_map]
        by_cases hit : t = i
        · subst hit
          have hlt : t < logs.length := by
            by_contra hc
            rw [List.getElem?_eq_none (by omega)] at h0
            exact absurd h0 (by simp)
          rw [List.getElem?_set_self hlt, h0]
          simp [hx]
        · rw [List.getElem?_set_ne hit]
      rw [e] at ih
      exact ih
    | some y =>
      rw [List.filterMap_cons_some hx]
      refine .append _ t y (rest.filterMap f) _ ?_ ?_
      · rw [List.getElem?_map, h0]
        simp [hx]
      · rw [List.map_set] at ih
        exact ih

theorem interleave_one {α : Type} (l : List α) : Interleave [l] l := by
  induction l with
  | nil => exact .done _ (by simp)
  | cons x l ih => exact .append _ 0 x l l (by simp) (by simpa using ih)

theorem filterMap_log (wt : P → K) (hist : Nat → Site P → List (Ev P K)) (off : Nat) (p : Site P) :
    (evLog wt hist off p).filterMap siteEv = children (fun o q => sitesOf (hist o q)) off p := by
  rw [evLog, children]
  rw [List.filterMap_cons, List.filterMap_map]
  simp only [siteEv, Function.comp_def]
  generalize hist off p = l
  induction l with
  | nil => simp [sitesOf]
  | cons e l ih => cases e <;> simp [sitesOf, List.filterMap_cons, ih]

theorem filterMap_flatMap' {α β γ : Type} (f : α → List β) (g : β → Option γ) (l : List α) :
    (l.flatMap f).filterMap g = l.flatMap (fun a => (f a).filterMap g) := by
  induction l with
  | nil => rfl
  | cons a l ih => rw [List.flatMap_cons, List.filterMap_append, ih, List.flatMap_cons]

theorem tally_perm {a b : List (TallyOp K)} (h : a.Perm b) (t : Tally K) : a.foldl Tally.apply t = b.foldl Tally.apply t := by
  rw [foldl_tally, foldl_tally, (scores_perm h).sum_eq, (weights_perm h).sum_eq, ((scores_perm h).map _).sum_eq]


theorem spatial_perm {a b : List (SpatialOp K)} (h : a.Perm b) (t : Spatial K) :
    a.foldl Spatial.apply t = b.foldl Spatial.apply t := by
  rw [foldl_spatial, foldl_spatial, (regionScore_perm h 0).2]
  congr 1
  funext i
  rw [(regionScore_perm h i).1]

/-- C140: a cycle gives the same state whatever the threads do: that of running the histories one after the other. -/
theorem step_seq (sqrt : K → K) (ent : List (Site P) → Out K) (wt : P → K) (hist : Nat → Site P → List (Ev P K)) (ppc : Nat)
    (s : McSolver P K) (hb : Numbered s.bank) (out : Out (McSolver P K)) (h : McCycle sqrt ent wt hist ppc s out) :
    out = mcStep sqrt ent ppc (s.bank.flatMap (evLog wt hist s.pu.off)) s := by
  obtain ⟨sched, evs, hs, hi, rfl⟩ := h
  have hp : evs.Perm (s.bank.flatMap (evLog wt hist s.pu.off)) := by
    refine (interleave_perm _ _ hi).trans ?_
    have : (sched.map (fun ps => ps.flatMap (evLog wt hist s.pu.off))).flatten = sched.flatten.flatMap (evLog wt hist s.pu.off) := by
      clear hs hi
      induction sched with
      | nil => rfl
      | cons a l ih => rw [List.map_cons, List.flatten_cons, ih, List.flatten_cons, List.flatMap_append]
    rw [this]
    exact hs.flatMap_right _
  have hsite : stableSort (evs.filterMap siteEv) =
      stableSort ((s.bank.flatMap (evLog wt hist s.pu.off)).filterMap siteEv) := by
    have h1 := interleave_filterMap siteEv _ _ hi
    have e : (sched.map (fun ps => ps.flatMap (evLog wt hist s.pu.off))).map (List.filterMap siteEv) =
        threadLogs (fun o q => sitesOf (hist o q)) s.pu.off sched := by
      rw [List.map_map, threadLogs]
      apply List.map_congr_left
      intro ps _
      simp only [Function.comp_def, filterMap_flatMap', filterMap_log]
    rw [e] at h1
    rw [C42_interleaving _ _ _ hb sched hs _ h1, filterMap_flatMap']
    simp only [filterMap_log]
    have h2 : Interleave (threadLogs (fun o q => sitesOf (hist o q)) s.pu.off [s.bank])
        (s.bank.flatMap (children (fun o q => sitesOf (hist o q)) s.pu.off)) := by
      simp only [threadLogs, List.map_cons, List.map_nil]
      exact interleave_one _
    exact (C42_interleaving _ _ _ hb [s.bank] (by simp) _ h2).symm
  unfold mcStep Pusher.simulate
  simp only [foldl_pusher, List.nil_append, endOfCycle, hsite, tally_perm (hp.filterMap tlEv), tally_perm (hp.filterMap colEv),
    spatial_perm (hp.filterMap pinEv), (hp.filterMap siteEv).length_eq, Pusher.reset]

theorem cycle_exists (sqrt : K → K) (ent : List (Site P) → Out K) (wt : P → K) (hist : Nat → Site P → List (Ev P K))
    (ppc : Nat) (s : McSolver P K) :
    McCycle sqrt ent wt hist ppc s (mcStep sqrt ent ppc (s.bank.flatMap (evLog wt hist s.pu.off)) s) :=
  ⟨[s.bank], _, by simp, by simpa using interleave_one _, rfl⟩

/-! ## what the tallies hold after the histories -/

theorem scoresOf_append (a b : List (TallyOp K)) : scoresOf (a ++ b) = scoresOf a ++ scoresOf b := by
  induction a with
  | nil => rfl
  | cons x a ih => cases x <;> simp [scoresOf, ih]

theorem weightsOf_append (a b : List (TallyOp K)) : weightsOf (a ++ b) = weightsOf a ++ weightsOf b := by
  induction a with
  | nil => rfl
  | cons x a ih => cases x <;> simp [weightsOf, ih]

theorem regionScore_append (i : Nat) (a b : List (SpatialOp K)) :
    regionScore i (a ++ b) = regionScore i a + regionScore i b ∧ realWeight (a ++ b) = realWeight a + realWeight b := by
  induction a with
  | nil => simp [regionScore, realWeight]
  | cons x a ih => cases x <;> simp [regionScore, realWeight, ih.1, ih.2, add_assoc]

theorem NoWeight.tail {e : Ev P K} {l : List (Ev P K)} (h : NoWeight (e :: l)) : NoWeight l :=
  fun x hx => h x (by simp [hx])

theorem log_tl (i : Nat) (l : List (Ev P K)) (h : NoWeight l) :
    (scoresOf ((l.map (fun e => (i, e))).filterMap tlEv)).sum = tlOf l ∧
    weightsOf ((l.map (fun e => (i, e))).filterMap tlEv) = [] := by
  induction l with
  | nil => simp [scoresOf, weightsOf, tlOf]
  | cons e l ih =>
    obtain ⟨h1, h2⟩ := ih h.tail
    cases e with
    | weight w => exact absurd rfl (h (.weight w) (by simp) w)
    | tl v => simp [-List.filterMap_map, tlEv, List.filterMap_cons, scoresOf, weightsOf, tlOf, h1, h2]
    | col v => simp [-List.filterMap_map, tlEv, List.filterMap_cons, tlOf, h1, h2]
    | pin j v => simp [-List.filterMap_map, tlEv, List.filterMap_cons, tlOf, h1, h2]
    | site d => simp [-List.filterMap_map, tlEv, List.filterMap_cons, tlOf, h1, h2]

theorem log_col (i : Nat) (l : List (Ev P K)) (h : NoWeight l) :
    (scoresOf ((l.map (fun e => (i, e))).filterMap colEv)).sum = colOf l ∧
    weightsOf ((l.map (fun e => (i, e))).filterMap colEv) = [] := by
  induction l with
  | nil => simp [scoresOf, weightsOf, colOf]
  | cons e l ih =>
    obtain ⟨h1, h2⟩ := ih h.tail
    cases e with
    | weight w => exact absurd rfl (h (.weight w) (by simp) w)
    | col v => simp [-List.filterMap_map, colEv, List.filterMap_cons, scoresOf, weightsOf, colOf, h1, h2]
    | tl v => simp [-List.filterMap_map, colEv, List.filterMap_cons, colOf, h1, h2]
    | pin j v => simp [-List.filterMap_map, colEv, List.filterMap_cons, colOf, h1, h2]
    | site d => simp [-List.filterMap_map, colEv, List.filterMap_cons, colOf, h1, h2]

theorem log_pin (i k : Nat) (l : List (Ev P K)) (h : NoWeight l) :
    regionScore k ((l.map (fun e => (i, e))).filterMap pinEv) = pinOf k l ∧
    realWeight ((l.map (fun e => (i, e))).filterMap pinEv) = 0 := by
  induction l with
  | nil => simp [regionScore, realWeight, pinOf]
  | cons e l ih =>
    obtain ⟨h1, h2⟩ := ih h.tail
    cases e with
    | weight w => exact absurd rfl (h (.weight w) (by simp) w)
    | pin j v => simp [-List.filterMap_map, pinEv, List.filterMap_cons, regionScore, realWeight, pinOf, h1, h2]
    | tl v => simp [-List.filterMap_map, pinEv, List.filterMap_cons, pinOf, h1, h2]
    | col v => simp [-List.filterMap_map, pinEv, List.filterMap_cons, pinOf, h1, h2]
    | site d => simp [-List.filterMap_map, pinEv, List.filterMap_cons, pinOf, h1, h2]

variable (wt : P → K) (hist : Nat → Site P → List (Ev P K))

theorem bank_tl (hw : ∀ o p, NoWeight (hist o p)) (off : Nat) (bank : List (Site P)) :
    (scoresOf ((bank.flatMap (evLog wt hist off)).filterMap tlEv)).sum = (bank.map (fun p => tlOf (hist off p))).sum ∧
    (weightsOf ((bank.flatMap (evLog wt hist off)).filterMap tlEv)).sum = (bank.map (fun p => wt p.data)).sum := by
  induction bank with
  | nil => simp [scoresOf, weightsOf]
  | cons p l ih =>
    obtain ⟨h1, h2⟩ := log_tl p.id (hist off p) (hw off p)
    rw [List.flatMap_cons, List.filterMap_append, scoresOf_append, weightsOf_append, List.sum_append, List.sum_append, ih.1, ih.2]
    simp [-List.filterMap_map, evLog, List.filterMap_cons, tlEv, scoresOf, weightsOf, h1, h2]

theorem bank_col (hw : ∀ o p, NoWeight (hist o p)) (off : Nat) (bank : List (Site P)) :
    (scoresOf ((bank.flatMap (evLog wt hist off)).filterMap colEv)).sum = (bank.map (fun p => colOf (hist off p))).sum ∧
    (weightsOf ((bank.flatMap (evLog wt hist off)).filterMap colEv)).sum = (bank.map (fun p => wt p.data)).sum := by
  induction bank with
  | nil => simp [scoresOf, weightsOf]
  | cons p l ih =>
    obtain ⟨h1, h2⟩ := log_col p.id (hist off p) (hw off p)
    rw [List.flatMap_cons, List.filterMap_append, scoresOf_append, weightsOf_append, List.sum_append, List.sum_append, ih.1, ih.2]
    simp [-List.filterMap_map, evLog, List.filterMap_cons, colEv, scoresOf, weightsOf, h1, h2]

theorem bank_pin (hw : ∀ o p, NoWeight (hist o p)) (off k : Nat) (bank : List (Site P)) :
    regionScore k ((bank.flatMap (evLog wt hist off)).filterMap pinEv) = (bank.map (fun p => pinOf k (hist off p))).sum ∧
    realWeight ((bank.flatMap (evLog wt hist off)).filterMap pinEv) = (bank.map (fun p => wt p.data)).sum := by
  induction bank with
  | nil => simp [regionScore, realWeight]
  | cons p l ih =>
    obtain ⟨h1, h2⟩ := log_pin p.id k (hist off p) (hw off p)
    rw [List.flatMap_cons, List.filterMap_append, (regionScore_append k _ _).1, (regionScore_append k _ _).2, ih.1, ih.2]
    simp [-List.filterMap_map, evLog, List.filterMap_cons, pinEv, regionScore, realWeight, h1, h2]

/-- The tallies of the pusher at the start of a cycle: those of the eigenvalue empty, nothing waiting in the spatial one. -/
def Pusher.Ready (pu : Pusher P K) : Prop :=
  pu.kTl = Tally.zero ∧ pu.kCol = Tally.zero ∧ pu.kAn = some Tally.zero ∧ pu.pin.scores = (fun _ => 0) ∧ pu.pin.weight = 0

theorem step_value (sqrt : K → K) (ent : List (Site P) → Out K) (ppc : Nat) (hw : ∀ o p, NoWeight (hist o p))
    (s s' : McSolver P K) (hr : s.pu.Ready)
    (h : mcStep sqrt ent ppc (s.bank.flatMap (evLog wt hist s.pu.off)) s = .ok s') :
    endOfCycle ppc s.rng (s.bank.flatMap (children (fun o q => sitesOf (hist o q)) s.pu.off)) = .ok (s'.rng, s'.bank) ∧
    s'.entropy.map Out.ok = s.entropy.map Out.ok ++ [ent s.bank] ∧
    s'.tl = s.tl.add sqrt s.active (kTlOf wt hist s.pu.off s.bank) ∧
    s'.col = s.col.add sqrt s.active (kColOf wt hist s.pu.off s.bank) ∧
    s'.an = s.an.add sqrt s.active (kAnOf hist s.pu.off s.bank) ∧
    s'.pu.off = s.pu.off + s.bank.length ∧ s'.active = s.active ∧ s'.cycle = s.cycle + 1 ∧ s'.pu.Ready ∧
    (∀ i, s'.pu.pin.first i = s.pu.pin.first i + pinValue wt hist i s.pu.off s.bank) ∧
    (∀ i, s'.pu.pin.second i = s.pu.pin.second i + pinValue wt hist i s.pu.off s.bank ^ 2) ∧
    s'.pu.pin.n = s.pu.pin.n + 1 := by
  obtain ⟨r1, r2, r3, r4, r5⟩ := hr
  have hsite : (s.bank.flatMap (evLog wt hist s.pu.off)).filterMap siteEv =
      s.bank.flatMap (children (fun o q => sitesOf (hist o q)) s.pu.off) := by
    rw [filterMap_flatMap']
    simp only [filterMap_log]
  have hlen : (s.bank.flatMap (children (fun o q => sitesOf (hist o q)) s.pu.off)).length =
      (s.bank.map (fun p => (sitesOf (hist s.pu.off p)).length)).sum := by
    simp [List.length_flatMap, children]
  obtain ⟨t1, t2⟩ := bank_tl wt hist hw s.pu.off s.bank
  obtain ⟨c1, c2⟩ := bank_col wt hist hw s.pu.off s.bank
  have p1 := fun k => (bank_pin wt hist hw s.pu.off k s.bank).1
  have p2 := (bank_pin wt hist hw s.pu.off 0 s.bank).2
  unfold mcStep Pusher.simulate at h
  simp only [foldl_pusher, List.nil_append, hsite, hlen, foldl_tally, foldl_spatial, t1, t2, c1, c2, p1, p2, r1, r2, r3, r4,
    r5] at h
  cases he : ent s.bank with
  | throw => rw [he] at h; simp at h
  | ub => rw [he] at h; simp at h
  | ok e =>
    rw [he] at h
    cases hc : endOfCycle ppc s.rng (s.bank.flatMap (children (fun o q => sitesOf (hist o q)) s.pu.off)) with
    | throw => rw [hc] at h; simp at h
    | ub => rw [hc] at h; simp at h
    | ok rb =>
      rw [hc] at h
      simp only [Out.ok.injEq] at h
      subst h
      refine ⟨rfl, by simp, ?_, ?_, ?_, rfl, rfl, rfl, ⟨rfl, rfl, rfl, rfl, rfl⟩, ?_, ?_, ?_⟩
      · simp [Tally.get, kTlOf, Tally.zero]
      · simp [Tally.get, kColOf, Tally.zero]
      · congr 1
        unfold kAnOf
        by_cases hz : (s.bank.length : K) = 0
        · simp [hz, fdiv, scoreOpt, addOne, getOpt]
        · simp [hz, fdiv, scoreOpt, addOne, getOpt, Tally.apply, Tally.get, Tally.zero]
      · intro i
        simp [Pusher.reset, Spatial.commit, pinValue, div_eq_mul_inv]
      · intro i
        simp [Pusher.reset, Spatial.commit, pinValue, div_eq_mul_inv, sq]
      · simp [Pusher.reset, Spatial.commit]

/-! ## cycles one after the other -/

/-- Offset, generator and source at the start of each cycle, when every cycle so far has delivered one. -/
def srcAt (hist : Nat → Site P → List (Ev P K)) (ppc : Nat) (st : Nat × U64 × List (Site P)) : Nat → Nat × U64 × List (Site P)
  | 0 => st
  | j + 1 =>
    let c := srcAt hist ppc st j
    match endOfCycle ppc c.2.1 (c.2.2.flatMap (children (fun o q => sitesOf (hist o q)) c.1)) with
    | .ok (r, b) => (c.1 + c.2.2.length, r, b)
    | _ => (0, 0#64, [])

theorem srcAt_shift (ppc : Nat) (st : Nat × U64 × List (Site P)) (j : Nat) :
    srcAt hist ppc (srcAt hist ppc st 1) j = srcAt hist ppc st (j + 1) := by
  induction j with
  | zero => rfl
  | succ j ih =>
    rw [srcAt, ih]
    rfl

theorem srcAt_add (ppc : Nat) (st : Nat × U64 × List (Site P)) (m j : Nat) :
    srcAt hist ppc (srcAt hist ppc st m) j = srcAt hist ppc st (m + j) := by
  induction j with
  | zero => rfl
  | succ j ih =>
    rw [srcAt, ih]
    rfl

theorem endOfCycle_numbered (ppc : Nat) (r r' : U64) (l b : List (Site P)) (h : endOfCycle ppc r l = .ok (r', b)) :
    Numbered b := (C42_bank ppc r r' l b h).2.2.1

/-- Whether cycle `j` delivers the source of the next. -/
def Delivers (ppc : Nat) (st : Nat × U64 × List (Site P)) (j : Nat) : Prop :=
  endOfCycle ppc (srcAt hist ppc st j).2.1
    ((srcAt hist ppc st j).2.2.flatMap (children (fun o q => sitesOf (hist o q)) (srcAt hist ppc st j).1)) =
    .ok ((srcAt hist ppc st (j + 1)).2.1, (srcAt hist ppc st (j + 1)).2.2) ∧
  (srcAt hist ppc st (j + 1)).1 = (srcAt hist ppc st j).1 + (srcAt hist ppc st j).2.2.length

/-- What is left of the pusher's state and of the solver's that the cycles work on. -/
def McSolver.src (s : McSolver P K) : Nat × U64 × List (Site P) := (s.pu.off, s.rng, s.bank)

theorem cycles_value (sqrt : K → K) (ent : List (Site P) → Out K) (ppc : Nat) (hw : ∀ o p, NoWeight (hist o p)) (n : Nat)
    (s s' : McSolver P K) (hr : s.pu.Ready) (hb : Numbered s.bank) (h : McCycles sqrt ent wt hist ppc n s (.ok s')) :
    (∀ j < n, Delivers hist ppc s.src j) ∧ s'.src = srcAt hist ppc s.src n ∧ s'.pu.Ready ∧ Numbered s'.bank ∧
    s'.active = s.active ∧ s'.cycle = s.cycle + n ∧
    s'.entropy.map Out.ok = s.entropy.map Out.ok ++ (List.range n).map (fun j => ent (srcAt hist ppc s.src j).2.2) ∧
    s'.tl = ((List.range n).map (fun j => kTlOf wt hist (srcAt hist ppc s.src j).1 (srcAt hist ppc s.src j).2.2)).foldl
      (fun e k => e.add sqrt s.active k) s.tl ∧
    s'.col = ((List.range n).map (fun j => kColOf wt hist (srcAt hist ppc s.src j).1 (srcAt hist ppc s.src j).2.2)).foldl
      (fun e k => e.add sqrt s.active k) s.col ∧
    s'.an = ((List.range n).map (fun j => kAnOf hist (srcAt hist ppc s.src j).1 (srcAt hist ppc s.src j).2.2)).foldl
      (fun e k => e.add sqrt s.active k) s.an ∧
    (∀ i, s'.pu.pin.first i = s.pu.pin.first i +
      ((List.range n).map (fun j => pinValue wt hist i (srcAt hist ppc s.src j).1 (srcAt hist ppc s.src j).2.2)).sum) ∧
    (∀ i, s'.pu.pin.second i = s.pu.pin.second i +
      ((List.range n).map (fun j => pinValue wt hist i (srcAt hist ppc s.src j).1 (srcAt hist ppc s.src j).2.2 ^ 2)).sum) ∧
    s'.pu.pin.n = s.pu.pin.n + n := by
  induction n generalizing s with
  | zero =>
    obtain rfl : s' = s := by simpa [McCycles] using h
    exact ⟨by simp, rfl, hr, hb, rfl, by simp, by simp, rfl, rfl, rfl, by simp, by simp, rfl⟩
  | succ n ih =>
    obtain ⟨mid, hc, hm⟩ := h
    have hmid := step_seq sqrt ent wt hist ppc s hb mid hc
    cases mid with
    | throw => simp at hm
    | ub => simp at hm
    | ok s1 =>
      obtain ⟨v1, v2, v3, v4, v5, v6, v7, v8, v9, v10, v11, v12⟩ := step_value wt hist sqrt ent ppc hw s s1 hr hmid.symm
      have hs1 : s1.src = srcAt hist ppc s.src 1 := by
        simp only [srcAt, McSolver.src, v1, v6]
      have hb1 : Numbered s1.bank := endOfCycle_numbered _ _ _ _ _ v1
      obtain ⟨w0, w1, w2, w3, w4, w5, w6, w7, w8, w9, w10, w11, w12⟩ := ih s1 v9 hb1 hm
      simp only [hs1, srcAt_shift] at w1 w6 w7 w8 w9 w10 w11
      have hd : ∀ j, Delivers hist ppc s1.src j ↔ Delivers hist ppc s.src (j + 1) := by
        intro j
        simp only [Delivers, hs1, srcAt_shift]
      refine ⟨?_, w1, w2, w3, w4.trans v7, ?_, ?_, ?_, ?_, ?_, ?_, ?_, ?_⟩
      · intro j hj
        cases j with
        | zero =>
          have e1 : srcAt hist ppc s.src 1 = s1.src := hs1.symm
          refine ⟨?_, ?_⟩
          · rw [zero_add, e1]; exact v1
          · rw [zero_add, e1]; exact v6
        | succ j => exact (hd j).mp (w0 j (by omega))
      · rw [w5, v8]; push_cast; ring
      · rw [w6, v2, List.range_succ_eq_map, List.map_cons, List.map_map, List.append_assoc]
        rfl
      · rw [w7, v3, v7, List.range_succ_eq_map, List.map_cons, List.map_map, List.foldl_cons]
        rfl
      · rw [w8, v4, v7, List.range_succ_eq_map, List.map_cons, List.map_map, List.foldl_cons]
        rfl
      · rw [w9, v5, v7, List.range_succ_eq_map, List.map_cons, List.map_map, List.foldl_cons]
        rfl
      · intro i
        rw [w10, v10, List.range_succ_eq_map, List.map_cons, List.map_map, List.sum_cons, ← add_assoc]
        rfl
      · intro i
        rw [w11, v11, List.range_succ_eq_map, List.map_cons, List.map_map, List.sum_cons, ← add_assoc]
        rfl
      · rw [w12, v12]; omega

/-! ## the estimators -/

theorem allSome_snoc (l : List (Option K)) (k : Option K) :
    allSome (l ++ [k]) = (allSome l).bind (fun xs => k.map (fun x => xs ++ [x])) := by
  induction l with
  | nil => cases k <;> simp [allSome]
  | cons a l ih =>
    cases a with
    | none => simp [allSome]
    | some a =>
      rw [List.cons_append, allSome, ih, allSome]
      cases allSome l <;> cases k <;> simp

theorem realisations_snoc (xs : List K) (x : K) : tallyAfter (realisations (xs ++ [x])) =
    ((tallyAfter (realisations xs)).apply (.score x)).apply (.weight 1) := by
  simp [tallyAfter, realisations, List.foldl_append]

theorem est_inactive (sqrt : K → K) (vs : List (Option K)) (e : Est K) :
    vs.foldl (fun e k => e.add sqrt false k) e = { e with hist := e.hist ++ vs } := by
  induction vs generalizing e with
  | nil => simp
  | cons v vs ih => rw [List.foldl_cons, ih]; simp [Est.add]

theorem est_active (sqrt : K → K) (vs : List (Option K)) (us : List (Option K)) (e : Est K)
    (he : e.tally = (allSome us).map (fun xs => tallyAfter (realisations xs))) :
    (vs.foldl (fun e k => e.add sqrt true k) e).hist = e.hist ++ vs ∧
    (vs.foldl (fun e k => e.add sqrt true k) e).mean = e.mean ++ (List.range vs.length).map (fun j =>
      (getOpt sqrt ((allSome (us ++ vs.take (j + 1))).map (fun xs => tallyAfter (realisations xs)))).1) ∧
    (vs.foldl (fun e k => e.add sqrt true k) e).dev = e.dev ++ (List.range vs.length).map (fun j =>
      (getOpt sqrt ((allSome (us ++ vs.take (j + 1))).map (fun xs => tallyAfter (realisations xs)))).2) := by
  induction vs generalizing us e with
  | nil => simp
  | cons v vs ih =>
    have ht : (e.add sqrt true v).tally = (allSome (us ++ [v])).map (fun xs => tallyAfter (realisations xs)) := by
      rw [allSome_snoc]
      simp only [Est.add, he, if_true]
      cases allSome us <;> cases v <;> simp [scoreOpt, addOne, realisations_snoc]
    obtain ⟨h1, h2, h3⟩ := ih (us ++ [v]) (e.add sqrt true v) ht
    have hm : (e.add sqrt true v).mean = e.mean ++ [(getOpt sqrt (e.add sqrt true v).tally).1] := by simp [Est.add]
    have hd : (e.add sqrt true v).dev = e.dev ++ [(getOpt sqrt (e.add sqrt true v).tally).2] := by simp [Est.add]
    rw [List.foldl_cons]
    refine ⟨?_, ?_, ?_⟩
    · rw [h1]; simp [Est.add]
    · rw [h2, hm, ht, List.length_cons, List.range_succ_eq_map, List.map_cons, List.map_map, List.append_assoc]
      simp [Function.comp_def]
    · rw [h3, hd, ht, List.length_cons, List.range_succ_eq_map, List.map_cons, List.map_map, List.append_assoc]
      simp [Function.comp_def]

/-- Relative standard deviation of the mean of a sample; there is none for fewer than two values or for mean zero. -/
def devOf (sqrt : K → K) (xs : List K) : Option K :=
  if xs.length < 2 ∨ sampleMean xs = 0 then none
  else some (sqrt (sumSqDev xs / ((xs.length : K) * ((xs.length : K) - 1))) / sampleMean xs)

theorem get_realisations [IsStrictOrderedRing K] (sqrt : K → K) (xs : List K) (hx : xs ≠ []) :
    (tallyAfter (realisations xs)).get sqrt = (some (sampleMean xs), devOf sqrt xs) := by
  have h0 : (xs.length : K) ≠ 0 := by
    have := List.length_pos_iff.mpr hx
    exact_mod_cast (by omega : xs.length ≠ 0)
  have hm : fdiv (tallyAfter (realisations xs)).sum (tallyAfter (realisations xs)).weight = some (sampleMean xs) := by
    have := C44_scalar_mean sqrt (realisations xs) (by rw [weightsOf_realisations]; exact h0)
    rw [scoresOf_realisations, weightsOf_realisations] at this
    exact this
  unfold Tally.get
  rw [hm]
  congr 1
  by_cases hn : xs.length < 2
  · have h1 : xs.length = 1 := by have := List.length_pos_iff.mpr hx; omega
    obtain ⟨x, rfl⟩ := List.length_eq_one_iff.mp h1
    have := C44_scalar_single sqrt x
    unfold Tally.get at this
    rw [hm] at this
    refine this.trans ?_
    simp [devOf]
  · obtain ⟨h1, h2⟩ := C44_scalar_variance xs (by omega)
    rw [h1]
    simp only [Option.bind_eq_bind, Option.bind_some, fsqrt, not_lt.mpr h2, if_false, devOf, hn, false_or, fdiv]

/-- What an estimator is after `nI` inactive and `nA` active cycles in which its values were `k 0, k 1, ...`: every value is
recorded, and after each active cycle the sample mean of the active cycles so far with its relative standard deviation. -/
def EstOk (sqrt : K → K) (nI nA : Nat) (k : Nat → Option K) (e : Est K) : Prop :=
  e.hist = (List.range (nI + nA)).map k ∧
  e.mean = (List.range nA).map (fun j => (allSome ((List.range (j + 1)).map (fun i => k (nI + i)))).map sampleMean) ∧
  e.dev = (List.range nA).map (fun j => (allSome ((List.range (j + 1)).map (fun i => k (nI + i)))).bind (devOf sqrt))

theorem allSome_length (l : List (Option K)) (xs : List K) (h : allSome l = some xs) : xs.length = l.length := by
  induction l generalizing xs with
  | nil => simp [allSome] at h; simp [← h]
  | cons a l ih =>
    cases a with
    | none => simp [allSome] at h
    | some a =>
      rw [allSome] at h
      cases ha : allSome l with
      | none => rw [ha] at h; simp at h
      | some ys =>
        rw [ha] at h
        simp only [Option.map_some, Option.some.injEq] at h
        rw [← h, List.length_cons, ih ys ha, List.length_cons]

theorem est_ok [IsStrictOrderedRing K] (sqrt : K → K) (nI nA : Nat) (k : Nat → Option K) :
    EstOk sqrt nI nA k (((List.range nA).map (fun j => k (nI + j))).foldl (fun e v => e.add sqrt true v)
      (((List.range nI).map k).foldl (fun e v => e.add sqrt false v) ⟨[], some Tally.zero, [], []⟩)) := by
  rw [est_inactive]
  obtain ⟨h1, h2, h3⟩ := est_active sqrt ((List.range nA).map (fun j => k (nI + j))) []
    { (⟨[], some Tally.zero, [], []⟩ : Est K) with hist := [] ++ (List.range nI).map k } (by simp [allSome, tallyAfter, realisations])
  have htake : ∀ j < nA, ((List.range nA).map (fun j => k (nI + j))).take (j + 1) = (List.range (j + 1)).map (fun i => k (nI + i)) := by
    intro j hj
    rw [← List.map_take, List.take_range, Nat.min_eq_left (by omega)]
  have hget : ∀ j < nA, getOpt sqrt ((allSome ([] ++ ((List.range nA).map (fun j => k (nI + j))).take (j + 1))).map
      (fun xs => tallyAfter (realisations xs))) =
      ((allSome ((List.range (j + 1)).map (fun i => k (nI + i)))).map sampleMean,
        (allSome ((List.range (j + 1)).map (fun i => k (nI + i)))).bind (devOf sqrt)) := by
    intro j hj
    rw [List.nil_append, htake j hj]
    cases ha : allSome ((List.range (j + 1)).map (fun i => k (nI + i))) with
    | none => rfl
    | some xs =>
      have hl := allSome_length _ _ ha
      simp only [List.length_map, List.length_range] at hl
      have hx : xs ≠ [] := by intro h; rw [h] at hl; simp at hl
      simp only [Option.map_some, getOpt, get_realisations sqrt xs hx, Option.bind_some]
  refine ⟨?_, ?_, ?_⟩
  · rw [h1, List.nil_append, List.range_add, List.map_append, List.map_map]
    rfl
  · rw [h2, List.nil_append, List.length_map, List.length_range]
    apply List.map_congr_left
    intro j hj
    rw [hget j (List.mem_range.mp hj)]
  · rw [h3, List.nil_append, List.length_map, List.length_range]
    apply List.map_congr_left
    intro j hj
    rw [hget j (List.mem_range.mp hj)]

/-! ## C140 -/

theorem fresh_numbered (rng : U64) (bank : List P) : Numbered (McSolver.fresh (K := K) rng bank).bank := by
  intro i h
  simp [McSolver.fresh]

/-- C140: what a completed run has recorded.  There are sources `B 0, B 1, ...`, one per cycle: the first is the initial one,
each further one has the configured number of particles, numbered from zero, and each of these is a site that a history of the
cycle before has banked (selected by `endOfCycle` with the solver's generator, C41, C42).  The histories of the run are
numbered consecutively through all cycles.  Every cycle records the entropy of its source and the three estimates of the
eigenvalue from its own histories only; mean and deviation are recorded after each active cycle, over the active cycles so
far; the spatial tally has one realisation per active cycle and none from the inactive ones.  With exact arithmetic. -/
theorem C140_run [IsStrictOrderedRing K] (sqrt : K → K) (ent : List (Site P) → Out K) (ppc nI nA : Nat)
    (hw : ∀ o p, NoWeight (hist o p)) (rng : U64) (bank : List P) (s : McSolver P K)
    (h : McSolve sqrt ent wt hist ppc nI nA (McSolver.fresh rng bank) (.ok s)) :
    ∃ (off : Nat → Nat) (gen : Nat → U64) (B : Nat → List (Site P)),
      (off 0 = 0 ∧ gen 0 = rng ∧ (B 0).map Site.data = bank) ∧
      (∀ j ≤ nI + nA, Numbered (B j)) ∧
      (∀ j < nI + nA,
        endOfCycle ppc (gen j) ((B j).flatMap (children (fun o q => sitesOf (hist o q)) (off j))) = .ok (gen (j + 1), B (j + 1)) ∧
        off (j + 1) = off j + (B j).length ∧ (B (j + 1)).length = ppc ∧
        ∀ x ∈ B (j + 1), ∃ p ∈ B j, x.data ∈ sitesOf (hist (off j) p)) ∧
      (bank.length = ppc → ∀ j ≤ nI + nA, off j = j * ppc) ∧
      (s.bank = B (nI + nA) ∧ s.rng = gen (nI + nA) ∧ s.pu.off = off (nI + nA) ∧ s.cycle = nA) ∧
      s.entropy.map Out.ok = (List.range (nI + nA)).map (fun j => ent (B j)) ∧
      EstOk sqrt nI nA (fun j => kTlOf wt hist (off j) (B j)) s.tl ∧
      EstOk sqrt nI nA (fun j => kColOf wt hist (off j) (B j)) s.col ∧
      EstOk sqrt nI nA (fun j => kAnOf hist (off j) (B j)) s.an ∧
      (∀ i, s.pu.pin.first i = ((List.range nA).map (fun j => pinValue wt hist i (off (nI + j)) (B (nI + j)))).sum) ∧
      (∀ i, s.pu.pin.second i = ((List.range nA).map (fun j => pinValue wt hist i (off (nI + j)) (B (nI + j)) ^ 2)).sum) ∧
      s.pu.pin.n = nA := by
  obtain ⟨mid, hm, hrest⟩ := h
  cases mid with
  | throw => simp at hrest
  | ub => simp at hrest
  | ok s1 =>
    obtain ⟨a0, a1, a2, a3, a4, a5, a6, a7, a8, a9, -, -, -⟩ := cycles_value wt hist sqrt ent ppc hw nI
      { McSolver.fresh rng bank with cycle := -(nI : Int), active := false } s1
      ⟨rfl, rfl, rfl, rfl, rfl⟩ (fresh_numbered (K := K) rng bank) hm
    obtain ⟨b0, b1, -, -, -, b5, b6, b7, b8, b9, b10, b11, b12⟩ := cycles_value wt hist sqrt ent ppc hw nA
      { s1 with active := true, pu := s1.pu.reset true } s ⟨rfl, rfl, rfl, rfl, rfl⟩ a3 hrest
    generalize hst : ({ McSolver.fresh rng bank with cycle := -(nI : Int), active := false } : McSolver P K).src = st at *
    have hs1 : ({ s1 with active := true, pu := s1.pu.reset true } : McSolver P K).src = srcAt hist ppc st nI := a1
    simp only [hs1, srcAt_add] at b0 b1 b6 b7 b8 b9 b10 b11
    have hD : ∀ j < nI + nA, Delivers hist ppc st j := by
      intro j hj
      by_cases hji : j < nI
      · exact a0 j hji
      · have := b0 (j - nI) (by omega)
        simp only [Delivers, srcAt_add] at this ⊢
        rw [show nI + (j - nI) = j by omega, show nI + (j - nI + 1) = j + 1 by omega] at this
        exact this
    have hlen : ∀ j < nI + nA, (srcAt hist ppc st (j + 1)).2.2.length = ppc := fun j hj => (C42_bank _ _ _ _ _ (hD j hj).1).1
    refine ⟨fun j => (srcAt hist ppc st j).1, fun j => (srcAt hist ppc st j).2.1, fun j => (srcAt hist ppc st j).2.2,
      ⟨?_, ?_, ?_⟩, ?_, ?_, ?_, ⟨?_, ?_, ?_, ?_⟩, ?_, ?_, ?_, ?_, ?_, ?_, ?_⟩
    · rw [← hst]; rfl
    · rw [← hst]; rfl
    · rw [← hst]
      simp only [srcAt, McSolver.src, McSolver.fresh]
      apply List.ext_getElem?
      intro i
      simp
      cases bank[i]? <;> rfl
    · intro j hj
      cases j with
      | zero => rw [← hst]; exact fresh_numbered (K := K) rng bank
      | succ j => exact (C42_bank _ _ _ _ _ (hD j (by omega)).1).2.2.1
    · intro j hj
      refine ⟨(hD j hj).1, (hD j hj).2, hlen j hj, ?_⟩
      intro x hx
      obtain ⟨y, hy, hyx⟩ := (C42_bank _ _ _ _ _ (hD j hj).1).2.1 x hx
      obtain ⟨p, hp, hyp⟩ := List.mem_flatMap.mp hy
      refine ⟨p, hp, ?_⟩
      simp only [children, List.mem_map] at hyp
      obtain ⟨d, hd, rfl⟩ := hyp
      rw [← hyx]
      exact hd
    · intro hbl j hj
      induction j with
      | zero => rw [← hst]; simp [srcAt, McSolver.src, McSolver.fresh]
      | succ j ih =>
        have h1 := (hD j (by omega)).2
        have h2 : (srcAt hist ppc st j).2.2.length = ppc := by
          cases j with
          | zero => rw [← hst]; simp [srcAt, McSolver.src, McSolver.fresh, hbl]
          | succ j => exact hlen j (by omega)
        have h3 := ih (by omega)
        dsimp only at h3 ⊢
        rw [h1, h2, h3]
        ring
    · dsimp only; rw [← b1]; rfl
    · dsimp only; rw [← b1]; rfl
    · dsimp only; rw [← b1]; rfl
    · rw [b5]
      simp only [a5]
      omega
    · rw [b6, List.range_add, List.map_append, List.map_map]
      simp only [a6]
      simp [McSolver.fresh, Function.comp_def]
    · rw [b7]
      simp only [a7]
      exact est_ok sqrt nI nA (fun j => kTlOf wt hist (srcAt hist ppc st j).1 (srcAt hist ppc st j).2.2)
    · rw [b8]
      simp only [a8]
      exact est_ok sqrt nI nA (fun j => kColOf wt hist (srcAt hist ppc st j).1 (srcAt hist ppc st j).2.2)
    · rw [b9]
      simp only [a9]
      exact est_ok sqrt nI nA (fun j => kAnOf hist (srcAt hist ppc st j).1 (srcAt hist ppc st j).2.2)
    · intro i
      rw [b10]
      simp [Pusher.reset, Spatial.zero]
    · intro i
      rw [b11]
      simp [Pusher.reset, Spatial.zero]
    · rw [b12]
      simp [Pusher.reset, Spatial.zero]

theorem cycles_unique (sqrt : K → K) (ent : List (Site P) → Out K) (ppc : Nat) (hw : ∀ o p, NoWeight (hist o p)) (n : Nat)
    (s : McSolver P K) (hr : s.pu.Ready) (hb : Numbered s.bank) (o1 o2 : Out (McSolver P K))
    (h1 : McCycles sqrt ent wt hist ppc n s o1) (h2 : McCycles sqrt ent wt hist ppc n s o2) : o1 = o2 := by
  induction n generalizing s with
  | zero => simp only [McCycles] at h1 h2; rw [h1, h2]
  | succ n ih =>
    obtain ⟨m1, c1, r1⟩ := h1
    obtain ⟨m2, c2, r2⟩ := h2
    have e1 := step_seq sqrt ent wt hist ppc s hb m1 c1
    have e2 := step_seq sqrt ent wt hist ppc s hb m2 c2
    obtain rfl : m1 = m2 := e1.trans e2.symm
    cases m1 with
    | throw => simp only at r1 r2; rw [r1, r2]
    | ub => simp only at r1 r2; rw [r1, r2]
    | ok s1 =>
      obtain ⟨v1, -, -, -, -, -, -, -, v9, -⟩ := step_value wt hist sqrt ent ppc hw s s1 hr e1.symm
      exact ih s1 v9 (endOfCycle_numbered _ _ _ _ _ v1) r1 r2

/-- C140: the outcome of a run, with everything it records, does not depend on the number of threads, on the distribution of
the histories over them or on the order in which they execute (with exact arithmetic). -/
theorem C140_threads (sqrt : K → K) (ent : List (Site P) → Out K) (ppc nI nA : Nat) (hw : ∀ o p, NoWeight (hist o p))
    (rng : U64) (bank : List P) (o1 o2 : Out (McSolver P K))
    (h1 : McSolve sqrt ent wt hist ppc nI nA (McSolver.fresh rng bank) o1)
    (h2 : McSolve sqrt ent wt hist ppc nI nA (McSolver.fresh rng bank) o2) : o1 = o2 := by
  obtain ⟨m1, c1, r1⟩ := h1
  obtain ⟨m2, c2, r2⟩ := h2
  obtain rfl : m1 = m2 := cycles_unique wt hist sqrt ent ppc hw nI
    { McSolver.fresh rng bank with cycle := -(nI : Int), active := false } ⟨rfl, rfl, rfl, rfl, rfl⟩
    (fresh_numbered (K := K) rng bank) _ _ c1 c2
  cases m1 with
  | throw => simp only at r1 r2; rw [r1, r2]
  | ub => simp only at r1 r2; rw [r1, r2]
  | ok s1 =>
    obtain ⟨-, -, -, a3, -⟩ := cycles_value wt hist sqrt ent ppc hw nI
      { McSolver.fresh rng bank with cycle := -(nI : Int), active := false } s1
      ⟨rfl, rfl, rfl, rfl, rfl⟩ (fresh_numbered (K := K) rng bank) c1
    exact cycles_unique wt hist sqrt ent ppc hw nA { s1 with active := true, pu := s1.pu.reset true } ⟨rfl, rfl, rfl, rfl, rfl⟩ a3 _ _ r1 r2

theorem cycles_exist (sqrt : K → K) (ent : List (Site P) → Out K) (ppc n : Nat) (s : McSolver P K) :
    ∃ out, McCycles sqrt ent wt hist ppc n s out := by
  induction n generalizing s with
  | zero => exact ⟨_, rfl⟩
  | succ n ih =>
    have hc := cycle_exists sqrt ent wt hist ppc s
    generalize mcStep sqrt ent ppc (s.bank.flatMap (evLog wt hist s.pu.off)) s = m at hc
    cases m with
    | throw => exact ⟨.throw, _, hc, rfl⟩
    | ub => exact ⟨.ub, _, hc, rfl⟩
    | ok s1 =>
      obtain ⟨o, ho⟩ := ih s1
      exact ⟨o, _, hc, ho⟩

/-- C140 (the relation is not empty): every run has an outcome. -/
theorem C140_exists (sqrt : K → K) (ent : List (Site P) → Out K) (ppc nI nA : Nat) (s : McSolver P K) :
    ∃ out, McSolve sqrt ent wt hist ppc nI nA s out := by
  obtain ⟨m, hm⟩ := cycles_exist wt hist sqrt ent ppc nI { s with cycle := -(nI : Int), active := false }
  cases m with
  | throw => exact ⟨.throw, _, hm, rfl⟩
  | ub => exact ⟨.ub, _, hm, rfl⟩
  | ok s1 =>
    obtain ⟨o, ho⟩ := cycles_exist wt hist sqrt ent ppc nA { s1 with active := true, pu := s1.pu.reset true }
    exact ⟨o, _, hm, ho⟩

/-- C140 (full claim, false): a run in which every cycle that is followed by another one banks sites delivers its results. -/
def C140_claim : Prop := ∀ (hist : Nat → Site Unit → List (Ev Unit ℚ)) (ppc nI nA : Nat) (rng : U64) (bank : List Unit)
  (out : Out (McSolver Unit ℚ)), 0 < ppc → bank.length = ppc → (∀ o p, NoWeight (hist o p)) →
  (∀ j, j + 1 < nI + nA → Delivers hist ppc (0, rng, (McSolver.fresh (K := ℚ) rng bank).bank) j) →
  McSolve (fun x => x) (fun _ => .ok 0) (fun _ => 1) hist ppc nI nA (McSolver.fresh rng bank) out → ∃ s, out = .ok s

/-- C140: when the histories of the last cycle bank no site, the source for a cycle that will never be run is drawn from an
empty bank, which is undefined behaviour, although all estimates are known by then. -/
theorem C140_claim_false : ¬ C140_claim := by
  intro h
  obtain ⟨out, ho⟩ := C140_exists (fun _ : Unit => (1 : ℚ)) (fun _ _ => []) (fun x => x) (fun _ => .ok 0) 1 0 1
    (McSolver.fresh 1#64 [()])
  obtain ⟨s, rfl⟩ := h (fun _ _ => []) 1 0 1 1#64 [()] out (by decide) rfl (by intro o p e he; simp at he) (by intro j hj; omega) ho
  obtain ⟨off, gen, B, -, -, h3, -⟩ := C140_run (fun _ : Unit => (1 : ℚ)) (fun _ _ => []) (fun x => x) (fun _ => .ok 0) 1 0 1
    (by intro o p e he; simp at he) 1#64 [()] s ho
  obtain ⟨h4, -⟩ := h3 0 (by decide)
  have : ((B 0).flatMap (children (fun o q => sitesOf ((fun (_ : Nat) (_ : Site Unit) => ([] : List (Ev Unit ℚ))) o q)) (off 0))) = [] := by
    simp [children, sitesOf]
  rw [this] at h4
  have hub : endOfCycle 1 (gen 0) ([] : List (Site Unit)) = .ub := by
    unfold endOfCycle
    rw [show stableSort ([] : List (Site Unit)) = [] from rfl, C41_empty_undefined 1 _ (by decide)]
  rw [hub] at h4
  simp at h4

/-- The history used below registers no further weight. -/
example (o : Nat) (p : Site Unit) : NoWeight ([.tl ((o + p.id : Nat) : ℚ), .site ()] : List (Ev Unit ℚ)) := by
  intro e he w hew
  subst hew
  simp at he

/-- Two particles, each banking one site in every cycle, one inactive and two active cycles: the run completes, three values
are recorded, two means.  The track-length score of the history with number `n` is `n`. -/
example : ∃ s : McSolver Unit ℚ,
    McSolve (fun x => x) (fun _ => .ok 0) (fun _ => 1) (fun o p => [.tl ((o + p.id : Nat) : ℚ), .site ()]) 2 1 2
      (McSolver.fresh 1#64 [(), ()]) (.ok s) ∧
    s.tl.hist = [some (1/2), some (5/2), some (9/2)] ∧ s.tl.mean = [some (5/2), some (7/2)] := by
  refine ⟨_, ⟨_, ⟨_, cycle_exists _ _ _ _ _ _, rfl⟩, ⟨_, cycle_exists _ _ _ _ _ _, ⟨_, cycle_exists _ _ _ _ _ _, rfl⟩⟩⟩, ?_, ?_⟩
  · decide +kernel
  · decide +kernel

end Verif.Mc
