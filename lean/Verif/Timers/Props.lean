import Verif.Timers.Model
import Mathlib.Data.List.Perm.Subperm
import Mathlib.Data.Rat.Defs
import Mathlib.Algebra.Order.Ring.Rat
import Mathlib.Tactic.NormNum
import Mathlib.Tactic.Ring
import Mathlib.Tactic.LinearCombination

/-!
# C126: timers
-/

namespace Verif.Timers

variable {K : Type} [Field K]

/-! ### Time of a timer -/

/-- The calls that start (`true`) and stop a timer, with their times: `seen` tells whether the timer exists already. -/
def marks (p : Path) : Bool → List (Op × K) → List (Bool × K)
  | _, [] => []
  | seen, (.make parent name start, t) :: es =>
    if parent ++ [name] = p then (if !seen && start then [(true, t)] else []) ++ marks p true es else marks p seen es
  | seen, (.tic q, t) :: es => (if q = p then [(true, t)] else []) ++ marks p seen es
  | seen, (.toc q, t) :: es => (if q = p then [(false, t)] else []) ++ marks p seen es

/-- The time between each start and the stop after it, and since the last start. -/
def spent (now : K) : List (Bool × K) → K
  | (true, a) :: (false, b) :: r => (b - a) + spent now r
  | [(true, a)] => now - a
  | _ => 0

/-- Starts and stops in turn, beginning with a start. -/
def Turns : List (Bool × K) → Prop
  | [] => True
  | [(b, _)] => b = true
  | (b, _) :: (c, t) :: r => b = true ∧ c = false ∧ Turns r

section time
variable {dbg : Bool}

theorem exec_other (s : Tree K) (p : Path) (e : Op × K) (s' : Tree K) (h : exec dbg s e = .ok s')
    (h1 : ∀ a n b, e.1 = .make a n b → a ++ [n] ≠ p) (h2 : e.1 ≠ .tic p) (h3 : e.1 ≠ .toc p) : s' p = s p := by
  obtain ⟨op, t⟩ := e
  cases op with
  | make a n b =>
    have hne := h1 a n b rfl
    simp only [exec, newTimer] at h
    split at h
    · cases h
    · split at h
      · cases h; rfl
      · cases h; simp [put, Ne.symm hne]
  | tic q =>
    have hne : p ≠ q := fun e => h2 (by rw [e])
    simp only [exec] at h
    split at h
    · cases h
    · rename_i l _
      cases hl : l.tic dbg t with
      | error f => rw [hl] at h; cases h
      | ok l' => rw [hl] at h; cases h; simp [put, hne]
  | toc q =>
    have hne : p ≠ q := fun e => h3 (by rw [e])
    simp only [exec] at h
    split at h
    · cases h
    · rename_i l _
      cases hl : l.toc dbg t with
      | error f => rw [hl] at h; cases h
      | ok l' => rw [hl] at h; cases h; simp [put, hne]

/-- From any state: what the timer shows in the end. -/
theorem time_from (p : Path) (now : K) (h : List (Op × K)) : ∀ (s s' : Tree K) (l' : Leaf K), execAll true s h = .ok s' → s' p = some l' →
    (s p = none → Turns (marks p false h) ∧ l'.read now = .ok (spent now (marks p false h))) ∧
    (∀ l, s p = some l → l.running = false → Turns (marks p true h) ∧ l'.read now = .ok (l.time + spent now (marks p true h))) ∧
    (∀ l w, s p = some l → l.running = true → l.wtime = some w → Turns ((true, w) :: marks p true h) ∧ l'.read now = .ok (l.time + spent now ((true, w) :: marks p true h))) := by
  induction h with
  | nil =>
    intro s s' l' he hl
    cases he
    refine ⟨fun h0 => (by rw [h0] at hl; cases hl), fun l h1 h2 => ?_, fun l w h1 h2 h3 => ?_⟩
    · rw [h1] at hl; cases hl
      simp [marks, Turns, spent, Leaf.read, h2]
    · rw [h1] at hl; cases hl
      simp [marks, Turns, spent, Leaf.read, h2, h3]
      ring
  | cons e es ih =>
    intro s s' l' he hl
    simp only [execAll] at he
    cases hx : exec true s e with
    | error f => rw [hx] at he; cases he
    | ok s1 =>
      rw [hx] at he
      obtain ⟨i1, i2, i3⟩ := ih s1 s' l' he hl
      obtain ⟨op, t⟩ := e
      cases op with
      | make a n b =>
        by_cases hp : a ++ [n] = p
        · simp only [exec, newTimer] at hx
          split at hx
          · cases hx
          · rw [hp] at hx
            refine ⟨fun h0 => ?_, fun l h1 h2 => ?_, fun l w h1 h2 h3 => ?_⟩
            · rw [h0] at hx
              cases hx
              have hs1 : put s p (Leaf.made b t) p = some (Leaf.made b t) := by simp [put]
              cases b with
              | false =>
                have := i2 _ hs1 rfl
                simpa [marks, hp, Leaf.made, Leaf.fresh] using this
              | true =>
                have := i3 _ t hs1 rfl rfl
                simpa [marks, hp, Leaf.made] using this
            · rw [h1] at hx; cases hx
              simpa [marks, hp] using i2 l h1 h2
            · rw [h1] at hx; cases hx
              simpa [marks, hp] using i3 l w h1 h2 h3
        · have hk : s1 p = s p := exec_other s p _ s1 hx (fun a' n' b' e => by cases e; exact hp) (by simp) (by simp)
          rw [hk] at i1 i2 i3
          simp only [marks, if_neg hp]
          exact ⟨i1, i2, i3⟩
      | tic q =>
        by_cases hp : q = p
        · subst hp
          simp only [exec] at hx
          refine ⟨fun h0 => (by rw [h0] at hx; cases hx), fun l h1 h2 => ?_, fun l w h1 h2 h3 => ?_⟩
          · rw [h1] at hx
            simp only [Leaf.tic, h2, Bool.and_false] at hx
            cases hx
            have := i3 ⟨l.time, true, some t⟩ t (by simp [put]) rfl rfl
            simpa [marks] using this
          · rw [h1] at hx
            simp only [Leaf.tic, h2, Bool.and_true] at hx
            cases hx
        · have hk : s1 p = s p := exec_other s p _ s1 hx (fun a' n' b' e => by cases e) (by simpa using hp) (by simp)
          rw [hk] at i1 i2 i3
          simp only [marks, if_neg hp, List.nil_append]
          exact ⟨i1, i2, i3⟩
      | toc q =>
        by_cases hp : q = p
        · subst hp
          simp only [exec] at hx
          refine ⟨fun h0 => (by rw [h0] at hx; cases hx), fun l h1 h2 => ?_, fun l w h1 h2 h3 => ?_⟩
          · rw [h1] at hx
            simp only [Leaf.toc, h2, Bool.not_false, Bool.and_true] at hx
            cases hx
          · rw [h1] at hx
            simp only [Leaf.toc, h2, h3, Bool.not_true, Bool.and_false] at hx
            cases hx
            have := i2 ⟨l.time + (t - w), false, some w⟩ (by simp [put]) rfl
            simp only [marks, if_true, List.cons_append, List.nil_append, Turns, spent, true_and]
            exact ⟨this.1, by rw [this.2, add_assoc]⟩
        · have hk : s1 p = s p := exec_other s p _ s1 hx (fun a' n' b' e => by cases e) (by simp) (by simpa using hp)
          rw [hk] at i1 i2 i3
          simp only [marks, if_neg hp, List.nil_append]
          exact ⟨i1, i2, i3⟩

/-- C126: with assertions, in a program that gets as far, each timer has been started and stopped in turn, and it shows the time from each start to the stop after it, and since the last start
if it runs. A timer that exists is started by `tic` only, not by `new_timer`. -/
theorem C126_time (p : Path) (now : K) (h : List (Op × K)) (s : Tree K) (l : Leaf K) (he : execAll true start h = .ok s) (hl : s p = some l) :
    Turns (marks p (decide (p = [])) h) ∧ l.read now = .ok (spent now (marks p (decide (p = [])) h)) := by
  obtain ⟨i1, i2, -⟩ := time_from p now h start s l he hl
  by_cases hp : p = []
  · subst hp
    simpa [Leaf.fresh] using i2 Leaf.fresh rfl rfl
  · simpa [hp] using i1 (by simp [start, hp])

end time

/-! ### `toc` and `new_timer` -/

/-- C126: what `toc` returns is the time of the timer, of all intervals so far. -/
theorem C126_toc (dbg : Bool) (now r : K) (l l' : Leaf K) (h : l.toc dbg now = .ok (l', r)) : l'.read now = .ok r ∧ ∃ w, l.wtime = some w ∧ r = l.time + (now - w) := by
  simp only [Leaf.toc] at h
  split at h
  · cases h
  · cases hw : l.wtime with
    | none => rw [hw] at h; cases h
    | some w => rw [hw] at h; cases h; simp [Leaf.read]

/-- The documentation of `toc` (timers.hpp:75-80): it returns the time since `tic`. -/
def C126_toc_claim (K : Type) [Field K] : Prop := ∀ (l l1 l2 : Leaf K) (a b r : K), l.tic true a = .ok l1 → l1.toc true b = .ok (l2, r) → r = b - a

/-- C126: it does so only for the first interval. -/
theorem C126_toc_iff (l l1 l2 : Leaf K) (a b r : K) (h1 : l.tic true a = .ok l1) (h2 : l1.toc true b = .ok (l2, r)) : r = b - a ↔ l.time = 0 := by
  simp only [Leaf.tic] at h1
  split at h1
  · cases h1
  · cases h1
    simp only [Leaf.toc, Bool.not_true, Bool.and_false] at h2
    cases h2
    constructor <;> intro h <;> linear_combination h

theorem C126_toc_claim_false : ¬ C126_toc_claim ℚ := fun h => by
  have := h ⟨1, false, none⟩ _ _ 5 7 _ rfl rfl
  norm_num at this

/-- The documentation of `new_timer` (timers.hpp:117-120): the timer returned runs if it is to be started, and has no time yet. -/
def C126_new_claim (K : Type) [Field K] : Prop := ∀ (s s' : Tree K) (now : K) (parent : Path) (name : String) (start : Bool), newTimer now s parent name start = .ok s' →
  ∃ l, s' (parent ++ [name]) = some l ∧ l.running = start ∧ l.read now = .ok 0

/-- C126: so it is if there was none of the name. Otherwise nothing changes: the timer that is there is returned, neither started nor set to zero. -/
theorem C126_new (s s' : Tree K) (now : K) (parent : Path) (name : String) (start : Bool) (h : newTimer now s parent name start = .ok s') :
    (s (parent ++ [name]) = none → ∃ l, s' (parent ++ [name]) = some l ∧ l.running = start ∧ l.read now = .ok 0) ∧ (∀ l, s (parent ++ [name]) = some l → s' = s) ∧
    ∀ q, q ≠ parent ++ [name] → s' q = s q := by
  simp only [newTimer] at h
  split at h
  · cases h
  · split at h
    · rename_i l hl
      cases h
      exact ⟨fun h0 => (by rw [h0] at hl; cases hl), fun _ _ => rfl, fun _ _ => rfl⟩
    · rename_i h0
      cases h
      refine ⟨fun _ => ⟨Leaf.made start now, by simp [put], ?_⟩, fun l hl => (by rw [h0] at hl; cases hl), fun q hq => by simp [put, hq]⟩
      cases start <;> simp [Leaf.made, Leaf.fresh, Leaf.read]

theorem C126_new_claim_false : ¬ C126_new_claim ℚ := fun h => by
  obtain ⟨l, h1, h2, -⟩ := h (put start ["CMFD"] Leaf.fresh) _ 0 [] "CMFD" true rfl
  have : l = Leaf.fresh := by
    have e : put start ["CMFD"] (Leaf.fresh : Leaf ℚ) ([] ++ ["CMFD"]) = some Leaf.fresh := by simp [put]
    rw [e] at h1; exact (Option.some.inj h1).symm
  rw [this] at h2
  cases h2

/-! ### A run -/

/-- Which timers exist and which of them run. -/
abbrev Status := List (Path × Bool)

def Status.set (a : Status) (p : Path) (b : Bool) : Status := a.map fun x => if x.1 = p then (p, b) else x

def Status.step (a : Status) : Op → Option Status
  | .make parent name start => match a.lookup parent with
    | none => none
    | some _ => match a.lookup (parent ++ [name]) with
      | some _ => some a
      | none => some (a ++ [(parent ++ [name], start)])
  | .tic p => match a.lookup p with
    | some false => some (a.set p true)
    | _ => none
  | .toc p => match a.lookup p with
    | some true => some (a.set p false)
    | _ => none

def Status.steps (a : Status) : List Op → Option Status
  | [] => some a
  | o :: os => (a.step o).bind fun a' => Status.steps a' os

/-- A state of the timers has this status; timers that run have a start. -/
def Matches (s : Tree K) (a : Status) : Prop := ∀ p, match s p with
  | none => a.lookup p = none
  | some l => a.lookup p = some l.running ∧ (l.running = true → l.wtime.isSome)

theorem Status.lookup_set (a : Status) (p q : Path) (b : Bool) : (a.set p b).lookup q = if q = p then (a.lookup q).map fun _ => b else a.lookup q := by
  induction a with
  | nil => simp [Status.set]
  | cons x a ih =>
    obtain ⟨r, c⟩ := x
    simp only [Status.set, List.map_cons] at ih ⊢
    by_cases hr : r = p
    · subst hr
      by_cases hq : q = r
      · subst hq; simp [List.lookup_cons]
      · simp [List.lookup_cons, hq, beq_eq_false_iff_ne.mpr hq, ih]
    · by_cases hq : q = r
      · subst hq; simp [List.lookup_cons, hr]
      · simp [List.lookup_cons, hr, beq_eq_false_iff_ne.mpr hq, ih]

theorem Status.lookup_append (a : Status) (p q : Path) (b : Bool) (h : a.lookup p = none) : (a ++ [(p, b)]).lookup q = if q = p then some b else a.lookup q := by
  induction a with
  | nil =>
    by_cases hq : q = p
    · subst hq; simp [List.lookup_cons]
    · simp [List.lookup_cons, hq, beq_eq_false_iff_ne.mpr hq]
  | cons x a ih =>
    obtain ⟨r, c⟩ := x
    by_cases hp : p = r
    · subst hp; simp [List.lookup_cons] at h
    · have h' : a.lookup p = none := by simpa [List.lookup_cons, beq_eq_false_iff_ne.mpr hp] using h
      by_cases hq : q = r
      · subst hq; simp [List.lookup_cons, Ne.symm hp]
      · simp [List.lookup_cons, beq_eq_false_iff_ne.mpr hq, ih h']

theorem Matches.put {s : Tree K} {a a' : Status} (h : Matches s a) (p : Path) (l : Leaf K) (hl : l.running = true → l.wtime.isSome) (hp : a'.lookup p = some l.running)
    (hq : ∀ q, q ≠ p → a'.lookup q = a.lookup q) : Matches (put s p l) a' := by
  intro q
  by_cases e : q = p
  · subst e; simp only [Timers.put, if_true]; exact ⟨hp, hl⟩
  · simp only [Timers.put, if_neg e, hq q e]; exact h q

theorem step_ok {s : Tree K} {a a' : Status} (h : Matches s a) (o : Op) (t : K) (ha : a.step o = some a') : ∃ s', exec true s (o, t) = .ok s' ∧ Matches s' a' := by
  cases o with
  | make parent name start =>
    simp only [Status.step] at ha
    have h1 := h parent
    have h2 := h (parent ++ [name])
    simp only [exec, newTimer]
    cases hs : s parent with
    | none => rw [hs] at h1; rw [h1] at ha; cases ha
    | some l =>
      rw [hs] at h1
      rw [h1.1] at ha
      cases hn : s (parent ++ [name]) with
      | some l2 =>
        rw [hn] at h2
        rw [h2.1] at ha
        cases ha
        exact ⟨s, rfl, h⟩
      | none =>
        rw [hn] at h2
        simp only at h2
        rw [h2] at ha
        cases ha
        refine ⟨_, rfl, h.put _ _ ?_ ?_ ?_⟩
        · cases start <;> simp [Leaf.made, Leaf.fresh]
        · rw [Status.lookup_append _ _ _ _ h2, if_pos rfl]
          cases start <;> rfl
        · intro q hq; rw [Status.lookup_append _ _ _ _ h2, if_neg hq]
  | tic p =>
    simp only [Status.step] at ha
    have h1 := h p
    simp only [exec]
    cases hs : s p with
    | none => rw [hs] at h1; simp only at h1; rw [h1] at ha; cases ha
    | some l =>
      rw [hs] at h1
      obtain ⟨h1, h2⟩ := h1
      cases hr : l.running with
      | true => rw [h1, hr] at ha; cases ha
      | false =>
        rw [h1, hr] at ha
        cases ha
        simp only [Leaf.tic, hr, Bool.and_false]
        refine ⟨_, rfl, h.put _ _ (fun _ => rfl) ?_ ?_⟩
        · rw [Status.lookup_set, if_pos rfl, h1]; rfl
        · intro q hq; rw [Status.lookup_set, if_neg hq]
  | toc p =>
    simp only [Status.step] at ha
    have h1 := h p
    simp only [exec]
    cases hs : s p with
    | none => rw [hs] at h1; simp only at h1; rw [h1] at ha; cases ha
    | some l =>
      rw [hs] at h1
      obtain ⟨h1, h2⟩ := h1
      cases hr : l.running with
      | false => rw [h1, hr] at ha; cases ha
      | true =>
        rw [h1, hr] at ha
        cases ha
        obtain ⟨w, hw⟩ := Option.isSome_iff_exists.mp (h2 hr)
        simp only [Leaf.toc, hr, hw, Bool.not_true, Bool.and_false]
        refine ⟨_, rfl, h.put _ _ (fun h => by cases h) ?_ ?_⟩
        · rw [Status.lookup_set, if_pos rfl, h1]; rfl
        · intro q hq; rw [Status.lookup_set, if_neg hq]

theorem steps_ok (os : List Op) : ∀ {s : Tree K} {a a' : Status}, Matches s a → ∀ es : List (Op × K), es.map Prod.fst = os → a.steps os = some a' → ∃ s', execAll true s es = .ok s' ∧ Matches s' a' := by
  induction os with
  | nil =>
    intro s a a' h es he ha
    rw [List.map_eq_nil_iff] at he
    subst he
    cases ha
    exact ⟨s, rfl, h⟩
  | cons o os ih =>
    intro s a a' h es he ha
    cases es with
    | nil => cases he
    | cons e es =>
      simp only [List.map_cons, List.cons.injEq] at he
      obtain ⟨rfl, he⟩ := he
      simp only [Status.steps] at ha
      cases hst : a.step e.1 with
      | none => rw [hst] at ha; cases ha
      | some a1 =>
        rw [hst] at ha
        obtain ⟨s1, h1, m1⟩ := step_ok h e.1 e.2 hst
        obtain ⟨s2, h2, m2⟩ := ih m1 es he ha
        refine ⟨s2, ?_, m2⟩
        simp only [execAll]
        rw [show exec true s e = .ok s1 from h1]
        exact h2

theorem steps_append (os os' : List Op) : ∀ a : Status, a.steps (os ++ os') = (a.steps os).bind fun a' => a'.steps os' := by
  induction os with
  | nil => intro a; rfl
  | cons o os ih =>
    intro a
    simp only [List.cons_append, Status.steps]
    cases a.step o with
    | none => rfl
    | some a1 => exact ih a1

def first : Status := [([], false)]

theorem start_matches : Matches (start : Tree K) first := by
  intro p
  by_cases hp : p = []
  · subst hp; simp [start, first, Leaf.fresh, List.lookup_cons]
  · simp [start, hp, first, List.lookup_cons, beq_eq_false_iff_ne.mpr hp]

/-- Status after the constructors. -/
def ready (parts : List Part) : Option Status := first.steps ([.tic []] ++ inputOps parts)

theorem parts_cases (P : List Part → Prop) (h0 : P []) (h1 : ∀ a, P [a]) (h2 : ∀ a b, a ≠ b → P [a, b]) (h3 : ∀ a b c, a ≠ b → a ≠ c → b ≠ c → P [a, b, c]) (l : List Part) (hl : l.Nodup) : P l := by
  have hc : l.length ≤ 3 := by
    have := (hl.subperm (l₂ := [.moc, .sn, .cmfd]) fun x _ => by cases x <;> simp).length_le
    simpa using this
  match l, hl, hc with
  | [], _, _ => exact h0
  | [a], _, _ => exact h1 a
  | [a, b], hl, _ => exact h2 a b (by simpa using hl)
  | [a, b, c], hl, _ =>
    simp only [List.nodup_cons, List.mem_cons, List.not_mem_nil, or_false, not_or] at hl
    exact h3 a b c hl.1.1 hl.1.2 hl.2.1
  | a :: b :: c :: d :: r, _, hc => simp at hc

/-- The constructors leave a status which every use of a part that has been made leaves as it is; `RootTimer` runs, no other. -/
theorem ready_ok (parts : List Part) (hn : parts.Nodup) :
    ∃ a : Status, ready parts = some a ∧ (∀ x ∈ parts, a.steps x.use = some a) ∧ a.step (.toc []) = some (a.set [] false) ∧ (∀ p b, (a.set [] false).lookup p = some b → b = false) ∧
      (a.set [] false).steps ([.tic []] ++ (inputOps parts).take 4) = some a ∧ a.lookup ["Input Processor"] = some false := by
  have key : ∀ l : List Part, (match ready l with
      | none => false
      | some a => l.all (fun x => decide (a.steps x.use = some a)) && decide (a.step (.toc []) = some (a.set [] false)) && (a.set [] false).all (fun x => !x.2) &&
        decide ((a.set [] false).steps ([.tic []] ++ (inputOps l).take 4) = some a) && decide (a.lookup ["Input Processor"] = some false)) = true →
      ∃ a : Status, ready l = some a ∧ (∀ x ∈ l, a.steps x.use = some a) ∧ a.step (.toc []) = some (a.set [] false) ∧ (∀ p b, (a.set [] false).lookup p = some b → b = false) ∧
      (a.set [] false).steps ([.tic []] ++ (inputOps l).take 4) = some a ∧ a.lookup ["Input Processor"] = some false := by
    intro l h
    cases hr : ready l with
    | none => rw [hr] at h; cases h
    | some a =>
      rw [hr] at h
      simp only [Bool.and_eq_true, List.all_eq_true, decide_eq_true_eq] at h
      obtain ⟨⟨⟨⟨h1, h2⟩, h3⟩, h4⟩, h5⟩ := h
      refine ⟨a, rfl, h1, h2, fun p b hb => ?_, h4, h5⟩
      have : (p, b) ∈ a.set [] false := by
        clear h1 h2 h3 h4 h5 hr
        generalize a.set [] false = c at hb
        induction c with
        | nil => cases hb
        | cons x c ih =>
          rw [List.lookup_cons] at hb
          split at hb
          · rename_i e
            cases hb
            rw [beq_iff_eq] at e
            rw [e]; exact List.mem_cons_self ..
          · exact List.mem_cons_of_mem _ (ih hb)
      have := h3 _ this
      simpa using this
  refine parts_cases (fun parts => ∃ a : Status, ready parts = some a ∧ (∀ x ∈ parts, a.steps x.use = some a) ∧ a.step (.toc []) = some (a.set [] false) ∧
      (∀ p b, (a.set [] false).lookup p = some b → b = false) ∧ (a.set [] false).steps ([.tic []] ++ (inputOps parts).take 4) = some a ∧ a.lookup ["Input Processor"] = some false) ?_ ?_ ?_ ?_ parts hn
  · exact key [] (by decide +kernel)
  · intro a
    refine key _ ?_
    cases a <;> decide +kernel
  · intro a b hab
    refine key _ ?_
    cases a <;> cases b <;> first | exact absurd rfl hab | decide +kernel
  · intro a b c hab hac hbc
    refine key _ ?_
    cases a <;> cases b <;> cases c <;> first | exact absurd rfl hab | exact absurd rfl hac | exact absurd rfl hbc | decide +kernel

theorem uses_ok (a : Status) (parts : List Part) (h : ∀ x ∈ parts, a.steps x.use = some a) (uses : List Part) (hu : ∀ x ∈ uses, x ∈ parts) : a.steps (uses.flatMap Part.use) = some a := by
  induction uses with
  | nil => rfl
  | cons x uses ih =>
    rw [List.flatMap_cons, steps_append, h x (hu x (List.mem_cons_self ..))]
    exact ih fun y hy => hu y (List.mem_cons_of_mem _ hy)

theorem run_status (parts uses : List Part) (hn : parts.Nodup) (hu : ∀ x ∈ uses, x ∈ parts) :
    ∃ a : Status, first.steps (runOps parts uses) = some (a.set [] false) ∧ (∀ p b, (a.set [] false).lookup p = some b → b = false) ∧
      (a.set [] false).steps ([.tic []] ++ (inputOps parts).take 4) = some a ∧ a.lookup ["Input Processor"] = some false := by
  obtain ⟨a, h1, h2, h3, h4, h5, h6⟩ := ready_ok parts hn
  refine ⟨a, ?_, h4, h5, h6⟩
  unfold runOps
  rw [steps_append, steps_append]
  unfold ready at h1
  rw [h1]
  simp only [Option.bind_some]
  rw [uses_ok a parts h2 uses hu]
  simp only [Option.bind_some, Status.steps, h3]

/-- C126: no assertion of a timer fails in a run that ends normally, whatever it is made of and however many sweeps and solutions of CMFD it has, and all timers are stopped when they are
printed. -/
theorem C126_run (parts uses : List Part) (hn : parts.Nodup) (hu : ∀ x ∈ uses, x ∈ parts) (es : List (Op × K)) (he : es.map Prod.fst = runOps parts uses) :
    ∃ s, execAll true start es = .ok s ∧ Printable s := by
  obtain ⟨a, h1, h4, -⟩ := run_status parts uses hn hu
  obtain ⟨s, hs, hm⟩ := steps_ok _ (start_matches (K := K)) es he h1
  refine ⟨s, hs, fun p l hl => ?_⟩
  have := hm p
  rw [hl] at this
  exact h4 p _ this.1

theorem execAll_append (dbg : Bool) (es es' : List (Op × K)) : ∀ s : Tree K, execAll dbg s (es ++ es') = match execAll dbg s es with
    | .error f => .error f
    | .ok s' => execAll dbg s' es' := by
  induction es with
  | nil => intro s; rfl
  | cons e es ih =>
    intro s
    simp only [List.cons_append, execAll]
    cases exec dbg s e with
    | error f => rfl
    | ok s1 => exact ih s1

/-- The claim that the function `run` can be called again, as the tests do it once. -/
def C126_again_claim (K : Type) [Field K] : Prop := ∀ (parts uses : List Part), parts.Nodup → (∀ x ∈ uses, x ∈ parts) → ∀ es : List (Op × K), es.map Prod.fst = runOps parts uses ++ runOps parts uses →
  ∃ s, execAll true start es = .ok s

/-- C126: a second run always fails: `new_timer` does not start the timer of the input processor, and its `toc` asserts that it runs. -/
theorem C126_again (parts uses : List Part) (hn : parts.Nodup) (hu : ∀ x ∈ uses, x ∈ parts) (es : List (Op × K)) (he : es.map Prod.fst = runOps parts uses ++ runOps parts uses) :
    execAll true start es = .error .assert := by
  obtain ⟨a, h1, -, h5, h6⟩ := run_status parts uses hn hu
  have hsplit : runOps parts uses ++ runOps parts uses = (runOps parts uses ++ ([.tic []] ++ (inputOps parts).take 4)) ++ (.toc ["Input Processor"] :: (runOps parts uses).drop 6) := by
    simp [runOps, inputOps]
  rw [hsplit] at he
  obtain ⟨e1, e2, rfl, m1, m2⟩ := List.map_eq_append_iff.mp he
  have hst : first.steps (runOps parts uses ++ ([.tic []] ++ (inputOps parts).take 4)) = some a := by
    rw [steps_append, h1]; exact h5
  obtain ⟨s, hs, hm⟩ := steps_ok _ (start_matches (K := K)) e1 m1 hst
  rw [execAll_append, hs]
  cases e2 with
  | nil => cases m2
  | cons e e2 =>
    obtain ⟨op, t⟩ := e
    simp only [List.map_cons, List.cons.injEq] at m2
    obtain ⟨rfl, -⟩ := m2
    have hip := hm ["Input Processor"]
    cases hl : s ["Input Processor"] with
    | none => rw [hl] at hip; simp only at hip; rw [h6] at hip; cases hip
    | some l =>
      rw [hl] at hip
      have hr : l.running = false := by
        have := hip.1
        rw [h6] at this
        exact (Option.some.inj this).symm
      simp only [execAll, exec, hl, Leaf.toc, hr]
      rfl

/-- Times of calls that go on, one after the other. -/
def ticks (os : List Op) (f : Nat → ℚ) : List (Op × ℚ) := os.zipIdx.map fun x => (x.1, f x.2)

theorem ticks_fst (os : List Op) (f : Nat → ℚ) : (ticks os f).map Prod.fst = os := by
  simp [ticks, List.map_map, Function.comp_def]

theorem C126_again_claim_false : ¬ C126_again_claim ℚ := fun h => by
  obtain ⟨s, hs⟩ := h [.moc] [.moc] (by decide) (by simp) (ticks (runOps [.moc] [.moc] ++ runOps [.moc] [.moc]) fun i => i) (ticks_fst _ _)
  rw [C126_again [.moc] [.moc] (by decide) (by simp) _ (ticks_fst _ _)] at hs
  cases hs

/-- Time that a timer shows. -/
def shown (r : Except Fail (Tree ℚ)) (p : Path) (now : ℚ) : Option ℚ := match r with
  | .error _ => none
  | .ok s => (s p).bind fun l => match l.read now with
    | .error _ => none
    | .ok t => some t

/-- C126: without assertions the second run goes on, and the timer of the input processor shows the time since it was started in the first run as well: here the calls are a second apart, and
it shows more than the whole program has taken. -/
theorem C126_again_release : ∃ t, shown (execAll false start (ticks (runOps [.moc] [.moc] ++ runOps [.moc] [.moc]) fun i => i)) ["Input Processor"] 47 = some t ∧
    ∃ u, shown (execAll false start (ticks (runOps [.moc] [.moc] ++ runOps [.moc] [.moc]) fun i => i)) [] 47 = some u ∧ u < t ∧ 47 < t := by
  refine ⟨51, by decide +kernel, 46, by decide +kernel, by norm_num, by norm_num⟩

theorem shown_stopped (s : Tree ℚ) (p : Path) (now t : ℚ) (hp : Printable s) (h : shown (.ok s) p now = some t) : ∃ l, s p = some l ∧ l.time = t := by
  simp only [shown] at h
  cases hl : s p with
  | none => rw [hl] at h; cases h
  | some l =>
    rw [hl] at h
    have := hp p l hl
    simp only [Option.bind_some, Leaf.read, this] at h
    exact ⟨l, rfl, by simpa using h⟩

/-! ### Parts and the whole -/

section order
variable [LinearOrder K] [IsStrictOrderedRing K]

/-- Bounds of all timers at time `t` of a program that began at `t0`. -/
def Within (t0 t : K) (s : Tree K) : Prop := ∀ p l, s p = some l → 0 ≤ l.time ∧ (l.running = false → l.time ≤ t - t0) ∧
  (l.running = true → ∃ w, l.wtime = some w ∧ t0 ≤ w ∧ w ≤ t ∧ l.time ≤ w - t0)

theorem Within.mono {t0 t t' : K} {s : Tree K} (h : Within t0 t s) (ht : t ≤ t') : Within t0 t' s := by
  intro p l hl
  obtain ⟨h1, h2, h3⟩ := h p l hl
  refine ⟨h1, fun hr => (h2 hr).trans (by linarith), fun hr => ?_⟩
  obtain ⟨w, a, b, c, d⟩ := h3 hr
  exact ⟨w, a, b, c.trans ht, d⟩

theorem Within.put {t0 t : K} {s : Tree K} (h : Within t0 t s) (p : Path) (l : Leaf K) (hl : 0 ≤ l.time ∧ (l.running = false → l.time ≤ t - t0) ∧
    (l.running = true → ∃ w, l.wtime = some w ∧ t0 ≤ w ∧ w ≤ t ∧ l.time ≤ w - t0)) : Within t0 t (put s p l) := by
  intro q m hm
  by_cases e : q = p
  · subst e
    simp only [Timers.put, if_true, Option.some.injEq] at hm
    subst hm; exact hl
  · simp only [Timers.put, if_neg e] at hm
    exact h q m hm

theorem within_step {t0 t : K} {s s' : Tree K} (h : Within t0 t s) (h0 : t0 ≤ t) (o : Op) (he : exec true s (o, t) = .ok s') : Within t0 t s' := by
  cases o with
  | make a n b =>
    simp only [exec, newTimer] at he
    split at he
    · cases he
    · split at he
      · cases he; exact h
      · cases he
        refine h.put _ _ ?_
        cases b
        · simp [Leaf.made, Leaf.fresh]; linarith
        · simp [Leaf.made]; exact h0
  | tic q =>
    simp only [exec] at he
    cases hq : s q with
    | none => rw [hq] at he; cases he
    | some l =>
      rw [hq] at he
      cases hr : l.running with
      | true => simp only [Leaf.tic, hr, Bool.and_true] at he; cases he
      | false =>
        simp only [Leaf.tic, hr, Bool.and_false] at he
        cases he
        obtain ⟨h1, h2, -⟩ := h q l hq
        exact h.put _ _ ⟨h1, fun h => by simp at h, fun _ => ⟨t, rfl, h0, le_rfl, h2 hr⟩⟩
  | toc q =>
    simp only [exec] at he
    cases hq : s q with
    | none => rw [hq] at he; cases he
    | some l =>
      rw [hq] at he
      cases hr : l.running with
      | false => simp only [Leaf.toc, hr, Bool.not_false, Bool.and_true] at he; cases he
      | true =>
        obtain ⟨h1, -, h3⟩ := h q l hq
        obtain ⟨w, a, b, c, d⟩ := h3 hr
        simp only [Leaf.toc, hr, a, Bool.not_true, Bool.and_false] at he
        cases he
        refine h.put _ _ ⟨?_, fun _ => ?_, fun h => by simp at h⟩
        · show 0 ≤ l.time + (t - w); linarith
        · show l.time + (t - w) ≤ t - t0; linarith

theorem within_all {t0 : K} (es : List (Op × K)) : ∀ (t : K) (s s' : Tree K), Within t0 t s → t0 ≤ t → List.IsChain (· ≤ ·) (t :: es.map Prod.snd) → execAll true s es = .ok s' →
    ∃ t', t ≤ t' ∧ (∀ u, (∀ e ∈ es, e.2 ≤ u) → t ≤ u → t' ≤ u) ∧ Within t0 t' s' := by
  induction es with
  | nil =>
    intro t s s' h _ _ he
    cases he
    exact ⟨t, le_rfl, fun u _ hu => hu, h⟩
  | cons e es ih =>
    intro t s s' h h0 hc he
    rw [List.map_cons, List.isChain_cons_cons] at hc
    simp only [execAll] at he
    cases hx : exec true s e with
    | error f => rw [hx] at he; cases he
    | ok s1 =>
      rw [hx] at he
      obtain ⟨t', h1, h2, h3⟩ := ih e.2 s1 s' (within_step (h.mono hc.1) (h0.trans hc.1) e.1 hx) (h0.trans hc.1) hc.2 he
      exact ⟨t', hc.1.trans h1, fun u hu _ => h2 u (fun x hx => hu x (List.mem_cons_of_mem _ hx)) (hu e (List.mem_cons_self ..)), h3⟩

/-- C126: no timer shows a negative time or more than has passed since the program began; in a run, more than `RootTimer`. -/
theorem C126_root (parts uses : List Part) (hn : parts.Nodup) (hu : ∀ x ∈ uses, x ∈ parts) (es : List (Op × K)) (he : es.map Prod.fst = runOps parts uses)
    (hc : List.IsChain (· ≤ ·) (es.map Prod.snd)) (s : Tree K) (hs : execAll true start es = .ok s) (p : Path) (l : Leaf K) (hl : s p = some l) :
    ∃ r, s [] = some r ∧ 0 ≤ l.time ∧ l.time ≤ r.time := by
  obtain ⟨s', hs', hpr⟩ := C126_run parts uses hn hu es he
  rw [hs] at hs'; cases hs'
  have hroot : ∃ r, s [] = some r := by
    have : ∀ (es : List (Op × K)) (s s' : Tree K), (∃ r, s [] = some r) → execAll true s es = .ok s' → ∃ r, s' [] = some r := by
      intro es
      induction es with
      | nil => intro s s' h he; cases he; exact h
      | cons e es ih =>
        intro s s' h he
        simp only [execAll] at he
        cases hx : exec true s e with
        | error f => rw [hx] at he; cases he
        | ok s1 =>
          rw [hx] at he
          refine ih s1 s' ?_ he
          by_cases h1 : e.1 = .tic []
          · simp only [exec, h1] at hx
            obtain ⟨r, hr⟩ := h
            rw [hr] at hx
            dsimp only at hx
            cases hl : r.tic true e.2 with
            | error f => rw [hl] at hx; cases hx
            | ok l' => rw [hl] at hx; cases hx; exact ⟨l', by simp [put]⟩
          · by_cases h2 : e.1 = .toc []
            · simp only [exec, h2] at hx
              obtain ⟨r, hr⟩ := h
              rw [hr] at hx
              dsimp only at hx
              cases hl : r.toc true e.2 with
              | error f => rw [hl] at hx; cases hx
              | ok l' => rw [hl] at hx; cases hx; exact ⟨l'.1, by simp [put]⟩
            · rw [exec_other s [] e s1 hx (fun a n b _ => by simp) h1 h2]; exact h
    exact this es start s ⟨_, rfl⟩ hs
  obtain ⟨r, hr⟩ := hroot
  obtain ⟨e1, e2, rfl, m1, m2⟩ := List.map_eq_append_iff.mp (show es.map Prod.fst = (Op.tic [] :: (inputOps parts ++ uses.flatMap Part.use)) ++ [.toc []] by rw [he]; simp [runOps])
  cases e1 with
  | nil => cases m1
  | cons a e1 =>
    obtain ⟨oa, t0⟩ := a
    obtain ⟨⟨ob, t1⟩, rfl⟩ : ∃ b, e2 = [b] := by
      cases e2 with
      | nil => cases m2
      | cons b e2 => cases e2 with
        | nil => exact ⟨b, rfl⟩
        | cons c e2 => simp at m2
    simp only [List.map_cons, List.cons.injEq, List.map_nil, and_true] at m1 m2
    obtain ⟨rfl, m1⟩ := m1
    subst m2
    -- the root
    have hmid : ∀ e ∈ e1, e.1 ≠ .tic [] ∧ e.1 ≠ .toc [] := by
      intro e hem
      have : e.1 ∈ inputOps parts ++ uses.flatMap Part.use := by rw [← m1]; exact List.mem_map_of_mem hem
      have hpart : ∀ x : Part, (∀ o ∈ x.construct, o ≠ .tic [] ∧ o ≠ .toc []) ∧ ∀ o ∈ x.use, o ≠ .tic [] ∧ o ≠ .toc [] := by
        intro x; cases x <;> decide
      simp only [inputOps, List.mem_append, List.mem_flatMap] at this
      rcases this with ((h | ⟨x, -, h⟩) | h) | ⟨x, -, h⟩
      · revert h; generalize e.1 = o; intro h
        simp only [List.mem_cons, List.not_mem_nil, or_false] at h
        rcases h with rfl | rfl | rfl | rfl | rfl | rfl | rfl | rfl | rfl | rfl | rfl <;> decide
      · exact (hpart x).1 _ h
      · revert h; generalize e.1 = o; intro h
        simp only [List.mem_cons, List.not_mem_nil, or_false] at h
        rcases h with rfl | rfl <;> decide
      · exact (hpart x).2 _ h
    have hmarks : ∀ (es : List (Op × K)), (∀ e ∈ es, e.1 ≠ .tic [] ∧ e.1 ≠ .toc []) → marks [] true (es ++ [(.toc [], t1)]) = [(false, t1)] := by
      intro es
      induction es with
      | nil => intro _; simp [marks]
      | cons e es ih =>
        intro h
        have := ih fun x hx => h x (List.mem_cons_of_mem _ hx)
        obtain ⟨o, t⟩ := e
        have ho := h (o, t) (List.mem_cons_self ..)
        cases o with
        | make a n b => simpa [marks] using this
        | tic q =>
          have hq : q ≠ [] := fun e => ho.1 (by rw [e])
          simpa [marks, hq] using this
        | toc q =>
          have hq : q ≠ [] := fun e => ho.2 (by rw [e])
          simpa [marks, hq] using this
    have ht := (C126_time [] 0 _ s r hs hr).2
    have hrr : r.running = false := hpr [] r hr
    rw [show decide (([] : Path) = []) = true from rfl, List.cons_append] at ht
    simp only [marks, if_true, List.cons_append, List.nil_append] at ht
    rw [hmarks e1 hmid] at ht
    simp only [spent, Leaf.read, hrr] at ht
    have htime : r.time = t1 - t0 := by
      have : r.time = t1 - t0 + 0 := by simpa using ht
      rw [this, add_zero]
    -- the others
    have hstart : Within t0 t0 (start : Tree K) := by
      intro q m hm
      have : m = Leaf.fresh := by
        by_cases e : q = []
        · subst e; exact (Option.some.inj hm).symm
        · simp [start, e] at hm
      subst this
      simp [Leaf.fresh]
    obtain ⟨t', h1, h2, h3⟩ := within_all _ t0 start s hstart le_rfl (by
      rw [List.cons_append, List.map_cons, List.isChain_cons_cons]
      exact ⟨le_rfl, by rwa [List.cons_append, List.map_cons] at hc⟩) hs
    have hpw := (List.isChain_iff_pairwise.mp hc)
    have hle : ∀ e ∈ (Op.tic [], t0) :: e1 ++ [(Op.toc [], t1)], e.2 ≤ t1 := by
      intro e hem
      rw [List.map_append, List.pairwise_append] at hpw
      rcases List.mem_append.mp hem with h | h
      · exact hpw.2.2 _ (List.mem_map_of_mem h) _ (by simp)
      · rw [List.mem_singleton] at h; rw [h]
    have ht' := h2 t1 hle (hle (Op.tic [], t0) (by simp))
    obtain ⟨k1, k2, -⟩ := h3 p l hl
    refine ⟨r, hr, k1, ?_⟩
    rw [htime]
    exact (k2 (hpr p l hl)).trans (by linarith)

end order

/-- The claim that a timer shows at least the time of each timer below it. -/
def C126_parts_claim : Prop := ∀ (parts uses : List Part), parts.Nodup → (∀ x ∈ uses, x ∈ parts) → ∀ (es : List (Op × ℚ)) (s : Tree ℚ), es.map Prod.fst = runOps parts uses →
  List.IsChain (· ≤ ·) (es.map Prod.snd) → execAll true start es = .ok s → ∀ p name l m, s p = some l → s (p ++ [name]) = some m → m.time ≤ l.time

/-- C126: it is false: the timer of a sweeper is stopped before that of its sweep (likewise the constructors of Sn and CMFD), and what passes between the two calls is shown by the lower one
only. -/
theorem C126_parts_claim_false : ¬ C126_parts_claim := fun h => by
  have he := C126_run [.moc] [.moc] (by decide) (by simp) (ticks (runOps [.moc] [.moc]) fun i => if i < 22 then i else 100) (ticks_fst _ _)
  obtain ⟨s, hs, hpr⟩ := he
  have h1 : shown (execAll true start (ticks (runOps [.moc] [.moc]) fun i => if i < 22 then i else 100)) ["MoC Sweeper"] 100 = some 6 := by decide +kernel
  have h2 : shown (execAll true start (ticks (runOps [.moc] [.moc]) fun i => if i < 22 then i else 100)) ["MoC Sweeper", "Sweep"] 100 = some 80 := by decide +kernel
  rw [hs] at h1 h2
  obtain ⟨l, a1, a2⟩ := shown_stopped s _ 100 6 hpr h1
  obtain ⟨m, b1, b2⟩ := shown_stopped s _ 100 80 hpr h2
  have := h [.moc] [.moc] (by decide) (by simp) _ s (ticks_fst _ _) (by decide +kernel) hs ["MoC Sweeper"] "Sweep" l m a1 b1
  rw [a2, b2] at this
  norm_num at this

/-- The same run: what the timers show, and `C126_root` for all of them. -/
example : shown (execAll true start (ticks (runOps [.sn, .moc, .cmfd] [.cmfd, .sn, .moc, .sn]) fun i => i)) ["Sn Sweeper"] 60 = some 12 ∧
    shown (execAll true start (ticks (runOps [.sn, .moc, .cmfd] [.cmfd, .sn, .moc, .sn]) fun i => i)) [] 60 = some 53 := by decide +kernel
example : ∀ s, execAll true start (ticks (runOps [.moc] [.moc]) fun i => i) = .ok s → ∀ p l, s p = some l → ∃ r, s [] = some r ∧ 0 ≤ l.time ∧ l.time ≤ r.time :=
  fun s hs p l hl => C126_root [.moc] [.moc] (by decide) (by simp) _ (ticks_fst _ _) (by decide +kernel) s hs p l hl

end Verif.Timers
