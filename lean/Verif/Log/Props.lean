import Verif.Log.Model

/-!
# C127: screen, log file and warnings
-/

namespace Verif.Log

/-! ### What is said -/

/-- What the program says on the screen; `seen` are the warnings it has given before. -/
def spoken : List String → List Ev → List Char
  | _, [] => []
  | seen, .tee s :: es => s.toList ++ spoken seen es
  | seen, .cout s :: es => s.toList ++ spoken seen es
  | seen, .start name _ :: es => ("Logging output to: " ++ (name ++ ".log") ++ "\n\n").toList ++ spoken seen es
  | seen, .warn m :: es => if m ∈ seen then spoken seen es else "WARNING: ".toList ++ m.toList ++ "\n".toList ++ spoken (seen ++ [m]) es

/-- What it says in the log file, once it is open: all but what goes to the screen only. -/
def logged : Bool → List String → List Ev → List Char
  | _, _, [] => []
  | f, seen, .tee s :: es => (if f then s.toList else []) ++ logged f seen es
  | f, seen, .cout _ :: es => logged f seen es
  | _, seen, .start _ _ :: es => logged true seen es
  | f, seen, .warn m :: es => if m ∈ seen then logged f seen es else (if f then "WARNING: ".toList ++ m.toList ++ "\n".toList else []) ++ logged f (seen ++ [m]) es

/-- All that goes to the screen without `LogScreen`. -/
def direct : List Ev → List Char
  | [] => []
  | .cout s :: es => s.toList ++ direct es
  | .start name _ :: es => ("Logging output to: " ++ (name ++ ".log") ++ "\n\n").toList ++ direct es
  | _ :: es => direct es

/-- `LogScreen` can write. -/
structure Good (o : Out) : Prop where
  bad : o.bad = false
  sink : o.sink = .file → o.isOpen = true

theorem chars_good (cs : List Char) : ∀ (o : Out), Good o → o.chars cs = { o with screen := o.screen ++ cs, log := if o.sink = .file then o.log ++ cs else o.log } := by
  induction cs with
  | nil => intro o h; simp [Out.chars]
  | cons c cs ih =>
    intro o h
    cases hs : o.sink with
    | null =>
      have e : o.overflow c = ({ o with screen := o.screen ++ [c] }, true) := by simp [Out.overflow, hs]
      rw [Out.chars, e]
      rw [if_pos rfl]
      dsimp only
      rw [ih { o with screen := o.screen ++ [c] } ⟨h.bad, h.sink⟩]
      simp [hs]
    | file =>
      have e : o.overflow c = ({ o with screen := o.screen ++ [c], log := o.log ++ [c] }, true) := by simp [Out.overflow, hs, h.sink hs]
      rw [Out.chars, e]
      rw [if_pos rfl]
      dsimp only
      rw [ih { o with screen := o.screen ++ [c], log := o.log ++ [c] } ⟨h.bad, h.sink⟩]
      simp [hs]

theorem tee_good (o : Out) (h : Good o) (s : String) : o.tee s = { o with screen := o.screen ++ s.toList, log := if o.sink = .file then o.log ++ s.toList else o.log } := by
  rw [Out.tee, if_neg (by rw [h.bad]; simp), chars_good _ o h]

theorem tee_stays (o : Out) (h : Good o) (s : String) : Good (o.tee s) := by
  rw [tee_good o h]; exact ⟨h.bad, h.sink⟩

theorem bump_fst (m : String) (w : List (String × Nat)) : (bump m w).map Prod.fst = w.map Prod.fst := by
  rw [bump, List.map_map]
  refine List.map_congr_left fun x _ => ?_
  simp only [Function.comp_apply]
  split <;> rfl

theorem lookup_mem (m : String) (w : List (String × Nat)) : w.lookup m = none ↔ m ∉ w.map Prod.fst := by
  induction w with
  | nil => simp
  | cons x w ih =>
    obtain ⟨a, n⟩ := x
    rw [List.lookup_cons]
    by_cases h : m = a
    · subst h; simp
    · simp [h, beq_eq_false_iff_ne.mpr h, ih]

theorem warn_first (o : Out) (h : Good o) (m : String) (hm : m ∉ o.warnings.map Prod.fst) :
    o.warn m = { o with
      screen := o.screen ++ ("WARNING: ".toList ++ m.toList ++ "\n".toList)
      log := if o.sink = .file then o.log ++ ("WARNING: ".toList ++ m.toList ++ "\n".toList) else o.log
      warnings := o.warnings ++ [(m, 1)] } := by
  rw [Out.warn, (lookup_mem m o.warnings).mpr hm]
  dsimp only
  have g1 : Good { o with warnings := o.warnings ++ [(m, 1)] } := ⟨h.bad, h.sink⟩
  have g2 := tee_stays _ g1 "WARNING: "
  have g3 := tee_stays _ g2 m
  rw [tee_good _ g3, tee_good _ g2, tee_good _ g1]
  cases hs : o.sink <;> simp

theorem warn_again (o : Out) (m : String) (hm : m ∈ o.warnings.map Prod.fst) : o.warn m = { o with warnings := bump m o.warnings } := by
  rw [Out.warn]
  cases hl : o.warnings.lookup m with
  | none => exact absurd hm ((lookup_mem m o.warnings).mp hl)
  | some n => rfl

/-- C127: with a log file that can be opened, the screen gets all that the program says, each warning the first time it comes, and the log file what is said through `LogScreen` from `StartLogFile`
on. -/
theorem C127_both (es : List Ev) (hok : ∀ name ok, .start name ok ∈ es → ok = true) : ∀ (o : Out), Good o →
    (o.evs es).screen = o.screen ++ spoken (o.warnings.map Prod.fst) es ∧ (o.evs es).log = o.log ++ logged (decide (o.sink = .file)) (o.warnings.map Prod.fst) es ∧ Good (o.evs es) := by
  induction es with
  | nil => intro o h; simp [Out.evs, spoken, logged, h]
  | cons e es ih =>
    intro o h
    have ih := ih fun name ok hm => hok name ok (List.mem_cons_of_mem _ hm)
    cases e with
    | tee s =>
      obtain ⟨a, b, c⟩ := ih (o.tee s) (tee_stays o h s)
      rw [tee_good o h] at a b
      refine ⟨?_, ?_, c⟩
      · show ((o.tee s).evs es).screen = _
        rw [tee_good o h, a]; simp [spoken]
      · show ((o.tee s).evs es).log = _
        rw [tee_good o h, b]
        cases hs : o.sink <;> simp [logged]
    | cout s =>
      obtain ⟨a, b, c⟩ := ih (o.cout s) ⟨h.bad, h.sink⟩
      refine ⟨?_, ?_, c⟩
      · show ((o.cout s).evs es).screen = _
        rw [a]; simp [spoken, Out.cout]
      · show ((o.cout s).evs es).log = _
        rw [b]; rfl
    | start name ok =>
      have hk := hok name ok (List.mem_cons_self ..)
      subst hk
      obtain ⟨a, b, c⟩ := ih (o.start name true) ⟨h.bad, fun _ => rfl⟩
      refine ⟨?_, ?_, c⟩
      · show ((o.start name true).evs es).screen = _
        rw [a]; simp [spoken, Out.start, Out.cout]
      · show ((o.start name true).evs es).log = _
        rw [b]; simp [logged, Out.start, Out.cout]
    | warn m =>
      by_cases hm : m ∈ o.warnings.map Prod.fst
      · obtain ⟨a, b, c⟩ := ih (o.warn m) (by rw [warn_again o m hm]; exact ⟨h.bad, h.sink⟩)
        rw [warn_again o m hm] at a b
        refine ⟨?_, ?_, c⟩
        · show ((o.warn m).evs es).screen = _
          rw [warn_again o m hm, a, bump_fst, spoken, if_pos hm]
        · show ((o.warn m).evs es).log = _
          rw [warn_again o m hm, b, bump_fst, logged, if_pos hm]
      · obtain ⟨a, b, c⟩ := ih (o.warn m) (by rw [warn_first o h m hm]; exact ⟨h.bad, h.sink⟩)
        rw [warn_first o h m hm] at a b
        refine ⟨?_, ?_, c⟩
        · show ((o.warn m).evs es).screen = _
          rw [warn_first o h m hm, a, spoken, if_neg hm]
          simp
        · show ((o.warn m).evs es).log = _
          rw [warn_first o h m hm, b, logged, if_neg hm]
          cases hs : o.sink <;> simp

theorem good_init : Good Out.init := ⟨rfl, fun h => by cases h⟩

/-! ### Without a log file -/

/-- The claim that the screen gets all the program says whether the log file can be opened or not. -/
def C127_screen_claim : Prop := ∀ es : List Ev, (Out.init.evs es).screen = spoken [] es

theorem tee_bad (o : Out) (h : o.bad = true) (s : String) : o.tee s = o := by rw [Out.tee, if_pos h]

theorem warn_bad (o : Out) (h : o.bad = true) (m : String) : (o.warn m).screen = o.screen ∧ (o.warn m).bad = true ∧ (o.warn m).log = o.log := by
  rw [Out.warn]
  cases o.warnings.lookup m with
  | none =>
    dsimp only
    have e : ∀ t, ({ o with warnings := o.warnings ++ [(m, 1)] } : Out).tee t = { o with warnings := o.warnings ++ [(m, 1)] } := tee_bad { o with warnings := o.warnings ++ [(m, 1)] } h
    rw [e, e, e]
    exact ⟨rfl, h, rfl⟩
  | some n => exact ⟨rfl, h, rfl⟩

/-- C127: after an error of `LogScreen` nothing said through it is seen any more. -/
theorem C127_silent (es : List Ev) : ∀ o : Out, o.bad = true → (o.evs es).screen = o.screen ++ direct es ∧ (o.evs es).log = o.log ∧ (o.evs es).bad = true := by
  induction es with
  | nil => intro o h; simp [Out.evs, direct, h]
  | cons e es ih =>
    intro o h
    cases e with
    | tee s =>
      have := ih o h
      show ((o.tee s).evs es).screen = _ ∧ ((o.tee s).evs es).log = _ ∧ ((o.tee s).evs es).bad = _
      rw [tee_bad o h]; simpa [direct] using this
    | cout s =>
      have := ih (o.cout s) h
      show ((o.cout s).evs es).screen = _ ∧ ((o.cout s).evs es).log = _ ∧ ((o.cout s).evs es).bad = _
      simpa [direct, Out.cout] using this
    | start name ok =>
      have := ih (o.start name ok) h
      show ((o.start name ok).evs es).screen = _ ∧ ((o.start name ok).evs es).log = _ ∧ ((o.start name ok).evs es).bad = _
      simpa [direct, Out.start, Out.cout] using this
    | warn m =>
      obtain ⟨a, b, c⟩ := warn_bad o h m
      have := ih (o.warn m) b
      show ((o.warn m).evs es).screen = _ ∧ ((o.warn m).evs es).log = _ ∧ ((o.warn m).evs es).bad = _
      rw [a, c] at this
      simpa [direct] using this

/-- C127: if the log file cannot be opened, of the first text after `StartLogFile` the first character is seen on the screen, and of everything after it nothing but what does not go through
`LogScreen`; the file stays as it was. -/
theorem C127_lost (pre : List Ev) (hpre : ∀ name ok, .start name ok ∉ pre) (name s : String) (c : Char) (cs : List Char) (hs : s.toList = c :: cs) (es : List Ev) :
    (Out.init.evs (pre ++ .start name false :: .tee s :: es)).screen =
      spoken [] pre ++ ("Logging output to: " ++ (name ++ ".log") ++ "\n\n").toList ++ [c] ++ direct es ∧
    (Out.init.evs (pre ++ .start name false :: .tee s :: es)).log = [] := by
  obtain ⟨a, b, g⟩ := C127_both pre (fun n k h => absurd h (hpre n k)) Out.init good_init
  have hlog : ∀ (pre : List Ev), (∀ name ok, .start name ok ∉ pre) → ∀ seen, logged false seen pre = [] := by
    intro pre
    induction pre with
    | nil => intro _ _; rfl
    | cons e pre ih =>
      intro h seen
      have ih := ih fun n k hm => h n k (List.mem_cons_of_mem _ hm)
      cases e with
      | tee s => simp [logged, ih]
      | cout s => simp [logged, ih]
      | start n k => exact absurd (List.mem_cons_self ..) (h n k)
      | warn m => simp [logged, ih]
  have hev : Out.init.evs (pre ++ .start name false :: .tee s :: es) = ((((Out.init.evs pre).start name false).tee s)).evs es := by
    simp [Out.evs, Out.ev]
  rw [hev]
  set o := Out.init.evs pre with ho
  have ht : (o.start name false).tee s = { o.start name false with screen := (o.start name false).screen ++ [c], bad := true } := by
    rw [Out.tee, if_neg (by rw [show (o.start name false).bad = o.bad from rfl, g.bad]; simp), hs, Out.chars]
    simp [Out.overflow, Out.start, Out.cout]
  rw [ht]
  obtain ⟨x, y, -⟩ := C127_silent es { o.start name false with screen := (o.start name false).screen ++ [c], bad := true } rfl
  rw [x, y]
  refine ⟨?_, ?_⟩
  · show (o.cout _).screen ++ [c] ++ direct es = _
    rw [Out.cout, a]
    simp [Out.init]
  · show o.log = []
    rw [b, show (Out.init.log) = [] from rfl, List.nil_append]
    exact hlog pre hpre _

theorem C127_screen_claim_false : ¬ C127_screen_claim := fun h => by
  have := h [.start "case" false, .tee "Running case: ", .warn "No boundary condition", .cout "done"]
  revert this
  decide +kernel

/-! ### Warnings -/

theorem tee_warnings (o : Out) (s : String) : (o.tee s).warnings = o.warnings := by
  have cw : ∀ (cs : List Char) (o : Out), (o.chars cs).warnings = o.warnings := by
    intro cs
    induction cs with
    | nil => intro o; rfl
    | cons c cs ih =>
      intro o
      have ow : (o.overflow c).1.warnings = o.warnings := by
        unfold Out.overflow
        cases o.sink with
        | null => rfl
        | file => cases o.isOpen <;> rfl
      rw [Out.chars]
      split
      · rw [ih, ow]
      · exact ow
  rw [Out.tee]
  split
  · rfl
  · exact cw _ _

theorem warn_warnings (o : Out) (m : String) : (o.warn m).warnings = if m ∈ o.warnings.map Prod.fst then bump m o.warnings else o.warnings ++ [(m, 1)] := by
  by_cases hm : m ∈ o.warnings.map Prod.fst
  · rw [warn_again o m hm, if_pos hm]
  · rw [Out.warn, (lookup_mem m o.warnings).mpr hm, if_neg hm]
    dsimp only
    rw [tee_warnings, tee_warnings, tee_warnings]

theorem bump_lookup (m q : String) (w : List (String × Nat)) : (bump m w).lookup q = if q = m then (w.lookup q).map (· + 1) else w.lookup q := by
  induction w with
  | nil => simp [bump]
  | cons x w ih =>
    obtain ⟨a, n⟩ := x
    simp only [bump, List.map_cons] at ih ⊢
    by_cases ha : a = m
    · subst ha
      by_cases hq : q = a
      · subst hq; simp [List.lookup_cons]
      · simp [List.lookup_cons, hq, beq_eq_false_iff_ne.mpr hq, ih]
    · by_cases hq : q = a
      · subst hq; simp [List.lookup_cons, ha]
      · simp [List.lookup_cons, ha, beq_eq_false_iff_ne.mpr hq, ih]

theorem append_lookup (m q : String) (w : List (String × Nat)) (h : m ∉ w.map Prod.fst) : (w ++ [(m, 1)]).lookup q = if q = m then some 1 else w.lookup q := by
  induction w with
  | nil =>
    by_cases hq : q = m
    · subst hq; simp [List.lookup_cons]
    · simp [List.lookup_cons, hq, beq_eq_false_iff_ne.mpr hq]
  | cons x w ih =>
    obtain ⟨a, n⟩ := x
    simp only [List.map_cons, List.mem_cons, not_or] at h
    by_cases hq : q = a
    · subst hq; simp [List.lookup_cons, Ne.symm h.1]
    · simp [List.lookup_cons, beq_eq_false_iff_ne.mpr hq, ih h.2]

/-- A message with the number of times it has come, if it has. -/
def times (n : Nat) : Option Nat := if n = 0 then none else some n

theorem count_from (es : List Ev) : ∀ (o : Out) (f : String → Nat), (o.warnings.map Prod.fst).Nodup → (∀ m, o.warnings.lookup m = times (f m)) →
    ((o.evs es).warnings.map Prod.fst).Nodup ∧ ∀ m, (o.evs es).warnings.lookup m = times (f m + es.count (.warn m)) := by
  induction es with
  | nil => intro o f hn hf; exact ⟨hn, by simpa [Out.evs] using hf⟩
  | cons e es ih =>
    intro o f hn hf
    cases e with
    | tee s =>
      have := ih (o.tee s) f (by rwa [tee_warnings]) (by rwa [tee_warnings])
      simpa [Out.evs, Out.ev] using this
    | cout s =>
      have := ih (o.cout s) f hn hf
      simpa [Out.evs, Out.ev] using this
    | start name ok =>
      have := ih (o.start name ok) f hn hf
      simpa [Out.evs, Out.ev] using this
    | warn w =>
      have key : ((o.warn w).warnings.map Prod.fst).Nodup ∧ ∀ m, (o.warn w).warnings.lookup m = times (f m + if m = w then 1 else 0) := by
        rw [warn_warnings]
        split
        · rename_i hm
          refine ⟨by rwa [bump_fst], fun m => ?_⟩
          rw [bump_lookup]
          by_cases e : m = w
          · subst e
            have h0 : f m ≠ 0 := fun h0 => by
              have := hf m
              rw [h0] at this
              exact (lookup_mem m _).mp this hm
            rw [if_pos rfl, if_pos rfl, hf, times, times, if_neg h0, if_neg (by omega)]
            rfl
          · rw [if_neg e, if_neg e, hf, Nat.add_zero]
        · rename_i hm
          refine ⟨?_, fun m => ?_⟩
          · rw [List.map_append, List.nodup_append]
            refine ⟨hn, by simp, ?_⟩
            intro a ha b hb hab
            simp only [List.map_cons, List.map_nil, List.mem_singleton] at hb
            rw [hab, hb] at ha
            exact hm ha
          · rw [append_lookup w m _ hm]
            by_cases e : m = w
            · subst e
              have h0 : f m = 0 := by
                have := hf m
                rw [(lookup_mem m _).mpr hm] at this
                by_contra h0
                rw [times, if_neg h0] at this
                cases this
              rw [if_pos rfl, if_pos rfl, h0]; rfl
            · rw [if_neg e, if_neg e, hf, Nat.add_zero]
      obtain ⟨a, b⟩ := ih (o.warn w) _ key.1 key.2
      refine ⟨a, fun m => ?_⟩
      show ((o.warn w).evs es).warnings.lookup m = _
      rw [b m, List.count_cons]
      congr 1
      by_cases e : m = w
      · subst e; simp; omega
      · have e' : (Ev.warn w == Ev.warn m) = false := by simpa using Ne.symm e
        simp [e]
        intro h; exact absurd h.symm e

/-- C127: the table of warnings has each message once, with the number of times it came, whatever else was written and whether it could be. -/
theorem C127_count (es : List Ev) : ((Out.init.evs es).warnings.map Prod.fst).Nodup ∧ ∀ m, (Out.init.evs es).warnings.lookup m = if es.count (.warn m) = 0 then none else some (es.count (.warn m)) := by
  have := count_from es Out.init (fun _ => 0) (by simp [Out.init]) (fun m => by simp [Out.init, times])
  simpa [times] using this

/-! ### The list at the end -/

/-- The lines of the list. -/
def listing (ws : List (String × Nat)) : List Char := ws.flatMap fun x => "\t".toList ++ (line x).toList ++ "\n".toList

/-- Before and after the number of warnings. -/
def intro_ (n : Nat) : List Char := if n = 1 then "There was ".toList else "There were ".toList
def outro (n : Nat) : List Char := if n = 1 then " warning:\n".toList else " warnings:\n".toList

/-- C127: on the screen the list has the number of messages, and a line for each; in the log file the number is missing. -/
theorem C127_summary (o : Out) (h : Good o) (hs : o.sink = .file) (order : List (String × Nat)) (hp : order.Perm o.warnings) (hne : o.warnings ≠ []) :
    (o.summary order).screen = o.screen ++ intro_ order.length ++ (toString order.length).toList ++ outro order.length ++ listing order ∧
    (o.summary order).log = o.log ++ intro_ order.length ++ outro order.length ++ listing order := by
  have hl : 0 < o.warnings.length := List.length_pos_iff.mpr hne
  have body : ∀ (ws : List (String × Nat)) (o : Out), Good o → o.sink = .file →
      (ws.foldl (fun o x => ((o.tee "\t").tee (line x)).tee "\n") o).screen = o.screen ++ listing ws ∧
      (ws.foldl (fun o x => ((o.tee "\t").tee (line x)).tee "\n") o).log = o.log ++ listing ws := by
    intro ws
    induction ws with
    | nil => intro o _ _; simp [listing]
    | cons x ws ih =>
      intro o h hs
      have g1 := tee_stays o h "\t"
      have g2 := tee_stays _ g1 (line x)
      have g3 := tee_stays _ g2 "\n"
      have e : ((o.tee "\t").tee (line x)).tee "\n" = { o with screen := o.screen ++ ("\t".toList ++ (line x).toList ++ "\n".toList), log := o.log ++ ("\t".toList ++ (line x).toList ++ "\n".toList) } := by
        rw [tee_good _ g2, tee_good _ g1, tee_good _ h]; simp [hs]
      rw [List.foldl_cons]
      obtain ⟨a, b⟩ := ih _ g3 (by rw [e]; exact hs)
      rw [a, b, e]
      simp [listing]
  rw [Out.summary, if_pos hl, hp.length_eq]
  dsimp only
  by_cases h1 : o.warnings.length = 1
  · have g1 := tee_stays o h "There was "
    have g2 : Good ((o.tee "There was ").cout (toString o.warnings.length)) := ⟨g1.bad, g1.sink⟩
    have g3 := tee_stays _ g2 " warning:"
    have g4 := tee_stays _ g3 "\n"
    have e : ((((o.tee "There was ").cout (toString o.warnings.length)).tee " warning:").tee "\n") =
        { o with screen := o.screen ++ "There was ".toList ++ (toString o.warnings.length).toList ++ " warning:\n".toList, log := o.log ++ "There was ".toList ++ " warning:\n".toList } := by
      rw [tee_good _ g3, tee_good _ g2, Out.cout, tee_good _ h]; simp [hs]
    rw [if_pos h1, if_pos h1]
    obtain ⟨a, b⟩ := body order _ g4 (by rw [e]; exact hs)
    rw [a, b, e]
    simp [intro_, outro, h1]
  · have g1 := tee_stays o h "There were "
    have g2 : Good ((o.tee "There were ").cout (toString o.warnings.length)) := ⟨g1.bad, g1.sink⟩
    have g3 := tee_stays _ g2 " warnings:"
    have g4 := tee_stays _ g3 "\n"
    have e : ((((o.tee "There were ").cout (toString o.warnings.length)).tee " warnings:").tee "\n") =
        { o with screen := o.screen ++ "There were ".toList ++ (toString o.warnings.length).toList ++ " warnings:\n".toList, log := o.log ++ "There were ".toList ++ " warnings:\n".toList } := by
      rw [tee_good _ g3, tee_good _ g2, Out.cout, tee_good _ h]; simp [hs]
    rw [if_neg h1, if_neg h1]
    obtain ⟨a, b⟩ := body order _ g4 (by rw [e]; exact hs)
    rw [a, b, e]
    simp [intro_, outro, h1]

/-- The claim that screen and log file get the same list. -/
def C127_list_claim : Prop := ∀ (o : Out), Good o → o.sink = .file → ∀ text, (o.summary o.warnings).screen = o.screen ++ text → (o.summary o.warnings).log = o.log ++ text

theorem C127_list_claim_false : ¬ C127_list_claim := fun h => by
  have := h { Out.init with isOpen := true, sink := .file, warnings := [("x", 2)] } ⟨rfl, fun _ => rfl⟩ rfl _ (List.nil_append _).symm
  revert this
  decide +kernel

/-- C127: if nothing was warned about there is no list. -/
theorem C127_none (o : Out) (h : o.warnings = []) : o.summary [] = o := by
  simp [Out.summary, h]

/-- A program with warnings before and after the log file is opened. -/
example : let o := Out.init.evs [.warn "a", .tee "x", .start "c" true, .warn "b", .tee "y", .warn "a", .warn "b"]
    o.screen = "WARNING: a\nxLogging output to: c.log\n\nWARNING: b\ny".toList ∧ o.log = "WARNING: b\ny".toList ∧ o.warnings = [("a", 2), ("b", 2)] ∧
    (o.summary o.warnings).log = "WARNING: b\nyThere were  warnings:\n\t2: a\n\t2: b\n".toList := by decide +kernel
/-- And one whose log file cannot be opened. -/
example : (Out.init.evs [.warn "a", .start "c" false, .tee "Running", .warn "b", .cout "done"]).screen = "WARNING: a\nLogging output to: c.log\n\nRdone".toList := by decide +kernel

end Verif.Log
