import Verif.Errors.Model

/-! # C135: how errors end a run -/

namespace Verif.Errors

open Verif.BC

/-- Pieces that do not open or close the log file (only `run` does) . -/
def Inner : Cmd → Prop
  | .start _ => False
  | .stop => False
  | .seq a b => Inner a ∧ Inner b
  | .tryMocc a h => Inner a ∧ ∀ m, Inner (h m)
  | .tryRange a h => Inner a ∧ Inner h
  | .tryAny a h => Inner a ∧ Inner h
  | .region a => Inner a
  | _ => True

/-- `o'` comes from `o` by further output. -/
def Grows (o o' : Out) : Prop := o'.logging = o.logging ∧ (∃ s, o'.cerr = o.cerr ++ s) ∧ ∃ s, o'.log = o.log ++ s ∧ (o.logging = false → s = "")

theorem Grows.refl (o : Out) : Grows o o := ⟨rfl, ⟨"", by simp⟩, ⟨"", by simp, fun _ => rfl⟩⟩

theorem Grows.trans {a b c : Out} (h : Grows a b) (h' : Grows b c) : Grows a c := by
  obtain ⟨h1, ⟨s, h2⟩, ⟨t, h3, h3'⟩⟩ := h
  obtain ⟨k1, ⟨s', k2⟩, ⟨t', k3, k3'⟩⟩ := h'
  refine ⟨k1.trans h1, ⟨s ++ s', by rw [k2, h2, String.append_assoc]⟩, ⟨t ++ t', by rw [k3, h3, String.append_assoc], fun hl => ?_⟩⟩
  rw [h3' hl, k3' (h1.trans hl)]
  rfl

/-- C135: nothing that has been written is lost, and pieces of the program leave the log open or closed. -/
theorem C135_grows : ∀ (c : Cmd) (o : Out), Inner c → Grows o (eval c o).2
  | .done, o, _ => Grows.refl o
  | .fails _, o, _ => Grows.refl o
  | .cerr s, o, _ => ⟨rfl, ⟨s, rfl⟩, ⟨"", by simp [eval], fun _ => rfl⟩⟩
  | .log s, o, _ => by
    cases hl : o.logging with
    | true => simp only [eval, hl, if_true]; exact ⟨by simp [hl], ⟨"", by simp⟩, ⟨s, rfl, by simp [hl]⟩⟩
    | false => simp only [eval, hl]; exact Grows.refl o
  | .exit, o, _ => Grows.refl o
  | .seq a b, o, h => by
    have ha := C135_grows a o h.1
    simp only [eval]
    rcases hr : eval a o with ⟨r, o'⟩
    rw [hr] at ha
    cases r with
    | normal => exact ha.trans (C135_grows b o' h.2)
    | _ => exact ha
  | .tryMocc a k, o, h => by
    have ha := C135_grows a o h.1
    simp only [eval]
    rcases hr : eval a o with ⟨r, o'⟩
    rw [hr] at ha
    cases r with
    | raised e =>
      cases e with
      | mocc m => exact ha.trans (C135_grows (k m) o' (h.2 m))
      | _ => exact ha
    | _ => exact ha
  | .tryRange a k, o, h => by
    have ha := C135_grows a o h.1
    simp only [eval]
    rcases hr : eval a o with ⟨r, o'⟩
    rw [hr] at ha
    cases r with
    | raised e =>
      cases e with
      | range => exact ha.trans (C135_grows k o' h.2)
      | _ => exact ha
    | _ => exact ha
  | .tryAny a k, o, h => by
    have ha := C135_grows a o h.1
    simp only [eval]
    rcases hr : eval a o with ⟨r, o'⟩
    rw [hr] at ha
    cases r with
    | raised e => exact ha.trans (C135_grows k o' h.2)
    | _ => exact ha
  | .region a, o, h => by
    have ha := C135_grows a o h
    simp only [eval]
    rcases hr : eval a o with ⟨r, o'⟩
    rw [hr] at ha
    cases r <;> exact ha

/-- What the handler of `run` adds to what was written before. -/
theorem run_eq (p : Parts) : run p = match eval (body p) ⟨"", "", false⟩ with
    | (.normal, o) => ⟨some 0, o.cerr, o.log⟩
    | (.raised (.mocc m), o) => ⟨some 1, o.cerr ++ "Error:\n" ++ m, if o.logging then o.log ++ "Error:\n" ++ m else o.log⟩
    | (.raised _, o) => ⟨none, o.cerr, o.log⟩
    | (.exited, o) => ⟨some 1, o.cerr, o.log⟩
    | (.terminated, o) => ⟨none, o.cerr, o.log⟩ := by
  unfold run
  simp only [eval]
  rcases hr : eval (body p) ⟨"", "", false⟩ with ⟨r, o⟩
  cases r with
  | raised e =>
    cases e with
    | mocc m => cases hl : o.logging <;> simp [hl]
    | _ => rfl
  | _ => rfl

/-- The parts of a run in their order. -/
def partOf (p : Parts) : Nat → Cmd
  | 0 => p.input
  | 1 => p.mesh
  | 2 => p.solver
  | 3 => p.geometry
  | 4 => p.solve
  | _ => p.output

/-- What has been written before part `n` starts, if those before have ended normally. -/
def Reaches (p : Parts) : Nat → Out → Prop
  | 0, o => o = ⟨"", "", false⟩
  | 1, o => ∃ o', eval p.input ⟨"", "", false⟩ = (.normal, o') ∧ o = { o' with log := "", logging := p.logFile }
  | n + 2, o => ∃ o', Reaches p (n + 1) o' ∧ eval (partOf p (n + 1)) o' = (.normal, o)

/-- The rest of a run from part `n` on. -/
def rest (p : Parts) : Nat → Cmd
  | 0 => body p
  | 1 => .seq p.mesh (.seq p.solver (.seq p.geometry (.seq p.solve (.seq p.output .stop))))
  | 2 => .seq p.solver (.seq p.geometry (.seq p.solve (.seq p.output .stop)))
  | 3 => .seq p.geometry (.seq p.solve (.seq p.output .stop))
  | 4 => .seq p.solve (.seq p.output .stop)
  | 5 => .seq p.output .stop
  | _ => .stop

theorem seq_normal {a b : Cmd} {o o' : Out} (h : eval a o = (.normal, o')) : eval (.seq a b) o = eval b o' := by
  simp only [eval, h]

theorem seq_stops {a b : Cmd} {o o' : Out} {e : End} (h : eval a o = (e, o')) (he : e ≠ .normal) : eval (.seq a b) o = (e, o') := by
  simp only [eval, h]
  cases e with
  | normal => exact absurd rfl he
  | _ => rfl

theorem rest_step (p : Parts) (n : Nat) (h1 : 1 ≤ n) (h2 : n ≤ 5) (o o' : Out) (h : eval (partOf p n) o = (.normal, o')) :
    eval (rest p n) o = eval (rest p (n + 1)) o' := by
  have : n = 1 ∨ n = 2 ∨ n = 3 ∨ n = 4 ∨ n = 5 := by omega
  rcases this with rfl | rfl | rfl | rfl | rfl <;> exact seq_normal h

theorem rest_eval (p : Parts) : ∀ (n : Nat), n ≤ 6 → ∀ o, Reaches p n o → eval (body p) ⟨"", "", false⟩ = eval (rest p n) o
  | 0, _, o, h => by
    rw [show o = ⟨"", "", false⟩ from h]
    rfl
  | 1, _, o, ⟨o', h, ho⟩ => by
    rw [ho]
    exact (seq_normal h).trans (seq_normal rfl)
  | n + 2, hn, o, ⟨o', h, ho⟩ => by
    rw [rest_eval p (n + 1) (by omega) o' h]
    exact rest_step p (n + 1) (by omega) (by omega) o' o ho

theorem rest_stops (p : Parts) (n : Nat) (h2 : n ≤ 5) (o o' : Out) (e : End) (h : eval (partOf p n) o = (e, o')) (he : e ≠ .normal) : eval (rest p n) o = (e, o') := by
  have : n = 0 ∨ n = 1 ∨ n = 2 ∨ n = 3 ∨ n = 4 ∨ n = 5 := by omega
  rcases this with rfl | rfl | rfl | rfl | rfl | rfl <;> exact seq_stops h he

/-- Before the log file is opened nothing is logged; afterwards it stays open. -/
theorem reaches_log (p : Parts) (hi : ∀ n, Inner (partOf p n)) : ∀ n o, Reaches p n o → o.logging = (decide (n ≠ 0) && p.logFile) ∧ (o.logging = false → o.log = "")
  | 0, o, h => by
    rw [show o = ⟨"", "", false⟩ from h]
    simp
  | 1, o, ⟨o', h, ho⟩ => by
    rw [ho]
    simp
  | n + 2, o, ⟨o', h, ho⟩ => by
    obtain ⟨h1, h2⟩ := reaches_log p hi (n + 1) o' h
    have hg := C135_grows _ o' (hi (n + 1))
    rw [ho] at hg
    obtain ⟨g1, _, ⟨s, g2, g3⟩⟩ := hg
    simp only at g1 g2
    refine ⟨by rw [g1, h1]; simp, fun hl => ?_⟩
    rw [g1] at hl
    rw [g2, h2 hl, g3 hl]
    rfl

/-- C135: a `mocc::Exception` that leaves a part of the run ends it with status 1; its text is shown on standard error, and it is at the end of the log file if the
log file has been opened. -/
theorem C135_report (p : Parts) (hi : ∀ n, Inner (partOf p n)) (n : Nat) (hn : n ≤ 5) (o o' : Out) (m : String) (hr : Reaches p n o)
    (h : eval (partOf p n) o = (.raised (.mocc m), o')) :
    run p = ⟨some 1, o'.cerr ++ "Error:\n" ++ m, if n ≠ 0 ∧ p.logFile = true then o'.log ++ "Error:\n" ++ m else ""⟩ ∧
      (∃ s, o'.cerr = o.cerr ++ s) ∧ ∃ s, o'.log = o.log ++ s := by
  obtain ⟨l1, l2⟩ := reaches_log p hi n o hr
  have hg := C135_grows _ o (hi n)
  rw [h] at hg
  obtain ⟨g1, g2, ⟨s, g3, g4⟩⟩ := hg
  simp only at g1 g2 g3
  refine ⟨?_, g2, ⟨s, g3⟩⟩
  rw [run_eq, rest_eval p n (by omega) o hr, rest_stops p n hn o o' _ h (by simp)]
  simp only
  rw [g1, l1]
  by_cases hc : n ≠ 0 ∧ p.logFile = true
  · rw [if_pos hc, if_pos (by simp [hc.1, hc.2])]
  · have hf : o.logging = false := by
      rw [l1]
      by_cases h0 : n = 0
      · simp [h0]
      · simp only [Bool.and_eq_false_iff]
        exact Or.inr (by simpa [h0] using hc)
    rw [if_neg hc, if_neg (by rw [← l1, hf]; simp), g3, l2 hf, g4 hf]
    rfl

/-- C135: the status is 0 exactly if all parts end normally. -/
theorem C135_zero (p : Parts) : (run p).status = some 0 ↔ ∃ o, Reaches p 6 o := by
  constructor
  · intro h
    rw [run_eq] at h
    have hb : ∃ o, eval (body p) ⟨"", "", false⟩ = (.normal, o) := by
      rcases hr : eval (body p) ⟨"", "", false⟩ with ⟨r, o⟩
      rw [hr] at h
      cases r with
      | normal => exact ⟨o, rfl⟩
      | raised e => cases e <;> simp at h
      | exited => simp at h
      | terminated => simp at h
    obtain ⟨oe, hb⟩ := hb
    have step : ∀ n, n ≤ 5 → (∃ o, Reaches p n o) → ∃ o, Reaches p (n + 1) o := by
      rintro n hn ⟨o, ho⟩
      have e := rest_eval p n (by omega) o ho
      rcases hr : eval (partOf p n) o with ⟨r, o'⟩
      by_cases hrn : r = .normal
      · rw [hrn] at hr
        cases n with
        | zero =>
          rw [show o = ⟨"", "", false⟩ from ho] at hr
          exact ⟨_, o', hr, rfl⟩
        | succ n => exact ⟨o', o, ho, hr⟩
      · rw [rest_stops p n hn o o' r hr hrn, hb] at e
        exact absurd (congrArg Prod.fst e).symm hrn
    obtain h1 := step 0 (by omega) ⟨_, rfl⟩
    exact step 5 (by omega) (step 4 (by omega) (step 3 (by omega) (step 2 (by omega) (step 1 (by omega) h1))))
  · rintro ⟨o, h⟩
    rw [run_eq, rest_eval p 6 (by omega) o h]
    rfl

/-- C135: the program is terminated, without a message of its own, if an exception of another kind leaves a part, or any leaves a parallel region in it. -/
theorem C135_terminated (p : Parts) (n : Nat) (hn : n ≤ 5) (o o' : Out) (e : End) (hr : Reaches p n o) (h : eval (partOf p n) o = (e, o'))
    (he : e = .raised .range ∨ e = .raised .other ∨ e = .terminated) : run p = ⟨none, o'.cerr, o'.log⟩ := by
  rw [run_eq, rest_eval p n (by omega) o hr, rest_stops p n hn o o' e h (by rcases he with h | h | h <;> simp [h])]
  rcases he with rfl | rfl | rfl <;> rfl

/-! ## Pieces with handlers -/

/-- C135: an exception that leaves the body of the constructor of the fixed-source solver ends the run with status 1, with its text on standard error and in the log. -/
theorem C135_fail (p : Parts) (c : Cmd) (hs : p.solver = fixedSource c) (o o' : Out) (m : String) (hr : Reaches p 2 o) (h : eval c o = (.raised (.mocc m), o')) :
    run p = ⟨some 1, o'.cerr ++ m, if o'.logging then o'.log ++ m else o'.log⟩ := by
  have hf : eval (partOf p 2) o = (.exited, ⟨o'.cerr ++ m, if o'.logging then o'.log ++ m else o'.log, o'.logging⟩) := by
    show eval p.solver o = _
    rw [hs]
    unfold fixedSource
    simp only [eval, h]
    cases hl : o'.logging <;> simp [hl]
  rw [run_eq, rest_eval p 2 (by omega) o hr, rest_stops p 2 (by omega) o _ .exited hf (by simp)]

/-- C135: an exception with causes has the texts of all of them, the last cause last. -/
theorem C135_chain (infos : List Info) (m : String) (o : Out) :
    eval (infos.foldr because (.fails (.mocc m))) o = (.raised (.mocc (String.join (infos.map Info.text) ++ m)), o) := by
  induction infos with
  | nil => simp [eval, String.join]
  | cons i rest ih =>
    rw [List.foldr_cons]
    unfold because at ih ⊢
    simp only [eval, ih]
    rw [List.map_cons, String.join_cons, String.append_assoc]

/-- C135: where the exception is replaced by another one the cause is shown on standard error, but the exception, and so the log, has the new text only. -/
theorem C135_instead (i : Info) (m : String) (c : Cmd) (o o' : Out) (h : eval c o = (.raised (.mocc m), o')) :
    eval (instead i c) o = (.raised (.mocc i.text), { o' with cerr := o'.cerr ++ (m ++ "\n") }) := by
  unfold instead
  simp only [eval, h]

/-- C135: no exception of HDF5 leaves the functions with `catch (...)`. -/
theorem C135_h5 (i : Info) (c : Cmd) (o : Out) : (∀ e o', eval c o = (.raised e, o') → eval (h5call i c) o = (.raised (.mocc i.text), o')) ∧
    ((∀ e, (eval c o).1 ≠ .raised e) → eval (h5call i c) o = eval c o) := by
  constructor
  · intro e o' h
    unfold h5call
    simp only [eval, h]
  · intro h
    unfold h5call
    simp only [eval]
    rcases hr : eval c o with ⟨r, o'⟩
    rw [hr] at h
    cases r with
    | raised e => exact absurd rfl (h e)
    | _ => rfl

/-- C135: the directions of the corrected Sn sweeper: an exception from reading them gets its reason in front, but a file that cannot be opened is an exception the
handler does not catch. -/
theorem C135_quad (i : Info) (c : Cmd) (o : Out) : eval (quadFile i false c) o = (.raised .other, o) ∧
    ∀ m o', eval c o = (.raised (.mocc m), o') → eval (quadFile i true c) o = (.raised (.mocc (i.text ++ m)), o') := by
  refine ⟨rfl, fun m o' h => ?_⟩
  unfold quadFile because h5open
  simp only [eval, h, if_true]

/-- C135: an output file that cannot be opened at the end of the calculation terminates the program without a message; a `mocc::Exception` while writing it
is reported. -/
theorem C135_output (p : Parts) (hi : ∀ n, Inner (partOf p n)) (c : Cmd) (o : Out) (hr : Reaches p 5 o) : (p.output = outputFile false c → run p = ⟨none, o.cerr, o.log⟩) ∧
    ∀ m o', p.output = outputFile true c → eval c o = (.raised (.mocc m), o') →
      run p = ⟨some 1, o'.cerr ++ "Error:\n" ++ m, if p.logFile = true then o'.log ++ "Error:\n" ++ m else ""⟩ := by
  refine ⟨fun h => C135_terminated p 5 (by omega) o o (.raised .other) hr ?_ (Or.inr (Or.inl rfl)), fun m o' h hc => ?_⟩
  · show eval p.output o = _
    rw [h]; rfl
  · have h5 : eval (partOf p 5) o = (.raised (.mocc m), o') := by
      show eval p.output o = _
      rw [h]
      unfold outputFile h5open
      simp only [eval, if_true, hc]
    simpa using (C135_report p hi 5 (by omega) o o' m hr h5).1

/-! ## Identifiers -/

/-- C135: an unknown pin in a lattice is a `std::out_of_range`; an unknown assembly in the core map and an unknown material are a `mocc::Exception`. -/
theorem C135_lattice (known : Int → Bool) (ids : List Int) (o : Out) :
    eval (latticeMap known ids) o = if ∀ id ∈ ids, known id = true then (.normal, o) else (.raised .range, o) := by
  induction ids with
  | nil => simp [latticeMap, eval]
  | cons id ids ih =>
    unfold latticeMap
    cases hk : known id with
    | true => simp [eval, ih, hk]
    | false => simp [eval, hk]

theorem C135_core (i : Info) (known : Int → Bool) (ids : List Int) (o : Out) :
    eval (coreMap i known ids) o = if ∀ id ∈ ids, known id = true then (.normal, o) else (.raised (.mocc i.text), o) := by
  induction ids with
  | nil => simp [coreMap, eval]
  | cons id ids ih =>
    unfold coreMap
    cases hk : known id with
    | true => simp [eval, ih, hk]
    | false => simp [eval, hk]

theorem C135_material (i : Info) (known : String → Bool) (names : List String) (o : Out) :
    eval (assignIds i known names) o = if ∀ n ∈ names, known n = true then (.normal, o) else (.raised (.mocc i.text), o) := by
  induction names with
  | nil => simp [assignIds, eval]
  | cons n ns ih =>
    unfold assignIds
    cases hk : known n with
    | true => simp [eval, ih, hk]
    | false => simp [eval, hk]

/-! ## Boundary conditions -/

/-- Boundary conditions read from input are of three kinds. -/
theorem bcRead_mem {texts : List String} {bs : List Boundary} (h : bcRead texts = some bs) {b : Boundary} (hb : b ∈ bs) :
    b = .VACUUM ∨ b = .REFLECT ∨ b = .PRESCRIBED := by
  unfold bcRead at h
  split at h
  · exact absurd h (by simp)
  · next hi =>
    injection h with h
    rw [← h] at hb
    have hne : b ≠ .INVALID := fun he => hi (he ▸ hb)
    obtain ⟨t, _, rfl⟩ := List.mem_map.mp hb
    unfold bcParse at hne ⊢
    split
    · exact Or.inl rfl
    · split
      · exact Or.inr (Or.inl rfl)
      · split
        · exact Or.inr (Or.inr rfl)
        · simp_all

/-- A history meets a boundary with prescribed values, after reflective ones only. -/
def MeetsPrescribed (h : List Boundary) : Prop := ∃ k : Nat, h[k]? = some Boundary.PRESCRIBED ∧ ∀ j : Nat, j < k → h[j]? = some Boundary.REFLECT

theorem history_eval (i : Info) (o : Out) : ∀ h : List Boundary, (∀ b ∈ h, b = .VACUUM ∨ b = .REFLECT ∨ b = .PRESCRIBED) →
    (MeetsPrescribed h → eval (history i h) o = (.raised (.mocc i.text), o)) ∧ (¬ MeetsPrescribed h → eval (history i h) o = (.normal, o))
  | [], _ => ⟨fun ⟨k, hk, _⟩ => by simp at hk, fun _ => rfl⟩
  | b :: t, hb => by
    obtain ⟨ih1, ih2⟩ := history_eval i o t fun x hx => hb x (List.mem_cons_of_mem _ hx)
    rcases hb b (List.mem_cons_self ..) with rfl | rfl | rfl
    · refine ⟨fun ⟨k, hk, hj⟩ => ?_, fun _ => rfl⟩
      cases k with
      | zero => simp at hk
      | succ k => have := hj 0 (by omega); simp at this
    · have hiff : MeetsPrescribed (.REFLECT :: t) ↔ MeetsPrescribed t := by
        constructor
        · rintro ⟨k, hk, hj⟩
          cases k with
          | zero => simp at hk
          | succ k => exact ⟨k, by simpa using hk, fun j h => by simpa using hj (j + 1) (by omega)⟩
        · rintro ⟨k, hk, hj⟩
          refine ⟨k + 1, by simpa using hk, fun j h => ?_⟩
          cases j with
          | zero => rfl
          | succ j => simpa using hj j (by omega)
      rw [hiff]
      exact ⟨ih1, ih2⟩
    · exact ⟨fun _ => rfl, fun hn => absurd ⟨0, rfl, fun j hj => by omega⟩ hn⟩

/-- C135: a Monte Carlo cycle in a core as read from the input terminates the program exactly if a particle meets a boundary with prescribed values, in whatever order
the histories end. -/
theorem C135_mc (i : Info) (texts : List String) (bs : List Boundary) (hb : bcRead texts = some bs) (hs : List (List Boundary)) (hm : ∀ h ∈ hs, ∀ b ∈ h, b ∈ bs)
    (o : Out) : ((∃ h ∈ hs, MeetsPrescribed h) → eval (cycle i hs) o = (.terminated, o)) ∧
      (¬ (∃ h ∈ hs, MeetsPrescribed h) → eval (cycle i hs) o = (.normal, o)) ∧ ("prescribed" ∉ texts → eval (cycle i hs) o = (.normal, o)) := by
  have key : ∀ hs : List (List Boundary), (∀ h ∈ hs, ∀ b ∈ h, b ∈ bs) →
      ((∃ h ∈ hs, MeetsPrescribed h) → eval (hs.foldr (fun h c => Cmd.seq (history i h) c) .done) o = (.raised (.mocc i.text), o)) ∧
      (¬ (∃ h ∈ hs, MeetsPrescribed h) → eval (hs.foldr (fun h c => Cmd.seq (history i h) c) .done) o = (.normal, o)) := by
    intro hs
    induction hs with
    | nil => intro _; exact ⟨fun ⟨h, hh, _⟩ => by simp at hh, fun _ => rfl⟩
    | cons h t ih =>
      intro hm
      obtain ⟨t1, t2⟩ := ih fun x hx => hm x (List.mem_cons_of_mem _ hx)
      obtain ⟨h1, h2⟩ := history_eval i o h fun b hb' => bcRead_mem hb (hm h (List.mem_cons_self ..) b hb')
      rw [List.foldr_cons]
      by_cases hp : MeetsPrescribed h
      · exact ⟨fun _ => seq_stops (h1 hp) (by simp), fun hn => absurd ⟨h, List.mem_cons_self .., hp⟩ hn⟩
      · rw [seq_normal (h2 hp)]
        refine ⟨fun ⟨x, hx, hxp⟩ => t1 ?_, fun hn => t2 ?_⟩
        · rcases List.mem_cons.mp hx with rfl | hx
          · exact absurd hxp hp
          · exact ⟨x, hx, hxp⟩
        · rintro ⟨x, hx, hxp⟩
          exact hn ⟨x, List.mem_cons_of_mem _ hx, hxp⟩
  obtain ⟨k1, k2⟩ := key hs hm
  have c1 : ¬ (∃ h ∈ hs, MeetsPrescribed h) → eval (cycle i hs) o = (.normal, o) := fun hn => by
    unfold cycle
    simp only [eval, k2 hn]
  refine ⟨fun h => ?_, c1, fun ht => c1 ?_⟩
  · unfold cycle
    simp only [eval, k1 h]
  · rintro ⟨h, hh, k, hk, _⟩
    have hmem : Boundary.PRESCRIBED ∈ bs := hm h hh _ (List.mem_of_getElem? hk)
    unfold bcRead at hb
    split at hb
    · exact absurd hb (by simp)
    · injection hb with hb
      rw [← hb] at hmem
      obtain ⟨t, h1, h2⟩ := List.mem_map.mp hmem
      unfold bcParse at h2
      split at h2
      · exact absurd h2 (by decide)
      · split at h2
        · exact absurd h2 (by decide)
        · split at h2
          · next he => exact ht (he ▸ h1)
          · exact absurd h2 (by decide)

section
variable {K : Type} [Field K] [LinearOrder K]

/-- C135: the boundary updates of the deterministic sweeps do not throw with boundary conditions as read from the input. -/
theorem updateNormals_safe (out : Store K) (group angle : Nat) : ∀ (ns : List Verif.Quad.Normal) (b : Store K),
    (∀ s, b.types s = .VACUUM ∨ b.types s = .REFLECT ∨ b.types s = .PRESCRIBED) →
      updateNormals group angle out ns b ≠ .throws ∧ ∀ b', updateNormals group angle out ns b = .ok b' → b'.types = b.types
  | [], b, _ => ⟨by simp [updateNormals], fun b' h => by simp only [updateNormals, Outcome.ok.injEq] at h; rw [h]⟩
  | n :: ns, b, hb => by
    unfold updateNormals
    split
    · next s iangIn _ _ =>
      by_cases h0 : s.get n = 0
      · simp only [h0, if_true]
        exact ⟨by simp, fun b' h => by injection h with h; rw [h]⟩
      · simp only [h0, if_false]
        split
        · next angleIn offIn offOut so _ _ _ _ =>
          by_cases h1 : s.get n ≠ so.get n
          · rw [if_pos h1]
            exact ⟨by simp, fun b' h => by simp at h⟩
          · rw [if_neg h1]
            rcases hb (Verif.Quad.upwindSurface angleIn n) with h | h | h
            · simp only [h]
              exact updateNormals_safe out group angle ns _ hb
            · simp only [h]
              exact updateNormals_safe out group angle ns _ hb
            · simp only [h]
              exact updateNormals_safe out group angle ns _ hb
        · exact ⟨by simp, fun b' h => by simp at h⟩
    · exact ⟨by simp, fun b' h => by simp at h⟩

theorem C135_update (i : Info) (texts : List String) (bs : List Boundary) (ht : bcRead texts = some bs) (b out : Store K) (hb : ∀ s, b.types s ∈ bs) (group : Nat)
    (o : Out) : eval (updateCmd i (update group out b)) o = (.normal, o) ∧ ∀ angle, eval (updateCmd i (updateAngle group angle out b)) o = (.normal, o) := by
  have safe : ∀ r : Outcome (Store K), r ≠ .throws → eval (updateCmd i r) o = (.normal, o) := by
    intro r hr
    cases r with
    | throws => exact absurd rfl hr
    | _ => rfl
  have h3 : ∀ s, b.types s = .VACUUM ∨ b.types s = .REFLECT ∨ b.types s = .PRESCRIBED := fun s => bcRead_mem ht (hb s)
  refine ⟨safe _ ?_, fun angle => safe _ (updateNormals_safe out group angle _ b h3).1⟩
  have key : ∀ (l : List Nat) (b : Store K), (∀ s, b.types s = .VACUUM ∨ b.types s = .REFLECT ∨ b.types s = .PRESCRIBED) → updateAngles group out l b ≠ .throws := by
    intro l
    induction l with
    | nil => intro b _; simp [updateAngles]
    | cons a t ih =>
      intro b hb
      obtain ⟨u1, u2⟩ := updateNormals_safe out group a [.X, .Y, .Z] b hb
      unfold updateAngles updateAngle
      rcases hu : updateNormals group a out [.X, .Y, .Z] b with b' | _ | _
      · simp only
        exact ih b' (by rw [u2 b' hu]; exact hb)
      · exact absurd hu u1
      · simp
  unfold update
  split
  · exact key _ b h3
  · simp

end

/-! ## Claims -/

/-- What C135 says of the status: 0 or 1, for all parts that write no files but those of the program. -/
def C135_claim : Prop := ∀ p : Parts, (∀ n, Inner (partOf p n)) → (run p).status = some 0 ∨ (run p).status = some 1

/-- A run in which all but one part do nothing. -/
def quiet : Parts := ⟨.done, true, .done, .done, .done, .done, .done⟩

/-- False: a lattice with an unknown pin terminates the program. -/
theorem C135_claim_false : ¬ C135_claim := by
  intro h
  have h1 := h { quiet with mesh := latticeMap (fun id => id == 1) [1, 2] } (by
    intro n
    rcases n with _ | _ | _ | _ | _ | _ <;> simp [partOf, quiet, latticeMap, Inner])
  rw [show (run { quiet with mesh := latticeMap (fun id => id == 1) [1, 2] }).status = none by decide] at h1
  simp at h1

/-- The same for exceptions of the program itself, in a Monte Carlo cycle. -/
def C135_mocc_claim : Prop := ∀ (p : Parts) (i : Info) (texts : List String) (bs : List Boundary) (hs : List (List Boundary)), bcRead texts = some bs →
  (∀ h ∈ hs, ∀ b ∈ h, b ∈ bs) → p.solve = cycle i hs → (∃ o, Reaches p 4 o) → (∀ o, (eval p.output o).1 = .normal) → (run p).status ≠ none

/-- False: a particle that meets a boundary with prescribed values. -/
theorem C135_mocc_claim_false : ¬ C135_mocc_claim := by
  intro h
  exact h { quiet with solve := cycle ⟨"particle_pusher.cpp", 308, "simulate", "Unsupported boundary condition"⟩ [[.REFLECT, .PRESCRIBED]] } _
    ["vacuum", "reflect", "prescribed", "reflect", "vacuum", "vacuum"] _ _ rfl (by decide) rfl
    ⟨⟨"", "", true⟩, _, ⟨_, ⟨_, ⟨_, rfl, rfl⟩, rfl⟩, rfl⟩, rfl⟩ (fun _ => rfl) (by decide)

/-- What C135 says of the log: it tells one cause from another. -/
def C135_cause_claim : Prop := ∀ (i : Info) (m m' : String),
  (run { quiet with mesh := instead i (.fails (.mocc m)) }).log = (run { quiet with mesh := instead i (.fails (.mocc m')) }).log → m = m'

/-- False: the cause is not in the log. -/
theorem C135_cause_claim_false : ¬ C135_cause_claim := by
  intro h
  exact absurd (h ⟨"material_lib.cpp", 60, "MaterialLib", "Failed to open the cross-section library at: c5g7.xsl"⟩ "a" "b" (by rfl)) (by decide)

/-- The hypotheses of `C135_report` with a part that fails after output of its own. -/
example : run { quiet with solve := .seq (.log "x\n") (.seq (.cerr "y\n") (.fails (.mocc "z\n"))) } = ⟨some 1, "y\nError:\nz\n", "x\nError:\nz\n"⟩ := by decide

/-- Without log file. -/
example : run { quiet with logFile := false, solve := .fails (.mocc "z\n") } = ⟨some 1, "Error:\nz\n", ""⟩ := by decide

/-- An output file that cannot be opened, at the end of a calculation. -/
example : run { quiet with output := outputFile false .done } = ⟨none, "", ""⟩ := by decide

/-- Two causes. -/
example : eval (because ⟨"a", 1, "f", "x"⟩ (because ⟨"b", 2, "g", "y"⟩ (.fails (.mocc "z")))) ⟨"", "", true⟩ =
    (.raised (.mocc "a:1 in f\nx\nb:2 in g\ny\nz"), ⟨"", "", true⟩) := by decide

/-- A core with a prescribed boundary. -/
example : bcRead ["vacuum", "reflect", "prescribed", "reflect", "vacuum", "vacuum"] = some [.VACUUM, .REFLECT, .PRESCRIBED, .REFLECT, .VACUUM, .VACUUM] := by decide

example : MeetsPrescribed [.REFLECT, .PRESCRIBED] := ⟨1, rfl, fun j h => by have : j = 0 := by omega
                                                                            subst this; rfl⟩

end Verif.Errors
