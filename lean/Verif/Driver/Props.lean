import Verif.Driver.Model
import Mathlib.Tactic.IntervalCases

/-!
# C52: interrupting a run
-/

namespace Verif.Driver

/-- The full claim: interrupted at any moment after the handler has been registered, a run ends with its own results
and input in the output file. -/
def C52_claim : Prop :=
  ∀ (files : Nat → Option Content) (name id k : Nat) (s : State), 1 ≤ k → k ≤ runSteps.length →
    exec (fun _ => false) name id (runSteps.take k) (fresh files) = .ok s →
    ∃ files', interrupt (fun _ => false) name id s = .exited files' ∧ files' name = some ⟨some id, some id, true⟩

/-- C52, what holds: interrupted after the solver has been fetched (five steps) and not while the output is being written
(seven to ten steps), whatever the state of the program before the run, the run ends by exit with its results, input and
build identification in the output file and all other files as they were. -/
theorem C52_interrupt_partial (name id k : Nat) (s0 s : State) (hopen : s0.opened = none)
    (hk : (5 ≤ k ∧ k ≤ 6) ∨ (11 ≤ k ∧ k ≤ 12))
    (h : exec (fun _ => false) name id (runSteps.take k) s0 = .ok s) :
    ∃ files', interrupt (fun _ => false) name id s = .exited files' ∧ files' name = some ⟨some id, some id, true⟩ ∧
      ∀ m, m ≠ name → files' m = s0.files m := by
  have hcases : k = 5 ∨ k = 6 ∨ k = 11 ∨ k = 12 := by omega
  rcases hcases with rfl | rfl | rfl | rfl <;>
  · simp [runSteps, outputSteps, exec, step, onOpen, setFile, hopen] at h
    subst h
    simp [interrupt, outputSteps, exec, step, onOpen, setFile, hopen]
    intro m hm
    simp [hm]

/-- C52: an undisturbed run writes its results, and leaves other files alone. -/
theorem C52_run (name id : Nat) (s0 : State) (hopen : s0.opened = none) :
    ∃ s, exec (fun _ => false) name id runSteps s0 = .ok s ∧ s.files name = some ⟨some id, some id, true⟩ ∧
      s.opened = none ∧ ∀ m, m ≠ name → s.files m = s0.files m := by
  simp [runSteps, outputSteps, exec, step, onOpen, setFile, hopen]
  intro m hm
  simp [hm]

/-- C52: in the first run an interruption before the solver has been fetched is undefined behaviour: a null pointer is
dereferenced, after the output file has been truncated if the input was already read. -/
theorem C52_early_undefined (files : Nat → Option Content) (name id k : Nat) (s : State) (h1 : 1 ≤ k) (h2 : k ≤ 4)
    (h : exec (fun _ => false) name id (runSteps.take k) (fresh files) = .ok s) :
    interrupt (fun _ => false) name id s = .undefined := by
  interval_cases k <;>
  · simp [runSteps, outputSteps, exec, step, fresh] at h
    subst h
    simp [interrupt, outputSteps, exec, step]

/-- C52: an interruption while the output is being written opens the file a second time; the exception leaves the signal
handler. -/
theorem C52_during_output_undefined (name id k : Nat) (s0 s : State) (hopen : s0.opened = none) (h1 : 7 ≤ k) (h2 : k ≤ 10)
    (h : exec (fun _ => false) name id (runSteps.take k) s0 = .ok s) :
    interrupt (fun _ => false) name id s = .undefined := by
  interval_cases k <;>
  · simp [runSteps, outputSteps, exec, step, onOpen, setFile, hopen] at h
    subst h
    simp [interrupt, outputSteps, exec, step]

/-- C52: `run` called a second time in one process: interrupted before the new solver is there, the results of the
earlier run are written under the name, and with the input, of the new one. -/
theorem C52_second_run_stale (files : Nat → Option Content) (name1 name2 id1 id2 k : Nat) (s1 s2 : State)
    (hr : exec (fun _ => false) name1 id1 runSteps (fresh files) = .ok s1) (h1 : 2 ≤ k) (h2 : k ≤ 4)
    (h : exec (fun _ => false) name2 id2 (runSteps.take k) s1 = .ok s2) :
    ∃ files', interrupt (fun _ => false) name2 id2 s2 = .exited files' ∧
      files' name2 = some ⟨some id1, some id2, true⟩ := by
  simp [runSteps, outputSteps, exec, step, onOpen, setFile, fresh] at hr
  subst hr
  interval_cases k <;>
  · simp [runSteps, outputSteps, exec, step] at h
    subst h
    simp [interrupt, outputSteps, exec, step, onOpen, setFile]

/-- C52: the claim as it stands is false. -/
theorem C52_claim_false : ¬ C52_claim := by
  intro h
  obtain ⟨f, h1, -⟩ := h (fun _ => none) 0 0 1 ⟨true, none, none, none, fun _ => none⟩ (by omega) (by decide) rfl
  rw [C52_early_undefined (fun _ => none) 0 0 1 ⟨true, none, none, none, fun _ => none⟩ (by omega)
    (by omega) rfl] at h1
  cases h1

/-- C52: when reading the input fails, the exception is there before the output file is opened. -/
theorem C52_bad_input (name id : Nat) (s0 : State) (throws : Step → Bool)
    (h : throws .newInput = true ∨ throws .process = true) :
    Step.openFile ∉ runSteps.take 4 ∧ exec throws name id (runSteps.take 4) s0 = .thrown := by
  refine ⟨by decide, ?_⟩
  rcases h with h | h <;>
  · simp only [runSteps, List.cons_append, List.take, exec, step, h]
    split <;> simp

example : ∃ s, exec (fun _ => false) 7 1 (runSteps.take 6) (fresh fun _ => none) = .ok s := ⟨_, rfl⟩
example : ∃ s, exec (fun _ => false) 7 1 (runSteps.take 9) (fresh fun _ => none) = .ok s := by
  simp [runSteps, outputSteps, exec, step, onOpen, setFile, fresh]

end Verif.Driver
