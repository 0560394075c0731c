import Verif.Cmdo.SweepModel
import Verif.PinFlux.Props
import Mathlib.Tactic.Ring
import Mathlib.Tactic.Linarith
import Mathlib.Tactic.NormNum

/-!
# C104: the 2D3D sweep
-/

namespace Verif.Cmdo.Sweep

open Verif.PinFlux

variable {K : Type} [Field K] [LinearOrder K]

/-- MoC is swept in outer iteration `i`. -/
def Active (op : Opts) (i : Int) : Prop := op.inactive ≤ i ∧ op.modulo ∣ i

/-- What a sweep of group `g` in outer iteration `i` does. -/
def events (op : Opts) (i : Int) [Decidable (Active op i)] (g : Nat) : List Ev :=
  (if op.tl then [.tl g] else []) ++ (if op.vCycle then [.sn g] else []) ++ (if Active op i then [.moc g] else []) ++ [.sn g]

instance (op : Opts) (i : Int) : Decidable (Active op i) := by unfold Active; infer_instance

theorem project_eq {m : Geo K} {g : Nat} {s s' : St K} (h : project m g s = some s') :
    s'.outer = s.outer ∧ s'.log = s.log ∧ s'.sn = s.sn ∧ s'.resid = s.resid ∧ s'.prev = s.prev := by
  unfold project at h
  dsimp only at h
  split at h
  · cases h
  · cases h
    exact ⟨rfl, rfl, rfl, rfl, rfl⟩

theorem mocPart_eq {o : Ops K} {op : Opts} {g : Nat} {s s' : St K} (h : mocPart o op g s = some s') :
    s'.outer = s.outer ∧ s'.log = s.log ++ (if Active op s.outer then [.moc g] else []) ∧ s'.sn = s.sn ∧ s'.resid = s.resid ∧ s'.prev = s.prev ∧
    s'.moc = (if Active op s.outer then upd s.moc g (o.moc g s) else s.moc) ∧ (op.inactive ≤ s.outer → op.modulo ≠ 0) := by
  unfold mocPart at h
  split_ifs at h with h1 h2 h3
  · cases h
    have ha : Active op s.outer := ⟨by omega, Int.dvd_of_tmod_eq_zero h3⟩
    refine ⟨rfl, ?_, rfl, rfl, rfl, ?_, fun _ => h2⟩ <;> rw [if_pos ha]
  · cases h
    have ha : ¬ Active op s.outer := fun h => h3 (Int.tmod_eq_zero_of_dvd h.2)
    refine ⟨rfl, ?_, rfl, rfl, rfl, ?_, fun _ => h2⟩ <;> simp [ha]
  · cases h
    have ha : ¬ Active op s.outer := fun h => h1 (by have := h.1; omega)
    refine ⟨rfl, ?_, rfl, rfl, rfl, ?_, fun h => absurd h (by omega)⟩ <;> simp [ha]

theorem mocProject_eq {m : Geo K} {op : Opts} {g : Nat} {s s' : St K} (h : mocProject m op g s = some s') :
    s'.outer = s.outer ∧ s'.log = s.log ∧ s'.moc = s.moc ∧ s'.resid = s.resid ∧ s'.prev = upd s.prev g (getPlane m.n2 m.ps (s.moc g)) ∧
    (op.mocProject = false → s'.sn = s.sn) := by
  unfold mocProject at h
  dsimp only at h
  split_ifs at h with h1 h3
  · cases h
    exact ⟨rfl, rfl, rfl, rfl, rfl, fun h2 => by rw [h1] at h2; cases h2⟩
  · cases h
    exact ⟨rfl, rfl, rfl, rfl, rfl, fun _ => rfl⟩

theorem snPart_eq {m : Geo K} {o : Ops K} {op : Opts} {g : Nat} {s s' : St K} (h : snPart m o op g s = some s') :
    s'.outer = s.outer ∧ s'.log = s.log ++ [.sn g] ∧ s'.sn = upd s.sn g (clean (o.sn g s)) ∧ s'.prev = s.prev ∧
    (op.snProject = false → s'.moc = s.moc) ∧
    ∃ r, s'.resid = upd s.resid g (s.resid g ++ [r]) ∧
      r = ((List.range (m.n2 * m.ps.length)).map fun i : Nat =>
        (s.prev g i - (if op.snProject then clean (snGetPlane m.n2 m.dz m.ps (s'.sn g)) else snGetPlane m.n2 m.dz m.ps (s'.sn g)) i) ^ 2).sum := by
  unfold snPart at h
  dsimp only at h
  split at h
  · cases h
  · rename_i s2 f he
    cases h
    split_ifs at he with h1
    · cases hp : project m g (snSweep o g s) with
      | none => rw [hp] at he; cases he
      | some s3 =>
        rw [hp] at he
        simp only [Option.map_some, Option.some.injEq, Prod.mk.injEq] at he
        obtain ⟨rfl, rfl⟩ := he
        obtain ⟨e1, e2, e3, e4, e5⟩ := project_eq hp
        refine ⟨e1, e2, e3, e5, fun h2 => (by rw [h1] at h2; cases h2), ?_⟩
        refine ⟨((List.range (m.n2 * m.ps.length)).map fun i : Nat => (s3.prev g i - clean (snGetPlane m.n2 m.dz m.ps ((snSweep o g s).sn g)) i) *
          (s3.prev g i - clean (snGetPlane m.n2 m.dz m.ps ((snSweep o g s).sn g)) i)).sum, ?_, ?_⟩
        · dsimp only
          rw [e4]
          rfl
        · congr 1
          apply List.map_congr_left
          intro i _
          rw [e5, e3, if_pos h1, pow_two]
          rfl
    · simp only [Option.some.injEq, Prod.mk.injEq] at he
      obtain ⟨rfl, rfl⟩ := he
      refine ⟨rfl, rfl, rfl, rfl, fun _ => rfl, _, rfl, ?_⟩
      congr 1
      apply List.map_congr_left
      intro i _
      rw [if_neg h1, pow_two]
      rfl

/-- C104: one sweep that succeeds.  There are coarse data; the outer iteration is counted with group 0; what is done is as in `events`; the flux of Sn is
not negative; and the residual is that between the macroplane averages of MoC, before the projection, and of Sn. -/
theorem C104_sweep {m : Geo K} {o : Ops K} {op : Opts} {cd : Bool} {g : Nat} {s s' : St K} (h : sweep m o op cd g s = .ok s') :
    cd = true ∧ s'.outer = (if g = 0 then s.outer + 1 else s.outer) ∧ s'.log = s.log ++ events op s'.outer g ∧
    (∀ i, 0 ≤ s'.sn g i) ∧ (op.inactive ≤ s'.outer → op.modulo ≠ 0) ∧
    (op.snProject = false → s'.prev g = getPlane m.n2 m.ps (s'.moc g)) ∧
    ∃ r, s'.resid = upd s.resid g (s.resid g ++ [r]) ∧
      r = ((List.range (m.n2 * m.ps.length)).map fun i : Nat =>
        (s'.prev g i - (if op.snProject then clean (snGetPlane m.n2 m.dz m.ps (s'.sn g)) else snGetPlane m.n2 m.dz m.ps (s'.sn g)) i) ^ 2).sum := by
  unfold sweep at h
  cases cd with
  | false => cases h
  | true =>
    rw [if_neg (by simp)] at h
    dsimp only at h
    set s0 : St K := if g = 0 then { s with outer := s.outer + 1 } else s with hs0
    set s1 : St K := if op.tl then { s0 with log := s0.log ++ [.tl g] } else s0 with hs1
    have h0 : s0.outer = (if g = 0 then s.outer + 1 else s.outer) ∧ s0.log = s.log ∧ s0.resid = s.resid := by
      rw [hs0]
      split_ifs <;> exact ⟨rfl, rfl, rfl⟩
    have h1 : s1.outer = s0.outer ∧ s1.log = s0.log ++ (if op.tl then [.tl g] else []) ∧ s1.resid = s0.resid := by
      rw [hs1]
      split_ifs
      · exact ⟨rfl, rfl, rfl⟩
      · exact ⟨rfl, by simp, rfl⟩
    clear_value s0 s1
    split at h
    · cases h
    · rename_i s2 e2
      have h2 : s2.outer = s1.outer ∧ s2.log = s1.log ++ (if op.vCycle then [.sn g] else []) ∧ s2.resid = s1.resid := by
        split_ifs at e2 with hv
        · obtain ⟨a, b, -, d, -⟩ := project_eq e2
          rw [if_pos hv]
          exact ⟨a, b, d⟩
        · cases e2
          rw [if_neg hv]
          exact ⟨rfl, by simp, rfl⟩
      split at h
      · cases h
      · rename_i s3 e3
        obtain ⟨a1, a2, a3, a4, a5, a6, a7⟩ := mocPart_eq e3
        split at h
        · cases h
        · rename_i s4 e4
          obtain ⟨b1, b2, b3, b4, b5, b6⟩ := mocProject_eq e4
          split at h
          · cases h
          · rename_i s5 e5
            obtain ⟨c1, c2, c3, c4, c5, r, c6, c7⟩ := snPart_eq e5
            cases h
            have ho : s'.outer = s2.outer := by rw [c1, b1, a1]
            refine ⟨rfl, ?_, ?_, ?_, ?_, ?_, r, ?_, ?_⟩
            · rw [ho, h2.1, h1.1, h0.1]
            · rw [c2, b2, a2, h2.2.1, h1.2.1, h0.2.1, ho]
              unfold events
              simp only [List.append_assoc]
            · intro i
              rw [c3]
              unfold upd clean
              rw [if_pos rfl]
              split_ifs with hneg
              · exact le_refl _
              · exact not_lt.1 hneg
            · rw [ho]
              exact a7
            · intro hp
              rw [c4, b5, c5 hp, b3]
              unfold upd
              rw [if_pos rfl]
            · rw [c6, b4, a4, h2.2.2, h1.2.2, h0.2.2]
            · rw [c7, c4]

theorem groups_log {m : Geo K} {o : Ops K} {op : Opts} {cd : Bool} (n g : Nat) {s s' : St K} (h : groups m o op cd n (g + 1) s = .ok s') :
    s'.outer = s.outer ∧ s'.log = s.log ++ (List.range n).flatMap fun k : Nat => events op s.outer (g + 1 + k) := by
  induction n generalizing g s with
  | zero => cases h; exact ⟨rfl, by simp⟩
  | succ n ih =>
    rw [groups] at h
    cases hs : sweep m o op cd (g + 1) s with
    | throw => rw [hs] at h; cases h
    | ub => rw [hs] at h; cases h
    | ok s1 =>
      rw [hs] at h
      dsimp only at h
      obtain ⟨-, e1, e2, -⟩ := C104_sweep hs
      rw [if_neg (by omega)] at e1
      obtain ⟨i1, i2⟩ := ih (g + 1) h
      refine ⟨i1.trans e1, ?_⟩
      rw [i2, e2, e1, List.append_assoc]
      congr 1
      rw [List.range_succ_eq_map, List.flatMap_cons, List.flatMap_map]
      congr 1
      congr 1
      funext k
      congr 1
      simp only [Nat.succ_eq_add_one]
      omega

/-- C104: the schedule.  From the start (`i_outer_` is -1), `n` outer iterations of `ng` groups do for each iteration `i` and each group, in this order: the
transverse leakage if enabled, in a V cycle an Sn sweep, the MoC sweep if `i` is at least `inactive_moc` and a multiple of `moc_modulo`, and an Sn sweep. -/
theorem C104_schedule {m : Geo K} {o : Ops K} {op : Opts} {cd : Bool} (ng : Nat) (hng : 0 < ng) (n : Nat) {s s' : St K} (h0 : s.outer = -1) (hl : s.log = [])
    (h : outers m o op cd ng n s = .ok s') :
    s'.outer = n - 1 ∧ s'.log = (List.range n).flatMap fun i : Nat => (List.range ng).flatMap fun g : Nat => events op i g := by
  have key : ∀ (n k : Nat) (s : St K), s.outer = (k : Int) - 1 → outers m o op cd ng n s = .ok s' →
      s'.outer = (k + n : Nat) - 1 ∧ s'.log = s.log ++ (List.range n).flatMap fun i : Nat => (List.range ng).flatMap fun g : Nat => events op ((k + i : Nat) : Int) g := by
    intro n
    induction n with
    | zero =>
      intro k s ho h
      cases h
      exact ⟨ho, by simp⟩
    | succ n ih =>
      intro k s ho h
      rw [outers] at h
      cases hg : groups m o op cd ng 0 s with
      | throw => rw [hg] at h; cases h
      | ub => rw [hg] at h; cases h
      | ok s1 =>
        rw [hg] at h
        dsimp only at h
        obtain ⟨ng', rfl⟩ : ∃ ng', ng = ng' + 1 := ⟨ng - 1, by omega⟩
        rw [groups] at hg
        cases hs : sweep m o op cd 0 s with
        | throw => rw [hs] at hg; cases hg
        | ub => rw [hs] at hg; cases hg
        | ok s2 =>
          rw [hs] at hg
          dsimp only at hg
          obtain ⟨-, e1, e2, -⟩ := C104_sweep hs
          rw [if_pos rfl, ho] at e1
          have e1' : s2.outer = (k : Int) := by rw [e1]; ring
          obtain ⟨f1, f2⟩ := groups_log ng' 0 hg
          obtain ⟨i1, i2⟩ := ih (k + 1) s1 (by rw [f1, e1']; push_cast; ring) h
          refine ⟨by rw [i1]; push_cast; ring, ?_⟩
          rw [i2, f2, e2, e1', List.append_assoc, List.append_assoc]
          congr 1
          rw [List.range_succ_eq_map (n := n), List.flatMap_cons, List.flatMap_map, List.range_succ_eq_map (n := ng'), List.flatMap_cons, List.flatMap_map]
          rw [List.append_assoc]
          congr 1
          congr 1
          · apply List.flatMap_congr
            intro g _
            rw [Nat.add_zero, Nat.add_comm 1 g]
            rfl
          · apply List.flatMap_congr
            intro i _
            apply List.flatMap_congr
            intro g _
            rw [Nat.succ_eq_add_one, Nat.add_assoc, Nat.add_comm 1 i]
  obtain ⟨k1, k2⟩ := key n 0 s (by rw [h0]; rfl) h
  refine ⟨by rw [k1]; simp, ?_⟩
  rw [k2, hl, List.nil_append]
  congr 1
  funext i
  rw [Nat.zero_add]

/-- C104: without coarse data nothing is swept. -/
theorem C104_no_data (m : Geo K) (o : Ops K) (op : Opts) (g : Nat) (s : St K) : sweep m o op false g s = .throw := rfl

/-- C104: without projections the sweep always succeeds, unless the modulus is zero in an active iteration, which is undefined. -/
theorem C104_plain (m : Geo K) (o : Ops K) (op : Opts) (g : Nat) (s : St K) (hv : op.vCycle = false) (hp : op.snProject = false) (hm : op.mocProject = false) :
    ((∃ s', sweep m o op true g s = .ok s') ↔ (op.inactive ≤ (if g = 0 then s.outer + 1 else s.outer) → op.modulo ≠ 0)) ∧
    sweep m o op true g s ≠ .throw := by
  unfold sweep
  rw [if_neg (by simp)]
  dsimp only
  simp only [hv, Bool.false_eq_true, if_false]
  set s0 : St K := if g = 0 then { s with outer := s.outer + 1 } else s with hs0
  set s1 : St K := if op.tl then { s0 with log := s0.log ++ [.tl g] } else s0 with hs1
  have h0 : s1.outer = (if g = 0 then s.outer + 1 else s.outer) := by
    rw [hs1, hs0]
    split_ifs <;> rfl
  clear_value s1
  rw [← h0]
  have hproj : ∀ t : St K, ∃ t', mocProject m op g t = some t' := by
    intro t
    unfold mocProject
    dsimp only
    rw [if_neg (by simp [hm])]
    exact ⟨_, rfl⟩
  have hsn : ∀ t : St K, ∃ t', snPart m o op g t = some t' := by
    intro t
    unfold snPart
    dsimp only
    rw [if_neg (by simp [hp])]
    exact ⟨_, rfl⟩
  cases e3 : mocPart o op g s1 with
  | none =>
    refine ⟨⟨?_, ?_⟩, by simp⟩
    · rintro ⟨s', h⟩
      cases h
    · intro h
      exfalso
      unfold mocPart at e3
      split_ifs at e3 with a b
      exact h (by omega) b
  | some s3 =>
    obtain ⟨-, -, -, -, -, -, a7⟩ := mocPart_eq e3
    obtain ⟨s4, e4⟩ := hproj s3
    obtain ⟨s5, e5⟩ := hsn s4
    dsimp only
    rw [e4]
    dsimp only
    rw [e5]
    exact ⟨⟨fun _ => a7, fun _ => ⟨_, rfl⟩⟩, by simp⟩

/-- C104, a claim: every combination of options gives sweeps without undefined behaviour. -/
def C104_options_claim : Prop := ∀ (m : Geo ℚ) (o : Ops ℚ) (op : Opts) (cd : Bool) (g : Nat) (s : St ℚ), sweep m o op cd g s ≠ .ub

/-- A state with the given Sn flux in all groups and planes. -/
def st0 (v : ℚ) : St ℚ := ⟨-1, fun _ _ => 1, fun _ _ => v, fun _ _ => 0, fun _ => [], []⟩

/-- Sweeps that leave the fluxes alone (no inner iterations). -/
def idle : Ops ℚ := ⟨fun g s => s.moc g, fun g s => s.sn g⟩

/-- One pin in two planes, each a macroplane. -/
def geo2 : Geo ℚ := ⟨1, 2, fun _ => 1, fun z => z, fun _ => 1, [⟨0, 0, 1, [⟨0, [1], 1⟩]⟩, ⟨1, 1, 1, [⟨0, [1], 1⟩]⟩]⟩

/-- `moc_modulo="0"`. -/
theorem C104_options_claim_false : ¬ C104_options_claim := by
  intro h
  exact h geo2 idle ⟨false, false, false, false, 0, 0⟩ true 0 (st0 1) rfl

/-- C104, the claim of the messages: with projection, Sn fluxes that are not positive are corrected and the iteration goes on. -/
def C104_claim : Prop := ∀ (m : Geo ℚ) (o : Ops ℚ) (op : Opts) (g : Nat) (s : St ℚ), op.modulo ≠ 0 → MocOk m.n2 m.ps (s.moc g) → op.vCycle = false → op.mocProject = false →
  op.snProject = true → ∃ s', sweep m o op true g s = .ok s'

/-- C104: with projection (and no V cycle) the sweep throws if and only if the Sn flux of some macroplane and pin is zero after negative values have been
replaced by zero (in place of the sweeps there may be anything). -/
theorem C104_project (m : Geo K) (g : Nat) (s : St K) :
    (∃ s', project m g s = some s') ↔ ∀ i, i < m.n2 * m.ps.length → 0 < snGetPlane m.n2 m.dz m.ps (s.sn g) i := by
  unfold project
  dsimp only
  unfold setPin
  constructor
  · rintro ⟨s', h⟩ i hi
    split at h
    · cases h
    · rename_i fl r e
      split_ifs at e with ha
      rw [List.all_eq_true] at ha
      have := ha i (List.mem_range.2 hi)
      simp only [decide_eq_true_eq] at this
      unfold clean at this
      split_ifs at this with hn
      · exact absurd this (lt_irrefl _)
      · exact this
  · intro h
    have ha : ((List.range (m.n2 * m.ps.length)).all fun i => decide (0 < clean (snGetPlane m.n2 m.dz m.ps (s.sn g)) i)) = true := by
      rw [List.all_eq_true]
      intro i hi
      rw [decide_eq_true_eq]
      unfold clean
      rw [if_neg (not_lt.2 (le_of_lt (h i (List.mem_range.1 hi))))]
      exact h i (List.mem_range.1 hi)
    rw [if_pos ha]
    exact ⟨_, rfl⟩

/-- C104, a claim: with `moc_project` the macroplane averages of the Sn flux become those of MoC. -/
def C104_moc_claim : Prop := ∀ (m : Geo ℚ) (op : Opts) (g : Nat) (s s' : St ℚ), PlanesDisjoint m.ps → op.mocProject = true → mocProject m op g s = some s' →
  ∀ i, i < m.n2 * m.ps.length → snGetPlane m.n2 m.dz m.ps (s'.sn g) i = getPlane m.n2 m.ps (s.moc g) i

/-- Partial: this holds if each macroplane is one plane, in order, and there is more than one cell.  Missing are sub-planes (`C104_moc_claim_false`) and a
single cell (`C104_moc_single`). -/
theorem C104_moc_project_partial (m : Geo K) (op : Opts) (g : Nat) (s : St K) (hz : m.ps.length = m.nz) (h1 : m.n2 * m.nz ≠ 1)
    (hp : ∀ k mp, m.ps[k]? = some mp → mp.izMin = k ∧ mp.izMax = k ∧ mp.height = m.dz k) (hd : ∀ k, k < m.nz → m.dz k ≠ 0) (ho : op.mocProject = true) :
    ∃ s', mocProject m op g s = some s' ∧ ∀ i, i < m.n2 * m.ps.length → snGetPlane m.n2 m.dz m.ps (s'.sn g) i = getPlane m.n2 m.ps (s.moc g) i := by
  unfold mocProject
  dsimp only
  rw [if_pos ho, if_neg h1]
  refine ⟨_, rfl, ?_⟩
  intro i hi
  have hn : 0 < m.n2 := by
    rcases Nat.eq_zero_or_pos m.n2 with h | h
    · rw [h] at hi; omega
    · exact h
  have hk : i / m.n2 < m.ps.length := Nat.div_lt_of_lt_mul hi
  obtain ⟨e1, e2, e3⟩ := hp _ _ (List.getElem?_eq_getElem hk)
  dsimp only [upd]
  rw [if_pos rfl]
  unfold snGetPlane
  rw [List.getElem?_eq_getElem hk]
  dsimp only
  unfold planesOf
  rw [e1, e2, e3, show i / m.n2 + 1 - i / m.n2 = 1 by omega]
  simp only [List.range_one, List.map_cons, List.map_nil, List.sum_cons, List.sum_nil, Nat.add_zero, add_zero]
  rw [Nat.mod_add_div, if_pos hi, mul_div_assoc, div_self (hd _ (hz ▸ hk)), mul_one]

/-- C104: on a mesh of a single cell `moc_project` reads outside of the flux. -/
theorem C104_moc_single (m : Geo K) (op : Opts) (g : Nat) (s : St K) (h1 : m.n2 * m.nz = 1) (ho : op.mocProject = true) : mocProject m op g s = none := by
  unfold mocProject
  rw [if_pos ho, if_pos h1]

/-- One pin in three planes, the first two a macroplane; the MoC flux is 2 and 3. -/
def geo3 : Geo ℚ := ⟨1, 3, fun _ => 1, fun z => if z < 2 then 0 else 1, fun k => if k = 0 then 2 else 1, [⟨0, 1, 2, [⟨0, [1], 1⟩]⟩, ⟨2, 2, 1, [⟨0, [1], 1⟩]⟩]⟩

theorem C104_moc_claim_false : ¬ C104_moc_claim := by
  intro h
  let s : St ℚ := ⟨0, fun _ i => if i = 0 then 2 else 3, fun _ _ => 1, fun _ _ => 0, fun _ => [], []⟩
  have hs : (mocProject geo3 ⟨false, false, true, false, 0, 1⟩ 0 s).isSome = true := by decide +kernel
  have := h geo3 ⟨false, false, true, false, 0, 1⟩ 0 s _ (by
      intro k l mp mq z hk hl hz hz'
      rcases k with _ | _ | k <;> rcases l with _ | _ | l <;> simp [geo3] at hk hl <;> subst hk hl <;> simp [planesOf] at hz hz' <;> omega) rfl (Option.some_get hs).symm 0 (by decide)
  revert this hs
  decide +kernel

/-- All Sn fluxes are -1. -/
theorem C104_claim_false : ¬ C104_claim := by
  intro h
  obtain ⟨s', hs⟩ := h geo2 idle ⟨false, false, false, true, 0, 1⟩ 0 (st0 (-1)) (by decide) ⟨by
      intro mp hmp
      rcases List.mem_cons.1 hmp with rfl | hmp
      · decide
      · rw [List.mem_singleton] at hmp
        subst hmp
        decide, by
      intro mp hmp
      rcases List.mem_cons.1 hmp with rfl | hmp
      · norm_num
      · rw [List.mem_singleton] at hmp
        subst hmp
        norm_num, by
      intro mp hmp p hp
      rcases List.mem_cons.1 hmp with rfl | hmp
      · rw [List.mem_singleton] at hp
        subst hp
        norm_num
      · rw [List.mem_singleton] at hmp
        subst hmp
        rw [List.mem_singleton] at hp
        subst hp
        norm_num, by
      intro mp hmp p hp
      rcases List.mem_cons.1 hmp with rfl | hmp
      · rw [List.mem_singleton] at hp
        subst hp
        norm_num
      · rw [List.mem_singleton] at hmp
        subst hmp
        rw [List.mem_singleton] at hp
        subst hp
        norm_num, by
      intro v hv
      simp only [geo2, visits, planeVisits, List.append_nil, List.singleton_append, List.mem_cons, List.not_mem_nil, or_false] at hv
      rcases hv with rfl | rfl <;> simp [pinAverage, dot, st0]⟩ rfl rfl rfl
  have : (match sweep geo2 idle ⟨false, false, false, true, 0, 1⟩ true 0 (st0 (-1)) with | .ok _ => true | _ => false) = false := by decide +kernel
  rw [hs] at this
  cases this

/-! ### The hypotheses can be met -/

/-- Three outer iterations of one group with all options on, one inactive, MoC in every second: MoC is swept in the last only. -/
example : (match outers geo2 idle ⟨true, true, true, true, 1, 2⟩ true 1 3 (st0 1) with | .ok s => some (s.outer, s.log, s.resid 0) | _ => none) =
    some (2, [.tl 0, .sn 0, .sn 0, .tl 0, .sn 0, .sn 0, .tl 0, .sn 0, .moc 0, .sn 0], [0, 0, 0]) := by decide +kernel

/-- The residual before the projection: MoC 1, Sn 3 in two cells; afterwards MoC has the Sn flux. -/
example : (match sweep geo2 idle ⟨false, false, false, true, 0, 1⟩ true 0 (st0 3) with | .ok s => some (s.resid 0, s.moc 0 0, s.moc 0 1) | _ => none) =
    some ([8], 3, 3) := by decide +kernel

example : ∀ k mp, geo2.ps[k]? = some mp → mp.izMin = k ∧ mp.izMax = k ∧ mp.height = geo2.dz k := by
  intro k mp h
  rcases k with _ | _ | k <;> simp [geo2] at h <;> subst h <;> simp [geo2]

end Verif.Cmdo.Sweep
