import Verif.Mc.SourceModel
import Verif.Rng.Props
import Mathlib.Data.Fintype.Perm
import Mathlib.Data.List.Perm.Basic
import Mathlib.Tactic.Linarith
import Mathlib.Tactic.NormNum
import Mathlib.Tactic.Positivity

/-!
# C120: the initial source of Monte Carlo
-/

namespace Verif.Mc

open Verif.Rng

theorem randomNum_le (s : U64) : randomNum s ≤ 2 ^ 63 := by
  by_cases h : (step s).toNat < 2 ^ 63 - 512
  · exact ((C03_random_below_one_partial s).mpr h).le
  · unfold randomNum
    have hx := step_lt s
    have hl : Nat.log2 (step s).toNat = 62 := log2_eq (by omega) (by omega)
    unfold rne53
    rw [if_neg (by omega), hl]
    simp only [show 62 - 52 = 10 from rfl]
    split <;> omega

theorem drawn_bounds (s : U64) (k : Nat) : 0 ≤ drawn s k ∧ drawn s k ≤ 1 := by
  unfold drawn
  refine ⟨by positivity, (div_le_one (by positivity)).mpr ?_⟩
  exact_mod_cast randomNum_le (step^[k] s)

theorem drawn_lt (s : U64) (k : Nat) (h : (step^[k + 1] s).toNat < 2 ^ 63 - 512) : drawn s k < 1 := by
  unfold drawn
  refine (div_lt_one (by positivity)).mpr ?_
  rw [Function.iterate_succ_apply'] at h
  exact_mod_cast (C03_random_below_one_partial (step^[k] s)).mpr h

/-- The site number `i` of the loop from number `j` on. -/
theorem sourceLoop_get (o : Nat → ArgOrder) (ng : Nat) (b : Box) (n j : Nat) (s : U64) :
    (sourceLoop o ng b n j s).1.length = n ∧ (sourceLoop o ng b n j s).2 = step^[6 * n] s ∧
      ∀ i < n, (sourceLoop o ng b n j s).1[i]? = some (sourceSite (o (j + i)) ng b (step^[6 * i] s) (j + i)) := by
  induction n generalizing j s with
  | zero => exact ⟨rfl, by rw [Nat.mul_zero, Function.iterate_zero, id_eq, sourceLoop], by omega⟩
  | succ n ih =>
    obtain ⟨h1, h2, h3⟩ := ih (j + 1) (step^[6] s)
    refine ⟨by rw [sourceLoop]; exact congrArg (· + 1) h1, ?_, ?_⟩
    · rw [sourceLoop]
      show (sourceLoop o ng b n (j + 1) (step^[6] s)).2 = _
      rw [h2, ← Function.iterate_add_apply, show 6 * n + 6 = 6 * (n + 1) by ring]
    · intro i hi
      cases i with
      | zero =>
        rw [sourceLoop, List.getElem?_cons_zero, Nat.mul_zero, Function.iterate_zero, id_eq, Nat.add_zero]
      | succ i =>
        rw [sourceLoop, List.getElem?_cons_succ]
        rw [h3 i (by omega), ← Function.iterate_add_apply, show 6 * i + 6 = 6 * (i + 1) by ring, show j + 1 + i = j + (i + 1) by omega]

/-- C120: the solver is made exactly from an input with all bounds in order, an odd seed and numbers of cycles and particles that are not negative. -/
theorem C120_accepts (o : Nat → ArgOrder) (ng : Nat) (i : McInput) :
    (∃ w bank, buildSolver o ng i = .ok w bank) ↔
      (∃ b x0 x1 y0 y1 z0 z1, i.box = some b ∧ b.xmin = some x0 ∧ b.xmax = some x1 ∧ b.ymin = some y0 ∧ b.ymax = some y1 ∧ b.zmin = some z0 ∧ b.zmax = some z1 ∧
        x0 < x1 ∧ y0 < y1 ∧ z0 < z1) ∧
      (∃ c, i.cycles = some c ∧ 0 ≤ c) ∧ (∃ c, i.inactive = some c ∧ 0 ≤ c) ∧ (∃ c, i.particles = some c ∧ 0 ≤ c) ∧ ∀ c, i.seed = some c → c % 2 = 1 := by
  have hseed : (BitVec.ofInt 64 (i.seed.getD 1)).toNat % 2 = 1 ↔ ∀ c, i.seed = some c → c % 2 = 1 := by
    have key : ∀ c : Int, (BitVec.ofInt 64 c).toNat % 2 = 1 ↔ c % 2 = 1 := by
      intro c
      rw [BitVec.toNat_ofInt]
      omega
    cases h : i.seed with
    | none => simp
    | some c => rw [Option.getD_some, key]; simp
  have hget : ∀ v : Option Int, (0 ≤ v.getD (-1)) ↔ ∃ c, v = some c ∧ 0 ≤ c := by
    intro v
    cases v with
    | none => simp
    | some c => simp
  have hbox : ∀ b : BoxInput, (∃ x, readBox b = some x) ↔ ∃ x0 x1 y0 y1 z0 z1, b.xmin = some x0 ∧ b.xmax = some x1 ∧ b.ymin = some y0 ∧ b.ymax = some y1 ∧
      b.zmin = some z0 ∧ b.zmax = some z1 ∧ x0 < x1 ∧ y0 < y1 ∧ z0 < z1 := by
    intro b
    constructor
    · rintro ⟨x, hx⟩
      unfold readBox at hx
      split at hx
      · rename_i x0 x1 y0 y1 z0 z1 e1 e2 e3 e4 e5 e6
        split at hx
        · simp at hx
        · rename_i hn
          push Not at hn
          exact ⟨x0, x1, y0, y1, z0, z1, e1, e2, e3, e4, e5, e6, hn⟩
      · simp at hx
    · rintro ⟨x0, x1, y0, y1, z0, z1, e1, e2, e3, e4, e5, e6, hn⟩
      unfold readBox
      rw [e1, e2, e3, e4, e5, e6]
      simp only
      rw [if_neg (by push Not; exact hn)]
      exact ⟨_, rfl⟩
  rw [← hseed, ← hget, ← hget, ← hget]
  constructor
  · rintro ⟨w, bank, h⟩
    unfold buildSolver buildBank at h
    dsimp only at h
    cases hb : i.box with
    | none => rw [hb] at h; simp at h
    | some b =>
      rw [hb] at h
      simp only at h
      cases hr : readBox b with
      | none => rw [hr] at h; simp at h
      | some x =>
        rw [hr] at h
        simp only at h
        obtain ⟨x0, x1, y0, y1, z0, z1, hh⟩ := (hbox b).mp ⟨x, hr⟩
        refine ⟨⟨b, x0, x1, y0, y1, z0, z1, rfl, hh⟩, ?_⟩
        by_cases hn : i.particles.getD (-1) < 0
        · rw [if_pos hn] at h; simp at h
        · rw [if_neg hn] at h
          simp only at h
          split at h
          · simp at h
          · split at h
            · simp at h
            · split at h
              · simp at h
              · omega
  · rintro ⟨⟨b, x0, x1, y0, y1, z0, z1, hb, hh⟩, h1, h2, h3, h4⟩
    obtain ⟨x, hx⟩ := (hbox b).mpr ⟨x0, x1, y0, y1, z0, z1, hh⟩
    unfold buildSolver buildBank
    dsimp only
    rw [hb]
    simp only
    rw [hx]
    simp only
    rw [if_neg (by omega)]
    simp only
    rw [if_neg (by omega), if_neg (by omega), if_neg (by omega), if_neg (by omega)]
    exact ⟨_, _, rfl⟩

/-- C120: the sites of an accepted input: as many as asked for, numbered in order, inside of the box, in one of the groups (unless the generator returns one), and the
generator has moved by six numbers for each. -/
theorem C120_sites_partial (o : Nat → ArgOrder) (ng : Nat) (hng : 0 < ng) (hng2 : ng < 2 ^ 31) (i : McInput) (w : Nat) (l : List SourceSite) (s : U64)
    (h : buildSolver o ng i = .ok w (l, s)) :
    ∃ x0 x1 y0 y1 z0 z1 : ℚ, ∃ b, i.box = some b ∧ b.xmin = some x0 ∧ b.xmax = some x1 ∧ b.ymin = some y0 ∧ b.ymax = some y1 ∧ b.zmin = some z0 ∧ b.zmax = some z1 ∧
      i.particles = some (l.length : Int) ∧ s = step^[6 * l.length] (BitVec.ofInt 64 (i.seed.getD 1)) ∧
      ∀ (j : Nat) (p : SourceSite), l[j]? = some p → p.id = j ∧ x0 ≤ p.x ∧ p.x ≤ x1 ∧ y0 ≤ p.y ∧ p.y ≤ y1 ∧ z0 ≤ p.z ∧ p.z ≤ z1 ∧ 0 ≤ p.r1 ∧ p.r1 ≤ 1 ∧ 0 ≤ p.r2 ∧ p.r2 ≤ 1 ∧
        ((∀ k, 6 * j < k → k ≤ 6 * j + 6 → (step^[k] (BitVec.ofInt 64 (i.seed.getD 1))).toNat < 2 ^ 63 - 512) →
          p.x < x1 ∧ p.y < y1 ∧ p.z < z1 ∧ p.r1 < 1 ∧ p.r2 < 1 ∧ p.group < ng) := by
  unfold buildSolver buildBank at h
  dsimp only at h
  set seed := BitVec.ofInt 64 (i.seed.getD 1) with hsd
  cases hb : i.box with
  | none => rw [hb] at h; simp at h
  | some b =>
    rw [hb] at h
    simp only at h
    cases hr : readBox b with
    | none => rw [hr] at h; simp at h
    | some x =>
      rw [hr] at h
      simp only at h
      have hx := hr
      unfold readBox at hx
      split at hx
      · rename_i x0 x1 y0 y1 z0 z1 e1 e2 e3 e4 e5 e6
        split at hx
        · simp at hx
        · rename_i hn
          push Not at hn
          obtain ⟨n1, n2, n3⟩ := hn
          injection hx with hx
          subst hx
          by_cases hneg : i.particles.getD (-1) < 0
          · rw [if_pos hneg] at h; simp at h
          · rw [if_neg hneg] at h
            simp only at h
            have hl : (l, s) = sourceLoop o ng ⟨x0, x1, y0, y1, z0, z1⟩ (i.particles.getD (-1)).toNat 0 seed := by
              split at h
              · simp at h
              · split at h
                · simp at h
                · split at h
                  · simp at h
                  · injection h with _ h
                    exact h.symm
            obtain ⟨g1, g2, g3⟩ := sourceLoop_get o ng ⟨x0, x1, y0, y1, z0, z1⟩ (i.particles.getD (-1)).toNat 0 seed
            rw [← hl] at g1 g2 g3
            simp only at g1 g2 g3
            refine ⟨x0, x1, y0, y1, z0, z1, b, rfl, e1, e2, e3, e4, e5, e6, ?_, by rw [g1, g2], ?_⟩
            · cases hp : i.particles with
              | none => rw [hp] at hneg; simp at hneg
              | some c =>
                rw [hp] at g1 hneg
                simp only [Option.getD_some] at g1 hneg
                congr 1
                omega
            · intro j p hp
              have hj : j < (i.particles.getD (-1)).toNat := by
                rw [← g1]
                exact (List.getElem?_eq_some_iff.mp hp).1
              rw [g3 j hj] at hp
              injection hp with hp
              subst hp
              have ib : ∀ lo hi v : ℚ, lo < hi → 0 ≤ v ∧ v ≤ 1 → lo ≤ between lo hi v ∧ between lo hi v ≤ hi := by
                intro lo hi v hlt hv
                unfold between
                constructor
                · nlinarith
                · nlinarith
              have ib2 : ∀ lo hi v : ℚ, lo < hi → v < 1 → between lo hi v < hi := by
                intro lo hi v hlt hv
                unfold between
                nlinarith
              have d := drawn_bounds (step^[6 * j] seed)
              simp only [sourceSite, Nat.zero_add]
              refine ⟨trivial, (ib _ _ _ n1 (d _)).1, (ib _ _ _ n1 (d _)).2, (ib _ _ _ n2 (d _)).1, (ib _ _ _ n2 (d _)).2, (ib _ _ _ n3 (d _)).1, (ib _ _ _ n3 (d _)).2,
                (d _).1, (d _).2, (d _).1, (d _).2, fun hk => ?_⟩
              have dl : ∀ k, k < 6 → drawn (step^[6 * j] seed) k < 1 := by
                intro k hk6
                apply drawn_lt
                rw [← Function.iterate_add_apply]
                exact hk _ (by omega) (by omega)
              refine ⟨ib2 _ _ _ n1 (dl _ ?_), ib2 _ _ _ n2 (dl _ ?_), ib2 _ _ _ n3 (dl _ ?_), dl _ ?_, dl _ ?_, ?_⟩
              · have := ((o j).pt 0).isLt; omega
              · have := ((o j).pt 1).isLt; omega
              · have := ((o j).pt 2).isLt; omega
              · have := ((o j).dir 0).isLt; omega
              · have := ((o j).dir 1).isLt; omega
              · apply C03_random_int_partial _ ng hng hng2
                rw [← Function.iterate_succ_apply' step, ← Function.iterate_add_apply]
                exact hk _ (by omega) (by omega)
      · simp at hx

/-- C120: the warnings of an accepted input and its bank. -/
theorem C120_made (o : Nat → ArgOrder) (ng : Nat) (b : BoxInput) (x : Box) (c d n : Nat) (seed : Option Int) (hx : readBox b = some x)
    (hs : ∀ v, seed = some v → v % 2 = 1) :
    buildSolver o ng ⟨some c, some d, some n, seed, some b⟩ =
      .ok ((if b.rejection = some false then 0 else 1) + (if c = 0 then 1 else 0) + (if d = 0 then 1 else 0) + (if n = 0 then 1 else 0))
        (sourceLoop o ng x n 0 (BitVec.ofInt 64 (seed.getD 1))) := by
  have hseed : (BitVec.ofInt 64 (seed.getD 1)).toNat % 2 = 1 := by
    rw [BitVec.toNat_ofInt]
    cases seed with
    | none => decide
    | some v => have := hs v rfl; rw [Option.getD_some]; omega
  unfold buildSolver buildBank
  dsimp only
  rw [hx]
  simp only [Option.getD_some]
  rw [if_neg (by omega)]
  simp only
  rw [if_neg (by omega), if_neg (by omega), if_neg (by omega), if_neg (by omega), Int.toNat_natCast]
  congr 1
  have e : (if b.rejection.getD true then 1 else 0) = (if b.rejection = some false then 0 else 1) := by
    rcases b.rejection with _ | _ | _ <;> rfl
  rw [e]
  simp only [Int.natCast_eq_zero]

/-- C120: the six numbers of a site: the first three are the coordinates, in some order, the next two the direction, in some order, the last is the group. -/
theorem C120_draws (o : Nat → ArgOrder) (ng : Nat) (b : Box) (n : Nat) (s : U64) (j : Nat) (hj : j < n) :
    ∃ p : SourceSite, (sourceLoop o ng b n 0 s).1[j]? = some p ∧ ∃ x y z d e : Nat, [x, y, z].Perm [0, 1, 2] ∧ [d, e].Perm [3, 4] ∧
      p.x = b.xmin + (b.xmax - b.xmin) * ((randomNum (step^[6 * j + x] s) : ℚ) / 2 ^ 63) ∧
      p.y = b.ymin + (b.ymax - b.ymin) * ((randomNum (step^[6 * j + y] s) : ℚ) / 2 ^ 63) ∧
      p.z = b.zmin + (b.zmax - b.zmin) * ((randomNum (step^[6 * j + z] s) : ℚ) / 2 ^ 63) ∧
      p.r1 = (randomNum (step^[6 * j + d] s) : ℚ) / 2 ^ 63 ∧ p.r2 = (randomNum (step^[6 * j + e] s) : ℚ) / 2 ^ 63 ∧
      p.group = randomInt (step^[6 * j + 5] s) ng := by
  refine ⟨_, (sourceLoop_get o ng b n 0 s).2.2 j hj, (o (0 + j)).pt 0, (o (0 + j)).pt 1, (o (0 + j)).pt 2, 3 + (o (0 + j)).dir 0, 3 + (o (0 + j)).dir 1, ?_, ?_, ?_⟩
  · generalize (o (0 + j)).pt = q
    revert q
    decide
  · generalize (o (0 + j)).dir = q
    revert q
    decide
  · simp only [sourceSite, between, drawn, ← Function.iterate_add_apply, Nat.add_comm _ (6 * j), and_self]

/-- C120: `fissile_rejection` has no effect but a warning. -/
theorem C120_rejection (o : Nat → ArgOrder) (ng : Nat) (b : BoxInput) (n : Int) (s : U64) (r : Option Bool) :
    (∀ w bank, buildBank o ng (some b) n s = .ok w bank → ∃ w', buildBank o ng (some { b with rejection := r }) n s = .ok w' bank) ∧
    (buildBank o ng (some b) n s = .exception ↔ buildBank o ng (some { b with rejection := r }) n s = .exception) := by
  have e : readBox { b with rejection := r } = readBox b := rfl
  unfold buildBank
  simp only [e]
  cases readBox b with
  | none => simp
  | some x =>
    by_cases hn : n < 0
    · simp [hn]
    · simp [hn]

/-- C120 (full claim, false): a number of particles that is negative or missing is refused by the check for it. -/
def C120_refuse_claim : Prop := ∀ (o : Nat → ArgOrder) (ng : Nat) (i : McInput), i.particles.getD (-1) < 0 → buildSolver o ng i = .exception

def unitBox : BoxInput := ⟨some 0, some 1, some 0, some 1, some 0, some 1, none⟩

/-- C120: with a box that is in order, such a number always ends in an exception that the driver does not catch, before the check. -/
theorem C120_length_error (o : Nat → ArgOrder) (ng : Nat) (i : McInput) (b : BoxInput) (x : Box) (hb : i.box = some b) (hx : readBox b = some x)
    (hn : i.particles.getD (-1) < 0) : buildSolver o ng i = .lengthError := by
  unfold buildSolver buildBank
  dsimp only
  rw [hb]
  simp only
  rw [hx]
  simp only
  rw [if_pos hn]

theorem C120_refuse_claim_false : ¬ C120_refuse_claim := by
  intro h
  have := h (fun _ => ⟨Equiv.refl _, Equiv.refl _⟩) 1 ⟨some 10, some 2, none, none, some unitBox⟩ (by decide)
  rw [C120_length_error _ _ _ unitBox ⟨0, 1, 0, 1, 0, 1⟩ rfl (by decide +kernel) (by decide)] at this
  cases this

/-- C120 (full claim, false): the initial source is determined by the input. -/
def C120_order_claim : Prop := ∀ (o o' : Nat → ArgOrder) (ng : Nat) (i : McInput), buildSolver o ng i = buildSolver o' ng i

/-- Arguments from left to right. -/
def leftFirst : ArgOrder := ⟨Equiv.refl _, Equiv.refl _⟩

/-- Arguments from right to left. -/
def rightFirst : ArgOrder := ⟨Equiv.swap 0 2, Equiv.swap 0 1⟩

/-- C120: evaluation from the left and from the right give other sites from the same seed. -/
theorem C120_order_differs :
    sourceSite leftFirst 1 ⟨0, 1, 0, 1, 0, 1⟩ 1#64 0 ≠ sourceSite rightFirst 1 ⟨0, 1, 0, 1, 0, 1⟩ 1#64 0 := by
  decide +kernel

theorem C120_order_claim_false : ¬ C120_order_claim := by
  intro h
  have h := h (fun _ => leftFirst) (fun _ => rightFirst) 1 ⟨some 10, some 2, some 1, none, some unitBox⟩
  have e : ∀ o, buildSolver o 1 ⟨some 10, some 2, some 1, none, some unitBox⟩ = .ok 1 ([sourceSite (o 0) 1 ⟨0, 1, 0, 1, 0, 1⟩ 1#64 0], step^[6] 1#64) := by
    intro o
    have hr : readBox unitBox = some ⟨0, 1, 0, 1, 0, 1⟩ := by decide +kernel
    exact (C120_made o 1 unitBox _ 10 2 1 none hr (by simp)).trans (by rw [sourceLoop, sourceLoop]; rfl)
  rw [e, e] at h
  injection h with _ h
  injection h with h _
  injection h with h _
  exact C120_order_differs h

/-- C120: groups, numbers, how many and the state of the generator do not depend on the order. -/
theorem C120_order_same (o o' : Nat → ArgOrder) (ng : Nat) (b : Box) (n j : Nat) (s : U64) :
    ((sourceLoop o ng b n j s).1.map fun p => (p.group, p.id)) = ((sourceLoop o' ng b n j s).1.map fun p => (p.group, p.id)) ∧
      (sourceLoop o ng b n j s).2 = (sourceLoop o' ng b n j s).2 := by
  induction n generalizing j s with
  | zero => exact ⟨rfl, rfl⟩
  | succ n ih =>
    obtain ⟨h1, h2⟩ := ih (j + 1) (step^[6] s)
    refine ⟨?_, ?_⟩
    · rw [sourceLoop, sourceLoop, List.map_cons, List.map_cons, h1]
      congr 1
    · rw [sourceLoop, sourceLoop]
      exact h2

/-- C120 (full claim, false): the numbers of the initial source are used by no history (each with fewer than 10000). -/
def C120_fresh_claim : Prop := ∀ (seed : U64) (n : Nat), n < 2 ^ 31 → ∀ j < 6 * n, ∀ id : BitVec 32, id.toNat < n → ∀ i < 10000,
  step^[j + 1] seed ≠ historyDraw seed id 0#32 i

/-- C120: on the contrary, every number of the initial source is also used by the histories of the first cycle: number `j` by the history `j / 10000`, if it uses
that many. -/
theorem C120_reused (seed : U64) (n : Nat) (hn : n ≤ 429496) (j : Nat) (hj : j < 6 * n) :
    ∃ id : BitVec 32, id.toNat = j / 10000 ∧ id.toNat < n ∧ step^[j + 1] seed = historyDraw seed id 0#32 (j % 10000) := by
  have hid : (BitVec.ofNat 32 (j / 10000)).toNat = j / 10000 := by
    rw [BitVec.toNat_ofNat]
    omega
  refine ⟨BitVec.ofNat 32 (j / 10000), hid, by omega, ?_⟩
  rw [historyDraw_eq]
  have : ((BitVec.ofNat 32 (j / 10000) + 0#32) * 10000#32).toNat = j / 10000 * 10000 := by
    rw [BitVec.add_zero, BitVec.toNat_mul, hid]
    have : (10000#32 : BitVec 32).toNat = 10000 := by decide
    rw [this]
    omega
  rw [this]
  congr 1
  omega

theorem C120_fresh_claim_false : ¬ C120_fresh_claim := by
  intro h
  exact h 1#64 1 (by norm_num) 0 (by norm_num) 0#32 (by decide) 0 (by norm_num) (by rw [historyDraw_eq]; rfl)

theorem unitBox_read : readBox unitBox = some ⟨0, 1, 0, 1, 0, 1⟩ := by decide +kernel

/-- A run with two particles. -/
example : ∃ l s, buildSolver (fun _ => rightFirst) 7 ⟨some 10, some 0, some 2, some 3, some unitBox⟩ = .ok 2 (l, s) ∧ l.map SourceSite.id = [0, 1] :=
  ⟨_, _, C120_made _ 7 unitBox _ 10 0 2 (some 3) unitBox_read (by simp), rfl⟩

/-- An even seed is refused. -/
example : ¬ ∃ w bank, buildSolver (fun _ => leftFirst) 7 ⟨some 10, some 0, some 2, some 4, some unitBox⟩ = .ok w bank := by
  rw [C120_accepts]
  rintro ⟨_, _, _, _, h⟩
  exact absurd (h 4 rfl) (by decide)

end Verif.Mc
