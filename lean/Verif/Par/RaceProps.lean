import Verif.Par.RaceModel
import Verif.Rays.Props
import Mathlib.Data.List.Forall2
import Mathlib.Data.List.Nodup
import Mathlib.Tactic.Common

/-!
# C131: data races
-/

namespace Verif.Par

variable {L : Type}

/-- Two accesses of different threads that nothing orders form a data race if they conflict. -/
def Conflict (a b : Access L) : Prop :=
  a.loc = b.loc ∧ (a.op ≠ .read ∨ b.op ≠ .read) ∧ ¬ (a.sync = .atomic ∧ b.sync = .atomic) ∧ ¬ (a.sync = .critical ∧ b.sync = .critical)

/-- No data race in a region executed by `n` threads, whatever thread executes what. -/
def RaceFree (n : Nat) (prog : List (Item L)) : Prop :=
  ∀ (s : Sched) (t u : Nat), t < n → u < n → t ≠ u → ∀ (p : Nat) (A B : List (Access L)), (phases s t 0 prog [])[p]? = some A → (phases s u 0 prog [])[p]? = some B →
    ∀ a ∈ A, ∀ b ∈ B, ¬ Conflict a b

/-- The first access to a location. -/
def firstOp [DecidableEq L] (A : List (Access L)) (l : L) : Option Op := (A.find? fun x => x.loc = l).map Access.op

/-- Both threads store a value in the location before they do anything else with it, and nobody stores another one. -/
def Agree [DecidableEq L] (A B : List (Access L)) (l : L) : Prop :=
  ∃ v, (∀ x ∈ A ++ B, x.loc = l → x.op = .read ∨ x.op = .store v) ∧ firstOp A l = some (.store v) ∧ firstOp B l = some (.store v)

/-- All data races are between threads that store the same value, or one that reads what it has stored itself and another that stores the same. -/
def RacesAgree [DecidableEq L] (n : Nat) (prog : List (Item L)) : Prop :=
  ∀ (s : Sched) (t u : Nat), t < n → u < n → t ≠ u → ∀ (p : Nat) (A B : List (Access L)), (phases s t 0 prog [])[p]? = some A → (phases s u 0 prog [])[p]? = some B →
    ∀ a ∈ A, ∀ b ∈ B, Conflict a b → Agree A B a.loc

/-! ### Composition -/

def NoConf (A B : List (Access L)) : Prop := ∀ a ∈ A, ∀ b ∈ B, ¬ Conflict a b

theorem NoConf.nil_left (B : List (Access L)) : NoConf [] B := by intro a ha; cases ha
theorem NoConf.nil_right (A : List (Access L)) : NoConf A [] := by intro a _ b hb; cases hb

def Fine [DecidableEq L] (A B : List (Access L)) : Prop := ∀ a ∈ A, ∀ b ∈ B, Conflict a b → Agree A B a.loc

theorem NoConf.fine [DecidableEq L] {A B : List (Access L)} (h : NoConf A B) : Fine A B := fun a ha b hb hc => absurd hc (h a ha b hb)

/-- A piece of a region that starts with the accesses `C` pending and ends with a barrier. -/
def Seg (Q : List (Access L) → List (Access L) → Prop) (s : Sched) (t u : Nat) (p : List (Item L)) (C : Nat → List (Access L)) : Prop :=
  ∀ (k : Nat) (q : List (Item L)), (∀ k', List.Forall₂ Q (phases s t k' q []) (phases s u k' q [])) →
    List.Forall₂ Q (phases s t k (p ++ q) (C t)) (phases s u k (p ++ q) (C u))

theorem Seg.append {Q : List (Access L) → List (Access L) → Prop} {s : Sched} {t u : Nat} {p q : List (Item L)} {C : Nat → List (Access L)}
    (hp : Seg Q s t u p C) (hq : Seg Q s t u q fun _ => []) : Seg Q s t u (p ++ q) C := by
  intro k r hr
  rw [List.append_assoc]
  exact hp k (q ++ r) fun k' => hq k' r hr

theorem Seg.nil {Q : List (Access L) → List (Access L) → Prop} {s : Sched} {t u : Nat} : Seg Q s t u [] fun _ => [] := fun k q hq => hq k

theorem Seg.flatMap {ι : Type} {Q : List (Access L) → List (Access L) → Prop} {s : Sched} {t u : Nat} (xs : List ι) (f : ι → List (Item L))
    (h : ∀ x ∈ xs, Seg Q s t u (f x) fun _ => []) : Seg Q s t u (xs.flatMap f) fun _ => [] := by
  induction xs with
  | nil => exact Seg.nil
  | cons x xs ih =>
    rw [List.flatMap_cons]
    exact (h x (by simp)).append (ih fun y hy => h y (by simp [hy]))

theorem Seg.each {Q : List (Access L) → List (Access L) → Prop} {s : Sched} {t u : Nat} {p : List (Item L)} {C : Nat → List (Access L)} {f : Nat → List (Access L)}
    (h : Seg Q s t u p fun i => C i ++ f i) : Seg Q s t u (.each f :: p) C := by
  intro k q hq
  exact h (k + 1) q hq

theorem Seg.barrier {Q : List (Access L) → List (Access L) → Prop} {s : Sched} {t u : Nat} {C : Nat → List (Access L)} (h : Q (C t) (C u)) :
    Seg Q s t u [.barrier] C := by
  intro k q hq
  exact List.Forall₂.cons h (hq _)

theorem Seg.single {Q : List (Access L) → List (Access L) → Prop} {s : Sched} {t u : Nat} {a : List (Access L)} {C : Nat → List (Access L)}
    (h : ∀ k, Q (C t ++ if s.one k = t then a else []) (C u ++ if s.one k = u then a else [])) : Seg Q s t u [.single a] C := by
  intro k q hq
  exact List.Forall₂.cons (h k) (hq _)

theorem Seg.share {Q : List (Access L) → List (Access L) → Prop} {s : Sched} {t u n : Nat} {body : Nat → Nat → List (Access L)} {C : Nat → List (Access L)}
    (h : ∀ k, Q (C t ++ ((List.range n).filter fun i => s.iter k i = t).flatMap fun i => body i t) (C u ++ ((List.range n).filter fun i => s.iter k i = u).flatMap fun i => body i u)) :
    Seg Q s t u [.share n body] C := by
  intro k q hq
  exact List.Forall₂.cons (h k) (hq _)

theorem noConf_one {s : Sched} {t u : Nat} (h : t ≠ u) (a : List (Access L)) (k : Nat) :
    NoConf ([] ++ if s.one k = t then a else []) ([] ++ if s.one k = u then a else []) := by
  by_cases h1 : s.one k = t
  · have h2 : s.one k ≠ u := fun h2 => h (h1.symm.trans h2)
    simp only [if_neg h2, List.append_nil]
    exact NoConf.nil_right _
  · simp only [if_neg h1, List.append_nil]
    exact NoConf.nil_left _

theorem Seg.single' {Q : List (Access L) → List (Access L) → Prop} (hQ : ∀ A B, NoConf A B → Q A B) {s : Sched} {t u : Nat} (h : t ≠ u) (a : List (Access L)) :
    Seg Q s t u [.single a] fun _ => [] := Seg.single fun k => hQ _ _ (noConf_one h a k)

theorem critical_noConf {A B : List (Access L)} (ha : ∀ a ∈ A, a.sync = .critical) (hb : ∀ b ∈ B, b.sync = .critical) : NoConf A B :=
  fun a h1 b h2 hc => hc.2.2.2 ⟨ha a h1, hb b h2⟩

theorem forall₂_get {α : Type} {Q : α → α → Prop} {l m : List α} (h : List.Forall₂ Q l m) (p : Nat) (A B : α) (ha : l[p]? = some A) (hb : m[p]? = some B) : Q A B := by
  induction h generalizing p with
  | nil => simp at ha
  | cons h1 _ ih =>
    cases p with
    | zero => simp at ha hb; subst ha hb; exact h1
    | succ p => exact ih p (by simpa using ha) (by simpa using hb)

/-! ### The MoC sweep -/

/-- Rays of a direction have ends of their own. -/
def EndsApart (rays : List RayEnds) : Prop := (rays.map RayEnds.bc1).Nodup ∧ (rays.map RayEnds.bc2).Nodup

/-- Accesses of different rays of a direction do not conflict. -/
theorem ray_noConf (m : MocRun) (p a : Nat) (hrev : m.reverse a ≠ a) (x y : RayEnds) (h1 : x.bc1 ≠ y.bc1) (h2 : x.bc2 ≠ y.bc2) :
    NoConf (sweepRay m p a x) (sweepRay m p a y) := by
  have crits : ∀ (r : RayEnds), ∀ z ∈ postRay m r, z.sync = .critical ∧ (∀ p a s, z.loc ≠ .bcIn p a s ∧ z.loc ≠ .bcOut p a s) := by
    intro r z hz
    unfold postRay at hz
    rcases hw : m.worker with _ | _ | _ <;> rw [hw] at hz <;> simp only [List.mem_append, List.mem_cons, List.not_mem_nil, or_false, List.mem_map] at hz
    · rcases hz with (rfl | rfl | rfl) | ⟨i, _, rfl⟩ <;> simp [crit]
    · rcases hz with ((rfl | rfl | rfl) | ⟨i, _, rfl⟩) | ⟨i, _, rfl⟩ <;> simp [crit]
  intro u hu v hv hc
  unfold sweepRay at hu hv
  rw [List.mem_append] at hu hv
  obtain ⟨hl, ho, -, hcr⟩ := hc
  rcases hu with hu | hu <;> rcases hv with hv | hv
  · simp only [List.mem_cons, List.not_mem_nil, or_false] at hu hv
    rcases hu with rfl | rfl | rfl | rfl <;> rcases hv with rfl | rfl | rfl | rfl <;> simp [rd, up] at hl ho <;> first
      | exact h1 (by tauto)
      | exact h2 (by tauto)
      | exact hrev (by tauto)
      | exact hrev (by rw [← hl.1])
      | exact hrev (by rw [hl.1])
  · obtain ⟨-, h⟩ := crits y v hv
    simp only [List.mem_cons, List.not_mem_nil, or_false] at hu
    rcases hu with rfl | rfl | rfl | rfl
    · exact (h _ _ _).1 hl.symm
    · exact (h _ _ _).2 hl.symm
    · exact (h _ _ _).1 hl.symm
    · exact (h _ _ _).2 hl.symm
  · obtain ⟨-, h⟩ := crits x u hu
    simp only [List.mem_cons, List.not_mem_nil, or_false] at hv
    rcases hv with rfl | rfl | rfl | rfl
    · exact (h _ _ _).1 hl
    · exact (h _ _ _).2 hl
    · exact (h _ _ _).1 hl
    · exact (h _ _ _).2 hl
  · exact hcr ⟨(crits x u hu).1, (crits y v hv).1⟩

theorem share_noConf (m : MocRun) (p a : Nat) (rays : List RayEnds) (hrev : m.reverse a ≠ a) (hr : EndsApart rays) {s : Sched} {t u : Nat} (h : t ≠ u) (k : Nat) :
    NoConf (((List.range rays.length).filter fun i => s.iter k i = t).flatMap fun i => (rays[i]?.map (sweepRay m p a)).getD [])
      (((List.range rays.length).filter fun i => s.iter k i = u).flatMap fun i => (rays[i]?.map (sweepRay m p a)).getD []) := by
  intro x hx y hy
  rw [List.mem_flatMap] at hx hy
  obtain ⟨i, hi, hx⟩ := hx
  obtain ⟨j, hj, hy⟩ := hy
  simp only [List.mem_filter, List.mem_range, decide_eq_true_eq] at hi hj
  have hij : i ≠ j := by
    intro hc
    subst hc
    exact h (hi.2.symm.trans hj.2)
  rw [List.getElem?_eq_getElem hi.1, Option.map_some, Option.getD_some] at hx
  rw [List.getElem?_eq_getElem hj.1, Option.map_some, Option.getD_some] at hy
  have n1 : rays[i].bc1 ≠ rays[j].bc1 := by
    intro hc
    exact hij ((hr.1.getElem_inj_iff (hi := by simpa using hi.1) (hj := by simpa using hj.1)).mp (by simpa using hc))
  have n2 : rays[i].bc2 ≠ rays[j].bc2 := by
    intro hc
    exact hij ((hr.2.getElem_inj_iff (hi := by simpa using hi.1) (hj := by simpa using hj.1)).mp (by simpa using hc))
  exact ray_noConf m p a hrev _ _ n1 n2 x hx y hy

theorem angle_rest (m : MocRun) (p a : Nat) (rays : List RayEnds) (hrev : m.reverse a ≠ a) (hr : EndsApart rays) {Q : List (Access MocLoc) → List (Access MocLoc) → Prop}
    (hQ : ∀ A B, NoConf A B → Q A B) {s : Sched} {t u : Nat} (h : t ≠ u) :
    Seg Q s t u ([.share rays.length fun i _ => (rays[i]?.map (sweepRay m p a)).getD []] ++ postAngle m ++ (if m.gs then [.single (updateBc m p)] else [])) fun _ => [] := by
  have h1 : Seg Q s t u [.share rays.length fun i _ => (rays[i]?.map (sweepRay m p a)).getD []] fun _ => [] :=
    Seg.share fun k => hQ _ _ (by simpa using share_noConf m p a rays hrev hr h k)
  have h2 : Seg Q s t u (postAngle m) fun _ => [] := by
    unfold postAngle
    rcases m.worker with _ | _ | _
    · exact Seg.nil
    · exact Seg.nil
    · exact (Seg.single' hQ h _).append (q := [.barrier]) (Seg.barrier (hQ _ _ (NoConf.nil_left _)))
  have h3 : Seg Q s t u (if m.gs then [.single (updateBc m p)] else []) fun _ => [] := by
    split
    · exact Seg.single' hQ h _
    · exact Seg.nil
  exact (h1.append h2).append h3

/-- Pending stores of `set_plane` and the accesses of the single block in `set_angle`. -/
theorem setAngle_fine (m : MocRun) (p : Nat) (hw : m.worker ≠ .none) {s : Sched} {t u : Nat} (h : t ≠ u) (k : Nat) :
    Fine (setPlane m p ++ if s.one k = t then [rd .plane, up .weights] else []) (setPlane m p ++ if s.one k = u then [rd .plane, up .weights] else []) := by
  have hboth : ¬ (s.one k = t ∧ s.one k = u) := fun hc => h (hc.1.symm.trans hc.2)
  intro a ha b hb hc
  obtain ⟨hl, -, -, -⟩ := hc
  have key : ∀ X Y : List (Access MocLoc), (X = [] ∨ X = [rd .plane, up .weights]) → (Y = [] ∨ Y = [rd .plane, up .weights]) → (X = [] ∨ Y = []) →
      a ∈ setPlane m p ++ X → b ∈ setPlane m p ++ Y → Agree (setPlane m p ++ X) (setPlane m p ++ Y) a.loc := by
    intro X Y hX hY hXY ha hb
    rcases a with ⟨l, o, y⟩
    rcases b with ⟨l', o', y'⟩
    simp only at hl
    subst hl
    rcases hk : m.worker with _ | _ | _
    · exact absurd hk hw
    · simp only [setPlane, hk] at ha hb ⊢
      rcases hX with rfl | rfl <;> rcases hY with rfl | rfl <;> simp at hXY <;> cases l <;> simp [st, rd, up] at ha hb <;> first
        | (refine ⟨p, ?_, ?_, ?_⟩ <;> simp [st, rd, up, firstOp]; done)
        | (refine ⟨((m.cellsPerPlane * p : Nat) : Int), ?_, ?_, ?_⟩ <;> simp [st, rd, up, firstOp]; done)
        | (refine ⟨((m.surfsPerPlane * p : Nat) : Int), ?_, ?_, ?_⟩ <;> simp [st, rd, up, firstOp]; done)
    · simp only [setPlane, hk] at ha hb ⊢
      rcases hX with rfl | rfl <;> rcases hY with rfl | rfl <;> simp at hXY <;> cases l <;> simp [st, rd, up] at ha hb <;> first
        | (refine ⟨p, ?_, ?_, ?_⟩ <;> simp [st, rd, up, firstOp]; done)
        | (refine ⟨((m.cellsPerPlane * p : Nat) : Int), ?_, ?_, ?_⟩ <;> simp [st, rd, up, firstOp]; done)
        | (refine ⟨((m.surfsPerPlane * p : Nat) : Int), ?_, ?_, ?_⟩ <;> simp [st, rd, up, firstOp]; done)
        | (refine ⟨(m.xsOffset p : Int), ?_, ?_, ?_⟩ <;> simp [st, rd, up, firstOp]; done)
  refine key _ _ ?_ ?_ ?_ ha hb
  · split <;> simp
  · split <;> simp
  · by_cases h1 : s.one k = t
    · right; rw [if_neg fun h2 => hboth ⟨h1, h2⟩]
    · left; rw [if_neg h1]

/-- Stores of the same value by all threads. -/
theorem stores_fine {ι : Type} [DecidableEq L] (xs : List ι) (loc : ι → L) (v : ι → Int) (hinj : ∀ x ∈ xs, ∀ y ∈ xs, loc x = loc y → v x = v y) :
    Fine (xs.map fun x => st (loc x) (v x)) (xs.map fun x => st (loc x) (v x)) := by
  intro a ha b _ _
  obtain ⟨x, hx, rfl⟩ := List.mem_map.mp ha
  have first : firstOp (xs.map fun x => st (loc x) (v x)) (loc x) = some (.store (v x)) := by
    unfold firstOp
    obtain ⟨y, hy⟩ := Option.isSome_iff_exists.mp (List.find?_isSome.mpr ⟨st (loc x) (v x), ha, by simp [st]⟩ : ((xs.map fun x => st (loc x) (v x)).find? fun z => decide (z.loc = loc x)).isSome)
    have hm := List.mem_of_find?_eq_some hy
    have hl := List.find?_some hy
    rw [hy]
    obtain ⟨z, hz, rfl⟩ := List.mem_map.mp hm
    have hl' : loc z = loc x := of_decide_eq_true hl
    simp only [st, Option.map_some, hinj z hz x hx hl']
  refine ⟨v x, ?_, first, first⟩
  intro y hy hl
  rw [List.mem_append, or_self] at hy
  obtain ⟨z, hz, rfl⟩ := List.mem_map.mp hy
  right
  simp only [st] at hl ⊢
  rw [hinj z hz x hx hl]

theorem setAngle_zero_fine (m : MocRun) (a : Nat) :
    Fine (st MocLoc.ang a :: (List.range m.nSum).map fun i => st (MocLoc.sum i) 0) (st MocLoc.ang a :: (List.range m.nSum).map fun i => st (MocLoc.sum i) 0) := by
  have := stores_fine (L := MocLoc) (none :: (List.range m.nSum).map some) (fun o => match o with | none => MocLoc.ang | some i => .sum i) (fun o => match o with | none => (a : Int) | some _ => 0) (by
    intro x _ y _ h
    rcases x with _ | x <;> rcases y with _ | y <;> simp at h ⊢)
  simpa [Function.comp_def] using this

/-- C131: without currents the MoC sweep has no data race, if rays of a direction have slots of their own. -/
theorem C131_moc (m : MocRun) (hw : m.worker = .none) (hrev : ∀ a, m.reverse a ≠ a) (hr : ∀ angs ∈ m.rays, ∀ rays ∈ angs, EndsApart rays) (n : Nat) : RaceFree n (mocItems m) := by
  intro s t u _ _ h p A B hA hB
  have hQ : ∀ A B : List (Access MocLoc), NoConf A B → NoConf A B := fun _ _ h => h
  refine forall₂_get (Q := NoConf) ?_ p A B hA hB
  have hplane : Seg NoConf s t u (m.rays.zipIdx.flatMap fun x => planeItems m x.2 x.1) fun _ => [] := by
    apply Seg.flatMap
    rintro ⟨angs, ip⟩ hx
    have hmem : angs ∈ m.rays := (List.mem_zipIdx' hx).2 ▸ List.getElem_mem _
    unfold planeItems
    rw [List.append_assoc]
    apply Seg.each
    simp only [setPlane, hw, List.append_nil]
    refine Seg.append (p := List.flatMap _ _) ?_ ?_
    · apply Seg.flatMap
      rintro ⟨rays, a⟩ hy
      have hmem2 : rays ∈ angs := (List.mem_zipIdx' hy).2 ▸ List.getElem_mem _
      have := angle_rest m ip a rays (hrev a) (hr angs hmem rays hmem2) hQ (s := s) h
      unfold angleItems
      simp only [setAngle, hw, List.nil_append] at this ⊢
      exact this
    · split
      · exact Seg.nil
      · exact Seg.single' hQ h _
  have hend : Seg NoConf s t u ([.barrier, .each fun _ => (List.range m.nReg).map fun i => crit (.flux i) .update, .barrier, .single ((List.range m.nReg).map fun i => up (.flux i))] ++ postSweep m) fun _ => [] := by
    apply Seg.append
    · refine Seg.append (p := [.barrier]) (q := _ :: _) (Seg.barrier (NoConf.nil_left _)) ?_
      apply Seg.each
      refine Seg.append (p := [.barrier]) (q := [_]) (Seg.barrier ?_) (Seg.single' hQ h _)
      apply critical_noConf <;> simp [crit]
    · simp only [postSweep, hw]
      exact Seg.nil
  have := (hplane.append hend) 0 [] fun k' => by simpa [phases] using NoConf.nil_left _
  simpa [mocItems] using this

/-- C131: with currents or correction factors all data races of the MoC sweep are between threads that store the same value, which each thread has stored itself before it reads it. -/
theorem C131_moc_agree (m : MocRun) (hrev : ∀ a, m.reverse a ≠ a) (hr : ∀ angs ∈ m.rays, ∀ rays ∈ angs, EndsApart rays) (hne : ∀ angs ∈ m.rays, angs ≠ []) (n : Nat) :
    RacesAgree n (mocItems m) := by
  by_cases hw : m.worker = .none
  · intro s t u ht hu h p A B hA hB a ha b hb hc
    exact absurd hc (C131_moc m hw hrev hr n s t u ht hu h p A B hA hB a ha b hb)
  intro s t u _ _ h p A B hA hB
  have hQ : ∀ A B : List (Access MocLoc), NoConf A B → Fine A B := fun _ _ h => h.fine
  refine forall₂_get (Q := Fine) ?_ p A B hA hB
  have hangle : ∀ (ip a : Nat) (rays : List RayEnds), EndsApart rays → ∀ C : Nat → List (Access MocLoc), (C = fun _ => []) ∨ (C = fun _ => setPlane m ip) →
      Seg Fine s t u (angleItems m ip a rays) C := by
    intro ip a rays hra C hC
    have rest := angle_rest m ip a rays (hrev a) hra hQ (s := s) h
    have first : Seg Fine s t u [.single [rd .plane, up .weights]] C := by
      rcases hC with rfl | rfl
      · exact Seg.single' hQ h _
      · exact Seg.single fun k => setAngle_fine m ip hw h k
    have hb : Seg Fine s t u [.barrier] fun _ => ([] : List (Access MocLoc)) := Seg.barrier (hQ _ _ (NoConf.nil_left _))
    unfold angleItems
    rw [List.append_assoc, List.append_assoc, ← List.append_assoc [_]]
    refine Seg.append ?_ rest
    unfold setAngle
    rcases hk : m.worker with _ | _ | _
    · exact absurd hk hw
    · exact Seg.append (p := [_]) (q := [_]) first hb
    · refine Seg.append (p := [_]) (q := _ :: _) first (Seg.append (p := [_]) (q := _ :: _) hb ?_)
      apply Seg.each
      exact Seg.barrier (setAngle_zero_fine m a)
  have hplane : Seg Fine s t u (m.rays.zipIdx.flatMap fun x => planeItems m x.2 x.1) fun _ => [] := by
    apply Seg.flatMap
    rintro ⟨angs, ip⟩ hx
    have hmem : angs ∈ m.rays := (List.mem_zipIdx' hx).2 ▸ List.getElem_mem _
    unfold planeItems
    rw [List.append_assoc]
    apply Seg.each
    simp only [List.nil_append]
    refine Seg.append (p := List.flatMap _ _) ?_ ?_
    · rcases angs with _ | ⟨r0, rest⟩
      · exact absurd rfl (hne _ hmem)
      · rw [List.zipIdx_cons, List.flatMap_cons]
        apply Seg.append
        · exact hangle ip _ r0 (hr _ hmem r0 (by simp)) _ (Or.inr rfl)
        · apply Seg.flatMap
          rintro ⟨rays, a⟩ hy
          have hmem2 : rays ∈ rest := by
            obtain ⟨_, _, h3⟩ := List.mem_zipIdx hy
            exact h3 ▸ List.getElem_mem _
          exact hangle ip _ rays (hr _ hmem rays (by simp [hmem2])) _ (Or.inl rfl)
    · split
      · exact Seg.nil
      · exact Seg.single' hQ h _
  have hend : Seg Fine s t u ([.barrier, .each fun _ => (List.range m.nReg).map fun i => crit (.flux i) .update, .barrier, .single ((List.range m.nReg).map fun i => up (.flux i))] ++ postSweep m) fun _ => [] := by
    apply Seg.append
    · refine Seg.append (p := [.barrier]) (q := _ :: _) (Seg.barrier (hQ _ _ (NoConf.nil_left _))) ?_
      apply Seg.each
      refine Seg.append (p := [.barrier]) (q := [_]) (Seg.barrier (hQ _ _ ?_)) (Seg.single' hQ h _)
      apply critical_noConf <;> simp [crit]
    · unfold postSweep
      split
      · exact Seg.nil
      · exact Seg.single' hQ h _
  have := (hplane.append hend) 0 [] fun k' => by simpa [phases] using hQ _ _ (NoConf.nil_left _)
  simpa [mocItems] using this

/-- Full claim, false: the MoC sweep has no data race with any worker. -/
def C131_moc_claim : Prop :=
  ∀ (m : MocRun), (∀ a, m.reverse a ≠ a) → (∀ angs ∈ m.rays, ∀ rays ∈ angs, EndsApart rays) → (∀ angs ∈ m.rays, angs ≠ []) → ∀ n, RaceFree n (mocItems m)

/-- A sweep of one plane with one ray in one direction. -/
def raceRun (w : Worker) (gs : Bool) : MocRun :=
  ⟨w, gs, 1, 1, 7, 1, 4, fun _ => 0, fun a => a + 1, [(0, 0), (1, 0)], [[[⟨0, 0, [1, 3], [0]⟩]]]⟩

/-- C131: two threads store the number of the plane at the same time, with currents and with correction factors. -/
theorem C131_moc_claim_false : ¬ C131_moc_claim ∧ ∀ (w : Worker) (gs : Bool), w ≠ .none → ¬ RaceFree 2 (mocItems (raceRun w gs)) := by
  have race : ∀ (w : Worker) (gs : Bool), w ≠ .none → ¬ RaceFree 2 (mocItems (raceRun w gs)) := by
    intro w gs hw h
    have := h ⟨fun _ _ => 0, fun _ => 0⟩ 0 1 (by decide) (by decide) (by decide) 0
    rcases w with _ | _ | _
    · exact hw rfl
    · refine this _ _ rfl rfl (st .plane 0) (by simp [raceRun, setPlane]) (st .plane 0) (by simp [raceRun, setPlane]) ⟨rfl, by simp [st], by simp [st], by simp [st]⟩
    · refine this _ _ rfl rfl (st .plane 0) (by simp [raceRun, setPlane]) (st .plane 0) (by simp [raceRun, setPlane]) ⟨rfl, by simp [st], by simp [st], by simp [st]⟩
  refine ⟨fun h => race .current true (by decide) (h _ ?_ ?_ ?_ 2), race⟩
  · intro a; simp [raceRun]
  · simp [raceRun, EndsApart]
  · simp [raceRun]

/-! ### The Sn sweep -/

/-- C131: the Sn sweep has no data race for any number of threads up to the largest allowed when the sweeper was made. -/
theorem C131_sn (m : SnRun) (wanted : Bool) (maxThreads n : Nat) (hn : n ≤ maxThreads) (hg : m.gs = snGaussSeidel maxThreads wanted) : RaceFree n (snItems m) := by
  intro s t u ht hu h p A B hA hB
  have hgs : m.gs = false := by
    rw [hg, snGaussSeidel]
    have : 1 < maxThreads := by omega
    cases wanted <;> simp [this]
  refine forall₂_get (Q := NoConf) ?_ p A B hA hB
  have hQ : ∀ A B : List (Access SnLoc), NoConf A B → NoConf A B := fun _ _ h => h
  have h1 : Seg NoConf s t u [.share m.nAng fun a _ => snAngle m a] fun _ => [] := by
    refine Seg.share fun k => ?_
    intro x hx y hy hc
    simp only [List.nil_append, List.mem_flatMap, List.mem_filter, decide_eq_true_eq] at hx hy
    obtain ⟨i, hi, hx⟩ := hx
    obtain ⟨j, hj, hy⟩ := hy
    have hij : i ≠ j := by
      intro hc
      subst hc
      exact h (hi.2.symm.trans hj.2)
    simp only [snAngle, hgs, Bool.false_eq_true, if_false, List.append_nil, List.mem_append, List.mem_flatMap, List.mem_map, List.mem_cons, List.not_mem_nil, or_false] at hx hy
    obtain ⟨hl, ho, ha, -⟩ := hc
    rcases hx with ⟨a, _, rfl | rfl⟩ | ⟨a, _, rfl⟩ <;> rcases hy with ⟨b, _, rfl | rfl⟩ | ⟨b, _, rfl⟩ <;> simp [rd, up] at hl ho ha
    all_goals exact hij hl.1
  have h2 := Seg.single' hQ (s := s) h (if m.gs then [] else (List.range m.nAng).flatMap fun a => ((m.slots a).map fun s => rd (SnLoc.bcOut a s)) ++ (m.reflected a).map fun x => up (SnLoc.bcIn x.1 x.2))
  have := (h1.append h2) 0 [.each fun _ => (List.range m.nReg).map fun i => crit (.flux i) .update] fun k' => by
    refine List.Forall₂.cons ?_ List.Forall₂.nil
    apply critical_noConf <;> simp [crit]
  simpa [snItems] using this

/-- C131: with the update after each direction two threads would race, so that the constructor has to switch it off. -/
theorem C131_sn_switch : ∃ m : SnRun, m.gs = true ∧ ¬ RaceFree 2 (snItems m) := by
  refine ⟨⟨true, 1, 2, fun _ => [0], fun _ => [0], fun a => [(1 - a, 0)]⟩, rfl, fun h => ?_⟩
  have := h ⟨fun _ i => i, fun _ => 0⟩ 0 1 (by decide) (by decide) (by decide) 0 _ _ rfl rfl (up (.bcIn 1 0)) (by decide) (rd (.bcIn 1 0)) (by decide)
  exact this ⟨rfl, by simp [up], by simp [up], by simp [up]⟩

/-- C131: a Monte Carlo cycle has no data race. -/
theorem C131_mc (np : Nat) (history : Nat → List McEvent) (n : Nat) : RaceFree n (mcItems np history) := by
  intro s t u _ _ h p A B hA hB
  refine forall₂_get (Q := NoConf) ?_ p A B hA hB
  have h1 : Seg NoConf s t u (mcItems np history) fun _ => [] := by
    refine Seg.share fun k => ?_
    intro x hx y hy hc
    simp only [List.nil_append, List.mem_flatMap, List.mem_map] at hx hy
    obtain ⟨i, -, e, -, rfl⟩ := hx
    obtain ⟨j, -, f, -, rfl⟩ := hy
    obtain ⟨hl, -, ha, hcr⟩ := hc
    rcases e with _ | e | _ <;> rcases f with _ | f | _ <;> simp [mcAccess, up, crit] at hl ha hcr
    exact h hl
  have := h1 0 [] fun k' => by simpa [phases] using NoConf.nil_left _
  simpa using this

/-! ### The rays of the sweep -/

theorem toNat_nodup {n : Nat} {l : List Int} (h : l.Perm ((List.range n).map fun k : Nat => (k : Int))) : (l.map Int.toNat).Nodup := by
  have := (h.map Int.toNat).nodup_iff
  rw [this, List.map_map]
  have hid : (Int.toNat ∘ fun k : Nat => (k : Int)) = id := by funext k; simp
  rw [hid, List.map_id]
  exact List.nodup_range

/-- C131: the rays that `RayData` lays out meet the condition of `C131_moc`, in octant 1 and octant 2. -/
theorem C131_rays {K : Type} [Field K] [LinearOrder K] [IsStrictOrderedRing K] [FloorRing K] {e : Rays.Env K} {c s : K} {Nx Ny : Nat} (M : Rays.Modular e c s Nx Ny) (surfs sums : Rays.Traced K → List Nat) :
    ∀ d, d = c ∨ d = -c → ∃ rs, Rays.layout e d s (Rays.spacing e.hy c Ny) Nx Ny = some rs ∧ rs.length = Nx + Ny ∧
      EndsApart (rs.map fun r => ⟨r.bc0.toNat, r.bc1.toNat, surfs r, sums r⟩) := by
  have key : ∀ rs : List (Rays.Traced K), rs.map (·.bc0) = (List.range (Nx + Ny)).map (fun k : Nat => (k : Int)) → (rs.map (·.bc1)).Perm ((List.range (Nx + Ny)).map (fun k : Nat => (k : Int))) →
      rs.length = Nx + Ny ∧ EndsApart (rs.map fun r => ⟨r.bc0.toNat, r.bc1.toNat, surfs r, sums r⟩) := by
    intro rs h0 h1
    refine ⟨by simpa using congrArg List.length h0, ?_, ?_⟩
    · have := toNat_nodup (List.Perm.of_eq h0)
      simpa [List.map_map, Function.comp_def] using this
    · have := toNat_nodup h1
      simpa [List.map_map, Function.comp_def] using this
  rintro d (rfl | rfl)
  · obtain ⟨rs, h, h0, h1, -⟩ := Rays.C32_octant1 M
    exact ⟨rs, h, key rs h0 h1⟩
  · obtain ⟨rs, h, h0, h1, -⟩ := Rays.C32_octant2 M
    exact ⟨rs, h, key rs h0 h1⟩

/-! ### The hypotheses can be met -/

example : RaceFree 8 (mocItems (raceRun .none true)) := C131_moc (raceRun .none true) rfl (by intro a; simp [raceRun]) (by simp [raceRun, EndsApart]) 8

example : RacesAgree 8 (mocItems (raceRun .corrections false)) :=
  C131_moc_agree (raceRun .corrections false) (by intro a; simp [raceRun]) (by simp [raceRun, EndsApart]) (by simp [raceRun]) 8

example : RaceFree 4 (snItems ⟨snGaussSeidel 4 true, 1, 2, fun _ => [0], fun _ => [0], fun a => [(1 - a, 0)]⟩) := C131_sn _ true 4 4 (Nat.le_refl 4) rfl

end Verif.Par
