import Verif.H5.OutputModel
import Mathlib.Data.Nat.Digits.Lemmas
import Mathlib.Data.List.Nodup
import Mathlib.Tactic.Ring
import Mathlib.Tactic.FinCases
import Mathlib.Tactic.Push

/-!
# C115: the output file
-/

namespace Verif.H5

/-! ### Names -/

theorem ofDigits_zeros (k : Nat) : Nat.ofDigits 10 (List.replicate k 0) = 0 := by
  induction k with
  | zero => rfl
  | succ k ih => rw [List.replicate_succ, Nat.ofDigits_cons, ih]

/-- C115: numbers in names are different for different numbers, whatever the width. -/
theorem C115_decimal (w m n : Nat) (h : decimal w m = decimal w n) : m = n := by
  have key : ∀ n, Nat.ofDigits 10 (decimal w n).reverse = n := by
    intro n
    unfold decimal
    simp only [List.reverse_reverse]
    rw [Nat.ofDigits_append, ofDigits_zeros, Nat.mul_zero, Nat.add_zero]
    split_ifs with h
    · subst h; rfl
    · exact Nat.ofDigits_digits 10 n
  rw [← key m, h, key n]

theorem numName_inj (w m n : Nat) (s t : String) : numName w m s = numName w n t ↔ m = n ∧ s = t := by
  unfold numName
  constructor
  · intro h
    rw [Name.num.injEq] at h
    exact ⟨C115_decimal w m n h.1, h.2⟩
  · rintro ⟨rfl, rfl⟩; rfl

theorem numName_lit (w m : Nat) (s t : String) : numName w m s ≠ .lit t := by
  unfold numName
  exact fun h => by cases h

theorem lit_numName (w m : Nat) (s t : String) : Name.lit t ≠ numName w m s := by
  unfold numName
  exact fun h => by cases h

/-! ### When all items can be written -/

/-- The group of the item exists, and the source of a link. -/
def Ready (st : List Item) (it : Item) : Prop :=
  (it.path.dropLast = [] ∨ Item.group it.path.dropLast ∈ st) ∧ ∀ s d, it = .link s d → ∃ x ∈ st, x.path = s

/-- Every item is ready when its turn comes. -/
def Rooted : List Item → List Item → Prop
  | _, [] => True
  | st, it :: l => Ready st it ∧ Rooted (st ++ [it]) l

/-- The extents fit the number of values. -/
def Sized (l : List Item) : Prop := ∀ p d n, Item.data p d n ∈ l → d.prod = n

theorem perform_ok (st l : List Item) (hnd : ((st ++ l).map Item.path).Nodup) (hr : Rooted st l) (hs : Sized l) : perform st l = some (st ++ l) := by
  induction l generalizing st with
  | nil => simp [perform]
  | cons it l ih =>
    have hf : fits st it = true := by
      obtain ⟨⟨h1, h2⟩, -⟩ := hr
      unfold fits
      have hne : (st.any fun x => decide (x.path = it.path)) = false := by
        rw [List.any_eq_false]
        intro x hx he
        have he : x.path = it.path := by simpa using he
        rw [List.map_append, List.nodup_append] at hnd
        exact hnd.2.2 x.path (List.mem_map_of_mem hx) it.path (List.mem_map_of_mem List.mem_cons_self) he
      rw [hne]
      simp only [Bool.not_false, Bool.and_true, Bool.and_eq_true]
      refine ⟨?_, ?_⟩
      · rcases h1 with h1 | h1
        · simp [h1]
        · simp only [Bool.or_eq_true, List.any_eq_true, decide_eq_true_eq]
          exact Or.inr ⟨_, h1, rfl⟩
      · cases it with
        | group p => rfl
        | data p d n => simpa using hs p d n List.mem_cons_self
        | link s d =>
          obtain ⟨x, hx, he⟩ := h2 s d rfl
          simp only [List.any_eq_true, decide_eq_true_eq]
          exact ⟨x, hx, he⟩
    simp only [perform, hf, if_true]
    rw [ih (st ++ [it]) (by simpa using hnd) hr.2 (fun p d n h => hs p d n (List.mem_cons_of_mem _ h))]
    simp

theorem ready_mono (st st' : List Item) (h : ∀ x ∈ st, x ∈ st') (it : Item) (hr : Ready st it) : Ready st' it :=
  ⟨hr.1.imp id (h _), fun s d e => (hr.2 s d e).imp fun _ hx => ⟨h _ hx.1, hx.2⟩⟩

theorem rooted_mono (st st' l : List Item) (h : ∀ x ∈ st, x ∈ st') (hr : Rooted st l) : Rooted st' l := by
  induction l generalizing st st' with
  | nil => trivial
  | cons it l ih =>
    exact ⟨ready_mono st st' h it hr.1, ih (st ++ [it]) (st' ++ [it]) (by
      intro x hx
      rcases List.mem_append.1 hx with hx | hx
      · exact List.mem_append_left _ (h x hx)
      · exact List.mem_append_right _ hx) hr.2⟩

theorem rooted_append (st a b : List Item) (ha : Rooted st a) (hb : Rooted (st ++ a) b) : Rooted st (a ++ b) := by
  induction a generalizing st with
  | nil => simpa using hb
  | cons it a ih =>
    refine ⟨ha.1, ih (st ++ [it]) ha.2 ?_⟩
    simpa using hb

theorem rooted_all (st l : List Item) (h : ∀ it ∈ l, Ready st it) : Rooted st l := by
  induction l generalizing st with
  | nil => trivial
  | cons it l ih =>
    exact ⟨h it List.mem_cons_self, ih (st ++ [it]) fun x hx => ready_mono st _ (fun _ => List.mem_append_left _) x (h x (List.mem_cons_of_mem _ hx))⟩

theorem rooted_flatMap {β : Type} (st : List Item) (l : List β) (f : β → List Item) (h : ∀ b ∈ l, Rooted st (f b)) : Rooted st (l.flatMap f) := by
  induction l generalizing st with
  | nil => trivial
  | cons b l ih =>
    rw [List.flatMap_cons]
    exact rooted_append st _ _ (h b List.mem_cons_self) (ih (st ++ f b) fun c hc => rooted_mono st _ _ (fun _ => List.mem_append_left _) (h c (List.mem_cons_of_mem _ hc)))

/-- No links. -/
def NoLinks (l : List Item) : Prop := ∀ s d, Item.link s d ∉ l

theorem rooted_below (pre : List Name) (hpre : pre ≠ []) (st st' l : List Item) (hg : Item.group pre ∈ st') (hst : ∀ x ∈ st, x.below pre ∈ st') (hne : ∀ it ∈ l, it.path ≠ [])
    (hn : NoLinks l) (hr : Rooted st l) : Rooted st' (l.map (Item.below pre)) := by
  induction l generalizing st st' with
  | nil => trivial
  | cons it l ih =>
    have hp : (it.below pre).path = pre ++ it.path := by
      cases it with
      | group p => rfl
      | data p d n => rfl
      | link s d => exact absurd List.mem_cons_self (hn s d)
    refine ⟨⟨?_, ?_⟩, ?_⟩
    · rw [hp, List.dropLast_append_of_ne_nil (hne it List.mem_cons_self)]
      rcases hr.1.1 with h | h
      · rw [h, List.append_nil]; exact Or.inr hg
      · exact Or.inr (hst _ h)
    · intro s d e
      cases it with
      | group p => cases e
      | data p d n => cases e
      | link s d => exact absurd List.mem_cons_self (hn s d)
    · refine ih (st ++ [it]) _ (List.mem_append_left _ hg) ?_ (fun x hx => hne x (List.mem_cons_of_mem _ hx)) (fun s d h => hn s d (List.mem_cons_of_mem _ h)) hr.2
      intro x hx
      rcases List.mem_append.1 hx with hx | hx
      · exact List.mem_append_left _ (hst x hx)
      · rw [List.mem_singleton] at hx
        subst hx
        exact List.mem_append_right _ (List.mem_singleton.2 rfl)

/-! ### Blocks of output with their top-level names -/

/-- A part of the output that can be written to an empty file, with the names it uses at the top. -/
structure Block (S : Name → Prop) (l : List Item) : Prop where
  nodup : (l.map Item.path).Nodup
  rooted : Rooted [] l
  sized : Sized l
  tops : ∀ it ∈ l, ∃ s, S s ∧ ∃ r, it.path = s :: r
  links : NoLinks l

theorem Block.nil (S : Name → Prop) : Block S [] :=
  ⟨List.nodup_nil, trivial, fun _ _ _ h => absurd h List.not_mem_nil, fun _ h => absurd h List.not_mem_nil, fun _ _ h => absurd h List.not_mem_nil⟩

theorem Block.mono {S T : Name → Prop} {a : List Item} (ha : Block S a) (h : ∀ s, S s → T s) : Block T a :=
  { ha with tops := fun it hit => (ha.tops it hit).imp fun _ hs => ⟨h _ hs.1, hs.2⟩ }

theorem Block.disjoint {S T : Name → Prop} {a b : List Item} (ha : Block S a) (hb : Block T b) (h : ∀ s, S s → ¬ T s) :
    ∀ p ∈ a.map Item.path, ∀ q ∈ b.map Item.path, p ≠ q := by
  intro p hp q hq e
  subst e
  obtain ⟨x, hx, rfl⟩ := List.mem_map.1 hp
  obtain ⟨y, hy, e⟩ := List.mem_map.1 hq
  obtain ⟨s, hs, r, hr⟩ := ha.tops x hx
  obtain ⟨t, ht, r', hr'⟩ := hb.tops y hy
  rw [hr, hr'] at e
  simp only [List.cons.injEq] at e
  exact h s hs (e.1 ▸ ht)

theorem Block.append {S T : Name → Prop} {a b : List Item} (ha : Block S a) (hb : Block T b) (h : ∀ s, S s → ¬ T s) : Block (fun s => S s ∨ T s) (a ++ b) where
  nodup := by
    rw [List.map_append, List.nodup_append]
    exact ⟨ha.nodup, hb.nodup, ha.disjoint hb h⟩
  rooted := rooted_append _ _ _ ha.rooted (rooted_mono [] _ _ (fun x hx => absurd hx List.not_mem_nil) hb.rooted)
  sized := fun p d n h => (List.mem_append.1 h).elim (ha.sized p d n) (hb.sized p d n)
  tops := by
    intro it hit
    rcases List.mem_append.1 hit with h | h
    · obtain ⟨s, hs, r⟩ := ha.tops it h
      exact ⟨s, Or.inl hs, r⟩
    · obtain ⟨s, hs, r⟩ := hb.tops it h
      exact ⟨s, Or.inr hs, r⟩
  links := fun s d h => (List.mem_append.1 h).elim (ha.links s d) (hb.links s d)

/-- A block written between the first item of another and the rest. -/
theorem Block.insert {S T : Name → Prop} {x : Item} {a b : List Item} (ha : Block S a) (hb : Block T (x :: b)) (h : ∀ s, S s → ¬ T s) :
    Block (fun s => S s ∨ T s) (x :: (a ++ b)) := by
  have hp : (a ++ x :: b).Perm (x :: (a ++ b)) := List.perm_middle
  have h1 := ha.append hb h
  refine ⟨(hp.map Item.path).nodup_iff.1 h1.nodup, ?_, fun p d n hm => h1.sized p d n (hp.mem_iff.2 hm), fun it hm => h1.tops it (hp.mem_iff.2 hm),
    fun s d hm => h1.links s d (hp.mem_iff.2 hm)⟩
  refine ⟨hb.rooted.1, rooted_append _ _ _ (rooted_mono [] _ _ (fun x hx => absurd hx List.not_mem_nil) ha.rooted) ?_⟩
  refine rooted_mono _ _ _ ?_ hb.rooted.2
  intro y hy
  exact List.mem_append_left _ hy

theorem Block.flatMap {β : Type} {S : β → Name → Prop} {f : β → List Item} (l : List β) (hl : l.Nodup) (h : ∀ b ∈ l, Block (S b) (f b))
    (hd : ∀ b ∈ l, ∀ c ∈ l, b ≠ c → ∀ s, S b s → ¬ S c s) : Block (fun s => ∃ b ∈ l, S b s) (l.flatMap f) := by
  induction l with
  | nil => exact Block.nil _
  | cons b l ih =>
    rw [List.nodup_cons] at hl
    rw [List.flatMap_cons]
    refine ((h b List.mem_cons_self).append (ih hl.2 (fun c hc => h c (List.mem_cons_of_mem _ hc))
      fun c hc c' hc' => hd c (List.mem_cons_of_mem _ hc) c' (List.mem_cons_of_mem _ hc')) ?_).mono ?_
    · rintro s hs ⟨c, hc, hcs⟩
      exact hd b List.mem_cons_self c (List.mem_cons_of_mem _ hc) (fun e => hl.1 (e ▸ hc)) s hs hcs
    · rintro s (hs | ⟨c, hc, hcs⟩)
      · exact ⟨b, List.mem_cons_self, hs⟩
      · exact ⟨c, List.mem_cons_of_mem _ hc, hcs⟩

theorem Block.ite {S : Name → Prop} {a : List Item} (c : Bool) (ha : Block S a) : Block S (if c then a else []) := by
  cases c
  · exact Block.nil _
  · exact ha

theorem Block.datum (s : Name) (d : List Nat) (n : Nat) (h : d.prod = n) : Block (· = s) [.data [s] d n] where
  nodup := by simp
  rooted := ⟨⟨Or.inl rfl, fun _ _ e => by cases e⟩, trivial⟩
  sized := by
    intro p d' n' h'
    rw [List.mem_singleton, Item.data.injEq] at h'
    obtain ⟨-, rfl, rfl⟩ := h'
    exact h
  tops := by
    intro it hit
    rw [List.mem_singleton] at hit
    subst hit
    exact ⟨s, rfl, [], rfl⟩
  links := by simp [NoLinks]

/-- Several datasets. -/
theorem Block.data {β : Type} (l : List β) (hl : l.Nodup) (f : β → Name) (hf : ∀ a b, f a = f b → a = b) (d : List Nat) (n : Nat) (h : d.prod = n) :
    Block (fun s => ∃ b ∈ l, s = f b) (l.map fun b => Item.data [f b] d n) := by
  have := Block.flatMap (S := fun b s => s = f b) (f := fun b => [Item.data [f b] d n]) l hl (fun b _ => Block.datum _ d n h) (by
    rintro b - c - hbc s rfl e
    exact hbc (hf _ _ e))
  rwa [← List.map_eq_flatMap] at this

theorem lit_inj (a b : String) (h : Name.lit a = .lit b) : a = b := Name.lit.inj h

/-- A block below a group. -/
theorem Block.under {S : Name → Prop} {l : List Item} (hl : Block S l) (n : Name) : Block (· = n) (.group [n] :: l.map (Item.below [n])) := by
  have hp : ∀ it ∈ l, (it.below [n]).path = n :: it.path := by
    intro it hit
    cases it with
    | group p => rfl
    | data p d n => rfl
    | link s d => exact absurd hit (hl.links s d)
  have hne : ∀ it ∈ l, it.path ≠ [] := by
    intro it hit
    obtain ⟨s, -, r, hr⟩ := hl.tops it hit
    rw [hr]
    simp
  refine ⟨?_, ?_, ?_, ?_, ?_⟩
  · rw [List.map_cons, List.nodup_cons, List.map_map]
    have e : l.map (Item.path ∘ Item.below [n]) = (l.map Item.path).map (n :: ·) := by
      rw [List.map_map]
      exact List.map_congr_left fun it hit => hp it hit
    rw [e]
    constructor
    · intro h
      obtain ⟨p, hp', e⟩ := List.mem_map.1 h
      obtain ⟨it, hit, rfl⟩ := List.mem_map.1 hp'
      exact hne it hit (by simpa [Item.path] using e)
    · exact hl.nodup.map fun a b h => by simpa using h
  · refine ⟨⟨Or.inl rfl, fun _ _ e => by cases e⟩, ?_⟩
    exact rooted_below [n] (by simp) [] _ l (by simp) (fun x hx => absurd hx List.not_mem_nil) hne hl.links hl.rooted
  · intro p d m h
    rcases List.mem_cons.1 h with h | h
    · cases h
    · obtain ⟨x, hx, e⟩ := List.mem_map.1 h
      cases x with
      | group p => cases e
      | link s d => cases e
      | data p' d' n' =>
        simp only [Item.below, Item.data.injEq] at e
        obtain ⟨-, rfl, rfl⟩ := e
        exact hl.sized _ _ _ hx
  · intro it hit
    rcases List.mem_cons.1 hit with h | h
    · subst h; exact ⟨n, rfl, [], rfl⟩
    · obtain ⟨x, hx, rfl⟩ := List.mem_map.1 h
      exact ⟨n, rfl, x.path, hp x hx⟩
  · intro a b h
    rcases List.mem_cons.1 h with h | h
    · cases h
    · obtain ⟨x, hx, e⟩ := List.mem_map.1 h
      cases x with
      | group p => cases e
      | data p d n => cases e
      | link s d => exact hl.links _ _ hx

/-- Datasets by number in a group. -/
theorem Block.numbered (s : Name) (ng w o : Nat) (d : List Nat) (n : Nat) (h : d.prod = n) :
    Block (· = s) (.group [s] :: (List.range ng).map fun ig => Item.data [s, numName w (ig + o)] d n) := by
  have := (Block.data (List.range ng) List.nodup_range (fun ig => numName w (ig + o)) (fun a b h => by
    have := (numName_inj w _ _ _ _).1 h
    omega) d n h).under s
  rw [List.map_map] at this
  exact this

/-- The same with several datasets by number, told apart by what follows the number. -/
theorem Block.suffixed (s : Name) (ng w o : Nat) (T : List String) (hT : T.Nodup) (d : List Nat) (n : Nat) (h : d.prod = n) :
    Block (· = s) (.group [s] :: (List.range ng).flatMap fun ig => T.map fun t => Item.data [s, numName w (ig + o) t] d n) := by
  have := (Block.flatMap (List.range ng) List.nodup_range (fun ig _ => Block.data T hT (fun t => numName w (ig + o) t) (fun a b h => ((numName_inj w _ _ _ _).1 h).2) d n h) (by
    rintro a - b - hab s ⟨t, -, rfl⟩ ⟨u, -, e⟩
    have := ((numName_inj w _ _ _ _).1 e).1
    omega)).under s
  rw [List.map_flatMap] at this
  simp only [List.map_map] at this
  exact this

/-- Datasets by name in a group. -/
theorem Block.named (s : Name) (T : List String) (hT : T.Nodup) (d : List Nat) (n : Nat) (h : d.prod = n) :
    Block (· = s) (.group [s] :: T.map fun t => Item.data [s, .lit t] d n) := by
  have := (Block.data T hT Name.lit lit_inj d n h).under s
  rw [List.map_map] at this
  exact this

/-! ### The sweepers and solvers -/

theorem quad_block (z : Sizes) : Block (· = .lit "ang_quad") (quadOut z) := by
  have := ((Block.data ["n_polar", "n_azimuthal"] (by simp) Name.lit lit_inj [1] 1 (by simp)).append
    (Block.data ["alpha", "theta", "omega_x", "omega_y", "omega_z", "weight"] (by simp) Name.lit lit_inj [z.ndir] z.ndir (by simp)) (by simp)).under (.lit "ang_quad")
  simpa [quadOut, Item.below] using this

theorem moc_block (z : Sizes) (d : Bool) : Block (fun s => ∃ t ∈ ["flux", "fsr_flux", "pin_powers", "ang_quad"], s = .lit t) (mocOut z d) := by
  have h1 := (Block.ite d (Block.numbered (.lit "fsr_flux") z.ng 3 1 [z.nRegPlane, 1] z.nRegPlane (by simp))).insert
    (Block.numbered (.lit "flux") z.ng 3 1 z.dims (z.nx * z.ny * z.nz) (by simp [Sizes.dims]; ring)) (by rintro s rfl; simp)
  have h2 := (h1.append (Block.datum (.lit "pin_powers") [z.nMacro, z.ny, z.nx] (z.nMacro * z.ny * z.nx) (by simp; ring)) (by rintro s (rfl | rfl) <;> simp)).append (quad_block z)
    (by rintro s ((rfl | rfl) | rfl) <;> simp)
  have h3 := h2.mono (T := fun s => ∃ t ∈ ["flux", "fsr_flux", "pin_powers", "ang_quad"], s = .lit t) (by rintro s (((rfl | rfl) | rfl) | rfl) <;> simp)
  simpa [mocOut] using h3

theorem xs_block (z : Sizes) : Block (· = .lit "xsmesh") (xsOut z) := by
  have inner : Block (fun _ => True) ((["xstr", "xsnf", "xsf", "xsch"].map fun s => Item.group [.lit s]) ++ [.data [.lit "eubounds"] [z.ng] z.ng] ++
      ((List.range z.ng).flatMap fun ig => ["xstr", "xsnf", "xsch", "xsf"].map fun s => Item.data [.lit s, numName 0 ig] [z.nMacro, z.ny, z.nx] (z.nx * z.ny * z.nMacro)) ++
      [.data [.lit "xssc"] [z.nx * z.ny * z.nMacro, z.ng, z.ng] (z.nx * z.ny * z.nMacro * z.ng * z.ng)]) := by
    refine ⟨?_, ?_, ?_, ?_, ?_⟩
    · have hn : ((List.range z.ng).flatMap fun ig => ["xstr", "xsnf", "xsch", "xsf"].map fun s => [Name.lit s, numName 0 ig]).Nodup := by
        rw [List.nodup_flatMap]
        refine ⟨fun i _ => by simp, List.nodup_range.imp ?_⟩
        intro a b hab x hx hy
        obtain ⟨t, -, rfl⟩ := List.mem_map.1 hx
        obtain ⟨u, -, e⟩ := List.mem_map.1 hy
        simp only [List.cons.injEq, and_true] at e
        exact hab ((numName_inj 0 _ _ _ _).1 e.2).1.symm
      simp only [List.map_append, List.map_flatMap, List.map_map]
      rw [List.nodup_append, List.nodup_append]
      refine ⟨⟨by simp [Item.path], hn, ?_⟩, by simp, ?_⟩
      · intro p hp q hq e
        subst e
        simp only [List.mem_flatMap, List.mem_map, Function.comp] at hq
        obtain ⟨i, -, t, -, rfl⟩ := hq
        simp [Item.path] at hp
      · intro p hp q hq e
        subst e
        simp only [List.map_cons, List.map_nil, List.mem_singleton, Item.path] at hq
        subst hq
        rcases List.mem_append.1 hp with hp | hp
        · simp [Item.path] at hp
        · simp [Item.path] at hp
    · refine rooted_append _ _ _ (rooted_append _ _ _ (rooted_append _ _ _ ?_ ?_) ?_) ?_
      · refine rooted_all _ _ ?_
        intro it hit
        obtain ⟨t, -, rfl⟩ := List.mem_map.1 hit
        exact ⟨Or.inl rfl, fun _ _ e => by cases e⟩
      · exact ⟨⟨Or.inl rfl, fun _ _ e => by cases e⟩, trivial⟩
      · refine rooted_flatMap _ _ _ fun ig _ => rooted_all _ _ ?_
        intro it hit
        obtain ⟨t, ht, rfl⟩ := List.mem_map.1 hit
        refine ⟨Or.inr ?_, fun _ _ e => by cases e⟩
        simp only [List.mem_cons, List.not_mem_nil, or_false] at ht
        rcases ht with rfl | rfl | rfl | rfl <;> simp [Item.path]
      · exact ⟨⟨Or.inl rfl, fun _ _ e => by cases e⟩, trivial⟩
    · intro p d n h
      simp only [List.mem_append, List.mem_map, List.mem_flatMap, List.mem_singleton, Item.data.injEq] at h
      rcases h with ((⟨t, -, e⟩ | ⟨-, rfl, rfl⟩) | ⟨i, -, t, -, -, rfl, rfl⟩) | ⟨-, rfl, rfl⟩
      · cases e
      · simp
      · simp; ring
      · simp; ring
    · intro it h
      simp only [List.mem_append, List.mem_map, List.mem_flatMap, List.mem_singleton] at h
      rcases h with ((⟨t, -, rfl⟩ | rfl) | ⟨i, -, t, -, rfl⟩) | rfl
      · exact ⟨_, trivial, _, rfl⟩
      · exact ⟨_, trivial, _, rfl⟩
      · exact ⟨_, trivial, _, rfl⟩
      · exact ⟨_, trivial, _, rfl⟩
    · intro a b h
      simp at h
  have := inner.under (.lit "xsmesh")
  simpa [xsOut, Item.below, List.map_flatMap] using this

theorem corr_block (z : Sizes) : Block (fun s => ∃ t ∈ ["alpha_x", "alpha_y", "beta"], s = .lit t) (corrOut z) := by
  refine ⟨?_, ?_, ?_, ?_, ?_⟩
  · unfold corrOut
    simp only [List.map_append, List.map_flatMap, List.map_map]
    rw [List.nodup_append]
    refine ⟨by simp [Item.path], ?_, ?_⟩
    · rw [List.nodup_flatMap]
      refine ⟨fun g _ => ?_, List.nodup_range.imp ?_⟩
      · rw [List.nodup_append]
        refine ⟨by simp [Item.path], ?_, ?_⟩
        · rw [List.nodup_flatMap]
          refine ⟨fun a _ => by simp [Item.path], List.nodup_range.imp ?_⟩
          intro a b hab x hx hy
          simp only [List.mem_map, Function.comp, Item.path] at hx hy
          obtain ⟨t, -, rfl⟩ := hx
          obtain ⟨u, -, e⟩ := hy
          simp only [List.cons.injEq, and_true, true_and] at e
          exact hab ((numName_inj 3 _ _ _ _).1 e.2).1.symm
        · intro p hp q hq e
          subst e
          simp only [List.mem_flatMap, List.mem_map, Function.comp, Item.path] at hp hq
          obtain ⟨a, -, t, -, rfl⟩ := hq
          obtain ⟨u, -, e⟩ := hp
          simp at e
      · intro a b hab x hx hy
        have key : ∀ g, x ∈ (["alpha_x", "alpha_y", "beta"].map (Item.path ∘ fun s => Item.group [.lit s, numName 3 g])) ++
            (List.range z.nAngCorr).flatMap (fun a => ["beta", "alpha_x", "alpha_y"].map (Item.path ∘ fun s => Item.data [.lit s, numName 3 g, numName 3 a] [z.nMacro, z.ny, z.nx] (z.nx * z.ny * z.nMacro))) →
            x[1]? = some (numName 3 g) := by
          intro g hg
          simp only [List.mem_append, List.mem_flatMap, List.mem_map, Function.comp, Item.path] at hg
          rcases hg with ⟨t, -, rfl⟩ | ⟨a, -, t, -, rfl⟩ <;> rfl
        have e := (key a hx).symm.trans (key b hy)
        exact hab ((numName_inj 3 _ _ _ _).1 (Option.some.inj e)).1
    · intro p hp q hq e
      subst e
      simp only [List.mem_flatMap, List.mem_append, List.mem_map, Function.comp, Item.path] at hp hq
      obtain ⟨u, -, rfl⟩ := hp
      obtain ⟨g, -, ⟨t, -, e⟩ | ⟨a, -, t, -, e⟩⟩ := hq <;> simp at e
  · refine rooted_append _ _ _ ?_ (rooted_flatMap _ _ _ fun g _ => rooted_append _ _ _ ?_ (rooted_flatMap _ _ _ fun a _ => ?_))
    · refine rooted_all _ _ ?_
      intro it hit
      obtain ⟨t, -, rfl⟩ := List.mem_map.1 hit
      exact ⟨Or.inl rfl, fun _ _ e => by cases e⟩
    · refine rooted_all _ _ ?_
      intro it hit
      obtain ⟨t, ht, rfl⟩ := List.mem_map.1 hit
      refine ⟨Or.inr ?_, fun _ _ e => by cases e⟩
      exact List.mem_append_right _ (List.mem_map.2 ⟨t, ht, rfl⟩)
    · refine rooted_all _ _ ?_
      intro it hit
      obtain ⟨t, ht, rfl⟩ := List.mem_map.1 hit
      refine ⟨Or.inr ?_, fun _ _ e => by cases e⟩
      refine List.mem_append_right _ (List.mem_map.2 ⟨t, ?_, rfl⟩)
      simp only [List.mem_cons, List.not_mem_nil, or_false] at ht ⊢
      tauto
  · intro p d n h
    simp only [corrOut, List.mem_append, List.mem_map, List.mem_flatMap, Item.data.injEq] at h
    rcases h with ⟨t, -, e⟩ | ⟨g, -, ⟨t, -, e⟩ | ⟨a, -, t, -, -, rfl, rfl⟩⟩
    · cases e
    · cases e
    · simp; ring
  · intro it h
    simp only [corrOut, List.mem_append, List.mem_map, List.mem_flatMap] at h
    rcases h with ⟨t, ht, rfl⟩ | ⟨g, -, ⟨t, ht, rfl⟩ | ⟨a, -, t, ht, rfl⟩⟩
    · exact ⟨_, ⟨t, ht, rfl⟩, _, rfl⟩
    · exact ⟨_, ⟨t, ht, rfl⟩, _, rfl⟩
    · refine ⟨_, ⟨t, ?_, rfl⟩, _, rfl⟩
      simp only [List.mem_cons, List.not_mem_nil, or_false] at ht ⊢
      tauto
  · intro a b h
    simp [corrOut] at h

/-- The names of an Sn sweeper at the top. -/
def snTops : List String := ["flux", "pin_powers", "pin_powers_2d", "ang_quad", "xsmesh", "alpha_x", "alpha_y", "beta"]

theorem sn_block (z : Sizes) (d : Bool) : Block (fun s => ∃ t ∈ snTops, s = .lit t) (snOut z d) := by
  have h1 := (Block.numbered (.lit "flux") z.ng 3 1 z.dims (z.nx * z.ny * z.nz) (by simp [Sizes.dims]; ring)).append
    (Block.datum (.lit "pin_powers") [z.nz, z.ny, z.nx] (z.nz * z.ny * z.nx) (by simp; ring)) (by rintro s rfl; simp)
  have h2 := h1.append (Block.datum (.lit "pin_powers_2d") [z.ny, z.nx] (z.ny * z.nx) (by simp)) (by rintro s (rfl | rfl) <;> simp)
  have h3 := (h2.append (quad_block z) (by rintro s ((rfl | rfl) | rfl) <;> simp)).append (xs_block z) (by rintro s (((rfl | rfl) | rfl) | rfl) <;> simp)
  have h4 := h3.append (Block.ite d (corr_block z)) (by rintro s ((((rfl | rfl) | rfl) | rfl) | rfl) <;> simp)
  have h5 := h4.mono (T := fun s => ∃ t ∈ snTops, s = .lit t) (by rintro s (((((rfl | rfl) | rfl) | rfl) | rfl) | ⟨t, ht, rfl⟩) <;> simp [snTops] at * <;> tauto)
  simpa [snOut] using h5

/-- Groups by number with datasets by name, in a group. -/
theorem Block.nested (s : Name) (ng w o : Nat) (T : List String) (hT : T.Nodup) (d : List Nat) (n : Nat) (h : d.prod = n) :
    Block (fun x => ∃ i ∈ List.range ng, x = numName w (i + o))
      ((List.range ng).flatMap fun ig => Item.group [numName w (ig + o)] :: T.map fun t => Item.data [numName w (ig + o), .lit t] d n) :=
  Block.flatMap (List.range ng) List.nodup_range (fun ig _ => Block.named (numName w (ig + o)) T hT d n h) (by
    rintro a - b - hab s rfl e
    have := ((numName_inj w _ _ _ _).1 e).1
    omega)

def moc2d3dTops : List String := ["flux", "fsr_flux", "pin_powers", "ang_quad", "alpha_x", "alpha_y", "beta", "xsmesh", "correction_residual"]

theorem moc2d3d_block (z : Sizes) (d i : Bool) : Block (fun s => ∃ t ∈ moc2d3dTops, s = .lit t) (moc2d3dOut z d i) := by
  have hc := Block.ite i ((corr_block z).append (xs_block z) (by rintro s ⟨t, ht, rfl⟩; simp at ht; rcases ht with rfl | rfl | rfl <;> simp))
  have h1 := (moc_block z d).append hc (by
    rintro s ⟨t, ht, rfl⟩
    simp at ht
    rcases ht with rfl | rfl | rfl | rfl <;> simp)
  have hr := (Block.nested (.lit "") z.ng 0 1 ["alpha_x", "alpha_y", "beta"] (by simp) [z.nIter] z.nIter (by simp)).under (.lit "correction_residual")
  have h2 := h1.append hr (by
    rintro s (⟨t, ht, rfl⟩ | ⟨t, ht, rfl⟩ | rfl)
    · simp at ht; rcases ht with rfl | rfl | rfl | rfl <;> simp
    · simp at ht; rcases ht with rfl | rfl | rfl <;> simp
    · simp)
  have h3 := h2.mono (T := fun s => ∃ t ∈ moc2d3dTops, s = .lit t) (by
    rintro s ((⟨t, ht, rfl⟩ | ⟨t, ht, rfl⟩ | rfl) | rfl) <;> simp [moc2d3dTops] at * <;> tauto)
  simpa [moc2d3dOut, Item.below, List.map_flatMap] using h3

theorem cmfd_block (z : Sizes) : Block (· = .lit "current") (cmfdOut z) := by
  have := ((Block.datum (.lit "source") [] 1 (by simp)).append (Block.nested (.lit "") z.ng 0 1 ["east", "north", "west", "south", "top", "bottom"] (by simp) [z.nMacro, z.ny, z.nx]
    (z.nx * z.ny * z.nMacro) (by simp; ring)) (by
      rintro s rfl ⟨i, -, e⟩
      exact lit_numName _ _ _ _ e)).under (.lit "current")
  simpa [cmfdOut, Item.below, List.map_flatMap] using this

def pusherTops : List String := ["ng", "eubounds", "flux", "fsr_flux", "fsr_flux_col", "pin_power", "pin_power_stdev"]

theorem pusher_block (z : Sizes) : Block (fun s => ∃ t ∈ pusherTops, s = .lit t) (pusherOut z) := by
  have h1 := (Block.datum (.lit "ng") [1] 1 (by simp)).append (Block.datum (.lit "eubounds") [z.ng] z.ng (by simp)) (by rintro s rfl; simp)
  have h2 := h1.append (Block.suffixed (.lit "flux") z.ng 3 1 ["", "_stdev"] (by simp) z.dims (z.nx * z.ny * z.nz) (by simp [Sizes.dims]; ring)) (by rintro s (rfl | rfl) <;> simp)
  have h3 := h2.append (Block.suffixed (.lit "fsr_flux") z.ng 3 1 ["", "_stdev"] (by simp) [z.nRegTrue] z.nRegTrue (by simp)) (by rintro s ((rfl | rfl) | rfl) <;> simp)
  have h4 := h3.append (Block.suffixed (.lit "fsr_flux_col") z.ng 3 1 ["", "_stdev"] (by simp) [z.nRegTrue] z.nRegTrue (by simp)) (by rintro s (((rfl | rfl) | rfl) | rfl) <;> simp)
  have h5 := h4.append (Block.data ["pin_power", "pin_power_stdev"] (by simp) Name.lit lit_inj z.dims (z.nx * z.ny * z.nz) (by simp [Sizes.dims]; ring))
    (by rintro s ((((rfl | rfl) | rfl) | rfl) | rfl) <;> simp)
  have h6 := h5.mono (T := fun s => ∃ t ∈ pusherTops, s = .lit t) (by
    rintro s (((((rfl | rfl) | rfl) | rfl) | rfl) | ⟨t, ht, rfl⟩) <;> simp [pusherTops] at * <;> tauto)
  simpa [pusherOut] using h6

/-- Links between two blocks. -/
theorem perform_links {S T : Name → Prop} {a b : List Item} (ls : List (List Name × Name)) (ha : Block S a) (hb : Block T b) (h : ∀ s, S s → ¬ T s)
    (hl : (ls.map Prod.snd).Nodup) (hS : ∀ l ∈ ls, ¬ S l.2) (hT : ∀ l ∈ ls, ¬ T l.2) (hsrc : ∀ l ∈ ls, ∃ x ∈ a, x.path = l.1) :
    perform [] (a ++ ls.map (fun l => Item.link l.1 [l.2]) ++ b) = some (a ++ ls.map (fun l => Item.link l.1 [l.2]) ++ b) := by
  have := perform_ok [] (a ++ ls.map (fun l => Item.link l.1 [l.2]) ++ b) ?_ ?_ ?_
  · simpa using this
  · rw [List.nil_append, List.map_append, List.map_append, List.nodup_append, List.nodup_append]
    refine ⟨⟨ha.nodup, ?_, ?_⟩, hb.nodup, ?_⟩
    · have e : (ls.map (fun l => Item.link l.1 [l.2])).map Item.path = (ls.map Prod.snd).map fun n => [n] := by
        rw [List.map_map, List.map_map]; rfl
      rw [e]
      exact hl.map fun a b h => by simpa using h
    · intro p hp q hq e
      subst e
      obtain ⟨x, hx, rfl⟩ := List.mem_map.1 hp
      rw [List.map_map] at hq
      obtain ⟨l, hl', e⟩ := List.mem_map.1 hq
      obtain ⟨s, hs, r, hr⟩ := ha.tops x hx
      simp only [Function.comp, Item.path] at e
      change [l.2] = x.path at e
      rw [hr] at e
      simp only [List.cons.injEq] at e
      exact hS l hl' (e.1 ▸ hs)
    · intro p hp q hq e
      rcases List.mem_append.1 hp with hp | hp
      · exact ha.disjoint hb h p hp q hq e
      · subst e
        obtain ⟨x, hx, rfl⟩ := List.mem_map.1 hq
        rw [List.map_map] at hp
        obtain ⟨l, hl', e⟩ := List.mem_map.1 hp
        obtain ⟨s, hs, r, hr⟩ := hb.tops x hx
        change [l.2] = x.path at e
        rw [hr] at e
        simp only [List.cons.injEq] at e
        exact hT l hl' (e.1 ▸ hs)
  · refine rooted_append _ _ _ (rooted_append _ _ _ ha.rooted (rooted_all _ _ ?_)) (rooted_mono [] _ _ (fun x hx => absurd hx List.not_mem_nil) hb.rooted)
    intro it hit
    obtain ⟨l, hl', rfl⟩ := List.mem_map.1 hit
    refine ⟨Or.inl rfl, ?_⟩
    intro s d e
    rw [Item.link.injEq] at e
    obtain ⟨rfl, -⟩ := e
    simpa using hsrc l hl'
  · intro p d n hm
    rcases List.mem_append.1 hm with hm | hm
    · rcases List.mem_append.1 hm with hm | hm
      · exact ha.sized p d n hm
      · obtain ⟨l, -, e⟩ := List.mem_map.1 hm
        cases e
    · exact hb.sized p d n hm

theorem perform_block {S : Name → Prop} {a : List Item} (ha : Block S a) : perform [] a = some a := by
  simpa using perform_ok [] a (by simpa using ha.nodup) ha.rooted ha.sized

def driverTops : List String := ["input_file", "git_sha1"]

theorem tail_block : Block (fun s => ∃ t ∈ driverTops, s = .lit t) [.data [.lit "input_file"] [] 1, .data [.lit "git_sha1"] [] 1] := by
  have := (Block.datum (.lit "input_file") [] 1 (by simp)).append (Block.datum (.lit "git_sha1") [] 1 (by simp)) (by rintro s rfl; simp)
  exact this.mono (by rintro s (rfl | rfl) <;> simp [driverTops])

/-- The names at the top that come before and after the output of a sweeper. -/
def fixedTops : List String := ["ng", "eubounds"]

theorem ng_block (z : Sizes) : Block (fun s => ∃ t ∈ fixedTops, s = .lit t) [.data [.lit "ng"] [1] 1, .data [.lit "eubounds"] [z.ng] z.ng] := by
  have := (Block.datum (.lit "ng") [1] 1 (by simp)).append (Block.datum (.lit "eubounds") [z.ng] z.ng (by simp)) (by rintro s rfl; simp)
  exact this.mono (by rintro s (rfl | rfl) <;> simp [fixedTops])

theorem conv_block (z : Sizes) : Block (· = .lit "convergence")
    (.group [.lit "convergence"] :: (["k", "error_k", "error_psi", "iteration_time", "abscissae"].map fun s => Item.data [.lit "convergence", .lit s] [z.nIter] z.nIter)) :=
  Block.named (.lit "convergence") ["k", "error_k", "error_psi", "iteration_time", "abscissae"] (by simp) [z.nIter] z.nIter (by simp)

/-- Disjoint lists of literal names. -/
theorem tops_disjoint (A B : List String) (h : ∀ a ∈ A, a ∉ B) (s : Name) (hs : ∃ t ∈ A, s = .lit t) : ¬ ∃ t ∈ B, s = .lit t := by
  rintro ⟨u, hu, e⟩
  obtain ⟨t, ht, rfl⟩ := hs
  exact h t ht (Name.lit.inj e ▸ hu)

theorem tops_append (A B : List String) (s : Name) (h : (∃ t ∈ A, s = .lit t) ∨ ∃ t ∈ B, s = .lit t) : ∃ t ∈ A ++ B, s = .lit t := by
  rcases h with ⟨t, ht, e⟩ | ⟨t, ht, e⟩
  · exact ⟨t, List.mem_append_left _ ht, e⟩
  · exact ⟨t, List.mem_append_right _ ht, e⟩

/-- Blocks with lists of literal names at the top. -/
abbrev LBlock (A : List String) (l : List Item) : Prop := Block (fun s => ∃ t ∈ A, s = .lit t) l

theorem LBlock.app {A B : List String} {a b : List Item} (ha : LBlock A a) (hb : LBlock B b) (h : ∀ a ∈ A, a ∉ B) : LBlock (A ++ B) (a ++ b) :=
  (Block.append ha hb (tops_disjoint A B h)).mono (tops_append A B)

theorem LBlock.of {n : String} {l : List Item} (h : Block (· = .lit n) l) : LBlock [n] l :=
  h.mono (by rintro s rfl; exact ⟨n, List.mem_singleton.2 rfl, rfl⟩)

/-- What a plane sweeper writes after the links. -/
def planeRest (z : Sizes) (dumpFsr dumpCorr : Bool) : List Item :=
  (.group [.lit "MoC"] :: (moc2d3dOut z dumpFsr false).map (Item.below [.lit "MoC"])) ++
  ((.group [.lit "SnResid"] :: ((List.range z.ng).map fun g => Item.data [.lit "SnResid", numName 3 g] [z.nIter] z.nIter)) ++
  ((.group [.lit "moc_flux"] :: ((List.range z.ng).map fun ig => Item.data [.lit "moc_flux", numName 3 (ig + 1)] [z.nMacro, z.ny, z.nx] (z.nx * z.ny * z.nMacro))) ++
  ((.group [.lit "transverse_leakage"] ::
    ((List.range z.ng).map fun g => Item.data [.lit "transverse_leakage", numName 3 g] [z.nMacro, z.ny, z.nx] (z.nx * z.ny * z.nMacro))) ++
  if dumpCorr then corrOut z else [])))

def planeTops : List String := ["MoC"] ++ (["SnResid"] ++ (["moc_flux"] ++ (["transverse_leakage"] ++ ["alpha_x", "alpha_y", "beta"])))

theorem planeRest_block (z : Sizes) (b c : Bool) : LBlock planeTops (planeRest z b c) := by
  have h1 : LBlock ["MoC"] _ := LBlock.of ((moc2d3d_block z b false).under (.lit "MoC"))
  have h2 : LBlock ["SnResid"] _ := LBlock.of (Block.numbered (.lit "SnResid") z.ng 3 0 [z.nIter] z.nIter (by simp))
  have h3 : LBlock ["moc_flux"] _ := LBlock.of (Block.numbered (.lit "moc_flux") z.ng 3 1 [z.nMacro, z.ny, z.nx] (z.nx * z.ny * z.nMacro) (by simp; ring))
  have h4 : LBlock ["transverse_leakage"] _ := LBlock.of (Block.numbered (.lit "transverse_leakage") z.ng 3 0 [z.nMacro, z.ny, z.nx] (z.nx * z.ny * z.nMacro) (by simp; ring))
  have h5 : LBlock ["alpha_x", "alpha_y", "beta"] _ := Block.ite c (corr_block z)
  exact h1.app (h2.app (h3.app (h4.app h5 (by decide)) (by decide)) (by decide)) (by decide)

theorem planeOut_eq (z : Sizes) (a b c : Bool) :
    planeOut z a b c = (.group [.lit "Sn"] :: (snOut z a).map (Item.below [.lit "Sn"])) ++
      [([.lit "Sn", .lit "xsmesh"], Name.lit "xsmesh"), ([.lit "Sn", .lit "ang_quad"], Name.lit "ang_quad")].map (fun l : List Name × Name => Item.link l.1 [l.2]) ++
      planeRest z b c := by
  simp [planeOut, planeRest]

theorem links_src (z : Sizes) (a : Bool) (l : List Name × Name) (hl : l ∈ [([Name.lit "Sn", .lit "xsmesh"], Name.lit "xsmesh"), ([.lit "Sn", .lit "ang_quad"], .lit "ang_quad")]) :
    ∃ x ∈ (Item.group [.lit "Sn"] :: (snOut z a).map (Item.below [.lit "Sn"])), x.path = l.1 := by
  simp only [List.mem_cons, List.not_mem_nil, or_false] at hl
  rcases hl with rfl | rfl
  · exact ⟨.group [.lit "Sn", .lit "xsmesh"], by simp [snOut, xsOut, Item.below], rfl⟩
  · exact ⟨.group [.lit "Sn", .lit "ang_quad"], by simp [snOut, quadOut, Item.below], rfl⟩

/-- The names of a sweeper without links. -/
def sweepTops : List String :=
  ["flux", "fsr_flux", "pin_powers", "pin_powers_2d", "ang_quad", "alpha_x", "alpha_y", "beta", "xsmesh", "correction_residual"]

/-- Everything before and after the output of a sweeper. -/
theorem perform_around {P Q : List String} {pre post : List Item} (hp : LBlock P pre) (hq : LBlock Q post) (z : Sizes) (k : Kind)
    (h : ∀ s ∈ P, s ∉ ["Sn", "xsmesh", "ang_quad"] ++ planeTops ++ sweepTops ++ Q) (h' : ∀ s ∈ ["Sn", "xsmesh", "ang_quad"] ++ planeTops ++ sweepTops, s ∉ Q) :
    perform [] (pre ++ sweeperOut z k ++ post) = some (pre ++ sweeperOut z k ++ post) := by
  have simple : ∀ l, LBlock sweepTops l → perform [] (pre ++ l ++ post) = some (pre ++ l ++ post) := by
    intro l hl
    refine perform_block ((hp.app hl ?_).app hq ?_)
    · exact fun s hs hm => h s hs (by simp [hm])
    · intro s hs hm
      rcases List.mem_append.1 hs with hs | hs
      · exact h s hs (by simp [hm])
      · exact h' s (by simp [hs]) hm
  cases k with
  | moc d => exact simple _ ((moc_block z d).mono (by rintro s ⟨t, ht, rfl⟩; exact ⟨t, by simp [sweepTops] at *; tauto, rfl⟩))
  | sn d => exact simple _ ((sn_block z d).mono (by rintro s ⟨t, ht, rfl⟩; exact ⟨t, by simp [sweepTops, snTops] at *; tauto, rfl⟩))
  | moc2d3d d => exact simple _ ((moc2d3d_block z d true).mono (by rintro s ⟨t, ht, rfl⟩; exact ⟨t, by simp [sweepTops, moc2d3dTops] at *; tauto, rfl⟩))
  | plane a b c =>
    have hsn : LBlock ["Sn"] _ := LBlock.of ((sn_block z a).under (.lit "Sn"))
    have ha := hp.app hsn (fun s hs hm => h s hs (by simp at hm ⊢; tauto))
    have hb := (planeRest_block z b c).app hq (fun s hs hm => h' s (by simp [hs]) hm)
    have := perform_links [([.lit "Sn", .lit "xsmesh"], Name.lit "xsmesh"), ([.lit "Sn", .lit "ang_quad"], Name.lit "ang_quad")] ha hb (tops_disjoint _ _ (by
        intro s hs hm
        rcases List.mem_append.1 hs with hs | hs
        · refine h s hs ?_
          rcases List.mem_append.1 hm with hm | hm <;> simp [hm]
        · rcases List.mem_append.1 hm with hm | hm
          · rw [List.mem_singleton] at hs; subst hs; revert hm; decide
          · exact h' s (by simp at hs; simp [hs]) hm)) (by simp) (by
        intro l hl
        rintro ⟨t, ht, e⟩
        simp only [List.mem_cons, List.not_mem_nil, or_false] at hl
        rcases List.mem_append.1 ht with ht | ht
        · rcases hl with rfl | rfl <;> (have := Name.lit.inj e; subst this; exact h _ ht (by simp))
        · rcases hl with rfl | rfl <;> (have := Name.lit.inj e; subst this; simp at ht)) (by
        intro l hl
        rintro ⟨t, ht, e⟩
        simp only [List.mem_cons, List.not_mem_nil, or_false] at hl
        rcases List.mem_append.1 ht with ht | ht
        · rcases hl with rfl | rfl <;> (have := Name.lit.inj e; subst this; revert ht; decide)
        · rcases hl with rfl | rfl <;> (have := Name.lit.inj e; subst this; exact h' _ (by simp) ht)) (by
        intro l hl
        obtain ⟨x, hx, e⟩ := links_src z a l hl
        exact ⟨x, List.mem_append_right _ hx, e⟩)
    simp only [sweeperOut, planeOut_eq]
    simpa only [List.append_assoc] using this

/-- C115: a fixed source run writes its whole output, whatever the sweeper and its options: no name is used twice, every group is there before something is written to it, and
all extents have as many elements as values are handed over. -/
theorem C115_fixed (z : Sizes) (k : Kind) : perform [] (driverOut (fixedOut z k)) = some (driverOut (fixedOut z k)) := by
  have := perform_around (ng_block z) tail_block z k (by decide) (by decide)
  simpa [driverOut, fixedOut] using this

/-- C115: an eigenvalue run, with and without the currents of CMFD. -/
theorem C115_eigen (z : Sizes) (k : Kind) (c : Bool) : perform [] (driverOut (eigenOut z k c)) = some (driverOut (eigenOut z k c)) := by
  have h1 : LBlock ["convergence"] _ := LBlock.of (conv_block z)
  have h2 : LBlock ["current"] _ := LBlock.of (Block.ite c (cmfd_block z))
  have := perform_around (h1.app (ng_block z) (by decide)) (h2.app tail_block (by decide)) z k (by decide) (by decide)
  simpa [driverOut, eigenOut, fixedOut] using this

/-- C115: a Monte Carlo run. -/
theorem C115_mc (z : Sizes) (n : Nat) : perform [] (driverOut (mcOut z n)) = some (driverOut (mcOut z n)) := by
  have h1 : LBlock _ _ := Block.data ["k_history_tl", "k_history_col", "k_history_analog", "h_history"] (by simp) Name.lit lit_inj [z.nIter] z.nIter (by simp)
  have h2 : LBlock _ _ := Block.data ["k_mean_history_tl", "k_mean_history_col", "k_mean_history_analog", "k_stdev_history_tl", "k_stdev_history_col", "k_stdev_history_analog"]
    (by simp) Name.lit lit_inj [n] n (by simp)
  have h3 : LBlock ["seed"] _ := LBlock.of (Block.datum (.lit "seed") [1] 1 (by simp))
  have h4 : LBlock pusherTops _ := pusher_block z
  have h5 : LBlock driverTops _ := tail_block
  exact perform_block ((((h1.app h2 (by decide)).app h3 (by decide)).app h4 (by decide)).app h5 (by decide))

/-! ### What is in the file -/

/-- C115: every sweeper that stands alone leaves one dataset of nz by ny by nx values per group, numbered from one. -/
theorem C115_flux (z : Sizes) (k : Kind) (hk : ∀ a b c, k ≠ .plane a b c) (c : Bool) (ig : Nat) (h : ig < z.ng) :
    Item.data [.lit "flux", numName 3 (ig + 1)] [z.nz, z.ny, z.nx] (z.nx * z.ny * z.nz) ∈ driverOut (eigenOut z k c) := by
  have key : Item.data [.lit "flux", numName 3 (ig + 1)] [z.nz, z.ny, z.nx] (z.nx * z.ny * z.nz) ∈ sweeperOut z k := by
    have hm : Item.data [.lit "flux", numName 3 (ig + 1)] [z.nz, z.ny, z.nx] (z.nx * z.ny * z.nz) ∈
        (List.range z.ng).map fun ig => Item.data [.lit "flux", numName 3 (ig + 1)] z.dims (z.nx * z.ny * z.nz) :=
      List.mem_map.2 ⟨ig, List.mem_range.2 h, rfl⟩
    cases k with
    | moc d => simp only [sweeperOut, mocOut, List.mem_append, List.mem_cons]; tauto
    | sn d => simp only [sweeperOut, snOut, List.mem_append, List.mem_cons]; tauto
    | moc2d3d d => simp only [sweeperOut, moc2d3dOut, mocOut, List.mem_append, List.mem_cons]; tauto
    | plane a b c => exact absurd rfl (hk a b c)
  simp only [driverOut, eigenOut, fixedOut, List.mem_append, List.mem_cons]
  tauto

/-- C115: the plane sweeper leaves them for both of its sweepers. -/
theorem C115_flux_plane (z : Sizes) (a b d c : Bool) (s : String) (hs : s ∈ ["Sn", "MoC"]) (ig : Nat) (h : ig < z.ng) :
    Item.data [.lit s, .lit "flux", numName 3 (ig + 1)] [z.nz, z.ny, z.nx] (z.nx * z.ny * z.nz) ∈ driverOut (eigenOut z (.plane a b d) c) := by
  have hm : Item.data [.lit "flux", numName 3 (ig + 1)] [z.nz, z.ny, z.nx] (z.nx * z.ny * z.nz) ∈
      (List.range z.ng).map fun ig => Item.data [.lit "flux", numName 3 (ig + 1)] z.dims (z.nx * z.ny * z.nz) :=
    List.mem_map.2 ⟨ig, List.mem_range.2 h, rfl⟩
  have key : Item.data [.lit s, .lit "flux", numName 3 (ig + 1)] [z.nz, z.ny, z.nx] (z.nx * z.ny * z.nz) ∈ planeOut z a b d := by
    rw [planeOut_eq]
    simp only [List.mem_cons, List.not_mem_nil, or_false] at hs
    rcases hs with rfl | rfl
    · refine List.mem_append_left _ (List.mem_append_left _ (List.mem_cons_of_mem _ (List.mem_map.2
        ⟨.data [.lit "flux", numName 3 (ig + 1)] [z.nz, z.ny, z.nx] (z.nx * z.ny * z.nz), ?_, rfl⟩)))
      simp only [snOut, List.mem_append, List.mem_cons]; tauto
    · refine List.mem_append_right _ (List.mem_append_left _ (List.mem_cons_of_mem _ (List.mem_map.2
        ⟨.data [.lit "flux", numName 3 (ig + 1)] [z.nz, z.ny, z.nx] (z.nx * z.ny * z.nz), ?_, rfl⟩)))
      simp only [moc2d3dOut, mocOut, List.mem_append, List.mem_cons]; tauto
  simp only [driverOut, eigenOut, fixedOut, sweeperOut, List.mem_append, List.mem_cons]
  tauto

/-- C115: groups are numbered from one in the file, as the names of the fluxes suggest: no path has the number zero. -/
def C115_groups_claim : Prop := ∀ (z : Sizes) (k : Kind) (c : Bool), ∀ it ∈ driverOut (eigenOut z k c), ∀ w s, numName w 0 s ∉ it.path

/-- C115: they are not: cross sections, corrections, residuals and leakages count from zero, in the same file as fluxes that count from one. -/
theorem C115_groups_claim_false : ¬ C115_groups_claim := by
  intro h
  refine h ⟨1, 4, 1, 1, 1, 1, 1, 1, 2, 1⟩ (.sn false) false (.data [.lit "xsmesh", .lit "xstr", numName 0 0] [1, 1, 1] 1) ?_ 0 ""
    (List.mem_cons_of_mem _ (List.mem_cons_of_mem _ (List.mem_singleton.2 rfl)))
  simp [driverOut, eigenOut, fixedOut, sweeperOut, snOut, xsOut]

/-- C115: in one file of the plane sweeper the second group has the name 002 in `moc_flux` and 001 in `transverse_leakage`, and both names exist in both if there are three
groups. -/
theorem C115_groups_mixed (z : Sizes) (a b d c : Bool) (ig : Nat) (h : ig < z.ng) :
    Item.data [.lit "moc_flux", numName 3 (ig + 1)] [z.nMacro, z.ny, z.nx] (z.nx * z.ny * z.nMacro) ∈ driverOut (eigenOut z (.plane a b d) c) ∧
      Item.data [.lit "transverse_leakage", numName 3 ig] [z.nMacro, z.ny, z.nx] (z.nx * z.ny * z.nMacro) ∈ driverOut (eigenOut z (.plane a b d) c) := by
  constructor
  · have hm : Item.data [.lit "moc_flux", numName 3 (ig + 1)] [z.nMacro, z.ny, z.nx] (z.nx * z.ny * z.nMacro) ∈
        (List.range z.ng).map fun ig => Item.data [.lit "moc_flux", numName 3 (ig + 1)] [z.nMacro, z.ny, z.nx] (z.nx * z.ny * z.nMacro) :=
      List.mem_map.2 ⟨ig, List.mem_range.2 h, rfl⟩
    simp only [driverOut, eigenOut, fixedOut, sweeperOut, planeOut, List.mem_append, List.mem_cons]
    tauto
  · have hm : Item.data [.lit "transverse_leakage", numName 3 ig] [z.nMacro, z.ny, z.nx] (z.nx * z.ny * z.nMacro) ∈
        (List.range z.ng).map fun g => Item.data [.lit "transverse_leakage", numName 3 g] [z.nMacro, z.ny, z.nx] (z.nx * z.ny * z.nMacro) :=
      List.mem_map.2 ⟨ig, List.mem_range.2 h, rfl⟩
    simp only [driverOut, eigenOut, fixedOut, sweeperOut, planeOut, List.mem_append, List.mem_cons]
    tauto

/-- C115: what holds: in the file of a sweeper of the method of characteristics all numbers count from one, with and without the currents of CMFD. -/
theorem C115_groups_partial (z : Sizes) (d c : Bool) : ∀ it ∈ driverOut (eigenOut z (.moc d) c), ∀ w s, numName w 0 s ∉ it.path := by
  have hne : ∀ w s v i, numName w 0 s ≠ numName v (i + 1) := by
    intro w s v i e
    unfold numName at e
    rw [Name.num.injEq] at e
    have := congrArg (fun l => Nat.ofDigits 10 l.reverse) e.1
    have key : ∀ w n, Nat.ofDigits 10 (decimal w n).reverse = n := by
      intro w n
      unfold decimal
      simp only [List.reverse_reverse]
      rw [Nat.ofDigits_append, ofDigits_zeros, Nat.mul_zero, Nat.add_zero]
      split_ifs with h
      · subst h; rfl
      · exact Nat.ofDigits_digits 10 n
    simp only [key] at this
    omega
  intro it hit w s
  have hl := fun t => numName_lit w 0 s t
  have hn := hne w s
  cases d <;> cases c <;>
    simp only [driverOut, eigenOut, fixedOut, sweeperOut, mocOut, quadOut, cmfdOut, List.mem_append, List.mem_cons, List.mem_map, List.mem_flatMap, List.not_mem_nil, or_false,
      if_true, Bool.false_eq_true, if_false, false_or] at hit <;>
    aesop (add simp [Item.path])

/-- A case of two groups for the examples. -/
def sizes0 : Sizes := ⟨2, 8, 3, 2, 4, 2, 40, 80, 4, 5⟩

example : perform [] (driverOut (eigenOut sizes0 (.plane true true true) true)) = some (driverOut (eigenOut sizes0 (.plane true true true) true)) :=
  C115_eigen _ _ _

/-- Writing the same again fails, extents that do not fit fail, a group that is not there fails. -/
example : perform (driverOut (fixedOut sizes0 (.moc false))) (fixedOut sizes0 (.moc false)) = none ∧ perform [] [.data [.lit "a"] [2, 3] 5] = none ∧
    perform [] [.data [.lit "g", .lit "a"] [5] 5] = none ∧ perform [] [.group [.lit "g"], .data [.lit "g", .lit "a"] [5] 5, .link [.lit "g", .lit "b"] [.lit "c"]] = none := by
  decide +kernel

/-- Numbers as in the file: 1 with three digits, 1234 with three digits, 0 without fill. -/
example : decimal 3 1 = [0, 0, 1] ∧ decimal 3 1234 = [1, 2, 3, 4] ∧ decimal 0 0 = [0] ∧ decimal 0 12 = [1, 2] := by decide +kernel

end Verif.H5
