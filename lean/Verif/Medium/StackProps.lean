import Verif.Medium.UnitProps

/-!
# C161: the planes of a MoC calculation do not see each other
-/

set_option linter.unusedSectionVars false

namespace Verif.Medium

open Finset Verif.XS Verif.Source Verif.Scatter

section
variable {K : Type} [Field K] [LinearOrder K] [IsStrictOrderedRing K]

/-- All segments of the plane are in its own `N` regions. -/
def SegsIn (N : Nat) (p : Moc.PlaneWork K) : Prop := ∀ w ∈ p.angles, ∀ r ∈ w.rays, ∀ s ∈ r.segs, s.reg + p.first < N

/-- No segment of the plane is in region `i`. -/
def Misses (i : Nat) (p : Moc.PlaneWork K) : Prop := ∀ w ∈ p.angles, ∀ r ∈ w.rays, ∀ s ∈ r.segs, s.reg + p.first ≠ i

theorem walk_misses (e : Moc.Seg K → K) (q : Nat → K) (wt : K) (first i : Nat) (l : List (Moc.Seg K)) (hl : ∀ s ∈ l, s.reg + first ≠ i) (psi : K) (t : Nat → K) :
    (Moc.walk e q wt first l psi t).2 i = t i := by
  induction l generalizing psi t with
  | nil => rfl
  | cons s l ih =>
    rw [Moc.walk, ih fun s hs => hl s (List.mem_cons_of_mem _ hs)]
    exact if_neg fun h => hl s List.mem_cons_self h.symm

theorem plane_misses (expo : K → K) (xs q : Nat → K) (gs : Bool) (u : Moc.BcUpdate K) (i : Nat) (p : Moc.PlaneWork K) (hp : Misses i p) (s : Moc.St K) :
    (Moc.sweepPlane expo xs q gs u p s).tflux i = s.tflux i := by
  have hray : ∀ (e : Moc.Seg K → K) (wt : K) (in1 in2 : Nat → K) (l : List (Moc.Ray K)), (∀ r ∈ l, ∀ s ∈ r.segs, s.reg + p.first ≠ i) → ∀ a : Moc.Acc K,
      (l.foldl (Moc.sweepRay e q wt p.first in1 in2) a).tflux i = a.tflux i := by
    intro e wt in1 in2 l
    induction l with
    | nil => exact fun _ a => rfl
    | cons r l ih =>
      intro hl a
      rw [List.foldl_cons, ih fun r hr => hl r (List.mem_cons_of_mem _ hr)]
      have h1 := hl r List.mem_cons_self
      simp only [Moc.sweepRay]
      rw [walk_misses _ _ _ _ _ _ fun s hs => h1 s (List.mem_reverse.mp hs), walk_misses _ _ _ _ _ _ h1]
  have hang : ∀ l : List (Moc.AngleWork K), (∀ w ∈ l, ∀ r ∈ w.rays, ∀ s ∈ r.segs, s.reg + p.first ≠ i) → ∀ s : Moc.St K,
      (l.foldl (Moc.sweepAngle expo xs q gs u p.first) s).tflux i = s.tflux i := by
    intro l
    induction l with
    | nil => exact fun _ s => rfl
    | cons w l ih =>
      intro hl s
      rw [List.foldl_cons, ih fun w hw => hl w (List.mem_cons_of_mem _ hw)]
      exact hray _ _ _ _ w.rays (hl w List.mem_cons_self) _
  exact hang p.angles hp s

variable (off N : Nat) (h : K)

theorem walk_shift (expo : K → K) (xs XS q Q : Nat → K) (hx : ∀ i < N, XS (off + i) = xs i) (hq : ∀ i < N, Q (off + i) = q i) (rst wt : K) (first : Nat) (l : List (Moc.Seg K))
    (hl : ∀ s ∈ l, s.reg + first < N) (psi : K) (t T : Nat → K) (ht : ∀ i < N, T (off + i) = h * t i) :
    (Moc.walk (Moc.eTau expo XS rst (off + first)) Q (h * wt) (off + first) l psi T).1 = (Moc.walk (Moc.eTau expo xs rst first) q wt first l psi t).1 ∧
    ∀ i < N, (Moc.walk (Moc.eTau expo XS rst (off + first)) Q (h * wt) (off + first) l psi T).2 (off + i) = h * (Moc.walk (Moc.eTau expo xs rst first) q wt first l psi t).2 i := by
  induction l generalizing psi t T with
  | nil => exact ⟨rfl, ht⟩
  | cons s l ih =>
    have h1 := hl s List.mem_cons_self
    have e0 : s.reg + (off + first) = off + (s.reg + first) := by omega
    have e1 : Moc.eTau expo XS rst (off + first) s = Moc.eTau expo xs rst first s := by
      simp only [Moc.eTau, e0, hx _ h1]
    rw [Moc.walk, Moc.walk]
    simp only [e0, e1, hq _ h1]
    refine ih (fun s hs => hl s (List.mem_cons_of_mem _ hs)) _ _ _ fun i hi => ?_
    simp only [Moc.upd, ht _ h1, Nat.add_left_cancel_iff, ht i hi]
    split_ifs <;> ring

/-- The plane with a height `h` times larger, its regions moved by `off`; the weights of the rays contain the height (moc_sweeper_kernel.inc.hpp:80-82). -/
def raised (p : Moc.PlaneWork K) : Moc.PlaneWork K := ⟨off + p.first, p.angles.map fun a => ⟨a.iang1, a.iang2, a.rst, h * a.wt, a.rays⟩⟩

theorem plane_shift (expo : K → K) (xs XS q Q : Nat → K) (hx : ∀ i < N, XS (off + i) = xs i) (hq : ∀ i < N, Q (off + i) = q i) (gs : Bool) (u : Moc.BcUpdate K) (p : Moc.PlaneWork K)
    (hp : SegsIn N p) (b o : Nat → Nat → K) (t T : Nat → K) (ht : ∀ i < N, T (off + i) = h * t i) :
    (Moc.sweepPlane expo XS Q gs u (raised off h p) ⟨T, b, o⟩).bin = (Moc.sweepPlane expo xs q gs u p ⟨t, b, o⟩).bin ∧
    (Moc.sweepPlane expo XS Q gs u (raised off h p) ⟨T, b, o⟩).bout = (Moc.sweepPlane expo xs q gs u p ⟨t, b, o⟩).bout ∧
    ∀ i < N, (Moc.sweepPlane expo XS Q gs u (raised off h p) ⟨T, b, o⟩).tflux (off + i) = h * (Moc.sweepPlane expo xs q gs u p ⟨t, b, o⟩).tflux i := by
  have hray : ∀ (rst wt : K) (in1 in2 : Nat → K) (l : List (Moc.Ray K)), (∀ r ∈ l, ∀ s ∈ r.segs, s.reg + p.first < N) → ∀ a A : Moc.Acc K,
      A.out1 = a.out1 → A.out2 = a.out2 → (∀ i < N, A.tflux (off + i) = h * a.tflux i) →
      (l.foldl (Moc.sweepRay (Moc.eTau expo XS rst (off + p.first)) Q (h * wt) (off + p.first) in1 in2) A).out1 = (l.foldl (Moc.sweepRay (Moc.eTau expo xs rst p.first) q wt p.first in1 in2) a).out1 ∧
      (l.foldl (Moc.sweepRay (Moc.eTau expo XS rst (off + p.first)) Q (h * wt) (off + p.first) in1 in2) A).out2 = (l.foldl (Moc.sweepRay (Moc.eTau expo xs rst p.first) q wt p.first in1 in2) a).out2 ∧
      ∀ i < N, (l.foldl (Moc.sweepRay (Moc.eTau expo XS rst (off + p.first)) Q (h * wt) (off + p.first) in1 in2) A).tflux (off + i) =
        h * (l.foldl (Moc.sweepRay (Moc.eTau expo xs rst p.first) q wt p.first in1 in2) a).tflux i := by
    intro rst wt in1 in2 l
    induction l with
    | nil => exact fun _ a A h1 h2 h3 => ⟨h1, h2, h3⟩
    | cons r l ih =>
      intro hl a A h1 h2 h3
      rw [List.foldl_cons, List.foldl_cons]
      have hr := hl r List.mem_cons_self
      obtain ⟨f1, f2⟩ := walk_shift off N h expo xs XS q Q hx hq rst wt p.first r.segs hr (in1 r.bc0) a.tflux A.tflux h3
      obtain ⟨g1, g2⟩ := walk_shift off N h expo xs XS q Q hx hq rst wt p.first r.segs.reverse (fun s hs => hr s (List.mem_reverse.mp hs)) (in2 r.bc1) _ _ f2
      exact ih (fun r hr => hl r (List.mem_cons_of_mem _ hr)) _ _ (by simp only [Moc.sweepRay, h1, f1]) (by simp only [Moc.sweepRay, h2, g1]) g2
  have hang : ∀ l : List (Moc.AngleWork K), (∀ w ∈ l, ∀ r ∈ w.rays, ∀ s ∈ r.segs, s.reg + p.first < N) → ∀ s S : Moc.St K,
      S.bin = s.bin → S.bout = s.bout → (∀ i < N, S.tflux (off + i) = h * s.tflux i) →
      ((l.map fun a => (⟨a.iang1, a.iang2, a.rst, h * a.wt, a.rays⟩ : Moc.AngleWork K)).foldl (Moc.sweepAngle expo XS Q gs u (off + p.first)) S).bin = (l.foldl (Moc.sweepAngle expo xs q gs u p.first) s).bin ∧
      ((l.map fun a => (⟨a.iang1, a.iang2, a.rst, h * a.wt, a.rays⟩ : Moc.AngleWork K)).foldl (Moc.sweepAngle expo XS Q gs u (off + p.first)) S).bout = (l.foldl (Moc.sweepAngle expo xs q gs u p.first) s).bout ∧
      ∀ i < N, ((l.map fun a => (⟨a.iang1, a.iang2, a.rst, h * a.wt, a.rays⟩ : Moc.AngleWork K)).foldl (Moc.sweepAngle expo XS Q gs u (off + p.first)) S).tflux (off + i) = h * (l.foldl (Moc.sweepAngle expo xs q gs u p.first) s).tflux i := by
    intro l
    induction l with
    | nil => exact fun _ s S h1 h2 h3 => ⟨h1, h2, h3⟩
    | cons w l ih =>
      intro hl s S h1 h2 h3
      rw [List.map_cons, List.foldl_cons, List.foldl_cons]
      obtain ⟨r1, r2, r3⟩ := hray w.rst w.wt (s.bin w.iang1) (s.bin w.iang2) w.rays (hl w List.mem_cons_self) ⟨s.tflux, s.bout w.iang1, s.bout w.iang2⟩
        ⟨S.tflux, s.bout w.iang1, s.bout w.iang2⟩ rfl rfl h3
      exact ih (fun w hw => hl w (List.mem_cons_of_mem _ hw)) _ _ (by simp only [Moc.sweepAngle, h1, h2, r1, r2]) (by simp only [Moc.sweepAngle, h1, h2, r1, r2])
        (by simp only [Moc.sweepAngle, h1, h2]; exact r3)
  obtain ⟨r1, r2, r3⟩ := hang p.angles hp ⟨t, b, o⟩ ⟨T, b, o⟩ rfl rfl ht
  exact ⟨by simp only [Moc.sweepPlane, raised, r1, r2], r2, r3⟩

/-- C161: the sweep of a group.  Plane `j` of the stack gives what the plane alone gives, whatever the other planes are. -/
theorem C161_sweep (hh : h ≠ 0) (expo : K → K) (fpi : K) (xs XS vol VOL q Q : Nat → K) (hx : ∀ i < N, XS (off + i) = xs i) (hv : ∀ i < N, VOL (off + i) = h * vol i) (hq : ∀ i < N, Q (off + i) = q i)
    (gs : Bool) (u : Moc.BcUpdate K) (p : Moc.PlaneWork K) (hp : SegsIn N p) (b o : Nat → Nat → K) (L : List (Moc.PlaneWork K × (Nat → Nat → K) × (Nat → Nat → K))) (j : Nat)
    (hj : L[j]? = some (raised off h p, b, o)) (hother : ∀ j' x, j' ≠ j → L[j']? = some x → ∀ i < N, Misses (off + i) x.1) :
    (∀ i < N, (Moc.sweep1g expo fpi XS VOL Q gs u L).1 (off + i) = (Moc.sweep1g expo fpi xs vol q gs u [(p, b, o)]).1 i) ∧
    (∃ r, (Moc.sweep1g expo fpi XS VOL Q gs u L).2[j]? = some r ∧ (Moc.sweep1g expo fpi xs vol q gs u [(p, b, o)]).2 = [r]) := by
  have miss : ∀ (L : List (Moc.PlaneWork K × (Nat → Nat → K) × (Nat → Nat → K))), (∀ (j' : Nat) (x : Moc.PlaneWork K × (Nat → Nat → K) × (Nat → Nat → K)), L[j']? = some x → ∀ i < N, Misses (off + i) x.1) → ∀ T : Nat → K,
      ∀ i < N, (Moc.sweepPlanes expo XS Q gs u L T).1 (off + i) = T (off + i) := by
    intro L
    induction L with
    | nil => exact fun _ T i _ => rfl
    | cons x L ih =>
      intro hL T i hi
      obtain ⟨P, B, O⟩ := x
      rw [Moc.sweepPlanes]
      show (Moc.sweepPlanes expo XS Q gs u L (Moc.sweepPlane expo XS Q gs u P ⟨T, B, O⟩).tflux).1 (off + i) = _
      rw [ih (fun j' x h => hL (j' + 1) x h) _ i hi]
      exact plane_misses expo XS Q gs u _ P (hL 0 (P, B, O) rfl i hi) _
  have key : ∀ (L : List (Moc.PlaneWork K × (Nat → Nat → K) × (Nat → Nat → K))) (j : Nat), L[j]? = some (raised off h p, b, o) →
      (∀ (j' : Nat) (x : Moc.PlaneWork K × (Nat → Nat → K) × (Nat → Nat → K)), j' ≠ j → L[j']? = some x → ∀ i < N, Misses (off + i) x.1) → ∀ t T : Nat → K, (∀ i < N, T (off + i) = h * t i) →
      (∀ i < N, (Moc.sweepPlanes expo XS Q gs u L T).1 (off + i) = h * (Moc.sweepPlane expo xs q gs u p ⟨t, b, o⟩).tflux i) ∧
      (Moc.sweepPlanes expo XS Q gs u L T).2[j]? = some ((Moc.sweepPlane expo xs q gs u p ⟨t, b, o⟩).bin, (Moc.sweepPlane expo xs q gs u p ⟨t, b, o⟩).bout) := by
    intro L
    induction L with
    | nil => exact fun j h => by simp at h
    | cons x L ih =>
      intro j hj hother t T ht
      obtain ⟨P, B, O⟩ := x
      cases j with
      | zero =>
        rw [List.getElem?_cons_zero, Option.some.injEq, Prod.mk.injEq, Prod.mk.injEq] at hj
        obtain ⟨rfl, rfl, rfl⟩ := hj
        obtain ⟨r1, r2, r3⟩ := plane_shift off N h expo xs XS q Q hx hq gs u p hp B O t T ht
        rw [Moc.sweepPlanes]
        refine ⟨fun i hi => ?_, ?_⟩
        · rw [← r3 i hi]
          exact miss L (fun j' x h => hother (j' + 1) x (by omega) h) _ i hi
        · simp only [List.getElem?_cons_zero, r1, r2]
      | succ j =>
        have hm := plane_misses expo XS Q gs u (p := P)
        rw [Moc.sweepPlanes]
        exact ih j hj (fun j' x hne h => hother (j' + 1) x (by omega) h) t _ fun i hi => by
          rw [hm _ (hother 0 (P, B, O) (by omega) rfl i hi)]
          exact ht i hi
  obtain ⟨r1, r2⟩ := key L j hj hother (fun _ => 0) (fun _ => 0) fun _ _ => (mul_zero h).symm
  refine ⟨fun i hi => ?_, _, r2, rfl⟩
  simp only [Moc.sweep1g, Moc.finish, r1 i hi, hx i hi, hv i hi, hq i hi]
  rw [mul_left_comm, mul_div_mul_left _ _ hh]
  rfl

/-- The regions `off`, `off + 1`, … of `P` are those of `p`: the same materials, volumes `h` times larger. -/
structure PlaneOf (off : Nat) (h : K) (p P : Problem K) : Prop where
  ng : P.ng = p.ng
  part : Partition p.rs
  part' : Partition P.rs
  nonneg : ∀ x ∈ p.rs, Source.NonNeg p.ng x.mat
  mat : ∀ i < p.nReg, ∃ x ∈ p.rs, ∃ x' ∈ P.rs, i ∈ x.regs ∧ off + i ∈ x'.regs ∧ x'.mat = x.mat
  vol : ∀ i < p.nReg, P.vol (off + i) = h * p.vol i

/-- Plane `j` of the sweeper `M` is the plane of `m` up to its height; no other plane has segments in its regions. -/
structure SetupOf (off N j : Nat) (h : K) (m M : MocSetup K) : Prop where
  expo : M.expo = m.expo
  fpi : M.fpi = m.fpi
  gs : M.gs = m.gs
  u : M.u = m.u
  inner : M.nInner = m.nInner
  plane : ∃ p, m.planes = [p] ∧ SegsIn N p ∧ M.planes[j]? = some (raised off h p)
  other : ∀ j' P, j' ≠ j → M.planes[j']? = some P → ∀ i < N, Misses (off + i) P

/-- Flux and boundary values of plane `j` are those of the plane alone. -/
def StateOf (off j : Nat) (p : Problem K) (s S : MocState K) : Prop :=
  (∀ i < p.nReg, ∀ g < p.ng, S.flux (off + i) g = s.flux i g) ∧ (∀ g < p.ng, ∃ b, s.bin g = [b] ∧ (S.bin g)[j]? = some b) ∧ ∃ o, s.bout = [o] ∧ S.bout[j]? = some o

variable {off h} {p P : Problem K} {j : Nat} {m M : MocSetup K}

theorem stack_inner (hh : h ≠ 0) (hp : PlaneOf off h p P) (hm : SetupOf off p.nReg j h m M) (g : Nat) (hg : g < p.ng) (src SRC : Nat → K) (hsrc : ∀ i < p.nReg, SRC (off + i) = src i)
    (s S : MocState K) (hs : StateOf off j p s S) : StateOf off j p (mocInner p m g src s) (mocInner P M g SRC S) := by
  obtain ⟨s1, s2, o, so, So⟩ := hs
  obtain ⟨b, sb, Sb⟩ := s2 g hg
  obtain ⟨pl, hpl, hseg, hPl⟩ := hm.plane
  have hz : (M.planes.zip ((S.bin g).zip S.bout))[j]? = some (raised off h pl, b, o) := by
    rw [List.getElem?_zip_eq_some]
    exact ⟨hPl, List.getElem?_zip_eq_some.mpr ⟨Sb, So⟩⟩
  obtain ⟨r1, r, r2, r3⟩ := C161_sweep off p.nReg h hh m.expo m.fpi (trOf p.rs g) (trOf P.rs g) p.vol P.vol (selfScatter m.fpi p.ng p.rs s.flux g src true s.q)
    (selfScatter m.fpi P.ng P.rs S.flux g SRC true S.q)
    (fun i hi => by
      obtain ⟨x, hx, x', hx', hxi, hxi', he⟩ := hp.mat i hi
      rw [trOf_at p.rs hp.part g x hx i hxi, trOf_at P.rs hp.part' g x' hx' _ hxi', he]) hp.vol
    (fun i hi => by
      obtain ⟨x, hx, x', hx', hxi, hxi', he⟩ := hp.mat i hi
      rw [selfScatter_at m.fpi p.ng _ hp.part s.flux g hg src true s.q x hx i hxi, selfScatter_at m.fpi P.ng _ hp.part' S.flux g (hp.ng ▸ hg) SRC true S.q x' hx' (off + i) hxi',
        hsrc i hi, he, s1 i hi g hg]) m.gs m.u pl hseg b o _ j hz
    (fun j' x hne hx i hi => hm.other j' x.1 hne (List.getElem?_zip_eq_some.mp hx).1 i hi)
  have e1 : m.planes.zip ((s.bin g).zip s.bout) = [(pl, b, o)] := by rw [hpl, sb, so]; rfl
  refine ⟨fun i hi g' hg' => ?_, fun g' hg' => ?_, r.2, ?_, ?_⟩
  · show (if g' = g then _ else S.flux (off + i) g') = if g' = g then _ else s.flux i g'
    by_cases e : g' = g
    · rw [if_pos e, if_pos e, e1, hm.expo, hm.fpi, hm.gs, hm.u]; exact r1 i hi
    · rw [if_neg e, if_neg e]; exact s1 i hi g' hg'
  · show ∃ b, (if g' = g then _ else s.bin g') = [b] ∧ (if g' = g then _ else S.bin g')[j]? = some b
    by_cases e : g' = g
    · rw [if_pos e, if_pos e, e1, hm.expo, hm.fpi, hm.gs, hm.u]
      exact ⟨r.1, by rw [r3]; rfl, by rw [List.getElem?_map, r2]; rfl⟩
    · rw [if_neg e, if_neg e]; exact s2 g' hg'
  · show List.map Prod.snd (Moc.sweep1g _ _ _ _ _ _ _ (m.planes.zip ((s.bin g).zip s.bout))).2 = _
    rw [e1, r3]; rfl
  · show (List.map Prod.snd (Moc.sweep1g M.expo M.fpi _ _ (selfScatter M.fpi _ _ _ _ _ _ _) M.gs M.u _).2)[j]? = _
    rw [hm.expo, hm.fpi, hm.gs, hm.u, List.getElem?_map, r2]; rfl

/-- C161: all inner iterations of a group. -/
theorem C161_group (hh : h ≠ 0) (hp : PlaneOf off h p P) (hm : SetupOf off p.nReg j h m M) (g : Nat) (hg : g < p.ng) (src SRC : Nat → K) (hsrc : ∀ i < p.nReg, SRC (off + i) = src i)
    (s S : MocState K) (hs : StateOf off j p s S) : StateOf off j p (mocSweep p m g src s) (mocSweep P M g SRC S) := by
  unfold mocSweep
  rw [hm.inner]
  generalize List.range m.nInner = l
  induction l generalizing s S with
  | nil => exact hs
  | cons _ l ih => exact ih _ _ (stack_inner hh hp hm g hg src SRC hsrc s S hs)

/-- C161: all groups, with fission and external source given. -/
theorem C161_groups (hh : h ≠ 0) (hp : PlaneOf off h p P) (hm : SetupOf off p.nReg j h m M) (base BASE : Nat → Nat → K) (hbase : ∀ g < p.ng, ∀ i < p.nReg, BASE g (off + i) = base g i) (c g : Nat)
    (hg : g + c ≤ p.ng) (s S : MocState K) (hs : StateOf off j p s S) : StateOf off j p (srcLoop p (mocSweeper p m) base c g s) (srcLoop P (mocSweeper P M) BASE c g S) := by
  induction c generalizing g s S with
  | zero => exact hs
  | succ c ih =>
    have hg' : g < p.ng := by omega
    rw [srcLoop, srcLoop]
    refine ih (g + 1) (by omega) _ _ (C161_group hh hp hm g hg' _ _ (fun i hi => ?_) s S hs)
    obtain ⟨x, hx, x', hx', hxi, hxi', he⟩ := hp.mat i hi
    rw [inScatter_at p.ng _ hp.part _ g hg' (base g) x hx i hxi (hp.nonneg x hx),
      inScatter_at P.ng _ hp.part' _ g (hp.ng ▸ hg') (BASE g) x' hx' (off + i) hxi' (by rw [he, hp.ng]; exact hp.nonneg x hx), hbase g hg' i hi, hp.ng, he]
    congr 1
    refine sum_congr rfl fun b hb => ?_
    by_cases e : b = g
    · simp [e]
    · rw [if_pos e, if_pos e]
      exact congrArg (x.mat.sc g b * ·) (hs.1 i hi b (mem_range.mp hb))

/-- C161: any number of steps with an external source: plane `j` of any stack gives what the plane alone gives. -/
theorem C161_fixed (hh : h ≠ 0) (hp : PlaneOf off h p P) (hm : SetupOf off p.nReg j h m M) (ext EXT : Option (Ext K)) (E E' : Nat → Nat → K) (hE : ∀ g < p.ng, initializeGroup p.nReg ext g = some (E g))
    (hE' : ∀ g < p.ng, initializeGroup P.nReg EXT g = some (E' g)) (hEE : ∀ g < p.ng, ∀ i < p.nReg, E' g (off + i) = E g i) (c : Nat) (s S : MocState K) (hs : StateOf off j p s S) :
    ∃ s1 S1, fixedSteps p (mocSweeper p m) ext c s = some s1 ∧ fixedSteps P (mocSweeper P M) EXT c S = some S1 ∧ StateOf off j p s1 S1 := by
  induction c generalizing s S with
  | zero => exact ⟨s, S, rfl, rfl, hs⟩
  | succ c ih =>
    obtain ⟨s1, s1', h1, h2, h3⟩ := ih _ _ (C161_groups hh hp hm E E' hEE p.ng 0 (by omega) s S hs)
    refine ⟨s1, s1', ?_, ?_, h3⟩
    · rw [fixedSteps, extLoop_eq p _ ext E p.ng 0 fun g _ hg => hE g (by omega), Option.bind_some]
      exact h1
    · rw [fixedSteps, hp.ng, extLoop_eq P _ EXT E' p.ng 0 fun g _ hg => hE' g (by omega), Option.bind_some]
      exact h2

/-- C161: an outer iteration of an eigenvalue calculation with any stack: after it plane `j` has the flux that the plane alone has with the same estimate of the eigenvalue. -/
theorem C161_given_k (hh : h ≠ 0) (hp : PlaneOf off h p P) (hm : SetupOf off p.nReg j h m M) (k : K) (s S : MocState K) (hs : StateOf off j p s S) :
    StateOf off j p (srcLoop p (mocSweeper p m) (fun g => fission p.rs (calcFissionSource p.ng p.rs k s.flux) g fun _ => 0) p.ng 0 s)
      (srcLoop P (mocSweeper P M) (fun g => fission P.rs (calcFissionSource P.ng P.rs k S.flux) g fun _ => 0) p.ng 0 S) := by
  refine C161_groups hh hp hm _ _ (fun g _ i hi => ?_) p.ng 0 (by omega) s S hs
  obtain ⟨x, hx, x', hx', hxi, hxi', he⟩ := hp.mat i hi
  rw [fission_at _ hp.part _ g _ x hx i hxi, fission_at _ hp.part' _ g _ x' hx' _ hxi', C47_fission_source _ _ hp.part k _ x hx i hxi, C47_fission_source _ _ hp.part' k _ x' hx' _ hxi', he, hp.ng]
  congr 3
  exact sum_congr rfl fun g hg => congrArg (x.mat.nf g * ·) (hs.1 i hi g (mem_range.mp hg))

/-- C161: the same of what `outer` returns. -/
theorem C161_unlike (hh : h ≠ 0) (hp : PlaneOf off h p P) (hm : SetupOf off p.nReg j h m M) (k k1 K1 : K) (s S s1 S1 : MocState K) (hs : StateOf off j p s S)
    (h1 : outer p (mocSweeper p m) k s = some (k1, s1)) (h2 : outer P (mocSweeper P M) k S = some (K1, S1)) : StateOf off j p s1 S1 := by
  rw [outer, groupLoop_eq, Option.map_some, Option.some.injEq, Prod.mk.injEq] at h1 h2
  rw [← h1.2, ← h2.2, hp.ng]
  have := C161_given_k hh hp hm k s S hs
  rw [hp.ng] at this
  exact this

/-- A stack of `n` planes like the one of `p`, with heights `H j` times its height. -/
structure StackOf (n : Nat) (H : Nat → K) (p P : Problem K) : Prop where
  nReg : P.nReg = n * p.nReg
  cover : ∀ i, i < p.nReg ↔ ∃ x ∈ p.rs, i ∈ x.regs
  cover' : ∀ i, i < P.nReg ↔ ∃ x ∈ P.rs, i ∈ x.regs
  pos : ∀ j < n, 0 < H j
  plane : ∀ j < n, PlaneOf (j * p.nReg) (H j) p P

theorem sum_stack (n N : Nat) (H F G : Nat → K) (h : ∀ j < n, ∀ i < N, F (j * N + i) = H j * G i) : ∑ i ∈ range (n * N), F i = (∑ j ∈ range n, H j) * ∑ i ∈ range N, G i := by
  induction n with
  | zero => simp
  | succ n ih =>
    rw [Nat.succ_mul, sum_range_add, ih fun j hj => h j (by omega), sum_congr rfl fun i hi => h n (by omega) i (mem_range.mp hi), ← mul_sum, sum_range_succ, add_mul]

/-- C161: production of the stack. -/
theorem C161_production {n : Nat} {H : Nat → K} (hp : StackOf n H p P) (hn : 0 < n) (φ Φ : Nat → Nat → K) (h : ∀ j < n, ∀ i < p.nReg, ∀ g < p.ng, Φ (j * p.nReg + i) g = φ i g) :
    totalFission P.ng P.rs P.vol Φ = (∑ j ∈ range n, H j) * totalFission p.ng p.rs p.vol φ := by
  rw [production_regions p (hp.plane 0 hn).part hp.cover, production_regions P (hp.plane 0 hn).part' hp.cover', hp.nReg]
  refine sum_stack n p.nReg H _ _ fun j hj i hi => ?_
  have q := hp.plane j hj
  obtain ⟨x, hx, x', hx', hxi, hxi', he⟩ := q.mat i hi
  rw [only_one p.rs q.part.2 i (fun x => p.vol i * ∑ g ∈ range p.ng, x.mat.nf g * φ i g) x hx hxi,
    only_one P.rs q.part'.2 (j * p.nReg + i) (fun x => P.vol (j * p.nReg + i) * ∑ g ∈ range P.ng, x.mat.nf g * Φ (j * p.nReg + i) g) x' hx' hxi', q.vol i hi, he, q.ng, mul_assoc]
  congr 2
  exact sum_congr rfl fun g hg => by rw [h j hj i hi g (mem_range.mp hg)]

/-- C161: an outer iteration of an eigenvalue calculation. -/
theorem C161_outer {n : Nat} {H : Nat → K} (hp : StackOf n H p P) (hn : 0 < n) (hm : ∀ j < n, SetupOf (j * p.nReg) p.nReg j (H j) m M) (k : K) (s S : MocState K) (hs : ∀ j < n, StateOf (j * p.nReg) j p s S) :
    ∃ k1 s1 S1, outer p (mocSweeper p m) k s = some (k1, s1) ∧ outer P (mocSweeper P M) k S = some (k1, S1) ∧ ∀ j < n, StateOf (j * p.nReg) j p s1 S1 := by
  have hng : P.ng = p.ng := (hp.plane 0 hn).ng
  have r : ∀ j < n, _ := fun j hj => C161_given_k (hp.pos j hj).ne' (hp.plane j hj) (hm j hj) k s S (hs j hj)
  refine ⟨k * totalFission p.ng p.rs p.vol (srcLoop p (mocSweeper p m) (fun g => fission p.rs (calcFissionSource p.ng p.rs k s.flux) g fun _ => 0) p.ng 0 s).flux /
    totalFission p.ng p.rs p.vol s.flux, _, _, by rw [outer, groupLoop_eq, Option.map_some]; rfl, ?_, r⟩
  rw [outer, groupLoop_eq, Option.map_some, Option.some.injEq, Prod.mk.injEq]
  have e : srcLoop P (mocSweeper P M) (fun g => fission P.rs (calcFissionSource P.ng P.rs k ((mocSweeper P M).flux S)) g fun _ => 0) P.ng 0 S =
      srcLoop P (mocSweeper P M) (fun g => fission P.rs (calcFissionSource P.ng P.rs k S.flux) g fun _ => 0) p.ng 0 S := by rw [hng]; rfl
  rw [e]
  refine ⟨?_, rfl⟩
  show k * totalFission _ _ _ (srcLoop P (mocSweeper P M) _ _ _ _).flux / totalFission _ _ _ S.flux = _
  rw [C161_production hp hn _ _ fun j hj => (r j hj).1, C161_production hp hn _ _ fun j hj => (hs j hj).1, mul_left_comm]
  exact mul_div_mul_left _ _ (sum_pos (fun j hj => hp.pos j (mem_range.mp hj)) ⟨0, mem_range.mpr hn⟩).ne'

/-- C161: any number of outer iterations: a stack of planes that are alike except for their heights has the eigenvalues of one of them, and in each plane its flux. -/
theorem C161_outers {n : Nat} {H : Nat → K} (hp : StackOf n H p P) (hn : 0 < n) (hm : ∀ j < n, SetupOf (j * p.nReg) p.nReg j (H j) m M) (c : Nat) (k : K) (s S : MocState K)
    (hs : ∀ j < n, StateOf (j * p.nReg) j p s S) :
    ∃ k1 s1 S1, outers p (mocSweeper p m) c k s = some (k1, s1) ∧ outers P (mocSweeper P M) c k S = some (k1, S1) ∧ ∀ j < n, StateOf (j * p.nReg) j p s1 S1 := by
  induction c generalizing k s S with
  | zero => exact ⟨k, s, S, rfl, rfl, hs⟩
  | succ c ih =>
    obtain ⟨k1, s1, s1', h1, h2, h3⟩ := C161_outer hp hn hm k s S hs
    obtain ⟨k2, s2, s2', h4, h5, h6⟩ := ih k1 s1 s1' h3
    exact ⟨k2, s2, s2', by rw [outers, h1]; exact h4, by rw [outers, h2]; exact h5, h6⟩

/-- The sweeper of a stack: plane `j` has its regions from `j * N` on. -/
def stacked (n N : Nat) (H : Nat → K) (m : MocSetup K) (p : Moc.PlaneWork K) : MocSetup K := { m with planes := (List.range n).map fun j => raised (j * N) (H j) p }

/-- The sweepers of `C161_outers` exist for every plane and every number of planes. -/
theorem C161_stacked (n N : Nat) (H : Nat → K) (m : MocSetup K) (p : Moc.PlaneWork K) (hm : m.planes = [p]) (hp : SegsIn N p) (j : Nat) (hj : j < n) : SetupOf (j * N) N j (H j) m (stacked n N H m p) where
  expo := rfl
  fpi := rfl
  gs := rfl
  u := rfl
  inner := rfl
  plane := ⟨p, hm, hp, by rw [stacked, List.getElem?_map, List.getElem?_range hj]; rfl⟩
  other := by
    intro j' Q hne hQ i hi w hw r hr s hs e
    rw [stacked, List.getElem?_map] at hQ
    obtain ⟨a, ha, rfl⟩ := Option.map_eq_some_iff.mp hQ
    obtain ⟨hl, rfl⟩ := List.getElem?_eq_some_iff.mp ha
    obtain ⟨w, hw', rfl⟩ := List.mem_map.mp hw
    rw [List.getElem_range] at *
    have h1 := hp w hw' r hr s hs
    have e : s.reg + (j' * N + p.first) = j * N + i := e
    have e2 : (j' * N + (s.reg + p.first)) / N = j' := by
      rw [mul_comm, Nat.mul_add_div (by omega), Nat.div_eq_of_lt h1]; rfl
    have e3 : (j * N + i) / N = j := by
      rw [mul_comm, Nat.mul_add_div (by omega), Nat.div_eq_of_lt hi]; rfl
    rw [show j' * N + (s.reg + p.first) = j * N + i by omega, e3] at e2
    exact hne e2.symm

end

end Verif.Medium

namespace Verif.Medium

open Finset Verif.XS Verif.Source Verif.BC Verif.Quad

/-! ### Three planes with heights 1, 2 and 3 -/

def heights (j : Nat) : ℚ := j + 1

def sinkMat : Mat ℚ := ⟨fun g => if g = 0 then 2 else 3, fun _ => 0, fun _ => 0, fun _ => 0, fun g h => if g = h then 1 else if g = 1 ∧ h = 0 then 1 else 0⟩

def towerProblem : Problem ℚ := ⟨2, 6, [⟨slowMat, [0, 2, 4]⟩, ⟨sinkMat, [1, 3, 5]⟩], fun i => heights (i / 2) * pairWidth (i % 2)⟩

def towerState : MocState ℚ := ⟨fun _ _ => 1, fun _ => 5, fun _ => [fun _ _ => 1, fun _ _ => 1, fun _ _ => 1], [fun _ _ => 7, fun _ _ => 7, fun _ _ => 7]⟩

theorem tower_stack : StackOf 3 heights pairProblem towerProblem where
  nReg := rfl
  cover := pair_swap.cover
  cover' := by
    intro i
    simp only [towerProblem, List.mem_cons, List.not_mem_nil, or_false, exists_eq_or_imp, exists_eq_left]
    omega
  pos := fun j _ => by
    show (0 : ℚ) < j + 1
    positivity
  plane := fun j hj =>
    { ng := rfl
      part := pair_swap.part
      part' := by
        constructor
        · intro x hx
          simp only [towerProblem, List.mem_cons, List.not_mem_nil, or_false] at hx
          rcases hx with rfl | rfl <;> decide
        · simp only [towerProblem, List.pairwise_cons, List.mem_cons, List.not_mem_nil, or_false, forall_eq, List.Pairwise.nil, and_true, false_implies, implies_true]
          omega
      nonneg := pair_swap.nonneg
      mat := by
        intro i hi
        have hi : i < 2 := hi
        interval_cases i
        · exact ⟨_, List.mem_cons_self, _, List.mem_cons_self, by simp, by interval_cases j <;> simp [pairProblem], rfl⟩
        · exact ⟨_, List.mem_cons_of_mem _ List.mem_cons_self, _, List.mem_cons_of_mem _ List.mem_cons_self, by simp, by interval_cases j <;> simp [pairProblem], rfl⟩
      vol := by
        intro i hi
        have hi : i < 2 := hi
        show heights ((j * 2 + i) / 2) * pairWidth ((j * 2 + i) % 2) = heights j * pairWidth i
        rw [show (j * 2 + i) / 2 = j by omega, show (j * 2 + i) % 2 = i by omega] }

theorem along_segs : SegsIn 2 alongPlane := by
  unfold SegsIn
  decide +kernel

theorem tower_state (j : Nat) (hj : j < 3) : StateOf (j * pairProblem.nReg) j pairProblem brightState towerState :=
  ⟨fun _ _ _ _ => rfl, fun _ _ => ⟨_, rfl, by interval_cases j <;> rfl⟩, _, rfl, by interval_cases j <;> rfl⟩

/-- The hypotheses of `C161_outers` hold, for both ways of updating and all conditions on the sides. -/
example (t : Surface → Boundary) (gs : Bool) (c : Nat) (k : ℚ) :
    ∃ k1 s1 S1, outers pairProblem (mocSweeper pairProblem (alongMoc t gs alongPlane 3)) c k brightState = some (k1, s1) ∧
      outers towerProblem (mocSweeper towerProblem (stacked 3 2 heights (alongMoc t gs alongPlane 3) alongPlane)) c k towerState = some (k1, S1) ∧
      ∀ j < 3, StateOf (j * pairProblem.nReg) j pairProblem s1 S1 :=
  C161_outers tower_stack (by decide) (fun j hj => C161_stacked 3 2 heights _ alongPlane rfl along_segs j hj) c k _ _ tower_state

/-- One outer iteration, in numbers. -/
example : ((outers towerProblem (mocSweeper towerProblem (stacked 3 2 heights (alongMoc pairStore.types true alongPlane 1) alongPlane)) 1 1 towerState).map fun r => (r.1, [r.2.flux 2 0, r.2.flux 5 1])) =
    ((outers pairProblem (mocSweeper pairProblem (alongMoc pairStore.types true alongPlane 1)) 1 1 brightState).map fun r => (r.1, [r.2.flux 0 0, r.2.flux 1 1])) ∧
    ((outers pairProblem (mocSweeper pairProblem (alongMoc pairStore.types true alongPlane 1)) 1 1 brightState).map fun r => decide (r.1 = 1 ∨ r.2.flux 0 0 = r.2.flux 1 1)) = some false := by
  decide +kernel

/-! ### A plane on top of another one, with other material, rays and source -/

def mixedProblem : Problem ℚ := ⟨2, 4, [⟨slowMat, [2]⟩, ⟨sinkMat, [0, 1, 3]⟩], fun i => if i < 2 then 1 else 3 * pairWidth (i - 2)⟩

def mixedMoc (t : Surface → Boundary) (gs : Bool) : MocSetup ℚ := { alongMoc t gs alongPlane 2 with planes := [alongPlane', raised 2 3 alongPlane] }

theorem mixed_plane : PlaneOf 2 (3 : ℚ) pairProblem mixedProblem where
  ng := rfl
  part := pair_swap.part
  part' := by
    constructor
    · intro x hx
      simp only [mixedProblem, List.mem_cons, List.not_mem_nil, or_false] at hx
      rcases hx with rfl | rfl <;> decide
    · simp only [mixedProblem, List.pairwise_cons, List.mem_cons, List.not_mem_nil, or_false, forall_eq, List.Pairwise.nil, and_true, false_implies, implies_true]
      omega
  nonneg := pair_swap.nonneg
  mat := by
    intro i hi
    have hi : i < 2 := hi
    interval_cases i
    · exact ⟨_, List.mem_cons_self, _, List.mem_cons_self, by simp, by simp, rfl⟩
    · exact ⟨_, List.mem_cons_of_mem _ List.mem_cons_self, _, List.mem_cons_of_mem _ List.mem_cons_self, by simp, by simp, rfl⟩
  vol := by
    intro i hi
    show (if 2 + i < 2 then 1 else 3 * pairWidth (2 + i - 2)) = 3 * pairWidth i
    rw [if_neg (by omega), show 2 + i - 2 = i by omega]

theorem mixed_setup (t : Surface → Boundary) (gs : Bool) : SetupOf 2 2 1 3 (alongMoc t gs alongPlane 2) (mixedMoc t gs) where
  expo := rfl
  fpi := rfl
  gs := rfl
  u := rfl
  inner := rfl
  plane := ⟨_, rfl, along_segs, rfl⟩
  other := by
    intro j' P hne hP i hi
    match j', hP with
    | 0, hP =>
      obtain rfl : alongPlane' = P := Option.some.inj hP
      have h : SegsIn 2 alongPlane' := by
        unfold SegsIn
        decide +kernel
      intro w hw r hr s hs e
      have := h w hw r hr s hs
      omega
    | 1, _ => exact absurd rfl hne
    | j + 2, hP => exact absurd hP (by simp [mixedMoc])

/-- The hypotheses of `C161_fixed` hold. -/
example (t : Surface → Boundary) (gs : Bool) (c : Nat) :
    ∃ s1 S1, fixedSteps pairProblem (mocSweeper pairProblem (alongMoc t gs alongPlane 2)) (some ⟨2, 2, fun i g => if g = 0 ∧ i = 0 then 5 else 0⟩) c brightState = some s1 ∧
      fixedSteps mixedProblem (mocSweeper mixedProblem (mixedMoc t gs)) (some ⟨4, 2, fun i g => if g = 0 ∧ i = 2 then 5 else if i < 2 then 9 else 0⟩) c
        ⟨fun i _ => if i < 2 then 4 else 1, fun _ => 0, fun _ => [fun _ _ => 8, fun _ _ => 1], [fun _ _ => 0, fun _ _ => 7]⟩ = some S1 ∧
      StateOf 2 1 pairProblem s1 S1 := by
  refine C161_fixed (by decide) mixed_plane (mixed_setup t gs) _ _
    (fun g => (initializeGroup 2 (some (⟨2, 2, fun i g => if g = 0 ∧ i = 0 then 5 else 0⟩ : Ext ℚ)) g).getD fun _ => 0)
    (fun g => (initializeGroup 4 (some (⟨4, 2, fun i g => if g = 0 ∧ i = 2 then 5 else if i < 2 then 9 else 0⟩ : Ext ℚ)) g).getD fun _ => 0) ?_ ?_ (by decide +kernel) c _ _ ?_
  · intro g hg
    have hg : g < 2 := hg
    interval_cases g <;> rfl
  · intro g hg
    have hg : g < 2 := hg
    interval_cases g <;> rfl
  · exact ⟨fun i _ g _ => if_neg (by omega), fun _ _ => ⟨_, rfl, rfl⟩, _, rfl, rfl⟩

end Verif.Medium
