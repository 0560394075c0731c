import Verif.Medium.FixedModel
import Verif.Medium.LinearProps
import Verif.Medium.PositiveProps
import Mathlib.Tactic.Linarith
import Mathlib.Tactic.Positivity
import Mathlib.Tactic.Ring

/-!
# C112: order and bounds in the iterations
-/

set_option linter.unusedSectionVars false

namespace Verif.Medium

open Verif.XS Verif.Source

section
variable {K : Type} [Field K] [LinearOrder K] [IsStrictOrderedRing K]

/-! ### Steps as functions -/

/-- The groups in order with in-scattering added to given sources by group. -/
def srcLoop {σ : Type} (p : Problem K) (w : Sweeper K σ) (base : Nat → Nat → K) : Nat → Nat → σ → σ
  | 0, _, s => s
  | n + 1, g, s => srcLoop p w base n (g + 1) (w.sweep g (inScatter p.ng p.rs (w.flux s) g (base g)) s)

theorem groupLoop_eq {σ : Type} (p : Problem K) (w : Sweeper K σ) (fs : Nat → K) (n g : Nat) (s : σ) :
    groupLoop p w fs n g s = some (srcLoop p w (fun g => fission p.rs fs g fun _ => 0) n g s) := by
  induction n generalizing g s with
  | zero => rfl
  | succ n ih => exact ih (g + 1) _

theorem extLoop_eq {σ : Type} (p : Problem K) (w : Sweeper K σ) (ext : Option (Ext K)) (S : Nat → Nat → K) (n g : Nat)
    (h : ∀ h, g ≤ h → h < g + n → initializeGroup p.nReg ext h = some (S h)) (s : σ) : extLoop p w ext n g s = some (srcLoop p w S n g s) := by
  induction n generalizing g s with
  | zero => rfl
  | succ n ih =>
    rw [extLoop, h g (le_refl _) (by omega)]
    exact ih (g + 1) (fun h' h1 h2 => h h' (by omega) (by omega)) _

theorem srcLoop_lin (α β : K) (p : Problem K) (m : MocSetup K) (hu : Combines α β m.u m.u m.u) (base base' : Nat → Nat → K) (n g : Nat) (s s' : MocState K)
    (hs : PlanesAt m s) (hs' : PlanesAt m s') :
    srcLoop p (mocSweeper p m) (fun g => α • base g + β • base' g) n g (mocLin α β s s') =
      mocLin α β (srcLoop p (mocSweeper p m) base n g s) (srcLoop p (mocSweeper p m) base' n g s') ∧
    PlanesAt m (srcLoop p (mocSweeper p m) base n g s) ∧ PlanesAt m (srcLoop p (mocSweeper p m) base' n g s') := by
  induction n generalizing g s s' with
  | zero => exact ⟨rfl, hs, hs'⟩
  | succ n ih =>
    obtain ⟨h4, h5, h6⟩ := C111_sweep α β p m m.u m.u m.u hu g (inScatter p.ng p.rs s.flux g (base g)) (inScatter p.ng p.rs s'.flux g (base' g)) s s' hs hs'
    obtain ⟨i1, i2, i3⟩ := ih (g + 1) _ _ h5 h6
    refine ⟨?_, i2, i3⟩
    simp only [srcLoop]
    rw [show (mocSweeper p m).flux (mocLin α β s s') = α • s.flux + β • s'.flux from rfl, inScatter_lin]
    exact (congrArg (srcLoop p (mocSweeper p m) (fun g => α • base g + β • base' g) n (g + 1)) h4).trans i1

/-! ### A sweep stays below what keeps itself up -/

/-- Boundary values are at most `c` in the first `n a` slots of the angles `a < nAng`. -/
def LeOn (nAng : Nat) (n : Nat → Nat) (c : K) (b : Nat → Nat → K) : Prop := ∀ a < nAng, ∀ j < n a, b a j ≤ c

/-- The boundary update makes nothing larger than a constant of that constant. -/
structure UpdateBelow (nAng : Nat) (n : Nat → Nat) (u : Moc.BcUpdate K) : Prop where
  one : ∀ c, 0 ≤ c → ∀ a < nAng, LeOn nAng n c (u.one a (fun _ _ => c) fun _ _ => c)
  all : ∀ c, 0 ≤ c → LeOn nAng n c (u.all (fun _ _ => c) fun _ _ => c)

/-- The update that makes up for what `u` takes away from a constant. -/
def lift (c : K) (u : Moc.BcUpdate K) : Moc.BcUpdate K :=
  ⟨fun a b o => u.one a b o + ((fun _ _ => c) - u.one a (fun _ _ => c) fun _ _ => c), fun b o => u.all b o + ((fun _ _ => c) - u.all (fun _ _ => c) fun _ _ => c)⟩

theorem lift_combines (c : K) (u : Moc.BcUpdate K) (h : Combines 1 (-1) u u u) : Combines 1 (-1) (lift c u) u (lift c u) := by
  constructor
  · intro a b b' o o'
    simp only [lift, h.one]
    simp only [one_smul, neg_smul]
    abel
  · intro b b' o o'
    simp only [lift, h.all]
    simp only [one_smul, neg_smul]
    abel

theorem lift_flat (c : K) (u : Moc.BcUpdate K) : Moc.KeepsFlat c (lift c u) := by
  have e : ∀ b : Nat → Nat → K, Moc.Flat c b → b = fun _ _ => c := fun b h => funext fun a => funext fun j => h a j
  constructor
  · intro a b o hb ho x j
    rw [e b hb, e o ho]
    simp [lift]
  · intro b o hb ho x j
    rw [e b hb, e o ho]
    simp [lift]

theorem lift_pos (c : K) (hc : 0 ≤ c) (nAng : Nat) (n : Nat → Nat) (u : Moc.BcUpdate K) (hu : UpdatePos nAng n u) (hb : UpdateBelow nAng n u) :
    UpdatePos nAng n (lift c u) := by
  constructor
  · intro a ha b o h1 h2 x hx j hj
    have := hu.one a ha b o h1 h2 x hx j hj
    have h3 := hb.one c hc a ha x hx j hj
    simp only [lift, Pi.add_apply, Pi.sub_apply]
    linarith
  · intro b o h1 h2 x hx j hj
    have := hu.all b o h1 h2 x hx j hj
    have h3 := hb.all c hc x hx j hj
    simp only [lift, Pi.add_apply, Pi.sub_apply]
    linarith

theorem mem_listLin (α β : K) (l l' : List (Nat → Nat → K)) (b : Nat → Nat → K) (hb : b ∈ listLin α β l l') : ∃ x ∈ l, ∃ y ∈ l', b = α • x + β • y := by
  unfold listLin at hb
  rw [List.mem_iff_getElem] at hb
  obtain ⟨i, hi, rfl⟩ := hb
  rw [List.length_zipWith] at hi
  exact ⟨l[i], List.getElem_mem _, l'[i], List.getElem_mem _, by simp⟩

theorem listLin_mem (α β : K) (l l' : List (Nat → Nat → K)) (hl : l.length = l'.length) (y : Nat → Nat → K) (hy : y ∈ l') : ∃ x ∈ l, α • x + β • y ∈ listLin α β l l' := by
  rw [List.mem_iff_getElem] at hy
  obtain ⟨i, hi, rfl⟩ := hy
  refine ⟨l[i], List.getElem_mem _, ?_⟩
  rw [List.mem_iff_getElem]
  exact ⟨i, by simp only [listLin, List.length_zipWith]; omega, by simp [listLin]⟩

theorem zip_planes {A B C : Type} (ps : List A) (b : List B) (o : List C) (hb : b.length = ps.length) (ho : o.length = ps.length) :
    (ps.zip (b.zip o)).map Prod.fst = ps ∧ (ps.zip (b.zip o)).length = ps.length :=
  ⟨List.map_fst_zip (by rw [List.length_zip, hb, ho]; simp), by rw [List.length_zip, List.length_zip, hb, ho]; simp⟩

theorem sweep_below (expo : K → K) (hexp : Moc.ExpOk expo) (fpi : K) (xstr vol q : Nat → K) (gs : Bool) (nReg nAng : Nat) (n : Nat → Nat) (u : Moc.BcUpdate K)
    (hlin : Combines 1 (-1) u u u) (hu : UpdatePos nAng n u) (hbel : UpdateBelow nAng n u) (hx : ∀ i < nReg, 0 < xstr i) (hv : ∀ i < nReg, 0 < vol i)
    (c : K) (hc : 0 ≤ c) (hq : ∀ i < nReg, q i ≤ c) (ps : List (Moc.PlaneWork K)) (b o : List (Nat → Nat → K)) (hb : b.length = ps.length)
    (ho : o.length = ps.length) (hp : ∀ p ∈ ps, PlaneOk nReg nAng n p ∧ RaysPos p) (hbin : ∀ x ∈ b, LeOn nAng n c x)
    (hvol : ∀ i < nReg, (ps.map (Moc.planeVolume i)).sum ≤ fpi * vol i) :
    (∀ i < nReg, (Moc.sweep1g expo fpi xstr vol q gs u (ps.zip (b.zip o))).1 i ≤ fpi * c) ∧
    ∀ x ∈ (Moc.sweep1g expo fpi xstr vol q gs u (ps.zip (b.zip o))).2, LeOn nAng n c x.1 := by
  have hz : (fun _ => 0 : Nat → K) = (1 : K) • (fun _ => 0 : Nat → K) + (-1 : K) • (fun _ => 0) := by
    funext i
    simp
  have hb1 : (b.map fun _ => (fun _ _ => c : Nat → Nat → K)).length = ps.length := by simp [hb]
  have ho1 : (o.map fun _ => (fun _ _ => c : Nat → Nat → K)).length = ps.length := by simp [ho]
  have hl := planes_lin 1 (-1) expo xstr (fun _ => c) q gs (lift c u) u (lift c u) (lift_combines c u hlin) ps
    (b.map fun _ => (fun _ _ => c)) b (o.map fun _ => (fun _ _ => c)) o hb1 hb ho1 ho (fun _ => 0) (fun _ => 0)
  rw [← hz] at hl
  dsimp only at hl
  have hb3 : (listLin 1 (-1) (b.map fun _ => (fun _ _ => c : Nat → Nat → K)) b).length = ps.length := by simp [listLin, hb]
  have ho3 : (listLin 1 (-1) (o.map fun _ => (fun _ _ => c : Nat → Nat → K)) o).length = ps.length := by simp [listLin, ho]
  obtain ⟨e1, e2⟩ := Moc.C31_equilibrium expo fpi xstr vol (fun _ => c) gs (lift c u) c (lift_flat c u)
    (ps.zip ((b.map fun _ => (fun _ _ => c)).zip (o.map fun _ => (fun _ _ => c)))) (fun _ => rfl) (fun w hw => by
      have h2 := (List.of_mem_zip (a := w.1) (b := w.2) hw).2
      obtain ⟨h3, h4⟩ := List.of_mem_zip (a := w.2.1) (b := w.2.2) h2
      obtain ⟨y, -, h3⟩ := List.mem_map.mp h3
      obtain ⟨z, -, h4⟩ := List.mem_map.mp h4
      rw [← h3, ← h4]
      exact ⟨fun _ _ => rfl, fun _ _ => rfl⟩)
  obtain ⟨r1, r2, r3⟩ := sweep_pos expo hexp fpi xstr vol ((1 : K) • (fun _ => c : Nat → K) + (-1 : K) • q) gs nReg nAng n (lift c u)
    (lift_pos c hc nAng n u hu hbel) hx hv (fun i hi => by
      have := hq i hi
      simp only [Pi.add_apply, Pi.smul_apply, smul_eq_mul]
      linarith)
    (ps.zip ((listLin 1 (-1) (b.map fun _ => (fun _ _ => c)) b).zip (listLin 1 (-1) (o.map fun _ => (fun _ _ => c)) o))) (fun w hw => by
      obtain ⟨h1, h2⟩ := List.of_mem_zip (a := w.1) (b := w.2) hw
      have h3 := (List.of_mem_zip (a := w.2.1) (b := w.2.2) h2).1
      refine ⟨(hp _ h1).1, (hp _ h1).2, ?_⟩
      obtain ⟨x, hx, y, hy, e⟩ := mem_listLin 1 (-1) _ _ _ h3
      obtain ⟨-, -, rfl⟩ := List.mem_map.mp hx
      rw [e]
      intro a ha j hj
      have := hbin y hy a ha j hj
      simp only [Pi.add_apply, Pi.smul_apply, smul_eq_mul]
      linarith) (fun i hi => by
      have : ∀ l : List (Moc.PlaneWork K × (Nat → Nat → K) × (Nat → Nat → K)), l.map (fun p => Moc.planeVolume i p.1) = (l.map Prod.fst).map (Moc.planeVolume i) := by
        intro l; rw [List.map_map]; rfl
      rw [this, (zip_planes ps _ _ hb3 ho3).1]
      exact hvol i hi)
  constructor
  · intro i hi
    have h1 := r1 i hi
    have h2 : (Moc.sweep1g expo fpi xstr vol ((1 : K) • (fun _ => c : Nat → K) + (-1 : K) • q) gs (lift c u)
      (ps.zip ((listLin 1 (-1) (b.map fun _ => (fun _ _ => c)) b).zip (listLin 1 (-1) (o.map fun _ => (fun _ _ => c)) o)))).1 =
      (1 : K) • (Moc.sweep1g expo fpi xstr vol (fun _ => c) gs (lift c u) (ps.zip ((b.map fun _ => (fun _ _ => c)).zip (o.map fun _ => (fun _ _ => c))))).1 +
      (-1 : K) • (Moc.sweep1g expo fpi xstr vol q gs u (ps.zip (b.zip o))).1 := by
      simp only [Moc.sweep1g]
      rw [hl.1, finish_lin]
    rw [h2] at h1
    simp only [Pi.add_apply, Pi.smul_apply, smul_eq_mul] at h1
    rw [e1 i] at h1
    linarith
  · intro x hxm a ha j hj
    have hm : x.1 ∈ (Moc.sweepPlanes expo xstr q gs u (ps.zip (b.zip o)) fun _ => 0).2.map Prod.fst := List.mem_map.mpr ⟨x, hxm, rfl⟩
    obtain ⟨y, hy, hxy⟩ := listLin_mem 1 (-1)
      ((Moc.sweepPlanes expo xstr (fun _ => c) gs (lift c u) (ps.zip ((b.map fun _ => (fun _ _ => c)).zip (o.map fun _ => (fun _ _ => c)))) fun _ => 0).2.map Prod.fst)
      _ (by rw [List.length_map, List.length_map, planes_len, planes_len, (zip_planes ps _ _ hb ho).2, (zip_planes ps _ _ hb1 ho1).2]) x.1 hm
    rw [← hl.2.1] at hxy
    obtain ⟨z, hz1, hz2⟩ := List.mem_map.mp hxy
    have h3 := r3 z hz1 a ha j hj
    rw [hz2] at h3
    obtain ⟨w, hw1, hw2⟩ := List.mem_map.mp hy
    have h4 := (e2 w hw1).1 a j
    rw [hw2] at h4
    simp only [Pi.add_apply, Pi.smul_apply, smul_eq_mul] at h3
    rw [h4] at h3
    linarith

/-! ### What leaves is attenuated -/

/-- Part of the incoming angular flux that is left at the end of a ray. -/
def attenuation (e : Moc.Seg K → K) (l : List (Moc.Seg K)) : K := (l.map fun s => 1 - e s).prod

theorem walk_att (e : Moc.Seg K → K) (q : Nat → K) (wt : K) (first : Nat) (c : K) (l : List (Moc.Seg K)) (h0 : ∀ s ∈ l, 0 ≤ e s) (h1 : ∀ s ∈ l, e s ≤ 1)
    (hq : ∀ s ∈ l, q (s.reg + first) ≤ c) (psi d : K) (hpsi : psi ≤ c + d) (t : Nat → K) : (Moc.walk e q wt first l psi t).1 ≤ c + d * attenuation e l := by
  induction l generalizing psi d t with
  | nil => simpa [Moc.walk, attenuation] using hpsi
  | cons s l ih =>
    simp only [Moc.walk]
    refine (ih (fun s hs => h0 s (by simp [hs])) (fun s hs => h1 s (by simp [hs])) (fun s hs => hq s (by simp [hs])) _ (d * (1 - e s)) ?_ _).trans_eq ?_
    · have a0 := h0 s (by simp)
      have a1 := h1 s (by simp)
      have a2 := hq s (by simp)
      have b1 : (psi - c - d) * (1 - e s) ≤ 0 := mul_nonpos_of_nonpos_of_nonneg (by linarith) (by linarith)
      have b2 : (q (s.reg + first) - c) * e s ≤ 0 := mul_nonpos_of_nonpos_of_nonneg (by linarith) a0
      linarith
    · simp only [attenuation, List.map_cons, List.prod_cons]
      ring

/-- Every ray leaves at most the part `η` of what comes in. -/
def Attenuates (η : K) (expo : K → K) (xstr : Nat → K) (p : Moc.PlaneWork K) : Prop :=
  ∀ w ∈ p.angles, ∀ r ∈ w.rays, (r.segs.map fun s => expo (-xstr (s.reg + p.first) * s.len * w.rst)).prod ≤ η

/-- No incoming value stays: every one is made of outgoing values of one angle, in the update of that angle and in that of all angles. -/
structure Drains (nAng : Nat) (n : Nat → Nat) (u : Moc.BcUpdate K) : Prop where
  keep : ∀ c, 0 ≤ c → ∀ a < nAng, ∀ b o, (∀ j < n a, o a j ≤ c) → ∀ a' < nAng, ∀ j < n a', b a' j ≤ c → u.one a b o a' j ≤ c
  one : ∀ a' < nAng, ∀ j < n a', ∃ a < nAng, ∀ c, 0 ≤ c → ∀ b o, (∀ j < n a, o a j ≤ c) → u.one a b o a' j ≤ c
  all : ∀ c, 0 ≤ c → ∀ b o, LeOn nAng n c o → LeOn nAng n c (u.all b o)

theorem Drains.below (nAng : Nat) (n : Nat → Nat) (u : Moc.BcUpdate K) (h : Drains nAng n u) : UpdateBelow nAng n u :=
  ⟨fun c hc a ha a' ha' j hj => h.keep c hc a ha _ _ (fun _ _ => le_refl _) a' ha' j hj (le_refl _), fun c hc => h.all c hc _ _ fun _ _ _ _ => le_refl _⟩

theorem rays_att (expo : K → K) (hexp : Moc.ExpOk expo) (nReg : Nat) (xstr q : Nat → K) (hx : ∀ i < nReg, 0 ≤ xstr i) (c d η : K) (hd : 0 ≤ d)
    (hq : ∀ i < nReg, q i ≤ c) (rst wt : K) (hrst : 0 ≤ rst) (first : Nat) (l : List (Moc.Ray K)) (hreg : ∀ r ∈ l, ∀ s ∈ r.segs, s.reg + first < nReg)
    (hlen : ∀ r ∈ l, ∀ s ∈ r.segs, 0 ≤ s.len) (hη : ∀ r ∈ l, (r.segs.map fun s => expo (-xstr (s.reg + first) * s.len * rst)).prod ≤ η)
    (in1 in2 : Nat → K) (h1 : ∀ r ∈ l, in1 r.bc0 ≤ c + d) (h2 : ∀ r ∈ l, in2 r.bc1 ≤ c + d) (a : Moc.Acc K) :
    let r := l.foldl (Moc.sweepRay (Moc.eTau expo xstr rst first) q wt first in1 in2) a
    (∀ j, (a.out1 j ≤ c + d * η ∨ ∃ y ∈ l, y.bc1 = j) → r.out1 j ≤ c + d * η) ∧ (∀ j, (a.out2 j ≤ c + d * η ∨ ∃ y ∈ l, y.bc0 = j) → r.out2 j ≤ c + d * η) := by
  induction l generalizing a with
  | nil =>
    refine ⟨?_, ?_⟩
    · rintro j (h | ⟨y, hy, -⟩)
      · exact h
      · simp at hy
    · rintro j (h | ⟨y, hy, -⟩)
      · exact h
      · simp at hy
  | cons y l ih =>
    rw [List.foldl_cons]
    have hy := hlen y (by simp)
    have hr := hreg y (by simp)
    have neg : ∀ s ∈ y.segs, -xstr (s.reg + first) * s.len * rst ≤ 0 := by
      intro s hs
      have := mul_nonneg (mul_nonneg (hx _ (hr s hs)) (hy s hs)) hrst
      linarith
    have e0 : ∀ s ∈ y.segs, 0 ≤ Moc.eTau expo xstr rst first s := fun s hs => by
      have := hexp.le_one _ (neg s hs); unfold Moc.eTau; linarith
    have e1 : ∀ s ∈ y.segs, Moc.eTau expo xstr rst first s ≤ 1 := fun s hs => by
      have := hexp.nonneg _ (neg s hs); unfold Moc.eTau; linarith
    have ea : attenuation (Moc.eTau expo xstr rst first) y.segs ≤ η := by
      refine le_trans (le_of_eq ?_) (hη y (by simp))
      unfold attenuation Moc.eTau
      congr 2
      funext s
      ring
    have er : attenuation (Moc.eTau expo xstr rst first) y.segs.reverse ≤ η := by
      refine le_trans (le_of_eq ?_) ea
      unfold attenuation
      exact ((List.reverse_perm y.segs).map _).prod_eq
    have f1 := (walk_att (Moc.eTau expo xstr rst first) q wt first c y.segs e0 e1 (fun s hs => hq _ (hr s hs)) (in1 y.bc0) d (h1 y (by simp)) a.tflux).trans
      (add_le_add (le_refl c) (mul_le_mul_of_nonneg_left ea hd))
    have b1 := (walk_att (Moc.eTau expo xstr rst first) q wt first c y.segs.reverse (by simpa using e0) (by simpa using e1)
      (fun s hs => hq _ (hr s (by simpa using hs))) (in2 y.bc1) d (h2 y (by simp))
      (Moc.walk (Moc.eTau expo xstr rst first) q wt first y.segs (in1 y.bc0) a.tflux).2).trans (add_le_add (le_refl c) (mul_le_mul_of_nonneg_left er hd))
    obtain ⟨i1, i2⟩ := ih (fun r hr => hreg r (by simp [hr])) (fun r hr => hlen r (by simp [hr])) (fun r hr => hη r (by simp [hr])) (fun r hr => h1 r (by simp [hr]))
      (fun r hr => h2 r (by simp [hr])) (Moc.sweepRay (Moc.eTau expo xstr rst first) q wt first in1 in2 a y)
    refine ⟨fun j hj => i1 j ?_, fun j hj => i2 j ?_⟩
    · by_cases e : j = y.bc1
      · left; simp only [Moc.sweepRay, Moc.upd, e, if_true]; exact f1
      · rcases hj with h | ⟨z, hz, he⟩
        · left; simp only [Moc.sweepRay, Moc.upd, if_neg e]; exact h
        · rcases List.mem_cons.mp hz with rfl | hz
          · exact absurd he.symm e
          · exact Or.inr ⟨z, hz, he⟩
    · by_cases e : j = y.bc0
      · left; simp only [Moc.sweepRay, Moc.upd, e, if_true]; exact b1
      · rcases hj with h | ⟨z, hz, he⟩
        · left; simp only [Moc.sweepRay, Moc.upd, if_neg e]; exact h
        · rcases List.mem_cons.mp hz with rfl | hz
          · exact absurd he.symm e
          · exact Or.inr ⟨z, hz, he⟩

theorem angles_att (expo : K → K) (hexp : Moc.ExpOk expo) (xstr q : Nat → K) (gs : Bool) (nReg nAng : Nat) (n : Nat → Nat) (u : Moc.BcUpdate K)
    (hu : Drains nAng n u) (hx : ∀ i < nReg, 0 ≤ xstr i) (c d η : K) (hc : 0 ≤ c) (hd : 0 ≤ d) (h0 : 0 ≤ η) (h1 : η ≤ 1) (hq : ∀ i < nReg, q i ≤ c) (first : Nat)
    (ws : List (Moc.AngleWork K))
    (hw : ∀ w ∈ ws, Moc.AngleOk nReg first (n w.iang1) w ∧ w.iang1 < nAng ∧ w.iang2 < nAng ∧ n w.iang2 = n w.iang1)
    (hp : ∀ w ∈ ws, 0 ≤ w.rst ∧ 0 ≤ w.wt ∧ ∀ r ∈ w.rays, ∀ s ∈ r.segs, 0 ≤ s.len)
    (hη : ∀ w ∈ ws, ∀ r ∈ w.rays, (r.segs.map fun s => expo (-xstr (s.reg + first) * s.len * w.rst)).prod ≤ η) (s : Moc.St K)
    (hb : LeOn nAng n (c + d) s.bin) :
    let s' := ws.foldl (Moc.sweepAngle expo xstr q gs u first) s
    (∀ a, ((∀ j < n a, s.bout a j ≤ c + d * η) ∨ ∃ w ∈ ws, a = w.iang1 ∨ a = w.iang2) → ∀ j < n a, s'.bout a j ≤ c + d * η) ∧
    (gs = true → ∀ a' < nAng, ∀ j < n a', (s.bin a' j ≤ c + d * η ∨
      ∃ w ∈ ws, ∃ a, (a = w.iang1 ∨ a = w.iang2) ∧ ∀ c, 0 ≤ c → ∀ b o, (∀ j < n a, o a j ≤ c) → u.one a b o a' j ≤ c) → s'.bin a' j ≤ c + d * η) := by
  have hcη : 0 ≤ c + d * η := add_nonneg hc (mul_nonneg hd h0)
  have hle : c + d * η ≤ c + d := by
    have := mul_le_mul_of_nonneg_left h1 hd
    linarith
  induction ws generalizing s with
  | nil =>
    refine ⟨?_, ?_⟩
    · rintro a (h | ⟨w, hw, -⟩)
      · exact h
      · simp at hw
    · rintro - a' _ j _ (h | ⟨w, hw, -⟩)
      · exact h
      · simp at hw
  | cons w ws ih =>
    rw [List.foldl_cons]
    obtain ⟨ok, l1, l2, ln⟩ := hw w (by simp)
    obtain ⟨w1, w2, w3⟩ := hp w (by simp)
    have m0 : ∀ r ∈ w.rays, r.bc0 < n w.iang1 := fun r hr => by
      have := (ok.ends0.mem_iff (a := r.bc0)).mp (List.mem_map.mpr ⟨r, hr, rfl⟩)
      simpa using this
    have m1 : ∀ r ∈ w.rays, r.bc1 < n w.iang1 := fun r hr => by
      have := (ok.ends1.mem_iff (a := r.bc1)).mp (List.mem_map.mpr ⟨r, hr, rfl⟩)
      simpa using this
    obtain ⟨r2, r3⟩ := rays_att expo hexp nReg xstr q hx c d η hd hq w.rst w.wt w1 first w.rays ok.regs w3 (hη w (by simp))
      (s.bin w.iang1) (s.bin w.iang2) (fun r hr => hb _ l1 _ (m0 r hr)) (fun r hr => hb _ l2 _ (by rw [ln]; exact m1 r hr))
      ⟨s.tflux, s.bout w.iang1, s.bout w.iang2⟩
    have o1 : ∀ j < n w.iang1, (Moc.sweepAngle expo xstr q gs u first s w).bout w.iang1 j ≤ c + d * η := by
      intro j hj
      have := (ok.ends1.mem_iff (a := j)).mpr (by simpa using hj)
      obtain ⟨r, hr, he⟩ := List.mem_map.mp this
      have hne : ¬ w.iang1 = w.iang2 := ok.ne
      simp only [Moc.sweepAngle, Moc.upd, if_neg hne, if_true]
      exact r2 j (Or.inr ⟨r, hr, he⟩)
    have o2 : ∀ j < n w.iang2, (Moc.sweepAngle expo xstr q gs u first s w).bout w.iang2 j ≤ c + d * η := by
      intro j hj
      have := (ok.ends0.mem_iff (a := j)).mpr (by rw [ln] at hj; simpa using hj)
      obtain ⟨r, hr, he⟩ := List.mem_map.mp this
      simp only [Moc.sweepAngle, Moc.upd, if_true]
      exact r3 j (Or.inr ⟨r, hr, he⟩)
    have hgs : gs = true → (Moc.sweepAngle expo xstr q gs u first s w).bin = u.one w.iang2 (u.one w.iang1 s.bin
        (Moc.sweepAngle expo xstr q gs u first s w).bout) (Moc.sweepAngle expo xstr q gs u first s w).bout := by
      rintro rfl; rfl
    have hbi : LeOn nAng n (c + d) (Moc.sweepAngle expo xstr q gs u first s w).bin := by
      cases hg : gs
      · simpa [Moc.sweepAngle] using hb
      · rw [← hg, hgs hg]
        intro a' ha' j hj
        have hcd : 0 ≤ c + d := add_nonneg hc hd
        exact hu.keep _ hcd _ l2 _ _ (fun j hj => (o2 j hj).trans hle) a' ha' j hj (hu.keep _ hcd _ l1 _ _ (fun j hj => (o1 j hj).trans hle) a' ha' j hj (hb a' ha' j hj))
    obtain ⟨i1, i2⟩ := ih (fun x hx => hw x (by simp [hx])) (fun x hx => hp x (by simp [hx])) (fun x hx => hη x (by simp [hx])) _ hbi
    refine ⟨fun a ha => i1 a ?_, fun hg a' ha' j hj h => i2 hg a' ha' j hj ?_⟩
    · by_cases e1 : a = w.iang1
      · subst e1; exact Or.inl o1
      by_cases e2 : a = w.iang2
      · subst e2; exact Or.inl o2
      rcases ha with h | ⟨x, hx, he⟩
      · left
        intro j hj
        simp only [Moc.sweepAngle, Moc.upd, if_neg e1, if_neg e2]
        exact h j hj
      · rcases List.mem_cons.mp hx with rfl | hx
        · exact absurd he (by simp [e1, e2])
        · exact Or.inr ⟨x, hx, he⟩
    · rcases h with h | ⟨x, hx, a, ha, hh⟩
      · left
        rw [hgs hg]
        exact hu.keep _ hcη _ l2 _ _ o2 a' ha' j hj (hu.keep _ hcη _ l1 _ _ o1 a' ha' j hj h)
      · rcases List.mem_cons.mp hx with rfl | hx
        · left
          rw [hgs hg]
          rcases ha with rfl | rfl
          · exact hu.keep _ hcη _ l2 _ _ o2 a' ha' j hj (hh _ hcη _ _ o1)
          · exact hh _ hcη _ _ o2
        · exact Or.inr ⟨x, hx, a, ha, hh⟩

theorem sweep_att (expo : K → K) (hexp : Moc.ExpOk expo) (fpi : K) (xstr vol q : Nat → K) (gs : Bool) (nReg nAng : Nat) (n : Nat → Nat) (u : Moc.BcUpdate K)
    (hu : Drains nAng n u) (hx : ∀ i < nReg, 0 ≤ xstr i) (c d η : K) (hc : 0 ≤ c) (hd : 0 ≤ d) (h0 : 0 ≤ η) (h1 : η ≤ 1) (hq : ∀ i < nReg, q i ≤ c)
    (ps : List (Moc.PlaneWork K × (Nat → Nat → K) × (Nat → Nat → K)))
    (hp : ∀ p ∈ ps, PlaneOk nReg nAng n p.1 ∧ RaysPos p.1 ∧ Attenuates η expo xstr p.1 ∧ LeOn nAng n (c + d) p.2.1) :
    ∀ b ∈ (Moc.sweep1g expo fpi xstr vol q gs u ps).2, LeOn nAng n (c + d * η) b.1 := by
  have key : ∀ (ps : List (Moc.PlaneWork K × (Nat → Nat → K) × (Nat → Nat → K))) (t : Nat → K),
      (∀ p ∈ ps, PlaneOk nReg nAng n p.1 ∧ RaysPos p.1 ∧ Attenuates η expo xstr p.1 ∧ LeOn nAng n (c + d) p.2.1) →
      ∀ b ∈ (Moc.sweepPlanes expo xstr q gs u ps t).2, LeOn nAng n (c + d * η) b.1 := by
    intro ps
    induction ps with
    | nil => intro t _; simp [Moc.sweepPlanes]
    | cons p ps ih =>
      intro t h
      obtain ⟨p, bin, bout⟩ := p
      obtain ⟨ok, hr, ha, hb⟩ := h (p, bin, bout) (by simp)
      obtain ⟨a1, a2⟩ := angles_att expo hexp xstr q gs nReg nAng n u hu hx c d η hc hd h0 h1 hq p.first p.angles ok.angle hr ha ⟨t, bin, bout⟩ hb
      simp only [Moc.sweepPlanes]
      intro b hbm
      rcases List.mem_cons.mp hbm with rfl | hbm
      · simp only [Moc.sweepPlane]
        cases gs
        · exact hu.all _ (add_nonneg hc (mul_nonneg hd h0)) _ _ fun a ha j hj => a1 a (Or.inr (ok.cover a ha)) j hj
        · intro a' ha' j hj
          refine a2 rfl a' ha' j hj (Or.inr ?_)
          obtain ⟨a, ha, hh⟩ := hu.one a' ha' j hj
          obtain ⟨w, hw, he⟩ := ok.cover a ha
          exact ⟨w, hw, a, he, hh⟩
      · exact ih _ (fun x hx => h x (by simp [hx])) b hbm
  exact key ps _ hp

/-! ### Steps -/

/-- A MoC sweeper whose boundary update is linear and makes constants no larger. -/
structure MocBoundOk (p : Problem K) (m : MocSetup K) (nAng : Nat) (n : Nat → Nat) : Prop extends MocPosOk p m nAng n where
  linear : ∀ α β, Combines α β m.u m.u m.u
  below : UpdateBelow nAng n m.u
  inner : 1 ≤ m.nInner

/-- The flux is at most `x` times `φ`, the incoming values at most `y` times `φ` (per unit solid angle); outgoing values may be anything. -/
structure Below (p : Problem K) (m : MocSetup K) (nAng : Nat) (n : Nat → Nat) (φ : Nat → K) (x y : K) (s : MocState K) : Prop where
  flux : ∀ i < p.nReg, ∀ g < p.ng, s.flux i g ≤ x * φ g
  bin : ∀ g < p.ng, ∀ b ∈ s.bin g, LeOn nAng n (y * φ g / m.fpi) b

/-- Either no attenuation is asked for or every ray attenuates to at most the part `η` and no incoming value stays. -/
def Loses (p : Problem K) (m : MocSetup K) (nAng : Nat) (n : Nat → Nat) (η : K) : Prop :=
  η = 1 ∨ (0 ≤ η ∧ η ≤ 1 ∧ Drains nAng n m.u ∧ ∀ g < p.ng, ∀ w ∈ m.planes, Attenuates η m.expo (trOf p.rs g) w)

theorem loses_le (p : Problem K) (m : MocSetup K) (nAng : Nat) (n : Nat → Nat) (η : K) (h : Loses p m nAng n η) : 0 ≤ η ∧ η ≤ 1 := by
  rcases h with h | h
  · rw [h]; exact ⟨zero_le_one, le_refl _⟩
  · exact ⟨h.1, h.2.1⟩

theorem inner_below (p : Problem K) (h : Physical p) (m : MocSetup K) (nAng : Nat) (n : Nat → Nat) (hm : MocBoundOk p m nAng n) (η : K) (hη : Loses p m nAng n η)
    (g : Nat) (hg : g < p.ng) (φ x y κ : K) (hφ : 0 ≤ φ) (h0 : 0 ≤ κ) (hκ : κ ≤ y) (src : Nat → K)
    (hsrc : ∀ z ∈ p.rs, ∀ i ∈ z.regs, src i + x * φ * z.mat.sc g g ≤ κ * (z.mat.tr g * φ)) (s : MocState K) (hs : PlanesAt m s)
    (hf : ∀ i < p.nReg, s.flux i g ≤ x * φ) (hb : ∀ b ∈ s.bin g, LeOn nAng n (y * φ / m.fpi) b) :
    (∀ i < p.nReg, (mocInner p m g src s).flux i g ≤ y * φ) ∧ ∀ b ∈ (mocInner p m g src s).bin g, LeOn nAng n ((κ + (y - κ) * η) * φ / m.fpi) b := by
  have hfpi := hm.fpi
  have hq : ∀ i < p.nReg, selfScatter m.fpi p.ng p.rs s.flux g src true s.q i ≤ κ * φ / m.fpi := by
    intro i hi
    obtain ⟨z, hz, hzi⟩ := (h.cover i).mp hi
    rw [selfScatter_at m.fpi p.ng p.rs h.part s.flux g hg src true s.q z hz i hzi, if_pos rfl]
    have h1 := h.tr z hz g hg
    have h5 := h.sc z hz g g hg hg
    have h6 := mul_le_mul_of_nonneg_right (hf i hi) h5
    have h7 := hsrc z hz i hzi
    rw [mul_one_div, div_le_div_iff₀ (by positivity) hfpi]
    have h8 : src i + s.flux i g * z.mat.sc g g ≤ κ * (z.mat.tr g * φ) := by linarith
    calc (src i + s.flux i g * z.mat.sc g g) * m.fpi ≤ κ * (z.mat.tr g * φ) * m.fpi := mul_le_mul_of_nonneg_right h8 hfpi.le
      _ = κ * φ * (z.mat.tr g * m.fpi) := by ring
  have hx : ∀ i < p.nReg, 0 < trOf p.rs g i := by
    intro i hi
    obtain ⟨x, hx, hxi⟩ := (h.cover i).mp hi
    rw [trOf_at p.rs h.part g x hx i hxi]
    exact h.tr x hx g hg
  have hy : 0 ≤ y := h0.trans hκ
  have hc : 0 ≤ y * φ / m.fpi := by positivity
  have hle : κ * φ / m.fpi ≤ y * φ / m.fpi := div_le_div_of_nonneg_right (mul_le_mul_of_nonneg_right hκ hφ) hfpi.le
  obtain ⟨r1, r2⟩ := sweep_below m.expo hm.expo m.fpi (trOf p.rs g) p.vol (selfScatter m.fpi p.ng p.rs s.flux g src true s.q) m.gs p.nReg nAng n m.u (hm.linear 1 (-1))
    hm.update hm.below hx h.vol (y * φ / m.fpi) hc (fun i hi => (hq i hi).trans hle) m.planes (s.bin g) s.bout (hs.1 g) hs.2 hm.planes hb hm.volume
  constructor
  · intro i hi
    simp only [mocInner, if_true]
    refine (r1 i hi).trans_eq ?_
    field_simp
  · intro b hbm
    simp only [mocInner, if_true] at hbm
    obtain ⟨z, hz, rfl⟩ := List.mem_map.mp hbm
    rcases hη with rfl | ⟨e0, e1, hd, ha⟩
    · have : (κ + (y - κ) * 1) * φ / m.fpi = y * φ / m.fpi := by ring
      rw [this]
      exact r2 z hz
    · have := sweep_att m.expo hm.expo m.fpi (trOf p.rs g) p.vol (selfScatter m.fpi p.ng p.rs s.flux g src true s.q) m.gs p.nReg nAng n m.u hd (fun i hi => (hx i hi).le)
        (κ * φ / m.fpi) ((y - κ) * φ / m.fpi) η (by positivity) (div_nonneg (mul_nonneg (sub_nonneg.mpr hκ) hφ) hfpi.le) e0 e1 hq
        (m.planes.zip ((s.bin g).zip s.bout)) (fun w hw => by
          obtain ⟨h1, h2⟩ := List.of_mem_zip (a := w.1) (b := w.2) hw
          have h3 := (List.of_mem_zip (a := w.2.1) (b := w.2.2) h2).1
          refine ⟨(hm.planes _ h1).1, (hm.planes _ h1).2, ha g hg _ h1, ?_⟩
          have := hb _ h3
          rw [show κ * φ / m.fpi + (y - κ) * φ / m.fpi = y * φ / m.fpi by ring]
          exact this) z hz
      rw [show κ * φ / m.fpi + (y - κ) * φ / m.fpi * η = (κ + (y - κ) * η) * φ / m.fpi by ring] at this
      exact this

theorem group_below (p : Problem K) (h : Physical p) (m : MocSetup K) (nAng : Nat) (n : Nat → Nat) (hm : MocBoundOk p m nAng n) (η : K) (hη : Loses p m nAng n η)
    (g : Nat) (hg : g < p.ng) (φ x y κ : K) (hφ : 0 ≤ φ) (h0 : 0 ≤ κ) (hκ : κ ≤ y) (hyx : y ≤ x) (src : Nat → K)
    (hsrc : ∀ z ∈ p.rs, ∀ i ∈ z.regs, src i + x * φ * z.mat.sc g g ≤ κ * (z.mat.tr g * φ)) (s : MocState K) (hs : PlanesAt m s)
    (hf : ∀ i < p.nReg, s.flux i g ≤ x * φ) (hb : ∀ b ∈ s.bin g, LeOn nAng n (y * φ / m.fpi) b) :
    PlanesAt m (mocSweep p m g src s) ∧ (∀ i < p.nReg, (mocSweep p m g src s).flux i g ≤ y * φ) ∧
      ∀ b ∈ (mocSweep p m g src s).bin g, LeOn nAng n ((κ + (y - κ) * η) * φ / m.fpi) b := by
  obtain ⟨e0, e1⟩ := loses_le p m nAng n η hη
  have hy' : κ + (y - κ) * η ≤ y := by
    have := mul_le_mul_of_nonneg_left e1 (sub_nonneg.mpr hκ)
    linarith
  have hk' : κ ≤ κ + (y - κ) * η := by
    have := mul_nonneg (sub_nonneg.mpr hκ) e0
    linarith
  have key : ∀ N, PlanesAt m ((List.range N).foldl (fun s _ => mocInner p m g src s) s) ∧
      (∀ i < p.nReg, ((List.range N).foldl (fun s _ => mocInner p m g src s) s).flux i g ≤ (if N = 0 then x else y) * φ) ∧
      ∀ b ∈ ((List.range N).foldl (fun s _ => mocInner p m g src s) s).bin g, LeOn nAng n ((if N = 0 then y else κ + (y - κ) * η) * φ / m.fpi) b := by
    intro N
    induction N with
    | zero => exact ⟨hs, by simpa using hf, by simpa using hb⟩
    | succ N ih =>
      obtain ⟨i1, i2, i3⟩ := ih
      simp only [List.range_succ, List.foldl_append, List.foldl_cons, List.foldl_nil]
      refine ⟨inner_planes p m g src _ i1, ?_⟩
      have := inner_below p h m nAng n hm η hη g hg φ x y κ hφ h0 hκ src hsrc _ i1
        (fun i hi => (i2 i hi).trans (mul_le_mul_of_nonneg_right (by split <;> first | exact le_refl _ | exact hyx) hφ))
        (fun b hb a ha j hj => (i3 b hb a ha j hj).trans (div_le_div_of_nonneg_right (mul_le_mul_of_nonneg_right
          (by split <;> first | exact le_refl _ | exact hy') hφ) hm.fpi.le))
      simpa using this
  have := key m.nInner
  rw [if_neg (by have := hm.inner; omega), if_neg (by have := hm.inner; omega)] at this
  exact this

/-- The sweeps of a group leave the values of other groups. -/
theorem mocSweep_bin (p : Problem K) (m : MocSetup K) (g : Nat) (src : Nat → K) (s : MocState K) (h : Nat) (hne : h ≠ g) :
    (mocSweep p m g src s).bin h = s.bin h := by
  unfold mocSweep
  induction m.nInner with
  | zero => rfl
  | succ N ih =>
    rw [List.range_succ, List.foldl_append]
    simp only [List.foldl_cons, List.foldl_nil, mocInner, if_neg hne]
    exact ih

theorem loop_below (p : Problem K) (h : Physical p) (m : MocSetup K) (nAng : Nat) (n : Nat → Nat) (hm : MocBoundOk p m nAng n) (η : K) (hη : Loses p m nAng n η)
    (φ : Nat → K) (hφ : ∀ g < p.ng, 0 ≤ φ g) (x y κ : K) (h0 : 0 ≤ κ) (hκ : κ ≤ y) (hyx : y ≤ x) (base : Nat → Nat → K)
    (hbase : ∀ z ∈ p.rs, ∀ i ∈ z.regs, ∀ g < p.ng, base g i + x * ∑ h ∈ Finset.range p.ng, z.mat.sc g h * φ h ≤ κ * (z.mat.tr g * φ g))
    (N g : Nat) (hN : g + N = p.ng) (s : MocState K) (hs : PlanesAt m s) (hf : ∀ i < p.nReg, ∀ h < p.ng, s.flux i h ≤ (if h < g then y else x) * φ h)
    (hb : ∀ h < p.ng, ∀ b ∈ s.bin h, LeOn nAng n ((if h < g then κ + (y - κ) * η else y) * φ h / m.fpi) b) :
    PlanesAt m (srcLoop p (mocSweeper p m) base N g s) ∧ Below p m nAng n φ y (κ + (y - κ) * η) (srcLoop p (mocSweeper p m) base N g s) := by
  induction N generalizing g s with
  | zero =>
    refine ⟨hs, fun i hi h hh => ?_, fun h hh b hbm => ?_⟩
    · have := hf i hi h hh
      rw [if_pos (by omega)] at this
      exact this
    · have := hb h hh b hbm
      rw [if_pos (by omega)] at this
      exact this
  | succ N ih =>
    have hg : g < p.ng := by omega
    have hff : ∀ i < p.nReg, ∀ h < p.ng, s.flux i h ≤ x * φ h := fun i hi h hh =>
      (hf i hi h hh).trans (mul_le_mul_of_nonneg_right (by split <;> first | exact le_refl _ | exact hyx) (hφ h hh))
    obtain ⟨j1, j2, j3⟩ := group_below p h m nAng n hm η hη g hg (φ g) x y κ (hφ g hg) h0 hκ hyx (inScatter p.ng p.rs s.flux g (base g)) (fun z hz i hi => by
      have hi' : i < p.nReg := (h.cover i).mpr ⟨z, hz, hi⟩
      rw [inScatter_at p.ng p.rs h.part s.flux g hg (base g) z hz i hi (h.sc z hz)]
      refine le_trans ?_ (hbase z hz i hi g hg)
      have e : ∑ h ∈ Finset.range p.ng, (if h ≠ g then z.mat.sc g h * s.flux i h else 0) ≤ ∑ h ∈ Finset.range p.ng, (x * (z.mat.sc g h * φ h) - if h = g then x * φ g * z.mat.sc g g else 0) := by
        refine Finset.sum_le_sum fun h' hh' => ?_
        have hh := Finset.mem_range.mp hh'
        by_cases e : h' = g
        · subst e
          rw [if_neg (by simp), if_pos rfl]
          exact le_of_eq (by ring)
        · rw [if_pos e, if_neg e, sub_zero]
          have := mul_le_mul_of_nonneg_left (hff i hi' h' hh) (h.sc z hz g h' hg hh)
          linarith
      rw [Finset.sum_sub_distrib, Finset.sum_ite_eq' (Finset.range p.ng) g, if_pos (Finset.mem_range.mpr hg), ← Finset.mul_sum] at e
      linarith) s hs (fun i hi => hff i hi g hg) (fun b hbm => by
      have := hb g hg b hbm
      rw [if_neg (by omega)] at this
      exact this)
    refine ih (g + 1) (by omega) _ j1 (fun i hi h' hh' => ?_) (fun h' hh' b hbm => ?_)
    · by_cases e : h' = g
      · subst e
        rw [if_pos (by omega)]
        exact j2 i hi
      · have e1 := mocSweep_only p m g (inScatter p.ng p.rs s.flux g (base g)) s i h' e
        have e2 : (mocSweep p m g (inScatter p.ng p.rs s.flux g (base g)) s).flux i h' = s.flux i h' := e1
        show (mocSweep p m g (inScatter p.ng p.rs s.flux g (base g)) s).flux i h' ≤ _
        rw [e2]
        have := hf i hi h' hh'
        by_cases e3 : h' < g
        · rw [if_pos e3] at this
          rw [if_pos (by omega)]; exact this
        · rw [if_neg e3] at this
          rw [if_neg (by omega)]; exact this
    · by_cases e : h' = g
      · subst e
        rw [if_pos (by omega)]
        exact j3 b hbm
      · have hbm' : b ∈ (mocSweep p m g (inScatter p.ng p.rs s.flux g (base g)) s).bin h' := hbm
        rw [mocSweep_bin p m g _ s h' e] at hbm'
        have := hb h' hh' b hbm'
        by_cases e3 : h' < g
        · rw [if_pos e3] at this
          rw [if_pos (by omega)]; exact this
        · rw [if_neg e3] at this
          rw [if_neg (by omega)]; exact this

theorem step_below (p : Problem K) (h : Physical p) (m : MocSetup K) (nAng : Nat) (n : Nat → Nat) (hm : MocBoundOk p m nAng n) (η : K) (hη : Loses p m nAng n η)
    (φ : Nat → K) (hφ : ∀ g < p.ng, 0 ≤ φ g) (x y κ : K) (h0 : 0 ≤ κ) (hκ : κ ≤ y) (hyx : y ≤ x) (base : Nat → Nat → K)
    (hbase : ∀ z ∈ p.rs, ∀ i ∈ z.regs, ∀ g < p.ng, base g i + x * ∑ h ∈ Finset.range p.ng, z.mat.sc g h * φ h ≤ κ * (z.mat.tr g * φ g))
    (s : MocState K) (hs : PlanesAt m s) (hb : Below p m nAng n φ x y s) :
    PlanesAt m (srcLoop p (mocSweeper p m) base p.ng 0 s) ∧ Below p m nAng n φ y (κ + (y - κ) * η) (srcLoop p (mocSweeper p m) base p.ng 0 s) :=
  loop_below p h m nAng n hm η hη φ hφ x y κ h0 hκ hyx base hbase p.ng 0 (by omega) s hs (by simpa using hb.flux) (by simpa using hb.bin)

/-! ### C112 -/

/-- The incoming value of a group, plane, angle and slot. -/
def incoming (s : MocState K) (g z a j : Nat) : K := ((s.bin g).getD z 0) a j

theorem mem_incoming (s : MocState K) (g P : Nat) (hl : (s.bin g).length = P) (Q : (Nat → Nat → K) → Prop) : (∀ b ∈ s.bin g, Q b) ↔ ∀ z < P, Q (incoming s g z) := by
  subst hl
  constructor
  · intro h z hz
    have : incoming s g z = (s.bin g)[z] := by
      funext a j
      simp [incoming, List.getD, hz]
    rw [this]
    exact h _ (List.getElem_mem _)
  · intro h b hb
    obtain ⟨z, hz, rfl⟩ := List.mem_iff_getElem.mp hb
    have : incoming s g z = (s.bin g)[z] := by
      funext a j
      simp [incoming, List.getD, hz]
    rw [← this]
    exact h z hz

theorem incoming_lin (α β : K) (s s' : MocState K) (g P : Nat) (hl : (s.bin g).length = P) (hl' : (s'.bin g).length = P) (z : Nat) (hz : z < P) (a j : Nat) :
    incoming (mocLin α β s s') g z a j = α * incoming s g z a j + β * incoming s' g z a j := by
  have h1 : z < (s.bin g).length := by omega
  have h2 : z < (s'.bin g).length := by omega
  simp [incoming, mocLin, listLin, List.getD, h1, h2]

theorem planesAt_lin (α β : K) (m : MocSetup K) (s s' : MocState K) (hs : PlanesAt m s) (hs' : PlanesAt m s') : PlanesAt m (mocLin α β s s') :=
  ⟨fun g => by simp [mocLin, listLin, hs.1 g, hs'.1 g], by simp [mocLin, listLin, hs.2, hs'.2]⟩

/-- The flux and the incoming values of a state are at most those of another. -/
def MocLe (p : Problem K) (m : MocSetup K) (nAng : Nat) (n : Nat → Nat) (s s' : MocState K) : Prop :=
  (∀ i < p.nReg, ∀ g < p.ng, s.flux i g ≤ s'.flux i g) ∧ ∀ g < p.ng, ∀ z < m.planes.length, ∀ a < nAng, ∀ j < n a, incoming s g z a j ≤ incoming s' g z a j

theorem mocLe_iff (p : Problem K) (m : MocSetup K) (nAng : Nat) (n : Nat → Nat) (s s' : MocState K) (hs : PlanesAt m s) (hs' : PlanesAt m s') :
    MocLe p m nAng n s s' ↔ MocPos p m nAng n (mocLin 1 (-1) s' s) := by
  have hd := planesAt_lin 1 (-1) m s' s hs' hs
  constructor
  · rintro ⟨h1, h2⟩
    refine ⟨fun i hi g hg => ?_, fun g _ => hd.1 g, hd.2, fun g hg => ?_⟩
    · have := h1 i hi g hg
      simp only [mocLin, Pi.add_apply, Pi.smul_apply, smul_eq_mul]
      linarith
    · rw [mem_incoming _ g _ (hd.1 g)]
      intro z hz a ha j hj
      rw [incoming_lin 1 (-1) s' s g _ (hs'.1 g) (hs.1 g) z hz]
      have := h2 g hg z hz a ha j hj
      linarith
  · intro h
    refine ⟨fun i hi g hg => ?_, fun g hg z hz a ha j hj => ?_⟩
    · have := h.flux i hi g hg
      simp only [mocLin, Pi.add_apply, Pi.smul_apply, smul_eq_mul] at this
      linarith
    · have := (mem_incoming _ g _ (hd.1 g) _).mp (h.bin g hg) z hz a ha j hj
      rw [incoming_lin 1 (-1) s' s g _ (hs'.1 g) (hs.1 g) z hz] at this
      linarith

theorem srcLoop_pos {σ : Type} (p : Problem K) (h : Physical p) (w : Sweeper K σ) (inv : σ → Prop) (hw : KeepsPos p w inv) (base : Nat → Nat → K) (n g : Nat)
    (hn : g + n ≤ p.ng) (hbase : ∀ g < p.ng, ∀ i < p.nReg, 0 ≤ base g i) (s : σ) (hs : inv s) : inv (srcLoop p w base n g s) := by
  induction n generalizing g s with
  | zero => exact hs
  | succ n ih =>
    refine ih (g + 1) (by omega) _ (hw.keep g (by omega) _ s (fun i hi => ?_) hs)
    obtain ⟨x, hx, hxi⟩ := (h.cover i).mp hi
    rw [inScatter_at p.ng p.rs h.part _ g (by omega) _ x hx i hxi (h.sc x hx)]
    refine add_nonneg (hbase g (by omega) i hi) (Finset.sum_nonneg fun h' hh' => ?_)
    have hh := Finset.mem_range.mp hh'
    split
    · exact mul_nonneg (h.sc x hx g h' (by omega) hh) (hw.pos s hs i hi h' hh)
    · exact le_refl _

theorem srcLoop_mono (p : Problem K) (h : Physical p) (m : MocSetup K) (nAng : Nat) (n : Nat → Nat) (hm : MocPosOk p m nAng n) (hlin : ∀ α β, Combines α β m.u m.u m.u)
    (base base' : Nat → Nat → K) (hbase : ∀ g < p.ng, ∀ i < p.nReg, base g i ≤ base' g i) (s s' : MocState K) (hs : PlanesAt m s) (hs' : PlanesAt m s')
    (hle : MocLe p m nAng n s s') :
    MocLe p m nAng n (srcLoop p (mocSweeper p m) base p.ng 0 s) (srcLoop p (mocSweeper p m) base' p.ng 0 s') ∧
      PlanesAt m (srcLoop p (mocSweeper p m) base p.ng 0 s) ∧ PlanesAt m (srcLoop p (mocSweeper p m) base' p.ng 0 s') := by
  obtain ⟨e, e1, e2⟩ := srcLoop_lin 1 (-1) p m (hlin 1 (-1)) base' base p.ng 0 s' s hs' hs
  refine ⟨?_, e2, e1⟩
  rw [mocLe_iff p m nAng n _ _ e2 e1, ← e]
  exact srcLoop_pos p h _ _ (C109_moc p h m nAng n hm) _ p.ng 0 (by omega) (fun g hg i hi => by
    have := hbase g hg i hi
    simp only [Pi.add_apply, Pi.smul_apply, smul_eq_mul]
    linarith) _ ((mocLe_iff p m nAng n s s' hs hs').mp hle)

theorem fission_le (p : Problem K) (h : Physical p) (fs fs' : Nat → K) (hfs : ∀ i < p.nReg, fs i ≤ fs' i) :
    ∀ g < p.ng, ∀ i < p.nReg, fission p.rs fs g (fun _ => 0) i ≤ fission p.rs fs' g (fun _ => 0) i := by
  intro g hg i hi
  obtain ⟨x, hx, hxi⟩ := (h.cover i).mp hi
  rw [fission_at p.rs h.part fs g _ x hx i hxi, fission_at p.rs h.part fs' g _ x hx i hxi]
  have := mul_le_mul_of_nonneg_left (hfs i hi) (h.ch x hx g hg)
  linarith

/-- C112: a step with a larger fission source, from a larger flux and larger incoming values, ends with a larger flux and larger incoming values. -/
theorem C112_monotone (p : Problem K) (h : Physical p) (m : MocSetup K) (nAng : Nat) (n : Nat → Nat) (hm : MocPosOk p m nAng n) (hlin : ∀ α β, Combines α β m.u m.u m.u)
    (fs fs' : Nat → K) (hfs : ∀ i < p.nReg, fs i ≤ fs' i) (s s' : MocState K) (hs : PlanesAt m s) (hs' : PlanesAt m s') (hle : MocLe p m nAng n s s') :
    ∃ t t', groupLoop p (mocSweeper p m) fs p.ng 0 s = some t ∧ groupLoop p (mocSweeper p m) fs' p.ng 0 s' = some t' ∧ PlanesAt m t ∧ PlanesAt m t' ∧
      MocLe p m nAng n t t' := by
  obtain ⟨h1, h2, h3⟩ := srcLoop_mono p h m nAng n hm hlin _ _ (fission_le p h fs fs' hfs) s s' hs hs' hle
  exact ⟨_, _, groupLoop_eq .., groupLoop_eq .., h2, h3, h1⟩

/-- C112: likewise the sources of an eigenvalue iteration: at the same `k`, a larger flux has a larger one. -/
theorem C112_fission_source (p : Problem K) (h : Physical p) (k : K) (hk : 0 < k) (flux flux' : Nat → Nat → K)
    (hf : ∀ i < p.nReg, ∀ g < p.ng, flux i g ≤ flux' i g) : ∀ i < p.nReg, calcFissionSource p.ng p.rs k flux i ≤ calcFissionSource p.ng p.rs k flux' i := by
  intro i hi
  obtain ⟨x, hx, hxi⟩ := (h.cover i).mp hi
  rw [C47_fission_source p.ng p.rs h.part k flux x hx i hxi, C47_fission_source p.ng p.rs h.part k flux' x hx i hxi]
  exact div_le_div_of_nonneg_right (Finset.sum_le_sum fun g hg =>
    mul_le_mul_of_nonneg_left (hf i hi g (Finset.mem_range.mp hg)) (h.nf x hx g (Finset.mem_range.mp hg))) hk.le

theorem fixedSteps_eq {σ : Type} (p : Problem K) (w : Sweeper K σ) (ext : Option (Ext K)) (S : Nat → Nat → K) (h : ∀ g < p.ng, initializeGroup p.nReg ext g = some (S g))
    (N : Nat) (s : σ) : fixedSteps p w ext N s = some ((srcLoop p w S p.ng 0)^[N] s) := by
  induction N generalizing s with
  | zero => rfl
  | succ N ih =>
    rw [fixedSteps, extLoop_eq p w ext S p.ng 0 (fun g _ hg => h g (by omega))]
    exact ih _

/-- C112: any number of steps of the fixed-source solver are monotone in the external source and the start. -/
theorem C112_fixed_monotone (p : Problem K) (h : Physical p) (m : MocSetup K) (nAng : Nat) (n : Nat → Nat) (hm : MocPosOk p m nAng n) (hlin : ∀ α β, Combines α β m.u m.u m.u)
    (ext ext' : Option (Ext K)) (S S' : Nat → Nat → K) (hS : ∀ g < p.ng, initializeGroup p.nReg ext g = some (S g))
    (hS' : ∀ g < p.ng, initializeGroup p.nReg ext' g = some (S' g)) (hle : ∀ g < p.ng, ∀ i < p.nReg, S g i ≤ S' g i) (N : Nat) (s s' : MocState K)
    (hs : PlanesAt m s) (hs' : PlanesAt m s') (h0 : MocLe p m nAng n s s') :
    ∃ t t', fixedSteps p (mocSweeper p m) ext N s = some t ∧ fixedSteps p (mocSweeper p m) ext' N s' = some t' ∧ MocLe p m nAng n t t' := by
  refine ⟨_, _, fixedSteps_eq p _ ext S hS N s, fixedSteps_eq p _ ext' S' hS' N s', ?_⟩
  induction N generalizing s s' with
  | zero => exact h0
  | succ N ih =>
    obtain ⟨h1, h2, h3⟩ := srcLoop_mono p h m nAng n hm hlin S S' hle s s' hs hs' h0
    exact ih _ _ h2 h3 h1

/-- C112, maximum principle: let fluxes `φ` by group take up all neutrons of the source in every material, if they were uniform.  Then a step leaves the flux below `φ`
and the incoming values below `φ` per unit solid angle if they were so before. -/
theorem C112_bound (p : Problem K) (h : Physical p) (m : MocSetup K) (nAng : Nat) (n : Nat → Nat) (hm : MocBoundOk p m nAng n) (φ : Nat → K)
    (hφ : ∀ g < p.ng, 0 ≤ φ g) (fs : Nat → K)
    (hsup : ∀ z ∈ p.rs, ∀ i ∈ z.regs, ∀ g < p.ng, z.mat.ch g * fs i + ∑ h ∈ Finset.range p.ng, z.mat.sc g h * φ h ≤ z.mat.tr g * φ g)
    (s : MocState K) (hs : PlanesAt m s) (hb : Below p m nAng n φ 1 1 s) :
    ∃ t, groupLoop p (mocSweeper p m) fs p.ng 0 s = some t ∧ PlanesAt m t ∧ Below p m nAng n φ 1 1 t := by
  refine ⟨_, groupLoop_eq .., ?_⟩
  have := step_below p h m nAng n hm 1 (Or.inl rfl) φ hφ 1 1 1 zero_le_one (le_refl _) (le_refl _) (fun g => fission p.rs fs g fun _ => 0) (fun z hz i hi g hg => by
    have := hsup z hz i hi g hg
    rw [fission_at p.rs h.part fs g _ z hz i hi]
    linarith) s hs hb
  simpa using this

/-- C112, maximum principle for any number of steps of the fixed-source solver. -/
theorem C112_fixed_bound (p : Problem K) (h : Physical p) (m : MocSetup K) (nAng : Nat) (n : Nat → Nat) (hm : MocBoundOk p m nAng n) (φ : Nat → K)
    (hφ : ∀ g < p.ng, 0 ≤ φ g) (ext : Option (Ext K)) (S : Nat → Nat → K) (hS : ∀ g < p.ng, initializeGroup p.nReg ext g = some (S g))
    (hsup : ∀ z ∈ p.rs, ∀ i ∈ z.regs, ∀ g < p.ng, S g i + ∑ h ∈ Finset.range p.ng, z.mat.sc g h * φ h ≤ z.mat.tr g * φ g)
    (N : Nat) (s : MocState K) (hs : PlanesAt m s) (hb : Below p m nAng n φ 1 1 s) :
    ∃ t, fixedSteps p (mocSweeper p m) ext N s = some t ∧ PlanesAt m t ∧ Below p m nAng n φ 1 1 t := by
  refine ⟨_, fixedSteps_eq p _ ext S hS N s, ?_⟩
  induction N generalizing s with
  | zero => exact ⟨hs, hb⟩
  | succ N ih =>
    have := step_below p h m nAng n hm 1 (Or.inl rfl) φ hφ 1 1 1 zero_le_one (le_refl _) (le_refl _) S (fun z hz i hi g hg => by
      have := hsup z hz i hi g hg
      linarith) s hs hb
    simp only [sub_self, zero_mul, add_zero] at this
    exact ih _ this.1 this.2

/-- C112: the boundary condition is linear and makes constants no larger, whatever the faces are. -/
theorem C112_store (sh : BC.Store K) : (∀ α β, Combines α β (mocUpdate sh) (mocUpdate sh) (mocUpdate sh)) ∧ UpdateBelow sh.size.length (rowSize sh) (mocUpdate sh) := by
  refine ⟨fun α β => C111_update_moc α β sh, ?_, ?_⟩
  · intro c hc a ha a' ha' j hj
    simp only [mocUpdate]
    exact (store_keeps sh (· ≤ c) (fun _ _ => hc) _ _ (fun _ _ _ _ _ => le_refl _)).1 a (fun _ _ _ => le_refl _) a' ha' _ _ (faceOf_lt sh a' j hj).1
  · intro c hc a' ha' j hj
    simp only [mocUpdate]
    exact (store_keeps sh (· ≤ c) (fun _ _ => hc) _ _ (fun _ _ _ _ _ => le_refl _)).2 (fun _ _ _ _ _ => le_refl _) a' ha' _ _ (faceOf_lt sh a' j hj).1

end

end Verif.Medium
