import Verif.Medium.MirrorMocProps

/-!
# C160: results do not depend on the unit of length
-/

set_option linter.unusedSectionVars false

namespace Verif.Medium

open Finset Verif.XS Verif.Source Verif.Scatter

section
variable {K : Type} [Field K] [LinearOrder K] [IsStrictOrderedRing K]

/-- Cross sections in a unit of length `c` times smaller: numbers `c` times smaller. -/
def unitMat (c : K) (m : Mat K) : Mat K := ⟨fun g => m.tr g / c, fun g => m.nf g / c, fun g => m.f g / c, m.ch, fun g h => m.sc g h / c⟩

/-- The problem in the smaller unit; volumes get the factor `e`, the square or cube of `c`. -/
def unitProblem (c e : K) (p : Problem K) : Problem K := ⟨p.ng, p.nReg, p.rs.map fun x => ⟨unitMat c x.mat, x.regs⟩, fun i => e * p.vol i⟩

/-- Segments `c` times longer, weights of the rays `w` times larger (with the spacing). -/
def unitPlane (c w : K) (p : Moc.PlaneWork K) : Moc.PlaneWork K :=
  ⟨p.first, p.angles.map fun a => ⟨a.iang1, a.iang2, a.rst, w * a.wt, a.rays.map fun r => ⟨r.segs.map fun s => ⟨s.reg, c * s.len⟩, r.bc0, r.bc1⟩⟩⟩

def unitMoc (c w : K) (m : MocSetup K) : MocSetup K := { m with planes := m.planes.map (unitPlane c w) }

theorem addTo_unit (c : K) (regs : List Nat) (f a : Nat → K) : addTo regs (fun i => f i / c) (fun i => a i / c) = fun i => addTo regs f a i / c := by
  unfold addTo
  induction regs generalizing a with
  | nil => rfl
  | cons i l ih =>
    rw [List.foldl_cons, List.foldl_cons, ← ih]
    congr 1
    funext j
    simp only [Function.update_apply]
    split_ifs <;> ring

theorem setTo_unit (c : K) (regs : List Nat) (f a : Nat → K) : setTo regs (fun i => f i / c) (fun i => a i / c) = fun i => setTo regs f a i / c := by
  unfold setTo
  induction regs generalizing a with
  | nil => rfl
  | cons i l ih =>
    rw [List.foldl_cons, List.foldl_cons, ← ih]
    congr 1
    funext j
    simp only [Function.update_apply]
    split_ifs <;> rfl

theorem bounds_unit (c : K) (hc : 0 < c) (ng : Nat) (sc : Nat → Nat → K) (g : Nat) : bounds ng (fun g h => sc g h / c) g = bounds ng sc g := by
  have : (fun h => decide (0 < sc g h / c)) = fun h => decide (0 < sc g h) := by
    funext h
    exact decide_eq_decide.mpr (div_pos_iff_of_pos_right hc)
  simp only [bounds, this]

theorem get_unit (c : K) (hc : 0 < c) (ng : Nat) (sc : Nat → Nat → K) (g h : Nat) (hg : g < ng) :
    ((build ng fun g h => sc g h / c).get g h).getD 0 = ((build ng sc).get g h).getD 0 / c := by
  rw [build_get ng _ g h hg, build_get ng sc g h hg, bounds_unit c hc]
  split_ifs <;> simp

theorem trOf_unit (c : K) (rs : List (XsRegion (Mat K))) (g : Nat) : trOf (rs.map fun x => ⟨unitMat c x.mat, x.regs⟩) g = fun i => trOf rs g i / c := by
  have key : ∀ a : Nat → K, (rs.map fun x => (⟨unitMat c x.mat, x.regs⟩ : XsRegion (Mat K))).foldl (fun a x => setTo x.regs (fun _ => x.mat.tr g) a) (fun i => a i / c) =
      fun i => rs.foldl (fun a x => setTo x.regs (fun _ => x.mat.tr g) a) a i / c := by
    induction rs with
    | nil => exact fun a => rfl
    | cons x rs ih =>
      intro a
      rw [List.map_cons, List.foldl_cons, List.foldl_cons, ← ih, ← setTo_unit]
      rfl
  have := key fun _ => 0
  simp only [zero_div] at this
  exact this

theorem selfScatter_unit (c : K) (hc : 0 < c) (fpi : K) (ng : Nat) (rs : List (XsRegion (Mat K))) (flux : Nat → Nat → K) (g : Nat) (hg : g < ng) (src q : Nat → K) :
    selfScatter fpi ng (rs.map fun x => ⟨unitMat c x.mat, x.regs⟩) flux g (fun i => src i / c) true q = selfScatter fpi ng rs flux g src true q ∧
    selfScatter fpi ng (rs.map fun x => ⟨unitMat c x.mat, x.regs⟩) flux g (fun i => src i / c) false (fun i => q i / c) = fun i => selfScatter fpi ng rs flux g src false q i / c := by
  simp only [selfScatter, if_true, Bool.false_eq_true, if_false]
  constructor
  · induction rs generalizing q with
    | nil => rfl
    | cons x rs ih =>
      rw [List.map_cons, List.foldl_cons, List.foldl_cons, ← ih]
      congr 2
      funext i
      simp only [unitMat]
      rw [get_unit c hc ng _ g g hg]
      have : c ≠ 0 := hc.ne'
      rw [show src i / c + flux i g * (((build ng x.mat.sc).get g g).getD 0 / c) = (src i + flux i g * ((build ng x.mat.sc).get g g).getD 0) / c by ring, mul_one_div,
        show x.mat.tr g / c * fpi = x.mat.tr g * fpi / c by ring, div_div_div_cancel_right₀ this, mul_one_div]
  · induction rs generalizing q with
    | nil => rfl
    | cons x rs ih =>
      rw [List.map_cons, List.foldl_cons, List.foldl_cons, ← ih, ← setTo_unit]
      congr 2
      funext i
      simp only [unitMat]
      rw [get_unit c hc ng _ g g hg]
      ring

theorem fission_unit (c : K) (rs : List (XsRegion (Mat K))) (fs : Nat → K) (g : Nat) (a : Nat → K) :
    fission (rs.map fun x => ⟨unitMat c x.mat, x.regs⟩) (fun i => fs i / c) g (fun i => a i / c) = fun i => fission rs fs g a i / c := by
  unfold fission
  induction rs generalizing a with
  | nil => rfl
  | cons x rs ih =>
    rw [List.map_cons, List.foldl_cons, List.foldl_cons, ← ih, ← addTo_unit]
    congr 2
    funext i
    simp only [unitMat]
    ring

theorem fissionSource_unit (c : K) (ng : Nat) (rs : List (XsRegion (Mat K))) (k : K) (flux : Nat → Nat → K) :
    calcFissionSource ng (rs.map fun x => ⟨unitMat c x.mat, x.regs⟩) k flux = fun i => calcFissionSource ng rs k flux i / c := by
  have key : ∀ a : Nat → K, (rs.map fun x => (⟨unitMat c x.mat, x.regs⟩ : XsRegion (Mat K))).foldl (fun a x => (List.range ng).foldl (fun a ig =>
      addTo x.regs (fun i => 1 / k * x.mat.nf ig * flux i ig) a) a) (fun i => a i / c) =
      fun i => rs.foldl (fun a x => (List.range ng).foldl (fun a ig => addTo x.regs (fun i => 1 / k * x.mat.nf ig * flux i ig) a) a) a i / c := by
    induction rs with
    | nil => exact fun a => rfl
    | cons x rs ih =>
      intro a
      rw [List.map_cons, List.foldl_cons, List.foldl_cons, ← ih]
      congr 1
      generalize List.range ng = l
      induction l generalizing a with
      | nil => rfl
      | cons g l ih2 =>
        rw [List.foldl_cons, List.foldl_cons, ← ih2, ← addTo_unit]
        congr 2
        funext i
        simp only [unitMat]
        ring
  have := key fun _ => 0
  simp only [zero_div] at this
  exact this

theorem production_unit (c e : K) (p : Problem K) (flux : Nat → Nat → K) :
    totalFission (unitProblem c e p).ng (unitProblem c e p).rs (unitProblem c e p).vol flux = e / c * totalFission p.ng p.rs p.vol flux := by
  rw [totalFission_eq, totalFission_eq]
  simp only [unitProblem, List.map_map, ← List.sum_map_mul_left]
  congr 1
  refine List.map_congr_left fun x _ => ?_
  simp only [Function.comp]
  congr 1
  refine List.map_congr_left fun i _ => ?_
  simp only [unitMat, mul_sum]
  refine sum_congr rfl fun g _ => ?_
  ring

theorem inScatter_unit (c : K) (hc : 0 < c) (ng : Nat) (rs : List (XsRegion (Mat K))) (flux : Nat → Nat → K) (g : Nat) (hg : g < ng) (a : Nat → K) :
    inScatter ng (rs.map fun x => ⟨unitMat c x.mat, x.regs⟩) flux g (fun i => a i / c) = fun i => inScatter ng rs flux g a i / c := by
  unfold inScatter
  induction rs generalizing a with
  | nil => rfl
  | cons x rs ih =>
    rw [List.map_cons, List.foldl_cons, List.foldl_cons, ← ih]
    congr 1
    by_cases hl : x.regs.length = 0
    · simp only [if_pos hl]
    · obtain ⟨r, r1, r2, r3, -⟩ := (build_inv ng x.mat.sc ng).2.2.1 g hg
      obtain ⟨r', s1, s2, s3, -⟩ := (build_inv ng (fun g h => x.mat.sc g h / c) ng).2.2.1 g hg
      rw [bounds_unit c hc] at s2 s3
      simp only [if_neg hl, unitMat]
      rw [show (build ng x.mat.sc).rows[g]? = some r from r1, show (build ng fun g h => x.mat.sc g h / c).rows[g]? = some r' from s1]
      simp only [r2, r3, s2, s3]
      generalize groups (bounds ng x.mat.sc g).1 (bounds ng x.mat.sc g).2 = l
      induction l generalizing a with
      | nil => rfl
      | cons h l ih2 =>
        rw [List.foldl_cons, List.foldl_cons, ← ih2]
        congr 1
        by_cases e : h = g
        · simp [e]
        · rw [if_pos e, if_pos e, ← addTo_unit]
          congr 1
          funext i
          rw [get_unit c hc ng _ g h hg]
          ring

/-! ### MoC -/

theorem walk_unit (expo : K → K) (c w : K) (hc : c ≠ 0) (xs q : Nat → K) (rst wt : K) (first : Nat) (l : List (Moc.Seg K)) (psi : K) (t : Nat → K) :
    Moc.walk (Moc.eTau expo (fun i => xs i / c) rst first) q (w * wt) first (l.map fun s => ⟨s.reg, c * s.len⟩) psi (fun i => w * t i) =
      ((Moc.walk (Moc.eTau expo xs rst first) q wt first l psi t).1, fun i => w * (Moc.walk (Moc.eTau expo xs rst first) q wt first l psi t).2 i) := by
  induction l generalizing psi t with
  | nil => rfl
  | cons s l ih =>
    rw [List.map_cons, Moc.walk, Moc.walk]
    have e1 : Moc.eTau expo (fun i => xs i / c) rst first ⟨s.reg, c * s.len⟩ = Moc.eTau expo xs rst first s := by
      simp only [Moc.eTau]
      congr 2
      field_simp
    simp only [e1]
    rw [← ih]
    congr 1
    funext i
    simp only [Moc.upd]
    split_ifs <;> ring

theorem plane_unit (expo : K → K) (c w : K) (hc : c ≠ 0) (xs q : Nat → K) (gs : Bool) (u : Moc.BcUpdate K) (p : Moc.PlaneWork K) (s : Moc.St K) :
    Moc.sweepPlane expo (fun i => xs i / c) q gs u (unitPlane c w p) ⟨fun i => w * s.tflux i, s.bin, s.bout⟩ =
      { Moc.sweepPlane expo xs q gs u p s with tflux := fun i => w * (Moc.sweepPlane expo xs q gs u p s).tflux i } := by
  have hray : ∀ (rst wt : K) (in1 in2 : Nat → K) (l : List (Moc.Ray K)) (a : Moc.Acc K),
      (l.map fun r => (⟨r.segs.map fun s => ⟨s.reg, c * s.len⟩, r.bc0, r.bc1⟩ : Moc.Ray K)).foldl (Moc.sweepRay (Moc.eTau expo (fun i => xs i / c) rst p.first) q (w * wt) p.first in1 in2)
        ⟨fun i => w * a.tflux i, a.out1, a.out2⟩ =
      { l.foldl (Moc.sweepRay (Moc.eTau expo xs rst p.first) q wt p.first in1 in2) a with
        tflux := fun i => w * (l.foldl (Moc.sweepRay (Moc.eTau expo xs rst p.first) q wt p.first in1 in2) a).tflux i } := by
    intro rst wt in1 in2 l
    induction l with
    | nil => exact fun a => rfl
    | cons r l ih =>
      intro a
      rw [List.map_cons, List.foldl_cons, List.foldl_cons, ← ih]
      congr 1
      simp only [Moc.sweepRay, ← List.map_reverse, walk_unit expo c w hc]
  have hang : ∀ (l : List (Moc.AngleWork K)) (s : Moc.St K),
      (l.map fun a => (⟨a.iang1, a.iang2, a.rst, w * a.wt, a.rays.map fun r => ⟨r.segs.map fun s => ⟨s.reg, c * s.len⟩, r.bc0, r.bc1⟩⟩ : Moc.AngleWork K)).foldl
        (Moc.sweepAngle expo (fun i => xs i / c) q gs u p.first) ⟨fun i => w * s.tflux i, s.bin, s.bout⟩ =
      { l.foldl (Moc.sweepAngle expo xs q gs u p.first) s with tflux := fun i => w * (l.foldl (Moc.sweepAngle expo xs q gs u p.first) s).tflux i } := by
    intro l
    induction l with
    | nil => exact fun s => rfl
    | cons a l ih =>
      intro s
      rw [List.map_cons, List.foldl_cons, List.foldl_cons, ← ih]
      congr 1
      simp only [Moc.sweepAngle]
      rw [hray a.rst a.wt (s.bin a.iang1) (s.bin a.iang2) a.rays ⟨s.tflux, s.bout a.iang1, s.bout a.iang2⟩]
  simp only [Moc.sweepPlane, unitPlane, hang]

/-- C160: a MoC sweep of one group. -/
theorem C160_moc_sweep (expo : K → K) (fpi c w : K) (hc : c ≠ 0) (hw : w ≠ 0) (xs vol q : Nat → K) (gs : Bool) (u : Moc.BcUpdate K) (ps : List (Moc.PlaneWork K))
    (bs : List ((Nat → Nat → K) × (Nat → Nat → K))) :
    Moc.sweep1g expo fpi (fun i => xs i / c) (fun i => w * c * vol i) q gs u ((ps.map (unitPlane c w)).zip bs) = Moc.sweep1g expo fpi xs vol q gs u (ps.zip bs) := by
  have key : ∀ (ps : List (Moc.PlaneWork K)) (bs : List ((Nat → Nat → K) × (Nat → Nat → K))) (t : Nat → K),
      Moc.sweepPlanes expo (fun i => xs i / c) q gs u ((ps.map (unitPlane c w)).zip bs) (fun i => w * t i) =
        (fun i => w * (Moc.sweepPlanes expo xs q gs u (ps.zip bs) t).1 i, (Moc.sweepPlanes expo xs q gs u (ps.zip bs) t).2) := by
    intro ps
    induction ps with
    | nil => exact fun bs t => rfl
    | cons p ps ih =>
      intro bs t
      cases bs with
      | nil => rfl
      | cons b bs =>
        simp only [List.map_cons, List.zip_cons_cons, Moc.sweepPlanes]
        rw [plane_unit expo c w hc xs q gs u p ⟨t, b.1, b.2⟩]
        simp only [ih]
  have h0 := key ps bs fun _ => 0
  simp only [mul_zero] at h0
  simp only [Moc.sweep1g, h0, Prod.mk.injEq, and_true]
  funext i
  simp only [Moc.finish]
  congr 1
  rw [show xs i / c * (w * c * vol i) = w * (xs i * vol i) by field_simp]
  exact mul_div_mul_left _ _ hw

variable (p : Problem K)

/-- C160: the inner iterations of a group, MoC: the same state. -/
theorem C160_moc_group (m : MocSetup K) (c w : K) (hc : 0 < c) (hw : w ≠ 0) (g : Nat) (hg : g < p.ng) (src : Nat → K) (s : MocState K) :
    mocSweep (unitProblem c (w * c) p) (unitMoc c w m) g (fun i => src i / c) s = mocSweep p m g src s := by
  have one : ∀ s, mocInner (unitProblem c (w * c) p) (unitMoc c w m) g (fun i => src i / c) s = mocInner p m g src s := by
    intro s
    simp only [mocInner, unitProblem, unitMoc, trOf_unit, (selfScatter_unit c hc m.fpi p.ng p.rs s.flux g hg src s.q).1, C160_moc_sweep m.expo m.fpi c w hc.ne' hw]
  unfold mocSweep
  rw [show (unitMoc c w m).nInner = m.nInner from rfl]
  simp only [one]

/-- C160: all groups. -/
theorem C160_moc_groups (m : MocSetup K) (c w : K) (hc : 0 < c) (hw : w ≠ 0) (base : Nat → Nat → K) (n g : Nat) (hg : g + n ≤ p.ng) (s : MocState K) :
    srcLoop (unitProblem c (w * c) p) (mocSweeper (unitProblem c (w * c) p) (unitMoc c w m)) (fun g i => base g i / c) n g s = srcLoop p (mocSweeper p m) base n g s := by
  induction n generalizing g s with
  | zero => rfl
  | succ n ih =>
    rw [srcLoop, srcLoop, ← ih (g + 1) (by omega)]
    congr 1
    show mocSweep _ _ g (inScatter p.ng (p.rs.map fun x => ⟨unitMat c x.mat, x.regs⟩) s.flux g fun i => base g i / c) s = mocSweep p m g (inScatter p.ng p.rs s.flux g (base g)) s
    rw [inScatter_unit c hc p.ng p.rs s.flux g (by omega), C160_moc_group p m c w hc hw g (by omega)]

/-- Any number of outer iterations with sweepers that do the same in both units up to a change `f` of the state. -/
theorem outers_unit {σ : Type} (c e : K) (hc : 0 < c) (he : e ≠ 0) (v v' : Sweeper K σ) (f : σ → σ) (hf : ∀ s, v'.flux (f s) = v.flux s)
    (hl : ∀ base s, srcLoop (unitProblem c e p) v' (fun g i => base g i / c) p.ng 0 (f s) = f (srcLoop p v base p.ng 0 s)) (n : Nat) (k : K) (s : σ) :
    outers (unitProblem c e p) v' n k (f s) = (outers p v n k s).map fun r => (r.1, f r.2) := by
  have one : ∀ k s, outer (unitProblem c e p) v' k (f s) = (outer p v k s).map fun r => (r.1, f r.2) := by
    intro k s
    have hb : (fun g => fission (unitProblem c e p).rs (calcFissionSource (unitProblem c e p).ng (unitProblem c e p).rs k (v.flux s)) g fun _ => 0) =
        fun g i => fission p.rs (calcFissionSource p.ng p.rs k (v.flux s)) g (fun _ => 0) i / c := by
      funext g
      rw [← fission_unit, ← fissionSource_unit]
      simp only [zero_div]
      rfl
    rw [outer, outer, groupLoop_eq, groupLoop_eq, Option.map_some, Option.map_some, Option.map_some, production_unit, production_unit, hf, hb, show (unitProblem c e p).ng = p.ng from rfl, hl, hf,
      show ∀ x y : K, k * (e / c * x) / (e / c * y) = k * x / y from fun x y => by rw [mul_left_comm, mul_div_mul_left _ _ (div_ne_zero he hc.ne')]]
  induction n generalizing k s with
  | zero => rfl
  | succ n ih =>
    rw [outers, outers, one, Option.map_bind, Option.bind_map]
    congr 1
    funext r
    exact ih r.1 r.2

/-- C160: any number of outer iterations of an eigenvalue calculation. -/
theorem C160_moc (m : MocSetup K) (c w : K) (hc : 0 < c) (hw : w ≠ 0) (n : Nat) (k : K) (s : MocState K) :
    outers (unitProblem c (w * c) p) (mocSweeper (unitProblem c (w * c) p) (unitMoc c w m)) n k s = outers p (mocSweeper p m) n k s := by
  have h := outers_unit p c (w * c) hc (mul_ne_zero hw hc.ne') (mocSweeper p m) (mocSweeper (unitProblem c (w * c) p) (unitMoc c w m)) (fun s => s) (fun _ => rfl)
    (fun base s => C160_moc_groups p m c w hc hw base p.ng 0 (by omega) s) n k s
  rw [h]
  exact Option.map_id'

/-- C160: any number of steps with an external source, divided by `c` like the cross sections. -/
theorem C160_moc_fixed (m : MocSetup K) (c w : K) (hc : 0 < c) (hw : w ≠ 0) (ext ext' : Option (Ext K)) (E : Nat → Nat → K) (hE : ∀ g < p.ng, initializeGroup p.nReg ext g = some (E g))
    (hE' : ∀ g < p.ng, initializeGroup p.nReg ext' g = some fun i => E g i / c) (n : Nat) (s : MocState K) :
    fixedSteps (unitProblem c (w * c) p) (mocSweeper (unitProblem c (w * c) p) (unitMoc c w m)) ext' n s = fixedSteps p (mocSweeper p m) ext n s := by
  induction n generalizing s with
  | zero => rfl
  | succ n ih =>
    rw [fixedSteps, fixedSteps, extLoop_eq p _ ext E p.ng 0 fun g _ hg => hE g (by omega),
      extLoop_eq (unitProblem c (w * c) p) _ ext' (fun g i => E g i / c) (unitProblem c (w * c) p).ng 0 fun g _ hg => hE' g (by have : (unitProblem c (w * c) p).ng = p.ng := rfl; omega),
      Option.bind_some, Option.bind_some, show (unitProblem c (w * c) p).ng = p.ng from rfl, C160_moc_groups p m c w hc hw E p.ng 0 (by omega)]
    exact ih _

/-! ### Sn -/

/-- Schemes `sch` and `sch'` of the same kind, in the two units. -/
def UnitScheme3 (c : K) (sch sch' : Scheme3 K) : Prop := ∀ tx ty tz fx fy fz q xs, sch' (tx / c) (ty / c) (tz / c) fx fy fz (q / c) (xs / c) = sch tx ty tz fx fy fz q xs

def UnitScheme2 (c : K) (sch sch' : Scheme2 K) : Prop := ∀ tx ty fx fy q xs, sch' (tx / c) (ty / c) fx fy (q / c) (xs / c) = sch tx ty fx fy q xs

/-- C160: all schemes except the one with parabolic moments. -/
theorem C160_schemes (c : K) (hc : c ≠ 0) : UnitScheme3 c Sn.evalDD Sn.evalDD ∧ UnitScheme2 c Sn.evalDD2 Sn.evalDD2 ∧ (∀ expo, UnitScheme3 c (Sn.evalDDSC expo) (Sn.evalDDSC expo)) ∧
    ∀ gx gy, UnitScheme2 c (Sn.evalCDD2 gx gy) (Sn.evalCDD2 gx gy) ∧ UnitScheme3 c (Sn.evalCDDDD gx gy) (Sn.evalCDDDD gx gy) ∧ UnitScheme3 c (Sn.evalCDDFF gx gy) (Sn.evalCDDFF gx gy) ∧
      UnitScheme3 c (Sn.evalCDDFW gx gy) (Sn.evalCDDFW gx gy) ∧ ∀ expo, UnitScheme3 c (Sn.evalCDDSC expo gx gy) (Sn.evalCDDSC expo gx gy) := by
  have key : ∀ a b a' b' : K, a' = a / c → b' = b / c → a' / b' = a / b := by
    rintro a b _ _ rfl rfl
    exact div_div_div_cancel_right₀ hc a b
  refine ⟨fun tx ty tz fx fy fz q xs => ?_, fun tx ty fx fy q xs => ?_, fun expo tx ty tz fx fy fz q xs => ?_, fun gx gy => ⟨fun tx ty fx fy q xs => ?_, fun tx ty tz fx fy fz q xs => ?_,
    fun tx ty tz fx fy fz q xs => ?_, fun tx ty tz fx fy fz q xs => ?_, fun expo tx ty tz fx fy fz q xs => ?_⟩⟩
  · simp only [Sn.evalDD]
    rw [key (2 * (tx * fx + ty * fy + tz * fz) + q) (2 * (tx + ty + tz) + xs) _ _ (by ring) (by ring)]
  · simp only [Sn.evalDD2]
    rw [key (2 * (tx * fx + ty * fy) + q) (2 * (tx + ty) + xs) _ _ (by ring) (by ring)]
  · simp only [Sn.evalDDSC]
    rw [key xs tz _ _ rfl rfl]
    rw [key (2 * (tx * fx + ty * fy) + tz * (Sn.rho expo (xs / tz) / (1 - Sn.rho expo (xs / tz)) + 1) * fz + q) (2 * (tx + ty) + tz / (1 - Sn.rho expo (xs / tz)) + xs) _ _ (by ring) (by ring)]
  · simp only [Sn.evalCDD2]
    rw [key (q + 2 * (tx * fx + ty * fy)) (tx / gx + ty / gy + xs) _ _ (by ring) (by ring)]
  · simp only [Sn.evalCDDDD]
    rw [key (q + 2 * (tx * fx + ty * fy + tz * fz)) (tx / gx + ty / gy + 2 * tz + xs) _ _ (by ring) (by ring)]
  · simp only [Sn.evalCDDFF]
    rw [key (q + 2 * (tx * fx + ty * fy + tz * fz)) (tx / gx + ty / gy + 2 * tz + xs) (q / c + 2 * (tx / c * fx + ty / c * fy + tz / c * fz)) (tx / c / gx + ty / c / gy + 2 * (tz / c) + xs / c)
        (by ring) (by ring),
      key (q + 2 * (tx * fx + ty * fy) + tz * fz) (tx / gx + ty / gy + xs) (q / c + 2 * (tx / c * fx + ty / c * fy) + tz / c * fz) (tx / c / gx + ty / c / gy + xs / c) (by ring) (by ring)]
  · simp only [Sn.evalCDDFW]
    rw [key (q + 2 * (tx * fx + ty * fy) + tz * fz) (tx / gx + ty / gy + tz + xs) _ _ (by ring) (by ring)]
  · simp only [Sn.evalCDDSC]
    rw [key xs tz _ _ rfl rfl]
    rw [key (q + 2 * (tx * fx + ty * fy) + tz * (Sn.rho expo (xs / tz) / (1 - Sn.rho expo (xs / tz)) + 1) * fz) (tx / gx + ty / gy + tz / (1 - Sn.rho expo (xs / tz)) + xs) _ _ (by ring) (by ring)]

/-- An ordinate in the two units. -/
def UnitOrd {κ : Type} (c : K) (o o' : SnOrd κ K) : Prop := o'.iang = o.iang ∧ ∀ q xs, o'.loops (fun i => q i / c) (fun i => xs i / c) = o.loops q xs

theorem C160_ord3 (c : K) (d : Mesh.Dims) (dx dy dz : Nat → K) (a : Nat) (ox oy oz wgt : K) (sch sch' : Nat → Scheme3 K) (h : ∀ i, UnitScheme3 c (sch i) (sch' i)) :
    UnitOrd c (ord3 d dx dy dz a ox oy oz wgt sch) (ord3 d (fun i => c * dx i) (fun i => c * dy i) (fun i => c * dz i) a ox oy oz wgt sch') := by
  refine ⟨rfl, fun q xs => ?_⟩
  have e : ∀ x y : K, x / (c * y) = x / y / c := fun x y => by rw [div_div, mul_comm]
  simp only [ord3, e, h _ _ _ _ _ _ _ _ _]

theorem C160_ord2 (c : K) (d : Mesh.Dims) (dx dy : Nat → K) (a : Nat) (ox oy wgt : K) (sch sch' : Nat → Scheme2 K) (h : ∀ i, UnitScheme2 c (sch i) (sch' i)) :
    UnitOrd c (ord2 d dx dy a ox oy wgt sch) (ord2 d (fun i => c * dx i) (fun i => c * dy i) a ox oy wgt sch') := by
  refine ⟨rfl, fun q xs => ?_⟩
  have e : ∀ x y : K, x / (c * y) = x / y / c := fun x y => by rw [div_div, mul_comm]
  simp only [ord2, e, h _ _ _ _ _ _ _]

/-- Sweepers in the two units. -/
structure UnitSn {κ : Type} (c : K) (m m' : SnSetup κ K) : Prop where
  fpi : m'.fpi = m.fpi
  gs : m'.gs = m.gs
  u : m'.u = m.u
  inner : m'.nInner = m.nInner
  ords : List.Forall₂ (UnitOrd c) m.ords m'.ords

/-- The state in the other unit: only the source per volume has another value. -/
def unitState {κ : Type} (c : K) (s : SnState κ K) : SnState κ K := { s with q := fun i => s.q i / c }

variable {κ : Type}

/-- C160: an Sn sweep of one group. -/
theorem C160_sn_sweep (c : K) (m m' : SnSetup κ K) (h : UnitSn c m m') (q xs : Nat → K) (bin bout : Nat → κ → Nat → K) :
    snSweep1g m' (fun i => q i / c) (fun i => xs i / c) bin bout = snSweep1g m q xs bin bout := by
  have key : ∀ (l l' : List (SnOrd κ K)), List.Forall₂ (UnitOrd c) l l' → ∀ s, l'.foldl (snOrdinate m' (fun i => q i / c) fun i => xs i / c) s = l.foldl (snOrdinate m q xs) s := by
    intro l l' hl
    induction hl with
    | nil => exact fun s => rfl
    | cons ho _ ih =>
      intro s
      rw [List.foldl_cons, List.foldl_cons, ih]
      congr 1
      simp only [snOrdinate, ho.1, ho.2, h.gs, h.u]
  simp only [snSweep1g, key _ _ h.ords, h.gs, h.u]

/-- C160: the inner iterations of a group, Sn. -/
theorem C160_sn_group (c e : K) (hc : 0 < c) (m m' : SnSetup κ K) (h : UnitSn c m m') (g : Nat) (hg : g < p.ng) (src : Nat → K) (s : SnState κ K) :
    snSweep (unitProblem c e p) m' g (fun i => src i / c) (unitState c s) = unitState c (snSweep p m g src s) := by
  have one : ∀ s, snInner (unitProblem c e p) m' g (fun i => src i / c) (unitState c s) = unitState c (snInner p m g src s) := by
    intro s
    simp only [snInner, unitProblem, unitState, trOf_unit, h.fpi, (selfScatter_unit c hc m.fpi p.ng p.rs s.flux g hg src s.q).2, C160_sn_sweep c m m' h]
  unfold snSweep
  rw [h.inner]
  have key : ∀ (l : List Nat) s, l.foldl (fun s _ => snInner (unitProblem c e p) m' g (fun i => src i / c) s) (unitState c s) = unitState c (l.foldl (fun s _ => snInner p m g src s) s) := by
    intro l
    induction l with
    | nil => exact fun s => rfl
    | cons _ l ih => exact fun s => by rw [List.foldl_cons, List.foldl_cons, one, ih]
  simp only [key]
  rfl

theorem C160_sn_groups (c e : K) (hc : 0 < c) (m m' : SnSetup κ K) (h : UnitSn c m m') (base : Nat → Nat → K) (n g : Nat) (hg : g + n ≤ p.ng) (s : SnState κ K) :
    srcLoop (unitProblem c e p) (snSweeper (unitProblem c e p) m') (fun g i => base g i / c) n g (unitState c s) = unitState c (srcLoop p (snSweeper p m) base n g s) := by
  induction n generalizing g s with
  | zero => rfl
  | succ n ih =>
    rw [srcLoop, srcLoop, ← ih (g + 1) (by omega)]
    congr 1
    show snSweep _ _ g (inScatter p.ng (p.rs.map fun x => ⟨unitMat c x.mat, x.regs⟩) s.flux g fun i => base g i / c) (unitState c s) =
      unitState c (snSweep p m g (inScatter p.ng p.rs s.flux g (base g)) s)
    rw [inScatter_unit c hc p.ng p.rs s.flux g (by omega), C160_sn_group p c e hc m m' h g (by omega)]

/-- C160: any number of outer iterations, Sn. -/
theorem C160_sn (c e : K) (hc : 0 < c) (he : e ≠ 0) (m m' : SnSetup κ K) (h : UnitSn c m m') (n : Nat) (k : K) (s : SnState κ K) :
    outers (unitProblem c e p) (snSweeper (unitProblem c e p) m') n k (unitState c s) = (outers p (snSweeper p m) n k s).map fun r => (r.1, unitState c r.2) := by
  exact outers_unit p c e hc he (snSweeper p m) (snSweeper (unitProblem c e p) m') (unitState c) (fun _ => rfl) (fun base s => C160_sn_groups p c e hc m m' h base p.ng 0 (by omega) s) n k s

/-- C160: any number of steps with an external source, Sn. -/
theorem C160_sn_fixed (c e : K) (hc : 0 < c) (m m' : SnSetup κ K) (h : UnitSn c m m') (ext ext' : Option (Ext K)) (E : Nat → Nat → K)
    (hE : ∀ g < p.ng, initializeGroup p.nReg ext g = some (E g)) (hE' : ∀ g < p.ng, initializeGroup p.nReg ext' g = some fun i => E g i / c) (n : Nat) (s : SnState κ K) :
    fixedSteps (unitProblem c e p) (snSweeper (unitProblem c e p) m') ext' n (unitState c s) = (fixedSteps p (snSweeper p m) ext n s).map (unitState c) := by
  induction n generalizing s with
  | zero => rfl
  | succ n ih =>
    rw [fixedSteps, fixedSteps, extLoop_eq p _ ext E p.ng 0 fun g _ hg => hE g (by omega),
      extLoop_eq (unitProblem c e p) _ ext' (fun g i => E g i / c) (unitProblem c e p).ng 0 fun g _ hg => hE' g (by have : (unitProblem c e p).ng = p.ng := rfl; omega),
      Option.bind_some, Option.bind_some, show (unitProblem c e p).ng = p.ng from rfl, C160_sn_groups p c e hc m m' h E p.ng 0 (by omega)]
    exact ih _

/-- The claim for the scheme with parabolic moments: its ordinates do the same in every unit. -/
def C160_claim : Prop :=
  ∀ (c : ℚ), 0 < c → ∀ (d : Mesh.Dims) (dx dy dz : Nat → ℚ) (a : Nat) (ox oy oz wgt : ℚ), (∀ i, 0 < dx i ∧ 0 < dy i ∧ 0 < dz i) → ox ≠ 0 → oy ≠ 0 → oz ≠ 0 →
    UnitOrd c (ord3 d dx dy dz a ox oy oz wgt fun i => Sn.evalPMB (dz (Sn.pmbDzIndex d.nx d.ny i)) oz)
      (ord3 d (fun i => c * dx i) (fun i => c * dy i) (fun i => c * dz i) a ox oy oz wgt fun i => Sn.evalPMB (c * dz (Sn.pmbDzIndex d.nx d.ny i)) oz)

/-- C160: it does not, for one cell of unit size, unit source and cross section, in millimetres instead of centimetres. -/
theorem C160_claim_false : ¬ C160_claim := by
  intro h
  have := congrFun ((h 10 (by norm_num) ⟨1, 1, 1⟩ (fun _ => 1) (fun _ => 1) (fun _ => 1) 0 (1 / 2) (1 / 2) (1 / 2) 1 (fun _ => by norm_num) (by norm_num) (by norm_num) (by norm_num)).2
    (fun _ => 1) fun _ => 1) ⟨fun _ _ => 0, fun _ => 0, fun _ => (0, fun _ => 0)⟩
  have := congrFun (congrArg Sn.State.tflux this) 0
  revert this
  decide +kernel

end

/-! ### Examples -/

/-- The calculation of C159 in millimetres: the same state after any number of iterations, with either update. -/
example (gs : Bool) (n : Nat) (k : ℚ) :
    outers (unitProblem 10 (10 * 10) pairProblem) (mocSweeper (unitProblem 10 (10 * 10) pairProblem) (unitMoc 10 10 (alongMoc pairStore.types gs alongPlane 3))) n k brightState =
      outers pairProblem (mocSweeper pairProblem (alongMoc pairStore.types gs alongPlane 3)) n k brightState :=
  C160_moc pairProblem _ 10 10 (by norm_num) (by norm_num) n k brightState

/-- The problem in millimetres is another one. -/
example : trOf (unitProblem 10 100 pairProblem).rs 0 0 = trOf pairProblem.rs 0 0 / 10 ∧ trOf pairProblem.rs 0 0 ≠ 0 := by decide +kernel

/-- The pair of cells of C156 in millimetres. -/
def wideSn (gs : Bool) : SnSetup Sn.Ax2 ℚ :=
  ⟨4, gs, snUpdate (sideStore pairStore.types) norm2 ax2, [2, 0, 3, 1].map fun a => ord2 ⟨2, 1, 1⟩ (fun i => 10 * pairWidth i) (fun _ => 10 * 1) a (pairAngle a).ox (pairAngle a).oy 1
    fun _ => Sn.evalDD2, 3⟩

/-- The hypotheses of `C160_sn` hold for it. -/
theorem side_unit (gs : Bool) : UnitSn (10 : ℚ) (sideSn pairStore.types pairWidth gs [2, 0, 3, 1] 3) (wideSn gs) where
  fpi := rfl
  gs := rfl
  u := rfl
  inner := rfl
  ords := by
    have h : ∀ a, UnitOrd (10 : ℚ) (ord2 ⟨2, 1, 1⟩ pairWidth (fun _ => 1) a (pairAngle a).ox (pairAngle a).oy 1 fun _ => Sn.evalDD2)
        (ord2 ⟨2, 1, 1⟩ (fun i => 10 * pairWidth i) (fun _ => 10 * 1) a (pairAngle a).ox (pairAngle a).oy 1 fun _ => Sn.evalDD2) :=
      fun a => C160_ord2 10 _ _ _ _ _ _ _ _ _ fun _ => (C160_schemes 10 (by norm_num)).2.1
    exact .cons (h 2) (.cons (h 0) (.cons (h 3) (.cons (h 1) .nil)))

example (gs : Bool) (n : Nat) (k : ℚ) : outers (unitProblem 10 100 pairProblem) (snSweeper (unitProblem 10 100 pairProblem) (wideSn gs)) n k (unitState 10 evenState) =
    (outers pairProblem (snSweeper pairProblem (sideSn pairStore.types pairWidth gs [2, 0, 3, 1] 3)) n k evenState).map fun r => (r.1, unitState 10 r.2) :=
  C160_sn pairProblem 10 100 (by norm_num) (by norm_num) _ _ (side_unit gs) n k evenState

/-- The hypotheses of `C160_moc_fixed` and `C160_sn_fixed` hold: a source of 5, which is 1/2 in millimetres for the same flux. -/
example : ∀ g < pairProblem.ng, initializeGroup pairProblem.nReg (some ⟨2, 2, fun i g => if g = 0 ∧ i = 0 then (5 : ℚ) else 0⟩) g =
      some ((initializeGroup 2 (some (⟨2, 2, fun i g => if g = 0 ∧ i = 0 then 5 else 0⟩ : Ext ℚ)) g).getD fun _ => 0) ∧
    initializeGroup pairProblem.nReg (some ⟨2, 2, fun i g => if g = 0 ∧ i = 0 then (1 / 2 : ℚ) else 0⟩) g =
      some fun i => ((initializeGroup 2 (some (⟨2, 2, fun i g => if g = 0 ∧ i = 0 then 5 else 0⟩ : Ext ℚ)) g).getD fun _ => 0) i / 10 := by
  intro g hg
  have hg : g < 2 := hg
  have e : ∀ i : Nat, (Function.update (Function.update (fun _ => (0 : ℚ)) 0 (if g = 0 ∧ 0 = 0 then 1 / 2 else 0)) 1 (if g = 0 ∧ 1 = 0 then 1 / 2 else 0)) i =
      (Function.update (Function.update (fun _ => (0 : ℚ)) 0 (if g = 0 ∧ 0 = 0 then 5 else 0)) 1 (if g = 0 ∧ 1 = 0 then 5 else 0)) i / 10 := by
    intro i
    simp only [Function.update_apply]
    split_ifs <;> norm_num
  interval_cases g
  · exact ⟨rfl, congrArg some (funext e)⟩
  · exact ⟨rfl, congrArg some (funext e)⟩

end Verif.Medium
