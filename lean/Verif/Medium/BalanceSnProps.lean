import Verif.Medium.BalanceProps
import Verif.Sn.SweepProps
import Verif.Sn.CellProps

/-!
# C110 with Sn
-/

set_option linter.unusedSectionVars false

namespace Verif.Medium

open Verif.XS Verif.Source

section
variable {K : Type} [Field K] [LinearOrder K] [IsStrictOrderedRing K]

/-- The cell loops of an ordinate keep the balance: collisions plus what the faces `face` gain are the source, all of it times the weight. -/
def OrdBal {κ : Type} (nReg : Nat) (vol : Nat → K) (wgt : K) (face : (κ → Nat → K) → K) (o : SnOrd κ K) : Prop :=
  ∀ (q xs : Nat → K) (s : Sn.State κ K), (∀ i < nReg, 0 < xs i) →
    (∑ i ∈ Finset.range nReg, vol i * (xs i * ((o.loops q xs s).tflux i - s.tflux i))) + wgt * (face (o.loops q xs s).flux - face s.flux) =
      wgt * ∑ i ∈ Finset.range nReg, vol i * q i

/-- What leaves minus what enters in the ordinates of a list, from the state `s` on. -/
def snLeak {κ : Type} (m : SnSetup κ K) (wgt : SnOrd κ K → K) (face : SnOrd κ K → (κ → Nat → K) → K) (q xs : Nat → K) : List (SnOrd κ K) → SnPass κ K → K
  | [], _ => 0
  | o :: l, s => wgt o * (face o ((snOrdinate m q xs s o).bout o.iang) - face o (s.bin o.iang)) + snLeak m wgt face q xs l (snOrdinate m q xs s o)

theorem ords_balance {κ : Type} (nReg : Nat) (vol : Nat → K) (m : SnSetup κ K) (wgt : SnOrd κ K → K) (face : SnOrd κ K → (κ → Nat → K) → K) (q xs : Nat → K)
    (hxs : ∀ i < nReg, 0 < xs i) (l : List (SnOrd κ K)) (hl : ∀ o ∈ l, OrdBal nReg vol (wgt o) (face o) o) (s : SnPass κ K) :
    (∑ i ∈ Finset.range nReg, vol i * (xs i * ((l.foldl (snOrdinate m q xs) s).tflux i - s.tflux i))) + snLeak m wgt face q xs l s =
      (l.map wgt).sum * ∑ i ∈ Finset.range nReg, vol i * q i := by
  induction l generalizing s with
  | nil => simp [snLeak]
  | cons o l ih =>
    have h1 := hl o (by simp) q xs ⟨s.bin o.iang, s.tflux, fun _ => (0, fun _ => 0)⟩ hxs
    have h2 := ih (fun o ho => hl o (by simp [ho])) (snOrdinate m q xs s o)
    rw [List.foldl_cons, List.map_cons, List.sum_cons, snLeak]
    have e1 : (snOrdinate m q xs s o).bout o.iang = (o.loops q xs ⟨s.bin o.iang, s.tflux, fun _ => (0, fun _ => 0)⟩).flux := by simp [snOrdinate]
    have e2 : (snOrdinate m q xs s o).tflux = (o.loops q xs ⟨s.bin o.iang, s.tflux, fun _ => (0, fun _ => 0)⟩).tflux := rfl
    rw [e1]
    rw [e2] at h2
    dsimp only at h1
    have h3 : ∑ i ∈ Finset.range nReg, vol i * (xs i * ((l.foldl (snOrdinate m q xs) (snOrdinate m q xs s o)).tflux i - s.tflux i)) =
        (∑ i ∈ Finset.range nReg, vol i * (xs i * ((l.foldl (snOrdinate m q xs) (snOrdinate m q xs s o)).tflux i -
          (o.loops q xs ⟨s.bin o.iang, s.tflux, fun _ => (0, fun _ => 0)⟩).tflux i))) +
        ∑ i ∈ Finset.range nReg, vol i * (xs i * ((o.loops q xs ⟨s.bin o.iang, s.tflux, fun _ => (0, fun _ => 0)⟩).tflux i - s.tflux i)) := by
      rw [← Finset.sum_add_distrib]
      exact Finset.sum_congr rfl fun i _ => by ring
    rw [h3, add_mul]
    linear_combination h1 + h2

/-- Leakage in an inner iteration of Sn. -/
def snLeakOf {κ : Type} (p : Problem K) (m : SnSetup κ K) (wgt : SnOrd κ K → K) (face : SnOrd κ K → (κ → Nat → K) → K) (g : Nat) (src : Nat → K) (s : SnState κ K) : K :=
  snLeak m wgt face (selfScatter m.fpi p.ng p.rs s.flux g src false s.q) (trOf p.rs g) m.ords ⟨fun _ => 0, s.bin g, s.bout⟩

/-- C110: balance of an inner iteration of Sn. -/
theorem C110_sn_inner {κ : Type} (p : Problem K) (part : Partition p.rs) (cover : ∀ i, i < p.nReg ↔ ∃ x ∈ p.rs, i ∈ x.regs)
    (m : SnSetup κ K) (wgt : SnOrd κ K → K) (face : SnOrd κ K → (κ → Nat → K) → K) (hm : ∀ o ∈ m.ords, OrdBal p.nReg p.vol (wgt o) (face o) o)
    (hfpi : m.fpi ≠ 0) (htot : (m.ords.map wgt).sum = m.fpi) (g : Nat) (hg : g < p.ng) (htr : ∀ x ∈ p.rs, 0 < x.mat.tr g) (src : Nat → K) (s : SnState κ K) :
    (regionSum p.rs fun mat i => p.vol i * (mat.tr g * (snInner p m g src s).flux i g)) + snLeakOf p m wgt face g src s =
      regionSum p.rs fun mat i => p.vol i * (src i + mat.sc g g * s.flux i g) := by
  set q := selfScatter m.fpi p.ng p.rs s.flux g src false s.q with hq
  have hx : ∀ x ∈ p.rs, ∀ i ∈ x.regs, trOf p.rs g i = x.mat.tr g := fun x hx i hi => trOf_at p.rs part g x hx i hi
  have hpos : ∀ i < p.nReg, 0 < trOf p.rs g i := by
    intro i hi
    obtain ⟨x, h1, h2⟩ := (cover i).mp hi
    rw [hx x h1 i h2]
    exact htr x h1
  have h := ords_balance p.nReg p.vol m wgt face q (trOf p.rs g) hpos m.ords hm ⟨fun _ => 0, s.bin g, s.bout⟩
  rw [htot] at h
  have e1 : (regionSum p.rs fun mat i => p.vol i * (mat.tr g * (snInner p m g src s).flux i g)) =
      ∑ i ∈ Finset.range p.nReg, p.vol i * (trOf p.rs g i * ((m.ords.foldl (snOrdinate m q (trOf p.rs g)) ⟨fun _ => 0, s.bin g, s.bout⟩).tflux i - 0)) := by
    rw [sum_regions p.nReg p.rs part cover]
    refine regionSum_congr _ _ _ fun x h1 i hi => ?_
    rw [hx x h1 i hi, sub_zero]
    simp only [snInner, snSweep1g, if_pos, ← hq]
  have e2 : (regionSum p.rs fun mat i => p.vol i * (src i + mat.sc g g * s.flux i g)) = m.fpi * ∑ i ∈ Finset.range p.nReg, p.vol i * q i := by
    rw [Finset.mul_sum, sum_regions p.nReg p.rs part cover]
    refine regionSum_congr _ _ _ fun x h1 i hi => ?_
    rw [hq, selfScatter_at m.fpi p.ng p.rs part s.flux g hg src false s.q x h1 i hi]
    simp only [Bool.false_eq_true, if_false]
    field_simp
  rw [e1, e2, snLeakOf, ← hq]
  exact h

theorem snSweep_only {κ : Type} (p : Problem K) (m : SnSetup κ K) : OnlyGroup (snSweeper p m) := by
  intro g src s i h hne
  have := C109_sn_fix p m g src s i h
  dsimp only at this
  rw [if_neg hne] at this
  exact this

/-- C110, Sn: an eigenvalue calculation with one inner iteration whose flux is positive and left as it is by an outer iteration: `k` is production divided
by absorption plus leakage. -/
theorem C110_sn {κ : Type} (p : Problem K) (part : Partition p.rs) (cover : ∀ i, i < p.nReg ↔ ∃ x ∈ p.rs, i ∈ x.regs) (hsc : ∀ x ∈ p.rs, Source.NonNeg p.ng x.mat)
    (htr : ∀ x ∈ p.rs, ∀ g < p.ng, 0 < x.mat.tr g)
    (hch : ∀ x ∈ p.rs, (∃ g < p.ng, x.mat.nf g ≠ 0) → ∑ g ∈ Finset.range p.ng, x.mat.ch g = 1)
    (m : SnSetup κ K) (wgt : SnOrd κ K → K) (face : SnOrd κ K → (κ → Nat → K) → K) (hm : ∀ o ∈ m.ords, OrdBal p.nReg p.vol (wgt o) (face o) o)
    (hfpi : m.fpi ≠ 0) (htot : (m.ords.map wgt).sum = m.fpi) (hin : m.nInner = 1)
    (k k' : K) (hk : k ≠ 0) (s s' : SnState κ K) (h : outer p (snSweeper p m) k s = some (k', s'))
    (hfix : ∀ i < p.nReg, ∀ g < p.ng, s'.flux i g = s.flux i g) (hpos : ∀ i < p.nReg, ∀ g < p.ng, 0 < s.flux i g) :
    ∃ leak : Nat → K, (∀ g < p.ng, ∃ t src, AtGroup p (snSweeper p m) k s g t src ∧ leak g = snLeakOf p m wgt face g src t) ∧
      production p s.flux = k * (absorption p s.flux + ∑ g ∈ Finset.range p.ng, leak g) ∧ (production p s.flux ≠ 0 → k' = k) := by
  refine C110_any p part cover hsc hch (snSweeper p m) (snSweep_only p m) (snLeakOf p m wgt face) k k' hk s s' h (fun g hg t src _ hf => ?_) hfix
  rw [show (regionSum p.rs fun mat i => p.vol i * (mat.tr g * (snSweeper p m).flux ((snSweeper p m).sweep g src t) i g)) =
    regionSum p.rs fun mat i => p.vol i * (mat.tr g * (snInner p m g src t).flux i g) from ?_]
  · exact C110_sn_inner p part cover m wgt face hm hfpi htot g hg (fun x hx => htr x hx g hg) src t
  · refine regionSum_congr _ _ _ fun x hx i hi => ?_
    have hi' : i < p.nReg := (cover i).mpr ⟨x, hx, hi⟩
    have h1 := C109_sn_fix p m g src t i g
    have h2 : (snSweep p m g src t).flux i g = s.flux i g := hf i hi'
    have h3 := hpos i hi' g hg
    simp only [hin, List.range_one, List.foldl_cons, List.foldl_nil, if_true] at h1
    show p.vol i * (x.mat.tr g * (snSweep p m g src t).flux i g) = _
    rw [h1]
    rw [h2] at h1
    rw [h1] at h3
    rcases lt_max_iff.mp h3 with h4 | h4
    · rw [max_eq_left h4.le]
    · exact absurd h4 (lt_irrefl _)

/-! ### Closed systems -/

theorem sn_jacobi {κ : Type} (m : SnSetup κ K) (hgs : m.gs = false) (q xs : Nat → K) (l : List (SnOrd κ K)) (s : SnPass κ K) :
    (l.foldl (snOrdinate m q xs) s).bin = s.bin ∧ ∀ a, a ∉ l.map SnOrd.iang → (l.foldl (snOrdinate m q xs) s).bout a = s.bout a := by
  induction l generalizing s with
  | nil => exact ⟨rfl, fun _ _ => rfl⟩
  | cons o l ih =>
    rw [List.foldl_cons]
    obtain ⟨h1, h2⟩ := ih (snOrdinate m q xs s o)
    refine ⟨?_, fun a ha => ?_⟩
    · rw [h1]; simp [snOrdinate, hgs]
    · simp only [List.map_cons, List.mem_cons, not_or] at ha
      rw [h2 a ha.2]
      simp [snOrdinate, ha.1]

/-- Weighted sum of boundary values over the ordinates. -/
def faceSum {κ : Type} (wgt : SnOrd κ K → K) (face : SnOrd κ K → (κ → Nat → K) → K) (l : List (SnOrd κ K)) (b : Nat → κ → Nat → K) : K :=
  (l.map fun o => wgt o * face o (b o.iang)).sum

theorem sn_jacobi_leak {κ : Type} (m : SnSetup κ K) (hgs : m.gs = false) (wgt : SnOrd κ K → K) (face : SnOrd κ K → (κ → Nat → K) → K) (q xs : Nat → K)
    (l : List (SnOrd κ K)) (hn : (l.map SnOrd.iang).Nodup) (s : SnPass κ K) :
    snLeak m wgt face q xs l s = faceSum wgt face l (l.foldl (snOrdinate m q xs) s).bout - faceSum wgt face l s.bin := by
  induction l generalizing s with
  | nil => simp [snLeak, faceSum]
  | cons o l ih =>
    rw [List.map_cons, List.nodup_cons] at hn
    have h1 := ih hn.2 (snOrdinate m q xs s o)
    have h2 := (sn_jacobi m hgs q xs l (snOrdinate m q xs s o)).2 o.iang hn.1
    have h3 : (snOrdinate m q xs s o).bin = s.bin := by simp [snOrdinate, hgs]
    rw [h3] at h1
    rw [snLeak, h1, List.foldl_cons]
    simp only [faceSum, List.map_cons, List.sum_cons]
    rw [h2]
    ring

/-- What comes in after an update is what went out. -/
def SnClosed {κ : Type} (wgt : SnOrd κ K → K) (face : SnOrd κ K → (κ → Nat → K) → K) (u : SnUpdate κ K) (l : List (SnOrd κ K)) : Prop :=
  ∀ b o, faceSum wgt face l (u.all b o) = faceSum wgt face l o

/-- C110, Sn: in a closed system with Jacobi update nothing leaks once the incoming values are unchanged. -/
theorem C110_sn_closed {κ : Type} (p : Problem K) (m : SnSetup κ K) (wgt : SnOrd κ K → K) (face : SnOrd κ K → (κ → Nat → K) → K) (hgs : m.gs = false)
    (hn : (m.ords.map SnOrd.iang).Nodup) (hcl : SnClosed wgt face m.u m.ords) (g : Nat) (src : Nat → K) (s : SnState κ K)
    (hfix : faceSum wgt face m.ords ((snInner p m g src s).bin g) = faceSum wgt face m.ords (s.bin g)) : snLeakOf p m wgt face g src s = 0 := by
  rw [snLeakOf, sn_jacobi_leak m hgs wgt face _ _ m.ords hn]
  have h1 : (snInner p m g src s).bin g = m.u.all (s.bin g)
      (m.ords.foldl (snOrdinate m (selfScatter m.fpi p.ng p.rs s.flux g src false s.q) (trOf p.rs g)) ⟨fun _ => 0, s.bin g, s.bout⟩).bout := by
    simp only [snInner, snSweep1g, if_true, hgs, Bool.false_eq_true, if_false]
    rw [(sn_jacobi m hgs _ _ m.ords _).1]
  rw [h1, hcl] at hfix
  rw [hfix, sub_self]

/-- C110, Sn: in a closed system with Jacobi update a converged positive flux has `k` equal to production divided by absorption. -/
theorem C110_sn_k {κ : Type} (p : Problem K) (part : Partition p.rs) (cover : ∀ i, i < p.nReg ↔ ∃ x ∈ p.rs, i ∈ x.regs) (hsc : ∀ x ∈ p.rs, Source.NonNeg p.ng x.mat)
    (htr : ∀ x ∈ p.rs, ∀ g < p.ng, 0 < x.mat.tr g)
    (hch : ∀ x ∈ p.rs, (∃ g < p.ng, x.mat.nf g ≠ 0) → ∑ g ∈ Finset.range p.ng, x.mat.ch g = 1)
    (m : SnSetup κ K) (wgt : SnOrd κ K → K) (face : SnOrd κ K → (κ → Nat → K) → K) (hm : ∀ o ∈ m.ords, OrdBal p.nReg p.vol (wgt o) (face o) o)
    (hfpi : m.fpi ≠ 0) (htot : (m.ords.map wgt).sum = m.fpi) (hin : m.nInner = 1) (hgs : m.gs = false)
    (hn : (m.ords.map SnOrd.iang).Nodup) (hcl : SnClosed wgt face m.u m.ords)
    (k k' : K) (hk : k ≠ 0) (s s' : SnState κ K) (h : outer p (snSweeper p m) k s = some (k', s'))
    (hfix : ∀ i < p.nReg, ∀ g < p.ng, s'.flux i g = s.flux i g) (hpos : ∀ i < p.nReg, ∀ g < p.ng, 0 < s.flux i g)
    (hbc : ∀ g < p.ng, faceSum wgt face m.ords (s'.bin g) = faceSum wgt face m.ords (s.bin g)) :
    production p s.flux = k * absorption p s.flux := by
  obtain ⟨leak, h1, h2, -⟩ := C110_sn p part cover hsc htr hch m wgt face hm hfpi htot hin k k' hk s s' h hfix hpos
  rw [h2, Finset.sum_eq_zero, add_zero]
  intro g hg
  have hg := Finset.mem_range.mp hg
  obtain ⟨t, src, ⟨ha, hb⟩, hl⟩ := h1 g hg
  have hsw : ∀ g src t, ((snSweeper p m).sweep g src t).bin = (snInner p m g src t).bin := by
    intro g src t
    show (snSweep p m g src t).bin = _
    simp [snSweep, hin]
  have hF : ∀ g src s h, h ≠ g → ((snSweeper p m).sweep g src s).bin h = s.bin h := by
    intro g src s h hne
    rw [hsw]
    simp only [snInner, if_neg hne]
  have ht1 : t.bin g = s.bin g := loop_other p (snSweeper p m) SnState.bin hF _ _ _ _ _ ha g (by omega)
  have hs' : s'.bin g = (snInner p m g src t).bin g := by
    rw [outer] at h
    obtain ⟨u, h3, h4⟩ := Option.map_eq_some_iff.mp h
    rw [Prod.mk.injEq] at h4
    obtain ⟨-, rfl⟩ := h4
    obtain ⟨b, hbn⟩ : ∃ b, p.ng = g + (b + 1) := ⟨p.ng - g - 1, by omega⟩
    have hsp := groupLoop_split p (snSweeper p m) (calcFissionSource p.ng p.rs k ((snSweeper p m).flux s)) g (b + 1) 0 s
    rw [← hbn, h3, ha, Option.bind_some, Nat.zero_add, groupLoop, hb, Option.bind_some] at hsp
    rw [loop_other p (snSweeper p m) SnState.bin hF _ _ _ _ _ hsp.symm g (by omega), hsw]
  rw [hl]
  refine C110_sn_closed p m wgt face hgs hn hcl g src t ?_
  rw [← hs', ht1]
  exact hbc g hg

/-! ### Ordinates -/

theorem sum_mul_range (a b : Nat) (f : Nat → K) : ∑ i ∈ Finset.range (a * b), f i = ∑ j ∈ Finset.range b, ∑ i ∈ Finset.range a, f (a * j + i) := by
  induction b with
  | zero => simp
  | succ b ih => rw [Nat.mul_succ, Finset.sum_range_add, ih, Finset.sum_range_succ]

/-- Schemes that keep the balance of a cell. -/
def Bal3 (sch : Scheme3 K) : Prop := ∀ tx ty tz fx fy fz q xs, 0 < tx → 0 < ty → 0 < tz → 0 < xs → Sn.Balance3 tx ty tz fx fy fz q xs (sch tx ty tz fx fy fz q xs)

def Bal2 (sch : Scheme2 K) : Prop := ∀ tx ty fx fy q xs, 0 < tx → 0 < ty → 0 < xs → Sn.Balance2 tx ty fx fy q xs (sch tx ty fx fy q xs)

/-- Values on the faces times area and direction cosine. -/
def face3 (d : Mesh.Dims) (dx dy dz : Nat → K) (ox oy oz : K) (f : Sn.Ax3 → Nat → K) : K :=
  (∑ iz ∈ Finset.range d.nz, ∑ iy ∈ Finset.range d.ny, |ox| * dy iy * dz iz * f .x (d.ny * iz + iy)) +
  (∑ iz ∈ Finset.range d.nz, ∑ ix ∈ Finset.range d.nx, |oy| * dx ix * dz iz * f .y (d.nx * iz + ix)) +
  ∑ iy ∈ Finset.range d.ny, ∑ ix ∈ Finset.range d.nx, |oz| * dx ix * dy iy * f .z (d.nx * iy + ix)

def face2 (d : Mesh.Dims) (dx dy : Nat → K) (ox oy : K) (f : Sn.Ax2 → Nat → K) : K :=
  (∑ iy ∈ Finset.range d.ny, |ox| * dy iy * f .x iy) + ∑ ix ∈ Finset.range d.nx, |oy| * dx ix * f .y ix

/-- C110: an ordinate in three dimensions with a scheme of that kind in every cell keeps the balance. -/
theorem C110_ord3 (d : Mesh.Dims) (hnx : 0 < d.nx) (hny : 0 < d.ny) (hnz : 0 < d.nz) (dx dy dz : Nat → K) (hdx : ∀ i, 0 < dx i) (hdy : ∀ i, 0 < dy i) (hdz : ∀ i, 0 < dz i)
    (vol : Nat → K) (hvol : ∀ ix < d.nx, ∀ iy < d.ny, ∀ iz < d.nz, vol (Mesh.coarseCell d ⟨ix, iy, iz⟩) = dx ix * dy iy * dz iz)
    (iang : Nat) (ox oy oz wgt : K) (hox : ox ≠ 0) (hoy : oy ≠ 0) (hoz : oz ≠ 0) (sch : Nat → Scheme3 K) (hsch : ∀ i, Bal3 (sch i)) :
    OrdBal (d.nx * d.ny * d.nz) vol wgt (face3 d dx dy dz ox oy oz) (ord3 d dx dy dz iang ox oy oz wgt sch) := by
  intro q xs s hxs
  have cellLt : ∀ ix iy iz, ix < d.nx → iy < d.ny → iz < d.nz → Mesh.coarseCell d ⟨ix, iy, iz⟩ < d.nx * d.ny * d.nz := by
    intro ix iy iz hx hy hz
    have h1 := slot_lt (slot_lt hx hy) hz
    have h2 : Mesh.coarseCell d ⟨ix, iy, iz⟩ = d.nx * d.ny * iz + (d.nx * iy + ix) := by
      unfold Mesh.coarseCell
      ring
    omega
  set ev : Nat → Nat → Nat → (Sn.Ax3 → K) → K × (Sn.Ax3 → K) := fun ix iy iz f =>
    let i := Mesh.coarseCell d ⟨ix, iy, iz⟩
    let o := sch i (|ox| / dx ix) (|oy| / dy iy) (|oz| / dz iz) (f .x) (f .y) (f .z) (q i) (xs i)
    (o.psi, fun | .x => o.x | .y => o.y | .z => o.z) with hev
  have hl : (ord3 d dx dy dz iang ox oy oz wgt sch).loops q xs s = Sn.sweep3 d (ox < 0) (oy < 0) (oz < 0) wgt ev s := rfl
  rw [hl]
  have hb := Sn.C30_global_balance d (ox < 0) (oy < 0) (oz < 0) wgt ev s |ox| |oy| |oz| dx dy dz
    (fun ix iy iz => xs (Mesh.coarseCell d ⟨ix, iy, iz⟩)) (fun ix iy iz => q (Mesh.coarseCell d ⟨ix, iy, iz⟩))
    (fun i => (hdx i).ne') (fun i => (hdy i).ne') (fun i => (hdz i).ne') hnx hny hnz
    (fun ix iy iz hx hy hz f => hsch (Mesh.coarseCell d ⟨ix, iy, iz⟩) _ _ _ _ _ _ _ _ (div_pos (abs_pos.mpr hox) (hdx ix)) (div_pos (abs_pos.mpr hoy) (hdy iy))
      (div_pos (abs_pos.mpr hoz) (hdz iz)) (hxs _ (cellLt ix iy iz hx hy hz)))
  dsimp only at hb
  set r := Sn.sweep3 d (ox < 0) (oy < 0) (oz < 0) wgt ev s with hr
  have toCells : ∀ f : Nat → K, ∑ i ∈ Finset.range (d.nx * d.ny * d.nz), f i =
      ∑ iz ∈ Finset.range d.nz, ∑ iy ∈ Finset.range d.ny, ∑ ix ∈ Finset.range d.nx, f (Mesh.coarseCell d ⟨ix, iy, iz⟩) := by
    intro f
    rw [sum_mul_range]
    refine Finset.sum_congr rfl fun iz _ => ?_
    rw [sum_mul_range d.nx d.ny fun j => f (d.nx * d.ny * iz + j)]
    refine Finset.sum_congr rfl fun iy _ => Finset.sum_congr rfl fun ix _ => ?_
    congr 1
    unfold Mesh.coarseCell
    ring
  rw [toCells, toCells]
  have e1 : (∑ iz ∈ Finset.range d.nz, ∑ iy ∈ Finset.range d.ny, ∑ ix ∈ Finset.range d.nx, vol (Mesh.coarseCell d ⟨ix, iy, iz⟩) *
      (xs (Mesh.coarseCell d ⟨ix, iy, iz⟩) * (r.tflux (Mesh.coarseCell d ⟨ix, iy, iz⟩) - s.tflux (Mesh.coarseCell d ⟨ix, iy, iz⟩)))) =
      wgt * ∑ iz ∈ Finset.range d.nz, ∑ iy ∈ Finset.range d.ny, ∑ ix ∈ Finset.range d.nx,
        dx ix * dy iy * dz iz * xs (Mesh.coarseCell d ⟨ix, iy, iz⟩) * (r.out (Mesh.coarseCell d ⟨ix, iy, iz⟩)).1 := by
    simp only [Finset.mul_sum]
    refine Finset.sum_congr rfl fun iz hz => Finset.sum_congr rfl fun iy hy => Finset.sum_congr rfl fun ix hx => ?_
    have hx := Finset.mem_range.mp hx
    have hy := Finset.mem_range.mp hy
    have hz := Finset.mem_range.mp hz
    have h := (Sn.C30_upwind d (ox < 0) (oy < 0) (oz < 0) wgt ev s ix iy iz hx hy hz).2
    rw [← hr] at h
    rw [hvol ix hx iy hy iz hz, h]
    ring
  have e2 : (∑ iz ∈ Finset.range d.nz, ∑ iy ∈ Finset.range d.ny, ∑ ix ∈ Finset.range d.nx, vol (Mesh.coarseCell d ⟨ix, iy, iz⟩) * q (Mesh.coarseCell d ⟨ix, iy, iz⟩)) =
      ∑ iz ∈ Finset.range d.nz, ∑ iy ∈ Finset.range d.ny, ∑ ix ∈ Finset.range d.nx, dx ix * dy iy * dz iz * q (Mesh.coarseCell d ⟨ix, iy, iz⟩) :=
    Finset.sum_congr rfl fun iz hz => Finset.sum_congr rfl fun iy hy => Finset.sum_congr rfl fun ix hx => by
      rw [hvol ix (Finset.mem_range.mp hx) iy (Finset.mem_range.mp hy) iz (Finset.mem_range.mp hz)]
  rw [e1, e2, ← hb]
  simp only [face3, mul_sub, Finset.sum_sub_distrib]
  ring

/-- C110: the same in two dimensions. -/
theorem C110_ord2 (d : Mesh.Dims) (hnx : 0 < d.nx) (hny : 0 < d.ny) (dx dy : Nat → K) (hdx : ∀ i, 0 < dx i) (hdy : ∀ i, 0 < dy i)
    (vol : Nat → K) (hvol : ∀ ix < d.nx, ∀ iy < d.ny, vol (Mesh.coarseCell d ⟨ix, iy, 0⟩) = dx ix * dy iy)
    (iang : Nat) (ox oy wgt : K) (hox : ox ≠ 0) (hoy : oy ≠ 0) (sch : Nat → Scheme2 K) (hsch : ∀ i, Bal2 (sch i)) :
    OrdBal (d.nx * d.ny) vol wgt (face2 d dx dy ox oy) (ord2 d dx dy iang ox oy wgt sch) := by
  intro q xs s hxs
  have cellEq : ∀ ix iy, Mesh.coarseCell d ⟨ix, iy, 0⟩ = d.nx * iy + ix := by
    intro ix iy
    unfold Mesh.coarseCell
    ring
  have cellLt : ∀ ix iy, ix < d.nx → iy < d.ny → Mesh.coarseCell d ⟨ix, iy, 0⟩ < d.nx * d.ny := by
    intro ix iy hx hy
    have h1 := slot_lt hx hy
    have h2 := cellEq ix iy
    omega
  set ev : Nat → Nat → (Sn.Ax2 → K) → K × (Sn.Ax2 → K) := fun ix iy f =>
    let i := Mesh.coarseCell d ⟨ix, iy, 0⟩
    let o := sch i (|ox| / dx ix) (|oy| / dy iy) (f .x) (f .y) (q i) (xs i)
    (o.psi, fun | .x => o.x | .y => o.y) with hev
  have hl : (ord2 d dx dy iang ox oy wgt sch).loops q xs s = Sn.sweep2 d (ox < 0) (oy < 0) wgt ev s := rfl
  rw [hl]
  have hb := Sn.C30_global_balance_2d d (ox < 0) (oy < 0) wgt ev s |ox| |oy| dx dy
    (fun ix iy => xs (Mesh.coarseCell d ⟨ix, iy, 0⟩)) (fun ix iy => q (Mesh.coarseCell d ⟨ix, iy, 0⟩))
    (fun i => (hdx i).ne') (fun i => (hdy i).ne') hnx hny
    (fun ix iy hx hy f => hsch (Mesh.coarseCell d ⟨ix, iy, 0⟩) _ _ _ _ _ _ (div_pos (abs_pos.mpr hox) (hdx ix)) (div_pos (abs_pos.mpr hoy) (hdy iy))
      (hxs _ (cellLt ix iy hx hy)))
  dsimp only at hb
  set r := Sn.sweep2 d (ox < 0) (oy < 0) wgt ev s with hr
  have toCells : ∀ f : Nat → K, ∑ i ∈ Finset.range (d.nx * d.ny), f i =
      ∑ iy ∈ Finset.range d.ny, ∑ ix ∈ Finset.range d.nx, f (Mesh.coarseCell d ⟨ix, iy, 0⟩) := by
    intro f
    rw [sum_mul_range]
    exact Finset.sum_congr rfl fun iy _ => Finset.sum_congr rfl fun ix _ => by rw [cellEq]
  rw [toCells, toCells]
  have e1 : (∑ iy ∈ Finset.range d.ny, ∑ ix ∈ Finset.range d.nx, vol (Mesh.coarseCell d ⟨ix, iy, 0⟩) *
      (xs (Mesh.coarseCell d ⟨ix, iy, 0⟩) * (r.tflux (Mesh.coarseCell d ⟨ix, iy, 0⟩) - s.tflux (Mesh.coarseCell d ⟨ix, iy, 0⟩)))) =
      wgt * ∑ iy ∈ Finset.range d.ny, ∑ ix ∈ Finset.range d.nx,
        dx ix * dy iy * xs (Mesh.coarseCell d ⟨ix, iy, 0⟩) * (r.out (Mesh.coarseCell d ⟨ix, iy, 0⟩)).1 := by
    simp only [Finset.mul_sum]
    refine Finset.sum_congr rfl fun iy hy => Finset.sum_congr rfl fun ix hx => ?_
    have hx := Finset.mem_range.mp hx
    have hy := Finset.mem_range.mp hy
    have h := (Sn.C30_upwind_2d d (ox < 0) (oy < 0) wgt ev s ix iy hx hy).2.1
    rw [← hr] at h
    rw [hvol ix hx iy hy, h]
    ring
  have e2 : (∑ iy ∈ Finset.range d.ny, ∑ ix ∈ Finset.range d.nx, vol (Mesh.coarseCell d ⟨ix, iy, 0⟩) * q (Mesh.coarseCell d ⟨ix, iy, 0⟩)) =
      ∑ iy ∈ Finset.range d.ny, ∑ ix ∈ Finset.range d.nx, dx ix * dy iy * q (Mesh.coarseCell d ⟨ix, iy, 0⟩) :=
    Finset.sum_congr rfl fun iy hy => Finset.sum_congr rfl fun ix hx => by rw [hvol ix (Finset.mem_range.mp hx) iy (Finset.mem_range.mp hy)]
  rw [e1, e2, ← hb]
  simp only [face2, mul_sub, Finset.sum_sub_distrib]
  ring

/-- C110: the schemes keep the balance, for all correction factors that are positive. -/
theorem C110_schemes (gx gy : K) (hx : 0 < gx) (hy : 0 < gy) :
    Bal3 (K := K) Sn.evalDD ∧ Bal2 (K := K) Sn.evalDD2 ∧ Bal2 (Sn.evalCDD2 gx gy) ∧ Bal3 (Sn.evalCDDDD gx gy) ∧ Bal3 (Sn.evalCDDFF gx gy) ∧ Bal3 (Sn.evalCDDFW gx gy) := by
  refine ⟨fun tx ty tz fx fy fz q xs h1 h2 h3 h4 => Sn.C29_dd _ _ _ _ _ _ _ _ (by positivity), fun tx ty fx fy q xs h1 h2 h3 => Sn.C29_dd_2d _ _ _ _ _ _ (by positivity),
    fun tx ty fx fy q xs h1 h2 h3 => Sn.C29_cdd_2d _ _ _ _ _ _ _ _ hx.ne' hy.ne' (by positivity),
    fun tx ty tz fx fy fz q xs h1 h2 h3 h4 => Sn.C29_cdd_dd _ _ _ _ _ _ _ _ _ _ (by positivity),
    fun tx ty tz fx fy fz q xs h1 h2 h3 h4 => (Sn.C29_cdd_ff _ _ _ _ _ _ _ _ _ _ (by positivity) h3.le).1,
    fun tx ty tz fx fy fz q xs h1 h2 h3 h4 => Sn.C29_cdd_fw _ _ _ _ _ _ _ _ _ _ hx.ne' hy.ne' (by positivity)⟩

end

/-- C110: step characteristics with the true exponential. -/
theorem C110_sc (gx gy : ℝ) (hx : 0 < gx) (hy : 0 < gy) : Bal3 (K := ℝ) (Sn.evalDDSC Real.exp) ∧ Bal3 (Sn.evalCDDSC Real.exp gx gy) :=
  ⟨fun _ _ _ _ _ _ _ _ h1 h2 h3 h4 => (Sn.C29_sc_physical gx gy _ _ _ _ _ _ _ _ hx hy h1 h2 h3 h4).1,
    fun _ _ _ _ _ _ _ _ h1 h2 h3 h4 => (Sn.C29_sc_physical gx gy _ _ _ _ _ _ _ _ hx hy h1 h2 h3 h4).2⟩

end Verif.Medium
