import Verif.Medium.HalfSnProps

/-!
# C158: the mirrored core gives the mirrored flux in every iteration, Sn
-/

set_option linter.unusedSectionVars false

namespace Verif.Sn

open Verif.Mesh (Dims coarseCell)

/-- Place `a` of `n` places in a row, counted from the other end if `f`. -/
def turn (f : Bool) (n a : Nat) : Nat := if f then n - 1 - a else a

/-- Rows of `n` values one after another, `m` rows: rows turned if `f`, their order turned if `g`. -/
def turn2 (f g : Bool) (n m j : Nat) : Nat := n * turn g m (j / n) + turn f n (j % n)

theorem turn_lt (f : Bool) (n a : Nat) (h : a < n) : turn f n a < n := by
  unfold turn; split_ifs <;> omega

theorem turn_turn (f : Bool) (n a : Nat) (h : a < n) : turn f n (turn f n a) = a := by
  unfold turn; split_ifs <;> omega

theorem turn_place (f neg : Bool) (n a : Nat) (h : a < n) : place n (neg ^^ f) a = turn f n (place n neg a) := by
  unfold place turn
  cases f <;> cases neg <;> simp
  omega

theorem turn2_row (f g : Bool) (n m r a : Nat) (h : a < n) : turn2 f g n m (n * r + a) = n * turn g m r + turn f n a := by
  have hn : 0 < n := by omega
  rw [turn2, Nat.mul_add_div hn, Nat.div_eq_of_lt h, Nat.add_zero, Nat.mul_add_mod, Nat.mod_eq_of_lt h]

theorem row_lt (n m r a : Nat) (hr : r < m) (h : a < n) : n * r + a < n * m := by
  have := Nat.mul_le_mul_left n (Nat.succ_le_of_lt hr)
  rw [Nat.mul_succ] at this
  omega

theorem turn2_props (f g : Bool) (n m j : Nat) (h : j < n * m) : turn2 f g n m j < n * m ∧ turn2 f g n m (turn2 f g n m j) = j := by
  have hn : 0 < n := by
    rcases Nat.eq_zero_or_pos n with rfl | h0
    · simp at h
    · exact h0
  have h1 : j / n < m := Nat.div_lt_of_lt_mul h
  have h2 := Nat.mod_lt j hn
  have e : turn2 f g n m j = n * turn g m (j / n) + turn f n (j % n) := rfl
  rw [e, turn2_row f g n m _ _ (turn_lt f n _ h2), turn_turn g m _ h1, turn_turn f n _ h2, Nat.div_add_mod]
  exact ⟨row_lt n m _ _ (turn_lt g m _ h1) (turn_lt f n _ h2), rfl⟩

variable {K : Type} [Field K] [LinearOrder K] [IsStrictOrderedRing K]

/-- Two walks through cells, the second through the mirrored cells. -/
theorem walk_flip {κ : Type} (wgt : K) (nReg : Nat) (n : κ → Nat) (σ : κ → Nat → Nat) (ρ : Nat → Nat) (hσ : ∀ k, ∀ i < n k, ∀ j < n k, σ k i = σ k j → i = j)
    (hρ : ∀ i < nReg, ∀ j < nReg, ρ i = ρ j → i = j) (w w' : Nat → κ → Nat) (c c' : Nat → Nat) (ev ev' : Nat → (κ → K) → K × (κ → K)) (l : List Nat)
    (hw : ∀ t ∈ l, ∀ k, w t k < n k ∧ w' t k = σ k (w t k)) (hc : ∀ t ∈ l, c t < nReg ∧ c' t = ρ (c t)) (hev : ∀ t ∈ l, ev' t = ev t) (s s' : State κ K)
    (h : ∀ k, ∀ j < n k, s'.flux k (σ k j) = s.flux k j) :
    (∀ k, ∀ j < n k, (l.foldl (fun s t => cellStep wgt (w' t) (c' t) (ev' t) s) s').flux k (σ k j) = (l.foldl (fun s t => cellStep wgt (w t) (c t) (ev t) s) s).flux k j) ∧
    ∀ i < nReg, (l.foldl (fun s t => cellStep wgt (w' t) (c' t) (ev' t) s) s').tflux (ρ i) - s'.tflux (ρ i) =
      (l.foldl (fun s t => cellStep wgt (w t) (c t) (ev t) s) s).tflux i - s.tflux i := by
  induction l generalizing s s' with
  | nil => exact ⟨h, fun i _ => by simp⟩
  | cons t l ih =>
    have hw0 := hw t (by simp)
    have hc0 := hc t (by simp)
    have hin : (fun k => s'.flux k (w' t k)) = fun k => s.flux k (w t k) := funext fun k => by rw [(hw0 k).2, h k _ (hw0 k).1]
    have he := hev t (by simp)
    obtain ⟨r1, r2⟩ := ih (fun x hx => hw x (by simp [hx])) (fun x hx => hc x (by simp [hx])) (fun x hx => hev x (by simp [hx])) (cellStep wgt (w t) (c t) (ev t) s)
      (cellStep wgt (w' t) (c' t) (ev' t) s')
      (fun k j hj => by
        simp only [cellStep, hin, he]
        by_cases e : j = w t k
        · rw [if_pos e, if_pos (by rw [(hw0 k).2, e])]
        · rw [if_neg e, if_neg (fun e' => e (hσ k j hj _ (hw0 k).1 (by rw [e', (hw0 k).2]))), h k j hj])
    refine ⟨r1, fun i hi => ?_⟩
    have r3 := r2 i hi
    rw [List.foldl_cons, List.foldl_cons]
    have e : (cellStep wgt (w' t) (c' t) (ev' t) s').tflux (ρ i) - s'.tflux (ρ i) = (cellStep wgt (w t) (c t) (ev t) s).tflux i - s.tflux i := by
      simp only [cellStep, hin, he]
      by_cases e : i = c t
      · rw [if_pos e, if_pos (by rw [hc0.2, e])]; ring
      · rw [if_neg e, if_neg (fun e' => e (hρ i hi _ hc0.1 (by rw [e', hc0.2])))]; ring
    linear_combination r3 + e

end Verif.Sn

namespace Verif.Medium

open Finset Verif.XS Verif.Source

section
variable {K : Type} [Field K] [LinearOrder K] [IsStrictOrderedRing K] {κ : Type} [Fintype κ] [DecidableEq κ]

/-- Ordinate `o'` with mirrored sources and incoming values does what `o` does, mirrored; `σ`, `ρ`: where the mirror puts face values and regions. -/
def OrdFlip (nReg : Nat) (n : κ → Nat) (σ : κ → Nat → Nat) (ρ : Nat → Nat) (o o' : SnOrd κ K) : Prop :=
  ∀ q xs q' xs' : Nat → K, (∀ i < nReg, q' (ρ i) = q i) → (∀ i < nReg, xs' (ρ i) = xs i) → ∀ s s' : Sn.State κ K, (∀ k, ∀ j < n k, s'.flux k (σ k j) = s.flux k j) →
    (∀ k, ∀ j < n k, (o'.loops q' xs' s').flux k (σ k j) = (o.loops q xs s).flux k j) ∧
    ∀ i < nReg, (o'.loops q' xs' s').tflux (ρ i) - s'.tflux (ρ i) = (o.loops q xs s).tflux i - s.tflux i

/-- Mirror of cells and faces along the axes marked. -/
def flipCell3 (f : Sn.Ax3 → Bool) (d : Mesh.Dims) (i : Nat) : Nat := d.nx * Sn.turn2 (f .y) (f .z) d.ny d.nz (i / d.nx) + Sn.turn (f .x) d.nx (i % d.nx)

def flipFace3 (f : Sn.Ax3 → Bool) (d : Mesh.Dims) : Sn.Ax3 → Nat → Nat
  | .x => Sn.turn2 (f .y) (f .z) d.ny d.nz
  | .y => Sn.turn2 (f .x) (f .z) d.nx d.nz
  | .z => Sn.turn2 (f .x) (f .y) d.nx d.ny

def flipCell2 (f : Sn.Ax2 → Bool) (d : Mesh.Dims) : Nat → Nat := Sn.turn2 (f .x) (f .y) d.nx d.ny

def flipFace2 (f : Sn.Ax2 → Bool) (d : Mesh.Dims) : Sn.Ax2 → Nat → Nat
  | .x => Sn.turn (f .y) d.ny
  | .y => Sn.turn (f .x) d.nx

/-- A cosine turned if `f`. -/
def turnSign (f : Bool) (x : K) : K := if f then -x else x

theorem turnSign_neg (f : Bool) (x : K) (hx : x ≠ 0) : decide (turnSign f x < 0) = (decide (x < 0) ^^ f) := by
  unfold turnSign
  cases f
  · simp
  · rcases lt_or_gt_of_ne hx with h | h
    · simp [h, h.le]
    · simp [h, h.le]

theorem turnSign_abs (f : Bool) (x : K) : |turnSign f x| = |x| := by
  unfold turnSign; cases f <;> simp

theorem flipCell3_props (f : Sn.Ax3 → Bool) (d : Mesh.Dims) (i : Nat) (h : i < d.nx * d.ny * d.nz) : flipCell3 f d i < d.nx * d.ny * d.nz ∧ flipCell3 f d (flipCell3 f d i) = i := by
  have hn : 0 < d.nx := by
    rcases Nat.eq_zero_or_pos d.nx with e | h0
    · rw [e] at h; simp at h
    · exact h0
  rw [Nat.mul_assoc] at h ⊢
  have h1 : i / d.nx < d.ny * d.nz := Nat.div_lt_of_lt_mul h
  have h2 := Nat.mod_lt i hn
  obtain ⟨t1, t2⟩ := Sn.turn2_props (f .y) (f .z) d.ny d.nz _ h1
  have t3 := Sn.turn_lt (f .x) d.nx _ h2
  refine ⟨Sn.row_lt _ _ _ _ t1 t3, ?_⟩
  unfold flipCell3
  rw [Nat.mul_add_div hn, Nat.div_eq_of_lt t3, Nat.add_zero, Nat.mul_add_mod, Nat.mod_eq_of_lt t3, t2, Sn.turn_turn _ _ _ h2, Nat.div_add_mod]

theorem flipFace3_props (f : Sn.Ax3 → Bool) (d : Mesh.Dims) (k : Sn.Ax3) (j : Nat) (h : j < slots3 d k) : flipFace3 f d k j < slots3 d k ∧ flipFace3 f d k (flipFace3 f d k j) = j := by
  cases k <;> exact Sn.turn2_props _ _ _ _ j h

theorem flipCell2_props (f : Sn.Ax2 → Bool) (d : Mesh.Dims) (i : Nat) (h : i < d.nx * d.ny) : flipCell2 f d i < d.nx * d.ny ∧ flipCell2 f d (flipCell2 f d i) = i :=
  Sn.turn2_props _ _ _ _ i h

theorem flipFace2_props (f : Sn.Ax2 → Bool) (d : Mesh.Dims) (k : Sn.Ax2) (j : Nat) (h : j < slots2 d k) : flipFace2 f d k j < slots2 d k ∧ flipFace2 f d k (flipFace2 f d k j) = j := by
  cases k <;> exact ⟨Sn.turn_lt _ _ j h, Sn.turn_turn _ _ j h⟩

theorem inj_of_twice (n : Nat) (F : Nat → Nat) (h : ∀ i < n, F (F i) = i) (i : Nat) (hi : i < n) (j : Nat) (hj : j < n) (e : F i = F j) : i = j := by
  rw [← h i hi, e, h j hj]

/-- C158: an ordinate in three dimensions and the one mirrored along the axes marked, in the mirrored mesh, with any scheme in each cell. -/
theorem C158_ord3 (f : Sn.Ax3 → Bool) (d : Mesh.Dims) (dx dy dz dx' dy' dz' : Nat → K) (hdx : ∀ i < d.nx, dx' (Sn.turn (f .x) d.nx i) = dx i) (hdy : ∀ i < d.ny, dy' (Sn.turn (f .y) d.ny i) = dy i)
    (hdz : ∀ i < d.nz, dz' (Sn.turn (f .z) d.nz i) = dz i) (a a' : Nat) (ox oy oz wgt : K) (hox : ox ≠ 0) (hoy : oy ≠ 0) (hoz : oz ≠ 0) (sch sch' : Nat → Scheme3 K)
    (hsch : ∀ i < d.nx * d.ny * d.nz, sch' (flipCell3 f d i) = sch i) :
    OrdFlip (d.nx * d.ny * d.nz) (slots3 d) (flipFace3 f d) (flipCell3 f d) (ord3 d dx dy dz a ox oy oz wgt sch)
      (ord3 d dx' dy' dz' a' (turnSign (f .x) ox) (turnSign (f .y) oy) (turnSign (f .z) oz) wgt sch') := by
  intro q xs q' xs' hq hxs s s' h
  simp only [ord3, Sn.sweep3_eq]
  refine Sn.walk_flip wgt _ (slots3 d) (flipFace3 f d) (flipCell3 f d) (fun k => inj_of_twice _ _ fun j hj => (flipFace3_props f d k j hj).2) (inj_of_twice _ _ fun j hj => (flipCell3_props f d j hj).2)
    (fun t => Sn.slot3 d (Sn.place d.nx (decide (ox < 0)) (t % d.nx)) (Sn.place d.ny (decide (oy < 0)) (t / d.nx % d.ny)) (Sn.place d.nz (decide (oz < 0)) (t / d.nx / d.ny)))
    (fun t => Sn.slot3 d (Sn.place d.nx (decide (turnSign (f .x) ox < 0)) (t % d.nx)) (Sn.place d.ny (decide (turnSign (f .y) oy < 0)) (t / d.nx % d.ny))
      (Sn.place d.nz (decide (turnSign (f .z) oz < 0)) (t / d.nx / d.ny))) _ _ _ _ _ (fun t ht k => ?_) (fun t ht => ?_) (fun t ht => ?_) s s' h
  all_goals
    have ht := List.mem_range.mp ht
    have hpos : 0 < d.nx ∧ 0 < d.ny := by
      constructor
      · rcases Nat.eq_zero_or_pos d.nx with e | e
        · rw [e] at ht; simp at ht
        · exact e
      · rcases Nat.eq_zero_or_pos d.ny with e | e
        · rw [e] at ht; simp at ht
        · exact e
    have px := Nat.mod_lt t hpos.1
    have py := Nat.mod_lt (t / d.nx) hpos.2
    have pz : t / d.nx / d.ny < d.nz := Nat.div_lt_of_lt_mul (Nat.div_lt_of_lt_mul (by rw [← Nat.mul_assoc]; exact ht))
    have hx := Sn.place_lt (decide (ox < 0)) px
    have hy := Sn.place_lt (decide (oy < 0)) py
    have hz := Sn.place_lt (decide (oz < 0)) pz
    simp only [turnSign_neg _ _ hox, turnSign_neg _ _ hoy, turnSign_neg _ _ hoz, Sn.turn_place _ _ _ _ px, Sn.turn_place _ _ _ _ py, Sn.turn_place _ _ _ _ pz]
    generalize Sn.place d.nx _ _ = ix at *
    generalize Sn.place d.ny _ _ = iy at *
    generalize Sn.place d.nz _ _ = iz at *
    have hcell : ∀ ix iy iz, Mesh.coarseCell d ⟨ix, iy, iz⟩ = d.nx * (d.ny * iz + iy) + ix := by
      intro ix iy iz
      simp only [Mesh.coarseCell]; ring
    have hflip : flipCell3 f d (Mesh.coarseCell d ⟨ix, iy, iz⟩) = Mesh.coarseCell d ⟨Sn.turn (f .x) d.nx ix, Sn.turn (f .y) d.ny iy, Sn.turn (f .z) d.nz iz⟩ := by
      rw [hcell, hcell, flipCell3, Nat.mul_add_div hpos.1, Nat.div_eq_of_lt hx, Nat.add_zero, Nat.mul_add_mod, Nat.mod_eq_of_lt hx, Sn.turn2_row _ _ _ _ _ _ hy]
    have hlt : Mesh.coarseCell d ⟨ix, iy, iz⟩ < d.nx * d.ny * d.nz := by
      rw [hcell, Nat.mul_assoc]
      exact Sn.row_lt _ _ _ _ (Sn.row_lt _ _ _ _ hz hy) hx
  · cases k
    · exact ⟨slot_lt hy hz, (Sn.turn2_row _ _ _ _ _ _ hy).symm⟩
    · exact ⟨slot_lt hx hz, (Sn.turn2_row _ _ _ _ _ _ hx).symm⟩
    · exact ⟨slot_lt hx hy, (Sn.turn2_row _ _ _ _ _ _ hx).symm⟩
  · exact ⟨hlt, hflip.symm⟩
  · funext g
    simp only [← hflip, hq _ hlt, hxs _ hlt, hsch _ hlt, turnSign_abs, hdx _ hx, hdy _ hy, hdz _ hz]

/-- C158: the same in two dimensions. -/
theorem C158_ord2 (f : Sn.Ax2 → Bool) (d : Mesh.Dims) (dx dy dx' dy' : Nat → K) (hdx : ∀ i < d.nx, dx' (Sn.turn (f .x) d.nx i) = dx i) (hdy : ∀ i < d.ny, dy' (Sn.turn (f .y) d.ny i) = dy i)
    (a a' : Nat) (ox oy wgt : K) (hox : ox ≠ 0) (hoy : oy ≠ 0) (sch sch' : Nat → Scheme2 K) (hsch : ∀ i < d.nx * d.ny, sch' (flipCell2 f d i) = sch i) :
    OrdFlip (d.nx * d.ny) (slots2 d) (flipFace2 f d) (flipCell2 f d) (ord2 d dx dy a ox oy wgt sch) (ord2 d dx' dy' a' (turnSign (f .x) ox) (turnSign (f .y) oy) wgt sch') := by
  intro q xs q' xs' hq hxs s s' h
  simp only [ord2, Sn.sweep2_eq]
  refine Sn.walk_flip wgt _ (slots2 d) (flipFace2 f d) (flipCell2 f d) (fun k => inj_of_twice _ _ fun j hj => (flipFace2_props f d k j hj).2) (inj_of_twice _ _ fun j hj => (flipCell2_props f d j hj).2)
    (fun t => Sn.slot2 (Sn.place d.nx (decide (ox < 0)) (t % d.nx)) (Sn.place d.ny (decide (oy < 0)) (t / d.nx)))
    (fun t => Sn.slot2 (Sn.place d.nx (decide (turnSign (f .x) ox < 0)) (t % d.nx)) (Sn.place d.ny (decide (turnSign (f .y) oy < 0)) (t / d.nx))) _ _ _ _ _
    (fun t ht k => ?_) (fun t ht => ?_) (fun t ht => ?_) s s' h
  all_goals
    have ht := List.mem_range.mp ht
    have hpos : 0 < d.nx := by
      rcases Nat.eq_zero_or_pos d.nx with e | e
      · rw [e] at ht; simp at ht
      · exact e
    have px := Nat.mod_lt t hpos
    have py : t / d.nx < d.ny := Nat.div_lt_of_lt_mul ht
    have hx := Sn.place_lt (decide (ox < 0)) px
    have hy := Sn.place_lt (decide (oy < 0)) py
    simp only [turnSign_neg _ _ hox, turnSign_neg _ _ hoy, Sn.turn_place _ _ _ _ px, Sn.turn_place _ _ _ _ py]
    generalize Sn.place d.nx _ _ = ix at *
    generalize Sn.place d.ny _ _ = iy at *
    have hcell : ∀ ix iy, Mesh.coarseCell d ⟨ix, iy, 0⟩ = d.nx * iy + ix := by
      intro ix iy
      simp only [Mesh.coarseCell]; ring
    have hflip : flipCell2 f d (Mesh.coarseCell d ⟨ix, iy, 0⟩) = Mesh.coarseCell d ⟨Sn.turn (f .x) d.nx ix, Sn.turn (f .y) d.ny iy, 0⟩ := by
      rw [hcell, hcell, flipCell2, Sn.turn2_row _ _ _ _ _ _ hx]
    have hlt : Mesh.coarseCell d ⟨ix, iy, 0⟩ < d.nx * d.ny := by
      rw [hcell]
      exact Sn.row_lt _ _ _ _ hy hx
  · cases k
    · exact ⟨hy, rfl⟩
    · exact ⟨hx, rfl⟩
  · exact ⟨hlt, hflip.symm⟩
  · funext g
    simp only [← hflip, hq _ hlt, hxs _ hlt, hsch _ hlt, turnSign_abs, hdx _ hx, hdy _ hy]

/-- A sweep with Jacobi updating: what goes out, the flux, and what comes in afterwards. -/
theorem sn_jacobi_sweep {nAng : Nat} {n : κ → Nat} {m : SnSetup κ K} {ordOf : Nat → SnOrd κ K} {mir : Nat → κ → Nat} {vac : Nat → κ → Bool} (h : SnLinked nAng n m ordOf mir vac)
    (hgs : m.gs = false) (nReg : Nat) (hloc : ∀ a < nAng, OrdLocal nReg n (ordOf a)) (q xs : Nat → K) (b o : Nat → κ → Nat → K) (st : Nat → Sn.State κ K)
    (hst : ∀ a < nAng, ∀ k, ∀ j < n k, (st a).flux k j = b a k j) :
    (∀ a < nAng, ∀ k, ∀ j < n k, (snSweep1g m q xs b o).bin a k j = if vac a k then 0 else ((ordOf (mir a k)).loops q xs (st (mir a k))).flux k j) ∧
    ∀ i, (snSweep1g m q xs b o).tflux i = ∑ a ∈ range nAng, (((ordOf a).loops q xs (st a)).tflux i - (st a).tflux i) := by
  have key : ∀ (l : List (SnOrd κ K)) (s : SnPass κ K), (∀ x ∈ l, x ∈ m.ords) → s.bin = b →
      (l.foldl (snOrdinate m q xs) s).bin = b ∧
      (∀ i, (l.foldl (snOrdinate m q xs) s).tflux i = s.tflux i + (l.map fun x => ((ordOf x.iang).loops q xs (st x.iang)).tflux i - (st x.iang).tflux i).sum) ∧
      ∀ a < nAng, (a ∈ l.map SnOrd.iang ∨ ∀ k, ∀ j < n k, s.bout a k j = ((ordOf a).loops q xs (st a)).flux k j) →
        ∀ k, ∀ j < n k, (l.foldl (snOrdinate m q xs) s).bout a k j = ((ordOf a).loops q xs (st a)).flux k j := by
    intro l
    induction l with
    | nil =>
      intro s _ hs
      refine ⟨hs, fun i => by simp, fun a ha h k j hj => ?_⟩
      rcases h with h | h
      · simp at h
      · exact h k j hj
    | cons x l ih =>
      intro s hl hs
      have hx := hl x (by simp)
      have hi := sn_iang_lt h x hx
      have hxo := h.num x hx
      obtain ⟨d1, d2⟩ := hloc x.iang hi q q xs (fun _ _ => rfl) ⟨s.bin x.iang, s.tflux, fun _ => (0, fun _ => 0)⟩ (st x.iang) fun k j hj => by rw [hst _ hi k j hj, hs]
      have hs' : (snOrdinate m q xs s x).bin = b := by simp [snOrdinate, hgs, hs]
      obtain ⟨r1, r2, r3⟩ := ih (snOrdinate m q xs s x) (fun y hy => hl y (by simp [hy])) hs'
      have e1 : (snOrdinate m q xs s x).bout x.iang = ((ordOf x.iang).loops q xs ⟨s.bin x.iang, s.tflux, fun _ => (0, fun _ => 0)⟩).flux := by simp [snOrdinate, hxo]
      refine ⟨r1, fun i => ?_, fun a ha hh => ?_⟩
      · rw [List.foldl_cons, r2 i, List.map_cons, List.sum_cons, ← add_assoc, ← d2 i, hxo]
        simp only [snOrdinate]
        ring
      · rw [List.foldl_cons]
        refine r3 a ha ?_
        by_cases e : a = x.iang
        · right
          intro k j hj
          rw [e, e1]
          exact d1 k j hj
        · rcases hh with hh | hh
          · rw [List.map_cons, List.mem_cons] at hh
            rcases hh with hh | hh
            · exact absurd hh e
            · exact Or.inl hh
          · right
            intro k j hj
            simp only [snOrdinate, if_neg e]
            exact hh k j hj
  obtain ⟨-, k2, k3⟩ := key m.ords ⟨fun _ => 0, b, o⟩ (fun _ h => h) rfl
  refine ⟨fun a ha k j hj => ?_, fun i => ?_⟩
  · simp only [snSweep1g, hgs, Bool.false_eq_true, if_false]
    rw [h.all _ _ a ha k j hj]
    split_ifs
    · rfl
    · have hm := h.lt a ha k
      exact k3 _ hm (Or.inl (h.perm.symm.subset (List.mem_range.mpr hm))) k j hj
  · show (m.ords.foldl (snOrdinate m q xs) ⟨fun _ => 0, b, o⟩).tflux i = _
    rw [k2 i, zero_add, sn_sum_ords h fun x => ((ordOf x.iang).loops q xs (st x.iang)).tflux i - (st x.iang).tflux i]
    exact sum_congr rfl fun a ha => by rw [(sn_ord_of h a (mem_range.mp ha)).2]

/-- Sweeps `m` through a core and `m'` through the mirrored one: `T a` the mirrored ordinate, `σ`, `ρ` where face values and regions are. -/
structure SnFlipped (nReg nAng : Nat) (n : κ → Nat) (σ : κ → Nat → Nat) (ρ : Nat → Nat) (T : Nat → Nat) (m m' : SnSetup κ K) (ordOf ordOf' : Nat → SnOrd κ K) (mir : Nat → κ → Nat)
    (vac vac' : Nat → κ → Bool) : Prop where
  one : SnLinked nAng n m ordOf mir vac
  two : SnLinked nAng n m' ordOf' mir vac'
  fpi : m'.fpi = m.fpi
  inner : m'.nInner = m.nInner
  local1 : ∀ a < nAng, OrdLocal nReg n (ordOf a)
  local2 : ∀ a < nAng, OrdLocal nReg n (ordOf' a)
  tLt : ∀ a < nAng, T a < nAng
  tTwice : ∀ a < nAng, T (T a) = a
  comm : ∀ a < nAng, ∀ k, T (mir a k) = mir (T a) k
  vacT : ∀ a < nAng, ∀ k, vac' (T a) k = vac a k
  face : ∀ k, ∀ j < n k, σ k j < n k
  ord : ∀ a < nAng, OrdFlip nReg n σ ρ (ordOf a) (ordOf' (T a))

/-- Incoming values of the mirrored core. -/
def FlipBin (nAng : Nat) (n : κ → Nat) (σ : κ → Nat → Nat) (T : Nat → Nat) (b b' : Nat → κ → Nat → K) : Prop := ∀ a < nAng, ∀ k, ∀ j < n k, b' (T a) k (σ k j) = b a k j

/-- C158: a sweep of one group. -/
theorem C158_sweep {nReg nAng : Nat} {n : κ → Nat} {σ : κ → Nat → Nat} {ρ T : Nat → Nat} {m m' : SnSetup κ K} {ordOf ordOf' : Nat → SnOrd κ K} {mir : Nat → κ → Nat} {vac vac' : Nat → κ → Bool}
    (h : SnFlipped nReg nAng n σ ρ T m m' ordOf ordOf' mir vac vac') (hj : m.gs = false ∧ m'.gs = false) (q xs q' xs' : Nat → K) (hq : ∀ i < nReg, q' (ρ i) = q i) (hx : ∀ i < nReg, xs' (ρ i) = xs i)
    (b o b' o' : Nat → κ → Nat → K) (hb : FlipBin nAng n σ T b b') :
    FlipBin nAng n σ T (snSweep1g m q xs b o).bin (snSweep1g m' q' xs' b' o').bin ∧ ∀ i < nReg, (snSweep1g m' q' xs' b' o').tflux (ρ i) = (snSweep1g m q xs b o).tflux i := by
  set mk : (κ → Nat → K) → Sn.State κ K := fun f => ⟨f, fun _ => 0, fun _ => (0, fun _ => 0)⟩ with hmk
  obtain ⟨a1, a2⟩ := sn_jacobi_sweep h.one hj.1 nReg h.local1 q xs b o (fun a => mk (b a)) fun _ _ _ _ _ => rfl
  obtain ⟨b1, b2⟩ := sn_jacobi_sweep h.two hj.2 nReg h.local2 q' xs' b' o' (fun a => mk (b' a)) fun _ _ _ _ _ => rfl
  have hd := fun a (ha : a < nAng) => h.ord a ha q xs q' xs' hq hx (mk (b a)) (mk (b' (T a))) fun k j hj => hb a ha k j hj
  refine ⟨fun a ha k j hj => ?_, fun i hi => ?_⟩
  · rw [a1 a ha k j hj, b1 _ (h.tLt a ha) k _ (h.face k j hj), h.vacT a ha, ← h.comm a ha]
    split_ifs
    · rfl
    · exact (hd _ (h.one.lt a ha k)).1 k j hj
  · rw [a2, b2]
    refine sum_bij' (fun a _ => T a) (fun a _ => T a) (fun a ha => mem_range.mpr (h.tLt a (mem_range.mp ha))) (fun a ha => mem_range.mpr (h.tLt a (mem_range.mp ha)))
      (fun a ha => h.tTwice a (mem_range.mp ha)) (fun a ha => h.tTwice a (mem_range.mp ha)) fun a ha => ?_
    have ha := mem_range.mp ha
    have := (hd (T a) (h.tLt a ha)).2 i hi
    rw [h.tTwice a ha] at this
    exact this

/-- The mirrored core: in each cell the material and the volume of the cell it is the mirror image of. -/
structure ProblemFlip (ρ : Nat → Nat) (p p' : Problem K) : Prop where
  ng : p'.ng = p.ng
  nReg : p'.nReg = p.nReg
  part : Partition p.rs
  part' : Partition p'.rs
  cover : ∀ i, i < p.nReg ↔ ∃ x ∈ p.rs, i ∈ x.regs
  cover' : ∀ i, i < p'.nReg ↔ ∃ x ∈ p'.rs, i ∈ x.regs
  nonneg : ∀ x ∈ p.rs, Source.NonNeg p.ng x.mat
  lt : ∀ i < p.nReg, ρ i < p.nReg
  twice : ∀ i < p.nReg, ρ (ρ i) = i
  mat : ∀ i < p.nReg, ∃ x ∈ p.rs, ∃ x' ∈ p'.rs, i ∈ x.regs ∧ ρ i ∈ x'.regs ∧ x'.mat = x.mat
  vol : ∀ i < p.nReg, p'.vol (ρ i) = p.vol i

/-- The flux and the incoming values of the mirrored core. -/
def StateFlip (p : Problem K) (nAng : Nat) (n : κ → Nat) (σ : κ → Nat → Nat) (ρ T : Nat → Nat) (s s' : SnState κ K) : Prop :=
  (∀ i < p.nReg, ∀ g < p.ng, s'.flux (ρ i) g = s.flux i g) ∧ ∀ g < p.ng, FlipBin nAng n σ T (s.bin g) (s'.bin g)

/-- One entry of the list has region `i`. -/
theorem only_one (l : List (XsRegion (Mat K))) (hl : l.Pairwise fun x y => ∀ i, i ∈ x.regs → i ∉ y.regs) (i : Nat) (G : XsRegion (Mat K) → K) (x : XsRegion (Mat K)) (hx : x ∈ l) (hi : i ∈ x.regs) :
    (l.map fun y => if i ∈ y.regs then G y else 0).sum = G x := by
  induction l with
  | nil => simp at hx
  | cons y l ih =>
    rw [List.pairwise_cons] at hl
    rw [List.map_cons, List.sum_cons]
    by_cases hy : i ∈ y.regs
    · have hne : ∀ z ∈ l, i ∉ z.regs := fun z hz => hl.1 z hz i hy
      have hxy : x = y := by
        rcases List.mem_cons.mp hx with h | h
        · exact h
        · exact absurd hi (hne x h)
      have e : l.map (fun y => if i ∈ y.regs then G y else 0) = l.map fun _ => 0 := List.map_congr_left fun z hz => if_neg (hne z hz)
      rw [if_pos hy, e, hxy]
      simp
    · rcases List.mem_cons.mp hx with h | h
      · exact absurd (h ▸ hi) hy
      · rw [if_neg hy, zero_add]
        exact ih hl.2 h

theorem sum_swap (l : List (XsRegion (Mat K))) (N : Nat) (G : XsRegion (Mat K) → Nat → K) : (l.map fun x => ∑ i ∈ range N, G x i).sum = ∑ i ∈ range N, (l.map fun x => G x i).sum := by
  induction l with
  | nil => simp
  | cons y l ih => simp [ih, sum_add_distrib]

/-- Production, region by region. -/
theorem production_regions (p : Problem K) (part : Partition p.rs) (cover : ∀ i, i < p.nReg ↔ ∃ x ∈ p.rs, i ∈ x.regs) (φ : Nat → Nat → K) :
    totalFission p.ng p.rs p.vol φ = ∑ i ∈ range p.nReg, (p.rs.map fun x => if i ∈ x.regs then p.vol i * ∑ g ∈ range p.ng, x.mat.nf g * φ i g else 0).sum := by
  rw [totalFission_eq, ← sum_swap]
  congr 1
  refine List.map_congr_left fun x hx => ?_
  rw [← List.sum_toFinset _ (part.1 x hx)]
  have e3 : x.regs.toFinset = (range p.nReg).filter fun i => i ∈ x.regs := by
    ext i
    simp only [List.mem_toFinset, mem_filter, mem_range]
    exact ⟨fun hi => ⟨(cover i).mpr ⟨x, hx, hi⟩, hi⟩, And.right⟩
  rw [e3, sum_filter]

/-- Production of the mirrored core. -/
theorem C158_production {ρ : Nat → Nat} {p p' : Problem K} (hp : ProblemFlip ρ p p') (φ φ' : Nat → Nat → K) (h : ∀ i < p.nReg, ∀ g < p.ng, φ' (ρ i) g = φ i g) :
    totalFission p'.ng p'.rs p'.vol φ' = totalFission p.ng p.rs p.vol φ := by
  rw [production_regions p hp.part hp.cover, production_regions p' hp.part' hp.cover', hp.nReg]
  symm
  refine sum_bij' (fun i _ => ρ i) (fun i _ => ρ i) (fun i hi => mem_range.mpr (hp.lt i (mem_range.mp hi))) (fun i hi => mem_range.mpr (hp.lt i (mem_range.mp hi)))
    (fun i hi => hp.twice i (mem_range.mp hi)) (fun i hi => hp.twice i (mem_range.mp hi)) fun i hi => ?_
  have hi := mem_range.mp hi
  obtain ⟨x, hx, x', hx', hxi, hxi', hm⟩ := hp.mat i hi
  rw [only_one p.rs hp.part.2 i (fun x => p.vol i * ∑ g ∈ range p.ng, x.mat.nf g * φ i g) x hx hxi,
    only_one p'.rs hp.part'.2 (ρ i) (fun x => p'.vol (ρ i) * ∑ g ∈ range p'.ng, x.mat.nf g * φ' (ρ i) g) x' hx' hxi', hp.vol i hi, hm, hp.ng]
  congr 1
  exact sum_congr rfl fun g hg => by rw [h i hi g (mem_range.mp hg)]

section
variable {p p' : Problem K} {nAng : Nat} {n : κ → Nat} {σ : κ → Nat → Nat} {ρ T : Nat → Nat} {m m' : SnSetup κ K} {ordOf ordOf' : Nat → SnOrd κ K} {mir : Nat → κ → Nat} {vac vac' : Nat → κ → Bool}

/-- An inner iteration. -/
theorem flip_inner (hp : ProblemFlip ρ p p') (h : SnFlipped p.nReg nAng n σ ρ T m m' ordOf ordOf' mir vac vac') (hj : m.gs = false ∧ m'.gs = false) (g : Nat) (hg : g < p.ng) (src src' : Nat → K)
    (hsrc : ∀ i < p.nReg, src' (ρ i) = src i) (s s' : SnState κ K) (hs : StateFlip p nAng n σ ρ T s s') : StateFlip p nAng n σ ρ T (snInner p m g src s) (snInner p' m' g src' s') := by
  obtain ⟨r1, r2⟩ := C158_sweep h hj (selfScatter m.fpi p.ng p.rs s.flux g src false s.q) (trOf p.rs g) (selfScatter m'.fpi p'.ng p'.rs s'.flux g src' false s'.q) (trOf p'.rs g)
    (fun i hi => by
      obtain ⟨x, hx, x', hx', hxi, hxi', hm⟩ := hp.mat i hi
      rw [selfScatter_at m.fpi p.ng _ hp.part s.flux g hg src false s.q x hx i hxi, selfScatter_at m'.fpi p'.ng _ hp.part' s'.flux g (hp.ng ▸ hg) src' false s'.q x' hx' (ρ i) hxi',
        hsrc i hi, hm, h.fpi, hs.1 i hi g hg])
    (fun i hi => by
      obtain ⟨x, hx, x', hx', hxi, hxi', hm⟩ := hp.mat i hi
      rw [trOf_at p.rs hp.part g x hx i hxi, trOf_at p'.rs hp.part' g x' hx' _ hxi', hm]) (s.bin g) s.bout (s'.bin g) s'.bout (hs.2 g hg)
  refine ⟨fun i hi g' hg' => ?_, fun g' hg' => ?_⟩
  · show (if g' = g then _ else s'.flux (ρ i) g') = if g' = g then _ else s.flux i g'
    by_cases e : g' = g
    · rw [if_pos e, if_pos e]; exact r2 i hi
    · rw [if_neg e, if_neg e]; exact hs.1 i hi g' hg'
  · show FlipBin nAng n σ T (if g' = g then _ else s.bin g') (if g' = g then _ else s'.bin g')
    by_cases e : g' = g
    · rw [if_pos e, if_pos e]; exact r1
    · rw [if_neg e, if_neg e]; exact hs.2 g' hg'

/-- C158: all inner iterations of a group, with the flux cut off at zero. -/
theorem C158_group (hp : ProblemFlip ρ p p') (h : SnFlipped p.nReg nAng n σ ρ T m m' ordOf ordOf' mir vac vac') (hj : m.gs = false ∧ m'.gs = false) (g : Nat) (hg : g < p.ng) (src src' : Nat → K)
    (hsrc : ∀ i < p.nReg, src' (ρ i) = src i) (s s' : SnState κ K) (hs : StateFlip p nAng n σ ρ T s s') : StateFlip p nAng n σ ρ T (snSweep p m g src s) (snSweep p' m' g src' s') := by
  have key : ∀ (l : List Nat) s s', StateFlip p nAng n σ ρ T s s' → StateFlip p nAng n σ ρ T (l.foldl (fun s _ => snInner p m g src s) s) (l.foldl (fun s _ => snInner p' m' g src' s) s') := by
    intro l
    induction l with
    | nil => exact fun s s' h => h
    | cons _ l ih => exact fun s s' hs => ih _ _ (flip_inner hp h hj g hg src src' hsrc s s' hs)
  have r := key (List.range m.nInner) s s' hs
  unfold snSweep
  rw [h.inner]
  refine ⟨fun i hi g' hg' => ?_, r.2⟩
  simp only [r.1 i hi g' hg']

/-- C158: all groups. -/
theorem C158_groups (hp : ProblemFlip ρ p p') (h : SnFlipped p.nReg nAng n σ ρ T m m' ordOf ordOf' mir vac vac') (hj : m.gs = false ∧ m'.gs = false) (base base' : Nat → Nat → K)
    (hbase : ∀ g < p.ng, ∀ i < p.nReg, base' g (ρ i) = base g i) (c g : Nat) (hg : g + c ≤ p.ng) (s s' : SnState κ K) (hs : StateFlip p nAng n σ ρ T s s') :
    StateFlip p nAng n σ ρ T (srcLoop p (snSweeper p m) base c g s) (srcLoop p' (snSweeper p' m') base' c g s') := by
  induction c generalizing g s s' with
  | zero => exact hs
  | succ c ih =>
    have hg' : g < p.ng := by omega
    rw [srcLoop, srcLoop]
    refine ih (g + 1) (by omega) _ _ (C158_group hp h hj g hg' _ _ (fun i hi => ?_) s s' hs)
    obtain ⟨x, hx, x', hx', hxi, hxi', hm⟩ := hp.mat i hi
    rw [inScatter_at p.ng _ hp.part _ g hg' (base g) x hx i hxi (hp.nonneg x hx),
      inScatter_at p'.ng _ hp.part' _ g (hp.ng ▸ hg') (base' g) x' hx' (ρ i) hxi' (by rw [hm, hp.ng]; exact hp.nonneg x hx), hbase g hg' i hi, hp.ng, hm]
    congr 1
    refine sum_congr rfl fun b hb => ?_
    by_cases e : b = g
    · simp [e]
    · rw [if_pos e, if_pos e]
      exact congrArg (x.mat.sc g b * ·) (hs.1 i hi b (mem_range.mp hb))

/-- C158: an outer iteration. -/
theorem C158_outer (hp : ProblemFlip ρ p p') (h : SnFlipped p.nReg nAng n σ ρ T m m' ordOf ordOf' mir vac vac') (hj : m.gs = false ∧ m'.gs = false) (k : K) (s s' : SnState κ K)
    (hs : StateFlip p nAng n σ ρ T s s') : ∃ k1 s1 s1', outer p (snSweeper p m) k s = some (k1, s1) ∧ outer p' (snSweeper p' m') k s' = some (k1, s1') ∧ StateFlip p nAng n σ ρ T s1 s1' := by
  have r := C158_groups hp h hj (fun g => fission p.rs (calcFissionSource p.ng p.rs k s.flux) g fun _ => 0) (fun g => fission p'.rs (calcFissionSource p'.ng p'.rs k s'.flux) g fun _ => 0)
    (fun g _ i hi => by
      obtain ⟨x, hx, x', hx', hxi, hxi', hm⟩ := hp.mat i hi
      rw [fission_at _ hp.part _ g _ x hx i hxi, fission_at _ hp.part' _ g _ x' hx' _ hxi', C47_fission_source _ _ hp.part k _ x hx i hxi, C47_fission_source _ _ hp.part' k _ x' hx' _ hxi', hm, hp.ng]
      congr 3
      exact sum_congr rfl fun g hg => congrArg (x.mat.nf g * ·) (hs.1 i hi g (mem_range.mp hg))) p.ng 0 (by omega) s s' hs
  refine ⟨k * totalFission p.ng p.rs p.vol (srcLoop p (snSweeper p m) (fun g => fission p.rs (calcFissionSource p.ng p.rs k s.flux) g fun _ => 0) p.ng 0 s).flux /
    totalFission p.ng p.rs p.vol s.flux, _, _, by rw [outer, groupLoop_eq, Option.map_some]; rfl, ?_, r⟩
  rw [outer, groupLoop_eq, Option.map_some, Option.some.injEq, Prod.mk.injEq]
  have e : srcLoop p' (snSweeper p' m') (fun g => fission p'.rs (calcFissionSource p'.ng p'.rs k ((snSweeper p' m').flux s')) g fun _ => 0) p'.ng 0 s' =
      srcLoop p' (snSweeper p' m') (fun g => fission p'.rs (calcFissionSource p'.ng p'.rs k s'.flux) g fun _ => 0) p.ng 0 s' := by rw [hp.ng]; rfl
  rw [e]
  refine ⟨?_, rfl⟩
  show k * totalFission _ _ _ (srcLoop p' (snSweeper p' m') _ _ _ _).flux / totalFission _ _ _ s'.flux = _
  rw [C158_production hp _ _ r.1, C158_production hp _ _ hs.1]

/-- C158: any number of outer iterations: the same eigenvalues, the mirrored flux and the mirrored incoming values. -/
theorem C158_outers (hp : ProblemFlip ρ p p') (h : SnFlipped p.nReg nAng n σ ρ T m m' ordOf ordOf' mir vac vac') (hj : m.gs = false ∧ m'.gs = false) (c : Nat) (k : K) (s s' : SnState κ K)
    (hs : StateFlip p nAng n σ ρ T s s') :
    ∃ k1 s1 s1', outers p (snSweeper p m) c k s = some (k1, s1) ∧ outers p' (snSweeper p' m') c k s' = some (k1, s1') ∧ StateFlip p nAng n σ ρ T s1 s1' := by
  induction c generalizing k s s' with
  | zero => exact ⟨k, s, s', rfl, rfl, hs⟩
  | succ c ih =>
    obtain ⟨k1, s1, s1', h1, h2, h3⟩ := C158_outer hp h hj k s s' hs
    obtain ⟨k2, s2, s2', h4, h5, h6⟩ := ih k1 s1 s1' h3
    exact ⟨k2, s2, s2', by rw [outers, h1]; exact h4, by rw [outers, h2]; exact h5, h6⟩

/-- C158: any number of steps with an external source and its mirror image. -/
theorem C158_fixed (hp : ProblemFlip ρ p p') (h : SnFlipped p.nReg nAng n σ ρ T m m' ordOf ordOf' mir vac vac') (hj : m.gs = false ∧ m'.gs = false) (ext ext' : Option (Ext K))
    (E E' : Nat → Nat → K) (hE : ∀ g < p.ng, initializeGroup p.nReg ext g = some (E g)) (hE' : ∀ g < p.ng, initializeGroup p.nReg ext' g = some (E' g))
    (hEE : ∀ g < p.ng, ∀ i < p.nReg, E' g (ρ i) = E g i) (c : Nat) (s s' : SnState κ K) (hs : StateFlip p nAng n σ ρ T s s') :
    ∃ s1 s1', fixedSteps p (snSweeper p m) ext c s = some s1 ∧ fixedSteps p' (snSweeper p' m') ext' c s' = some s1' ∧ StateFlip p nAng n σ ρ T s1 s1' := by
  induction c generalizing s s' with
  | zero => exact ⟨s, s', rfl, rfl, hs⟩
  | succ c ih =>
    obtain ⟨s1, s1', h1, h2, h3⟩ := ih _ _ (C158_groups hp h hj E E' hEE p.ng 0 (by omega) s s' hs)
    refine ⟨s1, s1', ?_, ?_, h3⟩
    · rw [fixedSteps, extLoop_eq p _ ext E p.ng 0 fun g _ hg => hE g (by omega), Option.bind_some]
      exact h1
    · rw [fixedSteps, hp.ng, extLoop_eq p' _ ext' E' p.ng 0 fun g _ hg => by rw [hp.nReg]; exact hE' g (by omega), Option.bind_some]
      exact h2

/-- C158: a core that is its own mirror image, from a state that is its own mirror image: so it stays. -/
theorem C158_symmetric (hp : ProblemFlip ρ p p) (h : SnFlipped p.nReg nAng n σ ρ T m m ordOf ordOf mir vac vac) (hj : m.gs = false) (c : Nat) (k k1 : K) (s s1 : SnState κ K)
    (hs : StateFlip p nAng n σ ρ T s s) (ho : outers p (snSweeper p m) c k s = some (k1, s1)) : StateFlip p nAng n σ ρ T s1 s1 := by
  obtain ⟨k2, s2, s2', h1, h2, h3⟩ := C158_outers hp h ⟨hj, hj⟩ c k s s hs
  rw [ho, Option.some.injEq, Prod.mk.injEq] at h1 h2
  rw [← h1.2, ← h2.2] at h3
  exact h3

end

end

end Verif.Medium

namespace Verif.Medium

open Finset Verif.XS Verif.Source Verif.Quad Verif.Quad.Spec Verif.BC

section
variable {K : Type} [Field K] [LinearOrder K] [IsStrictOrderedRing K]

/-- Number of the ordinate mirrored along the axes marked. -/
def turnAng (nd : Nat) (f : Normal → Bool) (a : Nat) : Nat :=
  let a := if f .X then refl nd a .X else a
  let a := if f .Y then refl nd a .Y else a
  if f .Z then refl nd a .Z else a

/-- Conditions on the sides of the mirrored core. -/
def turnTypes (f : Normal → Bool) (t : Surface → Boundary) : Surface → Boundary
  | .EAST => t (if f .X then .WEST else .EAST)
  | .WEST => t (if f .X then .EAST else .WEST)
  | .NORTH => t (if f .Y then .SOUTH else .NORTH)
  | .SOUTH => t (if f .Y then .NORTH else .SOUTH)
  | .TOP => t (if f .Z then .BOTTOM else .TOP)
  | .BOTTOM => t (if f .Z then .TOP else .BOTTOM)

theorem refl_comm2 (nd a : Nat) (n n' : Normal) (h : a < 8 * nd) : refl nd (refl nd a n) n' = refl nd (refl nd a n') n := by
  obtain ⟨o, k, ho, hk, rfl⟩ := split_index nd a h
  rw [refl_eq nd o k ho hk, refl_eq nd o k ho hk, refl_eq nd _ k (octMirror_lt _ o ho) hk, refl_eq nd _ k (octMirror_lt _ o ho) hk, octMirror_comm _ _ _ ho]

/-- What is needed about the number of the mirrored ordinate, for ordinates below `N` and mirrors that stay below `N`. -/
theorem turnAng_props (nd N : Nat) (f : Normal → Bool) (h8 : N ≤ 8 * nd) (hlt : ∀ a < N, ∀ n, f n = true → refl nd a n < N) (a : Nat) (ha : a < N) :
    turnAng nd f a < N ∧ turnAng nd f (turnAng nd f a) = a ∧ ∀ n, turnAng nd f (refl nd a n) = refl nd (turnAng nd f a) n := by
  have tw : ∀ a < N, ∀ n, refl nd (refl nd a n) n = a := fun a ha n => (refl_props nd a n (by omega)).2.2
  have cm : ∀ a < N, ∀ n n', refl nd (refl nd a n) n' = refl nd (refl nd a n') n := fun a ha n n' => refl_comm2 nd a n n' (by omega)
  have one : ∀ a < N, ∀ n, (if f n then refl nd a n else a) < N ∧ (if f n then refl nd (if f n then refl nd a n else a) n else (if f n then refl nd a n else a)) = a := by
    intro a ha n
    cases e : f n
    · exact ⟨ha, rfl⟩
    · exact ⟨hlt a ha n e, tw a ha n⟩
  have two : ∀ a < N, ∀ n n', (if f n' then refl nd (if f n then refl nd a n else a) n' else (if f n then refl nd a n else a)) =
      if f n then refl nd (if f n' then refl nd a n' else a) n else (if f n' then refl nd a n' else a) := by
    intro a ha n n'
    cases f n <;> cases f n' <;> simp [cm a ha n n']
  set R : Normal → Nat → Nat := fun n a => if f n then refl nd a n else a with hR
  have rl : ∀ a < N, ∀ n, R n a < N := fun a ha n => (one a ha n).1
  have rt : ∀ a < N, ∀ n, R n (R n a) = a := fun a ha n => (one a ha n).2
  have rc : ∀ a < N, ∀ n n', R n' (R n a) = R n (R n' a) := two
  have e : ∀ a, turnAng nd f a = R .Z (R .Y (R .X a)) := fun _ => rfl
  have l1 := rl a ha .X
  have l2 := rl _ l1 .Y
  have l3 := rl _ l2 .Z
  refine ⟨by rw [e]; exact l3, ?_, fun n => ?_⟩
  · rw [e, e, rc _ l2 .Z .X, rc _ l1 .Y .X, rt a ha .X, rc _ (rl a ha .Y) .Z .Y, rt a ha .Y, rt a ha .Z]
  · have step : ∀ a < N, ∀ n', R n' (refl nd a n) = refl nd (R n' a) n := by
      intro a ha n'
      simp only [hR]
      split_ifs
      · exact cm a ha n n'
      · rfl
    rw [e, e, step a ha, step _ l1, step _ l2]

/-- The mirrored ordinate has the cosines turned. -/
theorem turnAng_angle (nd N : Nat) (f : Normal → Bool) (ang : Nat → Angle K) (hlt : ∀ a < N, ∀ n, f n = true → refl nd a n < N)
    (hrm : ∀ a < N, ∀ n, f n = true → ang (refl nd a n) = mirror (ang a) n) (a : Nat) (ha : a < N) :
    ang (turnAng nd f a) = ⟨turnSign (f .X) (ang a).ox, turnSign (f .Y) (ang a).oy, turnSign (f .Z) (ang a).oz, (ang a).weight⟩ := by
  have one : ∀ a < N, ∀ n, (if f n then refl nd a n else a) < N ∧ ang (if f n then refl nd a n else a) = if f n then mirror (ang a) n else ang a := by
    intro a ha n
    cases e : f n
    · exact ⟨ha, rfl⟩
    · exact ⟨hlt a ha n e, hrm a ha n e⟩
  obtain ⟨l1, e1⟩ := one a ha .X
  obtain ⟨l2, e2⟩ := one _ l1 .Y
  obtain ⟨-, e3⟩ := one _ l2 .Z
  show ang (if f .Z then refl nd _ .Z else _) = _
  rw [e3, e2, e1]
  cases f .X <;> cases f .Y <;> cases f .Z <;> rfl

/-- The conditions met by the mirrored ordinate. -/
theorem turn_vacuum (sh sh' : Store K) (f : Normal → Bool) (hl : sh'.size.length = sh.size.length) (htypes : sh'.types = turnTypes f sh.types) (ang : Nat → Angle K)
    (hang : ∀ a < sh.size.length, sh.angles[a]? = some (ang a)) (hang' : ∀ a < sh.size.length, sh'.angles[a]? = some (ang a)) (a b : Nat) (ha : a < sh.size.length) (hb : b < sh.size.length)
    (hcos : (ang a).ox ≠ 0 ∧ (ang a).oy ≠ 0 ∧ (f .Z = true → (ang a).oz ≠ 0))
    (hab : ang b = ⟨turnSign (f .X) (ang a).ox, turnSign (f .Y) (ang a).oy, turnSign (f .Z) (ang a).oz, (ang a).weight⟩) (n : Normal) : vacuumOn sh' b n = vacuumOn sh a n := by
  rw [vacuum_at sh ang hang a ha, vacuum_at sh' ang (by rw [hl]; exact hang') b (by rw [hl]; exact hb), htypes, hab]
  have key : turnTypes f sh.types (upwindSurface ⟨turnSign (f .X) (ang a).ox, turnSign (f .Y) (ang a).oy, turnSign (f .Z) (ang a).oz, (ang a).weight⟩ n) = sh.types (upwindSurface (ang a) n) := by
    obtain ⟨hx, hy, hz⟩ := hcos
    cases n
    · cases e : f .X
      · by_cases h : 0 < (ang a).ox <;> simp [upwindSurface, turnSign, turnTypes, e, h]
      · rcases lt_or_gt_of_ne hx with h | h
        · simp [upwindSurface, turnSign, turnTypes, e, h, not_lt.mpr h.le]
        · simp [upwindSurface, turnSign, turnTypes, e, h, not_lt.mpr h.le]
    · cases e : f .Y
      · by_cases h : 0 < (ang a).oy <;> simp [upwindSurface, turnSign, turnTypes, e, h]
      · rcases lt_or_gt_of_ne hy with h | h
        · simp [upwindSurface, turnSign, turnTypes, e, h, not_lt.mpr h.le]
        · simp [upwindSurface, turnSign, turnTypes, e, h, not_lt.mpr h.le]
    · cases e : f .Z
      · by_cases h : 0 < (ang a).oz <;> simp [upwindSurface, turnSign, turnTypes, e, h]
      · rcases lt_or_gt_of_ne (hz e) with h | h
        · simp [upwindSurface, turnSign, turnTypes, e, h, not_lt.mpr h.le]
        · simp [upwindSurface, turnSign, turnTypes, e, h, not_lt.mpr h.le]
  rw [key]

def flags3 (f : Sn.Ax3 → Bool) : Normal → Bool
  | .X => f .x
  | .Y => f .y
  | .Z => f .z

def flags2 (f : Sn.Ax2 → Bool) : Normal → Bool
  | .X => f .x
  | .Y => f .y
  | .Z => false

/-- C158: the Sn sweepers in three dimensions with the boundary conditions and the ordinates of the code are of this kind: `f` marks the axes along which the core is mirrored. -/
theorem C158_boundary3 (sh sh' : Store K) (first : List (Angle K)) (h : ∀ b o, Pre (load sh b) (load sh o) first) (h' : ∀ b o, Pre (load sh' b) (load sh' o) first)
    (h8 : sh.size.length = 8 * first.length) (hl : sh'.size.length = sh.size.length) (ht : ∀ s, sh.types s = .REFLECT ∨ sh.types s = .VACUUM) (f : Sn.Ax3 → Bool)
    (htypes : sh'.types = turnTypes (flags3 f) sh.types) (d : Mesh.Dims) (dx dy dz dx' dy' dz' : Nat → K) (hdx : ∀ i < d.nx, dx' (Sn.turn (f .x) d.nx i) = dx i)
    (hdy : ∀ i < d.ny, dy' (Sn.turn (f .y) d.ny i) = dy i) (hdz : ∀ i < d.nz, dz' (Sn.turn (f .z) d.nz i) = dz i)
    (hsz : ∀ a < sh.size.length, faceSize sh a .X = d.ny * d.nz ∧ faceSize sh a .Y = d.nx * d.nz ∧ faceSize sh a .Z = d.nx * d.ny)
    (hsz' : ∀ a < sh.size.length, faceSize sh' a .X = d.ny * d.nz ∧ faceSize sh' a .Y = d.nx * d.nz ∧ faceSize sh' a .Z = d.nx * d.ny)
    (ang : Nat → Angle K) (hang : ∀ a < sh.size.length, sh.angles[a]? = some (ang a)) (hcos : ∀ a < sh.size.length, (ang a).ox ≠ 0 ∧ (ang a).oy ≠ 0 ∧ (ang a).oz ≠ 0)
    (wgt : Nat → K) (hwgt : ∀ a < sh.size.length, wgt (turnAng first.length (flags3 f) a) = wgt a) (sch sch' : Nat → Nat → Scheme3 K)
    (hsch : ∀ a < sh.size.length, ∀ i < d.nx * d.ny * d.nz, sch' (turnAng first.length (flags3 f) a) (flipCell3 f d i) = sch a i) (m m' : SnSetup Sn.Ax3 K) (hu : m.u = snUpdate sh norm3 ax3)
    (hu' : m'.u = snUpdate sh' norm3 ax3) (hfpi : m'.fpi = m.fpi) (hinner : m'.nInner = m.nInner) (order order' : List Nat) (hperm : order.Perm (List.range sh.size.length))
    (hperm' : order'.Perm (List.range sh.size.length)) (hords : m.ords = order.map fun a => ord3 d dx dy dz a (ang a).ox (ang a).oy (ang a).oz (wgt a) (sch a))
    (hords' : m'.ords = order'.map fun a => ord3 d dx' dy' dz' a (ang a).ox (ang a).oy (ang a).oz (wgt a) (sch' a)) :
    SnFlipped (d.nx * d.ny * d.nz) sh.size.length (slots3 d) (flipFace3 f d) (flipCell3 f d) (turnAng first.length (flags3 f)) m m'
      (fun a => ord3 d dx dy dz a (ang a).ox (ang a).oy (ang a).oz (wgt a) (sch a)) (fun a => ord3 d dx' dy' dz' a (ang a).ox (ang a).oy (ang a).oz (wgt a) (sch' a))
      (fun a k => refl first.length a (norm3 k)) (fun a k => vacuumOn sh a (norm3 k)) fun a k => vacuumOn sh' a (norm3 k) := by
  have hP := h (fun _ _ _ => 0) fun _ _ _ => 0
  have hangles : sh.angles = expand first := hP.angles
  have hangles' : sh'.angles = expand first := (h' (fun _ _ _ => 0) fun _ _ _ => 0).angles
  have hlt : ∀ a < sh.size.length, ∀ n, refl first.length a n < sh.size.length := by
    intro a ha n
    rw [h8] at ha ⊢
    exact (refl_props first.length a n ha).1
  have hrm : ∀ a < sh.size.length, ∀ n, ang (refl first.length a n) = mirror (ang a) n := by
    intro a ha n
    have h1 := hang a ha
    have h2 := hang _ (hlt a ha n)
    rw [hangles] at h1 h2
    rw [refl_get first hP.firstOct a n _ h1, Option.some.injEq] at h2
    exact h2.symm
  have ht' : ∀ s, sh'.types s = .REFLECT ∨ sh'.types s = .VACUUM := by
    intro s
    rw [htypes]
    cases s <;> exact ht _
  have tp := fun a ha => turnAng_props first.length sh.size.length (flags3 f) (by omega) (fun a ha n _ => hlt a ha n) a ha
  have ta := fun a ha => turnAng_angle first.length sh.size.length (flags3 f) ang (fun a ha n _ => hlt a ha n) (fun a ha n _ => hrm a ha n) a ha
  exact
    { one := sn_linked sh first h ht norm3 ax3 (fun k => by cases k <;> rfl) (slots3 d)
        (fun a ha k => by
          obtain ⟨h1, h2, h3⟩ := hsz a ha
          cases k
          · exact h1
          · exact h2
          · exact h3) (fun a ha k => hlt a ha _) m hu order hperm _ (fun _ => rfl) hords
      two := by
        rw [← hl]
        exact sn_linked sh' first h' ht' norm3 ax3 (fun k => by cases k <;> rfl) (slots3 d)
          (fun a ha k => by
            obtain ⟨h1, h2, h3⟩ := hsz' a (by rw [← hl]; exact ha)
            cases k
            · exact h1
            · exact h2
            · exact h3) (fun a ha k => by rw [hl] at ha ⊢; exact hlt a ha _) m' hu' order' (by rw [hl]; exact hperm') _ (fun _ => rfl) hords'
      fpi := hfpi
      inner := hinner
      local1 := fun a _ => C157_local3 d dx dy dz a _ _ _ _ _
      local2 := fun a _ => C157_local3 d dx' dy' dz' a _ _ _ _ _
      tLt := fun a ha => (tp a ha).1
      tTwice := fun a ha => (tp a ha).2.1
      comm := fun a ha k => (tp a ha).2.2 _
      vacT := fun a ha k => turn_vacuum sh sh' (flags3 f) hl htypes ang hang (by rw [hangles', ← hangles]; exact hang) a _ ha (tp a ha).1
        ⟨(hcos a ha).1, (hcos a ha).2.1, fun _ => (hcos a ha).2.2⟩ (ta a ha) _
      face := fun k j hj => (flipFace3_props f d k j hj).1
      ord := fun a ha => by
        have := C158_ord3 f d dx dy dz dx' dy' dz' hdx hdy hdz a (turnAng first.length (flags3 f) a) (ang a).ox (ang a).oy (ang a).oz (wgt a) (hcos a ha).1 (hcos a ha).2.1 (hcos a ha).2.2 (sch a)
          (sch' (turnAng first.length (flags3 f) a)) (hsch a ha)
        simp only [ta a ha, hwgt a ha]
        exact this }

/-- C158: the same in a plane, with half of the ordinates. -/
theorem C158_boundary2 (sh sh' : Store K) (first : List (Angle K)) (h : ∀ b o, Pre (load sh b) (load sh o) first) (h' : ∀ b o, Pre (load sh' b) (load sh' o) first)
    (h4 : sh.size.length = 4 * first.length) (hl : sh'.size.length = sh.size.length) (ht : ∀ s, sh.types s = .REFLECT ∨ sh.types s = .VACUUM) (f : Sn.Ax2 → Bool)
    (htypes : sh'.types = turnTypes (flags2 f) sh.types) (d : Mesh.Dims) (dx dy dx' dy' : Nat → K) (hdx : ∀ i < d.nx, dx' (Sn.turn (f .x) d.nx i) = dx i)
    (hdy : ∀ i < d.ny, dy' (Sn.turn (f .y) d.ny i) = dy i) (hsz : ∀ a < sh.size.length, faceSize sh a .X = d.ny ∧ faceSize sh a .Y = d.nx)
    (hsz' : ∀ a < sh.size.length, faceSize sh' a .X = d.ny ∧ faceSize sh' a .Y = d.nx)
    (ang : Nat → Angle K) (hang : ∀ a < sh.size.length, sh.angles[a]? = some (ang a)) (hcos : ∀ a < sh.size.length, (ang a).ox ≠ 0 ∧ (ang a).oy ≠ 0)
    (wgt : Nat → K) (hwgt : ∀ a < sh.size.length, wgt (turnAng first.length (flags2 f) a) = wgt a) (sch sch' : Nat → Nat → Scheme2 K)
    (hsch : ∀ a < sh.size.length, ∀ i < d.nx * d.ny, sch' (turnAng first.length (flags2 f) a) (flipCell2 f d i) = sch a i) (m m' : SnSetup Sn.Ax2 K) (hu : m.u = snUpdate sh norm2 ax2)
    (hu' : m'.u = snUpdate sh' norm2 ax2) (hfpi : m'.fpi = m.fpi) (hinner : m'.nInner = m.nInner) (order order' : List Nat) (hperm : order.Perm (List.range sh.size.length))
    (hperm' : order'.Perm (List.range sh.size.length)) (hords : m.ords = order.map fun a => ord2 d dx dy a (ang a).ox (ang a).oy (wgt a) (sch a))
    (hords' : m'.ords = order'.map fun a => ord2 d dx' dy' a (ang a).ox (ang a).oy (wgt a) (sch' a)) :
    SnFlipped (d.nx * d.ny) sh.size.length (slots2 d) (flipFace2 f d) (flipCell2 f d) (turnAng first.length (flags2 f)) m m'
      (fun a => ord2 d dx dy a (ang a).ox (ang a).oy (wgt a) (sch a)) (fun a => ord2 d dx' dy' a (ang a).ox (ang a).oy (wgt a) (sch' a))
      (fun a k => refl first.length a (norm2 k)) (fun a k => vacuumOn sh a (norm2 k)) fun a k => vacuumOn sh' a (norm2 k) := by
  have hP := h (fun _ _ _ => 0) fun _ _ _ => 0
  have hangles : sh.angles = expand first := hP.angles
  have hangles' : sh'.angles = expand first := (h' (fun _ _ _ => 0) fun _ _ _ => 0).angles
  have hlt : ∀ a < sh.size.length, ∀ k : Sn.Ax2, refl first.length a (norm2 k) < sh.size.length := by
    intro a ha k
    obtain ⟨o, i, ho, hi, rfl⟩ := split_index first.length a (by omega)
    have ho4 : o < 4 := by
      by_contra hc
      have := Nat.mul_le_mul_right first.length (show 4 ≤ o by omega)
      omega
    rw [refl_eq _ o i (by omega) hi, h4]
    have : octMirror (norm2 k) o < 4 := by
      clear ha hi
      cases k <;> interval_cases o <;> decide
    have := Nat.mul_le_mul_right first.length (show octMirror (norm2 k) o ≤ 3 by omega)
    omega
  have hrm : ∀ a < sh.size.length, ∀ k : Sn.Ax2, ang (refl first.length a (norm2 k)) = mirror (ang a) (norm2 k) := by
    intro a ha k
    have h1 := hang a ha
    have h2 := hang _ (hlt a ha k)
    rw [hangles] at h1 h2
    rw [refl_get first hP.firstOct a _ _ h1, Option.some.injEq] at h2
    exact h2.symm
  have ht' : ∀ s, sh'.types s = .REFLECT ∨ sh'.types s = .VACUUM := by
    intro s
    rw [htypes]
    cases s <;> exact ht _
  have hltN : ∀ a < sh.size.length, ∀ n, flags2 f n = true → refl first.length a n < sh.size.length := by
    intro a ha n hn
    cases n
    · exact hlt a ha .x
    · exact hlt a ha .y
    · exact absurd hn (by simp [flags2])
  have hrmN : ∀ a < sh.size.length, ∀ n, flags2 f n = true → ang (refl first.length a n) = mirror (ang a) n := by
    intro a ha n hn
    cases n
    · exact hrm a ha .x
    · exact hrm a ha .y
    · exact absurd hn (by simp [flags2])
  have tp := fun a ha => turnAng_props first.length sh.size.length (flags2 f) (by omega) hltN a ha
  have ta := fun a ha => turnAng_angle first.length sh.size.length (flags2 f) ang hltN hrmN a ha
  exact
    { one := sn_linked sh first h ht norm2 ax2 (fun k => by cases k <;> rfl) (slots2 d)
        (fun a ha k => by
          obtain ⟨h1, h2⟩ := hsz a ha
          cases k
          · exact h1
          · exact h2) (fun a ha k => hlt a ha _) m hu order hperm _ (fun _ => rfl) hords
      two := by
        rw [← hl]
        exact sn_linked sh' first h' ht' norm2 ax2 (fun k => by cases k <;> rfl) (slots2 d)
          (fun a ha k => by
            obtain ⟨h1, h2⟩ := hsz' a (by rw [← hl]; exact ha)
            cases k
            · exact h1
            · exact h2) (fun a ha k => by rw [hl] at ha ⊢; exact hlt a ha _) m' hu' order' (by rw [hl]; exact hperm') _ (fun _ => rfl) hords'
      fpi := hfpi
      inner := hinner
      local1 := fun a _ => C157_local2 d dx dy a _ _ _ _
      local2 := fun a _ => C157_local2 d dx' dy' a _ _ _ _
      tLt := fun a ha => (tp a ha).1
      tTwice := fun a ha => (tp a ha).2.1
      comm := fun a ha k => (tp a ha).2.2 _
      vacT := fun a ha k => turn_vacuum sh sh' (flags2 f) hl htypes ang hang (by rw [hangles', ← hangles]; exact hang) a _ ha (tp a ha).1
        ⟨(hcos a ha).1, (hcos a ha).2, fun hh => absurd hh (by simp [flags2])⟩ (ta a ha) _
      face := fun k j hj => (flipFace2_props f d k j hj).1
      ord := fun a ha => by
        have := C158_ord2 f d dx dy dx' dy' hdx hdy a (turnAng first.length (flags2 f) a) (ang a).ox (ang a).oy (wgt a) (hcos a ha).1 (hcos a ha).2 (sch a)
          (sch' (turnAng first.length (flags2 f) a)) (hsch a ha)
        simp only [ta a ha, hwgt a ha]
        exact this }

end

/-! ### The pair of cells of C156 and its mirror image -/

/-- The pair of cells with other conditions on its sides. -/
def sideStore (t : Surface → Boundary) : Store ℚ := { pairStore with types := t }

theorem side_pre (t : Surface → Boundary) (ht : ∀ s, supported (t s)) (b o : Nat → Normal → Nat → ℚ) : Pre (load (sideStore t) b) (load (sideStore t) o) exAngles :=
  have h := pair_pre b o
  { angles := h.angles, firstOct := h.firstOct, nd := h.nd, nA := h.nA, outSize := h.outSize, outGroup := h.outGroup, mirror := h.mirror, noGap := h.noGap, types := ht }

def sideSn (t : Surface → Boundary) (w : Nat → ℚ) (gs : Bool) (order : List Nat) (inner : Nat) : SnSetup Sn.Ax2 ℚ :=
  ⟨4, gs, snUpdate (sideStore t) norm2 ax2, order.map fun a => ord2 ⟨2, 1, 1⟩ w (fun _ => 1) a (pairAngle a).ox (pairAngle a).oy 1 fun _ => Sn.evalDD2, inner⟩

/-- Mirrored along x. -/
def alongX : Sn.Ax2 → Bool
  | .x => true
  | .y => false

/-- The hypotheses of `C158_boundary2` hold: the pair with conditions `t`, mirrored along x. -/
theorem side_flip (t : Surface → Boundary) (ht : ∀ s, t s = .REFLECT ∨ t s = .VACUUM) (w w' : Nat → ℚ) (hw : ∀ i < 2, w' (Sn.turn true 2 i) = w i) (gs gs' : Bool) (order order' : List Nat)
    (hperm : order.Perm (List.range 4)) (hperm' : order'.Perm (List.range 4)) (inner : Nat) :
    SnFlipped 2 4 (slots2 ⟨2, 1, 1⟩) (flipFace2 alongX ⟨2, 1, 1⟩) (flipCell2 alongX ⟨2, 1, 1⟩) (turnAng 1 (flags2 alongX)) (sideSn t w gs order inner)
      (sideSn (turnTypes (flags2 alongX) t) w' gs' order' inner)
      (fun a => ord2 ⟨2, 1, 1⟩ w (fun _ => 1) a (pairAngle a).ox (pairAngle a).oy 1 fun _ => Sn.evalDD2)
      (fun a => ord2 ⟨2, 1, 1⟩ w' (fun _ => 1) a (pairAngle a).ox (pairAngle a).oy 1 fun _ => Sn.evalDD2) (fun a k => refl 1 a (norm2 k))
      (fun a k => vacuumOn (sideStore t) a (norm2 k)) fun a k => vacuumOn (sideStore (turnTypes (flags2 alongX) t)) a (norm2 k) := by
  have hs : ∀ b : Boundary, b = .REFLECT ∨ b = .VACUUM → supported b := by
    rintro b (rfl | rfl)
    · exact Or.inr (Or.inl rfl)
    · exact Or.inl rfl
  refine C158_boundary2 (sideStore t) (sideStore (turnTypes (flags2 alongX) t)) exAngles (side_pre t fun s => hs _ (ht s))
    (side_pre _ fun s => hs _ (by cases s <;> exact ht _)) rfl rfl ht alongX rfl ⟨2, 1, 1⟩ w (fun _ => 1) w' (fun _ => 1) hw (fun _ _ => rfl) ?_ ?_ pairAngle ?_ ?_ (fun _ => 1) (fun _ _ => rfl)
    (fun _ _ => Sn.evalDD2) (fun _ _ => Sn.evalDD2) (fun _ _ _ _ => rfl) _ _ rfl rfl rfl rfl order order' hperm hperm' rfl rfl
  · show ∀ a < 4, faceSize pairStore a .X = 1 ∧ faceSize pairStore a .Y = 2
    decide +kernel
  · show ∀ a < 4, faceSize pairStore a .X = 1 ∧ faceSize pairStore a .Y = 2
    decide +kernel
  · show ∀ a < 4, pairStore.angles[a]? = some (pairAngle a)
    decide +kernel
  · show ∀ a < 4, (pairAngle a).ox ≠ 0 ∧ (pairAngle a).oy ≠ 0
    decide +kernel

/-- The problem of C156 with the cells exchanged. -/
def riapProblem : Problem ℚ := ⟨2, 2, [⟨slowMat, [1]⟩, ⟨⟨fun g => if g = 0 then 2 else 3, fun _ => 0, fun _ => 0, fun _ => 0, fun g h => if g = h then 1 else if g = 1 ∧ h = 0 then 1 else 0⟩, [0]⟩],
  fun i => pairWidth (1 - i)⟩

theorem pair_nonneg : ∀ x ∈ pairProblem.rs, Source.NonNeg pairProblem.ng x.mat := by
  intro x hx a b _ _
  simp only [pairProblem, List.mem_cons, List.not_mem_nil, or_false] at hx
  rcases hx with rfl | rfl
  · simp only [slowMat]
    split_ifs <;> norm_num
  · dsimp only
    split_ifs <;> norm_num

theorem pair_flip : ProblemFlip (flipCell2 alongX ⟨2, 1, 1⟩) pairProblem riapProblem where
  ng := rfl
  nReg := rfl
  part := ⟨by decide, by simp [pairProblem]⟩
  part' := ⟨by decide, by simp [riapProblem]⟩
  cover := fun i => by simp [pairProblem]; omega
  cover' := fun i => by simp [riapProblem]; omega
  nonneg := pair_nonneg
  lt := by show ∀ i < 2, _; decide
  twice := by show ∀ i < 2, _; decide
  mat := fun i hi => by
    have hi : i < 2 := hi
    interval_cases i
    · exact ⟨_, List.mem_cons_self, _, List.mem_cons_self, by decide, by decide, rfl⟩
    · exact ⟨_, List.mem_cons_of_mem _ List.mem_cons_self, _, List.mem_cons_of_mem _ List.mem_cons_self, by decide, by decide, rfl⟩
  vol := by show ∀ i < 2, _; decide +kernel

def evenState : SnState Sn.Ax2 ℚ := ⟨fun _ _ => 1, fun _ => 5, fun _ _ _ _ => 1, fun _ _ _ => 7⟩

/-- The hypotheses of `C158_outers` hold: vacuum in the west, in the mirrored pair in the east, ordinates in other orders, three inner iterations. -/
example (c : Nat) (k : ℚ) : ∃ k1 s1 s1', outers pairProblem (snSweeper pairProblem (sideSn pairStore.types pairWidth false [2, 0, 3, 1] 3)) c k evenState = some (k1, s1) ∧
    outers riapProblem (snSweeper riapProblem (sideSn (turnTypes (flags2 alongX) pairStore.types) (fun i => pairWidth (1 - i)) false [0, 1, 2, 3] 3)) c k evenState = some (k1, s1') ∧
    StateFlip pairProblem 4 (slots2 ⟨2, 1, 1⟩) (flipFace2 alongX ⟨2, 1, 1⟩) (flipCell2 alongX ⟨2, 1, 1⟩) (turnAng 1 (flags2 alongX)) s1 s1' :=
  C158_outers pair_flip (side_flip pairStore.types (fun s => by
      show (if s = .WEST then Boundary.VACUUM else .REFLECT) = .REFLECT ∨ (if s = .WEST then Boundary.VACUUM else .REFLECT) = .VACUUM
      split_ifs <;> simp) pairWidth _ (by decide +kernel) false false [2, 0, 3, 1] [0, 1, 2, 3] (by decide) (by decide) 3) ⟨rfl, rfl⟩ c k _ _ ⟨fun _ _ _ _ => rfl, fun _ _ _ _ _ _ _ => rfl⟩

/-- The hypotheses of `C158_fixed` hold: an external source of fast neutrons in the west, in the mirrored pair in the east. -/
example (c : Nat) : ∃ s1 s1', fixedSteps pairProblem (snSweeper pairProblem (sideSn pairStore.types pairWidth false [2, 0, 3, 1] 2)) (some ⟨2, 2, fun i g => if g = 0 ∧ i = 0 then 5 else 0⟩) c evenState = some s1 ∧
    fixedSteps riapProblem (snSweeper riapProblem (sideSn (turnTypes (flags2 alongX) pairStore.types) (fun i => pairWidth (1 - i)) false [0, 1, 2, 3] 2))
      (some ⟨2, 2, fun i g => if g = 0 ∧ i = 1 then 5 else 0⟩) c evenState = some s1' ∧
    StateFlip pairProblem 4 (slots2 ⟨2, 1, 1⟩) (flipFace2 alongX ⟨2, 1, 1⟩) (flipCell2 alongX ⟨2, 1, 1⟩) (turnAng 1 (flags2 alongX)) s1 s1' := by
  refine C158_fixed pair_flip (side_flip pairStore.types (fun s => by
      show (if s = .WEST then Boundary.VACUUM else .REFLECT) = .REFLECT ∨ (if s = .WEST then Boundary.VACUUM else .REFLECT) = .VACUUM
      split_ifs <;> simp) pairWidth _ (by decide +kernel) false false [2, 0, 3, 1] [0, 1, 2, 3] (by decide) (by decide) 2) ⟨rfl, rfl⟩ _ _
    (fun g => (initializeGroup 2 (some (⟨2, 2, fun i g => if g = 0 ∧ i = 0 then 5 else 0⟩ : Ext ℚ)) g).getD fun _ => 0)
    (fun g => (initializeGroup 2 (some (⟨2, 2, fun i g => if g = 0 ∧ i = 1 then 5 else 0⟩ : Ext ℚ)) g).getD fun _ => 0) ?_ ?_ (by decide +kernel) c _ _
    ⟨fun _ _ _ _ => rfl, fun _ _ _ _ _ _ _ => rfl⟩
  · intro g hg
    have hg : g < 2 := hg
    interval_cases g <;> rfl
  · intro g hg
    have hg : g < 2 := hg
    interval_cases g <;> rfl

/-- What the two calculations of one outer iteration give: flux of the fast group in both cells. -/
example : ((outers pairProblem (snSweeper pairProblem (sideSn pairStore.types pairWidth false [2, 0, 3, 1] 1)) 1 1 evenState).map fun r => [r.2.flux 0 0, r.2.flux 1 0]) =
    (outers riapProblem (snSweeper riapProblem (sideSn (turnTypes (flags2 alongX) pairStore.types) (fun i => pairWidth (1 - i)) false [0, 1, 2, 3] 1)) 1 1 evenState).map fun r =>
      [r.2.flux 1 0, r.2.flux 0 0] := by
  decide +kernel

/-- Two cells of the same material, reflection on all sides. -/
def evenProblem : Problem ℚ := ⟨2, 2, [⟨slowMat, [0, 1]⟩], fun _ => 1⟩

theorem even_flip : ProblemFlip (flipCell2 alongX ⟨2, 1, 1⟩) evenProblem evenProblem where
  ng := rfl
  nReg := rfl
  part := ⟨by decide, by simp [evenProblem]⟩
  part' := ⟨by decide, by simp [evenProblem]⟩
  cover := fun i => by simp [evenProblem]; omega
  cover' := fun i => by simp [evenProblem]; omega
  nonneg := by
    intro x hx a b _ _
    simp only [evenProblem, List.mem_cons, List.not_mem_nil, or_false] at hx
    subst hx
    simp only [slowMat]
    split_ifs <;> norm_num
  lt := by show ∀ i < 2, _; decide
  twice := by show ∀ i < 2, _; decide
  mat := fun i hi => by
    have hi : i < 2 := hi
    interval_cases i
    · exact ⟨_, List.mem_cons_self, _, List.mem_cons_self, by decide, by decide, rfl⟩
    · exact ⟨_, List.mem_cons_self, _, List.mem_cons_self, by decide, by decide, rfl⟩
  vol := fun _ _ => rfl

theorem even_setup (gs : Bool) : SnFlipped 2 4 (slots2 ⟨2, 1, 1⟩) (flipFace2 alongX ⟨2, 1, 1⟩) (flipCell2 alongX ⟨2, 1, 1⟩) (turnAng 1 (flags2 alongX))
    (sideSn (fun _ => .REFLECT) (fun _ => 1) gs [0, 1, 2, 3] 1) (sideSn (fun _ => .REFLECT) (fun _ => 1) gs [0, 1, 2, 3] 1)
    (fun a => ord2 ⟨2, 1, 1⟩ (fun _ => 1) (fun _ => 1) a (pairAngle a).ox (pairAngle a).oy 1 fun _ => Sn.evalDD2)
    (fun a => ord2 ⟨2, 1, 1⟩ (fun _ => 1) (fun _ => 1) a (pairAngle a).ox (pairAngle a).oy 1 fun _ => Sn.evalDD2) (fun a k => refl 1 a (norm2 k))
    (fun a k => vacuumOn (sideStore fun _ => .REFLECT) a (norm2 k)) fun a k => vacuumOn (sideStore fun _ => .REFLECT) a (norm2 k) := by
  have h := side_flip (fun _ => .REFLECT) (fun _ => Or.inl rfl) (fun _ => 1) (fun _ => 1) (fun _ _ => rfl) gs gs [0, 1, 2, 3] [0, 1, 2, 3] (by decide) (by decide) 1
  have e : turnTypes (flags2 alongX) (fun _ => Boundary.REFLECT) = fun _ => .REFLECT := by
    funext s
    cases s <;> rfl
  rw [e] at h
  exact h

/-- The hypotheses of `C158_symmetric` hold for it. -/
example (c : Nat) (k k1 : ℚ) (s1 : SnState Sn.Ax2 ℚ)
    (ho : outers evenProblem (snSweeper evenProblem (sideSn (fun _ => .REFLECT) (fun _ => 1) false [0, 1, 2, 3] 1)) c k evenState = some (k1, s1)) :
    StateFlip evenProblem 4 (slots2 ⟨2, 1, 1⟩) (flipFace2 alongX ⟨2, 1, 1⟩) (flipCell2 alongX ⟨2, 1, 1⟩) (turnAng 1 (flags2 alongX)) s1 s1 :=
  C158_symmetric even_flip (even_setup false) rfl c k k1 _ s1 ⟨fun _ _ _ _ => rfl, fun _ _ _ _ _ _ _ => rfl⟩ ho

/-- `C158_symmetric` with either way of updating the boundary. -/
def C158_for_gauss_seidel : Prop :=
  ∀ (p : Problem ℚ) (nAng : Nat) (n : Sn.Ax2 → Nat) (σ : Sn.Ax2 → Nat → Nat) (ρ T : Nat → Nat) (m : SnSetup Sn.Ax2 ℚ) (ordOf : Nat → SnOrd Sn.Ax2 ℚ) (mir : Nat → Sn.Ax2 → Nat)
    (vac : Nat → Sn.Ax2 → Bool), ProblemFlip ρ p p → SnFlipped p.nReg nAng n σ ρ T m m ordOf ordOf mir vac vac → ∀ (c : Nat) (k k1 : ℚ) (s s1 : SnState Sn.Ax2 ℚ),
    StateFlip p nAng n σ ρ T s s → outers p (snSweeper p m) c k s = some (k1, s1) → StateFlip p nAng n σ ρ T s1 s1

/-- C158: with Gauss-Seidel updating a core that is its own mirror image gets, from a flat flux, a flux that is not. -/
theorem C158_not_gauss_seidel : ¬ C158_for_gauss_seidel := by
  intro hc
  have hr : ((outers evenProblem (snSweeper evenProblem (sideSn (fun _ => .REFLECT) (fun _ => 1) true [0, 1, 2, 3] 1)) 1 1 evenState).map fun r =>
      decide (r.2.flux 1 0 = r.2.flux 0 0)) = some false := by
    decide +kernel
  obtain ⟨⟨k1, s1⟩, h1, h2⟩ := Option.map_eq_some_iff.mp hr
  have := (hc _ _ _ _ _ _ _ _ _ _ even_flip (even_setup true) 1 1 k1 evenState s1 ⟨fun _ _ _ _ => rfl, fun _ _ _ _ _ _ _ => rfl⟩ h1).1 0 (by decide) 0 (by decide)
  have e : s1.flux 1 0 = s1.flux 0 0 := this
  simp [e] at h2

/-- The hypotheses of `C158_boundary3` hold for the box of `C110`, mirrored along all three axes, with schemes that depend on the cell and the ordinate. -/
example (sch : Nat → Nat → Scheme3 ℚ) : ∃ m m' : SnSetup Sn.Ax3 ℚ, ∃ ordOf ordOf' mir vac vac',
    SnFlipped 2 8 (slots3 ⟨2, 1, 1⟩) (flipFace3 (fun _ => true) ⟨2, 1, 1⟩) (flipCell3 (fun _ => true) ⟨2, 1, 1⟩) (turnAng 1 (flags3 fun _ => true)) m m' ordOf ordOf' mir vac vac' :=
  ⟨⟨8, false, snUpdate boxStore norm3 ax3, (List.range 8).map fun a => ord3 ⟨2, 1, 1⟩ (fun i => if i = 0 then 1 else 2) (fun _ => 1) (fun _ => 1) a (boxAngle a).ox (boxAngle a).oy
      (boxAngle a).oz 1 (sch a), 1⟩,
    ⟨8, true, snUpdate boxStore norm3 ax3, (List.range 8).reverse.map fun a => ord3 ⟨2, 1, 1⟩ (fun i => if i = 0 then 2 else 1) (fun _ => 1) (fun _ => 1) a (boxAngle a).ox
      (boxAngle a).oy (boxAngle a).oz 1 fun i => sch (turnAng 1 (flags3 fun _ => true) a) (flipCell3 (fun _ => true) ⟨2, 1, 1⟩ i), 1⟩, _, _, _, _, _,
    C158_boundary3 boxStore boxStore exAngles box_pre box_pre rfl rfl (fun _ => Or.inl rfl) (fun _ => true) (by funext s; cases s <;> rfl) ⟨2, 1, 1⟩
      (fun i => if i = 0 then 1 else 2) (fun _ => 1) (fun _ => 1) (fun i => if i = 0 then 2 else 1) (fun _ => 1) (fun _ => 1) (by decide +kernel) (by decide +kernel) (by decide +kernel)
      (by decide +kernel) (by decide +kernel) boxAngle (by decide +kernel) box_cos (fun _ => 1) (fun _ _ => rfl) sch
      (fun a i => sch (turnAng 1 (flags3 fun _ => true) a) (flipCell3 (fun _ => true) ⟨2, 1, 1⟩ i))
      (fun a ha i hi => by
        show sch (turnAng 1 (flags3 fun _ => true) (turnAng 1 (flags3 fun _ => true) a)) _ = _
        rw [(turnAng_props 1 8 (flags3 fun _ => true) (by decide) (fun a ha n _ => (refl_props 1 a n ha).1) a ha).2.1, (flipCell3_props _ _ i hi).2])
      _ _ rfl rfl rfl rfl (List.range 8) (List.range 8).reverse (by decide) (by decide) rfl rfl⟩

end Verif.Medium
