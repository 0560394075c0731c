import Verif.Incoming.Model
import Verif.Mesh.Props
import Verif.Sn.SweepProps
import Mathlib.Tactic.Ring
import Mathlib.Tactic.FieldSimp
import Mathlib.Tactic.NormNum
import Mathlib.Tactic.Linarith
import Mathlib.Algebra.Order.Field.Rat

/-!
# C76: update of incoming angular fluxes
-/

namespace Verif.Incoming

open Verif.Mesh Verif.Mesh.Spec Verif.Sn

variable {K : Type} [Field K] [LinearOrder K]

theorem walkFace_eq (d : Dims) (up : Surface) (f : K → Nat → K) : ∀ (l : List Pos) (i : Nat) (face : Nat → K),
    (∀ p ∈ l, (coarseSurf d (coarseCell d p) up).isSome) → ∃ r, walkFace d up f l i face = some r ∧
      (∀ j, (j < i ∨ i + l.length ≤ j) → r j = face j) ∧
      ∀ k (hk : k < l.length), ∃ is, coarseSurf d (coarseCell d l[k]) up = some is ∧ r (i + k) = f (face (i + k)) is
  | [], i, face, _ => ⟨face, rfl, fun _ _ => rfl, fun k hk => absurd hk (by simp)⟩
  | p :: rest, i, face, h => by
    obtain ⟨is, his⟩ := Option.isSome_iff_exists.mp (h p (by simp))
    obtain ⟨r, h1, h2, h3⟩ := walkFace_eq d up f rest (i + 1) (fun j => if j = i then f (face j) is else face j)
      (fun q hq => h q (List.mem_cons_of_mem _ hq))
    refine ⟨r, by simp only [walkFace, his]; exact h1, ?_, ?_⟩
    · intro j hj
      rw [h2 j (by simp only [List.length_cons] at hj; omega)]
      exact if_neg (by simp only [List.length_cons] at hj; omega)
    · intro k hk
      cases k with
      | zero =>
        refine ⟨is, his, ?_⟩
        rw [Nat.add_zero, h2 i (by omega)]
        simp
      | succ k =>
        obtain ⟨is', e1, e2⟩ := h3 k (by simpa using hk)
        refine ⟨is', by simpa using e1, ?_⟩
        rw [show i + (k + 1) = i + 1 + k by omega, e2]
        rw [if_neg (by omega)]

theorem getElem?_flat {α : Type} (n m : Nat) (g : Nat → Nat → α) : ∀ (i j : Nat), i < n → j < m →
    ((List.range n).flatMap fun i => (List.range m).map fun j => g i j)[m * i + j]? = some (g i j) := by
  induction n with
  | zero => intro i j h; omega
  | succ n ih =>
    intro i j hi hj
    have hlen : ((List.range n).flatMap fun i => (List.range m).map fun j => g i j).length = m * n := by
      clear ih hi
      induction n with
      | zero => simp
      | succ n ih2 => rw [List.range_succ, List.flatMap_append, List.length_append, ih2]; simp [Nat.mul_succ]
    rw [List.range_succ, List.flatMap_append]
    by_cases h : i < n
    · rw [List.getElem?_append_left]
      · exact ih i j h hj
      · rw [hlen]
        calc m * i + j < m * i + m := by omega
          _ = m * (i + 1) := by ring
          _ ≤ m * n := Nat.mul_le_mul_left m h
    · have : i = n := by omega
      subst this
      rw [List.getElem?_append_right (by rw [hlen]; omega), hlen]
      simp [hj]

theorem flat_length {α : Type} (n m : Nat) (g : Nat → Nat → α) :
    ((List.range n).flatMap fun i => (List.range m).map fun j => g i j).length = m * n := by
  induction n with
  | zero => simp
  | succ n ih => rw [List.range_succ, List.flatMap_append, List.length_append, ih]; simp [Nat.mul_succ]

/-- The surface a direction enters the mesh through, along an axis. -/
def entry (a : Ray3 K) : Ax3 → Surface
  | .x => if 0 < a.ox then .WEST else .EAST
  | .y => if 0 < a.oy then .SOUTH else .NORTH
  | .z => if 0 < a.oz then .BOTTOM else .TOP

/-- A cell of the mesh with this face on the boundary of the mesh. -/
def AtEdge (d : Dims) (p : Pos) : Surface → Prop
  | .WEST => p.x = 0
  | .EAST => p.x + 1 = d.nx
  | .SOUTH => p.y = 0
  | .NORTH => p.y + 1 = d.ny
  | .BOTTOM => p.z = 0
  | .TOP => p.z + 1 = d.nz
  | .INTERNAL => False

theorem surf_some (d : Dims) (p : Pos) (hx : p.x < d.nx) (hy : p.y < d.ny) (hz : p.z < d.nz) (s : Surface) (hs : s ≠ .INTERNAL) :
    (coarseSurf d (coarseCell d p) s).isSome := by
  obtain ⟨f, hf⟩ : ∃ f, faceOf p.x p.y p.z s = some f := by cases s <;> simp [faceOf] at hs ⊢
  have := coarseSurf_enc d p.x p.y p.z s f hf hx hy hz
  rw [show p = ⟨p.x, p.y, p.z⟩ from rfl, this]
  rfl

/-- Number of values of a face. -/
def faceLen (d : Dims) : Ax3 → Nat
  | .x => d.ny * d.nz
  | .y => d.nx * d.nz
  | .z => d.nx * d.ny

theorem cells_ok (d : Dims) (hx : 0 < d.nx) (hy : 0 < d.ny) (hz : 0 < d.nz) (a : Ray3 K) (x : Ax3) (p : Pos) (hp : p ∈ faceCells d a x) :
    p.x < d.nx ∧ p.y < d.ny ∧ p.z < d.nz := by
  cases x <;> simp only [faceCells, List.mem_flatMap, List.mem_map, List.mem_range] at hp <;> obtain ⟨i, hi, j, hj, rfl⟩ := hp <;>
    simp only <;> refine ⟨?_, ?_, ?_⟩ <;> first | assumption | (split_ifs <;> omega)

/-- C76: each incoming boundary value of an Sn ordinate is updated once, with the number of the surface on the boundary of the mesh through
which the sweep uses it to enter the mesh (the slot is that of C30); others are left alone. -/
theorem C76_sn (d : Dims) (a : Ray3 K) (f : K → Nat → Bool → K) (b : Ax3 → Nat → K) (x : Ax3) (hd : 0 < d.nx ∧ 0 < d.ny ∧ 0 < d.nz) :
    ∃ r, updateSn d a f b x = some r ∧ (∀ j, faceLen d x ≤ j → r j = b x j) ∧
      ∀ p : Pos, p.x < d.nx → p.y < d.ny → p.z < d.nz → AtEdge d p (entry a x) →
        ∃ n, coarseSurf d (coarseCell d p) (entry a x) = some n ∧
          r (slot3 d p.x p.y p.z x) = f (b x (slot3 d p.x p.y p.z x)) n (upwindOf a x).2 := by
  have hent : (upwindOf a x).1 = entry a x := by cases x <;> simp only [upwindOf, entry] <;> split_ifs <;> rfl
  have hne : entry a x ≠ .INTERNAL := by cases x <;> simp only [entry] <;> split_ifs <;> simp
  obtain ⟨r, h1, h2, h3⟩ := walkFace_eq d (upwindOf a x).1 (fun v is => f v is (upwindOf a x).2) (faceCells d a x) 0 (b x) (by
    intro p hp
    obtain ⟨q1, q2, q3⟩ := cells_ok d hd.1 hd.2.1 hd.2.2 a x p hp
    exact surf_some d p q1 q2 q3 _ (hent ▸ hne))
  have hlen : (faceCells d a x).length = faceLen d x := by
    cases x <;> simp only [faceCells, faceLen] <;> rw [flat_length] 
  refine ⟨r, h1, fun j hj => h2 j (by omega), ?_⟩
  intro p px py pz hedge
  have key : (faceCells d a x)[slot3 d p.x p.y p.z x]? = some p := by
    cases x <;> simp only [faceCells, slot3]
    · rw [getElem?_flat d.nz d.ny _ p.z p.y pz py]
      congr 1
      simp only [entry] at hedge
      cases p; congr 1
      split_ifs at hedge ⊢ <;> simp only [AtEdge] at hedge <;> simp only at px ⊢ <;> omega
    · rw [getElem?_flat d.nz d.nx _ p.z p.x pz px]
      congr 1
      simp only [entry] at hedge
      cases p; congr 1
      split_ifs at hedge ⊢ <;> simp only [AtEdge] at hedge <;> simp only at py ⊢ <;> omega
    · rw [getElem?_flat d.ny d.nx _ p.y p.x py px]
      congr 1
      simp only [entry] at hedge
      cases p; congr 1
      split_ifs at hedge ⊢ <;> simp only [AtEdge] at hedge <;> simp only at pz ⊢ <;> omega
  obtain ⟨hk, hk2⟩ := List.getElem?_eq_some_iff.mp key
  obtain ⟨is, e1, e2⟩ := h3 _ hk
  rw [hk2, hent] at e1
  exact ⟨is, e1, by rw [Nat.zero_add] at e2; exact e2⟩

/-- C76: with old partial currents the incoming flux is multiplied by the ratio of the scalar fluxes at the surface, twice the sums of the
partial currents. -/
theorem C76_ratio [IsStrictOrderedRing K] (part old : Nat → K × K) (v : K) (is : Nat) (phi phi0 : K) (h0 : 0 < phi0)
    (hp : (part is).1 + (part is).2 = phi / 2) (ho : (old is).1 + (old is).2 = phi0 / 2) : ratio part old v is = v * (phi / phi0) := by
  unfold ratio
  simp only [hp, ho]
  rw [mul_div_cancel₀ phi (two_ne_zero), mul_div_cancel₀ phi0 two_ne_zero, if_pos h0]

/-- C76: nothing changes if the partial currents do not. -/
theorem C76_same [IsStrictOrderedRing K] (part : Nat → K × K) (v : K) (is : Nat) : ratio part part v is = v := by
  unfold ratio
  simp only
  split_ifs with h
  · rw [div_self h.ne', mul_one]
  · rfl

/-- What enters the mesh through a surface: the partial current in the positive direction at the low ends, in the negative direction at
the high ends. -/
def entering (p : K × K) : Surface → K
  | .WEST | .SOUTH | .BOTTOM => p.1
  | _ => p.2

/-- What leaves the mesh. -/
def leaving (p : K × K) : Surface → K
  | .WEST | .SOUTH | .BOTTOM => p.2
  | _ => p.1

/-- C76, first update of the Sn sweeper: the incoming flux is the isotropic one that carries the partial current into the mesh, which is
pi times the flux. -/
def C76_first_claim : Prop := ∀ (d : Dims) (pi : ℚ) (a : Ray3 ℚ) (part : Nat → ℚ × ℚ) (b : Ax3 → Nat → ℚ) (x : Ax3) (p : Pos) (n : Nat),
  0 < pi → p.x < d.nx → p.y < d.ny → p.z < d.nz → AtEdge d p (entry a x) → coarseSurf d (coarseCell d p) (entry a x) = some n →
  ∀ r, updateSn d a (firstSn (1 / (4 * pi)) part) b x = some r → pi * r (slot3 d p.x p.y p.z x) = entering (part n) (entry a x)

/-- C76: what the first update does: the flux carries the current that leaves the mesh. -/
theorem C76_first_partial (d : Dims) (pi : K) (hpi : pi ≠ 0) (h2 : (2 : K) ≠ 0) (a : Ray3 K) (part : Nat → K × K) (b : Ax3 → Nat → K) (x : Ax3) (p : Pos) (n : Nat)
    (px : p.x < d.nx) (py : p.y < d.ny) (pz : p.z < d.nz) (he : AtEdge d p (entry a x)) (hn : coarseSurf d (coarseCell d p) (entry a x) = some n)
    (r : Nat → K) (hr : updateSn d a (firstSn (1 / (4 * pi)) part) b x = some r) :
    pi * r (slot3 d p.x p.y p.z x) = leaving (part n) (entry a x) := by
  obtain ⟨r', e1, -, e3⟩ := C76_sn d a (firstSn (1 / (4 * pi)) part) b x ⟨by omega, by omega, by omega⟩
  obtain ⟨n', m1, m2⟩ := e3 p px py pz he
  rw [e1] at hr
  rw [hn] at m1
  obtain rfl := Option.some.inj hr
  obtain rfl := Option.some.inj m1
  rw [m2]
  have h4 : (4 : K) = 2 * 2 := by norm_num
  have key : ∀ q : K, pi * (2 * (1 / (4 * pi)) * (q + q)) = q := by
    intro q
    rw [h4]
    field_simp
    ring
  cases x
  · by_cases h : 0 < a.ox <;> simp only [entry, upwindOf, firstSn, h, if_true, if_false, leaving, key, Bool.false_eq_true]
  · by_cases h : 0 < a.oy <;> simp only [entry, upwindOf, firstSn, h, if_true, if_false, leaving, key, Bool.false_eq_true]
  · by_cases h : 0 < a.oz <;> simp only [entry, upwindOf, firstSn, h, if_true, if_false, leaving, key, Bool.false_eq_true]

theorem C76_first_claim_false : ¬ C76_first_claim := by
  intro h
  obtain ⟨r, hr, -⟩ := C76_sn (K := ℚ) ⟨1, 1, 1⟩ ⟨1, 1, 1, 1⟩ (firstSn (1 / (4 * 1)) fun _ => (1, 0)) (fun _ _ => 0) .x (by decide)
  have h1 := h ⟨1, 1, 1⟩ 1 ⟨1, 1, 1, 1⟩ (fun _ => (1, 0)) (fun _ _ => 0) .x ⟨0, 0, 0⟩ 1 (by norm_num) (by decide) (by decide) (by decide) (by simp [entry, AtEdge])
    (by decide +kernel) r hr
  have h2 := C76_first_partial (K := ℚ) ⟨1, 1, 1⟩ 1 (by norm_num) (by norm_num) ⟨1, 1, 1, 1⟩ (fun _ => (1, 0)) (fun _ _ => 0) .x ⟨0, 0, 0⟩ 1 (by decide)
    (by decide) (by decide) (by simp [entry, AtEdge]) (by decide +kernel) r hr
  rw [h1] at h2
  revert h2
  decide +kernel

/-! ### Method of characteristics -/

/-- C76 for the rays: each incoming value is updated with the surface through which the ray enters, in its plane. -/
def C76_moc_claim : Prop := ∀ (d : Dims) (xs ys : List ℚ) (p1 p2 : Geom.Pt ℚ) (cps : List (Geom.Pt ℚ)) (nsegs : List Nat) (ray : Moc.CoarseRay)
  (plane : Nat) (part old : Nat → ℚ × ℚ) (b : (Nat → ℚ) × (Nat → ℚ)) (bc0 bc1 : Nat), plane < d.nz →
  Moc.coarseRay (fun u v => u == v) (fun u v => u == v) d xs ys p1 p2 cps nsegs = some ray →
  (updateRays (ratio part old) [⟨ray, bc0, bc1⟩] b).1 bc0 = ratio part old (b.1 bc0) (ray.surfFw + nSurfPlane d * plane)

theorem updateRays_other (f : K → Nat → K) : ∀ (l : List BRay) (b : (Nat → K) × (Nat → K)) (j : Nat), (∀ r ∈ l, r.bc0 ≠ j) →
    (updateRays f l b).1 j = b.1 j
  | [], _, _, _ => rfl
  | r :: rest, b, j, h => by
    rw [updateRays, updateRays_other f rest _ j (fun r' h' => h r' (List.mem_cons_of_mem _ h'))]
    exact if_neg fun e => h r (by simp) e.symm

theorem updateRays_other' (f : K → Nat → K) : ∀ (l : List BRay) (b : (Nat → K) × (Nat → K)) (j : Nat), (∀ r ∈ l, r.bc1 ≠ j) →
    (updateRays f l b).2 j = b.2 j
  | [], _, _, _ => rfl
  | r :: rest, b, j, h => by
    rw [updateRays, updateRays_other' f rest _ j (fun r' h' => h r' (List.mem_cons_of_mem _ h'))]
    exact if_neg fun e => h r (by simp) e.symm

/-- C76: what is done for the rays of an angle: the slots of the two ends of each ray are updated once each, with the surface whose number is
that of the cell.  In every plane this is the bottom surface of the cell in the lowest plane. -/
theorem C76_moc_partial (d : Dims) (f : K → Nat → K) : ∀ (l : List BRay) (b : (Nat → K) × (Nat → K)), (l.map BRay.bc0).Nodup → (l.map BRay.bc1).Nodup →
    ∀ r ∈ l, (updateRays f l b).1 r.bc0 = f (b.1 r.bc0) r.ray.cellFw ∧ (updateRays f l b).2 r.bc1 = f (b.2 r.bc1) r.ray.cellBw
  | [], _, _, _, r, hr => absurd hr (by simp)
  | r0 :: rest, b, h0, h1, r, hr => by
    simp only [List.map_cons, List.nodup_cons, List.mem_map, not_exists, not_and] at h0 h1
    rcases List.mem_cons.mp hr with rfl | hr'
    · rw [updateRays, updateRays_other f rest _ _ (fun r' h' => h0.1 r' h'), updateRays_other' f rest _ _ (fun r' h' => h1.1 r' h')]
      simp
    · have ih := C76_moc_partial d f rest (fun j => if j = r0.bc0 then f (b.1 j) r0.ray.cellFw else b.1 j,
        fun j => if j = r0.bc1 then f (b.2 j) r0.ray.cellBw else b.2 j) h0.2 h1.2 r hr'
      rw [updateRays, ih.1, ih.2]
      simp only
      rw [if_neg fun e => h0.1 r hr' e, if_neg fun e => h1.1 r hr' e]
      exact ⟨rfl, rfl⟩

/-- C76, first update of the MoC sweeper: the incoming flux is the isotropic one of the scalar flux at the surface that is looked up, for partial currents
whose sum is half of it. -/
theorem C76_moc_first [IsStrictOrderedRing K] (pi : K) (hpi : 0 < pi) (part : Nat → K × K) (v : K) (is : Nat) (phi : K)
    (hp : (part is).1 + (part is).2 = phi / 2) : 4 * pi * firstMoc (1 / (4 * pi)) part v is = phi := by
  unfold firstMoc
  rw [hp]
  field_simp

example : 4 * (3 : ℚ) * firstMoc (1 / (4 * 3)) (fun s => if s = 5 then (2, 1) else (0, 0)) 7 5 = 6 := by
  norm_num [firstMoc]

/-- The surface whose number is that of a cell of the lowest plane is the bottom of that cell. -/
theorem C76_moc_bottom (d : Dims) (c : Nat) (h : c < d.nx * d.ny) (hz : 0 < d.nz) : coarseSurf d c .BOTTOM = some c := by
  have hx : 0 < d.nx := Nat.pos_of_ne_zero (by rintro e; simp [e] at h)
  have hc : coarseCell d ⟨c % d.nx, c / d.nx, 0⟩ = c := by
    simp [coarseCell, Nat.div_add_mod' c d.nx]
  have hy : c / d.nx < d.ny := Nat.div_lt_of_lt_mul h
  have := coarseSurf_enc d (c % d.nx) (c / d.nx) 0 .BOTTOM ⟨.z, c % d.nx, c / d.nx, 0⟩ rfl (Nat.mod_lt _ hx) hy hz
  rw [hc] at this
  rw [this]
  simp [enc, Nat.div_add_mod]

deriving instance DecidableEq for Moc.CoarseRay

theorem C76_moc_claim_false : ¬ C76_moc_claim := by
  intro h
  have := h ⟨1, 1, 1⟩ [0, 2] [0, 2] ⟨0, 1/2⟩ ⟨2, 3/2⟩ [⟨0, 1/2⟩, ⟨2, 3/2⟩] [1] ⟨0, 0, 1, 2, 1, [⟨some .EAST, some .WEST, 1, 1⟩]⟩ 0
    (fun s => if s = 0 then (2, 2) else (1, 1)) (fun _ => (1, 1)) (fun _ => 1, fun _ => 1) 0 0 (by decide) (by decide +kernel)
  revert this
  decide +kernel

/-- C76: the elements of `boundary_` that a sweep over `nm` macroplanes uses, 0 to nm - 1, are all updated; with sub-planes, some that are
never used are as well. -/
theorem C76_moc_planes (nz nm : Nat) (h : nm ≤ nz) (i : Nat) (hi : i < nm) : i ∈ updatedBoundaries nz := by
  simp only [updatedBoundaries, List.mem_range]; omega

/-- Instances: an ordinate towards the north-west on a mesh of 2 by 2 by 1 cells. -/
example : ((updateSn (K := ℚ) ⟨2, 2, 1⟩ ⟨-1, 1, 1, 1⟩ (fun v is _ => ratio (fun s => (s, s)) (fun _ => (1, 1)) v is) (fun _ _ => 1) .x).map
    fun r => (r 0, r 1, r 2)) = some (((coarseSurf ⟨2, 2, 1⟩ 1 .EAST).getD 0 : ℚ), ((coarseSurf ⟨2, 2, 1⟩ 3 .EAST).getD 0 : ℚ), 1) := by
  decide +kernel

example : AtEdge ⟨2, 2, 1⟩ ⟨1, 1, 0⟩ (entry (K := ℚ) ⟨-1, 1, 1, 1⟩ .x) ∧ slot3 ⟨2, 2, 1⟩ 1 1 0 .x = 1 := by
  constructor
  · have : ¬ (0 : ℚ) < -1 := by norm_num
    simp only [entry, if_neg this, AtEdge]
  · rfl

end Verif.Incoming
