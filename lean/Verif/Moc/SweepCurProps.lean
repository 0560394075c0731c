import Verif.Moc.SweepCurModel
import Verif.Moc.KernelProps
import Verif.Moc.CoarseProps
import Verif.Moc.ExpandProps
import Verif.Sn.CurrentProps

/-!
# C117: the currents of a MoC sweep balance with its flux in every coarse cell
-/

set_option linter.unusedSectionVars false

namespace Verif.Moc

open Verif.Geom Verif.Mesh Finset

section
variable {K : Type} [Field K]

/-- What a beam loses in the segments of cell `c`. -/
def cellLoss (cellOf : Nat → Nat) (c : Nat) (e : Seg K → K) (q : Nat → K) (first : Nat) : List (Seg K) → K → K
  | [], _ => 0
  | s :: ss, psi =>
    let diff := (psi - q (s.reg + first)) * e s
    (if cellOf (s.reg + first) = c then diff else 0) + cellLoss cellOf c e q first ss (psi - diff)

/-- Sum over the regions of a cell. -/
def cellSum (cellOf : Nat → Nat) (N c : Nat) (f : Nat → K) : K := ∑ i ∈ range N, if cellOf i = c then f i else 0

theorem cellSum_upd (cellOf : Nat → Nat) (N c : Nat) (t : Nat → K) (i : Nat) (x : K) (h : i < N) :
    cellSum cellOf N c (upd t i (t i + x)) = cellSum cellOf N c t + if cellOf i = c then x else 0 := by
  unfold cellSum
  have : ∀ j ∈ range N, (if cellOf j = c then upd t i (t i + x) j else 0) = (if cellOf j = c then t j else 0) + if j = i then (if cellOf i = c then x else 0) else 0 := by
    intro j _
    rw [upd_add]
    by_cases hj : j = i
    · subst hj; split_ifs <;> simp
    · simp [hj]
  rw [sum_congr rfl this, sum_add_distrib, sum_ite_eq', if_pos (mem_range.mpr h)]

theorem walk_cell (cellOf : Nat → Nat) (N c : Nat) (e : Seg K → K) (q : Nat → K) (wt : K) (first : Nat) (l : List (Seg K)) (hl : ∀ s ∈ l, s.reg + first < N) (psi : K)
    (t : Nat → K) : cellSum cellOf N c (walk e q wt first l psi t).2 = cellSum cellOf N c t + wt * cellLoss cellOf c e q first l psi := by
  induction l generalizing psi t with
  | nil => simp [walk, cellLoss]
  | cons s ss ih =>
    simp only [walk, cellLoss]
    rw [ih (fun x hx => hl x (by simp [hx])), cellSum_upd cellOf N c t _ _ (hl s (by simp))]
    split_ifs <;> ring

theorem cellLoss_append (cellOf : Nat → Nat) (c : Nat) (e : Seg K → K) (q : Nat → K) (first : Nat) (l l' : List (Seg K)) (psi : K) :
    cellLoss cellOf c e q first (l ++ l') psi = cellLoss cellOf c e q first l psi + cellLoss cellOf c e q first l' (walk e q 0 first l psi fun _ => 0).1 := by
  induction l generalizing psi with
  | nil => simp [cellLoss, walk]
  | cons s ss ih =>
    simp only [List.cons_append, cellLoss, walk]
    rw [ih, (walk_add e q 0 first ss _ (upd _ _ _)).1]
    ring

theorem cellLoss_in (cellOf : Nat → Nat) (c c' : Nat) (e : Seg K → K) (q : Nat → K) (first : Nat) (l : List (Seg K)) (hl : ∀ s ∈ l, cellOf (s.reg + first) = c') (psi : K) :
    cellLoss cellOf c e q first l psi = if c' = c then psi - (walk e q 0 first l psi fun _ => 0).1 else 0 := by
  induction l generalizing psi with
  | nil => simp [cellLoss, walk]
  | cons s ss ih =>
    simp only [cellLoss, walk]
    rw [ih (fun x hx => hl x (by simp [hx])), hl s (by simp), (walk_add e q 0 first ss _ (upd _ _ _)).1]
    split_ifs
    · ring
    · ring

theorem fluxes_append (e : Seg K → K) (q : Nat → K) (first : Nat) (l l' : List (Seg K)) (psi : K) (j : Nat) :
    (fluxes e q first (l ++ l') psi).getD (l.length + j) 0 = (fluxes e q first l' (walk e q 0 first l psi fun _ => 0).1).getD j 0 := by
  induction l generalizing psi with
  | nil => simp [walk]
  | cons s ss ih =>
    simp only [List.cons_append, fluxes, walk, List.length_cons]
    rw [show ss.length + 1 + j = (ss.length + j) + 1 by ring, List.getD_cons_succ, ih, (walk_add e q 0 first ss _ (upd _ _ _)).1]

theorem fluxes_zero (e : Seg K → K) (q : Nat → K) (first : Nat) (l : List (Seg K)) (psi : K) : (fluxes e q first l psi).getD 0 0 = psi := by
  cases l <;> simp [fluxes]

theorem fluxes_length (e : Seg K → K) (q : Nat → K) (first : Nat) (l : List (Seg K)) (psi : K) : (fluxes e q first l psi).length = l.length + 1 := by
  induction l generalizing psi with
  | nil => rfl
  | cons s ss ih => simp [fluxes, ih]

end

/-- Number of the cell of every segment, from the cells of the pieces and the numbers of segments. -/
def segCells (d : Dims) (k : Nat) (cs : List (Nat × Nat)) (nsegs : List Nat) : List Nat := (cs.zip nsegs).flatMap fun x => List.replicate x.2 (cellNo d k x.1)

theorem cellNo_inj (d : Dims) (k : Nat) (c q : Nat × Nat) (hc : c.1 < d.nx ∧ c.2 < d.ny) (hq : q.1 < d.nx ∧ q.2 < d.ny) : cellNo d k c = cellNo d k q ↔ c = q := by
  refine ⟨fun h => ?_, fun h => by rw [h]⟩
  have h1 := pos_cell d c.1 c.2 k hc.1 hc.2
  have h2 := pos_cell d q.1 q.2 k hq.1 hq.2
  unfold cellNo at h
  rw [h, h2] at h1
  injection h1 with a b
  exact Prod.ext a.symm b.symm

theorem gain_fluxes (d : Dims) (k : Nat) (cellOf : Nat → Nat) (q : Nat × Nat) (hq : q.1 < d.nx ∧ q.2 < d.ny) (e : Seg ℝ → ℝ) (src : Nat → ℝ) (first : Nat) :
    ∀ (cs : List (Nat × Nat)) (ns : List Nat) (l : List (Seg ℝ)) (psi : Nat → ℝ) (seg : Nat), cs.length = ns.length → (∀ c ∈ cs, c.1 < d.nx ∧ c.2 < d.ny) →
    l.map (fun s => cellOf (s.reg + first)) = segCells d k cs ns → (∀ j ≤ l.length, psi (seg + j) = (fluxes e src first l (psi seg)).getD j 0) →
    gain q psi cs ns seg = -cellLoss cellOf (cellNo d k q) e src first l (psi seg)
  | [], [], l, psi, seg, _, _, hl, _ => by
    simp [segCells] at hl
    subst hl
    simp [gain, cellLoss]
  | [], _ :: _, _, _, _, h, _, _, _ => by simp at h
  | _ :: _, [], _, _, _, h, _, _, _ => by simp at h
  | c :: cs, n :: ns, l, psi, seg, h, hin, hl, hpsi => by
    have hl' : l.map (fun s => cellOf (s.reg + first)) = List.replicate n (cellNo d k c) ++ segCells d k cs ns := by simpa [segCells] using hl
    obtain ⟨l1, l2, rfl, h1, h2⟩ := List.map_eq_append_iff.mp hl'
    have hn : l1.length = n := by simpa using congrArg List.length h1
    have hall : ∀ s ∈ l1, cellOf (s.reg + first) = cellNo d k c := by
      intro s hs
      exact List.eq_of_mem_replicate (h1 ▸ List.mem_map_of_mem (f := fun s : Seg ℝ => cellOf (s.reg + first)) hs)
    have hmid : psi (seg + n) = (walk e src 0 first l1 (psi seg) fun _ => 0).1 := by
      have := hpsi n (by simp; omega)
      rw [this, show n = l1.length + 0 by omega, fluxes_append, fluxes_zero]
    simp only [gain]
    rw [gain_fluxes d k cellOf q hq e src first cs ns l2 psi (seg + n) (by simpa using h) (fun c hc => hin c (by simp [hc])) h2 (by
      intro j hj
      have := hpsi (n + j) (by simp; omega)
      rw [add_assoc, this, show n + j = l1.length + j by omega, fluxes_append, hmid])]
    rw [cellLoss_append, cellLoss_in cellOf _ (cellNo d k c) e src first l1 hall, ← hmid]
    have := cellNo_inj d k c q (hin c (by simp)) hq
    by_cases hc : c = q
    · rw [if_pos hc, if_pos (this.mpr hc)]; ring
    · rw [if_neg hc, if_neg (fun h => hc (this.mp h))]; ring


theorem segCells_reverse (d : Dims) (k : Nat) (cs : List (Nat × Nat)) (ns : List Nat) (h : cs.length = ns.length) :
    segCells d k cs.reverse ns.reverse = (segCells d k cs ns).reverse := by
  unfold segCells
  rw [List.reverse_flatMap]
  congr 1
  · funext x; simp
  · rw [List.zip_eq_zipWith, List.zip_eq_zipWith, List.reverse_zipWith h]

theorem segCells_length (d : Dims) (k : Nat) : ∀ (cs : List (Nat × Nat)) (ns : List Nat), cs.length = ns.length → (segCells d k cs ns).length = ns.sum
  | [], [], _ => rfl
  | [], _ :: _, h => by simp at h
  | _ :: _, [], h => by simp at h
  | c :: cs, n :: ns, h => by
    have := segCells_length d k cs ns (by simpa using h)
    unfold segCells at this ⊢
    simp only [List.zip_cons_cons, List.flatMap_cons, List.length_append, List.length_replicate, List.sum_cons, this]

theorem path_in (d : Dims) (xs ys : List ℝ) (hl : Lines d xs ys) (o : Oct) : ∀ (Q : List (Pt ℝ)) (cs : List (Nat × Nat)), Mesh.Path xs ys o Q cs →
    ∀ c ∈ cs, c.1 < d.nx ∧ c.2 < d.ny
  | _, [], _ => by simp
  | [], _ :: _, h => by simp [Mesh.Path] at h
  | [_], _ :: _, h => by simp [Mesh.Path] at h
  | a :: b :: rest, c :: cs, h => by
    intro x hx
    rcases List.mem_cons.mp hx with rfl | hx
    · exact piece_in d xs ys hl o x a b h.1
    · exact path_in d xs ys hl o (b :: rest) cs h.2 x hx

/-- The lines of the grid and the comparisons of numbers. -/
structure Lay (ℝ' : Type) where
  near : ℝ' → ℝ' → Bool
  nearAbs : ℝ' → ℝ' → Bool
  d : Dims
  xs : List ℝ'
  ys : List ℝ'

/-- A ray of plane `k` with its coarse data: laid out from boundary to boundary, fewer than 256 segments in each piece, and the region of every segment of a piece is
one of the cell of the piece. -/
def RayOk (L : Lay ℝ) (k : Nat) (cellOf : Nat → Nat) (N first : Nat) (wx W : ℝ) (r : Ray ℝ × CoarseRay) : Prop :=
  (∀ s ∈ r.1.segs, s.reg + first < N) ∧ ∃ p1 p2 Q cs nsegs, Laid L.near L.nearAbs L.d L.xs L.ys p1 p2 Q cs nsegs ∧ Weights p1 p2 W wx ∧ (∀ n ∈ nsegs, n < 256) ∧
    coarseRay L.near L.nearAbs L.d L.xs L.ys p1 p2 Q nsegs = some r.2 ∧ r.1.segs.map (fun s => cellOf (s.reg + first)) = segCells L.d k cs nsegs

/-- `m` is no lateral surface of a cell of plane `k`. -/
def Elsewhere (d : Dims) (k m : Nat) : Prop := ∀ c s, c.1 < d.nx ∧ c.2 < d.ny → Lateral s → coarseSurf d (cellNo d k c) s ≠ some m

theorem cellLoss_out (cellOf : Nat → Nat) (c : Nat) (e : Seg ℝ → ℝ) (q : Nat → ℝ) (first : Nat) (l : List (Seg ℝ)) (hl : ∀ s ∈ l, cellOf (s.reg + first) ≠ c) (psi : ℝ) :
    cellLoss cellOf c e q first l psi = 0 := by
  induction l generalizing psi with
  | nil => rfl
  | cons s ss ih => simp only [cellLoss]; rw [if_neg (hl s (by simp)), ih (fun x hx => hl x (by simp [hx])), add_zero]

theorem elsewhere_of_plane (d : Dims) (k k' : Nat) (hk : k < d.nz) (hk' : k' < d.nz) (hne : k' ≠ k) (q : Nat × Nat) (hq : q.1 < d.nx ∧ q.2 < d.ny) (s : Surface) (hs : Lateral s)
    (m : Nat) (hm : coarseSurf d (cellNo d k' q) s = some m) : Elsewhere d k m := by
  intro c t hc ht h
  have h2 := (C11_same_number_iff_same_face d c.1 c.2 k q.1 q.2 k' t s ht.ne hs.ne hc.1 hc.2 hk hq.1 hq.2 hk').mp (h.trans hm.symm)
  rcases ht with rfl | rfl | rfl | rfl <;> rcases hs with rfl | rfl | rfl | rfl <;> simp [Verif.Mesh.Spec.faceOf] at h2 <;> omega

theorem outflow_same (d : Dims) (k' : Nat) (cur cur' : Nat → ℝ) (q : Nat × Nat)
    (h : ∀ s m, Lateral s → coarseSurf d (cellNo d k' q) s = some m → cur' m = cur m) : outflow d k' cur' q = outflow d k' cur q := by
  have key : ∀ s, Lateral s → ∀ m, coarseSurf d (coarseCell d ⟨q.1, q.2, k'⟩) s = some m → cur' m = cur m := fun s hs m hm => h s m hs hm
  unfold outflow
  dsimp only
  congr 1
  · congr 1
    · congr 1
      · split
        · exact key .EAST (by simp [Lateral]) _ (by assumption)
        · rfl
      · split
        · exact key .NORTH (by simp [Lateral]) _ (by assumption)
        · rfl
    · split
      · exact key .WEST (by simp [Lateral]) _ (by assumption)
      · rfl
  · split
    · exact key .SOUTH (by simp [Lateral]) _ (by assumption)
    · rfl

/-- C117: a ray, both directions: in every cell of the mesh what flows out and what its regions gain add up to nothing; no other surfaces than those around the cells of the
plane change. -/
theorem C117_ray (L : Lay ℝ) (k : Nat) (hk : k < L.d.nz) (cellOf : Nat → Nat) (N first : Nat) (wx W : ℝ) (r : Ray ℝ × CoarseRay) (hr : RayOk L k cellOf N first wx W r)
    (e : Seg ℝ → ℝ) (q : Nat → ℝ) (in1 in2 : Nat → ℝ) (a : Acc ℝ) (cur : Nat → ℝ) :
    ∃ cur', rayCur L.d k e q first in1 in2 wx W cur r = some cur' ∧ (∀ m, Elsewhere L.d k m → cur' m = cur m) ∧
      ∀ k' < L.d.nz, ∀ c : Nat × Nat, c.1 < L.d.nx ∧ c.2 < L.d.ny →
        outflow L.d k' cur' c + cellSum cellOf N (cellNo L.d k' c) (sweepRay e q W first in1 in2 a r.1).tflux =
          outflow L.d k' cur c + cellSum cellOf N (cellNo L.d k' c) a.tflux := by
  obtain ⟨hN, p1, p2, Q, cs, nsegs, hlaid, hw, hsmall, hco, hcells⟩ := hr
  have hin := path_in L.d L.xs L.ys hlaid.lines _ Q cs hlaid.path
  set f := fluxes e q first r.1.segs (in1 r.1.bc0) with hf
  set b := (fluxes e q first r.1.segs.reverse (in2 r.1.bc1)).reverse with hb
  have hlen : r.1.segs.length = nsegs.sum := by
    rw [← segCells_length L.d k cs nsegs hlaid.count.symm, ← hcells, List.length_map]
  obtain ⟨r', cur', h1, h2, h3, h4, -⟩ := C75_balance_partial L.near L.nearAbs L.d k L.xs L.ys p1 p2 Q cs nsegs W wx (fun n => f.getD n.toNat 0) (fun n => b.getD n.toNat 0) cur hk
    hlaid hw hsmall
  rw [hco, Option.some.injEq] at h1
  subst h1
  refine ⟨cur', h2, h4, fun k' hk' c hc => ?_⟩
  have hsweep : cellSum cellOf N (cellNo L.d k' c) (sweepRay e q W first in1 in2 a r.1).tflux = cellSum cellOf N (cellNo L.d k' c) a.tflux +
      W * (cellLoss cellOf (cellNo L.d k' c) e q first r.1.segs (in1 r.1.bc0) + cellLoss cellOf (cellNo L.d k' c) e q first r.1.segs.reverse (in2 r.1.bc1)) := by
    simp only [sweepRay]
    rw [walk_cell cellOf N _ e q W first _ (by simpa using hN), walk_cell cellOf N _ e q W first _ hN]
    ring
  rw [hsweep]
  by_cases hkk : k' = k
  · subst hkk
    have hg1 : gain c (fun n : Nat => f.getD ((n : Int).toNat) 0) cs nsegs 0 = -cellLoss cellOf (cellNo L.d k' c) e q first r.1.segs (in1 r.1.bc0) := by
      have := gain_fluxes L.d k' cellOf c hc e q first cs nsegs r.1.segs (fun n : Nat => f.getD ((n : Int).toNat) 0) 0 hlaid.count.symm hin hcells (by
        intro j _
        simp only [zero_add, Int.toNat_natCast, Int.toNat_zero, Nat.cast_zero, hf, fluxes_zero])
      have hz : f.getD (((0 : Nat) : Int).toNat) 0 = in1 r.1.bc0 := by rw [hf]; exact fluxes_zero e q first r.1.segs (in1 r.1.bc0)
      rw [this, hz]
    have hg2 : gain c (fun n : Nat => b.getD ((n : Int).toNat) 0) cs nsegs 0 = cellLoss cellOf (cellNo L.d k' c) e q first r.1.segs.reverse (in2 r.1.bc1) := by
      have hrev := gain_reverse c (fun n => b.getD n.toNat 0) cs nsegs 0 nsegs.sum hlaid.count.symm (by simp)
      have hget : ∀ j ≤ r.1.segs.length, b.getD ((nsegs.sum : Int) - (j : Int)).toNat 0 = (fluxes e q first r.1.segs.reverse (in2 r.1.bc1)).getD j 0 := by
        intro j hj
        have hl := fluxes_length e q first r.1.segs.reverse (in2 r.1.bc1)
        rw [List.length_reverse] at hl
        have e1 : ((nsegs.sum : Int) - (j : Int)).toNat = nsegs.sum - j := by omega
        rw [e1, hb, List.getD_eq_getElem?_getD, List.getD_eq_getElem?_getD, List.getElem?_reverse (by omega)]
        congr 2
        omega
      have := gain_fluxes L.d k' cellOf c hc e q first cs.reverse nsegs.reverse r.1.segs.reverse (fun n : Nat => b.getD ((nsegs.sum : Int) - (n : Int)).toNat 0) 0
        (by simpa using hlaid.count.symm) (fun x hx => hin x (by simpa using hx)) (by rw [List.map_reverse, hcells, segCells_reverse _ _ _ _ hlaid.count.symm]) (by
          intro j hj
          rw [List.length_reverse] at hj
          have h0 := hget 0 (Nat.zero_le _)
          rw [Nat.cast_zero] at h0
          simp only [zero_add, Nat.cast_zero]
          rw [hget j hj, h0, fluxes_zero])
      have h0 := hget 0 (Nat.zero_le _)
      rw [Nat.cast_zero] at h0
      simp only [Nat.cast_zero] at this
      rw [h0, fluxes_zero] at this
      rw [this] at hrev
      linarith
    have := h3 c hc
    rw [hg1, hg2] at this
    linarith
  · have e1 : outflow L.d k' cur' c = outflow L.d k' cur c :=
      outflow_same L.d k' cur cur' c fun s m hs hm => h4 m (elsewhere_of_plane L.d k k' hk hk' hkk c hc s hs m hm)
    have hdiff : ∀ s ∈ r.1.segs, cellOf (s.reg + first) ≠ cellNo L.d k' c := by
      intro s hs h
      have hm : cellOf (s.reg + first) ∈ segCells L.d k cs nsegs := hcells ▸ List.mem_map_of_mem (f := fun s : Seg ℝ => cellOf (s.reg + first)) hs
      unfold segCells at hm
      obtain ⟨x, hx, hm⟩ := List.mem_flatMap.mp hm
      have hx1 := hin x.1 (List.of_mem_zip hx).1
      have e2 := List.eq_of_mem_replicate hm
      rw [h] at e2
      have h5 := pos_cell L.d c.1 c.2 k' hc.1 hc.2
      have h6 := pos_cell L.d x.1.1 x.1.2 k hx1.1 hx1.2
      unfold cellNo at e2
      rw [e2, h6] at h5
      injection h5 with _ _ h7
      exact hkk h7.symm
    rw [e1, cellLoss_out _ _ _ _ _ _ hdiff, cellLoss_out _ _ _ _ _ _ (fun s hs => hdiff s (by simpa using hs))]
    ring


theorem rays_balance (L : Lay ℝ) (k : Nat) (hk : k < L.d.nz) (cellOf : Nat → Nat) (N first : Nat) (wx W : ℝ) (e : Seg ℝ → ℝ) (q : Nat → ℝ) (in1 in2 : Nat → ℝ) :
    ∀ (rs : List (Ray ℝ × CoarseRay)), (∀ r ∈ rs, RayOk L k cellOf N first wx W r) → ∀ (a : Acc ℝ) (cur : Nat → ℝ),
    ∃ cur', raysCur L.d k e q first in1 in2 wx W rs cur = some cur' ∧ (∀ m, Elsewhere L.d k m → cur' m = cur m) ∧
      ∀ k' < L.d.nz, ∀ c : Nat × Nat, c.1 < L.d.nx ∧ c.2 < L.d.ny →
        outflow L.d k' cur' c + cellSum cellOf N (cellNo L.d k' c) ((rs.map Prod.fst).foldl (sweepRay e q W first in1 in2) a).tflux =
          outflow L.d k' cur c + cellSum cellOf N (cellNo L.d k' c) a.tflux
  | [], _, a, cur => ⟨cur, rfl, fun _ _ => rfl, fun _ _ _ _ => rfl⟩
  | r :: rs, h, a, cur => by
    obtain ⟨c1, h1, h2, h3⟩ := C117_ray L k hk cellOf N first wx W r (h r (by simp)) e q in1 in2 a cur
    obtain ⟨c2, g1, g2, g3⟩ := rays_balance L k hk cellOf N first wx W e q in1 in2 rs (fun x hx => h x (by simp [hx])) (sweepRay e q W first in1 in2 a r.1) c1
    refine ⟨c2, by simp only [raysCur, h1, Option.bind_some, g1], fun m hm => (g2 m hm).trans (h2 m hm), fun k' hk' c hc => ?_⟩
    rw [List.map_cons, List.foldl_cons, g3 k' hk' c hc, h3 k' hk' c hc]

/-- An angle of plane `k`: all its rays fit, and the weights of the two workers agree. -/
def AngleFits (L : Lay ℝ) (k : Nat) (cellOf : Nat → Nat) (N first : Nat) (w : AngleCur ℝ) : Prop :=
  w.wy = w.wt ∧ ∀ r ∈ w.rays, RayOk L k cellOf N first w.wx w.wt r

theorem angles_balance (L : Lay ℝ) (k : Nat) (hk : k < L.d.nz) (cellOf : Nat → Nat) (N first : Nat) (expo : ℝ → ℝ) (xstr q : Nat → ℝ) (gs : Bool) (u : BcUpdate ℝ) :
    ∀ (ws : List (AngleCur ℝ)), (∀ w ∈ ws, AngleFits L k cellOf N first w) → ∀ (s : St ℝ) (cur : Nat → ℝ),
    ∃ cur', anglesCur L.d k expo xstr q gs u first ws s cur = some cur' ∧ (∀ m, Elsewhere L.d k m → cur' m = cur m) ∧
      ∀ k' < L.d.nz, ∀ c : Nat × Nat, c.1 < L.d.nx ∧ c.2 < L.d.ny →
        outflow L.d k' cur' c + cellSum cellOf N (cellNo L.d k' c) ((ws.map AngleCur.work).foldl (sweepAngle expo xstr q gs u first) s).tflux =
          outflow L.d k' cur c + cellSum cellOf N (cellNo L.d k' c) s.tflux
  | [], _, s, cur => ⟨cur, rfl, fun _ _ => rfl, fun _ _ _ _ => rfl⟩
  | w :: ws, h, s, cur => by
    obtain ⟨hw, hr⟩ := h w (by simp)
    obtain ⟨c1, h1, h2, h3⟩ := rays_balance L k hk cellOf N first w.wx w.wt (eTau expo xstr w.rst first) q (s.bin w.iang1) (s.bin w.iang2) w.rays hr
      ⟨s.tflux, s.bout w.iang1, s.bout w.iang2⟩ cur
    obtain ⟨c2, g1, g2, g3⟩ := angles_balance L k hk cellOf N first expo xstr q gs u ws (fun x hx => h x (by simp [hx])) (sweepAngle expo xstr q gs u first s w.work) c1
    refine ⟨c2, by simp only [anglesCur, hw, h1, Option.bind_some, g1], fun m hm => (g2 m hm).trans (h2 m hm), fun k' hk' c hc => ?_⟩
    rw [List.map_cons, List.foldl_cons, g3 k' hk' c hc]
    exact h3 k' hk' c hc

/-- The planes from number `k` on. -/
def PlanesOk (L : Lay ℝ) (cellOf : Nat → Nat) (N : Nat) : List (PlaneCur ℝ) → Nat → Prop
  | [], _ => True
  | p :: ps, k => (∀ w ∈ p.angles, AngleFits L k cellOf N p.first w) ∧ PlanesOk L cellOf N ps (k + 1)

theorem planes_balance (L : Lay ℝ) (cellOf : Nat → Nat) (N : Nat) (expo : ℝ → ℝ) (xstr q : Nat → ℝ) (gs : Bool) (u : BcUpdate ℝ) :
    ∀ (ps : List (PlaneCur ℝ × (Nat → Nat → ℝ) × (Nat → Nat → ℝ))) (k : Nat), k + ps.length ≤ L.d.nz → PlanesOk L cellOf N (ps.map Prod.fst) k →
    ∀ (t cur : Nat → ℝ),
    ∃ cur', planesCur L.d expo xstr q gs u ps k t cur = some cur' ∧ (∀ m, (∀ k' < L.d.nz, Elsewhere L.d k' m) → cur' m = cur m) ∧
      ∀ k' < L.d.nz, ∀ c : Nat × Nat, c.1 < L.d.nx ∧ c.2 < L.d.ny →
        outflow L.d k' cur' c + cellSum cellOf N (cellNo L.d k' c) (sweepPlanes expo xstr q gs u (ps.map fun x => (x.1.work, x.2)) t).1 =
          outflow L.d k' cur c + cellSum cellOf N (cellNo L.d k' c) t
  | [], _, _, _, t, cur => ⟨cur, rfl, fun _ _ => rfl, fun _ _ _ _ => rfl⟩
  | (p, bin, bout) :: ps, k, hk, h, t, cur => by
    simp only [List.length_cons] at hk
    simp only [List.map_cons, PlanesOk] at h
    obtain ⟨c1, h1, h2, h3⟩ := angles_balance L k (by omega) cellOf N p.first expo xstr q gs u p.angles h.1 ⟨t, bin, bout⟩ cur
    obtain ⟨c2, g1, g2, g3⟩ := planes_balance L cellOf N expo xstr q gs u ps (k + 1) (by omega) h.2 (sweepPlane expo xstr q gs u p.work ⟨t, bin, bout⟩).tflux c1
    refine ⟨c2, by simp only [planesCur, h1, Option.bind_some, g1], fun m hm => (g2 m hm).trans (h2 m (hm k (by omega))), fun k' hk' c hc => ?_⟩
    simp only [List.map_cons, sweepPlanes]
    rw [g3 k' hk' c hc]
    exact h3 k' hk' c hc


/-! ### current densities -/

open Verif.Mesh.Spec in
theorem normalise_radial (d : Dims) (area c : Nat → ℝ) (f : Face) (hv : f.Valid d.nx d.ny d.nz) (ha : f.axis ≠ .z) :
    Expand.normaliseArea d area c (enc d f) = c (enc d f) / area (enc d f) := by
  obtain ⟨off, h1, h2, h3, -, -⟩ := Expand.enc_split d f hv
  have hk : f.k < d.nz := by
    obtain ⟨a, i, j, k⟩ := f
    cases a
    · exact hv.2.2
    · exact hv.2.2
    · exact absurd rfl ha
  have hmod : enc d f % nSurfPlane d = off := by rw [h2, Expand.at', Nat.add_comm, Nat.add_mul_mod_self_right, Nat.mod_eq_of_lt h1]
  have hdiv : enc d f / nSurfPlane d = f.k := by
    rw [h2, Expand.at', Nat.add_comm, Nat.add_mul_div_right _ _ (by omega), Nat.div_eq_of_lt h1]; simp
  unfold Expand.normaliseArea
  rw [if_pos ⟨by rw [hmod]; exact h3 ha, by rw [hdiv]; exact hk⟩]

open Verif.Mesh.Spec in
theorem normalise_axial (d : Dims) (area c : Nat → ℝ) (f : Face) (hv : f.Valid d.nx d.ny d.nz) (ha : f.axis = .z) :
    Expand.normaliseArea d area c (enc d f) = c (enc d f) := by
  obtain ⟨off, h1, h2, -, h4, -⟩ := Expand.enc_split d f hv
  have hmod : enc d f % nSurfPlane d = off := by rw [h2, Expand.at', Nat.add_comm, Nat.add_mul_mod_self_right, Nat.mod_eq_of_lt h1]
  unfold Expand.normaliseArea
  rw [if_neg (by rw [hmod]; have := (h4 ha).2; omega)]

/-- The value on a face of a cell. -/
noncomputable def onFace (d : Dims) (cur : Nat → ℝ) (k : Nat) (c : Nat × Nat) (s : Surface) : ℝ :=
  match coarseSurf d (cellNo d k c) s with
  | some n => cur n
  | none => 0

theorem axial_elsewhere (d : Dims) (k k' : Nat) (hk : k < d.nz) (hk' : k' < d.nz) (q : Nat × Nat) (hq : q.1 < d.nx ∧ q.2 < d.ny) (s : Surface) (hs : s = .TOP ∨ s = .BOTTOM)
    (m : Nat) (hm : coarseSurf d (cellNo d k' q) s = some m) : Elsewhere d k m := by
  intro c t hc ht h
  have hs' : s ≠ .INTERNAL := by rcases hs with rfl | rfl <;> simp
  have h2 := (C11_same_number_iff_same_face d c.1 c.2 k q.1 q.2 k' t s ht.ne hs' hc.1 hc.2 hk hq.1 hq.2 hk').mp (h.trans hm.symm)
  rcases ht with rfl | rfl | rfl | rfl <;> rcases hs with rfl | rfl <;> simp [Verif.Mesh.Spec.faceOf] at h2

/-- The weight of the currents is that of the flux when the height of the macroplane is the height of the plane. -/
theorem C117_weights (pi weight sinT spacing cosA sinA dz : ℝ) (hc : cosA ≠ 0) (hs : 0 < sinA) :
    (currentWeights pi weight (sinT * cosA) (sinT * sinA) spacing cosA sinA dz).2 = weight * spacing * dz * sinT * pi := by
  rw [C75_weights pi weight sinT spacing cosA sinA dz hc hs]
  ring

/-- C117: after a sweep with currents, one plane to a macroplane, in every coarse cell: the net current out of the cell through its six faces, as CMFD takes it from the
current densities and the areas of the faces, and the collisions in the regions of the cell make up the source in them and what the axial currents were before. -/
theorem C117_balance (L : Lay ℝ) (w : Widths ℝ) (hdx : w.dx.length = L.d.nx) (hdy : w.dy.length = L.d.ny) (hdz : w.dz.length = L.d.nz)
    (hwx : ∀ x ∈ w.dx, x ≠ 0) (hwy : ∀ x ∈ w.dy, x ≠ 0) (hwz : ∀ x ∈ w.dz, x ≠ 0) (cellOf : Nat → Nat) (N : Nat) (expo : ℝ → ℝ) (fpi : ℝ) (xstr vol q : Nat → ℝ) (gs : Bool)
    (u : BcUpdate ℝ) (ps : List (PlaneCur ℝ × (Nat → Nat → ℝ) × (Nat → Nat → ℝ))) (hn : ps.length ≤ L.d.nz) (hok : PlanesOk L cellOf N (ps.map Prod.fst) 0)
    (hxv : ∀ i < N, xstr i * vol i ≠ 0) (cur : Nat → ℝ) (h0 : ∀ k < L.d.nz, ∀ c : Nat × Nat, c.1 < L.d.nx ∧ c.2 < L.d.ny → ∀ s, Lateral s → onFace L.d cur k c s = 0) :
    ∃ cur', currents1g L.d id (fun m => (coarseAreaSurf L.d w m).getD 0) expo xstr q gs u ps cur = some cur' ∧
      ∀ k < L.d.nz, ∀ c : Nat × Nat, c.1 < L.d.nx ∧ c.2 < L.d.ny →
        onFace L.d cur' k c .TOP = onFace L.d cur k c .TOP ∧ onFace L.d cur' k c .BOTTOM = onFace L.d cur k c .BOTTOM ∧
        Sn.leakage L.d (w.dx.getD · 0) (w.dy.getD · 0) (w.dz.getD · 0) cur' c.1 c.2 k +
            cellSum cellOf N (cellNo L.d k c) (fun i => xstr i * vol i * (sweep1g expo fpi xstr vol q gs u (ps.map fun x => (x.1.work, x.2))).1 i) =
          cellSum cellOf N (cellNo L.d k c) (fun i => fpi * (xstr i * q i * vol i)) +
            w.dx.getD c.1 0 * w.dy.getD c.2 0 * (onFace L.d cur k c .TOP - onFace L.d cur k c .BOTTOM) := by
  obtain ⟨c1, h1, h2, h3⟩ := planes_balance L cellOf N expo xstr q gs u ps 0 (by omega) hok (fun _ => 0) cur
  have hexp : Expand.expandCurrent L.d id c1 = c1 := by unfold Expand.expandCurrent; rw [if_neg (by simp)]
  refine ⟨_, by simp only [currents1g, h1, Option.map_some]; rfl, fun k hk c hc => ?_⟩
  rw [hexp]
  set area := fun m => (coarseAreaSurf L.d w m).getD 0 with harea
  -- values on the faces
  have hrad : ∀ s (f : Verif.Mesh.Spec.Face), Verif.Mesh.Spec.faceOf c.1 c.2 k s = some f → f.axis ≠ .z →
      onFace L.d (Expand.normaliseArea L.d area c1) k c s = onFace L.d c1 k c s / area (enc L.d f) ∧ coarseSurf L.d (cellNo L.d k c) s = some (enc L.d f) := by
    intro s f hf ha
    have hs := coarseSurf_enc L.d c.1 c.2 k s f hf hc.1 hc.2 hk
    refine ⟨?_, hs⟩
    unfold onFace cellNo
    rw [hs]
    exact normalise_radial L.d area c1 f (faceOf_valid L.d c.1 c.2 k s f hf hc.1 hc.2 hk) ha
  have hax : ∀ s, s = .TOP ∨ s = .BOTTOM → onFace L.d (Expand.normaliseArea L.d area c1) k c s = onFace L.d cur k c s := by
    intro s hs
    obtain ⟨f, hf, ha⟩ : ∃ f, Verif.Mesh.Spec.faceOf c.1 c.2 k s = some f ∧ f.axis = .z := by rcases hs with rfl | rfl <;> exact ⟨_, rfl, rfl⟩
    have he := coarseSurf_enc L.d c.1 c.2 k s f hf hc.1 hc.2 hk
    unfold onFace cellNo
    rw [he]
    change Expand.normaliseArea L.d area c1 (enc L.d f) = cur (enc L.d f)
    rw [normalise_axial L.d area c1 f (faceOf_valid L.d c.1 c.2 k s f hf hc.1 hc.2 hk) ha]
    exact h2 _ fun k' hk' => axial_elsewhere L.d k' k hk' hk c hc s hs _ he
  refine ⟨hax .TOP (Or.inl rfl), hax .BOTTOM (Or.inr rfl), ?_⟩
  have gx : w.dx.getD c.1 0 = w.dx[c.1]'(by omega) := by rw [List.getD_eq_getElem?_getD, List.getElem?_eq_getElem (by omega)]; rfl
  have gy : w.dy.getD c.2 0 = w.dy[c.2]'(by omega) := by rw [List.getD_eq_getElem?_getD, List.getElem?_eq_getElem (by omega)]; rfl
  have gz : w.dz.getD k 0 = w.dz[k]'(by omega) := by rw [List.getD_eq_getElem?_getD, List.getElem?_eq_getElem (by omega)]; rfl
  have nx := hwx _ (List.getElem_mem (by omega : c.1 < w.dx.length))
  have ny := hwy _ (List.getElem_mem (by omega : c.2 < w.dy.length))
  have nz := hwz _ (List.getElem_mem (by omega : k < w.dz.length))
  have areaX : ∀ s f, Verif.Mesh.Spec.faceOf c.1 c.2 k s = some f → f.axis = .x → area (enc L.d f) = w.dy[c.2]'(by omega) * w.dz[k]'(by omega) := by
    intro s f hf ha
    have := (C13_area L.d w hdx hdy hdz c.1 c.2 k s f (enc L.d f) hc.1 hc.2 hk hf (coarseSurf_enc L.d c.1 c.2 k s f hf hc.1 hc.2 hk)).2
    rw [ha] at this
    simp only [harea, this, Option.getD_some]
  have areaY : ∀ s f, Verif.Mesh.Spec.faceOf c.1 c.2 k s = some f → f.axis = .y → area (enc L.d f) = w.dx[c.1]'(by omega) * w.dz[k]'(by omega) := by
    intro s f hf ha
    have := (C13_area L.d w hdx hdy hdz c.1 c.2 k s f (enc L.d f) hc.1 hc.2 hk hf (coarseSurf_enc L.d c.1 c.2 k s f hf hc.1 hc.2 hk)).2
    rw [ha] at this
    simp only [harea, this, Option.getD_some]
  have hleak : Sn.leakage L.d (w.dx.getD · 0) (w.dy.getD · 0) (w.dz.getD · 0) (Expand.normaliseArea L.d area c1) c.1 c.2 k =
      outflow L.d k c1 c + w.dx.getD c.1 0 * w.dy.getD c.2 0 * (onFace L.d cur k c .TOP - onFace L.d cur k c .BOTTOM) := by
    have e1 : Sn.leakage L.d (w.dx.getD · 0) (w.dy.getD · 0) (w.dz.getD · 0) (Expand.normaliseArea L.d area c1) c.1 c.2 k =
        w.dy.getD c.2 0 * w.dz.getD k 0 * (onFace L.d (Expand.normaliseArea L.d area c1) k c .EAST - onFace L.d (Expand.normaliseArea L.d area c1) k c .WEST) +
        w.dx.getD c.1 0 * w.dz.getD k 0 * (onFace L.d (Expand.normaliseArea L.d area c1) k c .NORTH - onFace L.d (Expand.normaliseArea L.d area c1) k c .SOUTH) +
        w.dx.getD c.1 0 * w.dy.getD c.2 0 * (onFace L.d (Expand.normaliseArea L.d area c1) k c .TOP - onFace L.d (Expand.normaliseArea L.d area c1) k c .BOTTOM) := rfl
    have e2 : outflow L.d k c1 c = onFace L.d c1 k c .EAST + onFace L.d c1 k c .NORTH - onFace L.d c1 k c .WEST - onFace L.d c1 k c .SOUTH := rfl
    rw [e1, e2, hax .TOP (Or.inl rfl), hax .BOTTOM (Or.inr rfl), (hrad .EAST _ rfl (by simp)).1, (hrad .WEST _ rfl (by simp)).1, (hrad .NORTH _ rfl (by simp)).1,
      (hrad .SOUTH _ rfl (by simp)).1, areaX .EAST _ rfl rfl, areaX .WEST _ rfl rfl, areaY .NORTH _ rfl rfl, areaY .SOUTH _ rfl rfl, gx, gy, gz]
    field_simp
    ring
  have hsum : cellSum cellOf N (cellNo L.d k c) (fun i => xstr i * vol i * (sweep1g expo fpi xstr vol q gs u (ps.map fun x => (x.1.work, x.2))).1 i) =
      cellSum cellOf N (cellNo L.d k c) (sweepPlanes expo xstr q gs u (ps.map fun x => (x.1.work, x.2)) (fun _ => 0)).1 +
        cellSum cellOf N (cellNo L.d k c) (fun i => fpi * (xstr i * q i * vol i)) := by
    unfold cellSum
    rw [← Finset.sum_add_distrib]
    refine Finset.sum_congr rfl fun i hi => ?_
    have := hxv i (Finset.mem_range.mp hi)
    by_cases hci : cellOf i = cellNo L.d k c
    · simp only [hci, if_true, sweep1g, finish]
      have h5 : xstr i ≠ 0 := left_ne_zero_of_mul this
      have h6 : vol i ≠ 0 := right_ne_zero_of_mul this
      field_simp
    · simp [hci]
  have hout : outflow L.d k cur c = 0 := by
    have e2 : outflow L.d k cur c = onFace L.d cur k c .EAST + onFace L.d cur k c .NORTH - onFace L.d cur k c .WEST - onFace L.d cur k c .SOUTH := rfl
    rw [e2, h0 k hk c hc .EAST (by simp [Lateral]), h0 k hk c hc .WEST (by simp [Lateral]), h0 k hk c hc .NORTH (by simp [Lateral]), h0 k hk c hc .SOUTH (by simp [Lateral])]
    ring
  have hzero : cellSum cellOf N (cellNo L.d k c) (fun _ => (0 : ℝ)) = 0 := by unfold cellSum; simp
  have := h3 k hk c hc
  rw [hout, hzero] at this
  rw [hleak, hsum]
  linarith


/-! ### instances -/

/-- One cell of size one with two regions, and a ray of three segments through it. -/
noncomputable def oneLay : Lay ℝ := ⟨same, same, ⟨1, 1, 1⟩, [0, 1], [0, 1]⟩

def oneRay : Ray ℝ := ⟨[⟨0, 1⟩, ⟨1, 2⟩, ⟨0, 1⟩], 0, 0⟩

/-- Instance: the ray fits, with some coarse data. -/
theorem one_ok (W : ℝ) : ∃ cr, RayOk oneLay 0 (fun _ => 0) 2 0 W W (oneRay, cr) := by
  obtain ⟨cr, _, h, -⟩ := C75_balance_partial same same ⟨1, 1, 1⟩ 0 [0, 1] [0, 1] ⟨0, 1 / 4⟩ ⟨1, 3 / 4⟩ [⟨0, 1 / 4⟩, ⟨1, 3 / 4⟩] [(0, 0)] [3] W W (fun _ => 0) (fun _ => 0)
    (fun _ => 0) (by decide) (one_laid 3) (by simp [Weights]) (by simp)
  refine ⟨cr, by simp [oneRay], _, _, _, [(0, 0)], [3], one_laid 3, by simp [Weights], by simp, h, ?_⟩
  simp [oneRay, segCells, oneLay, cellNo, coarseCell, List.replicate]

/-- Instance of `C117_ray`. -/
example (W : ℝ) (e : Seg ℝ → ℝ) (q : Nat → ℝ) (in1 in2 : Nat → ℝ) (a : Acc ℝ) (cur : Nat → ℝ) : ∃ cr cur', rayCur ⟨1, 1, 1⟩ 0 e q 0 in1 in2 W W cur (oneRay, cr) = some cur' ∧
    outflow ⟨1, 1, 1⟩ 0 cur' (0, 0) + cellSum (fun _ => 0) 2 0 (sweepRay e q W 0 in1 in2 a oneRay).tflux = outflow ⟨1, 1, 1⟩ 0 cur (0, 0) + cellSum (fun _ => 0) 2 0 a.tflux := by
  obtain ⟨cr, h⟩ := one_ok W
  obtain ⟨cur', h1, -, h3⟩ := C117_ray oneLay 0 (by simp [oneLay]) (fun _ => 0) 2 0 W W (oneRay, cr) h e q in1 in2 a cur
  exact ⟨cr, cur', h1, h3 0 (by simp [oneLay]) (0, 0) (by simp [oneLay])⟩

/-- Instance of `C117_balance`: one angle with one ray, flux one coming in at both ends, no axial currents. -/
example (expo : ℝ → ℝ) (u : BcUpdate ℝ) (gs : Bool) : ∃ cr cur', currents1g ⟨1, 1, 1⟩ id (fun m => (coarseAreaSurf ⟨1, 1, 1⟩ (⟨[1], [1], [1]⟩ : Widths ℝ) m).getD 0) expo (fun _ => 2)
      (fun i => if i = 0 then 5 else 0) gs u [(⟨0, [⟨0, 1, 1, 3, 3, 3, [(oneRay, cr)]⟩]⟩, fun _ _ => 1, fun _ _ => 0)] (fun _ => 0) = some cur' ∧
    Sn.leakage ⟨1, 1, 1⟩ ([1].getD · 0) ([1].getD · 0) ([1].getD · 0) cur' 0 0 0 + cellSum (fun _ => 0) 2 0 (fun i => 2 * (1 / 2) *
      (sweep1g expo 12 (fun _ => 2) (fun _ => 1 / 2) (fun i => if i = 0 then 5 else 0) gs u [(⟨0, [⟨0, 1, 1, 3, [oneRay]⟩]⟩, fun _ _ => 1, fun _ _ => 0)]).1 i) = 60 := by
  obtain ⟨cr, h⟩ := one_ok 3
  obtain ⟨cur', h1, h2⟩ := C117_balance oneLay ⟨[1], [1], [1]⟩ rfl rfl rfl (by simp) (by simp) (by simp) (fun _ => 0) 2 expo 12 (fun _ => 2) (fun _ => 1 / 2)
    (fun i => if i = 0 then 5 else 0) gs u [(⟨0, [⟨0, 1, 1, 3, 3, 3, [(oneRay, cr)]⟩]⟩, fun _ _ => 1, fun _ _ => 0)] (by simp [oneLay])
    (by simp [PlanesOk, AngleFits]; exact h) (by norm_num) (fun _ => 0) (by intro k _ c _ s _; unfold onFace; split <;> rfl)
  refine ⟨cr, cur', h1, ?_⟩
  obtain ⟨-, -, h3⟩ := h2 0 (by simp [oneLay]) (0, 0) (by simp [oneLay])
  refine h3.trans ?_
  have hz : ∀ s, onFace oneLay.d (fun _ => 0) 0 (0, 0) s = 0 := by intro s; unfold onFace; split <;> rfl
  rw [hz, hz]
  simp [cellSum, cellNo, coarseCell, oneLay]
  norm_num

end Verif.Moc
