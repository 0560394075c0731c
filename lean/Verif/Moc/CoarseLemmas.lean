import Verif.Moc.CoarseModel
import Verif.Mesh.CrossProps
import Mathlib.Algebra.BigOperators.Group.List.Basic
import Mathlib.Tactic.LinearCombination

/-! # Lemmas about the currents of one ray -/

namespace Verif.Moc

open Verif.Geom Verif.Mesh Verif.Mesh.Spec

/-- What one walk adds: surfaces with values. -/
noncomputable def deposits (d : Dims) (wt : Surface → ℝ) (psi : Nat → ℝ) : List (Option Surface × Nat) → (cell : Int) → (seg : Nat) → Option (List (Nat × ℝ))
  | [], _, _ => some []
  | (none, _) :: rest, _, seg => deposits d wt psi rest (-5) seg
  | (some s, n) :: rest, cell, seg =>
    (surfOf d cell s).bind fun k =>
      (deposits d wt psi rest (coarseNeighbor d cell.toNat s) (seg + n)).map fun r => (k, psi (seg + n) * wt s) :: r

/-- What a list of contributions adds to one surface. -/
noncomputable def tot (n : Nat) (D : List (Nat × ℝ)) : ℝ := (D.map fun q => if n = q.1 then q.2 else 0).sum

theorem tot_cons (n k : Nat) (v : ℝ) (D : List (Nat × ℝ)) : tot n ((k, v) :: D) = (if n = k then v else 0) + tot n D := by
  simp [tot]

theorem tot_append (n : Nat) (D E : List (Nat × ℝ)) : tot n (D ++ E) = tot n D + tot n E := by
  simp [tot]

theorem addAt_eq (cur : Nat → ℝ) (i : Nat) (v : ℝ) (j : Nat) : addAt cur i v j = cur j + if j = i then v else 0 := by
  unfold addAt; split <;> simp

theorem walkLoop_eq (d : Dims) (wx wy : ℝ) (psi1 psi2 : Int → ℝ) (S : Int) : ∀ (data : List Rcd) (w : Walker ℝ) (m : Nat) (F B : List (Nat × ℝ)),
    w.segBw = S - m →
    deposits d (weightOf wx wy) (fun n => psi1 n) (data.map fun r => (r.fw, r.nfw)) w.cellFw w.segFw = some F →
    deposits d (weightOf wx wy) (fun n => -psi2 (S - n)) (data.map fun r => (r.bw, r.nbw)) w.cellBw m = some B →
    ∃ w', walkLoop d wx wy psi1 psi2 data w = some w' ∧ ∀ j, w'.cur j = w.cur j + tot j F + tot j B
  | [], w, m, F, B, _, hF, hB => by
    simp only [List.map_nil, deposits, Option.some.injEq] at hF hB
    subst hF hB
    exact ⟨w, rfl, by simp [tot]⟩
  | r :: rest, w, m, F, B, hs, hF, hB => by
    obtain ⟨fw, bw, nf, nb⟩ := r
    simp only [List.map_cons] at hF hB
    cases fw with
    | none =>
      simp only [deposits] at hF
      cases bw with
      | none =>
        simp only [deposits] at hB
        obtain ⟨w', h1, h2⟩ := walkLoop_eq d wx wy psi1 psi2 S rest { w with cellFw := -5, cellBw := -5 } m F B hs hF hB
        exact ⟨w', by simpa [walkLoop, stepFw, stepBw, moveOn] using h1, h2⟩
      | some t =>
        simp only [deposits, Option.bind_eq_some_iff, Option.map_eq_some_iff] at hB
        obtain ⟨k, hk, R, hR, rfl⟩ := hB
        obtain ⟨w', h1, h2⟩ := walkLoop_eq d wx wy psi1 psi2 S rest
          { w with cellFw := -5, cellBw := coarseNeighbor d w.cellBw.toNat t, segBw := w.segBw - nb, cur := addAt w.cur k (-(psi2 (w.segBw - nb) * weightOf wx wy t)) }
          (m + nb) F R (by simp only [hs]; push_cast; ring) hF hR
        refine ⟨w', by simpa [walkLoop, stepFw, stepBw, moveOn, hk] using h1, ?_⟩
        intro j
        rw [h2 j, tot_cons]
        simp only [addAt_eq, hs]
        rw [show S - (m : Int) - nb = S - ((m + nb : Nat) : Int) by push_cast; ring]
        split <;> ring
    | some s =>
      simp only [deposits, Option.bind_eq_some_iff, Option.map_eq_some_iff] at hF
      obtain ⟨k1, hk1, R1, hR1, rfl⟩ := hF
      cases bw with
      | none =>
        simp only [deposits] at hB
        obtain ⟨w', h1, h2⟩ := walkLoop_eq d wx wy psi1 psi2 S rest
          { w with cellFw := coarseNeighbor d w.cellFw.toNat s, cellBw := -5, segFw := w.segFw + nf, cur := addAt w.cur k1 (psi1 (w.segFw + nf) * weightOf wx wy s) }
          m R1 B hs hR1 hB
        refine ⟨w', by simpa [walkLoop, stepFw, stepBw, moveOn, hk1] using h1, ?_⟩
        intro j
        rw [h2 j, tot_cons]
        simp only [addAt_eq]
        push_cast
        split <;> ring
      | some t =>
        simp only [deposits, Option.bind_eq_some_iff, Option.map_eq_some_iff] at hB
        obtain ⟨k, hk, R, hR, rfl⟩ := hB
        obtain ⟨w', h1, h2⟩ := walkLoop_eq d wx wy psi1 psi2 S rest
          { cellFw := coarseNeighbor d w.cellFw.toNat s, cellBw := coarseNeighbor d w.cellBw.toNat t, segFw := w.segFw + nf, segBw := w.segBw - nb, cur := addAt (addAt w.cur k1 (psi1 (w.segFw + nf) * weightOf wx wy s)) k (-(psi2 (w.segBw - nb) * weightOf wx wy t)) }
          (m + nb) R1 R (by simp only [hs]; push_cast; ring) hR1 hR
        refine ⟨w', by simpa [walkLoop, stepFw, stepBw, moveOn, hk1, hk] using h1, ?_⟩
        intro j
        rw [h2 j, tot_cons, tot_cons]
        simp only [addAt_eq, hs]
        rw [show S - (m : Int) - nb = S - ((m + nb : Nat) : Int) by push_cast; ring]
        push_cast
        split <;> split <;> ring

/-! ### faces -/

/-- Number of a cell of the plane `k`. -/
def cellNo (d : Dims) (k : Nat) (c : Nat × Nat) : Nat := coarseCell d ⟨c.1, c.2, k⟩

/-- Sign of the outward normal of a face. -/
def sgn : Surface → ℝ
  | .EAST | .NORTH => 1
  | .WEST | .SOUTH => -1
  | _ => 0

/-- The four faces around a cell in its plane. -/
def Lateral (s : Surface) : Prop := s = .EAST ∨ s = .NORTH ∨ s = .WEST ∨ s = .SOUTH

theorem Lateral.of_downwind {o : Oct} {s : Surface} (h : Downwind o s) : Lateral s := by
  cases s <;> simp [Downwind, Lateral] at h ⊢

theorem Lateral.ne {s : Surface} (h : Lateral s) : s ≠ .INTERNAL := by
  rcases h with rfl | rfl | rfl | rfl <;> simp

/-- Net amount out of the cell `c` of the plane `k` that a contribution to surface `n` makes. -/
noncomputable def outSgn (d : Dims) (k : Nat) (c : Nat × Nat) (n : Nat) : ℝ :=
  (if coarseSurf d (cellNo d k c) .EAST = some n then 1 else 0) + (if coarseSurf d (cellNo d k c) .NORTH = some n then 1 else 0) -
  (if coarseSurf d (cellNo d k c) .WEST = some n then 1 else 0) - (if coarseSurf d (cellNo d k c) .SOUTH = some n then 1 else 0)

/-- A face lies between the cell it belongs to and the cell beside. -/
theorem outSgn_face (d : Dims) (k : Nat) (hk : k < d.nz) (c q : Nat × Nat) (s : Surface) (hs : Lateral s) (n : Nat) (hc : c.1 < d.nx ∧ c.2 < d.ny)
    (hq : q.1 < d.nx ∧ q.2 < d.ny) (hn : coarseSurf d (cellNo d k c) s = some n) :
    outSgn d k q n = sgn s * ((if q = c then 1 else 0) - (if beside d.nx d.ny c s = some q then 1 else 0)) := by
  obtain ⟨i, j⟩ := c
  obtain ⟨i', j'⟩ := q
  have key : ∀ t, Lateral t → (coarseSurf d (cellNo d k (i', j')) t = some n ↔ faceOf i' j' k t = faceOf i j k s) := by
    intro t ht
    rw [← hn]
    exact C11_same_number_iff_same_face d i' j' k i j k t s ht.ne hs.ne hq.1 hq.2 hk hc.1 hc.2 hk
  unfold outSgn
  simp only [key .EAST (by simp [Lateral]), key .NORTH (by simp [Lateral]), key .WEST (by simp [Lateral]), key .SOUTH (by simp [Lateral])]
  simp only [] at hc hq
  rcases hs with rfl | rfl | rfl | rfl <;> simp [faceOf, beside, adjacent, sgn] <;> split_ifs <;> first | (exfalso; omega) | norm_num

/-- Number of the cell reached, -1 outside of the mesh. -/
def landing (d : Dims) (k : Nat) : Option (Nat × Nat) → Int
  | none => -1
  | some c => cellNo d k c

theorem neighbor_eq (d : Dims) (k : Nat) (c : Nat × Nat) (s : Surface) (hs : Lateral s) (hc : c.1 < d.nx ∧ c.2 < d.ny) :
    coarseNeighbor d (cellNo d k c) s = landing d k (beside d.nx d.ny c s) := by
  obtain ⟨i, j⟩ := c
  unfold cellNo
  rw [C14_neighbour d i j k s hs.ne hc.1 hc.2]
  rcases hs with rfl | rfl | rfl | rfl <;> simp only [adjacent, beside] <;> split_ifs <;> simp [idx, landing, cellNo, C10_natural_order]

theorem beside_in (nx ny : Nat) (c c' : Nat × Nat) (s : Surface) (hc : c.1 < nx ∧ c.2 < ny) (h : beside nx ny c s = some c') :
    c'.1 < nx ∧ c'.2 < ny := by
  obtain ⟨i, j⟩ := c
  simp only [] at hc
  cases s <;> simp only [beside, adjacent] at h <;> (try split_ifs at h) <;> simp at h <;> rw [← h] <;> simp <;> omega

theorem surf_some (d : Dims) (k : Nat) (hk : k < d.nz) (c : Nat × Nat) (s : Surface) (hs : Lateral s) (hc : c.1 < d.nx ∧ c.2 < d.ny) :
    ∃ n, coarseSurf d (cellNo d k c) s = some n := by
  obtain ⟨n, h, _⟩ := C11_surface_in_range d c.1 c.2 k s hs.ne hc.1 hc.2 hk
  exact ⟨n, h⟩

/-- A surface on the boundary of the mesh. -/
def OnBoundary (d : Dims) (k : Nat) (n : Nat) (c : Nat × Nat) (s : Surface) : Prop :=
  (c.1 < d.nx ∧ c.2 < d.ny) ∧ Lateral s ∧ beside d.nx d.ny c s = none ∧ coarseSurf d (cellNo d k c) s = some n

theorem boundary_not_inner (d : Dims) (k : Nat) (hk : k < d.nz) (n m : Nat) (c0 c c' : Nat × Nat) (s0 s : Surface) (hb : OnBoundary d k n c0 s0)
    (hs : Lateral s) (hc : c.1 < d.nx ∧ c.2 < d.ny) (h : beside d.nx d.ny c s = some c') (hm : coarseSurf d (cellNo d k c) s = some m) : n ≠ m := by
  rintro rfl
  obtain ⟨h1, h2, h3, h4⟩ := hb
  obtain ⟨i, j⟩ := c
  obtain ⟨i0, j0⟩ := c0
  have := (C11_same_number_iff_same_face d i0 j0 k i j k s0 s h2.ne hs.ne h1.1 h1.2 hk hc.1 hc.2 hk).mp (by rw [show coarseSurf d (coarseCell d ⟨i0, j0, k⟩) s0 = some n from h4]; exact hm.symm)
  simp only [] at h1 hc
  rcases hs with rfl | rfl | rfl | rfl <;> rcases h2 with rfl | rfl | rfl | rfl <;> simp [faceOf] at this <;>
    simp only [beside, adjacent] at h h3 <;> split_ifs at h h3 <;> first | omega | simp_all

/-- Net amount out of a cell. -/
noncomputable def net (d : Dims) (k : Nat) (q : Nat × Nat) (D : List (Nat × ℝ)) : ℝ := (D.map fun e => e.2 * outSgn d k q e.1).sum

theorem net_cons (d : Dims) (k : Nat) (q : Nat × Nat) (n : Nat) (v : ℝ) (D : List (Nat × ℝ)) :
    net d k q ((n, v) :: D) = v * outSgn d k q n + net d k q D := by simp [net]

theorem net_append (d : Dims) (k : Nat) (q : Nat × Nat) (D E : List (Nat × ℝ)) : net d k q (D ++ E) = net d k q D + net d k q E := by simp [net]

/-- The entries for the crossings at one point. -/
def entries (ss : List Surface) (n : Nat) : List (Option Surface × Nat) :=
  match ss with
  | [] => []
  | s :: rest => (some s, n) :: rest.map fun t => (some t, 0)

/-- The contributions made at one point. -/
theorem cross_deposit (d : Dims) (k : Nat) (hk : k < d.nz) (xs ys : List ℝ) (p : Pt ℝ) (o : Oct) (wt : Surface → ℝ) (psi : Nat → ℝ) (V : ℝ)
    (hV : ∀ s, Downwind o s → wt s * sgn s = V) (r : Option (Nat × Nat)) (n : Nat) : ∀ (ss : List Surface) (c : Nat × Nat) (seg : Nat),
    c.1 < d.nx ∧ c.2 < d.ny → Crosses xs ys d.nx d.ny p c ss r → (∀ s ∈ ss, Downwind o s) → ss ≠ [] →
    ∃ D1, (∀ more, deposits d wt psi (entries ss n ++ more) (cellNo d k c) seg = (deposits d wt psi more (landing d k r) (seg + n)).map (D1 ++ ·)) ∧
      (∀ q : Nat × Nat, q.1 < d.nx ∧ q.2 < d.ny →
        net d k q D1 = V * psi (seg + n) * ((if q = c then 1 else 0) - (if r = some q then 1 else 0))) ∧
      (∀ c', r = some c' → (c'.1 < d.nx ∧ c'.2 < d.ny) ∧ ∀ m c0 s0, OnBoundary d k m c0 s0 → tot m D1 = 0) ∧
      (r = none → ∃ cx sx kx, OnBoundary d k kx cx sx ∧ OnFace xs ys cx p sx ∧ Downwind o sx ∧ (ss.length = 1 → cx = c) ∧
        ∀ m c0 s0, OnBoundary d k m c0 s0 → tot m D1 = if m = kx then psi (seg + n) * wt sx else 0)
  | [], _, _, _, _, _, h => absurd rfl h
  | s :: rest, c, seg, hc, hx, hd, _ => by
    have hs := hd s (by simp)
    have hl := Lateral.of_downwind hs
    obtain ⟨m1, hm1⟩ := surf_some d k hk c s hl hc
    have hsurf : surfOf d (cellNo d k c) s = some m1 := by
      unfold surfOf
      rw [if_neg (by omega), Int.toNat_natCast, hm1]
    obtain ⟨hface, hrest⟩ := hx
    have hnb := neighbor_eq d k c s hl hc
    have hstep : ∀ rest' : List (Option Surface × Nat), deposits d wt psi ((some s, n) :: rest') (cellNo d k c) seg =
        (deposits d wt psi rest' (landing d k (beside d.nx d.ny c s)) (seg + n)).map fun r => (m1, psi (seg + n) * wt s) :: r := by
      intro rest'
      simp only [deposits, hsurf, Option.bind_some, Int.toNat_natCast, hnb]
    have hval : ∀ q : Nat × Nat, q.1 < d.nx ∧ q.2 < d.ny → psi (seg + n) * wt s * outSgn d k q m1 =
        V * psi (seg + n) * ((if q = c then 1 else 0) - (if beside d.nx d.ny c s = some q then 1 else 0)) := by
      intro q hq
      rw [outSgn_face d k hk c q s hl m1 hc hq hm1, ← hV s hs]
      ring
    cases hb : beside d.nx d.ny c s with
    | none =>
      rw [hb] at hrest hstep hval
      obtain ⟨rfl, rfl⟩ := hrest
      refine ⟨[(m1, psi (seg + n) * wt s)], ?_, ?_, ?_, ?_⟩
      · intro more
        simp only [entries, List.map_nil, List.cons_append, List.nil_append, hstep]
      · intro q hq
        rw [net_cons, hval q hq]
        simp [net]
      · intro c' h; simp at h
      · intro _
        refine ⟨c, s, m1, ⟨hc, hl, hb, hm1⟩, hface, hs, fun _ => rfl, ?_⟩
        intro m c0 s0 _
        rw [tot_cons]
        simp [tot]
    | some c2 =>
      rw [hb] at hrest hstep hval
      simp only [] at hrest
      have hc2 := beside_in d.nx d.ny c c2 s hc hb
      have hz : ∀ m c0 s0, OnBoundary d k m c0 s0 → (if m = m1 then psi (seg + n) * wt s else 0) = 0 := by
        intro m c0 s0 hm
        rw [if_neg (boundary_not_inner d k hk m m1 c0 c c2 s0 s hm hl hc hb hm1)]
      cases rest with
      | nil =>
        simp only [Crosses] at hrest
        subst hrest
        refine ⟨[(m1, psi (seg + n) * wt s)], ?_, ?_, ?_, ?_⟩
        · intro more
          simp only [entries, List.map_nil, List.cons_append, List.nil_append, hstep]
        · intro q hq
          rw [net_cons, hval q hq]
          simp [net]
        · rintro c' h
          obtain rfl := Option.some.inj h
          refine ⟨hc2, ?_⟩
          intro m c0 s0 hm
          rw [tot_cons, hz m c0 s0 hm]
          simp [tot]
        · intro h; simp at h
      | cons t rest2 =>
        obtain ⟨D2, g1, g2, g3, g4⟩ := cross_deposit d k hk xs ys p o wt psi V hV r 0 (t :: rest2) c2 (seg + n) hc2 hrest (fun u hu => hd u (List.mem_cons_of_mem _ hu)) (by simp)
        refine ⟨(m1, psi (seg + n) * wt s) :: D2, ?_, ?_, ?_, ?_⟩
        · intro more
          have := g1 more
          simp only [entries, List.map_cons, List.cons_append] at this ⊢
          rw [hstep]
          simp only [landing]
          rw [this]
          simp only [add_zero, Option.map_map]
          rfl
        · intro q hq
          rw [net_cons, hval q hq, g2 q hq]
          simp only [add_zero, Option.some.injEq]
          rw [show (if c2 = q then (1 : ℝ) else 0) = if q = c2 then 1 else 0 by simp only [eq_comm]]
          ring
        · intro c' h
          refine ⟨(g3 c' h).1, ?_⟩
          intro m c0 s0 hm
          rw [tot_cons, hz m c0 s0 hm, (g3 c' h).2 m c0 s0 hm, add_zero]
        · intro h
          obtain ⟨cx, sx, kx, a1, a2, a3, _, a5⟩ := g4 h
          refine ⟨cx, sx, kx, a1, a2, a3, by simp, ?_⟩
          intro m c0 s0 hm
          rw [tot_cons, hz m c0 s0 hm, a5 m c0 s0 hm, zero_add, add_zero]

/-- All entries of one direction. -/
def allEntries (norm : Pt ℝ → List Surface) (l : List (Pt ℝ × Nat)) : List (Option Surface × Nat) := l.flatMap fun q => entries (norm q.1) q.2

theorem crossings_zip (norm : Pt ℝ → List Surface) : ∀ l : List (Pt ℝ × Nat), (∀ q ∈ l, (norm q.1).length = 1 ∨ (norm q.1).length = 2) →
    (crossings norm l).1.length = (crossings norm l).2.length ∧
    ((crossings norm l).1.zip (crossings norm l).2).map (fun q => (some q.1, q.2)) = allEntries norm l
  | [], _ => by simp [crossings, allEntries]
  | (p, n) :: rest, h => by
    obtain ⟨h1, h2⟩ := crossings_zip norm rest (fun q hq => h q (List.mem_cons_of_mem _ hq))
    unfold allEntries at h2 ⊢
    have h0 := h (p, n) (by simp)
    simp only [] at h0
    rcases hn : norm p with _ | ⟨s, _ | ⟨t, _ | ⟨u, v⟩⟩⟩
    · simp [hn] at h0
    · rw [List.flatMap_cons, ← h2]
      simp [crossings, hn, entries, h1]
    · rw [List.flatMap_cons, ← h2]
      simp [crossings, hn, entries, h1]
    · simp [hn] at h0

/-- The sum of the differences of the values at the ends of the pieces in the cell `q`. -/
noncomputable def gain (q : Nat × Nat) (psi : Nat → ℝ) : (cells : List (Nat × Nat)) → (nsegs : List Nat) → (seg : Nat) → ℝ
  | c :: cs, n :: ns, seg => (if c = q then psi (seg + n) - psi seg else 0) + gain q psi cs ns (seg + n)
  | _, _, _ => 0

theorem piece_in (d : Dims) (xs ys : List ℝ) (hl : Lines d xs ys) (o : Oct) (c : Nat × Nat) (a b : Pt ℝ) (h : Piece xs ys o c a b) :
    c.1 < d.nx ∧ c.2 < d.ny := by
  have h1 := within_lt h.1.1
  have h2 := within_lt h.1.2
  rw [hl.x.2.1] at h1
  rw [hl.y.2.1] at h2
  omega

/-- A point on at least one grid line, all of them recognised. -/
def Known (near : ℝ → ℝ → Bool) (xs ys : List ℝ) (b : Pt ℝ) : Prop := Exact near b.x xs ∧ Exact near b.y ys ∧ (b.x ∈ xs ∨ b.y ∈ ys)

/-- A point of the boundary of the mesh that is none of its corners. -/
def AtEdge (d : Dims) (xs ys : List ℝ) (b : Pt ℝ) : Prop :=
  (Edge xs d.nx b.x ∨ Edge ys d.ny b.y) ∧ ¬ (Edge xs d.nx b.x ∧ Edge ys d.ny b.y)

theorem length_cases (b : Pt ℝ) (xs ys : List ℝ) (l : List Surface) (h : b.x ∈ xs ∨ b.y ∈ ys)
    (hl : l.length = (if b.x ∈ xs then 1 else 0) + (if b.y ∈ ys then 1 else 0)) : (l.length = 1 ∨ l.length = 2) ∧
    (¬ (b.x ∈ xs ∧ b.y ∈ ys) → l.length = 1) := by
  rw [hl]
  by_cases h1 : b.x ∈ xs <;> by_cases h2 : b.y ∈ ys <;> simp_all

/-- One walk along a ray. -/
theorem path_deposit (near : ℝ → ℝ → Bool) (d : Dims) (k : Nat) (hk : k < d.nz) (xs ys : List ℝ) (hl : Lines d xs ys) (o : Oct)
    (wt : Surface → ℝ) (psi : Nat → ℝ) (V : ℝ) (hV : ∀ s, Downwind o s → wt s * sgn s = V) (e : Pt ℝ) (he : AtEdge d xs ys e) :
    ∀ (rest : List (Pt ℝ)) (p : Pt ℝ) (c : Nat × Nat) (cs : List (Nat × Nat)) (nsegs : List Nat) (seg : Nat),
    Mesh.Path xs ys o (p :: rest) (c :: cs) → nsegs.length = (c :: cs).length → (∀ b ∈ rest, Known near xs ys b) → rest.getLast? = some e →
    (∀ q ∈ rest.zip nsegs, ((normPoint near d xs ys q.1 o).length = 1 ∨ (normPoint near d xs ys q.1 o).length = 2) ∧
      (normPoint near d xs ys q.1 o).length = (if q.1.x ∈ xs then 1 else 0) + (if q.1.y ∈ ys then 1 else 0)) ∧
    (∃ D, deposits d wt psi (allEntries (fun b => normPoint near d xs ys b o) (rest.zip nsegs)) (cellNo d k c) seg = some D ∧
      (∀ q : Nat × Nat, q.1 < d.nx ∧ q.2 < d.ny →
        net d k q D = V * ((if q = c then psi seg else 0) + gain q psi (c :: cs) nsegs seg)) ∧
      ∃ cx sx kx, OnBoundary d k kx cx sx ∧ OnFace xs ys cx e sx ∧ Downwind o sx ∧ (¬ (e.x ∈ xs ∧ e.y ∈ ys) → (c :: cs).getLast? = some cx) ∧
        ∀ m c0 s0, OnBoundary d k m c0 s0 → tot m D = if m = kx then psi (seg + nsegs.sum) * wt sx else 0)
  | [], p, c, cs, _, _, hp, _, _, _ => by simp [Mesh.Path] at hp
  | [b], p, c, cs, nsegs, seg, hp, hn, hkn, hlast => by
    obtain rfl : b = e := by simpa using hlast
    obtain ⟨hpc, hp'⟩ := hp
    cases cs with
    | cons c2 cs2 => simp [Mesh.Path] at hp'
    | nil =>
      obtain ⟨n, rfl⟩ : ∃ n, nsegs = [n] := by
        rcases nsegs with _ | ⟨n, _ | ⟨_, _⟩⟩ <;> simp at hn ⊢
      obtain ⟨kx, ky, kon⟩ := hkn b (by simp)
      obtain ⟨hcr, hdw, hlen⟩ := C74_end near d xs ys hl o c p b hpc he.1 he.2 kx ky
      obtain ⟨lc, l1⟩ := length_cases b xs ys _ kon hlen
      have hne : normPoint near d xs ys b o ≠ [] := by
        intro h; rw [h] at lc; simp at lc
      obtain ⟨D1, g1, g2, _, g4⟩ := cross_deposit d k hk xs ys b o wt psi V hV none n (normPoint near d xs ys b o) c seg
        (piece_in d xs ys hl o c p b hpc) hcr hdw hne
      refine ⟨by simpa using And.intro lc hlen, D1, ?_, ?_, ?_⟩
      · have := g1 []
        simp only [List.append_nil] at this
        simp [allEntries, this, deposits]
      · intro q hq
        rw [g2 q hq]
        simp only [gain, reduceCtorEq, if_false]
        by_cases hqc : q = c
        · subst hqc; simp
        · simp [hqc, Ne.symm hqc]
      · obtain ⟨cx, sx, kx', a1, a2, a3, a4, a5⟩ := g4 rfl
        refine ⟨cx, sx, kx', a1, a2, a3, fun h => by simp [a4 (l1 h)], ?_⟩
        simpa using a5
  | b :: b2 :: rest, p, c, cs, nsegs, seg, hp, hn, hkn, hlast => by
    obtain ⟨hpc, hp'⟩ := hp
    cases cs with
    | nil => simp [Mesh.Path] at hp'
    | cons c2 cs2 =>
      obtain ⟨n, ns, rfl⟩ : ∃ n ns, nsegs = n :: ns := by
        rcases nsegs with _ | ⟨n, ns⟩
        · simp at hn
        · exact ⟨n, ns, rfl⟩
      obtain ⟨kx, ky, kon⟩ := hkn b (by simp)
      obtain ⟨hcr, hdw, hlen⟩ := C74_cross near d xs ys hl o c c2 p b b2 hpc hp'.1 kx ky
      obtain ⟨lc, l1⟩ := length_cases b xs ys _ kon hlen
      have hne : normPoint near d xs ys b o ≠ [] := by
        intro h; rw [h] at lc; simp at lc
      obtain ⟨D1, g1, g2, g3, _⟩ := cross_deposit d k hk xs ys b o wt psi V hV (some c2) n (normPoint near d xs ys b o) c seg
        (piece_in d xs ys hl o c p b hpc) hcr hdw hne
      rw [List.getLast?_cons_cons] at hlast
      obtain ⟨f1, D, f2, f3, cx, sx, kx', a1, a2, a3, a4, a5⟩ := path_deposit near d k hk xs ys hl o wt psi V hV e he (b2 :: rest) b c2 cs2 ns (seg + n)
        hp' (by simpa using hn) (fun u hu => hkn u (List.mem_cons_of_mem _ hu)) hlast
      refine ⟨?_, D1 ++ D, ?_, ?_, ?_⟩
      · intro q hq
        simp only [List.zip_cons_cons, List.mem_cons] at hq
        rcases hq with rfl | hq
        · exact ⟨lc, hlen⟩
        · exact f1 q (by simpa using hq)
      · have h1 := g1 (allEntries (fun b => normPoint near d xs ys b o) ((b2 :: rest).zip ns))
        simp only [landing] at h1
        rw [f2] at h1
        simp only [allEntries, List.zip_cons_cons, List.flatMap_cons] at h1 ⊢
        rw [h1]
        simp
      · intro q hq
        rw [net_append, g2 q hq, f3 q hq]
        simp only [gain, Option.some.injEq]
        generalize gain q psi (c2 :: cs2) ns (seg + n) = G
        simp only [eq_comm (a := c2) (b := q), eq_comm (a := c) (b := q)]
        split_ifs <;> ring
      · refine ⟨cx, sx, kx', a1, a2, a3, fun h => by rw [List.getLast?_cons_cons]; exact a4 h, ?_⟩
        intro m c0 s0 hm
        rw [tot_append, (g3 c2 rfl).2 m c0 s0 hm, a5 m c0 s0 hm, zero_add]
        simp only [List.sum_cons, add_assoc]

/-! ### the entries of both directions -/

theorem deposits_none (d : Dims) (wt : Surface → ℝ) (psi : Nat → ℝ) : ∀ (l : List (Option Surface × Nat)) (cell : Int) (seg : Nat),
    deposits d wt psi (l ++ [(none, 0)]) cell seg = deposits d wt psi l cell seg
  | [], _, _ => by simp [deposits]
  | (none, _) :: rest, _, seg => by
    simp only [List.cons_append, deposits]
    exact deposits_none d wt psi rest _ seg
  | (some s, n) :: rest, cell, seg => by
    simp only [List.cons_append, deposits, deposits_none d wt psi rest]

theorem pairUp_eq (sf : List Surface) (nf : List Nat) (sb : List Surface) (nb : List Nat) (hf : sf.length = nf.length) (hb : sb.length = nb.length)
    (hf2 : ∀ n ∈ nf, n < 256) (hb2 : ∀ n ∈ nb, n < 256) : ∀ (c i : Nat), i + c ≤ nf.length → i + c ≤ nb.length →
    ∃ data, pairUp sf nf sb nb i c = some data ∧
      data.map (fun r => (r.fw, r.nfw)) = (((sf.zip nf).drop i).take c).map (fun q => (some q.1, q.2)) ∧
      data.map (fun r => (r.bw, r.nbw)) = (((sb.zip nb).drop i).take c).map (fun q => (some q.1, q.2))
  | 0, i, _, _ => ⟨[], rfl, by simp, by simp⟩
  | c + 1, i, h1, h2 => by
    obtain ⟨data, e1, e2, e3⟩ := pairUp_eq sf nf sb nb hf hb hf2 hb2 c (i + 1) (by omega) (by omega)
    have a1 : i < sf.length := by omega
    have a2 : i < nf.length := by omega
    have a3 : i < sb.length := by omega
    have a4 : i < nb.length := by omega
    refine ⟨⟨some sf[i], some sb[i], nf[i] % 256, nb[i] % 256⟩ :: data, ?_, ?_, ?_⟩
    · simp [pairUp, a1, a2, a3, a4, e1]
    · rw [List.map_cons, e2, List.drop_eq_getElem_cons (i := i) (by rw [List.length_zip]; omega), List.take_succ_cons, List.map_cons, List.getElem_zip]
      simp only [Nat.mod_eq_of_lt (hf2 _ (List.getElem_mem a2))]
    · rw [List.map_cons, e3, List.drop_eq_getElem_cons (i := i) (by rw [List.length_zip]; omega), List.take_succ_cons, List.map_cons, List.getElem_zip]
      simp only [Nat.mod_eq_of_lt (hb2 _ (List.getElem_mem a4))]

theorem zip_split (s : List Surface) (n : List Nat) (c : Nat) (x : Surface) (h : s.length = n.length) (hc : n.length = c + 1)
    (hx : s.getLast? = some x) (hn : n.getLast? = some 0) :
    (s.zip n).take c ++ [(x, 0)] = s.zip n := by
  have hs : s ≠ [] := by rintro rfl; simp at hx
  have hn' : n ≠ [] := by rintro rfl; simp at hn
  rw [List.getLast?_eq_some_getLast hs] at hx
  rw [List.getLast?_eq_some_getLast hn'] at hn
  have e1 := List.dropLast_append_getLast hs
  have e2 := List.dropLast_append_getLast hn'
  rw [Option.some.inj hx] at e1
  rw [Option.some.inj hn] at e2
  have l1 : s.dropLast.length = n.dropLast.length := by simp [h]
  have l2 : n.dropLast.length = c := by simp [hc]
  rw [← e1, ← e2, List.zip_append l1]
  rw [List.take_append_of_le_length (by simp [l1, l2]), List.take_of_length_le (by simp [l1, l2])]
  simp

/-- What the data contain for the two directions. -/
theorem cmData_eq (sf : List Surface) (nf : List Nat) (sb : List Surface) (nb : List Nat) (hf : sf.length = nf.length) (hb : sb.length = nb.length)
    (hf2 : ∀ n ∈ nf, n < 256) (hb2 : ∀ n ∈ nb, n < 256) (h1 : nf.length ≤ nb.length + 1) (h2 : nb.length ≤ nf.length + 1)
    (h3 : nb.length < nf.length → nf.getLast? = some 0) (h4 : nf.length < nb.length → nb.getLast? = some 0) :
    ∃ data, cmData sf nf sb nb = some data ∧
      (data.map (fun r => (r.fw, r.nfw)) = (sf.zip nf).map (fun q => (some q.1, q.2)) ∨
       data.map (fun r => (r.fw, r.nfw)) = (sf.zip nf).map (fun q => (some q.1, q.2)) ++ [(none, 0)]) ∧
      (data.map (fun r => (r.bw, r.nbw)) = (sb.zip nb).map (fun q => (some q.1, q.2)) ∨
       data.map (fun r => (r.bw, r.nbw)) = (sb.zip nb).map (fun q => (some q.1, q.2)) ++ [(none, 0)]) := by
  obtain ⟨data, e1, e2, e3⟩ := pairUp_eq sf nf sb nb hf hb hf2 hb2 (min nf.length nb.length) 0 (by omega) (by omega)
  simp only [List.drop_zero] at e2 e3
  unfold cmData
  rw [e1]
  rcases Nat.lt_trichotomy nf.length nb.length with h | h | h
  · have hm : min nf.length nb.length = nf.length := by omega
    have hsb : sb ≠ [] := by rintro rfl; simp at hb; omega
    rw [hm] at e2 e3
    refine ⟨data ++ [⟨none, some (sb.getLast hsb), 0, 0⟩], ?_, Or.inr ?_, Or.inl ?_⟩
    · simp [h, Nat.not_lt.mpr h.le, List.getLast?_eq_some_getLast hsb]
    · rw [List.map_append, e2, List.take_of_length_le (by simp [hf])]
      rfl
    · rw [List.map_append, e3]
      have := zip_split sb nb nf.length (sb.getLast hsb) hb (by omega) (List.getLast?_eq_some_getLast hsb) (h4 h)
      conv_rhs => rw [← this]
      rw [List.map_append]
      rfl
  · have hm : min nf.length nb.length = nf.length := by omega
    rw [hm] at e2 e3
    refine ⟨data, ?_, Or.inl ?_, Or.inl ?_⟩
    · simp [h]
    · rw [e2, List.take_of_length_le (by simp [hf])]
    · rw [e3, List.take_of_length_le (by simp [hb]; omega)]
  · have hm : min nf.length nb.length = nb.length := by omega
    have hsf : sf ≠ [] := by rintro rfl; simp at hf; omega
    rw [hm] at e2 e3
    refine ⟨data ++ [⟨some (sf.getLast hsf), none, 0, 0⟩], ?_, Or.inl ?_, Or.inr ?_⟩
    · simp [h, Nat.not_lt.mpr h.le, List.getLast?_eq_some_getLast hsf]
    · rw [List.map_append, e2]
      have := zip_split sf nf nb.length (sf.getLast hsf) hf (by omega) (List.getLast?_eq_some_getLast hsf) (h3 h)
      conv_rhs => rw [← this]
      rw [List.map_append]
      rfl
    · rw [List.map_append, e3, List.take_of_length_le (by simp [hb])]
      rfl

theorem crossings_len (norm : Pt ℝ → List Surface) (len : Pt ℝ → Nat) : ∀ l : List (Pt ℝ × Nat), (∀ q ∈ l, (norm q.1).length = len q.1) →
    (crossings norm l).1.length = (l.map fun q => len q.1).sum
  | [], _ => by simp [crossings]
  | (p, n) :: rest, h => by
    have := crossings_len norm len rest (fun q hq => h q (List.mem_cons_of_mem _ hq))
    have h0 := h (p, n) (by simp)
    simp [crossings, this, ← h0]

theorem crossings_small (norm : Pt ℝ → List Surface) (N : Nat) (hN : 0 < N) : ∀ l : List (Pt ℝ × Nat), (∀ q ∈ l, q.2 < N) →
    ∀ n ∈ (crossings norm l).2, n < N
  | [], _, n, hn => by simp [crossings] at hn
  | (p, n) :: rest, h, m, hm => by
    have ih := crossings_small norm N hN rest (fun q hq => h q (List.mem_cons_of_mem _ hq))
    have h0 := h (p, n) (by simp)
    simp only [crossings] at hm
    split_ifs at hm <;> simp only [List.mem_cons] at hm
    · rcases hm with rfl | rfl | hm
      · exact h0
      · exact hN
      · exact ih m hm
    · rcases hm with rfl | hm
      · exact h0
      · exact ih m hm

theorem crossings_last (norm : Pt ℝ → List Surface) : ∀ (l : List (Pt ℝ × Nat)) (q : Pt ℝ × Nat), 1 < (norm q.1).length →
    (crossings norm (l ++ [q])).2.getLast? = some 0
  | [], (p, n), h => by simp [crossings, h]
  | (p, n) :: rest, q, h => by
    have ih := crossings_last norm rest q h
    simp only [List.cons_append, crossings]
    have hne : (crossings norm (rest ++ [q])).2 ≠ [] := by intro e; rw [e] at ih; simp at ih
    obtain ⟨a, t, e⟩ := List.exists_cons_of_ne_nil hne
    rw [e] at ih ⊢
    split_ifs <;> simpa using ih

theorem normPoint_lateral (near : ℝ → ℝ → Bool) (d : Dims) (xs ys : List ℝ) (p : Pt ℝ) (o : Oct) : ∀ s ∈ normPoint near d xs ys p o, Lateral s := by
  unfold normPoint
  dsimp only
  generalize findLine near p.x xs 0 = fx
  generalize findLine near p.y ys 0 = fy
  unfold normAt Lateral
  split_ifs <;> (try cases o) <;> simp

theorem allEntries_lateral (norm : Pt ℝ → List Surface) (h : ∀ p, ∀ s ∈ norm p, Lateral s) (l : List (Pt ℝ × Nat)) :
    ∀ e ∈ allEntries norm l, ∀ s, e.1 = some s → Lateral s := by
  intro e he s hs
  unfold allEntries at he
  obtain ⟨q, -, he⟩ := List.mem_flatMap.mp he
  have hq := h q.1
  unfold entries at he
  split at he
  · simp at he
  · next t rest heq =>
    rw [heq] at hq
    rcases List.mem_cons.mp he with rfl | he
    · simp only [Option.some.injEq] at hs
      exact hq s (by simp [hs])
    · obtain ⟨u, hu, rfl⟩ := List.mem_map.mp he
      simp only [Option.some.injEq] at hs
      exact hq s (by simp [← hs, hu])

/-- All that is added is added to lateral surfaces of cells of the plane. -/
theorem deposits_lateral (d : Dims) (k : Nat) (wt : Surface → ℝ) (psi : Nat → ℝ) : ∀ (l : List (Option Surface × Nat)) (cell : Int) (seg : Nat) (D : List (Nat × ℝ)),
    (∀ e ∈ l, ∀ s, e.1 = some s → Lateral s) → (cell < 0 ∨ ∃ c : Nat × Nat, (c.1 < d.nx ∧ c.2 < d.ny) ∧ cell = cellNo d k c) →
    deposits d wt psi l cell seg = some D → ∀ e ∈ D, ∃ c s, (c.1 < d.nx ∧ c.2 < d.ny) ∧ Lateral s ∧ coarseSurf d (cellNo d k c) s = some e.1
  | [], _, _, D, _, _, h => by
    simp only [deposits, Option.some.injEq] at h
    subst h
    simp
  | (none, _) :: rest, _, seg, D, hl, _, h => by
    simp only [deposits] at h
    exact deposits_lateral d k wt psi rest _ seg D (fun e he => hl e (by simp [he])) (Or.inl (by decide)) h
  | (some s, n) :: rest, cell, seg, D, hl, hcell, h => by
    have hs : Lateral s := hl (some s, n) (by simp) s rfl
    simp only [deposits, Option.bind_eq_some_iff, Option.map_eq_some_iff] at h
    obtain ⟨m, hm, D', hD, rfl⟩ := h
    have hneg : ¬ cell < 0 := by
      intro hlt
      simp [surfOf, hlt] at hm
    obtain ⟨c, hc, rfl⟩ := hcell.resolve_left hneg
    have hm' : coarseSurf d (cellNo d k c) s = some m := by
      simpa [surfOf, hneg] using hm
    have ih := deposits_lateral d k wt psi rest _ (seg + n) D' (fun e he => hl e (by simp [he])) (by
      rw [Int.toNat_natCast, neighbor_eq d k c s hs hc]
      cases hb : beside d.nx d.ny c s with
      | none => exact Or.inl (show (-1 : Int) < 0 by decide)
      | some c' => exact Or.inr ⟨c', beside_in _ _ c c' s hc hb, rfl⟩) hD
    intro e he
    rcases List.mem_cons.mp he with rfl | he
    · exact ⟨c, s, hc, hs, hm'⟩
    · exact ih e he

theorem tot_zero (n : Nat) (D : List (Nat × ℝ)) (h : ∀ e ∈ D, e.1 ≠ n) : tot n D = 0 := by
  unfold tot
  refine List.sum_eq_zero fun x hx => ?_
  obtain ⟨e, he, rfl⟩ := List.mem_map.mp hx
  rw [if_neg (Ne.symm (h e he))]

end Verif.Moc
