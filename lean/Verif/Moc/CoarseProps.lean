import Verif.Moc.CoarseLemmas

/-! # C75: coarse currents of one ray -/

namespace Verif.Moc

open Verif.Geom Verif.Mesh Verif.Mesh.Spec

/-- C75: the two weights are equal up to sign: `W` for the y direction, and for the x direction `W` or `-W` as the angle points to the east
or to the west, where `W` is the area seen by the ray times the weight of the angle. -/
theorem C75_weights (pi weight sinT spacing cosA sinA dz : ℝ) (hc : cosA ≠ 0) (hs : 0 < sinA) :
    currentWeights pi weight (sinT * cosA) (sinT * sinA) spacing cosA sinA dz =
      ((if 0 < cosA then weight * pi * sinT * spacing * dz else -(weight * pi * sinT * spacing * dz)), weight * pi * sinT * spacing * dz) := by
  unfold currentWeights
  simp only [abs_of_pos hs, Prod.mk.injEq]
  constructor
  · split_ifs with h
    · rw [abs_of_pos h]; field_simp
    · have h' : cosA < 0 := lt_of_le_of_ne (not_lt.mp h) hc
      rw [abs_of_neg h']; field_simp
  · field_simp

/-- The current out of a cell of the plane `k`, through its four faces. -/
noncomputable def outflow (d : Dims) (k : Nat) (cur : Nat → ℝ) (q : Nat × Nat) : ℝ :=
  let face := fun s => match coarseSurf d (coarseCell d ⟨q.1, q.2, k⟩) s with
    | some n => cur n
    | none => 0
  face .EAST + face .NORTH - face .WEST - face .SOUTH

theorem outflow_add (d : Dims) (k : Nat) (hk : k < d.nz) (cur cur' : Nat → ℝ) (D : List (Nat × ℝ)) (h : ∀ j, cur' j = cur j + tot j D) (q : Nat × Nat)
    (hq : q.1 < d.nx ∧ q.2 < d.ny) : outflow d k cur' q = outflow d k cur q + net d k q D := by
  obtain ⟨e, he⟩ := surf_some d k hk q .EAST (by simp [Lateral]) hq
  obtain ⟨n, hn⟩ := surf_some d k hk q .NORTH (by simp [Lateral]) hq
  obtain ⟨w, hw⟩ := surf_some d k hk q .WEST (by simp [Lateral]) hq
  obtain ⟨s, hs⟩ := surf_some d k hk q .SOUTH (by simp [Lateral]) hq
  have hnet : net d k q D = tot e D + tot n D - tot w D - tot s D := by
    clear h
    induction D with
    | nil => simp [net, tot]
    | cons a D ih =>
      obtain ⟨m, v⟩ := a
      rw [net_cons, ih, tot_cons, tot_cons, tot_cons, tot_cons]
      unfold outSgn
      simp only [he, hn, hw, hs, Option.some.injEq]
      split_ifs <;> ring
  unfold cellNo at he hn hw hs
  simp only [outflow, he, hn, hw, hs, h, hnet]
  ring

/-- The octant of the opposite direction. -/
def opp : Oct → Oct
  | .one => .three
  | .two => .four
  | .three => .one
  | .four => .two

theorem piece_opp (xs ys : List ℝ) (o : Oct) (c : Nat × Nat) (a b : Pt ℝ) (h : Piece xs ys o c a b) : Piece xs ys (opp o) c b a := by
  obtain ⟨h1, h2, h3, h4⟩ := h
  refine ⟨h2, h1, ?_, ?_⟩ <;> cases o <;> simpa [opp, Oct.east, Oct.north] using by assumption

theorem path_snoc (xs ys : List ℝ) (o : Oct) (a b : Pt ℝ) (c : Nat × Nat) (hp : Piece xs ys o c a b) : ∀ (Q : List (Pt ℝ)) (cs : List (Nat × Nat)),
    Mesh.Path xs ys o (Q ++ [a]) cs → Mesh.Path xs ys o (Q ++ [a] ++ [b]) (cs ++ [c])
  | [], cs, h => by
    cases cs with
    | nil => exact ⟨hp, trivial⟩
    | cons _ _ => simp [Mesh.Path] at h
  | [q], cs, h => by
    cases cs with
    | nil => simp [Mesh.Path] at h
    | cons c2 cs2 => exact ⟨h.1, path_snoc xs ys o a b c hp [] cs2 h.2⟩
  | q :: q2 :: Q, cs, h => by
    cases cs with
    | nil => simp [Mesh.Path] at h
    | cons c2 cs2 => exact ⟨h.1, path_snoc xs ys o a b c hp (q2 :: Q) cs2 h.2⟩

theorem path_reverse (xs ys : List ℝ) (o : Oct) : ∀ (Q : List (Pt ℝ)) (cs : List (Nat × Nat)), Mesh.Path xs ys o Q cs →
    Mesh.Path xs ys (opp o) Q.reverse cs.reverse
  | [], cs, h => by simp [Mesh.Path] at h
  | [a], cs, h => by
    cases cs with
    | nil => exact trivial
    | cons _ _ => simp [Mesh.Path] at h
  | a :: b :: Q, cs, h => by
    cases cs with
    | nil => simp [Mesh.Path] at h
    | cons c cs2 =>
      have ih := path_reverse xs ys o (b :: Q) cs2 h.2
      rw [List.reverse_cons] at ih
      have := path_snoc xs ys (opp o) b a c (piece_opp xs ys o c a b h.1) Q.reverse cs2.reverse ih
      rw [List.reverse_cons, List.reverse_cons, List.reverse_cons]
      exact this

/-- A surface number in another plane. -/
theorem surf_plane (d : Dims) (k : Nat) (hk : k < d.nz) (c : Nat × Nat) (hc : c.1 < d.nx ∧ c.2 < d.ny) (s : Surface) (hs : Lateral s) (n : Nat)
    (h : coarseSurf d (c.1 + d.nx * c.2) s = some n) : coarseSurf d (cellNo d k c) s = some (n + nSurfPlane d * k) := by
  have e0 : c.1 + d.nx * c.2 = coarseCell d ⟨c.1, c.2, 0⟩ := by simp [coarseCell]; ring
  rw [e0] at h
  obtain ⟨f, hf⟩ : ∃ f, faceOf c.1 c.2 0 s = some f := by rcases hs with rfl | rfl | rfl | rfl <;> simp [faceOf]
  obtain ⟨g, hg⟩ : ∃ g, faceOf c.1 c.2 k s = some g := by rcases hs with rfl | rfl | rfl | rfl <;> simp [faceOf]
  rw [coarseSurf_enc d c.1 c.2 0 s f hf hc.1 hc.2 (by omega)] at h
  unfold cellNo
  rw [coarseSurf_enc d c.1 c.2 k s g hg hc.1 hc.2 hk, ← Option.some.inj h]
  congr 1
  rcases hs with rfl | rfl | rfl | rfl <;> simp [faceOf] at hf hg <;> subst hf hg <;> simp [enc] <;> ring

theorem weightAt_eq (d : Dims) (k : Nat) (hk : k < d.nz) (c : Nat × Nat) (hc : c.1 < d.nx ∧ c.2 < d.ny) (s : Surface) (hs : Lateral s) (n : Nat)
    (h : coarseSurf d (cellNo d k c) s = some n) (wx wy : ℝ) : weightAt d wx wy n = weightOf wx wy s := by
  obtain ⟨g, hg⟩ : ∃ g, faceOf c.1 c.2 k s = some g := by rcases hs with rfl | rfl | rfl | rfl <;> simp [faceOf]
  unfold weightAt
  rw [C13_normal d c.1 c.2 k s g n hc.1 hc.2 hk hg h]
  rcases hs with rfl | rfl | rfl | rfl <;> simp [faceOf] at hg <;> subst hg <;> simp [Axis.normal, weightOf]

/-- Sum over the pieces from the other end. -/
theorem gain_append (q : Nat × Nat) (psi : Nat → ℝ) (c : Nat × Nat) (n : Nat) : ∀ (cs : List (Nat × Nat)) (ns : List Nat) (seg : Nat), cs.length = ns.length →
    gain q psi (cs ++ [c]) (ns ++ [n]) seg = gain q psi cs ns seg + if c = q then psi (seg + ns.sum + n) - psi (seg + ns.sum) else 0
  | [], [], seg, _ => by simp [gain]
  | [], _ :: _, _, h => by simp at h
  | _ :: _, [], _, h => by simp at h
  | c2 :: cs, m :: ns, seg, h => by
    simp only [List.cons_append, gain, List.sum_cons]
    rw [gain_append q psi c n cs ns (seg + m) (by simpa using h)]
    simp only [add_assoc]

theorem gain_reverse (q : Nat × Nat) (psi : Int → ℝ) : ∀ (cs : List (Nat × Nat)) (ns : List Nat) (seg : Nat) (T : Int), cs.length = ns.length →
    T = seg + ns.sum → gain q (fun n => psi (T - n)) cs.reverse ns.reverse 0 = - gain q (fun n => psi n) cs ns seg
  | [], [], seg, T, _, _ => by simp [gain]
  | [], _ :: _, _, _, h, _ => by simp at h
  | _ :: _, [], _, _, h, _ => by simp at h
  | c :: cs, n :: ns, seg, T, h, hT => by
    rw [List.reverse_cons, List.reverse_cons, gain_append _ _ _ _ _ _ _ (by simpa using h)]
    simp only [gain]
    rw [gain_reverse q psi cs ns (seg + n) T (by simpa using h) (by rw [hT]; push_cast [List.sum_cons]; ring)]
    simp only [zero_add, List.sum_reverse]
    have e1 : T - ((ns.sum + n : Nat) : Int) = (seg : Int) := by rw [hT]; push_cast [List.sum_cons]; ring
    have e2 : T - ((ns.sum : Nat) : Int) = ((seg + n : Nat) : Int) := by rw [hT]; push_cast [List.sum_cons]; ring
    rw [e1, e2]
    split_ifs <;> ring

theorem gain_neg (q : Nat × Nat) (psi : Nat → ℝ) : ∀ (cs : List (Nat × Nat)) (ns : List Nat) (seg : Nat),
    gain q (fun n => -psi n) cs ns seg = -gain q psi cs ns seg
  | [], _, _ => by simp [gain]
  | _ :: _, [], _ => by simp [gain]
  | c :: cs, n :: ns, seg => by
    simp only [gain, gain_neg q psi cs ns]
    split_ifs <;> ring

theorem opposite_weight (wx wy V : ℝ) (s : Surface) (hs : Lateral s) (h : weightOf wx wy (opposite s) * sgn (opposite s) = V) :
    weightOf wx wy s * sgn s = -V := by
  rcases hs with rfl | rfl | rfl | rfl <;> simp [weightOf, opposite, sgn] at h ⊢ <;> linarith

theorem Lateral.of_opposite (o : Oct) (s : Surface) (h : Downwind o (opposite s)) : Lateral s := by
  cases s <;> simp [opposite, Downwind, Lateral] at h ⊢

/-- How many grid lines the point is on, counted once for each direction. -/
noncomputable def onLines (xs ys : List ℝ) (b : Pt ℝ) : Nat := by
  classical exact (if b.x ∈ xs then 1 else 0) + (if b.y ∈ ys then 1 else 0)

/-- One direction of a ray: where it enters, and what it adds. -/
theorem half (near nearAbs : ℝ → ℝ → Bool) (d : Dims) (k : Nat) (hk : k < d.nz) (xs ys : List ℝ) (hl : Lines d xs ys) (o : Oct) (wx wy : ℝ)
    (psi : Nat → ℝ) (V : ℝ) (hV : ∀ s, Downwind o s → weightOf wx wy s * sgn s = V) (p e : Pt ℝ) (rest : List (Pt ℝ)) (c : Nat × Nat)
    (cs : List (Nat × Nat)) (nsegs : List Nat) (hp : Mesh.Path xs ys o (p :: rest) (c :: cs)) (hn : nsegs.length = (c :: cs).length)
    (hkn : ∀ b ∈ p :: rest, Known near xs ys b) (hlast : (p :: rest).getLast? = some e) (hep : AtEdge d xs ys p) (hee : AtEdge d xs ys e)
    (ax : nearAbs p.x 0 = true ↔ p.x = 0) (ay : nearAbs p.y 0 = true ↔ p.y = 0) :
    ∃ s0 n0 D, boundaryCell near nearAbs d xs ys p o = some (c.1 + d.nx * c.2) ∧ normPoint near d xs ys p o = [s0] ∧
      coarseSurf d (c.1 + d.nx * c.2) s0 = some n0 ∧ weightAt d wx wy (n0 + nSurfPlane d * k) = weightOf wx wy s0 ∧
      OnBoundary d k (n0 + nSurfPlane d * k) c s0 ∧ OnFace xs ys c p s0 ∧ Downwind o (opposite s0) ∧
      (∀ q ∈ rest.zip nsegs, ((normPoint near d xs ys q.1 o).length = 1 ∨ (normPoint near d xs ys q.1 o).length = 2) ∧
        (normPoint near d xs ys q.1 o).length = onLines xs ys q.1) ∧
      deposits d (weightOf wx wy) psi (allEntries (fun b => normPoint near d xs ys b o) (rest.zip nsegs)) (cellNo d k c) 0 = some D ∧
      (∀ q : Nat × Nat, q.1 < d.nx ∧ q.2 < d.ny →
        net d k q ((n0 + nSurfPlane d * k, psi 0 * weightOf wx wy s0) :: D) = V * gain q psi (c :: cs) nsegs 0) ∧
      ∃ cx sx kx, OnBoundary d k kx cx sx ∧ OnFace xs ys cx e sx ∧ Downwind o sx ∧ (¬ (e.x ∈ xs ∧ e.y ∈ ys) → (c :: cs).getLast? = some cx) ∧
        ∀ m c0 s1, OnBoundary d k m c0 s1 → tot m D = if m = kx then psi nsegs.sum * weightOf wx wy sx else 0 := by
  cases rest with
  | nil => simp [Mesh.Path] at hp
  | cons b rest =>
    obtain ⟨k1, k2, k3⟩ := hkn p (by simp)
    have hpc : Piece xs ys o c p b := hp.1
    have hin := piece_in d xs ys hl o c p b hpc
    obtain ⟨hcell, s0, hs0, hface, hbes, hdn⟩ := C74_start near nearAbs d (by omega) xs ys hl o c p b hpc hep.1 k1 k2 ax ay
    have hlat := Lateral.of_opposite o s0 hdn
    obtain ⟨n0, hn0⟩ := surf_some d 0 (by omega) c s0 hlat hin
    have e0 : cellNo d 0 c = c.1 + d.nx * c.2 := by simp [cellNo, coarseCell]; ring
    rw [e0] at hn0
    have hsurf := surf_plane d k hk c hin s0 hlat n0 hn0
    obtain ⟨hlen, D, hD, hnet, hex⟩ := path_deposit near d k hk xs ys hl o (weightOf wx wy) psi V hV e hee (b :: rest) p c cs nsegs 0 hp hn
      (fun b hb => hkn b (List.mem_cons_of_mem _ hb)) (by simpa using hlast)
    refine ⟨s0, n0, D, hcell, hs0, hn0, weightAt_eq d k hk c hin s0 hlat _ hsurf wx wy, ⟨hin, hlat, hbes, hsurf⟩, hface, hdn, ?_, hD, ?_, ?_⟩
    · intro q hq
      obtain ⟨a1, a2⟩ := hlen q hq
      refine ⟨a1, ?_⟩
      rw [a2, onLines]
    · intro q hq
      have hw := opposite_weight wx wy V s0 hlat (hV _ hdn)
      rw [net_cons, hnet q hq, outSgn_face d k hk c q s0 hlat _ hin hq hsurf, hbes]
      have : psi 0 * weightOf wx wy s0 * (sgn s0 * ((if q = c then 1 else 0) - (if (none : Option (Nat × Nat)) = some q then 1 else 0))) =
          psi 0 * (weightOf wx wy s0 * sgn s0) * (if q = c then 1 else 0) := by
        simp; ring_nf
      rw [this, hw]
      split_ifs <;> ring
    · simpa using hex

/-- Two faces of a cell on the boundary through a point that is on one line only are the same. -/
theorem face_unique (xs ys : List ℝ) (o : Oct) (c : Nat × Nat) (p : Pt ℝ) (s t : Surface) (h1 : OnFace xs ys c p s) (h2 : OnFace xs ys c p t)
    (d1 : Downwind o s) (d2 : Downwind o t) (hp : ¬ (p.x ∈ xs ∧ p.y ∈ ys)) : s = t := by
  cases s <;> cases t <;> simp_all [OnFace, Downwind] <;>
    first
      | exact absurd (List.mem_of_getElem? h2) (hp (List.mem_of_getElem? h1))
      | exact absurd (List.mem_of_getElem? h1) (hp (List.mem_of_getElem? h2))

theorem downwind_opp (o : Oct) (s : Surface) (h : Downwind o (opposite s)) : Downwind (opp o) s := by
  cases o <;> cases s <;> simp_all [Downwind, opposite, opp, Oct.east, Oct.north]

theorem path_length (xs ys : List ℝ) (o : Oct) : ∀ (Q : List (Pt ℝ)) (cs : List (Nat × Nat)), Mesh.Path xs ys o Q cs → Q.length = cs.length + 1
  | [], cs, h => by simp [Mesh.Path] at h
  | [a], cs, h => by
    cases cs with
    | nil => rfl
    | cons _ _ => simp [Mesh.Path] at h
  | a :: b :: Q, cs, h => by
    cases cs with
    | nil => simp [Mesh.Path] at h
    | cons c cs2 =>
      have := path_length xs ys o (b :: Q) cs2 h.2
      simp only [List.length_cons] at this ⊢
      omega

theorem sum_lines (xs ys : List ℝ) (l : List (Pt ℝ)) (ns : List Nat) (h : l.length ≤ ns.length) :
    ((l.zip ns).map fun q => onLines xs ys q.1).sum = (l.map (onLines xs ys)).sum := by
  have : (l.zip ns).map (fun q => onLines xs ys q.1) = ((l.zip ns).map Prod.fst).map (onLines xs ys) := by simp [Function.comp_def]
  rw [this, List.map_fst_zip h]

/-- The list of points of one direction ends with the last point. -/
theorem zip_last (l : List (Pt ℝ)) (ns : List Nat) (e : Pt ℝ) (h : l.length = ns.length) (he : l.getLast? = some e) :
    ∃ l' n, l.zip ns = l' ++ [(e, n)] := by
  obtain ⟨l0, rfl⟩ : ∃ l0, l = l0 ++ [e] := by
    refine ⟨l.dropLast, ?_⟩
    exact (List.dropLast_append_getLast? e he).symm
  have hne : ns ≠ [] := by rintro rfl; simp at h
  obtain ⟨n0, n, rfl⟩ : ∃ n0 n, ns = n0 ++ [n] := ⟨ns.dropLast, ns.getLast hne, (List.dropLast_append_getLast hne).symm⟩
  refine ⟨l0.zip n0, n, ?_⟩
  rw [List.zip_append (by simpa using h)]
  rfl

/-- A ray through the mesh from boundary to boundary, no end at a corner of the mesh, its pieces in the cells `cs`, all points on the grid
lines recognised as such. -/
structure Laid (near nearAbs : ℝ → ℝ → Bool) (d : Dims) (xs ys : List ℝ) (p1 p2 : Pt ℝ) (Q : List (Pt ℝ)) (cs : List (Nat × Nat))
    (nsegs : List Nat) : Prop where
  lines : Lines d xs ys
  path : Mesh.Path xs ys (octants p1 p2).1 Q cs
  first : Q.head? = some p1
  last : Q.getLast? = some p2
  edge1 : AtEdge d xs ys p1
  edge2 : AtEdge d xs ys p2
  known : ∀ b ∈ Q, Known near xs ys b
  zero1 : (nearAbs p1.x 0 = true ↔ p1.x = 0) ∧ (nearAbs p1.y 0 = true ↔ p1.y = 0)
  zero2 : (nearAbs p2.x 0 = true ↔ p2.x = 0) ∧ (nearAbs p2.y 0 = true ↔ p2.y = 0)
  count : nsegs.length = cs.length
  some : cs ≠ []

/-- A surface of the boundary of the mesh, face `s` of the cell `c` through the point `p`. -/
def Leaves (d : Dims) (k : Nat) (xs ys : List ℝ) (p : Pt ℝ) (m : Nat) (c : Nat × Nat) (s : Surface) : Prop :=
  OnBoundary d k m c s ∧ OnFace xs ys c p s

/-- What the currents of a ray should be.  In each cell, the current out of it grows by `W` times what the fluxes of the two directions
gain over the pieces in the cell; surfaces of other planes and those between planes do not change; on the boundary, only the surfaces at the two ends
change, by what enters and leaves there. -/
def Balances (near nearAbs : ℝ → ℝ → Bool) (d : Dims) (k : Nat) (xs ys : List ℝ) (p1 p2 : Pt ℝ) (Q : List (Pt ℝ)) (cs : List (Nat × Nat))
    (nsegs : List Nat) (W wx : ℝ) (psi1 psi2 : Int → ℝ) (cur : Nat → ℝ) : Prop :=
  ∃ r cur', coarseRay near nearAbs d xs ys p1 p2 Q nsegs = some r ∧ postRay d k wx W psi1 psi2 r cur = some cur' ∧
    (∀ q : Nat × Nat, q.1 < d.nx ∧ q.2 < d.ny → outflow d k cur' q - outflow d k cur q =
      W * (gain q (fun n => psi1 n) cs nsegs 0 - gain q (fun n => psi2 n) cs nsegs 0)) ∧
    (∀ m, (∀ c s, c.1 < d.nx ∧ c.2 < d.ny → Lateral s → coarseSurf d (cellNo d k c) s ≠ some m) → cur' m = cur m) ∧
    ∃ m1 c1 s1 m2 c2 s2 m3 c3 s3 m4 c4 s4,
      (Leaves d k xs ys p1 m1 c1 s1 ∧ cs.head? = some c1) ∧ Leaves d k xs ys p2 m2 c2 s2 ∧
      (Leaves d k xs ys p2 m3 c3 s3 ∧ cs.getLast? = some c3) ∧ Leaves d k xs ys p1 m4 c4 s4 ∧
      (¬ (p1.x ∈ xs ∧ p1.y ∈ ys) → m4 = m1 ∧ c4 = c1 ∧ s4 = s1) ∧ (¬ (p2.x ∈ xs ∧ p2.y ∈ ys) → m2 = m3 ∧ c2 = c3 ∧ s2 = s3) ∧
      ∀ m c s, OnBoundary d k m c s → cur' m - cur m =
        (if m = m1 then psi1 0 * weightOf wx W s1 else 0) + (if m = m2 then psi1 nsegs.sum * weightOf wx W s2 else 0) -
        (if m = m3 then psi2 nsegs.sum * weightOf wx W s3 else 0) - (if m = m4 then psi2 0 * weightOf wx W s4 else 0)

/-- The weights `set_angle` makes for the direction of the ray (`C75_weights`). -/
def Weights (p1 p2 : Pt ℝ) (W wx : ℝ) : Prop := wx = if p1.x < p2.x then W else -W

/-- C75: for every ray the currents balance.  The code does not ensure this, see `C75_claim_false`. -/
def C75_claim : Prop :=
  ∀ (near nearAbs : ℝ → ℝ → Bool) (d : Dims) (k : Nat) (xs ys : List ℝ) (p1 p2 : Pt ℝ) (Q : List (Pt ℝ)) (cs : List (Nat × Nat))
    (nsegs : List Nat) (W wx : ℝ) (psi1 psi2 : Int → ℝ) (cur : Nat → ℝ), k < d.nz → Laid near nearAbs d xs ys p1 p2 Q cs nsegs →
    Weights p1 p2 W wx → Balances near nearAbs d k xs ys p1 p2 Q cs nsegs W wx psi1 psi2 cur

/-- C75, for rays with fewer than 256 segments in each piece.  Missing: `C75_claim` without this, which is false. -/
theorem C75_balance_partial (near nearAbs : ℝ → ℝ → Bool) (d : Dims) (k : Nat) (xs ys : List ℝ) (p1 p2 : Pt ℝ) (Q : List (Pt ℝ))
    (cs : List (Nat × Nat)) (nsegs : List Nat) (W wx : ℝ) (psi1 psi2 : Int → ℝ) (cur : Nat → ℝ) (hk : k < d.nz)
    (h : Laid near nearAbs d xs ys p1 p2 Q cs nsegs) (hw : Weights p1 p2 W wx) (hsmall : ∀ n ∈ nsegs, n < 256) :
    Balances near nearAbs d k xs ys p1 p2 Q cs nsegs W wx psi1 psi2 cur := by
  obtain ⟨hl, hpath, hfirst, hlast, he1, he2, hkn, ⟨ax1, ay1⟩, ⟨ax2, ay2⟩, hcount, hne⟩ := h
  have hopp : (octants p1 p2).2 = opp (octants p1 p2).1 := by unfold octants; split <;> rfl
  have hVf : ∀ s, Downwind (octants p1 p2).1 s → weightOf wx W s * sgn s = W := by
    intro s hs
    unfold Weights at hw
    unfold octants at hs
    split_ifs at hs hw <;> cases s <;> simp_all [Downwind, weightOf, sgn, Oct.east, Oct.north]
  have hVb : ∀ s, Downwind (octants p1 p2).2 s → weightOf wx W s * sgn s = -W := by
    intro s hs
    unfold Weights at hw
    unfold octants at hs
    split_ifs at hs hw <;> cases s <;> simp_all [Downwind, weightOf, sgn, Oct.east, Oct.north]
  have hlenQ := path_length xs ys _ Q cs hpath
  -- forward
  obtain ⟨rest, rfl⟩ : ∃ rest, Q = p1 :: rest := by
    cases Q with
    | nil => simp at hfirst
    | cons a rest => simp at hfirst; exact ⟨rest, by rw [hfirst]⟩
  obtain ⟨c, cs', rfl⟩ : ∃ c cs', cs = c :: cs' := by
    cases cs with
    | nil => exact absurd rfl hne
    | cons c cs' => exact ⟨c, cs', rfl⟩
  obtain ⟨s1, n1, F, hcf, hnf, hsf, hwf, hbf, hff, hdf, hlf, hF, hnetF, cx, sx, kx, hbx, hfx, hdx, hcx, htotF⟩ :=
    half near nearAbs d k hk xs ys hl (octants p1 p2).1 wx W (fun n => psi1 n) W hVf p1 p2 rest c cs' nsegs hpath hcount hkn hlast he1 he2 ax1 ay1
  -- backward
  have hrev := path_reverse xs ys _ _ _ hpath
  rw [← hopp] at hrev
  obtain ⟨rest2, hQ2⟩ : ∃ rest2, (p1 :: rest).reverse = p2 :: rest2 := by
    have h0 : (p1 :: rest).reverse.head? = some p2 := by rw [List.head?_reverse]; exact hlast
    cases hr : (p1 :: rest).reverse with
    | nil => rw [hr] at h0; simp at h0
    | cons a t => rw [hr] at h0; simp at h0; exact ⟨t, by rw [h0]⟩
  obtain ⟨cb, cs2, hc2⟩ : ∃ cb cs2, (c :: cs').reverse = cb :: cs2 := by
    cases hr : (c :: cs').reverse with
    | nil => simp at hr
    | cons a t => exact ⟨a, t, rfl⟩
  have hlast2 : (p2 :: rest2).getLast? = some p1 := by rw [← hQ2, List.getLast?_reverse]; rfl
  have hcb : (c :: cs').getLast? = some cb := by rw [← List.head?_reverse, hc2]; rfl
  have hcl : (cb :: cs2).getLast? = some c := by rw [← hc2, List.getLast?_reverse]; rfl
  rw [hQ2, hc2] at hrev
  obtain ⟨s3, n3, B, hcbk, hnb, hsb, hwb, hbb, hfb, hdb, hlb, hB, hnetB, cy, sy, ky, hby, hfy, hdy, hcy, htotB⟩ :=
    half near nearAbs d k hk xs ys hl (octants p1 p2).2 wx W (fun n => -psi2 ((nsegs.sum : Int) - n)) (-W) hVb p2 p1 rest2 cb cs2 nsegs.reverse hrev
      (by rw [List.length_reverse, hcount, ← hc2, List.length_reverse])
      (fun b hb => hkn b (by rw [← hQ2] at hb; exact List.mem_reverse.mp hb)) hlast2 he2 he1 ax2 ay2
  -- the data
  have hzf := crossings_zip (fun p => normPoint near d xs ys p (octants p1 p2).1) (rest.zip nsegs) (fun q hq => (hlf q hq).1)
  have hzb := crossings_zip (fun p => normPoint near d xs ys p (octants p1 p2).2) (rest2.zip nsegs.reverse) (fun q hq => (hlb q hq).1)
  have hlr : rest.length = nsegs.length := by simp only [List.length_cons] at hlenQ hcount; omega
  have hlr2 : rest2.length = nsegs.reverse.length := by
    have := congrArg List.length hQ2
    simp only [List.length_reverse, List.length_cons] at this ⊢
    omega
  have hcf1 := crossings_len (fun p => normPoint near d xs ys p (octants p1 p2).1) (onLines xs ys) (rest.zip nsegs) (fun q hq => (hlf q hq).2)
  have hcb1 := crossings_len (fun p => normPoint near d xs ys p (octants p1 p2).2) (onLines xs ys) (rest2.zip nsegs.reverse) (fun q hq => (hlb q hq).2)
  rw [sum_lines _ _ _ _ hlr.le] at hcf1
  rw [sum_lines _ _ _ _ hlr2.le] at hcb1
  have hsum : onLines xs ys p1 + (rest.map (onLines xs ys)).sum = onLines xs ys p2 + (rest2.map (onLines xs ys)).sum := by
    have h1 := congrArg (fun l => (l.map (onLines xs ys)).sum) hQ2
    simp only [List.map_reverse, List.sum_reverse, List.map_cons, List.sum_cons] at h1
    exact h1
  have hrange : ∀ b, Known near xs ys b → onLines xs ys b = 1 ∨ onLines xs ys b = 2 := by
    intro b hb
    obtain ⟨_, _, hb⟩ := hb
    unfold onLines
    rcases hb with hb | hb <;> simp only [hb, if_true] <;> split_ifs <;> simp
  have hr1 := hrange p1 (hkn p1 (by simp))
  have hr2 := hrange p2 (hkn p2 (by rw [← List.mem_reverse, hQ2]; simp))
  have hrne : rest ≠ [] := by rintro rfl; simp at hlr; simp [hlr.symm] at hcount; 
  have hlast3 : rest.getLast? = some p2 := by
    cases rest with
    | nil => exact absurd rfl hrne
    | cons a t => simpa using hlast
  have hrne2 : rest2 ≠ [] := by
    rintro rfl
    have := congrArg List.length hQ2
    simp only [List.length_reverse, List.length_cons, List.length_nil] at this
    exact hrne (List.length_eq_zero_iff.mp (by omega))
  have hlast4 : rest2.getLast? = some p1 := by
    cases rest2 with
    | nil => exact absurd rfl hrne2
    | cons a t => simpa using hlast2
  obtain ⟨lf, nf, hlf2⟩ := zip_last rest nsegs p2 hlr hlast3
  obtain ⟨lb, nb, hlb2⟩ := zip_last rest2 nsegs.reverse p1 hlr2 hlast4
  obtain ⟨data, hdata, hdF, hdB⟩ := cmData_eq _ _ _ _ hzf.1 hzb.1
    (crossings_small _ 256 (by norm_num) _ (fun q hq => hsmall _ (List.of_mem_zip hq).2))
    (crossings_small _ 256 (by norm_num) _ (fun q hq => hsmall _ (List.mem_reverse.mp (List.of_mem_zip hq).2)))
    (by rw [← hzf.1, ← hzb.1, hcf1, hcb1]; omega) (by rw [← hzf.1, ← hzb.1, hcf1, hcb1]; omega)
    (by
      rw [← hzf.1, ← hzb.1, hcf1, hcb1]
      intro hlt
      rw [hlf2]
      refine crossings_last _ lf (p2, nf) ?_
      rw [(hlf (p2, nf) (by rw [hlf2]; simp)).2]
      simp only []
      omega)
    (by
      rw [← hzf.1, ← hzb.1, hcf1, hcb1]
      intro hlt
      rw [hlb2]
      refine crossings_last _ lb (p1, nb) ?_
      rw [(hlb (p1, nb) (by rw [hlb2]; simp)).2]
      simp only []
      omega)
  have hF' : deposits d (weightOf wx W) (fun n => psi1 n) (data.map fun r => (r.fw, r.nfw)) (cellNo d k c) 0 = some F := by
    rcases hdF with e | e <;> rw [e, hzf.2]
    · exact hF
    · rw [deposits_none]; exact hF
  have hB' : deposits d (weightOf wx W) (fun n => -psi2 ((nsegs.sum : Int) - n)) (data.map fun r => (r.bw, r.nbw)) (cellNo d k cb) 0 = some B := by
    rcases hdB with e | e <;> rw [e, hzb.2]
    · exact hB
    · rw [deposits_none]; exact hB
  have hcell : ∀ c : Nat × Nat, c.1 + d.nx * c.2 + d.nx * d.ny * k = cellNo d k c := by
    intro c; simp [cellNo, coarseCell]; ring
  let cur1 := addAt cur (n1 + nSurfPlane d * k) (psi1 0 * weightOf wx W s1)
  let cur2 := addAt cur1 (n3 + nSurfPlane d * k) (-(psi2 nsegs.sum * weightOf wx W s3))
  obtain ⟨w', hw', hcur⟩ := walkLoop_eq d wx W psi1 psi2 nsegs.sum data ⟨(cellNo d k c : Nat), (cellNo d k cb : Nat), 0, nsegs.sum, cur2⟩ 0 F B
    (by simp) hF' hB'
  have htotal : ∀ j, w'.cur j = cur j + tot j (((n1 + nSurfPlane d * k, psi1 0 * weightOf wx W s1) :: F) ++
      ((n3 + nSurfPlane d * k, -(psi2 nsegs.sum * weightOf wx W s3)) :: B)) := by
    intro j
    rw [hcur j, tot_append, tot_cons, tot_cons]
    simp only [cur2, cur1, addAt_eq]
    ring
  refine ⟨⟨c.1 + d.nx * c.2, cb.1 + d.nx * cb.2, n1, n3, nsegs.sum, data⟩, w'.cur, ?_, ?_, ?_, ?_, ?_⟩
  · simp only [coarseRay, hQ2, List.head?_cons, hlast, hcf, hnf, hsf, hcbk, hnb, hsb, List.tail_cons, hdata, Option.bind_eq_bind, Option.bind_some, Option.pure_def]
  · simp only [postRay, hcell, hwf, hwb]
    have := hw'
    simp only [cur2, cur1] at this
    rw [this]; rfl
  · intro q hq
    rw [outflow_add d k hk cur w'.cur _ htotal q hq, net_append]
    have e1 := hnetF q hq
    have e2 := hnetB q hq
    simp only [Nat.cast_zero, sub_zero, ← neg_mul_eq_neg_mul] at e1 e2
    rw [e1, e2, ← hc2]
    have e3 := gain_reverse q (fun i => -psi2 i) (c :: cs') nsegs 0 nsegs.sum hcount.symm (by simp)
    rw [e3, gain_neg]
    ring
  · intro m hm
    have hlat : ∀ o, ∀ p, ∀ s ∈ normPoint near d xs ys p o, Lateral s := fun o p => normPoint_lateral near d xs ys p o
    have hF2 := deposits_lateral d k _ _ _ _ _ _ (allEntries_lateral _ (hlat _) _) (Or.inr ⟨c, hbf.1, rfl⟩) hF
    have hB2 := deposits_lateral d k _ _ _ _ _ _ (allEntries_lateral _ (hlat _) _) (Or.inr ⟨cb, hbb.1, rfl⟩) hB
    rw [htotal m, tot_zero, add_zero]
    intro e he hem
    subst hem
    rcases List.mem_append.mp he with he | he
    · rcases List.mem_cons.mp he with rfl | he
      · exact hm c s1 hbf.1 hbf.2.1 hbf.2.2.2
      · obtain ⟨c', s', h1, h2, h3⟩ := hF2 e he
        exact hm c' s' h1 h2 h3
    · rcases List.mem_cons.mp he with rfl | he
      · exact hm cb s3 hbb.1 hbb.2.1 hbb.2.2.2
      · obtain ⟨c', s', h1, h2, h3⟩ := hB2 e he
        exact hm c' s' h1 h2 h3
  · refine ⟨n1 + nSurfPlane d * k, c, s1, kx, cx, sx, n3 + nSurfPlane d * k, cb, s3, ky, cy, sy, ⟨⟨hbf, hff⟩, rfl⟩, ⟨hbx, hfx⟩, ⟨⟨hbb, hfb⟩, hcb⟩,
      ⟨hby, hfy⟩, ?_, ?_, ?_⟩
    · intro hs
      obtain rfl : c = cy := Option.some.inj (hcl.symm.trans (hcy hs))
      have hd1 := downwind_opp _ _ hdf
      rw [← hopp] at hd1
      obtain rfl := face_unique xs ys _ c p1 sy s1 hfy hff hdy hd1 hs
      exact ⟨Option.some.inj (hby.2.2.2.symm.trans hbf.2.2.2), rfl, rfl⟩
    · intro hs
      obtain rfl : cb = cx := Option.some.inj (hcb.symm.trans (hcx hs))
      have hd1 := downwind_opp _ _ hdb
      have hoo : opp (octants p1 p2).2 = (octants p1 p2).1 := by unfold octants; split <;> rfl
      rw [hoo] at hd1
      obtain rfl := face_unique xs ys _ cb p2 sx s3 hfx hfb hdx hd1 hs
      exact ⟨Option.some.inj (hbx.2.2.2.symm.trans hbb.2.2.2), rfl, rfl⟩
    · intro m c0 s0 hm
      rw [htotal m, tot_append, tot_cons, tot_cons, htotF m c0 s0 hm, htotB m c0 s0 hm]
      have e4 : (nsegs.sum : Int) - (nsegs.reverse.sum : Nat) = 0 := by rw [List.sum_reverse]; ring
      simp only [e4]
      split_ifs <;> ring

/-- Comparison by equality. -/
noncomputable def same (a b : ℝ) : Bool := by classical exact decide (a = b)

theorem same_iff (a b : ℝ) : same a b = true ↔ a = b := by simp [same]

theorem one_laid (n : Nat) : Laid same same ⟨1, 1, 1⟩ [0, 1] [0, 1] ⟨0, 1 / 4⟩ ⟨1, 3 / 4⟩ [⟨0, 1 / 4⟩, ⟨1, 3 / 4⟩] [(0, 0)] [n] where
  lines := ⟨⟨by simp, rfl, rfl⟩, ⟨by simp, rfl, rfl⟩⟩
  path := by
    simp [octants, Mesh.Path, Piece, Mesh.Within, Oct.east, Oct.north]
    norm_num
  first := rfl
  last := rfl
  edge1 := by simp [AtEdge, Edge]
  edge2 := by simp [AtEdge, Edge]; norm_num
  known := by
    intro b hb
    refine ⟨fun x _ => same_iff _ _, fun x _ => same_iff _ _, ?_⟩
    simp at hb
    rcases hb with rfl | rfl <;> simp
  zero1 := ⟨same_iff _ _, same_iff _ _⟩
  zero2 := ⟨same_iff _ _, same_iff _ _⟩
  count := rfl
  some := by simp

/-- C75 is false: the number of segments in a cell is kept with eight bits.  A ray with 256 segments in one cell, no flux but at its end:
nothing is added to the current out of the cell. -/
theorem C75_claim_false : ¬ C75_claim := by
  intro h
  obtain ⟨r, cur', h1, h2, h3, -⟩ := h same same ⟨1, 1, 1⟩ 0 [0, 1] [0, 1] ⟨0, 1 / 4⟩ ⟨1, 3 / 4⟩ [⟨0, 1 / 4⟩, ⟨1, 3 / 4⟩] [(0, 0)] [256] 1 1
    (fun n => if n = 256 then 1 else 0) (fun _ => 0) (fun _ => 0) (by decide) (one_laid 256) (by simp [Weights])
  have hn2 : normPoint same ⟨1, 1, 1⟩ [0, 1] [0, 1] (⟨1, 3 / 4⟩ : Pt ℝ) .one = [.EAST] := by
    simp [normPoint, findLine, same, normAt]; norm_num
  have hn4 : normPoint same ⟨1, 1, 1⟩ [0, 1] [0, 1] (⟨0, 1 / 4⟩ : Pt ℝ) .three = [.WEST] := by
    simp [normPoint, findLine, same, normAt]; norm_num
  have ho : octants (⟨0, 1 / 4⟩ : Pt ℝ) ⟨1, 3 / 4⟩ = (.one, .three) := by simp [octants]
  have hdata : r.data = [⟨some .EAST, some .WEST, 0, 0⟩] := by
    simp only [coarseRay, ho, Option.bind_eq_bind, Option.bind_eq_some_iff, Option.pure_def] at h1
    obtain ⟨_, _, _, _, _, _, _, _, _, _, _, _, _, _, _, _, data, hd, hr⟩ := h1
    simp only [List.tail_cons, List.zip_cons_cons, List.zip_nil_right, List.reverse_cons, List.reverse_nil, List.nil_append, List.cons_append,
      crossings, hn2, hn4] at hd
    rw [← Option.some.inj hr]
    simp [cmData, pairUp] at hd
    exact hd.symm
  have hcur : cur' = fun _ => 0 := by
    simp only [postRay, hdata, walkLoop, stepFw, stepBw, Option.bind_eq_bind, Option.bind_eq_some_iff, Option.pure_def, Option.some.injEq] at h2
    obtain ⟨w, ⟨w1, ⟨a, _, rfl⟩, w2, ⟨b, _, rfl⟩, rfl⟩, rfl⟩ := h2
    funext j
    simp [addAt]
  have := h3 (0, 0) (by decide)
  rw [hcur] at this
  simp [gain] at this

/-- Instance of `C75_balance_partial`. -/
example (psi1 psi2 : Int → ℝ) (cur : Nat → ℝ) : Balances same same ⟨1, 1, 1⟩ 0 [0, 1] [0, 1] ⟨0, 1 / 4⟩ ⟨1, 3 / 4⟩ [⟨0, 1 / 4⟩, ⟨1, 3 / 4⟩]
    [(0, 0)] [3] 2 2 psi1 psi2 cur :=
  C75_balance_partial same same ⟨1, 1, 1⟩ 0 [0, 1] [0, 1] _ _ _ _ [3] 2 2 psi1 psi2 cur (by decide) (one_laid 3) (by simp [Weights]) (by simp)

/-- Instance: a ray through a point where four cells meet. -/
example : Laid same same ⟨3, 3, 1⟩ [0, 1, 2, 3] [0, 1, 2, 3] ⟨0, 1 / 2⟩ ⟨3, 2⟩ [⟨0, 1 / 2⟩, ⟨1, 1⟩, ⟨2, 3 / 2⟩, ⟨3, 2⟩] [(0, 0), (1, 1), (2, 1)]
    [2, 1, 4] where
  lines := ⟨⟨by simp; norm_num, rfl, rfl⟩, ⟨by simp; norm_num, rfl, rfl⟩⟩
  path := by
    simp [octants, Mesh.Path, Piece, Mesh.Within, Oct.east, Oct.north]
    norm_num
  first := rfl
  last := rfl
  edge1 := by simp [AtEdge, Edge]; norm_num
  edge2 := by simp [AtEdge, Edge]
  known := by
    intro b hb
    refine ⟨fun x _ => same_iff _ _, fun x _ => same_iff _ _, ?_⟩
    simp at hb
    rcases hb with rfl | rfl | rfl | rfl <;> simp
  zero1 := ⟨same_iff _ _, same_iff _ _⟩
  zero2 := ⟨same_iff _ _, same_iff _ _⟩
  count := rfl
  some := by simp

/-- Instance of `C75_weights`, towards the west. -/
example : currentWeights (3 : ℝ) (1 / 2) (1 * (-(3 / 5))) (1 * (4 / 5)) 2 (-(3 / 5)) (4 / 5) 1 = (-3, 3) := by
  rw [C75_weights 3 (1 / 2) 1 2 (-(3 / 5)) (4 / 5) 1 (by norm_num) (by norm_num)]
  norm_num

end Verif.Moc
