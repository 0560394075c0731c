import Verif.SurfFlux.Model
import Verif.Sn.CurrentProps
import Verif.Moc.CoarseLemmas
import Verif.Mesh.Props
import Verif.Medium.Props
import Mathlib.Tactic.NormNum
import Mathlib.Tactic.Ring
import Mathlib.Tactic.LinearCombination
import Mathlib.Tactic.FieldSimp

/-! # C133: surface fluxes on the coarse mesh -/

namespace Verif.SurfFlux

open Verif.Mesh Verif.Mesh.Spec Verif.Moc Verif.Sn

variable {K : Type} [Field K] [LinearOrder K]

/-! ## MoC -/

/-- Coarse data of a ray in the numbers of the lowest plane: it starts with lateral surfaces of cells of the plane and crosses lateral surfaces. -/
structure PlaneRay (d : Dims) (ray : CoarseRay) : Prop where
  fw : ∃ c s, (c.1 < d.nx ∧ c.2 < d.ny) ∧ Lateral s ∧ ray.cellFw = cellNo d 0 c ∧ coarseSurf d (cellNo d 0 c) s = some ray.surfFw
  bw : ∃ c s, (c.1 < d.nx ∧ c.2 < d.ny) ∧ Lateral s ∧ ray.cellBw = cellNo d 0 c ∧ coarseSurf d (cellNo d 0 c) s = some ray.surfBw
  data : ∀ r ∈ ray.data, (∀ s, r.fw = some s → Lateral s) ∧ ∀ s, r.bw = some s → Lateral s

/-- The surfaces of plane `k` are numbered like those of the lowest. -/
theorem surf_shift (d : Dims) (k : Nat) (hk : k < d.nz) (c : Nat × Nat) (s : Surface) (hs : Lateral s) (hc : c.1 < d.nx ∧ c.2 < d.ny) (n : Nat)
    (hn : coarseSurf d (cellNo d 0 c) s = some n) : coarseSurf d (cellNo d k c) s = some (n + nSurfPlane d * k) := by
  unfold cellNo at *
  rcases hs with rfl | rfl | rfl | rfl <;>
    rw [coarseSurf_enc d c.1 c.2 0 _ _ rfl hc.1 hc.2 (by omega)] at hn <;>
    rw [coarseSurf_enc d c.1 c.2 k _ _ rfl hc.1 hc.2 hk, ← Option.some.inj hn] <;>
    simp only [enc, Option.some.injEq] <;> ring

theorem cell_shift (d : Dims) (k : Nat) (c : Nat × Nat) : cellNo d k c = cellNo d 0 c + d.nx * d.ny * k := by
  simp only [cellNo, C10_natural_order]; ring

theorem normal_surf (d : Dims) (k : Nat) (hk : k < d.nz) (c : Nat × Nat) (s : Surface) (hs : Lateral s) (hc : c.1 < d.nx ∧ c.2 < d.ny) (n : Nat)
    (hn : coarseSurf d (cellNo d k c) s = some n) (wx wy : K) : weightAt d wx wy n = weightOf wx wy s := by
  unfold cellNo at hn
  rcases hs with rfl | rfl | rfl | rfl <;>
    · have := C13_normal d c.1 c.2 k _ _ n hc.1 hc.2 hk rfl hn
      simp [weightAt, weightOf, this, Axis.normal]

/-- Cells of the two workers: the same, in the lowest plane and in plane `k`. -/
def Rel (d : Dims) (k : Nat) (x y : Int) : Prop :=
  (x < 0 ∧ y = x) ∨ ∃ c : Nat × Nat, (c.1 < d.nx ∧ c.2 < d.ny) ∧ x = cellNo d 0 c ∧ y = cellNo d k c

theorem Rel.move (d : Dims) (k : Nat) (x y : Int) (s : Option Surface) (hs : ∀ t, s = some t → Lateral t ∧ 0 ≤ x) (h : Rel d k x y) :
    Rel d k (moveOn d x s) (moveOn d y s) := by
  cases s with
  | none => exact Or.inl ⟨(show (-5 : Int) < 0 by decide), rfl⟩
  | some t =>
    obtain ⟨ht, hx⟩ := hs t rfl
    obtain ⟨h, _⟩ | ⟨c, hc, rfl, rfl⟩ := h
    · omega
    · simp only [moveOn, Int.toNat_natCast, neighbor_eq d _ c t ht hc]
      cases hb : beside d.nx d.ny c t with
      | none => exact Or.inl ⟨(show (-1 : Int) < 0 by decide), rfl⟩
      | some c' => exact Or.inr ⟨c', beside_in _ _ c c' t hc hb, rfl, rfl⟩

theorem Rel.surf (d : Dims) (k : Nat) (hk : k < d.nz) (x y : Int) (t : Surface) (ht : Lateral t) (h : Rel d k x y) :
    (x < 0 ∧ surfOf d x t = none ∧ surfOf d y t = none) ∨
      (0 ≤ x ∧ ∃ n, surfOf d x t = some n ∧ surfOf d y t = some (n + nSurfPlane d * k)) := by
  obtain ⟨h, rfl⟩ | ⟨c, hc, rfl, rfl⟩ := h
  · exact Or.inl ⟨h, by simp [surfOf, h], by simp [surfOf, h]⟩
  · obtain ⟨n, hn⟩ := surf_some d 0 (by omega) c t ht hc
    refine Or.inr ⟨by omega, n, ?_, ?_⟩
    · simpa [surfOf] using hn
    · simpa [surfOf] using surf_shift d k hk c t ht hc n hn

theorem corrLoop_eq (d : Dims) (k : Nat) (hk : k < d.nz) (wx wy : K) (psi1 psi2 : Int → K) : ∀ (data : List Rcd) (w v : Walker K),
    (∀ r ∈ data, (∀ s, r.fw = some s → Lateral s) ∧ ∀ s, r.bw = some s → Lateral s) →
    Rel d k w.cellFw v.cellFw → Rel d k w.cellBw v.cellBw → w.segFw = v.segFw → w.segBw = v.segBw → w.cur = v.cur →
    (corrLoop d (nSurfPlane d * k) wx wy psi1 psi2 data w).map Walker.cur = (walkLoop d wx wy psi1 psi2 data v).map Walker.cur
  | [], w, v, _, _, _, _, _, hc => by simp [corrLoop, walkLoop, hc]
  | r :: rest, w, v, hd, hf, hb, hs1, hs2, hc => by
    obtain ⟨fw, bw, nf, nb⟩ := r
    obtain ⟨wf, wb, ws, wt, wc⟩ := w
    obtain ⟨vf, vb, vs, vt, vc⟩ := v
    obtain ⟨l1, l2⟩ := hd _ (List.mem_cons_self ..)
    simp only at l1 l2 hs1 hs2 hc hf hb
    subst hs1 hs2 hc
    have ih := fun w v => corrLoop_eq d k hk wx wy psi1 psi2 rest w v (fun r hr => hd r (List.mem_cons_of_mem _ hr))
    cases fw with
    | none =>
      cases bw with
      | none =>
        simpa [corrLoop, walkLoop, corrFw, corrBw, stepFw, stepBw] using
          ih ⟨moveOn d wf none, moveOn d wb none, ws, wt, wc⟩ ⟨moveOn d vf none, moveOn d vb none, ws, wt, wc⟩
            (Rel.move d k _ _ none (by simp) hf) (Rel.move d k _ _ none (by simp) hb) rfl rfl rfl
      | some t =>
        obtain ⟨_, h1, h2⟩ | ⟨h0, n, h1, h2⟩ := Rel.surf d k hk wb vb t (l2 t rfl) hb
        · simp [corrLoop, walkLoop, corrFw, corrBw, stepFw, stepBw, h1, h2]
        · simpa [corrLoop, walkLoop, corrFw, corrBw, stepFw, stepBw, h1, h2] using
            ih ⟨moveOn d wf none, moveOn d wb (some t), ws, wt - nb, _⟩ ⟨moveOn d vf none, moveOn d vb (some t), ws, wt - nb, _⟩
              (Rel.move d k _ _ none (by simp) hf) (Rel.move d k _ _ (some t) (by rintro _ ⟨⟩; exact ⟨l2 t rfl, h0⟩) hb) rfl rfl rfl
    | some s =>
      obtain ⟨_, g1, g2⟩ | ⟨g0, m, g1, g2⟩ := Rel.surf d k hk wf vf s (l1 s rfl) hf
      · simp [corrLoop, walkLoop, corrFw, stepFw, g1, g2]
      · have hf' := Rel.move d k _ _ (some s) (by rintro _ ⟨⟩; exact ⟨l1 s rfl, g0⟩) hf
        cases bw with
        | none =>
          simpa [corrLoop, walkLoop, corrFw, corrBw, stepFw, stepBw, g1, g2] using
            ih ⟨moveOn d wf (some s), moveOn d wb none, ws + nf, wt, _⟩ ⟨moveOn d vf (some s), moveOn d vb none, ws + nf, wt, _⟩
              hf' (Rel.move d k _ _ none (by simp) hb) rfl rfl rfl
        | some t =>
          obtain ⟨_, h1, h2⟩ | ⟨h0, n, h1, h2⟩ := Rel.surf d k hk wb vb t (l2 t rfl) hb
          · simp [corrLoop, walkLoop, corrFw, corrBw, stepFw, stepBw, g1, g2, h1, h2]
          · simpa [corrLoop, walkLoop, corrFw, corrBw, stepFw, stepBw, g1, g2, h1, h2] using
              ih ⟨moveOn d wf (some s), moveOn d wb (some t), ws + nf, wt - nb, _⟩ ⟨moveOn d vf (some s), moveOn d vb (some t), ws + nf, wt - nb, _⟩
                hf' (Rel.move d k _ _ (some t) (by rintro _ ⟨⟩; exact ⟨l2 t rfl, h0⟩) hb) rfl rfl rfl

/-- C133: the two workers of the MoC sweeps tally the same currents. -/
theorem C133_currents (d : Dims) (k : Nat) (hk : k < d.nz) (wx wy : K) (psi1 psi2 : Int → K) (ray : CoarseRay) (hr : PlaneRay d ray) (cur : Nat → K) :
    corrRay d k wx wy psi1 psi2 ray cur = postRay d k wx wy psi1 psi2 ray cur := by
  obtain ⟨⟨c, s, hc, hs, h1, h2⟩, ⟨c', s', hc', hs', h1', h2'⟩, hd⟩ := hr
  have e1 : weightAt d wx wy ray.surfFw = weightAt d wx wy (ray.surfFw + nSurfPlane d * k) := by
    rw [normal_surf d 0 (by omega) c s hs hc _ h2, normal_surf d k hk c s hs hc _ (surf_shift d k hk c s hs hc _ h2)]
  have e2 : weightAt d wx wy ray.surfBw = weightAt d wx wy (ray.surfBw + nSurfPlane d * k) := by
    rw [normal_surf d 0 (by omega) c' s' hs' hc' _ h2', normal_surf d k hk c' s' hs' hc' _ (surf_shift d k hk c' s' hs' hc' _ h2')]
  have := corrLoop_eq d k hk wx wy psi1 psi2 ray.data
    ⟨ray.cellFw, ray.cellBw, 0, ray.nseg, addAt (addAt cur (ray.surfFw + nSurfPlane d * k) (psi1 0 * weightAt d wx wy (ray.surfFw + nSurfPlane d * k)))
      (ray.surfBw + nSurfPlane d * k) (-(psi2 ray.nseg * weightAt d wx wy (ray.surfBw + nSurfPlane d * k)))⟩
    ⟨(ray.cellFw + d.nx * d.ny * k : Nat), (ray.cellBw + d.nx * d.ny * k : Nat), 0, ray.nseg, _⟩ hd
    (Or.inr ⟨c, hc, by rw [h1], by rw [cell_shift d k c, h1]⟩) (Or.inr ⟨c', hc', by rw [h1'], by rw [cell_shift d k c', h1']⟩) rfl rfl rfl
  simp only [corrRay, postRay, e1, e2]
  simpa [Option.map_eq_bind, Function.comp_def] using this

/-- Component of the direction along the normal of a surface. -/
def along (d : Dims) (ox oy : K) (m : Nat) : K := if surfaceNormal d m = .X then ox else oy

theorem weight_along (d : Dims) (k : Nat) (hk : k < d.nz) (c : Nat × Nat) (s : Surface) (hs : Lateral s) (hc : c.1 < d.nx ∧ c.2 < d.ny) (n : Nat)
    (hn : coarseSurf d (cellNo d k c) s = some n) (ox oy fx fy : K) : weightOf (ox * fx) (oy * fy) s = along d ox oy n * weightOf fx fy s := by
  have h := normal_surf d k hk c s hs hc n hn ox oy
  have : along d ox oy n = weightOf ox oy s := h
  rw [this]
  rcases hs with rfl | rfl | rfl | rfl <;> rfl

/-- A cell of plane `k`, or none. -/
def InMesh (d : Dims) (k : Nat) (x : Int) : Prop := x < 0 ∨ ∃ c : Nat × Nat, (c.1 < d.nx ∧ c.2 < d.ny) ∧ x = cellNo d k c

theorem InMesh.surf (d : Dims) (k : Nat) (x : Int) (t : Surface) (ht : Lateral t) (h : InMesh d k x) (n : Nat) (hn : surfOf d x t = some n) :
    ∃ c : Nat × Nat, (c.1 < d.nx ∧ c.2 < d.ny) ∧ x = cellNo d k c ∧ coarseSurf d (cellNo d k c) t = some n ∧ InMesh d k (moveOn d x (some t)) := by
  obtain h | ⟨c, hc, rfl⟩ := h
  · simp [surfOf, h] at hn
  · refine ⟨c, hc, rfl, by simpa [surfOf] using hn, ?_⟩
    simp only [moveOn, Int.toNat_natCast, neighbor_eq d _ c t ht hc]
    cases hb : beside d.nx d.ny c t with
    | none => exact Or.inl (show (-1 : Int) < 0 by decide)
    | some c' => exact Or.inr ⟨c', beside_in _ _ c c' t hc hb, rfl⟩

theorem addAt_at (cur : Nat → K) (i : Nat) (v : K) (j : Nat) : addAt cur i v j = cur j + if j = i then v else 0 := by
  unfold addAt; split <;> simp

/-- The walk with both directions, and with each of them alone. -/
theorem loop_split (d : Dims) (k : Nat) (hk : k < d.nz) (ox oy fx fy e : K) (psi1 psi2 : Int → K) : ∀ (data : List Rcd) (u v w : Walker K) (u' : Walker K),
    (∀ r ∈ data, (∀ s, r.fw = some s → Lateral s) ∧ ∀ s, r.bw = some s → Lateral s) →
    InMesh d k u.cellFw → InMesh d k u.cellBw → v.cellFw = u.cellFw → w.cellFw = u.cellFw → v.cellBw = u.cellBw → w.cellBw = u.cellBw →
    v.segFw = u.segFw → w.segFw = u.segFw → v.segBw = u.segBw → w.segBw = u.segBw →
    walkLoop d fx fy psi1 (fun n => e * psi2 n) data u = some u' →
    ∃ v' w', walkLoop d (ox * fx) (oy * fy) psi1 (fun _ => 0) data v = some v' ∧ walkLoop d (ox * fx) (oy * fy) (fun _ => 0) psi2 data w = some w' ∧
      ∀ m, along d ox oy m * (u'.cur m - u.cur m) = (v'.cur m - v.cur m) + e * (w'.cur m - w.cur m)
  | [], u, v, w, u', _, _, _, _, _, _, _, _, _, _, _, h => by
    simp only [walkLoop, Option.some.injEq] at h
    subst h
    exact ⟨v, w, rfl, rfl, by simp⟩
  | r :: rest, u, v, w, u', hd, if_, ib, a1, a2, a3, a4, a5, a6, a7, a8, h => by
    obtain ⟨fw, bw, nf, nb⟩ := r
    obtain ⟨uf, ub, us, ut, uc⟩ := u
    obtain ⟨vf, vb, vs, vt, vc⟩ := v
    obtain ⟨wf, wb, ws, wt, wc⟩ := w
    obtain ⟨l1, l2⟩ := hd _ (List.mem_cons_self ..)
    simp only at a1 a2 a3 a4 a5 a6 a7 a8 if_ ib l1 l2
    subst a1 a2 a3 a4 a5 a6 a7 a8
    have ih := fun u v w => loop_split d k hk ox oy fx fy e psi1 psi2 rest u v w u' (fun r hr => hd r (List.mem_cons_of_mem _ hr))
    cases fw with
    | none =>
      cases bw with
      | none =>
        simp only [walkLoop, stepFw, stepBw, Option.bind_eq_bind, Option.bind_some] at h ⊢
        exact ih ⟨moveOn d wf none, moveOn d wb none, ws, wt, uc⟩
            ⟨moveOn d wf none, moveOn d wb none, ws, wt, vc⟩ ⟨moveOn d wf none, moveOn d wb none, ws, wt, wc⟩ (Or.inl (show (-5 : Int) < 0 by decide)) (Or.inl (show (-5 : Int) < 0 by decide)) rfl rfl rfl rfl rfl rfl rfl rfl h
      | some t =>
        cases hn : surfOf d wb t with
        | none => simp [walkLoop, stepFw, stepBw, hn] at h
        | some n =>
          obtain ⟨c, hc, hx, hcs, hin⟩ := InMesh.surf d k wb t (l2 t rfl) ib n hn
          have hw := weight_along d k hk c t (l2 t rfl) hc n hcs ox oy fx fy
          simp only [walkLoop, stepFw, stepBw, Option.bind_eq_bind, Option.bind_some, hn, Option.pure_def] at h ⊢
          obtain ⟨v', w', e1, e2, e3⟩ := ih ⟨moveOn d wf none, moveOn d wb (some t), ws, wt - nb, addAt uc n (-(e * psi2 (wt - nb) * weightOf fx fy t))⟩
            ⟨moveOn d wf none, moveOn d wb (some t), ws, wt - nb, addAt vc n (-(0 * weightOf (ox * fx) (oy * fy) t))⟩
            ⟨moveOn d wf none, moveOn d wb (some t), ws, wt - nb, addAt wc n (-(psi2 (wt - nb) * weightOf (ox * fx) (oy * fy) t))⟩ (Or.inl (show (-5 : Int) < 0 by decide)) hin rfl rfl rfl rfl rfl rfl rfl rfl h
          refine ⟨v', w', e1, e2, fun m => ?_⟩
          have := e3 m
          simp only [addAt_at, zero_mul, neg_zero, hw] at this ⊢
          split_ifs at this with hm
          · subst hm; linear_combination this
          · linear_combination this
    | some s =>
      cases hm : surfOf d wf s with
      | none => simp [walkLoop, stepFw, hm] at h
      | some m0 =>
        obtain ⟨c, hc, hx, hcs, hin⟩ := InMesh.surf d k wf s (l1 s rfl) if_ m0 hm
        have hw := weight_along d k hk c s (l1 s rfl) hc m0 hcs ox oy fx fy
        cases bw with
        | none =>
          simp only [walkLoop, stepFw, stepBw, Option.bind_eq_bind, Option.bind_some, hm, Option.pure_def] at h ⊢
          obtain ⟨v', w', e1, e2, e3⟩ := ih ⟨moveOn d wf (some s), moveOn d wb none, ws + nf, wt, addAt uc m0 (psi1 (ws + nf) * weightOf fx fy s)⟩
            ⟨moveOn d wf (some s), moveOn d wb none, ws + nf, wt, addAt vc m0 (psi1 (ws + nf) * weightOf (ox * fx) (oy * fy) s)⟩
            ⟨moveOn d wf (some s), moveOn d wb none, ws + nf, wt, addAt wc m0 (0 * weightOf (ox * fx) (oy * fy) s)⟩ hin (Or.inl (show (-5 : Int) < 0 by decide)) rfl rfl rfl rfl rfl rfl rfl rfl h
          refine ⟨v', w', e1, e2, fun m => ?_⟩
          have := e3 m
          simp only [addAt_at, zero_mul, neg_zero, hw] at this ⊢
          split_ifs at this with hm
          · subst hm; linear_combination this
          · linear_combination this
        | some t =>
          cases hn : surfOf d wb t with
          | none => simp [walkLoop, stepFw, stepBw, hm, hn] at h
          | some n =>
            obtain ⟨c2, hc2, hx2, hcs2, hin2⟩ := InMesh.surf d k wb t (l2 t rfl) ib n hn
            have hw2 := weight_along d k hk c2 t (l2 t rfl) hc2 n hcs2 ox oy fx fy
            simp only [walkLoop, stepFw, stepBw, Option.bind_eq_bind, Option.bind_some, hm, hn, Option.pure_def] at h ⊢
            obtain ⟨v', w', e1, e2, e3⟩ := ih ⟨moveOn d wf (some s), moveOn d wb (some t), ws + nf, wt - nb, addAt (addAt uc m0 (psi1 (ws + nf) * weightOf fx fy s)) n (-(e * psi2 (wt - nb) * weightOf fx fy t))⟩
              ⟨moveOn d wf (some s), moveOn d wb (some t), ws + nf, wt - nb, addAt (addAt vc m0 (psi1 (ws + nf) * weightOf (ox * fx) (oy * fy) s)) n (-(0 * weightOf (ox * fx) (oy * fy) t))⟩
              ⟨moveOn d wf (some s), moveOn d wb (some t), ws + nf, wt - nb, addAt (addAt wc m0 (0 * weightOf (ox * fx) (oy * fy) s)) n (-(psi2 (wt - nb) * weightOf (ox * fx) (oy * fy) t))⟩ hin hin2 rfl rfl rfl rfl rfl rfl rfl rfl h
            refine ⟨v', w', e1, e2, fun m => ?_⟩
            have := e3 m
            simp only [addAt_at, zero_mul, neg_zero, hw, hw2] at this ⊢
            clear e1 e2 e3 h ih hn hm
            by_cases q1 : m = m0
            · subst q1
              by_cases q2 : m = n
              · subst q2
                simp only [if_true] at this ⊢
                linear_combination this
              · simp only [q2, if_true, if_false] at this ⊢
                linear_combination this
            · by_cases q2 : m = n
              · subst q2
                simp only [q1, if_true, if_false] at this ⊢
                linear_combination this
              · simp only [q1, q2, if_false] at this ⊢
                linear_combination this

theorem fluxLoop_eq (d : Dims) (fx fy : K) (psi1 psi2 : Int → K) : ∀ (data : List Rcd) (w : Walker K),
    fluxLoop d fx fy psi1 psi2 data w = walkLoop d fx fy psi1 (fun n => -1 * psi2 n) data w
  | [], _ => rfl
  | r :: rest, w => by
    have ih := fluxLoop_eq d fx fy psi1 psi2 rest
    simp only [fluxLoop, walkLoop, ih]
    have h1 : fluxFw d fx fy psi1 r w = stepFw d fx fy psi1 r w := rfl
    have h2 : ∀ w, fluxBw d fx fy psi2 r w = stepBw d fx fy (fun n => -1 * psi2 n) r w := by
      intro w
      unfold fluxBw stepBw
      cases r.bw with
      | none => rfl
      | some s => simp
    simp only [h1, h2]

theorem ray_split (d : Dims) (k : Nat) (hk : k < d.nz) (ox oy fx fy e : K) (psi1 psi2 : Int → K) (ray : CoarseRay) (hr : PlaneRay d ray) (sf sf' : Nat → K)
    (h : postRay d k fx fy psi1 (fun n => e * psi2 n) ray sf = some sf') :
    ∃ jf jb, postRay d k (ox * fx) (oy * fy) psi1 (fun _ => 0) ray (fun _ => 0) = some jf ∧
      postRay d k (ox * fx) (oy * fy) (fun _ => 0) psi2 ray (fun _ => 0) = some jb ∧
      ∀ m, along d ox oy m * (sf' m - sf m) = jf m + e * jb m := by
  obtain ⟨⟨c, s, hc, hs, h1, h2⟩, ⟨c', s', hc', hs', h1', h2'⟩, hd⟩ := hr
  have w1 : ∀ a b : K, weightAt d a b (ray.surfFw + nSurfPlane d * k) = weightOf a b s := normal_surf d k hk c s hs hc _ (surf_shift d k hk c s hs hc _ h2)
  have w2 : ∀ a b : K, weightAt d a b (ray.surfBw + nSurfPlane d * k) = weightOf a b s' :=
    normal_surf d k hk c' s' hs' hc' _ (surf_shift d k hk c' s' hs' hc' _ h2')
  have q1 := weight_along d k hk c s hs hc _ (surf_shift d k hk c s hs hc _ h2) ox oy fx fy
  have q2 := weight_along d k hk c' s' hs' hc' _ (surf_shift d k hk c' s' hs' hc' _ h2') ox oy fx fy
  simp only [postRay, Option.bind_eq_bind, Option.pure_def, Option.bind_eq_some_iff, Option.some.injEq] at h
  obtain ⟨u', hu, rfl⟩ := h
  obtain ⟨v', w', e1, e2, e3⟩ := loop_split d k hk ox oy fx fy e psi1 psi2 ray.data
    ⟨(ray.cellFw + d.nx * d.ny * k : Nat), (ray.cellBw + d.nx * d.ny * k : Nat), 0, ray.nseg,
      addAt (addAt sf (ray.surfFw + nSurfPlane d * k) (psi1 0 * weightAt d fx fy (ray.surfFw + nSurfPlane d * k)))
        (ray.surfBw + nSurfPlane d * k) (-(e * psi2 ray.nseg * weightAt d fx fy (ray.surfBw + nSurfPlane d * k)))⟩
    ⟨(ray.cellFw + d.nx * d.ny * k : Nat), (ray.cellBw + d.nx * d.ny * k : Nat), 0, ray.nseg,
      addAt (addAt (fun _ => 0) (ray.surfFw + nSurfPlane d * k) (psi1 0 * weightAt d (ox * fx) (oy * fy) (ray.surfFw + nSurfPlane d * k)))
        (ray.surfBw + nSurfPlane d * k) (-(0 * weightAt d (ox * fx) (oy * fy) (ray.surfBw + nSurfPlane d * k)))⟩
    ⟨(ray.cellFw + d.nx * d.ny * k : Nat), (ray.cellBw + d.nx * d.ny * k : Nat), 0, ray.nseg,
      addAt (addAt (fun _ => 0) (ray.surfFw + nSurfPlane d * k) (0 * weightAt d (ox * fx) (oy * fy) (ray.surfFw + nSurfPlane d * k)))
        (ray.surfBw + nSurfPlane d * k) (-(psi2 ray.nseg * weightAt d (ox * fx) (oy * fy) (ray.surfBw + nSurfPlane d * k)))⟩ u' hd
    (Or.inr ⟨c, hc, by rw [cell_shift d k c, h1]⟩) (Or.inr ⟨c', hc', by rw [cell_shift d k c', h1']⟩) rfl rfl rfl rfl rfl rfl rfl rfl hu
  refine ⟨v'.cur, w'.cur, ?_, ?_, fun m => ?_⟩
  · simp only [postRay, Option.bind_eq_bind, Option.pure_def, e1, Option.bind_some]
  · simp only [postRay, Option.bind_eq_bind, Option.pure_def, e2, Option.bind_some]
  · have := e3 m
    simp only [addAt_at, w1, w2, zero_mul, neg_zero, q1, q2] at this ⊢
    clear e1 e2 e3 hu w1 w2
    generalize ray.surfFw + nSurfPlane d * k = A at *
    generalize ray.surfBw + nSurfPlane d * k = B at *
    by_cases p1 : m = A
    · subst p1
      by_cases p2 : m = B
      · subst p2
        simp only [if_true] at this ⊢
        linear_combination this
      · simp only [p2, if_true, if_false] at this ⊢
        linear_combination this
    · by_cases p2 : m = B
      · subst p2
        simp only [p1, if_true, if_false] at this ⊢
        linear_combination this
      · simp only [p1, p2, if_false] at this ⊢
        linear_combination this

/-- C133: the worker `Current`: what a ray adds to the surface fluxes, times the component of its direction, is the current of the forward direction
minus that of the backward one, which runs the other way: each direction adds its angular flux to every surface to whose current it contributes.  The
weights are those of `set_angle`. -/
theorem C133_moc (d : Dims) (k : Nat) (hk : k < d.nz) (pi weight ox oy spacing cosA sinA dz : K) (psi1 psi2 : Int → K) (ray : CoarseRay)
    (hr : PlaneRay d ray) (sf sf' : Nat → K)
    (h : fluxRay d k (fluxWeights pi weight spacing cosA sinA dz).1 (fluxWeights pi weight spacing cosA sinA dz).2 psi1 psi2 ray sf = some sf') :
    let cw := currentWeights pi weight ox oy spacing cosA sinA dz
    ∃ jf jb, postRay d k cw.1 cw.2 psi1 (fun _ => 0) ray (fun _ => 0) = some jf ∧ postRay d k cw.1 cw.2 (fun _ => 0) psi2 ray (fun _ => 0) = some jb ∧
      ∀ m, along d ox oy m * (sf' m - sf m) = jf m - jb m := by
  intro cw
  have c1 : cw.1 = ox * (fluxWeights pi weight spacing cosA sinA dz).1 := by simp only [cw, currentWeights, fluxWeights]; ring
  have c2 : cw.2 = oy * (fluxWeights pi weight spacing cosA sinA dz).2 := by simp only [cw, currentWeights, fluxWeights]; ring
  rw [c1, c2]
  have hp : postRay d k (fluxWeights pi weight spacing cosA sinA dz).1 (fluxWeights pi weight spacing cosA sinA dz).2 psi1 (fun n => -1 * psi2 n) ray sf = some sf' := by
    rw [← h]
    simp only [postRay, fluxRay, fluxLoop_eq]
    simp
  obtain ⟨jf, jb, e1, e2, e3⟩ := ray_split d k hk ox oy _ _ (-1) psi1 psi2 ray hr sf sf' hp
  exact ⟨jf, jb, e1, e2, fun m => by rw [e3 m]; ring⟩

/-- C133 for the two workers of the MoC sweeps: they tally the same surface fluxes. -/
def C133_moc_claim : Prop := ∀ (d : Dims) (k : Nat) (fx fy : ℚ) (psi1 psi2 : Int → ℚ) (ray : CoarseRay) (sf : Nat → ℚ), k < d.nz → PlaneRay d ray →
  corrRay d k fx fy psi1 psi2 ray sf = fluxRay d k fx fy psi1 psi2 ray sf

/-- What `CurrentCorrections` does: the currents of the two directions are added, that is, its surface flux is the net current divided by the component
of the direction. -/
theorem C133_corr_partial (d : Dims) (k : Nat) (hk : k < d.nz) (pi weight ox oy spacing cosA sinA dz : K) (psi1 psi2 : Int → K) (ray : CoarseRay)
    (hr : PlaneRay d ray) (sf sf' : Nat → K)
    (h : corrRay d k (fluxWeights pi weight spacing cosA sinA dz).1 (fluxWeights pi weight spacing cosA sinA dz).2 psi1 psi2 ray sf = some sf') :
    let cw := currentWeights pi weight ox oy spacing cosA sinA dz
    ∃ jf jb, postRay d k cw.1 cw.2 psi1 (fun _ => 0) ray (fun _ => 0) = some jf ∧ postRay d k cw.1 cw.2 (fun _ => 0) psi2 ray (fun _ => 0) = some jb ∧
      ∀ m, along d ox oy m * (sf' m - sf m) = jf m + jb m := by
  intro cw
  have c1 : cw.1 = ox * (fluxWeights pi weight spacing cosA sinA dz).1 := by simp only [cw, currentWeights, fluxWeights]; ring
  have c2 : cw.2 = oy * (fluxWeights pi weight spacing cosA sinA dz).2 := by simp only [cw, currentWeights, fluxWeights]; ring
  rw [c1, c2]
  have hp : postRay d k (fluxWeights pi weight spacing cosA sinA dz).1 (fluxWeights pi weight spacing cosA sinA dz).2 psi1 (fun n => 1 * psi2 n) ray sf = some sf' := by
    rw [← h, C133_currents d k hk _ _ _ _ ray hr]
    simp
  obtain ⟨jf, jb, e1, e2, e3⟩ := ray_split d k hk ox oy _ _ 1 psi1 psi2 ray hr sf sf' hp
  exact ⟨jf, jb, e1, e2, fun m => by rw [e3 m]; ring⟩

/-- One cell, a ray of one segment from its west to its east side. -/
def oneCell : Dims := ⟨1, 1, 1⟩

def across : CoarseRay := ⟨0, 0, 1, 2, 1, [⟨some .EAST, some .WEST, 1, 1⟩]⟩

theorem across_ok : PlaneRay oneCell across :=
  ⟨⟨(0, 0), .WEST, by decide, Or.inr (Or.inr (Or.inl rfl)), by decide, by decide⟩, ⟨(0, 0), .EAST, by decide, Or.inl rfl, by decide, by decide⟩, by
    intro r hr
    simp only [across, List.mem_singleton] at hr
    subst hr
    exact ⟨fun s h => by simp at h; subst h; exact Or.inl rfl, fun s h => by simp at h; subst h; exact Or.inr (Or.inr (Or.inl rfl))⟩⟩

/-- With the angular flux one everywhere in both directions: `Current` counts both of them at the two surfaces, `CurrentCorrections` has zero. -/
theorem across_flat : (fluxRay oneCell 0 1 1 (fun _ => (1 : ℚ)) (fun _ => 1) across (fun _ => 0)).map (fun f => (f 1, f 2)) = some (2, 2) ∧
    (corrRay oneCell 0 1 1 (fun _ => (1 : ℚ)) (fun _ => 1) across (fun _ => 0)).map (fun f => (f 1, f 2)) = some (0, 0) := by
  constructor <;> decide +kernel

/-- A field that is not flat: the currents of the two workers, and their surface fluxes. -/
example : (corrRay oneCell 0 1 1 (fun n => if n = 0 then (3 : ℚ) else 2) (fun n => if n = 1 then 5 else 4) across (fun _ => 0)).map (fun f => (f 1, f 2)) =
      some (-1, -3) ∧
    (postRay oneCell 0 1 1 (fun n => if n = 0 then (3 : ℚ) else 2) (fun n => if n = 1 then 5 else 4) across (fun _ => 0)).map (fun f => (f 1, f 2)) =
      some (-1, -3) ∧
    (fluxRay oneCell 0 1 1 (fun n => if n = 0 then (3 : ℚ) else 2) (fun n => if n = 1 then 5 else 4) across (fun _ => 0)).map (fun f => (f 1, f 2)) =
      some (7, 7) := by
  refine ⟨?_, ?_, ?_⟩ <;> decide +kernel

example (sf' : Nat → ℚ) (h : corrRay oneCell 0 (fluxWeights 3 1 1 1 1 1).1 (fluxWeights (3 : ℚ) 1 1 1 1 1).2 (fun _ => 1) (fun _ => 1) across (fun _ => 0) = some sf') :=
  C133_corr_partial oneCell 0 (by decide) 3 1 (1 / 2) (1 / 2) 1 1 1 1 _ _ across across_ok _ sf' h

theorem C133_moc_claim_false : ¬ C133_moc_claim := by
  intro h
  have := h oneCell 0 1 1 (fun _ => 1) (fun _ => 1) across (fun _ => 0) (by decide) across_ok
  have h2 := across_flat
  rw [this] at h2
  rw [h2.1] at h2
  exact absurd h2.2 (by decide +kernel)

/-! ## Sn -/

/-- A direction with components of size one and the same signs. -/
def signs (a : Ray3 K) : Ray3 K := ⟨if 0 < a.ox then 1 else -1, if 0 < a.oy then 1 else -1, if 0 < a.oz then 1 else -1, 1⟩

def signAt (a : Ray3 K) : Ax3 → K
  | .x => (signs a).ox
  | .y => (signs a).oy
  | .z => (signs a).oz

/-- No component is zero. -/
def Oblique (a : Ray3 K) : Prop := a.ox ≠ 0 ∧ a.oy ≠ 0 ∧ a.oz ≠ 0

variable [IsStrictOrderedRing K]

theorem signs_neg (a : K) (h : a ≠ 0) : ((if 0 < a then (1 : K) else -1) < 0 ↔ a < 0) ∧ (0 < (if 0 < a then (1 : K) else -1) ↔ 0 < a) := by
  rcases lt_or_gt_of_ne h with h | h
  · simp [h, not_lt.mpr h.le]
  · simp [h, not_lt.mpr h.le]

theorem signAt_sq (a : Ray3 K) (x : Ax3) : signAt a x * signAt a x = 1 := by
  cases x <;> simp only [signAt, signs] <;> split <;> ring

/-- The surface flux is tallied like the current of the direction with components of size one. -/
theorem sweepFlux_eq (d : Dims) (a : Ray3 K) (ha : Oblique a) (b : Ax3 → Nat → K) (out : Nat → K × (Ax3 → K)) (sf : Nat → K) :
    sweepFlux d a b out sf = sweepCurrent d 1 (signs a) (fun x e => signAt a x * b x e) (fun i => ((out i).1, fun x => signAt a x * (out i).2 x)) sf := by
  obtain ⟨h1, h2, h3⟩ := ha
  have n1 : ((signs a).ox < 0) = (a.ox < 0) := propext (signs_neg a.ox h1).1
  have n2 : ((signs a).oy < 0) = (a.oy < 0) := propext (signs_neg a.oy h2).1
  have n3 : ((signs a).oz < 0) = (a.oz < 0) := propext (signs_neg a.oz h3).1
  have u : ∀ x, upwindSurf (signs a) x = upwindSurf a x := by
    intro x
    cases x <;> simp only [upwindSurf]
    · simp only [(signs_neg a.ox h1).2, signs]
    · simp only [(signs_neg a.oy h2).2, signs]
    · simp only [(signs_neg a.oz h3).2, signs]
  have w : ∀ x, downwind (signs a) x = downwind a x := by
    intro x
    cases x <;> simp only [downwind]
    · simp only [(signs_neg a.ox h1).2, signs]
    · simp only [(signs_neg a.oy h2).2, signs]
    · simp only [(signs_neg a.oz h3).2, signs]
  have q : (signs a).weight = 1 := rfl
  have k1 : ∀ v : K, (signs a).ox * (signAt a .x * v) = v := fun v => by rw [← mul_assoc]; exact (congrArg (· * v) (signAt_sq a .x)).trans (one_mul v)
  have k2 : ∀ v : K, (signs a).oy * (signAt a .y * v) = v := fun v => by rw [← mul_assoc]; exact (congrArg (· * v) (signAt_sq a .y)).trans (one_mul v)
  have k3 : ∀ v : K, (signs a).oz * (signAt a .z * v) = v := fun v => by rw [← mul_assoc]; exact (congrArg (· * v) (signAt_sq a .z)).trans (one_mul v)
  have j1 : ∀ v : K, signAt a .x * v * (signs a).ox = v := fun v => by rw [mul_comm]; exact k1 v
  have j2 : ∀ v : K, signAt a .y * v * (signs a).oy = v := fun v => by rw [mul_comm]; exact k2 v
  have j3 : ∀ v : K, signAt a .z * v * (signs a).oz = v := fun v => by rw [mul_comm]; exact k3 v
  unfold sweepFlux sweepCurrent upwindFlux upwindWork currentFlux currentWork
  simp only [n1, n2, n3, u, w, q, mul_one, k1, k2, k3, j1, j2, j3]

/-- The angular flux of an ordinate at a face of a cell, if those at the faces where it enters the cell are `inc`, and where it leaves, `out`. -/
def atFace (a : Ray3 K) (inc out : Ax3 → K) : Surface → K
  | .EAST => if a.ox < 0 then inc .x else out .x
  | .WEST => if a.ox < 0 then out .x else inc .x
  | .NORTH => if a.oy < 0 then inc .y else out .y
  | .SOUTH => if a.oy < 0 then out .y else inc .y
  | .TOP => if a.oz < 0 then inc .z else out .z
  | .BOTTOM => if a.oz < 0 then out .z else inc .z
  | .INTERNAL => 0

/-- What C133 wants of an ordinate: the surface flux of each face of each cell grows by weight times angular flux. -/
def C133_sn_claim : Prop := ∀ (d : Dims) (hpi : ℚ) (a : Ray3 ℚ) (ev : Nat → Nat → Nat → (Ax3 → ℚ) → ℚ × (Ax3 → ℚ)) (s0 : State Ax3 ℚ) (sf : Nat → ℚ)
  (ix iy iz : Nat) (s : Surface) (n : Nat), Oblique a → ix < d.nx → iy < d.ny → iz < d.nz → s ≠ .INTERNAL → coarseSurf d (coarseCell d ⟨ix, iy, iz⟩) s = some n →
  let r := sweep3 d (a.ox < 0) (a.oy < 0) (a.oz < 0) (a.weight * hpi) ev s0
  sweepFlux d a s0.flux r.out sf n = sf n + a.weight * hpi *
    atFace a (incoming3 d (a.ox < 0) (a.oy < 0) (a.oz < 0) s0.flux r.out ix iy iz) (r.out (coarseCell d ⟨ix, iy, iz⟩)).2 s

/-- What is done: the angular flux is added without weight. -/
theorem C133_sn_partial (d : Dims) (a : Ray3 K) (ha : Oblique a) (wgt : K) (ev : Nat → Nat → Nat → (Ax3 → K) → K × (Ax3 → K)) (s0 : State Ax3 K)
    (sf : Nat → K) (ix iy iz : Nat) (hx : ix < d.nx) (hy : iy < d.ny) (hz : iz < d.nz) (s : Surface) (hs : s ≠ .INTERNAL) (n : Nat)
    (hn : coarseSurf d (coarseCell d ⟨ix, iy, iz⟩) s = some n) :
    let r := sweep3 d (a.ox < 0) (a.oy < 0) (a.oz < 0) wgt ev s0
    sweepFlux d a s0.flux r.out sf n = sf n +
      atFace a (incoming3 d (a.ox < 0) (a.oy < 0) (a.oz < 0) s0.flux r.out ix iy iz) (r.out (coarseCell d ⟨ix, iy, iz⟩)).2 s := by
  intro r
  have key : ∀ f : Face, f.Valid d.nx d.ny d.nz → sweepFlux d a s0.flux r.out sf (enc d f) = sf (enc d f) + psiFace d a s0.flux r.out f := by
    intro f hf
    rw [sweepFlux_eq d a ha, sweepCurrent_face d (by omega) (by omega) (by omega) 1 _ _ _ sf f hf]
    have n1 : ((signs a).ox < 0) = (a.ox < 0) := propext (signs_neg a.ox ha.1).1
    have n2 : ((signs a).oy < 0) = (a.oy < 0) := propext (signs_neg a.oy ha.2.1).1
    have n3 : ((signs a).oz < 0) = (a.oz < 0) := propext (signs_neg a.oz ha.2.2).1
    have e : comp (signs a) f.axis * psiFace d (signs a) (fun x e => signAt a x * s0.flux x e)
        (fun i => ((r.out i).1, fun x => signAt a x * (r.out i).2 x)) f = psiFace d a s0.flux r.out f := by
      obtain ⟨ax, i, j, k⟩ := f
      cases ax
      · have : comp (signs a) .x = signAt a .x := rfl
        simp only [this, psiFace, n1]
        split_ifs <;> rw [← mul_assoc, signAt_sq, one_mul]
      · have : comp (signs a) .y = signAt a .y := rfl
        simp only [this, psiFace, n2]
        split_ifs <;> rw [← mul_assoc, signAt_sq, one_mul]
      · have : comp (signs a) .z = signAt a .z := rfl
        simp only [this, psiFace, n3]
        split_ifs <;> rw [← mul_assoc, signAt_sq, one_mul]
    have q : (signs a).weight * 1 = 1 := by simp [signs]
    rw [q, one_mul, e]
  obtain ⟨f, hf⟩ : ∃ f, faceOf ix iy iz s = some f := by cases s <;> simp [faceOf] at hs ⊢
  have hv := faceOf_valid d ix iy iz s f hf hx hy hz
  rw [coarseSurf_enc d ix iy iz s f hf hx hy hz] at hn
  rw [← Option.some.inj hn, key f hv]
  congr 1
  cases s <;> simp only [faceOf, Option.some.injEq, reduceCtorEq] at hf <;> subst hf <;>
    simp only [psiFace, atFace, incoming3, upwind, decide_eq_true_eq]
  · by_cases h : a.ox < 0
    · simp only [h, if_true]
      by_cases h2 : ix + 1 = d.nx
      · simp [h2]
      · simp [h2, show ix + 1 < d.nx by omega]
    · simp [h]
  · by_cases h : a.oy < 0
    · simp only [h, if_true]
      by_cases h2 : iy + 1 = d.ny
      · simp [h2]
      · simp [h2, show iy + 1 < d.ny by omega]
    · simp [h]
  · by_cases h : a.ox < 0
    · simp [h, show ix ≠ d.nx by omega]
    · simp only [h, if_false]
      by_cases h2 : ix = 0
      · simp [h2]
      · simp [h2]
  · by_cases h : a.oy < 0
    · simp [h, show iy ≠ d.ny by omega]
    · simp only [h, if_false]
      by_cases h2 : iy = 0
      · simp [h2]
      · simp [h2]
  · by_cases h : a.oz < 0
    · simp only [h, if_true]
      by_cases h2 : iz + 1 = d.nz
      · simp [h2]
      · simp [h2, show iz + 1 < d.nz by omega]
    · simp [h]
  · by_cases h : a.oz < 0
    · simp [h, show iz ≠ d.nz by omega]
    · simp only [h, if_false]
      by_cases h2 : iz = 0
      · simp [h2]
      · simp [h2]

/-- The claim about an ordinate is false: one cell, an ordinate of weight two, angular flux one. -/
theorem C133_sn_claim_false : ¬ C133_sn_claim := by
  intro h
  have h1 := h oneCell 1 ⟨1, 1, 1, 2⟩ (fun _ _ _ f => (1, f)) ⟨fun _ _ => 1, fun _ => 0, fun _ => (0, fun _ => 0)⟩ (fun _ => 0) 0 0 0 .WEST 1
    (by simp [Oblique]) (by decide) (by decide) (by decide) (by decide) (by decide)
  have h2 := C133_sn_partial oneCell (⟨1, 1, 1, 2⟩ : Ray3 ℚ) (by simp [Oblique]) 2 (fun _ _ _ f => (1, f)) ⟨fun _ _ => 1, fun _ => 0, fun _ => (0, fun _ => 0)⟩
    (fun _ => 0) 0 0 0 (by decide) (by decide) (by decide) .WEST (by decide) 1 (by decide)
  simp only [mul_one] at h1 h2
  rw [h1] at h2
  norm_num [atFace, incoming3, upwind] at h2

/-- An ordinate in a medium where the angular flux is `c` everywhere: at the sides of the mesh, and the cell equations keep it. -/
structure FlatOrd (c : K) (o : Sweep3 K) : Prop where
  oblique : Oblique o.ray
  sides : ∀ x j, o.b x j = c
  cells : ∀ ix iy iz, o.ev ix iy iz (fun _ => c) = (c, fun _ => c)

theorem flat_out (d : Dims) (c : K) (o : Sweep3 K) (ho : FlatOrd c o) (wgt : K) (phi : Nat → K) (o0 : Nat → K × (Ax3 → K)) (ix iy iz : Nat) (hx : ix < d.nx)
    (hy : iy < d.ny) (hz : iz < d.nz) :
    let r := sweep3 d (o.ray.ox < 0) (o.ray.oy < 0) (o.ray.oz < 0) wgt o.ev ⟨o.b, phi, o0⟩
    r.out (coarseCell d ⟨ix, iy, iz⟩) = (c, fun _ => c) ∧
      ∀ x, incoming3 d (o.ray.ox < 0) (o.ray.oy < 0) (o.ray.oz < 0) o.b r.out ix iy iz x = c := by
  intro r
  have inc : ∀ N ix iy iz, ix < d.nx → iy < d.ny → iz < d.nz →
      Medium.depth d.nx (o.ray.ox < 0) ix + Medium.depth d.ny (o.ray.oy < 0) iy + Medium.depth d.nz (o.ray.oz < 0) iz = N →
      (∀ x, incoming3 d (o.ray.ox < 0) (o.ray.oy < 0) (o.ray.oz < 0) o.b r.out ix iy iz x = c) ∧ r.out (coarseCell d ⟨ix, iy, iz⟩) = (c, fun _ => c) := by
    intro N
    induction N using Nat.strong_induction_on with
    | _ N ih =>
      intro ix iy iz hx hy hz hN
      have hin : ∀ x, incoming3 d (o.ray.ox < 0) (o.ray.oy < 0) (o.ray.oz < 0) o.b r.out ix iy iz x = c := by
        intro x
        cases x
        · simp only [incoming3]
          split
          · exact ho.sides _ _
          · next j hj =>
            obtain ⟨l1, l2⟩ := Medium.depth_up _ _ _ _ hx hj
            rw [(ih _ (by omega) j iy iz l1 hy hz rfl).2]
        · simp only [incoming3]
          split
          · exact ho.sides _ _
          · next j hj =>
            obtain ⟨l1, l2⟩ := Medium.depth_up _ _ _ _ hy hj
            rw [(ih _ (by omega) ix j iz hx l1 hz rfl).2]
        · simp only [incoming3]
          split
          · exact ho.sides _ _
          · next j hj =>
            obtain ⟨l1, l2⟩ := Medium.depth_up _ _ _ _ hz hj
            rw [(ih _ (by omega) ix iy j hx hy l1 rfl).2]
      refine ⟨hin, ?_⟩
      rw [(C30_upwind d (o.ray.ox < 0) (o.ray.oy < 0) (o.ray.oz < 0) wgt o.ev ⟨o.b, phi, o0⟩ ix iy iz hx hy hz).1]
      have : incoming3 d (o.ray.ox < 0) (o.ray.oy < 0) (o.ray.oz < 0) o.b r.out ix iy iz = fun _ => c := funext hin
      exact (congrArg _ this).trans (ho.cells ix iy iz)
  obtain ⟨h1, h2⟩ := inc _ ix iy iz hx hy hz rfl
  exact ⟨h2, h1⟩

/-- C133 in a flat isotropic field: after a sweep the surface flux of every face is the scalar flux of the cell. -/
def C133_flat_claim : Prop := ∀ (d : Dims) (hpi c : ℚ) (os : List (Sweep3 ℚ)) (ix iy iz : Nat) (s : Surface) (n : Nat), 0 < c → (∀ o ∈ os, FlatOrd c o) →
  ix < d.nx → iy < d.ny → iz < d.nz → s ≠ .INTERNAL → coarseSurf d (coarseCell d ⟨ix, iy, iz⟩) s = some n →
  (sweepAllFlux d hpi os (fun _ => 0, fun _ => 0)).2 n = (sweepAllFlux d hpi os (fun _ => 0, fun _ => 0)).1 (coarseCell d ⟨ix, iy, iz⟩)

/-- What it is: the number of ordinates times the angular flux, where the scalar flux is the sum of the weights times the angular flux. -/
theorem C133_flat_partial (d : Dims) (hpi c : K) (ix iy iz : Nat) (s : Surface) (n : Nat) (hx : ix < d.nx) (hy : iy < d.ny) (hz : iz < d.nz)
    (hs : s ≠ .INTERNAL) (hn : coarseSurf d (coarseCell d ⟨ix, iy, iz⟩) s = some n) : ∀ (os : List (Sweep3 K)) (phi sf : Nat → K), (∀ o ∈ os, FlatOrd c o) →
    (sweepAllFlux d hpi os (phi, sf)).2 n = sf n + os.length * c ∧
    (sweepAllFlux d hpi os (phi, sf)).1 (coarseCell d ⟨ix, iy, iz⟩) = phi (coarseCell d ⟨ix, iy, iz⟩) + (os.map fun o => o.ray.weight * hpi).sum * c
  | [], phi, sf, _ => by simp [sweepAllFlux]
  | o :: rest, phi, sf, h => by
    have ho := h o (List.mem_cons_self ..)
    have ih := fun phi sf => C133_flat_partial d hpi c ix iy iz s n hx hy hz hs hn rest phi sf (fun o' h' => h o' (List.mem_cons_of_mem _ h'))
    obtain ⟨f1, f2⟩ := flat_out d c o ho (o.ray.weight * hpi) phi (fun _ => (0, fun _ => 0)) ix iy iz hx hy hz
    have f3 := C133_sn_partial d o.ray ho.oblique (o.ray.weight * hpi) o.ev ⟨o.b, phi, fun _ => (0, fun _ => 0)⟩ sf ix iy iz hx hy hz s hs n hn
    have f4 := (C30_upwind d (o.ray.ox < 0) (o.ray.oy < 0) (o.ray.oz < 0) (o.ray.weight * hpi) o.ev ⟨o.b, phi, fun _ => (0, fun _ => 0)⟩ ix iy iz hx hy hz).2
    simp only at f1 f2 f3 f4
    rw [f1] at f3 f4
    have f5 : sweepFlux d o.ray o.b (sweep3 d (o.ray.ox < 0) (o.ray.oy < 0) (o.ray.oz < 0) (o.ray.weight * hpi) o.ev ⟨o.b, phi, fun _ => (0, fun _ => 0)⟩).out sf n =
        sf n + c := by
      rw [f3]
      cases s <;> simp only [atFace, f2, ite_self] at hs ⊢
      exact absurd rfl hs
    simp only [sweepAllFlux, List.length_cons, List.map_cons, List.sum_cons]
    obtain ⟨g1, g2⟩ := ih (sweep3 d (o.ray.ox < 0) (o.ray.oy < 0) (o.ray.oz < 0) (o.ray.weight * hpi) o.ev ⟨o.b, phi, fun _ => (0, fun _ => 0)⟩).tflux
      (sweepFlux d o.ray o.b (sweep3 d (o.ray.ox < 0) (o.ray.oy < 0) (o.ray.oz < 0) (o.ray.weight * hpi) o.ev ⟨o.b, phi, fun _ => (0, fun _ => 0)⟩).out sf)
    rw [g1, g2, f5, f4]
    push_cast
    constructor <;> ring

/-- One ordinate in each octant, of weight one. -/
def eight : List (Sweep3 ℚ) :=
  ([(1, 1, 1), (-1, 1, 1), (-1, -1, 1), (1, -1, 1), (1, 1, -1), (-1, 1, -1), (-1, -1, -1), (1, -1, -1)] : List (ℚ × ℚ × ℚ)).map fun v =>
    ⟨⟨v.1, v.2.1, v.2.2, 1⟩, fun _ _ => 1, fun _ _ _ f => (f .x, f)⟩

theorem eight_flat : ∀ o ∈ eight, FlatOrd 1 o := by
  intro o ho
  simp only [eight, List.map_cons, List.map_nil, List.mem_cons, List.not_mem_nil, or_false] at ho
  rcases ho with rfl | rfl | rfl | rfl | rfl | rfl | rfl | rfl <;> exact ⟨by simp [Oblique], fun _ _ => rfl, fun _ _ _ => rfl⟩

/-- With 22/7 for pi the scalar flux is 88/7, the surface flux 8. -/
theorem C133_flat_claim_false : ¬ C133_flat_claim := by
  intro h
  have h1 := h oneCell (11 / 7) 1 eight 0 0 0 .WEST 1 (by norm_num) eight_flat (by decide) (by decide) (by decide) (by decide) (by decide)
  obtain ⟨h2, h3⟩ := C133_flat_partial oneCell (11 / 7 : ℚ) 1 0 0 0 .WEST 1 (by decide) (by decide) (by decide) (by decide) (by decide) eight
    (fun _ => 0) (fun _ => 0) eight_flat
  rw [h2, h3] at h1
  norm_num [eight] at h1

/-- What the first update of the incoming flux makes of it: with a surface flux `sf` and no net current, whatever the diffusion coefficients, and the cell
fluxes not changed by CMFD, the incoming flux becomes `sf` divided by 4 pi. -/
theorem C133_first (pi : K) (hpi : pi ≠ 0) (left : Bool) (st sf fl fr v : K) (h1 : fl + fr ≠ 0) (h2 : left = false → fl = 0) (is : Nat) (sense : Bool) :
    Incoming.firstSn (1 / (4 * pi)) (fun _ => Cmfd.partialCurrents (Cmfd.surfaceFlux left st (Cmfd.sHat left st sf fl fr) fl fr) 0) v is sense = sf / (4 * pi) := by
  have e : Cmfd.surfaceFlux left st (Cmfd.sHat left st sf fl fr) fl fr = sf := by
    cases left with
    | true => simp only [Cmfd.surfaceFlux, Cmfd.sHat, if_true]; field_simp; ring
    | false =>
      have := h2 rfl
      subst this
      rw [zero_add] at h1
      simp only [Cmfd.surfaceFlux, Cmfd.sHat, Bool.false_eq_true, if_false, zero_add]
      field_simp
      ring
  rw [e]
  cases sense <;> simp only [Incoming.firstSn, Cmfd.partialCurrents, Bool.false_eq_true, if_true, if_false] <;> field_simp <;> ring

/-- In a flat isotropic field the first update multiplies the incoming flux by the number of ordinates over 4 pi. -/
theorem C133_first_partial (pi : K) (hpi : pi ≠ 0) (d : Dims) (hp c : K) (os : List (Sweep3 K)) (ho : ∀ o ∈ os, FlatOrd c o) (ix iy iz : Nat) (s : Surface) (n : Nat)
    (hx : ix < d.nx) (hy : iy < d.ny) (hz : iz < d.nz) (hs : s ≠ .INTERNAL) (hn : coarseSurf d (coarseCell d ⟨ix, iy, iz⟩) s = some n)
    (left : Bool) (st fl fr v : K) (h1 : fl + fr ≠ 0) (h2 : left = false → fl = 0) (sense : Bool) :
    Incoming.firstSn (1 / (4 * pi)) (fun m => Cmfd.partialCurrents (Cmfd.surfaceFlux left st
      (Cmfd.sHat left st ((sweepAllFlux d hp os (fun _ => 0, fun _ => 0)).2 m) fl fr) fl fr) 0) v n sense = os.length / (4 * pi) * c := by
  have := C133_first pi hpi left st ((sweepAllFlux d hp os (fun _ => 0, fun _ => 0)).2 n) fl fr v h1 h2 n sense
  refine Eq.trans ?_ (this.trans ?_)
  · simp only [Incoming.firstSn]
  · rw [(C133_flat_partial d hp c ix iy iz s n hx hy hz hs hn os (fun _ => 0) (fun _ => 0) ho).1]
    ring

/-- Eight ordinates, the number pi taken as 22/7: the incoming flux of one becomes 7/11. -/
example : Incoming.firstSn (1 / (4 * (22 / 7))) (fun m => Cmfd.partialCurrents (Cmfd.surfaceFlux true (1 / 2)
      (Cmfd.sHat true (1 / 2) ((sweepAllFlux oneCell (11 / 7) eight (fun _ => 0, fun _ => 0)).2 m) 3 3) 3 3) 0) (1 : ℚ) 1 false = 7 / 11 := by
  rw [C133_first_partial (22 / 7 : ℚ) (by norm_num) oneCell (11 / 7) 1 eight eight_flat 0 0 0 .WEST 1 (by decide) (by decide) (by decide) (by decide) (by decide)
    true (1 / 2) 3 3 1 (by norm_num) (by decide) false]
  norm_num [eight]

/-- C133 for the incoming flux: in a flat isotropic field, with ordinates whose weights add up to 4 pi, no net current and fluxes CMFD does not change, the
first update leaves the incoming angular flux as it is. -/
def C133_incoming_claim : Prop := ∀ (pi hp c : ℚ) (d : Dims) (os : List (Sweep3 ℚ)) (ix iy iz : Nat) (s : Surface) (n : Nat) (left : Bool) (st fl fr : ℚ)
  (sense : Bool), 0 < pi → (os.map fun o => o.ray.weight * hp).sum = 4 * pi → (∀ o ∈ os, FlatOrd c o) → ix < d.nx → iy < d.ny → iz < d.nz → s ≠ .INTERNAL →
  coarseSurf d (coarseCell d ⟨ix, iy, iz⟩) s = some n → fl + fr ≠ 0 → (left = false → fl = 0) →
  Incoming.firstSn (1 / (4 * pi)) (fun m => Cmfd.partialCurrents (Cmfd.surfaceFlux left st
    (Cmfd.sHat left st ((sweepAllFlux d hp os (fun _ => 0, fun _ => 0)).2 m) fl fr) fl fr) 0) c n sense = c

theorem C133_incoming_claim_false : ¬ C133_incoming_claim := by
  intro h
  have h1 := h (22 / 7) (11 / 7) 1 oneCell eight 0 0 0 .WEST 1 true (1 / 2) 3 3 false (by norm_num) (by norm_num [eight]) eight_flat (by decide) (by decide)
    (by decide) (by decide) (by decide) (by norm_num) (by decide)
  rw [C133_first_partial (22 / 7 : ℚ) (by norm_num) oneCell (11 / 7) 1 eight eight_flat 0 0 0 .WEST 1 (by decide) (by decide) (by decide) (by decide) (by decide)
    true (1 / 2) 3 3 1 (by norm_num) (by decide) false] at h1
  norm_num [eight] at h1

end Verif.SurfFlux
