import Verif.Mesh.TraceModel
import Verif.PinMesh.CylTraceProps

/-! # C73: dividing a ray at the boundaries of the coarse cells -/

namespace Verif.Mesh

open Verif.Geom Verif.PinMesh

/-- Grid lines from zero to the width, in increasing order, two at least. -/
def Grid (xs : List ℝ) (h : ℝ) : Prop := ∃ mid, xs = 0 :: (mid ++ [h]) ∧ xs.Pairwise (· < ·)

theorem Grid.last {xs : List ℝ} {h : ℝ} (g : Grid xs h) : xs.getLastD 0 = h := by
  obtain ⟨mid, rfl, _⟩ := g
  rw [List.getLastD_eq_getLast?, show (0 :: (mid ++ [h])) = (0 :: mid) ++ [h] from rfl, List.getLast?_concat]
  rfl

/-- On the same side of every grid line (or both on it). -/
def SameCell (xs : List ℝ) (u v : ℝ) : Prop := ∀ x ∈ xs, (u < x ↔ v < x) ∧ (x < u ↔ x < v)

/-- A point of the mesh, its edges included. -/
def InMesh (hx hy : ℝ) (q : Pt ℝ) : Prop := (0 ≤ q.x ∧ q.x ≤ hx) ∧ 0 ≤ q.y ∧ q.y ≤ hy

theorem inMesh_convex (hx hy : ℝ) (a b q : Pt ℝ) (ha : InMesh hx hy a) (hb : InMesh hx hy b) (hq : OnRay a b q) :
    InMesh hx hy q := by
  obtain ⟨t, h0, h1, rfl⟩ := hq
  obtain ⟨⟨a1, a2⟩, a3, a4⟩ := ha
  obtain ⟨⟨b1, b2⟩, b3, b4⟩ := hb
  unfold InMesh onRay
  simp only []
  refine ⟨⟨?_, ?_⟩, ?_, ?_⟩ <;> nlinarith

/-- An affine function on the open unit interval that has no isolated zero there has the same sign everywhere. -/
theorem affine_sign (u v x : ℝ) (hz : ∀ t, 0 < t → t < 1 → u + t * (v - u) = x → u = v) (s t : ℝ) (s0 : 0 < s) (s1 : s < 1) (t0 : 0 < t)
    (t1 : t < 1) : ((u + s * (v - u) < x ↔ u + t * (v - u) < x) ∧ (x < u + s * (v - u) ↔ x < u + t * (v - u))) := by
  have key : ∀ s t, 0 < s → s < 1 → 0 < t → t < 1 → u + s * (v - u) < x → ¬ x ≤ u + t * (v - u) := by
    intro s t s0 s1 t0 t1 h1 h2
    have hne : v - u ≠ 0 := by
      intro e; rw [e] at h1 h2; linarith
    -- the zero between
    have hw := hz ((x - u) / (v - u)) ?_ ?_ (by field_simp; ring)
    · exact hne (by rw [hw]; ring)
    · rcases lt_or_gt_of_ne hne with h | h
      · exact div_pos_of_neg_of_neg (by nlinarith) h
      · exact div_pos (by nlinarith) h
    · rcases lt_or_gt_of_ne hne with h | h
      · rw [div_lt_one_of_neg h]; nlinarith
      · rw [div_lt_one h]; nlinarith
  have key' : ∀ s t, 0 < s → s < 1 → 0 < t → t < 1 → x < u + s * (v - u) → ¬ u + t * (v - u) ≤ x := by
    intro s t s0 s1 t0 t1 h1 h2
    rcases lt_or_eq_of_le h2 with h | h
    · exact key t s t0 t1 s0 s1 h h1.le
    · have := hz t t0 t1 h
      rw [this] at h1 h
      linarith
  refine ⟨⟨fun h => not_le.mp (key s t s0 s1 t0 t1 h), fun h => not_le.mp (key t s t0 t1 s0 s1 h)⟩,
    ⟨fun h => not_le.mp (key' s t s0 s1 t0 t1 h), fun h => not_le.mp (key' t s t0 t1 s0 s1 h)⟩⟩

/-- The claim about one ray. -/
def Divides (xs ys : List ℝ) (p1 p2 : Pt ℝ) (Q : List (Pt ℝ)) : Prop :=
  Q.head? = some p1 ∧ Q.getLast? = some p2 ∧
  (∀ q ∈ Q, OnRay p1 p2 q ∧ (q = p1 ∨ q = p2 ∨ q.x ∈ xs ∨ q.y ∈ ys)) ∧
  ∀ a b, (a, b) ∈ Q.zip Q.tail → a.y < b.y ∧ ∀ q q', Between a b q → Between a b q' → SameCell xs q.x q'.x ∧ SameCell ys q.y q'.y

/-- C73, the full claim: for a ray upwards between two points of the mesh the points run from one end to the other in order, those
between lie on grid lines, and from each point to the next the ray is within one cell. -/
def C73_claim : Prop := ∀ (xs ys : List ℝ) (hx hy : ℝ), Grid xs hx → Grid ys hy → ∀ (sort : List (Pt ℝ) → List (Pt ℝ)), SortsByY sort →
  ∀ (eq : Pt ℝ → Pt ℝ → Bool), (∀ a b, eq a b = true ↔ a = b) → ∀ p1 p2 : Pt ℝ, p1.y < p2.y → InMesh hx hy p1 → InMesh hx hy p2 →
  Divides xs ys p1 p2 (traceMesh xs ys sort eq p1 p2)

/-- C73: the claim holds for meshes not longer in y than in x.  Missing: longer meshes, where it is false. -/
theorem C73_divides_partial (xs ys : List ℝ) (hx hy : ℝ) (gx : Grid xs hx) (gy : Grid ys hy) (hle : hy ≤ hx)
    (sort : List (Pt ℝ) → List (Pt ℝ)) (hsort : SortsByY sort) (eq : Pt ℝ → Pt ℝ → Bool) (heq : ∀ a b, eq a b = true ↔ a = b)
    (p1 p2 : Pt ℝ) (hup : p1.y < p2.y) (m1 : InMesh hx hy p1) (m2 : InMesh hx hy p2) :
    Divides xs ys p1 p2 (traceMesh xs ys sort eq p1 p2) := by
  have k := kept_of sort hsort eq p1 p2 hup _ (cuts_onRay (gridLines xs ys) p1 p2)
  unfold traceMesh
  set cuts := (gridLines xs ys).filterMap fun li => meet li ⟨p1, p2⟩ with hcuts
  set Q := unique eq (sort (p1 :: p2 :: cuts)) with hQ
  have hl := gx.last
  have hall : ∀ q ∈ Q, OnRay p1 p2 q := by
    intro q hq
    rcases List.mem_cons.mp (k.sub q hq) with rfl | h
    · exact ⟨0, le_refl _, zero_le_one, by simp [onRay]⟩
    · rcases List.mem_cons.mp h with rfl | h
      · exact ⟨1, zero_le_one, le_refl _, by simp [onRay]⟩
      · exact cuts_onRay _ p1 p2 q h
  refine ⟨?_, ?_, ?_, ?_⟩
  · rw [List.head?_eq_some_head k.ne, k.head]
  · rw [List.getLast?_eq_some_getLast k.ne]
    rcases k.last with h | h
    · rw [h]
    · rw [(heq _ _).mp h]
  · intro q hq
    refine ⟨hall q hq, ?_⟩
    rcases List.mem_cons.mp (k.sub q hq) with rfl | h
    · left; rfl
    · rcases List.mem_cons.mp h with rfl | h
      · right; left; rfl
      · right; right
        obtain ⟨li, hli, hm⟩ := List.mem_filterMap.mp h
        obtain ⟨s, _, _, e1, e2⟩ := (C62_on_both li ⟨p1, p2⟩ q hm).1
        obtain ⟨midx, rfl, _⟩ := gx
        obtain ⟨midy, rfl, _⟩ := gy
        unfold gridLines at hli
        rcases List.mem_append.mp hli with h' | h'
        · obtain ⟨x, hx', rfl⟩ := List.mem_map.mp h'
          left
          have e1' : q.x = x := by rw [e1]; simp only []; ring
          rw [e1']
          simp at hx'
          simp [hx']
        · obtain ⟨y, hy', rfl⟩ := List.mem_map.mp h'
          right
          have e2' : q.y = y := by rw [e2]; simp only []; ring
          rw [e2']
          simp at hy'
          simp [hy']
  · intro a b hab
    obtain ⟨hyab, free⟩ := piece_free eq heq p1 p2 hup _ Q k hall a b hab
    refine ⟨hyab, ?_⟩
    have hra := hall a (List.of_mem_zip hab).1
    have hrb := hall b (List.mem_of_mem_tail (List.of_mem_zip hab).2)
    have hma := inMesh_convex hx hy p1 p2 a m1 m2 hra
    have hmb := inMesh_convex hx hy p1 p2 b m1 m2 hrb
    have hon : ∀ t, 0 ≤ t → t ≤ 1 → OnRay p1 p2 (onRay a b t) ∧ InMesh hx hy (onRay a b t) := fun t t0 t1 =>
      ⟨onRay_trans p1 p2 a b _ hra hrb ⟨t, t0, t1, rfl⟩, inMesh_convex hx hy a b _ hma hmb ⟨t, t0, t1, rfl⟩⟩
    have notcut : ∀ t, 0 < t → t < 1 → onRay a b t ∉ cuts := fun t t0 t1 hm =>
      free t t0 t1 (List.mem_cons_of_mem _ (List.mem_cons_of_mem _ hm))
    -- a piece that moves in x belongs to a ray that does
    have hslope : a.x ≠ b.x → p1.x ≠ p2.x := by
      intro hne he
      obtain ⟨s, _, _, rfl⟩ := hra
      obtain ⟨t, _, _, rfl⟩ := hrb
      apply hne
      simp [onRay, he]
    have hhx : 0 ≤ hx := le_trans m1.1.1 m1.1.2
    have zx : ∀ x ∈ xs, ∀ t, 0 < t → t < 1 → a.x + t * (b.x - a.x) = x → a.x = b.x := by
      intro x hxm t t0 t1 he
      obtain ⟨r1, r2⟩ := hon t t0.le t1.le
      obtain ⟨mid, hxs, _⟩ := gx
      have hcase : x = 0 ∨ x = hx ∨ x ∈ mid := by
        rw [hxs] at hxm
        simp at hxm
        tauto
      rcases hcase with rfl | rfl | hmid
      · by_contra hne
        have h1 := hma.1.1
        have h2 := hmb.1.1
        rcases lt_or_eq_of_le h1 with h | h
        · nlinarith [mul_nonneg t0.le h2, mul_pos h (by linarith : 0 < 1 - t)]
        · rw [← h] at he
          have : t * b.x = 0 := by linarith
          rcases mul_eq_zero.mp this with h' | h'
          · linarith
          · exact hne (by rw [← h, h'])
      · by_contra hne
        have h1 := hma.1.2
        have h2 := hmb.1.2
        rcases lt_or_eq_of_le h1 with h | h
        · nlinarith [mul_nonneg t0.le (sub_nonneg.mpr h2), mul_pos (sub_pos.mpr h) (by linarith : 0 < 1 - t)]
        · rw [← h] at he
          have : t * (b.x - a.x) = 0 := by linarith
          rcases mul_eq_zero.mp this with h' | h'
          · linarith
          · exact hne (by linarith)
      · by_contra hne
        apply notcut t t0 t1
        rw [hcuts, List.mem_filterMap]
        refine ⟨⟨⟨x, 0⟩, ⟨x, hx⟩⟩, ?_, C62_found_partial _ _ ?_ _ ?_ ((onRay_seg _ _ _).mpr r1)⟩
        · unfold gridLines
          rw [hl, hxs]
          simp [hmid]
        · unfold Parallel
          simp only [sub_self, zero_mul, sub_zero]
          intro hp
          have hxp : hx ≠ 0 := by
            intro e
            have := r2.1
            have h0 := hma.2.1
            have h1 := hmb.2.2
            linarith
          rcases mul_eq_zero.mp hp.symm with h | h
          · exact hxp h
          · exact hslope hne (by linarith)
        · have hxp : 0 < hx := by
            rcases lt_or_eq_of_le hhx with h | h
            · exact h
            · exfalso
              have h0 := hma.2.1
              have h1 := hmb.2.2
              linarith
          refine ⟨(onRay a b t).y / hx, div_nonneg r2.2.1 hhx, ?_, ?_, ?_⟩
          · rw [div_le_one hxp]; exact le_trans r2.2.2 hle
          · simp only []; rw [show (onRay a b t).x = x from he]; ring
          · simp only [mul_zero, zero_add]; field_simp
    have zy : ∀ y ∈ ys, ∀ t, 0 < t → t < 1 → a.y + t * (b.y - a.y) = y → a.y = b.y := by
      intro y hym t t0 t1 he
      obtain ⟨r1, r2⟩ := hon t t0.le t1.le
      obtain ⟨mid, hys, _⟩ := gy
      have hcase : y = 0 ∨ y = hy ∨ y ∈ mid := by
        rw [hys] at hym
        simp at hym
        tauto
      exfalso
      rcases hcase with rfl | rfl | hmid
      · have h1 := hma.2.1
        nlinarith [mul_pos t0 (sub_pos.mpr hyab)]
      · have h2 := hmb.2.2
        nlinarith [mul_pos (sub_pos.mpr t1) (sub_pos.mpr hyab)]
      · apply notcut t t0 t1
        rw [hcuts, List.mem_filterMap]
        have hxp : 0 < hx := by
          have h0 := hma.2.1
          have h1 := hmb.2.2
          linarith
        refine ⟨⟨⟨0, y⟩, ⟨hx, y⟩⟩, ?_, C62_found_partial _ _ ?_ _ ?_ ((onRay_seg _ _ _).mpr r1)⟩
        · unfold gridLines
          rw [hl, hys]
          simp [hmid]
        · unfold Parallel
          simp only [sub_self, zero_mul, sub_zero]
          intro hp
          rcases mul_eq_zero.mp hp with h | h
          · linarith
          · linarith
        · refine ⟨(onRay a b t).x / hx, div_nonneg r2.1.1 hhx, ?_, ?_, ?_⟩
          · rw [div_le_one hxp]; exact r2.1.2
          · simp only [mul_zero, zero_add]; field_simp
          · simp only []; rw [show (onRay a b t).y = y from he]; ring
    rintro q q' ⟨s, s0, s1, rfl⟩ ⟨t, t0, t1, rfl⟩
    exact ⟨fun x hxm => affine_sign a.x b.x x (zx x hxm) s t s0 s1 t0 t1,
      fun y hym => affine_sign a.y b.y y (zy y hym) s t s0 s1 t0 t1⟩

/-- C73 is false for a mesh of 2 by 4 cells of width one: the line x = 1 is taken to end at y = 2, and the crossing of the ray from
(0, 3.1) to (2, 3.9) with it is not found. -/
theorem C73_claim_false : ¬ C73_claim := by
  classical
  intro h
  have h1 := h [0, 1, 2] [0, 1, 2, 3, 4] 2 4 ⟨[1], rfl, by simp⟩ ⟨[1, 2, 3], rfl, by simp; norm_num⟩ _ mergeSort_sorts
    (fun a b => decide (a = b)) (by intro a b; simp) ⟨0, 31 / 10⟩ ⟨2, 39 / 10⟩ (by norm_num) (by norm_num [InMesh]) (by norm_num [InMesh])
  have hcut : (gridLines ([0, 1, 2] : List ℝ) [0, 1, 2, 3, 4]).filterMap
      (fun li => meet li (⟨⟨0, 31 / 10⟩, ⟨2, 39 / 10⟩⟩ : Line ℝ)) = [] := by
    norm_num [gridLines, meet, fdiv, unitClosed]
  unfold traceMesh at h1
  rw [hcut] at h1
  have hs : ([⟨0, 31 / 10⟩, ⟨2, 39 / 10⟩] : List (Pt ℝ)).mergeSort (fun a b => decide (a.y ≤ b.y)) = [⟨0, 31 / 10⟩, ⟨2, 39 / 10⟩] := by
    apply List.mergeSort_of_pairwise
    simp
    norm_num
  simp only [hs] at h1
  have hu : unique (fun a b : Pt ℝ => decide (a = b)) [⟨0, 31 / 10⟩, ⟨2, 39 / 10⟩] = [⟨0, 31 / 10⟩, ⟨2, 39 / 10⟩] := by
    simp [unique, uniqueFrom]
  rw [hu] at h1
  have h2 := ((h1.2.2.2 ⟨0, 31 / 10⟩ ⟨2, 39 / 10⟩ (by simp)).2 _ _ ⟨1 / 4, by norm_num, by norm_num, rfl⟩
    ⟨3 / 4, by norm_num, by norm_num, rfl⟩).1 1 (by simp)
  norm_num [onRay] at h2

/-- Instance: a mesh of three by two cells. -/
example : Grid [0, 1, 2, 3] 3 ∧ Grid [0, 1, 2] 2 ∧ InMesh 3 2 ⟨0, 1 / 2⟩ ∧ InMesh 3 2 ⟨3, 3 / 2⟩ :=
  ⟨⟨[1, 2], rfl, by simp; norm_num⟩, ⟨[1], rfl, by simp⟩, by norm_num [InMesh], by norm_num [InMesh]⟩

end Verif.Mesh
