import Verif.PinMesh.CylFindProps
import Verif.Util.LowerBound
import Mathlib.Tactic.LinearCombination

/-! # C69: the region of a point and a direction in the cylindrical pin mesh -/

namespace Verif.PinMesh

open Verif.Geom

/-- C69: an angle that is not close to a sector line gives the sector containing it, whatever the direction. -/
theorem C69_interior (near : ℝ → ℝ → Bool) (fuzz : ℝ) (n : Nat) (hn : 1 ≤ n) (a dalpha : ℝ) (h0 : 0 ≤ a) (h1 : a < 2 * Real.pi)
    (h2 : near a (2 * Real.pi) = false) (hclose : ∀ k : Int, fuzz ≤ |k * (2 * Real.pi / n) - a|) :
    ∃ ia : Nat, aziDir near fuzz Real.pi n a dalpha = ia ∧ ia < n ∧
    ia * (2 * Real.pi / n) ≤ a ∧ a < (ia + 1) * (2 * Real.pi / n) := by
  obtain ⟨ia, e, i1, i2, i3⟩ := sector_floor a n hn h0 h1
  refine ⟨ia, ?_, i1, i2, i3⟩
  unfold aziDir
  simp only [h2, Bool.false_eq_true, if_false]
  rw [if_neg (by
    have := hclose (roundNN (a / (2 * Real.pi / ((n : Int) : ℝ))))
    rw [Int.cast_natCast] at this ⊢
    exact not_lt.mpr this), e]
  exact Int.tmod_eq_of_lt (by positivity) (by exact_mod_cast i1)

/-- The angle of sector line `k` divided by the spacing rounds to `k`. -/
theorem round_line (n : Nat) (hn : 1 ≤ n) (k : Int) : roundNN (k * (2 * Real.pi / n) / (2 * Real.pi / ((n : Int) : ℝ))) = k := by
  have hn' : (0 : ℝ) < n := by exact_mod_cast hn
  have hs : (0 : ℝ) < 2 * Real.pi / n := by have := Real.pi_pos; positivity
  rw [Int.cast_natCast, mul_div_assoc, div_self (ne_of_gt hs), mul_one, roundNN, Int.floor_eq_iff]
  constructor <;> linarith

theorem aziDir_line (near : ℝ → ℝ → Bool) (fuzz : ℝ) (hf : 0 < fuzz) (n : Nat) (hn : 1 ≤ n) (k : Int) (dalpha : ℝ)
    (h2 : near (k * (2 * Real.pi / n)) (2 * Real.pi) = false) :
    aziDir near fuzz Real.pi n (k * (2 * Real.pi / n)) dalpha =
      (if k * (2 * Real.pi / n) < dalpha then k else k - 1).tmod n := by
  unfold aziDir
  simp only [h2, Bool.false_eq_true, if_false, round_line n hn k]
  rw [if_pos (by rw [Int.cast_natCast, sub_self, abs_zero]; exact hf)]

/-- C69: on sector line `k`, off the positive x axis, the code compares the two angles: the region is `k` if the direction has the
larger one and `k - 1` otherwise. -/
theorem C69_line (near : ℝ → ℝ → Bool) (fuzz : ℝ) (hf : 0 < fuzz) (n : Nat) (k : Nat) (hk : 1 ≤ k) (hkn : k < n) (dalpha : ℝ)
    (h2 : near (k * (2 * Real.pi / n)) (2 * Real.pi) = false) :
    aziDir near fuzz Real.pi n (k * (2 * Real.pi / n)) dalpha = if k * (2 * Real.pi / n) < dalpha then (k : Int) else k - 1 := by
  have := aziDir_line near fuzz hf n (by omega) k dalpha (by exact_mod_cast h2)
  rw [Int.cast_natCast] at this
  rw [this]
  split
  · exact Int.tmod_eq_of_lt (by positivity) (by exact_mod_cast hkn)
  · exact Int.tmod_eq_of_lt (by omega) (by omega)

/-- C69: a point within the tolerance of sector line `k`, on either side of it, is taken to be on the line, and the angles are compared. -/
theorem C69_near_line (near : ℝ → ℝ → Bool) (fuzz : ℝ) (n : Nat) (k : Nat) (hk : 1 ≤ k) (hkn : k < n) (a dalpha : ℝ)
    (h2 : near a (2 * Real.pi) = false) (ha : |k * (2 * Real.pi / n) - a| < fuzz) (hfz : 2 * fuzz ≤ 2 * Real.pi / n) :
    aziDir near fuzz Real.pi n a dalpha = if a < dalpha then (k : Int) else k - 1 := by
  have hn' : (0 : ℝ) < n := by exact_mod_cast (by omega : 0 < n)
  have hs : (0 : ℝ) < 2 * Real.pi / n := by have := Real.pi_pos; positivity
  have hr : roundNN (a / (2 * Real.pi / ((n : Int) : ℝ))) = k := by
    obtain ⟨h3, h4⟩ := abs_lt.mp ha
    rw [Int.cast_natCast, roundNN, Int.floor_eq_iff, Int.cast_natCast]
    constructor
    · rw [← sub_le_iff_le_add, le_div_iff₀ hs]; nlinarith
    · rw [← lt_sub_iff_add_lt, div_lt_iff₀ hs]; nlinarith
  unfold aziDir
  simp only [h2, Bool.false_eq_true, if_false, hr]
  rw [if_pos (by rw [Int.cast_natCast, Int.cast_natCast]; exact ha)]
  split
  · exact Int.tmod_eq_of_lt (by positivity) (by exact_mod_cast hkn)
  · exact Int.tmod_eq_of_lt (by omega) (by omega)

/-- C69: the sector the direction leads into.  On the line at angle `a` a direction at angle `d` leads to larger angles if
`sin (d - a)` is positive, and to smaller ones if it is negative.  The code agrees if the two angles differ by less than π. -/
theorem C69_side_partial (near : ℝ → ℝ → Bool) (fuzz : ℝ) (hf : 0 < fuzz) (n : Nat) (k : Nat) (hk : 1 ≤ k) (hkn : k < n) (dalpha : ℝ)
    (h2 : near (k * (2 * Real.pi / n)) (2 * Real.pi) = false) (hd : |dalpha - k * (2 * Real.pi / n)| < Real.pi) :
    (0 < Real.sin (dalpha - k * (2 * Real.pi / n)) → aziDir near fuzz Real.pi n (k * (2 * Real.pi / n)) dalpha = k) ∧
    (Real.sin (dalpha - k * (2 * Real.pi / n)) < 0 → aziDir near fuzz Real.pi n (k * (2 * Real.pi / n)) dalpha = k - 1) := by
  rw [C69_line near fuzz hf n k hk hkn dalpha h2]
  generalize (k : ℝ) * (2 * Real.pi / n) = a at *
  obtain ⟨d1, d2⟩ := abs_lt.mp hd
  constructor
  · intro hs
    rw [if_pos]
    by_contra hc
    have := Real.sin_nonpos_of_nonpos_of_neg_pi_le (x := dalpha - a) (by linarith) d1.le
    linarith
  · intro hs
    rw [if_neg]
    intro hc
    have := Real.sin_nonneg_of_nonneg_of_le_pi (x := dalpha - a) (by linarith) d2.le
    linarith

/-- C69: if they differ by more than π the code always takes the wrong side. -/
theorem C69_wrong_side (near : ℝ → ℝ → Bool) (fuzz : ℝ) (hf : 0 < fuzz) (n : Nat) (k : Nat) (hk : 1 ≤ k) (hkn : k < n) (dalpha : ℝ)
    (hd0 : 0 ≤ dalpha) (hd1 : dalpha < 2 * Real.pi)
    (h2 : near (k * (2 * Real.pi / n)) (2 * Real.pi) = false) (hd : Real.pi < |dalpha - k * (2 * Real.pi / n)|) :
    (0 < Real.sin (dalpha - k * (2 * Real.pi / n)) ∧ aziDir near fuzz Real.pi n (k * (2 * Real.pi / n)) dalpha = k - 1) ∨
    (Real.sin (dalpha - k * (2 * Real.pi / n)) < 0 ∧ aziDir near fuzz Real.pi n (k * (2 * Real.pi / n)) dalpha = k) := by
  rw [C69_line near fuzz hf n k hk hkn dalpha h2]
  have hpi := Real.pi_pos
  have hn' : (0 : ℝ) < n := by exact_mod_cast (by omega : 0 < n)
  have ha0 : 0 < (k : ℝ) * (2 * Real.pi / n) := by
    have : (0 : ℝ) < k := by exact_mod_cast hk
    positivity
  have ha1 : (k : ℝ) * (2 * Real.pi / n) < 2 * Real.pi := by
    rw [mul_div_assoc', div_lt_iff₀ hn']
    have : (k : ℝ) < n := by exact_mod_cast hkn
    nlinarith
  generalize (k : ℝ) * (2 * Real.pi / n) = a at *
  rcases lt_abs.mp hd with h | h
  · right
    refine ⟨?_, by rw [if_pos (by linarith)]⟩
    rw [← Real.sin_sub_two_pi]
    exact Real.sin_neg_of_neg_of_neg_pi_lt (by linarith) (by linarith)
  · left
    refine ⟨?_, by rw [if_neg (by linarith)]⟩
    rw [← Real.sin_add_two_pi]
    exact Real.sin_pos_of_pos_of_lt_pi (by linarith) (by linarith)

/-- C69, the full claim for sector lines: the region is the one on the side of the direction. -/
def C69_claim : Prop := ∀ (near : ℝ → ℝ → Bool) (fuzz : ℝ) (n k : Nat) (dalpha : ℝ), 0 < fuzz → 1 ≤ k → k < n → n ≤ 8 → n % 2 = 0 →
  0 ≤ dalpha → dalpha < 2 * Real.pi → near (k * (2 * Real.pi / n)) (2 * Real.pi) = false →
  (0 < Real.sin (dalpha - k * (2 * Real.pi / n)) → aziDir near fuzz Real.pi n (k * (2 * Real.pi / n)) dalpha = k) ∧
  (Real.sin (dalpha - k * (2 * Real.pi / n)) < 0 → aziDir near fuzz Real.pi n (k * (2 * Real.pi / n)) dalpha = k - 1)

/-- C69 is false: on the positive y axis of a mesh with 4 sectors, a direction at 315 degrees leads into sector 0; the code
returns 1. -/
theorem C69_claim_false : ¬ C69_claim := by
  intro h
  have hpi := Real.pi_pos
  have ha : ((1 : Nat) : ℝ) * (2 * Real.pi / (4 : Nat)) = Real.pi / 2 := by push_cast; ring
  have h2 := h (fun _ _ => false) 1 4 1 (7 * Real.pi / 4) one_pos (by norm_num) (by norm_num) (by norm_num) (by norm_num)
    (by linarith) (by linarith) rfl
  rcases C69_wrong_side (fun _ _ => false) 1 one_pos 4 1 (by norm_num) (by norm_num) (7 * Real.pi / 4) (by linarith) (by linarith) rfl
    (by rw [ha, abs_of_pos (by linarith)]; linarith) with ⟨h3, h4⟩ | ⟨h3, h4⟩
  · have h5 := h2.1 h3
    rw [h4] at h5
    norm_num at h5
  · have h5 := h2.2 h3
    rw [h4] at h5
    norm_num at h5

/-- C69: on the positive x axis (where the angle is 2π) directions above the axis get sector 0 and those below the last one.
For a direction along the axis the sector is -1. -/
theorem C69_positive_axis (near : ℝ → ℝ → Bool) (fuzz : ℝ) (hf : 0 < fuzz) (n : Nat) (hn : 2 ≤ n) (dalpha : ℝ)
    (h2 : near (2 * Real.pi) (2 * Real.pi) = true) (hd1 : dalpha < 2 * Real.pi) :
    (0 < dalpha → dalpha ≤ Real.pi → aziDir near fuzz Real.pi n (2 * Real.pi) dalpha = 0) ∧
    (Real.pi < dalpha → aziDir near fuzz Real.pi n (2 * Real.pi) dalpha = n - 1) ∧
    (dalpha = 0 → aziDir near fuzz Real.pi n (2 * Real.pi) dalpha = -1) := by
  have hpi := Real.pi_pos
  have hn' : (0 : ℝ) < n := by exact_mod_cast (by omega : 0 < n)
  have e0 : roundNN ((0 : ℝ) / (2 * Real.pi / ((n : Int) : ℝ))) = 0 := by
    have := round_line n (by omega) 0
    rwa [Int.cast_zero, zero_mul] at this
  have en : roundNN (2 * Real.pi / (2 * Real.pi / ((n : Int) : ℝ))) = n := by
    have := round_line n (by omega) n
    rwa [Int.cast_natCast, mul_div_cancel₀ _ (ne_of_gt hn')] at this
  unfold aziDir
  simp only [h2, if_true]
  refine ⟨fun a b => ?_, fun a => ?_, fun a => ?_⟩
  · rw [if_neg (not_lt.mpr b)]
    simp only [e0]
    rw [if_pos (by simpa using hf), if_pos a]
    rfl
  · rw [if_pos a]
    simp only [en]
    rw [if_pos (by rw [Int.cast_natCast, mul_div_cancel₀ _ (ne_of_gt hn'), sub_self, abs_zero]; exact hf),
      if_neg (not_lt.mpr hd1.le)]
    exact Int.tmod_eq_of_lt (by omega) (by omega)
  · rw [a, if_neg (not_lt.mpr hpi.le)]
    simp only [e0]
    rw [if_pos (by simpa using hf), if_neg (lt_irrefl 0)]
    rw [Int.zero_sub, Int.neg_tmod, Int.tmod_eq_of_lt (by norm_num) (by omega)]

/-- C69: on the negative x axis, where the angle of the point is 3π, every direction gets the sector above the axis. -/
theorem C69_negative_axis (near : ℝ → ℝ → Bool) (fuzz : ℝ) (hf : 0 < fuzz) (h : Nat) (hh : 1 ≤ h) (dalpha : ℝ)
    (h2 : near (3 * Real.pi) (2 * Real.pi) = false) (hd1 : dalpha < 2 * Real.pi) :
    aziDir near fuzz Real.pi ((2 * h : Nat) : Int) (3 * Real.pi) dalpha = h - 1 := by
  have hpi := Real.pi_pos
  have hn' : (0 : ℝ) < h := by exact_mod_cast hh
  have e : (3 * Real.pi) = ((3 * h : Int) : ℝ) * (2 * Real.pi / ((2 * h : Nat) : ℝ)) := by
    push_cast; field_simp
  have key := aziDir_line near fuzz hf (2 * h) (by omega) (3 * h) dalpha (by rw [← e]; exact h2)
  rw [← e] at key
  rw [key, if_neg (by linarith)]
  have e2 : (3 * h - 1 : Int) = (h - 1) + 2 * h := by ring
  rw [e2, Int.tmod_eq_emod_of_nonneg (by omega)]
  push_cast
  rw [Int.add_emod_right]
  exact Int.emod_eq_of_lt (by omega) (by omega)

/-- Every mesh radius other than the distance itself is told apart from it. -/
structure RingResolved (near : ℝ → ℝ → Bool) (fuzz : ℝ) (radii : List ℝ) (r : ℝ) : Prop where
  self : near r r = true
  apart : ∀ x ∈ radii, x ≠ r → near r x = false ∧ fuzz * |r| < |x - r|

/-- C69: the ring.  Off all rings it is the one of `find_reg` without a direction; on ring `i` it is the ring outside if the
direction points away from the centre and the one inside otherwise. -/
theorem C69_ring (near : ℝ → ℝ → Bool) (fuzz : ℝ) (hf : 0 < fuzz) (radii : List ℝ) (hs : radii.Pairwise (· < ·)) (r dot : ℝ)
    (hr : RingResolved near fuzz radii r) :
    (r ∉ radii → ringDir near fuzz radii r dot = ringOf radii r) ∧
    (∀ i, radii[i]? = some r → ringDir near fuzz radii r dot = if 0 < dot then i + 1 else i) := by
  have hlt : ∀ i (h : i < radii.length), fuzzyLt fuzz (radii.getD i 0) r = decide (radii[i] < r) := by
    intro i h
    have hg : radii.getD i 0 = radii[i] := by simp [List.getD, h]
    rw [hg]
    have hmem : radii[i] ∈ radii := List.getElem_mem h
    generalize radii[i] = x at hmem
    unfold fuzzyLt
    by_cases h0 : r = 0
    · rw [if_pos h0, h0]
    · rw [if_neg h0]
      have hx : 0 < |r| := abs_pos.mpr h0
      rw [decide_eq_decide, div_lt_iff₀ hx]
      by_cases he : x = r
      · rw [he]
        constructor
        · intro h1; nlinarith
        · intro h1; exact absurd h1 (lt_irrefl _)
      · have := (hr.apart x hmem he).2
        constructor
        · intro h1; nlinarith
        · intro h1
          rw [abs_of_neg (show x - r < 0 by linarith)] at this
          linarith
  have mono : ∀ i j (hi : i < radii.length) (hj : j < radii.length), i ≤ j → radii[i] ≤ radii[j] := by
    intro i j hi hj hij
    rcases Nat.lt_or_ge i j with h | h
    · exact (List.pairwise_iff_getElem.mp hs i j hi hj h).le
    · have : i = j := by omega
      subst this; exact le_refl _
  obtain ⟨_, b, c, d⟩ := Util.lowerBoundLoop_spec (fun i => fuzzyLt fuzz (radii.getD i 0) r) 0 radii.length (by
    intro i j _ hij hj hl
    have hj' : j < radii.length := by omega
    simp only [hlt j hj', hlt i (by omega), decide_eq_true_eq] at hl ⊢
    exact lt_of_le_of_lt (mono i j (by omega) hj' hij) hl)
  unfold ringDir
  set s := Util.lowerBoundLoop (fun i => fuzzyLt fuzz (radii.getD i 0) r) 0 radii.length with hsdef
  rw [Nat.zero_add] at b
  have c' : ∀ i (h : i < radii.length), i < s → radii[i] < r := by
    intro i h hi
    have h1 := c i (Nat.zero_le _) hi
    simp only [hlt i h, decide_eq_true_eq] at h1
    exact h1
  have d' : ∀ i (h : i < radii.length), s ≤ i → r ≤ radii[i] := by
    intro i h hi
    have h1 := d i hi (by omega)
    simp only [hlt i h, decide_eq_false_iff_not, not_lt] at h1
    exact h1
  constructor
  · intro hnot
    have hres : s = ringOf radii r := by
      obtain ⟨r1, r2, r3⟩ := ringOf_spec radii r
      rcases Nat.lt_trichotomy s (ringOf radii r) with h | h | h
      · exfalso
        have hlen : s < radii.length := by omega
        have h1 := r2 s _ h (List.getElem?_eq_getElem hlen)
        have h2 := d' s hlen (le_refl _)
        exact hnot (by rw [show r = radii[s] from le_antisymm h2 h1]; exact List.getElem_mem hlen)
      · exact h
      · exfalso
        have hlen : ringOf radii r < radii.length := by omega
        exact absurd (c' _ hlen h) (not_lt.mpr (r3 _ (List.getElem?_eq_getElem hlen)).le)
    rw [← hres]
    rcases Nat.lt_or_ge s radii.length with h | h
    · have hm : radii[s] ∈ radii := List.getElem_mem h
      have hne : radii[s] ≠ r := fun e => hnot (e ▸ hm)
      simp only [List.getElem?_eq_getElem h, (hr.apart _ hm hne).1, Bool.false_eq_true, if_false]
    · simp only [List.getElem?_eq_none h]
  · intro i hi
    obtain ⟨hil, hie⟩ := List.getElem?_eq_some_iff.mp hi
    have hres : s = i := by
      rcases Nat.lt_trichotomy s i with h | h | h
      · exfalso
        have h1 := d' s (by omega) (le_refl _)
        have h2 := List.pairwise_iff_getElem.mp hs s i (by omega) hil h
        rw [hie] at h2; linarith
      · exact h
      · exfalso
        have h1 := c' i hil h
        rw [hie] at h1; exact lt_irrefl _ h1
    rw [hres]
    simp only [hi, hr.self, if_true]

/-- C69: this is the ring the direction leads into, unless the direction is tangent: a point moved along a direction with
positive product leaves the circle, with a negative product it enters it, and on a tangent it leaves it as well, where the code
takes the ring inside. -/
theorem C69_ring_side (p d : Pt ℝ) (hd : d.x ≠ 0 ∨ d.y ≠ 0) :
    (0 ≤ p.x * d.x + p.y * d.y → ∀ t, 0 < t → dist0 p < dist0 ⟨p.x + t * d.x, p.y + t * d.y⟩) ∧
    (p.x * d.x + p.y * d.y < 0 → ∃ T, 0 < T ∧ ∀ t, 0 < t → t < T → dist0 ⟨p.x + t * d.x, p.y + t * d.y⟩ < dist0 p) := by
  have hd2 : 0 < d.x * d.x + d.y * d.y := by
    rcases hd with h | h
    · have := mul_self_pos.mpr h
      nlinarith [mul_self_nonneg d.y]
    · have := mul_self_pos.mpr h
      nlinarith [mul_self_nonneg d.x]
  have hp0 : 0 ≤ p.x * p.x + p.y * p.y := by nlinarith [mul_self_nonneg p.x, mul_self_nonneg p.y]
  constructor
  · intro h t ht
    unfold dist0
    apply Real.sqrt_lt_sqrt hp0
    simp only []
    nlinarith [mul_pos (mul_pos ht ht) hd2, mul_nonneg ht.le h]
  · intro h
    refine ⟨-2 * (p.x * d.x + p.y * d.y) / (d.x * d.x + d.y * d.y), div_pos (by linarith) hd2, fun t ht htT => ?_⟩
    rw [lt_div_iff₀ hd2] at htT
    unfold dist0
    apply Real.sqrt_lt_sqrt
    · exact add_nonneg (mul_self_nonneg _) (mul_self_nonneg _)
    · simp only []
      nlinarith [mul_pos ht (sub_pos.mpr htT)]

/-- C69: the region returned is made of that ring and that sector. -/
theorem C69_region (m : Cyl ℝ) (near : ℝ → ℝ → Bool) (fuzz : ℝ) (p : Pt ℝ) (dir : Dir ℝ) (dalpha : ℝ)
    (hpx : |p.x| ≤ m.pitch / 2) (hpy : |p.y| ≤ m.pitch / 2) :
    m.findRegDir near fuzz Real.sqrt atan2 Real.pi p dir dalpha =
      ringDir near fuzz m.radii (dist0 p) (p.x * dir.ox + p.y * dir.oy) * m.nAzi +
      aziDir near fuzz Real.pi m.nAzi (angle p) dalpha := by
  obtain ⟨a, b⟩ := abs_le.mp hpx
  obtain ⟨c, d⟩ := abs_le.mp hpy
  unfold Cyl.findRegDir
  rw [if_neg (by rintro (⟨h, _⟩ | ⟨h, _⟩ | ⟨h, _⟩ | ⟨h, _⟩) <;> linarith)]
  rfl

/-- C69: a point beyond a side of the pin, going away from it, gets -1. -/
theorem C69_leaving (m : Cyl ℝ) (near : ℝ → ℝ → Bool) (fuzz : ℝ) (p : Pt ℝ) (dir : Dir ℝ) (dalpha : ℝ)
    (h : (m.pitch / 2 < p.x ∧ 0 < dir.ox) ∨ (p.x < -(m.pitch / 2) ∧ dir.ox < 0) ∨
      (m.pitch / 2 < p.y ∧ 0 < dir.oy) ∨ (p.y < -(m.pitch / 2) ∧ dir.oy < 0)) :
    m.findRegDir near fuzz Real.sqrt atan2 Real.pi p dir dalpha = -1 := by
  unfold Cyl.findRegDir
  rw [if_pos]
  rcases h with ⟨h, h'⟩ | ⟨h, h'⟩ | ⟨h, h'⟩ | ⟨h, h'⟩
  · exact Or.inr (Or.inl ⟨by linarith, h'⟩)
  · exact Or.inl ⟨by linarith, h'⟩
  · exact Or.inr (Or.inr (Or.inr ⟨by linarith, h'⟩))
  · exact Or.inr (Or.inr (Or.inl ⟨by linarith, h'⟩))

example : RingResolved (fun a b => decide (a = b)) (1 / 100) [1, 2] 1 := by
  refine ⟨by simp, ?_⟩
  intro x hx hne
  simp only [List.mem_cons, List.not_mem_nil, or_false] at hx
  rcases hx with rfl | rfl
  · exact absurd rfl hne
  · norm_num

end Verif.PinMesh
