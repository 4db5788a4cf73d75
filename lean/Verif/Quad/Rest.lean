import Verif.Quad.Dist

/-!
# Quadrilaterals: the planes of `Set`, the exact distance, examples
-/

namespace VecGeom
namespace Quad

open Real

/-! ## The distance to a segment -/

theorem mag2_sub (p q : V3) : (p - q).mag2 = V3.dist2 p q := by
  simp only [V3.mag2, V3.dot, V3.dist2, V3.sub_x, V3.sub_y, V3.sub_z]; ring

theorem segment_sq (a b p : V3) (s : ℝ) :
    V3.dist2 p (a + V3.smul s (b - a)) = (p - a).mag2 - 2 * s * (p - a).dot (b - a) + s ^ 2 * (b - a).mag2 := by
  simp only [V3.mag2, V3.dot, V3.dist2, V3.sub_x, V3.sub_y, V3.sub_z, V3.add_x, V3.add_y, V3.add_z, V3.smul_x, V3.smul_y, V3.smul_z]; ring

/-- C196: the distance to a segment is not more than that to any of its points, and it is that to one of them. -/
theorem C196_segment (a b p : V3) (hb : V3.dist2 p b < kInfLength) :
    (∀ s, 0 ≤ s → s ≤ 1 → segmentSq a b p ≤ V3.dist2 p (a + V3.smul s (b - a))) ∧
    ∃ s, 0 ≤ s ∧ s ≤ 1 ∧ segmentSq a b p = V3.dist2 p (a + V3.smul s (b - a)) := by
  have hm := V3.mag2_nonneg (b - a)
  have e1 : (p - b).mag2 = (p - a).mag2 - 2 * (p - a).dot (b - a) + (b - a).mag2 := by
    simp only [V3.mag2, V3.dot, V3.sub_x, V3.sub_y, V3.sub_z]; ring
  have e2 : ∀ s, (a + V3.smul s (b - a) - p).mag2 = (p - a).mag2 - 2 * s * (p - a).dot (b - a) + s ^ 2 * (b - a).mag2 := by
    intro s
    simp only [V3.mag2, V3.dot, V3.sub_x, V3.sub_y, V3.sub_z, V3.add_x, V3.add_y, V3.add_z, V3.smul_x, V3.smul_y, V3.smul_z]; ring
  rw [← mag2_sub] at hb
  unfold segmentSq
  simp only [segment_sq]
  split
  · rename_i h
    refine ⟨fun s h0 h1 => ?_, 0, le_refl _, zero_le_one, by ring⟩
    have := mul_nonneg h0 (neg_nonneg.2 h)
    have := mul_nonneg (sq_nonneg s) hm
    linarith
  · rename_i h
    push Not at h
    by_cases h' : (b - a).mag2 ≤ (p - a).dot (b - a)
    · rw [if_pos h', if_pos hb, e1]
      generalize (b - a).mag2 = m at *
      generalize (p - a).dot (b - a) = k at *
      refine ⟨fun s h0 h1 => ?_, 1, zero_le_one, le_refl _, by ring⟩
      nlinarith [mul_nonneg (sub_nonneg.2 h1) (sub_nonneg.2 h'), mul_nonneg (mul_nonneg (sub_nonneg.2 h1) (sub_nonneg.2 h1)) hm]
    · rw [if_neg h', if_neg (lt_irrefl _), e2]
      push Not at h'
      generalize (b - a).mag2 = m at *
      generalize (p - a).dot (b - a) = k at *
      have hmp : 0 < m := by linarith
      refine ⟨fun s _ _ => ?_, k / m, by positivity, (div_le_one hmp).2 h'.le, rfl⟩
      have : 0 ≤ m * (s - k / m) ^ 2 := by positivity
      have ek : k = k / m * m := by field_simp
      generalize k / m = u at *
      subst ek
      nlinarith

/-! ## The planes of `Set` -/

/-- No component is small and not zero (such components are set to zero). -/
def Clean (v : V3) : Prop := (v.x = 0 ∨ kTolerance ≤ |v.x|) ∧ (v.y = 0 ∨ kTolerance ≤ |v.y|) ∧ (v.z = 0 ∨ kTolerance ≤ |v.z|)

theorem Clean.fix {v : V3} (h : Clean v) : fixZeroes v = v := by
  obtain ⟨hx, hy, hz⟩ := h
  have key : ∀ a : ℝ, (a = 0 ∨ kTolerance ≤ |a|) → ∀ [Decidable (|a| < kTolerance)], (if |a| < kTolerance then 0 else a) = a := by
    intro a ha _
    split
    · rcases ha with rfl | h
      · rfl
      · linarith
    · rfl
  ext
  · exact key _ hx
  · exact key _ hy
  · exact key _ hz

/-- The planes of a quadrilateral: the plane of its corners and, for each side, the plane through it upright on it, up to the length of the normal. -/
structure Sound (q : Quad) (n : V3) (c : Fin 4 → V3) : Prop where
  corner : q.corner = c
  normal : q.plane.n = n
  height : ∀ x, q.plane.height x = n.dot (x - c 0)
  side : ∀ j x, (q.side j).height x = sideArea n c j x / (c (j + 1) - c j).mag

theorem mag_smul {k : ℝ} (hk : 0 ≤ k) (v : V3) : (V3.smul k v).mag = k * v.mag := by
  unfold V3.mag
  rw [show (V3.smul k v).mag2 = k ^ 2 * v.mag2 by simp only [V3.mag2, V3.dot, V3.smul_x, V3.smul_y, V3.smul_z]; ring,
    sqrt_mul (sq_nonneg k), sqrt_sq hk]

theorem mag_pos {v : V3} (h : 0 < v.mag2) : 0 < v.mag := sqrt_pos.2 h

theorem cross_mag {n e : V3} (hn : n.dot n = 1) (he : n.dot e = 0) : (n.cross e).mag = e.mag := by
  unfold V3.mag
  congr 1
  simp only [V3.mag2, V3.dot, V3.cross] at *
  linear_combination (e.x * e.x + e.y * e.y + e.z * e.z) * hn - (n.x * e.x + n.y * e.y + n.z * e.z) * he

theorem planeOf_unit {v : V3} (hv : Clean v) (h1 : v.mag = 1) (a : V3) : ∃ pl, planeOf v a = some pl ∧ ∀ x, pl.height x = v.dot (x - a) := by
  unfold planeOf
  simp only [hv.fix, h1]
  rw [if_neg (by norm_num)]
  refine ⟨_, rfl, fun x => ?_⟩
  simp only [Plane.height, V3.dot, V3.smul_x, V3.smul_y, V3.smul_z, V3.sub_x, V3.sub_y, V3.sub_z]
  ring

variable {n : V3} {c : Fin 4 → V3} {q : Quad}

/-- The unit vector upright on side `j` in the plane. -/
noncomputable def upright (n : V3) (c : Fin 4 → V3) (j : Fin 4) : V3 := V3.smul (1 / (c (j + 1) - c j).mag) (n.cross (c (j + 1) - c j))

theorem sideOf_some {a b : V3} (hn : n.dot n = 1) (he : n.dot (b - a) = 0) (hm : 0 < (b - a).mag2) (hs : same b a = false)
    (hcl : Clean (V3.smul (1 / (b - a).mag) (n.cross (b - a)))) :
    ∃ pl, sideOf n a b = some pl ∧ ∀ x, pl.height x = area n (b - a) (x - a) / (b - a).mag := by
  have hmp := mag_pos hm
  obtain ⟨pl, h1, h2⟩ := planeOf_unit hcl (by rw [mag_smul (by positivity), cross_mag hn he]; field_simp) a
  refine ⟨pl, ?_, fun x => ?_⟩
  · unfold sideOf
    rw [if_neg (by simp [hs])]
    simp only [cross_mag hn he]
    rw [if_neg hmp.ne']
    exact h1
  · rw [h2]
    simp only [area, V3.dot, V3.cross, V3.smul_x, V3.smul_y, V3.smul_z]
    ring

theorem choose_three (h : ∀ i j, i ≠ j → same (c i) (c j) = false) : ∃ l, choose c = c 0 :: c 1 :: c 2 :: l := by
  have h01 := h 0 1 (by decide)
  have h02 := h 0 2 (by decide)
  have h12 := h 1 2 (by decide)
  have h03 := h 0 3 (by decide)
  have h13 := h 1 3 (by decide)
  have h23 := h 2 3 (by decide)
  refine ⟨[c 3], ?_⟩
  simp [choose, h01, h02, h12, h03, h13, h23]

theorem planeThrough_some {u v w : V3} (hn : n.dot n = 1) (hv : n.dot (v - u) = 0) (hw : n.dot (w - u) = 0) (ht : 0 < area n (v - u) (w - u)) (hcl : Clean n) :
    ∃ pl, planeThrough u v w = some pl ∧ pl.n = n ∧ ∀ x, pl.height x = n.dot (x - u) := by
  have hN : (V3.mk (u.y * (v.z - w.z) + v.y * (w.z - u.z) + w.y * (u.z - v.z)) (u.z * (v.x - w.x) + v.z * (w.x - u.x) + w.z * (u.x - v.x))
      (u.x * (v.y - w.y) + v.x * (w.y - u.y) + w.x * (u.y - v.y))) = V3.smul (area n (v - u) (w - u)) n := by
    rw [← cross_perp hn hv hw]
    ext <;> simp only [V3.cross, V3.sub_x, V3.sub_y, V3.sub_z] <;> ring
  have h1 : n.mag = 1 := by unfold V3.mag V3.mag2; rw [hn, sqrt_one]
  have hX := congrArg V3.x hN
  have hY := congrArg V3.y hN
  have hZ := congrArg V3.z hN
  simp only [V3.smul_x, V3.smul_y, V3.smul_z] at hX hY hZ
  unfold planeThrough
  simp only [hN]
  generalize area n (v - u) (w - u) = k at *
  have hm : (V3.smul k n).mag = k := by rw [mag_smul ht.le, h1, mul_one]
  rw [hm, if_neg ht.ne']
  have hs : V3.smul (1 / k) (V3.smul k n) = n := by
    ext <;> simp only [V3.smul_x, V3.smul_y, V3.smul_z] <;> field_simp
  rw [hs, hcl.fix]
  refine ⟨_, rfl, rfl, fun x => ?_⟩
  simp only [Plane.height, V3.dot, V3.sub_x, V3.sub_y, V3.sub_z]
  have hd : -u.x * (v.y * w.z - w.y * v.z) - v.x * (w.y * u.z - u.y * w.z) - w.x * (u.y * v.z - v.y * u.z) =
      -(k * (n.x * u.x + n.y * u.y + n.z * u.z)) := by
    linear_combination (-u.x) * hX - u.y * hY - u.z * hZ
  rw [hd]
  field_simp
  ring

/-- C196: `Set` of a flat convex quadrilateral in counterclockwise order computes the plane of the corners and the planes of the sides. -/
theorem C196_set (hc : Convex n c) (ha : ∀ i j, i ≠ j → same (c i) (c j) = false) (hn : Clean n) (hs : ∀ j, Clean (upright n c j)) :
    ∃ q, make c = some q ∧ Sound q n c := by
  obtain ⟨l, hl⟩ := choose_three ha
  obtain ⟨pl, hp, hpn, hph⟩ := planeThrough_some hc.unit (hc.flat 1) (hc.flat 2) (hc.turn 0).1 hn
  have hside : ∀ j, ∃ s, sideOf n (c j) (c (j + 1)) = some s ∧ ∀ x, s.height x = sideArea n c j x / (c (j + 1) - c j).mag := by
    intro j
    exact sideOf_some hc.unit (hc.flat' (hc.flat (j + 1)) j) (mag2_pos_of_area (hc.turn j).1.ne') (ha _ _ (by omega)) (hs j)
  obtain ⟨s0, e0, h0⟩ := hside 0
  obtain ⟨s1, e1, h1⟩ := hside 1
  obtain ⟨s2, e2, h2⟩ := hside 2
  obtain ⟨s3, e3, h3⟩ := hside 3
  refine ⟨⟨pl, ![s0, s1, s2, s3], c⟩, ?_, rfl, hpn, hph, ?_⟩
  · unfold make
    rw [hl]
    simp only [hp, hpn, Option.bind_eq_bind, Option.bind_some]
    rw [show (1 : Fin 4) = 0 + 1 from rfl, e0]
    rw [show (0 : Fin 4) + 1 = 1 from rfl, show (2 : Fin 4) = 1 + 1 from rfl, e1]
    rw [show (1 : Fin 4) + 1 = 2 from rfl, show (3 : Fin 4) = 2 + 1 from rfl, e2]
    rw [show (2 : Fin 4) + 1 = 3 from rfl]
    rw [show sideOf n (c 3) (c 0) = some s3 from e3]
    rfl
  · intro j
    fin_cases j
    · exact h0
    · exact h1
    · exact h2
    · exact h3

/-! ## The distance to a quadrilateral -/

theorem loop_spec {α : Type} (out : α → Prop) [DecidablePred out] (f : α → ℝ) (l : List α) (m : ℝ) :
    let r := l.foldl (fun m j => if out j then (if f j < m then f j else m) else m) m
    (∀ j ∈ l, out j → r ≤ f j) ∧ (r = m ∨ ∃ j ∈ l, out j ∧ r = f j) := by
  classical
  have e : (fun (m : ℝ) (j : α) => if out j then (if f j < m then f j else m) else m) = fun m j => if out j ∧ f j < m then f j else m := by
    funext m j
    by_cases h : out j
    · by_cases h' : f j < m <;> simp [h, h']
    · simp [h]
  obtain ⟨-, h2, h3⟩ := least out f l m
  simp only [e]
  exact ⟨h2, h3⟩

theorem Convex.side_inQuad {s : ℝ} (h0 : 0 ≤ s) (h1 : s ≤ 1) (j : Fin 4) : InQuad c (c j + V3.smul s (c (j + 1) - c j)) := by
  fin_cases j
  · refine ⟨![1 - s, s, 0, 0], ?_, by simp, ?_⟩
    · intro i; fin_cases i <;> simp [h0, h1]
    · ext <;> simp <;> ring
  · refine ⟨![0, 1 - s, s, 0], ?_, by simp, ?_⟩
    · intro i; fin_cases i <;> simp [h0, h1]
    · ext <;> simp <;> ring
  · refine ⟨![0, 0, 1 - s, s], ?_, by simp, ?_⟩
    · intro i; fin_cases i <;> simp [h0, h1]
    · ext <;> simp <;> ring
  · refine ⟨![s, 0, 0, 1 - s], ?_, by simp, ?_⟩
    · intro i; fin_cases i <;> simp [h0, h1]
    · ext <;> simp <;> ring

theorem distanceSq_spec (hc : Convex n c) (hs : Sound q n c) (p : V3) (hb : ∀ j, V3.dist2 p (c j) < kInfLength) :
    (∀ x, InQuad c x → q.distanceSq p ≤ V3.dist2 p x) ∧ ∃ x, InQuad c x ∧ q.distanceSq p = V3.dist2 p x := by
  have hm : ∀ j, 0 < (c (j + 1) - c j).mag := fun j => mag_pos (mag2_pos_of_area (hc.turn j).1.ne')
  have hside : ∀ j x, (q.side j).height x ≥ 0 ↔ 0 ≤ sideArea n c j x := by
    intro j x
    rw [hs.side, ge_iff_le, le_div_iff₀ (hm j), zero_mul]
  have hu := hc.unit
  obtain ⟨h, hh⟩ : ∃ h, h = n.dot (p - c 0) := ⟨_, rfl⟩
  obtain ⟨y, hy⟩ : ∃ y, y = p - V3.smul h n := ⟨_, rfl⟩
  have hyp : n.dot (y - c 0) = 0 := by
    rw [hy]
    simp only [V3.dot, V3.sub_x, V3.sub_y, V3.sub_z, V3.smul_x, V3.smul_y, V3.smul_z] at *
    linear_combination (-h) * hu - hh
  have hpy : ∀ x, n.dot (x - c 0) = 0 → V3.dist2 p x = h * h + V3.dist2 y x := by
    intro x hx
    rw [hy]
    simp only [V3.dist2, V3.dot, V3.sub_x, V3.sub_y, V3.sub_z, V3.smul_x, V3.smul_y, V3.smul_z] at *
    linear_combination (-(h * h)) * hu - 2 * h * (hh + hx)
  unfold Quad.distanceSq
  simp only [hs.height, hs.normal, hs.corner, ← hh, ← hy, hside]
  split
  · rename_i hin
    have hyq := hc.inQuad hyp hin
    refine ⟨fun x hx => ?_, y, hyq, ?_⟩
    · rw [hpy x (hc.in_plane hx)]
      linarith [V3.dist2_nonneg y x]
    · rw [hpy y hyp]
      simp [V3.dist2]
  · rename_i hout
    push Not at hout
    obtain ⟨l1, l2⟩ := loop_spec (fun j => ¬ 0 ≤ sideArea n c j y) (fun j => segmentSq (c j) (c (j + 1)) p) [0, 1, 2, 3] kInfLength
    have hmem : ∀ j : Fin 4, j ∈ [(0 : Fin 4), 1, 2, 3] := by decide
    refine ⟨fun x hx => ?_, ?_⟩
    · obtain ⟨j, hj, s, s0, s1, t, t0, t1, e⟩ := hc.crosses hx hyp hout
      refine (l1 j (hmem j) (by push Not; exact hj)).trans (((C196_segment _ _ p (hb (j + 1))).1 s s0 s1).trans ?_)
      have hr : n.dot (c j + V3.smul s (c (j + 1) - c j) - c 0) = 0 := hc.in_plane (Convex.side_inQuad s0 s1 j)
      rw [hpy _ hr, hpy x (hc.in_plane hx), e]
      have e2 : V3.dist2 y (x + V3.smul t (y - x)) = (1 - t) ^ 2 * V3.dist2 y x := by
        simp only [V3.dist2, V3.sub_x, V3.sub_y, V3.sub_z, V3.add_x, V3.add_y, V3.add_z, V3.smul_x, V3.smul_y, V3.smul_z]; ring
      rw [e2]
      have := V3.dist2_nonneg y x
      nlinarith [mul_nonneg (mul_nonneg t0 (show 0 ≤ 2 - t by linarith)) this]
    · obtain ⟨j0, hj0⟩ := hout
      have hlt : segmentSq (c j0) (c (j0 + 1)) p < kInfLength := by
        have := (C196_segment (c j0) (c (j0 + 1)) p (hb (j0 + 1))).1 0 (le_refl _) zero_le_one
        rw [segment_sq] at this
        have h2 := hb j0
        rw [← mag2_sub] at h2
        linarith
      have hle := l1 j0 (hmem j0) (by push Not; exact hj0)
      rcases l2 with l2 | ⟨j, -, -, e⟩
      · exfalso
        rw [l2] at hle
        linarith
      · obtain ⟨s, s0, s1, e'⟩ := (C196_segment (c j) (c (j + 1)) p (hb (j + 1))).2
        exact ⟨_, Convex.side_inQuad s0 s1 j, by rw [e]; exact e'⟩

/-- C196: `ScalarDistanceSquared` of a flat convex quadrilateral is the square of the distance: no point of it is nearer, and one is as near. -/
theorem C196_distance (hc : Convex n c) (ha : ∀ i j, i ≠ j → same (c i) (c j) = false) (hn : Clean n) (hs : ∀ j, Clean (upright n c j))
    (hq : make c = some q) (p : V3) (hb : ∀ j, V3.dist2 p (c j) < kInfLength) :
    (∀ x, InQuad c x → q.distanceSq p ≤ V3.dist2 p x) ∧ ∃ x, InQuad c x ∧ q.distanceSq p = V3.dist2 p x := by
  obtain ⟨q', e, hq'⟩ := C196_set hc ha hn hs
  rw [hq] at e
  cases e
  exact distanceSq_spec hc hq' p hb

/-- C196: all points of the quadrilateral pass the test of hits, and a point of its plane that passes it is at most the tolerance beyond each side. -/
theorem C196_hit (hc : Convex n c) (ha : ∀ i j, i ≠ j → same (c i) (c j) = false) (hn : Clean n) (hs : ∀ j, Clean (upright n c j)) (hq : make c = some q) (x : V3) :
    (InQuad c x → q.Hit x) ∧ (q.Hit x ↔ ∀ j, -kTolerance ≤ (upright n c j).dot (x - c j)) := by
  obtain ⟨q', e, hq'⟩ := C196_set hc ha hn hs
  rw [hq] at e
  cases e
  have htol := kTolerance_pos
  have hm : ∀ j, 0 < (c (j + 1) - c j).mag := fun j => mag_pos (mag2_pos_of_area (hc.turn j).1.ne')
  refine ⟨fun hx j => ?_, ?_⟩
  · rw [hq'.side]
    have := div_nonneg (hc.in_side hx j) (hm j).le
    linarith
  · have e : ∀ j, (q.side j).height x = (upright n c j).dot (x - c j) := by
      intro j
      rw [hq'.side]
      simp only [sideArea, area, upright, V3.dot, V3.cross, V3.smul_x, V3.smul_y, V3.smul_z]
      ring
    unfold Quad.Hit
    simp only [e]

/-! ## Examples -/

/-- A square of side 2 in the plane z = 1. -/
def square : Fin 4 → V3 := ![⟨-1, -1, 1⟩, ⟨1, -1, 1⟩, ⟨1, 1, 1⟩, ⟨-1, 1, 1⟩]

theorem square_at : square 0 = ⟨-1, -1, 1⟩ ∧ square 1 = ⟨1, -1, 1⟩ ∧ square 2 = ⟨1, 1, 1⟩ ∧ square 3 = ⟨-1, 1, 1⟩ := ⟨rfl, rfl, rfl, rfl⟩

theorem fin_add : (1 : Fin 4) + 1 = 2 ∧ (1 : Fin 4) + 2 = 3 ∧ (1 : Fin 4) + 3 = 0 ∧ (2 : Fin 4) + 1 = 3 ∧ (2 : Fin 4) + 2 = 0 ∧ (2 : Fin 4) + 3 = 1 ∧
    (3 : Fin 4) + 1 = 0 ∧ (3 : Fin 4) + 2 = 1 ∧ (3 : Fin 4) + 3 = 2 := by decide

theorem four (j : Fin 4) : j = 0 ∨ j = 1 ∨ j = 2 ∨ j = 3 := by omega

theorem square_convex : Convex ⟨0, 0, 1⟩ square := by
  refine ⟨by norm_num [V3.dot], ?_, ?_⟩
  · intro i; rcases four i with rfl | rfl | rfl | rfl <;> norm_num [V3.dot, square_at, fin_add]
  · intro j; rcases four j with rfl | rfl | rfl | rfl <;> norm_num [V3.dot, square_at, fin_add, area, V3.cross]

theorem square_apart : ∀ i j, i ≠ j → same (square i) (square j) = false := by
  intro i j hij
  unfold same
  rw [decide_eq_false_iff_not]
  rcases four i with rfl | rfl | rfl | rfl <;> rcases four j with rfl | rfl | rfl | rfl <;> first | exact absurd rfl hij | norm_num [square_at, fin_add, kTolerance]

theorem square_side (j : Fin 4) : (square (j + 1) - square j).mag = 2 := by
  unfold V3.mag
  rw [show (square (j + 1) - square j).mag2 = 2 ^ 2 by rcases four j with rfl | rfl | rfl | rfl <;> norm_num [V3.mag2, V3.dot, square_at, fin_add], sqrt_sq (by norm_num)]

theorem square_clean : ∀ j, Clean (upright ⟨0, 0, 1⟩ square j) := by
  intro j
  unfold upright
  rw [square_side]
  rcases four j with rfl | rfl | rfl | rfl <;> norm_num [Clean, V3.cross, square_at, fin_add, kTolerance]

example : ∃ q, make square = some q ∧ Sound q ⟨0, 0, 1⟩ square :=
  C196_set square_convex square_apart (by norm_num [Clean, kTolerance]) square_clean

/-- Beyond a corner. -/
example : ∀ j, V3.dist2 ⟨3, 3, 4⟩ (square j) < kInfLength := by
  have := kInfLength_large
  intro j
  rcases four j with rfl | rfl | rfl | rfl <;> norm_num [V3.dist2, square_at, fin_add] <;> linarith

example : ∃ q, make square = some q ∧ (∀ x ∈ [q], x.plane.n.dot ⟨0, 0, 0⟩ + x.plane.d ≤ 0) ∧ distanceToOut [q] ⟨0, 0, 0⟩ ⟨0, 0, 1⟩ (-5) 5 = 1 := by
  obtain ⟨q, hq, hs⟩ := C196_set square_convex square_apart (by norm_num [Clean, kTolerance]) square_clean
  have hh : q.plane.height ⟨0, 0, 0⟩ = -1 := by rw [hs.height]; norm_num [V3.dot, square_at, fin_add]
  have hk := kInfLength_large
  refine ⟨q, hq, ?_, ?_⟩
  · intro x hx
    rw [List.mem_singleton] at hx
    subst hx
    show x.plane.height _ ≤ 0
    rw [hh]; norm_num
  · unfold distanceToOut
    simp only [List.foldl_cons, List.foldl_nil, outStep, hh, hs.normal]
    norm_num [V3.dot, kTolerance]
    simp only [if_neg (show ¬ kInfLength ≤ 1 by linarith)]
    norm_num

/-- Two planes around the origin. -/
example : (Planes.mk [⟨⟨1, 0, 0⟩, -1⟩, ⟨⟨-1, 0, 0⟩, -1⟩] true).contains ⟨0, 0, 0⟩ = true := by
  rw [C193_contains_partial rfl]
  intro pl h
  simp only [List.mem_cons, List.not_mem_nil, or_false] at h
  rcases h with rfl | rfl <;> norm_num [V3.dot]

end Quad
end VecGeom
