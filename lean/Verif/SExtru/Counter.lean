import Verif.SExtru.Concave

/-!
# Counterexamples for the distances into extruded polygons, and cases for C98, C99
-/

namespace VecGeom
namespace SExtru

open Real Polygon

theorem sq_depth_eq (q : ℝ × ℝ) : depth 4 (fun i => (sqx i, sqy i)) 0 q = q.2 ∧ depth 4 (fun i => (sqx i, sqy i)) 3 q = q.1 := by
  have hs : sgn 4 (fun i => (sqx i, sqy i)) = 1 := by
    unfold sgn; rw [← orientation_eq, sq_area_nonneg, if_pos (by norm_num)]
  unfold depth
  rw [hs]
  constructor <;> simp [side, dist2, sqx, sqy]

/-- C99: convex: a ray that crosses the unit cube through its middle, almost parallel to a face, is not seen to reach it. -/
theorem C99_in_convex_counterexample :
    let e : ℝ := 1 / 10 ^ 10
    let d : V3 := ⟨(1 - e ^ 2) / (1 + e ^ 2), 2 * e / (1 + e ^ 2), 0⟩
    let p : V3 := ⟨-1, 1 / 2, 1 / 2⟩
    d.x ^ 2 + d.y ^ 2 + d.z ^ 2 = 1 ∧
      (∀ j, j < 4 → 4 / 10 < depth 4 (fun i => (sqx i, sqy i)) j ((pos p d (3 / 2)).x, (pos p d (3 / 2)).y)) ∧
      (pos p d (3 / 2)).z = 1 / 2 ∧ distanceToIn 4 (cube 0) p d = kInfLength := by
  intro e d p
  refine ⟨?_, fun j hj => sq_depth ?_ hj, ?_, ?_⟩
  · simp only [d, e]; norm_num
  · simp only [pos, p, d, e]; norm_num
  · simp only [pos, p, d, e]; norm_num
  · have g := cube_given 0
    obtain ⟨hp, h1, h2⟩ := g.poly
    have hflag := (C95_flag g.few hp).2 sq_convex
    have hTol := kTolerance_pos
    have hexp : distanceToIn 4 (cube 0) p d = shellInConvex (cube 0) p d := by unfold distanceToIn; rw [hflag, if_pos rfl]
    rw [hexp, shellInConvex_eq]
    dsimp only
    rw [g.poly_n, h1, h2]
    obtain ⟨i0, hi0, l0⟩ := g.depth_line sq_unchopped (show 0 < 4 by norm_num)
    obtain ⟨i3, hi3, l3⟩ := g.depth_line sq_unchopped (show 3 < 4 by norm_num)
    have a0 := lineVal_pos (cube 0).poly p d 1 i0
    have a3 := lineVal_pos (cube 0).poly p d 1 i3
    rw [l0, l0, one_mul, (sq_depth_eq _).1, (sq_depth_eq _).1] at a0
    rw [l3, l3, one_mul, (sq_depth_eq _).2, (sq_depth_eq _).2] at a3
    have v0 : lineVal (cube 0).poly (p.x, p.y) i0 = -(1 / 2) := by rw [l0, (sq_depth_eq _).1]
    have v3 : lineVal (cube 0).poly (p.x, p.y) i3 = 1 := by rw [l3, (sq_depth_eq _).2]; simp [p]
    have r0 : rate (cube 0).poly d i0 = -(2 * e / (1 + e ^ 2)) := by
      have : (pos p d 1).y = 1 / 2 + 2 * e / (1 + e ^ 2) := by simp only [pos, p, d]; ring
      rw [this] at a0; simp only [p] at a0; linarith
    have r3 : rate (cube 0).poly d i3 = -((1 - e ^ 2) / (1 + e ^ 2)) := by
      have : (pos p d 1).x = -1 + (1 - e ^ 2) / (1 + e ^ 2) := by simp only [pos, p, d]; ring
      rw [this] at a3; simp only [p] at a3; linarith
    have n0 : rate (cube 0).poly d i0 < 0 := by rw [r0]; simp only [e]; norm_num
    have n0' : -kTolerance < rate (cube 0).poly d i0 := by rw [r0]; simp only [e]; unfold kTolerance; norm_num
    have n3 : rate (cube 0).poly d i3 < 0 := by rw [r3]; simp only [e]; norm_num
    split
    · rfl
    · rcases inConvex_fold (s := cube 0) p d 4 (slabIn (1 / 2 * (0 + 1 - 0)) (p.z - 1 / 2 * (0 + (0 + 1))) d.z)
        (slabOut (1 / 2 * (0 + 1 - 0)) (p.z - 1 / 2 * (0 + (0 + 1))) d.z) with ⟨-, e⟩ | ⟨a, b, e, -, -, -, f4, f5, -, -⟩
      · rw [e]
      · rw [e]
        dsimp only
        have hb := f5 i0 hi0 (by rw [v0]; unfold kTolerance; norm_num) n0'
        have ha := f4 i3 hi3 (by rw [v3]; linarith)
        have hb' : hit (cube 0).poly p d i0 ≤ 0 := by
          unfold hit; rw [v0]; exact div_nonpos_of_nonneg_of_nonpos (by norm_num) (nonZero_neg n0).le
        have ha' : 0 ≤ hit (cube 0).poly p d i3 := by
          unfold hit; rw [v3]; exact div_nonneg_of_nonpos (by norm_num) (nonZero_neg n3).le
        rw [if_pos (by linarith)]

/-- C99: not convex: from a point outside, moving away from the solid, the distance to it is negative. -/
theorem C99_in_concave_counterexample :
    let e : ℝ := kTolerance / 20
    let d : V3 := ⟨(1 - e ^ 2) / (1 + e ^ 2), 0, 2 * e / (1 + e ^ 2)⟩
    let p : V3 := ⟨5 * (1 - e ^ 2), 1, kTolerance / 2⟩
    d.x ^ 2 + d.y ^ 2 + d.z ^ 2 = 1 ∧ (∀ t, 0 ≤ t → ¬ InSolid 4 (fun i => (arx i, ary i)) 0 1 (pos p d t)) ∧
      distanceToIn 4 (arrow 0 1) p d < -4 := by
  intro e d p
  have g := arrow_given (lo := 0) (hi := 1) (by norm_num)
  have hTol := kTolerance_pos
  have hsmall : e ^ 2 ≤ 1 / 100 := by simp only [e]; unfold kTolerance; norm_num
  have he0 : 0 < e := by simp only [e]; linarith
  have hpos : 0 < 1 + e ^ 2 := by positivity
  refine ⟨?_, ?_, ?_⟩
  · simp only [d]; field_simp; ring
  · intro t t0 h
    have hb := region_box (v := fun i => (arx i, ary i)) (a := -2) (b := 2) (c := -1) (d := 3) (by norm_num) h.2.2 (by
      intro i hi
      have ci : i = 0 ∨ i = 1 ∨ i = 2 ∨ i = 3 := by omega
      rcases ci with rfl | rfl | rfl | rfl <;> simp [arx, ary] <;> norm_num)
    have hx : 2 < (pos p d t).x := by
      simp only [pos, p, d]
      have : 0 ≤ t * ((1 - e ^ 2) / (1 + e ^ 2)) := mul_nonneg t0 (div_nonneg (by linarith) hpos.le)
      linarith
    linarith [hb.2.1]
  · obtain ⟨hp, h1, h2⟩ := g.poly
    have hz : 0 < d.z := by simp only [d]; positivity
    have hdist : -(p.z - 0) / |d.z| = -5 * (1 + e ^ 2) := by
      rw [abs_of_pos hz]
      simp only [d, p]
      rw [show kTolerance = 20 * e by simp only [e]; ring]
      field_simp
      ring
    unfold distanceToIn
    rw [arrow_flag, if_neg (by simp)]
    dsimp only
    rw [h1, h2, if_pos hz, hdist]
    have hx : p.x + -5 * (1 + e ^ 2) * d.x = 0 := by simp only [p, d]; field_simp; ring
    have hy : p.y + -5 * (1 + e ^ 2) * d.y = 1 := by simp only [p, d]; ring
    have hc : containsVec 4 (arrow 0 1).poly 0 1 = true := (g.general (q := (0, 1)) ar_clear).mpr ar_region
    rw [hx, hy, if_pos ⟨by simp only [p]; linarith, hz.ne', hc⟩]
    have hsq := sq_nonneg e
    have hk := kInf_huge
    have : (0 : ℝ) < 10 ^ 200 := by positivity
    rw [if_neg (by intro h; linarith)]
    linarith

theorem ar_unchopped : Unchopped 4 (fun i => (arx i, ary i)) := by
  intro i hi c hc
  have ci : i = 0 ∨ i = 1 ∨ i = 2 ∨ i = 3 := by omega
  by_cases h0 : c = 0
  · exact Or.inl h0
  right
  have hlen : √(dist2 (arx i, ary i) (arx ((i + 1) % 4), ary ((i + 1) % 4))) ≤ 5 := by
    rw [sqrt_le_left (by norm_num)]
    rcases ci with rfl | rfl | rfl | rfl <;> simp [dist2, arx, ary] <;> norm_num
  have hc1 : 1 ≤ |c| := by
    rcases ci with rfl | rfl | rfl | rfl <;> rcases hc with rfl | rfl | rfl <;> simp [arx, ary] at h0 ⊢ <;>
      (try rw [le_abs']) <;> norm_num
  have hl := root_pos (arrow_given (lo := 0) (hi := 1) (by norm_num)).distinct hi
  rw [le_div_iff₀ hl]
  have : kTolerance ≤ 1 / 5 := by unfold kTolerance; norm_num
  nlinarith

theorem ar_depth (q : ℝ × ℝ) : depth 4 (fun i => (arx i, ary i)) 0 q = (6 - 4 * q.1 - 2 * q.2) / √20 := by
  have hs : sgn 4 (fun i => (arx i, ary i)) = -1 := by
    unfold sgn; rw [← orientation_eq, ar_orientation, if_neg (by norm_num)]
  unfold depth
  rw [hs]
  simp [side, dist2, arx, ary]
  norm_num
  ring

/-- From the middle of the arrow sideways: the right edge is met, and left through, at the distance 1. -/
theorem ar_meets : Meets 4 (fun i => (arx i, ary i)) 0 1 ⟨0, 1, 1 / 2⟩ ⟨1, 0, 0⟩ 0 1 := by
  have hl : √(dist2 (arx 0, ary 0) (arx 1, ary 1)) ≤ 5 := by
    rw [sqrt_le_left (by norm_num)]
    simp [dist2, arx, ary]; norm_num
  refine ⟨by norm_num, by norm_num, by norm_num, ?_, ⟨1 / 2, by norm_num, by norm_num, ?_⟩, ?_, ?_⟩
  · rw [one_mul]; exact hl.trans (by norm_num)
  · ext <;> simp [pos, arx, ary] <;> norm_num
  · simp only [pos]; unfold kTolerance; norm_num
  · simp only [pos]; unfold kTolerance; norm_num

example : ∃ r, distanceToOut (arrow 0 1) ⟨0, 1, 1 / 2⟩ ⟨1, 0, 0⟩ = some r ∧ r ≤ 1 := by
  refine C98_out_concave_complete (arrow_given (by norm_num)) (arrow_flag 0 1) ar_unchopped _ _ (by norm_num) (by norm_num) 0 1 ar_meets ?_
  rw [ar_depth, ar_depth]
  simp only [pos]
  have h20 : √20 ≤ 5 := by rw [sqrt_le_left (by norm_num)]; norm_num
  have hpos : 0 < √20 := sqrt_pos.mpr (by norm_num)
  have : kTolerance ≤ 4 / √20 := by rw [le_div_iff₀ hpos]; unfold kTolerance; linarith
  have e : (6 - 4 * (0 : ℝ) - 2 * 1) / √20 - (6 - 4 * (0 + 1 * 1) - 2 * (1 + 1 * 0)) / √20 = 6 / √20 - 2 / √20 := by ring
  have e2 : 4 / √20 = 6 / √20 - 2 / √20 := by ring
  linarith

/-- From the right, inwards, through the same edge. -/
example : distanceToIn 4 (arrow 0 1) ⟨2, 1, 1 / 2⟩ ⟨-1, 0, 0⟩ ≤ 1 := by
  have hm : Meets 4 (fun i => (arx i, ary i)) 0 1 ⟨2, 1, 1 / 2⟩ ⟨-1, 0, 0⟩ 0 1 := by
    obtain ⟨h1, h2, h3, h4, h5, h6, h7⟩ := ar_meets
    refine ⟨h1, h2, h3, h4, ?_, h6.trans (by simp [pos]), le_trans (by simp [pos]) h7⟩
    have e : ((pos ⟨2, 1, 1 / 2⟩ ⟨-1, 0, 0⟩ 1).x, (pos ⟨2, 1, 1 / 2⟩ ⟨-1, 0, 0⟩ 1).y) = ((pos ⟨0, 1, 1 / 2⟩ ⟨1, 0, 0⟩ 1).x, (pos ⟨0, 1, 1 / 2⟩ ⟨1, 0, 0⟩ 1).y) := by
      simp only [pos]; norm_num
    rw [e]; exact h5
  refine (C99_in_concave_complete (arrow_given (by norm_num)) (arrow_flag 0 1) _ _).1 ar_unchopped (by norm_num) (by norm_num) 0 1 hm ?_
  rw [ar_depth, ar_depth]
  simp only [pos]
  have h20 : √20 ≤ 5 := by rw [sqrt_le_left (by norm_num)]; norm_num
  have hpos : 0 < √20 := sqrt_pos.mpr (by norm_num)
  have : kTolerance ≤ 4 / √20 := by rw [le_div_iff₀ hpos]; unfold kTolerance; linarith
  have e : (6 - 4 * ((2 : ℝ) + 1 * -1) - 2 * (1 + 1 * 0)) / √20 - (6 - 4 * 2 - 2 * 1) / √20 = 4 / √20 := by ring
  linarith

/-- From below, upwards through the plane. -/
example : distanceToIn 4 (arrow 0 1) ⟨0, 1, -3⟩ ⟨0, 0, 1⟩ = 3 := by
  refine (C99_in_concave_complete (arrow_given (by norm_num)) (arrow_flag 0 1) _ _).2 3 (by norm_num) ?_ (Or.inl ⟨by norm_num, by simp [pos]⟩) ?_ ?_
  · have := kInf_huge
    have h : (3 : ℝ) < 10 ^ 200 := by norm_num
    linarith
  · simp only [pos, mul_zero, add_zero]; exact ar_clear
  · simp only [pos, mul_zero, add_zero]; exact ar_region

/-- Into the cube from the left. -/
example : distanceToIn 4 (cube 0) ⟨-1, 1 / 2, 1 / 2⟩ ⟨1, 0, 0⟩ ≤ 3 / 2 := by
  refine C99_in_convex_complete_partial (cube_given 0) sq_convex sq_unchopped _ _ (by norm_num) (by norm_num) _ (by norm_num) ?_ ?_ ?_
  · simp only [pos]; unfold kTolerance; norm_num
  · intro j hj
    refine le_trans ?_ (sq_depth (d := 4 / 10) ?_ hj).le
    · unfold kTolerance; norm_num
    · simp only [pos]; norm_num
  · intro j hj _ h
    have ci : j = 0 ∨ j = 1 ∨ j = 2 ∨ j = 3 := by omega
    have hs : sgn 4 (fun i => (sqx i, sqy i)) = 1 := by
      unfold sgn; rw [← orientation_eq, sq_area_nonneg, if_pos (by norm_num)]
    obtain ⟨h1, h2⟩ := h
    unfold depth at h1 h2
    rw [hs] at h1 h2
    rcases ci with rfl | rfl | rfl | rfl <;> simp [side, dist2, sqx, sqy, pos] at h1 h2 <;> (try unfold kTolerance at h2) <;> (try norm_num at h1) <;> (try norm_num at h2)

end SExtru
end VecGeom
