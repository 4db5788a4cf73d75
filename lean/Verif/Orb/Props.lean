import Verif.Orb.Lemmas
import Mathlib.Analysis.SpecialFunctions.Complex.Arg

/-!
# C44: the orb
-/

namespace VecGeom
namespace Orb

theorem kTolerance_le : kTolerance ≤ 1 / 1000 := by unfold kTolerance; norm_num

/-! ## Membership -/

/-- C44: a point is contained exactly if it is nearer to the centre than the radius plus the tolerance. -/
theorem C44_contains {R : ℝ} (hR : 0 ≤ R) (p : V3) : contains R p = true ↔ p.mag < R + kTolerance := by
  have ht := kTolerance_pos
  rw [V3.mag_lt_iff (by linarith)]
  simp [contains, genericKernel]

/-- C44: the classification for radii not below the tolerance: inside up to the radius minus the tolerance, outside from
the radius plus the tolerance on, surface between. -/
theorem C44_inside {R : ℝ} (hR : kTolerance ≤ R) (p : V3) :
    (inside R p = .inside ↔ p.mag ≤ R - kTolerance) ∧ (inside R p = .outside ↔ R + kTolerance ≤ p.mag) ∧
    (inside R p = .surface ↔ R - kTolerance < p.mag ∧ p.mag < R + kTolerance) := by
  have ht := kTolerance_pos
  have h1 : (genericKernel R p).1 = true ↔ p.mag ≤ R - kTolerance := by
    rw [V3.mag_le_iff (by linarith)]; simp [genericKernel]
  have h2 : (genericKernel R p).2 = true ↔ R + kTolerance ≤ p.mag := by
    rw [V3.le_mag_iff (by linarith)]; simp [genericKernel]
  unfold inside
  dsimp only
  by_cases c1 : p.mag ≤ R - kTolerance
  · rw [if_pos (h1.mpr c1)]
    simp only [reduceCtorEq, true_iff, false_iff, not_and, not_lt, not_le]
    exact ⟨c1, by linarith, fun h => by linarith⟩
  · rw [if_neg (mt h1.mp c1)]
    by_cases c2 : R + kTolerance ≤ p.mag
    · rw [if_pos (h2.mpr c2)]
      simp only [reduceCtorEq, true_iff, false_iff, not_and, not_lt, not_le]
      exact ⟨by linarith, c2, fun _ => c2⟩
    · rw [if_neg (mt h2.mp c2)]
      push Not at c1 c2
      simp only [reduceCtorEq, true_iff, false_iff, not_le]
      exact ⟨c1, c2, c1, c2⟩

/-- C44: below the tolerance the classification is wrong: for a radius of a quarter of the tolerance a point at half the
tolerance, outside of the ball, is classified inside. -/
theorem C44_tiny_radius_counterexample :
    ∃ (R : ℝ) (p : V3), 0 < R ∧ R < p.mag ∧ inside R p = .inside := by
  have ht := kTolerance_pos
  refine ⟨kTolerance / 4, ⟨kTolerance / 2, 0, 0⟩, by linarith, ?_, ?_⟩
  · rw [← not_le, V3.mag_le_iff (by linarith)]
    simp only [V3.mag2_eq]; nlinarith
  · have : (genericKernel (kTolerance / 4) ⟨kTolerance / 2, 0, 0⟩).1 = true := by
      apply decide_eq_true
      simp only [V3.mag2_eq]
      nlinarith
    unfold inside
    dsimp only
    rw [if_pos this]

example : contains 1 ⟨1 / 2, 1 / 2, 1 / 2⟩ = true := by
  have ht := kTolerance_pos
  rw [C44_contains (by norm_num), V3.mag_lt_iff (by linarith)]
  norm_num [V3.mag2_eq]; nlinarith

/-! ## Distances -/

theorem le_sqrt_abs_iff {x D : ℝ} (hD : 0 ≤ D) : x * x ≤ D ↔ -Real.sqrt |D| ≤ x ∧ x ≤ Real.sqrt |D| := by
  rw [abs_of_nonneg hD, ← abs_le, ← Real.sqrt_sq_eq_abs, sq]
  rw [Real.sqrt_le_sqrt_iff hD]

/-- C44: entering from outside the tolerance band.  If the ray meets the ball, the distance to enter is nonnegative,
leads onto the sphere, and all earlier points of the ray are outside. -/
theorem C44_distance_in {R : ℝ} (hR : 0 ≤ R) {p d : V3} (hd : Unit d) (hp : R + kTolerance < p.mag) {t : ℝ} (ht : 0 ≤ t)
    (hin : (V3.at' p d t).mag ≤ R) :
    0 ≤ distanceToIn R p d ∧ (V3.at' p d (distanceToIn R p d)).mag = R ∧
    ∀ s, 0 ≤ s → s < distanceToIn R p d → R < (V3.at' p d s).mag := by
  have htol := kTolerance_pos
  have hball := (ray_ball hR hd t).mp hin
  set b := p.dot d with hb
  set D := b * b - (p.mag2 - R * R) with hD
  have hD0 : 0 ≤ D := le_trans (mul_self_nonneg _) hball
  have hc : 0 < p.mag2 - R * R := by
    have := (not_le.mpr hp)
    rw [V3.mag_le_iff (by linarith)] at this
    nlinarith
  have hb0 : b ≤ 0 := by
    by_contra h
    push Not at h
    nlinarith
  have hdist : distanceToIn R p d = -b - Real.sqrt |D| := by
    unfold distanceToIn
    dsimp only
    rw [if_neg (by linarith), if_neg (by rintro ⟨⟨_, h⟩, _⟩; linarith)]
    simp only [detect, if_true, ← hb, ← hD, if_pos (show D ≥ 0 ∧ b ≤ 0 from ⟨hD0, hb0⟩), decide_true,
      show (D ≥ 0 ∧ b ≤ 0) = True from eq_true ⟨hD0, hb0⟩]
  have hs0 := Real.sqrt_nonneg |D|
  have hsq : Real.sqrt |D| * Real.sqrt |D| = D := by rw [Real.mul_self_sqrt (abs_nonneg _), abs_of_nonneg hD0]
  rw [hdist]
  refine ⟨?_, ?_, ?_⟩
  · nlinarith
  · rw [ray_sphere hR hd, ← hb, ← hD]
    linear_combination hsq
  · intro s _ hlt
    rw [← not_le, ray_ball hR hd, ← hb, ← hD, le_sqrt_abs_iff hD0]
    rintro ⟨h1, _⟩
    linarith

/-- C44: a ray that starts outside the tolerance band and does not meet the ball gets the infinite distance. -/
theorem C44_distance_in_miss {R : ℝ} (hR : 0 ≤ R) {p d : V3} (hd : Unit d) (hp : R + kTolerance < p.mag)
    (hmiss : ∀ t, 0 ≤ t → R < (V3.at' p d t).mag) : distanceToIn R p d = kInfLength := by
  have htol := kTolerance_pos
  unfold distanceToIn
  dsimp only
  rw [if_neg (by linarith), if_neg (by rintro ⟨⟨_, h⟩, _⟩; linarith)]
  by_cases hc : p.dot d * p.dot d - (p.mag2 - R * R) ≥ 0 ∧ p.dot d ≤ 0
  · exfalso
    have := hmiss (-p.dot d) (by linarith [hc.2])
    rw [← not_le, ray_ball hR hd] at this
    apply this
    have e : -p.dot d + p.dot d = 0 := by ring
    rw [e]; linarith [hc.1]
  · simp only [detect, hc, decide_false, Bool.false_eq_true, if_false, if_true]

/-- C44: in the tolerance band the distance to enter is zero for inward and infinite for outward directions. -/
theorem C44_distance_in_surface {R : ℝ} {p d : V3} (h1 : R - kTolerance ≤ p.mag) (h2 : p.mag ≤ R + kTolerance) :
    (p.dot d < 0 → distanceToIn R p d = 0) ∧ (0 < p.dot d → distanceToIn R p d = kInfLength) := by
  unfold distanceToIn
  dsimp only
  constructor
  · intro h
    rw [if_neg (by linarith), if_pos ⟨⟨h1, h2⟩, h⟩]
  · intro h
    rw [if_neg (by linarith), if_neg (by rintro ⟨_, h⟩; linarith)]
    simp [detect, not_le.mpr h]

/-- C44: inside the tolerance band the distance to enter is -1. -/
theorem C44_distance_in_wrong_side {R : ℝ} {p d : V3} (h : p.mag < R - kTolerance) : distanceToIn R p d = -1 := by
  unfold distanceToIn
  dsimp only
  rw [if_pos h]

/-- C44: for a surface point and a tangential direction the distance to enter can be negative by more than ten thousand
tolerances. -/
theorem C44_distance_in_tangent_counterexample :
    ∃ p d : V3, inside 1 p = .surface ∧ Unit d ∧ distanceToIn 1 p d < -(10000 * kTolerance) := by
  have ht := kTolerance_pos
  have htl := kTolerance_le
  have hm : V3.mag ⟨1 - kTolerance / 2, 0, 0⟩ = 1 - kTolerance / 2 := by
    rw [V3.mag_eq_iff (by linarith)]; simp [V3.mag2_eq]
  refine ⟨⟨1 - kTolerance / 2, 0, 0⟩, ⟨0, 1, 0⟩, ?_, by norm_num [Unit, V3.mag2_eq], ?_⟩
  · rw [(C44_inside (by linarith) _).2.2, hm]; constructor <;> linarith
  · unfold distanceToIn
    dsimp only
    rw [hm, if_neg (by linarith), if_neg (by rintro ⟨_, h⟩; simp [V3.dot] at h)]
    have hd2 : (0 : ℝ) ≤ 1 - (1 - kTolerance / 2) * (1 - kTolerance / 2) := by nlinarith
    have e : V3.dot ⟨1 - kTolerance / 2, 0, 0⟩ ⟨0, 1, 0⟩ = 0 := by simp [V3.dot]
    have e2 : V3.mag2 ⟨1 - kTolerance / 2, 0, 0⟩ = (1 - kTolerance / 2) * (1 - kTolerance / 2) := by simp [V3.mag2_eq]
    have hlt : 10000 * kTolerance < Real.sqrt |1 - (1 - kTolerance / 2) * (1 - kTolerance / 2)| := by
      apply Real.lt_sqrt_of_sq_lt
      rw [abs_of_nonneg hd2]
      unfold kTolerance
      norm_num
    simp only [detect, e, e2, if_true]
    rw [show (0 : ℝ) * 0 - ((1 - kTolerance / 2) * (1 - kTolerance / 2) - 1 * 1) =
      1 - (1 - kTolerance / 2) * (1 - kTolerance / 2) by ring]
    simp only [ge_iff_le, hd2, le_refl, and_self, decide_true, if_true]
    linarith

/-- C44: leaving.  For a point of the ball that is not a surface point moving outwards, the distance to leave leads onto
the sphere, all points before are in the ball and all later ones are outside. -/
theorem C44_distance_out {R : ℝ} (hR : 0 ≤ R) {p d : V3} (hd : Unit d) (hp : p.mag ≤ R)
    (hn : p.mag < R - kTolerance ∨ p.dot d ≤ 0) :
    0 ≤ distanceToOut R p d ∧ (V3.at' p d (distanceToOut R p d)).mag = R ∧
    (∀ s, 0 ≤ s → s ≤ distanceToOut R p d → (V3.at' p d s).mag ≤ R) ∧
    (∀ s, distanceToOut R p d < s → R < (V3.at' p d s).mag) := by
  have htol := kTolerance_pos
  set b := p.dot d with hb
  set D := b * b - (p.mag2 - R * R) with hD
  have hc : p.mag2 - R * R ≤ 0 := by
    have := (V3.mag_le_iff hR).mp hp; linarith
  have hD0 : 0 ≤ D := by nlinarith [mul_self_nonneg b]
  have hdist : distanceToOut R p d = -b + Real.sqrt |D| := by
    unfold distanceToOut
    dsimp only
    rw [if_neg (by linarith), if_neg (by rintro ⟨⟨h1, _⟩, h2⟩; rcases hn with h | h <;> linarith)]
    simp only [detect, ← hb, ← hD, if_pos (show D ≥ 0 from hD0), decide_true, Bool.false_eq_true, if_false, if_true,
      show (D ≥ 0) = True from eq_true hD0]
  have hs0 := Real.sqrt_nonneg |D|
  have hsq : Real.sqrt |D| * Real.sqrt |D| = D := by rw [Real.mul_self_sqrt (abs_nonneg _), abs_of_nonneg hD0]
  have hbs : -Real.sqrt |D| ≤ b ∧ b ≤ Real.sqrt |D| := (le_sqrt_abs_iff hD0).mp (by linarith)
  rw [hdist]
  refine ⟨by linarith [hbs.2], ?_, ?_, ?_⟩
  · rw [ray_sphere hR hd, ← hb, ← hD]
    linear_combination hsq
  · intro s h0 hs
    rw [ray_ball hR hd, ← hb, ← hD, le_sqrt_abs_iff hD0]
    exact ⟨by linarith [hbs.1], by linarith⟩
  · intro s hlt
    rw [← not_le, ray_ball hR hd, ← hb, ← hD, le_sqrt_abs_iff hD0]
    rintro ⟨_, h1⟩
    linarith

/-- C44: for a surface point moving outwards the distance to leave is zero; a ray from such a point of the ball stays in the
ball at most for the square root of twice radius times tolerance. -/
theorem C44_distance_out_surface {R : ℝ} (hR : 0 ≤ R) {p d : V3} (hd : Unit d) (h1 : R - kTolerance ≤ p.mag)
    (h2 : p.mag ≤ R + kTolerance) (ho : 0 < p.dot d) :
    distanceToOut R p d = 0 ∧
    ∀ t, 0 ≤ t → (V3.at' p d t).mag ≤ R → t * t ≤ 2 * R * kTolerance := by
  have htol := kTolerance_pos
  constructor
  · unfold distanceToOut
    dsimp only
    rw [if_neg (by linarith), if_pos ⟨⟨h1, h2⟩, ho⟩]
  · intro t ht hin
    have hq := (ray_ball hR hd t).mp hin
    have hm : R * R - 2 * R * kTolerance ≤ p.mag2 := by
      rcases le_or_gt 0 (R - kTolerance) with h | h
      · have := (V3.le_mag_iff h).mp h1
        nlinarith
      · have := p.mag2_nonneg
        nlinarith
    have h3 : 0 ≤ t * p.dot d := mul_nonneg ht ho.le
    nlinarith

/-- C44: outside beyond the tolerance the distance to leave is -1. -/
theorem C44_distance_out_wrong_side {R : ℝ} {p d : V3} (h : R + kTolerance < p.mag) : distanceToOut R p d = -1 := by
  unfold distanceToOut
  dsimp only
  rw [if_pos h]

/-- C44: a surface point outside of the sphere with a tangential direction gets an infinite distance to leave. -/
theorem C44_distance_out_tangent_counterexample :
    ∃ p d : V3, inside 1 p = .surface ∧ contains 1 p = true ∧ Unit d ∧ distanceToOut 1 p d = kInfLength := by
  have ht := kTolerance_pos
  have htl := kTolerance_le
  have hm : V3.mag ⟨1 + kTolerance / 2, 0, 0⟩ = 1 + kTolerance / 2 := by
    rw [V3.mag_eq_iff (by linarith)]; simp [V3.mag2_eq]
  refine ⟨⟨1 + kTolerance / 2, 0, 0⟩, ⟨0, 1, 0⟩, ?_, ?_, by norm_num [Unit, V3.mag2_eq], ?_⟩
  · rw [(C44_inside (by linarith) _).2.2, hm]; constructor <;> linarith
  · rw [C44_contains (by norm_num), hm]; linarith
  · unfold distanceToOut
    dsimp only
    have e : V3.dot ⟨1 + kTolerance / 2, 0, 0⟩ ⟨0, 1, 0⟩ = 0 := by simp [V3.dot]
    rw [hm, if_neg (by linarith), if_neg (by rintro ⟨_, h⟩; simp [e] at h)]
    have e2 : V3.mag2 ⟨1 + kTolerance / 2, 0, 0⟩ = (1 + kTolerance / 2) * (1 + kTolerance / 2) := by simp [V3.mag2_eq]
    have hneg : ¬ ((0 : ℝ) * 0 - ((1 + kTolerance / 2) * (1 + kTolerance / 2) - 1 * 1) ≥ 0) := by
      rw [not_le]; nlinarith
    simp only [detect, e, e2, hneg, decide_false, Bool.false_eq_true, if_false]

example : Unit ⟨3 / 5, 0, 4 / 5⟩ ∧ (1 : ℝ) + kTolerance < V3.mag ⟨-6, 0, -8⟩ ∧ (V3.at' ⟨-6, 0, -8⟩ ⟨3 / 5, 0, 4 / 5⟩ 10).mag ≤ 1 := by
  have htl := kTolerance_le
  refine ⟨by norm_num [Unit, V3.mag2_eq], ?_, ?_⟩
  · have : V3.mag ⟨-6, 0, -8⟩ = 10 := by rw [V3.mag_eq_iff (by norm_num)]; norm_num [V3.mag2_eq]
    rw [this]; linarith
  · rw [V3.mag_le_iff (by norm_num)]; norm_num [V3.mag2_eq]

/-! ## Safeties -/

/-- C44: outside the tolerance band the safety to enter is the exact distance to the ball. -/
theorem C44_safety_in {R : ℝ} (hR : 0 ≤ R) {p : V3} (hp : R + kTolerance ≤ p.mag) :
    (∀ q : V3, q.mag ≤ R → safetyToIn R p ≤ V3.dist p q) ∧ ∃ q : V3, q.mag = R ∧ V3.dist p q = safetyToIn R p := by
  have htol := kTolerance_pos
  have e : safetyToIn R p = p.mag - R := by
    unfold safetyToIn
    dsimp only
    rw [if_neg (by linarith), if_neg (by rintro ⟨_, h⟩; linarith)]
  rw [e]
  constructor
  · intro q hq
    linarith [V3.mag_le_add_dist p q]
  · have hm : 0 < p.mag := by linarith
    refine ⟨V3.smul (R / p.mag) p, ?_, ?_⟩
    · rw [V3.mag_smul, abs_of_nonneg (by positivity)]; field_simp
    · have : p - V3.smul (R / p.mag) p = V3.smul (1 - R / p.mag) p := by
        ext <;> simp <;> ring
      rw [V3.dist_eq, this, V3.mag_smul, abs_of_nonneg]
      · field_simp
      · rw [sub_nonneg, div_le_one hm]; linarith

/-- C44: in the tolerance band both safeties are zero; on the wrong side they are -1. -/
theorem C44_safety_surface {R : ℝ} {p : V3} :
    (R - kTolerance < p.mag → p.mag < R + kTolerance → safetyToIn R p = 0 ∧ safetyToOut R p = 0) ∧
    (p.mag < R - kTolerance → safetyToIn R p = -1) ∧ (R + kTolerance < p.mag → safetyToOut R p = -1) := by
  have htol := kTolerance_pos
  unfold safetyToIn safetyToOut
  dsimp only
  refine ⟨fun h1 h2 => ⟨?_, ?_⟩, fun h => if_pos h, fun h => if_pos h⟩
  · rw [if_neg (by linarith), if_pos ⟨h1, h2⟩]
  · rw [if_neg (by linarith), if_pos ⟨h1, h2⟩]

/-- C44: inside the tolerance band the safety to leave is the exact distance to the sphere. -/
theorem C44_safety_out {R : ℝ} (hR : 0 ≤ R) {p : V3} (hp : p.mag ≤ R - kTolerance) :
    0 ≤ safetyToOut R p ∧ (∀ q : V3, V3.dist p q ≤ safetyToOut R p → q.mag ≤ R) ∧
    ∃ q : V3, q.mag = R ∧ V3.dist p q = safetyToOut R p := by
  have htol := kTolerance_pos
  have e : safetyToOut R p = R - p.mag := by
    unfold safetyToOut
    dsimp only
    rw [if_neg (by linarith), if_neg (by rintro ⟨h, _⟩; linarith)]
  rw [e]
  refine ⟨by linarith, ?_, ?_⟩
  · intro q hq
    have := V3.mag_le_add_dist q p
    rw [V3.dist_comm] at this
    linarith
  · rcases eq_or_lt_of_le p.mag_nonneg with h0 | hm
    · have hp0 : p.mag2 = 0 := by rw [← V3.mag_mul_self, ← h0]; ring
      rw [V3.mag2_eq] at hp0
      have hx : p.x = 0 := by nlinarith [mul_self_nonneg p.x, mul_self_nonneg p.y, mul_self_nonneg p.z]
      have hy : p.y = 0 := by nlinarith [mul_self_nonneg p.x, mul_self_nonneg p.y, mul_self_nonneg p.z]
      have hz : p.z = 0 := by nlinarith [mul_self_nonneg p.x, mul_self_nonneg p.y, mul_self_nonneg p.z]
      refine ⟨⟨R, 0, 0⟩, ?_, ?_⟩
      · rw [V3.mag_eq_iff hR]; simp [V3.mag2_eq]
      · rw [V3.dist_eq, V3.mag_eq_iff (by linarith)]
        simp only [V3.mag2_eq, V3.sub_x, V3.sub_y, V3.sub_z, hx, hy, hz, ← h0]; ring
    · refine ⟨V3.smul (R / p.mag) p, ?_, ?_⟩
      · rw [V3.mag_smul, abs_of_nonneg (by positivity)]; field_simp
      · have : p - V3.smul (R / p.mag) p = V3.smul (1 - R / p.mag) p := by
          ext <;> simp <;> ring
        rw [V3.dist_eq, this, V3.mag_smul, abs_sub_comm, abs_of_nonneg]
        · field_simp
        · rw [sub_nonneg, le_div_iff₀ hm]; linarith

/-! ## Normal, sampling, extent -/

/-- C44: the normal of a point other than the centre is a unit vector that points away from the centre, no point of the
ball lies farther in its direction than the sphere, and it is valid exactly in the tolerance band. -/
theorem C44_normal {R : ℝ} (hR : kTolerance ≤ R) {p : V3} (hp : p.mag ≠ 0) :
    ∃ n v, normalKernel R p = some (n, v) ∧ Unit n ∧ n.dot p = p.mag ∧ (∀ q : V3, q.mag ≤ R → n.dot q ≤ R) ∧
      (v = true ↔ R - kTolerance ≤ p.mag ∧ p.mag ≤ R + kTolerance) := by
  have htol := kTolerance_pos
  have h2 : p.mag2 ≠ 0 := by rw [← V3.mag_mul_self]; exact mul_ne_zero hp hp
  have hpos : 0 < p.mag := lt_of_le_of_ne p.mag_nonneg (Ne.symm hp)
  have hu : (V3.smul (1 / p.mag) p).mag = 1 := by
    rw [V3.mag_smul, abs_of_nonneg (by positivity)]; field_simp
  refine ⟨V3.smul (1 / p.mag) p, decide (p.mag2 ≤ (R + kTolerance) * (R + kTolerance) ∧
    p.mag2 ≥ (R - kTolerance) * (R - kTolerance)), ?_, ?_, ?_, ?_, ?_⟩
  · unfold normalKernel
    dsimp only
    rw [if_neg h2]
    rfl
  · unfold Unit; rw [← V3.mag_mul_self, hu]; ring
  · have e : (V3.smul (1 / p.mag) p).dot p = 1 / p.mag * p.mag2 := by
      simp only [V3.dot, V3.mag2_eq, V3.smul_x, V3.smul_y, V3.smul_z]; ring
    rw [e, ← V3.mag_mul_self]; field_simp
  · intro q hq
    have := V3.dot_le (V3.smul (1 / p.mag) p) q
    rw [hu] at this
    linarith
  · rw [decide_eq_true_eq, V3.mag_le_iff (by linarith), V3.le_mag_iff (by linarith)]
    tauto

/-- C44: each sampled point is on the sphere, for all random numbers. -/
theorem C44_sample {R : ℝ} (hR : 0 ≤ R) (u1 : ℝ) {u2 : ℝ} (h0 : 0 ≤ u2) (h1 : u2 ≤ 1) :
    (samplePointOnSurface R u1 u2).mag = R := by
  rw [V3.mag_eq_iff hR]
  unfold samplePointOnSurface
  simp only [V3.mag2_eq]
  have hs := Real.mul_self_sqrt (show 0 ≤ 1 - (-1 + (1 - -1) * u2) * (-1 + (1 - -1) * u2) by nlinarith)
  have hc := Real.sin_sq_add_cos_sq (0 + (2 * Real.pi - 0) * u1)
  generalize Real.sqrt (1 - (-1 + (1 - -1) * u2) * (-1 + (1 - -1) * u2)) = s at hs ⊢
  generalize Real.sin (0 + (2 * Real.pi - 0) * u1) = a at hc ⊢
  generalize Real.cos (0 + (2 * Real.pi - 0) * u1) = b at hc ⊢
  linear_combination (R * R * s * s) * hc + (R * R) * hs

/-- C44: every point of the sphere can be sampled. -/
theorem C44_sample_onto {R : ℝ} (hR : 0 < R) {p : V3} (hp : p.mag = R) :
    ∃ u1 u2, 0 ≤ u1 ∧ u1 < 1 ∧ 0 ≤ u2 ∧ u2 ≤ 1 ∧ samplePointOnSurface R u1 u2 = p := by
  have h := (V3.mag_eq_iff hR.le).mp hp
  rw [V3.mag2_eq] at h
  have hpi := Real.pi_pos
  -- the azimuth
  obtain ⟨u1, hu0, hu1, hcos, hsin⟩ : ∃ u1, 0 ≤ u1 ∧ u1 < 1 ∧
      ‖(⟨p.x, p.y⟩ : ℂ)‖ * Real.cos (2 * Real.pi * u1) = p.x ∧ ‖(⟨p.x, p.y⟩ : ℂ)‖ * Real.sin (2 * Real.pi * u1) = p.y := by
    set w : ℂ := ⟨p.x, p.y⟩ with hw
    have c1 : ‖w‖ * Real.cos w.arg = p.x := Complex.norm_mul_cos_arg w
    have c2 : ‖w‖ * Real.sin w.arg = p.y := Complex.norm_mul_sin_arg w
    have a1 := Complex.neg_pi_lt_arg w
    have a2 := Complex.arg_le_pi w
    rcases le_or_gt 0 w.arg with h0 | h0
    · refine ⟨w.arg / (2 * Real.pi), by positivity, ?_, ?_, ?_⟩
      · rw [div_lt_one (by positivity)]; linarith
      · rw [mul_div_cancel₀ _ (by positivity)]; exact c1
      · rw [mul_div_cancel₀ _ (by positivity)]; exact c2
    · refine ⟨(w.arg + 2 * Real.pi) / (2 * Real.pi), div_nonneg (by linarith) (by positivity), ?_, ?_, ?_⟩
      · rw [div_lt_one (by positivity)]; linarith
      · rw [mul_div_cancel₀ _ (by positivity), Real.cos_add_two_pi]; exact c1
      · rw [mul_div_cancel₀ _ (by positivity), Real.sin_add_two_pi]; exact c2
  have hn : ‖(⟨p.x, p.y⟩ : ℂ)‖ * ‖(⟨p.x, p.y⟩ : ℂ)‖ = p.x * p.x + p.y * p.y := by
    rw [Complex.norm_mul_self_eq_normSq, Complex.normSq_mk]
  have hn0 := norm_nonneg (⟨p.x, p.y⟩ : ℂ)
  generalize ‖(⟨p.x, p.y⟩ : ℂ)‖ = n at hcos hsin hn hn0
  have hz := abs_le_of_sq_le_sq' (show p.z ^ 2 ≤ R ^ 2 by nlinarith [mul_self_nonneg p.x, mul_self_nonneg p.y]) hR.le
  refine ⟨u1, (p.z / R + 1) / 2, hu0, hu1, ?_, ?_, ?_⟩
  · have : -1 ≤ p.z / R := by rw [le_div_iff₀ hR]; linarith
    linarith
  · have : p.z / R ≤ 1 := by rw [div_le_one hR]; exact hz.2
    linarith
  · have e1 : -1 + (1 - -1) * ((p.z / R + 1) / 2) = p.z / R := by ring
    have e2 : 0 + (2 * Real.pi - 0) * u1 = 2 * Real.pi * u1 := by ring
    have e3 : Real.sqrt (1 - p.z / R * (p.z / R)) = n / R := by
      have : 1 - p.z / R * (p.z / R) = (n / R) * (n / R) := by
        field_simp
        linarith
      rw [this, Real.sqrt_mul_self (by positivity)]
    unfold samplePointOnSurface
    dsimp only
    rw [e1, e2, e3]
    ext
    · dsimp only; rw [← hcos]; field_simp
    · dsimp only; rw [← hsin]; field_simp
    · dsimp only; field_simp

/-- C44: the extent contains the ball and its faces touch it. -/
theorem C44_extent {R : ℝ} (hR : 0 ≤ R) :
    (∀ p : V3, p.mag ≤ R → ((extent R).1.x ≤ p.x ∧ p.x ≤ (extent R).2.x) ∧ ((extent R).1.y ≤ p.y ∧ p.y ≤ (extent R).2.y) ∧
      ((extent R).1.z ≤ p.z ∧ p.z ≤ (extent R).2.z)) ∧
    (V3.mag ⟨(extent R).1.x, 0, 0⟩ = R ∧ V3.mag ⟨(extent R).2.x, 0, 0⟩ = R ∧ V3.mag ⟨0, (extent R).1.y, 0⟩ = R ∧
      V3.mag ⟨0, (extent R).2.y, 0⟩ = R ∧ V3.mag ⟨0, 0, (extent R).1.z⟩ = R ∧ V3.mag ⟨0, 0, (extent R).2.z⟩ = R) := by
  constructor
  · intro p hp
    have h := (V3.mag_le_iff hR).mp hp
    rw [V3.mag2_eq] at h
    have hx := mul_self_nonneg p.x
    have hy := mul_self_nonneg p.y
    have hz := mul_self_nonneg p.z
    have a1 := abs_le_of_sq_le_sq' (show p.x ^ 2 ≤ R ^ 2 by nlinarith) hR
    have a2 := abs_le_of_sq_le_sq' (show p.y ^ 2 ≤ R ^ 2 by nlinarith) hR
    have a3 := abs_le_of_sq_le_sq' (show p.z ^ 2 ≤ R ^ 2 by nlinarith) hR
    exact ⟨a1, a2, a3⟩
  · refine ⟨?_, ?_, ?_, ?_, ?_, ?_⟩ <;> rw [V3.mag_eq_iff hR] <;> simp [V3.mag2_eq, extent]

end Orb
end VecGeom
