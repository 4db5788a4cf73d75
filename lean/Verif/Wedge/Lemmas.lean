import Verif.Wedge.Model
import Verif.Wedge.Spec
import Mathlib.Analysis.SpecialFunctions.Complex.Arg

/-!
# Lemmas on sectors
-/

namespace VecGeom

open Real

/-- Polar coordinates with an azimuth in `[0, 2 pi)`. -/
theorem polar (x y : ℝ) : ∃ r t : ℝ, 0 ≤ r ∧ 0 ≤ t ∧ t < 2 * π ∧ x = r * cos t ∧ y = r * sin t := by
  set z : ℂ := ⟨x, y⟩ with hz
  have hx : x = ‖z‖ * cos z.arg := by rw [Complex.norm_mul_cos_arg]
  have hy : y = ‖z‖ * sin z.arg := by rw [Complex.norm_mul_sin_arg]
  have h1 := Complex.neg_pi_lt_arg z
  have h2 := Complex.arg_le_pi z
  have hpi := pi_pos
  rcases le_or_gt 0 z.arg with h | h
  · exact ⟨‖z‖, z.arg, norm_nonneg _, h, by linarith, hx, hy⟩
  · refine ⟨‖z‖, z.arg + 2 * π, norm_nonneg _, by linarith, by linarith, ?_, ?_⟩
    · rw [cos_add_two_pi]; exact hx
    · rw [sin_add_two_pi]; exact hy

theorem sin_neg_of {t : ℝ} (h1 : π < t) (h2 : t < 2 * π) : sin t < 0 := by
  have := sin_pos_of_pos_of_lt_pi (x := t - π) (by linarith) (by linarith)
  rw [sin_sub_pi] at this
  linarith

theorem sector_zero_small {d x y : ℝ} (h0 : 0 < d) (h1 : d < π) : Sector 0 d x y ↔ 0 ≤ y ∧ 0 ≤ x * sin d - y * cos d := by
  constructor
  · rintro ⟨r, t, hr, ht0, ht, rfl, rfl⟩
    rw [zero_add]
    have e : r * cos t * sin d - r * sin t * cos d = r * sin (d - t) := by rw [sin_sub]; ring
    rw [e]
    exact ⟨mul_nonneg hr (sin_nonneg_of_nonneg_of_le_pi ht0 (by linarith)),
      mul_nonneg hr (sin_nonneg_of_nonneg_of_le_pi (by linarith) (by linarith))⟩
  · rintro ⟨hy, he⟩
    obtain ⟨r, t, hr, ht0, ht, rfl, rfl⟩ := polar x y
    have e : r * cos t * sin d - r * sin t * cos d = r * sin (d - t) := by rw [sin_sub]; ring
    rw [e] at he
    rcases hr.eq_or_lt with h | h
    · refine ⟨0, 0, le_refl _, le_refl _, h0.le, ?_, ?_⟩ <;> rw [← h] <;> simp
    · refine ⟨r, t, hr, ht0, ?_, by rw [zero_add], by rw [zero_add]⟩
      have hs : 0 ≤ sin t := by by_contra hc; push Not at hc; nlinarith
      have hs' : 0 ≤ sin (d - t) := by by_contra hc; push Not at hc; nlinarith
      have htp : t ≤ π := by
        by_contra hc
        push Not at hc
        linarith [sin_neg_of hc ht]
      by_contra hc
      push Not at hc
      have := sin_pos_of_pos_of_lt_pi (x := t - d) (by linarith) (by linarith)
      rw [← neg_sub, sin_neg] at hs'
      linarith

theorem sector_zero_big {d x y : ℝ} (h0 : π ≤ d) (h1 : d ≤ 2 * π) : Sector 0 d x y ↔ 0 ≤ y ∨ 0 ≤ x * sin d - y * cos d := by
  have hpi := pi_pos
  constructor
  · rintro ⟨r, t, hr, ht0, ht, rfl, rfl⟩
    rw [zero_add]
    have e : r * cos t * sin d - r * sin t * cos d = r * sin (d - t) := by rw [sin_sub]; ring
    rw [e]
    rcases le_or_gt t π with h | h
    · exact .inl (mul_nonneg hr (sin_nonneg_of_nonneg_of_le_pi ht0 h))
    · exact .inr (mul_nonneg hr (sin_nonneg_of_nonneg_of_le_pi (by linarith) (by linarith)))
  · intro hh
    obtain ⟨r, t, hr, ht0, ht, rfl, rfl⟩ := polar x y
    have e : r * cos t * sin d - r * sin t * cos d = r * sin (d - t) := by rw [sin_sub]; ring
    rw [e] at hh
    rcases hr.eq_or_lt with h | h
    · refine ⟨0, 0, le_refl _, le_refl _, by linarith, ?_, ?_⟩ <;> rw [← h] <;> simp
    · refine ⟨r, t, hr, ht0, ?_, by rw [zero_add], by rw [zero_add]⟩
      rcases hh with hh | hh
      · have hs : 0 ≤ sin t := by by_contra hc; push Not at hc; nlinarith
        by_contra hc
        push Not at hc
        linarith [sin_neg_of (by linarith) ht]
      · have hs : 0 ≤ sin (d - t) := by by_contra hc; push Not at hc; nlinarith
        by_contra hc
        push Not at hc
        have := sin_pos_of_pos_of_lt_pi (x := t - d) (by linarith) (by linarith)
        rw [← neg_sub, sin_neg] at hs
        linarith

/-- Rotation to the start angle. -/
theorem sector_rotate (s d x y : ℝ) : Sector s d x y ↔ Sector 0 d (x * cos s + y * sin s) (-x * sin s + y * cos s) := by
  have h1 := sin_sq_add_cos_sq s
  constructor
  · rintro ⟨r, t, hr, ht0, ht, rfl, rfl⟩
    refine ⟨r, t, hr, ht0, ht, ?_, ?_⟩
    · rw [cos_add, sin_add, zero_add]
      linear_combination (r * cos t) * h1
    · rw [cos_add, sin_add, zero_add]
      linear_combination (r * sin t) * h1
  · rintro ⟨r, t, hr, ht0, ht, h2, h3⟩
    rw [zero_add] at h2 h3
    refine ⟨r, t, hr, ht0, ht, ?_, ?_⟩
    · rw [cos_add]
      linear_combination (cos s) * h2 - (sin s) * h3 - x * h1
    · rw [sin_add]
      linear_combination (sin s) * h2 + (cos s) * h3 - y * h1

/-- The two checks on a point. -/
theorem sector_small {s d : ℝ} (h0 : 0 < d) (h1 : d < π) (x y : ℝ) :
    Sector s d x y ↔ 0 ≤ -x * sin s + y * cos s ∧ 0 ≤ -cos (s + d) * y + sin (s + d) * x := by
  rw [sector_rotate, sector_zero_small h0 h1]
  have e : (x * cos s + y * sin s) * sin d - (-x * sin s + y * cos s) * cos d = -cos (s + d) * y + sin (s + d) * x := by
    rw [sin_add, cos_add]; ring
  rw [e]

theorem sector_big {s d : ℝ} (h0 : π ≤ d) (h1 : d ≤ 2 * π) (x y : ℝ) :
    Sector s d x y ↔ 0 ≤ -x * sin s + y * cos s ∨ 0 ≤ -cos (s + d) * y + sin (s + d) * x := by
  rw [sector_rotate, sector_zero_big h0 h1]
  have e : (x * cos s + y * sin s) * sin d - (-x * sin s + y * cos s) * cos d = -cos (s + d) * y + sin (s + d) * x := by
    rw [sin_add, cos_add]; ring
  rw [e]

/-- A full circle has every azimuth. -/
theorem sector_full (s x y : ℝ) : Sector s (2 * π) x y := by
  rw [sector_big (by linarith [pi_pos]) (le_refl _), sin_add_two_pi, cos_add_two_pi]
  rcases le_total 0 (-x * sin s + y * cos s) with h | h
  · exact .inl h
  · exact .inr (by linarith)

/-- A linear function with a unit gradient changes at most by the distance. -/
theorem lin_le_dist (a : ℝ) (p q : V3) : |(p.x * cos a + p.y * sin a) - (q.x * cos a + q.y * sin a)| ≤ V3.dist p q := by
  rw [V3.dist, ← sqrt_sq_eq_abs]
  apply sqrt_le_sqrt
  have h1 := sin_sq_add_cos_sq a
  unfold V3.dist2
  have e : ((p.x * cos a + p.y * sin a) - (q.x * cos a + q.y * sin a)) ^ 2 +
      ((p.x - q.x) * sin a - (p.y - q.y) * cos a) ^ 2 = (p.x - q.x) ^ 2 + (p.y - q.y) ^ 2 := by
    linear_combination ((p.x - q.x) ^ 2 + (p.y - q.y) ^ 2) * h1
  nlinarith [sq_nonneg ((p.x - q.x) * sin a - (p.y - q.y) * cos a), sq_nonneg (p.z - q.z)]

theorem start_le_dist (a : ℝ) (p q : V3) : |(-p.x * sin a + p.y * cos a) - (-q.x * sin a + q.y * cos a)| ≤ V3.dist p q := by
  have := lin_le_dist (a + π / 2) p q
  rw [cos_add_pi_div_two, sin_add_pi_div_two] at this
  convert this using 2
  ring

theorem end_le_dist (a : ℝ) (p q : V3) : |(-cos a * p.y + sin a * p.x) - (-cos a * q.y + sin a * q.x)| ≤ V3.dist p q := by
  rw [← abs_neg]
  convert start_le_dist a p q using 2
  ring

namespace Wedge

@[simp] theorem make_start (d s : ℝ) (p : V3) : (make d s).startCheck p = -p.x * sin s + p.y * cos s := rfl
@[simp] theorem make_end (d s : ℝ) (p : V3) : (make d s).endCheck p = -cos (s + d) * p.y + sin (s + d) * p.x := rfl
@[simp] theorem make_dphi (d s : ℝ) : (make d s).dphi = d := rfl

/-- `Out` is the complement of the sector. -/
theorem out_iff {s d : ℝ} (h0 : 0 < d) (h1 : d ≤ 2 * π) (p : V3) : (make d s).Out p ↔ ¬ Sector s d p.x p.y := by
  unfold Out
  rw [make_start, make_end, make_dphi]
  rcases lt_or_ge d π with h | h
  · rw [sector_small h0 h]
    simp only [h, true_and, not_true_eq_false, false_and, or_false, not_and_or, not_le]
  · rw [sector_big h h1]
    simp only [not_lt.mpr h, false_and, not_false_eq_true, true_and, false_or, not_or, not_le]

theorem above_iff (s x y : ℝ) : (cos s * x + sin s * y ≥ 0 ∧ |-sin s * x + cos s * y| < kTolerance) ↔
    ∃ h, |h| < kTolerance ∧ AboveRay s h x y := by
  have h1 := sin_sq_add_cos_sq s
  constructor
  · rintro ⟨h2, h3⟩
    refine ⟨_, h3, cos s * x + sin s * y, h2, ?_, ?_⟩
    · linear_combination (-x) * h1
    · linear_combination (-y) * h1
  · rintro ⟨h, hh, r, hr, rfl, rfl⟩
    refine ⟨?_, ?_⟩
    · have : cos s * (r * cos s - h * sin s) + sin s * (r * sin s + h * cos s) = r := by linear_combination r * h1
      rw [this]; exact hr
    · have : -sin s * (r * cos s - h * sin s) + cos s * (r * sin s + h * cos s) = h := by linear_combination h * h1
      rw [this]; exact hh

theorem on1_iff (s d : ℝ) (p : V3) : (make d s).IsOnSurface1 p ↔ ∃ h, |h| < kTolerance ∧ AboveRay s h p.x p.y :=
  above_iff s p.x p.y

theorem on2_iff (s d : ℝ) (p : V3) : (make d s).IsOnSurface2 p ↔ ∃ h, |h| < kTolerance ∧ AboveRay (s + d) h p.x p.y := by
  rw [← above_iff]
  unfold IsOnSurface2 IsOnSurfaceGeneric
  have e : |(make d s).n2x * p.x + (make d s).n2y * p.y| = |-sin (s + d) * p.x + cos (s + d) * p.y| := by
    rw [← abs_neg]
    congr 1
    show -(sin (s + d) * p.x + -cos (s + d) * p.y) = _
    ring
  rw [e]
  rfl

end Wedge
end VecGeom
