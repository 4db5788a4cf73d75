import Verif.Sphere.Lemmas

/-!
# What the kernels of the theta sector say
-/

namespace VecGeom
namespace Sphere

open Real

theorem abs_mul_nonneg {z T : ℝ} (hz : 0 ≤ z) (hT : 0 ≤ T) : |z * T| = z * T := abs_of_nonneg (mul_nonneg hz hT)
theorem abs_mul_nonpos {z T : ℝ} (hz : z ≤ 0) (hT : 0 ≤ T) : |z * T| = -(z * T) := abs_of_nonpos (mul_nonpos_of_nonpos_of_nonneg hz hT)

/-! ### Signs -/

theorem lo_le {a : ℝ} (h0 : 0 ≤ a) (h : a < π / 2) {p : V3} (hz : 0 ≤ p.z) (hr : rho p ≤ |p.z * tanOf a|) : off a p ≤ 0 := by
  obtain ⟨c, t, n⟩ := tanOf_lo h0 h
  rw [abs_mul_nonneg hz n] at hr
  unfold off
  rw [← t]; nlinarith

theorem lo_lt {a : ℝ} (h0 : 0 ≤ a) (h : a < π / 2) {p : V3} (hz : 0 ≤ p.z) (hr : rho p < |p.z * tanOf a|) : off a p < 0 := by
  obtain ⟨c, t, n⟩ := tanOf_lo h0 h
  rw [abs_mul_nonneg hz n] at hr
  unfold off
  rw [← t]; nlinarith

theorem lo_ge {a : ℝ} (h0 : 0 ≤ a) (h : a < π / 2) {p : V3} (hz : 0 ≤ p.z) (hr : |p.z * tanOf a| ≤ rho p) : 0 ≤ off a p := by
  obtain ⟨c, t, n⟩ := tanOf_lo h0 h
  rw [abs_mul_nonneg hz n] at hr
  unfold off
  rw [← t]; nlinarith

theorem lo_gt {a : ℝ} (h0 : 0 ≤ a) (h : a < π / 2) {p : V3} (hz : 0 ≤ p.z) (hr : |p.z * tanOf a| < rho p) : 0 < off a p := by
  obtain ⟨c, t, n⟩ := tanOf_lo h0 h
  rw [abs_mul_nonneg hz n] at hr
  unfold off
  rw [← t]; nlinarith

theorem hi_le {a : ℝ} (h0 : a ≤ π) (h : π / 2 < a) {p : V3} (hz : p.z ≤ 0) (hr : |p.z * tanOf a| ≤ rho p) : off a p ≤ 0 := by
  obtain ⟨c, t, n⟩ := tanOf_hi h0 h
  rw [abs_mul_nonpos hz n] at hr
  unfold off
  rw [← t]; nlinarith

theorem hi_lt {a : ℝ} (h0 : a ≤ π) (h : π / 2 < a) {p : V3} (hz : p.z ≤ 0) (hr : |p.z * tanOf a| < rho p) : off a p < 0 := by
  obtain ⟨c, t, n⟩ := tanOf_hi h0 h
  rw [abs_mul_nonpos hz n] at hr
  unfold off
  rw [← t]; nlinarith

theorem hi_ge {a : ℝ} (h0 : a ≤ π) (h : π / 2 < a) {p : V3} (hz : p.z ≤ 0) (hr : rho p ≤ |p.z * tanOf a|) : 0 ≤ off a p := by
  obtain ⟨c, t, n⟩ := tanOf_hi h0 h
  rw [abs_mul_nonpos hz n] at hr
  unfold off
  rw [← t]; nlinarith

theorem hi_gt {a : ℝ} (h0 : a ≤ π) (h : π / 2 < a) {p : V3} (hz : p.z ≤ 0) (hr : rho p < |p.z * tanOf a|) : 0 < off a p := by
  obtain ⟨c, t, n⟩ := tanOf_hi h0 h
  rw [abs_mul_nonpos hz n] at hr
  unfold off
  rw [← t]; nlinarith

theorem below_ge {a : ℝ} (h0 : 0 ≤ a) (h : a ≤ π / 2) {p : V3} (hz : p.z ≤ 0) : 0 ≤ off a p := by
  have hp := pi_pos
  have h1 : 0 ≤ cos a := cos_nonneg_of_mem_Icc ⟨by linarith, h⟩
  have h2 : 0 ≤ sin a := sin_nonneg_of_nonneg_of_le_pi h0 (by linarith)
  unfold off
  nlinarith [mul_nonneg (rho_nonneg p) h1, mul_nonneg (neg_nonneg.mpr hz) h2]

theorem below_gt {a : ℝ} (h0 : 0 < a) (h : a ≤ π / 2) {p : V3} (hz : p.z < 0) : 0 < off a p := by
  have hp := pi_pos
  have h1 : 0 ≤ cos a := cos_nonneg_of_mem_Icc ⟨by linarith, h⟩
  have h2 : 0 < sin a := sin_pos_of_pos_of_lt_pi h0 (by linarith)
  unfold off
  nlinarith [mul_nonneg (rho_nonneg p) h1, mul_pos (neg_pos.mpr hz) h2]

theorem above_le {a : ℝ} (h0 : a ≤ π) (h : π / 2 ≤ a) {p : V3} (hz : 0 ≤ p.z) : off a p ≤ 0 := by
  have hp := pi_pos
  have h1 : cos a ≤ 0 := cos_nonpos_of_pi_div_two_le_of_le h (by linarith)
  have h2 : 0 ≤ sin a := sin_nonneg_of_nonneg_of_le_pi (by linarith) h0
  unfold off
  nlinarith [mul_nonneg (rho_nonneg p) (neg_nonneg.mpr h1), mul_nonneg hz h2]

theorem above_lt {a : ℝ} (h0 : a < π) (h : π / 2 ≤ a) {p : V3} (hz : 0 < p.z) : off a p < 0 := by
  have hp := pi_pos
  have h1 : cos a ≤ 0 := cos_nonpos_of_pi_div_two_le_of_le h (by linarith)
  have h2 : 0 < sin a := sin_pos_of_pos_of_lt_pi (by linarith) h0
  unfold off
  nlinarith [mul_nonneg (rho_nonneg p) (neg_nonneg.mpr h1), mul_pos hz h2]

theorem off_zero (p : V3) : off 0 p = rho p := by unfold off; simp

theorem off_pi (p : V3) : off π p = -rho p := by unfold off; simp

theorem off_half (p : V3) : off (π / 2) p = -p.z := by unfold off; simp

theorem off_axis {p : V3} (h : p.x = 0 ∧ p.y = 0) (a : ℝ) : off a p = -(p.z * sin a) := by
  unfold off; rw [rho_zero h]; ring

theorem big (z : ℝ) (h : ¬ |z| < kHalfTolerance) : 8 * 10 ^ 6 + 1 < |z * 16331239353195370| := by
  rw [abs_mul, abs_of_pos (show (0 : ℝ) < 16331239353195370 by norm_num)]
  have h1 : (5 : ℝ) / 10 ^ 10 ≤ |z| := by
    refine le_trans (le_of_eq ?_) (not_lt.mp h)
    unfold kHalfTolerance kTolerance; norm_num
  nlinarith

section
variable {s d : ℝ} (h0 : 0 ≤ s) (hd : 0 < d) (he : s + d ≤ π) (reg : Regular s (s + d)) (p : V3) (fits : Fits s (s + d) p)
include h0 hd he reg fits

/-- What is reported inside has a polar angle in the range. -/
theorem theta_in (h : (ThetaCone.make s d).CompletelyInside p) : Polar s (s + d) p := by
  have ht := kTolerance_pos
  have hp := pi_pos
  have hl := slack_pos
  rw [polar_iff h0 (by linarith) (by linarith) he (by linarith)]
  rcases kinds hd reg with k | ⟨k1, k2⟩ | ⟨k1, k2⟩ | ⟨k1, k2⟩ | k
  · rw [inA hd k] at h
    rcases h with ⟨h1, h2, h3⟩ | ⟨h1, h2, h3⟩
    · refine ⟨?_, lo_le (by linarith) (by linarith) h2.le ?_⟩
      · rw [h3, off_zero]; exact rho_nonneg p
      · rw [rho_zero h1.2]; exact abs_nonneg _
    · refine ⟨?_, lo_le (by linarith) (by linarith) h1.le (by linarith)⟩
      by_cases hs : s = 0
      · rw [hs, off_zero]; exact rho_nonneg p
      · exact lo_ge h0 (by linarith) h1.le (by linarith [h3 hs])
  · rw [inB hd k1 k2] at h
    rcases h with ⟨⟨h1, h2, h3⟩ | ⟨h1, h2, h3⟩, -⟩
    · refine ⟨?_, ?_⟩
      · rw [h3, off_zero]; exact rho_nonneg p
      · rw [k2, off_half]; linarith
    · refine ⟨?_, by rw [k2, off_half]; linarith⟩
      by_cases hs : s = 0
      · rw [hs, off_zero]; exact rho_nonneg p
      · exact lo_ge h0 (by linarith) h1.le (by linarith [h3 hs])
  · rw [inC hd k1 k2] at h
    rcases h with ⟨h1, h2⟩ | h1 | ⟨h1, h2⟩ | ⟨h1, h2⟩
    · rcases h2 with ⟨h2, h3⟩ | ⟨h2, h3⟩ | ⟨h2, h3⟩
      · rw [h3, h2, off_zero, off_pi]; exact ⟨rho_nonneg p, by linarith [rho_nonneg p]⟩
      · exact ⟨by rw [h3, off_zero]; exact rho_nonneg p, above_le he (by linarith) h2.le⟩
      · exact ⟨below_ge h0 (by linarith) h2.le, by rw [h3, off_pi]; linarith [rho_nonneg p]⟩
    · exact ⟨below_ge h0 (by linarith) h1.1.le, above_le he (by linarith) h1.1.ge⟩
    · exact ⟨lo_ge h0 (by linarith) h2.le (by linarith), above_le he (by linarith) h2.le⟩
    · exact ⟨below_ge h0 (by linarith) h2.le, hi_le he (by linarith) h2.le (by linarith)⟩
  · rw [inD hd k1 k2] at h
    rcases h with ⟨⟨h1, h2, h3⟩ | ⟨h1, h2⟩ | ⟨h1, h2⟩, h4⟩
    · exact ⟨by rw [k1, off_half]; linarith, by rw [h3, off_pi]; linarith [rho_nonneg p]⟩
    · have := big p.z h4
      have := fits (Or.inl k1)
      linarith [rho_le_mag p]
    · exact ⟨by rw [k1, off_half]; linarith, hi_le he (by linarith) h2.le (by linarith)⟩
  · rw [inE hd k] at h
    rcases h with ⟨h1, h2, h3⟩ | ⟨h1, h2, h3⟩
    · refine ⟨hi_ge (by linarith) (by linarith) h2.le ?_, ?_⟩
      · rw [rho_zero h1.2]; exact abs_nonneg _
      · rw [h3, off_pi]; linarith [rho_nonneg p]
    · refine ⟨hi_ge (by linarith) (by linarith) h1.le (by linarith), ?_⟩
      by_cases hs : s + d = π
      · rw [hs, off_pi]; linarith [rho_nonneg p]
      · exact hi_le he (by linarith) h1.le (by linarith [h3 hs])

/-- What is reported outside has no polar angle in the range. -/
theorem theta_out (h : (ThetaCone.make s d).CompletelyOutside p) : ¬ Polar s (s + d) p := by
  have ht := kTolerance_pos
  have hp := pi_pos
  have hl := slack_pos
  rw [polar_iff h0 (by linarith) (by linarith) he (by linarith)]
  suffices hh : off s p < 0 ∨ 0 < off (s + d) p by
    rintro ⟨h1, h2⟩
    rcases hh with hh | hh <;> linarith
  have axS : ThetaCone.OnAxis p → 0 < p.z → s ≠ 0 → off s p < 0 := by
    intro h1 h2 h3
    rw [off_axis h1.2]
    have := sin_pos_of_pos_of_lt_pi (lt_of_le_of_ne h0 (Ne.symm h3)) (by linarith)
    nlinarith [mul_pos h2 this]
  have axE : ThetaCone.OnAxis p → p.z < 0 → s + d ≠ π → 0 < off (s + d) p := by
    intro h1 h2 h3
    rw [off_axis h1.2]
    have := sin_pos_of_pos_of_lt_pi (show 0 < s + d by linarith) (lt_of_le_of_ne he h3)
    nlinarith [mul_pos (neg_pos.mpr h2) this]
  have ax : ThetaCone.OnAxis p → s ≠ 0 → s + d ≠ π → off s p < 0 ∨ 0 < off (s + d) p := by
    intro h1 h2 h3
    rcases lt_or_gt_of_ne h1.1 with h4 | h4
    · exact Or.inr (axE h1 h4 h3)
    · exact Or.inl (axS h1 h4 h2)
  rcases kinds hd reg with k | ⟨k1, k2⟩ | ⟨k1, k2⟩ | ⟨k1, k2⟩ | k
  · rw [outA hd k] at h
    rcases lt_or_ge p.z 0 with hz | hz
    · exact Or.inr (below_gt (by linarith) (by linarith) hz)
    · rcases h with ⟨h1, h2⟩ | h1 | h1 | h1 | h1
      · rcases h2 with h2 | h2
        · linarith
        · exact ax h1 h2 (by linarith)
      · right
        refine lo_gt (by linarith) (by linarith) hz ?_
        rw [h1.1, zero_mul, abs_zero]
        exact rho_pos h1.2
      · exact Or.inl (lo_lt h0 (by linarith) hz (by linarith))
      · exact Or.inr (lo_gt (by linarith) (by linarith) hz (by linarith))
      · linarith
  · rw [outB hd k1 k2] at h
    rcases lt_or_ge p.z 0 with hz | hz
    · exact Or.inr (below_gt (by linarith) (by linarith) hz)
    · rcases h with ⟨⟨h1, h2⟩ | h1 | h1 | h1, h4⟩
      · rcases h2 with h2 | h2
        · linarith
        · exact ax h1 h2 (by linarith)
      · exact Or.inl (lo_lt h0 (by linarith) hz (by linarith))
      · have := big p.z h4
        have := fits (Or.inr k2)
        linarith [rho_le_mag p]
      · linarith
  · rw [outC hd k1 k2] at h
    rcases h with ⟨h1, h2⟩ | ⟨h1, h2⟩ | ⟨h1, h2⟩
    · rcases h2 with ⟨h2, h3⟩ | ⟨h2, h3⟩ | ⟨h2, h3⟩
      · exact ax h1 h2 h3
      · exact Or.inl (axS h1 h2 h3)
      · exact Or.inr (axE h1 h2 h3)
    · exact Or.inl (lo_lt h0 (by linarith) h2.le (by linarith))
    · exact Or.inr (hi_gt he (by linarith) h2.le (by linarith))
  · rw [outD hd k1 k2] at h
    rcases lt_or_ge 0 p.z with hz | hz
    · left; rw [k1, off_half]; linarith
    · rcases h with ⟨⟨h1, h2⟩ | ⟨h1, h2⟩ | ⟨h1, h2⟩, h4⟩
      · rcases h2 with h2 | h2
        · linarith
        · exact ax h1 (by linarith) h2
      · linarith
      · exact Or.inr (hi_gt he (by linarith) h2.le (by linarith))
  · rw [outE hd k] at h
    rcases lt_or_ge 0 p.z with hz | hz
    · exact Or.inl (above_lt (by linarith) (by linarith) hz)
    · rcases h with ⟨h1, h2⟩ | h1 | h1 | h1 | h1
      · rcases h2 with h2 | h2
        · linarith
        · exact ax h1 (by linarith) h2
      · left
        refine hi_lt (by linarith) (by linarith) hz ?_
        rw [h1.1, zero_mul, abs_zero]
        exact rho_pos h1.2
      · exact Or.inr (hi_gt he (by linarith) hz (by linarith))
      · exact Or.inl (hi_lt (by linarith) (by linarith) hz (by linarith))
      · linarith

end

/-! ### Points near the range -/

/-- A point at the same height and azimuth, at another distance from the axis. -/
theorem move (p : V3) {r : ℝ} (hr : 0 ≤ r) : ∃ q : V3, rho q = r ∧ q.z = p.z ∧ V3.dist p q = |rho p - r| := by
  have e : ∀ c s : ℝ, c ^ 2 + s ^ 2 = 1 → p.x = rho p * c → p.y = rho p * s →
      ∃ q : V3, rho q = r ∧ q.z = p.z ∧ V3.dist p q = |rho p - r| := by
    intro c s h1 h2 h3
    refine ⟨⟨r * c, r * s, p.z⟩, ?_, rfl, ?_⟩
    · unfold rho
      rw [show (r * c) ^ 2 + (r * s) ^ 2 = r ^ 2 by linear_combination r ^ 2 * h1, sqrt_sq hr]
    · unfold V3.dist V3.dist2
      rw [show (p.x - r * c) ^ 2 + (p.y - r * s) ^ 2 + (p.z - p.z) ^ 2 = (rho p - r) ^ 2 by
        rw [h2, h3]; linear_combination (rho p - r) ^ 2 * h1, sqrt_sq_eq_abs]
  rcases (rho_nonneg p).eq_or_lt with h | h
  · have h1 := rho_sq p
    rw [← h] at h1
    exact e 1 0 (by norm_num) (by nlinarith [sq_nonneg p.x, sq_nonneg p.y]) (by nlinarith [sq_nonneg p.x, sq_nonneg p.y])
  · refine e (p.x / rho p) (p.y / rho p) ?_ (by field_simp) (by field_simp)
    have := rho_sq p
    field_simp
    linarith

/-- The point of the plane below. -/
theorem moveZ (p : V3) : ∃ q : V3, rho q = rho p ∧ q.z = 0 ∧ V3.dist p q = |p.z| := by
  refine ⟨⟨p.x, p.y, 0⟩, rfl, rfl, ?_⟩
  unfold V3.dist V3.dist2
  rw [show (p.x - p.x) ^ 2 + (p.y - p.y) ^ 2 + (p.z - 0) ^ 2 = p.z ^ 2 by ring, sqrt_sq_eq_abs]

theorem tan_mono_lo {a b : ℝ} (h0 : 0 ≤ a) (h : a ≤ b) (h1 : b < π / 2) : tanOf a ≤ tanOf b := by
  obtain ⟨c1, t1, -⟩ := tanOf_lo h0 (by linarith)
  obtain ⟨c2, t2, -⟩ := tanOf_lo (a := b) (by linarith) h1
  have hs : 0 ≤ sin (b - a) := sin_nonneg_of_nonneg_of_le_pi (by linarith) (by linarith [pi_pos])
  rw [sin_sub, ← t1, ← t2] at hs
  have : 0 ≤ (tanOf b - tanOf a) * (cos a * cos b) := by linarith
  nlinarith [nonneg_of_mul_nonneg_left this (mul_pos c1 c2)]

theorem tan_mono_hi {a b : ℝ} (h0 : π / 2 < a) (h : a ≤ b) (h1 : b ≤ π) : tanOf b ≤ tanOf a := by
  obtain ⟨c1, t1, -⟩ := tanOf_hi (a := a) (by linarith) h0
  obtain ⟨c2, t2, -⟩ := tanOf_hi (a := b) h1 (by linarith)
  have hs : 0 ≤ sin (b - a) := sin_nonneg_of_nonneg_of_le_pi (by linarith) (by linarith [pi_pos])
  rw [sin_sub, ← t1, ← t2] at hs
  have : 0 ≤ (tanOf a - tanOf b) * (-cos a * -cos b) := by linarith
  nlinarith [nonneg_of_mul_nonneg_left this (mul_pos (neg_pos.mpr c1) (neg_pos.mpr c2))]

/-- Clamping. -/
theorem clamp {x lo hi δ : ℝ} (hδ : 0 ≤ δ) (h : lo ≤ hi) (h1 : lo - δ ≤ x) (h2 : x ≤ hi + δ) : ∃ y, lo ≤ y ∧ y ≤ hi ∧ |x - y| ≤ δ := by
  rcases lt_or_ge x lo with h3 | h3
  · exact ⟨lo, le_refl _, h, abs_le.mpr ⟨by linarith, by linarith⟩⟩
  · rcases lt_or_ge hi x with h4 | h4
    · exact ⟨hi, h, le_refl _, abs_le.mpr ⟨by linarith, by linarith⟩⟩
    · exact ⟨x, h3, h4, by rw [sub_self, abs_zero]; exact hδ⟩

theorem half_le_slack : kHalfTolerance ≤ ThetaCone.slack := by
  unfold kHalfTolerance ThetaCone.slack; linarith [kTolerance_pos]

theorem half_lt_slack : kHalfTolerance < ThetaCone.slack := by
  unfold kHalfTolerance ThetaCone.slack; linarith [kTolerance_pos]

section
variable {s d : ℝ} (h0 : 0 ≤ s) (hd : 0 < d) (he : s + d ≤ π) (reg : Regular s (s + d)) (p : V3) (fits : Fits s (s + d) p)
include h0 hd he reg fits

/-- What is not reported outside is near a point with a polar angle in the range. -/
theorem theta_near (h : ¬ (ThetaCone.make s d).CompletelyOutside p) : ∃ q, Polar s (s + d) q ∧ V3.dist p q ≤ ThetaCone.slack := by
  have ht := kTolerance_pos
  have hp := pi_pos
  have hl := slack_pos
  have hhs := half_le_slack
  simp only [polar_iff h0 (show s < π by linarith) (show 0 < s + d by linarith) he (by linarith)]
  rcases kinds hd reg with k | ⟨k1, k2⟩ | ⟨k1, k2⟩ | ⟨k1, k2⟩ | k
  · rw [outA hd k] at h
    simp only [not_or, not_lt, gt_iff_lt] at h
    obtain ⟨-, -, h1, h2, h3⟩ := h
    have hm := mul_le_mul_of_nonneg_left (tan_mono_lo h0 (show s ≤ s + d by linarith) (by linarith)) h3
    obtain ⟨-, -, n1⟩ := tanOf_lo h0 (show s < π / 2 by linarith)
    obtain ⟨-, -, n2⟩ := tanOf_lo (show 0 ≤ s + d by linarith) (show s + d < π / 2 by linarith)
    rw [abs_mul_nonneg h3 n1] at h1
    rw [abs_mul_nonneg h3 n2] at h2
    obtain ⟨y, y1, y2, y3⟩ := clamp hl.le hm h1 h2
    obtain ⟨q, q1, q2, q3⟩ := move p (le_trans (mul_nonneg h3 n1) y1)
    refine ⟨q, ⟨lo_ge h0 (by linarith) (by linarith) ?_, lo_le (by linarith) (by linarith) (by linarith) ?_⟩, by rw [q3]; exact y3⟩
    · rw [q1, q2, abs_mul_nonneg h3 n1]; exact y1
    · rw [q1, q2, abs_mul_nonneg h3 n2]; exact y2
  · rw [outB hd k1 k2] at h
    by_cases hz : |p.z| < kHalfTolerance
    · obtain ⟨q, q1, q2, q3⟩ := moveZ p
      refine ⟨q, ⟨below_ge h0 (by linarith) q2.le, ?_⟩, by linarith⟩
      rw [k2, off_half, q2]; norm_num
    · have h' := fun x => h ⟨x, hz⟩
      clear h
      simp only [imp_false, not_or, not_lt, gt_iff_lt] at h'
      obtain ⟨-, h1, -, h3⟩ := h'
      obtain ⟨-, -, n1⟩ := tanOf_lo h0 (show s < π / 2 by linarith)
      rw [abs_mul_nonneg h3 n1] at h1
      obtain ⟨y, y1, -, y3⟩ := clamp (hi := max (rho p) (p.z * tanOf s)) hl.le (le_max_right _ _) h1 (by linarith [le_max_left (rho p) (p.z * tanOf s)])
      obtain ⟨q, q1, q2, q3⟩ := move p (le_trans (mul_nonneg h3 n1) y1)
      refine ⟨q, ⟨lo_ge h0 (by linarith) (by linarith) ?_, ?_⟩, by rw [q3]; exact y3⟩
      · rw [q1, q2, abs_mul_nonneg h3 n1]; exact y1
      · rw [k2, off_half, q2]; linarith
  · rw [outC hd k1 k2] at h
    simp only [not_or, not_and, not_lt, gt_iff_lt] at h
    obtain ⟨-, h1, h2⟩ := h
    rcases lt_trichotomy p.z 0 with hz | hz | hz
    · have h2 : |p.z * tanOf (s + d)| - ThetaCone.slack ≤ rho p := by
        by_contra hc
        push Not at hc
        linarith [h2 hc]
      obtain ⟨y, y1, -, y3⟩ := clamp (hi := max (rho p) (|p.z * tanOf (s + d)|)) hl.le (le_max_right _ _) h2
        (by linarith [le_max_left (rho p) (|p.z * tanOf (s + d)|)])
      obtain ⟨q, q1, q2, q3⟩ := move p (le_trans (abs_nonneg _) y1)
      refine ⟨q, ⟨below_ge h0 (by linarith) (by linarith), hi_le he (by linarith) (by linarith) ?_⟩, by rw [q3]; exact y3⟩
      rw [q1, q2]; exact y1
    · refine ⟨p, ⟨below_ge h0 (by linarith) (by linarith), above_le he (by linarith) (by linarith)⟩, ?_⟩
      rw [show V3.dist p p = 0 by unfold V3.dist V3.dist2; simp]; exact hl.le
    · have h2 : |p.z * tanOf s| - ThetaCone.slack ≤ rho p := by
        by_contra hc
        push Not at hc
        linarith [h1 hc]
      obtain ⟨y, y1, -, y3⟩ := clamp (hi := max (rho p) (|p.z * tanOf s|)) hl.le (le_max_right _ _) h2
        (by linarith [le_max_left (rho p) (|p.z * tanOf s|)])
      obtain ⟨q, q1, q2, q3⟩ := move p (le_trans (abs_nonneg _) y1)
      refine ⟨q, ⟨lo_ge h0 (by linarith) (by linarith) ?_, above_le he (by linarith) (by linarith)⟩, by rw [q3]; exact y3⟩
      rw [q1, q2]; exact y1
  · rw [outD hd k1 k2] at h
    by_cases hz : |p.z| < kHalfTolerance
    · obtain ⟨q, q1, q2, q3⟩ := moveZ p
      refine ⟨q, ⟨?_, above_le he (by linarith) q2.ge⟩, by linarith⟩
      rw [k1, off_half, q2]; norm_num
    · have h' := fun x => h ⟨x, hz⟩
      clear h
      simp only [imp_false, not_or, not_and, not_lt, gt_iff_lt] at h'
      obtain ⟨-, h1, h2⟩ := h'
      have hb := big p.z hz
      have hf := fits (Or.inl k1)
      have hz' : p.z ≤ 0 := h1 (by unfold ThetaCone.slack kTolerance; linarith [rho_le_mag p])
      have hz'' : p.z < 0 := by
        refine lt_of_le_of_ne hz' ?_
        intro h; rw [h, abs_zero] at hz; exact hz half_pos
      have h2 : |p.z * tanOf (s + d)| - ThetaCone.slack ≤ rho p := by
        by_contra hc
        push Not at hc
        linarith [h2 hc]
      obtain ⟨y, y1, -, y3⟩ := clamp (hi := max (rho p) (|p.z * tanOf (s + d)|)) hl.le (le_max_right _ _) h2
        (by linarith [le_max_left (rho p) (|p.z * tanOf (s + d)|)])
      obtain ⟨q, q1, q2, q3⟩ := move p (le_trans (abs_nonneg _) y1)
      refine ⟨q, ⟨by rw [k1, off_half]; linarith, hi_le he (by linarith) (by linarith) ?_⟩, by rw [q3]; exact y3⟩
      rw [q1, q2]; exact y1
  · rw [outE hd k] at h
    simp only [not_or, not_lt, gt_iff_lt] at h
    obtain ⟨-, -, h1, h2, h3⟩ := h
    have hm := mul_le_mul_of_nonneg_left (tan_mono_hi (show π / 2 < s by linarith) (show s ≤ s + d by linarith) he) (neg_nonneg.mpr h3)
    obtain ⟨-, -, n1⟩ := tanOf_hi (show s ≤ π by linarith) (show π / 2 < s by linarith)
    obtain ⟨-, -, n2⟩ := tanOf_hi he (show π / 2 < s + d by linarith)
    rw [abs_mul_nonpos h3 n2] at h1
    rw [abs_mul_nonpos h3 n1] at h2
    rw [neg_mul, neg_mul] at hm
    obtain ⟨y, y1, y2, y3⟩ := clamp hl.le hm h1 h2
    have hy : 0 ≤ y := by nlinarith [mul_nonneg (neg_nonneg.mpr h3) n2]
    obtain ⟨q, q1, q2, q3⟩ := move p hy
    refine ⟨q, ⟨hi_ge (by linarith) (by linarith) (by linarith) ?_, hi_le he (by linarith) (by linarith) ?_⟩, by rw [q3]; exact y3⟩
    · rw [q1, q2, abs_mul_nonpos h3 n1]; exact y2
    · rw [q1, q2, abs_mul_nonpos h3 n2]; exact y1

/-- What is well within the range is reported inside, except near the axis where a sector reaching across the plane includes it. -/
theorem theta_deep (h : PolarDeep ThetaCone.slack s (s + d) p)
    (hs : s = 0 → s + d ≤ π / 2 ∨ ThetaCone.slack ≤ rho p) (hE : s + d = π → π / 2 < s ∨ ThetaCone.slack ≤ rho p) :
    (ThetaCone.make s d).CompletelyInside p := by
  have ht := kTolerance_pos
  have hp := pi_pos
  have hl := slack_pos
  have hhs := half_lt_slack
  obtain ⟨r, t, hr, ht1, ht2, e1, e2, d1, d2⟩ := h
  have eo : ∀ a, off a p = r * sin (t - a) := by
    intro a; unfold off; rw [e1, e2, sin_sub]; ring
  have D1 : 0 < s → ThetaCone.slack ≤ off s p := fun h => by rw [eo]; exact d1 h
  have D2 : s + d < π → ThetaCone.slack ≤ -off (s + d) p := fun h => by
    rw [eo, show t - (s + d) = -(s + d - t) by ring, sin_neg]
    linarith [d2 h]
  have cle : ∀ a x y : ℝ, 0 ≤ y → x ≤ y * |cos a| → x ≤ y := fun a x y hy h => by
    nlinarith [abs_cos_le_one a]
  have gs : ∀ a : ℝ, 0 ≤ a → a < π / 2 → 0 < p.z → ThetaCone.slack ≤ off a p → |p.z * tanOf a| + ThetaCone.slack ≤ rho p := by
    intro a ha1 ha2 hz hh
    obtain ⟨c, t, n⟩ := tanOf_lo ha1 ha2
    rw [abs_mul_nonneg hz.le n]
    unfold off at hh
    rw [← t] at hh
    by_contra hc
    push Not at hc
    nlinarith [cos_le_one a]
  have ge : ∀ a : ℝ, 0 ≤ a → a < π / 2 → 0 < p.z → ThetaCone.slack ≤ -off a p → rho p ≤ |p.z * tanOf a| - ThetaCone.slack := by
    intro a ha1 ha2 hz hh
    obtain ⟨c, t, n⟩ := tanOf_lo ha1 ha2
    rw [abs_mul_nonneg hz.le n]
    unfold off at hh
    rw [← t] at hh
    by_contra hc
    push Not at hc
    nlinarith [cos_le_one a]
  have gs' : ∀ a : ℝ, a ≤ π → π / 2 < a → p.z < 0 → ThetaCone.slack ≤ off a p → rho p ≤ |p.z * tanOf a| - ThetaCone.slack := by
    intro a ha1 ha2 hz hh
    obtain ⟨c, t, n⟩ := tanOf_hi ha1 ha2
    rw [abs_mul_nonpos hz.le n]
    unfold off at hh
    rw [← t] at hh
    by_contra hc
    push Not at hc
    nlinarith [neg_one_le_cos a]
  have ge' : ∀ a : ℝ, a ≤ π → π / 2 < a → p.z < 0 → ThetaCone.slack ≤ -off a p → |p.z * tanOf a| + ThetaCone.slack ≤ rho p := by
    intro a ha1 ha2 hz hh
    obtain ⟨c, t, n⟩ := tanOf_hi ha1 ha2
    rw [abs_mul_nonpos hz.le n]
    unfold off at hh
    rw [← t] at hh
    by_contra hc
    push Not at hc
    nlinarith [neg_one_le_cos a]
  rcases kinds hd reg with k | ⟨k1, k2⟩ | ⟨k1, k2⟩ | ⟨k1, k2⟩ | k
  · rw [inA hd k]
    have hz : 0 < p.z := by
      by_contra hc
      push Not at hc
      linarith [below_ge (show 0 ≤ s + d by linarith) (by linarith) hc, D2 (by linarith)]
    refine Or.inr ⟨hz, ge _ (by linarith) (by linarith) hz (D2 (by linarith)), fun h => ?_⟩
    exact gs _ h0 (by linarith) hz (D1 (lt_of_le_of_ne h0 (Ne.symm h)))
  · rw [inB hd k1 k2]
    have hz : ThetaCone.slack ≤ p.z := by
      have := D2 (by linarith)
      rwa [k2, off_half, neg_neg] at this
    have hn : ¬ |p.z| < kHalfTolerance := by
      rw [abs_of_pos (by linarith)]; linarith
    refine ⟨Or.inr ⟨by linarith, ?_, fun h => gs _ h0 (by linarith) (by linarith) (D1 (lt_of_le_of_ne h0 (Ne.symm h)))⟩, hn⟩
    have := fits (Or.inr k2)
    have := big _ hn
    have : ThetaCone.slack < 1 := by unfold ThetaCone.slack kTolerance; norm_num
    linarith [rho_le_mag p]
  · rw [inC hd k1 k2]
    have A : ThetaCone.slack ≤ rho p → s = 0 → p.z > 0 → rho p ≥ |p.z * tanOf s| + ThetaCone.slack := by
      intro h1 h2 h3
      rw [h2]
      refine gs 0 (le_refl _) (by linarith) h3 ?_
      rw [off_zero]; exact h1
    have A' : ThetaCone.slack ≤ rho p → s + d = π → p.z < 0 → rho p ≥ |p.z * tanOf (s + d)| + ThetaCone.slack := by
      intro h1 h2 h3
      rw [h2]
      refine ge' π (le_refl _) (by linarith) h3 ?_
      rw [off_pi, neg_neg]; exact h1
    rcases lt_trichotomy p.z 0 with hz | hz | hz
    · refine Or.inr (Or.inr (Or.inr ⟨?_, hz⟩))
      by_cases hs' : s + d = π
      · rcases hE hs' with h | h
        · linarith
        · exact A' h hs' hz
      · exact ge' _ he (by linarith) hz (D2 (lt_of_le_of_ne he hs'))
    · refine Or.inr (Or.inl ⟨hz, ?_⟩)
      by_contra hc
      push Not at hc
      have hr0 := rho_zero hc
      by_cases hs' : s = 0
      · rcases hs hs' with h | h
        · linarith
        · linarith
      · have := D1 (lt_of_le_of_ne h0 (Ne.symm hs'))
        unfold off at this
        rw [hr0, hz] at this
        linarith
    · refine Or.inr (Or.inr (Or.inl ⟨?_, hz⟩))
      by_cases hs' : s = 0
      · rcases hs hs' with h | h
        · linarith
        · exact A h hs' hz
      · exact gs _ h0 (by linarith) hz (D1 (lt_of_le_of_ne h0 (Ne.symm hs')))
  · rw [inD hd k1 k2]
    have hz : ThetaCone.slack ≤ -p.z := by
      have := D1 (by linarith)
      rwa [k1, off_half] at this
    have hn : ¬ |p.z| < kHalfTolerance := by
      rw [abs_of_neg (by linarith)]; linarith
    by_cases hs' : s + d = π
    · refine ⟨Or.inr (Or.inr ⟨?_, by linarith⟩), hn⟩
      rcases hE hs' with h | h
      · linarith
      · rw [hs']
        refine ge' π (le_refl _) (by linarith) (by linarith) ?_
        rw [off_pi, neg_neg]; exact h
    · exact ⟨Or.inr (Or.inr ⟨ge' _ he (by linarith) (by linarith) (D2 (lt_of_le_of_ne he hs')), by linarith⟩), hn⟩
  · rw [inE hd k]
    have hz : p.z < 0 := by
      by_contra hc
      push Not at hc
      linarith [above_le (show s ≤ π by linarith) (by linarith) hc, D1 (by linarith)]
    refine Or.inr ⟨hz, gs' _ (by linarith) (by linarith) hz (D1 (by linarith)), fun h => ?_⟩
    exact ge' _ he (by linarith) hz (D2 (lt_of_le_of_ne he h))

end

end Sphere
end VecGeom
