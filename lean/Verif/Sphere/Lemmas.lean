import Verif.Sphere.Spec
import Verif.Sphere.Model
import Verif.Wedge.Props

/-!
# Lemmas about polar angles and the kernels of the theta sector
-/

namespace VecGeom
namespace Sphere

open Real

theorem rho_nonneg (p : V3) : 0 ≤ rho p := sqrt_nonneg _

theorem rho_sq (p : V3) : rho p ^ 2 = p.x ^ 2 + p.y ^ 2 := sq_sqrt (by positivity)

theorem mag_nonneg (p : V3) : 0 ≤ p.mag := sqrt_nonneg _

theorem mag_sq (p : V3) : p.mag ^ 2 = rho p ^ 2 + p.z ^ 2 := by
  rw [rho_sq, V3.mag, sq_sqrt (V3.mag2_nonneg p)]
  show p.x * p.x + p.y * p.y + p.z * p.z = _
  ring

theorem mag2_eq (p : V3) : p.mag2 = p.mag ^ 2 := (sq_sqrt (V3.mag2_nonneg p)).symm

theorem rho_le_mag (p : V3) : rho p ≤ p.mag := by
  refine (abs_le_of_sq_le_sq' ?_ (mag_nonneg p)).2
  rw [mag_sq]; linarith [sq_nonneg p.z]

/-- Signed distance from the cone with polar angle `a`, in the half plane of the point: positive where the angle is larger. -/
noncomputable def off (a : ℝ) (p : V3) : ℝ := rho p * cos a - p.z * sin a

theorem rho_sub_sq (p q : V3) : (rho p - rho q) ^ 2 ≤ (p.x - q.x) ^ 2 + (p.y - q.y) ^ 2 := by
  have h1 := rho_sq p
  have h2 := rho_sq q
  have h3 : p.x * q.x + p.y * q.y ≤ rho p * rho q := by
    refine (abs_le_of_sq_le_sq' ?_ (mul_nonneg (rho_nonneg p) (rho_nonneg q))).2
    rw [mul_pow, h1, h2]
    nlinarith [sq_nonneg (p.x * q.y - p.y * q.x)]
  nlinarith

theorem off_lip (a : ℝ) (p q : V3) : |off a p - off a q| ≤ V3.dist p q := by
  apply abs_le_of_sq_le_sq _ (V3.dist_nonneg' p q)
  have h1 : V3.dist p q ^ 2 = (p.x - q.x) ^ 2 + (p.y - q.y) ^ 2 + (p.z - q.z) ^ 2 := by
    unfold V3.dist
    rw [sq_sqrt (V3.dist2_nonneg p q)]
    unfold V3.dist2
    ring
  rw [h1]
  have h2 := rho_sub_sq p q
  have h3 := sin_sq_add_cos_sq a
  have h4 : (off a p - off a q) ^ 2 + ((rho p - rho q) * sin a + (p.z - q.z) * cos a) ^ 2 =
      ((rho p - rho q) ^ 2 + (p.z - q.z) ^ 2) * (sin a ^ 2 + cos a ^ 2) := by
    unfold off; ring
  rw [h3, mul_one] at h4
  nlinarith [sq_nonneg ((rho p - rho q) * sin a + (p.z - q.z) * cos a)]

theorem mag_lip (p q : V3) : |p.mag - q.mag| ≤ V3.dist p q := by
  have key : ∀ p q : V3, p.mag - q.mag ≤ V3.dist p q := by
    intro p q
    have h1 : V3.dist p q ^ 2 = p.mag2 - 2 * p.dot q + q.mag2 := by
      unfold V3.dist
      rw [sq_sqrt (V3.dist2_nonneg p q)]
      show (p.x - q.x) ^ 2 + (p.y - q.y) ^ 2 + (p.z - q.z) ^ 2 = p.x * p.x + p.y * p.y + p.z * p.z -
        2 * (p.x * q.x + p.y * q.y + p.z * q.z) + (q.x * q.x + q.y * q.y + q.z * q.z)
      ring
    have h2 : p.dot q ≤ p.mag * q.mag := V3.dot_le_sqrt p q
    rw [mag2_eq, mag2_eq] at h1
    refine (abs_le_of_sq_le_sq' ?_ (V3.dist_nonneg' p q)).2
    nlinarith
  rw [abs_le]
  have h1 := key p q
  have h2 := key q p
  rw [V3.dist_comm'] at h2
  exact ⟨by linarith, h1⟩

theorem polar_coords (p : V3) : ∃ r t : ℝ, 0 ≤ r ∧ 0 ≤ t ∧ t ≤ π ∧ rho p = r * sin t ∧ p.z = r * cos t := by
  obtain ⟨r, t, h1, h2, h3, h4, h5⟩ := polar p.z (rho p)
  by_cases ht : t ≤ π
  · exact ⟨r, t, h1, h2, ht, h5, h4⟩
  · have hr : r = 0 := by
      by_contra hr
      have hs := sin_neg_of (by linarith) h3
      have := mul_neg_of_pos_of_neg (lt_of_le_of_ne h1 (Ne.symm hr)) hs
      linarith [rho_nonneg p]
    exact ⟨0, 0, le_refl _, le_refl _, pi_pos.le, by rw [h5, hr]; ring, by rw [h4, hr]; ring⟩

/-- The polar angle is in a range if the point is on the right sides of the two cones. -/
theorem polar_iff {u v : ℝ} (h0 : 0 ≤ u) (h1 : u < π) (h2 : 0 < v) (h3 : v ≤ π) (h : u ≤ v) (p : V3) :
    Polar u v p ↔ 0 ≤ off u p ∧ off v p ≤ 0 := by
  have e : ∀ r t a : ℝ, rho p = r * sin t → p.z = r * cos t → off a p = r * sin (t - a) := by
    intro r t a e1 e2
    unfold off
    rw [e1, e2, sin_sub]; ring
  constructor
  · rintro ⟨r, t, hr, hu, hv, e1, e2⟩
    rw [e r t u e1 e2, e r t v e1 e2]
    refine ⟨mul_nonneg hr (sin_nonneg_of_nonneg_of_le_pi (by linarith) (by linarith)), ?_⟩
    have := mul_nonneg hr (sin_nonneg_of_nonneg_of_le_pi (x := v - t) (by linarith) (by linarith))
    rw [show t - v = -(v - t) by ring, sin_neg]
    linarith
  · rintro ⟨hu, hv⟩
    obtain ⟨r, t, hr, ht0, htp, e1, e2⟩ := polar_coords p
    rw [e r t u e1 e2] at hu
    rw [e r t v e1 e2] at hv
    rcases hr.eq_or_lt with hr0 | hr0
    · refine ⟨0, u, le_refl _, le_refl _, h, ?_, ?_⟩
      · rw [e1, ← hr0]; ring
      · rw [e2, ← hr0]; ring
    · refine ⟨r, t, hr, ?_, ?_, e1, e2⟩
      · by_contra hc
        push Not at hc
        have : 0 < sin (u - t) := sin_pos_of_pos_of_lt_pi (by linarith) (by linarith)
        rw [show t - u = -(u - t) by ring, sin_neg] at hu
        nlinarith
      · by_contra hc
        push Not at hc
        have : 0 < sin (t - v) := sin_pos_of_pos_of_lt_pi (by linarith) (by linarith)
        nlinarith

/-- The tangent that a theta sector keeps for an angle. -/
noncomputable def tanOf (a : ℝ) : ℝ := ctan (if a > π / 2 then π - a else a)

theorem ctan_of {x : ℝ} (h1 : -(π / 2) < x) (h2 : x < π / 2) : ctan x = tan x := by
  unfold ctan
  rw [if_neg h2.ne, if_neg h1.ne']

theorem tanOf_lo {a : ℝ} (h0 : 0 ≤ a) (h : a < π / 2) : 0 < cos a ∧ tanOf a * cos a = sin a ∧ 0 ≤ tanOf a := by
  have hp := pi_pos
  have hc : 0 < cos a := cos_pos_of_mem_Ioo ⟨by linarith, h⟩
  unfold tanOf
  rw [if_neg (by linarith), ctan_of (by linarith) h]
  exact ⟨hc, tan_mul_cos hc.ne', tan_nonneg_of_nonneg_of_le_pi_div_two h0 h.le⟩

theorem tanOf_hi {a : ℝ} (h0 : a ≤ π) (h : π / 2 < a) : cos a < 0 ∧ tanOf a * -cos a = sin a ∧ 0 ≤ tanOf a := by
  have hp := pi_pos
  have := tanOf_lo (a := π - a) (by linarith) (by linarith)
  unfold tanOf at this ⊢
  rw [if_neg (by linarith)] at this
  rw [if_pos h]
  rw [cos_pi_sub, sin_pi_sub] at this
  exact ⟨by linarith [this.1], this.2.1, this.2.2⟩

theorem tanOf_half : tanOf (π / 2) = 16331239353195370 := by
  unfold tanOf ctan
  rw [if_neg (lt_irrefl _), if_pos rfl]

/-- The distance to a line of the half plane is that from the cone. -/
theorem line_eq {a : ℝ} (h0 : 0 < a) (h1 : a < π) (p : V3) : ThetaCone.distanceToLine (ctan (π / 2 - a)) (rho p) p.z = |off a p| := by
  have hs := sin_pos_of_pos_of_lt_pi h0 h1
  rw [ctan_of (by linarith) (by linarith)]
  have ht : tan (π / 2 - a) = cos a / sin a := by rw [tan_eq_sin_div_cos, sin_pi_div_two_sub, cos_pi_div_two_sub]
  unfold ThetaCone.distanceToLine
  rw [ht]
  have hr : √(1 + cos a / sin a * (cos a / sin a)) = 1 / sin a := by
    rw [show 1 + cos a / sin a * (cos a / sin a) = (1 / sin a) ^ 2 by field_simp; linarith [sin_sq_add_cos_sq a], sqrt_sq (by positivity)]
  rw [hr, show (p.z - cos a / sin a * rho p) / (1 / sin a) = -off a p by unfold off; field_simp; ring, abs_neg]

theorem perp_eq (p : V3) : ThetaCone.perp p = rho p := by
  unfold ThetaCone.perp rho
  rw [pow_two, pow_two]

theorem perp_eq' (p : V3) : √(p.x * p.x + p.y * p.y) = rho p := perp_eq p

theorem perp_eq'' (p : V3) : √(p.mag2 - p.z * p.z) = rho p := by
  rw [← perp_eq']
  congr 1
  show p.x * p.x + p.y * p.y + p.z * p.z - p.z * p.z = _
  ring

theorem rho_zero {p : V3} (h : p.x = 0 ∧ p.y = 0) : rho p = 0 := by
  unfold rho
  rw [h.1, h.2]
  norm_num

theorem rho_pos {p : V3} (h : p.x ≠ 0 ∨ p.y ≠ 0) : 0 < rho p := by
  unfold rho
  apply sqrt_pos.mpr
  rcases h with h | h
  · have := sq_pos_of_ne_zero h
    nlinarith [sq_nonneg p.y]
  · have := sq_pos_of_ne_zero h
    nlinarith [sq_nonneg p.x]

/-- Polar angles for which the kernels treat the two cones as such: right angles, or at least the tolerance away from one. -/
structure Regular (s e : ℝ) : Prop where
  s : s = π / 2 ∨ kTolerance < |s - π / 2|
  e : e = π / 2 ∨ kTolerance < |e - π / 2|

/-- For hemispheres the kernels compare with the tangent of a rounded right angle; they are right up to a radius of 8·10^6. -/
def Fits (s e : ℝ) (p : V3) : Prop := s = π / 2 ∨ e = π / 2 → p.mag ≤ 8 * 10 ^ 6

/-- The five kinds of ranges. -/
theorem kinds {s d : ℝ} (hd : 0 < d) (h : Regular s (s + d)) :
    (s + d < π / 2 - kTolerance) ∨ (s < π / 2 - kTolerance ∧ s + d = π / 2) ∨ (s < π / 2 - kTolerance ∧ π / 2 + kTolerance < s + d) ∨
      (s = π / 2 ∧ π / 2 + kTolerance < s + d) ∨ (π / 2 + kTolerance < s) := by
  have ht := kTolerance_pos
  rcases h.s with h1 | h1 <;> rcases h.e with h2 | h2
  · linarith
  · rcases lt_abs.mp h2 with h3 | h3
    · exact Or.inr (Or.inr (Or.inr (Or.inl ⟨h1, by linarith⟩)))
    · linarith
  · rcases lt_abs.mp h1 with h3 | h3
    · linarith
    · exact Or.inr (Or.inl ⟨by linarith, h2⟩)
  · rcases lt_abs.mp h1 with h3 | h3
    · exact Or.inr (Or.inr (Or.inr (Or.inr (by linarith))))
    · rcases lt_abs.mp h2 with h4 | h4
      · exact Or.inr (Or.inr (Or.inl ⟨by linarith, by linarith⟩))
      · exact Or.inl (by linarith)

theorem half_pos : 0 < kHalfTolerance := kHalfTolerance_pos
theorem half_lt : kHalfTolerance < kTolerance := by unfold kHalfTolerance; linarith [kTolerance_pos]
theorem slack_pos : 0 < ThetaCone.slack := by unfold ThetaCone.slack; linarith [kTolerance_pos]

theorem make_s (s d : ℝ) : (ThetaCone.make s d).s = s := rfl
theorem make_e (s d : ℝ) : (ThetaCone.make s d).e = s + d := rfl
theorem make_tanS (s d : ℝ) : (ThetaCone.make s d).tanS = tanOf s := rfl
theorem make_tanE (s d : ℝ) : (ThetaCone.make s d).tanE = tanOf (s + d) := rfl

/-! ### Both cones above the plane -/

theorem outA {s d : ℝ} (hd : 0 < d) (h : s + d < π / 2 - kTolerance) (p : V3) : (ThetaCone.make s d).CompletelyOutside p ↔
    (ThetaCone.OnAxis p ∧ (p.z < 0 ∨ s ≠ 0)) ∨ ThetaCone.OnPlane p ∨
      (rho p < |p.z * tanOf s| - ThetaCone.slack ∨ rho p > |p.z * tanOf (s + d)| + ThetaCone.slack ∨ p.z < 0) := by
  have ht := kTolerance_pos
  have hh := half_lt
  have hh0 := half_pos
  have hp := pi_pos
  unfold ThetaCone.CompletelyOutside
  simp only [make_s, make_e, make_tanS, make_tanE, perp_eq]
  rw [if_neg (show ¬ s + d > π / 2 + kHalfTolerance by linarith), if_pos (show s < π / 2 + kHalfTolerance by linarith),
    if_pos (show s + d < π / 2 + kHalfTolerance ∧ s < s + d from ⟨by linarith, by linarith⟩),
    if_neg (show ¬ (s + d > π / 2 + kHalfTolerance ∧ s < s + d) from fun h => by linarith [h.1]),
    if_neg (show ¬ (s + d ≥ π / 2 - kHalfTolerance ∧ s + d ≤ π / 2 + kHalfTolerance) from fun h => by linarith [h.1])]
  have e1 : s + d ≠ π := by linarith
  have e2 : s < π / 2 ∧ s + d < π / 2 ∧ π / 2 - s > kTolerance ∧ π / 2 - (s + d) > kTolerance :=
    ⟨by linarith, by linarith, by linarith, by linarith⟩
  constructor
  · rintro ((⟨h1, (h2 | h2 | h2)⟩ | ⟨h1, -⟩) | h1)
    · exact Or.inl ⟨h1, Or.inr h2.1⟩
    · exact Or.inl ⟨h1, Or.inr h2.2⟩
    · exact Or.inl ⟨h1, Or.inl h2.1⟩
    · exact Or.inr (Or.inl h1)
    · exact Or.inr (Or.inr h1)
  · rintro (⟨h1, (h2 | h2)⟩ | h1 | h1)
    · exact Or.inl (Or.inl ⟨h1, Or.inr (Or.inr ⟨h2, e1⟩)⟩)
    · exact Or.inl (Or.inl ⟨h1, Or.inl ⟨h2, e1⟩⟩)
    · exact Or.inl (Or.inr ⟨h1, Or.inl e2⟩)
    · exact Or.inr h1

theorem inA {s d : ℝ} (hd : 0 < d) (h : s + d < π / 2 - kTolerance) (p : V3) : (ThetaCone.make s d).CompletelyInside p ↔
    (ThetaCone.OnAxis p ∧ p.z > 0 ∧ s = 0) ∨
      (p.z > 0 ∧ rho p ≤ |p.z * tanOf (s + d)| - ThetaCone.slack ∧ (s ≠ 0 → rho p ≥ |p.z * tanOf s| + ThetaCone.slack)) := by
  have ht := kTolerance_pos
  have hh := half_lt
  have hh0 := half_pos
  have hp := pi_pos
  unfold ThetaCone.CompletelyInside
  simp only [make_s, make_e, make_tanS, make_tanE, perp_eq'']
  rw [if_neg (show ¬ s + d > π / 2 + kHalfTolerance by linarith), if_pos (show s < π / 2 + kHalfTolerance by linarith),
    if_pos (show s + d < π / 2 + kHalfTolerance ∧ s < s + d from ⟨by linarith, by linarith⟩),
    if_neg (show ¬ (s + d > π / 2 + kHalfTolerance ∧ s < s + d) from fun h => by linarith [h.1]),
    if_neg (show ¬ (s + d ≥ π / 2 - kHalfTolerance ∧ s + d ≤ π / 2 + kHalfTolerance) from fun h => by linarith [h.1])]
  constructor
  · rintro ((⟨h1, (h2 | h2 | h2)⟩ | ⟨-, h1⟩) | (h1 | h1))
    · linarith [h2.2]
    · exact Or.inl ⟨h1, h2.1, h2.2⟩
    · linarith [h2.2]
    · linarith [h1.2.1]
    · exact Or.inr ⟨h1.2.2.1, h1.1, fun _ => h1.2.1⟩
    · exact Or.inr ⟨h1.2.2, h1.1, fun h => absurd h1.2.1 h⟩
  · rintro (⟨h1, h2, h3⟩ | ⟨h1, h2, h3⟩)
    · exact Or.inl (Or.inl ⟨h1, Or.inr (Or.inl ⟨h2, h3⟩)⟩)
    · by_cases hs : s = 0
      · exact Or.inr (Or.inr ⟨h2, hs, h1⟩)
      · exact Or.inr (Or.inl ⟨h2, h3 hs, h1, hs⟩)

/-! ### The second cone is the plane -/

theorem outB {s d : ℝ} (hd : 0 < d) (h0 : s < π / 2 - kTolerance) (h : s + d = π / 2) (p : V3) : (ThetaCone.make s d).CompletelyOutside p ↔
    ((ThetaCone.OnAxis p ∧ (p.z < 0 ∨ s ≠ 0)) ∨
      (rho p < |p.z * tanOf s| - ThetaCone.slack ∨ rho p > |p.z * 16331239353195370| + ThetaCone.slack ∨ p.z < 0)) ∧
    ¬ |p.z| < kHalfTolerance := by
  have ht := kTolerance_pos
  have hh := half_lt
  have hh0 := half_pos
  have hp := pi_pos
  unfold ThetaCone.CompletelyOutside
  simp only [make_s, make_e, make_tanS, make_tanE, perp_eq]
  rw [if_neg (show ¬ s + d > π / 2 + kHalfTolerance by linarith), if_pos (show s < π / 2 + kHalfTolerance by linarith),
    if_pos (show s + d < π / 2 + kHalfTolerance ∧ s < s + d from ⟨by linarith, by linarith⟩),
    if_neg (show ¬ (s + d > π / 2 + kHalfTolerance ∧ s < s + d) from fun h => by linarith [h.1]),
    if_pos (show (s + d ≥ π / 2 - kHalfTolerance ∧ s + d ≤ π / 2 + kHalfTolerance) from ⟨by linarith, by linarith⟩)]
  rw [h, tanOf_half]
  have e1 : π / 2 ≠ π := by linarith
  refine and_congr_left fun _ => ?_
  constructor
  · rintro ((⟨h1, (h2 | h2 | h2)⟩ | ⟨-, h1⟩) | h1)
    · exact Or.inl ⟨h1, Or.inr h2.1⟩
    · exact Or.inl ⟨h1, Or.inr h2.2⟩
    · exact Or.inl ⟨h1, Or.inl h2.1⟩
    · rcases h1 with h1 | h1
      · exact absurd h1.2.1 (lt_irrefl _)
      · exact absurd h1.1.2 (lt_irrefl _)
    · exact Or.inr h1
  · rintro (⟨h1, (h2 | h2)⟩ | h1)
    · exact Or.inl (Or.inl ⟨h1, Or.inr (Or.inr ⟨h2, e1⟩)⟩)
    · exact Or.inl (Or.inl ⟨h1, Or.inl ⟨h2, e1⟩⟩)
    · exact Or.inr h1

theorem inB {s d : ℝ} (hd : 0 < d) (h0 : s < π / 2 - kTolerance) (h : s + d = π / 2) (p : V3) : (ThetaCone.make s d).CompletelyInside p ↔
    ((ThetaCone.OnAxis p ∧ p.z > 0 ∧ s = 0) ∨
      (p.z > 0 ∧ rho p ≤ |p.z * 16331239353195370| - ThetaCone.slack ∧ (s ≠ 0 → rho p ≥ |p.z * tanOf s| + ThetaCone.slack))) ∧
    ¬ |p.z| < kHalfTolerance := by
  have ht := kTolerance_pos
  have hh := half_lt
  have hh0 := half_pos
  have hp := pi_pos
  unfold ThetaCone.CompletelyInside
  simp only [make_s, make_e, make_tanS, make_tanE, perp_eq'']
  rw [if_neg (show ¬ s + d > π / 2 + kHalfTolerance by linarith), if_pos (show s < π / 2 + kHalfTolerance by linarith),
    if_pos (show s + d < π / 2 + kHalfTolerance ∧ s < s + d from ⟨by linarith, by linarith⟩),
    if_neg (show ¬ (s + d > π / 2 + kHalfTolerance ∧ s < s + d) from fun h => by linarith [h.1]),
    if_pos (show (s + d ≥ π / 2 - kHalfTolerance ∧ s + d ≤ π / 2 + kHalfTolerance) from ⟨by linarith, by linarith⟩)]
  rw [h, tanOf_half]
  have e1 : π / 2 ≠ π := by linarith
  refine and_congr_left fun _ => ?_
  constructor
  · rintro ((⟨h1, (h2 | h2 | h2)⟩ | ⟨-, h1⟩) | (h1 | h1))
    · exact absurd h2.2 e1
    · exact Or.inl ⟨h1, h2.1, h2.2⟩
    · exact absurd h2.2 e1
    · exact absurd h1.2.1 (lt_irrefl _)
    · exact Or.inr ⟨h1.2.2.1, h1.1, fun _ => h1.2.1⟩
    · exact Or.inr ⟨h1.2.2, h1.1, fun h => absurd h1.2.1 h⟩
  · rintro (⟨h1, h2, h3⟩ | ⟨h1, h2, h3⟩)
    · exact Or.inl (Or.inl ⟨h1, Or.inr (Or.inl ⟨h2, h3⟩)⟩)
    · by_cases hs : s = 0
      · exact Or.inr (Or.inr ⟨h2, hs, h1⟩)
      · exact Or.inr (Or.inl ⟨h2, h3 hs, h1, hs⟩)

/-! ### One cone above, one below -/

theorem outC {s d : ℝ} (hd : 0 < d) (h0 : s < π / 2 - kTolerance) (h : π / 2 + kTolerance < s + d) (p : V3) :
    (ThetaCone.make s d).CompletelyOutside p ↔
    (ThetaCone.OnAxis p ∧ ((s ≠ 0 ∧ s + d ≠ π) ∨ (p.z > 0 ∧ s ≠ 0) ∨ (p.z < 0 ∧ s + d ≠ π))) ∨
      (rho p < |p.z * tanOf s| - ThetaCone.slack ∧ p.z > 0) ∨ (rho p < |p.z * tanOf (s + d)| - ThetaCone.slack ∧ p.z < 0) := by
  have ht := kTolerance_pos
  have hh := half_lt
  have hh0 := half_pos
  have hp := pi_pos
  unfold ThetaCone.CompletelyOutside
  simp only [make_s, make_e, make_tanS, make_tanE, perp_eq]
  rw [if_pos (show s + d > π / 2 + kHalfTolerance by linarith), if_pos (show s < π / 2 + kHalfTolerance by linarith),
    if_neg (show ¬ (s + d < π / 2 + kHalfTolerance ∧ s < s + d) from fun h => by linarith [h.1]),
    if_pos (show (s + d > π / 2 + kHalfTolerance ∧ s < s + d) from ⟨by linarith, by linarith⟩),
    if_neg (show ¬ (s + d ≥ π / 2 - kHalfTolerance ∧ s + d ≤ π / 2 + kHalfTolerance) from fun h => by linarith [h.2]),
    if_neg (show ¬ (s ≥ π / 2 - kHalfTolerance ∧ s ≤ π / 2 + kHalfTolerance) from fun h => by linarith [h.1]),
    if_neg (show ¬ (s > π / 2 + kHalfTolerance ∧ s < s + d) from fun h => by linarith [h.1])]
  constructor
  · rintro ((h1 | ⟨-, (h1 | h1)⟩) | h1)
    · exact Or.inl h1
    · linarith [h1.2.1]
    · linarith [h1.1.1]
    · exact Or.inr h1
  · rintro (h1 | h1)
    · exact Or.inl (Or.inl h1)
    · exact Or.inr h1

theorem inC {s d : ℝ} (hd : 0 < d) (h0 : s < π / 2 - kTolerance) (h : π / 2 + kTolerance < s + d) (p : V3) :
    (ThetaCone.make s d).CompletelyInside p ↔
    (ThetaCone.OnAxis p ∧ ((s = 0 ∧ s + d = π) ∨ (p.z > 0 ∧ s = 0) ∨ (p.z < 0 ∧ s + d = π))) ∨ ThetaCone.OnPlane p ∨
      (rho p ≥ |p.z * tanOf s| + ThetaCone.slack ∧ p.z > 0) ∨ (rho p ≥ |p.z * tanOf (s + d)| + ThetaCone.slack ∧ p.z < 0) := by
  have ht := kTolerance_pos
  have hh := half_lt
  have hh0 := half_pos
  have hp := pi_pos
  unfold ThetaCone.CompletelyInside
  simp only [make_s, make_e, make_tanS, make_tanE, perp_eq'']
  rw [if_pos (show s + d > π / 2 + kHalfTolerance by linarith), if_pos (show s < π / 2 + kHalfTolerance by linarith),
    if_neg (show ¬ (s + d < π / 2 + kHalfTolerance ∧ s < s + d) from fun h => by linarith [h.1]),
    if_pos (show (s + d > π / 2 + kHalfTolerance ∧ s < s + d) from ⟨by linarith, by linarith⟩),
    if_neg (show ¬ (s + d ≥ π / 2 - kHalfTolerance ∧ s + d ≤ π / 2 + kHalfTolerance) from fun h => by linarith [h.2]),
    if_neg (show ¬ (s ≥ π / 2 - kHalfTolerance ∧ s ≤ π / 2 + kHalfTolerance) from fun h => by linarith [h.1]),
    if_neg (show ¬ (s > π / 2 + kHalfTolerance ∧ s < s + d) from fun h => by linarith [h.1])]
  constructor
  · rintro ((h1 | ⟨h1, -⟩) | h1)
    · exact Or.inl h1
    · exact Or.inr (Or.inl h1)
    · exact Or.inr (Or.inr h1)
  · rintro (h1 | h1 | h1)
    · exact Or.inl (Or.inl h1)
    · exact Or.inl (Or.inr ⟨h1, by linarith, by linarith, by linarith, by linarith⟩)
    · exact Or.inr h1

/-! ### The first cone is the plane -/

theorem outD {s d : ℝ} (hd : 0 < d) (h0 : s = π / 2) (h : π / 2 + kTolerance < s + d) (p : V3) :
    (ThetaCone.make s d).CompletelyOutside p ↔
    ((ThetaCone.OnAxis p ∧ (p.z > 0 ∨ s + d ≠ π)) ∨
      (rho p < |p.z * 16331239353195370| - ThetaCone.slack ∧ p.z > 0) ∨ (rho p < |p.z * tanOf (s + d)| - ThetaCone.slack ∧ p.z < 0)) ∧
    ¬ |p.z| < kHalfTolerance := by
  have ht := kTolerance_pos
  have hh := half_lt
  have hh0 := half_pos
  have hp := pi_pos
  unfold ThetaCone.CompletelyOutside
  simp only [make_s, make_e, make_tanS, make_tanE, perp_eq]
  rw [if_pos (show s + d > π / 2 + kHalfTolerance by linarith), if_pos (show s < π / 2 + kHalfTolerance by linarith),
    if_neg (show ¬ (s + d < π / 2 + kHalfTolerance ∧ s < s + d) from fun h => by linarith [h.1]),
    if_pos (show (s + d > π / 2 + kHalfTolerance ∧ s < s + d) from ⟨by linarith, by linarith⟩),
    if_neg (show ¬ (s + d ≥ π / 2 - kHalfTolerance ∧ s + d ≤ π / 2 + kHalfTolerance) from fun h => by linarith [h.2]),
    if_pos (show (s ≥ π / 2 - kHalfTolerance ∧ s ≤ π / 2 + kHalfTolerance) from ⟨by linarith, by linarith⟩),
    if_neg (show ¬ (s > π / 2 + kHalfTolerance ∧ s < s + d) from fun h => by linarith [h.1])]
  have e0 : s ≠ 0 := by linarith
  have e1 : tanOf s = 16331239353195370 := by rw [h0, tanOf_half]
  rw [e1]
  refine and_congr_left fun _ => ?_
  constructor
  · rintro ((⟨h1, (h2 | h2 | h2)⟩ | ⟨-, (h1 | h1)⟩) | h1)
    · exact Or.inl ⟨h1, Or.inr h2.2⟩
    · exact Or.inl ⟨h1, Or.inl h2.1⟩
    · exact Or.inl ⟨h1, Or.inr h2.2⟩
    · linarith [h1.2.1]
    · linarith [h1.1.1]
    · exact Or.inr h1
  · rintro (⟨h1, (h2 | h2)⟩ | h1)
    · exact Or.inl (Or.inl ⟨h1, Or.inr (Or.inl ⟨h2, e0⟩)⟩)
    · exact Or.inl (Or.inl ⟨h1, Or.inl ⟨e0, h2⟩⟩)
    · exact Or.inr h1

theorem inD {s d : ℝ} (hd : 0 < d) (h0 : s = π / 2) (h : π / 2 + kTolerance < s + d) (p : V3) :
    (ThetaCone.make s d).CompletelyInside p ↔
    ((ThetaCone.OnAxis p ∧ p.z < 0 ∧ s + d = π) ∨
      (rho p ≥ |p.z * 16331239353195370| + ThetaCone.slack ∧ p.z > 0) ∨ (rho p ≥ |p.z * tanOf (s + d)| + ThetaCone.slack ∧ p.z < 0)) ∧
    ¬ |p.z| < kHalfTolerance := by
  have ht := kTolerance_pos
  have hh := half_lt
  have hh0 := half_pos
  have hp := pi_pos
  unfold ThetaCone.CompletelyInside
  simp only [make_s, make_e, make_tanS, make_tanE, perp_eq'']
  rw [if_pos (show s + d > π / 2 + kHalfTolerance by linarith), if_pos (show s < π / 2 + kHalfTolerance by linarith),
    if_neg (show ¬ (s + d < π / 2 + kHalfTolerance ∧ s < s + d) from fun h => by linarith [h.1]),
    if_pos (show (s + d > π / 2 + kHalfTolerance ∧ s < s + d) from ⟨by linarith, by linarith⟩),
    if_neg (show ¬ (s + d ≥ π / 2 - kHalfTolerance ∧ s + d ≤ π / 2 + kHalfTolerance) from fun h => by linarith [h.2]),
    if_pos (show (s ≥ π / 2 - kHalfTolerance ∧ s ≤ π / 2 + kHalfTolerance) from ⟨by linarith, by linarith⟩),
    if_neg (show ¬ (s > π / 2 + kHalfTolerance ∧ s < s + d) from fun h => by linarith [h.1])]
  have e0 : s ≠ 0 := by linarith
  have e1 : tanOf s = 16331239353195370 := by rw [h0, tanOf_half]
  rw [e1]
  refine and_congr_left fun _ => ?_
  constructor
  · rintro ((⟨h1, (h2 | h2 | h2)⟩ | ⟨-, h1⟩) | h1)
    · exact absurd h2.1 e0
    · exact absurd h2.2 e0
    · exact Or.inl ⟨h1, h2⟩
    · linarith [h1.1]
    · exact Or.inr h1
  · rintro (⟨h1, h2⟩ | h1)
    · exact Or.inl (Or.inl ⟨h1, Or.inr (Or.inr h2)⟩)
    · exact Or.inr h1

/-! ### Both cones below the plane -/

theorem outE {s d : ℝ} (hd : 0 < d) (h : π / 2 + kTolerance < s) (p : V3) : (ThetaCone.make s d).CompletelyOutside p ↔
    (ThetaCone.OnAxis p ∧ (p.z > 0 ∨ s + d ≠ π)) ∨ ThetaCone.OnPlane p ∨
      (rho p < |p.z * tanOf (s + d)| - ThetaCone.slack ∨ rho p > |p.z * tanOf s| + ThetaCone.slack ∨ p.z > 0) := by
  have ht := kTolerance_pos
  have hh := half_lt
  have hh0 := half_pos
  have hp := pi_pos
  unfold ThetaCone.CompletelyOutside
  simp only [make_s, make_e, make_tanS, make_tanE, perp_eq]
  rw [if_pos (show s + d > π / 2 + kHalfTolerance by linarith), if_neg (show ¬ s < π / 2 + kHalfTolerance by linarith),
    if_neg (show ¬ (s ≥ π / 2 - kHalfTolerance ∧ s ≤ π / 2 + kHalfTolerance) from fun h => by linarith [h.2]),
    if_pos (show (s > π / 2 + kHalfTolerance ∧ s < s + d) from ⟨by linarith, by linarith⟩)]
  have e0 : s ≠ 0 := by linarith
  constructor
  · rintro ((⟨h1, (h2 | h2 | h2)⟩ | ⟨h1, -⟩) | h1)
    · exact Or.inl ⟨h1, Or.inr h2.2⟩
    · exact Or.inl ⟨h1, Or.inl h2.1⟩
    · exact Or.inl ⟨h1, Or.inr h2.2⟩
    · exact Or.inr (Or.inl h1)
    · exact Or.inr (Or.inr h1)
  · rintro (⟨h1, (h2 | h2)⟩ | h1 | h1)
    · exact Or.inl (Or.inl ⟨h1, Or.inr (Or.inl ⟨h2, e0⟩)⟩)
    · exact Or.inl (Or.inl ⟨h1, Or.inl ⟨e0, h2⟩⟩)
    · exact Or.inl (Or.inr ⟨h1, Or.inr ⟨⟨by linarith, by linarith⟩, by linarith, by linarith⟩⟩)
    · exact Or.inr h1

theorem inE {s d : ℝ} (hd : 0 < d) (h : π / 2 + kTolerance < s) (p : V3) : (ThetaCone.make s d).CompletelyInside p ↔
    (ThetaCone.OnAxis p ∧ p.z < 0 ∧ s + d = π) ∨
      (p.z < 0 ∧ rho p ≤ |p.z * tanOf s| - ThetaCone.slack ∧ (s + d ≠ π → rho p ≥ |p.z * tanOf (s + d)| + ThetaCone.slack)) := by
  have ht := kTolerance_pos
  have hh := half_lt
  have hh0 := half_pos
  have hp := pi_pos
  unfold ThetaCone.CompletelyInside
  simp only [make_s, make_e, make_tanS, make_tanE, perp_eq'']
  rw [if_pos (show s + d > π / 2 + kHalfTolerance by linarith), if_neg (show ¬ s < π / 2 + kHalfTolerance by linarith),
    if_neg (show ¬ (s ≥ π / 2 - kHalfTolerance ∧ s ≤ π / 2 + kHalfTolerance) from fun h => by linarith [h.2]),
    if_pos (show (s > π / 2 + kHalfTolerance ∧ s < s + d) from ⟨by linarith, by linarith⟩)]
  have e0 : s ≠ 0 := by linarith
  constructor
  · rintro ((⟨h1, (h2 | h2 | h2)⟩ | ⟨-, h1⟩) | (h1 | h1))
    · exact absurd h2.1 e0
    · exact absurd h2.2 e0
    · exact Or.inl ⟨h1, h2⟩
    · linarith [h1.1]
    · exact Or.inr ⟨h1.2.2.1, h1.1, fun _ => h1.2.1⟩
    · exact Or.inr ⟨h1.2.1, h1.1, fun h => absurd h1.2.2 h⟩
  · rintro (⟨h1, h2⟩ | ⟨h1, h2, h3⟩)
    · exact Or.inl (Or.inl ⟨h1, Or.inr (Or.inr h2)⟩)
    · by_cases hs : s + d = π
      · exact Or.inr (Or.inr ⟨h2, h1, hs⟩)
      · exact Or.inr (Or.inl ⟨h2, h3 hs, h1, hs⟩)

end Sphere
end VecGeom
