import Verif.Torus.Model
import Verif.Tube.Lemmas
import Verif.Sphere.Lemmas

/-!
# Lemmas on tori
-/

namespace VecGeom
namespace Torus

open Real

/-- The struct that the constructor makes. -/
noncomputable def of (a : Par) : Struct := Struct.make a.rmin a.rmax a.rtor a.s a.d

/-- The unplaced volume that the constructor makes. -/
noncomputable def un (a : Par) : Unplaced := Unplaced.make a.rmin a.rmax a.rtor a.s a.d

theorem un_t (a : Par) : (un a).t = of a := rfl

theorem ringDist_nonneg (R : ℝ) (p : V3) : 0 ≤ ringDist R p := sqrt_nonneg _

theorem ringDist_sq (R : ℝ) (p : V3) : ringDist R p ^ 2 = (Tube.rad p - R) ^ 2 + p.z ^ 2 := sq_sqrt (by positivity)

theorem radsq_eq (a : Par) (p : V3) : radsq (of a) p = ringDist a.rtor p ^ 2 := by
  rw [ringDist_sq]
  unfold radsq perp
  rw [Tube.rad_eq]
  show (Tube.rad p - a.rtor) * (Tube.rad p - a.rtor) + p.z * p.z = _
  ring

theorem radOf_eq (a : Par) (p : V3) : radOf (of a) p = ringDist a.rtor p := by
  unfold radOf
  rw [radsq_eq, sqrt_sq (ringDist_nonneg _ _)]

theorem ring_lip (R : ℝ) (p q : V3) : |ringDist R p - ringDist R q| ≤ V3.dist p q := by
  have e : ∀ p : V3, ringDist R p = (⟨Tube.rad p - R, 0, p.z⟩ : V3).mag := by
    intro p
    unfold ringDist V3.mag
    congr 1
    show _ = (Tube.rad p - R) * (Tube.rad p - R) + 0 * 0 + p.z * p.z
    ring
  rw [e, e]
  refine (Sphere.mag_lip _ _).trans (sqrt_le_sqrt ?_)
  show (Tube.rad p - R - (Tube.rad q - R)) ^ 2 + (0 - 0) ^ 2 + (p.z - q.z) ^ 2 ≤ (p.x - q.x) ^ 2 + (p.y - q.y) ^ 2 + (p.z - q.z) ^ 2
  have h1 := Tube.rad_sq p
  have h2 := Tube.rad_sq q
  have h : p.x * q.x + p.y * q.y ≤ Tube.rad p * Tube.rad q := by
    refine le_trans (le_abs_self _) (abs_le_of_sq_le_sq ?_ (mul_nonneg (Tube.rad_nonneg _) (Tube.rad_nonneg _)))
    rw [mul_pow, h1, h2]
    nlinarith [sq_nonneg (p.x * q.y - p.y * q.x)]
  nlinarith

/-- From every point there is a point at a given distance from the ring, in the same half plane and straight ahead. -/
theorem realise {R r : ℝ} (hr : 0 ≤ r) (hR : r ≤ R) (p : V3) :
    ∃ q : V3, ringDist R q = r ∧ V3.dist p q = |ringDist R p - r| ∧
      ∃ c s k l : ℝ, c ^ 2 + s ^ 2 = 1 ∧ 0 ≤ k ∧ 0 ≤ l ∧ p.x = k * c ∧ p.y = k * s ∧ q.x = l * c ∧ q.y = l * s := by
  -- polar coordinates of the point
  obtain ⟨c, s, hcs, hx, hy⟩ : ∃ c s : ℝ, c ^ 2 + s ^ 2 = 1 ∧ p.x = Tube.rad p * c ∧ p.y = Tube.rad p * s := by
    obtain ⟨k, t, hk, -, -, h1, h2⟩ := polar p.x p.y
    refine ⟨cos t, sin t, by rw [add_comm]; exact sin_sq_add_cos_sq t, ?_, ?_⟩
    all_goals
      have : Tube.rad p = k := by
        unfold Tube.rad
        rw [h1, h2, show (k * cos t) ^ 2 + (k * sin t) ^ 2 = k ^ 2 by linear_combination k ^ 2 * sin_sq_add_cos_sq t, sqrt_sq hk]
      rw [this]; assumption
  -- direction from the ring
  set D := ringDist R p with hD
  have hD0 : 0 ≤ D := ringDist_nonneg _ _
  have hDs : D ^ 2 = (Tube.rad p - R) ^ 2 + p.z ^ 2 := ringDist_sq R p
  obtain ⟨u, v, huv, hu, hv⟩ : ∃ u v : ℝ, u ^ 2 + v ^ 2 = 1 ∧ Tube.rad p - R = D * u ∧ p.z = D * v := by
    rcases hD0.eq_or_lt with h | h
    · rw [← h] at hDs
      refine ⟨1, 0, by norm_num, ?_, ?_⟩
      · rw [← h]; nlinarith [sq_nonneg (Tube.rad p - R), sq_nonneg p.z]
      · rw [← h]; nlinarith [sq_nonneg (Tube.rad p - R), sq_nonneg p.z]
    · refine ⟨(Tube.rad p - R) / D, p.z / D, ?_, by field_simp, by field_simp⟩
      rw [div_pow, div_pow, ← add_div, ← hDs, div_self (by positivity)]
  have hu1 : -1 ≤ u := by nlinarith [sq_nonneg v]
  have hl : 0 ≤ R + r * u := by nlinarith
  have hrad : Tube.rad ⟨(R + r * u) * c, (R + r * u) * s, r * v⟩ = R + r * u := by
    unfold Tube.rad
    rw [show ((R + r * u) * c) ^ 2 + ((R + r * u) * s) ^ 2 = (R + r * u) ^ 2 by linear_combination (R + r * u) ^ 2 * hcs, sqrt_sq hl]
  refine ⟨⟨(R + r * u) * c, (R + r * u) * s, r * v⟩, ?_, ?_, c, s, Tube.rad p, R + r * u, hcs, Tube.rad_nonneg _, hl, hx, hy, rfl, rfl⟩
  · unfold ringDist
    rw [hrad]
    rw [show (R + r * u - R) ^ 2 + (r * v) ^ 2 = r ^ 2 by linear_combination r ^ 2 * huv, sqrt_sq hr]
  · unfold V3.dist V3.dist2
    rw [← sqrt_sq_eq_abs]
    congr 1
    show (p.x - (R + r * u) * c) ^ 2 + (p.y - (R + r * u) * s) ^ 2 + (p.z - r * v) ^ 2 = (D - r) ^ 2
    rw [hx, hy, hv, show Tube.rad p = R + D * u by linarith]
    linear_combination (D * u - r * u) ^ 2 * hcs + (D - r) ^ 2 * huv

theorem tol_pos : 0 < tol := by unfold tol; linarith [kTolerance_pos]

section
variable {a : Par} (hv : a.Valid)
include hv

theorem wedge_closed (p : V3) : (a.d < 2 * π → Sector a.s a.d p.x p.y) ↔ Sector a.s a.d p.x p.y := by
  constructor
  · intro h
    rcases hv.d'.lt_or_eq with h1 | h1
    · exact h h1
    · rw [h1]; exact sector_full _ _ _
  · exact fun h _ => h

end

end Torus
end VecGeom
