import Verif.Orb.Model
import Mathlib.Tactic.LinearCombination
import Mathlib.Tactic.FieldSimp
import Mathlib.Tactic.Positivity

/-!
# Lemmas on lengths and on the quadratic equation of a ray and a sphere
-/

namespace VecGeom

namespace V3

theorem mag2_eq (a : V3) : a.mag2 = a.x * a.x + a.y * a.y + a.z * a.z := rfl
theorem mag2_nonneg (a : V3) : 0 ≤ a.mag2 := by
  rw [mag2_eq]; linarith [mul_self_nonneg a.x, mul_self_nonneg a.y, mul_self_nonneg a.z]
theorem mag_nonneg (a : V3) : 0 ≤ a.mag := Real.sqrt_nonneg _
theorem mag_mul_self (a : V3) : a.mag * a.mag = a.mag2 := Real.mul_self_sqrt a.mag2_nonneg
theorem mag_le_iff {a : V3} {r : ℝ} (hr : 0 ≤ r) : a.mag ≤ r ↔ a.mag2 ≤ r * r := by
  rw [← mag_mul_self, mul_self_le_mul_self_iff a.mag_nonneg hr]
theorem mag_lt_iff {a : V3} {r : ℝ} (hr : 0 ≤ r) : a.mag < r ↔ a.mag2 < r * r := by
  rw [← mag_mul_self, mul_self_lt_mul_self_iff a.mag_nonneg hr]
theorem le_mag_iff {a : V3} {r : ℝ} (hr : 0 ≤ r) : r ≤ a.mag ↔ r * r ≤ a.mag2 := by
  rw [← mag_mul_self, mul_self_le_mul_self_iff hr a.mag_nonneg]
theorem mag_eq_iff {a : V3} {r : ℝ} (hr : 0 ≤ r) : a.mag = r ↔ a.mag2 = r * r := by
  rw [← mag_mul_self, mul_self_inj a.mag_nonneg hr]

/-- Cauchy-Schwarz. -/
theorem dot_sq_le (a b : V3) : a.dot b * a.dot b ≤ a.mag2 * b.mag2 := by
  simp only [dot, mag2_eq]
  nlinarith [sq_nonneg (a.x * b.y - a.y * b.x), sq_nonneg (a.y * b.z - a.z * b.y), sq_nonneg (a.z * b.x - a.x * b.z)]

theorem dot_le (a b : V3) : a.dot b ≤ a.mag * b.mag := by
  have h := dot_sq_le a b
  rw [← mag_mul_self a, ← mag_mul_self b] at h
  have h0 : 0 ≤ a.mag * b.mag := mul_nonneg a.mag_nonneg b.mag_nonneg
  by_contra hc
  push Not at hc
  nlinarith

theorem dist2_eq (p q : V3) : dist2 p q = (p - q).mag2 := by
  simp only [dist2, mag2_eq, sub_x, sub_y, sub_z]; ring
theorem dist_eq (p q : V3) : dist p q = (p - q).mag := by
  rw [dist, dist2_eq]; rfl

/-- Triangle inequality. -/
theorem mag_add_le (a b : V3) : (a + b).mag ≤ a.mag + b.mag := by
  rw [mag_le_iff (add_nonneg a.mag_nonneg b.mag_nonneg)]
  have h := dot_le a b
  have e : (a + b).mag2 = a.mag2 + 2 * a.dot b + b.mag2 := by
    simp only [mag2_eq, dot, add_x, add_y, add_z]; ring
  have := mag_mul_self a
  have := mag_mul_self b
  rw [e]; nlinarith

theorem mag_le_add_dist (p q : V3) : p.mag ≤ q.mag + dist p q := by
  have h := mag_add_le q (p - q)
  have e : q + (p - q) = p := by ext <;> simp
  rw [e, ← dist_eq] at h
  exact h

theorem dist_comm (p q : V3) : dist p q = dist q p := by
  unfold dist dist2; congr 1; ring

theorem mag_smul (c : ℝ) (a : V3) : (smul c a).mag = |c| * a.mag := by
  rw [mag_eq_iff (mul_nonneg (abs_nonneg c) a.mag_nonneg)]
  have e : (smul c a).mag2 = c * c * a.mag2 := by simp only [mag2_eq, smul_x, smul_y, smul_z]; ring
  rw [e, ← mag_mul_self a, ← abs_mul_abs_self c]; ring

/-- The squared length along a ray. -/
theorem at_mag2 (p d : V3) (t : ℝ) : (at' p d t).mag2 = p.mag2 + 2 * t * p.dot d + t * t * d.mag2 := by
  simp only [mag2_eq, dot, at_x, at_y, at_z]; ring

end V3

namespace Orb

/-- Unit length. -/
def Unit (d : V3) : Prop := d.mag2 = 1

/-- The quadratic: with `D` half the discriminant, the point at `t` is in the ball exactly if `(t + p·d)² ≤ D`. -/
theorem ray_ball {R : ℝ} (hR : 0 ≤ R) {p d : V3} (hd : Unit d) (t : ℝ) :
    (V3.at' p d t).mag ≤ R ↔ (t + p.dot d) * (t + p.dot d) ≤ p.dot d * p.dot d - (p.mag2 - R * R) := by
  rw [V3.mag_le_iff hR, V3.at_mag2, hd]
  constructor <;> intro h <;> nlinarith

theorem ray_sphere {R : ℝ} (hR : 0 ≤ R) {p d : V3} (hd : Unit d) (t : ℝ) :
    (V3.at' p d t).mag = R ↔ (t + p.dot d) * (t + p.dot d) = p.dot d * p.dot d - (p.mag2 - R * R) := by
  rw [V3.mag_eq_iff hR, V3.at_mag2, hd]
  constructor <;> intro h <;> linarith

end Orb
end VecGeom
