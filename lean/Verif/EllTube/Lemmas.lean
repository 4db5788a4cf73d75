import Verif.EllTube.Model
import Verif.EllTube.Spec
import Verif.Tube.Lemmas

/-!
# The scaling to a circular tube
-/

namespace VecGeom
namespace EllTube

open Real Tube

variable {a : Par}

/-- The tube of the parameters. -/
noncomputable def of (a : Par) : Struct := make a.x a.y a.z

theorem half_lt : kHalfTolerance < kTolerance := by have := kTolerance_pos; unfold kHalfTolerance; linarith

theorem r_pos (hv : a.Valid) : 0 < a.r := by
  have := kTolerance_pos
  exact lt_min (by linarith [hv.x]) (by linarith [hv.y])
theorem r_big (hv : a.Valid) : 2 * kTolerance ≤ a.r := le_min hv.x hv.y
theorem half_lt_r (hv : a.Valid) : kHalfTolerance < a.r := by linarith [r_big hv, half_lt, kTolerance_pos]
theorem x_pos (hv : a.Valid) : 0 < a.x := by linarith [hv.x, kTolerance_pos]
theorem y_pos (hv : a.Valid) : 0 < a.y := by linarith [hv.y, kTolerance_pos]

theorem of_eq (hv : a.Valid) : of a = cache a.x a.y a.z := by
  unfold of make checkParameters
  simp only [not_lt.mpr hv.x, not_lt.mpr hv.y, or_self, if_false]

/-- The scaling that makes the ellipse a circle with the smaller semi-axis as radius. -/
noncomputable def sc (a : Par) (p : V3) : V3 := ⟨p.x * (a.r / a.x), p.y * (a.r / a.y), p.z⟩

@[simp] theorem sc_x (p : V3) : (sc a p).x = p.x * (a.r / a.x) := rfl
@[simp] theorem sc_y (p : V3) : (sc a p).y = p.y * (a.r / a.y) := rfl
@[simp] theorem sc_z (p : V3) : (sc a p).z = p.z := rfl

theorem rad_sc (hv : a.Valid) (p : V3) : rad (sc a p) ^ 2 = a.r ^ 2 * a.ell p := by
  have hx := (x_pos hv).ne'
  have hy := (y_pos hv).ne'
  rw [rad_sq, Par.ell, sc_x, sc_y]
  field_simp

theorem rad_le_iff (hv : a.Valid) (p : V3) : rad (sc a p) ≤ a.r ↔ a.ell p ≤ 1 := by
  have hr := r_pos hv
  rw [← pow_le_pow_iff_left₀ (rad_nonneg _) hr.le (by norm_num : (2 : ℕ) ≠ 0), rad_sc hv]
  have : 0 < a.r ^ 2 := by positivity
  constructor <;> intro h <;> nlinarith

theorem rad_eq_iff (hv : a.Valid) (p : V3) : rad (sc a p) = a.r ↔ a.ell p = 1 := by
  have hr := r_pos hv
  rw [← pow_left_inj₀ (rad_nonneg _) hr.le (by norm_num : (2 : ℕ) ≠ 0), rad_sc hv]
  have : a.r ^ 2 ≠ 0 := by positivity
  constructor
  · intro h; exact mul_left_cancel₀ this (by linarith)
  · intro h; rw [h]; ring

theorem closed_iff (hv : a.Valid) (p : V3) : a.Closed p ↔ |p.z| ≤ a.z ∧ rad (sc a p) ≤ a.r := by
  rw [rad_le_iff hv]
  exact ⟨fun h => ⟨h.z, h.r⟩, fun h => ⟨h.1, h.2⟩⟩

theorem ratio_x (hv : a.Valid) : 0 < a.r / a.x ∧ a.r / a.x ≤ 1 :=
  ⟨div_pos (r_pos hv) (x_pos hv), (div_le_one (x_pos hv)).mpr (min_le_left _ _)⟩
theorem ratio_y (hv : a.Valid) : 0 < a.r / a.y ∧ a.r / a.y ≤ 1 :=
  ⟨div_pos (r_pos hv) (y_pos hv), (div_le_one (y_pos hv)).mpr (min_le_right _ _)⟩

/-- The scaling does not lengthen. -/
theorem sq_mul_le {s : ℝ} (h0 : 0 < s) (h1 : s ≤ 1) (u : ℝ) : (u * s) ^ 2 ≤ u ^ 2 := by
  rw [mul_pow]
  have : s ^ 2 ≤ 1 := pow_le_one₀ h0.le h1
  nlinarith [sq_nonneg u]

theorem dist_sc (hv : a.Valid) (p q : V3) : V3.dist (sc a p) (sc a q) ≤ V3.dist p q := by
  unfold V3.dist V3.dist2
  apply sqrt_le_sqrt
  simp only [sc_x, sc_y, sc_z, ← sub_mul]
  have h1 := sq_mul_le (ratio_x hv).1 (ratio_x hv).2 (p.x - q.x)
  have h2 := sq_mul_le (ratio_y hv).1 (ratio_y hv).2 (p.y - q.y)
  linarith

theorem sc_at (p d : V3) (t : ℝ) : sc a (V3.at' p d t) = V3.at' (sc a p) (sc a d) t := by
  apply V3.ext <;> simp [V3.at_x, V3.at_y, V3.at_z] <;> ring

/-! ## The approximate distance -/

/-- The approximation of the radial distance. -/
noncomputable def distR (a : Par) (p : V3) : ℝ := (rad (sc a p) ^ 2 - a.r ^ 2 - kHalfTolerance ^ 2) / (2 * a.r)

theorem distR_eq (hv : a.Valid) (p : V3) :
    (of a).q1 * (p.x * (of a).sx * (p.x * (of a).sx) + p.y * (of a).sy * (p.y * (of a).sy)) - (of a).q2 = distR a p := by
  have hr := (r_pos hv).ne'
  rw [of_eq hv, distR, rad_sq]
  simp only [cache, sc_x, sc_y]
  have e : min a.x a.y = a.r := rfl
  rw [e]
  field_simp
  ring

theorem distR_gt (hv : a.Valid) (p : V3) : distR a p > kHalfTolerance ↔ a.r + kHalfTolerance < rad (sc a p) := by
  have hr := r_pos hv
  have hh := kHalfTolerance_pos
  rw [distR, gt_iff_lt, lt_div_iff₀ (by positivity), ← pow_lt_pow_iff_left₀ (by positivity) (rad_nonneg _) (by norm_num : (2 : ℕ) ≠ 0)]
  constructor <;> intro h <;> nlinarith

theorem distR_le (hv : a.Valid) (p : V3) : distR a p ≤ -kHalfTolerance ↔ rad (sc a p) ≤ a.r - kHalfTolerance := by
  have hr := r_pos hv
  have hh := kHalfTolerance_pos
  have := half_lt_r hv
  rw [distR, div_le_iff₀ (by positivity), ← pow_le_pow_iff_left₀ (rad_nonneg _) (by linarith) (by norm_num : (2 : ℕ) ≠ 0)]
  constructor <;> intro h <;> nlinarith

theorem distR_lt (hv : a.Valid) (p : V3) : distR a p < -kHalfTolerance ↔ rad (sc a p) < a.r - kHalfTolerance := by
  have hr := r_pos hv
  have hh := kHalfTolerance_pos
  have := half_lt_r hv
  rw [distR, div_lt_iff₀ (by positivity), ← pow_lt_pow_iff_left₀ (rad_nonneg _) (by linarith) (by norm_num : (2 : ℕ) ≠ 0)]
  constructor <;> intro h <;> nlinarith

theorem approx_eq (hv : a.Valid) (p : V3) : approx (of a) p = max (distR a p) (|p.z| - a.z) := by
  unfold approx
  rw [← distR_eq hv, of_eq hv]
  rfl

theorem out_iff (hv : a.Valid) (p : V3) :
    approx (of a) p > kHalfTolerance ↔ a.r + kHalfTolerance < rad (sc a p) ∨ a.z + kHalfTolerance < |p.z| := by
  rw [approx_eq hv, gt_iff_lt, lt_max_iff, ← gt_iff_lt, distR_gt hv]
  constructor <;> rintro (h | h) <;> first | exact .inl h | (right; linarith)

theorem in_iff (hv : a.Valid) (p : V3) :
    approx (of a) p ≤ -kHalfTolerance ↔ rad (sc a p) ≤ a.r - kHalfTolerance ∧ |p.z| ≤ a.z - kHalfTolerance := by
  rw [approx_eq hv, max_le_iff, distR_le hv]
  constructor <;> rintro ⟨h1, h2⟩ <;> exact ⟨h1, by linarith⟩

end EllTube
end VecGeom
