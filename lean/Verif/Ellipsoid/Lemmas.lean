import Verif.Ellipsoid.Model
import Verif.Ellipsoid.Spec
import Verif.EllTube.DistIn

/-!
# The scaling to a sphere
-/

namespace VecGeom
namespace Ellipsoid

open Real

variable {a : Par}

/-- The solid of the parameters. -/
noncomputable def of (a : Par) : Struct := make a.x a.y a.z a.lo a.hi

/-- The distance from the origin. -/
noncomputable def nrm (p : V3) : ℝ := √(p.x ^ 2 + p.y ^ 2 + p.z ^ 2)

theorem nrm_nonneg (p : V3) : 0 ≤ nrm p := sqrt_nonneg _
theorem nrm_sq (p : V3) : nrm p ^ 2 = p.x ^ 2 + p.y ^ 2 + p.z ^ 2 := sq_sqrt (by positivity)
theorem nrm_eq (p : V3) : √(p.x * p.x + p.y * p.y + p.z * p.z) = nrm p := by unfold nrm; congr 1; ring
theorem nrm_mag (p : V3) : nrm p = p.mag := by unfold nrm V3.mag V3.mag2 V3.dot; congr 1; ring

theorem nrm_sub_le (p q : V3) : nrm p - nrm q ≤ V3.dist p q := by
  have hd : 0 ≤ V3.dist p q := V3.dist_nonneg' p q
  have hq := nrm_nonneg q
  have hd2 : V3.dist p q ^ 2 = (p.x - q.x) ^ 2 + (p.y - q.y) ^ 2 + (p.z - q.z) ^ 2 := sq_sqrt (V3.dist2_nonneg p q)
  have hq2 := nrm_sq q
  have hp2 := nrm_sq p
  have hcs : q.x * (p.x - q.x) + q.y * (p.y - q.y) + q.z * (p.z - q.z) ≤ nrm q * V3.dist p q := by
    apply le_of_abs_le
    apply abs_le_of_sq_le_sq _ (by positivity)
    rw [mul_pow, hq2, hd2]
    nlinarith [sq_nonneg (q.x * (p.y - q.y) - q.y * (p.x - q.x)), sq_nonneg (q.y * (p.z - q.z) - q.z * (p.y - q.y)),
      sq_nonneg (q.z * (p.x - q.x) - q.x * (p.z - q.z))]
  have : nrm p ≤ nrm q + V3.dist p q := by
    apply le_of_sq_le_sq _ (by positivity)
    nlinarith
  linarith

theorem half_lt : kHalfTolerance < kTolerance := EllTube.half_lt

theorem x_pos (hv : a.Valid) : 0 < a.x := by linarith [hv.x, kTolerance_pos]
theorem y_pos (hv : a.Valid) : 0 < a.y := by linarith [hv.y, kTolerance_pos]
theorem z_pos (hv : a.Valid) : 0 < a.z := by linarith [hv.z, kTolerance_pos]
theorem r_big (hv : a.Valid) : 2 * kTolerance ≤ a.r := le_min (le_min hv.x hv.y) hv.z
theorem r_pos (hv : a.Valid) : 0 < a.r := by linarith [r_big hv, kTolerance_pos]
theorem half_lt_r (hv : a.Valid) : kHalfTolerance < a.r := by linarith [r_big hv, half_lt, kTolerance_pos]
theorem r_le_x (a : Par) : a.r ≤ a.x := (min_le_left _ _).trans (min_le_left _ _)
theorem r_le_y (a : Par) : a.r ≤ a.y := (min_le_left _ _).trans (min_le_right _ _)
theorem r_le_z (a : Par) : a.r ≤ a.z := min_le_right _ _
theorem x_le_big (a : Par) : a.x ≤ a.big := (le_max_left _ _).trans (le_max_left _ _)
theorem y_le_big (a : Par) : a.y ≤ a.big := (le_max_right _ _).trans (le_max_left _ _)
theorem z_le_big (a : Par) : a.z ≤ a.big := le_max_right _ _
theorem big_pos (hv : a.Valid) : 0 < a.big := (x_pos hv).trans_le (x_le_big a)

theorem of_eq (hv : a.Valid) : of a = cache a.x a.y a.z a.lo a.hi := by
  have h1 : ¬ (a.lo = 0 ∧ a.hi = 0) := by rintro ⟨h1, h2⟩; linarith [hv.cut]
  have h2 : ¬ (a.lo ≥ a.z ∨ a.hi ≤ -a.z ∨ a.lo ≥ a.hi) := by
    rintro (h | h | h) <;> linarith [hv.cut, hv.lo, hv.hi]
  have e : checkCuts a.z a.lo a.hi = (a.lo, a.hi) := by
    unfold checkCuts
    rw [if_neg h1]
    dsimp only
    rw [if_neg h2, max_eq_left hv.lo, min_eq_left hv.hi]
  unfold of make checkAxes
  simp only [not_lt.mpr hv.x, not_lt.mpr hv.y, or_self, if_false, e]

/-- The scaling that makes the ellipsoid a sphere with the smallest semi-axis as radius. -/
noncomputable def sc (a : Par) (p : V3) : V3 := ⟨p.x * (a.r / a.x), p.y * (a.r / a.y), p.z * (a.r / a.z)⟩

@[simp] theorem sc_x (p : V3) : (sc a p).x = p.x * (a.r / a.x) := rfl
@[simp] theorem sc_y (p : V3) : (sc a p).y = p.y * (a.r / a.y) := rfl
@[simp] theorem sc_z (p : V3) : (sc a p).z = p.z * (a.r / a.z) := rfl

theorem nrm_sc (hv : a.Valid) (p : V3) : nrm (sc a p) ^ 2 = a.r ^ 2 * a.ell p := by
  have hx := (x_pos hv).ne'
  have hy := (y_pos hv).ne'
  have hz := (z_pos hv).ne'
  rw [nrm_sq, Par.ell, sc_x, sc_y, sc_z]
  field_simp

theorem nrm_le_iff (hv : a.Valid) (p : V3) : nrm (sc a p) ≤ a.r ↔ a.ell p ≤ 1 := by
  have hr := r_pos hv
  rw [← pow_le_pow_iff_left₀ (nrm_nonneg _) hr.le (by norm_num : (2 : ℕ) ≠ 0), nrm_sc hv]
  have : 0 < a.r ^ 2 := by positivity
  constructor <;> intro h <;> nlinarith

theorem nrm_eq_iff (hv : a.Valid) (p : V3) : nrm (sc a p) = a.r ↔ a.ell p = 1 := by
  have hr := r_pos hv
  rw [← pow_left_inj₀ (nrm_nonneg _) hr.le (by norm_num : (2 : ℕ) ≠ 0), nrm_sc hv]
  have : a.r ^ 2 ≠ 0 := by positivity
  constructor
  · intro h; exact mul_left_cancel₀ this (by linarith)
  · intro h; rw [h]; ring

theorem ratio_x (hv : a.Valid) : 0 < a.r / a.x ∧ a.r / a.x ≤ 1 :=
  ⟨div_pos (r_pos hv) (x_pos hv), (div_le_one (x_pos hv)).mpr (r_le_x a)⟩
theorem ratio_y (hv : a.Valid) : 0 < a.r / a.y ∧ a.r / a.y ≤ 1 :=
  ⟨div_pos (r_pos hv) (y_pos hv), (div_le_one (y_pos hv)).mpr (r_le_y a)⟩
theorem ratio_z (hv : a.Valid) : 0 < a.r / a.z ∧ a.r / a.z ≤ 1 :=
  ⟨div_pos (r_pos hv) (z_pos hv), (div_le_one (z_pos hv)).mpr (r_le_z a)⟩

/-- The scaling does not lengthen. -/
theorem dist_sc (hv : a.Valid) (p q : V3) : V3.dist (sc a p) (sc a q) ≤ V3.dist p q := by
  unfold V3.dist V3.dist2
  apply sqrt_le_sqrt
  simp only [sc_x, sc_y, sc_z, ← sub_mul]
  have h1 := EllTube.sq_mul_le (ratio_x hv).1 (ratio_x hv).2 (p.x - q.x)
  have h2 := EllTube.sq_mul_le (ratio_y hv).1 (ratio_y hv).2 (p.y - q.y)
  have h3 := EllTube.sq_mul_le (ratio_z hv).1 (ratio_z hv).2 (p.z - q.z)
  linarith

theorem sc_at (p d : V3) (t : ℝ) : sc a (V3.at' p d t) = V3.at' (sc a p) (sc a d) t := by
  apply V3.ext <;> simp [V3.at_x, V3.at_y, V3.at_z] <;> ring

/-! ## The heights -/

/-- The scaled height above the middle between the cuts, and half the scaled height between them. -/
noncomputable def cz (a : Par) (p : V3) : ℝ := (sc a p).z - 1 / 2 * (a.hi * (a.r / a.z) + a.lo * (a.r / a.z))
noncomputable def dim (a : Par) : ℝ := 1 / 2 * (a.hi * (a.r / a.z) - a.lo * (a.r / a.z))

theorem dim_pos (hv : a.Valid) : 0 < dim a := by
  unfold dim
  have := (ratio_z hv).1
  have := mul_lt_mul_of_pos_right hv.cut this
  linarith

theorem cz_at (p d : V3) (t : ℝ) : cz a (V3.at' p d t) = cz a p + t * (sc a d).z := by
  unfold cz; rw [sc_at, V3.at_z]; ring

/-- Scaled heights in terms of the heights. -/
theorem cz_le_iff (hv : a.Valid) (p : V3) (c : ℝ) : |cz a p| ≤ dim a + c * (a.r / a.z) ↔ a.lo - c ≤ p.z ∧ p.z ≤ a.hi + c := by
  have hs := (ratio_z hv).1
  unfold cz dim
  rw [sc_z, abs_le]
  generalize a.r / a.z = s at *
  constructor
  · rintro ⟨h1, h2⟩
    constructor
    · apply le_of_mul_le_mul_right _ hs; linarith
    · apply le_of_mul_le_mul_right _ hs; linarith
  · rintro ⟨h1, h2⟩
    have h3 := mul_le_mul_of_nonneg_right h1 hs.le
    have h4 := mul_le_mul_of_nonneg_right h2 hs.le
    constructor <;> linarith

theorem cz_le (hv : a.Valid) (p : V3) : |cz a p| ≤ dim a ↔ a.lo ≤ p.z ∧ p.z ≤ a.hi := by
  have := cz_le_iff hv p 0
  simpa using this

theorem cz_eq (hv : a.Valid) (p : V3) (h : |cz a p| = dim a) : p.z = a.lo ∨ p.z = a.hi := by
  have hs := (ratio_z hv).1
  unfold cz dim at h
  rw [sc_z] at h
  have hd := dim_pos hv
  unfold dim at hd
  generalize a.r / a.z = s at *
  rcases abs_eq hd.le |>.mp h with h | h
  · right; exact mul_right_cancel₀ hs.ne' (by linarith)
  · left; exact mul_right_cancel₀ hs.ne' (by linarith)

theorem cz_dist (hv : a.Valid) (p q : V3) : |cz a p| - |cz a q| ≤ V3.dist p q := by
  have h1 := abs_sub_abs_le_abs_sub (cz a p) (cz a q)
  have h2 : |cz a p - cz a q| ≤ V3.dist (sc a p) (sc a q) := by
    have := V3.abs_z_le_dist (sc a p) (sc a q)
    unfold cz
    rw [sub_sub_sub_cancel_right]; exact this
  linarith [dist_sc hv p q]

theorem closed_iff (hv : a.Valid) (p : V3) : a.Closed p ↔ |cz a p| ≤ dim a ∧ nrm (sc a p) ≤ a.r := by
  rw [nrm_le_iff hv, cz_le hv]
  exact ⟨fun h => ⟨⟨h.lo, h.hi⟩, h.r⟩, fun h => ⟨h.1.1, h.1.2, h.2⟩⟩

/-! ## The approximate distance -/

/-- The approximation of the radial distance. -/
noncomputable def distR (a : Par) (p : V3) : ℝ := (nrm (sc a p) ^ 2 - a.r ^ 2 - kHalfTolerance ^ 2) / (2 * a.r)

theorem rr_eq (hv : a.Valid) (p : V3) : p.x * (of a).sx * (p.x * (of a).sx) + p.y * (of a).sy * (p.y * (of a).sy) +
    p.z * (of a).sz * (p.z * (of a).sz) = nrm (sc a p) ^ 2 := by
  rw [of_eq hv, nrm_sq]
  simp only [cache, sc_x, sc_y, sc_z]
  have e : min (min a.x a.y) a.z = a.r := rfl
  rw [e]; ring

theorem distR_eq (hv : a.Valid) (p : V3) : (of a).q1 * nrm (sc a p) ^ 2 - (of a).q2 = distR a p := by
  have hr := (r_pos hv).ne'
  rw [of_eq hv, distR]
  simp only [cache]
  have e : min (min a.x a.y) a.z = a.r := rfl
  rw [e]
  field_simp
  ring

theorem cz_def (hv : a.Valid) (p : V3) : p.z * (of a).sz - (of a).scMid = cz a p := by rw [of_eq hv]; rfl
theorem dim_def (hv : a.Valid) : (of a).scDim = dim a := by rw [of_eq hv]; rfl
theorem r_def (hv : a.Valid) : (of a).r = a.r := by rw [of_eq hv]; rfl

theorem distR_gt (hv : a.Valid) (p : V3) : distR a p > kHalfTolerance ↔ a.r + kHalfTolerance < nrm (sc a p) := by
  have hr := r_pos hv
  have hh := kHalfTolerance_pos
  rw [distR, gt_iff_lt, lt_div_iff₀ (by positivity), ← pow_lt_pow_iff_left₀ (by positivity) (nrm_nonneg _) (by norm_num : (2 : ℕ) ≠ 0)]
  constructor <;> intro h <;> nlinarith

theorem distR_le (hv : a.Valid) (p : V3) : distR a p ≤ -kHalfTolerance ↔ nrm (sc a p) ≤ a.r - kHalfTolerance := by
  have hr := r_pos hv
  have hh := kHalfTolerance_pos
  have := half_lt_r hv
  rw [distR, div_le_iff₀ (by positivity), ← pow_le_pow_iff_left₀ (nrm_nonneg _) (by linarith) (by norm_num : (2 : ℕ) ≠ 0)]
  constructor <;> intro h <;> nlinarith

theorem distR_lt (hv : a.Valid) (p : V3) : distR a p < -kHalfTolerance ↔ nrm (sc a p) < a.r - kHalfTolerance := by
  have hr := r_pos hv
  have hh := kHalfTolerance_pos
  have := half_lt_r hv
  rw [distR, div_lt_iff₀ (by positivity), ← pow_lt_pow_iff_left₀ (nrm_nonneg _) (by linarith) (by norm_num : (2 : ℕ) ≠ 0)]
  constructor <;> intro h <;> nlinarith

theorem approx_eq (hv : a.Valid) (p : V3) : approx (of a) p = max (|cz a p| - dim a) (distR a p) := by
  unfold approx
  dsimp only
  rw [rr_eq hv, distR_eq hv, cz_def hv, dim_def hv]

theorem out_iff (hv : a.Valid) (p : V3) :
    approx (of a) p > kHalfTolerance ↔ a.r + kHalfTolerance < nrm (sc a p) ∨ dim a + kHalfTolerance < |cz a p| := by
  rw [approx_eq hv, gt_iff_lt, lt_max_iff]
  have := distR_gt hv p
  rw [gt_iff_lt] at this
  rw [this]
  constructor <;> rintro (h | h) <;> first | exact .inl h | exact .inr h | (right; linarith) | (left; linarith)

theorem in_iff (hv : a.Valid) (p : V3) :
    approx (of a) p ≤ -kHalfTolerance ↔ nrm (sc a p) ≤ a.r - kHalfTolerance ∧ |cz a p| ≤ dim a - kHalfTolerance := by
  rw [approx_eq hv, max_le_iff, distR_le hv]
  constructor
  · rintro ⟨h1, h2⟩; exact ⟨h2, by linarith⟩
  · rintro ⟨h1, h2⟩; exact ⟨by linarith, h1⟩

theorem inside_out (p : V3) (e : Struct) : inside e p = .outside ↔ approx e p > kHalfTolerance := by
  have := kHalfTolerance_pos
  unfold inside
  by_cases h1 : approx e p ≤ -kHalfTolerance
  · have : ¬ approx e p > kHalfTolerance := by linarith
    simp [h1, this]
  · by_cases h2 : approx e p > kHalfTolerance <;> simp [h1, h2]

theorem inside_in (p : V3) (e : Struct) : inside e p = .inside ↔ approx e p ≤ -kHalfTolerance := by
  unfold inside
  by_cases h1 : approx e p ≤ -kHalfTolerance
  · simp [h1]
  · by_cases h2 : approx e p > kHalfTolerance <;> simp [h1, h2]

end Ellipsoid
end VecGeom
