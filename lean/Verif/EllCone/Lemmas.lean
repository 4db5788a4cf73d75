import Verif.EllCone.Model
import Verif.EllCone.Spec
import Mathlib.Tactic.Ring
import Mathlib.Tactic.FieldSimp
import Mathlib.Tactic.LinearCombination

/-!
# Elliptical cones: facts shared by the properties
-/

namespace VecGeom
namespace EllCone

open Real

variable {c : Par} {t : Struct}

/-- The cached values are those of the cone. -/
structure Good (t : Struct) (c : Par) : Prop where
  dx : t.dx = c.a
  dy : t.dy = c.b
  dz : t.dz = c.h
  zcut : t.zcut = c.cut
  ix : t.invDx = 1 / c.a
  iy : t.invDy = 1 / c.b
  cos : t.cosAxisMin = c.cosMin
  apex : t.dApex = kHalfTolerance / c.cosMin
  rsph : t.rsph = √((c.a * (c.h + c.cut)) ^ 2 + (c.b * (c.h + c.cut)) ^ 2 + c.cut ^ 2)
  vol : t.volume = π * c.a * c.b * ((c.h + c.cut) ^ 3 - (c.h - c.cut) ^ 3) / 3

theorem good_cache (c : Par) (box : V3 × V3) : Good (cache c.a c.b c.h c.cut box) c := by
  constructor <;> try rfl
  · show _ / √(1 + _ * _) = _ / √(1 + _ ^ 2)
    rw [sq]
  · show _ / (_ / √(1 + _ * _)) = _ / (_ / √(1 + _ ^ 2))
    rw [sq]
  · show √_ = √_
    congr 1; ring
  · show π * c.a * c.b * _ / 3 = _
    ring

theorem set_eq (hv : c.Valid) (t : Struct) : setParameters t c.a c.b c.h c.cut = cache c.a c.b c.h c.cut t.bbox := by
  unfold setParameters
  dsimp only
  rw [if_neg (fun h => absurd h.2 (not_lt.mpr hv.a)), if_neg (fun h => absurd h.2 (not_lt.mpr hv.b)),
    if_neg (fun h => absurd h.2 (not_lt.mpr hv.h)), if_neg (fun h => absurd h.2 (not_lt.mpr hv.cut)), min_eq_right hv.top]

theorem good_set (hv : c.Valid) (t : Struct) : Good (setParameters t c.a c.b c.h c.cut) c := by
  rw [set_eq hv]; exact good_cache c _

theorem good_make (hv : c.Valid) (m : Struct) : Good (make m c.a c.b c.h c.cut) c := by
  have g := good_set hv m
  exact ⟨g.dx, g.dy, g.dz, g.zcut, g.ix, g.iy, g.cos, g.apex, g.rsph, g.vol⟩

theorem tol_pos : 0 < 2 * kTolerance := by linarith [kTolerance_pos]
theorem a_pos (hv : c.Valid) : 0 < c.a := lt_of_lt_of_le tol_pos hv.a
theorem b_pos (hv : c.Valid) : 0 < c.b := lt_of_lt_of_le tol_pos hv.b
theorem h_pos (hv : c.Valid) : 0 < c.h := lt_of_lt_of_le tol_pos hv.h
theorem cut_pos (hv : c.Valid) : 0 < c.cut := lt_of_lt_of_le tol_pos hv.cut
theorem m_pos (hv : c.Valid) : 0 < min c.a c.b := lt_min (a_pos hv) (b_pos hv)
theorem cos_pos' (hv : c.Valid) : 0 < c.cosMin := div_pos (m_pos hv) (sqrt_pos.mpr (by positivity))

theorem cos_le_m (hv : c.Valid) : c.cosMin ≤ min c.a c.b := by
  apply div_le_self (m_pos hv).le
  rw [one_le_sqrt]
  nlinarith [sq_nonneg (min c.a c.b)]

theorem cos_sq (hv : c.Valid) : c.cosMin ^ 2 * (1 + min c.a c.b ^ 2) = min c.a c.b ^ 2 := by
  have : (0 : ℝ) < 1 + min c.a c.b ^ 2 := by positivity
  unfold Par.cosMin
  rw [div_pow, sq_sqrt this.le]
  field_simp

theorem rho_nonneg (p : V3) : 0 ≤ c.rho p := sqrt_nonneg _
theorem rho_sq (p : V3) : c.rho p ^ 2 = (p.x / c.a) ^ 2 + (p.y / c.b) ^ 2 := sq_sqrt (by positivity)

theorem root_eq (g : Good t c) (p : V3) : √(p.x * t.invDx * (p.x * t.invDx) + p.y * t.invDy * (p.y * t.invDy)) = c.rho p := by
  rw [g.ix, g.iy]
  unfold Par.rho
  congr 1; ring

theorem side_eq (g : Good t c) (p : V3) : side t p = (c.rho p + p.z - c.h) * c.cosMin := by
  unfold side
  dsimp only
  rw [root_eq g, g.dz, g.cos]

/-- The triangle inequality for the scaled distance from the axis. -/
theorem rho_add (p q : V3) : c.rho (p + q) ≤ c.rho p + c.rho q := by
  have hp := rho_nonneg (c := c) p
  have hq := rho_nonneg (c := c) q
  have h1 := rho_sq (c := c) p
  have h2 := rho_sq (c := c) q
  have e : (p + q).x / c.a = p.x / c.a + q.x / c.a := add_div _ _ _
  have e' : (p + q).y / c.b = p.y / c.b + q.y / c.b := add_div _ _ _
  have h3 := rho_sq (c := c) (p + q)
  rw [e, e'] at h3
  generalize p.x / c.a = x at *
  generalize p.y / c.b = y at *
  generalize q.x / c.a = u at *
  generalize q.y / c.b = v at *
  generalize c.rho p = r at *
  generalize c.rho q = s at *
  have hc : x * u + y * v ≤ r * s := by
    apply abs_le_of_sq_le_sq' _ (mul_nonneg hp hq) |>.2
    rw [mul_pow, h1, h2]
    nlinarith [sq_nonneg (x * v - y * u)]
  apply abs_le_of_sq_le_sq' _ (add_nonneg hp hq) |>.2
  nlinarith

theorem rho_sub (p q : V3) : c.rho p - c.rho q ≤ c.rho ⟨p.x - q.x, p.y - q.y, p.z - q.z⟩ := by
  have h := rho_add (c := c) q ⟨p.x - q.x, p.y - q.y, p.z - q.z⟩
  have e : q + ⟨p.x - q.x, p.y - q.y, p.z - q.z⟩ = p := by
    have : ∀ u v : V3, u.x = v.x → u.y = v.y → u.z = v.z → u = v := by
      rintro ⟨_, _, _⟩ ⟨_, _, _⟩ h1 h2 h3
      simp only at h1 h2 h3
      subst h1 h2 h3
      rfl
    apply this
    · show q.x + (p.x - q.x) = p.x; ring
    · show q.y + (p.y - q.y) = p.y; ring
    · show q.z + (p.z - q.z) = p.z; ring
  rw [e] at h
  linarith

theorem rho_m (hv : c.Valid) (p : V3) : (min c.a c.b * c.rho p) ^ 2 ≤ p.x ^ 2 + p.y ^ 2 := by
  have ha := a_pos hv
  have hb := b_pos hv
  have hm := m_pos hv
  rw [mul_pow, rho_sq, mul_add, div_pow, div_pow]
  have h1 : min c.a c.b ^ 2 * (p.x ^ 2 / c.a ^ 2) ≤ p.x ^ 2 := by
    rw [← mul_div_assoc, div_le_iff₀ (by positivity), mul_comm]
    exact mul_le_mul_of_nonneg_left (pow_le_pow_left₀ hm.le (min_le_left _ _) 2) (sq_nonneg _)
  have h2 : min c.a c.b ^ 2 * (p.y ^ 2 / c.b ^ 2) ≤ p.y ^ 2 := by
    rw [← mul_div_assoc, div_le_iff₀ (by positivity), mul_comm]
    exact mul_le_mul_of_nonneg_left (pow_le_pow_left₀ hm.le (min_le_right _ _) 2) (sq_nonneg _)
  linarith

/-- The height over the lateral surface, scaled, does not change faster than the distance. -/
theorem height_lip (hv : c.Valid) (p q : V3) : (c.rho p + p.z) * c.cosMin - (c.rho q + q.z) * c.cosMin ≤ V3.dist p q := by
  have hm := m_pos hv
  have hc := cos_pos' hv
  have hcs := cos_sq hv
  have h1 := rho_sub (c := c) p q
  have h2 := rho_m hv ⟨p.x - q.x, p.y - q.y, p.z - q.z⟩
  have h3 := rho_nonneg (c := c) ⟨p.x - q.x, p.y - q.y, p.z - q.z⟩
  dsimp only at h2
  generalize c.rho ⟨p.x - q.x, p.y - q.y, p.z - q.z⟩ = r at *
  have key : (r + (p.z - q.z)) * c.cosMin ≤ V3.dist p q := by
    apply le_sqrt_of_sq_le
    unfold V3.dist2
    generalize p.z - q.z = w at *
    generalize (p.x - q.x) ^ 2 + (p.y - q.y) ^ 2 = e at *
    generalize c.cosMin = k at *
    generalize min c.a c.b = m at *
    -- Cauchy–Schwarz
    have h4 : (r + w) ^ 2 * m ^ 2 ≤ (1 + m ^ 2) * ((m * r) ^ 2 + w ^ 2) := by nlinarith [sq_nonneg (m ^ 2 * r - w)]
    have h5 : ((r + w) * k) ^ 2 * (1 + m ^ 2) ≤ (1 + m ^ 2) * ((m * r) ^ 2 + w ^ 2) := by
      calc _ = (r + w) ^ 2 * (k ^ 2 * (1 + m ^ 2)) := by ring
        _ = (r + w) ^ 2 * m ^ 2 := by rw [hcs]
        _ ≤ _ := h4
    have h6 : (0 : ℝ) < 1 + m ^ 2 := by positivity
    have h7 : ((r + w) * k) ^ 2 ≤ (m * r) ^ 2 + w ^ 2 := by
      by_contra hc'
      push Not at hc'
      have := mul_lt_mul_of_pos_right hc' h6
      linarith
    linarith
  have h8 : (c.rho p - c.rho q + (p.z - q.z)) * c.cosMin ≤ (r + (p.z - q.z)) * c.cosMin :=
    mul_le_mul_of_nonneg_right (by linarith) hc.le
  calc _ = (c.rho p - c.rho q + (p.z - q.z)) * c.cosMin := by ring
    _ ≤ _ := h8
    _ ≤ _ := key

theorem abs_z_lip (p q : V3) : |p.z| - |q.z| ≤ V3.dist p q := (abs_sub_abs_le_abs_sub p.z q.z).trans (V3.abs_z_le_dist p q)

end EllCone
end VecGeom
