import Verif.EllTube.Props

/-!
# Distances of elliptical tubes: the quadratic equation
-/

namespace VecGeom
namespace EllTube

open Real Tube

variable {a : Par} {p d : V3}

/-- The coefficients of the quadratic equation. -/
noncomputable def qA (a : Par) (d : V3) : ℝ := rad (sc a d) ^ 2
noncomputable def qB (a : Par) (p d : V3) : ℝ := (sc a p).x * (sc a d).x + (sc a p).y * (sc a d).y
noncomputable def qC (a : Par) (p : V3) : ℝ := rad (sc a p) ^ 2 - a.r ^ 2
noncomputable def qD (a : Par) (p d : V3) : ℝ := qB a p d ^ 2 - qA a d * qC a p

theorem qA_nonneg : 0 ≤ qA a d := sq_nonneg _

theorem quad_eq (t : ℝ) : qC a (V3.at' p d t) = qA a d * t ^ 2 + 2 * qB a p d * t + qC a p := by
  unfold qC qA qB
  rw [sc_at, rad_sq, rad_sq, rad_sq, V3.at_x, V3.at_y]
  ring

theorem qC_le (hv : a.Valid) (p : V3) : qC a p ≤ 0 ↔ rad (sc a p) ≤ a.r := by
  rw [← pow_le_pow_iff_left₀ (rad_nonneg _) (r_pos hv).le (by norm_num : (2 : ℕ) ≠ 0), qC]
  constructor <;> intro h <;> linarith

theorem qC_eq (hv : a.Valid) (p : V3) : qC a p = 0 ↔ a.ell p = 1 := by
  rw [← rad_eq_iff hv, ← pow_left_inj₀ (rad_nonneg _) (r_pos hv).le (by norm_num : (2 : ℕ) ≠ 0), qC]
  constructor <;> intro h <;> linarith

theorem qA_le (hv : a.Valid) (d : V3) : qA a d ≤ d.x ^ 2 + d.y ^ 2 := by
  unfold qA
  rw [rad_sq, sc_x, sc_y]
  have h1 := sq_mul_le (ratio_x hv).1 (ratio_x hv).2 d.x
  have h2 := sq_mul_le (ratio_y hv).1 (ratio_y hv).2 d.y
  linarith

theorem qA_zero (hv : a.Valid) (h : qA a d = 0) : d.x = 0 ∧ d.y = 0 := by
  unfold qA at h
  rw [rad_sq, sc_x, sc_y] at h
  have hx : d.x * (a.r / a.x) = 0 := by nlinarith [sq_nonneg (d.x * (a.r / a.x)), sq_nonneg (d.y * (a.r / a.y))]
  have hy : d.y * (a.r / a.y) = 0 := by nlinarith [sq_nonneg (d.x * (a.r / a.x)), sq_nonneg (d.y * (a.r / a.y))]
  exact ⟨(mul_eq_zero.mp hx).resolve_right (ratio_x hv).1.ne', (mul_eq_zero.mp hy).resolve_right (ratio_y hv).1.ne'⟩

theorem par_iff (hv : a.Valid) (h : a.ell d = 0 ∨ kEpsilon ≤ a.r ^ 2 * a.ell d) : qA a d = 0 ∨ kEpsilon ≤ qA a d := by
  unfold qA
  rw [rad_sc hv]
  exact h.imp (fun h => by rw [h]; ring) id

/-- The roots. -/
noncomputable def lo (a : Par) (p d : V3) : ℝ := (-qB a p d - √(qD a p d)) / qA a d
noncomputable def hi (a : Par) (p d : V3) : ℝ := (-qB a p d + √(qD a p d)) / qA a d

theorem lo_le_hi (hA : 0 < qA a d) : lo a p d ≤ hi a p d := by
  unfold lo hi
  have := sqrt_nonneg (qD a p d)
  exact div_le_div_of_nonneg_right (by linarith) hA.le

theorem factor (hA : 0 < qA a d) (hD : 0 ≤ qD a p d) (t : ℝ) : qC a (V3.at' p d t) = qA a d * ((t - lo a p d) * (t - hi a p d)) := by
  have hs := sq_sqrt hD
  rw [quad_eq]
  unfold lo hi
  generalize √(qD a p d) = s at *
  have hA' := hA.ne'
  have e : qA a d * ((t - (-qB a p d - s) / qA a d) * (t - (-qB a p d + s) / qA a d)) =
      qA a d * t ^ 2 + 2 * qB a p d * t + (qB a p d ^ 2 - s ^ 2) / qA a d := by
    field_simp
    ring
  rw [e, hs, qD]
  field_simp
  ring

/-- Between the roots the ray is in the elliptical cylinder. -/
theorem in_iff_roots (hA : 0 < qA a d) (hD : 0 ≤ qD a p d) (t : ℝ) : qC a (V3.at' p d t) ≤ 0 ↔ lo a p d ≤ t ∧ t ≤ hi a p d := by
  rw [factor hA hD]
  have hle := lo_le_hi (p := p) hA
  constructor
  · intro h
    have h' : (t - lo a p d) * (t - hi a p d) ≤ 0 := by
      by_contra h''
      have := mul_pos hA (not_le.mp h'')
      linarith
    constructor
    · by_contra h1
      have := mul_pos_of_neg_of_neg (show t - lo a p d < 0 by linarith) (show t - hi a p d < 0 by linarith)
      linarith
    · by_contra h1
      have := mul_pos (show 0 < t - lo a p d by linarith) (show 0 < t - hi a p d by linarith)
      linarith
  · rintro ⟨h1, h2⟩
    have := mul_nonneg (show 0 ≤ t - lo a p d by linarith) (show 0 ≤ hi a p d - t by linarith)
    have := mul_nonneg hA.le this
    linarith

theorem at_hi (hA : 0 < qA a d) (hD : 0 ≤ qD a p d) : qC a (V3.at' p d (hi a p d)) = 0 := by
  rw [factor hA hD]; ring
theorem at_lo (hA : 0 < qA a d) (hD : 0 ≤ qD a p d) : qC a (V3.at' p d (lo a p d)) = 0 := by
  rw [factor hA hD]; ring

theorem at_zero (p d : V3) : V3.at' p d 0 = p := by
  apply V3.ext <;> simp [V3.at_x, V3.at_y, V3.at_z]

theorem qD_nonneg (h : qC a p ≤ 0) : 0 ≤ qD a p d := by
  unfold qD
  have := mul_nonneg (qA_nonneg (a := a) (d := d)) (show 0 ≤ -qC a p by linarith)
  nlinarith [sq_nonneg (qB a p d)]

theorem hi_nonneg (hA : 0 < qA a d) (h : qC a p ≤ 0) : 0 ≤ hi a p d :=
  ((in_iff_roots hA (qD_nonneg h) 0).mp (by rwa [at_zero])).2

/-- The two formulas of `DistanceToOut` for the lateral surface. -/
theorem out_root (hA : 0 < qA a d) (hB : 0 ≤ qB a p d) (hD : 0 < qD a p d) : -qC a p / (√(qD a p d) + qB a p d) = hi a p d := by
  have hs := sq_sqrt hD.le
  have hp := sqrt_pos.mpr hD
  unfold hi
  rw [div_eq_div_iff (by positivity) hA.ne']
  have e : qA a d * qC a p = qB a p d ^ 2 - qD a p d := by unfold qD; ring
  linear_combination -e - hs

/-! ## DistanceToOut -/

open Classical in
theorem distanceToOut_eq (hv : a.Valid) (p d : V3) : distanceToOut (of a) p d =
    if max (distR a p) (|p.z| - a.z) > kHalfTolerance then -1
    else if ParallelToZ (qA a d) d.z then (if d.z ≠ 0 then (copySign a.z d.z - p.z) / d.z else kInfLength)
    else if qD a p d ≤ 0 then 0
    else if qB a p d ≥ 0 then min (if d.z ≠ 0 then (copySign a.z d.z - p.z) / d.z else kInfLength) (-qC a p / (√(qD a p d) + qB a p d))
    else min (if d.z ≠ 0 then (copySign a.z d.z - p.z) / d.z else kInfLength) ((√(qD a p d) - qB a p d) / qA a d) := by
  have e1 : d.x * (of a).sx * (d.x * (of a).sx) + d.y * (of a).sy * (d.y * (of a).sy) = qA a d := by
    rw [of_eq hv, qA, rad_sq, sc_x, sc_y, pow_two, pow_two]; rfl
  have e2 : p.x * (of a).sx * (d.x * (of a).sx) + p.y * (of a).sy * (d.y * (of a).sy) = qB a p d := by
    rw [of_eq hv]; rfl
  have e3 : p.x * (of a).sx * (p.x * (of a).sx) + p.y * (of a).sy * (p.y * (of a).sy) - (of a).r * (of a).r = qC a p := by
    rw [of_eq hv, qC, rad_sq, sc_x, sc_y, pow_two, pow_two, pow_two]; rfl
  have e4 : (of a).dz = a.z := by rw [of_eq hv]; rfl
  unfold distanceToOut
  dsimp only
  rw [distR_eq hv, e1, e2, e3, e4]
  have e5 : qB a p d * qB a p d - qA a d * qC a p = qD a p d := by unfold qD; ring
  rw [e5]

/-- The exit through a base. -/
theorem lid_out (hz : 0 < a.z) (hp : |p.z| ≤ a.z) (h : d.z ≠ 0) :
    let T := (copySign a.z d.z - p.z) / d.z
    0 ≤ T ∧ |(V3.at' p d T).z| = a.z ∧ ∀ t, 0 ≤ t → t ≤ T → |(V3.at' p d t).z| ≤ a.z := by
  intro T
  rw [abs_le] at hp
  have hT : T * d.z = copySign a.z d.z - p.z := div_mul_cancel₀ _ h
  have hsgn : (d.z < 0 ∧ copySign a.z d.z = -a.z) ∨ (0 < d.z ∧ copySign a.z d.z = a.z) := by
    unfold copySign
    rcases lt_or_gt_of_ne h with h | h
    · exact .inl ⟨h, if_pos h⟩
    · exact .inr ⟨h, if_neg (by linarith)⟩
  have hT0 : 0 ≤ T := by
    rcases hsgn with ⟨h1, h2⟩ | ⟨h1, h2⟩
    · exact div_nonneg_of_nonpos (by rw [h2]; linarith) h1.le
    · exact div_nonneg (by rw [h2]; linarith) h1.le
  refine ⟨hT0, ?_, ?_⟩
  · rw [V3.at_z, hT]
    rcases hsgn with ⟨_, h2⟩ | ⟨_, h2⟩ <;> rw [h2]
    · rw [show p.z + (-a.z - p.z) = -a.z by ring, abs_neg, abs_of_pos hz]
    · rw [show p.z + (a.z - p.z) = a.z by ring, abs_of_pos hz]
  · intro t h0 h1
    rw [V3.at_z, abs_le]
    rcases hsgn with ⟨h2, h3⟩ | ⟨h2, h3⟩ <;> rw [h3] at hT <;> constructor <;> nlinarith

/-- The time to the exit through the lateral surface is bounded. -/
theorem hi_le (hv : a.Valid) (hA : kEpsilon ≤ qA a d) (hC : qC a p ≤ 0) : hi a p d ≤ 2 ^ 27 * a.r := by
  have hr := r_pos hv
  have he := kEpsilon_pos
  have hA0 : 0 < qA a d := by linarith
  have h0 := hi_nonneg (p := p) hA0 hC
  have hend := at_hi hA0 (qD_nonneg (p := p) hC)
  -- the scaled path has the length `hi * √A`, at most the diameter
  have h1 : rad (sc a (V3.at' p d (hi a p d))) ≤ a.r := (qC_le hv _).mp hend.le
  have h2 : rad (sc a p) ≤ a.r := (qC_le hv _).mp hC
  have key : (hi a p d) ^ 2 * qA a d ≤ (2 * a.r) ^ 2 := by
    rw [sc_at] at h1
    have e1 := (Tube.rad_le hr.le).mp h1
    have e2 := (Tube.rad_le hr.le).mp h2
    rw [V3.at_x, V3.at_y] at e1
    unfold qA
    rw [rad_sq]
    generalize hi a p d = t at *
    generalize (sc a p).x = x at *
    generalize (sc a p).y = y at *
    generalize (sc a d).x = u at *
    generalize (sc a d).y = w at *
    nlinarith [sq_nonneg (x + t * u + x), sq_nonneg (y + t * w + y)]
  have : (hi a p d) ^ 2 ≤ (2 ^ 27 * a.r) ^ 2 := by
    have h3 : (hi a p d) ^ 2 * kEpsilon ≤ (2 * a.r) ^ 2 := le_trans (mul_le_mul_of_nonneg_left hA (sq_nonneg _)) key
    unfold kEpsilon at h3
    rw [mul_one_div, div_le_iff₀ (by positivity)] at h3
    have e : (2 * a.r) ^ 2 * 2 ^ 52 = (2 ^ 27 * a.r) ^ 2 := by ring
    rw [e] at h3
    exact h3
  exact le_of_sq_le_sq this (by positivity)

/-- C87: for every point of the tube and every unit direction that is parallel to the axis or whose scaled inclination is at least
the machine epsilon, the path up to `DistanceToOut` is in the tube and ends on its surface.  Missing: nearly parallel directions, for
which the claim is false, see the counterexamples. -/
theorem C87_distance_out_partial (hv : a.Valid) (hu : d.x ^ 2 + d.y ^ 2 + d.z ^ 2 = 1) (hc : a.Closed p)
    (hpar : a.ell d = 0 ∨ kEpsilon ≤ a.r ^ 2 * a.ell d) (hfin : 2 ^ 27 * a.r ≤ kInfLength) :
    let D := distanceToOut (of a) p d
    0 ≤ D ∧ (∀ t, 0 ≤ t → t ≤ D → a.Closed (V3.at' p d t)) ∧ a.Surface (V3.at' p d D) := by
  intro D
  replace hpar := par_iff hv hpar
  have he := kEpsilon_pos
  have hh := kHalfTolerance_pos
  have hcc := (closed_iff hv p).mp hc
  have hC := (qC_le hv p).mpr hcc.2
  have hnout : ¬ max (distR a p) (|p.z| - a.z) > kHalfTolerance := by
    rw [← approx_eq hv, out_iff hv]
    rintro (h | h) <;> linarith [hcc.1, hcc.2]
  have hDe : D = _ := distanceToOut_eq hv p d
  rw [if_neg hnout] at hDe
  have surf : ∀ T, a.Closed (V3.at' p d T) → (|(V3.at' p d T).z| = a.z ∨ qC a (V3.at' p d T) = 0) → a.Surface (V3.at' p d T) :=
    fun T h1 h2 => ⟨h1, h2.imp_right (qC_eq hv _).mp⟩
  rcases hpar with hA | hA
  · -- parallel to the axis
    obtain ⟨hx, hy⟩ := qA_zero hv hA
    have hz : d.z ≠ 0 := by
      intro h; rw [hx, hy, h] at hu; norm_num at hu
    rw [if_pos (.inl (by linarith)), if_pos hz] at hDe
    obtain ⟨h1, h2, h3⟩ := lid_out hv.z hcc.1 hz
    rw [← hDe] at h1 h2 h3
    have hrad : ∀ t, a.ell (V3.at' p d t) ≤ 1 := by
      intro t
      have : a.ell (V3.at' p d t) = a.ell p := by unfold Par.ell; rw [V3.at_x, V3.at_y, hx, hy]; simp
      rw [this]; exact hc.r
    exact ⟨h1, fun t ht0 ht1 => ⟨h3 t ht0 ht1, hrad t⟩, surf D ⟨h2.le, hrad D⟩ (.inl h2)⟩
  · have hA0 : 0 < qA a d := by linarith
    have hnp : ¬ ParallelToZ (qA a d) d.z := by
      rintro (h | h)
      · linarith
      · have h1 : 1 ≤ d.z ^ 2 := by rw [← sq_abs]; nlinarith
        have := qA_le hv d
        have h2 : qA a d ≤ 0 := by linarith
        linarith
    rw [if_neg hnp] at hDe
    have hD0 := qD_nonneg (d := d) hC
    have hhi := hi_nonneg hA0 hC
    have hlo : lo a p d ≤ 0 := ((in_iff_roots hA0 hD0 0).mp (by rwa [at_zero])).1
    have lat : ∀ t, 0 ≤ t → t ≤ hi a p d → a.ell (V3.at' p d t) ≤ 1 := by
      intro t h0 h1
      rw [← rad_le_iff hv, ← qC_le hv, in_iff_roots hA0 hD0]
      exact ⟨by linarith, h1⟩
    by_cases hD : qD a p d ≤ 0
    · rw [if_pos hD] at hDe
      have hDz : qD a p d = 0 := le_antisymm hD hD0
      have hC0 : qC a p = 0 := by
        unfold qD at hDz
        nlinarith [sq_nonneg (qB a p d)]
      rw [hDe, at_zero]
      refine ⟨le_refl _, fun t h0 h1 => ?_, ⟨hc, .inr ((qC_eq hv p).mp hC0)⟩⟩
      rw [le_antisymm h1 h0, at_zero]
      exact hc
    · rw [if_neg hD] at hDe
      have hmin : D = min (if d.z ≠ 0 then (copySign a.z d.z - p.z) / d.z else kInfLength) (hi a p d) := by
        rw [hDe]
        split
        · rename_i hB
          rw [out_root hA0 hB (not_le.mp hD)]
        · unfold hi; congr 2; ring
      by_cases hz : d.z = 0
      · simp only [hz, ne_eq, not_true, if_false] at hmin
        rw [min_eq_right ((hi_le hv hA hC).trans hfin)] at hmin
        have hzz : ∀ t, |(V3.at' p d t).z| ≤ a.z := by
          intro t; rw [V3.at_z, hz]; simpa using hc.z
        refine ⟨by rw [hmin]; exact hhi, fun t h0 h1 => ⟨hzz t, lat t h0 (by rw [← hmin]; exact h1)⟩, ?_⟩
        rw [hmin]
        exact surf _ ⟨hzz _, lat _ hhi (le_refl _)⟩ (.inr (at_hi hA0 hD0))
      · simp only [ne_eq, hz, not_false_eq_true, if_true] at hmin
        obtain ⟨h1, h2, h3⟩ := lid_out hv.z hcc.1 hz
        generalize (copySign a.z d.z - p.z) / d.z = T at *
        have hDn : 0 ≤ D := by rw [hmin]; exact le_min h1 hhi
        have hDT : D ≤ T := by rw [hmin]; exact min_le_left _ _
        have hDh : D ≤ hi a p d := by rw [hmin]; exact min_le_right _ _
        refine ⟨hDn, fun t h0 h4 => ⟨h3 t h0 (by linarith), lat t h0 (by linarith)⟩, ?_⟩
        refine surf D ⟨h3 D hDn hDT, lat D hDn hDh⟩ ?_
        rcases min_choice T (hi a p d) with h | h
        · rw [hmin, h]; exact .inl h2
        · rw [hmin, h]; exact .inr (at_hi hA0 hD0)

/-- Points outside beyond the tolerance get `-1`. -/
theorem C87_outside (hv : a.Valid) (h : inside (of a) p = .outside) : distanceToOut (of a) p d = -1 := by
  rw [distanceToOut_eq hv, if_pos]
  rw [← approx_eq hv]
  unfold inside at h
  by_contra h'
  rw [if_neg h'] at h
  split at h <;> simp at h

end EllTube
end VecGeom
