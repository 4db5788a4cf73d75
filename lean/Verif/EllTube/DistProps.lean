import Verif.EllTube.DistIn
import Verif.EllTube.Props

/-!
# C87, C88: what the distances into and out of elliptical tubes mean

`rod` is a long thin tube, `sheet` a very flat one: with these the code errs for directions that are almost parallel to the axis in
the scaled coordinates in which it computes.
-/

namespace VecGeom
namespace EllTube

open Real Tube

variable {a : Par} {p d : V3}

/-- C88: a finite distance ends on the surface of the tube, up to the guard `1e-30` against divisions by zero, and is not negative if the
start point is not in the interior of the tube. Directions almost but not quite parallel to the axis are left out. -/
theorem C88_sound_partial (hv : a.Valid) (hu : d.x ^ 2 + d.y ^ 2 + d.z ^ 2 = 1)
    (hpar : a.ell d = 0 ∨ kEpsilon ≤ a.r ^ 2 * a.ell d) (h : distanceToIn (of a) p d < kInfLength) :
    let D := distanceToIn (of a) p d
    let q := V3.at' p d D
    let ε := kTiny * (|D| + p.mag)
    (|q.z| ≤ a.z + ε ∧ a.ell q ≤ 1) ∧ (|(|q.z| - a.z)| ≤ ε ∨ a.ell q = 1) ∧ ((1 ≤ a.ell p ∨ a.z ≤ |p.z|) → 0 ≤ D) := by
  intro D q ε
  replace hpar := par_iff hv hpar
  have ht := kTiny_pos
  have hm0 : 0 ≤ p.mag := sqrt_nonneg _
  have main : ∀ off, 0 ≤ off → off ≤ p.mag → D = distanceToInMoved (of a) (V3.at' p d off) d off →
      ((1 ≤ a.ell p ∨ a.z ≤ |p.z|) → (a.r ≤ rad (sc a (V3.at' p d off)) ∨ a.z ≤ |(V3.at' p d off).z|)) →
      (|q.z| ≤ a.z + ε ∧ a.ell q ≤ 1) ∧ (|(|q.z| - a.z)| ≤ ε ∨ a.ell q = 1) ∧ ((1 ≤ a.ell p ∨ a.z ≤ |p.z|) → 0 ≤ D) := by
    intro off h0 h1 hD hst
    have hlt : distanceToInMoved (of a) (V3.at' p d off) d off < kInfLength := by rw [← hD]; exact h
    obtain ⟨t, e, hz, hC, hon, hpos⟩ := moved_sound hv hu hpar hlt
    have hDt : D = t + off := by rw [hD, e]
    have hq : V3.at' (V3.at' p d off) d t = q := by
      rw [at_at, show off + t = D by rw [hDt]; ring]
    rw [hq] at hz hC hon
    have htl : kTiny * |t| ≤ ε := by
      apply mul_le_mul_of_nonneg_left _ ht.le
      have : |t| ≤ |D| + off := by
        rw [show t = D - off by rw [hDt]; ring]
        have := abs_sub D off
        rw [abs_of_nonneg h0] at this
        exact this
      linarith
    refine ⟨⟨by linarith, (rad_le_iff hv q).mp ((qC_le hv q).mp hC)⟩, ?_, ?_⟩
    · rcases hon with h2 | h2
      · left
        rw [h2]
        have h3 := abs_abs_sub_abs_le (a.z + kTiny * t) a.z
        rw [abs_of_pos hv.z, add_sub_cancel_left, abs_mul, abs_of_pos ht] at h3
        linarith
      · exact .inr ((qC_eq hv q).mp h2)
    · intro h2
      have := hpos (hst h2)
      linarith
  by_cases hfar : p.mag2 > 1024 * (of a).rsph * (of a).rsph ∧ d.dot p < 0
  · have hR : 0 < (of a).rsph := by
      rw [rsph_eq hv]
      have := x_pos hv
      have := mul_self_nonneg a.y
      have := mul_self_nonneg a.z
      apply sqrt_pos.mpr
      nlinarith [mul_pos (x_pos hv) (x_pos hv)]
    have hm : 32 * (of a).rsph ≤ p.mag := by
      apply le_sqrt_of_sq_le
      linarith [hfar.1]
    apply main (p.mag - 2 * (of a).rsph) (by linarith) (by linarith)
    · show distanceToIn (of a) p d = _
      unfold distanceToIn
      rw [if_pos hfar]
    · intro _
      by_contra hn
      rw [not_or, not_le, not_le] at hn
      have hcl : a.Closed (V3.at' p d (p.mag - 2 * (of a).rsph)) := ⟨hn.2.le, (rad_le_iff hv _).mp hn.1.le⟩
      have h1 := closed_mag hv hcl
      have h2 := mag_sub_le hu p (p.mag - 2 * (of a).rsph)
      rw [abs_of_nonneg (by linarith)] at h2
      have h3 : (V3.at' p d (p.mag - 2 * (of a).rsph)).mag ≤ (of a).rsph := by
        unfold V3.mag
        rw [sqrt_le_left hR.le]
        exact h1
      linarith
  · have e0 : V3.at' p d 0 = p := by apply V3.ext <;> simp
    apply main 0 (le_refl _) hm0
    · show distanceToIn (of a) p d = _
      unfold distanceToIn
      rw [if_neg hfar, e0]
    · rw [e0]
      rintro (h1 | h1)
      · left
        by_contra hn
        rw [not_le] at hn
        have h2 := (rad_le_iff hv p).mp hn.le
        have h3 := (rad_eq_iff hv p).mpr (le_antisymm h2 h1)
        linarith
      · exact .inr h1

/-- C88: if the ray reaches a point that is strictly further than half a tolerance within the tube then the distance is finite and comes
before that point. In particular a start point well within the tube gets a negative distance. Directions almost but not quite parallel to
the axis, smaller semi-axes above `10^6` and rays longer than `10^20` are left out. -/
theorem C88_hit_partial (hv : a.Valid) (hu : d.x ^ 2 + d.y ^ 2 + d.z ^ 2 = 1)
    (hpar : a.ell d = 0 ∨ kEpsilon ≤ a.r ^ 2 * a.ell d) (hr : a.r ≤ 1000000) {T : ℝ} (hT : 0 ≤ T) (hT2 : T ≤ 10 ^ 20)
    (hz : |(V3.at' p d T).z| < a.z - kHalfTolerance) (hq : a.ell (V3.at' p d T) < (1 - kHalfTolerance / a.r) ^ 2) :
    distanceToIn (of a) p d < T := by
  replace hpar := par_iff hv hpar
  have hh := kHalfTolerance_pos
  have hrp := r_pos hv
  have hrad : rad (sc a (V3.at' p d T)) < a.r - kHalfTolerance := by
    have hlt := half_lt_r hv
    rw [← pow_lt_pow_iff_left₀ (rad_nonneg _) (by linarith) (by norm_num : (2 : ℕ) ≠ 0), rad_sc hv]
    have e : (a.r - kHalfTolerance) ^ 2 = a.r ^ 2 * (1 - kHalfTolerance / a.r) ^ 2 := by field_simp
    rw [e]
    exact mul_lt_mul_of_pos_left hq (by positivity)
  unfold distanceToIn
  by_cases hfar : p.mag2 > 1024 * (of a).rsph * (of a).rsph ∧ d.dot p < 0
  · rw [if_pos hfar]
    have hR : 0 ≤ (of a).rsph := by rw [rsph_eq hv]; exact sqrt_nonneg _
    have hcl : a.Closed (V3.at' p d T) := ⟨by linarith, (rad_le_iff hv _).mp (by linarith)⟩
    have h1 := closed_mag hv hcl
    have h2 := mag_sub_le hu p T
    rw [abs_of_nonneg hT] at h2
    have h3 : (V3.at' p d T).mag ≤ (of a).rsph := by
      unfold V3.mag
      rw [sqrt_le_left hR]
      exact h1
    have hm : 32 * (of a).rsph ≤ p.mag := by
      apply le_sqrt_of_sq_le
      linarith [hfar.1]
    set off := p.mag - 2 * (of a).rsph with hoff
    have e : V3.at' (V3.at' p d off) d (T - off) = V3.at' p d T := by rw [at_at]; congr 1; ring
    have := moved_complete (p := V3.at' p d off) (off := off) hv hu hpar hr (T := T - off) (by linarith) (by linarith)
      (by rw [e]; exact hz) (by rw [e]; exact hrad)
    linarith
  · rw [if_neg hfar]
    have := moved_complete (p := p) (off := 0) hv hu hpar hr hT hT2 hz hrad
    linarith

/-! ## Concrete cases -/

theorem inf_big : (2 : ℝ) ^ 27 * 2 ≤ kInfLength := by
  have h : (2 : ℝ) ^ 28 ≤ 2 ^ 1023 := pow_le_pow_right₀ (by norm_num) (by norm_num)
  unfold kInfLength
  have h2 : (1 : ℝ) ≤ 2 - 1 / 2 ^ 52 := by norm_num
  have h3 : (0 : ℝ) ≤ 2 ^ 1023 := by positivity
  have h4 := mul_le_mul_of_nonneg_right h2 h3
  rw [one_mul] at h4
  have h5 : (2 : ℝ) ^ 27 * 2 = 2 ^ 28 := by norm_num
  rw [h5]
  exact h.trans h4

example : distanceToIn (of flat) ⟨10, 0, 0⟩ ⟨-1, 0, 0⟩ < 10 ∧ 0 ≤ distanceToIn (of flat) ⟨10, 0, 0⟩ ⟨-1, 0, 0⟩ ∧
    distanceToIn (of flat) ⟨0, 0, 0⟩ ⟨-1, 0, 0⟩ < 0 ∧ 0 ≤ distanceToOut (of flat) ⟨0, 0, 0⟩ ⟨-1, 0, 0⟩ := by
  have hr : flat.r = 2 := by norm_num [Par.r, flat]
  have hu : (-1 : ℝ) ^ 2 + 0 ^ 2 + 0 ^ 2 = 1 := by norm_num
  have hpar : flat.ell ⟨-1, 0, 0⟩ = 0 ∨ kEpsilon ≤ flat.r ^ 2 * flat.ell ⟨-1, 0, 0⟩ := by
    right; rw [hr]; norm_num [Par.ell, flat, kEpsilon]
  have h1 : distanceToIn (of flat) ⟨10, 0, 0⟩ ⟨-1, 0, 0⟩ < 10 := by
    apply C88_hit_partial flat_valid hu hpar (by rw [hr]; norm_num) (by norm_num) (by norm_num)
    · norm_num [V3.at_z, flat, kHalfTolerance, kTolerance]
    · rw [hr]; norm_num [V3.at_x, V3.at_y, Par.ell, flat, kHalfTolerance, kTolerance]
  have h2 : distanceToIn (of flat) ⟨0, 0, 0⟩ ⟨-1, 0, 0⟩ < 0 := by
    apply C88_hit_partial flat_valid hu hpar (by rw [hr]; norm_num) (by norm_num) (by norm_num)
    · norm_num [V3.at_z, flat, kHalfTolerance, kTolerance]
    · rw [hr]; norm_num [V3.at_x, V3.at_y, Par.ell, flat, kHalfTolerance, kTolerance]
  have hk := kInfLength_large
  refine ⟨h1, (C88_sound_partial flat_valid hu hpar (by linarith)).2.2 (.inl ?_), h2, ?_⟩
  · norm_num [Par.ell, flat]
  · apply (C87_distance_out_partial flat_valid hu ⟨by norm_num [flat], by norm_num [Par.ell, flat]⟩ hpar ?_).1
    rw [hr]
    exact inf_big

/-! ## Directions almost parallel to the axis -/

/-- A long tube. -/
noncomputable def rod : Par := ⟨1, 1, 100⟩
theorem rod_valid : rod.Valid := ⟨by norm_num [rod, kTolerance], by norm_num [rod, kTolerance], by norm_num [rod]⟩

/-- A direction inclined by `1e-8`. -/
noncomputable def tilt : V3 := ⟨4 * 10 ^ 8 / (4 * 10 ^ 16 + 1), 0, (4 * 10 ^ 16 - 1) / (4 * 10 ^ 16 + 1)⟩
noncomputable def tilt' : V3 := ⟨-(4 * 10 ^ 8 / (4 * 10 ^ 16 + 1)), 0, (4 * 10 ^ 16 - 1) / (4 * 10 ^ 16 + 1)⟩

theorem tilt_unit : tilt.x ^ 2 + tilt.y ^ 2 + tilt.z ^ 2 = 1 ∧ tilt'.x ^ 2 + tilt'.y ^ 2 + tilt'.z ^ 2 = 1 := by
  norm_num [tilt, tilt']

theorem rod_r : rod.r = 1 := by norm_num [Par.r, rod]
theorem rod_sc (p : V3) : sc rod p = p := by
  have : rod.r / rod.x = 1 ∧ rod.r / rod.y = 1 := by rw [rod_r]; norm_num [rod]
  unfold sc
  rw [this.1, this.2, mul_one, mul_one]

theorem rod_qA (d : V3) : qA rod d = d.x ^ 2 + d.y ^ 2 := by rw [qA, rod_sc, rad_sq]

theorem tilt_par : ParallelToZ (qA rod tilt) tilt.z ∧ ParallelToZ (qA rod tilt') tilt'.z := by
  constructor <;> left <;> rw [rod_qA] <;> norm_num [tilt, tilt', kEpsilon]

/-- C87: the claim without the restriction fails: from a point on the surface of the rod a ray inclined outwards by `1e-8` gets as its
distance out the distance to the plane of the far base, where it is outside by `2e-6`, two thousand tolerances. -/
theorem C87_distance_out_counterexample : rod.Closed ⟨1, 0, -100⟩ ∧
    inside (of rod) (V3.at' ⟨1, 0, -100⟩ tilt (distanceToOut (of rod) ⟨1, 0, -100⟩ tilt)) = .outside := by
  have hh := kHalfTolerance_pos
  have hcl : rod.Closed ⟨1, 0, -100⟩ := ⟨by norm_num [rod], by norm_num [Par.ell, rod]⟩
  refine ⟨hcl, ?_⟩
  have hnout : ¬ max (distR rod ⟨1, 0, -100⟩) (|(⟨1, 0, -100⟩ : V3).z| - rod.z) > kHalfTolerance := by
    rw [← approx_eq rod_valid, out_iff rod_valid]
    have := (closed_iff rod_valid _).mp hcl
    rintro (h | h) <;> linarith [this.1, this.2]
  have hD : distanceToOut (of rod) ⟨1, 0, -100⟩ tilt = 200 / ((4 * 10 ^ 16 - 1) / (4 * 10 ^ 16 + 1)) := by
    rw [distanceToOut_eq rod_valid, if_neg hnout, if_pos tilt_par.1, if_pos (by norm_num [tilt])]
    rw [copySign, if_neg (by norm_num [tilt])]
    norm_num [rod, tilt]
  rw [hD]
  have : approx (of rod) (V3.at' ⟨1, 0, -100⟩ tilt (200 / ((4 * 10 ^ 16 - 1) / (4 * 10 ^ 16 + 1)))) > kHalfTolerance := by
    rw [out_iff rod_valid]
    left
    rw [rod_sc, rod_r]
    apply (lt_rad (by linarith)).mpr
    norm_num [V3.at_x, V3.at_y, tilt, kHalfTolerance, kTolerance]
  unfold inside
  rw [if_neg (by linarith), if_pos this]

/-- A tube so flat that its long axis counts as parallel to the axis of the tube. -/
noncomputable def sheet : Par := ⟨10 ^ 8, 1, 1⟩
theorem sheet_valid : sheet.Valid := ⟨by norm_num [sheet, kTolerance], by norm_num [sheet, kTolerance], by norm_num [sheet]⟩

/-- C87: and for a very flat tube the distance from the centre along the long axis is infinite. -/
theorem C87_flat_counterexample : sheet.Closed ⟨0, 0, 0⟩ ∧ distanceToOut (of sheet) ⟨0, 0, 0⟩ ⟨1, 0, 0⟩ = kInfLength := by
  have hh := kHalfTolerance_pos
  have hcl : sheet.Closed ⟨0, 0, 0⟩ := ⟨by norm_num [sheet], by norm_num [Par.ell, sheet]⟩
  refine ⟨hcl, ?_⟩
  have hr : sheet.r = 1 := by norm_num [Par.r, sheet]
  have hnout : ¬ max (distR sheet ⟨0, 0, 0⟩) (|(⟨0, 0, 0⟩ : V3).z| - sheet.z) > kHalfTolerance := by
    rw [← approx_eq sheet_valid, out_iff sheet_valid]
    have := (closed_iff sheet_valid _).mp hcl
    rintro (h | h) <;> linarith [this.1, this.2]
  have hP : ParallelToZ (qA sheet ⟨1, 0, 0⟩) (⟨1, 0, 0⟩ : V3).z := by
    left
    rw [qA, rad_sc sheet_valid, hr]
    norm_num [Par.ell, sheet, kEpsilon]
  rw [distanceToOut_eq sheet_valid, if_neg hnout, if_pos hP, if_neg (by norm_num)]

/-- C88: for almost parallel directions a ray that enters the rod through its lateral surface and goes on to a depth of `1e-6` misses it,
and one that passes beside it hits it. -/
theorem C88_distance_in_counterexample :
    (distanceToIn (of rod) ⟨1 + 1 / 10 ^ 8, 0, -99⟩ tilt' = kInfLength ∧
      inside (of rod) (V3.at' ⟨1 + 1 / 10 ^ 8, 0, -99⟩ tilt' 150) = .inside) ∧
    (distanceToIn (of rod) ⟨1 - 1 / 10 ^ 9, 0, -1000⟩ tilt < 901 ∧
      ∀ t, 0 ≤ t → ¬ rod.Closed (V3.at' ⟨1 - 1 / 10 ^ 9, 0, -1000⟩ tilt t)) := by
  have hh := kHalfTolerance_pos
  have hR : (of rod).rsph * (of rod).rsph = 10002 := by
    rw [rsph_eq rod_valid, mul_self_sqrt (by norm_num [rod])]; norm_num [rod]
  refine ⟨⟨?_, ?_⟩, ?_, ?_⟩
  · unfold distanceToIn
    rw [if_neg, moved_eq rod_valid, if_pos]
    · right
      refine ⟨?_, .inr tilt_par.2⟩
      by_contra hn
      rw [ge_iff_le, not_le, distR_lt rod_valid, rod_sc, rod_r] at hn
      have : 1 ≤ rad ⟨1 + 1 / 10 ^ 8, 0, -99⟩ := (le_rad (by norm_num)).mpr (by norm_num)
      linarith
    · rintro ⟨h, _⟩
      rw [mul_assoc, hR] at h
      norm_num [V3.mag2, V3.dot] at h
  · rw [(C85_inside rod_valid _).2.2, rod_r]
    constructor
    · norm_num [V3.at_x, V3.at_y, Par.ell, rod, tilt', kHalfTolerance, kTolerance]
    · norm_num [V3.at_z, rod, tilt', kHalfTolerance, kTolerance, abs_le]
  · unfold distanceToIn
    rw [if_neg, moved_eq rod_valid, if_neg, if_pos tilt_par.1]
    · unfold zlo
      rw [add_zero, div_lt_iff₀ (zden_pos _)]
      have h1 : sign tilt.z = 1 := by rw [sign, if_neg]; norm_num [tilt]
      have h2 : |tilt.z| = (4 * 10 ^ 16 - 1) / (4 * 10 ^ 16 + 1) := by rw [abs_of_nonneg] <;> norm_num [tilt]
      have ht := kTiny_pos
      rw [h1, h2]
      have : (-1 * (-1000 : ℝ) - 100) < 901 * ((4 * 10 ^ 16 - 1) / (4 * 10 ^ 16 + 1)) := by norm_num
      have e : rod.z = 100 := rfl
      rw [e]
      dsimp only
      linarith
    · rintro (⟨_, h⟩ | ⟨h, _⟩)
      · norm_num [tilt] at h
      · rw [ge_iff_le, ← not_lt, distR_lt rod_valid, rod_sc, rod_r] at h
        apply h
        have : rad ⟨1 - 1 / 10 ^ 9, 0, -1000⟩ = 1 - 1 / 10 ^ 9 := by
          rw [← rad_eq]; dsimp only; rw [mul_zero, add_zero, sqrt_mul_self (by norm_num)]
        rw [this]; norm_num [kHalfTolerance, kTolerance]
    · rintro ⟨h, _⟩
      rw [mul_assoc, hR] at h
      norm_num [V3.mag2, V3.dot] at h
  · intro t ht hc
    have h1 := hc.z
    have h2 := hc.r
    have e : rod.z = 100 := rfl
    rw [e, V3.at_z, abs_le] at h1
    have hz : tilt.z ≤ 1 := by norm_num [tilt]
    have h3 : 900 ≤ t := by
      have := mul_le_mul_of_nonneg_left hz ht
      have h4 := h1.1
      dsimp only at h4
      linarith
    have hx : (1 : ℝ) / 10 ^ 9 ≤ tilt.x := by norm_num [tilt]
    have h4 : 1 < (V3.at' ⟨1 - 1 / 10 ^ 9, 0, -1000⟩ tilt t).x := by
      rw [V3.at_x]
      have := mul_le_mul h3 hx (by norm_num) ht
      dsimp only
      linarith
    have h5 : 1 < rod.ell (V3.at' ⟨1 - 1 / 10 ^ 9, 0, -1000⟩ tilt t) := by
      unfold Par.ell
      have e1 : rod.x = 1 := rfl
      rw [e1, div_one]
      nlinarith [sq_nonneg ((V3.at' ⟨1 - 1 / 10 ^ 9, 0, -1000⟩ tilt t).y / rod.y)]
    linarith

end EllTube
end VecGeom
