import Verif.Ellipsoid.Props

/-!
# C104: the distance out of cut ellipsoids
-/

namespace VecGeom
namespace Ellipsoid

open Real

variable {a : Par} {p d : V3}

/-- The coefficients of the quadratic equation. -/
noncomputable def qA (a : Par) (d : V3) : ℝ := nrm (sc a d) ^ 2
noncomputable def qB (a : Par) (p d : V3) : ℝ := (sc a p).x * (sc a d).x + (sc a p).y * (sc a d).y + (sc a p).z * (sc a d).z
noncomputable def qC (a : Par) (p : V3) : ℝ := nrm (sc a p) ^ 2 - a.r ^ 2
noncomputable def qD (a : Par) (p d : V3) : ℝ := qB a p d ^ 2 - qA a d * qC a p

theorem quad_eq (t : ℝ) : qC a (V3.at' p d t) = qA a d * t ^ 2 + 2 * qB a p d * t + qC a p := by
  unfold qC qA qB
  rw [sc_at, nrm_sq, nrm_sq, nrm_sq, V3.at_x, V3.at_y, V3.at_z]
  ring

theorem qC_le (hv : a.Valid) (p : V3) : qC a p ≤ 0 ↔ nrm (sc a p) ≤ a.r := by
  rw [← pow_le_pow_iff_left₀ (nrm_nonneg _) (r_pos hv).le (by norm_num : (2 : ℕ) ≠ 0), qC]
  constructor <;> intro h <;> linarith

theorem qC_eq (hv : a.Valid) (p : V3) : qC a p = 0 ↔ a.ell p = 1 := by
  rw [← nrm_eq_iff hv, ← pow_left_inj₀ (nrm_nonneg _) (r_pos hv).le (by norm_num : (2 : ℕ) ≠ 0), qC]
  constructor <;> intro h <;> linarith

theorem qA_le (hv : a.Valid) (hu : d.x ^ 2 + d.y ^ 2 + d.z ^ 2 = 1) : qA a d ≤ 1 := by
  unfold qA
  rw [nrm_sq, sc_x, sc_y, sc_z]
  have h1 := EllTube.sq_mul_le (ratio_x hv).1 (ratio_x hv).2 d.x
  have h2 := EllTube.sq_mul_le (ratio_y hv).1 (ratio_y hv).2 d.y
  have h3 := EllTube.sq_mul_le (ratio_z hv).1 (ratio_z hv).2 d.z
  linarith

theorem qA_pos (hv : a.Valid) (hu : d.x ^ 2 + d.y ^ 2 + d.z ^ 2 = 1) : 0 < qA a d := by
  rcases (sq_nonneg (nrm (sc a d))).lt_or_eq with h | h
  · exact h
  exfalso
  rw [nrm_sq, sc_x, sc_y, sc_z] at h
  have hx := (ratio_x hv).1.ne'
  have hy := (ratio_y hv).1.ne'
  have hz := (ratio_z hv).1.ne'
  have h1 : d.x = 0 := (mul_eq_zero.mp (by nlinarith [sq_nonneg (d.x * (a.r / a.x)), sq_nonneg (d.y * (a.r / a.y)), sq_nonneg (d.z * (a.r / a.z))] : d.x * (a.r / a.x) = 0)).resolve_right hx
  have h2 : d.y = 0 := (mul_eq_zero.mp (by nlinarith [sq_nonneg (d.x * (a.r / a.x)), sq_nonneg (d.y * (a.r / a.y)), sq_nonneg (d.z * (a.r / a.z))] : d.y * (a.r / a.y) = 0)).resolve_right hy
  have h3 : d.z = 0 := (mul_eq_zero.mp (by nlinarith [sq_nonneg (d.x * (a.r / a.x)), sq_nonneg (d.y * (a.r / a.y)), sq_nonneg (d.z * (a.r / a.z))] : d.z * (a.r / a.z) = 0)).resolve_right hz
  rw [h1, h2, h3] at hu
  norm_num at hu

/-- The roots. -/
noncomputable def lo (a : Par) (p d : V3) : ℝ := (-qB a p d - √(qD a p d)) / qA a d
noncomputable def hi (a : Par) (p d : V3) : ℝ := (-qB a p d + √(qD a p d)) / qA a d

theorem lo_le_hi (hA : 0 < qA a d) : lo a p d ≤ hi a p d := by
  unfold lo hi
  have := sqrt_nonneg (qD a p d)
  exact div_le_div_of_nonneg_right (by linarith) hA.le

theorem factor (hA : 0 < qA a d) (hD : 0 ≤ qD a p d) (t : ℝ) : qC a (V3.at' p d t) = qA a d * ((t - lo a p d) * (t - hi a p d)) := by
  have hs := sq_sqrt hD
  rw [quad_eq]
  unfold lo hi
  generalize √(qD a p d) = s at *
  have hA' := hA.ne'
  have e : qA a d * ((t - (-qB a p d - s) / qA a d) * (t - (-qB a p d + s) / qA a d)) =
      qA a d * t ^ 2 + 2 * qB a p d * t + (qB a p d ^ 2 - s ^ 2) / qA a d := by
    field_simp
    ring
  rw [e, hs, qD]
  field_simp
  ring

/-- Between the roots the ray is in the ellipsoid. -/
theorem in_iff_roots (hA : 0 < qA a d) (hD : 0 ≤ qD a p d) (t : ℝ) : qC a (V3.at' p d t) ≤ 0 ↔ lo a p d ≤ t ∧ t ≤ hi a p d := by
  rw [factor hA hD]
  have hle := lo_le_hi (p := p) hA
  constructor
  · intro h
    have h' : (t - lo a p d) * (t - hi a p d) ≤ 0 := by
      by_contra h''
      have := mul_pos hA (not_le.mp h'')
      linarith
    constructor
    · by_contra h1
      have := mul_pos_of_neg_of_neg (show t - lo a p d < 0 by linarith) (show t - hi a p d < 0 by linarith)
      linarith
    · by_contra h1
      have := mul_pos (show 0 < t - lo a p d by linarith) (show 0 < t - hi a p d by linarith)
      linarith
  · rintro ⟨h1, h2⟩
    have := mul_nonneg (show 0 ≤ t - lo a p d by linarith) (show 0 ≤ hi a p d - t by linarith)
    have := mul_nonneg hA.le this
    linarith

theorem at_hi (hA : 0 < qA a d) (hD : 0 ≤ qD a p d) : qC a (V3.at' p d (hi a p d)) = 0 := by
  rw [factor hA hD]; ring
theorem at_lo (hA : 0 < qA a d) (hD : 0 ≤ qD a p d) : qC a (V3.at' p d (lo a p d)) = 0 := by
  rw [factor hA hD]; ring

theorem at_zero (p d : V3) : V3.at' p d 0 = p := EllTube.at_zero p d

theorem qD_nonneg (hA : 0 ≤ qA a d) (h : qC a p ≤ 0) : 0 ≤ qD a p d := by
  unfold qD
  have := mul_nonneg hA (show 0 ≤ -qC a p by linarith)
  nlinarith [sq_nonneg (qB a p d)]

/-! ## DistanceToOut -/

theorem vv_eq (hv : a.Valid) (d : V3) : d.x * (of a).sx * (d.x * (of a).sx) + d.y * (of a).sy * (d.y * (of a).sy) +
    d.z * (of a).sz * (d.z * (of a).sz) = qA a d := rr_eq hv d
theorem pv_eq (hv : a.Valid) (p d : V3) : p.x * (of a).sx * (d.x * (of a).sx) + p.y * (of a).sy * (d.y * (of a).sy) +
    p.z * (of a).sz * (d.z * (of a).sz) = qB a p d := by rw [of_eq hv]; rfl
theorem sz_eq (hv : a.Valid) (d : V3) : d.z * (of a).sz = (sc a d).z := by rw [of_eq hv]; rfl

open Classical in
theorem distanceToOut_eq (hv : a.Valid) (hu : d.x ^ 2 + d.y ^ 2 + d.z ^ 2 = 1) (p : V3) : distanceToOut (of a) p d =
    if max (distR a p) (|cz a p| - dim a) > kHalfTolerance then -1
    else if qD a p d ≤ 2 * nrm (sc a p) ^ 2 * qA a d ^ 3 * kEpsilon then 0
    else min (if (sc a d).z ≠ 0 then (copySign (dim a) (sc a d).z - cz a p) / (sc a d).z else kInfLength)
      (-(qB a p d / qA a d) + √|qD a p d / qA a d ^ 2|) := by
  have hA := qA_pos hv hu
  unfold distanceToOut
  dsimp only
  rw [rr_eq hv, vv_eq hv, pv_eq hv, cz_def hv, dim_def hv, r_def hv, distR_eq hv, sz_eq hv]
  have e : qB a p d / qA a d * (qB a p d / qA a d) - (nrm (sc a p) ^ 2 - a.r * a.r) / qA a d = qD a p d / qA a d ^ 2 := by
    unfold qD qC
    field_simp
  have e2 : (qD a p d / qA a d ^ 2 ≤ 2 * nrm (sc a p) ^ 2 * qA a d * kEpsilon) = (qD a p d ≤ 2 * nrm (sc a p) ^ 2 * qA a d ^ 3 * kEpsilon) := by
    rw [div_le_iff₀ (by positivity)]
    congr 1; ring
  rw [e]
  simp only [e2]

theorem trmax_eq (hA : 0 < qA a d) (hD : 0 ≤ qD a p d) : -(qB a p d / qA a d) + √|qD a p d / qA a d ^ 2| = hi a p d := by
  rw [abs_of_nonneg (by positivity), sqrt_div hD, sqrt_sq hA.le, hi]
  ring

/-- The exit through a cut. -/
theorem cut_out {h z v : ℝ} (hh : 0 < h) (hz : |z| ≤ h) (hv : v ≠ 0) :
    let T := (copySign h v - z) / v
    0 ≤ T ∧ |z + T * v| = h ∧ ∀ t, 0 ≤ t → t ≤ T → |z + t * v| ≤ h :=
  EllTube.lid_out (a := ⟨0, 0, h⟩) (p := ⟨0, 0, z⟩) (d := ⟨0, 0, v⟩) hh hz hv

theorem closed_far {q : V3} (hv : a.Valid) (h : a.ell q ≤ 1) : nrm q ≤ a.big := by
  have hx := x_pos hv
  have hy := y_pos hv
  have hz := z_pos hv
  apply le_of_sq_le_sq _ (big_pos hv).le
  rw [nrm_sq]
  unfold Par.ell at h
  have b1 := pow_le_pow_left₀ hx.le (x_le_big a) 2
  have b2 := pow_le_pow_left₀ hy.le (y_le_big a) 2
  have b3 := pow_le_pow_left₀ hz.le (z_le_big a) 2
  have e1 : q.x ^ 2 = (q.x / a.x) ^ 2 * a.x ^ 2 := by field_simp
  have e2 : q.y ^ 2 = (q.y / a.y) ^ 2 * a.y ^ 2 := by field_simp
  have e3 : q.z ^ 2 = (q.z / a.z) ^ 2 * a.z ^ 2 := by field_simp
  rw [e1, e2, e3]
  have h1 := mul_le_mul_of_nonneg_left b1 (sq_nonneg (q.x / a.x))
  have h2 := mul_le_mul_of_nonneg_left b2 (sq_nonneg (q.y / a.y))
  have h3 := mul_le_mul_of_nonneg_left b3 (sq_nonneg (q.z / a.z))
  have h4 := mul_le_mul_of_nonneg_right h (sq_nonneg a.big)
  linarith

theorem dist_ray (hu : d.x ^ 2 + d.y ^ 2 + d.z ^ 2 = 1) (p : V3) (s t : ℝ) : V3.dist (V3.at' p d s) (V3.at' p d t) = |s - t| := by
  unfold V3.dist V3.dist2
  simp only [V3.at_x, V3.at_y, V3.at_z]
  rw [← sqrt_sq_eq_abs]
  congr 1
  linear_combination (s - t) ^ 2 * hu

/-- The exit from the ellipsoid comes after at most twice the largest semi-axis. -/
theorem hi_le (hv : a.Valid) (hu : d.x ^ 2 + d.y ^ 2 + d.z ^ 2 = 1) (hC : qC a p ≤ 0) : hi a p d ≤ 2 * a.big := by
  have hA := qA_pos hv hu
  have hD := qD_nonneg hA.le hC
  have h1 : nrm (V3.at' p d (hi a p d)) ≤ a.big := closed_far hv ((nrm_le_iff hv _).mp ((qC_le hv _).mp (at_hi hA hD).le))
  have h2 : nrm p ≤ a.big := closed_far hv ((nrm_le_iff hv _).mp ((qC_le hv _).mp hC))
  have h3 := dist_ray hu p (hi a p d) 0
  rw [at_zero, sub_zero] at h3
  have h4 : V3.dist (V3.at' p d (hi a p d)) p ≤ nrm (V3.at' p d (hi a p d)) + nrm p := by
    have := nrm_sub_le (V3.at' p d (hi a p d)) p
    have h5 : V3.dist (V3.at' p d (hi a p d)) p ^ 2 ≤ (nrm (V3.at' p d (hi a p d)) + nrm p) ^ 2 := by
      have e : V3.dist (V3.at' p d (hi a p d)) p ^ 2 = _ := sq_sqrt (V3.dist2_nonneg _ p)
      generalize V3.at' p d (hi a p d) = q at *
      rw [e]
      have a1 := nrm_sq q
      have a2 := nrm_sq p
      have a3 := nrm_nonneg q
      have a4 := nrm_nonneg p
      have cs : -(q.x * p.x + q.y * p.y + q.z * p.z) ≤ nrm q * nrm p := by
        apply le_of_abs_le
        rw [abs_neg]
        apply abs_le_of_sq_le_sq _ (by positivity)
        rw [mul_pow, a1, a2]
        nlinarith [sq_nonneg (q.x * p.y - q.y * p.x), sq_nonneg (q.y * p.z - q.z * p.y), sq_nonneg (q.z * p.x - q.x * p.z)]
      unfold V3.dist2
      nlinarith
    exact le_of_sq_le_sq h5 (by have := nrm_nonneg p; have := nrm_nonneg (V3.at' p d (hi a p d)); linarith)
  have := le_abs_self (hi a p d)
  linarith

/-- C104: for every point of the solid and every unit direction the path up to `DistanceToOut` is in the solid and ends on its surface, or it
is zero and the start point is within two machine epsilons of the ellipsoid, in the value of its equation. -/
theorem C104_distance_out (hv : a.Valid) (hu : d.x ^ 2 + d.y ^ 2 + d.z ^ 2 = 1) (hc : a.Closed p) (hfin : 2 * a.big ≤ kInfLength) :
    let D := distanceToOut (of a) p d
    0 ≤ D ∧ (∀ t, 0 ≤ t → t ≤ D → a.Closed (V3.at' p d t)) ∧
      (a.Surface (V3.at' p d D) ∨ (D = 0 ∧ 1 - 2 * kEpsilon ≤ a.ell p)) := by
  intro D
  have he := kEpsilon_pos
  have hh := kHalfTolerance_pos
  have hA := qA_pos hv hu
  have hA1 := qA_le hv hu
  have hcc := (closed_iff hv p).mp hc
  have hC := (qC_le hv p).mpr hcc.2
  have hD0 := qD_nonneg hA.le hC
  have hnout : ¬ max (distR a p) (|cz a p| - dim a) > kHalfTolerance := by
    rw [max_comm, ← approx_eq hv, out_iff hv]
    rintro (h | h) <;> linarith [hcc.1, hcc.2]
  have hDe : D = _ := distanceToOut_eq hv hu p
  rw [if_neg hnout] at hDe
  by_cases hD : qD a p d ≤ 2 * nrm (sc a p) ^ 2 * qA a d ^ 3 * kEpsilon
  · rw [if_pos hD] at hDe
    rw [hDe]
    refine ⟨le_refl _, fun t h0 h1 => ?_, .inr ⟨rfl, ?_⟩⟩
    · rw [le_antisymm h1 h0, at_zero]; exact hc
    · have h1 : qA a d * -qC a p ≤ qA a d * (2 * nrm (sc a p) ^ 2 * qA a d ^ 2 * kEpsilon) := by
        have : qA a d * -qC a p ≤ qD a p d := by unfold qD; nlinarith [sq_nonneg (qB a p d)]
        calc _ ≤ _ := this
          _ ≤ _ := hD
          _ = _ := by ring
      have h2 := le_of_mul_le_mul_left h1 hA
      have h3 : 2 * nrm (sc a p) ^ 2 * qA a d ^ 2 * kEpsilon ≤ 2 * a.r ^ 2 * 1 * kEpsilon := by
        have b1 := pow_le_pow_left₀ (nrm_nonneg _) hcc.2 2
        have b2 : qA a d ^ 2 ≤ 1 := pow_le_one₀ hA.le hA1
        have b3 : 2 * nrm (sc a p) ^ 2 * qA a d ^ 2 ≤ 2 * a.r ^ 2 * 1 := mul_le_mul (by linarith) b2 (by positivity) (by positivity)
        exact mul_le_mul_of_nonneg_right b3 he.le
      unfold qC at h2
      rw [nrm_sc hv] at h2 h3
      have hr : 0 < a.r ^ 2 := by have := r_pos hv; positivity
      have h4 : a.r ^ 2 * (1 - 2 * kEpsilon) ≤ a.r ^ 2 * a.ell p := by
        linarith
      exact le_of_mul_le_mul_left h4 hr
  · rw [if_neg hD, trmax_eq hA hD0] at hDe
    have hr0 := (in_iff_roots hA hD0 0).mp (by rw [at_zero]; exact hC)
    have lat : ∀ t, 0 ≤ t → t ≤ hi a p d → a.ell (V3.at' p d t) ≤ 1 := by
      intro t h0 h1
      rw [← nrm_le_iff hv, ← qC_le hv, in_iff_roots hA hD0]
      exact ⟨by linarith [hr0.1], h1⟩
    have mk : ∀ t, |cz a (V3.at' p d t)| ≤ dim a → a.ell (V3.at' p d t) ≤ 1 → a.Closed (V3.at' p d t) := by
      intro t h1 h2
      have := (cz_le hv _).mp h1
      exact ⟨this.1, this.2, h2⟩
    by_cases hz : (sc a d).z = 0
    · simp only [hz, ne_eq, not_true, if_false] at hDe
      rw [min_eq_right ((hi_le hv hu hC).trans hfin)] at hDe
      have hzz : ∀ t, |cz a (V3.at' p d t)| ≤ dim a := by
        intro t; rw [cz_at, hz]; simpa using hcc.1
      rw [hDe]
      refine ⟨hr0.2, fun t h0 h1 => mk t (hzz t) (lat t h0 h1), .inl ⟨mk _ (hzz _) (lat _ hr0.2 (le_refl _)), .inr (.inr ?_)⟩⟩
      exact (qC_eq hv _).mp (at_hi hA hD0)
    · simp only [ne_eq, hz, not_false_eq_true, if_true] at hDe
      obtain ⟨h1, h2, h3⟩ := cut_out (dim_pos hv) hcc.1 hz
      generalize (copySign (dim a) (sc a d).z - cz a p) / (sc a d).z = T at *
      have hDn : 0 ≤ D := by rw [hDe]; exact le_min h1 hr0.2
      have hDT : D ≤ T := by rw [hDe]; exact min_le_left _ _
      have hDh : D ≤ hi a p d := by rw [hDe]; exact min_le_right _ _
      have hcz : ∀ t, 0 ≤ t → t ≤ T → |cz a (V3.at' p d t)| ≤ dim a := by
        intro t h0 h4; rw [cz_at]; exact h3 t h0 h4
      refine ⟨hDn, fun t h0 h4 => mk t (hcz t h0 (by linarith)) (lat t h0 (by linarith)),
        .inl ⟨mk D (hcz D hDn hDT) (lat D hDn hDh), ?_⟩⟩
      rcases min_choice T (hi a p d) with h | h
      · have := cz_eq hv (V3.at' p d D) (by rw [cz_at, hDe, h]; exact h2)
        rcases this with h4 | h4
        · exact .inl h4
        · exact .inr (.inl h4)
      · right; right
        rw [hDe, h]
        exact (qC_eq hv _).mp (at_hi hA hD0)

/-- C104: points outside beyond the tolerance get `-1`. -/
theorem C104_outside (hv : a.Valid) (hu : d.x ^ 2 + d.y ^ 2 + d.z ^ 2 = 1) (h : inside (of a) p = .outside) :
    distanceToOut (of a) p d = -1 := by
  rw [distanceToOut_eq hv hu, if_pos]
  rw [max_comm, ← approx_eq hv]
  exact (inside_out _ _).mp h

/-- From the centre of the bowl upwards: the top cut. -/
example : (bowl.Closed ⟨0, 0, 0⟩ ∧ 2 * bowl.big ≤ kInfLength) ∧ distanceToOut (of bowl) ⟨0, 0, 0⟩ ⟨0, 0, 1⟩ = 1 / 2 ∧
    inside (of bowl) ⟨0, 0, 1⟩ = .outside := by
  have hc : bowl.Closed ⟨0, 0, 0⟩ := by constructor <;> norm_num [bowl, Par.ell]
  have hb : bowl.big = 4 := by norm_num [Par.big, bowl]
  have hk := kInfLength_large
  have hu : (0 : ℝ) ^ 2 + 0 ^ 2 + 1 ^ 2 = 1 := by norm_num
  have hb2 : 2 * bowl.big ≤ kInfLength := by rw [hb]; linarith
  refine ⟨⟨hc, hb2⟩, ?_, ?_⟩
  · obtain ⟨h0, h1, h2⟩ := C104_distance_out (d := ⟨0, 0, 1⟩) bowl_valid hu hc hb2
    set D := distanceToOut (of bowl) ⟨0, 0, 0⟩ ⟨0, 0, 1⟩
    rcases h2 with h2 | ⟨_, h2⟩
    · have h3 := h2.on
      have h4 := h2.closed.hi
      simp only [V3.at_z, V3.at_x, V3.at_y, Par.ell, bowl] at h3 h4
      rcases h3 with h3 | h3 | h3
      · linarith
      · linarith
      · norm_num at h3 h4
        rcases h3 with h3 | h3 <;> linarith
    · norm_num [Par.ell, kEpsilon] at h2
  · rw [inside_out, out_iff bowl_valid]
    right
    unfold cz dim
    rw [sc_z, bowl_r]
    norm_num [bowl, kHalfTolerance, kTolerance, lt_abs]

end Ellipsoid
end VecGeom
