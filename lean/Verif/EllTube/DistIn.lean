import Verif.EllTube.Dist

/-!
# Distances into elliptical tubes
-/

namespace VecGeom
namespace EllTube

open Real Tube

variable {a : Par} {p d : V3}

/-- The entrance and the exit of the slab between the planes of the bases, as the code computes them. -/
noncomputable def zlo (a : Par) (p d : V3) : ℝ := (-sign d.z * p.z - a.z) / (|d.z| + kTiny)
noncomputable def zhi (a : Par) (p d : V3) : ℝ := (a.z - sign d.z * p.z) / (|d.z| + kTiny)

theorem zden_pos (d : V3) : 0 < |d.z| + kTiny := by have := kTiny_pos; have := abs_nonneg d.z; linarith

theorem tz_eq (a : Par) (p d : V3) :
    (p.z - copySign a.z (-1 / nonZero d.z)) * (-1 / nonZero d.z) = zlo a p d ∧
    (p.z + copySign a.z (-1 / nonZero d.z)) * (-1 / nonZero d.z) = zhi a p d := by
  have ht := kTiny_pos
  rcases lt_or_ge d.z 0 with h | h
  · have e : nonZero d.z = -(|d.z| + kTiny) := by
      rw [nonZero, copySign, if_pos h, abs_of_neg h]; ring
    have hp := zden_pos d
    have e2 : -1 / nonZero d.z = 1 / (|d.z| + kTiny) := by rw [e, neg_div_neg_eq]
    have e3 : copySign a.z (1 / (|d.z| + kTiny)) = a.z := by
      rw [copySign, if_neg (not_lt.mpr (by positivity))]
    rw [e2, e3, zlo, zhi, sign, if_pos h]
    constructor <;> ring
  · have e : nonZero d.z = |d.z| + kTiny := by
      rw [nonZero, copySign, if_neg (not_lt.mpr h), abs_of_nonneg h]
    have hp := zden_pos d
    have e2 : -1 / nonZero d.z = -(1 / (|d.z| + kTiny)) := by rw [e, neg_div]
    have e3 : copySign a.z (-(1 / (|d.z| + kTiny))) = -a.z := by
      rw [copySign, if_pos]
      have : 0 < 1 / (|d.z| + kTiny) := by positivity
      linarith
    rw [e2, e3, zlo, zhi, sign, if_neg (not_lt.mpr h)]
    constructor <;> ring

theorem sign_mul_abs (z : ℝ) : sign z * z = |z| := by
  unfold sign
  split
  · rename_i h; rw [abs_of_neg h]; ring
  · rename_i h; rw [abs_of_nonneg (not_lt.mp h)]; ring

theorem sign_sq' (z : ℝ) : sign z * sign z = 1 := by unfold sign; split <;> norm_num

theorem abs_sign_mul (z w : ℝ) : |sign z * w| = |w| := by
  unfold sign; split
  · rw [neg_one_mul, abs_neg]
  · rw [one_mul]

/-- The height along the ray, in the direction of the ray. -/
theorem sz_at (p d : V3) (t : ℝ) : sign d.z * (V3.at' p d t).z = sign d.z * p.z + t * |d.z| := by
  rw [V3.at_z, ← sign_mul_abs]; ring

theorem at_zlo (a : Par) (p d : V3) : sign d.z * (V3.at' p d (zlo a p d)).z = -a.z - kTiny * zlo a p d := by
  have h : zlo a p d * (|d.z| + kTiny) = -sign d.z * p.z - a.z := div_mul_cancel₀ _ (zden_pos d).ne'
  rw [sz_at]; linarith

theorem z_between {t : ℝ} (h1 : zlo a p d ≤ t) (h2 : t ≤ zhi a p d) : |(V3.at' p d t).z| ≤ a.z + kTiny * |t| := by
  have ht := kTiny_pos
  rw [zlo, div_le_iff₀ (zden_pos d)] at h1
  rw [zhi, le_div_iff₀ (zden_pos d)] at h2
  rw [← abs_sign_mul d.z, sz_at, abs_le]
  have h3 := mul_le_mul_of_nonneg_left (le_abs_self t) ht.le
  have h4 := mul_le_mul_of_nonneg_left (neg_abs_le t) ht.le
  constructor <;> linarith

/-! ## The code in these terms -/

/-- The test for points that leave the tube. -/
def Leaving (a : Par) (p d : V3) : Prop :=
  (|p.z| - a.z ≥ -kHalfTolerance ∧ p.z * d.z ≥ 0) ∨ (distR a p ≥ -kHalfTolerance ∧ (qB a p d ≥ 0 ∨ ParallelToZ (qA a d) d.z))

open Classical in
theorem moved_eq (hv : a.Valid) (p d : V3) (off : ℝ) : distanceToInMoved (of a) p d off =
    if Leaving a p d then kInfLength
    else if ParallelToZ (qA a d) d.z then zlo a p d + off
    else if qD a p d ≤ qA a d * qA a d * (2 * a.r * a.r * kEpsilon) then kInfLength
    else
      let tmp := -qB a p d - copySign √(qD a p d) (qB a p d)
      let tin := max (zlo a p d) (min (tmp / qA a d) (qC a p / tmp))
      let tout := min (zhi a p d) (max (tmp / qA a d) (qC a p / tmp))
      if tout - tin ≥ kHalfTolerance then tin + off else kInfLength := by
  have e1 : d.x * (of a).sx * (d.x * (of a).sx) + d.y * (of a).sy * (d.y * (of a).sy) = qA a d := by
    rw [of_eq hv, qA, rad_sq, sc_x, sc_y, pow_two, pow_two]; rfl
  have e2 : p.x * (of a).sx * (d.x * (of a).sx) + p.y * (of a).sy * (d.y * (of a).sy) = qB a p d := by
    rw [of_eq hv]; rfl
  have e3 : p.x * (of a).sx * (p.x * (of a).sx) + p.y * (of a).sy * (p.y * (of a).sy) - (of a).r * (of a).r = qC a p := by
    rw [of_eq hv, qC, rad_sq, sc_x, sc_y, pow_two, pow_two, pow_two]; rfl
  have e4 : (of a).dz = a.z := by rw [of_eq hv]; rfl
  have e6 : (of a).scratch = 2 * a.r * a.r * kEpsilon := by rw [of_eq hv]; rfl
  have e5 : qB a p d * qB a p d - qA a d * qC a p = qD a p d := by unfold qD; ring
  unfold distanceToInMoved
  dsimp only
  rw [distR_eq hv, e1, e2, e3, e4, e5, e6, (tz_eq a p d).1, (tz_eq a p d).2]
  unfold Leaving
  congr 1

theorem roots_eq (hA : 0 < qA a d) (hD : 0 < qD a p d) :
    let tmp := -qB a p d - copySign √(qD a p d) (qB a p d)
    min (tmp / qA a d) (qC a p / tmp) = lo a p d ∧ max (tmp / qA a d) (qC a p / tmp) = hi a p d := by
  intro tmp
  have hs := sq_sqrt hD.le
  have hp := sqrt_pos.mpr hD
  have hle := lo_le_hi (p := p) hA
  have hC : qC a p * qA a d = qB a p d ^ 2 - √(qD a p d) ^ 2 := by rw [hs]; unfold qD; ring
  rcases lt_or_ge (qB a p d) 0 with h | h
  · have ht : tmp = -qB a p d + √(qD a p d) := by
      show -qB a p d - copySign √(qD a p d) (qB a p d) = _
      rw [copySign, if_pos h]; ring
    have hpos : 0 < tmp := by rw [ht]; linarith
    have e1 : tmp / qA a d = hi a p d := by rw [ht]; rfl
    have e2 : qC a p / tmp = lo a p d := by
      unfold lo
      rw [div_eq_div_iff hpos.ne' hA.ne', hC, ht]; ring
    rw [e1, e2]
    exact ⟨min_eq_right hle, max_eq_left hle⟩
  · have ht : tmp = -qB a p d - √(qD a p d) := by
      show -qB a p d - copySign √(qD a p d) (qB a p d) = _
      rw [copySign, if_neg (not_lt.mpr h)]
    have hneg : tmp < 0 := by rw [ht]; linarith
    have e1 : tmp / qA a d = lo a p d := by rw [ht]; rfl
    have e2 : qC a p / tmp = hi a p d := by
      unfold hi
      rw [div_eq_div_iff hneg.ne hA.ne', hC, ht]; ring
    rw [e1, e2]
    exact ⟨min_eq_left hle, max_eq_right hle⟩

theorem par_unit (hv : a.Valid) (hu : d.x ^ 2 + d.y ^ 2 + d.z ^ 2 = 1) (h : ParallelToZ (qA a d) d.z)
    (hpar : qA a d = 0 ∨ kEpsilon ≤ qA a d) : qA a d = 0 := by
  rcases hpar with h1 | h1
  · exact h1
  rcases h with h | h
  · linarith
  · have h2 : 1 ≤ d.z ^ 2 := by rw [← sq_abs]; nlinarith
    have := qA_le hv d
    exact le_antisymm (by linarith) qA_nonneg

theorem ell_const (hv : a.Valid) (h : qA a d = 0) (t : ℝ) : qC a (V3.at' p d t) = qC a p := by
  obtain ⟨hx, hy⟩ := qA_zero hv h
  rw [quad_eq, h, qB, sc_x, sc_x, sc_y, sc_y, hx, hy]; ring

/-- What a finite result of the part behind the move is: the entrance through a base or through the lateral surface. -/
theorem moved_sound (hv : a.Valid) (hu : d.x ^ 2 + d.y ^ 2 + d.z ^ 2 = 1) (hpar : qA a d = 0 ∨ kEpsilon ≤ qA a d) {off : ℝ}
    (h : distanceToInMoved (of a) p d off < kInfLength) :
    ∃ t, distanceToInMoved (of a) p d off = t + off ∧ |(V3.at' p d t).z| ≤ a.z + kTiny * |t| ∧ qC a (V3.at' p d t) ≤ 0 ∧
      (|(V3.at' p d t).z| = |a.z + kTiny * t| ∨ qC a (V3.at' p d t) = 0) ∧
      ((a.r ≤ rad (sc a p) ∨ a.z ≤ |p.z|) → 0 ≤ t) := by
  have hh := kHalfTolerance_pos
  have he := kEpsilon_pos
  have ht := kTiny_pos
  rw [moved_eq hv] at h ⊢
  by_cases hl : Leaving a p d
  · rw [if_pos hl] at h; exact absurd h (lt_irrefl _)
  rw [if_neg hl] at h ⊢
  unfold Leaving at hl
  rw [not_or, not_and_or, not_and_or, not_le, not_le, not_le, not_or] at hl
  have hzlo : a.z ≤ |p.z| → 0 ≤ zlo a p d := by
    intro hz
    have h1 : p.z * d.z < 0 := by
      rcases hl.1 with h1 | h1
      · linarith
      · exact h1
    have e : sign d.z * p.z = -|p.z| := by
      unfold sign
      split
      · rename_i hd
        have : 0 < p.z := by by_contra hn; nlinarith
        rw [abs_of_pos this]; ring
      · rename_i hd
        have : p.z < 0 := by by_contra hn; nlinarith
        rw [abs_of_neg this]; ring
    unfold zlo
    apply div_nonneg _ (zden_pos d).le
    rw [neg_mul, e]; linarith
  have hzl : |(V3.at' p d (zlo a p d)).z| = |a.z + kTiny * zlo a p d| := by
    rw [← abs_sign_mul d.z, at_zlo, ← abs_neg]; congr 1; ring
  have hzl' : |(V3.at' p d (zlo a p d)).z| ≤ a.z + kTiny * |zlo a p d| := by
    rw [hzl, abs_le]
    have h3 := mul_le_mul_of_nonneg_left (le_abs_self (zlo a p d)) ht.le
    have h4 := mul_le_mul_of_nonneg_left (neg_abs_le (zlo a p d)) ht.le
    constructor <;> linarith [hv.z]
  by_cases hP : ParallelToZ (qA a d) d.z
  · rw [if_pos hP]
    have hA := par_unit hv hu hP hpar
    have hdr : distR a p < -kHalfTolerance := by
      rcases hl.2 with h1 | h1
      · exact h1
      · exact absurd hP h1.2
    have hrad := (distR_lt hv p).mp hdr
    refine ⟨zlo a p d, rfl, hzl', ?_, .inl hzl, ?_⟩
    · rw [ell_const hv hA, qC_le hv]; linarith
    · rintro (h1 | h1)
      · linarith
      · exact hzlo h1
  rw [if_neg hP] at h ⊢
  have hA : 0 < qA a d := by
    rcases hpar with h1 | h1
    · exact absurd (.inl (by linarith)) hP
    · linarith
  by_cases hD : qD a p d ≤ qA a d * qA a d * (2 * a.r * a.r * kEpsilon)
  · rw [if_pos hD] at h; exact absurd h (lt_irrefl _)
  rw [if_neg hD] at h ⊢
  have hD0 : 0 < qD a p d := by
    have := r_pos hv
    have : 0 ≤ qA a d * qA a d * (2 * a.r * a.r * kEpsilon) := by positivity
    linarith
  dsimp only at h ⊢
  rw [(roots_eq hA hD0).1, (roots_eq hA hD0).2] at h ⊢
  by_cases hc : min (zhi a p d) (hi a p d) - max (zlo a p d) (lo a p d) ≥ kHalfTolerance
  swap
  · rw [if_neg hc] at h; exact absurd h (lt_irrefl _)
  rw [if_pos hc]
  have m1 := min_le_left (zhi a p d) (hi a p d)
  have m2 := min_le_right (zhi a p d) (hi a p d)
  have m3 := le_max_left (zlo a p d) (lo a p d)
  have m4 := le_max_right (zlo a p d) (lo a p d)
  refine ⟨_, rfl, z_between m3 (by linarith), (in_iff_roots hA hD0.le _).mpr ⟨m4, by linarith⟩, ?_, ?_⟩
  · rcases max_choice (zlo a p d) (lo a p d) with h1 | h1
    · rw [h1]; exact .inl hzl
    · rw [h1]; exact .inr (at_lo hA hD0.le)
  · rintro (h1 | h1)
    · have hdr : ¬ distR a p < -kHalfTolerance := by
        rw [distR_lt hv]; linarith
      have hB : qB a p d < 0 := by
        rcases hl.2 with h2 | h2
        · exact absurd h2 hdr
        · exact not_le.mp h2.1
      have hC : 0 ≤ qC a p := by
        unfold qC
        have := pow_le_pow_left₀ (r_pos hv).le h1 2
        linarith
      have : 0 ≤ lo a p d := by
        unfold lo
        apply div_nonneg _ hA.le
        have : √(qD a p d) ≤ -qB a p d := by
          rw [sqrt_le_left (by linarith)]
          unfold qD
          have := mul_nonneg hA.le hC
          nlinarith
        linarith
      linarith
    · linarith [hzlo h1]

/-- If a ray reaches a point well within the tube then the result comes before it. -/
theorem moved_complete (hv : a.Valid) (hu : d.x ^ 2 + d.y ^ 2 + d.z ^ 2 = 1) (hpar : qA a d = 0 ∨ kEpsilon ≤ qA a d)
    (hr : a.r ≤ 1000000) {off T : ℝ} (hT : 0 ≤ T) (hT2 : T ≤ 10 ^ 20)
    (hz : |(V3.at' p d T).z| < a.z - kHalfTolerance) (hq : rad (sc a (V3.at' p d T)) < a.r - kHalfTolerance) :
    distanceToInMoved (of a) p d off < T + off := by
  have hh := kHalfTolerance_pos
  have he := kEpsilon_pos
  have ht := kTiny_pos
  have hzd := zden_pos d
  have hz1 : |d.z| ≤ 1 := by
    rw [← sq_le_one_iff_abs_le_one]
    linarith [sq_nonneg d.x, sq_nonneg d.y]
  have htt : kTiny * 10 ^ 20 ≤ kHalfTolerance / 4 := by unfold kTiny kHalfTolerance kTolerance; norm_num
  have hTt : kTiny * T ≤ kHalfTolerance / 4 := (mul_le_mul_of_nonneg_left hT2 ht.le).trans htt
  have ht1 : kTiny ≤ 1 / 2 := by unfold kTiny; norm_num
  rw [← abs_sign_mul d.z, sz_at, abs_lt] at hz
  -- entrance and exit of the slab
  have hzl : zlo a p d ≤ T - kHalfTolerance / 2 := by
    unfold zlo
    rw [div_le_iff₀ hzd]
    have : kHalfTolerance / 2 * (|d.z| + kTiny) ≤ kHalfTolerance := by
      have := mul_le_mul_of_nonneg_left (show |d.z| + kTiny ≤ 2 by linarith) (show 0 ≤ kHalfTolerance / 2 by linarith)
      linarith
    nlinarith [mul_nonneg hT ht.le]
  have hzh : T + kHalfTolerance / 2 ≤ zhi a p d := by
    unfold zhi
    rw [le_div_iff₀ hzd]
    have : kHalfTolerance / 2 * (|d.z| + kTiny) ≤ kHalfTolerance * (3 / 4) := by
      have := mul_le_mul_of_nonneg_left (show |d.z| + kTiny ≤ 3 / 2 by linarith) (show 0 ≤ kHalfTolerance / 2 by linarith)
      linarith
    nlinarith
  -- the ray is not leaving
  have hl : ¬ Leaving a p d := by
    rintro (⟨h1, h2⟩ | ⟨h1, h2⟩)
    · have h3 : |p.z| ≤ sign d.z * p.z ∨ d.z = 0 := by
        unfold sign
        rcases lt_trichotomy d.z 0 with h | h | h
        · left
          rw [if_pos h]
          have : p.z ≤ 0 := by by_contra hn; nlinarith
          rw [abs_of_nonpos this]; linarith
        · exact .inr h
        · left
          rw [if_neg (not_lt.mpr h.le)]
          have : 0 ≤ p.z := by by_contra hn; nlinarith
          rw [abs_of_nonneg this]; linarith
      rcases h3 with h3 | h3
      · have := mul_nonneg hT (abs_nonneg d.z)
        linarith
      · rw [h3, abs_zero, mul_zero, add_zero] at hz
        have : |sign 0 * p.z| < a.z - kHalfTolerance := abs_lt.mpr hz
        rw [abs_sign_mul] at this
        linarith
    · have h3 : a.r - kHalfTolerance ≤ rad (sc a p) := by
        by_contra hn
        exact absurd ((distR_lt hv p).mpr (not_le.mp hn)) (not_lt.mpr h1)
      have h4 : qC a p ≤ qC a (V3.at' p d T) := by
        rcases h2 with h2 | h2
        · rw [quad_eq]
          have := mul_nonneg (qA_nonneg (a := a) (d := d)) (sq_nonneg T)
          have := mul_nonneg h2 hT
          nlinarith
        · rw [ell_const hv (par_unit hv hu h2 hpar)]
      unfold qC at h4
      have h5 : rad (sc a p) ^ 2 ≤ rad (sc a (V3.at' p d T)) ^ 2 := by linarith
      have h6 := (pow_le_pow_iff_left₀ (rad_nonneg _) (rad_nonneg _) two_ne_zero).mp h5
      linarith
  rw [moved_eq hv, if_neg hl]
  by_cases hP : ParallelToZ (qA a d) d.z
  · rw [if_pos hP]; linarith
  rw [if_neg hP]
  have hA : 0 < qA a d := by
    rcases hpar with h1 | h1
    · exact absurd (.inl (by linarith)) hP
    · linarith
  have hA1 : qA a d ≤ 1 := by
    have := qA_le hv d
    linarith [sq_nonneg d.z]
  have hrp := r_pos hv
  -- the discriminant
  have hDq : qD a p d = qB a (V3.at' p d T) d ^ 2 - qA a d * qC a (V3.at' p d T) := by
    rw [quad_eq]
    have : qB a (V3.at' p d T) d = qB a p d + T * qA a d := by
      unfold qB qA
      rw [rad_sq, sc_at, V3.at_x, V3.at_y]; ring
    rw [this]; unfold qD; ring
  have hCq : a.r * kHalfTolerance ≤ -qC a (V3.at' p d T) := by
    unfold qC
    have h1 := pow_le_pow_left₀ (rad_nonneg _) hq.le 2
    have h2 := half_lt_r hv
    nlinarith
  have hDb : qA a d * qA a d * (2 * a.r * a.r * kEpsilon) < qD a p d := by
    have h1 : 2 * a.r * kEpsilon < kHalfTolerance := by
      have : 2 * a.r * kEpsilon ≤ 2 * 1000000 * kEpsilon := by nlinarith
      have h3 : 2 * 1000000 * kEpsilon < kHalfTolerance := by
        unfold kEpsilon kHalfTolerance kTolerance; norm_num
      linarith
    have h2 : a.r * (2 * a.r * kEpsilon) < a.r * kHalfTolerance := mul_lt_mul_of_pos_left h1 hrp
    have h3 : qA a d * (2 * a.r * a.r * kEpsilon) ≤ 2 * a.r * a.r * kEpsilon :=
      mul_le_of_le_one_left (by positivity) hA1
    have h4 : qA a d * (qA a d * (2 * a.r * a.r * kEpsilon)) < qA a d * -qC a (V3.at' p d T) :=
      mul_lt_mul_of_pos_left (by linarith) hA
    rw [hDq]
    nlinarith [sq_nonneg (qB a (V3.at' p d T) d)]
  rw [if_neg (not_le.mpr hDb)]
  have hD0 : 0 < qD a p d := lt_of_le_of_lt (by positivity) hDb
  dsimp only
  rw [(roots_eq hA hD0).1, (roots_eq hA hD0).2]
  -- the roots
  have near : ∀ s, |s - T| ≤ kHalfTolerance → qC a (V3.at' p d s) ≤ 0 := by
    intro s hs
    rw [qC_le hv]
    have h1 : V3.at' p d s = V3.at' (V3.at' p d T) d (s - T) := by
      apply V3.ext <;> simp only [V3.at_x, V3.at_y, V3.at_z] <;> ring
    have h2 := rad_sub_le (sc a (V3.at' p d s)) (sc a (V3.at' p d T))
    have h3 := dist_sc hv (V3.at' p d s) (V3.at' p d T)
    have h4 : V3.dist (V3.at' p d s) (V3.at' p d T) = |s - T| := by
      unfold V3.dist V3.dist2
      simp only [V3.at_x, V3.at_y, V3.at_z]
      rw [← sqrt_sq_eq_abs]
      congr 1
      linear_combination (s - T) ^ 2 * hu
    linarith
  have hlo : lo a p d ≤ T - kHalfTolerance / 2 :=
    ((in_iff_roots hA hD0.le _).mp (near (T - kHalfTolerance / 2)
      (by rw [abs_le]; constructor <;> linarith))).1
  have hhi : T + kHalfTolerance ≤ hi a p d :=
    ((in_iff_roots hA hD0.le _).mp (near (T + kHalfTolerance)
      (by rw [abs_le]; constructor <;> linarith))).2
  have k1 : max (zlo a p d) (lo a p d) ≤ T - kHalfTolerance / 2 := max_le hzl hlo
  have k2 : T + kHalfTolerance / 2 ≤ min (zhi a p d) (hi a p d) := le_min hzh (by linarith)
  have hc : min (zhi a p d) (hi a p d) - max (zlo a p d) (lo a p d) ≥ kHalfTolerance := by
    linarith
  rw [if_pos hc]
  linarith

/-! ## The move of far points -/

theorem rsph_eq (hv : a.Valid) : (of a).rsph = √(a.x * a.x + a.y * a.y + a.z * a.z) := by rw [of_eq hv]; rfl

theorem closed_mag (hv : a.Valid) {q : V3} (h : a.Closed q) : q.mag2 ≤ (of a).rsph ^ 2 := by
  have hx := x_pos hv
  have hy := y_pos hv
  rw [rsph_eq hv, sq_sqrt (by nlinarith [mul_self_nonneg a.x, mul_self_nonneg a.y, mul_self_nonneg a.z])]
  have h1 := h.r
  unfold Par.ell at h1
  have h2 : (q.x / a.x) ^ 2 ≤ 1 := by linarith [sq_nonneg (q.y / a.y)]
  have h3 : (q.y / a.y) ^ 2 ≤ 1 := by linarith [sq_nonneg (q.x / a.x)]
  rw [div_pow, div_le_one (by positivity)] at h2 h3
  have h4 : q.z ^ 2 ≤ a.z ^ 2 := by rw [← sq_abs q.z]; exact pow_le_pow_left₀ (abs_nonneg _) h.z 2
  unfold V3.mag2 V3.dot
  nlinarith

theorem at_at (p d : V3) (s t : ℝ) : V3.at' (V3.at' p d s) d t = V3.at' p d (s + t) := by
  apply V3.ext <;> simp only [V3.at_x, V3.at_y, V3.at_z] <;> ring

theorem mag_sub_le (hu : d.x ^ 2 + d.y ^ 2 + d.z ^ 2 = 1) (p : V3) (t : ℝ) : p.mag - |t| ≤ (V3.at' p d t).mag := by
  have hp : 0 ≤ p.mag2 := by unfold V3.mag2 V3.dot; nlinarith [mul_self_nonneg p.x, mul_self_nonneg p.y, mul_self_nonneg p.z]
  have hm : p.mag ^ 2 = p.mag2 := sq_sqrt hp
  have hm0 : 0 ≤ p.mag := sqrt_nonneg _
  have hc : (p.dot d) ^ 2 ≤ p.mag2 := by
    unfold V3.mag2 V3.dot
    have : (p.x * d.x + p.y * d.y + p.z * d.z) ^ 2 = (p.x * p.x + p.y * p.y + p.z * p.z) * (d.x ^ 2 + d.y ^ 2 + d.z ^ 2)
      - ((p.x * d.y - p.y * d.x) ^ 2 + (p.y * d.z - p.z * d.y) ^ 2 + (p.z * d.x - p.x * d.z) ^ 2) := by ring
    rw [this, hu]
    nlinarith [sq_nonneg (p.x * d.y - p.y * d.x), sq_nonneg (p.y * d.z - p.z * d.y), sq_nonneg (p.z * d.x - p.x * d.z)]
  have hd : |p.dot d| ≤ p.mag := abs_le_sqrt hc
  apply le_sqrt_of_sq_le
  have e : (V3.at' p d t).mag2 = p.mag2 + 2 * t * p.dot d + t ^ 2 := by
    unfold V3.mag2 V3.dot
    simp only [V3.at_x, V3.at_y, V3.at_z]
    linear_combination t ^ 2 * hu
  rw [e, ← hm]
  have h1 : -(|t| * p.mag) ≤ t * p.dot d := by
    have h2 : |t * p.dot d| ≤ |t| * p.mag := by rw [abs_mul]; exact mul_le_mul_of_nonneg_left hd (abs_nonneg _)
    linarith [neg_abs_le (t * p.dot d)]
  nlinarith [sq_abs t]

end EllTube
end VecGeom
