import Verif.Ellipsoid.Dist

/-!
# C105: the distance into cut ellipsoids
-/

namespace VecGeom
namespace Ellipsoid

open Real

variable {a : Par} {p d : V3}

/-- The entrance and the exit of the slab between the cuts, as the code computes them. -/
noncomputable def zlo (a : Par) (p d : V3) : ℝ := EllTube.zlo ⟨0, 0, dim a⟩ ⟨0, 0, cz a p⟩ ⟨0, 0, (sc a d).z⟩
noncomputable def zhi (a : Par) (p d : V3) : ℝ := EllTube.zhi ⟨0, 0, dim a⟩ ⟨0, 0, cz a p⟩ ⟨0, 0, (sc a d).z⟩

/-- The test for points that leave the solid. -/
def Leaving (a : Par) (p d : V3) : Prop :=
  (|cz a p| - dim a ≥ -kHalfTolerance ∧ cz a p * (sc a d).z ≥ 0) ∨ (distR a p ≥ -kHalfTolerance ∧ qB a p d ≥ 0)

open Classical in
theorem moved_eq (hv : a.Valid) (p d : V3) (off : ℝ) : distanceToInMoved (of a) p d off =
    if Leaving a p d ∨ qD a p d ≤ 2 * nrm (sc a p) ^ 2 * qA a d * kEpsilon ∨
      min (zhi a p d) ((-qB a p d + √|qD a p d|) / qA a d) - max (zlo a p d) ((-qB a p d - √|qD a p d|) / qA a d) ≤ kHalfTolerance
    then kInfLength else max (zlo a p d) ((-qB a p d - √|qD a p d|) / qA a d) + off := by
  have e5 : qB a p d * qB a p d - qA a d * (nrm (sc a p) ^ 2 - a.r * a.r) = qD a p d := by unfold qD qC; ring
  have e6 := EllTube.tz_eq ⟨0, 0, dim a⟩ ⟨0, 0, cz a p⟩ ⟨0, 0, (sc a d).z⟩
  unfold distanceToInMoved
  dsimp only
  rw [rr_eq hv, vv_eq hv, pv_eq hv, cz_def hv, dim_def hv, r_def hv, distR_eq hv, sz_eq hv, e5]
  dsimp only at e6
  rw [e6.1, e6.2]
  unfold Leaving zlo zhi
  congr 1

/-- What a finite result of the part behind the move is: the entrance through a cut or through the ellipsoid. -/
theorem moved_sound (hv : a.Valid) (hu : d.x ^ 2 + d.y ^ 2 + d.z ^ 2 = 1) {off : ℝ}
    (h : distanceToInMoved (of a) p d off < kInfLength) :
    ∃ t, distanceToInMoved (of a) p d off = t + off ∧ |cz a (V3.at' p d t)| ≤ dim a + kTiny * |t| ∧ qC a (V3.at' p d t) ≤ 0 ∧
      (|(|cz a (V3.at' p d t)| - dim a)| ≤ kTiny * |t| ∨ qC a (V3.at' p d t) = 0) ∧
      ((a.r ≤ nrm (sc a p) ∨ dim a ≤ |cz a p|) → 0 ≤ t) := by
  have hh := kHalfTolerance_pos
  have he := kEpsilon_pos
  have ht := kTiny_pos
  have hA := qA_pos hv hu
  rw [moved_eq hv] at h ⊢
  by_cases hcond : Leaving a p d ∨ qD a p d ≤ 2 * nrm (sc a p) ^ 2 * qA a d * kEpsilon ∨
      min (zhi a p d) ((-qB a p d + √|qD a p d|) / qA a d) - max (zlo a p d) ((-qB a p d - √|qD a p d|) / qA a d) ≤ kHalfTolerance
  · rw [if_pos hcond] at h; exact absurd h (lt_irrefl _)
  rw [if_neg hcond]
  rw [not_or, not_or, not_le, not_le] at hcond
  obtain ⟨hl, hD, hchord⟩ := hcond
  have hD0 : 0 < qD a p d := lt_of_le_of_lt (by positivity) hD
  rw [abs_of_pos hD0] at hchord ⊢
  change _ < min (zhi a p d) (hi a p d) - max (zlo a p d) (lo a p d) at hchord
  change ∃ t, max (zlo a p d) (lo a p d) + off = t + off ∧ _
  unfold Leaving at hl
  rw [not_or, not_and_or, not_and_or, not_le, not_le, not_le, not_le] at hl
  have hzlo : dim a ≤ |cz a p| → 0 ≤ zlo a p d := by
    intro hz
    have h1 : cz a p * (sc a d).z < 0 := by
      rcases hl.1 with h1 | h1
      · linarith
      · exact h1
    have e : sign (sc a d).z * cz a p = -|cz a p| := by
      unfold sign
      split
      · rename_i hd
        have : 0 < cz a p := by by_contra hn; nlinarith
        rw [abs_of_pos this]; ring
      · rename_i hd
        have : cz a p < 0 := by by_contra hn; nlinarith
        rw [abs_of_neg this]; ring
    unfold zlo EllTube.zlo
    dsimp only
    apply div_nonneg _ (EllTube.zden_pos ⟨0, 0, (sc a d).z⟩).le
    rw [neg_mul, e]; linarith
  have m1 := min_le_left (zhi a p d) (hi a p d)
  have m2 := min_le_right (zhi a p d) (hi a p d)
  have m3 := le_max_left (zlo a p d) (lo a p d)
  have m4 := le_max_right (zlo a p d) (lo a p d)
  have hbet : ∀ t, zlo a p d ≤ t → t ≤ zhi a p d → |cz a (V3.at' p d t)| ≤ dim a + kTiny * |t| := by
    intro t h1 h2
    rw [cz_at]
    exact EllTube.z_between (a := ⟨0, 0, dim a⟩) (p := ⟨0, 0, cz a p⟩) (d := ⟨0, 0, (sc a d).z⟩) h1 h2
  refine ⟨_, rfl, hbet _ m3 (by linarith), (in_iff_roots hA hD0.le _).mpr ⟨m4, by linarith⟩, ?_, ?_⟩
  · rcases max_choice (zlo a p d) (lo a p d) with h1 | h1
    · left
      rw [h1]
      have e := EllTube.at_zlo ⟨0, 0, dim a⟩ ⟨0, 0, cz a p⟩ ⟨0, 0, (sc a d).z⟩
      change sign (sc a d).z * (cz a p + zlo a p d * (sc a d).z) = -dim a - kTiny * zlo a p d at e
      have e2 : |cz a (V3.at' p d (zlo a p d))| = |dim a + kTiny * zlo a p d| := by
        rw [cz_at, ← EllTube.abs_sign_mul (sc a d).z, e, ← abs_neg]; congr 1; ring
      rw [e2]
      have h3 := abs_abs_sub_abs_le (dim a + kTiny * zlo a p d) (dim a)
      rw [abs_of_pos (dim_pos hv), add_sub_cancel_left, abs_mul, abs_of_pos ht] at h3
      exact h3
    · rw [h1]; exact .inr (at_lo hA hD0.le)
  · rintro (h1 | h1)
    · have hdr : ¬ distR a p < -kHalfTolerance := by
        rw [distR_lt hv]; linarith
      have hB : qB a p d < 0 := by
        rcases hl.2 with h2 | h2
        · exact absurd h2 hdr
        · exact h2
      have hC : 0 ≤ qC a p := by
        unfold qC
        have := pow_le_pow_left₀ (r_pos hv).le h1 2
        linarith
      have : 0 ≤ lo a p d := by
        unfold lo
        apply div_nonneg _ hA.le
        have : √(qD a p d) ≤ -qB a p d := by
          rw [sqrt_le_left (by linarith)]
          unfold qD
          have := mul_nonneg hA.le hC
          nlinarith
        linarith
      linarith
    · linarith [hzlo h1]

/-- If a ray reaches a point well within the solid then the result comes before it. -/
theorem moved_complete (hv : a.Valid) (hu : d.x ^ 2 + d.y ^ 2 + d.z ^ 2 = 1)
    (hr : 2 * nrm (sc a p) ^ 2 * kEpsilon < a.r * kHalfTolerance) {off T : ℝ} (hT : 0 ≤ T) (hT2 : T ≤ 10 ^ 20)
    (hz : |cz a (V3.at' p d T)| < dim a - kHalfTolerance) (hq : nrm (sc a (V3.at' p d T)) < a.r - kHalfTolerance) :
    distanceToInMoved (of a) p d off < T + off := by
  have hh := kHalfTolerance_pos
  have he := kEpsilon_pos
  have ht := kTiny_pos
  have hA := qA_pos hv hu
  have hA1 := qA_le hv hu
  have hzd := EllTube.zden_pos ⟨0, 0, (sc a d).z⟩
  dsimp only at hzd
  have hz1 : |(sc a d).z| ≤ 1 := by
    rw [← sq_le_one_iff_abs_le_one]
    have := nrm_sq (sc a d)
    unfold qA at hA1
    linarith [sq_nonneg (sc a d).x, sq_nonneg (sc a d).y]
  have htt : kTiny * 10 ^ 20 ≤ kHalfTolerance / 4 := by unfold kTiny kHalfTolerance kTolerance; norm_num
  have hTt : kTiny * T ≤ kHalfTolerance / 4 := (mul_le_mul_of_nonneg_left hT2 ht.le).trans htt
  have ht1 : kTiny ≤ 1 / 4 := by unfold kTiny; norm_num
  have hz' := hz
  rw [cz_at, ← EllTube.abs_sign_mul (sc a d).z, mul_add, mul_left_comm, EllTube.sign_mul_abs, abs_lt] at hz
  -- entrance and exit of the slab
  have hzl : zlo a p d ≤ T - kHalfTolerance * (3 / 5) := by
    unfold zlo EllTube.zlo
    dsimp only
    rw [div_le_iff₀ hzd]
    have : kHalfTolerance * (3 / 5) * (|(sc a d).z| + kTiny) ≤ kHalfTolerance := by
      have := mul_le_mul_of_nonneg_left (show |(sc a d).z| + kTiny ≤ 5 / 4 by linarith) (show 0 ≤ kHalfTolerance * (3 / 5) by linarith)
      linarith
    nlinarith [mul_nonneg hT ht.le]
  have hzh : T + kHalfTolerance * (3 / 5) ≤ zhi a p d := by
    unfold zhi EllTube.zhi
    dsimp only
    rw [le_div_iff₀ hzd]
    have : kHalfTolerance * (3 / 5) * (|(sc a d).z| + kTiny) ≤ kHalfTolerance * (3 / 4) := by
      have := mul_le_mul_of_nonneg_left (show |(sc a d).z| + kTiny ≤ 5 / 4 by linarith) (show 0 ≤ kHalfTolerance * (3 / 5) by linarith)
      linarith
    nlinarith
  -- the ray is not leaving
  have hl : ¬ Leaving a p d := by
    rintro (⟨h1, h2⟩ | ⟨h1, h2⟩)
    · have h3 : |cz a p| ≤ sign (sc a d).z * cz a p ∨ (sc a d).z = 0 := by
        unfold sign
        rcases lt_trichotomy (sc a d).z 0 with h | h | h
        · left
          rw [if_pos h]
          have : cz a p ≤ 0 := by by_contra hn; nlinarith
          rw [abs_of_nonpos this]; linarith
        · exact .inr h
        · left
          rw [if_neg (not_lt.mpr h.le)]
          have : 0 ≤ cz a p := by by_contra hn; nlinarith
          rw [abs_of_nonneg this]; linarith
      rcases h3 with h3 | h3
      · have := mul_nonneg hT (abs_nonneg (sc a d).z)
        linarith
      · rw [cz_at, h3, mul_zero, add_zero] at hz'
        linarith
    · have h3 : a.r - kHalfTolerance ≤ nrm (sc a p) := by
        by_contra hn
        exact absurd ((distR_lt hv p).mpr (not_le.mp hn)) (not_lt.mpr h1)
      have h4 : qC a p ≤ qC a (V3.at' p d T) := by
        rw [quad_eq]
        have := mul_nonneg hA.le (sq_nonneg T)
        have := mul_nonneg h2 hT
        nlinarith
      unfold qC at h4
      have h5 : nrm (sc a p) ^ 2 ≤ nrm (sc a (V3.at' p d T)) ^ 2 := by linarith
      have h6 := (pow_le_pow_iff_left₀ (nrm_nonneg _) (nrm_nonneg _) two_ne_zero).mp h5
      linarith
  -- the discriminant
  have hDq : qD a p d = qB a (V3.at' p d T) d ^ 2 - qA a d * qC a (V3.at' p d T) := by
    rw [quad_eq]
    have : qB a (V3.at' p d T) d = qB a p d + T * qA a d := by
      unfold qB qA
      rw [nrm_sq, sc_at, V3.at_x, V3.at_y, V3.at_z]; ring
    rw [this]; unfold qD; ring
  have hCq : a.r * kHalfTolerance ≤ -qC a (V3.at' p d T) := by
    unfold qC
    have h1 := pow_le_pow_left₀ (nrm_nonneg _) hq.le 2
    have h2 := half_lt_r hv
    nlinarith
  have hDb : 2 * nrm (sc a p) ^ 2 * qA a d * kEpsilon < qD a p d := by
    have h4 : qA a d * (2 * nrm (sc a p) ^ 2 * kEpsilon) < qA a d * -qC a (V3.at' p d T) :=
      mul_lt_mul_of_pos_left (by linarith) hA
    rw [hDq]
    nlinarith [sq_nonneg (qB a (V3.at' p d T) d)]
  have hD0 : 0 < qD a p d := lt_of_le_of_lt (by positivity) hDb
  -- the roots
  have near : ∀ s, |s - T| ≤ kHalfTolerance → qC a (V3.at' p d s) ≤ 0 := by
    intro s hs
    rw [qC_le hv]
    have h2 := nrm_sub_le (sc a (V3.at' p d s)) (sc a (V3.at' p d T))
    have h3 := dist_sc hv (V3.at' p d s) (V3.at' p d T)
    rw [dist_ray hu] at h3
    linarith
  have hlo : lo a p d ≤ T - kHalfTolerance * (3 / 5) :=
    ((in_iff_roots hA hD0.le _).mp (near (T - kHalfTolerance * (3 / 5)) (by rw [abs_le]; constructor <;> linarith))).1
  have hhi : T + kHalfTolerance * (3 / 5) ≤ hi a p d :=
    ((in_iff_roots hA hD0.le _).mp (near (T + kHalfTolerance * (3 / 5)) (by rw [abs_le]; constructor <;> linarith))).2
  have k1 : max (zlo a p d) (lo a p d) ≤ T - kHalfTolerance * (3 / 5) := max_le hzl hlo
  have k2 : T + kHalfTolerance * (3 / 5) ≤ min (zhi a p d) (hi a p d) := le_min hzh hhi
  rw [moved_eq hv, if_neg]
  · rw [abs_of_pos hD0]
    change max (zlo a p d) (lo a p d) + off < _
    linarith
  · rw [not_or, not_or, not_le, not_le]
    refine ⟨hl, hDb, ?_⟩
    rw [abs_of_pos hD0]
    change _ < min (zhi a p d) (hi a p d) - max (zlo a p d) (lo a p d)
    linarith

/-! ## The move of far points -/

theorem rsph_eq (hv : a.Valid) : (of a).rsph = a.big := by rw [of_eq hv]; rfl

theorem cz_slack (hv : a.Valid) {ε : ℝ} {q : V3} (h : |cz a q| ≤ dim a + ε) : a.lo - ε * (a.z / a.r) ≤ q.z ∧ q.z ≤ a.hi + ε * (a.z / a.r) :=
  (cut_iff hv q ε).mp h

theorem cz_near (hv : a.Valid) {ε : ℝ} {q : V3} (h : |(|cz a q| - dim a)| ≤ ε) :
    |q.z - a.lo| ≤ ε * (a.z / a.r) ∨ |q.z - a.hi| ≤ ε * (a.z / a.r) := by
  have hs := (ratio_z hv).1
  have hr := (r_pos hv).ne'
  have hz := (z_pos hv).ne'
  have key : ∀ u : ℝ, |u * (a.r / a.z)| ≤ ε → |u| ≤ ε * (a.z / a.r) := by
    intro u hu
    rw [abs_mul, abs_of_pos hs] at hu
    have := mul_le_mul_of_nonneg_right hu (show 0 ≤ a.z / a.r by have := r_pos hv; have := z_pos hv; positivity)
    rw [mul_assoc, show a.r / a.z * (a.z / a.r) = 1 by field_simp, mul_one] at this
    exact this
  have e1 : cz a q - dim a = (q.z - a.hi) * (a.r / a.z) := by unfold cz dim; rw [sc_z]; ring
  have e2 : -cz a q - dim a = -((q.z - a.lo) * (a.r / a.z)) := by unfold cz dim; rw [sc_z]; ring
  rcases le_or_gt 0 (cz a q) with h1 | h1
  · rw [abs_of_nonneg h1, e1] at h
    exact .inr (key _ h)
  · rw [abs_of_neg h1, e2, abs_neg] at h
    exact .inl (key _ h)

/-- C105: a finite distance ends on the surface of the solid, up to the guard `1e-30` against divisions by zero, and is not negative if the
start point is not in the interior of the solid. -/
theorem C105_sound (hv : a.Valid) (hu : d.x ^ 2 + d.y ^ 2 + d.z ^ 2 = 1) (h : distanceToIn (of a) p d < kInfLength) :
    let D := distanceToIn (of a) p d
    let q := V3.at' p d D
    let ε := kTiny * (|D| + p.mag) * (a.z / a.r)
    (a.lo - ε ≤ q.z ∧ q.z ≤ a.hi + ε ∧ a.ell q ≤ 1) ∧ (|q.z - a.lo| ≤ ε ∨ |q.z - a.hi| ≤ ε ∨ a.ell q = 1) ∧
      ((1 ≤ a.ell p ∨ p.z ≤ a.lo ∨ a.hi ≤ p.z) → 0 ≤ D) := by
  intro D q ε
  have ht := kTiny_pos
  have hm0 : 0 ≤ p.mag := sqrt_nonneg _
  have hzr : 0 ≤ a.z / a.r := by have := r_pos hv; have := z_pos hv; positivity
  have main : ∀ off, 0 ≤ off → off ≤ p.mag → D = distanceToInMoved (of a) (V3.at' p d off) d off →
      ((1 ≤ a.ell p ∨ p.z ≤ a.lo ∨ a.hi ≤ p.z) → (a.r ≤ nrm (sc a (V3.at' p d off)) ∨ dim a ≤ |cz a (V3.at' p d off)|)) →
      (a.lo - ε ≤ q.z ∧ q.z ≤ a.hi + ε ∧ a.ell q ≤ 1) ∧ (|q.z - a.lo| ≤ ε ∨ |q.z - a.hi| ≤ ε ∨ a.ell q = 1) ∧
      ((1 ≤ a.ell p ∨ p.z ≤ a.lo ∨ a.hi ≤ p.z) → 0 ≤ D) := by
    intro off h0 h1 hD hst
    have hlt : distanceToInMoved (of a) (V3.at' p d off) d off < kInfLength := by rw [← hD]; exact h
    obtain ⟨t, e, hz, hC, hon, hpos⟩ := moved_sound hv hu hlt
    have hDt : D = t + off := by rw [hD, e]
    have hq : V3.at' (V3.at' p d off) d t = q := by
      rw [EllTube.at_at, show off + t = D by rw [hDt]; ring]
    rw [hq] at hz hC hon
    have htl : kTiny * |t| ≤ kTiny * (|D| + p.mag) := by
      apply mul_le_mul_of_nonneg_left _ ht.le
      have : |t| ≤ |D| + off := by
        rw [show t = D - off by rw [hDt]; ring]
        have := abs_sub D off
        rw [abs_of_nonneg h0] at this
        exact this
      linarith
    have hs := cz_slack hv (hz.trans (add_le_add_right htl (dim a)))
    refine ⟨⟨hs.1, hs.2, (nrm_le_iff hv q).mp ((qC_le hv q).mp hC)⟩, ?_, ?_⟩
    · rcases hon with h2 | h2
      · rcases cz_near hv (h2.trans htl) with h3 | h3
        · exact .inl h3
        · exact .inr (.inl h3)
      · exact .inr (.inr ((qC_eq hv q).mp h2))
    · intro h2
      have := hpos (hst h2)
      linarith
  have hbig := big_pos hv
  by_cases hfar : p.mag2 > 1024 * (of a).rsph * (of a).rsph ∧ d.dot p < 0
  · rw [rsph_eq hv] at hfar
    have hm : 32 * a.big ≤ p.mag := by
      apply le_sqrt_of_sq_le
      linarith [hfar.1]
    apply main (p.mag - 2 * a.big) (by linarith) (by linarith)
    · show distanceToIn (of a) p d = _
      unfold distanceToIn
      rw [rsph_eq hv, if_pos hfar]
    · intro _
      by_contra hn
      rw [not_or, not_le, not_le] at hn
      have hcl := (closed_iff hv _).mpr ⟨hn.2.le, hn.1.le⟩
      have h1 := closed_far hv hcl.r
      have h2 := EllTube.mag_sub_le hu p (p.mag - 2 * a.big)
      rw [abs_of_nonneg (by linarith), ← nrm_mag (V3.at' p d (p.mag - 2 * a.big))] at h2
      linarith
  · apply main 0 (le_refl _) hm0
    · show distanceToIn (of a) p d = _
      unfold distanceToIn
      rw [if_neg hfar, at_zero]
    · rw [at_zero]
      intro h1
      by_contra hn
      rw [not_or, not_le, not_le] at hn
      have hcz := abs_lt.mp hn.2
      unfold cz dim at hcz
      rw [sc_z] at hcz
      have hs := (ratio_z hv).1
      have e1 := (nrm_le_iff hv p).mp hn.1.le
      have e2 : a.ell p ≠ 1 := fun h => hn.1.ne ((nrm_eq_iff hv p).mpr h)
      generalize a.r / a.z = s at *
      rcases h1 with h1 | h1 | h1
      · exact e2 (le_antisymm e1 h1)
      · have := mul_le_mul_of_nonneg_right h1 hs.le
        linarith [hcz.1]
      · have := mul_le_mul_of_nonneg_right h1 hs.le
        linarith [hcz.2]

theorem nrm_sc_le (hv : a.Valid) (p : V3) : nrm (sc a p) ≤ nrm p := by
  have h := dist_sc hv p ⟨0, 0, 0⟩
  have e : ∀ q : V3, V3.dist q ⟨0, 0, 0⟩ = nrm q := by intro q; simp [V3.dist, V3.dist2, nrm]
  have e2 : sc a ⟨0, 0, 0⟩ = ⟨0, 0, 0⟩ := by simp [sc]
  rw [e2, e, e] at h
  exact h

/-- C105: if the ray reaches a point that is strictly further than half a tolerance within the solid, in the scaled coordinates, then the distance
is finite and comes before that point.  In particular a start point well within the solid gets a negative distance.  Solids that are too large
for the cancellation guard of the discriminant (for a sphere a radius above about `1000`) and rays longer than `10^20` are left out. -/
theorem C105_hit_partial (hv : a.Valid) (hu : d.x ^ 2 + d.y ^ 2 + d.z ^ 2 = 1) (hr : 2048 * a.big ^ 2 * kEpsilon < a.r * kHalfTolerance)
    {T : ℝ} (hT : 0 ≤ T) (hT2 : T ≤ 10 ^ 20) (hq : a.ell (V3.at' p d T) < (1 - kHalfTolerance / a.r) ^ 2)
    (hlo : a.lo + kHalfTolerance * (a.z / a.r) < (V3.at' p d T).z) (hhi : (V3.at' p d T).z < a.hi - kHalfTolerance * (a.z / a.r)) :
    distanceToIn (of a) p d < T := by
  have hh := kHalfTolerance_pos
  have he := kEpsilon_pos
  have hrp := r_pos hv
  have hzp := z_pos hv
  have hbig := big_pos hv
  have hrad : nrm (sc a (V3.at' p d T)) < a.r - kHalfTolerance := by
    have hlt := half_lt_r hv
    rw [← pow_lt_pow_iff_left₀ (nrm_nonneg _) (by linarith) (by norm_num : (2 : ℕ) ≠ 0), nrm_sc hv]
    have e : (a.r - kHalfTolerance) ^ 2 = a.r ^ 2 * (1 - kHalfTolerance / a.r) ^ 2 := by field_simp
    rw [e]
    exact mul_lt_mul_of_pos_left hq (by positivity)
  have hz : |cz a (V3.at' p d T)| < dim a - kHalfTolerance := by
    have hs := (ratio_z hv).1
    have e : kHalfTolerance * (a.z / a.r) * (a.r / a.z) = kHalfTolerance := by field_simp
    have h1 := mul_lt_mul_of_pos_right hlo hs
    have h2 := mul_lt_mul_of_pos_right hhi hs
    rw [add_mul, e] at h1
    rw [sub_mul, e] at h2
    unfold cz dim
    rw [sc_z, abs_lt]
    constructor <;> linarith
  have hcl : nrm (V3.at' p d T) ≤ a.big := closed_far hv ((nrm_le_iff hv _).mp (by linarith))
  have hguard : ∀ q : V3, nrm q ≤ 32 * a.big → 2 * nrm (sc a q) ^ 2 * kEpsilon < a.r * kHalfTolerance := by
    intro q hq
    have h1 := pow_le_pow_left₀ (nrm_nonneg _) ((nrm_sc_le hv q).trans hq) 2
    have := mul_le_mul_of_nonneg_right h1 he.le
    nlinarith
  have h2 := EllTube.mag_sub_le hu p T
  rw [abs_of_nonneg hT, ← nrm_mag, ← nrm_mag] at h2
  unfold distanceToIn
  rw [rsph_eq hv]
  by_cases hfar : p.mag2 > 1024 * a.big * a.big ∧ d.dot p < 0
  · rw [if_pos hfar]
    have hm : 32 * a.big ≤ p.mag := by
      apply le_sqrt_of_sq_le
      linarith [hfar.1]
    have hTp : T ≤ p.mag + a.big := by
      have h3 := dist_ray hu p T 0
      have h4 := nrm_sub_le (V3.at' (V3.at' p d T) d (-T)) (V3.at' p d T)
      have h5 := EllTube.mag_sub_le hu ⟨0, 0, 0⟩ T
      have h6 := nrm_sub_le ⟨T * d.x, T * d.y, T * d.z⟩ (V3.at' p d T)
      have h7 : V3.dist ⟨T * d.x, T * d.y, T * d.z⟩ (V3.at' p d T) = p.mag := by
        rw [← nrm_mag]
        unfold V3.dist V3.dist2 nrm
        congr 1
        simp only [V3.at_x, V3.at_y, V3.at_z]; ring
      have h8 : nrm ⟨T * d.x, T * d.y, T * d.z⟩ = T := by
        unfold nrm
        dsimp only
        rw [show (T * d.x) ^ 2 + (T * d.y) ^ 2 + (T * d.z) ^ 2 = T ^ 2 by linear_combination T ^ 2 * hu, sqrt_sq hT]
      linarith
    set off := p.mag - 2 * a.big with hoff
    rw [nrm_mag p] at h2
    have e : V3.at' (V3.at' p d off) d (T - off) = V3.at' p d T := by rw [EllTube.at_at]; congr 1; ring
    have hpc : nrm (V3.at' p d off) ≤ 32 * a.big := by
      have h4 := nrm_sub_le (V3.at' p d off) (V3.at' p d T)
      rw [dist_ray hu] at h4
      have h5 : |off - T| ≤ 3 * a.big := by rw [abs_le]; constructor <;> linarith
      linarith
    have := moved_complete (p := V3.at' p d off) (off := off) hv hu (hguard _ hpc) (T := T - off) (by linarith) (by linarith)
      (by rw [e]; exact hz) (by rw [e]; exact hrad)
    linarith
  · rw [if_neg hfar]
    have hpc : nrm p ≤ 32 * a.big := by
      rw [not_and_or, not_lt, not_lt] at hfar
      have hm2 : nrm p ^ 2 = p.mag2 := by rw [nrm_sq]; unfold V3.mag2 V3.dot; ring
      rcases hfar with h3 | h3
      · apply le_of_sq_le_sq _ (by linarith)
        rw [hm2]; linarith
      · have h4 : nrm p ^ 2 ≤ nrm (V3.at' p d T) ^ 2 := by
          rw [nrm_sq, nrm_sq, V3.at_x, V3.at_y, V3.at_z]
          unfold V3.dot at h3
          have := mul_nonneg hT h3
          nlinarith [sq_nonneg (T * d.x), sq_nonneg (T * d.y), sq_nonneg (T * d.z)]
        have := le_of_sq_le_sq h4 (nrm_nonneg _)
        linarith
    have := moved_complete (p := p) (off := 0) hv hu (hguard p hpc) hT hT2 hz hrad
    linarith

example : distanceToIn (of bowl) ⟨0, 0, 10⟩ ⟨0, 0, -1⟩ < 10 ∧ 0 ≤ distanceToIn (of bowl) ⟨0, 0, 10⟩ ⟨0, 0, -1⟩ ∧
    distanceToIn (of bowl) ⟨0, 0, 0⟩ ⟨0, 0, -1⟩ < 0 := by
  have hb : bowl.big = 4 := by norm_num [Par.big, bowl]
  have hu : (0 : ℝ) ^ 2 + 0 ^ 2 + (-1) ^ 2 = 1 := by norm_num
  have hg : 2048 * bowl.big ^ 2 * kEpsilon < bowl.r * kHalfTolerance := by
    rw [hb, bowl_r]; norm_num [kEpsilon, kHalfTolerance, kTolerance]
  have h1 : distanceToIn (of bowl) ⟨0, 0, 10⟩ ⟨0, 0, -1⟩ < 10 := by
    apply C105_hit_partial bowl_valid hu hg (by norm_num) (by norm_num) <;> rw [bowl_r] <;>
      norm_num [V3.at_x, V3.at_y, V3.at_z, Par.ell, bowl, kHalfTolerance, kTolerance]
  have h2 : distanceToIn (of bowl) ⟨0, 0, 0⟩ ⟨0, 0, -1⟩ < 0 := by
    apply C105_hit_partial bowl_valid hu hg (by norm_num) (by norm_num) <;> rw [bowl_r] <;>
      norm_num [V3.at_x, V3.at_y, V3.at_z, Par.ell, bowl, kHalfTolerance, kTolerance]
  have hk := kInfLength_large
  refine ⟨h1, (C105_sound bowl_valid hu (by linarith)).2.2 (.inl ?_), h2⟩
  norm_num [Par.ell, bowl]

/-- A large ball. -/
noncomputable def ball : Par := ⟨10 ^ 5, 10 ^ 5, 10 ^ 5, -(10 ^ 5), 10 ^ 5⟩
theorem ball_valid : ball.Valid := by constructor <;> norm_num [ball, kTolerance]

/-- C105: the guard of the discriminant is relative to the distance of the start point: a ray that enters a ball of radius `1e5` and reaches the
depth of ten tolerances misses it. -/
theorem C105_hit_counterexample : distanceToIn (of ball) ⟨-(30 * 10 ^ 5), 10 ^ 5 - 1 / 10 ^ 8, 0⟩ ⟨1, 0, 0⟩ = kInfLength ∧
    inside (of ball) (V3.at' ⟨-(30 * 10 ^ 5), 10 ^ 5 - 1 / 10 ^ 8, 0⟩ ⟨1, 0, 0⟩ (30 * 10 ^ 5)) = .inside := by
  have hr : ball.r = 10 ^ 5 := by norm_num [Par.r, ball]
  have hb : ball.big = 10 ^ 5 := by norm_num [Par.big, ball]
  have hsc : ∀ p, sc ball p = p := by
    intro p
    have : ball.r / ball.x = 1 ∧ ball.r / ball.y = 1 ∧ ball.r / ball.z = 1 := by rw [hr]; norm_num [ball]
    unfold sc
    rw [this.1, this.2.1, this.2.2, mul_one, mul_one, mul_one]
  constructor
  · unfold distanceToIn
    rw [rsph_eq ball_valid, hb, if_neg, moved_eq ball_valid, if_pos]
    · right; left
      unfold qD qC qA qB
      rw [hsc, hsc, nrm_sq, nrm_sq, hr]
      norm_num [kEpsilon]
    · norm_num [V3.mag2, V3.dot]
  · rw [(C102_inside ball_valid _).2.2, hr]
    norm_num [V3.at_x, V3.at_y, V3.at_z, Par.ell, ball, kHalfTolerance, kTolerance]

end Ellipsoid
end VecGeom
