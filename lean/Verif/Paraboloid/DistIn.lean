import Verif.Paraboloid.Dist

/-!
# C137, continued: rays from beyond the lids, what a reported distance means
-/

namespace VecGeom
namespace Paraboloid

open Real

variable {a : Par} {s : State}

theorem d_sq {d : V3} (hd : d.mag2 = 1) : d.x ^ 2 + d.y ^ 2 + d.z ^ 2 = 1 := by
  simp only [V3.mag2, V3.dot] at hd
  linarith

theorem d_z {d : V3} (hd : d.mag2 = 1) : |d.z| ≤ 1 := by
  have := d_sq hd
  rw [abs_le_one_iff_mul_self_le_one]
  nlinarith [sq_nonneg d.x, sq_nonneg d.y]

theorem hit2_eq (p d : V3) (t : ℝ) : hit2 p d t = perp2 (V3.at' p d t) := by
  unfold hit2 perp2
  simp only [V3.at_x, V3.at_y]

/-- The distance to the axis does not change faster than the ray moves. -/
theorem hit2_near {p d : V3} (hd : d.mag2 = 1) {t u e r : ℝ} (h1 : |t - u| ≤ e) (hr : 0 ≤ r)
    (h : √(hit2 p d t) + e ≤ r) : hit2 p d u ≤ r ^ 2 := by
  rw [hit2_eq] at h ⊢
  have h2 := root_le (V3.at' p d t) (V3.at' p d u)
  have h3 : flat (V3.at' p d t) (V3.at' p d u) ≤ |t - u| := by
    unfold flat
    rw [← sqrt_sq_eq_abs]
    apply sqrt_le_sqrt
    simp only [V3.at_x, V3.at_y]
    have := d_sq hd
    have e : (p.x + t * d.x - (p.x + u * d.x)) ^ 2 + (p.y + t * d.y - (p.y + u * d.y)) ^ 2
      = (t - u) ^ 2 * (1 - d.z ^ 2) := by
      linear_combination (t - u) ^ 2 * this
    rw [e]
    nlinarith [mul_nonneg (sq_nonneg (t - u)) (sq_nonneg d.z)]
  rw [← sqrt_le_left hr]
  linarith

/-- How far the distance to a lid is off. -/
theorem lid_off {x D τ : ℝ} (hx : 0 < x) (hD : 0 < D) (h : τ = x / (D + kTiny)) :
    τ ≤ x / D ∧ x / D - τ ≤ x / D * (kTiny / D) := by
  have hk := kTiny_pos
  subst h
  have h1 : x / D - x / (D + kTiny) = x / D * (kTiny / (D + kTiny)) := by field_simp; ring
  have h2 : 0 ≤ x / D * (kTiny / (D + kTiny)) := by positivity
  refine ⟨by linarith, ?_⟩
  rw [h1]
  have : kTiny / (D + kTiny) ≤ kTiny / D := by gcongr; linarith
  exact mul_le_mul_of_nonneg_left this (by positivity)

/-- The beginning of `DistanceToIn`: a ray that meets the solid gets to the part about lids and side, or its result is at
most zero. -/
theorem start_in (hv : a.Valid) (g : Good s a) {p d : V3} (hd : d.mag2 = 1) {t : ℝ} (ht : 0 ≤ t)
    (hq : a.Closed (V3.at' p d t)) : distanceToIn s p d ≤ 0 ∨
      distanceToIn s p d = lidIn s (p + V3.smul (offsetIn s p d) d) d (offsetIn s p d) ∧
      ¬ (diff s (p + V3.smul (offsetIn s p d) d) > -kTolerance ∧ diff s (p + V3.smul (offsetIn s p d) d) < kTolerance ∧
        d.dot (flatNormal s (p + V3.smul (offsetIn s p d) d)) < 0) := by
  obtain ⟨h0, h1, -⟩ := offset_le hv g hd ht hq
  rw [at_split p d (offsetIn s p d)] at hq
  unfold distanceToIn
  dsimp only
  set o := offsetIn s p d with ho
  set w := p + V3.smul o d with hw
  rw [if_neg]
  · split
    · left; norm_num
    split
    · exact Or.inl (le_refl _)
    split
    · exact Or.inl (le_refl _)
    · rename_i h
      exact Or.inr ⟨rfl, h⟩
  · rintro ⟨h2, h3⟩
    have hlo : -a.dz ≤ w.z + (t - o) * d.z := hq.lo
    have hhi : w.z + (t - o) * d.z ≤ a.dz := hq.hi
    have ht' : 0 ≤ t - o := by linarith
    have hz := hv.dz
    rw [g.dz] at h2
    rcases lt_abs.mp h2 with h4 | h4
    · have : 0 ≤ d.z := by by_contra hc; nlinarith
      have := mul_nonneg ht' this
      linarith
    · have : d.z ≤ 0 := by by_contra hc; nlinarith
      have := mul_nonpos_of_nonneg_of_nonpos ht' this
      linarith

/-- C137: a ray from above that passes the top lid, away from its rim by the stated margin, is reported not later than at the
lid. -/
theorem C137_found_top (hv : a.Valid) (g : Good s a) (p d : V3) (hd : d.mag2 = 1) (hp : a.dz < p.z) (hz : d.z < 0)
    (hr : √(perp2 (V3.at' p d ((p.z - a.dz) / -d.z))) + (p.z - a.dz) / -d.z * (kTiny / -d.z) < a.rhi) :
    distanceToIn s p d ≤ (p.z - a.dz) / -d.z := by
  have hk := kTiny_pos
  have hdz := hv.dz
  have hrhi : 0 < a.rhi := by linarith [hv.rlo, hv.lt]
  set T := (p.z - a.dz) / -d.z with hT
  have hT0 : 0 < T := div_pos (by linarith) (by linarith)
  have hTz : T * d.z = a.dz - p.z := by rw [hT]; have := hz.ne; field_simp; ring
  have hM : 0 ≤ T * (kTiny / -d.z) := by
    have : 0 < kTiny / -d.z := div_pos hk (by linarith)
    positivity
  have hq : a.Closed (V3.at' p d T) := by
    have e : (V3.at' p d T).z = a.dz := by simp only [V3.at_z]; linarith
    refine ⟨by rw [e]; linarith, by rw [e], ?_⟩
    rw [e, r2_top hv, ← perp2_eq, ← sqrt_le_left hrhi.le]
    linarith
  obtain ⟨h0, h1, h2⟩ := offset_le hv g hd hT0.le hq
  rcases start_in hv g hd hT0.le hq with h | ⟨h, -⟩
  · linarith
  rw [h]
  set o := offsetIn s p d with ho
  have hlt : o < T := by
    rcases h2 with h2 | h2
    · linarith
    · have : 0 < rsph s := by
        unfold rsph; rw [g.dx, g.dz]
        have := le_max_right a.rhi a.dz
        linarith
      linarith
  set w := p + V3.smul o d with hw
  have hwz : w.z = p.z + o * d.z := rfl
  have hw1 : a.dz < w.z := by rw [hwz]; nlinarith
  rw [lidIn_top hv g hw1 hz]
  have eT : (w.z - a.dz) / -d.z = T - o := by
    rw [hwz, hT]; have := hz.ne; field_simp; ring
  have eτ : (a.dz - w.z) / nonZero d.z = (w.z - a.dz) / (-d.z + kTiny) := by
    rw [nonZero_of_neg hz, ← neg_div_neg_eq]; congr 1 <;> ring
  obtain ⟨h3, h4⟩ := lid_off (by linarith : 0 < w.z - a.dz) (by linarith : 0 < -d.z) eτ
  rw [eT] at h3 h4
  have h5 : (T - o) * (kTiny / -d.z) ≤ T * (kTiny / -d.z) := by
    apply mul_le_mul_of_nonneg_right (by linarith)
    exact (div_pos hk (by linarith)).le
  have h6 : hit2 w d ((a.dz - w.z) / nonZero d.z) < a.rhi ^ 2 := by
    have e : hit2 w d (T - o) = perp2 (V3.at' p d T) := by rw [hit2_eq, at_split p d o]
    have := hit2_near (r := √(perp2 (V3.at' p d T)) + T * (kTiny / -d.z)) hd (p := w)
      (abs_le.mpr ⟨by linarith, by linarith⟩ : |(T - o) - (a.dz - w.z) / nonZero d.z| ≤ T * (kTiny / -d.z))
      (by positivity) (by rw [e])
    refine lt_of_le_of_lt this (pow_lt_pow_left₀ hr (by positivity) (by norm_num))
  rw [if_pos h6]
  linarith

/-- C137: a ray from below that passes the bottom lid, away from its rim by the stated margin, is reported not later than at
the lid. -/
theorem C137_found_bottom (hv : a.Valid) (g : Good s a) (p d : V3) (hd : d.mag2 = 1) (hp : p.z < -a.dz) (hz : 0 < d.z)
    (hr : √(perp2 (V3.at' p d ((-a.dz - p.z) / d.z))) + (-a.dz - p.z) / d.z * (kTiny / d.z) ≤ a.rlo) :
    distanceToIn s p d ≤ (-a.dz - p.z) / d.z := by
  have hk := kTiny_pos
  have hdz := hv.dz
  have hrlo : 0 ≤ a.rlo := hv.rlo
  set T := (-a.dz - p.z) / d.z with hT
  have hT0 : 0 < T := div_pos (by linarith) (by linarith)
  have hTz : T * d.z = -a.dz - p.z := by rw [hT]; have := hz.ne'; field_simp
  have hM : 0 ≤ T * (kTiny / d.z) := by
    have : 0 < kTiny / d.z := div_pos hk (by linarith)
    positivity
  have hq : a.Closed (V3.at' p d T) := by
    have e : (V3.at' p d T).z = -a.dz := by simp only [V3.at_z]; linarith
    refine ⟨by rw [e], by rw [e]; linarith, ?_⟩
    rw [e, r2_bot, ← perp2_eq, ← sqrt_le_left hrlo]
    linarith
  obtain ⟨h0, h1, h2⟩ := offset_le hv g hd hT0.le hq
  rcases start_in hv g hd hT0.le hq with h | ⟨h, -⟩
  · linarith
  rw [h]
  set o := offsetIn s p d with ho
  have hlt : o < T := by
    rcases h2 with h2 | h2
    · linarith
    · have : 0 < rsph s := by
        unfold rsph; rw [g.dx, g.dz]
        have := le_max_right a.rhi a.dz
        linarith
      linarith
  set w := p + V3.smul o d with hw
  have hwz : w.z = p.z + o * d.z := rfl
  have hw1 : w.z < -a.dz := by rw [hwz]; nlinarith
  rw [lidIn_bot hv g hw1 hz]
  have eT : (-a.dz - w.z) / d.z = T - o := by
    rw [hwz, hT]; have := hz.ne'; field_simp; ring
  have eτ : (-a.dz - w.z) / nonZero d.z = (-a.dz - w.z) / (d.z + kTiny) := by rw [nonZero_of_nonneg hz.le]
  obtain ⟨h3, h4⟩ := lid_off (by linarith : 0 < -a.dz - w.z) hz eτ
  rw [eT] at h3 h4
  have h5 : (T - o) * (kTiny / d.z) ≤ T * (kTiny / d.z) := by
    apply mul_le_mul_of_nonneg_right (by linarith)
    exact (div_pos hk (by linarith)).le
  have h6 : hit2 w d ((-a.dz - w.z) / nonZero d.z) ≤ a.rlo ^ 2 := by
    have e : hit2 w d (T - o) = perp2 (V3.at' p d T) := by rw [hit2_eq, at_split p d o]
    exact hit2_near hd (p := w)
      (abs_le.mpr ⟨by linarith, by linarith⟩ : |(T - o) - (-a.dz - w.z) / nonZero d.z| ≤ T * (kTiny / d.z))
      hrlo (by rw [e]; exact hr)
  rw [if_pos h6]
  linarith

/-- The first root of a quadratic function that is positive before it. -/
theorem first_root {A b c T : ℝ} (hA : 0 ≤ A) (hT : 0 < T) (h0 : A * T ^ 2 - 2 * b * T + c = 0) (hc : 0 < c)
    (hb : A * T ≤ b) : T * (b + √(b * b - A * c)) = c := by
  have e : b * b - A * c = (b - A * T) ^ 2 := by linear_combination (-A) * h0
  rw [e, sqrt_sq (by linarith)]
  linear_combination -h0

/-- A quadratic function that is positive just before `U` and not at `U`. -/
theorem enters {A b c U δ : ℝ} (hA : 0 ≤ A) (hU0 : 0 < U) (hδ : 0 < δ) (hvU : A * U ^ 2 - 2 * b * U + c ≤ 0)
    (hpt2 : ∀ e, 0 < e → e < δ → e ≤ U → 0 < A * (U - e) ^ 2 - 2 * b * (U - e) + c) :
    A * U ≤ b ∧ A * U ^ 2 - 2 * b * U + c = 0 ∧ 0 < c ∧ 0 < b := by
  have hAb : A * U ≤ b := by
    by_contra hc
    rw [not_le] at hc
    set e := min (δ / 2) U with he
    have he0 : 0 < e := lt_min (by linarith) hU0
    have he1 : e ≤ δ / 2 := min_le_left _ _
    have he2 : e ≤ U := min_le_right _ _
    have hpos : 0 < A := by
      by_contra hA0
      have : A = 0 := le_antisymm (not_lt.mp hA0) hA
      subst this
      have := hpt2 e he0 (by linarith) he2
      nlinarith
    set e' := min e ((A * U - b) / A) with he'
    have h3 : 0 < (A * U - b) / A := div_pos (by linarith) hpos
    have he'0 : 0 < e' := lt_min he0 h3
    have h4 : e' ≤ e := min_le_left _ _
    have h5 : e' * A ≤ A * U - b := by rw [← le_div_iff₀ hpos]; exact min_le_right _ _
    have h6 := hpt2 e' he'0 (by linarith) (by linarith)
    nlinarith
  have hfU : A * U ^ 2 - 2 * b * U + c = 0 := by
    apply le_antisymm hvU
    by_contra hc
    rw [not_le] at hc
    set G := A * U ^ 2 - 2 * b * U + c with hG
    -- close enough to the entrance the function is still negative
    have hden : 0 < 2 * b + 1 := by nlinarith
    set e := min (min (δ / 2) U) (-G / (2 * b + 1)) with he
    have he0 : 0 < e := lt_min (lt_min (by linarith) hU0) (div_pos (by linarith) hden)
    have he1 : e ≤ δ / 2 := le_trans (min_le_left _ _) (min_le_left _ _)
    have he2 : e ≤ U := le_trans (min_le_left _ _) (min_le_right _ _)
    have he3 : e * (2 * b + 1) ≤ -G := by rw [← le_div_iff₀ hden]; exact min_le_right _ _
    have h6 := hpt2 e he0 (by linarith) he2
    have h7 : A * (U - e) ^ 2 - 2 * b * (U - e) + c = G + 2 * (b - A * U) * e + A * e ^ 2 := by rw [hG]; ring
    rw [h7] at h6
    have h8 : A * e ^ 2 ≤ A * U * e := by nlinarith [mul_nonneg hA he0.le]
    nlinarith [mul_nonneg (mul_nonneg hA hU0.le) he0.le]
  have hc : 0 < c := by
    by_contra hcn
    set e := min (δ / 2) U with he
    have he0 : 0 < e := lt_min (by linarith) hU0
    have he2 : e ≤ U := min_le_right _ _
    have he1 : e ≤ δ / 2 := min_le_left _ _
    have h6 := hpt2 e he0 (by linarith) he2
    have h7 : U * (A * (U - e) ^ 2 - 2 * b * (U - e) + c) = e * c - A * U * e * (U - e) := by
      linear_combination (U - e) * hfU
    have h8 : 0 < U * (A * (U - e) ^ 2 - 2 * b * (U - e) + c) := mul_pos hU0 h6
    have h9 := mul_nonneg (mul_nonneg (mul_nonneg hA hU0.le) he0.le) (by linarith : 0 ≤ U - e)
    have h10 : e * c ≤ 0 := mul_nonpos_of_nonneg_of_nonpos he0.le (not_lt.mp hcn)
    linarith
  have hb : 0 < b := by nlinarith [mul_nonneg hA (sq_nonneg U)]
  exact ⟨hAb, hfU, hc, hb⟩

set_option maxHeartbeats 1000000 in
/-- C137: a ray from outside that enters through the side, away from the lids by the stated margin, is reported not later than
it enters. -/
theorem C137_found_side (hv : a.Valid) (g : Good s a) (p d : V3) (hd : d.mag2 = 1) (T : ℝ) (hT : 0 < T)
    (hq : a.Closed (V3.at' p d T)) (hf : ∀ t, 0 ≤ t → t < T → ¬ a.Closed (V3.at' p d t))
    (hm : |p.z + T * d.z| + T ^ 2 * (1 / 10 ^ 21 / a.curv) < a.dz) : distanceToIn s p d ≤ T := by
  have hk := kTiny_pos
  have hcv := curv_pos hv
  obtain ⟨h0, h1, h2⟩ := offset_le hv g hd hT.le hq
  rcases start_in hv g hd hT.le hq with h | ⟨h, hside⟩
  · linarith
  rw [h]
  set o := offsetIn s p d with ho
  have hlt : o < T := by
    rcases h2 with h2 | h2
    · linarith
    · have : 0 < rsph s := by
        unfold rsph; rw [g.dx, g.dz]
        have := le_max_right a.rhi a.dz
        linarith [hv.dz]
      linarith
  have hq' := hq
  rw [at_split p d o] at hq'
  have hf' : ∀ t, 0 ≤ t → t < T - o → ¬ a.Closed (V3.at' (p + V3.smul o d) d t) := by
    intro t ht1 ht2 hc
    apply hf (t + o) (by linarith) (by linarith)
    rw [at_split p d o, add_sub_cancel_right]
    exact hc
  have hzz : p.z + T * d.z = (p + V3.smul o d).z + (T - o) * d.z := by
    have : (p + V3.smul o d).z = p.z + o * d.z := rfl
    rw [this]; ring
  set w := p + V3.smul o d with hw
  set U := T - o with hU
  have hU0 : 0 < U := by linarith
  rw [hzz] at hm
  have hm0 : 0 ≤ T ^ 2 * (1 / 10 ^ 21 / a.curv) := by positivity
  have hval : ∀ t, value s (V3.at' w d t) = qa s d * t ^ 2 - 2 * qb s w d * t + qc s w := fun t => value_at w d t
  have hA := qa_nonneg hv g d
  -- just before the entrance the ray is between the lids and outside the side
  have hbefore : ∃ δ, 0 < δ ∧ ∀ t, 0 ≤ t → U - δ < t → t < U → 0 < value s (V3.at' w d t) := by
    refine ⟨a.dz - |w.z + U * d.z|, by linarith, ?_⟩
    intro t ht1 ht2 ht3
    by_contra hc
    apply hf' t ht1 ht3
    rw [closed_iff]
    refine ⟨?_, (value_closed hv g _).mp (not_lt.mp hc)⟩
    have e : (V3.at' w d t).z = (w.z + U * d.z) + (t - U) * d.z := by simp only [V3.at_z]; ring
    rw [e]
    have h3 := abs_add_le (w.z + U * d.z) ((t - U) * d.z)
    have h4 : |(t - U) * d.z| ≤ |t - U| := by
      rw [abs_mul]
      exact mul_le_of_le_one_right (abs_nonneg _) (d_z hd)
    rw [abs_of_neg (by linarith : t - U < 0)] at h4
    linarith
  obtain ⟨δ, hδ, hδ2⟩ := hbefore
  have hvU : value s (V3.at' w d U) ≤ 0 := (value_closed hv g _).mpr ((closed_iff _).mp hq').2
  rw [hval] at hvU
  have hpt : ∀ t, 0 ≤ t → U - δ < t → t < U →
      0 < qa s d * t ^ 2 - 2 * qb s w d * t + qc s w := fun t h1 h2 h3 => by rw [← hval]; exact hδ2 t h1 h2 h3
  have hval' := hval U
  generalize hA' : qa s d = A at *
  generalize hb' : qb s w d = b at *
  generalize hc' : qc s w = c at *
  -- a time just before
  have hpt2 : ∀ e, 0 < e → e < δ → e ≤ U → 0 < A * (U - e) ^ 2 - 2 * b * (U - e) + c :=
    fun e h1 h2 h3 => hpt _ (by linarith) (by linarith) (by linarith)
  obtain ⟨hAb, hfU, hc, hb⟩ := enters hA hU0 hδ hvU hpt2
  have hroot := first_root hA hU0 hfU hc hAb
  have hD : 0 ≤ b * b - A * c := by
    have e : b * b - A * c = (b - A * U) ^ 2 := by linear_combination (-A) * hfU
    rw [e]; positivity
  -- the point is not close to the side
  have hcbig : a.curv * (1 / 10 ^ 9) ≤ c := by
    have h3 : c = a.curv * diff s w := by rw [← hc', qc_eq, value_eq hv g, diff_eq hv g]
    rw [h3]
    apply mul_le_mul_of_nonneg_left _ hcv.le
    by_contra hcn
    apply hside
    rw [not_le] at hcn
    have hdp : 0 < diff s w := by
      by_contra hdn
      have := mul_nonpos_of_nonneg_of_nonpos hcv.le (not_lt.mp hdn)
      linarith
    refine ⟨by linarith [kTolerance_pos], by unfold kTolerance; linarith, ?_⟩
    have h4 := dot_flat hv g w d
    rw [hb'] at h4
    by_contra h5
    have := mul_nonneg hcv.le (not_lt.mp h5)
    linarith
  set S := √(b * b - A * c) with hS
  have hS0 : 0 ≤ S := sqrt_nonneg _
  have hn : nonZero (b + S) = b + S + kTiny := nonZero_of_nonneg (by linarith)
  have hτ : c / nonZero (b + S) ≤ U := by
    rw [hn, div_le_iff₀ (by linarith)]
    nlinarith [mul_pos hU0 hk]
  have hτ0 : 0 < c / nonZero (b + S) := by rw [hn]; exact div_pos hc (by linarith)
  have hτ1 : U - c / nonZero (b + S) ≤ T ^ 2 * (1 / 10 ^ 21 / a.curv) := by
    have h3 : (U - c / nonZero (b + S)) * (b + S + kTiny) = U * kTiny := by
      rw [hn, sub_mul, div_mul_cancel₀ _ (by linarith : b + S + kTiny ≠ 0)]
      linear_combination hroot
    have h4 : U - c / nonZero (b + S) ≤ U * kTiny / (b + S) := by
      rw [le_div_iff₀ (by linarith)]
      nlinarith
    have h5 : U * kTiny / (b + S) = U ^ 2 * kTiny / c := by
      rw [← hroot]
      have : b + S ≠ 0 := by linarith
      field_simp
    rw [h5] at h4
    refine le_trans h4 ?_
    rw [div_le_iff₀ hc]
    have h6 : T ^ 2 * (1 / 10 ^ 21 / a.curv) * (a.curv * (1 / 10 ^ 9)) = T ^ 2 * kTiny := by
      unfold kTiny
      field_simp
    have h7 : T ^ 2 * (1 / 10 ^ 21 / a.curv) * (a.curv * (1 / 10 ^ 9)) ≤ T ^ 2 * (1 / 10 ^ 21 / a.curv) * c :=
      mul_le_mul_of_nonneg_left hcbig hm0
    have h8 : U ^ 2 ≤ T ^ 2 := pow_le_pow_left₀ hU0.le (by linarith) 2
    nlinarith
  have side : ∀ e, sideIn s w d o e ≤ T := by
    intro e
    unfold sideIn
    dsimp only
    have hdisc : disc s w d = b * b - A * c := by unfold disc; rw [hA', hb', hc']
    rw [hdisc, hb', hc', hA', g.dz, g.rhi2, if_pos, if_neg (not_lt.mpr hD), if_pos hb, if_pos]
    · linarith
    · refine ⟨?_, hτ0⟩
      have e : w.z + c / nonZero (b + S) * d.z = (w.z + U * d.z) + (c / nonZero (b + S) - U) * d.z := by ring
      rw [e]
      have h3 := abs_add_le (w.z + U * d.z) ((c / nonZero (b + S) - U) * d.z)
      have h4 : |(c / nonZero (b + S) - U) * d.z| ≤ |c / nonZero (b + S) - U| := by
        rw [abs_mul]
        exact mul_le_of_le_one_right (abs_nonneg _) (d_z hd)
      rw [abs_of_nonpos (by linarith : c / nonZero (b + S) - U ≤ 0)] at h4
      linarith
    · rintro ⟨h3, h4⟩
      have h5 : c = a.curv * (perp2 w - a.r2 w.z) := by rw [← hc', qc_eq, value_eq hv g]
      have h6 := r2_mono hv h3.le
      rw [r2_top hv] at h6
      have := mul_nonpos_of_nonneg_of_nonpos hcv.le (by linarith : perp2 w - a.r2 w.z ≤ 0)
      linarith
  rcases lidIn_le hv g (o := o) hU0.le hq' with h3 | h3
  · -- the only way to report nothing is through the side
    by_cases hz : |w.z| < a.dz
    · rw [lidIn_mid (by rw [g.dz]; exact hz)]
      exact side _
    · by_cases hbo : w.z < -a.dz ∧ d.z > 0
      · rw [lidIn_bot hv g hbo.1 hbo.2] at h3 ⊢
        by_cases h4 : hit2 w d ((-a.dz - w.z) / nonZero d.z) ≤ a.rlo ^ 2
        · rw [if_pos h4]
          have h5 : (-a.dz - w.z) / nonZero d.z ≤ U := by
            rw [div_le_iff₀ (nonZero_pos hbo.2.le), nonZero_of_nonneg hbo.2.le]
            have : -a.dz ≤ w.z + U * d.z := hq'.lo
            nlinarith [mul_pos hU0 hk]
          linarith
        · rw [if_neg h4]; exact side _
      · by_cases hto : w.z > a.dz ∧ d.z < 0
        · rw [lidIn_top hv g hto.1 hto.2]
          by_cases h4 : hit2 w d ((a.dz - w.z) / nonZero d.z) < a.rhi ^ 2
          · rw [if_pos h4]
            have h5 : (a.dz - w.z) / nonZero d.z ≤ U := by
              rw [div_le_iff_of_neg (nonZero_neg hto.2), nonZero_of_neg hto.2]
              have : w.z + U * d.z ≤ a.dz := hq'.hi
              nlinarith [mul_pos hU0 hk]
            linarith
          · rw [if_neg h4]; exact side _
        · rw [lidIn_none (by rw [g.dz]; exact hz) (by rw [g.dz]; exact hbo) (by rw [g.dz]; exact hto)]
          exact side _
  · linarith

/-! ## What a reported distance means -/

theorem offset_nonneg (hv : a.Valid) (g : Good s a) (p d : V3) : 0 ≤ offsetIn s p d := by
  unfold offsetIn
  split
  · rename_i h
    have hz := hv.dz
    have hR : 0 < rsph s := by
      unfold rsph
      rw [g.dx, g.dz]
      have := le_max_right a.rhi a.dz
      linarith
    have h0 : 0 ≤ p.mag := sqrt_nonneg _
    have hps : p.mag ^ 2 = p.mag2 := sq_sqrt (V3.mag2_nonneg p)
    have h1 := h.1
    rw [← hps] at h1
    have : 2 * rsph s ≤ p.mag := by
      apply le_of_sq_le_sq _ h0
      nlinarith
    linarith
  · exact le_refl _

/-- C137: a positive distance that is reported leads to a point on a lid, up to the error of the guarded division along the
axis, or to a point between the lids whose height over the side is not more than that error. -/
theorem C137_hit (hv : a.Valid) (g : Good s a) (p d : V3) (hpos : 0 < distanceToIn s p d)
    (hinf : distanceToIn s p d ≠ kInfLength) :
    (|p.z + distanceToIn s p d * d.z - a.dz| ≤ distanceToIn s p d * kTiny ∧
      perp2 (V3.at' p d (distanceToIn s p d)) ≤ a.rhi ^ 2) ∨
    (|p.z + distanceToIn s p d * d.z + a.dz| ≤ distanceToIn s p d * kTiny ∧
      perp2 (V3.at' p d (distanceToIn s p d)) ≤ a.rlo ^ 2) ∨
    (|p.z + distanceToIn s p d * d.z| ≤ a.dz ∧
      0 ≤ a.curv * (perp2 (V3.at' p d (distanceToIn s p d)) - a.r2 (p.z + distanceToIn s p d * d.z)) ∧
      a.curv * (perp2 (V3.at' p d (distanceToIn s p d)) - a.r2 (p.z + distanceToIn s p d * d.z)) ≤
        distanceToIn s p d * kTiny) := by
  have hk := kTiny_pos
  have hdz := hv.dz
  have ho := offset_nonneg hv g p d
  have hA := qa_nonneg hv g d
  have start : distanceToIn s p d = lidIn s (p + V3.smul (offsetIn s p d) d) d (offsetIn s p d) := by
    revert hpos hinf
    unfold distanceToIn
    dsimp only
    split
    · intro _ h; exact absurd rfl h
    split
    · intro h; norm_num at h
    split
    · intro h; exact absurd h (lt_irrefl _)
    split
    · intro h; exact absurd h (lt_irrefl _)
    · intro _ _; rfl
  rw [start] at hpos hinf ⊢
  set o := offsetIn s p d with hod
  set w := p + V3.smul o d with hw
  have hwz : w.z = p.z + o * d.z := rfl
  have hat : ∀ τ, V3.at' p d (τ + o) = V3.at' w d τ := by
    intro τ; rw [at_split p d o, add_sub_cancel_right]
  have hzt : ∀ τ, p.z + (τ + o) * d.z = w.z + τ * d.z := by intro τ; rw [hwz]; ring
  have side : ∀ e, sideIn s w d o e ≠ e → 
      (|p.z + sideIn s w d o e * d.z| ≤ a.dz ∧
      0 ≤ a.curv * (perp2 (V3.at' p d (sideIn s w d o e)) - a.r2 (p.z + sideIn s w d o e * d.z)) ∧
      a.curv * (perp2 (V3.at' p d (sideIn s w d o e)) - a.r2 (p.z + sideIn s w d o e * d.z)) ≤
        sideIn s w d o e * kTiny) := by
    intro e he
    rcases sideIn_cases hv g w d o e with h | ⟨-, h1, h2, h3, h4, h5⟩
    · exact absurd h he
    rw [h5, hat, hzt]
    set τ := qc s w / nonZero (qb s w d + √(disc s w d)) with hτ
    have hS := sqrt_nonneg (disc s w d)
    have hS2 := sq_sqrt h1
    have hn : nonZero (qb s w d + √(disc s w d)) = qb s w d + √(disc s w d) + kTiny := nonZero_of_nonneg (by linarith)
    have hτ0 : 0 < τ := by rw [hτ, hn]; exact div_pos h3 (by linarith)
    have hc : τ * (qb s w d + √(disc s w d) + kTiny) = qc s w := by
      rw [hτ, hn]; exact div_mul_cancel₀ _ (by linarith)
    have ev : a.curv * (perp2 (V3.at' w d τ) - a.r2 (w.z + τ * d.z)) =
        qa s d * τ ^ 2 - 2 * qb s w d * τ + qc s w := by
      rw [← value_at, value_eq hv g]
      rfl
    rw [ev]
    have hD : disc s w d = qb s w d * qb s w d - qa s d * qc s w := rfl
    generalize qa s d = A at *
    generalize qb s w d = b at *
    generalize qc s w = c at *
    generalize √(disc s w d) = S at *
    rw [hD] at hS2
    -- the computed distance is not beyond the first root
    have h6 : A * τ ≤ b - S := by
      have h7 : (b - S) * (b + S) = A * c := by linear_combination -hS2
      have h8 : A * τ * (b + S + kTiny) = A * c := by rw [← hc]; ring
      have h9 : 0 ≤ b - S := by
        by_contra hcn
        have := mul_nonneg hA h3.le
        have h10 : (b - S) * (b + S) < 0 := mul_neg_of_neg_of_pos (not_le.mp hcn) (by linarith)
        linarith
      have h10 : A * τ * (b + S + kTiny) ≤ (b - S) * (b + S + kTiny) := by
        rw [h8, ← h7]
        nlinarith [mul_nonneg h9 hk.le]
      exact le_of_mul_le_mul_right h10 (by linarith)
    have e1 : A * τ ^ 2 - 2 * b * τ + c = τ * (A * τ - b + S + kTiny) := by rw [← hc]; ring
    refine ⟨h4, ?_, ?_⟩
    · have e2 : A * τ ^ 2 - 2 * b * τ + c = τ * (A * τ - b + S + kTiny) := e1
      rw [e1]
      apply mul_nonneg hτ0.le
      -- the function is positive before its first root
      by_contra hcn
      rw [not_le] at hcn
      have h7 : S < b - A * τ := by linarith
      have h8 : S ^ 2 < (b - A * τ) ^ 2 := pow_lt_pow_left₀ h7 hS (by norm_num)
      rw [hS2] at h8
      have h9 : 0 < A * (A * τ ^ 2 - 2 * b * τ + c) := by nlinarith
      have h10 : A * (A * τ ^ 2 - 2 * b * τ + c) ≤ 0 := by
        apply mul_nonpos_of_nonneg_of_nonpos hA
        rw [e1]
        exact mul_nonpos_of_nonneg_of_nonpos hτ0.le hcn.le
      linarith
    · rw [e1]
      have h7 : τ * (A * τ - b + S + kTiny) ≤ τ * kTiny := mul_le_mul_of_nonneg_left (by linarith) hτ0.le
      nlinarith [mul_nonneg ho hk.le]
  by_cases hz : |w.z| < a.dz
  · rw [lidIn_mid (by rw [g.dz]; exact hz)] at hpos hinf ⊢
    exact Or.inr (Or.inr (side _ hinf))
  · by_cases hbo : w.z < -a.dz ∧ d.z > 0
    · rw [lidIn_bot hv g hbo.1 hbo.2] at hpos hinf ⊢
      by_cases h4 : hit2 w d ((-a.dz - w.z) / nonZero d.z) ≤ a.rlo ^ 2
      · rw [if_pos h4, hat, hzt]
        right; left
        rw [hit2_eq] at h4
        refine ⟨?_, h4⟩
        have hn := nonZero_of_nonneg hbo.2.le
        have h5 : 0 < (-a.dz - w.z) / nonZero d.z := div_pos (by linarith [hbo.1]) (nonZero_pos hbo.2.le)
        have h6 : (-a.dz - w.z) / nonZero d.z * (d.z + kTiny) = -a.dz - w.z := by
          rw [hn]; exact div_mul_cancel₀ _ (by linarith [hbo.2])
        rw [abs_le]
        constructor <;> nlinarith [mul_nonneg ho hk.le, mul_pos h5 hk]
      · rw [if_neg h4] at hpos hinf ⊢
        exact Or.inr (Or.inr (side _ hinf))
    · by_cases hto : w.z > a.dz ∧ d.z < 0
      · rw [lidIn_top hv g hto.1 hto.2] at hpos hinf ⊢
        have hn := nonZero_of_neg hto.2
        have h5 : 0 < (a.dz - w.z) / nonZero d.z := div_pos_of_neg_of_neg (by linarith [hto.1]) (nonZero_neg hto.2)
        have h6 : (a.dz - w.z) / nonZero d.z * (d.z - kTiny) = a.dz - w.z := by
          rw [hn]; exact div_mul_cancel₀ _ (by linarith [hto.2])
        have lid : hit2 w d ((a.dz - w.z) / nonZero d.z) ≤ a.rhi ^ 2 →
            |p.z + ((a.dz - w.z) / nonZero d.z + o) * d.z - a.dz| ≤ ((a.dz - w.z) / nonZero d.z + o) * kTiny ∧
            perp2 (V3.at' p d ((a.dz - w.z) / nonZero d.z + o)) ≤ a.rhi ^ 2 := by
          intro h4
          rw [hit2_eq] at h4
          rw [hat, hzt]
          refine ⟨?_, h4⟩
          rw [abs_le]
          constructor <;> nlinarith [mul_nonneg ho hk.le, mul_pos h5 hk]
        by_cases h4 : hit2 w d ((a.dz - w.z) / nonZero d.z) < a.rhi ^ 2
        · rw [if_pos h4]
          exact Or.inl (lid h4.le)
        · rw [if_neg h4] at hpos hinf ⊢
          by_cases h7 : hit2 w d ((a.dz - w.z) / nonZero d.z) ≤ a.rhi ^ 2
          · rw [if_pos h7] at hpos hinf ⊢
            by_cases h8 : sideIn s w d o ((a.dz - w.z) / nonZero d.z + o) = (a.dz - w.z) / nonZero d.z + o
            · rw [h8]
              exact Or.inl (lid h7)
            · exact Or.inr (Or.inr (side _ h8))
          · rw [if_neg h7] at hpos hinf ⊢
            exact Or.inr (Or.inr (side _ hinf))
      · rw [lidIn_none (by rw [g.dz]; exact hz) (by rw [g.dz]; exact hbo) (by rw [g.dz]; exact hto)] at hpos hinf ⊢
        exact Or.inr (Or.inr (side _ hinf))

/-- C137: a point that lies, within the tolerance, on the continuation of the side beyond the lid gets the distance zero if it
moves inwards, although the solid is more than four units away. -/
theorem C137_extension_counterexample : distanceToIn cupS ⟨3, 0, 13 / 3⟩ ⟨-3 / 5, 0, -4 / 5⟩ = 0 ∧
    ∀ t, t < 25 / 6 → ¬ cup.Closed (V3.at' ⟨3, 0, 13 / 3⟩ ⟨-3 / 5, 0, -4 / 5⟩ t) := by
  have hm : rsph cupS = 3 := by
    unfold rsph
    rw [cup_good.dx, cup_good.dz]
    norm_num [cup]
  have ho : offsetIn cupS ⟨3, 0, 13 / 3⟩ ⟨-3 / 5, 0, -4 / 5⟩ = 0 := by
    unfold offsetIn
    rw [if_neg]
    rintro ⟨h, -⟩
    rw [hm] at h
    norm_num [V3.mag2, V3.dot] at h
  constructor
  · unfold distanceToIn
    dsimp only
    rw [ho]
    have e : (⟨3, 0, 13 / 3⟩ : V3) + V3.smul 0 ⟨-3 / 5, 0, -4 / 5⟩ = ⟨3, 0, 13 / 3⟩ := by ext <;> simp
    rw [e, cup_good.dz, diff_eq cup_valid cup_good, perp2_eq]
    dsimp only
    rw [cup_r2]
    rw [if_neg (by norm_num [cup]), if_neg (by norm_num [cup, kTolerance])]
    split
    · rfl
    · rw [if_pos]
      refine ⟨by norm_num [kTolerance], by norm_num [kTolerance], ?_⟩
      unfold flatNormal V3.dot
      dsimp only
      rw [cup_good.k1, cup_curv]
      norm_num
  · intro t ht hc
    have := hc.hi
    simp only [V3.at_z] at this
    norm_num [cup] at this
    linarith

/-- Not vacuous: a ray along the axis from above and from below. -/
example : distanceToIn cupS ⟨0, 0, 3⟩ ⟨0, 0, -1⟩ ≤ 2 := by
  have h := C137_found_top cup_valid cup_good ⟨0, 0, 3⟩ ⟨0, 0, -1⟩ (by norm_num [V3.mag2, V3.dot]) (by norm_num [cup])
    (by norm_num) (by norm_num [cup, perp2, kTiny])
  norm_num [cup] at h
  exact h

example : distanceToIn cupS ⟨0, 0, -3⟩ ⟨0, 0, 1⟩ ≤ 2 := by
  have h := C137_found_bottom cup_valid cup_good ⟨0, 0, -3⟩ ⟨0, 0, 1⟩ (by norm_num [V3.mag2, V3.dot]) (by norm_num [cup])
    (by norm_num) (by norm_num [cup, perp2, kTiny])
  norm_num [cup] at h
  exact h

/-- Not vacuous: a ray from above the top lid that enters through the side. -/
example : distanceToIn cupS ⟨9 / 2, 0, 23 / 6⟩ ⟨-3 / 5, 0, -4 / 5⟩ ≤ 5 := by
  apply C137_found_side cup_valid cup_good
  · norm_num [V3.mag2, V3.dot]
  · norm_num
  · exact ⟨by norm_num [cup], by norm_num [cup], by rw [cup_r2]; norm_num⟩
  · intro t h0 h1 h
    have := h.r
    rw [cup_r2] at this
    simp only [V3.at_x, V3.at_y, V3.at_z] at this
    nlinarith
  · rw [cup_curv]
    norm_num [cup]

end Paraboloid
end VecGeom
