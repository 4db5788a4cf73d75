import Verif.Paraboloid.Props

/-!
# C137, C138: distances to and out of paraboloids
-/

namespace VecGeom
namespace Paraboloid

open Real

variable {a : Par} {s : State}

/-! ## Two counterexamples about safeties -/

/-- C136: for a point outside that is closer to the side than `1e-8` in the radius but not than the tolerance in height, the
safety is the distance to the lids with a minus sign. -/
theorem C136_in_counterexample : inside cupS ⟨3 / 2 + 5 / 10 ^ 9, 0, -1 / 6⟩ = .outside ∧
    safetyToIn cupS ⟨3 / 2 + 5 / 10 ^ 9, 0, -1 / 6⟩ = -5 / 6 := by
  have hr : √(perp2 ⟨3 / 2 + 5 / 10 ^ 9, 0, -1 / 6⟩) = 3 / 2 + 5 / 10 ^ 9 := by
    rw [perp2_eq, show ((3 : ℝ) / 2 + 5 / 10 ^ 9) ^ 2 + 0 ^ 2 = (3 / 2 + 5 / 10 ^ 9) ^ 2 by ring]
    exact sqrt_sq (by norm_num)
  have h0 : cup.r2 (-1 / 6) = (3 / 2) ^ 2 := by rw [cup_r2]; norm_num
  constructor
  · have h := C135_inside cup_valid cup_good ⟨3 / 2 + 5 / 10 ^ 9, 0, -1 / 6⟩
    by_contra hc
    have h2 := h.2.1.mp (h.1.mpr hc)
    rw [cup_r2] at h2
    norm_num [cup, kTolerance] at h2
  · have hz : |(-1 : ℝ) / 6| = 1 / 6 := by norm_num
    unfold safetyToIn OnLidLevel OnSide
    dsimp only
    rw [cup_good.dz, cup_good.fA, cup_good.rlo2, cup_good.rhi2, r0sq_eq cup_valid cup_good, value_eq cup_valid cup_good, hr]
    dsimp only
    rw [h0, sqrt_sq (by norm_num), cup_curv, perp2_eq, hz]
    dsimp only
    rw [if_neg (by norm_num [cup, kTolerance, kHalfTolerance]), if_neg (by
      rintro ⟨h1, -⟩
      revert h1
      norm_num [cup, kTolerance, abs_lt]), if_neg (by norm_num [kTolerance]), if_neg (by norm_num), if_pos (by norm_num)]
    norm_num [cup]

/-- The same solid upside down: the class asks for `rhi > rlo`, the constructor does not. -/
noncomputable def lamp : State := create mem 2 1 1

/-- C136: with the larger radius at the bottom, which the constructor accepts, the origin is inside and the safety from inside
is that of a point outside. -/
theorem C136_inverted_counterexample : inside lamp ⟨0, 0, 0⟩ = .inside ∧ safetyToOut lamp ⟨0, 0, 0⟩ = -1 := by
  constructor
  · have h : genericKernel true lamp ⟨0, 0, 0⟩ = (true, false) := by
      unfold genericKernel diff perp2 lamp create calcSurfaceArea calcCapacity calculateCached
      dsimp only
      rw [if_neg (by norm_num [kTolerance])]
      simp only [if_true, Prod.mk.injEq, and_true, decide_eq_true_eq]
      norm_num [kTolerance]
    unfold inside
    rw [h]
    rfl
  · unfold safetyToOut value perp2 lamp create calcSurfaceArea calcCapacity calculateCached
    dsimp only
    rw [if_neg (by norm_num [kTolerance]), if_pos (by norm_num [kTolerance, kHalfTolerance])]

/-! ## C137: the distance to the solid -/

theorem nonZero_of_nonneg {x : ℝ} (h : 0 ≤ x) : nonZero x = x + kTiny := by
  simp only [nonZero, copySign, if_neg (not_lt.mpr h)]

theorem nonZero_of_neg {x : ℝ} (h : x < 0) : nonZero x = x - kTiny := by
  simp only [nonZero, copySign, if_pos h]
  ring

/-- The first root of `a * t ^ 2 - 2 * b * t + c` as the code computes it. -/
theorem root_le_of {A b c t : ℝ} (hA : 0 ≤ A) (hc : 0 < c) (hb : 0 < b) (ht : 0 ≤ t)
    (h : A * t ^ 2 - 2 * b * t + c ≤ 0) : 0 ≤ b * b - A * c ∧ c / nonZero (b + √(b * b - A * c)) ≤ t := by
  have hD : 0 ≤ b * b - A * c := by nlinarith [sq_nonneg (A * t - b)]
  refine ⟨hD, ?_⟩
  have hs := sqrt_nonneg (b * b - A * c)
  have hs2 := sq_sqrt hD
  have hk := kTiny_pos
  rw [nonZero_of_nonneg (by linarith), div_le_iff₀ (by linarith)]
  have h1 : b - A * t ≤ √(b * b - A * c) := by
    apply le_of_sq_le_sq _ hs
    rw [hs2]; nlinarith
  have h2 : t * (b - A * t) ≤ t * √(b * b - A * c) := mul_le_mul_of_nonneg_left h1 ht
  have h3 : 0 ≤ t * kTiny := by positivity
  nlinarith

/-- What `sideIn` returns. -/
theorem sideIn_cases (hv : a.Valid) (g : Good s a) (p d : V3) (o e : ℝ) :
    sideIn s p d o e = e ∨
    ((¬ (p.z > a.dz ∧ perp2 p < a.rhi ^ 2)) ∧ 0 ≤ disc s p d ∧ 0 < qb s p d ∧ 0 < qc s p ∧
      |p.z + qc s p / nonZero (qb s p d + √(disc s p d)) * d.z| ≤ a.dz ∧
      sideIn s p d o e = qc s p / nonZero (qb s p d + √(disc s p d)) + o) := by
  unfold sideIn
  dsimp only
  rw [g.dz, g.rhi2]
  have hs := sqrt_nonneg (disc s p d)
  by_cases h0 : ¬ (p.z > a.dz ∧ perp2 p < a.rhi ^ 2)
  · rw [if_pos h0]
    by_cases h1 : disc s p d < 0
    · rw [if_pos h1]; exact Or.inl rfl
    · rw [if_neg h1]
      by_cases hb : qb s p d > 0
      · simp only [if_pos hb]
        split
        · rename_i h2
          have hn := nonZero_pos (by linarith : 0 ≤ qb s p d + √(disc s p d))
          have hc : 0 < qc s p := by
            by_contra hc
            have := div_nonpos_of_nonpos_of_nonneg (not_lt.mp hc) hn.le
            linarith [h2.2]
          exact Or.inr ⟨h0, not_lt.mp h1, hb, hc, h2.1, rfl⟩
        · exact Or.inl rfl
      · simp only [if_neg hb]
        left
        rw [if_neg]
        intro h2
        have hn := nonZero_pos (qa_nonneg hv g d)
        have := div_nonpos_of_nonpos_of_nonneg (by linarith : qb s p d - √(disc s p d) ≤ 0) hn.le
        linarith [h2.2]
  · rw [if_neg h0]; exact Or.inl rfl

/-- The moved point lies before every point of the solid on the ray. -/
theorem offset_le (hv : a.Valid) (g : Good s a) {p d : V3} (hd : d.mag2 = 1) {t : ℝ} (ht : 0 ≤ t)
    (hq : a.Closed (V3.at' p d t)) : 0 ≤ offsetIn s p d ∧ offsetIn s p d ≤ t ∧
      (offsetIn s p d = 0 ∨ rsph s ≤ t - offsetIn s p d) := by
  unfold offsetIn
  split
  · rename_i h
    have hlt := hv.lt
    have h0 := hv.rlo
    have hz := hv.dz
    have hR : rsph s = 3 / 2 * max a.rhi a.dz := by unfold rsph; rw [g.dx, g.dz]
    have hm1 := le_max_left a.rhi a.dz
    have hm2 := le_max_right a.rhi a.dz
    set M := max a.rhi a.dz with hM
    have hM0 : 0 < M := by linarith
    have hp0 : 0 ≤ p.mag := sqrt_nonneg _
    have hps : p.mag ^ 2 = p.mag2 := sq_sqrt (V3.mag2_nonneg p)
    have h1 := h.1
    rw [← hps, hR] at h1
    -- the point of the solid is within the sphere
    set q := V3.at' p d t with hqd
    have hq2 : q.mag2 ≤ (3 / 2 * M) ^ 2 := by
      obtain ⟨hqz, hqr⟩ := (closed_iff q).mp hq
      have hr : a.r2 q.z ≤ a.rhi ^ 2 := by rw [← r2_top hv]; exact r2_mono hv hq.hi
      have h2 : q.z ^ 2 ≤ a.dz ^ 2 := by rw [← sq_abs]; exact pow_le_pow_left₀ (abs_nonneg _) hqz 2
      rw [perp2_eq] at hqr
      have h3 : a.dz ^ 2 ≤ M ^ 2 := pow_le_pow_left₀ hz.le hm2 2
      have h4 : a.rhi ^ 2 ≤ M ^ 2 := pow_le_pow_left₀ (by linarith) hm1 2
      have e : q.mag2 = q.x ^ 2 + q.y ^ 2 + q.z ^ 2 := by simp only [V3.mag2, V3.dot]; ring
      rw [e]
      nlinarith [sq_nonneg M]
    -- the triangle inequality
    have h5 : p.mag ≤ 3 / 2 * M + t := by
      by_contra hc
      rw [not_le] at hc
      have e : q.mag2 = p.mag2 + 2 * t * p.dot d + t ^ 2 * d.mag2 := by
        simp only [hqd, V3.mag2, V3.dot, V3.at_x, V3.at_y, V3.at_z]; ring
      rw [hd, ← hps] at e
      have h6 : -(p.mag) ≤ p.dot d := by
        have h7 := V3.dot_le_sqrt (V3.smul (-1) p) d
        have e2 : (V3.smul (-1) p).mag2 = p.mag2 := by simp only [V3.mag2, V3.dot, V3.smul_x, V3.smul_y, V3.smul_z]; ring
        have e3 : (V3.smul (-1) p).dot d = -p.dot d := by simp only [V3.dot, V3.smul_x, V3.smul_y, V3.smul_z]; ring
        rw [e2, e3, hd, sqrt_one, mul_one] at h7
        have : √p.mag2 = p.mag := rfl
        linarith
      have h8 : t * -(p.mag) ≤ t * p.dot d := mul_le_mul_of_nonneg_left h6 ht
      have h9 : (3 / 2 * M) ^ 2 < (p.mag - t) ^ 2 := pow_lt_pow_left₀ (by linarith) (by positivity) (by norm_num)
      nlinarith
    have h10 : 32 * (3 / 2 * M) ≤ p.mag := by
      apply le_of_sq_le_sq _ hp0
      nlinarith
    rw [hR]
    exact ⟨by linarith, by linarith, Or.inr (by linarith)⟩
  · exact ⟨le_refl _, ht, Or.inl rfl⟩

theorem at_split (p d : V3) (o t : ℝ) : V3.at' p d t = V3.at' (p + V3.smul o d) d (t - o) := by
  ext <;> simp <;> ring

theorem lidIn_mid {p d : V3} {o : ℝ} (h : |p.z| < s.dz) : lidIn s p d o = sideIn s p d o kInfLength := by
  unfold lidIn
  rw [if_neg (by rw [not_not]; exact h)]

/-- The point where the ray crosses the plane of a lid, as the code computes it, in its squared distance to the axis. -/
noncomputable def hit2 (p d : V3) (τ : ℝ) : ℝ := (p.x + τ * d.x) * (p.x + τ * d.x) + (p.y + τ * d.y) * (p.y + τ * d.y)

theorem lidIn_none {p d : V3} {o : ℝ} (h : ¬ |p.z| < s.dz) (hb : ¬ (p.z < -s.dz ∧ d.z > 0))
    (ht : ¬ (p.z > s.dz ∧ d.z < 0)) : lidIn s p d o = sideIn s p d o kInfLength := by
  unfold lidIn
  rw [if_pos h]
  dsimp only
  simp only [eq_false hb, eq_false ht, false_and, ↓reduceIte]

open Classical in
theorem lidIn_bot (hv : a.Valid) (g : Good s a) {p d : V3} {o : ℝ} (h1 : p.z < -a.dz) (h2 : d.z > 0) :
    lidIn s p d o = if hit2 p d ((-a.dz - p.z) / nonZero d.z) ≤ a.rlo ^ 2 then (-a.dz - p.z) / nonZero d.z + o
      else sideIn s p d o kInfLength := by
  have hz := hv.dz
  have hb : p.z < -s.dz ∧ d.z > 0 := ⟨by rw [g.dz]; exact h1, h2⟩
  have ht : ¬ (p.z > s.dz ∧ d.z < 0) := fun h => by linarith [h.2]
  have h0 : ¬ |p.z| < s.dz := by rw [g.dz, abs_lt]; intro h; linarith [h.1]
  unfold lidIn
  rw [if_pos h0]
  dsimp only
  simp only [eq_true hb, eq_false ht, false_and, true_and, ↓reduceIte]
  rw [g.dz, g.rlo2]
  change (if hit2 p d ((-a.dz - p.z) / nonZero d.z) ≤ a.rlo ^ 2 then
    (if hit2 p d ((-a.dz - p.z) / nonZero d.z) ≤ a.rlo ^ 2 then _ else _) else
    sideIn s p d o (if hit2 p d ((-a.dz - p.z) / nonZero d.z) ≤ a.rlo ^ 2 then _ else _)) = _
  by_cases hc : hit2 p d ((-a.dz - p.z) / nonZero d.z) ≤ a.rlo ^ 2
  · simp only [if_pos hc]
  · simp only [if_neg hc]

open Classical in
theorem lidIn_top (hv : a.Valid) (g : Good s a) {p d : V3} {o : ℝ} (h1 : p.z > a.dz) (h2 : d.z < 0) :
    lidIn s p d o = if hit2 p d ((a.dz - p.z) / nonZero d.z) < a.rhi ^ 2 then (a.dz - p.z) / nonZero d.z + o
      else sideIn s p d o (if hit2 p d ((a.dz - p.z) / nonZero d.z) ≤ a.rhi ^ 2 then (a.dz - p.z) / nonZero d.z + o
        else kInfLength) := by
  have hz := hv.dz
  have ht : p.z > s.dz ∧ d.z < 0 := ⟨by rw [g.dz]; exact h1, h2⟩
  have hb : ¬ (p.z < -s.dz ∧ d.z > 0) := fun h => by linarith [h.2]
  have h0 : ¬ |p.z| < s.dz := by rw [g.dz, abs_lt]; intro h; linarith [h.2]
  unfold lidIn
  rw [if_pos h0]
  dsimp only
  simp only [eq_false hb, eq_true ht, false_and, true_and, ↓reduceIte]
  rw [g.dz, g.rhi2]
  change (if hit2 p d ((a.dz - p.z) / nonZero d.z) < a.rhi ^ 2 then
    (if hit2 p d ((a.dz - p.z) / nonZero d.z) ≤ a.rhi ^ 2 then _ else _) else
    sideIn s p d o (if hit2 p d ((a.dz - p.z) / nonZero d.z) ≤ a.rhi ^ 2 then _ else _)) = _
  by_cases hc : hit2 p d ((a.dz - p.z) / nonZero d.z) < a.rhi ^ 2
  · simp only [if_pos hc, if_pos hc.le]
  · simp only [if_neg hc]

/-- What the part about lids and side returns for a ray that meets the solid: nothing, or a distance that is not too large. -/
theorem lidIn_le (hv : a.Valid) (g : Good s a) {p d : V3} {t o : ℝ} (ht : 0 ≤ t) (hq : a.Closed (V3.at' p d t)) :
    lidIn s p d o = kInfLength ∨ lidIn s p d o ≤ t + o := by
  have hk := kTiny_pos
  have hval : qa s d * t ^ 2 - 2 * qb s p d * t + qc s p ≤ 0 := by
    rw [← value_at]
    exact (value_closed hv g _).mpr ((closed_iff _).mp hq).2
  have side : ∀ e, (e = kInfLength ∨ e ≤ t + o) → sideIn s p d o e = kInfLength ∨ sideIn s p d o e ≤ t + o := by
    intro e he
    rcases sideIn_cases hv g p d o e with h | ⟨-, h1, h2, h3, -, h5⟩
    · rw [h]; exact he
    · right
      rw [h5]
      have := (root_le_of (qa_nonneg hv g d) h3 h2 ht hval).2
      unfold disc
      linarith
  have hlo : -a.dz ≤ p.z + t * d.z := hq.lo
  have hhi : p.z + t * d.z ≤ a.dz := hq.hi
  have top : p.z > a.dz ∧ d.z < 0 → (a.dz - p.z) / nonZero d.z ≤ t := by
    rintro ⟨h1, h2⟩
    rw [div_le_iff_of_neg (nonZero_neg h2), nonZero_of_neg h2]
    nlinarith [mul_nonneg ht hk.le]
  have bot : p.z < -a.dz ∧ d.z > 0 → (-a.dz - p.z) / nonZero d.z ≤ t := by
    rintro ⟨h1, h2⟩
    rw [div_le_iff₀ (nonZero_pos h2.le), nonZero_of_nonneg h2.le]
    nlinarith [mul_nonneg ht hk.le]
  by_cases hz : |p.z| < a.dz
  · rw [lidIn_mid (by rw [g.dz]; exact hz)]
    exact side _ (Or.inl rfl)
  · by_cases hb : p.z < -a.dz ∧ d.z > 0
    · rw [lidIn_bot hv g hb.1 hb.2]
      have := bot hb
      split
      · right; linarith
      · exact side _ (Or.inl rfl)
    · by_cases htp : p.z > a.dz ∧ d.z < 0
      · rw [lidIn_top hv g htp.1 htp.2]
        have := top htp
        split
        · right; linarith
        · apply side
          split
          · right; linarith
          · exact Or.inl rfl
      · rw [lidIn_none (by rw [g.dz]; exact hz) (by rw [g.dz]; exact hb) (by rw [g.dz]; exact htp)]
        exact side _ (Or.inl rfl)

/-- C137: a distance that is reported is never larger than the distance along the ray to a point of the solid. -/
theorem C137_never_late (hv : a.Valid) (g : Good s a) (p d : V3) (hd : d.mag2 = 1) (t : ℝ) (ht : 0 ≤ t)
    (hq : a.Closed (V3.at' p d t)) : distanceToIn s p d = kInfLength ∨ distanceToIn s p d ≤ t := by
  obtain ⟨h0, h1, -⟩ := offset_le hv g hd ht hq
  unfold distanceToIn
  dsimp only
  split
  · exact Or.inl rfl
  split
  · right; linarith
  split
  · exact Or.inr ht
  split
  · exact Or.inr ht
  rw [at_split p d (offsetIn s p d)] at hq
  rcases lidIn_le hv g (o := offsetIn s p d) (by linarith) hq with h | h
  · exact Or.inl h
  · right; linarith

/-- The moved point is not between the lids and inside the side before the ray enters. -/
theorem moved_outside (hv : a.Valid) (g : Good s a) {p d : V3} (hd : d.mag2 = 1) {t : ℝ} (ht : 0 ≤ t)
    (hq : a.Closed (V3.at' p d t)) (hp : ¬ a.Closed p) : ¬ a.Closed (p + V3.smul (offsetIn s p d) d) := by
  unfold offsetIn
  split
  · rename_i h
    intro hc
    have e : p + V3.smul (p.mag - 2 * rsph s) d = V3.at' p d (p.mag - 2 * rsph s) := rfl
    have hz := hv.dz
    have hR : 0 < rsph s := by
      unfold rsph
      rw [g.dx, g.dz]
      have := le_max_right a.rhi a.dz
      linarith
    obtain ⟨h0, h1, h2⟩ := offset_le hv g hd ht hq
    rw [offsetIn, if_pos h] at h0 h1 h2
    rw [e] at hc
    have h3 := (offset_le hv g hd h0 hc).2.2
    rw [offsetIn, if_pos h] at h3
    rcases h3 with h3 | h3
    · -- the point would not have been moved
      have hps : p.mag ^ 2 = p.mag2 := sq_sqrt (V3.mag2_nonneg p)
      have h4 := h.1
      have : p.mag = 2 * rsph s := by linarith
      rw [← hps, this] at h4
      nlinarith
    · linarith
  · have e : p + V3.smul 0 d = p := by ext <;> simp
    rw [e]
    exact hp

/-- C137: from a point between the planes of the lids that is outside, a ray that meets the solid is reported, not too
late. -/
theorem C137_found_between (hv : a.Valid) (g : Good s a) (p d : V3) (hd : d.mag2 = 1) (hz : |p.z| < a.dz)
    (hp : ¬ a.Closed p) (t : ℝ) (ht : 0 ≤ t) (hq : a.Closed (V3.at' p d t)) : distanceToIn s p d ≤ t := by
  have hk := kTiny_pos
  obtain ⟨h0, h1, -⟩ := offset_le hv g hd ht hq
  have hmo := moved_outside hv g hd ht hq hp
  have hmz : |(p + V3.smul (offsetIn s p d) d).z| < a.dz := by
    have e : (p + V3.smul (offsetIn s p d) d).z = p.z + offsetIn s p d * d.z := rfl
    rw [e]
    rcases h1.eq_or_lt with h2 | h2
    · exfalso
      apply hmo
      have : p + V3.smul (offsetIn s p d) d = V3.at' p d (offsetIn s p d) := rfl
      rw [this, h2]
      exact hq
    · have h3 := abs_lt.mp hz
      have hlo : -a.dz ≤ p.z + t * d.z := hq.lo
      have hhi : p.z + t * d.z ≤ a.dz := hq.hi
      set o := offsetIn s p d with ho
      have ht0 : 0 < t := by linarith
      have e1 : t * (p.z + o * d.z) = (t - o) * p.z + o * (p.z + t * d.z) := by ring
      rw [abs_lt]
      constructor
      · have : t * -a.dz < t * (p.z + o * d.z) := by
          rw [e1]
          have h4 : (t - o) * -a.dz < (t - o) * p.z := mul_lt_mul_of_pos_left h3.1 (by linarith)
          have h5 : o * -a.dz ≤ o * (p.z + t * d.z) := mul_le_mul_of_nonneg_left hlo h0
          nlinarith
        exact lt_of_mul_lt_mul_left this ht0.le
      · have : t * (p.z + o * d.z) < t * a.dz := by
          rw [e1]
          have h4 : (t - o) * p.z < (t - o) * a.dz := mul_lt_mul_of_pos_left h3.2 (by linarith)
          have h5 : o * (p.z + t * d.z) ≤ o * a.dz := mul_le_mul_of_nonneg_left hhi h0
          nlinarith
        exact lt_of_mul_lt_mul_left this ht0.le
  unfold distanceToIn
  dsimp only
  rw [at_split p d (offsetIn s p d)] at hq
  set o := offsetIn s p d with ho
  set w := p + V3.smul o d with hw
  rw [g.dz, if_neg (fun h => by linarith [h.1])]
  split
  · linarith
  split
  · exact ht
  split
  · exact ht
  unfold lidIn
  rw [g.dz, if_neg (by rw [not_not]; exact hmz)]
  have ht' : 0 ≤ t - o := by linarith
  have hval : qa s d * (t - o) ^ 2 - 2 * qb s w d * (t - o) + qc s w ≤ 0 := by
    rw [← value_at]
    exact (value_closed hv g _).mpr ((closed_iff _).mp hq).2
  have hc : 0 < qc s w := by
    rw [qc_eq]
    by_contra hc
    exact hmo ((closed_iff w).mpr ⟨hmz.le, (value_closed hv g w).mp (not_lt.mp hc)⟩)
  have hA := qa_nonneg hv g d
  have hb : 0 < qb s w d := by
    by_contra hb
    have h2 := mul_nonneg (neg_nonneg.mpr (not_lt.mp hb)) ht'
    have h3 := mul_nonneg hA (sq_nonneg (t - o))
    linarith
  obtain ⟨hD, hle⟩ := root_le_of hA hc hb ht' hval
  unfold sideIn
  dsimp only
  rw [g.dz, if_pos (fun h => by linarith [(abs_lt.mp hmz).2, h.1]), if_neg (by unfold disc; linarith), if_pos hb]
  have hpos : 0 < qc s w / nonZero (qb s w d + √(disc s w d)) :=
    div_pos hc (nonZero_pos (by linarith [sqrt_nonneg (disc s w d)]))
  have hle' : qc s w / nonZero (qb s w d + √(disc s w d)) ≤ t - o := hle
  set τ := qc s w / nonZero (qb s w d + √(disc s w d)) with hτ
  have hlo : -a.dz ≤ w.z + (t - o) * d.z := hq.lo
  have hhi : w.z + (t - o) * d.z ≤ a.dz := hq.hi
  have h3 := abs_lt.mp hmz
  rw [if_pos]
  · linarith
  · refine ⟨?_, hpos⟩
    rw [abs_le]
    rcases le_total 0 d.z with h | h
    · have h4 : τ * d.z ≤ (t - o) * d.z := mul_le_mul_of_nonneg_right hle' h
      have h5 : 0 ≤ τ * d.z := mul_nonneg hpos.le h
      constructor <;> linarith
    · have h4 : (t - o) * d.z ≤ τ * d.z := mul_le_mul_of_nonpos_right hle' h
      have h5 : τ * d.z ≤ 0 := mul_nonpos_of_nonneg_of_nonpos hpos.le h
      constructor <;> linarith

/-- Not vacuous: a ray along the x axis. -/
example : distanceToIn cupS ⟨5, 0, 0⟩ ⟨-1, 0, 0⟩ ≤ 4 := by
  apply C137_found_between cup_valid cup_good
  · norm_num [V3.mag2, V3.dot]
  · norm_num [cup]
  · intro h
    have := h.r
    rw [cup_r2] at this
    norm_num at this
  · norm_num
  · exact ⟨by norm_num [cup], by norm_num [cup], by rw [cup_r2]; norm_num⟩

end Paraboloid
end VecGeom
