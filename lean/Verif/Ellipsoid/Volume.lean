import Verif.Ellipsoid.Props
import Verif.EllTube.Volume
import Mathlib.Analysis.SpecialFunctions.Trigonometric.Bounds

/-!
# C106: capacity, extent, parameters, sampling and mesh of cut ellipsoids
-/

namespace VecGeom
namespace Ellipsoid

open Real MeasureTheory

variable {a : Par}

/-- The area of a slice. -/
theorem area_slice {x y k : ℝ} (hx : 0 < x) (hy : 0 < y) (hk : 0 ≤ k) :
    volume {w : Fin 2 → ℝ | (w 0 / x) ^ 2 + (w 1 / y) ^ 2 ≤ k} = ENNReal.ofReal (π * x * y * k) := by
  rcases hk.eq_or_lt with h | h
  · rw [← h, mul_zero, ENNReal.ofReal_zero]
    have : {w : Fin 2 → ℝ | (w 0 / x) ^ 2 + (w 1 / y) ^ 2 ≤ 0} = {0} := by
      ext w
      simp only [Set.mem_setOf_eq, Set.mem_singleton_iff]
      constructor
      · intro hw
        have h0 : (w 0 / x) ^ 2 = 0 := by linarith [sq_nonneg (w 0 / x), sq_nonneg (w 1 / y)]
        have h1 : (w 1 / y) ^ 2 = 0 := by linarith [sq_nonneg (w 0 / x), sq_nonneg (w 1 / y)]
        rw [sq_eq_zero_iff, div_eq_zero_iff] at h0 h1
        ext i
        fin_cases i
        · rcases h0 with h0 | h0
          · exact h0
          · exact absurd h0 hx.ne'
        · rcases h1 with h1 | h1
          · exact h1
          · exact absurd h1 hy.ne'
      · rintro rfl
        simp
    rw [this, measure_singleton]
  · have hs : 0 < √k := sqrt_pos.mpr h
    have h2 : √k ^ 2 = k := sq_sqrt h.le
    have := area_ellipse (mul_pos hx hs) (mul_pos hy hs)
    rw [show π * (x * √k) * (y * √k) = π * x * y * k by rw [← h2]; rw [sqrt_sq hs.le]; ring] at this
    rw [← this]
    congr 1
    ext w
    simp only [Set.mem_setOf_eq]
    rw [← div_div, ← div_div, div_pow _ (√k), div_pow _ (√k), h2, ← add_div, div_le_one h]

theorem integral_slices (A C l h : ℝ) : ∫ z in l..h, (A + C * z ^ 2) = A * (h - l) + C * (h ^ 3 - l ^ 3) / 3 := by
  rw [intervalIntegral.integral_add (by apply Continuous.intervalIntegrable; fun_prop)
      (by apply Continuous.intervalIntegrable; fun_prop),
    intervalIntegral.integral_const, intervalIntegral.integral_const_mul, integral_pow, smul_eq_mul]
  norm_num
  ring

theorem volume_eq (hv : a.Valid) :
    (of a).volume = π * a.x * a.y * (a.hi - a.lo) - π * a.x * a.y / a.z ^ 2 * (a.hi ^ 3 - a.lo ^ 3) / 3 := by
  have hz := (z_pos hv).ne'
  rw [of_eq hv]
  show cubicVolume _ _ _ _ _ = _
  unfold cubicVolume
  dsimp only
  have e1 : (if a.lo > -a.z then 4 * (π * a.x * a.y / 3) * a.z - π * a.x * a.y / 3 * (1 + a.lo / a.z) * (1 + a.lo / a.z) * (2 * a.z - a.lo)
      else 4 * (π * a.x * a.y / 3) * a.z) =
      4 * (π * a.x * a.y / 3) * a.z - π * a.x * a.y / 3 * (1 + a.lo / a.z) * (1 + a.lo / a.z) * (2 * a.z - a.lo) := by
    split
    · rfl
    · rename_i h
      have : a.lo = -a.z := le_antisymm (not_lt.mp h) hv.lo
      have e : 1 + a.lo / a.z = 0 := by rw [this, neg_div, div_self hz]; ring
      rw [e]; ring
  rw [e1]
  have e2 : ∀ v : ℝ, (if a.hi < a.z then v - π * a.x * a.y / 3 * (1 - a.hi / a.z) * (1 - a.hi / a.z) * (2 * a.z + a.hi) else v) =
      v - π * a.x * a.y / 3 * (1 - a.hi / a.z) * (1 - a.hi / a.z) * (2 * a.z + a.hi) := by
    intro v
    split
    · rfl
    · rename_i h
      have : a.hi = a.z := le_antisymm hv.hi (not_lt.mp h)
      have e : 1 - a.hi / a.z = 0 := by rw [this, div_self hz]; ring
      rw [e]; ring
  rw [e2]
  field_simp
  ring

/-- C106: the capacity of a cut ellipsoid is the volume of the set of its points. -/
theorem C106_capacity (hv : a.Valid) :
    volume {q : Fin 3 → ℝ | a.Closed ⟨q 0, q 1, q 2⟩} = ENNReal.ofReal (capacity (of a)) := by
  have hx := x_pos hv
  have hy := y_pos hv
  have hz := z_pos hv
  have hpi := pi_pos
  have hset : {q : Fin 3 → ℝ | a.Closed ⟨q 0, q 1, q 2⟩} =
      ({q | a.lo ≤ q 2} ∩ {q | q 2 ≤ a.hi}) ∩ {q | (q 0 / a.x) ^ 2 + (q 1 / a.y) ^ 2 + (q 2 / a.z) ^ 2 ≤ 1} := by
    ext q
    exact ⟨fun h => ⟨⟨h.lo, h.hi⟩, h.r⟩, fun h => ⟨h.1.1, h.1.2, h.2⟩⟩
  have hmeas : MeasurableSet {q : Fin 3 → ℝ | a.Closed ⟨q 0, q 1, q 2⟩} := by
    rw [hset]
    have m : Measurable fun q : Fin 3 → ℝ => (q 0 / a.x) ^ 2 + (q 1 / a.y) ^ 2 + (q 2 / a.z) ^ 2 := by fun_prop
    have mz : Measurable fun q : Fin 3 → ℝ => q 2 := by fun_prop
    exact ((measurableSet_le measurable_const mz).inter (measurableSet_le mz measurable_const)).inter (measurableSet_le m measurable_const)
  have hk : ∀ z ∈ Set.Icc a.lo a.hi, 0 ≤ 1 - (z / a.z) ^ 2 := by
    intro z hz'
    have : |z / a.z| ≤ 1 := by
      rw [abs_div, abs_of_pos hz, div_le_one hz, abs_le]
      exact ⟨by linarith [hz'.1, hv.lo], by linarith [hz'.2, hv.hi]⟩
    have := (sq_le_one_iff_abs_le_one _).mpr this
    linarith
  have he : ∀ z : ℝ, π * a.x * a.y * (1 - (z / a.z) ^ 2) = π * a.x * a.y + -(π * a.x * a.y / a.z ^ 2) * z ^ 2 := by
    intro z; rw [div_pow]; ring
  rw [volume_slices hmeas (a := a.lo) (b := a.hi) (g := fun z => π * a.x * a.y + -(π * a.x * a.y / a.z ^ 2) * z ^ 2) hv.cut.le
    (by fun_prop) (fun z hz' => by rw [← he]; exact mul_nonneg (by positivity) (hk z hz'))]
  · rw [integral_slices]
    congr 1
    show _ = (of a).volume
    rw [volume_eq hv]
    ring
  · intro q hq
    exact ⟨hq.lo, hq.hi⟩
  · intro z hz'
    rw [← he, ← area_slice hx hy (hk z hz')]
    congr 1
    ext w
    rw [hset]
    have h1 := hz'.1
    have h2 := hz'.2
    simp only [Set.mem_setOf_eq, Set.mem_inter_iff, Matrix.cons_val_zero, Matrix.cons_val_one, Matrix.cons_val]
    constructor
    · rintro ⟨_, h⟩; linarith
    · intro h; exact ⟨⟨h1, h2⟩, by linarith⟩

/-- C106: the extent is the tightest box around the solid. -/
theorem C106_extent (hv : a.Valid) :
    IsLeast (V3.x '' {p | a.Closed p}) (extent (of a)).1.x ∧ IsGreatest (V3.x '' {p | a.Closed p}) (extent (of a)).2.x ∧
    IsLeast (V3.y '' {p | a.Closed p}) (extent (of a)).1.y ∧ IsGreatest (V3.y '' {p | a.Closed p}) (extent (of a)).2.y ∧
    IsLeast (V3.z '' {p | a.Closed p}) (extent (of a)).1.z ∧ IsGreatest (V3.z '' {p | a.Closed p}) (extent (of a)).2.z := by
  have hx := x_pos hv
  have hy := y_pos hv
  have hz := z_pos hv
  have hb : ∀ c, a.lo ≤ c → c ≤ a.hi → (c / a.z) ^ 2 ≤ 1 := by
    intro c h1 h2
    rw [sq_le_one_iff_abs_le_one, abs_div, abs_of_pos hz, div_le_one hz, abs_le]
    exact ⟨by linarith [hv.lo], by linarith [hv.hi]⟩
  have key : ∃ s c, extentScale a.z a.lo a.hi = s ∧ a.lo ≤ c ∧ c ≤ a.hi ∧ s ^ 2 + (c / a.z) ^ 2 = 1 := by
    have cut : ∀ c, a.lo ≤ c → c ≤ a.hi → √((1 - c / a.z) * (1 + c / a.z)) ^ 2 + (c / a.z) ^ 2 = 1 := by
      intro c h1 h2
      rw [sq_sqrt (by have := hb c h1 h2; nlinarith)]
      ring
    unfold extentScale
    split
    · exact ⟨_, a.hi, rfl, hv.cut.le, le_refl _, cut _ hv.cut.le (le_refl _)⟩
    split
    · exact ⟨_, a.lo, rfl, le_refl _, hv.cut.le, cut _ (le_refl _) hv.cut.le⟩
    · rename_i h1 h2
      exact ⟨_, 0, rfl, not_lt.mp h2, not_lt.mp h1, by simp⟩
  obtain ⟨s, c, hs, hc1, hc2, hsc⟩ := key
  have ex : (of a).xmax = a.x * s := by rw [of_eq hv, ← hs]; rfl
  have ey : (of a).ymax = a.y * s := by rw [of_eq hv, ← hs]; rfl
  have elo : (of a).zBottom = a.lo := by rw [of_eq hv]; rfl
  have ehi : (of a).zTop = a.hi := by rw [of_eq hv]; rfl
  have cx : ∀ t : ℝ, t ^ 2 = 1 → a.Closed ⟨t * (a.x * s), 0, c⟩ ∧ a.Closed ⟨0, t * (a.y * s), c⟩ := by
    intro t ht
    refine ⟨⟨hc1, hc2, ?_⟩, ⟨hc1, hc2, ?_⟩⟩
    · unfold Par.ell
      dsimp only
      rw [show t * (a.x * s) / a.x = t * s by field_simp, mul_pow, ht]
      simp only [zero_div, ne_eq, OfNat.ofNat_ne_zero, not_false_eq_true, zero_pow]
      linarith
    · unfold Par.ell
      dsimp only
      rw [show t * (a.y * s) / a.y = t * s by field_simp, mul_pow, ht]
      simp only [zero_div, ne_eq, OfNat.ofNat_ne_zero, not_false_eq_true, zero_pow]
      linarith
  have cz : ∀ t, a.lo ≤ t → t ≤ a.hi → a.Closed ⟨0, 0, t⟩ := by
    intro t h1 h2
    refine ⟨h1, h2, ?_⟩
    unfold Par.ell
    dsimp only
    have := hb t h1 h2
    simp only [zero_div, ne_eq, OfNat.ofNat_ne_zero, not_false_eq_true, zero_pow]
    linarith
  have p1 := cx 1 (by norm_num)
  have m1 := cx (-1) (by norm_num)
  simp only [one_mul, neg_mul] at p1 m1
  have hbound : ∀ q, a.Closed q → |q.x| ≤ a.x * s ∧ |q.y| ≤ a.y * s := by
    intro q hq
    have := extent_bound hv hq
    rw [ex, ey] at this
    exact this
  unfold extent
  rw [ex, ey, elo, ehi]
  refine ⟨⟨⟨_, m1.1, rfl⟩, ?_⟩, ⟨⟨_, p1.1, rfl⟩, ?_⟩, ⟨⟨_, m1.2, rfl⟩, ?_⟩, ⟨⟨_, p1.2, rfl⟩, ?_⟩,
    ⟨⟨_, cz a.lo (le_refl _) hv.cut.le, rfl⟩, ?_⟩, ⟨⟨_, cz a.hi hv.cut.le (le_refl _), rfl⟩, ?_⟩⟩ <;> rintro _ ⟨q, hq, rfl⟩
  · exact (abs_le.mp (hbound q hq).1).1
  · exact (abs_le.mp (hbound q hq).1).2
  · exact (abs_le.mp (hbound q hq).2).1
  · exact (abs_le.mp (hbound q hq).2).2
  · exact hq.lo
  · exact hq.hi

example : capacity (of bowl) = 135 / 8 * π := by
  show (of bowl).volume = _
  rw [volume_eq bowl_valid]
  norm_num [bowl]
  ring

/-! ## Parameters -/

/-- C106: for lengths of at least two tolerances the constructor makes the ellipsoid between the cuts, as far as they lie in the ellipsoid; if no
part would be left, or both cuts are zero, the ellipsoid is not cut.  The setters do the same with the new values. -/
theorem C106_parameters_partial {x y z b t : ℝ} (hx : 2 * kTolerance ≤ x) (hy : 2 * kTolerance ≤ y) (hz : 2 * kTolerance ≤ z) :
    (b < z → -z < t → b < t → Par.Valid ⟨x, y, z, max b (-z), min t z⟩ ∧ make x y z b t = of ⟨x, y, z, max b (-z), min t z⟩) ∧
    (z ≤ b ∨ t ≤ -z ∨ t ≤ b → Par.Valid ⟨x, y, z, -z, z⟩ ∧ make x y z b t = of ⟨x, y, z, -z, z⟩) ∧
    (∀ a : Par, a.Valid → setSemiAxes (of a) x y z = make x y z a.lo a.hi ∧ setZCuts (of a) b t = make a.x a.y a.z b t) := by
  have ht := kTolerance_pos
  have hax : ∀ b t, make x y z b t = cache x y z (checkCuts z b t).1 (checkCuts z b t).2 := by
    intro b t
    unfold make checkAxes
    have h1 : ¬ (x < 2 * kTolerance ∨ y < 2 * kTolerance ∨ y < 2 * kTolerance) := by
      rintro (h | h | h) <;> linarith
    dsimp only
    rw [if_neg h1]
  refine ⟨fun h1 h2 h3 => ?_, fun h => ?_, fun a hv => ?_⟩
  · have hv : Par.Valid ⟨x, y, z, max b (-z), min t z⟩ := by
      refine ⟨hx, hy, hz, le_max_right _ _, ?_, min_le_right _ _⟩
      exact max_lt (lt_min h3 h1) (lt_min h2 (by linarith))
    refine ⟨hv, ?_⟩
    rw [of_eq hv, hax]
    have e1 : ¬ (b = 0 ∧ t = 0) := by rintro ⟨e1, e2⟩; linarith
    have e2 : ¬ (b ≥ z ∨ t ≤ -z ∨ b ≥ t) := by rintro (h | h | h) <;> linarith
    unfold checkCuts
    dsimp only
    rw [if_neg e1]
    dsimp only
    rw [if_neg e2]
  · have hv : Par.Valid ⟨x, y, z, -z, z⟩ := ⟨hx, hy, hz, le_refl _, by simp only; linarith, le_refl _⟩
    refine ⟨hv, ?_⟩
    rw [of_eq hv, hax]
    have e : checkCuts z b t = (-z, z) := by
      unfold checkCuts
      dsimp only
      by_cases h0 : b = 0 ∧ t = 0
      · rw [if_pos h0]
        dsimp only
        have : ¬ (-z ≥ z ∨ z ≤ -z ∨ -z ≥ z) := by rintro (h | h | h) <;> linarith
        rw [if_neg this]
        simp
      · rw [if_neg h0]
        dsimp only
        rw [if_pos h]
        simp
    rw [e]
  · rw [of_eq hv]
    exact ⟨rfl, rfl⟩

/-- C106: the semi-axis in z is never checked (the one in y is checked twice): a negative one is accepted, and then no point is in the solid. -/
theorem C106_axis_counterexample : (make 1 1 (-1) 0 0).dz = -1 ∧ ∀ p, contains (make 1 1 (-1) 0 0) p = false := by
  have e : make 1 1 (-1) 0 0 = cache 1 1 (-1) 1 (-1) := by
    unfold make checkAxes checkCuts
    norm_num [kTolerance]
  rw [e]
  refine ⟨rfl, fun p => ?_⟩
  unfold contains
  rw [Bool.not_eq_false', decide_eq_true_eq]
  unfold approx
  apply lt_max_of_lt_left
  have e1 : (cache 1 1 (-1) 1 (-1)).scDim = -1 ∨ (cache 1 1 (-1) 1 (-1)).scDim < -1 / 2 := by
    right
    show 1 / 2 * (-1 * (min (min (1 : ℝ) 1) (-1) / -1) - 1 * (min (min (1 : ℝ) 1) (-1) / -1)) < -1 / 2
    norm_num
  have e2 : (cache 1 1 (-1) 1 (-1)).scDim < -1 / 2 := by
    rcases e1 with h | h <;> linarith
  have := abs_nonneg (p.z * (cache 1 1 (-1) 1 (-1)).sz - (cache 1 1 (-1) 1 (-1)).scMid)
  have : kHalfTolerance < 1 / 2 := by norm_num [kHalfTolerance, kTolerance]
  linarith

/-- C106: an ellipsoid without cuts stores its poles as the cuts, so `SetSemiAxes` with a longer axis in z cuts it there. -/
theorem C106_setSemiAxes_counterexample :
    contains (make 1 1 2 0 0) ⟨0, 0, 3 / 2⟩ = true ∧ contains (setSemiAxes (make 1 1 1 0 0) 1 1 2) ⟨0, 0, 3 / 2⟩ = false := by
  have ht : 2 * kTolerance ≤ 1 := by norm_num [kTolerance]
  have ht2 : 2 * kTolerance ≤ 2 := by norm_num [kTolerance]
  have e1 := (C106_parameters_partial (b := 0) (t := 0) ht ht ht2).2.1 (.inr (.inr (le_refl _)))
  have e2 := (C106_parameters_partial (b := 0) (t := 0) ht ht ht).2.1 (.inr (.inr (le_refl _)))
  have e3 := (C106_parameters_partial (b := 0) (t := 0) ht ht ht2).2.2 _ e2.1
  have e4 := (C106_parameters_partial (b := -1) (t := 1) ht ht ht2).1 (by norm_num) (by norm_num) (by norm_num)
  rw [show max (-1 : ℝ) (-2) = -1 by norm_num, show min (1 : ℝ) 2 = 1 by norm_num] at e4
  rw [e2.2, e3.1, e1.2, e4.2]
  have r1 : Par.r ⟨1, 1, 2, -1, 1⟩ = 1 := by norm_num [Par.r]
  constructor
  · exact (C102_meaning e1.1 _).1 ⟨by norm_num, by norm_num, by norm_num [Par.ell]⟩
  · rw [← Bool.not_eq_true, (C102_inside e4.1 _).2.1, r1]
    norm_num [kHalfTolerance, kTolerance]

/-! ## Sampling -/

theorem inEllipse_scaled {A B s : ℝ} (hA : 0 < A) (hB : 0 < B) (hs : 0 ≤ s) (l : List (ℝ × ℝ)) :
    ((EllTube.randomPointInEllipse (A * s) (B * s) l).1 / A) ^ 2 + ((EllTube.randomPointInEllipse (A * s) (B * s) l).2 / B) ^ 2 ≤ s ^ 2 := by
  rcases hs.eq_or_lt with h | h
  · rw [← h, mul_zero, mul_zero]
    cases l with
    | nil => simp [EllTube.randomPointInEllipse]
    | cons uv rest => simp [EllTube.randomPointInEllipse]
  · have := EllTube.inEllipse (a := ⟨A * s, B * s, 1⟩) (by positivity) (by positivity) l 0
    unfold EllTube.Par.ell at this
    dsimp only at this
    rw [← div_div, ← div_div, div_pow _ s, div_pow _ s, ← add_div, div_le_one (by positivity)] at this
    exact this

theorem lateral_surface (hv : a.Valid) {w : List (ℝ × ℝ × ℝ)} (hw : w ≠ []) (h01 : ∀ t ∈ w, 0 ≤ t.1 ∧ t.1 ≤ 1) :
    ∃ q, sampleLateral (of a) w = some q ∧ a.Surface q := by
  have hx := (x_pos hv).ne'
  have hy := (y_pos hv).ne'
  have hz := z_pos hv
  have e1 : (of a).dx = a.x := by rw [of_eq hv]; rfl
  have e2 : (of a).dy = a.y := by rw [of_eq hv]; rfl
  have e3 : (of a).dz = a.z := by rw [of_eq hv]; rfl
  have e4 : (of a).zBottom = a.lo := by rw [of_eq hv]; rfl
  have e5 : (of a).zTop = a.hi := by rw [of_eq hv]; rfl
  induction w with
  | nil => exact absurd rfl hw
  | cons t rest ih =>
    obtain ⟨u, v, w⟩ := t
    have hu : 0 ≤ u ∧ u ≤ 1 := h01 (u, v, w) (by simp)
    rw [sampleLateral]
    rw [e1, e2, e3, e4, e5]
    split
    · refine ⟨_, rfl, ?_⟩
      have hd : 0 ≤ a.hi - a.lo := by linarith [hv.cut]
      have z1 : a.lo ≤ a.lo + (a.hi - a.lo) * u := by nlinarith [hu.1]
      have z2 : a.lo + (a.hi - a.lo) * u ≤ a.hi := by nlinarith [hu.2]
      generalize a.lo + (a.hi - a.lo) * u = c at *
      have hc : (c / a.z) ^ 2 ≤ 1 := by
        rw [sq_le_one_iff_abs_le_one, abs_div, abs_of_pos hz, div_le_one hz, abs_le]
        exact ⟨by linarith [hv.lo], by linarith [hv.hi]⟩
      have hell : a.ell ⟨a.x * (√((1 + c / a.z) * (1 - c / a.z)) * cos (2 * π * v)), a.y * (√((1 + c / a.z) * (1 - c / a.z)) * sin (2 * π * v)),
          a.z * (c / a.z)⟩ = 1 := by
        unfold Par.ell
        dsimp only
        rw [mul_div_cancel_left₀ _ hx, mul_div_cancel_left₀ _ hy, mul_div_cancel_left₀ _ hz.ne', mul_pow, mul_pow,
          sq_sqrt (by nlinarith)]
        linear_combination (1 - (c / a.z) ^ 2) * sin_sq_add_cos_sq (2 * π * v)
      have ez : a.z * (c / a.z) = c := by field_simp
      exact ⟨⟨by simp only [ez]; exact z1, by simp only [ez]; exact z2, hell.le⟩, .inr (.inr hell)⟩
    · rename_i h
      exact ih (fun h' => h (.inr h')) (fun t ht => h01 t (by simp [ht]))

/-- C106: for all outcomes of the random numbers the sampled point lies on the surface, whatever surface area the choice of the face
is based on. -/
theorem C106_sample (hv : a.Valid) (area u : ℝ) (l : List (ℝ × ℝ)) {w : List (ℝ × ℝ × ℝ)} (hw : w ≠ []) (h01 : ∀ t ∈ w, 0 ≤ t.1 ∧ t.1 ≤ 1) :
    ∃ q, samplePointOnSurface (of a) area u l w = some q ∧ a.Surface q := by
  have hx := x_pos hv
  have hy := y_pos hv
  have hz := z_pos hv
  have e1 : (of a).dx = a.x := by rw [of_eq hv]; rfl
  have e2 : (of a).dy = a.y := by rw [of_eq hv]; rfl
  have e3 : (of a).dz = a.z := by rw [of_eq hv]; rfl
  have e4 : (of a).zBottom = a.lo := by rw [of_eq hv]; rfl
  have e5 : (of a).zTop = a.hi := by rw [of_eq hv]; rfl
  have face : ∀ c k, a.lo ≤ c → c ≤ a.hi → k = 1 - (c / a.z) ^ 2 →
      a.Closed ⟨(EllTube.randomPointInEllipse (a.x * √k) (a.y * √k) l).1, (EllTube.randomPointInEllipse (a.x * √k) (a.y * √k) l).2, c⟩ := by
    intro c k h1 h2 hk
    refine ⟨h1, h2, ?_⟩
    have h3 := inEllipse_scaled hx hy (sqrt_nonneg k) l
    have hc : (c / a.z) ^ 2 ≤ 1 := by
      rw [sq_le_one_iff_abs_le_one, abs_div, abs_of_pos hz, div_le_one hz, abs_le]
      exact ⟨by linarith [hv.lo], by linarith [hv.hi]⟩
    rw [sq_sqrt (by linarith)] at h3
    unfold Par.ell
    dsimp only
    linarith
  unfold samplePointOnSurface
  rw [e1, e2, e3, e4, e5]
  extract_lets Hbot Htop piAB Sbot Stop select k
  split
  · exact ⟨_, rfl, face a.lo _ (le_refl _) hv.cut.le (by show (1 + a.lo / a.z) * (2 - (1 + a.lo / a.z)) = _; ring), .inl rfl⟩
  split
  · exact lateral_surface hv hw h01
  · exact ⟨_, rfl, face a.hi _ hv.cut.le (le_refl _) (by show (1 - a.hi / a.z) * (2 - (1 - a.hi / a.z)) = _; ring), .inr (.inl rfl)⟩

/-! ## Mesh -/

/-- C106: the vertices of the mesh lie on the ellipsoid, and so on the surface if the ellipsoid is not cut. -/
theorem C106_mesh_partial (hv : a.Valid) (n i j : Nat) : a.ell (meshVertex (of a) n i j) = 1 ∧
    (a.lo = -a.z → a.hi = a.z → a.Surface (meshVertex (of a) n i j)) := by
  have hx := (x_pos hv).ne'
  have hy := (y_pos hv).ne'
  have hz := z_pos hv
  have hell : a.ell (meshVertex (of a) n i j) = 1 := by
    rw [of_eq hv]
    unfold meshVertex Par.ell
    simp only [cache]
    generalize (a.z - a.hi) * π / (2 * a.z) + ↑i * ((a.hi - a.lo) / (2 * a.z) * π / ↑n) = θ
    generalize (j : ℝ) * (2 * π / ↑n) = φ
    rw [mul_assoc, mul_assoc, mul_div_cancel_left₀ _ hx, mul_div_cancel_left₀ _ hy, mul_div_cancel_left₀ _ hz.ne']
    linear_combination sin θ ^ 2 * sin_sq_add_cos_sq φ + sin_sq_add_cos_sq θ
  refine ⟨hell, fun h1 h2 => ⟨⟨?_, ?_, hell.le⟩, .inr (.inr hell)⟩⟩
  all_goals
    have h3 : ((meshVertex (of a) n i j).z / a.z) ^ 2 ≤ 1 := by
      unfold Par.ell at hell
      linarith [sq_nonneg ((meshVertex (of a) n i j).x / a.x), sq_nonneg ((meshVertex (of a) n i j).y / a.y)]
    rw [sq_le_one_iff_abs_le_one, abs_div, abs_of_pos hz, div_le_one hz, abs_le] at h3
  · rw [h1]; exact h3.1
  · rw [h2]; exact h3.2

/-- C106: the angle of the first ring is taken in proportion to the height of the cut instead of its arc cosine: for every cut above the middle the
whole first ring of the mesh lies above the cut. -/
theorem C106_mesh_counterexample (hv : a.Valid) (h0 : 0 < a.hi) (h1 : a.hi < a.z) (n j : Nat) : a.hi < (meshVertex (of a) n 0 j).z := by
  have hz := z_pos hv
  have hpi := pi_pos
  rw [of_eq hv]
  unfold meshVertex
  simp only [cache, Nat.cast_zero, zero_mul, add_zero]
  rw [show (a.z - a.hi) * π / (2 * a.z) = π / 2 - π * a.hi / (2 * a.z) by field_simp, cos_pi_div_two_sub]
  have h2 := mul_lt_sin (x := π * a.hi / (2 * a.z)) (by positivity) (by
    rw [div_lt_div_iff₀ (by positivity) (by norm_num)]
    nlinarith)
  have h3 := mul_lt_mul_of_pos_left h2 hz
  rw [show a.z * (2 / π * (π * a.hi / (2 * a.z))) = a.hi by field_simp] at h3
  exact h3

example : 0 < bowl.hi ∧ bowl.hi < bowl.z := by norm_num [bowl]

end Ellipsoid
end VecGeom
