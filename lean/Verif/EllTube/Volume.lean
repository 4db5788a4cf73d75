import Verif.EllTube.Props
import Verif.Base.Ellipse

/-!
# C89: capacity, extent, parameters and sampling of elliptical tubes
-/

namespace VecGeom
namespace EllTube

open Real MeasureTheory

variable {a : Par}

/-- C89: the capacity of an elliptical tube is the volume of the set of its points. -/
theorem C89_capacity (hv : a.Valid) :
    volume {q : Fin 3 → ℝ | a.Closed ⟨q 0, q 1, q 2⟩} = ENNReal.ofReal (capacity (of a)) := by
  have hx := x_pos hv
  have hy := y_pos hv
  have hpi := pi_pos
  have hset : {q : Fin 3 → ℝ | a.Closed ⟨q 0, q 1, q 2⟩} = {q | |q 2| ≤ a.z} ∩ {q | (q 0 / a.x) ^ 2 + (q 1 / a.y) ^ 2 ≤ 1} := by
    ext q
    exact ⟨fun h => ⟨h.z, h.r⟩, fun h => ⟨h.1, h.2⟩⟩
  have hmeas : MeasurableSet {q : Fin 3 → ℝ | a.Closed ⟨q 0, q 1, q 2⟩} := by
    rw [hset]
    have m : Measurable fun q : Fin 3 → ℝ => (q 0 / a.x) ^ 2 + (q 1 / a.y) ^ 2 := by fun_prop
    have mz : Measurable fun q : Fin 3 → ℝ => |q 2| := by fun_prop
    exact (measurableSet_le mz measurable_const).inter (measurableSet_le m measurable_const)
  rw [volume_slices hmeas (a := -a.z) (b := a.z) (g := fun _ => π * a.x * a.y) (by linarith [hv.z])
    continuousOn_const (fun _ _ => by positivity)]
  · rw [intervalIntegral.integral_const]
    congr 1
    rw [smul_eq_mul, of_eq hv]
    show _ = 2 * π * a.x * a.y * a.z
    ring
  · intro q hq
    exact abs_le.mp hq.z
  · intro z hz
    rw [← area_ellipse hx hy]
    congr 1
    ext w
    have hz' : |z| ≤ a.z := abs_le.mpr hz
    rw [hset]
    simp [hz']

/-- C89: the extent is the tightest box around the tube. -/
theorem C89_extent (hv : a.Valid) :
    IsLeast (V3.x '' {p | a.Closed p}) (extent (of a)).1.x ∧ IsGreatest (V3.x '' {p | a.Closed p}) (extent (of a)).2.x ∧
    IsLeast (V3.y '' {p | a.Closed p}) (extent (of a)).1.y ∧ IsGreatest (V3.y '' {p | a.Closed p}) (extent (of a)).2.y ∧
    IsLeast (V3.z '' {p | a.Closed p}) (extent (of a)).1.z ∧ IsGreatest (V3.z '' {p | a.Closed p}) (extent (of a)).2.z := by
  have hx := x_pos hv
  have hy := y_pos hv
  have hz := hv.z
  have ex : ∀ q, a.Closed q → |q.x| ≤ a.x := by
    intro q hq
    have h := hq.r
    unfold Par.ell at h
    have h2 : (q.x / a.x) ^ 2 ≤ 1 := by linarith [sq_nonneg (q.y / a.y)]
    rw [div_pow, div_le_one (by positivity)] at h2
    exact abs_le_of_sq_le_sq h2 hx.le
  have ey : ∀ q, a.Closed q → |q.y| ≤ a.y := by
    intro q hq
    have h := hq.r
    unfold Par.ell at h
    have h2 : (q.y / a.y) ^ 2 ≤ 1 := by linarith [sq_nonneg (q.x / a.x)]
    rw [div_pow, div_le_one (by positivity)] at h2
    exact abs_le_of_sq_le_sq h2 hy.le
  have c1 : ∀ s : ℝ, s ^ 2 = 1 → a.Closed ⟨s * a.x, 0, 0⟩ ∧ a.Closed ⟨0, s * a.y, 0⟩ ∧ a.Closed ⟨0, 0, s * a.z⟩ := by
    intro s hs
    refine ⟨⟨by simpa using hz.le, ?_⟩, ⟨by simpa using hz.le, ?_⟩, ⟨?_, by simp [Par.ell]⟩⟩
    · simp only [Par.ell]; rw [mul_div_cancel_right₀ _ hx.ne', hs]; simp
    · simp only [Par.ell]; rw [mul_div_cancel_right₀ _ hy.ne', hs]; simp
    · have : |s| = 1 := by rw [← sqrt_sq_eq_abs, hs, sqrt_one]
      simp only [abs_mul, this, one_mul, abs_of_pos hz, le_refl]
  have p1 := c1 1 (by norm_num)
  have m1 := c1 (-1) (by norm_num)
  simp only [one_mul, neg_mul] at p1 m1
  rw [of_eq hv]
  refine ⟨⟨⟨_, m1.1, rfl⟩, ?_⟩, ⟨⟨_, p1.1, rfl⟩, ?_⟩, ⟨⟨_, m1.2.1, rfl⟩, ?_⟩, ⟨⟨_, p1.2.1, rfl⟩, ?_⟩, ⟨⟨_, m1.2.2, rfl⟩, ?_⟩,
    ⟨⟨_, p1.2.2, rfl⟩, ?_⟩⟩ <;> rintro _ ⟨q, hq, rfl⟩
  · exact (abs_le.mp (ex q hq)).1
  · exact (abs_le.mp (ex q hq)).2
  · exact (abs_le.mp (ey q hq)).1
  · exact (abs_le.mp (ey q hq)).2
  · exact (abs_le.mp hq.z).1
  · exact (abs_le.mp hq.z).2

/-- C89: a setter makes the tube that the constructor makes of the new lengths. -/
theorem C89_setters_partial (hv : a.Valid) :
    (∀ x, 2 * kTolerance ≤ x → setDx (of a) x = of { a with x := x } ∧ Par.Valid { a with x := x }) ∧
    (∀ y, 2 * kTolerance ≤ y → setDy (of a) y = of { a with y := y } ∧ Par.Valid { a with y := y }) ∧
    (∀ z, 0 < z → setDz (of a) z = of { a with z := z } ∧ Par.Valid { a with z := z }) ∧
    (∀ x y z, x < 2 * kTolerance ∨ y < 2 * kTolerance → make x y z = of ⟨2 * kTolerance, 2 * kTolerance, 2 * kTolerance⟩) := by
  have ht := kTolerance_pos
  refine ⟨fun x hx => ⟨?_, hx, hv.y, hv.z⟩, fun y hy => ⟨?_, hv.x, hy, hv.z⟩, fun z hz => ⟨?_, hv.x, hv.y, hz⟩, fun x y z h => ?_⟩
  · rw [of_eq hv]; rfl
  · rw [of_eq hv]; rfl
  · rw [of_eq hv]; rfl
  · have hv0 : (Par.mk (2 * kTolerance) (2 * kTolerance) (2 * kTolerance)).Valid := ⟨le_refl _, le_refl _, by simp only; linarith⟩
    rw [of_eq hv0]
    unfold make checkParameters
    rw [if_pos (by tauto)]

/-- C89: the half length is never checked (the one in y is checked twice): a negative one is accepted, and then the capacity is
negative and no point is in the tube. -/
theorem C89_parameters_counterexample :
    (make 1 1 (-1)).dz = -1 ∧ capacity (make 1 1 (-1)) < 0 ∧ ∀ p, contains (make 1 1 (-1)) p = false := by
  have e : make 1 1 (-1) = cache 1 1 (-1) := by
    unfold make checkParameters
    rw [if_neg]
    norm_num [kTolerance]
  rw [e]
  refine ⟨rfl, ?_, fun p => ?_⟩
  · show 2 * π * 1 * 1 * (-1) < 0
    linarith [pi_pos]
  · unfold contains
    rw [Bool.not_eq_false', decide_eq_true_eq]
    unfold approx
    apply lt_max_of_lt_right
    show kHalfTolerance < |p.z| - -1
    have := abs_nonneg p.z
    have : kHalfTolerance < 1 := by norm_num [kHalfTolerance, kTolerance]
    linarith

theorem inEllipse (hx : 0 < a.x) (hy : 0 < a.y) (l : List (ℝ × ℝ)) (z : ℝ) :
    a.ell ⟨(randomPointInEllipse a.x a.y l).1, (randomPointInEllipse a.x a.y l).2, z⟩ ≤ 1 := by
  induction l with
  | nil => simp [randomPointInEllipse, Par.ell]
  | cons uv rest ih =>
    obtain ⟨u, v⟩ := uv
    rw [randomPointInEllipse]
    have e1 : (if a.x * a.x = 0 then 0 else 1 / (a.x * a.x)) = 1 / (a.x * a.x) := if_neg (by positivity)
    have e2 : (if a.y * a.y = 0 then 0 else 1 / (a.y * a.y)) = 1 / (a.y * a.y) := if_neg (by positivity)
    rw [e1, e2]
    split
    · rename_i h
      unfold Par.ell
      dsimp only
      rw [div_pow, div_pow]
      calc _ = a.x * (2 * u - 1) * (a.x * (2 * u - 1)) * (1 / (a.x * a.x)) + a.y * (2 * v - 1) * (a.y * (2 * v - 1)) * (1 / (a.y * a.y)) := by
            field_simp
        _ ≤ 1 := h
    · exact ih

theorem onEllipse (hx : 0 < a.x) (hy : 0 < a.y) {l : List (ℝ × ℝ)} (hl : l ≠ []) (z : ℝ) :
    ∃ q, randomPointOnEllipse a.x a.y l = some q ∧ a.ell ⟨q.1, q.2, z⟩ = 1 := by
  induction l with
  | nil => exact absurd rfl hl
  | cons uv rest ih =>
    obtain ⟨u, v⟩ := uv
    rw [randomPointOnEllipse]
    split
    · refine ⟨_, rfl, ?_⟩
      unfold Par.ell
      dsimp only
      rw [abs_of_pos hx, abs_of_pos hy, mul_div_cancel_left₀ _ hx.ne', mul_div_cancel_left₀ _ hy.ne']
      linarith [sin_sq_add_cos_sq (2 * π * u)]
    · rename_i h
      exact ih (fun h' => h (.inr h'))

/-- C89: for all outcomes of the random numbers the sampled point lies on the surface, whatever surface area the choice of the face
is based on. -/
theorem C89_sample (hv : a.Valid) (area u : ℝ) {l : List (ℝ × ℝ)} (hl : l ≠ []) {w : ℝ} (h0 : 0 ≤ w) (h1 : w ≤ 1) :
    ∃ q, samplePointOnSurface (of a) area u l w = some q ∧ a.Surface q := by
  have hx := x_pos hv
  have hy := y_pos hv
  have hz := hv.z
  have hw : |(2 * w - 1) * a.z| ≤ a.z := by
    rw [abs_mul, abs_of_pos hz]
    apply mul_le_of_le_one_left hz.le
    rw [abs_le]; constructor <;> linarith
  rw [of_eq hv]
  unfold samplePointOnSurface
  have e1 : (cache a.x a.y a.z).dx = a.x := rfl
  have e2 : (cache a.x a.y a.z).dy = a.y := rfl
  have e3 : (cache a.x a.y a.z).dz = a.z := rfl
  rw [e1, e2, e3]
  extract_lets sbase select k
  split
  · exact ⟨_, rfl, ⟨by simp only [abs_neg, abs_of_pos hz, le_refl], inEllipse hx hy l _⟩, .inl (by simp only [abs_neg, abs_of_pos hz])⟩
  split
  · exact ⟨_, rfl, ⟨by simp only [abs_of_pos hz, le_refl], inEllipse hx hy l _⟩, .inl (by simp only [abs_of_pos hz])⟩
  · obtain ⟨q, hq, he⟩ := onEllipse hx hy hl ((2 * w - 1) * a.z)
    rw [hq]
    exact ⟨_, rfl, ⟨hw, he.le⟩, .inr he⟩

/-- A concrete tube: positive capacity, and the sampling rejects a first pair of random numbers. -/
example : 0 < capacity (of flat) ∧ randomPointInEllipse flat.x flat.y [(1, 1), (1, 1 / 2)] = (4, 0) := by
  constructor
  · rw [of_eq flat_valid]
    show 0 < 2 * π * 4 * 2 * 3
    have := pi_pos
    positivity
  · have e1 : flat.x = 4 := rfl
    have e2 : flat.y = 2 := rfl
    rw [e1, e2, randomPointInEllipse, randomPointInEllipse]
    norm_num

end EllTube
end VecGeom
