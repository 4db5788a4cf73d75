import Verif.Paraboloid.DistOut
import Verif.Base.Ellipse
import Mathlib.Analysis.Calculus.Deriv.Pow
import Mathlib.Analysis.SpecialFunctions.Integrals.Basic
import Mathlib.Analysis.SpecialFunctions.Sqrt

/-!
# C139 – C141: normals, capacity, area, extent, sampling and setters of paraboloids
-/

namespace VecGeom
namespace Paraboloid

open Real MeasureTheory

variable {a : Par} {s : State}

/-! ## C139: normals -/

theorem sign_fA (hv : a.Valid) (g : Good s a) : sign (-s.fA) = -1 := by
  have := curv_pos hv
  unfold sign
  rw [g.fA, if_pos (by linarith)]

theorem normalized_z {c : ℝ} (h : c ≠ 0) : normalized ⟨0, 0, c⟩ = some ⟨0, 0, 1 / |c| * c⟩ := by
  have hm : (⟨0, 0, c⟩ : V3).mag = |c| := by
    unfold V3.mag
    rw [← sqrt_sq_eq_abs]
    congr 1
    simp only [V3.mag2, V3.dot]
    ring
  unfold normalized
  rw [hm, if_neg (abs_ne_zero.mpr h)]
  congr 1
  ext <;> simp

/-- What the kernel returns, by the surfaces the point is on. -/
theorem kernel_on (hv : a.Valid) (g : Good s a) {p : V3} (h : (OnTop s p ∨ OnBottom s p) ∨ OnSide s p) :
    normalKernel s p = (true, normalized ⟨0, 0, (open Classical in
      (if OnBottom s p then -1 else if OnTop s p then 1 else 0) + (if OnSide s p then 1 else 0))⟩) := by
  unfold normalKernel
  dsimp only
  rw [if_pos h, sign_fA hv g]
  congr 2
  by_cases h1 : OnBottom s p <;> by_cases h2 : OnTop s p <;> by_cases h3 : OnSide s p <;>
    simp only [h1, h2, h3, if_true, if_false] <;> ext <;> simp

/-- C139: on the top lid, rim included, the normal is valid, of length one and points up; on the bottom lid away from the rim
it points down. -/
theorem C139_lids_partial (hv : a.Valid) (g : Good s a) (hz : kTolerance ≤ a.dz) (p : V3) :
    (|p.z - a.dz| < kTolerance → p.x ^ 2 + p.y ^ 2 < a.rhi ^ 2 + kHalfTolerance →
      normalKernel s p = (true, some ⟨0, 0, 1⟩)) ∧
    (|p.z + a.dz| < kTolerance → p.x ^ 2 + p.y ^ 2 < a.rlo ^ 2 + kHalfTolerance →
      kTolerance ≤ a.curv * |p.x ^ 2 + p.y ^ 2 - a.r2 p.z| → normalKernel s p = (true, some ⟨0, 0, -1⟩)) := by
  constructor
  · intro h1 h2
    have ht : OnTop s p := ⟨by rw [g.dz]; exact h1, by rw [g.rhi2, perp2_eq]; exact h2⟩
    have hb : ¬ OnBottom s p := by
      rintro ⟨h3, -⟩
      rw [g.dz] at h3
      linarith [(abs_lt.mp h1).1, (abs_lt.mp h3).2]
    rw [kernel_on hv g (Or.inl (Or.inl ht)), if_neg hb, if_pos ht]
    split
    · rw [normalized_z (by norm_num)]
      norm_num
    · rw [normalized_z (by norm_num)]
      norm_num
  · intro h1 h2 h3
    have hb : OnBottom s p := ⟨by rw [g.dz]; exact h1, by rw [g.rlo2, perp2_eq]; exact h2⟩
    have hs : ¬ OnSide s p := by
      rintro ⟨h4, h5⟩
      have h6 : |value s p| < kTolerance := abs_lt.mpr ⟨h4, h5⟩
      rw [value_eq hv g, abs_mul, abs_of_pos (curv_pos hv), perp2_eq] at h6
      linarith
    rw [kernel_on hv g (Or.inl (Or.inr hb)), if_pos hb, if_neg hs, normalized_z (by norm_num)]
    norm_num

/-- C139: at every point of the side away from the lids the kernel reports `(0, 0, 1)` as a valid normal, and this vector
points into the solid. -/
theorem C139_side_counterexample (hv : a.Valid) (g : Good s a) (p : V3) (hp : p.x ^ 2 + p.y ^ 2 = a.r2 p.z)
    (hz : |p.z| ≤ a.dz - kTolerance) : normalKernel s p = (true, some ⟨0, 0, 1⟩) ∧
      ∀ e, 0 < e → e ≤ kTolerance → a.Closed ⟨p.x, p.y, p.z + e⟩ ∧ p.x ^ 2 + p.y ^ 2 < a.r2 (p.z + e) := by
  have ht := kTolerance_pos
  have hcv := curv_pos hv
  obtain ⟨h1, h2⟩ := abs_le.mp hz
  constructor
  · have hs : OnSide s p := by
      have : value s p = 0 := by rw [value_eq hv g, perp2_eq, hp, sub_self, mul_zero]
      exact ⟨by rw [this]; linarith, by rw [this]; exact ht⟩
    have h3 : ¬ OnTop s p := by
      rintro ⟨h3, -⟩
      rw [g.dz] at h3
      linarith [(abs_lt.mp h3).1]
    have h4 : ¬ OnBottom s p := by
      rintro ⟨h3, -⟩
      rw [g.dz] at h3
      linarith [(abs_lt.mp h3).2]
    rw [kernel_on hv g (Or.inr hs), if_neg h4, if_neg h3, if_pos hs, normalized_z (by norm_num)]
    norm_num
  · intro e he he'
    have h3 : a.r2 p.z < a.r2 (p.z + e) := by
      rw [r2_eq hv, r2_eq hv]
      have : (p.z + a.dz) / a.curv < (p.z + e + a.dz) / a.curv := div_lt_div_of_pos_right (by linarith) hcv
      linarith
    refine ⟨⟨by dsimp only; linarith, by dsimp only; linarith, ?_⟩, by rw [hp]; exact h3⟩
    dsimp only
    rw [hp]; exact h3.le

/-- C139: on the rim of the bottom lid the two contributions cancel, and a vector of length zero is normalised. -/
theorem C139_rim_counterexample (hv : a.Valid) (g : Good s a) (p : V3) (hp : p.x ^ 2 + p.y ^ 2 = a.rlo ^ 2)
    (hz : p.z = -a.dz) : normalKernel s p = (true, none) := by
  have ht := kTolerance_pos
  have hs : OnSide s p := by
    have : value s p = 0 := by rw [value_eq hv g, perp2_eq, hp, hz, r2_bot, sub_self, mul_zero]
    exact ⟨by rw [this]; linarith, by rw [this]; exact ht⟩
  have hb : OnBottom s p := by
    refine ⟨by rw [g.dz, hz]; simpa using ht, ?_⟩
    rw [g.rlo2, perp2_eq, hp]
    unfold kHalfTolerance
    linarith
  rw [kernel_on hv g (Or.inr hs), if_pos hb, if_pos hs]
  have hm : (⟨0, 0, -1 + 1⟩ : V3).mag = 0 := by
    unfold V3.mag V3.mag2 V3.dot
    norm_num
  unfold normalized
  rw [if_pos hm]

example : normalKernel cupS ⟨0, 0, -1⟩ = (true, some ⟨0, 0, -1⟩) := by
  apply (C139_lids_partial cup_valid cup_good (by norm_num [cup, kTolerance]) ⟨0, 0, -1⟩).2
  · norm_num [cup, kTolerance]
  · norm_num [cup, kHalfTolerance, kTolerance]
  · rw [cup_r2, cup_curv]; norm_num [kTolerance]

example : normalKernel cupS ⟨3 / 2, 0, -1 / 6⟩ = (true, some ⟨0, 0, 1⟩) :=
  (C139_side_counterexample cup_valid cup_good ⟨3 / 2, 0, -1 / 6⟩ (by rw [cup_r2]; norm_num)
    (by norm_num [cup, kTolerance])).1

/-! ## C140: capacity and surface area -/

/-- The area of a disc with the squared radius `R`. -/
theorem area_round {R : ℝ} (hR : 0 ≤ R) : volume {w : Fin 2 → ℝ | w 0 ^ 2 + w 1 ^ 2 ≤ R} = ENNReal.ofReal (π * R) := by
  rcases hR.eq_or_lt with h | h
  · rw [← h, mul_zero, ENNReal.ofReal_zero]
    have : {w : Fin 2 → ℝ | w 0 ^ 2 + w 1 ^ 2 ≤ 0} = {0} := by
      ext w
      simp only [Set.mem_setOf_eq, Set.mem_singleton_iff]
      constructor
      · intro h
        ext i
        fin_cases i
        · show w 0 = 0
          nlinarith [sq_nonneg (w 0), sq_nonneg (w 1)]
        · show w 1 = 0
          nlinarith [sq_nonneg (w 0), sq_nonneg (w 1)]
      · rintro rfl; simp
    rw [this]
    exact measure_singleton _
  · have hs := sqrt_pos.mpr h
    have := area_ellipse hs hs
    rw [mul_assoc, mul_self_sqrt hR] at this
    rw [← this]
    congr 1
    ext w
    simp only [Set.mem_setOf_eq, div_pow, sq_sqrt hR]
    rw [← add_div, div_le_one h]

theorem r2_nonneg (hv : a.Valid) {z : ℝ} (h : -a.dz ≤ z) : 0 ≤ a.r2 z := by
  have := r2_mono hv h
  rw [r2_bot] at this
  exact le_trans (sq_nonneg _) this

/-- C140: the capacity is the volume of the set of points of the solid. -/
theorem C140_capacity (hv : a.Valid) (m : State) :
    volume {q : Fin 3 → ℝ | a.Closed ⟨q 0, q 1, q 2⟩} = ENNReal.ofReal (capacity (create m a.rlo a.rhi a.dz)) := by
  have hz := hv.dz
  have hpi := pi_pos
  have hset : {q : Fin 3 → ℝ | a.Closed ⟨q 0, q 1, q 2⟩} =
      ({q | -a.dz ≤ q 2} ∩ {q | q 2 ≤ a.dz}) ∩ {q | q 0 ^ 2 + q 1 ^ 2 ≤ a.r2 (q 2)} := by
    ext q
    exact ⟨fun h => ⟨⟨h.lo, h.hi⟩, h.r⟩, fun h => ⟨h.1.1, h.1.2, h.2⟩⟩
  have hmeas : MeasurableSet {q : Fin 3 → ℝ | a.Closed ⟨q 0, q 1, q 2⟩} := by
    rw [hset]
    have m1 : Measurable fun q : Fin 3 → ℝ => q 0 ^ 2 + q 1 ^ 2 := by fun_prop
    have m2 : Measurable fun q : Fin 3 → ℝ => a.r2 (q 2) := by unfold Par.r2; fun_prop
    have mz : Measurable fun q : Fin 3 → ℝ => q 2 := by fun_prop
    exact ((measurableSet_le measurable_const mz).inter (measurableSet_le mz measurable_const)).inter (measurableSet_le m1 m2)
  rw [volume_slices hmeas (a := -a.dz) (b := a.dz) (g := fun z => π * a.r2 z) (by linarith)
    (by unfold Par.r2; fun_prop) (fun z h => mul_nonneg hpi.le (r2_nonneg hv h.1))]
  · have e : ∀ z, π * a.r2 z = π * ((a.rlo ^ 2 + a.rhi ^ 2) / 2) + π * ((a.rhi ^ 2 - a.rlo ^ 2) / (2 * a.dz)) * z + 0 * z ^ 2 := by
      intro z
      have := hz.ne'
      unfold Par.r2
      field_simp
      ring
    simp only [e]
    rw [integral_quadratic]
    congr 1
    show _ = π * a.dz * (a.rlo * a.rlo + a.rhi * a.rhi)
    ring
  · intro q hq
    exact ⟨hq.lo, hq.hi⟩
  · intro z hz'
    rw [← area_round (r2_nonneg hv hz'.1)]
    congr 1
    ext w
    exact ⟨fun h => h.r, fun h => ⟨hz'.1, hz'.2, h⟩⟩

/-- An antiderivative for the area of the side. -/
theorem deriv_side {c : ℝ} (hc : 0 < c) (r : ℝ) :
    HasDerivAt (fun r => π / (6 * c ^ 2) * ((1 + (2 * c * r) ^ 2) * √(1 + (2 * c * r) ^ 2)))
      (2 * π * r * √(1 + (2 * c * r) ^ 2)) r := by
  have hu : 0 < 1 + (2 * c * r) ^ 2 := by positivity
  have h1 : HasDerivAt (fun r : ℝ => 1 + (2 * c * r) ^ 2) (8 * c ^ 2 * r) r := by
    have := (((hasDerivAt_id r).const_mul (2 * c)).pow 2).const_add 1
    refine HasDerivAt.congr_deriv this ?_
    simp only [id]
    norm_num
    ring
  have h2 := h1.sqrt hu.ne'
  have h3 := (h1.mul h2).const_mul (π / (6 * c ^ 2))
  refine HasDerivAt.congr_deriv h3 ?_
  have hs := sqrt_pos.mpr hu
  have hs2 := sq_sqrt hu.le
  have hc' := hc.ne'
  have e : (1 + (2 * c * r) ^ 2) * (8 * c ^ 2 * r / (2 * √(1 + (2 * c * r) ^ 2))) = 4 * c ^ 2 * r * √(1 + (2 * c * r) ^ 2) := by
    rw [mul_div_assoc', div_eq_iff (by positivity)]
    linear_combination (-8 * c ^ 2 * r) * hs2
  rw [e]
  field_simp
  ring

/-- The area that belongs to one radius, as the code computes it. -/
theorem cap_area {c r : ℝ} (hc : 0 < c) (hr : 0 < r) :
    π * r / 6 / (c * r ^ 2 * (c * r ^ 2)) * (√((r ^ 2 + 4 * (c * r ^ 2 * (c * r ^ 2))) *
      ((r ^ 2 + 4 * (c * r ^ 2 * (c * r ^ 2))) * (r ^ 2 + 4 * (c * r ^ 2 * (c * r ^ 2))))) - r ^ 2 * r) =
    π / (6 * c ^ 2) * ((1 + (2 * c * r) ^ 2) * √(1 + (2 * c * r) ^ 2)) - π / (6 * c ^ 2) := by
  have hu : 0 < 1 + (2 * c * r) ^ 2 := by positivity
  have e : (r ^ 2 + 4 * (c * r ^ 2 * (c * r ^ 2))) * ((r ^ 2 + 4 * (c * r ^ 2 * (c * r ^ 2))) *
      (r ^ 2 + 4 * (c * r ^ 2 * (c * r ^ 2)))) = (r ^ 3 * (1 + (2 * c * r) ^ 2)) ^ 2 * (1 + (2 * c * r) ^ 2) := by ring
  rw [e, sqrt_mul (by positivity), sqrt_sq (by positivity)]
  field_simp

/-- C140: the surface area is the area of the two lids plus the area of the surface of revolution. -/
theorem C140_area (hv : a.Valid) (m : State) :
    surfaceArea (create m a.rlo a.rhi a.dz) = π * a.rlo ^ 2 + π * a.rhi ^ 2 +
      ∫ r in a.rlo..a.rhi, 2 * π * r * √(1 + (2 * a.curv * r) ^ 2) := by
  have hc := curv_pos hv
  have hrhi : 0 < a.rhi := by linarith [hv.rlo, hv.lt]
  rw [intervalIntegral.integral_eq_sub_of_hasDerivAt (fun r _ => deriv_side hc r)
    (by apply Continuous.intervalIntegrable; fun_prop)]
  have g := good_cached hv (s := { m with rlo := a.rlo, rhi := a.rhi, dz := a.dz }) rfl rfl rfl
  have hg := good_cached (s := calcCapacity (calculateCached { m with rlo := a.rlo, rhi := a.rhi, dz := a.dz })) hv rfl rfl rfl
  have e1 : -(-(a.rlo ^ 2 * a.curv) - a.dz) + a.dz = a.curv * a.rhi ^ 2 := by rw [rhi2_eq hv]; ring
  have e2 : -(-(a.rlo ^ 2 * a.curv) - a.dz) - a.dz = a.curv * a.rlo ^ 2 := by ring
  unfold surfaceArea create calcSurfaceArea
  have f1 : (calcCapacity (calculateCached { m with rlo := a.rlo, rhi := a.rhi, dz := a.dz })).fB =
    -(a.rlo ^ 2 * a.curv) - a.dz := g.fB
  have f2 : (calcCapacity (calculateCached { m with rlo := a.rlo, rhi := a.rhi, dz := a.dz })).dz = a.dz := rfl
  have f3 : (calcCapacity (calculateCached { m with rlo := a.rlo, rhi := a.rhi, dz := a.dz })).rlo = a.rlo := rfl
  have f4 : (calcCapacity (calculateCached { m with rlo := a.rlo, rhi := a.rhi, dz := a.dz })).rhi = a.rhi := rfl
  have f5 : (calcCapacity (calculateCached { m with rlo := a.rlo, rhi := a.rhi, dz := a.dz })).rlo2 = a.rlo ^ 2 := g.rlo2
  have f6 : (calcCapacity (calculateCached { m with rlo := a.rlo, rhi := a.rhi, dz := a.dz })).rhi2 = a.rhi ^ 2 := g.rhi2
  dsimp only
  rw [f1, f2, f3, f4, f5, f6, e1, e2]
  have c1 := cap_area hc hrhi
  have e3 : a.rhi ^ 2 + 4 * (a.curv * a.rhi ^ 2) * (a.curv * a.rhi ^ 2) =
    a.rhi ^ 2 + 4 * (a.curv * a.rhi ^ 2 * (a.curv * a.rhi ^ 2)) := by ring
  rw [e3, c1]
  rcases hv.rlo.eq_or_lt with h | h
  · rw [← h, if_neg (by simp)]
    simp only [ne_eq, OfNat.ofNat_ne_zero, not_false_eq_true, zero_pow, mul_zero, add_zero, sqrt_one, mul_one]
    ring
  · rw [if_pos (by positivity), cap_area hc h]
    ring

example : volume {q : Fin 3 → ℝ | cup.Closed ⟨q 0, q 1, q 2⟩} = ENNReal.ofReal (5 * π) := by
  rw [C140_capacity cup_valid mem]
  congr 1
  show π * cup.dz * (cup.rlo * cup.rlo + cup.rhi * cup.rhi) = _
  norm_num [cup]
  ring

/-! ## C141: extent, sampling, setters -/

/-- C141: the extent is the tightest box around the solid. -/
theorem C141_extent (hv : a.Valid) (g : Good s a) :
    IsLeast (V3.x '' {p | a.Closed p}) (extent s).1.x ∧ IsGreatest (V3.x '' {p | a.Closed p}) (extent s).2.x ∧
    IsLeast (V3.y '' {p | a.Closed p}) (extent s).1.y ∧ IsGreatest (V3.y '' {p | a.Closed p}) (extent s).2.y ∧
    IsLeast (V3.z '' {p | a.Closed p}) (extent s).1.z ∧ IsGreatest (V3.z '' {p | a.Closed p}) (extent s).2.z := by
  have hz := hv.dz
  have hrhi : 0 < a.rhi := by linarith [hv.rlo, hv.lt]
  have hr : ∀ p, a.Closed p → p.x ^ 2 + p.y ^ 2 ≤ a.rhi ^ 2 := by
    intro p hp
    have := r2_mono hv hp.hi
    rw [r2_top hv] at this
    exact le_trans hp.r this
  have bx : ∀ p, a.Closed p → |p.x| ≤ a.rhi := fun p hp =>
    abs_le_of_sq_le_sq (by linarith [hr p hp, sq_nonneg p.y]) hrhi.le
  have by' : ∀ p, a.Closed p → |p.y| ≤ a.rhi := fun p hp =>
    abs_le_of_sq_le_sq (by linarith [hr p hp, sq_nonneg p.x]) hrhi.le
  have rim : ∀ x y, x ^ 2 + y ^ 2 ≤ a.rhi ^ 2 → a.Closed ⟨x, y, a.dz⟩ := fun x y h =>
    ⟨by dsimp only; linarith, le_refl _, by dsimp only; rw [r2_top hv]; exact h⟩
  have e : extent s = (⟨-a.rhi, -a.rhi, -a.dz⟩, ⟨a.rhi, a.rhi, a.dz⟩) := by
    unfold extent; rw [g.dx, g.dy, g.dz]
  rw [e]
  refine ⟨⟨⟨_, rim (-a.rhi) 0 (by simp), rfl⟩, ?_⟩, ⟨⟨_, rim a.rhi 0 (by simp), rfl⟩, ?_⟩,
    ⟨⟨_, rim 0 (-a.rhi) (by simp), rfl⟩, ?_⟩, ⟨⟨_, rim 0 a.rhi (by simp), rfl⟩, ?_⟩,
    ⟨⟨⟨0, 0, -a.dz⟩, ⟨le_refl _, by dsimp only; linarith, ?_⟩, rfl⟩, ?_⟩,
    ⟨⟨_, rim 0 0 (by have := sq_nonneg a.rhi; linarith), rfl⟩, ?_⟩⟩
  · rintro _ ⟨p, hp, rfl⟩; exact (abs_le.mp (bx p hp)).1
  · rintro _ ⟨p, hp, rfl⟩; exact (abs_le.mp (bx p hp)).2
  · rintro _ ⟨p, hp, rfl⟩; exact (abs_le.mp (by' p hp)).1
  · rintro _ ⟨p, hp, rfl⟩; exact (abs_le.mp (by' p hp)).2
  · dsimp only; rw [r2_bot]; have := sq_nonneg a.rlo; linarith
  · rintro _ ⟨p, hp, rfl⟩; exact hp.lo
  · rintro _ ⟨p, hp, rfl⟩; exact hp.hi

theorem polar (r φ : ℝ) : (r * cos φ) ^ 2 + (r * sin φ) ^ 2 = r ^ 2 := by
  have := sin_sq_add_cos_sq φ
  linear_combination r ^ 2 * this

/-- C141: whatever numbers the generator gives, the sampled point lies on the surface. -/
theorem C141_sample (hv : a.Valid) (g : Good s a) (u u' u'' : ℝ) (h0 : 0 ≤ u'') (h1 : u'' < 1) :
    a.Surface (samplePointOnSurface s u u' u'') := by
  have hz := hv.dz
  have hu : √u'' ^ 2 = u'' := sq_sqrt h0
  unfold samplePointOnSurface
  dsimp only
  split
  · split
    · refine ⟨⟨by dsimp only; rw [g.dz], by dsimp only; rw [g.dz]; linarith, ?_⟩, Or.inl (by dsimp only; rw [g.dz])⟩
      dsimp only
      rw [polar, g.dz, r2_bot, g.rlo, mul_pow, hu]
      nlinarith [sq_nonneg a.rlo]
    · refine ⟨⟨by dsimp only; rw [g.dz]; linarith, by dsimp only; rw [g.dz], ?_⟩, Or.inr (Or.inl (by dsimp only; rw [g.dz]))⟩
      dsimp only
      rw [polar, g.dz, r2_top hv, g.rhi, mul_pow, hu]
      nlinarith [sq_nonneg a.rhi]
  · have hlo : -a.dz ≤ u'' * 2 * a.dz - a.dz := by nlinarith
    have hhi : u'' * 2 * a.dz - a.dz ≤ a.dz := by nlinarith
    have e : (u'' * 2 * a.dz - a.dz) * s.invA - s.fB * s.invA = a.r2 (u'' * 2 * a.dz - a.dz) := by
      rw [← r0sq_eq hv g]; ring
    rw [g.dz, e]
    refine ⟨⟨hlo, hhi, ?_⟩, Or.inr (Or.inr ?_)⟩
    · dsimp only
      rw [polar, sq_sqrt (r2_nonneg hv hlo)]
    · dsimp only
      rw [polar, sq_sqrt (r2_nonneg hv hlo)]

/-- The calls that change a paraboloid. -/
inductive Op where
  | all (rlo rhi dz : ℝ)
  | rlo (v : ℝ)
  | rhi (v : ℝ)
  | dz (v : ℝ)

/-- The effect of one call. -/
noncomputable def step (s : State) : Op → State
  | .all x y z => setAll s x y z
  | .rlo v => setRlo s v
  | .rhi v => setRhi s v
  | .dz v => setDz s v

/-- What a call asks for. -/
def Op.want (c : ℝ × ℝ × ℝ) : Op → ℝ × ℝ × ℝ
  | .all x y z => (x, y, z)
  | .rlo v => (v, c.2.1, c.2.2)
  | .rhi v => (c.1, v, c.2.2)
  | .dz v => (c.1, c.2.1, v)

open Classical in
/-- The parameters after one call: those asked for, if they are allowed, and otherwise the ones before. -/
noncomputable def Op.next (c : ℝ × ℝ × ℝ) (o : Op) : ℝ × ℝ × ℝ :=
  if 0 ≤ (o.want c).1 ∧ 0 ≤ (o.want c).2.1 ∧ 0 < (o.want c).2.2 then o.want c else c

theorem setAll_ok (s m : State) {x y z : ℝ} (hx : 0 ≤ x) (hy : 0 ≤ y) (hz : 0 < z) : setAll s x y z = create m x y z := by
  unfold setAll structSet
  rw [if_neg (by rw [not_or, not_or, not_lt, not_lt, not_le]; exact ⟨hx, hy, hz⟩)]
  rfl

theorem setAll_bad (m : State) {x y z x' y' z' : ℝ} (h : ¬ (0 ≤ x ∧ 0 ≤ y ∧ 0 < z)) :
    setAll (create m x' y' z') x y z = create m x' y' z' := by
  unfold setAll structSet
  rw [if_pos (by
    by_contra hc
    rw [not_or, not_or, not_lt, not_lt, not_le] at hc
    exact h hc)]
  rfl

/-- C141: after any sequence of calls of the setters the solid is the one that the constructor makes from the parameters that
were asked for last and allowed; a call with parameters that are not allowed changes nothing. -/
theorem C141_setters (m : State) (ops : List Op) (x y z : ℝ) :
    ops.foldl step (create m x y z) =
      create m (ops.foldl Op.next (x, y, z)).1 (ops.foldl Op.next (x, y, z)).2.1 (ops.foldl Op.next (x, y, z)).2.2 := by
  induction ops generalizing x y z with
  | nil => rfl
  | cons o rest ih =>
    have key : step (create m x y z) o = create m (o.next (x, y, z)).1 (o.next (x, y, z)).2.1 (o.next (x, y, z)).2.2 := by
      have hs : step (create m x y z) o =
          setAll (create m x y z) (o.want (x, y, z)).1 (o.want (x, y, z)).2.1 (o.want (x, y, z)).2.2 := by
        cases o <;> rfl
      rw [hs]
      unfold Op.next
      by_cases h : 0 ≤ (o.want (x, y, z)).1 ∧ 0 ≤ (o.want (x, y, z)).2.1 ∧ 0 < (o.want (x, y, z)).2.2
      · rw [if_pos h]
        exact setAll_ok _ m h.1 h.2.1 h.2.2
      · rw [if_neg h]
        exact setAll_bad m h
    rw [List.foldl_cons, List.foldl_cons, key]
    exact ih _ _ _

/-- Not vacuous: a call that is rejected between two that are not. -/
example : [Op.rhi 3, Op.dz (-1), Op.rlo 2].foldl step (create mem 1 2 1) = create mem 2 3 1 := by
  rw [C141_setters]
  simp only [List.foldl_cons, List.foldl_nil, Op.next, Op.want]
  norm_num

example : cup.Surface (samplePointOnSurface cupS (1 / 2) (1 / 3) (1 / 4)) :=
  C141_sample cup_valid cup_good _ _ _ (by norm_num) (by norm_num)

end Paraboloid
end VecGeom
