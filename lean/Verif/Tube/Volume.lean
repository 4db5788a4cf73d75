import Verif.Tube.Props
import Verif.Base.Annulus

/-!
# The capacity of a tube is its volume
-/

namespace VecGeom
namespace Tube

open Real MeasureTheory

theorem capacity_eq {a : Par} (hv : a.Valid) : capacity (of a) = a.z * (a.rmax ^ 2 - a.rmin ^ 2) * a.d := by
  have h2 : (of a).rmin2 = (of a).rmin * (of a).rmin := rfl
  have h3 : (of a).rmax2 = a.rmax * a.rmax := rfl
  rw [capacity, h2, h3, of_rmin hv.rmin, of_z, of_dphi, pow_two, pow_two]

/-- C82: the capacity of a tube is the volume of the set of its points, for every inner and outer radius, length and range of angles. -/
theorem C82_capacity {a : Par} (hv : a.Valid) :
    volume {q : Fin 3 → ℝ | a.Closed ⟨q 0, q 1, q 2⟩} = ENNReal.ofReal (capacity (of a)) := by
  have hset : {q : Fin 3 → ℝ | a.Closed ⟨q 0, q 1, q 2⟩} =
      {q | |q 2| ≤ a.z} ∩ ({q | a.rmin ^ 2 ≤ q 0 ^ 2 + q 1 ^ 2} ∩ ({q | q 0 ^ 2 + q 1 ^ 2 ≤ a.rmax ^ 2} ∩ {q | Sector a.s a.d (q 0) (q 1)})) := by
    ext q
    simp only [Set.mem_setOf_eq, Set.mem_inter_iff]
    constructor
    · rintro ⟨h1, h2, h3, h4⟩
      exact ⟨h1, (le_rad hv.rmin).mp h2, (rad_le (hv.rmin.trans hv.rmax.le)).mp h3, h4⟩
    · rintro ⟨h1, h2, h3, h4⟩
      exact ⟨h1, (le_rad hv.rmin).mpr h2, (rad_le (hv.rmin.trans hv.rmax.le)).mpr h3, h4⟩
  have hmeas : MeasurableSet {q : Fin 3 → ℝ | a.Closed ⟨q 0, q 1, q 2⟩} := by
    rw [hset]
    have m : Measurable fun q : Fin 3 → ℝ => q 0 ^ 2 + q 1 ^ 2 := by fun_prop
    have mz : Measurable fun q : Fin 3 → ℝ => |q 2| := by fun_prop
    refine (measurableSet_le mz measurable_const).inter ((measurableSet_le measurable_const m).inter
      ((measurableSet_le m measurable_const).inter ?_))
    exact measurable_sector hv.d hv.d' (measurable_pi_apply 0) (measurable_pi_apply 1)
  have hsq := pow_le_pow_left₀ hv.rmin hv.rmax.le 2
  rw [volume_slices hmeas (a := -a.z) (b := a.z) (g := fun _ => (a.rmax ^ 2 - a.rmin ^ 2) / 2 * a.d) (by linarith [hv.z])
    continuousOn_const (fun _ _ => mul_nonneg (by linarith) hv.d.le)]
  · rw [intervalIntegral.integral_const]
    congr 1
    rw [smul_eq_mul, capacity_eq hv]
    ring
  · intro q hq
    exact abs_le.mp hq.z
  · intro z hz
    rw [← area_ring hv.rmin hv.rmax.le hv.d hv.d' (s := a.s)]
    congr 1
    ext w
    have hz' : |z| ≤ a.z := abs_le.mpr hz
    rw [hset]
    simp [hz']

/-- A quarter of a tube with a bore: the capacity is 9π/2, so the statement is about a set of positive finite volume. -/
example : volume {q : Fin 3 → ℝ | quarter.Closed ⟨q 0, q 1, q 2⟩} = ENNReal.ofReal (capacity (of quarter)) ∧ 0 < capacity (of quarter) := by
  refine ⟨C82_capacity quarter_valid, ?_⟩
  have := pi_pos
  rw [capacity_eq quarter_valid]
  norm_num [quarter]
  positivity

/-- C82: the areas.  Growing the half length, the outer or the inner radius by `x` changes the volume at the rate that is given as the
area of the lids, of the outer wall and (with the opposite sign) of the bore; the faces of a sector are two rectangles, and a full
tube has none; `SurfaceArea` is the sum. -/
theorem C82_areas {a : Par} (hv : a.Valid) :
    HasDerivAt (fun x => (volume {q : Fin 3 → ℝ | (Par.mk a.rmin a.rmax x a.s a.d).Closed ⟨q 0, q 1, q 2⟩}).toReal) (topArea (of a)) a.z ∧
    HasDerivAt (fun x => (volume {q : Fin 3 → ℝ | (Par.mk a.rmin x a.z a.s a.d).Closed ⟨q 0, q 1, q 2⟩}).toReal) (rOutArea (of a)) a.rmax ∧
    (0 < a.rmin →
      HasDerivAt (fun x => (volume {q : Fin 3 → ℝ | (Par.mk x a.rmax a.z a.s a.d).Closed ⟨q 0, q 1, q 2⟩}).toReal) (-rInArea (of a)) a.rmin) ∧
    (a.rmin = 0 → rInArea (of a) = 0) ∧
    (a.d < 2 * π → ENNReal.ofReal (phiArea (of a)) = 2 * volume (Set.Icc a.rmin a.rmax ×ˢ Set.Icc (-a.z) a.z)) ∧
    (a.d = 2 * π → phiArea (of a) = 0) ∧
    surfaceArea (of a) = topArea (of a) + phiArea (of a) + rOutArea (of a) + rInArea (of a) := by
  have h2 : (of a).rmin2 = (of a).rmin * (of a).rmin := rfl
  have h3 : (of a).rmax2 = a.rmax * a.rmax := rfl
  have hm := of_rmin hv.rmin
  have hd := hv.d
  have hd' := hv.d'
  have hz := hv.z
  have hr := hv.rmax
  have hr0 := hv.rmin
  have vol : ∀ b : Par, b.Valid → (volume {q : Fin 3 → ℝ | b.Closed ⟨q 0, q 1, q 2⟩}).toReal = b.z * (b.rmax ^ 2 - b.rmin ^ 2) * b.d := by
    intro b hb
    rw [C82_capacity hb, ENNReal.toReal_ofReal, capacity_eq hb]
    rw [capacity_eq hb]
    have := pow_le_pow_left₀ hb.rmin hb.rmax.le 2
    exact mul_nonneg (mul_nonneg hb.z.le (by linarith)) hb.d.le
  refine ⟨?_, ?_, ?_, ?_, ?_, ?_, rfl⟩
  · have h : HasDerivAt (fun x => x * (a.rmax ^ 2 - a.rmin ^ 2) * a.d) (1 * (a.rmax ^ 2 - a.rmin ^ 2) * a.d) a.z :=
      ((hasDerivAt_id a.z).mul_const _).mul_const _
    have e : topArea (of a) = 1 * (a.rmax ^ 2 - a.rmin ^ 2) * a.d := by
      rw [topArea, h2, h3, hm, of_dphi]; ring
    rw [e]
    refine h.congr_of_eventuallyEq ?_
    filter_upwards [lt_mem_nhds hz] with x hx
    exact vol ⟨a.rmin, a.rmax, x, a.s, a.d⟩ ⟨hr0, hr, hx, hd, hd'⟩
  · have h : HasDerivAt (fun x => a.z * (x ^ 2 - a.rmin ^ 2) * a.d) (a.z * (2 * a.rmax) * a.d) a.rmax := by
      have := (((hasDerivAt_pow 2 a.rmax).sub_const (a.rmin ^ 2)).const_mul a.z).mul_const a.d
      simpa using this
    have e : rOutArea (of a) = a.z * (2 * a.rmax) * a.d := by
      rw [rOutArea, of_z, of_rmax, of_dphi]; ring
    rw [e]
    refine h.congr_of_eventuallyEq ?_
    filter_upwards [lt_mem_nhds hr] with x hx
    exact vol ⟨a.rmin, x, a.z, a.s, a.d⟩ ⟨hr0, hx, hz, hd, hd'⟩
  · intro hpos
    have h : HasDerivAt (fun x => a.z * (a.rmax ^ 2 - x ^ 2) * a.d) (a.z * (-(2 * a.rmin)) * a.d) a.rmin := by
      have := (((hasDerivAt_pow 2 a.rmin).const_sub (a.rmax ^ 2)).const_mul a.z).mul_const a.d
      simpa using this
    have e : -rInArea (of a) = a.z * (-(2 * a.rmin)) * a.d := by
      rw [rInArea, of_z, hm, of_dphi]; ring
    rw [e]
    refine h.congr_of_eventuallyEq ?_
    filter_upwards [lt_mem_nhds hpos, gt_mem_nhds hr] with x hx hx'
    exact vol ⟨x, a.rmax, a.z, a.s, a.d⟩ ⟨hx.le, hx', hz, hd, hd'⟩
  · intro h
    rw [rInArea, hm, h]; ring
  · intro h
    rw [phiArea, of_dphi, if_pos h, of_z, of_rmax, hm, Measure.volume_eq_prod, Measure.prod_prod, Real.volume_Icc, Real.volume_Icc,
      ← ENNReal.ofReal_mul (by linarith), show (2 : ENNReal) = ENNReal.ofReal 2 by norm_num, ← ENNReal.ofReal_mul (by norm_num)]
    congr 1
    ring
  · intro h
    rw [phiArea, of_dphi, if_neg (by linarith)]

example : surfaceArea (of quarter) = topArea (of quarter) + phiArea (of quarter) + rOutArea (of quarter) + rInArea (of quarter) :=
  (C82_areas quarter_valid).2.2.2.2.2.2

end Tube
end VecGeom
