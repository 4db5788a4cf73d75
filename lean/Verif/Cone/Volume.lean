import Verif.Cone.PropsMore
import Verif.Base.Annulus
import Verif.Base.Slices2

/-!
# Capacity and surface area of cones
-/

namespace VecGeom
namespace Cone

open Real MeasureTheory Tube

variable {a : Par}

theorem capacity_eq (hv : a.Valid) : capacity (of a) =
    a.z * a.d / 3 * (a.fix.rmax1 ^ 2 + a.fix.rmax2 ^ 2 + a.fix.rmax1 * a.fix.rmax2 - a.rmin1 ^ 2 - a.rmin2 ^ 2 - a.rmin1 * a.rmin2) := by
  rw [capacity, of_dz hv, of_dphi hv, of_rmax1 hv, of_rmax2 hv, of_rmin1 hv, of_rmin2 hv]
  ring

/-- C144: the capacity is the volume of the set of the points of the cone. -/
theorem C144_capacity (hv : a.Valid) :
    volume {q : Fin 3 → ℝ | a.fix.Closed ⟨q 0, q 1, q 2⟩} = ENNReal.ofReal (capacity (of a)) := by
  have hz := hv.z
  have hset : {q : Fin 3 → ℝ | a.fix.Closed ⟨q 0, q 1, q 2⟩} =
      {q | |q 2| ≤ a.z} ∩ ({q | (a.inner (q 2)) ^ 2 ≤ q 0 ^ 2 + q 1 ^ 2} ∩ ({q | q 0 ^ 2 + q 1 ^ 2 ≤ (a.fix.outer (q 2)) ^ 2} ∩ {q | Sector a.s a.d (q 0) (q 1)})) := by
    ext q
    simp only [Set.mem_setOf_eq, Set.mem_inter_iff]
    constructor
    · rintro ⟨h1, h2, h3, h4⟩
      exact ⟨h1, (le_rad (inner_nonneg hv h1)).mp h2, (rad_le (outer_pos hv h1).le).mp h3, h4⟩
    · rintro ⟨h1, h2, h3, h4⟩
      exact ⟨h1, (le_rad (inner_nonneg hv h1)).mpr h2, (rad_le (outer_pos hv h1).le).mpr h3, h4⟩
  have hmeas : MeasurableSet {q : Fin 3 → ℝ | a.fix.Closed ⟨q 0, q 1, q 2⟩} := by
    rw [hset]
    have m : Measurable fun q : Fin 3 → ℝ => q 0 ^ 2 + q 1 ^ 2 := by fun_prop
    have mz : Measurable fun q : Fin 3 → ℝ => |q 2| := by fun_prop
    have mi : Measurable fun q : Fin 3 → ℝ => (a.inner (q 2)) ^ 2 := by unfold Par.inner line; fun_prop
    have mo : Measurable fun q : Fin 3 → ℝ => (a.fix.outer (q 2)) ^ 2 := by unfold Par.outer line; fun_prop
    refine (measurableSet_le mz measurable_const).inter ((measurableSet_le mi m).inter ((measurableSet_le m mo).inter ?_))
    exact measurable_sector hv.d hv.dle (measurable_pi_apply 0) (measurable_pi_apply 1)
  have hl := fun z => line_eq' a.rmin1 a.rmin2 a.z z hz
  have hL := fun z => line_eq' a.fix.rmax1 a.fix.rmax2 a.z z hz
  rw [volume_slices hmeas (a := -a.z) (b := a.z) (g := fun z => ((a.fix.outer z) ^ 2 - (a.inner z) ^ 2) / 2 * a.d) (by linarith)
    (by unfold Par.outer Par.inner line; fun_prop) ?_ ?_ ?_]
  · congr 1
    have e : (fun z => ((a.fix.outer z) ^ 2 - (a.inner z) ^ 2) / 2 * a.d) = fun z =>
        (((a.fix.rmax1 + a.fix.rmax2) ^ 2 - (a.rmin1 + a.rmin2) ^ 2) / 8 * a.d) +
        ((a.fix.rmax2 - a.fix.rmax1) * (a.fix.rmax1 + a.fix.rmax2) - (a.rmin2 - a.rmin1) * (a.rmin1 + a.rmin2)) / (4 * a.z) * a.d * z +
        ((a.fix.rmax2 - a.fix.rmax1) ^ 2 - (a.rmin2 - a.rmin1) ^ 2) / (8 * a.z ^ 2) * a.d * z ^ 2 := by
      funext z
      have h1 : a.fix.outer z = (a.fix.rmax2 - a.fix.rmax1) / (2 * a.z) * z + (a.fix.rmax1 + a.fix.rmax2) * (1 / 2) := hL z
      have h2 : a.inner z = (a.rmin2 - a.rmin1) / (2 * a.z) * z + (a.rmin1 + a.rmin2) * (1 / 2) := hl z
      rw [h1, h2]
      field_simp
      ring
    rw [e, integral_quadratic, capacity_eq hv]
    field_simp
    ring
  · intro z hz
    have hz' : |z| ≤ a.z := abs_le.mpr hz
    have h1 := inner_nonneg hv hz'
    have h2 := (inner_lt_outer hv hz').le
    have := pow_le_pow_left₀ h1 h2 2
    exact mul_nonneg (by linarith) hv.d.le
  · intro q hq
    exact abs_le.mp hq.z
  · intro z hz
    have hz' : |z| ≤ a.z := abs_le.mpr hz
    rw [← area_ring (inner_nonneg hv hz') (inner_lt_outer hv hz').le hv.d hv.dle (s := a.s)]
    congr 1
    ext w
    rw [hset]
    simp [hz']

example : 0 < capacity (of quarter) := by
  have := pi_pos
  rw [capacity_eq quarter_valid, fix_of_ne (by norm_num [quarter]) (by norm_num [quarter])]
  norm_num [quarter]
  positivity

/-- The area of the wall that a segment from `(r1, -h)` to `(r2, h)` sweeps over in a turn by `d`: the integral of the arcs along the
length of the segment. -/
noncomputable def wallArea (r1 r2 h d : ℝ) : ℝ := ∫ u in (0 : ℝ)..√((r2 - r1) ^ 2 + (2 * h) ^ 2), d * (r1 + (r2 - r1) * (u / √((r2 - r1) ^ 2 + (2 * h) ^ 2)))

theorem wallArea_eq (r1 r2 h d : ℝ) (hh : 0 < h) : wallArea r1 r2 h d = d * ((r1 + r2) / 2) * √((r2 - r1) ^ 2 + (2 * h) ^ 2) := by
  have hL : 0 < √((r2 - r1) ^ 2 + (2 * h) ^ 2) := sqrt_pos.mpr (by positivity)
  unfold wallArea
  generalize √((r2 - r1) ^ 2 + (2 * h) ^ 2) = L at *
  have e : (fun u => d * (r1 + (r2 - r1) * (u / L))) = fun u => d * r1 + d * (r2 - r1) / L * u := by
    funext u; field_simp
  rw [e, intervalIntegral.integral_add (by apply Continuous.intervalIntegrable; fun_prop) (by apply Continuous.intervalIntegrable; fun_prop),
    intervalIntegral.integral_const, intervalIntegral.integral_const_mul, integral_id, smul_eq_mul]
  field_simp
  ring

/-- The points of a face of a cut, with distance from the axis and height as coordinates. -/
def faceSet (a : Par) : Set (Fin 2 → ℝ) := {w | |w 1| ≤ a.z ∧ a.inner (w 1) ≤ w 0 ∧ w 0 ≤ a.outer (w 1)}

/-- The ring or sector of a ring at a lid. -/
def lidSet (r1 r2 s d : ℝ) : Set (Fin 2 → ℝ) := {w | r1 ^ 2 ≤ w 0 ^ 2 + w 1 ^ 2 ∧ w 0 ^ 2 + w 1 ^ 2 ≤ r2 ^ 2 ∧ Sector s d (w 0) (w 1)}

/-- C144: `SurfaceArea` is the area of the two walls and of the two lids.  This is the area of the surface of a full cone; the faces
of a sector are left out. -/
theorem C144_area_partial (hv : a.Valid) : surfaceArea (of a) =
    wallArea a.rmin1 a.rmin2 a.z a.d + wallArea a.fix.rmax1 a.fix.rmax2 a.z a.d +
    (volume (lidSet a.rmin1 a.fix.rmax1 a.s a.d)).toReal + (volume (lidSet a.rmin2 a.fix.rmax2 a.s a.d)).toReal := by
  have hd := hv.d
  rw [wallArea_eq _ _ _ _ hv.z, wallArea_eq _ _ _ _ hv.z, lidSet, lidSet, area_ring hv.rmin1 (fix_lt1 hv).le hv.d hv.dle,
    area_ring hv.rmin2 (fix_lt2 hv).le hv.d hv.dle, ENNReal.toReal_ofReal, ENNReal.toReal_ofReal]
  · rw [surfaceArea]
    rw [of_dz hv, of_dphi hv, of_rmax1 hv, of_rmax2 hv, of_rmin1 hv, of_rmin2 hv]
    rw [show (a.rmin2 - a.rmin1) * (a.rmin2 - a.rmin1) + 4 * a.z * a.z = (a.rmin2 - a.rmin1) ^ 2 + (2 * a.z) ^ 2 by ring,
      show (a.fix.rmax2 - a.fix.rmax1) * (a.fix.rmax2 - a.fix.rmax1) + 4 * a.z * a.z = (a.fix.rmax2 - a.fix.rmax1) ^ 2 + (2 * a.z) ^ 2 by ring]
    ring
  · have := pow_le_pow_left₀ hv.rmin2 (fix_lt2 hv).le 2
    exact mul_nonneg (by linarith) hv.d.le
  · have := pow_le_pow_left₀ hv.rmin1 (fix_lt1 hv).le 2
    exact mul_nonneg (by linarith) hv.d.le

/-- A face of a sector has a positive area, the mean width times the height. -/
theorem face_area (hv : a.Valid) : volume (faceSet a.fix) = ENNReal.ofReal (a.z * (a.fix.rmax1 + a.fix.rmax2 - a.rmin1 - a.rmin2)) := by
  have hz := hv.z
  have hci : Continuous a.inner := by unfold Par.inner line; fun_prop
  have hco : Continuous a.fix.outer := by unfold Par.outer line; fun_prop
  have hm : MeasurableSet (faceSet a.fix) := by
    have m0 : Measurable fun w : Fin 2 → ℝ => w 0 := measurable_pi_apply 0
    have m1 : Measurable fun w : Fin 2 → ℝ => w 1 := measurable_pi_apply 1
    have e : faceSet a.fix = {w | |w 1| ≤ a.z} ∩ ({w | a.inner (w 1) ≤ w 0} ∩ {w | w 0 ≤ a.fix.outer (w 1)}) := rfl
    rw [e]
    exact (measurableSet_le (by fun_prop) measurable_const).inter ((measurableSet_le (hci.measurable.comp m1) m0).inter
      (measurableSet_le m0 (hco.measurable.comp m1)))
  rw [area_slices hm (a := -a.z) (b := a.z) (f := a.inner) (g := a.fix.outer) (by linarith) hci.continuousOn hco.continuousOn
    (fun z h => (inner_lt_outer hv (abs_le.mpr h)).le)
    (fun w => by rw [Set.mem_Icc, ← abs_le]; exact Iff.rfl)]
  congr 1
  have e : (fun z => a.fix.outer z - a.inner z) = fun z =>
      ((a.fix.rmax1 + a.fix.rmax2) - (a.rmin1 + a.rmin2)) / 2 + ((a.fix.rmax2 - a.fix.rmax1) - (a.rmin2 - a.rmin1)) / (2 * a.z) * z + 0 * z ^ 2 := by
    funext z
    rw [Par.outer, Par.inner, fix_z, line_eq' _ _ _ _ hv.z, line_eq' _ _ _ _ hv.z]
    ring
  rw [e, integral_quadratic]
  ring

/-- `SurfaceArea` of a sector misses the two faces: for the quarter of a hollow cone, each has the area nine. -/
theorem C144_area_counterexample :
    volume (faceSet quarter) = 9 ∧ surfaceArea (of quarter) =
      wallArea 1 2 3 (π / 2) + wallArea 2 4 3 (π / 2) + (volume (lidSet 1 2 0 (π / 2))).toReal + (volume (lidSet 2 4 0 (π / 2))).toReal := by
  have hx : quarter.fix = quarter := fix_of_ne (by norm_num [quarter]) (by norm_num [quarter])
  have h := face_area quarter_valid
  have h2 := C144_area_partial quarter_valid
  rw [hx] at h h2
  refine ⟨?_, h2⟩
  rw [h]
  norm_num [quarter]

end Cone
end VecGeom
