import Verif.Para.Props
import Mathlib.MeasureTheory.Measure.Lebesgue.EqHaar
import Mathlib.LinearAlgebra.Matrix.ToLin

/-!
# C59: the capacity of a parallelepiped is its volume
-/

namespace VecGeom
namespace Para

open MeasureTheory

/-- The linear map from coordinates along the axes to points. -/
noncomputable def axesMap (S : Shape) : (Fin 3 → ℝ) →ₗ[ℝ] (Fin 3 → ℝ) :=
  Matrix.toLin' !![1, S.ta, S.tc; 0, 1, S.ts; 0, 0, 1]

/-- C59: the capacity of a parallelepiped is its volume, after any history of setters. -/
theorem C59_para_capacity {s : State} (hs : Reachable s) (h0 : 0 ≤ s.dims.x ∧ 0 ≤ s.dims.y ∧ 0 ≤ s.dims.z) :
    volume {q : Fin 3 → ℝ | Closed (shape s) ⟨q 0, q 1, q 2⟩} = ENNReal.ofReal (capacity s) := by
  have hh : (shape s).h = s.dims := rfl
  have himg : {q : Fin 3 → ℝ | Closed (shape s) ⟨q 0, q 1, q 2⟩} =
      axesMap (shape s) '' Set.Icc ![-s.dims.x, -s.dims.y, -s.dims.z] ![s.dims.x, s.dims.y, s.dims.z] := by
    ext q
    simp only [Set.mem_setOf_eq, Set.mem_image, Set.mem_Icc, Pi.le_def, Fin.forall_fin_succ]
    constructor
    · rintro ⟨a, b, c, h1, h2, h3, h4⟩
      rw [hh, abs_le] at h1 h2 h3
      simp only [Shape.point, V3.mk.injEq] at h4
      refine ⟨![a, b, c], ⟨by simpa using ⟨h1.1, h2.1, h3.1⟩, by simpa using ⟨h1.2, h2.2, h3.2⟩⟩, ?_⟩
      ext i
      fin_cases i <;> simp [axesMap, Matrix.mulVec, dotProduct, Fin.sum_univ_three, h4] <;> ring
    · rintro ⟨w, ⟨h1, h2⟩, rfl⟩
      simp at h1 h2
      refine ⟨w 0, w 1, w 2, by rw [hh, abs_le]; exact ⟨h1.1, h2.1⟩, by rw [hh, abs_le]; exact ⟨h1.2.1, h2.2.1⟩,
        by rw [hh, abs_le]; exact ⟨h1.2.2, h2.2.2⟩, ?_⟩
      simp [axesMap, Matrix.mulVec, dotProduct, Fin.sum_univ_three, Shape.point]
      constructor <;> ring
  have hdet : LinearMap.det (axesMap (shape s)) = 1 := by
    simp [axesMap, LinearMap.det_toLin', Matrix.det_fin_three]
  obtain ⟨hx, hy, hz⟩ := h0
  rw [himg, Measure.addHaar_image_linearMap, hdet, abs_one, ENNReal.ofReal_one, one_mul, Real.volume_Icc_pi,
    Fin.prod_univ_three]
  simp only [Matrix.cons_val_zero, Matrix.cons_val_one, Matrix.cons_val]
  rw [← ENNReal.ofReal_mul (by linarith), ← ENNReal.ofReal_mul (by nlinarith)]
  congr 1
  unfold capacity
  ring

example (m : State) : capacity (sample m) = 48 := by
  show 8 * 1 * 2 * 3 = (48 : ℝ)
  norm_num

end Para
end VecGeom
