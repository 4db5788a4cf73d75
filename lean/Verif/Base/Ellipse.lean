import Verif.Base.Annulus
import Mathlib.LinearAlgebra.Matrix.ToLin
import Mathlib.LinearAlgebra.Matrix.Determinant.Basic
import Mathlib.MeasureTheory.Measure.Lebesgue.EqHaar

/-!
# The area of an ellipse
-/

namespace VecGeom

open Real MeasureTheory

theorem area_disc : volume {w : Fin 2 → ℝ | w 0 ^ 2 + w 1 ^ 2 ≤ 1} = ENNReal.ofReal π := by
  have h := area_ring (r1 := 0) (r2 := 1) (s := 0) (d := 2 * π) (le_refl _) (by norm_num) (by linarith [pi_pos]) (le_refl _)
  have e : ((1 : ℝ) ^ 2 - 0 ^ 2) / 2 * (2 * π) = π := by ring
  rw [e] at h
  rw [← h]
  congr 1
  ext w
  simp only [Set.mem_setOf_eq]
  constructor
  · intro hw
    exact ⟨by nlinarith [sq_nonneg (w 0), sq_nonneg (w 1)], by linarith, sector_full _ _ _⟩
  · rintro ⟨_, h2, _⟩
    linarith

theorem area_ellipse {a b : ℝ} (ha : 0 < a) (hb : 0 < b) :
    volume {w : Fin 2 → ℝ | (w 0 / a) ^ 2 + (w 1 / b) ^ 2 ≤ 1} = ENNReal.ofReal (π * a * b) := by
  have hdet : LinearMap.det (Matrix.toLin' (Matrix.diagonal ![1 / a, 1 / b])) = 1 / a * (1 / b) := by
    rw [LinearMap.det_toLin', Matrix.det_diagonal, Fin.prod_univ_two]; rfl
  have hne : LinearMap.det (Matrix.toLin' (Matrix.diagonal ![1 / a, 1 / b])) ≠ 0 := by
    rw [hdet]; positivity
  have h := Measure.addHaar_preimage_linearMap (volume : Measure (Fin 2 → ℝ)) hne {w : Fin 2 → ℝ | w 0 ^ 2 + w 1 ^ 2 ≤ 1}
  have hs : Matrix.toLin' (Matrix.diagonal ![1 / a, 1 / b]) ⁻¹' {w : Fin 2 → ℝ | w 0 ^ 2 + w 1 ^ 2 ≤ 1} =
      {w : Fin 2 → ℝ | (w 0 / a) ^ 2 + (w 1 / b) ^ 2 ≤ 1} := by
    ext w
    simp only [Set.mem_preimage, Set.mem_setOf_eq, Matrix.toLin'_apply, Matrix.mulVec_diagonal, Matrix.cons_val_zero, Matrix.cons_val_one]
    rw [one_div_mul_eq_div, one_div_mul_eq_div]
  rw [hs, hdet, area_disc, ← ENNReal.ofReal_mul (abs_nonneg _)] at h
  rw [h]
  congr 1
  rw [abs_of_pos (by positivity)]
  field_simp

end VecGeom
