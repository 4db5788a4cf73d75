import Verif.Base.Num
import Mathlib.MeasureTheory.Measure.Lebesgue.EqHaar
import Mathlib.MeasureTheory.Integral.IntervalIntegral.FundThmCalculus
import Mathlib.Analysis.SpecialFunctions.Integrals.Basic

/-!
# Volumes by slices

The volume of a set between two heights is the integral of the areas of its slices.
-/

namespace VecGeom

open MeasureTheory

/-- The volume of a set between the heights `a` and `b`, from the areas of its horizontal slices. -/
theorem volume_slices {A : Set (Fin 3 → ℝ)} (hA : MeasurableSet A) {a b : ℝ} (hab : a ≤ b) {g : ℝ → ℝ}
    (hg : ContinuousOn g (Set.Icc a b)) (h0 : ∀ z ∈ Set.Icc a b, 0 ≤ g z)
    (hout : ∀ q ∈ A, q 2 ∈ Set.Icc a b)
    (hin : ∀ z ∈ Set.Icc a b, volume {w : Fin 2 → ℝ | ![w 0, w 1, z] ∈ A} = ENNReal.ofReal (g z)) :
    volume A = ENNReal.ofReal (∫ z in a..b, g z) := by
  have hmp := volume_preserving_piFinSuccAbove (fun _ : Fin 3 => ℝ) 2
  have hins : ∀ q : Fin 3 → ℝ, ![q 0, q 1, q 2] = q := by
    intro q; ext i; fin_cases i <;> rfl
  have hs : A = (MeasurableEquiv.piFinSuccAbove (fun _ : Fin 3 => ℝ) 2) ⁻¹'
      {z : ℝ × (Fin 2 → ℝ) | ![z.2 0, z.2 1, z.1] ∈ A} := by
    ext q
    simp only [Set.mem_preimage, Set.mem_setOf_eq, MeasurableEquiv.piFinSuccAbove_apply, Fin.insertNthEquiv_symm_apply,
      Fin.removeNth]
    have e0 : (2 : Fin 3).succAbove 0 = 0 := by decide
    have e1 : (2 : Fin 3).succAbove 1 = 1 := by decide
    rw [e0, e1, hins]
  have hmeas : MeasurableSet {z : ℝ × (Fin 2 → ℝ) | ![z.2 0, z.2 1, z.1] ∈ A} := by
    rw [← MeasurableEquiv.measurableSet_preimage (MeasurableEquiv.piFinSuccAbove (fun _ : Fin 3 => ℝ) 2), ← hs]
    exact hA
  have h1 : volume A = (volume.prod volume) {z : ℝ × (Fin 2 → ℝ) | ![z.2 0, z.2 1, z.1] ∈ A} := by
    conv_lhs => rw [hs]
    exact hmp.measure_preimage hmeas.nullMeasurableSet
  rw [h1, Measure.prod_apply hmeas]
  have hsl : ∀ z : ℝ, volume (Prod.mk z ⁻¹' {z : ℝ × (Fin 2 → ℝ) | ![z.2 0, z.2 1, z.1] ∈ A}) =
      (Set.Icc a b).indicator (fun z => ENNReal.ofReal (g z)) z := by
    intro z
    by_cases hz : z ∈ Set.Icc a b
    · rw [Set.indicator_of_mem hz, ← hin z hz]; rfl
    · rw [Set.indicator_of_notMem hz]
      have : Prod.mk z ⁻¹' {z : ℝ × (Fin 2 → ℝ) | ![z.2 0, z.2 1, z.1] ∈ A} = ∅ := by
        ext w
        simp only [Set.mem_preimage, Set.mem_setOf_eq, Set.mem_empty_iff_false, iff_false]
        intro h
        exact hz (hout _ h)
      rw [this, measure_empty]
  simp_rw [hsl]
  rw [lintegral_indicator measurableSet_Icc, ← ofReal_integral_eq_lintegral_ofReal]
  · rw [integral_Icc_eq_integral_Ioc, ← intervalIntegral.integral_of_le hab]
  · exact hg.integrableOn_Icc
  · rw [Filter.EventuallyLE, ae_restrict_iff' measurableSet_Icc]
    exact Filter.Eventually.of_forall fun x hx => h0 x hx

/-- The integral of a polynomial of degree two over an interval around zero. -/
theorem integral_quadratic (A B C h : ℝ) : ∫ z in -h..h, (A + B * z + C * z ^ 2) = 2 * A * h + 2 / 3 * C * h ^ 3 := by
  rw [intervalIntegral.integral_add (by apply Continuous.intervalIntegrable; fun_prop)
      (by apply Continuous.intervalIntegrable; fun_prop),
    intervalIntegral.integral_add (by apply Continuous.intervalIntegrable; fun_prop)
      (by apply Continuous.intervalIntegrable; fun_prop),
    intervalIntegral.integral_const, intervalIntegral.integral_const_mul, intervalIntegral.integral_const_mul, integral_id,
    integral_pow, smul_eq_mul]
  norm_num
  ring

/-- The area of a rectangle. -/
theorem area_rectangle {a b : ℝ} (ha : 0 ≤ a) :
    volume {w : Fin 2 → ℝ | |w 0| ≤ a ∧ |w 1| ≤ b} = ENNReal.ofReal (4 * a * b) := by
  have : {w : Fin 2 → ℝ | |w 0| ≤ a ∧ |w 1| ≤ b} = Set.Icc ![-a, -b] ![a, b] := by
    ext w
    simp only [Set.mem_setOf_eq, Set.mem_Icc, Pi.le_def, Fin.forall_fin_two, abs_le]
    simp only [Matrix.cons_val_zero, Matrix.cons_val_one]
    tauto
  rw [this, Real.volume_Icc_pi, Fin.prod_univ_two]
  simp only [Matrix.cons_val_zero, Matrix.cons_val_one]
  rw [← ENNReal.ofReal_mul (by linarith)]
  congr 1
  ring

end VecGeom
