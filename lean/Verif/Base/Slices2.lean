import Verif.Base.Slices

/-!
# Areas by slices

The area of a plane set between two heights is the integral of the lengths of its slices.
-/

namespace VecGeom

open MeasureTheory

/-- The area of a plane set between the heights `a` and `b` (second coordinate) whose slices are intervals. -/
theorem area_slices {A : Set (Fin 2 → ℝ)} (hA : MeasurableSet A) {a b : ℝ} (hab : a ≤ b) {f g : ℝ → ℝ}
    (hf : ContinuousOn f (Set.Icc a b)) (hg : ContinuousOn g (Set.Icc a b)) (h0 : ∀ y ∈ Set.Icc a b, f y ≤ g y)
    (hin : ∀ w, w ∈ A ↔ w 1 ∈ Set.Icc a b ∧ f (w 1) ≤ w 0 ∧ w 0 ≤ g (w 1)) :
    volume A = ENNReal.ofReal (∫ y in a..b, (g y - f y)) := by
  have hmp := volume_preserving_piFinSuccAbove (fun _ : Fin 2 => ℝ) 1
  have hs : A = (MeasurableEquiv.piFinSuccAbove (fun _ : Fin 2 => ℝ) 1) ⁻¹'
      {z : ℝ × (Fin 1 → ℝ) | ![z.2 0, z.1] ∈ A} := by
    ext q
    simp only [Set.mem_preimage, Set.mem_setOf_eq, MeasurableEquiv.piFinSuccAbove_apply, Fin.insertNthEquiv_symm_apply,
      Fin.removeNth]
    have e0 : (1 : Fin 2).succAbove 0 = 0 := by decide
    have e : ![q 0, q 1] = q := by ext i; fin_cases i <;> rfl
    rw [e0, e]
  have hmeas : MeasurableSet {z : ℝ × (Fin 1 → ℝ) | ![z.2 0, z.1] ∈ A} := by
    rw [← MeasurableEquiv.measurableSet_preimage (MeasurableEquiv.piFinSuccAbove (fun _ : Fin 2 => ℝ) 1), ← hs]
    exact hA
  have h1 : volume A = (volume.prod volume) {z : ℝ × (Fin 1 → ℝ) | ![z.2 0, z.1] ∈ A} := by
    conv_lhs => rw [hs]
    exact hmp.measure_preimage hmeas.nullMeasurableSet
  rw [h1, Measure.prod_apply hmeas]
  have hsl : ∀ y : ℝ, volume (Prod.mk y ⁻¹' {z : ℝ × (Fin 1 → ℝ) | ![z.2 0, z.1] ∈ A}) =
      (Set.Icc a b).indicator (fun y => ENNReal.ofReal (g y - f y)) y := by
    intro y
    by_cases hy : y ∈ Set.Icc a b
    · rw [Set.indicator_of_mem hy]
      have : Prod.mk y ⁻¹' {z : ℝ × (Fin 1 → ℝ) | ![z.2 0, z.1] ∈ A} = Set.Icc (fun _ => f y) (fun _ => g y) := by
        ext w
        simp only [Set.mem_preimage, Set.mem_setOf_eq, hin, Matrix.cons_val_one, Matrix.cons_val_zero, Set.mem_Icc, Pi.le_def,
          Fin.forall_fin_one]
        exact ⟨fun h => h.2, fun h => ⟨hy, h⟩⟩
      rw [this, Real.volume_Icc_pi]
      simp
    · rw [Set.indicator_of_notMem hy]
      have : Prod.mk y ⁻¹' {z : ℝ × (Fin 1 → ℝ) | ![z.2 0, z.1] ∈ A} = ∅ := by
        ext w
        simp only [Set.mem_preimage, Set.mem_setOf_eq, Set.mem_empty_iff_false, iff_false, hin, Matrix.cons_val_one]
        intro h
        exact hy h.1
      rw [this, measure_empty]
  simp_rw [hsl]
  rw [lintegral_indicator measurableSet_Icc, ← ofReal_integral_eq_lintegral_ofReal]
  · rw [integral_Icc_eq_integral_Ioc, ← intervalIntegral.integral_of_le hab]
  · exact (hg.sub hf).integrableOn_Icc
  · rw [Filter.EventuallyLE, ae_restrict_iff' measurableSet_Icc]
    exact Filter.Eventually.of_forall fun x hx => sub_nonneg.mpr (h0 x hx)

end VecGeom
