import Verif.Base.Ring

/-!
# Volumes of solids of revolution
-/

namespace VecGeom

open MeasureTheory Real

/-- The volume swept by a plane figure that is turned about the axis, over a range of azimuths. -/
theorem volume_revolve {D : Set (ℝ × ℝ)} (hD : MeasurableSet D) {R s d : ℝ} (hR : 0 ≤ R) (hb : ∀ q ∈ D, q.1 ≤ R) (h0 : 0 < d)
    (h1 : d ≤ 2 * π) :
    volume {q : Fin 3 → ℝ | Sector s d (q 0) (q 1) ∧ (√(q 0 ^ 2 + q 1 ^ 2), q 2) ∈ D} =
      ENNReal.ofReal d * ∫⁻ r in Set.Ioc 0 R, ENNReal.ofReal r * volume {z : ℝ | (r, z) ∈ D} := by
  have hg : Measurable fun r : ℝ => volume {z : ℝ | (r, z) ∈ D} := measurable_measure_prodMk_left hD
  have hf : Measurable fun q : ℝ × ℝ => volume {z : ℝ | (√(q.1 ^ 2 + q.2 ^ 2), z) ∈ D} := by
    have c : Measurable fun q : ℝ × ℝ => √(q.1 ^ 2 + q.2 ^ 2) := by fun_prop
    exact hg.comp c
  have key := lintegral_ring (f := fun x y => volume {z : ℝ | (√(x ^ 2 + y ^ 2), z) ∈ D}) (le_refl 0) hR (s := s) h0 h1 hf
  have hr : ∀ r ∈ Set.Ioc 0 R, ∫⁻ θ in Set.Ioc (-(d / 2)) (d / 2), ENNReal.ofReal r *
      volume {z : ℝ | (√((r * cos (θ + (s + d / 2))) ^ 2 + (r * sin (θ + (s + d / 2))) ^ 2), z) ∈ D} =
      ENNReal.ofReal d * (ENNReal.ofReal r * volume {z : ℝ | (r, z) ∈ D}) := by
    intro r hr
    have e : ∀ θ, √((r * cos (θ + (s + d / 2))) ^ 2 + (r * sin (θ + (s + d / 2))) ^ 2) = r := by
      intro θ
      rw [show (r * cos (θ + (s + d / 2))) ^ 2 + (r * sin (θ + (s + d / 2))) ^ 2 = r ^ 2 by
        linear_combination r ^ 2 * sin_sq_add_cos_sq (θ + (s + d / 2)), sqrt_sq hr.1.le]
    simp only [e]
    rw [lintegral_const, Measure.restrict_apply_univ, Real.volume_Ioc, mul_comm]
    congr 2
    ring
  rw [setLIntegral_congr_fun measurableSet_Ioc hr, lintegral_const_mul _ (by
    exact (ENNReal.measurable_ofReal.comp measurable_id).mul hg)] at key
  rw [← key]
  set S := {w : Fin 2 → ℝ | (0 : ℝ) ^ 2 ≤ w 0 ^ 2 + w 1 ^ 2 ∧ w 0 ^ 2 + w 1 ^ 2 ≤ R ^ 2 ∧ Sector s d (w 0) (w 1)} with hS
  have hmS : MeasurableSet S := by
    have m : Measurable fun w : Fin 2 → ℝ => w 0 ^ 2 + w 1 ^ 2 := by fun_prop
    refine (measurableSet_le measurable_const m).inter ((measurableSet_le m measurable_const).inter ?_)
    exact measurable_sector h0 h1 (measurable_pi_apply 0) (measurable_pi_apply 1)
  set T := {z : ℝ × (Fin 2 → ℝ) | z.2 ∈ S ∧ (√(z.2 0 ^ 2 + z.2 1 ^ 2), z.1) ∈ D} with hT
  have hmT : MeasurableSet T := by
    have c : Measurable fun z : ℝ × (Fin 2 → ℝ) => ((√(z.2 0 ^ 2 + z.2 1 ^ 2), z.1) : ℝ × ℝ) := by fun_prop
    exact (measurable_snd hmS).inter (c hD)
  have hmp := volume_preserving_piFinSuccAbove (fun _ : Fin 3 => ℝ) 2
  have hs : {q : Fin 3 → ℝ | Sector s d (q 0) (q 1) ∧ (√(q 0 ^ 2 + q 1 ^ 2), q 2) ∈ D} =
      (MeasurableEquiv.piFinSuccAbove (fun _ : Fin 3 => ℝ) 2) ⁻¹' T := by
    ext q
    simp only [Set.mem_preimage, Set.mem_setOf_eq, MeasurableEquiv.piFinSuccAbove_apply, Fin.insertNthEquiv_symm_apply,
      Fin.removeNth, hT, hS]
    have e0 : (2 : Fin 3).succAbove 0 = 0 := by decide
    have e1 : (2 : Fin 3).succAbove 1 = 1 := by decide
    rw [e0, e1]
    constructor
    · rintro ⟨h2, h3⟩
      refine ⟨⟨by nlinarith [sq_nonneg (q 0), sq_nonneg (q 1)], ?_, h2⟩, h3⟩
      have h4 := hb _ h3
      have h5 : √(q 0 ^ 2 + q 1 ^ 2) ^ 2 ≤ R ^ 2 := pow_le_pow_left₀ (sqrt_nonneg _) h4 2
      rwa [sq_sqrt (by positivity)] at h5
    · rintro ⟨⟨-, -, h2⟩, h3⟩
      exact ⟨h2, h3⟩
  have h2 : volume {q : Fin 3 → ℝ | Sector s d (q 0) (q 1) ∧ (√(q 0 ^ 2 + q 1 ^ 2), q 2) ∈ D} = (volume.prod volume) T := by
    rw [hs]
    exact hmp.measure_preimage hmT.nullMeasurableSet
  rw [h2, Measure.prod_apply_symm hmT]
  have hsl : ∀ w : Fin 2 → ℝ, volume ((fun x => (x, w)) ⁻¹' T) = S.indicator (fun w => volume {z : ℝ | (√(w 0 ^ 2 + w 1 ^ 2), z) ∈ D}) w := by
    intro w
    by_cases hw : w ∈ S
    · rw [Set.indicator_of_mem hw]
      congr 1
      ext x
      simp only [Set.mem_preimage, Set.mem_setOf_eq, hT, hw, true_and]
    · rw [Set.indicator_of_notMem hw]
      have : (fun x => (x, w)) ⁻¹' T = ∅ := by
        ext x
        simp only [Set.mem_preimage, Set.mem_setOf_eq, hT, hw, false_and, Set.mem_empty_iff_false]
      rw [this, measure_empty]
  simp_rw [hsl]
  rw [lintegral_indicator hmS]
  have hc := Complex.volume_preserving_equiv_pi.setLIntegral_comp_preimage hmS
    (f := fun w => volume {z : ℝ | (√(w 0 ^ 2 + w 1 ^ 2), z) ∈ D}) (by
      have c : Measurable fun w : Fin 2 → ℝ => ((w 0, w 1) : ℝ × ℝ) := by fun_prop
      exact hf.comp c)
  rw [← hc]
  rfl

/-- The moment of a plane figure about the axis, in polar coordinates of its plane. -/
theorem moment_polar {D : Set (ℝ × ℝ)} (hD : MeasurableSet D) {R : ℝ} (hb : ∀ q ∈ D, q.1 ≤ R) :
    ∫⁻ r in Set.Ioc 0 R, ENNReal.ofReal r * volume {z : ℝ | (r, z) ∈ D} =
      ∫⁻ p in Set.Ioi (0 : ℝ) ×ˢ Set.Ioo (-π) π, ENNReal.ofReal p.1 *
        {q : ℝ × ℝ | 0 < q.2 ∧ (q.2, q.1) ∈ D}.indicator (fun q => ENNReal.ofReal q.2) (p.1 * cos p.2, p.1 * sin p.2) := by
  set E := {q : ℝ × ℝ | 0 < q.2 ∧ (q.2, q.1) ∈ D} with hE
  have hmE : MeasurableSet E := by
    have c : Measurable fun q : ℝ × ℝ => ((q.2, q.1) : ℝ × ℝ) := by fun_prop
    exact (measurableSet_lt measurable_const measurable_snd).inter (c hD)
  have hmF : Measurable (E.indicator (fun q : ℝ × ℝ => ENNReal.ofReal q.2)) :=
    (ENNReal.measurable_ofReal.comp measurable_snd).indicator hmE
  have hT : polarCoord.target = Set.Ioi (0 : ℝ) ×ˢ Set.Ioo (-π) π := rfl
  have h1 := lintegral_comp_polarCoord_symm (E.indicator (fun q : ℝ × ℝ => ENNReal.ofReal q.2))
  rw [hT] at h1
  have h2 : ∫⁻ (p : ℝ × ℝ) in Set.Ioi (0 : ℝ) ×ˢ Set.Ioo (-π) π, ENNReal.ofReal p.1 • E.indicator (fun q : ℝ × ℝ => ENNReal.ofReal q.2) (polarCoord.symm p) =
      ∫⁻ p in Set.Ioi (0 : ℝ) ×ˢ Set.Ioo (-π) π, ENNReal.ofReal p.1 *
        E.indicator (fun q => ENNReal.ofReal q.2) (p.1 * cos p.2, p.1 * sin p.2) := rfl
  rw [← h2, h1, Measure.volume_eq_prod, lintegral_prod_symm _ hmF.aemeasurable, ← lintegral_indicator measurableSet_Ioc]
  refine lintegral_congr fun y => ?_
  by_cases hy : y ∈ Set.Ioc 0 R
  · rw [Set.indicator_of_mem hy]
    have : ∀ x, E.indicator (fun q : ℝ × ℝ => ENNReal.ofReal q.2) (x, y) = {z : ℝ | (y, z) ∈ D}.indicator (fun _ => ENNReal.ofReal y) x := by
      intro x
      by_cases hx : (y, x) ∈ D
      · rw [Set.indicator_of_mem (show (x, y) ∈ E from ⟨hy.1, hx⟩), Set.indicator_of_mem (show x ∈ {z : ℝ | (y, z) ∈ D} from hx)]
      · rw [Set.indicator_of_notMem (fun h : (x, y) ∈ E => hx h.2), Set.indicator_of_notMem (show x ∉ {z : ℝ | (y, z) ∈ D} from hx)]
    simp_rw [this]
    have c : Measurable fun z : ℝ => ((y, z) : ℝ × ℝ) := by fun_prop
    rw [lintegral_indicator (show MeasurableSet {z : ℝ | (y, z) ∈ D} from c hD), setLIntegral_const]
  · rw [Set.indicator_of_notMem hy]
    have : ∀ x, E.indicator (fun q : ℝ × ℝ => ENNReal.ofReal q.2) (x, y) = 0 := by
      intro x
      apply Set.indicator_of_notMem
      rintro ⟨h3, h4⟩
      exact hy ⟨h3, hb _ h4⟩
    simp_rw [this]
    rw [lintegral_zero]

end VecGeom
