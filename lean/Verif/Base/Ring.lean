import Verif.Base.Annulus

/-!
# Integrals over sectors of rings
-/

namespace VecGeom

open MeasureTheory Real

/-- An integral over a sector of a ring in polar coordinates. -/
theorem lintegral_ring {r1 r2 s d : ℝ} (hr1 : 0 ≤ r1) (hr : r1 ≤ r2) (h0 : 0 < d) (h1 : d ≤ 2 * π) {f : ℝ → ℝ → ENNReal}
    (hf : Measurable fun q : ℝ × ℝ => f q.1 q.2) :
    ∫⁻ z in {z : ℂ | r1 ^ 2 ≤ z.re ^ 2 + z.im ^ 2 ∧ z.re ^ 2 + z.im ^ 2 ≤ r2 ^ 2 ∧ Sector s d z.re z.im}, f z.re z.im =
      ∫⁻ r in Set.Ioc r1 r2, ∫⁻ θ in Set.Ioc (-(d / 2)) (d / 2),
        ENNReal.ofReal r * f (r * cos (θ + (s + d / 2))) (r * sin (θ + (s + d / 2))) := by
  have hpi := pi_pos
  set m := s + d / 2 with hm
  set B : Set ℂ := {z | r1 ^ 2 ≤ z.re ^ 2 + z.im ^ 2 ∧ z.re ^ 2 + z.im ^ 2 ≤ r2 ^ 2 ∧ Sector (-(d / 2)) d z.re z.im} with hB
  have hmB : MeasurableSet B := by
    have m : Measurable fun z : ℂ => z.re ^ 2 + z.im ^ 2 := by fun_prop
    refine (measurableSet_le measurable_const m).inter ((measurableSet_le m measurable_const).inter ?_)
    exact measurable_sector h0 h1 Complex.measurable_re Complex.measurable_im
  set G : ℂ → ENNReal := fun w => f (w.re * cos m - w.im * sin m) (w.re * sin m + w.im * cos m) with hG
  have hmG : Measurable G := by
    have : Measurable fun w : ℂ => ((w.re * cos m - w.im * sin m, w.re * sin m + w.im * cos m) : ℝ × ℝ) := by fun_prop
    exact hf.comp this
  have hexp : Complex.exp (((-m : ℝ) : ℂ) * Complex.I) = ⟨cos m, -sin m⟩ := by
    apply Complex.ext
    · rw [Complex.exp_ofReal_mul_I_re, cos_neg]
    · rw [Complex.exp_ofReal_mul_I_im, sin_neg]
  have hsc := sin_sq_add_cos_sq m
  -- turn
  have e2 : ∫⁻ z in {z : ℂ | r1 ^ 2 ≤ z.re ^ 2 + z.im ^ 2 ∧ z.re ^ 2 + z.im ^ 2 ≤ r2 ^ 2 ∧ Sector s d z.re z.im}, f z.re z.im = ∫⁻ w in B, G w := by
    have hrot := (rotation (Circle.exp (-m))).measurePreserving
    rw [← hrot.setLIntegral_comp_preimage hmB hmG]
    have hset : {z : ℂ | r1 ^ 2 ≤ z.re ^ 2 + z.im ^ 2 ∧ z.re ^ 2 + z.im ^ 2 ≤ r2 ^ 2 ∧ Sector s d z.re z.im} = (rotation (Circle.exp (-m))) ⁻¹' B := by
      ext z
      simp only [Set.mem_setOf_eq, Set.mem_preimage, hB, rotation_apply, Circle.coe_exp]
      rw [hexp]
      simp only [Complex.mul_re, Complex.mul_im]
      have en : (cos m * z.re - -sin m * z.im) ^ 2 + (cos m * z.im + -sin m * z.re) ^ 2 = z.re ^ 2 + z.im ^ 2 := by
        linear_combination (z.re ^ 2 + z.im ^ 2) * hsc
      rw [en]
      refine and_congr_right fun _ => and_congr_right fun _ => ?_
      rw [sector_rotate s, sector_rotate (-(d / 2)), cos_neg, sin_neg]
      have hsc2 := sin_sq_add_cos_sq (d / 2)
      have ex : z.re * cos s + z.im * sin s = (cos m * z.re - -sin m * z.im) * cos (d / 2) + (cos m * z.im + -sin m * z.re) * -sin (d / 2) := by
        rw [hm, cos_add, sin_add]
        linear_combination -(z.re * cos s + z.im * sin s) * hsc2
      have ey : -z.re * sin s + z.im * cos s = -(cos m * z.re - -sin m * z.im) * -sin (d / 2) + (cos m * z.im + -sin m * z.re) * cos (d / 2) := by
        rw [hm, cos_add, sin_add]
        linear_combination -(-z.re * sin s + z.im * cos s) * hsc2
      rw [ex, ey]
    rw [hset]
    refine setLIntegral_congr_fun ((rotation (Circle.exp (-m))).measurePreserving.measurable hmB) fun z _ => ?_
    simp only [hG, rotation_apply, Circle.coe_exp]
    rw [hexp]
    simp only [Complex.mul_re, Complex.mul_im]
    congr 1
    · linear_combination -z.re * hsc
    · linear_combination -z.im * hsc
  rw [e2, ← lintegral_indicator hmB, ← Complex.lintegral_comp_polarCoord_symm]
  set H : ℝ × ℝ → ENNReal := fun q => ENNReal.ofReal q.1 * f (q.1 * cos (q.2 + m)) (q.1 * sin (q.2 + m)) with hH
  have hmH : Measurable H := by
    have : Measurable fun q : ℝ × ℝ => ((q.1 * cos (q.2 + m), q.1 * sin (q.2 + m)) : ℝ × ℝ) := by fun_prop
    exact (ENNReal.measurable_ofReal.comp measurable_fst).mul (hf.comp this)
  have hset : ∀ p ∈ polarCoord.target, ENNReal.ofReal p.1 • B.indicator G (Complex.polarCoord.symm p) =
      ((Set.Icc r1 r2 ×ˢ Set.Icc (-(d / 2)) (d / 2)).indicator H) p := by
    rintro ⟨r, θ⟩ ⟨hp1, hp2⟩
    have hr0 : 0 < r := hp1
    have hre : (Complex.polarCoord.symm (r, θ)).re = r * cos θ ∧ (Complex.polarCoord.symm (r, θ)).im = r * sin θ := by
      rw [Complex.polarCoord_symm_apply]
      simp [← Complex.ofReal_cos, ← Complex.ofReal_sin]
    have hmem : Complex.polarCoord.symm (r, θ) ∈ B ↔ (r, θ) ∈ Set.Icc r1 r2 ×ˢ Set.Icc (-(d / 2)) (d / 2) := by
      simp only [hB, Set.mem_setOf_eq, hre.1, hre.2, Set.mem_prod, Set.mem_Icc]
      have e : (r * cos θ) ^ 2 + (r * sin θ) ^ 2 = r ^ 2 := by linear_combination r ^ 2 * sin_sq_add_cos_sq θ
      rw [e, sector_polar h1 hr0 hp2.1 hp2.2, pow_le_pow_iff_left₀ hr1 hr0.le (by norm_num), pow_le_pow_iff_left₀ hr0.le (hr1.trans hr) (by norm_num)]
      tauto
    by_cases h : Complex.polarCoord.symm (r, θ) ∈ B
    · rw [Set.indicator_of_mem h, Set.indicator_of_mem (hmem.mp h), hG, hH]
      simp only [hre.1, hre.2, smul_eq_mul]
      congr 2
      · rw [cos_add θ m]; ring
      · rw [sin_add θ m]; ring
    · rw [Set.indicator_of_notMem h, Set.indicator_of_notMem (mt hmem.mpr h)]; simp
  rw [setLIntegral_congr_fun polarCoord.open_target.measurableSet hset, lintegral_indicator (measurableSet_Icc.prod measurableSet_Icc),
    Measure.restrict_restrict (measurableSet_Icc.prod measurableSet_Icc)]
  have hT : polarCoord.target = Set.Ioi (0 : ℝ) ×ˢ Set.Ioo (-π) π := rfl
  rw [hT, Set.prod_inter_prod, Measure.volume_eq_prod, ← Measure.prod_restrict, lintegral_prod _ hmH.aemeasurable]
  have hae1 : (Set.Icc r1 r2 ∩ Set.Ioi 0 : Set ℝ) =ᵐ[volume] Set.Ioc r1 r2 := by
    rcases hr1.lt_or_eq with h | h
    · have hsub : Set.Icc r1 r2 ⊆ Set.Ioi 0 := fun x hx => lt_of_lt_of_le h hx.1
      rw [Set.inter_eq_left.mpr hsub]
      exact Ioc_ae_eq_Icc.symm
    · rw [← h]
      have : (Set.Icc 0 r2 ∩ Set.Ioi 0 : Set ℝ) = Set.Ioc 0 r2 := by
        ext x; simp only [Set.mem_inter_iff, Set.mem_Icc, Set.mem_Ioi, Set.mem_Ioc]
        constructor
        · rintro ⟨⟨-, h2⟩, h3⟩; exact ⟨h3, h2⟩
        · rintro ⟨h2, h3⟩; exact ⟨⟨h2.le, h3⟩, h2⟩
      rw [this]
      exact Filter.EventuallyEq.rfl
  have hae2 : (Set.Icc (-(d / 2)) (d / 2) ∩ Set.Ioo (-π) π : Set ℝ) =ᵐ[volume] Set.Ioc (-(d / 2)) (d / 2) := by
    have h2 : (Set.Icc (-(d / 2)) (d / 2) ∩ Set.Ioo (-π) π : Set ℝ) =ᵐ[volume] (Set.Icc (-(d / 2)) (d / 2) ∩ Set.Icc (-π) π : Set ℝ) :=
      (Filter.EventuallyEq.refl _ _).inter Ioo_ae_eq_Icc
    rw [Set.inter_eq_left.mpr (Set.Icc_subset_Icc (by linarith) (by linarith))] at h2
    exact h2.trans Ioc_ae_eq_Icc.symm
  rw [setLIntegral_congr hae1]
  refine lintegral_congr fun r => ?_
  rw [setLIntegral_congr hae2]

/-- The volume between two functions over a sector of a ring. -/
theorem volume_over_ring {r1 r2 s d : ℝ} (hr1 : 0 ≤ r1) (hr : r1 ≤ r2) (h0 : 0 < d) (h1 : d ≤ 2 * π) {lo hi : ℝ → ℝ → ℝ}
    (hlo : Continuous fun q : ℝ × ℝ => lo q.1 q.2) (hhi : Continuous fun q : ℝ × ℝ => hi q.1 q.2) :
    volume {q : Fin 3 → ℝ | (r1 ^ 2 ≤ q 0 ^ 2 + q 1 ^ 2 ∧ q 0 ^ 2 + q 1 ^ 2 ≤ r2 ^ 2 ∧ Sector s d (q 0) (q 1)) ∧
      lo (q 0) (q 1) ≤ q 2 ∧ q 2 ≤ hi (q 0) (q 1)} =
      ∫⁻ r in Set.Ioc r1 r2, ∫⁻ θ in Set.Ioc (-(d / 2)) (d / 2), ENNReal.ofReal r *
        ENNReal.ofReal (hi (r * cos (θ + (s + d / 2))) (r * sin (θ + (s + d / 2))) - lo (r * cos (θ + (s + d / 2))) (r * sin (θ + (s + d / 2)))) := by
  have hf : Measurable fun q : ℝ × ℝ => ENNReal.ofReal (hi q.1 q.2 - lo q.1 q.2) :=
    ENNReal.measurable_ofReal.comp (hhi.sub hlo).measurable
  rw [← lintegral_ring (f := fun x y => ENNReal.ofReal (hi x y - lo x y)) hr1 hr h0 h1 hf]
  set A := {q : Fin 3 → ℝ | (r1 ^ 2 ≤ q 0 ^ 2 + q 1 ^ 2 ∧ q 0 ^ 2 + q 1 ^ 2 ≤ r2 ^ 2 ∧ Sector s d (q 0) (q 1)) ∧
      lo (q 0) (q 1) ≤ q 2 ∧ q 2 ≤ hi (q 0) (q 1)} with hA
  set R := {w : Fin 2 → ℝ | r1 ^ 2 ≤ w 0 ^ 2 + w 1 ^ 2 ∧ w 0 ^ 2 + w 1 ^ 2 ≤ r2 ^ 2 ∧ Sector s d (w 0) (w 1)} with hR
  have hmR : MeasurableSet R := by
    have m : Measurable fun w : Fin 2 → ℝ => w 0 ^ 2 + w 1 ^ 2 := by fun_prop
    refine (measurableSet_le measurable_const m).inter ((measurableSet_le m measurable_const).inter ?_)
    exact measurable_sector h0 h1 (measurable_pi_apply 0) (measurable_pi_apply 1)
  have hmp := volume_preserving_piFinSuccAbove (fun _ : Fin 3 => ℝ) 2
  have hs : A = (MeasurableEquiv.piFinSuccAbove (fun _ : Fin 3 => ℝ) 2) ⁻¹'
      {z : ℝ × (Fin 2 → ℝ) | z.2 ∈ R ∧ lo (z.2 0) (z.2 1) ≤ z.1 ∧ z.1 ≤ hi (z.2 0) (z.2 1)} := by
    ext q
    simp only [Set.mem_preimage, Set.mem_setOf_eq, MeasurableEquiv.piFinSuccAbove_apply, Fin.insertNthEquiv_symm_apply,
      Fin.removeNth, hA, hR]
    have e0 : (2 : Fin 3).succAbove 0 = 0 := by decide
    have e1 : (2 : Fin 3).succAbove 1 = 1 := by decide
    rw [e0, e1]
  have hmeas : MeasurableSet {z : ℝ × (Fin 2 → ℝ) | z.2 ∈ R ∧ lo (z.2 0) (z.2 1) ≤ z.1 ∧ z.1 ≤ hi (z.2 0) (z.2 1)} := by
    have c : Measurable fun z : ℝ × (Fin 2 → ℝ) => ((z.2 0, z.2 1) : ℝ × ℝ) := by fun_prop
    exact (measurable_snd hmR).inter ((measurableSet_le (hlo.measurable.comp c) measurable_fst).inter (measurableSet_le measurable_fst (hhi.measurable.comp c)))
  have h2 : volume A = (volume.prod volume) {z : ℝ × (Fin 2 → ℝ) | z.2 ∈ R ∧ lo (z.2 0) (z.2 1) ≤ z.1 ∧ z.1 ≤ hi (z.2 0) (z.2 1)} := by
    rw [hs]
    exact hmp.measure_preimage hmeas.nullMeasurableSet
  rw [h2, Measure.prod_apply_symm hmeas]
  have hsl : ∀ w : Fin 2 → ℝ, volume ((fun x => (x, w)) ⁻¹' {z : ℝ × (Fin 2 → ℝ) | z.2 ∈ R ∧ lo (z.2 0) (z.2 1) ≤ z.1 ∧ z.1 ≤ hi (z.2 0) (z.2 1)}) =
      R.indicator (fun w => ENNReal.ofReal (hi (w 0) (w 1) - lo (w 0) (w 1))) w := by
    intro w
    by_cases hw : w ∈ R
    · rw [Set.indicator_of_mem hw]
      have : (fun x => (x, w)) ⁻¹' {z : ℝ × (Fin 2 → ℝ) | z.2 ∈ R ∧ lo (z.2 0) (z.2 1) ≤ z.1 ∧ z.1 ≤ hi (z.2 0) (z.2 1)} =
          Set.Icc (lo (w 0) (w 1)) (hi (w 0) (w 1)) := by
        ext x
        simp only [Set.mem_preimage, Set.mem_setOf_eq, Set.mem_Icc, hw, true_and]
      rw [this, Real.volume_Icc]
    · rw [Set.indicator_of_notMem hw]
      have : (fun x => (x, w)) ⁻¹' {z : ℝ × (Fin 2 → ℝ) | z.2 ∈ R ∧ lo (z.2 0) (z.2 1) ≤ z.1 ∧ z.1 ≤ hi (z.2 0) (z.2 1)} = ∅ := by
        ext x
        simp only [Set.mem_preimage, Set.mem_setOf_eq, hw, false_and, Set.mem_empty_iff_false]
      rw [this, measure_empty]
  simp_rw [hsl]
  rw [lintegral_indicator hmR]
  -- to the complex plane
  have hc := Complex.volume_preserving_equiv_pi.setLIntegral_comp_preimage hmR
    (f := fun w => ENNReal.ofReal (hi (w 0) (w 1) - lo (w 0) (w 1))) (by
      have c : Measurable fun w : Fin 2 → ℝ => ((w 0, w 1) : ℝ × ℝ) := by fun_prop
      exact hf.comp c)
  rw [← hc]
  rfl

end VecGeom
