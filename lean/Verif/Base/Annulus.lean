import Verif.Base.Slices
import Verif.Wedge.Lemmas
import Mathlib.Analysis.SpecialFunctions.PolarCoord
import Mathlib.Analysis.Complex.Isometry
import Mathlib.MeasureTheory.Measure.Haar.InnerProductSpace

/-!
# The area of a sector of a ring
-/

namespace VecGeom

open MeasureTheory Real

theorem measurable_sector {s d : ℝ} (h0 : 0 < d) (h1 : d ≤ 2 * π) {α : Type*} [MeasurableSpace α] {f g : α → ℝ} (hf : Measurable f)
    (hg : Measurable g) : MeasurableSet {x | Sector s d (f x) (g x)} := by
  have m1 : MeasurableSet {x | 0 ≤ -f x * sin s + g x * cos s} := measurableSet_le measurable_const (by fun_prop)
  have m2 : MeasurableSet {x | 0 ≤ -cos (s + d) * g x + sin (s + d) * f x} := measurableSet_le measurable_const (by fun_prop)
  rcases lt_or_ge d π with h | h
  · simp_rw [sector_small h0 h]
    exact m1.inter m2
  · simp_rw [sector_big h h1]
    exact m1.union m2

/-- In polar coordinates around the middle of the sector. -/
theorem sector_polar {d r θ : ℝ} (hd : d ≤ 2 * π) (hr : 0 < r) (h1 : -π < θ) (h2 : θ < π) :
    Sector (-(d / 2)) d (r * cos θ) (r * sin θ) ↔ -(d / 2) ≤ θ ∧ θ ≤ d / 2 := by
  constructor
  · rintro ⟨ρ, t, hρ, h3, h4, hx, hy⟩
    have e1 := sin_sq_add_cos_sq θ
    have e2 := sin_sq_add_cos_sq (-(d / 2) + t)
    have hρr : ρ = r := by
      have : ρ ^ 2 = r ^ 2 := by
        calc ρ ^ 2 = (ρ * cos (-(d / 2) + t)) ^ 2 + (ρ * sin (-(d / 2) + t)) ^ 2 := by linear_combination -ρ ^ 2 * e2
          _ = (r * cos θ) ^ 2 + (r * sin θ) ^ 2 := by rw [← hx, ← hy]
          _ = r ^ 2 := by linear_combination r ^ 2 * e1
      exact (pow_left_inj₀ hρ hr.le (by norm_num)).mp this
    rw [hρr] at hx hy
    have hc := mul_left_cancel₀ hr.ne' hx
    have hs := mul_left_cancel₀ hr.ne' hy
    have hone : cos (θ - (-(d / 2) + t)) = 1 := by
      rw [cos_sub, ← hc, ← hs]; linarith
    rw [cos_eq_one_iff_of_lt_of_lt (by linarith) (by linarith)] at hone
    constructor <;> linarith
  · rintro ⟨h3, h4⟩
    exact ⟨r, θ + d / 2, hr.le, by linarith, by linarith, by congr 2; ring, by congr 2; ring⟩

/-- The area of a sector of a ring. -/
theorem area_ring {r1 r2 s d : ℝ} (hr1 : 0 ≤ r1) (hr : r1 ≤ r2) (h0 : 0 < d) (h1 : d ≤ 2 * π) :
    volume {w : Fin 2 → ℝ | r1 ^ 2 ≤ w 0 ^ 2 + w 1 ^ 2 ∧ w 0 ^ 2 + w 1 ^ 2 ≤ r2 ^ 2 ∧ Sector s d (w 0) (w 1)} =
      ENNReal.ofReal ((r2 ^ 2 - r1 ^ 2) / 2 * d) := by
  have hpi := pi_pos
  set B : Set ℂ := {z | r1 ^ 2 ≤ z.re ^ 2 + z.im ^ 2 ∧ z.re ^ 2 + z.im ^ 2 ≤ r2 ^ 2 ∧ Sector (-(d / 2)) d z.re z.im} with hB
  have hmB : MeasurableSet B := by
    have m : Measurable fun z : ℂ => z.re ^ 2 + z.im ^ 2 := by fun_prop
    refine (measurableSet_le measurable_const m).inter ((measurableSet_le m measurable_const).inter ?_)
    exact measurable_sector h0 h1 Complex.measurable_re Complex.measurable_im
  -- to the complex plane
  have e1 : volume {w : Fin 2 → ℝ | r1 ^ 2 ≤ w 0 ^ 2 + w 1 ^ 2 ∧ w 0 ^ 2 + w 1 ^ 2 ≤ r2 ^ 2 ∧ Sector s d (w 0) (w 1)} =
      volume {z : ℂ | r1 ^ 2 ≤ z.re ^ 2 + z.im ^ 2 ∧ z.re ^ 2 + z.im ^ 2 ≤ r2 ^ 2 ∧ Sector s d z.re z.im} := by
    rw [← Complex.volume_preserving_equiv_pi.measure_preimage_equiv]
    rfl
  -- turn
  have e2 : volume {z : ℂ | r1 ^ 2 ≤ z.re ^ 2 + z.im ^ 2 ∧ z.re ^ 2 + z.im ^ 2 ≤ r2 ^ 2 ∧ Sector s d z.re z.im} = volume B := by
    have hrot := (rotation (Circle.exp (-(s + d / 2)))).measurePreserving
    rw [← hrot.measure_preimage hmB.nullMeasurableSet]
    congr 1
    ext z
    simp only [Set.mem_setOf_eq, Set.mem_preimage, hB, rotation_apply, Circle.coe_exp]
    have hexp : Complex.exp (((-(s + d / 2) : ℝ) : ℂ) * Complex.I) = ⟨cos (s + d / 2), -sin (s + d / 2)⟩ := by
      apply Complex.ext
      · rw [Complex.exp_ofReal_mul_I_re, cos_neg]
      · rw [Complex.exp_ofReal_mul_I_im, sin_neg]
    rw [hexp]
    simp only [Complex.mul_re, Complex.mul_im]
    have hsc := sin_sq_add_cos_sq (s + d / 2)
    have en : (cos (s + d / 2) * z.re - -sin (s + d / 2) * z.im) ^ 2 + (cos (s + d / 2) * z.im + -sin (s + d / 2) * z.re) ^ 2 =
        z.re ^ 2 + z.im ^ 2 := by linear_combination (z.re ^ 2 + z.im ^ 2) * hsc
    rw [en]
    refine and_congr_right fun _ => and_congr_right fun _ => ?_
    rw [sector_rotate s, sector_rotate (-(d / 2)), cos_neg, sin_neg]
    have hsc2 := sin_sq_add_cos_sq (d / 2)
    have ex : z.re * cos s + z.im * sin s = (cos (s + d / 2) * z.re - -sin (s + d / 2) * z.im) * cos (d / 2) + (cos (s + d / 2) * z.im + -sin (s + d / 2) * z.re) * -sin (d / 2) := by
      rw [cos_add, sin_add]
      linear_combination -(z.re * cos s + z.im * sin s) * hsc2
    have ey : -z.re * sin s + z.im * cos s = -(cos (s + d / 2) * z.re - -sin (s + d / 2) * z.im) * -sin (d / 2) + (cos (s + d / 2) * z.im + -sin (s + d / 2) * z.re) * cos (d / 2) := by
      rw [cos_add, sin_add]
      linear_combination -(-z.re * sin s + z.im * cos s) * hsc2
    rw [ex, ey]
  -- polar coordinates
  rw [e1, e2, ← lintegral_indicator_one hmB, ← Complex.lintegral_comp_polarCoord_symm]
  have hset : ∀ p ∈ polarCoord.target, ENNReal.ofReal p.1 • B.indicator (1 : ℂ → ENNReal) (Complex.polarCoord.symm p) =
      ((Set.Icc r1 r2 ×ˢ Set.Icc (-(d / 2)) (d / 2)).indicator (fun q : ℝ × ℝ => ENNReal.ofReal q.1)) p := by
    rintro ⟨r, θ⟩ ⟨hp1, hp2⟩
    have hr0 : 0 < r := hp1
    have hre : (Complex.polarCoord.symm (r, θ)).re = r * cos θ ∧ (Complex.polarCoord.symm (r, θ)).im = r * sin θ := by
      rw [Complex.polarCoord_symm_apply]
      simp [← Complex.ofReal_cos, ← Complex.ofReal_sin]
    have hmem : Complex.polarCoord.symm (r, θ) ∈ B ↔ (r, θ) ∈ Set.Icc r1 r2 ×ˢ Set.Icc (-(d / 2)) (d / 2) := by
      simp only [hB, Set.mem_setOf_eq, hre.1, hre.2, Set.mem_prod, Set.mem_Icc]
      have e : (r * cos θ) ^ 2 + (r * sin θ) ^ 2 = r ^ 2 := by linear_combination r ^ 2 * sin_sq_add_cos_sq θ
      rw [e, sector_polar h1 hr0 hp2.1 hp2.2, pow_le_pow_iff_left₀ hr1 hr0.le (by norm_num), pow_le_pow_iff_left₀ hr0.le (hr1.trans hr) (by norm_num)]
      tauto
    by_cases h : Complex.polarCoord.symm (r, θ) ∈ B
    · rw [Set.indicator_of_mem h, Set.indicator_of_mem (hmem.mp h)]; simp
    · rw [Set.indicator_of_notMem h, Set.indicator_of_notMem (mt hmem.mpr h)]; simp
  rw [setLIntegral_congr_fun polarCoord.open_target.measurableSet hset, lintegral_indicator (measurableSet_Icc.prod measurableSet_Icc),
    Measure.restrict_restrict (measurableSet_Icc.prod measurableSet_Icc)]
  have hT : polarCoord.target = Set.Ioi (0 : ℝ) ×ˢ Set.Ioo (-π) π := rfl
  rw [hT, Set.prod_inter_prod, Measure.volume_eq_prod, ← Measure.prod_restrict]
  have hprod := lintegral_prod_mul (μ := volume.restrict (Set.Icc r1 r2 ∩ Set.Ioi 0)) (ν := volume.restrict (Set.Icc (-(d / 2)) (d / 2) ∩ Set.Ioo (-π) π))
    (f := fun x => ENNReal.ofReal x) (g := fun _ => 1) (by fun_prop) (by fun_prop)
  simp only [mul_one] at hprod
  rw [hprod]
  have hae1 : (Set.Icc r1 r2 ∩ Set.Ioi 0 : Set ℝ) =ᵐ[volume] Set.Ioc r1 r2 := by
    rcases hr1.lt_or_eq with h | h
    · have hsub : Set.Icc r1 r2 ⊆ Set.Ioi 0 := fun x hx => lt_of_lt_of_le h hx.1
      rw [Set.inter_eq_left.mpr hsub]
      exact Ioc_ae_eq_Icc.symm
    · rw [← h]
      have : (Set.Icc 0 r2 ∩ Set.Ioi 0 : Set ℝ) = Set.Ioc 0 r2 := by
        ext x; simp only [Set.mem_inter_iff, Set.mem_Icc, Set.mem_Ioi, Set.mem_Ioc]
        constructor
        · rintro ⟨⟨-, h2⟩, h3⟩; exact ⟨h3, h2⟩
        · rintro ⟨h2, h3⟩; exact ⟨⟨h2.le, h3⟩, h2⟩
      rw [this]
      exact Filter.EventuallyEq.rfl
  have hI1 : ∫⁻ x in Set.Icc r1 r2 ∩ Set.Ioi 0, ENNReal.ofReal x = ENNReal.ofReal ((r2 ^ 2 - r1 ^ 2) / 2) := by
    rw [setLIntegral_congr hae1, ← ofReal_integral_eq_lintegral_ofReal, ← intervalIntegral.integral_of_le hr, integral_id]
    · exact (continuous_id.integrableOn_Icc).mono_set Set.Ioc_subset_Icc_self
    · rw [Filter.EventuallyLE, ae_restrict_iff' measurableSet_Ioc]
      exact Filter.Eventually.of_forall fun x hx => hr1.trans hx.1.le
  have hI2 : ∫⁻ _ in Set.Icc (-(d / 2)) (d / 2) ∩ Set.Ioo (-π) π, (1 : ENNReal) = ENNReal.ofReal d := by
    rw [setLIntegral_one]
    have hae : (Set.Icc (-(d / 2)) (d / 2) ∩ Set.Ioo (-π) π : Set ℝ) =ᵐ[volume] Set.Icc (-(d / 2)) (d / 2) := by
      have h2 : (Set.Icc (-(d / 2)) (d / 2) ∩ Set.Ioo (-π) π : Set ℝ) =ᵐ[volume] (Set.Icc (-(d / 2)) (d / 2) ∩ Set.Icc (-π) π : Set ℝ) :=
        (Filter.EventuallyEq.refl _ _).inter Ioo_ae_eq_Icc
      rwa [Set.inter_eq_left.mpr (Set.Icc_subset_Icc (by linarith) (by linarith))] at h2
    rw [measure_congr hae, Real.volume_Icc]
    congr 1; ring
  rw [hI1, hI2, ← ENNReal.ofReal_mul]
  have := pow_le_pow_left₀ hr1 hr 2
  linarith

end VecGeom
