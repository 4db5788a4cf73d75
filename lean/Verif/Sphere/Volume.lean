import Verif.Sphere.Fields
import Verif.Base.Revolve
import Mathlib.Analysis.SpecialFunctions.Integrals.Basic
import Mathlib.Analysis.Real.Pi.Bounds

/-!
# The capacity of spheres
-/

namespace VecGeom
namespace Sphere

open Real MeasureTheory

/-- The half plane figure of a sphere. -/
def figure (a : Par) : Set (ℝ × ℝ) :=
  {q | a.rmin ≤ √(q.1 ^ 2 + q.2 ^ 2) ∧ √(q.1 ^ 2 + q.2 ^ 2) ≤ a.rmax ∧ 0 ≤ q.1 * cos a.ts - q.2 * sin a.ts ∧ q.1 * cos a.te - q.2 * sin a.te ≤ 0}

theorem measurable_figure (a : Par) : MeasurableSet (figure a) := by
  have m1 : Measurable fun q : ℝ × ℝ => √(q.1 ^ 2 + q.2 ^ 2) := by fun_prop
  have m2 : Measurable fun q : ℝ × ℝ => q.1 * cos a.ts - q.2 * sin a.ts := by fun_prop
  have m3 : Measurable fun q : ℝ × ℝ => q.1 * cos a.te - q.2 * sin a.te := by fun_prop
  exact (measurableSet_le measurable_const m1).inter ((measurableSet_le m1 measurable_const).inter
    ((measurableSet_le measurable_const m2).inter (measurableSet_le m3 measurable_const)))

theorem closed_figure {a : Par} (hv : a.Valid) : {q : Fin 3 → ℝ | a.Closed ⟨q 0, q 1, q 2⟩} =
    {q : Fin 3 → ℝ | Sector a.s a.d (q 0) (q 1) ∧ (√(q 0 ^ 2 + q 1 ^ 2), q 2) ∈ figure a} := by
  ext q
  have hm : (⟨q 0, q 1, q 2⟩ : V3).mag = √(√(q 0 ^ 2 + q 1 ^ 2) ^ 2 + q 2 ^ 2) := by
    unfold V3.mag
    congr 1
    rw [sq_sqrt (by positivity)]
    show q 0 * q 0 + q 1 * q 1 + q 2 * q 2 = _
    ring
  have hp := polar_iff hv.ts (show a.ts < π by have := hv.te; unfold Par.te at this; linarith [hv.td])
    (show 0 < a.te by unfold Par.te; linarith [hv.ts, hv.td]) hv.te (show a.ts ≤ a.te by unfold Par.te; linarith [hv.td]) ⟨q 0, q 1, q 2⟩
  simp only [Set.mem_setOf_eq, figure]
  constructor
  · intro h
    have h4 := hp.mp h.theta
    refine ⟨h.phi, ?_, ?_, h4.1, h4.2⟩
    · show a.rmin ≤ √(√(q 0 ^ 2 + q 1 ^ 2) ^ 2 + q 2 ^ 2)
      rw [← hm]; exact h.lo
    · show √(√(q 0 ^ 2 + q 1 ^ 2) ^ 2 + q 2 ^ 2) ≤ a.rmax
      rw [← hm]; exact h.hi
  · rintro ⟨h1, h2, h3, h4, h5⟩
    refine ⟨?_, ?_, h1, hp.mpr ⟨h4, h5⟩⟩
    · rw [hm]; exact h2
    · rw [hm]; exact h3

theorem volume_closed {a : Par} (hv : a.Valid) : volume {q : Fin 3 → ℝ | a.Closed ⟨q 0, q 1, q 2⟩} =
    ENNReal.ofReal (a.d * (cos a.ts - cos a.te) * (a.rmax ^ 3 - a.rmin ^ 3) / 3) := by
  have hpi := pi_pos
  have hts := hv.ts
  have htd := hv.td
  have hte := hv.te
  have hse : a.ts < a.te := by unfold Par.te; linarith
  have hr0 := hv.rmin
  have hr1 := hv.rmax
  have hb : ∀ q ∈ figure a, q.1 ≤ a.rmax := by
    rintro q ⟨-, h, -⟩
    exact le_trans (le_trans (le_abs_self _) (abs_le_sqrt (by nlinarith [sq_nonneg q.2]))) h
  rw [closed_figure hv, volume_revolve (measurable_figure a) (by linarith) hb hv.d hv.d', moment_polar (measurable_figure a) hb]
  set F : ℝ × ℝ → ENNReal := fun p => ENNReal.ofReal (p.1 ^ 2) * ENNReal.ofReal (sin p.2) with hF
  have hmF : Measurable F := by
    have h1 : Measurable fun p : ℝ × ℝ => p.1 ^ 2 := by fun_prop
    have h2 : Measurable fun p : ℝ × ℝ => sin p.2 := by fun_prop
    exact (ENNReal.measurable_ofReal.comp h1).mul (ENNReal.measurable_ofReal.comp h2)
  set B : Set (ℝ × ℝ) := Set.Icc a.rmin a.rmax ×ˢ (Set.Icc a.ts a.te ∩ Set.Ioo 0 π) with hB
  have hmB : MeasurableSet B := measurableSet_Icc.prod (measurableSet_Icc.inter measurableSet_Ioo)
  have hset : ∀ p ∈ Set.Ioi (0 : ℝ) ×ˢ Set.Ioo (-π) π, ENNReal.ofReal p.1 *
      {q : ℝ × ℝ | 0 < q.2 ∧ (q.2, q.1) ∈ figure a}.indicator (fun q => ENNReal.ofReal q.2) (p.1 * cos p.2, p.1 * sin p.2) =
      B.indicator F p := by
    rintro ⟨r, t⟩ ⟨hr, ht⟩
    have hr : 0 < r := hr
    have hm : √((r * sin t) ^ 2 + (r * cos t) ^ 2) = r := by
      rw [show (r * sin t) ^ 2 + (r * cos t) ^ 2 = r ^ 2 by linear_combination r ^ 2 * sin_sq_add_cos_sq t, sqrt_sq hr.le]
    have e : ∀ b, r * sin t * cos b - r * cos t * sin b = r * sin (t - b) := by
      intro b; rw [sin_sub]; ring
    have hmem : ((r * cos t, r * sin t) : ℝ × ℝ) ∈ {q : ℝ × ℝ | 0 < q.2 ∧ (q.2, q.1) ∈ figure a} ↔ ((r, t) : ℝ × ℝ) ∈ B := by
      simp only [figure, Set.mem_setOf_eq, hB, Set.mem_prod, Set.mem_inter_iff, Set.mem_Icc, Set.mem_Ioo, hm, e]
      have h1 : 0 < r * sin t ↔ 0 < t := by
        constructor
        · intro h
          by_contra hc
          push Not at hc
          have : 0 ≤ sin (-t) := sin_nonneg_of_nonneg_of_le_pi (by linarith) (by linarith [ht.1])
          rw [sin_neg] at this
          nlinarith
        · intro h
          exact mul_pos hr (sin_pos_of_pos_of_lt_pi h ht.2)
      rw [h1]
      constructor
      · rintro ⟨h2, h3, h4, h5, h6⟩
        refine ⟨⟨h3, h4⟩, ⟨?_, ?_⟩, h2, ht.2⟩
        · by_contra hc
          push Not at hc
          have : 0 < sin (a.ts - t) := sin_pos_of_pos_of_lt_pi (by linarith) (by linarith)
          rw [show t - a.ts = -(a.ts - t) by ring, sin_neg] at h5
          nlinarith
        · by_contra hc
          push Not at hc
          have : 0 < sin (t - a.te) := sin_pos_of_pos_of_lt_pi (by linarith) (by linarith [ht.2])
          nlinarith
      · rintro ⟨⟨h3, h4⟩, ⟨h5, h6⟩, h2, -⟩
        refine ⟨h2, h3, h4, mul_nonneg hr.le (sin_nonneg_of_nonneg_of_le_pi (by linarith) (by linarith [ht.2])), ?_⟩
        have := mul_nonneg hr.le (sin_nonneg_of_nonneg_of_le_pi (x := a.te - t) (by linarith) (by linarith))
        rw [show t - a.te = -(a.te - t) by ring, sin_neg]
        linarith
    by_cases h : ((r * cos t, r * sin t) : ℝ × ℝ) ∈ {q : ℝ × ℝ | 0 < q.2 ∧ (q.2, q.1) ∈ figure a}
    · rw [Set.indicator_of_mem h, Set.indicator_of_mem (hmem.mp h)]
      simp only [hF]
      rw [← ENNReal.ofReal_mul hr.le, ← ENNReal.ofReal_mul (by positivity)]
      congr 1
      ring
    · rw [Set.indicator_of_notMem h, Set.indicator_of_notMem (mt hmem.mpr h), mul_zero]
  rw [setLIntegral_congr_fun (measurableSet_Ioi.prod measurableSet_Ioo) hset, lintegral_indicator hmB, Measure.restrict_restrict hmB,
    hB, Set.prod_inter_prod, Measure.volume_eq_prod, ← Measure.prod_restrict, lintegral_prod _ hmF.aemeasurable]
  have hae1 : (Set.Icc a.rmin a.rmax ∩ Set.Ioi 0 : Set ℝ) =ᵐ[volume] Set.Ioc a.rmin a.rmax := by
    have h2 : (Set.Icc a.rmin a.rmax ∩ Set.Ioi 0 : Set ℝ) =ᵐ[volume] (Set.Icc a.rmin a.rmax ∩ Set.Ici 0 : Set ℝ) :=
      (Filter.EventuallyEq.refl _ _).inter Ioi_ae_eq_Ici
    rw [Set.inter_eq_left.mpr (show Set.Icc a.rmin a.rmax ⊆ Set.Ici 0 from fun x hx => le_trans hr0 hx.1)] at h2
    exact h2.trans Ioc_ae_eq_Icc.symm
  have hae2 : ((Set.Icc a.ts a.te ∩ Set.Ioo 0 π) ∩ Set.Ioo (-π) π : Set ℝ) =ᵐ[volume] Set.Ioc a.ts a.te := by
    have h3 : ((Set.Icc a.ts a.te ∩ Set.Ioo 0 π) ∩ Set.Ioo (-π) π : Set ℝ) = Set.Icc a.ts a.te ∩ Set.Ioo 0 π := by
      apply Set.inter_eq_left.mpr
      intro x hx
      exact ⟨by linarith [hx.2.1], hx.2.2⟩
    rw [h3]
    have h2 : (Set.Icc a.ts a.te ∩ Set.Ioo 0 π : Set ℝ) =ᵐ[volume] (Set.Icc a.ts a.te ∩ Set.Icc 0 π : Set ℝ) :=
      (Filter.EventuallyEq.refl _ _).inter Ioo_ae_eq_Icc
    rw [Set.inter_eq_left.mpr (Set.Icc_subset_Icc (by linarith) (by linarith))] at h2
    exact h2.trans Ioc_ae_eq_Icc.symm
  have hin : ∀ r : ℝ, ∫⁻ t, F (r, t) ∂(volume.restrict ((Set.Icc a.ts a.te ∩ Set.Ioo 0 π) ∩ Set.Ioo (-π) π)) =
      ENNReal.ofReal (r ^ 2) * ENNReal.ofReal (cos a.ts - cos a.te) := by
    intro r
    rw [setLIntegral_congr hae2]
    simp only [hF]
    rw [lintegral_const_mul _ (show Measurable fun x : ℝ => ENNReal.ofReal (sin x) from ENNReal.measurable_ofReal.comp measurable_sin)]
    congr 1
    rw [← ofReal_integral_eq_lintegral_ofReal, ← intervalIntegral.integral_of_le hse.le, integral_sin]
    · exact (continuous_sin.integrableOn_Icc).mono_set Set.Ioc_subset_Icc_self
    · refine (ae_restrict_iff' measurableSet_Ioc).mpr (Filter.Eventually.of_forall fun t ht => ?_)
      exact sin_nonneg_of_nonneg_of_le_pi (by linarith [ht.1]) (by linarith [ht.2])
  simp_rw [hin]
  have m2 : Measurable fun r : ℝ => ENNReal.ofReal (r ^ 2) := by
    have h1 : Measurable fun r : ℝ => r ^ 2 := by fun_prop
    exact ENNReal.measurable_ofReal.comp h1
  rw [setLIntegral_congr hae1, lintegral_mul_const _ m2]
  have hr : ∫⁻ r in Set.Ioc a.rmin a.rmax, ENNReal.ofReal (r ^ 2) = ENNReal.ofReal ((a.rmax ^ 3 - a.rmin ^ 3) / 3) := by
    rw [← ofReal_integral_eq_lintegral_ofReal, ← intervalIntegral.integral_of_le hr1.le, integral_pow]
    · norm_num
    · exact ((continuous_id.pow 2).integrableOn_Icc).mono_set Set.Ioc_subset_Icc_self
    · exact Filter.Eventually.of_forall fun t => sq_nonneg t
  have hc3 : a.rmin ^ 3 ≤ a.rmax ^ 3 := pow_le_pow_left₀ hr0 hr1.le 3
  rw [hr, ← ENNReal.ofReal_mul (by linarith), ← ENNReal.ofReal_mul hv.d.le]
  congr 1
  ring

theorem checked_members {a : Par} (hv : a.Valid) (hd : a.d = 2 * π ∨ a.d < 2 * π - angTol * (1 / 2)) :
    (checked a).volume = 0 ∧ (checked a).rmin = a.rmin ∧ (checked a).rmax = a.rmax ∧ (checked a).dPhi = a.d ∧
      (checked a).sTheta = a.ts ∧ (checked a).dTheta = a.td := by
  obtain ⟨sp, f, x, y, e⟩ := of_members hv hd
  obtain ⟨x', y', e'⟩ := of_eq a
  rw [e] at e'
  have h1 := congrArg Sph.rmin e'
  have h2 := congrArg Sph.rmax e'
  have h3 := congrArg Sph.dPhi e'
  have h4 := congrArg Sph.sTheta e'
  have h5 := congrArg Sph.dTheta e'
  refine ⟨?_, h1.symm, h2.symm, h3.symm, h4.symm, h5.symm⟩
  unfold checked
  obtain ⟨sp, dp, f, e1, -, -⟩ := checkPhi_eq (raw a) a.s a.d
  rw [e1]
  unfold checkTheta
  simp only []
  split_ifs <;> rfl

theorem of_volume {a : Par} (hv : a.Valid) (hd : a.d = 2 * π ∨ a.d < 2 * π - angTol * (1 / 2)) :
    (of a).volume = a.d * (cos a.ts - cos a.te) * (a.rmax ^ 3 - a.rmin ^ 3) / 3 := by
  obtain ⟨h0, h1, h2, h3, h4, h5⟩ := checked_members hv hd
  rw [of_checked]
  obtain ⟨y, hy⟩ := area_eq (calcCapacity (checked a))
  rw [hy]
  show (calcCapacity (checked a)).volume = _
  unfold calcCapacity
  rw [if_neg (not_not.mpr h0)]
  show (checked a).dPhi * (cos (checked a).sTheta - cos ((checked a).sTheta + (checked a).dTheta)) * _ / 3 = _
  rw [h1, h2, h3, h4, h5]
  unfold Par.te
  ring

/-- C170: the capacity of a sphere is its volume. -/
theorem C170_capacity {a : Par} (hv : a.Valid) (hd : a.d = 2 * π ∨ a.d < 2 * π - angTol * (1 / 2)) :
    volume {q : Fin 3 → ℝ | a.Closed ⟨q 0, q 1, q 2⟩} = ENNReal.ofReal (capacity (of a)) := by
  unfold capacity
  rw [of_volume hv hd, volume_closed hv]

/-- The parameters of an eighth of a ball, and its capacity. -/
example : volume {q : Fin 3 → ℝ | (⟨0, 3, 0, π / 2, 0, π / 2⟩ : Par).Closed ⟨q 0, q 1, q 2⟩} = ENNReal.ofReal (9 / 2 * π) := by
  have hp := pi_gt_three
  have hv : (⟨0, 3, 0, π / 2, 0, π / 2⟩ : Par).Valid :=
    ⟨le_refl _, by norm_num, by positivity, by show π / 2 ≤ 2 * π; linarith, le_refl _, by positivity, by show 0 + π / 2 ≤ π; linarith⟩
  have hd : (⟨0, 3, 0, π / 2, 0, π / 2⟩ : Par).d = 2 * π ∨ (⟨0, 3, 0, π / 2, 0, π / 2⟩ : Par).d < 2 * π - angTol * (1 / 2) := by
    right; show π / 2 < 2 * π - angTol * (1 / 2)
    unfold angTol; linarith
  rw [C170_capacity hv hd]
  congr 1
  unfold capacity
  rw [of_volume hv hd]
  show π / 2 * (cos 0 - cos (0 + π / 2)) * (3 ^ 3 - 0 ^ 3) / 3 = _
  rw [zero_add, cos_zero, cos_pi_div_two]
  ring

end Sphere
end VecGeom
