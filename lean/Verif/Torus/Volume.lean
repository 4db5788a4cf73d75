import Verif.Torus.Props
import Verif.Base.Revolve
import Verif.Base.Ellipse
import Mathlib.Analysis.SpecialFunctions.Integrals.Basic
import Mathlib.MeasureTheory.Measure.Haar.Unique

/-!
# The capacity and the surface area of tori
-/

namespace VecGeom
namespace Torus

open Real MeasureTheory

/-- The half plane figure of a torus. -/
def figure (a : Par) : Set (ℝ × ℝ) := {q | a.rmin ^ 2 ≤ (q.1 - a.rtor) ^ 2 + q.2 ^ 2 ∧ (q.1 - a.rtor) ^ 2 + q.2 ^ 2 ≤ a.rmax ^ 2}

theorem measurable_figure (a : Par) : MeasurableSet (figure a) := by
  have m : Measurable fun q : ℝ × ℝ => (q.1 - a.rtor) ^ 2 + q.2 ^ 2 := by fun_prop
  exact (measurableSet_le measurable_const m).inter (measurableSet_le m measurable_const)

theorem closed_figure {a : Par} (hv : a.Valid) : {q : Fin 3 → ℝ | a.Closed ⟨q 0, q 1, q 2⟩} =
    {q : Fin 3 → ℝ | Sector a.s a.d (q 0) (q 1) ∧ (√(q 0 ^ 2 + q 1 ^ 2), q 2) ∈ figure a} := by
  ext q
  have hs := ringDist_sq a.rtor ⟨q 0, q 1, q 2⟩
  have h0 := ringDist_nonneg a.rtor ⟨q 0, q 1, q 2⟩
  have hm : 0 < a.rmax := hv.rmin.trans_lt hv.rmax
  simp only [Set.mem_setOf_eq, figure]
  constructor
  · rintro ⟨h1, h2, h3⟩
    refine ⟨h3, ?_, ?_⟩
    · show a.rmin ^ 2 ≤ (Tube.rad ⟨q 0, q 1, q 2⟩ - a.rtor) ^ 2 + q 2 ^ 2
      rw [← hs]; exact pow_le_pow_left₀ hv.rmin h1 2
    · show (Tube.rad ⟨q 0, q 1, q 2⟩ - a.rtor) ^ 2 + q 2 ^ 2 ≤ a.rmax ^ 2
      rw [← hs]; exact pow_le_pow_left₀ h0 h2 2
  · rintro ⟨h3, h1, h2⟩
    have h1 : a.rmin ^ 2 ≤ (Tube.rad ⟨q 0, q 1, q 2⟩ - a.rtor) ^ 2 + q 2 ^ 2 := h1
    have h2 : (Tube.rad ⟨q 0, q 1, q 2⟩ - a.rtor) ^ 2 + q 2 ^ 2 ≤ a.rmax ^ 2 := h2
    rw [← hs] at h1 h2
    exact ⟨le_of_sq_le_sq h1 h0, le_of_sq_le_sq h2 hm.le, h3⟩

/-- The area of a ring around any centre. -/
theorem area_figure {a : Par} (hv : a.Valid) : volume (figure a) = ENNReal.ofReal (π * (a.rmax ^ 2 - a.rmin ^ 2)) := by
  have hpi := pi_pos
  have h := area_ring (s := 0) (d := 2 * π) hv.rmin hv.rmax.le (by positivity) (le_refl _)
  have e0 : {w : Fin 2 → ℝ | a.rmin ^ 2 ≤ w 0 ^ 2 + w 1 ^ 2 ∧ w 0 ^ 2 + w 1 ^ 2 ≤ a.rmax ^ 2 ∧ Sector 0 (2 * π) (w 0) (w 1)} =
      (MeasurableEquiv.finTwoArrow (α := ℝ)) ⁻¹' {q : ℝ × ℝ | a.rmin ^ 2 ≤ q.1 ^ 2 + q.2 ^ 2 ∧ q.1 ^ 2 + q.2 ^ 2 ≤ a.rmax ^ 2} := by
    ext w
    constructor
    · rintro ⟨h1, h2, -⟩; exact ⟨h1, h2⟩
    · rintro ⟨h1, h2⟩; exact ⟨h1, h2, sector_full _ _ _⟩
  have m : Measurable fun q : ℝ × ℝ => q.1 ^ 2 + q.2 ^ 2 := by fun_prop
  have hm : MeasurableSet {q : ℝ × ℝ | a.rmin ^ 2 ≤ q.1 ^ 2 + q.2 ^ 2 ∧ q.1 ^ 2 + q.2 ^ 2 ≤ a.rmax ^ 2} :=
    (measurableSet_le measurable_const m).inter (measurableSet_le m measurable_const)
  rw [e0, (volume_preserving_finTwoArrow ℝ).measure_preimage hm.nullMeasurableSet] at h
  have e1 : figure a = (fun q : ℝ × ℝ => q + (-a.rtor, 0)) ⁻¹' {q : ℝ × ℝ | a.rmin ^ 2 ≤ q.1 ^ 2 + q.2 ^ 2 ∧ q.1 ^ 2 + q.2 ^ 2 ≤ a.rmax ^ 2} := by
    ext q
    show _ ↔ a.rmin ^ 2 ≤ (q.1 + -a.rtor) ^ 2 + (q.2 + 0) ^ 2 ∧ (q.1 + -a.rtor) ^ 2 + (q.2 + 0) ^ 2 ≤ a.rmax ^ 2
    rw [← sub_eq_add_neg, add_zero]
    rfl
  rw [e1, measure_preimage_add_right, h]
  congr 1; ring

/-- Pappus: a figure that is symmetric about `r = R` and has only points with `0 ≤ r` has its centroid at `R`. -/
theorem pappus {l : ℝ → ENNReal} (hl : Measurable l) {R : ℝ} (hR : 0 ≤ R) (hs : ∀ r, l (2 * R - r) = l r) :
    ∫⁻ r in Set.Ioc 0 (2 * R), ENNReal.ofReal r * l r = ENNReal.ofReal R * ∫⁻ r in Set.Ioc 0 (2 * R), l r := by
  set A := ∫⁻ r in Set.Ioc 0 (2 * R), ENNReal.ofReal r * l r with hA
  have hof : Measurable fun r : ℝ => ENNReal.ofReal r * l r := (ENNReal.measurable_ofReal).mul hl
  have hof' : Measurable fun r : ℝ => ENNReal.ofReal (2 * R - r) * l r := by
    have : Measurable fun r : ℝ => 2 * R - r := by fun_prop
    exact (ENNReal.measurable_ofReal.comp this).mul hl
  have h1 : A = ∫⁻ r in Set.Ioc 0 (2 * R), ENNReal.ofReal (2 * R - r) * l r := by
    have hp := ((volume : Measure ℝ).measurePreserving_sub_left (2 * R)).setLIntegral_comp_preimage
      (s := Set.Ioc 0 (2 * R)) measurableSet_Ioc hof
    rw [hA, ← hp]
    have e : (fun r : ℝ => 2 * R - r) ⁻¹' Set.Ioc 0 (2 * R) = Set.Ico 0 (2 * R) := by
      ext r; simp only [Set.mem_preimage, Set.mem_Ioc, Set.mem_Ico]
      constructor
      · rintro ⟨h1, h2⟩; exact ⟨by linarith, by linarith⟩
      · rintro ⟨h1, h2⟩; exact ⟨by linarith, by linarith⟩
    rw [e, Measure.restrict_congr_set Ico_ae_eq_Ioc]
    refine lintegral_congr (fun r => ?_)
    rw [hs]
  have h2 : A + A = ENNReal.ofReal (2 * R) * ∫⁻ r in Set.Ioc 0 (2 * R), l r := by
    nth_rw 2 [h1]
    rw [hA, ← lintegral_add_left hof, ← lintegral_const_mul _ hl]
    refine setLIntegral_congr_fun measurableSet_Ioc (fun r hr => ?_)
    show ENNReal.ofReal r * l r + ENNReal.ofReal (2 * R - r) * l r = ENNReal.ofReal (2 * R) * l r
    rw [← add_mul, ← ENNReal.ofReal_add hr.1.le (by linarith [hr.2])]
    congr 2; ring
  rw [ENNReal.ofReal_mul (by norm_num), ENNReal.ofReal_ofNat, mul_assoc, ← two_mul] at h2
  exact (ENNReal.mul_right_inj (by norm_num) (by norm_num)).mp h2

section
variable {a : Par} (hv : a.Valid)
include hv

theorem volume_closed (hr : a.Ring) : volume {q : Fin 3 → ℝ | a.Closed ⟨q 0, q 1, q 2⟩} =
    ENNReal.ofReal (a.d * π * a.rtor * (a.rmax ^ 2 - a.rmin ^ 2)) := by
  have hm : 0 < a.rmax := hv.rmin.trans_lt hv.rmax
  have hr' : a.rmax ≤ a.rtor := hr
  have hb : ∀ q ∈ figure a, q.1 ≤ 2 * a.rtor := by
    rintro q ⟨-, h⟩
    nlinarith [sq_nonneg q.2]
  have hb0 : ∀ q ∈ figure a, 0 ≤ q.1 := by
    rintro q ⟨-, h⟩
    nlinarith [sq_nonneg q.2]
  set l : ℝ → ENNReal := fun r => volume {z : ℝ | (r, z) ∈ figure a} with hl
  have hml : Measurable l := measurable_measure_prodMk_left (measurable_figure a)
  have hsym : ∀ r, l (2 * a.rtor - r) = l r := by
    intro r
    simp only [hl, figure, Set.mem_setOf_eq]
    rw [show (2 * a.rtor - r - a.rtor) ^ 2 = (r - a.rtor) ^ 2 by ring]
  have harea : ∫⁻ r in Set.Ioc 0 (2 * a.rtor), l r = volume (figure a) := by
    rw [Measure.volume_eq_prod, Measure.prod_apply (measurable_figure a)]
    rw [setLIntegral_congr (Ioc_ae_eq_Icc), ← lintegral_indicator measurableSet_Icc]
    refine lintegral_congr (fun r => ?_)
    by_cases h : r ∈ Set.Icc 0 (2 * a.rtor)
    · rw [Set.indicator_of_mem h]; rfl
    · rw [Set.indicator_of_notMem h]
      symm
      have : Prod.mk r ⁻¹' figure a = ∅ := by
        ext z
        simp only [Set.mem_preimage, Set.mem_empty_iff_false, iff_false]
        exact fun hz => h ⟨hb0 _ hz, hb _ hz⟩
      rw [this, measure_empty]
  rw [closed_figure hv, volume_revolve (measurable_figure a) (by linarith) hb hv.d hv.d', pappus hml (by linarith) hsym, harea,
    area_figure hv, ← ENNReal.ofReal_mul (by linarith), ← ENNReal.ofReal_mul hv.d.le]
  congr 1; ring

/-- C178: the capacity of a torus that does not meet itself is the Lebesgue measure of its points. -/
theorem C178_capacity (hr : a.Ring) : volume {q : Fin 3 → ℝ | a.Closed ⟨q 0, q 1, q 2⟩} = ENNReal.ofReal (capacity (un a)) := by
  rw [volume_closed hv hr]
  congr 1
  show _ = a.d * π * a.rtor * (a.rmax * a.rmax - a.rmin * a.rmin)
  ring

end

example : capacity (un ring) = 30 * π ^ 2 := by
  show 2 * π * π * 5 * (2 * 2 - 1 * 1) = _
  ring
example : ring.Valid ∧ ring.Ring := ⟨ring_valid, by norm_num [Par.Ring, ring]⟩

/-- C178, finding: the constructor accepts tori that meet themselves, even a ball as a torus with a central circle of radius 0.  The
capacity of these is wrong: that of the ball is 0, although the ball has points in a whole cube. -/
theorem C178_counterexample :
    capacity (un ⟨0, 1, 0, 0, 2 * π⟩) = 0 ∧
    0 < volume {q : Fin 3 → ℝ | (⟨0, 1, 0, 0, 2 * π⟩ : Par).Closed ⟨q 0, q 1, q 2⟩} := by
  constructor
  · show 2 * π * π * 0 * _ = 0
    ring
  · have hsub : Set.pi Set.univ (fun _ : Fin 3 => Set.Icc (0 : ℝ) (1 / 2)) ⊆
        {q : Fin 3 → ℝ | (⟨0, 1, 0, 0, 2 * π⟩ : Par).Closed ⟨q 0, q 1, q 2⟩} := by
      intro q hq
      have h0 := hq 0 (Set.mem_univ _)
      have h1 := hq 1 (Set.mem_univ _)
      have h2 := hq 2 (Set.mem_univ _)
      refine ⟨ringDist_nonneg _ _, ?_, sector_full _ _ _⟩
      show ringDist 0 _ ≤ 1
      refine le_of_sq_le_sq ?_ (by norm_num)
      rw [ringDist_sq, sub_zero, Tube.rad_sq]
      show q 0 ^ 2 + q 1 ^ 2 + q 2 ^ 2 ≤ 1 ^ 2
      nlinarith [h0.1, h0.2, h1.1, h1.2, h2.1, h2.2]
    refine lt_of_lt_of_le ?_ (measure_mono hsub)
    rw [volume_pi_pi]
    simp only [Real.volume_Icc]
    rw [Finset.prod_const]
    exact ENNReal.pow_pos (ENNReal.ofReal_pos.mpr (by norm_num)) _

/-! ### The surface -/

/-- The point of the tube of radius `r` around the central circle of radius `R` with azimuth `φ`, at the angle `θ` around the tube. -/
noncomputable def surf (R r φ θ : ℝ) : V3 := ⟨(R + r * cos θ) * cos φ, (R + r * cos θ) * sin φ, r * sin θ⟩

/-- The length of the cross product of the two derivatives of the parametrisation: the area element. -/
noncomputable def areaElement (R r φ θ : ℝ) : ℝ :=
  (V3.cross ⟨deriv (fun t => (surf R r t θ).x) φ, deriv (fun t => (surf R r t θ).y) φ, deriv (fun t => (surf R r t θ).z) φ⟩
    ⟨deriv (fun t => (surf R r φ t).x) θ, deriv (fun t => (surf R r φ t).y) θ, deriv (fun t => (surf R r φ t).z) θ⟩).mag

theorem areaElement_eq {R r : ℝ} (h0 : 0 ≤ r) (h1 : r ≤ R) (φ θ : ℝ) : areaElement R r φ θ = r * (R + r * cos θ) := by
  have d1 : deriv (fun t => (surf R r t θ).x) φ = -((R + r * cos θ) * sin φ) := by
    have := ((hasDerivAt_cos φ).const_mul (R + r * cos θ)).deriv
    show deriv (fun t => (R + r * cos θ) * cos t) φ = _
    rw [this]; ring
  have d2 : deriv (fun t => (surf R r t θ).y) φ = (R + r * cos θ) * cos φ :=
    ((hasDerivAt_sin φ).const_mul (R + r * cos θ)).deriv
  have d3 : deriv (fun t => (surf R r t θ).z) φ = 0 := by
    show deriv (fun _ : ℝ => r * sin θ) φ = 0
    simp
  have d4 : deriv (fun t => (surf R r φ t).x) θ = -(r * sin θ * cos φ) := by
    have := ((((hasDerivAt_cos θ).const_mul r).const_add R).mul_const (cos φ)).deriv
    show deriv (fun t => (R + r * cos t) * cos φ) θ = _
    rw [this]; ring
  have d5 : deriv (fun t => (surf R r φ t).y) θ = -(r * sin θ * sin φ) := by
    have := ((((hasDerivAt_cos θ).const_mul r).const_add R).mul_const (sin φ)).deriv
    show deriv (fun t => (R + r * cos t) * sin φ) θ = _
    rw [this]; ring
  have d6 : deriv (fun t => (surf R r φ t).z) θ = r * cos θ := ((hasDerivAt_sin θ).const_mul r).deriv
  have hp : 0 ≤ r * (R + r * cos θ) := mul_nonneg h0 (by nlinarith [neg_one_le_cos θ])
  unfold areaElement
  rw [d1, d2, d3, d4, d5, d6]
  unfold V3.mag V3.mag2 V3.dot V3.cross
  rw [← sqrt_sq hp]
  congr 1
  have e1 := sin_sq_add_cos_sq φ
  have e2 := sin_sq_add_cos_sq θ
  simp only []
  linear_combination (r ^ 2 * cos θ ^ 2 * (R + r * cos θ) ^ 2 + r ^ 2 * sin θ ^ 2 * (R + r * cos θ) ^ 2 * (sin φ ^ 2 + cos φ ^ 2 + 1)) * e1 + (r ^ 2 * (R + r * cos θ) ^ 2) * e2

theorem patch_area {R r : ℝ} (h0 : 0 ≤ r) (h1 : r ≤ R) (s d : ℝ) :
    ∫ φ in s..s + d, ∫ θ in (0 : ℝ)..2 * π, areaElement R r φ θ = d * (2 * π) * R * r := by
  simp only [areaElement_eq h0 h1]
  rw [intervalIntegral.integral_const, intervalIntegral.integral_const_mul]
  rw [intervalIntegral.integral_add (f := fun _ => R) (g := fun x => r * cos x) (by simp)
    (Continuous.intervalIntegrable (by fun_prop) _ _), intervalIntegral.integral_const_mul, integral_cos]
  simp
  ring

/-- C179: the surface area of a torus that does not meet itself is that of the outer tube, the inner tube and, if it is not full, the
two faces.  The areas of the tubes are the integrals of the area element, that of a face is the Lebesgue measure of the ring. -/
theorem C179_area {a : Par} (hv : a.Valid) (hr : a.Ring) :
    surfaceArea (un a) = (∫ φ in a.s..a.s + a.d, ∫ θ in (0 : ℝ)..2 * π, areaElement a.rtor a.rmax φ θ) +
      (∫ φ in a.s..a.s + a.d, ∫ θ in (0 : ℝ)..2 * π, areaElement a.rtor a.rmin φ θ) +
      (open Classical in if a.d = 2 * π then 0 else 2 * (volume {q : ℝ × ℝ | a.rmin ^ 2 ≤ (q.1 - a.rtor) ^ 2 + q.2 ^ 2 ∧
        (q.1 - a.rtor) ^ 2 + q.2 ^ 2 ≤ a.rmax ^ 2}).toReal) := by
  have hm : 0 < a.rmax := hv.rmin.trans_lt hv.rmax
  have hr' : a.rmax ≤ a.rtor := hr
  have hpos : 0 ≤ π * (a.rmax ^ 2 - a.rmin ^ 2) := mul_nonneg pi_pos.le (by nlinarith [hv.rmin, hv.rmax])
  rw [patch_area hm.le hr, patch_area hv.rmin (by linarith [hv.rmax])]
  have hf := area_figure hv
  unfold figure at hf
  rw [hf, ENNReal.toReal_ofReal hpos]
  unfold surfaceArea
  show (if a.d < 2 * π then a.d * (2 * π) * a.rtor * (a.rmax + a.rmin) + 2 * π * (a.rmax * a.rmax - a.rmin * a.rmin)
    else a.d * (2 * π) * a.rtor * (a.rmax + a.rmin)) = _
  rcases hv.d'.lt_or_eq with h | h
  · rw [if_pos h, if_neg h.ne]; ring
  · rw [if_neg (by rw [h]; exact lt_irrefl _), if_pos h]; ring

example : surfaceArea (un half) = 28 * π ^ 2 - 8 * π ^ 2 + 8 * π := by
  have hp := pi_pos
  unfold surfaceArea
  rw [if_pos (show (un half).t.dphi < 2 * π by show π < 2 * π; linarith)]
  show π * (2 * π) * 5 * (2 + 0) + 2 * π * (2 * 2 - 0 * 0) = _
  ring

end Torus
end VecGeom
