import Verif.Tet.Props
import Mathlib.MeasureTheory.Measure.Lebesgue.EqHaar
import Mathlib.MeasureTheory.Integral.IntervalIntegral.FundThmCalculus
import Mathlib.Analysis.SpecialFunctions.Integrals.Basic
import Mathlib.LinearAlgebra.Matrix.ToLin

/-!
# C59: the capacity of a tetrahedron is its volume
-/

namespace VecGeom
namespace Tet

open MeasureTheory

/-- The points with coordinates that are not negative and add up to at most `c`. -/
def cornerSet (n : ℕ) (c : ℝ) : Set (Fin n → ℝ) := {q | (∀ i, 0 ≤ q i) ∧ ∑ i, q i ≤ c}

theorem cornerSet_measurable (n : ℕ) (c : ℝ) : MeasurableSet (cornerSet n c) := by
  apply MeasurableSet.inter
  · have : {q : Fin n → ℝ | ∀ i, 0 ≤ q i} = ⋂ i, {q | 0 ≤ q i} := by ext q; simp
    show MeasurableSet {q : Fin n → ℝ | ∀ i, 0 ≤ q i}
    rw [this]
    exact MeasurableSet.iInter fun i => measurableSet_le measurable_const (measurable_pi_apply i)
  · exact measurableSet_le (Finset.measurable_sum _ fun i _ => measurable_pi_apply i) measurable_const

theorem volume_cornerSet (n : ℕ) : ∀ c : ℝ, 0 ≤ c → volume (cornerSet n c) = ENNReal.ofReal (c ^ n / n.factorial) := by
  induction n with
  | zero =>
    intro c hc
    have : cornerSet 0 c = Set.univ := by ext q; simp [cornerSet, hc]
    rw [this, Measure.volume_pi_eq_dirac (fun i => i.elim0)]
    simp
  | succ n ih =>
    intro c hc
    have hmp := volume_preserving_piFinSuccAbove (fun _ : Fin (n + 1) => ℝ) 0
    have hs : cornerSet (n + 1) c = (MeasurableEquiv.piFinSuccAbove (fun _ : Fin (n + 1) => ℝ) 0) ⁻¹'
        {z : ℝ × (Fin n → ℝ) | 0 ≤ z.1 ∧ z.2 ∈ cornerSet n (c - z.1)} := by
      ext q
      simp only [cornerSet, Set.mem_setOf_eq, Set.mem_preimage, MeasurableEquiv.piFinSuccAbove_apply, Fin.forall_fin_succ,
        Fin.sum_univ_succ, Fin.insertNthEquiv_symm_apply, Fin.removeNth, Fin.succAbove_zero]
      constructor
      · rintro ⟨⟨a, b⟩, d⟩; exact ⟨a, b, by linarith⟩
      · rintro ⟨a, b, d⟩; exact ⟨⟨a, b⟩, by linarith⟩
    have hmeas : MeasurableSet {z : ℝ × (Fin n → ℝ) | 0 ≤ z.1 ∧ z.2 ∈ cornerSet n (c - z.1)} := by
      rw [← MeasurableEquiv.measurableSet_preimage (MeasurableEquiv.piFinSuccAbove (fun _ : Fin (n + 1) => ℝ) 0), ← hs]
      exact cornerSet_measurable (n + 1) c
    rw [hs, hmp.measure_preimage hmeas.nullMeasurableSet]
    show (volume.prod volume) _ = _
    rw [Measure.prod_apply hmeas]
    have hsl : ∀ x : ℝ, volume (Prod.mk x ⁻¹' {z : ℝ × (Fin n → ℝ) | 0 ≤ z.1 ∧ z.2 ∈ cornerSet n (c - z.1)}) =
        (Set.Icc 0 c).indicator (fun x => ENNReal.ofReal ((c - x) ^ n / n.factorial)) x := by
      intro x
      by_cases hx : x ∈ Set.Icc 0 c
      · rw [Set.indicator_of_mem hx]
        rw [← ih (c - x) (by linarith [hx.2])]
        congr 1
        ext r
        simp [hx.1]
      · rw [Set.indicator_of_notMem hx]
        have : Prod.mk x ⁻¹' {z : ℝ × (Fin n → ℝ) | 0 ≤ z.1 ∧ z.2 ∈ cornerSet n (c - z.1)} = ∅ := by
          ext r
          simp only [Set.mem_preimage, Set.mem_setOf_eq, Set.mem_empty_iff_false, iff_false, not_and, cornerSet]
          intro h0 hr hsum
          apply hx
          refine ⟨h0, ?_⟩
          have : 0 ≤ ∑ i, r i := Finset.sum_nonneg fun i _ => hr i
          linarith
        rw [this, measure_empty]
    simp_rw [hsl]
    rw [lintegral_indicator measurableSet_Icc, ← ofReal_integral_eq_lintegral_ofReal]
    · congr 1
      rw [integral_Icc_eq_integral_Ioc, ← intervalIntegral.integral_of_le hc]
      rw [intervalIntegral.integral_div, intervalIntegral.integral_comp_sub_left (fun x => x ^ n) c, integral_pow]
      rw [Nat.factorial_succ]
      push_cast
      simp
      field_simp
    · apply ContinuousOn.integrableOn_Icc
      fun_prop
    · rw [Filter.EventuallyLE, ae_restrict_iff' measurableSet_Icc]
      refine Filter.Eventually.of_forall fun x hx => ?_
      have : 0 ≤ c - x := by linarith [hx.2]
      simp only [Pi.zero_apply]
      positivity

/-- The linear map that takes the unit vectors to the edges at the first corner. -/
noncomputable def edgeMap (v0 v1 v2 v3 : V3) : (Fin 3 → ℝ) →ₗ[ℝ] (Fin 3 → ℝ) :=
  Matrix.toLin' !![v1.x - v0.x, v2.x - v0.x, v3.x - v0.x; v1.y - v0.y, v2.y - v0.y, v3.y - v0.y;
    v1.z - v0.z, v2.z - v0.z, v3.z - v0.z]

/-- C59: the capacity of a tetrahedron is the volume of the convex hull of its corners, also if they lie in a plane. -/
theorem C59_tet_capacity (v0 v1 v2 v3 : V3) :
    volume {q : Fin 3 → ℝ | Hull v0 v1 v2 v3 ⟨q 0, q 1, q 2⟩} = ENNReal.ofReal (create v0 v1 v2 v3).fCubicVolume := by
  have himg : {q : Fin 3 → ℝ | Hull v0 v1 v2 v3 ⟨q 0, q 1, q 2⟩} =
      (fun x => ![v0.x, v0.y, v0.z] + x) '' (edgeMap v0 v1 v2 v3 '' cornerSet 3 1) := by
    ext q
    rw [← Set.image_comp]
    simp only [Set.mem_setOf_eq, Set.mem_image, Function.comp, cornerSet, Fin.forall_fin_succ, Fin.sum_univ_three]
    constructor
    · rintro ⟨w0, w1, w2, w3, h0, h1, h2, h3, hs, hx, hy, hz⟩
      refine ⟨![w1, w2, w3], ?_, ?_⟩
      · refine ⟨⟨by simpa using h1, by simpa using h2, by simpa using h3, fun i => i.elim0⟩, ?_⟩
        simp; linarith
      · have hw : w0 = 1 - w1 - w2 - w3 := by linarith
        subst hw
        ext i
        fin_cases i <;> simp [edgeMap, Matrix.mulVec, dotProduct, Fin.sum_univ_three] at * <;> linarith
    · rintro ⟨w, ⟨⟨h1, h2, h3, -⟩, hs⟩, rfl⟩
      refine ⟨1 - w 0 - w 1 - w 2, w 0, w 1, w 2, by linarith, h1, h2, h3, by ring, ?_, ?_, ?_⟩ <;>
        simp [edgeMap, Matrix.mulVec, dotProduct, Fin.sum_univ_three] <;> ring
  rw [himg, Set.image_add_left, measure_preimage_add, Measure.addHaar_image_linearMap, volume_cornerSet 3 1 (by norm_num),
    ← ENNReal.ofReal_mul (abs_nonneg _)]
  congr 1
  have hdet : LinearMap.det (edgeMap v0 v1 v2 v3) = (v1 - v0).dot (V3.cross (v2 - v0) (v3 - v0)) := by
    simp [edgeMap, LinearMap.det_toLin', Matrix.det_fin_three, V3.dot, V3.cross]
    ring
  rw [hdet]
  show _ = |(v1 - v0).dot (V3.cross (v2 - v0) (v3 - v0))| / 6
  norm_num [Nat.factorial]
  ring

example : (create ⟨0, 0, 0⟩ ⟨1, 0, 0⟩ ⟨0, 1, 0⟩ ⟨0, 0, 1⟩).fCubicVolume = 1 / 6 := by
  norm_num [create, calcCapacity, V3.dot, V3.cross]

end Tet
end VecGeom
