import Mathlib.Analysis.SpecialFunctions.Integrals.Basic
import Mathlib.Analysis.SpecialFunctions.Trigonometric.InverseDeriv
import Mathlib.MeasureTheory.Integral.IntervalIntegral.Periodic
import Mathlib.Tactic.LinearCombination

/-!
# Landen's transformation of the arc length of an ellipse
-/

namespace VecGeom

open Real

/-- The length of the ellipse with the semi-axes `a` and `b`: the integral of the speed of `(a sin θ, b cos θ)`. -/
noncomputable def ellArc (a b : ℝ) : ℝ := ∫ θ in (0 : ℝ)..2 * π, √((a * cos θ) ^ 2 + (b * sin θ) ^ 2)

/-- The integral of the inverse of that speed. -/
noncomputable def ellInv (a b : ℝ) : ℝ := ∫ θ in (0 : ℝ)..2 * π, 1 / √((a * cos θ) ^ 2 + (b * sin θ) ^ 2)

theorem double_period {f : ℝ → ℝ} (hf : Continuous f) (hp : Function.Periodic f (2 * π)) :
    ∫ θ in (0 : ℝ)..2 * π, f (2 * θ) = ∫ θ in (0 : ℝ)..2 * π, f θ := by
  rw [intervalIntegral.integral_comp_mul_left f (two_ne_zero), mul_zero,
    ← intervalIntegral.integral_add_adjacent_intervals (b := 2 * π) (hf.intervalIntegrable _ _) (hf.intervalIntegrable _ _)]
  have h := hp.intervalIntegral_add_eq (2 * π) 0
  rw [zero_add, show 2 * π + 2 * π = 2 * (2 * π) by ring] at h
  rw [h, smul_eq_mul]
  ring

/-- The substitution: with `sin α = r sin β` and `ψ = α + β`. -/
theorem landen_sub {r : ℝ} (h0 : 0 ≤ r) (h1 : r < 1) :
    (∀ β, 0 < √(1 - (r * sin β) ^ 2)) ∧
    (∫ ψ in (0 : ℝ)..2 * π, √(1 + r ^ 2 + 2 * r * cos ψ)) =
      2 * (∫ β in (0 : ℝ)..2 * π, √(1 - (r * sin β) ^ 2)) - (1 - r ^ 2) * ∫ β in (0 : ℝ)..2 * π, 1 / √(1 - (r * sin β) ^ 2) ∧
    (∫ ψ in (0 : ℝ)..2 * π, 1 / √(1 + r ^ 2 + 2 * r * cos ψ)) = ∫ β in (0 : ℝ)..2 * π, 1 / √(1 - (r * sin β) ^ 2) := by
  have hrs : ∀ β, (r * sin β) ^ 2 < 1 := by
    intro β
    have h2 := sin_sq_le_one β
    rw [mul_pow]
    nlinarith [sq_nonneg r, sq_nonneg (sin β), mul_nonneg (sq_nonneg r) (by linarith : 0 ≤ 1 - sin β ^ 2)]
  have hpos : ∀ β, 0 < √(1 - (r * sin β) ^ 2) := fun β => sqrt_pos.mpr (by linarith [hrs β])
  have hcont : Continuous fun β => √(1 - (r * sin β) ^ 2) := by fun_prop
  have hinv : Continuous fun β => 1 / √(1 - (r * sin β) ^ 2) := continuous_const.div hcont (fun β => (hpos β).ne')
  have hlin : ∀ β, -1 < r * sin β ∧ r * sin β < 1 := fun β => abs_lt.mp (abs_lt_of_sq_lt_sq (by rw [one_pow]; exact hrs β) zero_le_one)
  let f : ℝ → ℝ := fun β => β + arcsin (r * sin β)
  let f' : ℝ → ℝ := fun β => 1 + 1 / √(1 - (r * sin β) ^ 2) * (r * cos β)
  have hf : ∀ β, HasDerivAt f (f' β) β := by
    intro β
    have h2 : HasDerivAt (fun β => arcsin (r * sin β)) (1 / √(1 - (r * sin β) ^ 2) * (r * cos β)) β :=
      HasDerivAt.comp (h₂ := arcsin) β (hasDerivAt_arcsin (hlin β).1.ne' (hlin β).2.ne) ((hasDerivAt_sin β).const_mul r)
    exact (hasDerivAt_id β).add h2
  have hf' : Continuous f' := by
    apply Continuous.add continuous_const
    exact hinv.mul (by fun_prop)
  have f0 : f 0 = 0 := by simp [f]
  have f1 : f (2 * π) = 2 * π := by simp [f]
  -- the root after the substitution
  have hroot : ∀ β, √(1 + r ^ 2 + 2 * r * cos (f β)) = √(1 - (r * sin β) ^ 2) + r * cos β ∧ 0 < √(1 - (r * sin β) ^ 2) + r * cos β := by
    intro β
    have hw := sq_sqrt (by linarith [hrs β] : 0 ≤ 1 - (r * sin β) ^ 2)
    have hp := hpos β
    have hsc := sin_sq_add_cos_sq β
    have hsum : 0 < √(1 - (r * sin β) ^ 2) + r * cos β := by
      have : (r * cos β) ^ 2 < √(1 - (r * sin β) ^ 2) ^ 2 := by
        rw [hw]
        have : (r * cos β) ^ 2 + (r * sin β) ^ 2 = r ^ 2 := by linear_combination r ^ 2 * hsc
        nlinarith
      have := abs_lt.mp (abs_lt_of_sq_lt_sq this hp.le)
      linarith [this.1]
    refine ⟨?_, hsum⟩
    have hcos : cos (f β) = cos β * √(1 - (r * sin β) ^ 2) - sin β * (r * sin β) := by
      show cos (β + arcsin (r * sin β)) = _
      rw [cos_add, cos_arcsin, sin_arcsin (hlin β).1.le (hlin β).2.le]
    rw [hcos]
    have : 1 + r ^ 2 + 2 * r * (cos β * √(1 - (r * sin β) ^ 2) - sin β * (r * sin β)) = (√(1 - (r * sin β) ^ 2) + r * cos β) ^ 2 := by
      linear_combination (-1 : ℝ) * hw - r ^ 2 * hsc
    rw [this, sqrt_sq hsum.le]
  have hg : Continuous fun ψ => √(1 + r ^ 2 + 2 * r * cos ψ) := by fun_prop
  have hgpos : ∀ ψ, 0 < √(1 + r ^ 2 + 2 * r * cos ψ) := by
    intro ψ
    apply sqrt_pos.mpr
    have h2 := neg_one_le_cos ψ
    nlinarith [sq_nonneg (1 - r), mul_nonneg h0 (by linarith : 0 ≤ 1 + cos ψ), sq_pos_of_pos (by linarith : 0 < 1 - r)]
  have hgi : Continuous fun ψ => 1 / √(1 + r ^ 2 + 2 * r * cos ψ) := continuous_const.div hg (fun ψ => (hgpos ψ).ne')
  refine ⟨hpos, ?_, ?_⟩
  · have hs := intervalIntegral.integral_comp_mul_deriv (a := 0) (b := 2 * π) (fun x _ => hf x) hf'.continuousOn hg
    rw [f0, f1] at hs
    rw [← hs]
    have e : ∀ β, ((fun ψ => √(1 + r ^ 2 + 2 * r * cos ψ)) ∘ f) β * f' β =
        2 * √(1 - (r * sin β) ^ 2) - (1 - r ^ 2) * (1 / √(1 - (r * sin β) ^ 2)) + 2 * r * cos β := by
      intro β
      show √(1 + r ^ 2 + 2 * r * cos (f β)) * (1 + 1 / √(1 - (r * sin β) ^ 2) * (r * cos β)) = _
      rw [(hroot β).1]
      have hw := sq_sqrt (by linarith [hrs β] : 0 ≤ 1 - (r * sin β) ^ 2)
      have hsc := sin_sq_add_cos_sq β
      have hp := (hpos β).ne'
      generalize √(1 - (r * sin β) ^ 2) = w at *
      field_simp
      linear_combination r ^ 2 * hsc - hw
    simp only [e]
    rw [intervalIntegral.integral_add, intervalIntegral.integral_sub, intervalIntegral.integral_const_mul,
      intervalIntegral.integral_const_mul, intervalIntegral.integral_const_mul, integral_cos, sin_two_pi, sin_zero]
    · ring
    · exact (hcont.const_mul 2).intervalIntegrable _ _
    · exact (hinv.const_mul _).intervalIntegrable _ _
    · exact ((hcont.const_mul 2).sub (hinv.const_mul _)).intervalIntegrable _ _
    · apply Continuous.intervalIntegrable; fun_prop
  · have hs := intervalIntegral.integral_comp_mul_deriv (a := 0) (b := 2 * π) (fun x _ => hf x) hf'.continuousOn hgi
    rw [f0, f1] at hs
    rw [← hs]
    congr 1
    funext β
    show 1 / √(1 + r ^ 2 + 2 * r * cos (f β)) * (1 + 1 / √(1 - (r * sin β) ^ 2) * (r * cos β)) = _
    rw [(hroot β).1]
    have h2 := (hroot β).2.ne'
    have hp := (hpos β).ne'
    generalize √(1 - (r * sin β) ^ 2) = w at *
    field_simp

/-- Landen's transformation: the ellipse with the arithmetic and the geometric mean of the semi-axes. -/
theorem landen {a b : ℝ} (hb : 0 < b) (hba : b ≤ a) :
    ellArc a b = 2 * ellArc ((a + b) / 2) √(a * b) - a * b * ellInv ((a + b) / 2) √(a * b) ∧
    ellInv a b = ellInv ((a + b) / 2) √(a * b) := by
  have ha : 0 < a := by linarith
  set u := (a + b) / 2 with hu
  set v := (a - b) / 2 with hv
  have hu0 : 0 < u := by rw [hu]; linarith
  have hv0 : 0 ≤ v := by rw [hv]; linarith
  have hr0 : 0 ≤ v / u := div_nonneg hv0 hu0.le
  have hr1 : v / u < 1 := by rw [div_lt_one hu0, hu, hv]; linarith
  have hab : √(a * b) ^ 2 = a * b := sq_sqrt (by positivity)
  obtain ⟨hpos, hE, hK⟩ := landen_sub hr0 hr1
  -- the speed as a function of the double angle
  have h1 : ∀ θ, √((a * cos θ) ^ 2 + (b * sin θ) ^ 2) = u * √(1 + (v / u) ^ 2 + 2 * (v / u) * cos (2 * θ)) := by
    intro θ
    have : (a * cos θ) ^ 2 + (b * sin θ) ^ 2 = u ^ 2 * (1 + (v / u) ^ 2 + 2 * (v / u) * cos (2 * θ)) := by
      have hs := sin_sq_add_cos_sq θ
      rw [cos_two_mul]
      field_simp
      rw [hu, hv]
      linear_combination b ^ 2 * hs
    rw [this, sqrt_mul (sq_nonneg u), sqrt_sq hu0.le]
  -- the speed of the other ellipse
  have h2 : ∀ θ, √((u * cos θ) ^ 2 + (√(a * b) * sin θ) ^ 2) = u * √(1 - (v / u * sin θ) ^ 2) := by
    intro θ
    have : (u * cos θ) ^ 2 + (√(a * b) * sin θ) ^ 2 = u ^ 2 * (1 - (v / u * sin θ) ^ 2) := by
      have hs := sin_sq_add_cos_sq θ
      rw [mul_pow (√(a * b)), hab]
      field_simp
      rw [hu, hv]
      linear_combination ((a + b) / 2) ^ 2 * hs
    rw [this, sqrt_mul (sq_nonneg u), sqrt_sq hu0.le]
  have hper : ∀ g : ℝ → ℝ, Function.Periodic (fun ψ => g (cos ψ)) (2 * π) := fun g ψ => by
    show g (cos (ψ + 2 * π)) = g (cos ψ)
    rw [cos_add_two_pi]
  have hg : Continuous fun ψ => √(1 + (v / u) ^ 2 + 2 * (v / u) * cos ψ) := by fun_prop
  have hgpos : ∀ ψ, 0 < √(1 + (v / u) ^ 2 + 2 * (v / u) * cos ψ) := by
    intro ψ
    apply sqrt_pos.mpr
    have h2 := neg_one_le_cos ψ
    nlinarith [mul_nonneg hr0 (by linarith : 0 ≤ 1 + cos ψ), sq_pos_of_pos (by linarith : 0 < 1 - v / u)]
  have hgi : Continuous fun ψ => 1 / √(1 + (v / u) ^ 2 + 2 * (v / u) * cos ψ) := continuous_const.div hg (fun ψ => (hgpos ψ).ne')
  constructor
  · unfold ellArc ellInv
    simp only [h1, h2]
    have h3 : ∀ x : ℝ, 1 / (u * x) = 1 / u * (1 / x) := fun x => by rw [one_div_mul_one_div]
    simp only [h3]
    rw [intervalIntegral.integral_const_mul, intervalIntegral.integral_const_mul, intervalIntegral.integral_const_mul,
      double_period (f := fun ψ => √(1 + (v / u) ^ 2 + 2 * (v / u) * cos ψ)) hg
        (hper fun y => √(1 + (v / u) ^ 2 + 2 * (v / u) * y)), hE]
    have e : a * b = u ^ 2 - v ^ 2 := by rw [hu, hv]; ring
    rw [e]
    field_simp
  · unfold ellInv
    simp only [h1, h2]
    have h3 : ∀ x : ℝ, 1 / (u * x) = 1 / u * (1 / x) := fun x => by rw [one_div_mul_one_div]
    simp only [h3]
    rw [intervalIntegral.integral_const_mul, intervalIntegral.integral_const_mul,
      double_period (f := fun ψ => 1 / √(1 + (v / u) ^ 2 + 2 * (v / u) * cos ψ)) hgi
        (hper fun y => 1 / √(1 + (v / u) ^ 2 + 2 * (v / u) * y)), hK]

/-- The speed is between the semi-axes. -/
theorem speed_bounds {a b : ℝ} (hb : 0 ≤ b) (hba : b ≤ a) (θ : ℝ) :
    b ≤ √((a * cos θ) ^ 2 + (b * sin θ) ^ 2) ∧ √((a * cos θ) ^ 2 + (b * sin θ) ^ 2) ≤ a := by
  have hs := sin_sq_add_cos_sq θ
  have h2 : b ^ 2 ≤ a ^ 2 := pow_le_pow_left₀ hb hba 2
  constructor
  · apply le_sqrt_of_sq_le
    nlinarith [sq_nonneg (cos θ)]
  · rw [sqrt_le_left (by linarith)]
    nlinarith [sq_nonneg (sin θ)]

theorem ellArc_bounds {a b : ℝ} (hb : 0 ≤ b) (hba : b ≤ a) : 2 * π * b ≤ ellArc a b ∧ ellArc a b ≤ 2 * π * a := by
  have hpi := two_pi_pos.le
  have hc : Continuous fun θ => √((a * cos θ) ^ 2 + (b * sin θ) ^ 2) := by fun_prop
  have c1 : ∫ _ in (0 : ℝ)..2 * π, b = 2 * π * b := by simp
  have c2 : ∫ _ in (0 : ℝ)..2 * π, a = 2 * π * a := by simp
  constructor
  · rw [← c1]
    exact intervalIntegral.integral_mono_on hpi (by simp) (hc.intervalIntegrable _ _) (fun θ _ => (speed_bounds hb hba θ).1)
  · rw [← c2]
    exact intervalIntegral.integral_mono_on hpi (hc.intervalIntegrable _ _) (by simp) (fun θ _ => (speed_bounds hb hba θ).2)

theorem ellInv_bounds {a b : ℝ} (hb : 0 < b) (hba : b ≤ a) : 2 * π / a ≤ ellInv a b ∧ ellInv a b ≤ 2 * π / b := by
  have ha : 0 < a := by linarith
  have hpi := two_pi_pos.le
  have hpos : ∀ θ, 0 < √((a * cos θ) ^ 2 + (b * sin θ) ^ 2) := fun θ => lt_of_lt_of_le hb (speed_bounds hb.le hba θ).1
  have hc : Continuous fun θ => 1 / √((a * cos θ) ^ 2 + (b * sin θ) ^ 2) :=
    continuous_const.div (by fun_prop) (fun θ => (hpos θ).ne')
  have c1 : ∫ _ in (0 : ℝ)..2 * π, 1 / a = 2 * π / a := by simp; ring
  have c2 : ∫ _ in (0 : ℝ)..2 * π, 1 / b = 2 * π / b := by simp; ring
  constructor
  · rw [← c1]
    exact intervalIntegral.integral_mono_on hpi (by simp) (hc.intervalIntegrable _ _)
      (fun θ _ => one_div_le_one_div_of_le (hpos θ) (speed_bounds hb.le hba θ).2)
  · rw [← c2]
    exact intervalIntegral.integral_mono_on hpi (hc.intervalIntegrable _ _) (by simp)
      (fun θ _ => one_div_le_one_div_of_le hb (speed_bounds hb.le hba θ).1)

end VecGeom
