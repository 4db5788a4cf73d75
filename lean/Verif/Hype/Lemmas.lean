import Verif.Hype.Spec
import Verif.Hype.Model

/-!
# Facts about hyperboloids
-/

namespace VecGeom
namespace Hype

open Real

variable {a : Par} {s : State}

/-- The state holds what belongs to the arguments. -/
structure Good (s : State) (a : Par) : Prop where
  rmin : s.rmin = a.rmin
  rmax : s.rmax = a.rmax
  stIn : s.stIn = a.stIn
  stOut : s.stOut = a.stOut
  dz : s.dz = a.dz
  tIn : s.tIn = tan a.stIn
  tOut : s.tOut = tan a.stOut
  tIn2 : s.tIn2 = tan a.stIn ^ 2
  tOut2 : s.tOut2 = tan a.stOut ^ 2
  rmin2 : s.rmin2 = a.rmin ^ 2
  rmax2 : s.rmax2 = a.rmax ^ 2
  endIn2 : s.endIn2 = a.in2 a.dz
  endOut2 : s.endOut2 = a.out2 a.dz
  endIn : s.endIn = √(a.in2 a.dz)
  endOut : s.endOut = √(a.out2 a.dz)
  zTol : s.zTol = kTolerance * a.dz
  inTol : s.inTol = kTolerance * √(a.in2 a.dz)
  outTol : s.outTol = kTolerance * √(a.out2 a.dz)

theorem good_cached (s : State) :
    Good (calculateCached s) ⟨s.rmin, s.rmax, s.stIn, s.stOut, s.dz⟩ := by
  have e1 : tan s.stIn * tan s.stIn * (s.dz * s.dz) + s.rmin * s.rmin = s.rmin ^ 2 + (tan s.stIn * s.dz) ^ 2 := by ring
  have e2 : tan s.stOut * tan s.stOut * (s.dz * s.dz) + s.rmax * s.rmax = s.rmax ^ 2 + (tan s.stOut * s.dz) ^ 2 := by ring
  unfold calculateCached
  constructor <;> simp only [Par.in2, Par.out2, e1, e2, pow_two]

/-- What the constructor makes. -/
noncomputable def Par.made (a : Par) (m : State) : State := create m a.rmin a.rmax a.stIn a.stOut a.dz

theorem good_of_eq {s t : State} (g : Good s a) (h : ∃ c b, t = { s with convex := c, bbox := b }) : Good t a := by
  obtain ⟨c, b, rfl⟩ := h
  exact ⟨g.rmin, g.rmax, g.stIn, g.stOut, g.dz, g.tIn, g.tOut, g.tIn2, g.tOut2, g.rmin2, g.rmax2, g.endIn2, g.endOut2, g.endIn,
    g.endOut, g.zTol, g.inTol, g.outTol⟩

theorem good_made (a : Par) (m : State) : Good (a.made m) a := by
  have h := good_cached { m with rmin := a.rmin, rmax := a.rmax, stIn := a.stIn, stOut := a.stOut, dz := a.dz }
  exact good_of_eq h ⟨_, _, rfl⟩

theorem good_set (m : State) : Good (setParameters m a.rmin a.rmax a.stIn a.stOut a.dz) a := by
  have h := good_cached { m with rmin := a.rmin, rmax := a.rmax, stIn := a.stIn, stOut := a.stOut, dz := a.dz }
  exact good_of_eq h ⟨_, _, rfl⟩

theorem perp2_eq (p : V3) : perp2 p = p.x ^ 2 + p.y ^ 2 := by unfold perp2; ring
theorem perp2_nonneg (p : V3) : 0 ≤ perp2 p := by rw [perp2_eq]; positivity

theorem oRad2_eq (g : Good s a) (z : ℝ) : oRad2 s z = a.out2 z := by
  unfold oRad2 Par.out2; rw [g.rmax2, g.tOut2]; ring
theorem iRad2_eq (g : Good s a) (z : ℝ) : iRad2 s z = a.in2 z := by
  unfold iRad2 Par.in2; rw [g.rmin2, g.tIn2]; ring

theorem in2_nonneg (z : ℝ) : 0 ≤ a.in2 z := by unfold Par.in2; positivity
theorem out2_pos (hv : a.Valid) (z : ℝ) : 0 < a.out2 z := by
  have h : 0 < a.rmax := lt_of_le_of_lt hv.rmin hv.lt
  unfold Par.out2; positivity
theorem out2_neg (z : ℝ) : a.out2 (-z) = a.out2 z := by unfold Par.out2; ring
theorem in2_neg (z : ℝ) : a.in2 (-z) = a.in2 z := by unfold Par.in2; ring
theorem out2_abs (z : ℝ) : a.out2 |z| = a.out2 z := by
  rcases abs_choice z with h | h <;> rw [h]; exact out2_neg z
theorem in2_abs (z : ℝ) : a.in2 |z| = a.in2 z := by
  rcases abs_choice z with h | h <;> rw [h]; exact in2_neg z

theorem out2_mono {y z : ℝ} (h : |y| ≤ |z|) : a.out2 y ≤ a.out2 z := by
  have := sq_le_sq.mpr h
  unfold Par.out2
  nlinarith [mul_le_mul_of_nonneg_left this (sq_nonneg (tan a.stOut))]
theorem in2_mono {y z : ℝ} (h : |y| ≤ |z|) : a.in2 y ≤ a.in2 z := by
  have := sq_le_sq.mpr h
  unfold Par.in2
  nlinarith [mul_le_mul_of_nonneg_left this (sq_nonneg (tan a.stIn))]

/-- Between the ends the inner surface is inside the outer one. -/
theorem in2_lt_out2 (hv : a.Valid) {z : ℝ} (h : |z| ≤ a.dz) : a.in2 z < a.out2 z := by
  have hd := hv.dz
  have h1 : z ^ 2 ≤ a.dz ^ 2 := by rw [← sq_abs z]; exact pow_le_pow_left₀ (abs_nonneg z) h 2
  have h2 := hv.ends
  have h3 : a.rmin ^ 2 < a.rmax ^ 2 := pow_lt_pow_left₀ hv.lt hv.rmin (by norm_num)
  unfold Par.in2 Par.out2 at *
  have hd2 : 0 < a.dz ^ 2 := by positivity
  have h4 : (a.rmax ^ 2 - a.rmin ^ 2) * a.dz ^ 2 + (tan a.stOut ^ 2 - tan a.stIn ^ 2) * z ^ 2 * a.dz ^ 2 =
    (a.rmax ^ 2 - a.rmin ^ 2) * (a.dz ^ 2 - z ^ 2) +
      z ^ 2 * (a.rmax ^ 2 + (tan a.stOut * a.dz) ^ 2 - (a.rmin ^ 2 + (tan a.stIn * a.dz) ^ 2)) := by ring
  have h5 : 0 < (a.rmax ^ 2 - a.rmin ^ 2) * (a.dz ^ 2 - z ^ 2) +
      z ^ 2 * (a.rmax ^ 2 + (tan a.stOut * a.dz) ^ 2 - (a.rmin ^ 2 + (tan a.stIn * a.dz) ^ 2)) := by
    rcases h1.eq_or_lt with e | e
    · rw [e, sub_self, mul_zero, zero_add]
      exact mul_pos hd2 (by linarith)
    · exact add_pos_of_pos_of_nonneg (mul_pos (by linarith) (by linarith)) (mul_nonneg (sq_nonneg _) (by linarith))
  rw [← h4] at h5
  have h6 : 0 < (a.rmax ^ 2 - a.rmin ^ 2) + (tan a.stOut ^ 2 - tan a.stIn ^ 2) * z ^ 2 := by
    by_contra hc
    push Not at hc
    nlinarith
  nlinarith

theorem tan_ne {x : ℝ} (h1 : -(π / 2) < x) (h2 : x < π / 2) (h : x ≠ 0) : tan x ≠ 0 := by
  rcases lt_or_gt_of_ne h with hx | hx
  · have : 0 < tan (-x) := tan_pos_of_pos_of_lt_pi_div_two (by linarith) (by linarith)
    rw [tan_neg] at this
    linarith
  · exact (tan_pos_of_pos_of_lt_pi_div_two hx h2).ne'

/-- Without a hole the inner surface has no radius. -/
theorem in2_solid (hv : a.Valid) (h : ¬ a.Hollow) (z : ℝ) : a.in2 z = 0 := by
  unfold Par.Hollow at h
  push Not at h
  have h1 : a.rmin = 0 := le_antisymm h.1 hv.rmin
  unfold Par.in2
  rw [h1, h.2, tan_zero]
  ring

/-- The kind belongs to the arguments. -/
def Kind.Fits (k : Kind) (a : Par) : Prop := k = .nonHollow ∧ ¬ a.Hollow ∨ k = .hollow ∧ a.Hollow ∨ k = .universal

theorem treat_iff (g : Good s a) {k : Kind} (hk : k.Fits a) : treat k s = true ↔ a.Hollow := by
  rcases hk with ⟨rfl, h⟩ | ⟨rfl, h⟩ | rfl
  · simp [treat, h]
  · simp [treat, h]
  · unfold treat innerSurfaceExists Par.Hollow
    simp only [decide_eq_true_eq]
    rw [g.rmin, g.stIn]

theorem endOut_pos (hv : a.Valid) : 0 < √(a.out2 a.dz) := sqrt_pos.mpr (out2_pos hv _)

end Hype
end VecGeom
