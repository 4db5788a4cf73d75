import Verif.Sphere.Fields
import Verif.Wedge.Props
import Mathlib.Analysis.Real.Pi.Bounds

/-!
# Properties of spheres: containment and safeties
-/

namespace VecGeom
namespace Sphere

open Real
open Tube (plusTolerantSquare minusTolerantSquare)

/-! ### Radii -/

theorem radial_in {t : Sph} (h1 : kTolerance < t.rmax) (h2 : t.rmin = 0 ∨ kTolerance < t.rmin) {p : V3} (h : RadialIn t p) :
    p.mag < t.rmax ∧ t.rmin ≤ p.mag := by
  have ht := kTolerance_pos
  obtain ⟨h3, h4⟩ := h
  rw [mag2_eq] at h3 h4
  unfold minusTolerantSquare at h3
  unfold plusTolerantSquare at h4
  rw [if_pos rfl] at h3 h4
  refine ⟨?_, ?_⟩
  · have : |t.rmax * (t.rmax - 2 * kTolerance)| < t.rmax ^ 2 := by
      rw [abs_lt]; constructor <;> nlinarith
    exact lt_of_pow_lt_pow_left₀ 2 (by linarith) (by linarith)
  · rcases h2 with h2 | h2
    · rw [h2]; exact mag_nonneg p
    · have := h4 (by linarith)
      by_contra hc
      push Not at hc
      nlinarith [mag_nonneg p]

theorem radial_out {t : Sph} (h1 : kTolerance < t.rmax) (h2 : t.rmin = 0 ∨ kTolerance < t.rmin) {p : V3} (h : RadialOut t p) :
    t.rmax < p.mag ∨ p.mag < t.rmin := by
  have ht := kTolerance_pos
  unfold RadialOut at h
  rw [mag2_eq] at h
  unfold minusTolerantSquare plusTolerantSquare at h
  rw [if_pos rfl, if_pos rfl] at h
  rcases h with h | ⟨h, h3⟩
  · left
    by_contra hc
    push Not at hc
    nlinarith [mag_nonneg p]
  · right
    have h2 := h2.resolve_left h
    have : |t.rmin * (t.rmin - 2 * kTolerance)| < t.rmin ^ 2 := by
      rw [abs_lt]; constructor <;> nlinarith
    exact lt_of_pow_lt_pow_left₀ 2 (by linarith) (by linarith)

theorem radial_near {t : Sph} (h1 : kTolerance < t.rmax) (h2 : 0 ≤ t.rmin) {p : V3} (h : ¬ RadialOut t p) :
    p.mag ≤ t.rmax + kTolerance ∧ t.rmin - 2 * kTolerance ≤ p.mag := by
  have ht := kTolerance_pos
  unfold RadialOut at h
  rw [mag2_eq] at h
  unfold minusTolerantSquare plusTolerantSquare at h
  rw [if_pos rfl, if_pos rfl] at h
  push Not at h
  obtain ⟨h3, h4⟩ := h
  refine ⟨?_, ?_⟩
  · by_contra hc
    push Not at hc
    nlinarith
  · by_contra hc
    push Not at hc
    have hm := mag_nonneg p
    have := h4 (by linarith)
    rw [abs_of_nonneg (mul_nonneg h2 (by linarith))] at this
    nlinarith

theorem radial_deep {t : Sph} (h1 : 0 < t.rmax) {p : V3} (h2 : p.mag ≤ t.rmax - 2 * kTolerance) (h3 : t.rmin ≠ 0 → t.rmin + kTolerance ≤ p.mag)
    (h4 : 0 ≤ t.rmin) : RadialIn t p := by
  have ht := kTolerance_pos
  have hm := mag_nonneg p
  unfold RadialIn
  rw [mag2_eq]
  unfold minusTolerantSquare plusTolerantSquare
  rw [if_pos rfl, if_pos rfl]
  refine ⟨?_, fun h => ?_⟩
  · refine le_trans ?_ (le_abs_self _)
    nlinarith
  · have := h3 h
    nlinarith

/-! ### C168: containment -/

/-- Hemispheres must not be huge. -/
abbrev Par.Fits (a : Par) (p : V3) : Prop := VecGeom.Sphere.Fits a.ts a.te p

section
variable {a : Par} (hv : a.Valid) (hk : a.Kernels)
include hv hk

theorem kernelIn_iff (p : V3) : KernelIn (of a) p ↔ RadialIn (of a) p ∧ (a.d ≠ 2 * π → (Wedge.make a.d a.s).CompletelyInside p) ∧
    (¬ (a.ts = 0 ∧ a.te = π) → (ThetaCone.make a.ts a.td).CompletelyInside p) := by
  obtain ⟨sp, f, x, y, e⟩ := of_members hv hk.d
  unfold KernelIn
  rw [e]
  simp only [decide_eq_false_iff_not, ne_eq]

theorem kernelOut_iff (b : Bool) (p : V3) : KernelOut b (of a) p ↔ RadialOut (of a) p ∨
    (a.d ≠ 2 * π ∧ (Wedge.make a.d a.s).CompletelyOutside b p) ∨
    (¬ (a.ts = 0 ∧ a.te = π) ∧ (ThetaCone.make a.ts a.td).CompletelyOutside p) := by
  obtain ⟨sp, f, x, y, e⟩ := of_members hv hk.d
  unfold KernelOut
  rw [e]
  simp only [decide_eq_false_iff_not, ne_eq]

theorem of_rmin : (of a).rmin = a.rmin := by
  obtain ⟨sp, f, x, y, e⟩ := of_members hv hk.d
  rw [e]

theorem of_rmax : (of a).rmax = a.rmax := by
  obtain ⟨sp, f, x, y, e⟩ := of_members hv hk.d
  rw [e]

omit hk in
theorem polar_all (h : a.ts = 0 ∧ a.te = π) (p : V3) : Polar a.ts a.te p := by
  obtain ⟨r, t, h1, h2, h3, h4, h5⟩ := polar_coords p
  rw [h.1, h.2]
  exact ⟨r, t, h1, h2, h3, h4, h5⟩

omit hk in
theorem wedge_inside {p : V3} (h : (Wedge.make a.d a.s).CompletelyInside p) : Sector a.s a.d p.x p.y := by
  have h2 := h.2
  unfold Wedge.CompletelyOutside at h2
  rw [Wedge.out_iff hv.d hv.d'] at h2
  by_contra hc
  exact h2 ⟨hc, fun _ => h.1⟩

omit hk in
theorem wedge_outside {b : Bool} {p : V3} (h : (Wedge.make a.d a.s).CompletelyOutside b p) : ¬ Sector a.s a.d p.x p.y :=
  (Wedge.out_iff hv.d hv.d' p).mp h.1

theorem kernelIn_closed {p : V3} (hf : a.Fits p) (h : KernelIn (of a) p) : a.Closed p := by
  rw [kernelIn_iff hv hk] at h
  obtain ⟨h1, h2, h3⟩ := h
  have hr := radial_in (t := of a) (by rw [of_rmax hv hk]; exact hk.rmax) (by rw [of_rmin hv hk]; exact hk.rmin) h1
  rw [of_rmin hv hk, of_rmax hv hk] at hr
  refine ⟨hr.2, hr.1.le, ?_, ?_⟩
  · by_cases hd : a.d = 2 * π
    · rw [hd]; exact sector_full _ _ _
    · exact wedge_inside hv (h2 hd)
  · by_cases hd : a.ts = 0 ∧ a.te = π
    · exact polar_all hv hd p
    · exact theta_in hv.ts hv.td hv.te hk.theta p hf (h3 hd)

theorem kernelOut_not {b : Bool} {p : V3} (hf : a.Fits p) (h : KernelOut b (of a) p) : ¬ a.Closed p := by
  intro hc
  rw [kernelOut_iff hv hk] at h
  rcases h with h | h | h
  · have := radial_out (t := of a) (by rw [of_rmax hv hk]; exact hk.rmax) (by rw [of_rmin hv hk]; exact hk.rmin) h
    rw [of_rmin hv hk, of_rmax hv hk] at this
    rcases this with h | h
    · linarith [hc.hi]
    · linarith [hc.lo]
  · exact wedge_outside hv h.2 hc.phi
  · exact theta_out hv.ts hv.td hv.te hk.theta p hf h.2 hc.theta

/-- C168: `Inside` reports no point of the sphere outside and no other point inside; `Contains` holds for every point of the sphere. -/
theorem C168_inside_partial (p : V3) (hf : a.Fits p) :
    (inside (of a) p = .inside → a.Closed p) ∧ (a.Closed p → inside (of a) p ≠ .outside) ∧ (a.Closed p → contains (of a) p = true) := by
  classical
  refine ⟨fun h => ?_, fun h h' => ?_, fun h => ?_⟩
  · apply kernelIn_closed hv hk hf
    by_contra hc
    unfold inside at h
    rw [if_neg hc] at h
    by_cases ho : KernelOut true (of a) p
    · rw [if_pos ho] at h; cases h
    · rw [if_neg ho] at h; cases h
  · unfold inside at h'
    by_cases hc : KernelIn (of a) p
    · rw [if_pos hc] at h'; cases h'
    · rw [if_neg hc] at h'
      by_cases ho : KernelOut true (of a) p
      · exact kernelOut_not hv hk hf ho h
      · rw [if_neg ho] at h'; cases h'
  · exact decide_eq_true (fun ho => kernelOut_not hv hk hf ho h)

theorem near_of_not_out {b : Bool} {p : V3} (hf : a.Fits p) (h : ¬ KernelOut b (of a) p) :
    (p.mag ≤ a.rmax + kTolerance ∧ a.rmin - 2 * kTolerance ≤ p.mag) ∧
    (Sector a.s a.d p.x p.y ∨ (b = true ∧ ∃ h, |h| < kTolerance ∧ (AboveRay a.s h p.x p.y ∨ AboveRay (a.s + a.d) h p.x p.y))) ∧
    ∃ q, Polar a.ts a.te q ∧ V3.dist p q ≤ ThetaCone.slack := by
  rw [kernelOut_iff hv hk, not_or, not_or] at h
  obtain ⟨h1, h2, h3⟩ := h
  have hr := radial_near (t := of a) (by rw [of_rmax hv hk]; exact hk.rmax) (by rw [of_rmin hv hk]; exact hv.rmin) h1
  rw [of_rmin hv hk, of_rmax hv hk] at hr
  refine ⟨hr, ?_, ?_⟩
  · by_cases hd : a.d = 2 * π
    · left; rw [hd]; exact sector_full _ _ _
    · by_cases hs : Sector a.s a.d p.x p.y
      · exact Or.inl hs
      · right
        have hno : ¬ (Wedge.make a.d a.s).CompletelyOutside b p := fun hx => h2 ⟨hd, hx⟩
        unfold Wedge.CompletelyOutside at hno
        rw [Wedge.out_iff hv.d hv.d'] at hno
        push Not at hno
        obtain ⟨hb, hon⟩ := hno hs
        refine ⟨hb, ?_⟩
        unfold Wedge.OnSurface at hon
        rw [Wedge.on1_iff, Wedge.on2_iff] at hon
        rcases hon with ⟨h, hh, ha⟩ | ⟨h, hh, ha⟩
        · exact ⟨h, hh, Or.inl ha⟩
        · exact ⟨h, hh, Or.inr ha⟩
  · by_cases hd : a.ts = 0 ∧ a.te = π
    · refine ⟨p, polar_all hv hd p, ?_⟩
      rw [show V3.dist p p = 0 by unfold V3.dist V3.dist2; simp]
      exact slack_pos.le
    · exact theta_near hv.ts hv.td hv.te hk.theta p hf (fun hx => h3 ⟨hd, hx⟩)

/-- C168: a point for which `Contains` holds is off the radii by at most twice the tolerance, has an azimuth in the range, and is within
2·10⁻⁸ of a point with a polar angle in the range; a point that `Inside` does not report outside may also be off by the tolerance at the
half planes. -/
theorem C168_near (p : V3) (hf : a.Fits p) :
    (contains (of a) p = true → (p.mag ≤ a.rmax + kTolerance ∧ a.rmin - 2 * kTolerance ≤ p.mag) ∧ Sector a.s a.d p.x p.y ∧
      ∃ q, Polar a.ts a.te q ∧ V3.dist p q ≤ 20 * kTolerance) ∧
    (inside (of a) p ≠ .outside → (p.mag ≤ a.rmax + kTolerance ∧ a.rmin - 2 * kTolerance ≤ p.mag) ∧
      (Sector a.s a.d p.x p.y ∨ ∃ h, |h| < kTolerance ∧ (AboveRay a.s h p.x p.y ∨ AboveRay (a.s + a.d) h p.x p.y)) ∧
      ∃ q, Polar a.ts a.te q ∧ V3.dist p q ≤ 20 * kTolerance) := by
  classical
  have hsl : ThetaCone.slack = 20 * kTolerance := by unfold ThetaCone.slack; ring
  rw [← hsl]
  refine ⟨fun h => ?_, fun h => ?_⟩
  · have ho : ¬ KernelOut false (of a) p := of_decide_eq_true h
    obtain ⟨h1, h2, h3⟩ := near_of_not_out hv hk hf ho
    exact ⟨h1, h2.resolve_right (fun hx => by cases hx.1), h3⟩
  · have ho : ¬ KernelOut true (of a) p := by
      intro hx
      apply h
      unfold inside
      rw [if_neg (fun hi => kernelOut_not hv hk hf hx (kernelIn_closed hv hk hf hi)), if_pos hx]
    obtain ⟨h1, h2, h3⟩ := near_of_not_out hv hk hf ho
    exact ⟨h1, h2.imp id (fun hx => hx.2), h3⟩

/-- C168: a point of the sphere that is away from its surface by twice the tolerance at the radii, by the tolerance at the half planes and
by 2·10⁻⁸ at the cones is reported inside, except near the axis if the sphere has a pole and reaches across the plane, or has the
south pole and begins at the plane. -/
theorem C168_deep (p : V3) (hf : a.Fits p) (h1 : p.mag ≤ a.rmax - 2 * kTolerance) (h2 : a.rmin ≠ 0 → a.rmin + kTolerance ≤ p.mag)
    (h3 : Sector a.s a.d p.x p.y) (h4 : a.d ≠ 2 * π → ¬ ∃ h, |h| < kTolerance ∧ (AboveRay a.s h p.x p.y ∨ AboveRay (a.s + a.d) h p.x p.y))
    (h5 : PolarDeep (20 * kTolerance) a.ts a.te p)
    (hs : a.ts = 0 → a.te ≤ π / 2 ∨ a.te = π ∨ 20 * kTolerance ≤ rho p) (he : a.te = π → π / 2 < a.ts ∨ a.ts = 0 ∨ 20 * kTolerance ≤ rho p) :
    inside (of a) p = .inside := by
  have hsl : ThetaCone.slack = 20 * kTolerance := by unfold ThetaCone.slack; ring
  rw [← hsl] at h5 hs he
  have hin : KernelIn (of a) p := by
    rw [kernelIn_iff hv hk]
    refine ⟨?_, fun hd => ⟨fun hon => ?_, fun ho => wedge_outside hv ho h3⟩, fun hd => ?_⟩
    · refine radial_deep ?_ ?_ ?_ ?_
      · rw [of_rmax hv hk]; linarith [hk.rmax, kTolerance_pos]
      · rw [of_rmax hv hk]; exact h1
      · rw [of_rmin hv hk]; exact h2
      · rw [of_rmin hv hk]; exact hv.rmin
    · apply h4 hd
      unfold Wedge.OnSurface at hon
      rw [Wedge.on1_iff, Wedge.on2_iff] at hon
      rcases hon with ⟨h, hh, ha⟩ | ⟨h, hh, ha⟩
      · exact ⟨h, hh, Or.inl ha⟩
      · exact ⟨h, hh, Or.inr ha⟩
    · refine theta_deep hv.ts hv.td hv.te hk.theta p hf h5 (fun h => ?_) (fun h => ?_)
      · rcases hs h with h' | h' | h'
        · exact Or.inl h'
        · exact absurd ⟨h, h'⟩ hd
        · exact Or.inr h'
      · rcases he h with h' | h' | h'
        · exact Or.inl h'
        · exact absurd ⟨h', h⟩ hd
        · exact Or.inr h'
  unfold inside
  rw [if_pos hin]

end

/-- The hypotheses are met: a quarter of a thick shell above the plane, without the pole. -/
theorem ex_par : (⟨1, 2, 0, π / 2, π / 6, π / 3⟩ : Par).Valid ∧ (⟨1, 2, 0, π / 2, π / 6, π / 3⟩ : Par).Kernels := by
  have hp := pi_gt_three
  refine ⟨⟨by norm_num, by norm_num, by positivity, by linarith, by positivity, by positivity, ?_⟩, ⟨?_, ?_, ?_, ?_, ?_⟩⟩
  · show π / 6 + π / 3 ≤ π
    linarith
  · show kTolerance < 2
    unfold kTolerance; norm_num
  · right; show kTolerance < 1
    unfold kTolerance; norm_num
  · right
    show π / 2 < 2 * π - angTol * (1 / 2)
    unfold angTol; linarith
  · right
    show kTolerance < |π / 6 - π / 2|
    rw [lt_abs]; right
    unfold kTolerance; linarith
  · left
    show π / 6 + π / 3 = π / 2
    ring

example : contains (of ⟨1, 2, 0, π / 2, π / 6, π / 3⟩) ⟨1, 1, 0⟩ = true := by
  have hp := pi_pos
  have hm : (⟨1, 1, 0⟩ : V3).mag ^ 2 = 2 := by rw [mag_sq, rho_sq]; norm_num
  have hm0 := mag_nonneg ⟨1, 1, 0⟩
  refine (C168_inside_partial ex_par.1 ex_par.2 _ (fun _ => ?_)).2.2 ⟨?_, ?_, ?_, ?_⟩
  · nlinarith
  · show 1 ≤ _
    nlinarith
  · show _ ≤ 2
    nlinarith
  · show Sector 0 (π / 2) 1 1
    rw [sector_small (by linarith) (by linarith)]; simp
  · refine ⟨rho ⟨1, 1, 0⟩, π / 2, rho_nonneg _, ?_, ?_, by simp, by simp⟩
    · show π / 6 ≤ π / 2
      linarith
    · show π / 2 ≤ π / 6 + π / 3
      linarith

/-- C168 fails near the axis: in the lower hemisphere of radius 10 the point 10⁻⁹ off the axis at height -5 has a distance of at least 4
from every point that is not in the hemisphere, but it is reported to be on the surface. -/
theorem C168_axis_counterexample : (⟨0, 10, 0, 2 * π, π / 2, π / 2⟩ : Par).Valid ∧ (⟨0, 10, 0, 2 * π, π / 2, π / 2⟩ : Par).Kernels ∧
    (∀ q, V3.dist ⟨1 / 10 ^ 9, 0, -5⟩ q < 4 → (⟨0, 10, 0, 2 * π, π / 2, π / 2⟩ : Par).Closed q) ∧
    inside (of ⟨0, 10, 0, 2 * π, π / 2, π / 2⟩) ⟨1 / 10 ^ 9, 0, -5⟩ = .surface := by
  have hp := pi_gt_three
  have hv : (⟨0, 10, 0, 2 * π, π / 2, π / 2⟩ : Par).Valid :=
    ⟨le_refl _, by norm_num, by positivity, le_refl _, by positivity, by positivity, by show π / 2 + π / 2 ≤ π; linarith⟩
  have hte : (⟨0, 10, 0, 2 * π, π / 2, π / 2⟩ : Par).te = π := by show π / 2 + π / 2 = π; ring
  have hk : (⟨0, 10, 0, 2 * π, π / 2, π / 2⟩ : Par).Kernels := by
    refine ⟨by show kTolerance < 10; unfold kTolerance; norm_num, Or.inl rfl, Or.inl rfl, ⟨Or.inl rfl, Or.inr ?_⟩⟩
    rw [hte]
    show kTolerance < |π - π / 2|
    rw [lt_abs]; left; unfold kTolerance; linarith
  have hr : rho ⟨1 / 10 ^ 9, 0, -5⟩ = 1 / 10 ^ 9 := by
    unfold rho
    rw [show ((1 / 10 ^ 9 : ℝ)) ^ 2 + 0 ^ 2 = (1 / 10 ^ 9) ^ 2 by ring, sqrt_sq (by norm_num)]
  have hm : (⟨1 / 10 ^ 9, 0, -5⟩ : V3).mag ^ 2 = 25 + (1 / 10 ^ 9) ^ 2 := by rw [mag_sq, hr]; norm_num
  have hm0 := mag_nonneg ⟨1 / 10 ^ 9, 0, -5⟩
  have hclosed : ∀ q, V3.dist ⟨1 / 10 ^ 9, 0, -5⟩ q < 4 → (⟨0, 10, 0, 2 * π, π / 2, π / 2⟩ : Par).Closed q := by
    intro q hq
    refine ⟨mag_nonneg q, ?_, sector_full _ _ _, ?_⟩
    · have := abs_le.mp (mag_lip ⟨1 / 10 ^ 9, 0, -5⟩ q)
      show q.mag ≤ 10
      have : (⟨1 / 10 ^ 9, 0, -5⟩ : V3).mag ≤ 6 := by nlinarith
      linarith
    · rw [hte]
      show Polar (π / 2) π q
      rw [polar_iff (by linarith) (by linarith) (by linarith) (le_refl _) (by linarith), off_half, off_pi]
      have := V3.abs_z_le_dist ⟨1 / 10 ^ 9, 0, -5⟩ q
      have h2 := abs_le.mp this
      have h3 : (-5 : ℝ) - q.z ≥ -4 := by
        have : -V3.dist ⟨1 / 10 ^ 9, 0, -5⟩ q ≤ (-5 : ℝ) - q.z := h2.1
        linarith
      exact ⟨by linarith, by linarith [rho_nonneg q]⟩
  refine ⟨hv, hk, hclosed, ?_⟩
  have hf : (⟨0, 10, 0, 2 * π, π / 2, π / 2⟩ : Par).Fits ⟨1 / 10 ^ 9, 0, -5⟩ := fun _ => by nlinarith
  have hno := (C168_inside_partial hv hk ⟨1 / 10 ^ 9, 0, -5⟩ hf).2.1 (hclosed _ (by
    rw [show V3.dist ⟨1 / 10 ^ 9, 0, -5⟩ ⟨1 / 10 ^ 9, 0, -5⟩ = 0 by unfold V3.dist V3.dist2; simp]; norm_num))
  have hni : inside (of ⟨0, 10, 0, 2 * π, π / 2, π / 2⟩) ⟨1 / 10 ^ 9, 0, -5⟩ ≠ .inside := by
    intro h
    have hin : KernelIn (of ⟨0, 10, 0, 2 * π, π / 2, π / 2⟩) ⟨1 / 10 ^ 9, 0, -5⟩ := by
      by_contra hc
      unfold inside at h
      rw [if_neg hc] at h
      split_ifs at h
    rw [kernelIn_iff hv hk] at hin
    have h3 := hin.2.2 (fun h => by have : π / 2 = 0 := h.1; linarith)
    rw [inD (by positivity) rfl (by show π / 2 + kTolerance < π / 2 + π / 2; unfold kTolerance; linarith)] at h3
    rcases h3.1 with h4 | h4 | h4
    · have := h4.1.2.1
      norm_num at this
    · have := h4.2
      norm_num at this
    · have := h4.1
      rw [hr] at this
      have h5 := abs_nonneg (((⟨1 / 10 ^ 9, 0, -5⟩ : V3).z) * tanOf (π / 2 + π / 2))
      unfold ThetaCone.slack kTolerance at this
      linarith
  cases h : inside (of ⟨0, 10, 0, 2 * π, π / 2, π / 2⟩) ⟨1 / 10 ^ 9, 0, -5⟩
  · exact absurd h hni
  · rfl
  · exact absurd h hno

/-! ### C169: safeties -/

section
variable {a : Par} (hv : a.Valid) (hk : a.Kernels)
include hv hk

/-- C169: the sphere cannot be reached within `SafetyToIn`, and not left within `SafetyToOut`; both are non-negative on their sides. -/
theorem C169_safety (p : V3) (hf : a.Fits p) :
    (∀ q, a.Closed q → safetyToIn (of a) p ≤ V3.dist p q) ∧ (inside (of a) p = .outside → 0 ≤ safetyToIn (of a) p) ∧
    (∀ q, ¬ a.Closed q → safetyToOut (of a) p ≤ V3.dist p q) ∧ (inside (of a) p = .inside → 0 ≤ safetyToOut (of a) p) := by
  obtain ⟨w1, w2, w3, w4⟩ := C76_safety (s := a.s) hv.d hv.d' p
  have efp : (of a).fullPhi = false ↔ a.d ≠ 2 * π := by
    obtain ⟨sp, f, x, y, e⟩ := of_members hv hk.d
    rw [e]; simp only [decide_eq_false_iff_not, ne_eq]
  have eft : (of a).fullTheta = false ↔ ¬ (a.ts = 0 ∧ a.te = π) := by
    obtain ⟨sp, f, x, y, e⟩ := of_members hv hk.d
    rw [e]; simp only [decide_eq_false_iff_not]
  have ew : (of a).wedge = Wedge.make a.d a.s := by
    obtain ⟨sp, f, x, y, e⟩ := of_members hv hk.d
    rw [e]
  have ec : (of a).cone = ThetaCone.make a.ts a.td := by
    obtain ⟨sp, f, x, y, e⟩ := of_members hv hk.d
    rw [e]
  have hm := fun q => abs_le.mp (mag_lip p q)
  refine ⟨fun q hq => ?_, fun hin => ?_, fun q hq => ?_, fun hin => ?_⟩
  · have hd0 := V3.dist_nonneg' p q
    unfold safetyToIn
    simp only [of_rmin hv hk, of_rmax hv hk, efp, eft, ew, ec]
    split
    · linarith
    · split
      · exact hd0
      · have m1 : a.rmin - p.mag ≤ V3.dist p q := by linarith [hq.lo, (hm q).1]
        have m2 : p.mag - a.rmax ≤ V3.dist p q := by linarith [hq.hi, (hm q).2]
        have m3 := w2 q hq.phi
        have m4 := theta_safetyIn hv.ts hv.td hv.te hk.theta p hf q hq.theta
        split_ifs <;> first | exact max_le m4 (max_le m3 m1) | exact max_le m4 (max_le m3 m2) | exact max_le m4 m1 | exact max_le m4 m2 | exact max_le m3 m1 | exact max_le m3 m2 | exact m1 | exact m2
  · have hno : ¬ KernelIn (of a) p := fun h => by
      unfold inside at hin; rw [if_pos h] at hin; cases hin
    have ho : KernelOut true (of a) p := by
      by_contra hc
      unfold inside at hin; rw [if_neg hno, if_neg hc] at hin; cases hin
    have ho' := ho
    rw [kernelOut_iff hv hk] at ho'
    unfold safetyToIn
    simp only [of_rmin hv hk, of_rmax hv hk, efp, eft, ew, ec]
    rw [if_neg hno, if_neg (not_not.mpr ho)]
    have c0 := theta_safetyIn_nonneg (s := a.ts) (d := a.td) p
    by_cases ht : ¬ (a.ts = 0 ∧ a.te = π)
    · rw [if_pos ht]; exact le_max_of_le_left c0
    rw [if_neg ht]
    by_cases hd : a.d ≠ 2 * π
    · rw [if_pos hd]
      rcases ho' with h | h | h
      · apply le_max_of_le_right
        have := radial_out (t := of a) (by rw [of_rmax hv hk]; exact hk.rmax) (by rw [of_rmin hv hk]; exact hk.rmin) h
        rw [of_rmin hv hk, of_rmax hv hk] at this
        have hmm := mag_nonneg p
        have hlt := hv.rmax
        rcases this with h | h <;> split_ifs with hr <;> first | linarith [hv.rmin] | linarith [not_not.mp hr]
      · exact le_max_of_le_left (w1.mpr (wedge_outside hv h.2)).le
      · exact absurd h.1 ht
    · rw [if_neg hd]
      rcases ho' with h | h | h
      · have := radial_out (t := of a) (by rw [of_rmax hv hk]; exact hk.rmax) (by rw [of_rmin hv hk]; exact hk.rmin) h
        rw [of_rmin hv hk, of_rmax hv hk] at this
        have hmm := mag_nonneg p
        have hlt := hv.rmax
        rcases this with h | h <;> split_ifs with hr <;> first | linarith [hv.rmin] | linarith [not_not.mp hr]
      · exact absurd h.1 hd
      · exact absurd h.1 ht
  · have hd0 := V3.dist_nonneg' p q
    unfold safetyToOut
    simp only [of_rmin hv hk, of_rmax hv hk, efp, eft, ew, ec]
    split
    · linarith
    · split
      · exact hd0
      · rename_i h1 h2
        have hcl := kernelIn_closed hv hk hf (not_not.mp h2)
        by_cases c1 : p.mag - a.rmin ≤ V3.dist p q ∧ a.rmin ≠ 0
        · split_ifs <;> (try simp only [min_le_iff]) <;>
            first
            | exact Or.inr (Or.inr (by linarith [c1.1])) | exact Or.inr (by linarith [c1.1]) | linarith [c1.1] | exact absurd c1.2 (by assumption)
        by_cases c2 : a.rmax - p.mag ≤ V3.dist p q
        · split_ifs <;> (try simp only [min_le_iff]) <;>
            first | exact Or.inr (Or.inr (by linarith)) | exact Or.inr (by linarith) | linarith
        by_cases c3 : Sector a.s a.d q.x q.y
        · have ht : ¬ Polar a.ts a.te q := by
            intro ht
            apply hq
            refine ⟨?_, by linarith [(hm q).1], c3, ht⟩
            by_cases hr : a.rmin = 0
            · rw [hr]; exact mag_nonneg q
            · have : ¬ (p.mag - a.rmin ≤ V3.dist p q) := fun h => c1 ⟨h, hr⟩
              linarith [(hm q).2]
          have hnf : ¬ (a.ts = 0 ∧ a.te = π) := fun h => ht (polar_all hv h q)
          rw [if_pos hnf]
          exact min_le_of_left_le (theta_safetyOut hv.ts hv.td hv.te p hk.theta hcl.theta q ht)
        · have hnd : a.d ≠ 2 * π := fun h => c3 (by rw [h]; exact sector_full _ _ _)
          have := w4 q c3
          rw [if_pos hnd]
          split_ifs <;> (try simp only [min_le_iff]) <;> first | exact Or.inr (Or.inl this) | exact Or.inl this
  · have hi : KernelIn (of a) p := by
      by_contra hc
      unfold inside at hin; rw [if_neg hc] at hin
      split_ifs at hin
    have hcl := kernelIn_closed hv hk hf hi
    unfold safetyToOut
    simp only [of_rmin hv hk, of_rmax hv hk, efp, eft, ew, ec]
    rw [if_neg (fun ho => kernelOut_not hv hk hf ho hcl), if_neg (not_not.mpr hi)]
    have c0 := theta_safetyOut_nonneg (s := a.ts) (d := a.td) p
    have c1 := w3.mpr hcl.phi
    have c2 : 0 ≤ p.mag - a.rmin := by linarith [hcl.lo]
    have c3 : 0 ≤ a.rmax - p.mag := by linarith [hcl.hi]
    split_ifs <;> first | exact le_min c0 (le_min c1 c2) | exact le_min c0 (le_min c1 c3) | exact le_min c0 c2 | exact le_min c0 c3 | exact le_min c1 c2 | exact le_min c1 c3 | exact c2 | exact c3

end

/-- The bound is not empty: outside the shell of radii 1 and 2, at distance 5 from the centre, reaching (0,0,2) takes 3. -/
example : safetyToIn (of ⟨1, 2, 0, 2 * π, 0, π⟩) ⟨0, 0, 5⟩ ≤ V3.dist ⟨0, 0, 5⟩ ⟨0, 0, 2⟩ := by
  have hp := pi_gt_three
  have hv : (⟨1, 2, 0, 2 * π, 0, π⟩ : Par).Valid :=
    ⟨by norm_num, by norm_num, by positivity, le_refl _, le_refl _, pi_pos, by show 0 + π ≤ π; linarith⟩
  have hk : (⟨1, 2, 0, 2 * π, 0, π⟩ : Par).Kernels := by
    refine ⟨by show kTolerance < 2; unfold kTolerance; norm_num, Or.inr (by show kTolerance < 1; unfold kTolerance; norm_num), Or.inl rfl, ⟨Or.inr ?_, Or.inr ?_⟩⟩
    · show kTolerance < |0 - π / 2|
      rw [lt_abs]; right; unfold kTolerance; linarith
    · show kTolerance < |0 + π - π / 2|
      rw [lt_abs]; left; unfold kTolerance; linarith
  have hm : (⟨0, 0, 2⟩ : V3).mag = 2 := by
    have h1 : (⟨0, 0, 2⟩ : V3).mag ^ 2 = 4 := by rw [mag_sq, rho_sq]; norm_num
    nlinarith [mag_nonneg ⟨0, 0, 2⟩]
  refine (C169_safety hv hk _ (fun h => ?_)).1 _ ⟨?_, ?_, sector_full _ _ _, polar_all hv ⟨rfl, by show 0 + π = π; ring⟩ _⟩
  · rcases h with h | h
    · have : (0 : ℝ) = π / 2 := h
      linarith
    · have : 0 + π = π / 2 := h
      linarith
  · rw [hm]; norm_num
  · rw [hm]

end Sphere
end VecGeom
