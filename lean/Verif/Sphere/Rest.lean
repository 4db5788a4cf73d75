import Verif.Sphere.Props
import Verif.Sphere.Volume
import Verif.Orb.Props

/-!
# Properties of spheres: area, construction and setters
-/

namespace VecGeom
namespace Sphere

open Real MeasureTheory

/-! ### C171: the surface area -/

theorem checked_more {a : Par} (hv : a.Valid) (hd : a.d = 2 * π ∨ a.d < 2 * π - angTol * (1 / 2)) : (checked a).area = 0 ∧
    (checked a).eTheta = a.te ∧ (checked a).sinS = sin a.ts ∧ (checked a).cosS = cos a.ts ∧ (checked a).sinE = sin a.te ∧
    (checked a).cosE = cos a.te ∧ ((checked a).fullPhi = true ↔ a.d = 2 * π) := by
  obtain ⟨sp, f, x, y, e⟩ := of_members hv hd
  obtain ⟨x', y', e'⟩ := of_eq a
  rw [e] at e'
  have h1 := congrArg Sph.eTheta e'
  have h2 := congrArg Sph.sinS e'
  have h3 := congrArg Sph.cosS e'
  have h4 := congrArg Sph.sinE e'
  have h5 := congrArg Sph.cosE e'
  have h6 := congrArg Sph.fullPhi e'
  refine ⟨?_, h1.symm, h2.symm, h3.symm, h4.symm, h5.symm, ?_⟩
  · unfold checked
    obtain ⟨sp, dp, f, e1, -, -⟩ := checkPhi_eq (raw a) a.s a.d
    rw [e1]
    unfold checkTheta
    simp only []
    split_ifs <;> rfl
  · have h6' : decide (a.d = 2 * π) = (checked a).fullPhi := h6
    rw [← h6', decide_eq_true_iff]

open Classical in
theorem of_area {a : Par} (hv : a.Valid) (hd : a.d = 2 * π ∨ a.d < 2 * π - angTol * (1 / 2)) :
    surfaceArea (of a) = a.d * (a.rmin ^ 2 + a.rmax ^ 2) * (cos a.ts - cos a.te) + (if a.d = 2 * π then 0 else a.td * (a.rmax ^ 2 - a.rmin ^ 2)) +
      (if a.ts > 0 then coneTerm a.d (sin a.ts) (cos a.ts) (a.rmax ^ 2 - a.rmin ^ 2) else 0) +
      (if a.te < π then coneTerm a.d (sin a.te) (cos a.te) (a.rmax ^ 2 - a.rmin ^ 2) else 0) := by
  obtain ⟨-, h1, h2, h3, h4, h5⟩ := checked_members hv hd
  obtain ⟨g0, g1, g2, g3, g4, g5, g6⟩ := checked_more hv hd
  obtain ⟨x, hx⟩ := capacity_eq (checked a)
  unfold surfaceArea
  rw [of_checked, hx]
  unfold calcArea
  simp only []
  rw [if_neg (not_not.mpr g0)]
  simp only [h1, h2, h3, h4, h5, g1, g2, g3, g4, g5]
  have e1 : a.rmax * a.rmax - a.rmin * a.rmin = a.rmax ^ 2 - a.rmin ^ 2 := by ring
  have e2 : a.rmin * a.rmin + a.rmax * a.rmax = a.rmin ^ 2 + a.rmax ^ 2 := by ring
  rw [e1, e2]
  by_cases hf : a.d = 2 * π
  · rw [g6.mpr hf, if_pos hf]
    simp only [Bool.not_true, Bool.false_eq_true, if_false]
    by_cases c1 : a.ts > 0 <;> by_cases c2 : a.te < π <;> simp only [c1, c2, if_true, if_false] <;> ring
  · have : (checked a).fullPhi = false := by
      rw [← Bool.not_eq_true, g6]; exact hf
    rw [this, if_neg hf]
    simp only [Bool.not_false, if_true]
    by_cases c1 : a.ts > 0 <;> by_cases c2 : a.te < π <;> simp only [c1, c2, if_true, if_false] <;> ring

/-- The term of a flat cone. -/
theorem coneTerm_half {d w : ℝ} (h0 : 0 < d) (h1 : d ≤ 2 * π) : coneTerm d (sin (π / 2)) (cos (π / 2)) w = d * sin (π / 2) / 2 * w := by
  unfold coneTerm
  rw [sin_pi_div_two, cos_pi_div_two]
  simp only []
  rw [show (1 : ℝ) * 1 * cos d + 0 * 0 = cos d by ring]
  by_cases hd : d ≠ 2 * π
  · rw [if_pos hd]
    by_cases hp : d > π
    · rw [if_pos hp, show cos d = cos (2 * π - d) by rw [cos_two_pi_sub], arccos_cos (by linarith) (by linarith)]
      ring
    · rw [if_neg hp, arccos_cos h0.le (not_lt.mp hp)]
      ring
  · rw [if_neg hd, if_pos (by rw [not_not.mp hd]; linarith [pi_pos]), not_not.mp hd]
    ring

/-- C171: the surface area is right if the polar angles begin at the north pole or at the plane and end at the plane or at the south pole. -/
theorem C171_area_partial {a : Par} (hv : a.Valid) (hd : a.d = 2 * π ∨ a.d < 2 * π - angTol * (1 / 2)) (hs : a.ts = 0 ∨ a.ts = π / 2)
    (he : a.te = π / 2 ∨ a.te = π) : surfaceArea (of a) = a.trueArea := by
  have hp := pi_pos
  rw [of_area hv hd]
  unfold Par.trueArea
  congr 1
  · congr 1
    · congr 1
      by_cases hf : a.d = 2 * π
      · rw [if_pos hf, if_neg (by linarith)]
      · rw [if_neg hf, if_pos (lt_of_le_of_ne hv.d' hf)]
        ring
    · rcases hs with h | h
      · rw [if_neg (by linarith), if_neg (by linarith)]
      · rw [if_pos (by linarith), if_pos (by linarith), h, coneTerm_half hv.d hv.d']
  · rcases he with h | h
    · rw [if_pos (by linarith), if_pos (by linarith), h, coneTerm_half hv.d hv.d']
    · rw [if_neg (by linarith), if_neg (by linarith)]

/-- C171: the part of the area for the outer shell is the derivative of the volume by the outer radius. -/
theorem C171_shell {a : Par} (hv : a.Valid) :
    HasDerivAt (fun R => (volume {q : Fin 3 → ℝ | ({ a with rmax := R } : Par).Closed ⟨q 0, q 1, q 2⟩}).toReal)
      (a.d * a.rmax ^ 2 * (cos a.ts - cos a.te)) a.rmax := by
  have hc : 0 ≤ cos a.ts - cos a.te := by
    have := cos_le_cos_of_nonneg_of_le_pi hv.ts hv.te (show a.ts ≤ a.te by unfold Par.te; linarith [hv.td])
    linarith
  have hev : (fun R => (volume {q : Fin 3 → ℝ | ({ a with rmax := R } : Par).Closed ⟨q 0, q 1, q 2⟩}).toReal) =ᶠ[nhds a.rmax]
      fun R => a.d * (cos a.ts - cos a.te) * (R ^ 3 - a.rmin ^ 3) / 3 := by
    filter_upwards [lt_mem_nhds hv.rmax] with R hR
    have hv' : ({ a with rmax := R } : Par).Valid := ⟨hv.rmin, hR, hv.d, hv.d', hv.ts, hv.td, hv.te⟩
    rw [volume_closed hv', ENNReal.toReal_ofReal]
    · rfl
    · have h3 : a.rmin ^ 3 ≤ R ^ 3 := pow_le_pow_left₀ hv.rmin (le_of_lt hR) 3
      have h4 : 0 ≤ a.d * (cos a.ts - cos a.te) * (R ^ 3 - a.rmin ^ 3) := mul_nonneg (mul_nonneg hv.d.le hc) (by linarith)
      exact div_nonneg h4 (by norm_num)
  refine HasDerivAt.congr_of_eventuallyEq ?_ hev
  have h1 := (((hasDerivAt_pow 3 a.rmax).sub_const (a.rmin ^ 3)).const_mul (a.d * (cos a.ts - cos a.te))).div_const 3
  refine h1.congr_deriv ?_
  simp only [Nat.cast_ofNat, Nat.add_one_sub_one, Nat.reduceSub]
  ring

/-- The hypotheses are met: half of a hemispherical shell. -/
example : surfaceArea (of ⟨1, 2, 0, π, 0, π / 2⟩) = (⟨1, 2, 0, π, 0, π / 2⟩ : Par).trueArea := by
  have hp := pi_gt_three
  refine C171_area_partial ⟨by norm_num, by norm_num, by positivity, by show π ≤ 2 * π; linarith, le_refl _, by positivity,
    by show 0 + π / 2 ≤ π; linarith⟩ (Or.inr ?_) (Or.inl rfl) (Or.inl (by show 0 + π / 2 = π / 2; ring))
  show π < 2 * π - angTol * (1 / 2)
  unfold angTol; linarith

/-- C171 fails for real cones: for the ball of radius 1 from the polar angle of 30 degrees on, the cone is counted as a disc, twice its
area. -/
theorem C171_cone_counterexample : (⟨0, 1, 0, 2 * π, π / 6, 5 * π / 6⟩ : Par).Valid ∧
    surfaceArea (of ⟨0, 1, 0, 2 * π, π / 6, 5 * π / 6⟩) = (⟨0, 1, 0, 2 * π, π / 6, 5 * π / 6⟩ : Par).trueArea + π / 2 := by
  have hp := pi_pos
  have hte : (⟨0, 1, 0, 2 * π, π / 6, 5 * π / 6⟩ : Par).te = π := by show π / 6 + 5 * π / 6 = π; ring
  have hv : (⟨0, 1, 0, 2 * π, π / 6, 5 * π / 6⟩ : Par).Valid :=
    ⟨le_refl _, by norm_num, by positivity, le_refl _, by positivity, by positivity, by rw [hte]⟩
  refine ⟨hv, ?_⟩
  rw [of_area hv (Or.inl rfl)]
  unfold Par.trueArea
  rw [hte]
  show _ + (if 2 * π = 2 * π then 0 else _) + (if π / 6 > 0 then coneTerm (2 * π) (sin (π / 6)) (cos (π / 6)) _ else 0) + (if π < π then _ else 0) =
    _ + (if 2 * π < 2 * π then _ else 0) + (if 0 < π / 6 then 2 * π * sin (π / 6) / 2 * _ else 0) + (if π < π then _ else 0) + π / 2
  rw [if_pos rfl, if_pos (by positivity), if_neg (lt_irrefl _), if_neg (lt_irrefl _), if_pos (by positivity), if_neg (lt_irrefl _)]
  unfold coneTerm
  simp only []
  rw [if_neg (not_not.mpr rfl), if_pos (by linarith), sin_pi_div_six]
  ring

/-! ### C172: construction and setters -/

theorem checked_rmin (a : Par) (r : ℝ) : checked { a with rmin := r } = { checked a with rmin := r } := by
  unfold checked checkPhi checkDPhi checkSPhi checkTheta raw
  simp only []
  split_ifs <;> rfl

theorem checked_rmax (a : Par) (r : ℝ) : checked { a with rmax := r } = { checked a with rmax := r } := by
  unfold checked checkPhi checkDPhi checkSPhi checkTheta raw
  simp only []
  split_ifs <;> rfl

theorem checked_zero (a : Par) : (checked a).volume = 0 ∧ (checked a).area = 0 := by
  unfold checked
  obtain ⟨sp, dp, f, e1, -, -⟩ := checkPhi_eq (raw a) a.s a.d
  rw [e1]
  unfold checkTheta
  simp only []
  split_ifs <;> exact ⟨rfl, rfl⟩

theorem reset (a : Par) : { of a with volume := 0, area := 0 } = checked a := by
  obtain ⟨x, y, e⟩ := of_eq a
  obtain ⟨h1, h2⟩ := checked_zero a
  rw [e]
  generalize checked a = t at h1 h2
  cases t
  simp only at h1 h2
  rw [h1, h2]

/-- C172: setting a radius gives the sphere that the constructor makes with the new radius. -/
theorem C172_radii (a : Par) (r : ℝ) : setInsideRadius (of a) r = of { a with rmin := r } ∧ setOuterRadius (of a) r = of { a with rmax := r } := by
  constructor
  · unfold setInsideRadius recalc
    rw [of_checked { a with rmin := r }, checked_rmin, ← reset a]
  · unfold setOuterRadius recalc
    rw [of_checked { a with rmax := r }, checked_rmax, ← reset a]

example : setOuterRadius (of ⟨1, 2, 0, π, 0, π / 2⟩) 3 = of ⟨1, 3, 0, π, 0, π / 2⟩ := (C172_radii _ 3).2

/-- C172: from valid parameters the getters give the parameters back, up to turns of the start angle. -/
theorem C172_getters {a : Par} (hv : a.Valid) (hd : a.d = 2 * π ∨ a.d < 2 * π - angTol * (1 / 2)) :
    (of a).rmin = a.rmin ∧ (of a).rmax = a.rmax ∧ (of a).dPhi = a.d ∧ (of a).sTheta = a.ts ∧ (of a).dTheta = a.td := by
  obtain ⟨sp, f, x, y, e⟩ := of_members hv hd
  rw [e]
  exact ⟨rfl, rfl, rfl, rfl, rfl⟩

/-- C172 fails for the setters of angles: after the range of polar angles of a ball is set to the upper half, the capacity is halved but
the south is still contained. -/
theorem C172_setter_counterexample :
    (setDeltaTheta (of ⟨0, 1, 0, 2 * π, 0, π⟩) (π / 2)).volume = 2 / 3 * π ∧
    (setDeltaTheta (of ⟨0, 1, 0, 2 * π, 0, π⟩) (π / 2)).dTheta = π / 2 ∧
    contains (setDeltaTheta (of ⟨0, 1, 0, 2 * π, 0, π⟩) (π / 2)) ⟨0, 0, -(1 / 2)⟩ = true ∧
    contains (of ⟨0, 1, 0, 2 * π, 0, π / 2⟩) ⟨0, 0, -(1 / 2)⟩ = false := by
  have hp := pi_gt_three
  have hv : (⟨0, 1, 0, 2 * π, 0, π⟩ : Par).Valid :=
    ⟨le_refl _, by norm_num, by positivity, le_refl _, le_refl _, pi_pos, by show 0 + π ≤ π; linarith⟩
  have hv2 : (⟨0, 1, 0, 2 * π, 0, π / 2⟩ : Par).Valid :=
    ⟨le_refl _, by norm_num, by positivity, le_refl _, le_refl _, by positivity, by show 0 + π / 2 ≤ π; linarith⟩
  obtain ⟨sp, f, x, y, e⟩ := of_members hv (Or.inl rfl)
  have hset : ∃ y, setDeltaTheta (of ⟨0, 1, 0, 2 * π, 0, π⟩) (π / 2) =
      { rmin := 0, rmax := 1, sPhi := sp, dPhi := 2 * π, sTheta := 0, dTheta := π / 2, eTheta := 0 + π / 2
        sinS := sin 0, cosS := cos 0, sinE := sin (0 + π / 2), cosE := cos (0 + π / 2), fullPhi := true
        fullTheta := false, full := false, volume := 2 / 3 * π, area := y
        wedge := Wedge.make (2 * π) 0, cone := ThetaCone.make 0 π } := by
    unfold setDeltaTheta recalc
    obtain ⟨y, hy⟩ := area_eq (calcCapacity { checkTheta (of ⟨0, 1, 0, 2 * π, 0, π⟩) (of ⟨0, 1, 0, 2 * π, 0, π⟩).sTheta (π / 2) with volume := 0, area := 0 })
    rw [hy]
    refine ⟨y, ?_⟩
    unfold calcCapacity
    rw [if_neg (not_not.mpr rfl), e]
    unfold checkTheta
    simp only []
    rw [if_neg (show ¬ ((0 : ℝ) < 0 ∨ (0 : ℝ) > π) by rintro (h | h) <;> linarith), if_neg (show ¬ π / 2 + 0 ≥ π by linarith),
      if_pos (show π / 2 > 0 by linarith)]
    simp only [decide_eq_false (not_not.mpr (show π / 2 - 0 < π by linarith)), Bool.and_false]
    congr 1
    rw [zero_add, cos_zero, cos_pi_div_two]
    ring
  obtain ⟨y, hset⟩ := hset
  rw [hset]
  classical
  have hm2 : (⟨0, 0, -(1 / 2)⟩ : V3).mag ^ 2 = 1 / 4 := by rw [mag_sq, rho_sq]; norm_num
  refine ⟨rfl, rfl, ?_, ?_⟩
  · unfold contains
    rw [decide_eq_true_iff]
    rintro (h | h | h)
    · unfold RadialOut at h
      rw [mag2_eq, hm2] at h
      rcases h with h | h
      · unfold Tube.plusTolerantSquare kTolerance at h
        norm_num at h
      · exact h.1 rfl
    · cases h.1
    · have h2 := h.2
      rw [outC pi_pos (by unfold kTolerance; linarith) (by unfold kTolerance; linarith)] at h2
      rcases h2 with h3 | h3 | h3
      · rcases h3.2 with h4 | h4 | h4
        · exact h4.1 rfl
        · exact h4.2 rfl
        · exact h4.2 (zero_add π)
      · have := h3.2
        norm_num at this
      · have := h3.1
        rw [zero_add, show tanOf π = 0 by
          have := (tanOf_hi (le_refl π) (by linarith)).2.1
          rw [cos_pi, sin_pi] at this
          linarith, mul_zero, abs_zero] at this
        linarith [rho_nonneg ⟨0, 0, -(1 / 2)⟩, slack_pos]
  · have hk2 : (⟨0, 1, 0, 2 * π, 0, π / 2⟩ : Par).Kernels := by
      refine ⟨by show kTolerance < 1; unfold kTolerance; norm_num, Or.inl rfl, Or.inl rfl, ⟨Or.inr ?_, Or.inl ?_⟩⟩
      · show kTolerance < |0 - π / 2|
        rw [lt_abs]; right; unfold kTolerance; linarith
      · show 0 + π / 2 = π / 2
        ring
    rw [← Bool.not_eq_true]
    intro hc
    have hm0 := mag_nonneg ⟨0, 0, -(1 / 2)⟩
    obtain ⟨-, -, q, hq, hdq⟩ := (C168_near hv2 hk2 ⟨0, 0, -(1 / 2)⟩ (fun _ => by nlinarith)).1 hc
    have hq' : Polar 0 (0 + π / 2) q := hq
    rw [polar_iff (le_refl _) pi_pos (by linarith) (by linarith) (by linarith), zero_add, off_half] at hq'
    have := V3.abs_z_le_dist ⟨0, 0, -(1 / 2)⟩ q
    have h3 := (abs_le.mp this).1
    have h4 : -V3.dist ⟨0, 0, -(1 / 2)⟩ q ≤ -(1 / 2) - q.z := h3
    unfold kTolerance at hdq
    linarith [hq'.2]

/-- C172 fails for a range of polar angles past the south pole: start and range are clipped to the lower half for the capacity, but the
theta sector keeps the end as given, and the south is not contained. -/
theorem C172_clip_counterexample :
    (of ⟨0, 1, 0, 2 * π, π / 2, 3 * π / 4⟩).dTheta = π / 2 ∧ (of ⟨0, 1, 0, 2 * π, π / 2, 3 * π / 4⟩).eTheta = π ∧
    contains (of ⟨0, 1, 0, 2 * π, π / 2, 3 * π / 4⟩) ⟨0, 0, -(1 / 2)⟩ = false ∧
    (⟨0, 1, 0, 2 * π, π / 2, π / 2⟩ : Par).Closed ⟨0, 0, -(1 / 2)⟩ := by
  have hp := pi_gt_three
  have hm2 : (⟨0, 0, -(1 / 2)⟩ : V3).mag ^ 2 = 1 / 4 := by rw [mag_sq, rho_sq]; norm_num
  have hm0 := mag_nonneg ⟨0, 0, -(1 / 2)⟩
  obtain ⟨x, y, e⟩ := of_eq ⟨0, 1, 0, 2 * π, π / 2, 3 * π / 4⟩
  obtain ⟨sp, dp, f, e1, -, -⟩ := checkPhi_eq (raw ⟨0, 1, 0, 2 * π, π / 2, 3 * π / 4⟩) 0 (2 * π)
  have e2 : ∃ f, checked ⟨0, 1, 0, 2 * π, π / 2, 3 * π / 4⟩ =
      { checkPhi (raw ⟨0, 1, 0, 2 * π, π / 2, 3 * π / 4⟩) 0 (2 * π) with
        sTheta := π / 2, dTheta := π / 2, eTheta := π, fullTheta := false, full := f
        sinS := sin (π / 2), cosS := cos (π / 2), sinE := sin π, cosE := cos π } := by
    unfold checked
    simp only []
    rw [e1]
    unfold checkTheta
    simp only []
    rw [if_neg (show ¬ (π / 2 < 0 ∨ π / 2 > π) by rintro (h | h) <;> linarith), if_pos (show 3 * π / 4 + π / 2 ≥ π by linarith)]
    simp only [show π - π / 2 = π / 2 by ring, show π / 2 + π / 2 = π by ring,
      decide_eq_false (not_not.mpr (show π / 2 - π / 2 < π by linarith))]
    exact ⟨_, rfl⟩
  obtain ⟨f', e2⟩ := e2
  rw [e, e2, e1]
  refine ⟨rfl, rfl, ?_, ?_⟩
  · unfold contains
    rw [decide_eq_false_iff_not, not_not]
    refine Or.inr (Or.inr ⟨rfl, ?_⟩)
    show (ThetaCone.make (π / 2) (3 * π / 4)).CompletelyOutside ⟨0, 0, -(1 / 2)⟩
    rw [outD (by positivity) rfl (by unfold kTolerance; linarith)]
    refine ⟨Or.inl ⟨⟨by norm_num, rfl, rfl⟩, Or.inr (by linarith)⟩, ?_⟩
    show ¬ |(-(1 / 2) : ℝ)| < kHalfTolerance
    unfold kHalfTolerance kTolerance
    norm_num
  · refine ⟨hm0, ?_, sector_full _ _ _, ?_⟩
    · show _ ≤ (1 : ℝ)
      nlinarith
    · show Polar (π / 2) (π / 2 + π / 2) ⟨0, 0, -(1 / 2)⟩
      refine ⟨1 / 2, π, by norm_num, by linarith, by linarith, ?_, by simp⟩
      rw [rho_zero ⟨rfl, rfl⟩]; simp

/-- C172: the factory replaces only what is a ball by an orb, if the parameters are valid; and contains the same points. -/
theorem C172_factory {a : Par} (hv : a.Valid) (hk : a.Kernels) (R : ℝ) (h : maker a.rmin a.rmax a.s a.d a.ts a.td = .orb R) :
    (∀ p, a.Closed p ↔ p.mag ≤ R) ∧ ∀ p, a.Closed p → Orb.contains R p = true := by
  have hp := pi_pos
  unfold maker at h
  by_cases hc : a.rmin = 0 ∧ a.d ≥ 2 * π ∧ a.td = π
  · rw [if_pos hc] at h
    have hR : a.rmax = R := by injection h
    have hts : a.ts = 0 := by
      have := hv.te
      unfold Par.te at this
      linarith [hv.ts, hc.2.2]
    have hd : a.d = 2 * π := le_antisymm hv.d' hc.2.1
    have hcl : ∀ p, a.Closed p ↔ p.mag ≤ R := by
      intro p
      constructor
      · intro h; rw [← hR]; exact h.hi
      · intro h
        refine ⟨by rw [hc.1]; exact mag_nonneg p, by rw [hR]; exact h, by rw [hd]; exact sector_full _ _ _, ?_⟩
        exact polar_all hv ⟨hts, by unfold Par.te; linarith [hc.2.2]⟩ p
    refine ⟨hcl, fun p h => ?_⟩
    have hR0 : 0 ≤ R := by rw [← hR]; linarith [hv.rmin, hv.rmax]
    rw [Orb.C44_contains hR0]
    linarith [(hcl p).mp h, kTolerance_pos]
  · rw [if_neg hc] at h
    cases h

/-- C172: without a check of the start, the factory makes a ball of what the constructor would clip to a cap. -/
theorem C172_factory_counterexample :
    maker 0 1 0 (2 * π) (π / 2) π = .orb 1 ∧ (of ⟨0, 1, 0, 2 * π, π / 2, π⟩).dTheta = π / 2 := by
  have hp := pi_pos
  refine ⟨if_pos ⟨rfl, le_refl _, rfl⟩, ?_⟩
  obtain ⟨x, y, e⟩ := of_eq ⟨0, 1, 0, 2 * π, π / 2, π⟩
  rw [e]
  obtain ⟨sp, dp, f, e1, -, -⟩ := checkPhi_eq (raw ⟨0, 1, 0, 2 * π, π / 2, π⟩) 0 (2 * π)
  show (checked ⟨0, 1, 0, 2 * π, π / 2, π⟩).dTheta = π / 2
  unfold checked
  simp only []
  rw [e1]
  unfold checkTheta
  simp only []
  rw [if_neg (show ¬ (π / 2 < 0 ∨ π / 2 > π) by rintro (h | h) <;> linarith), if_pos (show π + π / 2 ≥ π by linarith)]
  show π - π / 2 = π / 2
  ring

end Sphere
end VecGeom
