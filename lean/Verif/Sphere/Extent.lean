import Verif.Sphere.Props
import Verif.Tube.PropsMore
import Mathlib.Topology.Order.IntermediateValue
import Mathlib.Analysis.Convex.Basic

/-!
# Properties of spheres: extent and convexity
-/

namespace VecGeom
namespace Sphere

open Real

/-! ### The start angle and the flag for full spheres -/

theorem of_full (a : Par) : (of a).full = ((of a).fullPhi && (of a).fullTheta) := by
  obtain ⟨x, y, e⟩ := of_eq a
  rw [e]
  rfl

theorem fmod_int (x y : ℝ) : ∃ k : ℤ, fmod x y = x + k * y := by
  refine ⟨-⌊x / y⌋, ?_⟩
  unfold fmod
  push_cast
  ring

theorem checkSPhi_int (t : Sph) (s : ℝ) : ∃ k : ℤ, (checkSPhi t s).sPhi = s + k * (2 * π) := by
  have h1 : ∃ k : ℤ, (if s < 0 then 2 * π - fmod |s| (2 * π) else fmod s (2 * π)) = s + k * (2 * π) := by
    split_ifs with h
    · obtain ⟨k, hk⟩ := fmod_int |s| (2 * π)
      refine ⟨1 - k, ?_⟩
      rw [hk, abs_of_neg h]
      push_cast
      ring
    · exact fmod_int s (2 * π)
  obtain ⟨k, hk⟩ := h1
  unfold checkSPhi
  simp only []
  classical
  by_cases h2 : (if s < 0 then 2 * π - fmod |s| (2 * π) else fmod s (2 * π)) + t.dPhi > 2 * π
  · refine ⟨k - 1, ?_⟩
    rw [if_pos (by convert h2), show (if s < 0 then 2 * π - fmod |s| (2 * π) else fmod s (2 * π)) = s + k * (2 * π) by convert hk]
    push_cast
    ring
  · refine ⟨k, ?_⟩
    rw [if_neg (by convert h2)]
    convert hk

/-- The start angle of a sphere that is not full in azimuth is the given one, up to turns. -/
theorem of_sPhi {a : Par} (hv : a.Valid) (hd : a.d < 2 * π - angTol * (1 / 2)) : ∃ k : ℤ, (of a).sPhi = a.s + k * (2 * π) := by
  obtain ⟨x, y, e⟩ := of_eq a
  rw [e]
  show ∃ k : ℤ, (checked a).sPhi = a.s + k * (2 * π)
  have h1 : (checked a).sPhi = (checkPhi (raw a) a.s a.d).sPhi := by
    unfold checked checkTheta
    simp only []
    split_ifs <;> rfl
  rw [h1]
  unfold checkPhi checkDPhi
  rw [if_neg (not_le.mpr hd)]
  exact checkSPhi_int _ _

/-! ### C173: the extent -/

open Classical in
/-- The largest distance from the axis. -/
noncomputable def Par.wide (a : Par) : ℝ :=
  if a.ts ≤ π / 2 then (if a.te < π / 2 then a.rmax * sin a.te else a.rmax) else a.rmax * sin a.ts

/-- The ring that is the shadow of a sphere. -/
noncomputable def Par.around (a : Par) : Tube.Par := ⟨a.rmin * min (sin a.ts) (sin a.te), a.wide, 1, a.s, a.d⟩

section
variable {a : Par} (hv : a.Valid)
include hv

theorem ts_lt : a.ts < a.te := by unfold Par.te; linarith [hv.td]

theorem sin_ts : 0 ≤ sin a.ts := sin_nonneg_of_nonneg_of_le_pi hv.ts ((ts_lt hv).le.trans hv.te)

theorem sin_te : 0 ≤ sin a.te := sin_nonneg_of_nonneg_of_le_pi (hv.ts.trans (ts_lt hv).le) hv.te

/-- The sines of the polar angles in the range. -/
theorem sin_range {t : ℝ} (h1 : a.ts ≤ t) (h2 : t ≤ a.te) : min (sin a.ts) (sin a.te) ≤ sin t ∧ a.rmax * sin t ≤ a.wide := by
  have hp := pi_pos
  have hm : 0 < a.rmax := hv.rmin.trans_lt hv.rmax
  have h0 := hv.ts
  have h3 := hv.te
  constructor
  · by_cases h : t ≤ π / 2
    · exact (min_le_left _ _).trans (sin_le_sin_of_le_of_le_pi_div_two (by linarith) h h1)
    · refine (min_le_right _ _).trans ?_
      rw [← sin_pi_sub a.te, ← sin_pi_sub t]
      exact sin_le_sin_of_le_of_le_pi_div_two (by linarith) (by linarith) (by linarith)
  · unfold Par.wide
    by_cases c1 : a.ts ≤ π / 2
    · rw [if_pos c1]
      by_cases c2 : a.te < π / 2
      · rw [if_pos c2]
        exact mul_le_mul_of_nonneg_left (sin_le_sin_of_le_of_le_pi_div_two (by linarith) c2.le h2) hm.le
      · rw [if_neg c2]
        have := sin_le_one t
        nlinarith
    · rw [if_neg c1]
      refine mul_le_mul_of_nonneg_left ?_ hm.le
      rw [← sin_pi_sub a.ts, ← sin_pi_sub t]
      exact sin_le_sin_of_le_of_le_pi_div_two (by linarith) (by linarith) (by linarith)

/-- A polar angle with the largest distance from the axis. -/
theorem wide_at : ∃ t, a.ts ≤ t ∧ t ≤ a.te ∧ a.wide = a.rmax * sin t ∧ 0 < sin t := by
  have hp := pi_pos
  have h0 := hv.ts
  have h3 := hv.te
  have h4 := ts_lt hv
  unfold Par.wide
  by_cases c1 : a.ts ≤ π / 2
  · rw [if_pos c1]
    by_cases c2 : a.te < π / 2
    · rw [if_pos c2]
      exact ⟨a.te, h4.le, le_refl _, rfl, sin_pos_of_pos_of_lt_pi (by linarith) (by linarith)⟩
    · rw [if_neg c2]
      exact ⟨π / 2, c1, not_lt.mp c2, by rw [sin_pi_div_two, mul_one], by rw [sin_pi_div_two]; norm_num⟩
  · rw [if_neg c1]
    exact ⟨a.ts, le_refl _, h4.le, rfl, sin_pos_of_pos_of_lt_pi (by linarith) (by linarith)⟩

/-- A polar angle with the least distance from the axis. -/
theorem slim_at : ∃ t, a.ts ≤ t ∧ t ≤ a.te ∧ min (sin a.ts) (sin a.te) = sin t := by
  rcases min_choice (sin a.ts) (sin a.te) with h | h
  · exact ⟨a.ts, le_refl _, (ts_lt hv).le, h⟩
  · exact ⟨a.te, (ts_lt hv).le, le_refl _, h⟩

theorem around_valid : a.around.Valid := by
  obtain ⟨t, h1, h2, h3, h4⟩ := wide_at hv
  have hmin : 0 ≤ min (sin a.ts) (sin a.te) := le_min (sin_ts hv) (sin_te hv)
  have h5 := (sin_range hv h1 h2).1
  refine ⟨mul_nonneg hv.rmin hmin, ?_, by show (0 : ℝ) < 1; norm_num, hv.d, hv.d'⟩
  show a.rmin * min (sin a.ts) (sin a.te) < a.wide
  rw [h3]
  calc a.rmin * min (sin a.ts) (sin a.te) ≤ a.rmin * sin t := mul_le_mul_of_nonneg_left h5 hv.rmin
    _ < a.rmax * sin t := mul_lt_mul_of_pos_right hv.rmax h4

theorem closed_around {p : V3} (h : a.Closed p) : a.around.Closed ⟨p.x, p.y, 0⟩ := by
  obtain ⟨r, t, h1, h2, h3, h4, h5⟩ := h.theta
  obtain ⟨s1, s2⟩ := sin_range hv h2 h3
  have hs : 0 ≤ sin t := sin_nonneg_of_nonneg_of_le_pi (hv.ts.trans h2) (h3.trans hv.te)
  have hr : p.mag = r := by
    have : p.mag ^ 2 = r ^ 2 := by
      rw [mag_sq, h4, h5]
      have := sin_sq_add_cos_sq t
      linear_combination r ^ 2 * this
    exact (sq_eq_sq₀ (mag_nonneg p) h1).mp this
  refine ⟨by show |(0 : ℝ)| ≤ 1; norm_num, ?_, ?_, h.phi⟩
  · show a.rmin * min (sin a.ts) (sin a.te) ≤ rho p
    rw [h4]
    have := h.lo
    rw [hr] at this
    calc a.rmin * min (sin a.ts) (sin a.te) ≤ a.rmin * sin t := mul_le_mul_of_nonneg_left s1 hv.rmin
      _ ≤ r * sin t := mul_le_mul_of_nonneg_right this hs
  · show rho p ≤ a.wide
    rw [h4]
    have := h.hi
    rw [hr] at this
    exact (mul_le_mul_of_nonneg_right this hs).trans s2

theorem around_shadow {p : V3} (h : a.around.Closed p) : ∃ z, a.Closed ⟨p.x, p.y, z⟩ := by
  obtain ⟨t1, h1, h2, h3⟩ := slim_at hv
  obtain ⟨t2, g1, g2, g3, -⟩ := wide_at hv
  have hc : ContinuousOn (fun q : ℝ × ℝ => q.1 * sin q.2) (Set.Icc a.rmin a.rmax ×ˢ Set.Icc a.ts a.te) := by fun_prop
  have hpc : IsPreconnected (Set.Icc a.rmin a.rmax ×ˢ Set.Icc a.ts a.te) := isPreconnected_Icc.prod isPreconnected_Icc
  have hm1 : ((a.rmin, t1) : ℝ × ℝ) ∈ Set.Icc a.rmin a.rmax ×ˢ Set.Icc a.ts a.te := ⟨⟨le_refl _, hv.rmax.le⟩, h1, h2⟩
  have hm2 : ((a.rmax, t2) : ℝ × ℝ) ∈ Set.Icc a.rmin a.rmax ×ˢ Set.Icc a.ts a.te := ⟨⟨hv.rmax.le, le_refl _⟩, g1, g2⟩
  have hmem : Tube.rad p ∈ Set.Icc (a.rmin * sin t1) (a.rmax * sin t2) := by
    rw [← h3, ← g3]
    exact ⟨h.lo, h.hi⟩
  obtain ⟨⟨r, t⟩, ⟨⟨k1, k2⟩, k3, k4⟩, hk⟩ := hpc.intermediate_value hm1 hm2 hc hmem
  have hk' : r * sin t = Tube.rad p := hk
  have hr0 : 0 ≤ r := hv.rmin.trans k1
  have hrho : rho ⟨p.x, p.y, r * cos t⟩ = r * sin t := hk'.symm
  have hmag : (⟨p.x, p.y, r * cos t⟩ : V3).mag = r := by
    have : (⟨p.x, p.y, r * cos t⟩ : V3).mag ^ 2 = r ^ 2 := by
      rw [mag_sq, hrho]
      have := sin_sq_add_cos_sq t
      linear_combination r ^ 2 * this
    exact (sq_eq_sq₀ (mag_nonneg _) hr0).mp this
  exact ⟨r * cos t, by rw [hmag]; exact k1, by rw [hmag]; exact k2, h.phi, r, t, hr0, k3, k4, hrho, rfl⟩

end

theorem max_ite (x y : ℝ) : (open Classical in if x > y then x else y) = max x y := by
  split_ifs with h
  · rw [max_eq_left h.le]
  · rw [max_eq_right (not_lt.mp h)]

theorem min_ite (x y : ℝ) : (open Classical in if x < y then x else y) = min x y := by
  split_ifs with h
  · rw [min_eq_left h.le]
  · rw [min_eq_right (not_lt.mp h)]

open Classical in
/-- The extent of a sphere by the extent of the ring that is its shadow. -/
theorem extent_around {a : Par} (hv : a.Valid) (hd : a.d = 2 * π ∨ a.d < 2 * π - angTol * (1 / 2)) :
    extent (of a) =
      (⟨(Tube.extent (Tube.of a.around)).1.x, (Tube.extent (Tube.of a.around)).1.y, (if a.te ≤ π / 2 then a.rmin else a.rmax) * cos a.te⟩,
       ⟨(Tube.extent (Tube.of a.around)).2.x, (Tube.extent (Tube.of a.around)).2.y, (if a.ts ≤ π / 2 then a.rmax else a.rmin) * cos a.ts⟩) := by
  have hp := pi_pos
  have hm : 0 < a.rmax := hv.rmin.trans_lt hv.rmax
  have hang : 0 < angTol := by unfold angTol; norm_num
  have hlt := ts_lt hv
  obtain ⟨sp, f, x, y, e⟩ := of_members hv hd
  have hfull := of_full a
  have hsp : a.d < 2 * π - angTol * (1 / 2) → ∃ k : ℤ, sp = a.s + k * (2 * π) := by
    intro h
    have := of_sPhi hv h
    rwa [e] at this
  rw [e] at hfull
  have hfull' : f = (decide (a.d = 2 * π) && decide (a.ts = 0 ∧ a.te = π)) := hfull
  have hte : a.ts + a.td = a.te := rfl
  have htr : (Tube.of a.around).rmin = a.around.rmin := Tube.of_rmin (around_valid hv).rmin
  have htm : (Tube.of a.around).rmax = a.wide := rfl
  have htd : (Tube.of a.around).dphi = a.d := rfl
  -- the heights
  have hz : ∀ (c : Bool), c = decide (a.ts = 0 ∧ a.te = π) →
      (if (!c) = true then (if a.ts ≤ π / 2 then a.rmax else a.rmin) * cos a.ts else a.rmax) = (if a.ts ≤ π / 2 then a.rmax else a.rmin) * cos a.ts ∧
      (if (!c) = true then (if a.te ≤ π / 2 then a.rmin else a.rmax) * cos a.te else -a.rmax) = (if a.te ≤ π / 2 then a.rmin else a.rmax) * cos a.te ∧
      (if (!c) = true then sin a.ts else 0) = sin a.ts ∧ (if (!c) = true then sin a.te else 0) = sin a.te ∧
      (if (!c) = true then (if a.ts ≤ π / 2 then (if a.te < π / 2 then a.rmax * sin a.te else a.rmax) else a.rmax * sin a.ts) else a.rmax) = a.wide := by
    intro c hc
    by_cases hth : a.ts = 0 ∧ a.te = π
    · rw [decide_eq_true hth] at hc
      rw [hc]
      simp only [Bool.not_true, Bool.false_eq_true, if_false]
      unfold Par.wide
      rw [hth.1, hth.2, if_pos (by positivity), if_neg (by linarith), if_pos (by positivity), if_neg (by linarith)]
      simp
    · rw [decide_eq_false hth] at hc
      rw [hc]
      simp only [Bool.not_false, if_true]
      unfold Par.wide
      simp
  obtain ⟨z1, z2, z3, z4, z5⟩ := hz _ rfl
  by_cases hf : a.d = 2 * π
  · -- all azimuths
    have ht : Tube.extent (Tube.of a.around) = (⟨-a.wide, -a.wide, -1⟩, ⟨a.wide, a.wide, 1⟩) := by
      unfold Tube.extent
      dsimp only
      rw [if_pos (show (Tube.of a.around).dphi = 2 * π ∨ _ from Or.inl hf)]
      rfl
    rw [ht, e]
    unfold extent
    dsimp only
    rw [hfull', decide_eq_true hf]
    by_cases hth : a.ts = 0 ∧ a.te = π
    · rw [decide_eq_true hth]
      simp only [Bool.and_self, if_true]
      rw [← z5, ← z1, ← z2, decide_eq_true hth]
      simp
    · rw [decide_eq_false hth] at z1 z2 z3 z4 z5 ⊢
      simp only [Bool.and_false, Bool.false_eq_true, if_false, Bool.not_true, Bool.not_false, if_true] at z1 z2 z3 z4 z5 ⊢
      rw [hte, z5]
  · have hd' : a.d < 2 * π - angTol * (1 / 2) := hd.resolve_left hf
    obtain ⟨k, hk⟩ := hsp hd'
    have c1 : cos sp = cos a.s := by rw [hk, cos_add_int_mul_two_pi]
    have s1 : sin sp = sin a.s := by rw [hk, sin_add_int_mul_two_pi]
    have c2 : cos (sp + a.d) = cos (a.s + a.d) := by
      rw [hk, show a.s + k * (2 * π) + a.d = a.s + a.d + k * (2 * π) by ring, cos_add_int_mul_two_pi]
    have s2 : sin (sp + a.d) = sin (a.s + a.d) := by
      rw [hk, show a.s + k * (2 * π) + a.d = a.s + a.d + k * (2 * π) by ring, sin_add_int_mul_two_pi]
    have hR : (if a.te < π / 2 then (if a.ts > π / 2 then a.rmax * sin a.ts else a.rmax) * sin a.te else
        if a.ts > π / 2 then a.rmax * sin a.ts else a.rmax) = a.wide := by
      unfold Par.wide
      by_cases q1 : a.ts ≤ π / 2
      · rw [if_neg (not_lt.mpr q1), if_pos q1]
      · rw [if_neg (by linarith), if_pos (not_le.mp q1), if_neg q1]
    rw [e]
    unfold extent Tube.extent Tube.extentSide
    dsimp only
    rw [hfull', decide_eq_false hf]
    simp only [Bool.false_and, Bool.false_eq_true, if_false, Bool.not_false, if_true, c1, s1, c2, s2, hte, z3, z4, htr, htm, htd, hR, hf, false_or, max_ite, min_ite,
      apply_ite V3.z, z1, z2, z5]
    have hre : a.around.rmin = a.rmin * min (sin a.ts) (sin a.te) := rfl
    have hwe : (Tube.of a.around).wedge = Wedge.make a.d a.s := rfl
    have hse : (Tube.of a.around).sphi = a.s := rfl
    rw [hre, hwe, hse]
    generalize (Wedge.make a.d a.s).contains ⟨1 / 2 * (a.wide + a.rmin * min (sin a.ts) (sin a.te)), 0, 0⟩ = b1
    generalize (Wedge.make a.d a.s).contains ⟨0, 1 / 2 * (a.wide + a.rmin * min (sin a.ts) (sin a.te)), 0⟩ = b2
    generalize (Wedge.make a.d a.s).contains ⟨-(1 / 2 * (a.wide + a.rmin * min (sin a.ts) (sin a.te))), 0, 0⟩ = b3
    generalize (Wedge.make a.d a.s).contains ⟨0, -(1 / 2 * (a.wide + a.rmin * min (sin a.ts) (sin a.te))), 0⟩ = b4
    clear hz z1 z2 z3 z4 z5 hR c1 s1 c2 s2 hre hwe hse htr htm htd hfull hfull' e hsp hd hd' hk
    cases b1 <;> cases b2 <;> cases b3 <;> cases b4 <;>
      simp only [Bool.not_true, Bool.not_false, Bool.or_true, Bool.true_or, Bool.or_false, Bool.or_self, Bool.false_eq_true, if_true, if_false, or_true, true_or,
        or_false, or_self, not_true_eq_false, not_false_eq_true] <;>
      by_cases hpi : a.d ≥ π <;> simp only [hpi, if_true, if_false]

section
variable {a : Par} (hv : a.Valid)
include hv

/-- A point of the sphere at given radius and polar angle. -/
theorem corner {r t : ℝ} (h1 : a.rmin ≤ r) (h2 : r ≤ a.rmax) (h3 : a.ts ≤ t) (h4 : t ≤ a.te) :
    a.Closed ⟨r * sin t * cos a.s, r * sin t * sin a.s, r * cos t⟩ := by
  have hr0 : 0 ≤ r := hv.rmin.trans h1
  have hs : 0 ≤ sin t := sin_nonneg_of_nonneg_of_le_pi (hv.ts.trans h3) (h4.trans hv.te)
  have hrho : rho ⟨r * sin t * cos a.s, r * sin t * sin a.s, r * cos t⟩ = r * sin t := by
    unfold rho
    dsimp only
    rw [show (r * sin t * cos a.s) ^ 2 + (r * sin t * sin a.s) ^ 2 = (r * sin t) ^ 2 * (sin a.s ^ 2 + cos a.s ^ 2) by ring, sin_sq_add_cos_sq,
      mul_one, sqrt_sq (mul_nonneg hr0 hs)]
  have hmag : (⟨r * sin t * cos a.s, r * sin t * sin a.s, r * cos t⟩ : V3).mag = r := by
    have : (⟨r * sin t * cos a.s, r * sin t * sin a.s, r * cos t⟩ : V3).mag ^ 2 = r ^ 2 := by
      rw [mag_sq, hrho]
      have := sin_sq_add_cos_sq t
      linear_combination r ^ 2 * this
    exact (sq_eq_sq₀ (mag_nonneg _) hr0).mp this
  refine ⟨by rw [hmag]; exact h1, by rw [hmag]; exact h2, ⟨r * sin t, 0, mul_nonneg hr0 hs, le_refl _, hv.d.le, by rw [add_zero], by rw [add_zero]⟩,
    r, t, hr0, h3, h4, hrho, rfl⟩

/-- C173: `Extent` returns the smallest box around the sphere. -/
theorem C173_extent (hd : a.d = 2 * π ∨ a.d < 2 * π - angTol * (1 / 2)) :
    IsLeast (V3.x '' {p | a.Closed p}) (extent (of a)).1.x ∧ IsGreatest (V3.x '' {p | a.Closed p}) (extent (of a)).2.x ∧
    IsLeast (V3.y '' {p | a.Closed p}) (extent (of a)).1.y ∧ IsGreatest (V3.y '' {p | a.Closed p}) (extent (of a)).2.y ∧
    IsLeast (V3.z '' {p | a.Closed p}) (extent (of a)).1.z ∧ IsGreatest (V3.z '' {p | a.Closed p}) (extent (of a)).2.z := by
  have hp := pi_pos
  have hlt := ts_lt hv
  have h0 := hv.ts
  have h3 := hv.te
  have h := Tube.C81_extent (around_valid hv)
  have ex : V3.x '' {p | a.around.Closed p} = V3.x '' {p | a.Closed p} := by
    ext x; constructor
    · rintro ⟨p, hp, rfl⟩; obtain ⟨z, hz⟩ := around_shadow hv hp; exact ⟨_, hz, rfl⟩
    · rintro ⟨p, hp, rfl⟩; exact ⟨_, closed_around hv hp, rfl⟩
  have ey : V3.y '' {p | a.around.Closed p} = V3.y '' {p | a.Closed p} := by
    ext x; constructor
    · rintro ⟨p, hp, rfl⟩; obtain ⟨z, hz⟩ := around_shadow hv hp; exact ⟨_, hz, rfl⟩
    · rintro ⟨p, hp, rfl⟩; exact ⟨_, closed_around hv hp, rfl⟩
  rw [ex, ey] at h
  rw [extent_around hv hd]
  refine ⟨h.1, h.2.1, h.2.2.1, h.2.2.2.1, ?_, ?_⟩
  · dsimp only
    constructor
    · split_ifs with c
      · exact ⟨_, corner hv (le_refl _) hv.rmax.le hlt.le (le_refl _), rfl⟩
      · exact ⟨_, corner hv hv.rmax.le (le_refl _) hlt.le (le_refl _), rfl⟩
    · rintro _ ⟨p, hp', rfl⟩
      obtain ⟨r, t, g1, g2, g3, g4, g5⟩ := hp'.theta
      have hr : p.mag = r := by
        have : p.mag ^ 2 = r ^ 2 := by
          rw [mag_sq, g4, g5]
          have := sin_sq_add_cos_sq t
          linear_combination r ^ 2 * this
        exact (sq_eq_sq₀ (mag_nonneg p) g1).mp this
      have hlo := hp'.lo
      have hhi := hp'.hi
      rw [hr] at hlo hhi
      have hcos : cos a.te ≤ cos t := cos_le_cos_of_nonneg_of_le_pi (h0.trans g2) h3 g3
      rw [g5]
      split_ifs with c
      · have hc0 : 0 ≤ cos a.te := cos_nonneg_of_neg_pi_div_two_le_of_le (by linarith) c
        exact mul_le_mul hlo hcos hc0 g1
      · have hc0 : cos a.te ≤ 0 := cos_nonpos_of_pi_div_two_le_of_le (by linarith) (by linarith)
        have e1 := mul_le_mul_of_nonneg_left hcos g1
        have e2 := mul_le_mul_of_nonpos_right hhi hc0
        linarith
  · dsimp only
    constructor
    · split_ifs with c
      · exact ⟨_, corner hv hv.rmax.le (le_refl _) (le_refl _) hlt.le, rfl⟩
      · exact ⟨_, corner hv (le_refl _) hv.rmax.le (le_refl _) hlt.le, rfl⟩
    · rintro _ ⟨p, hp', rfl⟩
      obtain ⟨r, t, g1, g2, g3, g4, g5⟩ := hp'.theta
      have hr : p.mag = r := by
        have : p.mag ^ 2 = r ^ 2 := by
          rw [mag_sq, g4, g5]
          have := sin_sq_add_cos_sq t
          linear_combination r ^ 2 * this
        exact (sq_eq_sq₀ (mag_nonneg p) g1).mp this
      have hlo := hp'.lo
      have hhi := hp'.hi
      rw [hr] at hlo hhi
      have hcos : cos t ≤ cos a.ts := cos_le_cos_of_nonneg_of_le_pi h0 (g3.trans h3) g2
      rw [g5]
      split_ifs with c
      · have hc0 : 0 ≤ cos a.ts := cos_nonneg_of_neg_pi_div_two_le_of_le (by linarith) c
        have e1 := mul_le_mul_of_nonneg_left hcos g1
        have e2 := mul_le_mul_of_nonneg_right hhi hc0
        linarith
      · have hc0 : cos a.ts ≤ 0 := cos_nonpos_of_pi_div_two_le_of_le (by linarith) (by linarith)
        have e1 := mul_le_mul_of_nonneg_left hcos g1
        have e2 := mul_le_mul_of_nonpos_right hlo hc0
        linarith

/-- C173: a sphere that is flagged convex is convex. -/
theorem C173_convex (hd : a.d = 2 * π ∨ a.d < 2 * π - angTol * (1 / 2)) (h : isConvex (of a) = true) :
    ∀ p q, a.Closed p → a.Closed q → ∀ t, 0 ≤ t → t ≤ 1 → a.Closed (Tube.between p q t) := by
  have hp := pi_pos
  have hlt := ts_lt hv
  intro p q hcp hcq t t0 t1
  obtain ⟨sp, f, x, y, e⟩ := of_members hv hd
  rw [e] at h
  unfold isConvex at h
  rw [decide_eq_true_iff] at h
  obtain ⟨h0, h⟩ := h
  have h0' : a.rmin = 0 := h0
  -- distances from centre and axis
  have hcs : ∀ x y z u v w : ℝ, x * u + y * v + z * w ≤ √(x ^ 2 + y ^ 2 + z ^ 2) * √(u ^ 2 + v ^ 2 + w ^ 2) := by
    intro x y z u v w
    rw [← sqrt_mul (by positivity)]
    apply le_sqrt_of_sq_le
    nlinarith [sq_nonneg (x * v - y * u), sq_nonneg (x * w - z * u), sq_nonneg (y * w - z * v)]
  have hconv : ∀ x y z u v w : ℝ, √((x + t * (u - x)) ^ 2 + (y + t * (v - y)) ^ 2 + (z + t * (w - z)) ^ 2) ≤
      (1 - t) * √(x ^ 2 + y ^ 2 + z ^ 2) + t * √(u ^ 2 + v ^ 2 + w ^ 2) := by
    intro x y z u v w
    have hA := sqrt_nonneg (x ^ 2 + y ^ 2 + z ^ 2)
    have hB := sqrt_nonneg (u ^ 2 + v ^ 2 + w ^ 2)
    have hA2 := sq_sqrt (show 0 ≤ x ^ 2 + y ^ 2 + z ^ 2 by positivity)
    have hB2 := sq_sqrt (show 0 ≤ u ^ 2 + v ^ 2 + w ^ 2 by positivity)
    have hc := mul_le_mul_of_nonneg_left (hcs x y z u v w) (mul_nonneg t0 (sub_nonneg.mpr t1))
    apply sqrt_le_iff.mpr
    refine ⟨add_nonneg (mul_nonneg (by linarith) hA) (mul_nonneg t0 hB), ?_⟩
    have e1 : ((1 - t) * √(x ^ 2 + y ^ 2 + z ^ 2) + t * √(u ^ 2 + v ^ 2 + w ^ 2)) ^ 2 =
        (1 - t) ^ 2 * (x ^ 2 + y ^ 2 + z ^ 2) + t ^ 2 * (u ^ 2 + v ^ 2 + w ^ 2) +
          2 * (t * (1 - t) * (√(x ^ 2 + y ^ 2 + z ^ 2) * √(u ^ 2 + v ^ 2 + w ^ 2))) := by
      generalize √(x ^ 2 + y ^ 2 + z ^ 2) = A at hA2
      generalize √(u ^ 2 + v ^ 2 + w ^ 2) = B at hB2
      rw [← hA2, ← hB2]
      ring
    rw [e1]
    nlinarith
  have hmag : ∀ p : V3, p.mag = √(p.x ^ 2 + p.y ^ 2 + p.z ^ 2) := by
    intro p
    rw [← sqrt_sq (mag_nonneg p), mag_sq, rho_sq]
  have hm : (Tube.between p q t).mag ≤ a.rmax := by
    have := hconv p.x p.y p.z q.x q.y q.z
    rw [← hmag p, ← hmag q] at this
    rw [hmag]
    refine this.trans ?_
    nlinarith [hcp.hi, hcq.hi]
  have hrho : rho (Tube.between p q t) ≤ (1 - t) * rho p + t * rho q := by
    have := hconv p.x p.y 0 q.x q.y 0
    simp only [sub_self, mul_zero, add_zero, ne_eq, OfNat.ofNat_ne_zero, not_false_eq_true, zero_pow] at this
    exact this
  have hsec : a.d = 2 * π ∨ a.d ≤ π → Sector a.s a.d (Tube.between p q t).x (Tube.between p q t).y := by
    rintro (hf | hf)
    · rw [hf]; exact sector_full _ _ _
    · have hpr := rho_nonneg p
      have hqr := rho_nonneg q
      have hb : (⟨0, rho p + rho q + 1, 1, a.s, a.d⟩ : Tube.Par).Valid :=
        ⟨le_refl _, by show (0 : ℝ) < rho p + rho q + 1; linarith, by show (0 : ℝ) < 1; norm_num, hv.d, hv.d'⟩
      have hcon : Tube.detectConvexity (Tube.of ⟨0, rho p + rho q + 1, 1, a.s, a.d⟩) = true := by
        unfold Tube.detectConvexity
        rw [decide_eq_true_eq, Tube.of_rmin (le_refl _)]
        exact ⟨rfl, Or.inl hf⟩
      exact ((Tube.C81_convex hb).mp hcon ⟨p.x, p.y, 0⟩ ⟨q.x, q.y, 0⟩
        ⟨by show |(0 : ℝ)| ≤ 1; norm_num, hpr, by show rho p ≤ _; linarith, hcp.phi⟩
        ⟨by show |(0 : ℝ)| ≤ 1; norm_num, hqr, by show rho q ≤ _; linarith, hcq.phi⟩ t t0 t1).phi
  have hall : a.ts = 0 → a.te = π → Polar a.ts a.te (Tube.between p q t) := fun h1 h2 => polar_all hv ⟨h1, h2⟩ _
  have hoff : ∀ u : ℝ, 0 ≤ cos u → off u p ≤ 0 → off u q ≤ 0 → off u (Tube.between p q t) ≤ 0 := by
    intro u hu h1 h2
    unfold off at h1 h2 ⊢
    have e1 := mul_le_mul_of_nonneg_right hrho hu
    have ez : (Tube.between p q t).z = (1 - t) * p.z + t * q.z := by unfold Tube.between; ring
    rw [ez]
    have e2 := mul_le_mul_of_nonneg_left h1 (sub_nonneg.mpr t1)
    have e3 := mul_le_mul_of_nonneg_left h2 t0
    linarith
  have hoff' : ∀ u : ℝ, cos u ≤ 0 → 0 ≤ off u p → 0 ≤ off u q → 0 ≤ off u (Tube.between p q t) := by
    intro u hu h1 h2
    unfold off at h1 h2 ⊢
    have e1 := mul_le_mul_of_nonpos_right hrho hu
    have ez : (Tube.between p q t).z = (1 - t) * p.z + t * q.z := by unfold Tube.between; ring
    rw [ez]
    have e2 := mul_le_mul_of_nonneg_left h1 (sub_nonneg.mpr t1)
    have e3 := mul_le_mul_of_nonneg_left h2 t0
    linarith
  have hpo := fun p => polar_iff hv.ts (hlt.trans_le hv.te) (hv.ts.trans_lt hlt) hv.te hlt.le p
  have hno : ∀ p : V3, 0 ≤ off 0 p ∧ off π p ≤ 0 := by
    intro p
    have := rho_nonneg p
    rw [off_zero, off_pi]
    exact ⟨this, by linarith⟩
  refine ⟨by rw [h0']; exact mag_nonneg _, hm, ?_, ?_⟩
  · rcases h with h | h | h | h
    · exact hsec (Or.inl h.1)
    · exact hsec (Or.inr h.1)
    · exact hsec (Or.inl h.1)
    · exact hsec (Or.inl h.1)
  · rcases h with ⟨-, h1, h2⟩ | ⟨-, h1, h2⟩ | ⟨-, h1, h2⟩ | ⟨-, h1, h2⟩
    · exact hall h1 h2
    · exact hall h1 h2
    · have h1' : a.ts = 0 := h1
      have h2' : a.te ≤ π / 2 := h2
      have g1 := (hpo p).mp hcp.theta
      have g2 := (hpo q).mp hcq.theta
      refine (hpo _).mpr ⟨by rw [h1']; exact (hno _).1, ?_⟩
      exact hoff _ (cos_nonneg_of_neg_pi_div_two_le_of_le (by linarith [hv.ts]) h2') g1.2 g2.2
    · have h1' : π / 2 ≤ a.ts := h1
      have h2' : a.te = π := h2
      have g1 := (hpo p).mp hcp.theta
      have g2 := (hpo q).mp hcq.theta
      refine (hpo _).mpr ⟨?_, by rw [h2']; exact (hno _).2⟩
      exact hoff' _ (cos_nonpos_of_pi_div_two_le_of_le h1' (by linarith [hv.te])) g1.1 g2.1

end

/-- The hypotheses are met: a hemisphere is convex. -/
example : ∀ p q, (⟨0, 2, 0, 2 * π, 0, π / 2⟩ : Par).Closed p → (⟨0, 2, 0, 2 * π, 0, π / 2⟩ : Par).Closed q → ∀ t, 0 ≤ t → t ≤ 1 →
    (⟨0, 2, 0, 2 * π, 0, π / 2⟩ : Par).Closed (Tube.between p q t) := by
  have hp := pi_pos
  have hv : (⟨0, 2, 0, 2 * π, 0, π / 2⟩ : Par).Valid :=
    ⟨le_refl _, by norm_num, by positivity, le_refl _, le_refl _, by positivity, by show 0 + π / 2 ≤ π; linarith⟩
  refine C173_convex hv (Or.inl rfl) ?_
  obtain ⟨sp, f, x, y, e⟩ := of_members hv (Or.inl rfl)
  rw [e]
  unfold isConvex
  rw [decide_eq_true_iff]
  exact ⟨rfl, Or.inr (Or.inr (Or.inl ⟨rfl, rfl, by show 0 + π / 2 ≤ π / 2; linarith⟩))⟩

/-- The extent of the upper half of a shell. -/
example : (extent (of ⟨1, 2, 0, 2 * π, 0, π / 2⟩)).1.z = 0 := by
  have hp := pi_pos
  have hv : (⟨1, 2, 0, 2 * π, 0, π / 2⟩ : Par).Valid :=
    ⟨by norm_num, by norm_num, by positivity, le_refl _, le_refl _, by positivity, by show 0 + π / 2 ≤ π; linarith⟩
  rw [extent_around hv (Or.inl rfl)]
  show _ * cos (0 + π / 2) = 0
  rw [zero_add, cos_pi_div_two, mul_zero]

end Sphere
end VecGeom
