import Verif.Sphere.Extent
import Verif.Sphere.Rest

/-!
# Properties of spheres: sampled points
-/

namespace VecGeom
namespace Sphere

open Real

/-- The surface of a sphere: of the solid, the points of the shells, of the cones at the ends of the polar angles and of the faces at the ends
of the azimuths. -/
def Par.OnSurface (a : Par) (p : V3) : Prop :=
  a.Closed p ∧ (p.mag = a.rmax ∨ (0 < a.rmin ∧ p.mag = a.rmin) ∨ (0 < a.ts ∧ Polar a.ts a.ts p) ∨ (a.te < π ∧ Polar a.te a.te p) ∨
    (a.d < 2 * π ∧ (Sector a.s 0 p.x p.y ∨ Sector (a.s + a.d) 0 p.x p.y)))

theorem ring_mem {x y u : ℝ} (hx : 0 ≤ x) (hxy : x < y) (h0 : 0 ≤ u) (h1 : u ≤ 1) : x ≤ radiusInRing x y u ∧ radiusInRing x y u ≤ y := by
  unfold radiusInRing
  rw [if_neg hxy.ne]
  by_cases h : x ≤ 0
  · rw [if_pos h]
    have hu := sqrt_nonneg u
    have hu1 : √u ≤ 1 := sqrt_le_iff.mpr ⟨zero_le_one, by linarith⟩
    constructor
    · exact h.trans (mul_nonneg (by linarith) hu)
    · nlinarith
  · rw [if_neg h]
    have hw : 0 ≤ y * y - x * x := by nlinarith
    have h2 := mul_nonneg h0 hw
    have h3 := mul_le_of_le_one_left hw h1
    constructor
    · apply le_sqrt_of_sq_le
      linarith [sq x]
    · apply sqrt_le_iff.mpr
      exact ⟨by linarith, by linarith [sq y]⟩

section
variable {a : Par} (hv : a.Valid)
include hv

/-- The point with given spherical coordinates. -/
theorem spherical {r t f : ℝ} (h1 : a.rmin ≤ r) (h2 : r ≤ a.rmax) (h3 : a.ts ≤ t) (h4 : t ≤ a.te) (h5 : 0 ≤ f) (h6 : f ≤ a.d) {x y z : ℝ}
    (hx : x = r * sin t * cos (a.s + f)) (hy : y = r * sin t * sin (a.s + f)) (hz : z = r * cos t) :
    a.Closed ⟨x, y, z⟩ ∧ (⟨x, y, z⟩ : V3).mag = r ∧ Polar t t ⟨x, y, z⟩ ∧ Sector (a.s + f) 0 x y := by
  have hr0 : 0 ≤ r := hv.rmin.trans h1
  have hs : 0 ≤ sin t := sin_nonneg_of_nonneg_of_le_pi (hv.ts.trans h3) (h4.trans hv.te)
  have hrho : rho ⟨x, y, z⟩ = r * sin t := by
    unfold rho
    dsimp only
    rw [hx, hy, show (r * sin t * cos (a.s + f)) ^ 2 + (r * sin t * sin (a.s + f)) ^ 2 =
      (r * sin t) ^ 2 * (sin (a.s + f) ^ 2 + cos (a.s + f) ^ 2) by ring, sin_sq_add_cos_sq, mul_one, sqrt_sq (mul_nonneg hr0 hs)]
  have hmag : (⟨x, y, z⟩ : V3).mag = r := by
    have : (⟨x, y, z⟩ : V3).mag ^ 2 = r ^ 2 := by
      rw [mag_sq, hrho]
      show _ + z ^ 2 = _
      rw [hz]
      have := sin_sq_add_cos_sq t
      linear_combination r ^ 2 * this
    exact (sq_eq_sq₀ (mag_nonneg _) hr0).mp this
  refine ⟨⟨by rw [hmag]; exact h1, by rw [hmag]; exact h2, ⟨r * sin t, f, mul_nonneg hr0 hs, h5, h6, hx, hy⟩, r, t, hr0, h3, h4, hrho, hz⟩, hmag,
    ⟨r, t, hr0, le_refl _, le_refl _, hrho, hz⟩, r * sin t, 0, mul_nonneg hr0 hs, le_refl _, le_refl _, ?_, ?_⟩
  · rw [add_zero]; exact hx
  · rw [add_zero]; exact hy

/-- An azimuth drawn between the start and the end. -/
theorem azimuth {sp u : ℝ} (hsp : a.d = 2 * π ∨ ∃ k : ℤ, sp = a.s + k * (2 * π)) (h0 : 0 ≤ u) (h1 : u ≤ 1) :
    ∃ f, 0 ≤ f ∧ f ≤ a.d ∧ cos (sp + (sp + a.d - sp) * u) = cos (a.s + f) ∧ sin (sp + (sp + a.d - sp) * u) = sin (a.s + f) := by
  rcases hsp with h | ⟨k, hk⟩
  · obtain ⟨r, f, h2, h3, h4, h5, h6⟩ := sector_full a.s (cos (sp + (sp + a.d - sp) * u)) (sin (sp + (sp + a.d - sp) * u))
    have hr : r = 1 := by
      have e1 := sin_sq_add_cos_sq (sp + (sp + a.d - sp) * u)
      have e2 := sin_sq_add_cos_sq (a.s + f)
      rw [h5, h6] at e1
      have : r ^ 2 = 1 := by linear_combination e1 - r ^ 2 * e2
      nlinarith
    rw [hr, one_mul] at h5 h6
    exact ⟨f, h3, by rw [h]; exact h4, h5, h6⟩
  · have hd := hv.d
    refine ⟨a.d * u, mul_nonneg hd.le h0, by nlinarith, ?_, ?_⟩
    · rw [hk, show a.s + k * (2 * π) + (a.s + k * (2 * π) + a.d - (a.s + k * (2 * π))) * u = a.s + a.d * u + k * (2 * π) by ring,
        cos_add_int_mul_two_pi]
    · rw [hk, show a.s + k * (2 * π) + (a.s + k * (2 * π) + a.d - (a.s + k * (2 * π))) * u = a.s + a.d * u + k * (2 * π) by ring,
        sin_add_int_mul_two_pi]

/-- C174: every sampled point is on the surface. -/
theorem C174_sample (hd : a.d = 2 * π ∨ a.d < 2 * π - angTol * (1 / 2)) {u1 u2 u3 u4 u5 : ℝ} (h1 : 0 ≤ u1 ∧ u1 ≤ 1) (h2 : 0 ≤ u2 ∧ u2 ≤ 1)
    (h3 : 0 ≤ u3 ∧ u3 ≤ 1) (h4 : 0 ≤ u4 ∧ u4 < 1) (h5 : 0 ≤ u5 ∧ u5 ≤ 1) : a.OnSurface (sample (of a) u1 u2 u3 u4 u5) := by
  classical
  have hp := pi_pos
  have hang : 0 < angTol := by unfold angTol; norm_num
  have hlt := ts_lt hv
  have hm : 0 < a.rmax := hv.rmin.trans_lt hv.rmax
  have g0 := hv.ts
  have g1 := hv.te
  obtain ⟨sp, f, x, y, e⟩ := of_members hv hd
  have hsp : a.d = 2 * π ∨ ∃ k : ℤ, sp = a.s + k * (2 * π) := by
    rcases hd with h | h
    · exact Or.inl h
    · right
      have := of_sPhi hv h
      rwa [e] at this
  obtain ⟨φ, f1, f2, f3, f4⟩ := azimuth hv hsp h2.1 h2.2
  obtain ⟨r1, r2⟩ := ring_mem hv.rmin hv.rmax h1.1 h1.2
  -- the drawn polar angle
  have hcos : cos a.te < cos a.ts := cos_lt_cos_of_nonneg_of_le_pi g0 g1 hlt
  obtain ⟨t, t1, t2, t3, t4⟩ : ∃ t, a.ts ≤ t ∧ t ≤ a.te ∧ cos a.te + (cos a.ts - cos a.te) * u3 = cos t ∧
      √(1 - (cos a.te + (cos a.ts - cos a.te) * u3) * (cos a.te + (cos a.ts - cos a.te) * u3)) = sin t := by
    have c1 : cos a.te ≤ cos a.te + (cos a.ts - cos a.te) * u3 := by nlinarith [h3.1]
    have c2 : cos a.te + (cos a.ts - cos a.te) * u3 ≤ cos a.ts := by nlinarith [h3.2]
    refine ⟨arccos (cos a.te + (cos a.ts - cos a.te) * u3), ?_, ?_, ?_, ?_⟩
    · have := arccos_le_arccos c2
      rwa [arccos_cos g0 (by linarith)] at this
    · have := arccos_le_arccos c1
      rwa [arccos_cos (by linarith) g1] at this
    · rw [cos_arccos ((neg_one_le_cos _).trans c1) (c2.trans (cos_le_one _))]
    · rw [sin_arccos, sq]
  have hz : ∀ w : ℝ, 0 ≤ (1 - u5) * a.rmin + u5 * a.rmax ∧ a.rmin ≤ (1 - u5) * a.rmin + u5 * a.rmax ∧ (1 - u5) * a.rmin + u5 * a.rmax ≤ a.rmax ∧
      a.rmin * w + (a.rmax * w - a.rmin * w) * u5 = ((1 - u5) * a.rmin + u5 * a.rmax) * w := by
    intro w
    have hr := hv.rmin
    have hr' := hv.rmax
    refine ⟨add_nonneg (mul_nonneg (by linarith) hr) (mul_nonneg h5.1 hm.le), by nlinarith, by nlinarith, by ring⟩
  unfold sample
  simp only []
  have hw : ∀ w, weights (of a) = w → 0 ≤ w.one ∧ 0 ≤ w.two ∧ 0 ≤ w.thr ∧ 0 ≤ w.fou ∧ 0 ≤ w.fiv ∧ (a.rmin = 0 → w.two = 0) ∧
      (a.ts = 0 → w.thr = 0) ∧ (a.te = π → w.fou = 0) ∧ (a.d = 2 * π → w.fiv = 0) ∧ 0 < w.one := by
    rintro w rfl
    rw [e]
    unfold weights
    dsimp only
    have hss := sin_ts hv
    have hse := sin_te hv
    have hr := hv.rmin
    have hr' := hv.rmax
    have hd0 := hv.d
    have hdc : 0 < cos a.ts - cos a.te := by linarith
    have hsq : 0 ≤ a.rmax * a.rmax - a.rmin * a.rmin := by nlinarith
    have htd := hv.td
    have hone : 0 < a.rmax * a.rmax * a.d * (cos a.ts - cos a.te) := by positivity
    refine ⟨hone.le, by positivity, ?_, ?_, ?_, ?_, ?_, ?_, ?_, hone⟩
    · split_ifs
      · exact mul_nonneg hp.le hsq
      · exact le_refl _
      · exact mul_nonneg (mul_nonneg hd0.le (mul_nonneg (by linarith) hss)) (sqrt_nonneg _)
    · split_ifs
      · exact mul_nonneg hp.le hsq
      · exact le_refl _
      · exact mul_nonneg (mul_nonneg hd0.le (mul_nonneg (by linarith) hse)) (sqrt_nonneg _)
    · split_ifs
      · exact le_refl _
      · exact mul_nonneg (by linarith) hsq
    · intro h; rw [h]; ring
    · intro h; rw [if_neg (by linarith), if_pos h]
    · intro h; rw [if_neg (by linarith), if_pos h]
    · intro h; rw [decide_eq_true h]; rfl
  generalize hwe : weights (of a) = w
  obtain ⟨w1, w2, w3, w4, w5, w6, w7, w8, w9, w10⟩ := hw w hwe
  clear hw hwe
  rw [e]
  dsimp only
  rw [t3] at t4 ⊢
  rw [t4, f3, f4]
  generalize hch : (w.one + w.two + w.thr + w.fou + 2 * w.fiv) * u4 = c
  have hc0 : 0 ≤ c := by rw [← hch]; exact mul_nonneg (by linarith) h4.1
  have hc1 : c < w.one + w.two + w.thr + w.fou + 2 * w.fiv := by rw [← hch]; nlinarith [h4.2]
  by_cases k1 : c ≥ 0 ∧ c < w.one
  · rw [if_pos k1]
    have := spherical hv hv.rmax.le (le_refl _) t1 t2 f1 f2 rfl rfl rfl
    exact ⟨this.1, Or.inl this.2.1⟩
  rw [if_neg k1]
  have k1' : w.one ≤ c := by
    by_contra h
    exact k1 ⟨hc0, not_le.mp h⟩
  by_cases k2 : c ≥ w.one ∧ c < w.one + w.two
  · rw [if_pos k2]
    have := spherical hv (le_refl _) hv.rmax.le t1 t2 f1 f2 rfl rfl rfl
    refine ⟨this.1, Or.inr (Or.inl ⟨lt_of_le_of_ne hv.rmin (fun h => ?_), this.2.1⟩)⟩
    have := w6 h.symm
    linarith [k2.2]
  rw [if_neg k2]
  have k2' : w.one + w.two ≤ c := by
    by_contra h
    exact k2 ⟨k1', not_le.mp h⟩
  by_cases k3 : c ≥ w.one + w.two ∧ c < w.one + w.two + w.thr
  · rw [if_pos k3]
    have hts : 0 < a.ts := lt_of_le_of_ne g0 (fun h => by
      have := w7 h.symm
      linarith [k3.2])
    by_cases hh : a.ts ≠ π / 2
    · rw [if_pos hh]
      obtain ⟨z0, z1, z2, z3⟩ := hz (cos a.ts)
      have hcne : cos a.ts ≠ 0 := by
        intro hc
        exact hh (injOn_cos ⟨g0, by linarith⟩ ⟨by linarith, by linarith⟩ (by rw [hc, cos_pi_div_two]))
      rw [z3]
      have := spherical hv z1 z2 (le_refl _) hlt.le f1 f2 (show sin a.ts / cos a.ts * (((1 - u5) * a.rmin + u5 * a.rmax) * cos a.ts) * cos (a.s + φ) = _ by
        field_simp) (show sin a.ts / cos a.ts * (((1 - u5) * a.rmin + u5 * a.rmax) * cos a.ts) * sin (a.s + φ) = _ by field_simp) rfl
      exact ⟨this.1, Or.inr (Or.inr (Or.inl ⟨hts, this.2.2.1⟩))⟩
    · rw [if_neg hh]
      have hh' := not_not.mp hh
      have := spherical hv r1 r2 (le_refl a.ts) hlt.le f1 f2 (show radiusInRing a.rmin a.rmax u1 * cos (a.s + φ) = _ by
        rw [hh', sin_pi_div_two, mul_one]) (show radiusInRing a.rmin a.rmax u1 * sin (a.s + φ) = _ by rw [hh', sin_pi_div_two, mul_one])
        (show (0 : ℝ) = _ by rw [hh', cos_pi_div_two, mul_zero])
      exact ⟨this.1, Or.inr (Or.inr (Or.inl ⟨hts, this.2.2.1⟩))⟩
  rw [if_neg k3]
  have k3' : w.one + w.two + w.thr ≤ c := by
    by_contra h
    exact k3 ⟨k2', not_le.mp h⟩
  by_cases k4 : c ≥ w.one + w.two + w.thr ∧ c < w.one + w.two + w.thr + w.fou
  · rw [if_pos k4]
    have hte : a.te < π := lt_of_le_of_ne g1 (fun h => by
      have := w8 h
      linarith [k4.2])
    by_cases hh : a.te ≠ π / 2
    · rw [if_pos hh]
      obtain ⟨z0, z1, z2, z3⟩ := hz (cos a.te)
      have hcne : cos a.te ≠ 0 := by
        intro hc
        exact hh (injOn_cos ⟨by linarith, g1⟩ ⟨by linarith, by linarith⟩ (by rw [hc, cos_pi_div_two]))
      rw [z3]
      have := spherical hv z1 z2 hlt.le (le_refl _) f1 f2 (show sin a.te / cos a.te * (((1 - u5) * a.rmin + u5 * a.rmax) * cos a.te) * cos (a.s + φ) = _ by
        field_simp) (show sin a.te / cos a.te * (((1 - u5) * a.rmin + u5 * a.rmax) * cos a.te) * sin (a.s + φ) = _ by field_simp) rfl
      exact ⟨this.1, Or.inr (Or.inr (Or.inr (Or.inl ⟨hte, this.2.2.1⟩)))⟩
    · rw [if_neg hh]
      have hh' := not_not.mp hh
      have := spherical hv r1 r2 hlt.le (le_refl a.te) f1 f2 (show radiusInRing a.rmin a.rmax u1 * cos (a.s + φ) = _ by
        rw [hh', sin_pi_div_two, mul_one]) (show radiusInRing a.rmin a.rmax u1 * sin (a.s + φ) = _ by rw [hh', sin_pi_div_two, mul_one])
        (show (0 : ℝ) = _ by rw [hh', cos_pi_div_two, mul_zero])
      exact ⟨this.1, Or.inr (Or.inr (Or.inr (Or.inl ⟨hte, this.2.2.1⟩)))⟩
  rw [if_neg k4]
  have k4' : w.one + w.two + w.thr + w.fou ≤ c := by
    by_contra h
    exact k4 ⟨k3', not_le.mp h⟩
  have hnf : a.d ≠ 2 * π := fun h => by
    have := w9 h
    linarith
  have hd2 : a.d < 2 * π := lt_of_le_of_ne hv.d' hnf
  obtain ⟨k, hk⟩ := hsp.resolve_left hnf
  by_cases k5 : c ≥ w.one + w.two + w.thr + w.fou ∧ c < w.one + w.two + w.thr + w.fou + w.fiv
  · rw [if_pos k5]
    have := spherical hv r1 r2 t1 t2 (le_refl 0) hv.d.le (show radiusInRing a.rmin a.rmax u1 * sin t * cos sp = _ by
      rw [hk, cos_add_int_mul_two_pi, add_zero]) (show radiusInRing a.rmin a.rmax u1 * sin t * sin sp = _ by
      rw [hk, sin_add_int_mul_two_pi, add_zero]) rfl
    refine ⟨this.1, Or.inr (Or.inr (Or.inr (Or.inr ⟨hd2, Or.inl ?_⟩)))⟩
    have h := this.2.2.2
    rwa [add_zero] at h
  · rw [if_neg k5]
    have := spherical hv r1 r2 t1 t2 hv.d.le (le_refl a.d) (show radiusInRing a.rmin a.rmax u1 * sin t * cos (sp + a.d) = _ by
      rw [hk, show a.s + k * (2 * π) + a.d = a.s + a.d + k * (2 * π) by ring, cos_add_int_mul_two_pi])
      (show radiusInRing a.rmin a.rmax u1 * sin t * sin (sp + a.d) = _ by
      rw [hk, show a.s + k * (2 * π) + a.d = a.s + a.d + k * (2 * π) by ring, sin_add_int_mul_two_pi]) rfl
    exact ⟨this.1, Or.inr (Or.inr (Or.inr (Or.inr ⟨hd2, Or.inr this.2.2.2⟩)))⟩

/-- C174: the chance of the shells against one another is that of their areas, but a cone counts twice. -/
theorem C174_weights (hd : a.d = 2 * π ∨ a.d < 2 * π - angTol * (1 / 2)) :
    (weights (of a)).one = a.d * a.rmax ^ 2 * (cos a.ts - cos a.te) ∧ (weights (of a)).two = a.d * a.rmin ^ 2 * (cos a.ts - cos a.te) ∧
    (a.ts ≠ 0 → a.ts ≠ π / 2 → (weights (of a)).thr = 2 * (a.d * sin a.ts / 2 * (a.rmax ^ 2 - a.rmin ^ 2))) ∧
    (a.te ≠ π → a.te ≠ π / 2 → (weights (of a)).fou = 2 * (a.d * sin a.te / 2 * (a.rmax ^ 2 - a.rmin ^ 2))) ∧
    (a.d < 2 * π → (weights (of a)).fiv = a.td / 2 * (a.rmax ^ 2 - a.rmin ^ 2)) := by
  classical
  obtain ⟨sp, f, x, y, e⟩ := of_members hv hd
  have hr := hv.rmax
  have hsl : ∀ t, √((a.rmax - a.rmin) * sin t * ((a.rmax - a.rmin) * sin t) + (a.rmax - a.rmin) * cos t * ((a.rmax - a.rmin) * cos t)) = a.rmax - a.rmin := by
    intro t
    rw [show (a.rmax - a.rmin) * sin t * ((a.rmax - a.rmin) * sin t) + (a.rmax - a.rmin) * cos t * ((a.rmax - a.rmin) * cos t) =
      (a.rmax - a.rmin) ^ 2 * (sin t ^ 2 + cos t ^ 2) by ring, sin_sq_add_cos_sq, mul_one, sqrt_sq (by linarith)]
  rw [e]
  unfold weights
  dsimp only
  refine ⟨by ring, by ring, ?_, ?_, ?_⟩
  · intro h1 h2
    rw [if_neg h2, if_neg h1, hsl]; ring
  · intro h1 h2
    rw [if_neg h2, if_neg h1, hsl]; ring
  · intro h
    rw [decide_eq_false h.ne]
    simp only [Bool.false_eq_true, if_false]
    ring

end

/-- The hypotheses are met: a sample of a quarter of a shell. -/
example : (⟨1, 2, 0, π, 0, π / 2⟩ : Par).OnSurface (sample (of ⟨1, 2, 0, π, 0, π / 2⟩) 0 0 0 0 0) := by
  have hp := pi_gt_three
  refine C174_sample ⟨by norm_num, by norm_num, by positivity, by show π ≤ 2 * π; linarith, le_refl _, by positivity,
    by show 0 + π / 2 ≤ π; linarith⟩ (Or.inr ?_) ⟨le_refl _, zero_le_one⟩ ⟨le_refl _, zero_le_one⟩ ⟨le_refl _, zero_le_one⟩ ⟨le_refl _, zero_lt_one⟩
    ⟨le_refl _, zero_le_one⟩
  show π < 2 * π - angTol * (1 / 2)
  unfold angTol; linarith

/-- C174 fails for the chances: half of a half ball has its flat side chosen as if it were whole. -/
theorem C174_flat_counterexample : (weights (of ⟨0, 1, 0, π, 0, π / 2⟩)).fou = π ∧
    π * sin (π / 2) / 2 * ((1 : ℝ) ^ 2 - 0 ^ 2) = π / 2 := by
  classical
  have hp := pi_gt_three
  have hv : (⟨0, 1, 0, π, 0, π / 2⟩ : Par).Valid := ⟨by norm_num, by norm_num, by positivity, by show π ≤ 2 * π; linarith, le_refl _, by positivity,
    by show 0 + π / 2 ≤ π; linarith⟩
  have hd : (⟨0, 1, 0, π, 0, π / 2⟩ : Par).d < 2 * π - angTol * (1 / 2) := by
    show π < 2 * π - angTol * (1 / 2)
    unfold angTol; linarith
  obtain ⟨sp, f, x, y, e⟩ := of_members hv (Or.inr hd)
  constructor
  · rw [e]
    unfold weights
    dsimp only
    rw [if_pos (show (⟨0, 1, 0, π, 0, π / 2⟩ : Par).te = π / 2 by show 0 + π / 2 = π / 2; ring)]
    ring
  · rw [sin_pi_div_two]; ring

end Sphere
end VecGeom
