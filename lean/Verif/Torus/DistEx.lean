import Verif.Torus.DistIn

/-!
# Rays of tori: examples and counterexamples
-/

namespace VecGeom
namespace Torus

open Real

/-- A vertical ray. -/
theorem clear_vertical (a : Par) (r x z : ℝ) : Clear (qa ⟨x, 0, z⟩ ⟨0, 0, 1⟩) (qb (of a) r ⟨x, 0, z⟩ ⟨0, 0, 1⟩) (qc (of a) r ⟨x, 0, z⟩ ⟨0, 0, 1⟩)
    (qd (of a) r ⟨x, 0, z⟩) := by
  left
  unfold coefF qa qb qc rdotn r0sq rsumsq
  show 4 * ((x * x + 0 * 0 + z * z) * (x * 0 + 0 * 0 + z * 1) - (a.rtor * a.rtor + r * r) * (x * 0 + 0 * 0 + z * 1) + 2 * (a.rtor * a.rtor) * z * 1) + _ - _ = 0
  show 4 * ((x * x + 0 * 0 + z * z) * (x * 0 + 0 * 0 + z * 1) - (a.rtor * a.rtor + r * r) * (x * 0 + 0 * 0 + z * 1) + 2 * (a.rtor * a.rtor) * z * 1) +
    4 * (x * 0 + 0 * 0 + z * 1) * (4 * (x * 0 + 0 * 0 + z * 1)) * (4 * (x * 0 + 0 * 0 + z * 1)) / 8 - 0.5 * (4 * (x * 0 + 0 * 0 + z * 1)) *
    (2 * (x * x + 0 * 0 + z * z + 2 * (x * 0 + 0 * 0 + z * 1) * (x * 0 + 0 * 0 + z * 1) - (a.rtor * a.rtor + r * r) + 2 * (a.rtor * a.rtor) * 1 * 1)) = 0
  ring

theorem at_vertical (x z t : ℝ) : V3.at' ⟨x, 0, z⟩ ⟨0, 0, 1⟩ t = ⟨x, 0, z + t⟩ := by
  apply V3.ext <;> simp

theorem ray_ring {x z : ℝ} (hx : 0 ≤ x) (hx' : x ≤ 7) (hz : |z| ≤ 2) : Ray ring ⟨x, 0, z⟩ ⟨0, 0, 1⟩ where
  valid := ring_valid
  full := rfl
  hole := by show (2 : ℝ) + kHalfTolerance ≤ 5; unfold kHalfTolerance kTolerance; norm_num
  thick := by show kTolerance ≤ 2 - 1; unfold kTolerance; norm_num
  unit := by norm_num [V3.mag2, V3.dot]
  outer := ⟨fun h => by have := h.1; norm_num at this, clear_vertical _ _ _ _⟩
  inner := fun _ => ⟨fun h => by have := h.1; norm_num at this, clear_vertical _ _ _ _⟩
  size := by
    show V3.mag ⟨x, 0, z⟩ + 5 + 2 < kInfLength
    have : V3.mag ⟨x, 0, z⟩ ≤ 100 := by
      unfold V3.mag
      rw [Real.sqrt_le_iff]
      refine ⟨by norm_num, ?_⟩
      show x * x + 0 * 0 + z * z ≤ 100 ^ 2
      obtain ⟨h1, h2⟩ := abs_le.mp hz
      nlinarith
    linarith [kInfLength_large]

theorem rad_of {x : ℝ} (hx : 0 ≤ x) (z : ℝ) : Tube.rad ⟨x, 0, z⟩ = x := by
  unfold Tube.rad
  show √(x ^ 2 + 0 ^ 2) = x
  rw [show x ^ 2 + (0 : ℝ) ^ 2 = x ^ 2 by ring, sqrt_sq hx]

/-- The theorems on `DistanceToOut` apply to the vertical ray from (6.5, 0, 0) in the ring, and the distance is a number. -/
example : Ray ring ⟨6.5, 0, 0⟩ ⟨0, 0, 1⟩ ∧ ring.Closed ⟨6.5, 0, 0⟩ ∧ ∃ s, distanceToOut (of ring) ⟨6.5, 0, 0⟩ ⟨0, 0, 1⟩ = some s := by
  have hray : Ray ring ⟨6.5, 0, 0⟩ ⟨0, 0, 1⟩ := ray_ring (by norm_num) (by norm_num) (by norm_num)
  have hno : ∀ r s : ℝ, r = 2 ∨ r = 1 → ¬ Touches ring r ⟨6.5, 0, 0⟩ ⟨0, 0, 1⟩ s := by
    rintro r s hr ⟨h1, h2⟩
    rw [at_vertical] at h1 h2
    have hs : s = 0 := by
      have h2 : (6.5 : ℝ) * 0 + 0 * 0 + (0 + s) * 1 = 5 * (6.5 * 0 + 0 * 0) / _ := h2
      norm_num at h2
      exact h2
    have := ringDist_sq ring.rtor ⟨6.5, 0, 0 + s⟩
    rw [h1, rad_of (by norm_num), hs] at this
    have : r ^ 2 = (6.5 - 5) ^ 2 + (0 + 0) ^ 2 := this
    rcases hr with e | e <;> rw [e] at this <;> norm_num at this
  refine ⟨hray, ⟨?_, ?_, sector_full _ _ _⟩, C184_defined hray (fun s => hno 2 s (Or.inl rfl)) (fun _ s => hno 1 s (Or.inr rfl))⟩
  · have h2 := ringDist_sq ring.rtor ⟨6.5, 0, 0⟩
    rw [rad_of (by norm_num)] at h2
    have h2 : ringDist ring.rtor ⟨6.5, 0, 0⟩ ^ 2 = (6.5 - 5) ^ 2 + 0 ^ 2 := h2
    show (1 : ℝ) ≤ _
    nlinarith [ringDist_nonneg ring.rtor ⟨6.5, 0, 0⟩]
  · have h2 := ringDist_sq ring.rtor ⟨6.5, 0, 0⟩
    rw [rad_of (by norm_num)] at h2
    have h2 : ringDist ring.rtor ⟨6.5, 0, 0⟩ ^ 2 = (6.5 - 5) ^ 2 + 0 ^ 2 := h2
    show _ ≤ (2 : ℝ)
    nlinarith [ringDist_nonneg ring.rtor ⟨6.5, 0, 0⟩]

/-- The theorem on `DistanceToIn` applies to the vertical ray from (6.9, 0, -1.9), a corner of the bounding tube. -/
example : Ray ring ⟨6.9, 0, -1.9⟩ ⟨0, 0, 1⟩ ∧ |(-1.9 : ℝ)| ≤ ring.rmax ∧ ring.rtor - ring.rmax ≤ Tube.rad ⟨6.9, 0, -1.9⟩ ∧
    Tube.rad ⟨6.9, 0, -1.9⟩ ≤ ring.rtor + ring.rmax ∧ ring.rmax ≤ ringDist ring.rtor ⟨6.9, 0, -1.9⟩ := by
  have e : |(-1.9 : ℝ)| = 1.9 := by rw [abs_of_neg (by norm_num)]; norm_num
  refine ⟨ray_ring (by norm_num) (by norm_num) (by rw [e]; norm_num), ?_, ?_, ?_, ?_⟩
  · rw [e]; show (1.9 : ℝ) ≤ 2; norm_num
  · rw [rad_of (by norm_num)]; show (5 : ℝ) - 2 ≤ 6.9; norm_num
  · rw [rad_of (by norm_num)]; show (6.9 : ℝ) ≤ 5 + 2; norm_num
  · have h2 := ringDist_sq ring.rtor ⟨6.9, 0, -1.9⟩
    rw [rad_of (by norm_num)] at h2
    have h2 : ringDist ring.rtor ⟨6.9, 0, -1.9⟩ ^ 2 = (6.9 - 5) ^ 2 + (-1.9) ^ 2 := h2
    show (2 : ℝ) ≤ _
    nlinarith [ringDist_nonneg ring.rtor ⟨6.9, 0, -1.9⟩]

/-- C184, finding: if the ray touches the inner tube, then the refinement of the solution divides zero by zero: the distance is not a
number, although the ray leaves the torus through the outer tube. -/
theorem C184_touch_counterexample :
    Ray ring ⟨6, 0, -1.5⟩ ⟨0, 0, 1⟩ ∧ ring.Closed ⟨6, 0, -1.5⟩ ∧ distanceToOut (of ring) ⟨6, 0, -1.5⟩ ⟨0, 0, 1⟩ = none := by
  have e : |(-1.5 : ℝ)| = 1.5 := by rw [abs_of_neg (by norm_num)]; norm_num
  have hray : Ray ring ⟨6, 0, -1.5⟩ ⟨0, 0, 1⟩ := ray_ring (by norm_num) (by norm_num) (by rw [e]; norm_num)
  have h2 := ringDist_sq ring.rtor ⟨6, 0, -1.5⟩
  rw [rad_of (by norm_num)] at h2
  have h2 : ringDist ring.rtor ⟨6, 0, -1.5⟩ ^ 2 = (6 - 5) ^ 2 + (-1.5) ^ 2 := h2
  have h0 := ringDist_nonneg ring.rtor ⟨6, 0, -1.5⟩
  have hcl : ring.Closed ⟨6, 0, -1.5⟩ := ⟨by show (1 : ℝ) ≤ _; nlinarith, by show _ ≤ (2 : ℝ); nlinarith, sector_full _ _ _⟩
  refine ⟨hray, hcl, ?_⟩
  obtain ⟨n1, n2⟩ := not_far hray.valid hray.hole hcl
  -- the only solution for the inner tube is a double one
  have hreg := hray.inner (by show (0 : ℝ) < 1; norm_num)
  have hR : (1 : ℝ) < ring.rtor := by show (1 : ℝ) < 5; norm_num
  have hroot : ∀ s, quartic ring 1 ⟨6, 0, -1.5⟩ ⟨0, 0, 1⟩ s = 0 ↔ s = 1.5 := by
    intro s
    rw [(C183_equation (by norm_num) hR _ hray.unit s).1, at_vertical]
    have h2 := ringDist_sq ring.rtor ⟨6, 0, -1.5 + s⟩
    rw [rad_of (by norm_num)] at h2
    have h2 : ringDist ring.rtor ⟨6, 0, -1.5 + s⟩ ^ 2 = (6 - 5) ^ 2 + (-1.5 + s) ^ 2 := h2
    have h0 := ringDist_nonneg ring.rtor ⟨6, 0, -1.5 + s⟩
    constructor
    · intro h
      rw [h] at h2
      nlinarith [sq_nonneg (-1.5 + s)]
    · intro h
      rw [h] at h2 h0 ⊢
      nlinarith
  have htouch : slope4 ring 1 ⟨6, 0, -1.5⟩ ⟨0, 0, 1⟩ 1.5 = 0 := by
    refine ((touches_iff (by norm_num) hR hray.unit 1.5).mp ⟨(C183_equation (by norm_num) hR _ hray.unit 1.5).1.mp ((hroot _).mpr rfl), ?_⟩).2
    rw [at_vertical]
    show (6 : ℝ) * 0 + 0 * 0 + (-1.5 + 1.5) * 1 = 5 * (6 * 0 + 0 * 0) / _
    norm_num
  obtain ⟨-, hme⟩ := C182_quartic_partial hreg.clear (fun x hx => by
    have : quartic ring 1 ⟨6, 0, -1.5⟩ ⟨0, 0, 1⟩ x = 0 := hx
    rw [(hroot x).mp this]
    linarith [kInfLength_large])
  have hb : toBoundary (of ring) ⟨6, 0, -1.5⟩ ⟨0, 0, 1⟩ 1 true = none := by
    unfold toBoundary
    have hst : ¬ Special 1 ⟨6, 0, -1.5⟩ ⟨0, 0, 1⟩ := hreg.steep
    simp only [if_neg hst]
    set n := solveQuartic (qa ⟨6, 0, -1.5⟩ ⟨0, 0, 1⟩) (qb (of ring) 1 ⟨6, 0, -1.5⟩ ⟨0, 0, 1⟩) (qc (of ring) 1 ⟨6, 0, -1.5⟩ ⟨0, 0, 1⟩)
      (qd (of ring) 1 ⟨6, 0, -1.5⟩) infs with hn
    have hme : ∀ x, x ∈ n.2.toList.take n.1 ↔ quartic ring 1 ⟨6, 0, -1.5⟩ ⟨0, 0, 1⟩ x = 0 := hme
    have hmem := (hme 1.5).mpr ((hroot _).mpr rfl)
    rw [if_neg (fun e => by rw [e] at hmem; simp at hmem)]
    cases hl : n.2.toList.take n.1 with
    | nil => rw [hl] at hmem; simp at hmem
    | cons x l =>
      have hx : x = 1.5 := (hroot x).mp ((hme x).mp (by rw [hl]; simp))
      have hz := (hroot 1.5).mpr rfl
      have hx0 : (1.5 : ℝ) * 1.5 * 1.5 * 1.5 + qa ⟨6, 0, -1.5⟩ ⟨0, 0, 1⟩ * 1.5 * 1.5 * 1.5 + qb (of ring) 1 ⟨6, 0, -1.5⟩ ⟨0, 0, 1⟩ * 1.5 * 1.5 +
          qc (of ring) 1 ⟨6, 0, -1.5⟩ ⟨0, 0, 1⟩ * 1.5 + qd (of ring) 1 ⟨6, 0, -1.5⟩ = 0 := by
        have hz := hz
        unfold quartic at hz
        linear_combination hz
      obtain ⟨hsl, hρ⟩ := slope_ndotd (by norm_num) hR _ hray.unit hz
      rw [htouch] at hsl
      have hnd : ndotd (of ring) (V3.at' ⟨6, 0, -1.5⟩ ⟨0, 0, 1⟩ 1.5) ⟨0, 0, 1⟩ = 0 := by
        have h8 : (8 : ℝ) * ring.rtor * Tube.rad (V3.at' ⟨6, 0, -1.5⟩ ⟨0, 0, 1⟩ 1.5) ≠ 0 := by
          have : (0 : ℝ) < ring.rtor := by show (0 : ℝ) < 5; norm_num
          positivity
        exact (mul_eq_zero.mp hsl.symm).resolve_left h8
      unfold scan
      simp only [hx]
      rw [if_neg (by norm_num), hnd, if_neg (fun e => by
        have := e.2
        split at this <;> exact lt_irrefl _ this), if_neg (fun e => by
        have : (2 : ℝ) * π < 2 * π := e.1
        exact lt_irrefl _ this), newton_double hx0 htouch]
  have hin : innerBoundary (of ring) ⟨6, 0, -1.5⟩ ⟨0, 0, 1⟩ true = none := by
    unfold innerBoundary
    show (if (1 : ℝ) > 0 then toBoundary (of ring) ⟨6, 0, -1.5⟩ ⟨0, 0, 1⟩ 1 true else some kInfLength) = none
    rw [if_pos (by norm_num), hb]
  unfold distanceToOut
  rw [if_neg n1, if_neg n2, hin]
  cases toBoundary (of ring) ⟨6, 0, -1.5⟩ ⟨0, 0, 1⟩ (of ring).rmax true <;> rfl

/-! ### A sector of more than a half turn -/

/-- Three quarters of a solid torus. -/
noncomputable def bend : Par := ⟨0, 2, 5, 0, 3 * π / 2⟩

theorem bend_valid : bend.Valid := ⟨le_refl _, by show (0 : ℝ) < 2; norm_num, by show (0 : ℝ) ≤ 5; norm_num,
  by show 0 < 3 * π / 2; positivity, by show 3 * π / 2 ≤ 2 * π; linarith [pi_pos]⟩

theorem trig_end : cos (0 + 3 * π / 2) = 0 ∧ sin (0 + 3 * π / 2) = -1 := by
  have e : 0 + 3 * π / 2 = π / 2 + π := by ring
  rw [e, cos_add_pi, sin_add_pi, cos_pi_div_two, sin_pi_div_two]
  norm_num

theorem bend_sector (x y : ℝ) : Sector 0 (3 * π / 2) x y ↔ 0 ≤ y ∨ x ≤ 0 := by
  rw [sector_big (by linarith [pi_pos]) (by linarith [pi_pos]), trig_end.1, trig_end.2, cos_zero, sin_zero]
  constructor
  · rintro (h | h)
    · left; linarith
    · right; linarith
  · rintro (h | h)
    · left; linarith
    · right; linarith

/-- The length of the direction (8, 2, -2) is the inverse of this number. -/
noncomputable def kk : ℝ := 1 / √72
theorem kk_sq : kk ^ 2 = 1 / 72 := by unfold kk; rw [div_pow, sq_sqrt (by norm_num)]; norm_num
theorem kk_pos : 0 < kk := by unfold kk; positivity
theorem kk_big : 1 / 9 < kk := by nlinarith [kk_sq, kk_pos]
theorem kk_small : kk < 1 / 8 := by nlinarith [kk_sq, kk_pos]

noncomputable def bp : V3 := ⟨-3, -2, 2⟩
noncomputable def bd : V3 := ⟨8 * kk, 2 * kk, -2 * kk⟩

theorem bd_unit : bd.mag2 = 1 := by
  show 8 * kk * (8 * kk) + 2 * kk * (2 * kk) + -2 * kk * (-2 * kk) = 1
  linear_combination 72 * kk_sq

theorem bat (t : ℝ) : V3.at' bp bd t = ⟨-3 + 8 * (kk * t), -2 + 2 * (kk * t), 2 - 2 * (kk * t)⟩ := by
  apply V3.ext
  · show -3 + t * (8 * kk) = _; ring
  · show -2 + t * (2 * kk) = _; ring
  · show 2 + t * (-2 * kk) = _; ring

theorem bend_clear : Clear (qa bp bd) (qb (of bend) 2 bp bd) (qc (of bend) 2 bp bd) (qd (of bend) 2 bp) := by
  have k2 := kk_sq
  have kb := kk_big
  have ea : qa bp bd = -128 * kk := by
    show 4 * (-3 * (8 * kk) + -2 * (2 * kk) + 2 * (-2 * kk)) = _; ring
  have eb : qb (of bend) 2 bp bd = 346 / 9 := by
    show 2 * ((-3) * (-3) + (-2) * (-2) + 2 * 2 + 2 * (-3 * (8 * kk) + -2 * (2 * kk) + 2 * (-2 * kk)) * (-3 * (8 * kk) + -2 * (2 * kk) + 2 * (-2 * kk)) -
      (5 * 5 + 2 * 2) + 2 * (5 * 5) * (-2 * kk) * (-2 * kk)) = (346 / 9 : ℝ)
    linear_combination (2 * 2248) * k2
  have ec : qc (of bend) 2 bp bd = 736 * kk := by
    show 4 * (((-3) * (-3) + (-2) * (-2) + 2 * 2) * (-3 * (8 * kk) + -2 * (2 * kk) + 2 * (-2 * kk)) -
      (5 * 5 + 2 * 2) * (-3 * (8 * kk) + -2 * (2 * kk) + 2 * (-2 * kk)) + 2 * (5 * 5) * 2 * (-2 * kk)) = 736 * kk
    ring
  have ed : qd (of bend) 2 bp = 144 := by
    show ((-3) * (-3) + (-2) * (-2) + 2 * 2) * ((-3) * (-3) + (-2) * (-2) + 2 * 2) - 2 * ((-3) * (-3) + (-2) * (-2) + 2 * 2) * (5 * 5 + 2 * 2) +
      4 * (5 * 5) * 2 * 2 + (5 * 5 - 2 * 2) * (5 * 5 - 2 * 2) = (144 : ℝ)
    norm_num
  rw [ea, eb, ec, ed]
  right
  have eF : coefF (-128 * kk) (346 / 9) (736 * kk) = -(4000 / 9) * kk := by
    unfold coefF
    linear_combination (-(128 ^ 3) / 8 * kk) * k2
  have eG : coefG (-128 * kk) (346 / 9) (736 * kk) 144 = 144 - 3 * 128 ^ 4 / 256 / 72 ^ 2 + 128 ^ 2 * (346 / 9) / 16 / 72 + 128 * 736 / 4 / 72 := by
    unfold coefG
    linear_combination (-3 * 128 ^ 4 / 256 * (kk ^ 2 + 1 / 72) + 128 ^ 2 * (346 / 9) / 16 + 128 * 736 / 4) * k2
  refine ⟨?_, Or.inr ?_⟩
  · rw [eF, neg_mul, abs_neg, abs_of_pos (by linarith)]
    norm_num
    linarith
  · rw [eG]; norm_num

/-- A solution is in the part of the ray that is not in the sector, or beyond the face. -/
theorem bend_root {t : ℝ} (h : quartic bend 2 bp bd t = 0) :
    (9 / 20 < kk * t ∧ kk * t < 4 / 5) ∨ 1 < kk * t := by
  have hR : (2 : ℝ) < bend.rtor := by show (2 : ℝ) < 5; norm_num
  have hf := (C183_equation (by norm_num) hR bp bd_unit t).1.mp h
  have hq := quartic_eq bend 2 bp bd_unit t
  have h1 := ringDist_sq bend.rtor (V3.at' bp bd t)
  rw [hf] at h1
  rw [h] at hq
  have hlip := ring_lip bend.rtor (V3.at' bp bd t) ⟨5, 0, 0⟩
  have h5 : ringDist bend.rtor ⟨5, 0, 0⟩ = 0 := by
    have := ringDist_sq bend.rtor ⟨5, 0, 0⟩
    rw [rad_of (by norm_num)] at this
    have : ringDist bend.rtor ⟨5, 0, 0⟩ ^ 2 = (5 - 5) ^ 2 + 0 ^ 2 := this
    nlinarith [ringDist_nonneg bend.rtor ⟨5, 0, 0⟩]
  rw [hf, h5] at hlip
  rw [bat] at h1 hq hlip
  generalize kk * t = σ at *
  have h1 : (2 : ℝ) ^ 2 = (Tube.rad ⟨-3 + 8 * σ, -2 + 2 * σ, 2 - 2 * σ⟩ - bend.rtor) ^ 2 + (2 - 2 * σ) ^ 2 := h1
  have hq : 0 = (((-3 + 8 * σ) * (-3 + 8 * σ) + (-2 + 2 * σ) * (-2 + 2 * σ) + (2 - 2 * σ) * (2 - 2 * σ)) + 5 ^ 2 - 2 ^ 2) ^ 2 -
    4 * 5 ^ 2 * ((-3 + 8 * σ) ^ 2 + (-2 + 2 * σ) ^ 2) := hq
  have hq : 5184 * σ ^ 4 - 9216 * σ ^ 3 + 2768 * σ ^ 2 + 736 * σ + 144 = 0 := by linear_combination -hq
  have hd : V3.dist (⟨-3 + 8 * σ, -2 + 2 * σ, 2 - 2 * σ⟩ : V3) ⟨5, 0, 0⟩ ^ 2 = 72 * (σ - 1) ^ 2 := by
    unfold V3.dist V3.dist2
    rw [sq_sqrt (by positivity)]
    show (-3 + 8 * σ - 5) ^ 2 + (-2 + 2 * σ - 0) ^ 2 + (2 - 2 * σ - 0) ^ 2 = _
    ring
  have hfar : 4 ≤ 72 * (σ - 1) ^ 2 := by
    rw [← hd]
    norm_num at hlip
    nlinarith
  have h0 : 0 ≤ σ := by
    by_contra hc
    push Not at hc
    nlinarith [sq_nonneg (Tube.rad ⟨-3 + 8 * σ, -2 + 2 * σ, 2 - 2 * σ⟩ - bend.rtor)]
  have h9 : 9 / 20 < σ := by
    by_contra hc
    push Not at hc
    have e1 : σ ^ 3 ≤ 9 / 20 * σ ^ 2 := by nlinarith [sq_nonneg σ]
    have e2 : σ ^ 2 ≤ 9 / 20 * σ := by nlinarith
    have e3 : 0 ≤ σ ^ 4 := by positivity
    nlinarith
  rcases le_or_gt σ 1 with c | c
  · left
    refine ⟨h9, ?_⟩
    by_contra hc
    push Not at hc
    nlinarith
  · exact Or.inr c

/-- C185, finding: the distances to the faces of the sector are forgotten, so a ray that starts in the bounding tube, leaves the sector
and meets a face of a torus with a sector of more than a half turn is reported to miss it: from (-3, -2, 2) towards (5, 0, 0), the centre
of a face, the distance is infinite. -/
theorem C185_face_counterexample :
    bend.Valid ∧ bend.Closed (V3.at' bp bd (1 / kk)) ∧ ¬ bend.Closed bp ∧ distanceToIn (of bend) bp bd = some kInfLength := by
  have hkp := kk_pos
  have hkb := kk_big
  have hks := kk_small
  have hp := pi_pos
  have hI := kInfLength_large
  have hR : (2 : ℝ) < bend.rtor := by show (2 : ℝ) < 5; norm_num
  have htol : kTolerance < 1 / 1000 := by unfold kTolerance; norm_num
  have ht0 := kTolerance_pos
  -- the face
  have hface : V3.at' bp bd (1 / kk) = ⟨5, 0, 0⟩ := by
    rw [bat, mul_one_div_cancel hkp.ne']
    norm_num
  have h5 : ringDist bend.rtor ⟨5, 0, 0⟩ = 0 := by
    have := ringDist_sq bend.rtor ⟨5, 0, 0⟩
    rw [rad_of (by norm_num)] at this
    have : ringDist bend.rtor ⟨5, 0, 0⟩ ^ 2 = (5 - 5) ^ 2 + 0 ^ 2 := this
    nlinarith [ringDist_nonneg bend.rtor ⟨5, 0, 0⟩]
  have hrad : Tube.rad bp ^ 2 = 13 := by
    rw [Tube.rad_sq]; show (-3 : ℝ) ^ 2 + (-2) ^ 2 = 13; norm_num
  have hrad0 := Tube.rad_nonneg bp
  have hncl : ¬ bend.Closed bp := by
    intro hc
    have h1 := ringDist_sq bend.rtor bp
    have h1 : ringDist bend.rtor bp ^ 2 = (Tube.rad bp - 5) ^ 2 + 2 ^ 2 := h1
    have h2 : ringDist bend.rtor bp ≤ 2 := hc.hi
    nlinarith [ringDist_nonneg bend.rtor bp]
  refine ⟨bend_valid, ?_, hncl, ?_⟩
  · rw [hface]
    refine ⟨by rw [h5]; exact le_refl _, by rw [h5]; show (0 : ℝ) ≤ 2; norm_num, ?_⟩
    exact (bend_sector 5 0).mpr (Or.inl (le_refl _))
  -- the bounding tube
  have hfits : Tube.Fits Tube.universal bend.box := ⟨by intro e; simp [Tube.universal] at e, by intro e; simp [Tube.universal] at e,
    by intro e; simp [Tube.universal] at e, by intro e; simp [Tube.universal] at e, by intro e; simp [Tube.universal] at e⟩
  have hb : Tube.contains Tube.universal (of bend).tube bp = true := by
    rw [show (of bend).tube = Tube.of bend.box from tube_eq (a := bend), Tube.C77_contains (box_valid bend_valid) hfits]
    refine ⟨?_, fun _ => ?_, ?_, ?_⟩
    · show |(2 : ℝ)| ≤ 2; norm_num
    · show max ((5 : ℝ) - 2 - kTolerance) 0 < Tube.rad bp
      refine max_lt ?_ ?_ <;> nlinarith
    · show Tube.rad bp ≤ 5 + 2 + kTolerance
      nlinarith
    · exact (bend_sector (-3) (-2)).mpr (Or.inr (by norm_num))
  have hni : inside (of bend) bp ≠ .inside := fun hc => hncl ((C176_inside bend_valid bp).1 hc)
  -- the planes
  have hw : (of bend).wedge = Wedge.make (3 * π / 2) 0 := rfl
  have hphi1 : (Wedge.distanceToIn 0 (of bend).wedge bp bd).1 = 1 / kk := by
    rw [hw]
    show Wedge.planeIn 0 (-sin 0) (cos 0) bp bd = _
    unfold Wedge.planeIn
    simp only [sin_zero, cos_zero]
    have e1 : bd.x * -0 + bd.y * 1 = 2 * kk := by show 8 * kk * -0 + 2 * kk * 1 = _; ring
    have e2 : -(bp.x * -0 + bp.y * 1) = 2 := by show -((-3 : ℝ) * -0 + -2 * 1) = 2; norm_num
    rw [e1, e2, if_pos ⟨by positivity, by positivity⟩]
    field_simp
  have hphi2 : (Wedge.distanceToIn 0 (of bend).wedge bp bd).2 = kInfLength := by
    rw [hw]
    show Wedge.planeIn 0 (sin (0 + 3 * π / 2)) (-cos (0 + 3 * π / 2)) bp bd = _
    unfold Wedge.planeIn
    simp only [trig_end.1, trig_end.2]
    have e1 : bd.x * -1 + bd.y * -0 = -8 * kk := by show 8 * kk * -1 + 2 * kk * -0 = _; ring
    rw [e1, if_neg (fun e => by linarith [e.1])]
  have hk1 : kTolerance ≤ |1 / kk| := by
    rw [abs_of_pos (by positivity), le_div_iff₀ hkp]
    nlinarith
  -- the tube
  have hreg : ¬ Special 2 bp bd := by
    intro h
    have h := h.1
    have h : |-2 * kk| < 1e-3 := h
    rw [abs_of_neg (by linarith)] at h
    norm_num at h
    linarith
  obtain ⟨-, hme⟩ := C182_quartic_partial bend_clear (fun x hx => by
    have : quartic bend 2 bp bd x = 0 := hx
    have hx := root_bound (by norm_num) hR bd_unit this
    have hm : bp.mag ≤ 10 := by
      unfold V3.mag
      rw [Real.sqrt_le_iff]
      refine ⟨by norm_num, ?_⟩
      show (-3 : ℝ) * (-3) + (-2) * (-2) + 2 * 2 ≤ 10 ^ 2
      norm_num
    have : bp.mag + bend.rtor + 2 ≤ 17 := by show bp.mag + 5 + 2 ≤ 17; linarith
    linarith [le_abs_self x])
  have hscan : ∀ l : List ℝ, (∀ x ∈ l, quartic bend 2 bp bd x = 0) →
      scan (of bend) (qa bp bd) (qb (of bend) 2 bp bd) (qc (of bend) 2 bp bd) (qd (of bend) 2 bp) bp bd false l = some kInfLength := by
    intro l
    induction l with
    | nil => intro _; rfl
    | cons x l ih =>
      intro hroot
      have ih := ih (fun y hy => hroot y (List.mem_cons_of_mem _ hy))
      have hx := hroot x (by simp)
      obtain ⟨-, hρ⟩ := slope_ndotd (by norm_num) hR bp bd_unit hx
      have hf := (C183_equation (by norm_num) hR bp bd_unit x).1.mp hx
      have h1 := ringDist_sq bend.rtor (V3.at' bp bd x)
      rw [hf] at h1
      unfold scan
      simp only [ih]
      by_cases c0 : x < -10
      · rw [if_pos c0]
      rw [if_neg c0]
      rcases bend_root hx with ⟨c1, c2⟩ | c
      · -- out of the sector
        by_cases c3 : perp (V3.at' bp bd x) ≠ 0 ∧ (if false = true then ndotd (of bend) (V3.at' bp bd x) bd < 0 else ndotd (of bend) (V3.at' bp bd x) bd > 0)
        · rw [if_pos c3]
        rw [if_neg c3, if_pos]
        refine ⟨by show 3 * π / 2 < 2 * π; linarith, ?_⟩
        rw [perp_rad]
        unfold Wedge.containsWithBoundary
        rw [decide_eq_false_iff_not, not_not, hw]
        set ρ := Tube.rad (V3.at' bp bd x) with hρd
        have hρ7 : ρ ≤ 7 := by
          have h1 : (2 : ℝ) ^ 2 = (ρ - 5) ^ 2 + (V3.at' bp bd x).z ^ 2 := h1
          nlinarith [sq_nonneg (V3.at' bp bd x).z]
        have ex : (of bend).rtor * ((V3.at' bp bd x).x / ρ) = 5 * (-3 + 8 * (kk * x)) / ρ := by
          rw [bat]; show 5 * ((-3 + 8 * (kk * x)) / ρ) = _; ring
        have ey : (of bend).rtor * ((V3.at' bp bd x).y / ρ) = 5 * (-2 + 2 * (kk * x)) / ρ := by
          rw [bat]; show 5 * ((-2 + 2 * (kk * x)) / ρ) = _; ring
        rw [ex, ey]
        have gx : 1 / 100 < 5 * (-3 + 8 * (kk * x)) / ρ := by
          rw [lt_div_iff₀ hρ]; nlinarith
        have gy : 5 * (-2 + 2 * (kk * x)) / ρ < -1 / 100 := by
          rw [div_lt_iff₀ hρ]; nlinarith
        generalize 5 * (-3 + 8 * (kk * x)) / ρ = X at *
        generalize 5 * (-2 + 2 * (kk * x)) / ρ = Y at *
        constructor
        · rw [Wedge.out_iff (by positivity) (by linarith), bend_sector]
          rintro (h | h)
          · have h : 0 ≤ Y := h
            linarith
          · have h : X ≤ 0 := h
            linarith
        · rintro - (h | h)
          · have h := h.2
            have h : |-sin 0 * X + cos 0 * Y| < kTolerance := h
            rw [sin_zero, cos_zero] at h
            have h := (abs_lt.mp h).1
            linarith
          · have h := h.2
            have h : |sin (0 + 3 * π / 2) * X + -cos (0 + 3 * π / 2) * Y| < kTolerance := h
            rw [trig_end.1, trig_end.2] at h
            have h := (abs_lt.mp h).1
            linarith
      · -- beyond the face the ray leaves the tube
        rw [if_pos]
        refine ⟨by rw [perp_rad]; exact hρ.ne', ?_⟩
        simp only [Bool.false_eq_true, if_false]
        unfold ndotd
        rw [perp_rad]
        set ρ := Tube.rad (V3.at' bp bd x) with hρd
        have hρx : -3 + 8 * (kk * x) ≤ ρ := by
          rw [hρd, bat]
          unfold Tube.rad
          apply Real.le_sqrt_of_sq_le
          show (-3 + 8 * (kk * x)) ^ 2 ≤ (-3 + 8 * (kk * x)) ^ 2 + (-2 + 2 * (kk * x)) ^ 2
          linarith [sq_nonneg (-2 + 2 * (kk * x))]
        rw [bat]
        show (-3 + 8 * (kk * x) - 5 * ((-3 + 8 * (kk * x)) / ρ)) * (8 * kk) + (-2 + 2 * (kk * x) - 5 * ((-2 + 2 * (kk * x)) / ρ)) * (2 * kk) +
          (2 - 2 * (kk * x)) * (-2 * kk) > 0
        generalize kk * x = σ at *
        have h5 : 5 / ρ ≤ 1 := by rw [div_le_one hρ]; linarith
        have e : (-3 + 8 * σ - 5 * ((-3 + 8 * σ) / ρ)) * (8 * kk) + (-2 + 2 * σ - 5 * ((-2 + 2 * σ) / ρ)) * (2 * kk) + (2 - 2 * σ) * (-2 * kk) =
            kk * ((72 * σ - 32) - 5 / ρ * (68 * σ - 28)) := by field_simp; ring
        rw [e]
        apply mul_pos hkp
        have : 5 / ρ * (68 * σ - 28) ≤ 1 * (68 * σ - 28) := mul_le_mul_of_nonneg_right h5 (by linarith)
        linarith
  have hbo : toBoundary (of bend) bp bd (of bend).rmax false = some kInfLength := by
    show toBoundary (of bend) bp bd 2 false = some kInfLength
    unfold toBoundary
    simp only [if_neg hreg]
    split
    · rfl
    · have hfl : xor (decide (|2 - (of bend).rmin| < kTolerance)) false = false := by
        have : ¬ |(2 : ℝ) - (of bend).rmin| < kTolerance := by
          show ¬ |(2 : ℝ) - 0| < kTolerance
          rw [sub_zero, abs_of_pos (by norm_num)]; linarith
        simp [this]
      rw [hfl]
      exact hscan _ (fun x hx => (hme x).mp hx)
  have hin : innerBoundary (of bend) bp bd false = some kInfLength := by
    unfold innerBoundary
    rw [if_neg (show ¬ (of bend).rmin > 0 from lt_irrefl (0 : ℝ))]
  have hnf : ¬ HitsFace (of bend) bp bd kInfLength := fun e => e.1 rfl
  rw [in_tube hb hni (fun _ => by rw [hphi1, hphi2]; exact ⟨fun _ => hk1, hnf⟩), hbo, hin]
  show some (if |min kInfLength (min kInfLength kInfLength) + 0| > kInfLength then kInfLength else min kInfLength (min kInfLength kInfLength) + 0) = _
  rw [min_self, min_self, add_zero, if_neg (by rw [abs_of_pos kInfLength_pos]; exact lt_irrefl _)]

end Torus
end VecGeom
