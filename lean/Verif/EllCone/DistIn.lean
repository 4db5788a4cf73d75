import Verif.EllCone.Dist

/-!
# C167: the distance to elliptical cones
-/

namespace VecGeom
namespace EllCone

open Real

variable {c : Par} {t : Struct}

/-- Rays that touch the lateral surface: the part of the line between the two solutions is shorter than about `4e-8` times the way
to its middle. -/
def Par.Scratching (c : Par) (p d : V3) : Prop :=
  0 ≤ c.qA d ∧ c.qB p d ^ 2 - c.qA d * c.qC p < 2 * kEpsilon * c.qB p d ^ 2

/-- Points that are inside by more than a tolerance. -/
structure Par.Deep (c : Par) (p : V3) : Prop where
  z : |p.z| ≤ c.cut - kTolerance
  r : (c.rho p + p.z - c.h) * c.cosMin ≤ -kTolerance

/-- Where a point of the ray inside the cone lies with respect to the two solutions. -/
theorem in_core {A B C m k S T : ℝ} (hA : A ≠ 0) (hST : S ≤ T)
    (hroot : ∀ u, A * u ^ 2 + 2 * B * u + C = A * ((u - S) * (u - T)))
    (hap : ∀ u, m - u * k = 0 → 0 ≤ A * u ^ 2 + 2 * B * u + C)
    (hap0 : ∀ u, m - u * k = 0 → A * u ^ 2 + 2 * B * u + C = 0 → S = T) {u : ℝ} :
    (0 < A → A * u ^ 2 + 2 * B * u + C ≤ 0 → S ≤ u ∧ u ≤ T) ∧
    (0 < A → 0 < m - u * k → A * u ^ 2 + 2 * B * u + C < 0 → 0 < m - S * k) ∧
    (0 < A → 0 < m - S * k → S ≤ u → u ≤ T → 0 ≤ m - u * k ∧ A * u ^ 2 + 2 * B * u + C ≤ 0) ∧
    (A < 0 → 0 < k → ((0 ≤ m - u * k ∧ A * u ^ 2 + 2 * B * u + C ≤ 0) ↔ u ≤ S)) ∧
    (A < 0 → k < 0 → ((0 ≤ m - u * k ∧ A * u ^ 2 + 2 * B * u + C ≤ 0) ↔ T ≤ u)) := by
  have pos1 : 0 < A → A * u ^ 2 + 2 * B * u + C ≤ 0 → S ≤ u ∧ u ≤ T := by
    intro hA' h
    rw [hroot] at h
    have h2 : (u - S) * (u - T) ≤ 0 := by
      by_contra h'
      push Not at h'
      nlinarith
    constructor <;> by_contra h' <;> push Not at h' <;> nlinarith
  -- the height of the apex is not passed strictly between the solutions
  have noap : 0 < A → ∀ w, S ≤ w → w < T → m - w * k ≠ 0 := by
    intro hA' w h1 h2 h3
    have e1 := hap w h3
    have e2 := hap0 w h3
    rw [hroot] at e1 e2
    rcases h1.lt_or_eq with h | h
    · have : 0 < (w - S) * (T - w) := mul_pos (by linarith) (by linarith)
      nlinarith
    · have := e2 (by rw [← h]; ring)
      linarith
  refine ⟨pos1, fun hA' h1 h2 => ?_, fun hA' h1 h2 h3 => ?_, fun hA' hk => ?_, fun hA' hk => ?_⟩
  · obtain ⟨h3, h4⟩ := pos1 hA' h2.le
    rw [hroot] at h2
    have h5 : (u - S) * (u - T) < 0 := by
      by_contra h'
      push Not at h'
      nlinarith
    have h6 : S < u := lt_of_le_of_ne h3 (by rintro rfl; simp at h5)
    have h7 : u < T := lt_of_le_of_ne h4 (by rintro rfl; simp at h5)
    by_contra hc
    push Not at hc
    -- the zero between them
    have hk : k < 0 := by
      by_contra h
      push Not at h
      nlinarith
    have h8 : m / k * k = m := div_mul_cancel₀ m hk.ne
    refine noap hA' (m / k) ?_ ?_ (by linarith)
    · by_contra h
      push Not at h
      nlinarith
    · by_contra h
      push Not at h
      nlinarith
  · refine ⟨?_, ?_⟩
    · by_contra hc
      push Not at hc
      have hk : 0 < k := by
        by_contra h
        push Not at h
        nlinarith
      have h8 : m / k * k = m := by field_simp
      refine noap hA' (m / k) ?_ ?_ (by linarith)
      · by_contra h
        push Not at h
        nlinarith
      · by_contra h
        push Not at h
        nlinarith
    · rw [hroot]
      have : (u - S) * (u - T) ≤ 0 := mul_nonpos_of_nonneg_of_nonpos (by linarith) (by linarith)
      nlinarith
  all_goals
    have hkne : k ≠ 0 := by linarith
    have e0 : m / k * k = m := by field_simp
    have hap' := hap (m / k) (by linarith)
    have hap0' := hap0 (m / k) (by linarith)
    rw [hroot] at hap' hap0' ⊢
    generalize m / k = w at *
    have h3 : (w - S) * (w - T) ≤ 0 := by
      by_contra h
      push Not at h
      nlinarith
    have h4 : S ≤ w := by
      by_contra h
      push Not at h
      nlinarith
    have h5 : w ≤ T := by
      by_contra h
      push Not at h
      nlinarith
    constructor
  · rintro ⟨h6, h7⟩
    by_contra hc
    push Not at hc
    have h8 : u ≤ w := by
      by_contra h
      push Not at h
      nlinarith
    have h9 : 0 ≤ (u - S) * (u - T) := by
      by_contra h
      push Not at h
      nlinarith
    rcases (show u ≤ T by linarith).lt_or_eq with h10 | h10
    · nlinarith
    · have h11 : w = T := by linarith
      have := hap0' (by rw [h11]; ring)
      linarith
  · intro h
    refine ⟨by nlinarith, ?_⟩
    have : 0 ≤ (u - S) * (u - T) := mul_nonneg_of_nonpos_of_nonpos (by linarith) (by linarith)
    nlinarith
  · rintro ⟨h6, h7⟩
    by_contra hc
    push Not at hc
    have h8 : w ≤ u := by
      by_contra h
      push Not at h
      nlinarith
    have h9 : 0 ≤ (u - S) * (u - T) := by
      by_contra h
      push Not at h
      nlinarith
    rcases (show S ≤ u by linarith).lt_or_eq with h10 | h10
    · nlinarith
    · have h11 : w = S := by linarith
      have := hap0' (by rw [h11]; ring)
      linarith
  · intro h
    refine ⟨by nlinarith, ?_⟩
    have : 0 ≤ (u - S) * (u - T) := mul_nonneg (by linarith) (by linarith)
    nlinarith

theorem ray_in (hv : c.Valid) {p d : V3} (hD : 0 ≤ c.qB p d * c.qB p d - c.qA d * c.qC p) (hA : c.qA d ≠ 0) {u : ℝ} :
    (0 < c.qA d → c.qA d * u ^ 2 + 2 * c.qB p d * u + c.qC p ≤ 0 → rmin c p d ≤ u ∧ u ≤ rmax c p d) ∧
    (0 < c.qA d → 0 < c.h - p.z - u * d.z → c.qA d * u ^ 2 + 2 * c.qB p d * u + c.qC p < 0 → 0 < c.h - p.z - rmin c p d * d.z) ∧
    (0 < c.qA d → 0 < c.h - p.z - rmin c p d * d.z → rmin c p d ≤ u → u ≤ rmax c p d →
      0 ≤ c.h - p.z - u * d.z ∧ c.qA d * u ^ 2 + 2 * c.qB p d * u + c.qC p ≤ 0) ∧
    (c.qA d < 0 → 0 < d.z → ((0 ≤ c.h - p.z - u * d.z ∧ c.qA d * u ^ 2 + 2 * c.qB p d * u + c.qC p ≤ 0) ↔ u ≤ rmin c p d)) ∧
    (c.qA d < 0 → d.z < 0 → ((0 ≤ c.h - p.z - u * d.z ∧ c.qA d * u ^ 2 + 2 * c.qB p d * u + c.qC p ≤ 0) ↔ rmax c p d ≤ u)) := by
  have ha := a_pos hv
  have hb := b_pos hv
  have hroot : ∀ u, c.qA d * u ^ 2 + 2 * c.qB p d * u + c.qC p = c.qA d * ((u - rmin c p d) * (u - rmax c p d)) := by
    intro u
    rw [roots hA hD, min_max_roots]
    rfl
  have hap : ∀ u, c.h - p.z - u * d.z = 0 → c.qA d * u ^ 2 + 2 * c.qB p d * u + c.qC p = c.rho (V3.at' p d u) ^ 2 := by
    intro u h
    rw [← rho_at, V3.at_z, show c.h - (p.z + u * d.z) = 0 by linarith]
    ring
  refine in_core hA min_le_max hroot (fun u h => by rw [hap u h]; positivity) (fun u h h0 => ?_)
  rw [hap u h, rho_sq, V3.at_x, V3.at_y] at h0
  have hx : (p.x + u * d.x) / c.a = 0 := by nlinarith [sq_nonneg ((p.x + u * d.x) / c.a), sq_nonneg ((p.y + u * d.y) / c.b)]
  have hy : (p.y + u * d.y) / c.b = 0 := by nlinarith [sq_nonneg ((p.x + u * d.x) / c.a), sq_nonneg ((p.y + u * d.y) / c.b)]
  have hx' : p.x / c.a = -(u * (d.x / c.a)) := by linear_combination hx
  have hy' : p.y / c.b = -(u * (d.y / c.b)) := by linear_combination hy
  have hsq : ∀ x, c.qA d * x ^ 2 + 2 * c.qB p d * x + c.qC p = c.qA d * (x - u) ^ 2 := by
    intro x
    unfold Par.qA Par.qB Par.qC
    rw [hx', hy', show c.h - p.z = u * d.z by linarith]
    ring
  have h1 := hroot (rmin c p d)
  have h2 := hroot (rmax c p d)
  rw [hsq, sub_self, zero_mul, mul_zero] at h1
  rw [hsq, sub_self, mul_zero, mul_zero] at h2
  have h3 := (mul_eq_zero.mp h1).resolve_left hA
  have h4 := (mul_eq_zero.mp h2).resolve_left hA
  have h5 : rmin c p d - u = 0 := by simpa using h3
  have h6 : rmax c p d - u = 0 := by simpa using h4
  show rmin c p d = rmax c p d
  linarith

/-- Where the line enters and leaves the slab of the heights. -/
noncomputable def lidIn (c : Par) (p d : V3) : ℝ := (p.z - copySign c.cut (-1 / nonZero d.z)) * (-1 / nonZero d.z)
noncomputable def lidOut' (c : Par) (p d : V3) : ℝ := (p.z + copySign c.cut (-1 / nonZero d.z)) * (-1 / nonZero d.z)

/-- Where it enters and leaves the cone. -/
noncomputable def sideIn (c : Par) (p d : V3) : ℝ :=
  if c.qA d < 0 then (if d.z < 0 then rmax c p d else -kInfLength) else rmin c p d
noncomputable def sideOut' (c : Par) (p d : V3) : ℝ :=
  if c.qA d < 0 then (if d.z > 0 then rmin c p d else kInfLength) else rmax c p d

open Classical in
/-- The reasons to give up before the equations are solved. -/
noncomputable def leaving (c : Par) (p d : V3) : Prop :=
  let nz := if |p.x| + |p.y| < 1 / 10 * kHalfTolerance then 1 else c.rho p
  (|p.z| - c.cut ≥ -kHalfTolerance ∧ p.z * d.z ≥ 0) ∨
  ((c.rho p + (p.z - c.h)) * c.cosMin ≥ -kHalfTolerance ∧
    p.x / c.a * (d.x / c.a) + p.y / c.b * (d.y / c.b) + nz * d.z ≥ 0) ∨
  ((p.z - c.h) * c.cosMin > -kHalfTolerance ∧
    c.rho p ^ 2 - (p.z - c.h + kHalfTolerance / c.cosMin) * (p.z - c.h + kHalfTolerance / c.cosMin) ≤ 0 ∧ c.qA d ≥ 0)

open Classical in
theorem moved_eq (g : Good t c) (hv : c.Valid) {p d : V3} (hg : ¬ c.Grazing d) (o : ℝ) :
    distanceToInMoved t p d o =
      if leaving c p d then kInfLength
      else if c.qB p d * c.qB p d - c.qA d * c.qC p < 0 ∨
          (c.qB p d * c.qB p d - c.qA d * c.qC p < 2 * kEpsilon * c.qB p d * c.qB p d ∧ c.qA d ≥ 0) then kInfLength
      else if c.qA d ≥ 0 ∧ p.z - c.h + d.z * rmin c p d ≥ 0 then kInfLength
      else if min (lidOut' c p d) (sideOut' c p d) - max (lidIn c p d) (sideIn c p d) ≥ kHalfTolerance then
        max (lidIn c p d) (sideIn c p d) + o else kInfLength := by
  have hcos := cos_pos' hv
  have hroot := root_eq g p
  have htiny := tiny_false g hg
  have eA : d.x * t.invDx * (d.x * t.invDx) + d.y * t.invDy * (d.y * t.invDy) - d.z * d.z = c.qA d := by
    rw [g.ix, g.iy]; unfold Par.qA; ring
  have eB : p.x * t.invDx * (d.x * t.invDx) + p.y * t.invDy * (d.y * t.invDy) - (p.z - c.h) * d.z = c.qB p d := by
    rw [g.ix, g.iy]; unfold Par.qB; ring
  have eC : p.x * t.invDx * (p.x * t.invDx) + p.y * t.invDy * (p.y * t.invDy) - (p.z - c.h) * (p.z - c.h) = c.qC p := by
    rw [g.ix, g.iy]; unfold Par.qC; ring
  have eBr : p.x * t.invDx * (d.x * t.invDx) + p.y * t.invDy * (d.y * t.invDy) = p.x / c.a * (d.x / c.a) + p.y / c.b * (d.y / c.b) := by
    rw [g.ix, g.iy]; ring
  have eCr : p.x * t.invDx * (p.x * t.invDx) + p.y * t.invDy * (p.y * t.invDy) = c.rho p ^ 2 := by
    rw [rho_sq, g.ix, g.iy]; ring
  -- a negative discriminant in front of the cone does not happen
  have hD : ¬ ((c.rho p + (p.z - c.h)) * c.cosMin ≤ 0 ∧ c.qB p d * c.qB p d - c.qA d * c.qC p < 0) := by
    rintro ⟨h1, h2⟩
    have h3 : c.rho p ≤ c.h - p.z := by
      by_contra h
      push Not at h
      have : 0 < (c.rho p + (p.z - c.h)) * c.cosMin := mul_pos (by linarith) hcos
      linarith
    linarith [disc_nonneg h3 d]
  unfold distanceToInMoved
  dsimp only
  rw [hroot, g.dz, g.zcut, g.cos, g.apex]
  unfold bent
  rw [htiny]
  simp only [Bool.false_eq_true, if_false]
  rw [eA, eB, eC]
  simp only [hD, if_false]
  rw [eBr, eCr]
  have hsec : second false (c.qC p) (-c.qB p d - copySign √(c.qB p d * c.qB p d - c.qA d * c.qC p) (c.qB p d)) (c.qB p d) (c.qB p d) =
      root2 (c.qA d) (c.qB p d) (c.qC p) := by
    unfold second root2
    simp only [Bool.false_eq_true, false_and, if_false]
  rw [hsec]
  by_cases hl : leaving c p d
  · rw [if_pos hl]
    exact if_pos hl
  · rw [if_neg hl]
    refine (if_neg hl).trans ?_
    rfl

theorem rho_smul (d : V3) {u : ℝ} (hu : 0 ≤ u) : c.rho ⟨u * d.x, u * d.y, u * d.z⟩ = u * c.rho d := by
  unfold Par.rho
  dsimp only
  rw [show (u * d.x / c.a) ^ 2 + (u * d.y / c.b) ^ 2 = u ^ 2 * ((d.x / c.a) ^ 2 + (d.y / c.b) ^ 2) by ring, sqrt_mul (sq_nonneg _), sqrt_sq hu]

theorem rho_way (p d : V3) {u : ℝ} (hu : 0 ≤ u) : u * c.rho d ≤ c.rho (V3.at' p d u) + c.rho p := by
  have h1 := rho_sub (c := c) ⟨u * d.x, u * d.y, u * d.z⟩ (V3.at' p d u)
  rw [rho_smul d hu, V3.at_x, V3.at_y, V3.at_z] at h1
  have e : c.rho ⟨u * d.x - (p.x + u * d.x), u * d.y - (p.y + u * d.y), u * d.z - (p.z + u * d.z)⟩ = c.rho p := by
    unfold Par.rho
    dsimp only
    congr 1
    ring
  rw [e] at h1
  linarith

theorem dot_le (p d : V3) : |p.x / c.a * (d.x / c.a) + p.y / c.b * (d.y / c.b)| ≤ c.rho p * c.rho d := by
  have h1 := rho_sq (c := c) p
  have h2 := rho_sq (c := c) d
  rw [abs_le]
  apply abs_le_of_sq_le_sq' _ (mul_nonneg (rho_nonneg _) (rho_nonneg _))
  rw [mul_pow, h1, h2]
  nlinarith [sq_nonneg (p.x / c.a * (d.y / c.b) - p.y / c.b * (d.x / c.a))]

/-- A ray to a point well inside does not leave. -/
theorem not_leaving (hv : c.Valid) {p d : V3} {u : ℝ} (hu : 0 ≤ u) (hq : c.Deep (V3.at' p d u)) : ¬ leaving c p d := by
  have hT := kHalfTolerance_pos
  have hTT : kTolerance = 2 * kHalfTolerance := by unfold kHalfTolerance; ring
  have hcos := cos_pos' hv
  have ha := a_pos hv
  have hb := b_pos hv
  have hqz := hq.z
  have hqr := hq.r
  have hr0 := rho_nonneg (c := c) p
  rw [V3.at_z] at hqz
  rintro (⟨h1, h2⟩ | ⟨h1, h2⟩ | ⟨h1, h2, h3⟩)
  · obtain ⟨z1, z2⟩ := abs_le.mp hqz
    rcases lt_trichotomy p.z 0 with h | h | h
    · rw [abs_of_neg h] at h1
      have : d.z ≤ 0 := by
        by_contra h'
        push Not at h'
        nlinarith
      nlinarith
    · rw [h, abs_zero] at h1
      have := hv.cut
      linarith
    · rw [abs_of_pos h] at h1
      have : 0 ≤ d.z := by
        by_contra h'
        push Not at h'
        nlinarith
      nlinarith
  · rw [V3.at_z] at hqr
    have key : -(2 * kHalfTolerance) < (c.rho (V3.at' p d u) + (p.z + u * d.z) - c.h) * c.cosMin := by
      by_cases hax : |p.x| + |p.y| < 1 / 10 * kHalfTolerance
      · rw [if_pos hax, one_mul] at h2
        have hway := rho_way (c := c) p d hu
        have hdot := (abs_le.mp (dot_le (c := c) p d)).2
        have hm := rho_m hv p
        have hm0 := m_pos hv
        have hmr : min c.a c.b * c.rho p ≤ |p.x| + |p.y| := by
          apply abs_le_of_sq_le_sq' _ (by positivity) |>.2
          nlinarith [sq_abs p.x, sq_abs p.y, mul_nonneg (abs_nonneg p.x) (abs_nonneg p.y)]
        have hcm := mul_le_mul_of_nonneg_right (cos_le_m hv) hr0
        have hr1 : c.rho p ≤ 1 := by
          by_contra h
          push Not at h
          have := hv.a
          have := hv.b
          have h4 : 2 * kTolerance ≤ min c.a c.b := le_min hv.a hv.b
          nlinarith
        have hd0 := rho_nonneg (c := c) d
        have h5 : p.z - c.rho p ≤ c.rho (V3.at' p d u) + (p.z + u * d.z) := by
          have h6 : -(c.rho p * c.rho d) ≤ d.z := by linarith
          have h7 := mul_le_mul_of_nonneg_left h6 hu
          nlinarith [mul_nonneg (mul_nonneg hu hd0) (by linarith : 0 ≤ 1 - c.rho p)]
        have h8 := mul_le_mul_of_nonneg_right (by linarith : p.z - c.rho p - c.h ≤ c.rho (V3.at' p d u) + (p.z + u * d.z) - c.h) hcos.le
        nlinarith
      · rw [if_neg hax] at h2
        have hne : p.x ≠ 0 ∨ p.y ≠ 0 := by
          by_contra h
          push Not at h
          rw [h.1, h.2, abs_zero] at hax
          apply hax
          linarith
        have hrp := rho_pos hv hne
        have hdot := (abs_le.mp (dot_le (c := c) p (V3.at' p d u))).2
        have h1' := rho_sq (c := c) p
        rw [V3.at_x, V3.at_y] at hdot
        have e : p.x / c.a * ((p.x + u * d.x) / c.a) + p.y / c.b * ((p.y + u * d.y) / c.b) =
            c.rho p ^ 2 + u * (p.x / c.a * (d.x / c.a) + p.y / c.b * (d.y / c.b)) := by rw [h1']; ring
        rw [e] at hdot
        have h3 := mul_le_mul_of_nonneg_left (show -(c.rho p * d.z) ≤ p.x / c.a * (d.x / c.a) + p.y / c.b * (d.y / c.b) by linarith) hu
        have h5 : c.rho p - u * d.z ≤ c.rho (V3.at' p d u) := by
          by_contra h
          push Not at h
          nlinarith
        have h8 := mul_le_mul_of_nonneg_right (by linarith : c.rho p + (p.z - c.h) ≤ c.rho (V3.at' p d u) + (p.z + u * d.z) - c.h) hcos.le
        linarith
    linarith
  · rw [V3.at_z] at hqr
    have hk : kHalfTolerance / c.cosMin * c.cosMin = kHalfTolerance := div_mul_cancel₀ _ hcos.ne'
    have hw0 : 0 < kHalfTolerance / c.cosMin := by positivity
    generalize kHalfTolerance / c.cosMin = w at *
    have h4 : 0 < p.z - c.h + w := by
      by_contra h
      push Not at h
      nlinarith
    have h5 : c.rho p ≤ p.z - c.h + w := abs_le_of_sq_le_sq' (by linarith) h4.le |>.2
    have h6 : c.rho (V3.at' p d u) + (p.z + u * d.z) - c.h ≤ -(2 * w) := by
      by_contra h
      push Not at h
      nlinarith
    have hway := rho_way (c := c) p d hu
    have h7 : u * c.rho d < -(u * d.z) := by linarith
    have hu0 : 0 < u := by
      rcases hu.lt_or_eq with h | h
      · exact h
      · rw [← h] at h7; simp at h7
    have h8 : c.rho d < -d.z := by
      by_contra h
      push Not at h
      nlinarith
    have h9 : c.qA d < 0 := by
      unfold Par.qA
      rw [← rho_sq]
      nlinarith [rho_nonneg (c := c) d]
    linarith

theorem disc_ray {p d : V3} {u : ℝ} (hq : c.rho (V3.at' p d u) ≤ c.h - (V3.at' p d u).z) :
    0 ≤ c.qB p d * c.qB p d - c.qA d * c.qC p := by
  have h := disc_nonneg hq d
  have e : c.qB (V3.at' p d u) d * c.qB (V3.at' p d u) d - c.qA d * c.qC (V3.at' p d u) = c.qB p d * c.qB p d - c.qA d * c.qC p := by
    unfold Par.qA Par.qB Par.qC
    rw [V3.at_x, V3.at_y, V3.at_z]
    ring
  rwa [e] at h

theorem kTol_eq : kTolerance = 2 * kHalfTolerance := by unfold kHalfTolerance; ring

theorem lids_in {p d : V3} (hd : d.mag2 = 1) {u : ℝ} (hu : 0 ≤ u) (hI : u ≤ 10 ^ 20) (hq : |p.z + u * d.z| ≤ c.cut - kTolerance) :
    lidIn c p d ≤ u ∧ u + kHalfTolerance ≤ lidOut' c p d := by
  have hT := kHalfTolerance_pos
  have hTT := kTol_eq
  have hdz : |d.z| ≤ 1 := by
    have : d.x * d.x + d.y * d.y + d.z * d.z = 1 := hd
    rw [abs_le]
    apply abs_le_of_sq_le_sq' _ (by norm_num)
    nlinarith [mul_self_nonneg d.x, mul_self_nonneg d.y]
  obtain ⟨d1, d2⟩ := abs_le.mp hdz
  obtain ⟨q1, q2⟩ := abs_le.mp hq
  have hti : 0 < kTiny := by norm_num [kTiny]
  have hsmall : (u + kHalfTolerance) * kTiny ≤ kHalfTolerance := by
    have h1 : u + kHalfTolerance ≤ 10 ^ 20 + 1 := by
      have : kHalfTolerance ≤ 1 := by norm_num [kHalfTolerance, kTolerance]
      linarith
    have h2 := mul_le_mul_of_nonneg_right h1 hti.le
    refine h2.trans ?_
    norm_num [kTiny, kHalfTolerance, kTolerance]
  have hut : 0 ≤ u * kTiny := by positivity
  unfold lidIn lidOut'
  by_cases hz : d.z < 0
  · have e : nonZero d.z = d.z - kTiny := by unfold nonZero copySign; rw [if_pos hz]; ring
    have hn : 0 < -(d.z - kTiny) := by linarith
    have ei : -1 / nonZero d.z = 1 / -(d.z - kTiny) := by rw [e, neg_div, ← div_neg]
    rw [ei]
    have hi : ¬ (1 / -(d.z - kTiny) < 0) := not_lt.mpr (by positivity)
    unfold copySign
    rw [if_neg hi, mul_one_div, mul_one_div, div_le_iff₀ hn, le_div_iff₀ hn]
    constructor
    · nlinarith
    · nlinarith
  · have hz' := not_lt.mp hz
    have e : nonZero d.z = d.z + kTiny := by unfold nonZero copySign; rw [if_neg hz]
    have hn : 0 < d.z + kTiny := by linarith
    have hi : -1 / (d.z + kTiny) < 0 := div_neg_of_neg_of_pos (by norm_num) hn
    rw [e]
    unfold copySign
    rw [if_pos hi, mul_div_assoc', mul_div_assoc', div_le_iff₀ hn, le_div_iff₀ hn]
    constructor
    · nlinarith
    · nlinarith

theorem dist_ray (p d : V3) (hd : d.mag2 = 1) (u v : ℝ) : V3.dist (V3.at' p d u) (V3.at' p d v) = |u - v| := by
  unfold V3.dist V3.dist2
  rw [V3.at_x, V3.at_y, V3.at_z, V3.at_x, V3.at_y, V3.at_z, ← sqrt_sq_eq_abs]
  congr 1
  have : d.x * d.x + d.y * d.y + d.z * d.z = 1 := hd
  linear_combination (u - v) ^ 2 * this

/-- The same from the moved point. -/
theorem found_moved (g : Good t c) (hv : c.Valid) {p d : V3} (hd : d.mag2 = 1) (hg : ¬ c.Grazing d) (hs : ¬ c.Scratching p d) {u : ℝ}
    (hu : 0 ≤ u) (hI : u ≤ 10 ^ 20) (hq : c.Deep (V3.at' p d u)) (o : ℝ) : distanceToInMoved t p d o ≤ u + o := by
  have hT := kHalfTolerance_pos
  have hTT := kTol_eq
  have hcos := cos_pos' hv
  have hA : c.qA d ≠ 0 := by
    apply qA_ne hv hg
    by_contra h
    push Not at h
    have : d.x * d.x + d.y * d.y + d.z * d.z = 1 := hd
    rw [h.1, h.2.1, h.2.2] at this
    norm_num at this
  have hin : c.rho (V3.at' p d u) < c.h - (V3.at' p d u).z := by
    by_contra h
    push Not at h
    have : 0 ≤ (c.rho (V3.at' p d u) + (V3.at' p d u).z - c.h) * c.cosMin := mul_nonneg (by linarith) hcos.le
    linarith [hq.r]
  have hin2 : c.rho (V3.at' p d (u + kHalfTolerance)) ≤ c.h - (V3.at' p d (u + kHalfTolerance)).z := by
    have h1 := height_lip hv (V3.at' p d (u + kHalfTolerance)) (V3.at' p d u)
    rw [dist_ray p d hd, add_sub_cancel_left, abs_of_pos hT] at h1
    have h2 := hq.r
    by_contra h
    push Not at h
    have : 0 < (c.rho (V3.at' p d (u + kHalfTolerance)) + (V3.at' p d (u + kHalfTolerance)).z - c.h) * c.cosMin :=
      mul_pos (by linarith) hcos
    nlinarith
  have hD := disc_ray hin.le
  have hl := not_leaving hv hu hq
  obtain ⟨l1, l2⟩ := lids_in hd hu hI (by rw [← V3.at_z]; exact hq.z)
  obtain ⟨f1, f2⟩ := (side_at p d u).mp hin.le
  obtain ⟨f3, f4⟩ := (side_at p d (u + kHalfTolerance)).mp hin2
  have f1' : 0 < c.h - p.z - u * d.z := by
    have := rho_nonneg (c := c) (V3.at' p d u)
    rw [V3.at_z] at hin
    linarith
  have f2' : c.qA d * u ^ 2 + 2 * c.qB p d * u + c.qC p < 0 := by
    rw [← rho_at]
    nlinarith [rho_nonneg (c := c) (V3.at' p d u)]
  obtain ⟨a1, a2, -, a4, a5⟩ := ray_in (u := u) hv hD hA
  obtain ⟨b1, -, -, b4, b5⟩ := ray_in (u := u + kHalfTolerance) hv hD hA
  have hInf : u + kHalfTolerance ≤ kInfLength := by
    have h1 : (10 : ℝ) ^ 20 + 1 ≤ kInfLength := by
      unfold kInfLength
      have h : (2 : ℝ) ^ 100 ≤ 2 ^ 1023 := pow_le_pow_right₀ (by norm_num) (by norm_num)
      generalize (2 : ℝ) ^ 1023 = y at *
      norm_num at h ⊢
      linarith
    have h2 : kHalfTolerance ≤ 1 := by norm_num [kHalfTolerance, kTolerance]
    linarith
  have hkA : c.qA d < 0 → d.z ≠ 0 := by
    intro hA' hk
    unfold Par.qA at hA'
    rw [hk] at hA'
    nlinarith [sq_nonneg (d.x / c.a), sq_nonneg (d.y / c.b)]
  have hsi : sideIn c p d ≤ u ∧ u + kHalfTolerance ≤ sideOut' c p d := by
    unfold sideIn sideOut'
    rcases lt_or_gt_of_ne hA with hA' | hA'
    · rw [if_pos hA', if_pos hA']
      rcases lt_or_gt_of_ne (hkA hA') with hz | hz
      · rw [if_pos hz, if_neg (not_lt.mpr hz.le)]
        exact ⟨(a5 hA' hz).mp ⟨f1, f2⟩, hInf⟩
      · rw [if_neg (not_lt.mpr hz.le), if_pos hz]
        exact ⟨by linarith [kInfLength_pos], (b4 hA' hz).mp ⟨f3, f4⟩⟩
    · rw [if_neg (not_lt.mpr hA'.le), if_neg (not_lt.mpr hA'.le)]
      exact ⟨(a1 hA' f2).1, (b1 hA' f4).2⟩
  rw [moved_eq g hv hg, if_neg hl, if_neg, if_neg, if_pos]
  · exact add_le_add_left (max_le l1 hsi.1) o
  · have h1 : u + kHalfTolerance ≤ min (lidOut' c p d) (sideOut' c p d) := le_min l2 hsi.2
    have h2 : max (lidIn c p d) (sideIn c p d) ≤ u := max_le l1 hsi.1
    linarith
  · rintro ⟨h1, h2⟩
    have := a2 (lt_of_le_of_ne h1 (Ne.symm hA)) f1' f2'
    linarith [mul_comm d.z (rmin c p d)]
  · rintro (h | ⟨h1, h2⟩)
    · linarith
    · apply hs
      refine ⟨h2, ?_⟩
      rw [sq]
      linarith

/-- A closed point is not farther from the origin than the radius of the sphere. -/
theorem closed_mag (g : Good t c) (hv : c.Valid) {q : V3} (hq : c.Closed q) : q.mag2 ≤ t.rsph ^ 2 := by
  have ha := a_pos hv
  have hb := b_pos hv
  have h1 := rho_sq (c := c) q
  have h0 := rho_nonneg (c := c) q
  obtain ⟨z1, z2⟩ := abs_le.mp hq.z
  have h2 : c.rho q ^ 2 ≤ (c.h + c.cut) ^ 2 := pow_le_pow_left₀ h0 (by linarith [hq.r]) 2
  rw [g.rsph, sq_sqrt (by positivity)]
  have hx : q.x ^ 2 ≤ (c.a * (c.h + c.cut)) ^ 2 := by
    have : (q.x / c.a) ^ 2 ≤ (c.h + c.cut) ^ 2 := by linarith [sq_nonneg (q.y / c.b)]
    rw [div_pow, div_le_iff₀ (by positivity)] at this
    rw [mul_pow]; linarith
  have hy : q.y ^ 2 ≤ (c.b * (c.h + c.cut)) ^ 2 := by
    have : (q.y / c.b) ^ 2 ≤ (c.h + c.cut) ^ 2 := by linarith [sq_nonneg (q.x / c.a)]
    rw [div_pow, div_le_iff₀ (by positivity)] at this
    rw [mul_pow]; linarith
  have hz : q.z ^ 2 ≤ c.cut ^ 2 := sq_le_sq' z1 z2
  have e : q.mag2 = q.x ^ 2 + q.y ^ 2 + q.z ^ 2 := by
    show q.x * q.x + q.y * q.y + q.z * q.z = _
    ring
  rw [e]
  linarith

theorem deep_closed (hv : c.Valid) {q : V3} (hq : c.Deep q) : c.Closed q := by
  have hcos := cos_pos' hv
  have hT := kTolerance_pos
  refine ⟨by linarith [hq.z], ?_⟩
  by_contra h
  push Not at h
  have : 0 < (c.rho q + q.z - c.h) * c.cosMin := mul_pos (by linarith) hcos
  linarith [hq.r]

theorem at_at (p d : V3) (u v : ℝ) : V3.at' (V3.at' p d u) d v = V3.at' p d (u + v) := by
  show V3.mk (p.x + u * d.x + v * d.x) (p.y + u * d.y + v * d.y) (p.z + u * d.z + v * d.z) =
    V3.mk (p.x + (u + v) * d.x) (p.y + (u + v) * d.y) (p.z + (u + v) * d.z)
  congr 1 <;> ring

/-- The offset is not negative and does not reach the solid. -/
theorem offset_le (g : Good t c) (hv : c.Valid) {p d : V3} (hd : d.mag2 = 1) (hfar : p.mag2 > 1024 * t.rsph * t.rsph) {u : ℝ} (hu : 0 ≤ u)
    (hq : c.Closed (V3.at' p d u)) : 0 ≤ p.mag - 2 * t.rsph ∧ p.mag - 2 * t.rsph ≤ u := by
  have hR : 0 ≤ t.rsph := by rw [g.rsph]; exact sqrt_nonneg _
  have hm := closed_mag g hv hq
  have hpm : p.mag = √p.mag2 := rfl
  have hd' : d.x * d.x + d.y * d.y + d.z * d.z = 1 := hd
  have hm2 := V3.mag2_nonneg (V3.at' p d u)
  constructor
  · have : 2 * t.rsph ≤ √p.mag2 := le_sqrt_of_sq_le (by nlinarith)
    rw [hpm]; linarith
  · have : √p.mag2 ≤ t.rsph + u := by
      apply (sqrt_le_left (by linarith)).mpr
      have hcs : -((V3.at' p d u).dot d) ≤ t.rsph := by
        apply neg_le.mpr
        refine (abs_le_of_sq_le_sq' ?_ hR).1
        have h1 : (V3.at' p d u).dot d = (V3.at' p d u).x * d.x + (V3.at' p d u).y * d.y + (V3.at' p d u).z * d.z := rfl
        have h2 : (V3.at' p d u).mag2 = (V3.at' p d u).x * (V3.at' p d u).x + (V3.at' p d u).y * (V3.at' p d u).y +
          (V3.at' p d u).z * (V3.at' p d u).z := rfl
        rw [h2] at hm
        rw [h1]
        generalize (V3.at' p d u).x = x at *
        generalize (V3.at' p d u).y = y at *
        generalize (V3.at' p d u).z = z at *
        have h3 : (x * d.x + y * d.y + z * d.z) ^ 2 ≤ (x * x + y * y + z * z) * (d.x * d.x + d.y * d.y + d.z * d.z) := by
          nlinarith [sq_nonneg (x * d.y - y * d.x), sq_nonneg (x * d.z - z * d.x), sq_nonneg (y * d.z - z * d.y)]
        rw [hd', mul_one] at h3
        linarith
      have e : p.mag2 = (V3.at' p d u).mag2 - 2 * u * (V3.at' p d u).dot d + u ^ 2 * d.mag2 := by
        show p.x * p.x + p.y * p.y + p.z * p.z = ((p.x + u * d.x) * (p.x + u * d.x) + (p.y + u * d.y) * (p.y + u * d.y) +
          (p.z + u * d.z) * (p.z + u * d.z)) - 2 * u * ((p.x + u * d.x) * d.x + (p.y + u * d.y) * d.y + (p.z + u * d.z) * d.z) +
          u ^ 2 * (d.x * d.x + d.y * d.y + d.z * d.z)
        ring
      rw [e, hd]
      nlinarith [mul_le_mul_of_nonneg_left hcs hu]
    rw [hpm]; linarith

/-- C167: along a ray of unit direction, not nearly parallel to the lateral surface and not touching it, `DistanceToIn` is at most the
distance of any point that is more than a tolerance inside.  Missing: rays nearly parallel to the surface and those touching it. -/
theorem C167_found_partial (g : Good t c) (hv : c.Valid) {p d : V3} (hd : d.mag2 = 1) (hg : ¬ c.Grazing d) (hs : ¬ c.Scratching p d) {u : ℝ}
    (hu : 0 ≤ u) (hI : u ≤ 10 ^ 20) (hq : c.Deep (V3.at' p d u)) : distanceToIn t p d ≤ u := by
  unfold distanceToIn
  split
  · rename_i hfar
    obtain ⟨o1, o2⟩ := offset_le g hv hd hfar.1 hu (deep_closed hv hq)
    generalize p.mag - 2 * t.rsph = o at *
    have e : V3.at' (V3.at' p d o) d (u - o) = V3.at' p d u := by rw [at_at]; congr 1; ring
    have := found_moved g hv hd hg (p := V3.at' p d o) (u := u - o) ?_ (by linarith) (by linarith) (by rw [e]; exact hq) o
    · linarith
    · -- the moved ray is not scratching either
      rintro ⟨hA, h2⟩
      apply hs
      refine ⟨hA, ?_⟩
      have eB : c.qB (V3.at' p d o) d = c.qB p d + o * c.qA d := by
        unfold Par.qA Par.qB
        rw [V3.at_x, V3.at_y, V3.at_z]; ring
      have eD : c.qB (V3.at' p d o) d ^ 2 - c.qA d * c.qC (V3.at' p d o) = c.qB p d ^ 2 - c.qA d * c.qC p := by
        unfold Par.qA Par.qB Par.qC
        rw [V3.at_x, V3.at_y, V3.at_z]; ring
      rw [eD, eB] at h2
      have hin := (side_at p d u).mp (deep_closed hv hq).r
      have hD := disc_ray (deep_closed hv hq).r
      have hu2 : (c.qB p d + u * c.qA d) ^ 2 ≤ c.qB p d ^ 2 - c.qA d * c.qC p := by
        have := mul_nonneg hA (by linarith [hin.2] : 0 ≤ -(c.qA d * u ^ 2 + 2 * c.qB p d * u + c.qC p))
        nlinarith
      have he : 0 < kEpsilon := by norm_num [kEpsilon]
      have he1 : 2 * kEpsilon < 1 := by norm_num [kEpsilon]
      refine lt_of_lt_of_le h2 (mul_le_mul_of_nonneg_left ?_ (by linarith))
      rcases le_total 0 (c.qB p d + o * c.qA d) with h | h
      · exfalso
        have h3 : c.qB p d + o * c.qA d ≤ c.qB p d + u * c.qA d := by nlinarith
        have h4 := pow_le_pow_left₀ h h3 2
        nlinarith
      · have h3 : c.qB p d ≤ c.qB p d + o * c.qA d := by nlinarith
        nlinarith
  · have := found_moved g hv hd hg hs hu hI hq 0
    linarith

/-- C167: where `DistanceToIn` finds an entry, the point of the ray at that distance is in the cone, and between the bases up to the number
that is added to the divisor. -/
theorem C167_hit (g : Good t c) (hv : c.Valid) {p d : V3} (hd : d.x ≠ 0 ∨ d.y ≠ 0 ∨ d.z ≠ 0) (hg : ¬ c.Grazing d)
    (h : distanceToIn t p d ≠ kInfLength) :
    let q := V3.at' p d (distanceToIn t p d)
    c.rho q ≤ c.h - q.z ∧ |q.z| ≤ c.cut + (|distanceToIn t p d| + p.mag) * kTiny := by
  have hA := qA_ne hv hg hd
  have hR : 0 ≤ t.rsph := by rw [g.rsph]; exact sqrt_nonneg _
  have hti : 0 < kTiny := by norm_num [kTiny]
  have hkA : c.qA d < 0 → d.z ≠ 0 := by
    intro hA' hk
    unfold Par.qA at hA'
    rw [hk] at hA'
    nlinarith [sq_nonneg (d.x / c.a), sq_nonneg (d.y / c.b)]
  have moved : ∀ (p : V3) (o : ℝ), distanceToInMoved t p d o ≠ kInfLength → ∃ s, distanceToInMoved t p d o = s + o ∧
      c.rho (V3.at' p d s) ≤ c.h - (V3.at' p d s).z ∧ |(V3.at' p d s).z| ≤ c.cut + |s| * kTiny := by
    intro p o hne
    rw [moved_eq g hv hg] at hne ⊢
    split at hne
    · exact absurd rfl hne
    rename_i hl
    split at hne
    · exact absurd rfl hne
    rename_i hDs
    split at hne
    · exact absurd rfl hne
    rename_i hap
    split at hne
    · rename_i hlen
      rw [if_neg hl, if_neg hDs, if_neg hap, if_pos hlen]
      refine ⟨_, rfl, ?_⟩
      have hT := kHalfTolerance_pos
      have hD : 0 ≤ c.qB p d * c.qB p d - c.qA d * c.qC p := by
        by_contra h'
        push Not at h'
        exact hDs (Or.inl h')
      have m1 : lidIn c p d ≤ max (lidIn c p d) (sideIn c p d) := le_max_left _ _
      have m2 : sideIn c p d ≤ max (lidIn c p d) (sideIn c p d) := le_max_right _ _
      have m3 : min (lidOut' c p d) (sideOut' c p d) ≤ lidOut' c p d := min_le_left _ _
      have m4 : min (lidOut' c p d) (sideOut' c p d) ≤ sideOut' c p d := min_le_right _ _
      generalize max (lidIn c p d) (sideIn c p d) = s at *
      have m5 : s ≤ lidOut' c p d := by linarith
      have m6 : s ≤ sideOut' c p d := by linarith
      constructor
      · rw [side_at]
        obtain ⟨-, -, a3, a4, a5⟩ := ray_in (u := s) hv hD hA
        unfold sideIn at m2
        unfold sideOut' at m6
        rcases lt_or_gt_of_ne hA with hA' | hA'
        · rw [if_pos hA'] at m2 m6
          rcases lt_or_gt_of_ne (hkA hA') with hz | hz
          · rw [if_pos hz] at m2
            exact (a5 hA' hz).mpr m2
          · rw [if_pos hz] at m6
            exact (a4 hA' hz).mpr m6
        · rw [if_neg (not_lt.mpr hA'.le)] at m2 m6
          refine a3 hA' ?_ m2 m6
          by_contra h'
          push Not at h'
          exact hap ⟨hA'.le, by linarith [mul_comm d.z (rmin c p d)]⟩
      · rw [V3.at_z]
        have hs1 := neg_abs_le s
        have hs2 := le_abs_self s
        have t1 := mul_le_mul_of_nonneg_right hs1 hti.le
        have t2 := mul_le_mul_of_nonneg_right hs2 hti.le
        unfold lidIn at m1
        unfold lidOut' at m5
        by_cases hz : d.z < 0
        · have e : nonZero d.z = d.z - kTiny := by unfold nonZero copySign; rw [if_pos hz]; ring
          have hn : 0 < -(d.z - kTiny) := by linarith
          have ei : -1 / nonZero d.z = 1 / -(d.z - kTiny) := by rw [e, neg_div, ← div_neg]
          rw [ei] at m1 m5
          have hi : ¬ (1 / -(d.z - kTiny) < 0) := not_lt.mpr (by positivity)
          unfold copySign at m1 m5
          rw [if_neg hi, mul_one_div, div_le_iff₀ hn] at m1
          rw [if_neg hi, mul_one_div, le_div_iff₀ hn] at m5
          rw [abs_le]
          constructor <;> nlinarith
        · have e : nonZero d.z = d.z + kTiny := by unfold nonZero copySign; rw [if_neg hz]
          have hn : 0 < d.z + kTiny := by linarith
          have hi : -1 / (d.z + kTiny) < 0 := div_neg_of_neg_of_pos (by norm_num) hn
          rw [e] at m1 m5
          unfold copySign at m1 m5
          rw [if_pos hi, mul_div_assoc', div_le_iff₀ hn] at m1
          rw [if_pos hi, mul_div_assoc', le_div_iff₀ hn] at m5
          rw [abs_le]
          constructor <;> nlinarith
    · exact absurd rfl hne
  have hmag : 0 ≤ p.mag := sqrt_nonneg _
  intro q
  unfold distanceToIn at h
  have hq : q = V3.at' p d (distanceToIn t p d) := rfl
  by_cases hfar : p.mag2 > 1024 * t.rsph * t.rsph ∧ d.dot p < 0
  · rw [if_pos hfar] at h
    obtain ⟨s, h1, h2, h3⟩ := moved _ _ h
    have hdi : distanceToIn t p d = s + (p.mag - 2 * t.rsph) := by
      unfold distanceToIn
      rw [if_pos hfar]
      exact h1
    have e : q = V3.at' (V3.at' p d (p.mag - 2 * t.rsph)) d s := by rw [hq, at_at, hdi, add_comm]
    rw [e]
    refine ⟨h2, h3.trans ?_⟩
    have ho : 0 ≤ p.mag - 2 * t.rsph := by
      have : 2 * t.rsph ≤ √p.mag2 := le_sqrt_of_sq_le (by nlinarith [hfar.1])
      have hpm : p.mag = √p.mag2 := rfl
      linarith
    have : |s| ≤ |distanceToIn t p d| + p.mag := by
      rw [show s = distanceToIn t p d - (p.mag - 2 * t.rsph) by rw [hdi]; ring]
      refine (abs_sub _ _).trans ?_
      rw [abs_of_nonneg ho]
      linarith
    have := mul_le_mul_of_nonneg_right this hti.le
    linarith
  · rw [if_neg hfar] at h
    obtain ⟨s, h1, h2, h3⟩ := moved _ _ h
    have hdi : distanceToIn t p d = s := by
      unfold distanceToIn
      rw [if_neg hfar, h1, add_zero]
    rw [hq, hdi]
    refine ⟨h2, h3.trans ?_⟩
    have := mul_nonneg hmag hti.le
    linarith

/-- From the side into `tent`: the distance to the point in its centre is ten, and that to the surface at most that. -/
example (m : Struct) : distanceToIn (make m tent.a tent.b tent.h tent.cut) ⟨10, 0, 0⟩ ⟨-1, 0, 0⟩ ≤ 10 := by
  have hr : tent.rho (V3.at' ⟨10, 0, 0⟩ ⟨-1, 0, 0⟩ 10) = 0 := by
    unfold Par.rho tent
    rw [V3.at_x, V3.at_y]
    norm_num
  have hcos := cos_sq tent_valid
  have hcp := cos_pos' tent_valid
  have hm : min tent.a tent.b = 1 := by norm_num [tent]
  rw [hm] at hcos
  refine C167_found_partial (good_make tent_valid m) tent_valid ?_ ?_ ?_ (by norm_num) (by norm_num) ⟨?_, ?_⟩
  · show (-1 : ℝ) * (-1) + 0 * 0 + 0 * 0 = 1
    norm_num
  · unfold Par.Grazing
    norm_num [tent]
  · rintro ⟨-, h2⟩
    unfold Par.qA Par.qB Par.qC tent at h2
    norm_num [kEpsilon] at h2
  · rw [V3.at_z]
    norm_num [tent, kTolerance]
  · rw [hr, V3.at_z]
    have : kTolerance ≤ 1 := by norm_num [kTolerance]
    show (0 + (0 + 10 * 0) - 4) * tent.cosMin ≤ _
    nlinarith

end EllCone
end VecGeom
