import Verif.EllCone.Rest

/-!
# C166: the distance from inside elliptical cones
-/

namespace VecGeom
namespace EllCone

open Real

variable {c : Par} {t : Struct}

/-- Directions that are so nearly parallel to the lateral surface that the code bends them. -/
def Par.Grazing (c : Par) (d : V3) : Prop := |(d.x / c.a) ^ 2 + (d.y / c.b) ^ 2 - d.z ^ 2| < 2 * kEpsilon * d.z ^ 2

/-- The coefficients of the quadratic equation for the lateral surface. -/
noncomputable def Par.qA (c : Par) (d : V3) : ℝ := (d.x / c.a) ^ 2 + (d.y / c.b) ^ 2 - d.z ^ 2
noncomputable def Par.qB (c : Par) (p d : V3) : ℝ := p.x / c.a * (d.x / c.a) + p.y / c.b * (d.y / c.b) + (c.h - p.z) * d.z
noncomputable def Par.qC (c : Par) (p : V3) : ℝ := (p.x / c.a) ^ 2 + (p.y / c.b) ^ 2 - (c.h - p.z) ^ 2

/-- The two solutions the code computes. -/
noncomputable def root1 (A B C : ℝ) : ℝ := (-B - copySign √(B * B - A * C) B) / A
open Classical in
noncomputable def root2 (A B C : ℝ) : ℝ :=
  if -B - copySign √(B * B - A * C) B ≠ 0 then C / (-B - copySign √(B * B - A * C) B) else 0

theorem copySign_sq (s B : ℝ) : copySign s B ^ 2 = s ^ 2 := by
  unfold copySign
  split <;> simp [sq_abs]

theorem roots {A B C : ℝ} (hA : A ≠ 0) (hD : 0 ≤ B * B - A * C) (u : ℝ) :
    A * u ^ 2 + 2 * B * u + C = A * ((u - root1 A B C) * (u - root2 A B C)) := by
  have h1 := copySign_sq √(B * B - A * C) B
  rw [sq_sqrt hD] at h1
  unfold root1 root2
  by_cases hc : -B - copySign √(B * B - A * C) B ≠ 0
  · rw [if_pos hc]
    have h2 : (-B - copySign √(B * B - A * C) B) ^ 2 + 2 * B * (-B - copySign √(B * B - A * C) B) + A * C = 0 := by
      linear_combination h1
    generalize -B - copySign √(B * B - A * C) B = w at *
    field_simp
    linear_combination u * h2
  · rw [if_neg hc]
    push Not at hc
    rw [hc, zero_div]
    -- both `B` and the root vanish
    have hB : B = 0 := by
      unfold copySign at hc
      have := sqrt_nonneg (B * B - A * C)
      split at hc
      · linarith
      · linarith
    have hC : C = 0 := by
      rw [hB] at hc h1
      have : A * C = 0 := by nlinarith
      exact (mul_eq_zero.mp this).resolve_left hA
    rw [hB, hC]
    ring

theorem min_max_roots (A : ℝ) (x y u : ℝ) : A * ((u - x) * (u - y)) = A * ((u - min x y) * (u - max x y)) := by
  rcases le_total x y with h | h
  · rw [min_eq_left h, max_eq_right h]
  · rw [min_eq_right h, max_eq_left h]; ring

theorem rho_at (p d : V3) (u : ℝ) :
    c.rho (V3.at' p d u) ^ 2 - (c.h - (V3.at' p d u).z) ^ 2 = c.qA d * u ^ 2 + 2 * c.qB p d * u + c.qC p := by
  rw [rho_sq, V3.at_x, V3.at_y, V3.at_z]
  unfold Par.qA Par.qB Par.qC
  ring

theorem disc_nonneg {p : V3} (hp : c.rho p ≤ c.h - p.z) (d : V3) : 0 ≤ c.qB p d * c.qB p d - c.qA d * c.qC p := by
  have h0 := rho_nonneg (c := c) p
  have h1 := rho_sq (c := c) p
  have hC : c.qC p ≤ 0 := by
    unfold Par.qC
    rw [← h1]
    nlinarith
  rcases le_total 0 (c.qA d) with hA | hA
  · nlinarith [mul_self_nonneg (c.qB p d), mul_nonneg hA (by linarith : 0 ≤ -c.qC p)]
  · -- the reversed Cauchy–Schwarz inequality
    unfold Par.qA Par.qB Par.qC at *
    generalize p.x / c.a = x at *
    generalize p.y / c.b = y at *
    generalize d.x / c.a = v at *
    generalize d.y / c.b = w at *
    generalize c.h - p.z = m at *
    generalize d.z = k at *
    generalize c.rho p = r at *
    by_cases hk : k = 0
    · have hv : v = 0 := by nlinarith [sq_nonneg v, sq_nonneg w]
      have hw : w = 0 := by nlinarith [sq_nonneg v, sq_nonneg w]
      rw [hk, hv, hw]
      norm_num
    obtain ⟨u, hu⟩ : ∃ u, m = u * k := ⟨m / k, by field_simp⟩
    have e : (x * v + y * w + m * k) * (x * v + y * w + m * k) - (v ^ 2 + w ^ 2 - k ^ 2) * (x ^ 2 + y ^ 2 - m ^ 2) =
        ((v ^ 2 + w ^ 2 - k ^ 2) * u + (x * v + y * w + m * k)) ^ 2 - (v ^ 2 + w ^ 2 - k ^ 2) * ((x + u * v) ^ 2 + (y + u * w) ^ 2) := by
      rw [hu]; ring
    rw [e]
    have : 0 ≤ (x + u * v) ^ 2 + (y + u * w) ^ 2 := by positivity
    nlinarith [sq_nonneg ((v ^ 2 + w ^ 2 - k ^ 2) * u + (x * v + y * w + m * k)), mul_nonneg_of_nonpos_of_nonpos hA (neg_nonpos.mpr this)]

/-- The way to the lateral surface, from inside. -/
noncomputable def sideOut (c : Par) (p d : V3) : ℝ :=
  if c.qA d < 0 then (if d.z > 0 then min (root1 (c.qA d) (c.qB p d) (c.qC p)) (root2 (c.qA d) (c.qB p d) (c.qC p)) else kInfLength)
  else max (root1 (c.qA d) (c.qB p d) (c.qC p)) (root2 (c.qA d) (c.qB p d) (c.qC p))

theorem le_iff_sq {r m : ℝ} (hr : 0 ≤ r) : r ≤ m ↔ 0 ≤ m ∧ r ^ 2 - m ^ 2 ≤ 0 := by
  constructor
  · intro h; exact ⟨by linarith, by nlinarith⟩
  · rintro ⟨h1, h2⟩; exact abs_le_of_sq_le_sq' (by linarith) h1 |>.2

/-- The quadratic function of the ray against the scaled height below the apex. -/
theorem side_core {A B C m k S T : ℝ} (hA : A ≠ 0) (hm : 0 ≤ m) (hC : C ≤ 0) (hST : S ≤ T)
    (hroot : ∀ u, A * u ^ 2 + 2 * B * u + C = A * ((u - S) * (u - T)))
    (hap : ∀ u, m - u * k = 0 → 0 ≤ A * u ^ 2 + 2 * B * u + C)
    (hap0 : ∀ u, m - u * k = 0 → A * u ^ 2 + 2 * B * u + C = 0 → S = T)
    (hk : A < 0 → k ≠ 0) {u : ℝ} (hu : 0 ≤ u) :
    (0 < A → S ≤ 0 ∧ 0 ≤ T ∧ ((0 ≤ m - u * k ∧ A * u ^ 2 + 2 * B * u + C ≤ 0) ↔ u ≤ T)) ∧
    (A < 0 → 0 < k → 0 ≤ S ∧ ((0 ≤ m - u * k ∧ A * u ^ 2 + 2 * B * u + C ≤ 0) ↔ u ≤ S)) ∧
    (A < 0 → k < 0 → (0 ≤ m - u * k ∧ A * u ^ 2 + 2 * B * u + C ≤ 0)) := by
  have h0 := hroot 0
  have hC' : A * (S * T) ≤ 0 := by nlinarith
  refine ⟨fun hA' => ?_, fun hA' hk' => ?_, fun hA' hk' => ?_⟩
  · have hST0 : S * T ≤ 0 := by
      by_contra h
      push Not at h
      nlinarith
    have hS : S ≤ 0 := by
      by_contra h
      push Not at h
      nlinarith
    have hT : 0 ≤ T := by
      by_contra h
      push Not at h
      nlinarith
    refine ⟨hS, hT, ?_⟩
    rw [hroot]
    constructor
    · rintro ⟨-, h⟩
      by_contra hc
      push Not at hc
      have : 0 < (u - S) * (u - T) := mul_pos (by linarith) (by linarith)
      nlinarith
    · intro h
      refine ⟨?_, ?_⟩
      · by_contra hc
        push Not at hc
        have hk0 : 0 < k := by
          by_contra h'
          push Not at h'
          nlinarith
        -- the apex height is reached before
        have hap' := hap (m / k) (by field_simp; ring)
        have hap0' := hap0 (m / k) (by field_simp; ring)
        rw [hroot] at hap' hap0'
        have h1 : 0 ≤ m / k := by positivity
        have h2 : m / k < u := by rw [div_lt_iff₀ hk0]; linarith
        have h3 : m / k < T := by linarith
        rcases (show S ≤ m / k by linarith).lt_or_eq with h4 | h4
        · have : 0 < (m / k - S) * (T - m / k) := mul_pos (by linarith) (by linarith)
          nlinarith
        · have := hap0' (by rw [← h4]; ring)
          linarith
      · have : (u - S) * (u - T) ≤ 0 := mul_nonpos_of_nonneg_of_nonpos (by linarith) (by linarith)
        nlinarith
  · have hap' := hap (m / k) (by field_simp; ring)
    have hap0' := hap0 (m / k) (by field_simp; ring)
    rw [hroot] at hap' hap0'
    have h1 : 0 ≤ m / k := by positivity
    have h2 : m / k * k = m := by field_simp
    generalize m / k = w at *
    have h3 : (w - S) * (w - T) ≤ 0 := by
      by_contra h
      push Not at h
      nlinarith
    have h4 : S ≤ w := by
      by_contra h
      push Not at h
      nlinarith
    have h5 : w ≤ T := by
      by_contra h
      push Not at h
      rcases h4.lt_or_eq with h6 | h6
      · nlinarith
      · linarith
    have hST0 : 0 ≤ S * T := by
      by_contra h
      push Not at h
      nlinarith
    have hS : 0 ≤ S := by
      by_contra h
      push Not at h
      have hT0 : 0 ≤ T := by linarith
      rcases hT0.lt_or_eq with h6 | h6
      · nlinarith
      · -- the apex itself
        have h7 : w = 0 := by linarith
        have := hap0' (by rw [h7, ← h6]; ring)
        linarith
    refine ⟨hS, ?_⟩
    rw [hroot]
    constructor
    · rintro ⟨h6, h7⟩
      by_contra hc
      push Not at hc
      have h8 : u ≤ w := by
        by_contra h
        push Not at h
        nlinarith
      have h9 : 0 ≤ (u - S) * (u - T) := by
        by_contra h
        push Not at h
        nlinarith
      rcases (show u ≤ T by linarith).lt_or_eq with h10 | h10
      · nlinarith
      · have h11 : w = T := by linarith
        have := hap0' (by rw [h11]; ring)
        linarith
    · intro h
      refine ⟨by nlinarith, ?_⟩
      have : 0 ≤ (u - S) * (u - T) := mul_nonneg_of_nonpos_of_nonpos (by linarith) (by linarith)
      nlinarith
  · refine ⟨by nlinarith, ?_⟩
    have hap' := hap (m / k) (by have := hk hA'; field_simp; ring)
    have hap0' := hap0 (m / k) (by have := hk hA'; field_simp; ring)
    rw [hroot] at hap' hap0' ⊢
    have h1 : m / k ≤ 0 := div_nonpos_of_nonneg_of_nonpos hm hk'.le
    generalize m / k = w at *
    have h3 : (w - S) * (w - T) ≤ 0 := by
      by_contra h
      push Not at h
      nlinarith
    have h4 : S ≤ w := by
      by_contra h
      push Not at h
      nlinarith
    have hST0 : 0 ≤ S * T := by
      by_contra h
      push Not at h
      nlinarith
    have hT : T ≤ 0 := by
      by_contra h
      push Not at h
      rcases (show S ≤ 0 by linarith).lt_or_eq with h6 | h6
      · nlinarith
      · have h7 : w = 0 := by linarith
        have := hap0' (by rw [h7, h6]; ring)
        linarith
    have : 0 ≤ (u - S) * (u - T) := mul_nonneg (by linarith) (by linarith)
    nlinarith

theorem tiny_false {d : V3} (g : Good t c) (hg : ¬ c.Grazing d) :
    tinyA (d.x * t.invDx * (d.x * t.invDx) + d.y * t.invDy * (d.y * t.invDy)) d.z = false := by
  unfold tinyA
  rw [decide_eq_false_iff_not, g.ix, g.iy]
  unfold Par.Grazing at hg
  rwa [show d.x * (1 / c.a) * (d.x * (1 / c.a)) + d.y * (1 / c.b) * (d.y * (1 / c.b)) - d.z * d.z =
    (d.x / c.a) ^ 2 + (d.y / c.b) ^ 2 - d.z ^ 2 by ring, show d.z * d.z = d.z ^ 2 by ring]

theorem qA_ne (hv : c.Valid) {d : V3} (hg : ¬ c.Grazing d) (hd : d.x ≠ 0 ∨ d.y ≠ 0 ∨ d.z ≠ 0) : c.qA d ≠ 0 := by
  have ha := a_pos hv
  have hb := b_pos hv
  intro h
  unfold Par.Grazing at hg
  unfold Par.qA at h
  rw [h, abs_zero, not_lt] at hg
  have he : 0 < kEpsilon := by norm_num [kEpsilon]
  have hz : d.z ^ 2 = 0 := by nlinarith [sq_nonneg d.z]
  have hz' : d.z = 0 := by simpa using hz
  rw [hz] at h
  have hx : d.x / c.a = 0 := by nlinarith [sq_nonneg (d.x / c.a), sq_nonneg (d.y / c.b)]
  have hy : d.y / c.b = 0 := by nlinarith [sq_nonneg (d.x / c.a), sq_nonneg (d.y / c.b)]
  have hx' : d.x = 0 := by simpa [ha.ne'] using hx
  have hy' : d.y = 0 := by simpa [hb.ne'] using hy
  rcases hd with h | h | h
  · exact h hx'
  · exact h hy'
  · exact h hz'

/-- The roots in order. -/
noncomputable def rmin (c : Par) (p d : V3) : ℝ := min (root1 (c.qA d) (c.qB p d) (c.qC p)) (root2 (c.qA d) (c.qB p d) (c.qC p))
noncomputable def rmax (c : Par) (p d : V3) : ℝ := max (root1 (c.qA d) (c.qB p d) (c.qC p)) (root2 (c.qA d) (c.qB p d) (c.qC p))

open Classical in
/-- The way to the bases. -/
noncomputable def lidOut (c : Par) (p d : V3) : ℝ := if d.z ≠ 0 then (copySign c.cut d.z - p.z) / d.z else kInfLength

theorem qC_nonpos {p : V3} (hp : c.rho p ≤ c.h - p.z) : c.qC p ≤ 0 := by
  have := (le_iff_sq (rho_nonneg (c := c) p)).mp hp
  rw [rho_sq] at this
  exact this.2

open Classical in
theorem out_eq (g : Good t c) (hv : c.Valid) {p d : V3} (hp : c.Closed p) (hg : ¬ c.Grazing d) :
    distanceToOut t p d = if (0 ≤ c.qA d ∧ 0 ≤ p.z - c.h + d.z * rmax c p d) ∨ (0 ≤ p.z - c.h ∧ 0 ≤ d.z) then 0
      else min (lidOut c p d) (sideOut c p d) := by
  have hT := kHalfTolerance_pos
  have hcos := cos_pos' hv
  have hroot := root_eq g p
  have htiny := tiny_false g hg
  have eA : d.x * t.invDx * (d.x * t.invDx) + d.y * t.invDy * (d.y * t.invDy) - d.z * d.z = c.qA d := by
    rw [g.ix, g.iy]; unfold Par.qA; ring
  have eB : p.x * t.invDx * (d.x * t.invDx) + p.y * t.invDy * (d.y * t.invDy) - (p.z - c.h) * d.z = c.qB p d := by
    rw [g.ix, g.iy]; unfold Par.qB; ring
  have eC : p.x * t.invDx * (p.x * t.invDx) + p.y * t.invDy * (p.y * t.invDy) - (p.z - c.h) * (p.z - c.h) = c.qC p := by
    rw [g.ix, g.iy]; unfold Par.qC; ring
  have hsfr : (c.rho p + p.z - c.h) * c.cosMin ≤ 0 := mul_nonpos_of_nonpos_of_nonneg (by linarith [hp.r]) hcos.le
  have hD := disc_nonneg hp.r d
  have hC := qC_nonpos hp.r
  unfold distanceToOut
  dsimp only
  rw [hroot, g.dz, g.zcut, g.cos, if_neg (show ¬ max ((c.rho p + p.z - c.h) * c.cosMin) (|p.z| - c.cut) > kHalfTolerance by
    push Not
    exact max_le (by linarith) (by linarith [hp.z]))]
  unfold bent
  rw [htiny]
  simp only [Bool.false_eq_true, if_false]
  rw [eA, eB, eC]
  have hnD : ¬ ((c.rho p + p.z - c.h) * c.cosMin ≤ 0 ∧ c.qB p d * c.qB p d - c.qA d * c.qC p < 0) := fun h => by linarith [h.2]
  simp only [hnD, if_false]
  have hscr : ¬ (c.qB p d * c.qB p d - c.qA d * c.qC p < 0 ∨
      c.qB p d * c.qB p d - c.qA d * c.qC p < 2 * kEpsilon * c.qB p d * c.qB p d ∧ c.qA d ≥ 0) := by
    rintro (h | ⟨h1, h2⟩)
    · linarith
    · have he : 2 * kEpsilon < 1 := by norm_num [kEpsilon]
      nlinarith [mul_self_nonneg (c.qB p d), mul_nonneg h2 (by linarith : 0 ≤ -c.qC p)]
  rw [if_neg hscr]
  have hsec : second false (c.qC p) (-c.qB p d - copySign √(c.qB p d * c.qB p d - c.qA d * c.qC p) (c.qB p d)) (c.qB p d) (c.qB p d) =
      root2 (c.qA d) (c.qB p d) (c.qC p) := by
    unfold second root2
    simp only [Bool.false_eq_true, false_and, if_false]
  rw [hsec]
  rfl

/-- What is on the ray, in terms of the quadratic function. -/
theorem side_at (p d : V3) (u : ℝ) : c.rho (V3.at' p d u) ≤ c.h - (V3.at' p d u).z ↔
    0 ≤ c.h - p.z - u * d.z ∧ c.qA d * u ^ 2 + 2 * c.qB p d * u + c.qC p ≤ 0 := by
  rw [le_iff_sq (rho_nonneg _), rho_at, V3.at_z, show c.h - (p.z + u * d.z) = c.h - p.z - u * d.z by ring]

theorem ray_core (hv : c.Valid) {p d : V3} (hp : c.rho p ≤ c.h - p.z) (hA : c.qA d ≠ 0) {u : ℝ} (hu : 0 ≤ u) :
    (0 < c.qA d → rmin c p d ≤ 0 ∧ 0 ≤ rmax c p d ∧ (c.rho (V3.at' p d u) ≤ c.h - (V3.at' p d u).z ↔ u ≤ rmax c p d)) ∧
    (c.qA d < 0 → 0 < d.z → 0 ≤ rmin c p d ∧ (c.rho (V3.at' p d u) ≤ c.h - (V3.at' p d u).z ↔ u ≤ rmin c p d)) ∧
    (c.qA d < 0 → d.z < 0 → c.rho (V3.at' p d u) ≤ c.h - (V3.at' p d u).z) := by
  have ha := a_pos hv
  have hb := b_pos hv
  have hD := disc_nonneg hp d
  have hC := qC_nonpos hp
  have hm : 0 ≤ c.h - p.z := le_trans (rho_nonneg p) hp
  have hroot : ∀ u, c.qA d * u ^ 2 + 2 * c.qB p d * u + c.qC p = c.qA d * ((u - rmin c p d) * (u - rmax c p d)) := by
    intro u
    rw [roots hA hD, min_max_roots]
    rfl
  have hap : ∀ u, c.h - p.z - u * d.z = 0 → c.qA d * u ^ 2 + 2 * c.qB p d * u + c.qC p = c.rho (V3.at' p d u) ^ 2 := by
    intro u h
    rw [← rho_at, V3.at_z, show c.h - (p.z + u * d.z) = 0 by linarith]
    ring
  rw [side_at]
  refine side_core hA hm hC min_le_max hroot (fun u h => by rw [hap u h]; positivity) (fun u h h0 => ?_) (fun hA' hk => ?_) hu
  · rw [hap u h, rho_sq, V3.at_x, V3.at_y] at h0
    have hx : (p.x + u * d.x) / c.a = 0 := by nlinarith [sq_nonneg ((p.x + u * d.x) / c.a), sq_nonneg ((p.y + u * d.y) / c.b)]
    have hy : (p.y + u * d.y) / c.b = 0 := by nlinarith [sq_nonneg ((p.x + u * d.x) / c.a), sq_nonneg ((p.y + u * d.y) / c.b)]
    have hx' : p.x / c.a = -(u * (d.x / c.a)) := by linear_combination hx
    have hy' : p.y / c.b = -(u * (d.y / c.b)) := by linear_combination hy
    have hsq : ∀ x, c.qA d * x ^ 2 + 2 * c.qB p d * x + c.qC p = c.qA d * (x - u) ^ 2 := by
      intro x
      unfold Par.qA Par.qB Par.qC
      rw [hx', hy', show c.h - p.z = u * d.z by linarith]
      ring
    have h1 := hroot (rmin c p d)
    have h2 := hroot (rmax c p d)
    rw [hsq, sub_self, zero_mul, mul_zero] at h1
    rw [hsq, sub_self, mul_zero, mul_zero] at h2
    have h3 := (mul_eq_zero.mp h1).resolve_left hA
    have h4 := (mul_eq_zero.mp h2).resolve_left hA
    have h5 : rmin c p d - u = 0 := by simpa using h3
    have h6 : rmax c p d - u = 0 := by simpa using h4
    show rmin c p d = rmax c p d
    linarith
  · unfold Par.qA at hA'
    rw [hk] at hA'
    nlinarith [sq_nonneg (d.x / c.a), sq_nonneg (d.y / c.b)]

theorem lid_iff {p d : V3} (hp : |p.z| ≤ c.cut) {u : ℝ} (hu : 0 ≤ u) (hI : u ≤ kInfLength) :
    0 ≤ lidOut c p d ∧ (|(V3.at' p d u).z| ≤ c.cut ↔ u ≤ lidOut c p d) := by
  obtain ⟨h1, h2⟩ := abs_le.mp hp
  unfold lidOut
  rw [V3.at_z]
  by_cases h0 : d.z ≠ 0
  · rw [if_pos h0]
    unfold copySign
    by_cases hz : d.z < 0
    · rw [if_pos hz]
      refine ⟨div_nonneg_of_nonpos (by linarith) hz.le, ?_⟩
      rw [le_div_iff_of_neg hz, abs_le]
      constructor
      · rintro ⟨h3, h4⟩; linarith
      · intro h; constructor <;> nlinarith
    · have hz' : 0 < d.z := lt_of_le_of_ne (not_lt.mp hz) (Ne.symm h0)
      rw [if_neg hz]
      refine ⟨div_nonneg (by linarith) hz'.le, ?_⟩
      rw [le_div_iff₀ hz', abs_le]
      constructor
      · rintro ⟨h3, h4⟩; linarith
      · intro h; constructor <;> nlinarith
  · rw [if_neg h0]
    push Not at h0
    rw [h0, mul_zero, add_zero]
    exact ⟨kInfLength_pos.le, fun _ => hI, fun _ => hp⟩

theorem at_zero (p d : V3) : V3.at' p d 0 = p := by
  show V3.mk (p.x + 0 * d.x) (p.y + 0 * d.y) (p.z + 0 * d.z) = p
  rw [zero_mul, zero_mul, zero_mul, add_zero, add_zero, add_zero]

/-- Two ways to give up, of which only the apex is met by. -/
theorem done_zero (hv : c.Valid) {p d : V3} (hp : c.rho p ≤ c.h - p.z) (hA : c.qA d ≠ 0) (hkA : c.qA d < 0 → d.z ≠ 0) {u : ℝ} (hu : 0 ≤ u)
    (hdone : (0 ≤ c.qA d ∧ 0 ≤ p.z - c.h + d.z * rmax c p d) ∨ (0 ≤ p.z - c.h ∧ 0 ≤ d.z)) :
    c.rho (V3.at' p d u) ≤ c.h - (V3.at' p d u).z → u ≤ 0 := by
  have ha := a_pos hv
  have hb := b_pos hv
  have hm : 0 ≤ c.h - p.z := le_trans (rho_nonneg p) hp
  obtain ⟨c1, -, -⟩ := ray_core hv hp hA hu
  rcases hdone with ⟨h1, h2⟩ | ⟨h1, h2⟩
  · have hA' : 0 < c.qA d := lt_of_le_of_ne h1 (Ne.symm hA)
    obtain ⟨r1, r2, r3⟩ := c1 hA'
    rw [r3]
    -- at the end of the way the ray is at the apex
    obtain ⟨-, -, e3⟩ := (ray_core hv hp hA r2).1 hA'
    have h4 := e3.mpr le_rfl
    have h5 : c.h - (V3.at' p d (rmax c p d)).z ≤ 0 := by rw [V3.at_z]; nlinarith
    have h6 := rho_nonneg (c := c) (V3.at' p d (rmax c p d))
    have h7 : c.rho (V3.at' p d (rmax c p d)) = 0 := by linarith
    have h8 : c.h - (V3.at' p d (rmax c p d)).z = 0 := by linarith
    have h9 := rho_at (c := c) p d (rmax c p d)
    rw [h7, h8] at h9
    -- there the quadratic function has a double root, and it is not positive at the start
    have hC := qC_nonpos hp
    have hx := rho_sq (c := c) (V3.at' p d (rmax c p d))
    rw [h7, V3.at_x, V3.at_y] at hx
    rw [V3.at_z] at h8
    generalize rmax c p d = T at *
    have hx1 : (p.x + T * d.x) / c.a = 0 := by nlinarith [sq_nonneg ((p.x + T * d.x) / c.a), sq_nonneg ((p.y + T * d.y) / c.b)]
    have hy1 : (p.y + T * d.y) / c.b = 0 := by nlinarith [sq_nonneg ((p.x + T * d.x) / c.a), sq_nonneg ((p.y + T * d.y) / c.b)]
    have hx' : p.x / c.a = -(T * (d.x / c.a)) := by linear_combination hx1
    have hy' : p.y / c.b = -(T * (d.y / c.b)) := by linear_combination hy1
    have hC2 : c.qC p = c.qA d * T ^ 2 := by
      unfold Par.qA Par.qC
      rw [hx', hy', show c.h - p.z = T * d.z by linarith]
      ring
    rw [hC2] at hC
    have hT2 : T ^ 2 ≤ 0 := by
      by_contra h
      push Not at h
      nlinarith
    have hT0 : T = 0 := by nlinarith [sq_nonneg T]
    rw [hT0]
    exact id
  · have hz0 : c.h - p.z = 0 := by linarith
    intro h
    have hr0 := rho_nonneg (c := c) (V3.at' p d u)
    rw [V3.at_z] at h
    have h3 : u * d.z ≤ 0 := by linarith
    by_contra hc
    push Not at hc
    have hdz : d.z = 0 := by nlinarith
    have hA' : 0 < c.qA d := by
      rcases lt_or_gt_of_ne hA with h | h
      · exact absurd hdz (hkA h)
      · exact h
    obtain ⟨r1, r2, r3⟩ := c1 hA'
    rw [V3.at_z] at r3
    have h4 : u ≤ rmax c p d := r3.mp h
    -- at the apex the larger root is zero
    obtain ⟨-, -, e3⟩ := (ray_core hv hp hA r2).1 hA'
    have h5 := e3.mpr le_rfl
    have h6 := rho_at (c := c) p d u
    have hrho : c.rho (V3.at' p d u) = 0 := by rw [hdz] at h; linarith
    have hrp : c.rho p = 0 := le_antisymm (by linarith [hp]) (rho_nonneg p)
    have hps := rho_sq (c := c) p
    rw [hrp] at hps
    have hx1 : p.x / c.a = 0 := by nlinarith [sq_nonneg (p.x / c.a), sq_nonneg (p.y / c.b)]
    have hy1 : p.y / c.b = 0 := by nlinarith [sq_nonneg (p.x / c.a), sq_nonneg (p.y / c.b)]
    rw [hrho, V3.at_z, hdz] at h6
    have hB : c.qB p d = 0 := by unfold Par.qB; rw [hx1, hy1, hz0]; ring
    have hC : c.qC p = 0 := by unfold Par.qC; rw [hx1, hy1, hz0]; ring
    rw [hB, hC, show c.h - (p.z + u * 0) = 0 by linarith] at h6
    have : 0 < c.qA d * u ^ 2 := by positivity
    linarith

/-- C166: from a point of the solid, in a direction that is not nearly parallel to the lateral surface, `DistanceToOut` is exactly the
length of the way inside: the points of the ray up to that distance, and only those, belong to the solid. -/
theorem C166_out (g : Good t c) (hv : c.Valid) {p d : V3} (hp : c.Closed p) (hd : d.x ≠ 0 ∨ d.y ≠ 0 ∨ d.z ≠ 0) (hg : ¬ c.Grazing d) {u : ℝ}
    (hu : 0 ≤ u) (hI : u ≤ kInfLength) : 0 ≤ distanceToOut t p d ∧ (c.Closed (V3.at' p d u) ↔ u ≤ distanceToOut t p d) := by
  have ha := a_pos hv
  have hb := b_pos hv
  have hA := qA_ne hv hg hd
  have hm : 0 ≤ c.h - p.z := le_trans (rho_nonneg p) hp.r
  obtain ⟨hl0, hl⟩ := lid_iff (d := d) hp.z hu hI
  obtain ⟨c1, c2, c3⟩ := ray_core hv hp.r hA hu
  have hcl : c.Closed (V3.at' p d u) ↔ |(V3.at' p d u).z| ≤ c.cut ∧ c.rho (V3.at' p d u) ≤ c.h - (V3.at' p d u).z :=
    ⟨fun h => ⟨h.z, h.r⟩, fun h => ⟨h.1, h.2⟩⟩
  have hkA : c.qA d < 0 → d.z ≠ 0 := by
    intro hA' hk
    unfold Par.qA at hA'
    rw [hk] at hA'
    nlinarith [sq_nonneg (d.x / c.a), sq_nonneg (d.y / c.b)]
  rw [out_eq g hv hp hg]
  by_cases hdone : (0 ≤ c.qA d ∧ 0 ≤ p.z - c.h + d.z * rmax c p d) ∨ (0 ≤ p.z - c.h ∧ 0 ≤ d.z)
  · rw [if_pos hdone]
    refine ⟨le_rfl, ?_⟩
    -- only the apex gets here
    have hzero : u = 0 → c.Closed (V3.at' p d u) := by
      intro h
      have : V3.at' p d u = p := by
        rw [h]
        exact at_zero p d
      rw [this]; exact hp
    suffices h : c.rho (V3.at' p d u) ≤ c.h - (V3.at' p d u).z → u ≤ 0 from
      ⟨fun h' => h h'.r, fun h' => hzero (le_antisymm h' hu)⟩
    exact done_zero hv hp.r hA hkA hu hdone
  · rw [if_neg hdone, hcl, hl, le_min_iff, le_min_iff]
    unfold sideOut
    rcases lt_or_gt_of_ne hA with hA' | hA'
    · rw [if_pos hA']
      by_cases hz : d.z > 0
      · obtain ⟨r1, r2⟩ := c2 hA' hz
        rw [if_pos hz, r2]
        exact ⟨⟨hl0, r1⟩, Iff.rfl⟩
      · have hz' : d.z < 0 := lt_of_le_of_ne (not_lt.mp hz) (hkA hA')
        rw [if_neg hz]
        have := c3 hA' hz'
        exact ⟨⟨hl0, kInfLength_pos.le⟩, fun h => ⟨h.1, hI⟩, fun h => ⟨h.1, this⟩⟩
    · obtain ⟨r1, r2, r3⟩ := c1 hA'
      rw [if_neg (not_lt.mpr hA'.le), r3]
      exact ⟨⟨hl0, r2⟩, Iff.rfl⟩

/-- C166: from points that `Inside` reports as outside the distance is -1. -/
theorem C166_out_outside (t : Struct) (p d : V3) (h : inside t p = .outside) : distanceToOut t p d = -1 := by
  have hT := kHalfTolerance_pos
  have : approx t p > kHalfTolerance := by
    unfold inside at h
    split at h
    · cases h
    split at h
    · assumption
    · cases h
  unfold distanceToOut
  dsimp only
  exact if_pos this

/-- The numbers of the next theorem. -/
theorem grazing_numbers {E : ℝ} (h0 : 0 < E) (h1 : E < 1 / 100) :
    let A := 1 - (-1 + 2 * E) * (-1 + 2 * E)
    let B := 2 * E
    let C := (2 - 2 * E) * (2 - 2 * E) - 4
    let D := B * B - A * C
    0 < A ∧ B * B ≤ D ∧ (-B - √D) / A ≤ -1 ∧ -C / (2 * (-2 * E)) = -(2 - E) := by
  intro A B C D
  have hA : 0 < A := by show 0 < 1 - (-1 + 2 * E) * (-1 + 2 * E); nlinarith
  have hC : C ≤ 0 := by show (2 - 2 * E) * (2 - 2 * E) - 4 ≤ 0; nlinarith
  have hD : B * B ≤ D := by
    show B * B ≤ B * B - A * C
    nlinarith
  refine ⟨hA, hD, ?_, ?_⟩
  · rw [div_le_iff₀ hA]
    have h2 : B ≤ √D := le_sqrt_of_sq_le (by rw [sq]; exact hD)
    have h3 : A ≤ 2 * B := by
      show 1 - (-1 + 2 * E) * (-1 + 2 * E) ≤ 2 * (2 * E)
      nlinarith
    linarith
  · show -((2 - 2 * E) * (2 - 2 * E) - 4) / (2 * (-2 * E)) = _
    field_simp
    ring

/-- C166: for directions nearly parallel to the lateral surface `DistanceToOut` may be well below zero from a point inside, although
the ray stays inside until it reaches the base.  The point is closer to the surface than the tolerance. -/
theorem C166_grazing_counterexample (m : Struct) :
    let p : V3 := ⟨2 - 2 * kEpsilon, 0, 0⟩
    let d : V3 := ⟨1, 0, -1⟩
    spire.Closed p ∧ distanceToOut (make m 1 1 2 (3 / 2)) p d ≤ -1 ∧ ∀ u, 0 ≤ u → u ≤ 3 / 2 → spire.Closed (V3.at' p d u) := by
  intro p d
  have g : Good (make m 1 1 2 (3 / 2)) spire := good_make spire_valid m
  have h0 : 0 < kEpsilon := by norm_num [kEpsilon]
  have h1 : kEpsilon < 1 / 100 := by norm_num [kEpsilon]
  have hcl : ∀ u, 0 ≤ u → u ≤ 3 / 2 → spire.Closed (V3.at' p d u) := by
    intro u hu hu2
    have hr : spire.rho (V3.at' p d u) = 2 - 2 * kEpsilon + u := by
      unfold Par.rho
      rw [V3.at_x, V3.at_y]
      show √(((2 - 2 * kEpsilon + u * 1) / 1) ^ 2 + ((0 + u * 0) / 1) ^ 2) = _
      rw [show ((2 - 2 * kEpsilon + u * 1) / 1) ^ 2 + ((0 + u * 0) / 1) ^ 2 = (2 - 2 * kEpsilon + u) ^ 2 by ring, sqrt_sq (by linarith)]
    refine ⟨?_, ?_⟩
    · rw [V3.at_z]
      show |0 + u * (-1)| ≤ 3 / 2
      rw [abs_le]
      constructor <;> linarith
    · rw [hr, V3.at_z]
      show _ ≤ 2 - (0 + u * (-1))
      linarith
  have hp : spire.Closed p := by
    have := hcl 0 le_rfl (by norm_num)
    rwa [at_zero] at this
  refine ⟨hp, ?_, hcl⟩
  have hT := kHalfTolerance_pos
  have hcos := cos_pos' spire_valid
  have hroot := root_eq g p
  have hsfr : (spire.rho p + p.z - spire.h) * spire.cosMin ≤ 0 := mul_nonpos_of_nonpos_of_nonneg (by linarith [hp.r]) hcos.le
  obtain ⟨n1, n2, n3, n4⟩ := grazing_numbers h0 h1
  have ix : (make m 1 1 2 (3 / 2)).invDx = 1 := by rw [g.ix]; show (1 : ℝ) / 1 = 1; norm_num
  have iy : (make m 1 1 2 (3 / 2)).invDy = 1 := by rw [g.iy]; show (1 : ℝ) / 1 = 1; norm_num
  unfold distanceToOut
  dsimp only
  rw [hroot, g.dz, g.zcut, g.cos, if_neg (show ¬ max ((spire.rho p + p.z - spire.h) * spire.cosMin) (|p.z| - spire.cut) > kHalfTolerance by
    push Not
    exact max_le (by linarith) (by linarith [hp.z]))]
  rw [ix, iy]
  have eh : spire.h = 2 := rfl
  have ez : p.z = 0 := rfl
  have ex : p.x = 2 - 2 * kEpsilon := rfl
  have ey : p.y = 0 := rfl
  have dx : d.x = 1 := rfl
  have dz : d.z = -1 := rfl
  have et : tinyA (1 * 1 * (1 * 1) + 0 * 1 * (0 * 1)) (-1) = true := by
    unfold tinyA
    rw [decide_eq_true_eq]
    norm_num
    exact h0
  have eb : bent (1 * 1 * (1 * 1) + 0 * 1 * (0 * 1)) (-1) = -1 + 2 * kEpsilon := by
    unfold bent
    rw [if_pos et]
    norm_num
  rw [ex, ey, dx, dz, et, eb, eh, ez]
  rw [ez, eh] at hsfr
  have eA : 1 * 1 * (1 * 1) + 0 * 1 * (0 * 1) - (-1 + 2 * kEpsilon) * (-1 + 2 * kEpsilon) = 1 - (-1 + 2 * kEpsilon) * (-1 + 2 * kEpsilon) := by ring
  have eB : (2 - 2 * kEpsilon) * 1 * (1 * 1) + 0 * 1 * (0 * 1) - (0 - 2) * (-1 + 2 * kEpsilon) = 2 * kEpsilon := by ring
  have eB0 : (2 - 2 * kEpsilon) * 1 * (1 * 1) + 0 * 1 * (0 * 1) - (0 - 2) * (-1) = -2 * kEpsilon := by ring
  have eC : (2 - 2 * kEpsilon) * 1 * ((2 - 2 * kEpsilon) * 1) + 0 * 1 * (0 * 1) - (0 - 2) * (0 - 2) = (2 - 2 * kEpsilon) * (2 - 2 * kEpsilon) - 4 := by
    ring
  rw [eA, eB, eB0, eC]
  clear eA eB eB0 eC et eb
  generalize hA : 1 - (-1 + 2 * kEpsilon) * (-1 + 2 * kEpsilon) = A at *
  generalize hC : (2 - 2 * kEpsilon) * (2 - 2 * kEpsilon) - 4 = C at *
  have hBB : 0 < 2 * kEpsilon * (2 * kEpsilon) := by positivity
  generalize hD : 2 * kEpsilon * (2 * kEpsilon) - A * C = D at *
  have hD0 : ¬ ((spire.rho p + 0 - 2) * spire.cosMin ≤ 0 ∧ D < 0) := fun h => by linarith [h.2]
  simp only [hD0, if_false]
  have hs : ¬ (D < 0 ∨ D < 2 * kEpsilon * (2 * kEpsilon) * (2 * kEpsilon) ∧ A ≥ 0) := by
    rintro (h | ⟨h, -⟩)
    · linarith
    · nlinarith
  rw [if_neg hs]
  have ecs : copySign √D (2 * kEpsilon) = √D := if_neg (by linarith)
  have esec : second true C (-(2 * kEpsilon) - √D) (-2 * kEpsilon) (-2 * kEpsilon) = -(2 - kEpsilon) := by
    unfold second
    rw [if_pos ⟨rfl, by linarith⟩, n4]
  rw [ecs, esec]
  have hmax : max ((-(2 * kEpsilon) - √D) / A) (-(2 - kEpsilon)) ≤ -1 := max_le n3 (by linarith)
  have hmax2 : -(2 - kEpsilon) ≤ max ((-(2 * kEpsilon) - √D) / A) (-(2 - kEpsilon)) := le_max_right _ _
  generalize max ((-(2 * kEpsilon) - √D) / A) (-(2 - kEpsilon)) = T at *
  rw [if_neg, if_neg (not_lt.mpr n1.le)]
  · exact (min_le_right _ _).trans hmax
  · rintro (⟨-, h⟩ | ⟨h, -⟩)
    · nlinarith
    · linarith

/-- From the centre of `tent` along x the way out is eight. -/
example (m : Struct) (u : ℝ) (hu : 0 ≤ u) (hI : u ≤ 8) : u ≤ distanceToOut (make m tent.a tent.b tent.h tent.cut) ⟨0, 0, 0⟩ ⟨1, 0, 0⟩ := by
  have hr : ∀ x : ℝ, 0 ≤ x → tent.rho ⟨x, 0, 0⟩ = x / 2 := by
    intro x hx
    unfold Par.rho tent
    dsimp only
    rw [show (x / 2) ^ 2 + ((0 : ℝ) / 1) ^ 2 = (x / 2) ^ 2 by ring, sqrt_sq (by linarith)]
  have hc : ∀ x : ℝ, 0 ≤ x → x ≤ 8 → tent.Closed ⟨x, 0, 0⟩ := fun x h0 h8 =>
    ⟨by norm_num [tent], by rw [hr x h0]; show x / 2 ≤ 4 - 0; linarith⟩
  refine ((C166_out (good_make tent_valid m) tent_valid (hc 0 le_rfl (by norm_num)) (.inl one_ne_zero) ?_ hu ?_).2).mp ?_
  · unfold Par.Grazing
    norm_num [tent]
  · have := kInfLength_large
    norm_num at this ⊢
    linarith
  · have e : V3.at' ⟨0, 0, 0⟩ ⟨1, 0, 0⟩ u = ⟨u, 0, 0⟩ := by
      show V3.mk (0 + u * 1) (0 + u * 0) (0 + u * 0) = _
      rw [mul_one, mul_zero, zero_add, add_zero]
    rw [e]
    exact hc u hu hI

end EllCone
end VecGeom
