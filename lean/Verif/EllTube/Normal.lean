import Verif.EllTube.Props

/-!
# C90: the normals of elliptical tubes
-/

namespace VecGeom
namespace EllTube

open Real Tube

variable {a : Par} {p : V3}

/-- The vector along the gradient. -/
noncomputable def grad (a : Par) (p : V3) : V3 := ⟨p.x * a.y ^ 2, p.y * a.x ^ 2, 0⟩

/-- The gradient does not point further than the supporting line of the ellipse through the point. -/
theorem grad_dot (hv : a.Valid) {q : V3} (hq : a.ell q ≤ 1) (p : V3) :
    (grad a p).dot (q - p) ≤ (a.x * a.y) ^ 2 * (√(a.ell p) - a.ell p) := by
  have hx := x_pos hv
  have hy := y_pos hv
  have e : (grad a p).dot (q - p) = (a.x * a.y) ^ 2 * ((p.x / a.x) * (q.x / a.x) + (p.y / a.y) * (q.y / a.y) - a.ell p) := by
    show p.x * a.y ^ 2 * (q.x - p.x) + p.y * a.x ^ 2 * (q.y - p.y) + 0 * (q.z - p.z) = _
    unfold Par.ell
    field_simp
    ring
  rw [e]
  apply mul_le_mul_of_nonneg_left _ (by positivity)
  have : (p.x / a.x) * (q.x / a.x) + (p.y / a.y) * (q.y / a.y) ≤ √(a.ell p) := by
    apply le_sqrt_of_sq_le
    unfold Par.ell at hq ⊢
    generalize p.x / a.x = u at *
    generalize p.y / a.y = v at *
    generalize q.x / a.x = u' at *
    generalize q.y / a.y = v' at *
    have h1 : (u * u' + v * v') ^ 2 = (u ^ 2 + v ^ 2) * (u' ^ 2 + v' ^ 2) - (u * v' - v * u') ^ 2 := by ring
    rw [h1]
    have h2 : 0 ≤ u ^ 2 + v ^ 2 := by positivity
    nlinarith [sq_nonneg (u * v' - v * u')]
  linarith

theorem grad_mag2 (hv : a.Valid) (p : V3) : ((a.x * a.y) * a.r) ^ 2 * a.ell p ≤ (grad a p).mag2 ∧
    (a.x * a.y) ^ 4 * a.ell p ≤ (max a.x a.y) ^ 2 * (grad a p).mag2 := by
  have hx := x_pos hv
  have hy := y_pos hv
  have e : (grad a p).mag2 = p.x ^ 2 * a.y ^ 4 + p.y ^ 2 * a.x ^ 4 := by
    show p.x * a.y ^ 2 * (p.x * a.y ^ 2) + p.y * a.x ^ 2 * (p.y * a.x ^ 2) + 0 * 0 = _
    ring
  have e2 : (a.x * a.y) ^ 2 * a.ell p = p.x ^ 2 * a.y ^ 2 + p.y ^ 2 * a.x ^ 2 := by
    unfold Par.ell; field_simp
  have h1 : a.r ≤ a.x ∧ a.r ≤ a.y := ⟨min_le_left _ _, min_le_right _ _⟩
  have hr := r_pos hv
  have h1x := pow_le_pow_left₀ hr.le h1.1 2
  have h1y := pow_le_pow_left₀ hr.le h1.2 2
  have h2x := pow_le_pow_left₀ hx.le (le_max_left a.x a.y) 2
  have h2y := pow_le_pow_left₀ hy.le (le_max_right a.x a.y) 2
  rw [e]
  constructor
  · calc _ = a.r ^ 2 * ((a.x * a.y) ^ 2 * a.ell p) := by ring
      _ = p.x ^ 2 * a.y ^ 2 * a.r ^ 2 + p.y ^ 2 * a.x ^ 2 * a.r ^ 2 := by rw [e2]; ring
      _ ≤ p.x ^ 2 * a.y ^ 2 * a.y ^ 2 + p.y ^ 2 * a.x ^ 2 * a.x ^ 2 :=
        add_le_add (mul_le_mul_of_nonneg_left h1y (by positivity)) (mul_le_mul_of_nonneg_left h1x (by positivity))
      _ = _ := by ring
  · calc _ = (a.x * a.y) ^ 2 * ((a.x * a.y) ^ 2 * a.ell p) := by ring
      _ = p.x ^ 2 * a.y ^ 4 * a.x ^ 2 + p.y ^ 2 * a.x ^ 4 * a.y ^ 2 := by rw [e2]; ring
      _ ≤ p.x ^ 2 * a.y ^ 4 * max a.x a.y ^ 2 + p.y ^ 2 * a.x ^ 4 * max a.x a.y ^ 2 :=
        add_le_add (mul_le_mul_of_nonneg_left h2x (by positivity)) (mul_le_mul_of_nonneg_left h2y (by positivity))
      _ = _ := by ring

/-- The lateral normal points out of the tube, up to a slack. -/
theorem unit_grad_dot (hv : a.Valid) {q : V3} (hq : a.ell q ≤ 1) (hp : a.r - kHalfTolerance ≤ rad (sc a p)) :
    (grad a p).unit.dot (q - p) ≤ kHalfTolerance * (max a.x a.y / a.r) := by
  have hx := x_pos hv
  have hy := y_pos hv
  have hr := r_pos hv
  have hh := kHalfTolerance_pos
  have hM : 0 < max a.x a.y := lt_max_of_lt_left hx
  have h1 := grad_dot hv hq p
  have h2 := (grad_mag2 hv p).2
  have hk := kMinimum_pos
  have hell : 0 ≤ a.ell p := by unfold Par.ell; positivity
  set s := √((grad a p).mag2 + kMinimum) with hs
  have hspos : 0 < s := V3.unit_root_pos _
  have e : (grad a p).unit.dot (q - p) = (grad a p).dot (q - p) / s := by
    show (grad a p).x / s * (q - p).x + (grad a p).y / s * (q - p).y + (grad a p).z / s * (q - p).z = _
    unfold V3.dot
    field_simp
  rw [e, div_le_iff₀ hspos]
  -- the root of the equation
  set w := √(a.ell p) with hw
  have hw0 : 0 ≤ w := sqrt_nonneg _
  have hw2 : w ^ 2 = a.ell p := sq_sqrt hell
  have hrw : rad (sc a p) = a.r * w := by
    have := rad_sc hv p
    rw [← hw2, ← mul_pow, pow_left_inj₀ (rad_nonneg _) (by positivity) two_ne_zero] at this
    exact this
  rw [hrw] at hp
  have hs2 : (a.x * a.y) ^ 2 * w ≤ max a.x a.y * s := by
    apply le_of_sq_le_sq _ (by positivity)
    have hs2 : s ^ 2 = (grad a p).mag2 + kMinimum := sq_sqrt (by have := V3.mag2_nonneg (grad a p); linarith)
    have e1 : ((a.x * a.y) ^ 2 * w) ^ 2 = (a.x * a.y) ^ 4 * a.ell p := by rw [← hw2]; ring
    have e2 : (max a.x a.y * s) ^ 2 = max a.x a.y ^ 2 * (grad a p).mag2 + max a.x a.y ^ 2 * kMinimum := by rw [mul_pow, hs2]; ring
    rw [e1, e2]
    have : 0 ≤ max a.x a.y ^ 2 * kMinimum := by positivity
    linarith
  rcases le_or_gt 1 w with h | h
  · have : (a.x * a.y) ^ 2 * (w - a.ell p) ≤ 0 := by
      apply mul_nonpos_of_nonneg_of_nonpos (by positivity)
      rw [← hw2]; nlinarith
    have : 0 ≤ kHalfTolerance * (max a.x a.y / a.r) * s := by positivity
    linarith
  · have h3 : 1 - w ≤ kHalfTolerance / a.r := by
      rw [le_div_iff₀ hr]; linarith
    calc _ ≤ (a.x * a.y) ^ 2 * (w - a.ell p) := h1
      _ = (1 - w) * ((a.x * a.y) ^ 2 * w) := by rw [← hw2]; ring
      _ ≤ (kHalfTolerance / a.r) * (max a.x a.y * s) := mul_le_mul h3 hs2 (by positivity) (by positivity)
      _ = _ := by ring

set_option exponentiation.threshold 2000 in
theorem kMinimum_small : kMinimum ≤ 1 / 10 ^ 100 * (1 / 10 ^ 60) := by unfold kMinimum; norm_num

theorem unit_mag_large {v : V3} (h : 1 / 10 ^ 60 ≤ v.mag2) : 1 - 1 / 10 ^ 100 ≤ v.unit.mag2 := by
  have hk := kMinimum_pos
  have h2 := kMinimum_small
  have h0 : (0 : ℝ) < 1 / 10 ^ 60 := by positivity
  rw [V3.unit_mag2, le_div_iff₀ (by linarith)]
  have h3 : (1 : ℝ) / 10 ^ 100 * (1 / 10 ^ 60) ≤ 1 / 10 ^ 100 * v.mag2 := mul_le_mul_of_nonneg_left h (by positivity)
  have h4 : 0 ≤ (1 : ℝ) / 10 ^ 100 * kMinimum := by positivity
  linarith

theorem unit_grad_mag (hv : a.Valid) (hp : a.r - kHalfTolerance ≤ rad (sc a p)) :
    1 - 1 / 10 ^ 100 ≤ (grad a p).unit.mag2 ∧ (grad a p).unit.mag2 ≤ 1 := by
  refine ⟨unit_mag_large ?_, V3.unit_mag2_le _⟩
  have h1 := (grad_mag2 hv p).1
  have hr := r_pos hv
  have hb := r_big hv
  have hx : a.r ≤ a.x := min_le_left _ _
  have hy : a.r ≤ a.y := min_le_right _ _
  have e : ((a.x * a.y) * a.r) ^ 2 * a.ell p = (a.x * a.y) ^ 2 * rad (sc a p) ^ 2 := by rw [rad_sc hv]; ring
  rw [e] at h1
  have h2 : (1 / 10 ^ 9 : ℝ) ≤ rad (sc a p) := by
    have : kTolerance = 1 / 10 ^ 9 := by norm_num [kTolerance]
    have := half_lt
    linarith
  have hr9 : (1 / 10 ^ 9 : ℝ) ≤ a.r := by
    have : kTolerance = 1 / 10 ^ 9 := by norm_num [kTolerance]
    linarith
  have h3 : (1 / 10 ^ 9 : ℝ) * (1 / 10 ^ 9) ≤ a.x * a.y := mul_le_mul (by linarith) (by linarith) (by positivity) (by linarith)
  have h4 := pow_le_pow_left₀ (by positivity) h3 2
  have h5 := pow_le_pow_left₀ (by positivity) h2 2
  have h6 := mul_le_mul h4 h5 (by positivity) (by positivity)
  have h7 : (1 : ℝ) / 10 ^ 60 ≤ (1 / 10 ^ 9 * (1 / 10 ^ 9)) ^ 2 * (1 / 10 ^ 9) ^ 2 := by norm_num
  linarith

/-- C90: at every point within tolerance of the surface the normal is valid, of unit length (up to the guard against a division by zero)
and points out of the tube: no point of the tube lies further along it than the point, up to half a tolerance, times the ratio of the
semi-axes for the lateral surface. It is the normal of the base away from the lateral surface, and has no component along the axis away from
the bases. -/
theorem C90_normal (hv : a.Valid) (hs : inside (of a) p = .surface) :
    ∃ n, normal (of a) p = (n, true) ∧ 1 - 1 / 10 ^ 100 ≤ n.mag2 ∧ n.mag2 ≤ 1 ∧
      (∀ q, a.Closed q → n.dot (q - p) ≤ kHalfTolerance * (1 + max a.x a.y / a.r)) ∧
      (a.ell p < (1 - kHalfTolerance / a.r) ^ 2 → n = ⟨0, 0, sign p.z⟩) ∧ (|p.z| < a.z - kHalfTolerance → n.z = 0) := by
  have hh := kHalfTolerance_pos
  have hr := r_pos hv
  have hx := x_pos hv
  have hM : 0 < max a.x a.y := lt_max_of_lt_left hx
  have hlt := half_lt_r hv
  have hsurf : (rad (sc a p) ≤ a.r + kHalfTolerance ∧ |p.z| ≤ a.z + kHalfTolerance) ∧
      (a.r - kHalfTolerance < rad (sc a p) ∨ a.z - kHalfTolerance < |p.z|) := by
    unfold inside at hs
    have h1 : ¬ approx (of a) p ≤ -kHalfTolerance := by intro h; rw [if_pos h] at hs; simp at hs
    rw [if_neg h1] at hs
    have h2 : ¬ approx (of a) p > kHalfTolerance := by intro h; rw [if_pos h] at hs; simp at hs
    rw [in_iff hv, not_and_or, not_le, not_le] at h1
    rw [out_iff hv, not_or, not_lt, not_lt] at h2
    exact ⟨h2, h1⟩
  obtain ⟨⟨ho1, ho2⟩, hin⟩ := hsurf
  have hL : |(of a).q1 * (p.x * (of a).sx * (p.x * (of a).sx) + p.y * (of a).sy * (p.y * (of a).sy)) - (of a).q2| ≤ kHalfTolerance ↔
      a.r - kHalfTolerance ≤ rad (sc a p) := by
    rw [distR_eq hv, abs_le, ← not_lt, distR_lt hv, not_lt]
    refine ⟨fun h => h.1, fun h => ⟨h, ?_⟩⟩
    by_contra hn
    have := (distR_gt hv p).mp (not_le.mp hn)
    linarith
  have eg : V3.mk (p.x * (of a).ddy) (p.y * (of a).ddx) 0 = grad a p := by
    rw [of_eq hv, grad, pow_two, pow_two]; rfl
  have ez : (of a).dz = a.z := by rw [of_eq hv]; rfl
  have hell : a.ell p < (1 - kHalfTolerance / a.r) ^ 2 → ¬ a.r - kHalfTolerance ≤ rad (sc a p) := by
    intro h hn
    have h1 := pow_le_pow_left₀ (by linarith) hn 2
    rw [rad_sc hv] at h1
    have e : (a.r - kHalfTolerance) ^ 2 = a.r ^ 2 * (1 - kHalfTolerance / a.r) ^ 2 := by field_simp
    rw [e] at h1
    have := le_of_mul_le_mul_left h1 (by positivity)
    linarith
  have hZ : |(|p.z| - a.z)| ≤ kHalfTolerance ↔ a.z - kHalfTolerance ≤ |p.z| := by
    rw [abs_le]; constructor
    · intro h; linarith [h.1]
    · intro h; constructor <;> linarith
  have hsz : ∀ q, a.Closed q → a.z - kHalfTolerance ≤ |p.z| → sign p.z * (q.z - p.z) ≤ kHalfTolerance := by
    intro q hq hz
    have h1 := abs_le.mp hq.z
    unfold sign
    split
    · rename_i h; rw [abs_of_neg h] at hz; linarith [h1.1]
    · rename_i h; rw [abs_of_nonneg (not_lt.mp h)] at hz; linarith [h1.2]
  have hs1 : sign p.z * sign p.z = 1 := by unfold sign; split <;> norm_num
  have hbig : 0 ≤ kHalfTolerance * (max a.x a.y / a.r) := by positivity
  unfold normal
  dsimp only
  rw [eg, ez]
  by_cases h1 : a.r - kHalfTolerance ≤ rad (sc a p)
  · rw [if_pos (hL.mpr h1)]
    have hm := unit_grad_mag hv h1
    have hd := fun q (hq : a.Closed q) => unit_grad_dot hv (p := p) hq.r h1
    have hgz : (grad a p).unit.z = 0 := by show (0 : ℝ) / _ = 0; exact zero_div _
    generalize (grad a p).unit = g at *
    have h10 : (1 : ℝ) - 1 / 10 ^ 100 > 0 := by norm_num
    by_cases h2 : a.z - kHalfTolerance ≤ |p.z|
    · rw [if_pos (hZ.mpr h2)]
      have em : (V3.mk g.x g.y (sign p.z)).mag2 = g.mag2 + 1 := by
        show g.x * g.x + g.y * g.y + sign p.z * sign p.z = g.x * g.x + g.y * g.y + g.z * g.z + 1
        rw [hs1, hgz]; ring
      have hu1 : (V3.mk g.x g.y (sign p.z)).mag2 > 1 := by rw [em]; linarith [hm.1]
      rw [if_pos hu1]
      have hu := unit_mag_large (v := V3.mk g.x g.y (sign p.z)) (by rw [em]; norm_num at hm ⊢; linarith [hm.1])
      have hu0 : (V3.mk g.x g.y (sign p.z)).unit.mag2 > 0 := by linarith
      rw [if_pos hu0]
      refine ⟨_, rfl, hu, V3.unit_mag2_le _, fun q hq => ?_, fun h => absurd h1 (hell h), fun h => by linarith⟩
      set s := √((V3.mk g.x g.y (sign p.z)).mag2 + kMinimum) with hsdef
      have hs1' : 1 ≤ s := by
        rw [hsdef, one_le_sqrt, em]
        linarith [kMinimum_pos, hm.1]
      have e : (V3.mk g.x g.y (sign p.z)).unit.dot (q - p) = (g.dot (q - p) + sign p.z * (q.z - p.z)) / s := by
        show g.x / s * (q.x - p.x) + g.y / s * (q.y - p.y) + sign p.z / s * (q.z - p.z) =
          (g.x * (q.x - p.x) + g.y * (q.y - p.y) + g.z * (q.z - p.z) + sign p.z * (q.z - p.z)) / s
        rw [hgz]; ring
      rw [e, div_le_iff₀ (by linarith)]
      have k1 := hd q hq
      have k2 := hsz q hq h2
      have k3 : 0 ≤ kHalfTolerance * (1 + max a.x a.y / a.r) := by linarith
      have k4 := le_mul_of_one_le_right k3 hs1'
      linarith
    · have hg1 : ¬ g.mag2 > 1 := not_lt.mpr hm.2
      have hg0 : g.mag2 > 0 := by linarith [hm.1]
      rw [if_neg (fun h => h2 (hZ.mp h)), if_neg hg1, if_pos hg0]
      refine ⟨_, rfl, hm.1, hm.2, fun q hq => ?_, fun h => absurd h1 (hell h), fun _ => hgz⟩
      linarith [hd q hq]
  · rw [if_neg (fun h => h1 (hL.mp h))]
    have h2 : a.z - kHalfTolerance ≤ |p.z| := by
      rcases hin with h | h
      · exact absurd h.le h1
      · exact h.le
    rw [if_pos (hZ.mpr h2)]
    have em : (V3.mk 0 0 (sign p.z)).mag2 = 1 := by
      show (0 : ℝ) * 0 + 0 * 0 + sign p.z * sign p.z = 1
      rw [hs1]; ring
    dsimp only
    have hn1 : ¬ (V3.mk 0 0 (sign p.z)).mag2 > 1 := by rw [em]; exact lt_irrefl _
    have hn0 : (V3.mk 0 0 (sign p.z)).mag2 > 0 := by rw [em]; norm_num
    rw [if_neg hn1, if_pos hn0]
    refine ⟨_, rfl, by rw [em]; norm_num, em.le, fun q hq => ?_, fun _ => rfl, fun h => by linarith⟩
    show (0 : ℝ) * (q.x - p.x) + 0 * (q.y - p.y) + sign p.z * (q.z - p.z) ≤ _
    linarith [hsz q hq h2]

/-- A point on the lateral surface. -/
example : inside (of flat) ⟨4, 0, 0⟩ = .surface := by
  have hr : flat.r = 2 := by norm_num [Par.r, flat]
  have h1 := C85_inside flat_valid ⟨4, 0, 0⟩
  cases h : inside (of flat) ⟨4, 0, 0⟩ with
  | inside =>
    have h3 := (h1.2.2.mp h).1
    rw [hr] at h3
    norm_num [Par.ell, flat, kHalfTolerance, kTolerance] at h3
  | surface => rfl
  | outside =>
    have h3 := (C85_meaning flat_valid ⟨4, 0, 0⟩).1 ⟨by norm_num [flat], by norm_num [Par.ell, flat]⟩
    exact absurd h (h1.1.mp h3)

end EllTube
end VecGeom
