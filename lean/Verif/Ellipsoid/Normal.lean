import Verif.Ellipsoid.Props
import Verif.EllTube.Normal

/-!
# C107: the normals of cut ellipsoids
-/

namespace VecGeom
namespace Ellipsoid

open Real

variable {a : Par} {p : V3}

/-- The vector along the gradient. -/
noncomputable def grad (a : Par) (p : V3) : V3 := ⟨p.x / (a.x * a.x), p.y / (a.y * a.y), p.z / (a.z * a.z)⟩

/-- The gradient does not point further than the supporting plane of the ellipsoid through the point. -/
theorem grad_dot {q : V3} (hq : a.ell q ≤ 1) (p : V3) : (grad a p).dot (q - p) ≤ √(a.ell p) - a.ell p := by
  have e : (grad a p).dot (q - p) = (p.x / a.x) * (q.x / a.x) + (p.y / a.y) * (q.y / a.y) + (p.z / a.z) * (q.z / a.z) - a.ell p := by
    show p.x / (a.x * a.x) * (q.x - p.x) + p.y / (a.y * a.y) * (q.y - p.y) + p.z / (a.z * a.z) * (q.z - p.z) = _
    unfold Par.ell
    ring
  rw [e]
  have : (p.x / a.x) * (q.x / a.x) + (p.y / a.y) * (q.y / a.y) + (p.z / a.z) * (q.z / a.z) ≤ √(a.ell p) := by
    apply le_sqrt_of_sq_le
    unfold Par.ell at hq ⊢
    generalize p.x / a.x = u at *
    generalize p.y / a.y = v at *
    generalize p.z / a.z = w at *
    generalize q.x / a.x = u' at *
    generalize q.y / a.y = v' at *
    generalize q.z / a.z = w' at *
    have h1 : (u * u' + v * v' + w * w') ^ 2 = (u ^ 2 + v ^ 2 + w ^ 2) * (u' ^ 2 + v' ^ 2 + w' ^ 2) -
      ((u * v' - v * u') ^ 2 + (u * w' - w * u') ^ 2 + (v * w' - w * v') ^ 2) := by ring
    rw [h1]
    have h2 : 0 ≤ u ^ 2 + v ^ 2 + w ^ 2 := by positivity
    have h3 := mul_le_mul_of_nonneg_left hq h2
    linarith [sq_nonneg (u * v' - v * u'), sq_nonneg (u * w' - w * u'), sq_nonneg (v * w' - w * v')]
  linarith

theorem grad_mag2 (hv : a.Valid) (p : V3) : a.ell p ≤ a.big ^ 2 * (grad a p).mag2 := by
  have hx := x_pos hv
  have hy := y_pos hv
  have hz := z_pos hv
  have hb := big_pos hv
  have key : ∀ u c : ℝ, 0 < c → c ≤ a.big → (u / c) ^ 2 ≤ a.big ^ 2 * (u / (c * c)) ^ 2 := by
    intro u c h1 h2
    have e : a.big ^ 2 * (u / (c * c)) ^ 2 = (a.big / c) ^ 2 * (u / c) ^ 2 := by field_simp
    rw [e]
    have : 1 ≤ (a.big / c) ^ 2 := one_le_pow₀ ((one_le_div h1).mpr h2)
    exact le_mul_of_one_le_left (sq_nonneg _) this
  have h1 := key p.x a.x hx (x_le_big a)
  have h2 := key p.y a.y hy (y_le_big a)
  have h3 := key p.z a.z hz (z_le_big a)
  have e : (grad a p).mag2 = (p.x / (a.x * a.x)) ^ 2 + (p.y / (a.y * a.y)) ^ 2 + (p.z / (a.z * a.z)) ^ 2 := by
    show p.x / (a.x * a.x) * (p.x / (a.x * a.x)) + p.y / (a.y * a.y) * (p.y / (a.y * a.y)) + p.z / (a.z * a.z) * (p.z / (a.z * a.z)) = _
    ring
  rw [e]
  unfold Par.ell
  linarith

/-- The root of the equation of the ellipsoid. -/
theorem root_eq (hv : a.Valid) (p : V3) : nrm (sc a p) = a.r * √(a.ell p) := by
  have hr := r_pos hv
  have h := nrm_sc hv p
  have hell : 0 ≤ a.ell p := by unfold Par.ell; positivity
  rw [← sq_sqrt hell, ← mul_pow, pow_left_inj₀ (nrm_nonneg _) (by positivity) two_ne_zero] at h
  exact h

/-- The lateral normal points out of the solid, up to a slack. -/
theorem unit_grad_dot (hv : a.Valid) {q : V3} (hq : a.ell q ≤ 1) (hp : a.r - kHalfTolerance ≤ nrm (sc a p)) :
    (grad a p).unit.dot (q - p) ≤ kHalfTolerance * (a.big / a.r) := by
  have hr := r_pos hv
  have hh := kHalfTolerance_pos
  have hM := big_pos hv
  have h1 := grad_dot hq p
  have h2 := grad_mag2 hv p
  have hk := kMinimum_pos
  have hell : 0 ≤ a.ell p := by unfold Par.ell; positivity
  set s := √((grad a p).mag2 + kMinimum) with hs
  have hspos : 0 < s := V3.unit_root_pos _
  have e : (grad a p).unit.dot (q - p) = (grad a p).dot (q - p) / s := by
    show (grad a p).x / s * (q - p).x + (grad a p).y / s * (q - p).y + (grad a p).z / s * (q - p).z = _
    unfold V3.dot
    ring
  rw [e, div_le_iff₀ hspos]
  rw [root_eq hv] at hp
  set w := √(a.ell p) with hw
  have hw0 : 0 ≤ w := sqrt_nonneg _
  have hw2 : w ^ 2 = a.ell p := sq_sqrt hell
  have hs2 : w ≤ a.big * s := by
    apply le_of_sq_le_sq _ (by positivity)
    have hs2 : s ^ 2 = (grad a p).mag2 + kMinimum := sq_sqrt (by have := V3.mag2_nonneg (grad a p); linarith)
    rw [hw2, mul_pow, hs2, mul_add]
    have : 0 ≤ a.big ^ 2 * kMinimum := by positivity
    linarith
  rcases le_or_gt 1 w with h | h
  · have : w - a.ell p ≤ 0 := by rw [← hw2]; nlinarith
    have : 0 ≤ kHalfTolerance * (a.big / a.r) * s := by positivity
    linarith
  · have h3 : 1 - w ≤ kHalfTolerance / a.r := by
      rw [le_div_iff₀ hr]; linarith
    calc _ ≤ w - a.ell p := h1
      _ = (1 - w) * w := by rw [← hw2]; ring
      _ ≤ (kHalfTolerance / a.r) * (a.big * s) := mul_le_mul h3 hs2 (by positivity) (by positivity)
      _ = _ := by ring

theorem unit_grad_mag (hv : a.Valid) (hb : a.big ≤ 10 ^ 25) (hp : a.r - kHalfTolerance ≤ nrm (sc a p)) :
    1 - 1 / 10 ^ 100 ≤ (grad a p).unit.mag2 ∧ (grad a p).unit.mag2 ≤ 1 := by
  refine ⟨EllTube.unit_mag_large ?_, V3.unit_mag2_le _⟩
  have h1 := grad_mag2 hv p
  have hr := r_pos hv
  have hell : 0 ≤ a.ell p := by unfold Par.ell; positivity
  have hw : 1 / 2 ≤ √(a.ell p) := by
    rw [root_eq hv] at hp
    have := r_big hv
    have := half_lt
    nlinarith
  have hw2 := pow_le_pow_left₀ (by norm_num) hw 2
  rw [sq_sqrt hell] at hw2
  have h2 := pow_le_pow_left₀ (big_pos hv).le hb 2
  have h3 := mul_le_mul_of_nonneg_right h2 (V3.mag2_nonneg (grad a p))
  have h4 : (1 / 2 : ℝ) ^ 2 ≤ (10 ^ 25) ^ 2 * (grad a p).mag2 := by linarith
  have h5 : (1 : ℝ) / 10 ^ 60 * (10 ^ 25) ^ 2 ≤ (1 / 2) ^ 2 := by norm_num
  have h6 : (0 : ℝ) < (10 ^ 25) ^ 2 := by positivity
  by_contra hn
  rw [not_le] at hn
  have := mul_lt_mul_of_pos_left hn h6
  linarith

/-! ## The parts of the code -/

theorem surf_iff (hv : a.Valid) (hs : inside (of a) p = .surface) :
    (nrm (sc a p) ≤ a.r + kHalfTolerance ∧ |cz a p| ≤ dim a + kHalfTolerance) ∧
      (a.r - kHalfTolerance < nrm (sc a p) ∨ dim a - kHalfTolerance < |cz a p|) := by
  have h1 : ¬ approx (of a) p ≤ -kHalfTolerance := by intro h; rw [← inside_in, hs] at h; simp at h
  have h2 : ¬ approx (of a) p > kHalfTolerance := by intro h; rw [← inside_out, hs] at h; simp at h
  rw [in_iff hv, not_and_or, not_le, not_le] at h1
  rw [out_iff hv, not_or, not_lt, not_lt] at h2
  exact ⟨h2, h1⟩

/-- The sum of the normals of the faces that the point is on. -/
theorem normal_eq (hv : a.Valid) (hs : inside (of a) p = .surface) :
    ∃ n, n = (if a.r - kHalfTolerance ≤ nrm (sc a p) then (if dim a - kHalfTolerance ≤ |cz a p| then
        ⟨(grad a p).unit.x, (grad a p).unit.y, (grad a p).unit.z + sign (cz a p)⟩ else (grad a p).unit) else ⟨0, 0, sign (cz a p)⟩) ∧
      (0 < n.mag2 → normal (of a) p = (if n.mag2 > 1 then n.unit else n, true)) ∧ (n.mag2 = 0 → (normal (of a) p).2 = false) := by
  have hh := kHalfTolerance_pos
  obtain ⟨⟨ho1, ho2⟩, hin⟩ := surf_iff hv hs
  have hL : |distR a p| ≤ kHalfTolerance ↔ a.r - kHalfTolerance ≤ nrm (sc a p) := by
    rw [abs_le, ← not_lt, distR_lt hv, not_lt]
    refine ⟨fun h => h.1, fun h => ⟨h, ?_⟩⟩
    by_contra hn
    have := (distR_gt hv p).mp (not_le.mp hn)
    linarith
  have hZ : |(|cz a p| - dim a)| ≤ kHalfTolerance ↔ dim a - kHalfTolerance ≤ |cz a p| := by
    rw [abs_le]; constructor
    · intro h; linarith [h.1]
    · intro h; constructor <;> linarith
  have eg : V3.mk (p.x / ((of a).dx * (of a).dx)) (p.y / ((of a).dy * (of a).dy)) (p.z / ((of a).dz * (of a).dz)) = grad a p := by
    rw [of_eq hv]; rfl
  have main : ∀ n : V3, n = (if |(|cz a p| - dim a)| ≤ kHalfTolerance then
        { (if |distR a p| ≤ kHalfTolerance then (grad a p).unit else ⟨0, 0, 0⟩ : V3) with
          z := (if |distR a p| ≤ kHalfTolerance then (grad a p).unit else ⟨0, 0, 0⟩ : V3).z + sign (cz a p) }
        else (if |distR a p| ≤ kHalfTolerance then (grad a p).unit else ⟨0, 0, 0⟩ : V3)) →
      (0 < n.mag2 → normal (of a) p = (if n.mag2 > 1 then n.unit else n, true)) ∧ (n.mag2 = 0 → (normal (of a) p).2 = false) := by
    intro n hn
    unfold normal
    dsimp only
    rw [rr_eq hv, distR_eq hv, cz_def hv, dim_def hv, eg, ← hn]
    constructor
    · intro h0
      have : (if n.mag2 > 1 then n.unit else n).mag2 > 0 := by
        split
        · rename_i h1
          rw [V3.unit_mag2]
          have := kMinimum_pos
          apply div_pos <;> linarith
        · exact h0
      rw [if_pos this]
    · intro h0
      have h1 : ¬ n.mag2 > 1 := by rw [h0]; norm_num
      have h2 : ¬ n.mag2 > 0 := by rw [h0]; norm_num
      rw [if_neg h1, if_neg h2]
      split <;> rfl
  refine ⟨_, rfl, ?_⟩
  apply main
  by_cases h1 : a.r - kHalfTolerance ≤ nrm (sc a p)
  · rw [if_pos h1]
    simp only [if_pos (hL.mpr h1)]
    by_cases h2 : dim a - kHalfTolerance ≤ |cz a p|
    · rw [if_pos h2, if_pos (hZ.mpr h2)]
    · rw [if_neg h2, if_neg (fun h => h2 (hZ.mp h))]
  · have h2 : dim a - kHalfTolerance ≤ |cz a p| := by
      rcases hin with h | h
      · exact absurd h.le h1
      · exact h.le
    rw [if_neg h1, if_pos (hZ.mpr h2)]
    simp only [if_neg (fun h => h1 (hL.mp h)), zero_add]

theorem sign_sq (x : ℝ) : sign x * sign x = 1 := by unfold sign; split <;> norm_num

/-- The normal of a cut points out of the solid, up to a slack. -/
theorem cut_dot (hv : a.Valid) {q : V3} (hq : a.Closed q) (hz : dim a - kHalfTolerance ≤ |cz a p|) :
    sign (cz a p) * (q.z - p.z) ≤ kHalfTolerance * (a.z / a.r) := by
  have hzp := z_pos hv
  have hr := r_pos hv
  have h1 := abs_le.mp ((closed_iff hv q).mp hq).1
  have e : cz a q - cz a p = (q.z - p.z) * (a.r / a.z) := by unfold cz; rw [sc_z, sc_z]; ring
  have h2 : sign (cz a p) * (cz a q - cz a p) ≤ kHalfTolerance := by
    unfold sign
    split
    · rename_i h; rw [abs_of_neg h] at hz; linarith [h1.1]
    · rename_i h; rw [abs_of_nonneg (not_lt.mp h)] at hz; linarith [h1.2]
  rw [e, ← mul_assoc] at h2
  have h3 := mul_le_mul_of_nonneg_right h2 (show 0 ≤ a.z / a.r by positivity)
  rw [mul_assoc, show a.r / a.z * (a.z / a.r) = 1 by field_simp, mul_one] at h3
  exact h3

/-- C107: a normal that is called valid points out of the solid: no point of the solid lies further along it than the point, up to half a
tolerance times the ratio of the semi-axes for each of the two faces. It is never longer than a unit vector. -/
theorem C107_outward (hv : a.Valid) (hs : inside (of a) p = .surface) {n : V3} (hn : normal (of a) p = (n, true)) :
    n.mag2 ≤ 1 ∧ ∀ q, a.Closed q → n.dot (q - p) ≤ kHalfTolerance * (a.big / a.r + a.z / a.r) := by
  have hh := kHalfTolerance_pos
  have hr := r_pos hv
  have hzp := z_pos hv
  have hb := big_pos hv
  obtain ⟨m, hm, h1, h2⟩ := normal_eq hv hs
  have hdot : ∀ q, a.Closed q → m.dot (q - p) ≤ kHalfTolerance * (a.big / a.r + a.z / a.r) := by
    intro q hq
    have k1 : 0 ≤ kHalfTolerance * (a.big / a.r) := by positivity
    have k2 : 0 ≤ kHalfTolerance * (a.z / a.r) := by positivity
    rw [mul_add, hm]
    split
    · rename_i c1
      have d1 := unit_grad_dot hv hq.r c1
      split
      · rename_i c2
        have d2 := cut_dot hv hq c2
        have e : (V3.mk (grad a p).unit.x (grad a p).unit.y ((grad a p).unit.z + sign (cz a p))).dot (q - p) =
            (grad a p).unit.dot (q - p) + sign (cz a p) * (q.z - p.z) := by
          show (grad a p).unit.x * (q.x - p.x) + (grad a p).unit.y * (q.y - p.y) + ((grad a p).unit.z + sign (cz a p)) * (q.z - p.z) =
            (grad a p).unit.x * (q.x - p.x) + (grad a p).unit.y * (q.y - p.y) + (grad a p).unit.z * (q.z - p.z) + sign (cz a p) * (q.z - p.z)
          ring
        rw [e]; linarith
      · linarith
    · rename_i c1
      have c2 : dim a - kHalfTolerance ≤ |cz a p| := by
        rcases (surf_iff hv hs).2 with h | h
        · exact absurd h.le c1
        · exact h.le
      have d2 := cut_dot hv hq c2
      show (0 : ℝ) * (q.x - p.x) + 0 * (q.y - p.y) + sign (cz a p) * (q.z - p.z) ≤ _
      linarith
  have h0 : 0 < m.mag2 := by
    rcases (V3.mag2_nonneg m).lt_or_eq with h | h
    · exact h
    · have := h2 h.symm
      rw [hn] at this
      simp at this
  have e := h1 h0
  rw [hn, Prod.mk.injEq] at e
  have e := e.1
  rw [e]
  split
  · rename_i hgt
    refine ⟨V3.unit_mag2_le _, fun q hq => ?_⟩
    set s := √(m.mag2 + kMinimum) with hsd
    have hs1 : 1 ≤ s := by rw [hsd, one_le_sqrt]; linarith [kMinimum_pos]
    have e : m.unit.dot (q - p) = m.dot (q - p) / s := by
      show m.x / s * (q - p).x + m.y / s * (q - p).y + m.z / s * (q - p).z = _
      unfold V3.dot
      ring
    rw [e, div_le_iff₀ (by linarith)]
    have k : 0 ≤ kHalfTolerance * (a.big / a.r + a.z / a.r) := by positivity
    exact (hdot q hq).trans (le_mul_of_one_le_right k hs1)
  · rename_i hle
    exact ⟨not_lt.mp hle, hdot⟩

/-- C107: at a point within tolerance of the surface the normal is valid and of unit length (up to the guard against a division by zero).  It is the
normal of the cut away from the lateral surface and along the gradient of the equation away from the cuts.  Points on an edge are left out if
the cut is below the middle of the ellipsoid for the upper cut, or above it for the lower one. -/
theorem C107_normal_partial (hv : a.Valid) (hb : a.big ≤ 10 ^ 25) (hs : inside (of a) p = .surface)
    (hedge : a.ell p < (1 - kHalfTolerance / a.r) ^ 2 ∨
      (a.lo + kHalfTolerance * (a.z / a.r) < p.z ∧ p.z < a.hi - kHalfTolerance * (a.z / a.r)) ∨
      (a.lo + a.hi ≤ 2 * p.z ∧ 0 ≤ p.z) ∨ (2 * p.z < a.lo + a.hi ∧ p.z ≤ 0)) :
    ∃ n, normal (of a) p = (n, true) ∧ 1 - 1 / 10 ^ 100 ≤ n.mag2 ∧ n.mag2 ≤ 1 ∧
      (a.ell p < (1 - kHalfTolerance / a.r) ^ 2 → n = ⟨0, 0, if 2 * p.z < a.lo + a.hi then -1 else 1⟩) ∧
      (a.lo + kHalfTolerance * (a.z / a.r) < p.z → p.z < a.hi - kHalfTolerance * (a.z / a.r) → n = (grad a p).unit) := by
  have hh := kHalfTolerance_pos
  have hr := r_pos hv
  have hzp := z_pos hv
  have hlt := half_lt_r hv
  have hk := kMinimum_pos
  have hell : a.ell p < (1 - kHalfTolerance / a.r) ^ 2 → ¬ a.r - kHalfTolerance ≤ nrm (sc a p) := by
    intro h hn
    have h1 := pow_le_pow_left₀ (by linarith) hn 2
    rw [nrm_sc hv] at h1
    have e : (a.r - kHalfTolerance) ^ 2 = a.r ^ 2 * (1 - kHalfTolerance / a.r) ^ 2 := by field_simp
    rw [e] at h1
    have := le_of_mul_le_mul_left h1 (by positivity)
    linarith
  have hcz : cz a p = (2 * p.z - (a.lo + a.hi)) * (a.r / a.z) / 2 := by unfold cz; rw [sc_z]; ring
  have hrz := (ratio_z hv).1
  have hsgn : sign (cz a p) = if 2 * p.z < a.lo + a.hi then -1 else 1 := by
    unfold sign
    have : cz a p < 0 ↔ 2 * p.z < a.lo + a.hi := by
      rw [hcz]
      constructor
      · intro h; by_contra hn
        have := mul_nonneg (show 0 ≤ 2 * p.z - (a.lo + a.hi) by linarith) hrz.le
        linarith
      · intro h
        have := mul_neg_of_neg_of_pos (show 2 * p.z - (a.lo + a.hi) < 0 by linarith) hrz
        linarith
    by_cases h : cz a p < 0
    · rw [if_pos h, if_pos (this.mp h)]
    · rw [if_neg h, if_neg (fun h' => h (this.mpr h'))]
  have haway : a.lo + kHalfTolerance * (a.z / a.r) < p.z → p.z < a.hi - kHalfTolerance * (a.z / a.r) → ¬ dim a - kHalfTolerance ≤ |cz a p| := by
    intro h1 h2
    have e : kHalfTolerance * (a.z / a.r) * (a.r / a.z) = kHalfTolerance := by field_simp
    have k1 := mul_lt_mul_of_pos_right h1 hrz
    have k2 := mul_lt_mul_of_pos_right h2 hrz
    rw [add_mul, e] at k1
    rw [sub_mul, e] at k2
    rw [not_le, abs_lt]
    unfold cz dim
    rw [sc_z]
    constructor <;> linarith
  obtain ⟨m, hm, h1, _⟩ := normal_eq hv hs
  by_cases c1 : a.r - kHalfTolerance ≤ nrm (sc a p)
  · rw [if_pos c1] at hm
    have hg := unit_grad_mag hv hb c1
    have h10 : (0 : ℝ) < 1 - 1 / 10 ^ 100 := by norm_num
    by_cases c2 : dim a - kHalfTolerance ≤ |cz a p|
    · rw [if_pos c2] at hm
      have hpos : 0 ≤ (grad a p).unit.z * sign (cz a p) := by
        have e : (grad a p).unit.z = p.z * (1 / (a.z * a.z) / √((grad a p).mag2 + kMinimum)) := by
          show p.z / (a.z * a.z) / √((grad a p).mag2 + kMinimum) = _
          ring
        have k : 0 ≤ 1 / (a.z * a.z) / √((grad a p).mag2 + kMinimum) := by positivity
        rw [e, hsgn]
        rcases hedge with h | h | h | h
        · exact absurd c1 (hell h)
        · exact absurd c2 (haway h.1 h.2)
        · rw [if_neg (not_lt.mpr h.1), mul_one]; exact mul_nonneg h.2 k
        · rw [if_pos h.1]
          have := mul_nonneg (neg_nonneg.mpr h.2) k
          linarith
      have em : m.mag2 = (grad a p).unit.mag2 + 1 + 2 * ((grad a p).unit.z * sign (cz a p)) := by
        rw [hm]
        show (grad a p).unit.x * (grad a p).unit.x + (grad a p).unit.y * (grad a p).unit.y +
          ((grad a p).unit.z + sign (cz a p)) * ((grad a p).unit.z + sign (cz a p)) =
          (grad a p).unit.x * (grad a p).unit.x + (grad a p).unit.y * (grad a p).unit.y + (grad a p).unit.z * (grad a p).unit.z + 1 +
          2 * ((grad a p).unit.z * sign (cz a p))
        linear_combination sign_sq (cz a p)
      have hgt : m.mag2 > 1 := by rw [em]; linarith [hg.1]
      rw [h1 (by linarith), if_pos hgt]
      refine ⟨_, rfl, EllTube.unit_mag_large (le_trans (by norm_num) hgt.le), V3.unit_mag2_le _, fun h => absurd c1 (hell h),
        fun h h' => absurd c2 (haway h h')⟩
    · rw [if_neg c2] at hm
      have hle : ¬ m.mag2 > 1 := by rw [hm]; exact not_lt.mpr hg.2
      rw [h1 (by rw [hm]; linarith [hg.1]), if_neg hle]
      exact ⟨_, rfl, by rw [hm]; exact hg.1, by rw [hm]; exact hg.2, fun h => absurd c1 (hell h), fun _ _ => hm⟩
  · rw [if_neg c1] at hm
    have em : m.mag2 = 1 := by
      rw [hm]
      show (0 : ℝ) * 0 + 0 * 0 + sign (cz a p) * sign (cz a p) = 1
      rw [sign_sq]; ring
    have hle : ¬ m.mag2 > 1 := by rw [em]; exact lt_irrefl _
    rw [h1 (by rw [em]; norm_num), if_neg hle]
    refine ⟨_, rfl, by rw [em]; norm_num, em.le, fun _ => by rw [hm, hsgn], fun h h' => ?_⟩
    have c2 : dim a - kHalfTolerance ≤ |cz a p| := by
      rcases (surf_iff hv hs).2 with h | h
      · exact absurd h.le c1
      · exact h.le
    exact absurd c2 (haway h h')

/-- A point on the upper edge of the example. -/
example : inside (of bowl) ⟨0, 0, 1 / 2⟩ = .surface ∧ bowl.lo + bowl.hi ≤ 2 * (1 / 2) := by
  constructor
  · cases h : inside (of bowl) ⟨0, 0, 1 / 2⟩ with
    | inside =>
      have h3 := ((C102_inside bowl_valid ⟨0, 0, 1 / 2⟩).2.2.mp h).2.2
      rw [bowl_r] at h3
      norm_num [bowl, kHalfTolerance, kTolerance] at h3
    | surface => rfl
    | outside =>
      have h3 := (C102_meaning bowl_valid ⟨0, 0, 1 / 2⟩).1 ⟨by norm_num [bowl], by norm_num [bowl], by norm_num [Par.ell, bowl]⟩
      exact absurd h ((C102_inside bowl_valid ⟨0, 0, 1 / 2⟩).1.mp h3)
  · norm_num [bowl]

/-- The lower cap of the unit ball below `z = -0.8`. -/
noncomputable def cap : Par := ⟨1, 1, 1, -1, -4 / 5⟩
theorem cap_valid : cap.Valid := by constructor <;> norm_num [cap, kTolerance]

/-- C107: the sum of the two normals on an edge is only normalised if it is longer than a unit vector: where the normals include more than 120
degrees, as on the edge of a cap of a ball, the normal is called valid but is much shorter than a unit vector. -/
theorem C107_length_counterexample : inside (of cap) ⟨3 / 5, 0, -4 / 5⟩ = .surface ∧
    ∃ n, normal (of cap) ⟨3 / 5, 0, -4 / 5⟩ = (n, true) ∧ n.mag2 < 1 / 2 := by
  have hr : cap.r = 1 := by norm_num [Par.r, cap]
  have hh := kHalfTolerance_pos
  have hc : cap.Closed ⟨3 / 5, 0, -4 / 5⟩ := ⟨by norm_num [cap], by norm_num [cap], by norm_num [Par.ell, cap]⟩
  have hs : inside (of cap) ⟨3 / 5, 0, -4 / 5⟩ = .surface := by
    cases h : inside (of cap) ⟨3 / 5, 0, -4 / 5⟩ with
    | inside =>
      have h3 := ((C102_inside cap_valid ⟨3 / 5, 0, -4 / 5⟩).2.2.mp h).2.2
      rw [hr] at h3
      norm_num [cap, kHalfTolerance, kTolerance] at h3
    | surface => rfl
    | outside =>
      have h3 := (C102_meaning cap_valid ⟨3 / 5, 0, -4 / 5⟩).1 hc
      exact absurd h ((C102_inside cap_valid ⟨3 / 5, 0, -4 / 5⟩).1.mp h3)
  refine ⟨hs, ?_⟩
  obtain ⟨m, hm, h1, _⟩ := normal_eq cap_valid hs
  have c1 : cap.r - kHalfTolerance ≤ nrm (sc cap ⟨3 / 5, 0, -4 / 5⟩) := by
    have : nrm (sc cap ⟨3 / 5, 0, -4 / 5⟩) = cap.r := (nrm_eq_iff cap_valid _).mpr (by norm_num [Par.ell, cap])
    linarith
  have ecz : cz cap ⟨3 / 5, 0, -4 / 5⟩ = 1 / 10 := by unfold cz; rw [sc_z, hr]; norm_num [cap]
  have edim : dim cap = 1 / 10 := by unfold dim; rw [hr]; norm_num [cap]
  have c2 : dim cap - kHalfTolerance ≤ |cz cap ⟨3 / 5, 0, -4 / 5⟩| := by
    rw [ecz, edim, abs_of_pos (by norm_num)]; linarith
  have sg : sign (cz cap ⟨3 / 5, 0, -4 / 5⟩) = 1 := by rw [ecz]; norm_num [sign]
  rw [if_pos c1, if_pos c2, sg] at hm
  set s := √((grad cap ⟨3 / 5, 0, -4 / 5⟩).mag2 + kMinimum) with hsd
  have eg : (grad cap ⟨3 / 5, 0, -4 / 5⟩).mag2 = 1 := by norm_num [grad, cap, V3.mag2, V3.dot]
  have hk := kMinimum_pos
  have hk2 := EllTube.kMinimum_small
  have hs1 : 1 ≤ s := by rw [hsd, one_le_sqrt, eg]; linarith
  have hs2 : s ≤ 101 / 100 := by
    rw [hsd, sqrt_le_left (by norm_num), eg]
    have : kMinimum ≤ 1 / 100 := hk2.trans (by norm_num)
    linarith
  have hu1 : 1 / s ≤ 1 := by rw [div_le_one (by linarith)]; exact hs1
  have hu2 : 99 / 100 ≤ 1 / s := by rw [le_div_iff₀ (by linarith)]; linarith
  have em : m.mag2 = 9 / 25 * (1 / s) ^ 2 + (1 - 4 / 5 * (1 / s)) ^ 2 := by
    rw [hm]
    show (3 / 5 / (cap.x * cap.x) / s) * (3 / 5 / (cap.x * cap.x) / s) + (0 / (cap.y * cap.y) / s) * (0 / (cap.y * cap.y) / s) +
      (-4 / 5 / (cap.z * cap.z) / s + 1) * (-4 / 5 / (cap.z * cap.z) / s + 1) = _
    have e1 : cap.x = 1 := rfl
    have e2 : cap.z = 1 := rfl
    rw [e1, e2]
    ring
  generalize 1 / s = u at *
  have h0 : 0 < m.mag2 := by
    rw [em]
    have : 0 < 9 / 25 * u ^ 2 := by positivity
    linarith [sq_nonneg (1 - 4 / 5 * u)]
  have h2 : m.mag2 < 1 / 2 := by rw [em]; nlinarith
  have h3 : ¬ m.mag2 > 1 := by linarith
  rw [h1 h0, if_neg h3]
  exact ⟨m, rfl, h2⟩

end Ellipsoid
end VecGeom
