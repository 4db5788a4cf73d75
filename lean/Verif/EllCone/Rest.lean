import Verif.EllCone.Volume
import Verif.Ellipsoid.Volume

/-!
# C164: sampling on elliptical cones, C165: normals
-/

namespace VecGeom
namespace EllCone

open Real

variable {c : Par} {t : Struct}

theorem radial_some (a b h : ℝ) {l : List (ℝ × ℝ)} (hl : l ≠ []) : ∃ q, radialDirection a b h l = some q ∧ q.1 ^ 2 + q.2 ^ 2 = 1 := by
  induction l with
  | nil => exact absurd rfl hl
  | cons uv rest ih =>
    obtain ⟨u, v⟩ := uv
    rw [radialDirection]
    split
    · exact ⟨_, rfl, cos_sq_add_sin_sq _⟩
    · rename_i h
      exact ih (fun h' => h (.inr h'))

/-- C164: for all outcomes of the random numbers the sampled point lies on the surface, whatever areas the choice of the face is based
on. -/
theorem C164_sample (g : Good t c) (hv : c.Valid) (s : ℝ × ℝ × ℝ) (u : ℝ) {l : List (ℝ × ℝ)} (hl : l ≠ []) {w : ℝ} (h0 : 0 ≤ w)
    (h1 : w ≤ 1) : ∃ q, samplePointOnSurface t s u l w = some q ∧ c.Surface q := by
  have ha := a_pos hv
  have hb := b_pos hv
  have hz := cut_pos hv
  have ht := hv.top
  have lid : ∀ {r z : ℝ}, r = c.h - z → |z| = c.cut →
      c.Surface ⟨(EllTube.randomPointInEllipse (r * c.a) (r * c.b) l).1, (EllTube.randomPointInEllipse (r * c.a) (r * c.b) l).2, z⟩ := by
    intro r z hr hz'
    have hr0 : 0 ≤ r := by linarith [le_abs_self z]
    have := Ellipsoid.inEllipse_scaled ha hb hr0 l
    rw [mul_comm c.a, mul_comm c.b] at this
    refine ⟨⟨hz'.le, ?_⟩, .inl hz'⟩
    show √_ ≤ c.h - z
    rw [← hr]
    exact (sqrt_le_left hr0).mpr this
  unfold samplePointOnSurface
  simp only [g.dx, g.dy, g.dz, g.zcut]
  split
  · exact ⟨_, rfl, lid (by ring) (by rw [abs_neg, abs_of_pos hz])⟩
  split
  · obtain ⟨q, hq, hq1⟩ := radial_some (c.a * c.h) (c.b * c.h) c.h hl
    unfold sampleLateral
    simp only [g.dx, g.dy, g.dz, g.zcut, hq, Option.map_some]
    refine ⟨_, rfl, ?_⟩
    have hm : (c.h - c.cut) ^ 2 ≤ w * (c.h + c.cut) * (c.h + c.cut) + (1 - w) * (c.h - c.cut) * (c.h - c.cut) := by
      nlinarith [mul_nonneg h0 (mul_nonneg (h_pos hv).le hz.le)]
    have hM : w * (c.h + c.cut) * (c.h + c.cut) + (1 - w) * (c.h - c.cut) * (c.h - c.cut) ≤ (c.h + c.cut) ^ 2 := by
      nlinarith [mul_nonneg (by linarith : 0 ≤ 1 - w) (mul_nonneg (h_pos hv).le hz.le)]
    have s1 := le_sqrt_of_sq_le hm
    have s2 := (sqrt_le_left (by linarith [h_pos hv] : 0 ≤ c.h + c.cut)).mpr hM
    generalize √(w * (c.h + c.cut) * (c.h + c.cut) + (1 - w) * (c.h - c.cut) * (c.h - c.cut)) = r at *
    have hr : c.rho ⟨r * c.a * q.1, r * c.b * q.2, c.h - r⟩ = r := by
      unfold Par.rho
      dsimp only
      rw [show (r * c.a * q.1 / c.a) ^ 2 + (r * c.b * q.2 / c.b) ^ 2 = r ^ 2 * (q.1 ^ 2 + q.2 ^ 2) by field_simp, hq1, mul_one,
        sqrt_sq (by linarith)]
    have hr' : c.rho ⟨r * c.a * q.1, r * c.b * q.2, c.h - r⟩ = c.h - (c.h - r) := by rw [hr]; ring
    exact ⟨⟨abs_le.mpr ⟨by show -c.cut ≤ c.h - r; linarith, by show c.h - r ≤ c.cut; linarith⟩, hr'.le⟩, .inr hr'⟩
  · exact ⟨_, rfl, lid rfl (abs_of_pos hz)⟩

/-- C164: the areas that the choice of the face is based on are those of the faces: of the bases exactly, and the total is the surface
area. -/
theorem C164_weights (g : Good t c) (hv : c.Valid) (n : Nat) {s : ℝ × ℝ × ℝ} (hs : sampleAreas n t = some s) :
    s.1 = π * c.a * c.b * (c.h + c.cut) ^ 2 ∧ s.2.2 = π * c.a * c.b * (c.h - c.cut) ^ 2 ∧ surfaceArea n t = some (s.1 + s.2.1 + s.2.2) := by
  have ha := a_pos hv
  have hb := b_pos hv
  have hh := h_pos hv
  have hm := m_pos hv
  have hM : 0 < max c.a c.b := lt_of_lt_of_le hm min_le_max
  have scale : lateralArea n (c.a * c.h) (c.b * c.h) c.h = (lateralArea n c.a c.b 1).map (c.h ^ 2 * ·) := by
    unfold lateralArea
    dsimp only
    rw [abs_mul, abs_mul, abs_one, abs_of_pos ha, abs_of_pos hb, abs_of_pos hh, ← max_mul_of_nonneg _ _ hh.le, ← min_mul_of_nonneg _ _ hh.le]
    generalize max c.a c.b = M at *
    generalize min c.a c.b = m at *
    rw [show (M * c.h - m * c.h) * (M * c.h + m * c.h) * (c.h * c.h) / ((c.h * c.h + m * c.h * (m * c.h)) * (M * c.h * (M * c.h))) =
      (M - m) * (M + m) * (1 * 1) / ((1 * 1 + m * m) * (M * M)) by field_simp,
      show c.h * c.h + m * c.h * (m * c.h) = c.h ^ 2 * (1 * 1 + m * m) by ring, sqrt_mul (sq_nonneg _), sqrt_sq hh.le, Option.map_map]
    congr 1
    funext y
    simp only [Function.comp]
    ring
  unfold sampleAreas at hs
  simp only [g.dx, g.dy, g.dz, g.zcut, scale, Option.map_map] at hs
  unfold surfaceArea
  simp only [g.dx, g.dy, g.dz, g.zcut]
  generalize lateralArea n c.a c.b 1 = L at *
  cases L with
  | none => simp at hs
  | some L =>
    simp only [Option.map_some, Option.some.injEq, Function.comp] at hs ⊢
    subst hs
    refine ⟨?_, ?_, ?_⟩
    · dsimp only
      field_simp
    · dsimp only
      field_simp
    · dsimp only
      field_simp
      ring

/-- C164: the rejection of directions is sound: the value compared with the random number is the element of the area of the lateral
surface (`h` times that at unit depth and height), and does not exceed the maximum that it is divided by; and a direction is accepted
exactly if the random number is at most the quotient. -/
theorem C164_density {a b h u v : ℝ} (ha : 0 < a) (hb : 0 < b) (hh : 0 < h) {rest : List (ℝ × ℝ)} (hr : rest ≠ []) :
    let x := cos (2 * π * u)
    let y := sin (2 * π * u)
    let el := √((h * b * x) ^ 2 + (h * a * y) ^ 2 + (a * b) ^ 2)
    let top := max a b * √(h * h + max a b * max a b)
    (el ≤ top) ∧ (radialDirection a b h ((u, v) :: rest) = if v ≤ el / top then some (x, y) else radialDirection a b h rest) := by
  intro x y el top
  have hR : 0 < max a b := lt_max_of_lt_left ha
  have ht : 0 < top := by positivity
  have hxy : x ^ 2 + y ^ 2 = 1 := cos_sq_add_sin_sq _
  have e : (h * h + a * a * (x * x) + b * b * (y * y)) * (a * a * (y * y) + b * b * (x * x)) -
      (a * a - b * b) * x * y * ((a * a - b * b) * x * y) = (h * b * x) ^ 2 + (h * a * y) ^ 2 + (a * b) ^ 2 := by
    linear_combination (a * b) ^ 2 * (x ^ 2 + y ^ 2 + 1) * hxy
  refine ⟨?_, ?_⟩
  · apply (sqrt_le_left ht.le).mpr
    have t2 : top ^ 2 = max a b ^ 2 * (h * h + max a b * max a b) := by
      show (_ * _) ^ 2 = _
      rw [mul_pow, sq_sqrt (by positivity)]
    rw [t2]
    have a1 : a ^ 2 ≤ max a b ^ 2 := pow_le_pow_left₀ ha.le (le_max_left _ _) 2
    have b1 : b ^ 2 ≤ max a b ^ 2 := pow_le_pow_left₀ hb.le (le_max_right _ _) 2
    have p1 : (h * b * x) ^ 2 ≤ h ^ 2 * max a b ^ 2 * x ^ 2 := by
      rw [mul_pow, mul_pow]
      exact mul_le_mul_of_nonneg_right (mul_le_mul_of_nonneg_left b1 (sq_nonneg _)) (sq_nonneg _)
    have p2 : (h * a * y) ^ 2 ≤ h ^ 2 * max a b ^ 2 * y ^ 2 := by
      rw [mul_pow, mul_pow]
      exact mul_le_mul_of_nonneg_right (mul_le_mul_of_nonneg_left a1 (sq_nonneg _)) (sq_nonneg _)
    have p3 : (a * b) ^ 2 ≤ max a b ^ 2 * max a b ^ 2 := by
      rw [mul_pow]
      exact mul_le_mul a1 b1 (sq_nonneg _) (sq_nonneg _)
    have p4 : h ^ 2 * max a b ^ 2 * x ^ 2 + h ^ 2 * max a b ^ 2 * y ^ 2 = h ^ 2 * max a b ^ 2 := by rw [← mul_add, hxy, mul_one]
    linarith [show max a b ^ 2 * (h * h + max a b * max a b) = h ^ 2 * max a b ^ 2 + max a b ^ 2 * max a b ^ 2 by ring]
  · rw [radialDirection]
    rw [e]
    have : (max a b * √(h * h + max a b * max a b) * v ≤ el ∨ rest = []) ↔ v ≤ el / top := by
      rw [le_div_iff₀ ht, or_iff_left hr, mul_comm]
    by_cases hc : v ≤ el / top
    · rw [if_pos (this.mpr hc), if_pos hc]
    · rw [if_neg (fun h => hc (this.mp h)), if_neg hc]

/-- C164: the part of the lateral surface above the sampled height is as large as the random number says. -/
theorem C164_height (g : Good t c) (hv : c.Valid) {l : List (ℝ × ℝ)} {w : ℝ} (h0 : 0 ≤ w) (h1 : w ≤ 1) {q : V3}
    (hq : sampleLateral t l w = some q) :
    (∫ s in (c.h - c.cut)..(c.h - q.z), s) = w * ∫ s in (c.h - c.cut)..(c.h + c.cut), s := by
  have hz := cut_pos hv
  have ht := hv.top
  unfold sampleLateral at hq
  simp only [g.dx, g.dy, g.dz, g.zcut] at hq
  generalize radialDirection (c.a * c.h) (c.b * c.h) c.h l = d at hq
  cases d with
  | none => simp at hq
  | some d =>
    simp only [Option.map_some, Option.some.injEq] at hq
    subst hq
    have hm : 0 ≤ w * (c.h + c.cut) * (c.h + c.cut) + (1 - w) * (c.h - c.cut) * (c.h - c.cut) := by
      have : 0 ≤ 1 - w := by linarith
      nlinarith [mul_nonneg h0 (mul_self_nonneg (c.h + c.cut)), mul_nonneg this (mul_self_nonneg (c.h - c.cut))]
    have e := sq_sqrt hm
    rw [integral_id, integral_id]
    dsimp only
    generalize √(w * (c.h + c.cut) * (c.h + c.cut) + (1 - w) * (c.h - c.cut) * (c.h - c.cut)) = r at *
    linear_combination e / 2

/-! ## C165: normals -/

/-- The direction of steepest ascent of the height over the lateral surface, times the scaled radius. -/
noncomputable def Par.grad (c : Par) (p : V3) : V3 := ⟨p.x / c.a ^ 2, p.y / c.b ^ 2, c.rho p⟩

theorem grad_dot (hv : c.Valid) (p q : V3) : (c.grad p).dot (q - p) ≤ c.rho p * ((c.rho q + q.z) - (c.rho p + p.z)) := by
  have ha := a_pos hv
  have hb := b_pos hv
  have h1 := rho_sq (c := c) p
  have h2 := rho_sq (c := c) q
  have hp := rho_nonneg (c := c) p
  have hq := rho_nonneg (c := c) q
  have e : (c.grad p).dot (q - p) = p.x / c.a * (q.x / c.a) + p.y / c.b * (q.y / c.b) - ((p.x / c.a) ^ 2 + (p.y / c.b) ^ 2) +
      c.rho p * (q.z - p.z) := by
    show p.x / c.a ^ 2 * (q.x - p.x) + p.y / c.b ^ 2 * (q.y - p.y) + c.rho p * (q.z - p.z) = _
    field_simp
    ring
  rw [e, ← h1]
  generalize p.x / c.a = x at *
  generalize p.y / c.b = y at *
  generalize q.x / c.a = u at *
  generalize q.y / c.b = v at *
  have hc : x * u + y * v ≤ c.rho p * c.rho q := by
    apply abs_le_of_sq_le_sq' _ (mul_nonneg hp hq) |>.2
    rw [mul_pow, h1, h2]
    nlinarith [sq_nonneg (x * v - y * u)]
  nlinarith

theorem rho_pos (hv : c.Valid) {p : V3} (h : p.x ≠ 0 ∨ p.y ≠ 0) : 0 < c.rho p := by
  have ha := a_pos hv
  have hb := b_pos hv
  apply sqrt_pos.mpr
  rcases h with h | h
  · have : 0 < (p.x / c.a) ^ 2 := by positivity
    have := sq_nonneg (p.y / c.b)
    linarith
  · have : 0 < (p.y / c.b) ^ 2 := by positivity
    have := sq_nonneg (p.x / c.a)
    linarith

open Classical in
/-- The normal away from the axis, in terms of the shape. -/
theorem normal_eq (g : Good t c) (hv : c.Valid) {p : V3} (h : p.x ≠ 0 ∨ p.y ≠ 0) :
    normal t p =
      let n0 : V3 := if |(|p.z| - c.cut)| ≤ kHalfTolerance then ⟨0, 0, sign p.z⟩ else ⟨0, 0, 0⟩
      let n := if |(c.rho p + p.z - c.h) * c.cosMin| ≤ kHalfTolerance then (n0 + (c.grad p).unit).unit else n0
      if n.mag2 > 0 then (n, true)
      else if (c.rho p + p.z - c.h) * c.cosMin > |p.z| - c.cut then ((c.grad p).unit, false) else ({ n with z := sign p.z }, false) := by
  have ha := a_pos hv
  have hb := b_pos hv
  have e1 : p.x * t.invDx * t.invDx = p.x / c.a ^ 2 := by rw [g.ix]; field_simp
  have e2 : p.y * t.invDy * t.invDy = p.y / c.b ^ 2 := by rw [g.iy]; field_simp
  have hne : ¬ (p.x / c.a ^ 2 * (p.x / c.a ^ 2) + p.y / c.b ^ 2 * (p.y / c.b ^ 2) = 0) := by
    intro h0
    have h1 : p.x / c.a ^ 2 = 0 := by nlinarith [mul_self_nonneg (p.x / c.a ^ 2), mul_self_nonneg (p.y / c.b ^ 2)]
    have h2 : p.y / c.b ^ 2 = 0 := by nlinarith [mul_self_nonneg (p.x / c.a ^ 2), mul_self_nonneg (p.y / c.b ^ 2)]
    rcases h with h | h
    · exact h (by simpa [ha.ne'] using h1)
    · exact h (by simpa [hb.ne'] using h2)
  have e3 : √(p.x * (p.x / c.a ^ 2) + p.y * (p.y / c.b ^ 2)) = c.rho p := by
    unfold Par.rho
    congr 1
    field_simp
  unfold normal
  dsimp only
  rw [e1, e2, if_neg hne, e3, g.dz, g.zcut, g.cos]
  rfl

/-- C165: away from the axis the normal is declared valid exactly within half a tolerance of a base or of the lateral surface. -/
theorem C165_flag (g : Good t c) (hv : c.Valid) {p : V3} (h : p.x ≠ 0 ∨ p.y ≠ 0) :
    (normal t p).2 = true ↔ |(|p.z| - c.cut)| ≤ kHalfTolerance ∨ |(c.rho p + p.z - c.h) * c.cosMin| ≤ kHalfTolerance := by
  rw [normal_eq g hv h]
  dsimp only
  have hz : ∀ x : ℝ, sign x * sign x = 1 := fun x => by unfold sign; split <;> norm_num
  have hside : ∀ σ : ℝ, 0 < ((⟨0, 0, σ⟩ : V3) + (c.grad p).unit).unit.mag2 := by
    intro σ
    have ha := a_pos hv
    have hb := b_pos hv
    have hs := V3.unit_root_pos (c.grad p)
    have hx : ((⟨0, 0, σ⟩ : V3) + (c.grad p).unit).x = p.x / c.a ^ 2 / √((c.grad p).mag2 + kMinimum) := zero_add _
    have hy : ((⟨0, 0, σ⟩ : V3) + (c.grad p).unit).y = p.y / c.b ^ 2 / √((c.grad p).mag2 + kMinimum) := zero_add _
    have hm : 0 < ((⟨0, 0, σ⟩ : V3) + (c.grad p).unit).mag2 := by
      generalize (⟨0, 0, σ⟩ : V3) + (c.grad p).unit = v at *
      have e : v.mag2 = v.x * v.x + v.y * v.y + v.z * v.z := rfl
      rw [e]
      have := mul_self_nonneg v.x
      have := mul_self_nonneg v.y
      have := mul_self_nonneg v.z
      rcases h with h | h
      · have h' : v.x ≠ 0 := by rw [hx]; positivity
        have := mul_self_pos.mpr h'
        linarith
      · have h' : v.y ≠ 0 := by rw [hy]; positivity
        have := mul_self_pos.mpr h'
        linarith
    rw [V3.unit_mag2]
    exact div_pos hm (by linarith [kMinimum_pos])
  by_cases h2 : |(c.rho p + p.z - c.h) * c.cosMin| ≤ kHalfTolerance
  · simp only [h2, if_true, or_true, iff_true]
    rw [if_pos]
    split
    · exact hside _
    · exact hside 0
  · simp only [h2, if_false, or_false]
    by_cases h1 : |(|p.z| - c.cut)| ≤ kHalfTolerance
    · simp only [h1, if_true, iff_true]
      have : (V3.mk 0 0 (sign p.z)).mag2 = 1 := by
        show 0 * 0 + 0 * 0 + sign p.z * sign p.z = 1
        rw [hz]; norm_num
      rw [if_pos (by rw [this]; norm_num)]
    · simp only [h1, if_false, iff_false]
      have : ¬ (V3.mk 0 0 0).mag2 > 0 := by
        show ¬ (0 * 0 + 0 * 0 + 0 * 0 > (0 : ℝ))
        norm_num
      rw [if_neg this]
      split <;> simp

theorem unit_dot (v w : V3) : v.unit.dot w = v.dot w / √(v.mag2 + kMinimum) := by
  show v.x / _ * w.x + v.y / _ * w.y + v.z / _ * w.z = (v.x * w.x + v.y * w.y + v.z * w.z) / _
  ring

theorem unit_dot_nonpos {v w : V3} (h : v.dot w ≤ 0) : v.unit.dot w ≤ 0 := by
  rw [unit_dot]
  exact div_nonpos_of_nonpos_of_nonneg h (V3.unit_root_pos v).le

theorem sign_sq (x : ℝ) : sign x * sign x = 1 := by unfold sign; split <;> norm_num

/-- C165: at a point away from the axis that lies on the faces within half a tolerance of it, of which there is at least one, the normal
is valid, not zero, not longer than 1, and points out of the solid: the whole solid lies on the other side of the plane through the point
that it is perpendicular to. -/
theorem C165_outward (g : Good t c) (hv : c.Valid) {p : V3} (hp : c.Surface p) (h : p.x ≠ 0 ∨ p.y ≠ 0)
    (hz : |(|p.z| - c.cut)| ≤ kHalfTolerance → |p.z| = c.cut)
    (hr : |(c.rho p + p.z - c.h) * c.cosMin| ≤ kHalfTolerance → c.rho p = c.h - p.z) :
    (normal t p).2 = true ∧ 0 < (normal t p).1.mag2 ∧ (normal t p).1.mag2 ≤ 1 ∧ ∀ q, c.Closed q → (normal t p).1.dot (q - p) ≤ 0 := by
  have hT := kHalfTolerance_pos
  have hrp := rho_pos hv h
  have hflag : (normal t p).2 = true := by
    rw [C165_flag g hv h]
    rcases hp.on with h1 | h1
    · left; rw [h1, sub_self, abs_zero]; exact hT.le
    · right; rw [show c.rho p + p.z - c.h = 0 by linarith, zero_mul, abs_zero]; exact hT.le
  refine ⟨hflag, ?_⟩
  rw [normal_eq g hv h] at hflag ⊢
  dsimp only at hflag ⊢
  have lidDot : ∀ q, c.Closed q → |p.z| = c.cut → sign p.z * (q.z - p.z) ≤ 0 := by
    intro q hq h1
    obtain ⟨q1, q2⟩ := abs_le.mp hq.z
    unfold sign
    by_cases h0 : p.z < 0
    · rw [abs_of_neg h0] at h1
      split <;> linarith
    · rw [abs_of_nonneg (not_lt.mp h0)] at h1
      split <;> linarith
  have sideDot : ∀ q, c.Closed q → c.rho p = c.h - p.z → (c.grad p).unit.dot (q - p) ≤ 0 := by
    intro q hq h1
    apply unit_dot_nonpos
    refine (grad_dot hv p q).trans ?_
    apply mul_nonpos_of_nonneg_of_nonpos hrp.le
    have := hq.r
    linarith
  generalize hn0 : (if |(|p.z| - c.cut)| ≤ kHalfTolerance then (⟨0, 0, sign p.z⟩ : V3) else ⟨0, 0, 0⟩) = n0 at *
  have n0dot : ∀ q, c.Closed q → n0.dot (q - p) ≤ 0 := by
    intro q hq
    rw [← hn0]
    split
    · rename_i h1
      show 0 * (q.x - p.x) + 0 * (q.y - p.y) + sign p.z * (q.z - p.z) ≤ 0
      have := lidDot q hq (hz h1)
      linarith
    · show 0 * (q.x - p.x) + 0 * (q.y - p.y) + 0 * (q.z - p.z) ≤ 0
      linarith
  have n0mag : n0.mag2 ≤ 1 := by
    rw [← hn0]
    split
    · show 0 * 0 + 0 * 0 + sign p.z * sign p.z ≤ 1
      rw [sign_sq]; norm_num
    · show 0 * 0 + 0 * 0 + 0 * 0 ≤ (1 : ℝ)
      norm_num
  by_cases h2 : |(c.rho p + p.z - c.h) * c.cosMin| ≤ kHalfTolerance
  · rw [if_pos h2] at hflag ⊢
    by_cases h3 : (n0 + (c.grad p).unit).unit.mag2 > 0
    · rw [if_pos h3]
      refine ⟨h3, V3.unit_mag2_le _, fun q hq => ?_⟩
      apply unit_dot_nonpos
      have e : (n0 + (c.grad p).unit).dot (q - p) = n0.dot (q - p) + (c.grad p).unit.dot (q - p) := by
        show (n0.x + _) * _ + (n0.y + _) * _ + (n0.z + _) * _ = (n0.x * _ + n0.y * _ + n0.z * _) + (_ * _ + _ * _ + _ * _)
        ring
      rw [e]
      linarith [n0dot q hq, sideDot q hq (hr h2)]
    · rw [if_neg h3] at hflag
      split at hflag <;> simp at hflag
  · rw [if_neg h2] at hflag ⊢
    by_cases h3 : n0.mag2 > 0
    · rw [if_pos h3]
      exact ⟨h3, n0mag, n0dot⟩
    · rw [if_neg h3] at hflag
      split at hflag <;> simp at hflag

/-- A slender one. -/
noncomputable def spire : Par := ⟨1, 1, 2, 3 / 2⟩

theorem spire_valid : spire.Valid := by constructor <;> norm_num [spire, kTolerance]

/-- C165: on the axis, one unit below the apex, the normal is declared valid although the point is well inside the solid. -/
theorem C165_axis_counterexample (m : Struct) :
    spire.Open ⟨0, 0, 1⟩ ∧ (∀ q, V3.dist ⟨0, 0, 1⟩ q < 1 / 2 → spire.Closed q) ∧ (normal (make m 1 1 2 (3 / 2)) ⟨0, 0, 1⟩).2 = true := by
  have hv := spire_valid
  have g : Good (make m 1 1 2 (3 / 2)) spire := good_make spire_valid m
  have hk := cos_pos' hv
  have hk2 := cos_sq hv
  have hm : min spire.a spire.b = 1 := min_self _
  rw [hm] at hk2
  have h0 : spire.rho ⟨0, 0, 1⟩ = 0 := by
    unfold Par.rho
    dsimp only
    rw [zero_div, zero_div, zero_pow two_ne_zero, add_zero, sqrt_zero]
  refine ⟨⟨?_, ?_⟩, fun q hq => ⟨?_, ?_⟩, ?_⟩
  · norm_num [spire]
  · rw [h0]; norm_num [spire]
  · have h1 := V3.abs_z_le_dist ⟨0, 0, 1⟩ q
    rw [show spire.cut = 3 / 2 from rfl]
    have h2 : |(1 : ℝ) - q.z| < 1 / 2 := lt_of_le_of_lt h1 hq
    rw [abs_lt] at h2
    rw [abs_le]
    constructor <;> linarith
  · have h1 := height_lip hv q ⟨0, 0, 1⟩
    rw [h0, V3.dist_comm'] at h1
    rw [show spire.h = 2 from rfl]
    dsimp only at h1
    generalize spire.rho q = r at *
    generalize spire.cosMin = k at *
    by_contra hc
    push Not at hc
    nlinarith
  · unfold normal
    dsimp only
    simp only [zero_mul, mul_zero, add_zero, if_true]
    have e1 : (1 + 1 - (make m 1 1 2 (3 / 2)).dz) * (make m 1 1 2 (3 / 2)).cosAxisMin = 0 := by
      rw [g.dz, show spire.h = 2 from rfl]; norm_num
    have e2 : ¬ |(|(1 : ℝ)| - (make m 1 1 2 (3 / 2)).zcut)| ≤ kHalfTolerance := by
      rw [g.zcut, show spire.cut = 3 / 2 from rfl]
      norm_num [kHalfTolerance, kTolerance]
    rw [e1, if_neg e2, abs_zero]
    simp only [kHalfTolerance_pos.le, if_true]
    rw [if_pos]
    have hs : ∀ v : V3, 0 < v.mag2 → 0 < v.unit.mag2 := by
      intro v hv
      rw [V3.unit_mag2]
      exact div_pos hv (by linarith [kMinimum_pos])
    apply hs
    have : ((⟨0, 0, 0⟩ : V3) + (V3.mk 0 0 1).unit).mag2 = (V3.mk 0 0 1).unit.mag2 := by
      show (0 + _) * (0 + _) + (0 + _) * (0 + _) + (0 + _) * (0 + _) = _ * _ + _ * _ + _ * _
      ring
    rw [this]
    apply hs
    show 0 < 0 * 0 + 0 * 0 + 1 * (1 : ℝ)
    norm_num

/-- A point of the side. -/
example (m : Struct) : (normal (make m tent.a tent.b tent.h tent.cut) ⟨8, 0, 0⟩).2 = true ∧
    ∀ q, tent.Closed q → (normal (make m tent.a tent.b tent.h tent.cut) ⟨8, 0, 0⟩).1.dot (q - ⟨8, 0, 0⟩) ≤ 0 := by
  have hr : tent.rho ⟨8, 0, 0⟩ = 4 := by
    unfold Par.rho tent
    dsimp only
    rw [show ((8 : ℝ) / 2) ^ 2 + (0 / 1) ^ 2 = 4 ^ 2 by norm_num, sqrt_sq (by norm_num)]
  have hs : tent.Surface ⟨8, 0, 0⟩ := ⟨⟨by norm_num [tent], by rw [hr]; norm_num [tent]⟩, .inr (by rw [hr]; norm_num [tent])⟩
  have := C165_outward (good_make tent_valid m) tent_valid hs (.inl (by norm_num))
    (fun h => by norm_num [tent, kHalfTolerance, kTolerance] at h) (fun _ => by rw [hr]; norm_num [tent])
  exact ⟨this.1, this.2.2.2⟩

end EllCone
end VecGeom
