import Verif.EllCone.Props
import Verif.EllTube.Accuracy
import Verif.Base.Ellipse
import Verif.Base.Slices2

/-!
# C162: capacity and surface area of elliptical cones
-/

namespace VecGeom
namespace EllCone

open Real MeasureTheory

variable {c : Par} {t : Struct}

/-- C162: the capacity is the volume of the set of points of the solid. -/
theorem C162_capacity (g : Good t c) (hv : c.Valid) :
    volume {q : Fin 3 → ℝ | c.Closed ⟨q 0, q 1, q 2⟩} = ENNReal.ofReal (capacity t) := by
  have ha := a_pos hv
  have hb := b_pos hv
  have hz := cut_pos hv
  have ht := hv.top
  have hpi := pi_pos
  have hset : {q : Fin 3 → ℝ | c.Closed ⟨q 0, q 1, q 2⟩} =
      {q | |q 2| ≤ c.cut} ∩ {q | √((q 0 / c.a) ^ 2 + (q 1 / c.b) ^ 2) ≤ c.h - q 2} := by
    ext q
    exact ⟨fun h : c.Closed _ => ⟨Par.Closed.z h, Par.Closed.r h⟩, fun h => ⟨h.1, h.2⟩⟩
  have hmeas : MeasurableSet {q : Fin 3 → ℝ | c.Closed ⟨q 0, q 1, q 2⟩} := by
    rw [hset]
    have m1 : Measurable fun q : Fin 3 → ℝ => √((q 0 / c.a) ^ 2 + (q 1 / c.b) ^ 2) := by fun_prop
    have m2 : Measurable fun q : Fin 3 → ℝ => c.h - q 2 := by fun_prop
    have mz : Measurable fun q : Fin 3 → ℝ => |q 2| := by fun_prop
    exact (measurableSet_le mz measurable_const).inter (measurableSet_le m1 m2)
  rw [volume_slices hmeas (a := -c.cut) (b := c.cut) (g := fun z => π * c.a * c.b * (c.h - z) ^ 2) (by linarith) (by fun_prop)]
  · have e : ∀ z, π * c.a * c.b * (c.h - z) ^ 2 = π * c.a * c.b * c.h ^ 2 + (-2 * π * c.a * c.b * c.h) * z + π * c.a * c.b * z ^ 2 := by
      intro z; ring
    simp only [e]
    rw [integral_quadratic, capacity, g.vol]
    congr 1
    ring
  · intro z _
    positivity
  · intro q hq
    exact abs_le.mp hq.z
  · intro z h
    have hz' : |z| ≤ c.cut := abs_le.mpr h
    rcases (show 0 ≤ c.h - z by linarith [h.2]).lt_or_eq with h0 | h0
    · have h1 := area_ellipse (mul_pos ha h0) (mul_pos hb h0)
      rw [show π * c.a * c.b * (c.h - z) ^ 2 = π * (c.a * (c.h - z)) * (c.b * (c.h - z)) by ring, ← h1]
      congr 1
      ext w
      rw [hset]
      simp only [Set.mem_inter_iff, Set.mem_setOf_eq]
      have e : (w 0 / (c.a * (c.h - z))) ^ 2 + (w 1 / (c.b * (c.h - z))) ^ 2 = ((w 0 / c.a) ^ 2 + (w 1 / c.b) ^ 2) / (c.h - z) ^ 2 := by
        field_simp
      rw [e, div_le_one (by positivity)]
      constructor
      · rintro ⟨-, h2⟩
        exact (sqrt_le_left h0.le).mp h2
      · intro h2
        exact ⟨hz', (sqrt_le_left h0.le).mpr h2⟩
    · rw [← h0, zero_pow two_ne_zero, mul_zero, ENNReal.ofReal_zero]
      refine measure_mono_null ?_ (measure_singleton (0 : Fin 2 → ℝ))
      intro w hw
      rw [hset] at hw
      have h2 : √((w 0 / c.a) ^ 2 + (w 1 / c.b) ^ 2) ≤ c.h - z := hw.2
      rw [← h0] at h2
      have h3 := sqrt_eq_zero'.mp (le_antisymm h2 (sqrt_nonneg _))
      have h4 : w 0 / c.a = 0 := by nlinarith [sq_nonneg (w 0 / c.a), sq_nonneg (w 1 / c.b)]
      have h5 : w 1 / c.b = 0 := by nlinarith [sq_nonneg (w 0 / c.a), sq_nonneg (w 1 / c.b)]
      have h6 : w 0 = 0 := by simpa [ha.ne'] using h4
      have h7 : w 1 = 0 := by simpa [hb.ne'] using h5
      show w = 0
      funext i
      fin_cases i
      · exact h6
      · exact h7

/-- The point of the lateral surface at the depth `s` below the apex and the angle `θ`. -/
noncomputable def Par.lateral (c : Par) (s θ : ℝ) : V3 := ⟨s * (c.a * cos θ), s * (c.b * sin θ), c.h - s⟩

/-- The area of the lateral surface: the integral of the length of the vector product of the derivatives of `Par.lateral`. -/
noncomputable def Par.lateralArea (c : Par) : ℝ :=
  ∫ s in (c.h - c.cut)..(c.h + c.cut), ∫ θ in (0)..(2 * π),
    let u : V3 := ⟨deriv (fun s => (c.lateral s θ).x) s, deriv (fun s => (c.lateral s θ).y) s, deriv (fun s => (c.lateral s θ).z) s⟩
    let v : V3 := ⟨deriv (fun θ => (c.lateral s θ).x) θ, deriv (fun θ => (c.lateral s θ).y) θ, deriv (fun θ => (c.lateral s θ).z) θ⟩
    √((u.y * v.z - u.z * v.y) ^ 2 + (u.z * v.x - u.x * v.z) ^ 2 + (u.x * v.y - u.y * v.x) ^ 2)

/-- The points of `Par.lateral` are those of the lateral surface. -/
theorem lateral_mem (hv : c.Valid) (p : V3) :
    (c.Closed p ∧ c.rho p = c.h - p.z) ↔ ∃ s θ, c.h - c.cut ≤ s ∧ s ≤ c.h + c.cut ∧ 0 ≤ θ ∧ θ ≤ 2 * π ∧ p = c.lateral s θ := by
  have ha := a_pos hv
  have hb := b_pos hv
  have ht := hv.top
  constructor
  · rintro ⟨hc, hr⟩
    obtain ⟨z1, z2⟩ := abs_le.mp hc.z
    have hs : 0 ≤ c.rho p := sqrt_nonneg _
    have h2 := rho_sq (c := c) p
    rw [hr] at h2 hs
    obtain ⟨θ, ht0, ht1, hx, hy⟩ : ∃ θ, 0 ≤ θ ∧ θ ≤ 2 * π ∧ p.x / c.a = (c.h - p.z) * cos θ ∧ p.y / c.b = (c.h - p.z) * sin θ := by
      have hpi := pi_pos
      set w : ℂ := ⟨p.x / c.a, p.y / c.b⟩ with hw
      have hn : ‖w‖ = c.h - p.z := by
        rw [Complex.norm_eq_sqrt_sq_add_sq]
        exact hr
      have h3 : p.x / c.a = (c.h - p.z) * cos (Complex.arg w) := by
        rw [← hn, Complex.norm_mul_cos_arg]
      have h4 : p.y / c.b = (c.h - p.z) * sin (Complex.arg w) := by
        rw [← hn, Complex.norm_mul_sin_arg]
      by_cases h0 : 0 ≤ Complex.arg w
      · exact ⟨_, h0, by linarith [Complex.arg_le_pi w], h3, h4⟩
      · refine ⟨Complex.arg w + 2 * π, by linarith [Complex.neg_pi_lt_arg w], by push Not at h0; linarith, ?_, ?_⟩
        · rw [cos_add_two_pi]; exact h3
        · rw [sin_add_two_pi]; exact h4
    refine ⟨c.h - p.z, θ, by linarith, by linarith, ht0, ht1, ?_⟩
    rw [div_eq_iff ha.ne'] at hx
    rw [div_eq_iff hb.ne'] at hy
    unfold Par.lateral
    obtain ⟨x, y, z⟩ := p
    simp only at hx hy
    rw [hx, hy]
    congr 1 <;> ring
  · rintro ⟨s, θ, h1, h2, -, -, rfl⟩
    have hr : c.rho (c.lateral s θ) = s := by
      unfold Par.rho Par.lateral
      rw [show (s * (c.a * cos θ) / c.a) ^ 2 + (s * (c.b * sin θ) / c.b) ^ 2 = s ^ 2 * (cos θ ^ 2 + sin θ ^ 2) by field_simp,
        cos_sq_add_sin_sq, mul_one, sqrt_sq (by linarith)]
    refine ⟨⟨?_, ?_⟩, ?_⟩
    · show |c.h - s| ≤ c.cut
      rw [abs_le]; constructor <;> linarith
    · rw [hr]; show s ≤ c.h - (c.h - s); linarith
    · rw [hr]; show s = c.h - (c.h - s); ring

/-- The inner integral. -/
noncomputable def around (a b : ℝ) : ℝ := ∫ θ in (0)..(2 * π), √((b * cos θ) ^ 2 + (a * sin θ) ^ 2 + (a * b) ^ 2)

theorem lateralArea_eq (hv : c.Valid) : c.lateralArea = 2 * c.h * c.cut * around c.a c.b := by
  have ht := hv.top
  have hz := cut_pos hv
  unfold Par.lateralArea Par.lateral
  have e : ∀ s ∈ Set.uIcc (c.h - c.cut) (c.h + c.cut), (∫ θ in (0)..(2 * π),
      let u : V3 := ⟨deriv (fun s => s * (c.a * cos θ)) s, deriv (fun s => s * (c.b * sin θ)) s, deriv (fun s => c.h - s) s⟩
      let v : V3 := ⟨deriv (fun θ => s * (c.a * cos θ)) θ, deriv (fun θ => s * (c.b * sin θ)) θ, deriv (fun _ : ℝ => c.h - s) θ⟩
      √((u.y * v.z - u.z * v.y) ^ 2 + (u.z * v.x - u.x * v.z) ^ 2 + (u.x * v.y - u.y * v.x) ^ 2)) = s * around c.a c.b := by
    intro s hs
    rw [Set.uIcc_of_le (by linarith)] at hs
    have hs0 : 0 ≤ s := by linarith [hs.1]
    unfold around
    rw [← intervalIntegral.integral_const_mul]
    congr 1
    funext θ
    have d1 : deriv (fun s => s * (c.a * cos θ)) s = c.a * cos θ := by simp
    have d2 : deriv (fun s => s * (c.b * sin θ)) s = c.b * sin θ := by simp
    have d3 : deriv (fun s : ℝ => c.h - s) s = -1 := by
      have := (hasDerivAt_id s).const_sub c.h
      exact this.deriv
    have d4 : deriv (fun θ => s * (c.a * cos θ)) θ = -(s * (c.a * sin θ)) := by
      have := (((hasDerivAt_cos θ).const_mul c.a).const_mul s).deriv
      rw [this]; ring
    have d5 : deriv (fun θ => s * (c.b * sin θ)) θ = s * (c.b * cos θ) := by
      have := (((hasDerivAt_sin θ).const_mul c.b).const_mul s).deriv
      rw [this]
    have d6 : deriv (fun _ : ℝ => c.h - s) θ = 0 := by simp
    simp only [d1, d2, d3, d4, d5, d6]
    rw [← sqrt_sq hs0, ← sqrt_mul (sq_nonneg _), sqrt_sq hs0]
    congr 1
    have hcs := cos_sq_add_sin_sq θ
    rw [show c.a * cos θ * (s * (c.b * cos θ)) - c.b * sin θ * -(s * (c.a * sin θ)) = s * c.a * c.b * (cos θ ^ 2 + sin θ ^ 2) by ring, hcs]
    ring
  rw [intervalIntegral.integral_congr e, intervalIntegral.integral_mul_const, integral_id]
  ring

theorem around_comm (a b : ℝ) : around a b = around b a := by
  unfold around
  have hp : Function.Periodic (fun θ => √((b * cos θ) ^ 2 + (a * sin θ) ^ 2 + (a * b) ^ 2)) (2 * π) := fun θ => by
    show √((b * cos (θ + 2 * π)) ^ 2 + (a * sin (θ + 2 * π)) ^ 2 + (a * b) ^ 2) = _
    rw [cos_add_two_pi, sin_add_two_pi]
  have h := hp.intervalIntegral_add_eq (π / 2) 0
  rw [zero_add] at h
  rw [← h]
  have h2 := intervalIntegral.integral_comp_add_right (a := 0) (b := 2 * π)
    (fun θ => √((b * cos θ) ^ 2 + (a * sin θ) ^ 2 + (a * b) ^ 2)) (π / 2)
  rw [zero_add, add_comm (2 * π)] at h2
  rw [← h2]
  congr 1
  funext θ
  rw [cos_add_pi_div_two, sin_add_pi_div_two]
  congr 1; ring

/-- The smaller axis of the ellipse whose length is the lateral area, and the larger one. -/
theorem around_eq {a b : ℝ} (hb : 0 < b) (hab : b ≤ a) :
    around a b = a * √(1 + b ^ 2) * ellArc 1 (b * √(1 + a ^ 2) / (a * √(1 + b ^ 2))) := by
  have ha : 0 < a := by linarith
  have h1 : (0 : ℝ) < 1 + b ^ 2 := by positivity
  have h2 : (0 : ℝ) ≤ 1 + a ^ 2 := by positivity
  have hs := sqrt_pos.mpr h1
  have hk : 0 < a * √(1 + b ^ 2) := by positivity
  rw [← abs_of_pos hk, ← ellArc_scale, abs_of_pos hk, mul_one, mul_div_cancel₀ _ hk.ne', ellArc_comm]
  unfold around ellArc
  congr 1
  funext θ
  congr 1
  have := cos_sq_add_sin_sq θ
  have e1 := sq_sqrt h1.le
  have e2 := sq_sqrt h2
  generalize √(1 + a ^ 2) = u at *
  generalize √(1 + b ^ 2) = w at *
  linear_combination -(a ^ 2 * b ^ 2) * this - b ^ 2 * cos θ ^ 2 * e2 - a ^ 2 * sin θ ^ 2 * e1

/-- The eccentricity in the code. -/
theorem ecc {a b : ℝ} (hb : 0 < b) (hab : b ≤ a) :
    let e := √(((a - b) * (a + b) * 1) / ((1 + b * b) * (a * a)))
    √((1 - e) * (1 + e)) = b * √(1 + a ^ 2) / (a * √(1 + b ^ 2)) := by
  have ha : 0 < a := by linarith
  intro e
  have h1 : (0 : ℝ) < 1 + b ^ 2 := by positivity
  have h2 : (0 : ℝ) ≤ 1 + a ^ 2 := by positivity
  have he : e ^ 2 = ((a - b) * (a + b) * 1) / ((1 + b * b) * (a * a)) := by
    apply sq_sqrt
    apply div_nonneg _ (by positivity)
    have : 0 ≤ a - b := by linarith
    positivity
  have : (1 - e) * (1 + e) = (b * √(1 + a ^ 2) / (a * √(1 + b ^ 2))) ^ 2 := by
    rw [div_pow, mul_pow, mul_pow, sq_sqrt h1.le, sq_sqrt h2, show (1 - e) * (1 + e) = 1 - e ^ 2 by ring, he]
    field_simp
    ring
  rw [this, sqrt_sq (by positivity)]

/-- C162: the surface area is that of the lateral surface and of the two bases, up to a relative error of `2^k / 2^50` of the lateral
surface, if the ratio of the inclinations is at most `2^(2^k)`, and after at most `k + 5` tests of the loop. -/
theorem C162_area (g : Good t c) (hv : c.Valid) {k : Nat} (hk : max c.a c.b ≤ min c.a c.b * 2 ^ (2 ^ k)) :
    ∃ A, (∀ n, k + 5 ≤ n → surfaceArea n t = some A) ∧
      |A - (c.lateralArea + π * c.a * c.b * (c.h + c.cut) ^ 2 + π * c.a * c.b * (c.h - c.cut) ^ 2)| ≤ c.lateralArea * (2 ^ k / 2 ^ 50) := by
  have ha := a_pos hv
  have hb := b_pos hv
  have hh := h_pos hv
  have hz := cut_pos hv
  have hm := m_pos hv
  have hle : min c.a c.b ≤ max c.a c.b := min_le_max
  have hM : 0 < max c.a c.b := lt_of_lt_of_le hm hle
  have har : around c.a c.b = around (max c.a c.b) (min c.a c.b) := by
    rcases le_total c.a c.b with h | h
    · rw [max_eq_right h, min_eq_left h, around_comm]
    · rw [max_eq_left h, min_eq_right h]
  have hae := around_eq hm hle
  have hec := ecc hm hle
  have h1 : (0 : ℝ) < 1 + min c.a c.b ^ 2 := by positivity
  have h2 : (0 : ℝ) < 1 + max c.a c.b ^ 2 := by positivity
  have hs1 := sqrt_pos.mpr h1
  have hs2 := sqrt_pos.mpr h2
  have hle2 : √(1 + min c.a c.b ^ 2) ≤ √(1 + max c.a c.b ^ 2) := sqrt_le_sqrt (by nlinarith)
  set β := min c.a c.b * √(1 + max c.a c.b ^ 2) / (max c.a c.b * √(1 + min c.a c.b ^ 2)) with hβ
  have hβ0 : 0 < β := by positivity
  have hβ1 : β ≤ 1 := by
    rw [hβ, div_le_one (by positivity)]
    apply abs_le_of_sq_le_sq' _ (by positivity) |>.2
    rw [mul_pow, mul_pow, sq_sqrt h1.le, sq_sqrt h2.le]
    nlinarith
  have hβk : 1 ≤ β * 2 ^ (2 ^ k) := by
    rw [hβ, div_mul_eq_mul_div, one_le_div (by positivity)]
    calc max c.a c.b * √(1 + min c.a c.b ^ 2) ≤ (min c.a c.b * 2 ^ (2 ^ k)) * √(1 + max c.a c.b ^ 2) :=
          mul_le_mul hk hle2 hs1.le (by positivity)
      _ = _ := by ring
  obtain ⟨v, hv1, hv2⟩ := EllTube.compEllint2_accurate hec hβ0 hβ1 hβk
  refine ⟨2 * max c.a c.b * √(1 + min c.a c.b ^ 2) * v * (2 * c.h) * (2 * c.cut) +
    π * c.a * c.b * ((c.h + c.cut) ^ 2 + (c.h - c.cut) ^ 2), fun n hn => ?_, ?_⟩
  · unfold surfaceArea lateralArea
    rw [g.dx, g.dy, g.dz, g.zcut]
    simp only [abs_of_pos ha, abs_of_pos hb, abs_one, mul_one]
    have := hv1 n hn
    rw [mul_one] at this
    rw [this]
    simp only [Option.map_some, Option.some.injEq]
    rw [show 1 + min c.a c.b * min c.a c.b = 1 + min c.a c.b ^ 2 by ring]
    ring
  · rw [lateralArea_eq hv, har, hae]
    have hg := EllTube.ellArc_ge 1 β
    rw [abs_one, max_eq_left (by rw [abs_of_pos hβ0]; exact hβ1)] at hg
    generalize ellArc 1 β = I at *
    rw [show 2 * max c.a c.b * √(1 + min c.a c.b ^ 2) * v * (2 * c.h) * (2 * c.cut) + π * c.a * c.b * ((c.h + c.cut) ^ 2 + (c.h - c.cut) ^ 2) -
      (2 * c.h * c.cut * (max c.a c.b * √(1 + min c.a c.b ^ 2) * I) + π * c.a * c.b * (c.h + c.cut) ^ 2 + π * c.a * c.b * (c.h - c.cut) ^ 2) =
      2 * c.h * c.cut * (max c.a c.b * √(1 + min c.a c.b ^ 2)) * (4 * v - I) by ring, abs_mul, abs_of_pos (by positivity)]
    rw [show 2 * c.h * c.cut * (max c.a c.b * √(1 + min c.a c.b ^ 2) * I) * (2 ^ k / 2 ^ 50) =
      2 * c.h * c.cut * (max c.a c.b * √(1 + min c.a c.b ^ 2)) * (I * (2 ^ k / 2 ^ 50)) by ring]
    refine mul_le_mul_of_nonneg_left (hv2.trans ?_) (by positivity)
    have h3 : (0 : ℝ) ≤ 2 ^ k / 2 ^ 50 := by positivity
    have h4 := mul_le_mul_of_nonneg_right hg h3
    refine le_trans (le_of_eq ?_) h4
    rw [show (2 : ℝ) ^ 50 = 4 * 2 ^ 48 by norm_num]
    field_simp

end EllCone
end VecGeom
