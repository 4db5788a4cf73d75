import Verif.Phd.Sample
import Mathlib.Analysis.SpecialFunctions.Complex.Arg

/-!
# Polyhedra: sides and walls

Two descriptions of a polyhedron without a cut agree: the union of its sides (`Body`, by which capacity and extent are stated), and the sets of planes that
containment looks at: below all outer walls, not below all inner walls.
-/

namespace VecGeom
namespace Phd

open Quad Real

/-- The distance of a point from the axis, in the direction in the middle of side `i`. -/
noncomputable def Par.reach (a : Par) (i : ℕ) (p : V3) : ℝ :=
  p.x * cos (a.start + (i + 1 / 2) * a.angle) + p.y * sin (a.start + (i + 1 / 2) * a.angle)

/-- An odd multiple of half the angle of a side is not closer to the zero direction than half the angle, within one turn. -/
theorem cos_odd {h : ℝ} {n : ℕ} (h0 : 0 < h) (hn : n * (2 * h) ≤ 2 * π) {d : ℤ} (d0 : -(n - 1) ≤ d) (d1 : d ≤ n) : cos ((2 * d - 1) * h) ≤ cos h := by
  have key : ∀ e : ℝ, 1 ≤ e → e ≤ 2 * n - 1 → cos (e * h) ≤ cos h := by
    intro e e1 e2
    have l1 : h ≤ e * h := by nlinarith
    have l2 : e * h ≤ 2 * π - h := by nlinarith
    rcases le_total (e * h) π with hp | hp
    · exact cos_le_cos_of_nonneg_of_le_pi h0.le hp l1
    · rw [← cos_two_pi_sub]
      exact cos_le_cos_of_nonneg_of_le_pi h0.le (by linarith) (by linarith)
  rcases le_or_gt 1 d with hd | hd
  · have r1 : (1 : ℝ) ≤ d := by exact_mod_cast hd
    have r2 : (d : ℝ) ≤ n := by exact_mod_cast d1
    exact key _ (by linarith) (by linarith)
  · have hd' : d ≤ 0 := by omega
    have r1 : (d : ℝ) ≤ 0 := by exact_mod_cast hd'
    have r2 : -((n : ℝ) - 1) ≤ d := by exact_mod_cast d0
    rw [show (2 * (d : ℝ) - 1) * h = -((1 - 2 * d) * h) by ring, cos_neg]
    exact key _ (by linarith) (by linarith)

/-- A point of side `j` in terms of the radius: its reach is the radius in the direction of its own side, and at most that in all others. -/
theorem reach_side {a : Par} (hd : 0 < a.delta) (hn : 0 < a.n) (hside : a.angle < π) {j : ℕ} (hj : j < a.n) {s ρ : ℝ} (hs : 0 ≤ s) (hs1 : s ≤ 1) (hρ : 0 ≤ ρ)
    {p : V3} (ex : p.x = ρ / cos (a.angle / 2) * ((1 - s) * cos (a.start + j * a.angle) + s * cos (a.start + (j + 1) * a.angle)))
    (ey : p.y = ρ / cos (a.angle / 2) * ((1 - s) * sin (a.start + j * a.angle) + s * sin (a.start + (j + 1) * a.angle))) :
    a.reach j p = ρ ∧ ∀ i, i < a.n → a.reach i p ≤ ρ := by
  have hN : (0 : ℝ) < a.n := by exact_mod_cast hn
  have hpos : 0 < a.angle := div_pos (lt_min hd (by positivity)) hN
  have hc : 0 < cos (a.angle / 2) := cos_pos_of_mem_Ioo ⟨by linarith [pi_pos], by linarith⟩
  have hle : a.n * (2 * (a.angle / 2)) ≤ 2 * π := by
    rw [show (a.n : ℝ) * (2 * (a.angle / 2)) = a.n * a.angle by ring]
    unfold Par.angle
    rw [mul_div_cancel₀ _ hN.ne']
    exact min_le_right _ _
  have expand : ∀ i : ℕ, a.reach i p = ρ / cos (a.angle / 2) * ((1 - s) * cos ((2 * ((j : ℤ) - i : ℤ) - 1) * (a.angle / 2)) +
      s * cos ((2 * ((j : ℤ) + 1 - i : ℤ) - 1) * (a.angle / 2))) := by
    intro i
    unfold Par.reach
    rw [ex, ey]
    have e1 : cos ((2 * ((j : ℤ) - i : ℤ) - 1) * (a.angle / 2)) = cos (a.start + j * a.angle) * cos (a.start + (i + 1 / 2) * a.angle) +
        sin (a.start + j * a.angle) * sin (a.start + (i + 1 / 2) * a.angle) := by
      rw [← cos_sub]
      congr 1
      push_cast
      ring
    have e2 : cos ((2 * ((j : ℤ) + 1 - i : ℤ) - 1) * (a.angle / 2)) = cos (a.start + (j + 1) * a.angle) * cos (a.start + (i + 1 / 2) * a.angle) +
        sin (a.start + (j + 1) * a.angle) * sin (a.start + (i + 1 / 2) * a.angle) := by
      rw [← cos_sub]
      congr 1
      push_cast
      ring
    rw [e1, e2]
    ring
  have hq : 0 ≤ ρ / cos (a.angle / 2) := div_nonneg hρ hc.le
  constructor
  · rw [expand]
    rw [show (2 * (((j : ℤ) - j : ℤ) : ℝ) - 1) * (a.angle / 2) = -(a.angle / 2) by push_cast; ring, cos_neg,
      show (2 * (((j : ℤ) + 1 - j : ℤ) : ℝ) - 1) * (a.angle / 2) = a.angle / 2 by push_cast; ring]
    field_simp
    ring
  · intro i hi
    rw [expand]
    have c0 := cos_odd (h := a.angle / 2) (n := a.n) (by linarith) hle (d := (j : ℤ) - i) (by omega) (by omega)
    have c1 := cos_odd (h := a.angle / 2) (n := a.n) (by linarith) hle (d := (j : ℤ) + 1 - i) (by omega) (by omega)
    calc _ ≤ ρ / cos (a.angle / 2) * cos (a.angle / 2) := by
            refine mul_le_mul_of_nonneg_left ?_ hq
            have g0 := mul_le_mul_of_nonneg_left c0 (show 0 ≤ 1 - s by linarith)
            have g1 := mul_le_mul_of_nonneg_left c1 hs
            linarith
      _ = ρ := by field_simp

/-- Every point is on a side of a polyhedron without a cut. -/
theorem on_side {a : Par} (hd : 2 * π ≤ a.delta) (hn : 0 < a.n) (hside : a.angle < π) (x y : ℝ) :
    ∃ (j : ℕ) (s ρ : ℝ), j < a.n ∧ 0 ≤ s ∧ s ≤ 1 ∧ 0 ≤ ρ ∧
      x = ρ / cos (a.angle / 2) * ((1 - s) * cos (a.start + j * a.angle) + s * cos (a.start + (j + 1) * a.angle)) ∧
      y = ρ / cos (a.angle / 2) * ((1 - s) * sin (a.start + j * a.angle) + s * sin (a.start + (j + 1) * a.angle)) := by
  have hN : (0 : ℝ) < a.n := by exact_mod_cast hn
  have hturn : a.n * a.angle = 2 * π := by
    unfold Par.angle
    rw [mul_div_cancel₀ _ hN.ne', min_eq_right hd]
  have hpos : 0 < a.angle := by
    by_contra hneg
    have : a.n * a.angle ≤ 0 := mul_nonpos_of_nonneg_of_nonpos hN.le (not_lt.1 hneg)
    linarith [pi_pos]
  have hc : 0 < cos (a.angle / 2) := cos_pos_of_mem_Ioo ⟨by linarith [pi_pos], by linarith⟩
  have hS : 0 < sin a.angle := sin_pos_of_pos_of_lt_pi hpos hside
  obtain ⟨r, θ, hr, rfl, rfl⟩ : ∃ r θ : ℝ, 0 ≤ r ∧ x = r * cos θ ∧ y = r * sin θ :=
    ⟨‖(⟨x, y⟩ : ℂ)‖, Complex.arg ⟨x, y⟩, norm_nonneg _, (Complex.norm_mul_cos_arg ⟨x, y⟩).symm, (Complex.norm_mul_sin_arg ⟨x, y⟩).symm⟩
  obtain ⟨N, hN0, hN1⟩ : ∃ N : ℤ, N * a.angle ≤ θ - a.start ∧ θ - a.start < (N + 1) * a.angle := by
    refine ⟨⌊(θ - a.start) / a.angle⌋, ?_, ?_⟩
    · exact (le_div_iff₀ hpos).1 (Int.floor_le _)
    · exact (div_lt_iff₀ hpos).1 (Int.lt_floor_add_one _)
  obtain ⟨j, q, hj, hq⟩ : ∃ (j : ℕ) (q : ℤ), j < a.n ∧ N = a.n * q + j := by
    have h0 : (a.n : ℤ) ≠ 0 := by omega
    have m0 := Int.emod_nonneg N h0
    have m1 := Int.emod_lt_of_pos N (show (0 : ℤ) < a.n by omega)
    refine ⟨(N % a.n).toNat, N / a.n, by omega, ?_⟩
    rw [Int.toNat_of_nonneg m0]
    exact (Int.mul_ediv_add_emod N a.n).symm
  set τ := θ - a.start - N * a.angle with hτ
  have t0 : 0 ≤ τ := by linarith
  have t1 : τ ≤ a.angle := by linarith
  have hθ : θ = a.start + j * a.angle + τ + q * (2 * π) := by
    have : (N : ℝ) = a.n * q + j := by exact_mod_cast hq
    rw [hτ, this]
    linear_combination (q : ℝ) * hturn
  have hcos : cos θ = cos (a.start + j * a.angle + τ) := by rw [hθ]; exact cos_add_int_mul_two_pi _ _
  have hsin : sin θ = sin (a.start + j * a.angle + τ) := by rw [hθ]; exact sin_add_int_mul_two_pi _ _
  set α := r * sin (a.angle - τ) / sin a.angle with hα
  set β := r * sin τ / sin a.angle with hβ
  have a0 : 0 ≤ α := div_nonneg (mul_nonneg hr (sin_nonneg_of_nonneg_of_le_pi (by linarith) (by linarith))) hS.le
  have b0 : 0 ≤ β := div_nonneg (mul_nonneg hr (sin_nonneg_of_nonneg_of_le_pi t0 (by linarith))) hS.le
  have ex : r * cos θ = α * cos (a.start + j * a.angle) + β * cos (a.start + (j + 1) * a.angle) := by
    rw [hcos, show a.start + (j + 1) * a.angle = a.start + j * a.angle + a.angle by ring, hα, hβ, sin_sub, cos_add (a.start + j * a.angle) τ, cos_add (a.start + j * a.angle) a.angle]
    field_simp
    ring
  have ey : r * sin θ = α * sin (a.start + j * a.angle) + β * sin (a.start + (j + 1) * a.angle) := by
    rw [hsin, show a.start + (j + 1) * a.angle = a.start + j * a.angle + a.angle by ring, hα, hβ, sin_sub, sin_add (a.start + j * a.angle) τ, sin_add (a.start + j * a.angle) a.angle]
    field_simp
    ring
  obtain ⟨s, hs0, hs1, e1, e2⟩ : ∃ s : ℝ, 0 ≤ s ∧ s ≤ 1 ∧ (α + β) * (1 - s) = α ∧ (α + β) * s = β := by
    rcases (add_nonneg a0 b0).eq_or_lt with h0 | h0
    · exact ⟨0, le_refl _, zero_le_one, by linarith, by linarith⟩
    · exact ⟨β / (α + β), by positivity, (div_le_one h0).2 (by linarith), by field_simp; ring, by field_simp⟩
  refine ⟨j, s, (α + β) * cos (a.angle / 2), hj, hs0, hs1, by positivity, ?_, ?_⟩
  · rw [ex, mul_div_cancel_right₀ _ hc.ne']
    linear_combination (-cos (a.start + j * a.angle)) * e1 - cos (a.start + (j + 1) * a.angle) * e2
  · rw [ey, mul_div_cancel_right₀ _ hc.ne']
    linear_combination (-sin (a.start + j * a.angle)) * e1 - sin (a.start + (j + 1) * a.angle) * e2

/-- A polyhedron without a cut, which is the union of its sides, is the set of points between two planes that are below all outer walls and not below all
inner walls. -/
theorem C207_walls {a : Par} (hd : 2 * π ≤ a.delta) (hn : 0 < a.n) (hside : a.angle < π) (hr : ∀ k, k < a.nz → 0 ≤ a.rMin k) (p : V3) :
    a.Body p ↔ ∃ (k : ℕ) (t : ℝ), k + 1 < a.nz ∧ 0 ≤ t ∧ t ≤ 1 ∧ p.z = (1 - t) * a.z k + t * a.z (k + 1) ∧
      (∀ i, i < a.n → a.reach i p ≤ (1 - t) * a.rMax k + t * a.rMax (k + 1)) ∧
      ¬ ∀ i, i < a.n → a.reach i p < (1 - t) * a.rMin k + t * a.rMin (k + 1) := by
  have hd0 : 0 < a.delta := by linarith [pi_pos]
  constructor
  · rintro ⟨j, k, s, t, ρ, hj, hk, hs, hs1, h0, h1, hi, ho, ez, ex, ey⟩
    have hρ : 0 ≤ ρ := le_trans (add_nonneg (mul_nonneg (by linarith) (hr k (by omega))) (mul_nonneg h0 (hr (k + 1) hk))) hi
    obtain ⟨r1, r2⟩ := reach_side hd0 hn hside hj hs hs1 hρ ex ey
    refine ⟨k, t, hk, h0, h1, ez, fun i hi => (r2 i hi).trans ho, fun hall => ?_⟩
    have := hall j hj
    rw [r1] at this
    linarith
  · rintro ⟨k, t, hk, h0, h1, ez, hout, hin⟩
    push Not at hin
    obtain ⟨i, hi, hi'⟩ := hin
    obtain ⟨j, s, ρ, hj, hs, hs1, hρ, ex, ey⟩ := on_side hd hn hside p.x p.y
    obtain ⟨r1, r2⟩ := reach_side hd0 hn hside hj hs hs1 hρ ex ey
    exact ⟨j, k, s, t, ρ, hj, hk, hs, hs1, h0, h1, hi'.trans (r2 i hi), by rw [← r1]; exact hout j hj, ez, ex, ey⟩

/-- A plane through three corners of quadrilateral `i` of the outer wall of segment `k`, with its normal away from the axis (the test of `WrongNormal`,
PolyhedronStruct.h:386-398), has the points below it whose reach in the direction of side `i` is at most the radius at their height. -/
theorem C207_plane {a : Par} (h : a.Valid) (hc : a.AllClean) {i k : ℕ} (hi : i < a.n) (hk : k + 1 < a.nz) (hz : a.z k < a.z (k + 1)) {pl : Plane}
    (p0 : pl.height (a.wallAt a.rMax k i 0) = 0) (p1 : pl.height (a.wallAt a.rMax k i 1) = 0) (p2 : pl.height (a.wallAt a.rMax k i 2) = 0)
    (hout : 0 < pl.n.x * (a.wallAt a.rMax k i 0).x + pl.n.y * (a.wallAt a.rMax k i 0).y) (p : V3) :
    pl.height p ≤ 0 ↔ a.reach i p ≤ lin (a.z k) (a.z (k + 1)) (a.rMax k) (a.rMax (k + 1)) p.z := by
  have hC := cos_pos' h
  have hS : 0 < sin (0.5 * a.side) := by
    have := side_pos h
    have h2 := h.side
    rw [angle_eq] at h2
    exact sin_pos_of_pos_of_lt_pi (by linarith) (by linarith)
  have hR := (h.rMin k (by omega)).trans (h.le k (by omega))
  rw [(walls h hc hi hk).1] at p0 p1 p2 hout
  unfold Par.reach lin
  rw [angle_eq]
  have e0 : a.start + (i : ℝ) * a.side = a.start + (i + 1 / 2) * a.side - 0.5 * a.side := by ring
  have e1 : a.start + ((i + 1 : ℕ) : ℝ) * a.side = a.start + (i + 1 / 2) * a.side + 0.5 * a.side := by push_cast; ring
  simp only [Matrix.cons_val_zero, Matrix.cons_val_one, Matrix.cons_val, Par.corner, Plane.height, V3.dot, e0, e1] at p0 p1 p2 hout
  unfold Plane.height V3.dot
  clear e0 e1
  generalize a.start + (i + 1 / 2) * a.side = M at *
  simp only [cos_sub, cos_add, sin_sub, sin_add] at p0 p1 p2 hout
  have em := sin_sq_add_cos_sq M
  generalize cos M = cm at *
  generalize sin M = sm at *
  generalize cos (0.5 * a.side) = C at *
  generalize sin (0.5 * a.side) = S at *
  generalize a.rMax k = R at *
  generalize a.rMax (k + 1) = R' at *
  generalize a.z k = z0 at *
  generalize a.z (k + 1) = z1 at *
  have hT : 0 < S / C := div_pos hS hC
  have i1 : 1 / C * (cm * C + sm * S) = cm + S / C * sm := by field_simp
  have i2 : 1 / C * (sm * C - cm * S) = sm - S / C * cm := by field_simp
  have i3 : 1 / C * (cm * C - sm * S) = cm - S / C * sm := by field_simp
  have i4 : 1 / C * (sm * C + cm * S) = sm + S / C * cm := by field_simp
  rw [i1, i2] at p0 hout
  rw [i3, i4] at p1 p2
  generalize S / C = T at *
  have hR0 : 0 < R := by
    rcases hR.eq_or_lt with h0 | h0
    · rw [← h0] at hout
      simp at hout
    · exact h0
  have hB : pl.n.y * cm - pl.n.x * sm = 0 := by
    have : 2 * R * T * (pl.n.y * cm - pl.n.x * sm) = 0 := by linear_combination p1 - p0
    rcases mul_eq_zero.1 this with h0 | h0
    · exact absurd h0 (by positivity)
    · exact h0
  have hA : 0 < pl.n.x * cm + pl.n.y * sm := by
    have : 0 < R * (pl.n.x * cm + pl.n.y * sm) := by
      have e : R * (pl.n.x * cm + pl.n.y * sm) = pl.n.x * (R * (cm + T * sm)) + pl.n.y * (R * (sm - T * cm)) := by linear_combination R * T * hB
      rw [e]
      exact hout
    exact (mul_pos_iff_of_pos_left hR0).1 this
  have hd : z1 - z0 ≠ 0 := by linarith
  have key : pl.n.x * p.x + pl.n.y * p.y + pl.n.z * p.z + pl.d =
      (pl.n.x * cm + pl.n.y * sm) * (p.x * cm + p.y * sm - (R + (R' - R) * ((p.z - z0) / (z1 - z0)))) := by
    have q0 : R * (pl.n.x * cm + pl.n.y * sm) + pl.n.z * z0 + pl.d = 0 := by linear_combination (p0 + p1) / 2
    have q1 : R' * (pl.n.x * cm + pl.n.y * sm) + pl.n.z * z1 + pl.d = 0 := by linear_combination p2 - R' * T * hB
    have hnz : pl.n.z = -((pl.n.x * cm + pl.n.y * sm) * (R' - R)) / (z1 - z0) := by
      rw [eq_div_iff hd]
      linear_combination q1 - q0
    have hdd : pl.d = -(R * (pl.n.x * cm + pl.n.y * sm)) - pl.n.z * z0 := by linarith
    have hx : pl.n.x = (pl.n.x * cm + pl.n.y * sm) * cm := by linear_combination (-pl.n.x) * em - sm * hB
    have hy : pl.n.y = (pl.n.x * cm + pl.n.y * sm) * sm := by linear_combination (-pl.n.y) * em + cm * hB
    rw [hdd, hnz]
    generalize pl.n.x * cm + pl.n.y * sm = A at *
    rw [hx, hy]
    field_simp
    ring
  rw [key]
  constructor
  · intro hh
    by_contra hgt
    have : 0 < (pl.n.x * cm + pl.n.y * sm) * (p.x * cm + p.y * sm - (R + (R' - R) * ((p.z - z0) / (z1 - z0)))) := mul_pos hA (by linarith)
    linarith
  · intro hh
    exact mul_nonpos_of_nonneg_of_nonpos hA.le (by linarith)

/-- A plane of the outer wall of `hollow` meets the hypotheses of `C207_plane`. -/
example : hollow.Valid ∧ hollow.AllClean ∧ hollow.z 0 < hollow.z 1 ∧ ∃ pl : Plane, pl.height (hollow.wallAt hollow.rMax 0 0 0) = 0 ∧
    pl.height (hollow.wallAt hollow.rMax 0 0 1) = 0 ∧ pl.height (hollow.wallAt hollow.rMax 0 0 2) = 0 ∧
    0 < pl.n.x * (hollow.wallAt hollow.rMax 0 0 0).x + pl.n.y * (hollow.wallAt hollow.rMax 0 0 0).y := by
  refine ⟨hollow_valid, hollow_clean, by norm_num [hollow], ⟨⟨0, 1, -1⟩, -2⟩, ?_⟩
  have v : ∀ k, k < 3 → ∀ j, j ≤ 1 → hollow.vertex hollow.rMax k j = hollow.raw hollow.rMax k j := fun k hk j hj =>
    (hollow_valid.clean k hk j hj).2.fix
  simp only [Par.wallAt, Matrix.cons_val_zero, Matrix.cons_val_one, Matrix.cons_val]
  rw [v 0 (by norm_num) 0 (by norm_num), v 0 (by norm_num) (0 + 1) (by norm_num), v (0 + 1) (by norm_num) (0 + 1) (by norm_num),
    (hollow_raw _ _).1, (hollow_raw _ _).2, (hollow_raw _ _).2]
  norm_num [hollow, Plane.height, V3.dot]

example : 2 * π ≤ hollow.delta ∧ 0 < hollow.n ∧ hollow.angle < π ∧ ∀ k, k < hollow.nz → 0 ≤ hollow.rMin k :=
  ⟨by have := pi_le_four; simp only [hollow]; linarith, hollow_valid.n, hollow_valid.side, hollow_valid.rMin⟩

end Phd
end VecGeom
