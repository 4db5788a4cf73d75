import Verif.Phd.Shape

/-!
# Polyhedra: capacity, area and extent
-/

namespace VecGeom
namespace Phd

open Quad Real

/-! ## Specification

The sides of the section at a height are the triangles between the axis and two successive corner directions; a radius is the distance of the side from
the axis.  The area of a side at radius `r` is `r² tan (angle / 2)`. -/

/-- The angle of a side: an equal part of the angle of the polyhedron, which is a turn at most. -/
noncomputable def Par.angle (a : Par) : ℝ := min a.delta (2 * π) / a.n

/-- What the constructor is given: an angle, at least one side, sides of less than half a turn, planes in order, and radii that are not negative and in
order. -/
structure Par.Valid (a : Par) : Prop where
  delta : 0 < a.delta
  n : 0 < a.n
  side : a.angle < π
  nz : 2 ≤ a.nz
  z : ∀ k, k + 1 < a.nz → a.z k ≤ a.z (k + 1)
  rMin : ∀ k, k < a.nz → 0 ≤ a.rMin k
  le : ∀ k, k < a.nz → a.rMin k ≤ a.rMax k
  /-- No coordinate of the corners of the first side is small and not zero (`FixZeroes` sets such coordinates to zero). -/
  clean : ∀ k, k < a.nz → ∀ j, j ≤ 1 → Clean (a.raw a.rMin k j) ∧ Clean (a.raw a.rMax k j)

/-- The radius at the height `z` between two planes. -/
noncomputable def lin (z0 z1 r0 r1 z : ℝ) : ℝ := r0 + (r1 - r0) * ((z - z0) / (z1 - z0))

/-- The area of a side at radius `r`. -/
noncomputable def Par.sideArea (a : Par) (r : ℝ) : ℝ := r ^ 2 * tan (a.angle / 2)

/-! ## Lemmas -/

theorem dphi_pos {a : Par} (h : 0 < a.delta) : 0 < a.dphi := by
  unfold Par.dphi
  split
  · positivity
  · exact h

theorem angle_eq (a : Par) : a.angle = a.side := by
  unfold Par.angle Par.side Par.dphi
  congr 1
  split
  · next h => exact min_eq_right h.le
  · next h => exact min_eq_left (not_lt.1 h)

theorem side_pos {a : Par} (h : a.Valid) : 0 < a.side := div_pos (dphi_pos h.delta) (by exact_mod_cast h.n)

theorem cos_pos' {a : Par} (h : a.Valid) : 0 < cos (0.5 * a.side) := by
  have := side_pos h
  have := h.side
  rw [angle_eq] at this
  exact cos_pos_of_mem_Ioo ⟨by linarith [pi_pos], by linarith⟩

theorem tan_pos' {a : Par} (h : a.Valid) : 0 < tan (0.5 * a.side) := by
  have := side_pos h
  have := h.side
  rw [angle_eq] at this
  exact tan_pos_of_pos_of_lt_pi_div_two (by linarith) (by linarith)

/-- The direction in the middle of the first side. -/
noncomputable def Par.mid (a : Par) : ℝ := a.start + 0.5 * a.side

theorem phi_zero {a : Par} (h : a.Valid) : a.phi 0 = a.mid - 0.5 * a.side := by
  have := h.n
  unfold Par.phi Par.mid
  rw [if_neg (by rintro ⟨-, h0⟩; omega)]
  push_cast; ring

theorem phi_one {a : Par} (h : a.Valid) : a.phi 1 = a.mid + 0.5 * a.side := by
  unfold Par.phi Par.mid
  rw [if_neg]
  · push_cast; ring
  · rintro ⟨h1, h2⟩
    have h3 := h.side
    rw [angle_eq] at h3
    unfold Par.hasPhi at h1
    unfold Par.side Par.dphi at h3
    rw [← h2] at h3
    have := pi_pos
    split at h3 <;> simp at h3 <;> linarith

/-- The corners at radius `r` and height `z`, by the direction in the middle of the side. -/
noncomputable def c0 (m t r z : ℝ) : V3 := ⟨r * (cos m + t * sin m), r * (sin m - t * cos m), z⟩
noncomputable def c1 (m t r z : ℝ) : V3 := ⟨r * (cos m - t * sin m), r * (sin m + t * cos m), z⟩

theorem raw_zero {a : Par} (h : a.Valid) (r : ℕ → ℝ) (k : ℕ) : a.raw r k 0 = c0 a.mid (tan (0.5 * a.side)) (r k) (a.z k) := by
  have hc := (cos_pos' h).ne'
  unfold Par.raw c0
  rw [phi_zero h, cos_sub, sin_sub, tan_eq_sin_div_cos]
  congr 1 <;> field_simp

theorem raw_one {a : Par} (h : a.Valid) (r : ℕ → ℝ) (k : ℕ) : a.raw r k 1 = c1 a.mid (tan (0.5 * a.side)) (r k) (a.z k) := by
  have hc := (cos_pos' h).ne'
  unfold Par.raw c1
  rw [phi_one h, cos_add, sin_add, tan_eq_sin_div_cos]
  congr 1 <;> field_simp

theorem vertex_zero {a : Par} (h : a.Valid) {k : ℕ} (hk : k < a.nz) :
    a.vertex a.rMin k 0 = c0 a.mid (tan (0.5 * a.side)) (a.rMin k) (a.z k) ∧ a.vertex a.rMax k 0 = c0 a.mid (tan (0.5 * a.side)) (a.rMax k) (a.z k) := by
  have := h.clean k hk 0 (by omega)
  unfold Par.vertex
  rw [this.1.fix, this.2.fix]
  exact ⟨raw_zero h _ _, raw_zero h _ _⟩

theorem vertex_one {a : Par} (h : a.Valid) {k : ℕ} (hk : k < a.nz) :
    a.vertex a.rMin k 1 = c1 a.mid (tan (0.5 * a.side)) (a.rMin k) (a.z k) ∧ a.vertex a.rMax k 1 = c1 a.mid (tan (0.5 * a.side)) (a.rMax k) (a.z k) := by
  have := h.clean k hk 1 (by omega)
  unfold Par.vertex
  rw [this.1.fix, this.2.fix]
  exact ⟨raw_one h _ _, raw_one h _ _⟩

theorem mag_eq {v : V3} {b q : ℝ} (hb : 0 ≤ b) (h : v.mag2 = b ^ 2 * q) : v.mag = b * √q := by
  unfold V3.mag
  rw [h, sqrt_mul (sq_nonneg b), sqrt_sq hb]

theorem mag_of_sq {v : V3} {b : ℝ} (hb : 0 ≤ b) (h : v.mag2 = b ^ 2) : v.mag = b := by
  unfold V3.mag
  rw [h, sqrt_sq hb]

/-- The triangle between the axis and the first side. -/
theorem tri_axis {m t r z : ℝ} (ht : 0 ≤ t) : triArea (c0 m t r z) (c1 m t r z) ⟨0, 0, z⟩ = r ^ 2 * t := by
  have e := sin_sq_add_cos_sq m
  unfold triArea
  rw [mag_of_sq (b := 2 * (r ^ 2 * t)) (by positivity)]
  · ring
  · simp only [V3.mag2, V3.cross, c0, c1, V3.sub_x, V3.sub_y, V3.sub_z, V3.dot]
    linear_combination (4 * r ^ 4 * t ^ 2) * (sin m ^ 2 + cos m ^ 2 + 1) * e

theorem tri_axis' {m t r z : ℝ} (ht : 0 ≤ t) : triArea (c1 m t r z) (c0 m t r z) ⟨0, 0, z⟩ = r ^ 2 * t := by
  have e := sin_sq_add_cos_sq m
  unfold triArea
  rw [mag_of_sq (b := 2 * (r ^ 2 * t)) (by positivity)]
  · ring
  · simp only [V3.mag2, V3.cross, c0, c1, V3.sub_x, V3.sub_y, V3.sub_z, V3.dot]
    linear_combination (4 * r ^ 4 * t ^ 2) * (sin m ^ 2 + cos m ^ 2 + 1) * e

theorem helper_eq {m t r r' z z' : ℝ} (ht : 0 ≤ t) (hr : 0 ≤ r) (hr' : 0 ≤ r') (hz : z ≤ z') :
    volumeHelper ![c0 m t r z, c1 m t r z, c1 m t r' z', c0 m t r' z'] = (z' - z) * ((r ^ 2 + r * r' + r' ^ 2) * t) := by
  have h1 : (c0 m t r z).z = z := rfl
  have h2 : (c1 m t r' z').z = z' := rfl
  simp only [volumeHelper, Matrix.cons_val_zero, Matrix.cons_val_one, Matrix.cons_val]
  rw [h1, h2, tri_axis ht, tri_axis' ht, abs_sub_comm, abs_of_nonneg (by linarith),
    show r' ^ 2 * t * (r ^ 2 * t) = (r * r' * t) ^ 2 by ring, sqrt_sq (by positivity)]
  ring

theorem integral_lin (z0 z1 r0 r1 : ℝ) (h : z0 < z1) (t : ℝ) :
    ∫ z in z0..z1, t * (lin z0 z1 r0 r1 z) ^ 2 = (z1 - z0) * ((r0 ^ 2 + r0 * r1 + r1 ^ 2) * t) / 3 := by
  have hd : z1 - z0 ≠ 0 := by linarith
  have e : (fun z => t * (lin z0 z1 r0 r1 z) ^ 2) = fun z => t * (r0 - (r1 - r0) * z0 / (z1 - z0)) ^ 2 +
      (2 * t * (r0 - (r1 - r0) * z0 / (z1 - z0)) * ((r1 - r0) / (z1 - z0))) * z + (t * ((r1 - r0) / (z1 - z0)) ^ 2) * z ^ 2 := by
    funext z
    unfold lin
    field_simp
    ring
  rw [e, intervalIntegral.integral_add (by apply Continuous.intervalIntegrable; fun_prop) (by apply Continuous.intervalIntegrable; fun_prop),
    intervalIntegral.integral_add (by apply Continuous.intervalIntegrable; fun_prop) (by apply Continuous.intervalIntegrable; fun_prop),
    intervalIntegral.integral_const, intervalIntegral.integral_const_mul, intervalIntegral.integral_const_mul, integral_id,
    integral_pow, smul_eq_mul]
  norm_num
  field_simp
  ring

/-! ## Capacity -/

/-- The volume that a face between two radii of a plane is left out for does not matter: the segment has no height. -/
theorem segment_volume {a : Par} (h : a.Valid) {k : ℕ} (hk : k + 1 < a.nz) :
    (open Classical in
      (if a.hasOuter k then volumeHelper (a.wall a.rMax k) - (if a.hasInner k then volumeHelper (a.wall a.rMin k) else 0) else 0)) / 3 =
      ∫ z in a.z k..a.z (k + 1), (a.sideArea (lin (a.z k) (a.z (k + 1)) (a.rMax k) (a.rMax (k + 1)) z) -
        a.sideArea (lin (a.z k) (a.z (k + 1)) (a.rMin k) (a.rMin (k + 1)) z)) := by
  have ht := (tan_pos' h).le
  have hz := h.z k hk
  have i0 := h.rMin k (by omega)
  have i1 := h.rMin (k + 1) hk
  have o0 := h.le k (by omega)
  have o1 := h.le (k + 1) hk
  have ho : volumeHelper (a.wall a.rMax k) = (a.z (k + 1) - a.z k) *
      ((a.rMax k ^ 2 + a.rMax k * a.rMax (k + 1) + a.rMax (k + 1) ^ 2) * tan (0.5 * a.side)) := by
    unfold Par.wall
    rw [(vertex_zero h (k := k) (by omega)).2, (vertex_one h (k := k) (by omega)).2, (vertex_zero h hk).2, (vertex_one h hk).2]
    exact helper_eq ht (i0.trans o0) (i1.trans o1) hz
  have hi : volumeHelper (a.wall a.rMin k) = (a.z (k + 1) - a.z k) *
      ((a.rMin k ^ 2 + a.rMin k * a.rMin (k + 1) + a.rMin (k + 1) ^ 2) * tan (0.5 * a.side)) := by
    unfold Par.wall
    rw [(vertex_zero h (k := k) (by omega)).1, (vertex_one h (k := k) (by omega)).1, (vertex_zero h hk).1, (vertex_one h hk).1]
    exact helper_eq ht i0 i1 hz
  rcases hz.eq_or_lt with he | hlt
  · rw [ho, hi, ← he, intervalIntegral.integral_same]
    simp
  · rw [ho, hi, if_pos (show a.hasOuter k from fun hh => hlt.ne hh.1)]
    have e : ∀ z, a.sideArea (lin (a.z k) (a.z (k + 1)) (a.rMax k) (a.rMax (k + 1)) z) -
        a.sideArea (lin (a.z k) (a.z (k + 1)) (a.rMin k) (a.rMin (k + 1)) z) =
        tan (0.5 * a.side) * (lin (a.z k) (a.z (k + 1)) (a.rMax k) (a.rMax (k + 1)) z) ^ 2 -
        tan (0.5 * a.side) * (lin (a.z k) (a.z (k + 1)) (a.rMin k) (a.rMin (k + 1)) z) ^ 2 := by
      intro z
      unfold Par.sideArea
      rw [angle_eq, show a.side / 2 = 0.5 * a.side by ring]
      ring
    simp only [e]
    rw [intervalIntegral.integral_sub, integral_lin _ _ _ _ hlt, integral_lin _ _ _ _ hlt]
    · by_cases hin : a.hasInner k
      · rw [if_pos hin]; ring
      · rw [if_neg hin]
        have hz0 : a.rMin k = 0 ∧ a.rMin (k + 1) = 0 := by
          unfold Par.hasInner at hin
          constructor
          · by_contra hne
            exact hin ⟨Or.inl (lt_of_le_of_ne i0 (Ne.symm hne)), fun hh => hlt.ne hh.1⟩
          · by_contra hne
            exact hin ⟨Or.inr (lt_of_le_of_ne i1 (Ne.symm hne)), fun hh => hlt.ne hh.1⟩
        rw [hz0.1, hz0.2]; ring
    · apply Continuous.intervalIntegrable; unfold lin; fun_prop
    · apply Continuous.intervalIntegrable; unfold lin; fun_prop

/-- `Capacity` is the integral of the areas of the sections: the sides between the inner and the outer radius, whose number counts those of the sector
only (also with a cut in phi, in spite of the remark in the code). -/
theorem C201_capacity {a : Par} (h : a.Valid) :
    a.capacity = ∑ k ∈ Finset.range (a.nz - 1), ∫ z in a.z k..a.z (k + 1),
      a.n * (a.sideArea (lin (a.z k) (a.z (k + 1)) (a.rMax k) (a.rMax (k + 1)) z) -
        a.sideArea (lin (a.z k) (a.z (k + 1)) (a.rMin k) (a.rMin (k + 1)) z)) := by
  classical
  unfold Par.capacity
  rw [Finset.sum_mul]
  refine Finset.sum_congr rfl fun k hk => ?_
  rw [Finset.mem_range] at hk
  rw [intervalIntegral.integral_const_mul, ← segment_volume h (by omega)]
  ring

end Phd
end VecGeom
