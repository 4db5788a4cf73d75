import Verif.Quad.Props
import Mathlib.Tactic.FinCases
import Mathlib.Data.Fin.VecNotation

/-!
# Quadrilaterals: the planes of `Set` and the exact distance to a quadrilateral
-/

namespace VecGeom
namespace Quad

open Real

/-! ## Vectors -/

/-- Twice the signed area of the triangle of two vectors, seen against `n`. -/
def area (n u v : V3) : ℝ := n.dot (u.cross v)

theorem cross_perp {n u v : V3} (hn : n.dot n = 1) (hu : n.dot u = 0) (hv : n.dot v = 0) : u.cross v = V3.smul (area n u v) n := by
  ext <;> simp only [area, V3.cross, V3.dot, V3.smul_x, V3.smul_y, V3.smul_z] at *
  · linear_combination (-(u.y * v.z - u.z * v.y)) * hn - (n.y * u.z - n.z * u.y) * hv + (n.y * v.z - n.z * v.y) * hu
  · linear_combination (-(u.z * v.x - u.x * v.z)) * hn - (n.z * u.x - n.x * u.z) * hv + (n.z * v.x - n.x * v.z) * hu
  · linear_combination (-(u.x * v.y - u.y * v.x)) * hn - (n.x * u.y - n.y * u.x) * hv + (n.x * v.y - n.y * v.x) * hu

/-- Three vectors in a plane. -/
theorem cramer {n u v w : V3} (hn : n.dot n = 1) (hu : n.dot u = 0) (hv : n.dot v = 0) (hw : n.dot w = 0) :
    V3.smul (area n u v) w = V3.smul (area n w v) u + V3.smul (area n u w) v := by
  have h0 : w.dot (u.cross v) = 0 := by
    rw [cross_perp hn hu hv]
    have : w.dot (V3.smul (area n u v) n) = area n u v * n.dot w := by simp only [V3.dot, V3.smul_x, V3.smul_y, V3.smul_z]; ring
    rw [this, hw, mul_zero]
  ext <;> simp only [area, V3.cross, V3.dot, V3.smul_x, V3.smul_y, V3.smul_z, V3.add_x, V3.add_y, V3.add_z] at *
  · linear_combination n.x * h0
  · linear_combination n.y * h0
  · linear_combination n.z * h0

/-- A vector of the plane that spans no area with `e` is a multiple of it. -/
theorem parallel {n e u : V3} (hn : n.dot n = 1) (he : n.dot e = 0) (hu : n.dot u = 0) (h : area n e u = 0) :
    V3.smul e.mag2 u = V3.smul (e.dot u) e := by
  have hc := cross_perp hn he hu
  rw [h] at hc
  have hx := congrArg V3.x hc
  have hy := congrArg V3.y hc
  have hz := congrArg V3.z hc
  simp only [V3.cross, V3.smul_x, V3.smul_y, V3.smul_z, zero_mul] at hx hy hz
  ext <;> simp only [V3.mag2, V3.dot, V3.smul_x, V3.smul_y, V3.smul_z]
  · linear_combination e.z * hy - e.y * hz
  · linear_combination e.x * hz - e.z * hx
  · linear_combination e.y * hx - e.x * hy

theorem mag2_pos_of_area {n e u : V3} (h : area n e u ≠ 0) : 0 < e.mag2 := by
  rcases (V3.mag2_nonneg e).eq_or_lt with h0 | h0
  · exfalso
    have : e.x = 0 ∧ e.y = 0 ∧ e.z = 0 := by
      simp only [V3.mag2, V3.dot] at h0
      refine ⟨?_, ?_, ?_⟩ <;> nlinarith [mul_self_nonneg e.x, mul_self_nonneg e.y, mul_self_nonneg e.z]
    apply h
    simp [area, V3.cross, V3.dot, this]
  · exact h0

/-- A point of the line through `a` and `b` that is on the inner side of the sides before and after lies between `a` and `b`. -/
theorem on_side {n a b before after r : V3} (hn : n.dot n = 1) (hb : n.dot (b - a) = 0) (hr : n.dot (r - a) = 0)
    (h0 : area n (b - a) (r - a) = 0) (h1 : 0 ≤ area n (after - b) (r - b)) (h2 : 0 ≤ area n (a - before) (r - before))
    (c1 : 0 < area n (after - b) (a - b)) (c2 : 0 < area n (a - before) (b - before)) :
    ∃ s, 0 ≤ s ∧ s ≤ 1 ∧ r = a + V3.smul s (b - a) := by
  have hpar := parallel hn hb hr h0
  have hm : 0 < (b - a).mag2 := by
    have e : area n (b - a) (after - b) = area n (after - b) (a - b) := by
      simp only [area, V3.cross, V3.dot, V3.sub_x, V3.sub_y, V3.sub_z]; ring
    exact mag2_pos_of_area (n := n) (u := after - b) (by rw [e]; exact c1.ne')
  have e : r = a + V3.smul ((b - a).dot (r - a) / (b - a).mag2) (b - a) := by
    have hx := congrArg V3.x hpar
    have hy := congrArg V3.y hpar
    have hz := congrArg V3.z hpar
    simp only [V3.smul_x, V3.smul_y, V3.smul_z] at hx hy hz
    have key : ∀ u v m k : ℝ, 0 < m → m * u = k * v → u = k / m * v := by
      intro u v m k hm h
      field_simp
      linarith
    ext
    · have := key _ _ _ _ hm hx
      simp only [V3.sub_x, V3.add_x, V3.smul_x] at this ⊢
      linarith
    · have := key _ _ _ _ hm hy
      simp only [V3.sub_y, V3.add_y, V3.smul_y] at this ⊢
      linarith
    · have := key _ _ _ _ hm hz
      simp only [V3.sub_z, V3.add_z, V3.smul_z] at this ⊢
      linarith
  generalize (b - a).dot (r - a) / (b - a).mag2 = s at e
  subst e
  refine ⟨s, ?_, ?_, rfl⟩
  · have e2 : area n (a - before) (a + V3.smul s (b - a) - before) = s * area n (a - before) (b - before) := by
      simp only [area, V3.cross, V3.dot, V3.sub_x, V3.sub_y, V3.sub_z, V3.add_x, V3.add_y, V3.add_z, V3.smul_x, V3.smul_y, V3.smul_z]; ring
    rw [e2] at h2
    exact nonneg_of_mul_nonneg_left h2 c2
  · have e1 : area n (after - b) (a + V3.smul s (b - a) - b) = (1 - s) * area n (after - b) (a - b) := by
      simp only [area, V3.cross, V3.dot, V3.sub_x, V3.sub_y, V3.sub_z, V3.add_x, V3.add_y, V3.add_z, V3.smul_x, V3.smul_y, V3.smul_z]; ring
    rw [e1] at h1
    have := nonneg_of_mul_nonneg_left h1 c1
    linarith

/-! ## Specification -/

/-- The points of a quadrilateral: means of its corners. -/
def InQuad (c : Fin 4 → V3) (x : V3) : Prop :=
  ∃ w : Fin 4 → ℝ, (∀ i, 0 ≤ w i) ∧ w 0 + w 1 + w 2 + w 3 = 1 ∧
    x = V3.smul (w 0) (c 0) + V3.smul (w 1) (c 1) + (V3.smul (w 2) (c 2) + V3.smul (w 3) (c 3))

/-- `n` is a unit normal of the plane of the corners, and seen against it they are in counterclockwise order with no angle of 180 degrees. -/
structure Convex (n : V3) (c : Fin 4 → V3) : Prop where
  unit : n.dot n = 1
  flat : ∀ i, n.dot (c i - c 0) = 0
  turn : ∀ j, 0 < area n (c (j + 1) - c j) (c (j + 2) - c j) ∧ 0 < area n (c (j + 1) - c j) (c (j + 3) - c j)

/-- Twice the signed area of the triangle of side `j` and a point. -/
def sideArea (n : V3) (c : Fin 4 → V3) (j : Fin 4) (x : V3) : ℝ := area n (c (j + 1) - c j) (x - c j)

variable {n : V3} {c : Fin 4 → V3}

theorem area_mean (n a b u0 u1 u2 u3 : V3) {w0 w1 w2 w3 : ℝ} (hs : w0 + w1 + w2 + w3 = 1) :
    area n (b - a) (V3.smul w0 u0 + V3.smul w1 u1 + (V3.smul w2 u2 + V3.smul w3 u3) - a) =
      w0 * area n (b - a) (u0 - a) + w1 * area n (b - a) (u1 - a) + w2 * area n (b - a) (u2 - a) + w3 * area n (b - a) (u3 - a) := by
  simp only [area, V3.cross, V3.dot, V3.sub_x, V3.sub_y, V3.sub_z, V3.add_x, V3.add_y, V3.add_z, V3.smul_x, V3.smul_y, V3.smul_z]
  linear_combination (n.x * ((b.y - a.y) * a.z - (b.z - a.z) * a.y) + n.y * ((b.z - a.z) * a.x - (b.x - a.x) * a.z) +
    n.z * ((b.x - a.x) * a.y - (b.y - a.y) * a.x)) * hs

theorem area_self (n u : V3) : area n u u = 0 := by simp only [area, V3.cross, V3.dot]; ring

theorem area_zero (n u a : V3) : area n u (a - a) = 0 := by simp only [area, V3.cross, V3.dot, V3.sub_x, V3.sub_y, V3.sub_z]; ring

theorem Convex.corner_nonneg (hc : Convex n c) (j k : Fin 4) : 0 ≤ area n (c (j + 1) - c j) (c k - c j) := by
  have h : k = j ∨ k = j + 1 ∨ k = j + 2 ∨ k = j + 3 := by omega
  rcases h with rfl | rfl | rfl | rfl
  · rw [area_zero]
  · rw [area_self]
  · exact (hc.turn j).1.le
  · exact (hc.turn j).2.le

theorem Convex.in_side (hc : Convex n c) {x : V3} (hx : InQuad c x) (j : Fin 4) : 0 ≤ sideArea n c j x := by
  obtain ⟨w, hw, hs, rfl⟩ := hx
  unfold sideArea
  rw [area_mean _ _ _ _ _ _ _ hs]
  have := hc.corner_nonneg j
  have h0 := mul_nonneg (hw 0) (this 0)
  have h1 := mul_nonneg (hw 1) (this 1)
  have h2 := mul_nonneg (hw 2) (this 2)
  have h3 := mul_nonneg (hw 3) (this 3)
  linarith

theorem Convex.in_plane (hc : Convex n c) {x : V3} (hx : InQuad c x) : n.dot (x - c 0) = 0 := by
  obtain ⟨w, hw, hs, rfl⟩ := hx
  have h1 := hc.flat 1
  have h2 := hc.flat 2
  have h3 := hc.flat 3
  generalize c 0 = a0 at *
  generalize c 1 = a1 at *
  generalize c 2 = a2 at *
  generalize c 3 = a3 at *
  generalize w 0 = w0 at *
  generalize w 1 = w1 at *
  generalize w 2 = w2 at *
  generalize w 3 = w3 at *
  simp only [V3.dot, V3.sub_x, V3.sub_y, V3.sub_z, V3.add_x, V3.add_y, V3.add_z, V3.smul_x, V3.smul_y, V3.smul_z] at *
  linear_combination w1 * h1 + w2 * h2 + w3 * h3 + (n.x * a0.x + n.y * a0.y + n.z * a0.z) * hs

theorem Convex.flat' (hc : Convex n c) {x : V3} (hx : n.dot (x - c 0) = 0) (j : Fin 4) : n.dot (x - c j) = 0 := by
  have := hc.flat j
  simp only [V3.dot, V3.sub_x, V3.sub_y, V3.sub_z] at *
  linear_combination hx - this

/-- A point of the plane on the inner side of the sides of a triangle is a mean of its corners. -/
theorem triangle {n a b d x : V3} (hn : n.dot n = 1) (hb : n.dot (b - a) = 0) (hd : n.dot (d - a) = 0) (hx : n.dot (x - a) = 0)
    (hT : 0 < area n (b - a) (d - a)) (h1 : 0 ≤ area n (b - a) (x - a)) (h2 : 0 ≤ area n (d - b) (x - b)) (h3 : area n (d - a) (x - a) ≤ 0) :
    ∃ u v w : ℝ, 0 ≤ u ∧ 0 ≤ v ∧ 0 ≤ w ∧ u + v + w = 1 ∧ x = V3.smul u a + V3.smul v b + V3.smul w d := by
  have hcr := cramer hn hb hd hx
  have e2 : area n (d - b) (x - b) = area n (b - a) (d - a) - area n (b - a) (x - a) + area n (d - a) (x - a) := by
    simp only [area, V3.cross, V3.dot, V3.sub_x, V3.sub_y, V3.sub_z]; ring
  have e3 : area n (x - a) (d - a) = -area n (d - a) (x - a) := by
    simp only [area, V3.cross, V3.dot, V3.sub_x, V3.sub_y, V3.sub_z]; ring
  rw [e3] at hcr
  generalize hTe : area n (b - a) (d - a) = T at *
  generalize area n (b - a) (x - a) = f at *
  generalize area n (d - a) (x - a) = g at *
  have hX := congrArg V3.x hcr
  have hY := congrArg V3.y hcr
  have hZ := congrArg V3.z hcr
  simp only [V3.smul_x, V3.smul_y, V3.smul_z, V3.add_x, V3.add_y, V3.add_z, V3.sub_x, V3.sub_y, V3.sub_z] at hX hY hZ
  refine ⟨(T - f + g) / T, -g / T, f / T, div_nonneg (by linarith) hT.le, div_nonneg (by linarith) hT.le, div_nonneg h1 hT.le, by field_simp; ring, ?_⟩
  ext <;> simp only [V3.smul_x, V3.smul_y, V3.smul_z, V3.add_x, V3.add_y, V3.add_z] <;> field_simp <;> linarith

theorem Convex.inQuad (hc : Convex n c) {x : V3} (hx : n.dot (x - c 0) = 0) (h : ∀ j, 0 ≤ sideArea n c j x) : InQuad c x := by
  have f0 : 0 ≤ area n (c 1 - c 0) (x - c 0) := h 0
  have f1 : 0 ≤ area n (c 2 - c 1) (x - c 1) := h 1
  have f2 : 0 ≤ area n (c 3 - c 2) (x - c 2) := h 2
  have f3 : 0 ≤ area n (c 0 - c 3) (x - c 3) := h 3
  rcases le_total (area n (c 2 - c 0) (x - c 0)) 0 with hg | hg
  · obtain ⟨u, v, w, hu, hv, hw, hs, e⟩ := triangle hc.unit (hc.flat 1) (hc.flat 2) hx (hc.turn 0).1 f0 f1 hg
    refine ⟨![u, v, w, 0], ?_, by simpa using hs, ?_⟩
    · intro i; fin_cases i <;> simp [hu, hv, hw]
    · rw [e]
      ext <;> simp
  · have t2 : 0 < area n (c 3 - c 2) (c 0 - c 2) := (hc.turn 2).1
    obtain ⟨u, v, w, hu, hv, hw, hs, e⟩ := triangle (a := c 2) (b := c 3) (d := c 0) hc.unit (hc.flat' (hc.flat 3) 2) (hc.flat' (hc.flat 0) 2) (hc.flat' hx 2) t2 f2 f3 (by
      have e : area n (c 0 - c 2) (x - c 2) = -area n (c 2 - c 0) (x - c 0) := by
        simp only [area, V3.cross, V3.dot, V3.sub_x, V3.sub_y, V3.sub_z]; ring
      rw [e]; linarith)
    refine ⟨![w, 0, u, v], ?_, by simp; linarith, ?_⟩
    · intro i; fin_cases i <;> simp [hu, hv, hw]
    · rw [e]
      ext <;> simp <;> ring

/-- The way from a point of the quadrilateral to a point of its plane outside crosses a side that has the point outside on its outer side. -/
theorem Convex.crosses (hc : Convex n c) {x y : V3} (hx : InQuad c x) (hy : n.dot (y - c 0) = 0) (ho : ∃ j, sideArea n c j y < 0) :
    ∃ j, sideArea n c j y < 0 ∧ ∃ s, 0 ≤ s ∧ s ≤ 1 ∧ ∃ t, 0 ≤ t ∧ t ≤ 1 ∧ c j + V3.smul s (c (j + 1) - c j) = x + V3.smul t (y - x) := by
  classical
  let T (j : Fin 4) : ℝ := sideArea n c j x / (sideArea n c j x - sideArea n c j y)
  have hxs := hc.in_side hx
  obtain ⟨j, hj, hmin⟩ := (Finset.univ.filter (fun j => sideArea n c j y < 0)).exists_min_image T (by obtain ⟨j, hj⟩ := ho; exact ⟨j, by simpa using hj⟩)
  simp only [Finset.mem_filter, Finset.mem_univ, true_and] at hj hmin
  have hd : ∀ k, sideArea n c k y < 0 → 0 < sideArea n c k x - sideArea n c k y := fun k hk => by linarith [hxs k]
  have t0 : 0 ≤ T j := div_nonneg (hxs j) (hd j hj).le
  have t1 : T j ≤ 1 := by rw [div_le_one (hd j hj)]; linarith
  have hlin : ∀ k t, sideArea n c k (x + V3.smul t (y - x)) = sideArea n c k x - t * (sideArea n c k x - sideArea n c k y) := by
    intro k t
    simp only [sideArea, area, V3.cross, V3.dot, V3.sub_x, V3.sub_y, V3.sub_z, V3.add_x, V3.add_y, V3.add_z, V3.smul_x, V3.smul_y, V3.smul_z]; ring
  have hk : ∀ k, 0 ≤ sideArea n c k (x + V3.smul (T j) (y - x)) := by
    intro k
    rw [hlin]
    by_cases h : sideArea n c k y < 0
    · have := hmin k h
      rw [le_div_iff₀ (hd k h)] at this
      linarith
    · push Not at h
      have := mul_nonneg t0 h
      have := mul_nonneg (sub_nonneg.2 t1) (hxs k)
      linarith
  have h0 : sideArea n c j (x + V3.smul (T j) (y - x)) = 0 := by
    rw [hlin, div_mul_cancel₀ _ (hd j hj).ne', sub_self]
  have hr : n.dot (x + V3.smul (T j) (y - x) - c 0) = 0 := by
    have hx' := hc.in_plane hx
    generalize T j = t
    simp only [V3.dot, V3.sub_x, V3.sub_y, V3.sub_z, V3.add_x, V3.add_y, V3.add_z, V3.smul_x, V3.smul_y, V3.smul_z] at *
    linear_combination (1 - t) * hx' + t * hy
  have c1 : 0 < area n (c (j + 2) - c (j + 1)) (c j - c (j + 1)) := by
    have := (hc.turn (j + 1)).2
    rwa [show j + 1 + 1 = j + 2 by omega, show j + 1 + 3 = j by omega] at this
  have c2 : 0 < area n (c j - c (j + 3)) (c (j + 1) - c (j + 3)) := by
    have := (hc.turn (j + 3)).1
    rwa [show j + 3 + 1 = j by omega, show j + 3 + 2 = j + 1 by omega] at this
  have g1 := hk (j + 1)
  have g2 := hk (j + 3)
  unfold sideArea at g1 g2 h0
  rw [show j + 1 + 1 = j + 2 by omega] at g1
  rw [show j + 3 + 1 = j by omega] at g2
  obtain ⟨s, s0, s1, e⟩ := on_side hc.unit (hc.flat' (hc.flat (j + 1)) j) (hc.flat' hr j) h0 g1 g2 c1 c2
  exact ⟨j, hj, s, s0, s1, T j, t0, t1, e.symm⟩

end Quad
end VecGeom
