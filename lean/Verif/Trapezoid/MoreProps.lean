import Verif.Trapezoid.GeoProps

/-!
# C132, C133: surface area, extent, sampling
-/

namespace VecGeom
namespace Trapezoid

variable {s : State} {S : Shape}

/-! ## The surface area -/

/-- The area of a flat face with four corners, as the sum of two triangles. -/
noncomputable def quad (a b c d : V3) : ℝ := triangle a b c + triangle a c d

theorem mag_congr {a b : V3} (h : a.mag2 = b.mag2) : a.mag = b.mag := by unfold V3.mag; rw [h]

theorem sideArea_eq (a b c d : V3) : sideArea a b c d = quad a b c d := by
  unfold sideArea quad triangle; ring

theorem mag_scaled {a : V3} {k w : ℝ} (hk : 0 ≤ k) (h : a.mag2 = k ^ 2 * w) : a.mag = k * Real.sqrt w := by
  unfold V3.mag
  rw [h, Real.sqrt_mul (sq_nonneg k), Real.sqrt_sq hk]

/-- The sum of the areas of the six faces. -/
noncomputable def Shape.area (S : Shape) : ℝ :=
  quad S.corners.c0 S.corners.c1 S.corners.c5 S.corners.c4 + quad S.corners.c2 S.corners.c6 S.corners.c7 S.corners.c3 +
  quad S.corners.c0 S.corners.c4 S.corners.c6 S.corners.c2 + quad S.corners.c1 S.corners.c3 S.corners.c7 S.corners.c5 +
  quad S.corners.c0 S.corners.c2 S.corners.c3 S.corners.c1 + quad S.corners.c4 S.corners.c5 S.corners.c7 S.corners.c6

section
open Shape

theorem quad0 (hp : Proper S) : quad S.corners.c0 S.corners.c1 S.corners.c5 S.corners.c4 =
    (S.x1 + S.x3) * Real.sqrt (4 * S.z * S.z + (S.y2 - S.y1 - 2 * S.z * S.cy) ^ 2) := by
  obtain ⟨h0, h1, h2, h3, h4, h5, h6⟩ := hp
  unfold quad triangle
  rw [mag_scaled (k := 2 * S.x1) (w := 4 * S.z * S.z + (S.y2 - S.y1 - 2 * S.z * S.cy) ^ 2) (by linarith),
    mag_scaled (k := 2 * S.x3) (w := 4 * S.z * S.z + (S.y2 - S.y1 - 2 * S.z * S.cy) ^ 2) (by linarith)]
  · ring
  · simp only [V3.mag2, V3.dot, V3.cross, V3.sub_x, V3.sub_y, V3.sub_z, corners, point, mx, my, hx, hy, mix]; ring
  · simp only [V3.mag2, V3.dot, V3.cross, V3.sub_x, V3.sub_y, V3.sub_z, corners, point, mx, my, hx, hy, mix]; ring

theorem quad1 (hp : Proper S) : quad S.corners.c2 S.corners.c6 S.corners.c7 S.corners.c3 =
    (S.x2 + S.x4) * Real.sqrt (4 * S.z * S.z + (S.y2 - S.y1 + 2 * S.z * S.cy) ^ 2) := by
  obtain ⟨h0, h1, h2, h3, h4, h5, h6⟩ := hp
  unfold quad triangle
  rw [mag_scaled (k := 2 * S.x4) (w := 4 * S.z * S.z + (S.y2 - S.y1 + 2 * S.z * S.cy) ^ 2) (by linarith),
    mag_scaled (k := 2 * S.x2) (w := 4 * S.z * S.z + (S.y2 - S.y1 + 2 * S.z * S.cy) ^ 2) (by linarith)]
  · ring
  · simp only [V3.mag2, V3.dot, V3.cross, V3.sub_x, V3.sub_y, V3.sub_z, corners, point, mx, my, hx, hy, mix]; ring
  · simp only [V3.mag2, V3.dot, V3.cross, V3.sub_x, V3.sub_y, V3.sub_z, corners, point, mx, my, hx, hy, mix]; ring

theorem quad4 (hp : Proper S) : quad S.corners.c0 S.corners.c2 S.corners.c3 S.corners.c1 = 2 * S.y1 * (S.x1 + S.x2) := by
  obtain ⟨h0, h1, h2, h3, h4, h5, h6⟩ := hp
  unfold quad triangle
  rw [mag_scaled (k := 4 * S.y1 * S.x2) (w := 1) (by positivity), mag_scaled (k := 4 * S.y1 * S.x1) (w := 1) (by positivity),
    Real.sqrt_one]
  · ring
  · simp only [V3.mag2, V3.dot, V3.cross, V3.sub_x, V3.sub_y, V3.sub_z, corners, point, mx, my, hx, hy, mix]; ring
  · simp only [V3.mag2, V3.dot, V3.cross, V3.sub_x, V3.sub_y, V3.sub_z, corners, point, mx, my, hx, hy, mix]; ring

theorem quad5 (hp : Proper S) : quad S.corners.c4 S.corners.c5 S.corners.c7 S.corners.c6 = 2 * S.y2 * (S.x3 + S.x4) := by
  obtain ⟨h0, h1, h2, h3, h4, h5, h6⟩ := hp
  unfold quad triangle
  rw [mag_scaled (k := 4 * S.y2 * S.x3) (w := 1) (by positivity), mag_scaled (k := 4 * S.y2 * S.x4) (w := 1) (by positivity),
    Real.sqrt_one]
  · ring
  · simp only [V3.mag2, V3.dot, V3.cross, V3.sub_x, V3.sub_y, V3.sub_z, corners, point, mx, my, hx, hy, mix]; ring
  · simp only [V3.mag2, V3.dot, V3.cross, V3.sub_x, V3.sub_y, V3.sub_z, corners, point, mx, my, hx, hy, mix]; ring

/-- C132: the surface area is the sum of the areas of the six faces. -/
theorem C132_area (hp : Proper (shape s)) (hf : Flat (shape s)) : surfaceArea s = (shape s).area := by
  unfold Shape.area
  rw [quad0 hp, quad1 hp, quad4 hp, quad5 hp]
  unfold surfaceArea quad triangle
  dsimp only
  have e1 : (V3.cross (⟨s.dx1 - s.dx2 + s.ta1 * 2 * s.dy1, 2 * s.dy1, 0⟩ : V3)
      ⟨2 * s.dz * s.ttc - (s.dx4 - s.dx2) + s.ta2 * s.dy2 - s.ta1 * s.dy1, 2 * s.dz * s.tts + s.dy2 - s.dy1, 2 * s.dz⟩).mag =
      (V3.cross ((shape s).corners.c6 - (shape s).corners.c0) ((shape s).corners.c2 - (shape s).corners.c0)).mag := by
    apply mag_congr
    simp only [V3.mag2, V3.dot, V3.cross, V3.sub_x, V3.sub_y, V3.sub_z, corners, point, mx, my, hx, hy, mix, shape]; ring
  have e2 : (V3.cross (⟨-s.dx4 + s.dx3 + 2 * s.ta2 * s.dy2, 2 * s.dy2, 0⟩ : V3)
      ⟨-2 * s.dz * s.ttc - (s.dx1 - s.dx3) - s.ta1 * s.dy1 + s.ta2 * s.dy2, -2 * s.dz * s.tts - s.dy1 + s.dy2, -2 * s.dz⟩).mag =
      (V3.cross ((shape s).corners.c4 - (shape s).corners.c0) ((shape s).corners.c6 - (shape s).corners.c0)).mag := by
    apply mag_congr
    simp only [V3.mag2, V3.dot, V3.cross, V3.sub_x, V3.sub_y, V3.sub_z, corners, point, mx, my, hx, hy, mix, shape]; ring
  have e3 : (V3.cross (⟨s.dx2 - s.dx1 + 2 * s.ta1 * s.dy1, 2 * s.dy1, 0⟩ : V3)
      ⟨2 * s.dz * s.ttc + s.dx3 - s.dx1 + s.ta1 * s.dy1 - s.ta2 * s.dy2, 2 * s.dz * s.tts - s.dy2 + s.dy1, 2 * s.dz⟩).mag =
        (V3.cross ((shape s).corners.c3 - (shape s).corners.c1) ((shape s).corners.c7 - (shape s).corners.c1)).mag := by
    congr 1
    simp only [V3.cross, V3.sub_x, V3.sub_y, V3.sub_z, corners, point, mx, my, hx, hy, mix, shape, V3.mk.injEq]
    refine ⟨by ring, by ring, ?_⟩
    have := hf.2
    simp only [shape] at this
    linear_combination -2 * this
  have e4 : (V3.cross (⟨s.dx3 - s.dx4 - 2 * s.ta2 * s.dy2, -2 * s.dy2, 0⟩ : V3)
      ⟨-2 * s.dz * s.ttc + s.dx2 - s.dx4 + s.ta1 * s.dy1 - s.ta2 * s.dy2, -2 * s.dz * s.tts + s.dy1 - s.dy2, -2 * s.dz⟩).mag =
        (V3.cross ((shape s).corners.c7 - (shape s).corners.c1) ((shape s).corners.c5 - (shape s).corners.c1)).mag := by
    congr 1
    simp only [V3.cross, V3.sub_x, V3.sub_y, V3.sub_z, corners, point, mx, my, hx, hy, mix, shape, V3.mk.injEq]
    refine ⟨by ring, by ring, ?_⟩
    have := hf.2
    simp only [shape] at this
    linear_combination 2 * this
  show 2 * s.dy1 * (s.dx1 + s.dx2) + 2 * s.dy2 * (s.dx3 + s.dx4) +
      (s.dx1 + s.dx3) * Real.sqrt (4 * s.dz * s.dz + (s.dy2 - s.dy1 - 2 * s.dz * s.tts) ^ 2) +
      (s.dx2 + s.dx4) * Real.sqrt (4 * s.dz * s.dz + (s.dy2 - s.dy1 + 2 * s.dz * s.tts) ^ 2) + _ =
    (s.dx1 + s.dx3) * Real.sqrt (4 * s.dz * s.dz + (s.dy2 - s.dy1 - 2 * s.dz * s.tts) ^ 2) +
      (s.dx2 + s.dx4) * Real.sqrt (4 * s.dz * s.dz + (s.dy2 - s.dy1 + 2 * s.dz * s.tts) ^ 2) + _ + _ +
      2 * s.dy1 * (s.dx1 + s.dx2) + 2 * s.dy2 * (s.dx3 + s.dx4)
  rw [e1, e2, e3, e4]
  ring

end

/-! ## Corners from planes -/

theorem corner_y {pl : Plane} {c : V3} (h : pl.height c = 0) (hx : pl.n.x = 0) (hy : pl.n.y ≠ 0) :
    -(pl.d + c.z * pl.n.z) / pl.n.y = c.y := by
  simp only [Plane.height, V3.dot] at h
  rw [hx] at h
  rw [div_eq_iff hy]; linarith

theorem corner_x {pa pb : Plane} {c : V3} (ha : pa.height c = 0) (hx : pa.n.x = 0) (hy : pa.n.y ≠ 0) (hb : pb.height c = 0)
    (hx' : pb.n.x ≠ 0) : ((pb.n.y / pa.n.y) * (pa.d + c.z * pa.n.z) - (pb.d + c.z * pb.n.z)) / pb.n.x = c.x := by
  have e : pa.d + c.z * pa.n.z = -(c.y * pa.n.y) := by
    simp only [Plane.height, V3.dot] at ha
    rw [hx] at ha; linarith
  rw [e, div_eq_iff hx']
  simp only [Plane.height, V3.dot] at hb
  have e2 : pb.n.y / pa.n.y * -(c.y * pa.n.y) = -(c.y * pb.n.y) := by field_simp
  rw [e2]; linarith

theorem makeAPlane_n (p1 p2 p3 p4 : V3) : (makeAPlane p1 p2 p3 p4).n = V3.smul (1 / (rawN p1 p2 p3 p4).mag) (rawN p1 p2 p3 p4) :=
  rfl

theorem p0_n (hp : Proper S) : S.p0.n.x = 0 ∧ S.p0.n.y ≠ 0 := by
  have hm := mag_pos (m0_pos hp)
  have e : S.p0.n = V3.smul (1 / S.m0.mag) S.m0 := rfl
  have k : S.m0.y ≠ 0 := by
    obtain ⟨h0, h1, h2, h3, h4, h5, h6⟩ := hp
    rw [m0_eq]
    have : 0 < S.z * (S.x1 + S.x3) := by positivity
    dsimp only; nlinarith
  rw [e]
  refine ⟨?_, ?_⟩
  · rw [m0_eq]; simp [V3.smul]
  · exact mul_ne_zero (one_div_ne_zero hm.ne') k
theorem p1_n (hp : Proper S) : S.p1.n.x = 0 ∧ S.p1.n.y ≠ 0 := by
  have hm := mag_pos (m1_pos hp)
  have e : S.p1.n = V3.smul (1 / S.m1.mag) S.m1 := rfl
  have k : S.m1.y ≠ 0 := by
    obtain ⟨h0, h1, h2, h3, h4, h5, h6⟩ := hp
    rw [m1_eq]
    have : 0 < S.z * (S.x2 + S.x4) := by positivity
    dsimp only; nlinarith
  rw [e]
  refine ⟨?_, ?_⟩
  · rw [m1_eq]; simp [V3.smul]
  · exact mul_ne_zero (one_div_ne_zero hm.ne') k
theorem p2_n (hp : Proper S) : S.p2.n.x ≠ 0 := by
  have hm := mag_pos (m2_pos hp)
  have e : S.p2.n = V3.smul (1 / S.m2.mag) S.m2 := rfl
  rw [e]
  refine mul_ne_zero (one_div_ne_zero hm.ne') ?_
  obtain ⟨h0, h1, h2, h3, h4, h5, h6⟩ := hp
  rw [m2_x]
  have : 0 < S.z * (S.y1 + S.y2) := by positivity
  nlinarith
theorem p3_n (hp : Proper S) : S.p3.n.x ≠ 0 := by
  have hm := mag_pos (m3_pos hp)
  have e : S.p3.n = V3.smul (1 / S.m3.mag) S.m3 := rfl
  rw [e]
  refine mul_ne_zero (one_div_ne_zero hm.ne') ?_
  obtain ⟨h0, h1, h2, h3, h4, h5, h6⟩ := hp
  rw [m3_x]
  have : 0 < S.z * (S.y1 + S.y2) := by positivity
  nlinarith

theorem h0_zero (r t : ℝ) : S.p0.height (S.point r 0 t) = 0 := by rw [p0_height]; simp
theorem h1_zero (r t : ℝ) : S.p1.height (S.point r 1 t) = 0 := by rw [p1_height]; simp
theorem h2_zero (hf : Flat S) (s t : ℝ) : S.p2.height (S.point 0 s t) = 0 := by rw [p2_height hf]; simp
theorem h3_zero (hf : Flat S) (s t : ℝ) : S.p3.height (S.point 1 s t) = 0 := by rw [p3_height hf]; simp

/-- C133: the corners found from the planes are those of the parameters. -/
theorem C133_corners (h : Fresh s) (hp : Proper (shape s)) (hf : Flat (shape s)) :
    fromPlanesToCorners s = (shape s).corners := by
  have hl := fresh_planes h
  simp only [State.planes, Shape.planes, List.cons.injEq, and_true] at hl
  obtain ⟨l0, l1, l2, l3⟩ := hl
  generalize hS : shape s = S at *
  have hz : s.dz = S.z := by rw [← hS]; rfl
  obtain ⟨a0, b0⟩ := p0_n hp
  obtain ⟨a1, b1⟩ := p1_n hp
  have b2 := p2_n hp
  have b3 := p3_n hp
  have zl : ∀ r u : ℝ, (S.point r u 0).z = -S.z := by intro r u; simp [Shape.point]
  have zu : ∀ r u : ℝ, (S.point r u 1).z = S.z := by intro r u; simp only [Shape.point]; ring
  have y0 : ∀ (t w r : ℝ), (S.point r 0 t).z = w → -(S.p0.d + w * S.p0.n.z) / S.p0.n.y = (S.point r 0 t).y := by
    intro t w r e; rw [← e]; exact corner_y (h0_zero r t) a0 b0
  have y1 : ∀ (t w r : ℝ), (S.point r 1 t).z = w → -(S.p1.d + w * S.p1.n.z) / S.p1.n.y = (S.point r 1 t).y := by
    intro t w r e; rw [← e]; exact corner_y (h1_zero r t) a1 b1
  have x02 : ∀ (t w : ℝ), (S.point 0 0 t).z = w → ((S.p2.n.y / S.p0.n.y) * (S.p0.d + w * S.p0.n.z) - (S.p2.d + w * S.p2.n.z)) / S.p2.n.x
      = (S.point 0 0 t).x := by
    intro t w e; rw [← e]; exact corner_x (h0_zero 0 t) a0 b0 (h2_zero hf 0 t) b2
  have x03 : ∀ (t w : ℝ), (S.point 1 0 t).z = w → ((S.p3.n.y / S.p0.n.y) * (S.p0.d + w * S.p0.n.z) - (S.p3.d + w * S.p3.n.z)) / S.p3.n.x
      = (S.point 1 0 t).x := by
    intro t w e; rw [← e]; exact corner_x (h0_zero 1 t) a0 b0 (h3_zero hf 0 t) b3
  have x12 : ∀ (t w : ℝ), (S.point 0 1 t).z = w → ((S.p2.n.y / S.p1.n.y) * (S.p1.d + w * S.p1.n.z) - (S.p2.d + w * S.p2.n.z)) / S.p2.n.x
      = (S.point 0 1 t).x := by
    intro t w e; rw [← e]; exact corner_x (h1_zero 0 t) a1 b1 (h2_zero hf 1 t) b2
  have x13 : ∀ (t w : ℝ), (S.point 1 1 t).z = w → ((S.p3.n.y / S.p1.n.y) * (S.p1.d + w * S.p1.n.z) - (S.p3.d + w * S.p3.n.z)) / S.p3.n.x
      = (S.point 1 1 t).x := by
    intro t w e; rw [← e]; exact corner_x (h1_zero 1 t) a1 b1 (h3_zero hf 1 t) b3
  have neg : ∀ a b : ℝ, a - S.z * b = a + -S.z * b := by intro a b; ring
  unfold fromPlanesToCorners Shape.corners
  dsimp only
  rw [l0, l1, l2, l3, hz]
  simp only [neg]
  rw [x02 0 _ (zl _ _), x03 0 _ (zl _ _), x12 0 _ (zl _ _), x13 0 _ (zl _ _), x02 1 _ (zu _ _), x03 1 _ (zu _ _),
    x12 1 _ (zu _ _), x13 1 _ (zu _ _), y0 0 _ 0 (zl _ _), y1 0 _ 0 (zl _ _), y0 1 _ 0 (zu _ _), y1 1 _ 0 (zu _ _)]
  simp only [Shape.point, Corners.mk.injEq, V3.mk.injEq, true_and]
  refine ⟨?_, ?_, ?_, ?_, ?_, ?_, ?_, ?_⟩ <;> ring

/-! ## The extent -/

theorem point_mix (r u t : ℝ) :
    (S.point r u t).x = mix t (mix u (mix r S.corners.c0.x S.corners.c1.x) (mix r S.corners.c2.x S.corners.c3.x))
      (mix u (mix r S.corners.c4.x S.corners.c5.x) (mix r S.corners.c6.x S.corners.c7.x)) ∧
    (S.point r u t).y = mix t (mix u (mix r S.corners.c0.y S.corners.c1.y) (mix r S.corners.c2.y S.corners.c3.y))
      (mix u (mix r S.corners.c4.y S.corners.c5.y) (mix r S.corners.c6.y S.corners.c7.y)) := by
  simp only [Shape.corners, Shape.point, Shape.mx, Shape.my, Shape.hx, Shape.hy, mix]
  constructor <;> ring

theorem mix_le {t a b M : ℝ} (h : Unit t) (ha : a ≤ M) (hb : b ≤ M) : mix t a b ≤ M := by
  unfold mix
  nlinarith [mul_nonneg h.1 (sub_nonneg.mpr hb), mul_nonneg (sub_nonneg.mpr h.2) (sub_nonneg.mpr ha)]
theorem le_mix {t a b M : ℝ} (h : Unit t) (ha : M ≤ a) (hb : M ≤ b) : M ≤ mix t a b := by
  unfold mix
  nlinarith [mul_nonneg h.1 (sub_nonneg.mpr hb), mul_nonneg (sub_nonneg.mpr h.2) (sub_nonneg.mpr ha)]

/-- The list of corners. -/
def Corners.list (c : Corners) : List V3 := [c.c0, c.c1, c.c2, c.c3, c.c4, c.c5, c.c6, c.c7]

theorem corners_solid {c : V3} (h : c ∈ S.corners.list) : Solid S c := by
  have u0 : Unit 0 := by norm_num [Unit]
  have u1 : Unit 1 := by norm_num [Unit]
  simp only [Corners.list, Shape.corners, List.mem_cons, List.not_mem_nil, or_false] at h
  rcases h with rfl | rfl | rfl | rfl | rfl | rfl | rfl | rfl
  · exact ⟨0, 0, 0, u0, u0, u0, rfl⟩
  · exact ⟨1, 0, 0, u1, u0, u0, rfl⟩
  · exact ⟨0, 1, 0, u0, u1, u0, rfl⟩
  · exact ⟨1, 1, 0, u1, u1, u0, rfl⟩
  · exact ⟨0, 0, 1, u0, u0, u1, rfl⟩
  · exact ⟨1, 0, 1, u1, u0, u1, rfl⟩
  · exact ⟨0, 1, 1, u0, u1, u1, rfl⟩
  · exact ⟨1, 1, 1, u1, u1, u1, rfl⟩

theorem min_corner (f : V3 → ℝ) (c : Corners) : ∃ p ∈ c.list, f p =
    min (min (min (f c.c0) (f c.c1)) (min (f c.c2) (f c.c3))) (min (min (f c.c4) (f c.c5)) (min (f c.c6) (f c.c7))) := by
  simp only [Corners.list, List.mem_cons, List.not_mem_nil, or_false, exists_eq_or_imp, exists_eq_left]
  rcases min_choice (min (min (f c.c0) (f c.c1)) (min (f c.c2) (f c.c3))) (min (min (f c.c4) (f c.c5)) (min (f c.c6) (f c.c7)))
    with e | e <;> rw [e]
  · rcases min_choice (min (f c.c0) (f c.c1)) (min (f c.c2) (f c.c3)) with e | e <;> rw [e]
    · rcases min_choice (f c.c0) (f c.c1) with e | e <;> rw [e] <;> simp
    · rcases min_choice (f c.c2) (f c.c3) with e | e <;> rw [e] <;> simp
  · rcases min_choice (min (f c.c4) (f c.c5)) (min (f c.c6) (f c.c7)) with e | e <;> rw [e]
    · rcases min_choice (f c.c4) (f c.c5) with e | e <;> rw [e] <;> simp
    · rcases min_choice (f c.c6) (f c.c7) with e | e <;> rw [e] <;> simp

theorem max_corner (f : V3 → ℝ) (c : Corners) : ∃ p ∈ c.list, f p =
    max (max (max (f c.c0) (f c.c1)) (max (f c.c2) (f c.c3))) (max (max (f c.c4) (f c.c5)) (max (f c.c6) (f c.c7))) := by
  simp only [Corners.list, List.mem_cons, List.not_mem_nil, or_false, exists_eq_or_imp, exists_eq_left]
  rcases max_choice (max (max (f c.c0) (f c.c1)) (max (f c.c2) (f c.c3))) (max (max (f c.c4) (f c.c5)) (max (f c.c6) (f c.c7)))
    with e | e <;> rw [e]
  · rcases max_choice (max (f c.c0) (f c.c1)) (max (f c.c2) (f c.c3)) with e | e <;> rw [e]
    · rcases max_choice (f c.c0) (f c.c1) with e | e <;> rw [e] <;> simp
    · rcases max_choice (f c.c2) (f c.c3) with e | e <;> rw [e] <;> simp
  · rcases max_choice (max (f c.c4) (f c.c5)) (max (f c.c6) (f c.c7)) with e | e <;> rw [e]
    · rcases max_choice (f c.c4) (f c.c5) with e | e <;> rw [e] <;> simp
    · rcases max_choice (f c.c6) (f c.c7) with e | e <;> rw [e] <;> simp

/-- C133: the extent holds the solid. -/
theorem C133_extent (h : Fresh s) (hp : Proper (shape s)) (hf : Flat (shape s)) {q : V3} (hq : Solid (shape s) q) :
    ((extent s).1.x ≤ q.x ∧ q.x ≤ (extent s).2.x) ∧ ((extent s).1.y ≤ q.y ∧ q.y ≤ (extent s).2.y) ∧
    ((extent s).1.z ≤ q.z ∧ q.z ≤ (extent s).2.z) := by
  unfold extent
  rw [C133_corners h hp hf]
  have hz : s.dz = (shape s).z := rfl
  dsimp only
  rw [hz]
  obtain ⟨r, u, t, hr, hu, ht, rfl⟩ := hq
  have e := point_mix (S := shape s) r u t
  rw [e.1, e.2]
  have h0 := hp.1
  refine ⟨⟨?_, ?_⟩, ⟨?_, ?_⟩, ?_, ?_⟩
  · refine le_mix ht (le_mix hu (le_mix hr ?_ ?_) (le_mix hr ?_ ?_)) (le_mix hu (le_mix hr ?_ ?_) (le_mix hr ?_ ?_)) <;> simp
  · refine mix_le ht (mix_le hu (mix_le hr ?_ ?_) (mix_le hr ?_ ?_)) (mix_le hu (mix_le hr ?_ ?_) (mix_le hr ?_ ?_)) <;> simp
  · refine le_mix ht (le_mix hu (le_mix hr ?_ ?_) (le_mix hr ?_ ?_)) (le_mix hu (le_mix hr ?_ ?_) (le_mix hr ?_ ?_)) <;> simp
  · refine mix_le ht (mix_le hu (mix_le hr ?_ ?_) (mix_le hr ?_ ?_)) (mix_le hu (mix_le hr ?_ ?_) (mix_le hr ?_ ?_)) <;> simp
  · show -(shape s).z ≤ (2 * t - 1) * (shape s).z
    nlinarith [ht.1]
  · show (2 * t - 1) * (shape s).z ≤ (shape s).z
    nlinarith [ht.2]

/-- C133: the extent is the smallest box: each of its six sides touches the solid. -/
theorem C133_extent_tight (h : Fresh s) (hp : Proper (shape s)) (hf : Flat (shape s)) :
    (∃ q, Solid (shape s) q ∧ q.x = (extent s).1.x) ∧ (∃ q, Solid (shape s) q ∧ q.x = (extent s).2.x) ∧
    (∃ q, Solid (shape s) q ∧ q.y = (extent s).1.y) ∧ (∃ q, Solid (shape s) q ∧ q.y = (extent s).2.y) ∧
    (∃ q, Solid (shape s) q ∧ q.z = (extent s).1.z) ∧ (∃ q, Solid (shape s) q ∧ q.z = (extent s).2.z) := by
  unfold extent
  rw [C133_corners h hp hf]
  dsimp only
  refine ⟨?_, ?_, ?_, ?_, ?_, ?_⟩
  · obtain ⟨p, hp, e⟩ := min_corner (fun p => p.x) (shape s).corners; exact ⟨p, corners_solid hp, e⟩
  · obtain ⟨p, hp, e⟩ := max_corner (fun p => p.x) (shape s).corners; exact ⟨p, corners_solid hp, e⟩
  · obtain ⟨p, hp, e⟩ := min_corner (fun p => p.y) (shape s).corners; exact ⟨p, corners_solid hp, e⟩
  · obtain ⟨p, hp, e⟩ := max_corner (fun p => p.y) (shape s).corners; exact ⟨p, corners_solid hp, e⟩
  · refine ⟨(shape s).corners.c0, corners_solid (by simp [Corners.list]), ?_⟩
    simp [Shape.corners, Shape.point]; rfl
  · refine ⟨(shape s).corners.c7, corners_solid (by simp [Corners.list]), ?_⟩
    show (2 * 1 - 1) * s.dz = s.dz
    ring

example : Solid (shape sample) ⟨-9 / 2, -1, -3⟩ := by
  rw [sample_shape]
  refine ⟨0, 0, 0, ?_, ?_, ?_, ?_⟩ <;> norm_num [Unit, Shape.point, Shape.mx, Shape.my, Shape.hx, Shape.hy, mix]

/-! ## Sampling -/

theorem height_comb (pl : Plane) (a b c : V3) (l1 l2 : ℝ) :
    pl.height (a + V3.smul l1 (b - a) + V3.smul l2 (c - b)) =
      (1 - l1) * pl.height a + (l1 - l2) * pl.height b + l2 * pl.height c := by
  simp only [Plane.height, V3.dot, V3.smul, V3.add_x, V3.add_y, V3.add_z, V3.sub_x, V3.sub_y, V3.sub_z]
  ring

/-- What a point of the solid on one of the six planes is: a point of the surface. -/
theorem on_plane (hp : Proper S) (hf : Flat S) {q : V3} (hq : Solid S q)
    (h : ∃ pl ∈ sides S.z S.planes, pl.height q = 0) : Surface S q := by
  by_contra hn
  have hi : Interior S q := by
    obtain ⟨r, u, t, hr, hu, ht, rfl⟩ := hq
    have key : ¬ (r = 0 ∨ r = 1 ∨ u = 0 ∨ u = 1 ∨ t = 0 ∨ t = 1) := fun e => hn ⟨r, u, t, hr, hu, ht, e, rfl⟩
    push Not at key
    obtain ⟨a, b, c, d, e, f⟩ := key
    exact ⟨r, u, t, ⟨lt_of_le_of_ne hr.1 (Ne.symm a), lt_of_le_of_ne hr.2 b⟩, ⟨lt_of_le_of_ne hu.1 (Ne.symm c), lt_of_le_of_ne hu.2 d⟩,
      ⟨lt_of_le_of_ne ht.1 (Ne.symm e), lt_of_le_of_ne ht.2 f⟩, rfl⟩
  obtain ⟨pl, hpl, e⟩ := h
  have := (below_interior hp hf q).mpr hi pl hpl
  linarith

theorem comb_surface (hp : Proper S) (hf : Flat S) {a b c : V3} {l1 l2 : ℝ} (h1 : l1 ≤ 1) (h2 : 0 ≤ l2) (h3 : l2 ≤ l1)
    (ha : Solid S a) (hb : Solid S b) (hc : Solid S c) {pl : Plane} (hpl : pl ∈ sides S.z S.planes) (za : pl.height a = 0)
    (zb : pl.height b = 0) (zc : pl.height c = 0) : Surface S (a + V3.smul l1 (b - a) + V3.smul l2 (c - b)) := by
  apply on_plane hp hf
  · rw [← below_solid hp hf] at *
    intro pl hpl
    rw [height_comb]
    have := ha pl hpl; have := hb pl hpl; have := hc pl hpl
    nlinarith [mul_nonneg (sub_nonneg.mpr h1) (neg_nonneg.mpr (ha pl hpl)), mul_nonneg (sub_nonneg.mpr h3) (neg_nonneg.mpr (hb pl hpl)),
      mul_nonneg h2 (neg_nonneg.mpr (hc pl hpl))]
  · exact ⟨pl, hpl, by rw [height_comb, za, zb, zc]; ring⟩

/-- A point made from the corners of a face is on the surface. -/
theorem face_surface (hp : Proper S) (hf : Flat S) {p0 p1 p2 p3 : V3} {u0 u1 u2 : ℝ} (h1 : 0 ≤ u1) (h1' : u1 ≤ 1) (h2 : 0 ≤ u2)
    (h2' : u2 ≤ 1) {pl : Plane} (hpl : pl ∈ sides S.z S.planes)
    (hc : ∀ p ∈ [p0, p1, p2, p3], Solid S p ∧ pl.height p = 0) : Surface S (getPointOnPlane p0 p1 p2 p3 u0 u1 u2) := by
  have k0 := hc p0 (by simp); have k1 := hc p1 (by simp); have k2 := hc p2 (by simp); have k3 := hc p3 (by simp)
  unfold getPointOnPlane
  dsimp only
  have h3 : u2 * u1 ≤ u1 := by nlinarith
  have h4 : 0 ≤ u2 * u1 := mul_nonneg h2 h1
  split
  · exact comb_surface hp hf h1' h4 h3 k2.1 k3.1 k0.1 hpl k2.2 k3.2 k0.2
  · exact comb_surface hp hf h1' h4 h3 k0.1 k1.1 k2.1 hpl k0.2 k1.2 k2.2

theorem quad_nonneg (a b c d : V3) : 0 ≤ quad a b c d := by
  unfold quad triangle V3.mag; positivity

theorem fresh_areas (h : Fresh s) : s.area0 = quad (shape s).corners.c0 (shape s).corners.c1 (shape s).corners.c5 (shape s).corners.c4 ∧
    s.area1 = quad (shape s).corners.c2 (shape s).corners.c6 (shape s).corners.c7 (shape s).corners.c3 ∧
    s.area2 = quad (shape s).corners.c0 (shape s).corners.c4 (shape s).corners.c6 (shape s).corners.c2 ∧
    s.area3 = quad (shape s).corners.c1 (shape s).corners.c3 (shape s).corners.c7 (shape s).corners.c5 ∧
    s.area4 = 2 * (s.dx1 + s.dx2) * s.dy1 ∧ s.area5 = 2 * (s.dx3 + s.dx4) * s.dy2 := by
  have e : ∀ f : State → ℝ, f s = f (makePlanes s) := fun f => by rw [h]
  rw [e State.area0, e State.area1, e State.area2, e State.area3, e State.area4, e State.area5]
  unfold makePlanes
  rw [corners_eq]
  exact ⟨sideArea_eq _ _ _ _, sideArea_eq _ _ _ _, sideArea_eq _ _ _ _, sideArea_eq _ _ _ _, rfl, rfl⟩

/-- C133: a sampled point is on the surface of the solid, whatever the random numbers. -/
theorem C133_sample (h : Fresh s) (hp : Proper (shape s)) (hf : Flat (shape s)) {u u0 u1 u2 : ℝ} (hu : 0 ≤ u) (hu' : u < 1)
    (h1 : 0 ≤ u1) (h1' : u1 ≤ 1) (h2 : 0 ≤ u2) (h2' : u2 ≤ 1) : Surface (shape s) (samplePointOnSurface s u u0 u1 u2) := by
  classical
  have hA := C132_area hp hf
  obtain ⟨a0, a1, a2, a3, a4, a5⟩ := fresh_areas h
  have b4 := quad4 hp
  have b5 := quad5 hp
  have n0 : 0 ≤ s.area0 := by rw [a0]; exact quad_nonneg _ _ _ _
  have n1 : 0 ≤ s.area1 := by rw [a1]; exact quad_nonneg _ _ _ _
  have n2 : 0 ≤ s.area2 := by rw [a2]; exact quad_nonneg _ _ _ _
  have n3 : 0 ≤ s.area3 := by rw [a3]; exact quad_nonneg _ _ _ _
  have p1 : 0 < s.dy1 := hp.2.1
  have p2 : 0 < s.dx1 := hp.2.2.1
  have p3 : 0 < s.dx2 := hp.2.2.2.1
  have p4 : 0 < s.dy2 := hp.2.2.2.2.1
  have p5 : 0 < s.dx3 := hp.2.2.2.2.2.1
  have p6 : 0 < s.dx4 := hp.2.2.2.2.2.2
  have n4 : 0 < s.area4 := by rw [a4]; positivity
  have n5 : 0 < s.area5 := by rw [a5]; positivity
  have hsum : surfaceArea s = s.area0 + s.area1 + s.area2 + s.area3 + s.area4 + s.area5 := by
    rw [hA, Shape.area, b4, b5, a0, a1, a2, a3, a4, a5]
    simp only [shape]
    ring
  have c0 : 0 ≤ u * surfaceArea s := mul_nonneg hu (by rw [hsum]; linarith)
  have c1 : u * surfaceArea s < s.area0 + s.area1 + s.area2 + s.area3 + s.area4 + s.area5 := by rw [← hsum]; nlinarith
  have sol : ∀ c ∈ (shape s).corners.list, Solid (shape s) c := fun c hc => corners_solid hc
  simp only [Corners.list, List.mem_cons, forall_eq_or_imp, List.not_mem_nil, false_imp_iff, implies_true, and_true] at sol
  obtain ⟨s0, s1, s2, s3, s4, s5, s6, s7⟩ := sol
  have zu : ∀ r v : ℝ, (⟨⟨0, 0, 1⟩, -(shape s).z⟩ : Plane).height ((shape s).point r v 1) = 0 := by
    intro r v; rw [height_up]; simp only [Shape.point]; ring
  have zd : ∀ r v : ℝ, (⟨⟨0, 0, -1⟩, -(shape s).z⟩ : Plane).height ((shape s).point r v 0) = 0 := by
    intro r v; rw [height_dn]; simp only [Shape.point]; ring
  unfold samplePointOnSurface
  rw [C133_corners h hp hf]
  dsimp only
  generalize u * surfaceArea s = w at *
  simp only [zero_add]
  split
  · refine face_surface hp hf h1 h1' h2 h2' (pl := (shape s).p0) (by simp [sides, Shape.planes]) ?_
    simp only [List.mem_cons, forall_eq_or_imp, List.not_mem_nil, false_imp_iff, implies_true, and_true]
    exact ⟨⟨s0, h0_zero _ _⟩, ⟨s1, h0_zero _ _⟩, ⟨s5, h0_zero _ _⟩, ⟨s4, h0_zero _ _⟩⟩
  · rename_i k0
    have k0 : s.area0 ≤ w := by by_contra hlt; exact k0 ⟨c0, not_le.mp hlt⟩
    split
    · refine face_surface hp hf h1 h1' h2 h2' (pl := (shape s).p1) (by simp [sides, Shape.planes]) ?_
      simp only [List.mem_cons, forall_eq_or_imp, List.not_mem_nil, false_imp_iff, implies_true, and_true]
      exact ⟨⟨s2, h1_zero _ _⟩, ⟨s6, h1_zero _ _⟩, ⟨s7, h1_zero _ _⟩, ⟨s3, h1_zero _ _⟩⟩
    · rename_i k1
      have k1 : s.area0 + s.area1 ≤ w := by by_contra hlt; exact k1 ⟨k0, not_le.mp hlt⟩
      split
      · refine face_surface hp hf h1 h1' h2 h2' (pl := (shape s).p2) (by simp [sides, Shape.planes]) ?_
        simp only [List.mem_cons, forall_eq_or_imp, List.not_mem_nil, false_imp_iff, implies_true, and_true]
        exact ⟨⟨s0, h2_zero hf _ _⟩, ⟨s4, h2_zero hf _ _⟩, ⟨s6, h2_zero hf _ _⟩, ⟨s2, h2_zero hf _ _⟩⟩
      · rename_i k2
        have k2 : s.area0 + s.area1 + s.area2 ≤ w := by by_contra hlt; exact k2 ⟨k1, not_le.mp hlt⟩
        split
        · refine face_surface hp hf h1 h1' h2 h2' (pl := (shape s).p3) (by simp [sides, Shape.planes]) ?_
          simp only [List.mem_cons, forall_eq_or_imp, List.not_mem_nil, false_imp_iff, implies_true, and_true]
          exact ⟨⟨s1, h3_zero hf _ _⟩, ⟨s3, h3_zero hf _ _⟩, ⟨s7, h3_zero hf _ _⟩, ⟨s5, h3_zero hf _ _⟩⟩
        · rename_i k3
          have k3 : s.area0 + s.area1 + s.area2 + s.area3 ≤ w := by by_contra hlt; exact k3 ⟨k2, not_le.mp hlt⟩
          split
          · refine face_surface hp hf h1 h1' h2 h2' (pl := ⟨⟨0, 0, -1⟩, -(shape s).z⟩) (by simp [sides]) ?_
            simp only [List.mem_cons, forall_eq_or_imp, List.not_mem_nil, false_imp_iff, implies_true, and_true]
            exact ⟨⟨s0, zd _ _⟩, ⟨s2, zd _ _⟩, ⟨s3, zd _ _⟩, ⟨s1, zd _ _⟩⟩
          · rename_i k4
            have k4 : s.area0 + s.area1 + s.area2 + s.area3 + s.area4 ≤ w := by by_contra hlt; exact k4 ⟨k3, not_le.mp hlt⟩
            rw [if_pos ⟨k4, c1⟩]
            refine face_surface hp hf h1 h1' h2 h2' (pl := ⟨⟨0, 0, 1⟩, -(shape s).z⟩) (by simp [sides]) ?_
            simp only [List.mem_cons, forall_eq_or_imp, List.not_mem_nil, false_imp_iff, implies_true, and_true]
            exact ⟨⟨s4, zu _ _⟩, ⟨s5, zu _ _⟩, ⟨s7, zu _ _⟩, ⟨s6, zu _ _⟩⟩

end Trapezoid
end VecGeom
