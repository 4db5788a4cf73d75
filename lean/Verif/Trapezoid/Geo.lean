import Verif.Trapezoid.Props

/-!
# Lemmas about the side planes of a general trapezoid
-/

namespace VecGeom
namespace Trapezoid

/-- The shape that the parameters of a state describe. -/
def shape (s : State) : Shape := ⟨s.dz, s.ttc, s.tts, s.dy1, s.dx1, s.dx2, s.ta1, s.dy2, s.dx3, s.dx4, s.ta2⟩

/-- The eight corners of a shape. -/
def Shape.corners (S : Shape) : Corners :=
  ⟨S.point 0 0 0, S.point 1 0 0, S.point 0 1 0, S.point 1 1 0, S.point 0 0 1, S.point 1 0 1, S.point 0 1 1, S.point 1 1 1⟩

theorem corners_eq (s : State) : fromParametersToCorners s = (shape s).corners := by
  simp only [fromParametersToCorners, Shape.corners, Shape.point, shape, Shape.mx, Shape.my, Shape.hx, Shape.hy, mix,
    Corners.mk.injEq, V3.mk.injEq]
  refine ⟨⟨?_, ?_, ?_⟩, ⟨?_, ?_, ?_⟩, ⟨?_, ?_, ?_⟩, ⟨?_, ?_, ?_⟩, ⟨?_, ?_, ?_⟩, ⟨?_, ?_, ?_⟩, ⟨?_, ?_, ?_⟩, ⟨?_, ?_, ?_⟩⟩ <;> ring

/-- The normal of a face before it is normalised. -/
def rawN (p1 p2 p3 p4 : V3) : V3 := V3.cross (p3 - p1) (p4 - p2)
/-- The height above the plane of a face before the normal is normalised. -/
noncomputable def raw (p1 p2 p3 p4 q : V3) : ℝ := (rawN p1 p2 p3 p4).dot (q - V3.smul 0.25 (p1 + p2 + p3 + p4))

theorem mag_pos {a : V3} (h : 0 < a.mag2) : 0 < a.mag := Real.sqrt_pos.mpr h

theorem makeAPlane_height {p1 p2 p3 p4 : V3} (q : V3) :
    (makeAPlane p1 p2 p3 p4).height q = raw p1 p2 p3 p4 q / (rawN p1 p2 p3 p4).mag := by
  unfold makeAPlane raw rawN
  dsimp only [Plane.height]
  generalize V3.cross (p3 - p1) (p4 - p2) = m
  generalize V3.smul 0.25 (p1 + p2 + p3 + p4) = c
  simp only [normalize, V3.dot, V3.smul, V3.sub_x, V3.sub_y, V3.sub_z]
  ring

theorem makeAPlane_unit {p1 p2 p3 p4 : V3} (h : 0 < (rawN p1 p2 p3 p4).mag2) : (makeAPlane p1 p2 p3 p4).n.mag2 = 1 := by
  show (normalize (rawN p1 p2 p3 p4)).mag2 = 1
  generalize rawN p1 p2 p3 p4 = m at *
  have h1 := mag_pos h
  have h2 : m.mag * m.mag = m.mag2 := Real.mul_self_sqrt h.le
  have e : (normalize m).mag2 = (1 / m.mag) ^ 2 * m.mag2 := by
    simp only [normalize, V3.mag2, V3.dot, V3.smul]; ring
  rw [e, ← h2]
  field_simp

variable {S : Shape}

theorem hy_pos (hp : Proper S) {t : ℝ} (h : Unit t) : 0 < S.hy t := by
  obtain ⟨_, h1, _, _, h2, _⟩ := hp
  unfold Shape.hy mix
  have h3 := h.1; have h4 := h.2
  rcases h3.eq_or_lt with e | e
  · rw [← e]; linarith
  · nlinarith [mul_nonneg (by linarith : (0:ℝ) ≤ 1 - t) h1.le, mul_pos e h2]

theorem mix_pos {t a b : ℝ} (h : Unit t) (ha : 0 < a) (hb : 0 < b) : 0 < mix t a b := by
  unfold mix
  have h3 := h.1; have h4 := h.2
  rcases h3.eq_or_lt with e | e
  · rw [← e]; linarith
  · nlinarith [mul_nonneg (by linarith : (0:ℝ) ≤ 1 - t) ha.le, mul_pos e hb]

theorem hx_pos (hp : Proper S) {t s : ℝ} (h : Unit t) (h' : Unit s) : 0 < S.hx t s := by
  obtain ⟨_, _, h1, h2, _, h3, h4⟩ := hp
  exact mix_pos h' (mix_pos h h1 h3) (mix_pos h h2 h4)

/-- The four side planes of a shape, as the code makes them. -/
noncomputable def Shape.p0 (S : Shape) : Plane := makeAPlane S.corners.c0 S.corners.c1 S.corners.c5 S.corners.c4
noncomputable def Shape.p1 (S : Shape) : Plane := makeAPlane S.corners.c2 S.corners.c6 S.corners.c7 S.corners.c3
noncomputable def Shape.p2 (S : Shape) : Plane := makeAPlane S.corners.c0 S.corners.c4 S.corners.c6 S.corners.c2
noncomputable def Shape.p3 (S : Shape) : Plane := makeAPlane S.corners.c1 S.corners.c3 S.corners.c7 S.corners.c5

/-- Their normals before they are normalised. -/
def Shape.m0 (S : Shape) : V3 := rawN S.corners.c0 S.corners.c1 S.corners.c5 S.corners.c4
def Shape.m1 (S : Shape) : V3 := rawN S.corners.c2 S.corners.c6 S.corners.c7 S.corners.c3
def Shape.m2 (S : Shape) : V3 := rawN S.corners.c0 S.corners.c4 S.corners.c6 S.corners.c2
def Shape.m3 (S : Shape) : V3 := rawN S.corners.c1 S.corners.c3 S.corners.c7 S.corners.c5

section
variable (S)
theorem m0_eq : S.m0 = ⟨0, -4 * S.z * (S.x1 + S.x3), 2 * (S.x1 + S.x3) * (2 * S.cy * S.z - S.y2 + S.y1)⟩ := by
  simp only [Shape.m0, rawN, Shape.corners, Shape.point, Shape.mx, Shape.my, Shape.hx, Shape.hy, mix, V3.cross, V3.sub_x,
    V3.sub_y, V3.sub_z, V3.mk.injEq]
  refine ⟨?_, ?_, ?_⟩ <;> ring
theorem m1_eq : S.m1 = ⟨0, 4 * S.z * (S.x2 + S.x4), -2 * (S.x2 + S.x4) * (2 * S.cy * S.z + S.y2 - S.y1)⟩ := by
  simp only [Shape.m1, rawN, Shape.corners, Shape.point, Shape.mx, Shape.my, Shape.hx, Shape.hy, mix, V3.cross, V3.sub_x,
    V3.sub_y, V3.sub_z, V3.mk.injEq]
  refine ⟨?_, ?_, ?_⟩ <;> ring
theorem m2_x : S.m2.x = -4 * S.z * (S.y1 + S.y2) := by
  simp only [Shape.m2, rawN, Shape.corners, Shape.point, Shape.mx, Shape.my, Shape.hx, Shape.hy, mix, V3.cross, V3.sub_x,
    V3.sub_y, V3.sub_z]
  ring
theorem m3_x : S.m3.x = 4 * S.z * (S.y1 + S.y2) := by
  simp only [Shape.m3, rawN, Shape.corners, Shape.point, Shape.mx, Shape.my, Shape.hx, Shape.hy, mix, V3.cross, V3.sub_x,
    V3.sub_y, V3.sub_z]
  ring
end

theorem mag2_pos_of_x {a : V3} (h : a.x ≠ 0) : 0 < a.mag2 := by
  have : 0 < a.x ^ 2 := by positivity
  simp only [V3.mag2, V3.dot]
  nlinarith [sq_nonneg a.y, sq_nonneg a.z]
theorem mag2_pos_of_y {a : V3} (h : a.y ≠ 0) : 0 < a.mag2 := by
  have : 0 < a.y ^ 2 := by positivity
  simp only [V3.mag2, V3.dot]
  nlinarith [sq_nonneg a.x, sq_nonneg a.z]

theorem m0_pos (hp : Proper S) : 0 < S.m0.mag2 := by
  obtain ⟨h0, h1, h2, h3, h4, h5, h6⟩ := hp
  apply mag2_pos_of_y
  rw [m0_eq]
  have : 0 < S.z * (S.x1 + S.x3) := by positivity
  dsimp only; nlinarith
theorem m1_pos (hp : Proper S) : 0 < S.m1.mag2 := by
  obtain ⟨h0, h1, h2, h3, h4, h5, h6⟩ := hp
  apply mag2_pos_of_y
  rw [m1_eq]
  have : 0 < S.z * (S.x2 + S.x4) := by positivity
  dsimp only; nlinarith
theorem m2_pos (hp : Proper S) : 0 < S.m2.mag2 := by
  obtain ⟨h0, h1, h2, h3, h4, h5, h6⟩ := hp
  apply mag2_pos_of_x
  rw [m2_x]
  have : 0 < S.z * (S.y1 + S.y2) := by positivity
  nlinarith
theorem m3_pos (hp : Proper S) : 0 < S.m3.mag2 := by
  obtain ⟨h0, h1, h2, h3, h4, h5, h6⟩ := hp
  apply mag2_pos_of_x
  rw [m3_x]
  have : 0 < S.z * (S.y1 + S.y2) := by positivity
  nlinarith

theorem p0_height (r s t : ℝ) : S.p0.height (S.point r s t) = -(8 * S.z * (S.x1 + S.x3) * s * S.hy t) / S.m0.mag := by
  unfold Shape.p0
  rw [makeAPlane_height]
  show _ / S.m0.mag = _
  congr 1
  simp only [raw, rawN, Shape.corners, Shape.point, Shape.mx, Shape.my, Shape.hx, Shape.hy, mix, V3.cross, V3.sub_x,
    V3.sub_y, V3.sub_z, V3.dot, V3.smul, V3.add_x, V3.add_y, V3.add_z]
  ring

theorem p1_height (r s t : ℝ) :
    S.p1.height (S.point r s t) = -(8 * S.z * (S.x2 + S.x4) * (1 - s) * S.hy t) / S.m1.mag := by
  unfold Shape.p1
  rw [makeAPlane_height]
  show _ / S.m1.mag = _
  congr 1
  simp only [raw, rawN, Shape.corners, Shape.point, Shape.mx, Shape.my, Shape.hx, Shape.hy, mix, V3.cross, V3.sub_x,
    V3.sub_y, V3.sub_z, V3.dot, V3.smul, V3.add_x, V3.add_y, V3.add_z]
  ring

theorem p2_height (hf : Flat S) (r s t : ℝ) :
    S.p2.height (S.point r s t) = -(8 * S.z * (S.y1 + S.y2) * r * S.hx t s) / S.m2.mag := by
  unfold Shape.p2
  rw [makeAPlane_height]
  show _ / S.m2.mag = _
  congr 1
  simp only [raw, rawN, Shape.corners, Shape.point, Shape.mx, Shape.my, Shape.hx, Shape.hy, mix, V3.cross, V3.sub_x,
    V3.sub_y, V3.sub_z, V3.dot, V3.smul, V3.add_x, V3.add_y, V3.add_z]
  linear_combination 2 * S.z * (1 - 2 * s) * (1 - 2 * t) * hf.1

theorem p3_height (hf : Flat S) (r s t : ℝ) :
    S.p3.height (S.point r s t) = -(8 * S.z * (S.y1 + S.y2) * (1 - r) * S.hx t s) / S.m3.mag := by
  unfold Shape.p3
  rw [makeAPlane_height]
  show _ / S.m3.mag = _
  congr 1
  simp only [raw, rawN, Shape.corners, Shape.point, Shape.mx, Shape.my, Shape.hx, Shape.hy, mix, V3.cross, V3.sub_x,
    V3.sub_y, V3.sub_z, V3.dot, V3.smul, V3.add_x, V3.add_y, V3.add_z]
  linear_combination -2 * S.z * (1 - 2 * s) * (1 - 2 * t) * hf.2

/-- The fractions of a point between the heights of the bases. -/
theorem solve (hp : Proper S) (q : V3) (hz : |q.z| ≤ S.z) :
    ∃ s t, Unit t ∧ q.y = S.my t + (2 * s - 1) * S.hy t ∧ q.z = (2 * t - 1) * S.z ∧
      (Unit s → ∃ r, q = S.point r s t) := by
  have h0 := hp.1
  have hz' := abs_le.mp hz
  have ht : Unit ((q.z + S.z) / (2 * S.z)) :=
    ⟨div_nonneg (by linarith) (by linarith), by rw [div_le_one (by linarith)]; linarith⟩
  have hez : q.z = (2 * ((q.z + S.z) / (2 * S.z)) - 1) * S.z := by field_simp; ring
  generalize (q.z + S.z) / (2 * S.z) = t at *
  have hy := hy_pos hp ht
  have hey : q.y = S.my t + (2 * ((q.y - S.my t) / (2 * S.hy t) + 1 / 2) - 1) * S.hy t := by field_simp; ring
  generalize (q.y - S.my t) / (2 * S.hy t) + 1 / 2 = s at *
  refine ⟨s, t, ht, hey, hez, fun hs => ?_⟩
  have hx := hx_pos hp ht hs
  have hex : q.x = S.mx t s + (2 * ((q.x - S.mx t s) / (2 * S.hx t s) + 1 / 2) - 1) * S.hx t s := by field_simp; ring
  refine ⟨(q.x - S.mx t s) / (2 * S.hx t s) + 1 / 2, ?_⟩
  obtain ⟨x, y, z⟩ := q
  simp only [Shape.point, V3.mk.injEq]
  exact ⟨hex, hey, hez⟩

/-- The height of a point above the first two planes does not depend on `x`. -/
theorem p01_height (r s t : ℝ) {q : V3} (hy : q.y = S.my t + (2 * s - 1) * S.hy t) (hz : q.z = (2 * t - 1) * S.z) :
    S.p0.height q = S.p0.height (S.point r s t) ∧ S.p1.height q = S.p1.height (S.point r s t) := by
  constructor
  · unfold Shape.p0
    rw [makeAPlane_height, makeAPlane_height]
    congr 1
    have e := m0_eq S
    unfold Shape.m0 at e
    unfold raw
    rw [e]
    simp only [V3.dot, V3.sub_x, V3.sub_y, V3.sub_z, Shape.point, hy, hz]
    ring
  · unfold Shape.p1
    rw [makeAPlane_height, makeAPlane_height]
    congr 1
    have e := m1_eq S
    unfold Shape.m1 at e
    unfold raw
    rw [e]
    simp only [V3.dot, V3.sub_x, V3.sub_y, V3.sub_z, Shape.point, hy, hz]
    ring

/-- A quotient `-(k * x * y) / m` with positive `k`, `y`, `m` has the sign of `-x`. -/
theorem neg_quot {k x y m : ℝ} (hk : 0 < k) (hy : 0 < y) (hm : 0 < m) :
    (-(k * x * y) / m ≤ 0 ↔ 0 ≤ x) ∧ (-(k * x * y) / m < 0 ↔ 0 < x) := by
  have hc : 0 < k * y := mul_pos hk hy
  constructor
  · rw [div_le_iff₀ hm]
    constructor
    · intro h; by_contra hx; nlinarith
    · intro h; nlinarith
  · rw [div_lt_iff₀ hm]
    constructor
    · intro h; by_contra hx; nlinarith
    · intro h; nlinarith

/-- The side planes of a shape. -/
noncomputable def Shape.planes (S : Shape) : List Plane := [S.p0, S.p1, S.p2, S.p3]

theorem below_solid (hp : Proper S) (hf : Flat S) (q : V3) : Below (sides S.z S.planes) q ↔ Solid S q := by
  have h0 := hp.1
  have hx13 : 0 < 8 * S.z * (S.x1 + S.x3) := by have := hp.2.2.1; have := hp.2.2.2.2.2.1; positivity
  have hx24 : 0 < 8 * S.z * (S.x2 + S.x4) := by have := hp.2.2.2.1; have := hp.2.2.2.2.2.2; positivity
  have hyy : 0 < 8 * S.z * (S.y1 + S.y2) := by have := hp.2.1; have := hp.2.2.2.2.1; positivity
  have n0 := mag_pos (m0_pos hp)
  have n1 := mag_pos (m1_pos hp)
  have n2 := mag_pos (m2_pos hp)
  have n3 := mag_pos (m3_pos hp)
  rw [below_iff]
  simp only [Shape.planes, List.mem_cons, forall_eq_or_imp, List.not_mem_nil, false_imp_iff, implies_true, and_true]
  constructor
  · rintro ⟨hz, k0, k1, k2, k3⟩
    obtain ⟨s, t, ht, hy, hz', hr⟩ := solve hp q hz
    have e := p01_height (S := S) 0 s t hy hz'
    rw [e.1, p0_height, (neg_quot hx13 (hy_pos hp ht) n0).1] at k0
    rw [e.2, p1_height, (neg_quot hx24 (hy_pos hp ht) n1).1] at k1
    have hs : Unit s := ⟨k0, by linarith⟩
    obtain ⟨r, rfl⟩ := hr hs
    rw [p2_height hf, (neg_quot hyy (hx_pos hp ht hs) n2).1] at k2
    rw [p3_height hf, (neg_quot hyy (hx_pos hp ht hs) n3).1] at k3
    exact ⟨r, s, t, ⟨k2, by linarith⟩, hs, ht, rfl⟩
  · rintro ⟨r, s, t, hr, hs, ht, rfl⟩
    refine ⟨?_, ?_, ?_, ?_, ?_⟩
    · show |(2 * t - 1) * S.z| ≤ S.z
      rw [abs_mul, abs_of_pos h0]
      have : |2 * t - 1| ≤ 1 := by rw [abs_le]; constructor <;> linarith [ht.1, ht.2]
      nlinarith
    · rw [p0_height, (neg_quot hx13 (hy_pos hp ht) n0).1]; exact hs.1
    · rw [p1_height, (neg_quot hx24 (hy_pos hp ht) n1).1]; linarith [hs.2]
    · rw [p2_height hf, (neg_quot hyy (hx_pos hp ht hs) n2).1]; exact hr.1
    · rw [p3_height hf, (neg_quot hyy (hx_pos hp ht hs) n3).1]; linarith [hr.2]

theorem below_interior (hp : Proper S) (hf : Flat S) (q : V3) :
    (∀ pl ∈ sides S.z S.planes, pl.height q < 0) ↔ Interior S q := by
  have h0 := hp.1
  have hx13 : 0 < 8 * S.z * (S.x1 + S.x3) := by have := hp.2.2.1; have := hp.2.2.2.2.2.1; positivity
  have hx24 : 0 < 8 * S.z * (S.x2 + S.x4) := by have := hp.2.2.2.1; have := hp.2.2.2.2.2.2; positivity
  have hyy : 0 < 8 * S.z * (S.y1 + S.y2) := by have := hp.2.1; have := hp.2.2.2.2.1; positivity
  have n0 := mag_pos (m0_pos hp)
  have n1 := mag_pos (m1_pos hp)
  have n2 := mag_pos (m2_pos hp)
  have n3 := mag_pos (m3_pos hp)
  rw [sides_all, height_up, height_dn]
  simp only [Shape.planes, List.mem_cons, forall_eq_or_imp, List.not_mem_nil, false_imp_iff, implies_true, and_true]
  constructor
  · rintro ⟨hz1, hz2, k0, k1, k2, k3⟩
    obtain ⟨s, t, ht, hy, hz', hr⟩ := solve hp q (by rw [abs_le]; constructor <;> linarith)
    have e := p01_height (S := S) 0 s t hy hz'
    rw [e.1, p0_height, (neg_quot hx13 (hy_pos hp ht) n0).2] at k0
    rw [e.2, p1_height, (neg_quot hx24 (hy_pos hp ht) n1).2] at k1
    have hs : Unit s := ⟨k0.le, by linarith⟩
    obtain ⟨r, rfl⟩ := hr hs
    rw [p2_height hf, (neg_quot hyy (hx_pos hp ht hs) n2).2] at k2
    rw [p3_height hf, (neg_quot hyy (hx_pos hp ht hs) n3).2] at k3
    refine ⟨r, s, t, ⟨k2, by linarith⟩, ⟨k0, by linarith⟩, ⟨?_, ?_⟩, rfl⟩
    · rw [hz'] at hz2; by_contra hlt; nlinarith [ht.1]
    · rw [hz'] at hz1; by_contra hlt; nlinarith [ht.2]
  · rintro ⟨r, s, t, hr, hs, ht, rfl⟩
    have ht' : Unit t := ⟨ht.1.le, ht.2.le⟩
    have hs' : Unit s := ⟨hs.1.le, hs.2.le⟩
    refine ⟨?_, ?_, ?_, ?_, ?_, ?_⟩
    · show (2 * t - 1) * S.z - S.z < 0
      nlinarith [ht.2]
    · show -((2 * t - 1) * S.z) - S.z < 0
      nlinarith [ht.1]
    · rw [p0_height, (neg_quot hx13 (hy_pos hp ht') n0).2]; exact hs.1
    · rw [p1_height, (neg_quot hx24 (hy_pos hp ht') n1).2]; linarith [hs.2]
    · rw [p2_height hf, (neg_quot hyy (hx_pos hp ht' hs') n2).2]; exact hr.1
    · rw [p3_height hf, (neg_quot hyy (hx_pos hp ht' hs') n3).2]; linarith [hr.2]

end Trapezoid
end VecGeom
