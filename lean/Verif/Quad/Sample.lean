import Verif.Quad.Rest

/-!
# Quadrilaterals: areas and points on faces; planes that are set and flipped
-/

namespace VecGeom
namespace Quad

open Real

variable {n : V3} {c : Fin 4 → V3}

/-! ## Area -/

/-- Twice the vector area of the quadrilateral: the sum of the cross products of successive corners. -/
def vectorArea (c : Fin 4 → V3) : V3 := (c 0).cross (c 1) + (c 1).cross (c 2) + ((c 2).cross (c 3) + (c 3).cross (c 0))

theorem triangle_area (hn : n.dot n = 1) {u v : V3} (hu : n.dot u = 0) (hv : n.dot v = 0) (hp : 0 ≤ area n u v) : (u.cross v).mag = area n u v := by
  rw [cross_perp hn hu hv, mag_smul hp]
  unfold V3.mag V3.mag2
  rw [hn, sqrt_one, mul_one]

/-- C198: the area of a flat convex quadrilateral is half of its vector area (the formula of Gauss). -/
theorem C198_area (hc : Convex n c) : quadArea c = (1 / 2) * n.dot (vectorArea c) := by
  have h1 := hc.flat 1
  have h2 := hc.flat 2
  have h3 := hc.flat 3
  have t1 : 0 < area n (c 1 - c 0) (c 2 - c 0) := (hc.turn 0).1
  have t2 : 0 < area n (c 2 - c 0) (c 3 - c 0) := by
    have := (hc.turn 2).1
    simp only [fin_add] at this
    have e : area n (c 2 - c 0) (c 3 - c 0) = area n (c 3 - c 2) (c 0 - c 2) := by
      simp only [area, V3.cross, V3.dot, V3.sub_x, V3.sub_y, V3.sub_z]; ring
    rw [e]; exact this
  unfold quadArea triangleArea
  rw [triangle_area hc.unit h1 h2 t1.le, triangle_area hc.unit h2 h3 t2.le]
  simp only [vectorArea, area, V3.cross, V3.dot, V3.sub_x, V3.sub_y, V3.sub_z, V3.add_x, V3.add_y, V3.add_z]
  ring

/-- C198: the area does not depend on the corner that is taken first. -/
theorem C198_area_turn (hc : Convex n c) : quadArea (fun i => c (i + 1)) = quadArea c := by
  have hc' : Convex n (fun i => c (i + 1)) := by
    refine ⟨hc.unit, fun i => hc.flat' (hc.flat (i + 1)) (0 + 1), fun j => ?_⟩
    have := hc.turn (j + 1)
    rw [show j + 1 + 2 = j + 2 + 1 by omega, show j + 1 + 3 = j + 3 + 1 by omega] at this
    exact this
  rw [C198_area hc', C198_area hc]
  congr 2
  ext <;> simp only [vectorArea, V3.add_x, V3.add_y, V3.add_z, V3.cross, fin_add, show (0 : Fin 4) + 1 = 1 from rfl] <;> ring

/-- C198 needs convex quadrilaterals: at a corner that points inwards the area of one triangle would have to be subtracted. -/
theorem C198_area_counterexample : ∃ c : Fin 4 → V3, (∀ i, (c i).z = 0) ∧ quadArea c = 5 / 2 ∧ quadArea (fun i => c (i + 1)) = 17 / 2 := by
  have m : ∀ z : ℝ, (V3.mk 0 0 z).mag = |z| := by
    intro z
    unfold V3.mag
    rw [show (V3.mk 0 0 z).mag2 = z ^ 2 by simp only [V3.mag2, V3.dot]; ring, sqrt_sq_eq_abs]
  have cr : ∀ x y u v : ℝ, (V3.mk x y 0).cross (V3.mk u v 0) = ⟨0, 0, x * v - y * u⟩ := by
    intro x y u v; ext <;> simp [V3.cross]
  have sb : ∀ x y u v : ℝ, (V3.mk x y 0) - (V3.mk u v 0) = ⟨x - u, y - v, 0⟩ := by
    intro x y u v; ext <;> simp
  refine ⟨![⟨0, 0, 0⟩, ⟨1, 3, 0⟩, ⟨1, 1, 0⟩, ⟨4, 1, 0⟩], ?_, ?_, ?_⟩
  · intro i; rcases four i with rfl | rfl | rfl | rfl <;> rfl
  · show 0.5 * ((V3.mk 1 3 0 - V3.mk 0 0 0).cross (V3.mk 1 1 0 - V3.mk 0 0 0)).mag + 0.5 * ((V3.mk 1 1 0 - V3.mk 0 0 0).cross (V3.mk 4 1 0 - V3.mk 0 0 0)).mag = _
    rw [sb, sb, sb, cr, cr, m, m]
    norm_num
  · show 0.5 * ((V3.mk 1 1 0 - V3.mk 1 3 0).cross (V3.mk 4 1 0 - V3.mk 1 3 0)).mag + 0.5 * ((V3.mk 4 1 0 - V3.mk 1 3 0).cross (V3.mk 0 0 0 - V3.mk 1 3 0)).mag = _
    rw [sb, sb, sb, cr, cr, m, m]
    norm_num

/-! ## Points on faces -/

theorem point_eq (c : Fin 4 → V3) (i0 i1 i2 : Fin 4) {r1 r2 : ℝ} (h1 : 0 ≤ r1 ∧ r1 ≤ 1) (h2 : 0 ≤ r2 ∧ r2 ≤ 1) :
    ∃ u v w : ℝ, 0 ≤ u ∧ 0 ≤ v ∧ 0 ≤ w ∧ u + v + w = 1 ∧ pointOnTriangle c i0 i1 i2 r1 r2 = V3.smul u (c i0) + V3.smul v (c i1) + V3.smul w (c i2) := by
  unfold pointOnTriangle
  by_cases h : r1 + r2 > 1
  · refine ⟨r1 + r2 - 1, 1 - r1, 1 - r2, by linarith, by linarith, by linarith, by ring, ?_⟩
    simp only [if_pos h]
    ext <;> simp <;> ring
  · refine ⟨1 - r1 - r2, r1, r2, by linarith, by linarith, by linarith, by ring, ?_⟩
    simp only [if_neg h]
    ext <;> simp <;> ring

theorem mean_inQuad (c : Fin 4 → V3) (i0 i1 i2 : Fin 4) {u v w : ℝ} (hu : 0 ≤ u) (hv : 0 ≤ v) (hw : 0 ≤ w) (hs : u + v + w = 1) :
    InQuad c (V3.smul u (c i0) + V3.smul v (c i1) + V3.smul w (c i2)) := by
  refine ⟨fun i => (if i = i0 then u else 0) + (if i = i1 then v else 0) + (if i = i2 then w else 0), ?_, ?_, ?_⟩
  · intro i
    dsimp only
    split <;> split <;> split <;> linarith
  · rcases four i0 with rfl | rfl | rfl | rfl <;> rcases four i1 with rfl | rfl | rfl | rfl <;> rcases four i2 with rfl | rfl | rfl | rfl <;> simp <;> linarith
  · rcases four i0 with rfl | rfl | rfl | rfl <;> rcases four i1 with rfl | rfl | rfl | rfl <;> rcases four i2 with rfl | rfl | rfl | rfl <;> ext <;> simp <;> ring

theorem corner_inQuad (c : Fin 4 → V3) (i : Fin 4) : InQuad c (c i) := by
  have := mean_inQuad c i i i (u := 1) (v := 0) (w := 0) (by norm_num) (by norm_num) (by norm_num) (by norm_num)
  convert this using 1
  ext <;> simp

/-- C198: every point of `GetPointOnFace` is in the quadrilateral, degenerate or not. -/
theorem C198_on_face (c : Fin 4 → V3) {choice r1 r2 : ℝ} (h1 : 0 ≤ r1 ∧ r1 ≤ 1) (h2 : 0 ≤ r2 ∧ r2 ≤ 1) : InQuad c (pointOnFace c choice r1 r2) := by
  have key : ∀ i j k, InQuad c (pointOnTriangle c i j k r1 r2) := by
    intro i j k
    obtain ⟨u, v, w, hu, hv, hw, hs, e⟩ := point_eq c i j k h1 h2
    rw [e]
    exact mean_inQuad c i j k hu hv hw hs
  unfold pointOnFace
  split
  · exact corner_inQuad c 0
  · exact key _ _ _
  · exact key _ _ _
  · split <;> exact key _ _ _

theorem kept_all (h : ∀ j, kTolerance < (c (j + 1) - c j).mag2) : kept c = [0, 1, 2, 3] := by
  unfold kept
  rw [List.filter_eq_self]
  intro a _
  exact decide_eq_true (h a)

theorem point_reached (c : Fin 4 → V3) (i0 i1 i2 : Fin 4) {u v w : ℝ} (hu : 0 ≤ u) (hs : u + v + w = 1) :
    pointOnTriangle c i0 i1 i2 v w = V3.smul u (c i0) + V3.smul v (c i1) + V3.smul w (c i2) := by
  unfold pointOnTriangle
  simp only [if_neg (show ¬ v + w > 1 by linarith)]
  rw [show u = 1 - v - w by linarith]
  ext <;> simp <;> ring

/-- C198: every point of a flat convex quadrilateral with sides longer than the threshold is a point of `GetPointOnFace` for some numbers from 0 to 1. -/
theorem C198_all_points (hc : Convex n c) (h : ∀ j, kTolerance < (c (j + 1) - c j).mag2) {x : V3} (hx : InQuad c x) :
    ∃ choice r1 r2, (0 ≤ choice ∧ choice ≤ 1) ∧ (0 ≤ r1 ∧ r1 ≤ 1) ∧ (0 ≤ r2 ∧ r2 ≤ 1) ∧ pointOnFace c choice r1 r2 = x := by
  have hp := hc.in_plane hx
  have hi := hc.in_side hx
  have f0 : 0 ≤ area n (c 1 - c 0) (x - c 0) := hi 0
  have f1 : 0 ≤ area n (c 2 - c 1) (x - c 1) := hi 1
  have f2 : 0 ≤ area n (c 3 - c 2) (x - c 2) := hi 2
  have f3 : 0 ≤ area n (c 0 - c 3) (x - c 3) := hi 3
  unfold pointOnFace
  rw [kept_all h]
  rcases le_total (area n (c 2 - c 0) (x - c 0)) 0 with hg | hg
  · obtain ⟨u, v, w, hu, hv, hw, hs, e⟩ := triangle hc.unit (hc.flat 1) (hc.flat 2) hp (hc.turn 0).1 f0 f1 hg
    refine ⟨0, v, w, by norm_num, ⟨hv, by linarith⟩, ⟨hw, by linarith⟩, ?_⟩
    simp only
    rw [if_pos (by norm_num), point_reached c 0 1 2 hu hs, e]
  · have t2 : 0 < area n (c 3 - c 2) (c 0 - c 2) := (hc.turn 2).1
    obtain ⟨u, v, w, hu, hv, hw, hs, e⟩ := triangle (a := c 2) (b := c 3) (d := c 0) hc.unit (hc.flat' (hc.flat 3) 2) (hc.flat' (hc.flat 0) 2) (hc.flat' hp 2) t2 f2 f3 (by
      have e : area n (c 0 - c 2) (x - c 2) = -area n (c 2 - c 0) (x - c 0) := by
        simp only [area, V3.cross, V3.dot, V3.sub_x, V3.sub_y, V3.sub_z]; ring
      rw [e]; linarith)
    refine ⟨1, u, v, by norm_num, ⟨hu, by linarith⟩, ⟨hv, by linarith⟩, ?_⟩
    simp only
    rw [if_neg (by norm_num), point_reached c 0 2 3 hw (by linarith), e]
    ext <;> simp <;> ring

/-- C198: the two triangles of the diagonal are chosen with equal chances, also where one has three times the area of the other: the points are not
uniform. -/
theorem C198_uniform_counterexample : ∃ c : Fin 4 → V3, Convex ⟨0, 0, 1⟩ c ∧ (∀ j, kTolerance < (c (j + 1) - c j).mag2) ∧
    triangleArea c 1 2 = 3 * triangleArea c 2 3 ∧
    ∀ choice r1 r2, (0 ≤ r1 ∧ r1 ≤ 1) → (0 ≤ r2 ∧ r2 ≤ 1) → ∃ u v w, 0 ≤ u ∧ 0 ≤ v ∧ 0 ≤ w ∧ u + v + w = 1 ∧
      pointOnFace c choice r1 r2 = if choice < 0.5 then V3.smul u (c 0) + V3.smul v (c 1) + V3.smul w (c 2)
        else V3.smul u (c 0) + V3.smul v (c 2) + V3.smul w (c 3) := by
  let c : Fin 4 → V3 := ![⟨0, 0, 0⟩, ⟨3, 0, 0⟩, ⟨1, 1, 0⟩, ⟨0, 1, 0⟩]
  have c0 : c 0 = ⟨0, 0, 0⟩ := rfl
  have c1 : c 1 = ⟨3, 0, 0⟩ := rfl
  have c2 : c 2 = ⟨1, 1, 0⟩ := rfl
  have c3 : c 3 = ⟨0, 1, 0⟩ := rfl
  have hc : Convex ⟨0, 0, 1⟩ c := by
    refine ⟨by norm_num [V3.dot], ?_, ?_⟩
    · intro i; rcases four i with rfl | rfl | rfl | rfl <;> norm_num [V3.dot, c0, c1, c2, c3, fin_add]
    · intro j; rcases four j with rfl | rfl | rfl | rfl <;> norm_num [V3.dot, c0, c1, c2, c3, fin_add, area, V3.cross]
  have hl : ∀ j, kTolerance < (c (j + 1) - c j).mag2 := by
    intro j; rcases four j with rfl | rfl | rfl | rfl <;> norm_num [V3.mag2, V3.dot, c0, c1, c2, c3, fin_add, kTolerance]
  refine ⟨c, hc, hl, ?_, ?_⟩
  · unfold triangleArea
    rw [triangle_area hc.unit (hc.flat 1) (hc.flat 2) (hc.turn 0).1.le, triangle_area hc.unit (hc.flat 2) (hc.flat 3)]
    all_goals norm_num [area, V3.cross, V3.dot, c0, c1, c2, c3]
  · intro choice r1 r2 h1 h2
    unfold pointOnFace
    rw [kept_all hl]
    simp only
    split
    · exact point_eq c 0 1 2 h1 h2
    · exact point_eq c 0 2 3 h1 h2

/-- The square of the other examples meets the hypotheses. -/
example : ∃ choice r1 r2, (0 ≤ choice ∧ choice ≤ 1) ∧ (0 ≤ r1 ∧ r1 ≤ 1) ∧ (0 ≤ r2 ∧ r2 ≤ 1) ∧ pointOnFace square choice r1 r2 = square 3 :=
  C198_all_points square_convex (by
    intro j
    rcases four j with rfl | rfl | rfl | rfl <;> norm_num [V3.mag2, V3.dot, square_at, fin_add, kTolerance]) (corner_inQuad square 3)

example : quadArea square = 4 := by
  rw [C198_area square_convex]
  norm_num [vectorArea, V3.dot, V3.cross, square_at]

/-! ## Planes that are set and flipped -/

/-- C193: `Set` stores a plane with a normal of length one through the point, and leaves the other planes; it fails for an index out of range or a
normal with no component above the tolerance only. -/
theorem C193_set (s : Planes) (i : ℕ) (normal x0 : V3) (hi : i < s.planes.length) (hn : kTolerance ≤ |normal.x| ∨ kTolerance ≤ |normal.y| ∨ kTolerance ≤ |normal.z|) :
    ∃ s' pl, s.set i normal x0 = some s' ∧ s'.convex = s.convex ∧ s'.planes[i]? = some pl ∧ (∀ j, j ≠ i → s'.planes[j]? = s.planes[j]?) ∧
      pl.n.mag2 = 1 ∧ pl.n.dot x0 + pl.d = 0 ∧ (Clean normal → ∃ k, 0 < k ∧ pl.n = V3.smul k normal) := by
  have htol := kTolerance_pos
  have hpos : 0 < (fixZeroes normal).mag2 := by
    have sq : ∀ x : ℝ, kTolerance ≤ |x| → 0 < x * x := by
      intro x hx
      rw [← abs_mul_abs_self x]
      have : 0 < |x| := by linarith
      positivity
    have h0 : ∀ x : ℝ, 0 ≤ x * x := mul_self_nonneg
    unfold V3.mag2 V3.dot
    rcases hn with h | h | h
    · have : (fixZeroes normal).x = normal.x := by simp [fixZeroes, not_lt.2 h]
      rw [this]
      linarith [sq _ h, h0 (fixZeroes normal).y, h0 (fixZeroes normal).z]
    · have : (fixZeroes normal).y = normal.y := by simp [fixZeroes, not_lt.2 h]
      rw [this]
      linarith [sq _ h, h0 (fixZeroes normal).x, h0 (fixZeroes normal).z]
    · have : (fixZeroes normal).z = normal.z := by simp [fixZeroes, not_lt.2 h]
      rw [this]
      linarith [sq _ h, h0 (fixZeroes normal).x, h0 (fixZeroes normal).y]
  have hm := mag_pos hpos
  have hsq : (fixZeroes normal).mag * (fixZeroes normal).mag = (fixZeroes normal).mag2 := mul_self_sqrt hpos.le
  let pl : Plane := ⟨V3.smul (1 / (fixZeroes normal).mag) (fixZeroes normal), 1 / (fixZeroes normal).mag * -((fixZeroes normal).dot x0)⟩
  have e : planeOf normal x0 = some pl := by
    unfold planeOf
    simp only
    rw [if_neg hm.ne']
  refine ⟨{ s with planes := s.planes.set i pl }, pl, ?_, rfl, ?_, ?_, ?_, ?_, ?_⟩
  · unfold Planes.set
    rw [if_pos hi, e]
    rfl
  · simp [hi]
  · intro j hj
    simp [List.getElem?_set, Ne.symm hj]
  · simp only [pl, V3.mag2, V3.dot, V3.smul_x, V3.smul_y, V3.smul_z] at hsq ⊢
    field_simp
    rw [sq]
    linarith
  · simp only [pl, V3.dot, V3.smul_x, V3.smul_y, V3.smul_z]
    ring
  · intro hcl
    refine ⟨1 / (fixZeroes normal).mag, by positivity, ?_⟩
    simp only [pl, hcl.fix]

/-- C193: `FlipSign` turns the set below a plane into the set above it, and twice gives the plane back. -/
theorem C193_flip (pl : Plane) : (∀ x, (flipPlane pl).height x = -(pl.height x)) ∧ flipPlane (flipPlane pl) = pl := by
  refine ⟨fun x => ?_, ?_⟩
  · simp only [flipPlane, Plane.height, V3.dot, V3.neg_x, V3.neg_y, V3.neg_z]; ring
  · obtain ⟨⟨a, b, e⟩, d⟩ := pl
    simp [flipPlane, V3.neg]

/-- C196: `FlipSign` of a quadrilateral changes neither the test of hits nor the distance to it. -/
theorem C196_flip (q : Quad) (p : V3) : (q.flip.Hit p ↔ q.Hit p) ∧ q.flip.distanceSq p = q.distanceSq p := by
  refine ⟨Iff.rfl, ?_⟩
  have h : q.flip.plane.height p = -(q.plane.height p) := (C193_flip q.plane).1 p
  have e : p - V3.smul (q.flip.plane.height p) q.flip.plane.n = p - V3.smul (q.plane.height p) q.plane.n := by
    rw [h]
    ext <;> simp [Quad.flip, flipPlane]
  unfold Quad.distanceSq
  simp only [e]
  rw [h, neg_mul_neg]
  rfl

example : ∃ s' pl, (Planes.mk [⟨⟨1, 0, 0⟩, 0⟩] true).set 0 ⟨0, 3, 4⟩ ⟨0, 5, 0⟩ = some s' ∧ s'.planes[0]? = some pl ∧ pl.n.dot ⟨0, 5, 0⟩ + pl.d = 0 := by
  obtain ⟨s', pl, h1, -, h2, -, -, h3, -⟩ := C193_set (Planes.mk [⟨⟨1, 0, 0⟩, 0⟩] true) 0 ⟨0, 3, 4⟩ ⟨0, 5, 0⟩ (by simp) (by norm_num [kTolerance])
  exact ⟨s', pl, h1, h2, h3⟩

end Quad
end VecGeom
