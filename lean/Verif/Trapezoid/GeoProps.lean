import Verif.Trapezoid.Geo
import Verif.BoxSolid.Spec
import Verif.Trd.Spec
import Verif.Para.Spec

/-!
# C130, C131: the parameters, the corners and the planes describe the same solid
-/

namespace VecGeom
namespace Trapezoid

/-- The planes and areas of the state are those of its parameters. -/
def Fresh (s : State) : Prop := makePlanes s = s

theorem makePlanes_fresh (s : State) : Fresh (makePlanes s) := rfl

/-- C130: after every constructor with parameters and after `SetTheta` and `SetPhi`, the planes belong to the parameters. -/
theorem C130_fresh (m : State) (dz theta phi dy1 dx1 dx2 alpha1 dy2 dx3 dx4 alpha2 v : ℝ) :
    Fresh (create m dz theta phi dy1 dx1 dx2 alpha1 dy2 dx3 dx4 alpha2) ∧ Fresh (createTrd1 m dx1 dx2 dy1 dz) ∧
    Fresh (createTrd2 m dx1 dx2 dy1 dy2 dz) ∧ Fresh (createPara m dx1 dy1 dz alpha1 theta phi) ∧
    Fresh (createBox m dx1 dy1 dz) ∧ Fresh (setTheta m v) ∧ Fresh (setPhi m v) :=
  ⟨rfl, rfl, rfl, rfl, rfl, rfl, rfl⟩

/-- The shape that the arguments of the full constructor describe. -/
noncomputable def shapeOf (dz theta phi dy1 dx1 dx2 alpha1 dy2 dx3 dx4 alpha2 : ℝ) : Shape :=
  ⟨dz, Real.tan theta * Real.cos phi, Real.tan theta * Real.sin phi, dy1, dx1, dx2, Real.tan alpha1, dy2, dx3, dx4,
    Real.tan alpha2⟩

/-- C130: the parameters stored by the constructors and changed by `SetTheta` and `SetPhi`. -/
theorem C130_shape (m : State) (dz theta phi dy1 dx1 dx2 alpha1 dy2 dx3 dx4 alpha2 v : ℝ) :
    shape (create m dz theta phi dy1 dx1 dx2 alpha1 dy2 dx3 dx4 alpha2) =
      shapeOf dz theta phi dy1 dx1 dx2 alpha1 dy2 dx3 dx4 alpha2 ∧
    shape (createTrd1 m dx1 dx2 dy1 dz) = ⟨dz, 0, 0, dy1, dx1, dx1, 0, dy1, dx2, dx2, 0⟩ ∧
    shape (createTrd2 m dx1 dx2 dy1 dy2 dz) = ⟨dz, 0, 0, dy1, dx1, dx1, 0, dy2, dx2, dx2, 0⟩ ∧
    shape (createPara m dx1 dy1 dz alpha1 theta phi) =
      shapeOf dz theta phi dy1 dx1 dx1 alpha1 dy1 dx1 dx1 alpha1 ∧
    shape (createBox m dx1 dy1 dz) = ⟨dz, 0, 0, dy1, dx1, dx1, 0, dy1, dx1, dx1, 0⟩ ∧
    (setTheta m v).theta = v ∧ (setTheta m v).phi = m.phi ∧
    shape (setTheta m v) = { shape m with cx := Real.tan v * Real.cos m.phi, cy := Real.tan v * Real.sin m.phi } ∧
    (setPhi m v).phi = v ∧ (setPhi m v).theta = m.theta ∧
    shape (setPhi m v) = { shape m with cx := Real.tan m.theta * Real.cos v, cy := Real.tan m.theta * Real.sin v } := by
  refine ⟨rfl, ?_, ?_, rfl, ?_, rfl, rfl, rfl, rfl, rfl, rfl⟩ <;>
  · simp [shape, createTrd1, createTrd2, createBox, create, makePlanes, makePlanesFrom, initStruct, calculateCached]

theorem fresh_planes {s : State} (h : Fresh s) : s.planes = (shape s).planes := by
  have e : (makePlanes s).planes = s.planes := by rw [h]
  rw [← e]
  unfold makePlanes
  rw [corners_eq]
  rfl

variable {s : State}

/-- C130: the normals of the side planes have length one. -/
theorem C130_unit (h : Fresh s) (hp : Proper (shape s)) : UnitNormals s := by
  unfold UnitNormals
  rw [fresh_planes h]
  simp only [Shape.planes, List.mem_cons, forall_eq_or_imp, List.not_mem_nil, false_imp_iff, implies_true, and_true]
  exact ⟨makeAPlane_unit (m0_pos hp), makeAPlane_unit (m1_pos hp), makeAPlane_unit (m2_pos hp), makeAPlane_unit (m3_pos hp)⟩

/-- C130: for parameters with flat faces, the points below the six planes are those of the trapezoid. -/
theorem C130_solid (h : Fresh s) (hp : Proper (shape s)) (hf : Flat (shape s)) (q : V3) :
    (Below (sides s.dz s.planes) q ↔ Solid (shape s) q) ∧
    ((∀ pl ∈ sides s.dz s.planes, pl.height q < 0) ↔ Interior (shape s) q) := by
  rw [fresh_planes h]
  exact ⟨below_solid hp hf q, below_interior hp hf q⟩

/-- C130: `Contains` is true exactly for the points of the trapezoid. -/
theorem C130_contains (h : Fresh s) (hp : Proper (shape s)) (hf : Flat (shape s)) (q : V3) :
    contains s q = true ↔ Solid (shape s) q := by
  rw [C127_contains]
  exact (C130_solid h hp hf q).1

/-- C130: a point for which `Inside` answers "inside" is in the open trapezoid, one for which it answers "outside" is not in
the closed one. -/
theorem C130_inside (h : Fresh s) (hp : Proper (shape s)) (hf : Flat (shape s)) (q : V3) :
    (inside s q = .inside → Interior (shape s) q) ∧ (inside s q = .outside → ¬ Solid (shape s) q) := by
  have ht := kHalfTolerance_pos
  have k := C127_inside s (le_of_lt (show 0 < s.dz from hp.1)) q
  have e := C130_solid h hp hf q
  constructor
  · intro hi
    exact e.2.mp fun pl hpl => by linarith [k.2.mp hi pl hpl]
  · intro ho hs
    obtain ⟨pl, hpl, hb⟩ := k.1.mp ho
    linarith [e.1.mpr hs pl hpl]

/-- C130: the safeties bound the distances to the points of the trapezoid and to the points outside it. -/
theorem C130_safety (h : Fresh s) (hp : Proper (shape s)) (hf : Flat (shape s)) (p q : V3) :
    (Solid (shape s) q → safetyToIn s p ≤ V3.dist p q) ∧ (¬ Solid (shape s) q → safetyToOut s p ≤ V3.dist p q) := by
  have e := (C130_solid h hp hf q).1
  exact ⟨fun hq => C128_safety_in (C130_unit h hp) (e.mpr hq),
    fun hq => C128_safety_out (C130_unit h hp) fun hb => hq (e.mp hb)⟩

/-- C130: from a point of the trapezoid, the ray stays in it up to `DistanceToOut`; and from anywhere, `DistanceToIn` is not
larger than any parameter at which the ray is in it, unless the answer is "never" or the ray runs along a side. -/
theorem C130_distance (h : Fresh s) (hp : Proper (shape s)) (hf : Flat (shape s)) (p d : V3) :
    (Solid (shape s) p → 0 ≤ distanceToOut s p d ∧
      ∀ u, 0 ≤ u → u ≤ distanceToOut s p d → Solid (shape s) (V3.at' p d u)) ∧
    (distanceToIn s p d ≠ kInfLength →
      (∀ pl ∈ s.planes, pl.n.dot d = 0 → -kHalfTolerance < pl.height p → 0 ≤ pl.height p) →
      ∀ u, 0 ≤ u → Solid (shape s) (V3.at' p d u) → distanceToIn s p d ≤ u) := by
  constructor
  · intro hs
    have k := C129_exit p d ((C130_solid h hp hf p).1.mpr hs)
    exact ⟨k.1, fun u h0 hu => (C130_solid h hp hf _).1.mp (k.2 u h0 hu)⟩
  · intro ht hg u hu hs
    exact C129_entry p d ht hg hu ((C130_solid h hp hf _).1.mpr hs)

/-! ## Corners -/

/-- Eight corners of a trapezoid around the origin: two levels, edges along `x`, and the centre of the axis at the origin. -/
structure Regular (pt : Corners) : Prop where
  z0 : pt.c0.z = -pt.c7.z
  z1 : pt.c1.z = -pt.c7.z
  z2 : pt.c2.z = -pt.c7.z
  z3 : pt.c3.z = -pt.c7.z
  z4 : pt.c4.z = pt.c7.z
  z5 : pt.c5.z = pt.c7.z
  z6 : pt.c6.z = pt.c7.z
  y01 : pt.c1.y = pt.c0.y
  y23 : pt.c3.y = pt.c2.y
  y45 : pt.c5.y = pt.c4.y
  y67 : pt.c7.y = pt.c6.y
  sy : pt.c0.y + pt.c2.y + pt.c4.y + pt.c6.y = 0
  sx : pt.c0.x + pt.c1.x + pt.c2.x + pt.c3.x + pt.c4.x + pt.c5.x + pt.c6.x + pt.c7.x = 0
  pz : 0 < pt.c7.z
  py1 : pt.c0.y < pt.c2.y
  py2 : pt.c4.y < pt.c6.y

/-- C130: parameters are recovered from their corners. -/
theorem C130_parameters (m s : State) (h0 : s.dz ≠ 0) (h1 : s.dy1 ≠ 0) (h2 : s.dy2 ≠ 0) :
    shape (parametersOf m (fromParametersToCorners s)) = shape s := by
  have e1 : (0.50 : ℝ) = 1 / 2 := by norm_num
  have e2 : (0.25 : ℝ) = 1 / 4 := by norm_num
  have e3 : (1.0 : ℝ) = 1 := by norm_num
  simp only [shape, parametersOf, fromParametersToCorners, Shape.mk.injEq, e1, e2, e3, true_and]
  have f1 : 1 / 2 * (-(s.tts * s.dz) + s.dy1 - (-(s.tts * s.dz) - s.dy1)) = s.dy1 := by ring
  have f2 : 1 / 2 * (s.tts * s.dz + s.dy2 - (s.tts * s.dz - s.dy2)) = s.dy2 := by ring
  rw [f1, f2]
  refine ⟨?_, ?_, rfl, ?_, ?_, ?_, rfl, ?_, ?_, ?_⟩ <;> field_simp <;> ring

/-- C130: the corners of the parameters found from regular corners are those corners; the planes and areas made from the
corners belong to the parameters. -/
theorem C130_corners (m : State) {pt : Corners} (h : Regular pt) :
    fromParametersToCorners (parametersOf m pt) = pt ∧ Fresh (createCorners m pt) := by
  have k : fromParametersToCorners (parametersOf m pt) = pt := by
    obtain ⟨⟨x0, y0, z0⟩, ⟨x1, y1, z1⟩, ⟨x2, y2, z2⟩, ⟨x3, y3, z3⟩, ⟨x4, y4, z4⟩, ⟨x5, y5, z5⟩, ⟨x6, y6, z6⟩, ⟨x7, y7, z7⟩⟩ := pt
    obtain ⟨a0, a1, a2, a3, a4, a5, a6, b0, b1, b2, b3, sy, sx, pz, p1, p2⟩ := h
    dsimp only at *
    subst a0 a1 a2 a3 a4 a5 a6 b0 b1 b2 b3
    have e1 : (0.50 : ℝ) = 1 / 2 := by norm_num
    have e2 : (0.25 : ℝ) = 1 / 4 := by norm_num
    have e3 : (1.0 : ℝ) = 1 := by norm_num
    have d1 : (1 / 2 * (y3 - y1) : ℝ) ≠ 0 := by norm_num; intro e; linarith
    have d2 : (1 / 2 * (y7 - y5) : ℝ) ≠ 0 := by norm_num; intro e; linarith
    have d3 : z6 ≠ 0 := pz.ne'
    simp only [fromParametersToCorners, parametersOf, Corners.mk.injEq, V3.mk.injEq, and_true, e1, e2, e3]
    have g1 : ∀ w : ℝ, w / (1 / 2 * (y3 - y1)) * (1 / 2 * (y3 - y1)) = w := fun w => div_mul_cancel₀ w d1
    have g2 : ∀ w : ℝ, w / (1 / 2 * (y7 - y5)) * (1 / 2 * (y7 - y5)) = w := fun w => div_mul_cancel₀ w d2
    have g2' : ∀ w : ℝ, (1 / 2 * (y7 - y5)) * (w / (1 / 2 * (y7 - y5))) = w := fun w => mul_div_cancel₀ w d2
    have g3 : ∀ w : ℝ, w * (1 / z6) * z6 = w := by intro w; field_simp
    simp only [g1, g2, g2', g3]
    refine ⟨⟨?_, ?_⟩, ⟨?_, ?_⟩, ⟨?_, ?_⟩, ⟨?_, ?_⟩, ⟨?_, ?_⟩, ⟨?_, ?_⟩, ⟨?_, ?_⟩, ⟨?_, ?_⟩⟩ <;> linarith
  refine ⟨k, ?_⟩
  show makePlanesFrom (createCorners m pt) (fromParametersToCorners (createCorners m pt)) = createCorners m pt
  have k' : fromParametersToCorners (createCorners m pt) = pt := k
  rw [k']
  rfl

theorem polar (x y : ℝ) : Real.tan (Real.arctan (Real.sqrt (y * y + x * x))) * Real.cos (atan2 y x) = x ∧
    Real.tan (Real.arctan (Real.sqrt (y * y + x * x))) * Real.sin (atan2 y x) = y := by
  have hn : ‖(⟨x, y⟩ : ℂ)‖ = Real.sqrt (y * y + x * x) := by
    rw [Complex.norm_def, Complex.normSq_mk, add_comm]
  rw [Real.tan_arctan, ← hn]
  exact ⟨Complex.norm_mul_cos_arg _, Complex.norm_mul_sin_arg _⟩

/-- C130: the angles found from the corners are those of the axis: setting one of them to its value changes nothing. -/
theorem C130_angles (m : State) (pt : Corners) :
    calculateCached (createCorners m pt) = createCorners m pt ∧
    (Regular pt → setTheta (createCorners m pt) (createCorners m pt).theta = createCorners m pt ∧
      setPhi (createCorners m pt) (createCorners m pt).phi = createCorners m pt) := by
  have h : calculateCached (createCorners m pt) = createCorners m pt := by
    have k := polar (parametersOf m pt).ttc (parametersOf m pt).tts
    have e : calculateCached (createCorners m pt) = { createCorners m pt with
      ttc := Real.tan (Real.arctan (Real.sqrt ((parametersOf m pt).tts * (parametersOf m pt).tts + (parametersOf m pt).ttc * (parametersOf m pt).ttc))) * Real.cos (atan2 (parametersOf m pt).tts (parametersOf m pt).ttc)
      tts := Real.tan (Real.arctan (Real.sqrt ((parametersOf m pt).tts * (parametersOf m pt).tts + (parametersOf m pt).ttc * (parametersOf m pt).ttc))) * Real.sin (atan2 (parametersOf m pt).tts (parametersOf m pt).ttc) } := rfl
    rw [e, k.1, k.2]
    rfl
  refine ⟨h, fun hr => ?_⟩
  have hF := (C130_corners m hr).2
  unfold setTheta setPhi
  constructor
  · show makePlanes (calculateCached (createCorners m pt)) = _
    rw [h]; exact hF
  · show makePlanes (calculateCached (createCorners m pt)) = _
    rw [h]; exact hF

/-! ## The solid chosen by the factory -/

/-- The points of the solid that the factory chose. -/
def Special.Points : Special → V3 → Prop
  | .box x y z, q => BoxSolid.Closed ⟨x, y, z⟩ q
  | .trd1 dx1 dx2 dy dz, q => Trd.Closed ⟨dx1, dx2, dy, dy, dz⟩ q
  | .trd2 dx1 dx2 dy1 dy2 dz, q => Trd.Closed ⟨dx1, dx2, dy1, dy2, dz⟩ q
  | .para dx dy dz alpha theta phi, q => Para.Closed (Para.Shape.ofAngles ⟨dx, dy, dz⟩ alpha theta phi) q
  | .general dz theta phi dy1 dx1 dx2 alpha1 dy2 dx3 dx4 alpha2, q =>
    Solid (shapeOf dz theta phi dy1 dx1 dx2 alpha1 dy2 dx3 dx4 alpha2) q

/-- A number within `w` of `m` is a fraction of the way from `m - w` to `m + w`. -/
theorem fraction {x m w : ℝ} (hw : 0 < w) : |x - m| ≤ w ↔ ∃ r, Unit r ∧ x = m + (2 * r - 1) * w := by
  rw [abs_le]
  constructor
  · rintro ⟨h1, h2⟩
    refine ⟨(x - m) / (2 * w) + 1 / 2, ⟨?_, ?_⟩, by field_simp; ring⟩
    · have : -(1 / 2) ≤ (x - m) / (2 * w) := by rw [le_div_iff₀ (by linarith)]; linarith
      linarith
    · have : (x - m) / (2 * w) ≤ 1 / 2 := by rw [div_le_iff₀ (by linarith)]; linarith
      linarith
  · rintro ⟨r, hr, rfl⟩
    constructor <;> nlinarith [hr.1, hr.2]

/-- The trapezoid in terms of coordinates, for an `x` range that does not depend on `y`. -/
theorem trd_points {dz dy1 dy2 dx1 dx3 : ℝ} (h0 : 0 < dz) (h1 : 0 < dy1) (h2 : 0 < dy2) (h3 : 0 < dx1) (h4 : 0 < dx3)
    (q : V3) : Trd.Closed ⟨dx1, dx3, dy1, dy2, dz⟩ q ↔ Solid ⟨dz, 0, 0, dy1, dx1, dx1, 0, dy2, dx3, dx3, 0⟩ q := by
  unfold Trd.Closed Solid Trd.Shape.wx Trd.Shape.wy
  dsimp only
  constructor
  · rintro ⟨hz, hx, hy⟩
    obtain ⟨t, ht, ez⟩ := (fraction (m := 0) h0).mp (by rwa [sub_zero])
    have et : (q.z + dz) / (2 * dz) = t := by rw [ez]; field_simp; ring
    rw [et] at hx hy
    have px : 0 < dx1 + (dx3 - dx1) * t := by have := mix_pos ht h3 h4; unfold mix at this; linarith
    have py : 0 < dy1 + (dy2 - dy1) * t := by have := mix_pos ht h1 h2; unfold mix at this; linarith
    obtain ⟨r, hr, ex⟩ := (fraction (m := 0) px).mp (by rwa [sub_zero])
    obtain ⟨s, hs, ey⟩ := (fraction (m := 0) py).mp (by rwa [sub_zero])
    refine ⟨r, s, t, hr, hs, ht, ?_⟩
    obtain ⟨x, y, z⟩ := q
    dsimp only at ex ey ez
    simp only [Shape.point, Shape.mx, Shape.my, Shape.hx, Shape.hy, mix, V3.mk.injEq]
    refine ⟨by rw [ex]; ring, by rw [ey]; ring, by rw [ez]; ring⟩
  · rintro ⟨r, s, t, hr, hs, ht, rfl⟩
    have px : 0 < dx1 + (dx3 - dx1) * t := by have := mix_pos ht h3 h4; unfold mix at this; linarith
    have py : 0 < dy1 + (dy2 - dy1) * t := by have := mix_pos ht h1 h2; unfold mix at this; linarith
    have et : ((Shape.point ⟨dz, 0, 0, dy1, dx1, dx1, 0, dy2, dx3, dx3, 0⟩ r s t).z + dz) / (2 * dz) = t := by
      simp only [Shape.point]; field_simp; ring
    rw [et]
    refine ⟨?_, ?_, ?_⟩
    · rw [← sub_zero (Shape.point _ r s t).z]
      exact (fraction h0).mpr ⟨t, ht, by simp only [Shape.point]; ring⟩
    · rw [← sub_zero (Shape.point _ r s t).x]
      exact (fraction px).mpr ⟨r, hr, by simp only [Shape.point, Shape.mx, Shape.hx, mix]; ring⟩
    · rw [← sub_zero (Shape.point _ r s t).y]
      exact (fraction py).mpr ⟨s, hs, by simp only [Shape.point, Shape.my, Shape.hy, mix]; ring⟩

theorem box_points {dx dy dz : ℝ} (h0 : 0 < dz) (h1 : 0 < dy) (h2 : 0 < dx) (q : V3) :
    BoxSolid.Closed ⟨dx, dy, dz⟩ q ↔ Solid ⟨dz, 0, 0, dy, dx, dx, 0, dy, dx, dx, 0⟩ q := by
  rw [← trd_points h0 h1 h1 h2 h2]
  unfold BoxSolid.Closed Trd.Closed Trd.Shape.wx Trd.Shape.wy
  simp only [sub_self, zero_mul, add_zero]
  tauto

theorem para_points {dx dy dz alpha theta phi : ℝ} (h0 : 0 < dz) (h1 : 0 < dy) (h2 : 0 < dx) (q : V3) :
    Para.Closed (Para.Shape.ofAngles ⟨dx, dy, dz⟩ alpha theta phi) q ↔
      Solid (shapeOf dz theta phi dy dx dx alpha dy dx dx alpha) q := by
  unfold Para.Closed Solid Para.Shape.ofAngles shapeOf
  dsimp only
  constructor
  · rintro ⟨a, b, c, ha, hb, hc, rfl⟩
    obtain ⟨r, hr, rfl⟩ := (fraction (m := 0) h2).mp (by rwa [sub_zero])
    obtain ⟨s, hs, rfl⟩ := (fraction (m := 0) h1).mp (by rwa [sub_zero])
    obtain ⟨t, ht, rfl⟩ := (fraction (m := 0) h0).mp (by rwa [sub_zero])
    refine ⟨r, s, t, hr, hs, ht, ?_⟩
    simp only [Para.Shape.point, Shape.point, Shape.mx, Shape.my, Shape.hx, Shape.hy, mix, V3.mk.injEq]
    refine ⟨by ring, by ring, by ring⟩
  · rintro ⟨r, s, t, hr, hs, ht, rfl⟩
    refine ⟨(2 * r - 1) * dx, (2 * s - 1) * dy, (2 * t - 1) * dz, ?_, ?_, ?_, ?_⟩
    · rw [← sub_zero ((2 * r - 1) * dx)]; exact (fraction h2).mpr ⟨r, hr, by ring⟩
    · rw [← sub_zero ((2 * s - 1) * dy)]; exact (fraction h1).mpr ⟨s, hs, by ring⟩
    · rw [← sub_zero ((2 * t - 1) * dz)]; exact (fraction h0).mpr ⟨t, ht, by ring⟩
    · simp only [Para.Shape.point, Shape.point, Shape.mx, Shape.my, Shape.hx, Shape.hy, mix, V3.mk.injEq]
      refine ⟨by ring, by ring, trivial⟩

/-- C131: the solid chosen by the factory has the points of the trapezoid that was asked for, and the trapezoid part of the
object describes the same shape, with planes that belong to it. -/
theorem C131_specialized (m : State) {dz theta phi dy1 dx1 dx2 alpha1 dy2 dx3 dx4 alpha2 : ℝ}
    (hp : Proper (shapeOf dz theta phi dy1 dx1 dx2 alpha1 dy2 dx3 dx4 alpha2)) :
    let f := getSpecialized dz theta phi dy1 dx1 dx2 alpha1 dy2 dx3 dx4 alpha2
    let S := shapeOf dz theta phi dy1 dx1 dx2 alpha1 dy2 dx3 dx4 alpha2
    (∀ q, f.Points q ↔ Solid S q) ∧ shape (f.base m) = S ∧ Fresh (f.base m) := by
  obtain ⟨p0, p1, p2, p3, p4, p5, p6⟩ := hp
  simp only [shapeOf] at p0 p1 p2 p3 p4 p5 p6
  dsimp only
  unfold getSpecialized
  split
  · rename_i h
    obtain ⟨rfl, rfl, rfl, rfl, rfl, rfl, rfl, rfl⟩ := h
    refine ⟨fun q => ?_, ?_, rfl⟩
    · simpa [shapeOf, Special.Points] using box_points p0 p1 p2 q
    · simp [Special.base, shapeOf, (C130_shape m dz 0 0 dy1 dx1 dx1 0 dy1 dx1 dx1 0 0).2.2.2.2.1]
  · split
    · rename_i h
      obtain ⟨rfl, rfl, rfl, rfl, rfl, rfl, _, rfl⟩ := h
      refine ⟨fun q => ?_, ?_, rfl⟩
      · simpa [shapeOf, Special.Points] using trd_points p0 p1 p1 p2 p5 q
      · simp [Special.base, shapeOf, (C130_shape m dz 0 0 dy1 dx1 dx3 0 dy1 dx1 dx3 0 0).2.1]
    · split
      · rename_i h
        obtain ⟨rfl, rfl, rfl, rfl, rfl, rfl, _, _⟩ := h
        refine ⟨fun q => ?_, ?_, rfl⟩
        · simpa [shapeOf, Special.Points] using trd_points p0 p1 p4 p2 p5 q
        · simp [Special.base, shapeOf, (C130_shape m dz 0 0 dy1 dx1 dx3 0 dy2 dx1 dx3 0 0).2.2.1]
      · split
        · rename_i h
          obtain ⟨rfl, rfl, rfl, rfl, rfl⟩ := h
          exact ⟨fun q => para_points p0 p1 p2 q, rfl, rfl⟩
        · exact ⟨fun q => Iff.rfl, rfl, rfl⟩

/-- C131: the factory given regular corners with positive edges makes a solid with exactly these corners. -/
theorem C131_corners (m : State) {pt : Corners} (h : Regular pt) (h0 : pt.c0.x < pt.c1.x) (h1 : pt.c2.x < pt.c3.x)
    (h2 : pt.c4.x < pt.c5.x) (h3 : pt.c6.x < pt.c7.x) :
    let f := makeInstanceCorners pt
    fromParametersToCorners (f.base m) = pt ∧ Proper (shape (f.base m)) ∧ Fresh (f.base m) ∧
    ∀ q, f.Points q ↔ Solid (shape (f.base m)) q := by
  dsimp only
  have k := polar (parametersOf m pt).ttc (parametersOf m pt).tts
  have e : shapeOf pt.c7.z (parametersOf m pt).theta (parametersOf m pt).phi (parametersOf m pt).dy1 (parametersOf m pt).dx1
      (parametersOf m pt).dx2 (Real.arctan (parametersOf m pt).ta1) (parametersOf m pt).dy2 (parametersOf m pt).dx3
      (parametersOf m pt).dx4 (Real.arctan (parametersOf m pt).ta2) = shape (parametersOf m pt) := by
    simp only [shapeOf, shape, Real.tan_arctan]
    have t1 : (parametersOf m pt).theta = Real.arctan (Real.sqrt ((parametersOf m pt).tts * (parametersOf m pt).tts + (parametersOf m pt).ttc * (parametersOf m pt).ttc)) := rfl
    have t2 : (parametersOf m pt).phi = atan2 (parametersOf m pt).tts (parametersOf m pt).ttc := rfl
    rw [t1, t2, k.1, k.2]
    rfl
  have hP : Proper (shape (parametersOf m pt)) := by
    have := h.pz; have := h.py1; have := h.py2
    refine ⟨h.pz, ?_, ?_, ?_, ?_, ?_, ?_⟩ <;> simp only [shape, parametersOf] <;> linarith
  have q := C131_specialized m (by rw [e]; exact hP)
  dsimp only at q
  rw [e] at q
  have hf : makeInstanceCorners pt = getSpecialized pt.c7.z (parametersOf m pt).theta (parametersOf m pt).phi (parametersOf m pt).dy1 (parametersOf m pt).dx1
      (parametersOf m pt).dx2 (Real.arctan (parametersOf m pt).ta1) (parametersOf m pt).dy2 (parametersOf m pt).dx3
      (parametersOf m pt).dx4 (Real.arctan (parametersOf m pt).ta2) := rfl
  rw [hf]
  refine ⟨?_, by rw [q.2.1]; exact hP, q.2.2, by rw [q.2.1]; exact q.1⟩
  rw [corners_eq, q.2.1, ← corners_eq, (C130_corners m h).1]

/-! ## A concrete case -/

/-- Some memory. -/
noncomputable def mem : State :=
  ⟨0, 0, 0, 0, 0, 0, 0, 0, 0, 0, 0, 0, 0, ⟨⟨0, 0, 0⟩, 0⟩, ⟨⟨0, 0, 0⟩, 0⟩, ⟨⟨0, 0, 0⟩, 0⟩, ⟨⟨0, 0, 0⟩, 0⟩, 0, 0, 0, 0, 0, 0⟩

/-- A trapezoid with a leaning axis and bases that are not rectangles: the top is twice the bottom. -/
noncomputable def sample : State := create mem 3 (Real.arctan 1) 0 1 1 2 (Real.arctan (1 / 2)) 2 2 4 (Real.arctan (1 / 2))

theorem sample_shape : shape sample = ⟨3, 1, 0, 1, 1, 2, 1 / 2, 2, 2, 4, 1 / 2⟩ := by
  unfold sample
  rw [(C130_shape mem _ _ _ _ _ _ _ _ _ _ _ 0).1]
  simp [shapeOf, Real.tan_arctan]

theorem sample_fresh : Fresh sample := rfl
theorem sample_proper : Proper (shape sample) := by rw [sample_shape]; norm_num [Proper]
theorem sample_flat : Flat (shape sample) := by rw [sample_shape]; norm_num [Flat]

example : contains sample ⟨0, 0, 0⟩ = true := by
  rw [C130_contains sample_fresh sample_proper sample_flat, sample_shape]
  refine ⟨1 / 2, 1 / 2, 1 / 2, ?_, ?_, ?_, ?_⟩ <;> norm_num [Unit, Shape.point, Shape.mx, Shape.my, Shape.hx, Shape.hy, mix]

example : UnitNormals sample := C130_unit sample_fresh sample_proper

/-- The corners of the sample are regular. -/
theorem sample_regular : Regular (fromParametersToCorners sample) := by
  have e : fromParametersToCorners sample = (⟨3, 1, 0, 1, 1, 2, 1 / 2, 2, 2, 4, 1 / 2⟩ : Shape).corners := by
    rw [corners_eq, sample_shape]
  rw [e]
  constructor <;> norm_num [Shape.corners, Shape.point, Shape.mx, Shape.my, Shape.hx, Shape.hy, mix]

example : (Special.box 2 1 3).Points ⟨1, 1, 1⟩ := by norm_num [Special.Points, BoxSolid.Closed]

end Trapezoid
end VecGeom
