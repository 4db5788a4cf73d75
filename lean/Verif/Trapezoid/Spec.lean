import Verif.Base.Halfspace

/-!
# Specification of the general trapezoid: sets of points

A trapezoid is given by eleven numbers: the half height, the direction of the axis, and for each of the two bases the half
lengths of the two edges along `x`, the half distance of these edges and the slope of the line through their centres.
-/

namespace VecGeom
namespace Trapezoid

/-- The trapezoid: `z` half height, axis through `(cx, cy, 1)`; bottom base `y1`, `x1`, `x2`, `a1`, top base `y2`, `x3`,
`x4`, `a2`. -/
structure Shape where
  z : ℝ
  cx : ℝ
  cy : ℝ
  y1 : ℝ
  x1 : ℝ
  x2 : ℝ
  a1 : ℝ
  y2 : ℝ
  x3 : ℝ
  x4 : ℝ
  a2 : ℝ

/-- All lengths are positive. -/
def Proper (S : Shape) : Prop :=
  0 < S.z ∧ 0 < S.y1 ∧ 0 < S.x1 ∧ 0 < S.x2 ∧ 0 < S.y2 ∧ 0 < S.x3 ∧ 0 < S.x4

/-- The two faces between the ends of the edges along `x` are flat: the lines through the ends of the edges of the bottom
base are parallel to those of the top base. -/
def Flat (S : Shape) : Prop :=
  (2 * S.a1 * S.y1 + S.x1 - S.x2) * S.y2 = (2 * S.a2 * S.y2 + S.x3 - S.x4) * S.y1 ∧
  (2 * S.a1 * S.y1 - S.x1 + S.x2) * S.y2 = (2 * S.a2 * S.y2 - S.x3 + S.x4) * S.y1

/-- The value between `a` and `b` at the fraction `t`. -/
def mix (t a b : ℝ) : ℝ := (1 - t) * a + t * b

/-- The half distance of the edges along `x` at the fraction `t` of the height. -/
def Shape.hy (S : Shape) (t : ℝ) : ℝ := mix t S.y1 S.y2
/-- The `y` coordinate of the axis. -/
def Shape.my (S : Shape) (t : ℝ) : ℝ := mix t (-S.cy * S.z) (S.cy * S.z)
/-- The half length of the edge along `x` at the lower (`s = 0`) and upper (`s = 1`) end of the `y` range, and between. -/
def Shape.hx (S : Shape) (t s : ℝ) : ℝ := mix s (mix t S.x1 S.x3) (mix t S.x2 S.x4)
/-- The `x` coordinate of the centre of that edge. -/
def Shape.mx (S : Shape) (t s : ℝ) : ℝ :=
  mix t (-S.cx * S.z) (S.cx * S.z) + (2 * s - 1) * mix t (S.a1 * S.y1) (S.a2 * S.y2)

/-- The point at the fraction `t` of the height, `s` of the `y` range and `r` of the `x` range. -/
def Shape.point (S : Shape) (r s t : ℝ) : V3 :=
  ⟨S.mx t s + (2 * r - 1) * S.hx t s, S.my t + (2 * s - 1) * S.hy t, (2 * t - 1) * S.z⟩

/-- A number between zero and one. -/
def Unit (t : ℝ) : Prop := 0 ≤ t ∧ t ≤ 1

/-- The closed trapezoid. -/
def Solid (S : Shape) (q : V3) : Prop := ∃ r s t, Unit r ∧ Unit s ∧ Unit t ∧ q = S.point r s t
/-- The open trapezoid. -/
def Interior (S : Shape) (q : V3) : Prop :=
  ∃ r s t : ℝ, (0 < r ∧ r < 1) ∧ (0 < s ∧ s < 1) ∧ (0 < t ∧ t < 1) ∧ q = S.point r s t

/-- The surface: one of the three fractions is at an end. -/
def Surface (S : Shape) (q : V3) : Prop :=
  ∃ r s t, Unit r ∧ Unit s ∧ Unit t ∧ (r = 0 ∨ r = 1 ∨ s = 0 ∨ s = 1 ∨ t = 0 ∨ t = 1) ∧ q = S.point r s t

/-- The six half spaces of a list of side planes between `-z` and `z`. -/
def sides (z : ℝ) (pls : List Plane) : List Plane := ⟨⟨0, 0, 1⟩, -z⟩ :: ⟨⟨0, 0, -1⟩, -z⟩ :: pls

/-- The points on or below all planes. -/
def Below (pls : List Plane) (q : V3) : Prop := ∀ pl ∈ pls, pl.height q ≤ 0

/-- The area of a triangle. -/
noncomputable def triangle (a b c : V3) : ℝ := (V3.cross (b - a) (c - a)).mag / 2

end Trapezoid
end VecGeom
