import Verif.Base.Num

/-!
# Specification of the trapezoid with rectangular bases: sets of points
-/

namespace VecGeom
namespace Trd

/-- Half lengths of the bottom rectangle (`x1`, `y1`, at `-z`), of the top rectangle (`x2`, `y2`, at `z`) and along `z`. -/
structure Shape where
  x1 : ℝ
  x2 : ℝ
  y1 : ℝ
  y2 : ℝ
  z : ℝ

/-- The half length along `x` at a height, interpolated between the bases. -/
noncomputable def Shape.wx (S : Shape) (c : ℝ) : ℝ := S.x1 + (S.x2 - S.x1) * ((c + S.z) / (2 * S.z))
/-- The half length along `y` at a height. -/
noncomputable def Shape.wy (S : Shape) (c : ℝ) : ℝ := S.y1 + (S.y2 - S.y1) * ((c + S.z) / (2 * S.z))

/-- The closed trapezoid. -/
def Closed (S : Shape) (q : V3) : Prop := |q.z| ≤ S.z ∧ |q.x| ≤ S.wx q.z ∧ |q.y| ≤ S.wy q.z
/-- The open trapezoid. -/
def Open (S : Shape) (q : V3) : Prop := |q.z| < S.z ∧ |q.x| < S.wx q.z ∧ |q.y| < S.wy q.z
/-- The boundary. -/
def Boundary (S : Shape) (q : V3) : Prop := Closed S q ∧ ¬ Open S q
/-- The half lengths of the bases are not negative and the height is positive. -/
def Proper (S : Shape) : Prop := 0 ≤ S.x1 ∧ 0 ≤ S.x2 ∧ 0 ≤ S.y1 ∧ 0 ≤ S.y2 ∧ 0 < S.z

/-- The point has a ball of radius `r` around it in the open trapezoid. -/
def Deep (S : Shape) (r : ℝ) (q : V3) : Prop := ∀ q', V3.dist q q' ≤ r → Open S q'

/-- The faces. -/
inductive Side where
  | xp | xm | yp | ym | zp | zm

/-- Half of the change of the half length along `x` per height. -/
noncomputable def Shape.tx (S : Shape) : ℝ := (S.x1 - S.x2) / (2 * S.z)
noncomputable def Shape.ty (S : Shape) : ℝ := (S.y1 - S.y2) / (2 * S.z)

/-- The height of a point above the plane of a face (the distance from the plane, negative on the side of the solid). -/
noncomputable def height (S : Shape) (q : V3) : Side → ℝ
  | .xp => (q.x - S.wx q.z) / Real.sqrt (1 + S.tx ^ 2)
  | .xm => (-q.x - S.wx q.z) / Real.sqrt (1 + S.tx ^ 2)
  | .yp => (q.y - S.wy q.z) / Real.sqrt (1 + S.ty ^ 2)
  | .ym => (-q.y - S.wy q.z) / Real.sqrt (1 + S.ty ^ 2)
  | .zp => q.z - S.z
  | .zm => -q.z - S.z

/-- The rate at which the height above the plane of a face grows along a direction. -/
noncomputable def slope (S : Shape) (d : V3) : Side → ℝ
  | .xp => (d.x + S.tx * d.z) / Real.sqrt (1 + S.tx ^ 2)
  | .xm => (-d.x + S.tx * d.z) / Real.sqrt (1 + S.tx ^ 2)
  | .yp => (d.y + S.ty * d.z) / Real.sqrt (1 + S.ty ^ 2)
  | .ym => (-d.y + S.ty * d.z) / Real.sqrt (1 + S.ty ^ 2)
  | .zp => d.z
  | .zm => -d.z

end Trd
end VecGeom
