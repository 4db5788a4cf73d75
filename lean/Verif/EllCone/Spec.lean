import Verif.Base.Num

/-!
# What an elliptical cone is
-/

namespace VecGeom
namespace EllCone

open Real

/-- The inclinations in x and y, the height of the apex above the origin and the cut. -/
structure Par where
  a : ℝ
  b : ℝ
  h : ℝ
  cut : ℝ

namespace Par

/-- Parameters that the constructor keeps as they are. -/
structure Valid (c : Par) : Prop where
  a : 2 * kTolerance ≤ c.a
  b : 2 * kTolerance ≤ c.b
  h : 2 * kTolerance ≤ c.h
  cut : 2 * kTolerance ≤ c.cut
  top : c.cut ≤ c.h

/-- The scaled distance from the axis: the lateral surface is where it is equal to the height below the apex. -/
noncomputable def rho (c : Par) (p : V3) : ℝ := √((p.x / c.a) ^ 2 + (p.y / c.b) ^ 2)

/-- The solid with its surface. -/
structure Closed (c : Par) (p : V3) : Prop where
  z : |p.z| ≤ c.cut
  r : c.rho p ≤ c.h - p.z

/-- The solid without its surface. -/
structure Open (c : Par) (p : V3) : Prop where
  z : |p.z| < c.cut
  r : c.rho p < c.h - p.z

/-- The surface. -/
structure Surface (c : Par) (p : V3) : Prop where
  closed : c.Closed p
  on : |p.z| = c.cut ∨ c.rho p = c.h - p.z

/-- The cosine of the smallest inclination. -/
noncomputable def cosMin (c : Par) : ℝ := min c.a c.b / √(1 + min c.a c.b ^ 2)

end Par
end EllCone
end VecGeom
