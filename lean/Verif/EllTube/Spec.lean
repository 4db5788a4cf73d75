import Verif.Base.Num

/-!
# What an elliptical tube is
-/

namespace VecGeom
namespace EllTube

/-- The semi-axes and the half length. -/
structure Par where
  x : ℝ
  y : ℝ
  z : ℝ

namespace Par

/-- Lengths that the constructor accepts, with a positive half length. -/
structure Valid (a : Par) : Prop where
  x : 2 * kTolerance ≤ a.x
  y : 2 * kTolerance ≤ a.y
  z : 0 < a.z

/-- The equation of the ellipse. -/
noncomputable def ell (a : Par) (p : V3) : ℝ := (p.x / a.x) ^ 2 + (p.y / a.y) ^ 2

/-- The tube with its surface. -/
structure Closed (a : Par) (p : V3) : Prop where
  z : |p.z| ≤ a.z
  r : a.ell p ≤ 1

/-- The surface: a point of the tube on a base or on the lateral surface. -/
structure Surface (a : Par) (p : V3) : Prop where
  closed : a.Closed p
  on : |p.z| = a.z ∨ a.ell p = 1

/-- The smaller semi-axis. -/
noncomputable def r (a : Par) : ℝ := min a.x a.y

end Par
end EllTube
end VecGeom
