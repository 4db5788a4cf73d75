import Verif.Base.Num

/-!
# What a cut ellipsoid is
-/

namespace VecGeom
namespace Ellipsoid

/-- The semi-axes and the heights of the cuts. -/
structure Par where
  x : ℝ
  y : ℝ
  z : ℝ
  lo : ℝ
  hi : ℝ

namespace Par

/-- Lengths that the constructor accepts and cuts within the ellipsoid, the lower one below the upper one. -/
structure Valid (a : Par) : Prop where
  x : 2 * kTolerance ≤ a.x
  y : 2 * kTolerance ≤ a.y
  z : 2 * kTolerance ≤ a.z
  lo : -a.z ≤ a.lo
  cut : a.lo < a.hi
  hi : a.hi ≤ a.z

/-- The equation of the ellipsoid. -/
noncomputable def ell (a : Par) (p : V3) : ℝ := (p.x / a.x) ^ 2 + (p.y / a.y) ^ 2 + (p.z / a.z) ^ 2

/-- The solid with its surface. -/
structure Closed (a : Par) (p : V3) : Prop where
  lo : a.lo ≤ p.z
  hi : p.z ≤ a.hi
  r : a.ell p ≤ 1

/-- The surface: a point of the solid on a cut or on the ellipsoid. -/
structure Surface (a : Par) (p : V3) : Prop where
  closed : a.Closed p
  on : p.z = a.lo ∨ p.z = a.hi ∨ a.ell p = 1

/-- The smallest and the largest semi-axis. -/
noncomputable def r (a : Par) : ℝ := min (min a.x a.y) a.z
noncomputable def big (a : Par) : ℝ := max (max a.x a.y) a.z

end Par
end Ellipsoid
end VecGeom
