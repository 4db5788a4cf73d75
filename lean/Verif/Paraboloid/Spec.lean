import Verif.Base.Halfspace

/-!
# What a paraboloid is

The solid between the planes `z = -dz` and `z = dz` whose section at height `z` is the disc with the squared radius that goes
linearly from `rlo ^ 2` at the bottom to `rhi ^ 2` at the top.
-/

namespace VecGeom
namespace Paraboloid

/-- The arguments of the constructor. -/
structure Par where
  rlo : ℝ
  rhi : ℝ
  dz : ℝ

namespace Par

/-- What the documentation of the class asks for: `rhi > rlo`, both not negative, and a positive height. -/
structure Valid (a : Par) : Prop where
  rlo : 0 ≤ a.rlo
  lt : a.rlo < a.rhi
  dz : 0 < a.dz

/-- The squared radius of the section at the height `z`. -/
noncomputable def r2 (a : Par) (z : ℝ) : ℝ := a.rlo ^ 2 + (a.rhi ^ 2 - a.rlo ^ 2) * ((z + a.dz) / (2 * a.dz))

/-- The curvature of the side: its height over the centre grows with `a.curv * (x ^ 2 + y ^ 2)`. -/
noncomputable def curv (a : Par) : ℝ := 2 * a.dz / (a.rhi ^ 2 - a.rlo ^ 2)

/-- The solid with its surface. -/
structure Closed (a : Par) (p : V3) : Prop where
  lo : -a.dz ≤ p.z
  hi : p.z ≤ a.dz
  r : p.x ^ 2 + p.y ^ 2 ≤ a.r2 p.z

/-- The surface: a point of the solid on a lid or on the side. -/
structure Surface (a : Par) (p : V3) : Prop where
  closed : a.Closed p
  on : p.z = -a.dz ∨ p.z = a.dz ∨ p.x ^ 2 + p.y ^ 2 = a.r2 p.z

end Par
end Paraboloid
end VecGeom
