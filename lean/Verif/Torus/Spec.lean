import Verif.Tube.Spec

/-!
# What a torus is

A torus given by its five parameters: the points whose distance from a circle around the z axis is between two radii, within a
phi sector.
-/

namespace VecGeom
namespace Torus

open Real

/-- The parameters of a torus: the radii of the tube, the radius of the central circle and the phi sector. -/
structure Par where
  rmin : ℝ
  rmax : ℝ
  rtor : ℝ
  s : ℝ
  d : ℝ

/-- The distance of a point from the circle of radius `R` around the z axis in the plane `z = 0`. -/
noncomputable def ringDist (R : ℝ) (p : V3) : ℝ := √((Tube.rad p - R) ^ 2 + p.z ^ 2)

namespace Par

/-- Parameters that make sense. -/
structure Valid (a : Par) : Prop where
  rmin : 0 ≤ a.rmin
  rmax : a.rmin < a.rmax
  rtor : 0 ≤ a.rtor
  d : 0 < a.d
  d' : a.d ≤ 2 * π

/-- The tube does not meet itself. -/
def Ring (a : Par) : Prop := a.rmax ≤ a.rtor

/-- The torus, with its surface. -/
structure Closed (a : Par) (p : V3) : Prop where
  lo : a.rmin ≤ ringDist a.rtor p
  hi : ringDist a.rtor p ≤ a.rmax
  phi : Sector a.s a.d p.x p.y

end Par
end Torus
end VecGeom
