import Verif.Wedge.Spec

/-!
# What a tube is

A tube given by its five parameters, in cylindrical coordinates.
-/

namespace VecGeom
namespace Tube

open Real

/-- The parameters of a tube. -/
structure Par where
  rmin : ℝ
  rmax : ℝ
  z : ℝ
  s : ℝ
  d : ℝ

/-- The distance from the axis. -/
noncomputable def rad (p : V3) : ℝ := √(p.x ^ 2 + p.y ^ 2)

namespace Par

/-- Parameters that make sense. -/
structure Valid (a : Par) : Prop where
  rmin : 0 ≤ a.rmin
  rmax : a.rmin < a.rmax
  z : 0 < a.z
  d : 0 < a.d
  d' : a.d ≤ 2 * π

/-- The tube, with its surface. -/
structure Closed (a : Par) (p : V3) : Prop where
  z : |p.z| ≤ a.z
  lo : a.rmin ≤ rad p
  hi : rad p ≤ a.rmax
  phi : Sector a.s a.d p.x p.y

/-- The tube with its surface, but without the wall of the bore. -/
structure In (a : Par) (p : V3) : Prop where
  z : |p.z| ≤ a.z
  lo : 0 < a.rmin → a.rmin < rad p
  hi : rad p ≤ a.rmax
  phi : Sector a.s a.d p.x p.y

end Par
end Tube
end VecGeom
