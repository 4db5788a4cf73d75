import Verif.Tube.Spec

/-!
# What a cone is

A cone frustum, perhaps with a conical bore and perhaps only a range of azimuths, given by its seven parameters, in cylindrical
coordinates.
-/

namespace VecGeom
namespace Cone

open Real

/-- The parameters of a cone: the radii at the bottom, the radii at the top, half the height, the first azimuth and the range. -/
structure Par where
  rmin1 : ℝ
  rmax1 : ℝ
  rmin2 : ℝ
  rmax2 : ℝ
  z : ℝ
  s : ℝ
  d : ℝ

/-- The straight line through `r1` at `-h` and `r2` at `h`. -/
noncomputable def line (r1 r2 h z : ℝ) : ℝ := r1 * ((h - z) / (2 * h)) + r2 * ((h + z) / (2 * h))

namespace Par

/-- The radius of the bore at the height `z`. -/
noncomputable def inner (a : Par) (z : ℝ) : ℝ := line a.rmin1 a.rmin2 a.z z
/-- The radius of the outside at the height `z`. -/
noncomputable def outer (a : Par) (z : ℝ) : ℝ := line a.rmax1 a.rmax2 a.z z

/-- Parameters that make sense: the radii may agree at one end, as in a pointed cone, but not in both ends, and not if the outside
is a cylinder.  An opening just below `2 pi` counts as full in the code, and is left out here. -/
structure Valid (a : Par) : Prop where
  rmin1 : 0 ≤ a.rmin1
  rmin2 : 0 ≤ a.rmin2
  r1 : a.rmin1 ≤ a.rmax1
  r2 : a.rmin2 ≤ a.rmax2
  cyl : a.rmax1 = a.rmax2 → a.rmin1 < a.rmax1 ∧ a.rmin2 < a.rmax2
  z : 0 < a.z
  d : 0 < a.d
  d' : a.d < 2 * π - 1 / 10 ^ 9 ∨ a.d = 2 * π

/-- The cone, with its surface. -/
structure Closed (a : Par) (p : V3) : Prop where
  z : |p.z| ≤ a.z
  lo : a.inner p.z ≤ Tube.rad p
  hi : Tube.rad p ≤ a.outer p.z
  phi : Sector a.s a.d p.x p.y

/-- The cone has a bore. -/
def Hollow (a : Par) : Prop := 0 < a.rmin1 ∨ 0 < a.rmin2

/-- The cone with its surface, but without the wall of the bore. -/
structure In (a : Par) (p : V3) : Prop where
  z : |p.z| ≤ a.z
  lo : a.Hollow → a.inner p.z < Tube.rad p
  hi : Tube.rad p ≤ a.outer p.z
  phi : Sector a.s a.d p.x p.y

end Par
end Cone
end VecGeom
