import Verif.Wedge.Spec

/-!
# What a sphere is

A spherical shell given by its six parameters, in spherical coordinates.
-/

namespace VecGeom
namespace Sphere

open Real

/-- The parameters of a sphere: radii, start and range of the azimuth, start and range of the polar angle. -/
structure Par where
  rmin : ℝ
  rmax : ℝ
  s : ℝ
  d : ℝ
  ts : ℝ
  td : ℝ

/-- The distance from the axis. -/
noncomputable def rho (p : V3) : ℝ := √(p.x ^ 2 + p.y ^ 2)

/-- The polar angle (from the positive z axis) is in `[u, v]`; the origin has every polar angle. -/
def Polar (u v : ℝ) (p : V3) : Prop := ∃ r t : ℝ, 0 ≤ r ∧ u ≤ t ∧ t ≤ v ∧ rho p = r * sin t ∧ p.z = r * cos t

/-- The polar angle is in `[u, v]` and the point is at least `δ` away from the two cones, measured perpendicular to them. -/
def PolarDeep (δ u v : ℝ) (p : V3) : Prop :=
  ∃ r t : ℝ, 0 ≤ r ∧ u ≤ t ∧ t ≤ v ∧ rho p = r * sin t ∧ p.z = r * cos t ∧ (0 < u → δ ≤ r * sin (t - u)) ∧ (v < π → δ ≤ r * sin (v - t))

namespace Par

/-- The end of the polar angles. -/
def te (a : Par) : ℝ := a.ts + a.td

/-- Parameters that make sense. -/
structure Valid (a : Par) : Prop where
  rmin : 0 ≤ a.rmin
  rmax : a.rmin < a.rmax
  d : 0 < a.d
  d' : a.d ≤ 2 * π
  ts : 0 ≤ a.ts
  td : 0 < a.td
  te : a.te ≤ π

/-- The sphere, with its surface. -/
structure Closed (a : Par) (p : V3) : Prop where
  lo : a.rmin ≤ p.mag
  hi : p.mag ≤ a.rmax
  phi : Sector a.s a.d p.x p.y
  theta : Polar a.ts a.te p

open Classical in
/-- The surface: the shells, the two half plane faces if the azimuths are not all, and the cones that bound the polar angles (a cone of
polar angle `θ` unrolls to a sector of angle `d sin θ`). -/
noncomputable def trueArea (a : Par) : ℝ :=
  a.d * (a.rmin ^ 2 + a.rmax ^ 2) * (cos a.ts - cos a.te) + (if a.d < 2 * π then 2 * (a.td / 2 * (a.rmax ^ 2 - a.rmin ^ 2)) else 0) +
    (if 0 < a.ts then a.d * sin a.ts / 2 * (a.rmax ^ 2 - a.rmin ^ 2) else 0) +
    (if a.te < π then a.d * sin a.te / 2 * (a.rmax ^ 2 - a.rmin ^ 2) else 0)

end Par
end Sphere
end VecGeom
