import Verif.Base.Halfspace
import Mathlib.Analysis.SpecialFunctions.Trigonometric.Basic

/-!
# What a hyperboloid is

The solid between the planes `z = -dz` and `z = dz`, inside the surface `r ^ 2 = rmax ^ 2 + (tan stOut * z) ^ 2` and outside the
surface `r ^ 2 = rmin ^ 2 + (tan stIn * z) ^ 2`.
-/

namespace VecGeom
namespace Hype

open Real

/-- The arguments of the constructor. -/
structure Par where
  rmin : ℝ
  rmax : ℝ
  stIn : ℝ
  stOut : ℝ
  dz : ℝ

namespace Par

/-- The squared radius of the inner surface at the height `z`. -/
noncomputable def in2 (a : Par) (z : ℝ) : ℝ := a.rmin ^ 2 + (tan a.stIn * z) ^ 2
/-- The squared radius of the outer surface at the height `z`. -/
noncomputable def out2 (a : Par) (z : ℝ) : ℝ := a.rmax ^ 2 + (tan a.stOut * z) ^ 2

/-- Arguments that describe a solid: the inner surface is inside the outer one, at the waist and at the ends. -/
structure Valid (a : Par) : Prop where
  rmin : 0 ≤ a.rmin
  lt : a.rmin < a.rmax
  inLo : -(π / 2) < a.stIn
  inHi : a.stIn < π / 2
  outLo : -(π / 2) < a.stOut
  outHi : a.stOut < π / 2
  dz : 0 < a.dz
  ends : a.in2 a.dz < a.out2 a.dz

/-- The solid has a hole along its axis (which may close in one point). -/
def Hollow (a : Par) : Prop := 0 < a.rmin ∨ a.stIn ≠ 0

/-- The solid with its surface. -/
structure Closed (a : Par) (p : V3) : Prop where
  z : |p.z| ≤ a.dz
  out : p.x ^ 2 + p.y ^ 2 ≤ a.out2 p.z
  inn : a.in2 p.z ≤ p.x ^ 2 + p.y ^ 2

/-- The solid without its surface. -/
structure Open (a : Par) (p : V3) : Prop where
  z : |p.z| < a.dz
  out : p.x ^ 2 + p.y ^ 2 < a.out2 p.z
  inn : a.Hollow → a.in2 p.z < p.x ^ 2 + p.y ^ 2

/-- The surface: a point of the solid on a lid or on a wall. -/
structure Surface (a : Par) (p : V3) : Prop where
  closed : a.Closed p
  on : |p.z| = a.dz ∨ p.x ^ 2 + p.y ^ 2 = a.out2 p.z ∨ (a.Hollow ∧ p.x ^ 2 + p.y ^ 2 = a.in2 p.z)

end Par
end Hype
end VecGeom
