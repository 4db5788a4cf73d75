import Verif.Tube.Spec

/-!
# What a polycone is

A list of planes, each with a height, an inner and an outer radius; between two neighbouring planes of different height the radii
are interpolated.
-/

namespace VecGeom
namespace Polycone

open Real

/-- A plane: height, inner and outer radius. -/
structure Plane where
  z : ℝ
  rmin : ℝ
  rmax : ℝ

/-- The value at `z` of the straight line through `r1` at `z1` and `r2` at `z2`. -/
noncomputable def lerp (z1 r1 z2 r2 z : ℝ) : ℝ := r1 + (r2 - r1) * ((z - z1) / (z2 - z1))

/-- The part between two planes, with its surface. -/
structure ClosedPart (s d : ℝ) (a b : Plane) (p : V3) : Prop where
  z1 : a.z ≤ p.z
  z2 : p.z ≤ b.z
  lo : lerp a.z a.rmin b.z b.rmin p.z ≤ Tube.rad p
  hi : Tube.rad p ≤ lerp a.z a.rmax b.z b.rmax p.z
  phi : Sector s d p.x p.y

/-- The part between two planes with its surface, but without the wall of the bore. -/
structure Part (s d : ℝ) (a b : Plane) (p : V3) : Prop where
  z1 : a.z ≤ p.z
  z2 : p.z ≤ b.z
  lo : (0 < a.rmin ∨ 0 < b.rmin) → lerp a.z a.rmin b.z b.rmin p.z < Tube.rad p
  hi : Tube.rad p ≤ lerp a.z a.rmax b.z b.rmax p.z
  phi : Sector s d p.x p.y

/-- `a` and `b` are neighbours in the list, and there is something between them. -/
def Next (ps : List Plane) (a b : Plane) : Prop := [a, b] <:+: ps ∧ a.z < b.z

/-- The polycone with its surface. -/
def Closed (s d : ℝ) (ps : List Plane) (p : V3) : Prop := ∃ a b, Next ps a b ∧ ClosedPart s d a b p

/-- The polycone with its surface, but without the wall of the bore. -/
def Body (s d : ℝ) (ps : List Plane) (p : V3) : Prop := ∃ a b, Next ps a b ∧ Part s d a b p

/-- Where the radii agree, the code enlarges the outer one by the tolerance. -/
noncomputable def Plane.fix (q : Plane) : Plane :=
  open Classical in { q with rmax := if q.rmin = q.rmax then q.rmax + 1 / 10 ^ 7 else q.rmax }

/-- Planes that make sense: the first two are on different heights, the heights do not go down, and neighbours are on the same height or further apart than twice the
tolerance; the radii may agree on a plane, but not on both sides of a cylindrical part. -/
structure Valid (s d : ℝ) (ps : List Plane) : Prop where
  first : ∃ a b r, ps = a :: b :: r ∧ a.z < b.z
  gap : ∀ a b, [a, b] <:+: ps → a.z = b.z ∨ a.z + 2 / 10 ^ 9 < b.z
  rmin : ∀ q ∈ ps, 0 ≤ q.rmin
  r : ∀ q ∈ ps, q.rmin ≤ q.rmax
  cyl : ∀ a b, Next ps a b → a.rmax = b.rmax → a.rmin < a.rmax ∧ b.rmin < b.rmax
  pos : 0 < d
  full : d < 2 * π - 1 / 10 ^ 9 ∨ d = 2 * π

end Polycone
end VecGeom
