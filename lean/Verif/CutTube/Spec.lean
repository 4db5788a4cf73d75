import Verif.Tube.Spec
import Verif.Base.Halfspace

/-!
# What a cut tube is

A tube without lids, cut by two planes through `(0, 0, -z)` and `(0, 0, z)`.
-/

namespace VecGeom
namespace CutTube

open Real

/-- The parameters of a cut tube; the normals point outwards and may have any length. -/
structure Par where
  rmin : ℝ
  rmax : ℝ
  z : ℝ
  s : ℝ
  d : ℝ
  nb : V3
  nt : V3

/-- The length of a vector. -/
noncomputable def len (n : V3) : ℝ := √(n.x ^ 2 + n.y ^ 2 + n.z ^ 2)

/-- No component of the normal is so small, compared to its length, that `FixZeroes` drops it. -/
def Clean (n : V3) : Prop :=
  ∀ c, c = n.x ∨ c = n.y ∨ c = n.z → c = 0 ∨ kTolerance ^ 2 * (n.x ^ 2 + n.y ^ 2 + n.z ^ 2 + kMinimum) ≤ c ^ 2

namespace Par

/-- The height of a point above the bottom plane, positive outside. -/
noncomputable def bottom (a : Par) (p : V3) : ℝ := (a.nb.x * p.x + a.nb.y * p.y + a.nb.z * (p.z + a.z)) / len a.nb
/-- The height of a point above the top plane, positive outside. -/
noncomputable def top (a : Par) (p : V3) : ℝ := (a.nt.x * p.x + a.nt.y * p.y + a.nt.z * (p.z - a.z)) / len a.nt

/-- Parameters that make sense, and that are smaller than `kInfLength` by more than the factor that the planes can add. -/
structure Valid (a : Par) : Prop where
  rmin : 0 ≤ a.rmin
  rmax : a.rmin < a.rmax
  z : 0 < a.z
  d : 0 < a.d
  d' : a.d ≤ 2 * π
  nb : a.nb.z < 0
  nt : 0 < a.nt.z
  cb : Clean a.nb
  ct : Clean a.nt
  fin : 10 * (a.z + 10 ^ 9 * a.rmax) < kInfLength

/-- The cut tube with its surface. -/
structure Closed (a : Par) (p : V3) : Prop where
  lo : a.rmin ≤ Tube.rad p
  hi : Tube.rad p ≤ a.rmax
  phi : Sector a.s a.d p.x p.y
  bot : a.bottom p ≤ 0
  top : a.top p ≤ 0

/-- The cut tube with the outer wall and the faces of the sector, but without the bore and the planes. -/
structure In (a : Par) (p : V3) : Prop where
  lo : 0 < a.rmin → a.rmin < Tube.rad p
  hi : Tube.rad p ≤ a.rmax
  phi : Sector a.s a.d p.x p.y
  bot : a.bottom p < 0
  top : a.top p < 0

/-- The planes do not meet in the tube: wherever a point is on (within the tolerance of) one of them, it is below the other.  The
constructor does not check it. -/
def Apart (a : Par) : Prop :=
  ∀ p, Tube.rad p ≤ a.rmax + kTolerance →
    (|a.bottom p| < kTolerance → a.top p < 0) ∧ (|a.top p| < kTolerance → a.bottom p < 0)

end Par
end CutTube
end VecGeom
