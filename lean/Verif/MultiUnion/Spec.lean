import Verif.MultiUnion.Model
import Verif.Boolean.DistSpec
import Verif.AABB.Spec

/-!
# Specification of unions of many solids

The union is the set of the points of all components.  Nothing is known about the components beyond what their virtual functions
promise for their own regions.
-/

namespace VecGeom
namespace MultiUnion

open AABB
open Boolean (Placed Solid Region Moved)

/-- A union filled with a list of components by `AddNode`. -/
noncomputable def filled (l : List Placed) : MU := l.foldl addNode create

/-- The points of the union; `X` gives the region of a solid. -/
def region (X : Solid → Region) (l : List Placed) : Region := fun p => ∃ v ∈ l, Moved v.trans (X v.solid) p

/-- The points that are claimed by a solid, being contained or not outside, lie in the extent or not farther from it than a thousandth. -/
def Tight (s : Solid) : Prop :=
  ∀ p, (s.inside p ≠ .outside ∨ s.contains p = true) → ∃ q, InBox s.extent q ∧ V3.dist p q < 1 / 1000

/-- The boxes come within a tolerance of each other: on no axis is there a larger gap between them. -/
def Touching (a b : Box) : Prop :=
  (a.lo.x ≤ b.hi.x + kTolerance ∧ b.lo.x ≤ a.hi.x + kTolerance) ∧
  (a.lo.y ≤ b.hi.y + kTolerance ∧ b.lo.y ≤ a.hi.y + kTolerance) ∧
  (a.lo.z ≤ b.hi.z + kTolerance ∧ b.lo.z ≤ a.hi.z + kTolerance)

/-- Coordinates of a box within an eighth of the number `M` used for unused lanes. -/
def InRange (M : ℝ) (b : Box) : Prop :=
  ∀ q, InBox b q → |q.x| ≤ M / 8 ∧ |q.y| ≤ M / 8 ∧ |q.z| ≤ M / 8

/-- A solid answers `DistanceToOut` with a number that is not negative for every point classified as inside. -/
def Leaves (s : Solid) : Prop := ∀ p d sm, s.inside p = .inside → ∃ t, s.distanceToOut p d sm = some t ∧ 0 ≤ t

/-- No point of the region lies before the distance reported by `DistanceToIn`, for unit directions and path
lengths up to `L`. -/
def EntryUpTo (L : ℝ) (s : Solid) (X : Region) : Prop :=
  ∀ p d sm t, d.mag2 = 1 → s.distanceToIn p d sm = some t → ∀ u, 0 ≤ u → u < t → u < sm → u ≤ L → ¬ X (V3.at' p d u)

/-- A solid answers `DistanceToIn` for every ray. -/
def Enters (s : Solid) : Prop := ∀ p d sm, ∃ t, s.distanceToIn p d sm = some t

end MultiUnion
end VecGeom
