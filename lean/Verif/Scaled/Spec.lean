import Verif.Scaled.Model
import Verif.Boolean.Spec

/-!
# Specification of scaled shapes

The region of a scaled shape is the image of the region under the stretch of each axis.
-/

namespace VecGeom
namespace Scaled

open Boolean

/-- The image of a region when every axis is stretched by its own factor. -/
def Stretched (k : V3) (X : Region) : Region := fun p => ∃ q, X q ∧ p = ⟨k.x * q.x, k.y * q.y, k.z * q.z⟩

/-- The factor by which lengths along a direction shrink in the frame of the unscaled shape. -/
noncomputable def factor (k d : V3) : ℝ := Real.sqrt ((d.x / k.x) ^ 2 + (d.y / k.y) ^ 2 + (d.z / k.z) ^ 2)

/-- A direction of length one. -/
def Unit (d : V3) : Prop := d.x ^ 2 + d.y ^ 2 + d.z ^ 2 = 1

/-- No point of the region lies before the distance to enter.  Directions have length one, and only points closer than
`inf d`, the number that counts as infinite in this direction, are considered. -/
def UnitEntryOK (s : Solid) (X : Region) (inf : V3 → ℝ) : Prop :=
  ∀ p d sm t, Unit d → s.distanceToIn p d sm = some t → ∀ u, 0 ≤ u → u < t → u < sm → u < inf d → ¬ X (V3.at' p d u)

/-- A finite, non-negative distance to enter ends at a point of the region. -/
def UnitEntryHits (s : Solid) (X : Region) : Prop :=
  ∀ p d sm t, Unit d → s.distanceToIn p d sm = some t → 0 ≤ t → t < kInfLength → X (V3.at' p d t)

/-- All points up to the distance to leave belong to the region. -/
def UnitExitOK (s : Solid) (X : Region) (inf : V3 → ℝ) : Prop :=
  ∀ p d sm t, Unit d → s.distanceToOut p d sm = some t → ∀ u, 0 ≤ u → u ≤ t → u ≤ sm → u < inf d → X (V3.at' p d u)

/-- Directly behind a finite distance to leave the region ends. -/
def UnitExitSharp (s : Solid) (X : Region) : Prop :=
  ∀ p d sm t, Unit d → s.distanceToOut p d sm = some t → t < kInfLength →
    ∀ t', t < t' → 0 ≤ t' → ∃ u, 0 ≤ u ∧ u ≤ t' ∧ ¬ X (V3.at' p d u)

end Scaled
end VecGeom
