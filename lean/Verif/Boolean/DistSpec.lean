import Verif.Boolean.Spec

/-!
# Specification of distances along a ray

`at' p d u` is the point at distance `u` along the ray.  A reported distance to enter must not jump over points of the
solid, a reported distance to leave must not run through points outside.
-/

namespace VecGeom
namespace Boolean

/-- No point of the region lies before the distance reported by `DistanceToIn` (up to the step limit). -/
def EntryOK (s : Solid) (X : Region) : Prop :=
  ∀ p d sm t, s.distanceToIn p d sm = some t → ∀ u, 0 ≤ u → u < t → u < sm → ¬ X (V3.at' p d u)

/-- All points up to the distance reported by `DistanceToOut` belong to the region (up to the step limit).  For points
outside a negative number is reported and nothing is claimed. -/
def ExitOK (s : Solid) (X : Region) : Prop :=
  ∀ p d sm t, s.distanceToOut p d sm = some t → ∀ u, 0 ≤ u → u ≤ t → u ≤ sm → X (V3.at' p d u)

/-- Directly behind the distance reported by `DistanceToOut` the region ends. -/
def ExitSharp (s : Solid) (X : Region) : Prop :=
  ∀ p d sm t, s.distanceToOut p d sm = some t → t < kInfLength →
    ∀ t', t < t' → 0 ≤ t' → ∃ u, 0 ≤ u ∧ u ≤ t' ∧ ¬ X (V3.at' p d u)

/-- Points that are not classified outside belong to the region. -/
def NotOutOK (s : Solid) (X : Region) : Prop := ∀ p, s.inside p ≠ .outside → X p

/-- A stretch of the ray, from `a` to `b`, runs through the region. -/
def Stretch (X : Region) (p d : V3) (a b : ℝ) : Prop := ∀ u, a ≤ u → u ≤ b → X (V3.at' p d u)

open Classical in
/-- A solid with exact answers for a given region, to show that the assumptions can be met.  Only the functions used by
the distances are meaningful. -/
noncomputable def ideal (X : Region) : Solid where
  contains p := decide (X p)
  inside p := if X p then .inside else .outside
  distanceToIn p d _ :=
    if ∃ u, 0 ≤ u ∧ X (V3.at' p d u) then some (sInf {u | 0 ≤ u ∧ X (V3.at' p d u)}) else some kInfLength
  distanceToOut p d _ :=
    if X p then
      if ∃ u, 0 ≤ u ∧ ¬ X (V3.at' p d u) then some (sInf {u | 0 ≤ u ∧ ¬ X (V3.at' p d u)}) else some kInfLength
    else some (-1)
  safetyToIn _ := 0
  safetyToOut _ := 0
  normal _ := (⟨0, 0, 1⟩, true)
  extent := ⟨⟨0, 0, 0⟩, ⟨0, 0, 0⟩⟩

end Boolean
end VecGeom
