import Verif.Boolean.Model
import Verif.Transform.Spec
import Verif.AABB.Spec

/-!
# Specification of boolean solids

Solids are sets of points.  A placement moves the set with the rigid motion from the local frame to the frame of the
mother (`InverseTransform`).
-/

namespace VecGeom
namespace Boolean

/-- A set of points. -/
abbrev Region := V3 → Prop

/-- The region moved into the frame of the mother. -/
def Moved (T : Trans3) (X : Region) : Region := fun p => ∃ q, X q ∧ T.inverseTransform q = p

/-- The set operation of a boolean operation. -/
def Op.apply : Op → Region → Region → Region
  | .union, X, Y => fun p => X p ∨ Y p
  | .intersection, X, Y => fun p => X p ∧ Y p
  | .subtraction, X, Y => fun p => X p ∧ ¬ Y p

/-- `p` lies in the region together with all points closer than some positive distance. -/
def Interior (X : Region) (p : V3) : Prop := ∃ e > 0, ∀ q, V3.dist p q < e → X q
/-- `p` lies outside together with all points closer than some positive distance. -/
def Exterior (X : Region) (p : V3) : Prop := Interior (fun q => ¬ X q) p

/-- `Contains` decides membership. -/
def ContainsOK (s : Solid) (X : Region) : Prop := ∀ p, s.contains p = true ↔ X p

/-- What the classification asserts at one point: inside and outside are true for all points nearby. -/
def ClassOK (c : Inside) (X : Region) (p : V3) : Prop := (c = .inside → Interior X p) ∧ (c = .outside → Exterior X p)
/-- The classification of one point is exact. -/
def ClassExact (c : Inside) (X : Region) (p : V3) : Prop := (c = .inside ↔ Interior X p) ∧ (c = .outside ↔ Exterior X p)

/-- The safety to enter is not larger than the distance to any point of the region. -/
def SafetyInOK (s : Solid) (X : Region) : Prop := ∀ p q, X q → s.safetyToIn p ≤ V3.dist p q
/-- The safety to leave is not larger than the distance to any point outside the region. -/
def SafetyOutOK (s : Solid) (X : Region) : Prop := ∀ p q, ¬ X q → s.safetyToOut p ≤ V3.dist p q

/-- The extent contains the region. -/
def ExtentOK (s : Solid) (X : Region) : Prop := ∀ p, X p → AABB.InBox s.extent p

/-- The placement is the identity map. -/
def Unmoved (T : Trans3) : Prop := ∀ p, T.transform p = p

/-- The region described by a tree, from the regions of its leaves. -/
def Tree.region (X : Solid → Region) : Tree → Region
  | .leaf s => X s
  | .node op tl l tr r => op.apply (Moved tl (l.region X)) (Moved tr (r.region X))

/-- Everything about the leaves and the placements of a tree: `P` for the leaves, `Q` for placements of left
constituents, `R` for those of right ones. -/
def Tree.All (P : Solid → Prop) (Q R : Trans3 → Prop) : Tree → Prop
  | .leaf s => P s
  | .node _ tl l tr r => Q tl ∧ l.All P Q R ∧ R tr ∧ r.All P Q R

/-- In no operation of the tree is the point on the surface of both constituents. -/
def Tree.NoCommonSurface (n : Nat) : Tree → V3 → Prop
  | .leaf _, _ => True
  | .node _ tl l tr r, p =>
    ¬ ((l.solid n).inside (tl.transform p) = .surface ∧ (r.solid n).inside (tr.transform p) = .surface) ∧
    l.NoCommonSurface n (tl.transform p) ∧ r.NoCommonSurface n (tr.transform p)

end Boolean
end VecGeom
