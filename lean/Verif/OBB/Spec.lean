import Verif.Transform.Spec

/-!
# Boxes in space
-/

namespace VecGeom
namespace OBB

/-- The box between two corners, in its own frame. -/
def InBox (lower upper p : V3) : Prop :=
  (lower.x ≤ p.x ∧ p.x ≤ upper.x) ∧ (lower.y ≤ p.y ∧ p.y ≤ upper.y) ∧ (lower.z ≤ p.z ∧ p.z ≤ upper.z)

/-- Two placed boxes have a point in common: a point of the frame of the mother that is the image of a point of each. -/
def Meet (lower1 upper1 lower2 upper2 : V3) (t1 t2 : Trans3) : Prop :=
  ∃ p q, InBox lower1 upper1 p ∧ InBox lower2 upper2 q ∧ t1.affine p = t2.affine q

end OBB
end VecGeom
