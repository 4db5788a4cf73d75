import Verif.AABB.Model

/-!
# Specification of aligned boxes: sets of points, without any of the functions of the code
-/

namespace VecGeom
namespace AABB

/-- `q` is a point of the closed box with corners `b.lo` and `b.hi`. -/
def InBox (b : Box) (q : V3) : Prop :=
  (b.lo.x ≤ q.x ∧ q.x ≤ b.hi.x) ∧ (b.lo.y ≤ q.y ∧ q.y ≤ b.hi.y) ∧ (b.lo.z ≤ q.z ∧ q.z ≤ b.hi.z)

/-- `q` is a point of the box at least `m` away from each face plane (for `m < 0`: of the box grown by `-m`). -/
def InBoxMargin (b : Box) (m : ℝ) (q : V3) : Prop :=
  (b.lo.x + m ≤ q.x ∧ q.x ≤ b.hi.x - m) ∧ (b.lo.y + m ≤ q.y ∧ q.y ≤ b.hi.y - m) ∧
  (b.lo.z + m ≤ q.z ∧ q.z ≤ b.hi.z - m)

/-- The box grown on each axis by its own amount. -/
def InBoxGrown (b : Box) (m : V3) (q : V3) : Prop :=
  (b.lo.x - m.x ≤ q.x ∧ q.x ≤ b.hi.x + m.x) ∧ (b.lo.y - m.y ≤ q.y ∧ q.y ≤ b.hi.y + m.y) ∧
  (b.lo.z - m.z ≤ q.z ∧ q.z ≤ b.hi.z + m.z)

/-- The corners are in order. -/
def Valid (b : Box) : Prop := b.lo.x ≤ b.hi.x ∧ b.lo.y ≤ b.hi.y ∧ b.lo.z ≤ b.hi.z

/-- No component of the direction is zero. -/
def Full (d : V3) : Prop := d.x ≠ 0 ∧ d.y ≠ 0 ∧ d.z ≠ 0

end AABB
end VecGeom
