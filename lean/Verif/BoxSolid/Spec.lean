import Verif.Base.Num

/-!
# Specification of the box solid: sets of points
-/

namespace VecGeom
namespace BoxSolid

/-- The closed box with half lengths `h`. -/
def Closed (h q : V3) : Prop := |q.x| ≤ h.x ∧ |q.y| ≤ h.y ∧ |q.z| ≤ h.z
/-- The open box with half lengths `h`. -/
def Open (h q : V3) : Prop := |q.x| < h.x ∧ |q.y| < h.y ∧ |q.z| < h.z
/-- The boundary of the box. -/
def Boundary (h q : V3) : Prop := Closed h q ∧ (|q.x| = h.x ∨ |q.y| = h.y ∨ |q.z| = h.z)
/-- The points of the box farther than `m` from all faces. -/
def Deep (h : V3) (m : ℝ) (q : V3) : Prop := |q.x| < h.x - m ∧ |q.y| < h.y - m ∧ |q.z| < h.z - m
/-- The box grown by `m` on all sides. -/
def Grown (h : V3) (m : ℝ) (q : V3) : Prop := |q.x| ≤ h.x + m ∧ |q.y| ≤ h.y + m ∧ |q.z| ≤ h.z + m

/-- Positive half lengths. -/
def Proper (h : V3) : Prop := 0 < h.x ∧ 0 < h.y ∧ 0 < h.z

end BoxSolid
end VecGeom
