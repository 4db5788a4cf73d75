import Verif.Base.Halfspace

/-!
# Specification of the tetrahedron: convex hull and half spaces
-/

namespace VecGeom
namespace Tet

/-- Six times the signed volume of the tetrahedron with the given corners. -/
def volume6 (a b c o : V3) : ℝ :=
  (a.x - o.x) * ((b.y - o.y) * (c.z - o.z) - (b.z - o.z) * (c.y - o.y)) -
  (a.y - o.y) * ((b.x - o.x) * (c.z - o.z) - (b.z - o.z) * (c.x - o.x)) +
  (a.z - o.z) * ((b.x - o.x) * (c.y - o.y) - (b.y - o.y) * (c.x - o.x))

/-- The weighted mean of three points is `q`. -/
def IsMix (a b c o : V3) (wa wb wc wo : ℝ) (q : V3) : Prop :=
  q.x = wa * a.x + wb * b.x + wc * c.x + wo * o.x ∧
  q.y = wa * a.y + wb * b.y + wc * c.y + wo * o.y ∧
  q.z = wa * a.z + wb * b.z + wc * c.z + wo * o.z

/-- The convex hull of four points. -/
def Hull (a b c o : V3) (q : V3) : Prop :=
  ∃ wa wb wc wo : ℝ, 0 ≤ wa ∧ 0 ≤ wb ∧ 0 ≤ wc ∧ 0 ≤ wo ∧ wa + wb + wc + wo = 1 ∧ IsMix a b c o wa wb wc wo q

/-- The triangle with three given corners. -/
def Triangle (a b c : V3) (q : V3) : Prop :=
  ∃ wa wb wc : ℝ, 0 ≤ wa ∧ 0 ≤ wb ∧ 0 ≤ wc ∧ wa + wb + wc = 1 ∧
    q.x = wa * a.x + wb * b.x + wc * c.x ∧ q.y = wa * a.y + wb * b.y + wc * c.y ∧ q.z = wa * a.z + wb * b.z + wc * c.z

/-- The solid bounded by planes: the points on or below all of them. -/
def Below (pls : List Plane) (q : V3) : Prop := ∀ pl ∈ pls, pl.n.dot q + pl.d ≤ 0

end Tet
end VecGeom
