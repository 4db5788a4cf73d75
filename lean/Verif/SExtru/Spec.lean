import Verif.SExtru.Model
import Verif.Polygon.FlagProps
import Verif.AABB.Props

/-!
# What is expected of extruded polygons
-/

namespace VecGeom
namespace SExtru

open Real Polygon

/-- The polygon as a closed set: the boundary and the points from which a ray to the right crosses it an odd number of times. -/
def Region (n : Nat) (v : Nat → ℝ × ℝ) (q : ℝ × ℝ) : Prop := OnBoundary n v q ∨ par n v q = 1

/-- The solid. -/
def InSolid (n : Nat) (v : Nat → ℝ × ℝ) (lo hi : ℝ) (p : V3) : Prop := lo ≤ p.z ∧ p.z ≤ hi ∧ Region n v (p.x, p.y)

/-- Its surface. -/
def OnSurface (n : Nat) (v : Nat → ℝ × ℝ) (lo hi : ℝ) (p : V3) : Prop :=
  InSolid n v lo hi p ∧ (p.z = lo ∨ p.z = hi ∨ OnBoundary n v (p.x, p.y))

/-- `s` has been made from these vertices, of which no two neighbours are equal, and these planes. -/
structure Given (k n : Nat) (x y : Nat → ℝ) (lo hi : ℝ) (s : Shell) : Prop where
  lanes : 0 < k
  few : n < 2 ^ 31
  made : make k n x y lo hi = some s
  distinct : ∀ i, i < n → ((x i, y i) : ℝ × ℝ) ≠ (x ((i + 1) % n), y ((i + 1) % n))
  small : ∀ i, i < n → |x i| ≤ 10 ^ 100 ∧ |y i| ≤ 10 ^ 100
  order : lo ≤ hi

/-- The coordinates of a point are at most `10¹⁰⁰`. -/
def Small (p : V3) : Prop := |p.x| ≤ 10 ^ 100 ∧ |p.y| ≤ 10 ^ 100

end SExtru
end VecGeom
