import Verif.Polygon.Model
import Mathlib.Topology.Connected.Basic
import Mathlib.Topology.Instances.Real.Lemmas

/-!
# What is expected of polygons

The vertices are `v 0, …, v (n - 1)` in the order in which the user gives them; the edges join neighbours, and the last vertex to the first.
-/

namespace VecGeom
namespace Polygon

open Real

/-- `q` lies on the closed segment from `a` to `b`. -/
def OnEdge (a b q : ℝ × ℝ) : Prop :=
  ∃ t : ℝ, 0 ≤ t ∧ t ≤ 1 ∧ q = (a.1 + t * (b.1 - a.1), a.2 + t * (b.2 - a.2))

/-- `q` lies on the segment from `a` to `b`, but at neither end. -/
def OnOpenEdge (a b q : ℝ × ℝ) : Prop :=
  ∃ t : ℝ, 0 < t ∧ t < 1 ∧ q = (a.1 + t * (b.1 - a.1), a.2 + t * (b.2 - a.2))

/-- The boundary. -/
def OnBoundary (n : Nat) (v : Nat → ℝ × ℝ) (q : ℝ × ℝ) : Prop :=
  ∃ i, i < n ∧ OnEdge (v i) (v ((i + 1) % n)) q

/-- No point of the boundary lies within `10⁻³⁰` straight above or below `q`. -/
def Clear (n : Nat) (v : Nat → ℝ × ℝ) (q : ℝ × ℝ) : Prop :=
  ∀ y, |y - q.2| ≤ 1 / 10 ^ 30 → ¬ OnBoundary n v (q.1, y)

/-- Positive on the left of the line from `a` to `b`, negative on the right. -/
def side (a b q : ℝ × ℝ) : ℝ := (b.1 - a.1) * (q.2 - a.2) - (b.2 - a.2) * (q.1 - a.1)

/-- The segment from `q` to `r` meets the boundary in one point only, which belongs to one edge only and is not a vertex, and its ends are on
different sides of that edge. -/
def CrossesOnce (n : Nat) (v : Nat → ℝ × ℝ) (q r : ℝ × ℝ) : Prop :=
  ∃ (i : Nat) (m : ℝ × ℝ), i < n ∧ OnEdge q r m ∧ OnOpenEdge (v i) (v ((i + 1) % n)) m ∧
    (∀ j, j < n → j ≠ i → ¬ OnEdge (v j) (v ((j + 1) % n)) m) ∧
    (∀ m', OnEdge q r m' → OnBoundary n v m' → m' = m) ∧
    side (v i) (v ((i + 1) % n)) q * side (v i) (v ((i + 1) % n)) r < 0

/-- Twice the signed area, positive if the order is counterclockwise (the shoelace formula). -/
noncomputable def shoelace (n : Nat) (v : Nat → ℝ × ℝ) : ℝ :=
  ∑ i ∈ Finset.range n, ((v i).1 * (v ((i + 1) % n)).2 - (v i).2 * (v ((i + 1) % n)).1)

end Polygon
end VecGeom
