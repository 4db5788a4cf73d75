import Verif.Base.Num
import Mathlib.Analysis.SpecialFunctions.Trigonometric.Basic

/-!
# Specification of the parallelepiped: sets of points

A parallelepiped is given by half lengths and the three numbers `tan α`, `tan θ cos φ`, `tan θ sin φ`: its axes are
`(1, 0, 0)`, `(tan α, 1, 0)` and `(tan θ cos φ, tan θ sin φ, 1)`.
-/

namespace VecGeom
namespace Para

/-- A parallelepiped: half lengths along the axes and the slopes of the axes. -/
structure Shape where
  h : V3
  ta : ℝ
  tc : ℝ
  ts : ℝ

/-- The shape that half lengths and angles describe. -/
noncomputable def Shape.ofAngles (h : V3) (alpha theta phi : ℝ) : Shape :=
  ⟨h, Real.tan alpha, Real.tan theta * Real.cos phi, Real.tan theta * Real.sin phi⟩

/-- The point with the given coordinates along the axes. -/
def Shape.point (S : Shape) (a b c : ℝ) : V3 := ⟨a + b * S.ta + c * S.tc, b + c * S.ts, c⟩

/-- The closed parallelepiped. -/
def Closed (S : Shape) (q : V3) : Prop := ∃ a b c, |a| ≤ S.h.x ∧ |b| ≤ S.h.y ∧ |c| ≤ S.h.z ∧ q = S.point a b c
/-- The open parallelepiped. -/
def Open (S : Shape) (q : V3) : Prop := ∃ a b c, |a| < S.h.x ∧ |b| < S.h.y ∧ |c| < S.h.z ∧ q = S.point a b c
/-- The boundary. -/
def Boundary (S : Shape) (q : V3) : Prop := Closed S q ∧ ¬ Open S q
/-- Positive half lengths. -/
def Proper (S : Shape) : Prop := 0 < S.h.x ∧ 0 < S.h.y ∧ 0 < S.h.z

/-- The direction `d'` that the kernels follow for the direction `d`: the components along the axes are moved away from zero
by `NonZero`. -/
def Followed (S : Shape) (d d' : V3) : Prop :=
  ∃ a b c, d = S.point a b c ∧ d' = S.point (nonZero a) (nonZero b) (nonZero c)

/-- The point has a ball of radius `r` around it in the open parallelepiped. -/
def Deep (S : Shape) (r : ℝ) (q : V3) : Prop := ∀ q', V3.dist q q' ≤ r → Open S q'

end Para
end VecGeom
