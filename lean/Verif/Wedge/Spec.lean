import Verif.Base.Num
import Mathlib.Analysis.SpecialFunctions.Trigonometric.Basic

/-!
# What a phi sector is

The points whose azimuth lies between two angles, in polar coordinates.
-/

namespace VecGeom

/-- The azimuth of `(x, y)` is in `[s, s + d]`; the origin has every azimuth. -/
def Sector (s d x y : ℝ) : Prop :=
  ∃ r t : ℝ, 0 ≤ r ∧ 0 ≤ t ∧ t ≤ d ∧ x = r * Real.cos (s + t) ∧ y = r * Real.sin (s + t)

/-- `(x, y)` is above a foot point on the ray with azimuth `s`, at signed height `h` (counted counterclockwise). -/
def AboveRay (s h x y : ℝ) : Prop :=
  ∃ r : ℝ, 0 ≤ r ∧ x = r * Real.cos s - h * Real.sin s ∧ y = r * Real.sin s + h * Real.cos s

end VecGeom
