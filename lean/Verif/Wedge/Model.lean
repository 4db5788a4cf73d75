import Verif.Base.Halfspace
import Mathlib.Analysis.SpecialFunctions.Trigonometric.Basic

/-!
# The phi sector

Model of `VecGeom/volumes/Wedge_Evolution.h` and `source/Wedge_Evolution.cpp` (`evolution::Wedge`, used by tubes, cones and
polycones) and of `VecGeom/volumes/Wedge.h` and `source/Wedge.cpp` (`Wedge`), which only differs in the distances.  Scalar code;
`Precision` is `ℝ`.  The vectors have no z component.
-/

namespace VecGeom

/-- The members (Wedge_Evolution.h:46-55, Wedge.h:44-53); `a1`, `a2` are the vectors along the two planes, `n1`, `n2` the
normals, which point inwards. -/
structure Wedge where
  sphi : ℝ
  dphi : ℝ
  a1x : ℝ
  a1y : ℝ
  a2x : ℝ
  a2y : ℝ
  n1x : ℝ
  n1y : ℝ
  n2x : ℝ
  n2y : ℝ

namespace Wedge

/-- The constructor of `Wedge` (Wedge.cpp:15-31).  The one of `evolution::Wedge` (Wedge_Evolution.cpp:17-104) is the same, but
for the start angle, which it leaves at zero (and which nothing reads). -/
noncomputable def make (angle zeroangle : ℝ) : Wedge where
  sphi := zeroangle
  dphi := angle
  a1x := Real.cos zeroangle
  a1y := Real.sin zeroangle
  a2x := Real.cos (zeroangle + angle)
  a2y := Real.sin (zeroangle + angle)
  n1x := -Real.sin zeroangle
  n1y := Real.cos zeroangle
  n2x := Real.sin (zeroangle + angle)
  n2y := -Real.cos (zeroangle + angle)

/-- `SetStartPhi` (Wedge_Evolution.h:68). -/
def setStartPhi (w : Wedge) (a : ℝ) : Wedge := { w with sphi := a }

/-- `SetDeltaPhi` (Wedge_Evolution.h:71). -/
def setDeltaPhi (w : Wedge) (a : ℝ) : Wedge := { w with dphi := a }

/-- `Set` (Wedge_Evolution.h:74-78). -/
def set (w : Wedge) (dphi sphi : ℝ) : Wedge := setDeltaPhi (setStartPhi w sphi) dphi

/-- `startCheck` (Wedge_Evolution.h:322). -/
def startCheck (w : Wedge) (p : V3) : ℝ := -p.x * w.a1y + p.y * w.a1x

/-- `endCheck` (Wedge_Evolution.h:323). -/
def endCheck (w : Wedge) (p : V3) : ℝ := -w.a2x * p.y + w.a2y * p.x

/-- `IsOnSurfaceGeneric` with a plane (Wedge_Evolution.h:341-354). -/
def IsOnSurfaceGeneric (ax ay nx ny : ℝ) (p : V3) : Prop := ax * p.x + ay * p.y ≥ 0 ∧ |nx * p.x + ny * p.y| < kTolerance

/-- `IsOnSurface1` (Wedge_Evolution.h:171-174). -/
def IsOnSurface1 (w : Wedge) (p : V3) : Prop := IsOnSurfaceGeneric w.a1x w.a1y w.n1x w.n1y p

/-- `IsOnSurface2` (Wedge_Evolution.h:177-180). -/
def IsOnSurface2 (w : Wedge) (p : V3) : Prop := IsOnSurfaceGeneric w.a2x w.a2y w.n2x w.n2y p

/-- The first part of `GenericKernelForContainsAndInside` (Wedge_Evolution.h:325-329): completely outside, without
tolerance. -/
def Out (w : Wedge) (p : V3) : Prop :=
  (w.dphi < Real.pi ∧ (w.startCheck p < 0 ∨ w.endCheck p < 0)) ∨ (¬ w.dphi < Real.pi ∧ w.startCheck p < 0 ∧ w.endCheck p < 0)

/-- On one of the two surfaces (Wedge_Evolution.h:333-335). -/
def OnSurface (w : Wedge) (p : V3) : Prop := w.IsOnSurface1 p ∨ w.IsOnSurface2 p

/-- `completelyoutside` of `GenericKernelForContainsAndInside<Real_v, ForInside>` (Wedge_Evolution.h:306-339). -/
def CompletelyOutside (forInside : Bool) (w : Wedge) (p : V3) : Prop := w.Out p ∧ (forInside = true → ¬ w.OnSurface p)

/-- `completelyinside` of `GenericKernelForContainsAndInside<Real_v, true>` (Wedge_Evolution.h:337). -/
def CompletelyInside (w : Wedge) (p : V3) : Prop := ¬ w.OnSurface p ∧ ¬ w.CompletelyOutside true p

open Classical in
/-- `Contains` (Wedge_Evolution.h:294-303). -/
noncomputable def contains (w : Wedge) (p : V3) : Bool := decide (¬ w.CompletelyOutside false p)

open Classical in
/-- `ContainsWithBoundary` (Wedge_Evolution.h:274-282). -/
noncomputable def containsWithBoundary (w : Wedge) (p : V3) : Bool := decide (¬ w.CompletelyOutside true p)

open Classical in
/-- `ContainsWithoutBoundary` (Wedge_Evolution.h:284-292). -/
noncomputable def containsWithoutBoundary (w : Wedge) (p : V3) : Bool := decide (w.CompletelyInside p)

open Classical in
/-- `Inside` (Wedge_Evolution.h:260-272); the assignment for inside comes last. -/
noncomputable def inside (w : Wedge) (p : V3) : Inside :=
  if w.CompletelyInside p then .inside else if w.CompletelyOutside true p then .outside else .surface

open Classical in
/-- `SafetyToOut` (Wedge_Evolution.h:356-373). -/
noncomputable def safetyToOut (w : Wedge) (p : V3) : ℝ :=
  let dist1 := p.x * w.n1x + p.y * w.n1y
  let dist2 := p.x * w.n2x + p.y * w.n2y
  if w.dphi < Real.pi then min dist1 dist2 else max dist1 dist2

open Classical in
/-- `SafetyToIn` (Wedge_Evolution.h:375-394). -/
noncomputable def safetyToIn (w : Wedge) (p : V3) : ℝ :=
  let dist1 := p.x * w.n1x + p.y * w.n1y
  let dist2 := p.x * w.n2x + p.y * w.n2y
  if w.dphi < Real.pi then max (-1 * dist1) (-1 * dist2) else min (-1 * dist1) (-1 * dist2)

open Classical in
/-- One plane in `DistanceToIn` (Wedge_Evolution.h:409-421): distances must exceed `least`, which is zero for
`evolution::Wedge`, and minus the tolerance for `Wedge` (Wedge.h:422-431). -/
noncomputable def planeIn (least nx ny : ℝ) (p d : V3) : ℝ :=
  let comp := d.x * nx + d.y * ny
  let tmp := -(p.x * nx + p.y * ny) / comp
  if comp > 0 ∧ tmp > least then tmp else kInfLength

/-- `DistanceToIn` (Wedge_Evolution.h:396-422, Wedge.h:404-435). -/
noncomputable def distanceToIn (least : ℝ) (w : Wedge) (p d : V3) : ℝ × ℝ :=
  (planeIn least w.n1x w.n1y p d, planeIn least w.n2x w.n2y p d)

open Classical in
/-- One plane in `DistanceToOut` (Wedge_Evolution.h:444-454, Wedge.h:459-469). -/
noncomputable def planeOut (least nx ny : ℝ) (p d : V3) : ℝ :=
  let comp := d.x * nx + d.y * ny
  let tmp := -(p.x * nx + p.y * ny) / comp
  if comp < 0 ∧ tmp > least then tmp else kInfLength

/-- `DistanceToOut` (Wedge_Evolution.h:424-455, Wedge.h:437-473). -/
noncomputable def distanceToOut (least : ℝ) (w : Wedge) (p d : V3) : ℝ × ℝ :=
  (planeOut least w.n1x w.n1y p d, planeOut least w.n2x w.n2y p d)

/-- `IsPointOnSurfaceAndMovingOut<ForStartPhi, MovingOut>` (Wedge_Evolution.h:233-246). -/
def IsOnSurfaceAndMovingOut (forStartPhi movingOut : Bool) (w : Wedge) (p d : V3) : Prop :=
  (if forStartPhi then w.IsOnSurface1 p else w.IsOnSurface2 p) ∧
  (if movingOut then (if forStartPhi then d.x * -w.n1x + d.y * -w.n1y else d.x * -w.n2x + d.y * -w.n2y) > 5 / 1000 * kHalfTolerance
    else (if forStartPhi then d.x * -w.n1x + d.y * -w.n1y else d.x * -w.n2x + d.y * -w.n2y) < 5 / 1000 * kHalfTolerance)

end Wedge
end VecGeom
