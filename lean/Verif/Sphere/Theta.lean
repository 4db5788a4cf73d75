import Verif.Wedge.Model
import Verif.Tube.Model
import Mathlib.Analysis.SpecialFunctions.Trigonometric.Basic

/-!
# The sector of polar angles

Model of `VecGeom/volumes/ThetaCone_Evolution.h` (`ThetaCone`), the scalar code, `Precision` being `ℝ`.
-/

namespace VecGeom

open Real

open Classical in
/-- `tan` of `<cmath>`.  The double `kPi / 2` is smaller than π/2, and its tangent is 16331239353195370; this is what the code gets
for a right angle, here and in `slope1`, `slope2`. -/
noncomputable def ctan (x : ℝ) : ℝ := if x = π / 2 then 16331239353195370 else if x = -(π / 2) then -16331239353195370 else tan x

/-- The members (ThetaCone_Evolution.h:45-55).  `kAngTolerance` is `kTolerance`, `halfAngTolerance` the half of it. -/
structure ThetaCone where
  s : ℝ
  d : ℝ
  e : ℝ
  tanS : ℝ
  tanE : ℝ
  tanB : ℝ
  slope1 : ℝ
  slope2 : ℝ
  tanS2 : ℝ
  tanE2 : ℝ

namespace ThetaCone

open Classical in
/-- The constructor (ThetaCone_Evolution.h:61-84). -/
noncomputable def make (s d : ℝ) : ThetaCone :=
  let e := s + d
  let ts := if s > π / 2 then π - s else s
  let te := if e > π / 2 then π - e else e
  let tanS := ctan ts
  let tanE := ctan te
  { s := s, d := d, e := e, tanS := tanS, tanE := tanE
    tanB := if s > π / 2 ∧ e > π / 2 then ctan (ts - d / 2) else ctan (ts + d / 2)
    slope1 := ctan (π / 2 - s), slope2 := ctan (π / 2 - e), tanS2 := tanS * tanS, tanE2 := tanE * tanE }

/-- `Real_v(2 * kAngTolerance * 10.)` (ThetaCone_Evolution.h:682 and elsewhere). -/
noncomputable def slack : ℝ := 2 * kTolerance * 10

/-- `Perp` (Vector3D.h:156-163). -/
noncomputable def perp (p : V3) : ℝ := √(p.x * p.x + p.y * p.y)

/-- `isPointOnZAxis` (ThetaCone_Evolution.h:662-663). -/
def OnAxis (p : V3) : Prop := p.z ≠ 0 ∧ p.x = 0 ∧ p.y = 0

/-- `isPointOnXYPlane` (ThetaCone_Evolution.h:665-666). -/
def OnPlane (p : V3) : Prop := p.z = 0 ∧ (p.x ≠ 0 ∨ p.y ≠ 0)

open Classical in
/-- `IsCompletelyInside` (ThetaCone_Evolution.h:655-728).  `c |= (!c && x)` is `c ∨ x`.  The square root is taken of
`Mag2() - z * z`, which is the square of the distance from the axis. -/
noncomputable def CompletelyInside (c : ThetaCone) (p : V3) : Prop :=
  let rho := √(p.mag2 - p.z * p.z)
  let r1 := |p.z * c.tanS|
  let r2 := |p.z * c.tanE|
  let in0 : Prop := OnAxis p ∧ ((c.s = 0 ∧ c.e = π) ∨ (p.z > 0 ∧ c.s = 0) ∨ (p.z < 0 ∧ c.e = π))
  let in1 : Prop := in0 ∨ (OnPlane p ∧ c.s < π / 2 ∧ c.e > π / 2 ∧ π / 2 - c.s > kTolerance ∧ c.e - π / 2 > kTolerance)
  let in2 : Prop :=
    if c.s < π / 2 + kHalfTolerance then
      let a : Prop := if c.e < π / 2 + kHalfTolerance ∧ c.s < c.e then
        in1 ∨ ((rho ≤ r2 - slack ∧ rho ≥ r1 + slack ∧ p.z > 0 ∧ c.s ≠ 0) ∨ (rho ≤ r2 - slack ∧ c.s = 0 ∧ p.z > 0)) else in1
      let b : Prop := if c.e > π / 2 + kHalfTolerance ∧ c.s < c.e then
        a ∨ ((rho ≥ r1 + slack ∧ p.z > 0) ∨ (rho ≥ r2 + slack ∧ p.z < 0)) else a
      if c.e ≥ π / 2 - kHalfTolerance ∧ c.e ≤ π / 2 + kHalfTolerance then b ∧ ¬ |p.z| < kHalfTolerance else b
    else in1
  if c.e > π / 2 + kHalfTolerance then
    let a : Prop := if c.s ≥ π / 2 - kHalfTolerance ∧ c.s ≤ π / 2 + kHalfTolerance then in2 ∧ ¬ |p.z| < kHalfTolerance else in2
    if c.s > π / 2 + kHalfTolerance ∧ c.s < c.e then
      a ∨ ((rho ≤ r1 - slack ∧ rho ≥ r2 + slack ∧ p.z < 0 ∧ c.e ≠ π) ∨ (rho ≤ r1 - slack ∧ p.z < 0 ∧ c.e = π)) else a
  else in2

open Classical in
/-- `IsCompletelyOutside` (ThetaCone_Evolution.h:733-807). -/
noncomputable def CompletelyOutside (c : ThetaCone) (p : V3) : Prop :=
  let rho := perp p
  let r1 := |p.z * c.tanS|
  let r2 := |p.z * c.tanE|
  let out0 : Prop := OnAxis p ∧ ((c.s ≠ 0 ∧ c.e ≠ π) ∨ (p.z > 0 ∧ c.s ≠ 0) ∨ (p.z < 0 ∧ c.e ≠ π))
  let out1 : Prop := out0 ∨ (OnPlane p ∧
    ((c.s < π / 2 ∧ c.e < π / 2 ∧ π / 2 - c.s > kTolerance ∧ π / 2 - c.e > kTolerance) ∨
      ((c.s > π / 2 ∧ c.e > π / 2) ∧ c.s - π / 2 > kTolerance ∧ c.e - π / 2 > kTolerance)))
  let out2 : Prop :=
    if c.s < π / 2 + kHalfTolerance then
      let a : Prop := if c.e < π / 2 + kHalfTolerance ∧ c.s < c.e then
        out1 ∨ (rho < r1 - slack ∨ rho > r2 + slack ∨ p.z < 0) else out1
      let b : Prop := if c.e > π / 2 + kHalfTolerance ∧ c.s < c.e then
        a ∨ ((rho < r1 - slack ∧ p.z > 0) ∨ (rho < r2 - slack ∧ p.z < 0)) else a
      if c.e ≥ π / 2 - kHalfTolerance ∧ c.e ≤ π / 2 + kHalfTolerance then b ∧ ¬ |p.z| < kHalfTolerance else b
    else out1
  if c.e > π / 2 + kHalfTolerance then
    let a : Prop := if c.s ≥ π / 2 - kHalfTolerance ∧ c.s ≤ π / 2 + kHalfTolerance then out2 ∧ ¬ |p.z| < kHalfTolerance else out2
    if c.s > π / 2 + kHalfTolerance ∧ c.s < c.e then
      a ∨ (rho < r2 - slack ∨ rho > r1 + slack ∨ p.z > 0) else a
  else out2

open Classical in
/-- `Contains` (ThetaCone_Evolution.h:233-241). -/
noncomputable def contains (c : ThetaCone) (p : V3) : Bool := decide (¬ c.CompletelyOutside p)

/-- `DistanceToLine` (ThetaCone_Evolution.h:374-379). -/
noncomputable def distanceToLine (slope x y : ℝ) : ℝ := |(y - slope * x) / √(1 + slope * slope)|

open Classical in
/-- `SafetyToIn` (ThetaCone_Evolution.h:284-330). -/
noncomputable def safetyToIn (c : ThetaCone) (p : V3) : ℝ :=
  let r := √(p.x * p.x + p.y * p.y)
  let f1 := distanceToLine c.slope1 r p.z
  let f2 := distanceToLine c.slope2 r p.z
  if c.contains p then 0
  else
    let v := min f1 f2
    let v := if c.s < π / 2 + kHalfTolerance then
        let v := if c.e < π / 2 + kHalfTolerance ∧ c.s < c.e ∧ p.z < 0 then f2 else v
        let v := if c.e > π / 2 + kHalfTolerance ∧ c.s < c.e ∧ p.z > 0 then f1 else v
        if c.e > π / 2 + kHalfTolerance ∧ c.s < c.e ∧ p.z < 0 then f2 else v
      else v
    if c.e > π / 2 + kHalfTolerance ∧ c.s > π / 2 + kHalfTolerance ∧ c.s < c.e ∧ p.z > 0 then f1 else v

open Classical in
/-- `SafetyToOut` (ThetaCone_Evolution.h:334-370). -/
noncomputable def safetyToOut (c : ThetaCone) (p : V3) : ℝ :=
  let r := √(p.x * p.x + p.y * p.y)
  let bis := |p.z * c.tanB|
  let f1 := distanceToLine c.slope1 r p.z
  let f2 := distanceToLine c.slope2 r p.z
  let cond : Prop := False
  let cond : Prop := if c.s < π / 2 + kHalfTolerance ∧ c.e < π / 2 + kHalfTolerance ∧ c.s < c.e then r < bis ∧ c.s ≠ 0 else cond
  let cond : Prop := if c.s < π / 2 + kHalfTolerance ∧ c.e > π / 2 + kHalfTolerance ∧ c.s < c.e then f1 < f2 else cond
  let cond : Prop := if c.e > π / 2 + kHalfTolerance ∧ c.s > π / 2 + kHalfTolerance ∧ c.s < c.e then ¬ (r < bis ∧ c.e ≠ π) else cond
  if cond then f1 else f2

open Classical in
/-- `GetNormal1` (ThetaCone_Evolution.h:108-118). -/
noncomputable def normal1 (c : ThetaCone) (p : V3) : V3 :=
  let n : V3 := ⟨2 * p.x, 2 * p.y, -2 * c.tanS2 * p.z⟩
  if c.s ≤ π / 2 then n.neg else n

open Classical in
/-- `GetNormal2` (ThetaCone_Evolution.h:129-139). -/
noncomputable def normal2 (c : ThetaCone) (p : V3) : V3 :=
  let n : V3 := ⟨2 * p.x, 2 * p.y, -2 * c.tanE2 * p.z⟩
  if c.e ≤ π / 2 then n else n.neg

/-- `IsOnSurfaceGeneric<Real_v, ForStartTheta>` (ThetaCone_Evolution.h:185-197). -/
def IsOnSurface (c : ThetaCone) (start : Bool) (p : V3) : Prop :=
  let rhs := |(if start then c.tanS else c.tanE) * p.z|
  p.x * p.x + p.y * p.y ≥ Tube.minusTolerantSquare true rhs ∧ p.x * p.x + p.y * p.y ≤ Tube.plusTolerantSquare true rhs

end ThetaCone
end VecGeom
