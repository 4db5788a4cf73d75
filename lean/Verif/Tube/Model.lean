import Verif.Wedge.Model

/-!
# The tube

Model of `VecGeom/volumes/TubeStruct.h`, `VecGeom/volumes/kernel/TubeImplementation.h`,
`VecGeom/volumes/kernel/shapetypes/TubeTypes.h`, `VecGeom/volumes/UnplacedTube.h` and `source/UnplacedTube.cpp`: scalar code,
`TUBE_SAFETY_OLD` defined (TubeImplementation.h:5), `Precision` is `ℝ`.  `done` flags that end the function for scalars
(`EarlyReturnAllowed` with a full mask) are ends of the function.
-/

namespace VecGeom
namespace Tube

open Real

/-! ## Struct -/

/-- The members of `TubeStruct` (TubeStruct.h:17-41). -/
structure Struct where
  rmin : ℝ
  rmax : ℝ
  z : ℝ
  sphi : ℝ
  dphi : ℝ
  rmin2 : ℝ
  rmax2 : ℝ
  a1x : ℝ
  a1y : ℝ
  a2x : ℝ
  a2y : ℝ
  tolIrmin2 : ℝ
  tolOrmin2 : ℝ
  tolIrmax2 : ℝ
  tolOrmax2 : ℝ
  tolOz : ℝ
  maxVal : ℝ
  wedge : Wedge

/-- `UpdatedZ` (TubeStruct.h:44-49); `fTolIz` is not read by the tube. -/
noncomputable def updatedZ (t : Struct) : Struct := { t with tolOz := t.z + kHalfTolerance, maxVal := max t.rmax t.z }

/-- `UpdatedRMin` (TubeStruct.h:52-59). -/
noncomputable def updatedRMin (t : Struct) : Struct :=
  { t with rmin2 := t.rmin * t.rmin
           tolOrmin2 := (t.rmin - kHalfTolerance) * (t.rmin - kHalfTolerance)
           tolIrmin2 := (t.rmin + kHalfTolerance) * (t.rmin + kHalfTolerance) }

/-- `UpdatedRMax` (TubeStruct.h:62-70). -/
noncomputable def updatedRMax (t : Struct) : Struct :=
  { t with rmax2 := t.rmax * t.rmax
           tolOrmax2 := (t.rmax + kHalfTolerance) * (t.rmax + kHalfTolerance)
           tolIrmax2 := (t.rmax - kHalfTolerance) * (t.rmax - kHalfTolerance)
           maxVal := max t.rmax t.z }

/-- The along vector of the first phi plane (`GetAlongVectorToPhiSector`, TubeStruct.h:81-85). -/
noncomputable def updatedAlong1 (t : Struct) : Struct := { t with a1x := cos t.sphi, a1y := sin t.sphi }

/-- The along vector of the second phi plane. -/
noncomputable def updatedAlong2 (t : Struct) : Struct := { t with a2x := cos (t.sphi + t.dphi), a2y := sin (t.sphi + t.dphi) }

/-- `CalculateCached` (TubeStruct.h:153-163). -/
noncomputable def calculateCached (t : Struct) : Struct :=
  updatedAlong2 (updatedAlong1 (updatedRMax (updatedRMin (updatedZ t))))

open Classical in
/-- The constructor (TubeStruct.h:168-175). -/
noncomputable def make (rmin rmax z sphi dphi : ℝ) : Struct :=
  calculateCached
    { rmin := if rmin < 0 then 0 else rmin, rmax := rmax, z := z, sphi := sphi, dphi := dphi, rmin2 := 0, rmax2 := 0
      a1x := 0, a1y := 0, a2x := 0, a2y := 0, tolIrmin2 := 0, tolOrmin2 := 0, tolIrmax2 := 0, tolOrmax2 := 0, tolOz := 0
      maxVal := 0, wedge := Wedge.make dphi sphi }

/-- `SetRMin` (TubeStruct.h:89-94). -/
noncomputable def setRMin (t : Struct) (a : ℝ) : Struct := updatedRMin { t with rmin := a }
/-- `SetRMax` (TubeStruct.h:97-102). -/
noncomputable def setRMax (t : Struct) (a : ℝ) : Struct := updatedRMax { t with rmax := a }
/-- `SetDz` (TubeStruct.h:105-110). -/
noncomputable def setDz (t : Struct) (a : ℝ) : Struct := updatedZ { t with z := a }

/-- `std::fmod(a, kTwoPi)` for `a` that is not negative. -/
noncomputable def fmodTwoPi (a : ℝ) : ℝ := a - ⌊a / (2 * π)⌋ * (2 * π)

open Classical in
/-- `SetAndCheckSPhiAngle` (TubeStruct.h:114-128), the body of `SetSPhi`. -/
noncomputable def setSPhi (t : Struct) (a : ℝ) : Struct :=
  let s := if a < 0 then 2 * π - fmodTwoPi |a| else fmodTwoPi a
  let s := if s + t.dphi > 2 * π then s - 2 * π else s
  updatedAlong2 (updatedAlong1 { t with sphi := s })

/-- `kAngTolerance` (Math.h). -/
noncomputable def kAngTolerance : ℝ := kTolerance

open Classical in
/-- `SetAndCheckDPhiAngle` (TubeStruct.h:132-149), the body of `SetDPhi`. -/
noncomputable def setDPhi (t : Struct) (a : ℝ) : Struct :=
  updatedAlong2 (if a ≥ 2 * π - 1 / 2 * kAngTolerance then { t with dphi := 2 * π, sphi := 0 }
    else if a > 0 then { t with dphi := a } else t)

/-! ## Tube types -/

/-- `EAngleType` (TubeTypes.h:147). -/
inductive Angle where
  | none
  | smaller
  | pi
  | bigger
  | unknown
deriving DecidableEq

/-- A tube type: whether the type says that there is no inner radius, and what it says on the sector.  `UniversalTube` is
`⟨false, .unknown⟩` (TubeTypes.h:39-59). -/
structure TType where
  solid : Bool
  angle : Angle
deriving DecidableEq

/-- `UniversalTube` (TubeTypes.h:39). -/
def universal : TType := ⟨false, .unknown⟩

/-- `checkRminTreatment` (TubeTypes.h:104-144). -/
def RminT (ty : TType) (t : Struct) : Prop := ty.solid = false ∧ t.rmin > 0

/-- `checkPhiTreatment` (TubeTypes.h:69-101). -/
def PhiT (ty : TType) (t : Struct) : Prop :=
  match ty.angle with
  | .none => False
  | .unknown => t.dphi < 2 * π
  | _ => True

open Classical in
/-- `Maker<UnplacedTube>::MakeInstance` (UnplacedTube.cpp:93-118); openings above `2 pi` are cut. -/
noncomputable def makeInstance (rmin rmax z sphi dphi : ℝ) : TType × Struct :=
  let solid : Bool := decide (rmin ≤ 0)
  if dphi ≥ 2 * π then (⟨solid, .none⟩, make rmin rmax z sphi (2 * π))
  else if dphi = π then (⟨solid, .pi⟩, make rmin rmax z sphi dphi)
  else if dphi < π then (⟨solid, .smaller⟩, make rmin rmax z sphi dphi)
  else (⟨solid, .bigger⟩, make rmin rmax z sphi dphi)

/-! ## Utilities -/

/-- The choice of `smallerthanpi` in `PointInCyclicalSector` (TubeImplementation.h:73-78). -/
def SmallerThanPi (ty : TType) (t : Struct) : Prop :=
  match ty.angle with
  | .unknown => t.dphi ≤ π
  | .pi => True
  | .smaller => True
  | _ => False

/-- `startCheck` (TubeImplementation.h:80). -/
def startCheck (t : Struct) (x y : ℝ) : ℝ := -x * t.a1y + y * t.a1x
/-- `endCheck` (TubeImplementation.h:81). -/
def endCheck (t : Struct) (x y : ℝ) : ℝ := -t.a2x * y + t.a2y * x

/-- `PointInCyclicalSector<…, false, includeSurface>` (TubeImplementation.h:58-99). -/
def InSector (ty : TType) (t : Struct) (includeSurface : Bool) (x y : ℝ) : Prop :=
  let tol := if includeSurface then -kHalfTolerance else kHalfTolerance
  (SmallerThanPi ty t ∧ startCheck t x y ≥ tol ∧ endCheck t x y ≥ tol) ∨
  (¬ SmallerThanPi ty t ∧ (startCheck t x y ≥ tol ∨ endCheck t x y ≥ tol))

open Classical in
/-- The root in `CircleTrajectoryIntersection` (TubeImplementation.h:110-118). -/
noncomputable def circleDist (largest : Bool) (b c : ℝ) : ℝ :=
  let delta := b * b - c
  let ok := delta > 0 ∨ (largest = true ∧ delta = 0)
  let delta := if ok then delta else 0;
  -b + (if largest then √delta else -√delta)

/-- `ok` of `CircleTrajectoryIntersection` (TubeImplementation.h:102-158). -/
noncomputable def CircleOk (ty : TType) (largest insectorCheck : Bool) (b c : ℝ) (t : Struct) (p d : V3) : Prop :=
  let delta := b * b - c
  let dist := circleDist largest b c
  (delta > 0 ∨ (largest = true ∧ delta = 0)) ∧ dist ≥ -2 * kTolerance ∧
  (insectorCheck = true →
    |p.z + dist * d.z| ≤ t.z ∧ (PhiT ty t → InSector ty t true (p.x + dist * d.x) (p.y + dist * d.y)))

open Classical in
/-- `PhiPlaneSafety<…, inside = false>` (TubeImplementation.h:201-237); the tube calls no other. -/
noncomputable def phiPlaneSafety (ty : TType) (t : Struct) (p : V3) : ℝ :=
  let safety := if (ty.angle = .unknown ∧ t.dphi > π) ∨ ty.angle = .bigger then √(p.x * p.x + p.y * p.y) else kInfLength
  let phi1 := p.x * t.a1y - p.y * t.a1x
  if ty.angle = .pi then (if |phi1| > kHalfTolerance then |phi1| else safety)
  else
    let safety := if phi1 > -kHalfTolerance ∧ phi1 < safety then phi1 else safety
    let phi2 := (p.x * t.a2y - p.y * t.a2x) * -1
    if phi2 > -kHalfTolerance ∧ phi2 < safety then phi2 else safety

/-- `dist` of `PhiPlaneTrajectoryIntersection` (TubeImplementation.h:274-275). -/
noncomputable def phiPlaneDist (ax ay : ℝ) (p d : V3) : ℝ := (ay * p.x - ax * p.y) / nonZero (d.y * ax - d.x * ay)

/-- `ok` of `PhiPlaneTrajectoryIntersection` (TubeImplementation.h:254-300). -/
noncomputable def PhiPlaneOk (positive insectorCheck : Bool) (ax ay nx ny : ℝ) (t : Struct) (p d : V3) : Prop :=
  let dirDotNorm := d.x * nx + d.y * ny
  let dist := phiPlaneDist ax ay p d
  let hitx := p.x + dist * d.x
  let hity := p.y + dist * d.y
  let hitz := p.z + dist * d.z
  let r2 := hitx * hitx + hity * hity
  (if insectorCheck then dirDotNorm > 0 else dirDotNorm < 0) ∧ dist * |dirDotNorm| > -kHalfTolerance ∧
  (insectorCheck = true → |hitz| ≤ t.tolOz ∧ r2 ≥ t.tolOrmin2 ∧ r2 ≤ t.tolOrmax2 ∧
    (positive = true → hitx * ax + hity * ay > 0)) ∧
  (insectorCheck = false → positive = true → hitx * ax + hity * ay ≥ 0)

/-- `IsOnTubeSurface` (TubeImplementation.h:302-312). -/
def IsOnTubeSurface (t : Struct) (inner : Bool) (p : V3) : Prop :=
  let rho := p.x * p.x + p.y * p.y
  if inner then rho ≥ t.tolOrmin2 ∧ rho ≤ t.tolIrmin2 ∧ |p.z| < t.z + kTolerance
  else rho ≥ t.tolIrmax2 ∧ rho ≤ t.tolOrmax2 ∧ |p.z| < t.z + kTolerance

/-- `IsMovingInsideTubeSurface` with `GetNormal` (TubeImplementation.h:314-332). -/
def IsMovingInside (t : Struct) (inner : Bool) (p d : V3) : Prop :=
  IsOnTubeSurface t inner p ∧ (if inner then d.x * -p.x + d.y * -p.y else d.x * p.x + d.y * p.y) ≤ 0

/-! ## Contains and Inside -/

/-- `MakePlusTolerant` (GenericKernels.h:23-29). -/
noncomputable def plusTolerant (b : Bool) (x : ℝ) : ℝ := if b then x + kHalfTolerance else x
/-- `MakePlusTolerantSquare` (GenericKernels.h:62-70). -/
noncomputable def plusTolerantSquare (b : Bool) (x : ℝ) : ℝ := if b then x * (x + 2 * kTolerance) else x * x
/-- `MakeMinusTolerantSquare` (GenericKernels.h:73-82). -/
noncomputable def minusTolerantSquare (b : Bool) (x : ℝ) : ℝ := if b then |x * (x - 2 * kTolerance)| else x * x

/-- `completelyoutside` of `GenericKernelForContainsAndInside<Real_v, ForInside>` (TubeImplementation.h:348-404). -/
def CompletelyOutside (ty : TType) (fi : Bool) (t : Struct) (p : V3) : Prop :=
  let r2 := p.x * p.x + p.y * p.y
  |p.z| > plusTolerant fi t.z ∨ r2 > plusTolerantSquare fi t.rmax ∨ (RminT ty t ∧ r2 ≤ minusTolerantSquare fi t.rmin) ∨
  (PhiT ty t ∧ t.wedge.CompletelyOutside fi p)

/-- `completelyinside` of `GenericKernelForContainsAndInside<Real_v, true>` (TubeImplementation.h:348-404).  A point that one
of the earlier checks finds outside leaves early, with the checks up to there; it is not inside by that check. -/
def CompletelyInside (ty : TType) (t : Struct) (p : V3) : Prop :=
  let r2 := p.x * p.x + p.y * p.y
  |p.z| < t.z - kHalfTolerance ∧ r2 < minusTolerantSquare true t.rmax ∧ (RminT ty t → r2 > plusTolerantSquare true t.rmin) ∧
  (PhiT ty t → t.wedge.CompletelyInside p)

open Classical in
/-- `Contains` (TubeImplementation.h:406-415). -/
noncomputable def contains (ty : TType) (t : Struct) (p : V3) : Bool := decide (¬ CompletelyOutside ty false t p)

open Classical in
/-- `Inside` (TubeImplementation.h:417-428). -/
noncomputable def inside (ty : TType) (t : Struct) (p : V3) : Inside :=
  if CompletelyInside ty t p then .inside else if CompletelyOutside ty true t p then .outside else .surface

/-! ## Distances -/

/-- The entrance through a lid: `distz` after the division (TubeImplementation.h:477, 518); `NonZeroAbs(x) = |x| + 1e-30`
(Global.h). -/
noncomputable def zDistIn (t : Struct) (p d : V3) : ℝ := (|p.z| - t.z) / (|d.z| + kTiny)

/-- Points that move away (TubeImplementation.h:478, 490). -/
def MovingAway (t : Struct) (p d : V3) : Prop :=
  (|p.z| - t.z > kHalfTolerance ∧ p.z * d.z ≥ 0) ∨
  (p.x * p.x + p.y * p.y > t.tolIrmax2 ∧ p.x * d.x + p.y * d.y ≥ 0)

/-- Points that are inside (TubeImplementation.h:498-510). -/
def InsideForIn (ty : TType) (t : Struct) (p : V3) : Prop :=
  |p.z| - t.z < -kHalfTolerance ∧ p.x * p.x + p.y * p.y < t.tolIrmax2 ∧
  (RminT ty t → p.x * p.x + p.y * p.y > t.tolIrmin2) ∧ (PhiT ty t → InSector ty t false p.x p.y)

/-- `okz` (TubeImplementation.h:521-536). -/
def ZOk (ty : TType) (t : Struct) (p d : V3) : Prop :=
  let distz := zDistIn t p d
  let hitx := p.x + distz * d.x
  let hity := p.y + distz * d.y
  let r2 := hitx * hitx + hity * hity
  distz > -kHalfTolerance ∧ p.z * d.z < 0 ∧ r2 ≤ t.rmax2 ∧ (RminT ty t → t.rmin2 ≤ r2) ∧
  (PhiT ty t → InSector ty t true hitx hity)

/-- On a curved surface and moving into the tube (TubeImplementation.h:540-555). -/
def SurfaceIn (ty : TType) (t : Struct) (p d : V3) : Prop :=
  (IsMovingInside t false p d ∨ (RminT ty t ∧ IsMovingInside t true p d)) ∧ (PhiT ty t → InSector ty t true p.x p.y)

/-- `invnsq` (TubeImplementation.h:563). -/
noncomputable def invnsq (d : V3) : ℝ := 1 / nonZero (1 - d.z * d.z)

open Classical in
/-- `DistanceToInKernel` (TubeImplementation.h:459-636). -/
noncomputable def distanceToInKernel (ty : TType) (t : Struct) (p d : V3) : ℝ :=
  if MovingAway t p d then kInfLength
  else if InsideForIn ty t p then -1
  else if ZOk ty t p d then zDistIn t p d
  else if SurfaceIn ty t p d then 0
  else
    let rsq := p.x * p.x + p.y * p.y
    let b := invnsq d * (p.x * d.x + p.y * d.y)
    let crmax := invnsq d * (rsq - t.rmax2)
    let drmax := circleDist false b crmax
    if CircleOk ty false true b crmax t p d ∧ drmax < kInfLength then drmax
    else
      let crmin := invnsq d * (rsq - t.rmin2)
      let drmin := circleDist true b crmin
      let distance := if RminT ty t ∧ CircleOk ty true true b crmin t p d ∧ drmin < kInfLength then drmin else kInfLength
      if PhiT ty t then
        let d1 := phiPlaneDist t.a1x t.a1y p d
        let distance := if PhiPlaneOk (decide (ty.angle ≠ .pi)) true t.a1x t.a1y t.wedge.n1x t.wedge.n1y t p d ∧ d1 < distance
          then d1 else distance
        if ty.angle ≠ .pi then
          let d2 := phiPlaneDist t.a2x t.a2y p d
          if PhiPlaneOk true true t.a2x t.a2y t.wedge.n2x t.wedge.n2y t p d ∧ d2 < distance then d2 else distance
        else distance
      else distance

open Classical in
/-- `DistanceToIn` (TubeImplementation.h:430-457). -/
noncomputable def distanceToIn (ty : TType) (t : Struct) (p d : V3) : ℝ :=
  let ptDist := p.mag
  let distToMove := if ptDist > 100 * t.maxVal then ptDist - 100 * t.maxVal else 0
  let p' := if ptDist > 100 * t.maxVal then V3.at' p d distToMove else p
  distanceToInKernel ty t p' d + distToMove

/-- Points outside beyond the tolerance (TubeImplementation.h:657-686). -/
def OutsideForOut (ty : TType) (t : Struct) (p : V3) : Prop :=
  t.z - |p.z| < -kHalfTolerance ∨ p.x * p.x + p.y * p.y - t.rmax2 > 2 * kTolerance * t.rmax ∨
  (RminT ty t ∧ p.x * p.x + p.y * p.y - t.rmin2 < -2 * kTolerance * t.rmin) ∨
  (PhiT ty t ∧ t.wedge.CompletelyOutside true p)

open Classical in
/-- `if (ok && dist < distance) distance = dist`. -/
noncomputable def takeLess (ok : Prop) (dist distance : ℝ) : ℝ := if ok ∧ dist < distance then dist else distance

open Classical in
/-- The exit through a lid (TubeImplementation.h:691-693). -/
noncomputable def zDistOut (t : Struct) (p d : V3) : ℝ :=
  if d.z < 0 then (-t.z - p.z) * (1 / nonZero d.z) else (t.z - p.z) * (1 / nonZero d.z)

open Classical in
/-- The phi planes of `DistanceToOut` (TubeImplementation.h:739-774).  The call for sectors of `pi` passes the x component of
the normal twice. -/
noncomputable def phiOut (ty : TType) (t : Struct) (p d : V3) (distance : ℝ) : ℝ :=
  let d1 := phiPlaneDist t.a1x t.a1y p d
  let d2 := phiPlaneDist t.a2x t.a2y p d
  match ty.angle with
  | .smaller =>
    takeLess (PhiPlaneOk false false t.a2x t.a2y t.wedge.n2x t.wedge.n2y t p d) d2
      (takeLess (PhiPlaneOk false false t.a1x t.a1y t.wedge.n1x t.wedge.n1y t p d) d1 distance)
  | .pi => takeLess (PhiPlaneOk false false t.a2x t.a2y t.wedge.n2x t.wedge.n2x t p d) d2 distance
  | _ =>
    takeLess (PhiPlaneOk true false t.a2x t.a2y t.wedge.n2x t.wedge.n2y t p d) d2
      (takeLess (PhiPlaneOk true false t.a1x t.a1y t.wedge.n1x t.wedge.n1y t p d) d1 distance)

open Classical in
/-- `DistanceToOut` (TubeImplementation.h:638-776). -/
noncomputable def distanceToOut (ty : TType) (t : Struct) (p d : V3) : ℝ :=
  if OutsideForOut ty t p then -1
  else
    let rsq := p.x * p.x + p.y * p.y
    let distance := takeLess (d.z ≠ 0) (zDistOut t p d) kInfLength
    let b := invnsq d * (d.x * p.x + d.y * p.y)
    let crmin := (rsq - t.rmin2) * invnsq d
    let distance := if RminT ty t then takeLess (CircleOk ty false false b crmin t p d) (circleDist false b crmin) distance
      else distance
    let crmax := (rsq - t.rmax2) * invnsq d
    let distance := takeLess (CircleOk ty true false b crmax t p d) (circleDist true b crmax) distance
    if PhiT ty t then phiOut ty t p d distance else distance

/-! ## Safeties -/

open Classical in
/-- `if (x > safety) safety = x`. -/
noncomputable def takeMore (ok : Prop) (x safety : ℝ) : ℝ := if ok ∧ x > safety then x else safety

open Classical in
/-- `SafetyToInOld` (TubeImplementation.h:860-889). -/
noncomputable def safetyToIn (ty : TType) (t : Struct) (p : V3) : ℝ :=
  let r := √(p.x * p.x + p.y * p.y)
  let safety := takeMore True (r - t.rmax) (|p.z| - t.z)
  let safety := takeMore (RminT ty t) (t.rmin - r) safety
  if PhiT ty t then
    takeMore (¬ InSector ty t false p.x p.y ∧ phiPlaneSafety ty t p < kInfLength) (phiPlaneSafety ty t p) safety
  else safety

open Classical in
/-- `SafetyToOutOld` (TubeImplementation.h:891-913). -/
noncomputable def safetyToOut (ty : TType) (t : Struct) (p : V3) : ℝ :=
  let r := √(p.x * p.x + p.y * p.y)
  let safety := takeLess True (t.rmax - r) (t.z - |p.z|)
  let safety := takeLess (RminT ty t) (r - t.rmin) safety
  takeLess (PhiT ty t) (t.wedge.safetyToOut p) safety

/-! ## Extent, capacity, areas, convexity -/

open Classical in
/-- `DetectConvexity` (UnplacedTube.cpp:200-211). -/
noncomputable def detectConvexity (t : Struct) : Bool := decide (t.rmin = 0 ∧ (t.dphi ≤ π ∨ t.dphi = 2 * π))

open Classical in
/-- One side of the box in `Extent` (UnplacedTube.cpp:224-264): `full` when the tube contains the extreme azimuth or is a full
tube, otherwise the extreme of the outer corners `c`, `d` and (for openings below `pi`) of the inner corners `a`, `b`.  `pick` is
the maximum or the minimum. -/
noncomputable def extentSide (pick : ℝ → ℝ → ℝ) (t : Struct) (out : Bool) (full a b c d : ℝ) : ℝ :=
  if t.dphi = 2 * π then full
  else
    let side := if out then pick c d else full
    if t.dphi ≥ π then side else pick (pick a b) side

/-- `Extent` (UnplacedTube.cpp:213-267).  If none of the four azimuths is outside the function returns the full box; that
agrees with going on, since corners do not exceed the full box.  `temp > aMax.x() ? temp : aMax.x()` is the maximum. -/
noncomputable def extent (t : Struct) : V3 × V3 :=
  let rin := 1 / 2 * (t.rmax + t.rmin)
  let out (x y : ℝ) : Bool := !t.wedge.contains ⟨x, y, 0⟩
  let all := t.dphi = 2 * π ∨ ¬ (out rin 0 ∨ out 0 rin ∨ out (-rin) 0 ∨ out 0 (-rin))
  let c1 := cos t.sphi
  let c2 := cos (t.sphi + t.dphi)
  let s1 := sin t.sphi
  let s2 := sin (t.sphi + t.dphi)
  open Classical in
  if all then (⟨-t.rmax, -t.rmax, -t.z⟩, ⟨t.rmax, t.rmax, t.z⟩)
  else
    (⟨extentSide min t (out (-rin) 0) (-t.rmax) (t.rmin * c1) (t.rmin * c2) (t.rmax * c1) (t.rmax * c2),
      extentSide min t (out 0 (-rin)) (-t.rmax) (t.rmin * s1) (t.rmin * s2) (t.rmax * s1) (t.rmax * s2), -t.z⟩,
     ⟨extentSide max t (out rin 0) t.rmax (t.rmin * c1) (t.rmin * c2) (t.rmax * c1) (t.rmax * c2),
      extentSide max t (out 0 rin) t.rmax (t.rmin * s1) (t.rmin * s2) (t.rmax * s1) (t.rmax * s2), t.z⟩)

/-- `volume`, `Capacity` (UnplacedTube.h:84, 92). -/
noncomputable def capacity (t : Struct) : ℝ := t.z * (t.rmax2 - t.rmin2) * t.dphi

/-- `GetTopArea` (UnplacedTube.h:101-104). -/
noncomputable def topArea (t : Struct) : ℝ := 2 * (1 / 2) * (t.rmax2 - t.rmin2) * t.dphi
open Classical in
/-- `GetLateralPhiArea` (UnplacedTube.h:107-111). -/
noncomputable def phiArea (t : Struct) : ℝ := if t.dphi < 2 * π then 4 * t.z * (t.rmax - t.rmin) else 0
/-- `GetLateralRInArea` (UnplacedTube.h:114-118). -/
noncomputable def rInArea (t : Struct) : ℝ := 2 * t.z * t.rmin * t.dphi
/-- `GetLateralROutArea` (UnplacedTube.h:121-125). -/
noncomputable def rOutArea (t : Struct) : ℝ := 2 * t.z * t.rmax * t.dphi

/-- `SurfaceArea` (UnplacedTube.h:95-98). -/
noncomputable def surfaceArea (t : Struct) : ℝ := topArea t + phiArea t + rOutArea t + rInArea t

/-- The areas `S` of `ChooseSurface` (UnplacedTube.cpp:125-128). -/
noncomputable def areas (t : Struct) : List ℝ :=
  [1 / 2 * topArea t, 1 / 2 * topArea t, 1 / 2 * phiArea t, 1 / 2 * phiArea t, rInArea t, rOutArea t]

open Classical in
/-- The loop of `ChooseSurface` (UnplacedTube.cpp:136-137): `none` for reading behind the array (the assertion comes too
late). -/
noncomputable def chooseLoop : List ℝ → ℝ → Nat → Option Nat
  | [], _, _ => none
  | s :: rest, rand, choice => if rand > s then chooseLoop rest (rand - s) (choice + 1) else some choice

/-- `ChooseSurface` (UnplacedTube.cpp:120-142) with the random number `u` in `[0, 1)`. -/
noncomputable def chooseSurface (t : Struct) (u : ℝ) : Option Nat := chooseLoop (areas t) (u * (areas t).sum) 0

/-- `uniform(a, b)` for a random number `u` of `[0, 1)` (RNG.h). -/
noncomputable def uniform (a b u : ℝ) : ℝ := a + (b - a) * u

/-- `SamplePointOnSurface` (UnplacedTube.cpp:144-178) with the random numbers it draws, in that order. -/
noncomputable def samplePointOnSurface (t : Struct) (u0 u1 u2 u3 u4 : ℝ) : Option V3 :=
  match chooseSurface t u0 with
  | none => none
  | some surface =>
    let rVal := uniform t.rmin t.rmax u1
    let phiVal := uniform t.sphi (t.sphi + t.dphi) u2
    let zVal := u3 * 2 * t.z - t.z
    let rLid := √(uniform (t.rmin * t.rmin) (t.rmax * t.rmax) u4)
    let (r, phi, z) := match surface with
      | 0 => (rLid, phiVal, t.z)
      | 1 => (rLid, phiVal, -t.z)
      | 2 => (rVal, t.sphi, zVal)
      | 3 => (rVal, t.sphi + t.dphi, zVal)
      | 4 => (t.rmin, phiVal, zVal)
      | 5 => (t.rmax, phiVal, zVal)
      | _ => (rVal, phiVal, zVal)
    some ⟨r * cos phi, r * sin phi, z⟩

/-! ## Normals -/

/-- The state of `NormalKernel`: the sum of the normals and their number. -/
structure NState where
  norm : V3
  n : Nat

open Classical in
/-- One surface in `NormalKernel`: the first normal is assigned, others are added. -/
noncomputable def addNormal (cond : Prop) (v : V3) (s : NState) : NState :=
  if cond then ⟨if s.n = 0 then v else s.norm + v, s.n + 1⟩ else s

/-- The surfaces in `NormalKernel` (TubeImplementation.h:982-1043), starting from what the caller passed as `norm`. -/
noncomputable def normalSum (t : Struct) (p norm : V3) : NState :=
  let r := √(p.x * p.x + p.y * p.y)
  let inZ := p.z < t.z + kTolerance ∧ p.z > -t.z - kTolerance
  let inR := r ≥ t.rmin - kTolerance ∧ r ≤ t.rmax + kTolerance
  addNormal (t.dphi < 2 * π ∧ inR ∧ t.wedge.IsOnSurface2 p) ⟨-t.wedge.n2x, -t.wedge.n2y, 0⟩
  (addNormal (t.dphi < 2 * π ∧ inR ∧ t.wedge.IsOnSurface1 p) ⟨-t.wedge.n1x, -t.wedge.n1y, 0⟩
  (addNormal (inZ ∧ |r - t.rmax| ≤ kTolerance) ⟨p.x * (1 / r), p.y * (1 / r), 0⟩
  (addNormal (t.rmin > 0 ∧ inZ ∧ |r - t.rmin| ≤ kTolerance) ⟨-p.x * (1 / r), -p.y * (1 / r), 0⟩
  (addNormal (inR ∧ |p.z + t.z| ≤ kTolerance) ⟨0, 0, -1⟩
  (addNormal (inR ∧ |p.z - t.z| ≤ kTolerance) ⟨0, 0, 1⟩ ⟨norm, 0⟩)))))

open Classical in
/-- `UnplacedTube::Normal` with `NormalKernel` (UnplacedTube.cpp:180-186, TubeImplementation.h:966-1046) for points that are
neither inside nor outside beyond the tolerance.  For other points `NormalKernel` calls an approximation that is not modelled and
reports the result as not valid; the model then returns `none`. -/
noncomputable def normal (t : Struct) (p norm : V3) : Option (Bool × V3) :=
  if CompletelyInside universal t p ∨ CompletelyOutside universal true t p then none
  else
    let s := normalSum t p norm
    some (decide (s.n ≠ 0), if s.n > 1 then V3.smul (1 / √(s.n : ℝ)) s.norm else s.norm)

end Tube
end VecGeom
