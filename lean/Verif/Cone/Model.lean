import Verif.Tube.Model

/-!
# The cone

Model of `VecGeom/volumes/ConeStruct.h`, `VecGeom/volumes/ConeUtilities.h`, `VecGeom/volumes/kernel/ConeImplementation.h`,
`VecGeom/volumes/kernel/shapetypes/ConeTypes.h`, `VecGeom/volumes/UnplacedCone.h` and `source/UnplacedCone.cpp`: scalar code
(`ConeHelpers<Precision, …>`), `Precision` is `ℝ`.  A full `done` mask ends the function.  `EDGE_POINTS` is not defined.
-/

namespace VecGeom
namespace Cone

open Real

/-- `kConeTolerance` (Math.h:31). -/
noncomputable def kConeTolerance : ℝ := 1 / 10 ^ 7

/-! ## Struct -/

/-- The members of `ConeStruct` (ConeStruct.h:22-81) that are read by the code modelled here.  `o…` are `_frmin1`, `_frmin2`,
`_frmax1`, `_frmax2`; `orig1`, `orig2` are `fOriginalRmax1`, `fOriginalRmax2`. -/
structure Struct where
  rmin1 : ℝ
  rmax1 : ℝ
  rmin2 : ℝ
  rmax2 : ℝ
  dz : ℝ
  sphi : ℝ
  dphi : ℝ
  omin1 : ℝ
  omin2 : ℝ
  omax1 : ℝ
  omax2 : ℝ
  wedge : Wedge
  a1x : ℝ
  a1y : ℝ
  a2x : ℝ
  a2y : ℝ
  innerSlope : ℝ
  outerSlope : ℝ
  innerOffset : ℝ
  outerOffset : ℝ
  innerTol : ℝ
  outerTol : ℝ
  sqRmin1 : ℝ
  sqRmin2 : ℝ
  sqRmax1 : ℝ
  sqRmax2 : ℝ
  tolIz : ℝ
  innerApex : ℝ
  tanInner : ℝ
  outerApex : ℝ
  tanOuter : ℝ
  secRMin : ℝ
  secRMax : ℝ
  invSecRMin : ℝ
  invSecRMax : ℝ
  tanRMin : ℝ
  tanRMax : ℝ
  zNormInner : ℝ
  zNormOuter : ℝ
  orig1 : ℝ
  orig2 : ℝ

open Classical in
/-- The apex of a cone surface with radii `r1`, `r2` (ConeStruct.h:130-138, 143-151): height above or below the lid with the smaller
radius. -/
noncomputable def apex (r1 r2 dz : ℝ) : ℝ :=
  if r1 = 0 ∨ r2 = 0 then 0 else if r2 > r1 then 2 * dz * r1 / (r2 - r1) else 2 * dz * r2 / nonZero (r1 - r2)

open Classical in
/-- The tangent of the apex angle (ConeStruct.h:130-141, 143-154): it is computed from the apex before the apex is put to zero, and
replaced when one radius is zero. -/
noncomputable def tanApex (r1 r2 dz : ℝ) : ℝ :=
  let t := if r2 > r1 then r2 / (2 * dz + 2 * dz * r1 / (r2 - r1)) else r1 / (2 * dz + 2 * dz * r2 / nonZero (r1 - r2))
  let t := if r1 = 0 then r2 / (2 * dz) else t
  if r2 = 0 then r1 / (2 * dz) else t

/-- The cached values that follow from the radii and the height (ConeStruct.h:107-163), after the outer radii have been corrected. -/
noncomputable def cache (c : Struct) : Struct :=
  { c with
    sqRmin1 := c.rmin1 * c.rmin1
    sqRmax1 := c.rmax1 * c.rmax1
    sqRmin2 := c.rmin2 * c.rmin2
    sqRmax2 := c.rmax2 * c.rmax2
    tanRMin := (c.rmin2 - c.rmin1) * (1 / 2) / c.dz
    secRMin := √(1 + ((c.rmin2 - c.rmin1) * (1 / 2) / c.dz) * ((c.rmin2 - c.rmin1) * (1 / 2) / c.dz))
    invSecRMin := 1 / nonZero √(1 + ((c.rmin2 - c.rmin1) * (1 / 2) / c.dz) * ((c.rmin2 - c.rmin1) * (1 / 2) / c.dz))
    tanRMax := (c.rmax2 - c.rmax1) * (1 / 2) / c.dz
    secRMax := √(1 + ((c.rmax2 - c.rmax1) * (1 / 2) / c.dz) * ((c.rmax2 - c.rmax1) * (1 / 2) / c.dz))
    invSecRMax := 1 / nonZero √(1 + ((c.rmax2 - c.rmax1) * (1 / 2) / c.dz) * ((c.rmax2 - c.rmax1) * (1 / 2) / c.dz))
    innerSlope := -(c.rmin1 - c.rmin2) / (2 * c.dz)
    outerSlope := -(c.rmax1 - c.rmax2) / (2 * c.dz)
    innerOffset := c.rmin2 - -(c.rmin1 - c.rmin2) / (2 * c.dz) * c.dz
    outerOffset := c.rmax2 - -(c.rmax1 - c.rmax2) / (2 * c.dz) * c.dz
    innerTol := kConeTolerance * √(1 + ((c.rmin2 - c.rmin1) * (1 / 2) / c.dz) * ((c.rmin2 - c.rmin1) * (1 / 2) / c.dz))
    outerTol := kConeTolerance * √(1 + ((c.rmax2 - c.rmax1) * (1 / 2) / c.dz) * ((c.rmax2 - c.rmax1) * (1 / 2) / c.dz))
    innerApex := apex c.rmin1 c.rmin2 c.dz
    tanInner := tanApex c.rmin1 c.rmin2 c.dz
    outerApex := apex c.rmax1 c.rmax2 c.dz
    tanOuter := tanApex c.rmax1 c.rmax2 c.dz
    zNormInner := (c.rmin2 - c.rmin1) * (1 / 2) / c.dz /
      nonZero √(1 + ((c.rmin2 - c.rmin1) * (1 / 2) / c.dz) * ((c.rmin2 - c.rmin1) * (1 / 2) / c.dz))
    zNormOuter := -((c.rmax2 - c.rmax1) * (1 / 2) / c.dz) /
      nonZero √(1 + ((c.rmax2 - c.rmax1) * (1 / 2) / c.dz) * ((c.rmax2 - c.rmax1) * (1 / 2) / c.dz))
    tolIz := c.dz - kHalfTolerance }

open Classical in
/-- `CalculateCached` (ConeStruct.h:91-166): outer radii that agree with the inner ones are moved out by the tolerance. -/
noncomputable def calculateCached (c : Struct) : Struct :=
  cache { c with
    orig1 := c.rmax1
    orig2 := c.rmax2
    rmax1 := if c.rmin1 = c.rmax1 then c.rmax1 + kConeTolerance else c.rmax1
    rmax2 := if c.rmin2 = c.rmax2 then c.rmax2 + kConeTolerance else c.rmax2 }

/-- The two along vectors (ConeStruct.h:346-347, 369-370). -/
noncomputable def updatedAlong (c : Struct) : Struct :=
  { c with a1x := cos c.sphi, a1y := sin c.sphi, a2x := cos (c.sphi + c.dphi), a2y := sin (c.sphi + c.dphi) }

open Classical in
/-- `SetAndCheckSPhiAngle` (ConeStruct.h:330-348).  The wedge only takes note of the angle; its vectors stay. -/
noncomputable def setSPhi (c : Struct) (a : ℝ) : Struct :=
  let s := if a < 0 then 2 * π - Tube.fmodTwoPi |a| else Tube.fmodTwoPi a
  let s := if s + c.dphi > 2 * π then s - 2 * π else s
  updatedAlong { c with sphi := s, wedge := c.wedge.setStartPhi s }

open Classical in
/-- `SetAndCheckDPhiAngle` (ConeStruct.h:350-371). -/
noncomputable def setDPhi (c : Struct) (a : ℝ) : Struct :=
  let c := if a ≥ 2 * π - 1 / 2 * Tube.kAngTolerance then { c with dphi := 2 * π, sphi := 0 }
    else if a > 0 then { c with dphi := a } else c
  updatedAlong { c with wedge := c.wedge.setDeltaPhi c.dphi }

open Classical in
/-- The constructor (ConeStruct.h:435-447).  Members that are not set yet are zero. -/
noncomputable def make (rmin1 rmax1 rmin2 rmax2 dz sphi dphi : ℝ) : Struct :=
  calculateCached (setSPhi (setDPhi
    { rmin1 := if rmin1 < 0 then 0 else rmin1, rmax1 := rmax1, rmin2 := if rmin2 < 0 then 0 else rmin2, rmax2 := rmax2, dz := dz
      sphi := sphi, dphi := dphi, omin1 := rmin1, omin2 := rmin2, omax1 := rmax1, omax2 := rmax2
      wedge := Wedge.make dphi sphi
      a1x := 0, a1y := 0, a2x := 0, a2y := 0, innerSlope := 0, outerSlope := 0, innerOffset := 0, outerOffset := 0, innerTol := 0
      outerTol := 0, sqRmin1 := 0, sqRmin2 := 0, sqRmax1 := 0, sqRmax2 := 0, tolIz := 0, innerApex := 0, tanInner := 0
      outerApex := 0, tanOuter := 0, secRMin := 0, secRMax := 0, invSecRMin := 0, invSecRMax := 0, tanRMin := 0, tanRMax := 0
      zNormInner := 0, zNormOuter := 0, orig1 := 0, orig2 := 0 } dphi) sphi)

/-- `SetRmin1` (UnplacedCone.h:150-154). -/
noncomputable def setRmin1 (c : Struct) (x : ℝ) : Struct := calculateCached { c with rmin1 := x }
/-- `SetRmax1` (UnplacedCone.h:155-159). -/
noncomputable def setRmax1 (c : Struct) (x : ℝ) : Struct := calculateCached { c with rmax1 := x }
/-- `SetRmin2` (UnplacedCone.h:160-164). -/
noncomputable def setRmin2 (c : Struct) (x : ℝ) : Struct := calculateCached { c with rmin2 := x }
/-- `SetRmax2` (UnplacedCone.h:165-169). -/
noncomputable def setRmax2 (c : Struct) (x : ℝ) : Struct := calculateCached { c with rmax2 := x }
/-- `SetDz` (UnplacedCone.h:170-174). -/
noncomputable def setDz (c : Struct) (x : ℝ) : Struct := calculateCached { c with dz := x }

/-! ## Cone types -/

/-- A cone type (ConeTypes.h:46-70): what the type says on the bore (`none` if it is found out at run time) and on the sector. -/
structure CType where
  bore : Option Bool
  angle : Tube.Angle
deriving DecidableEq

/-- `UniversalCone` (ConeTypes.h:46). -/
def universal : CType := ⟨none, .unknown⟩

/-- `checkRminTreatment` (ConeTypes.h:109-152). -/
def RminT (ty : CType) (c : Struct) : Prop :=
  match ty.bore with
  | some b => b = true
  | none => c.rmin1 > 0 ∨ c.rmin2 > 0

/-- `checkPhiTreatment` (ConeTypes.h:75-106). -/
def PhiT (ty : CType) (c : Struct) : Prop :=
  match ty.angle with
  | .none => False
  | .unknown => c.dphi < 2 * π
  | _ => True

open Classical in
/-- The type of the sector in `Maker<UnplacedCone>::MakeInstance` (UnplacedCone.cpp:448-536). -/
noncomputable def sectorOf (dphi : ℝ) : Tube.Angle :=
  if dphi ≥ 2 * π then .none else if dphi = π then .pi else if dphi < π then .smaller else .bigger

/-- What the factory returns: a cone, or a cone that answers by a tube (`SUnplacedImplAs`, whose navigation functions are those of
the second class, while capacity, area and extent are those of the cone). -/
inductive Made where
  | cone (ty : CType) (c : Struct)
  | tube (ty : Tube.TType) (c : Struct) (t : Tube.Struct)

open Classical in
/-- `Maker<UnplacedCone>::MakeInstance` (UnplacedCone.cpp:440-545).  An opening above `2 pi` is cut for cones without bore only. -/
noncomputable def makeInstance (rmin1 rmax1 rmin2 rmax2 dz sphi dphi : ℝ) : Made :=
  if rmin1 ≤ 0 ∧ rmin2 ≤ 0 then
    let d := if dphi ≥ 2 * π then 2 * π else dphi
    if rmax1 = rmax2 then
      .tube ⟨true, sectorOf dphi⟩ (make rmin1 rmax1 rmin1 rmax1 dz sphi d) (Tube.make rmin1 rmax1 dz sphi d)
    else .cone ⟨some false, sectorOf dphi⟩ (make rmin1 rmax1 rmin2 rmax2 dz sphi d)
  else
    if rmin1 = rmin2 ∧ rmax1 = rmax2 then
      .tube ⟨false, sectorOf dphi⟩ (make rmin1 rmax1 rmin1 rmax1 dz sphi dphi) (Tube.make rmin1 rmax1 dz sphi dphi)
    else .cone ⟨some true, sectorOf dphi⟩ (make rmin1 rmax1 rmin2 rmax2 dz sphi dphi)

/-! ## Utilities -/

/-- `MakePlusTolerantSquare<true>(x, tol)` (GenericKernels.h:62-70). -/
noncomputable def plusSq (x tol : ℝ) : ℝ := x * (x + 2 * tol)
/-- `MakeMinusTolerantSquare<true>(x, tol)` (GenericKernels.h:73-82). -/
noncomputable def minusSq (x tol : ℝ) : ℝ := |x * (x - 2 * tol)|

/-- The choice of `smallerthanpi` in `PointInCyclicalSector` (ConeUtilities.h:87-92). -/
def SmallerThanPi (ty : CType) (c : Struct) : Prop :=
  match ty.angle with
  | .unknown => c.dphi ≤ π
  | .pi => True
  | .smaller => True
  | _ => False

/-- `startCheck` (ConeUtilities.h:94). -/
def startCheck (c : Struct) (x y : ℝ) : ℝ := -x * c.a1y + y * c.a1x
/-- `endCheck` (ConeUtilities.h:95). -/
def endCheck (c : Struct) (x y : ℝ) : ℝ := -c.a2x * y + c.a2y * x

/-- `PointInCyclicalSector<…, false, includeSurface>` (ConeUtilities.h:64-115). -/
def InSector (ty : CType) (c : Struct) (includeSurface : Bool) (x y : ℝ) : Prop :=
  let tol := if includeSurface then -kConeTolerance else kConeTolerance
  (SmallerThanPi ty c ∧ startCheck c x y ≥ tol ∧ endCheck c x y ≥ tol) ∨
  (¬ SmallerThanPi ty c ∧ (startCheck c x y ≥ tol ∨ endCheck c x y ≥ tol))

open Classical in
/-- `GetRadiusOfConeAtPoint<…, false>` (ConeUtilities.h:135-141). -/
noncomputable def outerRad (c : Struct) (z : ℝ) : ℝ := if c.orig1 = c.orig2 then c.orig1 else c.outerSlope * z + c.outerOffset

open Classical in
/-- `GetRadiusOfConeAtPoint<…, true>` (ConeUtilities.h:127-134). -/
noncomputable def innerRad (c : Struct) (z : ℝ) : ℝ := if c.rmin1 = c.rmin2 then c.rmin1 else c.innerSlope * z + c.innerOffset

/-- `point.Perp2()`. -/
def perp2 (p : V3) : ℝ := p.x * p.x + p.y * p.y

/-! ## Contains and Inside -/

/-- `completelyoutside` of `GenericKernelForContainsAndInside<ForInside>` (ConeUtilities.h:757-806). -/
def CompletelyOutside (ty : CType) (fi : Bool) (c : Struct) (p : V3) : Prop :=
  |p.z| > (if fi then c.dz + kConeTolerance else c.dz) ∨
  perp2 p > (if fi then plusSq (outerRad c p.z) c.outerTol else outerRad c p.z * outerRad c p.z) ∨
  (RminT ty c ∧ perp2 p ≤ (if fi then minusSq (c.innerSlope * p.z + c.innerOffset) c.innerTol
    else (c.innerSlope * p.z + c.innerOffset) * (c.innerSlope * p.z + c.innerOffset))) ∨
  (PhiT ty c ∧ c.wedge.CompletelyOutside fi p)

/-- `completelyinside` of `GenericKernelForContainsAndInside<true>` (ConeUtilities.h:757-806).  The early returns leave it at the
value it has then; a point for which that happens is overwritten by nothing, so the flags up to there count. -/
def CompletelyInside (ty : CType) (c : Struct) (p : V3) : Prop :=
  |p.z| < c.dz - kConeTolerance ∧
  (|p.z| > c.dz + kConeTolerance ∨
    (perp2 p < minusSq (outerRad c p.z) c.outerTol ∧
      (perp2 p > plusSq (outerRad c p.z) c.outerTol ∨
        ((RminT ty c → perp2 p > plusSq (c.innerSlope * p.z + c.innerOffset) c.innerTol) ∧
          ((RminT ty c ∧ perp2 p ≤ minusSq (c.innerSlope * p.z + c.innerOffset) c.innerTol) ∨
            (PhiT ty c → c.wedge.CompletelyInside p))))))

open Classical in
/-- `Contains` (ConeImplementation.h:75-86). -/
noncomputable def contains (ty : CType) (c : Struct) (p : V3) : Bool := decide (¬ CompletelyOutside ty false c p)

open Classical in
/-- `Inside` (ConeImplementation.h:88-93, ConeUtilities.h:808-820). -/
noncomputable def inside (ty : CType) (c : Struct) (p : V3) : Inside :=
  if CompletelyInside ty c p then .inside else if CompletelyOutside ty true c p then .outside else .surface

/-! ## Safeties -/

/-- `SafeDistanceToConicalSurface<…, true>` (ConeImplementation.h:475-477). -/
noncomputable def safeInner (c : Struct) (p : V3) : ℝ :=
  (√(perp2 p) - (c.tanRMin * p.z + (c.rmin1 + c.rmin2) * (1 / 2))) * c.invSecRMin
/-- `SafeDistanceToConicalSurface<…, false>` (ConeImplementation.h:478-481). -/
noncomputable def safeOuter (c : Struct) (p : V3) : ℝ :=
  (c.tanRMax * p.z + (c.rmax1 + c.rmax2) * (1 / 2) - √(perp2 p)) * c.invSecRMax

open Classical in
/-- `if (|x| < kTolerance) x = 0`. -/
noncomputable def snap (x : ℝ) : ℝ := if |x| < kTolerance then 0 else x

/-- Points inside for `SafetyToIn` and `DistanceToIn` (ConeImplementation.h:140-158, 358-376). -/
def InsideForIn (ty : CType) (c : Struct) (p : V3) : Prop :=
  |p.z| - c.dz < -kConeTolerance ∧ perp2 p < minusSq (outerRad c p.z) c.outerTol ∧
  (RminT ty c → perp2 p > plusSq (innerRad c p.z) c.innerTol) ∧ (PhiT ty c → InSector ty c false p.x p.y)

open Classical in
/-- `SafetyToIn` (ConeImplementation.h:340-403). -/
noncomputable def safetyToIn (ty : CType) (c : Struct) (p : V3) : ℝ :=
  if InsideForIn ty c p then -1
  else
    let safety := max (|p.z| - c.dz) (max (-safeOuter c p) (if RminT ty c then -safeInner c p else -kInfLength))
    snap (if PhiT ty c then max (c.wedge.safetyToIn p) safety else safety)

/-- Points outside for `SafetyToOut` and `DistanceToOut` (ConeImplementation.h:255-280, 423-441).  The sector is only looked at
(`!MaskEmpty(outside)`) when the point is outside already. -/
def OutsideForOut (ty : CType) (c : Struct) (p : V3) : Prop :=
  |p.z| - c.dz > kConeTolerance ∨ perp2 p > plusSq (outerRad c p.z) c.outerTol ∨
  (RminT ty c ∧ perp2 p < minusSq (innerRad c p.z) c.innerTol)

open Classical in
/-- `SafetyToOut` (ConeImplementation.h:405-467). -/
noncomputable def safetyToOut (ty : CType) (c : Struct) (p : V3) : ℝ :=
  if OutsideForOut ty c p then -1
  else
    let safety := min (c.dz - |p.z|) (min (safeOuter c p) (if RminT ty c then safeInner c p else kInfLength))
    snap (if PhiT ty c then min (c.wedge.safetyToOut p) safety else safety)

/-! ## Distances -/

open Classical in
/-- `direction.Dot(GetNormal<…, inner>(cone, point))` (ConeUtilities.h:214-246); the normal is scaled with the radius of the
point. -/
noncomputable def dirNormal (c : Struct) (inner : Bool) (p d : V3) : ℝ :=
  if inner then
    (if c.rmin1 = c.rmin2 ∧ c.rmin1 ≠ 0 then d.x * -p.x + d.y * -p.y
      else d.x * -p.x + d.y * -p.y + d.z * (c.zNormInner * (√(perp2 p) * c.secRMin)))
  else
    (if c.rmax1 = c.rmax2 ∧ c.rmax1 ≠ 0 then d.x * p.x + d.y * p.y
      else d.x * p.x + d.y * p.y + d.z * (c.zNormOuter * (√(perp2 p) * c.secRMax)))

/-- `IsOnConicalSurface` (ConeUtilities.h:248-262). -/
def OnCone (c : Struct) (inner : Bool) (p : V3) : Prop :=
  let r := if inner then innerRad c p.z else outerRad c p.z
  let tol := if inner then c.innerTol else c.outerTol
  perp2 p ≥ r * r - tol * r ∧ perp2 p ≤ r * r + tol * r ∧ |p.z| < c.dz + kConeTolerance

open Classical in
/-- The radius of the surface at the height of the point as the quadratic uses it (`newPz`, ConeUtilities.h:654-662, 694-702); for
surfaces that close upwards it is negative. -/
noncomputable def newPz (c : Struct) (inner : Bool) (z : ℝ) : ℝ :=
  if inner then (if c.rmin2 > c.rmin1 then (z + c.dz + c.innerApex) * c.tanInner else (z - c.dz - c.innerApex) * c.tanInner)
  else (if c.orig2 > c.orig1 then (z + c.dz + c.outerApex) * c.tanOuter else (z - c.dz - c.outerApex) * c.tanOuter)

/-- A surface is a cylinder for the quadratic (ConeUtilities.h:648, 687). -/
def IsCylinder (c : Struct) (inner : Bool) : Prop := if inner then c.rmin1 = c.rmin2 else c.orig1 = c.orig2

/-- The tangent for the quadratic. -/
def tanOf (c : Struct) (inner : Bool) : ℝ := if inner then c.tanInner else c.tanOuter

open Classical in
/-- The coefficients of the quadratic (ConeUtilities.h:648-668, 687-706). -/
noncomputable def qa (c : Struct) (inner : Bool) (d : V3) : ℝ :=
  if IsCylinder c inner then perp2 d else d.x * d.x + d.y * d.y - (d.z * tanOf c inner) * (d.z * tanOf c inner)
open Classical in
@[inherit_doc qa] noncomputable def qb (c : Struct) (inner : Bool) (p d : V3) : ℝ :=
  if IsCylinder c inner then p.x * d.x + p.y * d.y else p.x * d.x + p.y * d.y - newPz c inner p.z * (d.z * tanOf c inner)
open Classical in
@[inherit_doc qa] noncomputable def qc (c : Struct) (inner : Bool) (p : V3) : ℝ :=
  if IsCylinder c inner then (if inner then perp2 p - c.rmin2 * c.rmin2 else perp2 p - c.orig2 * c.orig2)
  else perp2 p - newPz c inner p.z * newPz c inner p.z

open Classical in
/-- The root for `DistanceToOut` (ConeUtilities.h:678-685, 726-732). -/
noncomputable def rootOut (inner : Bool) (a b c : ℝ) : ℝ :=
  let delta := √(b * b - a * c)
  if inner then (if b ≥ 0 then (-b - delta) / nonZero a else c / nonZero (-b + delta))
  else (if b < 0 then (-b + delta) / nonZero a else c / nonZero (-b - delta))

open Classical in
/-- The root for `DistanceToIn` (ConeUtilities.h:672-677, 715-722). -/
noncomputable def rootIn (inner : Bool) (a b c : ℝ) : ℝ :=
  let delta := √(b * b - a * c)
  if inner then (if b ≥ 0 then c / nonZero (-b - delta) else (-b + delta) / nonZero a)
  else (if b > 0 then (-b - delta) / nonZero a else c / nonZero (-b + delta))

open Classical in
/-- `DetectIntersectionAndCalculateDistanceToConicalSurface<false, inner>` (ConeUtilities.h:590-755): the distance if the function
returns true. -/
noncomputable def hitOut (ty : CType) (c : Struct) (inner : Bool) (p d : V3) : Option ℝ :=
  if OnCone c inner p ∧ |dirNormal c inner p d| = 0 then none
  else if OnCone c inner p ∧ dirNormal c inner p d ≥ 0 ∧ (PhiT ty c → InSector ty c true p.x p.y) then some 0
  else
    let a := qa c inner d
    let b := qb c inner p d
    let cc := qc c inner p
    if b * b < a * cc then none
    else if inner = true ∧ b = 0 ∧ √(b * b - a * cc) = 0 then none
    else
      let t := rootOut inner a b cc
      if t < 0 then none
      else if (if inner then |p.z + d.z * t| < c.dz else t > 0) ∧
          (PhiT ty c → InSector ty c true (if t < kInfLength then p.x + t * d.x else 0) (if t < kInfLength then p.y + t * d.y else 0) ∧
            t < kInfLength) then some t
      else none

open Classical in
/-- `DetectIntersectionAndCalculateDistanceToConicalSurface<true, inner>` (ConeUtilities.h:590-755). -/
noncomputable def hitIn (ty : CType) (c : Struct) (inner : Bool) (p d : V3) : Option ℝ :=
  if OnCone c inner p ∧ |dirNormal c inner p d| = 0 then none
  else if OnCone c inner p ∧ dirNormal c inner p d ≤ 0 ∧ (PhiT ty c → InSector ty c true p.x p.y) then some 0
  else
    let a := qa c inner d
    let b := qb c inner p d
    let cc := qc c inner p
    if b * b < a * cc then none
    else if inner = false ∧ b = 0 ∧ √(b * b - a * cc) = 0 then none
    else
      let t := rootIn inner a b cc
      if t < 0 then none
      else if |p.z + d.z * t| < (if inner then c.dz else c.dz + kHalfTolerance) ∧
          (PhiT ty c → InSector ty c true (if t < kInfLength then p.x + t * d.x else 0) (if t < kInfLength then p.y + t * d.y else 0) ∧
            t < kInfLength) then some t
      else none

open Classical in
/-- `dist` of `PhiPlaneTrajectoryIntersection` (ConeUtilities.h:180-181). -/
noncomputable def phiDist (ax ay : ℝ) (p d : V3) : ℝ :=
  if d.y * ax - d.x * ay ≠ 0 then (ay * p.x - ax * p.y) / nonZero (d.y * ax - d.x * ay) else kInfLength

/-- `ok` of `PhiPlaneTrajectoryIntersection<…, positive, false>` (ConeUtilities.h:162-212). -/
noncomputable def PhiOkOut (positive : Bool) (ax ay nx ny : ℝ) (p d : V3) : Prop :=
  let dist := phiDist ax ay p d
  d.x * nx + d.y * ny < 0 ∧ dist > -kConeTolerance ∧
  (positive = true → (p.x + dist * d.x) * ax + (p.y + dist * d.y) * ay ≥ 0)

/-- `ok` of `PhiPlaneTrajectoryIntersection<…, positive, true>` (ConeUtilities.h:162-212). -/
noncomputable def PhiOkIn (positive : Bool) (ax ay nx ny : ℝ) (c : Struct) (p d : V3) : Prop :=
  let dist := phiDist ax ay p d
  let hitx := p.x + dist * d.x
  let hity := p.y + dist * d.y
  let hitz := p.z + dist * d.z
  let r2 := hitx * hitx + hity * hity
  d.x * nx + d.y * ny > 0 ∧ dist > -kConeTolerance ∧
  |hitz| ≤ c.tolIz ∧ r2 ≥ (innerRad c hitz + kTolerance) * (innerRad c hitz + kTolerance) ∧
  r2 ≤ (outerRad c hitz - kTolerance) * (outerRad c hitz - kTolerance) ∧
  (positive = true → hitx * ax + hity * ay > 0)

open Classical in
/-- `if (hit && dist < distance) distance = dist`. -/
noncomputable def takeHit (hit : Option ℝ) (distance : ℝ) : ℝ :=
  match hit with
  | some t => if t < distance then t else distance
  | none => distance

open Classical in
/-- On a lid and leaving through it (ConeImplementation.h:282-288). -/
def LeavingLid (c : Struct) (p d : V3) : Prop :=
  (d.z > 0 ∧ p.z > 0 ∧ |(|p.z| - c.dz)| < kConeTolerance) ∨ (d.z < 0 ∧ p.z < 0 ∧ |(|p.z| - c.dz)| < kConeTolerance)

open Classical in
/-- The distance to the lids (ConeImplementation.h:292-297). -/
noncomputable def lidOut (c : Struct) (p d : V3) : ℝ :=
  if d.z < 0 then (-c.dz - p.z) * (1 / nonZero d.z) else if d.z > 0 then (c.dz - p.z) * (1 / nonZero d.z) else kInfLength

open Classical in
/-- The phi planes of `DistanceToOut` (ConeImplementation.h:314-336); `none` is the end of the function with distance zero. -/
noncomputable def phiOut (ty : CType) (c : Struct) (p d : V3) (distance : ℝ) : Option ℝ :=
  let w := c.wedge
  if (w.IsOnSurface1 p ∧ d.x * -w.n1x + d.y * -w.n1y > 0) ∨ (w.IsOnSurface2 p ∧ d.x * -w.n2x + d.y * -w.n2y > 0) then none
  else
    let distance := Tube.takeLess (PhiOkOut (decide (ty.angle ≠ .pi)) c.a1x c.a1y w.n1x w.n1y p d) (phiDist c.a1x c.a1y p d) distance
    if ty.angle ≠ .pi then
      some (Tube.takeLess (PhiOkOut true c.a2x c.a2y w.n2x w.n2y p d) (phiDist c.a2x c.a2y p d) distance)
    else some distance

open Classical in
/-- The last line of `DistanceToOut` (ConeImplementation.h:337). -/
noncomputable def clip (x : ℝ) : ℝ := if x < 0 ∧ |x| < kTolerance then 0 else x

open Classical in
/-- `DistanceToOut` (ConeImplementation.h:238-338). -/
noncomputable def distanceToOut (ty : CType) (c : Struct) (p d : V3) : ℝ :=
  if OutsideForOut ty c p then -1
  else if LeavingLid c p d then |p.z| - c.dz
  else
    let distance := takeHit (hitOut ty c false p d) (lidOut c p d)
    let distance := if RminT ty c then takeHit (hitOut ty c true p d) distance else distance
    if PhiT ty c then (match phiOut ty c p d distance with | none => 0 | some x => clip x) else clip distance

/-- Points that move away (ConeImplementation.h:117-136). -/
def MovingAway (c : Struct) (p d : V3) : Prop :=
  ((|p.z| - c.dz > kConeTolerance ∧ p.z * d.z ≥ 0) ∨ (|(|p.z| - c.dz)| < kConeTolerance ∧ p.z * d.z > 0)) ∨
  (perp2 p > minusSq (outerRad c p.z) c.outerTol ∧ dirNormal c false p d ≥ 0)

open Classical in
/-- The distance to a lid (ConeImplementation.h:165). -/
noncomputable def lidIn (c : Struct) (p d : V3) : ℝ := (|p.z| - c.dz) / nonZero |d.z|

/-- `okz` (ConeImplementation.h:181-200). -/
def LidOk (ty : CType) (c : Struct) (p d : V3) : Prop :=
  let t := lidIn c p d
  let hitx := p.x + t * d.x
  let hity := p.y + t * d.y
  let r2 := hitx * hitx + hity * hity
  ((p.z ≥ c.tolIz ∧ r2 ≤ c.sqRmax2 + kTolerance ∧ (RminT ty c → r2 ≥ c.sqRmin2 - kTolerance)) ∨
    (p.z ≤ -c.tolIz ∧ r2 ≤ c.sqRmax1 + kTolerance ∧ (RminT ty c → r2 ≥ c.sqRmin1 - kTolerance))) ∧
  (PhiT ty c → InSector ty c true hitx hity)

open Classical in
/-- `DistanceToIn` (ConeImplementation.h:95-236). -/
noncomputable def distanceToIn (ty : CType) (c : Struct) (p d : V3) : ℝ :=
  if MovingAway c p d then kInfLength
  else if InsideForIn ty c p then -1
  else if LidOk ty c p d then lidIn c p d
  else
    match (hitIn ty c false p d).filter fun t => decide (t < kInfLength) with
    | some t => t
    | none =>
      let distance := if RminT ty c then takeHit (hitIn ty c true p d) kInfLength else kInfLength
      if PhiT ty c then
        let w := c.wedge
        let distance := Tube.takeLess (PhiOkIn (decide (ty.angle ≠ .pi)) c.a1x c.a1y w.n1x w.n1y c p d) (phiDist c.a1x c.a1y p d) distance
        if ty.angle ≠ .pi then
          Tube.takeLess (PhiOkIn true c.a2x c.a2y w.n2x w.n2y c p d) (phiDist c.a2x c.a2y p d) distance
        else distance
      else distance

/-! ## Capacity, area, extent, convexity, sampling -/

/-- `Capacity` (ConeStruct.h:83-88, UnplacedCone.h:209-215). -/
noncomputable def capacity (c : Struct) : ℝ :=
  c.dz * c.dphi / 3 * (c.rmax1 * c.rmax1 + c.rmax2 * c.rmax2 + c.rmax1 * c.rmax2 - c.rmin1 * c.rmin1 - c.rmin2 * c.rmin2 - c.rmin1 * c.rmin2)

/-- `SurfaceArea` (UnplacedCone.h:217-230). -/
noncomputable def surfaceArea (c : Struct) : ℝ :=
  let mmin := (c.rmin1 + c.rmin2) * (1 / 2)
  let mmax := (c.rmax1 + c.rmax2) * (1 / 2)
  let dmin := c.rmin2 - c.rmin1
  let dmax := c.rmax2 - c.rmax1
  c.dphi * (mmin * √(dmin * dmin + 4 * c.dz * c.dz) + mmax * √(dmax * dmax + 4 * c.dz * c.dz) +
    1 / 2 * (c.rmax1 * c.rmax1 - c.rmin1 * c.rmin1 + c.rmax2 * c.rmax2 - c.rmin2 * c.rmin2))

open Classical in
/-- `DetectConvexity` (UnplacedCone.cpp:121-132). -/
noncomputable def detectConvexity (c : Struct) : Bool := decide ((c.rmin1 = 0 ∧ c.rmin2 = 0) ∧ (c.dphi ≤ π ∨ c.dphi = 2 * π))

open Classical in
/-- One side of the box in `Extent` (UnplacedCone.cpp:158-212), as for tubes. -/
noncomputable def extentSide (pick : ℝ → ℝ → ℝ) (c : Struct) (out : Bool) (full a b cc d : ℝ) : ℝ :=
  if c.dphi = 2 * π then full
  else
    let side := if out then pick cc d else full
    if c.dphi ≥ π then side else pick (pick a b) side

open Classical in
/-- `Extent` (UnplacedCone.cpp:144-214), from the radii given to the constructor. -/
noncomputable def extent (c : Struct) : V3 × V3 :=
  let mx := if c.omax1 > c.omax2 then c.omax1 else c.omax2
  let mn := if c.omin1 > c.omin2 then c.omin2 else c.omin1
  let rin := 1 / 2 * (mx + mn)
  let out := fun x y : ℝ => !(c.wedge.contains ⟨x, y, 0⟩)
  let all := c.dphi = 2 * π ∨ ¬ (out rin 0 ∨ out 0 rin ∨ out (-rin) 0 ∨ out 0 (-rin))
  let c1 := cos c.sphi
  let c2 := cos (c.sphi + c.dphi)
  let s1 := sin c.sphi
  let s2 := sin (c.sphi + c.dphi)
  if all then (⟨-mx, -mx, -c.dz⟩, ⟨mx, mx, c.dz⟩)
  else
    (⟨extentSide min c (out (-rin) 0) (-mx) (mn * c1) (mn * c2) (mx * c1) (mx * c2),
      extentSide min c (out 0 (-rin)) (-mx) (mn * s1) (mn * s2) (mx * s1) (mx * s2), -c.dz⟩,
     ⟨extentSide max c (out rin 0) mx (mn * c1) (mn * c2) (mx * c1) (mx * c2),
      extentSide max c (out 0 rin) mx (mn * s1) (mn * s2) (mx * s1) (mx * s2), c.dz⟩)

/-- `RNG::uniform(a, b)` for the raw number `u`. -/
noncomputable def uniform (a b u : ℝ) : ℝ := a + (b - a) * u

open Classical in
/-- `SamplePointOnSurface` (UnplacedCone.cpp:363-434); `u0` is the number drawn for the height, `u1` for the surface, `u2` for the
radius and `u3` for the azimuth.  `(int)` is the floor, the argument is not negative. -/
noncomputable def sample (c : Struct) (u0 u1 u2 u3 : ℝ) : V3 :=
  let z := uniform (-1 * c.dz) c.dz u0
  let lo : ℝ := if c.rmin1 = 0 ∧ c.rmin2 = 0 then 2 else 1
  let hi : ℝ := if c.dphi < 2 * π then 7 else 5
  let surf := ⌊uniform lo hi u1⌋
  let rin := if c.rmin1 ≠ 0 ∨ c.rmin2 ≠ 0 then c.innerSlope * z + c.innerOffset else 0
  let rout := c.outerSlope * z + c.outerOffset
  if surf = 5 then ⟨uniform rin rout u2 * cos c.sphi, uniform rin rout u2 * sin c.sphi, z⟩
  else if surf = 6 then ⟨uniform rin rout u2 * cos (c.sphi + c.dphi), uniform rin rout u2 * sin (c.sphi + c.dphi), z⟩
  else
    let th := uniform c.sphi (c.sphi + c.dphi) u3
    let rz : ℝ × ℝ := if surf = 1 then (c.innerSlope * z + c.innerOffset, z)
      else if surf = 2 then (c.outerSlope * z + c.outerOffset, z)
      else if surf = 3 then (uniform c.rmin2 c.rmax2 u2, c.dz)
      else if surf = 4 then (uniform c.rmin1 c.rmax1 u2, -c.dz) else (0, 0)
    ⟨rz.1 * cos th, rz.1 * sin th, rz.2⟩

end Cone
end VecGeom
