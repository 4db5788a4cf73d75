import Verif.Base.Halfspace
import Mathlib.Analysis.SpecialFunctions.Trigonometric.Basic
import Mathlib.Analysis.SpecialFunctions.Arsinh

/-!
# Hyperboloid

`VecGeom/volumes/HypeStruct.h`, `VecGeom/volumes/HypeUtilities.h`, `VecGeom/volumes/kernel/HypeImplementation.h`,
`VecGeom/volumes/kernel/shapetypes/HypeTypes.h`, `VecGeom/volumes/UnplacedHype.h` and `source/UnplacedHype.cpp`.  The scalar
instantiation: `MaskFull(done)` is `done`, so each `if (MaskFull(done)) return;` leaves the function.  A result that is not a
number in floating point arithmetic is `none`.
-/

namespace VecGeom
namespace Hype

open Real

/-- `HypeStruct` (HypeStruct.h:19-47) with the two values that `UnplacedHype` and `VUnplacedVolume` keep: whether the solid is
convex and the corners of the bounding box.  `fTIn2Inv`, `fTOut2Inv` and `fInSqSide` are not read by any of the functions
modelled and are left out. -/
structure State where
  rmin : ℝ
  rmax : ℝ
  stIn : ℝ
  stOut : ℝ
  dz : ℝ
  tIn : ℝ
  tOut : ℝ
  tIn2 : ℝ
  tOut2 : ℝ
  rmin2 : ℝ
  rmax2 : ℝ
  dz2 : ℝ
  endIn2 : ℝ
  endOut2 : ℝ
  endIn : ℝ
  endOut : ℝ
  volume : ℝ
  area : Option ℝ
  zTol : ℝ
  inTol : ℝ
  outTol : ℝ
  convex : Bool
  bbox : V3 × V3

/-- `Volume` (HypeStruct.h:96-102). -/
noncomputable def volumeOf (s : State) (outer : Bool) : ℝ :=
  if outer then 2 * π * s.dz * (s.rmax * s.rmax + (s.dz2 * s.tOut2 / 3))
  else 2 * π * s.dz * (s.rmin * s.rmin + (s.dz2 * s.tIn2 / 3))

open Classical in
/-- `Area` (HypeStruct.h:108-130).  For `fR == 0` the argument of `asinh` is infinite and its product with `fR * fR` is not a
number. -/
noncomputable def areaOf (s : State) (outer : Bool) : Option ℝ :=
  let t := if outer then s.tOut else s.tIn
  let r := if outer then s.rmax else s.rmin
  if t = 0 then some (4 * π * r * s.dz)
  else if r = 0 then none
  else
    let p := t * √(t * t)
    let q := p * s.dz * √(r * r + (t ^ 2 + t ^ 4) * s.dz ^ 2)
    let u := r * r * arsinh (p * s.dz / r)
    some ((q + u) / (2 * p) * 4 * π)

/-- `AreaEndCaps` (HypeStruct.h:133). -/
noncomputable def areaEndCaps (s : State) : ℝ := 2 * π * (s.endOut2 - s.endIn2)

/-- `CalculateCached` with `CalcCapacity` and `CalcSurfaceArea` (HypeStruct.h:61-93, 105). -/
noncomputable def calculateCached (s : State) : State :=
  let tIn := tan s.stIn
  let tOut := tan s.stOut
  let tIn2 := tIn * tIn
  let tOut2 := tOut * tOut
  let rmin2 := s.rmin * s.rmin
  let rmax2 := s.rmax * s.rmax
  let dz2 := s.dz * s.dz
  let endIn2 := tIn2 * dz2 + rmin2
  let endOut2 := tOut2 * dz2 + rmax2
  let s := { s with
    tIn := tIn, tOut := tOut, tIn2 := tIn2, tOut2 := tOut2, rmin2 := rmin2, rmax2 := rmax2, dz2 := dz2, endIn2 := endIn2,
    endOut2 := endOut2, endIn := √endIn2, endOut := √endOut2, zTol := kTolerance * s.dz, inTol := kTolerance * √endIn2,
    outTol := kTolerance * √endOut2 }
  let s := { s with volume := volumeOf s true - volumeOf s false }
  { s with area := do return (← areaOf s true) + (← areaOf s false) + areaEndCaps s }

open Classical in
/-- `DetectConvexity` (UnplacedHype.cpp:84-92). -/
noncomputable def detectConvexity (s : State) : State :=
  { s with convex := decide (s.rmin = 0 ∧ s.stIn = 0 ∧ s.stOut = 0) }

/-- `Extent` (UnplacedHype.cpp:94-101). -/
noncomputable def extent (s : State) : V3 × V3 := (⟨-s.endOut, -s.endOut, -s.dz⟩, ⟨s.endOut, s.endOut, s.dz⟩)

/-- The constructor (HypeStruct.h:53-58, UnplacedHype.h:56-62; `ComputeBBox` is UnplacedVolume.cpp:32); `m` stands for the
memory found. -/
noncomputable def create (m : State) (rmin rmax stIn stOut dz : ℝ) : State :=
  let s := calculateCached { m with rmin := rmin, rmax := rmax, stIn := stIn, stOut := stOut, dz := dz }
  let s := detectConvexity s
  { s with bbox := extent s }

/-- `SetParameters` (UnplacedHype.h:187-192, HypeStruct.h:136-145). -/
noncomputable def setParameters (s : State) (rmin rmax stIn stOut dz : ℝ) : State :=
  detectConvexity (calculateCached { s with rmin := rmin, rmax := rmax, stIn := stIn, stOut := stOut, dz := dz })

/-- `Clone` (UnplacedHype.cpp:206-209): the arguments are handed over in this order. -/
noncomputable def clone (m s : State) : State := create m s.rmin s.stIn s.rmax s.stOut s.dz

/-- `GetParametersList` (UnplacedHype.cpp:196-203). -/
def parametersList (s : State) : List ℝ := [s.rmin, s.stIn, s.rmax, s.stOut, s.dz]

/-- The three specialisations (HypeTypes.h:32-40). -/
inductive Kind where
  | universal
  | nonHollow
  | hollow
deriving DecidableEq

open Classical in
/-- `InnerSurfaceExists` (HypeStruct.h:90). -/
noncomputable def innerSurfaceExists (s : State) : Bool := decide (s.rmin > 0 ∨ s.stIn ≠ 0)

/-- `checkInnerSurfaceTreatment` (HypeTypes.h:44-71). -/
noncomputable def treat (k : Kind) (s : State) : Bool :=
  match k with
  | .universal => innerSurfaceExists s
  | .nonHollow => false
  | .hollow => true

/-- What `MakeInstance` returns: a hyperboloid of some kind, or a tube that stands for one. -/
inductive Made where
  | hype (k : Kind) (rmin rmax stIn stOut dz : ℝ)
  | tube (rmin rmax dz sphi dphi : ℝ)

open Classical in
/-- `Maker<UnplacedHype>::MakeInstance` (UnplacedHype.cpp:34-65). -/
noncomputable def makeInstance (rMin rMax stIn stOut dz : ℝ) : Made :=
  if rMin ≤ 0 ∧ stIn ≤ 0 ∧ stOut > 0 then .hype .nonHollow 0 rMax 0 stOut dz
  else if rMin ≤ 0 ∧ stIn ≤ 0 ∧ stOut ≤ 0 then .tube 0 rMax dz 0 (2 * π)
  else if rMin > 0 ∧ stIn ≤ 0 ∧ stOut ≤ 0 then .tube rMin rMax dz 0 (2 * π)
  else if rMin > 0 ∧ (stIn > 0 ∨ stOut > 0) then .hype .hollow rMin rMax stIn stOut dz
  else .hype .universal rMin rMax stIn stOut dz

/-- The part of the made object that answers `Capacity`, `SurfaceArea`, `Normal` and the getters: a tube is wrapped in a
`SUnplacedImplAs` (UnplacedImplAs.h:30-34), which hands the arguments of the tube to the constructor of the hyperboloid. -/
noncomputable def baseOf (m : State) : Made → State
  | .hype _ rmin rmax stIn stOut dz => create m rmin rmax stIn stOut dz
  | .tube rmin rmax dz sphi dphi => create m rmin rmax dz sphi dphi

/-- `Capacity` (UnplacedHype.h:228). -/
def capacity (s : State) : ℝ := s.volume
/-- `SurfaceArea` (UnplacedHype.h:231). -/
def surfaceArea (s : State) : Option ℝ := s.area

/-- `point.Perp2()`. -/
def perp2 (p : V3) : ℝ := p.x * p.x + p.y * p.y

/-- `fRmax2 + fTOut2 * z * z` (HypeImplementation.h:78, HypeUtilities.h:77). -/
def oRad2 (s : State) (z : ℝ) : ℝ := s.rmax2 + s.tOut2 * z * z
/-- `fRmin2 + fTIn2 * z * z` (HypeImplementation.h:86, HypeUtilities.h:75). -/
def iRad2 (s : State) (z : ℝ) : ℝ := s.rmin2 + s.tIn2 * z * z

open Classical in
/-- `completelyoutside` of `GenericKernelForContainsAndInside` (HypeImplementation.h:77-89); `IsCompletelyOutside`
(HypeUtilities.h:30-48) is the same. -/
noncomputable def outside (k : Kind) (s : State) (p : V3) : Bool :=
  decide (|p.z| > s.dz + s.zTol) || decide (perp2 p > oRad2 s p.z + s.outTol) ||
    (treat k s && decide (perp2 p < iRad2 s p.z - s.inTol))

open Classical in
/-- The test for `completelyinside` (HypeImplementation.h:91-96); `IsCompletelyInside` (HypeUtilities.h:52-67) is the same. -/
noncomputable def deep (k : Kind) (s : State) (p : V3) : Bool :=
  decide (|p.z| < s.dz - s.zTol ∧ perp2 p < oRad2 s p.z - s.outTol) && (!treat k s || decide (perp2 p > iRad2 s p.z + s.inTol))

/-- `GenericKernelForContainsAndInside` (HypeImplementation.h:72-97): completely inside, completely outside. -/
noncomputable def genericKernel (k : Kind) (forInside : Bool) (s : State) (p : V3) : Bool × Bool :=
  if outside k s p then (false, true) else (if forInside then deep k s p else false, false)

/-- `Contains` (HypeImplementation.h:50-57). -/
noncomputable def contains (k : Kind) (s : State) (p : V3) : Bool := !(genericKernel k false s p).2

/-- `Inside` (HypeImplementation.h:59-70). -/
noncomputable def inside (k : Kind) (s : State) (p : V3) : Inside :=
  let g := genericKernel k true s p
  let r := Inside.surface
  let r := if g.2 then Inside.outside else r
  if g.1 then Inside.inside else r

/-! ## Safeties -/

open Classical in
/-- `ApproxDistOutside` (HypeUtilities.h:285-296).  For `tanPhi == 0` the quotient is infinite (the callers have `pr > r0`), and
so are `dz` and `r3`, whose quotient is not a number. -/
noncomputable def approxDistOutside (pr pz r0 tanPhi : ℝ) : Option ℝ :=
  if tanPhi = 0 then none
  else
    let r1 := √(r0 * r0 + tanPhi * tanPhi * pz * pz)
    let z1 := pz
    let r2 := pr
    let z2 := √((pr * pr - r0 * r0) / (tanPhi * tanPhi))
    let dz := z2 - z1
    let dr := r2 - r1
    let r3 := √(dr * dr + dz * dz)
    if r3 < kMinimum then some (r2 - r1) else some ((r2 - r1) * dz / r3)

open Classical in
/-- `ApproxDistInside` (HypeUtilities.h:300-318). -/
noncomputable def approxDistInside (pr pz r0 tan2Phi : ℝ) : ℝ :=
  if tan2Phi < kMinimum then r0 - pr
  else
    let rh := √(r0 * r0 + pz * pz * tan2Phi)
    let dr := -rh
    let dz := pz * tan2Phi
    let len := √(dr * dr + dz * dz)
    |(pr - rh) * dr| / len

open Classical in
/-- `SafetyToIn` (HypeImplementation.h:204-258). -/
noncomputable def safetyToIn (k : Kind) (s : State) (p : V3) : Option ℝ :=
  let absZ := |p.z|
  let r2 := perp2 p
  let r := √r2
  let g := genericKernel k true s p
  if !g.1 && !g.2 then some 0
  else if g.1 then some (-1)
  else
    let sigz := absZ - s.dz
    if sigz > kHalfTolerance ∧ r < s.endOut ∧ r > s.endIn then some sigz
    else if sigz > kHalfTolerance ∧ r > s.endOut then some √((r - s.endOut) * (r - s.endOut) + sigz * sigz)
    else if sigz > kHalfTolerance ∧ r < s.endIn then some √((r - s.endIn) * (r - s.endIn) + sigz * sigz)
    else if r2 > s.rmax2 + s.tOut2 * absZ * absZ + kHalfTolerance ∧ absZ > 0 ∧ absZ < s.dz then
      approxDistOutside r absZ s.rmax s.tOut
    else if r2 < s.rmin2 + s.tIn2 * absZ * absZ - kHalfTolerance ∧ absZ > 0 ∧ absZ < s.dz then
      some (approxDistInside r absZ s.rmin s.tIn2)
    else some 0

open Classical in
/-- `distInner` of `SafetyToOut` (HypeImplementation.h:281-294).  The three tests for the inner surface in turn; without a match
`distInner` stays zero. -/
noncomputable def innerGap (k : Kind) (s : State) (r absZ : ℝ) : Option ℝ :=
  if treat k s ∧ s.stIn ≠ 0 then approxDistOutside r absZ s.rmin s.tIn
  else if treat k s ∧ s.stIn = 0 then some (r - s.rmin)
  else if ¬ treat k s ∧ s.stIn = 0 then some kInfLength
  else some 0

open Classical in
/-- `SafetyToOut` (HypeImplementation.h:261-300). -/
noncomputable def safetyToOut (k : Kind) (s : State) (p : V3) : Option ℝ :=
  let r := √(p.x * p.x + p.y * p.y)
  let absZ := |p.z|
  let g := genericKernel k true s p
  if !g.1 && !g.2 then some 0
  else if g.2 then some (-1)
  else
    let distZ := |(|p.z| - s.dz)|
    let distOuter := approxDistInside r absZ s.rmax s.tOut2
    (innerGap k s r absZ).map fun distInner => min (min distInner distOuter) distZ

/-! ## Distances -/

/-- `point.x() * direction.x() + point.y() * direction.y() - point.z() * t2 * direction.z()`: the product of the direction and
the gradient of the surface (HypeUtilities.h:90, 106, 177-178, 193-194).  The code of lines 86-90 and 99-106 turns the sign of
both `pz` and `vz`, which does not change the product. -/
def slope (t2 : ℝ) (p d : V3) : ℝ := p.x * d.x + p.y * d.y - p.z * t2 * d.z

/-- `zSurf` (HypeUtilities.h:124-125, 253-254). -/
def OnLid (s : State) (p : V3) : Prop :=
  perp2 p - s.endOut2 < kTolerance ∧ s.endIn2 - perp2 p < kTolerance ∧ |(|p.z| - s.dz)| < kTolerance

/-- `outerHypeSurf` (HypeUtilities.h:131, 261). -/
def OnOuter (s : State) (p : V3) : Prop := |oRad2 s p.z - perp2 p| < s.outTol
/-- `innerHypeSurf` (HypeUtilities.h:139, 272). -/
def OnInner (s : State) (p : V3) : Prop := |iRad2 s p.z - perp2 p| < s.inTol

open Classical in
/-- `IsPointOnSurfaceAndMovingInside` (HypeUtilities.h:111-145). -/
noncomputable def movingInside (k : Kind) (s : State) (p d : V3) : Bool :=
  if OnLid s p then decide (p.z * d.z < 0)
  else if OnOuter s p then decide (slope s.tOut2 p d < 0)
  else if treat k s ∧ OnInner s p then decide (slope s.tIn2 p d > 0)
  else false

open Classical in
/-- `IsPointOnSurfaceAndMovingOutside` (HypeUtilities.h:237-281). -/
noncomputable def movingOutside (k : Kind) (s : State) (p d : V3) : Bool :=
  decide (OnLid s p ∧ p.z * d.z > 0) || decide (OnOuter s p ∧ slope s.tOut2 p d > 0) ||
    decide (treat k s ∧ OnInner s p ∧ slope s.tIn2 p d < 0)

open Classical in
/-- `IsPointOnOuterSurfaceAndMovingOutside` (HypeUtilities.h:200-213). -/
noncomputable def leavesOuter (s : State) (p d : V3) : Prop :=
  (OnOuter s p ∧ |p.z| ≥ 0 ∧ |p.z| < s.dz) ∧ slope s.tOut2 p d > 0

/-- `IsPointOnInnerSurfaceAndMovingOutside` (HypeUtilities.h:217-233). -/
def leavesInner (k : Kind) (s : State) (p d : V3) : Prop :=
  treat k s ∧ (OnInner s p ∧ |p.z| ≥ 0 ∧ |p.z| < s.dz) ∧ slope s.tIn2 p d < 0

/-- `zDist` of `GetPointOfIntersectionWithZPlane` (HypeUtilities.h:154). -/
noncomputable def zDist (forIn : Bool) (s : State) (p d : V3) : ℝ :=
  (sign (if forIn then p.z else d.z) * s.dz - p.z) / nonZero d.z

/-- The returned value of `GetPointOfIntersectionWithZPlane` (HypeUtilities.h:156-161). -/
def hitsLid (k : Kind) (s : State) (q : V3) : Prop := perp2 q < s.endOut2 ∧ (treat k s → perp2 q > s.endIn2)

/-- The coefficients of the quadratic equation (HypeUtilities.h:388-390, 409-411). -/
def qa (t2 : ℝ) (d : V3) : ℝ := perp2 d - t2 * d.z * d.z
def qb (t2 : ℝ) (p d : V3) : ℝ := d.x * p.x + d.y * p.y - t2 * d.z * p.z
def qc (t2 r2 : ℝ) (p : V3) : ℝ := perp2 p - t2 * p.z * p.z - r2
/-- `b * b - a * c`. -/
def qd (t2 r2 : ℝ) (p d : V3) : ℝ := qb t2 p d * qb t2 p d - qa t2 d * qc t2 r2 p

open Classical in
/-- A quotient by `a`.  For `a == 0` it is infinite with the sign of the numerator, which is not zero in the four uses; plus
infinity behaves as `kInfLength` in the callers: it is never smaller than a distance, and when it is assigned the result is
`kInfLength` or larger either way. -/
noncomputable def quot (n a : ℝ) : ℝ := if a = 0 then (if 0 < n then kInfLength else -1) else n / a

open Classical in
/-- `HypeHelpers<Precision, forIn, inner>::GetPointOfIntersectionWithHyperbolicSurface` up to the final test
(HypeUtilities.h:383-430): the new value of `dist`, or `none` if there is no intersection, when `dist` is left as it was. -/
noncomputable def wall (forIn inner : Bool) (s : State) (p d : V3) : Option ℝ :=
  let t2 := if inner then s.tIn2 else s.tOut2
  let r2 := if inner then s.rmin2 else s.rmax2
  let a := qa t2 d
  let b := qb t2 p d
  let c := qc t2 r2 p
  if qd t2 r2 p d > 0 then
    let w := √(qd t2 r2 p d)
    let dist :=
      if inner then
        if forIn then (if b < 0 then quot (-b + w) a else c / (-b - w))
        else (if b > 0 then quot (-b - w) a else c / (-b + w))
      else
        if forIn then (if b ≥ 0 then quot (-b - w) a else c / (-b + w))
        else (if b < 0 then quot (-b + w) a else c / (-b - w))
    some (if dist < 0 then kInfLength else dist)
  else none

open Classical in
/-- The distance of the whole function with its test for the height (HypeUtilities.h:431-435): `none` for `false`. -/
noncomputable def wallIn (inner : Bool) (s : State) (p d : V3) : Option ℝ :=
  match wall true inner s p d with
  | none => none
  | some t => if |p.z + t * d.z| ≤ s.dz then some t else none

open Classical in
/-- `DistanceToIn` (HypeImplementation.h:100-164). -/
noncomputable def distanceToIn (k : Kind) (s : State) (p d : V3) : ℝ :=
  let absZ := |p.z|
  let r := perp2 p
  if movingInside k s p d then 0
  else if deep k s p then -1
  else
    let zd := zDist true s p d
    let q := V3.at' p d zd
    let going := absZ > s.dz ∧ p.z * d.z < 0
    if going ∧ hitsLid k s q then zd
    else
      let rp2 := perp2 q
      let outer := (going ∧ ¬ hitsLid k s q ∧ rp2 ≥ s.endOut2) ∨
        (r > s.rmax2 + s.tOut2 * absZ * absZ + kHalfTolerance ∧ absZ ≥ 0 ∧ absZ ≤ s.dz) ∨ leavesOuter s p d
      let inner := (going ∧ ¬ hitsLid k s q ∧ rp2 ≤ s.endIn2) ∨
        (r < s.rmin2 + s.tIn2 * absZ * absZ - kHalfTolerance ∧ absZ ≥ 0 ∧ absZ ≤ s.dz) ∨ leavesInner k s p d
      match (if outer then wallIn false s p d else none) with
      | some t => t
      | none =>
        match (if treat k s ∧ inner then wallIn true s p d else none) with
        | some t => t
        | none => kInfLength

open Classical in
/-- `DistanceToOut` (HypeImplementation.h:167-201).  `dist` starts as `kInfLength`; a call without an intersection leaves it as
it is, so that the second call starts from the result of the first. -/
noncomputable def distanceToOut (k : Kind) (s : State) (p d : V3) : ℝ :=
  if movingOutside k s p d then 0
  else if outside k s p then -1
  else
    let zd := zDist false s p d
    let zd := if zd < 0 then kInfLength else zd
    let dist := (wall false false s p d).getD kInfLength
    let dist := if dist < 0 then kInfLength else dist
    let distance := min zd dist
    if treat k s then
      let dist := (wall false true s p d).getD dist
      let dist := if dist < 0 then kInfLength else dist
      min distance dist
    else distance

/-! ## Normals and sampling -/

/-- `PointOnZSurface` (UnplacedHype.h:253-256). -/
def onZSurface (s : State) (p : V3) : Prop := p.z > s.dz - s.zTol ∧ p.z < s.dz + s.zTol

/-- `PointOnHyperbolicSurface` (UnplacedHype.h:263-270); both forms use the tolerance of the outer radius. -/
def onWall (r2 : ℝ) (s : State) (p : V3) : Prop := perp2 p > r2 - s.outTol ∧ perp2 p < r2 + s.outTol

open Classical in
/-- `Normal` (UnplacedHype.h:273-299).  `n0` is what the output argument held before. -/
noncomputable def normal (s : State) (p n0 : V3) : Bool × V3 :=
  let absZ := |p.z|
  let distZ := absZ - s.dz
  let dist2Z := distZ * distZ
  let xR2 := perp2 p
  let dist2Outer := |xR2 - oRad2 s absZ|
  let dist2Inner := |xR2 - iRad2 s absZ|
  let n := n0
  let n := if onZSurface s p ∨ (dist2Z < dist2Inner ∧ dist2Z < dist2Outer) then ⟨0, 0, if p.z < 0 then -1 else 1⟩ else n
  let n := if onWall (oRad2 s p.z) s p ∨ (dist2Outer < dist2Inner ∧ dist2Outer < dist2Z) then
    V3.unit ⟨p.x, p.y, -p.z * s.tOut2⟩ else n
  let n := if onWall (iRad2 s p.z) s p ∨ (dist2Inner < dist2Outer ∧ dist2Inner < dist2Z) then
    V3.unit ⟨-p.x, -p.y, p.z * s.tIn2⟩ else n
  (true, n)

/-- `RNG::uniform(lo, hi)` (RNG.h:129) for the number `u` drawn. -/
def uniform (lo hi u : ℝ) : ℝ := lo + (hi - lo) * u

/-- The area of one wall as the sampling computes it (UnplacedHype.cpp:118-121, 124-127). -/
noncomputable def sampleArea (r st t dz : ℝ) : ℝ :=
  let alpha := 2 * π * (r * r) * cos st / t
  let x := dz * t / (r * cos st)
  let x := log (x + √(x * x + 1))
  |2 * alpha * (sinh (2 * x) / 4 + x / 2)|

open Classical in
/-- `aOne` (UnplacedHype.cpp:117-121, 132-134). -/
noncomputable def areaOne (s : State) : ℝ :=
  if s.stOut = 0 then |2 * π * s.rmax * 2 * s.dz| else sampleArea s.rmax s.stOut s.tOut s.dz

open Classical in
/-- `aTwo` (UnplacedHype.cpp:123-127, 135-137).  For `fRmin == 0` the product of zero and infinity is not a number. -/
noncomputable def areaTwo (s : State) : Option ℝ :=
  if s.stIn = 0 then some |2 * π * s.rmin * 2 * s.dz|
  else if s.rmin = 0 then none
  else some (sampleArea s.rmin s.stIn s.tIn s.dz)

/-- `aThree` (UnplacedHype.cpp:129-130). -/
noncomputable def areaThree (s : State) : ℝ :=
  π * (s.rmax2 + (s.dz * s.tOut) * (s.dz * s.tOut) - (s.rmin2 + (s.dz * s.tIn) * (s.dz * s.tIn)))

open Classical in
/-- The loop `do … while` (UnplacedHype.cpp:171-175, 184-188): the first pair of numbers drawn that is accepted; `none` if none
is, when the loop does not end. -/
noncomputable def drawRing (s : State) (us : ℕ → ℝ × ℝ) : Option (ℝ × ℝ) :=
  let rIn2 := s.rmin2 + s.tIn2 * s.dz * s.dz
  let rOut2 := s.rmax2 + s.tOut2 * s.dz * s.dz
  let rOut := √rOut2
  let x := fun n => uniform (-rOut) rOut (us n).1
  let y := fun n => uniform (-rOut) rOut (us n).2
  if h : ∃ n, x n * x n + y n * y n ≥ rIn2 ∧ x n * x n + y n * y n ≤ rOut2 then
    some (x (Nat.find h), y (Nat.find h))
  else none

open Classical in
/-- `SamplePointOnSurface` (UnplacedHype.cpp:107-193).  The numbers drawn: `uPhi` for the angle, `uS` for `sinhu`, `uC` for
the choice of the surface, `uZ` for the last number of a wall and `us` for the loops of the lids.  If `aTwo` is not a number the
choice is not a number either and every comparison fails. -/
noncomputable def samplePointOnSurface (s : State) (uPhi uS uC uZ : ℝ) (us : ℕ → ℝ × ℝ) : Option V3 :=
  let phi := uniform 0 (2 * π) uPhi
  let sinhu := uniform (-1 * s.dz * s.tOut / s.rmax) (s.dz * s.tOut / s.rmax) uS
  let bottom := (drawRing s us).map fun q => (⟨q.1, q.2, -1 * s.dz⟩ : V3)
  match areaTwo s with
  | none => bottom
  | some a2 =>
    let a1 := areaOne s
    let a3 := areaThree s
    let chose := uniform 0 (a1 + a2 + 2 * a3) uC
    if 0 ≤ chose ∧ chose < a1 then
      if s.stOut ≠ 0 then
        some ⟨√(sinhu * sinhu + 1) * s.rmax * cos phi, √(sinhu * sinhu + 1) * s.rmax * sin phi, s.rmax * sinhu / s.tOut⟩
      else some ⟨s.rmax * cos phi, s.rmax * sin phi, uniform (-s.dz) s.dz uZ⟩
    else if chose ≥ a1 ∧ chose < a1 + a2 then
      if s.stIn ≠ 0 then
        let sinhu := uniform (-1 * s.dz * s.tIn / s.rmin) (s.dz * s.tIn / s.rmin) uZ
        some ⟨√(sinhu * sinhu + 1) * s.rmin * cos phi, √(sinhu * sinhu + 1) * s.rmin * sin phi, s.rmin * sinhu / s.tIn⟩
      else some ⟨s.rmin * cos phi, s.rmin * sin phi, uniform (-1 * s.dz) s.dz uZ⟩
    else if chose ≥ a1 + a2 ∧ chose < a1 + a2 + a3 then (drawRing s us).map fun q => ⟨q.1, q.2, s.dz⟩
    else bottom

end Hype
end VecGeom
