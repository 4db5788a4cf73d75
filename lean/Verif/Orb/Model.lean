import Verif.Base.Num

/-!
# The orb (full sphere)

Model of the scalar kernels of `VecGeom/volumes/kernel/OrbImplementation.h`, of `VecGeom/volumes/UnplacedOrb.h` and
`source/UnplacedOrb.cpp`.  `R` is the radius `fR` (OrbStruct.h).  `Precision` is `ℝ`.
-/

namespace VecGeom
namespace Orb

open Classical in
/-- `GenericKernelForContainsAndInside` (OrbImplementation.h:66-79): completely inside, completely outside. -/
noncomputable def genericKernel (R : ℝ) (p : V3) : Bool × Bool :=
  let rad2 := p.mag2
  let tolR := R - kTolerance
  let completelyinside := decide (rad2 ≤ tolR * tolR)
  let tolR := R + kTolerance
  let completelyoutside := decide (rad2 ≥ tolR * tolR)
  (completelyinside, completelyoutside)

/-- `Contains` (OrbImplementation.h:41-48). -/
noncomputable def contains (R : ℝ) (p : V3) : Bool := !(genericKernel R p).2

/-- `Inside` (OrbImplementation.h:52-64): the assignment for inside comes last. -/
noncomputable def inside (R : ℝ) (p : V3) : Inside :=
  let k := genericKernel R p
  let r := Inside.surface
  let r := if k.2 then Inside.outside else r
  if k.1 then Inside.inside else r

open Classical in
/-- `DetectIntersectionAndCalculateDistance` (OrbImplementation.h:169-190): the returned mask and the distance, `dist`
being the previous content of the output parameter. -/
noncomputable def detect (forIn : Bool) (R : ℝ) (p d : V3) (dist : ℝ) : Bool × ℝ :=
  let rad2 := p.mag2
  let pDotV3D := p.dot d
  let c := rad2 - R * R
  let d2 := pDotV3D * pDotV3D - c
  if forIn then
    let cond := decide (d2 ≥ 0 ∧ pDotV3D ≤ 0)
    (cond, if cond then -pDotV3D - Real.sqrt |d2| else dist)
  else
    (decide (d2 ≥ 0), if d2 ≥ 0 then -pDotV3D + Real.sqrt |d2| else dist)

open Classical in
/-- `DistanceToIn` (OrbImplementation.h:82-105). -/
noncomputable def distanceToIn (R : ℝ) (p d : V3) : ℝ :=
  let rad := p.mag
  if rad < R - kTolerance then -1
  else
    let pDotV3D := p.dot d
    let onSurface := rad ≥ R - kTolerance ∧ rad ≤ R + kTolerance
    if onSurface ∧ pDotV3D < 0 then 0
    else
      let r := detect true R p d kInfLength
      if r.1 then r.2 else kInfLength

open Classical in
/-- `DistanceToOut` (OrbImplementation.h:108-134). -/
noncomputable def distanceToOut (R : ℝ) (p d : V3) : ℝ :=
  let rad := p.mag
  if rad > R + kTolerance then -1
  else
    let pDotV3D := p.dot d
    let onSurface := rad ≥ R - kTolerance ∧ rad ≤ R + kTolerance
    if onSurface ∧ pDotV3D > 0 then 0
    else
      let r := detect false R p d kInfLength
      if r.1 then r.2 else kInfLength

open Classical in
/-- `SafetyToIn` (OrbImplementation.h:137-149). -/
noncomputable def safetyToIn (R : ℝ) (p : V3) : ℝ :=
  let rad := p.mag
  if rad < R - kTolerance then -1
  else if rad > R - kTolerance ∧ rad < R + kTolerance then 0
  else rad - R

open Classical in
/-- `SafetyToOut` (OrbImplementation.h:152-166). -/
noncomputable def safetyToOut (R : ℝ) (p : V3) : ℝ :=
  let rad := p.mag
  if rad > R + kTolerance then -1
  else if rad > R - kTolerance ∧ rad < R + kTolerance then 0
  else R - rad

open Classical in
/-- `NormalKernel` (OrbImplementation.h:193-207): normal and flag.  The division by the length is undefined (`none`)
at the centre. -/
noncomputable def normalKernel (R : ℝ) (p : V3) : Option (V3 × Bool) :=
  let rad2 := p.mag2
  if rad2 = 0 then none
  else
    let invRadius := 1 / Real.sqrt rad2
    let normal := V3.smul invRadius p
    let tolRMaxO := R + kTolerance
    let tolRMaxI := R - kTolerance
    some (normal, decide (rad2 ≤ tolRMaxO * tolRMaxO ∧ rad2 ≥ tolRMaxI * tolRMaxI))

/-- `SamplePointOnSurface` (UnplacedOrb.cpp:65-77); `u1`, `u2` are the numbers in [0, 1) drawn by the generator,
`uniform(min, max) = min + (max - min) * u` (RNG.h:129). -/
noncomputable def samplePointOnSurface (R u1 u2 : ℝ) : V3 :=
  let phi := 0 + (2 * Real.pi - 0) * u1
  let cosphi := Real.cos phi
  let sinphi := Real.sin phi
  let costheta := -1 + (1 - -1) * u2
  let sintheta := Real.sqrt (1 - costheta * costheta)
  ⟨R * sintheta * cosphi, R * sintheta * sinphi, R * costheta⟩

/-- `Extent` (UnplacedOrb.cpp:58-63). -/
def extent (R : ℝ) : V3 × V3 := (⟨-R, -R, -R⟩, ⟨R, R, R⟩)

/-- The data members of an `UnplacedOrb` (UnplacedOrb.h:30-35, UnplacedVolume.h `fBBox`): radius, cached volume, cached
area, epsilon, radial tolerance and cached bounding box. -/
structure State where
  fR : ℝ
  fCubicVolume : ℝ
  fSurfaceArea : ℝ
  fEpsilon : ℝ
  fRTolerance : ℝ
  fBBox : V3 × V3

/-- The constructor from a radius (UnplacedOrb.cpp:33-40); `ComputeBBox` stores the extent (UnplacedVolume.h:72-77). -/
noncomputable def create (r : ℝ) : State :=
  { fR := r, fCubicVolume := (4 * Real.pi / 3) * r * r * r, fSurfaceArea := (4 * Real.pi) * r * r,
    fEpsilon := 2 / 10 ^ 11, fRTolerance := max kTolerance (2 / 10 ^ 11 * r), fBBox := extent r }

/-- `SetRadius` (UnplacedOrb.cpp:43-49): the cached bounding box is not updated. -/
noncomputable def setRadius (s : State) (r : ℝ) : State :=
  { s with fR := r, fCubicVolume := (4 * Real.pi / 3) * r * r * r, fSurfaceArea := (4 * Real.pi) * r * r,
           fRTolerance := max kTolerance (s.fEpsilon * r) }

end Orb
end VecGeom
