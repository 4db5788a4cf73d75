import Verif.Torus.Spec
import Verif.Tube.Model

/-!
# Tori

Model of `VecGeom/volumes/TorusStruct2.h`, `VecGeom/volumes/kernel/TorusImplementation2.h`, `VecGeom/volumes/UnplacedTorus2.h` and
`source/UnplacedTorus2.cpp`.  Scalar code; `Precision` is `ℝ`.  The solvers and the distances are in `Verif/Torus/Solve.lean` and
`Verif/Torus/Dist.lean`.  Not modelled: the mesh, printing, the copies for the GPU and the members of `UnplacedTorus2` that no
method reads (`fPhiWedge`, the directions and the squared radii with tolerance).
-/

namespace VecGeom
namespace Torus

open Real

/-- `TorusStruct2` (TorusStruct2.h:24-35). -/
structure Struct where
  rmin : ℝ
  rmax : ℝ
  rtor : ℝ
  sphi : ℝ
  dphi : ℝ
  rmin2 : ℝ
  rmax2 : ℝ
  rtor2 : ℝ
  wedge : Wedge
  tube : Tube.Struct

/-- The bounding tube (TorusStruct2.h:42, UnplacedTorus2.h:70-71). -/
noncomputable def boundingTube (rmax rtor sphi dphi : ℝ) : Tube.Struct :=
  Tube.make (rtor - rmax - kTolerance) (rtor + rmax + kTolerance) rmax sphi dphi

/-- The constructor (TorusStruct2.h:38-43). -/
noncomputable def Struct.make (rmin rmax rtor sphi dphi : ℝ) : Struct where
  rmin := rmin
  rmax := rmax
  rtor := rtor
  sphi := sphi
  dphi := dphi
  rmin2 := rmin * rmin
  rmax2 := rmax * rmax
  rtor2 := rtor * rtor
  wedge := Wedge.make dphi sphi
  tube := boundingTube rmax rtor sphi dphi

/-- `UnplacedTorus2` (UnplacedTorus2.h:28-36): the struct, the cached squares, the bounding tube, and the flag `fGlobalConvexity`. -/
structure Unplaced where
  t : Struct
  rmin2 : ℝ
  rmax2 : ℝ
  rtor2 : ℝ
  tube : Tube.Struct
  convex : Bool

/-- `calculateCached` (UnplacedTorus2.h:46-60). -/
def calculateCached (u : Unplaced) : Unplaced :=
  { u with rmin2 := u.t.rmin * u.t.rmin, rmax2 := u.t.rmax * u.t.rmax, rtor2 := u.t.rtor * u.t.rtor }

open Classical in
/-- `DetectConvexity` (UnplacedTorus2.cpp:148-159). -/
noncomputable def detectConvexity (u : Unplaced) : Unplaced :=
  { u with convex := decide (u.t.rtor = 0 ∧ u.t.rmin = 0 ∧ (u.t.dphi ≤ π ∨ u.t.dphi = 2 * π)) }

/-- The constructor (UnplacedTorus2.h:64-75). -/
noncomputable def Unplaced.make (rmin rmax rtor sphi dphi : ℝ) : Unplaced :=
  let u : Unplaced := calculateCached ⟨Struct.make rmin rmax rtor sphi dphi, 0, 0, 0, Tube.make 0 1 1 0 dphi, false⟩
  detectConvexity { u with tube := boundingTube u.t.rmax u.t.rtor sphi dphi }

/-- `SetRMin` (UnplacedTorus2.h:159-163). -/
def setRMin (u : Unplaced) (x : ℝ) : Unplaced := calculateCached { u with t := { u.t with rmin := x } }
/-- `SetRMax` (UnplacedTorus2.h:165-169). -/
def setRMax (u : Unplaced) (x : ℝ) : Unplaced := calculateCached { u with t := { u.t with rmax := x } }
/-- `SetRTor` (UnplacedTorus2.h:171-175). -/
def setRTor (u : Unplaced) (x : ℝ) : Unplaced := calculateCached { u with t := { u.t with rtor := x } }
/-- `SetSPhi` (UnplacedTorus2.h:177-181). -/
def setSPhi (u : Unplaced) (x : ℝ) : Unplaced := calculateCached { u with t := { u.t with sphi := x } }
/-- `SetDPhi` (UnplacedTorus2.h:183-187). -/
def setDPhi (u : Unplaced) (x : ℝ) : Unplaced := calculateCached { u with t := { u.t with dphi := x } }

/-- `tol` (TorusImplementation2.h:329, 386). -/
noncomputable def tol : ℝ := 100 * kTolerance

/-- `Sqrt(point[0] * point[0] + point[1] * point[1])` (TorusImplementation2.h:331). -/
noncomputable def perp (p : V3) : ℝ := √(p.x * p.x + p.y * p.y)

/-- `radsq` (TorusImplementation2.h:332). -/
noncomputable def radsq (t : Struct) (p : V3) : ℝ := (perp p - t.rtor) * (perp p - t.rtor) + p.z * p.z

/-- `completelyoutside` of `GenericKernelForContainsAndInside<Real_v, ForInside, notForDisk>` (TorusImplementation2.h:317-371).  The
early returns leave the value as it is. -/
def CompletelyOutside (forInside notForDisk : Bool) (t : Struct) (p : V3) : Prop :=
  (if forInside then radsq t p > tol * t.rmax + t.rmax2 else radsq t p > t.rmax2) ∨
  (if forInside then radsq t p < -tol * t.rmin + t.rmin2 else radsq t p < t.rmin2) ∨
  ((t.dphi < 2 * π ∧ notForDisk = true) ∧ t.wedge.CompletelyOutside forInside p)

open Classical in
/-- `completelyinside` of `GenericKernelForContainsAndInside<Real_v, true, notForDisk>` (TorusImplementation2.h:317-371), with the two
early returns: they leave the value that has been computed so far. -/
noncomputable def CompletelyInside (notForDisk : Bool) (t : Struct) (p : V3) : Prop :=
  let inside1 := radsq t p < -tol * t.rmax + t.rmax2
  if radsq t p > tol * t.rmax + t.rmax2 then inside1
  else
    let inside2 := inside1 ∧ radsq t p > tol * t.rmin + t.rmin2
    if radsq t p < -tol * t.rmin + t.rmin2 then inside2
    else inside2 ∧ (t.dphi < 2 * π ∧ notForDisk = true → t.wedge.CompletelyInside p)

open Classical in
/-- `Contains` (TorusImplementation2.h:504-512). -/
noncomputable def contains (t : Struct) (p : V3) : Bool := decide (¬ CompletelyOutside true false t p)

open Classical in
/-- `UnplacedContainsDisk` (TorusImplementation2.h:285-300). -/
noncomputable def containsDisk (t : Struct) (p : V3) : Bool := decide (¬ CompletelyOutside false false t p)

open Classical in
/-- `InsideKernel`, `Inside` (TorusImplementation2.h:302-315, 514-519). -/
noncomputable def inside (t : Struct) (p : V3) : Inside :=
  if CompletelyInside true t p then .inside else if CompletelyOutside true true t p then .outside else .surface

/-- `rad` (TorusImplementation2.h:488-489, 646-647). -/
noncomputable def radOf (t : Struct) (p : V3) : ℝ := √(radsq t p)

open Classical in
/-- `SafetyToOut` (TorusImplementation2.h:485-501). -/
noncomputable def safetyToOut (t : Struct) (p : V3) : ℝ :=
  let safety := if t.rmin ≠ 0 then min (radOf t p - t.rmin) (t.rmax - radOf t p) else t.rmax - radOf t p
  if t.dphi < 2 * π then min (t.wedge.safetyToOut p) safety else safety

open Classical in
/-- `SafetyToIn` (TorusImplementation2.h:639-658). -/
noncomputable def safetyToIn (t : Struct) (p : V3) : ℝ :=
  let safety := if t.rmin ≠ 0 then max (t.rmin - radOf t p) (radOf t p - t.rmax) else radOf t p - t.rmax
  if t.dphi < 2 * π ∧ perp p ≠ 0 then max (t.wedge.safetyToIn p) safety else safety

/-- `volume`, `Capacity` (UnplacedTorus2.h:153-156, 199). -/
noncomputable def capacity (u : Unplaced) : ℝ := u.t.dphi * π * u.t.rtor * (u.t.rmax * u.t.rmax - u.t.rmin * u.t.rmin)

open Classical in
/-- `SurfaceArea` (UnplacedTorus2.h:190-197). -/
noncomputable def surfaceArea (u : Unplaced) : ℝ :=
  let area := u.t.dphi * (2 * π) * u.t.rtor * (u.t.rmax + u.t.rmin)
  if u.t.dphi < 2 * π then area + 2 * π * (u.t.rmax * u.t.rmax - u.t.rmin * u.t.rmin) else area

/-- `Extent` (UnplacedTorus2.h:210). -/
noncomputable def extent (u : Unplaced) : V3 × V3 := Tube.extent u.tube

open Classical in
/-- `GetRadiusInRing` (VolumeUtilities.h:1010-1023) with the random number `r` in [0, 1). -/
noncomputable def radiusInRing (rmin rmax r : ℝ) : ℝ :=
  if rmin ≤ 0 then rmax * √r
  else if rmin ≠ rmax then √(rmin * rmin + r * (rmax * rmax - rmin * rmin)) else rmin

/-- `RNG::uniform(min, max)` with the random number `r` in [0, 1) (RNG.h). -/
def uniform (lo hi r : ℝ) : ℝ := lo + (hi - lo) * r

open Classical in
/-- `aSide` (UnplacedTorus2.cpp:123-127). -/
noncomputable def sideArea (u : Unplaced) : ℝ :=
  if u.t.sphi = 0 ∧ u.t.dphi = 2 * π then 0 else π * (u.t.rmax * u.t.rmax - u.t.rmin * u.t.rmin)

/-- A point of the tube of radius `r` (UnplacedTorus2.cpp:131-132, 134-135, 138-139, 142-143). -/
noncomputable def tubePoint (R r phi theta : ℝ) : V3 :=
  ⟨(R + r * cos theta) * cos phi, (R + r * cos theta) * sin phi, r * sin theta⟩

open Classical in
/-- `SamplePointOnSurface` (UnplacedTorus2.cpp:106-145) with the random numbers `r1`, … in [0, 1) in the order of the calls. -/
noncomputable def samplePoint (u : Unplaced) (r1 r2 r3 r4 : ℝ) : V3 :=
  let phi := uniform u.t.sphi (u.t.sphi + u.t.dphi) r1
  let theta := uniform 0 (2 * π) r2
  let aOut := u.t.dphi * (2 * π) * u.t.rtor * u.t.rmax
  let aIn := u.t.dphi * (2 * π) * u.t.rtor * u.t.rmin
  let aSide := sideArea u
  let chose := uniform 0 (aOut + aIn + 2 * aSide) r3
  if chose < aOut then tubePoint u.t.rtor u.t.rmax phi theta
  else if chose ≥ aOut ∧ chose < aOut + aIn then tubePoint u.t.rtor u.t.rmin phi theta
  else if chose ≥ aOut + aIn ∧ chose < aOut + aIn + aSide then
    tubePoint u.t.rtor (radiusInRing u.t.rmin u.t.rmax r4) u.t.sphi theta
  else tubePoint u.t.rtor (radiusInRing u.t.rmin u.t.rmax r4) (u.t.sphi + u.t.dphi) theta

end Torus
end VecGeom
