import Verif.Tube.Model

/-!
# Cut tubes

Model of `VecGeom/volumes/Plane.h`, `VecGeom/volumes/CutPlanes.h` (`source/CutPlanes.cpp`), `VecGeom/volumes/CutTubeStruct.h`,
`VecGeom/volumes/kernel/CutTubeImplementation.h` and `VecGeom/volumes/UnplacedCutTube.h`, `source/UnplacedCutTube.cpp`: a tube
without lids that two planes cut.  Scalar code; `Precision` is `ℝ`.
-/

namespace VecGeom
namespace CutTube

open Real

/-! ## Planes -/

open Classical in
/-- `Vector3D::FixZeroes` (Vector3D.h:298-305). -/
noncomputable def fixZeroes (v : V3) : V3 :=
  let fix (c : ℝ) := if |c| < kTolerance then 0 else c
  ⟨fix v.x, fix v.y, fix v.z⟩

/-- `Plane::Set(normal, origin)` (Plane.h:44-51). -/
noncomputable def setPlane (normal origin : V3) : Plane :=
  let fixed := fixZeroes normal
  let inverseLength := 1 / fixed.mag
  ⟨V3.smul inverseLength fixed, inverseLength * -(fixed.dot origin)⟩

/-- `Plane::DistPlane` (Plane.h:102-107). -/
def distPlane (pl : Plane) (p : V3) : ℝ := p.dot pl.n + pl.d

open Classical in
/-- `Plane::DistanceToIn` (Plane.h:131-147). -/
noncomputable def planeIn (pl : Plane) (p d : V3) : ℝ :=
  let ndd := nonZero (d.dot pl.n)
  let saf := distPlane pl p
  if ndd < 0 ∧ saf > -kTolerance then -saf / ndd else -kInfLength

open Classical in
/-- `Plane::DistanceToOut` (Plane.h:152-171). -/
noncomputable def planeOut (pl : Plane) (p d : V3) : ℝ :=
  let ndd := nonZero (d.dot pl.n)
  let saf := distPlane pl p
  let distance := if saf > kTolerance then -kInfLength else kInfLength
  if ndd > 0 ∧ saf < kTolerance then -saf / ndd else distance

/-- `CutPlanes`: the two planes (CutPlanes.h:18-20). -/
structure Cuts where
  p0 : Plane
  p1 : Plane

namespace Cuts

open Classical in
/-- `CutPlanes::Contains` (CutPlanes.h:103-106). -/
noncomputable def contains (c : Cuts) (p : V3) : Bool := decide (distPlane c.p0 p < 0 ∧ distPlane c.p1 p < 0)

open Classical in
/-- `CutPlanes::Inside` (CutPlanes.h:111-121). -/
noncomputable def inside (c : Cuts) (p : V3) : Inside :=
  let d0 := distPlane c.p0 p
  let d1 := distPlane c.p1 p
  let i := if d0 < 0 ∧ d1 < 0 then Inside.inside else Inside.outside
  if |d0| < kTolerance ∨ |d1| < kTolerance then Inside.surface else i

open Classical in
/-- `CutPlanes::DistanceToIn` (CutPlanes.h:126-140). -/
noncomputable def distanceToIn (c : Cuts) (p d : V3) : ℝ :=
  let d0 := if d.dot c.p0.n > 0 then -kInfLength else planeIn c.p0 p d
  let d1 := if d.dot c.p1.n > 0 then -kInfLength else planeIn c.p1 p d
  max d0 d1

/-- `CutPlanes::DistanceToOut` (CutPlanes.h:145-151). -/
noncomputable def distanceToOut (c : Cuts) (p d : V3) : ℝ := min (planeOut c.p0 p d) (planeOut c.p1 p d)

/-- `CutPlanes::SafetyToIn` with `Plane::SafetyToIn` (CutPlanes.h:156-162, Plane.h:176-181). -/
noncomputable def safetyToIn (c : Cuts) (p : V3) : ℝ := max (distPlane c.p0 p) (distPlane c.p1 p)

/-- `CutPlanes::SafetyToOut` with `Plane::SafetyToOut` (CutPlanes.h:167-173, Plane.h:186-191). -/
noncomputable def safetyToOut (c : Cuts) (p : V3) : ℝ := min (-distPlane c.p0 p) (-distPlane c.p1 p)

end Cuts

/-! ## The structure -/

/-- `CutTubeStruct` (CutTubeStruct.h:22-31). -/
structure Struct where
  dz : ℝ
  tube : Tube.Struct
  cuts : Cuts
  cosPhi1 : ℝ
  sinPhi1 : ℝ
  cosPhi2 : ℝ
  sinPhi2 : ℝ
  maxVal : ℝ

/-- The constructor of `CutTubeStruct` (CutTubeStruct.h:38-51). -/
noncomputable def make (rmin rmax z sphi dphi : ℝ) (bottom top : V3) : Struct where
  dz := z
  tube := Tube.make rmin rmax kInfLength sphi dphi
  cuts := ⟨setPlane bottom.unit ⟨0, 0, -z⟩, setPlane top.unit ⟨0, 0, z⟩⟩
  cosPhi1 := cos sphi
  sinPhi1 := sin sphi
  cosPhi2 := cos (sphi + dphi)
  sinPhi2 := sin (sphi + dphi)
  maxVal := max rmax z

open Classical in
/-- The constructors of `UnplacedCutTube` (UnplacedCutTube.h:36-69): `none` for the exception. -/
noncomputable def construct (rmin rmax z sphi dphi : ℝ) (bottom top : V3) : Option Struct :=
  if bottom.z ≥ 0 ∨ top.z ≤ 0 then none else some (make rmin rmax z sphi dphi bottom top)

/-- `SetDz` (UnplacedCutTube.h:113): the half length of the tube inside. -/
noncomputable def setDz (t : Struct) (z : ℝ) : Struct := { t with tube := Tube.setDz t.tube z }
/-- `SetRMax` (UnplacedCutTube.h:110). -/
noncomputable def setRMax (t : Struct) (r : ℝ) : Struct := { t with tube := Tube.setRMax t.tube r }
/-- `SetRMin` (UnplacedCutTube.h:107). -/
noncomputable def setRMin (t : Struct) (r : ℝ) : Struct := { t with tube := Tube.setRMin t.tube r }
/-- `SetSPhi` (UnplacedCutTube.h:116). -/
noncomputable def setSPhi (t : Struct) (s : ℝ) : Struct := { t with tube := Tube.setSPhi t.tube s }
/-- `SetDPhi` (UnplacedCutTube.h:119). -/
noncomputable def setDPhi (t : Struct) (d : ℝ) : Struct := { t with tube := Tube.setDPhi t.tube d }

/-! ## Points -/

/-- `Contains` (CutTubeImplementation.h:83-97). -/
noncomputable def contains (t : Struct) (p : V3) : Bool :=
  if t.cuts.contains p = false then false else Tube.contains Tube.universal t.tube p && t.cuts.contains p

/-- The two results together (CutTubeImplementation.h:115-118, 170-173). -/
def combine (cut tube : Inside) : Inside :=
  if cut = .outside ∨ (cut = .surface ∧ tube ≠ .outside) then cut else tube

/-- `Inside` (CutTubeImplementation.h:101-118). -/
noncomputable def inside (t : Struct) (p : V3) : Inside :=
  if t.cuts.inside p = .outside then .outside else combine (t.cuts.inside p) (Tube.inside Tube.universal t.tube p)

/-! ## Distances -/

open Classical in
/-- The last part of `DistanceToInKernel`, from a point between the planes (CutTubeImplementation.h:230-249): the distance to the
tube, unless the line leaves the space between the planes before. -/
noncomputable def tubeStep (t : Struct) (q d : V3) (dplanes stepMax distance : ℝ) : ℝ :=
  let dexit := t.cuts.distanceToOut q d
  let dtube := Tube.distanceToInKernel Tube.universal t.tube q d
  let dtube := if dtube < 0 then 0 else dtube
  let dtube := if dexit < dtube then kInfLength else dtube
  if dtube + dplanes < stepMax then dtube + dplanes else distance

open Classical in
/-- `DistanceToInKernel` (CutTubeImplementation.h:150-253). -/
noncomputable def distanceToInKernel (t : Struct) (p d : V3) (stepMax : ℝ) : ℝ :=
  let cut := t.cuts.inside p
  let instart := combine cut (Tube.inside Tube.universal t.tube p)
  let distance := if instart = .inside then -1 else kInfLength
  let dplanes := t.cuts.distanceToIn p d
  let safplanes := t.cuts.safetyToIn p
  let hit := |dplanes| < stepMax ∧ safplanes > -kTolerance
  if cut ≠ .inside ∧ ¬ hit then distance
  else
    let dplanes := if hit then dplanes else 0
    let q := if hit then V3.at' p d dplanes else p
    let cut := if hit then t.cuts.inside q else cut
    if cut = .outside ∨ instart = .inside then distance
    else if hit ∧ Tube.inside Tube.universal t.tube q ≠ .outside then (if |dplanes| < kTolerance then 0 else dplanes)
    else tubeStep t q d dplanes stepMax distance

open Classical in
/-- `DistanceToIn` (CutTubeImplementation.h:121-147). -/
noncomputable def distanceToIn (t : Struct) (p d : V3) (stepMax : ℝ) : ℝ :=
  let far := p.mag > 100 * t.maxVal
  let distToMove := if far then p.mag - 100 * t.maxVal else 0
  let q := if far then V3.at' p d distToMove else p
  distanceToInKernel t q d stepMax + distToMove

open Classical in
/-- `DistanceToOut` (CutTubeImplementation.h:257-274). -/
noncomputable def distanceToOut (t : Struct) (p d : V3) : ℝ :=
  let distance := t.cuts.distanceToOut p d
  let dtube := Tube.distanceToOut Tube.universal t.tube p d
  if dtube < distance then dtube else distance

open Classical in
/-- `SafetyToIn` (CutTubeImplementation.h:278-292). -/
noncomputable def safetyToIn (t : Struct) (p : V3) : ℝ :=
  let safety := t.cuts.safetyToIn p
  let saftube := Tube.safetyToIn Tube.universal t.tube p
  if saftube > safety then saftube else safety

open Classical in
/-- `SafetyToOut` (CutTubeImplementation.h:296-309). -/
noncomputable def safetyToOut (t : Struct) (p : V3) : ℝ :=
  let safety := t.cuts.safetyToOut p
  let saftube := Tube.safetyToOut Tube.universal t.tube p
  if saftube < safety then saftube else safety

open Classical in
/-- `NormalKernel` (CutTubeImplementation.h:313-336), `UnplacedCutTube::Normal` (UnplacedCutTube.cpp:187-192).  `none` where the tube
falls back on the approximation that `Tube.normal` does not model. -/
noncomputable def normal (t : Struct) (p norm : V3) : Option (Bool × V3) :=
  let safcut := t.cuts.safetyToOut p
  let saftube := Tube.safetyToOut Tube.universal t.tube p
  if |saftube| < |safcut| then Tube.normal t.tube p norm
  else if p.z < 0 then some (true, t.cuts.p0.n) else some (true, t.cuts.p1.n)

/-! ## Sizes -/

/-- `ZlimitBottom` (UnplacedCutTube.h:135-139). -/
noncomputable def zBottom (t : Struct) (r phi : ℝ) : ℝ :=
  -t.dz - r / t.cuts.p0.n.z * (t.cuts.p0.n.x * cos phi + t.cuts.p0.n.y * sin phi)

/-- `ZlimitTop` (UnplacedCutTube.h:143-147). -/
noncomputable def zTop (t : Struct) (r phi : ℝ) : ℝ :=
  t.dz - r / t.cuts.p1.n.z * (t.cuts.p1.n.x * cos phi + t.cuts.p1.n.y * sin phi)

/-- `volume`, `Capacity` (UnplacedCutTube.cpp:36-46). -/
noncomputable def capacity (t : Struct) : ℝ :=
  let T := t.cuts.p1.n
  let B := t.cuts.p0.n
  let r := t.tube.rmin
  let R := t.tube.rmax
  let noCut := t.dz * t.tube.dphi * (R * R - r * r)
  let delta := 1 / 3 * (R * R * R - r * r * r) *
    ((T.x / T.z - B.x / B.z) * (t.sinPhi2 - t.sinPhi1) - (T.y / T.z - B.y / B.z) * (t.cosPhi2 - t.cosPhi1))
  noCut - delta

/-- `GetLateralArea` (UnplacedCutTube.h:151-159). -/
noncomputable def lateralArea (t : Struct) (r : ℝ) : ℝ :=
  let T := t.cuts.p1.n
  let B := t.cuts.p0.n
  2 * r * t.dz * t.tube.dphi -
    r * r * ((T.x / T.z - B.x / B.z) * (t.sinPhi2 - t.sinPhi1) - (T.y / T.z - B.y / B.z) * (t.cosPhi2 - t.cosPhi1))

/-- `GetTopArea` (UnplacedCutTube.h:163-166). -/
noncomputable def topArea (t : Struct) : ℝ := 1 / 2 * (t.tube.rmax2 - t.tube.rmin2) * t.tube.dphi / t.cuts.p1.n.z

/-- `GetBottomArea` (UnplacedCutTube.h:170-173). -/
noncomputable def bottomArea (t : Struct) : ℝ := -(1 / 2) * (t.tube.rmax2 - t.tube.rmin2) * t.tube.dphi / t.cuts.p0.n.z

open Classical in
/-- `GetLateralPhi1Area` and `GetLateralPhi2Area` (UnplacedCutTube.h:177-193), for the angle `phi` of the face. -/
noncomputable def phiArea (t : Struct) (phi : ℝ) : ℝ :=
  if t.tube.dphi = 2 * π then 0
  else 1 / 2 * (t.tube.rmax - t.tube.rmin) * ((zTop t t.tube.rmin phi - zBottom t t.tube.rmin phi) +
    (zTop t t.tube.rmax phi - zBottom t t.tube.rmax phi))

/-- `SurfaceArea` (UnplacedCutTube.h:205-209). -/
noncomputable def surfaceArea (t : Struct) : ℝ :=
  bottomArea t + topArea t + lateralArea t t.tube.rmin + lateralArea t t.tube.rmax + phiArea t t.tube.sphi +
    phiArea t (t.tube.sphi + t.tube.dphi)

/-- The areas in `SamplePointOnSurface` (UnplacedCutTube.cpp:55-60). -/
noncomputable def areas (t : Struct) : List ℝ :=
  [bottomArea t, topArea t, lateralArea t t.tube.rmax, lateralArea t t.tube.rmin, phiArea t t.tube.sphi,
    phiArea t (t.tube.sphi + t.tube.dphi)]

/-- `SamplePointOnSurface` (UnplacedCutTube.cpp:48-125) with random numbers of `[0, 1)`: `u0` chooses the surface, `u1`, `u2`, `u3`
are for the radius, the angle and the height.  `none` for reading behind the array of areas.  The order of the draws is not
modelled. -/
noncomputable def samplePointOnSurface (t : Struct) (u0 u1 u2 u3 : ℝ) : Option V3 :=
  match Tube.chooseLoop (areas t) (u0 * (areas t).sum) 0 with
  | none => none
  | some surface =>
    let rVal := Tube.uniform t.tube.rmin t.tube.rmax u1
    let phiVal := Tube.uniform t.tube.sphi (t.tube.sphi + t.tube.dphi) u2
    let zVal (r phi : ℝ) := Tube.uniform (zBottom t r phi) (zTop t r phi) u3
    let q : ℝ × ℝ × ℝ := match surface with
      | 0 => (rVal, phiVal, zBottom t rVal phiVal)
      | 1 => (rVal, phiVal, zTop t rVal phiVal)
      | 2 => (t.tube.rmax, phiVal, zVal t.tube.rmax phiVal)
      | 3 => (t.tube.rmin, phiVal, zVal t.tube.rmin phiVal)
      | 4 => (rVal, t.tube.sphi, zVal rVal t.tube.sphi)
      | _ => (rVal, t.tube.sphi + t.tube.dphi, zVal rVal (t.tube.sphi + t.tube.dphi))
    some ⟨q.1 * cos q.2.1, q.1 * sin q.2.1, q.2.2⟩

open Classical in
/-- One side of the box in `Extent` (UnplacedCutTube.cpp:137-171): if the wedge contains the direction `(x, y)` the full value,
otherwise the extreme of the values at the corners. -/
noncomputable def extentSide (pick : ℝ → ℝ → ℝ) (t : Struct) (x y full a b c e : ℝ) : ℝ :=
  if t.tube.wedge.contains ⟨x, y, 0⟩ = true then full else pick (pick (pick a b) c) e

open Classical in
/-- `Extent` (UnplacedCutTube.cpp:128-172). -/
noncomputable def extent (t : Struct) : V3 × V3 :=
  let T := t.cuts.p1.n
  let B := t.cuts.p0.n
  let r := t.tube.rmin
  let R := t.tube.rmax
  let s := t.tube.sphi
  let e := t.tube.sphi + t.tube.dphi
  let dztop := R * √(1 - T.z * T.z) / T.z
  let dzbottom := -R * √(1 - B.z * B.z) / B.z
  if t.tube.dphi = 2 * π then (⟨-R, -R, -t.dz - dzbottom⟩, ⟨R, R, t.dz + dztop⟩)
  else
    (⟨extentSide min t (-1) 0 (-R) (R * t.cosPhi1) (R * t.cosPhi2) (r * t.cosPhi1) (r * t.cosPhi2),
      extentSide min t 0 (-1) (-R) (R * t.sinPhi1) (R * t.sinPhi2) (r * t.sinPhi1) (r * t.sinPhi2),
      extentSide min t (-B.x) (-B.y) (-t.dz - dzbottom) (zBottom t R s) (zBottom t R e) (zBottom t r s) (zBottom t r e)⟩,
     ⟨extentSide max t 1 0 R (R * t.cosPhi1) (R * t.cosPhi2) (r * t.cosPhi1) (r * t.cosPhi2),
      extentSide max t 0 1 R (R * t.sinPhi1) (R * t.sinPhi2) (r * t.sinPhi1) (r * t.sinPhi2),
      extentSide max t (-T.x) (-T.y) (t.dz + dztop) (zTop t R s) (zTop t R e) (zTop t r s) (zTop t r e)⟩)

open Classical in
/-- `DetectConvexity` (UnplacedCutTube.cpp:175-184). -/
noncomputable def detectConvexity (t : Struct) : Bool :=
  decide (t.tube.rmin = 0 ∧ (t.tube.dphi ≤ π ∨ t.tube.dphi = 2 * π))

/-- A vertex of `CreateMesh3D` on the top and on the bottom plane, for the radius `r` and the angle `phi`
(UnplacedCutTube.cpp:215-224). -/
noncomputable def meshVertex (t : Struct) (top : Bool) (r phi : ℝ) : V3 :=
  let n := if top then t.cuts.p1.n else t.cuts.p0.n
  let x := r * cos phi
  let y := r * sin phi
  ⟨x, y, (t.dz - n.x * x - n.y * y) / n.z⟩

end CutTube
end VecGeom
