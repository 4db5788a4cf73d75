import Verif.Boolean.Model

/-!
# Model of scaled shapes

`Scale3D` (VecGeom/base/Scale3D.h), `ScaledShapeImplementation` (VecGeom/volumes/kernel/ScaledShapeImplementation.h) and
`UnplacedScaledShape` (VecGeom/volumes/UnplacedScaledShape.h, source/UnplacedScaledShape.cpp).  Numbers are real; the shape
that is scaled is any placed solid (`Boolean.Placed`).
-/

namespace VecGeom
namespace Scaled

open Boolean

/-- The data members of `Scale3D` (Scale3D.h:36-40). -/
structure Scale3D where
  fScale : V3
  fInvScale : V3
  fSclLocal : ℝ
  fSclMaster : ℝ

namespace Scale3D

open Classical in
/-- `Update` (Scale3D.h:96-105), called by the constructors and by `SetScale` (Scale3D.h:56-66, 126-141); `none` if the
assertion fails (division by zero). -/
noncomputable def update (s : V3) : Option Scale3D :=
  if s.x ≠ 0 ∧ s.y ≠ 0 ∧ s.z ≠ 0 then
    let inv : V3 := ⟨1 / s.x, 1 / s.y, 1 / s.z⟩
    some ⟨s, inv, min (min |inv.x| |inv.y|) |inv.z|, min (min |s.x| |s.y|) |s.z|⟩
  else none

/-- The default constructor (Scale3D.h:46-47). -/
def unit : Scale3D := ⟨⟨1, 1, 1⟩, ⟨1, 1, 1⟩, 1, 1⟩

/-- `Transform` (Scale3D.h:149-161), for points and directions. -/
def transform (s : Scale3D) (m : V3) : V3 := ⟨m.x * s.fInvScale.x, m.y * s.fInvScale.y, m.z * s.fInvScale.z⟩

/-- `InverseTransform` (Scale3D.h:169-181). -/
def inverseTransform (s : Scale3D) (l : V3) : V3 := ⟨l.x * s.fScale.x, l.y * s.fScale.y, l.z * s.fScale.z⟩

/-- `TransformNormal` (Scale3D.h:189-203). -/
def transformNormal (s : Scale3D) (m : V3) : V3 :=
  ⟨m.x * s.fInvScale.y * s.fInvScale.z, m.y * s.fInvScale.z * s.fInvScale.x, m.z * s.fInvScale.x * s.fInvScale.y⟩

/-- `InverseTransformNormal` (Scale3D.h:211-224). -/
def inverseTransformNormal (s : Scale3D) (l : V3) : V3 :=
  ⟨l.x * s.fScale.y * s.fScale.z, l.y * s.fScale.z * s.fScale.x, l.z * s.fScale.x * s.fScale.y⟩

/-- `TransformDistance` (Scale3D.h:232-237). -/
noncomputable def transformDistance (s : Scale3D) (dist : ℝ) (dir : V3) : ℝ :=
  let v := V3.mul dir s.fInvScale
  Real.sqrt (v.dot v) * dist

/-- `TransformSafety` (Scale3D.h:245-248). -/
def transformSafety (s : Scale3D) (safety : ℝ) : ℝ := safety * s.fSclLocal

/-- `InverseTransformDistance` (Scale3D.h:256-261). -/
noncomputable def inverseTransformDistance (s : Scale3D) (dist : ℝ) (dir : V3) : ℝ :=
  let v := V3.mul dir s.fScale
  Real.sqrt (v.dot v) * dist

/-- `InverseTransformSafety` (Scale3D.h:269-272). -/
def inverseTransformSafety (s : Scale3D) (safety : ℝ) : ℝ := safety * s.fSclMaster

end Scale3D

open Classical in
/-- `Vector3D::Normalize` (Vector3D.h:198); `none` for the zero vector (division by zero). -/
noncomputable def normalize (v : V3) : Option V3 := if v.mag = 0 then none else some (V3.smul (1 / v.mag) v)

/-- `Contains` (ScaledShapeImplementation.h:70-81). -/
def contains (s : Scale3D) (v : Placed) (p : V3) : Bool := v.contains (s.transform p)

/-- `Inside` (ScaledShapeImplementation.h:83-94). -/
def inside (s : Scale3D) (v : Placed) (p : V3) : Inside := v.inside (s.transform p)

open Classical in
/-- `DistanceToIn` (ScaledShapeImplementation.h:96-120). -/
noncomputable def distanceToIn (s : Scale3D) (v : Placed) (p d : V3) (stepMax : ℝ) : Option ℝ :=
  (normalize (s.transform d)).bind fun ud =>
  (v.distanceToIn (s.transform p) ud (s.transformDistance stepMax d)).map fun t =>
    if t < kInfLength then s.inverseTransformDistance t ud else t

open Classical in
/-- `DistanceToOut` (ScaledShapeImplementation.h:122-146): asks the placed volume without the placement. -/
noncomputable def distanceToOut (s : Scale3D) (v : Placed) (p d : V3) (stepMax : ℝ) : Option ℝ :=
  (normalize (s.transform d)).bind fun ud =>
  (v.distanceToOut (s.transform p) ud (s.transformDistance stepMax d)).map fun t =>
    if t < kInfLength then s.inverseTransformDistance t ud else t

/-- `SafetyToIn` (ScaledShapeImplementation.h:148-160). -/
def safetyToIn (s : Scale3D) (v : Placed) (p : V3) : ℝ := s.inverseTransformSafety (v.safetyToIn (s.transform p))

/-- `SafetyToOut` (ScaledShapeImplementation.h:162-174): asks the placed volume without the placement. -/
def safetyToOut (s : Scale3D) (v : Placed) (p : V3) : ℝ := s.inverseTransformSafety (v.safetyToOut (s.transform p))

/-- `NormalKernel` (ScaledShapeImplementation.h:176-194) and `UnplacedScaledShape::Normal`
(source/UnplacedScaledShape.cpp:32-39): the flag `valid` is never assigned.  `none` if a zero vector is normalised. -/
noncomputable def normal (s : Scale3D) (v : Placed) (p : V3) : Option (V3 × Bool) :=
  (normalize (s.inverseTransformNormal (v.normal (s.transform p)).1)).map fun n => (n, false)

/-- `UnplacedScaledShape::Extent` (source/UnplacedScaledShape.cpp:42-58). -/
noncomputable def extent (s : Scale3D) (v : Placed) : AABB.Box :=
  let e := v.extent
  let center := s.inverseTransform (V3.smul (1 / 2) (e.lo + e.hi))
  let semilengths := s.inverseTransform (V3.smul (1 / 2) (e.hi - e.lo))
  ⟨center - semilengths, center + semilengths⟩

/-- `UnplacedScaledShape::Volume` and `Capacity` (UnplacedScaledShape.h:162-170). -/
def capacity (s : Scale3D) (placedCapacity : ℝ) : ℝ := placedCapacity * (s.fScale.x * s.fScale.y * s.fScale.z)

/-- The scaled shape behind the virtual interface (a normal that is undefined becomes the zero vector). -/
noncomputable def scaledSolid (s : Scale3D) (v : Placed) : Solid where
  contains := contains s v
  inside := inside s v
  distanceToIn := distanceToIn s v
  distanceToOut := distanceToOut s v
  safetyToIn := safetyToIn s v
  safetyToOut := safetyToOut s v
  normal p := (normal s v p).getD (⟨0, 0, 0⟩, false)
  extent := extent s v

end Scaled
end VecGeom
