import Verif.Cone.Model

/-!
# Coaxial cones

Model of `VecGeom/volumes/CoaxialConesStruct.h`, `VecGeom/volumes/kernel/CoaxialConesImplementation.h`,
`VecGeom/volumes/UnplacedCoaxialCones.h` and `source/UnplacedCoaxialCones.cpp`.  Scalar code; `Precision` is `ℝ`.  A member that has not
been assigned is `none`.  Not modelled: the normal, `IsOnRing`, printing, the copies for the GPU.
-/

namespace VecGeom
namespace Coax

open Real Cone

/-- The radii of one of the cones: elements of `fRmin1Vect`, `fRmax1Vect`, `fRmin2Vect` and `fRmax2Vect`. -/
structure Radii where
  rmin1 : ℝ
  rmax1 : ℝ
  rmin2 : ℝ
  rmax2 : ℝ

/-- `CoaxialConesStruct` (CoaxialConesStruct.h:18-26, 92-97): the cones (`fConeStructVector`) and the members that hold results. -/
structure Struct where
  cones : List Cone.Struct
  area : Option ℝ
  volume : Option ℝ
  maxR : Option ℝ
  minR : Option ℝ

open Classical in
/-- The constructors (CoaxialConesStruct.h:45-90). -/
noncomputable def make (rs : List Radii) (dz sphi dphi : ℝ) : Struct where
  cones := rs.map fun r => Cone.make r.rmin1 r.rmax1 r.rmin2 r.rmax2 dz sphi dphi
  area := none
  volume := none
  maxR := rs.getLast?.map fun r => if r.rmax1 > r.rmax2 then r.rmax1 else r.rmax2
  minR := rs.head?.map fun r => if r.rmin1 < r.rmin2 then r.rmin1 else r.rmin2

/-- `CoaxialConesStruct::Capacity` (CoaxialConesStruct.h:101-108). -/
noncomputable def structCapacity (c : Struct) : ℝ := c.cones.foldl (fun v k => v + Cone.capacity k) 0

/-- `ConicalSurfaceArea` (CoaxialConesStruct.h:111-129). -/
noncomputable def conicalArea (c : Struct) : ℝ :=
  c.cones.foldl (fun v k => v + k.dphi *
    ((k.rmin1 + k.rmin2) * 0.5 * √((k.rmin2 - k.rmin1) * (k.rmin2 - k.rmin1) + 4 * k.dz * k.dz) +
      (k.rmax1 + k.rmax2) * 0.5 * √((k.rmax2 - k.rmax1) * (k.rmax2 - k.rmax1) + 4 * k.dz * k.dz))) 0

/-- `SurfaceAreaLowerZPlanes` (CoaxialConesStruct.h:132-137). -/
noncomputable def lowerArea (k : Cone.Struct) : ℝ := k.dphi * 0.5 * (k.rmax1 * k.rmax1 - k.rmin1 * k.rmin1)
/-- `SurfaceAreaUpperZPlanes` (CoaxialConesStruct.h:140-145). -/
noncomputable def upperArea (k : Cone.Struct) : ℝ := k.dphi * 0.5 * (k.rmax2 * k.rmax2 - k.rmin2 * k.rmin2)

/-- `SurfaceAreaOfZPlanes` (CoaxialConesStruct.h:148-155): an assignment, not a sum. -/
noncomputable def planesArea (c : Struct) : ℝ := c.cones.foldl (fun _ k => lowerArea k + upperArea k) 0

/-- `CoaxialConesStruct::SurfaceArea` (CoaxialConesStruct.h:158). -/
noncomputable def structArea (c : Struct) : ℝ := conicalArea c + planesArea c

/-- `UnplacedCoaxialCones::Capacity` (UnplacedCoaxialCones.h:50). -/
def capacity (c : Struct) : Option ℝ := c.volume
/-- `UnplacedCoaxialCones::SurfaceArea` (UnplacedCoaxialCones.h:52). -/
def surfaceArea (c : Struct) : Option ℝ := c.area

/-- `Extent` (UnplacedCoaxialCones.cpp:16): the two arguments are left as they are. -/
def extent (_ : Struct) (aMin aMax : V3) : V3 × V3 := (aMin, aMax)

open Classical in
/-- `Contains` (CoaxialConesImplementation.h:51-57, 76-116 without `ForInside`). -/
noncomputable def contains (c : Struct) (p : V3) : Bool :=
  !(c.cones.foldl (fun out k => out && decide (CompletelyOutside universal false k p)) true)

open Classical in
/-- The loop of `GenericKernelForContainsAndInside` with `ForInside` (CoaxialConesImplementation.h:76-116): `completelyinside` and
`completelyoutside`. -/
noncomputable def insideLoop (p : V3) : List Cone.Struct → Bool × Bool
  | [] => (false, true)
  | k :: l =>
    if CompletelyInside universal k p then (true, false)
    else if ¬ CompletelyInside universal k p ∧ ¬ CompletelyOutside universal true k p then (false, false)
    else insideLoop p l

/-- `Inside` (CoaxialConesImplementation.h:62-74). -/
noncomputable def inside (c : Struct) (p : V3) : Inside :=
  let r := insideLoop p c.cones
  if r.1 then .inside else if r.2 then .outside else .surface

open Classical in
/-- `DistanceToIn` (CoaxialConesImplementation.h:119-134). -/
noncomputable def distanceToIn (c : Struct) (p d : V3) : ℝ :=
  c.cones.foldl (fun x k => if Cone.distanceToIn universal k p d < x then Cone.distanceToIn universal k p d else x) kInfLength

open Classical in
/-- `DistanceToOut` (CoaxialConesImplementation.h:137-151). -/
noncomputable def distanceToOut (c : Struct) (p d : V3) : ℝ :=
  c.cones.foldl (fun x k => if Cone.distanceToOut universal k p d > x then Cone.distanceToOut universal k p d else x) (-1)

open Classical in
/-- `SafetyToIn` (CoaxialConesImplementation.h:154-166). -/
noncomputable def safetyToIn (c : Struct) (p : V3) : ℝ :=
  c.cones.foldl (fun x k => if Cone.safetyToIn universal k p < x then Cone.safetyToIn universal k p else x) kInfLength

open Classical in
/-- `SafetyToOut` (CoaxialConesImplementation.h:169-181). -/
noncomputable def safetyToOut (c : Struct) (p : V3) : ℝ :=
  c.cones.foldl (fun x k => if Cone.safetyToOut universal k p > x then Cone.safetyToOut universal k p else x) (-1)

end Coax
end VecGeom
