import Verif.Base.Halfspace

/-!
# The trapezoid with rectangular bases (`Trd`)

Model of `VecGeom/volumes/TrdStruct.h`, of the scalar kernels of `VecGeom/volumes/kernel/TrdImplementation.h`, of
`VecGeom/volumes/kernel/shapetypes/TrdTypes.h`, `VecGeom/volumes/UnplacedTrd.h` and `source/UnplacedTrd.cpp`.
`Precision` is `ℝ`.
-/

namespace VecGeom
namespace Trd

/-- `TrdStruct` (TrdStruct.h:18-42). -/
structure State where
  dx1 : ℝ
  dx2 : ℝ
  dy1 : ℝ
  dy2 : ℝ
  dz : ℝ
  x2minusX1 : ℝ
  y2minusY1 : ℝ
  halfX1plusX2 : ℝ
  halfY1plusY2 : ℝ
  calfX : ℝ
  calfY : ℝ
  secxz : ℝ
  secyz : ℝ
  toleranceX : ℝ
  toleranceY : ℝ
  fx : ℝ
  fy : ℝ

/-- `CalculateCached` (TrdStruct.h:102-121).  A division by zero, for `dz = 0`, is not modelled. -/
noncomputable def calculateCached (s : State) : State :=
  let x2minusX1 := s.dx2 - s.dx1
  let y2minusY1 := s.dy2 - s.dy1
  let fx := 0.5 * (s.dx1 - s.dx2) / s.dz
  let fy := 0.5 * (s.dy1 - s.dy2) / s.dz
  { s with
    x2minusX1 := x2minusX1
    y2minusY1 := y2minusY1
    halfX1plusX2 := 0.5 * (s.dx1 + s.dx2)
    halfY1plusY2 := 0.5 * (s.dy1 + s.dy2)
    fx := fx
    fy := fy
    secxz := Real.sqrt (1 + fx * fx)
    secyz := Real.sqrt (1 + fy * fy)
    calfX := 1 / Real.sqrt (1 + fx * fx)
    calfY := 1 / Real.sqrt (1 + fy * fy)
    toleranceX := kTolerance * Real.sqrt (x2minusX1 * x2minusX1 + 4 * s.dz * s.dz)
    toleranceY := kTolerance * Real.sqrt (x2minusX1 * x2minusX1 + 4 * s.dz * s.dz) }

/-- `SetAllParameters` (TrdStruct.h:90-99) and the constructors (TrdStruct.h:48-82), which differ in the parameters they
repeat; `m` stands for the memory found. -/
noncomputable def setAll (m : State) (x1 x2 y1 y2 z : ℝ) : State :=
  calculateCached { m with dx1 := x1, dx2 := x2, dy1 := y1, dy2 := y2, dz := z }

/-- The template argument of the kernels (TrdTypes.h:29-40). -/
inductive Kind where
  | universal | trd1 | trd2
deriving DecidableEq

open Classical in
/-- `checkVaryingY` (TrdTypes.h:68-76). -/
noncomputable def checkVaryingY (k : Kind) (s : State) : Bool :=
  match k with
  | .universal => decide (s.dy1 ≠ s.dy2)
  | .trd1 => false
  | .trd2 => true

/-! ## Kernels -/

/-- `PointLineOrientation` (TrdImplementation.h:43-49). -/
def pointLineOrientation (px py vx vy : ℝ) : ℝ := vx * py - vy * px

/-- `UnplacedInside` with `surfaceT = true` (TrdImplementation.h:173-221): the flags `completelyinside` and
`completelyoutside`. -/
def insideFlags (k : Kind) (s : State) (p : V3) : Prop × Prop :=
  let pzPlusDz := p.z + s.dz
  let out : Prop := |p.z| > s.dz + kHalfTolerance
  let inn : Prop := |p.z| < s.dz - kHalfTolerance
  let cross := pointLineOrientation (|p.x| - s.dx1) pzPlusDz s.x2minusX1 (2 * s.dz)
  let out : Prop := out ∨ cross < -s.toleranceX
  let inn : Prop := inn ∧ cross > s.toleranceX
  if k ≠ .trd1 then
    let cross := pointLineOrientation (|p.y| - s.dy1) pzPlusDz s.y2minusY1 (2 * s.dz)
    (inn ∧ cross > s.toleranceY, out ∨ cross < -s.toleranceY)
  else (inn ∧ |p.y| < s.dy1 - kHalfTolerance, out ∨ |p.y| > s.dy1 + kHalfTolerance)

/-- `UnplacedInside` with `surfaceT = false` (TrdImplementation.h:173-221): the flag `completelyoutside`. -/
def outsideFlag (k : Kind) (s : State) (p : V3) : Prop :=
  let pzPlusDz := p.z + s.dz
  let out : Prop := |p.z| > s.dz
  let cross := pointLineOrientation (|p.x| - s.dx1) pzPlusDz s.x2minusX1 (2 * s.dz)
  let out : Prop := out ∨ cross < 0
  if k ≠ .trd1 then
    let cross := pointLineOrientation (|p.y| - s.dy1) pzPlusDz s.y2minusY1 (2 * s.dz)
    out ∨ cross < 0
  else out ∨ |p.y| > s.dy1

open Classical in
/-- `Contains` (TrdImplementation.h:250-257). -/
noncomputable def contains (k : Kind) (s : State) (p : V3) : Bool := decide (¬ outsideFlag k s p)

open Classical in
/-- `Inside` (TrdImplementation.h:260-282). -/
noncomputable def inside (k : Kind) (s : State) (p : V3) : Inside :=
  let result := Inside.surface
  let result := if (insideFlags k s p).1 then Inside.inside else result
  if (insideFlags k s p).2 then Inside.outside else result

open Classical in
/-- `Safety` for inside points (TrdImplementation.h:141-170); the result for outside points has the opposite sign. -/
noncomputable def safety (k : Kind) (s : State) (p : V3) : ℝ :=
  let dist := s.dz - |p.z|
  let distx := s.halfX1plusX2 - s.fx * p.z
  let safx := (distx - |p.x|) * s.calfX
  let dist := if distx ≥ 0 ∧ safx < dist then safx else dist
  if checkVaryingY k s then
    let disty := s.halfY1plusY2 - s.fy * p.z
    let safy := (disty - |p.y|) * s.calfY
    if disty ≥ 0 ∧ safy < dist then safy else dist
  else
    let safy := s.dy1 - |p.y|
    if safy < dist then safy else dist

/-- `SafetyToIn` (TrdImplementation.h:475-481). -/
noncomputable def safetyToIn (k : Kind) (s : State) (p : V3) : ℝ := -safety k s p

/-- `SafetyToOut` (TrdImplementation.h:484-490). -/
noncomputable def safetyToOut (k : Kind) (s : State) (p : V3) : ℝ := safety k s p

open Classical in
/-- The last line of the distance functions: small distances become zero. -/
noncomputable def snap (d : ℝ) : ℝ := if |d| < kHalfTolerance then 0 else d

open Classical in
/-- `FaceTrajectoryIntersection` (TrdImplementation.h:78-138): the distance if `ok` is set.  If the denominator is zero the
distance is infinite or not a number; then one of the comparisons with the hit point fails and `ok` is false. -/
noncomputable def faceHit (s : State) (forY mirrored toInside : Bool) (pos dir : V3) : Option ℝ :=
  let alongV := if forY then s.y2minusY1 else s.x2minusX1
  let v1 := if forY then s.dy1 else s.dx1
  let posV := if forY then pos.y else pos.x
  let posK := if forY then pos.x else pos.y
  let dirV := if forY then dir.y else dir.x
  let dirK := if forY then dir.x else dir.y
  let fK := if forY then s.fx else s.fy
  let fV := if forY then s.fy else s.fx
  let halfKplus := if forY then s.halfX1plusX2 else s.halfY1plusY2
  let posV := if mirrored then -posV else posV
  let dirV := if mirrored then -dirV else dirV
  let ndotv := dirV + fV * dir.z
  if ¬ (if toInside then ndotv < 0 else ndotv > 0) then none
  else
    let alongZ := 2 * s.dz
    let denom := dir.z * alongV - dirV * alongZ + kTiny
    if denom = 0 then none
    else
      let dist := (alongZ * (posV - v1) - alongV * (pos.z + s.dz)) / denom
      let hitz := pos.z + dist * dir.z
      let hitk := posK + dist * dirK
      let dK := halfKplus - fK * hitz
      if dist > -kHalfTolerance ∧ |hitz| ≤ s.dz ∧ |hitk| ≤ dK then some (snap dist) else none

/-- `vecCore::MaskedAssign(distance, ok, dist)`. -/
def assign (distance : ℝ) (hit : Option ℝ) : ℝ := hit.getD distance

open Classical in
/-- The hit of a base in `DistanceToIn` (TrdImplementation.h:316-331), where `inz` says that the point is between the
bases. -/
noncomputable def baseHitIn (s : State) (inz : Prop) (point dir : V3) : Option ℝ :=
  if point.z * dir.z < 0 ∧ ¬ inz then
    let distz := (|point.z| - s.dz) / |dir.z|
    let hitx := |point.x + distz * dir.x|
    let hity := |point.y + distz * dir.y|
    let okzt : Prop := point.z > s.dz - kHalfTolerance ∧ hitx ≤ s.dx2 ∧ hity ≤ s.dy2
    let okzb : Prop := point.z < -s.dz + kHalfTolerance ∧ hitx ≤ s.dx1 ∧ hity ≤ s.dy1
    if okzt ∨ okzb then some distz else none
  else none

open Classical in
/-- The hit of a constant side in `DistanceToIn` (TrdImplementation.h:368-377).  For `dir.y = 0` the first comparison
fails. -/
noncomputable def sideHitIn (s : State) (point dir : V3) : Option ℝ :=
  let disty := (|point.y| - s.dy1) / |dir.y|
  let zhit := point.z + disty * dir.z
  let xhit := point.x + disty * dir.x
  let dx := s.halfX1plusX2 - s.fx * zhit
  if point.y * dir.y < 0 ∧ disty > -kHalfTolerance ∧ |xhit| < dx ∧ |zhit| < s.dz then some disty else none

open Classical in
/-- `DistanceToIn` (TrdImplementation.h:285-380). -/
noncomputable def distanceToIn (k : Kind) (s : State) (point dir : V3) : ℝ :=
  let inz : Prop := |point.z| < s.dz - kHalfTolerance
  let inx : Prop := (s.halfX1plusX2 - s.fx * point.z - |point.x|) * s.calfX > 0 + kHalfTolerance
  let iny : Prop :=
    if checkVaryingY k s then (s.halfY1plusY2 - s.fy * point.z - |point.y|) * s.calfY > 0 + kHalfTolerance
    else |point.y| - s.dy1 < 0 - kHalfTolerance
  if inx ∧ iny ∧ inz then snap (-1)
  else
    match baseHitIn s inz point dir with
    | some distz => snap distz
    | none =>
      let distance := kInfLength
      let hit1 := if inx then none else faceHit s false false true point dir
      let distance := assign distance hit1
      let hit2 := if inx then none else faceHit s false true true point dir
      let distance := assign distance hit2
      if hit2.isSome then snap distance
      else if checkVaryingY k s then
        let distance := assign distance (if iny then none else faceHit s true false true point dir)
        let distance := assign distance (if iny then none else faceHit s true true true point dir)
        snap distance
      else snap (assign distance (if iny then none else sideHitIn s point dir))

open Classical in
/-- The hit of a base in `DistanceToOut` (TrdImplementation.h:418-444): the top one or the bottom one.  If `dir.z + kTiny`
is zero the distance is infinite or not a number and the comparisons with the hit point fail. -/
noncomputable def baseHitOut (s : State) (top : Bool) (point dir : V3) : Option ℝ :=
  if (if top then dir.z > 0 else dir.z < 0) ∧ dir.z + kTiny ≠ 0 then
    let invdir := 1 / |dir.z + kTiny|
    let distz := (if top then s.dz - point.z else point.z + s.dz) * invdir
    let hitx := |point.x + distz * dir.x|
    let hity := |point.y + distz * dir.y|
    if hitx ≤ (if top then s.dx2 else s.dx1) ∧ hity ≤ (if top then s.dy2 else s.dy1) then some distz else none
  else none

open Classical in
/-- The hit of a constant side in `DistanceToOut` (TrdImplementation.h:458-466).  For `dir.y = 0` the distance is infinite
or not a number and the comparisons with the hit point fail. -/
noncomputable def sideHitOut (s : State) (point dir : V3) : Option ℝ :=
  let plane := if dir.y < 0 then -s.dy1 else s.dy1
  if dir.y = 0 then none
  else
    let disty := (plane - point.y) / dir.y
    let zhit := point.z + disty * dir.z
    let xhit := point.x + disty * dir.x
    let dx := s.halfX1plusX2 - s.fx * zhit
    if |xhit| < dx ∧ |zhit| < s.dz then some disty else none

open Classical in
/-- The tests of the faces in `DistanceToOut`, in their order (TrdImplementation.h:417-467). -/
noncomputable def hitsOut (k : Kind) (s : State) (point dir : V3) : List (Option ℝ) :=
  [baseHitOut s true point dir, baseHitOut s false point dir, faceHit s false false false point dir,
    faceHit s false true false point dir] ++
  (if checkVaryingY k s then [faceHit s true false false point dir, faceHit s true true false point dir]
   else [sideHitOut s point dir])

open Classical in
/-- `DistanceToOut` (TrdImplementation.h:383-472), with the early returns of the scalar back end.  The last of the tests
has no early return, which makes no difference. -/
noncomputable def distanceToOut (k : Kind) (s : State) (point dir : V3) : ℝ :=
  let out : Prop := s.dz - |point.z| < 0 - kHalfTolerance ∨
    (s.halfX1plusX2 - s.fx * point.z - |point.x|) * s.calfX < 0 - kHalfTolerance ∨
    (if checkVaryingY k s then (s.halfY1plusY2 - s.fy * point.z - |point.y|) * s.calfY < 0 - kHalfTolerance
     else s.dy1 - |point.y| < 0 - kHalfTolerance)
  if out then -1
  else
    match (hitsOut k s point dir).findSome? id with
    | some t => snap t
    | none => snap 0

/-! ## The solid -/

/-- The faces, in the order in which `Normal` looks at them. -/
inductive Face where
  | xm | xp | yp | ym | z
deriving DecidableEq

/-- The distances of the point from the planes of the faces in `Normal` (UnplacedTrd.cpp:287-311). -/
noncomputable def faceDist (s : State) (p : V3) : Face → ℝ
  | .xm => (-2 * s.dz * p.x - (s.dx2 - s.dx1) * p.z - s.dz * (s.dx1 + s.dx2)) *
      (1 / Real.sqrt (4 * s.dz * s.dz + (s.dx2 - s.dx1) * (s.dx2 - s.dx1)))
  | .xp => (2 * s.dz * p.x - (s.dx2 - s.dx1) * p.z - s.dz * (s.dx1 + s.dx2)) *
      (1 / Real.sqrt (4 * s.dz * s.dz + (s.dx2 - s.dx1) * (s.dx2 - s.dx1)))
  | .yp => (2 * s.dz * p.y - (s.dy2 - s.dy1) * p.z - s.dz * (s.dy1 + s.dy2)) *
      (1 / Real.sqrt (4 * s.dz * s.dz + (s.dy2 - s.dy1) * (s.dy2 - s.dy1)))
  | .ym => (-2 * s.dz * p.y - (s.dy2 - s.dy1) * p.z - s.dz * (s.dy1 + s.dy2)) *
      (1 / Real.sqrt (4 * s.dz * s.dz + (s.dy2 - s.dy1) * (s.dy2 - s.dy1)))
  | .z => |(|p.z| - s.dz)|

open Classical in
/-- The vectors that `Normal` adds (UnplacedTrd.cpp:319-342). -/
noncomputable def faceNormal (s : State) (p : V3) : Face → V3
  | .xm => V3.smul (1 / Real.sqrt (4 * s.dz * s.dz + (s.dx2 - s.dx1) * (s.dx2 - s.dx1))) ⟨-2 * s.dz, 0, -(s.dx2 - s.dx1)⟩
  | .xp => V3.smul (1 / Real.sqrt (4 * s.dz * s.dz + (s.dx2 - s.dx1) * (s.dx2 - s.dx1))) ⟨2 * s.dz, 0, -(s.dx2 - s.dx1)⟩
  | .yp => V3.smul (1 / Real.sqrt (4 * s.dz * s.dz + (s.dy2 - s.dy1) * (s.dy2 - s.dy1))) ⟨0, 2 * s.dz, -(s.dy2 - s.dy1)⟩
  | .ym => V3.smul (1 / Real.sqrt (4 * s.dz * s.dz + (s.dy2 - s.dy1) * (s.dy2 - s.dy1))) ⟨0, -2 * s.dz, -(s.dy2 - s.dy1)⟩
  | .z => if p.z ≥ 0 then ⟨0, 0, 1⟩ else ⟨0, 0, -1⟩

/-- The smallest distance in `Normal` (UnplacedTrd.cpp:313-315). -/
noncomputable def safmin (s : State) (p : V3) : ℝ :=
  let m := min |faceDist s p .xm| |faceDist s p .xp|
  let m := min m (min |faceDist s p .ym| |faceDist s p .yp|)
  min m |faceDist s p .z|

open Classical in
/-- One step of the sum in `Normal`: counter and sum. -/
noncomputable def addFace (s : State) (p : V3) (a : Nat × V3) (f : Face) : Nat × V3 :=
  if |faceDist s p f| - safmin s p ≤ kHalfTolerance then (a.1 + 1, a.2 + faceNormal s p f) else a

open Classical in
/-- `Normal` (UnplacedTrd.cpp:278-362). -/
noncomputable def normal (s : State) (p : V3) : V3 × Bool :=
  let valid := decide (safmin s p ≤ kHalfTolerance)
  let a := [Face.xm, .xp, .yp, .ym, .z].foldl (addFace s p) (0, ⟨0, 0, 0⟩)
  let vecnorm := if a.1 = 0 then ⟨0, 0, 1⟩ else if a.1 = 1 then a.2 else a.2.unit
  (vecnorm, valid)

/-- `Capacity` (UnplacedTrd.cpp:117-121). -/
noncomputable def capacity (s : State) : ℝ :=
  2 * (s.dx1 + s.dx2) * (s.dy1 + s.dy2) * s.dz + (2 / 3) * (s.dx1 - s.dx2) * (s.dy1 - s.dy2) * s.dz

open Classical in
/-- `SurfaceArea` (UnplacedTrd.cpp:123-140). -/
noncomputable def surfaceArea (s : State) : ℝ :=
  let dz := 2 * s.dz
  let ht := if s.dx1 = s.dx2 then dz else Real.sqrt ((s.dx1 - s.dx2) * (s.dx1 - s.dx2) + dz * dz)
  let sa := 2 * 2 * 0.5 * (s.dy1 + s.dy2) * ht
  let sa := sa + 2 * 2 * 0.5 * (s.dx1 + s.dx2) * ht
  sa + (4 * (s.dx1 * s.dy1) + 4 * (s.dx2 * s.dy2))

/-- `GetPlusXArea` and `GetMinusXArea` (UnplacedTrd.h:240-243). -/
noncomputable def xArea (s : State) : ℝ := 2 * s.dz * (s.dy1 + s.dy2) * s.secxz
/-- `GetPlusYArea` and `GetMinusYArea` (UnplacedTrd.h:246-249). -/
noncomputable def yArea (s : State) : ℝ := 2 * s.dz * (s.dx1 + s.dx2) * s.secyz
/-- `GetPlusZArea` (UnplacedTrd.h:252). -/
noncomputable def plusZArea (s : State) : ℝ := 4 * s.dx2 * s.dy2
/-- `GetMinusZArea` (UnplacedTrd.h:255). -/
noncomputable def minusZArea (s : State) : ℝ := 4 * s.dx1 * s.dy1

/-- The areas of the twelve triangles in `ChooseSurface` (UnplacedTrd.cpp:145-156). -/
noncomputable def triangleAreas (s : State) : List ℝ :=
  let yarea := yArea s / (s.dx1 + s.dx2)
  let xarea := xArea s / (s.dy1 + s.dy2)
  [minusZArea s / 2, minusZArea s / 2, plusZArea s / 2, plusZArea s / 2,
    yarea * s.dx1, yarea * s.dx2, yarea * s.dx1, yarea * s.dx2,
    xarea * s.dy1, xarea * s.dy2, xarea * s.dy1, xarea * s.dy2]

open Classical in
/-- The loop of `ChooseSurface` (UnplacedTrd.cpp:164-165): how many entries are passed; `none` if it runs over the end of
the array. -/
noncomputable def chooseLoop : List ℝ → ℝ → Option Nat
  | [], _ => none
  | a :: l, rand => if rand > a then (chooseLoop l (rand - a)).map (· + 1) else some 0

/-- `ChooseSurface` (UnplacedTrd.cpp:142-169); `u` is the random number. -/
noncomputable def chooseSurface (s : State) (u : ℝ) : Option Nat :=
  chooseLoop (triangleAreas s) (u * (triangleAreas s).foldl (· + ·) 0)

/-- The corners of the triangles in `SamplePointOnSurface` (UnplacedTrd.cpp:188-246). -/
def triangle (s : State) (n : Nat) : V3 × V3 × V3 :=
  let x1 := s.dx1
  let x2 := s.dx2
  let y1 := s.dy1
  let y2 := s.dy2
  let z := s.dz
  match n with
  | 0 => (⟨-x1, -y1, -z⟩, ⟨x1, -y1, -z⟩, ⟨-x1, y1, -z⟩)
  | 1 => (⟨x1, y1, -z⟩, ⟨x1, -y1, -z⟩, ⟨-x1, y1, -z⟩)
  | 2 => (⟨-x2, -y2, z⟩, ⟨x2, -y2, z⟩, ⟨-x2, y2, z⟩)
  | 3 => (⟨x2, y2, z⟩, ⟨x2, -y2, z⟩, ⟨-x2, y2, z⟩)
  | 4 => (⟨-x1, -y1, -z⟩, ⟨x1, -y1, -z⟩, ⟨-x2, -y2, z⟩)
  | 5 => (⟨x2, -y2, z⟩, ⟨x1, -y1, -z⟩, ⟨-x2, -y2, z⟩)
  | 6 => (⟨x1, y1, -z⟩, ⟨-x1, y1, -z⟩, ⟨x2, y2, z⟩)
  | 7 => (⟨-x2, y2, z⟩, ⟨-x1, y1, -z⟩, ⟨x2, y2, z⟩)
  | 8 => (⟨-x1, -y1, -z⟩, ⟨-x2, -y2, z⟩, ⟨-x1, y1, -z⟩)
  | 9 => (⟨-x2, y2, z⟩, ⟨-x2, -y2, z⟩, ⟨-x1, y1, -z⟩)
  | 10 => (⟨x1, y1, -z⟩, ⟨x2, y2, z⟩, ⟨x1, -y1, -z⟩)
  | _ => (⟨x2, -y2, z⟩, ⟨x2, y2, z⟩, ⟨x1, -y1, -z⟩)

open Classical in
/-- `SamplePointOnSurface` (UnplacedTrd.cpp:171-275); `u`, `r1`, `r2` are the random numbers. -/
noncomputable def samplePointOnSurface (s : State) (u r1 r2 : ℝ) : Option V3 :=
  (chooseSurface s u).map fun n =>
    let c := triangle s n
    let r := if r1 + r2 > 1 then (1 - r1, 1 - r2) else (r1, r2)
    c.1 + V3.smul r.1 (c.2.1 - c.1) + V3.smul r.2 (c.2.2 - c.1)

/-- The vertices of the mesh in `CreateMesh3D`, before the transformation (UnplacedTrd.cpp:92-103). -/
def meshVertices (s : State) : List V3 :=
  [⟨-s.dx1, -s.dy1, -s.dz⟩, ⟨-s.dx1, s.dy1, -s.dz⟩, ⟨s.dx1, s.dy1, -s.dz⟩, ⟨s.dx1, -s.dy1, -s.dz⟩,
   ⟨-s.dx2, -s.dy2, s.dz⟩, ⟨-s.dx2, s.dy2, s.dz⟩, ⟨s.dx2, s.dy2, s.dz⟩, ⟨s.dx2, -s.dy2, s.dz⟩]

/-- The polygons of the mesh (UnplacedTrd.cpp:107-112). -/
def meshPolygons : List (List Nat) :=
  [[0, 1, 2, 3], [4, 7, 6, 5], [0, 4, 5, 1], [1, 5, 6, 2], [2, 6, 7, 3], [3, 7, 4, 0]]

/-- `Extent` (UnplacedTrd.h:221-226). -/
noncomputable def extent (s : State) : V3 × V3 :=
  (⟨-max s.dx1 s.dx2, -max s.dy1 s.dy2, -s.dz⟩, ⟨max s.dx1 s.dx2, max s.dy1 s.dy2, s.dz⟩)

/-- The solid with its kernels and its cached bounding box (UnplacedTrd.h, UnplacedVolume.h). -/
structure Solid where
  kind : Kind
  trd : State
  bbox : V3 × V3

/-- The constructor with five parameters (UnplacedTrd.h:75-80), which ends with `ComputeBBox`; those with three and four
parameters (UnplacedTrd.h:49-66) repeat parameters. -/
noncomputable def create (k : Kind) (m : State) (x1 x2 y1 y2 z : ℝ) : Solid :=
  let s := setAll m x1 x2 y1 y2 z
  ⟨k, s, extent s⟩

/-- What the factory makes: a trapezoid, or a box that is used as trapezoid (`SUnplacedImplAs`). -/
inductive Made where
  | box (dims : V3)
  | trd (s : Solid)

open Classical in
/-- `Maker<UnplacedTrd>::MakeInstance` (UnplacedTrd.cpp:43-58). -/
noncomputable def make5 (m : State) (x1 x2 y1 y2 z : ℝ) : Made :=
  if x1 = x2 ∧ y1 = y2 then .box ⟨x1, y1, z⟩
  else if y1 = y2 then .trd (create .trd1 m x1 x2 y1 y1 z)
  else .trd (create .trd2 m x1 x2 y1 y2 z)

open Classical in
/-- `Maker<UnplacedTrd>::MakeInstance` with four parameters (UnplacedTrd.cpp:61-73). -/
noncomputable def make4 (m : State) (x1 x2 y1 z : ℝ) : Made :=
  if x1 = x2 then .box ⟨x1, y1, z⟩ else .trd (create .trd1 m x1 x2 y1 y1 z)

/-- The setters (UnplacedTrd.h:92-137). -/
inductive Setter where
  | x1 (a : ℝ) | x2 (a : ℝ) | y1 (a : ℝ) | y2 (a : ℝ) | z (a : ℝ)
  | all (x1 x2 y1 y2 z : ℝ)

/-- The effect of a setter (UnplacedTrd.h:92-137). -/
noncomputable def set (s : Solid) : Setter → Solid
  | .x1 a => { s with trd := calculateCached { s.trd with dx1 := a } }
  | .x2 a => { s with trd := calculateCached { s.trd with dx2 := a } }
  | .y1 a => { s with trd := calculateCached { s.trd with dy1 := a } }
  | .y2 a => { s with trd := calculateCached { s.trd with dy2 := a } }
  | .z a => { s with trd := calculateCached { s.trd with dz := a } }
  | .all x1 x2 y1 y2 z => { s with trd := setAll s.trd x1 x2 y1 y2 z }

end Trd
end VecGeom
