import Verif.Base.Num
import Mathlib.Data.List.Basic

/-!
# The box solid

Model of the scalar kernels of `VecGeom/volumes/kernel/BoxImplementation.h`, of `VecGeom/volumes/UnplacedBox.h` and
`source/UnplacedBox.cpp`.  `h` are the half lengths `fDimensions` (BoxStruct.h:20).  `Precision` is `ℝ`.
-/

namespace VecGeom
namespace BoxSolid

open Classical in
/-- `Contains` (BoxImplementation.h:45-49). -/
noncomputable def contains (h p : V3) : Bool := decide (V3.maxc (p.vabs - h) < 0)

open Classical in
/-- `Inside` (BoxImplementation.h:52-59). -/
noncomputable def inside (h p : V3) : Inside :=
  let dist := V3.maxc (p.vabs - h)
  let r := if dist < 0 then Inside.inside else Inside.outside
  if |dist| < kHalfTolerance then Inside.surface else r

open Classical in
/-- `GenericKernelForContainsAndInside` (BoxImplementation.h:62-71): completely inside, completely outside. -/
noncomputable def genericKernel (h p : V3) : Bool × Bool :=
  let dist := V3.maxc (p.vabs - h)
  (decide (dist < -kHalfTolerance), decide (dist > kHalfTolerance))

open Classical in
/-- `DistanceToIn` (BoxImplementation.h:74-98). -/
noncomputable def distanceToIn (h p d : V3) : ℝ :=
  let invDir := d.nonZero.inv
  let signDir := d.sgn
  let tempIn := (signDir.neg.mul h) - p
  let tempOut := (signDir.mul h) - p
  let absOrthogOut := |(signDir.mul tempOut).minc|
  let distOut := (tempOut.mul invDir).minc
  let distance := (tempIn.mul invDir).maxc
  if distance ≥ distOut ∨ distOut ≤ kHalfTolerance ∨ absOrthogOut ≤ kHalfTolerance then kInfLength else distance

open Classical in
/-- `DistanceToOut` (BoxImplementation.h:101-118). -/
noncomputable def distanceToOut (h p d : V3) : ℝ :=
  let invDir := d.nonZero.inv
  let signDir := d.sgn
  let safetyIn := V3.maxc (p.vabs - h)
  let tempOut := (signDir.mul h) - p
  let distance := (tempOut.mul invDir).minc
  if safetyIn > kHalfTolerance then -1 else distance

/-- `SafetyToIn` (BoxImplementation.h:121-125). -/
noncomputable def safetyToIn (h p : V3) : ℝ := V3.maxc (p.vabs - h)

/-- `SafetyToOut` (BoxImplementation.h:128-132). -/
noncomputable def safetyToOut (h p : V3) : ℝ := V3.minc (h - p.vabs)

open Classical in
/-- `NormalKernel` (BoxImplementation.h:135-155): the normal and the flag `valid`.  `Normalize` divides by the length
(Vector3D.h:198). -/
noncomputable def normalKernel (h p : V3) : V3 × Bool :=
  let safety := V3.vabs (p.vabs - h)
  let safmin := safety.minc
  let valid := decide (safmin < kHalfTolerance)
  let n : V3 :=
    ⟨if safety.x - safmin < kHalfTolerance then sign p.x else 0,
     if safety.y - safmin < kHalfTolerance then sign p.y else 0,
     if safety.z - safmin < kHalfTolerance then sign p.z else 0⟩
  (if n.mag2 > 1 then V3.smul (1 / n.mag) n else n, valid)

/-- `Capacity` (UnplacedBox.h:65). -/
noncomputable def capacity (h : V3) : ℝ := 8 * h.x * h.y * h.z

/-- `SurfaceArea` (UnplacedBox.h:68-72). -/
noncomputable def surfaceArea (h : V3) : ℝ := 8 * (h.x * h.y + h.y * h.z + h.x * h.z)

/-- `Extent` (UnplacedBox.h:75-80): lower and upper corner. -/
def extent (h : V3) : V3 × V3 := (h.neg, h)

open Classical in
/-- The loop `while (rand > S[axis]) rand -= S[axis], axis++` (UnplacedBox.cpp:66-67).  The argument lists the entries of
`S` not yet passed; reading behind the third entry is undefined (`none`). -/
noncomputable def axisLoop : List ℝ → ℝ → Nat → Option Nat
  | [], _, _ => none
  | s :: rest, rand, axis => if rand > s then axisLoop rest (rand - s) (axis + 1) else some axis

open Classical in
/-- `SamplePointOnSurface` (UnplacedBox.cpp:46-73).  `u, u1, u2` are the results of the three calls of
`uniform(-1.0, 1.0)` in the order in which they are made: the first picks the face, the other two are used for the
coordinates other than `axis`, in increasing order. -/
noncomputable def samplePointOnSurface (h : V3) (u u1 u2 : ℝ) : Option V3 :=
  let s0 := h.y * h.z
  let s1 := h.x * h.z
  let s2 := h.x * h.y
  let rand := (s0 + s1 + s2) * u
  let direction : ℝ := if rand < 0 then -1 else 1
  match axisLoop [s0, s1, s2] |rand| 0 with
  | none => none
  | some axis =>
    if axis = 0 then some ⟨direction * h.x, h.y * u1, h.z * u2⟩
    else if axis = 1 then some ⟨h.x * u1, direction * h.y, h.z * u2⟩
    else some ⟨h.x * u1, h.y * u2, direction * h.z⟩

/-- The vertices passed to `SetVertices` in `CreateMesh3D` (UnplacedBox.cpp:17-20). -/
def meshVertices (h : V3) : List V3 :=
  [⟨-h.x, -h.y, -h.z⟩, ⟨-h.x, h.y, -h.z⟩, ⟨h.x, h.y, -h.z⟩, ⟨h.x, -h.y, -h.z⟩,
   ⟨-h.x, -h.y, h.z⟩, ⟨-h.x, h.y, h.z⟩, ⟨h.x, h.y, h.z⟩, ⟨h.x, -h.y, h.z⟩]

/-- The polygons added in `CreateMesh3D` (UnplacedBox.cpp:24-29). -/
def meshFaces : List (List Nat) :=
  [[0, 1, 2, 3], [4, 7, 6, 5], [0, 4, 5, 1], [1, 5, 6, 2], [2, 6, 7, 3], [3, 7, 4, 0]]

end BoxSolid
end VecGeom
