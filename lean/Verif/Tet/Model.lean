import Verif.Base.Halfspace

/-!
# The tetrahedron

Model of `VecGeom/volumes/TetStruct.h`, of the scalar kernels of `VecGeom/volumes/kernel/TetImplementation.h` and of
`source/UnplacedTet.cpp`.  `Precision` is `ℝ`; the arrays of four are lists, the loops over them folds.
-/

namespace VecGeom
namespace Tet

/-- `TetStruct` (TetStruct.h:22-29): `fVertex`, `fPlane`, `fCubicVolume`, `fSurfaceArea`. -/
structure State where
  v0 : V3
  v1 : V3
  v2 : V3
  v3 : V3
  planes : List Plane
  fCubicVolume : ℝ
  fSurfaceArea : ℝ

open Classical in
/-- One face of `CalculateCached` (TetStruct.h:82, 87, 92-93): the plane through `a`, `b`, `c`, its normal turned away from
the opposite vertex `o`. -/
noncomputable def facePlane (a b c o : V3) : Plane :=
  let n := (V3.cross (b - a) (c - a)).unit
  let n := if n.dot (o - a) > 0 then n.neg else n
  ⟨n, -n.dot a⟩

/-- `CalcCapacity` (TetStruct.h:115-120). -/
noncomputable def calcCapacity (v0 v1 v2 v3 : V3) : ℝ := |(v1 - v0).dot (V3.cross (v2 - v0) (v3 - v0))| / 6

/-- `CalcSurfaceArea` (TetStruct.h:124-131). -/
noncomputable def calcSurfaceArea (v0 v1 v2 v3 : V3) : ℝ :=
  ((V3.cross (v1 - v0) (v2 - v0)).mag + (V3.cross (v2 - v1) (v3 - v1)).mag + (V3.cross (v3 - v2) (v0 - v2)).mag +
    (V3.cross (v0 - v3) (v1 - v3)).mag) * 0.5

/-- The constructors and `SetParameters` (TetStruct.h:41-63, 139-142): `CalculateCached` (TetStruct.h:71-111).  The result
of `CheckDegeneracy` (TetStruct.h:147-157), which sets capacity and area, is not used. -/
noncomputable def create (v0 v1 v2 v3 : V3) : State :=
  ⟨v0, v1, v2, v3,
   [facePlane v0 v1 v2 v3, facePlane v1 v2 v3 v0, facePlane v2 v3 v0 v1, facePlane v3 v0 v1 v2],
   calcCapacity v0 v1 v2 v3, calcSurfaceArea v0 v1 v2 v3⟩

open Classical in
/-- `CheckDegeneracy` (TetStruct.h:147-157). -/
noncomputable def checkDegeneracy (v0 v1 v2 v3 : V3) : Bool :=
  if calcCapacity v0 v1 v2 v3 < kTolerance * kTolerance * kTolerance then true
  else
    let s0 := (V3.cross (v1 - v0) (v2 - v0)).mag * 0.5
    let s1 := (V3.cross (v2 - v1) (v3 - v1)).mag * 0.5
    let s2 := (V3.cross (v3 - v2) (v0 - v2)).mag * 0.5
    let s3 := (V3.cross (v0 - v3) (v1 - v3)).mag * 0.5
    decide (max (max (max s0 s1) s2) s3 < 2 * kTolerance)

/-- `n.Dot(point) + d` (TetImplementation.h:80, 106, 136, 154, 168, 184). -/
def evalPlane (pl : Plane) (p : V3) : ℝ := pl.n.dot p + pl.d

/-- `Max(Max(Max(dist[0], dist[1]), dist[2]), dist[3])` (TetImplementation.h:82, 156, 170). -/
noncomputable def maxDist : List Plane → V3 → ℝ
  | [], _ => 0
  | pl :: l, p => l.foldl (fun m q => max m (evalPlane q p)) (evalPlane pl p)

open Classical in
/-- `GenericKernelForContainsAndInside` (TetImplementation.h:63-87): completely inside, completely outside. -/
noncomputable def genericKernel (pls : List Plane) (p : V3) : Bool × Bool :=
  let safety := maxDist pls p
  (decide (safety ≤ -kHalfTolerance), decide (safety > kHalfTolerance))

/-- `Contains` (TetImplementation.h:38-44). -/
noncomputable def contains (pls : List Plane) (p : V3) : Bool := !(genericKernel pls p).2

/-- `Inside` (TetImplementation.h:49-60). -/
noncomputable def inside (pls : List Plane) (p : V3) : Inside :=
  let k := genericKernel pls p
  let r := Inside.surface
  let r := if k.2 then Inside.outside else r
  if k.1 then Inside.inside else r

open Classical in
/-- The loop of `DistanceToIn` (TetImplementation.h:110-115) with the values of its first loop (TetImplementation.h:104-108):
`distance`, `distanceOut`, `absSafe`. -/
noncomputable def inLoop (p d : V3) (s : ℝ × ℝ × ℝ) (pl : Plane) : ℝ × ℝ × ℝ :=
  let cosa := nonZero (pl.n.dot d)
  let safe := evalPlane pl p
  let dist := -safe / cosa
  (if cosa < 0 then max s.1 dist else s.1,
   if cosa > 0 then min s.2.1 dist else s.2.1,
   if cosa > 0 then min s.2.2 |safe| else s.2.2)

open Classical in
/-- `DistanceToIn` (TetImplementation.h:90-120). -/
noncomputable def distanceToIn (pls : List Plane) (p d : V3) : ℝ :=
  let s := pls.foldl (inLoop p d) (-kInfLength, kInfLength, kInfLength)
  if s.1 ≥ s.2.1 ∨ s.2.1 ≤ kHalfTolerance ∨ s.2.2 ≤ -kHalfTolerance then kInfLength else s.1

open Classical in
/-- `DistanceToOut` (TetImplementation.h:123-144). -/
noncomputable def distanceToOut (pls : List Plane) (p d : V3) : ℝ :=
  let safety := pls.foldl (fun m pl => max m (evalPlane pl p)) (-kInfLength)
  let distance := pls.foldl
    (fun m pl => if nonZero (pl.n.dot d) > 0 then min m (-evalPlane pl p / nonZero (pl.n.dot d)) else m) kInfLength
  if safety > kHalfTolerance then -1 else distance

open Classical in
/-- `SafetyToIn` (TetImplementation.h:147-158). -/
noncomputable def safetyToIn (pls : List Plane) (p : V3) : ℝ :=
  let safety := maxDist pls p
  if |safety| ≤ kHalfTolerance then 0 else safety

open Classical in
/-- `SafetyToOut` (TetImplementation.h:161-172). -/
noncomputable def safetyToOut (pls : List Plane) (p : V3) : ℝ :=
  let safety := -maxDist pls p
  if |safety| ≤ kHalfTolerance then 0 else safety

open Classical in
/-- `NormalKernel` (TetImplementation.h:175-204): the normal and the flag `valid`. -/
noncomputable def normalKernel (pls : List Plane) (p : V3) : V3 × Bool :=
  let normal := pls.foldl (fun m pl => if |evalPlane pl p| ≤ kHalfTolerance then m + pl.n else m) ⟨0, 0, 0⟩
  let normal := if normal.mag2 > 1 then normal.unit else normal
  if normal.mag2 > 0 then (normal, true)
  else
    let s := pls.foldl (fun (s : V3 × ℝ) pl => if evalPlane pl p > s.2 then (pl.n, evalPlane pl p) else s)
      (normal, -kInfLength)
    (s.1, false)

/-- `UnplacedTet::Extent` (UnplacedTet.cpp:34-49). -/
noncomputable def extent (s : State) : V3 × V3 :=
  [s.v1, s.v2, s.v3].foldl
    (fun (e : V3 × V3) v => (⟨min e.1.x v.x, min e.1.y v.y, min e.1.z v.z⟩, ⟨max e.2.x v.x, max e.2.y v.y, max e.2.z v.z⟩))
    (s.v0, s.v0)

/-- The constructor from four vectors ends with `ComputeBBox` (UnplacedTet.cpp:25-31); the one from four arrays
(UnplacedTet.h:57-61) leaves the bounding box of the base class as it is, here `old`. -/
noncomputable def bboxOf (fromArrays : Bool) (old : V3 × V3) (s : State) : V3 × V3 :=
  if fromArrays then old else extent s

/-- The vertex with index `i` modulo four. -/
def vertex (s : State) (i : Nat) : V3 :=
  if i % 4 = 0 then s.v0 else if i % 4 = 1 then s.v1 else if i % 4 = 2 then s.v2 else s.v3

/-- The areas `sface` before they are added up (UnplacedTet.cpp:63-69). -/
noncomputable def faceArea (s : State) (i : Nat) : ℝ :=
  0.5 * (V3.cross (vertex s (i + 1) - vertex s (i + 0)) (vertex s (i + 2) - vertex s (i + 0))).mag

open Classical in
/-- The choice of the face (UnplacedTet.cpp:70-80); `r` is the first random number. -/
noncomputable def pickFace (s : State) (r : ℝ) : Nat :=
  let s0 := faceArea s 0
  let s1 := faceArea s 1 + s0
  let s2 := faceArea s 2 + s1
  let s3 := faceArea s 3 + s2
  let select := s3 * r
  let k := 3
  let k := if select ≤ s2 then 2 else k
  let k := if select ≤ s1 then 1 else k
  if select ≤ s0 then 0 else k

open Classical in
/-- `SamplePointOnSurface` (UnplacedTet.cpp:51-94); `r`, `u`, `v` are the three random numbers in the order of the calls. -/
noncomputable def samplePointOnSurface (s : State) (r u v : ℝ) : V3 :=
  let k := pickFace s r
  let u' := if u + v > 1 then 1 - u else u
  let v' := if u + v > 1 then 1 - v else v
  V3.smul (1 - u' - v') (vertex s (k + 0)) + V3.smul u' (vertex s (k + 1)) + V3.smul v' (vertex s (k + 2))

open Classical in
/-- One polygon of `CreateMesh3D` (UnplacedTet.cpp:156-185): the indices `i`, `j`, `k`, the first two exchanged if the
normal is on the side of the vertex `o`. -/
noncomputable def meshFace (w : Nat → V3) (i j k o : Nat) : List Nat :=
  let n := V3.cross (w j - w i) (w k - w i)
  if n.dot (w o - w i) > 0 then [j, i, k] else [i, j, k]

/-- `CreateMesh3D` (UnplacedTet.cpp:149-188): the vertices placed with the transformation (SolidMesh.cpp:20-29) and the
polygons. -/
noncomputable def meshVertex (s : State) (trans : Trans3) (i : Nat) : V3 := trans.inverseTransform (vertex s i)

/-- The polygons of `CreateMesh3D` (UnplacedTet.cpp:165-185). -/
noncomputable def meshFaces (s : State) (trans : Trans3) : List (List Nat) :=
  let w := meshVertex s trans
  [meshFace w 0 1 2 3, meshFace w 1 2 3 0, meshFace w 2 3 0 1, meshFace w 3 0 1 2]

end Tet
end VecGeom
