import Verif.Base.Num
import Mathlib.Data.List.Basic

/-!
# Aligned bounding boxes

Model of `VecGeom/base/AABB.h`, of the aligned-box kernels in `VecGeom/volumes/kernel/BoxImplementation.h`, of the box
computation in `source/ABBoxManager.cpp` and of `VPlacedVolume::Extent`.  `Precision` (and `float`) are `ℝ`; the
vectorised kernels are modelled for one lane (lanes do not interact: the early returns fire only when the result of
every lane is already fixed).
-/

namespace VecGeom
namespace AABB

/-- Data members `fMin`, `fMax` (AABB.h:227-228); also a pair of corners as used by the kernels. -/
structure Box where
  lo : V3
  hi : V3

namespace Box

/-- `Center` (AABB.h:44). -/
noncomputable def center (b : Box) : V3 := V3.smul (1 / 2) (b.hi + b.lo)
/-- `Size` (AABB.h:48). -/
def size (b : Box) : V3 := b.hi - b.lo
/-- `SurfaceArea` (AABB.h:51-56). -/
def surfaceArea (b : Box) : ℝ :=
  let e := b.size
  2 * (e.x * e.y + e.y * e.z + e.z * e.x)
/-- `Expand` (AABB.h:59-65): half of the amount on either side. -/
noncomputable def expand (b : Box) (s : ℝ) : Box :=
  let s' := s * (1 / 2)
  ⟨⟨b.lo.x - s', b.lo.y - s', b.lo.z - s'⟩, ⟨b.hi.x + s', b.hi.y + s', b.hi.z + s'⟩⟩

open Classical in
/-- `Contains` (AABB.h:68-72). -/
noncomputable def contains (b : Box) (p : V3) : Bool :=
  decide (p.x ≥ b.lo.x ∧ p.x ≤ b.hi.x ∧ p.y ≥ b.lo.y ∧ p.y ≤ b.hi.y ∧ p.z ≥ b.lo.z ∧ p.z ≤ b.hi.z)

/-- `Safety` (AABB.h:81). -/
noncomputable def safety (b : Box) (p : V3) : ℝ :=
  V3.maxc ((p - b.center).vabs - V3.smul (1 / 2) b.size)

open Classical in
/-- The conditional `swap(t0[i], t1[i])` of AABB.h:146-148. -/
noncomputable def ord (a b : ℝ) : ℝ × ℝ := if a > b then (b, a) else (a, b)

/-- `ComputeIntersectionInvDir` (AABB.h:135-153): the pair `(tmin, tmax)`. -/
noncomputable def computeIntersectionInvDir (b : Box) (p inv : V3) : ℝ × ℝ :=
  let t0 := (b.lo - p).mul inv
  let t1 := (b.hi - p).mul inv
  let tx := ord t0.x t1.x
  let ty := ord t0.y t1.y
  let tz := ord t0.z t1.z
  (V3.maxc ⟨tx.1, ty.1, tz.1⟩, V3.minc ⟨tx.2, ty.2, tz.2⟩ * (1 + 2 * kEpsilon))

/-- `ComputeIntersection` (AABB.h:120-126). -/
noncomputable def computeIntersection (b : Box) (p d : V3) : ℝ × ℝ :=
  b.computeIntersectionInvDir p d.nonZero.inv

open Classical in
/-- `DistanceInvDir` (AABB.h:105-111). -/
noncomputable def distanceInvDir (b : Box) (p inv : V3) : ℝ :=
  let t := b.computeIntersectionInvDir p inv
  if t.1 < t.2 ∧ t.2 > 0 then t.1 else kInfLength

open Classical in
/-- `Distance` (AABB.h:90-96). -/
noncomputable def distance (b : Box) (p d : V3) : ℝ :=
  let t := b.computeIntersection p d
  if t.1 < t.2 ∧ t.2 > 0 then t.1 else kInfLength

open Classical in
/-- `IntersectInvDir(point, invdir)` (AABB.h:174-180). -/
noncomputable def intersectInvDir (b : Box) (p inv : V3) : Bool :=
  let t := b.computeIntersectionInvDir p inv
  decide (t.1 ≤ t.2 ∧ t.2 ≥ 0)

open Classical in
/-- `Intersect(point, direction)` (AABB.h:161-167). -/
noncomputable def intersect (b : Box) (p d : V3) : Bool :=
  let t := b.computeIntersection p d
  decide (t.1 ≤ t.2 ∧ t.2 ≥ 0)

open Classical in
/-- `IntersectInvDir(point, invdir, step)` (AABB.h:204-210). -/
noncomputable def intersectInvDirStep (b : Box) (p inv : V3) (step : ℝ) : Bool :=
  let t := b.computeIntersectionInvDir p inv
  decide (t.1 ≤ t.2 ∧ t.2 ≥ 0 ∧ t.1 < step)

open Classical in
/-- `Intersect(point, direction, step)` (AABB.h:189-195). -/
noncomputable def intersectStep (b : Box) (p d : V3) (step : ℝ) : Bool :=
  let t := b.computeIntersection p d
  decide (t.1 ≤ t.2 ∧ t.2 ≥ 0 ∧ t.1 < step)

/-- `Union` (AABB.h:215-223). -/
noncomputable def union (a b : Box) : Box :=
  ⟨⟨min a.lo.x b.lo.x, min a.lo.y b.lo.y, min a.lo.z b.lo.z⟩,
   ⟨max a.hi.x b.hi.x, max a.hi.y b.hi.y, max a.hi.z b.hi.z⟩⟩

/-- `corners[s]` with `s` the boolean converted to `int`: `corners[0]` is the lower, `corners[1]` the upper corner. -/
def corner (b : Box) (s : Bool) : V3 := if s then b.hi else b.lo

open Classical in
/-- `BoxImplementation::Intersect` (BoxImplementation.h:162-199); the two limits are ignored by the code.  The division
`1./ray[i]` is undefined in the model (`none`) when a component is zero; the code then relies on IEEE infinities. -/
noncomputable def intersectWilliams (b : Box) (p ray : V3) : Option Bool :=
  if ray.x = 0 ∨ ray.y = 0 ∨ ray.z = 0 then none
  else
    let ix := 1 / ray.x
    let iy := 1 / ray.y
    let sx := decide (ix < 0)
    let sy := decide (iy < 0)
    let tmin := ((b.corner sx).x - p.x) * ix
    let tmax := ((b.corner (!sx)).x - p.x) * ix
    let tymin := ((b.corner sy).y - p.y) * iy
    let tymax := ((b.corner (!sy)).y - p.y) * iy
    if tmin > tymax ∨ tymin > tmax then some false
    else
      let iz := 1 / ray.z
      let sz := decide (iz < 0)
      let tmin1 := if tymin > tmin then tymin else tmin
      let tmax1 := if tymax < tmax then tymax else tmax
      let tzmin := ((b.corner sz).z - p.z) * iz
      let tzmax := ((b.corner (!sz)).z - p.z) * iz
      if tmin1 > tzmax ∨ tzmin > tmax1 then some false else some true

open Classical in
/-- `BoxImplementation::IntersectCached` (BoxImplementation.h:203-237); `sx sy sz` are the template arguments. -/
noncomputable def intersectCached (b : Box) (p inv : V3) (sx sy sz : Bool) (t0 t1 : ℝ) : ℝ :=
  let tmin := ((b.corner sx).x - p.x) * inv.x
  let tmax := ((b.corner (!sx)).x - p.x) * inv.x
  let tymin := ((b.corner sy).y - p.y) * inv.y
  let tymax := ((b.corner (!sy)).y - p.y) * inv.y
  if tmin > tymax ∨ tymin > tmax then kInfLength
  else
    let tmin1 := if tymin > tmin then tymin else tmin
    let tmax1 := if tymax < tmax then tymax else tmax
    let tzmin := ((b.corner sz).z - p.z) * inv.z
    let tzmax := ((b.corner (!sz)).z - p.z) * inv.z
    if tmin1 > tzmax ∨ tzmin > tmax1 then kInfLength
    else
      let tmin2 := if tzmin > tmin1 then tzmin else tmin1
      let tmax2 := if tzmax < tmax1 then tzmax else tmax1
      if ¬ (tmin2 < t1 ∧ tmax2 > t0) then kInfLength else tmin2

open Classical in
/-- `BoxImplementation::IntersectCachedKernel` (BoxImplementation.h:241-281), one lane. -/
noncomputable def intersectCachedKernel (b : Box) (p inv : V3) (sx sy sz : Bool) (t0 t1 : ℝ) : ℝ :=
  let tmin := ((b.corner sx).x - p.x) * inv.x
  let tmax := ((b.corner (!sx)).x - p.x) * inv.x
  let tymin := ((b.corner sy).y - p.y) * inv.y
  let tymax := ((b.corner (!sy)).y - p.y) * inv.y
  let tzmin := ((b.corner sz).z - p.z) * inv.z
  let tzmax := ((b.corner (!sz)).z - p.z) * inv.z
  let done := decide (tmin > tymax ∨ tymin > tmax)
  let tmin1 := max tmin tymin
  let tmax1 := min tmax tymax
  let done1 := done || decide (tmin1 > tzmax ∨ tzmin > tmax1)
  let tmin2 := max tmin1 tzmin
  let tmax2 := min tmax1 tzmax
  let done2 := done1 || !decide (tmin2 < t1 ∧ tmax2 > t0)
  if done2 then kInfLength else tmin2

open Classical in
/-- `BoxImplementation::IntersectCachedKernel2` (BoxImplementation.h:285-331), one lane. -/
noncomputable def intersectCachedKernel2 (b : Box) (p inv : V3) (sx sy sz : Bool) (t0 t1 : ℝ) : ℝ :=
  let tmin := ((b.corner sx).x - p.x) * inv.x
  let tymax := ((b.corner (!sy)).y - p.y) * inv.y
  let done := decide (tmin > tymax)
  let tmax := ((b.corner (!sx)).x - p.x) * inv.x
  let tymin := ((b.corner sy).y - p.y) * inv.y
  let done1 := done || decide (tymin > tmax)
  let tmin1 := max tmin tymin
  let tmax1 := min tmax tymax
  let tzmin := ((b.corner sz).z - p.z) * inv.z
  let tzmax := ((b.corner (!sz)).z - p.z) * inv.z
  let done2 := done1 || (decide (tmin1 > tzmax) || decide (tzmin > tmax1))
  let tmin2 := max tmin1 tzmin
  let tmax2 := min tmax1 tzmax
  let done3 := done2 || !(decide (tmin2 ≤ t1 + kTolerance) && decide (tmax2 > t0 - kTolerance))
  if done3 then kInfLength else tmin2

open Classical in
/-- `VUnplacedVolume::ApproachSolid` (UnplacedVolume.h:171-178), `b` being the cached box `fBBox`. -/
noncomputable def approachSolid (b : Box) (p inv : V3) : ℝ :=
  max (b.intersectCachedKernel2 p inv (decide (inv.x < 0)) (decide (inv.y < 0)) (decide (inv.z < 0)) 0 kInfLength) 0

open Classical in
/-- `ABBoxContainsKernel` and `ABBoxContainsKernelGeneric` (BoxImplementation.h:420-456), one lane: strict. -/
noncomputable def containsKernel (b : Box) (p : V3) : Bool :=
  decide (b.lo.x < p.x) && decide (b.hi.x > p.x) && decide (b.lo.y < p.y) && decide (b.hi.y > p.y) &&
  decide (b.lo.z < p.z) && decide (b.hi.z > p.z)

/-- The vector `safety` of `ABBoxSafetySqr` (BoxImplementation.h:470-477). -/
noncomputable def safetyVec (b : Box) (p : V3) : V3 :=
  let origin := V3.smul (1 / 2) (b.hi + b.lo)
  let delta := V3.smul (1 / 2) (b.hi - b.lo)
  (p - origin).vabs - delta

open Classical in
/-- `ABBoxSafetySqr` (BoxImplementation.h:462-515), one lane. -/
noncomputable def safetySqr (b : Box) (p : V3) : ℝ :=
  let s := b.safetyVec p
  let outx := decide (s.x > 0)
  let outy := decide (s.y > 0)
  let outz := decide (s.z > 0)
  let sqr := 0 + (if outx then s.x * s.x else 0) + (if outy then s.y * s.y else 0) + (if outz then s.z * s.z else 0)
  let rmax := max (max (max (-kInfLength) s.x) s.y) s.z
  if !(outx || outy || outz) then -rmax * rmax else sqr

/-- `ABBoxSafetyRangeSqr` (BoxImplementation.h:521-582), one lane: the result and the output parameter
`safetymaxsqr`. -/
noncomputable def safetyRangeSqr (b : Box) (p : V3) : ℝ × ℝ :=
  let origin := V3.smul (1 / 2) (b.hi + b.lo)
  let delta := V3.smul (1 / 2) (b.hi - b.lo)
  (b.safetySqr p, V3.mag2 ((p - origin).vabs + delta))

end Box

/-- The eight values of the loop variables `x, y, z` in `ComputeABBox` (ABBoxManager.cpp:123-125). -/
def cornerIdx : List (ℝ × ℝ × ℝ) :=
  [(0, 0, 0), (0, 0, 1), (0, 1, 0), (0, 1, 1), (1, 0, 0), (1, 0, 1), (1, 1, 0), (1, 1, 1)]

/-- The transformed corner of one pass of the loop (ABBoxManager.cpp:126-130). -/
noncomputable def transformedCorner (T : Trans3) (ext : Box) (i : ℝ × ℝ × ℝ) : V3 :=
  let delta := ext.hi - ext.lo
  T.inverseTransform ⟨ext.lo.x + i.1 * delta.x, ext.lo.y + i.2.1 * delta.y, ext.lo.z + i.2.2 * delta.z⟩

/-- The updates of the running minima and maxima (ABBoxManager.cpp:131-136 and PlacedVolume.cpp:164-171). -/
noncomputable def accum (acc : Box) (c : V3) : Box :=
  ⟨⟨min acc.lo.x c.x, min acc.lo.y c.y, min acc.lo.z c.z⟩, ⟨max acc.hi.x c.x, max acc.hi.y c.y, max acc.hi.z c.z⟩⟩

/-- `ComputeABBox` (ABBoxManager.cpp:109-142); `ext` is the extent of the unplaced volume, `T` the placement. -/
noncomputable def computeABBox (T : Trans3) (ext : Box) : Box :=
  let start : Box := ⟨⟨kInfLength, kInfLength, kInfLength⟩, ⟨-kInfLength, -kInfLength, -kInfLength⟩⟩
  let acc := (cornerIdx.map (transformedCorner T ext)).foldl accum start
  ⟨⟨acc.lo.x - 1 / 1000, acc.lo.y - 1 / 1000, acc.lo.z - 1 / 1000⟩,
   ⟨acc.hi.x + 1 / 1000, acc.hi.y + 1 / 1000, acc.hi.z + 1 / 1000⟩⟩

open Classical in
/-- The choice of the split axis (ABBoxManager.cpp:43-47). -/
noncomputable def splitDim (delta : V3) : Nat :=
  let dim := 0
  let dim := if delta.y > delta.x ∧ delta.y > delta.z then 1 else dim
  if delta.z > delta.x ∧ delta.z > delta.y then 2 else dim

/-- The point `val` on the split axis (ABBoxManager.cpp:80-91). -/
def onAxis (dim : Nat) (val : ℝ) : V3 :=
  if dim = 0 then ⟨val, 0, 0⟩ else if dim = 1 then ⟨0, val, 0⟩ else ⟨0, 0, val⟩

/-- `Transformation3D transf2` of one slice (ABBoxManager.cpp:78, 93-97). -/
noncomputable def sliceTrans (T : Trans3) (dim : Nat) (val : ℝ) : Trans3 :=
  let v := T.inverseTransform (onAxis dim val)
  ((Trans3.identity.setTranslation v.x v.y v.z).setRotation9 T.r0 T.r1 T.r2 T.r3 T.r4 T.r5 T.r6 T.r7 T.r8).setProperties

/-- `UnplacedBox::Extent` for half lengths `h` (UnplacedBox.h: `aMin = -fBox.fDimensions`, `aMax = fDimensions`). -/
def boxExtent (h : V3) : Box := ⟨⟨-h.x, -h.y, -h.z⟩, h⟩

/-- The loop over the slices (ABBoxManager.cpp:72-106). -/
noncomputable def sliceLoop (T : Trans3) (dim : Nat) (split : V3) (step : ℝ) : Nat → ℝ → List Box
  | 0, _ => []
  | n + 1, val =>
    computeABBox (sliceTrans T dim val) (boxExtent ⟨split.x / 2, split.y / 2, split.z / 2⟩) ::
      sliceLoop T dim split step n (val + step)

/-- `ComputeSplittedABBox` (ABBoxManager.cpp:29-107) for a nonnegative number of slices. -/
noncomputable def computeSplittedABBox (T : Trans3) (ext : Box) (n : Nat) : List Box :=
  let delta := ext.hi - ext.lo
  let dim := splitDim delta
  let split : V3 :=
    if dim = 0 then ⟨delta.x / n, delta.y, delta.z⟩
    else if dim = 1 then ⟨delta.x, delta.y / n, delta.z⟩
    else ⟨delta.x, delta.y, delta.z / n⟩
  let len := if dim = 0 then delta.x else if dim = 1 then delta.y else delta.z
  let step := if dim = 0 then split.x else if dim = 1 then split.y else split.z
  sliceLoop T dim split step n (-len / 2 + step / 2)

/-- `VPlacedVolume::Extent` (PlacedVolume.cpp:139-179). -/
noncomputable def placedExtent (T : Trans3) (ext : Box) : Box :=
  if T.fHasRotation then
    let c (x y z : ℝ) : V3 := T.inverseTransform ⟨x, y, z⟩
    let b0 := c ext.lo.x ext.lo.y ext.lo.z
    [c ext.hi.x ext.lo.y ext.lo.z, c ext.lo.x ext.hi.y ext.lo.z, c ext.hi.x ext.hi.y ext.lo.z,
     c ext.lo.x ext.lo.y ext.hi.z, c ext.hi.x ext.lo.y ext.hi.z, c ext.lo.x ext.hi.y ext.hi.z,
     c ext.hi.x ext.hi.y ext.hi.z].foldl accum ⟨b0, b0⟩
  else ⟨T.inverseTransform ext.lo, T.inverseTransform ext.hi⟩

end AABB
end VecGeom
