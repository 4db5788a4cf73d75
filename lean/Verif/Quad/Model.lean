import Verif.Base.Halfspace

/-!
# Sets of planes and quadrilaterals

`Planes` (VecGeom/volumes/Planes.h, source/Planes.cpp) and `Quadrilaterals` (VecGeom/volumes/Quadrilaterals.h,
source/Quadrilaterals.cpp), scalar code.  The container of planes is a list; the quadrilateral at an index is a structure.
-/

namespace VecGeom
namespace Quad

/-! ## Planes -/

/-- `Planes` (Planes.h:28-33): the normals and distances, and whether the planes bound a convex set. -/
structure Planes where
  planes : List Plane
  convex : Bool

open Classical in
/-- `Vector3D::FixZeroes` (Vector3D.h:298-305). -/
noncomputable def fixZeroes (v : V3) : V3 :=
  ⟨if |v.x| < kTolerance then 0 else v.x, if |v.y| < kTolerance then 0 else v.y, if |v.z| < kTolerance then 0 else v.z⟩

open Classical in
/-- The plane of `Planes::Set(index, normal, x0)` (Planes.cpp:27-34); `none` for a division by zero. -/
noncomputable def planeOf (normal x0 : V3) : Option Plane :=
  let f := fixZeroes normal
  if f.mag = 0 then none else some ⟨V3.smul (1 / f.mag) f, 1 / f.mag * -(f.dot x0)⟩

/-- `Planes::Set(index, normal, x0)` (Planes.cpp:27-34); `none` also for an index out of range. -/
noncomputable def Planes.set (s : Planes) (i : ℕ) (normal x0 : V3) : Option Planes :=
  if i < s.planes.length then (planeOf normal x0).map fun pl => { s with planes := s.planes.set i pl } else none

/-- `Planes::FlipSign` (Planes.cpp:44-48). -/
def flipPlane (pl : Plane) : Plane := ⟨pl.n.neg, -pl.d⟩

/-- `Planes::operator=` (Planes.cpp:13-24): `fConvex` is not assigned. -/
def Planes.assign (s rhs : Planes) : Planes := { s with planes := rhs.planes }

open Classical in
/-- `Planes::Contains` (Planes.h:202-224). -/
noncomputable def Planes.contains (s : Planes) (p : V3) : Bool :=
  if s.convex then s.planes.foldl (fun r pl => r && decide (pl.height p < 0)) true
  else s.planes.foldl (fun r pl => r || decide (pl.height p < 0)) true

open Classical in
/-- The loop of `Planes::Inside` for convex sets (Planes.h:293-300). -/
noncomputable def insideAll (p : V3) : List Plane → Inside → Inside
  | [], r => r
  | pl :: l, r =>
    let r := if pl.height p > kTolerance then .outside else r
    let r := if r = .inside ∧ pl.height p > -kTolerance then .surface else r
    if r = .outside then r else insideAll p l r

open Classical in
/-- The loop of `Planes::Inside` for sets that are not convex (Planes.h:303-310). -/
noncomputable def insideAny (p : V3) : List Plane → Inside → Inside
  | [], r => r
  | pl :: l, r =>
    let r := if pl.height p < -kTolerance then .inside else r
    let r := if r = .outside ∧ pl.height p < kTolerance then .surface else r
    if r = .inside then r else insideAny p l r

/-- `Planes::Inside` (Planes.h:284-314). -/
noncomputable def Planes.inside (s : Planes) (p : V3) : Inside :=
  if s.convex then insideAll p s.planes .inside else insideAny p s.planes .outside

open Classical in
/-- `Planes::Distance(point, direction)` (Planes.h:330-343).  For a direction in the plane the quotient of the code is infinite or not a number, and
neither is assigned. -/
noncomputable def Planes.distance (s : Planes) (p d : V3) : ℝ :=
  s.planes.foldl (fun best pl =>
    if d.dot pl.n = 0 then best
    else
      let t := -(pl.height p) / d.dot pl.n
      if t ≥ 0 ∧ t < best then t else best) kInfLength

open Classical in
/-- `Planes::Distance<pointInside>(point)` (Planes.h:345-355) with `Flip` (GenericKernels.h:102-138). -/
noncomputable def Planes.safety (s : Planes) (pointInside : Bool) (p : V3) : ℝ :=
  s.planes.foldl (fun best pl =>
    let h := if !pointInside then -(pl.height p) else pl.height p
    if h ≥ 0 ∧ h < best then h else best) kInfLength

/-! ## Quadrilaterals -/

/-- One quadrilateral of `Quadrilaterals` (Quadrilaterals.h:30-37): its plane, the planes of the sides, its corners. -/
structure Quad where
  plane : Plane
  side : Fin 4 → Plane
  corner : Fin 4 → V3

open Classical in
/-- `operator==` of vectors (Vector3D.h:387-390). -/
noncomputable def same (a b : V3) : Bool := decide (|a.x - b.x| < kTolerance ∧ |a.y - b.y| < kTolerance ∧ |a.z - b.z| < kTolerance)

/-- The loop that chooses different corners (Quadrilaterals.cpp:49-68). -/
noncomputable def choose (c : Fin 4 → V3) : List V3 :=
  [c 1, c 2, c 3].foldl (fun l x => if l.any (fun y => same y x) then l else l ++ [x]) [c 0]

open Classical in
/-- `ComputeSideVector` (Quadrilaterals.cpp:100-111). -/
noncomputable def sideOf (normal c0 c1 : V3) : Option Plane :=
  if same c1 c0 then some ⟨⟨0, 0, 0⟩, 0⟩
  else
    let s := normal.cross (c1 - c0)
    if s.mag = 0 then none else planeOf (V3.smul (1 / s.mag) s) c0

open Classical in
/-- The plane through three corners (Quadrilaterals.cpp:73-98). -/
noncomputable def planeThrough (u v w : V3) : Option Plane :=
  let a := u.y * (v.z - w.z) + v.y * (w.z - u.z) + w.y * (u.z - v.z)
  let b := u.z * (v.x - w.x) + v.z * (w.x - u.x) + w.z * (u.x - v.x)
  let c := u.x * (v.y - w.y) + v.x * (w.y - u.y) + w.x * (u.y - v.y)
  let d := -u.x * (v.y * w.z - w.y * v.z) - v.x * (w.y * u.z - u.y * w.z) - w.x * (u.y * v.z - v.y * u.z)
  let normal : V3 := ⟨a, b, c⟩
  if normal.mag = 0 then none else some ⟨fixZeroes (V3.smul (1 / normal.mag) normal), d * (1 / normal.mag)⟩

/-- `Quadrilaterals::Set` (Quadrilaterals.cpp:33-117).  `none` where the code divides by zero, and where fewer than three corners are different (the
code prints a message and goes on). -/
noncomputable def make (c : Fin 4 → V3) : Option Quad :=
  match choose c with
  | u :: v :: w :: _ => do
    let pl ← planeThrough u v w
    let s0 ← sideOf pl.n (c 0) (c 1)
    let s1 ← sideOf pl.n (c 1) (c 2)
    let s2 ← sideOf pl.n (c 2) (c 3)
    let s3 ← sideOf pl.n (c 3) (c 0)
    some ⟨pl, ![s0, s1, s2, s3], c⟩
  | _ => none

/-- `Quadrilaterals::FlipSign` (Quadrilaterals.cpp:119-123): the planes of the sides stay. -/
def Quad.flip (q : Quad) : Quad := { q with plane := flipPlane q.plane }

/-- `RayHitsQuadrilateral` (Quadrilaterals.h:105-114). -/
def Quad.Hit (q : Quad) (x : V3) : Prop := ∀ j, (q.side j).height x ≥ -kTolerance

open Classical in
/-- One round of `DistanceToOut` (Quadrilaterals.h:494-523). -/
noncomputable def outStep (p d : V3) (zMin zMax : ℝ) (best : ℝ) (q : Quad) : ℝ :=
  let h := q.plane.height p
  if ¬ h < kTolerance then best
  else if ¬ d.dot q.plane.n > 0 then best
  else
    let t := h / -(d.dot q.plane.n)
    if ¬ t < best then best
    else if zMin = zMax then (if q.Hit (V3.at' p d t) then t else best)
    else if p.z + t * d.z ≥ zMin - kTolerance ∧ p.z + t * d.z < zMax + kTolerance then t else best

open Classical in
/-- `DistanceToOut` (Quadrilaterals.h:472-527). -/
noncomputable def distanceToOut (l : List Quad) (p d : V3) (zMin zMax : ℝ) : ℝ :=
  let best := l.foldl (outStep p d zMin zMax) kInfLength
  if best > -kTolerance then max best 0 else best

open Classical in
/-- `DistanceToLineSegmentSquared1` (GenericKernels.h:187-215). -/
noncomputable def segmentSq (c0 c1 p : V3) : ℝ :=
  let line := c1 - c0
  let dot0 := (p - c0).dot line
  if dot0 ≤ 0 then (p - c0).mag2
  else
    let dot1 := line.mag2
    let result := if dot1 ≤ dot0 then (p - c1).mag2 else kInfLength
    if result < kInfLength then result else (c0 + V3.smul (dot0 / dot1) line - p).mag2

open Classical in
/-- `ScalarDistanceSquared` (Quadrilaterals.h:536-605). -/
noncomputable def Quad.distanceSq (q : Quad) (p : V3) : ℝ :=
  let h := q.plane.height p
  let x := p - V3.smul h q.plane.n
  if ∀ j, (q.side j).height x ≥ 0 then h * h
  else
    [0, 1, 2, 3].foldl (fun m (j : Fin 4) =>
      if ¬ (q.side j).height x ≥ 0 then
        (if segmentSq (q.corner j) (q.corner (j + 1)) p < m then segmentSq (q.corner j) (q.corner (j + 1)) p else m)
      else m) kInfLength

open Classical in
/-- The test of one quadrilateral in `DistanceToIn` (Quadrilaterals.h:381-396): the value of `distance`, or `none` where `valid` is false.
`CopySign(1E-20, x)` has the sign of `x`, which is not zero here. -/
noncomputable def inTest (behind : Bool) (q : Quad) (p d : V3) : Option ℝ :=
  let h := q.plane.height p
  let proj := d.dot q.plane.n
  if ¬ (if behind then -h else h) > -kTolerance then none
  else if ¬ (if !behind then -proj else proj) > 0 then none
  else
    let t := h / -(proj + (if proj < 0 then -(1 / 10 ^ 20) else 1 / 10 ^ 20))
    if q.Hit (V3.at' p d t) then some t else none

open Classical in
/-- The loop of `DistanceToIn` (Quadrilaterals.h:380-401). -/
noncomputable def inLoop (behind : Bool) (p d : V3) : List Quad → ℝ → ℝ
  | [], best => best
  | q :: l, best =>
    let best := (inTest behind q p d).getD best
    if best < kInfLength then best else inLoop behind p d l best

/-- `DistanceToIn<behindPlanesT>` (Quadrilaterals.h:355-404). -/
noncomputable def distanceToIn (behind : Bool) (l : List Quad) (p d : V3) : ℝ := max 0 (inLoop behind p d l kInfLength)

/-- `GetTriangleArea` (Quadrilaterals.h:212-220). -/
noncomputable def triangleArea (c : Fin 4 → V3) (i j : Fin 4) : ℝ := 0.5 * ((c i - c 0).cross (c j - c 0)).mag

/-- `GetQuadrilateralArea` (Quadrilaterals.h:223-229). -/
noncomputable def quadArea (c : Fin 4 → V3) : ℝ := triangleArea c 1 2 + triangleArea c 2 3

open Classical in
/-- `GetPointOnTriangle` (Quadrilaterals.h:232-243); `r1` and `r2` are the random numbers. -/
noncomputable def pointOnTriangle (c : Fin 4 → V3) (i0 i1 i2 : Fin 4) (r1 r2 : ℝ) : V3 :=
  let s1 := if r1 + r2 > 1 then 1 - r1 else r1
  let s2 := if r1 + r2 > 1 then 1 - r2 else r2
  c i0 + V3.smul s1 (c i1 - c i0) + V3.smul s2 (c i2 - c i0)

open Classical in
/-- The corners that `GetPointOnFace` keeps (Quadrilaterals.h:250-256). -/
noncomputable def kept (c : Fin 4 → V3) : List (Fin 4) := [0, 1, 2, 3].filter fun i => decide ((c (i + 1) - c i).mag2 > kTolerance)

open Classical in
/-- `GetPointOnFace` (Quadrilaterals.h:246-266); `choice`, `r1` and `r2` are the random numbers. -/
noncomputable def pointOnFace (c : Fin 4 → V3) (choice r1 r2 : ℝ) : V3 :=
  match kept c with
  | [_] => c 0
  | [a, b] => pointOnTriangle c a a b r1 r2
  | [a, b, e] => pointOnTriangle c a b e r1 r2
  | _ => if choice < 0.5 then pointOnTriangle c 0 1 2 r1 r2 else pointOnTriangle c 0 2 3 r1 r2

end Quad
end VecGeom
