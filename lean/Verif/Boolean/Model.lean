import Verif.AABB.Model
import Verif.BoxSolid.Model

/-!
# Boolean solids

Model of `VecGeom/volumes/kernel/BooleanImplementation.h` (subtraction), `BooleanUnionImplementation.h`,
`BooleanIntersectionImplementation.h` and of the extents and the flattening of `source/UnplacedBooleanVolume.cpp`.
The constituents are reached through the virtual interface of placed volumes, so a solid is the record of the functions
behind that interface.  `Precision` is `ℝ`.
-/

namespace VecGeom
namespace Boolean

/-- `kPushTolerance` for double precision (Math.h:28). -/
noncomputable def kPushTolerance : ℝ := 1 / 1000000

/-- The kernels of an unplaced volume, in its own frame (UnplacedVolume.h, `Contains`, `Inside`, `DistanceToIn`,
`DistanceToOut`, `SafetyToIn`, `SafetyToOut`, `Normal`, `Extent`).  The distances take point, direction and `stepMax`;
they are `none` if a loop does not come to an end within the number of rounds given to it. -/
structure Solid where
  contains : V3 → Bool
  inside : V3 → Inside
  distanceToIn : V3 → V3 → ℝ → Option ℝ
  distanceToOut : V3 → V3 → ℝ → Option ℝ
  safetyToIn : V3 → ℝ
  safetyToOut : V3 → ℝ
  normal : V3 → V3 × Bool
  extent : AABB.Box

/-- A placed volume: transformation and unplaced volume (PlacedVolume.h). -/
structure Placed where
  trans : Trans3
  solid : Solid

namespace Placed

/-- `Contains` (SpecializedPlacedVolImplHelper.h:90-97). -/
def contains (v : Placed) (p : V3) : Bool := v.solid.contains (v.trans.transform p)
/-- `Inside` (SpecializedPlacedVolImplHelper.h:81-87). -/
def inside (v : Placed) (p : V3) : Inside := v.solid.inside (v.trans.transform p)
/-- `DistanceToIn` (SpecializedPlacedVolImplHelper.h:113-127). -/
def distanceToIn (v : Placed) (p d : V3) (stepMax : ℝ) : Option ℝ :=
  v.solid.distanceToIn (v.trans.transform p) (v.trans.transformDirection d) stepMax
/-- `PlacedDistanceToOut` (SpecializedPlacedVolImplHelper.h:130-146). -/
def placedDistanceToOut (v : Placed) (p d : V3) (stepMax : ℝ) : Option ℝ :=
  v.solid.distanceToOut (v.trans.transform p) (v.trans.transformDirection d) stepMax
/-- `DistanceToOut` (PlacedVolume.h): takes point and direction in the frame of the volume, no transformation. -/
def distanceToOut (v : Placed) (p d : V3) (stepMax : ℝ) : Option ℝ := v.solid.distanceToOut p d stepMax
/-- `SafetyToIn` (SpecializedPlacedVolImplHelper.h:149-155). -/
def safetyToIn (v : Placed) (p : V3) : ℝ := v.solid.safetyToIn (v.trans.transform p)
/-- `SafetyToOut` (PlacedVolume.h): takes a point in the frame of the volume, no transformation. -/
def safetyToOut (v : Placed) (p : V3) : ℝ := v.solid.safetyToOut p
/-- `Normal` (PlacedVolume.h): takes a point in the frame of the volume. -/
def normal (v : Placed) (p : V3) : V3 × Bool := v.solid.normal p
/-- `VPlacedVolume::Extent` (source/PlacedVolume.cpp:139-178): the extent in the frame of the mother. -/
noncomputable def extent (v : Placed) : AABB.Box := AABB.placedExtent v.trans v.solid.extent

end Placed

/-- `BooleanOperation` (VecGeom/volumes/BooleanStruct.h). -/
inductive Op where
  | union
  | intersection
  | subtraction
deriving DecidableEq

/-! ## Contains and Inside -/

/-- `Contains` of the union (BooleanUnionImplementation.h:26-32), scalar: the mask is full if it is true. -/
def unionContains (l r : Placed) (p : V3) : Bool :=
  let inside := l.contains p
  if inside then inside else inside || r.contains p

/-- `Contains` of the intersection (BooleanIntersectionImplementation.h:27-33). -/
def interContains (l r : Placed) (p : V3) : Bool := l.contains p && r.contains p

/-- `Contains` of the subtraction (BooleanImplementation.h:46-55). -/
def subContains (l r : Placed) (p : V3) : Bool :=
  let inside := l.contains p
  if !inside then inside else inside && !r.contains p

/-- The normal of a constituent, computed in its frame and rotated back, as written in every kernel, for instance
BooleanUnionImplementation.h:58-60. -/
def backNormal (v : Placed) (p : V3) : V3 :=
  v.trans.inverseTransformDirection (v.normal (v.trans.transform p)).1

open Classical in
/-- `Inside` of the union (BooleanUnionImplementation.h:35-79). -/
noncomputable def unionInside (l r : Placed) (p : V3) : Inside :=
  let positionA := l.inside p
  if positionA = .inside then .inside
  else
    let positionB := r.inside p
    if positionB = .inside then .inside
    else if positionA = .surface ∧ positionB = .surface then
      if (backNormal l p).dot (backNormal r p) < 0 then .inside else .surface
    else if positionB = .surface ∨ positionA = .surface then .surface
    else .outside

/-- `Inside` of the intersection (BooleanIntersectionImplementation.h:36-66). -/
def interInside (l r : Placed) (p : V3) : Inside :=
  let positionA := l.inside p
  if positionA = .outside then .outside
  else
    let positionB := r.inside p
    if positionA = .inside ∧ positionB = .inside then .inside
    else if (positionA = .inside ∧ positionB = .surface) ∨ (positionB = .inside ∧ positionA = .surface) ∨
        (positionA = .surface ∧ positionB = .surface) then .surface
    else .outside

/-- `Inside` of the subtraction (BooleanImplementation.h:58-95). -/
def subInside (l r : Placed) (p : V3) : Inside :=
  let positionA := l.inside p
  if positionA = .outside then .outside
  else
    let positionB := r.inside p
    if positionA = .inside ∧ positionB = .outside then .inside
    else if (positionA = .inside ∧ positionB = .surface) ∨ (positionB = .outside ∧ positionA = .surface) then .surface
    else .outside

/-! ## Safeties -/

/-- `SafetyToIn` of the union (BooleanUnionImplementation.h:146-156). -/
noncomputable def unionSafetyToIn (l r : Placed) (p : V3) : ℝ := min (l.safetyToIn p) (r.safetyToIn p)

/-- `SafetyToOut` of the union (BooleanUnionImplementation.h:159-186).  The left volume gets the point as it is. -/
noncomputable def unionSafetyToOut (l r : Placed) (p : V3) : ℝ :=
  let insideA := l.inside p
  let insideB := r.inside p
  if insideA = .outside ∧ insideB = .outside then -kTolerance
  else if insideA ≠ .outside ∧ insideB ≠ .outside then
    max (l.safetyToOut p) (r.safetyToOut (r.trans.transform p))
  else if insideA = .surface ∨ insideB = .surface then -kTolerance
  else if insideA = .outside then r.safetyToOut (r.trans.transform p)
  else l.safetyToOut p

/-- `SafetyToIn` of the intersection (BooleanIntersectionImplementation.h:163-181). -/
noncomputable def interSafetyToIn (l r : Placed) (p : V3) : ℝ :=
  let insideA := l.contains p
  let insideB := r.contains p
  if !insideA && insideB then l.safetyToIn p
  else if !insideB && insideA then r.safetyToIn p
  else min (l.safetyToIn p) (r.safetyToIn p)

open Classical in
/-- `SafetyToOut` of the intersection (BooleanIntersectionImplementation.h:184-194).  The left volume gets the point as it
is. -/
noncomputable def interSafetyToOut (l r : Placed) (p : V3) : ℝ :=
  let safety := min (l.safetyToOut p) (r.safetyToOut (r.trans.transform p))
  if safety < 0 then 0 else safety

/-- `SafetyToIn` of the subtraction (BooleanImplementation.h:173-187). -/
def subSafetyToIn (l r : Placed) (p : V3) : ℝ :=
  if l.contains p && r.contains p then r.safetyToOut (r.trans.transform p) else l.safetyToIn p

/-- `SafetyToOut` of the subtraction (BooleanImplementation.h:190-196).  The left volume gets the point as it is. -/
noncomputable def subSafetyToOut (l r : Placed) (p : V3) : ℝ := min (l.safetyToOut p) (r.safetyToIn p)

/-! ## Distances -/

/-- `DistanceToIn` of the union (BooleanUnionImplementation.h:82-90). -/
noncomputable def unionDistanceToIn (l r : Placed) (p d : V3) (stepMax : ℝ) : Option ℝ :=
  (l.distanceToIn p d stepMax).bind fun d1 => (r.distanceToIn p d stepMax).map fun d2 => min d1 d2

open Classical in
/-- The increment `(disTmp >= 0. && disTmp < kInfLength) ? disTmp : 0` (BooleanUnionImplementation.h:112). -/
noncomputable def clip (t : ℝ) : ℝ := if 0 ≤ t ∧ t < kInfLength then t else 0

/-- The lambda `kernel` of `DistanceToOut` of the union (BooleanUnionImplementation.h:108-130): the value of `dist` after
the `do` loop.  `n` bounds the number of rounds. -/
noncomputable def unionKernel (p d : V3) (a b : Placed) : Nat → ℝ → V3 → Option ℝ
  | 0, _, _ => none
  | n + 1, dist, nextp =>
    (a.placedDistanceToOut nextp d kInfLength).bind fun t1 =>
      let dist1 := dist + clip t1 + kPushTolerance
      let next1 := V3.at' p d dist1
      if b.inside next1 ≠ .outside then
        (b.placedDistanceToOut next1 d kInfLength).bind fun t2 =>
          let dist2 := dist1 + clip t2 + kPushTolerance
          let next2 := V3.at' p d dist2
          if a.inside next2 ≠ .outside then unionKernel p d a b n dist2 next2 else some dist2
      else some dist1

open Classical in
/-- `DistanceToOut` of the union (BooleanUnionImplementation.h:93-143). -/
noncomputable def unionDistanceToOut (n : Nat) (l r : Placed) (p d : V3) : Option ℝ :=
  let positionA := l.inside p
  (if positionA ≠ .outside then unionKernel p d l r n 0 p else unionKernel p d r l n 0 p).map fun dist =>
    let distance := dist - kPushTolerance
    if distance < kTolerance ∧ positionA = .outside ∧ r.inside p = .outside then -kTolerance else distance

open Classical in
/-- The main loop of `DistanceToIn` of the intersection (BooleanIntersectionImplementation.h:100-147): `inleft`,
`inright`, `hitpoint`, `snext` are the variables of the same names. -/
noncomputable def interLoop (l r : Placed) (d : V3) : Nat → Bool → Bool → V3 → ℝ → Option ℝ
  | 0, _, _, _, _ => none
  | n + 1, inleft, inright, hit, snext =>
    (if !inleft then (l.distanceToIn hit d kInfLength).map fun t => max t kTolerance else some 0).bind fun d1 =>
    if !inleft ∧ d1 > 10 ^ 20 then some kInfLength
    else
    (if !inright then (r.distanceToIn hit d kInfLength).map fun t => max t kTolerance else some 0).bind fun d2 =>
    if !inright ∧ d2 > 10 ^ 20 then some kInfLength
    else if d1 > d2 then
      let snext' := snext + d1
      let hit' := V3.at' hit d d1
      if r.contains (V3.at' hit' d kTolerance) then some snext' else interLoop l r d n true false hit' snext'
    else
      let snext' := snext + d2
      let hit' := V3.at' hit d d2
      if l.contains (V3.at' hit' d kTolerance) then some snext' else interLoop l r d n false true hit' snext'

open Classical in
/-- `DistanceToIn` of the intersection (BooleanIntersectionImplementation.h:69-150). -/
noncomputable def interDistanceToIn (n : Nat) (l r : Placed) (p d : V3) (stepMax : ℝ) : Option ℝ :=
  let inleft := l.contains p
  let inright := r.contains p
  if inleft && inright then
    (l.placedDistanceToOut p d stepMax).bind fun d1 =>
    (r.placedDistanceToOut p d stepMax).bind fun d2 =>
      let inleft' := if d1 < 2 * kTolerance then false else inleft
      let inright' := if d2 < 2 * kTolerance then false else inright
      if inleft' && inright' then some 0 else interLoop l r d n inleft' inright' p 0
  else interLoop l r d n inleft inright p 0

/-- `DistanceToOut` of the intersection (BooleanIntersectionImplementation.h:153-160).  The left volume gets point and
direction as they are; both use the default of `stepMax`. -/
noncomputable def interDistanceToOut (l r : Placed) (p d : V3) : Option ℝ :=
  (l.distanceToOut p d kInfLength).bind fun t1 => (r.placedDistanceToOut p d kInfLength).map fun t2 => min t1 t2

open Classical in
/-- The loop of `DistanceToIn` of the subtraction (BooleanImplementation.h:115-157): `insideRight`, `hitpoint` and `snxt`
are the variables of the same names. -/
noncomputable def subLoop (l r : Placed) (d : V3) (stepMax : ℝ) : Nat → Bool → V3 → ℝ → Option ℝ
  | 0, _, _, _ => none
  | n + 1, insideRight, hit, snxt =>
    -- lines 137-156
    let rest := fun (hit : V3) (snxt : ℝ) =>
      (l.distanceToIn hit d stepMax).bind fun t2 =>
        let d2 := max t2 0
        if d2 = kInfLength then some kInfLength
        else
          (r.distanceToIn hit d stepMax).bind fun d1 =>
            if d2 < d1 - kTolerance then some (snxt + (d2 + kPushTolerance))
            else if 0 ≤ d1 ∧ d1 < kInfLength then
              subLoop l r d stepMax n true (V3.at' hit d (d1 + kPushTolerance)) (snxt + (d1 + kPushTolerance))
            else subLoop l r d stepMax n true (V3.at' hit d kPushTolerance) (snxt + 0)
    if insideRight then
      -- lines 118-131
      (r.placedDistanceToOut hit d stepMax).bind fun d1 =>
        let step := if 0 ≤ d1 ∧ d1 < kInfLength then d1 + kPushTolerance else 0
        let snxt' := snxt + step
        let hit' := V3.at' hit d step
        if l.contains hit' then
          (l.placedDistanceToOut hit' d kInfLength).bind fun check =>
            if check > kPushTolerance then some snxt' else rest hit' snxt'
        else rest hit' snxt'
    else rest hit snxt

/-- `DistanceToIn` of the subtraction (BooleanImplementation.h:98-158). -/
noncomputable def subDistanceToIn (n : Nat) (l r : Placed) (p d : V3) (stepMax : ℝ) : Option ℝ :=
  subLoop l r d stepMax n (r.contains p) p 0

/-- `DistanceToOut` of the subtraction (BooleanImplementation.h:161-170). -/
noncomputable def subDistanceToOut (l r : Placed) (p d : V3) (stepMax : ℝ) : Option ℝ :=
  (l.placedDistanceToOut p d stepMax).bind fun t1 => (r.distanceToIn p d stepMax).map fun t2 => min t1 t2

/-! ## Normals -/

/-- The normal of a constituent and its validity, in the frame of the boolean solid. -/
def backNormalValid (v : Placed) (p : V3) : V3 × Bool := (backNormal v p, (v.normal (v.trans.transform p)).2)

/-- The same with `localNorm *= -1.` before rotating back (BooleanImplementation.h:212-216). -/
noncomputable def backNormalNeg (v : Placed) (p : V3) : V3 × Bool :=
  (v.trans.inverseTransformDirection (V3.smul (-1) (v.normal (v.trans.transform p)).1),
    (v.normal (v.trans.transform p)).2)

open Classical in
/-- `NormalKernel` of the union (BooleanUnionImplementation.h:189-239). -/
noncomputable def unionNormal (l r : Placed) (p : V3) : V3 × Bool :=
  if l.contains p then backNormalValid l p
  else if r.contains p then backNormalValid r p
  else if l.safetyToIn p < r.safetyToIn p then backNormalValid l p
  else backNormalValid r p

open Classical in
/-- `NormalKernel` of the intersection (BooleanIntersectionImplementation.h:197-238). -/
noncomputable def interNormal (l r : Placed) (p : V3) : V3 × Bool :=
  let safetyA := if l.contains p then l.safetyToOut (l.trans.transform p) else l.safetyToIn p
  let safetyB := if r.contains p then r.safetyToOut (r.trans.transform p) else r.safetyToIn p
  if safetyA < safetyB then backNormalValid l p else backNormalValid r p

open Classical in
/-- `NormalKernel` of the subtraction (BooleanImplementation.h:199-249). -/
noncomputable def subNormal (l r : Placed) (p : V3) : V3 × Bool :=
  if r.contains p then backNormalNeg r p
  else if !l.contains p then backNormalValid l p
  else if l.safetyToOut (l.trans.transform p) < r.safetyToIn p then backNormalValid l p
  else backNormalNeg r p

/-! ## Extents -/

/-- `TransformedExtent` (source/UnplacedBooleanVolume.cpp:381-420): the corners of `pvol->Extent` (which is the extent of
the placed volume, already in the frame of the boolean solid) are moved by `InverseTransform` and accumulated. -/
noncomputable def transformedExtent (v : Placed) : AABB.Box :=
  (AABB.cornerIdx.map (AABB.transformedCorner v.trans v.extent)).foldl AABB.accum
    ⟨⟨kInfLength, kInfLength, kInfLength⟩, ⟨-kInfLength, -kInfLength, -kInfLength⟩⟩

/-- `Extent` (source/UnplacedBooleanVolume.cpp:422-472). -/
noncomputable def boolExtent (op : Op) (l r : Placed) : AABB.Box :=
  let a := transformedExtent l
  let b := transformedExtent r
  match op with
  | .subtraction => a
  | .union => ⟨⟨min a.lo.x b.lo.x, min a.lo.y b.lo.y, min a.lo.z b.lo.z⟩,
      ⟨max a.hi.x b.hi.x, max a.hi.y b.hi.y, max a.hi.z b.hi.z⟩⟩
  | .intersection => ⟨⟨max a.lo.x b.lo.x, max a.lo.y b.lo.y, max a.lo.z b.lo.z⟩,
      ⟨min a.hi.x b.hi.x, min a.hi.y b.hi.y, min a.hi.z b.hi.z⟩⟩

/-- The boolean solid made of two placed volumes (`UnplacedBooleanVolume<op>`); `n` bounds the rounds of its loops. -/
noncomputable def boolSolid (n : Nat) (op : Op) (l r : Placed) : Solid :=
  match op with
  | .union => ⟨unionContains l r, unionInside l r, unionDistanceToIn l r, fun p d _ => unionDistanceToOut n l r p d,
      unionSafetyToIn l r, unionSafetyToOut l r, unionNormal l r, boolExtent .union l r⟩
  | .intersection => ⟨interContains l r, interInside l r, interDistanceToIn n l r, fun p d _ => interDistanceToOut l r p d,
      interSafetyToIn l r, interSafetyToOut l r, interNormal l r, boolExtent .intersection l r⟩
  | .subtraction => ⟨subContains l r, subInside l r, subDistanceToIn n l r, subDistanceToOut l r,
      subSafetyToIn l r, subSafetyToOut l r, subNormal l r, boolExtent .subtraction l r⟩

/-- A tree of boolean operations over placed solids. -/
inductive Tree where
  | leaf (s : Solid)
  | node (op : Op) (tl : Trans3) (l : Tree) (tr : Trans3) (r : Tree)

/-- The solid described by a tree. -/
noncomputable def Tree.solid (n : Nat) : Tree → Solid
  | .leaf s => s
  | .node op tl l tr r => boolSolid n op ⟨tl, l.solid n⟩ ⟨tr, r.solid n⟩

/-- The box solid behind the virtual interface (BoxImplementation.h); `stepMax` is not used by its kernels. -/
noncomputable def boxSolid (h : V3) : Solid where
  contains := BoxSolid.contains h
  inside := BoxSolid.inside h
  distanceToIn p d _ := some (BoxSolid.distanceToIn h p d)
  distanceToOut p d _ := some (BoxSolid.distanceToOut h p d)
  safetyToIn := BoxSolid.safetyToIn h
  safetyToOut := BoxSolid.safetyToOut h
  normal := BoxSolid.normalKernel h
  extent := ⟨(BoxSolid.extent h).1, (BoxSolid.extent h).2⟩

end Boolean
end VecGeom
