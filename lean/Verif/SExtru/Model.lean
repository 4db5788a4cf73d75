import Verif.Polygon.Model
import Verif.AABB.Model

/-!
# Extruded polygons

Model of `VecGeom/volumes/PolygonalShell.h`, `kernel/SExtruImplementation.h` and `UnplacedSExtruVolume.h`, for scalar arguments.
`Precision` is `ℝ`; `k` is the number of lanes of a vector, which the specialised functions of `PlanarPolygon` use.
-/

namespace VecGeom
namespace SExtru

open Real Polygon

/-- The members (PolygonalShell.h:18-22). -/
structure Shell where
  poly : Poly
  lo : ℝ
  hi : ℝ

/-- The constructor (PolygonalShell.h:32-36); `none` if that of the polygon fails. -/
noncomputable def make (k n : Nat) (x y : Nat → ℝ) (lo hi : ℝ) : Option Shell :=
  (Polygon.init k n x y).map fun p => ⟨p, lo, hi⟩

/-- `PolygonalShell::SurfaceArea` (PolygonalShell.h:47-57). -/
noncomputable def shellArea (s : Shell) : ℝ :=
  √((List.range s.poly.n).foldl (fun area i => area + s.poly.len2 i) 0) * (s.hi - s.lo)

/-- `Extent` (PolygonalShell.h:68-79). -/
noncomputable def extent (s : Shell) : AABB.Box := ⟨⟨s.poly.minX, s.poly.minY, s.lo⟩, ⟨s.poly.maxX, s.poly.maxY, s.hi⟩⟩

/-- `Capacity` (UnplacedSExtruVolume.h:40). -/
noncomputable def capacity (s : Shell) : ℝ := area s.poly * (s.hi - s.lo)

/-- `SurfaceArea` (UnplacedSExtruVolume.h:43). -/
noncomputable def surfaceArea (s : Shell) : ℝ := shellArea s + 2 * area s.poly

/-! ## Containment -/

open Classical in
/-- `Contains` (SExtruImplementation.h:25-37). -/
noncomputable def contains (k : Nat) (s : Shell) (p : V3) : Bool :=
  if p.z > s.hi ∨ p.z < s.lo then false
  else if s.poly.convex then containsConvex s.poly p.x p.y
  else containsVec k s.poly p.x p.y

open Classical in
/-- `Inside` (SExtruImplementation.h:39-84); `none` if `SafetySqr` reads beyond its buffers. -/
noncomputable def inside (k : Nat) (s : Shell) (p : V3) : Option Inside :=
  if p.z > s.hi + kTolerance then some .outside
  else if p.z < s.lo - kTolerance then some .outside
  else
    let onZ := |p.z - s.hi| < kTolerance ∨ |p.z - s.lo| < kTolerance
    if s.poly.convex then
      let r := insideConvex s.poly p.x p.y
      some (if onZ ∧ r ≠ .outside then .surface else r)
    else if onZ ∧ containsVec k s.poly p.x p.y = true then some .surface
    else
      let rest : Inside := if contains k s p then .inside else .outside
      if s.lo ≤ p.z ∧ p.z ≤ s.hi then
        (safetySqr k s.poly p.x p.y).map fun r => if r.1 < kTolerance * kTolerance then .surface else rest
      else some rest

/-! ## Distances -/

open Classical in
/-- `PlanarPolygon::OnSegment` for scalars (PlanarPolygon.h:193-238). -/
noncomputable def onSegment (p : Poly) (i : Nat) (px py : ℝ) : Bool :=
  let bx := p.x i
  let vy := p.y i
  let ax := p.sx i
  let ay := p.sy i
  let pymay := py - ay
  let pxmax := px - ax
  let cross := pymay * (bx - ax) - pxmax * (vy - ay)
  if ¬ |cross| < 1 / 10 ^ 9 then false
  else
    let dotproduct := pxmax * (bx - ax) + pymay * (vy - ay)
    decide (dotproduct ≥ -kTolerance) && decide (dotproduct ≤ kTolerance + p.len2 i)

open Classical in
/-- One pass of the loop of `DistanceToInConcave` (PolygonalShell.h:138-171). -/
noncomputable def inPass (s : Shell) (p d : V3) (result : ℝ) (i : Nat) : ℝ :=
  let proj := s.poly.a i * d.x + s.poly.b i * d.y
  if ¬ proj ≥ -kTolerance then result
  else
    let pdist := s.poly.a i * p.x + s.poly.b i * p.y + s.poly.d i
    if pdist > kTolerance then result
    else
      let dist := -pdist / nonZero proj
      let z := p.z + dist * d.z
      if z ≤ s.hi ∧ z ≥ s.lo then
        if onSegment s.poly i (p.x + dist * d.x) (p.y + dist * d.y) then min dist result else result
      else result

/-- `DistanceToInConcave` (PolygonalShell.h:129-173). -/
noncomputable def shellInConcave (s : Shell) (p d : V3) : ℝ := (List.range s.poly.n).foldl (inPass s p d) kInfLength

open Classical in
/-- One pass of the loop of `DistanceToOutConcave` (PolygonalShell.h:246-281). -/
noncomputable def outPass (s : Shell) (p d : V3) (result : ℝ) (i : Nat) : ℝ :=
  let proj := s.poly.a i * d.x + s.poly.b i * d.y
  if ¬ proj ≤ kTolerance then result
  else
    let pdist := s.poly.a i * p.x + s.poly.b i * p.y + s.poly.d i
    if pdist < -kTolerance then result
    else
      let dist := -pdist / nonZero proj
      let z := p.z + dist * d.z
      if z ≤ s.hi ∧ z ≥ s.lo then
        if onSegment s.poly i (p.x + dist * d.x) (p.y + dist * d.y) = true ∧ dist ≥ -kTolerance then min dist result else result
      else result

/-- `DistanceToOutConcave` (PolygonalShell.h:237-283). -/
noncomputable def shellOutConcave (s : Shell) (p d : V3) : ℝ := (List.range s.poly.n).foldl (outPass s p d) kInfLength

open Classical in
/-- One pass of the loop of the specialised `DistanceToOutConvex` (PolygonalShell.h:305-315); `none` once it has returned
`-kTolerance`. -/
noncomputable def outConvexPass (s : Shell) (p d : V3) (t : Option ℝ) (i : Nat) : Option ℝ :=
  t.bind fun tmax =>
    let proj := -(s.poly.a i * d.x + s.poly.b i * d.y)
    let pdist := -(s.poly.a i * p.x + s.poly.b i * p.y + s.poly.d i)
    if pdist > kTolerance then none
    else if proj > 0 then
      let dist := -pdist / nonZero proj
      some (if tmax > dist then dist else tmax)
    else some tmax

open Classical in
/-- The specialised `DistanceToOutConvex` (PolygonalShell.h:291-317). -/
noncomputable def shellOutConvex (s : Shell) (p d : V3) : ℝ :=
  let dz := 1 / 2 * (s.hi - s.lo)
  let pz := p.z - 1 / 2 * (s.lo + s.hi)
  let safz := |pz| - dz
  if safz > kTolerance then -kTolerance
  else
    let vz := d.z
    let tmax := (copySign dz vz - p.z) / nonZero vz
    ((List.range s.poly.n).foldl (outConvexPass s p d) (some tmax)).getD (-kTolerance)

open Classical in
/-- One pass of the loop of the specialised `DistanceToInConvex` (PolygonalShell.h:332-349) on `(tmin, tmax)`; `none` once it has returned
`kInfLength`. -/
noncomputable def inConvexPass (s : Shell) (p d : V3) (t : Option (ℝ × ℝ)) (i : Nat) : Option (ℝ × ℝ) :=
  t.bind fun (tmin, tmax) =>
    let proj := -(s.poly.a i * d.x + s.poly.b i * d.y)
    let movingAway := proj > -kTolerance
    let pdist := -(s.poly.a i * p.x + s.poly.b i * p.y + s.poly.d i)
    let sideCorrect := pdist > -kTolerance
    if sideCorrect then
      if movingAway then none
      else
        let dist := -pdist / nonZero proj
        some (if dist > tmin then dist else tmin, tmax)
    else if movingAway then
      let dist := -pdist / nonZero proj
      some (tmin, if dist < tmax then dist else tmax)
    else some (tmin, tmax)

open Classical in
/-- The specialised `DistanceToInConvex` (PolygonalShell.h:320-352). -/
noncomputable def shellInConvex (s : Shell) (p d : V3) : ℝ :=
  let dz := 1 / 2 * (s.hi - s.lo)
  let pz := p.z - 1 / 2 * (s.lo + s.hi)
  if |pz| - dz > -kTolerance ∧ pz * d.z ≥ 0 then kInfLength
  else
    let invz := -1 / nonZero d.z
    let ddz := if invz < 0 then dz else -dz
    let tmin := (pz + ddz) * invz
    let tmax := (pz - ddz) * invz
    match (List.range s.poly.n).foldl (inConvexPass s p d) (some (tmin, tmax)) with
    | none => kInfLength
    | some (tmin, tmax) => if tmax < tmin + kTolerance then kInfLength else tmin

open Classical in
/-- `DistanceToIn` (SExtruImplementation.h:86-120).  If `dir.z()` is 0, `dist` is an infinity or NaN, and so is each of `xInters`,
`yInters` or the product is NaN; then no edge is counted by `Contains` or all comparisons with it fail, so `hits` is false. -/
noncomputable def distanceToIn (k : Nat) (s : Shell) (p d : V3) : ℝ :=
  if s.poly.convex then shellInConvex s p d
  else
    let e := if d.z > 0 then p.z - s.lo else s.hi - p.z
    let dist := -e / |d.z|
    if e < kTolerance ∧ d.z ≠ 0 ∧ containsVec k s.poly (p.x + dist * d.x) (p.y + dist * d.y) = true then
      -- a hit of a plane at the distance `kInfLength` is followed by the test of the shell
      if dist = kInfLength then shellInConcave s p d else dist
    else shellInConcave s p d

open Classical in
/-- `DistanceToOut` (SExtruImplementation.h:122-142); `none` if it divides by 0. -/
noncomputable def distanceToOut (s : Shell) (p d : V3) : Option ℝ :=
  if s.poly.convex then some (shellOutConvex s p d)
  else
    let dshell := shellOutConcave s p d
    if dshell < kInfLength then some dshell
    else
      let correctZ := if d.z > 0 then s.hi else s.lo
      if d.z = 0 then none else some ((correctZ - p.z) / d.z)

/-! ## Safeties -/

open Classical in
/-- `SafetyToIn` (SExtruImplementation.h:144-183); `none` if `SafetySqr` reads beyond its buffers. -/
noncomputable def safetyToIn (k : Nat) (s : Shell) (p : V3) : Option ℝ :=
  if s.poly.convex then
    some (max (max (s.lo - p.z) (p.z - s.hi)) (safetyConvex s.poly p.x p.y false))
  else if (extent s).containsKernel p = false then
    let ssqr := (extent s).safetySqr p
    some (if ssqr ≤ 0 then 0 else √ssqr)
  else if (|s.lo - p.z| < kTolerance ∨ |s.hi - p.z| < kTolerance) ∧ contains k s p = true then some 0
  else (safetySqr k s.poly p.x p.y).map fun r => √r.1

open Classical in
/-- `SafetyToOut` (SExtruImplementation.h:185-198). -/
noncomputable def safetyToOut (k : Nat) (s : Shell) (p : V3) : Option ℝ :=
  if s.poly.convex then
    some (min (min (p.z - s.lo) (s.hi - p.z)) (safetyConvex s.poly p.x p.y true))
  else (safetySqr k s.poly p.x p.y).map fun r => min (min √r.1 (s.hi - p.z)) (p.z - s.lo)

/-! ## Normal -/

open Classical in
/-- `NormalKernel` (SExtruImplementation.h:200-242): the normal and whether it is valid; `none` if it reads an array at the index -1 or
beyond the buffers. -/
noncomputable def normal (k : Nat) (s : Shell) (p : V3) : Option (V3 × Bool) :=
  let onUpperZ := |p.z - s.hi| < kTolerance
  let onLowerZ := |p.z - s.lo| < kTolerance
  if (onUpperZ ∨ onLowerZ) ∧ containsVec k s.poly p.x p.y = true then
    some (if onUpperZ then ⟨0, 0, 1⟩ else ⟨0, 0, -1⟩, true)
  else if s.lo ≤ p.z ∧ p.z ≤ s.hi then
    match safetySqr k s.poly p.x p.y with
    | some (r, some i) =>
      if i < s.poly.bs then some (⟨-s.poly.a i, -s.poly.b i, 0⟩, decide (r < kTolerance * kTolerance)) else none
    | _ => none
  else some (⟨0, 0, 0⟩, false)

end SExtru
end VecGeom
