import Verif.Base.Halfspace
import Mathlib.Analysis.SpecialFunctions.Trigonometric.Basic

/-!
# Paraboloid

`VecGeom/volumes/ParaboloidStruct.h`, `VecGeom/volumes/kernel/ParaboloidImplementation.h`,
`VecGeom/volumes/UnplacedParaboloid.h` and `source/UnplacedParaboloid.cpp`.  The scalar instantiation: `MaskFull(done)` is
`done`, so each `if (MaskFull(done)) return;` leaves the function.
-/

namespace VecGeom
namespace Paraboloid

open Real

/-- `ParaboloidStruct` (ParaboloidStruct.h:19-36) with the two values that `UnplacedParaboloid` keeps
(UnplacedParaboloid.h:47-48).  `fA2`, `fB2`, `fInvB` are not read by any of the functions modelled and are left out. -/
structure State where
  rlo : ℝ
  rhi : ℝ
  dz : ℝ
  dx : ℝ
  dy : ℝ
  fA : ℝ
  invA : ℝ
  fB : ℝ
  k1 : ℝ
  k2 : ℝ
  rlo2 : ℝ
  rhi2 : ℝ
  volume : ℝ
  area : ℝ

/-- `CalculateCached` and `ComputeBoundingBox` (ParaboloidStruct.h:59-81). -/
noncomputable def calculateCached (s : State) : State :=
  let rlo2 := s.rlo * s.rlo
  let rhi2 := s.rhi * s.rhi
  let dd := 1 / (rhi2 - rlo2)
  let fA := 2 * s.dz * dd
  { s with
    rlo2 := rlo2, rhi2 := rhi2, fA := fA, fB := -s.dz * (rlo2 + rhi2) * dd, k1 := (rhi2 - rlo2) * (1 / 2) / s.dz,
    k2 := (rhi2 + rlo2) * (1 / 2), invA := 1 / fA, dx := max s.rhi s.rlo, dy := max s.rhi s.rlo }

/-- `CalcCapacity` (UnplacedParaboloid.cpp:36-39). -/
noncomputable def calcCapacity (s : State) : State :=
  { s with volume := π * s.dz * (s.rlo * s.rlo + s.rhi * s.rhi) }

open Classical in
/-- `CalcSurfaceArea` (UnplacedParaboloid.cpp:42-65). -/
noncomputable def calcSurfaceArea (s : State) : State :=
  let h1 := -s.fB + s.dz
  let h2 := -s.fB - s.dz
  let a1 := s.rhi2 + 4 * h1 * h1
  let a1 := a1 * (a1 * a1)
  let a1 := π * s.rhi / 6 / (h1 * h1) * (√a1 - s.rhi2 * s.rhi)
  let a2 := s.rlo2 + 4 * (h2 * h2)
  let a2 := a2 * (a2 * a2)
  let a2 := if h2 ≠ 0 then π * s.rlo / 6 / (h2 * h2) * (√a2 - s.rlo2 * s.rlo) else 0
  { s with area := a1 - a2 + (s.rlo2 + s.rhi2) * π }

/-- The constructor (ParaboloidStruct.h:51-55, UnplacedParaboloid.cpp:26-33); `m` stands for the memory found.  The bounding
box is what `extent` gives. -/
noncomputable def create (m : State) (rlo rhi dz : ℝ) : State :=
  calcSurfaceArea (calcCapacity (calculateCached { m with rlo := rlo, rhi := rhi, dz := dz }))

open Classical in
/-- `SetRloAndRhiAndDz` of the struct (ParaboloidStruct.h:88-100). -/
noncomputable def structSet (s : State) (rlo rhi dz : ℝ) : State :=
  if rlo < 0 ∨ rhi < 0 ∨ dz ≤ 0 then s else calculateCached { s with rlo := rlo, rhi := rhi, dz := dz }

/-- `SetRloAndRhiAndDz` (UnplacedParaboloid.h:127-132). -/
noncomputable def setAll (s : State) (rlo rhi dz : ℝ) : State := calcSurfaceArea (calcCapacity (structSet s rlo rhi dz))

/-- `SetRlo` (UnplacedParaboloid.h:95-100, ParaboloidStruct.h:105). -/
noncomputable def setRlo (s : State) (v : ℝ) : State := setAll s v s.rhi s.dz
/-- `SetRhi` (UnplacedParaboloid.h:105-110, ParaboloidStruct.h:110). -/
noncomputable def setRhi (s : State) (v : ℝ) : State := setAll s s.rlo v s.dz
/-- `SetDz` (UnplacedParaboloid.h:115-120, ParaboloidStruct.h:115). -/
noncomputable def setDz (s : State) (v : ℝ) : State := setAll s s.rlo s.rhi v

/-- `point.Perp2()`. -/
def perp2 (p : V3) : ℝ := p.x * p.x + p.y * p.y

/-- `rho2 - (fK1 * z + fK2)` (ParaboloidImplementation.h:83-85, 145-146, 234-236). -/
def diff (s : State) (p : V3) : ℝ := perp2 p - (s.k1 * p.z + s.k2)

/-- `fA * rho2 + fB - z` (ParaboloidImplementation.h:111, 293, 355). -/
def value (s : State) (p : V3) : ℝ := s.fA * perp2 p + s.fB - p.z

open Classical in
/-- `GenericKernelForContainsAndInside` (ParaboloidImplementation.h:74-90): completely inside, completely outside. -/
noncomputable def genericKernel (forInside : Bool) (s : State) (p : V3) : Bool × Bool :=
  if |p.z| > s.dz + kTolerance ∨ diff s p > kTolerance then (false, true)
  else (if forInside then decide (|p.z| < s.dz - kTolerance ∧ diff s p < -kTolerance) else false, false)

/-- `Contains` (ParaboloidImplementation.h:49-55). -/
noncomputable def contains (s : State) (p : V3) : Bool := !(genericKernel false s p).2

/-- `Inside` (ParaboloidImplementation.h:60-73). -/
noncomputable def inside (s : State) (p : V3) : Inside :=
  let k := genericKernel true s p
  let r := Inside.surface
  let r := if k.2 then Inside.outside else r
  if k.1 then Inside.inside else r

/-- `IsOnZPlane<Real_v, true>` (ParaboloidImplementation.h:92-102). -/
def OnTop (s : State) (p : V3) : Prop := |p.z - s.dz| < kTolerance ∧ perp2 p < s.rhi2 + kHalfTolerance

/-- `IsOnZPlane<Real_v, false>` (ParaboloidImplementation.h:92-102). -/
def OnBottom (s : State) (p : V3) : Prop := |p.z + s.dz| < kTolerance ∧ perp2 p < s.rlo2 + kHalfTolerance

/-- `IsOnParabolicSurface` (ParaboloidImplementation.h:104-114). -/
def OnSide (s : State) (p : V3) : Prop := value s p > -kTolerance ∧ value s p < kTolerance

/-- `normal` of the distance functions (ParaboloidImplementation.h:161, 249). -/
noncomputable def flatNormal (s : State) (p : V3) : V3 := ⟨p.x, p.y, -s.k1 * (1 / 2)⟩

/-- The coefficients `a`, `b`, `c`, `d2` of the quadratic equation (ParaboloidImplementation.h:198-203, 265-270). -/
noncomputable def qa (s : State) (d : V3) : ℝ := s.fA * perp2 d
noncomputable def qb (s : State) (p d : V3) : ℝ := 1 / 2 * d.z - s.fA * (p.x * d.x + p.y * d.y)
noncomputable def qc (s : State) (p : V3) : ℝ := s.fB + s.fA * perp2 p - p.z
noncomputable def disc (s : State) (p d : V3) : ℝ := qb s p d * qb s p d - qa s d * qc s p

open Classical in
/-- The last part of `DistanceToIn`, the side (ParaboloidImplementation.h:196-212): `distance` is what came in. -/
noncomputable def sideIn (s : State) (p d : V3) (offset distance : ℝ) : ℝ :=
  if ¬ (p.z > s.dz ∧ perp2 p < s.rhi2) then
    if disc s p d < 0 then distance
    else
      let b := qb s p d
      let distParab := if b > 0 then qc s p / nonZero (b + √(disc s p d)) else (b - √(disc s p d)) / nonZero (qa s d)
      let zHit := p.z + distParab * d.z
      if |zHit| ≤ s.dz ∧ distParab > 0 then distParab + offset else distance
  else distance

open Classical in
/-- The part of `DistanceToIn` that looks for a hit of a lid and then of the side (ParaboloidImplementation.h:173-212). -/
noncomputable def lidIn (s : State) (p d : V3) (offset : ℝ) : ℝ :=
  if ¬ |p.z| < s.dz then
    let bottomPlane := p.z < -s.dz ∧ d.z > 0
    let topPlane := p.z > s.dz ∧ d.z < 0
    let distZ := if topPlane then (s.dz - p.z) / nonZero d.z else kInfLength
    let distZ := if bottomPlane then (-s.dz - p.z) / nonZero d.z else distZ
    let xHit := p.x + distZ * d.x
    let yHit := p.y + distZ * d.y
    let rhoHit2 := xHit * xHit + yHit * yHit
    let distance := if topPlane ∧ rhoHit2 ≤ s.rhi2 then distZ + offset else kInfLength
    if topPlane ∧ rhoHit2 < s.rhi2 then distance
    else
      let distance := if bottomPlane ∧ rhoHit2 ≤ s.rlo2 then distZ + offset else distance
      if bottomPlane ∧ rhoHit2 ≤ s.rlo2 then distance
      else sideIn s p d offset distance
  else sideIn s p d offset kInfLength

/-- The sphere around the solid (ParaboloidImplementation.h:131-132). -/
noncomputable def rsph (s : State) : ℝ := 3 / 2 * max s.dx s.dz

open Classical in
/-- The distance the point is moved first (ParaboloidImplementation.h:133-135). -/
noncomputable def offsetIn (s : State) (p d : V3) : ℝ :=
  if p.mag2 > 1024 * rsph s * rsph s ∧ d.dot p < 0 then p.mag - 2 * rsph s else 0

open Classical in
/-- `DistanceToIn` (ParaboloidImplementation.h:116-213). -/
noncomputable def distanceToIn (s : State) (point d : V3) : ℝ :=
  let offset := offsetIn s point d
  let p := point + V3.smul offset d
  if |p.z| > s.dz ∧ p.z * d.z ≥ 0 then kInfLength
  else if |p.z| < s.dz - kTolerance ∧ diff s p < -kTolerance then -1
  else if (OnTop s point ∧ d.z < 0) ∨ (OnBottom s point ∧ d.z > 0) then 0
  else if diff s p > -kTolerance ∧ diff s p < kTolerance ∧ d.dot (flatNormal s p) < 0 then 0
  else lidIn s p d offset

open Classical in
/-- `distZ` of `DistanceToOut` (ParaboloidImplementation.h:258-263). -/
noncomputable def lidOut (s : State) (p d : V3) : ℝ :=
  let dirZinv := 1 / nonZero d.z
  if d.z < 0 then -(s.dz + p.z) * dirZinv else (s.dz - p.z) * dirZinv

open Classical in
/-- `distParab` of `DistanceToOut` (ParaboloidImplementation.h:265-275). -/
noncomputable def sideOut (s : State) (p d : V3) : ℝ :=
  let b := qb s p d
  if disc s p d ≥ 0 then
    if b > 0 then (b + √(disc s p d)) * (1 / nonZero (qa s d)) else qc s p / nonZero (b - √(disc s p d))
  else kInfLength

open Classical in
/-- `DistanceToOut` (ParaboloidImplementation.h:215-277). -/
noncomputable def distanceToOut (s : State) (p d : V3) : ℝ :=
  if |p.z| > s.dz + kTolerance then -1
  else if diff s p > kHalfTolerance then -1
  else if (OnTop s p ∧ d.z > 0) ∨ (OnBottom s p ∧ d.z < 0) then 0
  else if diff s p > -kTolerance ∧ diff s p < kTolerance ∧ d.dot (flatNormal s p) > 0 then 0
  else min (sideOut s p d) (lidOut s p d)

/-- `onZPlane` of the safeties (ParaboloidImplementation.h:298-300, 360-362). -/
def OnLidLevel (s : State) (p : V3) : Prop :=
  |(|p.z| - s.dz)| < kTolerance ∧ (perp2 p < s.rhi2 + kHalfTolerance ∨ perp2 p < s.rlo2 + kHalfTolerance)

open Classical in
/-- `SafetyToIn` (ParaboloidImplementation.h:279-335). -/
noncomputable def safetyToIn (s : State) (p : V3) : ℝ :=
  let safeZ := |p.z| - s.dz
  if |p.z| < s.dz - kTolerance ∧ value s p < -kHalfTolerance then -1
  else if OnLidLevel s p then 0
  else if OnSide s p then 0
  else
    let r0sq := (p.z - s.fB) * s.invA
    if r0sq < 0 then safeZ
    else
      let dr := √(perp2 p) - √r0sq
      if dr < 1 / 10 ^ 8 then safeZ
      else
        let talf := -2 * s.fA * √r0sq
        let salf := talf / √(1 + talf * talf)
        max |dr * salf| safeZ

open Classical in
/-- `SafetyToOut` (ParaboloidImplementation.h:337-392). -/
noncomputable def safetyToOut (s : State) (p : V3) : ℝ :=
  let safZ := s.dz - |p.z|
  if |p.z| > s.dz + kTolerance then -1
  else if value s p > kHalfTolerance then -1
  else if OnLidLevel s p then 0
  else if OnSide s p then 0
  else
    let r0sq := (p.z - s.fB) * s.invA
    if r0sq < 0 then 0
    else
      let z0 := s.fA * perp2 p + s.fB
      let dr := √(perp2 p) - √r0sq
      if dr > -(1 / 10 ^ 8) then 0
      else
        let dz := |p.z - z0|
        min (-dr * dz / √(dr * dr + dz * dz)) safZ

/-- `Normalized` (Vector3D.h:202); a vector of length zero, for which the code divides by zero, is `none`. -/
noncomputable def normalized (v : V3) : Option V3 :=
  open Classical in if v.mag = 0 then none else some (V3.smul (1 / v.mag) v)

open Classical in
/-- `NormalKernel` (ParaboloidImplementation.h:394-453): the flag and the normal.  The vector `normParabolic` that is
computed for points off the axis (lines 408-415) is a second variable declared inside the `if`; what is read afterwards is
the first one, `(0, 0, Sign(-fA))`. -/
noncomputable def normalKernel (s : State) (p : V3) : Bool × Option V3 :=
  let normParabolic : V3 := ⟨0, 0, sign (-s.fA)⟩
  let r := √(perp2 p)
  let normal : V3 := ⟨0, 0, 0⟩
  let normal := if OnTop s p then { normal with z := 1 } else normal
  let normal := if OnBottom s p then { normal with z := -1 } else normal
  let normal := if OnSide s p then normal - normParabolic else normal
  if (OnTop s p ∨ OnBottom s p) ∨ OnSide s p then (true, normalized normal)
  else
    let norm : V3 := ⟨0, 0, 0⟩
    let norm := if p.z > 0 then { norm with z := 1 } else norm
    let norm := if p.z < 0 then { norm with z := -1 } else norm
    let safz := s.dz - |p.z|
    let safr := |r - √((p.z - s.fB) * s.invA)|
    let norm := if safz ≥ 0 ∧ safr < safz then normParabolic else norm
    (false, normalized norm)

/-- `Capacity` (UnplacedParaboloid.h:145). -/
def capacity (s : State) : ℝ := s.volume

/-- `SurfaceArea` (UnplacedParaboloid.h:147). -/
def surfaceArea (s : State) : ℝ := s.area

/-- `Extent` (UnplacedParaboloid.cpp:68-76): lower and upper corner. -/
def extent (s : State) : V3 × V3 := (⟨-s.dx, -s.dy, -s.dz⟩, ⟨s.dx, s.dy, s.dz⟩)

open Classical in
/-- `SamplePointOnSurface` (UnplacedParaboloid.cpp:78-103); `u`, `u'`, `u''` are the numbers in `[0, 1)` behind the calls
`uniform(0, 1)`, `uniform(0, 2 * kPi)` and the third call `uniform(0, 1)`. -/
noncomputable def samplePointOnSurface (s : State) (u u' u'' : ℝ) : V3 :=
  let phi := u' * (2 * π)
  if π * (s.rlo2 + s.rhi2) / s.area ≥ u then
    if π * s.rlo2 / s.area > u then
      let rho := s.rlo * √u''
      ⟨rho * cos phi, rho * sin phi, -s.dz⟩
    else
      let rho := s.rhi * √u''
      ⟨rho * cos phi, rho * sin phi, s.dz⟩
  else
    let z := u'' * 2 * s.dz - s.dz
    ⟨√(z * s.invA - s.fB * s.invA) * cos phi, √(z * s.invA - s.fB * s.invA) * sin phi, z⟩

end Paraboloid
end VecGeom
