import Verif.Base.Halfspace
import Mathlib.Analysis.SpecialFunctions.Trigonometric.Basic

/-!
# The elliptical tube

Model of `VecGeom/volumes/EllipticalTubeStruct.h`, `VecGeom/volumes/kernel/EllipticalTubeImplementation.h`,
`VecGeom/volumes/UnplacedEllipticalTube.h`, `source/UnplacedEllipticalTube.cpp` and `VecGeom/volumes/EllipticUtilities.h`.
Scalar code; `Precision` is `ℝ`.
-/

namespace VecGeom
namespace EllTube

open Real

/-- The members (EllipticalTubeStruct.h:24-44); the area is in `surfaceArea` below. -/
structure Struct where
  dx : ℝ
  dy : ℝ
  dz : ℝ
  volume : ℝ
  rsph : ℝ
  ddx : ℝ
  ddy : ℝ
  sx : ℝ
  sy : ℝ
  r : ℝ
  q1 : ℝ
  q2 : ℝ
  scratch : ℝ

open Classical in
/-- `CheckParameters` (UnplacedEllipticalTube.cpp:28-64); the half length in y is checked twice and the one in z is not. -/
noncomputable def checkParameters (x y z : ℝ) : ℝ × ℝ × ℝ :=
  let tol := 2 * kTolerance
  if x < tol ∨ y < tol ∨ y < tol then (tol, tol, tol) else (x, y, z)

/-- The values that `CheckParameters` caches (UnplacedEllipticalTube.cpp:39-63). -/
noncomputable def cache (X Y Z : ℝ) : Struct :=
  let R := min X Y
  { dx := X, dy := Y, dz := Z
    volume := 2 * π * X * Y * Z
    rsph := √(X * X + Y * Y + Z * Z)
    ddx := X * X
    ddy := Y * Y
    sx := R / X
    sy := R / Y
    r := R
    q1 := 1 / 2 / R
    q2 := 1 / 2 * (R + kHalfTolerance * kHalfTolerance / R)
    scratch := 2 * R * R * kEpsilon }

/-- `SetParameters` (UnplacedEllipticalTube.h:75-81), also the constructor (UnplacedEllipticalTube.cpp:20-25). -/
noncomputable def make (x y z : ℝ) : Struct :=
  let c := checkParameters x y z
  cache c.1 c.2.1 c.2.2

/-- `SetDx` (UnplacedEllipticalTube.h:86-90). -/
noncomputable def setDx (t : Struct) (a : ℝ) : Struct := make a t.dy t.dz
/-- `SetDy` (UnplacedEllipticalTube.h:95-99). -/
noncomputable def setDy (t : Struct) (a : ℝ) : Struct := make t.dx a t.dz
/-- `SetDz` (UnplacedEllipticalTube.h:104-108). -/
noncomputable def setDz (t : Struct) (a : ℝ) : Struct := make t.dx t.dy a

/-! ## Contains and Inside -/

/-- `safety` of `GenericKernelForContainsAndInside` (EllipticalTubeImplementation.h:75-79). -/
noncomputable def approx (t : Struct) (p : V3) : ℝ :=
  let x := p.x * t.sx
  let y := p.y * t.sy
  let distR := t.q1 * (x * x + y * y) - t.q2
  let distZ := |p.z| - t.dz
  max distR distZ

open Classical in
/-- `Contains` (EllipticalTubeImplementation.h:37-44, 81). -/
noncomputable def contains (t : Struct) (p : V3) : Bool := !decide (approx t p > kHalfTolerance)

open Classical in
/-- `Inside` (EllipticalTubeImplementation.h:48-60, 81-82). -/
noncomputable def inside (t : Struct) (p : V3) : Inside :=
  if approx t p ≤ -kHalfTolerance then .inside else if approx t p > kHalfTolerance then .outside else .surface

/-! ## Distances -/

/-- `A < kEpsilon || Abs(vz) >= 1` (EllipticalTubeImplementation.h:132, 197). -/
def ParallelToZ (A vz : ℝ) : Prop := A < kEpsilon ∨ |vz| ≥ 1

open Classical in
/-- `DistanceToIn` from the moved point on (EllipticalTubeImplementation.h:106-163). -/
noncomputable def distanceToInMoved (t : Struct) (pcur d : V3) (offset : ℝ) : ℝ :=
  let px := pcur.x * t.sx
  let py := pcur.y * t.sy
  let pz := pcur.z
  let vx := d.x * t.sx
  let vy := d.y * t.sy
  let vz := d.z
  let invz := -1 / nonZero vz
  let dz := copySign t.dz invz
  let tzmin := (pz - dz) * invz
  let tzmax := (pz + dz) * invz
  let rr := px * px + py * py
  let A := vx * vx + vy * vy
  let B := px * vx + py * vy
  let C := rr - t.r * t.r
  let D := B * B - A * C
  let distZ := |pz| - t.dz
  let distR := t.q1 * rr - t.q2
  if (distZ ≥ -kHalfTolerance ∧ pz * vz ≥ 0) ∨ (distR ≥ -kHalfTolerance ∧ (B ≥ 0 ∨ ParallelToZ A vz)) then kInfLength
  else if ParallelToZ A vz then tzmin + offset
  else if D ≤ A * A * t.scratch then kInfLength
  else
    let tmp := -B - copySign √D B
    let t1 := tmp / A
    let t2 := C / tmp
    let tin := max tzmin (min t1 t2)
    let tout := min tzmax (max t1 t2)
    if tout - tin ≥ kHalfTolerance then tin + offset else kInfLength

open Classical in
/-- `DistanceToIn` (EllipticalTubeImplementation.h:87-164). -/
noncomputable def distanceToIn (t : Struct) (p d : V3) : ℝ :=
  if p.mag2 > 1024 * t.rsph * t.rsph ∧ d.dot p < 0 then
    distanceToInMoved t (V3.at' p d (p.mag - 2 * t.rsph)) d (p.mag - 2 * t.rsph)
  else distanceToInMoved t p d 0

open Classical in
/-- `DistanceToOut` (EllipticalTubeImplementation.h:166-214); `kMaximum` is `kInfLength`. -/
noncomputable def distanceToOut (t : Struct) (p d : V3) : ℝ :=
  let px := p.x * t.sx
  let py := p.y * t.sy
  let pz := p.z
  let vx := d.x * t.sx
  let vy := d.y * t.sy
  let vz := d.z
  let rr := px * px + py * py
  let distR := t.q1 * rr - t.q2
  let distZ := |pz| - t.dz
  let tzmax := if vz ≠ 0 then (copySign t.dz vz - pz) / vz else kInfLength
  let A := vx * vx + vy * vy
  let B := px * vx + py * vy
  let C := rr - t.r * t.r
  let D := B * B - A * C
  if max distR distZ > kHalfTolerance then -1
  else if ParallelToZ A vz then tzmax
  else if D ≤ 0 then 0
  else if B ≥ 0 then min tzmax (-C / (√D + B))
  else min tzmax ((√D - B) / A)

/-! ## Safeties -/

open Classical in
/-- `SafetyToIn` (EllipticalTubeImplementation.h:216-229). -/
noncomputable def safetyToIn (t : Struct) (p : V3) : ℝ :=
  let x := p.x * t.sx
  let y := p.y * t.sy
  let safety := max (√(x * x + y * y) - t.r) (|p.z| - t.dz)
  if |safety| ≤ kHalfTolerance then 0 else safety

open Classical in
/-- `SafetyToOut` (EllipticalTubeImplementation.h:231-244). -/
noncomputable def safetyToOut (t : Struct) (p : V3) : ℝ :=
  let x := p.x * t.sx
  let y := p.y * t.sy
  let safety := min (t.r - √(x * x + y * y)) (t.dz - |p.z|)
  if |safety| ≤ kHalfTolerance then 0 else safety

/-! ## Normal -/

open Classical in
/-- `NormalKernel` (EllipticalTubeImplementation.h:246-284) with the flag that says whether the normal is valid. -/
noncomputable def normal (t : Struct) (p : V3) : V3 × Bool :=
  let x := p.x * t.sx
  let y := p.y * t.sy
  let lateral := (V3.mk (p.x * t.ddy) (p.y * t.ddx) 0).unit
  let n : V3 := if |t.q1 * (x * x + y * y) - t.q2| ≤ kHalfTolerance then lateral else ⟨0, 0, 0⟩
  let distZ := |p.z| - t.dz
  let n : V3 := if |distZ| ≤ kHalfTolerance then { n with z := sign p.z } else n
  let n := if n.mag2 > 1 then n.unit else n
  if n.mag2 > 0 then (n, true)
  else
    let n : V3 := { n with z := sign p.z }
    if √(x * x + y * y) - t.r > distZ ∧ x * x + y * y > 0 then (lateral, false) else (n, false)

/-! ## Extent, sampling, perimeter -/

/-- `Extent` (UnplacedEllipticalTube.cpp:66-75). -/
def extent (t : Struct) : V3 × V3 := (⟨-t.dx, -t.dy, -t.dz⟩, ⟨t.dx, t.dy, t.dz⟩)

/-- `Capacity` (UnplacedEllipticalTube.h:116). -/
def capacity (t : Struct) : ℝ := t.volume

/-- The eccentricity's complement and the loop of `comp_ellint_2` (EllipticUtilities.h:39-50), for at most `n` rounds; `none` if it
still runs then. -/
noncomputable def ellLoop : Nat → ℝ → ℝ → ℝ → ℝ → Option (ℝ × ℝ × ℝ)
  | 0, _, _, _, _ => none
  | n + 1, x, y, S, M =>
    open Classical in
    if x - y > 1 / 134217728 * y then
      let x' := (x + y) * (1 / 2)
      let y' := √(x * y)
      ellLoop n x' y' (S + (M + M) * (x' - y') * (x' - y')) (M + M)
    else some (x, y, S)

open Classical in
/-- `comp_ellint_2` (EllipticUtilities.h:26-52), with at most `n` rounds of the loop. -/
noncomputable def compEllint2 (n : Nat) (e : ℝ) : Option ℝ :=
  let b := √((1 - e) * (1 + e))
  if b = 1 then some (π / 2)
  else if b = 0 then some 1
  else (ellLoop n 1 b 0 1).map fun (x, y, S) => 1 / 2 * (π / 2) * ((1 + b) * (1 + b) - S) / (x + y)

/-- `EllipsePerimeter` (EllipticUtilities.h:60-69), with at most `n` rounds of the loop. -/
noncomputable def ellipsePerimeter (n : Nat) (A B : ℝ) : Option ℝ :=
  let a := max |A| |B|
  let b := min |A| |B|
  let b_a := b / a
  let e := √((1 - b_a) * (1 + b_a))
  (compEllint2 n e).map (4 * a * ·)

/-- `fSurfaceArea` (UnplacedEllipticalTube.cpp:44), with at most `n` rounds of the loop of the perimeter. -/
noncomputable def surfaceArea (n : Nat) (t : Struct) : Option ℝ :=
  (ellipsePerimeter n t.dx t.dy).map fun per => 2 * (π * t.dx * t.dy + per * t.dz)

open Classical in
/-- `RandomPointInEllipse` (EllipticUtilities.h:100-112) with the pairs of random numbers for its up to 1000 rounds. -/
noncomputable def randomPointInEllipse (a b : ℝ) : List (ℝ × ℝ) → ℝ × ℝ
  | [] => (0, 0)
  | (u, v) :: rest =>
    let aa := if a * a = 0 then 0 else 1 / (a * a)
    let bb := if b * b = 0 then 0 else 1 / (b * b)
    let x := a * (2 * u - 1)
    let y := b * (2 * v - 1)
    if x * x * aa + y * y * bb ≤ 1 then (x, y) else randomPointInEllipse a b rest

open Classical in
/-- `RandomPointOnEllipse` (EllipticUtilities.h:120-138) with the pairs of random numbers for its up to 1000 rounds, of which the
last one is taken if no earlier one is accepted; `none` for no rounds (the coordinates would be uninitialised). -/
noncomputable def randomPointOnEllipse (a b : ℝ) : List (ℝ × ℝ) → Option (ℝ × ℝ)
  | [] => none
  | (u, v) :: rest =>
    let A := |a|
    let B := |b|
    let x := cos (2 * π * u)
    let y := sin (2 * π * u)
    let mu := √(B * x * (B * x) + A * y * (A * y))
    if max A B * v ≤ mu ∨ rest = [] then some (A * x, B * y) else randomPointOnEllipse a b rest

open Classical in
/-- `SamplePointOnSurface` (UnplacedEllipticalTube.cpp:77-121) with the surface area, the random number for the choice, the pairs
for the point of the ellipse and the one for the height. -/
noncomputable def samplePointOnSurface (t : Struct) (area u : ℝ) (l : List (ℝ × ℝ)) (w : ℝ) : Option V3 :=
  let sbase := π * t.dx * t.dy
  let select := area * u
  let k := if select > 2 * sbase then 2 else if select > sbase then 1 else 0
  if k = 0 then
    let rho := randomPointInEllipse t.dx t.dy l
    some ⟨rho.1, rho.2, -t.dz⟩
  else if k = 1 then
    let rho := randomPointInEllipse t.dx t.dy l
    some ⟨rho.1, rho.2, t.dz⟩
  else (randomPointOnEllipse t.dx t.dy l).map fun rho => ⟨rho.1, rho.2, (2 * w - 1) * t.dz⟩

end EllTube
end VecGeom
