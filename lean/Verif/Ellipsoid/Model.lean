import Verif.EllTube.Model

/-!
# The ellipsoid with cuts

Model of `VecGeom/volumes/EllipsoidStruct.h`, `VecGeom/volumes/kernel/EllipsoidImplementation.h`, `VecGeom/volumes/UnplacedEllipsoid.h` and
`source/UnplacedEllipsoid.cpp`.  Scalar code; `Precision` is `ℝ`.
-/

namespace VecGeom
namespace Ellipsoid

open Real

/-- The members (EllipsoidStruct.h:24-52), without the surface area, which is a numerical approximation and only decides which face
`SamplePointOnSurface` takes. -/
structure Struct where
  dx : ℝ
  dy : ℝ
  dz : ℝ
  zBottom : ℝ
  zTop : ℝ
  volume : ℝ
  xmax : ℝ
  ymax : ℝ
  rsph : ℝ
  r : ℝ
  sx : ℝ
  sy : ℝ
  sz : ℝ
  scBottom : ℝ
  scTop : ℝ
  scMid : ℝ
  scDim : ℝ
  q1 : ℝ
  q2 : ℝ

open Classical in
/-- The semi-axes after their check (UnplacedEllipsoid.cpp:43-51); the one in y is checked twice and the one in z is not. -/
noncomputable def checkAxes (x y z : ℝ) : ℝ × ℝ × ℝ :=
  let tol := 2 * kTolerance
  if x < tol ∨ y < tol ∨ y < tol then (tol, tol, tol) else (x, y, z)

open Classical in
/-- The cuts after their check (UnplacedEllipsoid.cpp:57-72). -/
noncomputable def checkCuts (C b t : ℝ) : ℝ × ℝ :=
  let c := if b = 0 ∧ t = 0 then (-C, C) else (b, t)
  let c := if c.1 ≥ C ∨ c.2 ≤ -C ∨ c.1 ≥ c.2 then (-C, C) else c
  (max c.1 (-C), min c.2 C)

open Classical in
/-- The volume (UnplacedEllipsoid.cpp:75-88). -/
noncomputable def cubicVolume (A B C b t : ℝ) : ℝ :=
  let piAB := π * A * B
  let piAB_3 := piAB / 3
  let v := 4 * piAB_3 * C
  let v := if b > -C then
      let hbot := 1 + b / C
      v - piAB_3 * hbot * hbot * (2 * C - b)
    else v
  if t < C then
    let htop := 1 - t / C
    v - piAB_3 * htop * htop * (2 * C + t)
  else v

open Classical in
/-- `scale` of the extent in x and y, 1 if neither cut applies (UnplacedEllipsoid.cpp:91-104). -/
noncomputable def extentScale (C b t : ℝ) : ℝ :=
  if t < 0 then √((1 - t / C) * (1 + t / C))
  else if b > 0 then √((1 - b / C) * (1 + b / C))
  else 1

/-- The values that `CheckParameters` caches (UnplacedEllipsoid.cpp:74-122). -/
noncomputable def cache (A B C b t : ℝ) : Struct :=
  let R := min (min A B) C
  { dx := A, dy := B, dz := C, zBottom := b, zTop := t
    volume := cubicVolume A B C b t
    xmax := A * extentScale C b t
    ymax := B * extentScale C b t
    rsph := max (max A B) C
    r := R
    sx := R / A
    sy := R / B
    sz := R / C
    scBottom := b * (R / C)
    scTop := t * (R / C)
    scMid := 1 / 2 * (t * (R / C) + b * (R / C))
    scDim := 1 / 2 * (t * (R / C) - b * (R / C))
    q1 := 1 / 2 / R
    q2 := 1 / 2 * (R + kHalfTolerance * kHalfTolerance / R) }

/-- The constructor with `CheckParameters` (UnplacedEllipsoid.cpp:27-38, 40-123). -/
noncomputable def make (x y z b t : ℝ) : Struct :=
  let a := checkAxes x y z
  let c := checkCuts a.2.2 b t
  cache a.1 a.2.1 a.2.2 c.1 c.2

/-- `SetSemiAxes` (UnplacedEllipsoid.h:96-104): the cuts that are stored are checked again. -/
noncomputable def setSemiAxes (e : Struct) (x y z : ℝ) : Struct := make x y z e.zBottom e.zTop

/-- `SetZCuts` (UnplacedEllipsoid.h:109-116). -/
noncomputable def setZCuts (e : Struct) (b t : ℝ) : Struct := make e.dx e.dy e.dz b t

/-! ## Contains and Inside -/

/-- `safety` of `GenericKernelForContainsAndInside` (EllipsoidImplementation.h:77-82). -/
noncomputable def approx (e : Struct) (p : V3) : ℝ :=
  let x := p.x * e.sx
  let y := p.y * e.sy
  let z := p.z * e.sz
  let distZ := |z - e.scMid| - e.scDim
  let distR := e.q1 * (x * x + y * y + z * z) - e.q2
  max distZ distR

open Classical in
/-- `Contains` (EllipsoidImplementation.h:38-44, 84). -/
noncomputable def contains (e : Struct) (p : V3) : Bool := !decide (approx e p > kHalfTolerance)

open Classical in
/-- `Inside` (EllipsoidImplementation.h:49-60, 84-85). -/
noncomputable def inside (e : Struct) (p : V3) : Inside :=
  if approx e p ≤ -kHalfTolerance then .inside else if approx e p > kHalfTolerance then .outside else .surface

/-! ## Distances -/

open Classical in
/-- `DistanceToIn` from the moved point on (EllipsoidImplementation.h:106-148). -/
noncomputable def distanceToInMoved (e : Struct) (pcur d : V3) (offset : ℝ) : ℝ :=
  let px := pcur.x * e.sx
  let py := pcur.y * e.sy
  let pz := pcur.z * e.sz
  let vx := d.x * e.sx
  let vy := d.y * e.sy
  let vz := d.z * e.sz
  let pzcut := pz - e.scMid
  let dzcut := e.scDim
  let distZ := |pzcut| - dzcut
  let rr := px * px + py * py + pz * pz
  let vv := vx * vx + vy * vy + vz * vz
  let pv := px * vx + py * vy + pz * vz
  let distR := e.q1 * rr - e.q2
  let invz := -1 / nonZero vz
  let dz := copySign dzcut invz
  let tzmin := (pzcut - dz) * invz
  let tzmax := (pzcut + dz) * invz
  let C := rr - e.r * e.r
  let D := pv * pv - vv * C
  let sqrtD := √|D|
  let trmin := (-pv - sqrtD) / vv
  let trmax := (-pv + sqrtD) / vv
  let tmin := max tzmin trmin
  let tmax := min tzmax trmax
  let EPS := 2 * rr * vv * kEpsilon
  if ((distZ ≥ -kHalfTolerance ∧ pzcut * vz ≥ 0) ∨ (distR ≥ -kHalfTolerance ∧ pv ≥ 0)) ∨ D ≤ EPS ∨ tmax - tmin ≤ kHalfTolerance then
    kInfLength
  else tmin + offset

open Classical in
/-- `DistanceToIn` (EllipsoidImplementation.h:88-149). -/
noncomputable def distanceToIn (e : Struct) (p d : V3) : ℝ :=
  if p.mag2 > 1024 * e.rsph * e.rsph ∧ d.dot p < 0 then
    distanceToInMoved e (V3.at' p d (p.mag - 2 * e.rsph)) d (p.mag - 2 * e.rsph)
  else distanceToInMoved e p d 0

open Classical in
/-- `DistanceToOut` (EllipsoidImplementation.h:151-198); `kMaximum` is `kInfLength`. -/
noncomputable def distanceToOut (e : Struct) (p d : V3) : ℝ :=
  let px := p.x * e.sx
  let py := p.y * e.sy
  let pz := p.z * e.sz
  let vx := d.x * e.sx
  let vy := d.y * e.sy
  let vz := d.z * e.sz
  let pzcut := pz - e.scMid
  let dzcut := e.scDim
  let distZ := |pzcut| - dzcut
  let rr := px * px + py * py + pz * pz
  let vv := vx * vx + vy * vy + vz * vz
  let pv := px * vx + py * vy + pz * vz
  let distR := e.q1 * rr - e.q2
  let tzmax := if vz ≠ 0 then (copySign dzcut vz - pzcut) / vz else kInfLength
  let B := pv / vv
  let C := (rr - e.r * e.r) / vv
  let D := B * B - C
  let sqrtD := √|D|
  let trmax := -B + sqrtD
  let EPS := 2 * rr * vv * kEpsilon
  if max distR distZ > kHalfTolerance then -1
  else if D ≤ EPS then 0
  else min tzmax trmax

/-! ## Safeties -/

open Classical in
/-- `SafetyToIn` (EllipsoidImplementation.h:200-220). -/
noncomputable def safetyToIn (e : Struct) (p : V3) : ℝ :=
  let x := p.x * e.sx
  let y := p.y * e.sy
  let z := p.z * e.sz
  let r := √(x * x + y * y + z * z)
  let safeZ := |z - e.scMid| - e.scDim
  let safeR := r - e.r
  let safety := max safeZ safeR
  let safety := if |safety| ≤ kHalfTolerance then 0 else safety
  let distZ := max (p.z - e.zTop) (e.zBottom - p.z)
  let distXY := max (|p.x| - e.xmax) (|p.y| - e.ymax)
  if safety > 0 then max (max safety distZ) distXY else safety

open Classical in
/-- `SafetyToOut` (EllipsoidImplementation.h:222-239). -/
noncomputable def safetyToOut (e : Struct) (p : V3) : ℝ :=
  let x := p.x * e.sx
  let y := p.y * e.sy
  let z := p.z * e.sz
  let safeR := e.r - √(x * x + y * y + z * z)
  let safeZ := e.scDim - |z - e.scMid|
  let safety := min safeZ safeR
  let safety := if |safety| ≤ kHalfTolerance then 0 else safety
  let distZ := min (e.zTop - p.z) (p.z - e.zBottom)
  if safety > 0 then min safeR distZ else safety

/-! ## Normal -/

open Classical in
/-- `NormalKernel` (EllipsoidImplementation.h:241-286) with the flag that says whether the normal is valid. -/
noncomputable def normal (e : Struct) (p : V3) : V3 × Bool :=
  let A := e.dx
  let B := e.dy
  let C := e.dz
  let x := p.x * e.sx
  let y := p.y * e.sy
  let z := p.z * e.sz
  let mag2 := x * x + y * y + z * z
  let distR := e.q1 * mag2 - e.q2
  let lateral := (V3.mk (p.x / (A * A)) (p.y / (B * B)) (p.z / (C * C))).unit
  let n : V3 := if |distR| ≤ kHalfTolerance then lateral else ⟨0, 0, 0⟩
  let distZ := |z - e.scMid| - e.scDim
  let n : V3 := if |distZ| ≤ kHalfTolerance then { n with z := n.z + sign (z - e.scMid) } else n
  let n := if n.mag2 > 1 then n.unit else n
  if n.mag2 > 0 then (n, true)
  else
    let n : V3 := { n with z := sign (z - e.scMid) }
    if √mag2 - e.r > distZ ∧ mag2 > 0 then (lateral, false) else (n, false)

/-! ## Extent, capacity, sampling, mesh -/

/-- `Extent` (UnplacedEllipsoid.cpp:170-174). -/
def extent (e : Struct) : V3 × V3 := (⟨-e.xmax, -e.ymax, e.zBottom⟩, ⟨e.xmax, e.ymax, e.zTop⟩)

/-- `Capacity` (UnplacedEllipsoid.h:121). -/
def capacity (e : Struct) : ℝ := e.volume

open Classical in
/-- The rejection loop for the lateral surface (UnplacedEllipsoid.cpp:213-228) with the triples of random numbers of its up to 1000 rounds, of
which the last one is taken if no earlier one is accepted; `none` for no rounds (the coordinates would be uninitialised). -/
noncomputable def sampleLateral (e : Struct) : List (ℝ × ℝ × ℝ) → Option V3
  | [] => none
  | (u, v, w) :: rest =>
    let A := e.dx
    let B := e.dy
    let C := e.dz
    let z := (e.zBottom + (e.zTop - e.zBottom) * u) / C
    let rho := √((1 + z) * (1 - z))
    let phi := 2 * π * v
    let x := rho * cos phi
    let y := rho * sin phi
    let xbc := x * B * C
    let yac := y * A * C
    let zab := z * A * B
    let mu := √(xbc * xbc + yac * yac + zab * zab)
    let muMax := max (max (A * B) (A * C)) (B * C)
    if muMax * w ≤ mu ∨ rest = [] then some ⟨A * x, B * y, C * z⟩ else sampleLateral e rest

open Classical in
/-- `SamplePointOnSurface` (UnplacedEllipsoid.cpp:176-238) with the surface area, the random number for the choice of the face, the pairs for a
point of a cut and the triples for a point of the lateral surface. -/
noncomputable def samplePointOnSurface (e : Struct) (area u : ℝ) (l : List (ℝ × ℝ)) (w : List (ℝ × ℝ × ℝ)) : Option V3 :=
  let A := e.dx
  let B := e.dy
  let C := e.dz
  let Hbot := 1 + e.zBottom / C
  let Htop := 1 - e.zTop / C
  let piAB := π * A * B
  let Sbot := piAB * Hbot * (2 - Hbot)
  let Stop := piAB * Htop * (2 - Htop)
  let select := area * u
  let k := if select > area - Stop then 2 else if select > Sbot then 1 else 0
  if k = 0 then
    let scale := √(Hbot * (2 - Hbot))
    let rho := EllTube.randomPointInEllipse (A * scale) (B * scale) l
    some ⟨rho.1, rho.2, e.zBottom⟩
  else if k = 1 then sampleLateral e w
  else
    let scale := √(Htop * (2 - Htop))
    let rho := EllTube.randomPointInEllipse (A * scale) (B * scale) l
    some ⟨rho.1, rho.2, e.zTop⟩

/-- The vertex in row `i` and column `j` of `CreateMesh3D` with `n` segments (UnplacedEllipsoid.cpp:283-296), before the transformation; the
angles, which the code adds up step by step, are written as products. -/
noncomputable def meshVertex (e : Struct) (n i j : Nat) : V3 :=
  let theta := (e.dz - e.zTop) * π / (2 * e.dz) + i * ((e.zTop - e.zBottom) / (2 * e.dz) * π / n)
  let phi := j * (2 * π / n)
  ⟨e.dx * sin theta * cos phi, e.dy * sin theta * sin phi, e.dz * cos theta⟩

end Ellipsoid
end VecGeom
