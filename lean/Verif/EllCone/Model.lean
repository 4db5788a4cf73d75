import Verif.EllTube.Model

/-!
# The elliptical cone

Model of `VecGeom/volumes/EllipticalConeStruct.h`, `VecGeom/volumes/kernel/EllipticalConeImplementation.h`,
`VecGeom/volumes/UnplacedEllipticalCone.h`, `source/UnplacedEllipticalCone.cpp` and of the part of
`VecGeom/volumes/EllipticUtilities.h` it uses.  Scalar code; `Precision` is `ℝ`.
-/

namespace VecGeom
namespace EllCone

open Real

/-- The members (EllipticalConeStruct.h:21-42) and the bounding box (UnplacedVolume.h); the area is in `surfaceArea` below. -/
structure Struct where
  dx : ℝ
  dy : ℝ
  dz : ℝ
  zcut : ℝ
  volume : ℝ
  rsph : ℝ
  invDx : ℝ
  invDy : ℝ
  cosAxisMin : ℝ
  dApex : ℝ
  bbox : V3 × V3

/-- The values that `CheckParameters` caches (UnplacedEllipticalCone.cpp:43-63). -/
noncomputable def cache (dx dy h zcut : ℝ) (box : V3 × V3) : Struct :=
  let h1 := h - zcut
  let h2 := h + zcut
  let xmax := dx * h2
  let ymax := dy * h2
  let dxymin := min dx dy
  let cosAxisMin := dxymin / √(1 + dxymin * dxymin)
  { dx := dx, dy := dy, dz := h, zcut := zcut
    volume := π * dx * dy * (h2 * h2 * h2 - h1 * h1 * h1) / 3
    rsph := √(xmax * xmax + ymax * ymax + zcut * zcut)
    invDx := 1 / dx
    invDy := 1 / dy
    cosAxisMin := cosAxisMin
    dApex := kHalfTolerance / cosAxisMin
    bbox := box }

open Classical in
/-- `SetParameters` (UnplacedEllipticalCone.h:96-103) with `CheckParameters` (UnplacedEllipticalCone.cpp:27-64).  The bounding box
stays what it was. -/
noncomputable def setParameters (t : Struct) (a b h zcut : ℝ) : Struct :=
  let tol := 2 * kTolerance
  let wrong : Prop := a < tol ∨ b < tol ∨ h < tol ∨ zcut < tol
  let dx := if wrong ∧ a < tol then tol else a
  let dy := if wrong ∧ b < tol then tol else b
  let dz := if wrong ∧ h < tol then tol else h
  let zc := if wrong ∧ zcut < tol then tol else zcut
  cache dx dy dz (min dz zc) t.bbox

/-- `Extent` (UnplacedEllipticalCone.cpp:66-75). -/
def extent (t : Struct) : V3 × V3 :=
  let xmax := t.dx * (t.dz + t.zcut)
  let ymax := t.dy * (t.dz + t.zcut)
  (⟨-xmax, -ymax, -t.zcut⟩, ⟨xmax, ymax, t.zcut⟩)

/-- The constructor (UnplacedEllipticalCone.cpp:19-25), in memory that holds `m`. -/
noncomputable def make (m : Struct) (a b h zcut : ℝ) : Struct :=
  let t := setParameters m a b h zcut
  { t with bbox := extent t }

/-- `Capacity` (UnplacedEllipticalCone.h:108). -/
def capacity (t : Struct) : ℝ := t.volume

/-! ## Contains, Inside and safeties -/

/-- `ds` (EllipticalConeImplementation.h:77-81, 287-291). -/
noncomputable def side (t : Struct) (p : V3) : ℝ :=
  let px := p.x * t.invDx
  let py := p.y * t.invDy
  let hp := √(px * px + py * py) + p.z
  (hp - t.dz) * t.cosAxisMin

/-- `safety` of `GenericKernelForContainsAndInside` (EllipticalConeImplementation.h:77-83). -/
noncomputable def approx (t : Struct) (p : V3) : ℝ := max (side t p) (|p.z| - t.zcut)

open Classical in
/-- `Contains` (EllipticalConeImplementation.h:38-45, 85). -/
noncomputable def contains (t : Struct) (p : V3) : Bool := !decide (approx t p > kHalfTolerance)

open Classical in
/-- `Inside` (EllipticalConeImplementation.h:49-62, 85-86). -/
noncomputable def inside (t : Struct) (p : V3) : Inside :=
  if approx t p ≤ -kHalfTolerance then .inside else if approx t p > kHalfTolerance then .outside else .surface

open Classical in
/-- `SafetyToIn` (EllipticalConeImplementation.h:282-295). -/
noncomputable def safetyToIn (t : Struct) (p : V3) : ℝ :=
  let safety := max (side t p) (|p.z| - t.zcut)
  if |safety| ≤ kHalfTolerance then 0 else safety

open Classical in
/-- `SafetyToOut` (EllipticalConeImplementation.h:297-310). -/
noncomputable def safetyToOut (t : Struct) (p : V3) : ℝ :=
  let px := p.x * t.invDx
  let py := p.y * t.invDy
  let hp := √(px * px + py * py) + p.z
  let ds := (t.dz - hp) * t.cosAxisMin
  let dz := t.zcut - |p.z|
  let safety := min ds dz
  if |safety| ≤ kHalfTolerance then 0 else safety

/-! ## Distances -/

open Classical in
/-- The z component of the direction after it was changed in case the ray is nearly parallel to the surface
(EllipticalConeImplementation.h:132-134, 237-238). -/
noncomputable def tinyA (Ar vz : ℝ) : Bool := decide (|Ar - vz * vz| < 2 * kEpsilon * (vz * vz))

/-- `vz` from there on. -/
noncomputable def bent (Ar vz : ℝ) : ℝ := if tinyA Ar vz then vz + |vz| * (2 * kEpsilon) else vz

open Classical in
/-- `t2` (EllipticalConeImplementation.h:171-172, 263-264): `B` is tested when entering, `B0` when leaving. -/
noncomputable def second (tiny : Bool) (C tmp test B0 : ℝ) : ℝ :=
  if tiny ∧ test ≠ 0 then -C / (2 * B0) else if tmp ≠ 0 then C / tmp else 0

open Classical in
/-- `DistanceToIn` from the moved point on (EllipticalConeImplementation.h:115-192).  `A` is zero for the zero direction only. -/
noncomputable def distanceToInMoved (t : Struct) (p d : V3) (offset : ℝ) : ℝ :=
  let px := p.x * t.invDx
  let py := p.y * t.invDy
  let pz := p.z
  let pz0 := p.z - t.dz
  let vx := d.x * t.invDx
  let vy := d.y * t.invDy
  let Ar := vx * vx + vy * vy
  let Br := px * vx + py * vy
  let Cr := px * px + py * py
  let tiny := tinyA Ar d.z
  let vz := bent Ar d.z
  let A := Ar - vz * vz
  let B := Br - pz0 * vz
  let B0 := Br - pz0 * d.z
  let C := Cr - pz0 * pz0
  let D := B * B - A * C
  let sfz := |pz| - t.zcut
  let sfr := (√Cr + pz0) * t.cosAxisMin
  let nz := if |p.x| + |p.y| < 1 / 10 * kHalfTolerance then 1 else √Cr
  let pzA := pz0 + t.dApex
  if (sfz ≥ -kHalfTolerance ∧ pz * vz ≥ 0) ∨ (sfr ≥ -kHalfTolerance ∧ Br + nz * vz ≥ 0) ∨
      (pz0 * t.cosAxisMin > -kHalfTolerance ∧ Cr - pzA * pzA ≤ 0 ∧ A ≥ 0) then kInfLength
  else
    let D := if sfr ≤ 0 ∧ D < 0 then 0 else D
    if D < 0 ∨ (D < 2 * kEpsilon * B * B ∧ A ≥ 0) then kInfLength
    else
      let invz := -1 / nonZero vz
      let dz := copySign t.zcut invz
      let tzin := (pz - dz) * invz
      let tzout := (pz + dz) * invz
      let tmp := -B - copySign √D B
      let t1 := tmp / A
      let t2 := second tiny C tmp B B0
      let tmin := min t1 t2
      let tmax := max t1 t2
      if A ≥ 0 ∧ pz0 + vz * tmin ≥ 0 then kInfLength
      else
        let trin := if A < 0 then (if vz < 0 then tmax else -kInfLength) else tmin
        let trout := if A < 0 then (if vz > 0 then tmin else kInfLength) else tmax
        let tin := max tzin trin
        let tout := min tzout trout
        if tout - tin ≥ kHalfTolerance then tin + offset else kInfLength

open Classical in
/-- `DistanceToIn` (EllipticalConeImplementation.h:90-193). -/
noncomputable def distanceToIn (t : Struct) (p d : V3) : ℝ :=
  if p.mag2 > 1024 * t.rsph * t.rsph ∧ d.dot p < 0 then
    distanceToInMoved t (V3.at' p d (p.mag - 2 * t.rsph)) d (p.mag - 2 * t.rsph)
  else distanceToInMoved t p d 0

open Classical in
/-- `DistanceToOut` (EllipticalConeImplementation.h:195-280); `kMaximum` is `kInfLength`.  `A` is zero for the zero direction only. -/
noncomputable def distanceToOut (t : Struct) (p d : V3) : ℝ :=
  let px := p.x * t.invDx
  let py := p.y * t.invDy
  let pz := p.z
  let pz0 := pz - t.dz
  let hp := √(px * px + py * py) + pz
  let sfr := (hp - t.dz) * t.cosAxisMin
  let sfz := |pz| - t.zcut
  if max sfr sfz > kHalfTolerance then -1
  else
    let vx := d.x * t.invDx
    let vy := d.y * t.invDy
    let Ar := vx * vx + vy * vy
    let Br := px * vx + py * vy
    let Cr := px * px + py * py
    let tiny := tinyA Ar d.z
    let vz := bent Ar d.z
    let A := Ar - vz * vz
    let B := Br - pz0 * vz
    let B0 := Br - pz0 * d.z
    let C := Cr - pz0 * pz0
    let D := B * B - A * C
    let D := if sfr ≤ 0 ∧ D < 0 then 0 else D
    if D < 0 ∨ (D < 2 * kEpsilon * B * B ∧ A ≥ 0) then 0
    else
      let tzout := if vz ≠ 0 then (copySign t.zcut vz - pz) / d.z else kInfLength
      let tmp := -B - copySign √D B
      let t1 := tmp / A
      let t2 := second tiny C tmp B0 B0
      let tmin := min t1 t2
      let tmax := max t1 t2
      if (A ≥ 0 ∧ pz0 + vz * tmax ≥ 0) ∨ (pz0 ≥ 0 ∧ vz ≥ 0) then 0
      else
        let trout := if A < 0 then (if vz > 0 then tmin else kInfLength) else tmax
        min tzout trout

/-! ## Normal -/

open Classical in
/-- `NormalKernel` (EllipticalConeImplementation.h:312-350) with the flag that says whether the normal is valid. -/
noncomputable def normal (t : Struct) (p : V3) : V3 × Bool :=
  let dz := |p.z| - t.zcut
  let n : V3 := if |dz| ≤ kHalfTolerance then ⟨0, 0, sign p.z⟩ else ⟨0, 0, 0⟩
  let nx := p.x * t.invDx * t.invDx
  let ny := p.y * t.invDy * t.invDy
  let nz := if nx * nx + ny * ny = 0 then 1 else √(p.x * nx + p.y * ny)
  let nside : V3 := ⟨nx, ny, nz⟩
  let ds := (nz + p.z - t.dz) * t.cosAxisMin
  let n := if |ds| ≤ kHalfTolerance then (n + nside.unit).unit else n
  if n.mag2 > 0 then (n, true)
  else if ds > dz then (nside.unit, false) else ({ n with z := sign p.z }, false)

/-! ## Area and sampling -/

/-- `EllipticalConeLateralArea` (EllipticUtilities.h:78-92), with at most `n` rounds of the loop of the elliptic integral. -/
noncomputable def lateralArea (n : Nat) (pA pB pH : ℝ) : Option ℝ :=
  let a := max |pA| |pB|
  let b := min |pA| |pB|
  let aa := a * a
  let bb := b * b
  let hh := |pH| * |pH|
  let e := √(((a - b) * (a + b) * hh) / ((hh + bb) * aa))
  (EllTube.compEllint2 n e).map (2 * a * √(hh + bb) * ·)

/-- `fSurfaceArea` (UnplacedEllipticalCone.cpp:49-52), with at most `n` rounds of that loop. -/
noncomputable def surfaceArea (n : Nat) (t : Struct) : Option ℝ :=
  let h1 := t.dz - t.zcut
  let h2 := t.dz + t.zcut
  (lateralArea n t.dx t.dy 1).map fun s => s * (h2 + h1) * (h2 - h1) + π * t.dx * t.dy * (h2 * h2 + h1 * h1)

open Classical in
/-- The direction in `SamplePointOnLateralSurface` (UnplacedEllipticalCone.cpp:85-105) with the pairs of random numbers for its up to
1000 rounds, of which the last one is taken if no earlier one is accepted; `none` for no rounds. -/
noncomputable def radialDirection (a b h : ℝ) : List (ℝ × ℝ) → Option (ℝ × ℝ)
  | [] => none
  | (u, v) :: rest =>
    let R := max a b
    let muMax := R * √(h * h + R * R)
    let x := cos (2 * π * u)
    let y := sin (2 * π * u)
    let E := h * h + a * a * (x * x) + b * b * (y * y)
    let F := (a * a - b * b) * x * y
    let G := a * a * (y * y) + b * b * (x * x)
    let mu := √(E * G - F * F)
    if muMax * v ≤ mu ∨ rest = [] then some (x, y) else radialDirection a b h rest

/-- `SamplePointOnLateralSurface` (UnplacedEllipticalCone.cpp:77-115). -/
noncomputable def sampleLateral (t : Struct) (l : List (ℝ × ℝ)) (rnd : ℝ) : Option V3 :=
  let zmin := t.dz - t.zcut
  let zmax := t.dz + t.zcut
  let zh := √(rnd * zmax * zmax + (1 - rnd) * zmin * zmin)
  (radialDirection (t.dx * t.dz) (t.dy * t.dz) t.dz l).map fun q => ⟨zh * t.dx * q.1, zh * t.dy * q.2, t.dz - zh⟩

/-- The areas in `SamplePointOnSurface` (UnplacedEllipticalCone.cpp:126-135), of the lower base, the side and the upper base. -/
noncomputable def sampleAreas (n : Nat) (t : Struct) : Option (ℝ × ℝ × ℝ) :=
  let x0 := t.dx * t.dz
  let y0 := t.dy * t.dz
  let kmin := 1 - t.zcut / t.dz
  let kmax := 1 + t.zcut / t.dz
  (lateralArea n x0 y0 t.dz).map fun s0 =>
    (π * x0 * y0 * kmax * kmax, s0 * (kmax * kmax - kmin * kmin), π * x0 * y0 * kmin * kmin)

open Classical in
/-- `SamplePointOnSurface` (UnplacedEllipticalCone.cpp:117-168) with those areas, the random number for the choice, the pairs for the
direction or the point of the ellipse and the number for the height. -/
noncomputable def samplePointOnSurface (t : Struct) (s : ℝ × ℝ × ℝ) (u : ℝ) (l : List (ℝ × ℝ)) (w : ℝ) : Option V3 :=
  let select := (s.1 + s.2.1 + s.2.2) * u
  if select ≤ s.1 then
    let zh := t.dz + t.zcut
    let q := EllTube.randomPointInEllipse (zh * t.dx) (zh * t.dy) l
    some ⟨q.1, q.2, -t.zcut⟩
  else if select ≤ s.1 + s.2.1 then sampleLateral t l w
  else
    let zh := t.dz - t.zcut
    let q := EllTube.randomPointInEllipse (zh * t.dx) (zh * t.dy) l
    some ⟨q.1, q.2, t.zcut⟩

end EllCone
end VecGeom
