import Verif.Base.Halfspace
import Mathlib.Analysis.SpecialFunctions.Trigonometric.Basic

/-!
# The parallelepiped

Model of `VecGeom/volumes/ParallelepipedStruct.h`, of the scalar kernels of
`VecGeom/volumes/kernel/ParallelepipedImplementation.h`, of `VecGeom/volumes/UnplacedParallelepiped.h` and of
`source/UnplacedParallelepiped.cpp`.  `Precision` is `ℝ`; `Tan`, `Cos` and `Sin` are the real functions.
-/

namespace VecGeom
namespace Para

/-- `ParallelepipedStruct` (ParallelepipedStruct.h:20-33): the parameters and the values computed from them. -/
structure State where
  dims : V3
  alpha : ℝ
  theta : ℝ
  phi : ℝ
  ctx : ℝ
  cty : ℝ
  area0 : ℝ
  area1 : ℝ
  area2 : ℝ
  n0 : V3
  n1 : V3
  n2 : V3
  tanAlpha : ℝ
  tanThetaSinPhi : ℝ
  tanThetaCosPhi : ℝ
  cosTheta : ℝ

/-- `Normalize` (Vector3D.h:198): multiplication with the inverse of the length.  A division by zero, which the callers
here exclude because one component is one, is not modelled. -/
noncomputable def normalize (a : V3) : V3 := V3.smul (1 / a.mag) a

/-- `ComputeNormals` (ParallelepipedStruct.h:101-116). -/
noncomputable def computeNormals (s : State) : State :=
  let vx : V3 := ⟨1, 0, 0⟩
  let vy : V3 := ⟨s.tanAlpha, 1, 0⟩
  let vz : V3 := ⟨s.tanThetaCosPhi, s.tanThetaSinPhi, 1⟩
  let m0 := V3.cross vy vz
  let m1 := V3.cross vz vx
  { s with
    n0 := normalize m0
    n1 := normalize m1
    n2 := ⟨0, 0, 1⟩
    area0 := 4 * s.dims.y * s.dims.z * m0.mag
    area1 := 4 * s.dims.z * s.dims.x * m1.mag
    area2 := 4 * s.dims.x * s.dims.y
    ctx := |(normalize m0).x|
    cty := |(normalize m1).y| }

/-- `SetAlpha` (ParallelepipedStruct.h:68-73, UnplacedParallelepiped.h:148). -/
noncomputable def setAlpha (s : State) (alpha : ℝ) : State :=
  computeNormals { s with alpha := alpha, tanAlpha := Real.tan alpha }

/-- `SetThetaAndPhi` (ParallelepipedStruct.h:89-97, UnplacedParallelepiped.h:164). -/
noncomputable def setThetaAndPhi (s : State) (theta phi : ℝ) : State :=
  computeNormals { s with
    theta := theta
    phi := phi
    tanThetaCosPhi := Real.tan theta * Real.cos phi
    tanThetaSinPhi := Real.tan theta * Real.sin phi
    cosTheta := Real.cos theta }

/-- `SetTheta` (ParallelepipedStruct.h:78, UnplacedParallelepiped.h:153). -/
noncomputable def setTheta (s : State) (theta : ℝ) : State := setThetaAndPhi s theta s.phi

/-- `SetPhi` (ParallelepipedStruct.h:83, UnplacedParallelepiped.h:158). -/
noncomputable def setPhi (s : State) (phi : ℝ) : State := setThetaAndPhi s s.theta phi

/-- `SetDimensions` (UnplacedParallelepiped.h:136, 143). -/
def setDimensions (s : State) (dims : V3) : State := { s with dims := dims }

/-- The constructors of the struct (ParallelepipedStruct.h:41-63).  `fAreas`, `fNormals` and `fCosTheta` are not
initialised before `SetAlpha` and `SetThetaAndPhi` set them; `s` stands for the memory found. -/
noncomputable def init (s : State) (dims : V3) (alpha theta phi : ℝ) : State :=
  let s := { s with
    dims := dims, alpha := 0, theta := 0, phi := 0, ctx := 0, cty := 0, tanAlpha := 0, tanThetaSinPhi := 0,
    tanThetaCosPhi := 0 }
  setThetaAndPhi (setAlpha s alpha) theta phi

/-- `Transform` (ParallelepipedImplementation.h:39-44): the oblique coordinates of a point. -/
def transform (s : State) (p : V3) : V3 :=
  let y := p.y - s.tanThetaSinPhi * p.z
  let x := p.x - (s.tanThetaCosPhi * p.z + s.tanAlpha * y)
  ⟨x, y, p.z⟩

/-- `SafetyVector` (ParallelepipedImplementation.h:47-54). -/
def safetyVector (s : State) (p : V3) : V3 :=
  let safety := p.vabs - s.dims
  ⟨safety.x * s.ctx, safety.y * s.cty, safety.z⟩

open Classical in
/-- `Contains` (ParallelepipedImplementation.h:57-66). -/
noncomputable def contains (s : State) (p : V3) : Bool :=
  decide ((safetyVector s (transform s p)).maxc < 0)

open Classical in
/-- `Inside` (ParallelepipedImplementation.h:69-80). -/
noncomputable def inside (s : State) (p : V3) : Inside :=
  let safety := (safetyVector s (transform s p)).maxc
  let r := if safety < 0 then Inside.inside else Inside.outside
  if |safety| < kHalfTolerance then Inside.surface else r

open Classical in
/-- `SafetyToIn` (ParallelepipedImplementation.h:83-93). -/
noncomputable def safetyToIn (s : State) (p : V3) : ℝ :=
  let safety := (safetyVector s (transform s p)).maxc
  if |safety| < kHalfTolerance then 0 else safety

open Classical in
/-- `SafetyToOut` (ParallelepipedImplementation.h:96-106). -/
noncomputable def safetyToOut (s : State) (p : V3) : ℝ :=
  let safety := -(safetyVector s (transform s p)).maxc
  if |safety| < kHalfTolerance then 0 else safety

open Classical in
/-- `DistanceToIn` (ParallelepipedImplementation.h:109-143).  The sign of `1 / NonZero(v)` is taken as the code takes it. -/
noncomputable def distanceToIn (s : State) (point direction : V3) : ℝ :=
  let p := transform s point
  let v := transform s direction
  let safety := safetyVector s p
  let leaving : Prop :=
    (safety.x ≥ -kHalfTolerance ∧ p.x * v.x ≥ 0) ∨
    (safety.y ≥ -kHalfTolerance ∧ p.y * v.y ≥ 0) ∨
    (safety.z ≥ -kHalfTolerance ∧ p.z * v.z ≥ 0)
  let invDir := v.nonZero.inv
  let signDir := invDir.sgn
  let temp := signDir.mul s.dims
  let distIn := ((temp.neg - p).mul invDir).maxc
  let distOut := ((temp - p).mul invDir).minc
  if ¬ leaving ∧ distOut > distIn + kHalfTolerance then distIn else kInfLength

open Classical in
/-- `DistanceToOut` (ParallelepipedImplementation.h:146-168). -/
noncomputable def distanceToOut (s : State) (point direction : V3) : ℝ :=
  let p := transform s point
  let v := transform s direction
  let safety := safetyVector s p
  let dir := v.nonZero
  let signDir := dir.sgn
  let t := signDir.mul s.dims - p
  let distance := (V3.mk (t.x / dir.x) (t.y / dir.y) (t.z / dir.z)).minc
  if safety.maxc > kHalfTolerance then -1 else distance

open Classical in
/-- `NormalKernel` (ParallelepipedImplementation.h:171-207): the normal and the flag `valid`. -/
noncomputable def normalKernel (s : State) (point : V3) : V3 × Bool :=
  let p := transform s point
  let safety := safetyVector s p
  let signs := p.sgn
  let normal : V3 := ⟨0, 0, 0⟩
  let normal := if |safety.z| ≤ kHalfTolerance then ⟨0, 0, signs.z⟩ else normal
  let normal := if |safety.y| ≤ kHalfTolerance then normal + V3.smul signs.y s.n1 else normal
  let normal := if |safety.x| ≤ kHalfTolerance then normal + V3.smul signs.x s.n0 else normal
  let mag2 := normal.mag2
  let normal := if mag2 > 1 then normal.unit else normal
  if mag2 > 0 then (normal, true)
  else
    let valid := decide (¬ mag2 = 0)
    let m := safety.maxc
    let normal := V3.smul signs.x s.n0
    let normal := if safety.y = m then V3.smul signs.y s.n1 else normal
    let normal := if safety.z = m then V3.smul signs.z s.n2 else normal
    (normal, valid)

/-- `volume` and `Capacity` (UnplacedParallelepiped.h:180, 182). -/
noncomputable def capacity (s : State) : ℝ := 8 * s.dims.x * s.dims.y * s.dims.z

/-- `SurfaceArea` (UnplacedParallelepiped.h:186). -/
noncomputable def surfaceArea (s : State) : ℝ := 2 * (s.area0 + s.area1 + s.area2)

/-- `Extent` (UnplacedParallelepiped.cpp:79-88). -/
noncomputable def extent (s : State) : V3 × V3 :=
  let dx := s.dims.x + s.dims.y * |s.tanAlpha| + s.dims.z * |s.tanThetaCosPhi|
  let dy := s.dims.y + s.dims.z * |s.tanThetaSinPhi|
  let dz := s.dims.z
  (⟨-dx, -dy, -dz⟩, ⟨dx, dy, dz⟩)

open Classical in
/-- The selection of a facet in `SamplePointOnSurface` (UnplacedParallelepiped.cpp:94-109). -/
noncomputable def sampleFacet (s : State) (u : ℝ) : Nat :=
  let surf0 := s.area0
  let surf1 := surf0 + s.area0
  let surf2 := surf1 + s.area1
  let surf3 := surf2 + s.area1
  let surf4 := surf3 + s.area2
  let surf5 := surf4 + s.area2
  let select := surf5 * u
  let isurf := 5
  let isurf := if select ≤ surf4 then 4 else isurf
  let isurf := if select ≤ surf3 then 3 else isurf
  let isurf := if select ≤ surf2 then 2 else isurf
  let isurf := if select ≤ surf1 then 1 else isurf
  if select ≤ surf0 then 0 else isurf

/-- The three corners of the facet in `SamplePointOnSurface` (UnplacedParallelepiped.cpp:112-152). -/
def sampleCorners (s : State) (isurf : Nat) : V3 × V3 × V3 :=
  let dx := s.dims.x
  let dy := s.dims.y
  let dz := s.dims.z
  let a := dy * s.tanAlpha
  let c := dz * s.tanThetaCosPhi
  let e := dz * s.tanThetaSinPhi
  match isurf with
  | 0 => (⟨-c - a - dx, -e - dy, -dz⟩, ⟨-c + a - dx, -e + dy, -dz⟩, ⟨c - a - dx, e - dy, dz⟩)
  | 1 => (⟨-c - a + dx, -e - dy, -dz⟩, ⟨c - a + dx, e - dy, dz⟩, ⟨-c + a + dx, -e + dy, -dz⟩)
  | 2 => (⟨-c - a - dx, -e - dy, -dz⟩, ⟨c - a - dx, e - dy, dz⟩, ⟨-c - a + dx, -e - dy, -dz⟩)
  | 3 => (⟨-c + a - dx, -e + dy, -dz⟩, ⟨-c + a + dx, -e + dy, -dz⟩, ⟨c + a - dx, e + dy, dz⟩)
  | 4 => (⟨-c - a - dx, -e - dy, -dz⟩, ⟨-c - a + dx, -e - dy, -dz⟩, ⟨-c + a - dx, -e + dy, -dz⟩)
  | _ => (⟨c - a - dx, e - dy, dz⟩, ⟨c + a - dx, e + dy, dz⟩, ⟨c - a + dx, e - dy, dz⟩)

/-- `SamplePointOnSurface` (UnplacedParallelepiped.cpp:91-156).  `u0`, `u`, `v` are the results of the three calls of
`uniform`. -/
noncomputable def samplePointOnSurface (s : State) (u0 u v : ℝ) : V3 :=
  let c := sampleCorners s (sampleFacet s u0)
  c.1 + V3.smul u (c.2.1 - c.1) + V3.smul v (c.2.2 - c.1)

open Classical in
/-- The edges `a`, `b`, `c` in `CreateMesh3D` (UnplacedParallelepiped.cpp:26-41); `none` if the code divides by zero or
takes the root of a negative number. -/
noncomputable def meshEdges (s : State) : Option (V3 × V3 × V3) :=
  let dx := s.dims.x * 2
  let dy := s.dims.y * 2
  let dz := s.dims.z * 2
  let gamma := s.phi
  let alpha := s.theta
  let beta := s.alpha
  if Real.sin gamma = 0 then none
  else
    let m := (Real.cos alpha - Real.cos beta * Real.cos gamma) / Real.sin gamma
    let r := 1 - Real.cos beta * Real.cos beta - m * m
    if r < 0 then none
    else some (⟨dx, 0, 0⟩, ⟨dy * Real.cos gamma, dy * Real.sin gamma, 0⟩,
      ⟨dz * Real.cos beta, dz * m, dz * Real.sqrt r⟩)

/-- The vertices of the mesh before the transformation (UnplacedParallelepiped.cpp:43-48). -/
noncomputable def meshVertices (s : State) : Option (List V3) :=
  (meshEdges s).map fun (a, b, c) =>
    let origin := V3.smul 0.5 (a + b + c)
    [a, a + b, a + b + c, a + c, ⟨0, 0, 0⟩, b, b + c, c].map (· - origin)

/-- The solid with its cached bounding box (UnplacedVolume.h). -/
structure Solid where
  para : State
  bbox : V3 × V3

/-- The constructors with parameters (UnplacedParallelepiped.h:49-72), which end with `ComputeBBox`. -/
noncomputable def create (m : State) (dims : V3) (alpha theta phi : ℝ) : Solid :=
  let s := init m dims alpha theta phi
  ⟨s, extent s⟩

/-- The setters of the solid (UnplacedParallelepiped.h:136-164). -/
inductive Setter where
  | dims (d : V3)
  | alpha (a : ℝ)
  | theta (a : ℝ)
  | phi (a : ℝ)
  | thetaAndPhi (t p : ℝ)

/-- The effect of a setter (UnplacedParallelepiped.h:136-164). -/
noncomputable def set (s : Solid) : Setter → Solid
  | .dims d => { s with para := setDimensions s.para d }
  | .alpha a => { s with para := setAlpha s.para a }
  | .theta a => { s with para := setTheta s.para a }
  | .phi a => { s with para := setPhi s.para a }
  | .thetaAndPhi t p => { s with para := setThetaAndPhi s.para t p }

end Para
end VecGeom
