import Verif.Base.Halfspace
import Mathlib.Analysis.SpecialFunctions.Trigonometric.Basic
import Mathlib.Analysis.SpecialFunctions.Trigonometric.Arctan
import Mathlib.Analysis.SpecialFunctions.Complex.Arg

/-!
# The general trapezoid

Model of `VecGeom/base/PlaneShell.h`, of `VecGeom/volumes/TrapezoidStruct.h`, of the scalar kernels of
`VecGeom/volumes/kernel/TrapezoidImplementation.h`, of `VecGeom/volumes/UnplacedTrapezoid.h` and of
`source/UnplacedTrapezoid.cpp`, all for the default build, in which the side planes are a `PlaneShell<4>`.  `Precision` is
`ℝ`; `Tan`, `Cos`, `Sin`, `atan` and `atan2` are the real functions.
-/

namespace VecGeom

/-! ## `PlaneShell` -/

namespace PlaneShell

/-- `fA[i] * x + fB[i] * y + fC[i] * z + fD[i]` (PlaneShell.h:114, 139, 176, 236, 268, 286, 337).  The four arrays of the
class are a list of planes, its length is the template argument `N`. -/
def dist (pl : Plane) (p : V3) : ℝ := pl.n.dot p + pl.d

/-- `fA[i] * dx + fB[i] * dy + fC[i] * dz` (PlaneShell.h:126, 177, 237). -/
def proj (pl : Plane) (d : V3) : ℝ := pl.n.dot d

/-- `-pdist[i] / NonZero(proj[i])` (PlaneShell.h:180, 238). -/
noncomputable def vdist (pl : Plane) (p d : V3) : ℝ := -dist pl p / nonZero (proj pl d)

open Classical in
/-- `GenericKernelForContainsAndInside` (PlaneShell.h:133-151): completely inside, completely outside, both combined with
what came in.  `forInside` is the template argument. -/
noncomputable def genericKernel (forInside : Bool) (pls : List Plane) (p : V3) (s : Bool × Bool) : Bool × Bool :=
  pls.foldl (fun s pl =>
    (if forInside then s.1 && decide (dist pl p < 0 - kHalfTolerance) else s.1,
     s.2 || decide (dist pl p > if forInside then 0 + kHalfTolerance else 0))) s

open Classical in
/-- The analysis loop of `DistanceToIn` (PlaneShell.h:191-211), with the early return of the scalar build. -/
noncomputable def inLoop (p d : V3) : List Plane → ℝ → ℝ → ℝ
  | [], smin, smax => if smin ≤ smax then smin else kInfLength
  | pl :: l, smin, smax =>
    let posPoint := dist pl p > 0 - kHalfTolerance
    let posDir := proj pl d > 0
    if ((¬ posPoint ∧ posDir) ∧ vdist pl p d < smin) ∨ ((posPoint ∧ ¬ posDir) ∧ vdist pl p d > smax) then kInfLength
    else inLoop p d l (if (posPoint ∧ ¬ posDir) ∧ vdist pl p d > smin then vdist pl p d else smin)
      (if (¬ posPoint ∧ posDir) ∧ vdist pl p d < smax then vdist pl p d else smax)

open Classical in
/-- `DistanceToIn` (PlaneShell.h:164-213). -/
noncomputable def distanceToIn (pls : List Plane) (p d : V3) (smin smax : ℝ) : ℝ :=
  if ∃ pl ∈ pls, (dist pl p > 0 + kHalfTolerance ∧ proj pl d ≥ 0) ∨ (dist pl p > 0 - kHalfTolerance ∧ proj pl d > 0)
  then kInfLength
  else inLoop p d pls smin smax

open Classical in
/-- `DistanceToOut` (PlaneShell.h:222-257). -/
noncomputable def distanceToOut (pls : List Plane) (p d : V3) : ℝ :=
  pls.foldl (fun m pl =>
    let m := if dist pl p > kHalfTolerance then -1 else m
    if proj pl d > 0 ∧ vdist pl p d < m then vdist pl p d else m) kInfLength

open Classical in
/-- `SafetyToIn` (PlaneShell.h:263-275). -/
noncomputable def safetyToIn (pls : List Plane) (p : V3) (safety : ℝ) : ℝ :=
  pls.foldl (fun m pl => if dist pl p > m then dist pl p else m) safety

open Classical in
/-- `SafetyToOut` (PlaneShell.h:281-293). -/
noncomputable def safetyToOut (pls : List Plane) (p : V3) (safety : ℝ) : ℝ :=
  pls.foldl (fun m pl => if -dist pl p < m then -dist pl p else m) safety

open Classical in
/-- One turn of the loop of `NormalKernel` (PlaneShell.h:335-353): the normal and the safety. -/
noncomputable def normalStep (p : V3) (s : V3 × ℝ) (pl : Plane) : V3 × ℝ :=
  let saf := dist pl p - s.2
  let n := if |saf| < kHalfTolerance ∧ dist pl p ≥ -kHalfTolerance then s.1 + pl.n else s.1
  (if saf > 0 then pl.n else n, if saf > 0 then dist pl p else s.2)

/-- `NormalKernel` (PlaneShell.h:330-358): the normal and the safety, from a normal that comes in. -/
noncomputable def normalKernel (pls : List Plane) (p : V3) (normal : V3) : V3 × ℝ :=
  pls.foldl (normalStep p) (normal, -kInfLength)

end PlaneShell

/-! ## The trapezoid -/

namespace Trapezoid

/-- `TrapezoidStruct` (TrapezoidStruct.h:41-65) without `normals`, which only the build without `PlaneShell` reads. -/
structure State where
  dz : ℝ
  theta : ℝ
  phi : ℝ
  dy1 : ℝ
  dx1 : ℝ
  dx2 : ℝ
  ta1 : ℝ
  dy2 : ℝ
  dx3 : ℝ
  dx4 : ℝ
  ta2 : ℝ
  ttc : ℝ
  tts : ℝ
  pl0 : Plane
  pl1 : Plane
  pl2 : Plane
  pl3 : Plane
  area0 : ℝ
  area1 : ℝ
  area2 : ℝ
  area3 : ℝ
  area4 : ℝ
  area5 : ℝ

/-- `fPlanes` as the list that `PlaneShell` works on. -/
def State.planes (s : State) : List Plane := [s.pl0, s.pl1, s.pl2, s.pl3]

/-- `TrapCorners` (UnplacedTrapezoid.h:42). -/
structure Corners where
  c0 : V3
  c1 : V3
  c2 : V3
  c3 : V3
  c4 : V3
  c5 : V3
  c6 : V3
  c7 : V3

/-- `CalculateCached` (TrapezoidStruct.h:90-94). -/
noncomputable def calculateCached (s : State) : State :=
  { s with ttc := Real.tan s.theta * Real.cos s.phi, tts := Real.tan s.theta * Real.sin s.phi }

/-- `FromParametersToCorners` (UnplacedTrapezoid.cpp:446-464). -/
def fromParametersToCorners (t : State) : Corners :=
  let dxdyDy1 := t.ta1 * t.dy1
  let dxdyDy2 := t.ta2 * t.dy2
  let dxdzDz := t.ttc * t.dz
  let dydzDz := t.tts * t.dz
  ⟨⟨-dxdzDz - dxdyDy1 - t.dx1, -dydzDz - t.dy1, -t.dz⟩, ⟨-dxdzDz - dxdyDy1 + t.dx1, -dydzDz - t.dy1, -t.dz⟩,
   ⟨-dxdzDz + dxdyDy1 - t.dx2, -dydzDz + t.dy1, -t.dz⟩, ⟨-dxdzDz + dxdyDy1 + t.dx2, -dydzDz + t.dy1, -t.dz⟩,
   ⟨dxdzDz - dxdyDy2 - t.dx3, dydzDz - t.dy2, t.dz⟩, ⟨dxdzDz - dxdyDy2 + t.dx3, dydzDz - t.dy2, t.dz⟩,
   ⟨dxdzDz + dxdyDy2 - t.dx4, dydzDz + t.dy2, t.dz⟩, ⟨dxdzDz + dxdyDy2 + t.dx4, dydzDz + t.dy2, t.dz⟩⟩

/-- `Normalize` (Vector3D.h:198): multiplication with the inverse of the length.  A vector of length zero, for which the
code divides by zero, gives the zero vector here; the theorems exclude it. -/
noncomputable def normalize (a : V3) : V3 := V3.smul (1 / a.mag) a

/-- The plane of `MakeAPlane` (UnplacedTrapezoid.cpp:577-582). -/
noncomputable def makeAPlane (p1 p2 p3 p4 : V3) : Plane :=
  let n := normalize (V3.cross (p3 - p1) (p4 - p2))
  let centr := V3.smul 0.25 (p1 + p2 + p3 + p4)
  ⟨n, -n.dot centr⟩

/-- The area stored by `MakeAPlane` (UnplacedTrapezoid.cpp:615). -/
noncomputable def sideArea (p1 p2 p3 p4 : V3) : ℝ :=
  0.5 * ((V3.cross (p2 - p1) (p3 - p1)).mag + (V3.cross (p3 - p1) (p4 - p1)).mag)

open Classical in
/-- The result `good` of `MakeAPlane` in a build with assertions (UnplacedTrapezoid.cpp:585-602). -/
noncomputable def planeGood (p1 p2 p3 p4 : V3) : Bool :=
  let n := normalize (V3.cross (p3 - p1) (p4 - p2))
  let centr := V3.smul 0.25 (p1 + p2 + p3 + p4)
  let resid := max (max |n.dot (p1 - centr)| |n.dot (p2 - centr)|) (max |n.dot (p3 - centr)| |n.dot (p4 - centr)|)
  !decide (resid > 1000 * kTolerance)

/-- `MakePlanes(TrapCorners)` (UnplacedTrapezoid.cpp:629-674): the planes and areas. -/
noncomputable def makePlanesFrom (s : State) (pt : Corners) : State :=
  { s with
    pl0 := makeAPlane pt.c0 pt.c1 pt.c5 pt.c4
    pl1 := makeAPlane pt.c2 pt.c6 pt.c7 pt.c3
    pl2 := makeAPlane pt.c0 pt.c4 pt.c6 pt.c2
    pl3 := makeAPlane pt.c1 pt.c3 pt.c7 pt.c5
    area0 := sideArea pt.c0 pt.c1 pt.c5 pt.c4
    area1 := sideArea pt.c2 pt.c6 pt.c7 pt.c3
    area2 := sideArea pt.c0 pt.c4 pt.c6 pt.c2
    area3 := sideArea pt.c1 pt.c3 pt.c7 pt.c5
    area4 := 2 * (s.dx1 + s.dx2) * s.dy1
    area5 := 2 * (s.dx3 + s.dx4) * s.dy2 }

/-- The result of `MakePlanes(TrapCorners)` (UnplacedTrapezoid.cpp:633-673): `good` is assigned anew for each plane. -/
noncomputable def makePlanesGood (pt : Corners) : Bool :=
  let good := planeGood pt.c0 pt.c1 pt.c5 pt.c4
  let good := let _ := good; planeGood pt.c2 pt.c6 pt.c7 pt.c3
  let good := let _ := good; planeGood pt.c0 pt.c4 pt.c6 pt.c2
  let _ := good
  planeGood pt.c1 pt.c3 pt.c7 pt.c5

/-- `MakePlanes()` (UnplacedTrapezoid.cpp:621-626). -/
noncomputable def makePlanes (s : State) : State := makePlanesFrom s (fromParametersToCorners s)

/-- The constructor of the struct (TrapezoidStruct.h:72-78); `m` stands for the memory found, the planes are zero. -/
noncomputable def initStruct (m : State) (dz theta phi dy1 dx1 dx2 ta1 dy2 dx3 dx4 ta2 : ℝ) : State :=
  calculateCached { m with
    dz := dz, theta := theta, phi := phi, dy1 := dy1, dx1 := dx1, dx2 := dx2, ta1 := ta1, dy2 := dy2, dx3 := dx3,
    dx4 := dx4, ta2 := ta2 }

/-- The full constructor (UnplacedTrapezoid.h:56-64). -/
noncomputable def create (m : State) (dz theta phi dy1 dx1 dx2 alpha1 dy2 dx3 dx4 alpha2 : ℝ) : State :=
  makePlanes (initStruct m dz theta phi dy1 dx1 dx2 (Real.tan alpha1) dy2 dx3 dx4 (Real.tan alpha2))

/-- The constructor with the arguments of a trapezoid of the first kind (UnplacedTrapezoid.cpp:147-153). -/
noncomputable def createTrd1 (m : State) (dx1 dx2 dy dz : ℝ) : State :=
  makePlanes (initStruct m dz 0 0 dy dx1 dx1 0 dy dx2 dx2 0)

/-- The constructor with the arguments of a trapezoid of the second kind (UnplacedTrapezoid.cpp:155-161): it calls the full
constructor and makes the planes once more. -/
noncomputable def createTrd2 (m : State) (dx1 dx2 dy1 dy2 dz : ℝ) : State :=
  makePlanes (create m dz 0 0 dy1 dx1 dx1 0 dy2 dx2 dx2 0)

/-- The constructor with the arguments of a parallelepiped (UnplacedTrapezoid.cpp:163-173). -/
noncomputable def createPara (m : State) (dx dy dz alpha theta phi : ℝ) : State :=
  let s := initStruct m dz theta phi dy dx dx alpha dy dx dx alpha
  makePlanes { s with ta1 := Real.tan alpha, ta2 := Real.tan alpha }

/-- The constructor with the arguments of a box (UnplacedTrapezoid.cpp:175-189). -/
noncomputable def createBox (m : State) (x y z : ℝ) : State := makePlanes (initStruct m z 0 0 y x x 0 y x x 0)

/-- `atan2` of the library. -/
noncomputable def atan2 (y x : ℝ) : ℝ := Complex.arg ⟨x, y⟩

/-- The parameters of `fromCornersToParameters` (UnplacedTrapezoid.cpp:495-514). -/
noncomputable def parametersOf (s : State) (pt : Corners) : State :=
  let dz := pt.c7.z
  let dzRecip := 1.0 / dz
  let dy1 := 0.50 * (pt.c2.y - pt.c0.y)
  let dx1 := 0.50 * (pt.c1.x - pt.c0.x)
  let dx2 := 0.50 * (pt.c3.x - pt.c2.x)
  let ta1 := 0.25 * (pt.c2.x + pt.c3.x - pt.c1.x - pt.c0.x) / dy1
  let dy2 := 0.50 * (pt.c6.y - pt.c4.y)
  let dx3 := 0.50 * (pt.c5.x - pt.c4.x)
  let dx4 := 0.50 * (pt.c7.x - pt.c6.x)
  let ta2 := 0.25 * (pt.c6.x + pt.c7.x - pt.c5.x - pt.c4.x) / dy2
  let ttc := (pt.c4.x + dy2 * ta2 + dx3) * dzRecip
  let tts := (pt.c4.y + dy2) * dzRecip
  { s with
    dz := dz, dy1 := dy1, dx1 := dx1, dx2 := dx2, ta1 := ta1, dy2 := dy2, dx3 := dx3, dx4 := dx4, ta2 := ta2
    ttc := ttc, tts := tts
    theta := Real.arctan (Real.sqrt (tts * tts + ttc * ttc)), phi := atan2 tts ttc }

/-- The constructor from corners (UnplacedTrapezoid.cpp:128-133, 495-521). -/
noncomputable def createCorners (m : State) (pt : Corners) : State := makePlanesFrom (parametersOf m pt) pt

/-- The solids that the factory chooses from, with the arguments of their constructors. -/
inductive Special where
  | box (x y z : ℝ)
  | trd1 (dx1 dx2 dy dz : ℝ)
  | trd2 (dx1 dx2 dy1 dy2 dz : ℝ)
  | para (dx dy dz alpha theta phi : ℝ)
  | general (dz theta phi dy1 dx1 dx2 alpha1 dy2 dx3 dx4 alpha2 : ℝ)

open Classical in
/-- `GetSpecialized` (UnplacedTrapezoid.cpp:99-124). -/
noncomputable def getSpecialized (dz theta phi dy1 dx1 dx2 alpha1 dy2 dx3 dx4 alpha2 : ℝ) : Special :=
  if theta = 0 ∧ phi = 0 ∧ alpha1 = 0 ∧ alpha2 = 0 ∧ dx1 = dx2 ∧ dx2 = dx3 ∧ dx3 = dx4 ∧ dy1 = dy2 then .box dx1 dy1 dz
  else if theta = 0 ∧ phi = 0 ∧ alpha1 = 0 ∧ alpha2 = 0 ∧ dx1 = dx2 ∧ dx3 = dx4 ∧ dx2 ≠ dx3 ∧ dy1 = dy2 then
    .trd1 dx1 dx3 dy1 dz
  else if theta = 0 ∧ phi = 0 ∧ alpha1 = 0 ∧ alpha2 = 0 ∧ dx1 = dx2 ∧ dx3 = dx4 ∧ dx2 ≠ dx3 ∧ dy1 ≠ dy2 then
    .trd2 dx1 dx3 dy1 dy2 dz
  else if alpha1 = alpha2 ∧ dx1 = dx2 ∧ dx2 = dx3 ∧ dx3 = dx4 ∧ dy1 = dy2 then .para dx1 dy1 dz alpha1 theta phi
  else .general dz theta phi dy1 dx1 dx2 alpha1 dy2 dx3 dx4 alpha2

/-- `Maker::MakeInstance(TrapCorners)` (UnplacedTrapezoid.cpp:66-96). -/
noncomputable def makeInstanceCorners (pt : Corners) : Special :=
  let dz := pt.c7.z
  let dzRecip := 1.0 / dz
  let dy1 := 0.50 * (pt.c2.y - pt.c0.y)
  let dx1 := 0.50 * (pt.c1.x - pt.c0.x)
  let dx2 := 0.50 * (pt.c3.x - pt.c2.x)
  let ta1 := 0.25 * (pt.c2.x + pt.c3.x - pt.c1.x - pt.c0.x) / dy1
  let dy2 := 0.50 * (pt.c6.y - pt.c4.y)
  let dx3 := 0.50 * (pt.c5.x - pt.c4.x)
  let dx4 := 0.50 * (pt.c7.x - pt.c6.x)
  let ta2 := 0.25 * (pt.c6.x + pt.c7.x - pt.c5.x - pt.c4.x) / dy2
  let ttc := (pt.c4.x + dy2 * ta2 + dx3) * dzRecip
  let tts := (pt.c4.y + dy2) * dzRecip
  getSpecialized dz (Real.arctan (Real.sqrt (tts * tts + ttc * ttc))) (atan2 tts ttc) dy1 dx1 dx2 (Real.arctan ta1) dy2
    dx3 dx4 (Real.arctan ta2)

/-- The `UnplacedTrapezoid` part of what the factory returns (UnplacedImplAs.h:30-34): it is built with the same arguments as
the solid it is implemented with. -/
noncomputable def Special.base (m : State) : Special → State
  | .box x y z => createBox m x y z
  | .trd1 dx1 dx2 dy dz => createTrd1 m dx1 dx2 dy dz
  | .trd2 dx1 dx2 dy1 dy2 dz => createTrd2 m dx1 dx2 dy1 dy2 dz
  | .para dx dy dz alpha theta phi => createPara m dx dy dz alpha theta phi
  | .general dz theta phi dy1 dx1 dx2 alpha1 dy2 dx3 dx4 alpha2 =>
    create m dz theta phi dy1 dx1 dx2 alpha1 dy2 dx3 dx4 alpha2

/-! ### Setters (UnplacedTrapezoid.h:238-290) -/

/-- `SetTheta` (UnplacedTrapezoid.h:244-249). -/
noncomputable def setTheta (s : State) (v : ℝ) : State := makePlanes (calculateCached { s with theta := v })
/-- `SetPhi` (UnplacedTrapezoid.h:253-258). -/
noncomputable def setPhi (s : State) (v : ℝ) : State := makePlanes (calculateCached { s with phi := v })
/-- `SetDz` (UnplacedTrapezoid.h:240). -/
def setDz (s : State) (v : ℝ) : State := { s with dz := v }
/-- `SetDy1` (UnplacedTrapezoid.h:262). -/
def setDy1 (s : State) (v : ℝ) : State := { s with dy1 := v }
/-- `SetDy2` (UnplacedTrapezoid.h:266). -/
def setDy2 (s : State) (v : ℝ) : State := { s with dy2 := v }
/-- `SetDx1` (UnplacedTrapezoid.h:270). -/
def setDx1 (s : State) (v : ℝ) : State := { s with dx1 := v }
/-- `SetDx2` (UnplacedTrapezoid.h:274). -/
def setDx2 (s : State) (v : ℝ) : State := { s with dx2 := v }
/-- `SetDx3` (UnplacedTrapezoid.h:278). -/
def setDx3 (s : State) (v : ℝ) : State := { s with dx3 := v }
/-- `SetDx4` (UnplacedTrapezoid.h:282). -/
def setDx4 (s : State) (v : ℝ) : State := { s with dx4 := v }
/-- `SetTanAlpha1` (UnplacedTrapezoid.h:286). -/
def setTanAlpha1 (s : State) (v : ℝ) : State := { s with ta1 := v }
/-- `SetTanAlpha2` (UnplacedTrapezoid.h:290). -/
def setTanAlpha2 (s : State) (v : ℝ) : State := { s with ta2 := v }

/-! ### Kernels -/

open Classical in
/-- `GenericKernelForContainsAndInside` (TrapezoidImplementation.h:96-132): completely inside (left as it came in, `false`,
if not asked for), completely outside. -/
noncomputable def genericKernel (forInside : Bool) (s : State) (p : V3) : Bool × Bool :=
  PlaneShell.genericKernel forInside s.planes p
    (if forInside then decide (|p.z| < s.dz - kHalfTolerance) else false,
     decide (|p.z| > if forInside then s.dz + kHalfTolerance else s.dz))

/-- `Contains` (TrapezoidImplementation.h:69-75). -/
noncomputable def contains (s : State) (p : V3) : Bool := !(genericKernel false s p).2

/-- `Inside` (TrapezoidImplementation.h:80-93). -/
noncomputable def inside (s : State) (p : V3) : Inside :=
  let k := genericKernel true s p
  let r := Inside.surface
  let r := if k.2 then Inside.outside else r
  if k.1 then Inside.inside else r

open Classical in
/-- `DistanceToIn` (TrapezoidImplementation.h:148-187). -/
noncomputable def distanceToIn (s : State) (p d : V3) : ℝ :=
  let signZdir := sign d.z
  let max := signZdir * s.dz - p.z
  if signZdir * max < 0 + kHalfTolerance then kInfLength
  else
    let invdir := 1 / nonZero d.z
    let smax := max * invdir
    let smin := -(signZdir * s.dz + p.z) * invdir
    PlaneShell.distanceToIn s.planes p d smin smax

open Classical in
/-- `DistanceToOut` (TrapezoidImplementation.h:241-269). -/
noncomputable def distanceToOut (s : State) (p d : V3) : ℝ :=
  if |p.z| > s.dz + kHalfTolerance then -1
  else
    let distz := (sign d.z * s.dz - p.z) / nonZero d.z
    let distance := if d.z ≠ 0 then distz else kInfLength
    let disttoplanes := PlaneShell.distanceToOut s.planes p d
    if disttoplanes < distance then disttoplanes else distance

/-- `SafetyToIn` (TrapezoidImplementation.h:312-319). -/
noncomputable def safetyToIn (s : State) (p : V3) : ℝ := PlaneShell.safetyToIn s.planes p (|p.z| - s.dz)

/-- `SafetyToOut` (TrapezoidImplementation.h:337-350). -/
noncomputable def safetyToOut (s : State) (p : V3) : ℝ := PlaneShell.safetyToOut s.planes p (s.dz - |p.z|)

open Classical in
/-- `NormalKernel` (TrapezoidImplementation.h:372-426): the normal and the flag `valid`. -/
noncomputable def normalKernel (s : State) (p : V3) : V3 × Bool :=
  let k := PlaneShell.normalKernel s.planes p ⟨0, 0, 0⟩
  let safety := k.2
  let safz := sign p.z * p.z - s.dz
  let normal := if |safz - safety| < kHalfTolerance ∧ safz ≥ -kHalfTolerance then k.1 + ⟨0, 0, sign p.z⟩ else k.1
  let normal := if safz > safety ∧ safz ≥ -kHalfTolerance then ⟨0, 0, sign p.z⟩ else normal
  let safety := if safz > safety then safz else safety
  (if normal.mag2 > 1 then normalize normal else normal, decide (|safety| ≤ 1000 * kTolerance))

/-! ### The rest of the unplaced solid -/

/-- `Capacity` (UnplacedTrapezoid.cpp:191-220). -/
noncomputable def capacity (t : State) : ℝ :=
  t.dz * ((t.dx1 + t.dx2 + t.dx3 + t.dx4) * (t.dy1 + t.dy2) + (t.dx4 + t.dx3 - t.dx2 - t.dx1) * (t.dy2 - t.dy1) / 3.0)

/-- `SurfaceArea` (UnplacedTrapezoid.cpp:258-294). -/
noncomputable def surfaceArea (t : State) : ℝ :=
  let ba : V3 := ⟨t.dx1 - t.dx2 + t.ta1 * 2 * t.dy1, 2 * t.dy1, 0⟩
  let bc : V3 := ⟨2 * t.dz * t.ttc - (t.dx4 - t.dx2) + t.ta2 * t.dy2 - t.ta1 * t.dy1, 2 * t.dz * t.tts + t.dy2 - t.dy1,
    2 * t.dz⟩
  let dc : V3 := ⟨-t.dx4 + t.dx3 + 2 * t.ta2 * t.dy2, 2 * t.dy2, 0⟩
  let da : V3 := ⟨-2 * t.dz * t.ttc - (t.dx1 - t.dx3) - t.ta1 * t.dy1 + t.ta2 * t.dy2,
    -2 * t.dz * t.tts - t.dy1 + t.dy2, -2 * t.dz⟩
  let ef : V3 := ⟨t.dx2 - t.dx1 + 2 * t.ta1 * t.dy1, 2 * t.dy1, 0⟩
  let eh : V3 := ⟨2 * t.dz * t.ttc + t.dx3 - t.dx1 + t.ta1 * t.dy1 - t.ta2 * t.dy2, 2 * t.dz * t.tts - t.dy2 + t.dy1,
    2 * t.dz⟩
  let gh : V3 := ⟨t.dx3 - t.dx4 - 2 * t.ta2 * t.dy2, -2 * t.dy2, 0⟩
  let gf : V3 := ⟨-2 * t.dz * t.ttc + t.dx2 - t.dx4 + t.ta1 * t.dy1 - t.ta2 * t.dy2, -2 * t.dz * t.tts + t.dy1 - t.dy2,
    -2 * t.dz⟩
  let babc := (V3.cross ba bc).mag
  let dcda := (V3.cross dc da).mag
  let efeh := (V3.cross ef eh).mag
  let ghgf := (V3.cross gh gf).mag
  2 * t.dy1 * (t.dx1 + t.dx2) + 2 * t.dy2 * (t.dx3 + t.dx4) +
    (t.dx1 + t.dx3) * Real.sqrt (4 * t.dz * t.dz + (t.dy2 - t.dy1 - 2 * t.dz * t.tts) ^ 2) +
    (t.dx2 + t.dx4) * Real.sqrt (4 * t.dz * t.dz + (t.dy2 - t.dy1 + 2 * t.dz * t.tts) ^ 2) +
    0.5 * (babc + dcda + efeh + ghgf)

/-- `fromPlanesToCorners` (UnplacedTrapezoid.cpp:467-492). -/
noncomputable def fromPlanesToCorners (t : State) : Corners :=
  let y01 := -(t.pl0.d - t.dz * t.pl0.n.z) / t.pl0.n.y
  let y23 := -(t.pl1.d - t.dz * t.pl1.n.z) / t.pl1.n.y
  let y45 := -(t.pl0.d + t.dz * t.pl0.n.z) / t.pl0.n.y
  let y67 := -(t.pl1.d + t.dz * t.pl1.n.z) / t.pl1.n.y
  let x0 := ((t.pl2.n.y / t.pl0.n.y) * (t.pl0.d - t.dz * t.pl0.n.z) - (t.pl2.d - t.dz * t.pl2.n.z)) / t.pl2.n.x
  let x1 := ((t.pl3.n.y / t.pl0.n.y) * (t.pl0.d - t.dz * t.pl0.n.z) - (t.pl3.d - t.dz * t.pl3.n.z)) / t.pl3.n.x
  let x2 := ((t.pl2.n.y / t.pl1.n.y) * (t.pl1.d - t.dz * t.pl1.n.z) - (t.pl2.d - t.dz * t.pl2.n.z)) / t.pl2.n.x
  let x3 := ((t.pl3.n.y / t.pl1.n.y) * (t.pl1.d - t.dz * t.pl1.n.z) - (t.pl3.d - t.dz * t.pl3.n.z)) / t.pl3.n.x
  let x4 := ((t.pl2.n.y / t.pl0.n.y) * (t.pl0.d + t.dz * t.pl0.n.z) - (t.pl2.d + t.dz * t.pl2.n.z)) / t.pl2.n.x
  let x5 := ((t.pl3.n.y / t.pl0.n.y) * (t.pl0.d + t.dz * t.pl0.n.z) - (t.pl3.d + t.dz * t.pl3.n.z)) / t.pl3.n.x
  let x6 := ((t.pl2.n.y / t.pl1.n.y) * (t.pl1.d + t.dz * t.pl1.n.z) - (t.pl2.d + t.dz * t.pl2.n.z)) / t.pl2.n.x
  let x7 := ((t.pl3.n.y / t.pl1.n.y) * (t.pl1.d + t.dz * t.pl1.n.z) - (t.pl3.d + t.dz * t.pl3.n.z)) / t.pl3.n.x
  ⟨⟨x0, y01, -t.dz⟩, ⟨x1, y01, -t.dz⟩, ⟨x2, y23, -t.dz⟩, ⟨x3, y23, -t.dz⟩, ⟨x4, y45, t.dz⟩, ⟨x5, y45, t.dz⟩,
   ⟨x6, y67, t.dz⟩, ⟨x7, y67, t.dz⟩⟩

/-- `Extent` (UnplacedTrapezoid.cpp:297-335): lower and upper corner. -/
noncomputable def extent (t : State) : V3 × V3 :=
  let pt := fromPlanesToCorners t
  (⟨min (min (min pt.c0.x pt.c1.x) (min pt.c2.x pt.c3.x)) (min (min pt.c4.x pt.c5.x) (min pt.c6.x pt.c7.x)),
    min (min (min pt.c0.y pt.c1.y) (min pt.c2.y pt.c3.y)) (min (min pt.c4.y pt.c5.y) (min pt.c6.y pt.c7.y)), -t.dz⟩,
   ⟨max (max (max pt.c0.x pt.c1.x) (max pt.c2.x pt.c3.x)) (max (max pt.c4.x pt.c5.x) (max pt.c6.x pt.c7.x)),
    max (max (max pt.c0.y pt.c1.y) (max pt.c2.y pt.c3.y)) (max (max pt.c4.y pt.c5.y) (max pt.c6.y pt.c7.y)), t.dz⟩)

open Classical in
/-- `GetPointOnPlane` (UnplacedTrapezoid.cpp:380-411); `u0`, `u1`, `u2` are the numbers in `[0, 1)` behind the three calls
`uniform(0, aOne + aTwo)`, `uniform(0, 1)`, `uniform(0, lambda1)`. -/
noncomputable def getPointOnPlane (p0 p1 p2 p3 : V3) (u0 u1 u2 : ℝ) : V3 :=
  let t := p1 - p0
  let u := p2 - p1
  let v := p3 - p2
  let w := p0 - p3
  let aOne := 0.5 * (V3.cross w v).mag
  let aTwo := 0.5 * (V3.cross t u).mag
  let chose := u0 * (aOne + aTwo)
  let lambda1 := u1
  let lambda2 := u2 * lambda1
  if chose ≥ 0 ∧ chose < aOne then p2 + V3.smul lambda1 v + V3.smul lambda2 w
  else p0 + V3.smul lambda1 t + V3.smul lambda2 u

open Classical in
/-- `SamplePointOnSurface` (UnplacedTrapezoid.cpp:338-378); `u` is the first random number, `u0`, `u1`, `u2` those of
`GetPointOnPlane`. -/
noncomputable def samplePointOnSurface (t : State) (u u0 u1 u2 : ℝ) : V3 :=
  let pt := fromPlanesToCorners t
  let chose := u * surfaceArea t
  let sumArea := 0
  if chose ≥ sumArea ∧ chose < sumArea + t.area0 then getPointOnPlane pt.c0 pt.c1 pt.c5 pt.c4 u0 u1 u2
  else
  let sumArea := sumArea + t.area0
  if chose ≥ sumArea ∧ chose < sumArea + t.area1 then getPointOnPlane pt.c2 pt.c6 pt.c7 pt.c3 u0 u1 u2
  else
  let sumArea := sumArea + t.area1
  if chose ≥ sumArea ∧ chose < sumArea + t.area2 then getPointOnPlane pt.c0 pt.c4 pt.c6 pt.c2 u0 u1 u2
  else
  let sumArea := sumArea + t.area2
  if chose ≥ sumArea ∧ chose < sumArea + t.area3 then getPointOnPlane pt.c1 pt.c3 pt.c7 pt.c5 u0 u1 u2
  else
  let sumArea := sumArea + t.area3
  if chose ≥ sumArea ∧ chose < sumArea + t.area4 then getPointOnPlane pt.c0 pt.c2 pt.c3 pt.c1 u0 u1 u2
  else
  let sumArea := sumArea + t.area4
  if chose ≥ sumArea ∧ chose < sumArea + t.area5 then getPointOnPlane pt.c4 pt.c5 pt.c7 pt.c6 u0 u1 u2
  else ⟨0, 0, 0⟩

end Trapezoid
end VecGeom
