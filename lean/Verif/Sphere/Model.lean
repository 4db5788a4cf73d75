import Verif.Sphere.Theta
import Mathlib.Analysis.SpecialFunctions.Trigonometric.Inverse

/-!
# The sphere

Model of `VecGeom/volumes/SphereStruct.h`, of containment and the safeties in `VecGeom/volumes/kernel/SphereImplementation.h` and of
`VecGeom/volumes/UnplacedSphere.h` and `source/UnplacedSphere.cpp`; scalar code, `Precision` being `ℝ`.  Distances are in
`Verif/Sphere/Dist.lean`, where only the path of the full shell is modelled.
-/

namespace VecGeom
namespace Sphere

open Real
open Tube (plusTolerantSquare minusTolerantSquare)

/-- The members that are used after construction (SphereStruct.h:22-53): parameters, flags, the two sectors, and the cached volume and
area.  The cached sines and cosines are those of the members of the same name at the time of the last `Check...Angles`. -/
structure Sph where
  rmin : ℝ
  rmax : ℝ
  sPhi : ℝ
  dPhi : ℝ
  sTheta : ℝ
  dTheta : ℝ
  eTheta : ℝ
  sinS : ℝ
  cosS : ℝ
  sinE : ℝ
  cosE : ℝ
  fullPhi : Bool
  fullTheta : Bool
  full : Bool
  volume : ℝ
  area : ℝ
  wedge : Wedge
  cone : ThetaCone

/-- `kAngTolerance` (SphereStruct.h:294). -/
noncomputable def angTol : ℝ := 1 / 10 ^ 9

/-- `std::fmod` for a non-negative first argument. -/
noncomputable def fmod (x y : ℝ) : ℝ := x - y * ⌊x / y⌋

open Classical in
/-- `CheckSPhiAngle` (SphereStruct.h:131-143). -/
noncomputable def checkSPhi (t : Sph) (sPhi : ℝ) : Sph :=
  let s := if sPhi < 0 then 2 * π - fmod |sPhi| (2 * π) else fmod sPhi (2 * π)
  { t with sPhi := if s + t.dPhi > 2 * π then s - 2 * π else s }

open Classical in
/-- `CheckDPhiAngle` (SphereStruct.h:147-172). -/
noncomputable def checkDPhi (t : Sph) (dPhi : ℝ) : Sph :=
  if dPhi ≥ 2 * π - angTol * (1 / 2) then { t with dPhi := 2 * π, sPhi := 0, fullPhi := true }
  else { t with fullPhi := false, dPhi := if dPhi > 0 then dPhi else t.dPhi }

/-- `CheckPhiAngles` (SphereStruct.h:176-186), without the cached trigonometry of azimuths. -/
noncomputable def checkPhi (t : Sph) (sPhi dPhi : ℝ) : Sph :=
  let t := checkDPhi t dPhi
  let t := if !t.fullPhi then checkSPhi t sPhi else t
  { t with full := t.fullPhi && t.fullTheta }

open Classical in
/-- `CheckThetaAngles` (SphereStruct.h:92-127) with `InitializeThetaTrigonometry` (SphereStruct.h:73-88). -/
noncomputable def checkTheta (t : Sph) (sTheta dTheta : ℝ) : Sph :=
  let t := if sTheta < 0 ∨ sTheta > π then t else { t with sTheta := sTheta }
  let t := if dTheta + sTheta ≥ π then { t with dTheta := π - sTheta } else if dTheta > 0 then { t with dTheta := dTheta } else t
  let t := { t with fullTheta := decide (¬ t.dTheta - t.sTheta < π) }
  let t := { t with full := t.fullPhi && t.fullTheta }
  let e := t.sTheta + t.dTheta
  { t with eTheta := e, sinS := sin t.sTheta, cosS := cos t.sTheta, sinE := sin e, cosE := cos e }

open Classical in
/-- `CalcCapacity` (SphereStruct.h:313-321). -/
noncomputable def calcCapacity (t : Sph) : Sph :=
  if t.volume ≠ 0 then t
  else { t with volume := t.dPhi * (cos t.sTheta - cos (t.sTheta + t.dTheta)) *
    (t.rmax * t.rmax * t.rmax - t.rmin * t.rmin * t.rmin) / 3 }

open Classical in
/-- The term for one of the cones in `CalcSurfaceArea` (SphereStruct.h:337-346, 347-356). -/
noncomputable def coneTerm (dPhi sn cs w : ℝ) : ℝ :=
  let acos1 := if dPhi ≠ 2 * π then arccos (sn * sn * cos dPhi + cs * cs) else 0
  if dPhi > π then 1 / 2 * w * (2 * π - acos1) else 1 / 2 * w * acos1

open Classical in
/-- `CalcSurfaceArea` (SphereStruct.h:324-358). -/
noncomputable def calcArea (t : Sph) : Sph :=
  if t.area ≠ 0 then t
  else
    let Rsq := t.rmax * t.rmax
    let rsq := t.rmin * t.rmin
    let s := t.dPhi * (rsq + Rsq) * (t.cosS - t.cosE)
    let s := if !t.fullPhi then s + t.dTheta * (Rsq - rsq) else s
    let s := if t.sTheta > 0 then s + coneTerm t.dPhi t.sinS t.cosS (Rsq - rsq) else s
    let s := if t.eTheta < π then s + coneTerm t.dPhi t.sinE t.cosE (Rsq - rsq) else s
    { t with area := s }

/-- The constructor (SphereStruct.h:285-304).  The two sectors are made of the arguments as they are. -/
noncomputable def make (rmin rmax sPhi dPhi sTheta dTheta : ℝ) : Sph :=
  let t : Sph := { rmin := rmin, rmax := rmax, sPhi := sPhi, dPhi := dPhi, sTheta := sTheta, dTheta := dTheta, eTheta := 0
                   sinS := 0, cosS := 0, sinE := 0, cosE := 0, fullPhi := true, fullTheta := true, full := true, volume := 0, area := 0
                   wedge := Wedge.make dPhi sPhi, cone := ThetaCone.make sTheta dTheta }
  calcArea (calcCapacity (checkTheta (checkPhi t sPhi dPhi) sTheta dTheta))

/-- What the factory makes. -/
inductive Made where
  | orb (R : ℝ)
  | sphere (t : Sph)

open Classical in
/-- `Maker<UnplacedSphere>::MakeInstance` (UnplacedSphere.cpp:287-298). -/
noncomputable def maker (rmin rmax sPhi dPhi sTheta dTheta : ℝ) : Made :=
  if rmin = 0 ∧ dPhi ≥ 2 * π ∧ dTheta = π then .orb rmax else .sphere (make rmin rmax sPhi dPhi sTheta dTheta)

/-- `Initialize` (SphereStruct.h:276-280), `CalcCapacity` and `CalcSurfaceArea` as the setters call them. -/
noncomputable def recalc (t : Sph) : Sph := calcArea (calcCapacity { t with volume := 0, area := 0 })

/-- `SetInsideRadius` (SphereStruct.h:190-199), without the tolerance, which nothing reads. -/
noncomputable def setInsideRadius (t : Sph) (r : ℝ) : Sph := recalc { t with rmin := r }

/-- `SetOuterRadius` (SphereStruct.h:207-217). -/
noncomputable def setOuterRadius (t : Sph) (r : ℝ) : Sph := recalc { t with rmax := r }

/-- `SetStartPhiAngle` (SphereStruct.h:221-236). -/
noncomputable def setStartPhi (t : Sph) (s : ℝ) : Sph := recalc { checkSPhi t s with fullPhi := false }

/-- `SetDeltaPhiAngle` (SphereStruct.h:240-248). -/
noncomputable def setDeltaPhi (t : Sph) (d : ℝ) : Sph := recalc (checkPhi t t.sPhi d)

/-- `SetStartThetaAngle` (SphereStruct.h:252-260). -/
noncomputable def setStartTheta (t : Sph) (s : ℝ) : Sph := recalc (checkTheta t s t.dTheta)

/-- `SetDeltaThetaAngle` (SphereStruct.h:264-272). -/
noncomputable def setDeltaTheta (t : Sph) (d : ℝ) : Sph := recalc (checkTheta t t.sTheta d)

/-- `Capacity` (UnplacedSphere.h:234). -/
def capacity (t : Sph) : ℝ := t.volume

/-- `SurfaceArea` (UnplacedSphere.h:237). -/
def surfaceArea (t : Sph) : ℝ := t.area

/-- Radially inside (SphereImplementation.h:68-72). -/
def RadialIn (t : Sph) (p : V3) : Prop :=
  p.mag2 ≤ minusTolerantSquare true t.rmax ∧ (t.rmin ≠ 0 → p.mag2 ≥ plusTolerantSquare true t.rmin)

/-- Radially outside (SphereImplementation.h:74-78). -/
def RadialOut (t : Sph) (p : V3) : Prop :=
  p.mag2 ≥ plusTolerantSquare true t.rmax ∨ (t.rmin ≠ 0 ∧ p.mag2 ≤ minusTolerantSquare true t.rmin)

/-- `completelyinside` of `GenericKernelForContainsAndInside<Real_v, Bool_v, true>` (SphereImplementation.h:60-106). -/
noncomputable def KernelIn (t : Sph) (p : V3) : Prop :=
  RadialIn t p ∧ (t.fullPhi = false → t.wedge.CompletelyInside p) ∧ (t.fullTheta = false → t.cone.CompletelyInside p)

/-- `completelyoutside` of `GenericKernelForContainsAndInside` (SphereImplementation.h:60-106). -/
noncomputable def KernelOut (forInside : Bool) (t : Sph) (p : V3) : Prop :=
  RadialOut t p ∨ (t.fullPhi = false ∧ t.wedge.CompletelyOutside forInside p) ∨ (t.fullTheta = false ∧ t.cone.CompletelyOutside p)

open Classical in
/-- `Contains` (SphereImplementation.h:36-42). -/
noncomputable def contains (t : Sph) (p : V3) : Bool := decide (¬ KernelOut false t p)

open Classical in
/-- `Inside` (SphereImplementation.h:46-58); the assignment for inside comes last. -/
noncomputable def inside (t : Sph) (p : V3) : Inside :=
  if KernelIn t p then .inside else if KernelOut true t p then .outside else .surface

open Classical in
/-- `SafetyToIn` (SphereImplementation.h:359-403). -/
noncomputable def safetyToIn (t : Sph) (p : V3) : ℝ :=
  let rad := p.mag
  if KernelIn t p then -1
  else if ¬ KernelOut true t p then 0
  else
    let safety := if t.rmin ≠ 0 then (if t.rmin - rad > rad - t.rmax then t.rmin - rad else rad - t.rmax) else rad - t.rmax
    let safety := if t.fullPhi = false then max (t.wedge.safetyToIn p) safety else safety
    if t.fullTheta = false then max (t.cone.safetyToIn p) safety else safety

open Classical in
/-- `SafetyToOut` (SphereImplementation.h:406-447). -/
noncomputable def safetyToOut (t : Sph) (p : V3) : ℝ :=
  let rad := p.mag
  if KernelOut true t p then -1
  else if ¬ KernelIn t p then 0
  else
    let safety := if t.rmin ≠ 0 then (if rad - t.rmin < t.rmax - rad then rad - t.rmin else t.rmax - rad) else t.rmax - rad
    let safety := if t.fullPhi = false then min (t.wedge.safetyToOut p) safety else safety
    if t.fullTheta = false then min (t.cone.safetyToOut p) safety else safety

open Classical in
/-- `DetectConvexity` (UnplacedSphere.cpp:47-59): the value of `IsConvex`. -/
noncomputable def isConvex (t : Sph) : Bool :=
  decide (t.rmin = 0 ∧ ((t.dPhi = 2 * π ∧ t.sTheta = 0 ∧ t.eTheta = π) ∨ (t.dPhi ≤ π ∧ t.sTheta = 0 ∧ t.eTheta = π) ∨
    (t.dPhi = 2 * π ∧ t.sTheta = 0 ∧ t.eTheta ≤ π / 2) ∨ (t.dPhi = 2 * π ∧ t.sTheta ≥ π / 2 ∧ t.eTheta = π)))

open Classical in
/-- `GetRadiusInRing` (SphereUtilities.h:34-47) with the random number `u`. -/
noncomputable def radiusInRing (rmin rmax u : ℝ) : ℝ :=
  if rmin = rmax then rmin else if rmin ≤ 0 then rmax * √u else √(u * (rmax * rmax - rmin * rmin) + rmin * rmin)

/-- The weights of `SamplePointOnSurface` (UnplacedSphere.cpp:182-187, 194-209): outer and inner shell, the two cones, one face. -/
structure Weights where
  one : ℝ
  two : ℝ
  thr : ℝ
  fou : ℝ
  fiv : ℝ

open Classical in
/-- The weights of `SamplePointOnSurface` (UnplacedSphere.cpp:176-209). -/
noncomputable def weights (t : Sph) : Weights :=
  let height1 := (t.rmax - t.rmin) * t.cosS
  let height2 := (t.rmax - t.rmin) * t.cosE
  let slant1 := √((t.rmax - t.rmin) * t.sinS * ((t.rmax - t.rmin) * t.sinS) + height1 * height1)
  let slant2 := √((t.rmax - t.rmin) * t.sinE * ((t.rmax - t.rmin) * t.sinE) + height2 * height2)
  let thr := t.dPhi * ((t.rmax + t.rmin) * t.sinS) * slant1
  let fou := t.dPhi * ((t.rmax + t.rmin) * t.sinE) * slant2
  let fiv := 1 / 2 * t.dTheta * (t.rmax * t.rmax - t.rmin * t.rmin)
  let thr := if t.sTheta = 0 then 0 else thr
  let fou := if t.eTheta = π then 0 else fou
  { one := t.rmax * t.rmax * t.dPhi * (t.cosS - t.cosE)
    two := t.rmin * t.rmin * t.dPhi * (t.cosS - t.cosE)
    thr := if t.sTheta = π / 2 then π * (t.rmax * t.rmax - t.rmin * t.rmin) else thr
    fou := if t.eTheta = π / 2 then π * (t.rmax * t.rmax - t.rmin * t.rmin) else fou
    fiv := if t.fullPhi then 0 else fiv }

open Classical in
/-- `SamplePointOnSurface` (UnplacedSphere.cpp:180-248): `u1` for the radius, `u2` for the azimuth, `u3` for the polar angle, `u4` for the
choice of the part, `u5` for the height on a cone, all from `[0, 1]`; `uniform(a, b)` is `a + (b - a) * u`. -/
noncomputable def sample (t : Sph) (u1 u2 u3 u4 u5 : ℝ) : V3 :=
  let w := weights t
  let rRand := radiusInRing t.rmin t.rmax u1
  let phi := t.sPhi + (t.sPhi + t.dPhi - t.sPhi) * u2
  let costheta := t.cosE + (t.cosS - t.cosE) * u3
  let sintheta := √(1 - costheta * costheta)
  let chose := (w.one + w.two + w.thr + w.fou + 2 * w.fiv) * u4
  if chose ≥ 0 ∧ chose < w.one then ⟨t.rmax * sintheta * cos phi, t.rmax * sintheta * sin phi, t.rmax * costheta⟩
  else if chose ≥ w.one ∧ chose < w.one + w.two then
    ⟨t.rmin * sintheta * cos phi, t.rmin * sintheta * sin phi, t.rmin * costheta⟩
  else if chose ≥ w.one + w.two ∧ chose < w.one + w.two + w.thr then
    if t.sTheta ≠ π / 2 then
      let z := t.rmin * t.cosS + (t.rmax * t.cosS - t.rmin * t.cosS) * u5
      ⟨t.sinS / t.cosS * z * cos phi, t.sinS / t.cosS * z * sin phi, z⟩
    else ⟨rRand * cos phi, rRand * sin phi, 0⟩
  else if chose ≥ w.one + w.two + w.thr ∧ chose < w.one + w.two + w.thr + w.fou then
    if t.eTheta ≠ π / 2 then
      let z := t.rmin * t.cosE + (t.rmax * t.cosE - t.rmin * t.cosE) * u5
      ⟨t.sinE / t.cosE * z * cos phi, t.sinE / t.cosE * z * sin phi, z⟩
    else ⟨rRand * cos phi, rRand * sin phi, 0⟩
  else if chose ≥ w.one + w.two + w.thr + w.fou ∧ chose < w.one + w.two + w.thr + w.fou + w.fiv then
    ⟨rRand * sintheta * cos t.sPhi, rRand * sintheta * sin t.sPhi, rRand * costheta⟩
  else ⟨rRand * sintheta * cos (t.sPhi + t.dPhi), rRand * sintheta * sin (t.sPhi + t.dPhi), rRand * costheta⟩

open Classical in
/-- `Extent` (UnplacedSphere.cpp:76-164).  The cached `eTheta` and the local one are the same. -/
noncomputable def extent (t : Sph) : V3 × V3 :=
  let lo : V3 := ⟨-t.rmax, -t.rmax, -t.rmax⟩
  let hi : V3 := ⟨t.rmax, t.rmax, t.rmax⟩
  let e := t.sTheta + t.dTheta
  if t.full then (lo, hi)
  else
    let st1 := if !t.fullTheta then sin t.sTheta else 0
    let st2 := if !t.fullTheta then sin t.eTheta else 0
    let hi := if !t.fullTheta then { hi with z := (if t.sTheta ≤ π / 2 then t.rmax else t.rmin) * cos t.sTheta } else hi
    let lo := if !t.fullTheta then { lo with z := (if e ≤ π / 2 then t.rmin else t.rmax) * cos e } else lo
    let w := if !t.fullTheta then (if t.sTheta ≤ π / 2 then (if e < π / 2 then t.rmax * st2 else t.rmax) else t.rmax * st1) else t.rmax
    let hi := { hi with x := w, y := w }
    let lo := { lo with x := -w, y := -w }
    if !t.fullPhi then
      let R := t.rmax
      let R := if t.sTheta > π / 2 then R * st1 else R
      let R := if e < π / 2 then R * st2 else R
      let r := t.rmin * min st1 st2
      let i := 1 / 2 * (R + r)
      let out0 := !t.wedge.contains ⟨i, 0, 0⟩
      let out90 := !t.wedge.contains ⟨0, i, 0⟩
      let out180 := !t.wedge.contains ⟨-i, 0, 0⟩
      let out270 := !t.wedge.contains ⟨0, -i, 0⟩
      if !(out0 || out90 || out180 || out270) then (lo, hi)
      else
        let Cx := R * cos t.sPhi
        let Dx := R * cos (t.sPhi + t.dPhi)
        let Cy := R * sin t.sPhi
        let Dy := R * sin (t.sPhi + t.dPhi)
        let hx := if out0 then max Cx Dx else hi.x
        let hy := if out90 then max Cy Dy else hi.y
        let lx := if out180 then min Cx Dx else lo.x
        let ly := if out270 then min Cy Dy else lo.y
        if t.dPhi ≥ π then (⟨lx, ly, lo.z⟩, ⟨hx, hy, hi.z⟩)
        else
          let Ax := r * cos t.sPhi
          let Bx := r * cos (t.sPhi + t.dPhi)
          let Ay := r * sin t.sPhi
          let By := r * sin (t.sPhi + t.dPhi)
          (⟨if min Ax Bx < lx then min Ax Bx else lx, if min Ay By < ly then min Ay By else ly, lo.z⟩,
           ⟨if max Ax Bx > hx then max Ax Bx else hx, if max Ay By > hy then max Ay By else hy, hi.z⟩)
    else (lo, hi)

end Sphere
end VecGeom
