import Verif.Coax.Model
import Verif.Polycone.Model

/-!
# The generic polycone

Model of `VecGeom/volumes/GenericPolyconeStruct.h` and `VecGeom/volumes/kernel/GenericPolyconeImplementation.h`: scalar code,
`Precision` is `ℝ`.  Not modelled: the way from a contour to the sections (`ReducedPolycone`), `DistanceToIn`, the normal, sampling.
-/

namespace VecGeom
namespace GPoly

open Real
open Coax (Radii)
open Polycone (lower scan)

/-- `GenericPolyconeSection` (GenericPolyconeSection.h): coaxial cones and the height of their middle. -/
structure Section where
  shift : ℝ
  cones : Coax.Struct

/-- `GenericPolyconeStruct` (GenericPolyconeStruct.h:17-73): `fSections`, `fZs` and `fCubicVolume`. -/
structure Struct where
  secs : List Section
  zs : List ℝ
  volume : ℝ

/-- `Capacity` of the sections (GenericPolyconeStruct.h:118-125). -/
noncomputable def sectionsCapacity (secs : List Section) : ℝ := secs.foldl (fun v s => v + Coax.structCapacity s.cones) 0

/-- The section `i` (GenericPolyconeStruct.h:44-52). -/
noncomputable def mkSection (zs : List ℝ) (s d : ℝ) (r : List Radii) (i : ℕ) : Section :=
  let dz := 0.5 * (zs.getD (i + 1) 0 - zs.getD i 0)
  ⟨zs.getD i 0 + dz, Coax.make r dz s d⟩

/-- `Set` (GenericPolyconeStruct.h:34-60).  `none` is a read behind the end of the heights. -/
noncomputable def make (rs : List (List Radii)) (zs : List ℝ) (s d : ℝ) : Option Struct :=
  if rs.length < zs.length then
    let secs := rs.zipIdx.map fun x => mkSection zs s d x.1 x.2
    some ⟨secs, zs, sectionsCapacity secs⟩
  else none

/-- `fZs[i]`. -/
def zAt (t : Struct) (i : ℕ) : ℝ := t.zs.getD i 0

/-- `GetSection(i)` (GenericPolyconeStruct.h:161). -/
noncomputable def secAt (t : Struct) (i : ℕ) : Section := t.secs.getD i ⟨0, Coax.make [] 0 0 0⟩

open Classical in
/-- `GetSectionIndex` (GenericPolyconeStruct.h:136-145). -/
noncomputable def sectionIndex (t : Struct) (z : ℝ) : ℤ :=
  if z < zAt t 0 then -1
  else
    match (List.range (t.zs.length - 1)).find? fun i => decide (z ≥ zAt t i ∧ z ≤ zAt t (i + 1)) with
    | some i => i
    | none => -2

/-- `UnplacedGenericPolycone::Capacity` (UnplacedGenericPolycone.h:89). -/
def capacity (t : Struct) : ℝ := t.volume

open Classical in
/-- `GenericKernelForContainsAndInside` of coaxial cones (CoaxialConesImplementation.h:76-116): completely inside, completely outside. -/
noncomputable def coaxKernel (fi : Bool) (c : Coax.Struct) (p : V3) : Bool × Bool :=
  if fi then Coax.insideLoop p c.cones
  else (false, c.cones.foldl (fun out k => out && decide (Cone.CompletelyOutside Cone.universal false k p)) true)

/-- `GenericKernelForASection` (GenericPolyconeImplementation.h:34-61). -/
noncomputable def secKernel (fi : Bool) (t : Struct) (i : ℤ) (p : V3) : Bool × Bool :=
  if i < 0 then (false, true) else coaxKernel fi (secAt t i.toNat).cones (lower p (secAt t i.toNat).shift)

open Classical in
/-- One circle of `IsOnRing` (ConeImplementation.h:47-74). -/
noncomputable def onCircle (r : ℝ) (p : V3) : Bool :=
  decide (p.x * p.x + p.y * p.y ≤ Tube.plusTolerantSquare true r ∧ p.x * p.x + p.y * p.y ≥ Tube.minusTolerantSquare true r)

/-- `IsOnRing` of coaxial cones (CoaxialConesImplementation.h:33-48). -/
noncomputable def isOnRing (lowerZ : Bool) (c : Coax.Struct) (p : V3) : Bool :=
  c.cones.foldl (fun on k => on || (onCircle (if lowerZ then k.rmin1 else k.rmin2) p || onCircle (if lowerZ then k.rmax1 else k.rmax2) p)) false

/-- `GenericKernelForContainsAndInside` (GenericPolyconeImplementation.h:88-166): completely inside, completely outside. -/
noncomputable def kernel (fi : Bool) (t : Struct) (p : V3) : Bool × Bool :=
  let lo := sectionIndex t (p.z - kTolerance)
  let hi := sectionIndex t (p.z + kTolerance)
  if lo < 0 ∧ hi < 0 then (false, true)
  else if lo < 0 ∧ hi = 0 then secKernel fi t 0 p
  else if hi < 0 ∧ lo = (t.secs.length : ℤ) - 1 then secKernel fi t (t.secs.length - 1) p
  else if lo ≥ 0 ∧ hi ≥ 0 then
    if lo = hi then secKernel fi t lo p
    else
      let a := secAt t lo.toNat
      let b := secAt t hi.toNat
      let ring := isOnRing false a.cones (lower p a.shift) || isOnRing true b.cones (lower p b.shift)
      let low := secKernel fi t lo p
      let high := secKernel fi t hi p
      if (!low.1 && !low.2) && (!high.1 && !high.2) then (!ring, false)
      else if low.2 && high.2 then (false, true)
      else (false, false)
  else (false, false)

/-- `Contains` (GenericPolyconeImplementation.h:62-70). -/
noncomputable def contains (t : Struct) (p : V3) : Bool := !(kernel false t p).2

/-- `Inside` (GenericPolyconeImplementation.h:74-88). -/
noncomputable def inside (t : Struct) (p : V3) : Inside :=
  if (kernel true t p).1 then .inside else if (kernel true t p).2 then .outside else .surface

/-- `SafetyToIn` of a section. -/
noncomputable def secSafety (t : Struct) (p : V3) (i : ℕ) : ℝ := Coax.safetyToIn (secAt t i).cones (lower p (secAt t i).shift)

/-- The loops over the other sections (GenericPolyconeImplementation.h:323-348, 392-416). -/
noncomputable def around (t : Struct) (index : ℕ) (p : V3) (m : ℝ) : ℝ :=
  let m := scan (fun i => zAt t i - zAt t (index + 1)) (secSafety t p) (List.range' (index + 1) (t.secs.length - (index + 1))) m
  if index > 0 then scan (fun i => zAt t (index - 1) - zAt t i) (secSafety t p) (List.range index).reverse m else m

open Classical in
/-- `SafetyToIn` (GenericPolyconeImplementation.h:297-352). -/
noncomputable def safetyToIn (t : Struct) (p : V3) : ℝ :=
  let index := sectionIndex t p.z
  let i := if index = -1 then 0 else if index = -2 then t.secs.length - 1 else index.toNat
  if secSafety t p i < kTolerance then secSafety t p i else around t i p (secSafety t p i)

open Classical in
/-- `SafetyToOut` (GenericPolyconeImplementation.h:355-420). -/
noncomputable def safetyToOut (t : Struct) (p : V3) : ℝ :=
  let k := kernel true t p
  if k.2 then -1
  else if !k.1 && !k.2 then 0
  else
    let index := sectionIndex t p.z
    if index < 0 then -1
    else
      let safety := Coax.safetyToOut (secAt t index.toNat).cones (lower p (secAt t index.toNat).shift)
      if safety = kInfLength then 0 else if safety < kTolerance then 0 else around t index.toNat p safety

open Classical in
/-- The loop of `DistanceToOut` (GenericPolyconeImplementation.h:265-291) with a bound for its rounds; `none` if they do not suffice.
`first` is `count == 0` at the start of a round. -/
noncomputable def outLoop (t : Struct) (d : V3) (inc : ℤ) : ℕ → ℤ → ℤ → V3 → ℝ → Bool → Option ℝ
  | 0, _, _, _, _, _ => none
  | n + 1, lo, hi, pn, total, first =>
    if lo ≥ 0 ∧ hi ≥ 0 then
      let c := secAt t lo.toNat
      let q := lower pn c.shift
      if Coax.inside c.cones q = .outside then (if first then some (-1) else some total)
      else
        let dist := Coax.distanceToOut c.cones q d
        if dist < 0 then some total
        else if lo + inc > -1 ∧ lo + inc < t.secs.length then
          outLoop t d inc n (lo + inc) (hi + inc) (lower (V3.at' q d dist) (-c.shift)) (total + dist) false
        else some (total + dist)
    else if lo > -1 ∧ lo < t.secs.length then outLoop t d inc n lo hi pn total first
    else some total

open Classical in
/-- `DistanceToOut` (GenericPolyconeImplementation.h:218-294).  In the second and third case the point is not moved to the section. -/
noncomputable def distanceToOut (n : ℕ) (t : Struct) (p d : V3) : Option ℝ :=
  if t.secs.length = 1 then some (Coax.distanceToOut (secAt t 0).cones (lower p (secAt t 0).shift) d)
  else
    let lo := sectionIndex t (p.z - kTolerance)
    let hi := sectionIndex t (p.z + kTolerance)
    if lo < 0 ∧ hi < 0 then some (-1)
    else if lo < 0 ∧ hi ≥ 0 ∧ d.z < 0 then some (Coax.distanceToOut (secAt t hi.toNat).cones p d)
    else if lo > 0 ∧ hi < 0 ∧ d.z > 0 then some (Coax.distanceToOut (secAt t lo.toNat).cones p d)
    else outLoop t d (if d.z > 0 then 1 else -1) n lo hi p 0 true

end GPoly
end VecGeom
