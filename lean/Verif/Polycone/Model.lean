import Verif.Cone.Model
import Verif.Polycone.Spec

/-!
# The polycone

Model of `VecGeom/volumes/PolyconeStruct.h`, `VecGeom/volumes/PolyconeSection.h`,
`VecGeom/volumes/kernel/PolyconeImplementation.h`, `VecGeom/volumes/UnplacedPolycone.h` and `source/UnplacedPolycone.cpp`: scalar
code, `Precision` is `ℝ`.  The arrays of the constructor are a list of planes.
-/

namespace VecGeom
namespace Polycone

open Real

/-! ## Struct -/

/-- `PolyconeSection` (PolyconeSection.h:20-60).  The flag `fConvex` is never read. -/
structure Section where
  shift : ℝ
  solid : Cone.Struct

/-- `PolyconeStruct` (PolyconeStruct.h:23-37).  The wedge is not read by the code modelled here.  `orig` is `fOriginal_parameters`
with its two angles. -/
structure Struct where
  equalRmax : Bool
  continuity : Bool
  convexPossible : Bool
  sphi : ℝ
  dphi : ℝ
  nz : ℕ
  secs : List Section
  zs : List ℝ
  orig : List Plane
  origS : ℝ
  origD : ℝ

/-- The members before `Init` (UnplacedPolycone.h:78-84).  Members that are not set yet are zero. -/
def fresh : Struct :=
  { equalRmax := true, continuity := true, convexPossible := true, sphi := 0, dphi := 0, nz := 0, secs := [], zs := [], orig := []
    origS := 0, origD := 0 }

open Classical in
/-- The doubled list of `CheckContinuity` from plane 1 on (PolyconeStruct.h:48-73). -/
noncomputable def doubled : List Plane → List Plane
  | [] => []
  | [q] => [q]
  | q :: q' :: r => if q.z ≠ q'.z ∨ q.rmax ≠ q'.rmax then q :: q :: doubled (q' :: r) else q :: doubled (q' :: r)

/-- The last plane is doubled if their number is odd (PolyconeStruct.h:75-80). -/
def evened (l : List Plane) : List Plane := if l.length % 2 ≠ 0 then l ++ l.getLast?.toList else l

open Classical in
/-- The pairs of different height (PolyconeStruct.h:90-103). -/
noncomputable def reduced : List Plane → List Plane
  | q :: q' :: r => if q.z ≠ q'.z then q :: q' :: reduced r else reduced r
  | _ => []

/-- The reduced planes (PolyconeStruct.h:39-104). -/
noncomputable def reducedPlanes : List Plane → List Plane
  | [] => []
  | q :: r => reduced (evened (q :: doubled r))

open Classical in
/-- `CheckContinuityInRmax` (PolyconeStruct.h:116-128). -/
noncomputable def contRmax : List Plane → Bool
  | _ :: q :: q' :: r => decide (q.rmax = q'.rmax) && contRmax (q' :: r)
  | _ => true

open Classical in
/-- `CheckContinuityInSlope` (PolyconeStruct.h:130-145), from the slope so far. -/
noncomputable def contSlope : ℝ → List Plane → Bool
  | slope, q :: q' :: r => decide ((q'.rmax - q.rmax) / (q'.z - q.z) ≤ slope) && contSlope ((q'.rmax - q.rmax) / (q'.z - q.z)) r
  | _, _ => true

open Classical in
/-- All outer radii agree (PolyconeStruct.h:203-206). -/
noncomputable def sameRmax : ℝ → List Plane → Bool
  | _, [] => true
  | r, q :: l => decide (r = q.rmax) && sameRmax q.rmax l

/-- The section between two planes (PolyconeStruct.h:255-268): the shift is taken from the last height on the list, not from the
previous plane. -/
noncomputable def mkSection (s d : ℝ) (last : ℝ) (a b : Plane) : Section :=
  ⟨last + 1 / 2 * (b.z - last), Cone.make a.rmin a.rmax b.rmin b.rmax ((b.z - a.z) / 2) s d⟩

open Classical in
/-- One round of the loop over the planes (PolyconeStruct.h:226-281). -/
noncomputable def push (s d : ℝ) (up : Prop) (st : Plane × List ℝ × List Section) (q : Plane) : Plane × List ℝ × List Section :=
  if (q.z > st.1.z + kTolerance ∧ up) ∨ (q.z < st.1.z - kTolerance ∧ ¬ up) then
    (q, st.2.1 ++ [q.z], st.2.2 ++ [mkSection s d (st.2.1.getLast?.getD 0) st.1 q])
  else (q, st.2)

open Classical in
/-- `SetAndCheckDPhiAngle` (PolyconeStruct.h:371-389): the opening, with the value it had before. -/
noncomputable def checkDPhi (old d : ℝ) : ℝ := if d ≥ 2 * π - 1 / 2 * Tube.kAngTolerance then 2 * π else if d > 0 then d else old

open Classical in
/-- The angles (PolyconeStruct.h:157-158, 177-189).  The loop that adds `2 pi` while the angle is negative is written with a
ceiling. -/
noncomputable def angles (old s d : ℝ) : ℝ × ℝ :=
  if d ≤ 0 ∨ d > 2 * π - kTolerance then (0, 2 * π)
  else ((if s < 0 then s + ⌈-s / (2 * π)⌉ * (2 * π) else s), checkDPhi old d)

open Classical in
/-- The planes in upward order (PolyconeStruct.h:160-175). -/
noncomputable def upward (ps : List Plane) : List Plane :=
  if (ps.head?.map Plane.z).getD 0 > (ps.getLast?.map Plane.z).getD 0 then ps.reverse else ps

open Classical in
/-- `Init` (PolyconeStruct.h:147-300).  `none` stands for reads outside of the arrays: fewer than two planes, or all planes on one
height.  Sections and heights are added to those there are. -/
noncomputable def init (t : Struct) (s d : ℝ) (ps : List Plane) : Option Struct :=
  match upward ps with
  | q :: q' :: r =>
    match reducedPlanes (q :: q' :: r) with
    | [] => none
    | n :: ns =>
      let st := List.foldl (push s d (¬ q'.z < q.z)) (q, t.zs ++ [q.z], t.secs) (q' :: r)
      some
        { equalRmax := t.equalRmax && sameRmax n.rmax ns
          continuity := t.continuity && (contRmax (n :: ns) && contSlope kInfLength (n :: ns))
          convexPossible := t.convexPossible && (n :: ns).all fun m => decide (m.rmin = 0)
          sphi := (angles t.dphi s d).1
          dphi := (angles t.dphi s d).2
          nz := ps.length
          secs := st.2.2
          zs := st.2.1
          orig := q :: q' :: r
          origS := s
          origD := d }
  | _ => none

/-- The constructor (UnplacedPolycone.h:75-86). -/
noncomputable def make (s d : ℝ) (ps : List Plane) : Option Struct := init fresh s d ps

/-- `Reset` (UnplacedPolycone.cpp:169-189). -/
noncomputable def reset (t : Struct) : Option Struct := init t t.origS t.origD t.orig

/-- `fZs[i]`. -/
def zAt (t : Struct) (i : ℕ) : ℝ := t.zs.getD i 0

/-- `GetSection(i)` (PolyconeStruct.h:318-324); there is no section outside of the range (`C147_index`). -/
noncomputable def secAt (t : Struct) (i : ℕ) : Section := t.secs.getD i ⟨0, Cone.make 0 0 0 0 0 0 0⟩

open Classical in
/-- `GetSectionIndex` (PolyconeStruct.h:308-318). -/
noncomputable def sectionIndex (t : Struct) (z : ℝ) : ℤ :=
  if z < zAt t 0 then -1
  else
    match (List.range t.secs.length).find? fun i => decide (z ≥ zAt t i ∧ z ≤ zAt t (i + 1)) with
    | some i => i
    | none => -2

/-- `GetRminAtPlane` (PolyconeStruct.h:325-334). -/
noncomputable def rminAt (t : Struct) (i : ℕ) : ℝ :=
  if i = t.secs.length then (secAt t (i - 1)).solid.rmin2 else (secAt t i).solid.rmin1

/-- `GetRmaxAtPlane` (PolyconeStruct.h:336-345). -/
noncomputable def rmaxAt (t : Struct) (i : ℕ) : ℝ :=
  if i = t.secs.length then (secAt t (i - 1)).solid.rmax2 else (secAt t i).solid.rmax1

/-! ## Factory -/

/-- What the factory returns: a polycone, or one that answers by a cone. -/
inductive Made where
  | poly (ty : Cone.CType) (t : Struct)
  | cone (c : Cone.Struct)

open Classical in
/-- `Maker<UnplacedPolycone>::MakeInstance` (UnplacedPolycone.cpp:41-105). -/
noncomputable def makeInstance (s d : ℝ) (ps : List Plane) : Option Made :=
  match ps with
  | [a, b] => some (.cone (Cone.make a.rmin a.rmax b.rmin b.rmax (|b.z - a.z| / 2) s d))
  | ps =>
    if (∀ q ∈ ps, q.rmin ≤ 0) ∧ d ≥ 2 * π then (make s (2 * π) ps).map (.poly ⟨some false, .none⟩)
    else if (∀ q ∈ ps, q.rmin ≤ 0) ∧ d = π then (make s d ps).map (.poly ⟨some false, .pi⟩)
    else if (∀ q ∈ ps, q.rmin > 0) ∧ d ≥ 2 * π then (make s (2 * π) ps).map (.poly ⟨some true, .none⟩)
    else if (∀ q ∈ ps, q.rmin > 0) ∧ d = π then (make s d ps).map (.poly ⟨some true, .pi⟩)
    else (make s d ps).map (.poly Cone.universal)

/-! ## Contains and Inside -/

/-- `point - Vector3D(0, 0, shift)`. -/
def lower (p : V3) (shift : ℝ) : V3 := ⟨p.x, p.y, p.z - shift⟩

variable (ty : Cone.CType)

/-- `secFullyInside` of `GenericKernelForASection` (PolyconeImplementation.h:43-69); the kernel of the cone sets it for `Inside`
only. -/
def SecIn (fi : Bool) (t : Struct) (i : ℤ) (p : V3) : Prop :=
  ¬ i < 0 ∧ fi = true ∧ Cone.CompletelyInside ty (secAt t i.toNat).solid (lower p (secAt t i.toNat).shift)

/-- `secFullyOutside` of `GenericKernelForASection` (PolyconeImplementation.h:43-69). -/
def SecOut (fi : Bool) (t : Struct) (i : ℤ) (p : V3) : Prop :=
  i < 0 ∨ Cone.CompletelyOutside ty fi (secAt t i.toNat).solid (lower p (secAt t i.toNat).shift)

open Classical in
/-- `GenericKernelForContainsAndInside` (PolyconeImplementation.h:100-158): completely inside, completely outside. -/
noncomputable def kernel (fi : Bool) (t : Struct) (p : V3) : Prop × Prop :=
  let lo := sectionIndex t (p.z - kTolerance)
  let hi := sectionIndex t (p.z + kTolerance)
  if lo < 0 ∧ hi < 0 then (False, True)
  else if lo < 0 ∧ hi = 0 then (SecIn ty fi t 0 p, SecOut ty fi t 0 p)
  else if hi < 0 ∧ lo = (t.secs.length : ℤ) - 1 then (SecIn ty fi t (t.secs.length - 1) p, SecOut ty fi t (t.secs.length - 1) p)
  else if lo ≥ 0 ∧ hi ≥ 0 then
    if lo = hi then (SecIn ty fi t lo p, SecOut ty fi t lo p)
    else if (¬ SecIn ty fi t lo p ∧ ¬ SecOut ty fi t lo p) ∧ (¬ SecIn ty fi t hi p ∧ ¬ SecOut ty fi t hi p) then (True, False)
    else if SecOut ty fi t lo p ∧ SecOut ty fi t hi p then (False, True)
    else (False, False)
  else (False, False)

open Classical in
/-- `Contains` (PolyconeImplementation.h:71-79). -/
noncomputable def contains (t : Struct) (p : V3) : Bool := decide (¬ (kernel ty false t p).2)

open Classical in
/-- `Inside` (PolyconeImplementation.h:83-97). -/
noncomputable def inside (t : Struct) (p : V3) : Inside :=
  if (kernel ty true t p).1 then .inside else if (kernel ty true t p).2 then .outside else .surface

/-! ## Safeties -/

open Classical in
/-- The loops over the neighbours (PolyconeImplementation.h:378-391, 396-409, 447-456, 461-470): `gap` is the distance in z that ends
the loop, `saf` the safety of a section. -/
noncomputable def scan (gap saf : ℕ → ℝ) : List ℕ → ℝ → ℝ
  | [], m => m
  | i :: is, m => if gap i ≥ m then m else scan gap saf is (if saf i < m then saf i else m)

/-- Both loops, from the safety of the own section on (PolyconeImplementation.h:376-411, 445-471). -/
noncomputable def around (t : Struct) (index : ℕ) (p : V3) (m : ℝ) : ℝ :=
  let saf := fun i => Cone.safetyToIn ty (secAt t i).solid (lower p (secAt t i).shift)
  let m := scan (fun i => zAt t i - zAt t (index + 1)) saf (List.range' (index + 1) (t.secs.length - (index + 1))) m
  if index > 0 then scan (fun i => zAt t (index - 1) - zAt t i) saf (List.range index).reverse m else m

open Classical in
/-- `SafetyToIn` (PolyconeImplementation.h:348-415). -/
noncomputable def safetyToIn (t : Struct) (p : V3) : ℝ :=
  let index := sectionIndex t p.z
  if index < 0 then
    let i := if index = -1 then 0 else t.secs.length - 1
    Cone.safetyToIn ty (secAt t i).solid (lower p (secAt t i).shift)
  else
    let safety := Cone.safetyToIn ty (secAt t index.toNat).solid (lower p (secAt t index.toNat).shift)
    if safety < kTolerance then safety else around ty t index.toNat p safety

open Classical in
/-- `SafetyToOut` (PolyconeImplementation.h:417-475). -/
noncomputable def safetyToOut (t : Struct) (p : V3) : ℝ :=
  if (kernel ty true t p).2 then -1
  else
    let index := sectionIndex t p.z
    if index < 0 then -1
    else
      let safety := Cone.safetyToOut ty (secAt t index.toNat).solid (lower p (secAt t index.toNat).shift)
      if safety = kInfLength then 0 else if safety < kTolerance then 0 else around ty t index.toNat p safety

/-! ## Distances -/

open Classical in
/-- The walk of `DistanceToIn` (PolyconeImplementation.h:176-205) over the sections that are left, from the own section on. -/
noncomputable def walkIn (t : Struct) (p v : V3) : List ℕ → ℝ
  | [] => kInfLength
  | i :: is =>
    let d := Cone.distanceToIn ty (secAt t i).solid (lower p (secAt t i).shift) v
    if d < kInfLength then d else if is = [] then d else walkIn t p v is

open Classical in
/-- The sections that `DistanceToIn` may ask, in their order (PolyconeImplementation.h:176-205). -/
noncomputable def itinerary (t : Struct) (p v : V3) : List ℕ :=
  let index := sectionIndex t p.z
  let i := if index = -1 then 0 else if index = -2 then t.secs.length - 1 else index.toNat
  if |v.z| < kTolerance then [i]
  else if v.z > 0 then List.range' i (t.secs.length - i) else (List.range (i + 1)).reverse

/-- `DistanceToIn` (PolyconeImplementation.h:160-207).  `stepMax` is not used. -/
noncomputable def distanceToIn (t : Struct) (p v : V3) : ℝ := walkIn ty t p v (itinerary t p v)

/-! ## Capacity, area, extent, convexity, planes -/

/-- `Capacity` (UnplacedPolycone.h:142-150). -/
noncomputable def capacity (t : Struct) : ℝ := (t.secs.map fun s => Cone.capacity s.solid).foldl (· + ·) 0

open Classical in
/-- The contribution of a section to `SurfaceArea` (UnplacedPolycone.cpp:490-508). -/
noncomputable def sectionArea (dphi : ℝ) (c : Cone.Struct) : ℝ :=
  ((c.rmin1 + c.rmin2) * √((c.rmin1 - c.rmin2) * (c.rmin1 - c.rmin2) + 4 * c.dz * c.dz) +
    (c.rmax1 + c.rmax2) * √((c.rmax1 - c.rmax2) * (c.rmax1 - c.rmax2) + 4 * c.dz * c.dz)) * (1 / 2 * dphi) +
  if dphi < 2 * π then |2 * c.dz| * (c.rmax1 + c.rmax2 - c.rmin1 - c.rmin2) else 0

/-- `SurfaceArea` (UnplacedPolycone.cpp:482-516). -/
noncomputable def surfaceArea (t : Struct) : ℝ :=
  let c0 := (secAt t 0).solid
  let cn := (secAt t (t.secs.length - 1)).solid
  (t.secs.map fun s => sectionArea t.dphi s.solid).foldl (· + ·) (π * (c0.rmax1 * c0.rmax1 - c0.rmin1 * c0.rmin1)) +
    π * (cn.rmax2 * cn.rmax2 - cn.rmin2 * cn.rmin2)

open Classical in
/-- `Extent` (UnplacedPolycone.cpp:852-896). -/
noncomputable def extent (t : Struct) : V3 × V3 :=
  let maxR := t.secs.foldl (fun m s => max m (max s.solid.omax1 s.solid.omax2)) 0
  let minR := t.secs.foldl (fun m s => min m (min s.solid.omin1 s.solid.omin2)) kInfLength
  let z0 := zAt t 0
  let zn := zAt t t.secs.length
  let e := Cone.extent (Cone.make minR maxR minR maxR 1 t.sphi t.dphi)
  (⟨e.1.x, e.1.y, if z0 > zn then zn else z0⟩, ⟨e.2.x, e.2.y, if z0 > zn then z0 else zn⟩)

open Classical in
/-- `DetectConvexity` (UnplacedPolycone.cpp:994-1011). -/
noncomputable def detectConvexity (t : Struct) : Bool :=
  if t.convexPossible = true then
    if t.equalRmax = true ∧ (t.dphi ≤ π ∨ t.dphi = 2 * π) then true
    else if t.dphi ≤ π ∨ t.dphi = 2 * π then t.continuity else false
  else false

open Classical in
/-- `ReconstructSectionArrays` (UnplacedPolycone.h:226-258), from a section on; `low` is `putlowersection`. -/
noncomputable def reconstruct : Bool → List Section → List Plane
  | _, [] => []
  | low, s :: r =>
    let c := s.solid
    (if low then [⟨-c.dz + s.shift, c.rmin1, c.rmax1⟩] else []) ++
      ⟨c.dz + s.shift, c.rmin2, c.rmax2⟩ ::
        reconstruct (match r with
          | [] => false
          | s' :: _ => decide (c.rmin2 ≠ s'.solid.rmin1 ∨ c.rmax2 ≠ s'.solid.rmax1)) r

/-- `ReconstructSectionArrays` (UnplacedPolycone.h:226-258). -/
noncomputable def planes (t : Struct) : List Plane := reconstruct true t.secs

end Polycone
end VecGeom
