import Verif.Quad.Model

/-!
# Polyhedra

Containment of polyhedra (VecGeom/volumes/PolyhedronStruct.h, VecGeom/volumes/kernel/PolyhedronImplementation.h), scalar code with the generic template
arguments (`TreatInner` and `TreatPhi` look at the members).  The planes of the segments are those that `Quadrilaterals` keeps; their construction from
radii and angles (PolyhedronStruct.h:260-452) is not modelled.
-/

namespace VecGeom
namespace Phd

open Quad

/-- `ZSegment` (PolyhedronStruct.h:40-48).  `vout i` is the normal of the first side of quadrilateral `i` of `outer`, or of `inner` if `outer` is empty
(PolyhedronImplementation.h:673-674). -/
structure Seg where
  outer : Planes
  inner : Planes
  phi : Planes
  vout : ℕ → V3

/-- `PolyhedronStruct` (PolyhedronStruct.h:52-110).  `bounds p` is `Contains` of the bounding tube at the point moved by the offset, `wedge` is `Inside` of
`fPhiWedge`; both are taken as functions. -/
structure Poly where
  z : List ℝ
  rMin : List ℝ
  rMax : List ℝ
  segs : List Seg
  hasPhi : Bool
  phiSections : List V3
  bounds : V3 → Bool
  wedge : V3 → Inside

/-- `fZPlanes[i]`. -/
noncomputable def zAt (t : Poly) (i : ℕ) : ℝ := t.z.getD i 0

/-- `fZSegments[i]`; an empty segment out of range, which the functions below do not read. -/
noncomputable def segAt (t : Poly) (i : ℕ) : Seg := t.segs.getD i ⟨⟨[], true⟩, ⟨[], true⟩, ⟨[], true⟩, fun _ => ⟨0, 0, 0⟩⟩

open Classical in
/-- `fSameZ[i]` (PolyhedronStruct.h:284-285). -/
noncomputable def sameZ (t : Poly) (i : ℕ) : Bool := decide (0 < i ∧ i < t.z.length - 1 ∧ zAt t i = zAt t (i + 1))

open Classical in
/-- `FindZSegmentKernel` (PolyhedronImplementation.h:264-282); the list are the planes from `begin` on. -/
noncomputable def findZ (pz : ℝ) : List ℝ → ℤ → ℤ
  | [], i => i
  | [a], i => if pz + kTolerance > a then i + 1 else i
  | a :: b :: l, i => if pz - kTolerance > a then findZ pz (b :: l) (i + 1) else if pz + kTolerance > a then i + 1 else i

/-- `FindZSegment` (PolyhedronImplementation.h:285-291). -/
noncomputable def findZSegment (t : Poly) (pz : ℝ) : ℤ := findZ pz t.z (-1)

open Classical in
/-- The loop of `FindPhiSegment` (PolyhedronImplementation.h:310-316); `i` is the index of the first projection of the list. -/
noncomputable def findPhi (p : V3) : List V3 → ℤ → ℤ
  | a :: b :: l, i => if p.dot a > -kTolerance ∧ p.dot b < kTolerance then i else findPhi p (b :: l) (i + 1)
  | _, _ => -1

/-- `FindPhiSegment` (PolyhedronImplementation.h:293-319). -/
noncomputable def findPhiSegment (t : Poly) (p : V3) : ℤ := findPhi p t.phiSections 0

open Classical in
/-- `ScalarContainsKernel` (PolyhedronImplementation.h:636-708). -/
noncomputable def contains (t : Poly) (p : V3) : Bool :=
  if !t.bounds p then false
  else
    let zIndex := findZSegment t p.z
    if ¬ (zIndex ≥ 0 ∧ zIndex < t.segs.length) then false
    else
      let i := zIndex.toNat
      let seg := segAt t i
      if sameZ t i then
        let phiIndex := findPhiSegment t p
        if phiIndex < 0 then false
        else
          let r := |p.dot (seg.vout phiIndex.toNat)|
          let in1 := decide (r ≥ t.rMin.getD i 0) && decide (r ≤ t.rMax.getD i 0)
          let in2 := decide (r ≥ t.rMin.getD (i + 1) 0) && decide (r ≤ t.rMax.getD (i + 1) 0)
          in1 || in2
      else if !seg.outer.contains p then false
      else if !seg.inner.planes.isEmpty && seg.inner.contains p then false
      else if t.hasPhi && !seg.phi.contains p then false
      else true

open Classical in
/-- `ScalarInsideSegBorder` (PolyhedronImplementation.h:771-808). -/
noncomputable def insideBorder (t : Poly) (p : V3) (i : ℕ) : Inside :=
  let phiIndex := findPhiSegment t p
  if phiIndex < 0 then .outside
  else
    let r := |p.dot ((segAt t i).vout phiIndex.toNat)|
    let a1 := t.rMin.getD i 0
    let b1 := t.rMax.getD i 0
    let a2 := t.rMin.getD (i + 1) 0
    let b2 := t.rMax.getD (i + 1) 0
    if (r > a1 - kTolerance ∧ r < b1 + kTolerance) ∧ (r > a2 - kTolerance ∧ r < b2 + kTolerance) then
      if r < a1 + kTolerance ∨ r > b1 - kTolerance ∨ r < a2 + kTolerance ∨ r > b2 - kTolerance then .surface
      else if t.hasPhi then t.wedge p
      else .inside
    else if ¬ (r > a1 - kTolerance ∧ r < b1 + kTolerance) ∧ ¬ (r > a2 - kTolerance ∧ r < b2 + kTolerance) then .outside
    else .surface

/-- The index of `ScalarInsideKernel` (PolyhedronImplementation.h:734-736). -/
noncomputable def clampIndex (t : Poly) (pz : ℝ) : ℤ :=
  let k := findZSegment t pz
  let k := if k > (t.segs.length : ℤ) - 1 then (t.segs.length : ℤ) - 1 else k
  if k < 0 then 0 else k

open Classical in
/-- `ScalarInsideKernel` (PolyhedronImplementation.h:711-769).  `fBoundingTubeOffset` is the middle of the planes (PolyhedronStruct.h:371). -/
noncomputable def inside (t : Poly) (p : V3) : Inside :=
  if !t.bounds p then .outside
  else
    let i := (clampIndex t p.z).toNat
    let seg := segAt t i
    if sameZ t i then insideBorder t p i
    else if seg.outer.inside p ≠ .inside then seg.outer.inside p
    else if !seg.inner.planes.isEmpty && decide (seg.inner.inside p = .inside) then .outside
    else if !seg.inner.planes.isEmpty && decide (seg.inner.inside p = .surface) then .surface
    else if t.hasPhi && decide (seg.phi.inside p ≠ .inside) then seg.phi.inside p
    else
      let n := t.segs.length
      let offset := 0.5 * (zAt t 0 + zAt t n)
      if |(|p.z - offset| - 0.5 * (zAt t n - zAt t 0))| < kTolerance then .surface else .inside

end Phd
end VecGeom
