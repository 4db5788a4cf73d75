import Verif.Quad.Rest
import Verif.Base.Slices

/-!
# Polyhedra: corners, capacity, area, extent, triangles

`PolyhedronStruct::Initialize` (VecGeom/volumes/PolyhedronStruct.h), as far as it makes the corners of the quadrilaterals, and `Capacity`, `SurfaceArea`,
`Extent`, `DistanceSquarePointToSegment` and `InsideTriangle` (source/UnplacedPolyhedron.cpp).
-/

namespace VecGeom
namespace Phd

open Quad

/-- The arguments of the constructor of `PolyhedronStruct` (PolyhedronStruct.h:115-127), by index of the plane. -/
structure Par where
  start : ℝ
  delta : ℝ
  n : ℕ
  nz : ℕ
  z : ℕ → ℝ
  rMin : ℕ → ℝ
  rMax : ℕ → ℝ

open Classical in
/-- `fPhiDelta` (PolyhedronStruct.h:121, 323). -/
noncomputable def Par.dphi (a : Par) : ℝ := if a.delta > 2 * Real.pi then 2 * Real.pi else a.delta

/-- `fHasPhiCutout` (PolyhedronStruct.h:119). -/
def Par.hasPhi (a : Par) : Prop := a.delta < 2 * Real.pi

/-- `sidePhi` (PolyhedronStruct.h:324). -/
noncomputable def Par.side (a : Par) : ℝ := a.dphi / a.n

open Classical in
/-- `getPhi` (PolyhedronStruct.h:326-331).  `NormalizeAngle` adds a whole number of turns, which does not change the corners; it is left out. -/
noncomputable def Par.phi (a : Par) (j : ℕ) : ℝ := a.start + ((if ¬ a.hasPhi ∧ j = a.n then 0 else j : ℕ) : ℝ) * a.side

/-- The argument of `FixZeroes` in `getVertexImpl` (PolyhedronStruct.h:373-378). -/
noncomputable def Par.raw (a : Par) (r : ℕ → ℝ) (k j : ℕ) : V3 :=
  ⟨r k / Real.cos (0.5 * a.side) * Real.cos (a.phi j), r k / Real.cos (0.5 * a.side) * Real.sin (a.phi j), a.z k⟩

/-- `getVertexImpl` (PolyhedronStruct.h:373-378). -/
noncomputable def Par.vertex (a : Par) (r : ℕ → ℝ) (k j : ℕ) : V3 := fixZeroes (a.raw r k j)

/-- The corners of the first quadrilateral of `outer` (`r` is `rMax`) or of `inner` (`r` is `rMin`) of segment `k` (PolyhedronStruct.h:390-402). -/
noncomputable def Par.wall (a : Par) (r : ℕ → ℝ) (k : ℕ) : Fin 4 → V3 :=
  ![a.vertex r k 0, a.vertex r k 1, a.vertex r (k + 1) 1, a.vertex r (k + 1) 0]

/-- The corners of the first quadrilateral of `phi` of segment `k` (PolyhedronStruct.h:412-413). -/
noncomputable def Par.cut (a : Par) (k : ℕ) : Fin 4 → V3 :=
  ![a.vertex a.rMin k 0, a.vertex a.rMin (k + 1) 0, a.vertex a.rMax (k + 1) 0, a.vertex a.rMax k 0]

/-- `fZSegments[k].outer.size() > 0` (PolyhedronStruct.h:298-301). -/
def Par.hasOuter (a : Par) (k : ℕ) : Prop := ¬ (a.z k = a.z (k + 1) ∧ a.rMax k = a.rMax (k + 1))

/-- `fZSegments[k].inner.size() > 0` (PolyhedronStruct.h:296, 309-316). -/
def Par.hasInner (a : Par) (k : ℕ) : Prop := (a.rMin k > 0 ∨ a.rMin (k + 1) > 0) ∧ ¬ (a.z k = a.z (k + 1) ∧ a.rMin k = a.rMin (k + 1))

/-- `GetTriangleArea` (UnplacedPolyhedron.cpp:142-148). -/
noncomputable def triArea (v1 v2 v3 : V3) : ℝ := 0.5 * ((v1 - v2).cross (v1 - v3)).mag

/-- `VolumeHelperFunc` (UnplacedPolyhedron.cpp:159-165). -/
noncomputable def volumeHelper (c : Fin 4 → V3) : ℝ :=
  let dz := |(c 0).z - (c 2).z|
  let bottom := triArea (c 0) (c 1) ⟨0, 0, (c 0).z⟩
  let top := triArea (c 2) (c 3) ⟨0, 0, (c 2).z⟩
  dz * (bottom + top + Real.sqrt (top * bottom))

open Classical in
/-- `Capacity` (UnplacedPolyhedron.cpp:151-193). -/
noncomputable def Par.capacity (a : Par) : ℝ :=
  (∑ k ∈ Finset.range (a.nz - 1),
    if a.hasOuter k then volumeHelper (a.wall a.rMax k) - (if a.hasInner k then volumeHelper (a.wall a.rMin k) else 0) else 0) * (a.n * (1 / 3))

open Classical in
/-- The area at one end (UnplacedPolyhedron.cpp:233-257): `o1`, `o2` are corners of the outer quadrilateral, `i1`, `i2` of the inner one, if there is one. -/
noncomputable def endArea (n : ℕ) (inner : Prop) (o1 o2 i1 i2 : V3) : ℝ :=
  if inner then n * (triArea o1 o2 i1 + triArea i1 i2 o2) else n * triArea o1 o2 ⟨0, 0, o1.z⟩

open Classical in
/-- `SurfaceArea` (UnplacedPolyhedron.cpp:196-267); `none` if it reads corners of an empty set of quadrilaterals (lines 232-233, 247-248). -/
noncomputable def Par.surfaceArea (a : Par) : Option ℝ :=
  let last := a.nz - 2
  if a.hasOuter 0 ∧ a.hasOuter last then
    some ((∑ k ∈ Finset.range (a.nz - 1),
        ((if a.hasOuter k then quadArea (a.wall a.rMax k) * a.n else 0) + (if a.hasInner k then quadArea (a.wall a.rMin k) * a.n else 0) +
          (if a.hasPhi ∧ a.z k ≠ a.z (k + 1) then quadArea (a.cut k) * 2 else 0)))
      + endArea a.n (a.hasInner 0) (a.wall a.rMax 0 0) (a.wall a.rMax 0 1) (a.wall a.rMin 0 0) (a.wall a.rMin 0 1)
      + endArea a.n (a.hasInner last) (a.wall a.rMax last 2) (a.wall a.rMax last 3) (a.wall a.rMin last 2) (a.wall a.rMin last 3))
  else none

/-- A corner as `Extent` computes it (UnplacedPolyhedron.cpp:275-290). -/
noncomputable def Par.corner (a : Par) (r : ℕ → ℝ) (j k : ℕ) : V3 :=
  let conv := 1 / Real.cos (0.5 * a.side)
  ⟨r k * (conv * Real.cos (a.start + j * a.side)), r k * (conv * Real.sin (a.start + j * a.side)), a.z k⟩

/-- The corners in the order of the loops of `Extent` (UnplacedPolyhedron.cpp:281-300). -/
noncomputable def Par.corners (a : Par) : List V3 :=
  (List.range (a.n + 1)).flatMap fun j => (List.range a.nz).flatMap fun k => [a.corner a.rMin j k, a.corner a.rMax j k]

/-- The update of the two ends of the box (UnplacedPolyhedron.cpp:289-292). -/
noncomputable def grow (b : V3 × V3) (c : V3) : V3 × V3 :=
  (⟨min b.1.x c.x, min b.1.y c.y, min b.1.z c.z⟩, ⟨max b.2.x c.x, max b.2.y c.y, max b.2.z c.z⟩)

/-- `Extent` (UnplacedPolyhedron.cpp:270-301). -/
noncomputable def Par.extent (a : Par) : V3 × V3 :=
  a.corners.foldl grow (⟨kInfLength, kInfLength, kInfLength⟩, ⟨-kInfLength, -kInfLength, -kInfLength⟩)

open Classical in
/-- `DistanceSquarePointToSegment` (UnplacedPolyhedron.cpp:304-318).  If the ends are the same, the quotient is not a number, both comparisons are false and
the answer is that of the last line. -/
noncomputable def distanceSquare (v1 v2 p : V3) : ℝ :=
  let len := (v1 - v2).mag2
  let dot := (p - v1).dot (v1 - v2) / len
  if len = 0 then (p - v2).mag2 else if dot < 0 then (p - v1).mag2 else if dot ≤ 1 then (p - v1).mag2 - dot * dot * len else (p - v2).mag2

open Classical in
/-- `InsideTriangle` (UnplacedPolyhedron.cpp:321-344). -/
noncomputable def insideTriangle (v1 v2 v3 p : V3) : Bool :=
  if (p - v1).dot (p - v2) ≥ 0 ∧ (p - v1).dot (p - v3) ≥ 0 ∧ (p - v2).dot (p - v3) ≥ 0 then true
  else decide (distanceSquare v1 v2 p ≤ 0.00000001) || decide (distanceSquare v1 v3 p ≤ 0.00000001) || decide (distanceSquare v2 v3 p ≤ 0.00000001)

end Phd
end VecGeom
