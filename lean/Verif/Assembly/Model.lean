import Verif.Boolean.Model

/-!
# Assemblies

Model of `VecGeom/volumes/UnplacedAssembly.h`, `source/UnplacedAssembly.cpp`, the functions of `VecGeom/volumes/PlacedAssembly.h` that
forward to it and `LogicalVolume::PlaceDaughter` (source/LogicalVolume.cpp:140-153).  The logical volumes of assemblies are cells of a
heap, because an assembly can be placed several times and can be changed after it has been placed.  The daughters that are not
assemblies are any placed solids.  The helpers are the defaults of `LogicalVolume` (LogicalVolume.cpp:60, 61): the simple level
locator, safety estimator and navigator.  `Precision` is `ℝ`; `none` is a recursion that goes on for more rounds than allowed, a missing
cell, or a division by zero.  Not modelled: sampling, the version of `Contains` for navigation states (which is part of `Nav`).
-/

namespace VecGeom
namespace Assembly

open Boolean (Solid)
open AABB (Box computeABBox)

/-- What is placed: a solid, or the assembly in a cell. -/
inductive Item where
  | solid (s : Solid)
  | asm (i : Nat)

/-- A daughter: a placement. -/
structure Kid where
  trans : Trans3
  item : Item

/-- The logical volume of an assembly with its `UnplacedAssembly`: the daughters, and `fLowerCorner`, `fUpperCorner`
(UnplacedAssembly.h:39-45). -/
structure Cell where
  kids : List Kid
  corners : Box

/-- All assemblies. -/
abbrev Heap := Nat → Option Cell

/-- Writing a cell. -/
def Heap.set (h : Heap) (i : Nat) (c : Cell) : Heap := fun j => if j = i then some c else h j

/-- The corners of a new assembly (UnplacedAssembly.cpp:13). -/
noncomputable def newCorners : Box := ⟨⟨-kInfLength, -kInfLength, -kInfLength⟩, ⟨kInfLength, kInfLength, kInfLength⟩⟩

/-- The constructor, together with the logical volume (UnplacedAssembly.cpp:13-16, LogicalVolume.cpp:58-73). -/
noncomputable def create (h : Heap) (i : Nat) : Option Heap :=
  match h i with
  | none => some (h.set i ⟨[], newCorners⟩)
  | some _ => none

/-- The start of `Extent` (UnplacedAssembly.cpp:45, 46). -/
noncomputable def startBox : Box := ⟨⟨kInfLength, kInfLength, kInfLength⟩, ⟨-kInfLength, -kInfLength, -kInfLength⟩⟩

/-- One round of the loop in `Extent` (UnplacedAssembly.cpp:48-51). -/
noncomputable def join (a l : Box) : Box :=
  ⟨⟨min l.lo.x a.lo.x, min l.lo.y a.lo.y, min l.lo.z a.lo.z⟩, ⟨max l.hi.x a.hi.x, max l.hi.y a.hi.y, max l.hi.z a.hi.z⟩⟩

/-- A loop over daughters in which a round can fail. -/
def loopM {σ α : Type} (f : σ → α → Option σ) : List α → σ → Option σ
  | [], s => some s
  | x :: xs, s => (f s x).bind (loopM f xs)

/-- `Extent` (UnplacedAssembly.cpp:36-54). -/
noncomputable def extent (h : Heap) : Nat → Nat → Option Box
  | 0, _ => none
  | n + 1, i => (h i).bind fun c =>
    loopM (fun b k => (match k.item with
      | .solid s => some s.extent
      | .asm j => extent h n j).map fun e => join b (computeABBox k.trans e)) c.kids startBox

/-- `PlaceDaughter` of the logical volume of an assembly (LogicalVolume.cpp:140-153, UnplacedAssembly.h:48-52). -/
noncomputable def place (h : Heap) (n : Nat) (i : Nat) (k : Kid) : Option Heap :=
  (h i).bind fun c =>
    let h := h.set i { c with kids := c.kids ++ [k] }
    (extent h n i).map fun b => h.set i ⟨c.kids ++ [k], b⟩

open Classical in
/-- `ABBoxContainsKernel` (BoxImplementation.h:420-437). -/
noncomputable def boxContains (b : Box) (p : V3) : Bool :=
  decide ((b.lo.x < p.x ∧ b.hi.x > p.x) ∧ (b.lo.y < p.y ∧ b.hi.y > p.y) ∧ (b.lo.z < p.z ∧ b.hi.z > p.z))

/-- A loop over daughters that stops at the first `true` (SimpleLevelLocator.h:126-139). -/
def anyM {α : Type} (f : α → Option Bool) : List α → Option Bool
  | [] => some false
  | x :: xs => (f x).bind fun b => if b then some true else anyM f xs

/-- `Contains` (UnplacedAssembly.h:80-92, PlacedAssembly.h:48-60). -/
noncomputable def contains (h : Heap) : Nat → Nat → V3 → Option Bool
  | 0, _, _ => none
  | n + 1, i, p => (h i).bind fun c =>
    if boxContains c.corners p then
      anyM (fun k => match k.item with
        | .solid s => some (s.contains (k.trans.transform p))
        | .asm j => contains h n j (k.trans.transform p)) c.kids
    else some false

/-- `SafetyToIn` (UnplacedAssembly.h:144-148, PlacedAssembly.h:129-133, SimpleSafetyEstimator.h:26-39). -/
noncomputable def safetyToIn (h : Heap) : Nat → Nat → V3 → Option ℝ
  | 0, _, _ => none
  | n + 1, i, p => (h i).bind fun c =>
    loopM (fun s k => (match k.item with
      | .solid t => some (t.safetyToIn (k.trans.transform p))
      | .asm j => safetyToIn h n j (k.trans.transform p)).map fun t => min s t) c.kids kInfLength

open Classical in
/-- `BoxImplementation::Intersect` (BoxImplementation.h:161-200).  A division by zero, for a direction along a coordinate plane, is
`none`. -/
noncomputable def intersect (b : Box) (p d : V3) : Option Bool :=
  if d.x = 0 ∨ d.y = 0 ∨ d.z = 0 then none
  else
    let ix := 1 / d.x
    let iy := 1 / d.y
    let iz := 1 / d.z
    let tmin := ((if ix < 0 then b.hi.x else b.lo.x) - p.x) * ix
    let tmax := ((if ix < 0 then b.lo.x else b.hi.x) - p.x) * ix
    let tymin := ((if iy < 0 then b.hi.y else b.lo.y) - p.y) * iy
    let tymax := ((if iy < 0 then b.lo.y else b.hi.y) - p.y) * iy
    if tmin > tymax ∨ tymin > tmax then some false
    else
      let tmin := if tymin > tmin then tymin else tmin
      let tmax := if tymax < tmax then tymax else tmax
      let tzmin := ((if iz < 0 then b.hi.z else b.lo.z) - p.z) * iz
      let tzmax := ((if iz < 0 then b.lo.z else b.hi.z) - p.z) * iz
      if tmin > tzmax ∨ tzmin > tmax then some false else some true

open Classical in
/-- `DistanceToIn` (UnplacedAssembly.h:152-162, PlacedAssembly.h:80-88, NewSimpleNavigator.h:30-60 with no state). -/
noncomputable def distanceToIn (h : Heap) : Nat → Nat → V3 → V3 → Option ℝ
  | 0, _, _, _ => none
  | n + 1, i, p, d => (h i).bind fun c =>
    (intersect c.corners p d).bind fun hit =>
      if hit then
        loopM (fun step k => (match k.item with
          | .solid s => s.distanceToIn (k.trans.transform p) (k.trans.transformDirection d) step
          | .asm j => distanceToIn h n j (k.trans.transform p) (k.trans.transformDirection d)).map fun t => if t < step then t else step)
          c.kids kInfLength
      else some kInfLength

end Assembly
end VecGeom
