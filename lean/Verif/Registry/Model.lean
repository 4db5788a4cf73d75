import Mathlib.Data.List.Basic

/-!
# The volume registry and the compaction of placed volumes

Model of the volume maps of `GeoManager` (`VecGeom/management/GeoManager.h`, `source/GeoManager.cpp`), of the
constructors and destructors that register volumes (`source/PlacedVolume.cpp`, `source/LogicalVolume.cpp`) and
of `CloseGeometry`/`CompactifyMemory`.  `none` is undefined behaviour: access to a destroyed object, through a
null pointer or outside an allocation.  Ids are unbounded (C++: `unsigned int`/`int`).
-/

namespace VecGeom
namespace Registry

/-! ### `std::map` as a list sorted by key -/

/-- `map.find(k)`. -/
def mfind {α : Type} (m : List (Nat × α)) (k : Nat) : Option α := match m with
  | [] => none
  | (k', a) :: m => if k = k' then some a else mfind m k

/-- `map[k] = a`. -/
def mset {α : Type} (m : List (Nat × α)) (k : Nat) (a : α) : List (Nat × α) := match m with
  | [] => [(k, a)]
  | (k', a') :: m => if k < k' then (k, a) :: (k', a') :: m
      else if k = k' then (k, a) :: m else (k', a') :: mset m k a

/-- `map.erase(k)`. -/
def merase {α : Type} (m : List (Nat × α)) (k : Nat) : List (Nat × α) := m.filter (fun x => x.1 ≠ k)

/-! ### Objects -/

/-- Address of a placed volume: an object created by the user, or slot `i` of the `gen`-th compact buffer. -/
inductive Ptr where
  | heap (n : Nat)
  | buf (gen i : Nat)
  deriving DecidableEq

/-- A placed volume: `id_`, `label_`, `logical_volume_` (PlacedVolume.h:60-90); everything else (copy number,
child number, transformation) is `data`.  The label is part of the object (C++: an owned pointer). -/
structure PObj (δ : Type) where
  id : Nat
  label : String
  lvol : Nat
  data : δ

/-- A logical volume: `fId`, `fLabel`, `fDaughters`, and `parts`: the placed components of its unplaced volume if
this is a boolean or a scaled shape (these pointers are rewritten by `CompactifyMemory`; pointers to the
components of a multi union are not rewritten and not modelled). -/
structure LObj where
  id : Nat
  label : String
  daughters : List Ptr
  parts : List Ptr

/-- The memory and the state of the manager.  `placed`, `logical`: `fPlacedVolumesMap`, `fLogicalVolumesMap`, where a
null entry is `none`; `toIndex`: `fVolumeToIndexMap`; `nextP`, `nextL`: the static counters
`VPlacedVolume::g_id_count`, `LogicalVolume::gIdCount`; `gen`: number of compact buffers allocated so far;
`live`: whether the last one is still allocated (`gCompactPlacedVolBuffer != nullptr`). -/
structure Mgr (δ : Type) where
  pobj : Ptr → Option (PObj δ)
  lobj : Nat → Option LObj
  placed : List (Nat × Option Ptr)
  logical : List (Nat × Nat)
  toIndex : Ptr → Option Nat
  world : Option Ptr
  closed : Bool
  nextP : Nat
  nextL : Nat
  gen : Nat
  live : Bool

variable {δ : Type}

/-- The state at program start (GeoManager.h:254-258). -/
def Mgr.init : Mgr δ :=
  ⟨fun _ => none, fun _ => none, [], [], fun _ => none, none, false, 0, 0, 0, false⟩

/-- Pointwise update. -/
def upd {α β : Type} [DecidableEq α] (f : α → β) (a : α) (b : β) : α → β := fun x => if x = a then b else f x

namespace Mgr

/-- `RegisterPlacedVolume` (GeoManager.cpp:40-48). -/
def registerPlaced (m : Mgr δ) (id : Nat) (p : Ptr) : Mgr δ :=
  if !m.closed then { m with placed := mset m.placed id (some p) } else m

/-- `RegisterLogicalVolume` (GeoManager.cpp:31-38). -/
def registerLogical (m : Mgr δ) (id : Nat) (l : Nat) : Mgr δ :=
  if !m.closed then { m with logical := mset m.logical id l } else m

/-- `DeregisterPlacedVolume` (GeoManager.cpp:60-68): also if the geometry is closed. -/
def deregisterPlaced (m : Mgr δ) (id : Nat) : Mgr δ :=
  if (mfind m.placed id).isSome then { m with placed := merase m.placed id } else m

/-- `DeregisterLogicalVolume` (GeoManager.cpp:50-58). -/
def deregisterLogical (m : Mgr δ) (id : Nat) : Mgr δ :=
  if (mfind m.logical id).isSome then { m with logical := merase m.logical id } else m

/-- The constructor `VPlacedVolume::VPlacedVolume(label, logical_volume, transformation)`
(PlacedVolume.cpp:24-35) for an object at the unused address `heap n`. -/
def newPlaced (m : Mgr δ) (n : Nat) (label : String) (lvol : Nat) (data : δ) : Option (Mgr δ) :=
  if (m.pobj (.heap n)).isSome then none
  else
    let id := m.nextP
    some (registerPlaced
      { m with nextP := id + 1, pobj := upd m.pobj (.heap n) (some ⟨id, label, lvol, data⟩) } id (.heap n))

/-- The destructor `~VPlacedVolume` (PlacedVolume.cpp:64-70) run by `delete` on the address `heap n`. -/
def deletePlaced (m : Mgr δ) (n : Nat) : Option (Mgr δ) :=
  match m.pobj (.heap n) with
  | none => none
  | some o =>
    let m1 := m.deregisterPlaced o.id
    some { m1 with pobj := upd m1.pobj (.heap n) none }

/-- The constructor `LogicalVolume::LogicalVolume(label, unplaced)` (LogicalVolume.cpp:59-76) for an object at the
unused address `n`. -/
def newLogical (m : Mgr δ) (n : Nat) (label : String) (parts : List Ptr) : Option (Mgr δ) :=
  if (m.lobj n).isSome then none
  else
    let id := m.nextL
    some (registerLogical { m with nextL := id + 1, lobj := upd m.lobj n (some ⟨id, label, [], parts⟩) } id n)

/-- The destructor `~LogicalVolume` (LogicalVolume.cpp:89-99). -/
def deleteLogical (m : Mgr δ) (n : Nat) : Option (Mgr δ) :=
  match m.lobj n with
  | none => none
  | some o =>
    let m1 := m.deregisterLogical o.id
    some { m1 with lobj := upd m1.lobj n none }

/-- `LogicalVolume::PlaceDaughter(placed)` (LogicalVolume.cpp:137-151): appends to the daughters.  (The child number
is part of `data` and not modelled.) -/
def placeDaughter (m : Mgr δ) (n : Nat) (p : Ptr) : Option (Mgr δ) :=
  match m.lobj n with
  | none => none
  | some o => some { m with lobj := upd m.lobj n (some { o with daughters := o.daughters ++ [p] }) }

/-- `FindPlacedVolume(id)` (GeoManager.cpp:278-282); `none` is the null pointer. -/
def findPlaced (m : Mgr δ) (id : Nat) : Option Ptr := (mfind m.placed id).join

/-- The loop of `FindPlacedVolume(label)` (GeoManager.cpp:288-304). -/
def findLabelLoop (pobj : Ptr → Option (PObj δ)) (label : String) :
    List (Nat × Option Ptr) → Option Ptr → Option (Option Ptr)
  | [], out => some out
  | (_, none) :: _, _ => none
  | (_, some p) :: l, out => match pobj p with
    | none => none
    | some o => findLabelLoop pobj label l (if o.label = label then (if out.isNone then some p else out) else out)

/-- `FindPlacedVolume(label)` (GeoManager.cpp:284-307); the printed messages are not modelled. -/
def findPlacedLabel (m : Mgr δ) (label : String) : Option (Option Ptr) :=
  findLabelLoop m.pobj label m.placed none

/-- `FindLogicalVolume(id)` (GeoManager.cpp:309-313). -/
def findLogical (m : Mgr δ) (id : Nat) : Option Nat := mfind m.logical id

/-- The loop of `FindLogicalVolume(label)` (GeoManager.cpp:320-338). -/
def findLLabelLoop (lobj : Nat → Option LObj) (label : String) :
    List (Nat × Nat) → Option Nat → Option (Option Nat)
  | [], out => some out
  | (_, p) :: l, out => match lobj p with
    | none => none
    | some o => findLLabelLoop lobj label l (if o.label = label then (if out.isNone then some p else out) else out)

/-- `FindLogicalVolume(label)` (GeoManager.cpp:315-341). -/
def findLogicalLabel (m : Mgr δ) (label : String) : Option (Option Nat) :=
  findLLabelLoop m.lobj label m.logical none

/-- `GetLogicalVolumeId(label)` (GeoManager.cpp:343-347). -/
def getLogicalVolumeId (m : Mgr δ) (label : String) : Option Int :=
  match m.findLogicalLabel label with
  | none => none
  | some none => some (-1)
  | some (some l) => (m.lobj l).map (fun o => (o.id : Int))

/-- `GetLogicalVolumeLabel(id)` (GeoManager.cpp:349-353). -/
def getLogicalVolumeLabel (m : Mgr δ) (id : Nat) : Option String :=
  match m.findLogical id with
  | none => some ""
  | some l => (m.lobj l).map (·.label)

/-- `Convert(index)` (GeoManager.h:149): `operator[]` inserts a null pointer for an unknown index. -/
def convertIndex (m : Mgr δ) (i : Nat) : Option Ptr × Mgr δ :=
  match mfind m.placed i with
  | some p => (p, m)
  | none => (none, { m with placed := mset m.placed i none })

/-- `Convert(pvol)` (GeoManager.h:152): `operator[]` inserts 0 for an unknown pointer. -/
def convertPtr (m : Mgr δ) (p : Ptr) : Nat × Mgr δ :=
  match m.toIndex p with
  | some i => (i, m)
  | none => (0, { m with toIndex := upd m.toIndex p (some 0) })

/-! ### Closing -/

/-- The copy loop of `CompactifyMemory` (GeoManager.cpp:124-130), `n` is `pvolumecount` and `conv` the
`conversionmap`.  Writing to a slot `≥ n` is outside the allocation. -/
def compactLoop (n : Nat) : List (Nat × Option Ptr) → Mgr δ → (Ptr → Option Ptr) →
    Option (Mgr δ × (Ptr → Option Ptr))
  | [], m, conv => some (m, conv)
  | (_, none) :: _, _, _ => none
  | (i, some p) :: l, m, conv =>
    if i < n then
      match m.pobj p with
      | none => none
      | some o =>
        compactLoop n l
          { m with pobj := upd m.pobj (.buf m.gen i) (some o), placed := mset m.placed i (some (.buf m.gen i)) }
          (upd conv p (some (.buf m.gen i)))
    else none

/-- `ConvertOldToNew` (GeoManager.cpp:133-139). -/
def convert (conv : Ptr → Option Ptr) (p : Ptr) : Ptr := match conv p with
  | some q => q
  | none => p

/-- The loops over the logical volumes (GeoManager.cpp:142-148 and 150-185). -/
def fixLogical (conv : Ptr → Option Ptr) : List (Nat × Nat) → (Nat → Option LObj) → Option (Nat → Option LObj)
  | [], f => some f
  | (_, l) :: ls, f => match f l with
    | none => none
    | some o => fixLogical conv ls (upd f l (some { o with
        daughters := o.daughters.map (convert conv), parts := o.parts.map (convert conv) }))

/-- `CompactifyMemory` (GeoManager.cpp:70-190).  The check of the object sizes only prints a message. -/
def compactify (m : Mgr δ) : Option (Mgr δ) :=
  match m.world with
  | none => none
  | some w =>
    match compactLoop m.placed.length m.placed { m with gen := m.gen + 1, live := true } (fun _ => none) with
    | none => none
    | some (m1, conv) => match fixLogical conv m.logical m1.lobj with
      | none => none
      | some f => some { m1 with lobj := f, world := some (convert conv w) }

/-- The loop filling `fVolumeToIndexMap` (GeoManager.cpp:209-211). -/
def indexLoop : List (Nat × Option Ptr) → (Ptr → Option Nat) → Ptr → Option Nat
  | [], f => f
  | (_, none) :: l, f => indexLoop l f
  | (i, some p) :: l, f => indexLoop l (upd f p (some i))

/-- `CloseGeometry` (GeoManager.cpp:192-241): the index map is filled before the memory is compacted.
(Depth and count: see the visitors; bounding boxes and the navigation table are modelled elsewhere.) -/
def closeGeometry (m : Mgr δ) : Option (Mgr δ) :=
  match compactify { m with toIndex := indexLoop m.placed m.toIndex } with
  | none => none
  | some m' => some { m' with closed := true }

/-- `Clear` (GeoManager.cpp:355-378): the compact buffer is freed, other volumes stay allocated. -/
def clear (m : Mgr δ) : Mgr δ :=
  { m with
    world := none, placed := [], logical := [], toIndex := fun _ => none, closed := false, nextP := 0, nextL := 0
    pobj := if m.live then (fun p => match p with
      | .heap n => m.pobj (.heap n)
      | .buf g i => if g = m.gen then none else m.pobj (.buf g i)) else m.pobj
    live := false }

end Mgr

/-- What a program does with the geometry. -/
inductive Op (δ : Type) where
  | newPlaced (n : Nat) (label : String) (lvol : Nat) (data : δ)
  | deletePlaced (n : Nat)
  | newLogical (n : Nat) (label : String) (parts : List Ptr)
  | deleteLogical (n : Nat)
  | placeDaughter (n : Nat) (p : Ptr)
  | setWorld (p : Ptr)
  | close
  | clear

/-- One operation. `SetWorld` is GeoManager.h:127. -/
def step (m : Mgr δ) : Op δ → Option (Mgr δ)
  | .newPlaced n s l d => m.newPlaced n s l d
  | .deletePlaced n => m.deletePlaced n
  | .newLogical n s ps => m.newLogical n s ps
  | .deleteLogical n => m.deleteLogical n
  | .placeDaughter n p => m.placeDaughter n p
  | .setWorld p => some { m with world := some p }
  | .close => m.closeGeometry
  | .clear => some m.clear

/-- A history of operations. -/
def run (m : Mgr δ) : List (Op δ) → Option (Mgr δ)
  | [] => some m
  | o :: os => match step m o with
    | none => none
    | some m' => run m' os

end Registry
end VecGeom
