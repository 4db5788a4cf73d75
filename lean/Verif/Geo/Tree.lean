import Verif.Transform.Model

/-!
# Geometry trees

A placed volume (`VecGeom/volumes/PlacedVolume.h`) refers to a logical volume
(`VecGeom/volumes/LogicalVolume.h`), which owns the list of its placed daughters.  Logical volumes may be
shared, so the C++ data structure is a directed acyclic graph of pointers.  All code modelled here only walks
the graph downwards from the world, so we use its unfolding: a finite tree in which the daughters of the logical
volume are stored in the placement.  Sharing shows up as equal subtrees; object identity is the registry id.
-/

namespace VecGeom

/-- A placed volume together with (the unfolding of) its logical volume.

* `id`: `VPlacedVolume::id()` (PlacedVolume.h), the key in the registry;
* `childId`: `VPlacedVolume::GetChildId()`, set by `LogicalVolume::PlaceDaughter` (LogicalVolume.cpp:140);
* `lid`: `LogicalVolume::id()`;
* `trans`: `GetTransformation()`;
* `reqCaching`: `LogicalVolume::IsReqCaching()`;
* `daughters`: `GetDaughters()`. -/
inductive PVol where
  | mk (id : Nat) (childId : Int) (lid : Nat) (trans : Trans3) (reqCaching : Bool) (daughters : List PVol)

namespace PVol

/-- `VPlacedVolume::id()`. -/
def id : PVol → Nat | mk i _ _ _ _ _ => i
/-- `VPlacedVolume::GetChildId()`. -/
def childId : PVol → Int | mk _ c _ _ _ _ => c
/-- `GetLogicalVolume()->id()`. -/
def lid : PVol → Nat | mk _ _ l _ _ _ => l
/-- `GetTransformation()`. -/
def trans : PVol → Trans3 | mk _ _ _ t _ _ => t
/-- `GetLogicalVolume()->IsReqCaching()`. -/
def reqCaching : PVol → Bool | mk _ _ _ _ r _ => r
/-- `GetDaughters()`. -/
def daughters : PVol → List PVol | mk _ _ _ _ _ d => d

/-- Specification: `Sub v u` — placement `u` occurs in the unfolding below (or at) `v`. -/
inductive Sub : PVol → PVol → Prop
  | refl (v : PVol) : Sub v v
  | step {v d u : PVol} : d ∈ v.daughters → Sub d u → Sub v u

/-- Specification: the placements on a path of child numbers, starting with the world itself. -/
def follow : PVol → List Nat → Option (List PVol)
  | v, [] => some [v]
  | v, i :: c => match v.daughters[i]? with
    | none => none
    | some d => (follow d c).map (v :: ·)

/-- A geometry is well formed for `lookup` (the table id → placed volume, i.e. the compacted buffer) if each
placement is found under its id, and knows its position among its siblings. -/
structure WF (lookup : Nat → Option PVol) (world : PVol) : Prop where
  find : ∀ u, Sub world u → lookup u.id = some u
  child : ∀ u, Sub world u → ∀ (i : Nat) (d : PVol), u.daughters[i]? = some d → d.childId = i

theorem Sub.trans {a b c : PVol} (h : Sub a b) (h' : Sub b c) : Sub a c := by
  induction h with
  | refl => exact h'
  | step hd _ ih => exact .step hd (ih h')

theorem Sub.daughter {a b d : PVol} (h : Sub a b) (hd : d ∈ b.daughters) : Sub a d :=
  h.trans (.step hd (.refl d))

theorem WF.sub {lookup : Nat → Option PVol} {v u : PVol} (h : WF lookup v) (hs : Sub v u) : WF lookup u :=
  ⟨fun w hw => h.find w (hs.trans hw), fun w hw => h.child w (hs.trans hw)⟩

/-- Downward chains of placements: each one is a daughter of the one before. -/
def Chain : List PVol → Prop
  | [] => True
  | [_] => True
  | a :: b :: l => b ∈ a.daughters ∧ Chain (b :: l)

end PVol
end VecGeom
