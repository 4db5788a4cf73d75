import Verif.Transform.Model

/-!
# The reflection factory

Model of `VecGeom/management/ReflFactory.h` and `source/ReflFactory.cpp`.  Logical volumes are entries of a list and named by their
index; `none` stands for a pointer to no logical volume or the failing `assert`.  Messages are left out.
-/

namespace VecGeom
namespace Refl

/-- An unplaced volume: one the user made, or an `UnplacedScaledShape` around another one. -/
inductive Solid where
  | base (id : Nat)
  | scaled (s : Solid) (scale : V3)

/-- A placed daughter: `LogicalVolume::Place(name, transformation)` followed by `SetCopyNo`. -/
structure Placement where
  name : String
  tr : Trans3
  lv : Nat
  copyNo : Int

/-- What the factory reads and writes of a `LogicalVolume`. -/
structure LV where
  name : String
  solid : Solid
  daughters : List Placement

/-- The logical volumes, and `fConstituentLVMap`, `fReflectedLVMap` (ReflFactory.h:135-136). -/
structure St where
  lvs : List LV
  cons : Nat → Option Nat
  refl : Nat → Option Nat

/-- `PlaceDaughter(pv)`: the daughter goes to the end of the list. -/
def addDaughter (st : St) (mother : Nat) (pl : Placement) : Option St :=
  (st.lvs[mother]?).map fun m => { st with lvs := st.lvs.set mother { m with daughters := m.daughters ++ [pl] } }

/-- `IsReflection` (ReflFactory.h:130). -/
def IsReflection (s : V3) : Prop := s.x * s.y * s.z < 0

/-- `Transformation3D(0, 0, 0, 0, 0, 0, scale[0], scale[1], scale[2])` (ReflFactory.cpp:98). -/
noncomputable def scale3D (s : V3) : Trans3 := Trans3.ofEulerScaled 0 0 0 0 0 0 s.x s.y s.z

/-- `ConvertScaledToPureTransformation` (ReflFactory.cpp:95-106). -/
noncomputable def convert (T : Trans3) (s : V3) : Trans3 :=
  Trans3.mulRight (Trans3.mulRight (scale3D s) T) (scale3D s).inverse

/-- `CreateReflectedLV` (ReflFactory.cpp:138-154). -/
def create (st : St) (lv : Nat) (s : V3) : Option (St × Nat) :=
  if st.refl lv = none then
    (st.lvs[lv]?).map fun l =>
      let r := st.lvs.length
      (⟨st.lvs ++ [⟨l.name ++ "_refl", .scaled l.solid s, []⟩], Function.update st.cons lv (some r), Function.update st.refl r (some lv)⟩, r)
  else none

/-- `ReflectPlacedVolume` (ReflFactory.cpp:164-210); `rec` is the recursive call of `ReflectDaughters`. -/
noncomputable def reflectPlaced (rec : St → Nat → Nat → Option St) (s : V3) (r : Nat) (st : St) (pl : Placement) : Option St :=
  let dt := convert pl.tr s
  match st.refl pl.lv with
  | some c => addDaughter st r ⟨pl.name, dt, c, pl.copyNo⟩
  | none =>
    match st.cons pl.lv with
    | some d => addDaughter st r ⟨pl.name, dt, d, pl.copyNo⟩
    | none =>
      (create st pl.lv s).bind fun x =>
      (rec x.1 pl.lv x.2).bind fun st => addDaughter st r ⟨pl.name, dt, x.2, pl.copyNo⟩

/-- `ReflectDaughters` (ReflFactory.cpp:156-162).  The list of daughters is read before the loop, which adds daughters only to
reflected volumes.  The number bounds the depth of the recursion; `C126_total` shows that the bound in `reflectLV` is never met. -/
noncomputable def reflectDaughters (s : V3) : Nat → St → Nat → Nat → Option St
  | 0, _, _, _ => none
  | n + 1, st, lv, r =>
    (st.lvs[lv]?).bind fun l => l.daughters.foldlM (fun st pl => reflectPlaced (reflectDaughters s n) s r st pl) st

/-- `ReflectLV` (ReflFactory.cpp:124-136). -/
noncomputable def reflectLV (st : St) (lv : Nat) (s : V3) : Option (St × Nat) :=
  match st.cons lv with
  | some r => some (st, r)
  | none => (create st lv s).bind fun x => (reflectDaughters s (st.lvs.length + 1) x.1 lv x.2).map fun st => (st, x.2)

open Classical in
/-- `Place` (ReflFactory.cpp:21-73); it always returns `true`. -/
noncomputable def place (st : St) (T : Trans3) (s : V3) (name : String) (lv mother : Nat) (copyNo : Int) : Option St :=
  if ¬ IsReflection s then
    (addDaughter st mother ⟨name, T, lv, copyNo⟩).bind fun st =>
    match st.cons mother with
    | none => some st
    | some rm => (reflectLV st lv s).bind fun x => addDaughter x.1 rm ⟨name ++ "_refl", convert T s, x.2, copyNo⟩
  else
    (reflectLV st lv s).bind fun x =>
    (addDaughter x.1 mother ⟨name ++ "_refl", T, x.2, copyNo⟩).bind fun st =>
    match st.cons mother with
    | none => some st
    | some rm => addDaughter st rm ⟨name, convert T s, lv, copyNo⟩

/-- A new logical volume of the user (LogicalVolume.cpp, constructor). -/
def newLV (st : St) (name : String) (solid : Nat) : St := { st with lvs := st.lvs ++ [⟨name, .base solid, []⟩] }

/-- `Clean` (ReflFactory.cpp:212-216). -/
def clean (st : St) : St := { st with cons := fun _ => none, refl := fun _ => none }

end Refl
end VecGeom
