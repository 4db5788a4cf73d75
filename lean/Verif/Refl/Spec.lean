import Verif.Refl.Model
import Verif.Transform.Spec

/-!
# What a reflected volume shows

The content of a logical volume is what a user finds in it: for every way down to a daughter of a daughter ..., the points, in the
frame of the volume, that are in the solid at the end of the way.
-/

namespace VecGeom
namespace Refl

/-- A point scaled in each coordinate. -/
def by' (s p : V3) : V3 := ⟨s.x * p.x, s.y * p.y, s.z * p.z⟩

/-- The points of a solid; `shape` gives those of the volumes of the user. -/
noncomputable def In (shape : Nat → V3 → Prop) : Solid → V3 → Prop
  | .base i, p => shape i p
  | .scaled s k, p => In shape s ⟨p.x / k.x, p.y / k.y, p.z / k.z⟩

/-- The points that are, at the end of a way down, in the solid found there.  A step of the way is the position of a daughter. -/
noncomputable def Content (shape : Nat → V3 → Prop) (lvs : List LV) : Nat → List Nat → V3 → Prop
  | lv, [], p => ∃ l, lvs[lv]? = some l ∧ In shape l.solid p
  | lv, i :: way, p => ∃ l pl, lvs[lv]? = some l ∧ l.daughters[i]? = some pl ∧ Content shape lvs pl.lv way (pl.tr.transform p)

/-- A mirror: it changes the signs of one or three coordinates. -/
structure Mirror (s : V3) : Prop where
  x : s.x = 1 ∨ s.x = -1
  y : s.y = 1 ∨ s.y = -1
  z : s.z = 1 ∨ s.z = -1
  neg : IsReflection s

/-- The states that a user reaches who uses one mirror, and who places without a mirror, or adds daughters otherwise, only in volumes
that were not reflected before. -/
inductive Reach (s : V3) : St → Prop
  | init : Reach s ⟨[], fun _ => none, fun _ => none⟩
  | new {st} (name : String) (solid : Nat) : Reach s st → Reach s (newLV st name solid)
  | plain {st st'} (T : Trans3) (k : V3) (name : String) (lv mother : Nat) (copyNo : Int) : Reach s st → ¬ IsReflection k →
      T.Orthonormal → T.FlagsOk → lv < st.lvs.length → st.cons mother = none → st.refl mother = none →
      place st T k name lv mother copyNo = some st' → Reach s st'
  | mirror {st st'} (T : Trans3) (name : String) (lv mother : Nat) (copyNo : Int) : Reach s st →
      T.Orthonormal → T.FlagsOk → mother < st.lvs.length → st.refl mother = none →
      place st T s name lv mother copyNo = some st' → Reach s st'

end Refl
end VecGeom
