import Verif.Transform.Model

/-!
# Intersection of oriented boxes

Model of `volumeUtilities::IntersectionExist` for boxes in arbitrary orientation (VecGeom/volumes/utilities/VolumeUtilities.h:1086-1239).
`Precision` is `ℝ`.
-/

namespace VecGeom
namespace OBB

/-- The half lengths of a box (VolumeUtilities.h:1095-1101). -/
noncomputable def halfOf (lower upper : V3) : V3 := ⟨|upper.x - lower.x| / 2, |upper.y - lower.y| / 2, |upper.z - lower.z| / 2⟩

open Classical in
/-- `IntersectionExist` (VolumeUtilities.h:1086-1239).  The argument `aux` is not read. -/
noncomputable def intersectionExist (lower1 upper1 lower2 upper2 : V3) (t1 t2 : Trans3) : Bool :=
  let hA := halfOf lower1 upper1
  let hB := halfOf lower2 upper2
  let T := t2.inverseTransform ⟨0, 0, 0⟩ - t1.inverseTransform ⟨0, 0, 0⟩
  let Ax := t1.inverseTransformDirection ⟨1, 0, 0⟩
  let Ay := t1.inverseTransformDirection ⟨0, 1, 0⟩
  let Az := t1.inverseTransformDirection ⟨0, 0, 1⟩
  let Bx := t2.inverseTransformDirection ⟨1, 0, 0⟩
  let By := t2.inverseTransformDirection ⟨0, 1, 0⟩
  let Bz := t2.inverseTransformDirection ⟨0, 0, 1⟩
  -- axes of the first box (1130-1148)
  if |T.dot Ax| > hA.x + |hB.x * Ax.dot Bx| + |hB.y * Ax.dot By| + |hB.z * Ax.dot Bz| then false
  else if |T.dot Ay| > hA.y + |hB.x * Ay.dot Bx| + |hB.y * Ay.dot By| + |hB.z * Ay.dot Bz| then false
  else if |T.dot Az| > hA.z + |hB.x * Az.dot Bx| + |hB.y * Az.dot By| + |hB.z * Az.dot Bz| then false
  -- axes of the second box (1150-1169)
  else if |T.dot Bx| > hB.x + |hA.x * Ax.dot Bx| + |hA.y * Ay.dot Bx| + |hA.z * Az.dot Bx| then false
  else if |T.dot By| > hB.y + |hA.x * Ax.dot By| + |hA.y * Ay.dot By| + |hA.z * Az.dot By| then false
  else if |T.dot Bz| > hB.z + |hA.x * Ax.dot Bz| + |hA.y * Ay.dot Bz| + |hA.z * Az.dot Bz| then false
  -- Ax and the axes of the second box (1171-1193)
  else if |T.dot Az * Ay.dot Bx - T.dot Ay * Az.dot Bx| >
    |hA.y * Az.dot Bx| + |hA.z * Ay.dot Bx| + |hB.y * Ax.dot Bz| + |hB.z * Ax.dot By| then false
  else if |T.dot Az * Ay.dot By - T.dot Ay * Az.dot By| >
    |hA.y * Az.dot By| + |hA.z * Ay.dot By| + |hB.x * Ax.dot Bz| + |hB.z * Ax.dot Bx| then false
  else if |T.dot Az * Ay.dot Bz - T.dot Ay * Az.dot Bz| >
    |hA.y * Az.dot Bz| + |hA.z * Ay.dot Bz| + |hB.x * Ax.dot By| + |hB.y * Ax.dot Bx| then false
  -- Ay and the axes of the second box (1195-1217)
  else if |T.dot Ax * Az.dot Bx - T.dot Az * Ax.dot Bx| >
    |hA.x * Az.dot Bx| + |hA.z * Ax.dot Bx| + |hB.y * Ay.dot Bz| + |hB.z * Ay.dot By| then false
  else if |T.dot Ax * Az.dot By - T.dot Az * Ax.dot By| >
    |hA.x * Az.dot By| + |hA.z * Ax.dot By| + |hB.x * Ay.dot Bz| + |hB.z * Ay.dot Bx| then false
  else if |T.dot Ax * Az.dot Bz - T.dot Az * Ax.dot Bz| >
    |hA.x * Az.dot Bz| + |hA.z * Ax.dot Bz| + |hB.x * Ay.dot By| + |hB.y * Ay.dot Bx| then false
  -- Az and the axes of the second box (1219-1235)
  else if |T.dot Ay * Ax.dot Bx - T.dot Ax * Ay.dot Bx| >
    |hA.x * Ay.dot Bx| + |hA.y * Ax.dot Bx| + |hB.y * Az.dot Bz| + |hB.z * Az.dot By| then false
  else if |T.dot Ay * Ax.dot By - T.dot Ax * Ay.dot By| >
    |hA.x * Ay.dot By| + |hA.y * Ax.dot By| + |hB.x * Az.dot Bz| + |hB.z * Az.dot Bx| then false
  else if |T.dot Ay * Ax.dot Bz - T.dot Ax * Ay.dot Bz| >
    |hA.x * Ay.dot Bz| + |hA.y * Ax.dot Bz| + |hB.x * Az.dot By| + |hB.y * Az.dot Bx| then false
  else true

end OBB
end VecGeom
