import Verif.Transform.Model

/-!
# Specification side of Transformation3D: orthonormality and honest flags
-/

namespace VecGeom
namespace Trans3

/-- The columns of the rotation part are orthonormal (`RᵀR = 1`), written out entry by entry. -/
structure Orthonormal (T : Trans3) : Prop where
  c00 : T.r0 * T.r0 + T.r3 * T.r3 + T.r6 * T.r6 = 1
  c11 : T.r1 * T.r1 + T.r4 * T.r4 + T.r7 * T.r7 = 1
  c22 : T.r2 * T.r2 + T.r5 * T.r5 + T.r8 * T.r8 = 1
  c01 : T.r0 * T.r1 + T.r3 * T.r4 + T.r6 * T.r7 = 0
  c02 : T.r0 * T.r2 + T.r3 * T.r5 + T.r6 * T.r8 = 0
  c12 : T.r1 * T.r2 + T.r4 * T.r5 + T.r7 * T.r8 = 0

/-- The rows are orthonormal (`R Rᵀ = 1`). -/
structure RowOrthonormal (T : Trans3) : Prop where
  r00 : T.r0 * T.r0 + T.r1 * T.r1 + T.r2 * T.r2 = 1
  r11 : T.r3 * T.r3 + T.r4 * T.r4 + T.r5 * T.r5 = 1
  r22 : T.r6 * T.r6 + T.r7 * T.r7 + T.r8 * T.r8 = 1
  r01 : T.r0 * T.r3 + T.r1 * T.r4 + T.r2 * T.r5 = 0
  r02 : T.r0 * T.r6 + T.r1 * T.r7 + T.r2 * T.r8 = 0
  r12 : T.r3 * T.r6 + T.r4 * T.r7 + T.r5 * T.r8 = 0

/-- The flags tell the truth about the entries in the direction the code relies on: a clear flag means that the
part is exactly trivial. -/
structure FlagsOk (T : Trans3) : Prop where
  trans : T.fHasTranslation = false → T.t = 0
  rot : T.fHasRotation = false →
    T.r0 = 1 ∧ T.r1 = 0 ∧ T.r2 = 0 ∧ T.r3 = 0 ∧ T.r4 = 1 ∧ T.r5 = 0 ∧ T.r6 = 0 ∧ T.r7 = 0 ∧ T.r8 = 1
  ident : T.fIdentity = (!T.fHasTranslation && !T.fHasRotation)

/-- The affine map `l ↦ t + R l` described by the entries of a transformation (flags ignored). -/
def affine (T : Trans3) (l : V3) : V3 :=
  ⟨T.t.x + (T.r0 * l.x + T.r1 * l.y + T.r2 * l.z),
   T.t.y + (T.r3 * l.x + T.r4 * l.y + T.r5 * l.z),
   T.t.z + (T.r6 * l.x + T.r7 * l.y + T.r8 * l.z)⟩

end Trans3
end VecGeom
