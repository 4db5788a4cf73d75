import Mathlib.Data.Real.Basic
import Mathlib.Data.Int.Bitwise
import Mathlib.Analysis.SpecialFunctions.Trigonometric.Basic

/-!
# Transformation3D

Model of `VecGeom/base/Transformation3D.h` and `source/Transformation3D.cpp`.
`Precision` is modelled by `ℝ` (no rounding, no NaN).  In-place updates of the arrays
`fTranslation[3]` and `fRotation[9]` are modelled as functions from the old record to the new one.
-/

namespace VecGeom

/-- `Vector3D<Precision>` (VecGeom/base/Vector3D.h): three coordinates. -/
@[ext] structure V3 where
  x : ℝ
  y : ℝ
  z : ℝ

namespace V3

/-- `operator+` (Vector3D.h, VECTOR3D_BINARY_OP). -/
def add (a b : V3) : V3 := ⟨a.x + b.x, a.y + b.y, a.z + b.z⟩
/-- `operator-` (Vector3D.h, VECTOR3D_BINARY_OP). -/
def sub (a b : V3) : V3 := ⟨a.x - b.x, a.y - b.y, a.z - b.z⟩
/-- scalar multiplication (Vector3D.h, VECTOR3D_BINARY_OP with a scalar). -/
def smul (s : ℝ) (a : V3) : V3 := ⟨s * a.x, s * a.y, s * a.z⟩
/-- `Vector3D::Dot`. -/
def dot (a b : V3) : ℝ := a.x * b.x + a.y * b.y + a.z * b.z
/-- `Vector3D::Mag2`. -/
def mag2 (a : V3) : ℝ := a.dot a

instance : Add V3 := ⟨add⟩
instance : Sub V3 := ⟨sub⟩
instance : Zero V3 := ⟨⟨0, 0, 0⟩⟩

@[simp] theorem add_x (a b : V3) : (a + b).x = a.x + b.x := rfl
@[simp] theorem add_y (a b : V3) : (a + b).y = a.y + b.y := rfl
@[simp] theorem add_z (a b : V3) : (a + b).z = a.z + b.z := rfl
@[simp] theorem sub_x (a b : V3) : (a - b).x = a.x - b.x := rfl
@[simp] theorem sub_y (a b : V3) : (a - b).y = a.y - b.y := rfl
@[simp] theorem sub_z (a b : V3) : (a - b).z = a.z - b.z := rfl
@[simp] theorem smul_x (s : ℝ) (a : V3) : (smul s a).x = s * a.x := rfl
@[simp] theorem smul_y (s : ℝ) (a : V3) : (smul s a).y = s * a.y := rfl
@[simp] theorem smul_z (s : ℝ) (a : V3) : (smul s a).z = s * a.z := rfl
@[simp] theorem zero_x : (0 : V3).x = 0 := rfl
@[simp] theorem zero_y : (0 : V3).y = 0 := rfl
@[simp] theorem zero_z : (0 : V3).z = 0 := rfl

end V3

/-- `vecgeom::kTolerance` for double precision (VecGeom/base/Math.h). -/
noncomputable def kTolerance : ℝ := 1 / 1000000000

/-- The data members of `Transformation3D` (Transformation3D.h:59-63):
`fTranslation[3]`, `fRotation[9]` and the three cached flags. -/
@[ext] structure Trans3 where
  t : V3
  r0 : ℝ
  r1 : ℝ
  r2 : ℝ
  r3 : ℝ
  r4 : ℝ
  r5 : ℝ
  r6 : ℝ
  r7 : ℝ
  r8 : ℝ
  fIdentity : Bool
  fHasRotation : Bool
  fHasTranslation : Bool

namespace Trans3

/-- Default constructor (Transformation3D.h:67-69). -/
def identity : Trans3 := ⟨0, 1, 0, 0, 0, 1, 0, 0, 0, 1, true, false, false⟩

open Classical in
/-- Translation constructor (Transformation3D.h:78-82). -/
noncomputable def ofTranslation (tx ty tz : ℝ) : Trans3 :=
  ⟨⟨tx, ty, tz⟩, 1, 0, 0, 0, 1, 0, 0, 0, 1,
    decide (tx = 0 ∧ ty = 0 ∧ tz = 0), false, decide (tx ≠ 0 ∨ ty ≠ 0 ∨ tz ≠ 0)⟩

/-- `GenerateRotationCode` loop (Transformation3D.cpp:165-169) as a function of the nine tests
`fabs(fRotation[i]) > kTolerance`: bit `i` of the code is test `i`. -/
def rawCode (b0 b1 b2 b3 b4 b5 b6 b7 b8 : Bool) : Nat :=
  b0.toNat * 1 ||| b1.toNat * 2 ||| b2.toNat * 4 ||| b3.toNat * 8 ||| b4.toNat * 16 |||
  b5.toNat * 32 ||| b6.toNat * 64 ||| b7.toNat * 128 ||| b8.toNat * 256

open Classical in
/-- One test of the loop (Transformation3D.cpp:168). -/
noncomputable def big (r : ℝ) : Bool := decide (|r| > kTolerance)

open Classical in
/-- `GenerateRotationCode` (Transformation3D.cpp:163-174).
`rotation::kDiagonal = 0x111`, `rotation::kIdentity = 0x200` (Transformation3D.h:32). -/
noncomputable def generateRotationCode (T : Trans3) : Int :=
  let code : Int := rawCode (big T.r0) (big T.r1) (big T.r2) (big T.r3) (big T.r4) (big T.r5)
    (big T.r6) (big T.r7) (big T.r8)
  if code = 0x111 ∧ T.r0 = 1 ∧ T.r4 = 1 ∧ T.r8 = 1 then 0x200 else code

/-- `GenerateTranslationCode` (Transformation3D.cpp:183-186): `kGeneric = -1`, `kIdentity = 0`
(Transformation3D.h:35). -/
def generateTranslationCode (T : Trans3) : Int := if T.fHasTranslation then -1 else 0

open Classical in
/-- `SetProperties` (Transformation3D.cpp:107-115). -/
noncomputable def setProperties (T : Trans3) : Trans3 :=
  let hasT := decide (|T.t.x| > kTolerance ∨ |T.t.y| > kTolerance ∨ |T.t.z| > kTolerance)
  let hasR := !decide (T.generateRotationCode = 0x200)
  { T with fHasTranslation := hasT, fHasRotation := hasR, fIdentity := !hasT && !hasR }

/-- `SetTranslation` (Transformation3D.cpp:93-98). -/
def setTranslation (T : Trans3) (tx ty tz : ℝ) : Trans3 := { T with t := ⟨tx, ty, tz⟩ }

/-- `SetRotation(rot0..rot8)` (Transformation3D.cpp:146-160). -/
def setRotation9 (T : Trans3) (a0 a1 a2 a3 a4 a5 a6 a7 a8 : ℝ) : Trans3 :=
  { T with r0 := a0, r1 := a1, r2 := a2, r3 := a3, r4 := a4, r5 := a5, r6 := a6, r7 := a7, r8 := a8 }

/-- `kDegToRad` (Math.h). -/
noncomputable def kDegToRad : ℝ := Real.pi / 180

/-- `SetRotation(phi, theta, psi)`, degrees (Transformation3D.cpp:118-137). -/
noncomputable def setRotationEuler (T : Trans3) (phi theta psi : ℝ) : Trans3 :=
  let sinphi := Real.sin (kDegToRad * phi)
  let cosphi := Real.cos (kDegToRad * phi)
  let sinthe := Real.sin (kDegToRad * theta)
  let costhe := Real.cos (kDegToRad * theta)
  let sinpsi := Real.sin (kDegToRad * psi)
  let cospsi := Real.cos (kDegToRad * psi)
  { T with
    r0 := cospsi * cosphi - costhe * sinphi * sinpsi
    r1 := -sinpsi * cosphi - costhe * sinphi * cospsi
    r2 := sinthe * sinphi
    r3 := cospsi * sinphi + costhe * cosphi * sinpsi
    r4 := -sinpsi * sinphi + costhe * cosphi * cospsi
    r5 := -sinthe * cosphi
    r6 := sinpsi * sinthe
    r7 := cospsi * sinthe
    r8 := costhe }

/-- `ApplyScale` (Transformation3D.h:164-175). -/
def applyScale (T : Trans3) (sx sy sz : ℝ) : Trans3 :=
  { T with r0 := T.r0 * sx, r1 := T.r1 * sy, r2 := T.r2 * sz, r3 := T.r3 * sx, r4 := T.r4 * sy,
           r5 := T.r5 * sz, r6 := T.r6 * sx, r7 := T.r7 * sy, r8 := T.r8 * sz }

/-- An object before its members are assigned: the constructors below overwrite every entry. -/
def raw : Trans3 := ⟨0, 0, 0, 0, 0, 0, 0, 0, 0, 0, false, true, true⟩

/-- Constructor from translation and Euler angles (Transformation3D.cpp:22-29). -/
noncomputable def ofEuler (tx ty tz phi theta psi : ℝ) : Trans3 :=
  ((raw.setTranslation tx ty tz).setRotationEuler phi theta psi).setProperties

/-- Constructor from translation and nine matrix entries (Transformation3D.cpp:43-51). -/
noncomputable def ofEntries (tx ty tz a0 a1 a2 a3 a4 a5 a6 a7 a8 : ℝ) : Trans3 :=
  ((raw.setTranslation tx ty tz).setRotation9 a0 a1 a2 a3 a4 a5 a6 a7 a8).setProperties

/-- Constructor with Euler angles and scale (Transformation3D.cpp:32-40). -/
noncomputable def ofEulerScaled (tx ty tz phi theta psi sx sy sz : ℝ) : Trans3 :=
  (((raw.setTranslation tx ty tz).setRotationEuler phi theta psi).applyScale sx sy sz).setProperties

open Classical in
/-- One cell of `FixZeroes`. -/
noncomputable def fixZero (r : ℝ) : ℝ := if |r| < kTolerance then 0 else r

/-- `FixZeroes` (Transformation3D.h:200-208): flags are left as they are. -/
noncomputable def fixZeroes (T : Trans3) : Trans3 :=
  { T with
    r0 := fixZero T.r0, r1 := fixZero T.r1, r2 := fixZero T.r2, r3 := fixZero T.r3, r4 := fixZero T.r4,
    r5 := fixZero T.r5, r6 := fixZero T.r6, r7 := fixZero T.r7, r8 := fixZero T.r8,
    t := ⟨fixZero T.t.x, fixZero T.t.y, fixZero T.t.z⟩ }

/-- `Set` (Transformation3D.h:301-316). -/
def set (T : Trans3) (tr : V3) (a0 a1 a2 a3 a4 a5 a6 a7 a8 : ℝ) (has_trans has_rot : Bool) : Trans3 :=
  let T1 := if has_trans then { T with t := tr } else T
  let T2 := if has_rot then T1.setRotation9 a0 a1 a2 a3 a4 a5 a6 a7 a8 else T1
  { T2 with fHasTranslation := has_trans, fHasRotation := has_rot, fIdentity := !has_trans && !has_rot }

/-- `DoTranslation` (Transformation3D.h:729-735). -/
def doTranslation (T : Trans3) (m : V3) : V3 := ⟨m.x - T.t.x, m.y - T.t.y, m.z - T.t.z⟩

/-- `DoRotation`, last part "General case" (Transformation3D.h:664-672). -/
def rotGeneric (T : Trans3) (m : V3) : V3 :=
  ⟨m.x * T.r0 + m.y * T.r3 + m.z * T.r6,
   m.x * T.r1 + m.y * T.r4 + m.z * T.r7,
   m.x * T.r2 + m.y * T.r5 + m.z * T.r8⟩

/-- `DoRotation<code>` (Transformation3D.h:561-673).  Branch `0x16A` is copied as written
(line 585 multiplies `master[2]` by `fRotation[5]`). -/
def doRotation (code : Int) (T : Trans3) (m : V3) : V3 :=
  if code = 0x1B1 then ⟨m.x * T.r0, m.y * T.r4 + m.z * T.r7, m.y * T.r5 + m.z * T.r8⟩
  else if code = 0x18E then ⟨m.y * T.r3, m.x * T.r1 + m.z * T.r7, m.x * T.r2 + m.z * T.r8⟩
  else if code = 0x076 then ⟨m.z * T.r6, m.x * T.r1 + m.y * T.r4, m.x * T.r2 + m.y * T.r5⟩
  else if code = 0x16A then ⟨m.y * T.r3 + m.z * T.r6, m.x * T.r1, m.z * T.r5 + m.z * T.r8⟩
  else if code = 0x155 then ⟨m.x * T.r0 + m.z * T.r6, m.y * T.r4, m.x * T.r2 + m.z * T.r8⟩
  else if code = 0x0AD then ⟨m.x * T.r0 + m.y * T.r3, m.z * T.r7, m.x * T.r2 + m.y * T.r5⟩
  else if code = 0x0DC then ⟨m.y * T.r3 + m.z * T.r6, m.y * T.r4 + m.z * T.r7, m.x * T.r2⟩
  else if code = 0x0E3 then ⟨m.x * T.r0 + m.z * T.r6, m.x * T.r1 + m.z * T.r7, m.y * T.r5⟩
  else if code = 0x11B then ⟨m.x * T.r0 + m.y * T.r3, m.x * T.r1 + m.y * T.r4, m.z * T.r8⟩
  else if code = 0x0A1 then ⟨m.x * T.r0, m.z * T.r7, m.y * T.r5⟩
  else if code = 0x10A then ⟨m.y * T.r3, m.x * T.r1, m.z * T.r8⟩
  else if code = 0x046 then ⟨m.y * T.r3, m.z * T.r7, m.x * T.r2⟩
  else if code = 0x062 then ⟨m.z * T.r6, m.x * T.r1, m.y * T.r5⟩
  else if code = 0x054 then ⟨m.z * T.r6, m.y * T.r4, m.x * T.r2⟩
  else if code = 0x111 then ⟨m.x * T.r0, m.y * T.r4, m.z * T.r8⟩
  else if code = 0x200 then m
  else T.rotGeneric m

/-- `DoRotation_new<code>` (Transformation3D.h:686-724): one guarded product per bit. -/
def doRotationNew (code : Int) (T : Trans3) (m : V3) : V3 :=
  if code = 0x200 then m
  else
    let g (k : Nat) (v : ℝ) : ℝ := if code.testBit k then v else 0
    ⟨0 + g 0 (m.x * T.r0) + g 3 (m.y * T.r3) + g 6 (m.z * T.r6),
     0 + g 1 (m.x * T.r1) + g 4 (m.y * T.r4) + g 7 (m.z * T.r7),
     0 + g 2 (m.x * T.r2) + g 5 (m.y * T.r5) + g 8 (m.z * T.r8)⟩

/-- `Transform<trans_code, rot_code>` (Transformation3D.h:746-771). -/
def transformCode (transCode code : Int) (T : Trans3) (m : V3) : V3 :=
  if transCode = 0 ∧ code = 0x200 then m
  else if transCode ≠ 0 ∧ code = 0x200 then T.doTranslation m
  else if transCode = 0 ∧ code ≠ 0x200 then T.doRotation code m
  else T.doRotation code (T.doTranslation m)

/-- `Transform` (Transformation3D.h:793-803), generic codes `-1`, `-1`. -/
def transform (T : Trans3) (m : V3) : V3 := T.transformCode (-1) (-1) m

/-- `TransformDirection<code>` (Transformation3D.h:959-970). -/
def transformDirectionCode (code : Int) (T : Trans3) (m : V3) : V3 :=
  if code = 0x200 then m else T.doRotation code m

/-- `TransformDirection` (Transformation3D.h:992-1003), generic code. -/
def transformDirection (T : Trans3) (m : V3) : V3 := T.transformDirectionCode (-1) m

/-- `InverseTransformKernel<false>` (Transformation3D.h:825-836). -/
def inverseTransform (T : Trans3) (l : V3) : V3 :=
  ⟨T.t.x + l.x * T.r0 + l.y * T.r1 + l.z * T.r2,
   T.t.y + l.x * T.r3 + l.y * T.r4 + l.z * T.r5,
   T.t.z + l.x * T.r6 + l.y * T.r7 + l.z * T.r8⟩

/-- `InverseTransformKernel<true>` (Transformation3D.h:815-823). -/
def inverseTransformDirection (T : Trans3) (l : V3) : V3 :=
  ⟨l.x * T.r0 + l.y * T.r1 + l.z * T.r2,
   l.x * T.r3 + l.y * T.r4 + l.z * T.r5,
   l.x * T.r6 + l.y * T.r7 + l.z * T.r8⟩

/-- The translation block of `MultiplyFromRight` (Transformation3D.h:885-899). -/
def mulTrans (A B : Trans3) : Trans3 :=
  if B.fHasTranslation then
    { A with
      fHasTranslation := true
      t := ⟨A.t.x + A.r0 * B.t.x + A.r1 * B.t.y + A.r2 * B.t.z,
            A.t.y + A.r3 * B.t.x + A.r4 * B.t.y + A.r5 * B.t.z,
            A.t.z + A.r6 * B.t.x + A.r7 * B.t.y + A.r8 * B.t.z⟩ }
  else A

/-- The rotation block of `MultiplyFromRight` (Transformation3D.h:901-947). -/
def mulRot (A B : Trans3) : Trans3 :=
  if B.fHasRotation then
    { A with
      fHasRotation := true
      r0 := A.r0 * B.r0 + A.r1 * B.r3 + A.r2 * B.r6
      r1 := A.r0 * B.r1 + A.r1 * B.r4 + A.r2 * B.r7
      r2 := A.r0 * B.r2 + A.r1 * B.r5 + A.r2 * B.r8
      r3 := A.r3 * B.r0 + A.r4 * B.r3 + A.r5 * B.r6
      r4 := A.r3 * B.r1 + A.r4 * B.r4 + A.r5 * B.r7
      r5 := A.r3 * B.r2 + A.r4 * B.r5 + A.r5 * B.r8
      r6 := A.r6 * B.r0 + A.r7 * B.r3 + A.r8 * B.r6
      r7 := A.r6 * B.r1 + A.r7 * B.r4 + A.r8 * B.r7
      r8 := A.r6 * B.r2 + A.r7 * B.r5 + A.r8 * B.r8 }
  else A

/-- `MultiplyFromRight` (Transformation3D.h:878-948). -/
def mulRight (A B : Trans3) : Trans3 :=
  if B.fIdentity then A
  else mulRot (mulTrans { A with fIdentity := false } B) B

/-- `Determinant` (Transformation3D.h:433-451). -/
def determinant (T : Trans3) : ℝ :=
  let detxx := T.r4 * T.r8 - T.r5 * T.r7
  let detxy := T.r3 * T.r8 - T.r5 * T.r6
  let detxz := T.r3 * T.r7 - T.r4 * T.r6
  T.r0 * detxx - T.r1 * detxy + T.r2 * detxz

/-- `Inverse` (Transformation3D.h:457-503).  With `det == 0` the C++ code prints an error and
divides by zero; Lean's `1/0 = 0` is used there, so the theorems assume `determinant ≠ 0`. -/
noncomputable def inverse (T : Trans3) : Trans3 :=
  let detxx0 := T.r4 * T.r8 - T.r5 * T.r7
  let detxy0 := T.r3 * T.r8 - T.r5 * T.r6
  let detxz0 := T.r3 * T.r7 - T.r4 * T.r6
  let det0 := T.r0 * detxx0 - T.r1 * detxy0 + T.r2 * detxz0
  let det := 1 / det0
  let detxx := detxx0 * det
  let detxy := detxy0 * det
  let detxz := detxz0 * det
  let detyx := (T.r1 * T.r8 - T.r2 * T.r7) * det
  let detyy := (T.r0 * T.r8 - T.r2 * T.r6) * det
  let detyz := (T.r0 * T.r7 - T.r1 * T.r6) * det
  let detzx := (T.r1 * T.r5 - T.r2 * T.r4) * det
  let detzy := (T.r0 * T.r5 - T.r2 * T.r3) * det
  let detzz := (T.r0 * T.r4 - T.r1 * T.r3) * det
  { t := ⟨-detxx * T.t.x + detyx * T.t.y - detzx * T.t.z,
          detxy * T.t.x - detyy * T.t.y + detzy * T.t.z,
          -detxz * T.t.x + detyz * T.t.y - detzz * T.t.z⟩
    r0 := detxx, r1 := -detyx, r2 := detzx
    r3 := -detxy, r4 := detyy, r5 := -detzy
    r6 := detxz, r7 := -detyz, r8 := detzz
    fHasTranslation := T.fHasTranslation
    fHasRotation := T.fHasRotation
    fIdentity := T.fIdentity }

end Trans3
end VecGeom
