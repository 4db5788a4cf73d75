import Verif.Transform.Spec
import Mathlib.LinearAlgebra.Matrix.NonsingularInverse
import Mathlib.Tactic.Ring
import Mathlib.Tactic.Linarith
import Mathlib.Tactic.LinearCombination
import Mathlib.Tactic.FieldSimp

namespace VecGeom
namespace Trans3

/-- The 3x3 matrix of the rotation part. -/
def mat (T : Trans3) : Matrix (Fin 3) (Fin 3) ℝ :=
  !![T.r0, T.r1, T.r2; T.r3, T.r4, T.r5; T.r6, T.r7, T.r8]

theorem Orthonormal.rows {T : Trans3} (h : T.Orthonormal) : T.RowOrthonormal := by
  have h1 : T.mat.transpose * T.mat = 1 := by
    ext i j
    fin_cases i <;> fin_cases j <;>
      simp [mat, Matrix.mul_apply, Fin.sum_univ_three, Matrix.one_apply] <;>
      linarith [h.c00, h.c11, h.c22, h.c01, h.c02, h.c12]
  have h2 : T.mat * T.mat.transpose = 1 := mul_eq_one_comm.mp h1
  have e (i j : Fin 3) := congrFun (congrFun h2 i) j
  constructor
  · have := e 0 0; simp [mat, Matrix.mul_apply, Fin.sum_univ_three] at this; linarith
  · have := e 1 1; simp [mat, Matrix.mul_apply, Fin.sum_univ_three] at this; linarith
  · have := e 2 2; simp [mat, Matrix.mul_apply, Fin.sum_univ_three] at this; linarith
  · have := e 0 1; simp [mat, Matrix.mul_apply, Fin.sum_univ_three] at this; linarith
  · have := e 0 2; simp [mat, Matrix.mul_apply, Fin.sum_univ_three] at this; linarith
  · have := e 1 2; simp [mat, Matrix.mul_apply, Fin.sum_univ_three] at this; linarith

theorem transform_eq (T : Trans3) (m : V3) : T.transform m = T.rotGeneric (T.doTranslation m) := by
  simp [transform, transformCode, doRotation]

theorem transformDirection_eq (T : Trans3) (m : V3) : T.transformDirection m = T.rotGeneric m := by
  simp [transformDirection, transformDirectionCode, doRotation]

theorem inverseTransform_eq_affine (T : Trans3) (l : V3) : T.inverseTransform l = T.affine l := by
  ext <;> simp [inverseTransform, affine] <;> ring

/-- With honest flags, `MultiplyFromRight` computes the product of the affine maps. -/
theorem mulRight_entries {A B : Trans3} (hB : B.FlagsOk) :
    (mulRight A B).t = ⟨A.t.x + A.r0 * B.t.x + A.r1 * B.t.y + A.r2 * B.t.z,
            A.t.y + A.r3 * B.t.x + A.r4 * B.t.y + A.r5 * B.t.z,
            A.t.z + A.r6 * B.t.x + A.r7 * B.t.y + A.r8 * B.t.z⟩ ∧
    (mulRight A B).r0 = A.r0 * B.r0 + A.r1 * B.r3 + A.r2 * B.r6 ∧
    (mulRight A B).r1 = A.r0 * B.r1 + A.r1 * B.r4 + A.r2 * B.r7 ∧
    (mulRight A B).r2 = A.r0 * B.r2 + A.r1 * B.r5 + A.r2 * B.r8 ∧
    (mulRight A B).r3 = A.r3 * B.r0 + A.r4 * B.r3 + A.r5 * B.r6 ∧
    (mulRight A B).r4 = A.r3 * B.r1 + A.r4 * B.r4 + A.r5 * B.r7 ∧
    (mulRight A B).r5 = A.r3 * B.r2 + A.r4 * B.r5 + A.r5 * B.r8 ∧
    (mulRight A B).r6 = A.r6 * B.r0 + A.r7 * B.r3 + A.r8 * B.r6 ∧
    (mulRight A B).r7 = A.r6 * B.r1 + A.r7 * B.r4 + A.r8 * B.r7 ∧
    (mulRight A B).r8 = A.r6 * B.r2 + A.r7 * B.r5 + A.r8 * B.r8 := by
  obtain ⟨ht, hr, hi⟩ := hB
  by_cases hT : B.fHasTranslation = true <;> by_cases hR : B.fHasRotation = true
  · simp [mulRight, mulTrans, mulRot, hi, hT, hR]
  · obtain ⟨e0, e1, e2, e3, e4, e5, e6, e7, e8⟩ := hr (by simpa using hR)
    simp [mulRight, mulTrans, mulRot, hi, hT, hR, e0, e1, e2, e3, e4, e5, e6, e7, e8]
  · have e := ht (by simpa using hT)
    simp [mulRight, mulTrans, mulRot, hi, hT, hR, e]
  · have e := ht (by simpa using hT)
    obtain ⟨e0, e1, e2, e3, e4, e5, e6, e7, e8⟩ := hr (by simpa using hR)
    simp [mulRight, mulTrans, mulRot, hi, hT, hR, e, e0, e1, e2, e3, e4, e5, e6, e7, e8]

theorem mulRight_flags {A B : Trans3} (hA : A.FlagsOk) (hB : B.FlagsOk) :
    (mulRight A B).fHasTranslation = (A.fHasTranslation || B.fHasTranslation) ∧
    (mulRight A B).fHasRotation = (A.fHasRotation || B.fHasRotation) ∧
    (mulRight A B).fIdentity = (A.fIdentity && B.fIdentity) := by
  have hi := hB.ident
  have hj := hA.ident
  by_cases hT : B.fHasTranslation = true <;> by_cases hR : B.fHasRotation = true <;>
    simp [mulRight, mulTrans, mulRot, hi, hT, hR, hj]

theorem mulRight_flagsOk {A B : Trans3} (hA : A.FlagsOk) (hB : B.FlagsOk) : (mulRight A B).FlagsOk := by
  obtain ⟨f1, f2, f3⟩ := mulRight_flags hA hB
  obtain ⟨et, e0, e1, e2, e3, e4, e5, e6, e7, e8⟩ := mulRight_entries (A := A) hB
  refine ⟨?_, ?_, ?_⟩
  · intro h
    rw [f1, Bool.or_eq_false_iff] at h
    rw [et, hA.trans h.1, hB.trans h.2]
    ext <;> simp
  · intro h
    rw [f2, Bool.or_eq_false_iff] at h
    obtain ⟨a0, a1, a2, a3, a4, a5, a6, a7, a8⟩ := hA.rot h.1
    obtain ⟨b0, b1, b2, b3, b4, b5, b6, b7, b8⟩ := hB.rot h.2
    rw [e0, e1, e2, e3, e4, e5, e6, e7, e8, a0, a1, a2, a3, a4, a5, a6, a7, a8,
      b0, b1, b2, b3, b4, b5, b6, b7, b8]
    norm_num
  · rw [f1, f2, f3, hA.ident, hB.ident]
    cases A.fHasTranslation <;> cases B.fHasTranslation <;> cases A.fHasRotation <;>
      cases B.fHasRotation <;> rfl

theorem identity_flagsOk : identity.FlagsOk := by
  refine ⟨fun _ => rfl, fun _ => ?_, rfl⟩
  simp [identity]

/-- Which tests were true, from the code (all 512 patterns). -/
theorem rawCode_testBit : ∀ b0 b1 b2 b3 b4 b5 b6 b7 b8 : Bool,
    let c := rawCode b0 b1 b2 b3 b4 b5 b6 b7 b8
    c < 512 ∧ c.testBit 0 = b0 ∧ c.testBit 1 = b1 ∧ c.testBit 2 = b2 ∧ c.testBit 3 = b3 ∧
    c.testBit 4 = b4 ∧ c.testBit 5 = b5 ∧ c.testBit 6 = b6 ∧ c.testBit 7 = b7 ∧ c.testBit 8 = b8 := by
  decide +kernel

/-- Entries not seen by the code generator are exactly zero. -/
structure Clean (T : Trans3) : Prop where
  h0 : big T.r0 = false → T.r0 = 0
  h1 : big T.r1 = false → T.r1 = 0
  h2 : big T.r2 = false → T.r2 = 0
  h3 : big T.r3 = false → T.r3 = 0
  h4 : big T.r4 = false → T.r4 = 0
  h5 : big T.r5 = false → T.r5 = 0
  h6 : big T.r6 = false → T.r6 = 0
  h7 : big T.r7 = false → T.r7 = 0
  h8 : big T.r8 = false → T.r8 = 0

theorem generateRotationCode_cases (T : Trans3) :
    ∃ c : Nat, c < 512 ∧ c.testBit 0 = big T.r0 ∧ c.testBit 1 = big T.r1 ∧ c.testBit 2 = big T.r2 ∧
      c.testBit 3 = big T.r3 ∧ c.testBit 4 = big T.r4 ∧ c.testBit 5 = big T.r5 ∧
      c.testBit 6 = big T.r6 ∧ c.testBit 7 = big T.r7 ∧ c.testBit 8 = big T.r8 ∧
      ((T.generateRotationCode = c ∧ ¬ (c = 0x111 ∧ T.r0 = 1 ∧ T.r4 = 1 ∧ T.r8 = 1)) ∨
       (T.generateRotationCode = 0x200 ∧ c = 0x111 ∧ T.r0 = 1 ∧ T.r4 = 1 ∧ T.r8 = 1)) := by
  have h := rawCode_testBit (big T.r0) (big T.r1) (big T.r2) (big T.r3) (big T.r4) (big T.r5)
    (big T.r6) (big T.r7) (big T.r8)
  refine ⟨_, h.1, h.2.1, h.2.2.1, h.2.2.2.1, h.2.2.2.2.1, h.2.2.2.2.2.1, h.2.2.2.2.2.2.1,
    h.2.2.2.2.2.2.2.1, h.2.2.2.2.2.2.2.2.1, h.2.2.2.2.2.2.2.2.2, ?_⟩
  unfold generateRotationCode
  simp only
  split_ifs with hc
  · right; refine ⟨rfl, ?_, hc.2⟩; exact_mod_cast hc.1
  · left; refine ⟨rfl, ?_⟩; intro h'; exact hc ⟨by exact_mod_cast h'.1, h'.2⟩

end Trans3
end VecGeom
