import Verif.Transform.Lemmas
import Mathlib.Tactic.NormNum

/-!
# Properties of Transformation3D (C23 - C27)
-/

namespace VecGeom
namespace Trans3

/-- A concrete proper rotation with a translation, used in the non-vacuity examples:
first rotate, with matrix rows `(0,1,0), (3/5,0,4/5), (4/5,0,-3/5)`, then translate by `(1,2,3)`. -/
noncomputable def sample : Trans3 :=
  ⟨⟨1, 2, 3⟩, 0, 1, 0, 3/5, 0, 4/5, 4/5, 0, -3/5, false, true, true⟩

theorem sample_orthonormal : sample.Orthonormal := by
  constructor <;> norm_num [sample]

theorem sample_flagsOk : sample.FlagsOk := by
  constructor <;> simp [sample]

/-! ## C23: to local and back -/

/-- C23: converting a point to the local frame and back returns the point. -/
theorem C23_point_roundtrip_master {T : Trans3} (h : T.Orthonormal) (p : V3) :
    T.inverseTransform (T.transform p) = p := by
  have r := h.rows
  rw [transform_eq]
  ext
  · simp only [inverseTransform, rotGeneric, doTranslation]
    linear_combination (p.x - T.t.x) * r.r00 + (p.y - T.t.y) * r.r01 + (p.z - T.t.z) * r.r02
  · simp only [inverseTransform, rotGeneric, doTranslation]
    linear_combination (p.x - T.t.x) * r.r01 + (p.y - T.t.y) * r.r11 + (p.z - T.t.z) * r.r12
  · simp only [inverseTransform, rotGeneric, doTranslation]
    linear_combination (p.x - T.t.x) * r.r02 + (p.y - T.t.y) * r.r12 + (p.z - T.t.z) * r.r22

/-- C23: converting a local point to the mother frame and back returns the point. -/
theorem C23_point_roundtrip_local {T : Trans3} (h : T.Orthonormal) (q : V3) :
    T.transform (T.inverseTransform q) = q := by
  rw [transform_eq]
  ext
  · simp only [inverseTransform, rotGeneric, doTranslation]
    linear_combination q.x * h.c00 + q.y * h.c01 + q.z * h.c02
  · simp only [inverseTransform, rotGeneric, doTranslation]
    linear_combination q.x * h.c01 + q.y * h.c11 + q.z * h.c12
  · simp only [inverseTransform, rotGeneric, doTranslation]
    linear_combination q.x * h.c02 + q.y * h.c12 + q.z * h.c22

/-- C23: the same for directions, both ways. -/
theorem C23_direction_roundtrip {T : Trans3} (h : T.Orthonormal) (d : V3) :
    T.inverseTransformDirection (T.transformDirection d) = d ∧
    T.transformDirection (T.inverseTransformDirection d) = d := by
  have r := h.rows
  rw [transformDirection_eq, transformDirection_eq]
  refine ⟨?_, ?_⟩
  · ext
    · simp only [inverseTransformDirection, rotGeneric]
      linear_combination d.x * r.r00 + d.y * r.r01 + d.z * r.r02
    · simp only [inverseTransformDirection, rotGeneric]
      linear_combination d.x * r.r01 + d.y * r.r11 + d.z * r.r12
    · simp only [inverseTransformDirection, rotGeneric]
      linear_combination d.x * r.r02 + d.y * r.r12 + d.z * r.r22
  · ext
    · simp only [inverseTransformDirection, rotGeneric]
      linear_combination d.x * h.c00 + d.y * h.c01 + d.z * h.c02
    · simp only [inverseTransformDirection, rotGeneric]
      linear_combination d.x * h.c01 + d.y * h.c11 + d.z * h.c12
    · simp only [inverseTransformDirection, rotGeneric]
      linear_combination d.x * h.c02 + d.y * h.c12 + d.z * h.c22

/-- C23: directions keep their length, and distances between points are kept. -/
theorem C23_isometry {T : Trans3} (h : T.Orthonormal) (d p q : V3) :
    (T.transformDirection d).mag2 = d.mag2 ∧ (T.inverseTransformDirection d).mag2 = d.mag2 ∧
    (T.transform p - T.transform q).mag2 = (p - q).mag2 := by
  have r := h.rows
  rw [transformDirection_eq, transform_eq, transform_eq]
  refine ⟨?_, ?_, ?_⟩
  · simp only [V3.mag2, V3.dot, rotGeneric]
    linear_combination d.x^2 * r.r00 + d.y^2 * r.r11 + d.z^2 * r.r22 + 2*d.x*d.y * r.r01 +
      2*d.x*d.z * r.r02 + 2*d.y*d.z * r.r12
  · simp only [V3.mag2, V3.dot, inverseTransformDirection]
    linear_combination d.x^2 * h.c00 + d.y^2 * h.c11 + d.z^2 * h.c22 + 2*d.x*d.y * h.c01 +
      2*d.x*d.z * h.c02 + 2*d.y*d.z * h.c12
  · simp only [V3.mag2, V3.dot, rotGeneric, doTranslation, V3.sub_x, V3.sub_y, V3.sub_z]
    linear_combination (p.x-q.x)^2 * r.r00 + (p.y-q.y)^2 * r.r11 + (p.z-q.z)^2 * r.r22 +
      2*(p.x-q.x)*(p.y-q.y) * r.r01 + 2*(p.x-q.x)*(p.z-q.z) * r.r02 + 2*(p.y-q.y)*(p.z-q.z) * r.r12

/-- A translation is rigid and translates by exactly its argument. -/
theorem C23_translation (tx ty tz : ℝ) (p : V3) :
    (ofTranslation tx ty tz).Orthonormal ∧
    (ofTranslation tx ty tz).inverseTransform p = ⟨p.x + tx, p.y + ty, p.z + tz⟩ ∧
    (ofTranslation tx ty tz).transform p = ⟨p.x - tx, p.y - ty, p.z - tz⟩ := by
  rw [transform_eq]
  refine ⟨by constructor <;> norm_num [ofTranslation], ?_, ?_⟩
  · ext <;> simp [ofTranslation, inverseTransform] <;> ring
  · ext <;> simp [ofTranslation, rotGeneric, doTranslation]

example : sample.inverseTransform (sample.transform ⟨7, -2, 5⟩) = ⟨7, -2, 5⟩ :=
  C23_point_roundtrip_master sample_orthonormal _

example : sample.transform ⟨7, -2, 5⟩ ≠ ⟨7, -2, 5⟩ := by
  rw [transform_eq]; intro h
  have := congrArg V3.x h
  norm_num [sample, rotGeneric, doTranslation] at this

/-- Finding: for the constructor with scale factors, `Transform` is not the inverse of
`InverseTransform` (it multiplies with the transposed, not with the inverted matrix). -/
theorem C23_scaled_counterexample :
    ∃ p, (ofEulerScaled 0 0 0 0 0 0 2 2 2).transform
      ((ofEulerScaled 0 0 0 0 0 0 2 2 2).inverseTransform p) ≠ p := by
  refine ⟨⟨1, 0, 0⟩, ?_⟩
  intro h
  have := congrArg V3.x h
  rw [transform_eq] at this
  norm_num [ofEulerScaled, setProperties, applyScale, setRotationEuler, setTranslation, raw,
    inverseTransform, rotGeneric, doTranslation] at this

/-! ## C24: composition -/

/-- C24: leaving two nested frames at once is the same as leaving them one after the other. -/
theorem C24_inverseTransform {A B : Trans3} (hB : B.FlagsOk) (l : V3) :
    (mulRight A B).inverseTransform l = A.inverseTransform (B.inverseTransform l) := by
  obtain ⟨et, e0, e1, e2, e3, e4, e5, e6, e7, e8⟩ := mulRight_entries (A := A) hB
  ext <;> simp only [inverseTransform, et, e0, e1, e2, e3, e4, e5, e6, e7, e8] <;> ring

/-- C24: the product converts coordinates as converting first with `A` and then with `B`. -/
theorem C24_transform {A B : Trans3} (hA : A.Orthonormal) (hB : B.FlagsOk) (m : V3) :
    (mulRight A B).transform m = B.transform (A.transform m) := by
  obtain ⟨et, e0, e1, e2, e3, e4, e5, e6, e7, e8⟩ := mulRight_entries (A := A) hB
  rw [transform_eq, transform_eq, transform_eq]
  have h := hA
  ext
  · simp only [rotGeneric, doTranslation, et, e0, e1, e2, e3, e4, e5, e6, e7, e8]
    linear_combination -(B.r0 * B.t.x) * h.c00 - (B.r0 * B.t.y + B.r3 * B.t.x) * h.c01
      - (B.r0 * B.t.z + B.r6 * B.t.x) * h.c02 - (B.r3 * B.t.y) * h.c11
      - (B.r3 * B.t.z + B.r6 * B.t.y) * h.c12 - (B.r6 * B.t.z) * h.c22
  · simp only [rotGeneric, doTranslation, et, e0, e1, e2, e3, e4, e5, e6, e7, e8]
    linear_combination -(B.r1 * B.t.x) * h.c00 - (B.r1 * B.t.y + B.r4 * B.t.x) * h.c01
      - (B.r1 * B.t.z + B.r7 * B.t.x) * h.c02 - (B.r4 * B.t.y) * h.c11
      - (B.r4 * B.t.z + B.r7 * B.t.y) * h.c12 - (B.r7 * B.t.z) * h.c22
  · simp only [rotGeneric, doTranslation, et, e0, e1, e2, e3, e4, e5, e6, e7, e8]
    linear_combination -(B.r2 * B.t.x) * h.c00 - (B.r2 * B.t.y + B.r5 * B.t.x) * h.c01
      - (B.r2 * B.t.z + B.r8 * B.t.x) * h.c02 - (B.r5 * B.t.y) * h.c11
      - (B.r5 * B.t.z + B.r8 * B.t.y) * h.c12 - (B.r8 * B.t.z) * h.c22

/-- C24: the same for directions (no rigidity needed). -/
theorem C24_direction {A B : Trans3} (hB : B.FlagsOk) (d : V3) :
    (mulRight A B).transformDirection d = B.transformDirection (A.transformDirection d) ∧
    (mulRight A B).inverseTransformDirection d =
      A.inverseTransformDirection (B.inverseTransformDirection d) := by
  obtain ⟨et, e0, e1, e2, e3, e4, e5, e6, e7, e8⟩ := mulRight_entries (A := A) hB
  rw [transformDirection_eq, transformDirection_eq, transformDirection_eq]
  refine ⟨?_, ?_⟩
  · ext <;> simp only [rotGeneric, e0, e1, e2, e3, e4, e5, e6, e7, e8] <;> ring
  · ext <;> simp only [inverseTransformDirection, e0, e1, e2, e3, e4, e5, e6, e7, e8] <;> ring

/-- C24: honest flags are preserved by composition, and rigid motions compose to rigid motions. -/
theorem C24_closed {A B : Trans3} (hA : A.FlagsOk) (hB : B.FlagsOk) :
    (mulRight A B).FlagsOk ∧
      (A.Orthonormal → B.Orthonormal → (mulRight A B).Orthonormal) := by
  refine ⟨mulRight_flagsOk hA hB, fun oA oB => ?_⟩
  obtain ⟨-, e0, e1, e2, e3, e4, e5, e6, e7, e8⟩ := mulRight_entries (A := A) hB
  constructor <;> simp only [e0, e1, e2, e3, e4, e5, e6, e7, e8]
  · linear_combination B.r0^2 * oA.c00 + B.r3^2 * oA.c11 + B.r6^2 * oA.c22 +
      2*B.r0*B.r3 * oA.c01 + 2*B.r0*B.r6 * oA.c02 + 2*B.r3*B.r6 * oA.c12 + oB.c00
  · linear_combination B.r1^2 * oA.c00 + B.r4^2 * oA.c11 + B.r7^2 * oA.c22 +
      2*B.r1*B.r4 * oA.c01 + 2*B.r1*B.r7 * oA.c02 + 2*B.r4*B.r7 * oA.c12 + oB.c11
  · linear_combination B.r2^2 * oA.c00 + B.r5^2 * oA.c11 + B.r8^2 * oA.c22 +
      2*B.r2*B.r5 * oA.c01 + 2*B.r2*B.r8 * oA.c02 + 2*B.r5*B.r8 * oA.c12 + oB.c22
  · linear_combination B.r0*B.r1 * oA.c00 + B.r3*B.r4 * oA.c11 + B.r6*B.r7 * oA.c22 +
      (B.r0*B.r4 + B.r3*B.r1) * oA.c01 + (B.r0*B.r7 + B.r6*B.r1) * oA.c02 +
      (B.r3*B.r7 + B.r6*B.r4) * oA.c12 + oB.c01
  · linear_combination B.r0*B.r2 * oA.c00 + B.r3*B.r5 * oA.c11 + B.r6*B.r8 * oA.c22 +
      (B.r0*B.r5 + B.r3*B.r2) * oA.c01 + (B.r0*B.r8 + B.r6*B.r2) * oA.c02 +
      (B.r3*B.r8 + B.r6*B.r5) * oA.c12 + oB.c02
  · linear_combination B.r1*B.r2 * oA.c00 + B.r4*B.r5 * oA.c11 + B.r7*B.r8 * oA.c22 +
      (B.r1*B.r5 + B.r4*B.r2) * oA.c01 + (B.r1*B.r8 + B.r7*B.r2) * oA.c02 +
      (B.r4*B.r8 + B.r7*B.r5) * oA.c12 + oB.c12

/-- C24: composition is associative, flags included. -/
theorem C24_assoc {A B C : Trans3} (hA : A.FlagsOk) (hB : B.FlagsOk) (hC : C.FlagsOk) :
    mulRight (mulRight A B) C = mulRight A (mulRight B C) := by
  have hAB := mulRight_flagsOk hA hB
  have hBC := mulRight_flagsOk hB hC
  obtain ⟨et, e0, e1, e2, e3, e4, e5, e6, e7, e8⟩ := mulRight_entries (A := A) hB
  obtain ⟨ft, f0, f1, f2, f3, f4, f5, f6, f7, f8⟩ := mulRight_entries (A := B) hC
  obtain ⟨gt, g0, g1, g2, g3, g4, g5, g6, g7, g8⟩ := mulRight_entries (A := mulRight A B) hC
  obtain ⟨kt, k0, k1, k2, k3, k4, k5, k6, k7, k8⟩ := mulRight_entries (A := A) hBC
  obtain ⟨x1, x2, x3⟩ := mulRight_flags hA hB
  obtain ⟨y1, y2, y3⟩ := mulRight_flags hB hC
  obtain ⟨z1, z2, z3⟩ := mulRight_flags hAB hC
  obtain ⟨w1, w2, w3⟩ := mulRight_flags hA hBC
  ext
  · rw [gt, kt]; simp only [et, ft, e0, e1, e2]; ring
  · rw [gt, kt]; simp only [et, ft, e3, e4, e5]; ring
  · rw [gt, kt]; simp only [et, ft, e6, e7, e8]; ring
  · rw [g0, k0, e0, e1, e2, f0, f3, f6]; ring
  · rw [g1, k1, e0, e1, e2, f1, f4, f7]; ring
  · rw [g2, k2, e0, e1, e2, f2, f5, f8]; ring
  · rw [g3, k3, e3, e4, e5, f0, f3, f6]; ring
  · rw [g4, k4, e3, e4, e5, f1, f4, f7]; ring
  · rw [g5, k5, e3, e4, e5, f2, f5, f8]; ring
  · rw [g6, k6, e6, e7, e8, f0, f3, f6]; ring
  · rw [g7, k7, e6, e7, e8, f1, f4, f7]; ring
  · rw [g8, k8, e6, e7, e8, f2, f5, f8]; ring
  · rw [z3, w3, x3, y3, Bool.and_assoc]
  · rw [z2, w2, x2, y2, Bool.or_assoc]
  · rw [z1, w1, x1, y1, Bool.or_assoc]

/-- C24: the default-constructed transformation is neutral on both sides. -/
theorem C24_identity {A : Trans3} (hA : A.FlagsOk) :
    mulRight identity A = A ∧ mulRight A identity = A := by
  refine ⟨?_, by simp [mulRight, identity]⟩
  obtain ⟨et, e0, e1, e2, e3, e4, e5, e6, e7, e8⟩ := mulRight_entries (A := identity) hA
  obtain ⟨x1, x2, x3⟩ := mulRight_flags identity_flagsOk hA
  ext
  · rw [et]; simp [identity]
  · rw [et]; simp [identity]
  · rw [et]; simp [identity]
  · rw [e0]; simp [identity]
  · rw [e1]; simp [identity]
  · rw [e2]; simp [identity]
  · rw [e3]; simp [identity]
  · rw [e4]; simp [identity]
  · rw [e5]; simp [identity]
  · rw [e6]; simp [identity]
  · rw [e7]; simp [identity]
  · rw [e8]; simp [identity]
  · rw [x3]; simp [identity]
  · rw [x2]; simp [identity]
  · rw [x1]; simp [identity]

example : (mulRight sample sample).transform ⟨1, 1, 1⟩ = sample.transform (sample.transform ⟨1, 1, 1⟩) :=
  C24_transform sample_orthonormal sample_flagsOk _

/-- The translation constructor sets honest flags, for every argument. -/
theorem C24_translation_flags (tx ty tz : ℝ) : (ofTranslation tx ty tz).FlagsOk := by
  refine ⟨fun h => ?_, fun _ => ?_, ?_⟩
  · simp only [ofTranslation, decide_eq_false_iff_not, not_or, not_not] at h
    ext <;> simp [ofTranslation, h]
  · simp [ofTranslation]
  · by_cases h1 : tx = 0 <;> by_cases h2 : ty = 0 <;> by_cases h3 : tz = 0 <;>
      simp [ofTranslation, h1, h2, h3]

/-- `SetProperties` sets honest flags if the entries it rates as zero are zero. -/
theorem C24_setProperties_flags {T : Trans3} (hT : |T.t.x| ≤ kTolerance → T.t.x = 0)
    (hT1 : |T.t.y| ≤ kTolerance → T.t.y = 0) (hT2 : |T.t.z| ≤ kTolerance → T.t.z = 0)
    (hc : T.Clean) : T.setProperties.FlagsOk := by
  refine ⟨fun h => ?_, fun h => ?_, rfl⟩
  · simp only [setProperties, gt_iff_lt, decide_eq_false_iff_not, not_or, not_lt] at h
    ext
    · exact hT h.1
    · exact hT1 h.2.1
    · exact hT2 h.2.2
  · simp only [setProperties, Bool.not_eq_false', decide_eq_true_eq] at h
    obtain ⟨c, hlt, b0, b1, b2, b3, b4, b5, b6, b7, b8, h1 | h1⟩ := generateRotationCode_cases T
    · have : (c : Int) = 0x200 := h1.1.symm.trans h
      omega
    · obtain ⟨-, rfl, e0, e4, e8⟩ := h1
      have k1 := hc.h1 (by rw [← b1]; decide)
      have k2 := hc.h2 (by rw [← b2]; decide)
      have k3 := hc.h3 (by rw [← b3]; decide)
      have k5 := hc.h5 (by rw [← b5]; decide)
      have k6 := hc.h6 (by rw [← b6]; decide)
      have k7 := hc.h7 (by rw [← b7]; decide)
      exact ⟨e0, k1, k2, k3, e4, k5, k6, k7, e8⟩

/-- Finding: `SetProperties` clears the translation flag of a translation shorter than the
tolerance without zeroing it, and `MultiplyFromRight` then drops it. -/
theorem C24_small_translation_dropped :
    ∃ B : Trans3, B = (ofEntries (1 / 10000000000) 0 0 1 0 0 0 1 0 0 0 1) ∧
      ∃ l, (mulRight identity B).inverseTransform l ≠ identity.inverseTransform (B.inverseTransform l) := by
  refine ⟨_, rfl, ⟨0, 0, 0⟩, ?_⟩
  have hc : (ofEntries (1 / 10000000000) 0 0 1 0 0 0 1 0 0 0 1).fIdentity = true := by
    have hbig1 : big 1 = true := by simp [big, kTolerance]; norm_num
    have hbig0 : big 0 = false := by simp [big, kTolerance]
    have hg : generateRotationCode (⟨⟨1 / 10000000000, 0, 0⟩, 1, 0, 0, 0, 1, 0, 0, 0, 1, false, true, true⟩)
        = 0x200 := by
      simp only [generateRotationCode, hbig1, hbig0]
      rw [if_pos]
      simp; decide
    simp only [ofEntries, setProperties, setRotation9, setTranslation, raw, hg]
    norm_num [kTolerance, abs_of_pos]
  intro h
  have hx := congrArg V3.x h
  unfold mulRight at hx
  rw [if_pos hc] at hx
  norm_num [inverseTransform, identity, ofEntries, setProperties, setRotation9, setTranslation, raw] at hx

/-! ## C25: inverse -/

/-- C25: the inverse of a nonsingular transformation undoes it on both sides. -/
theorem C25_inverse {T : Trans3} (h : T.determinant ≠ 0) (l : V3) :
    T.inverse.inverseTransform (T.inverseTransform l) = l ∧
    T.inverseTransform (T.inverse.inverseTransform l) = l := by
  have h' : T.r0 * (T.r4 * T.r8 - T.r5 * T.r7) - T.r1 * (T.r3 * T.r8 - T.r5 * T.r6) +
      T.r2 * (T.r3 * T.r7 - T.r4 * T.r6) ≠ 0 := h
  have hD := mul_one_div_cancel h'
  refine ⟨?_, ?_⟩ <;> ext <;> simp only [inverseTransform, inverse] <;>
    generalize 1 / (T.r0 * (T.r4 * T.r8 - T.r5 * T.r7) - T.r1 * (T.r3 * T.r8 - T.r5 * T.r6) +
      T.r2 * (T.r3 * T.r7 - T.r4 * T.r6)) = D at hD ⊢
  · linear_combination l.x * hD
  · linear_combination l.y * hD
  · linear_combination l.z * hD
  · linear_combination (l.x - T.t.x) * hD
  · linear_combination (l.y - T.t.y) * hD
  · linear_combination (l.z - T.t.z) * hD

/-- C25: for a rigid motion, `Transform` of the inverse undoes `Transform`. -/
theorem C25_inverse_rigid {T : Trans3} (h : T.Orthonormal) (p : V3) :
    T.determinant ≠ 0 ∧ T.inverse.Orthonormal ∧
    T.inverse.transform (T.transform p) = p ∧ T.transform (T.inverse.transform p) = p := by
  have hd : T.determinant * T.determinant = 1 := by
    have e : T.determinant = T.mat.det := by
      simp [determinant, mat, Matrix.det_fin_three]; ring
    have h1 : T.mat.transpose * T.mat = 1 := by
      ext i j
      fin_cases i <;> fin_cases j <;>
        simp [mat, Matrix.mul_apply, Fin.sum_univ_three] <;>
        linarith [h.c00, h.c11, h.c22, h.c01, h.c02, h.c12]
    have := congrArg Matrix.det h1
    rw [Matrix.det_mul, Matrix.det_transpose, Matrix.det_one] at this
    rw [e]; exact this
  have hne : T.determinant ≠ 0 := by
    intro h0; rw [h0] at hd; norm_num at hd
  -- the entries of the inverse are those of the transpose
  have key : ∀ v : V3, T.inverse.inverseTransform v = T.transform v := by
    intro v
    have := C25_inverse hne (T.transform v)
    have e := C23_point_roundtrip_master h v
    rw [e] at this
    exact this.1
  have ent : T.inverse.r0 = T.r0 ∧ T.inverse.r1 = T.r3 ∧ T.inverse.r2 = T.r6 ∧
      T.inverse.r3 = T.r1 ∧ T.inverse.r4 = T.r4 ∧ T.inverse.r5 = T.r7 ∧
      T.inverse.r6 = T.r2 ∧ T.inverse.r7 = T.r5 ∧ T.inverse.r8 = T.r8 := by
    have k0 := key ⟨0, 0, 0⟩
    have kx := key ⟨1, 0, 0⟩
    have ky := key ⟨0, 1, 0⟩
    have kz := key ⟨0, 0, 1⟩
    rw [transform_eq] at k0 kx ky kz
    have c (f : V3 → ℝ) (k : V3) (k' : V3) (e : k = k') : f k = f k' := congrArg f e
    have x0 := congrArg V3.x k0; have y0 := congrArg V3.y k0; have z0 := congrArg V3.z k0
    have xx := congrArg V3.x kx; have yx := congrArg V3.y kx; have zx := congrArg V3.z kx
    have xy := congrArg V3.x ky; have yy := congrArg V3.y ky; have zy := congrArg V3.z ky
    have xz := congrArg V3.x kz; have yz := congrArg V3.y kz; have zz := congrArg V3.z kz
    simp only [inverseTransform, rotGeneric, doTranslation] at x0 y0 z0 xx yx zx xy yy zy xz yz zz
    refine ⟨?_, ?_, ?_, ?_, ?_, ?_, ?_, ?_, ?_⟩ <;> linarith
  obtain ⟨e0, e1, e2, e3, e4, e5, e6, e7, e8⟩ := ent
  have r := h.rows
  have ho : T.inverse.Orthonormal := by
    constructor <;> rw [] <;> simp only [e0, e1, e2, e3, e4, e5, e6, e7, e8] <;>
      linarith [r.r00, r.r11, r.r22, r.r01, r.r02, r.r12]
  refine ⟨hne, ho, ?_, ?_⟩
  · rw [← key p]
    exact C23_point_roundtrip_local ho p
  · rw [← key (T.inverse.transform p)]
    exact C23_point_roundtrip_master ho p

/-- C25: inverting keeps honest flags. -/
theorem C25_inverse_flags {T : Trans3} (h : T.FlagsOk) : T.inverse.FlagsOk := by
  refine ⟨fun hf => ?_, fun hf => ?_, h.ident⟩
  · have e := h.trans hf
    ext <;> simp [inverse, e]
  · obtain ⟨a0, a1, a2, a3, a4, a5, a6, a7, a8⟩ := h.rot hf
    simp [inverse, a0, a1, a2, a3, a4, a5, a6, a7, a8]

example : sample.determinant ≠ 0 := (C25_inverse_rigid sample_orthonormal ⟨0, 0, 0⟩).1

/-! ## C26: specialised rotation codes -/

/-- C26 (partial): for each nonsingular matrix whose entries below the tolerance are exact zeros, the
rotation specialised on the generated code equals the generic rotation — except for code `0x16A`,
see `C26_counterexample`.  (Nonsingularity is needed because branch `0x046` is written for the pattern
`0x08C`, see `C26_code046_counterexample`; no nonsingular matrix has code `0x046`.) -/
theorem C26_rotation_partial {T : Trans3} (hc : T.Clean) (hdet : T.determinant ≠ 0)
    (hcode : T.generateRotationCode ≠ 0x16A) (m : V3) :
    T.doRotation T.generateRotationCode m = T.rotGeneric m := by
  obtain ⟨c, hlt, b0, b1, b2, b3, b4, b5, b6, b7, b8, h1 | h1⟩ := generateRotationCode_cases T
  · obtain ⟨hgen, -⟩ := h1
    rw [hgen] at hcode ⊢
    have z0 := hc.h0; have z1 := hc.h1; have z2 := hc.h2; have z3 := hc.h3; have z4 := hc.h4
    have z5 := hc.h5; have z6 := hc.h6; have z7 := hc.h7; have z8 := hc.h8
    rw [← b0] at z0; rw [← b1] at z1; rw [← b2] at z2; rw [← b3] at z3; rw [← b4] at z4
    rw [← b5] at z5; rw [← b6] at z6; rw [← b7] at z7; rw [← b8] at z8
    have hne : c ≠ 0x16A := by intro h; rw [h] at hcode; exact hcode rfl
    by_cases g433 : c = 433
    · subst g433
      change (⟨m.x * T.r0, m.y * T.r4 + m.z * T.r7, m.y * T.r5 + m.z * T.r8⟩ : V3) = T.rotGeneric m
      unfold rotGeneric
      rw [z1 (by decide), z2 (by decide), z3 (by decide), z6 (by decide)]; ext <;> simp only [] <;> ring
    by_cases g398 : c = 398
    · subst g398
      change (⟨m.y * T.r3, m.x * T.r1 + m.z * T.r7, m.x * T.r2 + m.z * T.r8⟩ : V3) = T.rotGeneric m
      unfold rotGeneric
      rw [z0 (by decide), z4 (by decide), z5 (by decide), z6 (by decide)]; ext <;> simp only [] <;> ring
    by_cases g118 : c = 118
    · subst g118
      change (⟨m.z * T.r6, m.x * T.r1 + m.y * T.r4, m.x * T.r2 + m.y * T.r5⟩ : V3) = T.rotGeneric m
      unfold rotGeneric
      rw [z0 (by decide), z3 (by decide), z7 (by decide), z8 (by decide)]; ext <;> simp only [] <;> ring
    by_cases g341 : c = 341
    · subst g341
      change (⟨m.x * T.r0 + m.z * T.r6, m.y * T.r4, m.x * T.r2 + m.z * T.r8⟩ : V3) = T.rotGeneric m
      unfold rotGeneric
      rw [z1 (by decide), z3 (by decide), z5 (by decide), z7 (by decide)]; ext <;> simp only [] <;> ring
    by_cases g173 : c = 173
    · subst g173
      change (⟨m.x * T.r0 + m.y * T.r3, m.z * T.r7, m.x * T.r2 + m.y * T.r5⟩ : V3) = T.rotGeneric m
      unfold rotGeneric
      rw [z1 (by decide), z4 (by decide), z6 (by decide), z8 (by decide)]; ext <;> simp only [] <;> ring
    by_cases g220 : c = 220
    · subst g220
      change (⟨m.y * T.r3 + m.z * T.r6, m.y * T.r4 + m.z * T.r7, m.x * T.r2⟩ : V3) = T.rotGeneric m
      unfold rotGeneric
      rw [z0 (by decide), z1 (by decide), z5 (by decide), z8 (by decide)]; ext <;> simp only [] <;> ring
    by_cases g227 : c = 227
    · subst g227
      change (⟨m.x * T.r0 + m.z * T.r6, m.x * T.r1 + m.z * T.r7, m.y * T.r5⟩ : V3) = T.rotGeneric m
      unfold rotGeneric
      rw [z2 (by decide), z3 (by decide), z4 (by decide), z8 (by decide)]; ext <;> simp only [] <;> ring
    by_cases g283 : c = 283
    · subst g283
      change (⟨m.x * T.r0 + m.y * T.r3, m.x * T.r1 + m.y * T.r4, m.z * T.r8⟩ : V3) = T.rotGeneric m
      unfold rotGeneric
      rw [z2 (by decide), z5 (by decide), z6 (by decide), z7 (by decide)]; ext <;> simp only [] <;> ring
    by_cases g161 : c = 161
    · subst g161
      change (⟨m.x * T.r0, m.z * T.r7, m.y * T.r5⟩ : V3) = T.rotGeneric m
      unfold rotGeneric
      rw [z1 (by decide), z2 (by decide), z3 (by decide), z4 (by decide), z6 (by decide), z8 (by decide)]; ext <;> simp only [] <;> ring
    by_cases g266 : c = 266
    · subst g266
      change (⟨m.y * T.r3, m.x * T.r1, m.z * T.r8⟩ : V3) = T.rotGeneric m
      unfold rotGeneric
      rw [z0 (by decide), z2 (by decide), z4 (by decide), z5 (by decide), z6 (by decide), z7 (by decide)]; ext <;> simp only [] <;> ring
    by_cases g70 : c = 70
    · -- pattern 0x046: second and third row vanish in two columns, the matrix is singular
      subst g70
      refine absurd ?_ hdet
      simp only [determinant, z0 (by decide), z3 (by decide), z4 (by decide), z5 (by decide),
        z7 (by decide), z8 (by decide)]
      ring
    by_cases g98 : c = 98
    · subst g98
      change (⟨m.z * T.r6, m.x * T.r1, m.y * T.r5⟩ : V3) = T.rotGeneric m
      unfold rotGeneric
      rw [z0 (by decide), z2 (by decide), z3 (by decide), z4 (by decide), z7 (by decide), z8 (by decide)]; ext <;> simp only [] <;> ring
    by_cases g84 : c = 84
    · subst g84
      change (⟨m.z * T.r6, m.y * T.r4, m.x * T.r2⟩ : V3) = T.rotGeneric m
      unfold rotGeneric
      rw [z0 (by decide), z1 (by decide), z3 (by decide), z5 (by decide), z7 (by decide), z8 (by decide)]; ext <;> simp only [] <;> ring
    by_cases g273 : c = 273
    · subst g273
      change (⟨m.x * T.r0, m.y * T.r4, m.z * T.r8⟩ : V3) = T.rotGeneric m
      unfold rotGeneric
      rw [z1 (by decide), z2 (by decide), z3 (by decide), z5 (by decide), z6 (by decide), z7 (by decide)]; ext <;> simp only [] <;> ring
    unfold doRotation
    repeat rw [if_neg (by omega)]
  · obtain ⟨hgen, rfl, e0, e4, e8⟩ := h1
    have k1 := hc.h1 (by rw [← b1]; decide)
    have k2 := hc.h2 (by rw [← b2]; decide)
    have k3 := hc.h3 (by rw [← b3]; decide)
    have k5 := hc.h5 (by rw [← b5]; decide)
    have k6 := hc.h6 (by rw [← b6]; decide)
    have k7 := hc.h7 (by rw [← b7]; decide)
    rw [hgen]
    ext <;> simp [doRotation, rotGeneric, e0, e4, e8, k1, k2, k3, k5, k6, k7]

/-- C26 (partial): the fully specialised point conversion, selected by the generated translation and
rotation codes, equals the generic one (same exception). -/
theorem C26_transform_partial {T : Trans3} (hf : T.FlagsOk) (hc : T.Clean) (hdet : T.determinant ≠ 0)
    (hcode : T.generateRotationCode ≠ 0x16A) (m : V3) :
    T.transformCode T.generateTranslationCode T.generateRotationCode m = T.transform m ∧
    T.transformDirectionCode T.generateRotationCode m = T.transformDirection m := by
  have h := C26_rotation_partial hc hdet hcode
  have hid : T.generateRotationCode = 0x200 → ∀ v, T.rotGeneric v = v := by
    intro e v
    rw [← h v, e]; rfl
  refine ⟨?_, ?_⟩
  · rw [transform_eq]
    unfold transformCode generateTranslationCode
    by_cases hT : T.fHasTranslation = true
    · simp only [hT, if_true]
      by_cases hr : T.generateRotationCode = 0x200
      · simp [hr, hid hr]
      · simp [hr, h]
    · have ht := hf.trans (by simpa using hT)
      have hd : T.doTranslation m = m := by ext <;> simp [doTranslation, ht]
      simp only [hT]
      by_cases hr : T.generateRotationCode = 0x200
      · simp [hr, hid hr, hd]
      · simp [hr, h, hd]
  · rw [transformDirection_eq]
    unfold transformDirectionCode
    by_cases hr : T.generateRotationCode = 0x200
    · simp [hr, hid hr]
    · simp [hr, h]

/-- C26: the alternative kernel `DoRotation_new`, which masks products by the code bits, agrees with
the generic rotation for every matrix with exact zeros. -/
theorem C26_rotation_new {T : Trans3} (hc : T.Clean) (m : V3) :
    T.doRotationNew T.generateRotationCode m = T.rotGeneric m := by
  obtain ⟨c, hlt, b0, b1, b2, b3, b4, b5, b6, b7, b8, h1 | h1⟩ := generateRotationCode_cases T
  · rw [h1.1]
    have hne : ¬ ((c : Int) = 0x200) := by omega
    have tb : ∀ k, (c : Int).testBit k = c.testBit k := fun k => rfl
    have g : ∀ (b : Bool) (r a : ℝ), (b = false → r = 0) → (if b = true then a * r else 0) = a * r := by
      intro b r a h
      cases b
      · simp [h rfl]
      · simp
    unfold doRotationNew rotGeneric
    rw [if_neg hne]
    simp only [tb, b0, b1, b2, b3, b4, b5, b6, b7, b8, g _ _ _ hc.h0, g _ _ _ hc.h1, g _ _ _ hc.h2,
      g _ _ _ hc.h3, g _ _ _ hc.h4, g _ _ _ hc.h5, g _ _ _ hc.h6, g _ _ _ hc.h7, g _ _ _ hc.h8, zero_add]
  · obtain ⟨hgen, rfl, e0, e4, e8⟩ := h1
    have k1 := hc.h1 (by rw [← b1]; decide)
    have k2 := hc.h2 (by rw [← b2]; decide)
    have k3 := hc.h3 (by rw [← b3]; decide)
    have k5 := hc.h5 (by rw [← b5]; decide)
    have k6 := hc.h6 (by rw [← b6]; decide)
    have k7 := hc.h7 (by rw [← b7]; decide)
    rw [hgen]
    ext <;> simp [doRotationNew, rotGeneric, e0, e4, e8, k1, k2, k3, k5, k6, k7]

theorem big_eq_true {r : ℝ} (h : kTolerance < |r|) : big r = true := by simpa [big] using h
theorem big_zero : big 0 = false := by simp [big, kTolerance]

theorem sample_clean : sample.Clean := by
  have h35 : big (3/5) = true := big_eq_true (by norm_num [kTolerance, abs_of_pos])
  have h45 : big (4/5) = true := big_eq_true (by norm_num [kTolerance, abs_of_pos])
  have hm : big (-3/5) = true := big_eq_true (by norm_num [kTolerance, abs_of_neg, abs_of_pos])
  have h1 : big 1 = true := big_eq_true (by norm_num [kTolerance])
  constructor <;> simp [sample, h35, h45, h1, hm]

theorem sample_code : sample.generateRotationCode = 0x16A := by
  have h35 : big (3/5) = true := big_eq_true (by norm_num [kTolerance, abs_of_pos])
  have h45 : big (4/5) = true := big_eq_true (by norm_num [kTolerance, abs_of_pos])
  have hm : big (-3/5) = true := big_eq_true (by norm_num [kTolerance, abs_of_neg, abs_of_pos])
  have h1 : big 1 = true := big_eq_true (by norm_num [kTolerance])
  simp only [generateRotationCode, sample, h35, h45, h1, hm, big_zero]
  rw [if_neg (by norm_num)]
  decide

/-- Finding (C26 is false as stated): for the proper rotation `sample`, whose code is `0x16A`, the
specialised kernel gives a different result than the generic one. -/
theorem C26_counterexample : sample.Orthonormal ∧ sample.Clean ∧ sample.determinant = 1 ∧
    ∃ m, sample.doRotation sample.generateRotationCode m ≠ sample.rotGeneric m := by
  refine ⟨sample_orthonormal, sample_clean, by norm_num [determinant, sample], ⟨0, 1, 0⟩, ?_⟩
  rw [sample_code]
  intro h
  have := congrArg V3.z h
  norm_num [doRotation, rotGeneric, sample] at this

/-- Finding: branch `0x046` of the kernel table does not compute the rotation of a matrix with that
pattern (the entries used are those of pattern `0x08C`). -/
theorem C26_code046_counterexample :
    ∃ T : Trans3, T.Clean ∧ T.generateRotationCode = 0x046 ∧
      ∃ m, T.doRotation T.generateRotationCode m ≠ T.rotGeneric m := by
  have h1 : big 1 = true := big_eq_true (by norm_num [kTolerance])
  have hcode : generateRotationCode ⟨0, 0, 1, 1, 0, 0, 0, 1, 0, 0, false, true, false⟩ = 0x046 := by
    simp only [generateRotationCode, h1, big_zero]
    rw [if_neg (by norm_num)]
    decide
  refine ⟨⟨0, 0, 1, 1, 0, 0, 0, 1, 0, 0, false, true, false⟩, ?_, hcode, ⟨0, 0, 1⟩, ?_⟩
  · constructor <;> simp [h1]
  · rw [hcode]
    intro h
    have := congrArg V3.x h
    norm_num [doRotation, rotGeneric] at this

/-- Non-vacuity of `C26_rotation_partial`: a rotation by the angle with cosine `3/5` about `z`
(code `0x11B`). -/
example : ∃ T : Trans3, T.Clean ∧ T.determinant ≠ 0 ∧ T.FlagsOk ∧ T.generateRotationCode = 0x11B := by
  have h35 : big (3/5) = true := big_eq_true (by norm_num [kTolerance, abs_of_pos])
  have h45 : big (4/5) = true := big_eq_true (by norm_num [kTolerance, abs_of_pos])
  have hm : big (-4/5) = true := big_eq_true (by norm_num [kTolerance, abs_of_neg, abs_of_pos])
  have h1 : big 1 = true := big_eq_true (by norm_num [kTolerance])
  refine ⟨⟨⟨1, 2, 3⟩, 3/5, -4/5, 0, 4/5, 3/5, 0, 0, 0, 1, false, true, true⟩, ?_, ?_, ?_, ?_⟩
  · constructor <;> simp [h35, h45, h1, hm]
  · norm_num [determinant]
  · constructor <;> simp
  · simp only [generateRotationCode, h35, h45, h1, hm, big_zero]
    rw [if_neg (by norm_num [rawCode])]
    decide

/-! ## C27: rotations from Euler angles -/

/-- C27: the matrix set from three angles is orthonormal and orientation preserving, for all angles and
whatever the transformation held before; the translation is not touched. -/
theorem C27_euler (T : Trans3) (phi theta psi : ℝ) :
    (T.setRotationEuler phi theta psi).Orthonormal ∧
    (T.setRotationEuler phi theta psi).determinant = 1 ∧
    (T.setRotationEuler phi theta psi).t = T.t := by
  have h1 := Real.sin_sq_add_cos_sq (kDegToRad * phi)
  have h2 := Real.sin_sq_add_cos_sq (kDegToRad * theta)
  have h3 := Real.sin_sq_add_cos_sq (kDegToRad * psi)
  refine ⟨?_, ?_, rfl⟩
  · constructor <;> simp only [setRotationEuler] <;>
      generalize Real.sin (kDegToRad * phi) = sp at * <;> generalize Real.cos (kDegToRad * phi) = cp at * <;>
      generalize Real.sin (kDegToRad * theta) = st at * <;> generalize Real.cos (kDegToRad * theta) = ct at * <;>
      generalize Real.sin (kDegToRad * psi) = ss at * <;> generalize Real.cos (kDegToRad * psi) = cs at *
    · linear_combination (cs^2 + ct^2 * ss^2) * h1 + ss^2 * h2 + h3
    · linear_combination (ss^2 + ct^2 * cs^2) * h1 + cs^2 * h2 + h3
    · linear_combination st^2 * h1 + h2
    · linear_combination (ct^2 - 1) * cs * ss * h1 + ss * cs * h2
    · linear_combination (-(ct * st * ss)) * h1
    · linear_combination (-(ct * st * cs)) * h1
  · simp only [determinant, setRotationEuler]
    generalize Real.sin (kDegToRad * phi) = sp at *
    generalize Real.cos (kDegToRad * phi) = cp at *
    generalize Real.sin (kDegToRad * theta) = st at *
    generalize Real.cos (kDegToRad * theta) = ct at *
    generalize Real.sin (kDegToRad * psi) = ss at *
    generalize Real.cos (kDegToRad * psi) = cs at *
    linear_combination (cs^2 + ss^2) * (ct^2 + st^2) * h1 + (cs^2 + ss^2) * h2 + h3

/-- C27: the constructor from translation and angles gives a rigid motion with the given translation,
so all of C23 applies to it. -/
theorem C27_constructor (tx ty tz phi theta psi : ℝ) (p : V3) :
    (ofEuler tx ty tz phi theta psi).Orthonormal ∧
    (ofEuler tx ty tz phi theta psi).determinant = 1 ∧
    (ofEuler tx ty tz phi theta psi).inverseTransform 0 = ⟨tx, ty, tz⟩ ∧
    (ofEuler tx ty tz phi theta psi).inverseTransform ((ofEuler tx ty tz phi theta psi).transform p) = p := by
  have h := C27_euler (raw.setTranslation tx ty tz) phi theta psi
  have ho : (ofEuler tx ty tz phi theta psi).Orthonormal := by
    obtain ⟨a, b, c, d, e, f⟩ := h.1
    exact ⟨a, b, c, d, e, f⟩
  refine ⟨ho, h.2.1, ?_, C23_point_roundtrip_master ho p⟩
  ext <;> simp [ofEuler, setProperties, setRotationEuler, setTranslation, inverseTransform]

/-- C27: sense of the angles: with only `phi` set, the local x axis is rotated counter-clockwise by `phi` about z
(in degrees). -/
theorem C27_phi_sense (T : Trans3) (phi : ℝ) (l : V3) :
    (T.setRotationEuler phi 0 0).inverseTransformDirection l =
      ⟨Real.cos (kDegToRad * phi) * l.x - Real.sin (kDegToRad * phi) * l.y,
       Real.sin (kDegToRad * phi) * l.x + Real.cos (kDegToRad * phi) * l.y, l.z⟩ := by
  ext <;> simp [setRotationEuler, inverseTransformDirection] <;> ring

end Trans3
end VecGeom
