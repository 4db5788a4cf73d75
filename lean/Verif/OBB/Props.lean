import Verif.OBB.Walk
import Verif.Transform.Props
import Verif.Voxel.Model

/-!
# C186: intersection of oriented boxes
-/

namespace VecGeom
namespace OBB

open Finset

/-- The edges of a box that is placed. -/
def frameOf (t : Trans3) : Fin 3 → V3 := ![⟨t.r0, t.r3, t.r6⟩, ⟨t.r1, t.r4, t.r7⟩, ⟨t.r2, t.r5, t.r8⟩]

theorem frameOf_frame {t : Trans3} (h : t.Orthonormal) : Frame (frameOf t) := by
  have r := h.rows
  obtain ⟨a, b, c, d, e, f⟩ := h
  refine ⟨fun i => ?_, fun i j hij => ?_, fun v u => ?_⟩
  · fin_cases i <;> simp only [frameOf, V3.dot] <;> assumption
  · fin_cases i <;> fin_cases j <;> simp only [frameOf, V3.dot] <;> first | exact absurd rfl hij | (simp; linarith)
  · obtain ⟨a', b', c', d', e', f'⟩ := r
    rw [Fin.sum_univ_three]
    simp only [frameOf, V3.dot, Matrix.cons_val_zero, Matrix.cons_val_one, Matrix.cons_val]
    linear_combination (-(v.x * u.x)) * a' - v.y * u.y * b' - v.z * u.z * c' - (v.x * u.y + v.y * u.x) * d' -
      (v.x * u.z + v.z * u.x) * e' - (v.y * u.z + v.z * u.y) * f'

/-- The components of a vector. -/
def comps (v : V3) : Fin 3 → ℝ := ![v.x, v.y, v.z]

/-- The size of the projection of an edge of the second box to an axis of two edges. -/
theorem minor {p q u v : ℝ} (h1 : p ^ 2 + q ^ 2 = u ^ 2 + v ^ 2) (h2 : p * u + q * v = 0) : |p| = |v| := by
  rw [← sq_eq_sq_iff_abs_eq_abs]
  have h3 : (p ^ 2 - v ^ 2) * (u ^ 2 + v ^ 2) = 0 := by linear_combination (p * u - q * v) * h2 + v ^ 2 * h1
  rcases mul_eq_zero.mp h3 with h | h
  · linarith
  · have hu : u = 0 := by nlinarith [sq_nonneg u, sq_nonneg v]
    have hv : v = 0 := by nlinarith [sq_nonneg u, sq_nonneg v]
    rw [h] at h1
    nlinarith [sq_nonneg p, sq_nonneg q]

section
variable {A B : Fin 3 → V3} {hA hB : Fin 3 → ℝ} {T : V3}

theorem sep_A (fA : Frame A) (i : Fin 3) : Sep T A B hA hB (A i) ↔ hA i + ∑ k, hB k * |(A i).dot (B k)| < |T.dot (A i)| := by
  unfold Sep
  rw [three (fun k => hA k * |(A k).dot (A i)|) i, fA.one, fA.zero _ _ (ne1 i).symm, fA.zero _ _ (ne2 i).symm]
  simp only [abs_one, abs_zero, mul_one, mul_zero, add_zero, dot_comm (B _) (A i)]

theorem sep_B (fB : Frame B) (i : Fin 3) : Sep T A B hA hB (B i) ↔ hB i + ∑ k, hA k * |(A k).dot (B i)| < |T.dot (B i)| := by
  unfold Sep
  rw [three (fun k => hB k * |(B k).dot (B i)|) i, fB.one, fB.zero _ _ (ne1 i).symm, fB.zero _ _ (ne2 i).symm]
  simp only [abs_one, abs_zero, mul_one, mul_zero, add_zero, add_comm]

theorem sep_axis (fA : Frame A) (fB : Frame B) (i l : Fin 3) : Sep T A B hA hB (axis A B i l) ↔
    hA (i + 1) * |(A (i + 2)).dot (B l)| + hA (i + 2) * |(A (i + 1)).dot (B l)| + hB (l + 1) * |(A i).dot (B (l + 2))| +
      hB (l + 2) * |(A i).dot (B (l + 1))| <
    |T.dot (A (i + 2)) * (A (i + 1)).dot (B l) - T.dot (A (i + 1)) * (A (i + 2)).dot (B l)| := by
  have a0 : (A i).dot (axis A B i l) = 0 := by
    rw [axis, dot_add, dot_smul, dot_smul, fA.zero _ _ (ne1 i), fA.zero _ _ (ne2 i)]; ring
  have a1 : (A (i + 1)).dot (axis A B i l) = -(A (i + 2)).dot (B l) := by
    rw [axis, dot_add, dot_smul, dot_smul, fA.zero _ _ (ne12 i), fA.one]; ring
  have a2 : (A (i + 2)).dot (axis A B i l) = (A (i + 1)).dot (B l) := by
    rw [axis, dot_add, dot_smul, dot_smul, fA.zero _ _ (ne12 i).symm, fA.one]; ring
  have aT : T.dot (axis A B i l) = T.dot (A (i + 2)) * (A (i + 1)).dot (B l) - T.dot (A (i + 1)) * (A (i + 2)).dot (B l) := by
    rw [axis, dot_add, dot_smul, dot_smul]; ring
  have b0 : (B l).dot (axis A B i l) = 0 := by
    rw [axis, dot_add, dot_smul, dot_smul, dot_comm (B l), dot_comm (B l)]; ring
  -- the size of the axis, in both frames
  have s1 : (axis A B i l).dot (axis A B i l) = (A (i + 1)).dot (B l) ^ 2 + (A (i + 2)).dot (B l) ^ 2 := by
    rw [fA.expand i, a0, a1, a2]; ring
  have s2 : (axis A B i l).dot (axis A B i l) = (B (l + 1)).dot (axis A B i l) ^ 2 + (B (l + 2)).dot (axis A B i l) ^ 2 := by
    rw [fB.expand l, b0]; ring
  have s3 : (A i).dot (B l) ^ 2 + (A (i + 1)).dot (B l) ^ 2 + (A (i + 2)).dot (B l) ^ 2 = 1 := by
    have := fA.expand i (B l) (B l); rw [fB.one] at this; rw [this]; ring
  have s4 : (A i).dot (B l) ^ 2 + (A i).dot (B (l + 1)) ^ 2 + (A i).dot (B (l + 2)) ^ 2 = 1 := by
    have := fB.expand l (A i) (A i)
    rw [fA.one] at this; rw [this, dot_comm (B l), dot_comm (B (l + 1)), dot_comm (B (l + 2))]; ring
  have s5 : (B (l + 1)).dot (axis A B i l) * (A i).dot (B (l + 1)) + (B (l + 2)).dot (axis A B i l) * (A i).dot (B (l + 2)) = 0 := by
    have := fB.expand l (A i) (axis A B i l)
    rw [a0, b0, dot_comm (B (l + 1)) (A i), dot_comm (B (l + 2)) (A i)] at this; linarith
  have m1 := minor (by linarith : (B (l + 1)).dot (axis A B i l) ^ 2 + (B (l + 2)).dot (axis A B i l) ^ 2 =
    (A i).dot (B (l + 1)) ^ 2 + (A i).dot (B (l + 2)) ^ 2) s5
  have m2 := minor (by linarith : (B (l + 2)).dot (axis A B i l) ^ 2 + (B (l + 1)).dot (axis A B i l) ^ 2 =
    (A i).dot (B (l + 2)) ^ 2 + (A i).dot (B (l + 1)) ^ 2) (by linarith)
  unfold Sep
  rw [three (fun k => hA k * |(A k).dot (axis A B i l)|) i, three (fun k => hB k * |(B k).dot (axis A B i l)|) l, a0, a1, a2, aT, b0, m1,
    m2, abs_zero, abs_neg]
  simp only [mul_zero, zero_add, add_assoc]

end

theorem halfOf_nonneg (l u : V3) : 0 ≤ (halfOf l u).x ∧ 0 ≤ (halfOf l u).y ∧ 0 ≤ (halfOf l u).z := by
  refine ⟨?_, ?_, ?_⟩ <;> simp only [halfOf] <;> positivity

/-- What the code decides. -/
theorem exist_iff {t1 t2 : Trans3} (h1 : t1.Orthonormal) (h2 : t2.Orthonormal) (l1 u1 l2 u2 : V3) :
    intersectionExist l1 u1 l2 u2 t1 t2 = true ↔
      ¬ Axes (t2.t - t1.t) (frameOf t1) (frameOf t2) (comps (halfOf l1 u1)) (comps (halfOf l2 u2)) := by
  classical
  have fA := frameOf_frame h1
  have fB := frameOf_frame h2
  obtain ⟨a1, a2, a3⟩ := halfOf_nonneg l1 u1
  obtain ⟨b1, b2, b3⟩ := halfOf_nonneg l2 u2
  have eT : t2.inverseTransform ⟨0, 0, 0⟩ - t1.inverseTransform ⟨0, 0, 0⟩ = t2.t - t1.t := by
    ext <;> simp [Trans3.inverseTransform]
  have eA : t1.inverseTransformDirection ⟨1, 0, 0⟩ = frameOf t1 0 ∧ t1.inverseTransformDirection ⟨0, 1, 0⟩ = frameOf t1 1 ∧
      t1.inverseTransformDirection ⟨0, 0, 1⟩ = frameOf t1 2 := by
    refine ⟨?_, ?_, ?_⟩ <;> ext <;> simp [Trans3.inverseTransformDirection, frameOf]
  have eB : t2.inverseTransformDirection ⟨1, 0, 0⟩ = frameOf t2 0 ∧ t2.inverseTransformDirection ⟨0, 1, 0⟩ = frameOf t2 1 ∧
      t2.inverseTransformDirection ⟨0, 0, 1⟩ = frameOf t2 2 := by
    refine ⟨?_, ?_, ?_⟩ <;> ext <;> simp [Trans3.inverseTransformDirection, frameOf]
  unfold intersectionExist
  dsimp only
  rw [eT, eA.1, eA.2.1, eA.2.2, eB.1, eB.2.1, eB.2.2]
  generalize frameOf t1 = A at *
  generalize frameOf t2 = B at *
  generalize t2.t - t1.t = T at *
  generalize halfOf l1 u1 = a at *
  generalize halfOf l2 u2 = b at *
  unfold Axes
  have e3 : ∀ P : Fin 3 → Prop, (∃ i, P i) ↔ P 0 ∨ P 1 ∨ P 2 := by
    intro P
    constructor
    · rintro ⟨i, h⟩
      fin_cases i
      · exact Or.inl h
      · exact Or.inr (Or.inl h)
      · exact Or.inr (Or.inr h)
    · rintro (h | h | h) <;> exact ⟨_, h⟩
  have hif : ∀ (c : Prop) (x : Bool), ((if c then false else x) = true) ↔ ¬ c ∧ x = true := by
    intro c x
    by_cases h : c <;> simp [h]
  simp only [sep_A fA, sep_B fB, sep_axis fA fB, Fin.sum_univ_three, e3, hif, not_or, not_lt, gt_iff_lt, abs_mul, abs_of_nonneg a1,
    abs_of_nonneg a2, abs_of_nonneg a3, abs_of_nonneg b1, abs_of_nonneg b2, abs_of_nonneg b3, comps, and_assoc, and_true,
    show (0 : Fin 3) + 1 = 1 from rfl, show (0 : Fin 3) + 2 = 2 from rfl, show (1 : Fin 3) + 1 = 2 from rfl,
    show (1 : Fin 3) + 2 = 0 from rfl, show (2 : Fin 3) + 1 = 0 from rfl, show (2 : Fin 3) + 2 = 1 from rfl,
    Matrix.cons_val_zero, Matrix.cons_val_one, Matrix.cons_val]
  constructor
  · rintro ⟨h1, h2, h3, h4, h5, h6, h7, h8, h9, h10, h11, h12, h13, h14, h15⟩
    refine ⟨?_, ?_, ?_, ?_, ?_, ?_, ?_, ?_, ?_, ?_, ?_, ?_, ?_, ?_, ?_⟩ <;> linarith
  · rintro ⟨h1, h2, h3, h4, h5, h6, h7, h8, h9, h10, h11, h12, h13, h14, h15⟩
    refine ⟨?_, ?_, ?_, ?_, ?_, ?_, ?_, ?_, ?_, ?_, ?_, ?_, ?_, ?_, ?_⟩ <;> linarith

/-- The box is centred in its frame. -/
def Centred (l u : V3) : Prop := l.x = -u.x ∧ l.y = -u.y ∧ l.z = -u.z ∧ 0 ≤ u.x ∧ 0 ≤ u.y ∧ 0 ≤ u.z

theorem halfOf_centred {l u : V3} (h : Centred l u) : halfOf l u = u := by
  obtain ⟨h1, h2, h3, h4, h5, h6⟩ := h
  ext
  · simp only [halfOf]; rw [h1, abs_of_nonneg (by linarith)]; ring
  · simp only [halfOf]; rw [h2, abs_of_nonneg (by linarith)]; ring
  · simp only [halfOf]; rw [h3, abs_of_nonneg (by linarith)]; ring

theorem inBox_centred {l u : V3} (h : Centred l u) (p : V3) : InBox l u p ↔ |p.x| ≤ u.x ∧ |p.y| ≤ u.y ∧ |p.z| ≤ u.z := by
  obtain ⟨h1, h2, h3, _⟩ := h
  unfold InBox
  rw [h1, h2, h3, abs_le, abs_le, abs_le]

theorem affine_dot (t : Trans3) (p x : V3) :
    x.dot (t.affine p) = x.dot t.t + (p.x * (frameOf t 0).dot x + p.y * (frameOf t 1).dot x + p.z * (frameOf t 2).dot x) := by
  simp only [frameOf, V3.dot, Trans3.affine, Matrix.cons_val_zero, Matrix.cons_val_one, Matrix.cons_val]
  ring

theorem meet_iff {t1 t2 : Trans3} {l1 u1 l2 u2 : V3} (c1 : Centred l1 u1) (c2 : Centred l2 u2) :
    Meet l1 u1 l2 u2 t1 t2 ↔ Reach (frameOf t1) (frameOf t2) (comps u1) (comps u2) (t2.t - t1.t) := by
  have hsub : ∀ x : V3, x.dot (t2.t - t1.t) = x.dot t2.t - x.dot t1.t := by intro x; unfold V3.dot; simp; ring
  unfold Meet Reach
  simp only [inBox_centred c1, inBox_centred c2]
  constructor
  · rintro ⟨p, q, hp, hq, e⟩
    refine ⟨Sum.elim (comps p) (comps ⟨-q.x, -q.y, -q.z⟩), ?_, fun x => ?_⟩
    · rintro (k | k) <;> fin_cases k <;> simp only [Sum.elim_inl, Sum.elim_inr, comps]
      · exact hp.1
      · exact hp.2.1
      · exact hp.2.2
      · show |-q.x| ≤ u2.x; rw [abs_neg]; exact hq.1
      · show |-q.y| ≤ u2.y; rw [abs_neg]; exact hq.2.1
      · show |-q.z| ≤ u2.z; rw [abs_neg]; exact hq.2.2
    · have := congrArg (V3.dot x) e
      rw [affine_dot, affine_dot] at this
      rw [hsub, Fintype.sum_sum_type, Fin.sum_univ_three, Fin.sum_univ_three]
      simp only [Sum.elim_inl, Sum.elim_inr, comps, edges, Matrix.cons_val_zero, Matrix.cons_val_one, Matrix.cons_val]
      linarith
  · rintro ⟨c, hc, e⟩
    refine ⟨⟨c (.inl 0), c (.inl 1), c (.inl 2)⟩, ⟨-c (.inr 0), -c (.inr 1), -c (.inr 2)⟩, ⟨hc (.inl 0), hc (.inl 1), hc (.inl 2)⟩,
      ⟨?_, ?_, ?_⟩, eq_of_dot fun x => ?_⟩
    · rw [abs_neg]; exact hc (.inr 0)
    · rw [abs_neg]; exact hc (.inr 1)
    · rw [abs_neg]; exact hc (.inr 2)
    · have := e x
      rw [hsub, Fintype.sum_sum_type, Fin.sum_univ_three, Fin.sum_univ_three] at this
      simp only [edges, Sum.elim_inl, Sum.elim_inr] at this
      rw [affine_dot, affine_dot]
      dsimp only
      linarith

/-- C186: for two placed boxes that are centred in their own frames, `IntersectionExist` is true exactly if the boxes have a point in
common. -/
theorem C186_oriented {t1 t2 : Trans3} (h1 : t1.Orthonormal) (h2 : t2.Orthonormal) {l1 u1 l2 u2 : V3} (c1 : Centred l1 u1)
    (c2 : Centred l2 u2) : intersectionExist l1 u1 l2 u2 t1 t2 = true ↔ Meet l1 u1 l2 u2 t1 t2 := by
  rw [exist_iff h1 h2, meet_iff c1 c2, halfOf_centred c1, halfOf_centred c2, reach_iff (frameOf_frame h1) (frameOf_frame h2)]
  obtain ⟨_, _, _, a1, a2, a3⟩ := c1
  obtain ⟨_, _, _, b1, b2, b3⟩ := c2
  rintro (k | k) <;> fin_cases k <;> assumption

/-- C186: the answer does not depend on the order of the boxes. -/
theorem C186_symmetric {t1 t2 : Trans3} (h1 : t1.Orthonormal) (h2 : t2.Orthonormal) {l1 u1 l2 u2 : V3} (c1 : Centred l1 u1)
    (c2 : Centred l2 u2) : intersectionExist l1 u1 l2 u2 t1 t2 = intersectionExist l2 u2 l1 u1 t2 t1 := by
  rw [Bool.eq_iff_iff, C186_oriented h1 h2 c1 c2, C186_oriented h2 h1 c2 c1]
  constructor
  · rintro ⟨p, q, hp, hq, e⟩; exact ⟨q, p, hq, hp, e.symm⟩
  · rintro ⟨p, q, hp, hq, e⟩; exact ⟨q, p, hq, hp, e.symm⟩

/-- C186: the corners are only used for the lengths, so for boxes that are not centred the answer is wrong: a box that is far away is
said to intersect. -/
theorem C186_centre_counterexample :
    intersectionExist ⟨-1, -1, -1⟩ ⟨1, 1, 1⟩ ⟨9, 9, 9⟩ ⟨11, 11, 11⟩ Trans3.identity Trans3.identity = true ∧
    ¬ Meet ⟨-1, -1, -1⟩ ⟨1, 1, 1⟩ ⟨9, 9, 9⟩ ⟨11, 11, 11⟩ Trans3.identity Trans3.identity := by
  constructor
  · unfold intersectionExist
    norm_num [Trans3.identity, Trans3.inverseTransform, Trans3.inverseTransformDirection, halfOf, V3.dot]
  · rintro ⟨p, q, hp, hq, e⟩
    have := congrArg V3.x e
    simp only [Trans3.affine, Trans3.identity, V3.zero_x] at this
    unfold InBox at hp hq
    dsimp only at hp hq
    linarith [hp.1.2, hq.1.1]

/-- A box and two placements, one of them with a rotation and a translation, meet the hypotheses. -/
example : Centred ⟨-1, -5, -1⟩ ⟨1, 5, 1⟩ ∧ Trans3.sample.Orthonormal ∧ Trans3.identity.Orthonormal :=
  ⟨by norm_num [Centred], Trans3.sample_orthonormal, by constructor <;> norm_num [Trans3.identity]⟩

/-- C186: for two aligned boxes that are not empty, `IntersectionExist` is true exactly if they have a point in common. -/
theorem C186_aligned {a b : Voxel.Box} (ha : InBox a.lo a.up a.lo) (hb : InBox b.lo b.up b.lo) :
    Voxel.intersectionExist a b = true ↔ ∃ p, InBox a.lo a.up p ∧ InBox b.lo b.up p := by
  unfold InBox at *
  unfold Voxel.intersectionExist
  constructor
  · intro h
    split_ifs at h with h1 h2 h3 h4 h5 h6
    refine ⟨⟨max a.lo.x b.lo.x, max a.lo.y b.lo.y, max a.lo.z b.lo.z⟩, ⟨⟨le_max_left _ _, ?_⟩, ⟨le_max_left _ _, ?_⟩, le_max_left _ _, ?_⟩,
      ⟨le_max_right _ _, ?_⟩, ⟨le_max_right _ _, ?_⟩, le_max_right _ _, ?_⟩ <;> refine max_le ?_ ?_ <;> linarith
  · rintro ⟨p, hp, hq⟩
    rw [if_neg (by linarith), if_neg (by linarith), if_neg (by linarith), if_neg (by linarith), if_neg (by linarith),
      if_neg (by linarith)]

/-- Two boxes that are not empty. -/
example : InBox ⟨0, 0, 0⟩ ⟨1, 2, 3⟩ ⟨0, 0, 0⟩ ∧ InBox ⟨1, 1, 1⟩ ⟨2, 2, 2⟩ ⟨1, 1, 1⟩ := by norm_num [InBox]

end OBB
end VecGeom
