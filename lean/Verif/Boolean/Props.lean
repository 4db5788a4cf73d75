import Verif.Boolean.Lemmas
import Verif.BoxSolid.Props

/-!
# Properties of boolean solids (C45 - C47)
-/

namespace VecGeom
namespace Boolean

/-! ## The box as constituent -/

theorem box_containsOK (h : V3) : ContainsOK (boxSolid h) (BoxSolid.Open h) := BoxSolid.C43_contains h

theorem box_classOK (h p : V3) : ClassOK ((boxSolid h).inside p) (BoxSolid.Open h) p := by
  constructor
  · intro hi
    exact ⟨kHalfTolerance, kHalfTolerance_pos, (BoxSolid.C43_inside h p).mp hi⟩
  · intro ho
    refine ⟨kHalfTolerance, kHalfTolerance_pos, fun q hq hX => ?_⟩
    have := (BoxSolid.C43_outside h p).2 ho q ⟨hX.1.le, hX.2.1.le, hX.2.2.le⟩
    linarith

theorem box_safetyInOK (h : V3) : SafetyInOK (boxSolid h) (BoxSolid.Open h) := fun _ _ hq =>
  BoxSolid.C43_safety_in ⟨hq.1.le, hq.2.1.le, hq.2.2.le⟩

theorem box_safetyOutOK (h : V3) : SafetyOutOK (boxSolid h) (BoxSolid.Open h) := by
  intro p q hq
  have hle : BoxSolid.safetyToOut h p ≤ h.x - |p.x| ∧ BoxSolid.safetyToOut h p ≤ h.y - |p.y| ∧
      BoxSolid.safetyToOut h p ≤ h.z - |p.z| := by
    have : BoxSolid.safetyToOut h p ≤ BoxSolid.safetyToOut h p := le_rfl
    conv at this => rhs; unfold BoxSolid.safetyToOut
    rw [V3.le_minc] at this
    simpa using this
  change BoxSolid.safetyToOut h p ≤ _
  have e1 := BoxSolid.abs_diff_x p q
  have e2 := BoxSolid.abs_diff_y p q
  have e3 := BoxSolid.abs_diff_z p q
  by_contra hlt
  push Not at hlt
  exact hq ⟨by linarith, by linarith, by linarith⟩

theorem box_extentOK (h : V3) : ExtentOK (boxSolid h) (BoxSolid.Open h) := by
  intro p hp
  exact (BoxSolid.C43_extent h p).mp ⟨hp.1.le, hp.2.1.le, hp.2.2.le⟩

/-- The cube of side two. -/
noncomputable def cube : Solid := boxSolid ⟨1, 1, 1⟩
/-- The cube moved along. -/
noncomputable def cubeAt (x y z : ℝ) : Placed := ⟨Trans3.ofTranslation x y z, cube⟩

theorem ofTranslation_orthonormal (x y z : ℝ) : (Trans3.ofTranslation x y z).Orthonormal :=
  (Trans3.C23_translation x y z 0).1

theorem ofTranslation_transform (x y z : ℝ) (p : V3) :
    (Trans3.ofTranslation x y z).transform p = ⟨p.x - x, p.y - y, p.z - z⟩ := (Trans3.C23_translation x y z p).2.2

theorem ofTranslation_unmoved : Unmoved (Trans3.ofTranslation 0 0 0) := by
  intro p
  rw [ofTranslation_transform]
  ext <;> simp

/-! ## C45: membership -/

/-- C45: membership in a boolean solid is the set operation applied to the moved constituents. -/
theorem C45_contains (n : Nat) (op : Op) {l r : Placed} {X Y : Region} (hl : l.trans.Orthonormal)
    (hr : r.trans.Orthonormal) (hX : ContainsOK l.solid X) (hY : ContainsOK r.solid Y) :
    ContainsOK (boolSolid n op l r) (op.apply (Moved l.trans X) (Moved r.trans Y)) := by
  intro p
  rw [boolSolid_contains]
  apply apply_congr
  · rw [moved_iff hl]; exact hX _
  · rw [moved_iff hr]; exact hY _

example : Trans3.sample.Orthonormal ∧ ContainsOK cube (BoxSolid.Open ⟨1, 1, 1⟩) :=
  ⟨Trans3.sample_orthonormal, box_containsOK _⟩

/-- C45: the same for whole trees of boolean operations, of any depth. -/
theorem C45_tree (n : Nat) (X : Solid → Region) (t : Tree)
    (h : t.All (fun s => ContainsOK s (X s)) Trans3.Orthonormal Trans3.Orthonormal) :
    ContainsOK (t.solid n) (t.region X) := by
  induction t with
  | leaf s => exact h
  | node op tl l tr r ihl ihr =>
    obtain ⟨h1, h2, h3, h4⟩ := h
    exact C45_contains n op (l := ⟨tl, l.solid n⟩) (r := ⟨tr, r.solid n⟩) h1 h3 (ihl h2) (ihr h4)

/-- A tree used in the examples: (cube ∪ rotated cube) \ (cube ∩ moved cube). -/
noncomputable def demoTree : Tree :=
  .node .subtraction Trans3.identity (.node .union Trans3.identity (.leaf cube) Trans3.sample (.leaf cube))
    Trans3.identity (.node .intersection Trans3.identity (.leaf cube) (Trans3.ofTranslation 1 0 0) (.leaf cube))

theorem identity_orthonormal : Trans3.identity.Orthonormal := by
  constructor <;> simp [Trans3.identity]

theorem identity_unmoved : Unmoved Trans3.identity := by
  intro p
  rw [Trans3.transform_eq]
  ext <;> simp [Trans3.identity, Trans3.rotGeneric, Trans3.doTranslation]

example : demoTree.All (fun s => ContainsOK s (BoxSolid.Open ⟨1, 1, 1⟩)) Trans3.Orthonormal Trans3.Orthonormal :=
  ⟨identity_orthonormal, ⟨identity_orthonormal, box_containsOK _, Trans3.sample_orthonormal, box_containsOK _⟩,
    identity_orthonormal, identity_orthonormal, box_containsOK _, ofTranslation_orthonormal _ _ _, box_containsOK _⟩

/-- C45: away from common surfaces the classification inside/outside of a boolean solid holds for all points nearby, if
that of the constituents does.  For intersections common surfaces need not be excluded. -/
theorem C45_classification (n : Nat) (op : Op) {l r : Placed} {X Y : Region} (hl : l.trans.Orthonormal)
    (hr : r.trans.Orthonormal) {p : V3} (hX : ClassOK (l.inside p) X (l.trans.transform p))
    (hY : ClassOK (r.inside p) Y (r.trans.transform p))
    (hns : op = .intersection ∨ ¬ (l.inside p = .surface ∧ r.inside p = .surface)) :
    ClassOK ((boolSolid n op l r).inside p) (op.apply (Moved l.trans X) (Moved r.trans Y)) p := by
  unfold ClassOK at hX hY
  rw [← interior_moved hl, ← exterior_moved hl] at hX
  rw [← interior_moved hr, ← exterior_moved hr] at hY
  revert hX hY
  generalize Moved l.trans X = X'
  generalize Moved r.trans Y = Y'
  intro hX hY
  cases op
  · replace hns := hns.resolve_left (by simp)
    simp only [boolSolid, unionInside]
    rcases hA : l.inside p with _ | _ | _ <;> rcases hB : r.inside p with _ | _ | _ <;>
      rw [hA] at hX hns <;> rw [hB] at hY hns
    · exact ⟨fun _ => (hX.1 rfl).mono fun q hq => Or.inl hq, by simp⟩
    · exact ⟨fun _ => (hX.1 rfl).mono fun q hq => Or.inl hq, by simp⟩
    · exact ⟨fun _ => (hX.1 rfl).mono fun q hq => Or.inl hq, by simp⟩
    · exact ⟨fun _ => (hY.1 rfl).mono fun q hq => Or.inr hq, by simp⟩
    · exact absurd ⟨rfl, rfl⟩ hns
    · simp [ClassOK]
    · exact ⟨fun _ => (hY.1 rfl).mono fun q hq => Or.inr hq, by simp⟩
    · simp [ClassOK]
    · exact ⟨by simp, fun _ => exterior_union.mpr ⟨hX.2 rfl, hY.2 rfl⟩⟩
  · simp only [boolSolid, interInside]
    rcases hA : l.inside p with _ | _ | _ <;> rcases hB : r.inside p with _ | _ | _ <;>
      rw [hA] at hX <;> rw [hB] at hY
    · exact ⟨fun _ => interior_inter.mpr ⟨hX.1 rfl, hY.1 rfl⟩, by simp⟩
    · simp [ClassOK]
    · exact ⟨by simp, fun _ => (exterior_inter_of_interior_left (hX.1 rfl)).mpr (hY.2 rfl)⟩
    · simp [ClassOK]
    · simp [ClassOK]
    · exact ⟨by simp, fun _ => Interior.mono (hY.2 rfl) fun q hq h => hq h.2⟩
    · exact ⟨by simp, fun _ => (exterior_left (hX.2 rfl)).1⟩
    · exact ⟨by simp, fun _ => (exterior_left (hX.2 rfl)).1⟩
    · exact ⟨by simp, fun _ => (exterior_left (hX.2 rfl)).1⟩
  · replace hns := hns.resolve_left (by simp)
    simp only [boolSolid, subInside]
    rcases hA : l.inside p with _ | _ | _ <;> rcases hB : r.inside p with _ | _ | _ <;>
      rw [hA] at hX hns <;> rw [hB] at hY hns
    · exact ⟨by simp, fun _ => (exterior_sub_of_interior (hX.1 rfl)).mpr (hY.1 rfl)⟩
    · simp [ClassOK]
    · exact ⟨fun _ => interior_sub.mpr ⟨hX.1 rfl, hY.2 rfl⟩, by simp⟩
    · exact ⟨by simp, fun _ => Interior.mono (hY.1 rfl) fun q hq h => h.2 hq⟩
    · exact absurd ⟨rfl, rfl⟩ hns
    · simp [ClassOK]
    · exact ⟨by simp, fun _ => (exterior_left (hX.2 rfl)).2⟩
    · exact ⟨by simp, fun _ => (exterior_left (hX.2 rfl)).2⟩
    · exact ⟨by simp, fun _ => (exterior_left (hX.2 rfl)).2⟩

/-- C45: if the classification of the constituents is exact at a point that is not on the surface of both, so is that of
the boolean solid: inside exactly for interior points, outside exactly for exterior points, surface for the others. -/
theorem C45_exact (n : Nat) (op : Op) {l r : Placed} {X Y : Region} (hl : l.trans.Orthonormal)
    (hr : r.trans.Orthonormal) {p : V3} (hX : ClassExact (l.inside p) X (l.trans.transform p))
    (hY : ClassExact (r.inside p) Y (r.trans.transform p))
    (hns : ¬ (l.inside p = .surface ∧ r.inside p = .surface)) :
    ClassExact ((boolSolid n op l r).inside p) (op.apply (Moved l.trans X) (Moved r.trans Y)) p := by
  have hOK := C45_classification n op hl hr (p := p) (X := X) (Y := Y) ⟨hX.1.mp, hX.2.mp⟩ ⟨hY.1.mp, hY.2.mp⟩ (Or.inr hns)
  refine ⟨⟨hOK.1, fun hi => ?_⟩, ⟨hOK.2, fun ho => ?_⟩⟩
  all_goals
    unfold ClassExact at hX hY
    rw [← interior_moved hl, ← exterior_moved hl] at hX
    rw [← interior_moved hr, ← exterior_moved hr] at hY
    clear hOK
    revert hX hY
    first | revert hi | revert ho
    generalize Moved l.trans X = X'
    generalize Moved r.trans Y = Y'
    intro hi hX hY
    cases op
  -- interior points
  · simp only [boolSolid, unionInside]
    rcases hA : l.inside p with _ | _ | _ <;> rcases hB : r.inside p with _ | _ | _ <;>
      rw [hA] at hX hns <;> rw [hB] at hY hns <;> simp only [reduceCtorEq, if_true, if_false, false_iff, true_iff,
        and_true, true_and, and_false, false_and, or_true, or_false, false_or, not_true] at hX hY hns ⊢
    · exact hX.1 ((interior_union_of_exterior hY.2).mp hi)
    · exact hY.1 ((interior_union_of_exterior_left hX.2).mp hi)
    · exact hX.1 ((interior_union_of_exterior hY.2).mp hi)
  · simp only [boolSolid, interInside]
    rw [hX.1.mpr (interior_inter.mp hi).1, hY.1.mpr (interior_inter.mp hi).2]
    simp
  · simp only [boolSolid, subInside]
    rw [hX.1.mpr (interior_sub.mp hi).1, hY.2.mpr (interior_sub.mp hi).2]
    simp
  -- exterior points
  · simp only [boolSolid, unionInside]
    rw [hX.2.mpr (exterior_union.mp hi).1, hY.2.mpr (exterior_union.mp hi).2]
    simp
  · simp only [boolSolid, interInside]
    rcases hA : l.inside p with _ | _ | _ <;> rcases hB : r.inside p with _ | _ | _ <;>
      rw [hA] at hX hns <;> rw [hB] at hY hns <;> simp only [reduceCtorEq, if_true, if_false, false_iff, true_iff,
        and_true, true_and, and_false, false_and, or_true, or_false, false_or, not_true] at hX hY hns ⊢
    · exact not_interior_exterior (interior_inter.mpr ⟨hX.1, hY.1⟩) hi
    · exact hY.2 ((exterior_inter_of_interior_left hX.1).mp hi)
    · exact hX.2 ((exterior_inter_of_interior hY.1).mp hi)
  · simp only [boolSolid, subInside]
    rcases hA : l.inside p with _ | _ | _ <;> rcases hB : r.inside p with _ | _ | _ <;>
      rw [hA] at hX hns <;> rw [hB] at hY hns <;> simp only [reduceCtorEq, if_true, if_false, false_iff, true_iff,
        and_true, true_and, and_false, false_and, or_true, or_false, false_or, not_true] at hX hY hns ⊢
    · exact hY.1 ((exterior_sub_of_interior hX.1).mp hi)
    · exact not_interior_exterior (interior_sub.mpr ⟨hX.1, hY.2⟩) hi
    · exact hX.2 ((exterior_sub_of_exterior hY.2).mp hi)

/-- A correct answer other than "surface" is exact. -/
theorem ClassOK.exact {c : Inside} {X : Region} {p : V3} (h : ClassOK c X p) (hs : c ≠ .surface) : ClassExact c X p := by
  have no : ¬ (Interior X p ∧ Exterior X p) := by
    rintro ⟨⟨e, he, h1⟩, ⟨e', he', h2⟩⟩
    have hz : V3.dist p p = 0 := by simp [V3.dist, V3.dist2]
    exact h2 p (by rw [hz]; exact he') (h1 p (by rw [hz]; exact he))
  cases c with
  | inside => exact ⟨⟨h.1, fun _ => rfl⟩, ⟨by simp, fun h' => (no ⟨h.1 rfl, h'⟩).elim⟩⟩
  | outside => exact ⟨⟨by simp, fun h' => (no ⟨h', h.2 rfl⟩).elim⟩, ⟨h.2, fun _ => rfl⟩⟩
  | surface => exact absurd rfl hs

example (op : Op) : ClassExact ((boolSolid 1 op ⟨Trans3.identity, cube⟩ ⟨Trans3.identity, cube⟩).inside ⟨1 / 2, 0, 0⟩)
    (op.apply (Moved Trans3.identity (BoxSolid.Open ⟨1, 1, 1⟩)) (Moved Trans3.identity (BoxSolid.Open ⟨1, 1, 1⟩)))
    ⟨1 / 2, 0, 0⟩ := by
  have hi : Placed.inside ⟨Trans3.identity, cube⟩ ⟨1 / 2, 0, 0⟩ = .inside := by
    simp only [Placed.inside, identity_unmoved _]
    change BoxSolid.inside _ _ = _
    have ht := kHalfTolerance_pos
    have htl := BoxSolid.kHalfTolerance_le
    have hm : V3.maxc (V3.vabs ⟨1 / 2, 0, 0⟩ - ⟨1, 1, 1⟩) = -1 / 2 := by norm_num [V3.maxc, abs_of_pos]
    unfold BoxSolid.inside
    dsimp only
    rw [hm, if_neg (by rw [abs_of_neg (by norm_num)]; linarith), if_pos (by norm_num)]
  have hc : ClassExact (Placed.inside ⟨Trans3.identity, cube⟩ ⟨1 / 2, 0, 0⟩) (BoxSolid.Open ⟨1, 1, 1⟩)
      (Trans3.identity.transform ⟨1 / 2, 0, 0⟩) :=
    ClassOK.exact (box_classOK _ _) (by rw [hi]; simp)
  exact C45_exact 1 op identity_orthonormal identity_orthonormal hc hc (by rw [hi]; simp)

/-- C45: the classification for whole trees. -/
theorem C45_tree_classification (n : Nat) (X : Solid → Region) (t : Tree)
    (h : t.All (fun s => ∀ p, ClassOK (s.inside p) (X s) p) Trans3.Orthonormal Trans3.Orthonormal) :
    ∀ p, t.NoCommonSurface n p → ClassOK ((t.solid n).inside p) (t.region X) p := by
  induction t with
  | leaf s => exact fun p _ => h p
  | node op tl l tr r ihl ihr =>
    obtain ⟨h1, h2, h3, h4⟩ := h
    rintro p ⟨hns, hcl, hcr⟩
    exact C45_classification n op (l := ⟨tl, l.solid n⟩) (r := ⟨tr, r.solid n⟩) h1 h3
      (ihl h2 _ hcl) (ihr h4 _ hcr) (Or.inr hns)

theorem cube_inside_of (p : V3) {m : ℝ} (hm : V3.maxc (p.vabs - ⟨1, 1, 1⟩) = m) :
    (m = 0 → cube.inside p = .surface) ∧ (m ≤ -1 / 2 → cube.inside p = .inside) ∧ (1 ≤ m → cube.inside p = .outside) := by
  have ht := kHalfTolerance_pos
  have htl := BoxSolid.kHalfTolerance_le
  refine ⟨?_, ?_, ?_⟩ <;> intro h <;> change BoxSolid.inside _ _ = _ <;> unfold BoxSolid.inside <;> dsimp only <;> rw [hm]
  · rw [h, abs_zero, if_pos ht]
  · rw [if_neg (by rw [abs_of_neg (by linarith)]; linarith), if_pos (by linarith)]
  · rw [if_neg (by rw [abs_of_pos (by linarith)]; linarith), if_neg (by linarith)]

example : demoTree.NoCommonSurface 5 ⟨1 / 2, 0, 0⟩ := by
  refine ⟨?_, ⟨?_, trivial, trivial⟩, ?_, trivial, trivial⟩
  · rintro ⟨h, _⟩
    have hc : cube.inside ⟨1 / 2, 0, 0⟩ = .inside := (cube_inside_of _ rfl).2.1 (by norm_num [V3.maxc])
    simp only [Tree.solid, boolSolid, unionInside, Placed.inside, identity_unmoved _, hc, if_true, reduceCtorEq] at h
  all_goals
    rw [identity_unmoved, identity_unmoved]
    rintro ⟨h, _⟩
    have hc : cube.inside ⟨1 / 2, 0, 0⟩ = .inside := (cube_inside_of _ rfl).2.1 (by norm_num [V3.maxc])
    rw [Tree.solid, hc] at h
    cases h

/-- Finding: two boxes that touch along an edge: every point of the edge is classified as inside the union although
points outside (even of the closed boxes) lie arbitrarily near. -/
theorem C45_union_edge_counterexample (n : Nat) :
    (boolSolid n .union (cubeAt 0 0 0) (cubeAt 2 2 0)).inside ⟨1, 1, 0⟩ = .inside ∧
    ¬ Interior (Op.union.apply (Moved (Trans3.ofTranslation 0 0 0) (BoxSolid.Closed ⟨1, 1, 1⟩))
      (Moved (Trans3.ofTranslation 2 2 0) (BoxSolid.Closed ⟨1, 1, 1⟩))) ⟨1, 1, 0⟩ := by
  have ht := kHalfTolerance_pos
  have htl := BoxSolid.kHalfTolerance_le
  have e1 : (Trans3.ofTranslation 0 0 0).transform ⟨1, 1, 0⟩ = ⟨1, 1, 0⟩ := ofTranslation_unmoved _
  have e2 : (Trans3.ofTranslation 2 2 0).transform ⟨1, 1, 0⟩ = ⟨-1, -1, 0⟩ := by
    rw [ofTranslation_transform]; norm_num
  have s1 : cube.inside ⟨1, 1, 0⟩ = .surface := (cube_inside_of _ rfl).1 (by norm_num [V3.maxc])
  have s2 : cube.inside ⟨-1, -1, 0⟩ = .surface := (cube_inside_of _ rfl).1 (by norm_num [V3.maxc])
  constructor
  · simp only [boolSolid, unionInside, Placed.inside, cubeAt, e1, e2, s1, s2]
    have hs : Real.sqrt 2 * Real.sqrt 2 = 2 := Real.mul_self_sqrt (by norm_num)
    have hne : Real.sqrt 2 ≠ 0 := by positivity
    have n1 : (cube.normal ⟨1, 1, 0⟩).1 = ⟨1 / Real.sqrt 2, 1 / Real.sqrt 2, 0⟩ := by
      change (BoxSolid.normalKernel _ _).1 = _
      have : ¬ (1 : ℝ) < kHalfTolerance := by linarith
      norm_num [BoxSolid.normalKernel, V3.minc, V3.mag2, V3.dot, sign, V3.smul, V3.mag, ht, this]
    have n2 : (cube.normal ⟨-1, -1, 0⟩).1 = ⟨-(1 / Real.sqrt 2), -(1 / Real.sqrt 2), 0⟩ := by
      change (BoxSolid.normalKernel _ _).1 = _
      have : ¬ (1 : ℝ) < kHalfTolerance := by linarith
      norm_num [BoxSolid.normalKernel, V3.minc, V3.mag2, V3.dot, sign, V3.smul, V3.mag, ht, this]
    have hd : (backNormal (cubeAt 0 0 0) ⟨1, 1, 0⟩).dot (backNormal (cubeAt 2 2 0) ⟨1, 1, 0⟩) < 0 := by
      simp only [backNormal, Placed.normal, cubeAt, e1, e2, n1, n2]
      simp only [Trans3.inverseTransformDirection, Trans3.ofTranslation, V3.dot]
      have : 0 < 1 / Real.sqrt 2 := by positivity
      nlinarith
    simp only [cubeAt] at hd
    simp [hd]
  · rintro ⟨e, he, h⟩
    set m := min (e / 2) (1 / 2) with hm
    have hm0 : 0 < m := lt_min (by linarith) (by norm_num)
    have hm1 : m ≤ 1 / 2 := min_le_right _ _
    have hme : m ≤ e / 2 := min_le_left _ _
    have := h ⟨1 + m, 1 - m, 0⟩ (by
      have : V3.dist ⟨1, 1, 0⟩ ⟨1 + m, 1 - m, 0⟩ < 2 * m := by
        rw [V3.dist, Real.sqrt_lt' (by linarith)]
        simp only [V3.dist2]
        nlinarith
      linarith)
    simp only [Op.apply, moved_iff (ofTranslation_orthonormal _ _ _), ofTranslation_transform, BoxSolid.Closed] at this
    rcases this with ⟨h1, _⟩ | ⟨_, h1, _⟩
    · rw [abs_le] at h1; linarith
    · rw [abs_le] at h1; linarith

/-- Finding: a box minus a box that touches it: the points of the common face are classified as outside although they
are on the surface of the difference. -/
theorem C45_subtraction_face_counterexample (n : Nat) :
    (boolSolid n .subtraction (cubeAt 0 0 0) (cubeAt 2 0 0)).inside ⟨1, 0, 0⟩ = .outside ∧
    ¬ Exterior (Op.subtraction.apply (Moved (Trans3.ofTranslation 0 0 0) (BoxSolid.Open ⟨1, 1, 1⟩))
      (Moved (Trans3.ofTranslation 2 0 0) (BoxSolid.Open ⟨1, 1, 1⟩))) ⟨1, 0, 0⟩ := by
  have e1 : (Trans3.ofTranslation 0 0 0).transform ⟨1, 0, 0⟩ = ⟨1, 0, 0⟩ := ofTranslation_unmoved _
  have e2 : (Trans3.ofTranslation 2 0 0).transform ⟨1, 0, 0⟩ = ⟨-1, 0, 0⟩ := by
    rw [ofTranslation_transform]; norm_num
  have s1 : cube.inside ⟨1, 0, 0⟩ = .surface := (cube_inside_of _ rfl).1 (by norm_num [V3.maxc])
  have s2 : cube.inside ⟨-1, 0, 0⟩ = .surface := (cube_inside_of _ rfl).1 (by norm_num [V3.maxc])
  constructor
  · simp [boolSolid, subInside, Placed.inside, cubeAt, e1, e2, s1, s2]
  · rintro ⟨e, he, h⟩
    set m := min (e / 2) (1 / 2) with hm
    have hm0 : 0 < m := lt_min (by linarith) (by norm_num)
    have hm1 : m ≤ 1 / 2 := min_le_right _ _
    have hme : m ≤ e / 2 := min_le_left _ _
    refine h ⟨1 - m, 0, 0⟩ ?_ ?_
    · have : V3.dist ⟨1, 0, 0⟩ ⟨1 - m, 0, 0⟩ < 2 * m := by
        rw [V3.dist, Real.sqrt_lt' (by linarith)]
        simp only [V3.dist2]
        nlinarith
      linarith
    · simp only [Op.apply, moved_iff (ofTranslation_orthonormal _ _ _), ofTranslation_transform, BoxSolid.Open]
      refine ⟨⟨by rw [abs_lt]; constructor <;> linarith, by norm_num, by norm_num⟩, fun hc => ?_⟩
      have := (abs_lt.mp hc.1).1
      linarith

/-! ## C46: extents -/

theorem transformedExtent_mem (v : Placed) {q : V3} (hq : AABB.InBox v.extent q) :
    AABB.InBox (transformedExtent v) (v.trans.inverseTransform q) :=
  AABB.inverseTransform_inBox hq fun c hc =>
    AABB.foldl_accum_mem _ _ (by rw [AABB.cornerIdx_map]; exact List.mem_map_of_mem hc)

/-- C46: the reported extent bounds the boolean solid whose constituents are moved by their placements twice. -/
theorem C46_moved_twice (n : Nat) (op : Op) {l r : Placed} {X Y : Region} (hl : l.trans.FlagsOk) (hr : r.trans.FlagsOk)
    (hX : ExtentOK l.solid X) (hY : ExtentOK r.solid Y) :
    ExtentOK (boolSolid n op l r)
      (op.apply (Moved l.trans (Moved l.trans X)) (Moved r.trans (Moved r.trans Y))) := by
  have key : ∀ {v : Placed} {Z : Region}, v.trans.FlagsOk → ExtentOK v.solid Z →
      ∀ p, Moved v.trans (Moved v.trans Z) p → AABB.InBox (transformedExtent v) p := by
    rintro v Z hf hZ p ⟨q, ⟨q', hq', rfl⟩, rfl⟩
    exact transformedExtent_mem v (AABB.C28_placed_extent hf (hZ q' hq'))
  intro p hp
  have hA := key hl hX p
  have hB := key hr hY p
  cases op
  · simp only [boolSolid, boolExtent]
    rcases hp with hp | hp
    · obtain ⟨⟨h1, h2⟩, ⟨h3, h4⟩, ⟨h5, h6⟩⟩ := hA hp
      exact ⟨⟨(min_le_left _ _).trans h1, h2.trans (le_max_left _ _)⟩, ⟨(min_le_left _ _).trans h3,
        h4.trans (le_max_left _ _)⟩, ⟨(min_le_left _ _).trans h5, h6.trans (le_max_left _ _)⟩⟩
    · obtain ⟨⟨h1, h2⟩, ⟨h3, h4⟩, ⟨h5, h6⟩⟩ := hB hp
      exact ⟨⟨(min_le_right _ _).trans h1, h2.trans (le_max_right _ _)⟩, ⟨(min_le_right _ _).trans h3,
        h4.trans (le_max_right _ _)⟩, ⟨(min_le_right _ _).trans h5, h6.trans (le_max_right _ _)⟩⟩
  · simp only [boolSolid, boolExtent]
    obtain ⟨⟨h1, h2⟩, ⟨h3, h4⟩, ⟨h5, h6⟩⟩ := hA hp.1
    obtain ⟨⟨g1, g2⟩, ⟨g3, g4⟩, ⟨g5, g6⟩⟩ := hB hp.2
    exact ⟨⟨max_le h1 g1, le_min h2 g2⟩, ⟨max_le h3 g3, le_min h4 g4⟩, ⟨max_le h5 g5, le_min h6 g6⟩⟩
  · exact hA hp.1

example : (Trans3.ofTranslation 5 0 0).FlagsOk ∧ ExtentOK cube (BoxSolid.Open ⟨1, 1, 1⟩) :=
  ⟨Trans3.C24_translation_flags _ _ _, box_extentOK _⟩

/-- C46, as far as it holds: the extent contains the boolean solid if the constituents are not moved (for a difference it
is enough that the left one is not). -/
theorem C46_extent_partial (n : Nat) (op : Op) {l r : Placed} {X Y : Region} (hl : l.trans.FlagsOk) (hr : r.trans.FlagsOk)
    (ol : l.trans.Orthonormal) (or : r.trans.Orthonormal) (hul : Unmoved l.trans)
    (hur : op = .subtraction ∨ Unmoved r.trans) (hX : ExtentOK l.solid X) (hY : ExtentOK r.solid Y) :
    ExtentOK (boolSolid n op l r) (op.apply (Moved l.trans X) (Moved r.trans Y)) := by
  intro p hp
  rcases hur with rfl | hur
  · have := C46_moved_twice n .subtraction (l := l) (r := r) (Y := fun _ => False) hl hr hX (fun _ h => h.elim) p
    apply this
    refine ⟨?_, ?_⟩
    · rw [unmoved_moved ol hul]; exact hp.1
    · rintro ⟨_, ⟨_, h, _⟩, _⟩
      exact h
  · refine C46_moved_twice n op hl hr hX hY p ?_
    refine (apply_congr op ?_ ?_).mpr hp
    · rw [unmoved_moved ol hul]
    · rw [unmoved_moved or hur]

example : Trans3.identity.FlagsOk ∧ Trans3.identity.Orthonormal ∧ Unmoved Trans3.identity :=
  ⟨Trans3.identity_flagsOk, identity_orthonormal, identity_unmoved⟩

theorem transformedExtent_translation {h : V3} (hh : BoxSolid.Proper h) (hf : h.x ≤ 1000 ∧ h.y ≤ 1000 ∧ h.z ≤ 1000) {x : ℝ}
    (hx : 0 ≤ x) (hx' : x ≤ 1000) :
    2 * x - h.x ≤ (transformedExtent ⟨Trans3.ofTranslation x 0 0, boxSolid h⟩).lo.x := by
  obtain ⟨t1, -⟩ := AABB.foldl_accum_tight
    (AABB.cornerIdx.map (AABB.transformedCorner (Trans3.ofTranslation x 0 0)
      (Placed.extent ⟨Trans3.ofTranslation x 0 0, boxSolid h⟩)))
    ⟨⟨kInfLength, kInfLength, kInfLength⟩, ⟨-kInfLength, -kInfLength, -kInfLength⟩⟩
  unfold transformedExtent
  rcases t1 with t | ⟨c, hc, t⟩
  · rw [t]
    have := hh.1
    exact AABB.le_kInfLength (by linarith)
  · rw [t]
    have e : Placed.extent ⟨Trans3.ofTranslation x 0 0, boxSolid h⟩ = ⟨⟨-h.x + x, -h.y, -h.z⟩, ⟨h.x + x, h.y, h.z⟩⟩ := by
      simp only [Placed.extent, AABB.placedExtent, Trans3.ofTranslation, Bool.false_eq_true, if_false, boxSolid,
        BoxSolid.extent, Trans3.inverseTransform]
      congr 1 <;> ext <;> simp <;> ring
    rw [e] at hc
    rw [AABB.cornerIdx_map, List.mem_map] at hc
    obtain ⟨q, hq, rfl⟩ := hc
    rw [(Trans3.C23_translation x 0 0 q).2.1]
    have := hh.1
    simp only [AABB.corners, List.mem_cons, List.not_mem_nil, or_false] at hq
    rcases hq with rfl | rfl | rfl | rfl | rfl | rfl | rfl | rfl <;> dsimp only <;> linarith

/-- Finding: with moved constituents the extent misses the solid, for each of the three operations: the placement is
applied once by `VPlacedVolume::Extent` and a second time by `TransformedExtent`. -/
theorem C46_counterexample (n : Nat) (op : Op) :
    ∃ l r : Placed, l.trans.Orthonormal ∧ l.trans.FlagsOk ∧ r.trans.Orthonormal ∧ r.trans.FlagsOk ∧
      (∃ X, ContainsOK l.solid X ∧ ExtentOK l.solid X) ∧ (∃ Y, ContainsOK r.solid Y ∧ ExtentOK r.solid Y) ∧
      (op = .intersection → Unmoved l.trans) ∧
      ∃ p, (boolSolid n op l r).contains p = true ∧ ¬ AABB.InBox (boolSolid n op l r).extent p := by
  have hc : ∀ p : V3, cube.contains p = true ↔ BoxSolid.Open ⟨1, 1, 1⟩ p := BoxSolid.C43_contains _
  have lo5 : 9 ≤ (transformedExtent (cubeAt 5 0 0)).lo.x := by
    have := transformedExtent_translation (h := ⟨1, 1, 1⟩) ⟨by norm_num, by norm_num, by norm_num⟩
      ⟨by norm_num, by norm_num, by norm_num⟩ (x := 5) (by norm_num) (by norm_num)
    unfold cubeAt cube
    linarith
  cases op
  · refine ⟨cubeAt 5 0 0, cubeAt 5 0 0, ofTranslation_orthonormal _ _ _, Trans3.C24_translation_flags _ _ _,
      ofTranslation_orthonormal _ _ _, Trans3.C24_translation_flags _ _ _, ⟨_, box_containsOK _, box_extentOK _⟩,
      ⟨_, box_containsOK _, box_extentOK _⟩, by simp, ⟨5, 0, 0⟩, ?_, ?_⟩
    · rw [boolSolid_contains]
      simp only [Op.apply, Placed.contains, cubeAt, hc, ofTranslation_transform]
      norm_num [BoxSolid.Open]
    · rintro ⟨⟨h, _⟩, _⟩
      simp only [boolSolid, boolExtent] at h
      rcases min_choice (transformedExtent (cubeAt 5 0 0)).lo.x (transformedExtent (cubeAt 5 0 0)).lo.x with e | e <;>
        rw [e] at h <;> linarith
  · refine ⟨⟨Trans3.ofTranslation 0 0 0, boxSolid ⟨10, 10, 10⟩⟩, cubeAt 5 0 0, ofTranslation_orthonormal _ _ _,
      Trans3.C24_translation_flags _ _ _, ofTranslation_orthonormal _ _ _, Trans3.C24_translation_flags _ _ _,
      ⟨_, box_containsOK _, box_extentOK _⟩, ⟨_, box_containsOK _, box_extentOK _⟩, fun _ => ofTranslation_unmoved,
      ⟨5, 0, 0⟩, ?_, ?_⟩
    · rw [boolSolid_contains]
      simp only [Op.apply, Placed.contains, cubeAt, hc, ofTranslation_transform, boxSolid, BoxSolid.C43_contains]
      norm_num [BoxSolid.Open]
    · rintro ⟨⟨h, _⟩, _⟩
      simp only [boolSolid, boolExtent] at h
      have := (le_max_right _ _).trans h
      linarith
  · refine ⟨cubeAt 5 0 0, cubeAt 9 0 0, ofTranslation_orthonormal _ _ _, Trans3.C24_translation_flags _ _ _,
      ofTranslation_orthonormal _ _ _, Trans3.C24_translation_flags _ _ _, ⟨_, box_containsOK _, box_extentOK _⟩,
      ⟨_, box_containsOK _, box_extentOK _⟩, by simp, ⟨5, 0, 0⟩, ?_, ?_⟩
    · rw [boolSolid_contains]
      simp only [Op.apply, Placed.contains, cubeAt, hc, ofTranslation_transform]
      norm_num [BoxSolid.Open]
    · rintro ⟨⟨h, _⟩, _⟩
      simp only [boolSolid, boolExtent] at h
      linarith

/-! ## C47: safeties -/

theorem safetyIn_moved {v : Placed} {X : Region} (hv : v.trans.Orthonormal) (hX : SafetyInOK v.solid X) {p q : V3}
    (hq : Moved v.trans X q) : v.safetyToIn p ≤ V3.dist p q := by
  rw [moved_iff hv] at hq
  have := hX (v.trans.transform p) _ hq
  rwa [dist_transform hv] at this

theorem safetyOut_moved {v : Placed} {X : Region} (hv : v.trans.Orthonormal) (hX : SafetyOutOK v.solid X) {p q : V3}
    (hq : ¬ Moved v.trans X q) : v.safetyToOut (v.trans.transform p) ≤ V3.dist p q := by
  rw [moved_iff hv] at hq
  have := hX (v.trans.transform p) _ hq
  rwa [dist_transform hv] at this

theorem dist_nonneg (p q : V3) : 0 ≤ V3.dist p q := Real.sqrt_nonneg _

/-- C47: the safety to enter a boolean solid does not exceed the distance to any of its points, for all placements of
the constituents. -/
theorem C47_safety_in (n : Nat) (op : Op) {l r : Placed} {X Y : Region} (hl : l.trans.Orthonormal)
    (hr : r.trans.Orthonormal) (hX : SafetyInOK l.solid X) (hY : SafetyInOK r.solid Y)
    (hYo : op = .subtraction → SafetyOutOK r.solid Y) :
    SafetyInOK (boolSolid n op l r) (op.apply (Moved l.trans X) (Moved r.trans Y)) := by
  intro p q hq
  cases op
  · simp only [boolSolid, unionSafetyToIn]
    rcases hq with hq | hq
    · exact (min_le_left _ _).trans (safetyIn_moved hl hX hq)
    · exact (min_le_right _ _).trans (safetyIn_moved hr hY hq)
  · simp only [boolSolid, interSafetyToIn]
    have h1 := safetyIn_moved hl hX (p := p) hq.1
    have h2 := safetyIn_moved hr hY (p := p) hq.2
    split
    · exact h1
    · split
      · exact h2
      · exact (min_le_left _ _).trans h1
  · simp only [boolSolid, subSafetyToIn]
    split
    · exact safetyOut_moved hr (hYo rfl) hq.2
    · exact safetyIn_moved hl hX hq.1

/-- C47, as far as it holds: the safety to leave a boolean solid does not exceed the distance to any point outside, if
the left constituent is not moved. -/
theorem C47_safety_out_partial (n : Nat) (op : Op) {l r : Placed} {X Y : Region} (hl : l.trans.Orthonormal)
    (hr : r.trans.Orthonormal) (hul : Unmoved l.trans) (hX : SafetyOutOK l.solid X)
    (hY : op ≠ .subtraction → SafetyOutOK r.solid Y) (hYi : op = .subtraction → SafetyInOK r.solid Y) :
    SafetyOutOK (boolSolid n op l r) (op.apply (Moved l.trans X) (Moved r.trans Y)) := by
  intro p q hq
  have hA : ¬ Moved l.trans X q → l.safetyToOut p ≤ V3.dist p q := by
    intro h
    have := safetyOut_moved hl hX (p := p) h
    rwa [hul p] at this
  have hd := dist_nonneg p q
  have ht := kTolerance_pos
  cases op
  · have h1 := hA fun h => hq (Or.inl h)
    have h2 := safetyOut_moved hr (hY (by simp)) (p := p) fun h => hq (Or.inr h)
    simp only [boolSolid, unionSafetyToOut]
    split
    · linarith
    · split
      · exact max_le h1 h2
      · split
        · linarith
        · split <;> assumption
  · simp only [boolSolid, interSafetyToOut]
    have hq' : ¬ Moved l.trans X q ∨ ¬ Moved r.trans Y q := by
      by_contra h
      push Not at h
      exact hq h
    split
    · exact hd
    · rcases hq' with h | h
      · exact (min_le_left _ _).trans (hA h)
      · exact (min_le_right _ _).trans (safetyOut_moved hr (hY (by simp)) h)
  · simp only [boolSolid, subSafetyToOut]
    by_cases h : Moved l.trans X q
    · have hy : Moved r.trans Y q := by
        by_contra hy
        exact hq ⟨h, hy⟩
      exact (min_le_right _ _).trans (safetyIn_moved hr (hYi rfl) hy)
    · exact (min_le_left _ _).trans (hA h)

example : SafetyInOK cube (BoxSolid.Open ⟨1, 1, 1⟩) ∧ SafetyOutOK cube (BoxSolid.Open ⟨1, 1, 1⟩) :=
  ⟨box_safetyInOK _, box_safetyOutOK _⟩

/-- C47, as far as it holds, for whole trees: both safeties are safe if every left constituent is not moved. -/
theorem C47_tree_partial (n : Nat) (X : Solid → Region) (t : Tree)
    (h : t.All (fun s => SafetyInOK s (X s) ∧ SafetyOutOK s (X s)) (fun T => T.Orthonormal ∧ Unmoved T)
      Trans3.Orthonormal) :
    SafetyInOK (t.solid n) (t.region X) ∧ SafetyOutOK (t.solid n) (t.region X) := by
  induction t with
  | leaf s => exact h
  | node op tl l tr r ihl ihr =>
    obtain ⟨⟨h1, hu⟩, h2, h3, h4⟩ := h
    obtain ⟨li, lo⟩ := ihl h2
    obtain ⟨ri, ro⟩ := ihr h4
    exact ⟨C47_safety_in n op (l := ⟨tl, l.solid n⟩) (r := ⟨tr, r.solid n⟩) h1 h3 li ri fun _ => ro,
      C47_safety_out_partial n op (l := ⟨tl, l.solid n⟩) (r := ⟨tr, r.solid n⟩) h1 h3 hu lo (fun _ => ro) fun _ => ri⟩

example : demoTree.All (fun s => SafetyInOK s (BoxSolid.Open ⟨1, 1, 1⟩) ∧ SafetyOutOK s (BoxSolid.Open ⟨1, 1, 1⟩))
    (fun T => T.Orthonormal ∧ Unmoved T) Trans3.Orthonormal :=
  ⟨⟨identity_orthonormal, identity_unmoved⟩, ⟨⟨identity_orthonormal, identity_unmoved⟩,
    ⟨box_safetyInOK _, box_safetyOutOK _⟩, Trans3.sample_orthonormal, ⟨box_safetyInOK _, box_safetyOutOK _⟩⟩,
    identity_orthonormal, ⟨identity_orthonormal, identity_unmoved⟩, ⟨box_safetyInOK _, box_safetyOutOK _⟩,
    ofTranslation_orthonormal _ _ _, ⟨box_safetyInOK _, box_safetyOutOK _⟩⟩

/-- Finding: with a moved left constituent the safety to leave is wrong for each of the three operations: the point is
handed to the left constituent without being transformed.  At a point of the solid one unit away from points outside
the reported safety is five. -/
theorem C47_left_moved_counterexample (n : Nat) (op : Op) :
    ∃ l r : Placed, l.trans.Orthonormal ∧ r.trans.Orthonormal ∧
      (∃ X, ContainsOK l.solid X ∧ SafetyOutOK l.solid X) ∧ (∃ Y, ContainsOK r.solid Y ∧ SafetyInOK r.solid Y ∧
        SafetyOutOK r.solid Y) ∧
      ∃ p q, (boolSolid n op l r).contains p = true ∧ (boolSolid n op l r).contains q = false ∧ V3.dist p q = 1 ∧
        (boolSolid n op l r).safetyToOut p = 5 := by
  have ht := kHalfTolerance_pos
  have htl := BoxSolid.kHalfTolerance_le
  have d1 : V3.dist ⟨0, 0, 0⟩ ⟨-1, 0, 0⟩ = 1 := by norm_num [V3.dist, V3.dist2]
  have s5 : (boxSolid ⟨5, 5, 5⟩).safetyToOut ⟨0, 0, 0⟩ = 5 := by
    change BoxSolid.safetyToOut _ _ = _
    norm_num [BoxSolid.safetyToOut, V3.minc]
  have key : ∀ (op : Op) (r : Placed), (boolSolid n op ⟨Trans3.ofTranslation 4 0 0, boxSolid ⟨5, 5, 5⟩⟩ r).contains
      ⟨-1, 0, 0⟩ = false ∨ r.contains ⟨-1, 0, 0⟩ = true := by
    intro op r
    by_cases hr : r.contains ⟨-1, 0, 0⟩ = true
    · exact Or.inr hr
    · left
      rw [← Bool.not_eq_true, boolSolid_contains]
      have hl : ¬ Placed.contains ⟨Trans3.ofTranslation 4 0 0, boxSolid ⟨5, 5, 5⟩⟩ ⟨-1, 0, 0⟩ = true := by
        simp only [Placed.contains, ofTranslation_transform, boxSolid, BoxSolid.C43_contains]
        norm_num [BoxSolid.Open]
      cases op <;> simp only [Op.apply] <;> tauto
  have hl0 : Placed.contains ⟨Trans3.ofTranslation 4 0 0, boxSolid ⟨5, 5, 5⟩⟩ ⟨0, 0, 0⟩ = true := by
    simp only [Placed.contains, ofTranslation_transform, boxSolid, BoxSolid.C43_contains]
    norm_num [BoxSolid.Open]
  have hf0 : ¬ (cubeAt 100 0 0).contains ⟨0, 0, 0⟩ = true := by
    simp only [Placed.contains, cubeAt, cube, ofTranslation_transform, boxSolid, BoxSolid.C43_contains]
    norm_num [BoxSolid.Open]
  have hf1 : ¬ (cubeAt 100 0 0).contains ⟨-1, 0, 0⟩ = true := by
    simp only [Placed.contains, cubeAt, cube, ofTranslation_transform, boxSolid, BoxSolid.C43_contains]
    norm_num [BoxSolid.Open]
  cases op
  · refine ⟨⟨Trans3.ofTranslation 4 0 0, boxSolid ⟨5, 5, 5⟩⟩, cubeAt 100 0 0, ofTranslation_orthonormal _ _ _,
      ofTranslation_orthonormal _ _ _, ⟨_, box_containsOK _, box_safetyOutOK _⟩,
      ⟨_, box_containsOK _, box_safetyInOK _, box_safetyOutOK _⟩, ⟨0, 0, 0⟩, ⟨-1, 0, 0⟩, ?_, ?_, d1, ?_⟩
    · rw [boolSolid_contains]; exact Or.inl hl0
    · exact (key _ _).resolve_right hf1
    · have iA : Placed.inside ⟨Trans3.ofTranslation 4 0 0, boxSolid ⟨5, 5, 5⟩⟩ ⟨0, 0, 0⟩ = .inside := by
        simp only [Placed.inside, ofTranslation_transform]
        change BoxSolid.inside _ _ = _
        have : ¬ (1 : ℝ) < kHalfTolerance := by linarith
        norm_num [BoxSolid.inside, V3.maxc, this]
      have iB : (cubeAt 100 0 0).inside ⟨0, 0, 0⟩ = .outside := by
        simp only [Placed.inside, cubeAt, ofTranslation_transform]
        exact (cube_inside_of _ rfl).2.2 (by norm_num [V3.maxc])
      simp only [boolSolid, unionSafetyToOut, iA, iB]
      simpa [Placed.safetyToOut] using s5
  · refine ⟨⟨Trans3.ofTranslation 4 0 0, boxSolid ⟨5, 5, 5⟩⟩, ⟨Trans3.identity, boxSolid ⟨100, 100, 100⟩⟩,
      ofTranslation_orthonormal _ _ _, identity_orthonormal, ⟨_, box_containsOK _, box_safetyOutOK _⟩,
      ⟨_, box_containsOK _, box_safetyInOK _, box_safetyOutOK _⟩, ⟨0, 0, 0⟩, ⟨-1, 0, 0⟩, ?_, ?_, d1, ?_⟩
    · rw [boolSolid_contains]
      refine ⟨hl0, ?_⟩
      simp only [Placed.contains, identity_unmoved _, boxSolid, BoxSolid.C43_contains]
      norm_num [BoxSolid.Open]
    · rw [← Bool.not_eq_true, boolSolid_contains]
      rintro ⟨h, _⟩
      simp only [Placed.contains, ofTranslation_transform, boxSolid, BoxSolid.C43_contains] at h
      norm_num [BoxSolid.Open] at h
    · have e : (boxSolid ⟨100, 100, 100⟩).safetyToOut ⟨0, 0, 0⟩ = 100 := by
        change BoxSolid.safetyToOut _ _ = _
        norm_num [BoxSolid.safetyToOut, V3.minc]
      simp only [boolSolid, interSafetyToOut, Placed.safetyToOut, identity_unmoved _, s5, e]
      norm_num
  · refine ⟨⟨Trans3.ofTranslation 4 0 0, boxSolid ⟨5, 5, 5⟩⟩, cubeAt 100 0 0, ofTranslation_orthonormal _ _ _,
      ofTranslation_orthonormal _ _ _, ⟨_, box_containsOK _, box_safetyOutOK _⟩,
      ⟨_, box_containsOK _, box_safetyInOK _, box_safetyOutOK _⟩, ⟨0, 0, 0⟩, ⟨-1, 0, 0⟩, ?_, ?_, d1, ?_⟩
    · rw [boolSolid_contains]; exact ⟨hl0, hf0⟩
    · exact (key _ _).resolve_right hf1
    · have e : (cubeAt 100 0 0).safetyToIn ⟨0, 0, 0⟩ = 99 := by
        simp only [Placed.safetyToIn, cubeAt, ofTranslation_transform]
        change BoxSolid.safetyToIn _ _ = _
        norm_num [BoxSolid.safetyToIn, V3.maxc]
      simp only [boolSolid, subSafetyToOut, e, Placed.safetyToOut, s5]
      norm_num

end Boolean
end VecGeom
