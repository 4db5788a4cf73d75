import Verif.Boolean.DistProps

/-!
# C65: normals of boolean solids
-/

namespace VecGeom
namespace Boolean

/-! ## Specification -/

/-- The normal a placed volume reports at a point, seen from the frame of the mother. -/
def normalOf (v : Placed) (p : V3) : V3 :=
  v.trans.inverseTransformDirection (v.solid.normal (v.trans.transform p)).1

/-- `n` points out of the region at `p`: a small step along it leaves the region, a small step back is in it. -/
def Outward (X : Region) (p n : V3) : Prop :=
  ∃ e > 0, ∀ t, 0 < t → t < e → ¬ X (V3.at' p n t) ∧ X (V3.at' p n (-t))

/-- What a constituent reports at one point hangs together: inside points are contained and at least `c` deep, outside
points are not contained and at least `c` away, on the surface the safety of the side told by `Contains` is below `c`. -/
def Consistent (c : ℝ) (v : Placed) (p : V3) : Prop :=
  (v.inside p = .inside → v.contains p = true ∧ c ≤ v.solid.safetyToOut (v.trans.transform p)) ∧
  (v.inside p = .outside → v.contains p = false ∧ c ≤ v.solid.safetyToIn (v.trans.transform p)) ∧
  (v.inside p = .surface →
    (v.contains p = true → v.solid.safetyToOut (v.trans.transform p) < c) ∧
    (v.contains p = false → v.solid.safetyToIn (v.trans.transform p) < c))

/-- The sign the normal of the right constituent gets. -/
def rightSign : Op → ℝ
  | .subtraction => -1
  | _ => 1

/-! ## Lemmas -/

theorem inverseTransformDirection_smul (T : Trans3) (k : ℝ) (n : V3) :
    T.inverseTransformDirection (V3.smul k n) = V3.smul k (T.inverseTransformDirection n) := by
  ext <;> simp [Trans3.inverseTransformDirection, V3.smul] <;> ring

theorem backNormalValid_fst (v : Placed) (p : V3) : (backNormalValid v p).1 = normalOf v p := rfl

theorem backNormalNeg_fst (v : Placed) (p : V3) : (backNormalNeg v p).1 = V3.smul (-1) (normalOf v p) :=
  inverseTransformDirection_smul _ _ _

theorem smul_one (n : V3) : V3.smul 1 n = n := by ext <;> simp [V3.smul]

theorem mag2_smul_neg (n : V3) : (V3.smul (-1) n).mag2 = n.mag2 := by simp [V3.smul, V3.mag2, V3.dot]

theorem normalOf_mag2 {v : Placed} (h : v.trans.Orthonormal) (p : V3) :
    (normalOf v p).mag2 = (v.solid.normal (v.trans.transform p)).1.mag2 := by
  have hd := (Trans3.C23_direction_roundtrip h (v.solid.normal (v.trans.transform p)).1).2
  have hi := (Trans3.C23_isometry h (normalOf v p) 0 0).1
  unfold normalOf at *
  rw [hd] at hi
  exact hi.symm

theorem Interior.along {X : Region} {p : V3} (h : Interior X p) (n : V3) :
    ∃ e > 0, ∀ t, |t| < e → X (V3.at' p n t) := by
  obtain ⟨e, he, hX⟩ := h
  have hm : 0 ≤ Real.sqrt n.mag2 := Real.sqrt_nonneg _
  refine ⟨e / (Real.sqrt n.mag2 + 1), by positivity, fun t ht => hX _ ?_⟩
  have hd : V3.dist p (V3.at' p n t) = |t| * Real.sqrt n.mag2 := by
    rw [← Real.sqrt_sq_eq_abs, ← Real.sqrt_mul (sq_nonneg t)]
    simp only [V3.dist, V3.dist2, V3.at_x, V3.at_y, V3.at_z, V3.mag2, V3.dot]
    congr 1; ring
  rw [hd]
  rw [lt_div_iff₀ (by linarith)] at ht
  nlinarith [abs_nonneg t]

theorem outward_moved {T : Trans3} (hT : T.Orthonormal) {X : Region} {p n : V3} (h : Outward X (T.transform p) n) :
    Outward (Moved T X) p (T.inverseTransformDirection n) := by
  obtain ⟨e, he, hX⟩ := h
  refine ⟨e, he, fun t h0 h1 => ?_⟩
  have hd := (Trans3.C23_direction_roundtrip hT n).2
  rw [moved_iff hT, moved_iff hT, transform_at, transform_at, hd]
  exact hX t h0 h1

theorem box_consistent (h : V3) (T : Trans3) (p : V3) : Consistent kHalfTolerance ⟨T, boxSolid h⟩ p := by
  have ht := kHalfTolerance_pos
  have hs : ∀ q, BoxSolid.safetyToOut h q = -V3.maxc (q.vabs - h) := fun q => BoxSolid.safety_neg h q
  have hc : ∀ q, BoxSolid.contains h q = true ↔ V3.maxc (q.vabs - h) < 0 := fun q =>
    (BoxSolid.C43_contains h q).trans (BoxSolid.open_iff h q)
  unfold Consistent Placed.inside Placed.contains
  change (BoxSolid.inside h (T.transform p) = _ → BoxSolid.contains h (T.transform p) = _ ∧
    _ ≤ BoxSolid.safetyToOut h (T.transform p)) ∧ (BoxSolid.inside h (T.transform p) = _ →
    BoxSolid.contains h (T.transform p) = _ ∧ _ ≤ BoxSolid.safetyToIn h (T.transform p)) ∧
    (BoxSolid.inside h (T.transform p) = _ → (BoxSolid.contains h (T.transform p) = _ →
      BoxSolid.safetyToOut h (T.transform p) < _) ∧ (BoxSolid.contains h (T.transform p) = _ →
      BoxSolid.safetyToIn h (T.transform p) < _))
  generalize T.transform p = q
  rw [hs, ← Bool.not_eq_true, hc]
  unfold BoxSolid.inside BoxSolid.safetyToIn
  dsimp only
  generalize V3.maxc (q.vabs - h) = m
  rcases lt_or_ge |m| kHalfTolerance with hm | hm
  · rw [if_pos hm]
    rw [abs_lt] at hm
    refine ⟨by simp, by simp, fun _ => ⟨fun _ => by linarith, fun _ => by linarith⟩⟩
  · rw [if_neg (not_lt.mpr hm)]
    rcases lt_or_ge m 0 with h0 | h0
    · rw [if_pos h0]
      rw [abs_of_neg h0] at hm
      exact ⟨fun _ => ⟨h0, hm⟩, by simp, by simp⟩
    · rw [if_neg (not_lt.mpr h0)]
      rw [abs_of_nonneg h0] at hm
      exact ⟨by simp, fun _ => ⟨not_lt.mpr h0, hm⟩, by simp⟩

/-! ## Theorems -/

/-- C65: at every point the normal of a boolean solid is that of the left constituent, or that of the right one with the
sign reversed if it is subtracted, seen from the frame of the boolean solid; the flag is the one of the same constituent. -/
theorem C65_choice (n : Nat) (op : Op) (l r : Placed) (p : V3) :
    (boolSolid n op l r).normal p = (normalOf l p, (l.solid.normal (l.trans.transform p)).2) ∨
    (boolSolid n op l r).normal p =
      (V3.smul (rightSign op) (normalOf r p), (r.solid.normal (r.trans.transform p)).2) := by
  have hv : ∀ v : Placed, backNormalValid v p = (normalOf v p, (v.solid.normal (v.trans.transform p)).2) := fun _ => rfl
  have hn : ∀ v : Placed, backNormalNeg v p =
      (V3.smul (-1) (normalOf v p), (v.solid.normal (v.trans.transform p)).2) := fun v =>
    Prod.ext (backNormalNeg_fst v p) rfl
  cases op
  · simp only [boolSolid, unionNormal, rightSign, smul_one, hv]
    split
    · exact Or.inl rfl
    · split
      · exact Or.inr rfl
      · split
        · exact Or.inl rfl
        · exact Or.inr rfl
  · simp only [boolSolid, interNormal, rightSign, smul_one, hv]
    split <;> split <;> split
    all_goals first | exact Or.inl rfl | exact Or.inr rfl
  · simp only [boolSolid, subNormal, rightSign, hv, hn]
    split
    · exact Or.inr rfl
    · split
      · exact Or.inl rfl
      · split
        · exact Or.inl rfl
        · exact Or.inr rfl

/-- C65: if all leaves of a tree of boolean operations report unit vectors, so does the tree, of any depth and with any
rigid placements. -/
theorem C65_unit (n : Nat) (t : Tree)
    (h : t.All (fun s => ∀ p, (s.normal p).1.mag2 = 1) Trans3.Orthonormal Trans3.Orthonormal) (p : V3) :
    ((t.solid n).normal p).1.mag2 = 1 := by
  induction t generalizing p with
  | leaf s => exact h p
  | node op tl l tr r ihl ihr =>
    obtain ⟨h1, h2, h3, h4⟩ := h
    have hl := normalOf_mag2 (v := ⟨tl, l.solid n⟩) h1 p
    have hr := normalOf_mag2 (v := ⟨tr, r.solid n⟩) h3 p
    rw [ihl h2] at hl
    rw [ihr h4] at hr
    rcases C65_choice n op ⟨tl, l.solid n⟩ ⟨tr, r.solid n⟩ p with e | e
    · rw [Tree.solid, e]; exact hl
    · rw [Tree.solid, e]
      dsimp only
      cases op <;> simp only [rightSign, smul_one, mag2_smul_neg] <;> exact hr

example : demoTree.All (fun s => ∀ p, (s.normal p).1.mag2 = 1) Trans3.Orthonormal Trans3.Orthonormal :=
  ⟨identity_orthonormal, ⟨identity_orthonormal, BoxSolid.C43_normal_unit _, Trans3.sample_orthonormal,
    BoxSolid.C43_normal_unit _⟩, identity_orthonormal, identity_orthonormal, BoxSolid.C43_normal_unit _,
    ofTranslation_orthonormal _ _ _, BoxSolid.C43_normal_unit _⟩

/-- C65, as far as it holds: at a point of the surface of the boolean solid that lies on the surface of one constituent
only, the normal is that of this constituent (reversed for the subtracted one), if what the constituents report at the
point hangs together. -/
theorem C65_surface_partial (n : Nat) (op : Op) {l r : Placed} {p : V3} {c : ℝ} (hl : Consistent c l p)
    (hr : Consistent c r p) (hs : (boolSolid n op l r).inside p = .surface)
    (hns : ¬ (l.inside p = .surface ∧ r.inside p = .surface)) :
    (l.inside p = .surface → (boolSolid n op l r).normal p = (normalOf l p, (l.solid.normal (l.trans.transform p)).2)) ∧
    (r.inside p = .surface → (boolSolid n op l r).normal p =
      (V3.smul (rightSign op) (normalOf r p), (r.solid.normal (r.trans.transform p)).2)) ∧
    (l.inside p = .surface ∨ r.inside p = .surface) := by
  have hv : ∀ v : Placed, backNormalValid v p = (normalOf v p, (v.solid.normal (v.trans.transform p)).2) := fun _ => rfl
  have hn : ∀ v : Placed, backNormalNeg v p =
      (V3.smul (-1) (normalOf v p), (v.solid.normal (v.trans.transform p)).2) := fun v =>
    Prod.ext (backNormalNeg_fst v p) rfl
  unfold Consistent at hl hr
  have e1 : l.safetyToIn p = l.solid.safetyToIn (l.trans.transform p) := rfl
  have e2 : r.safetyToIn p = r.solid.safetyToIn (r.trans.transform p) := rfl
  have e3 : l.safetyToOut (l.trans.transform p) = l.solid.safetyToOut (l.trans.transform p) := rfl
  have e4 : r.safetyToOut (r.trans.transform p) = r.solid.safetyToOut (r.trans.transform p) := rfl
  cases op
  · simp only [boolSolid, unionInside, unionNormal, rightSign, smul_one, hv, e1, e2] at hs ⊢
    rcases hA : l.inside p with _ | _ | _ <;> rcases hB : r.inside p with _ | _ | _ <;>
      simp only [hA, hB, reduceCtorEq, false_implies, true_implies, and_true, true_and, or_true, true_or, or_false,
        and_false, if_true, if_false, not_true_eq_false] at hl hr hs hns ⊢
    · obtain ⟨hl1, hl2⟩ := hl
      rcases hc : l.contains p with _ | _
      · have := hl2 hc
        simp only [hr.1, Bool.false_eq_true, if_false]
        rw [if_pos (by linarith [hr.2])]
      · simp
    · rcases hc : r.contains p with _ | _
      · have := hr.2 hc
        simp only [hl.1, Bool.false_eq_true, if_false]
        rw [if_neg (by linarith [hl.2])]
      · simp [hl.1]
  · simp only [boolSolid, interInside, interNormal, rightSign, smul_one, hv, e1, e2, e3, e4] at hs ⊢
    rcases hA : l.inside p with _ | _ | _ <;> rcases hB : r.inside p with _ | _ | _ <;>
      simp only [hA, hB, reduceCtorEq, false_implies, true_implies, and_true, true_and, or_true, true_or, or_false,
        and_false, false_or, if_true, if_false, not_true_eq_false] at hl hr hs hns ⊢
    · rcases hc : r.contains p with _ | _
      · have := hr.2 hc
        simp only [hl.1, Bool.false_eq_true, if_false, if_true]
        rw [if_neg (by linarith [hl.2])]
      · have := hr.1 hc
        simp only [hl.1, if_true]
        rw [if_neg (by linarith [hl.2])]
    · rcases hc : l.contains p with _ | _
      · have := hl.2 hc
        simp only [hr.1, Bool.false_eq_true, if_false, if_true]
        rw [if_pos (by linarith [hr.2])]
      · have := hl.1 hc
        simp only [hr.1, if_true]
        rw [if_pos (by linarith [hr.2])]
  · simp only [boolSolid, subInside, subNormal, rightSign, hv, hn, e2, e3] at hs ⊢
    rcases hA : l.inside p with _ | _ | _ <;> rcases hB : r.inside p with _ | _ | _ <;>
      simp only [hA, hB, reduceCtorEq, false_implies, true_implies, and_true, true_and, or_true, true_or, or_false,
        and_false, false_or, if_true, if_false, not_true_eq_false] at hl hr hs hns ⊢
    · rcases hc : r.contains p with _ | _
      · have := hr.2 hc
        simp only [hl.1, Bool.false_eq_true, if_false, Bool.not_true]
        rw [if_neg (by linarith [hl.2])]
      · simp
    · rcases hc : l.contains p with _ | _
      · simp [hr.1]
      · have := hl.1 hc
        simp only [hr.1, Bool.false_eq_true, if_false, Bool.not_true]
        rw [if_pos (by linarith [hr.2])]

/-- Near `p` the region `Z` is `X`, along the normal. -/
theorem Outward.congr {X Y Z : Region} {p n : V3} (h : Outward X p n) (hY : Interior Y p)
    (hZ : ∀ q, Y q → (Z q ↔ X q)) : Outward Z p n := by
  obtain ⟨e, he, hX⟩ := h
  obtain ⟨e', he', hY'⟩ := hY.along n
  refine ⟨min e e', lt_min he he', fun t h0 h1 => ?_⟩
  have h2 := lt_min_iff.mp h1
  rw [hZ _ (hY' t (by rw [abs_of_pos h0]; exact h2.2)), hZ _ (hY' (-t) (by rw [abs_neg, abs_of_pos h0]; exact h2.2))]
  exact hX t h0 h2.1

/-- The normal of the complement. -/
theorem Outward.compl {X : Region} {p n : V3} (h : Outward X p n) : Outward (fun q => ¬ X q) p (V3.smul (-1) n) := by
  obtain ⟨e, he, hX⟩ := h
  refine ⟨e, he, fun t h0 h1 => ?_⟩
  have e1 : V3.at' p (V3.smul (-1) n) t = V3.at' p n (-t) := by ext <;> simp [V3.smul] <;> ring
  have e2 : V3.at' p (V3.smul (-1) n) (-t) = V3.at' p n t := by ext <;> simp [V3.smul] <;> ring
  rw [e1, e2]
  exact ⟨not_not.mpr (hX t h0 h1).2, (hX t h0 h1).1⟩

/-- C65, as far as it holds: at such a point the normal points out of the boolean solid, if the normals of the
constituents point out of them and their classification is right. -/
theorem C65_outward_partial (n : Nat) (op : Op) {l r : Placed} {X Y : Region} {p : V3} {c : ℝ} (hlo : l.trans.Orthonormal)
    (hro : r.trans.Orthonormal) (hl : Consistent c l p) (hr : Consistent c r p)
    (hX : ClassOK (l.inside p) X (l.trans.transform p)) (hY : ClassOK (r.inside p) Y (r.trans.transform p))
    (hs : (boolSolid n op l r).inside p = .surface) (hns : ¬ (l.inside p = .surface ∧ r.inside p = .surface))
    (hnl : l.inside p = .surface → Outward X (l.trans.transform p) (l.solid.normal (l.trans.transform p)).1)
    (hnr : r.inside p = .surface → Outward Y (r.trans.transform p) (r.solid.normal (r.trans.transform p)).1) :
    Outward (op.apply (Moved l.trans X) (Moved r.trans Y)) p ((boolSolid n op l r).normal p).1 := by
  obtain ⟨h1, h2, h3⟩ := C65_surface_partial n op hl hr hs hns
  unfold ClassOK at hX hY
  rw [← interior_moved hlo, ← exterior_moved hlo] at hX
  rw [← interior_moved hro, ← exterior_moved hro] at hY
  rcases h3 with hA | hB
  · rw [h1 hA]
    have ho := outward_moved hlo (hnl hA)
    change Outward _ p (normalOf l p)
    change Outward _ p (normalOf l p) at ho
    revert hX hY ho
    generalize Moved l.trans X = X'
    generalize Moved r.trans Y = Y'
    intro hX hY ho
    rw [hA] at hns hX
    rcases hB : r.inside p with _ | _ | _
    · rw [hB] at hY
      have hi := hY.1 rfl
      cases op
      · simp [boolSolid, unionInside, hA, hB] at hs
      · exact ho.congr hi fun q hq => and_iff_left hq
      · simp [boolSolid, subInside, hA, hB] at hs
    · exact absurd ⟨rfl, hB⟩ hns
    · rw [hB] at hY
      have hi := hY.2 rfl
      cases op
      · exact ho.congr hi fun q hq => or_iff_left hq
      · simp [boolSolid, interInside, hA, hB] at hs
      · exact ho.congr hi fun q hq => and_iff_left hq
  · rw [h2 hB]
    have ho := outward_moved hro (hnr hB)
    change Outward _ p (V3.smul (rightSign op) (normalOf r p))
    change Outward _ p (normalOf r p) at ho
    revert hX hY ho
    generalize Moved l.trans X = X'
    generalize Moved r.trans Y = Y'
    intro hX hY ho
    rw [hB] at hns hY
    rcases hA : l.inside p with _ | _ | _
    · rw [hA] at hX
      have hi := hX.1 rfl
      cases op
      · simp [boolSolid, unionInside, hA] at hs
      · simp only [rightSign, smul_one]
        exact ho.congr hi fun q hq => and_iff_right hq
      · exact ho.compl.congr hi fun q hq => and_iff_right hq
    · exact absurd ⟨hA, rfl⟩ hns
    · rw [hA] at hX
      have hi := hX.2 rfl
      cases op
      · simp only [rightSign, smul_one]
        exact ho.congr hi fun q hq => or_iff_right hq
      · simp [boolSolid, interInside, hA] at hs
      · simp [boolSolid, subInside, hA] at hs

theorem cube_normal_x : cube.normal ⟨1, 0, 0⟩ = (⟨1, 0, 0⟩, true) := by
  have := BoxSolid.C43_normal_face (h := ⟨1, 1, 1⟩) (p := ⟨1, 0, 0⟩) (by norm_num)
    (by have := BoxSolid.kHalfTolerance_le; norm_num; linarith) (by have := BoxSolid.kHalfTolerance_le; norm_num; linarith)
  rw [show sign 1 = 1 by norm_num [sign]] at this
  exact this

theorem cube_outward : Outward (BoxSolid.Open ⟨1, 1, 1⟩) ⟨1, 0, 0⟩ ⟨1, 0, 0⟩ := by
  refine ⟨1, one_pos, fun t h0 h1 => ⟨?_, ?_⟩⟩
  · rintro ⟨h, _⟩
    simp only [V3.at_x] at h
    rw [abs_lt] at h
    linarith [h.2]
  · refine ⟨?_, ?_, ?_⟩ <;> simp [abs_lt]
    constructor <;> linarith

-- A cube from which a far cube is subtracted, at the middle of a face.
example : Consistent kHalfTolerance ⟨Trans3.identity, cube⟩ ⟨1, 0, 0⟩ ∧ Consistent kHalfTolerance (cubeAt 100 0 0) ⟨1, 0, 0⟩ ∧
    (boolSolid 5 .subtraction ⟨Trans3.identity, cube⟩ (cubeAt 100 0 0)).inside ⟨1, 0, 0⟩ = .surface ∧
    (⟨Trans3.identity, cube⟩ : Placed).inside ⟨1, 0, 0⟩ = .surface ∧ (cubeAt 100 0 0).inside ⟨1, 0, 0⟩ = .outside ∧
    Outward (BoxSolid.Open ⟨1, 1, 1⟩) (Trans3.identity.transform ⟨1, 0, 0⟩)
      (cube.normal (Trans3.identity.transform ⟨1, 0, 0⟩)).1 := by
  have h1 : (⟨Trans3.identity, cube⟩ : Placed).inside ⟨1, 0, 0⟩ = .surface := by
    simp only [Placed.inside, identity_unmoved _]
    exact (cube_inside_of _ rfl).1 (by norm_num [V3.maxc])
  have h2 : (cubeAt 100 0 0).inside ⟨1, 0, 0⟩ = .outside := by
    simp only [Placed.inside, cubeAt, ofTranslation_transform]
    exact (cube_inside_of _ rfl).2.2 (by norm_num [V3.maxc])
  refine ⟨box_consistent _ _ _, box_consistent _ _ _, ?_, h1, h2, ?_⟩
  · simp [boolSolid, subInside, h1, h2]
  · rw [identity_unmoved, cube_normal_x]
    exact cube_outward

/-- Finding: the normal can be that of a constituent that is nowhere near.  The right constituent is the intersection of
two boxes far from each other, so it is empty; the union is a cube.  At the middle of a face of the cube, which also lies
on the surface of one of the two boxes, both safeties are zero and the normal of the empty constituent is reported, as
valid, at a right angle to the face. -/
theorem C65_counterexample (n : Nat) :
    ∃ l r : Placed, l.trans.Orthonormal ∧ r.trans.Orthonormal ∧ (∀ q, r.contains q = false) ∧
      ∃ p, l.inside p = .surface ∧ normalOf l p = ⟨1, 0, 0⟩ ∧ r.inside p = .outside ∧
        (boolSolid n .union l r).inside p = .surface ∧ (boolSolid n .union l r).normal p = (⟨0, 1, 0⟩, true) := by
  have hc : ∀ p : V3, cube.contains p = true ↔ BoxSolid.Open ⟨1, 1, 1⟩ p := BoxSolid.C43_contains _
  have ht := kHalfTolerance_pos
  have htl := BoxSolid.kHalfTolerance_le
  set r : Placed := ⟨Trans3.identity, boolSolid n .intersection (cubeAt 1 (-1) 0) (cubeAt 100 0 0)⟩ with hr
  have hempty : ∀ q, r.contains q = false := by
    intro q
    rw [← Bool.not_eq_true]
    simp only [hr, Placed.contains, identity_unmoved _, boolSolid_contains, Op.apply, cubeAt, hc, ofTranslation_transform,
      BoxSolid.Open]
    rintro ⟨⟨h1, _⟩, ⟨h2, _⟩⟩
    rw [abs_lt] at h1 h2
    linarith [h1.2, h2.1]
  have h1 : (⟨Trans3.identity, cube⟩ : Placed).inside ⟨1, 0, 0⟩ = .surface := by
    simp only [Placed.inside, identity_unmoved _]
    exact (cube_inside_of _ rfl).1 (by norm_num [V3.maxc])
  have hA : (cubeAt 1 (-1) 0).inside ⟨1, 0, 0⟩ = .surface := by
    simp only [Placed.inside, cubeAt, ofTranslation_transform]
    exact (cube_inside_of _ rfl).1 (by norm_num [V3.maxc])
  have hB : (cubeAt 100 0 0).inside ⟨1, 0, 0⟩ = .outside := by
    simp only [Placed.inside, cubeAt, ofTranslation_transform]
    exact (cube_inside_of _ rfl).2.2 (by norm_num [V3.maxc])
  have h2 : r.inside ⟨1, 0, 0⟩ = .outside := by
    simp [hr, Placed.inside, identity_unmoved _, boolSolid, interInside]
    simp only [Placed.inside] at hA hB
    simp [hA, hB]
  have c1 : (⟨Trans3.identity, cube⟩ : Placed).contains ⟨1, 0, 0⟩ = false := by
    rw [← Bool.not_eq_true]
    simp only [Placed.contains, identity_unmoved _, hc]
    norm_num [BoxSolid.Open]
  have cA : (cubeAt 1 (-1) 0).contains ⟨1, 0, 0⟩ = false := by
    rw [← Bool.not_eq_true]
    simp only [Placed.contains, cubeAt, ofTranslation_transform, hc]
    norm_num [BoxSolid.Open]
  have cB : (cubeAt 100 0 0).contains ⟨1, 0, 0⟩ = false := by
    rw [← Bool.not_eq_true]
    simp only [Placed.contains, cubeAt, ofTranslation_transform, hc]
    norm_num [BoxSolid.Open]
  have s1 : (⟨Trans3.identity, cube⟩ : Placed).safetyToIn ⟨1, 0, 0⟩ = 0 := by
    simp only [Placed.safetyToIn, identity_unmoved _]
    change BoxSolid.safetyToIn _ _ = _
    norm_num [BoxSolid.safetyToIn, V3.maxc]
  have sA : (cubeAt 1 (-1) 0).safetyToIn ⟨1, 0, 0⟩ = 0 := by
    simp only [Placed.safetyToIn, cubeAt, ofTranslation_transform]
    change BoxSolid.safetyToIn _ _ = _
    norm_num [BoxSolid.safetyToIn, V3.maxc]
  have sB : (cubeAt 100 0 0).safetyToIn ⟨1, 0, 0⟩ = 98 := by
    simp only [Placed.safetyToIn, cubeAt, ofTranslation_transform]
    change BoxSolid.safetyToIn _ _ = _
    norm_num [BoxSolid.safetyToIn, V3.maxc]
  have s2 : r.safetyToIn ⟨1, 0, 0⟩ = 0 := by
    simp only [hr, Placed.safetyToIn, identity_unmoved _, boolSolid, interSafetyToIn, cA, cB]
    change min ((cubeAt 1 (-1) 0).safetyToIn ⟨1, 0, 0⟩) ((cubeAt 100 0 0).safetyToIn ⟨1, 0, 0⟩) = 0
    rw [sA, sB]; norm_num
  have iden : ∀ d, Trans3.identity.inverseTransformDirection d = d := by
    intro d
    ext <;> simp [Trans3.inverseTransformDirection, Trans3.identity]
  have hny : cube.normal ⟨0, 1, 0⟩ = (⟨0, 1, 0⟩, true) := by
    change BoxSolid.normalKernel _ _ = _
    have hk : ¬ (1 : ℝ) < kHalfTolerance := by linarith
    norm_num [BoxSolid.normalKernel, V3.minc, V3.mag2, V3.dot, hk, ht, sign]
  have nA : backNormalValid (cubeAt 1 (-1) 0) ⟨1, 0, 0⟩ = (⟨0, 1, 0⟩, true) := by
    have e : (Trans3.ofTranslation 1 (-1) 0).transform ⟨1, 0, 0⟩ = ⟨0, 1, 0⟩ := by
      rw [ofTranslation_transform]; ext <;> norm_num
    simp only [backNormalValid, backNormal, Placed.normal, cubeAt, e, hny]
    refine Prod.ext ?_ rfl
    ext <;> simp [Trans3.inverseTransformDirection, Trans3.ofTranslation]
  refine ⟨⟨Trans3.identity, cube⟩, r, identity_orthonormal, identity_orthonormal, hempty, ⟨1, 0, 0⟩, h1, ?_, h2, ?_, ?_⟩
  · simp only [normalOf, identity_unmoved _, iden, cube_normal_x]
  · simp [boolSolid, unionInside, h1, h2]
  · simp only [boolSolid, unionNormal, c1, hempty, s1, s2]
    have : r.normal ⟨1, 0, 0⟩ = (⟨0, 1, 0⟩, true) := by
      simp only [hr, Placed.normal, boolSolid, interNormal, cA, cB, sA, sB, nA]
      norm_num
    simp only [Bool.false_eq_true, if_false, lt_self_iff_false, backNormalValid, backNormal]
    have e : r.trans = Trans3.identity := rfl
    rw [e, identity_unmoved, this, iden]

end Boolean
end VecGeom
