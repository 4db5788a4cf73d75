import Verif.AABB.Kernels

/-!
# Properties of aligned bounding boxes (C28 - C31)
-/

namespace VecGeom
namespace AABB

open Box

/-- Sample extent used in the non-vacuity examples. -/
noncomputable def sampleExt : Box := ⟨⟨-1, -2, -3⟩, ⟨2, 3, 4⟩⟩

theorem le_kInfLength {x : ℝ} (h : x ≤ 1000000) : x ≤ kInfLength := by
  refine h.trans ?_
  unfold kInfLength
  have : (1000000 : ℝ) ≤ 1 * 2 ^ 1023 := by
    have h1 : (1000000 : ℝ) ≤ 2 ^ 20 := by norm_num
    have h2 : (2 : ℝ) ^ 20 ≤ 2 ^ 1023 := pow_le_pow_right₀ (by norm_num) (by norm_num)
    rw [one_mul]
    exact h1.trans h2
  refine this.trans ?_
  apply mul_le_mul_of_nonneg_right _ (by positivity)
  norm_num

/-! ## C28: the box of a placed volume -/

/-- C28: the aligned box computed for a placed volume contains the image of every point of the extent, `1e-3` inside
all faces. -/
theorem C28_box_contains_image (T : Trans3) {ext : Box} {q : V3} (hq : InBox ext q) :
    InBoxMargin (computeABBox T ext) (1 / 1000) (T.inverseTransform q) := by
  have h := inverseTransform_inBox (T := T) hq
    (r := (cornerIdx.map (transformedCorner T ext)).foldl accum
      ⟨⟨kInfLength, kInfLength, kInfLength⟩, ⟨-kInfLength, -kInfLength, -kInfLength⟩⟩)
    (fun c hc => foldl_accum_mem _ _ (by rw [cornerIdx_map]; exact List.mem_map_of_mem hc))
  obtain ⟨⟨h1, h2⟩, ⟨h3, h4⟩, ⟨h5, h6⟩⟩ := h
  refine ⟨⟨?_, ?_⟩, ⟨?_, ?_⟩, ⟨?_, ?_⟩⟩ <;> dsimp only [computeABBox] <;> linarith

/-- C28: a point of the mother frame whose local coordinates lie in the extent lies in the box. -/
theorem C28_box_contains_point {T : Trans3} (hT : T.Orthonormal) {ext : Box} {p : V3} (hp : InBox ext (T.transform p)) :
    InBoxMargin (computeABBox T ext) (1 / 1000) p := by
  have := C28_box_contains_image T hp
  rwa [Trans3.C23_point_roundtrip_master hT] at this

example : Trans3.sample.Orthonormal ∧ InBox sampleExt (Trans3.sample.transform ⟨1, 2, 4⟩) := by
  refine ⟨Trans3.sample_orthonormal, ?_⟩
  rw [Trans3.transform_eq]
  norm_num [InBox, sampleExt, Trans3.sample, Trans3.rotGeneric, Trans3.doTranslation]

/-- C28: up to the margin the box is the smallest one: its faces, moved in by the margin, are not outside any box that
contains the image of the extent. -/
theorem C28_box_tight {T : Trans3} {ext r : Box} (hv : Valid ext)
    (hfin : ∀ q, InBox ext q → |(T.inverseTransform q).x| ≤ kInfLength ∧ |(T.inverseTransform q).y| ≤ kInfLength ∧
      |(T.inverseTransform q).z| ≤ kInfLength)
    (hr : ∀ q, InBox ext q → InBox r (T.inverseTransform q)) :
    (r.lo.x ≤ (computeABBox T ext).lo.x + 1 / 1000 ∧ r.lo.y ≤ (computeABBox T ext).lo.y + 1 / 1000 ∧
      r.lo.z ≤ (computeABBox T ext).lo.z + 1 / 1000) ∧
    ((computeABBox T ext).hi.x - 1 / 1000 ≤ r.hi.x ∧ (computeABBox T ext).hi.y - 1 / 1000 ≤ r.hi.y ∧
      (computeABBox T ext).hi.z - 1 / 1000 ≤ r.hi.z) := by
  have hcorner : ∀ c ∈ corners ext, InBox ext c := by
    obtain ⟨h1, h2, h3⟩ := hv
    simp [corners, InBox, h1, h2, h3]
  have hin : ∀ c ∈ cornerIdx.map (transformedCorner T ext), InBox r c ∧ (-kInfLength ≤ c.x ∧ c.x ≤ kInfLength) ∧
      (-kInfLength ≤ c.y ∧ c.y ≤ kInfLength) ∧ (-kInfLength ≤ c.z ∧ c.z ≤ kInfLength) := by
    intro c hc
    rw [cornerIdx_map, List.mem_map] at hc
    obtain ⟨q, hq, rfl⟩ := hc
    have hf := hfin q (hcorner q hq)
    exact ⟨hr q (hcorner q hq), abs_le.mp hf.1, abs_le.mp hf.2.1, abs_le.mp hf.2.2⟩
  have hmem : transformedCorner T ext (0, 0, 0) ∈ cornerIdx.map (transformedCorner T ext) :=
    List.mem_map_of_mem (by simp [cornerIdx])
  obtain ⟨i0, ix, iy, iz⟩ := hin _ hmem
  obtain ⟨t1, t2, t3, t4, t5, t6⟩ := foldl_accum_tight (cornerIdx.map (transformedCorner T ext))
    ⟨⟨kInfLength, kInfLength, kInfLength⟩, ⟨-kInfLength, -kInfLength, -kInfLength⟩⟩
  dsimp only [computeABBox]
  refine ⟨⟨?_, ?_, ?_⟩, ?_, ?_, ?_⟩
  · rcases t1 with t | ⟨c, hc, t⟩
    · rw [t]; have := i0.1.1; linarith [ix.2]
    · rw [t]; have := (hin c hc).1.1.1; linarith
  · rcases t2 with t | ⟨c, hc, t⟩
    · rw [t]; have := i0.2.1.1; linarith [iy.2]
    · rw [t]; have := (hin c hc).1.2.1.1; linarith
  · rcases t3 with t | ⟨c, hc, t⟩
    · rw [t]; have := i0.2.2.1; linarith [iz.2]
    · rw [t]; have := (hin c hc).1.2.2.1; linarith
  · rcases t4 with t | ⟨c, hc, t⟩
    · rw [t]; have := i0.1.2; linarith [ix.1]
    · rw [t]; have := (hin c hc).1.1.2; linarith
  · rcases t5 with t | ⟨c, hc, t⟩
    · rw [t]; have := i0.2.1.2; linarith [iy.1]
    · rw [t]; have := (hin c hc).1.2.1.2; linarith
  · rcases t6 with t | ⟨c, hc, t⟩
    · rw [t]; have := i0.2.2.2; linarith [iz.1]
    · rw [t]; have := (hin c hc).1.2.2.2; linarith

example : Valid sampleExt ∧ (∀ q, InBox sampleExt q → InBox ⟨⟨-2, -3, -4⟩, ⟨2, 3, 4⟩⟩ (Trans3.identity.inverseTransform q)) ∧
    ∀ q, InBox sampleExt q → |(Trans3.identity.inverseTransform q).x| ≤ kInfLength := by
  refine ⟨by norm_num [Valid, sampleExt], ?_, ?_⟩
  · rintro q ⟨⟨h1, h2⟩, ⟨h3, h4⟩, ⟨h5, h6⟩⟩
    simp only [sampleExt] at h1 h2 h3 h4 h5 h6
    refine ⟨⟨?_, ?_⟩, ⟨?_, ?_⟩, ⟨?_, ?_⟩⟩ <;> simp [Trans3.inverseTransform, Trans3.identity] <;> linarith
  · rintro q ⟨⟨h1, h2⟩, -⟩
    simp only [sampleExt] at h1 h2
    apply le_kInfLength
    simp [Trans3.inverseTransform, Trans3.identity]
    rw [abs_le]; constructor <;> linarith

/-- C28: the extent of a placed volume contains the image of every point of the extent of its shape, if the flags of
the placement are right. -/
theorem C28_placed_extent {T : Trans3} (hT : T.FlagsOk) {ext : Box} {q : V3} (hq : InBox ext q) :
    InBox (placedExtent T ext) (T.inverseTransform q) := by
  unfold placedExtent
  split
  · apply inverseTransform_inBox hq
    intro c hc
    have hfold : ∀ (b0 : V3) (l : List V3) (c : V3), c ∈ b0 :: l → InBox (l.foldl accum ⟨b0, b0⟩) c := by
      intro b0 l c hc
      rcases List.mem_cons.mp hc with rfl | h
      · obtain ⟨h1, h2, h3, h4, h5, h6⟩ := foldl_accum_mono l ⟨c, c⟩
        exact ⟨⟨h1, h4⟩, ⟨h2, h5⟩, ⟨h3, h6⟩⟩
      · exact foldl_accum_mem _ _ h
    apply hfold
    simp only [corners, List.mem_cons, List.not_mem_nil, or_false] at hc
    rcases hc with rfl | rfl | rfl | rfl | rfl | rfl | rfl | rfl <;> simp
  · rename_i hr
    obtain ⟨e0, e1, e2, e3, e4, e5, e6, e7, e8⟩ := hT.rot (by simpa using hr)
    obtain ⟨⟨h1, h2⟩, ⟨h3, h4⟩, ⟨h5, h6⟩⟩ := hq
    refine ⟨⟨?_, ?_⟩, ⟨?_, ?_⟩, ⟨?_, ?_⟩⟩ <;> simp only [Trans3.inverseTransform, e0, e1, e2, e3, e4, e5, e6, e7, e8] <;>
      linarith

example : Trans3.sample.FlagsOk ∧ InBox sampleExt ⟨0, 1, 2⟩ :=
  ⟨Trans3.sample_flagsOk, by norm_num [InBox, sampleExt]⟩

/-- C28: with a wrong rotation flag the extent of a placed volume misses points: the branch without rotation maps only two
corners. -/
theorem C28_placed_extent_flag_counterexample :
    ∃ (T : Trans3) (q : V3), T.Orthonormal ∧ T.fHasRotation = false ∧ InBox sampleExt q ∧
      ¬ InBox (placedExtent T sampleExt) (T.inverseTransform q) := by
  refine ⟨{ Trans3.sample with fHasRotation := false }, ⟨0, 0, 0⟩, ?_, rfl, by norm_num [InBox, sampleExt], ?_⟩
  · constructor <;> norm_num [Trans3.sample]
  · norm_num [placedExtent, InBox, Trans3.inverseTransform, Trans3.sample, sampleExt]

/-! ## C29: slices -/

/-- C29 (part): if the extent of the shape is centred at its origin, the slices together contain the image of every
point of the extent, again with the margin.  The full claim (any extent) is false, see
`C29_off_centre_counterexample`. -/
theorem C29_slices_cover_partial (T : Trans3) {ext : Box} {q : V3} {n : Nat} (hn : 0 < n)
    (hc : ext.lo.x = -ext.hi.x ∧ ext.lo.y = -ext.hi.y ∧ ext.lo.z = -ext.hi.z) (hq : InBox ext q) :
    ∃ s ∈ computeSplittedABBox T ext n, InBoxMargin s (1 / 1000) (T.inverseTransform q) := by
  obtain ⟨hx, hy, hz⟩ := hc
  obtain ⟨⟨h1, h2⟩, ⟨h3, h4⟩, ⟨h5, h6⟩⟩ := hq
  -- reduction: a slice contains the point if it does so in its own frame
  have reduce : ∀ (dim : Nat) (split : V3) (step val : ℝ) (i : Nat), i < n →
      InBox (boxExtent ⟨split.x / 2, split.y / 2, split.z / 2⟩) (q - onAxis dim (val + i * step)) →
      ∃ s ∈ sliceLoop T dim split step n val, InBoxMargin s (1 / 1000) (T.inverseTransform q) := by
    intro dim split step val i hi hin
    refine ⟨_, sliceLoop_get T dim split step n val i hi, ?_⟩
    have := C28_box_contains_image (sliceTrans T dim (val + i * step)) hin
    rw [sliceTrans_apply] at this
    have e : q - onAxis dim (val + i * step) + onAxis dim (val + i * step) = q := by
      ext <;> simp
    rwa [e] at this
  have hdim : splitDim (ext.hi - ext.lo) = 0 ∨ splitDim (ext.hi - ext.lo) = 1 ∨ splitDim (ext.hi - ext.lo) = 2 := by
    unfold splitDim
    dsimp only
    split
    · simp
    · split <;> simp
  unfold computeSplittedABBox
  rcases hdim with h | h | h
  · obtain ⟨i, hi, b1, b2⟩ := slice_exists (len := ext.hi.x - ext.lo.x) (x := q.x) hn (by linarith) (by linarith)
    simp only [h, if_true, V3.sub_x, V3.sub_y, V3.sub_z]
    apply reduce _ _ _ _ i hi
    simp only [boxExtent, InBox, onAxis, if_true, V3.sub_x, V3.sub_y, V3.sub_z]
    refine ⟨⟨b1, b2⟩, ⟨?_, ?_⟩, ⟨?_, ?_⟩⟩ <;> linarith
  · obtain ⟨i, hi, b1, b2⟩ := slice_exists (len := ext.hi.y - ext.lo.y) (x := q.y) hn (by linarith) (by linarith)
    simp only [h, if_true, one_ne_zero, if_false, V3.sub_x, V3.sub_y, V3.sub_z]
    apply reduce _ _ _ _ i hi
    simp only [boxExtent, InBox, onAxis, if_true, one_ne_zero, if_false, V3.sub_x, V3.sub_y, V3.sub_z]
    refine ⟨⟨?_, ?_⟩, ⟨b1, b2⟩, ⟨?_, ?_⟩⟩ <;> linarith
  · obtain ⟨i, hi, b1, b2⟩ := slice_exists (len := ext.hi.z - ext.lo.z) (x := q.z) hn (by linarith) (by linarith)
    have h20 : ¬ (2 : Nat) = 0 := by decide
    have h21 : ¬ (2 : Nat) = 1 := by decide
    simp only [h, h20, h21, if_false, V3.sub_x, V3.sub_y, V3.sub_z]
    apply reduce _ _ _ _ i hi
    simp only [boxExtent, InBox, onAxis, h20, h21, if_false, V3.sub_x, V3.sub_y, V3.sub_z]
    refine ⟨⟨?_, ?_⟩, ⟨?_, ?_⟩, ⟨b1, b2⟩⟩ <;> linarith

example : InBox ⟨⟨-1, -5, -2⟩, ⟨1, 5, 2⟩⟩ ⟨1, 4, 0⟩ := by norm_num [InBox]

/-- C29: there are as many boxes as slices were asked for. -/
theorem C29_slice_count (T : Trans3) (ext : Box) (n : Nat) : (computeSplittedABBox T ext n).length = n := by
  unfold computeSplittedABBox
  exact sliceLoop_length ..

/-- C29: the slices of a shape whose extent is not centred at its origin miss points: the code slices the box of the same
size centred at the origin.  Witness: extent `[0,10]×[0,1]×[0,1]`, identity placement, one slice. -/
theorem C29_off_centre_counterexample :
    ∃ (ext : Box) (q : V3), Valid ext ∧ InBox ext q ∧
      ∀ s ∈ computeSplittedABBox Trans3.identity ext 1, ¬ InBox s (Trans3.identity.inverseTransform q) := by
  refine ⟨⟨⟨0, 0, 0⟩, ⟨10, 1, 1⟩⟩, ⟨10, 1, 1⟩, by norm_num [Valid], by norm_num [InBox], ?_⟩
  intro s hs hin
  have hd : splitDim (⟨10, 1, 1⟩ - ⟨0, 0, 0⟩ : V3) = 0 := by norm_num [splitDim]
  simp only [computeSplittedABBox, hd, if_true, sliceLoop, List.mem_cons, List.not_mem_nil, or_false] at hs
  have hx := hin.1.2
  rw [hs] at hx
  obtain ⟨-, -, -, t4, -, -⟩ := foldl_accum_tight
    (cornerIdx.map (transformedCorner (sliceTrans Trans3.identity 0
      (-(⟨10, 1, 1⟩ - ⟨0, 0, 0⟩ : V3).x / 2 + (⟨10, 1, 1⟩ - ⟨0, 0, 0⟩ : V3).x / ((1 : Nat) : ℝ) / 2))
      (boxExtent ⟨(⟨10, 1, 1⟩ - ⟨0, 0, 0⟩ : V3).x / ((1 : Nat) : ℝ) / 2, (⟨10, 1, 1⟩ - ⟨0, 0, 0⟩ : V3).y / 2,
        (⟨10, 1, 1⟩ - ⟨0, 0, 0⟩ : V3).z / 2⟩)))
    ⟨⟨kInfLength, kInfLength, kInfLength⟩, ⟨-kInfLength, -kInfLength, -kInfLength⟩⟩
  dsimp only [computeABBox] at hx
  rcases t4 with t | ⟨c, hc, t⟩
  · rw [t] at hx
    have := kInfLength_pos
    norm_num [Trans3.inverseTransform, Trans3.identity] at hx
    linarith
  · rw [t] at hx
    rw [cornerIdx_map, List.mem_map] at hc
    obtain ⟨q, hq, rfl⟩ := hc
    rw [sliceTrans_apply] at hx
    simp only [corners, List.mem_cons, List.not_mem_nil, or_false] at hq
    rcases hq with rfl | rfl | rfl | rfl | rfl | rfl | rfl | rfl <;>
      norm_num [Trans3.inverseTransform, Trans3.identity, onAxis, boxExtent] at hx

/-! ## C30: rays -/

/-- C30: the parameter interval computed by the box test is exact for the direction used by the test (each component
moved away from zero by `1e-30`), up to the stretching factor of the upper end. -/
theorem C30_interval {b : Box} (hv : Valid b) (p d : V3) (t : ℝ) :
    InBox b (V3.at' p d.nonZero t) ↔
      (b.computeIntersection p d).1 ≤ t ∧ t * (1 + 2 * kEpsilon) ≤ (b.computeIntersection p d).2 := by
  rw [inBox_at_iff hv (nonZero_full d)]
  unfold computeIntersection
  rw [computeIntersectionInvDir_snd, mul_le_mul_iff_left₀ stretch_pos]
  rfl

example : Valid sampleExt := by norm_num [Valid, sampleExt]

/-- C30: if the ray used by the test reaches the box, at a path length below the step, the test accepts. -/
theorem C30_never_misses {b : Box} {p d : V3} {t : ℝ} (ht : 0 ≤ t) (hin : InBox b (V3.at' p d.nonZero t)) :
    b.intersect p d = true ∧ b.intersectInvDir p d.nonZero.inv = true ∧
    ∀ step, t < step → b.intersectStep p d step = true ∧ b.intersectInvDirStep p d.nonZero.inv step = true := by
  obtain ⟨h1, h2⟩ := (C30_interval hin.valid p d t).mp hin
  have e : b.computeIntersectionInvDir p d.nonZero.inv = b.computeIntersection p d := rfl
  have hs := stretch_pos
  have ht' : t ≤ t * (1 + 2 * kEpsilon) := by have := kEpsilon_pos; nlinarith
  have a1 : (b.computeIntersection p d).1 ≤ (b.computeIntersection p d).2 := by linarith
  have a2 : (b.computeIntersection p d).2 ≥ 0 := by linarith
  refine ⟨?_, ?_, ?_⟩
  · simp only [intersect, decide_eq_true_eq]; exact ⟨a1, a2⟩
  · simp only [intersectInvDir, e, decide_eq_true_eq]; exact ⟨a1, a2⟩
  · intro step hst
    constructor
    · simp only [intersectStep, decide_eq_true_eq]; exact ⟨a1, a2, by linarith⟩
    · simp only [intersectInvDirStep, e, decide_eq_true_eq]; exact ⟨a1, a2, by linarith⟩

theorem kTiny_le : kTiny ≤ 1 / 1000 := by unfold kTiny; norm_num

example : InBox sampleExt (V3.at' ⟨-5, 0, 0⟩ (V3.nonZero ⟨1, 0, 0⟩) 5) := by
  have := kTiny_pos
  have := kTiny_le
  simp only [InBox, sampleExt, V3.at_x, V3.at_y, V3.at_z, V3.nonZero_x, V3.nonZero_y, V3.nonZero_z, nonZero, copySign]
  rw [if_neg (by norm_num), if_neg (by norm_num)]
  refine ⟨⟨?_, ?_⟩, ⟨?_, ?_⟩, ⟨?_, ?_⟩⟩ <;> linarith

/-- C30: a point of the true ray that lies in the box with a margin `m` lies, for path lengths up to `m · 1e30`, on the ray
used by the test as well; so the test accepts rays, also with zero components, that reach the box reduced by the
margin. -/
theorem C30_never_misses_true_ray {b : Box} {p d : V3} {t m : ℝ} (ht : 0 ≤ t) (hm : t * kTiny ≤ m)
    (hin : InBoxMargin b m (V3.at' p d t)) :
    InBox b (V3.at' p d.nonZero t) ∧ b.intersect p d = true ∧ ∀ step, t < step → b.intersectStep p d step = true := by
  have key : InBox b (V3.at' p d.nonZero t) := by
    have ax : ∀ lo hi p d : ℝ, lo + m ≤ p + t * d → p + t * d ≤ hi - m →
        lo ≤ p + t * VecGeom.nonZero d ∧ p + t * VecGeom.nonZero d ≤ hi := by
      intro lo hi p d h1 h2
      have h := abs_nonZero_sub d
      have h3 := le_abs_self (VecGeom.nonZero d - d)
      have h4 := neg_abs_le (VecGeom.nonZero d - d)
      rw [h] at h3 h4
      have h5 := mul_le_mul_of_nonneg_left h3 ht
      have h6 := mul_le_mul_of_nonneg_left h4 ht
      constructor <;> linarith
    exact ⟨ax _ _ _ _ hin.1.1 hin.1.2, ax _ _ _ _ hin.2.1.1 hin.2.1.2, ax _ _ _ _ hin.2.2.1 hin.2.2.2⟩
  obtain ⟨h1, -, h3⟩ := C30_never_misses ht key
  exact ⟨key, h1, fun step hs => (h3 step hs).1⟩

example : InBoxMargin sampleExt (1 / 1000) (V3.at' ⟨-5, 0, 0⟩ ⟨1, 0, 0⟩ 5) ∧ 5 * kTiny ≤ 1 / 1000 := by
  refine ⟨by norm_num [InBoxMargin, sampleExt], by norm_num [kTiny]⟩

/-- C30: the distance to a box that is reached later is the path length of the entry point: it is in the box and no earlier
point of the line is. -/
theorem C30_distance {b : Box} {p d : V3} {t : ℝ} (ht : 0 < t) (hin : InBox b (V3.at' p d.nonZero t)) :
    b.distance p d = b.distanceInvDir p d.nonZero.inv ∧ InBox b (V3.at' p d.nonZero (b.distance p d)) ∧
    ∀ s, InBox b (V3.at' p d.nonZero s) → b.distance p d ≤ s := by
  obtain ⟨h1, h2⟩ := (C30_interval hin.valid p d t).mp hin
  have hs := stretch_pos
  have heps := kEpsilon_pos
  have ht' : t < t * (1 + 2 * kEpsilon) := by nlinarith
  have e : b.distance p d = (b.computeIntersection p d).1 := by
    unfold distance
    dsimp only
    rw [if_pos ⟨by linarith, by linarith⟩]
  refine ⟨rfl, ?_, ?_⟩
  · rw [e, inBox_at_iff hin.valid (nonZero_full d)]
    refine ⟨le_refl _, le_trans h1 ?_⟩
    exact ((inBox_at_iff hin.valid (nonZero_full d)).mp hin).2
  · intro s hs
    rw [e]
    exact ((C30_interval hin.valid p d s).mp hs).1

/-- C30: if the test accepts, the ray used by the test meets the box, grown by `2ε` times the path length. -/
theorem C30_accept_sound {b : Box} (hv : Valid b) {p d : V3} {step : ℝ} (hstep : 0 < step)
    (h : b.intersectStep p d step = true) :
    ∃ s, 0 ≤ s ∧ s < step ∧
      InBoxGrown b ⟨2 * kEpsilon * s * |d.nonZero.x|, 2 * kEpsilon * s * |d.nonZero.y|, 2 * kEpsilon * s * |d.nonZero.z|⟩
        (V3.at' p d.nonZero s) := by
  simp only [intersectStep, decide_eq_true_eq] at h
  obtain ⟨h1, h2, h3⟩ := h
  unfold computeIntersection at h1 h2 h3
  exact accept_sound hv (nonZero_full d) hstep h1 h2 h3

example : sampleExt.intersectStep ⟨-5, 0, 0⟩ ⟨1, 0, 0⟩ 10 = true :=
  (C30_never_misses_true_ray (m := 1 / 1000) (t := 5) (by norm_num) (by norm_num [kTiny])
    (by norm_num [InBoxMargin, sampleExt])).2.2 10 (by norm_num)

/-- C30: the cached kernel used by the navigators.  If the ray is in the box at some path length in the requested range
(widened by the tolerance), the kernel returns the entry point of the line, which is then not later. -/
theorem C30_cached_kernel2 {b : Box} {p d : V3} (hd : Full d) {t t0 t1 : ℝ} (h0 : t0 - kTolerance < t)
    (h1 : t ≤ t1 + kTolerance) (hin : InBox b (V3.at' p d t)) :
    InBox b (V3.at' p d (kernel2 b p d t0 t1)) ∧ ∀ s, InBox b (V3.at' p d s) → kernel2 b p d t0 t1 ≤ s := by
  have hit := kernel2_hit hd h0 h1 hin
  exact ⟨hit.2, hit.1⟩

/-- C30: conversely, a finite result of the cached kernel is the entry point of a line that is in the box at some path
length of the widened range. -/
theorem C30_cached_kernel2_sound {b : Box} (hv : Valid b) {p d : V3} (hd : Full d) {t0 t1 : ℝ} (h01 : t0 ≤ t1)
    (hr : kernel2 b p d t0 t1 < kInfLength) :
    InBox b (V3.at' p d (kernel2 b p d t0 t1)) ∧
    ∃ t, t0 - kTolerance < t ∧ t ≤ t1 + kTolerance ∧ kernel2 b p d t0 t1 ≤ t ∧ InBox b (V3.at' p d t) :=
  kernel2_sound hv hd h01 hr

/-- C30: the two older kernels, with strict comparisons, for path lengths strictly inside the range. -/
theorem C30_cached_kernels {b : Box} {p d : V3} (hd : Full d) {t t0 t1 : ℝ} (h0 : t0 < t) (h1 : t < t1)
    (hin : InBox b (V3.at' p d t)) :
    kernel0 b p d t0 t1 = kernel1 b p d t0 t1 ∧
    InBox b (V3.at' p d (kernel1 b p d t0 t1)) ∧ ∀ s, InBox b (V3.at' p d s) → kernel1 b p d t0 t1 ≤ s :=
  kernels_hit hd h0 h1 hin

example : Full ⟨1, 2, 3⟩ ∧ InBox sampleExt (V3.at' ⟨-1, -2, -3⟩ ⟨1, 2, 3⟩ (1 / 2)) ∧ (0 : ℝ) < 1 / 2 ∧ (1 / 2 : ℝ) < 1 := by
  refine ⟨by norm_num [Full], by norm_num [InBox, sampleExt], by norm_num, by norm_num⟩

/-- C30: the pre-check of the distance to a solid never exceeds the path length of any point of the ray in the box. -/
theorem C30_approach_solid {b : Box} {p d : V3} (hd : Full d) {t : ℝ} (h0 : 0 ≤ t) (h1 : t ≤ kInfLength)
    (hin : InBox b (V3.at' p d t)) : 0 ≤ b.approachSolid p d.inv ∧ b.approachSolid p d.inv ≤ t := by
  have ht := kTolerance_pos
  have := (kernel2_hit hd (t0 := 0) (t1 := kInfLength) (t := t) (by linarith) (by linarith) hin).1 t hin
  exact ⟨le_max_right _ _, max_le this h0⟩

/-- C30: the line test used for assemblies accepts exactly the lines that meet the box (in front of or behind the
point). -/
theorem C30_line_test {b : Box} (hv : Valid b) {p d : V3} (hd : Full d) :
    b.intersectWilliams p d = some true ↔ ∃ t, InBox b (V3.at' p d t) :=
  williams_iff hv hd

/-! ## C31: safeties -/

/-- C31: the membership test of a box is the closed box. -/
theorem C31_contains (b : Box) (p : V3) : b.contains p = true ↔ InBox b p := by
  simp only [contains, decide_eq_true_eq, InBox, ge_iff_le]
  tauto

/-- C31: the strict membership kernel accepts all points with a positive margin and only points of the box. -/
theorem C31_contains_kernel (b : Box) (p : V3) :
    (b.containsKernel p = true → InBox b p) ∧ (∀ m, 0 < m → InBoxMargin b m p → b.containsKernel p = true) := by
  simp only [containsKernel, Bool.and_eq_true, decide_eq_true_eq, gt_iff_lt]
  constructor
  · rintro ⟨⟨⟨⟨⟨h1, h2⟩, h3⟩, h4⟩, h5⟩, h6⟩
    exact ⟨⟨h1.le, h2.le⟩, ⟨h3.le, h4.le⟩, ⟨h5.le, h6.le⟩⟩
  · rintro m hm ⟨⟨h1, h2⟩, ⟨h3, h4⟩, ⟨h5, h6⟩⟩
    refine ⟨⟨⟨⟨⟨?_, ?_⟩, ?_⟩, ?_⟩, ?_⟩, ?_⟩ <;> linarith

/-- C31: the safety to a box never exceeds the Euclidean distance to any point of the box. -/
theorem C31_safety_lower_bound {b : Box} {p q : V3} (hq : InBox b q) : b.safety p ≤ V3.dist p q := by
  obtain ⟨h1, h2, h3⟩ := safetyVec_le (p := p) hq
  rw [safety_eq, V3.maxc_le]
  exact ⟨h1.trans (V3.abs_x_le_dist p q), h2.trans (V3.abs_y_le_dist p q), h3.trans (V3.abs_z_le_dist p q)⟩

example : InBox sampleExt ⟨0, 0, 0⟩ := by norm_num [InBox, sampleExt]

/-- C31: the safety is not positive exactly for the points of the box. -/
theorem C31_safety_sign (b : Box) (p : V3) : b.safety p ≤ 0 ↔ InBox b p := by
  rw [safety_eq, V3.maxc_le]
  exact safetyVec_nonpos

/-- C31: inside, the absolute value of the safety is a lower bound for leaving: all points closer than it are in the
box. -/
theorem C31_safety_inside {b : Box} {p q : V3} (h : V3.dist p q ≤ -b.safety p) : InBox b q := by
  have hx := V3.abs_x_le_dist p q
  have hy := V3.abs_y_le_dist p q
  have hz := V3.abs_z_le_dist p q
  have hs : (b.safetyVec p).x ≤ b.safety p ∧ (b.safetyVec p).y ≤ b.safety p ∧ (b.safetyVec p).z ≤ b.safety p := by
    rw [← V3.maxc_le]; exact le_of_eq rfl
  have key : ∀ lo hi p q s : ℝ, |p - 1 / 2 * (hi + lo)| - 1 / 2 * (hi - lo) ≤ s → |p - q| ≤ -s → lo ≤ q ∧ q ≤ hi := by
    intro lo hi p q s h1 h2
    have a1 := le_abs_self (p - 1 / 2 * (hi + lo))
    have a2 := neg_abs_le (p - 1 / 2 * (hi + lo))
    have a3 := le_abs_self (p - q)
    have a4 := neg_abs_le (p - q)
    constructor <;> linarith
  exact ⟨key _ _ _ _ _ hs.1 (hx.trans h), key _ _ _ _ _ hs.2.1 (hy.trans h), key _ _ _ _ _ hs.2.2 (hz.trans h)⟩

example : V3.dist ⟨0, 0, 0⟩ ⟨1 / 2, 0, 0⟩ ≤ -sampleExt.safety ⟨0, 0, 0⟩ := by
  have h1 : V3.dist ⟨0, 0, 0⟩ ⟨1 / 2, 0, 0⟩ = 1 / 2 := by
    rw [V3.dist, V3.dist2, Real.sqrt_eq_iff_mul_self_eq (by norm_num) (by norm_num)]; norm_num
  have h2 : sampleExt.safety ⟨0, 0, 0⟩ = -1 := by
    norm_num [safety, sampleExt, center, size, V3.maxc, V3.smul, V3.vabs, abs_of_neg, abs_of_pos]
  rw [h1, h2]; norm_num

/-- C31: for a point outside, the squared safety is the exact squared distance to the box: a lower bound that is
attained. -/
theorem C31_safety_sqr_outside {b : Box} (hv : Valid b) {p : V3} (hp : ¬ InBox b p) :
    0 < b.safetySqr p ∧ (∀ q, InBox b q → b.safetySqr p ≤ V3.dist2 p q) ∧
    ∃ q, InBox b q ∧ V3.dist2 p q = b.safetySqr p :=
  safetySqr_outside hv hp

example : ¬ InBox sampleExt ⟨5, 0, 0⟩ := by norm_num [InBox, sampleExt]

/-- C31: for a point of the box, the squared safety is not positive, and all points whose squared distance does not exceed its
absolute value are in the box. -/
theorem C31_safety_sqr_inside {b : Box} {p : V3} (hp : InBox b p) :
    b.safetySqr p ≤ 0 ∧ ∀ q, V3.dist2 p q ≤ -b.safetySqr p → InBox b q :=
  safetySqr_inside hp

/-- C31: the range kernel returns the same safety and an upper bound for the squared distance to all points of the
box. -/
theorem C31_safety_range (b : Box) (p : V3) :
    (b.safetyRangeSqr p).1 = b.safetySqr p ∧ ∀ q, InBox b q → V3.dist2 p q ≤ (b.safetyRangeSqr p).2 :=
  ⟨rfl, fun _ hq => range_upper hq⟩

/-- C31: expanding a box by `s` moves each face outwards by `s / 2` (the documentation says "by `s` in each direction"). -/
theorem C31_expand (b : Box) (s : ℝ) (q : V3) :
    InBox (b.expand s) q ↔ InBoxMargin b (-(s / 2)) q := by
  unfold InBox InBoxMargin expand
  have e1 : ∀ x : ℝ, x - s * (1 / 2) = x + -(s / 2) := fun x => by ring
  have e2 : ∀ x : ℝ, x + s * (1 / 2) = x - -(s / 2) := fun x => by ring
  simp only [e1, e2]

example : InBox (sampleExt.expand 2) ⟨-2, 4, 5⟩ := by
  rw [C31_expand]; norm_num [InBoxMargin, sampleExt]

end AABB
end VecGeom
