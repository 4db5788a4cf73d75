import Verif.Hybrid.Search

/-!
# Properties of the hybrid structure and of the flat box lists (C37-C39, C60, C61)
-/

namespace VecGeom
namespace Hybrid

open AABB
open BVH (DistOK Ignored)

/-! ## C37: clusters -/

/-- C37: for every positive number of daughters and lanes the structure is built without undefined behaviour; its clusters
contain every daughter exactly once, no cluster is empty or larger than the number of lanes, and no more clusters are used than needed. -/
theorem C37_partition (boxes : Nat → Box) (M : ℝ) {n V : Nat} (hn : 0 < n) (hV : 0 < V) :
    ∃ a, buildStructure V M boxes n = some a ∧ a.n = n ∧ a.nodes.flatten.Perm (List.range n) ∧
      (∀ c ∈ a.nodes, 0 < c.length ∧ c.length ≤ V) ∧ (a.nodes.length - 1) * V < n ∧ n ≤ a.nodes.length * V := by
  obtain ⟨a, e, hb⟩ := buildStructure_spec boxes M hn hV
  refine ⟨a, e, hb.n_eq, hb.cls.perm, fun c hc => ⟨List.length_pos_iff.mpr (hb.cls.nonempty c hc), hb.cls.size c hc⟩, ?_, ?_⟩
  · rw [hb.cls.length]; exact ceilDiv_pred_mul hn
  · rw [hb.cls.length]; exact le_ceilDiv_mul n hV

theorem built {boxes : Nat → Box} {M : ℝ} {n V : Nat} (hV : 0 < V) {a : Acc} (h : buildStructure V M boxes n = some a) :
    Built V M boxes n a := by
  have hn : 0 < n := by
    rcases Nat.eq_zero_or_pos n with h0 | h0
    · subst h0
      simp [buildStructure] at h
    · exact h0
  obtain ⟨a', e, hb⟩ := buildStructure_spec boxes M hn hV
  rw [h] at e
  cases e
  exact hb

/-- C37: every daughter is found in exactly the lane recorded for it, and the box of a first-level node contains the boxes of its
daughters. -/
theorem C37_lanes {boxes : Nat → Box} {M : ℝ} {n V : Nat} (hV : 0 < V) {a : Acc} (h : buildStructure V M boxes n = some a)
    {i j : Nat} (hi : i < a.nodes.length) (hj : j < a.nodes[i].length) :
    a.store.box (2 * (V + 1) * (i / V) + 2 * (i % V + 1)) j = boxes a.nodes[i][j] ∧
    ∀ q, InBox (boxes a.nodes[i][j]) q → InBox (a.store.box (2 * (V + 1) * (i / V)) (i % V)) q := by
  have hb := built hV h
  constructor
  · rw [← hb.filled.leaf i hi j hj, leafIdx_eq]
    congr 1
    ring
  · intro q hq
    have := hb.filled.node i hi
    unfold nodeIdx at this
    rw [this]
    exact nodeBox_inBox (List.getElem_mem hj) hq

/-- Boxes in a row, as a concrete case: box `i` is `[10 i, 10 i + 1] × [-1, 1] × [-1, 1]`. -/
def rowBoxes (i : Nat) : Box := ⟨⟨10 * i, -1, -1⟩, ⟨10 * i + 1, 1, 1⟩⟩

example : ∃ a, buildStructure 8 (10 ^ 30) rowBoxes 77 = some a ∧ a.nodes.length = 10 ∧ ∃ c ∈ a.nodes, 0 < c.length := by
  obtain ⟨a, e, -, -, h1, h2, h3⟩ := C37_partition rowBoxes (10 ^ 30) (n := 77) (V := 8) (by norm_num) (by norm_num)
  have hlen : a.nodes.length = 10 := by omega
  refine ⟨a, e, hlen, a.nodes[0], List.getElem_mem _, (h1 _ (List.getElem_mem (by omega))).1⟩

/-! ## C38: daughters containing a point -/

/-- The point lies strictly between the corners. -/
def StrictlyIn (b : Box) (p : V3) : Prop :=
  (b.lo.x < p.x ∧ p.x < b.hi.x) ∧ (b.lo.y < p.y ∧ p.y < b.hi.y) ∧ (b.lo.z < p.z ∧ p.z < b.hi.z)

theorem containsKernel_iff (b : Box) (p : V3) : b.containsKernel p = true ↔ StrictlyIn b p := by
  simp only [Box.containsKernel, Bool.and_eq_true, decide_eq_true_eq, gt_iff_lt, StrictlyIn]
  tauto

/-- C38: the candidate list has no repetitions and contains exactly the daughters whose box strictly contains the point; the
query is defined exactly if there are no more than 20000 of them. -/
theorem C38_containing {boxes : Nat → Box} {M : ℝ} {n V : Nat} (hV : 0 < V) {a : Acc} (h : buildStructure V M boxes n = some a)
    (p : V3) :
    ∃ l : List Nat, l.Nodup ∧ (∀ i, i ∈ l ↔ i < n ∧ StrictlyIn (boxes i) p) ∧
      containingCandidates V a p = if l.length ≤ 20000 then some l else none := by
  have hb := built hV h
  set f : Box → Option Unit := fun b => if b.containsKernel p then some () else none with hf
  have fsome : ∀ b : Box, StrictlyIn b p → f b = some () := by
    intro b hb'
    rw [hf]; dsimp only
    rw [if_pos ((containsKernel_iff b p).mpr hb')]
  have fnone : ∀ b : Box, ¬ StrictlyIn b p → f b = none := by
    intro b hb'
    rw [hf]; dsimp only
    rw [if_neg (fun h => hb' ((containsKernel_iff b p).mp h))]
  have hpad : f (padBox M) = none := by
    apply fnone
    rintro ⟨⟨h1, h2⟩, -⟩
    exact absurd (h1.trans h2) (lt_irrefl _)
  have hmono : Monotone boxes n f := by
    intro c _ x hx hne
    by_cases hs : StrictlyIn (boxes x) p
    · obtain ⟨⟨h1, h2, h3⟩, ⟨h4, h5, h6⟩⟩ := nodeBox_le boxes hx startBox
      obtain ⟨⟨a1, a2⟩, ⟨a3, a4⟩, ⟨a5, a6⟩⟩ := hs
      rw [fsome (nodeBox boxes c) ⟨⟨h1.trans_lt a1, a2.trans_le h4⟩, ⟨h2.trans_lt a3, a4.trans_le h5⟩,
        ⟨h3.trans_lt a5, a6.trans_le h6⟩⟩]
      simp
    · exact absurd (fnone _ hs) hne
  obtain ⟨out, hperm, e⟩ := scan_spec hV hb hpad hmono maxFacets
  refine ⟨out.map Prod.fst, ?_, ?_, ?_⟩
  · refine ((hperm.map Prod.fst).nodup_iff).mpr ?_
    unfold entries
    rw [List.map_filterMap]
    refine List.Nodup.filterMap ?_ List.nodup_range
    intro x y z hx hy
    cases hfx : f (boxes x) with
    | none => rw [hfx] at hx; simp at hx
    | some v =>
      cases hfy : f (boxes y) with
      | none => rw [hfy] at hy; simp at hy
      | some w =>
        rw [hfx] at hx
        rw [hfy] at hy
        simp at hx hy
        omega
  · intro i
    rw [(hperm.map Prod.fst).mem_iff, List.mem_map]
    constructor
    · rintro ⟨x, hx, rfl⟩
      rw [mem_entries, List.mem_range] at hx
      refine ⟨hx.1, ?_⟩
      by_contra hs
      rw [fnone _ hs] at hx
      exact absurd hx.2 (by simp)
    · rintro ⟨h1, h2⟩
      exact ⟨(i, ()), mem_entries.mpr ⟨List.mem_range.mpr h1, fsome _ h2⟩, rfl⟩
  · unfold containingCandidates
    rw [e, List.length_map]
    unfold maxFacets
    split <;> rfl

/-- C38: in particular, for at most 20000 daughters the list is complete. -/
theorem C38_complete {boxes : Nat → Box} {M : ℝ} {n V : Nat} (hV : 0 < V) {a : Acc} (h : buildStructure V M boxes n = some a)
    (hn : n ≤ 20000) (p : V3) :
    ∃ l, containingCandidates V a p = some l ∧ l.Nodup ∧ ∀ i, i ∈ l ↔ i < n ∧ StrictlyIn (boxes i) p := by
  obtain ⟨l, h1, h2, h3⟩ := C38_containing hV h p
  refine ⟨l, ?_, h1, h2⟩
  rw [h3, if_pos]
  have : l.Subperm (List.range n) := h1.subperm fun i hi => List.mem_range.mpr ((h2 i).mp hi).1
  have := this.length_le
  rw [List.length_range] at this
  omega

example : ∃ a l, buildStructure 4 (10 ^ 30) rowBoxes 9 = some a ∧ containingCandidates 4 a ⟨30.5, 0, 0⟩ = some l ∧ 3 ∈ l := by
  obtain ⟨a, e, -⟩ := C37_partition rowBoxes (10 ^ 30) (n := 9) (V := 4) (by norm_num) (by norm_num)
  obtain ⟨l, h1, -, h2⟩ := C38_complete (by norm_num) e (by norm_num) ⟨30.5, 0, 0⟩
  exact ⟨a, l, e, h1, (h2 3).mpr ⟨by norm_num, by norm_num [StrictlyIn, rowBoxes]⟩⟩

/-- C38: with 20001 daughters around a point the query writes past its array. -/
theorem C38_overflow_counterexample :
    ∃ a, buildStructure 8 (10 ^ 30) (fun _ => rowBoxes 0) 20001 = some a ∧ containingCandidates 8 a ⟨1 / 2, 0, 0⟩ = none := by
  obtain ⟨a, e, -⟩ := C37_partition (fun _ => rowBoxes 0) (10 ^ 30) (n := 20001) (V := 8) (by norm_num) (by norm_num)
  obtain ⟨l, h1, h2, h3⟩ := C38_containing (by norm_num) e ⟨1 / 2, 0, 0⟩
  refine ⟨a, e, ?_⟩
  rw [h3, if_neg]
  have : (List.range 20001).Subperm l :=
    List.nodup_range.subperm fun i hi => (h2 i).mpr ⟨List.mem_range.mp hi, by norm_num [StrictlyIn, rowBoxes]⟩
  have := this.length_le
  rw [List.length_range] at this
  omega

/-! ## C39: the nearest daughter -/

/-- C39: `insertionsort` sorts by the second component for up to 32768 entries. -/
theorem C39_sort {l : List (Nat × ℝ)} (h : l.length ≤ 32768) :
    ∃ l', insertionSort l = some l' ∧ l'.Perm l ∧ l'.Pairwise (fun a b => a.2 ≤ b.2) := insertionSort_spec h

example : ([(1, 5), (2, 3), (3, 4)] : List (Nat × ℝ)).length ≤ 32768 := by norm_num

/-- C39: early exit.  `T i` is the distance of daughter `i`.  If the list of boxes is sorted by box distance and contains every
daughter that could improve the step with a box distance not above `T i`, then the loop gives the smallest of the step and the
distances of the daughters that are not ignored. -/
theorem C39_early_exit {n : Nat} {dist : Nat → ℝ → ℝ} {T : Nat → ℝ} {last : Option Nat} {step0 : ℝ}
    (hd : DistOK n dist T step0) (l : List (Nat × ℝ)) (hit0 : Option Nat) (hl : ∀ e ∈ l, e.1 < n)
    (hsort : l.Pairwise (fun a b => a.2 ≤ b.2))
    (hcomplete : ∀ i, i < n → ¬ Ignored last T i → T i < step0 → ∃ e ∈ l, e.1 = i ∧ e.2 ≤ T i) :
    ∃ step hit, sortedLoop n dist last l step0 hit0 = some (step, hit) ∧ step ≤ step0 ∧
      (∀ i, i < n → ¬ Ignored last T i → step ≤ T i) ∧
      ((step = step0 ∧ hit = hit0) ∨ ∃ i, i < n ∧ hit = some i ∧ step = T i ∧ T i < step0 ∧ ¬ Ignored last T i) := by
  refine sortedLoop_spec hd l step0 hit0 hl hsort (le_refl _) (Or.inl ⟨rfl, rfl⟩) (fun i hi hg => ?_)
  rcases lt_or_ge (T i) step0 with h | h
  · exact Or.inr (hcomplete i hi hg h)
  · exact Or.inl h

example : DistOK 2 (fun i _ => 1 + i) (fun i => 1 + i) 10 ∧
    ([(0, 1 / 2), (1, 3 / 2)] : List (Nat × ℝ)).Pairwise (fun a b => a.2 ≤ b.2) :=
  ⟨fun i _ s _ => ⟨fun _ => rfl, fun h => h⟩, by norm_num⟩

/-- C39: the search of the hybrid navigator finds the nearest daughter.  Hypotheses: at most 20000 daughters with boxes whose
corners are in order; the distance of a daughter (if below the step) is met in its box and either not negative or measured from inside
the box; a unit direction; a point, distances and a float range `M` that keep the padding lanes out of reach. -/
theorem C39_hit {boxes : Nat → Box} {M : ℝ} {n V : Nat} (hV : 0 < V) {a : Acc} (h : buildStructure V M boxes n = some a)
    (hn : n ≤ 20000) (hv : ∀ i, i < n → Valid (boxes i)) {p d : V3} (hp : Near M p) (hunit : d.mag2 = 1) (hM : M ≤ kInfLength)
    {dist : Nat → ℝ → ℝ} {T : Nat → ℝ} {step0 : ℝ} (hstep : 0 ≤ step0) (last hit0 : Option Nat) (hd : DistOK n dist T step0)
    (hbox : ∀ i, i < n → ¬ Ignored last T i → T i < step0 →
      T i < M ∧ InBox (boxes i) (V3.at' p d.nonZero (T i)) ∧ (0 ≤ T i ∨ InBox (boxes i) p)) :
    ∃ step hit, checkDaughterIntersections V M a p d dist last step0 hit0 = some (step, hit) ∧ step ≤ step0 ∧
      (∀ i, i < n → ¬ Ignored last T i → step ≤ T i) ∧
      ((step = step0 ∧ hit = hit0) ∨ ∃ i, i < n ∧ hit = some i ∧ step = T i ∧ T i < step0 ∧ ¬ Ignored last T i) := by
  have hb := built hV h
  have hM1 := hp.one_le
  have h0 : 0 ≤ min step0 M := le_min hstep (by linarith)
  have h1 : min step0 M ≤ M := min_le_right _ _
  obtain ⟨out, hperm, e⟩ := scan_spec hV hb (hitTest_pad hp hunit h0 h1 hM) (hitTest_mono hv p d h0 (h1.trans hM)) maxFacets
  have hlen : out.length ≤ n := by
    rw [hperm.length_eq]
    exact (entries_length_le _ _ _).trans (by rw [List.length_range])
  obtain ⟨l, e2, hp2, hs2⟩ := insertionSort_spec (l := out) (by omega)
  have hmem : ∀ x, x ∈ l ↔ x.1 < n ∧ hitTest p d (min step0 M) (boxes x.1) = some x.2 := by
    intro x
    rw [hp2.mem_iff, hperm.mem_iff, mem_entries, List.mem_range]
  unfold checkDaughterIntersections hitCandidates
  rw [e, if_pos (show out.length ≤ maxFacets by unfold maxFacets; omega), Option.bind_some, e2, Option.bind_some, hb.n_eq]
  refine C39_early_exit hd l hit0 (fun e he => ((hmem e).mp he).1) hs2 (fun i hi hg hT => ?_)
  obtain ⟨hTM, hin, hin0⟩ := hbox i hi hg hT
  have htol := kTolerance_pos
  have hk : kernel2 (boxes i) p d.nonZero 0 (min step0 M) ≤ T i := by
    rcases hin0 with ht | ht
    · exact (C30_cached_kernel2 (nonZero_full d) (t0 := 0) (t1 := min step0 M) (by linarith)
        ((le_min hT.le hTM.le).trans (by linarith)) hin).2 _ hin
    · have hat : V3.at' p d.nonZero 0 = p := BVH.at_zero p _
      rw [← hat] at ht
      exact (C30_cached_kernel2 (nonZero_full d) (t0 := 0) (t1 := min step0 M) (t := 0) (by linarith)
        (h0.trans (by linarith)) ht).2 _ hin
  refine ⟨(i, kernel2 (boxes i) p d.nonZero 0 (min step0 M)), (hmem _).mpr ⟨hi, ?_⟩, rfl, hk⟩
  unfold hitTest
  dsimp only
  rw [if_pos (hk.trans_lt (lt_min hT hTM))]

theorem near_of {M : ℝ} {p : V3} (hM : 1000000 ≤ M) (hx : |p.x| ≤ 1000) (hy : |p.y| ≤ 1000) (hz : |p.z| ≤ 1000) : Near M p :=
  ⟨by linarith, by linarith, by linarith, by linarith⟩

theorem row_meets (i : Nat) : InBox (rowBoxes i) (V3.at' ⟨-5, 0, 0⟩ (V3.nonZero ⟨1, 0, 0⟩) (5 + 10 * i)) ∨ 100 < i := by
  rcases Nat.lt_or_ge 100 i with h | hi
  · exact Or.inr h
  · left
    have h0 : (0 : ℝ) ≤ i := Nat.cast_nonneg i
    have h9 : (i : ℝ) ≤ 100 := by exact_mod_cast hi
    have hk : kTiny ≤ 1 / 10 ^ 6 := by unfold kTiny; norm_num
    have hk0 := kTiny_pos
    simp only [InBox, rowBoxes, V3.at_x, V3.at_y, V3.at_z, V3.nonZero_x, V3.nonZero_y, V3.nonZero_z, nonZero, copySign]
    rw [if_neg (by norm_num), if_neg (by norm_num)]
    refine ⟨⟨?_, ?_⟩, ⟨?_, ?_⟩, ⟨?_, ?_⟩⟩ <;> nlinarith

example : ∃ a, buildStructure 8 1000000 rowBoxes 77 = some a ∧ (∀ i, i < 77 → Valid (rowBoxes i)) ∧ Near 1000000 ⟨-5, 0, 0⟩ ∧
    V3.mag2 ⟨1, 0, 0⟩ = 1 ∧ (1000000 : ℝ) ≤ kInfLength ∧ DistOK 77 (fun i _ => 5 + 10 * i) (fun i => 5 + 10 * i) 1000 ∧
    ∀ i, i < 77 → ¬ Ignored none (fun i => 5 + 10 * (i : ℝ)) i → 5 + 10 * (i : ℝ) < 1000 → 5 + 10 * (i : ℝ) < 1000000 ∧
      InBox (rowBoxes i) (V3.at' ⟨-5, 0, 0⟩ (V3.nonZero ⟨1, 0, 0⟩) (5 + 10 * i)) ∧ (0 ≤ 5 + 10 * (i : ℝ) ∨ InBox (rowBoxes i) ⟨-5, 0, 0⟩) := by
  obtain ⟨a, e, -⟩ := C37_partition rowBoxes 1000000 (n := 77) (V := 8) (by norm_num) (by norm_num)
  refine ⟨a, e, fun i _ => by norm_num [Valid, rowBoxes], near_of (by norm_num) (by norm_num) (by norm_num) (by norm_num),
    by norm_num [V3.mag2, V3.dot], le_kInfLength (le_refl _), fun i _ s _ => ⟨fun _ => rfl, fun h => h⟩, fun i hi _ h => ?_⟩
  have h0 : (0 : ℝ) ≤ i := Nat.cast_nonneg i
  refine ⟨by linarith, ?_, Or.inl (by linarith)⟩
  rcases row_meets i with h | h
  · exact h
  · omega

/-- C39: the same for daughters given by placement and extent, and for the true ray. -/
theorem C39_hit_placed {tr : Nat → Trans3} {ext : Nat → Box} {M : ℝ} {n V : Nat} (hV : 0 < V) {a : Acc}
    (h : buildStructure V M (fun i => computeABBox (tr i) (ext i)) n = some a) (hn : n ≤ 20000)
    (horth : ∀ i, i < n → (tr i).Orthonormal) (hext : ∀ i, i < n → Valid (ext i)) {p d : V3} (hp : Near M p) (hunit : d.mag2 = 1)
    (hM : M ≤ kInfLength) {dist : Nat → ℝ → ℝ} {T : Nat → ℝ} {step0 : ℝ} (hstep : 0 ≤ step0) (last hit0 : Option Nat)
    (hd : DistOK n dist T step0)
    (hmeet : ∀ i, i < n → ¬ Ignored last T i → T i < step0 →
      0 ≤ T i ∧ T i ≤ 10 ^ 27 ∧ T i < M ∧ InBox (ext i) ((tr i).transform (V3.at' p d (T i)))) :
    ∃ step hit, checkDaughterIntersections V M a p d dist last step0 hit0 = some (step, hit) ∧ step ≤ step0 ∧
      (∀ i, i < n → ¬ Ignored last T i → step ≤ T i) ∧
      ((step = step0 ∧ hit = hit0) ∨ ∃ i, i < n ∧ hit = some i ∧ step = T i ∧ T i < step0 ∧ ¬ Ignored last T i) := by
  refine C39_hit hV h hn (fun i hi => ?_) hp hunit hM hstep last hit0 hd (fun i hi hig hT => ?_)
  · have hq : InBox (ext i) (ext i).lo := by
      obtain ⟨h1, h2, h3⟩ := hext i hi
      exact ⟨⟨le_refl _, h1⟩, ⟨le_refl _, h2⟩, ⟨le_refl _, h3⟩⟩
    obtain ⟨⟨a1, a2⟩, ⟨a3, a4⟩, ⟨a5, a6⟩⟩ := C28_box_contains_image (tr i) hq
    exact ⟨by linarith, by linarith, by linarith⟩
  · obtain ⟨h1, h2, h2', h3⟩ := hmeet i hi hig hT
    have hm := C28_box_contains_point (horth i hi) h3
    refine ⟨h2', (C30_never_misses_true_ray h1 ?_ hm).1, Or.inl h1⟩
    unfold kTiny
    rw [mul_one_div, div_le_iff₀ (by positivity)]
    refine h2.trans (by norm_num)

example : ∃ a, buildStructure 4 1000000 (fun _ => computeABBox Trans3.sample sampleExt) 3 = some a ∧ Trans3.sample.Orthonormal ∧
    Valid sampleExt ∧ Near 1000000 ⟨0, 2, 4⟩ ∧ InBox sampleExt (Trans3.sample.transform (V3.at' ⟨0, 2, 4⟩ ⟨1, 0, 0⟩ 1)) := by
  obtain ⟨a, e, -⟩ := C37_partition (fun _ => computeABBox Trans3.sample sampleExt) 1000000 (n := 3) (V := 4) (by norm_num)
    (by norm_num)
  refine ⟨a, e, Trans3.sample_orthonormal, by norm_num [Valid, sampleExt],
    near_of (by norm_num) (by norm_num) (by norm_num) (by norm_num), ?_⟩
  rw [Trans3.transform_eq]
  norm_num [InBox, sampleExt, Trans3.sample, Trans3.rotGeneric, Trans3.doTranslation, V3.at', V3.smul]

/-- C39: the search over the flat list of boxes, for directions without zero components and at most 2000 daughters. -/
theorem C39_flat_hit {boxes : Nat → Box} {M : ℝ} {n V : Nat} (hV : 0 < V) (hn : n ≤ 2000)
    {p d : V3} (hp : Near M p) (hunit : d.mag2 = 1) (hfull : Full d) (hM : M ≤ kInfLength)
    {dist : Nat → ℝ → ℝ} {T : Nat → ℝ} {step0 : ℝ} (last hit0 : Option Nat) (hd : DistOK n dist T step0)
    (hbox : ∀ i, i < n → ¬ Ignored last T i → T i < step0 →
      T i < M ∧ InBox (boxes i) (V3.at' p d (T i)) ∧ (0 ≤ T i ∨ InBox (boxes i) p)) :
    ∃ step hit, flatCheckDaughterIntersections V M boxes n p d dist last step0 hit0 = some (step, hit) ∧ step ≤ step0 ∧
      (∀ i, i < n → ¬ Ignored last T i → step ≤ T i) ∧
      ((step = step0 ∧ hit = hit0) ∨ ∃ i, i < n ∧ hit = some i ∧ step = T i ∧ T i < step0 ∧ ¬ Ignored last T i) := by
  have hM1 := hp.one_le
  have h0 : 0 ≤ M := by linarith
  have hpad : flatHitTest p d M (padBox M) = none := by
    unfold flatHitTest
    dsimp only
    rw [if_neg (not_lt.mpr (pad_ray hp hfull (by rw [hunit]; norm_num) h0 (le_refl _) hM))]
  have e := flatScan_spec hV boxes n hpad maxDaughters
  have hlen : (entries boxes (flatHitTest p d M) (List.range n)).length ≤ n :=
    (entries_length_le _ _ _).trans (by rw [List.length_range])
  obtain ⟨l, e2, hp2, hs2⟩ := insertionSort_spec (l := entries boxes (flatHitTest p d M) (List.range n)) (by omega)
  have hmem : ∀ x, x ∈ l ↔ x.1 < n ∧ flatHitTest p d M (boxes x.1) = some x.2 := by
    intro x
    rw [hp2.mem_iff, mem_entries, List.mem_range]
  unfold flatCheckDaughterIntersections
  obtain ⟨d1, d2, d3⟩ := hfull
  rw [if_neg (by tauto), e, if_pos (by unfold maxDaughters; omega), Option.bind_some, e2, Option.bind_some]
  refine C39_early_exit hd l hit0 (fun e he => ((hmem e).mp he).1) hs2 (fun i hi hg hT => ?_)
  obtain ⟨hTM, hin, hin0⟩ := hbox i hi hg hT
  have htol := kTolerance_pos
  have hk : kernel2 (boxes i) p d 0 M ≤ T i := by
    rcases hin0 with ht | ht
    · exact (C30_cached_kernel2 ⟨d1, d2, d3⟩ (t0 := 0) (t1 := M) (by linarith) (by linarith) hin).2 _ hin
    · have hat : V3.at' p d 0 = p := BVH.at_zero p _
      rw [← hat] at ht
      exact (C30_cached_kernel2 ⟨d1, d2, d3⟩ (t0 := 0) (t1 := M) (t := 0) (by linarith) (by linarith) ht).2 _ hin
  refine ⟨(i, kernel2 (boxes i) p d 0 M), (hmem _).mpr ⟨hi, ?_⟩, rfl, hk⟩
  unfold flatHitTest
  dsimp only
  rw [if_pos (hk.trans_lt hTM)]

example : Near 1000000 ⟨-3, 0, 0⟩ ∧ V3.mag2 ⟨3 / 5, 16 / 25, 12 / 25⟩ = 1 ∧ Full ⟨3 / 5, 16 / 25, 12 / 25⟩ ∧
    InBox (rowBoxes 0) (V3.at' ⟨-3 / 5, 0, 0⟩ ⟨3 / 5, 16 / 25, 12 / 25⟩ 1) :=
  ⟨near_of (by norm_num) (by norm_num) (by norm_num) (by norm_num), by norm_num [V3.mag2, V3.dot], by norm_num [Full],
    by norm_num [InBox, rowBoxes]⟩

/-- C39: the flat search has no defined result for a direction parallel to a coordinate plane (the code divides by zero and
relies on the IEEE infinities it produces). -/
theorem C39_flat_parallel_counterexample :
    flatCheckDaughterIntersections 8 1000000 rowBoxes 5 ⟨-5, 0, 0⟩ ⟨1, 0, 0⟩ (fun _ _ => 5) none 10 none = none := by
  unfold flatCheckDaughterIntersections
  rw [if_pos (Or.inr (Or.inl rfl))]

/-! ## C60: safeties from box lists -/

/-- C60: the hybrid safety estimator.  `D i` is the set of points of daughter `i`.  If the daughters lie in their boxes and their
own safeties do not exceed the distance to any of their points, the result does not exceed the mother's safety nor the distance to
any point of any daughter, and is one of the safeties computed by the solids. -/
theorem C60_hybrid {boxes : Nat → Box} {M : ℝ} {n V : Nat} (hV : 0 < V) {a : Acc} (h : buildStructure V M boxes n = some a)
    (hn : n ≤ 2000) (hv : ∀ i, i < n → Valid (boxes i)) {p : V3} (hp : Near M p) {D : Nat → V3 → Prop} {safeties : Nat → ℝ}
    (hbox : ∀ i, i < n → ∀ q, D i q → InBox (boxes i) q) (hsaf : ∀ i, i < n → ∀ q, D i q → safeties i ≤ V3.dist p q)
    {out : ℝ} (hout : out ≤ M) :
    ∃ s, computeSafety V a p safeties out = some s ∧ s ≤ max out 0 ∧ (out ≤ 0 → s = 0) ∧
      (s = max out 0 ∨ ∃ i, i < n ∧ s = safeties i) ∧ ∀ i, i < n → ∀ q, D i q → s ≤ V3.dist p q := by
  have hb := built hV h
  unfold computeSafety treatSafetyToIn
  rcases le_or_gt out 0 with h0 | h0
  · rw [if_pos h0, max_eq_right h0]
    exact ⟨0, rfl, le_refl _, fun _ => rfl, Or.inl rfl, fun i _ q _ => Real.sqrt_nonneg _⟩
  · rw [if_neg (not_le.mpr h0), if_pos h0, max_eq_left h0.le]
    obtain ⟨l, hperm, e⟩ := scan_spec hV hb (safetyTest_pad hp (limit := out * out) (by nlinarith))
      (safetyTest_mono hv p (limit := out * out) (by positivity)) maxDaughters
    have hlen : l.length ≤ n := by
      rw [hperm.length_eq]
      exact (entries_length_le _ _ _).trans (by rw [List.length_range])
    rw [e, if_pos (by unfold maxDaughters; omega), Option.bind_some, hb.n_eq]
    have hmem : ∀ x, x ∈ l ↔ x.1 < n ∧ safetyTest p (out * out) (boxes x.1) = some x.2 := by
      intro x
      rw [hperm.mem_iff, mem_entries, List.mem_range]
    have htest : ∀ i v, safetyTest p (out * out) (boxes i) = some v → v = (boxes i).safetySqr p := by
      intro i v hv'
      unfold safetyTest at hv'
      dsimp only at hv'
      split at hv'
      · exact (Option.some.inj hv').symm
      · cases hv'
    obtain ⟨s, e1, -, h2, h3, h4⟩ := treatLoop_spec hbox hsaf l out
      (fun x hx => ⟨((hmem x).mp hx).1, htest _ _ ((hmem x).mp hx).2⟩) (le_refl _) (Or.inl rfl) (fun i hi => by
        by_cases hc : (boxes i).safetySqr p < out * out
        · refine Or.inr ⟨(i, (boxes i).safetySqr p), (hmem _).mpr ⟨hi, ?_⟩, rfl⟩
          unfold safetyTest
          dsimp only
          rw [if_pos hc]
        · exact Or.inl fun q hq => le_dist_of_safetySqr (hbox i hi q hq) (not_lt.mp hc))
    exact ⟨s, e1, h2, fun h => absurd h (not_le.mpr h0), h3, h4⟩

/-- C60: the flat estimator; a mother safety that is not positive is returned as it is. -/
theorem C60_flat {boxes : Nat → Box} {M : ℝ} {n V : Nat} (hV : 0 < V) (hn : n ≤ 2000) {p : V3} (hp : Near M p)
    {D : Nat → V3 → Prop} {safeties : Nat → ℝ}
    (hbox : ∀ i, i < n → ∀ q, D i q → InBox (boxes i) q) (hsaf : ∀ i, i < n → ∀ q, D i q → safeties i ≤ V3.dist p q)
    {out : ℝ} (hout : out ≤ M) :
    ∃ s, flatTreatSafetyToIn V M boxes n p safeties out = some s ∧ s ≤ out ∧
      (s = out ∨ ∃ i, i < n ∧ s = safeties i) ∧ ∀ i, i < n → ∀ q, D i q → s ≤ V3.dist p q := by
  unfold flatTreatSafetyToIn
  rcases le_or_gt out 0 with h0 | h0
  · rw [if_neg (not_lt.mpr h0)]
    exact ⟨out, rfl, le_refl _, Or.inl rfl, fun i _ q _ => h0.trans (Real.sqrt_nonneg _)⟩
  · rw [if_pos h0, flatScan_spec hV boxes n (safetyTest_pad hp (limit := out * out) (by nlinarith)) maxDaughters]
    have hlen : (entries boxes (safetyTest p (out * out)) (List.range n)).length ≤ n :=
      (entries_length_le _ _ _).trans (by rw [List.length_range])
    rw [if_pos (by unfold maxDaughters; omega), Option.bind_some]
    have htest : ∀ i v, safetyTest p (out * out) (boxes i) = some v → v = (boxes i).safetySqr p := by
      intro i v hv'
      unfold safetyTest at hv'
      dsimp only at hv'
      split at hv'
      · exact (Option.some.inj hv').symm
      · cases hv'
    obtain ⟨s, e1, -, h2, h3, h4⟩ := treatLoop_spec hbox hsaf (entries boxes (safetyTest p (out * out)) (List.range n)) out
      (fun x hx => by
        rw [mem_entries, List.mem_range] at hx
        exact ⟨hx.1, htest _ _ hx.2⟩) (le_refl _) (Or.inl rfl) (fun i hi => by
        by_cases hc : (boxes i).safetySqr p < out * out
        · refine Or.inr ⟨(i, (boxes i).safetySqr p), mem_entries.mpr ⟨List.mem_range.mpr hi, ?_⟩, rfl⟩
          unfold safetyTest
          dsimp only
          rw [if_pos hc]
        · exact Or.inl fun q hq => le_dist_of_safetySqr (hbox i hi q hq) (not_lt.mp hc))
    exact ⟨s, e1, h2, h3, h4⟩

/-- The hypotheses hold for boxes used as daughters and their box safeties. -/
example : (∀ i, i < 77 → Valid (rowBoxes i)) ∧ Near 1000000 ⟨-5, 0, 0⟩ ∧
    (∀ i, i < 77 → ∀ q, InBox (rowBoxes i) q → (rowBoxes i).safety ⟨-5, 0, 0⟩ ≤ V3.dist ⟨-5, 0, 0⟩ q) ∧ (20 : ℝ) ≤ 1000000 :=
  ⟨fun i _ => by norm_num [Valid, rowBoxes], near_of (by norm_num) (by norm_num) (by norm_num) (by norm_num),
    fun _ _ _ hq => C31_safety_lower_bound hq, by norm_num⟩

theorem entries_row (L : List Nat) : entries (fun _ => rowBoxes 0) (safetyTest ⟨1 / 2, 0, 0⟩ (1 * 1)) L =
    L.map fun i => (i, (rowBoxes 0).safetySqr ⟨1 / 2, 0, 0⟩) := by
  have hin : InBox (rowBoxes 0) ⟨1 / 2, 0, 0⟩ := by norm_num [InBox, rowBoxes]
  have hneg := (C31_safety_sqr_inside hin).1
  have hs : safetyTest ⟨1 / 2, 0, 0⟩ (1 * 1) (rowBoxes 0) = some ((rowBoxes 0).safetySqr ⟨1 / 2, 0, 0⟩) := by
    unfold safetyTest
    dsimp only
    rw [if_pos (by linarith)]
  induction L with
  | nil => rfl
  | cons i L ih =>
    unfold entries at ih ⊢
    rw [List.filterMap_cons, hs, List.map_cons, ← ih]
    rfl

/-- C60: 2001 daughters around a point overflow the work space of the hybrid estimator, although its assertions would only
fire at 20000. -/
theorem C60_overflow_counterexample :
    ∃ a, buildStructure 8 1000000 (fun _ => rowBoxes 0) 2001 = some a ∧
      computeSafety 8 a ⟨1 / 2, 0, 0⟩ (fun _ => 0) 1 = none := by
  obtain ⟨a, e, -⟩ := C37_partition (fun _ => rowBoxes 0) 1000000 (n := 2001) (V := 8) (by norm_num) (by norm_num)
  have hb := built (by norm_num) e
  have hp : Near 1000000 ⟨1 / 2, 0, 0⟩ := near_of (by norm_num) (by rw [abs_le]; norm_num) (by norm_num) (by norm_num)
  obtain ⟨l, hperm, e1⟩ := scan_spec (V := 8) (by norm_num) hb (safetyTest_pad hp (limit := 1 * 1) (by norm_num))
    (safetyTest_mono (fun i _ => by norm_num [Valid, rowBoxes]) ⟨1 / 2, 0, 0⟩ (limit := 1 * 1) (by norm_num)) maxDaughters
  refine ⟨a, e, ?_⟩
  unfold computeSafety treatSafetyToIn
  rw [if_neg (by norm_num), if_pos (by norm_num), e1, if_neg, Option.bind_none]
  rw [hperm.length_eq]
  rw [entries_row, List.length_map, List.length_range]
  unfold maxDaughters
  norm_num

/-! ## C61: the locator over the flat list -/

/-- The first daughter in storage order satisfying a condition. -/
def IsFirst (n : Nat) (P : Nat → Prop) : Option Nat → Prop
  | some i => i < n ∧ P i ∧ ∀ j, j < i → ¬ P j
  | none => ∀ j, j < n → ¬ P j

theorem locateLanes_spec {n g V : Nat} {M : ℝ} {boxes : Nat → Box} {p : V3} {excl : Option Nat} {check : Nat → Bool} :
    ∀ (k m : Nat), k + m = V →
    ∃ r, locateLanes n g V ((List.range V).map (packLane V M boxes n g)) p excl check (List.range' k m) = some r ∧
      (∀ i, r = some i → g * V + k ≤ i ∧ i < g * V + V ∧ i < n ∧ StrictlyIn (boxes i) p ∧ excl ≠ some i ∧ check i = true ∧
        ∀ j, g * V + k ≤ j → j < i → ¬ (StrictlyIn (boxes j) p ∧ excl ≠ some j ∧ check j = true)) ∧
      (r = none → ∀ j, g * V + k ≤ j → j < g * V + V → j < n → ¬ (StrictlyIn (boxes j) p ∧ excl ≠ some j ∧ check j = true)) := by
  intro k m
  induction m generalizing k with
  | zero => intro h; exact ⟨none, rfl, by simp, fun _ j h1 h2 => by omega⟩
  | succ m ih =>
    intro h
    obtain ⟨r, e, hs, hnn⟩ := ih (k + 1) (by omega)
    rw [List.range'_succ, locateLanes, List.getElem?_map, List.getElem?_range (by omega), Option.map_some, Option.bind_some]
    -- the rest of the lanes, when lane `k` is not accepted
    have skip : ¬ (g * V + k < n ∧ StrictlyIn (boxes (g * V + k)) p ∧ excl ≠ some (g * V + k) ∧ check (g * V + k) = true) →
        (∀ i, r = some i → g * V + k ≤ i ∧ i < g * V + V ∧ i < n ∧ StrictlyIn (boxes i) p ∧ excl ≠ some i ∧ check i = true ∧
        ∀ j, g * V + k ≤ j → j < i → ¬ (StrictlyIn (boxes j) p ∧ excl ≠ some j ∧ check j = true)) ∧
      (r = none → ∀ j, g * V + k ≤ j → j < g * V + V → j < n → ¬ (StrictlyIn (boxes j) p ∧ excl ≠ some j ∧ check j = true)) := by
      intro hno
      constructor
      · intro i hi
        obtain ⟨h1, h2, h3, h4, h5, h6, h7⟩ := hs i hi
        refine ⟨by omega, h2, h3, h4, h5, h6, fun j hj hji hP => ?_⟩
        rcases Nat.lt_or_ge (g * V + k) j with h8 | h8
        · exact h7 j (by omega) hji hP
        · have : j = g * V + k := by omega
          subst this
          exact hno ⟨by omega, hP⟩
      · intro hr j hj hjV hjn hP
        rcases Nat.lt_or_ge (g * V + k) j with h8 | h8
        · exact hnn hr j (by omega) hjV hjn hP
        · have : j = g * V + k := by omega
          subst this
          exact hno ⟨hjn, hP⟩
    by_cases hin : g * V + k < n
    · have hpk : packLane V M boxes n g k = boxes (g * V + k) := if_pos (by omega)
      rw [hpk]
      by_cases hst : StrictlyIn (boxes (g * V + k)) p
      · rw [if_pos ⟨hin, (containsKernel_iff _ _).mpr hst⟩]
        by_cases hex : excl = some (g * V + k)
        · rw [if_pos hex]
          exact ⟨r, e, skip (by tauto)⟩
        · rw [if_neg hex]
          by_cases hck : check (g * V + k) = true
          · rw [if_pos hck]
            refine ⟨_, rfl, ?_, by simp⟩
            intro i hi
            cases hi
            exact ⟨le_refl _, by omega, hin, hst, hex, hck, fun j h1 h2 => by omega⟩
          · rw [if_neg hck]
            exact ⟨r, e, skip (by tauto)⟩
      · rw [if_neg (fun h => hst ((containsKernel_iff _ _).mp h.2))]
        exact ⟨r, e, skip (by tauto)⟩
    · rw [if_neg (fun h => hin h.1)]
      exact ⟨r, e, skip (by tauto)⟩

theorem locateGroups_spec {n V : Nat} (hV : 0 < V) {M : ℝ} {boxes : Nat → Box} {p : V3} {excl : Option Nat} {check : Nat → Bool} :
    ∀ (g m : Nat), g + m = ceilDiv n V →
    (∀ j, j < g * V → j < n → ¬ (StrictlyIn (boxes j) p ∧ excl ≠ some j ∧ check j = true)) →
    ∃ r, locateGroups n V (initABBoxes V M boxes n) p excl check (List.range' g m) = some r ∧
      IsFirst n (fun j => StrictlyIn (boxes j) p ∧ excl ≠ some j ∧ check j = true) r := by
  intro g m
  induction m generalizing g with
  | zero =>
    intro h hno
    refine ⟨none, rfl, fun j hj => hno j ?_ hj⟩
    have := le_ceilDiv_mul n hV
    rw [← h, Nat.add_zero] at this
    omega
  | succ m ih =>
    intro h hno
    obtain ⟨r, e, hs, hnn⟩ := locateLanes_spec (n := n) (g := g) (M := M) (boxes := boxes) (p := p) (excl := excl) (check := check)
      (V := V) 0 V (by omega)
    rw [← List.range_eq_range'] at e
    rw [List.range'_succ, locateGroups, initABBoxes_get hV M boxes n (g := g) (by omega), Option.bind_some, e, Option.bind_some]
    have hgV := (lt_ceilDiv (g := g) (n := n) hV).mp (by omega)
    cases r with
    | some i =>
      refine ⟨_, rfl, ?_⟩
      obtain ⟨h1, h2, h3, h4, h5, h6, h7⟩ := hs i rfl
      refine ⟨h3, ⟨h4, h5, h6⟩, fun j hj hP => ?_⟩
      rcases Nat.lt_or_ge j (g * V) with h8 | h8
      · exact hno j h8 (by omega) hP
      · exact h7 j (by omega) hj hP
    | none =>
      refine ih (g + 1) (by omega) (fun j hj hjn hP => ?_)
      rw [Nat.add_mul, Nat.one_mul] at hj
      rcases Nat.lt_or_ge j (g * V) with h8 | h8
      · exact hno j h8 hjn hP
      · exact hnn rfl j (by omega) hj hjn hP

/-- C61: the locator over the flat list of boxes returns the first daughter, in storage order, that is not excluded, whose box
strictly contains the point and that accepts it, and nothing if there is none. -/
theorem C61_first {n V : Nat} (hV : 0 < V) (M : ℝ) (boxes : Nat → Box) (p : V3) (excl : Option Nat) (check : Nat → Bool) :
    ∃ r, flatLocate V M boxes n p excl check = some r ∧
      IsFirst n (fun j => StrictlyIn (boxes j) p ∧ excl ≠ some j ∧ check j = true) r := by
  unfold flatLocate
  rw [List.range_eq_range']
  exact locateGroups_spec hV 0 (groupCount V n) (by simp [groupCount]) (by simp)

/-- C61: if every daughter that contains the point does so within its box, the boxes do not change the answer: the first
daughter not excluded that contains the point. -/
theorem C61_same_as_linear {n V : Nat} (hV : 0 < V) (M : ℝ) (boxes : Nat → Box) (p : V3) (excl : Option Nat) (check : Nat → Bool)
    (hbox : ∀ i, i < n → check i = true → ∃ m, 0 < m ∧ InBoxMargin (boxes i) m p) :
    ∃ r, flatLocate V M boxes n p excl check = some r ∧ IsFirst n (fun j => excl ≠ some j ∧ check j = true) r := by
  obtain ⟨r, e, h⟩ := C61_first hV M boxes p excl check
  have strict : ∀ i, i < n → check i = true → StrictlyIn (boxes i) p := by
    intro i hi hc
    obtain ⟨m, hm, ⟨h1, h2⟩, ⟨h3, h4⟩, ⟨h5, h6⟩⟩ := hbox i hi hc
    exact ⟨⟨by linarith, by linarith⟩, ⟨by linarith, by linarith⟩, ⟨by linarith, by linarith⟩⟩
  refine ⟨r, e, ?_⟩
  cases r with
  | some i =>
    obtain ⟨h1, ⟨-, h2⟩, h3⟩ := h
    exact ⟨h1, h2, fun j hj hP => h3 j hj ⟨strict j (by omega) hP.2, hP⟩⟩
  | none => exact fun j hj hP => h j hj ⟨strict j hj hP.2, hP⟩

example : ∀ i, i < 77 → (decide (i = 3)) = true → ∃ m : ℝ, 0 < m ∧ InBoxMargin (rowBoxes i) m ⟨30.5, 0, 0⟩ := by
  intro i _ h
  have : i = 3 := by simpa using h
  subst this
  exact ⟨1 / 4, by norm_num, by norm_num [InBoxMargin, rowBoxes]⟩

end Hybrid
end VecGeom
