import Verif.BoxSolid.Lemmas
import Mathlib.Tactic.Positivity

/-!
# C43: the box solid
-/

namespace VecGeom
namespace BoxSolid

/-- The box used in the examples. -/
def sampleBox : V3 := ⟨1, 2, 3⟩

theorem sampleBox_proper : Proper sampleBox := by norm_num [Proper, sampleBox]

theorem kHalfTolerance_le : kHalfTolerance ≤ 1 / 1000 := by unfold kHalfTolerance kTolerance; norm_num

theorem kTiny_le : kTiny ≤ 1 / 1000 := by unfold kTiny; norm_num

/-! ## Membership -/

/-- C43: `Contains` accepts exactly the interior points. -/
theorem C43_contains (h p : V3) : contains h p = true ↔ Open h p := by
  simp only [contains, decide_eq_true_eq, open_iff]

/-- C43: a point is classified inside exactly if every point closer than half the tolerance is in the open box. -/
theorem C43_inside (h p : V3) :
    inside h p = .inside ↔ ∀ q, V3.dist p q < kHalfTolerance → Open h q := by
  have ht := kHalfTolerance_pos
  have key : inside h p = .inside ↔ V3.maxc (p.vabs - h) ≤ -kHalfTolerance := by
    unfold inside
    dsimp only
    split
    · rename_i hs
      rw [abs_lt] at hs
      simp only [reduceCtorEq, false_iff, not_le]
      exact hs.1
    · rename_i hs
      rw [abs_lt, not_and_or, not_lt, not_lt] at hs
      split
      · rename_i hn
        simp only [true_iff]
        rcases hs with hs | hs <;> linarith
      · rename_i hn
        simp only [reduceCtorEq, false_iff, not_le]
        linarith
  rw [key, V3.maxc_le]
  simp only [V3.sub_x, V3.sub_y, V3.sub_z, V3.vabs_x, V3.vabs_y, V3.vabs_z]
  constructor
  · rintro ⟨h1, h2, h3⟩ q hq
    have := abs_diff_x p q
    have := abs_diff_y p q
    have := abs_diff_z p q
    exact ⟨by linarith, by linarith, by linarith⟩
  · intro H
    refine ⟨?_, ?_, ?_⟩
    · by_contra hc
      push Not at hc
      have hlt : max 0 (h.x - |p.x|) < kHalfTolerance := max_lt ht (by linarith)
      have h0 : 0 ≤ |p.x| + max 0 (h.x - |p.x|) := add_nonneg (abs_nonneg _) (le_max_left _ _)
      have hs := same_side p.x (|p.x| + max 0 (h.x - |p.x|)) h0
      have := (H ⟨sign p.x * (|p.x| + max 0 (h.x - |p.x|)), p.y, p.z⟩ (by
        rw [dist_x, hs.2, abs_sub_comm, add_sub_cancel_left, abs_of_nonneg (le_max_left _ _)]; exact hlt)).1
      simp only [hs.1] at this
      have := le_max_right 0 (h.x - |p.x|)
      linarith
    · by_contra hc
      push Not at hc
      have hlt : max 0 (h.y - |p.y|) < kHalfTolerance := max_lt ht (by linarith)
      have h0 : 0 ≤ |p.y| + max 0 (h.y - |p.y|) := add_nonneg (abs_nonneg _) (le_max_left _ _)
      have hs := same_side p.y (|p.y| + max 0 (h.y - |p.y|)) h0
      have := (H ⟨p.x, sign p.y * (|p.y| + max 0 (h.y - |p.y|)), p.z⟩ (by
        rw [dist_y, hs.2, abs_sub_comm, add_sub_cancel_left, abs_of_nonneg (le_max_left _ _)]; exact hlt)).2.1
      simp only [hs.1] at this
      have := le_max_right 0 (h.y - |p.y|)
      linarith
    · by_contra hc
      push Not at hc
      have hlt : max 0 (h.z - |p.z|) < kHalfTolerance := max_lt ht (by linarith)
      have h0 : 0 ≤ |p.z| + max 0 (h.z - |p.z|) := add_nonneg (abs_nonneg _) (le_max_left _ _)
      have hs := same_side p.z (|p.z| + max 0 (h.z - |p.z|)) h0
      have := (H ⟨p.x, p.y, sign p.z * (|p.z| + max 0 (h.z - |p.z|))⟩ (by
        rw [dist_z, hs.2, abs_sub_comm, add_sub_cancel_left, abs_of_nonneg (le_max_left _ _)]; exact hlt)).2.2
      simp only [hs.1] at this
      have := le_max_right 0 (h.z - |p.z|)
      linarith

/-- C43: a point is classified outside exactly if some coordinate exceeds its half length by half the tolerance or
more; then every point of the box is at least half the tolerance away. -/
theorem C43_outside (h p : V3) :
    (inside h p = .outside ↔
      (h.x + kHalfTolerance ≤ |p.x| ∨ h.y + kHalfTolerance ≤ |p.y| ∨ h.z + kHalfTolerance ≤ |p.z|)) ∧
    (inside h p = .outside → ∀ q, Closed h q → kHalfTolerance ≤ V3.dist p q) := by
  have ht := kHalfTolerance_pos
  have key : inside h p = .outside ↔ kHalfTolerance ≤ V3.maxc (p.vabs - h) := by
    unfold inside
    dsimp only
    split
    · rename_i hs
      rw [abs_lt] at hs
      simp only [reduceCtorEq, false_iff, not_le]
      exact hs.2
    · rename_i hs
      rw [abs_lt, not_and_or, not_lt, not_lt] at hs
      split
      · rename_i hn
        simp only [reduceCtorEq, false_iff, not_le]
        linarith
      · rename_i hn
        simp only [true_iff]
        rcases hs with hs | hs <;> linarith
  have key2 : inside h p = .outside ↔
      (h.x + kHalfTolerance ≤ |p.x| ∨ h.y + kHalfTolerance ≤ |p.y| ∨ h.z + kHalfTolerance ≤ |p.z|) := by
    rw [key, V3.le_maxc]
    simp only [V3.sub_x, V3.sub_y, V3.sub_z, V3.vabs_x, V3.vabs_y, V3.vabs_z, le_sub_iff_add_le, add_comm]
  refine ⟨key2, fun ho q ⟨q1, q2, q3⟩ => ?_⟩
  rw [dist_comm]
  rcases key2.mp ho with h1 | h1 | h1
  · linarith [abs_diff_x q p]
  · linarith [abs_diff_y q p]
  · linarith [abs_diff_z q p]

/-- C43: the generic kernel used by other solids agrees with `Inside` and `Contains`: completely inside points are
classified inside and contained, completely outside points are classified outside and not contained. -/
theorem C43_generic_kernel (h p : V3) :
    ((genericKernel h p).1 = true → inside h p = .inside ∧ contains h p = true) ∧
    ((genericKernel h p).2 = true → inside h p = .outside ∧ contains h p = false) := by
  have ht := kHalfTolerance_pos
  simp only [genericKernel, decide_eq_true_eq, inside, contains, decide_eq_false_iff_not]
  constructor
  · intro hd
    rw [if_neg (by rw [abs_lt]; rintro ⟨h1, _⟩; linarith), if_pos (by linarith)]
    exact ⟨rfl, by linarith⟩
  · intro hd
    rw [if_neg (by rw [abs_lt]; rintro ⟨_, h1⟩; linarith), if_neg (by linarith)]
    exact ⟨rfl, by linarith⟩

example : contains sampleBox ⟨1 / 2, 1, 2⟩ = true := by
  rw [C43_contains]; norm_num [Open, sampleBox, abs_lt]

example : inside sampleBox ⟨2, 0, 0⟩ = .outside := by
  rw [(C43_outside _ _).1]; left
  have := kHalfTolerance_le
  norm_num [sampleBox]; linarith

/-! ## Distances -/

/-- C43: a finite distance to enter is the first parameter at which the ray is in the box; the point is on the boundary
and is followed by a stretch of interior points that ends more than half the tolerance ahead. -/
theorem C43_distance_in {h : V3} (hh : Proper h) {p d : V3} (hfin : distanceToIn h p d < kInfLength) :
    Boundary h (V3.at' p d.nonZero (distanceToIn h p d)) ∧
    (∀ t, Closed h (V3.at' p d.nonZero t) → distanceToIn h p d ≤ t) ∧
    ∃ e, distanceToIn h p d < e ∧ kHalfTolerance < e ∧
      ∀ t, distanceToIn h p d < t → t < e → Open h (V3.at' p d.nonZero t) := by
  rw [distanceToIn_eq] at hfin ⊢
  split at hfin
  · exact absurd hfin (lt_irrefl _)
  · rename_i hc
    rw [if_neg hc]
    push Not at hc
    obtain ⟨h1, h2, _⟩ := hc
    exact ⟨boundary_in hh h1.le, fun t ht => ((closed_at ..).mp ht).1, _, h1, h2,
      fun t ht1 ht2 => (open_at ..).mpr ⟨ht1, ht2⟩⟩

/-- C43: completeness.  If the ray is somewhere ahead (by more than half the tolerance) deeper than half the tolerance
in the box, the distance to enter is found and is not larger. -/
theorem C43_distance_in_complete {h : V3} (hh : Proper h) {p d : V3} {t : ℝ} (ht : kHalfTolerance < t)
    (hin : Deep h kHalfTolerance (V3.at' p d.nonZero t)) :
    distanceToIn h p d ≤ t ∧ Boundary h (V3.at' p d.nonZero (distanceToIn h p d)) := by
  have hp := kHalfTolerance_pos
  have hop : Open h (V3.at' p d.nonZero t) := ⟨by linarith [hin.1], by linarith [hin.2.1], by linarith [hin.2.2]⟩
  obtain ⟨h1, h2⟩ := (open_at ..).mp hop
  have hne : ¬ ((vIn h p d).maxc ≥ (vOut h p d).minc ∨ (vOut h p d).minc ≤ kHalfTolerance ∨
      |(orth h p d).minc| ≤ kHalfTolerance) := by
    rintro (hc | hc | hc)
    · linarith
    · linarith
    · have := (le_abs_self _).trans hc
      rw [V3.minc_le] at this
      rcases this with hx | hx | hx
      · have := exit_near (t := t) (by linarith) hx
        exact absurd hin.1 (not_lt.mpr this)
      · have := exit_near (t := t) (by linarith) hx
        exact absurd hin.2.1 (not_lt.mpr this)
      · have := exit_near (t := t) (by linarith) hx
        exact absurd hin.2.2 (not_lt.mpr this)
  rw [distanceToIn_eq, if_neg hne]
  exact ⟨h1.le, boundary_in hh (by linarith)⟩

theorem nonZero_close (x d t : ℝ) (ht : 0 ≤ t) : |x + t * nonZero d| ≤ |x + t * d| + t * kTiny := by
  have h1 : x + t * nonZero d = (x + t * d) + t * (nonZero d - d) := by ring
  rw [h1]
  refine (abs_add_le _ _).trans ?_
  rw [abs_mul, abs_nonZero_sub, abs_of_nonneg ht]

/-- C43: completeness for the true ray, the depth being increased by the effect of the perturbation of the direction. -/
theorem C43_distance_in_true_ray {h : V3} (hh : Proper h) {p d : V3} {t : ℝ} (ht : kHalfTolerance < t)
    (hin : Deep h (kHalfTolerance + t * kTiny) (V3.at' p d t)) : distanceToIn h p d ≤ t := by
  have hp := kHalfTolerance_pos
  refine (C43_distance_in_complete hh ht ?_).1
  obtain ⟨h1, h2, h3⟩ := hin
  simp only [V3.at_x, V3.at_y, V3.at_z] at h1 h2 h3
  have := nonZero_close p.x d.x t (by linarith)
  have := nonZero_close p.y d.y t (by linarith)
  have := nonZero_close p.z d.z t (by linarith)
  refine ⟨?_, ?_, ?_⟩ <;>
    simp only [V3.at_x, V3.at_y, V3.at_z, V3.nonZero_x, V3.nonZero_y, V3.nonZero_z] <;> linarith

example : Deep sampleBox (kHalfTolerance + 5 * kTiny) (V3.at' ⟨-5, 0, 0⟩ ⟨1, 0, 0⟩ 5) := by
  have := kHalfTolerance_le
  have := kTiny_le
  norm_num [Deep, sampleBox]
  refine ⟨?_, ?_, ?_⟩ <;> linarith

/-- C43: the distance to leave for a point of the box: all points before it are in the box, the point is on the boundary
and all later points of the ray are outside. -/
theorem C43_distance_out {h : V3} (hh : Proper h) {p d : V3} (hp : Closed h p) :
    0 ≤ distanceToOut h p d ∧ Boundary h (V3.at' p d.nonZero (distanceToOut h p d)) ∧
    (∀ t, 0 ≤ t → t ≤ distanceToOut h p d → Closed h (V3.at' p d.nonZero t)) ∧
    (∀ t, distanceToOut h p d < t → ¬ Closed h (V3.at' p d.nonZero t)) := by
  have ht := kHalfTolerance_pos
  have h0 : ¬ V3.maxc (p.vabs - h) > kHalfTolerance := by
    have := (closed_iff h p).mp hp
    linarith
  rw [distanceToOut_eq, if_neg h0]
  have := (closed_at h p d 0).mp (by rw [at_zero]; exact hp)
  exact ⟨this.2, boundary_out hh (this.1.trans this.2), fun t h1 h2 => (closed_at ..).mpr ⟨by linarith, h2⟩,
    fun t h1 h2 => absurd ((closed_at ..).mp h2).2 (not_le.mpr h1)⟩

/-- C43: the distance to leave of a point of the open box is positive. -/
theorem C43_distance_out_pos {h : V3} {p d : V3} (hp : Open h p) : 0 < distanceToOut h p d := by
  have ht := kHalfTolerance_pos
  have h0 : ¬ V3.maxc (p.vabs - h) > kHalfTolerance := by
    have := (open_iff h p).mp hp
    linarith
  rw [distanceToOut_eq, if_neg h0]
  exact ((open_at h p d 0).mp (by rw [at_zero]; exact hp)).2

/-- C43: wrong side convention: points outside beyond the tolerance get the distance -1. -/
theorem C43_distance_out_wrong_side {h p d : V3}
    (hp : h.x + kHalfTolerance < |p.x| ∨ h.y + kHalfTolerance < |p.y| ∨ h.z + kHalfTolerance < |p.z|) :
    distanceToOut h p d = -1 := by
  have h0 : V3.maxc (p.vabs - h) > kHalfTolerance := by
    simp only [V3.maxc, gt_iff_lt, lt_max_iff, V3.sub_x, V3.sub_y, V3.sub_z, V3.vabs_x, V3.vabs_y, V3.vabs_z]
    rcases hp with hp | hp | hp
    · exact Or.inl (Or.inl (by linarith))
    · exact Or.inl (Or.inr (by linarith))
    · exact Or.inr (by linarith)
  rw [distanceToOut_eq, if_pos h0]

example : Closed sampleBox ⟨1, -2, 1 / 2⟩ := by norm_num [Closed, sampleBox, abs_le]

/-- C43: the two distances agree: a ray that starts outside, ahead of the box, leaves the box at the distance to enter
plus the distance to leave from the entry point. -/
theorem C43_in_then_out {h : V3} (hh : Proper h) {p d : V3} (hfin : distanceToIn h p d < kInfLength) :
    ∀ t, distanceToIn h p d ≤ t →
      (Closed h (V3.at' p d.nonZero t) ↔
        t ≤ distanceToIn h p d + distanceToOut h (V3.at' p d.nonZero (distanceToIn h p d)) d) := by
  intro t ht
  have hb := (C43_distance_in hh hfin).1
  obtain ⟨_, _, h3, h4⟩ := C43_distance_out hh (d := d) hb.1
  have e : ∀ s, V3.at' (V3.at' p d.nonZero (distanceToIn h p d)) d.nonZero s =
      V3.at' p d.nonZero (distanceToIn h p d + s) := by
    intro s; ext <;> simp <;> ring
  constructor
  · intro hc
    by_contra hlt
    push Not at hlt
    refine h4 (t - distanceToIn h p d) (by linarith) ?_
    rw [e]; convert hc using 2; ring
  · intro hle
    have := h3 (t - distanceToIn h p d) (by linarith) (by linarith)
    rw [e] at this; convert this using 2; ring

theorem sample_in_hit : distanceToIn sampleBox ⟨-5, 0, 0⟩ ⟨1, 0, 0⟩ < kInfLength := by
  have h1 := kHalfTolerance_le
  have h2 := kTiny_le
  have h3 := kTiny_pos
  have := C43_distance_in_true_ray sampleBox_proper (p := ⟨-5, 0, 0⟩) (d := ⟨1, 0, 0⟩) (t := 5) (by linarith) (by
    norm_num [Deep, sampleBox]
    refine ⟨?_, ?_, ?_⟩ <;> linarith)
  refine this.trans_lt ?_
  unfold kInfLength
  have h4 : (2 : ℝ) ^ 10 ≤ 2 ^ 1023 := pow_le_pow_right₀ (by norm_num) (by norm_num)
  have h5 : (2 : ℝ) ^ 10 ≤ (2 - 1 / 2 ^ 52) * 2 ^ 1023 := by
    have h6 : (1 : ℝ) ≤ 2 - 1 / 2 ^ 52 := by norm_num
    calc (2 : ℝ) ^ 10 ≤ 1 * 2 ^ 1023 := by rw [one_mul]; exact h4
      _ ≤ _ := mul_le_mul_of_nonneg_right h6 (by positivity)
  exact lt_of_lt_of_le (by norm_num) h5

/-- C43: for a point on the surface, within the tolerance outside of a face, a direction parallel to the face gives a
distance to leave below `-10^20`. -/
theorem C43_distance_out_negative_counterexample :
    ∃ p d : V3, inside sampleBox p = .surface ∧ d.x ^ 2 + d.y ^ 2 + d.z ^ 2 = 1 ∧
      distanceToOut sampleBox p d < -10 ^ 20 := by
  have ht := kHalfTolerance_pos
  have htl := kHalfTolerance_le
  have hm : V3.maxc (V3.vabs ⟨1 + kHalfTolerance / 2, 0, 0⟩ - sampleBox) = kHalfTolerance / 2 := by
    simp only [V3.maxc, V3.sub_x, V3.sub_y, V3.sub_z, V3.vabs_x, V3.vabs_y, V3.vabs_z, sampleBox, abs_zero]
    rw [abs_of_pos (by linarith), max_eq_left, max_eq_left]
    · ring
    · linarith
    · rw [max_eq_left] <;> linarith
  refine ⟨⟨1 + kHalfTolerance / 2, 0, 0⟩, ⟨0, 1, 0⟩, ?_, by norm_num, ?_⟩
  · unfold inside
    dsimp only
    rw [hm, if_pos]
    rw [abs_of_pos] <;> linarith
  · rw [distanceToOut_eq, hm, if_neg (by linarith)]
    refine lt_of_le_of_lt ((V3.minc_le (c := tOut 1 (1 + kHalfTolerance / 2) 0)).mpr (Or.inl le_rfl)) ?_
    have e : tOut 1 (1 + kHalfTolerance / 2) 0 = -(kHalfTolerance / 2) * (1 / kTiny) := by
      unfold tOut nonZero copySign sign
      norm_num
    rw [e]
    unfold kHalfTolerance kTolerance kTiny
    norm_num

/-! ## Safeties -/

/-- C43: the safety to enter does not exceed the distance to any point of the box. -/
theorem C43_safety_in {h p q : V3} (hq : Closed h q) : safetyToIn h p ≤ V3.dist p q := by
  obtain ⟨q1, q2, q3⟩ := hq
  unfold safetyToIn
  rw [V3.maxc_le]
  simp only [V3.sub_x, V3.sub_y, V3.sub_z, V3.vabs_x, V3.vabs_y, V3.vabs_z]
  rw [dist_comm]
  have := abs_diff_x q p
  have := abs_diff_y q p
  have := abs_diff_z q p
  exact ⟨by linarith, by linarith, by linarith⟩

/-- C43: sign of the safety to enter: negative exactly for interior, zero exactly for boundary points. -/
theorem C43_safety_in_sign (h p : V3) :
    (safetyToIn h p < 0 ↔ Open h p) ∧ (safetyToIn h p ≤ 0 ↔ Closed h p) :=
  ⟨(open_iff h p).symm, (closed_iff h p).symm⟩

/-- C43: the safety to leave of a point of the box is the exact distance to the boundary: no nearer point is outside and
some boundary point has this distance. -/
theorem C43_safety_out {h p : V3} (hh : Proper h) (hp : Closed h p) :
    0 ≤ safetyToOut h p ∧ (∀ q, V3.dist p q ≤ safetyToOut h p → Closed h q) ∧
    ∃ q, Boundary h q ∧ V3.dist p q = safetyToOut h p := by
  obtain ⟨p1, p2, p3⟩ := hp
  have hle : safetyToOut h p ≤ h.x - |p.x| ∧ safetyToOut h p ≤ h.y - |p.y| ∧ safetyToOut h p ≤ h.z - |p.z| := by
    have : safetyToOut h p ≤ safetyToOut h p := le_rfl
    conv at this => rhs; unfold safetyToOut
    rw [V3.le_minc] at this
    simpa using this
  refine ⟨?_, ?_, ?_⟩
  · unfold safetyToOut; rw [V3.le_minc]; simp; exact ⟨p1, p2, p3⟩
  · intro q hq
    have := abs_diff_x p q
    have := abs_diff_y p q
    have := abs_diff_z p q
    exact ⟨by linarith, by linarith, by linarith⟩
  · rcases V3.minc_cases (h - p.vabs) with e | e | e
    · have hs := same_side p.x h.x hh.1.le
      refine ⟨⟨sign p.x * h.x, p.y, p.z⟩, ⟨⟨hs.1.le, p2, p3⟩, Or.inl hs.1⟩, ?_⟩
      rw [dist_x, hs.2, abs_sub_comm, abs_of_nonneg (by linarith)]
      exact e.symm
    · have hs := same_side p.y h.y hh.2.1.le
      refine ⟨⟨p.x, sign p.y * h.y, p.z⟩, ⟨⟨p1, hs.1.le, p3⟩, Or.inr (Or.inl hs.1)⟩, ?_⟩
      rw [dist_y, hs.2, abs_sub_comm, abs_of_nonneg (by linarith)]
      exact e.symm
    · have hs := same_side p.z h.z hh.2.2.le
      refine ⟨⟨p.x, p.y, sign p.z * h.z⟩, ⟨⟨p1, p2, hs.1.le⟩, Or.inr (Or.inr hs.1)⟩, ?_⟩
      rw [dist_z, hs.2, abs_sub_comm, abs_of_nonneg (by linarith)]
      exact e.symm

/-- C43: the two safeties are opposite for every point, so that the wrong side is reported as a nonpositive value. -/
theorem C43_safeties_opposite (h p : V3) : safetyToOut h p = -safetyToIn h p := safety_neg h p

/-! ## Normal, sampling and extent -/

/-- C43: the normal is always a unit vector, valid or not. -/
theorem C43_normal_unit (h p : V3) : (normalKernel h p).1.mag2 = 1 := by
  have ht := kHalfTolerance_pos
  unfold normalKernel
  dsimp only
  set sf := V3.vabs (p.vabs - h) with hsf
  set n : V3 := ⟨if sf.x - sf.minc < kHalfTolerance then sign p.x else 0,
    if sf.y - sf.minc < kHalfTolerance then sign p.y else 0,
    if sf.z - sf.minc < kHalfTolerance then sign p.z else 0⟩ with hn
  have hx : n.x * n.x = 0 ∨ n.x * n.x = 1 := by
    rw [hn]; dsimp only; split
    · exact Or.inr (sign_mul_self _)
    · exact Or.inl (by ring)
  have hy : n.y * n.y = 0 ∨ n.y * n.y = 1 := by
    rw [hn]; dsimp only; split
    · exact Or.inr (sign_mul_self _)
    · exact Or.inl (by ring)
  have hz : n.z * n.z = 0 ∨ n.z * n.z = 1 := by
    rw [hn]; dsimp only; split
    · exact Or.inr (sign_mul_self _)
    · exact Or.inl (by ring)
  have hone : n.x * n.x = 1 ∨ n.y * n.y = 1 ∨ n.z * n.z = 1 := by
    rcases V3.minc_cases sf with e | e | e
    · left; rw [hn]; dsimp only; rw [if_pos (by linarith)]; exact sign_mul_self _
    · right; left; rw [hn]; dsimp only; rw [if_pos (by linarith)]; exact sign_mul_self _
    · right; right; rw [hn]; dsimp only; rw [if_pos (by linarith)]; exact sign_mul_self _
  have hm : n.mag2 = n.x * n.x + n.y * n.y + n.z * n.z := rfl
  have hge : 1 ≤ n.mag2 := by
    rw [hm]
    rcases hone with h1 | h1 | h1 <;> linarith [mul_self_nonneg n.x, mul_self_nonneg n.y, mul_self_nonneg n.z]
  split
  · have hsq : n.mag * n.mag = n.mag2 := Real.mul_self_sqrt (by linarith)
    have hne : n.mag ≠ 0 := by
      intro h0; rw [h0] at hsq; linarith
    have e : (V3.smul (1 / n.mag) n).mag2 = (1 / n.mag) * (1 / n.mag) * n.mag2 := by
      simp only [V3.mag2, V3.dot, V3.smul_x, V3.smul_y, V3.smul_z]; ring
    rw [e, ← hsq]
    field_simp
  · rename_i hle
    linarith

open Classical in
theorem normalize_form (n : V3) : ∃ c : ℝ, 0 ≤ c ∧ c ≤ 1 ∧
    (if n.mag2 > 1 then V3.smul (1 / n.mag) n else n) = V3.smul c n := by
  split
  · rename_i hg
    refine ⟨_, ?_, ?_, rfl⟩
    · exact div_nonneg zero_le_one (Real.sqrt_nonneg _)
    · have h1 : (1 : ℝ) ≤ n.mag := Real.one_le_sqrt.mpr (le_of_lt hg)
      rw [div_le_one (by linarith)]
      exact h1
  · refine ⟨1, zero_le_one, le_rfl, ?_⟩
    ext <;> simp

/-- The normal is a nonnegative multiple, at most one, of the vector of signs of the coordinates that are close to their
face. -/
theorem normal_form (h p : V3) : ∃ c : ℝ, 0 ≤ c ∧ c ≤ 1 ∧
    (normalKernel h p).1 = V3.smul c
      ⟨if |(|p.x| - h.x)| - (V3.vabs (p.vabs - h)).minc < kHalfTolerance then sign p.x else 0,
       if |(|p.y| - h.y)| - (V3.vabs (p.vabs - h)).minc < kHalfTolerance then sign p.y else 0,
       if |(|p.z| - h.z)| - (V3.vabs (p.vabs - h)).minc < kHalfTolerance then sign p.z else 0⟩ := by
  unfold normalKernel
  exact normalize_form _

theorem normal_axis {h p q c s m : ℝ} (hc0 : 0 ≤ c) (hc1 : c ≤ 1) (hq : |q| ≤ h) (hm : s - m < kHalfTolerance → h - |p| < kHalfTolerance) :
    c * (if s - m < kHalfTolerance then sign p else 0) * (q - p) ≤ kHalfTolerance := by
  have ht := kHalfTolerance_pos
  split
  · rename_i hlt
    have h1 := hm hlt
    have h2 : sign p * (q - p) ≤ h - |p| := by
      have := (abs_le.mp hq)
      rcases sign_cases p with ⟨hp, hs⟩ | ⟨hp, hs⟩ <;> rw [hs]
      · rw [abs_of_neg hp]; linarith
      · rw [abs_of_nonneg hp]; linarith
    have h3 : sign p * (q - p) ≤ kHalfTolerance := by linarith
    rw [mul_assoc]
    nlinarith
  · rw [mul_zero, zero_mul]; exact ht.le

/-- C43: on the boundary the normal is valid and points outwards: no point of the box is farther in its direction than
the point itself by more than one and a half tolerances. -/
theorem C43_normal_outward {h p : V3} (hp : Boundary h p) :
    (normalKernel h p).2 = true ∧
    ∀ q, Closed h q → (normalKernel h p).1.dot (q - p) ≤ 3 * kHalfTolerance := by
  have ht := kHalfTolerance_pos
  have hmin : (V3.vabs (p.vabs - h)).minc = 0 := by
    apply le_antisymm
    · rw [V3.minc_le]
      rcases hp.2 with e | e | e
      · left; simp [e]
      · right; left; simp [e]
      · right; right; simp [e]
    · rw [V3.le_minc]
      exact ⟨abs_nonneg _, abs_nonneg _, abs_nonneg _⟩
  constructor
  · unfold normalKernel
    simp only [decide_eq_true_eq, hmin]
    exact ht
  · intro q ⟨q1, q2, q3⟩
    obtain ⟨c, h0, h1, e⟩ := normal_form h p
    have side : ∀ x a : ℝ, |(|x| - a)| - 0 < kHalfTolerance → a - |x| < kHalfTolerance := by
      intro x a hlt
      have := neg_le_abs (|x| - a)
      linarith
    rw [e, hmin]
    have a1 := normal_axis (p := p.x) (s := |(|p.x| - h.x)|) (m := 0) h0 h1 q1 (side _ _)
    have a2 := normal_axis (p := p.y) (s := |(|p.y| - h.y)|) (m := 0) h0 h1 q2 (side _ _)
    have a3 := normal_axis (p := p.z) (s := |(|p.z| - h.z)|) (m := 0) h0 h1 q3 (side _ _)
    simp only [V3.dot, V3.smul_x, V3.smul_y, V3.smul_z, V3.sub_x, V3.sub_y, V3.sub_z]
    linarith

/-- C43: close to one face only, the normal is exactly the outward normal of this face (stated for the `x` faces). -/
theorem C43_normal_face {h p : V3} (hx : |p.x| = h.x) (hy : kHalfTolerance ≤ h.y - |p.y|)
    (hz : kHalfTolerance ≤ h.z - |p.z|) : normalKernel h p = (⟨sign p.x, 0, 0⟩, true) := by
  have ht := kHalfTolerance_pos
  have e : V3.vabs (p.vabs - h) = ⟨0, h.y - |p.y|, h.z - |p.z|⟩ := by
    ext
    · simp [hx]
    · simp only [V3.vabs_y, V3.sub_y]; rw [abs_sub_comm, abs_of_nonneg (by linarith)]
    · simp only [V3.vabs_z, V3.sub_z]; rw [abs_sub_comm, abs_of_nonneg (by linarith)]
  have em : V3.minc ⟨0, h.y - |p.y|, h.z - |p.z|⟩ = 0 := by
    unfold V3.minc
    dsimp only
    rw [min_eq_left (show (0 : ℝ) ≤ h.y - |p.y| by linarith), min_eq_left (show (0 : ℝ) ≤ h.z - |p.z| by linarith)]
  unfold normalKernel
  rw [e]
  dsimp only
  rw [em]
  simp only [if_pos (show (0 : ℝ) - 0 < kHalfTolerance by linarith),
    if_neg (show ¬ h.y - |p.y| - 0 < kHalfTolerance by linarith),
    if_neg (show ¬ h.z - |p.z| - 0 < kHalfTolerance by linarith)]
  rw [if_neg]
  · simp [ht]
  · have := sign_mul_self p.x
    simp only [V3.mag2, V3.dot]
    linarith

example : Boundary sampleBox ⟨1, 0, 0⟩ := by norm_num [Boundary, Closed, sampleBox]

/-- C43: a normal is also called valid for points far away from the box that lie in the plane of a face. -/
theorem C43_normal_far_counterexample :
    ∃ p : V3, inside sampleBox p = .outside ∧ safetyToIn sampleBox p = 998 ∧ (normalKernel sampleBox p).2 = true := by
  have ht := kHalfTolerance_pos
  have htl := kHalfTolerance_le
  refine ⟨⟨1, 1000, 0⟩, ?_, ?_, ?_⟩
  · rw [(C43_outside _ _).1]; right; left
    norm_num [sampleBox]; linarith
  · norm_num [safetyToIn, V3.maxc, sampleBox]
  · norm_num [normalKernel, V3.minc, sampleBox]
    exact ht

theorem axisLoop_some {a b c r : ℝ} (h : r ≤ a + b + c) :
    ∃ k, axisLoop [a, b, c] r 0 = some k ∧ k ≤ 2 := by
  unfold axisLoop
  split
  · unfold axisLoop
    split
    · unfold axisLoop
      rw [if_neg (by linarith)]
      exact ⟨_, rfl, by norm_num⟩
    · exact ⟨_, rfl, by norm_num⟩
  · exact ⟨_, rfl, by norm_num⟩

/-- C43: each sampled point is on the boundary, for all random numbers. -/
theorem C43_sample {h : V3} (hh : Proper h) {u u1 u2 : ℝ} (hu : |u| ≤ 1) (hu1 : |u1| ≤ 1) (hu2 : |u2| ≤ 1) :
    ∃ q, samplePointOnSurface h u u1 u2 = some q ∧ Boundary h q := by
  obtain ⟨hx, hy, hz⟩ := hh
  have hs : 0 < h.y * h.z + h.x * h.z + h.x * h.y := by positivity
  obtain ⟨k, hk, hk2⟩ := axisLoop_some (a := h.y * h.z) (b := h.x * h.z) (c := h.x * h.y)
    (r := |(h.y * h.z + h.x * h.z + h.x * h.y) * u|) (by
      rw [abs_mul, abs_of_pos hs]; nlinarith)
  have hl : ∀ a v : ℝ, 0 < a → |v| ≤ 1 → |a * v| ≤ a := by
    intro a v ha hv
    rw [abs_mul, abs_of_pos ha]
    nlinarith
  have hd : ∀ a r : ℝ, 0 < a → |(if r < 0 then (-1 : ℝ) else 1) * a| = a := by
    intro a r ha
    split <;> simp [abs_of_pos ha]
  unfold samplePointOnSurface
  simp only [hk]
  split
  · refine ⟨_, rfl, ⟨?_, hl _ _ hy hu1, hl _ _ hz hu2⟩, Or.inl ?_⟩
    · exact (hd _ _ hx).le
    · exact hd _ _ hx
  · split
    · refine ⟨_, rfl, ⟨hl _ _ hx hu1, ?_, hl _ _ hz hu2⟩, Or.inr (Or.inl ?_)⟩
      · exact (hd _ _ hy).le
      · exact hd _ _ hy
    · refine ⟨_, rfl, ⟨hl _ _ hx hu1, hl _ _ hy hu2, ?_⟩, Or.inr (Or.inr ?_)⟩
      · exact (hd _ _ hz).le
      · exact hd _ _ hz

/-- C43: each of the six faces can be hit by the sampling: for every axis and side some random number selects it. -/
theorem C43_sample_faces {h : V3} (hh : Proper h) :
    (∃ u, |u| ≤ 1 ∧ samplePointOnSurface h u 0 0 = some ⟨h.x, 0, 0⟩) ∧
    (∃ u, |u| ≤ 1 ∧ samplePointOnSurface h u 0 0 = some ⟨-h.x, 0, 0⟩) ∧
    (∃ u, |u| ≤ 1 ∧ samplePointOnSurface h u 0 0 = some ⟨0, h.y, 0⟩) ∧
    (∃ u, |u| ≤ 1 ∧ samplePointOnSurface h u 0 0 = some ⟨0, -h.y, 0⟩) ∧
    (∃ u, |u| ≤ 1 ∧ samplePointOnSurface h u 0 0 = some ⟨0, 0, h.z⟩) ∧
    (∃ u, |u| ≤ 1 ∧ samplePointOnSurface h u 0 0 = some ⟨0, 0, -h.z⟩) := by
  obtain ⟨hx, hy, hz⟩ := hh
  have p0 : 0 < h.y * h.z := by positivity
  have p1 : 0 < h.x * h.z := by positivity
  have p2 : 0 < h.x * h.y := by positivity
  set s0 := h.y * h.z with e0
  set s1 := h.x * h.z with e1
  set s2 := h.x * h.y with e2
  have hs : 0 < s0 + s1 + s2 := by positivity
  have mk : ∀ r : ℝ, |r| ≤ s0 + s1 + s2 → |r / (s0 + s1 + s2)| ≤ 1 ∧ (s0 + s1 + s2) * (r / (s0 + s1 + s2)) = r := by
    intro r hr
    refine ⟨?_, by field_simp⟩
    rw [abs_div, abs_of_pos hs, div_le_one hs]
    exact hr
  have go : ∀ r : ℝ, |r| ≤ s0 + s1 + s2 → ∃ u, |u| ≤ 1 ∧ (s0 + s1 + s2) * u = r :=
    fun r hr => ⟨_, mk r hr⟩
  refine ⟨?_, ?_, ?_, ?_, ?_, ?_⟩
  · obtain ⟨u, hu, hr⟩ := go s0 (by rw [abs_of_pos p0]; linarith)
    refine ⟨u, hu, ?_⟩
    unfold samplePointOnSurface
    simp only [← e0, ← e1, ← e2, hr, abs_of_pos p0, axisLoop, lt_irrefl, gt_iff_lt, if_false, if_true, if_neg (not_lt.mpr p0.le)]
    simp
  · obtain ⟨u, hu, hr⟩ := go (-s0) (by rw [abs_neg, abs_of_pos p0]; linarith)
    refine ⟨u, hu, ?_⟩
    unfold samplePointOnSurface
    simp only [← e0, ← e1, ← e2, hr, abs_neg, abs_of_pos p0, axisLoop, lt_irrefl, gt_iff_lt, if_false, if_true, if_pos (neg_lt_zero.mpr p0)]
    simp
  · obtain ⟨u, hu, hr⟩ := go (s0 + s1) (by rw [abs_of_pos (by linarith)]; linarith)
    refine ⟨u, hu, ?_⟩
    unfold samplePointOnSurface
    simp only [← e0, ← e1, ← e2, hr, abs_of_pos (show 0 < s0 + s1 by linarith), axisLoop, gt_iff_lt, if_pos (show s0 < s0 + s1 by linarith),
      if_neg (show ¬ s1 < s0 + s1 - s0 by linarith), if_neg (show ¬ s0 + s1 < 0 by linarith)]
    simp
  · obtain ⟨u, hu, hr⟩ := go (-(s0 + s1)) (by rw [abs_neg, abs_of_pos (by linarith)]; linarith)
    refine ⟨u, hu, ?_⟩
    unfold samplePointOnSurface
    simp only [← e0, ← e1, ← e2, hr, abs_neg, abs_of_pos (show 0 < s0 + s1 by linarith), axisLoop, gt_iff_lt, if_pos (show s0 < s0 + s1 by linarith),
      if_neg (show ¬ s1 < s0 + s1 - s0 by linarith), if_pos (show -(s0 + s1) < 0 by linarith)]
    simp
  · obtain ⟨u, hu, hr⟩ := go (s0 + s1 + s2) (by rw [abs_of_pos (by linarith)])
    refine ⟨u, hu, ?_⟩
    unfold samplePointOnSurface
    simp only [← e0, ← e1, ← e2, hr, abs_of_pos hs, axisLoop, gt_iff_lt, if_pos (show s0 < s0 + s1 + s2 by linarith),
      if_pos (show s1 < s0 + s1 + s2 - s0 by linarith), if_neg (show ¬ s2 < s0 + s1 + s2 - s0 - s1 by linarith),
      if_neg (show ¬ s0 + s1 + s2 < 0 by linarith)]
    simp
  · obtain ⟨u, hu, hr⟩ := go (-(s0 + s1 + s2)) (by rw [abs_neg, abs_of_pos (by linarith)])
    refine ⟨u, hu, ?_⟩
    unfold samplePointOnSurface
    simp only [← e0, ← e1, ← e2, hr, abs_neg, abs_of_pos hs, axisLoop, gt_iff_lt, if_pos (show s0 < s0 + s1 + s2 by linarith),
      if_pos (show s1 < s0 + s1 + s2 - s0 by linarith), if_neg (show ¬ s2 < s0 + s1 + s2 - s0 - s1 by linarith),
      if_pos (show -(s0 + s1 + s2) < 0 by linarith)]
    simp

/-- C43: the extent is exactly the set of points of the closed box. -/
theorem C43_extent (h q : V3) :
    Closed h q ↔ ((extent h).1.x ≤ q.x ∧ q.x ≤ (extent h).2.x) ∧ ((extent h).1.y ≤ q.y ∧ q.y ≤ (extent h).2.y) ∧
      ((extent h).1.z ≤ q.z ∧ q.z ≤ (extent h).2.z) := by
  simp [Closed, extent, abs_le]

end BoxSolid
end VecGeom
