import Verif.CutTube.Props
import Verif.Tube.PropsIn

/-!
# Properties of cut tubes: the way in
-/

namespace VecGeom
namespace CutTube

open Real

variable {a : Par} {p d : V3}

/-- How far `DistanceToIn` moves a point towards the solid before anything else. -/
noncomputable def Par.skip (a : Par) (p : V3) : ℝ := max 0 (p.mag - 100 * max a.rmax a.z)

/-- The point is not in the layer of the thickness of the tolerance below one of the planes. -/
structure Par.Clear (a : Par) (p : V3) : Prop where
  bot : 0 ≤ a.bottom p ∨ a.bottom p ≤ -kTolerance
  top : 0 ≤ a.top p ∨ a.top p ≤ -kTolerance

theorem distanceToIn_eq (a : Par) (p d : V3) (m : ℝ) :
    distanceToIn (of a) p d m = distanceToInKernel (of a) (V3.at' p d (a.skip p)) d m + a.skip p := by
  unfold distanceToIn Par.skip
  have hmv : (of a).maxVal = max a.rmax a.z := rfl
  dsimp only
  rw [hmv]
  by_cases h : p.mag > 100 * max a.rmax a.z
  · rw [if_pos h, if_pos h, max_eq_right (a := 0) (by linarith)]
  · rw [if_neg h, if_neg h, max_eq_left (a := 0) (by linarith), show V3.at' p d 0 = p by ext <;> simp]

theorem at_zero (p d : V3) : V3.at' p d 0 = p := by ext <;> simp

/-- The way to one plane, for a point that is not in the layer below it. -/
theorem planeIn_clear {pl : Plane} (h : 0 ≤ distPlane pl p ∨ distPlane pl p ≤ -kTolerance) :
    let x := if d.dot pl.n > 0 then -kInfLength else planeIn pl p d
    (x = -kInfLength ∧ (0 ≤ d.dot pl.n ∨ distPlane pl p ≤ -kTolerance)) ∨
    (0 ≤ distPlane pl p ∧ d.dot pl.n < 0 ∧ 0 ≤ x ∧ x * (d.dot pl.n - kTiny) = -distPlane pl p) := by
  intro x
  have ht := kTolerance_pos
  have he := kTiny_pos
  have ex : x = if d.dot pl.n > 0 then -kInfLength else planeIn pl p d := rfl
  clear_value x
  split at ex
  · rename_i h1
    exact .inl ⟨ex, .inl h1.le⟩
  · rename_i h1
    unfold planeIn at ex
    dsimp only at ex
    rcases (not_lt.mp h1).lt_or_eq with h2 | h2
    · have h3 := nonZero_neg h2
      have e3 : nonZero (d.dot pl.n) = d.dot pl.n - kTiny := by unfold nonZero copySign; rw [if_pos h2]; ring
      rcases h with h | h
      · rw [if_pos ⟨h3, by linarith⟩, e3] at ex
        rw [e3] at h3
        refine .inr ⟨h, h2, ?_, ?_⟩
        · rw [ex]; exact div_nonneg_of_nonpos (by linarith) h3.le
        · rw [ex]; exact div_mul_cancel₀ _ h3.ne
      · rw [if_neg (by intro h4; linarith [h4.2])] at ex
        exact .inl ⟨ex, .inr h⟩
    · rw [if_neg (by intro h4; rw [h2] at h4; linarith [h4.1, nonZero_pos (le_refl (0 : ℝ))])] at ex
      exact .inl ⟨ex, .inl h2.ge⟩

/-- The way to leave one plane, from a point that is not above it by more than the tolerance. -/
theorem planeOut_ge {pl : Plane} {q : V3} {s : ℝ} (hs : 0 ≤ s) (h : s ≤ planeOut pl q d)
    (h0 : distPlane pl q = kTolerance → d.dot pl.n < 0) :
    distPlane pl q + s * d.dot pl.n ≤ kTolerance := by
  have ht := kTolerance_pos
  have he := kTiny_pos
  have hi := kInfLength_pos
  unfold planeOut at h
  dsimp only at h
  split at h
  · rename_i h1
    have h2 : s * nonZero (d.dot pl.n) ≤ -distPlane pl q := by rwa [← le_div_iff₀ h1.1]
    have h3 : d.dot pl.n ≤ nonZero (d.dot pl.n) := by
      have : ¬ d.dot pl.n < 0 := fun h4 => absurd (nonZero_neg h4) (not_lt.mpr h1.1.le)
      unfold nonZero copySign
      rw [if_neg this]; linarith
    nlinarith
  · rename_i h1
    split at h
    · linarith
    · rename_i h2
      push Not at h1
      rcases lt_or_ge (d.dot pl.n) 0 with h3 | h3
      · nlinarith
      · have := h1 (nonZero_pos h3)
        have h4 : distPlane pl q = kTolerance := le_antisymm (not_lt.mp h2) this
        exact absurd (h0 h4) (not_lt.mpr h3)

/-- The other direction: a point whose height stays low enough is not left. -/
theorem planeOut_le {pl : Plane} {q : V3} {s : ℝ} (hs : 0 ≤ s) (hi : s ≤ kInfLength) (h0 : distPlane pl q < kTolerance)
    (h : distPlane pl q + s * d.dot pl.n ≤ -kTiny * s) : s ≤ planeOut pl q d := by
  have he := kTiny_pos
  unfold planeOut
  dsimp only
  rcases lt_or_ge (d.dot pl.n) 0 with h3 | h3
  · rw [if_neg (fun h4 => absurd h4.1 (not_lt.mpr (nonZero_neg h3).le)), if_neg (by linarith)]
    exact hi
  · have h4 := nonZero_pos h3
    rw [if_pos ⟨h4, h0⟩, le_div_iff₀ h4]
    unfold nonZero copySign
    rw [if_neg (not_lt.mpr h3)]
    linarith

theorem cuts_in_eq (hv : a.Valid) (p d : V3) :
    (of a).cuts.distanceToIn p d = max (if d.dot (of a).cuts.p0.n > 0 then -kInfLength else planeIn (of a).cuts.p0 p d)
      (if d.dot (of a).cuts.p1.n > 0 then -kInfLength else planeIn (of a).cuts.p1 p d) := by
  unfold Cuts.distanceToIn
  dsimp only

/-- The way to the planes from a clear point: nothing to hit, or the distance to one of the planes (up to the guard). -/
theorem cuts_in_clear (hv : a.Valid) (hc : a.Clear p) :
    let x := (of a).cuts.distanceToIn p d
    (x = -kInfLength ∧ (0 ≤ vb a d ∨ a.bottom p ≤ -kTolerance) ∧ (0 ≤ vt a d ∨ a.top p ≤ -kTolerance)) ∨
    (0 ≤ x ∧ (0 ≤ a.bottom p → vb a d < 0 → a.bottom p ≤ x * (kTiny - vb a d)) ∧ (0 ≤ a.top p → vt a d < 0 → a.top p ≤ x * (kTiny - vt a d)) ∧
      ((0 ≤ a.bottom p ∧ vb a d < 0 ∧ a.bottom p = x * (kTiny - vb a d)) ∨ (0 ≤ a.top p ∧ vt a d < 0 ∧ a.top p = x * (kTiny - vt a d)))) := by
  have hi := kInfLength_pos
  have ht := kTolerance_pos
  have he := kTiny_pos
  intro x
  have ex : x = _ := cuts_in_eq hv p d
  clear_value x
  have h0 := planeIn_clear (p := p) (d := d) (pl := (of a).cuts.p0) (by rw [dist_p0 hv]; exact hc.bot)
  have h1 := planeIn_clear (p := p) (d := d) (pl := (of a).cuts.p1) (by rw [dist_p1 hv]; exact hc.top)
  dsimp only at h0 h1
  generalize (if d.dot (of a).cuts.p0.n > 0 then -kInfLength else planeIn (of a).cuts.p0 p d) = u at *
  generalize (if d.dot (of a).cuts.p1.n > 0 then -kInfLength else planeIn (of a).cuts.p1 p d) = w at *
  rw [dist_p0 hv, dot_p0 hv] at h0
  rw [dist_p1 hv, dot_p1 hv] at h1
  rcases h0 with ⟨h0, h2⟩ | ⟨h0, h2, h3, h4⟩
  · rcases h1 with ⟨h1, h5⟩ | ⟨h1, h5, h6, h7⟩
    · left
      exact ⟨by rw [ex, h0, h1, max_self], h2, h5⟩
    · right
      have : x = w := by rw [ex, h0]; exact max_eq_right (by linarith)
      rw [this]
      refine ⟨h6, fun g1 g2 => ?_, fun _ _ => by linarith, .inr ⟨h1, h5, by linarith⟩⟩
      rcases h2 with h2 | h2 <;> linarith
  · rcases h1 with ⟨h1, h5⟩ | ⟨h1, h5, h6, h7⟩
    · right
      have : x = u := by rw [ex, h1]; exact max_eq_left (by linarith)
      rw [this]
      refine ⟨h3, fun _ _ => by linarith, fun g1 g2 => ?_, .inl ⟨h0, h2, by linarith⟩⟩
      rcases h5 with h5 | h5 <;> linarith
    · right
      have g1 : u ≤ x := ex ▸ le_max_left _ _
      have g2 : w ≤ x := ex ▸ le_max_right _ _
      refine ⟨by linarith, fun _ _ => by nlinarith, fun _ _ => by nlinarith, ?_⟩
      rcases max_choice u w with h | h
      · left; rw [ex, h]; exact ⟨h0, h2, by linarith⟩
      · right; rw [ex, h]; exact ⟨h1, h5, by linarith⟩

theorem safety_cuts (hv : a.Valid) (p : V3) : (of a).cuts.safetyToIn p = max (a.bottom p) (a.top p) := by
  unfold Cuts.safetyToIn
  rw [dist_p0 hv, dist_p1 hv]

/-- The outcomes of the kernel for a clear point. -/
theorem kernel_clear (hv : a.Valid) (hc : a.Clear p) {stepMax : ℝ} (hst : stepMax ≤ kInfLength) :
    let D := distanceToInKernel (of a) p d stepMax
    let x := (of a).cuts.distanceToIn p d
    (inside (of a) p = .inside ∧ D = -1) ∨
    (inside (of a) p ≠ .inside ∧ (of a).cuts.inside p = .inside ∧ D = tubeStep (of a) p d 0 stepMax kInfLength) ∨
    ((of a).cuts.inside p ≠ .inside ∧ ¬ (0 ≤ x ∧ x < stepMax) ∧ D = kInfLength) ∨
    ((of a).cuts.inside p ≠ .inside ∧ 0 ≤ x ∧ x < stepMax ∧ 
      (((of a).cuts.inside (V3.at' p d x) = .outside ∧ D = kInfLength) ∨
       ((of a).cuts.inside (V3.at' p d x) ≠ .outside ∧ Tube.inside Tube.universal (Tube.of (tb a)) (V3.at' p d x) ≠ .outside ∧
         D = if |x| < kTolerance then 0 else x) ∨
       ((of a).cuts.inside (V3.at' p d x) ≠ .outside ∧ Tube.inside Tube.universal (Tube.of (tb a)) (V3.at' p d x) = .outside ∧
         D = tubeStep (of a) (V3.at' p d x) d x stepMax kInfLength))) := by
  have hi := kInfLength_pos
  have ht := kTolerance_pos
  intro D x
  have eD : D = distanceToInKernel (of a) p d stepMax := rfl
  have hx := cuts_in_clear (d := d) hv hc
  change (x = -kInfLength ∧ _) ∨ (0 ≤ x ∧ _) at hx
  have ex : (of a).cuts.distanceToIn p d = x := rfl
  clear_value D x
  unfold distanceToInKernel at eD
  dsimp only at eD
  rw [ex, safety_cuts hv, ← inside_eq, of_tube] at eD
  have hci := cuts_inside hv p
  by_cases h1 : (of a).cuts.inside p = .inside
  · have h2 := hci.1.mp h1
    have hn : ¬ (|x| < stepMax ∧ max (a.bottom p) (a.top p) > -kTolerance) := by
      rintro ⟨-, h3⟩
      exact absurd (max_le h2.1 h2.2) (not_le.mpr h3)
    have hA : ¬ ((of a).cuts.inside p ≠ .inside ∧ ¬ (|x| < stepMax ∧ max (a.bottom p) (a.top p) > -kTolerance)) := fun h => h.1 h1
    rw [if_neg hA] at eD
    simp only [if_neg hn] at eD
    by_cases h4 : inside (of a) p = .inside
    · left
      rw [if_pos (.inr h4), if_pos h4] at eD
      exact ⟨h4, eD⟩
    · right; left
      rw [if_neg (by rw [h1]; rintro (h | h) <;> [cases h; exact h4 h]), if_neg (fun h => hn h.1), if_neg h4] at eD
      exact ⟨h4, h1, eD⟩
  · right; right
    have h4 : inside (of a) p ≠ .inside := by rw [inside_eq, ne_eq, combine_inside]; exact fun h => h1 h.1
    rw [if_neg h4] at eD
    by_cases hh : |x| < stepMax ∧ max (a.bottom p) (a.top p) > -kTolerance
    · right
      have hx0 : 0 ≤ x := by
        rcases hx with ⟨h, -⟩ | ⟨h, -⟩
        · have := hh.1
          rw [h, abs_neg, abs_of_pos hi] at this
          linarith
        · exact h
      have hxs : x < stepMax := by have := hh.1; rwa [abs_of_nonneg hx0] at this
      refine ⟨h1, hx0, hxs, ?_⟩
      rw [if_neg (fun h => h.2 hh)] at eD
      simp only [if_pos hh] at eD
      by_cases h5 : (of a).cuts.inside (V3.at' p d x) = .outside
      · left
        rw [if_pos (.inl h5)] at eD
        exact ⟨h5, eD⟩
      · right
        rw [if_neg (by rintro (h | h) <;> [exact h5 h; exact h4 h])] at eD
        by_cases h6 : Tube.inside Tube.universal (Tube.of (tb a)) (V3.at' p d x) = .outside
        · right
          rw [if_neg (fun h => h.2 h6)] at eD
          exact ⟨h5, h6, eD⟩
        · left
          rw [if_pos ⟨hh, h6⟩] at eD
          exact ⟨h5, h6, eD⟩
    · left
      rw [if_pos ⟨h1, hh⟩] at eD
      refine ⟨h1, ?_, eD⟩
      rintro ⟨g1, g2⟩
      apply hh
      rw [abs_of_nonneg g1]
      refine ⟨g2, ?_⟩
      by_contra h7
      apply h1
      rw [hci.1]
      have h8 := not_lt.mp h7
      exact ⟨(le_max_left _ _).trans h8, (le_max_right _ _).trans h8⟩

/-- `tubeStep`: nothing, or a step of the tube (cut to zero) that does not leave the planes. -/
theorem tubeStep_cases (t : Struct) (q d : V3) (x stepMax : ℝ) :
    let k := Tube.distanceToInKernel Tube.universal t.tube q d
    let D := tubeStep t q d x stepMax kInfLength
    (D = kInfLength ∧ (¬ (max 0 k ≤ t.cuts.distanceToOut q d ∧ max 0 k + x < stepMax))) ∨
    (kInfLength + x < stepMax ∧ D = kInfLength + x) ∨
    (D = max 0 k + x ∧ max 0 k ≤ t.cuts.distanceToOut q d ∧ max 0 k + x < stepMax) := by
  intro k D
  have eD : D = tubeStep t q d x stepMax kInfLength := rfl
  clear_value D
  unfold tubeStep at eD
  dsimp only at eD
  have ek : Tube.distanceToInKernel Tube.universal t.tube q d = k := rfl
  rw [ek] at eD
  clear_value k
  generalize t.cuts.distanceToOut q d = e at *
  by_cases h0 : k < 0
  · rw [max_eq_left h0.le]
    simp only [if_pos h0] at eD
    by_cases h1 : e < 0
    · simp only [if_pos h1] at eD
      by_cases h2 : kInfLength + x < stepMax
      · rw [if_pos h2] at eD; exact .inr (.inl ⟨h2, eD⟩)
      · rw [if_neg h2] at eD; exact .inl ⟨eD, fun h => absurd h.1 (not_le.mpr h1)⟩
    · simp only [if_neg h1] at eD
      by_cases h2 : 0 + x < stepMax
      · rw [if_pos h2] at eD; exact .inr (.inr ⟨eD, not_lt.mp h1, h2⟩)
      · rw [if_neg h2] at eD; exact .inl ⟨eD, fun h => h2 h.2⟩
  · rw [max_eq_right (not_lt.mp h0)]
    simp only [if_neg h0] at eD
    by_cases h1 : e < k
    · simp only [if_pos h1] at eD
      by_cases h2 : kInfLength + x < stepMax
      · rw [if_pos h2] at eD; exact .inr (.inl ⟨h2, eD⟩)
      · rw [if_neg h2] at eD; exact .inl ⟨eD, fun h => absurd h.1 (not_le.mpr h1)⟩
    · simp only [if_neg h1] at eD
      by_cases h2 : k + x < stepMax
      · rw [if_pos h2] at eD; exact .inr (.inr ⟨eD, not_lt.mp h1, h2⟩)
      · rw [if_neg h2] at eD; exact .inl ⟨eD, fun h => h2 h.2⟩

theorem out_cuts (hv : a.Valid) {q : V3} {s : ℝ} (hs : 0 ≤ s) (h : s ≤ (of a).cuts.distanceToOut q d)
    (h0 : a.bottom q = kTolerance → vb a d < 0) (h1 : a.top q = kTolerance → vt a d < 0) :
    a.bottom (V3.at' q d s) ≤ kTolerance ∧ a.top (V3.at' q d s) ≤ kTolerance := by
  unfold Cuts.distanceToOut at h
  rw [bottom_at, top_at, ← dist_p0 hv, ← dist_p1 hv, ← dot_p0 hv, ← dot_p1 hv]
  rw [← dist_p0 hv, ← dot_p0 hv] at h0
  rw [← dist_p1 hv, ← dot_p1 hv] at h1
  exact ⟨planeOut_ge hs (h.trans (min_le_left _ _)) h0, planeOut_ge hs (h.trans (min_le_right _ _)) h1⟩

theorem dist_ray (hu : d.x ^ 2 + d.y ^ 2 + d.z ^ 2 = 1) (p : V3) (s t : ℝ) : V3.dist (V3.at' p d s) (V3.at' p d t) = |s - t| := by
  unfold V3.dist V3.dist2
  simp only [V3.sub_x, V3.sub_y, V3.sub_z, V3.at_x, V3.at_y, V3.at_z]
  rw [← sqrt_sq_eq_abs]
  congr 1
  linear_combination (s - t) ^ 2 * hu

/-- A step of the tube from a point of the ray. -/
theorem step_sound (hv : a.Valid) (hmax : kTolerance ≤ a.rmax) (hmin : a.rmin = 0 ∨ kTolerance < a.rmin)
    (hu : d.x ^ 2 + d.y ^ 2 + d.z ^ 2 = 1) {y D : ℝ} (hy : 0 ≤ y)
    (hk : Tube.distanceToInKernel Tube.universal (Tube.of (tb a)) (V3.at' p d y) d < kInfLength)
    (hD : D = max 0 (Tube.distanceToInKernel Tube.universal (Tube.of (tb a)) (V3.at' p d y) d) + y) :
    ∃ t, t ≤ D + kTolerance ∧ (a.d = 2 * π → D - 2 * kTolerance ≤ t) ∧ Tube.Near (tb a) (2 * kTolerance + (|D| + |t|) / 10 ^ 15) (V3.at' p d t) := by
  have ht := kTolerance_pos
  have hs := Tube.kernel_sound (p := V3.at' p d y) (d := d) (tb_valid hv) (tb_fits a) (hmin.imp id le_of_lt) hmax hu hk
  generalize hkk : Tube.distanceToInKernel Tube.universal (Tube.of (tb a)) (V3.at' p d y) d = k at *
  by_cases h : k = -1 ∧ Tube.InsideForIn Tube.universal (Tube.of (tb a)) (V3.at' p d y)
  · have hdeep := (Tube.insideForIn_iff (tb_valid hv) (tb_fits a) hmax).mp h.2
    rw [h.1, max_eq_left (by norm_num), zero_add] at hD
    have hh := kHalfTolerance_pos
    have hx : 0 ≤ (|D| + |y|) / 10 ^ 15 := by positivity
    refine ⟨y, by linarith, fun _ => by linarith, ⟨?_, ?_, ?_, ?_⟩⟩
    · linarith [hdeep.z]
    · rcases hv.rmin.lt_or_eq with h1 | h1
      · have h2 : a.rmin + kHalfTolerance < Tube.rad (V3.at' p d y) := hdeep.lo h1
        show a.rmin ≤ _
        linarith
      · show a.rmin ≤ _
        linarith [Tube.rad_nonneg (V3.at' p d y)]
    · linarith [hdeep.hi]
    · rcases hdeep.phi with h1 | ⟨h1, h2, h3⟩ | ⟨h1, -, h2⟩
      · exact .inl h1
      · exact .inr (.inl ⟨h1, by linarith, by linarith⟩)
      · exact .inr (.inr ⟨h1, h2.imp (fun h => by linarith) (fun h => by linarith)⟩)
  · obtain ⟨g1, -, g3⟩ := hs h
    rw [Tube.at_at] at g1
    refine ⟨k + y, by linarith [le_max_right 0 k], fun h1 => ?_, g1.mono ?_⟩
    · have := g3 h1
      rcases max_choice 0 k with h2 | h2 <;> rw [h2] at hD <;> linarith
    · have h1 : |k| ≤ |D| + |k + y| := by
        rcases le_or_gt 0 k with h2 | h2
        · rw [max_eq_right h2] at hD
          rw [abs_of_nonneg h2, abs_of_nonneg (show 0 ≤ D by linarith)]
          linarith [abs_nonneg (k + y)]
        · rw [max_eq_left h2.le, zero_add] at hD
          have := abs_sub (k + y) y
          rw [hD]
          rw [show k + y - y = k by ring] at this
          linarith
      have h2 : |k| / 10 ^ 15 ≤ (|D| + |k + y|) / 10 ^ 15 := div_le_div_of_nonneg_right h1 (by norm_num)
      linarith

/-- C122: where a finite `DistanceToIn` leads, for points that are not in the layer below a plane (after the move of far points).  It
is `-1` for points inside.  Else it is not negative, the end of the way is not above the planes by more than twice the tolerance, and
the line meets the tube (up to the tolerance and the guards) at that distance; for sectors it may meet it before, because negative
distances to the faces are cut to zero.  The ray must not be exactly the tolerance above one plane where it crosses the other. -/
theorem C122_distance_in_sound_partial (hv : a.Valid) (hap : a.Apart) (hmax : kTolerance ≤ a.rmax) (hmin : a.rmin = 0 ∨ kTolerance < a.rmin)
    (hu : d.x ^ 2 + d.y ^ 2 + d.z ^ 2 = 1) {stepMax : ℝ} (hst : stepMax ≤ kInfLength) (hc : a.Clear (V3.at' p d (a.skip p)))
    (hne : ∀ t, (a.bottom (V3.at' p d t) = kTolerance → |a.top (V3.at' p d t)| < kTolerance → vb a d < 0) ∧
      (a.top (V3.at' p d t) = kTolerance → |a.bottom (V3.at' p d t)| < kTolerance → vt a d < 0)) :
    let D := distanceToIn (of a) p d stepMax
    D < kInfLength →
    (inside (of a) (V3.at' p d (a.skip p)) = .inside ∧ D = a.skip p - 1) ∨
    (a.skip p ≤ D ∧ a.bottom (V3.at' p d D) ≤ 2 * kTolerance ∧ a.top (V3.at' p d D) ≤ 2 * kTolerance ∧
      ∃ t, t ≤ D + kTolerance ∧ (a.d = 2 * π → D - 2 * kTolerance ≤ t) ∧ Tube.Near (tb a) (2 * kTolerance + (|D| + |t|) / 10 ^ 15) (V3.at' p d t)) := by
  have ht := kTolerance_pos
  have hi := kInfLength_pos
  intro D hD
  have eD : D = _ := distanceToIn_eq a p d stepMax
  have hm : 0 ≤ a.skip p := le_max_left _ _
  generalize a.skip p = m at *
  have hk := kernel_clear (d := d) hv hc hst
  dsimp only at hk
  generalize distanceToInKernel (of a) (V3.at' p d m) d stepMax = K at *
  generalize (of a).cuts.distanceToIn (V3.at' p d m) d = x at *
  clear_value D
  have step : ∀ y, 0 ≤ y → (of a).cuts.inside (V3.at' p d (y + m)) ≠ .outside → K = tubeStep (of a) (V3.at' p d (y + m)) d y stepMax kInfLength →
      (m ≤ D ∧ a.bottom (V3.at' p d D) ≤ 2 * kTolerance ∧ a.top (V3.at' p d D) ≤ 2 * kTolerance ∧
      ∃ t, t ≤ D + kTolerance ∧ (a.d = 2 * π → D - 2 * kTolerance ≤ t) ∧ Tube.Near (tb a) (2 * kTolerance + (|D| + |t|) / 10 ^ 15) (V3.at' p d t)) := by
    intro y hy hcut hK
    have h1 := tubeStep_cases (of a) (V3.at' p d (y + m)) d y stepMax
    dsimp only at h1
    rw [← hK, of_tube] at h1
    rcases h1 with ⟨h1, -⟩ | ⟨h1, -⟩ | ⟨h1, h2, h3⟩
    · linarith
    · linarith
    · have hci := cuts_inside hv (V3.at' p d (y + m))
      have n1 := hne (y + m)
      have hout := out_cuts (d := d) hv (le_max_left 0 _) h2
        (fun h => n1.1 h (by
          by_contra h5
          apply hcut; rw [hci.2.2]
          exact ⟨⟨by rw [h, abs_of_pos ht], not_lt.mp h5⟩, .inl h.ge⟩))
        (fun h => n1.2 h (by
          by_contra h5
          apply hcut; rw [hci.2.2]
          exact ⟨⟨not_lt.mp h5, by rw [h, abs_of_pos ht]⟩, .inr h.ge⟩))
      have hlt : Tube.distanceToInKernel Tube.universal (Tube.of (tb a)) (V3.at' p d (y + m)) d < kInfLength :=
        (le_max_right 0 _).trans_lt (by linarith)
      have hDk : D = max 0 (Tube.distanceToInKernel Tube.universal (Tube.of (tb a)) (V3.at' p d (y + m)) d) + (y + m) := by
        rw [eD, h1]; ring
      rw [Tube.at_at, ← hDk] at hout
      have hmD : m ≤ D := by rw [hDk]; linarith [le_max_left 0 (Tube.distanceToInKernel Tube.universal (Tube.of (tb a)) (V3.at' p d (y + m)) d)]
      exact ⟨hmD, by linarith [hout.1], by linarith [hout.2], step_sound hv hmax hmin hu (by linarith) hlt hDk⟩
  rcases hk with ⟨h1, h2⟩ | ⟨h1, h2, h3⟩ | ⟨h1, h2, h3⟩ | ⟨h1, h2, h3, h4⟩
  · left
    exact ⟨h1, by rw [eD, h2]; ring⟩
  · right
    refine step 0 le_rfl ?_ ?_
    · rw [zero_add, h2]; simp
    · rw [zero_add]; exact h3
  · linarith
  · rw [Tube.at_at] at h4
    rcases h4 with ⟨-, h4⟩ | ⟨h4, h5, h6⟩ | ⟨h4, h5, h6⟩
    · linarith
    · right
      obtain ⟨r1, r2, r3⟩ := Tube.near_of_not_outside (tb_valid hv) (tb_fits a) hmax hmin h5
      have hz : |(V3.at' p d (x + m)).z| ≤ kInfLength + kHalfTolerance := by
        obtain ⟨t1, -, t3, -⟩ := Tube.C77_inside (tb_valid hv) (tb_fits a) hmax hmin (V3.at' p d (x + m))
        have hh := kHalfTolerance_pos
        cases hi : Tube.inside Tube.universal (Tube.of (tb a)) (V3.at' p d (x + m)) with
        | inside => have h7 : |(V3.at' p d (x + m)).z| ≤ kInfLength := (t1 hi).z
                    linarith
        | surface => exact (t3 hi).1
        | outside => exact absurd hi h5
      have hb : a.bottom (V3.at' p d (x + m)) < kTolerance ∧ a.top (V3.at' p d (x + m)) < kTolerance := by
        obtain ⟨c1, c2, c3⟩ := cuts_inside hv (V3.at' p d (x + m))
        obtain ⟨a1, a2⟩ := hap (V3.at' p d (x + m)) r1
        cases hc : (of a).cuts.inside (V3.at' p d (x + m)) with
        | outside => exact absurd hc h4
        | inside => have := c1.mp hc; constructor <;> linarith
        | surface =>
          rcases c2.mp hc with h1 | h1
          · exact ⟨(abs_lt.mp h1).2, by linarith [a1 h1]⟩
          · exact ⟨by linarith [a2 h1], (abs_lt.mp h1).2⟩
      have hDx : m ≤ D ∧ |D - (x + m)| < kTolerance := by
        rw [eD, h6]
        by_cases hx : |x| < kTolerance
        · rw [if_pos hx]
          refine ⟨by linarith, ?_⟩
          rw [show 0 + m - (x + m) = -x by ring, abs_neg]; exact hx
        · rw [if_neg hx]
          refine ⟨by linarith, ?_⟩
          rw [sub_self, abs_zero]; exact ht
      have l1 := bottom_lip hv (V3.at' p d D) (V3.at' p d (x + m))
      have l2 := top_lip hv (V3.at' p d D) (V3.at' p d (x + m))
      rw [dist_ray hu] at l1 l2
      have hab := abs_lt.mp hDx.2
      have hx : 0 ≤ (|D| + |x + m|) / 10 ^ 15 := by positivity
      have hh : kHalfTolerance = kTolerance / 2 := rfl
      refine ⟨hDx.1, by linarith [hDx.2], by linarith [hDx.2], x + m, by linarith, fun _ => by linarith, ⟨?_, ?_, ?_, ?_⟩⟩
      · show _ ≤ kInfLength + _; linarith
      · linarith
      · linarith
      · rcases r3 with h1 | ⟨h1, h2, h3⟩ | ⟨h1, h2⟩
        · exact .inl h1
        · exact .inr (.inl ⟨h1, by linarith, by linarith⟩)
        · exact .inr (.inr ⟨h1, h2.imp (fun h => by linarith) (fun h => by linarith)⟩)
    · right
      exact step x h2 h4 h6

/-- The rest of the way through the tube is short enough. -/
theorem step_complete (hv : a.Valid) (hd : a.d = 2 * π) (hmax : kTolerance ≤ a.rmax) (hu : d.x ^ 2 + d.y ^ 2 + d.z ^ 2 = 1)
    {y stepMax T : ℝ} (hst : stepMax ≤ kInfLength) (hout : kInfLength ≤ |p.z| ∨ a.rmax ≤ Tube.rad p ∨ (0 < a.rmin ∧ Tube.rad p ≤ a.rmin))
    (hlow : a.bottom p < kTolerance ∧ a.top p < kTolerance)
    (hT : 0 ≤ T) (hy : 0 ≤ y) (hTi : T + y < stepMax) (hTe : kTiny * T ^ 2 ≤ kHalfTolerance * a.rmax) (hTm : |p.z| + T < kInfLength)
    (hr : Tube.rad (V3.at' p d T) < a.rmax - kHalfTolerance) (hm : 0 < a.rmin → a.rmin < Tube.rad (V3.at' p d T))
    (hb : a.bottom (V3.at' p d T) < -kTiny * T) (ht : a.top (V3.at' p d T) < -kTiny * T) :
    tubeStep (of a) p d y stepMax kInfLength ≤ T + y := by
  have hz : ∀ u, 0 ≤ u → u ≤ T → |(V3.at' p d u).z| < kInfLength := by
    intro u h0 h1
    rw [V3.at_z]
    have h2 : |d.z| ≤ 1 := by
      have := abs_le_of_sq_le_sq (a := d.z) (b := 1) (by nlinarith [sq_nonneg d.x, sq_nonneg d.y]) (by norm_num)
      exact this
    have h3 := abs_add_le p.z (u * d.z)
    rw [abs_mul, abs_of_nonneg h0] at h3
    nlinarith
  have hk : Tube.distanceToInKernel Tube.universal (Tube.of (tb a)) p d ≤ T := by
    refine Tube.kernel_complete (tb_valid hv) (tb_fits a) hd hmax hu hout hT (by linarith) hTe (hz T hT le_rfl) hr hm ?_
    rintro ⟨u, R, h1, h2, -, h3, -⟩
    have h4 : kInfLength ≤ |(V3.at' p d u).z| := h3
    linarith [hz u h1 h2]
  have hmk : max 0 (Tube.distanceToInKernel Tube.universal (Tube.of (tb a)) p d) ≤ T := max_le hT hk
  have hex : T ≤ (of a).cuts.distanceToOut p d := by
    unfold Cuts.distanceToOut
    rw [bottom_at, ← dist_p0 hv, ← dot_p0 hv] at hb
    rw [top_at, ← dist_p1 hv, ← dot_p1 hv] at ht
    refine le_min (planeOut_le hT (by linarith) ?_ hb.le) (planeOut_le hT (by linarith) ?_ ht.le)
    · rw [dist_p0 hv]; exact hlow.1
    · rw [dist_p1 hv]; exact hlow.2
  have h1 := tubeStep_cases (of a) p d y stepMax
  dsimp only at h1
  rw [of_tube] at h1
  rcases h1 with ⟨-, h1⟩ | ⟨h1, -⟩ | ⟨h1, -⟩
  · exact absurd ⟨hmk.trans hex, by linarith⟩ h1
  · linarith
  · linarith

theorem kernel_complete (hv : a.Valid) (hd : a.d = 2 * π) (hmax : kTolerance ≤ a.rmax) (hmin : a.rmin = 0 ∨ kTolerance < a.rmin)
    (hu : d.x ^ 2 + d.y ^ 2 + d.z ^ 2 = 1) {stepMax : ℝ} (hst : stepMax ≤ kInfLength) (hc : a.Clear p)
    (hout : ¬ a.In p ∨ Tube.rad p = a.rmax)
    {T : ℝ} (hT : 0 ≤ T) (hTi : T < stepMax) (hTe : kTiny * T ^ 2 ≤ kHalfTolerance * a.rmax) (hTt : kTiny * T < kTolerance)
    (hTm : |p.z| + T < kInfLength) (hr : Tube.rad (V3.at' p d T) < a.rmax - kHalfTolerance) (hm : 0 < a.rmin → a.rmin < Tube.rad (V3.at' p d T))
    (hb : a.bottom (V3.at' p d T) < -kTiny * T) (ht : a.top (V3.at' p d T) < -kTiny * T) :
    distanceToInKernel (of a) p d stepMax ≤ T := by
  have hto := kTolerance_pos
  have he := kTiny_pos
  have hm0 : 0 < a.rmax := hv.rmin.trans_lt hv.rmax
  have hsec : ∀ q : V3, Sector a.s a.d q.x q.y := fun q => by rw [hd]; exact sector_full _ _ _
  have hk := kernel_clear (d := d) hv hc hst
  have hx := cuts_in_clear (d := d) hv hc
  dsimp only at hk hx
  generalize (of a).cuts.distanceToIn p d = x at *
  have hci := cuts_inside hv p
  rw [bottom_at] at hb
  rw [top_at] at ht
  rcases hk with ⟨h1, h2⟩ | ⟨h1, h2, h3⟩ | ⟨h1, h2, h3⟩ | ⟨h1, h2, h3, h4⟩
  · linarith
  · rw [h3]
    have hlow := hci.1.mp h2
    have hrad : a.rmax ≤ Tube.rad p ∨ (0 < a.rmin ∧ Tube.rad p ≤ a.rmin) := by
      by_contra hn
      push Not at hn
      rcases hout with h | h
      · exact h ⟨hn.2, hn.1.le, hsec p, by linarith, by linarith⟩
      · linarith
    have := step_complete (y := 0) hv hd hmax hu hst (.inr hrad) ⟨by linarith, by linarith⟩ hT le_rfl (by linarith) hTe hTm hr hm
      (by rw [bottom_at]; exact hb) (by rw [top_at]; exact ht)
    linarith
  · exfalso
    have hkT : 0 ≤ kTiny * T := by positivity
    -- one of the heights is not negative
    have hpos : 0 ≤ a.bottom p ∨ 0 ≤ a.top p := by
      by_contra hn
      push Not at hn
      exact h1 (hci.1.mpr ⟨hc.bot.resolve_left (by linarith), hc.top.resolve_left (by linarith)⟩)
    rcases hx with ⟨hx, x1, x2⟩ | ⟨hx, x1, x2, x3⟩
    · rcases hpos with h | h
      · rcases x1 with x1 | x1
        · nlinarith
        · linarith
      · rcases x2 with x2 | x2
        · nlinarith
        · linarith
    · apply h2
      refine ⟨hx, ?_⟩
      have : x ≤ T := by
        by_contra hn
        rcases x3 with ⟨g1, g2, g3⟩ | ⟨g1, g2, g3⟩ <;> nlinarith
      linarith
  · have hkT : 0 ≤ kTiny * T := by positivity
    have hxx : (0 ≤ a.bottom p → vb a d < 0 → a.bottom p ≤ x * (kTiny - vb a d)) ∧ (0 ≤ a.top p → vt a d < 0 → a.top p ≤ x * (kTiny - vt a d)) ∧
      ((0 ≤ a.bottom p ∧ vb a d < 0 ∧ a.bottom p = x * (kTiny - vb a d)) ∨ (0 ≤ a.top p ∧ vt a d < 0 ∧ a.top p = x * (kTiny - vt a d))) := by
      rcases hx with ⟨h, -⟩ | ⟨-, h⟩
      · linarith [kInfLength_pos]
      · exact h
    obtain ⟨x1, x2, x3⟩ := hxx
    have hxT : x ≤ T := by
      by_contra hn
      rcases x3 with ⟨g1, g2, g3⟩ | ⟨g1, g2, g3⟩ <;> nlinarith
    have hkx : kTiny * x < kTolerance := lt_of_le_of_lt (mul_le_mul_of_nonneg_left hxT he.le) hTt
    have low : ∀ h v : ℝ, (0 ≤ h → v < 0 → h ≤ x * (kTiny - v)) → h + T * v < -kTiny * T → h + x * v < kTolerance := by
      intro h v g1 g2
      rcases lt_or_ge v 0 with hv | hv
      · rcases le_or_gt 0 h with hh | hh
        · have := g1 hh hv
          linarith
        · nlinarith
      · nlinarith
    have hlow : a.bottom (V3.at' p d x) < kTolerance ∧ a.top (V3.at' p d x) < kTolerance := by
      rw [bottom_at, top_at]
      exact ⟨low _ _ x1 hb, low _ _ x2 ht⟩
    rcases h4 with ⟨h4, -⟩ | ⟨-, -, h4⟩ | ⟨-, h5, h4⟩
    · exfalso
      rcases ((cuts_inside hv _).2.2.mp h4).2 with h | h <;> linarith
    · rw [h4]
      split <;> linarith
    · rw [h4]
      have hnc := (Tube.C77_inside (tb_valid hv) (tb_fits a) hmax hmin (V3.at' p d x)).2.1 h5
      have e2 : V3.at' (V3.at' p d x) d (T - x) = V3.at' p d T := by rw [Tube.at_at]; congr 1; ring
      have hz : |(V3.at' p d x).z| ≤ |p.z| + x := by
        rw [V3.at_z]
        have g2 : |d.z| ≤ 1 := by
          have := abs_le_of_sq_le_sq (a := d.z) (b := 1) (by nlinarith [sq_nonneg d.x, sq_nonneg d.y]) (by norm_num)
          exact this
        have g3 := abs_add_le p.z (x * d.z)
        rw [abs_mul, abs_of_nonneg h2] at g3
        nlinarith
      have hrad : kInfLength ≤ |(V3.at' p d x).z| ∨ a.rmax ≤ Tube.rad (V3.at' p d x) ∨ (0 < a.rmin ∧ Tube.rad (V3.at' p d x) ≤ a.rmin) := by
        by_contra hn
        push Not at hn
        refine hnc ⟨hn.1.le, ?_, hn.2.1.le, hsec _⟩
        rcases hv.rmin.lt_or_eq with h | h
        · exact (hn.2.2 h).le
        · exact le_trans h.ge (Tube.rad_nonneg _)
      have kx : kTiny * x ≥ 0 := by positivity
      have := step_complete (p := V3.at' p d x) (d := d) (y := x) (T := T - x) hv hd hmax hu hst hrad hlow (by linarith) h2 (by linarith) ?_ (by linarith) (by rwa [e2]) (by rwa [e2])
        (by rw [e2, bottom_at]; linarith) (by rw [e2, top_at]; linarith)
      · linarith
      · refine le_trans (mul_le_mul_of_nonneg_left ?_ he.le) hTe
        exact pow_le_pow_left₀ (by linarith) (by linarith) 2

/-- C122, cut tubes without sector: from a point that is not in the solid (and not in the layer below a plane), `DistanceToIn` is at
most the distance to any point of the ray that is in the solid, deeper than half the tolerance below the outer wall and than the
guards below the planes.  Excepted are solids that reach beyond the distance to which far points are moved, see the counterexample. -/
theorem C122_distance_in_complete_partial (hv : a.Valid) (hd : a.d = 2 * π) (hmax : kTolerance ≤ a.rmax) (hmin : a.rmin = 0 ∨ kTolerance < a.rmin)
    (hu : d.x ^ 2 + d.y ^ 2 + d.z ^ 2 = 1) {stepMax : ℝ} (hst : stepMax ≤ kInfLength) (hc : a.Clear (V3.at' p d (a.skip p)))
    (hout : ¬ a.In (V3.at' p d (a.skip p)) ∨ Tube.rad (V3.at' p d (a.skip p)) = a.rmax)
    {T : ℝ} (hT : a.skip p ≤ T) (hTi : T < stepMax) (hTe : kTiny * T ^ 2 ≤ kHalfTolerance * a.rmax) (hTt : kTiny * T < kTolerance)
    (hTm : p.mag + T < kInfLength) (hr : Tube.rad (V3.at' p d T) < a.rmax - kHalfTolerance) (hm : 0 < a.rmin → a.rmin < Tube.rad (V3.at' p d T))
    (hb : a.bottom (V3.at' p d T) < -kTiny * T) (ht : a.top (V3.at' p d T) < -kTiny * T) :
    distanceToIn (of a) p d stepMax ≤ T := by
  have he := kTiny_pos
  have hm0 : 0 ≤ a.skip p := le_max_left _ _
  rw [distanceToIn_eq]
  generalize a.skip p = m at *
  have e2 : V3.at' (V3.at' p d m) d (T - m) = V3.at' p d T := by rw [Tube.at_at]; congr 1; ring
  have km : 0 ≤ kTiny * m := by positivity
  have hz : |(V3.at' p d m).z| ≤ p.mag + m := by
    rw [V3.at_z]
    have g2 : |d.z| ≤ 1 := by
      have := abs_le_of_sq_le_sq (a := d.z) (b := 1) (by nlinarith [sq_nonneg d.x, sq_nonneg d.y]) (by norm_num)
      exact this
    have g3 := abs_add_le p.z (m * d.z)
    rw [abs_mul, abs_of_nonneg hm0] at g3
    have g4 : |p.z| ≤ p.mag := by
      have h1 := Tube.mag_sq p
      exact abs_le_of_sq_le_sq (by nlinarith [sq_nonneg p.x, sq_nonneg p.y]) (Tube.mag_nonneg p)
    nlinarith
  have := kernel_complete (p := V3.at' p d m) (T := T - m) hv hd hmax hmin hu hst hc hout (by linarith) (by linarith) ?_ (by linarith) (by linarith)
    (by rwa [e2]) (by rwa [e2]) (by rw [e2]; linarith) (by rw [e2]; linarith)
  · linarith
  · refine le_trans (mul_le_mul_of_nonneg_left ?_ he.le) hTe
    exact pow_le_pow_left₀ (by linarith) (by linarith) 2

/-! ### Witnesses -/

/-- A cut pipe. -/
noncomputable def pipe : Par := ⟨1, 2, 5, 0, 2 * π, ⟨0, 3, -4⟩, ⟨3, 0, 4⟩⟩

theorem pipe_valid : pipe.Valid := by
  have := pi_pos
  have h := skew_valid
  exact ⟨h.rmin, h.rmax, h.z, by show 0 < 2 * π; linarith, le_refl _, h.nb, h.nt, h.cb, h.ct, h.fin⟩

/-- From above, the way to the slanted top of the pipe. -/
example : distanceToIn (of pipe) ⟨3 / 2, 0, 20⟩ ⟨0, 0, -1⟩ kInfLength ≤ 17 := by
  have hi := kInf_huge
  have eT : V3.at' ⟨3 / 2, 0, 20⟩ ⟨0, 0, -1⟩ 17 = ⟨3 / 2, 0, 3⟩ := by ext <;> norm_num
  have hmag : V3.mag ⟨3 / 2, 0, 20⟩ ≤ 100 := by
    unfold V3.mag V3.mag2 V3.dot
    rw [sqrt_le_left (by norm_num)]
    norm_num
  have hsk : pipe.skip ⟨3 / 2, 0, 20⟩ = 0 := by
    unfold Par.skip
    apply max_eq_left
    have : (5 : ℝ) ≤ max pipe.rmax pipe.z := le_max_right _ _
    linarith
  have hrad : Tube.rad ⟨3 / 2, 0, 3⟩ = 3 / 2 := by
    unfold Tube.rad
    rw [show (3 / 2 : ℝ) ^ 2 + 0 ^ 2 = (3 / 2) ^ 2 by ring]
    exact sqrt_sq (by norm_num)
  have eb : ∀ p, pipe.bottom p = (3 * p.y - 4 * (p.z + 5)) / 5 := skew_bottom
  have et : ∀ p, pipe.top p = (3 * p.x + 4 * (p.z - 5)) / 5 := skew_top
  apply C122_distance_in_complete_partial pipe_valid rfl (by norm_num [kTolerance, pipe]) (.inr (by norm_num [kTolerance, pipe])) (by norm_num) le_rfl
  · rw [hsk, at_zero]
    refine ⟨.inr ?_, .inl ?_⟩
    · rw [eb]; norm_num [kTolerance]
    · rw [et]; norm_num
  · rw [hsk, at_zero]
    left
    intro h
    have := h.top
    rw [et] at this
    norm_num at this
  · rw [hsk]; norm_num
  · norm_num at hi; linarith
  · norm_num [kTiny, kHalfTolerance, kTolerance, pipe]
  · norm_num [kTiny, kTolerance]
  · norm_num at hi; linarith
  · rw [eT, hrad]; norm_num [kHalfTolerance, kTolerance, pipe]
  · intro _; rw [eT, hrad]; norm_num [pipe]
  · rw [eT, eb]; norm_num [kTiny]
  · rw [eT, et]; norm_num [kTiny]

/-- The hypotheses of the soundness theorem hold for that ray. -/
example : pipe.Apart ∧ pipe.Clear ⟨3 / 2, 0, 20⟩ ∧
    ∀ t, (pipe.bottom (V3.at' ⟨3 / 2, 0, 20⟩ ⟨0, 0, -1⟩ t) = kTolerance → |pipe.top (V3.at' ⟨3 / 2, 0, 20⟩ ⟨0, 0, -1⟩ t)| < kTolerance → vb pipe ⟨0, 0, -1⟩ < 0) ∧
      (pipe.top (V3.at' ⟨3 / 2, 0, 20⟩ ⟨0, 0, -1⟩ t) = kTolerance → |pipe.bottom (V3.at' ⟨3 / 2, 0, 20⟩ ⟨0, 0, -1⟩ t)| < kTolerance → vt pipe ⟨0, 0, -1⟩ < 0) := by
  have eb : ∀ p, pipe.bottom p = (3 * p.y - 4 * (p.z + 5)) / 5 := skew_bottom
  have et : ∀ p, pipe.top p = (3 * p.x + 4 * (p.z - 5)) / 5 := skew_top
  have ht : kTolerance ≤ 1 / 10 := by norm_num [kTolerance]
  refine ⟨skew_apart, ⟨.inr ?_, .inl ?_⟩, fun t => ⟨?_, ?_⟩⟩
  · rw [eb]; norm_num [kTolerance]
  · rw [et]; norm_num
  · rw [eb, et]
    simp only [V3.at_x, V3.at_y, V3.at_z]
    intro h1 h2
    have := abs_lt.mp h2
    linarith
  · rw [eb, et]
    simp only [V3.at_x, V3.at_y, V3.at_z]
    intro h1 h2
    have := abs_lt.mp h2
    linarith

/-! ### Counterexamples -/

/-- A slanted slice of a rod: the planes are steep, so that the solid reaches far beyond its radius and half length. -/
noncomputable def steep : Par := ⟨0, 1, 1, 0, 2 * π, ⟨1, 0, -1 / 1000⟩, ⟨-1, 0, 1 / 1000⟩⟩

theorem steep_valid : steep.Valid := by
  have := pi_pos
  have hk := kInf_huge
  have hm := kMinimum_lt
  constructor
  · norm_num [steep]
  · norm_num [steep]
  · norm_num [steep]
  · show 0 < 2 * π; linarith
  · exact le_refl _
  · norm_num [steep]
  · norm_num [steep]
  · intro c h
    rcases h with h | h | h
    · right; rw [h]; norm_num [kTolerance, steep]; linarith
    · exact .inl h
    · right; rw [h]; norm_num [kTolerance, steep]; linarith
  · intro c h
    rcases h with h | h | h
    · right; rw [h]; norm_num [kTolerance, steep]; linarith
    · exact .inl h
    · right; rw [h]; norm_num [kTolerance, steep]; linarith
  · show 10 * (1 + 10 ^ 9 * 1) < kInfLength; norm_num at *; linarith

theorem steep_len : 1 ≤ len steep.nb ∧ len steep.nb ≤ 2 ∧ len steep.nt = len steep.nb := by
  have e : len steep.nt = len steep.nb := by unfold len steep; norm_num
  have h2 := len_sq steep.nb
  have h3 : 0 < len steep.nb := len_pos (by norm_num [steep])
  have h4 : steep.nb.x ^ 2 + steep.nb.y ^ 2 + steep.nb.z ^ 2 = 1000001 / 1000000 := by norm_num [steep]
  rw [h4] at h2
  refine ⟨?_, ?_, e⟩
  · nlinarith
  · nlinarith

/-- Far points are moved towards the solid by all but a hundred times the larger of radius and half length; the planes are not looked
at.  With steep planes the move can skip the solid: the ray enters it after 99, and the answer is infinite. -/
theorem C122_far_counterexample :
    steep.Closed (V3.at' ⟨1 / 2, 0, 600⟩ ⟨0, 0, -1⟩ 100) ∧ steep.In (V3.at' ⟨1 / 2, 0, 600⟩ ⟨0, 0, -1⟩ 100) ∧
    kInfLength ≤ distanceToIn (of steep) ⟨1 / 2, 0, 600⟩ ⟨0, 0, -1⟩ kInfLength := by
  have ht := kTolerance_pos
  have hi := kInfLength_pos
  obtain ⟨l1, l2, l3⟩ := steep_len
  have l0 : 0 < len steep.nb := by linarith
  have eb : ∀ p, steep.bottom p = (p.x - (p.z + 1) / 1000) / len steep.nb := by
    intro p; unfold Par.bottom; congr 1; simp only [steep]; ring
  have et : ∀ p, steep.top p = (-p.x + (p.z - 1) / 1000) / len steep.nb := by
    intro p; unfold Par.top; rw [l3]; congr 1; simp only [steep]; ring
  have eT : V3.at' ⟨1 / 2, 0, 600⟩ ⟨0, 0, -1⟩ 100 = ⟨1 / 2, 0, 500⟩ := by ext <;> norm_num
  have hrad : Tube.rad ⟨1 / 2, 0, 500⟩ ≤ 1 := by rw [Tube.rad_le (by norm_num)]; norm_num
  have hb : steep.bottom ⟨1 / 2, 0, 500⟩ < 0 := by rw [eb]; exact div_neg_of_neg_of_pos (by norm_num) l0
  have htt : steep.top ⟨1 / 2, 0, 500⟩ < 0 := by rw [et]; exact div_neg_of_neg_of_pos (by norm_num) l0
  rw [eT]
  refine ⟨⟨Tube.rad_nonneg _, hrad, sector_full _ _ _, hb.le, htt.le⟩, ⟨fun h => absurd h (lt_irrefl 0), hrad, sector_full _ _ _, hb, htt⟩, ?_⟩
  have hmag : 600 ≤ V3.mag ⟨1 / 2, 0, 600⟩ ∧ V3.mag ⟨1 / 2, 0, 600⟩ ≤ 601 := by
    unfold V3.mag V3.mag2 V3.dot
    constructor
    · apply le_sqrt_of_sq_le; norm_num
    · rw [sqrt_le_left (by norm_num)]; norm_num
  have hsk : 500 ≤ steep.skip ⟨1 / 2, 0, 600⟩ ∧ steep.skip ⟨1 / 2, 0, 600⟩ ≤ 501 := by
    unfold Par.skip
    rw [show max steep.rmax steep.z = 1 from max_self 1]
    constructor
    · exact le_trans (by linarith [hmag.1]) (le_max_right _ _)
    · exact max_le (by norm_num) (by linarith [hmag.2])
  rw [distanceToIn_eq]
  generalize steep.skip ⟨1 / 2, 0, 600⟩ = m at *
  have eq : V3.at' ⟨1 / 2, 0, 600⟩ ⟨0, 0, -1⟩ m = ⟨1 / 2, 0, 600 - m⟩ := by ext <;> norm_num; ring
  rw [eq]
  have qb : 0 ≤ steep.bottom ⟨1 / 2, 0, 600 - m⟩ := by
    rw [eb]; apply div_nonneg _ l0.le; simp only; linarith [hsk.1]
  have qt : steep.top ⟨1 / 2, 0, 600 - m⟩ ≤ -kTolerance := by
    rw [et, div_le_iff₀ l0]
    have : kTolerance ≤ 1 / 10 := by norm_num [kTolerance]
    simp only
    nlinarith [hsk.1]
  have vb0 : 0 < vb steep ⟨0, 0, -1⟩ := by
    unfold vb; apply div_pos _ l0; norm_num [steep]
  have hc : steep.Clear ⟨1 / 2, 0, 600 - m⟩ := ⟨.inl qb, .inr qt⟩
  have hx := cuts_in_clear (d := ⟨0, 0, -1⟩) steep_valid hc
  have hk := kernel_clear (d := ⟨0, 0, -1⟩) steep_valid hc le_rfl
  dsimp only at hx hk
  generalize (of steep).cuts.distanceToIn ⟨1 / 2, 0, 600 - m⟩ ⟨0, 0, -1⟩ = x at *
  have hxn : x = -kInfLength := by
    rcases hx with ⟨h, -⟩ | ⟨-, -, -, h | h⟩
    · exact h
    · linarith [h.2.1]
    · linarith [h.1]
  have hni : (of steep).cuts.inside ⟨1 / 2, 0, 600 - m⟩ ≠ .inside := by
    rw [ne_eq, (cuts_inside steep_valid _).1]
    intro h; linarith [h.1]
  rcases hk with ⟨h1, -⟩ | ⟨-, h1, -⟩ | ⟨-, -, h1⟩ | ⟨-, h1, -⟩
  · rw [inside_eq, combine_inside] at h1; exact absurd h1.1 hni
  · exact absurd h1 hni
  · rw [h1]; linarith [hsk.1]
  · linarith

/-- A flat disc. -/
noncomputable def disc : Par := ⟨0, 1000, 1, 0, 2 * π, ⟨0, 0, -1⟩, ⟨0, 0, 1⟩⟩

theorem disc_valid : disc.Valid := by
  have := pi_pos
  have hk := kInf_huge
  have hm := kMinimum_lt
  constructor
  · norm_num [disc]
  · norm_num [disc]
  · norm_num [disc]
  · show 0 < 2 * π; linarith
  · exact le_refl _
  · norm_num [disc]
  · norm_num [disc]
  · intro c h
    rcases h with h | h | h
    · exact .inl h
    · exact .inl h
    · right; rw [h]; norm_num [kTolerance, disc]; linarith
  · intro c h
    rcases h with h | h | h
    · exact .inl h
    · exact .inl h
    · right; rw [h]; norm_num [kTolerance, disc]; linarith
  · show 10 * (1 + 10 ^ 9 * 1000) < kInfLength; norm_num at *; linarith

theorem disc_bottom (p : V3) : disc.bottom p = -(p.z + 1) := by
  have : len disc.nb = 1 := by
    show √((0 : ℝ) ^ 2 + 0 ^ 2 + (-1) ^ 2) = 1
    norm_num
  unfold Par.bottom; rw [this]; simp only [disc]; ring
theorem disc_top (p : V3) : disc.top p = p.z - 1 := by
  have : len disc.nt = 1 := by
    show √((0 : ℝ) ^ 2 + 0 ^ 2 + 1 ^ 2) = 1
    norm_num
  unfold Par.top; rw [this]; simp only [disc]; ring

/-- A point in the layer below the top (less than the tolerance below it) that moves almost along the top into the solid gets a
distance far below zero. -/
theorem C122_layer_counterexample : ∃ p d : V3, d.x ^ 2 + d.y ^ 2 + d.z ^ 2 = 1 ∧ disc.Closed p ∧ inside (of disc) p = .surface ∧
    distanceToIn (of disc) p d kInfLength ≤ -100 := by
  have ht := kTolerance_pos
  have he := kTiny_pos
  have hi := kInf_huge
  have hi0 := kInfLength_pos
  have hiL := kInfLength_large
  generalize hs : (2 * (1 / 10 ^ 12) / (1 + (1 / 10 ^ 12) ^ 2) : ℝ) = s
  generalize hcc : ((1 - (1 / 10 ^ 12) ^ 2) / (1 + (1 / 10 ^ 12) ^ 2) : ℝ) = c
  have hsc : c ^ 2 + s ^ 2 = 1 := by rw [← hs, ← hcc]; norm_num
  have hs1 : 1 / 10 ^ 12 ≤ s := by rw [← hs]; norm_num
  have hs2 : s ≤ 2 / 10 ^ 12 := by rw [← hs]; norm_num
  have hc1 : 0 ≤ c ∧ c ≤ 1 := by rw [← hcc]; norm_num
  clear hs hcc
  have cl : ∀ x z : ℝ, |x| ≤ 1000 → |z| ≤ 1 → disc.Closed ⟨x, 0, z⟩ := by
    intro x z hx hz
    refine ⟨Tube.rad_nonneg _, ?_, sector_full _ _ _, ?_, ?_⟩
    · rw [Tube.rad_le (by norm_num [disc])]
      have := abs_le.mp hx
      simp only [disc]; nlinarith
    · rw [disc_bottom]; linarith [(abs_le.mp hz).1]
    · rw [disc_top]; linarith [(abs_le.mp hz).2]
  have tub : ∀ x z : ℝ, |x| ≤ 1000 → |z| ≤ 2 → Tube.inside Tube.universal (Tube.of (tb disc)) ⟨x, 0, z⟩ ≠ .outside := by
    intro x z hx hz h
    refine (Tube.C77_inside (tb_valid disc_valid) (tb_fits disc) (by norm_num [kTolerance, tb, disc]) (.inl rfl) _).2.1 h
      ⟨?_, Tube.rad_nonneg _, ?_, sector_full _ _ _⟩
    · show |z| ≤ kInfLength; linarith
    · rw [Tube.rad_le (by norm_num [tb, disc])]
      have := abs_le.mp hx
      simp only [tb, disc]; nlinarith
  have hp : |(1 - 5 / 10 ^ 10 : ℝ)| ≤ 1 := by norm_num [abs_le]
  have top0 : disc.top ⟨0, 0, 1 - 5 / 10 ^ 10⟩ = -(5 / 10 ^ 10) := by rw [disc_top]; ring
  have bot0 : disc.bottom ⟨0, 0, 1 - 5 / 10 ^ 10⟩ = -2 + 5 / 10 ^ 10 := by rw [disc_bottom]; ring
  have cut0 : (of disc).cuts.inside ⟨0, 0, 1 - 5 / 10 ^ 10⟩ = .surface := by
    rw [(cuts_inside disc_valid _).2.1, top0]
    right; norm_num [kTolerance, abs_lt]
  have tub0 := tub 0 (1 - 5 / 10 ^ 10) (by norm_num) (by linarith)
  have in0 : inside (of disc) ⟨0, 0, 1 - 5 / 10 ^ 10⟩ = .surface := by
    rw [inside_eq, cut0, of_tube]
    simp [combine, tub0]
  refine ⟨⟨0, 0, 1 - 5 / 10 ^ 10⟩, ⟨c, 0, -s⟩, by simp only; linarith, cl _ _ (by norm_num) hp, in0, ?_⟩
  have hsk : disc.skip ⟨0, 0, 1 - 5 / 10 ^ 10⟩ = 0 := by
    unfold Par.skip
    apply max_eq_left
    have h1 : (1000 : ℝ) ≤ max disc.rmax disc.z := le_max_left _ _
    have h2 : V3.mag ⟨0, 0, 1 - 5 / 10 ^ 10⟩ ≤ 1 := by
      unfold V3.mag V3.mag2 V3.dot
      rw [sqrt_le_left (by norm_num)]
      norm_num
    linarith
  rw [distanceToIn_eq, hsk, at_zero, add_zero]
  have hvt : (V3.mk c 0 (-s)).dot (of disc).cuts.p1.n = -s := by
    rw [dot_p1 disc_valid]
    have : len disc.nt = 1 := by
      show √((0 : ℝ) ^ 2 + 0 ^ 2 + 1 ^ 2) = 1
      norm_num
    unfold vt; rw [this]; simp only [disc]; ring
  have hvb : (V3.mk c 0 (-s)).dot (of disc).cuts.p0.n = s := by
    rw [dot_p0 disc_valid]
    have : len disc.nb = 1 := by
      show √((0 : ℝ) ^ 2 + 0 ^ 2 + (-1) ^ 2) = 1
      norm_num
    unfold vb; rw [this]; simp only [disc]; ring
  have hs0 : 0 < s := lt_of_lt_of_le (by norm_num) hs1
  have hk : kTiny ≤ 1 / 10 ^ 20 := by norm_num [kTiny]
  -- the distance to the planes
  have hx : ∃ x, (of disc).cuts.distanceToIn ⟨0, 0, 1 - 5 / 10 ^ 10⟩ ⟨c, 0, -s⟩ = x ∧ x * (s + kTiny) = -(5 / 10 ^ 10) := by
    refine ⟨_, rfl, ?_⟩
    rw [cuts_in_eq disc_valid, hvb, if_pos hs0, hvt, if_neg (by linarith)]
    have : planeIn (of disc).cuts.p1 ⟨0, 0, 1 - 5 / 10 ^ 10⟩ ⟨c, 0, -s⟩ = 5 / 10 ^ 10 / (-s - kTiny) := by
      unfold planeIn
      dsimp only
      rw [hvt, dist_p1 disc_valid, top0]
      have hn := nonZero_neg (show -s < 0 by linarith)
      rw [if_pos ⟨hn, by norm_num [kTolerance]⟩]
      unfold nonZero copySign
      rw [if_pos (by linarith), neg_neg, ← sub_eq_add_neg]
    rw [this]
    have h1 : 5 / 10 ^ 10 / (-s - kTiny) = -(5 / 10 ^ 10 / (s + kTiny)) := by
      rw [show -s - kTiny = -(s + kTiny) by ring, div_neg]
    have h2 : 5 / 10 ^ 10 / (s + kTiny) ≤ 1000 := by
      rw [div_le_iff₀ (by linarith)]
      nlinarith
    rw [h1, max_eq_right (by linarith), neg_mul, div_mul_cancel₀ _ (by linarith)]
  obtain ⟨x, ex, hx⟩ := hx
  have x1 : x ≤ -100 := by nlinarith
  have x2 : -1000 ≤ x := by nlinarith
  unfold distanceToInKernel
  dsimp only
  rw [ex, safety_cuts disc_valid, ← inside_eq, of_tube, in0, cut0, top0, bot0]
  have hit : |x| < kInfLength ∧ max (-2 + 5 / 10 ^ 10) (-(5 / 10 ^ 10)) > -kTolerance := by
    refine ⟨?_, ?_⟩
    · rw [abs_of_nonpos (by linarith)]; linarith
    · rw [max_eq_right (by norm_num)]; norm_num [kTolerance]
  have eq : V3.at' ⟨0, 0, 1 - 5 / 10 ^ 10⟩ ⟨c, 0, -s⟩ x = ⟨x * c, 0, 1 - 5 / 10 ^ 10 - x * s⟩ := by
    ext <;> simp; ring
  have hxs : x * s = -(5 / 10 ^ 10) - x * kTiny := by linarith
  have hkx : |x * kTiny| ≤ 1 / 10 ^ 12 := by
    rw [abs_mul, abs_of_nonpos (by linarith), abs_of_pos he]
    nlinarith
  have cutq : (of disc).cuts.inside ⟨x * c, 0, 1 - 5 / 10 ^ 10 - x * s⟩ ≠ .outside := by
    have h1 : (of disc).cuts.inside ⟨x * c, 0, 1 - 5 / 10 ^ 10 - x * s⟩ = .surface := by
      rw [(cuts_inside disc_valid _).2.1, disc_top]
      right
      simp only
      rw [hxs, show 1 - 5 / 10 ^ 10 - (-(5 / 10 ^ 10) - x * kTiny) - 1 = x * kTiny by ring]
      refine lt_of_le_of_lt hkx (by norm_num [kTolerance])
    rw [h1]; simp
  have tubq := tub (x * c) (1 - 5 / 10 ^ 10 - x * s) (by
      rw [abs_mul, abs_of_nonpos (by linarith), abs_of_nonneg hc1.1]
      nlinarith) (by
      have := abs_le.mp hkx
      rw [hxs, abs_le]; constructor <;> norm_num at * <;> linarith)
  simp only [if_pos hit]
  rw [if_neg (fun h => h.2 hit), eq, if_neg (by rintro (h | h) <;> [exact cutq h; cases h]), if_pos ⟨hit, tubq⟩, if_neg]
  · exact x1
  · rw [abs_of_nonpos (by linarith)]
    have : kTolerance ≤ 1 := by norm_num [kTolerance]
    linarith

end CutTube
end VecGeom
