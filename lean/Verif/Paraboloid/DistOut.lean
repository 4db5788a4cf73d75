import Verif.Paraboloid.DistIn

/-!
# C138: the distance out of a paraboloid
-/

namespace VecGeom
namespace Paraboloid

open Real

variable {a : Par} {s : State}

theorem lidOut_neg {p d : V3} (h : d.z < 0) : lidOut s p d = (s.dz + p.z) / (-d.z + kTiny) := by
  have hk := kTiny_pos
  unfold lidOut
  dsimp only
  rw [if_pos h, nonZero_of_neg h]
  have h1 : d.z - kTiny ≠ 0 := by linarith
  have h2 : -d.z + kTiny ≠ 0 := by linarith
  field_simp
  ring

theorem lidOut_pos {p d : V3} (h : ¬ d.z < 0) : lidOut s p d = (s.dz - p.z) / (d.z + kTiny) := by
  unfold lidOut
  dsimp only
  rw [if_neg h, nonZero_of_nonneg (not_lt.mp h)]
  ring

/-- A closed point has a discriminant that is not negative, and `√` of it is at least `|b|`. -/
theorem disc_closed {A b c : ℝ} (hA : 0 ≤ A) (hc : c ≤ 0) : 0 ≤ b * b - A * c ∧ |b| ≤ √(b * b - A * c) := by
  have h1 : b * b ≤ b * b - A * c := by nlinarith [mul_nonneg hA (neg_nonneg.mpr hc)]
  refine ⟨by nlinarith, ?_⟩
  rw [← sqrt_sq_eq_abs]
  exact sqrt_le_sqrt (by rw [sq]; exact h1)

/-- The quadratic function is not positive up to the computed second root. -/
theorem sideOut_le {A b c t : ℝ} (hA : 0 ≤ A) (hc : c ≤ 0) (ht : 0 ≤ t)
    (h : t ≤ if b > 0 then (b + √(b * b - A * c)) * (1 / nonZero A) else c / nonZero (b - √(b * b - A * c))) :
    A * t ^ 2 - 2 * b * t + c ≤ 0 := by
  have hk := kTiny_pos
  obtain ⟨hD, hbS⟩ := disc_closed (b := b) hA hc
  have hS2 := sq_sqrt hD
  have hS := sqrt_nonneg (b * b - A * c)
  generalize √(b * b - A * c) = S at *
  split at h
  · rename_i hb
    rw [nonZero_of_nonneg hA, mul_one_div, le_div_iff₀ (by linarith)] at h
    rcases hA.eq_or_lt with h0 | h0
    · rw [← h0]
      nlinarith
    · have h1 : A * t ≤ b + S := by nlinarith [mul_nonneg ht hk.le]
      have h2 : b ≤ S := le_trans (le_abs_self b) hbS
      have h3 : A * (A * t ^ 2 - 2 * b * t + c) = -((b + S - A * t) * (A * t + (S - b))) := by
        linear_combination hS2
      have h4 : 0 ≤ (b + S - A * t) * (A * t + (S - b)) :=
        mul_nonneg (by linarith) (by have := mul_nonneg hA ht; linarith)
      by_contra hcn
      have := mul_pos h0 (not_le.mp hcn)
      linarith
  · rename_i hb
    have h2 : -b ≤ S := le_trans (neg_le_abs b) hbS
    rcases (by linarith [not_lt.mp hb] : b - S ≤ 0).eq_or_lt with h0 | h0
    · rw [h0, nonZero_of_nonneg (le_refl _)] at h
      have h3 : c / (0 + kTiny) ≤ 0 := div_nonpos_of_nonpos_of_nonneg hc (by linarith)
      have h4 : t = 0 := by linarith
      rw [h4]; linarith
    · rw [nonZero_of_neg h0, le_div_iff_of_neg (by linarith)] at h
      have h3 : (S - b) * t + c ≤ 0 := by nlinarith [mul_nonneg ht hk.le]
      have h4 : (S - b) * (A * t ^ 2 - 2 * b * t + c) = ((S - b) * t + c) * (A * t + (S - b)) := by
        linear_combination (-t) * hS2
      have h5 : ((S - b) * t + c) * (A * t + (S - b)) ≤ 0 :=
        mul_nonpos_of_nonpos_of_nonneg h3 (by have := mul_nonneg hA ht; linarith)
      by_contra hcn
      have := mul_pos (by linarith : 0 < S - b) (not_le.mp hcn)
      linarith

theorem sideOut_eq (hv : a.Valid) (g : Good s a) {p : V3} (hp : a.Closed p) (d : V3) :
    sideOut s p d = if qb s p d > 0 then (qb s p d + √(qb s p d * qb s p d - qa s d * qc s p)) * (1 / nonZero (qa s d))
      else qc s p / nonZero (qb s p d - √(qb s p d * qb s p d - qa s d * qc s p)) := by
  have hc : qc s p ≤ 0 := by rw [qc_eq]; exact (value_closed hv g p).mpr ((closed_iff p).mp hp).2
  unfold sideOut
  dsimp only
  rw [if_pos (show disc s p d ≥ 0 from (disc_closed (qa_nonneg hv g d) hc).1)]
  rfl

/-- C138: from a point of the solid, everything up to the reported distance belongs to the solid. -/
theorem C138_never_beyond (hv : a.Valid) (g : Good s a) (p d : V3) (hp : a.Closed p) (t : ℝ) (ht : 0 ≤ t)
    (h : t ≤ distanceToOut s p d) : a.Closed (V3.at' p d t) := by
  have hk := kTiny_pos
  have hc : qc s p ≤ 0 := by rw [qc_eq]; exact (value_closed hv g p).mpr ((closed_iff p).mp hp).2
  have hA := qa_nonneg hv g d
  have hzero : t = 0 → a.Closed (V3.at' p d t) := by
    intro h0
    have : V3.at' p d t = p := by rw [h0]; ext <;> simp
    rw [this]; exact hp
  unfold distanceToOut at h
  split at h
  · linarith
  split at h
  · linarith
  split at h
  · exact hzero (by linarith)
  split at h
  · exact hzero (by linarith)
  obtain ⟨h1, h2⟩ := le_min_iff.mp h
  rw [sideOut_eq hv g hp] at h1
  rw [closed_iff, abs_le, ← value_closed hv g, value_at]
  refine ⟨?_, sideOut_le hA hc ht h1⟩
  have hlo := hp.lo
  have hhi := hp.hi
  simp only [V3.at_z]
  by_cases hz : d.z < 0
  · rw [lidOut_neg hz, le_div_iff₀ (by linarith), g.dz] at h2
    constructor <;> nlinarith [mul_nonneg ht hk.le]
  · rw [lidOut_pos hz, le_div_iff₀ (by linarith [not_lt.mp hz]), g.dz] at h2
    have := mul_nonneg ht (not_lt.mp hz)
    constructor <;> nlinarith [mul_nonneg ht hk.le]

/-- The computed second root is not negative, and the function is close to zero there. -/
theorem sideOut_sharp {A b c r : ℝ} (hA : 0 ≤ A) (hc : c ≤ 0) (hnd : A = 0 → b ≠ 0)
    (hr : r = if b > 0 then (b + √(b * b - A * c)) * (1 / nonZero A) else c / nonZero (b - √(b * b - A * c))) :
    0 ≤ r ∧ ((kTiny ≤ A ∨ b ≤ 0) → -(3 * kTiny * (r + r ^ 2)) ≤ A * r ^ 2 - 2 * b * r + c) := by
  have hk := kTiny_pos
  obtain ⟨hD, hbS⟩ := disc_closed (b := b) hA hc
  have hS2 := sq_sqrt hD
  have hS := sqrt_nonneg (b * b - A * c)
  generalize √(b * b - A * c) = S at *
  have hb1 : b ≤ S := le_trans (le_abs_self b) hbS
  have hb2 : -b ≤ S := le_trans (neg_le_abs b) hbS
  split at hr
  · rename_i hb
    rw [nonZero_of_nonneg hA, mul_one_div] at hr
    have hr0 : 0 ≤ r := by rw [hr]; exact div_nonneg (by linarith) (by linarith)
    refine ⟨hr0, ?_⟩
    rintro (h | h)
    · have hA0 : 0 < A := by linarith
      have e1 : r * (A + kTiny) = b + S := by rw [hr]; exact div_mul_cancel₀ _ (by linarith)
      have e2 : A * (A * r ^ 2 - 2 * b * r + c) = -(kTiny * r * (A * r + (S - b))) := by
        linear_combination hS2 + (A * r + (S - b)) * e1
      -- the other root is not larger
      have h1 : S - b ≤ 2 * (A * r) := by nlinarith
      have h2 : kTiny * r * (A * r + (S - b)) ≤ kTiny * r * (3 * (A * r)) :=
        mul_le_mul_of_nonneg_left (by linarith) (by positivity)
      have h3 : A * -(3 * kTiny * (r + r ^ 2)) ≤ A * (A * r ^ 2 - 2 * b * r + c) := by
        rw [e2]
        have : 0 ≤ A * kTiny * r := by positivity
        nlinarith
      exact le_of_mul_le_mul_left h3 hA0
    · linarith
  · rename_i hb
    rcases (by linarith [not_lt.mp hb] : b - S ≤ 0).eq_or_lt with h0 | h0
    · have hb0 : b = 0 := by linarith
      have hS0 : S = 0 := by linarith
      have hAc : A * c = 0 := by rw [hS0, hb0] at hS2; linarith
      have hc0 : c = 0 := by
        rcases mul_eq_zero.mp hAc with h | h
        · exact absurd hb0 (hnd h)
        · exact h
      have hr0 : r = 0 := by rw [hr, hc0, zero_div]
      rw [hr0]
      refine ⟨le_refl _, fun _ => ?_⟩
      rw [hc0]; simp
    · rw [nonZero_of_neg h0] at hr
      have hr0 : 0 ≤ r := by rw [hr]; exact div_nonneg_of_nonpos hc (by linarith)
      refine ⟨hr0, fun _ => ?_⟩
      have e1 : r * (b - S - kTiny) = c := by rw [hr]; exact div_mul_cancel₀ _ (by linarith)
      have hg : 0 < S - b := by linarith
      have e2 : (S - b) * (A * r ^ 2 - 2 * b * r + c) = -(kTiny * r * (A * r + (S - b))) := by
        linear_combination (-r) * hS2 - (A * r + (S - b)) * e1
      have h1 : A * r ≤ S - b := by
        -- A (-c) = (S - b) (S + b)
        have h2 : A * r * (S - b + kTiny) = (S - b) * (S + b) := by linear_combination -hS2 - A * e1
        have h3 : A * r * (S - b) ≤ (S - b) * (S - b) := by
          have h4 : 0 ≤ A * r * kTiny := by positivity
          nlinarith
        nlinarith
      have h2 : kTiny * r * (A * r + (S - b)) ≤ kTiny * r * (2 * (S - b)) :=
        mul_le_mul_of_nonneg_left (by linarith) (by positivity)
      have h3 : (S - b) * -(3 * kTiny * (r + r ^ 2)) ≤ (S - b) * (A * r ^ 2 - 2 * b * r + c) := by
        rw [e2]
        have h4 : 0 ≤ (S - b) * kTiny * r := by positivity
        have h5 : 0 ≤ (S - b) * kTiny * r ^ 2 := by positivity
        nlinarith
      exact le_of_mul_le_mul_left h3 hg

/-- Two points one over the other. -/
theorem dist_above (x y z z' : ℝ) : V3.dist ⟨x, y, z⟩ ⟨x, y, z'⟩ = |z - z'| := by
  unfold V3.dist
  rw [← sqrt_sq_eq_abs]
  congr 1
  simp only [V3.dist2]
  ring

/-- A point of the solid whose height over the side is at most `e`. -/
theorem surface_below (hv : a.Valid) (g : Good s a) {q : V3} (hq : a.Closed q) {e : ℝ} (h : -e ≤ value s q) :
    ∃ u, a.Surface u ∧ V3.dist q u ≤ e := by
  have hcv := curv_pos hv
  have hz := hv.dz
  have hval := (value_closed hv g q).mpr ((closed_iff q).mp hq).2
  have hv2 := value_eq hv g q
  have hlo := hq.lo
  have hhi := hq.hi
  have hr2 : a.curv * a.r2 (q.z + value s q) = a.curv * perp2 q := by
    rw [curv_r2 hv]
    have := curv_r2 hv q.z
    linear_combination hv2 - this
  have hr2' : a.r2 (q.z + value s q) = perp2 q := mul_left_cancel₀ hcv.ne' hr2
  by_cases h1 : -a.dz ≤ q.z + value s q
  · refine ⟨⟨q.x, q.y, q.z + value s q⟩, ⟨⟨h1, by dsimp only; linarith, ?_⟩, Or.inr (Or.inr ?_)⟩, ?_⟩
    · dsimp only; rw [hr2', perp2_eq]
    · dsimp only; rw [hr2', perp2_eq]
    · rw [show q = ⟨q.x, q.y, q.z⟩ from rfl, dist_above, abs_of_nonneg (by linarith)]
      dsimp only
      linarith
  · rw [not_le] at h1
    refine ⟨⟨q.x, q.y, -a.dz⟩, ⟨⟨le_refl _, by dsimp only; linarith, ?_⟩, Or.inl rfl⟩, ?_⟩
    · have := r2_mono hv h1.le
      rw [hr2', perp2_eq] at this
      exact this
    · rw [show q = ⟨q.x, q.y, q.z⟩ from rfl, dist_above, abs_of_nonneg (by linarith)]
      linarith

/-- A point of the solid close to the top. -/
theorem surface_top (hv : a.Valid) {q : V3} (hq : a.Closed q) {e : ℝ} (h : a.dz - q.z ≤ e) :
    ∃ u, a.Surface u ∧ V3.dist q u ≤ e := by
  have hz := hv.dz
  have hhi := hq.hi
  refine ⟨⟨q.x, q.y, a.dz⟩, ⟨⟨by dsimp only; linarith, le_refl _, ?_⟩, Or.inr (Or.inl rfl)⟩, ?_⟩
  · have := r2_mono hv hhi
    exact le_trans hq.r this
  · rw [show q = ⟨q.x, q.y, q.z⟩ from rfl, dist_above, abs_of_nonpos (by linarith)]
    linarith

/-- A point of the solid close to the bottom. -/
theorem surface_bot (hv : a.Valid) (g : Good s a) {q : V3} (hq : a.Closed q) {e : ℝ} (h : q.z + a.dz ≤ e) :
    ∃ u, a.Surface u ∧ V3.dist q u ≤ e := by
  have hz := hv.dz
  have hlo := hq.lo
  by_cases h1 : perp2 q ≤ a.rlo ^ 2
  · refine ⟨⟨q.x, q.y, -a.dz⟩, ⟨⟨le_refl _, by dsimp only; linarith, ?_⟩, Or.inl rfl⟩, ?_⟩
    · dsimp only; rw [r2_bot, ← perp2_eq]; exact h1
    · rw [show q = ⟨q.x, q.y, q.z⟩ from rfl, dist_above, abs_of_nonneg (by linarith)]
      linarith
  · apply surface_below hv g hq
    rw [value_eq hv g]
    have h2 := curv_r2 hv q.z
    have h3 : a.curv * a.rlo ^ 2 ≤ a.curv * perp2 q := mul_le_mul_of_nonneg_left (not_le.mp h1).le (curv_pos hv).le
    nlinarith

theorem qb_vertical {p d : V3} (h : perp2 d = 0) : qb s p d = 1 / 2 * d.z := by
  rw [perp2_eq] at h
  have h1 : d.x = 0 := by nlinarith [sq_nonneg d.x, sq_nonneg d.y]
  have h2 : d.y = 0 := by nlinarith [sq_nonneg d.x, sq_nonneg d.y]
  unfold qb
  rw [h1, h2]; ring

theorem qa_zero (hv : a.Valid) (g : Good s a) {d : V3} (h : qa s d = 0) : perp2 d = 0 := by
  unfold qa at h
  rw [g.fA] at h
  rcases mul_eq_zero.mp h with h | h
  · exact absurd h (curv_pos hv).ne'
  · exact h

theorem not_degenerate (hv : a.Valid) (g : Good s a) {p d : V3} (hd : d.mag2 = 1) : qa s d = 0 → qb s p d ≠ 0 := by
  intro h h1
  have h2 := qa_zero hv g h
  rw [qb_vertical h2] at h1
  rw [perp2_eq] at h2
  have := d_sq hd
  nlinarith

/-- C138: from a point of the solid the distance out is never negative. -/
theorem C138_nonneg (hv : a.Valid) (g : Good s a) (p d : V3) (hd : d.mag2 = 1) (hp : a.Closed p) :
    0 ≤ distanceToOut s p d := by
  have hk := kTiny_pos
  have hc : qc s p ≤ 0 := by rw [qc_eq]; exact (value_closed hv g p).mpr ((closed_iff p).mp hp).2
  obtain ⟨h1, h2⟩ := (closed_iff p).mp hp
  unfold distanceToOut
  rw [if_neg (by rw [g.dz]; linarith [kTolerance_pos]), if_neg (by rw [diff_eq hv g]; unfold kHalfTolerance kTolerance; linarith)]
  split
  · exact le_refl _
  split
  · exact le_refl _
  apply le_min
  · exact (sideOut_sharp (qa_nonneg hv g d) hc (not_degenerate hv g hd) (sideOut_eq hv g hp d)).1
  · have := hp.lo
    have := hp.hi
    by_cases hz : d.z < 0
    · rw [lidOut_neg hz, g.dz]; exact div_nonneg (by linarith) (by linarith)
    · rw [lidOut_pos hz, g.dz]; exact div_nonneg (by linarith) (by linarith [not_lt.mp hz])

/-- C138: the reported distance leads to the surface, up to the error of the guarded divisions.  A distance of zero can also
mean that the point is within the tolerance of the surface.  The direction is not almost parallel to the axis, or it is
exactly parallel. -/
theorem C138_sharp (hv : a.Valid) (g : Good s a) (p d : V3) (hd : d.mag2 = 1) (hp : a.Closed p)
    (hdir : kTiny ≤ a.curv * perp2 d ∨ perp2 d = 0 ∧ a.dz ≤ 10 ^ 20) :
    ∃ u, a.Surface u ∧ V3.dist (V3.at' p d (distanceToOut s p d)) u ≤
      3 * kTiny * (distanceToOut s p d + distanceToOut s p d ^ 2) +
        (open Classical in if distanceToOut s p d = 0 then (1 + a.curv) * kTolerance else 0) := by
  have hk := kTiny_pos
  have hcv := curv_pos hv
  have ht := kTolerance_pos
  have hdz := hv.dz
  have hc : qc s p ≤ 0 := by rw [qc_eq]; exact (value_closed hv g p).mpr ((closed_iff p).mp hp).2
  have hA := qa_nonneg hv g d
  obtain ⟨h1, h2⟩ := (closed_iff p).mp hp
  have hr0 := C138_nonneg hv g p d hd hp
  have hclosed := C138_never_beyond hv g p d hp _ hr0 (le_refl _)
  have e0 : V3.at' p d 0 = p := by ext <;> simp
  have htol : 0 ≤ (1 + a.curv) * kTolerance := by positivity
  have hsmall : ∀ b : ℝ, (open Classical in if b = 0 then (1 + a.curv) * kTolerance else 0) ≥ 0 := by
    intro b; split <;> linarith
  have weaken : ∀ {q : V3} {e e' : ℝ}, (∃ u, a.Surface u ∧ V3.dist q u ≤ e) → e ≤ e' →
      ∃ u, a.Surface u ∧ V3.dist q u ≤ e' := fun ⟨u, hu, hu'⟩ h => ⟨u, hu, le_trans hu' h⟩
  by_cases hA1 : (OnTop s p ∧ d.z > 0) ∨ (OnBottom s p ∧ d.z < 0)
  · have hres : distanceToOut s p d = 0 := by
      unfold distanceToOut
      rw [if_neg (by rw [g.dz]; linarith), if_neg (by rw [diff_eq hv g]; unfold kHalfTolerance kTolerance; linarith), if_pos hA1]
    rw [hres, e0]
    simp only [if_true]
    rcases hA1 with ⟨⟨h3, -⟩, -⟩ | ⟨⟨h3, -⟩, -⟩
    · rw [g.dz] at h3
      refine weaken (surface_top hv hp (e := kTolerance) ?_) (by nlinarith)
      linarith [(abs_lt.mp h3).1]
    · rw [g.dz] at h3
      refine weaken (surface_bot hv g hp (e := kTolerance) ?_) (by nlinarith)
      linarith [(abs_lt.mp h3).2]
  by_cases hA2 : diff s p > -kTolerance ∧ diff s p < kTolerance ∧ d.dot (flatNormal s p) > 0
  · have hres : distanceToOut s p d = 0 := by
      unfold distanceToOut
      rw [if_neg (by rw [g.dz]; linarith), if_neg (by rw [diff_eq hv g]; unfold kHalfTolerance kTolerance; linarith),
        if_neg hA1, if_pos hA2]
    rw [hres, e0]
    simp only [if_true]
    refine weaken (surface_below hv g hp (e := a.curv * kTolerance) ?_) (by nlinarith)
    rw [value_eq hv g, ← diff_eq hv g]
    have := mul_le_mul_of_nonneg_left hA2.1.le hcv.le
    linarith
  have hres : distanceToOut s p d = min (sideOut s p d) (lidOut s p d) := by
    unfold distanceToOut
    rw [if_neg (by rw [g.dz]; linarith), if_neg (by rw [diff_eq hv g]; unfold kHalfTolerance kTolerance; linarith),
      if_neg hA1, if_neg hA2]
  have hAq : qa s d = a.curv * perp2 d := by unfold qa; rw [g.fA]
  have lid : distanceToOut s p d = lidOut s p d → ∃ u, a.Surface u ∧ V3.dist (V3.at' p d (distanceToOut s p d)) u ≤
      3 * kTiny * (distanceToOut s p d + distanceToOut s p d ^ 2) +
        (open Classical in if distanceToOut s p d = 0 then (1 + a.curv) * kTolerance else 0) := by
    intro hl
    have h3 := hsmall (distanceToOut s p d)
    have h4 : distanceToOut s p d * kTiny ≤ 3 * kTiny * (distanceToOut s p d + distanceToOut s p d ^ 2) := by
      nlinarith [mul_nonneg hr0 hk.le, mul_nonneg hk.le (sq_nonneg (distanceToOut s p d))]
    by_cases hz : d.z < 0
    · refine weaken (surface_bot hv g hclosed (e := distanceToOut s p d * kTiny) ?_) (by linarith)
      simp only [V3.at_z]
      have h5 : distanceToOut s p d * (-d.z + kTiny) = a.dz + p.z := by
        rw [hl, lidOut_neg hz, g.dz]; exact div_mul_cancel₀ _ (by linarith)
      nlinarith
    · refine weaken (surface_top hv hclosed (e := distanceToOut s p d * kTiny) ?_) (by linarith)
      simp only [V3.at_z]
      have h5 : distanceToOut s p d * (d.z + kTiny) = a.dz - p.z := by
        rw [hl, lidOut_pos hz, g.dz]; exact div_mul_cancel₀ _ (by linarith [not_lt.mp hz])
      nlinarith
  rcases le_total (lidOut s p d) (sideOut s p d) with hm | hm
  · exact lid (by rw [hres, min_eq_right hm])
  · have hs : distanceToOut s p d = sideOut s p d := by rw [hres, min_eq_left hm]
    obtain ⟨hs0, hsh⟩ := sideOut_sharp hA hc (not_degenerate hv g hd) (hs.trans (sideOut_eq hv g hp d))
    by_cases hcase : kTiny ≤ qa s d ∨ qb s p d ≤ 0
    · refine weaken (surface_below hv g hclosed (e := 3 * kTiny * (distanceToOut s p d + distanceToOut s p d ^ 2)) ?_)
        (by linarith [hsmall (distanceToOut s p d)])
      rw [value_at]
      exact hsh hcase
    · rw [not_or, not_le, not_le] at hcase
      rcases hdir with hdir | ⟨hdir, hbig⟩
      · rw [hAq] at hcase; linarith [hcase.1]
      · -- straight up: the lid comes first
        have hA0 : qa s d = 0 := by rw [hAq, hdir, mul_zero]
        have hb := qb_vertical (s := s) (p := p) hdir
        have hdz1 : d.z = 1 := by
          have := d_sq hd
          rw [perp2_eq] at hdir
          have h3 : d.z ^ 2 = 1 := by linarith
          have h4 : 0 < d.z := by linarith [hcase.2]
          nlinarith
        have h5 : sideOut s p d = 1 / kTiny := by
          rw [sideOut_eq hv g hp, if_pos hcase.2, hA0, hb, hdz1, nonZero_of_nonneg (le_refl _)]
          rw [show (1 / 2 * 1 * (1 / 2 * 1) - 0 * qc s p : ℝ) = (1 / 2) ^ 2 by ring, sqrt_sq (by norm_num)]
          norm_num
        have h6 : lidOut s p d = (a.dz - p.z) / (1 + kTiny) := by
          rw [lidOut_pos (by rw [hdz1]; norm_num), hdz1, g.dz]
        have h7 : (a.dz - p.z) / (1 + kTiny) ≤ a.dz - p.z := by
          apply div_le_self (by linarith [hp.hi]) (by linarith)
        have h8 : (1 : ℝ) / kTiny = 10 ^ 30 := by unfold kTiny; norm_num
        have h9 := hp.lo
        rw [h5, h6, h8] at hm
        norm_num at hm hbig
        linarith

/-- C138: a point that is outside by more than the tolerance gets `-1`. -/
theorem C138_wrong_side (hv : a.Valid) (g : Good s a) (p d : V3)
    (h : |p.z| > a.dz + kTolerance ∨ p.x ^ 2 + p.y ^ 2 > a.r2 p.z + kHalfTolerance) : distanceToOut s p d = -1 := by
  unfold distanceToOut
  split
  · rfl
  · rename_i h1
    rw [g.dz] at h1
    rw [if_pos]
    rw [diff_eq hv g, perp2_eq]
    rcases h with h | h
    · exact absurd h h1
    · linarith

/-- C138: a point that counts as on the top lid but is above it, moving along the lid, gets a huge negative distance. -/
theorem C138_glide_counterexample : inside cupS ⟨0, 0, 1 + 1 / 10 ^ 10⟩ = .surface ∧
    distanceToOut cupS ⟨0, 0, 1 + 1 / 10 ^ 10⟩ ⟨1, 0, 0⟩ ≤ -10 ^ 20 := by
  constructor
  · have h : genericKernel true cupS ⟨0, 0, 1 + 1 / 10 ^ 10⟩ = (false, false) := by
      unfold genericKernel
      rw [diff_eq cup_valid cup_good, cup_good.dz, perp2_eq]
      dsimp only
      rw [cup_r2, if_neg (by norm_num [cup, kTolerance])]
      simp only [if_true, Prod.mk.injEq, and_true, decide_eq_false_iff_not]
      norm_num [cup, kTolerance]
    unfold inside
    rw [h]
    rfl
  · unfold distanceToOut
    have hdf : diff cupS ⟨0, 0, 1 + 1 / 10 ^ 10⟩ = -(4 + 3 / 2 / 10 ^ 10) := by
      rw [diff_eq cup_valid cup_good, perp2_eq]
      dsimp only
      rw [cup_r2]
      norm_num
    rw [hdf, if_neg (by rw [cup_good.dz]; norm_num [cup, kTolerance]), if_neg (by norm_num [kHalfTolerance, kTolerance]),
      if_neg (by norm_num), if_neg (by norm_num [kTolerance])]
    refine le_trans (min_le_right _ _) ?_
    rw [lidOut_pos (by norm_num), cup_good.dz]
    norm_num [cup, kTiny]

/-- Not vacuous: from the origin along the x axis. -/
example : cup.Closed (V3.at' ⟨0, 0, 0⟩ ⟨1, 0, 0⟩ (distanceToOut cupS ⟨0, 0, 0⟩ ⟨1, 0, 0⟩)) ∧
    ∃ u, cup.Surface u ∧ V3.dist (V3.at' ⟨0, 0, 0⟩ ⟨1, 0, 0⟩ (distanceToOut cupS ⟨0, 0, 0⟩ ⟨1, 0, 0⟩)) u ≤
      3 * kTiny * (distanceToOut cupS ⟨0, 0, 0⟩ ⟨1, 0, 0⟩ + distanceToOut cupS ⟨0, 0, 0⟩ ⟨1, 0, 0⟩ ^ 2) +
        (open Classical in if distanceToOut cupS ⟨0, 0, 0⟩ ⟨1, 0, 0⟩ = 0 then (1 + cup.curv) * kTolerance else 0) := by
  have hp : cup.Closed ⟨0, 0, 0⟩ := ⟨by norm_num [cup], by norm_num [cup], by rw [cup_r2]; norm_num⟩
  have hd : (⟨1, 0, 0⟩ : V3).mag2 = 1 := by norm_num [V3.mag2, V3.dot]
  refine ⟨C138_never_beyond cup_valid cup_good _ _ hp _ (C138_nonneg cup_valid cup_good _ _ hd hp) (le_refl _),
    C138_sharp cup_valid cup_good _ _ hd hp (Or.inl ?_)⟩
  rw [cup_curv]
  norm_num [perp2, kTiny]

example : distanceToOut cupS ⟨3, 0, 0⟩ ⟨1, 0, 0⟩ = -1 := by
  apply C138_wrong_side cup_valid cup_good
  right
  rw [cup_r2]
  norm_num [kHalfTolerance, kTolerance]

end Paraboloid
end VecGeom
