import Verif.Ellipsoid.Lemmas

/-!
# C102, C103: containment, classification and safeties of cut ellipsoids
-/

namespace VecGeom
namespace Ellipsoid

open Real

variable {a : Par}

/-- A flat ellipsoid with both cuts, used as an example. -/
noncomputable def bowl : Par := ⟨4, 3, 2, -1, 1 / 2⟩

theorem bowl_valid : bowl.Valid := by constructor <;> norm_num [bowl, kTolerance]
theorem bowl_r : bowl.r = 2 := by norm_num [Par.r, bowl]

theorem scale_iff (hv : a.Valid) (p : V3) (c : ℝ) (hc : 0 ≤ a.r + c) : nrm (sc a p) ≤ a.r + c ↔ a.ell p ≤ (1 + c / a.r) ^ 2 := by
  have hr := r_pos hv
  rw [← pow_le_pow_iff_left₀ (nrm_nonneg _) hc (by norm_num : (2 : ℕ) ≠ 0), nrm_sc hv]
  have e : (a.r + c) ^ 2 = a.r ^ 2 * (1 + c / a.r) ^ 2 := by field_simp
  rw [e]
  have : 0 < a.r ^ 2 := by positivity
  exact mul_le_mul_iff_right₀ this

theorem cut_iff (hv : a.Valid) (p : V3) (c : ℝ) :
    |cz a p| ≤ dim a + c ↔ a.lo - c * (a.z / a.r) ≤ p.z ∧ p.z ≤ a.hi + c * (a.z / a.r) := by
  have hr := (r_pos hv).ne'
  have hz := (z_pos hv).ne'
  have := cz_le_iff hv p (c * (a.z / a.r))
  rw [show c * (a.z / a.r) * (a.r / a.z) = c by field_simp] at this
  exact this

/-- C102: `Contains` and `Inside` agree, and they enlarge and shrink the solid by half the tolerance `h` in the coordinates in which the ellipsoid
is a sphere with the smallest semi-axis `r` as radius: `Contains` accepts the points of the ellipsoid with `1 + h/r` times the semi-axes that lie
between the cuts moved apart by `h` times the ratio of the semi-axis in z to `r`. -/
theorem C102_inside (hv : a.Valid) (p : V3) :
    (contains (of a) p = true ↔ inside (of a) p ≠ .outside) ∧
    (contains (of a) p = true ↔ a.ell p ≤ (1 + kHalfTolerance / a.r) ^ 2 ∧
      a.lo - kHalfTolerance * (a.z / a.r) ≤ p.z ∧ p.z ≤ a.hi + kHalfTolerance * (a.z / a.r)) ∧
    (inside (of a) p = .inside ↔ a.ell p ≤ (1 - kHalfTolerance / a.r) ^ 2 ∧
      a.lo + kHalfTolerance * (a.z / a.r) ≤ p.z ∧ p.z ≤ a.hi - kHalfTolerance * (a.z / a.r)) := by
  have hh := kHalfTolerance_pos
  have hlt := half_lt_r hv
  refine ⟨?_, ?_, ?_⟩
  · rw [ne_eq, inside_out]
    unfold contains
    simp
  · unfold contains
    simp only [Bool.not_eq_true', decide_eq_false_iff_not]
    rw [out_iff hv, not_or, not_lt, not_lt, scale_iff hv _ _ (by linarith), cut_iff hv]
  · rw [inside_in, in_iff hv]
    have e := scale_iff hv p (-kHalfTolerance) (by linarith)
    have e2 := cut_iff hv p (-kHalfTolerance)
    rw [show a.r + -kHalfTolerance = a.r - kHalfTolerance by ring, neg_div, show 1 + -(kHalfTolerance / a.r) = 1 - kHalfTolerance / a.r by ring] at e
    rw [show dim a + -kHalfTolerance = dim a - kHalfTolerance by ring, neg_mul, sub_neg_eq_add, ← sub_eq_add_neg] at e2
    rw [e, e2]

theorem far_of_out (hv : a.Valid) {p : V3} {c : ℝ} (h : a.r + c < nrm (sc a p) ∨ dim a + c < |cz a p|) {q : V3} (hq : a.Closed q) :
    c < V3.dist p q := by
  rw [closed_iff hv] at hq
  rcases h with h | h
  · have := nrm_sub_le (sc a p) (sc a q)
    have := dist_sc hv p q
    linarith [hq.2]
  · have := cz_dist hv p q
    linarith [hq.1]

theorem far_of_in (hv : a.Valid) {p : V3} {c : ℝ} (h : nrm (sc a p) ≤ a.r - c ∧ |cz a p| ≤ dim a - c) {q : V3} (hq : ¬ a.Closed q) :
    c < V3.dist p q := by
  rw [closed_iff hv, not_and_or, not_le, not_le] at hq
  rw [V3.dist_comm']
  rcases hq with hq | hq
  · have := cz_dist hv q p
    linarith [h.2]
  · have := nrm_sub_le (sc a q) (sc a p)
    have := dist_sc hv q p
    linarith [h.1]

/-- C102: what the classes mean: every point of the solid is contained, a point that is outside is farther than half the tolerance from
every point of the solid, and a point that is inside is in the solid and farther than half the tolerance from every point that is not. -/
theorem C102_meaning (hv : a.Valid) (p : V3) :
    (a.Closed p → contains (of a) p = true) ∧
    (inside (of a) p = .outside → ∀ q, a.Closed q → kHalfTolerance < V3.dist p q) ∧
    (inside (of a) p = .inside → a.Closed p ∧ ∀ q, ¬ a.Closed q → kHalfTolerance < V3.dist p q) := by
  have hh := kHalfTolerance_pos
  refine ⟨?_, ?_, ?_⟩
  · intro h
    unfold contains
    simp only [Bool.not_eq_true', decide_eq_false_iff_not, out_iff hv]
    intro h'
    have := far_of_out hv h' h
    have e : V3.dist p p = 0 := by simp [V3.dist, V3.dist2]
    linarith
  · intro h q hq
    rw [inside_out, out_iff hv] at h
    exact far_of_out hv h hq
  · intro h
    rw [inside_in, in_iff hv] at h
    exact ⟨(closed_iff hv p).mpr ⟨by linarith [h.2], by linarith [h.1]⟩, fun q hq => far_of_in hv h hq⟩

example : contains (of bowl) ⟨3, 1, 1 / 2⟩ = true ∧ contains (of bowl) ⟨0, 0, 1⟩ = false ∧ inside (of bowl) ⟨1, 1, 0⟩ = .inside := by
  refine ⟨(C102_meaning bowl_valid _).1 ⟨?_, ?_, ?_⟩, ?_, ?_⟩
  · norm_num [bowl]
  · norm_num [bowl]
  · norm_num [Par.ell, bowl]
  · rw [← Bool.not_eq_true, (C102_inside bowl_valid _).2.1, bowl_r]
    norm_num [Par.ell, bowl, kHalfTolerance, kTolerance]
  · rw [(C102_inside bowl_valid _).2.2, bowl_r]
    norm_num [Par.ell, bowl, kHalfTolerance, kTolerance]

/-- Half a long needle. -/
noncomputable def needle : Par := ⟨1, 1, 10 ^ 6, -(10 ^ 6), 0⟩
theorem needle_valid : needle.Valid := by constructor <;> norm_num [needle, kTolerance]

/-- C102: the layer of the points that count as the surface is not as thin as the tolerance: a point `4e-4` above the cut of half a needle is
contained, four hundred thousand tolerances from every point of the solid. -/
theorem C102_tolerance_counterexample : contains (of needle) ⟨0, 0, 4 / 10 ^ 4⟩ = true ∧
    ∀ q, needle.Closed q → 400000 * kTolerance ≤ V3.dist ⟨0, 0, 4 / 10 ^ 4⟩ q := by
  constructor
  · have hr : needle.r = 1 := by norm_num [Par.r, needle]
    rw [(C102_inside needle_valid _).2.1, hr]
    norm_num [Par.ell, needle, kHalfTolerance, kTolerance]
  · intro q hq
    have h1 := V3.abs_z_le_dist ⟨0, 0, 4 / 10 ^ 4⟩ q
    have h2 := le_abs_self ((4 : ℝ) / 10 ^ 4 - q.z)
    have h3 : q.z ≤ 0 := hq.hi
    have e : 400000 * kTolerance = 4 / 10 ^ 4 := by norm_num [kTolerance]
    rw [e]
    dsimp only at h1
    linarith

/-! ## Safeties -/

/-- The half extents of the solid. -/
theorem extent_bound (hv : a.Valid) {q : V3} (hq : a.Closed q) : |q.x| ≤ (of a).xmax ∧ |q.y| ≤ (of a).ymax := by
  have hx := x_pos hv
  have hy := y_pos hv
  have hz := z_pos hv
  have hell := hq.r
  unfold Par.ell at hell
  have key : ∃ s, 0 ≤ s ∧ extentScale a.z a.lo a.hi = s ∧ (q.x / a.x) ^ 2 + (q.y / a.y) ^ 2 ≤ s ^ 2 := by
    refine ⟨_, ?_, rfl, ?_⟩
    · unfold extentScale; split
      · exact sqrt_nonneg _
      split
      · exact sqrt_nonneg _
      · norm_num
    · unfold extentScale
      have cut : ∀ c : ℝ, |c| ≤ a.z → c ^ 2 ≤ q.z ^ 2 → (q.x / a.x) ^ 2 + (q.y / a.y) ^ 2 ≤ √((1 - c / a.z) * (1 + c / a.z)) ^ 2 := by
        intro c h1 h2
        have e : (1 - c / a.z) * (1 + c / a.z) = 1 - (c / a.z) ^ 2 := by ring
        have h3 : (c / a.z) ^ 2 ≤ (q.z / a.z) ^ 2 := by
          rw [div_pow, div_pow]; exact div_le_div_of_nonneg_right h2 (by positivity)
        rw [e, sq_sqrt (by nlinarith [sq_nonneg (q.x / a.x), sq_nonneg (q.y / a.y)])]
        linarith
      split
      · rename_i h
        exact cut _ (by rw [abs_le]; exact ⟨by linarith [hv.lo, hv.cut], hv.hi⟩) (by nlinarith [hq.hi])
      split
      · rename_i h
        exact cut _ (by rw [abs_le]; exact ⟨hv.lo, by linarith [hv.hi, hv.cut]⟩) (by nlinarith [hq.lo])
      · nlinarith [sq_nonneg (q.z / a.z)]
  obtain ⟨s, hs0, hs, hk⟩ := key
  have ex : (of a).xmax = a.x * s := by rw [of_eq hv, ← hs]; rfl
  have ey : (of a).ymax = a.y * s := by rw [of_eq hv, ← hs]; rfl
  rw [ex, ey]
  constructor
  · apply abs_le_of_sq_le_sq _ (by positivity)
    have h1 : (q.x / a.x) ^ 2 ≤ s ^ 2 := by nlinarith [sq_nonneg (q.y / a.y)]
    rw [div_pow, div_le_iff₀ (by positivity)] at h1
    rw [mul_pow]; linarith
  · apply abs_le_of_sq_le_sq _ (by positivity)
    have h1 : (q.y / a.y) ^ 2 ≤ s ^ 2 := by nlinarith [sq_nonneg (q.x / a.x)]
    rw [div_pow, div_le_iff₀ (by positivity)] at h1
    rw [mul_pow]; linarith

/-- C103: safeties.  `SafetyToIn` is at most the distance to every point of the solid, and positive exactly for the points that `Inside` puts
outside; `SafetyToOut` is at most the distance to every point that is not in the solid, not negative in the solid and positive only for points
that `Inside` puts inside. -/
theorem C103_safety (hv : a.Valid) (p : V3) :
    (∀ q, a.Closed q → safetyToIn (of a) p ≤ V3.dist p q) ∧
    (0 < safetyToIn (of a) p ↔ inside (of a) p = .outside) ∧
    (∀ q, ¬ a.Closed q → safetyToOut (of a) p ≤ V3.dist p q) ∧
    (a.Closed p → 0 ≤ safetyToOut (of a) p) ∧
    (0 < safetyToOut (of a) p → inside (of a) p = .inside) ∧
    (safetyToIn (of a) p < 0 ↔ 0 < safetyToOut (of a) p) := by
  have hh := kHalfTolerance_pos
  have hrr : √(p.x * (of a).sx * (p.x * (of a).sx) + p.y * (of a).sy * (p.y * (of a).sy) + p.z * (of a).sz * (p.z * (of a).sz)) = nrm (sc a p) := by
    rw [rr_eq hv, sqrt_sq (nrm_nonneg _)]
  have etop : (of a).zTop = a.hi := by rw [of_eq hv]; rfl
  have ebot : (of a).zBottom = a.lo := by rw [of_eq hv]; rfl
  have hneg : min (dim a - |cz a p|) (a.r - nrm (sc a p)) = -max (|cz a p| - dim a) (nrm (sc a p) - a.r) := by
    rw [← min_neg_neg, neg_sub, neg_sub]
  have ein : safetyToIn (of a) p =
      if (if |max (|cz a p| - dim a) (nrm (sc a p) - a.r)| ≤ kHalfTolerance then 0 else max (|cz a p| - dim a) (nrm (sc a p) - a.r)) > 0 then
        max (max (if |max (|cz a p| - dim a) (nrm (sc a p) - a.r)| ≤ kHalfTolerance then 0 else max (|cz a p| - dim a) (nrm (sc a p) - a.r))
          (max (p.z - a.hi) (a.lo - p.z))) (max (|p.x| - (of a).xmax) (|p.y| - (of a).ymax))
      else (if |max (|cz a p| - dim a) (nrm (sc a p) - a.r)| ≤ kHalfTolerance then 0 else max (|cz a p| - dim a) (nrm (sc a p) - a.r)) := by
    unfold safetyToIn
    dsimp only
    rw [hrr, cz_def hv, dim_def hv, r_def hv, etop, ebot]
  have eout : safetyToOut (of a) p =
      if (if |max (|cz a p| - dim a) (nrm (sc a p) - a.r)| ≤ kHalfTolerance then 0 else -max (|cz a p| - dim a) (nrm (sc a p) - a.r)) > 0 then
        min (a.r - nrm (sc a p)) (min (a.hi - p.z) (p.z - a.lo))
      else (if |max (|cz a p| - dim a) (nrm (sc a p) - a.r)| ≤ kHalfTolerance then 0 else -max (|cz a p| - dim a) (nrm (sc a p) - a.r)) := by
    unfold safetyToOut
    dsimp only
    rw [hrr, cz_def hv, dim_def hv, r_def hv, etop, ebot, hneg, abs_neg]
  have hout : inside (of a) p = .outside ↔ kHalfTolerance < max (|cz a p| - dim a) (nrm (sc a p) - a.r) := by
    rw [inside_out, out_iff hv, lt_max_iff]
    constructor <;> rintro (h | h) <;> first | (left; linarith) | (right; linarith)
  have hin : max (|cz a p| - dim a) (nrm (sc a p) - a.r) ≤ -kHalfTolerance → inside (of a) p = .inside := by
    intro h
    rw [inside_in, in_iff hv]
    rw [max_le_iff] at h
    exact ⟨by linarith [h.2], by linarith [h.1]⟩
  have hle : ∀ q, a.Closed q → max (|cz a p| - dim a) (nrm (sc a p) - a.r) ≤ V3.dist p q := by
    intro q hq
    rw [closed_iff hv] at hq
    refine max_le ?_ ?_
    · have := cz_dist hv p q
      linarith [hq.1]
    · have := nrm_sub_le (sc a p) (sc a q)
      have := dist_sc hv p q
      linarith [hq.2]
  have hle2 : ∀ q, a.Closed q → max (max (p.z - a.hi) (a.lo - p.z)) (max (|p.x| - (of a).xmax) (|p.y| - (of a).ymax)) ≤ V3.dist p q := by
    intro q hq
    have h1 := V3.abs_x_le_dist p q
    have h2 := V3.abs_y_le_dist p q
    have h3 := abs_le.mp (V3.abs_z_le_dist p q)
    have h4 := abs_sub_abs_le_abs_sub p.x q.x
    have h5 := abs_sub_abs_le_abs_sub p.y q.y
    have h6 := extent_bound hv hq
    refine max_le (max_le ?_ ?_) (max_le ?_ ?_)
    · linarith [hq.hi]
    · linarith [hq.lo]
    · linarith [h6.1]
    · linarith [h6.2]
  have hle' : ∀ q, ¬ a.Closed q → min (a.r - nrm (sc a p)) (min (a.hi - p.z) (p.z - a.lo)) ≤ V3.dist p q := by
    intro q hq
    have h3 := abs_le.mp (V3.abs_z_le_dist p q)
    have hc : q.z < a.lo ∨ a.hi < q.z ∨ a.r < nrm (sc a q) := by
      by_contra hn
      rw [not_or, not_or, not_lt, not_lt, not_lt] at hn
      exact hq ⟨hn.1, hn.2.1, (nrm_le_iff hv q).mp hn.2.2⟩
    rcases hc with h | h | h
    · refine (min_le_right _ _).trans ((min_le_right _ _).trans ?_)
      linarith
    · refine (min_le_right _ _).trans ((min_le_left _ _).trans ?_)
      linarith
    · refine (min_le_left _ _).trans ?_
      have h1 := nrm_sub_le (sc a q) (sc a p)
      have h2 := dist_sc hv q p
      rw [V3.dist_comm' q p] at h2
      linarith
  have hpos : max (|cz a p| - dim a) (nrm (sc a p) - a.r) < 0 → 0 < min (a.r - nrm (sc a p)) (min (a.hi - p.z) (p.z - a.lo)) := by
    intro h
    rw [max_lt_iff] at h
    have hs := (ratio_z hv).1
    have h1 := abs_lt.mp (show |cz a p| < dim a by linarith [h.1])
    unfold cz dim at h1
    rw [sc_z] at h1
    generalize a.r / a.z = s at *
    refine lt_min (by linarith [h.2]) (lt_min ?_ ?_)
    · have : p.z * s < a.hi * s := by linarith [h1.2]
      linarith [lt_of_mul_lt_mul_right this hs.le]
    · have : a.lo * s < p.z * s := by linarith [h1.1]
      linarith [lt_of_mul_lt_mul_right this hs.le]
  have hc : a.Closed p → max (|cz a p| - dim a) (nrm (sc a p) - a.r) ≤ 0 := by
    intro h
    rw [closed_iff hv] at h
    exact max_le (by linarith [h.1]) (by linarith [h.2])
  rw [ein, eout, hout]
  generalize max (|cz a p| - dim a) (nrm (sc a p) - a.r) = m at *
  have hd : ∀ q, 0 ≤ V3.dist p q := V3.dist_nonneg' p
  by_cases hm : |m| ≤ kHalfTolerance
  · simp only [hm, if_true, gt_iff_lt, lt_irrefl, if_false]
    rw [abs_le] at hm
    exact ⟨fun q _ => hd q, ⟨fun h => h.elim, fun h => by linarith⟩, fun q _ => hd q, fun _ => le_refl _, fun h => h.elim, trivial⟩
  · simp only [hm, if_false]
    rw [not_le, lt_abs] at hm
    rcases hm with hm | hm
    · have h1 : m > 0 := by linarith
      have h2 : ¬ (-m > 0) := by linarith
      rw [if_pos h1, if_neg h2]
      have h3 : m ≤ max (max m (max (p.z - a.hi) (a.lo - p.z))) (max (|p.x| - (of a).xmax) (|p.y| - (of a).ymax)) :=
        (le_max_left _ _).trans (le_max_left _ _)
      refine ⟨fun q hq => ?_, ⟨fun _ => hm, fun _ => by linarith⟩, fun q _ => by linarith [hd q], fun h => by linarith [hc h], fun h => by linarith,
        ⟨fun h => by linarith, fun h => by linarith⟩⟩
      have := max_le_iff.mp (hle2 q hq)
      exact max_le (max_le (hle q hq) this.1) this.2
    · have h1 : ¬ m > 0 := by linarith
      have h2 : -m > 0 := by linarith
      rw [if_neg h1, if_pos h2]
      have h3 := hpos (by linarith)
      exact ⟨fun q _ => by linarith [hd q], ⟨fun h => by linarith, fun h => by linarith⟩, hle', fun _ => h3.le, fun _ => hin (by linarith),
        ⟨fun _ => h3, fun _ => by linarith⟩⟩

example : 0 < safetyToIn (of bowl) ⟨0, 0, 1⟩ ∧ 0 < safetyToOut (of bowl) ⟨0, 0, 0⟩ := by
  constructor
  · rw [(C103_safety bowl_valid _).2.1]
    by_contra h
    have h3 := (C102_inside bowl_valid ⟨0, 0, 1⟩).2.1.mp ((C102_inside bowl_valid ⟨0, 0, 1⟩).1.mpr h)
    rw [bowl_r] at h3
    norm_num [Par.ell, bowl, kHalfTolerance, kTolerance] at h3
  · rw [← (C103_safety bowl_valid _).2.2.2.2.2]
    have hh : kHalfTolerance < 1 / 100 := by norm_num [kHalfTolerance, kTolerance]
    unfold safetyToIn
    dsimp only
    rw [cz_def bowl_valid ⟨0, 0, 0⟩, dim_def bowl_valid, r_def bowl_valid, bowl_r]
    have e1 : |cz bowl ⟨0, 0, 0⟩| - dim bowl = -1 / 2 := by
      unfold cz dim
      rw [sc_z, bowl_r]
      norm_num [bowl]
    have e2 : √((0 : ℝ) * (of bowl).sx * (0 * (of bowl).sx) + 0 * (of bowl).sy * (0 * (of bowl).sy) + 0 * (of bowl).sz * (0 * (of bowl).sz)) = 0 := by simp
    have e3 : ¬ |(-1 / 2 : ℝ)| ≤ kHalfTolerance := by norm_num [kHalfTolerance, kTolerance]
    have e4 : max (-1 / 2 : ℝ) (0 - 2) = -1 / 2 := max_eq_left (by norm_num)
    have e5 : ¬ (-1 / 2 : ℝ) > 0 := by norm_num
    rw [e1, e2, e4, if_neg e3, if_neg e5]
    norm_num

end Ellipsoid
end VecGeom
