import Verif.EllCone.Lemmas
import Verif.Base.Halfspace

/-!
# C160, C161, C163: construction, containment, safeties, extent and convexity of elliptical cones
-/

namespace VecGeom
namespace EllCone

open Real

variable {c : Par} {t : Struct}

/-- A concrete one: twice as wide in x as in y, cut at half its height. -/
def tent : Par := ⟨2, 1, 4, 2⟩

theorem tent_valid : tent.Valid := by constructor <;> norm_num [tent, kTolerance]

/-- C160: whatever the parameters, what is made is a valid cone: those below twice the tolerance are raised to it, and the cut is
lowered to the height; valid parameters are kept. -/
theorem C160_parameters (m : Struct) (a b h z : ℝ) :
    let c : Par := ⟨max (2 * kTolerance) a, max (2 * kTolerance) b, max (2 * kTolerance) h,
      min (max (2 * kTolerance) h) (max (2 * kTolerance) z)⟩
    c.Valid ∧ Good (make m a b h z) c ∧ Good (setParameters m a b h z) c ∧ ((⟨a, b, h, z⟩ : Par).Valid → c = ⟨a, b, h, z⟩) := by
  intro c
  have hv : c.Valid := ⟨le_max_left _ _, le_max_left _ _, le_max_left _ _, le_min (le_max_left _ _) (le_max_left _ _), min_le_left _ _⟩
  have e : setParameters m a b h z = cache c.a c.b c.h c.cut m.bbox := by
    unfold setParameters
    dsimp only
    have key : ∀ (x : ℝ) (w : Prop) [Decidable (w ∧ x < 2 * kTolerance)], (x < 2 * kTolerance → w) →
        (if w ∧ x < 2 * kTolerance then 2 * kTolerance else x) = max (2 * kTolerance) x := by
      intro x w _ hw
      by_cases hx : x < 2 * kTolerance
      · rw [if_pos ⟨hw hx, hx⟩, max_eq_left hx.le]
      · rw [if_neg (fun h => hx h.2), max_eq_right (not_lt.mp hx)]
    rw [key a _ (fun h => Or.inl h), key b _ (fun h => Or.inr (Or.inl h)), key h _ (fun h => Or.inr (Or.inr (Or.inl h))),
      key z _ (fun h => Or.inr (Or.inr (Or.inr h)))]
  refine ⟨hv, ?_, ?_, fun hw => ?_⟩
  · have g := good_cache c m.bbox
    rw [← e] at g
    exact ⟨g.dx, g.dy, g.dz, g.zcut, g.ix, g.iy, g.cos, g.apex, g.rsph, g.vol⟩
  · rw [e]; exact good_cache c _
  · have h1 : max (2 * kTolerance) a = a := max_eq_right hw.a
    have h2 : max (2 * kTolerance) b = b := max_eq_right hw.b
    have h3 : max (2 * kTolerance) h = h := max_eq_right hw.h
    have h4 : max (2 * kTolerance) z = z := max_eq_right hw.cut
    have h5 : min h z = z := min_eq_right hw.top
    simp only [c, h1, h2, h3, h4, h5]

/-- C160: what `Inside` and `Contains` compare. -/
theorem C160_inside (g : Good t c) (p : V3) :
    (inside t p = .inside ↔ (c.rho p + p.z - c.h) * c.cosMin ≤ -kHalfTolerance ∧ |p.z| - c.cut ≤ -kHalfTolerance) ∧
    (inside t p = .outside ↔ kHalfTolerance < (c.rho p + p.z - c.h) * c.cosMin ∨ kHalfTolerance < |p.z| - c.cut) ∧
    (contains t p = true ↔ inside t p ≠ .outside) := by
  have hT := kHalfTolerance_pos
  have e : approx t p = max ((c.rho p + p.z - c.h) * c.cosMin) (|p.z| - c.cut) := by
    unfold approx; rw [side_eq g, g.zcut]
  have h2 : inside t p = .outside ↔ kHalfTolerance < approx t p := by
    unfold inside
    by_cases h1 : approx t p ≤ -kHalfTolerance
    · rw [if_pos h1]
      simp only [reduceCtorEq, false_iff, not_lt]; linarith
    · rw [if_neg h1]
      by_cases h2 : approx t p > kHalfTolerance
      · rw [if_pos h2]; simp only [true_iff]; exact h2
      · rw [if_neg h2]; simp only [reduceCtorEq, false_iff]; exact h2
  refine ⟨?_, ?_, ?_⟩
  · rw [← max_le_iff, ← e]
    unfold inside
    by_cases h1 : approx t p ≤ -kHalfTolerance
    · rw [if_pos h1]; simp only [true_iff]; exact h1
    · rw [if_neg h1]
      split <;> simp only [reduceCtorEq, false_iff] <;> exact h1
  · rw [h2, e, lt_max_iff]
  · rw [Ne, h2]
    unfold contains
    rw [Bool.not_eq_true', decide_eq_false_iff_not]

/-- C160: points reported inside are in the solid with a ball of half the tolerance around them; points reported outside are not in
it, nor is any point of such a ball; points of the surface are reported on the surface. -/
theorem C160_sound (hv : c.Valid) (g : Good t c) (p : V3) :
    (inside t p = .inside → c.Open p ∧ ∀ q, V3.dist p q ≤ kHalfTolerance → c.Closed q) ∧
    (inside t p = .outside → ∀ q, V3.dist p q ≤ kHalfTolerance → ¬ c.Closed q) ∧ (c.Surface p → inside t p = .surface) ∧
    (c.Closed p → contains t p = true) := by
  have hT := kHalfTolerance_pos
  have hc := cos_pos' hv
  obtain ⟨hi, ho, hcn⟩ := C160_inside g p
  have hcl : c.Closed p → inside t p ≠ .outside := by
    intro h h'
    rcases ho.mp h' with h1 | h1
    · nlinarith [h.r]
    · linarith [h.z]
  refine ⟨fun h => ?_, fun h q hq hcq => ?_, fun h => ?_, fun h => hcn.mpr (hcl h)⟩
  · obtain ⟨h1, h2⟩ := hi.mp h
    refine ⟨⟨by linarith, ?_⟩, fun q hq => ⟨?_, ?_⟩⟩
    · by_contra hcon
      push Not at hcon
      nlinarith [mul_nonneg (by linarith : 0 ≤ c.rho p + p.z - c.h) hc.le]
    · have := abs_z_lip q p
      rw [V3.dist_comm'] at this
      linarith
    · have := height_lip hv q p
      rw [V3.dist_comm'] at this
      by_contra hcon
      push Not at hcon
      nlinarith [mul_pos (by linarith : 0 < c.rho q + q.z - c.h) hc]
  · rcases ho.mp h with h1 | h1
    · have := height_lip hv p q
      nlinarith [mul_nonneg (by linarith [hcq.r] : 0 ≤ c.h - (c.rho q + q.z)) hc.le]
    · have := abs_z_lip p q
      linarith [hcq.z]
  · cases h' : inside t p
    · obtain ⟨h1, h2⟩ := hi.mp h'
      rcases h.on with h3 | h3
      · linarith
      · rw [h3, show c.h - p.z + p.z - c.h = 0 by ring, zero_mul] at h1
        linarith
    · rfl
    · exact absurd h' (hcl h.closed)

/-- C160: points that are not reported outside are near the solid. -/
theorem C160_close (hv : c.Valid) (g : Good t c) (p : V3) (h : inside t p ≠ .outside) :
    ∃ q, c.Closed q ∧ V3.dist p q ≤ kHalfTolerance * (1 + max c.a c.b * (1 + 1 / c.cosMin)) := by
  have hT := kHalfTolerance_pos
  have hc := cos_pos' hv
  have ha := a_pos hv
  have hb := b_pos hv
  have hcut := cut_pos hv
  have htop := hv.top
  have h' := fun hh => h ((C160_inside g p).2.1.mpr hh)
  simp only [imp_false, not_or, not_lt] at h'
  obtain ⟨h1, h2⟩ := h'
  have h3 : c.rho p + p.z - c.h ≤ kHalfTolerance / c.cosMin := by rw [le_div_iff₀ hc]; exact h1
  -- the height is clipped, then the point is moved towards the axis
  set z := max (-c.cut) (min c.cut p.z) with hz
  have hz1 : |z| ≤ c.cut := abs_le.mpr ⟨le_max_left _ _, max_le (by linarith) (min_le_left _ _)⟩
  have hz2 : |p.z - z| ≤ kHalfTolerance := by
    rcases le_total c.cut p.z with h4 | h4
    · rw [hz, min_eq_left h4, max_eq_right (by linarith), abs_of_nonneg (by linarith)]
      have := le_abs_self p.z
      linarith
    · rcases le_total (-c.cut) p.z with h5 | h5
      · rw [hz, min_eq_right h4, max_eq_right h5, sub_self, abs_zero]; exact hT.le
      · rw [hz, min_eq_right h4, max_eq_left h5, abs_of_nonpos (by linarith)]
        have := neg_abs_le p.z
        linarith
  have hz3 := abs_le.mp hz1
  have hz4 := abs_le.mp hz2
  have hr := rho_nonneg (c := c) p
  by_cases hin : c.rho p ≤ c.h - z
  · refine ⟨⟨p.x, p.y, z⟩, ⟨hz1, hin⟩, ?_⟩
    have : V3.dist p ⟨p.x, p.y, z⟩ = |p.z - z| := by
      unfold V3.dist V3.dist2
      dsimp only
      rw [← sqrt_sq_eq_abs]
      congr 1; ring
    rw [this]
    refine hz2.trans (le_mul_of_one_le_right hT.le ?_)
    have : 0 ≤ max c.a c.b * (1 + 1 / c.cosMin) := mul_nonneg (ha.le.trans (le_max_left _ _)) (by positivity)
    linarith
  · push Not at hin
    have hzh : 0 ≤ c.h - z := by linarith
    have hrp : 0 < c.rho p := by linarith
    set k := (c.h - z) / c.rho p with hk
    have hk0 : 0 ≤ k := div_nonneg hzh hr
    have hk1 : k ≤ 1 := by rw [hk, div_le_one hrp]; exact hin.le
    have hkr : k * c.rho p = c.h - z := div_mul_cancel₀ _ hrp.ne'
    refine ⟨⟨k * p.x, k * p.y, z⟩, ⟨hz1, ?_⟩, ?_⟩
    · have : c.rho ⟨k * p.x, k * p.y, z⟩ = k * c.rho p := by
        unfold Par.rho
        dsimp only
        rw [show (k * p.x / c.a) ^ 2 + (k * p.y / c.b) ^ 2 = k ^ 2 * ((p.x / c.a) ^ 2 + (p.y / c.b) ^ 2) by ring,
          sqrt_mul (sq_nonneg k), sqrt_sq hk0]
      rw [this, hkr]
    · have hM : 0 < max c.a c.b := lt_max_of_lt_left ha
      -- the way towards the axis
      have hway : (p.x - k * p.x) ^ 2 + (p.y - k * p.y) ^ 2 ≤ (max c.a c.b * (c.rho p - (c.h - z))) ^ 2 := by
        rw [← hkr, show max c.a c.b * (c.rho p - k * c.rho p) = max c.a c.b * c.rho p * (1 - k) by ring, mul_pow _ (1 - k),
          mul_pow (max c.a c.b), rho_sq,
          show (p.x - k * p.x) ^ 2 + (p.y - k * p.y) ^ 2 = (p.x ^ 2 + p.y ^ 2) * (1 - k) ^ 2 by ring]
        apply mul_le_mul_of_nonneg_right _ (sq_nonneg _)
        rw [mul_add]
        apply add_le_add
        · rw [div_pow, ← mul_div_assoc, le_div_iff₀ (by positivity), mul_comm]
          exact mul_le_mul_of_nonneg_right (pow_le_pow_left₀ ha.le (le_max_left _ _) 2) (sq_nonneg _)
        · rw [div_pow, ← mul_div_assoc, le_div_iff₀ (by positivity), mul_comm]
          exact mul_le_mul_of_nonneg_right (pow_le_pow_left₀ hb.le (le_max_right _ _) 2) (sq_nonneg _)
      have hs : c.rho p - (c.h - z) ≤ kHalfTolerance * (1 + 1 / c.cosMin) := by
        have : kHalfTolerance * (1 + 1 / c.cosMin) = kHalfTolerance + kHalfTolerance / c.cosMin := by ring
        rw [this]
        linarith
      have hs' := mul_le_mul_of_nonneg_left hs hM.le
      have hs0 : 0 ≤ max c.a c.b * (c.rho p - (c.h - z)) := mul_nonneg hM.le (by linarith)
      unfold V3.dist V3.dist2
      dsimp only
      rw [sqrt_le_left (by positivity)]
      generalize max c.a c.b * (c.rho p - (c.h - z)) = S at *
      have e : kHalfTolerance * (1 + max c.a c.b * (1 + 1 / c.cosMin)) = kHalfTolerance + max c.a c.b * (kHalfTolerance * (1 + 1 / c.cosMin)) := by ring
      rw [e]
      have h5 : (p.z - z) ^ 2 ≤ kHalfTolerance ^ 2 := sq_le_sq' hz4.1 hz4.2
      nlinarith [mul_nonneg hT.le hs0]

/-- C160: points that are not reported inside are near a point that is not in the solid. -/
theorem C160_shallow (hv : c.Valid) (g : Good t c) (p : V3) (h : inside t p ≠ .inside) :
    ∃ q, ¬ c.Open q ∧ V3.dist p q ≤ kHalfTolerance / c.cosMin + kHalfTolerance := by
  have hT := kHalfTolerance_pos
  have hc := cos_pos' hv
  have hq : 0 < kHalfTolerance / c.cosMin := div_pos hT hc
  have vert : ∀ s, V3.dist p ⟨p.x, p.y, p.z + s⟩ = |s| := by
    intro s
    unfold V3.dist V3.dist2
    dsimp only
    rw [← sqrt_sq_eq_abs]
    congr 1; ring
  by_cases h1 : (c.rho p + p.z - c.h) * c.cosMin ≤ -kHalfTolerance
  · have h2 : ¬ |p.z| - c.cut ≤ -kHalfTolerance := fun h2 => h ((C160_inside g p).1.mpr ⟨h1, h2⟩)
    push Not at h2
    rcases le_total 0 p.z with h3 | h3
    · refine ⟨⟨p.x, p.y, p.z + kHalfTolerance⟩, fun ho => ?_, ?_⟩
      · have := ho.z
        dsimp only at this
        rw [abs_of_nonneg (by linarith)] at this
        rw [abs_of_nonneg h3] at h2
        linarith
      · rw [vert, abs_of_pos hT]; linarith
    · refine ⟨⟨p.x, p.y, p.z + -kHalfTolerance⟩, fun ho => ?_, ?_⟩
      · have := ho.z
        dsimp only at this
        rw [abs_of_nonpos (by linarith)] at this
        rw [abs_of_nonpos h3] at h2
        linarith
      · rw [vert, abs_neg, abs_of_pos hT]; linarith
  · push Not at h1
    refine ⟨⟨p.x, p.y, p.z + kHalfTolerance / c.cosMin⟩, fun ho => ?_, ?_⟩
    · have := ho.r
      have e : c.rho ⟨p.x, p.y, p.z + kHalfTolerance / c.cosMin⟩ = c.rho p := rfl
      rw [e] at this
      dsimp only at this
      have h3 : c.rho p + p.z - c.h < -(kHalfTolerance / c.cosMin) := by linarith
      have h4 := mul_lt_mul_of_pos_right h3 hc
      rw [neg_mul, div_mul_cancel₀ _ hc.ne'] at h4
      linarith
    · rw [vert, abs_of_pos hq]; linarith

/-- C161: `SafetyToIn` is not larger than the distance to any point of the solid, and not negative for points outside. -/
theorem C161_safetyToIn (hv : c.Valid) (g : Good t c) (p : V3) :
    (∀ q, c.Closed q → safetyToIn t p ≤ V3.dist p q) ∧ (¬ c.Open p → 0 ≤ safetyToIn t p) ∧
    (inside t p = .outside → kHalfTolerance < safetyToIn t p) ∧ (inside t p = .inside → safetyToIn t p ≤ 0) := by
  have hT := kHalfTolerance_pos
  have hc := cos_pos' hv
  have e : safetyToIn t p = if |max ((c.rho p + p.z - c.h) * c.cosMin) (|p.z| - c.cut)| ≤ kHalfTolerance then 0
      else max ((c.rho p + p.z - c.h) * c.cosMin) (|p.z| - c.cut) := by
    unfold safetyToIn
    dsimp only
    rw [side_eq g, g.zcut]
  rw [e]
  obtain ⟨hi, ho, -⟩ := C160_inside g p
  refine ⟨fun q hq => ?_, fun h => ?_, fun h => ?_, fun h => ?_⟩
  · split
    · exact V3.dist_nonneg' p q
    · apply max_le
      · have := height_lip hv p q
        nlinarith [mul_nonneg (by linarith [hq.r] : 0 ≤ c.h - (c.rho q + q.z)) hc.le]
      · have := abs_z_lip p q
        linarith [hq.z]
  · split
    · exact le_rfl
    · by_contra hcon
      push Not at hcon
      have h1 := (max_lt_iff.mp hcon).1
      have h2 := (max_lt_iff.mp hcon).2
      apply h
      refine ⟨by linarith, ?_⟩
      by_contra h3
      push Not at h3
      nlinarith [mul_nonneg (by linarith : 0 ≤ c.rho p + p.z - c.h) hc.le]
  · have h1 := lt_max_iff.mpr (ho.mp h)
    rw [if_neg (not_le.mpr (lt_of_lt_of_le h1 (le_abs_self _)))]
    exact h1
  · have h1 := max_le (hi.mp h).1 (hi.mp h).2
    split
    · exact le_rfl
    · linarith

/-- C161: `SafetyToOut` is not larger than the distance to any point outside the solid or on its surface, and not negative for points
of the solid. -/
theorem C161_safetyToOut (hv : c.Valid) (g : Good t c) (p : V3) :
    (∀ q, ¬ c.Open q → safetyToOut t p ≤ V3.dist p q) ∧ (c.Closed p → 0 ≤ safetyToOut t p) ∧
    (inside t p = .outside → safetyToOut t p < -kHalfTolerance) := by
  have hT := kHalfTolerance_pos
  have hc := cos_pos' hv
  have e : safetyToOut t p = if |min ((c.h - (c.rho p + p.z)) * c.cosMin) (c.cut - |p.z|)| ≤ kHalfTolerance then 0
      else min ((c.h - (c.rho p + p.z)) * c.cosMin) (c.cut - |p.z|) := by
    unfold safetyToOut
    dsimp only
    rw [root_eq g, g.zcut, g.dz, g.cos]
  rw [e]
  obtain ⟨hi, ho, -⟩ := C160_inside g p
  refine ⟨fun q hq => ?_, fun h => ?_, fun h => ?_⟩
  · split
    · exact V3.dist_nonneg' p q
    · have : ¬ (|q.z| < c.cut) ∨ ¬ c.rho q < c.h - q.z := by
        by_contra hcon
        push Not at hcon
        exact hq ⟨hcon.1, hcon.2⟩
      rcases this with h1 | h1
      · push Not at h1
        refine (min_le_right _ _).trans ?_
        have := abs_z_lip q p
        rw [V3.dist_comm'] at this
        linarith
      · push Not at h1
        refine (min_le_left _ _).trans ?_
        have := height_lip hv q p
        rw [V3.dist_comm'] at this
        nlinarith [mul_nonneg (by linarith : 0 ≤ c.rho q + q.z - c.h) hc.le]
  · split
    · exact le_rfl
    · exact le_min (mul_nonneg (by linarith [h.r]) hc.le) (by linarith [h.z])
  · have h1 : min ((c.h - (c.rho p + p.z)) * c.cosMin) (c.cut - |p.z|) < -kHalfTolerance := by
      rcases ho.mp h with h1 | h1
      · refine lt_of_le_of_lt (min_le_left _ _) ?_
        linarith
      · refine lt_of_le_of_lt (min_le_right _ _) ?_
        linarith
    rw [if_neg]
    · exact h1
    · rw [abs_of_neg (by linarith)]
      linarith

/-- C163: `Extent` is the tightest box around the cone. -/
theorem C163_extent (hv : c.Valid) (g : Good t c) :
    (∀ p, c.Closed p → (extent t).1.x ≤ p.x ∧ p.x ≤ (extent t).2.x ∧ (extent t).1.y ≤ p.y ∧ p.y ≤ (extent t).2.y ∧
      (extent t).1.z ≤ p.z ∧ p.z ≤ (extent t).2.z) ∧
    (∃ p, c.Closed p ∧ p.x = (extent t).1.x) ∧ (∃ p, c.Closed p ∧ p.x = (extent t).2.x) ∧
    (∃ p, c.Closed p ∧ p.y = (extent t).1.y) ∧ (∃ p, c.Closed p ∧ p.y = (extent t).2.y) ∧
    (∃ p, c.Closed p ∧ p.z = (extent t).1.z) ∧ (∃ p, c.Closed p ∧ p.z = (extent t).2.z) := by
  have ha := a_pos hv
  have hb := b_pos hv
  have hh := h_pos hv
  have hcut := cut_pos hv
  have htop := hv.top
  have e : extent t = (⟨-(c.a * (c.h + c.cut)), -(c.b * (c.h + c.cut)), -c.cut⟩, ⟨c.a * (c.h + c.cut), c.b * (c.h + c.cut), c.cut⟩) := by
    unfold extent; rw [g.dx, g.dy, g.dz, g.zcut]
  rw [e]
  have hs : 0 < c.h + c.cut := by linarith
  have rx : ∀ s : ℝ, |s| = c.a * (c.h + c.cut) → c.Closed ⟨s, 0, -c.cut⟩ := by
    intro s hs'
    refine ⟨by simp only [abs_neg, abs_of_pos hcut, le_refl], ?_⟩
    unfold Par.rho
    dsimp only
    rw [zero_div, zero_pow two_ne_zero, add_zero, sqrt_sq_eq_abs, abs_div, hs', abs_of_pos ha, mul_div_cancel_left₀ _ ha.ne']
    linarith
  have ry : ∀ s : ℝ, |s| = c.b * (c.h + c.cut) → c.Closed ⟨0, s, -c.cut⟩ := by
    intro s hs'
    refine ⟨by simp only [abs_neg, abs_of_pos hcut, le_refl], ?_⟩
    unfold Par.rho
    dsimp only
    rw [zero_div, zero_pow two_ne_zero, zero_add, sqrt_sq_eq_abs, abs_div, hs', abs_of_pos hb, mul_div_cancel_left₀ _ hb.ne']
    linarith
  have rz : ∀ s : ℝ, |s| = c.cut → c.Closed ⟨0, 0, s⟩ := by
    intro s hs'
    refine ⟨hs'.le, ?_⟩
    unfold Par.rho
    dsimp only
    rw [zero_div, zero_div, zero_pow two_ne_zero, add_zero, sqrt_zero]
    have := le_abs_self s
    linarith
  have px : 0 < c.a * (c.h + c.cut) := mul_pos ha hs
  have py : 0 < c.b * (c.h + c.cut) := mul_pos hb hs
  refine ⟨fun p hp => ?_, ⟨_, rx _ (by rw [abs_neg, abs_of_pos px]), rfl⟩, ⟨_, rx _ (abs_of_pos px), rfl⟩,
    ⟨_, ry _ (by rw [abs_neg, abs_of_pos py]), rfl⟩, ⟨_, ry _ (abs_of_pos py), rfl⟩,
    ⟨_, rz _ (by rw [abs_neg, abs_of_pos hcut]), rfl⟩, ⟨_, rz _ (abs_of_pos hcut), rfl⟩⟩
  have hz := abs_le.mp hp.z
  have hr0 := rho_nonneg (c := c) p
  have hr := rho_sq (c := c) p
  have hR : c.rho p ≤ c.h + c.cut := by linarith [hp.r]
  have hx : |p.x / c.a| ≤ c.rho p := abs_le_of_sq_le_sq (by nlinarith [sq_nonneg (p.y / c.b)]) hr0
  have hy : |p.y / c.b| ≤ c.rho p := abs_le_of_sq_le_sq (by nlinarith [sq_nonneg (p.x / c.a)]) hr0
  rw [abs_div, abs_of_pos ha, div_le_iff₀ ha] at hx
  rw [abs_div, abs_of_pos hb, div_le_iff₀ hb] at hy
  have hx' := abs_le.mp (hx.trans (mul_le_mul_of_nonneg_right hR ha.le))
  have hy' := abs_le.mp (hy.trans (mul_le_mul_of_nonneg_right hR hb.le))
  dsimp only
  refine ⟨by linarith [hx'.1], by linarith [hx'.2], by linarith [hy'.1], by linarith [hy'.2], hz.1, hz.2⟩

/-- C163: the cone is convex, as the constructor claims for all of them. -/
theorem C163_convex (p q : V3) (hp : c.Closed p) (hq : c.Closed q) {s : ℝ} (h0 : 0 ≤ s) (h1 : s ≤ 1) :
    c.Closed ⟨(1 - s) * p.x + s * q.x, (1 - s) * p.y + s * q.y, (1 - s) * p.z + s * q.z⟩ := by
  have sc : ∀ (k : ℝ) (v : V3), 0 ≤ k → c.rho ⟨k * v.x, k * v.y, k * v.z⟩ = k * c.rho v := by
    intro k v hk
    unfold Par.rho
    dsimp only
    rw [show (k * v.x / c.a) ^ 2 + (k * v.y / c.b) ^ 2 = k ^ 2 * ((v.x / c.a) ^ 2 + (v.y / c.b) ^ 2) by ring,
      sqrt_mul (sq_nonneg k), sqrt_sq hk]
  refine ⟨?_, ?_⟩
  · have hpz := abs_le.mp hp.z
    have hqz := abs_le.mp hq.z
    dsimp only
    rw [abs_le]
    constructor
    · nlinarith [mul_le_mul_of_nonneg_left hpz.1 (by linarith : 0 ≤ 1 - s), mul_le_mul_of_nonneg_left hqz.1 h0]
    · nlinarith [mul_le_mul_of_nonneg_left hpz.2 (by linarith : 0 ≤ 1 - s), mul_le_mul_of_nonneg_left hqz.2 h0]
  · have h2 := rho_add (c := c) ⟨(1 - s) * p.x, (1 - s) * p.y, (1 - s) * p.z⟩ ⟨s * q.x, s * q.y, s * q.z⟩
    rw [sc _ _ (by linarith), sc _ _ h0] at h2
    have h3 := mul_le_mul_of_nonneg_left hp.r (by linarith : 0 ≤ 1 - s)
    have h4 := mul_le_mul_of_nonneg_left hq.r h0
    refine le_trans h2 ?_
    dsimp only
    linarith

/-- C163: `SetParameters` makes the cone that the constructor makes, but for the bounding box. -/
theorem C163_set_partial (t m : Struct) (a b h z : ℝ) :
    { setParameters t a b h z with bbox := extent (setParameters t a b h z) } = make m a b h z ∧
    (setParameters t a b h z).bbox = t.bbox := ⟨rfl, rfl⟩

/-- C163: after `SetParameters` the bounding box need not contain the cone. -/
theorem C163_box_counterexample (m : Struct) : ∃ p, tent.Closed p ∧
    ¬ p.x ≤ (setParameters (make m 1 1 1 1) tent.a tent.b tent.h tent.cut).bbox.2.x ∧
    Good (setParameters (make m 1 1 1 1) tent.a tent.b tent.h tent.cut) tent := by
  have hv1 : (⟨1, 1, 1, 1⟩ : Par).Valid := by constructor <;> norm_num [kTolerance]
  have g1 := good_set hv1 m
  have g := good_set tent_valid (make m 1 1 1 1)
  obtain ⟨-, -, ⟨p, hp, hpx⟩, -⟩ := C163_extent tent_valid g
  refine ⟨p, hp, ?_, g⟩
  have e : (extent (setParameters (make m 1 1 1 1) tent.a tent.b tent.h tent.cut)).2.x = 12 := by
    show Struct.dx _ * (Struct.dz _ + Struct.zcut _) = 12
    rw [g.dx, g.dz, g.zcut]; norm_num [tent]
  have e2 : (setParameters (make m 1 1 1 1) tent.a tent.b tent.h tent.cut).bbox.2.x = 2 := by
    show Struct.dx (setParameters m 1 1 1 1) * (Struct.dz _ + Struct.zcut _) = 2
    have h1 := g1.dx
    have h2 := g1.dz
    have h3 := g1.zcut
    dsimp only at h1 h2 h3
    rw [h1, h2, h3]; norm_num
  rw [e2, hpx, e]
  norm_num

/-- Not vacuous: a point inside, one outside and one on the surface. -/
example (m : Struct) : inside (make m tent.a tent.b tent.h tent.cut) ⟨0, 0, 0⟩ = .inside ∧
    inside (make m tent.a tent.b tent.h tent.cut) ⟨0, 0, 3⟩ = .outside ∧
    inside (make m tent.a tent.b tent.h tent.cut) ⟨8, 0, 0⟩ = .surface := by
  have g := good_make tent_valid m
  have r0 : ∀ z, tent.rho ⟨0, 0, z⟩ = 0 := by intro z; simp [Par.rho]
  have r8 : tent.rho ⟨8, 0, 0⟩ = 4 := by
    unfold Par.rho
    rw [show ((⟨8, 0, 0⟩ : V3).x / tent.a) ^ 2 + ((⟨8, 0, 0⟩ : V3).y / tent.b) ^ 2 = 4 ^ 2 by norm_num [tent]]
    exact sqrt_sq (by norm_num)
  have hc : 1 / 2 ≤ tent.cosMin := by
    unfold Par.cosMin
    have hm : min tent.a tent.b = 1 := by norm_num [tent]
    rw [hm, le_div_iff₀ (by positivity), show (1 : ℝ) + 1 ^ 2 = 2 by norm_num]
    have : √(2 : ℝ) ≤ 2 := by rw [sqrt_le_left (by norm_num)]; norm_num
    linarith
  refine ⟨(C160_inside g _).1.mpr ⟨?_, ?_⟩, (C160_inside g _).2.1.mpr (Or.inr ?_), (C160_sound tent_valid g _).2.2.1 ⟨⟨?_, ?_⟩, Or.inr ?_⟩⟩
  · rw [r0]; norm_num [tent, kHalfTolerance, kTolerance] at *; linarith
  · norm_num [tent, kHalfTolerance, kTolerance]
  · norm_num [tent, kHalfTolerance, kTolerance]
  · norm_num [tent]
  · rw [r8]; norm_num [tent]
  · rw [r8]; norm_num [tent]

end EllCone
end VecGeom
