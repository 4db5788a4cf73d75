import Verif.EllTube.Lemmas

/-!
# Containment, classification and safeties of elliptical tubes
-/

namespace VecGeom
namespace EllTube

open Real Tube

variable {a : Par}

/-- A flat tube, used as an example. -/
noncomputable def flat : Par := ⟨4, 2, 3⟩

theorem flat_valid : flat.Valid := by constructor <;> norm_num [flat, kTolerance]

/-- C85: `Contains` and `Inside` agree.  They enlarge and shrink the tube by half the tolerance: `Contains` accepts the points whose
ellipse has at most `1 + h/r` times the semi-axes (`r` the smaller one) and whose height exceeds the half length by at most `h`. -/
theorem C85_inside (hv : a.Valid) (p : V3) :
    (contains (of a) p = true ↔ inside (of a) p ≠ .outside) ∧
    (contains (of a) p = true ↔ a.ell p ≤ (1 + kHalfTolerance / a.r) ^ 2 ∧ |p.z| ≤ a.z + kHalfTolerance) ∧
    (inside (of a) p = .inside ↔ a.ell p ≤ (1 - kHalfTolerance / a.r) ^ 2 ∧ |p.z| ≤ a.z - kHalfTolerance) := by
  have hh := kHalfTolerance_pos
  have hr := r_pos hv
  have hlt := half_lt_r hv
  have key : approx (of a) p ≤ -kHalfTolerance → ¬ approx (of a) p > kHalfTolerance := fun h h' => by linarith
  have scale : ∀ c : ℝ, 0 ≤ a.r + c → (rad (sc a p) ≤ a.r + c ↔ a.ell p ≤ (1 + c / a.r) ^ 2) := by
    intro c hc
    rw [← pow_le_pow_iff_left₀ (rad_nonneg _) hc (by norm_num : (2 : ℕ) ≠ 0), rad_sc hv]
    have e : (a.r + c) ^ 2 = a.r ^ 2 * (1 + c / a.r) ^ 2 := by field_simp
    rw [e]
    have : 0 < a.r ^ 2 := by positivity
    exact mul_le_mul_iff_right₀ this
  refine ⟨?_, ?_, ?_⟩
  · unfold contains inside
    by_cases h1 : approx (of a) p ≤ -kHalfTolerance
    · simp [h1, key h1]
    · by_cases h2 : approx (of a) p > kHalfTolerance <;> simp [h1, h2]
  · unfold contains
    simp only [Bool.not_eq_true', decide_eq_false_iff_not]
    rw [out_iff hv, not_or, not_lt, not_lt, scale _ (by linarith)]
  · unfold inside
    have e := scale (-kHalfTolerance) (by linarith)
    rw [show a.r + -kHalfTolerance = a.r - kHalfTolerance by ring, neg_div, show 1 + -(kHalfTolerance / a.r) = 1 - kHalfTolerance / a.r by ring] at e
    rw [← e, ← in_iff hv]
    by_cases h1 : approx (of a) p ≤ -kHalfTolerance
    · simp [h1]
    · by_cases h2 : approx (of a) p > kHalfTolerance <;> simp [h1, h2]

/-- C85: what the classes mean: every point of the tube is contained, a point that is outside is farther than half the tolerance from
every point of the tube, and a point that is inside is at least half the tolerance away from every point that is not in the tube. -/
theorem C85_meaning (hv : a.Valid) (p : V3) :
    (a.Closed p → contains (of a) p = true) ∧
    (inside (of a) p = .outside → ∀ q, a.Closed q → kHalfTolerance < V3.dist p q) ∧
    (inside (of a) p = .inside → a.Closed p ∧ ∀ q, ¬ a.Closed q → kHalfTolerance < V3.dist p q) := by
  have hh := kHalfTolerance_pos
  have hout : inside (of a) p = .outside → a.r + kHalfTolerance < rad (sc a p) ∨ a.z + kHalfTolerance < |p.z| := by
    intro h
    rw [← out_iff hv]
    unfold inside at h
    by_contra h'
    rw [if_neg h'] at h
    split at h <;> simp at h
  have hfar : (a.r + kHalfTolerance < rad (sc a p) ∨ a.z + kHalfTolerance < |p.z|) → ∀ q, a.Closed q → kHalfTolerance < V3.dist p q := by
    intro h q hq
    rw [closed_iff hv] at hq
    rcases h with h | h
    · have := rad_sub_le (sc a p) (sc a q)
      have := dist_sc hv p q
      linarith [hq.2]
    · have h1 := V3.abs_z_le_dist p q
      have h2 := abs_sub_abs_le_abs_sub p.z q.z
      linarith [hq.1]
  refine ⟨?_, fun h => hfar (hout h), ?_⟩
  · intro h
    unfold contains
    simp only [Bool.not_eq_true', decide_eq_false_iff_not, out_iff hv]
    rintro h'
    have := hfar h' p h
    have e : V3.dist p p = 0 := by simp [V3.dist, V3.dist2]
    linarith
  · intro h
    have hi : approx (of a) p ≤ -kHalfTolerance := by
      unfold inside at h
      by_contra h'
      rw [if_neg h'] at h
      split at h <;> simp at h
    rw [in_iff hv] at hi
    refine ⟨(closed_iff hv p).mpr ⟨by linarith, by linarith⟩, fun q hq => ?_⟩
    rw [closed_iff hv, not_and_or, not_le, not_le] at hq
    rcases hq with hq | hq
    · have h1 := V3.abs_z_le_dist p q
      have h2 := abs_sub_abs_le_abs_sub q.z p.z
      rw [abs_sub_comm] at h2
      linarith
    · have h1 := rad_sub_le (sc a q) (sc a p)
      have h2 := dist_sc hv q p
      rw [V3.dist_comm' q p] at h2
      linarith

example : contains (of flat) ⟨3, 1, 3⟩ = true ∧ contains (of flat) ⟨3, 2, 0⟩ = false ∧ inside (of flat) ⟨1, 1, 0⟩ = .inside := by
  have hr : flat.r = 2 := by norm_num [Par.r, flat]
  refine ⟨(C85_meaning flat_valid _).1 ⟨?_, ?_⟩, ?_, ?_⟩
  · norm_num [flat]
  · norm_num [Par.ell, flat]
  · rw [← Bool.not_eq_true, (C85_inside flat_valid _).2.1, hr]
    norm_num [Par.ell, flat, kHalfTolerance, kTolerance]
  · rw [(C85_inside flat_valid _).2.2, hr]
    norm_num [Par.ell, flat, kHalfTolerance, kTolerance]

/-- C86: safeties.  `SafetyToIn` is at most the distance to every point of the tube, and positive exactly for points that are farther
away than the tolerance; `SafetyToOut` is at most the distance to every point that is not in the tube, not negative in the tube and
positive for points deeper than the tolerance. -/
theorem C86_safety (hv : a.Valid) (p : V3) :
    (∀ q, a.Closed q → safetyToIn (of a) p ≤ V3.dist p q) ∧
    (0 < safetyToIn (of a) p ↔ inside (of a) p = .outside) ∧
    (∀ q, ¬ a.Closed q → safetyToOut (of a) p ≤ V3.dist p q) ∧
    (a.Closed p → 0 ≤ safetyToOut (of a) p) ∧
    (0 < safetyToOut (of a) p → inside (of a) p = .inside) ∧
    (safetyToIn (of a) p < 0 ↔ 0 < safetyToOut (of a) p) := by
  have hh := kHalfTolerance_pos
  have hrr : √(p.x * (of a).sx * (p.x * (of a).sx) + p.y * (of a).sy * (p.y * (of a).sy)) = rad (sc a p) := by
    rw [of_eq hv, ← rad_eq]; rfl
  have ein : safetyToIn (of a) p = if |max (rad (sc a p) - a.r) (|p.z| - a.z)| ≤ kHalfTolerance then 0 else max (rad (sc a p) - a.r) (|p.z| - a.z) := by
    unfold safetyToIn
    dsimp only
    rw [hrr, of_eq hv]; rfl
  have hneg : min (a.r - rad (sc a p)) (a.z - |p.z|) = -max (rad (sc a p) - a.r) (|p.z| - a.z) := by
    rw [← min_neg_neg, neg_sub, neg_sub]
  have eout : safetyToOut (of a) p = if |max (rad (sc a p) - a.r) (|p.z| - a.z)| ≤ kHalfTolerance then 0 else -max (rad (sc a p) - a.r) (|p.z| - a.z) := by
    have e : safetyToOut (of a) p = if |min (a.r - rad (sc a p)) (a.z - |p.z|)| ≤ kHalfTolerance then 0 else min (a.r - rad (sc a p)) (a.z - |p.z|) := by
      unfold safetyToOut
      dsimp only
      rw [hrr, of_eq hv]; rfl
    rw [e, hneg, abs_neg]
  have hout : inside (of a) p = .outside ↔ kHalfTolerance < max (rad (sc a p) - a.r) (|p.z| - a.z) := by
    have : inside (of a) p = .outside ↔ approx (of a) p > kHalfTolerance := by
      unfold inside
      by_cases h1 : approx (of a) p ≤ -kHalfTolerance
      · have : ¬ approx (of a) p > kHalfTolerance := by linarith
        simp [h1, this]
      · by_cases h2 : approx (of a) p > kHalfTolerance <;> simp [h1, h2]
    rw [this, out_iff hv, lt_max_iff]
    constructor <;> rintro (h | h) <;> first | (left; linarith) | (right; linarith)
  have hin : max (rad (sc a p) - a.r) (|p.z| - a.z) ≤ -kHalfTolerance → inside (of a) p = .inside := by
    intro h
    unfold inside
    rw [if_pos]
    rw [in_iff hv]
    rw [max_le_iff] at h
    exact ⟨by linarith [h.1], by linarith [h.2]⟩
  have hle : ∀ q, a.Closed q → max (rad (sc a p) - a.r) (|p.z| - a.z) ≤ V3.dist p q := by
    intro q hq
    rw [closed_iff hv] at hq
    refine max_le ?_ ?_
    · have := rad_sub_le (sc a p) (sc a q)
      have := dist_sc hv p q
      linarith [hq.2]
    · have h1 := V3.abs_z_le_dist p q
      have h2 := abs_sub_abs_le_abs_sub p.z q.z
      linarith [hq.1]
  have hle' : ∀ q, ¬ a.Closed q → -max (rad (sc a p) - a.r) (|p.z| - a.z) ≤ V3.dist p q := by
    intro q hq
    rw [← hneg]
    rw [closed_iff hv, not_and_or, not_le, not_le] at hq
    rcases hq with hq | hq
    · refine (min_le_right _ _).trans ?_
      have h1 := V3.abs_z_le_dist p q
      have h2 := abs_sub_abs_le_abs_sub q.z p.z
      rw [abs_sub_comm] at h2
      linarith
    · refine (min_le_left _ _).trans ?_
      have h1 := rad_sub_le (sc a q) (sc a p)
      have h2 := dist_sc hv q p
      rw [V3.dist_comm' q p] at h2
      linarith
  have hc : a.Closed p → max (rad (sc a p) - a.r) (|p.z| - a.z) ≤ 0 := by
    intro h
    rw [closed_iff hv] at h
    exact max_le (by linarith [h.2]) (by linarith [h.1])
  rw [ein, eout, hout]
  generalize max (rad (sc a p) - a.r) (|p.z| - a.z) = m at *
  have hd : ∀ q, 0 ≤ V3.dist p q := V3.dist_nonneg' p
  by_cases hm : |m| ≤ kHalfTolerance
  · simp only [hm, if_true]
    rw [abs_le] at hm
    exact ⟨fun q _ => hd q, ⟨fun h => absurd h (lt_irrefl _), fun h => by linarith⟩, fun q _ => hd q, fun _ => le_refl _,
      fun h => absurd h (lt_irrefl _), trivial⟩
  · simp only [hm, if_false]
    rw [not_le, lt_abs] at hm
    refine ⟨hle, ?_, hle', fun h => by linarith [hc h], fun h => hin ?_, ?_⟩
    · constructor <;> intro h <;> rcases hm with hm | hm <;> linarith
    · rcases hm with hm | hm <;> linarith
    · constructor <;> intro h <;> linarith

example : 0 < safetyToIn (of flat) ⟨5, 0, 0⟩ ∧ 0 < safetyToOut (of flat) ⟨0, 0, 0⟩ := by
  have hr : flat.r = 2 := by norm_num [Par.r, flat]
  have hh : kHalfTolerance < 1 / 100 := by norm_num [kHalfTolerance, kTolerance]
  have hh0 := kHalfTolerance_pos
  constructor
  · rw [(C86_safety flat_valid _).2.1]
    have h1 := (C85_inside flat_valid ⟨5, 0, 0⟩).1
    have h2 := (C85_inside flat_valid ⟨5, 0, 0⟩).2.1
    by_contra h
    have h3 := (h2.mp (h1.mpr h)).1
    rw [hr] at h3
    norm_num [Par.ell, flat, kHalfTolerance, kTolerance] at h3
  · have e : rad (sc flat ⟨0, 0, 0⟩) = 0 := by simp [rad, sc]
    rw [← (C86_safety flat_valid _).2.2.2.2.2]
    have e2 : √((0 : ℝ) * (of flat).sx * (0 * (of flat).sx) + 0 * (of flat).sy * (0 * (of flat).sy)) = 0 := by simp
    unfold safetyToIn
    dsimp only
    rw [e2, of_eq flat_valid]
    have e3 : (cache flat.x flat.y flat.z).r = 2 := hr
    have e4 : (cache flat.x flat.y flat.z).dz = 3 := rfl
    rw [e3, e4, abs_zero, max_eq_left (by norm_num), if_neg]
    · norm_num
    · norm_num [abs_le]; linarith

end EllTube
end VecGeom
