import Verif.Wedge.Lemmas

/-!
# Properties of the phi sector

C76: a sector from `s` over `d` contains exactly the points with an azimuth in `[s, s + d]`; the classification, the safeties and
the distances agree with that.
-/

namespace VecGeom

open Real Wedge

/-- C76: for every start angle and every opening in `(0, 2 pi]`, `Contains` is membership of the sector. -/
theorem C76_contains {s d : ℝ} (h0 : 0 < d) (h1 : d ≤ 2 * π) (p : V3) :
    (make d s).contains p = true ↔ Sector s d p.x p.y := by
  unfold contains CompletelyOutside
  simp [out_iff h0 h1]

example : (make (2 * π) 1).contains ⟨3, -4, 5⟩ = true :=
  (C76_contains (by linarith [pi_pos]) (le_refl _) _).mpr (sector_full _ _ _)

/-- A quarter contains the diagonal and not its opposite. -/
example : (make (π / 2) 0).contains ⟨1, 1, 0⟩ = true ∧ (make (π / 2) 0).contains ⟨-1, -1, 0⟩ = false := by
  have hp := pi_pos
  refine ⟨(C76_contains (by linarith) (by linarith) _).mpr ?_, Bool.not_eq_true _ ▸ fun h => ?_⟩
  · rw [sector_small (by linarith) (by linarith)]; simp
  · have := (C76_contains (by linarith) (by linarith) _).mp h
    rw [sector_small (by linarith) (by linarith)] at this
    norm_num at this

/-- C76: `Inside` answers "surface" exactly for the points less than the tolerance above or below one of the two bounding
half-planes; among the others it separates the sector from its complement.  The variants with and without boundary agree. -/
theorem C76_inside {s d : ℝ} (h0 : 0 < d) (h1 : d ≤ 2 * π) (p : V3) :
    ((make d s).inside p = .surface ↔
      ∃ h, |h| < kTolerance ∧ (AboveRay s h p.x p.y ∨ AboveRay (s + d) h p.x p.y)) ∧
    ((make d s).inside p = .inside → Sector s d p.x p.y) ∧
    ((make d s).inside p = .outside → ¬ Sector s d p.x p.y) ∧
    ((make d s).containsWithBoundary p = true ↔ (make d s).inside p ≠ .outside) ∧
    ((make d s).containsWithoutBoundary p = true ↔ (make d s).inside p = .inside) := by
  have ho := out_iff (s := s) h0 h1 p
  have hs : (make d s).OnSurface p ↔ ∃ h, |h| < kTolerance ∧ (AboveRay s h p.x p.y ∨ AboveRay (s + d) h p.x p.y) := by
    unfold OnSurface
    rw [on1_iff, on2_iff]
    constructor
    · rintro (⟨h, hh, ha⟩ | ⟨h, hh, ha⟩)
      · exact ⟨h, hh, .inl ha⟩
      · exact ⟨h, hh, .inr ha⟩
    · rintro ⟨h, hh, ha | ha⟩
      · exact .inl ⟨h, hh, ha⟩
      · exact .inr ⟨h, hh, ha⟩
  rw [← hs]
  unfold inside containsWithBoundary containsWithoutBoundary CompletelyInside CompletelyOutside
  rw [ho]
  by_cases h2 : (make d s).OnSurface p <;> by_cases h3 : Sector s d p.x p.y <;> simp [h2, h3]

example : (make (π / 2) 0).inside ⟨1, 0, 7⟩ = .surface ∧ (make (π / 2) 0).inside ⟨1, 1, 7⟩ ≠ .surface := by
  have hp := pi_pos
  refine ⟨(C76_inside (by linarith) (by linarith) _).1.mpr ⟨0, by norm_num [kTolerance], .inl ⟨1, by norm_num, by simp, by simp⟩⟩,
    fun h => ?_⟩
  obtain ⟨h, hh, ⟨r, hr, h2, h3⟩ | ⟨r, hr, h2, h3⟩⟩ := (C76_inside (by linarith) (by linarith) _).1.mp h
  · simp at h2 h3
    rw [← h3] at hh
    norm_num [kTolerance] at hh
  · simp at h2 h3
    have : h = -1 := by linarith
    rw [this] at hh
    norm_num [kTolerance] at hh

/-- C76: `SafetyToIn` is a lower bound of the distance to every point of the sector and positive exactly outside; `SafetyToOut`
is a lower bound of the distance to every point outside and not negative exactly inside. -/
theorem C76_safety {s d : ℝ} (h0 : 0 < d) (h1 : d ≤ 2 * π) (p : V3) :
    (0 < (make d s).safetyToIn p ↔ ¬ Sector s d p.x p.y) ∧
    (∀ q, Sector s d q.x q.y → (make d s).safetyToIn p ≤ V3.dist p q) ∧
    (0 ≤ (make d s).safetyToOut p ↔ Sector s d p.x p.y) ∧
    (∀ q, ¬ Sector s d q.x q.y → (make d s).safetyToOut p ≤ V3.dist p q) := by
  have e1 : ∀ q : V3, q.x * (make d s).n1x + q.y * (make d s).n1y = -q.x * sin s + q.y * cos s := by
    intro q; show q.x * -sin s + q.y * cos s = _; ring
  have e2 : ∀ q : V3, q.x * (make d s).n2x + q.y * (make d s).n2y = -cos (s + d) * q.y + sin (s + d) * q.x := by
    intro q; show q.x * sin (s + d) + q.y * -cos (s + d) = _; ring
  have l1 := start_le_dist s p
  have l2 := end_le_dist (s + d) p
  unfold safetyToIn safetyToOut
  simp only [e1, e2, make_dphi]
  rcases lt_or_ge d π with h | h
  · simp only [h, if_true]
    refine ⟨?_, ?_, ?_, ?_⟩
    · rw [sector_small h0 h, lt_max_iff, not_and_or, not_le, not_le]
      constructor <;> (rintro (hh | hh) <;> [left; right] <;> linarith)
    · intro q hq
      rw [sector_small h0 h] at hq
      have := abs_le.mp (l1 q)
      have := abs_le.mp (l2 q)
      exact max_le (by linarith [hq.1]) (by linarith [hq.2])
    · rw [sector_small h0 h, le_min_iff]
    · intro q hq
      rw [sector_small h0 h, not_and_or, not_le, not_le] at hq
      have := abs_le.mp (l1 q)
      have := abs_le.mp (l2 q)
      rcases hq with hq | hq
      · exact (min_le_left _ _).trans (by linarith)
      · exact (min_le_right _ _).trans (by linarith)
  · simp only [not_lt.mpr h, if_false]
    refine ⟨?_, ?_, ?_, ?_⟩
    · rw [sector_big h h1, lt_min_iff, not_or, not_le, not_le]
      constructor <;> (rintro ⟨ha, hb⟩; constructor <;> linarith)
    · intro q hq
      rw [sector_big h h1] at hq
      have := abs_le.mp (l1 q)
      have := abs_le.mp (l2 q)
      rcases hq with hq | hq
      · exact (min_le_left _ _).trans (by linarith)
      · exact (min_le_right _ _).trans (by linarith)
    · rw [sector_big h h1, le_max_iff]
    · intro q hq
      rw [sector_big h h1, not_or, not_le, not_le] at hq
      have := abs_le.mp (l1 q)
      have := abs_le.mp (l2 q)
      exact max_le (by linarith [hq.1]) (by linarith [hq.2])

example : 0 < (make (π / 2) 0).safetyToIn ⟨-1, -1, 0⟩ := by
  have hp := pi_pos
  refine (C76_safety (by linarith) (by linarith) _).1.mpr fun h => ?_
  rw [sector_small (by linarith) (by linarith)] at h
  norm_num at h

/-- The signed height over the first (`b = true`) or second half-plane, positive towards the sector. -/
noncomputable def sectorHeight (s d : ℝ) (b : Bool) (p : V3) : ℝ :=
  if b then p.y * cos s - p.x * sin s else p.x * sin (s + d) - p.y * cos (s + d)

/-- The component of a pair that belongs to the first or second half-plane. -/
def pick (b : Bool) (x : ℝ × ℝ) : ℝ := if b then x.1 else x.2

/-- C76: the distances to the planes.  A plane is met on the way in iff its height is increasing and has its zero at a parameter
above the threshold (zero for `evolution::Wedge`, minus the tolerance for `Wedge`); then the answer is the parameter of that
zero, and "infinite" otherwise.  On the way out the same with decreasing heights. -/
theorem C76_distance (least s d : ℝ) (p v : V3) (b : Bool) :
    (∀ t, least < t → sectorHeight s d b (V3.at' p v t) = 0 → 0 < sectorHeight s d b v →
      pick b ((make d s).distanceToIn least p v) = t) ∧
    (¬ (∃ t, least < t ∧ sectorHeight s d b (V3.at' p v t) = 0 ∧ 0 < sectorHeight s d b v) →
      pick b ((make d s).distanceToIn least p v) = kInfLength) ∧
    (∀ t, least < t → sectorHeight s d b (V3.at' p v t) = 0 → sectorHeight s d b v < 0 →
      pick b ((make d s).distanceToOut least p v) = t) ∧
    (¬ (∃ t, least < t ∧ sectorHeight s d b (V3.at' p v t) = 0 ∧ sectorHeight s d b v < 0) →
      pick b ((make d s).distanceToOut least p v) = kInfLength) := by
  have hat : ∀ t, sectorHeight s d b (V3.at' p v t) = sectorHeight s d b p + t * sectorHeight s d b v := by
    intro t
    cases b <;> simp only [sectorHeight, V3.at'] <;> simp [V3.smul] <;> ring
  have key : ∀ (h c : ℝ), c ≠ 0 → ∀ t, h + t * c = 0 ↔ -h / c = t := by
    intro h c hc t
    rw [div_eq_iff hc]
    constructor <;> intro hh <;> linarith
  have ei : pick b ((make d s).distanceToIn least p v) =
      (open Classical in if sectorHeight s d b v > 0 ∧ -sectorHeight s d b p / sectorHeight s d b v > least
        then -sectorHeight s d b p / sectorHeight s d b v else kInfLength) := by
    cases b <;> simp only [pick, distanceToIn, planeIn, sectorHeight, make, Bool.false_eq_true, if_true, if_false] <;> ring_nf
  have eo : pick b ((make d s).distanceToOut least p v) =
      (open Classical in if sectorHeight s d b v < 0 ∧ -sectorHeight s d b p / sectorHeight s d b v > least
        then -sectorHeight s d b p / sectorHeight s d b v else kInfLength) := by
    cases b <;> simp only [pick, distanceToOut, planeOut, sectorHeight, make, Bool.false_eq_true, if_true, if_false] <;> ring_nf
  rw [ei, eo]
  simp only [hat]
  refine ⟨?_, ?_, ?_, ?_⟩
  · intro t ht hz hc
    rw [key _ _ hc.ne'] at hz
    rw [hz, if_pos ⟨hc, ht⟩]
  · intro hn
    rw [if_neg]
    rintro ⟨hc, hl⟩
    exact hn ⟨_, hl, (key _ _ hc.ne' _).mpr rfl, hc⟩
  · intro t ht hz hc
    rw [key _ _ hc.ne] at hz
    rw [hz, if_pos ⟨hc, ht⟩]
  · intro hn
    rw [if_neg]
    rintro ⟨hc, hl⟩
    exact hn ⟨_, hl, (key _ _ hc.ne _).mpr rfl, hc⟩

example : pick true ((make (π / 2) 0).distanceToIn 0 ⟨1, -2, 0⟩ ⟨0, 1, 0⟩) = 2 :=
  (C76_distance 0 0 (π / 2) ⟨1, -2, 0⟩ ⟨0, 1, 0⟩ true).1 2 (by norm_num) (by simp [sectorHeight, V3.at', V3.smul])
    (by simp [sectorHeight])

/-- The angle setters are not enough: they leave the planes where they were, so that a sector whose opening was enlarged from a
quarter to three quarters does not contain a point in the middle of its new range. -/
theorem C76_setters_counterexample :
    ((make (π / 2) 0).set (3 * π / 2) 0).contains ⟨-1, -1, 0⟩ = false ∧
    Sector 0 (3 * π / 2) (-1) (-1) ∧ (make (3 * π / 2) 0).contains ⟨-1, -1, 0⟩ = true := by
  have hp := pi_pos
  have hs : Sector 0 (3 * π / 2) (-1) (-1) := by
    refine ⟨√2, 5 * π / 4, sqrt_nonneg _, by linarith, by linarith, ?_, ?_⟩
    · rw [show 0 + 5 * π / 4 = π / 4 + π by ring, cos_add_pi, cos_pi_div_four]
      nlinarith [sq_sqrt (show (0 : ℝ) ≤ 2 by norm_num)]
    · rw [show 0 + 5 * π / 4 = π / 4 + π by ring, sin_add_pi, sin_pi_div_four]
      nlinarith [sq_sqrt (show (0 : ℝ) ≤ 2 by norm_num)]
  refine ⟨?_, hs, (C76_contains (by linarith) (by linarith) _).mpr hs⟩
  unfold contains
  simp only [decide_eq_false_iff_not, not_not]
  refine ⟨.inr ⟨?_, ?_, ?_⟩, by simp⟩
  · simp only [Wedge.set, setDeltaPhi, setStartPhi]; linarith
  · simp [startCheck, Wedge.set, setDeltaPhi, setStartPhi, make]
  · simp [endCheck, Wedge.set, setDeltaPhi, setStartPhi, make]

end VecGeom
