import Verif.Sphere.Kernel

/-!
# The safeties of the theta sector
-/

namespace VecGeom
namespace Sphere

open Real

theorem make_slope1 (s d : ℝ) : (ThetaCone.make s d).slope1 = ctan (π / 2 - s) := rfl
theorem make_slope2 (s d : ℝ) : (ThetaCone.make s d).slope2 = ctan (π / 2 - (s + d)) := rfl

theorem line_nonneg (a x z : ℝ) : 0 ≤ ThetaCone.distanceToLine a x z := abs_nonneg _

theorem ite_iff_le {c c' : Prop} [i : Decidable c] [j : Decidable c'] {a b x : ℝ} (h : c ↔ c') (h1 : (if c' then a else b) ≤ x) :
    (if c then a else b) ≤ x := by
  by_cases hc : c
  · rw [if_pos hc]; rwa [if_pos (h.mp hc)] at h1
  · rw [if_neg hc]; rwa [if_neg (fun h' => hc (h.mpr h'))] at h1

theorem ite_nonneg' {c : Prop} [i : Decidable c] {a b : ℝ} (h1 : 0 ≤ a) (h2 : 0 ≤ b) : 0 ≤ (if c then a else b) := by
  by_cases hc : c
  · rw [if_pos hc]; exact h1
  · rw [if_neg hc]; exact h2

section
variable {s d : ℝ} (h0 : 0 ≤ s) (hd : 0 < d) (he : s + d ≤ π) (reg : Regular s (s + d)) (p : V3)
include h0 hd he reg

/-- Reaching the range takes at least the safety. -/
theorem theta_safetyIn (fits : Fits s (s + d) p) (q : V3) (hq : Polar s (s + d) q) :
    (ThetaCone.make s d).safetyToIn p ≤ V3.dist p q := by
  have ht := kTolerance_pos
  have hh := half_lt
  have hh0 := half_pos
  have hp := pi_pos
  rw [polar_iff h0 (by linarith) (by linarith) he (by linarith)] at hq
  unfold ThetaCone.safetyToIn
  simp only [make_s, make_e, make_slope1, make_slope2, perp_eq']
  by_cases hc : (ThetaCone.make s d).contains p = true
  · rw [if_pos hc]; exact V3.dist_nonneg' p q
  rw [if_neg hc]
  have ho : (ThetaCone.make s d).CompletelyOutside p := by
    classical
    by_contra hx
    exact hc (decide_eq_true hx)
  have hn := theta_out h0 hd he reg p fits ho
  rw [polar_iff h0 (by linarith) (by linarith) he (by linarith), not_and_or, not_le, not_le] at hn
  have l1 := abs_le.mp (off_lip s p q)
  have l2 := abs_le.mp (off_lip (s + d) p q)
  have g1 : off s p < 0 → ThetaCone.distanceToLine (ctan (π / 2 - s)) (rho p) p.z ≤ V3.dist p q := by
    intro h
    have hs : 0 < s := by
      refine lt_of_le_of_ne h0 (fun h' => ?_)
      rw [← h', off_zero] at h
      linarith [rho_nonneg p]
    rw [line_eq hs (by linarith), abs_of_neg h]
    linarith
  have g2 : 0 < off (s + d) p → ThetaCone.distanceToLine (ctan (π / 2 - (s + d))) (rho p) p.z ≤ V3.dist p q := by
    intro h
    have hs : s + d < π := by
      refine lt_of_le_of_ne he (fun h' => ?_)
      rw [h', off_pi] at h
      linarith [rho_nonneg p]
    rw [line_eq (by linarith) hs, abs_of_pos h]
    linarith
  generalize ThetaCone.distanceToLine (ctan (π / 2 - s)) (rho p) p.z = f1 at g1 ⊢
  generalize ThetaCone.distanceToLine (ctan (π / 2 - (s + d))) (rho p) p.z = f2 at g2 ⊢
  have gm : min f1 f2 ≤ V3.dist p q := by
    rcases hn with h | h
    · exact le_trans (min_le_left _ _) (g1 h)
    · exact le_trans (min_le_right _ _) (g2 h)
  rcases lt_or_ge s (π / 2 + kHalfTolerance) with k1 | k1
  · have hse : s ≤ π / 2 := by
      rcases kinds hd reg with k | ⟨k, -⟩ | ⟨k, -⟩ | ⟨k, -⟩ | k <;> linarith
    rw [if_pos k1, if_neg (show ¬ (s + d > π / 2 + kHalfTolerance ∧ s > π / 2 + kHalfTolerance ∧ s < s + d ∧ p.z > 0) from
      fun h => by linarith [h.2.1])]
    rcases lt_or_ge (π / 2 + kHalfTolerance) (s + d) with k2 | k2
    · have hee : π / 2 ≤ s + d := by linarith
      rcases lt_trichotomy p.z 0 with hz | hz | hz
      · rw [if_pos (show s + d > π / 2 + kHalfTolerance ∧ s < s + d ∧ p.z < 0 from ⟨k2, by linarith, hz⟩)]
        rcases hn with h | h
        · linarith [below_ge h0 hse hz.le]
        · exact g2 h
      · rw [if_neg (show ¬ (s + d > π / 2 + kHalfTolerance ∧ s < s + d ∧ p.z < 0) from fun h => by linarith [h.2.2]),
          if_neg (show ¬ (s + d > π / 2 + kHalfTolerance ∧ s < s + d ∧ p.z > 0) from fun h => by linarith [h.2.2]),
          if_neg (show ¬ (s + d < π / 2 + kHalfTolerance ∧ s < s + d ∧ p.z < 0) from fun h => by linarith [h.1])]
        exact gm
      · rw [if_neg (show ¬ (s + d > π / 2 + kHalfTolerance ∧ s < s + d ∧ p.z < 0) from fun h => by linarith [h.2.2]),
          if_pos (show (s + d > π / 2 + kHalfTolerance ∧ s < s + d ∧ p.z > 0) from ⟨k2, by linarith, hz⟩)]
        rcases hn with h | h
        · exact g1 h
        · linarith [above_le he hee hz.le]
    · have hee : s + d ≤ π / 2 := by
        rcases kinds hd reg with k | ⟨-, k⟩ | ⟨-, k⟩ | ⟨-, k⟩ | k <;> linarith
      rw [if_neg (show ¬ (s + d > π / 2 + kHalfTolerance ∧ s < s + d ∧ p.z < 0) from fun h => by linarith [h.1]),
        if_neg (show ¬ (s + d > π / 2 + kHalfTolerance ∧ s < s + d ∧ p.z > 0) from fun h => by linarith [h.1])]
      rcases lt_or_ge p.z 0 with hz | hz
      · rw [if_pos (show (s + d < π / 2 + kHalfTolerance ∧ s < s + d ∧ p.z < 0) from ⟨by linarith, by linarith, hz⟩)]
        exact g2 (below_gt (by linarith) hee hz)
      · rw [if_neg (show ¬ (s + d < π / 2 + kHalfTolerance ∧ s < s + d ∧ p.z < 0) from fun h => by linarith [h.2.2])]
        exact gm
  · rw [if_neg (not_lt.mpr k1)]
    by_cases hz : s + d > π / 2 + kHalfTolerance ∧ s > π / 2 + kHalfTolerance ∧ s < s + d ∧ p.z > 0
    · rw [if_pos hz]
      exact g1 (above_lt (by linarith) (by linarith) hz.2.2.2)
    · rw [if_neg hz]
      exact gm

omit h0 hd he reg in
theorem theta_safetyIn_nonneg : 0 ≤ (ThetaCone.make s d).safetyToIn p := by
  unfold ThetaCone.safetyToIn
  simp only []
  have h1 := line_nonneg (ThetaCone.make s d).slope1 (√(p.x * p.x + p.y * p.y)) p.z
  have h2 := line_nonneg (ThetaCone.make s d).slope2 (√(p.x * p.x + p.y * p.y)) p.z
  have h3 := le_min h1 h2
  split_ifs <;> first | exact le_refl _ | assumption

omit h0 hd he reg in
theorem theta_safetyOut_nonneg : 0 ≤ (ThetaCone.make s d).safetyToOut p := by
  unfold ThetaCone.safetyToOut
  simp only []
  exact ite_nonneg' (line_nonneg _ _ _) (line_nonneg _ _ _)

omit h0 hd he reg in
/-- The bisecting cone decides which of the two cones is nearer. -/
theorem off_sum : off s p + off (s + d) p = 2 * cos (d / 2) * off (s + d / 2) p := by
  unfold off
  have e1 : cos s = cos (s + d / 2) * cos (d / 2) + sin (s + d / 2) * sin (d / 2) := by
    rw [← cos_sub]; congr 1; ring
  have e2 : cos (s + d) = cos (s + d / 2) * cos (d / 2) - sin (s + d / 2) * sin (d / 2) := by
    rw [← cos_add]; congr 1; ring
  have e3 : sin s = sin (s + d / 2) * cos (d / 2) - cos (s + d / 2) * sin (d / 2) := by
    rw [← sin_sub]; congr 1; ring
  have e4 : sin (s + d) = sin (s + d / 2) * cos (d / 2) + cos (s + d / 2) * sin (d / 2) := by
    rw [← sin_add]; congr 1; ring
  rw [e1, e2, e3, e4]; ring

omit reg in
/-- From a point of the range, leaving it takes at least the safety. -/
theorem theta_safetyOut (reg : Regular s (s + d)) (hin : Polar s (s + d) p) (q : V3) (hq : ¬ Polar s (s + d) q) :
    (ThetaCone.make s d).safetyToOut p ≤ V3.dist p q := by
  classical
  have ht := kTolerance_pos
  have hh := half_lt
  have hh0 := half_pos
  have hp := pi_pos
  rw [polar_iff h0 (by linarith) (by linarith) he (by linarith)] at hin
  rw [polar_iff h0 (by linarith) (by linarith) he (by linarith), not_and_or, not_le, not_le] at hq
  have l1 := abs_le.mp (off_lip s p q)
  have l2 := abs_le.mp (off_lip (s + d) p q)
  unfold ThetaCone.safetyToOut
  simp only [make_s, make_e, make_slope1, make_slope2, perp_eq']
  have F1 : 0 < s → ThetaCone.distanceToLine (ctan (π / 2 - s)) (rho p) p.z = off s p := fun h => by
    rw [line_eq h (by linarith), abs_of_nonneg hin.1]
  have F2 : s + d < π → ThetaCone.distanceToLine (ctan (π / 2 - (s + d))) (rho p) p.z = -off (s + d) p := fun h => by
    rw [line_eq (by linarith) h, abs_of_nonpos hin.2]
  have q1 : off s q < 0 → 0 < s := fun h => by
    refine lt_of_le_of_ne h0 (fun h' => ?_)
    rw [← h', off_zero] at h
    linarith [rho_nonneg q]
  have q2 : 0 < off (s + d) q → s + d < π := fun h => by
    refine lt_of_le_of_ne he (fun h' => ?_)
    rw [h', off_pi] at h
    linarith [rho_nonneg q]
  generalize ThetaCone.distanceToLine (ctan (π / 2 - s)) (rho p) p.z = f1 at F1 ⊢
  generalize ThetaCone.distanceToLine (ctan (π / 2 - (s + d))) (rho p) p.z = f2 at F2 ⊢
  -- what suffices
  have fin : ∀ v : ℝ, (0 < s → v ≤ off s p) → (s + d < π → v ≤ -off (s + d) p) → v ≤ V3.dist p q := by
    intro v v1 v2
    rcases hq with h | h
    · linarith [v1 (q1 h)]
    · linarith [v2 (q2 h)]
  have cd : 0 < cos (d / 2) ∨ (s = 0 ∧ s + d = π) := by
    rcases lt_or_ge d π with h | h
    · exact Or.inl (cos_pos_of_mem_Ioo ⟨by linarith, by linarith⟩)
    · exact Or.inr ⟨by linarith, by linarith⟩
  have hsum := off_sum (s := s) (d := d) p
  rcases lt_or_ge s (π / 2 + kHalfTolerance) with k1 | k1
  · have n3 : ¬ (s + d > π / 2 + kHalfTolerance ∧ s > π / 2 + kHalfTolerance ∧ s < s + d) := fun h => by linarith [h.2.1]
    rcases lt_or_ge (π / 2 + kHalfTolerance) (s + d) with k2 | k2
    · refine ite_iff_le (c' := f1 < f2) (by rw [if_neg n3, if_pos (show (s < π / 2 + kHalfTolerance ∧ s + d > π / 2 + kHalfTolerance ∧ s < s + d) from ⟨k1, k2, by linarith⟩)]) ?_
      by_cases hf : f1 < f2
      · rw [if_pos hf]
        exact fin _ (fun h => (F1 h).le) (fun h => by rw [← F2 h]; exact hf.le)
      · rw [if_neg hf]
        exact fin _ (fun h => by rw [← F1 h]; exact not_lt.mp hf) (fun h => (F2 h).le)
    · have hee : s + d ≤ π / 2 := by
        rcases kinds hd reg with k | ⟨-, k⟩ | ⟨-, k⟩ | ⟨-, k⟩ | k <;> linarith
      have hb : (ThetaCone.make s d).tanB = tanOf (s + d / 2) := by
        unfold ThetaCone.make
        simp only []
        rw [if_neg (show ¬ (s > π / 2 ∧ s + d > π / 2) from fun h => by linarith [h.2]), if_neg (show ¬ s > π / 2 by linarith)]
        unfold tanOf
        rw [if_neg (by linarith)]
      refine ite_iff_le (c' := rho p < |p.z * tanOf (s + d / 2)| ∧ s ≠ 0) (by
        rw [if_neg n3, if_neg (show ¬ (s < π / 2 + kHalfTolerance ∧ s + d > π / 2 + kHalfTolerance ∧ s < s + d) from
          fun h => by linarith [h.2.1]),
          if_pos (show (s < π / 2 + kHalfTolerance ∧ s + d < π / 2 + kHalfTolerance ∧ s < s + d) from ⟨k1, by linarith, by linarith⟩), hb]) ?_
      have hz : 0 ≤ p.z := by
        by_contra hc
        push Not at hc
        linarith [below_gt (show 0 < s + d by linarith) hee hc, hin.2]
      have cd' : 0 < cos (d / 2) := by
        rcases cd with h | h
        · exact h
        · linarith [h.2]
      by_cases hf : rho p < |p.z * tanOf (s + d / 2)| ∧ s ≠ 0
      · rw [if_pos hf]
        have := lo_lt (show 0 ≤ s + d / 2 by linarith) (show s + d / 2 < π / 2 by linarith) hz hf.1
        have hneg : 2 * cos (d / 2) * off (s + d / 2) p ≤ 0 := by nlinarith
        have hs := lt_of_le_of_ne h0 (Ne.symm hf.2)
        rw [F1 hs]
        exact fin _ (fun _ => le_refl _) (fun _ => by linarith)
      · rw [if_neg hf]
        rw [F2 (by linarith)]
        refine fin _ (fun h => ?_) (fun _ => le_refl _)
        have hr : |p.z * tanOf (s + d / 2)| ≤ rho p := by
          by_contra hc
          exact hf ⟨not_le.mp hc, by linarith⟩
        have := lo_ge (show 0 ≤ s + d / 2 by linarith) (show s + d / 2 < π / 2 by linarith) hz hr
        have : 0 ≤ 2 * cos (d / 2) * off (s + d / 2) p := by positivity
        linarith
  · have hss : π / 2 < s := by linarith
    have hb : (ThetaCone.make s d).tanB = tanOf (s + d / 2) := by
      unfold ThetaCone.make
      simp only []
      rw [if_pos (show s > π / 2 ∧ s + d > π / 2 from ⟨hss, by linarith⟩), if_pos (show s > π / 2 by linarith)]
      unfold tanOf
      rw [if_pos (by linarith)]
      congr 1; ring
    refine ite_iff_le (c' := ¬ (rho p < |p.z * tanOf (s + d / 2)| ∧ s + d ≠ π)) (by
      rw [if_pos (show (s + d > π / 2 + kHalfTolerance ∧ s > π / 2 + kHalfTolerance ∧ s < s + d) from ⟨by linarith, by
        rcases kinds hd reg with k | ⟨k, -⟩ | ⟨k, -⟩ | ⟨k, -⟩ | k <;> linarith, by linarith⟩), hb]) ?_
    have hz : p.z ≤ 0 := by
      by_contra hc
      push Not at hc
      linarith [above_lt (show s < π by linarith) hss.le hc, hin.1]
    have cd' : 0 < cos (d / 2) := by
      rcases cd with h | h
      · exact h
      · linarith [h.1]
    by_cases hf : rho p < |p.z * tanOf (s + d / 2)| ∧ s + d ≠ π
    · rw [if_neg (not_not.mpr hf)]
      have := hi_gt (show s + d / 2 ≤ π by linarith) (show π / 2 < s + d / 2 by linarith) hz hf.1
      have hneg : 0 ≤ 2 * cos (d / 2) * off (s + d / 2) p := by positivity
      have hs := lt_of_le_of_ne he hf.2
      rw [F2 hs]
      exact fin _ (fun _ => by linarith) (fun _ => le_refl _)
    · rw [if_pos hf]
      rw [F1 (by linarith)]
      refine fin _ (fun _ => le_refl _) (fun h => ?_)
      have hr : |p.z * tanOf (s + d / 2)| ≤ rho p := by
        by_contra hc
        exact hf ⟨not_le.mp hc, by linarith⟩
      have := hi_le (show s + d / 2 ≤ π by linarith) (show π / 2 < s + d / 2 by linarith) hz hr
      have : 2 * cos (d / 2) * off (s + d / 2) p ≤ 0 := by nlinarith
      linarith

end

end Sphere
end VecGeom
