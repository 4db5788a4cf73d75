import Verif.EllTube.Props

/-!
# C91: the perimeter of an ellipse
-/

namespace VecGeom
namespace EllTube

open Real

/-- One round of the loop at least halves the difference. -/
theorem agm_step {x y : ℝ} (hy : 0 < y) (hxy : y ≤ x) :
    y ≤ √(x * y) ∧ √(x * y) ≤ (x + y) * (1 / 2) ∧ (x + y) * (1 / 2) - √(x * y) ≤ (x - y) / 2 := by
  have hx : 0 < x := by linarith
  have h1 : y ≤ √(x * y) := le_sqrt_of_sq_le (by nlinarith)
  have h2 : √(x * y) ≤ (x + y) * (1 / 2) := by
    rw [sqrt_le_left (by linarith)]
    nlinarith [sq_nonneg (x - y)]
  exact ⟨h1, h2, by linarith⟩

theorem ellLoop_some : ∀ (n : Nat) {x y : ℝ} (S M : ℝ), 0 < y → y ≤ x → x - y ≤ 1 / 134217728 * y * 2 ^ n →
    ∃ r, ellLoop (n + 1) x y S M = some r := by
  intro n
  induction n with
  | zero =>
    intro x y S M hy hxy h
    rw [pow_zero, mul_one] at h
    exact ⟨_, by rw [ellLoop, if_neg (not_lt.mpr h)]⟩
  | succ n ih =>
    intro x y S M hy hxy h
    rw [ellLoop]
    split
    · obtain ⟨h1, h2, h3⟩ := agm_step hy hxy
      apply ih
      · linarith
      · exact h2
      · rw [pow_succ] at h
        have h4 : 1 / 134217728 * y * 2 ^ n ≤ 1 / 134217728 * √(x * y) * 2 ^ n := by
          apply mul_le_mul_of_nonneg_right _ (by positivity)
          linarith
        linarith
    · exact ⟨_, rfl⟩

theorem ellLoop_mono : ∀ (n : Nat) {x y S M : ℝ} {r}, ellLoop n x y S M = some r → ellLoop (n + 1) x y S M = some r := by
  intro n
  induction n with
  | zero => intro x y S M r h; simp [ellLoop] at h
  | succ n ih =>
    intro x y S M r h
    rw [ellLoop] at h ⊢
    split
    · rename_i hc
      rw [if_pos hc] at h
      exact ih h
    · rename_i hc
      rw [if_neg hc] at h
      exact h

theorem ratio_back {r : ℝ} (h0 : 0 ≤ r) (h1 : r ≤ 1) :
    √((1 - √((1 - r) * (1 + r))) * (1 + √((1 - r) * (1 + r)))) = r := by
  have h2 : 0 ≤ (1 - r) * (1 + r) := mul_nonneg (by linarith) (by linarith)
  have h3 := mul_self_sqrt h2
  have : (1 - √((1 - r) * (1 + r))) * (1 + √((1 - r) * (1 + r))) = r ^ 2 := by nlinarith
  rw [this, sqrt_sq h0]

theorem ratio_mem (A B : ℝ) : 0 ≤ min |A| |B| / max |A| |B| ∧ min |A| |B| / max |A| |B| ≤ 1 := by
  have h0 : 0 ≤ max |A| |B| := (abs_nonneg A).trans (le_max_left _ _)
  exact ⟨div_nonneg (le_min (abs_nonneg _) (abs_nonneg _)) h0, div_le_one_of_le₀ (min_le_max) h0⟩

/-- C91: the perimeter of an ellipse with the semi-axes `A` and `B`, not both of them 0, is found in finitely many rounds, of which there
are at most `28 + m` if the longer semi-axis is at most `2 ^ m` times the shorter one; it does not depend on the order and signs of the
semi-axes, it scales with the ellipse, and it is exact for circles and segments.  What is missing is a bound for its difference from the arc
length for the other ellipses. -/
theorem C91_perimeter {A B : ℝ} (h : A ≠ 0 ∨ B ≠ 0) :
    (∃ N P, ∀ n, N ≤ n → ellipsePerimeter n A B = some P) ∧
    (∀ m, max |A| |B| ≤ 2 ^ m * min |A| |B| → ∃ P, ∀ n, 28 + m ≤ n → ellipsePerimeter n A B = some P) ∧
    (∀ n, ellipsePerimeter n B A = ellipsePerimeter n A B ∧ ellipsePerimeter n (-A) B = ellipsePerimeter n A B) ∧
    (∀ n k, k ≠ 0 → ellipsePerimeter n (k * A) (k * B) = (ellipsePerimeter n A B).map (|k| * ·)) ∧
    (∀ n, |A| = |B| → ellipsePerimeter n A B = some (2 * π * |A|)) ∧
    (∀ n, B = 0 → ellipsePerimeter n A B = some (4 * |A|)) := by
  have hmax : 0 < max |A| |B| := by
    rcases h with h | h
    · exact lt_max_of_lt_left (abs_pos.mpr h)
    · exact lt_max_of_lt_right (abs_pos.mpr h)
  have hmin : 0 ≤ min |A| |B| := le_min (abs_nonneg _) (abs_nonneg _)
  have hr := ratio_mem A B
  have hback := ratio_back hr.1 hr.2
  have rounds : ∀ m, max |A| |B| ≤ 2 ^ m * min |A| |B| → ∃ P, ∀ n, 28 + m ≤ n → ellipsePerimeter n A B = some P := by
    intro m hm
    unfold ellipsePerimeter compEllint2
    dsimp only
    rw [hback]
    have hy : 0 < min |A| |B| / max |A| |B| := by
      apply div_pos _ hmax
      rcases hmin.lt_or_eq with h1 | h1
      · exact h1
      · rw [← h1, mul_zero] at hm; linarith
    have h1 : 1 ≤ 2 ^ m * (min |A| |B| / max |A| |B|) := by rw [← mul_div_assoc, one_le_div hmax]; exact hm
    generalize min |A| |B| / max |A| |B| = b at *
    by_cases h2 : b = 1
    · exact ⟨_, fun n _ => by rw [if_pos h2]; rfl⟩
    obtain ⟨r, hr⟩ := ellLoop_some (27 + m) (x := 1) (y := b) 0 1 hy hr.2 (by
      rw [pow_add, show (2 : ℝ) ^ 27 = 134217728 by norm_num]
      linarith)
    refine ⟨4 * max |A| |B| * (1 / 2 * (π / 2) * ((1 + b) * (1 + b) - r.2.2) / (r.1 + r.2.1)), fun n hn => ?_⟩
    have : ellLoop n 1 b 0 1 = some r := by
      obtain ⟨k, rfl⟩ := Nat.exists_eq_add_of_le hn
      clear hn
      induction k with
      | zero => rw [show 28 + m + 0 = 27 + m + 1 by omega]; exact hr
      | succ k ih => exact ellLoop_mono _ ih
    rw [if_neg h2, if_neg hy.ne', this]
    rfl
  have zero : ∀ n, min |A| |B| = 0 → ellipsePerimeter n A B = some (4 * max |A| |B|) := by
    intro n h0
    unfold ellipsePerimeter compEllint2
    dsimp only
    rw [hback, h0, zero_div, if_neg zero_ne_one, if_pos rfl]
    simp
  refine ⟨?_, rounds, fun n => ⟨?_, ?_⟩, fun n k hk => ?_, fun n hAB => ?_, fun n hB => ?_⟩
  · rcases hmin.lt_or_eq with h1 | h1
    · obtain ⟨m, hm⟩ := pow_unbounded_of_one_lt (max |A| |B| / min |A| |B|) (one_lt_two)
      rw [div_lt_iff₀ h1] at hm
      obtain ⟨P, hP⟩ := rounds m hm.le
      exact ⟨_, P, hP⟩
    · exact ⟨0, _, fun n _ => zero n h1.symm⟩
  · unfold ellipsePerimeter
    rw [max_comm, min_comm]
  · unfold ellipsePerimeter
    rw [abs_neg]
  · unfold ellipsePerimeter
    have hk' := abs_pos.mpr hk
    dsimp only
    rw [abs_mul, abs_mul, ← mul_max_of_nonneg _ _ hk'.le, ← mul_min_of_nonneg _ _ hk'.le, mul_div_mul_left _ _ hk'.ne', Option.map_map]
    congr 1
    funext y
    simp only [Function.comp]
    ring
  · unfold ellipsePerimeter compEllint2
    dsimp only
    rw [hback]
    rw [hAB, max_self] at hmax
    rw [hAB, max_self, min_self, div_self hmax.ne', if_pos rfl]
    simp only [Option.map_some, Option.some.injEq]
    ring
  · rw [zero n (by rw [hB, abs_zero]; exact min_eq_right (abs_nonneg _)), hB, abs_zero, max_eq_left (abs_nonneg _)]

/-- The surface area of the elliptical tube: two ellipses and the lateral surface; for a round tube it is that of a cylinder. -/
theorem C91_surface {a : Par} (hv : a.Valid) :
    ∃ N P, ∀ n, N ≤ n → ellipsePerimeter n a.x a.y = some P ∧ surfaceArea n (of a) = some (2 * (π * a.x * a.y + P * a.z)) ∧
      (a.x = a.y → P = 2 * π * a.x) := by
  have hx := x_pos hv
  have hy := y_pos hv
  obtain ⟨⟨N, P, hP⟩, _, _, _, hc, _⟩ := C91_perimeter (A := a.x) (B := a.y) (.inl hx.ne')
  refine ⟨N, P, fun n hn => ⟨hP n hn, ?_, fun he => ?_⟩⟩
  · rw [of_eq hv]
    show (ellipsePerimeter n a.x a.y).map _ = _
    rw [hP n hn]
    rfl
  · have h1 := hc n (by rw [he])
    rw [hP n hn, Option.some.injEq, abs_of_pos hx] at h1
    exact h1

example : ∃ P, ∀ n, 29 ≤ n → ellipsePerimeter n flat.x flat.y = some P :=
  (C91_perimeter (A := flat.x) (B := flat.y) (.inl (by norm_num [flat]))).2.1 1 (by norm_num [flat])

end EllTube
end VecGeom
