import Verif.EllTube.Perimeter
import Verif.Base.Landen
import Mathlib.Analysis.Real.Pi.Bounds

/-!
# C91: the accuracy of the perimeter of an ellipse
-/

namespace VecGeom

open Real

theorem ellArc_scale (k a b : ℝ) : ellArc (k * a) (k * b) = |k| * ellArc a b := by
  unfold ellArc
  rw [← intervalIntegral.integral_const_mul]
  congr 1
  funext θ
  rw [show (k * a * cos θ) ^ 2 + (k * b * sin θ) ^ 2 = k ^ 2 * ((a * cos θ) ^ 2 + (b * sin θ) ^ 2) by ring, sqrt_mul (sq_nonneg k),
    sqrt_sq_eq_abs]

theorem ellArc_comm (a b : ℝ) : ellArc a b = ellArc b a := by
  unfold ellArc
  have hp : Function.Periodic (fun θ => √((a * cos θ) ^ 2 + (b * sin θ) ^ 2)) (2 * π) := fun θ => by
    show √((a * cos (θ + 2 * π)) ^ 2 + (b * sin (θ + 2 * π)) ^ 2) = _
    rw [cos_add_two_pi, sin_add_two_pi]
  have h := hp.intervalIntegral_add_eq (π / 2) 0
  rw [zero_add] at h
  rw [← h]
  have h2 := intervalIntegral.integral_comp_add_right (a := 0) (b := 2 * π) (fun θ => √((a * cos θ) ^ 2 + (b * sin θ) ^ 2)) (π / 2)
  rw [zero_add, add_comm (2 * π)] at h2
  rw [← h2]
  congr 1
  funext θ
  rw [cos_add_pi_div_two, sin_add_pi_div_two]
  congr 1; ring

theorem ellArc_abs (a b : ℝ) : ellArc a b = ellArc (max |a| |b|) (min |a| |b|) := by
  have h : ∀ a b, ellArc a b = ellArc |a| |b| := by
    intro a b
    unfold ellArc
    congr 1
    funext θ
    rw [mul_pow, mul_pow, mul_pow |a|, mul_pow |b|, sq_abs, sq_abs]
  rcases le_total |a| |b| with hab | hab
  · rw [max_eq_right hab, min_eq_left hab, h, ellArc_comm]
  · rw [max_eq_left hab, min_eq_right hab, h]

theorem ellArc_circle {a : ℝ} (ha : 0 ≤ a) : ellArc a a = 2 * π * a := by
  have := ellArc_bounds ha (le_refl a)
  exact le_antisymm this.2 this.1

namespace EllTube

/-- What the loop keeps: the length minus the leading term. -/
noncomputable def rest (x y : ℝ) : ℝ := ellArc x y - ellInv x y / 4 * (x + y) ^ 2

theorem rest_step {x y : ℝ} (hy : 0 < y) (hxy : y ≤ x) :
    rest x y = 2 * rest ((x + y) / 2) √(x * y) - ellInv x y / 2 * ((x + y) / 2 - √(x * y)) ^ 2 := by
  obtain ⟨h1, h2⟩ := landen hy hxy
  unfold rest
  rw [h1, h2]
  have h3 : √(x * y) ^ 2 = x * y := sq_sqrt (mul_nonneg (by linarith) hy.le)
  generalize √(x * y) = z at *
  linear_combination ellInv ((x + y) / 2) z * h3

/-- The remaining term is tiny if the means are close. -/
theorem rest_small {x y : ℝ} (hy : 0 < y) (hxy : y ≤ x) : |rest x y| ≤ π / 2 * ((x - y) ^ 2 / y) := by
  obtain ⟨h1, h2⟩ := landen hy hxy
  obtain ⟨s1, s2, -⟩ := agm_step hy hxy
  rw [show (x + y) * (1 / 2) = (x + y) / 2 by ring] at s2
  have hz := lt_of_lt_of_le hy s1
  have h3 : √(x * y) ^ 2 = x * y := sq_sqrt (mul_nonneg (by linarith) hy.le)
  obtain ⟨a1, a2⟩ := ellArc_bounds hz.le s2
  obtain ⟨i1, i2⟩ := ellInv_bounds hz s2
  have e : rest x y = 2 * ellArc ((x + y) / 2) √(x * y) - ellInv ((x + y) / 2) √(x * y) * (((x + y) / 2) ^ 2 + √(x * y) ^ 2) := by
    unfold rest
    rw [h1, h2, h3]
    ring
  rw [e]
  have hu : 0 < (x + y) / 2 := by linarith
  have hd : ((x + y) / 2) ^ 2 - √(x * y) ^ 2 = (x - y) ^ 2 / 4 := by rw [h3]; ring
  generalize √(x * y) = z at *
  generalize (x + y) / 2 = u at *
  generalize ellArc u z = P at *
  generalize ellInv u z = q at *
  have hpi := pi_pos
  have hq : 0 ≤ u ^ 2 + z ^ 2 := by positivity
  have m1 := mul_le_mul_of_nonneg_right i1 hq
  have m2 := mul_le_mul_of_nonneg_right i2 hq
  have e1 : 2 * π / u * (u ^ 2 + z ^ 2) = 4 * π * u - 2 * π * ((u ^ 2 - z ^ 2) / u) := by field_simp; ring
  have e2 : 2 * π / z * (u ^ 2 + z ^ 2) = 4 * π * z + 2 * π * ((u ^ 2 - z ^ 2) / z) := by field_simp; ring
  rw [e1] at m1
  rw [e2] at m2
  rw [hd] at m1 m2
  have hsq : 0 ≤ (x - y) ^ 2 / 4 := by positivity
  have b1 : (x - y) ^ 2 / 4 / u ≤ (x - y) ^ 2 / 4 / y := div_le_div_of_nonneg_left hsq hy (by linarith)
  have b2 : (x - y) ^ 2 / 4 / z ≤ (x - y) ^ 2 / 4 / y := div_le_div_of_nonneg_left hsq hy s1
  have b3 : (x - y) ^ 2 / 4 / y = (x - y) ^ 2 / y / 4 := by ring
  rw [b3] at b1 b2
  have c1 := mul_le_mul_of_nonneg_left b1 (by linarith : 0 ≤ 2 * π)
  have c2 := mul_le_mul_of_nonneg_left b2 (by linarith : 0 ≤ 2 * π)
  rw [abs_le]
  constructor <;> nlinarith

/-- How far the means may be apart `n` rounds before the end of the loop. -/
noncomputable def lev : Nat → ℝ
  | 0 => 1 / 2 ^ 45
  | 1 => 1 / 2 ^ 21
  | 2 => 1 / 2 ^ 9
  | 3 => 1 / 2 ^ 3
  | k + 4 => 2 ^ (2 ^ k) - 1

theorem quadratic {x y η : ℝ} (hy : 0 < y) (hxy : y ≤ x) (h0 : 0 ≤ η) (h : x - y ≤ η * y) :
    (x + y) / 2 - √(x * y) ≤ η ^ 2 / 8 * √(x * y) := by
  obtain ⟨s1, s2, -⟩ := agm_step hy hxy
  rw [show (x + y) * (1 / 2) = (x + y) / 2 by ring] at s2
  have hz := lt_of_lt_of_le hy s1
  have h3 : √(x * y) ^ 2 = x * y := sq_sqrt (mul_nonneg (by linarith) hy.le)
  generalize √(x * y) = z at *
  have h4 : ((x + y) / 2 - z) * ((x + y) / 2 + z) = (x - y) ^ 2 / 4 := by linear_combination -h3
  have h5 : (x - y) ^ 2 ≤ (η * y) ^ 2 := pow_le_pow_left₀ (by linarith) h 2
  have h6 : (η * y) ^ 2 ≤ (η * z) ^ 2 := pow_le_pow_left₀ (by positivity) (mul_le_mul_of_nonneg_left s1 h0) 2
  by_contra hc
  push Not at hc
  have h7 : 0 ≤ η ^ 2 / 8 * z := by positivity
  nlinarith [mul_le_mul_of_nonneg_left (by linarith : 2 * z ≤ (x + y) / 2 + z) (by linarith : 0 ≤ (x + y) / 2 - z),
    mul_lt_mul_of_pos_right hc hz]

theorem lev_step {x y : ℝ} (hy : 0 < y) (hxy : y ≤ x) : ∀ n, x - y ≤ lev (n + 1) * y → (x + y) / 2 - √(x * y) ≤ lev n * √(x * y)
  | 0 => fun h => by
    obtain ⟨s1, -, -⟩ := agm_step hy hxy
    have := quadratic hy hxy (by norm_num [lev]) h
    refine this.trans (mul_le_mul_of_nonneg_right ?_ (by linarith))
    norm_num [lev]
  | 1 => fun h => by
    obtain ⟨s1, -, -⟩ := agm_step hy hxy
    have := quadratic hy hxy (by norm_num [lev]) h
    refine this.trans (mul_le_mul_of_nonneg_right ?_ (by linarith))
    norm_num [lev]
  | 2 => fun h => by
    obtain ⟨s1, -, -⟩ := agm_step hy hxy
    have := quadratic hy hxy (by norm_num [lev]) h
    refine this.trans (mul_le_mul_of_nonneg_right ?_ (by linarith))
    norm_num [lev]
  | 3 => fun h => by
    obtain ⟨s1, -, -⟩ := agm_step hy hxy
    have := quadratic hy hxy (by norm_num [lev]) h
    refine this.trans (mul_le_mul_of_nonneg_right ?_ (by linarith))
    norm_num [lev]
  | k + 4 => fun h => by
    obtain ⟨s1, -, -⟩ := agm_step hy hxy
    have hz := lt_of_lt_of_le hy s1
    have h3 : √(x * y) ^ 2 = x * y := sq_sqrt (mul_nonneg (by linarith) hy.le)
    have e1 : lev (k + 4 + 1) = 2 ^ (2 ^ (k + 1)) - 1 := rfl
    have e2 : lev (k + 4) = 2 ^ (2 ^ k) - 1 := rfl
    rw [e1] at h
    rw [e2]
    generalize √(x * y) = z at *
    rw [show 2 ^ (k + 1) = 2 ^ k * 2 by ring, pow_mul] at h
    have hL : (0 : ℝ) < 2 ^ (2 ^ k) := by positivity
    generalize (2 : ℝ) ^ (2 ^ k) = L at *
    have h4 : x ≤ L * z := by
      apply abs_le_of_sq_le_sq' _ (by positivity) |>.2
      rw [mul_pow, h3]
      nlinarith [mul_le_mul_of_nonneg_left (by linarith : x ≤ L ^ 2 * y) (by linarith : 0 ≤ x)]
    nlinarith

theorem lev_zero_le {x y : ℝ} (hy : 0 < y) (h : x - y ≤ lev 0 * y) : ¬ x - y > 1 / 134217728 * y := by
  have : lev 0 ≤ 1 / 134217728 := by norm_num [lev]
  have := mul_le_mul_of_nonneg_right this hy.le
  push Not
  linarith

/-- The loop ends after at most `n` rounds, with close means, and keeps the length. -/
theorem loop_spec : ∀ (n fuel : Nat) {x y : ℝ} (S M : ℝ), 0 < y → y ≤ x → x - y ≤ lev n * y → n + 1 ≤ fuel →
    ∃ X Y S' N, ellLoop fuel x y S M = some (X, Y, S') ∧ N ≤ n ∧ 0 < Y ∧ Y ≤ X ∧ X ≤ x ∧ X - Y ≤ 1 / 134217728 * Y ∧
      ellInv X Y = ellInv x y ∧ M * rest x y - ellInv x y / 4 * S = M * 2 ^ N * rest X Y - ellInv x y / 4 * S' := by
  intro n
  induction n with
  | zero =>
    intro fuel x y S M hy hxy h hf
    obtain ⟨f, rfl⟩ := Nat.exists_eq_add_of_le' hf
    have hn := lev_zero_le hy h
    refine ⟨x, y, S, 0, ?_, le_rfl, hy, hxy, le_rfl, not_lt.mp hn, rfl, by rw [pow_zero, mul_one]⟩
    rw [ellLoop, if_neg hn]
  | succ n ih =>
    intro fuel x y S M hy hxy h hf
    obtain ⟨f, rfl⟩ := Nat.exists_eq_add_of_le' hf
    rw [show f + (n + 1 + 1) = (f + (n + 1)) + 1 by omega, ellLoop]
    by_cases hc : x - y > 1 / 134217728 * y
    · rw [if_pos hc]
      obtain ⟨s1, s2, -⟩ := agm_step hy hxy
      have hst := rest_step hy hxy
      have hl := (landen hy hxy).2
      have hlev := lev_step hy hxy n h
      rw [show (x + y) * (1 / 2) = (x + y) / 2 by ring] at *
      obtain ⟨X, Y, S', N, h1, h2, h3, h4, h5, h6, h7, h8⟩ := ih (f + (n + 1)) (x := (x + y) / 2) (y := √(x * y))
        (S + (M + M) * ((x + y) / 2 - √(x * y)) * ((x + y) / 2 - √(x * y))) (M + M) (lt_of_lt_of_le hy s1) s2 hlev (by omega)
      refine ⟨X, Y, S', N + 1, h1, by omega, h3, h4, by linarith, h6, by rw [h7, ← hl], ?_⟩
      rw [← hl] at h8
      rw [hst, pow_succ]
      linear_combination h8
    · rw [if_neg hc]
      exact ⟨x, y, S, 0, rfl, by omega, hy, hxy, le_rfl, not_lt.mp hc, rfl, by rw [pow_zero, mul_one]⟩

theorem abs_error {T W P q q0 c : ℝ} (hq : 0 < q) (h1 : q0 ≤ q) (h2 : q - q0 ≤ c * q) (hP : P = T + q * W) :
    |q0 * W - P| ≤ |T| + c * (|P| + |T|) := by
  have h3 : |q * W| ≤ |P| + |T| := by
    rw [show q * W = P - T by linarith]
    exact abs_sub _ _
  rw [abs_mul, abs_of_pos hq] at h3
  have h4 : |(q - q0) * W| ≤ c * (|P| + |T|) := by
    rw [abs_mul, abs_of_nonneg (by linarith)]
    have h0 : 0 ≤ c * q := by linarith
    have hc : 0 ≤ c := nonneg_of_mul_nonneg_left h0 hq
    nlinarith [mul_le_mul_of_nonneg_right h2 (abs_nonneg W), mul_le_mul_of_nonneg_left h3 hc]
  rw [show q0 * W - P = -T - (q - q0) * W by rw [hP]; ring]
  refine (abs_sub _ _).trans ?_
  rw [abs_neg]
  linarith

/-- The error from the closeness of the means. -/
theorem end_error {X Y q W T P : ℝ} {N : Nat} (hY : 0 < Y) (hXY : Y ≤ X) (hX : X ≤ 1) (hc : X - Y ≤ 1 / 134217728 * Y)
    (q1 : 2 * π / ((X + Y) / 2) ≤ q) (q2 : q ≤ 2 * π / √(X * Y)) (hT : |T| ≤ π / 2 * ((X - Y) ^ 2 / Y))
    (hP : P = 2 ^ N * T + q / 4 * W) (hP0 : 0 ≤ P) (hP1 : P ≤ 2 * π) :
    |π * W / (X + Y) - P| ≤ 2 ^ N / 2 ^ 52 := by
  have hpi := pi_pos
  have hpi2 := pi_lt_d2
  obtain ⟨s1, s2, -⟩ := agm_step hY hXY
  rw [show (X + Y) * (1 / 2) = (X + Y) / 2 by ring] at s2
  have hz := lt_of_lt_of_le hY s1
  have hqd := quadratic hY hXY (by norm_num) hc
  have hN : (1 : ℝ) ≤ 2 ^ N := one_le_pow₀ (by norm_num)
  have hu : 0 < (X + Y) / 2 := by linarith
  have hq : 0 < q := lt_of_lt_of_le (by positivity) q1
  have t1 : (X - Y) ^ 2 / Y ≤ 1 / 2 ^ 54 := by
    have : (X - Y) ^ 2 ≤ (1 / 134217728 * Y) ^ 2 := pow_le_pow_left₀ (by linarith) hc 2
    rw [div_le_iff₀ hY]
    nlinarith [mul_le_mul_of_nonneg_left (by linarith : Y ≤ 1) hY.le]
  have t2 : |2 ^ N * T| ≤ 2 ^ N * (π / 2 * (1 / 2 ^ 54)) := by
    rw [abs_mul, abs_of_pos (by positivity : (0 : ℝ) < 2 ^ N)]
    exact mul_le_mul_of_nonneg_left (hT.trans (mul_le_mul_of_nonneg_left t1 (by linarith))) (by positivity)
  have r : q - 2 * π / ((X + Y) / 2) ≤ (1 / 134217728) ^ 2 / 8 * q := by
    have h1 : q * √(X * Y) ≤ 2 * π := (le_div_iff₀ hz).mp q2
    have h2 : q * (1 - (1 / 134217728) ^ 2 / 8) ≤ 2 * π / ((X + Y) / 2) := by
      rw [le_div_iff₀ hu]
      have : (1 - (1 / 134217728) ^ 2 / 8) * ((X + Y) / 2) ≤ √(X * Y) := by nlinarith
      nlinarith [mul_le_mul_of_nonneg_left this hq.le]
    linarith
  have key := abs_error (T := 2 ^ N * T) (W := W) (P := P) (q := q / 4) (q0 := 2 * π / ((X + Y) / 2) / 4) (c := (1 / 134217728) ^ 2 / 8)
    (by linarith) (by linarith) (by linarith) hP
  rw [show π * W / (X + Y) = 2 * π / ((X + Y) / 2) / 4 * W by field_simp; ring]
  refine key.trans ?_
  rw [abs_of_nonneg hP0]
  generalize |2 ^ N * T| = B at *
  generalize (2 : ℝ) ^ N = L at *
  have hLpi : L * π ≤ L * (3.15) := mul_le_mul_of_nonneg_left hpi2.le (by linarith)
  nlinarith

/-- The elliptic integral is accurate to `2^k / 2^48` (times four) if the smaller axis is at least `2^-(2^k)`. -/
theorem compEllint2_accurate {e β : ℝ} {k : Nat} (he : √((1 - e) * (1 + e)) = β) (h0 : 0 < β) (h1 : β ≤ 1) (hk : 1 ≤ β * 2 ^ (2 ^ k)) :
    ∃ v, (∀ n, k + 5 ≤ n → compEllint2 n e = some v) ∧ |4 * v - ellArc 1 β| ≤ 2 ^ k / 2 ^ 48 := by
  by_cases hb1 : β = 1
  · refine ⟨π / 2, fun n _ => ?_, ?_⟩
    · rw [compEllint2]
      simp only [he, hb1]
      norm_num
    · rw [hb1, ellArc_circle (by norm_num), show 4 * (π / 2) - 2 * π * 1 = 0 by ring, abs_zero]
      positivity
  · have hl : 1 - β ≤ lev (k + 4) * β := by
      show 1 - β ≤ (2 ^ (2 ^ k) - 1) * β
      linarith
    have hcomp : ∀ n, compEllint2 n e = (ellLoop n 1 β 0 1).map (fun r => 1 / 2 * (π / 2) * ((1 + β) * (1 + β) - r.2.2) / (r.1 + r.2.1)) := by
      intro n
      rw [compEllint2]
      simp only [he, if_neg hb1, if_neg h0.ne']
    obtain ⟨X, Y, S', N, g1, g2, g3, g4, g5, g6, g7, g8⟩ := loop_spec (k + 4) (k + 5) 0 1 h0 h1 hl le_rfl
    refine ⟨1 / 2 * (π / 2) * ((1 + β) * (1 + β) - S') / (X + Y), fun n hn => ?_, ?_⟩
    · have : ellLoop n 1 β 0 1 = some (X, Y, S') := by
        obtain ⟨j, rfl⟩ := Nat.exists_eq_add_of_le hn
        clear hn
        induction j with
        | zero => exact g1
        | succ j ih => exact ellLoop_mono _ ih
      rw [hcomp, this]
      rfl
    · obtain ⟨l1, l2⟩ := landen g3 g4
      obtain ⟨s1, s2, -⟩ := agm_step g3 g4
      rw [show (X + Y) * (1 / 2) = (X + Y) / 2 by ring] at s2
      obtain ⟨i1, i2⟩ := ellInv_bounds (lt_of_lt_of_le g3 s1) s2
      rw [← l2] at i1 i2
      obtain ⟨a1, a2⟩ := ellArc_bounds h0.le h1
      have hpi := pi_pos
      have hP : ellArc 1 β = 2 ^ N * rest X Y + ellInv X Y / 4 * ((1 + β) * (1 + β) - S') := by
        rw [g7]
        have hr : rest 1 β = ellArc 1 β - ellInv 1 β / 4 * (1 + β) ^ 2 := rfl
        rw [hr] at g8
        linear_combination g8
      have := end_error g3 g4 g5 g6 i1 i2 (rest_small g3 g4) hP (le_trans (by positivity) a1) (by linarith)
      rw [show 4 * (1 / 2 * (π / 2) * ((1 + β) * (1 + β) - S') / (X + Y)) = π * ((1 + β) * (1 + β) - S') / (X + Y) by ring]
      refine this.trans ?_
      have h2 : (2 : ℝ) ^ N ≤ 2 ^ (k + 4) := pow_le_pow_right₀ (by norm_num) g2
      rw [pow_add] at h2
      rw [div_le_div_iff₀ (by norm_num) (by norm_num)]
      norm_num at *
      linarith

/-- The length of a segment passed twice. -/
theorem ellArc_segment {a : ℝ} (ha : 0 ≤ a) : ellArc a 0 = 4 * a := by
  have h1 : ellArc 1 0 = 4 := by
    unfold ellArc
    have e : (fun θ => √((1 * cos θ) ^ 2 + (0 * sin θ) ^ 2)) = fun θ => |cos θ| := by
      funext θ
      rw [one_mul, zero_mul, zero_pow two_ne_zero, add_zero, sqrt_sq_eq_abs]
    rw [e]
    have hp : Function.Periodic (fun θ => |cos θ|) (2 * π) := fun θ => by
      show |cos (θ + 2 * π)| = _
      rw [cos_add_two_pi]
    have h := hp.intervalIntegral_add_eq (-(π / 2)) 0
    rw [zero_add] at h
    rw [← h, show -(π / 2) + 2 * π = 3 * π / 2 by ring]
    have hc : Continuous fun θ => |cos θ| := continuous_cos.abs
    rw [← intervalIntegral.integral_add_adjacent_intervals (hc.intervalIntegrable _ (π / 2)) (hc.intervalIntegrable _ _)]
    have hpi := pi_pos
    have i1 : ∫ θ in -(π / 2)..π / 2, |cos θ| = ∫ θ in -(π / 2)..π / 2, cos θ := by
      apply intervalIntegral.integral_congr
      intro θ hθ
      rw [Set.uIcc_of_le (by linarith)] at hθ
      exact abs_of_nonneg (cos_nonneg_of_mem_Icc hθ)
    have i2 : ∫ θ in π / 2..3 * π / 2, |cos θ| = ∫ θ in π / 2..3 * π / 2, -cos θ := by
      apply intervalIntegral.integral_congr
      intro θ hθ
      rw [Set.uIcc_of_le (by linarith)] at hθ
      exact abs_of_nonpos (cos_nonpos_of_pi_div_two_le_of_le hθ.1 (by linarith [hθ.2]))
    rw [i1, i2, intervalIntegral.integral_neg, integral_cos, integral_cos, sin_neg, sin_pi_div_two,
      show 3 * π / 2 = π / 2 + π by ring, sin_add_pi, sin_pi_div_two]
    norm_num
  have := ellArc_scale a 1 0
  rw [mul_one, mul_zero, h1, abs_of_nonneg ha] at this
  linarith

theorem ellArc_ge (A B : ℝ) : 4 * max |A| |B| ≤ ellArc A B := by
  rw [ellArc_abs, ← ellArc_segment (le_max_of_le_left (abs_nonneg A))]
  unfold ellArc
  have hc : ∀ a b : ℝ, Continuous fun θ => √((a * cos θ) ^ 2 + (b * sin θ) ^ 2) := fun a b => by fun_prop
  apply intervalIntegral.integral_mono_on (by linarith [pi_pos]) ((hc _ _).intervalIntegrable _ _) ((hc _ _).intervalIntegrable _ _)
  intro θ _
  apply sqrt_le_sqrt
  nlinarith [sq_nonneg (min |A| |B| * sin θ)]

/-- C91: the perimeter is the arc length of the ellipse, the integral of the speed of `(A cos θ, B sin θ)`, up to a relative error of
`2^k / 2^50`, if the ratio of the semi-axes is at most `2^(2^k)`, and after at most `k + 5` tests of the loop. It is exact for circles and
segments. -/
theorem C91_accurate {A B : ℝ} :
    (∀ k, 0 < min |A| |B| → max |A| |B| ≤ min |A| |B| * 2 ^ (2 ^ k) →
      ∃ P, (∀ n, k + 5 ≤ n → ellipsePerimeter n A B = some P) ∧
        |P - ∫ θ in (0)..(2 * π), √((A * sin θ) ^ 2 + (B * cos θ) ^ 2)| ≤
          (∫ θ in (0)..(2 * π), √((A * sin θ) ^ 2 + (B * cos θ) ^ 2)) * (2 ^ k / 2 ^ 50)) ∧
    (∀ n, A ≠ 0 → |A| = |B| ∨ B = 0 → ellipsePerimeter n A B = some (∫ θ in (0)..(2 * π), √((A * sin θ) ^ 2 + (B * cos θ) ^ 2))) := by
  have hI : ∫ θ in (0)..(2 * π), √((A * sin θ) ^ 2 + (B * cos θ) ^ 2) = ellArc A B := by
    rw [ellArc_comm]
    unfold ellArc
    congr 1
    funext θ
    rw [add_comm]
  rw [hI]
  constructor
  · intro k h0 hk
    have hmax : 0 < max |A| |B| := lt_of_lt_of_le h0 (min_le_max)
    have hr := ratio_mem A B
    have hback := ratio_back hr.1 hr.2
    have hpos : 0 < min |A| |B| / max |A| |B| := div_pos h0 hmax
    obtain ⟨v, hv1, hv2⟩ := compEllint2_accurate (k := k) hback hpos hr.2 (by
      rw [div_mul_eq_mul_div, one_le_div hmax]; exact hk)
    refine ⟨4 * max |A| |B| * v, fun n hn => ?_, ?_⟩
    · unfold ellipsePerimeter
      dsimp only
      rw [hv1 n hn]
      rfl
    · have e := ellArc_scale (max |A| |B|) 1 (min |A| |B| / max |A| |B|)
      rw [mul_one, mul_div_cancel₀ _ hmax.ne', ← ellArc_abs, abs_of_pos hmax] at e
      have hg := ellArc_ge A B
      have h1 := mul_le_mul_of_nonneg_left hv2 hmax.le
      rw [← abs_of_pos hmax, ← abs_mul, abs_of_pos hmax] at h1
      rw [show 4 * max |A| |B| * v - ellArc A B = max |A| |B| * (4 * v - ellArc 1 (min |A| |B| / max |A| |B|)) by rw [e]; ring]
      refine h1.trans ?_
      have h2 : (0 : ℝ) ≤ 2 ^ k / 2 ^ 50 := by positivity
      have h3 := mul_le_mul_of_nonneg_right hg h2
      refine le_trans (le_of_eq ?_) h3
      rw [show (2 : ℝ) ^ 50 = 4 * 2 ^ 48 by norm_num]
      field_simp
  · intro n hA h
    obtain ⟨-, -, -, -, h1, h2⟩ := C91_perimeter (A := A) (B := B) (.inl hA)
    rcases h with h | h
    · rw [h1 n h, ellArc_abs, ← h, max_self, min_self, ellArc_circle (abs_nonneg A)]
    · rw [h2 n h, ellArc_abs, h, abs_zero, max_eq_left (abs_nonneg A), min_eq_right (abs_nonneg A), ellArc_segment (abs_nonneg A)]

/-- C91: the surface area of the elliptical tube is that of the two ellipses and of the rolled-out side, up to the error of the perimeter. -/
theorem C91_surface_accurate {a : Par} (hv : a.Valid) {k : Nat} (hk : max a.x a.y ≤ min a.x a.y * 2 ^ (2 ^ k)) :
    ∃ s, (∀ n, k + 5 ≤ n → surfaceArea n (of a) = some s) ∧
      |s - (2 * (π * a.x * a.y) + 2 * a.z * ∫ θ in (0)..(2 * π), √((a.x * sin θ) ^ 2 + (a.y * cos θ) ^ 2))| ≤
        (2 * a.z * ∫ θ in (0)..(2 * π), √((a.x * sin θ) ^ 2 + (a.y * cos θ) ^ 2)) * (2 ^ k / 2 ^ 50) := by
  have hx := x_pos hv
  have hy := y_pos hv
  have hz : 0 < a.z := by linarith [hv.z, kTolerance_pos]
  obtain ⟨P, h1, h2⟩ := (C91_accurate (A := a.x) (B := a.y)).1 k (by rw [abs_of_pos hx, abs_of_pos hy]; exact lt_min hx hy)
    (by rw [abs_of_pos hx, abs_of_pos hy]; exact hk)
  refine ⟨2 * (π * a.x * a.y + P * a.z), fun n hn => ?_, ?_⟩
  · rw [of_eq hv]
    show (ellipsePerimeter n a.x a.y).map _ = _
    rw [h1 n hn]
    rfl
  · generalize (∫ θ in (0)..(2 * π), √((a.x * sin θ) ^ 2 + (a.y * cos θ) ^ 2)) = I at *
    rw [show 2 * (π * a.x * a.y + P * a.z) - (2 * (π * a.x * a.y) + 2 * a.z * I) = 2 * a.z * (P - I) by ring, abs_mul,
      abs_of_pos (by linarith : 0 < 2 * a.z)]
    have := mul_le_mul_of_nonneg_left h2 (by linarith : 0 ≤ 2 * a.z)
    linarith

/-- An ellipse with the semi-axes 2 and 1: at most five tests, and 15 digits. -/
example : ∃ P, (∀ n, 5 ≤ n → ellipsePerimeter n 2 1 = some P) ∧
    |P - ∫ θ in (0)..(2 * π), √(((2 : ℝ) * sin θ) ^ 2 + ((1 : ℝ) * cos θ) ^ 2)| ≤
      (∫ θ in (0)..(2 * π), √(((2 : ℝ) * sin θ) ^ 2 + ((1 : ℝ) * cos θ) ^ 2)) * (2 ^ 0 / 2 ^ 50) :=
  (C91_accurate (A := 2) (B := 1)).1 0 (by norm_num) (by norm_num)

end EllTube
end VecGeom
