import Verif.Torus.Solve
import Verif.Base.Halfspace
import Mathlib.Topology.Order.IntermediateValue
import Mathlib.Data.List.Sort

/-!
# Properties of the solvers of cubic and quartic equations
-/

namespace VecGeom
namespace Torus

open Real

/-! ### Sorting -/

theorem swap02_perm (x : A4) : (swap02 x).toList.Perm x.toList := by
  unfold swap02 A4.toList
  split
  · show [x.x2, x.x1, x.x0, x.x3].Perm [x.x0, x.x1, x.x2, x.x3]
    exact ((List.Perm.swap x.x1 x.x2 _).trans ((List.Perm.swap x.x0 x.x2 _).cons _)).trans (List.Perm.swap x.x0 x.x1 _)
  · exact List.Perm.refl _
theorem swap13_perm (x : A4) : (swap13 x).toList.Perm x.toList := by
  unfold swap13 A4.toList
  split
  · show [x.x0, x.x3, x.x2, x.x1].Perm [x.x0, x.x1, x.x2, x.x3]
    exact (((List.Perm.swap x.x2 x.x3 _).trans ((List.Perm.swap x.x1 x.x3 _).cons _)).trans (List.Perm.swap x.x1 x.x2 _)).cons _
  · exact List.Perm.refl _
theorem swap01_perm (x : A4) : (swap01 x).toList.Perm x.toList := by
  unfold swap01 A4.toList
  split
  · exact List.Perm.swap _ _ _
  · exact List.Perm.refl _
theorem swap23_perm (x : A4) : (swap23 x).toList.Perm x.toList := by
  unfold swap23 A4.toList
  split
  · exact ((List.Perm.swap _ _ _).cons _).cons _
  · exact List.Perm.refl _
theorem swap12_perm (x : A4) : (swap12 x).toList.Perm x.toList := by
  unfold swap12 A4.toList
  split
  · exact (List.Perm.swap _ _ _).cons _
  · exact List.Perm.refl _

/-- The order after the first two comparisons, the next two, and the last. -/
theorem sort4_sorted (x : A4) : (sort4 x).x0 ≤ (sort4 x).x1 ∧ (sort4 x).x1 ≤ (sort4 x).x2 ∧ (sort4 x).x2 ≤ (sort4 x).x3 := by
  have h1 : ∀ x : A4, (swap02 x).x0 ≤ (swap02 x).x2 := by
    intro x; unfold swap02; split
    · rename_i h; exact h.le
    · rename_i h; exact not_lt.mp h
  have h2 : ∀ x : A4, x.x0 ≤ x.x2 → (swap13 x).x0 ≤ (swap13 x).x2 ∧ (swap13 x).x1 ≤ (swap13 x).x3 := by
    intro x hx; unfold swap13; split
    · rename_i h; exact ⟨hx, h.le⟩
    · rename_i h; exact ⟨hx, not_lt.mp h⟩
  have h3 : ∀ x : A4, x.x0 ≤ x.x2 → x.x1 ≤ x.x3 →
      (swap01 x).x0 ≤ (swap01 x).x1 ∧ (swap01 x).x0 ≤ (swap01 x).x2 ∧ (swap01 x).x0 ≤ (swap01 x).x3 ∧
      ((swap01 x).x1 ≤ (swap01 x).x2 ∨ (swap01 x).x1 ≤ (swap01 x).x3) := by
    intro x h h'; unfold swap01; split
    · rename_i c
      exact ⟨c.le, by show x.x1 ≤ x.x2; linarith, h', Or.inl h⟩
    · rename_i c
      have c := not_lt.mp c
      exact ⟨c, h, by linarith, Or.inr h'⟩
  have h4 : ∀ x : A4, x.x0 ≤ x.x1 → x.x0 ≤ x.x2 → x.x0 ≤ x.x3 → (x.x1 ≤ x.x2 ∨ x.x1 ≤ x.x3) →
      (swap23 x).x0 ≤ (swap23 x).x1 ∧ (swap23 x).x0 ≤ (swap23 x).x2 ∧ (swap23 x).x2 ≤ (swap23 x).x3 ∧ (swap23 x).x1 ≤ (swap23 x).x3 := by
    intro x e1 e2 e3 e4; unfold swap23; split
    · rename_i c
      exact ⟨e1, e3, c.le, by show x.x1 ≤ x.x2; rcases e4 with e4 | e4 <;> linarith⟩
    · rename_i c
      have c := not_lt.mp c
      exact ⟨e1, e2, c, by rcases e4 with e4 | e4 <;> linarith⟩
  have h5 : ∀ x : A4, x.x0 ≤ x.x1 → x.x0 ≤ x.x2 → x.x2 ≤ x.x3 → x.x1 ≤ x.x3 →
      (swap12 x).x0 ≤ (swap12 x).x1 ∧ (swap12 x).x1 ≤ (swap12 x).x2 ∧ (swap12 x).x2 ≤ (swap12 x).x3 := by
    intro x e1 e2 e3 e4; unfold swap12; split
    · rename_i c
      exact ⟨e2, c.le, e4⟩
    · rename_i c
      exact ⟨e1, not_lt.mp c, e3⟩
  unfold sort4
  obtain ⟨a1, a2⟩ := h2 _ (h1 x)
  obtain ⟨b1, b2, b3, b4⟩ := h3 _ a1 a2
  obtain ⟨c1, c2, c3, c4⟩ := h4 _ b1 b2 b3 b4
  exact h5 _ c1 c2 c3 c4

theorem sort4_pairwise (x : A4) : (sort4 x).toList.Pairwise (· ≤ ·) := by
  obtain ⟨h1, h2, h3⟩ := sort4_sorted x
  unfold A4.toList
  simp only [List.pairwise_cons, List.mem_cons, List.not_mem_nil, or_false, forall_eq_or_imp, forall_eq]
  exact ⟨⟨h1, h1.trans h2, (h1.trans h2).trans h3⟩, ⟨h2, h2.trans h3⟩, h3, by simp⟩

/-- C182: the sorting network sorts, for all four values, and neither loses nor makes up an element. -/
theorem C182_sort (x : A4) : (sort4 x).toList.Pairwise (· ≤ ·) ∧ (sort4 x).toList.Perm x.toList :=
  ⟨sort4_pairwise x, ((((swap12_perm _).trans (swap23_perm _)).trans (swap01_perm _)).trans (swap13_perm _)).trans (swap02_perm _)⟩

example : (sort4 ⟨4, 3, 2, 1⟩).toList = [1, 2, 3, 4] := by
  norm_num [sort4, swap02, swap13, swap01, swap23, swap12, A4.toList]

/-! ### Cubic equations -/

theorem signedCbrt_cube (t : ℝ) : signedCbrt t ^ 3 = t := by
  have h : (|t| ^ ((1 : ℝ) / 3)) ^ 3 = |t| := by
    rw [← rpow_natCast, ← rpow_mul (abs_nonneg t)]
    norm_num
  unfold signedCbrt
  rw [mul_pow, h]
  split
  · rename_i c; rw [abs_of_neg c]; ring
  · rename_i c; rw [abs_of_nonneg (not_lt.mp c)]; ring

theorem cube_inj {x y : ℝ} (h : x ^ 3 = y ^ 3) : x = y := by
  have := Odd.strictMono_pow (R := ℝ) (n := 3) (by decide)
  exact this.injective h

theorem cubicFirst_root (a b c : ℝ) : cubicFirst a b c ^ 3 + a * cubicFirst a b c ^ 2 + b * cubicFirst a b c + c = 0 := by
  set p := b - a * a * (1 / 3) with hp
  set q := c - a * b * (1 / 3) + 2 * a * a * a * (1 / 3) * (1 / 3) * (1 / 3) with hq
  -- the depressed equation suffices
  have dep : ∀ y : ℝ, y ^ 3 + p * y + q = 0 → (y - a * (1 / 3)) ^ 3 + a * (y - a * (1 / 3)) ^ 2 + b * (y - a * (1 / 3)) + c = 0 := by
    intro y h
    rw [← h, hp, hq]; ring
  have hs3 : √3 ^ 2 = (3 : ℝ) := sq_sqrt (by norm_num)
  have hs3p : 0 < √(3 : ℝ) := sqrt_pos.mpr (by norm_num)
  have hinv : (1 / (6 * √3)) ^ 2 = (1 : ℝ) / 108 := by
    rw [div_pow, mul_pow, hs3]; norm_num
  have hinv2 : √3 * (1 / (6 * √3)) = (1 : ℝ) / 6 := by field_simp
  set k := 1 / (6 * √3) with hk
  unfold cubicFirst
  simp only []
  rw [← hp, ← hq, ← hk]
  by_cases hd : 4 * p * p * p + 27 * q * q ≥ 0
  · rw [if_pos hd]
    set D := √(4 * p * p * p + 27 * q * q) with hD
    have hDs : D ^ 2 = 4 * p * p * p + 27 * q * q := sq_sqrt hd
    set t := (-3 * q * √3 + D) * k with ht
    set u := (3 * q * √3 + D) * k with hu
    have htu : t * u = (p / 3) ^ 3 := by
      rw [ht, hu]
      linear_combination (D ^ 2 - 9 * q ^ 2 * √3 ^ 2) * hinv - (9 * q ^ 2 / 108) * hs3 + (1 / 108) * hDs
    have hsub : t - u = -q := by
      rw [ht, hu]
      linear_combination (-6 * q) * hinv2
    have hA := signedCbrt_cube t
    have hB := signedCbrt_cube u
    set A := signedCbrt t with hAd
    set B := signedCbrt u with hBd
    have hAB : A * B = p / 3 := by
      apply cube_inj
      rw [mul_pow, hA, hB, htu]
    apply dep
    linear_combination hA - hB + hsub - 3 * (A - B) * hAB
  · rw [if_neg hd]
    have hd := not_le.mp hd
    set D := √(-(4 * p * p * p + 27 * q * q)) with hD
    have hDs : D ^ 2 = -(4 * p * p * p + 27 * q * q) := sq_sqrt (by linarith)
    set t := -0.5 * q with ht
    set u := D * k with hu
    have hpn : p < 0 := by
      by_contra hc
      push Not at hc
      have : 0 ≤ 4 * p * p * p := by positivity
      nlinarith [sq_nonneg q]
    set m := √(-p / 3) with hm
    have hms : m ^ 2 = -p / 3 := sq_sqrt (by linarith)
    have hm0 : 0 < m := sqrt_pos.mpr (by linarith)
    have hsum : t * t + u * u = m ^ 6 := by
      rw [show m ^ 6 = (m ^ 2) ^ 3 by ring, hms, ht, hu]
      linear_combination D ^ 2 * hinv + (1 / 108) * hDs
    have hroot : (t * t + u * u) ^ (0.5 * (1 / 3) : ℝ) = m := by
      rw [hsum, ← rpow_natCast, ← rpow_mul hm0.le]
      norm_num
    rw [hroot]
    have harg : cos (Complex.arg ⟨t, u⟩) * m ^ 3 = t := by
      have hne : (⟨t, u⟩ : ℂ) ≠ 0 := by
        intro h
        have h1 := congrArg Complex.re h
        have h2 := congrArg Complex.im h
        have h1 : t = 0 := h1
        have h2 : u = 0 := h2
        rw [h1, h2] at hsum
        have : 0 < m ^ 6 := by positivity
        linarith
      have hn : ‖(⟨t, u⟩ : ℂ)‖ = m ^ 3 := by
        rw [Complex.norm_def, Complex.normSq_mk, hsum, show m ^ 6 = (m ^ 3) ^ 2 by ring, sqrt_sq (by positivity)]
      rw [Complex.cos_arg hne, hn]
      show t / m ^ 3 * m ^ 3 = t
      field_simp
    set w := 1 / 3 * Complex.arg ⟨t, u⟩ with hw
    have h3 : Complex.arg ⟨t, u⟩ = 3 * w := by rw [hw]; ring
    rw [h3, cos_three_mul] at harg
    apply dep
    have hp' : p = -3 * m ^ 2 := by linarith
    rw [hp']
    have hq' : q = -2 * t := by rw [ht]; ring
    rw [hq']
    linear_combination 2 * harg

theorem quad_factor {u t x : ℝ} : x ^ 2 + u * x + t = 0 ↔ 0 ≤ u * u - 4 * t ∧ (x = 0.5 * (-u - √(u * u - 4 * t)) ∨ x = 0.5 * (-u + √(u * u - 4 * t))) := by
  constructor
  · intro h
    have hd : u * u - 4 * t = (2 * x + u) ^ 2 := by linear_combination -4 * h
    rw [hd, sqrt_sq_eq_abs]
    refine ⟨sq_nonneg _, ?_⟩
    rcases le_total 0 (2 * x + u) with c | c
    · right; rw [abs_of_nonneg c]; ring
    · left; rw [abs_of_nonpos c]; ring
  · rintro ⟨h, hx⟩
    have hs := sq_sqrt h
    rcases hx with hx | hx <;> · rw [hx]; linear_combination 0.25 * hs

/-- C182: the cubic solver returns the real solutions, all of them and nothing else, for all coefficients. -/
theorem C182_cubic (a b c x : ℝ) : x ∈ solveCubic a b c ↔ x ^ 3 + a * x ^ 2 + b * x + c = 0 := by
  have hr := cubicFirst_root a b c
  set y := cubicFirst a b c with hy
  have hfac : x ^ 3 + a * x ^ 2 + b * x + c = (x - y) * (x ^ 2 + (a + y) * x + (y * y + a * y + b)) := by
    linear_combination hr
  rw [hfac, mul_eq_zero, quad_factor, sub_eq_zero]
  unfold solveCubic
  simp only []
  rw [← hy]
  by_cases h : (a + y) * (a + y) - 4 * (y * y + a * y + b) ≥ 0
  · rw [if_pos h]
    simp only [List.mem_cons, List.not_mem_nil, or_false]
    constructor
    · rintro (h1 | h1 | h1)
      · exact Or.inl h1
      · exact Or.inr ⟨h, Or.inl h1⟩
      · exact Or.inr ⟨h, Or.inr h1⟩
    · rintro (h1 | ⟨-, h1 | h1⟩)
      · exact Or.inl h1
      · exact Or.inr (Or.inl h1)
      · exact Or.inr (Or.inr h1)
  · rw [if_neg h]
    simp only [List.mem_cons, List.not_mem_nil, or_false]
    constructor
    · exact Or.inl
    · rintro (h1 | ⟨h1, -⟩)
      · exact h1
      · exact absurd h1 h

/-- The cubic equation (x - 1)(x - 2)(x - 3) = 0. -/
example : (2 : ℝ) ∈ solveCubic (-6) 11 (-6) ∧ (4 : ℝ) ∉ solveCubic (-6) 11 (-6) := by
  rw [C182_cubic, C182_cubic]
  norm_num

theorem solveCubic_shape (a b c : ℝ) : (∃ x, solveCubic a b c = [x]) ∨ ∃ x y z, solveCubic a b c = [x, y, z] := by
  unfold solveCubic
  simp only []
  split
  · exact Or.inr ⟨_, _, _, rfl⟩
  · exact Or.inl ⟨_, rfl⟩

/-- A cubic with a negative constant has a positive zero. -/
theorem cubic_positive (a b : ℝ) {c : ℝ} (hc : c < 0) : ∃ z, 0 < z ∧ z ^ 3 + a * z ^ 2 + b * z + c = 0 := by
  set M := 1 + |a| + |b| + |c| with hM
  have ha := abs_nonneg a
  have hb := abs_nonneg b
  have hc' := abs_nonneg c
  have hM1 : 1 ≤ M := by linarith
  have hpos : 0 ≤ M ^ 3 + a * M ^ 2 + b * M + c := by
    have h1 : -|a| ≤ a := neg_abs_le a
    have h2 : -|b| ≤ b := neg_abs_le b
    have h3 : -|c| ≤ c := neg_abs_le c
    have e1 : -|a| * M ^ 2 ≤ a * M ^ 2 := mul_le_mul_of_nonneg_right h1 (by positivity)
    have e2 : -|b| * M ≤ b * M := mul_le_mul_of_nonneg_right h2 (by linarith)
    have e3 : |b| * M ≤ |b| * M ^ 2 := mul_le_mul_of_nonneg_left (by nlinarith) hb
    have e4 : |c| ≤ |c| * M ^ 2 := le_mul_of_one_le_right hc' (one_le_pow₀ hM1)
    have e5 : M ^ 3 = M ^ 2 + |a| * M ^ 2 + |b| * M ^ 2 + |c| * M ^ 2 := by
      rw [show M ^ 3 = M ^ 2 * M by ring]; nth_rw 2 [hM]; ring
    nlinarith
  have hcont : ContinuousOn (fun z : ℝ => z ^ 3 + a * z ^ 2 + b * z + c) (Set.Icc 0 M) := by fun_prop
  have := intermediate_value_Icc (by linarith : (0 : ℝ) ≤ M) hcont
  obtain ⟨z, hz, he⟩ := this ⟨by simp; exact hc.le, hpos⟩
  refine ⟨z, lt_of_le_of_ne hz.1 (fun h => ?_), he⟩
  have he : z ^ 3 + a * z ^ 2 + b * z + c = 0 := he
  rw [← h] at he
  norm_num at he
  linarith

theorem choose_pos {a b c : ℝ} (hc : c < 0) :
    0 < choose (solveCubic a b c) ∧ choose (solveCubic a b c) ^ 3 + a * choose (solveCubic a b c) ^ 2 + b * choose (solveCubic a b c) + c = 0 := by
  obtain ⟨z, hz, he⟩ := cubic_positive a b hc
  have hmem := (C182_cubic a b c z).mpr he
  have h0 : ∀ x ∈ solveCubic a b c, x ≠ 0 := by
    intro x hx h
    rw [C182_cubic, h] at hx
    norm_num at hx
    linarith
  suffices h : 0 < choose (solveCubic a b c) ∧ choose (solveCubic a b c) ∈ solveCubic a b c from ⟨h.1, (C182_cubic _ _ _ _).mp h.2⟩
  rcases solveCubic_shape a b c with ⟨x, hx⟩ | ⟨x, y, w, hx⟩
  · rw [hx] at hmem h0 ⊢
    simp only [List.mem_cons, List.not_mem_nil, or_false] at hmem
    unfold choose
    exact ⟨hmem ▸ hz, by simp⟩
  · rw [hx] at hmem h0 ⊢
    simp only [List.mem_cons, List.not_mem_nil, or_false] at hmem
    have hx0 := h0 x (by simp)
    have hy0 := h0 y (by simp)
    unfold choose
    simp only []
    by_cases c1 : x ≥ 0
    · rw [if_pos c1]; exact ⟨lt_of_le_of_ne c1 (Ne.symm hx0), by simp⟩
    · rw [if_neg c1]
      by_cases c2 : y ≥ 0
      · rw [if_pos c2]; exact ⟨lt_of_le_of_ne c2 (Ne.symm hy0), by simp⟩
      · rw [if_neg c2]
        refine ⟨?_, by simp⟩
        rcases hmem with h | h | h
        · exact absurd (h ▸ hz.le) c1
        · exact absurd (h ▸ hz.le) c2
        · exact h ▸ hz

/-! ### Quartic equations -/

/-- The coefficients of the depressed quartic, as in `SolveQuartic`. -/
noncomputable def coefE (a b : ℝ) : ℝ := b - 3 * a * a / 8
noncomputable def coefF (a b c : ℝ) : ℝ := c + a * a * a / 8 - 0.5 * a * b
noncomputable def coefG (a b c d : ℝ) : ℝ := d - 3 * a * a * a * a / 256 + a * a * b / 16 - a * c / 4

theorem depressed (a b c d x : ℝ) : x ^ 4 + a * x ^ 3 + b * x ^ 2 + c * x + d =
    (x + 0.25 * a) ^ 4 + coefE a b * (x + 0.25 * a) ^ 2 + coefF a b c * (x + 0.25 * a) + coefG a b c d := by
  unfold coefE coefF coefG
  ring

theorem mem_pair {h a x : ℝ} : x ∈ pair h a ↔ (x + 0.25 * a) ^ 2 = h := by
  unfold pair
  by_cases c : h ≥ 0
  · rw [if_pos c]
    simp only [List.mem_cons, List.not_mem_nil, or_false]
    have hs := sq_sqrt c
    constructor
    · rintro (e | e)
      · rw [e]; linear_combination hs
      · rw [e]; linear_combination hs
    · intro e
      have : (x + 0.25 * a - √h) * (x + 0.25 * a + √h) = 0 := by linear_combination e - hs
      rcases mul_eq_zero.mp this with e | e
      · right; linarith
      · left; linarith
  · rw [if_neg c]
    simp only [List.not_mem_nil, false_iff]
    intro e
    exact c (e ▸ sq_nonneg _)

theorem mem_factor {h j a x : ℝ} : x ∈ factor h (h * h - 4 * j) a ↔ (x + 0.25 * a) ^ 2 + -h * (x + 0.25 * a) + j = 0 := by
  rw [quad_factor]
  unfold factor
  rw [neg_mul_neg, neg_neg]
  by_cases c : h * h - 4 * j ≥ 0
  · rw [if_pos c]
    simp only [List.mem_cons, List.not_mem_nil, or_false]
    constructor
    · rintro (e | e)
      · exact ⟨c, Or.inl (by linarith)⟩
      · exact ⟨c, Or.inr (by linarith)⟩
    · rintro ⟨-, e | e⟩
      · left; linarith
      · right; linarith
  · rw [if_neg c]
    simp only [List.not_mem_nil, false_iff]
    exact fun e => c e.1

/-- The thresholds do not bite: the two coefficients that are compared with `1E-6` are 0 or at least that. -/
def Clear (a b c d : ℝ) : Prop :=
  coefF a b c = 0 ∨ (1e-6 ≤ |coefF a b c| ∧ (coefG a b c d = 0 ∨ 1e-6 ≤ |coefG a b c d|))

theorem writes_mem {a b c d : ℝ} (hcl : Clear a b c d) (x : ℝ) :
    (∃ l, quarticWrites a b c d = some l ∧ x ∈ l) ↔ x ^ 4 + a * x ^ 3 + b * x ^ 2 + c * x + d = 0 := by
  rw [depressed]
  have hu : quarticWrites a b c d = (open Classical in if |coefF a b c| < 1e-6 then
      (if coefE a b * coefE a b - 4 * coefG a b c d < 0 then none
      else some (pair (0.5 * (-coefE a b - √(coefE a b * coefE a b - 4 * coefG a b c d))) a ++
        pair (0.5 * (-coefE a b + √(coefE a b * coefE a b - 4 * coefG a b c d))) a))
      else if |coefG a b c d| < 1e-6 then some ((-0.25 * a) :: (solveCubic 0 (coefE a b) (coefF a b c)).map (fun x => x - 0.25 * a))
      else
        (if choose (solveCubic (2 * coefE a b) (coefE a b * coefE a b - 4 * coefG a b c d) (-coefF a b c * coefF a b c)) ≤ 0 then none
        else some (factor (-√(choose (solveCubic (2 * coefE a b) (coefE a b * coefE a b - 4 * coefG a b c d) (-coefF a b c * coefF a b c))))
            (√(choose (solveCubic (2 * coefE a b) (coefE a b * coefE a b - 4 * coefG a b c d) (-coefF a b c * coefF a b c))) *
              √(choose (solveCubic (2 * coefE a b) (coefE a b * coefE a b - 4 * coefG a b c d) (-coefF a b c * coefF a b c))) -
              4 * (0.5 * (coefE a b + √(choose (solveCubic (2 * coefE a b) (coefE a b * coefE a b - 4 * coefG a b c d) (-coefF a b c * coefF a b c))) *
              √(choose (solveCubic (2 * coefE a b) (coefE a b * coefE a b - 4 * coefG a b c d) (-coefF a b c * coefF a b c))) -
              coefF a b c / √(choose (solveCubic (2 * coefE a b) (coefE a b * coefE a b - 4 * coefG a b c d) (-coefF a b c * coefF a b c)))))) a ++
          factor (√(choose (solveCubic (2 * coefE a b) (coefE a b * coefE a b - 4 * coefG a b c d) (-coefF a b c * coefF a b c))))
            (√(choose (solveCubic (2 * coefE a b) (coefE a b * coefE a b - 4 * coefG a b c d) (-coefF a b c * coefF a b c))) *
              √(choose (solveCubic (2 * coefE a b) (coefE a b * coefE a b - 4 * coefG a b c d) (-coefF a b c * coefF a b c))) -
              4 * coefG a b c d / (0.5 * (coefE a b + √(choose (solveCubic (2 * coefE a b) (coefE a b * coefE a b - 4 * coefG a b c d) (-coefF a b c * coefF a b c))) *
              √(choose (solveCubic (2 * coefE a b) (coefE a b * coefE a b - 4 * coefG a b c d) (-coefF a b c * coefF a b c))) -
              coefF a b c / √(choose (solveCubic (2 * coefE a b) (coefE a b * coefE a b - 4 * coefG a b c d) (-coefF a b c * coefF a b c)))))) a))) := rfl
  rw [hu]
  unfold Clear at hcl
  generalize coefE a b = e at *
  generalize coefF a b c = f at *
  generalize coefG a b c d = g at *
  set y := x + 0.25 * a with hy
  by_cases c1 : |f| < 1e-6
  · rw [if_pos c1]
    have hf : f = 0 := by
      rcases hcl with h | ⟨h, -⟩
      · exact h
      · linarith
    rw [hf]
    have hq : y ^ 4 + e * y ^ 2 + 0 * y + g = (y ^ 2) ^ 2 + e * y ^ 2 + g := by ring
    rw [hq, quad_factor]
    by_cases c2 : e * e - 4 * g < 0
    · rw [if_pos c2]
      constructor
      · rintro ⟨l, h, -⟩; simp at h
      · rintro ⟨h, -⟩; linarith
    · rw [if_neg c2]
      constructor
      · rintro ⟨l, h, hx⟩
        rw [← Option.some.inj h, List.mem_append, mem_pair, mem_pair] at hx
        exact ⟨not_lt.mp c2, hx⟩
      · rintro ⟨-, hx⟩
        refine ⟨_, rfl, ?_⟩
        rw [List.mem_append, mem_pair, mem_pair]
        exact hx
  · rw [if_neg c1]
    have hf : f ≠ 0 := by
      intro h
      apply c1
      rw [h, abs_zero]; norm_num
    by_cases c2 : |g| < 1e-6
    · rw [if_pos c2]
      have hg : g = 0 := by
        rcases hcl with h | ⟨-, h | h⟩
        · exact absurd h hf
        · exact h
        · linarith
      rw [hg]
      have hq : y ^ 4 + e * y ^ 2 + f * y + 0 = y * (y ^ 3 + 0 * y ^ 2 + e * y + f) := by ring
      rw [hq, mul_eq_zero, ← C182_cubic]
      constructor
      · rintro ⟨l, h, hx⟩
        rw [← Option.some.inj h, List.mem_cons, List.mem_map] at hx
        rcases hx with hx | ⟨z, hz, hx⟩
        · left; rw [hy, hx]; ring
        · right
          rw [show y = z by rw [hy, ← hx]; ring]; exact hz
      · intro h
        refine ⟨_, rfl, ?_⟩
        rw [List.mem_cons, List.mem_map]
        rcases h with h | h
        · left; linarith
        · right; exact ⟨y, h, by rw [hy]; ring⟩
    · rw [if_neg c2]
      have hg : g ≠ 0 := by
        intro h
        apply c2
        rw [h, abs_zero]; norm_num
      obtain ⟨z0, zr⟩ := choose_pos (a := 2 * e) (b := e * e - 4 * g) (c := -f * f) (by nlinarith [sq_pos_of_pos (abs_pos.mpr hf), sq_abs f])
      generalize choose (solveCubic (2 * e) (e * e - 4 * g) (-f * f)) = z at *
      rw [if_neg (not_le.mpr z0)]
      set h := √z with hh
      have h0 : 0 < h := sqrt_pos.mpr z0
      have hs : h ^ 2 = z := sq_sqrt z0.le
      rw [← hs] at zr
      set j := 0.5 * (e + h * h - f / h) with hj
      set k := 0.5 * (e + h * h + f / h) with hk
      have hjk : j * k = g := by
        rw [hj, hk]
        field_simp
        linear_combination 0.25 * zr
      have hj0 : j ≠ 0 := by
        intro hj'
        rw [hj', zero_mul] at hjk
        exact hg hjk.symm
      have hgj : 4 * g / j = 4 * k := by
        rw [← hjk]; field_simp
      rw [hgj]
      have hneg : factor (-h) (h * h - 4 * j) a = factor (-h) (-h * -h - 4 * j) a := by rw [neg_mul_neg]
      rw [hneg]
      have e1 : j + k = e + h ^ 2 := by rw [hj, hk]; ring
      have e2 : h * (k - j) = f := by rw [hj, hk]; field_simp; ring
      have hfac : y ^ 4 + e * y ^ 2 + f * y + g = (y ^ 2 + - -h * y + j) * (y ^ 2 + -h * y + k) := by
        linear_combination -y ^ 2 * e1 - y * e2 - hjk
      rw [hfac, mul_eq_zero]
      constructor
      · rintro ⟨l, hl, hx⟩
        rw [← Option.some.inj hl, List.mem_append, mem_factor, mem_factor] at hx
        exact hx
      · intro hx
        refine ⟨_, rfl, ?_⟩
        rw [List.mem_append, mem_factor, mem_factor]
        exact hx

theorem pair_length (h a : ℝ) : (pair h a).length ≤ 2 := by unfold pair; split <;> simp
theorem factor_length (h d a : ℝ) : (factor h d a).length ≤ 2 := by unfold factor; split <;> simp

theorem writes_length {a b c d : ℝ} {l : List ℝ} (h : quarticWrites a b c d = some l) : l.length ≤ 4 := by
  unfold quarticWrites at h
  simp only [] at h
  split at h
  · split at h
    · simp at h
    · rw [← Option.some.inj h, List.length_append]
      exact add_le_add (pair_length _ _) (pair_length _ _)
  · split at h
    · rw [← Option.some.inj h, List.length_cons, List.length_map]
      rcases solveCubic_shape 0 (b - 3 * a * a / 8) (c + a * a * a / 8 - 0.5 * a * b) with ⟨x, e⟩ | ⟨x, y, z, e⟩ <;> rw [e] <;> simp
    · split at h
      · simp at h
      · rw [← Option.some.inj h, List.length_append]
        exact add_le_add (factor_length _ _ _) (factor_length _ _ _)

/-- The array before the call: all elements are `kInfLength` (TorusImplementation2.h:396). -/
noncomputable def blank : A4 := ⟨kInfLength, kInfLength, kInfLength, kInfLength⟩

theorem write_blank (l : List ℝ) (h : l.length ≤ 4) : (blank.write l).toList = l ++ List.replicate (4 - l.length) kInfLength := by
  match l, h with
  | [], _ => rfl
  | [_], _ => rfl
  | [_, _], _ => rfl
  | [_, _, _], _ => rfl
  | [_, _, _, _], _ => rfl

/-- C182: the quartic solver returns the real solutions, in increasing order, all of them and nothing else, for all coefficients whose
solutions are less than `kInfLength` and that are not just below a threshold. -/
theorem C182_quartic_partial {a b c d : ℝ} (hcl : Clear a b c d)
    (hb : ∀ x, x ^ 4 + a * x ^ 3 + b * x ^ 2 + c * x + d = 0 → x < kInfLength) :
    ((solveQuartic a b c d blank).2.toList.take (solveQuartic a b c d blank).1).Pairwise (· ≤ ·) ∧
    ∀ x, x ∈ (solveQuartic a b c d blank).2.toList.take (solveQuartic a b c d blank).1 ↔ x ^ 4 + a * x ^ 3 + b * x ^ 2 + c * x + d = 0 := by
  have hw := writes_mem hcl
  unfold solveQuartic
  cases hq : quarticWrites a b c d with
  | none =>
    simp only [List.take_zero, List.Pairwise.nil, List.not_mem_nil, false_iff, true_and]
    intro x hx
    obtain ⟨l, h, -⟩ := (hw x).mpr hx
    rw [hq] at h; simp at h
  | some l =>
    simp only []
    have hlen := writes_length hq
    have hmem : ∀ x, x ∈ l ↔ x ^ 4 + a * x ^ 3 + b * x ^ 2 + c * x + d = 0 := by
      intro x
      rw [← hw x, hq]
      constructor
      · exact fun h => ⟨l, rfl, h⟩
      · rintro ⟨l', h, h'⟩; rw [Option.some.inj h]; exact h'
    obtain ⟨s1, s2⟩ := C182_sort (blank.write l)
    rw [write_blank l hlen] at s2
    set r := l.mergeSort (fun x y => decide (x ≤ y)) with hr
    have hrp : r.Perm l := List.mergeSort_perm _ _
    have hrs : r.Pairwise (· ≤ ·) := by
      have := List.pairwise_mergeSort (le := fun x y : ℝ => decide (x ≤ y)) (by simp; intro a b c h1 h2; exact h1.trans h2) (by simp; exact le_total) l
      simpa using this
    have hsorted : (r ++ List.replicate (4 - l.length) kInfLength).Pairwise (· ≤ ·) := by
      rw [List.pairwise_append]
      refine ⟨hrs, ?_, ?_⟩
      · rw [List.pairwise_replicate]; right; exact le_refl _
      · intro x hx y hy
        rw [List.eq_of_mem_replicate hy]
        exact (hb x ((hmem x).mp (hrp.mem_iff.mp hx))).le
    have heq : (sort4 (blank.write l)).toList = r ++ List.replicate (4 - l.length) kInfLength := by
      refine List.Perm.eq_of_pairwise (le := (· ≤ ·)) (fun a b _ _ h1 h2 => le_antisymm h1 h2) s1 hsorted (s2.trans ?_)
      exact (hrp.symm).append_right _
    have hrl : r.length = l.length := hrp.length_eq
    rw [heq, ← hrl, List.take_left' rfl]
    exact ⟨hrs, fun x => by rw [hrp.mem_iff, hmem]⟩

/-- The hypotheses are met: (x - 1)(x - 2)(x - 3)(x + 6) = 0 has no cubic term and coefficients that are not small. -/
example : Clear 0 (-25) 60 (-36) ∧ ∀ x : ℝ, x ^ 4 + 0 * x ^ 3 + -25 * x ^ 2 + 60 * x + -36 = 0 → x < kInfLength := by
  refine ⟨Or.inr ⟨?_, Or.inr ?_⟩, ?_⟩
  · norm_num [coefF]
  · norm_num [coefG]
  · intro x hx
    have h : (x - 1) * ((x - 2) * ((x - 3) * (x + 6))) = 0 := by linear_combination hx
    have hk := kInfLength_large
    rcases mul_eq_zero.mp h with h | h
    · linarith
    · rcases mul_eq_zero.mp h with h | h
      · linarith
      · rcases mul_eq_zero.mp h with h | h <;> linarith

/-- C182, finding: a linear coefficient that is small is dropped, which is not a small error: x ^ 4 + 1e-9 x = 0 has the solutions 0 and
-0.001, but the solver returns 0 four times. -/
theorem C182_threshold_counterexample :
    (solveQuartic 0 0 1e-9 0 blank).1 = 4 ∧ (∀ x ∈ (solveQuartic 0 0 1e-9 0 blank).2.toList, x = 0) ∧
    (-0.001 : ℝ) ^ 4 + 0 * (-0.001) ^ 3 + 0 * (-0.001) ^ 2 + 1e-9 * (-0.001) + 0 = 0 := by
  have hw : quarticWrites 0 0 1e-9 0 = some [0, 0, 0, 0] := by
    unfold quarticWrites
    simp only []
    rw [if_pos (by norm_num [abs_of_pos]), if_neg (by norm_num)]
    norm_num [pair]
  refine ⟨?_, ?_, by norm_num⟩
  · unfold solveQuartic; rw [hw]; rfl
  · unfold solveQuartic; rw [hw]
    intro x hx
    have := (C182_sort (blank.write [0, 0, 0, 0])).2.mem_iff.mp hx
    simpa [A4.write, A4.toList] using this

end Torus
end VecGeom
