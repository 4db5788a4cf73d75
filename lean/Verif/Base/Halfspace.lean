import Verif.Base.Num
import Mathlib.Tactic.LinearCombination
import Mathlib.Tactic.Positivity
import Mathlib.Tactic.Ring
import Mathlib.Tactic.FieldSimp

/-!
# Half spaces and loops over planes

Planes `n·p + d = 0` with the half space `n·p + d ≤ 0` below them, cross products, and what the conditional maxima and
minima over lists of planes that the kernels of the polyhedral solids compute are.
-/

namespace VecGeom

/-- `kMinimum = NumericLimits<double>::Min()` (Math.h:43). -/
noncomputable def kMinimum : ℝ := 1 / 2 ^ 1022

theorem kMinimum_pos : 0 < kMinimum := by unfold kMinimum; positivity

theorem kMinimum_lt : kMinimum < 1 / 1000 := by
  unfold kMinimum
  have h : (2 : ℝ) ^ 10 ≤ 2 ^ 1022 := pow_le_pow_right₀ (by norm_num) (by norm_num)
  generalize (2 : ℝ) ^ 1022 = y at *
  have hy : (1000 : ℝ) < y := by norm_num at h; linarith
  exact one_div_lt_one_div_of_lt (by norm_num) hy

theorem kInfLength_large : 1000000 < kInfLength := by
  unfold kInfLength
  have h : (2 : ℝ) ^ 20 ≤ 2 ^ 1023 := pow_le_pow_right₀ (by norm_num) (by norm_num)
  generalize (2 : ℝ) ^ 1023 = y at *
  norm_num at h ⊢
  linarith

namespace V3

/-- `Vector3D::Cross` (Vector3D.h:230-234). -/
def cross (l r : V3) : V3 := ⟨l.y * r.z - l.z * r.y, l.z * r.x - l.x * r.z, l.x * r.y - l.y * r.x⟩

/-- `Vector3D::Unit` (Vector3D.h:284-290): the smallest positive number is added below the root, so that the zero vector
is left as it is. -/
noncomputable def unit (a : V3) : V3 :=
  let s := Real.sqrt (a.mag2 + kMinimum)
  ⟨a.x / s, a.y / s, a.z / s⟩

theorem mag2_nonneg (a : V3) : 0 ≤ a.mag2 := by
  simp only [mag2, dot]; nlinarith [mul_self_nonneg a.x, mul_self_nonneg a.y, mul_self_nonneg a.z]

theorem unit_root_pos (a : V3) : 0 < Real.sqrt (a.mag2 + kMinimum) :=
  Real.sqrt_pos.mpr (by linarith [mag2_nonneg a, kMinimum_pos])

theorem unit_mag2 (a : V3) : a.unit.mag2 = a.mag2 / (a.mag2 + kMinimum) := by
  have h := unit_root_pos a
  have hs := Real.sq_sqrt (show 0 ≤ a.mag2 + kMinimum by linarith [mag2_nonneg a, kMinimum_pos])
  have e : a.unit.mag2 = a.mag2 / Real.sqrt (a.mag2 + kMinimum) ^ 2 := by
    generalize hr : Real.sqrt (a.mag2 + kMinimum) = r at h
    simp only [unit, hr]
    simp only [mag2, dot]
    field_simp
  rw [e, hs]

theorem unit_mag2_le (a : V3) : a.unit.mag2 ≤ 1 := by
  rw [unit_mag2, div_le_one (by linarith [mag2_nonneg a, kMinimum_pos])]
  linarith [kMinimum_pos]

/-- Cauchy-Schwarz. -/
theorem dot_le_sqrt (a b : V3) : a.dot b ≤ Real.sqrt a.mag2 * Real.sqrt b.mag2 := by
  rw [← Real.sqrt_mul (mag2_nonneg a)]
  apply Real.le_sqrt_of_sq_le
  simp only [mag2, dot]
  nlinarith [mul_self_nonneg (a.x * b.y - a.y * b.x), mul_self_nonneg (a.x * b.z - a.z * b.x),
    mul_self_nonneg (a.y * b.z - a.z * b.y)]

theorem dist_comm' (p q : V3) : dist p q = dist q p := by
  unfold dist dist2; congr 1; ring

theorem dist_nonneg' (p q : V3) : 0 ≤ dist p q := Real.sqrt_nonneg _

end V3

/-- A plane with the half space below it: normal and distance (anonymous struct in TetStruct.h:23-26, also the planes of
`Planes`). -/
structure Plane where
  n : V3
  d : ℝ

namespace Plane

/-- The signed height of a point above a plane. -/
def height (pl : Plane) (q : V3) : ℝ := pl.n.dot q + pl.d

theorem height_at (pl : Plane) (p d : V3) (t : ℝ) : pl.height (V3.at' p d t) = pl.height p + t * pl.n.dot d := by
  simp only [height, V3.at', V3.dot, V3.smul, V3.add_x, V3.add_y, V3.add_z]; ring

/-- For normals not longer than one the height changes at most by the distance. -/
theorem height_sub_le {pl : Plane} (h : pl.n.mag2 ≤ 1) (p q : V3) : pl.height p - pl.height q ≤ V3.dist p q := by
  have e : pl.height p - pl.height q = pl.n.dot (p - q) := by
    simp only [height, V3.dot, V3.sub_x, V3.sub_y, V3.sub_z]; ring
  have e2 : Real.sqrt (p - q).mag2 = V3.dist p q := by
    unfold V3.dist; congr 1; simp only [V3.mag2, V3.dot, V3.dist2, V3.sub_x, V3.sub_y, V3.sub_z]; ring
  have h1 : Real.sqrt pl.n.mag2 ≤ 1 := by rw [show (1 : ℝ) = Real.sqrt 1 by simp]; exact Real.sqrt_le_sqrt h
  have h2 := V3.dot_le_sqrt pl.n (p - q)
  rw [e2] at h2
  rw [e]
  nlinarith [V3.dist_nonneg' p q]

end Plane

/-! ## Conditional maxima and minima over lists -/

section folds

variable {α : Type} (c : α → Prop) [DecidablePred c] (f : α → ℝ)

/-- The loop `if (c(i)) m = max(m, f(i))`. -/
noncomputable def maxIf (m : ℝ) (l : List α) : ℝ := l.foldl (fun m i => if c i then max m (f i) else m) m

/-- The loop `if (c(i)) m = min(m, f(i))`. -/
noncomputable def minIf (m : ℝ) (l : List α) : ℝ := l.foldl (fun m i => if c i then min m (f i) else m) m

theorem maxIf_le {m : ℝ} {l : List α} {b : ℝ} : maxIf c f m l ≤ b ↔ m ≤ b ∧ ∀ i ∈ l, c i → f i ≤ b := by
  unfold maxIf
  induction l generalizing m with
  | nil => simp
  | cons a l ih =>
    rw [List.foldl_cons, ih]
    by_cases h : c a
    · simp only [h, if_true, max_le_iff, List.mem_cons, forall_eq_or_imp, forall_const]; tauto
    · simp only [h, if_false, List.mem_cons, forall_eq_or_imp, false_imp_iff, true_and]

theorem le_minIf {m : ℝ} {l : List α} {b : ℝ} : b ≤ minIf c f m l ↔ b ≤ m ∧ ∀ i ∈ l, c i → b ≤ f i := by
  unfold minIf
  induction l generalizing m with
  | nil => simp
  | cons a l ih =>
    rw [List.foldl_cons, ih]
    by_cases h : c a
    · simp only [h, if_true, le_min_iff, List.mem_cons, forall_eq_or_imp, forall_const]; tauto
    · simp only [h, if_false, List.mem_cons, forall_eq_or_imp, false_imp_iff, true_and]

theorem maxIf_cases (m : ℝ) (l : List α) : maxIf c f m l = m ∨ ∃ i ∈ l, c i ∧ maxIf c f m l = f i := by
  unfold maxIf
  induction l generalizing m with
  | nil => left; rfl
  | cons a l ih =>
    rw [List.foldl_cons]
    rcases ih (if c a then max m (f a) else m) with h | ⟨i, hi, hc, he⟩
    · rw [h]
      by_cases hc : c a
      · simp only [hc, if_true]
        rcases max_cases m (f a) with h' | h'
        · left; exact h'.1
        · right; exact ⟨a, List.mem_cons_self, hc, h'.1⟩
      · simp only [hc, if_false]; left; trivial
    · right; exact ⟨i, List.mem_cons_of_mem _ hi, hc, he⟩

theorem minIf_cases (m : ℝ) (l : List α) : minIf c f m l = m ∨ ∃ i ∈ l, c i ∧ minIf c f m l = f i := by
  unfold minIf
  induction l generalizing m with
  | nil => left; rfl
  | cons a l ih =>
    rw [List.foldl_cons]
    rcases ih (if c a then min m (f a) else m) with h | ⟨i, hi, hc, he⟩
    · rw [h]
      by_cases hc : c a
      · simp only [hc, if_true]
        rcases min_cases m (f a) with h' | h'
        · left; exact h'.1
        · right; exact ⟨a, List.mem_cons_self, hc, h'.1⟩
      · simp only [hc, if_false]; left; trivial
    · right; exact ⟨i, List.mem_cons_of_mem _ hi, hc, he⟩

end folds

end VecGeom
