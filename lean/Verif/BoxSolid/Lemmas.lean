import Verif.BoxSolid.Model
import Verif.BoxSolid.Spec
import Mathlib.Tactic.LinearCombination
import Mathlib.Tactic.FieldSimp

/-!
# Lemmas on the box solid, axis by axis
-/

namespace VecGeom
namespace BoxSolid

theorem sign_cases (x : ℝ) : (x < 0 ∧ sign x = -1) ∨ (0 ≤ x ∧ sign x = 1) := by
  unfold sign
  rcases lt_or_ge x 0 with h | h
  · exact Or.inl ⟨h, if_pos h⟩
  · exact Or.inr ⟨h, if_neg (not_lt.mpr h)⟩

theorem sign_mul_self (x : ℝ) : sign x * sign x = 1 := by
  rcases sign_cases x with ⟨_, h⟩ | ⟨_, h⟩ <;> rw [h] <;> norm_num

/-- Parameters at which the line enters and leaves the slab `|x| ≤ h`. -/
noncomputable def tIn (h p d : ℝ) : ℝ := (-sign d * h - p) * (1 / nonZero d)
noncomputable def tOut (h p d : ℝ) : ℝ := (sign d * h - p) * (1 / nonZero d)

theorem slab_le (h p d t : ℝ) : |p + t * nonZero d| ≤ h ↔ tIn h p d ≤ t ∧ t ≤ tOut h p d := by
  unfold tIn tOut
  rw [abs_le]
  rcases sign_cases d with ⟨hd, hs⟩ | ⟨hd, hs⟩
  · have hv := nonZero_neg hd
    rw [hs, mul_one_div, mul_one_div, div_le_iff_of_neg hv, le_div_iff_of_neg hv]
    constructor <;> rintro ⟨h1, h2⟩ <;> constructor <;> linarith
  · have hv := nonZero_pos hd
    rw [hs, mul_one_div, mul_one_div, div_le_iff₀ hv, le_div_iff₀ hv]
    constructor <;> rintro ⟨h1, h2⟩ <;> constructor <;> linarith

theorem slab_lt (h p d t : ℝ) : |p + t * nonZero d| < h ↔ tIn h p d < t ∧ t < tOut h p d := by
  unfold tIn tOut
  rw [abs_lt]
  rcases sign_cases d with ⟨hd, hs⟩ | ⟨hd, hs⟩
  · have hv := nonZero_neg hd
    rw [hs, mul_one_div, mul_one_div, div_lt_iff_of_neg hv, lt_div_iff_of_neg hv]
    constructor <;> rintro ⟨h1, h2⟩ <;> constructor <;> linarith
  · have hv := nonZero_pos hd
    rw [hs, mul_one_div, mul_one_div, div_lt_iff₀ hv, lt_div_iff₀ hv]
    constructor <;> rintro ⟨h1, h2⟩ <;> constructor <;> linarith

theorem slab_at_in {h p d : ℝ} (hh : 0 ≤ h) : |p + tIn h p d * nonZero d| = h := by
  have : p + tIn h p d * nonZero d = -sign d * h := by
    unfold tIn
    have := nonZero_ne d
    field_simp
    ring
  rw [this]
  rcases sign_cases d with ⟨_, hs⟩ | ⟨_, hs⟩ <;> rw [hs]
  · simp [abs_of_nonneg hh]
  · simp [abs_of_nonneg hh]

theorem slab_at_out {h p d : ℝ} (hh : 0 ≤ h) : |p + tOut h p d * nonZero d| = h := by
  have : p + tOut h p d * nonZero d = sign d * h := by
    unfold tOut
    have := nonZero_ne d
    field_simp
    ring
  rw [this]
  rcases sign_cases d with ⟨_, hs⟩ | ⟨_, hs⟩ <;> rw [hs]
  · simp [abs_of_nonneg hh]
  · simp [abs_of_nonneg hh]

/-- Close to the exit face the rest of the ray stays close to it or beyond it. -/
theorem exit_near {h p d t m : ℝ} (ht : 0 ≤ t) (hm : sign d * (sign d * h - p) ≤ m) : h - m ≤ |p + t * nonZero d| := by
  rcases sign_cases d with ⟨hd, hs⟩ | ⟨hd, hs⟩ <;> rw [hs] at hm
  · have := mul_nonneg ht (neg_nonneg.mpr (nonZero_neg hd).le)
    have := neg_le_abs (p + t * nonZero d)
    linarith
  · have := mul_nonneg ht (nonZero_pos hd).le
    have := le_abs_self (p + t * nonZero d)
    linarith

/-- The entry and exit parameters of the three slabs. -/
noncomputable def vIn (h p d : V3) : V3 := ⟨tIn h.x p.x d.x, tIn h.y p.y d.y, tIn h.z p.z d.z⟩
noncomputable def vOut (h p d : V3) : V3 := ⟨tOut h.x p.x d.x, tOut h.y p.y d.y, tOut h.z p.z d.z⟩
noncomputable def orth (h p d : V3) : V3 :=
  ⟨sign d.x * (sign d.x * h.x - p.x), sign d.y * (sign d.y * h.y - p.y), sign d.z * (sign d.z * h.z - p.z)⟩

open Classical in
theorem distanceToIn_eq (h p d : V3) : distanceToIn h p d =
    if (vIn h p d).maxc ≥ (vOut h p d).minc ∨ (vOut h p d).minc ≤ kHalfTolerance ∨ |(orth h p d).minc| ≤ kHalfTolerance
    then kInfLength else (vIn h p d).maxc := rfl

open Classical in
theorem distanceToOut_eq (h p d : V3) : distanceToOut h p d =
    if V3.maxc (p.vabs - h) > kHalfTolerance then -1 else (vOut h p d).minc := rfl

theorem closed_at (h p d : V3) (t : ℝ) :
    Closed h (V3.at' p d.nonZero t) ↔ (vIn h p d).maxc ≤ t ∧ t ≤ (vOut h p d).minc := by
  simp only [Closed, V3.at_x, V3.at_y, V3.at_z, V3.nonZero_x, V3.nonZero_y, V3.nonZero_z, slab_le, V3.maxc_le, V3.le_minc,
    vIn, vOut]
  tauto

theorem open_at (h p d : V3) (t : ℝ) :
    Open h (V3.at' p d.nonZero t) ↔ (vIn h p d).maxc < t ∧ t < (vOut h p d).minc := by
  simp only [Open, V3.at_x, V3.at_y, V3.at_z, V3.nonZero_x, V3.nonZero_y, V3.nonZero_z, slab_lt, V3.maxc_lt, V3.lt_minc,
    vIn, vOut]
  tauto

theorem boundary_in {h p d : V3} (hh : Proper h) (hlt : (vIn h p d).maxc ≤ (vOut h p d).minc) :
    Boundary h (V3.at' p d.nonZero (vIn h p d).maxc) := by
  refine ⟨(closed_at ..).mpr ⟨le_rfl, hlt⟩, ?_⟩
  rcases V3.maxc_cases (vIn h p d) with e | e | e <;> rw [e]
  · exact Or.inl (slab_at_in hh.1.le)
  · exact Or.inr (Or.inl (slab_at_in hh.2.1.le))
  · exact Or.inr (Or.inr (slab_at_in hh.2.2.le))

theorem boundary_out {h p d : V3} (hh : Proper h) (hlt : (vIn h p d).maxc ≤ (vOut h p d).minc) :
    Boundary h (V3.at' p d.nonZero (vOut h p d).minc) := by
  refine ⟨(closed_at ..).mpr ⟨hlt, le_rfl⟩, ?_⟩
  rcases V3.minc_cases (vOut h p d) with e | e | e <;> rw [e]
  · exact Or.inl (slab_at_out hh.1.le)
  · exact Or.inr (Or.inl (slab_at_out hh.2.1.le))
  · exact Or.inr (Or.inr (slab_at_out hh.2.2.le))

theorem at_zero (p d : V3) : V3.at' p d 0 = p := by ext <;> simp

theorem closed_iff (h p : V3) : Closed h p ↔ V3.maxc (p.vabs - h) ≤ 0 := by
  simp [Closed, V3.maxc_le]

theorem open_iff (h p : V3) : Open h p ↔ V3.maxc (p.vabs - h) < 0 := by
  simp [Open, V3.maxc_lt]

theorem safety_neg (h p : V3) : safetyToOut h p = -safetyToIn h p := by
  unfold safetyToOut safetyToIn V3.minc V3.maxc
  simp only [V3.sub_x, V3.sub_y, V3.sub_z, V3.vabs_x, V3.vabs_y, V3.vabs_z]
  rw [← min_neg_neg, ← min_neg_neg]
  simp

theorem abs_diff_x (p q : V3) : |q.x| ≤ |p.x| + V3.dist p q := by
  have := V3.abs_x_le_dist p q
  have := abs_sub_abs_le_abs_sub q.x p.x
  rw [abs_sub_comm] at this; linarith
theorem abs_diff_y (p q : V3) : |q.y| ≤ |p.y| + V3.dist p q := by
  have := V3.abs_y_le_dist p q
  have := abs_sub_abs_le_abs_sub q.y p.y
  rw [abs_sub_comm] at this; linarith
theorem abs_diff_z (p q : V3) : |q.z| ≤ |p.z| + V3.dist p q := by
  have := V3.abs_z_le_dist p q
  have := abs_sub_abs_le_abs_sub q.z p.z
  rw [abs_sub_comm] at this; linarith

theorem dist_comm (p q : V3) : V3.dist p q = V3.dist q p := by
  unfold V3.dist V3.dist2; congr 1; ring

theorem dist_x (p : V3) (a : ℝ) : V3.dist p ⟨a, p.y, p.z⟩ = |p.x - a| := by
  unfold V3.dist V3.dist2; simp [Real.sqrt_sq_eq_abs]
theorem dist_y (p : V3) (a : ℝ) : V3.dist p ⟨p.x, a, p.z⟩ = |p.y - a| := by
  unfold V3.dist V3.dist2; simp [Real.sqrt_sq_eq_abs]
theorem dist_z (p : V3) (a : ℝ) : V3.dist p ⟨p.x, p.y, a⟩ = |p.z - a| := by
  unfold V3.dist V3.dist2; simp [Real.sqrt_sq_eq_abs]

/-- A coordinate of given absolute value on the side of `x`. -/
theorem same_side (x a : ℝ) (ha : 0 ≤ a) : |sign x * a| = a ∧ |x - sign x * a| = |(|x| - a)| := by
  rcases sign_cases x with ⟨hx, hs⟩ | ⟨hx, hs⟩ <;> rw [hs]
  · refine ⟨by simp [abs_of_nonneg ha], ?_⟩
    rw [abs_of_neg hx, ← abs_neg]; congr 1; ring
  · refine ⟨by simp [abs_of_nonneg ha], ?_⟩
    rw [abs_of_nonneg hx]; congr 1; ring

end BoxSolid
end VecGeom
