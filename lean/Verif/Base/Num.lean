import Verif.Transform.Model
import Mathlib.Tactic.NormNum
import Mathlib.Tactic.Linarith

/-!
# Numeric constants and small vector helpers

Constants of `VecGeom/base/Math.h`, the helpers of `VecGeom/base/Global.h` and the componentwise operations of
`VecGeom/base/Vector3D.h` that several areas use.  `Precision` is `ℝ`.
-/

namespace VecGeom

/-- `kEpsilon`, the epsilon of double precision (Math.h:38). -/
noncomputable def kEpsilon : ℝ := 1 / 2 ^ 52
/-- `kInfLength = NumericLimits<double>::Max()` (Math.h:41), also `InfinityLength<Precision>()` (Global.h:157-160). -/
noncomputable def kInfLength : ℝ := (2 - 1 / 2 ^ 52) * 2 ^ 1023
/-- `kTiny` (Math.h:51), the constant `1.0e-30` of `NonZero`. -/
noncomputable def kTiny : ℝ := 1 / 10 ^ 30
/-- `kHalfTolerance` (Math.h:52). -/
noncomputable def kHalfTolerance : ℝ := kTolerance / 2

theorem kEpsilon_pos : 0 < kEpsilon := by unfold kEpsilon; positivity
theorem kTiny_pos : 0 < kTiny := by unfold kTiny; positivity
theorem kTolerance_pos : 0 < kTolerance := by unfold kTolerance; positivity
theorem kHalfTolerance_pos : 0 < kHalfTolerance := by unfold kHalfTolerance kTolerance; positivity
theorem kInfLength_pos : 0 < kInfLength := by
  unfold kInfLength
  apply mul_pos _ (by positivity)
  norm_num

/-- `EnumInside` (Global.h:71-78). -/
inductive Inside where
  | inside
  | surface
  | outside
deriving DecidableEq

open Classical in
/-- `CopySign(a, x)` for `a > 0`.  The reals have no negative zero: zero counts as positive. -/
noncomputable def copySign (a x : ℝ) : ℝ := if x < 0 then -a else a

/-- `NonZero` (Global.h:171-177): `x + CopySign(1.0e-30, x)`. -/
noncomputable def nonZero (x : ℝ) : ℝ := x + copySign kTiny x

open Classical in
/-- `Sign` of VecCore: `1` with the sign of `x`; zero counts as positive. -/
noncomputable def sign (x : ℝ) : ℝ := if x < 0 then -1 else 1

theorem nonZero_pos {x : ℝ} (h : 0 ≤ x) : 0 < nonZero x := by
  have := kTiny_pos
  simp only [nonZero, copySign, if_neg (not_lt.mpr h)]
  linarith

theorem nonZero_neg {x : ℝ} (h : x < 0) : nonZero x < 0 := by
  have := kTiny_pos
  simp only [nonZero, copySign, if_pos h]
  linarith

theorem nonZero_ne (x : ℝ) : nonZero x ≠ 0 := by
  rcases lt_or_ge x 0 with h | h
  · exact (nonZero_neg h).ne
  · exact (nonZero_pos h).ne'

theorem abs_nonZero_sub (x : ℝ) : |nonZero x - x| = kTiny := by
  have := kTiny_pos
  unfold nonZero copySign
  split
  · rw [show x + -kTiny - x = -kTiny by ring, abs_neg, abs_of_pos this]
  · rw [show x + kTiny - x = kTiny by ring, abs_of_pos this]

namespace V3

/-- `Vector3D::Abs` (Vector3D.h:259-262). -/
def vabs (a : V3) : V3 := ⟨|a.x|, |a.y|, |a.z|⟩
/-- componentwise product (Vector3D.h, VECTOR3D_BINARY_OP `*`). -/
def mul (a b : V3) : V3 := ⟨a.x * b.x, a.y * b.y, a.z * b.z⟩
/-- `Vector3D::Max` (Vector3D.h:280). -/
noncomputable def maxc (a : V3) : ℝ := max (max a.x a.y) a.z
/-- `Vector3D::Min` (Vector3D.h:276). -/
noncomputable def minc (a : V3) : ℝ := min (min a.x a.y) a.z
/-- `NonZero` on each component. -/
noncomputable def nonZero (a : V3) : V3 := ⟨VecGeom.nonZero a.x, VecGeom.nonZero a.y, VecGeom.nonZero a.z⟩
/-- `1 / a` on each component. -/
noncomputable def inv (a : V3) : V3 := ⟨1 / a.x, 1 / a.y, 1 / a.z⟩

@[simp] theorem vabs_x (a : V3) : a.vabs.x = |a.x| := rfl
@[simp] theorem vabs_y (a : V3) : a.vabs.y = |a.y| := rfl
@[simp] theorem vabs_z (a : V3) : a.vabs.z = |a.z| := rfl
@[simp] theorem mul_x (a b : V3) : (mul a b).x = a.x * b.x := rfl
@[simp] theorem mul_y (a b : V3) : (mul a b).y = a.y * b.y := rfl
@[simp] theorem mul_z (a b : V3) : (mul a b).z = a.z * b.z := rfl
@[simp] theorem inv_x (a : V3) : (inv a).x = 1 / a.x := rfl
@[simp] theorem inv_y (a : V3) : (inv a).y = 1 / a.y := rfl
@[simp] theorem inv_z (a : V3) : (inv a).z = 1 / a.z := rfl
@[simp] theorem nonZero_x (a : V3) : (nonZero a).x = VecGeom.nonZero a.x := rfl
@[simp] theorem nonZero_y (a : V3) : (nonZero a).y = VecGeom.nonZero a.y := rfl
@[simp] theorem nonZero_z (a : V3) : (nonZero a).z = VecGeom.nonZero a.z := rfl

theorem maxc_le {a : V3} {c : ℝ} : a.maxc ≤ c ↔ a.x ≤ c ∧ a.y ≤ c ∧ a.z ≤ c := by
  simp [maxc, and_assoc]
theorem le_minc {a : V3} {c : ℝ} : c ≤ a.minc ↔ c ≤ a.x ∧ c ≤ a.y ∧ c ≤ a.z := by
  simp [minc, and_assoc]

/-- Unary minus (Vector3D.h, VECTOR3D_BINARY_OP section). -/
def neg (a : V3) : V3 := ⟨-a.x, -a.y, -a.z⟩
/-- `Sign` on each component. -/
noncomputable def sgn (a : V3) : V3 := ⟨VecGeom.sign a.x, VecGeom.sign a.y, VecGeom.sign a.z⟩
/-- `Vector3D::Mag` and `Vector3D::Length` (Vector3D.h). -/
noncomputable def mag (a : V3) : ℝ := Real.sqrt a.mag2

@[simp] theorem neg_x (a : V3) : (neg a).x = -a.x := rfl
@[simp] theorem neg_y (a : V3) : (neg a).y = -a.y := rfl
@[simp] theorem neg_z (a : V3) : (neg a).z = -a.z := rfl
@[simp] theorem sgn_x (a : V3) : (sgn a).x = VecGeom.sign a.x := rfl
@[simp] theorem sgn_y (a : V3) : (sgn a).y = VecGeom.sign a.y := rfl
@[simp] theorem sgn_z (a : V3) : (sgn a).z = VecGeom.sign a.z := rfl

theorem maxc_lt {a : V3} {c : ℝ} : a.maxc < c ↔ a.x < c ∧ a.y < c ∧ a.z < c := by
  simp [maxc, and_assoc]
theorem lt_minc {a : V3} {c : ℝ} : c < a.minc ↔ c < a.x ∧ c < a.y ∧ c < a.z := by
  simp [minc, and_assoc]
theorem le_maxc {a : V3} {c : ℝ} : c ≤ a.maxc ↔ c ≤ a.x ∨ c ≤ a.y ∨ c ≤ a.z := by
  simp [maxc, or_assoc]
theorem minc_le {a : V3} {c : ℝ} : a.minc ≤ c ↔ a.x ≤ c ∨ a.y ≤ c ∨ a.z ≤ c := by
  simp [minc, or_assoc]
theorem maxc_cases (a : V3) : a.maxc = a.x ∨ a.maxc = a.y ∨ a.maxc = a.z := by
  unfold maxc
  rcases max_choice (max a.x a.y) a.z with h | h <;> rcases max_choice a.x a.y with h' | h' <;> rw [h] <;> simp [h']
theorem minc_cases (a : V3) : a.minc = a.x ∨ a.minc = a.y ∨ a.minc = a.z := by
  unfold minc
  rcases min_choice (min a.x a.y) a.z with h | h <;> rcases min_choice a.x a.y with h' | h' <;> rw [h] <;> simp [h']

/-- The point reached from `p` along `d` after the path length `t`. -/
def at' (p d : V3) (t : ℝ) : V3 := p + smul t d

@[simp] theorem at_x (p d : V3) (t : ℝ) : (at' p d t).x = p.x + t * d.x := rfl
@[simp] theorem at_y (p d : V3) (t : ℝ) : (at' p d t).y = p.y + t * d.y := rfl
@[simp] theorem at_z (p d : V3) (t : ℝ) : (at' p d t).z = p.z + t * d.z := rfl

/-- Squared Euclidean distance. -/
def dist2 (p q : V3) : ℝ := (p.x - q.x) ^ 2 + (p.y - q.y) ^ 2 + (p.z - q.z) ^ 2

/-- Euclidean distance. -/
noncomputable def dist (p q : V3) : ℝ := Real.sqrt (dist2 p q)

theorem dist2_nonneg (p q : V3) : 0 ≤ dist2 p q := by unfold dist2; positivity

theorem abs_x_le_dist (p q : V3) : |p.x - q.x| ≤ dist p q := by
  rw [dist, ← Real.sqrt_sq_eq_abs]
  apply Real.sqrt_le_sqrt
  unfold dist2; nlinarith [sq_nonneg (p.y - q.y), sq_nonneg (p.z - q.z)]
theorem abs_y_le_dist (p q : V3) : |p.y - q.y| ≤ dist p q := by
  rw [dist, ← Real.sqrt_sq_eq_abs]
  apply Real.sqrt_le_sqrt
  unfold dist2; nlinarith [sq_nonneg (p.x - q.x), sq_nonneg (p.z - q.z)]
theorem abs_z_le_dist (p q : V3) : |p.z - q.z| ≤ dist p q := by
  rw [dist, ← Real.sqrt_sq_eq_abs]
  apply Real.sqrt_le_sqrt
  unfold dist2; nlinarith [sq_nonneg (p.x - q.x), sq_nonneg (p.y - q.y)]

end V3
end VecGeom
