import Verif.Trd.Model
import Verif.Trd.Spec
import Verif.BoxSolid.Props

/-!
# Lemmas on the trapezoid: planes and caches
-/

namespace VecGeom
namespace Trd

/-- The shape that the parameters of the struct describe. -/
def shape (s : State) : Shape := ⟨s.dx1, s.dx2, s.dy1, s.dy2, s.dz⟩

section shape
variable {S : Shape} (hz : 0 < S.z)

theorem root_pos (t : ℝ) : 0 < Real.sqrt (1 + t ^ 2) := Real.sqrt_pos.mpr (by positivity)
theorem root_sq (t : ℝ) : Real.sqrt (1 + t ^ 2) * Real.sqrt (1 + t ^ 2) = 1 + t ^ 2 :=
  Real.mul_self_sqrt (by positivity)

include hz

theorem wx_eq (c : ℝ) : S.wx c = (S.x1 + S.x2) / 2 - S.tx * c := by
  unfold Shape.wx Shape.tx; field_simp; ring
theorem wy_eq (c : ℝ) : S.wy c = (S.y1 + S.y2) / 2 - S.ty * c := by
  unfold Shape.wy Shape.ty; field_simp; ring

/-- The plane of a face. -/
noncomputable def plane (S : Shape) : Side → Plane
  | .xp => ⟨⟨1 / Real.sqrt (1 + S.tx ^ 2), 0, S.tx / Real.sqrt (1 + S.tx ^ 2)⟩,
      -((S.x1 + S.x2) / 2) / Real.sqrt (1 + S.tx ^ 2)⟩
  | .xm => ⟨⟨-1 / Real.sqrt (1 + S.tx ^ 2), 0, S.tx / Real.sqrt (1 + S.tx ^ 2)⟩,
      -((S.x1 + S.x2) / 2) / Real.sqrt (1 + S.tx ^ 2)⟩
  | .yp => ⟨⟨0, 1 / Real.sqrt (1 + S.ty ^ 2), S.ty / Real.sqrt (1 + S.ty ^ 2)⟩,
      -((S.y1 + S.y2) / 2) / Real.sqrt (1 + S.ty ^ 2)⟩
  | .ym => ⟨⟨0, -1 / Real.sqrt (1 + S.ty ^ 2), S.ty / Real.sqrt (1 + S.ty ^ 2)⟩,
      -((S.y1 + S.y2) / 2) / Real.sqrt (1 + S.ty ^ 2)⟩
  | .zp => ⟨⟨0, 0, 1⟩, -S.z⟩
  | .zm => ⟨⟨0, 0, -1⟩, -S.z⟩

omit hz in
theorem plane_unit (S : Shape) (f : Side) : (plane S f).n.mag2 = 1 := by
  have h1 := (root_pos S.tx).ne'
  have h2 := (root_pos S.ty).ne'
  have e1 := root_sq S.tx
  have e2 := root_sq S.ty
  cases f <;> simp only [plane, V3.mag2, V3.dot]
  · field_simp; rw [sq (Real.sqrt _), e1]; ring
  · field_simp; rw [sq (Real.sqrt _), e1]; ring
  · field_simp; rw [sq (Real.sqrt _), e2]; ring
  · field_simp; rw [sq (Real.sqrt _), e2]; ring
  · norm_num
  · norm_num

theorem height_eq (q : V3) (f : Side) : height S q f = (plane S f).height q := by
  cases f <;> simp only [height, plane, Plane.height, V3.dot, wx_eq hz, wy_eq hz] <;> ring

omit hz in
theorem slope_eq (d : V3) (f : Side) : slope S d f = (plane S f).n.dot d := by
  cases f <;> simp only [slope, plane, V3.dot] <;> ring

theorem height_at (p d : V3) (t : ℝ) (f : Side) : height S (V3.at' p d t) f = height S p f + t * slope S d f := by
  rw [height_eq hz, height_eq hz, slope_eq, Plane.height_at]

theorem height_lip (p q : V3) (f : Side) : |height S p f - height S q f| ≤ V3.dist p q := by
  rw [height_eq hz, height_eq hz, abs_le]
  have h1 := Plane.height_sub_le (plane_unit S f).le p q
  have h2 := Plane.height_sub_le (plane_unit S f).le q p
  rw [V3.dist_comm' q p] at h2
  constructor <;> linarith

/-- The foot of the perpendicular, moved on by any amount. -/
theorem foot (p : V3) (f : Side) (r : ℝ) : ∃ q, height S q f = height S p f + r ∧ V3.dist p q = |r| := by
  refine ⟨V3.at' p (plane S f).n r, ?_, ?_⟩
  · rw [height_at hz, slope_eq]
    show _ + r * (plane S f).n.mag2 = _
    rw [plane_unit, mul_one]
  · have : V3.dist2 p (V3.at' p (plane S f).n r) = r ^ 2 := by
      have h := plane_unit S f
      simp only [V3.mag2, V3.dot] at h
      simp only [V3.dist2, V3.at_x, V3.at_y, V3.at_z]
      linear_combination r ^ 2 * h
    unfold V3.dist
    rw [this, Real.sqrt_sq_eq_abs]

omit hz in
theorem div_root_nonpos {a t : ℝ} : a / Real.sqrt (1 + t ^ 2) ≤ 0 ↔ a ≤ 0 := by
  rw [div_le_iff₀ (root_pos t), zero_mul]
omit hz in
theorem div_root_neg {a t : ℝ} : a / Real.sqrt (1 + t ^ 2) < 0 ↔ a < 0 := by
  rw [div_lt_iff₀ (root_pos t), zero_mul]

omit hz in
theorem closed_heights (q : V3) : Closed S q ↔ ∀ f, height S q f ≤ 0 := by
  constructor
  · rintro ⟨h1, h2, h3⟩ f
    rw [abs_le] at h1 h2 h3
    cases f <;> simp only [height, div_root_nonpos] <;> linarith [h1.1, h1.2, h2.1, h2.2, h3.1, h3.2]
  · intro h
    have h1 := h .xp
    have h2 := h .xm
    have h3 := h .yp
    have h4 := h .ym
    have h5 := h .zp
    have h6 := h .zm
    simp only [height, div_root_nonpos] at h1 h2 h3 h4 h5 h6
    exact ⟨abs_le.mpr ⟨by linarith, by linarith⟩, abs_le.mpr ⟨by linarith, by linarith⟩,
      abs_le.mpr ⟨by linarith, by linarith⟩⟩

omit hz in
theorem open_heights (q : V3) : Open S q ↔ ∀ f, height S q f < 0 := by
  constructor
  · rintro ⟨h1, h2, h3⟩ f
    rw [abs_lt] at h1 h2 h3
    cases f <;> simp only [height, div_root_neg] <;> linarith [h1.1, h1.2, h2.1, h2.2, h3.1, h3.2]
  · intro h
    have h1 := h .xp
    have h2 := h .xm
    have h3 := h .yp
    have h4 := h .ym
    have h5 := h .zp
    have h6 := h .zm
    simp only [height, div_root_neg] at h1 h2 h3 h4 h5 h6
    exact ⟨abs_lt.mpr ⟨by linarith, by linarith⟩, abs_lt.mpr ⟨by linarith, by linarith⟩,
      abs_lt.mpr ⟨by linarith, by linarith⟩⟩

/-- A ball in the open trapezoid: all planes are farther than its radius. -/
theorem deep_heights {r : ℝ} (hr : 0 ≤ r) (q : V3) : Deep S r q ↔ ∀ f, height S q f < -r := by
  constructor
  · intro h f
    obtain ⟨q', h1, h2⟩ := foot hz q f r
    have := (open_heights q').mp (h q' (by rw [h2, abs_of_nonneg hr])) f
    linarith
  · intro h q' hq
    rw [open_heights]
    intro f
    have := (abs_le.mp (height_lip hz q q' f)).1
    linarith [h f]

end shape

/-! ## Caches -/

/-- The cached values belong to the parameters. -/
def Cached (s : State) : Prop := calculateCached s = s

section cached
variable {s : State} (hc : Cached s) (hz : 0 < s.dz)
include hc

theorem c_x2minusX1 : s.x2minusX1 = s.dx2 - s.dx1 := by
    rw [← congrArg State.x2minusX1 hc]; rfl
theorem c_y2minusY1 : s.y2minusY1 = s.dy2 - s.dy1 := by
    rw [← congrArg State.y2minusY1 hc]; rfl
theorem c_halfX : s.halfX1plusX2 = (s.dx1 + s.dx2) / 2 := by
  have : s.halfX1plusX2 = 0.5 * (s.dx1 + s.dx2) := by
    rw [← congrArg State.halfX1plusX2 hc]; rfl
  rw [this]; norm_num; ring
theorem c_halfY : s.halfY1plusY2 = (s.dy1 + s.dy2) / 2 := by
  have : s.halfY1plusY2 = 0.5 * (s.dy1 + s.dy2) := by
    rw [← congrArg State.halfY1plusY2 hc]; rfl
  rw [this]; norm_num; ring
theorem c_fx : s.fx = (shape s).tx := by
  have : s.fx = 0.5 * (s.dx1 - s.dx2) / s.dz := by
    rw [← congrArg State.fx hc]; rfl
  rw [this]
  show _ = (s.dx1 - s.dx2) / (2 * s.dz)
  rw [mul_comm 2, ← div_div]; norm_num; ring
theorem c_fy : s.fy = (shape s).ty := by
  have : s.fy = 0.5 * (s.dy1 - s.dy2) / s.dz := by
    rw [← congrArg State.fy hc]; rfl
  rw [this]
  show _ = (s.dy1 - s.dy2) / (2 * s.dz)
  rw [mul_comm 2, ← div_div]; norm_num; ring
theorem c_calfX : s.calfX = 1 / Real.sqrt (1 + (shape s).tx ^ 2) := by
  have : s.calfX = 1 / Real.sqrt (1 + s.fx * s.fx) := by
    rw [← congrArg State.calfX hc, ← congrArg State.fx hc]; rfl
  rw [this, c_fx hc, sq]
theorem c_calfY : s.calfY = 1 / Real.sqrt (1 + (shape s).ty ^ 2) := by
  have : s.calfY = 1 / Real.sqrt (1 + s.fy * s.fy) := by
    rw [← congrArg State.calfY hc, ← congrArg State.fy hc]; rfl
  rw [this, c_fy hc, sq]
theorem c_secxz : s.secxz = Real.sqrt (1 + (shape s).tx ^ 2) := by
  have : s.secxz = Real.sqrt (1 + s.fx * s.fx) := by
    rw [← congrArg State.secxz hc, ← congrArg State.fx hc]; rfl
  rw [this, c_fx hc, sq]
theorem c_secyz : s.secyz = Real.sqrt (1 + (shape s).ty ^ 2) := by
  have : s.secyz = Real.sqrt (1 + s.fy * s.fy) := by
    rw [← congrArg State.secyz hc, ← congrArg State.fy hc]; rfl
  rw [this, c_fy hc, sq]

include hz

/-- The half length along `x` as the kernels compute it. -/
theorem c_wx (c : ℝ) : s.halfX1plusX2 - s.fx * c = (shape s).wx c := by
  rw [wx_eq (S := shape s) hz, c_halfX hc, c_fx hc]; rfl
theorem c_wy (c : ℝ) : s.halfY1plusY2 - s.fy * c = (shape s).wy c := by
  rw [wy_eq (S := shape s) hz, c_halfY hc, c_fy hc]; rfl

theorem lenX : Real.sqrt ((s.dx2 - s.dx1) * (s.dx2 - s.dx1) + 4 * s.dz * s.dz) =
    2 * s.dz * Real.sqrt (1 + (shape s).tx ^ 2) := by
  rw [← Real.sqrt_sq (by positivity : (0 : ℝ) ≤ 2 * s.dz), ← Real.sqrt_mul (by positivity)]
  congr 1
  have : (shape s).tx = (s.dx1 - s.dx2) / (2 * s.dz) := rfl
  rw [this]; field_simp; ring

theorem lenY : Real.sqrt ((s.dy2 - s.dy1) * (s.dy2 - s.dy1) + 4 * s.dz * s.dz) =
    2 * s.dz * Real.sqrt (1 + (shape s).ty ^ 2) := by
  rw [← Real.sqrt_sq (by positivity : (0 : ℝ) ≤ 2 * s.dz), ← Real.sqrt_mul (by positivity)]
  congr 1
  have : (shape s).ty = (s.dy1 - s.dy2) / (2 * s.dz) := rfl
  rw [this]; field_simp; ring

theorem c_tolX : s.toleranceX = kTolerance * (2 * s.dz * Real.sqrt (1 + (shape s).tx ^ 2)) := by
  have : s.toleranceX = kTolerance * Real.sqrt (s.x2minusX1 * s.x2minusX1 + 4 * s.dz * s.dz) := by
    rw [← congrArg State.toleranceX hc, ← congrArg State.x2minusX1 hc]; rfl
  rw [this, c_x2minusX1 hc, lenX hc hz]
theorem c_tolY : s.toleranceY = kTolerance * (2 * s.dz * Real.sqrt (1 + (shape s).tx ^ 2)) := by
  have : s.toleranceY = kTolerance * Real.sqrt (s.x2minusX1 * s.x2minusX1 + 4 * s.dz * s.dz) := by
    rw [← congrArg State.toleranceY hc, ← congrArg State.x2minusX1 hc]; rfl
  rw [this, c_x2minusX1 hc, lenX hc hz]

/-- The cross products of `Inside`. -/
theorem cross_x (p : V3) : pointLineOrientation (|p.x| - s.dx1) (p.z + s.dz) s.x2minusX1 (2 * s.dz) =
    2 * s.dz * ((shape s).wx p.z - |p.x|) := by
  rw [c_x2minusX1 hc]
  have : (shape s).wx p.z = s.dx1 + (s.dx2 - s.dx1) * ((p.z + s.dz) / (2 * s.dz)) := rfl
  rw [this]; unfold pointLineOrientation; field_simp; ring
theorem cross_y (p : V3) : pointLineOrientation (|p.y| - s.dy1) (p.z + s.dz) s.y2minusY1 (2 * s.dz) =
    2 * s.dz * ((shape s).wy p.z - |p.y|) := by
  rw [c_y2minusY1 hc]
  have : (shape s).wy p.z = s.dy1 + (s.dy2 - s.dy1) * ((p.z + s.dz) / (2 * s.dz)) := rfl
  rw [this]; unfold pointLineOrientation; field_simp; ring

end cached

/-- The height above the nearer of two opposite faces. -/
noncomputable def hX (S : Shape) (p : V3) : ℝ := (|p.x| - S.wx p.z) / Real.sqrt (1 + S.tx ^ 2)
noncomputable def hY (S : Shape) (p : V3) : ℝ := (|p.y| - S.wy p.z) / Real.sqrt (1 + S.ty ^ 2)
noncomputable def hZ (S : Shape) (p : V3) : ℝ := |p.z| - S.z

theorem hX_max (S : Shape) (p : V3) : hX S p = max (height S p .xp) (height S p .xm) := by
  have h := root_pos S.tx
  unfold hX height
  rw [max_div_div_right h.le]
  congr 1
  rw [max_sub_sub_right]; rfl
theorem hY_max (S : Shape) (p : V3) : hY S p = max (height S p .yp) (height S p .ym) := by
  have h := root_pos S.ty
  unfold hY height
  rw [max_div_div_right h.le]
  congr 1
  rw [max_sub_sub_right]; rfl
theorem hZ_max (S : Shape) (p : V3) : hZ S p = max (height S p .zp) (height S p .zm) := by
  unfold hZ height
  rw [max_sub_sub_right]; rfl

theorem all_le (S : Shape) (p : V3) (c : ℝ) : (∀ f, height S p f ≤ c) ↔ hX S p ≤ c ∧ hY S p ≤ c ∧ hZ S p ≤ c := by
  rw [hX_max, hY_max, hZ_max, max_le_iff, max_le_iff, max_le_iff]
  constructor
  · intro h; exact ⟨⟨h _, h _⟩, ⟨h _, h _⟩, ⟨h _, h _⟩⟩
  · rintro ⟨⟨h1, h2⟩, ⟨h3, h4⟩, ⟨h5, h6⟩⟩ f; cases f <;> assumption
theorem all_lt (S : Shape) (p : V3) (c : ℝ) : (∀ f, height S p f < c) ↔ hX S p < c ∧ hY S p < c ∧ hZ S p < c := by
  rw [hX_max, hY_max, hZ_max, max_lt_iff, max_lt_iff, max_lt_iff]
  constructor
  · intro h; exact ⟨⟨h _, h _⟩, ⟨h _, h _⟩, ⟨h _, h _⟩⟩
  · rintro ⟨⟨h1, h2⟩, ⟨h3, h4⟩, ⟨h5, h6⟩⟩ f; cases f <;> assumption

theorem exists_side (S : Shape) (p : V3) {c : ℝ} (h : c = hX S p ∨ c = hY S p ∨ c = hZ S p) : ∃ f, c = height S p f := by
  rcases h with rfl | rfl | rfl
  · rw [hX_max]; rcases max_choice (height S p .xp) (height S p .xm) with h | h <;> exact ⟨_, h⟩
  · rw [hY_max]; rcases max_choice (height S p .yp) (height S p .ym) with h | h <;> exact ⟨_, h⟩
  · rw [hZ_max]; rcases max_choice (height S p .zp) (height S p .zm) with h | h <;> exact ⟨_, h⟩

theorem wx_nonneg {S : Shape} (hS : Proper S) {c : ℝ} (hc : |c| ≤ S.z) : 0 ≤ S.wx c := by
  obtain ⟨h1, h2, -, -, hz⟩ := hS
  rw [abs_le] at hc
  have a : 0 ≤ (c + S.z) / (2 * S.z) := div_nonneg (by linarith) (by linarith)
  have b : (c + S.z) / (2 * S.z) ≤ 1 := by rw [div_le_one (by linarith)]; linarith
  unfold Shape.wx
  nlinarith
theorem wy_nonneg {S : Shape} (hS : Proper S) {c : ℝ} (hc : |c| ≤ S.z) : 0 ≤ S.wy c := by
  obtain ⟨-, -, h1, h2, hz⟩ := hS
  rw [abs_le] at hc
  have a : 0 ≤ (c + S.z) / (2 * S.z) := div_nonneg (by linarith) (by linarith)
  have b : (c + S.z) / (2 * S.z) ≤ 1 := by rw [div_le_one (by linarith)]; linarith
  unfold Shape.wy
  nlinarith

end Trd
end VecGeom
