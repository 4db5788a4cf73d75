import Verif.Trd.Props

/-!
# Lemmas on the distances of the trapezoid
-/

namespace VecGeom
namespace Trd

/-- The relative error that the constants added to denominators cause. -/
noncomputable def slack (S : Shape) : ℝ := kTiny * (1 + 1 / (2 * S.z))

theorem tiny_pos : 0 < kTiny := by norm_num [kTiny]

theorem slack_pos {S : Shape} (hz : 0 < S.z) : 0 < slack S := by
  have := tiny_pos
  unfold slack; positivity

theorem slack_ge {S : Shape} (hz : 0 < S.z) : kTiny ≤ slack S ∧ kTiny / (2 * S.z) ≤ slack S := by
  have := tiny_pos
  have h : 0 < 1 / (2 * S.z) := by positivity
  unfold slack
  constructor
  · nlinarith
  · rw [div_eq_mul_one_div]; nlinarith

/-- The ray is on the plane of a face, which it crosses inwards, and on no point above another face. -/
def HitIn (S : Shape) (p d : V3) (u : ℝ) : Prop :=
  ∃ f, slope S d f < 0 ∧ (0 ≤ u → 0 ≤ height S (V3.at' p d u) f) ∧ |height S (V3.at' p d u) f| ≤ |u| * slack S ∧
    ∀ g, height S (V3.at' p d u) g ≤ |u| * slack S

/-- The ray is on the plane of a face, which it crosses outwards, and on no point above another face. -/
def HitOut (S : Shape) (p d : V3) (u : ℝ) : Prop :=
  ∃ f, 0 < slope S d f ∧ |height S (V3.at' p d u) f| ≤ |u| * slack S ∧
    ∀ g, height S (V3.at' p d u) g ≤ |u| * slack S

/-- The face that a template instance of `FaceTrajectoryIntersection` tests. -/
def sideOf : Bool → Bool → Side
  | false, false => .xp
  | false, true => .xm
  | true, false => .yp
  | true, true => .ym

theorem root_ge (t : ℝ) : 1 ≤ Real.sqrt (1 + t ^ 2) := by
  rw [Real.one_le_sqrt]; nlinarith [sq_nonneg t]

/-- Adding the constant to the denominator. -/
theorem core {H n z : ℝ} (hz : 0 < z) (hd : -(2 * z) * n + kTiny ≠ 0) :
    H + (2 * z * H / (-(2 * z) * n + kTiny)) * n = (2 * z * H / (-(2 * z) * n + kTiny)) * (kTiny / (2 * z)) := by
  generalize hD : -(2 * z) * n + kTiny = D at *
  field_simp
  rw [← hD]
  ring

theorem mul_le_slack {S : Shape} (hz : 0 < S.z) (u t : ℝ) :
    |u * (kTiny / (2 * S.z)) / Real.sqrt (1 + t ^ 2)| ≤ |u| * slack S := by
  have h1 := root_ge t
  have h2 : 0 ≤ kTiny / (2 * S.z) := by have := tiny_pos; positivity
  rw [abs_div, abs_mul, abs_of_nonneg h2, abs_of_pos (root_pos t)]
  calc _ ≤ |u| * (kTiny / (2 * S.z)) := div_le_self (by positivity) h1
    _ ≤ _ := mul_le_mul_of_nonneg_left (slack_ge hz).2 (abs_nonneg _)

/-- A side face: if the point is within the strip of the face, then no height exceeds the error. -/
theorem heights_x {S : Shape} (hS : Proper S) {q : V3} {e : ℝ} (mirrored : Bool) (hz : |q.z| ≤ S.z) (hy : |q.y| ≤ S.wy q.z)
    (hx : |height S q (sideOf false mirrored)| ≤ e) : ∀ g, height S q g ≤ e := by
  have he : 0 ≤ e := le_trans (abs_nonneg _) hx
  have hw := wx_nonneg hS hz
  have r := root_pos S.tx
  have hopp : height S q .xp + height S q .xm ≤ 0 := by
    simp only [height]; rw [← add_div, div_root_nonpos]; linarith
  have hz' := abs_le.mp hz
  have hy' := abs_le.mp hy
  have hx' := abs_le.mp hx
  intro g
  cases g
  · cases mirrored <;> simp only [sideOf] at hx' <;> linarith [hx'.1, hx'.2]
  · cases mirrored <;> simp only [sideOf] at hx' <;> linarith [hx'.1, hx'.2]
  · refine le_trans ?_ he; simp only [height]; rw [div_root_nonpos]; linarith
  · refine le_trans ?_ he; simp only [height]; rw [div_root_nonpos]; linarith
  · simp only [height]; linarith
  · simp only [height]; linarith

theorem heights_y {S : Shape} (hS : Proper S) {q : V3} {e : ℝ} (mirrored : Bool) (hz : |q.z| ≤ S.z) (hx : |q.x| ≤ S.wx q.z)
    (hy : |height S q (sideOf true mirrored)| ≤ e) : ∀ g, height S q g ≤ e := by
  have he : 0 ≤ e := le_trans (abs_nonneg _) hy
  have hw := wy_nonneg hS hz
  have hopp : height S q .yp + height S q .ym ≤ 0 := by
    simp only [height]; rw [← add_div, div_root_nonpos]; linarith
  have hz' := abs_le.mp hz
  have hx' := abs_le.mp hx
  have hy' := abs_le.mp hy
  intro g
  cases g
  · refine le_trans ?_ he; simp only [height]; rw [div_root_nonpos]; linarith
  · refine le_trans ?_ he; simp only [height]; rw [div_root_nonpos]; linarith
  · cases mirrored <;> simp only [sideOf] at hy' <;> linarith [hy'.1, hy'.2]
  · cases mirrored <;> simp only [sideOf] at hy' <;> linarith [hy'.1, hy'.2]
  · simp only [height]; linarith
  · simp only [height]; linarith

theorem height_mul_root (S : Shape) (q : V3) :
    height S q .xp * Real.sqrt (1 + S.tx ^ 2) = q.x - S.wx q.z ∧
    height S q .xm * Real.sqrt (1 + S.tx ^ 2) = -q.x - S.wx q.z ∧
    height S q .yp * Real.sqrt (1 + S.ty ^ 2) = q.y - S.wy q.z ∧
    height S q .ym * Real.sqrt (1 + S.ty ^ 2) = -q.y - S.wy q.z := by
  have a := (root_pos S.tx).ne'
  have b := (root_pos S.ty).ne'
  simp only [height]
  refine ⟨?_, ?_, ?_, ?_⟩ <;> exact div_mul_cancel₀ _ (by assumption)

theorem slope_mul_root (S : Shape) (d : V3) :
    slope S d .xp * Real.sqrt (1 + S.tx ^ 2) = d.x + S.tx * d.z ∧
    slope S d .xm * Real.sqrt (1 + S.tx ^ 2) = -d.x + S.tx * d.z ∧
    slope S d .yp * Real.sqrt (1 + S.ty ^ 2) = d.y + S.ty * d.z ∧
    slope S d .ym * Real.sqrt (1 + S.ty ^ 2) = -d.y + S.ty * d.z := by
  have a := (root_pos S.tx).ne'
  have b := (root_pos S.ty).ne'
  simp only [slope]
  refine ⟨?_, ?_, ?_, ?_⟩ <;> exact div_mul_cancel₀ _ (by assumption)

/-- The strip of a side face: between the bases and between the other two sides. -/
def Strip (S : Shape) : Bool → V3 → Prop
  | false, q => |q.z| ≤ S.z ∧ |q.y| ≤ S.wy q.z
  | true, q => |q.z| ≤ S.z ∧ |q.x| ≤ S.wx q.z

/-- The root that belongs to a side face. -/
noncomputable def rootOf (S : Shape) : Bool → ℝ
  | false => Real.sqrt (1 + S.tx ^ 2)
  | true => Real.sqrt (1 + S.ty ^ 2)

theorem rootOf_pos (S : Shape) (b : Bool) : 0 < rootOf S b := by cases b <;> exact root_pos _

section
variable {s : State} (hc : Cached s) (hp : Proper (shape s))
include hc hp

/-- `FaceTrajectoryIntersection` in terms of heights and slopes. -/
theorem faceHit_iff (forY mirrored toInside : Bool) (p d : V3) (t : ℝ) :
    faceHit s forY mirrored toInside p d = some t ↔
      (let f := sideOf forY mirrored
       let r := rootOf (shape s) forY
       let u := 2 * s.dz * (height (shape s) p f * r) / (-(2 * s.dz) * (slope (shape s) d f * r) + kTiny)
       ((if toInside then slope (shape s) d f < 0 else slope (shape s) d f > 0) ∧
          -(2 * s.dz) * (slope (shape s) d f * r) + kTiny ≠ 0 ∧
          u > -kHalfTolerance ∧ Strip (shape s) forY (V3.at' p d u)) ∧ snap u = t) := by
  have hz : 0 < s.dz := hp.2.2.2.2
  obtain ⟨h1, h2, h3, h4⟩ := height_mul_root (shape s) p
  obtain ⟨g1, g2, g3, g4⟩ := slope_mul_root (shape s) d
  have rx := root_pos (shape s).tx
  have ry := root_pos (shape s).ty
  have nx : ∀ a : ℝ, 2 * s.dz * (a - s.dx1) - s.x2minusX1 * (p.z + s.dz) = 2 * s.dz * (a - (shape s).wx p.z) := by
    intro a
    rw [c_x2minusX1 hc, show (shape s).wx p.z = s.dx1 + (s.dx2 - s.dx1) * ((p.z + s.dz) / (2 * s.dz)) from rfl]
    field_simp; ring
  have ny : ∀ a : ℝ, 2 * s.dz * (a - s.dy1) - s.y2minusY1 * (p.z + s.dz) = 2 * s.dz * (a - (shape s).wy p.z) := by
    intro a
    rw [c_y2minusY1 hc, show (shape s).wy p.z = s.dy1 + (s.dy2 - s.dy1) * ((p.z + s.dz) / (2 * s.dz)) from rfl]
    field_simp; ring
  have dx : ∀ a : ℝ, d.z * s.x2minusX1 - a * (2 * s.dz) + kTiny = -(2 * s.dz) * (a + (shape s).tx * d.z) + kTiny := by
    intro a
    rw [c_x2minusX1 hc, show (shape s).tx = (s.dx1 - s.dx2) / (2 * s.dz) from rfl]
    field_simp; ring
  have dy : ∀ a : ℝ, d.z * s.y2minusY1 - a * (2 * s.dz) + kTiny = -(2 * s.dz) * (a + (shape s).ty * d.z) + kTiny := by
    intro a
    rw [c_y2minusY1 hc, show (shape s).ty = (s.dy1 - s.dy2) / (2 * s.dz) from rfl]
    field_simp; ring
  have iz : ∀ (A D0 C : Prop) [Decidable A] [Decidable D0] [Decidable C] (t t' : ℝ),
      (if ¬ A then none else if D0 then none else if C then some t else none) = some t' ↔ (A ∧ ¬ D0 ∧ C) ∧ t = t' := by
    intro A D0 C _ _ _ t t'
    by_cases hA : A <;> by_cases hD : D0 <;> by_cases hC : C <;> simp [hA, hD, hC]
  have sgn : ∀ a t : ℝ, (a / Real.sqrt (1 + t ^ 2) < 0 ↔ a < 0) ∧ (a / Real.sqrt (1 + t ^ 2) > 0 ↔ a > 0) := by
    intro a t
    exact ⟨div_root_neg, by rw [gt_iff_lt, lt_div_iff₀ (root_pos t), zero_mul]⟩
  unfold faceHit
  dsimp only
  cases forY <;> cases mirrored <;> simp only [Bool.false_eq_true, if_false, if_true, sideOf, rootOf, Strip]
  · rw [nx, dx, h1, g1, iz, c_fx hc]
    refine and_congr (and_congr ?_ (and_congr Iff.rfl ?_)) Iff.rfl
    · simp only [slope, sgn]
    · rw [c_wy hc hz]; rfl
  · rw [nx, dx, h2, g2, iz, c_fx hc]
    refine and_congr (and_congr ?_ (and_congr Iff.rfl ?_)) Iff.rfl
    · simp only [slope, sgn]
    · rw [c_wy hc hz]; rfl
  · rw [ny, dy, h3, g3, iz, c_fy hc]
    refine and_congr (and_congr ?_ (and_congr Iff.rfl ?_)) Iff.rfl
    · simp only [slope, sgn]
    · rw [c_wx hc hz]; rfl
  · rw [ny, dy, h4, g4, iz, c_fy hc]
    refine and_congr (and_congr ?_ (and_congr Iff.rfl ?_)) Iff.rfl
    · simp only [slope, sgn]
    · rw [c_wx hc hz]; rfl

theorem face_height (forY mirrored : Bool) (p d : V3)
    (hD : -(2 * s.dz) * (slope (shape s) d (sideOf forY mirrored) * rootOf (shape s) forY) + kTiny ≠ 0) :
    let u := 2 * s.dz * (height (shape s) p (sideOf forY mirrored) * rootOf (shape s) forY) /
      (-(2 * s.dz) * (slope (shape s) d (sideOf forY mirrored) * rootOf (shape s) forY) + kTiny)
    height (shape s) (V3.at' p d u) (sideOf forY mirrored) = u * (kTiny / (2 * s.dz)) / rootOf (shape s) forY := by
  intro u
  have hz : 0 < s.dz := hp.2.2.2.2
  have hr := rootOf_pos (shape s) forY
  have := core (H := height (shape s) p (sideOf forY mirrored) * rootOf (shape s) forY) hz hD
  rw [height_at (S := shape s) hz, eq_div_iff hr.ne']
  rw [← this]
  ring

theorem rootOf_ge (b : Bool) : 1 ≤ rootOf (shape s) b := by cases b <;> exact root_ge _

theorem face_slack (u : ℝ) (b : Bool) :
    |u * (kTiny / (2 * s.dz)) / rootOf (shape s) b| ≤ |u| * slack (shape s) := by
  cases b <;> exact mul_le_slack (S := shape s) hp.2.2.2.2 _ _

theorem face_all (forY mirrored : Bool) {q : V3} {e : ℝ} (hs : Strip (shape s) forY q)
    (h : |height (shape s) q (sideOf forY mirrored)| ≤ e) : ∀ g, height (shape s) q g ≤ e := by
  cases forY
  · exact heights_x hp mirrored hs.1 hs.2 h
  · exact heights_y hp mirrored hs.1 hs.2 h

/-- A hit of a side face in `DistanceToIn`. -/
theorem faceHit_in {forY mirrored : Bool} {p d : V3} {t : ℝ} (h : faceHit s forY mirrored true p d = some t) :
    ∃ u, t = snap u ∧ -kHalfTolerance < u ∧ HitIn (shape s) p d u := by
  have hz : 0 < s.dz := hp.2.2.2.2
  rw [faceHit_iff hc hp] at h
  obtain ⟨⟨h1, h2, h3, h4⟩, rfl⟩ := h
  have e := face_height hc hp forY mirrored p d h2
  dsimp only at h3 h4 e ⊢
  generalize 2 * s.dz * (height (shape s) p (sideOf forY mirrored) * rootOf (shape s) forY) /
      (-(2 * s.dz) * (slope (shape s) d (sideOf forY mirrored) * rootOf (shape s) forY) + kTiny) = u at h3 h4 e ⊢
  have hsl : |height (shape s) (V3.at' p d u) (sideOf forY mirrored)| ≤ |u| * slack (shape s) := by
    rw [e]; exact face_slack hc hp _ _
  refine ⟨_, rfl, h3, sideOf forY mirrored, by simpa using h1, fun h0 => ?_, hsl, face_all hc hp forY mirrored h4 hsl⟩
  rw [e]
  have := rootOf_pos (shape s) forY
  have := tiny_pos
  positivity

/-- A hit of a side face in `DistanceToOut`. -/
theorem faceHit_out {forY mirrored : Bool} {p d : V3} {t : ℝ} (h : faceHit s forY mirrored false p d = some t) :
    ∃ u, t = snap u ∧ -kHalfTolerance < u ∧ HitOut (shape s) p d u := by
  have hz : 0 < s.dz := hp.2.2.2.2
  rw [faceHit_iff hc hp] at h
  obtain ⟨⟨h1, h2, h3, h4⟩, rfl⟩ := h
  have e := face_height hc hp forY mirrored p d h2
  dsimp only at h3 h4 e ⊢
  generalize 2 * s.dz * (height (shape s) p (sideOf forY mirrored) * rootOf (shape s) forY) /
      (-(2 * s.dz) * (slope (shape s) d (sideOf forY mirrored) * rootOf (shape s) forY) + kTiny) = u at h3 h4 e ⊢
  have hsl : |height (shape s) (V3.at' p d u) (sideOf forY mirrored)| ≤ |u| * slack (shape s) := by
    rw [e]; exact face_slack hc hp _ _
  exact ⟨_, rfl, h3, sideOf forY mirrored, by simpa using h1, hsl, face_all hc hp forY mirrored h4 hsl⟩

omit hc hp in
theorem wx_ends {S : Shape} (hz : 0 < S.z) (e : ℝ) : S.wx (S.z + e) = S.x2 - S.tx * e ∧ S.wx (-S.z + e) = S.x1 - S.tx * e := by
  rw [wx_eq hz, wx_eq hz]
  unfold Shape.tx
  constructor <;> field_simp <;> ring
omit hc hp in
theorem wy_ends {S : Shape} (hz : 0 < S.z) (e : ℝ) : S.wy (S.z + e) = S.y2 - S.ty * e ∧ S.wy (-S.z + e) = S.y1 - S.ty * e := by
  rw [wy_eq hz, wy_eq hz]
  unfold Shape.ty
  constructor <;> field_simp <;> ring

omit hc hp in
theorem mul_div_root (t e : ℝ) : t * e / Real.sqrt (1 + t ^ 2) ≤ |e| := by
  have h := root_pos t
  have h1 : |t| ≤ Real.sqrt (1 + t ^ 2) := by
    apply Real.abs_le_sqrt; linarith
  rw [div_le_iff₀ h]
  calc t * e ≤ |t * e| := le_abs_self _
    _ = |t| * |e| := abs_mul _ _
    _ ≤ Real.sqrt (1 + t ^ 2) * |e| := mul_le_mul_of_nonneg_right h1 (abs_nonneg _)
    _ = _ := mul_comm _ _

omit hc hp in
/-- Near the upper base. -/
theorem heights_top {S : Shape} (hz : 0 < S.z) {q : V3} {e : ℝ} (h : |q.z - S.z| ≤ e) (hx : |q.x| ≤ S.x2) (hy : |q.y| ≤ S.y2) :
    ∀ g, height S q g ≤ e := by
  obtain ⟨c, hcz⟩ : ∃ c, q.z = S.z + c := ⟨q.z - S.z, by ring⟩
  have hce : |c| ≤ e := by rwa [hcz, add_sub_cancel_left] at h
  have h' := abs_le.mp hce
  rw [abs_le] at hx hy
  have k1 := mul_div_root S.tx c
  have k2 := mul_div_root S.ty c
  have r1 := root_pos S.tx
  have r2 := root_pos S.ty
  intro g
  cases g <;> simp only [height, hcz, (wx_ends hz c).1, (wy_ends hz c).1]
  · refine le_trans (div_le_div_of_nonneg_right ?_ r1.le) (k1.trans hce); linarith
  · refine le_trans (div_le_div_of_nonneg_right ?_ r1.le) (k1.trans hce); linarith
  · refine le_trans (div_le_div_of_nonneg_right ?_ r2.le) (k2.trans hce); linarith
  · refine le_trans (div_le_div_of_nonneg_right ?_ r2.le) (k2.trans hce); linarith
  · linarith
  · linarith

omit hc hp in
/-- Near the lower base. -/
theorem heights_bottom {S : Shape} (hz : 0 < S.z) {q : V3} {e : ℝ} (h : |q.z + S.z| ≤ e) (hx : |q.x| ≤ S.x1)
    (hy : |q.y| ≤ S.y1) : ∀ g, height S q g ≤ e := by
  obtain ⟨c, hcz⟩ : ∃ c, q.z = -S.z + c := ⟨q.z + S.z, by ring⟩
  have hce : |c| ≤ e := by rwa [hcz, neg_add_eq_sub, sub_add_cancel] at h
  have h' := abs_le.mp hce
  rw [abs_le] at hx hy
  have k1 := mul_div_root S.tx c
  have k2 := mul_div_root S.ty c
  have r1 := root_pos S.tx
  have r2 := root_pos S.ty
  intro g
  cases g <;> simp only [height, hcz, (wx_ends hz c).2, (wy_ends hz c).2]
  · refine le_trans (div_le_div_of_nonneg_right ?_ r1.le) (k1.trans hce); linarith
  · refine le_trans (div_le_div_of_nonneg_right ?_ r1.le) (k1.trans hce); linarith
  · refine le_trans (div_le_div_of_nonneg_right ?_ r2.le) (k2.trans hce); linarith
  · refine le_trans (div_le_div_of_nonneg_right ?_ r2.le) (k2.trans hce); linarith
  · linarith
  · linarith

/-- A hit of a base in `DistanceToIn`. -/
theorem baseHitIn_hit (hk : kHalfTolerance ≤ s.dz) {p d : V3} {t : ℝ}
    (h : baseHitIn s (|p.z| < s.dz - kHalfTolerance) p d = some t) :
    t = (|p.z| - s.dz) / |d.z| ∧ s.dz - kHalfTolerance ≤ |p.z| ∧ HitIn (shape s) p d t := by
  have hz : 0 < s.dz := hp.2.2.2.2
  unfold baseHitIn at h
  dsimp only at h
  split at h
  · rename_i hcond
    obtain ⟨hneg, hinz⟩ := hcond
    push Not at hinz
    have hd0 : d.z ≠ 0 := by rintro h0; rw [h0] at hneg; simp at hneg
    split at h
    · rename_i hor
      injection h with h
      have hsl : 0 ≤ |t| * slack (shape s) := mul_nonneg (abs_nonneg _) (slack_pos (S := shape s) hz).le
      refine ⟨h.symm, hinz, ?_⟩
      rw [h] at hor
      have hmul : t * |d.z| = |p.z| - s.dz := by rw [← h]; exact div_mul_cancel₀ _ (abs_ne_zero.mpr hd0)
      rcases hor with ⟨hz1, hx, hy⟩ | ⟨hz1, hx, hy⟩
      · have hpz : 0 < p.z := by
          rcases lt_trichotomy p.z 0 with h | h | h
          · exfalso; linarith
          · rw [h] at hneg; simp at hneg
          · exact h
        have hdz : d.z < 0 := by nlinarith
        rw [abs_of_neg hdz, abs_of_pos hpz] at hmul
        have hq : (V3.at' p d t).z = s.dz := by rw [V3.at_z]; linarith
        have hall := heights_top (S := shape s) hz (q := V3.at' p d t) (e := 0)
          (by rw [hq]; show |s.dz - s.dz| ≤ 0; simp) (by rw [V3.at_x]; exact hx) (by rw [V3.at_y]; exact hy)
        have h0 : height (shape s) (V3.at' p d t) .zp = 0 := by simp only [height, hq]; exact sub_self _
        exact ⟨.zp, hdz, fun _ => h0.ge, by rw [h0, abs_zero]; exact hsl, fun g => (hall g).trans hsl⟩
      · have hpz : p.z < 0 := by
          rcases lt_trichotomy p.z 0 with h | h | h
          · exact h
          · rw [h] at hneg; simp at hneg
          · exfalso; linarith
        have hdz : 0 < d.z := by nlinarith
        rw [abs_of_pos hdz, abs_of_neg hpz] at hmul
        have hq : (V3.at' p d t).z = -s.dz := by rw [V3.at_z]; linarith
        have hall := heights_bottom (S := shape s) hz (q := V3.at' p d t) (e := 0)
          (by rw [hq]; show |-s.dz + s.dz| ≤ 0; simp) (by rw [V3.at_x]; exact hx) (by rw [V3.at_y]; exact hy)
        have h0 : height (shape s) (V3.at' p d t) .zm = 0 := by
          simp only [height, hq]; show - -s.dz - s.dz = 0; ring
        exact ⟨.zm, by show -d.z < 0; linarith, fun _ => h0.ge, by rw [h0, abs_zero]; exact hsl,
          fun g => (hall g).trans hsl⟩
    · cases h
  · cases h

omit hc hp in
theorem heights_yconst (hy : s.dy1 = s.dy2) (q : V3) :
    height (shape s) q .yp = q.y - s.dy1 ∧ height (shape s) q .ym = -q.y - s.dy1 := by
  simp only [height, root_ty hy, wy_const hy, div_one, and_self]

omit hc hp in
theorem slopes_yconst (hy : s.dy1 = s.dy2) (d : V3) :
    slope (shape s) d .yp = d.y ∧ slope (shape s) d .ym = -d.y := by
  simp only [slope, root_ty hy, div_one]
  simp only [ty_zero hy, zero_mul, add_zero, and_self]

/-- A hit of a constant side in `DistanceToIn`. -/
theorem sideHitIn_hit (hy : s.dy1 = s.dy2) {p d : V3} {t : ℝ} (h : sideHitIn s p d = some t) :
    -kHalfTolerance < t ∧ HitIn (shape s) p d t := by
  have hz : 0 < s.dz := hp.2.2.2.2
  unfold sideHitIn at h
  dsimp only at h
  split at h
  · rename_i hcond
    obtain ⟨hneg, hgt, hx, hzz⟩ := hcond
    injection h with h
    rw [h] at hgt hx hzz
    rw [c_wx hc hz] at hx
    have hd0 : d.y ≠ 0 := by rintro h0; rw [h0] at hneg; simp at hneg
    have hmul : t * |d.y| = |p.y| - s.dy1 := by rw [← h]; exact div_mul_cancel₀ _ (abs_ne_zero.mpr hd0)
    have hsl : 0 ≤ |t| * slack (shape s) := mul_nonneg (abs_nonneg _) (slack_pos (S := shape s) hz).le
    have hstrip : Strip (shape s) true (V3.at' p d t) := ⟨hzz.le, hx.le⟩
    refine ⟨hgt, ?_⟩
    rcases lt_trichotomy p.y 0 with hpy | hpy | hpy
    · have hdy : 0 < d.y := by nlinarith
      rw [abs_of_pos hdy, abs_of_neg hpy] at hmul
      have h0 : height (shape s) (V3.at' p d t) .ym = 0 := by
        rw [(heights_yconst hy _).2, V3.at_y]; linarith
      refine ⟨.ym, by rw [(slopes_yconst hy d).2]; linarith, fun _ => h0.ge, by rw [h0, abs_zero]; exact hsl, fun g =>
        (face_all hc hp true true hstrip (e := 0) (by show |height (shape s) (V3.at' p d t) .ym| ≤ 0; rw [h0, abs_zero]) g).trans hsl⟩
    · rw [hpy] at hneg; simp at hneg
    · have hdy : d.y < 0 := by nlinarith
      rw [abs_of_neg hdy, abs_of_pos hpy] at hmul
      have h0 : height (shape s) (V3.at' p d t) .yp = 0 := by
        rw [(heights_yconst hy _).1, V3.at_y]; linarith
      refine ⟨.yp, by rw [(slopes_yconst hy d).1]; linarith, fun _ => h0.ge, by rw [h0, abs_zero]; exact hsl, fun g =>
        (face_all hc hp true false hstrip (e := 0) (by show |height (shape s) (V3.at' p d t) .yp| ≤ 0; rw [h0, abs_zero]) g).trans hsl⟩
  · cases h

/-- A hit of a constant side in `DistanceToOut`. -/
theorem sideHitOut_hit (hy : s.dy1 = s.dy2) {p d : V3} {t : ℝ} (h : sideHitOut s p d = some t) :
    (|p.y| ≤ s.dy1 → 0 ≤ t) ∧ HitOut (shape s) p d t := by
  have hz : 0 < s.dz := hp.2.2.2.2
  unfold sideHitOut at h
  dsimp only at h
  rw [Option.ite_none_left_eq_some, Option.ite_none_right_eq_some] at h
  · obtain ⟨hd0, ⟨hx, hzz⟩, h⟩ := h
    · injection h with h
      rw [h] at hx hzz
      rw [c_wx hc hz] at hx
      have hsl : 0 ≤ |t| * slack (shape s) := mul_nonneg (abs_nonneg _) (slack_pos (S := shape s) hz).le
      have hstrip : Strip (shape s) true (V3.at' p d t) := ⟨hzz.le, hx.le⟩
      have hmul := div_mul_cancel₀ ((if d.y < 0 then -s.dy1 else s.dy1) - p.y) hd0
      rw [h] at hmul
      by_cases hdy : d.y < 0
      · rw [if_pos hdy] at hmul h
        have h0 : height (shape s) (V3.at' p d t) .ym = 0 := by
          rw [(heights_yconst hy _).2, V3.at_y]; linarith
        refine ⟨fun hc => ?_, .ym, by rw [(slopes_yconst hy d).2]; linarith, by rw [h0, abs_zero]; exact hsl, fun g =>
          (face_all hc hp true true hstrip (e := 0) (by show |height (shape s) (V3.at' p d t) .ym| ≤ 0; rw [h0, abs_zero]) g).trans hsl⟩
        rw [← h]
        exact div_nonneg_of_nonpos (by linarith [(abs_le.mp hc).1]) hdy.le
      · rw [if_neg hdy] at hmul h
        have hdy : 0 < d.y := lt_of_le_of_ne (not_lt.mp hdy) (Ne.symm hd0)
        have h0 : height (shape s) (V3.at' p d t) .yp = 0 := by
          rw [(heights_yconst hy _).1, V3.at_y]; linarith
        refine ⟨fun hc => ?_, .yp, by rw [(slopes_yconst hy d).1]; linarith, by rw [h0, abs_zero]; exact hsl, fun g =>
          (face_all hc hp true false hstrip (e := 0) (by show |height (shape s) (V3.at' p d t) .yp| ≤ 0; rw [h0, abs_zero]) g).trans hsl⟩
        rw [← h]
        exact div_nonneg (by linarith [(abs_le.mp hc).2]) hdy.le

/-- A hit of a base in `DistanceToOut`. -/
theorem baseHitOut_hit {top : Bool} {p d : V3} {t : ℝ} (h : baseHitOut s top p d = some t) :
    (|p.z| ≤ s.dz → 0 ≤ t) ∧ HitOut (shape s) p d t := by
  have hz : 0 < s.dz := hp.2.2.2.2
  have hty := tiny_pos
  have hsl : |t| * kTiny ≤ |t| * slack (shape s) :=
    mul_le_mul_of_nonneg_left (slack_ge (S := shape s) hz).1 (abs_nonneg _)
  unfold baseHitOut at h
  dsimp only at h
  rw [Option.ite_none_right_eq_some, Option.ite_none_right_eq_some] at h
  · obtain ⟨⟨hdir, hne⟩, hxy, h⟩ := h
    have hpos : 0 < 1 / |d.z + kTiny| := one_div_pos.mpr (abs_pos.mpr hne)
    · injection h with h
      rw [h] at hxy
      have hmul : t * |d.z + kTiny| = (if top = true then s.dz - p.z else p.z + s.dz) := by
        rw [← h, mul_assoc, one_div_mul_cancel (abs_ne_zero.mpr hne), mul_one]
      cases top
      · simp only [Bool.false_eq_true, if_false] at hdir hxy hmul h
        have hb : abs (|d.z + kTiny| - |d.z|) ≤ kTiny := by
          have := abs_abs_sub_abs_le_abs_sub (d.z + kTiny) d.z
          rwa [add_sub_cancel_left, abs_of_pos hty] at this
        rw [abs_of_neg hdir] at hb
        have hq : (V3.at' p d t).z + s.dz = t * (|d.z + kTiny| - -d.z) := by rw [V3.at_z]; linarith
        have he : |(V3.at' p d t).z + s.dz| ≤ |t| * kTiny := by
          rw [hq, abs_mul]; exact mul_le_mul_of_nonneg_left hb (abs_nonneg _)
        refine ⟨fun hc => ?_, .zm, by show 0 < -d.z; linarith, ?_, fun g => (heights_bottom (S := shape s) hz he hxy.1 hxy.2 g).trans hsl⟩
        · rw [← h]; exact mul_nonneg (by linarith [(abs_le.mp hc).1]) hpos.le
        · refine le_trans (le_of_eq ?_) (he.trans hsl)
          rw [← abs_neg]; congr 1; simp only [height]; show -(-(V3.at' p d t).z - s.dz) = _; ring
      · simp only [if_true] at hdir hxy hmul h
        have hb : abs (|d.z + kTiny| - |d.z|) ≤ kTiny := by
          have := abs_abs_sub_abs_le_abs_sub (d.z + kTiny) d.z
          rwa [add_sub_cancel_left, abs_of_pos hty] at this
        rw [abs_of_pos hdir] at hb
        have hq : (V3.at' p d t).z - s.dz = -(t * (|d.z + kTiny| - d.z)) := by rw [V3.at_z]; linarith
        have he : |(V3.at' p d t).z - s.dz| ≤ |t| * kTiny := by
          rw [hq, abs_neg, abs_mul]; exact mul_le_mul_of_nonneg_left hb (abs_nonneg _)
        refine ⟨fun hc => ?_, .zp, hdir, he.trans hsl, fun g => (heights_top (S := shape s) hz he hxy.1 hxy.2 g).trans hsl⟩
        rw [← h]; exact mul_nonneg (by linarith [(abs_le.mp hc).2]) hpos.le

end

end Trd
end VecGeom
