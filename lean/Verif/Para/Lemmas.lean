import Verif.Para.Model
import Verif.Para.Spec
import Verif.BoxSolid.Props

/-!
# Lemmas on the parallelepiped: oblique coordinates and slabs
-/

namespace VecGeom
namespace Para

/-- The struct holds the values that belong to the shape; nothing is said about the areas. -/
def Rep (s : State) (S : Shape) : Prop :=
  s.dims = S.h ∧ s.tanAlpha = S.ta ∧ s.tanThetaCosPhi = S.tc ∧ s.tanThetaSinPhi = S.ts ∧
  s.n0 = normalize ⟨1, -S.ta, S.ta * S.ts - S.tc⟩ ∧ s.n1 = normalize ⟨0, 1, -S.ts⟩ ∧ s.n2 = ⟨0, 0, 1⟩ ∧
  s.ctx = s.n0.x ∧ s.cty = s.n1.y

theorem mag_pos {a : V3} (h : 0 < a.mag2) : 0 < a.mag := Real.sqrt_pos.mpr h

theorem normalize_mag2 {a : V3} (h : 0 < a.mag2) : (normalize a).mag2 = 1 := by
  have h1 := mag_pos h
  have h2 : a.mag * a.mag = a.mag2 := Real.mul_self_sqrt h.le
  have e : (normalize a).mag2 = a.mag2 * (1 / a.mag) * (1 / a.mag) := by
    unfold normalize V3.mag2 V3.dot; simp only [V3.smul_x, V3.smul_y, V3.smul_z]; ring
  rw [e, ← h2]; field_simp

theorem normalize_dot (a p : V3) : (normalize a).dot p = 1 / a.mag * a.dot p := by
  unfold normalize V3.dot; simp only [V3.smul_x, V3.smul_y, V3.smul_z]; ring

theorem raw0_pos (S : Shape) : 0 < V3.mag2 ⟨1, -S.ta, S.ta * S.ts - S.tc⟩ := by
  simp only [V3.mag2, V3.dot]; nlinarith [mul_self_nonneg S.ta, mul_self_nonneg (S.ta * S.ts - S.tc)]

theorem raw1_pos (S : Shape) : 0 < V3.mag2 ⟨0, 1, -S.ts⟩ := by
  simp only [V3.mag2, V3.dot]; nlinarith [mul_self_nonneg S.ts]

theorem mul_le_zero {c a : ℝ} (hc : 0 < c) : a * c ≤ 0 ↔ a ≤ 0 :=
  ⟨fun h => by by_contra h'; push Not at h'; nlinarith [mul_pos h' hc], fun h => mul_nonpos_of_nonpos_of_nonneg h hc.le⟩

theorem mul_lt_zero {c a : ℝ} (hc : 0 < c) : a * c < 0 ↔ a < 0 :=
  ⟨fun h => by by_contra h'; push Not at h'; nlinarith [mul_nonneg h' hc.le], fun h => mul_neg_of_neg_of_pos h hc⟩

section rep
variable {s : State} {S : Shape} (hr : Rep s S)
include hr

theorem n0_unit : s.n0.mag2 = 1 := by rw [hr.2.2.2.2.1]; exact normalize_mag2 (raw0_pos S)
theorem n1_unit : s.n1.mag2 = 1 := by rw [hr.2.2.2.2.2.1]; exact normalize_mag2 (raw1_pos S)
theorem n2_unit : s.n2.mag2 = 1 := by rw [hr.2.2.2.2.2.2.1]; norm_num [V3.mag2, V3.dot]

theorem ctx_pos : 0 < s.ctx := by
  rw [hr.2.2.2.2.2.2.2.1, hr.2.2.2.2.1]
  simp only [normalize, V3.smul_x, mul_one]
  exact one_div_pos.mpr (mag_pos (raw0_pos S))

theorem cty_pos : 0 < s.cty := by
  rw [hr.2.2.2.2.2.2.2.2, hr.2.2.2.2.2.1]
  simp only [normalize, V3.smul_y, mul_one]
  exact one_div_pos.mpr (mag_pos (raw1_pos S))

theorem n0_dot (p : V3) : s.n0.dot p = s.ctx * (transform s p).x := by
  obtain ⟨-, ha, hc, hs, h0, -, -, hx, -⟩ := hr
  rw [hx, h0, normalize_dot]
  simp only [transform, normalize, V3.smul_x, V3.dot, ha, hc, hs]; ring

theorem n1_dot (p : V3) : s.n1.dot p = s.cty * (transform s p).y := by
  obtain ⟨-, ha, hc, hs, -, h1, -, -, hy⟩ := hr
  rw [hy, h1, normalize_dot]
  simp only [transform, normalize, V3.smul_y, V3.dot, ha, hc, hs]; ring

theorem n2_dot (p : V3) : s.n2.dot p = (transform s p).z := by
  rw [hr.2.2.2.2.2.2.1]; simp [V3.dot, transform]

theorem transform_point (a b c : ℝ) : transform s (S.point a b c) = ⟨a, b, c⟩ := by
  obtain ⟨-, ha, hc, hs, -⟩ := hr
  simp only [transform, Shape.point, ha, hc, hs]
  ext <;> dsimp only <;> ring

theorem point_transform (p : V3) : S.point (transform s p).x (transform s p).y (transform s p).z = p := by
  obtain ⟨-, ha, hc, hs, -⟩ := hr
  simp only [transform, Shape.point, ha, hc, hs]
  ext <;> dsimp only <;> ring

theorem closed_iff (p : V3) : Closed S p ↔ BoxSolid.Closed S.h (transform s p) := by
  constructor
  · rintro ⟨a, b, c, h1, h2, h3, rfl⟩
    rw [transform_point hr]; exact ⟨h1, h2, h3⟩
  · rintro ⟨h1, h2, h3⟩
    exact ⟨_, _, _, h1, h2, h3, (point_transform hr p).symm⟩

theorem open_iff (p : V3) : Open S p ↔ BoxSolid.Open S.h (transform s p) := by
  constructor
  · rintro ⟨a, b, c, h1, h2, h3, rfl⟩
    rw [transform_point hr]; exact ⟨h1, h2, h3⟩
  · rintro ⟨h1, h2, h3⟩
    exact ⟨_, _, _, h1, h2, h3, (point_transform hr p).symm⟩

theorem boundary_of {p : V3} (h : BoxSolid.Boundary S.h (transform s p)) : Boundary S p := by
  refine ⟨(closed_iff hr p).mpr h.1, fun ho => ?_⟩
  obtain ⟨h1, h2, h3⟩ := (open_iff hr p).mp ho
  rcases h.2 with h' | h' | h' <;> linarith

/-- The components of the safety vector are the distances from the slabs between opposite faces. -/
theorem safetyVector_eq (p : V3) : safetyVector s (transform s p) =
    ⟨|s.n0.dot p| - s.ctx * S.h.x, |s.n1.dot p| - s.cty * S.h.y, |s.n2.dot p| - S.h.z⟩ := by
  rw [n0_dot hr, n1_dot hr, n2_dot hr, abs_mul, abs_mul, abs_of_pos (ctx_pos hr), abs_of_pos (cty_pos hr)]
  unfold safetyVector
  rw [hr.1]
  ext <;> simp <;> ring

theorem closed_slabs (p : V3) : Closed S p ↔ (safetyVector s (transform s p)).maxc ≤ 0 := by
  rw [closed_iff hr, V3.maxc_le]
  have hx := ctx_pos hr
  have hy := cty_pos hr
  simp only [safetyVector, hr.1, BoxSolid.Closed, V3.sub_x, V3.sub_y, V3.sub_z, V3.vabs_x, V3.vabs_y, V3.vabs_z,
    mul_le_zero hx, mul_le_zero hy, sub_nonpos]

theorem open_slabs (p : V3) : Open S p ↔ (safetyVector s (transform s p)).maxc < 0 := by
  rw [open_iff hr, V3.maxc_lt]
  have hx := ctx_pos hr
  have hy := cty_pos hr
  simp only [safetyVector, hr.1, BoxSolid.Open, V3.sub_x, V3.sub_y, V3.sub_z, V3.vabs_x, V3.vabs_y, V3.vabs_z,
    mul_lt_zero hx, mul_lt_zero hy, sub_neg]

end rep

/-! ## Slabs -/

theorem dot_sub_le {n : V3} (hn : n.mag2 = 1) (p q : V3) : |n.dot p - n.dot q| ≤ V3.dist p q := by
  have h1 := Plane.height_sub_le (pl := ⟨n, 0⟩) hn.le p q
  have h2 := Plane.height_sub_le (pl := ⟨n, 0⟩) hn.le q p
  simp only [Plane.height, add_zero] at h1 h2
  rw [V3.dist_comm' q p] at h2
  rw [abs_le]; constructor <;> linarith

theorem slab_diff {n : V3} (hn : n.mag2 = 1) (p q : V3) : |n.dot q| ≤ |n.dot p| + V3.dist p q := by
  have := dot_sub_le hn p q
  have h2 := abs_sub_abs_le_abs_sub (n.dot q) (n.dot p)
  rw [abs_sub_comm] at h2
  linarith

/-- Some point at the distance `r` has the coordinate along the normal farther out by `r`. -/
theorem slab_out {n : V3} (hn : n.mag2 = 1) (p : V3) {r : ℝ} (hr : 0 ≤ r) :
    ∃ q, |n.dot q| = |n.dot p| + r ∧ V3.dist p q = r := by
  refine ⟨p + V3.smul (sign (n.dot p) * r) n, ?_, ?_⟩
  · have e : n.dot (p + V3.smul (sign (n.dot p) * r) n) = n.dot p + sign (n.dot p) * r * n.mag2 := by
      simp only [V3.dot, V3.mag2, V3.add_x, V3.add_y, V3.add_z, V3.smul_x, V3.smul_y, V3.smul_z]; ring
    rw [e, hn]
    rcases BoxSolid.sign_cases (n.dot p) with ⟨hx, hs⟩ | ⟨hx, hs⟩ <;> rw [hs]
    · rw [abs_of_neg hx, abs_of_neg (by linarith)]; ring
    · rw [abs_of_nonneg hx, abs_of_nonneg (by linarith)]; ring
  · have e : V3.dist2 p (p + V3.smul (sign (n.dot p) * r) n) = r ^ 2 := by
      have h1 := BoxSolid.sign_mul_self (n.dot p)
      have h2 : V3.dist2 p (p + V3.smul (sign (n.dot p) * r) n) =
          (sign (n.dot p) * sign (n.dot p)) * r ^ 2 * n.mag2 := by
        simp only [V3.dist2, V3.dot, V3.mag2, V3.add_x, V3.add_y, V3.add_z, V3.smul_x, V3.smul_y, V3.smul_z]; ring
      rw [h2, h1, hn]; ring
    unfold V3.dist
    rw [e, Real.sqrt_sq hr]

/-! ## Rays -/

theorem transform_at (s : State) (p d : V3) (t : ℝ) :
    transform s (V3.at' p d t) = V3.at' (transform s p) (transform s d) t := by
  ext <;> simp only [transform, V3.at_x, V3.at_y, V3.at_z] <;> ring

/-- The direction the kernels follow: `NonZero` is applied to the oblique components. -/
noncomputable def used (S : Shape) (s : State) (d : V3) : V3 :=
  S.point (nonZero (transform s d).x) (nonZero (transform s d).y) (nonZero (transform s d).z)

theorem transform_used {s : State} {S : Shape} (hr : Rep s S) (d : V3) :
    transform s (used S s d) = (transform s d).nonZero := transform_point hr _ _ _

theorem followed_eq {s : State} {S : Shape} (hr : Rep s S) {d d' : V3} (h : Followed S d d') : d' = used S s d := by
  obtain ⟨a, b, c, rfl, rfl⟩ := h
  rw [used, transform_point hr]

theorem transform_ray {s : State} {S : Shape} (hr : Rep s S) (p d : V3) (t : ℝ) :
    transform s (V3.at' p (used S s d) t) = V3.at' (transform s p) (transform s d).nonZero t := by
  rw [transform_at, transform_used hr]

theorem sign_inv_nonZero (x : ℝ) : sign (1 / nonZero x) = sign x := by
  unfold sign
  rcases lt_or_ge x 0 with h | h
  · rw [if_pos h, if_pos (one_div_neg.mpr (nonZero_neg h))]
  · rw [if_neg (not_lt.mpr h), if_neg (not_lt.mpr (one_div_pos.mpr (nonZero_pos h)).le)]

theorem sign_nonZero (x : ℝ) : sign (nonZero x) = sign x := by
  unfold sign
  rcases lt_or_ge x 0 with h | h
  · rw [if_pos h, if_pos (nonZero_neg h)]
  · rw [if_neg (not_lt.mpr h), if_neg (not_lt.mpr (nonZero_pos h).le)]

/-- The condition that makes `DistanceToIn` give up. -/
def Leaving (s : State) (p d : V3) : Prop :=
  ((safetyVector s (transform s p)).x ≥ -kHalfTolerance ∧ (transform s p).x * (transform s d).x ≥ 0) ∨
  ((safetyVector s (transform s p)).y ≥ -kHalfTolerance ∧ (transform s p).y * (transform s d).y ≥ 0) ∨
  ((safetyVector s (transform s p)).z ≥ -kHalfTolerance ∧ (transform s p).z * (transform s d).z ≥ 0)

open Classical in
theorem distanceToIn_eq {s : State} {S : Shape} (hr : Rep s S) (p d : V3) : distanceToIn s p d =
    if ¬ Leaving s p d ∧ (BoxSolid.vOut S.h (transform s p) (transform s d)).minc >
      (BoxSolid.vIn S.h (transform s p) (transform s d)).maxc + kHalfTolerance
    then (BoxSolid.vIn S.h (transform s p) (transform s d)).maxc else kInfLength := by
  unfold distanceToIn
  dsimp only
  have e1 : ((((transform s d).nonZero.inv.sgn.mul s.dims).neg - transform s p).mul (transform s d).nonZero.inv) =
      BoxSolid.vIn S.h (transform s p) (transform s d) := by
    rw [hr.1]
    ext <;> simp only [V3.mul_x, V3.mul_y, V3.mul_z, V3.sub_x, V3.sub_y, V3.sub_z, V3.neg_x, V3.neg_y, V3.neg_z, V3.inv_x,
      V3.inv_y, V3.inv_z, V3.sgn_x, V3.sgn_y, V3.sgn_z, V3.nonZero_x, V3.nonZero_y, V3.nonZero_z, sign_inv_nonZero,
      BoxSolid.vIn, BoxSolid.tIn] <;> ring
  have e2 : (((transform s d).nonZero.inv.sgn.mul s.dims - transform s p).mul (transform s d).nonZero.inv) =
      BoxSolid.vOut S.h (transform s p) (transform s d) := by
    rw [hr.1]
    ext <;> simp only [V3.mul_x, V3.mul_y, V3.mul_z, V3.sub_x, V3.sub_y, V3.sub_z, V3.inv_x,
      V3.inv_y, V3.inv_z, V3.sgn_x, V3.sgn_y, V3.sgn_z, V3.nonZero_x, V3.nonZero_y, V3.nonZero_z, sign_inv_nonZero,
      BoxSolid.vOut, BoxSolid.tOut]
  rw [e1, e2]
  exact if_congr Iff.rfl rfl rfl

open Classical in
theorem distanceToOut_eq {s : State} {S : Shape} (hr : Rep s S) (p d : V3) : distanceToOut s p d =
    if (safetyVector s (transform s p)).maxc > kHalfTolerance then -1
    else (BoxSolid.vOut S.h (transform s p) (transform s d)).minc := by
  unfold distanceToOut
  dsimp only
  congr 2
  rw [hr.1]
  ext <;> simp only [V3.mul_x, V3.mul_y, V3.mul_z, V3.sub_x, V3.sub_y, V3.sub_z, V3.sgn_x, V3.sgn_y, V3.sgn_z,
    V3.nonZero_x, V3.nonZero_y, V3.nonZero_z, sign_nonZero, BoxSolid.vOut, BoxSolid.tOut] <;> ring

end Para
end VecGeom
