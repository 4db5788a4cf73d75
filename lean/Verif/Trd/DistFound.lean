import Verif.Trd.DistLemmas

/-!
# Lemmas on the distances of the trapezoid: which faces are found
-/

namespace VecGeom
namespace Trd

theorem snap_cases (u : ℝ) : snap u = u ∨ (snap u = 0 ∧ |u| < kHalfTolerance) := by
  unfold snap
  split
  · exact Or.inr ⟨rfl, by assumption⟩
  · exact Or.inl rfl

theorem snap_snap (u : ℝ) : snap (snap u) = snap u := by
  rcases snap_cases u with h | ⟨h, -⟩
  · rw [h, h]
  · rw [h]; unfold snap; simp

theorem snap_nonneg {u : ℝ} (h : -kHalfTolerance < u) : 0 ≤ snap u := by
  rcases snap_cases u with h1 | ⟨h1, -⟩
  · rw [h1]
    by_contra hn
    push Not at hn
    have : snap u = 0 := by unfold snap; rw [if_pos (abs_lt.mpr ⟨h, by linarith [kHalfTolerance_pos]⟩)]
    linarith
  · rw [h1]

theorem snap_of_large {u : ℝ} (h : kHalfTolerance ≤ |u|) : snap u = u := by
  unfold snap; rw [if_neg (not_lt.mpr h)]

theorem snap_inf : snap kInfLength = kInfLength := by
  apply snap_of_large
  have h1 := kInfLength_large
  have h2 := BoxSolid.kHalfTolerance_le
  exact le_trans (by linarith) (le_abs_self _)

theorem snap_neg_one : snap (-1) = -1 := by
  apply snap_of_large
  rw [abs_neg, abs_one]
  have h2 := BoxSolid.kHalfTolerance_le
  linarith

/-! ## The face that an exact computation would find -/

/-- The ray meets the plane of a face at `u`, farther than `δ` from the planes of all other faces; with the constants added to
denominators its error there is not larger than `δ`. -/
def Clear (S : Shape) (p d : V3) (u δ : ℝ) (f : Side) : Prop :=
  0 ≤ u ∧ height S (V3.at' p d u) f = 0 ∧ 0 < δ ∧ (∀ g, g ≠ f → height S (V3.at' p d u) g ≤ -δ) ∧
  slack S < |slope S d f| ∧ u * slack S ≤ δ * (|slope S d f| - slack S)

theorem near_u {z n m σ u : ℝ} (hz : 0 < z) (hu : 0 ≤ u) (hm : m ≤ |n|) (hσ : σ < m) (ht : kTiny / (2 * z) ≤ σ) :
    -(2 * z) * n + kTiny ≠ 0 ∧ 0 ≤ 2 * z * (-u * n) / (-(2 * z) * n + kTiny) ∧
    |2 * z * (-u * n) / (-(2 * z) * n + kTiny) - u| * (m - σ) ≤ u * σ := by
  have hty := tiny_pos
  have h2 : 0 < 2 * z := by linarith
  have ht' : kTiny ≤ 2 * z * σ := by rw [div_le_iff₀ h2] at ht; linarith
  have hms : 0 < m - σ := by linarith
  have hD : 2 * z * (m - σ) ≤ |-(2 * z) * n + kTiny| := by
    have h1 : |(2 * z) * n| ≤ |-(2 * z) * n + kTiny| + |kTiny| := by
      have := abs_sub (-(2 * z) * n + kTiny) kTiny
      rwa [add_sub_cancel_right, neg_mul, abs_neg, ← neg_mul] at this
    rw [abs_mul, abs_of_pos h2, abs_of_pos hty] at h1
    have := mul_le_mul_of_nonneg_left hm h2.le
    linarith
  have hDpos : 0 < |-(2 * z) * n + kTiny| := lt_of_lt_of_le (by positivity) hD
  have hD0 : -(2 * z) * n + kTiny ≠ 0 := abs_pos.mp hDpos
  refine ⟨hD0, ?_, ?_⟩
  · rcases le_or_gt 0 n with hn | hn
    · rw [abs_of_nonneg hn] at hm
      have := mul_le_mul_of_nonneg_left hm h2.le
      apply div_nonneg_of_nonpos <;> nlinarith [mul_nonneg hu hn]
    · rw [abs_of_neg hn] at hm
      have := mul_le_mul_of_nonneg_left hm h2.le
      apply div_nonneg <;> nlinarith [mul_nonneg hu (neg_nonneg.mpr hn.le)]
  · have e : 2 * z * (-u * n) / (-(2 * z) * n + kTiny) - u = -(u * kTiny) / (-(2 * z) * n + kTiny) := by
      rw [eq_div_iff hD0, sub_mul, div_mul_cancel₀ _ hD0]; ring
    rw [e, abs_div, abs_neg, abs_of_nonneg (by positivity), div_mul_eq_mul_div, div_le_iff₀ hDpos]
    have h3 : u * kTiny * (m - σ) ≤ u * (2 * z * σ) * (m - σ) :=
      mul_le_mul_of_nonneg_right (mul_le_mul_of_nonneg_left ht' hu) hms.le
    have hσ0 : 0 ≤ σ := le_trans (by positivity) ht
    have h4 : u * σ * (2 * z * (m - σ)) ≤ u * σ * |-(2 * z) * n + kTiny| :=
      mul_le_mul_of_nonneg_left hD (by positivity)
    linarith

theorem slope_le {S : Shape} {d : V3} (hd : d.mag2 = 1) (g : Side) : |slope S d g| ≤ 1 := by
  rw [slope_eq, abs_le]
  have h1 := plane_unit S g
  have h2 : (plane S g).n.dot d ^ 2 ≤ 1 := by
    have : (plane S g).n.dot d ^ 2 ≤ (plane S g).n.mag2 * d.mag2 := by
      simp only [V3.mag2, V3.dot]
      nlinarith [sq_nonneg ((plane S g).n.x * d.y - (plane S g).n.y * d.x), sq_nonneg ((plane S g).n.x * d.z - (plane S g).n.z * d.x),
        sq_nonneg ((plane S g).n.y * d.z - (plane S g).n.z * d.y)]
    rwa [h1, hd, one_mul] at this
  constructor <;> nlinarith

/-- A point that has been moved along the ray by no more than `δ` is not above the other faces. -/
theorem clear_move {S : Shape} (hz : 0 < S.z) {p d : V3} (hd : d.mag2 = 1) {u δ v : ℝ} {f : Side} (h : Clear S p d u δ f)
    (hv : |v - u| ≤ δ) (g : Side) (hg : g ≠ f) : height S (V3.at' p d v) g ≤ 0 := by
  have h1 := h.2.2.2.1 g hg
  rw [height_at hz] at h1 ⊢
  have h2 : (v - u) * slope S d g ≤ δ := by
    calc _ ≤ |(v - u) * slope S d g| := le_abs_self _
      _ = |v - u| * |slope S d g| := abs_mul _ _
      _ ≤ δ * 1 := mul_le_mul hv (slope_le hd g) (abs_nonneg _) (by linarith [h.2.2.1])
      _ = δ := mul_one _
  linarith

section
variable {s : State} (hc : Cached s) (hp : Proper (shape s))
include hc hp

/-- `FaceTrajectoryIntersection` finds a face that the ray meets. -/
theorem faceHit_found {forY mirrored toInside : Bool} {p d : V3} (hd : d.mag2 = 1) {u δ : ℝ}
    (h : Clear (shape s) p d u δ (sideOf forY mirrored))
    (hdir : if toInside then slope (shape s) d (sideOf forY mirrored) < 0 else slope (shape s) d (sideOf forY mirrored) > 0) :
    ∃ t, faceHit s forY mirrored toInside p d = some t := by
  have hz : 0 < s.dz := hp.2.2.2.2
  have hr := rootOf_ge hc hp forY
  have hr0 := rootOf_pos (shape s) forY
  obtain ⟨h0, h1, h2, h3, h4, h5⟩ := id h
  have hH : height (shape s) p (sideOf forY mirrored) = -u * slope (shape s) d (sideOf forY mirrored) := by
    rw [height_at (S := shape s) hz] at h1; linarith
  have hn : |slope (shape s) d (sideOf forY mirrored)| ≤ |slope (shape s) d (sideOf forY mirrored) * rootOf (shape s) forY| := by
    rw [abs_mul, abs_of_pos hr0]
    exact le_mul_of_one_le_right (abs_nonneg _) hr
  obtain ⟨k1, k2, k3⟩ := near_u hz h0 hn h4 (slack_ge (S := shape s) hz).2
  have e : 2 * s.dz * (height (shape s) p (sideOf forY mirrored) * rootOf (shape s) forY) /
      (-(2 * s.dz) * (slope (shape s) d (sideOf forY mirrored) * rootOf (shape s) forY) + kTiny) =
      2 * s.dz * (-u * (slope (shape s) d (sideOf forY mirrored) * rootOf (shape s) forY)) /
      (-(2 * s.dz) * (slope (shape s) d (sideOf forY mirrored) * rootOf (shape s) forY) + kTiny) := by
    rw [hH, mul_assoc (-u)]
  refine ⟨_, (faceHit_iff hc hp _ _ _ _ _ _).mpr ⟨⟨hdir, k1, ?_, ?_⟩, rfl⟩⟩
  · rw [e]; have := kHalfTolerance_pos; linarith
  · rw [e]
    have hv := le_of_mul_le_mul_right (k3.trans h5) (by linarith)
    have hmv := clear_move (S := shape s) hz hd h hv
    generalize V3.at' p d _ = q at hmv
    cases forY
    · have a1 := hmv .zp (by cases mirrored <;> simp [sideOf])
      have a2 := hmv .zm (by cases mirrored <;> simp [sideOf])
      have a3 := hmv .yp (by cases mirrored <;> simp [sideOf])
      have a4 := hmv .ym (by cases mirrored <;> simp [sideOf])
      simp only [height, div_root_nonpos] at a1 a2 a3 a4
      exact ⟨abs_le.mpr ⟨by linarith, by linarith⟩, abs_le.mpr ⟨by linarith, by linarith⟩⟩
    · have a1 := hmv .zp (by cases mirrored <;> simp [sideOf])
      have a2 := hmv .zm (by cases mirrored <;> simp [sideOf])
      have a3 := hmv .xp (by cases mirrored <;> simp [sideOf])
      have a4 := hmv .xm (by cases mirrored <;> simp [sideOf])
      simp only [height, div_root_nonpos] at a1 a2 a3 a4
      exact ⟨abs_le.mpr ⟨by linarith, by linarith⟩, abs_le.mpr ⟨by linarith, by linarith⟩⟩

omit hc in
theorem ends : (shape s).wx s.dz = s.dx2 ∧ (shape s).wx (-s.dz) = s.dx1 ∧ (shape s).wy s.dz = s.dy2 ∧
    (shape s).wy (-s.dz) = s.dy1 := by
  have hz : 0 < s.dz := hp.2.2.2.2
  have a := wx_ends (S := shape s) hz 0
  have b := wy_ends (S := shape s) hz 0
  simp only [add_zero, mul_zero, sub_zero] at a b
  exact ⟨a.1, a.2, b.1, b.2⟩

omit hc hp in
theorem abs_of_heights {S : Shape} {q : V3} {e : ℝ} (h0 : 0 ≤ e) :
    (height S q .xp ≤ -e → height S q .xm ≤ -e → |q.x| + e ≤ S.wx q.z) ∧
    (height S q .yp ≤ -e → height S q .ym ≤ -e → |q.y| + e ≤ S.wy q.z) := by
  have key : ∀ a t : ℝ, a / Real.sqrt (1 + t ^ 2) ≤ -e → a + e ≤ 0 := by
    intro a t h
    rw [div_le_iff₀ (root_pos t)] at h
    nlinarith [root_ge t]
  constructor
  · intro a b
    have a := key _ _ a
    have b := key _ _ b
    have : |q.x| ≤ S.wx q.z - e := abs_le.mpr ⟨by linarith, by linarith⟩
    linarith
  · intro a b
    have a := key _ _ a
    have b := key _ _ b
    have : |q.y| ≤ S.wy q.z - e := abs_le.mpr ⟨by linarith, by linarith⟩
    linarith

/-- A base that the ray meets is found. -/
theorem baseHitIn_found {p d : V3} {u δ : ℝ} {f : Side} (hf : f = .zp ∨ f = .zm)
    (h : Clear (shape s) p d u δ f) (hdir : slope (shape s) d f < 0) :
    ∃ t, baseHitIn s (|p.z| < s.dz - kHalfTolerance) p d = some t := by
  have hz : 0 < s.dz := hp.2.2.2.2
  have hk := kHalfTolerance_pos
  obtain ⟨h0, h1, h2, h3, -, -⟩ := h
  have hx := abs_of_heights (S := shape s) (q := V3.at' p d u) h2.le
  obtain ⟨e1, e2, e3, e4⟩ := ends hp
  rcases hf with rfl | rfl
  · have hdz : d.z < 0 := hdir
    have hq : (V3.at' p d u).z = s.dz := by simp only [height] at h1; exact sub_eq_zero.mp h1
    have hpz : p.z + u * d.z = s.dz := by rw [← hq, V3.at_z]
    have hpos : s.dz ≤ p.z := by nlinarith
    have hdist : (|p.z| - s.dz) / |d.z| = u := by
      rw [abs_of_pos (by linarith), abs_of_neg hdz, div_eq_iff (by linarith)]; linarith
    have b1 := hx.1 (h3 _ (by simp)) (h3 _ (by simp))
    have b2 := hx.2 (h3 _ (by simp)) (h3 _ (by simp))
    rw [hq] at b1 b2
    rw [e1] at b1; rw [e3] at b2
    simp only [V3.at_x, V3.at_y] at b1 b2
    unfold baseHitIn
    dsimp only
    rw [if_pos ⟨by nlinarith, by rw [abs_of_pos (by linarith)]; linarith⟩, hdist]
    rw [if_pos (Or.inl ⟨by linarith, by linarith, by linarith⟩)]
    exact ⟨_, rfl⟩
  · have hdz : 0 < d.z := by have : -d.z < 0 := hdir; linarith
    have hq : (V3.at' p d u).z = -s.dz := by
      simp only [height] at h1; have := sub_eq_zero.mp h1; show (V3.at' p d u).z = -(shape s).z; linarith
    have hpz : p.z + u * d.z = -s.dz := by rw [← hq, V3.at_z]
    have hpos : p.z ≤ -s.dz := by nlinarith
    have hdist : (|p.z| - s.dz) / |d.z| = u := by
      rw [abs_of_neg (by linarith), abs_of_pos hdz, div_eq_iff (by linarith)]; linarith
    have b1 := hx.1 (h3 _ (by simp)) (h3 _ (by simp))
    have b2 := hx.2 (h3 _ (by simp)) (h3 _ (by simp))
    rw [hq] at b1 b2
    rw [e2] at b1; rw [e4] at b2
    simp only [V3.at_x, V3.at_y] at b1 b2
    unfold baseHitIn
    dsimp only
    rw [if_pos ⟨by nlinarith, by rw [abs_of_neg (by linarith)]; linarith⟩, hdist]
    rw [if_pos (Or.inr ⟨by linarith, by linarith, by linarith⟩)]
    exact ⟨_, rfl⟩

/-- A constant side that the ray meets is found by `DistanceToIn`. -/
theorem sideHitIn_found (hy : s.dy1 = s.dy2) {p d : V3} {u δ : ℝ} {f : Side} (hf : f = .yp ∨ f = .ym)
    (h : Clear (shape s) p d u δ f) (hdir : slope (shape s) d f < 0) (hpy : 0 < s.dy1) :
    ∃ t, sideHitIn s p d = some t := by
  have hz : 0 < s.dz := hp.2.2.2.2
  have hk := kHalfTolerance_pos
  obtain ⟨h0, h1, h2, h3, -, -⟩ := h
  have hx := abs_of_heights (S := shape s) (q := V3.at' p d u) h2.le
  have hxx : |(V3.at' p d u).x| < (shape s).wx (V3.at' p d u).z := by
    have := hx.1 (h3 _ (by rcases hf with rfl | rfl <;> simp)) (h3 _ (by rcases hf with rfl | rfl <;> simp)); linarith
  have hzz : |(V3.at' p d u).z| < s.dz := by
    have a := h3 .zp (by rcases hf with rfl | rfl <;> simp)
    have b := h3 .zm (by rcases hf with rfl | rfl <;> simp)
    simp only [height] at a b
    have e : (shape s).z = s.dz := rfl
    rw [e] at a b
    exact abs_lt.mpr ⟨by linarith, by linarith⟩
  have key : p.y * d.y < 0 ∧ (|p.y| - s.dy1) / |d.y| = u := by
    rcases hf with rfl | rfl
    · rw [(slopes_yconst hy d).1] at hdir
      rw [(heights_yconst hy _).1, V3.at_y] at h1
      have : s.dy1 ≤ p.y := by nlinarith
      refine ⟨by nlinarith, ?_⟩
      rw [abs_of_pos (by linarith), abs_of_neg hdir, div_eq_iff (by linarith)]; linarith
    · rw [(slopes_yconst hy d).2] at hdir
      rw [(heights_yconst hy _).2, V3.at_y] at h1
      have hdy : 0 < d.y := by linarith
      have : p.y ≤ -s.dy1 := by nlinarith
      refine ⟨by nlinarith, ?_⟩
      rw [abs_of_neg (by linarith), abs_of_pos hdy, div_eq_iff (by linarith)]; linarith
  unfold sideHitIn
  dsimp only
  rw [key.2, c_wx hc hz]
  exact ⟨u, if_pos ⟨key.1, by linarith, hxx, hzz⟩⟩

/-- A constant side that the ray meets is found by `DistanceToOut`. -/
theorem sideHitOut_found (hy : s.dy1 = s.dy2) {p d : V3} {u δ : ℝ} {f : Side} (hf : f = .yp ∨ f = .ym)
    (h : Clear (shape s) p d u δ f) (hdir : 0 < slope (shape s) d f) :
    ∃ t, sideHitOut s p d = some t := by
  have hz : 0 < s.dz := hp.2.2.2.2
  have hk := kHalfTolerance_pos
  obtain ⟨h0, h1, h2, h3, -, -⟩ := h
  have hx := abs_of_heights (S := shape s) (q := V3.at' p d u) h2.le
  have hxx : |(V3.at' p d u).x| < (shape s).wx (V3.at' p d u).z := by
    have := hx.1 (h3 _ (by rcases hf with rfl | rfl <;> simp)) (h3 _ (by rcases hf with rfl | rfl <;> simp)); linarith
  have hzz : |(V3.at' p d u).z| < s.dz := by
    have a := h3 .zp (by rcases hf with rfl | rfl <;> simp)
    have b := h3 .zm (by rcases hf with rfl | rfl <;> simp)
    simp only [height] at a b
    have e : (shape s).z = s.dz := rfl
    rw [e] at a b
    exact abs_lt.mpr ⟨by linarith, by linarith⟩
  have key : d.y ≠ 0 ∧ ((if d.y < 0 then -s.dy1 else s.dy1) - p.y) / d.y = u := by
    rcases hf with rfl | rfl
    · rw [(slopes_yconst hy d).1] at hdir
      rw [(heights_yconst hy _).1, V3.at_y] at h1
      refine ⟨hdir.ne', ?_⟩
      rw [if_neg (by linarith), div_eq_iff hdir.ne']; linarith
    · rw [(slopes_yconst hy d).2] at hdir
      rw [(heights_yconst hy _).2, V3.at_y] at h1
      have hdy : d.y < 0 := by linarith
      refine ⟨hdy.ne, ?_⟩
      rw [if_pos hdy, div_eq_iff hdy.ne]; linarith
  unfold sideHitOut
  dsimp only
  rw [if_neg key.1, key.2, c_wx hc hz]
  exact ⟨u, if_pos ⟨hxx, hzz⟩⟩

/-- A base that the ray meets is found by `DistanceToOut`. -/
theorem baseHitOut_found {top : Bool} {p d : V3} (hd : d.mag2 = 1) {u δ : ℝ}
    (h : Clear (shape s) p d u δ (if top then .zp else .zm)) (hdir : 0 < slope (shape s) d (if top then .zp else .zm)) :
    ∃ t, baseHitOut s top p d = some t := by
  have hz : 0 < s.dz := hp.2.2.2.2
  have hty := tiny_pos
  obtain ⟨h0, h1, h2, h3, h4, h5⟩ := h
  have hsl := (slack_ge (S := shape s) hz).1
  have hx := abs_of_heights (S := shape s) (q := V3.at' p d u) h2.le
  obtain ⟨e1, e2, e3, e4⟩ := ends hp
  have comp : ∀ a : ℝ, a ^ 2 ≤ 1 → |a| ≤ 1 := fun a ha => abs_le.mpr ⟨by nlinarith, by nlinarith⟩
  have hd' : d.x * d.x + d.y * d.y + d.z * d.z = 1 := hd
  have hdx := comp d.x (by nlinarith)
  have hdy := comp d.y (by nlinarith)
  -- moving along the ray by no more than `δ`
  have mv : ∀ (v w a b : ℝ), |v - u| ≤ δ → |b| ≤ 1 → |a + u * b| + δ ≤ w → |a + v * b| ≤ w := by
    intro v w a b hv hb hw
    have : |(v - u) * b| ≤ δ := by
      rw [abs_mul]; nlinarith [abs_nonneg (v - u), abs_nonneg b]
    calc |a + v * b| = |a + u * b + (v - u) * b| := by ring_nf
      _ ≤ |a + u * b| + |(v - u) * b| := abs_add_le _ _
      _ ≤ w := by linarith
  cases top
  · simp only [Bool.false_eq_true, if_false] at *
    have hdz : d.z < 0 := by have : 0 < -d.z := hdir; linarith
    have hs : |slope (shape s) d .zm| = -d.z := by show |-d.z| = _; rw [abs_neg, abs_of_neg hdz]
    rw [hs] at h4 h5
    have hq : (V3.at' p d u).z = -s.dz := by
      simp only [height] at h1; have := sub_eq_zero.mp h1; show (V3.at' p d u).z = -(shape s).z; linarith
    have b1 := hx.1 (h3 _ (by simp)) (h3 _ (by simp))
    have b2 := hx.2 (h3 _ (by simp)) (h3 _ (by simp))
    rw [hq] at b1 b2
    rw [e2] at b1; rw [e4] at b2
    rw [V3.at_z] at hq
    simp only [V3.at_x, V3.at_y] at b1 b2
    have hneg : d.z + kTiny < 0 := by linarith
    have hv : |(p.z + s.dz) * (1 / |d.z + kTiny|) - u| ≤ δ := by
      rw [abs_of_neg hneg]
      have e : (p.z + s.dz) * (1 / -(d.z + kTiny)) - u = u * kTiny / -(d.z + kTiny) := by
        rw [show p.z + s.dz = -u * d.z by linarith, eq_div_iff (by linarith)]
        have h6 : -(d.z + kTiny) ≠ 0 := by linarith
        rw [sub_mul, mul_assoc, one_div_mul_cancel h6]; ring
      rw [e, abs_of_nonneg (div_nonneg (by positivity) (by linarith)), div_le_iff₀ (by linarith)]
      have a1 : u * kTiny ≤ u * slack (shape s) := mul_le_mul_of_nonneg_left hsl h0
      nlinarith
    unfold baseHitOut
    dsimp only
    simp only [Bool.false_eq_true, if_false]
    rw [if_pos ⟨hdz, hneg.ne⟩, if_pos ⟨mv _ _ _ _ hv hdx b1, mv _ _ _ _ hv hdy b2⟩]
    exact ⟨_, rfl⟩
  · simp only [if_true] at *
    have hdz : 0 < d.z := hdir
    have hs : |slope (shape s) d .zp| = d.z := by show |d.z| = _; rw [abs_of_pos hdz]
    rw [hs] at h4 h5
    have hq : (V3.at' p d u).z = s.dz := by simp only [height] at h1; exact sub_eq_zero.mp h1
    have b1 := hx.1 (h3 _ (by simp)) (h3 _ (by simp))
    have b2 := hx.2 (h3 _ (by simp)) (h3 _ (by simp))
    rw [hq] at b1 b2
    rw [e1] at b1; rw [e3] at b2
    rw [V3.at_z] at hq
    simp only [V3.at_x, V3.at_y] at b1 b2
    have hpos : 0 < d.z + kTiny := by linarith
    have hv : |(s.dz - p.z) * (1 / |d.z + kTiny|) - u| ≤ δ := by
      rw [abs_of_pos hpos]
      have e : (s.dz - p.z) * (1 / (d.z + kTiny)) - u = -(u * kTiny) / (d.z + kTiny) := by
        rw [show s.dz - p.z = u * d.z by linarith]
        field_simp; ring
      rw [e, abs_div, abs_neg, abs_of_nonneg (by positivity), abs_of_pos hpos, div_le_iff₀ hpos]
      have a1 : u * kTiny ≤ u * slack (shape s) := mul_le_mul_of_nonneg_left hsl h0
      nlinarith
    unfold baseHitOut
    dsimp only
    simp only [if_true]
    rw [if_pos ⟨hdz, hpos.ne'⟩, if_pos ⟨mv _ _ _ _ hv hdx b1, mv _ _ _ _ hv hdy b2⟩]
    exact ⟨_, rfl⟩

end

end Trd
end VecGeom
