import Verif.Tube.Lemmas

/-!
# Lemmas on straight lines and tubes

`NonZero` adds `kTiny` to the coefficient of the quadratic equations, so that the roots are those of a slightly larger
coefficient: on the line, the squared radius at the root falls short of the squared radius of the wall by `kTiny * t ^ 2`.
-/

namespace VecGeom
namespace Tube

open Real

variable {a : Par} {ty : TType} {p d : V3}

theorem rad_at_sq (p d : V3) (t : ℝ) :
    rad (V3.at' p d t) ^ 2 = rad p ^ 2 + 2 * (p.x * d.x + p.y * d.y) * t + (d.x ^ 2 + d.y ^ 2) * t ^ 2 := by
  rw [rad_sq, rad_sq]; simp only [V3.at_x, V3.at_y]; ring

/-- The coefficient with its guard. -/
theorem nonZero_perp (hu : d.x ^ 2 + d.y ^ 2 + d.z ^ 2 = 1) : nonZero (1 - d.z * d.z) = d.x ^ 2 + d.y ^ 2 + kTiny := by
  have h : 1 - d.z * d.z = d.x ^ 2 + d.y ^ 2 := by linarith
  rw [h]
  simp only [nonZero, copySign, if_neg (not_lt.mpr (show 0 ≤ d.x ^ 2 + d.y ^ 2 by positivity))]

/-- `b` and `c` of the quadratic equation for a wall of radius `r`. -/
noncomputable def qb (p d : V3) : ℝ := invnsq d * (p.x * d.x + p.y * d.y)
noncomputable def qc (r : ℝ) (p d : V3) : ℝ := invnsq d * (rad p ^ 2 - r ^ 2)

theorem invnsq_pos (hu : d.x ^ 2 + d.y ^ 2 + d.z ^ 2 = 1) : 0 < invnsq d := by
  unfold invnsq
  rw [nonZero_perp hu]
  have := kTiny_pos
  positivity

/-- The squared radius along the line. -/
theorem rad_at_quad (hu : d.x ^ 2 + d.y ^ 2 + d.z ^ 2 = 1) (r t : ℝ) :
    rad (V3.at' p d t) ^ 2 = r ^ 2 - kTiny * t ^ 2 + (d.x ^ 2 + d.y ^ 2 + kTiny) * (t ^ 2 + 2 * qb p d * t + qc r p d) := by
  have hN : d.x ^ 2 + d.y ^ 2 + kTiny ≠ 0 := by have := kTiny_pos; positivity
  rw [rad_at_sq]
  unfold qb qc invnsq
  rw [nonZero_perp hu]
  field_simp
  ring

open Classical in
theorem circleDist_eq (largest : Bool) {b c : ℝ} (h : 0 ≤ b * b - c) :
    circleDist largest b c = -b + (if largest then √(b * b - c) else -√(b * b - c)) := by
  unfold circleDist
  simp only
  rcases h.lt_or_eq with h1 | h1
  · have : b * b - c > 0 ∨ largest = true ∧ b * b - c = 0 := .inl h1
    simp only [this, if_true]
  · rw [← h1]; simp

theorem quad_factor {b c : ℝ} (h : 0 ≤ b * b - c) (t : ℝ) :
    t ^ 2 + 2 * b * t + c = (t - circleDist false b c) * (t - circleDist true b c) := by
  rw [circleDist_eq _ h, circleDist_eq _ h]
  simp only [Bool.false_eq_true, if_false, if_true]
  linear_combination sq_sqrt h

theorem circleDist_le {b c : ℝ} (h : 0 ≤ b * b - c) : circleDist false b c ≤ circleDist true b c := by
  rw [circleDist_eq _ h, circleDist_eq _ h]
  simp only [Bool.false_eq_true, if_false, if_true]
  linarith [sqrt_nonneg (b * b - c)]

theorem circleDist_sum {b c : ℝ} (h : 0 ≤ b * b - c) : circleDist false b c + circleDist true b c = -(2 * b) := by
  rw [circleDist_eq _ h, circleDist_eq _ h]
  simp only [Bool.false_eq_true, if_false, if_true]
  ring

theorem circleDist_mul {b c : ℝ} (h : 0 ≤ b * b - c) : circleDist false b c * circleDist true b c = c := by
  have := quad_factor h 0
  linarith

theorem quad_nonneg {b c : ℝ} (h : b * b - c ≤ 0) (t : ℝ) : 0 ≤ t ^ 2 + 2 * b * t + c := by nlinarith [sq_nonneg (t + b)]

/-- Inside a wall of radius `r` the line stays inside up to the larger root. -/
theorem rad_le_of_root (hu : d.x ^ 2 + d.y ^ 2 + d.z ^ 2 = 1) {r : ℝ} (h : rad p ≤ r) :
    0 ≤ qb p d * qb p d - qc r p d ∧ 0 ≤ circleDist true (qb p d) (qc r p d) ∧
    (∀ t, 0 ≤ t → t ≤ circleDist true (qb p d) (qc r p d) → rad (V3.at' p d t) ^ 2 ≤ r ^ 2 - kTiny * t ^ 2) ∧
    rad (V3.at' p d (circleDist true (qb p d) (qc r p d))) ^ 2 = r ^ 2 - kTiny * circleDist true (qb p d) (qc r p d) ^ 2 := by
  have h0 := rad_nonneg p
  have hi := invnsq_pos hu
  have hc : qc r p d ≤ 0 := by
    unfold qc
    apply mul_nonpos_of_nonneg_of_nonpos hi.le
    nlinarith
  have hd : 0 ≤ qb p d * qb p d - qc r p d := by nlinarith [mul_self_nonneg (qb p d)]
  have hm := circleDist_mul hd
  have hl := circleDist_le hd
  have h1 : 0 ≤ circleDist true (qb p d) (qc r p d) := by
    by_contra hh
    push Not at hh
    nlinarith
  have h2 : circleDist false (qb p d) (qc r p d) ≤ 0 := by
    by_contra hh
    push Not at hh
    nlinarith
  have hN : 0 ≤ d.x ^ 2 + d.y ^ 2 + kTiny := by have := kTiny_pos; positivity
  refine ⟨hd, h1, ?_, ?_⟩
  · intro t ht ht'
    rw [rad_at_quad hu r, quad_factor hd]
    have : (t - circleDist false (qb p d) (qc r p d)) * (t - circleDist true (qb p d) (qc r p d)) ≤ 0 :=
      mul_nonpos_of_nonneg_of_nonpos (by linarith) (by linarith)
    nlinarith
  · rw [rad_at_quad hu r, quad_factor hd]; ring

/-- Outside a bore of radius `r` the line stays outside up to the smaller root, for ever if there is none or it is behind. -/
theorem rad_ge_of_root (hu : d.x ^ 2 + d.y ^ 2 + d.z ^ 2 = 1) {r : ℝ} (hr : 0 ≤ r) (h : r ≤ rad p) {t : ℝ} (ht : 0 ≤ t)
    (h' : 0 < qb p d * qb p d - qc r p d → circleDist false (qb p d) (qc r p d) < 0 ∨ t ≤ circleDist false (qb p d) (qc r p d)) :
    r ^ 2 - kTiny * t ^ 2 ≤ rad (V3.at' p d t) ^ 2 := by
  have hi := invnsq_pos hu
  have hc : 0 ≤ qc r p d := by
    unfold qc
    apply mul_nonneg hi.le
    nlinarith
  have hN : 0 ≤ d.x ^ 2 + d.y ^ 2 + kTiny := by have := kTiny_pos; positivity
  rw [rad_at_quad hu r]
  rcases le_or_gt (qb p d * qb p d - qc r p d) 0 with hd | hd
  · nlinarith [quad_nonneg hd t]
  · have hm := circleDist_mul hd.le
    have hl := circleDist_le hd.le
    rw [quad_factor hd.le]
    have : 0 ≤ (t - circleDist false (qb p d) (qc r p d)) * (t - circleDist true (qb p d) (qc r p d)) := by
      rcases h' hd with h1 | h1
      · have h2 : circleDist true (qb p d) (qc r p d) ≤ 0 := by
          by_contra hh
          push Not at hh
          nlinarith
        exact mul_nonneg (by linarith) (by linarith)
      · exact mul_nonneg_of_nonpos_of_nonpos (by linarith) (by linarith)
    nlinarith

/-- The radial velocity at the roots. -/
theorem root_speed (hu : d.x ^ 2 + d.y ^ 2 + d.z ^ 2 = 1) (r t : ℝ) (largest : Bool) (hd : 0 ≤ qb p d * qb p d - qc r p d)
    (ht : t = circleDist largest (qb p d) (qc r p d)) :
    (V3.at' p d t).x * d.x + (V3.at' p d t).y * d.y = -kTiny * t +
      (d.x ^ 2 + d.y ^ 2 + kTiny) * (if largest then √(qb p d * qb p d - qc r p d) else -√(qb p d * qb p d - qc r p d)) := by
  have hN : d.x ^ 2 + d.y ^ 2 + kTiny ≠ 0 := by have := kTiny_pos; positivity
  have hb : (d.x ^ 2 + d.y ^ 2 + kTiny) * qb p d = p.x * d.x + p.y * d.y := by
    unfold qb invnsq
    rw [nonZero_perp hu]
    field_simp
  rw [circleDist_eq _ hd] at ht
  generalize (if largest = true then √(qb p d * qb p d - qc r p d) else -√(qb p d * qb p d - qc r p d)) = e at ht ⊢
  simp only [V3.at_x, V3.at_y]
  subst ht
  linear_combination -hb

/-! ## Phi planes -/

theorem S1_at (t : ℝ) : S1 a (V3.at' p d t).x (V3.at' p d t).y = S1 a p.x p.y + t * S1 a d.x d.y := by
  unfold S1; simp only [V3.at_x, V3.at_y]; ring
theorem S2_at (t : ℝ) : S2 a (V3.at' p d t).x (V3.at' p d t).y = S2 a p.x p.y + t * S2 a d.x d.y := by
  unfold S2; simp only [V3.at_x, V3.at_y]; ring

theorem nonZero_neg_eq (x : ℝ) (h : x ≠ 0) : nonZero (-x) = -nonZero x := by
  unfold nonZero copySign
  rcases lt_or_gt_of_ne h with h1 | h1
  · rw [if_neg (by linarith), if_pos h1]; ring
  · rw [if_pos (by linarith), if_neg (by linarith)]; ring

theorem phiPlaneDist1 (hd : S1 a d.x d.y < 0) : phiPlaneDist (of a).a1x (of a).a1y p d = S1 a p.x p.y / (-S1 a d.x d.y + kTiny) := by
  unfold phiPlaneDist
  have e1 : (of a).a1y * p.x - (of a).a1x * p.y = -S1 a p.x p.y := by simp only [of_a1x, of_a1y, S1]; ring
  have e2 : d.y * (of a).a1x - d.x * (of a).a1y = S1 a d.x d.y := by simp only [of_a1x, of_a1y, S1]; ring
  rw [e1, e2]
  unfold nonZero copySign
  rw [if_pos hd, ← neg_div_neg_eq]
  congr 1 <;> ring

theorem phiPlaneDist2 (hd : S2 a d.x d.y < 0) : phiPlaneDist (of a).a2x (of a).a2y p d = S2 a p.x p.y / (-S2 a d.x d.y + kTiny) := by
  unfold phiPlaneDist
  have e1 : (of a).a2y * p.x - (of a).a2x * p.y = S2 a p.x p.y := by simp only [of_a2x, of_a2y, S2]; ring
  have e2 : d.y * (of a).a2x - d.x * (of a).a2y = -S2 a d.x d.y := by simp only [of_a2x, of_a2y, S2]; ring
  rw [e1, e2]
  unfold nonZero copySign
  rw [if_neg (by linarith)]

theorem plane_root {s0 σ t : ℝ} (hσ : σ < 0) (ht : t = s0 / (-σ + kTiny)) : s0 + t * σ = kTiny * t := by
  have := kTiny_pos
  have hN : -σ + kTiny ≠ 0 := by linarith
  rw [eq_div_iff hN] at ht
  linarith

theorem n1_of (q : V3) : q.x * (of a).wedge.n1x + q.y * (of a).wedge.n1y = S1 a q.x q.y := by
  show q.x * -sin a.s + q.y * cos a.s = _; unfold S1; ring
theorem n2_of (q : V3) : q.x * (of a).wedge.n2x + q.y * (of a).wedge.n2y = S2 a q.x q.y := by
  show q.x * sin (a.s + a.d) + q.y * -cos (a.s + a.d) = _; unfold S2; ring

/-- The height over a phi plane and the position along it; `false` is the first plane. -/
noncomputable def SS (a : Par) (b : Bool) (x y : ℝ) : ℝ := if b then S2 a x y else S1 a x y
noncomputable def HH (a : Par) (b : Bool) (x y : ℝ) : ℝ :=
  if b then x * cos (a.s + a.d) + y * sin (a.s + a.d) else x * cos a.s + y * sin a.s

theorem SS_at (b : Bool) (t : ℝ) : SS a b (V3.at' p d t).x (V3.at' p d t).y = SS a b p.x p.y + t * SS a b d.x d.y := by
  cases b
  · exact S1_at t
  · exact S2_at t

theorem HH_at (b : Bool) (t : ℝ) : HH a b (V3.at' p d t).x (V3.at' p d t).y = HH a b p.x p.y + t * HH a b d.x d.y := by
  unfold HH; split <;> simp only [V3.at_x, V3.at_y] <;> ring

theorem rad_SS_HH (b : Bool) (q : V3) : rad q ^ 2 = SS a b q.x q.y ^ 2 + HH a b q.x q.y ^ 2 := by
  rw [rad_sq]
  cases b
  · simp only [SS, HH, S1, Bool.false_eq_true, if_false]
    linear_combination -(q.x ^ 2 + q.y ^ 2) * sin_sq_add_cos_sq a.s
  · simp only [SS, HH, S2, if_true]
    linear_combination -(q.x ^ 2 + q.y ^ 2) * sin_sq_add_cos_sq (a.s + a.d)

theorem SS_not (b : Bool) (x y : ℝ) : SS a (!b) x y = HH a b x y * sin a.d - SS a b x y * cos a.d := by
  cases b
  · simp only [SS, HH, S1, S2, Bool.not_false, Bool.false_eq_true, if_false, if_true, sin_add, cos_add]
    linear_combination (x * sin a.s * cos a.d - y * cos a.s * cos a.d) * 0
  · simp only [SS, HH, S1, S2, Bool.not_true, Bool.false_eq_true, if_false, if_true, sin_add, cos_add]
    linear_combination (x * sin a.s - y * cos a.s) * sin_sq_add_cos_sq a.d

/-- The distance to a phi plane in `DistanceToOut`. -/
noncomputable def planeDist (a : Par) (b : Bool) (p d : V3) : ℝ := SS a b p.x p.y / (-SS a b d.x d.y + kTiny)

/-- The test of a phi plane in `DistanceToOut`. -/
def PlaneOk (a : Par) (positive b : Bool) (p d : V3) : Prop :=
  SS a b d.x d.y < 0 ∧ planeDist a b p d * |SS a b d.x d.y| > -kHalfTolerance ∧
  (positive = true → 0 ≤ HH a b (V3.at' p d (planeDist a b p d)).x (V3.at' p d (planeDist a b p d)).y)

theorem phiPlaneOk1 (positive : Bool) :
    PhiPlaneOk positive false (of a).a1x (of a).a1y (of a).wedge.n1x (of a).wedge.n1y (of a) p d ↔ PlaneOk a positive false p d := by
  unfold PhiPlaneOk PlaneOk
  simp only [Bool.false_eq_true, if_false, false_implies, true_and, n1_of, true_implies]
  have e : SS a false d.x d.y = S1 a d.x d.y := rfl
  rw [e]
  constructor
  · rintro ⟨h1, h2, h3⟩
    have : phiPlaneDist (of a).a1x (of a).a1y p d = planeDist a false p d := phiPlaneDist1 h1
    rw [this] at h2 h3
    refine ⟨h1, h2, fun hp => ?_⟩
    have := h3 hp
    simpa only [HH, Bool.false_eq_true, if_false, of_a1x, of_a1y, V3.at_x, V3.at_y, ge_iff_le] using this
  · rintro ⟨h1, h2, h3⟩
    have : phiPlaneDist (of a).a1x (of a).a1y p d = planeDist a false p d := phiPlaneDist1 h1
    rw [this]
    refine ⟨h1, h2, fun hp => ?_⟩
    have := h3 hp
    simpa only [HH, Bool.false_eq_true, if_false, of_a1x, of_a1y, V3.at_x, V3.at_y, ge_iff_le] using this

theorem phiPlaneOk2 (positive : Bool) :
    PhiPlaneOk positive false (of a).a2x (of a).a2y (of a).wedge.n2x (of a).wedge.n2y (of a) p d ↔ PlaneOk a positive true p d := by
  unfold PhiPlaneOk PlaneOk
  simp only [Bool.false_eq_true, if_false, false_implies, true_and, n2_of, true_implies]
  have e : SS a true d.x d.y = S2 a d.x d.y := rfl
  rw [e]
  constructor
  · rintro ⟨h1, h2, h3⟩
    have : phiPlaneDist (of a).a2x (of a).a2y p d = planeDist a true p d := phiPlaneDist2 h1
    rw [this] at h2 h3
    refine ⟨h1, h2, fun hp => ?_⟩
    have := h3 hp
    simpa only [HH, if_true, of_a2x, of_a2y, V3.at_x, V3.at_y, ge_iff_le] using this
  · rintro ⟨h1, h2, h3⟩
    have : phiPlaneDist (of a).a2x (of a).a2y p d = planeDist a true p d := phiPlaneDist2 h1
    rw [this]
    refine ⟨h1, h2, fun hp => ?_⟩
    have := h3 hp
    simpa only [HH, if_true, of_a2x, of_a2y, V3.at_x, V3.at_y, ge_iff_le] using this

theorem takeLess_congr {ok ok' : Prop} {x x' s : ℝ} (h : ok ↔ ok') (hx : ok → x = x') : takeLess ok x s = takeLess ok' x' s := by
  unfold takeLess
  by_cases hk : ok
  · rw [hx hk]
    have := h.mp hk
    simp only [hk, this]
  · have hn : ¬ ok' := fun hh => hk (h.mpr hh)
    simp only [hk, hn, false_and, if_false]

/-- The distance to a plane is right up to the guard. -/
theorem planeDist_spec (b : Bool) (h : SS a b d.x d.y < 0) :
    SS a b (V3.at' p d (planeDist a b p d)).x (V3.at' p d (planeDist a b p d)).y = kTiny * planeDist a b p d := by
  rw [SS_at]
  exact plane_root h rfl

/-- A plane that is crossed before `t` stops a line that is in front of it, unless the line is too close to the axis. -/
theorem plane_stops {positive b : Bool} {D t : ℝ} (hD : PlaneOk a positive b p d → D ≤ planeDist a b p d) (htD : t ≤ D)
    (h0 : 0 ≤ SS a b p.x p.y) (h1 : SS a b (V3.at' p d t).x (V3.at' p d t).y < 0) (ht : 0 ≤ t)
    (hpos : positive = true → ∃ u, 0 ≤ u ∧ u ≤ t ∧ SS a b (V3.at' p d u).x (V3.at' p d u).y = 0 ∧
      0 ≤ HH a b (V3.at' p d u).x (V3.at' p d u).y ∧ ∀ w, 0 ≤ w → w ≤ u → kTiny * w < rad (V3.at' p d w)) : False := by
  have he := kTiny_pos
  have hh := kHalfTolerance_pos
  rw [SS_at] at h1
  have hs : SS a b d.x d.y < 0 := by
    by_contra hc
    push Not at hc
    nlinarith
  have hd0 : 0 ≤ planeDist a b p d := div_nonneg h0 (by linarith)
  have hr := planeDist_spec (a := a) (p := p) b hs
  rw [SS_at] at hr
  have ok : PlaneOk a positive b p d := by
    refine ⟨hs, by nlinarith [mul_nonneg hd0 (abs_nonneg (SS a b d.x d.y))], fun hp => ?_⟩
    obtain ⟨u, hu0, hut, hu1, hu2, hc⟩ := hpos hp
    rw [SS_at] at hu1
    have hdu : planeDist a b p d ≤ u := by
      by_contra hc'
      push Not at hc'
      nlinarith [mul_nonneg he.le hd0]
    by_contra hneg
    push Not at hneg
    rw [HH_at] at hneg hu2
    -- the line passes the axis between the guarded and the true root
    have hk : 0 < HH a b d.x d.y := by
      by_contra hk
      push Not at hk
      nlinarith
    let w := -HH a b p.x p.y / HH a b d.x d.y
    have hw : HH a b p.x p.y + w * HH a b d.x d.y = 0 := by simp only [w]; field_simp; ring
    have hw1 : planeDist a b p d ≤ w := by
      by_contra hc'; push Not at hc'; nlinarith
    have hw2 : w ≤ u := by
      by_contra hc'; push Not at hc'; nlinarith
    have hcl := hc w (hd0.trans hw1) hw2
    have hrad := rad_SS_HH (a := a) b (V3.at' p d w)
    rw [HH_at, hw, SS_at] at hrad
    have hS0 : 0 ≤ SS a b p.x p.y + w * SS a b d.x d.y := by nlinarith
    have hS1 : SS a b p.x p.y + w * SS a b d.x d.y ≤ kTiny * w := by nlinarith
    have hw0 : 0 ≤ kTiny * w := mul_nonneg he.le (hd0.trans hw1)
    nlinarith [rad_nonneg (V3.at' p d w)]
  have := htD.trans (hD ok)
  nlinarith [mul_nonneg he.le hd0]

end Tube
end VecGeom
