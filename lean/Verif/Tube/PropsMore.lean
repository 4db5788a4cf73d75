import Verif.Tube.Props

/-!
# Extent, sampled points, convexity, setters and normals of tubes
-/

namespace VecGeom
namespace Tube

open Real

variable {a : Par} {ty : TType}

/-! ## Extent -/

/-- The cosine takes its maximum over an interval within one turn at an end. -/
theorem cos_le_max {α β x : ℝ} (h0 : 0 ≤ α) (h1 : α ≤ x) (h2 : x ≤ β) (h3 : β ≤ 2 * π) : cos x ≤ max (cos α) (cos β) := by
  rcases le_total x π with h | h
  · exact le_max_of_le_left (cos_le_cos_of_nonneg_of_le_pi h0 h h1)
  · have := cos_le_cos_of_nonneg_of_le_pi (x := 2 * π - β) (y := 2 * π - x) (by linarith) (by linarith) (by linarith)
    rw [cos_two_pi_sub, cos_two_pi_sub] at this
    exact le_max_of_le_right this

/-- A direction that is not in a sector has an angle beyond the opening. -/
theorem not_sector_angle {s d x y : ℝ} (hd : 0 < d) (hxy : x ^ 2 + y ^ 2 = 1) (h : ¬ Sector s d x y) :
    ∃ τ, d < τ ∧ τ < 2 * π ∧ x = cos (s + τ) ∧ y = sin (s + τ) := by
  have hs := sin_sq_add_cos_sq s
  obtain ⟨r, τ, hr, h0, h1, hx, hy⟩ := polar (x * cos s + y * sin s) (-x * sin s + y * cos s)
  have hr1 : r = 1 := by
    have h2 := sin_sq_add_cos_sq τ
    have : r ^ 2 = 1 := by
      calc r ^ 2 = (r * cos τ) ^ 2 + (r * sin τ) ^ 2 := by linear_combination -r ^ 2 * h2
        _ = (x ^ 2 + y ^ 2) * (sin s ^ 2 + cos s ^ 2) := by rw [← hx, ← hy]; ring
        _ = 1 := by rw [hxy, hs]; ring
    nlinarith
  rw [hr1, one_mul] at hx hy
  have ex : x = cos (s + τ) := by rw [cos_add, ← hx, ← hy]; linear_combination -x * hs
  have ey : y = sin (s + τ) := by rw [sin_add, ← hx, ← hy]; linear_combination -y * hs
  refine ⟨τ, ?_, h1, ex, ey⟩
  by_contra hc
  push Not at hc
  exact h ⟨1, τ, by norm_num, h0, hc, by rw [one_mul]; exact ex, by rw [one_mul]; exact ey⟩

/-- The points of a tube in cylindrical coordinates. -/
theorem closed_iff (hv : a.Valid) (p : V3) : a.Closed p ↔ ∃ r t, a.rmin ≤ r ∧ r ≤ a.rmax ∧ 0 ≤ t ∧ t ≤ a.d ∧ |p.z| ≤ a.z ∧
    p.x = r * cos (a.s + t) ∧ p.y = r * sin (a.s + t) := by
  have key : ∀ r t, 0 ≤ r → p.x = r * cos (a.s + t) → p.y = r * sin (a.s + t) → rad p = r := by
    intro r t hr hx hy
    unfold rad
    rw [hx, hy, show (r * cos (a.s + t)) ^ 2 + (r * sin (a.s + t)) ^ 2 = r ^ 2 * (sin (a.s + t) ^ 2 + cos (a.s + t) ^ 2) by ring,
      sin_sq_add_cos_sq, mul_one, sqrt_sq hr]
  constructor
  · rintro ⟨hz, hlo, hhi, r, t, hr, h0, h1, hx, hy⟩
    have := key r t hr hx hy
    exact ⟨r, t, by linarith, by linarith, h0, h1, hz, hx, hy⟩
  · rintro ⟨r, t, hlo, hhi, h0, h1, hz, hx, hy⟩
    have hr := hv.rmin.trans hlo
    have := key r t hr hx hy
    exact ⟨hz, by linarith, by linarith, r, t, hr, h0, h1, hx, hy⟩

theorem closed_mk (hv : a.Valid) {r t : ℝ} (h1 : a.rmin ≤ r) (h2 : r ≤ a.rmax) (h3 : 0 ≤ t) (h4 : t ≤ a.d) :
    a.Closed ⟨r * cos (a.s + t), r * sin (a.s + t), 0⟩ :=
  (closed_iff hv _).mpr ⟨r, t, h1, h2, h3, h4, by simp [hv.z.le], rfl, rfl⟩

/-- One side of the box is the largest coordinate in its direction. -/
theorem side_greatest (hv : a.Valid) {ex ey : ℝ} (he : ex ^ 2 + ey ^ 2 = 1) {out : Bool} (ho : out = true ↔ ¬ Sector a.s a.d ex ey) :
    IsGreatest ((fun p : V3 => p.x * ex + p.y * ey) '' {p | a.Closed p})
      (extentSide max (of a) out a.rmax (a.rmin * (cos a.s * ex + sin a.s * ey)) (a.rmin * (cos (a.s + a.d) * ex + sin (a.s + a.d) * ey))
        (a.rmax * (cos a.s * ex + sin a.s * ey)) (a.rmax * (cos (a.s + a.d) * ex + sin (a.s + a.d) * ey))) := by
  have hm0 : 0 < a.rmax := hv.rmin.trans_lt hv.rmax
  have hpi := pi_pos
  have hcs : ∀ t, cos t * ex + sin t * ey ≤ 1 := by
    intro t
    have := sin_sq_add_cos_sq t
    nlinarith [sq_nonneg (cos t - ex), sq_nonneg (sin t - ey)]
  -- corners
  have cor : ∀ r t, a.rmin ≤ r → r ≤ a.rmax → 0 ≤ t → t ≤ a.d →
      r * (cos (a.s + t) * ex + sin (a.s + t) * ey) ∈ (fun p : V3 => p.x * ex + p.y * ey) '' {p | a.Closed p} := by
    intro r t h1 h2 h3 h4
    exact ⟨_, closed_mk hv h1 h2 h3 h4, by simp only; ring⟩
  have c1 := cor a.rmin 0 (le_refl _) hv.rmax.le (le_refl _) hv.d.le
  have c2 := cor a.rmin a.d (le_refl _) hv.rmax.le hv.d.le (le_refl _)
  have c3 := cor a.rmax 0 hv.rmax.le (le_refl _) (le_refl _) hv.d.le
  have c4 := cor a.rmax a.d hv.rmax.le (le_refl _) hv.d.le (le_refl _)
  rw [add_zero] at c1 c3
  have upper : ∀ p, a.Closed p → ∃ r t, a.rmin ≤ r ∧ r ≤ a.rmax ∧ 0 ≤ t ∧ t ≤ a.d ∧
      p.x * ex + p.y * ey = r * (cos (a.s + t) * ex + sin (a.s + t) * ey) := by
    intro p hp
    obtain ⟨r, t, h1, h2, h3, h4, -, hx, hy⟩ := (closed_iff hv p).mp hp
    exact ⟨r, t, h1, h2, h3, h4, by rw [hx, hy]; ring⟩
  have full : Sector a.s a.d ex ey → IsGreatest ((fun p : V3 => p.x * ex + p.y * ey) '' {p | a.Closed p}) a.rmax := by
    rintro ⟨r, t, hr, h3, h4, hx, hy⟩
    have hr1 : r = 1 := by
      have h2 := sin_sq_add_cos_sq (a.s + t)
      have : r ^ 2 = 1 := by rw [← he, hx, hy]; linear_combination -r ^ 2 * h2
      nlinarith
    rw [hr1, one_mul] at hx hy
    constructor
    · have := cor a.rmax t hv.rmax.le (le_refl _) h3 h4
      rw [← hx, ← hy] at this
      rwa [show a.rmax * (ex * ex + ey * ey) = a.rmax by linear_combination a.rmax * he] at this
    · rintro _ ⟨p, hp, rfl⟩
      obtain ⟨r, t, h1, h2, -, -, e⟩ := upper p hp
      simp only [e]
      have := hcs (a.s + t)
      nlinarith [hv.rmin]
  unfold extentSide
  dsimp only
  rw [of_dphi]
  split
  · rename_i h
    apply full
    rw [h]; exact sector_full _ _ _
  · cases hout : out
    · have hs : Sector a.s a.d ex ey := by
        by_contra hc
        rw [← ho, hout] at hc
        simp at hc
      have hf := full hs
      simp only [Bool.false_eq_true, if_false]
      split
      · exact hf
      · rwa [max_eq_right (max_le (hf.2 c1) (hf.2 c2))]
    · have hns := ho.mp hout
      obtain ⟨τ, hτ1, hτ2, hx, hy⟩ := not_sector_angle hv.d he hns
      have hcos : ∀ t, cos (a.s + t) * ex + sin (a.s + t) * ey = cos (τ - t) := by
        intro t
        rw [hx, hy, show τ - t = (a.s + τ) - (a.s + t) by ring, cos_sub]; ring
      have e0 := hcos 0
      rw [add_zero, sub_zero] at e0
      have ed := hcos a.d
      have hbound : ∀ t, 0 ≤ t → t ≤ a.d → cos (τ - t) ≤ max (cos τ) (cos (τ - a.d)) := by
        intro t h0 h1
        rw [max_comm]
        exact cos_le_max (by linarith) (by linarith) (by linarith) hτ2.le
      simp only [if_true]
      rw [e0, ed]
      rw [e0] at c1 c3
      rw [ed] at c2 c4
      split
      · rename_i hd
        have hnn : 0 ≤ max (cos τ) (cos (τ - a.d)) := by
          rcases le_total (3 * π / 2) τ with h | h
          · apply le_max_of_le_left
            rw [← cos_two_pi_sub]
            exact cos_nonneg_of_neg_pi_div_two_le_of_le (by linarith) (by linarith)
          · apply le_max_of_le_right
            exact cos_nonneg_of_neg_pi_div_two_le_of_le (by linarith) (by linarith)
        constructor
        · rcases max_choice (a.rmax * cos τ) (a.rmax * cos (τ - a.d)) with h | h <;> rw [h] <;> assumption
        · rintro _ ⟨p, hp, rfl⟩
          obtain ⟨r, t, h1, h2, h3, h4, e⟩ := upper p hp
          simp only [e, hcos]
          rw [← mul_max_of_nonneg _ _ hm0.le]
          have := hbound t h3 h4
          have hr := hv.rmin.trans h1
          exact (mul_le_mul_of_nonneg_left this hr).trans (mul_le_mul_of_nonneg_right h2 hnn)
      · constructor
        · rcases max_choice (max (a.rmin * cos τ) (a.rmin * cos (τ - a.d))) (max (a.rmax * cos τ) (a.rmax * cos (τ - a.d))) with h | h <;> rw [h]
          · rcases max_choice (a.rmin * cos τ) (a.rmin * cos (τ - a.d)) with h | h <;> rw [h] <;> assumption
          · rcases max_choice (a.rmax * cos τ) (a.rmax * cos (τ - a.d)) with h | h <;> rw [h] <;> assumption
        · rintro _ ⟨p, hp, rfl⟩
          obtain ⟨r, t, h1, h2, h3, h4, e⟩ := upper p hp
          simp only [e, hcos]
          rw [← mul_max_of_nonneg _ _ hm0.le, ← mul_max_of_nonneg _ _ hv.rmin]
          have := hbound t h3 h4
          have hr := hv.rmin.trans h1
          generalize max (cos τ) (cos (τ - a.d)) = m at *
          have h5 := mul_le_mul_of_nonneg_left this hr
          rcases le_total 0 m with h | h
          · exact le_max_of_le_right (h5.trans (mul_le_mul_of_nonneg_right h2 h))
          · exact le_max_of_le_left (h5.trans (mul_le_mul_of_nonpos_right h1 h))

theorem extentSide_neg (t : Struct) (out : Bool) (R x y z w : ℝ) :
    extentSide min t out (-R) (-x) (-y) (-z) (-w) = -extentSide max t out R x y z w := by
  unfold extentSide
  cases out <;> simp only [Bool.false_eq_true, if_false, if_true, max_neg_neg, min_neg_neg] <;> split_ifs <;> simp [min_neg_neg]

theorem sector_scale {s d x y k : ℝ} (hk : 0 < k) : Sector s d (k * x) (k * y) ↔ Sector s d x y := by
  constructor
  · rintro ⟨r, t, hr, h0, h1, hx, hy⟩
    refine ⟨r / k, t, by positivity, h0, h1, ?_, ?_⟩ <;> field_simp <;> linarith
  · rintro ⟨r, t, hr, h0, h1, hx, hy⟩
    exact ⟨k * r, t, by positivity, h0, h1, by rw [hx]; ring, by rw [hy]; ring⟩

/-- A box side with the tests of the wedge replaced. -/
theorem out_sector' (hv : a.Valid) {k : ℝ} (hk : 0 < k) (ex ey x y : ℝ) (hx : x = k * ex) (hy : y = k * ey) :
    (!(of a).wedge.contains ⟨x, y, 0⟩) = true ↔ ¬ Sector a.s a.d ex ey := by
  have hw : (of a).wedge = Wedge.make a.d a.s := rfl
  rw [Bool.not_eq_true', ← Bool.not_eq_true, hw, C76_contains hv.d hv.d', hx, hy, sector_scale hk]

/-- The sides of `extent`, whichever way it returns. -/
theorem extent_eq (hv : a.Valid) (i : Fin 4) :
    let k := 1 / 2 * (a.rmax + a.rmin)
    let out (x y : ℝ) : Bool := !(of a).wedge.contains ⟨x, y, 0⟩
    let S (ex ey : ℝ) (o : Bool) : ℝ := extentSide max (of a) o a.rmax (a.rmin * (cos a.s * ex + sin a.s * ey)) (a.rmin * (cos (a.s + a.d) * ex + sin (a.s + a.d) * ey))
        (a.rmax * (cos a.s * ex + sin a.s * ey)) (a.rmax * (cos (a.s + a.d) * ex + sin (a.s + a.d) * ey))
    match i with
    | 0 => (extent (of a)).2.x = S 1 0 (out k 0)
    | 1 => (extent (of a)).2.y = S 0 1 (out 0 k)
    | 2 => (extent (of a)).1.x = -S (-1) 0 (out (-k) 0)
    | 3 => (extent (of a)).1.y = -S 0 (-1) (out 0 (-k)) := by
  intro k out S
  have hm0 : 0 < a.rmax := hv.rmin.trans_lt hv.rmax
  have hk : 0 < k := by simp only [k]; linarith [hv.rmin]
  have hfull : ∀ ex ey o, ex ^ 2 + ey ^ 2 = 1 → (o = true ↔ ¬ Sector a.s a.d ex ey) → (a.d = 2 * π ∨ o = false) → S ex ey o = a.rmax := by
    intro ex ey o he ho h
    have hs : Sector a.s a.d ex ey := by
      rcases h with h | h
      · rw [h]; exact sector_full _ _ _
      · by_contra hc
        rw [← ho, h] at hc
        simp at hc
    have g1 := side_greatest hv he ho
    have ho' : (false = true ↔ ¬ Sector a.s a.d ex ey) := by simp [hs]
    have hcs : ∀ t, cos t * ex + sin t * ey ≤ 1 := by
      intro t
      have := sin_sq_add_cos_sq t
      nlinarith [sq_nonneg (cos t - ex), sq_nonneg (sin t - ey)]
    have g2 : IsGreatest ((fun p : V3 => p.x * ex + p.y * ey) '' {p | a.Closed p}) a.rmax := by
      obtain ⟨r, t, hr, h3, h4, hx, hy⟩ := hs
      have hr1 : r = 1 := by
        have h2 := sin_sq_add_cos_sq (a.s + t)
        have : r ^ 2 = 1 := by rw [← he, hx, hy]; linear_combination -r ^ 2 * h2
        nlinarith
      rw [hr1, one_mul] at hx hy
      constructor
      · refine ⟨_, closed_mk hv hv.rmax.le (le_refl _) h3 h4, ?_⟩
        simp only [← hx, ← hy]
        linear_combination a.rmax * he
      · rintro _ ⟨p, hp, rfl⟩
        obtain ⟨r, t, h1, h2, -, -, -, hx, hy⟩ := (closed_iff hv p).mp hp
        simp only [hx, hy]
        have := hcs (a.s + t)
        nlinarith [hv.rmin]
    exact g1.unique g2
  have o0 := out_sector' hv hk 1 0 k 0 (by ring) (by ring)
  have o1 := out_sector' hv hk 0 1 0 k (by ring) (by ring)
  have o2 := out_sector' hv hk (-1) 0 (-k) 0 (by ring) (by ring)
  have o3 := out_sector' hv hk 0 (-1) 0 (-k) (by ring) (by ring)
  have er : (of a).rmin = a.rmin := of_rmin hv.rmin
  have hkk : 1 / 2 * ((of a).rmax + (of a).rmin) = k := by rw [er]; rfl
  unfold extent
  dsimp only
  rw [hkk]
  by_cases hall : (of a).dphi = 2 * π ∨ ¬ ((!(of a).wedge.contains ⟨k, 0, 0⟩) = true ∨ (!(of a).wedge.contains ⟨0, k, 0⟩) = true ∨
      (!(of a).wedge.contains ⟨-k, 0, 0⟩) = true ∨ (!(of a).wedge.contains ⟨0, -k, 0⟩) = true)
  · rw [if_pos hall]
    have hz : ∀ x y, ((x = k ∧ y = 0) ∨ (x = 0 ∧ y = k) ∨ (x = -k ∧ y = 0) ∨ (x = 0 ∧ y = -k)) → (a.d = 2 * π ∨ out x y = false) := by
      intro x y h
      rcases hall with h1 | h1
      · exact .inl h1
      · right
        simp only [not_or, Bool.not_eq_true] at h1
        rcases h with ⟨rfl, rfl⟩ | ⟨rfl, rfl⟩ | ⟨rfl, rfl⟩ | ⟨rfl, rfl⟩
        · exact h1.1
        · exact h1.2.1
        · exact h1.2.2.1
        · exact h1.2.2.2
    fin_cases i
    · exact (hfull 1 0 _ (by norm_num) o0 (hz _ _ (by simp))).symm
    · exact (hfull 0 1 _ (by norm_num) o1 (hz _ _ (by simp))).symm
    · exact congrArg Neg.neg (hfull (-1) 0 _ (by norm_num) o2 (hz _ _ (by simp))).symm
    · exact congrArg Neg.neg (hfull 0 (-1) _ (by norm_num) o3 (hz _ _ (by simp))).symm
  · rw [if_neg hall]
    rw [er]
    fin_cases i <;> dsimp only [S, out] <;> try rw [← extentSide_neg]
    all_goals simp only [mul_one, mul_zero, add_zero, zero_add, mul_neg, neg_neg, neg_zero]
    all_goals rfl

/-- C81: `Extent` returns the smallest box around the tube: every side is the extreme coordinate of a point of the tube. -/
theorem C81_extent (hv : a.Valid) :
    IsLeast (V3.x '' {p | a.Closed p}) (extent (of a)).1.x ∧ IsGreatest (V3.x '' {p | a.Closed p}) (extent (of a)).2.x ∧
    IsLeast (V3.y '' {p | a.Closed p}) (extent (of a)).1.y ∧ IsGreatest (V3.y '' {p | a.Closed p}) (extent (of a)).2.y ∧
    IsLeast (V3.z '' {p | a.Closed p}) (extent (of a)).1.z ∧ IsGreatest (V3.z '' {p | a.Closed p}) (extent (of a)).2.z := by
  have hm0 : 0 < a.rmax := hv.rmin.trans_lt hv.rmax
  have hk : 0 < 1 / 2 * (a.rmax + a.rmin) := by linarith [hv.rmin]
  have neg : ∀ (f : V3 → ℝ) (x : ℝ), IsGreatest ((fun p => -f p) '' {p | a.Closed p}) x → IsLeast (f '' {p | a.Closed p}) (-x) := by
    rintro f x ⟨⟨p, hp, rfl⟩, h⟩
    refine ⟨⟨p, hp, by simp⟩, ?_⟩
    rintro _ ⟨q, hq, rfl⟩
    have := h ⟨q, hq, rfl⟩
    linarith
  have hzz : (extent (of a)).1.z = -a.z ∧ (extent (of a)).2.z = a.z := by
    unfold extent; dsimp only; split <;> exact ⟨rfl, rfl⟩
  obtain ⟨q, hq⟩ : ∃ q, a.Closed q := ⟨_, closed_mk hv (le_refl _) hv.rmax.le (le_refl _) hv.d.le⟩
  refine ⟨?_, ?_, ?_, ?_, ?_, ?_⟩
  · rw [extent_eq hv 2]
    apply neg
    have := side_greatest hv (by norm_num) (out_sector' hv hk (-1) 0 (-(1 / 2 * (a.rmax + a.rmin))) 0 (by ring) (by ring))
    simpa only [mul_neg, mul_one, mul_zero, add_zero] using this
  · rw [extent_eq hv 0]
    have := side_greatest hv (by norm_num) (out_sector' hv hk 1 0 (1 / 2 * (a.rmax + a.rmin)) 0 (by ring) (by ring))
    simpa only [mul_neg, mul_one, mul_zero, add_zero] using this
  · rw [extent_eq hv 3]
    apply neg
    have := side_greatest hv (by norm_num) (out_sector' hv hk 0 (-1) 0 (-(1 / 2 * (a.rmax + a.rmin))) (by ring) (by ring))
    simpa only [mul_neg, mul_one, mul_zero, zero_add] using this
  · rw [extent_eq hv 1]
    have := side_greatest hv (by norm_num) (out_sector' hv hk 0 1 0 (1 / 2 * (a.rmax + a.rmin)) (by ring) (by ring))
    simpa only [mul_neg, mul_one, mul_zero, zero_add] using this
  · rw [hzz.1]
    refine ⟨⟨⟨q.x, q.y, -a.z⟩, ⟨by simp [abs_of_pos hv.z], hq.lo, hq.hi, hq.phi⟩, rfl⟩, ?_⟩
    rintro _ ⟨p, hp, rfl⟩
    linarith [neg_abs_le p.z, hp.z]
  · rw [hzz.2]
    refine ⟨⟨⟨q.x, q.y, a.z⟩, ⟨by simp [abs_of_pos hv.z], hq.lo, hq.hi, hq.phi⟩, rfl⟩, ?_⟩
    rintro _ ⟨p, hp, rfl⟩
    linarith [le_abs_self p.z, hp.z]

example : (extent (of quarter)).2.x = 2 ∧ (extent (of quarter)).1.x = 0 := by
  have hp := pi_pos
  have h := C81_extent quarter_valid
  constructor
  · refine h.2.1.unique ⟨⟨⟨2, 0, 0⟩, ?_, rfl⟩, ?_⟩
    · refine (closed_iff quarter_valid _).mpr ⟨2, 0, by norm_num [quarter], by norm_num [quarter], le_refl _, by simp only [quarter]; linarith, by norm_num [quarter], by simp [quarter], by simp [quarter]⟩
    · rintro _ ⟨p, hp, rfl⟩
      have h1 : rad p ≤ 2 := hp.hi
      rw [rad_le (by norm_num)] at h1
      nlinarith [sq_nonneg p.y, sq_nonneg (p.x - 2)]
  · refine h.1.unique ⟨⟨⟨0, 2, 0⟩, ?_, rfl⟩, ?_⟩
    · refine (closed_iff quarter_valid _).mpr ⟨2, π / 2, by norm_num [quarter], by norm_num [quarter], by linarith, by simp only [quarter]; linarith, by norm_num [quarter], by simp [quarter], by simp [quarter]⟩
    · rintro _ ⟨p, hq, rfl⟩
      have h1 := hq.phi
      rw [show quarter.s = 0 from rfl, show quarter.d = π / 2 from rfl, sector_small (by linarith) (by linarith)] at h1
      simpa using h1.2

/-! ## Sampled points -/

theorem chooseLoop_some (l : List ℝ) (r : ℝ) (c : Nat) (h0 : 0 < r) (h1 : r ≤ l.sum) :
    ∃ k, chooseLoop l r c = some (c + k) ∧ ∃ s, l[k]? = some s ∧ 0 < s := by
  induction l generalizing r c with
  | nil => simp at h1; linarith
  | cons s rest ih =>
    unfold chooseLoop
    split
    · rename_i h
      rw [List.sum_cons] at h1
      obtain ⟨k, hk, x, hx, hx0⟩ := ih (r - s) (c + 1) (by linarith) (by linarith)
      exact ⟨k + 1, by rw [hk]; congr 1; omega, x, by simpa using hx, hx0⟩
    · rename_i h
      exact ⟨0, rfl, s, rfl, by linarith⟩

theorem areas_eq (hv : a.Valid) : areas (of a) = [1 / 2 * (2 * (1 / 2) * (a.rmax * a.rmax - a.rmin * a.rmin) * a.d),
    1 / 2 * (2 * (1 / 2) * (a.rmax * a.rmax - a.rmin * a.rmin) * a.d), 1 / 2 * phiArea (of a), 1 / 2 * phiArea (of a),
    2 * a.z * a.rmin * a.d, 2 * a.z * a.rmax * a.d] := by
  unfold areas topArea rInArea rOutArea
  simp only [of_rmin2 hv.rmin, of_rmin hv.rmin]
  rfl

/-- The chosen surface exists and has a positive area. -/
theorem choose_some (hv : a.Valid) {u : ℝ} (h0 : 0 ≤ u) (h1 : u ≤ 1) :
    ∃ i, chooseSurface (of a) u = some i ∧ ∃ s, (areas (of a))[i]? = some s ∧ 0 < s := by
  have hm0 : 0 < a.rmax := hv.rmin.trans_lt hv.rmax
  have hpa : 0 ≤ phiArea (of a) := by
    unfold phiArea
    split
    · rw [of_rmin hv.rmin]
      have : 0 ≤ 4 * a.z * (a.rmax - a.rmin) := by have := hv.z; have := hv.rmax; nlinarith
      exact this
    · exact le_refl _
  have htop : 0 < 1 / 2 * (2 * (1 / 2) * (a.rmax * a.rmax - a.rmin * a.rmin) * a.d) := by
    have h2 : 0 < a.rmax * a.rmax - a.rmin * a.rmin := by nlinarith [hv.rmin, hv.rmax]
    have := mul_pos h2 hv.d
    linarith
  have hin : 0 ≤ 2 * a.z * a.rmin * a.d := by have := hv.z; have := hv.rmin; have := hv.d; positivity
  have hout : 0 < 2 * a.z * a.rmax * a.d := by have := hv.z; have := hv.d; positivity
  have hsum : 0 < (areas (of a)).sum := by
    rw [areas_eq hv]
    simp only [List.sum_cons, List.sum_nil]
    linarith
  unfold chooseSurface
  rcases (mul_nonneg h0 hsum.le).lt_or_eq with h | h
  · obtain ⟨k, hk, hs⟩ := chooseLoop_some (areas (of a)) _ 0 h (by nlinarith)
    rw [Nat.zero_add] at hk
    exact ⟨k, hk, hs⟩
  · rw [← h]
    refine ⟨0, ?_, _, by rw [areas_eq hv]; rfl, htop⟩
    rw [areas_eq hv]
    unfold chooseLoop
    rw [if_neg (by linarith)]

theorem uniform_mem {x y u : ℝ} (h : x ≤ y) (h0 : 0 ≤ u) (h1 : u ≤ 1) : x ≤ uniform x y u ∧ uniform x y u ≤ y := by
  unfold uniform
  constructor <;> nlinarith

/-- The point is in the tube and on one of its bounding surfaces. -/
structure OnSurface (a : Par) (q : V3) : Prop where
  closed : a.Closed q
  on : |q.z| = a.z ∨ rad q = a.rmax ∨ (0 < a.rmin ∧ rad q = a.rmin) ∨ (a.d < 2 * π ∧ (AboveRay a.s 0 q.x q.y ∨ AboveRay (a.s + a.d) 0 q.x q.y))

/-- C81: whatever random numbers are drawn, `SamplePointOnSurface` ends, reads no area behind the array and returns a point of
the surface. -/
theorem C81_sample (hv : a.Valid) {u0 u1 u2 u3 u4 : ℝ} (h0 : 0 ≤ u0 ∧ u0 ≤ 1) (h1 : 0 ≤ u1 ∧ u1 ≤ 1) (h2 : 0 ≤ u2 ∧ u2 ≤ 1)
    (h3 : 0 ≤ u3 ∧ u3 ≤ 1) (h4 : 0 ≤ u4 ∧ u4 ≤ 1) :
    ∃ q, samplePointOnSurface (of a) u0 u1 u2 u3 u4 = some q ∧ OnSurface a q := by
  have hm0 : 0 < a.rmax := hv.rmin.trans_lt hv.rmax
  obtain ⟨i, hi, s, hs, hs0⟩ := choose_some hv h0.1 h0.2
  unfold samplePointOnSurface
  rw [hi]
  simp only [of_rmin hv.rmin]
  have er : (of a).rmax = a.rmax := rfl
  have es : (of a).sphi = a.s := rfl
  have ed : (of a).dphi = a.d := rfl
  have ez : (of a).z = a.z := rfl
  simp only [er, es, ed, ez]
  have hr := uniform_mem hv.rmax.le h1.1 h1.2
  have hl2 := uniform_mem (show a.rmin * a.rmin ≤ a.rmax * a.rmax by nlinarith [hv.rmin, hv.rmax]) h4.1 h4.2
  have hl : a.rmin ≤ √(uniform (a.rmin * a.rmin) (a.rmax * a.rmax) u4) ∧ √(uniform (a.rmin * a.rmin) (a.rmax * a.rmax) u4) ≤ a.rmax := by
    constructor
    · apply le_sqrt_of_sq_le; rw [sq]; exact hl2.1
    · rw [sqrt_le_left hm0.le, sq]; exact hl2.2
  obtain ⟨t, ht0, ht1, ht⟩ : ∃ t, 0 ≤ t ∧ t ≤ a.d ∧ uniform a.s (a.s + a.d) u2 = a.s + t := by
    refine ⟨a.d * u2, mul_nonneg hv.d.le h2.1, by nlinarith [hv.d], by unfold uniform; ring⟩
  have hz : |u3 * 2 * a.z - a.z| ≤ a.z := by rw [abs_le]; constructor <;> nlinarith [hv.z, h3.1, h3.2]
  generalize uniform a.rmin a.rmax u1 = rv at *
  generalize √(uniform (a.rmin * a.rmin) (a.rmax * a.rmax) u4) = rl at *
  generalize u3 * 2 * a.z - a.z = zv at *
  rw [ht]
  have hrad : ∀ r φ z, 0 ≤ r → rad ⟨r * cos φ, r * sin φ, z⟩ = r := by
    intro r φ z hr
    unfold rad
    simp only
    rw [show (r * cos φ) ^ 2 + (r * sin φ) ^ 2 = r ^ 2 * (sin φ ^ 2 + cos φ ^ 2) by ring, sin_sq_add_cos_sq, mul_one, sqrt_sq hr]
  have mk : ∀ r τ z, a.rmin ≤ r → r ≤ a.rmax → 0 ≤ τ → τ ≤ a.d → |z| ≤ a.z → a.Closed ⟨r * cos (a.s + τ), r * sin (a.s + τ), z⟩ :=
    fun r τ z g1 g2 g3 g4 g5 => (closed_iff hv _).mpr ⟨r, τ, g1, g2, g3, g4, g5, rfl, rfl⟩
  have hphi : 0 < 1 / 2 * phiArea (of a) → a.d < 2 * π := by
    intro h
    unfold phiArea at h
    split at h
    · assumption
    · linarith
  have haz : |a.z| = a.z := abs_of_pos hv.z
  have hnz : |-a.z| = a.z := by rw [abs_neg, haz]
  rw [areas_eq hv] at hs
  match i, hs with
  | 0, hs => exact ⟨_, rfl, mk rl t _ hl.1 hl.2 ht0 ht1 haz.le, .inl haz⟩
  | 1, hs => exact ⟨_, rfl, mk rl t (-a.z) hl.1 hl.2 ht0 ht1 hnz.le, .inl hnz⟩
  | 2, hs =>
    simp only [List.getElem?_cons_succ, List.getElem?_cons_zero, Option.some.injEq] at hs
    have := mk rv 0 zv hr.1 hr.2 (le_refl _) hv.d.le hz
    rw [add_zero] at this
    exact ⟨_, rfl, this, .inr (.inr (.inr ⟨hphi (by rw [hs]; exact hs0), .inl ⟨rv, hv.rmin.trans hr.1, by ring, by ring⟩⟩))⟩
  | 3, hs =>
    simp only [List.getElem?_cons_succ, List.getElem?_cons_zero, Option.some.injEq] at hs
    exact ⟨_, rfl, mk rv a.d zv hr.1 hr.2 hv.d.le (le_refl _) hz, .inr (.inr (.inr ⟨hphi (by rw [hs]; exact hs0), .inr ⟨rv, hv.rmin.trans hr.1, by ring, by ring⟩⟩))⟩
  | 4, hs =>
    simp only [List.getElem?_cons_succ, List.getElem?_cons_zero, Option.some.injEq] at hs
    have hrm : 0 < a.rmin := by
      rcases hv.rmin.lt_or_eq with h | h
      · exact h
      · rw [← h] at hs; simp at hs; linarith
    exact ⟨_, rfl, mk a.rmin t zv (le_refl _) hv.rmax.le ht0 ht1 hz, .inr (.inr (.inl ⟨hrm, hrad _ _ _ hv.rmin⟩))⟩
  | 5, hs => exact ⟨_, rfl, mk a.rmax t zv hv.rmax.le (le_refl _) ht0 ht1 hz, .inr (.inl (hrad _ _ _ hm0.le))⟩
  | n + 6, hs => simp at hs

example : ∃ q, samplePointOnSurface (of quarter) 0 (1 / 2) (1 / 2) (1 / 2) (1 / 2) = some q ∧ OnSurface quarter q :=
  C81_sample quarter_valid (by norm_num) (by norm_num) (by norm_num) (by norm_num) (by norm_num)

/-! ## Convexity -/

/-- The point `t` of the way from `p` to `q`. -/
def between (p q : V3) (t : ℝ) : V3 := ⟨p.x + t * (q.x - p.x), p.y + t * (q.y - p.y), p.z + t * (q.z - p.z)⟩

/-- C81: the convexity flag is set exactly for tubes that are convex. -/
theorem C81_convex (hv : a.Valid) : detectConvexity (of a) = true ↔
    ∀ p q, a.Closed p → a.Closed q → ∀ t, 0 ≤ t → t ≤ 1 → a.Closed (between p q t) := by
  have hm0 : 0 < a.rmax := hv.rmin.trans_lt hv.rmax
  have hpi := pi_pos
  unfold detectConvexity
  rw [decide_eq_true_eq, of_rmin hv.rmin, of_dphi]
  constructor
  · rintro ⟨h0, hd⟩ p q hp hq t ht0 ht1
    refine ⟨?_, by rw [h0]; exact rad_nonneg _, ?_, ?_⟩
    · have h1 := abs_le.mp hp.z
      have h2 := abs_le.mp hq.z
      simp only [between, abs_le]
      constructor <;> nlinarith
    · have h1 := (rad_le hm0.le).mp hp.hi
      have h2 := (rad_le hm0.le).mp hq.hi
      rw [rad_le hm0.le]
      simp only [between]
      have h3 : p.x * q.x + p.y * q.y ≤ a.rmax ^ 2 := by nlinarith [sq_nonneg (p.x - q.x), sq_nonneg (p.y - q.y)]
      have e : (p.x + t * (q.x - p.x)) ^ 2 + (p.y + t * (q.y - p.y)) ^ 2 =
          (1 - t) ^ 2 * (p.x ^ 2 + p.y ^ 2) + t ^ 2 * (q.x ^ 2 + q.y ^ 2) + 2 * (t * (1 - t)) * (p.x * q.x + p.y * q.y) := by ring
      rw [e]
      have g1 := mul_le_mul_of_nonneg_left h1 (sq_nonneg (1 - t))
      have g2 := mul_le_mul_of_nonneg_left h2 (sq_nonneg t)
      have g3 := mul_le_mul_of_nonneg_left h3 (mul_nonneg ht0 (sub_nonneg.mpr ht1))
      linarith [show (1 - t) ^ 2 * a.rmax ^ 2 + t ^ 2 * a.rmax ^ 2 + 2 * (t * (1 - t) * a.rmax ^ 2) = a.rmax ^ 2 by ring]
    · rcases hd with hd | hd
      · have h1 := (sector_iff hv _ _).mp hp.phi
        have h2 := (sector_iff hv _ _).mp hq.phi
        rcases h1 with h1 | h1
        · rcases h2 with h2 | h2
          · rw [sector_iff hv]
            refine .inl ⟨hd, ?_, ?_⟩
            · have e : S1 a (between p q t).x (between p q t).y = (1 - t) * S1 a p.x p.y + t * S1 a q.x q.y := by
                simp only [between, S1]; ring
              rw [e]; exact add_nonneg (mul_nonneg (by linarith) h1.2.1) (mul_nonneg ht0 h2.2.1)
            · have e : S2 a (between p q t).x (between p q t).y = (1 - t) * S2 a p.x p.y + t * S2 a q.x q.y := by
                simp only [between, S2]; ring
              rw [e]; exact add_nonneg (mul_nonneg (by linarith) h1.2.2) (mul_nonneg ht0 h2.2.2)
          · linarith [h2.1]
        · linarith [h1.1]
      · rw [hd]; exact sector_full _ _ _
  · intro h
    -- a chord between two azimuths
    have mid : ∀ r t, a.rmin ≤ r → r ≤ a.rmax → 0 ≤ t → t ≤ a.d →
        a.Closed ⟨r * cos (t / 2) * cos (a.s + t / 2), r * cos (t / 2) * sin (a.s + t / 2), 0⟩ := by
      intro r t h1 h2 h3 h4
      have := h _ _ (closed_mk hv h1 h2 (le_refl _) hv.d.le) (closed_mk hv h1 h2 h3 h4) (1 / 2) (by norm_num) (by norm_num)
      convert this using 1
      have ex := cos_sub (a.s + t / 2) (t / 2)
      have ex' := cos_add (a.s + t / 2) (t / 2)
      have ey := sin_sub (a.s + t / 2) (t / 2)
      have ey' := sin_add (a.s + t / 2) (t / 2)
      rw [show a.s + t / 2 - t / 2 = a.s by ring] at ex ey
      rw [show a.s + t / 2 + t / 2 = a.s + t by ring] at ex' ey'
      simp only [between, V3.mk.injEq, add_zero]
      refine ⟨?_, ?_, by ring⟩
      · rw [ex, ex']; ring
      · rw [ey, ey']; ring
    have hr0 : a.rmin = 0 := by
      by_contra hne
      have hpos : 0 < a.rmin := lt_of_le_of_ne hv.rmin (Ne.symm hne)
      have ht0 : 0 < min a.d π := lt_min hv.d hpi
      have ht1 := min_le_left a.d π
      have ht2 := min_le_right a.d π
      generalize min a.d π = t at *
      have := (mid a.rmin t (le_refl _) hv.rmax.le ht0.le ht1).lo
      have hc0 : 0 ≤ cos (t / 2) := cos_nonneg_of_neg_pi_div_two_le_of_le (by linarith) (by linarith)
      have hc1 : cos (t / 2) < 1 := by
        have := cos_lt_cos_of_nonneg_of_le_pi (x := 0) (y := t / 2) (le_refl _) (by linarith) (by linarith)
        rwa [cos_zero] at this
      rw [le_rad hv.rmin] at this
      simp only at this
      have hs := sin_sq_add_cos_sq (a.s + t / 2)
      have e : (a.rmin * cos (t / 2) * cos (a.s + t / 2)) ^ 2 + (a.rmin * cos (t / 2) * sin (a.s + t / 2)) ^ 2 = a.rmin ^ 2 * cos (t / 2) ^ 2 := by
        linear_combination a.rmin ^ 2 * cos (t / 2) ^ 2 * hs
      rw [e] at this
      have h2 : 0 < a.rmin ^ 2 := by positivity
      have h3 : cos (t / 2) ^ 2 < 1 := by nlinarith
      have := mul_lt_mul_of_pos_left h3 h2
      linarith
    refine ⟨hr0, ?_⟩
    by_contra hc
    push Not at hc
    have hlt := lt_of_le_of_ne hv.d' hc.2
    have := (mid a.rmax a.d hv.rmax.le (le_refl _) hv.d.le (le_refl _)).phi
    rw [sector_iff hv] at this
    have hcn : cos (a.d / 2) < 0 := cos_neg_of_pi_div_two_lt_of_lt (by linarith [hc.1]) (by linarith)
    have hsp : 0 < sin (a.d / 2) := sin_pos_of_pos_of_lt_pi (by linarith [hv.d]) (by linarith)
    have hneg : a.rmax * cos (a.d / 2) * sin (a.d / 2) < 0 := mul_neg_of_neg_of_pos (mul_neg_of_pos_of_neg hm0 hcn) hsp
    have e1 : S1 a (a.rmax * cos (a.d / 2) * cos (a.s + a.d / 2)) (a.rmax * cos (a.d / 2) * sin (a.s + a.d / 2)) = a.rmax * cos (a.d / 2) * sin (a.d / 2) := by
      have := sin_sub (a.s + a.d / 2) a.s
      rw [show a.s + a.d / 2 - a.s = a.d / 2 by ring] at this
      unfold S1
      linear_combination -(a.rmax * cos (a.d / 2)) * this
    have e2 : S2 a (a.rmax * cos (a.d / 2) * cos (a.s + a.d / 2)) (a.rmax * cos (a.d / 2) * sin (a.s + a.d / 2)) = a.rmax * cos (a.d / 2) * sin (a.d / 2) := by
      have := sin_sub (a.s + a.d) (a.s + a.d / 2)
      rw [show a.s + a.d - (a.s + a.d / 2) = a.d / 2 by ring] at this
      unfold S2
      linear_combination -(a.rmax * cos (a.d / 2)) * this
    simp only [e1, e2] at this
    rcases this with h1 | ⟨-, h1 | h1⟩
    · linarith [hc.1, h1.1]
    · linarith
    · linarith

example : detectConvexity (of quarter) = false := by
  rw [← Bool.not_eq_true]
  unfold detectConvexity
  rw [decide_eq_true_eq, of_rmin (by norm_num [quarter])]
  rintro ⟨h, -⟩
  norm_num [quarter] at h

/-! ## Setters -/

/-- C83: the setters of the radii and of the half length leave a tube as the constructor makes it from the new values. -/
theorem C83_setters (hv : a.Valid) {x : ℝ} :
    (0 ≤ x → setRMin (of a) x = of { a with rmin := x }) ∧ setRMax (of a) x = of { a with rmax := x } ∧
    setDz (of a) x = of { a with z := x } := by
  refine ⟨fun h => ?_, rfl, rfl⟩
  unfold of setRMin make calculateCached updatedZ updatedRMin updatedRMax updatedAlong1 updatedAlong2
  simp only [not_lt.mpr h, if_false]

/-- The setters of the angles leave the phi wedge as it was: after `SetDPhi(3 pi / 2)` on a quarter tube, `Contains` still answers
for the quarter. -/
theorem C83_setters_counterexample :
    let t := setDPhi (of quarter) (3 * π / 2)
    t.sphi = 0 ∧ t.dphi = 3 * π / 2 ∧ contains universal t ⟨-1, 1, 0⟩ = false ∧ (Par.mk 1 2 3 0 (3 * π / 2)).Closed ⟨-1, 1, 0⟩ := by
  have hp := pi_pos
  have hk : kAngTolerance < 1 := by norm_num [kAngTolerance, kTolerance]
  have h3 := two_le_pi
  have e : setDPhi (of quarter) (3 * π / 2) = updatedAlong2 { of quarter with dphi := 3 * π / 2 } := by
    unfold setDPhi
    rw [if_neg (by linarith), if_pos (by linarith)]
  have hv : (Par.mk 1 2 3 0 (3 * π / 2)).Valid := by constructor <;> simp only <;> linarith
  have hr : ∀ p : V3, p.x ^ 2 + p.y ^ 2 = 2 → 1 ≤ rad p ∧ rad p ≤ 2 := by
    intro p h
    rw [le_rad (by norm_num), rad_le (by norm_num), h]
    norm_num
  dsimp only
  refine ⟨by rw [e]; rfl, by rw [e]; rfl, ?_, ⟨by norm_num, (hr _ (by norm_num)).1, (hr _ (by norm_num)).2, ?_⟩⟩
  · rw [← Bool.not_eq_true]
    unfold contains
    simp only [decide_eq_true_eq, not_not]
    refine .inr (.inr (.inr ⟨?_, ?_⟩))
    · show (setDPhi (of quarter) (3 * π / 2)).dphi < 2 * π
      rw [e]
      show 3 * π / 2 < 2 * π
      linarith
    · have hw : (setDPhi (of quarter) (3 * π / 2)).wedge = Wedge.make (π / 2) 0 := by rw [e]; rfl
      rw [hw]
      refine ⟨?_, by simp⟩
      rw [Wedge.out_iff (by linarith) (by linarith), sector_small (by linarith) (by linarith)]
      norm_num
  · rw [sector_iff hv]
    right
    refine ⟨by simp only; linarith, .inl ?_⟩
    simp [S1]

/-! ## Normals -/

/-- Away from one of the bounding surfaces by more than the tolerance. -/
structure OffFaces (a : Par) (p : V3) : Prop where
  one : ¬ ∃ h, |h| < kTolerance ∧ AboveRay a.s h p.x p.y
  two : ¬ ∃ h, |h| < kTolerance ∧ AboveRay (a.s + a.d) h p.x p.y

theorem addNormal_neg {c : Prop} (h : ¬ c) (v : V3) (s : NState) : addNormal c v s = s := by unfold addNormal; rw [if_neg h]
theorem addNormal_pos {c : Prop} (h : c) (v w : V3) : addNormal c v ⟨w, 0⟩ = ⟨v, 1⟩ := by unfold addNormal; rw [if_pos h, if_pos rfl]

theorem not_completely (hv : a.Valid) (hmin : a.rmin = 0 ∨ 2 * kTolerance < a.rmin) {p : V3} (hc : a.Closed p)
    (hs : |p.z| = a.z ∨ rad p = a.rmax ∨ (0 < a.rmin ∧ rad p = a.rmin) ∨
      (a.d < 2 * π ∧ ((∃ h, |h| < kTolerance ∧ AboveRay a.s h p.x p.y) ∨ ∃ h, |h| < kTolerance ∧ AboveRay (a.s + a.d) h p.x p.y))) (hM : 2 * kTolerance < a.rmax) :
    ¬ (CompletelyInside universal (of a) p ∨ CompletelyOutside universal true (of a) p) := by
  have ht := kTolerance_pos
  have hh := kHalfTolerance_pos
  have hm0 : 0 < a.rmax := hv.rmin.trans_lt hv.rmax
  have hfu : Fits universal a := ⟨by simp [universal], by simp [universal], by simp [universal], by simp [universal], by simp [universal]⟩
  have hr := rad_nonneg p
  rintro (⟨h1, h2, h3, h4⟩ | h)
  · rcases hs with h | h | ⟨h0, h⟩ | ⟨hd, h⟩
    · rw [of_z] at h1; linarith
    · rw [rad_sq', h, of_rmax] at h2
      simp only [minusTolerantSquare, if_true] at h2
      rw [abs_of_pos (mul_pos hm0 (by linarith))] at h2
      nlinarith
    · have h3 := h3 ((rminT_iff hv hfu).mpr h0)
      rw [rad_sq', h, of_rmin hv.rmin] at h3
      simp only [plusTolerantSquare, if_true] at h3
      nlinarith
    · have h4 := (h4 ((phiT_iff hfu).mpr hd)).1
      have hw : (of a).wedge = Wedge.make a.d a.s := rfl
      rw [hw] at h4
      unfold Wedge.OnSurface at h4
      rw [Wedge.on1_iff, Wedge.on2_iff] at h4
      exact h4 h
  · rcases h with h | h | ⟨h0, h⟩ | ⟨hd, h⟩
    · rw [of_z] at h
      simp only [plusTolerant, if_true] at h
      linarith [hc.z]
    · rw [rad_sq', of_rmax] at h
      simp only [plusTolerantSquare, if_true] at h
      have := pow_le_pow_left₀ hr hc.hi 2
      nlinarith
    · rw [rad_sq', of_rmin hv.rmin] at h
      simp only [minusTolerantSquare, if_true] at h
      have h0' := (rminT_iff hv hfu).mp h0
      have hb : 2 * kTolerance < a.rmin := hmin.resolve_left h0'.ne'
      rw [abs_of_pos (mul_pos h0' (by linarith))] at h
      have := pow_le_pow_left₀ hv.rmin hc.lo 2
      nlinarith
    · have h1 := h.1
      have hw : (of a).wedge = Wedge.make a.d a.s := rfl
      rw [hw, Wedge.out_iff hv.d hv.d'] at h1
      exact h1 hc.phi

/-- C84: on a point of exactly one of the bounding surfaces, more than the tolerance away from the others, the normal is the
outward unit normal of that surface and reported as valid, whatever the caller had in the variable for it. -/
theorem C84_normal (hv : a.Valid) (hmin : a.rmin = 0 ∨ 2 * kTolerance < a.rmin) (hM : 2 * kTolerance < a.rmax) {p : V3} (hc : a.Closed p) (norm : V3) :
    (OffFaces a p ∨ a.d = 2 * π → (0 < a.rmin → a.rmin + kTolerance < rad p) → rad p + kTolerance < a.rmax →
      (p.z = a.z → kTolerance < 2 * a.z → normal (of a) p norm = some (true, ⟨0, 0, 1⟩)) ∧
      (p.z = -a.z → kTolerance < 2 * a.z → normal (of a) p norm = some (true, ⟨0, 0, -1⟩))) ∧
    (OffFaces a p ∨ a.d = 2 * π → |p.z| + kTolerance < a.z → a.rmin + kTolerance < a.rmax →
      (rad p = a.rmax → normal (of a) p norm = some (true, ⟨p.x / rad p, p.y / rad p, 0⟩)) ∧
      (rad p = a.rmin → 0 < a.rmin → normal (of a) p norm = some (true, ⟨-p.x / rad p, -p.y / rad p, 0⟩))) ∧
    (|p.z| + kTolerance < a.z → (0 < a.rmin → a.rmin + kTolerance < rad p) → rad p + kTolerance < a.rmax → a.d < 2 * π →
      (AboveRay a.s 0 p.x p.y → (¬ ∃ h, |h| < kTolerance ∧ AboveRay (a.s + a.d) h p.x p.y) →
        normal (of a) p norm = some (true, ⟨sin a.s, -cos a.s, 0⟩)) ∧
      (AboveRay (a.s + a.d) 0 p.x p.y → (¬ ∃ h, |h| < kTolerance ∧ AboveRay a.s h p.x p.y) →
        normal (of a) p norm = some (true, ⟨-sin (a.s + a.d), cos (a.s + a.d), 0⟩))) := by
  have ht := kTolerance_pos
  have hr := rad_nonneg p
  have hm0 : 0 < a.rmax := hv.rmin.trans_lt hv.rmax
  have hwd : (of a).wedge = Wedge.make a.d a.s := rfl
  have er : (of a).rmin = a.rmin := of_rmin hv.rmin
  have erx : (of a).rmax = a.rmax := rfl
  have ez : (of a).z = a.z := rfl
  have ed : (of a).dphi = a.d := rfl
  have hnorm : ∀ (v : V3), normalSum (of a) p norm = ⟨v, 1⟩ → (|p.z| = a.z ∨ rad p = a.rmax ∨ (0 < a.rmin ∧ rad p = a.rmin) ∨
      (a.d < 2 * π ∧ ((∃ h, |h| < kTolerance ∧ AboveRay a.s h p.x p.y) ∨ ∃ h, |h| < kTolerance ∧ AboveRay (a.s + a.d) h p.x p.y))) →
      normal (of a) p norm = some (true, v) := by
    intro v hs hon
    unfold normal
    rw [if_neg (not_completely hv hmin hc hon hM)]
    simp [hs]
  have hinR : rad p ≥ a.rmin - kTolerance ∧ rad p ≤ a.rmax + kTolerance := ⟨by linarith [hc.lo], by linarith [hc.hi]⟩
  have hinZ : p.z < a.z + kTolerance ∧ p.z > -a.z - kTolerance := by
    have := abs_le.mp hc.z; constructor <;> linarith
  unfold normalSum at hnorm
  simp only [rad_eq, er, erx, ez, ed, hwd, Wedge.on1_iff, Wedge.on2_iff] at hnorm
  have noPhi : (OffFaces a p ∨ a.d = 2 * π) → ¬ (a.d < 2 * π ∧ (rad p ≥ a.rmin - kTolerance ∧ rad p ≤ a.rmax + kTolerance) ∧ ∃ h, |h| < kTolerance ∧ AboveRay a.s h p.x p.y) ∧
      ¬ (a.d < 2 * π ∧ (rad p ≥ a.rmin - kTolerance ∧ rad p ≤ a.rmax + kTolerance) ∧ ∃ h, |h| < kTolerance ∧ AboveRay (a.s + a.d) h p.x p.y) := by
    rintro (h | h)
    · exact ⟨fun g => h.one g.2.2, fun g => h.two g.2.2⟩
    · exact ⟨fun g => g.1.ne h, fun g => g.1.ne h⟩
  have noMin : (0 < a.rmin → a.rmin + kTolerance < rad p) → ¬ (a.rmin > 0 ∧ (p.z < a.z + kTolerance ∧ p.z > -a.z - kTolerance) ∧ |rad p - a.rmin| ≤ kTolerance) := by
    rintro h ⟨h1, -, h2⟩
    have := h h1
    rw [abs_of_pos (by linarith)] at h2
    linarith
  have noMax : rad p + kTolerance < a.rmax → ¬ ((p.z < a.z + kTolerance ∧ p.z > -a.z - kTolerance) ∧ |rad p - a.rmax| ≤ kTolerance) := by
    rintro h ⟨-, h2⟩
    rw [abs_of_neg (by linarith)] at h2
    linarith
  have noLid : |p.z| + kTolerance < a.z → ¬ ((rad p ≥ a.rmin - kTolerance ∧ rad p ≤ a.rmax + kTolerance) ∧ |p.z - a.z| ≤ kTolerance) ∧
      ¬ ((rad p ≥ a.rmin - kTolerance ∧ rad p ≤ a.rmax + kTolerance) ∧ |p.z + a.z| ≤ kTolerance) := by
    intro h
    have h1 := le_abs_self p.z
    have h2 := neg_abs_le p.z
    constructor
    · rintro ⟨-, h3⟩; rw [abs_of_neg (by linarith)] at h3; linarith
    · rintro ⟨-, h3⟩; rw [abs_of_pos (by linarith)] at h3; linarith
  refine ⟨fun hoff hlo hhi => ⟨fun hz hz2 => ?_, fun hz hz2 => ?_⟩, fun hoff hz hthick => ⟨fun hrm => ?_, fun hrm hpos => ?_⟩,
    fun hz hlo hhi hd => ⟨fun h1 h2 => ?_, fun h1 h2 => ?_⟩⟩
  · apply hnorm _ _ (.inl (by rw [hz, abs_of_pos hv.z]))
    rw [addNormal_neg (noPhi hoff).2, addNormal_neg (noPhi hoff).1, addNormal_neg (noMax hhi), addNormal_neg (noMin hlo), addNormal_neg]
    · apply addNormal_pos
      rw [hz]; simp only [sub_self, abs_zero]; exact ⟨hinR, ht.le⟩
    · rintro ⟨-, h⟩
      rw [hz, abs_of_pos (by linarith [hv.z])] at h
      linarith
  · apply hnorm _ _ (.inl (by rw [hz, abs_neg, abs_of_pos hv.z]))
    rw [addNormal_neg (noPhi hoff).2, addNormal_neg (noPhi hoff).1, addNormal_neg (noMax hhi), addNormal_neg (noMin hlo)]
    rw [addNormal_neg (c := (rad p ≥ a.rmin - kTolerance ∧ rad p ≤ a.rmax + kTolerance) ∧ |p.z - a.z| ≤ kTolerance)]
    · apply addNormal_pos
      rw [hz]; simp only [neg_add_cancel, abs_zero]; exact ⟨hinR, ht.le⟩
    · rintro ⟨-, h⟩
      rw [hz, abs_of_neg (by linarith [hv.z])] at h
      linarith
  · apply hnorm _ _ (.inr (.inl hrm))
    have hno : ¬ (a.rmin > 0 ∧ (p.z < a.z + kTolerance ∧ p.z > -a.z - kTolerance) ∧ |rad p - a.rmin| ≤ kTolerance) := by
      rintro ⟨-, -, h⟩
      rw [hrm, abs_of_pos (by linarith)] at h
      linarith
    rw [addNormal_neg (noPhi hoff).2, addNormal_neg (noPhi hoff).1, addNormal_neg hno, addNormal_neg (noLid hz).2, addNormal_neg (noLid hz).1]
    rw [addNormal_pos ⟨hinZ, by rw [hrm]; simp [ht.le]⟩]
    simp only [mul_one_div]
  · apply hnorm _ _ (.inr (.inr (.inl ⟨hpos, hrm⟩)))
    have hno : ¬ ((p.z < a.z + kTolerance ∧ p.z > -a.z - kTolerance) ∧ |rad p - a.rmax| ≤ kTolerance) := by
      rintro ⟨-, h⟩
      rw [hrm, abs_of_neg (by linarith)] at h
      linarith
    rw [addNormal_neg (noPhi hoff).2, addNormal_neg (noPhi hoff).1, addNormal_neg hno, addNormal_neg (noLid hz).2, addNormal_neg (noLid hz).1]
    rw [addNormal_pos ⟨hpos, hinZ, by rw [hrm]; simp [ht.le]⟩]
    simp only [mul_one_div]
  · have hon : ∃ h, |h| < kTolerance ∧ AboveRay a.s h p.x p.y := ⟨0, by simpa using ht, h1⟩
    apply hnorm _ _ (.inr (.inr (.inr ⟨hd, .inl hon⟩)))
    rw [addNormal_neg (noMax hhi), addNormal_neg (noMin hlo), addNormal_neg (noLid hz).2, addNormal_neg (noLid hz).1, addNormal_neg (fun g => h2 g.2.2),
      addNormal_pos ⟨hd, hinR, hon⟩]
    simp [Wedge.make]
  · have hon : ∃ h, |h| < kTolerance ∧ AboveRay (a.s + a.d) h p.x p.y := ⟨0, by simpa using ht, h1⟩
    apply hnorm _ _ (.inr (.inr (.inr ⟨hd, .inr hon⟩)))
    rw [addNormal_neg (noMax hhi), addNormal_neg (noMin hlo), addNormal_neg (noLid hz).2, addNormal_neg (noLid hz).1,
      addNormal_neg (c := a.d < 2 * π ∧ _ ∧ ∃ h, |h| < kTolerance ∧ AboveRay a.s h p.x p.y) (fun g => h2 g.2.2),
      addNormal_pos ⟨hd, hinR, hon⟩]
    simp [Wedge.make]

example : normal (of ⟨0, 1, 1, 0, 2 * π⟩) ⟨0, 0, 1⟩ ⟨5, 5, 5⟩ = some (true, ⟨0, 0, 1⟩) := by
  have hp := pi_pos
  have hv : (Par.mk 0 1 1 0 (2 * π)).Valid := by constructor <;> simp only <;> linarith
  have ht : kTolerance < 1 / 4 := by norm_num [kTolerance]
  have hc : (Par.mk 0 1 1 0 (2 * π)).Closed ⟨0, 0, 1⟩ := ⟨by simp, by simp [rad], by simp [rad], sector_full _ _ _⟩
  exact ((C84_normal hv (.inl rfl) (by simp only; linarith) hc ⟨5, 5, 5⟩).1 (.inr rfl) (by simp) (by simp [rad]; linarith)).1 rfl (by simp only; linarith)

/-- On the axis of a half tube the flat face counts twice and the "normal" that is reported as valid has length `√2`. -/
theorem C84_normal_counterexample :
    (Par.mk 0 1 1 0 π).Closed ⟨0, 0, 0⟩ ∧
    ∃ v, normal (of ⟨0, 1, 1, 0, π⟩) ⟨0, 0, 0⟩ ⟨0, 0, 0⟩ = some (true, v) ∧ v.mag2 = 2 := by
  have hp := pi_pos
  have ht := kTolerance_pos
  have ht1 : kTolerance < 1 / 4 := by norm_num [kTolerance]
  have hv : (Par.mk 0 1 1 0 π).Valid := by constructor <;> simp only <;> linarith
  have hc : (Par.mk 0 1 1 0 π).Closed ⟨0, 0, 0⟩ :=
    ⟨by simp, by simp [rad], by simp [rad], 0, 0, le_refl _, le_refl _, by simp only; linarith, by simp, by simp⟩
  have hray : ∀ s, ∃ h, |h| < kTolerance ∧ AboveRay s h 0 0 := fun s => ⟨0, by simpa using ht, 0, le_refl _, by simp, by simp⟩
  have hd : π < 2 * π := by linarith
  have hsum : normalSum (of ⟨0, 1, 1, 0, π⟩) ⟨0, 0, 0⟩ ⟨0, 0, 0⟩ = ⟨⟨0, -2, 0⟩, 2⟩ := by
    unfold normalSum
    have er : (of ⟨0, 1, 1, 0, π⟩).rmin = 0 := of_rmin (le_refl _)
    have erx : (of ⟨0, 1, 1, 0, π⟩).rmax = 1 := rfl
    have ez : (of ⟨0, 1, 1, 0, π⟩).z = 1 := rfl
    have ed : (of ⟨0, 1, 1, 0, π⟩).dphi = π := rfl
    have hw : (of ⟨0, 1, 1, 0, π⟩).wedge = Wedge.make π 0 := rfl
    have hrad : √((0 : ℝ) * 0 + 0 * 0) = 0 := by simp
    simp only [ er, erx, ez, ed, hw, Wedge.on1_iff, Wedge.on2_iff, hrad]
    have f1 : ¬ (((0 : ℝ) ≥ 0 - kTolerance ∧ (0 : ℝ) ≤ 1 + kTolerance) ∧ |(0 : ℝ) - 1| ≤ kTolerance) := by
      rintro ⟨-, h⟩; norm_num at h; linarith
    have f2 : ¬ (((0 : ℝ) ≥ 0 - kTolerance ∧ (0 : ℝ) ≤ 1 + kTolerance) ∧ |(0 : ℝ) + 1| ≤ kTolerance) := by
      rintro ⟨-, h⟩; norm_num at h; linarith
    have f3 : ¬ ((0 : ℝ) > 0 ∧ ((0 : ℝ) < 1 + kTolerance ∧ (0 : ℝ) > -1 - kTolerance) ∧ |(0 : ℝ) - 0| ≤ kTolerance) := by
      rintro ⟨h, -⟩; linarith
    have f4 : ¬ (((0 : ℝ) < 1 + kTolerance ∧ (0 : ℝ) > -1 - kTolerance) ∧ |(0 : ℝ) - 1| ≤ kTolerance) := by
      rintro ⟨-, h⟩; norm_num at h; linarith
    have hR : (0 : ℝ) ≥ 0 - kTolerance ∧ (0 : ℝ) ≤ 1 + kTolerance := ⟨by linarith, by linarith⟩
    rw [addNormal_neg f4, addNormal_neg f3, addNormal_neg f2, addNormal_neg f1, addNormal_pos ⟨hd, hR, hray 0⟩]
    unfold addNormal
    rw [if_pos ⟨hd, hR, hray (0 + π)⟩]
    simp only [Nat.succ_ne_zero, if_false, Nat.reduceAdd, NState.mk.injEq, and_true]
    ext <;> simp [Wedge.make] <;> norm_num
  refine ⟨hc, V3.smul (1 / √((2 : ℕ) : ℝ)) ⟨0, -2, 0⟩, ?_, ?_⟩
  · unfold normal
    rw [if_neg (not_completely hv (.inl rfl) hc (.inr (.inr (.inr ⟨hd, .inl (hray _)⟩))) (by simp only; linarith))]
    simp [hsum]
  · have h2 : √((2 : ℕ) : ℝ) * √((2 : ℕ) : ℝ) = 2 := by rw [mul_self_sqrt (by norm_num)]; norm_num
    simp only [V3.smul, V3.mag2, V3.dot]
    field_simp
    nlinarith

end Tube
end VecGeom
