import Verif.Hype.Safety

/-!
# C158: distances of hyperboloids
-/

namespace VecGeom
namespace Hype

open Real

variable {a : Par} {s : State} {k : Kind}

/-! ## The quadratic equation -/

open Classical in
/-- The root that `DistanceToOut` takes for the outer surface. -/
noncomputable def exitRoot (A b c : ℝ) : Option ℝ :=
  if b * b - A * c > 0 then
    let dist := if b < 0 then quot (-b + √(b * b - A * c)) A else c / (-b - √(b * b - A * c))
    some (if dist < 0 then kInfLength else dist)
  else none

open Classical in
/-- The root that `DistanceToIn` takes for the outer surface. -/
noncomputable def entryRoot (A b c : ℝ) : Option ℝ :=
  if b * b - A * c > 0 then
    let dist := if b ≥ 0 then quot (-b - √(b * b - A * c)) A else c / (-b + √(b * b - A * c))
    some (if dist < 0 then kInfLength else dist)
  else none

theorem exit_nonneg {A b c t : ℝ} (h : exitRoot A b c = some t) : 0 ≤ t := by
  unfold exitRoot at h
  split at h
  · dsimp only at h
    have h := Option.some.inj h
    rw [← h]
    generalize (if b < 0 then quot (-b + √(b * b - A * c)) A else c / (-b - √(b * b - A * c))) = x
    split
    · exact kInfLength_pos.le
    · linarith
  · cases h

/-- Up to the root the quadratic form is not positive. -/
theorem exit_le {A b c u : ℝ} (hc : c ≤ 0) (hcb : c < 0 ∨ b ≠ 0) (hu : 0 ≤ u) (h : ∀ t, exitRoot A b c = some t → u ≤ t) :
    A * u ^ 2 + 2 * b * u + c ≤ 0 := by
  by_cases hD : b * b - A * c > 0
  swap
  · have hc' : c < 0 := by
      rcases hcb with h | h
      · exact h
      · by_contra hc'
        have : c = 0 := by linarith
        rw [this, mul_zero, sub_zero] at hD
        exact hD (mul_self_pos.mpr h)
    have hA : A ≤ 0 := by
      by_contra hA
      push Not at hA
      nlinarith [mul_neg_of_pos_of_neg hA hc', mul_self_nonneg b]
    rcases hA.eq_or_lt with hA | hA
    · rw [hA] at hD ⊢
      have : b = 0 := by
        by_contra hb
        have := mul_self_pos.mpr hb
        linarith
      rw [this]; linarith
    · by_contra hf
      push Not at hf
      nlinarith [mul_neg_of_neg_of_pos hA hf, sq_nonneg (A * u + b)]
  · have hw := sqrt_pos.mpr hD
    have hw2 := sq_sqrt hD.le
    have h' := h _ (by unfold exitRoot; rw [if_pos hD])
    generalize √(b * b - A * c) = w at *
    rcases lt_or_ge b 0 with hb | hb
    · rw [if_pos hb] at h'
      rcases lt_trichotomy A 0 with hA | hA | hA
      · nlinarith [mul_nonneg hu hu, mul_nonneg (neg_nonneg.mpr hb.le) hu, mul_nonneg (neg_nonneg.mpr hA.le) (sq_nonneg u)]
      · rw [hA]; nlinarith
      · unfold quot at h'
        rw [if_neg hA.ne'] at h'
        have hpos : 0 < (-b + w) / A := div_pos (by linarith) hA
        rw [if_neg (by linarith), le_div_iff₀ hA] at h'
        have hbw : 0 ≤ b + w := by
          have : (-b) ^ 2 ≤ w ^ 2 := by rw [hw2]; nlinarith [mul_nonneg hA.le (neg_nonneg.mpr hc)]
          have := sq_le this hw.le
          linarith
        by_contra hf
        push Not at hf
        have e : A * (A * u ^ 2 + 2 * b * u + c) = (u * A + b - w) * (u * A + b + w) := by linear_combination hw2
        have := mul_pos hA hf
        rw [e] at this
        nlinarith [mul_nonneg hu hA.le, mul_nonneg (by linarith : 0 ≤ -(u * A + b - w)) (by nlinarith [mul_nonneg hu hA.le] : 0 ≤ u * A + b + w)]
    · rw [if_neg (not_lt.mpr hb)] at h'
      have hp : 0 < b + w := by linarith
      set t := c / (-b - w) with ht
      have ht1 : t * (b + w) = -c := by
        rw [ht]
        have : -b - w ≠ 0 := by linarith
        field_simp
        ring
      have ht0 : 0 ≤ t := by
        by_contra hn
        push Not at hn
        nlinarith
      rw [if_neg (by linarith)] at h'
      have ht2 : A * t = w - b := by
        apply mul_right_cancel₀ hp.ne'
        linear_combination A * ht1 - hw2
      have e : A * u ^ 2 + 2 * b * u + c = (u - t) * (A * (u + t) + 2 * b) := by
        linear_combination t * ht2 + ht1
      rw [e]
      apply mul_nonpos_of_nonpos_of_nonneg (by linarith)
      rcases le_or_gt 0 A with hA | hA
      · nlinarith [mul_nonneg hA (add_nonneg hu ht0)]
      · nlinarith [mul_le_mul_of_nonpos_left h' hA.le]

/-- The root is one. -/
theorem exit_root {A b c t : ℝ} (h : exitRoot A b c = some t) : t = kInfLength ∨ A * t ^ 2 + 2 * b * t + c = 0 := by
  unfold exitRoot at h
  split at h
  swap
  · cases h
  rename_i hD
  have hw := sqrt_pos.mpr hD
  have hw2 := sq_sqrt hD.le
  dsimp only at h
  generalize √(b * b - A * c) = w at *
  have h := Option.some.inj h
  rw [← h]
  by_cases hb : b < 0
  · rw [if_pos hb]
    unfold quot
    by_cases hA : A = 0
    · rw [if_pos hA, if_pos (show 0 < -b + w by linarith)]
      left
      rw [if_neg (not_lt.mpr kInfLength_pos.le)]
    · rw [if_neg hA]
      split
      · exact Or.inl rfl
      · right
        field_simp
        linear_combination hw2
  · rw [if_neg hb]
    split
    · exact Or.inl rfl
    · right
      have hp : -b - w ≠ 0 := by linarith
      by_cases hA : A = 0
      · subst hA
        have : w = b := by
          have : w ^ 2 = b ^ 2 := by linarith
          exact (sq_eq_sq₀ hw.le (by linarith)).mp this
        field_simp
        rw [this]; ring
      · field_simp
        linear_combination c * hw2

theorem neg_exit (s : State) (p d : V3) :
    wall false true s p d = exitRoot (-qa s.tIn2 d) (-qb s.tIn2 p d) (-qc s.tIn2 s.rmin2 p) := by
  unfold wall exitRoot qd
  simp only [if_true, Bool.false_eq_true, if_false]
  generalize qa s.tIn2 d = A
  generalize qb s.tIn2 p d = b
  generalize qc s.tIn2 s.rmin2 p = c
  have e : -b * -b - -A * -c = b * b - A * c := by ring
  rw [e]
  split
  swap
  · rfl
  rename_i hD
  have hw := sqrt_pos.mpr hD
  congr 1
  generalize √(b * b - A * c) = w at *
  have hk := kInfLength_pos
  rcases lt_or_ge 0 b with hb | hb
  · have hb' : -b < 0 := by linarith
    rw [if_pos hb, if_pos hb']
    unfold quot
    by_cases hA : A = 0
    · have hA' : -A = 0 := by rw [hA, neg_zero]
      rw [if_pos hA, if_pos hA', if_neg (show ¬ 0 < -b - w by linarith), if_pos (show (0 : ℝ) < - -b + w by linarith),
        if_pos (show (-1 : ℝ) < 0 by norm_num), if_neg (not_lt.mpr hk.le)]
    · rw [if_neg hA, if_neg (neg_ne_zero.mpr hA)]
      have : (- -b + w) / -A = (-b - w) / A := by field_simp; ring
      rw [this]
  · rw [if_neg (not_lt.mpr hb), if_neg (show ¬ -b < 0 by linarith)]
    have : -c / (- -b - w) = c / (-b + w) := by
      rw [show - -b - w = -(-b + w) by ring, neg_div_neg_eq]
    rw [this]

theorem out_exit (s : State) (p d : V3) : wall false false s p d = exitRoot (qa s.tOut2 d) (qb s.tOut2 p d) (qc s.tOut2 s.rmax2 p) := by
  unfold wall exitRoot qd
  simp only [Bool.false_eq_true, if_false]

/-! ## Points of the ray -/

theorem at_zero (p d : V3) : V3.at' p d 0 = p := by
  show V3.mk (p.x + 0 * d.x) (p.y + 0 * d.y) (p.z + 0 * d.z) = p
  simp

theorem kInf_huge : (10 : ℝ) ^ 30 < kInfLength := by
  unfold kInfLength
  have h1 : (10 : ℝ) ^ 30 ≤ 2 ^ 100 := by norm_num
  have h2 : (2 : ℝ) ^ 100 < 2 ^ 1023 := pow_lt_pow_right₀ (by norm_num) (by norm_num)
  have h3 : (1 : ℝ) ≤ 2 - 1 / 2 ^ 52 := by norm_num
  have h4 : (0 : ℝ) < 2 ^ 1023 := pow_pos (by norm_num) _
  exact lt_of_le_of_lt h1 (h2.trans_le (le_mul_of_one_le_left h4.le h3))

theorem ray_out (g : Good s a) (p d : V3) (u : ℝ) : (V3.at' p d u).x ^ 2 + (V3.at' p d u).y ^ 2 - a.out2 (V3.at' p d u).z =
    qa s.tOut2 d * u ^ 2 + 2 * qb s.tOut2 p d * u + qc s.tOut2 s.rmax2 p := by
  unfold qa qb qc Par.out2 perp2
  simp only [V3.at_x, V3.at_y, V3.at_z]
  rw [g.tOut2, g.rmax2]
  ring

theorem ray_in (g : Good s a) (p d : V3) (u : ℝ) : (V3.at' p d u).x ^ 2 + (V3.at' p d u).y ^ 2 - a.in2 (V3.at' p d u).z =
    qa s.tIn2 d * u ^ 2 + 2 * qb s.tIn2 p d * u + qc s.tIn2 s.rmin2 p := by
  unfold qa qb qc Par.in2 perp2
  simp only [V3.at_x, V3.at_y, V3.at_z]
  rw [g.tIn2, g.rmin2]
  ring

theorem qc_out (g : Good s a) (p : V3) : qc s.tOut2 s.rmax2 p = p.x ^ 2 + p.y ^ 2 - a.out2 p.z := by
  unfold qc Par.out2 perp2; rw [g.tOut2, g.rmax2]; ring
theorem qc_in (g : Good s a) (p : V3) : qc s.tIn2 s.rmin2 p = p.x ^ 2 + p.y ^ 2 - a.in2 p.z := by
  unfold qc Par.in2 perp2; rw [g.tIn2, g.rmin2]; ring

/-- The rate at which the ray leaves the outer surface: half the derivative of `r ^ 2 - out2 z`. -/
noncomputable def Par.rateOut (a : Par) (p d : V3) : ℝ := p.x * d.x + p.y * d.y - tan a.stOut ^ 2 * p.z * d.z
/-- The same for the inner surface. -/
noncomputable def Par.rateIn (a : Par) (p d : V3) : ℝ := p.x * d.x + p.y * d.y - tan a.stIn ^ 2 * p.z * d.z

theorem qb_out (g : Good s a) (p d : V3) : qb s.tOut2 p d = a.rateOut p d := by
  unfold qb Par.rateOut; rw [g.tOut2]; ring
theorem qb_in (g : Good s a) (p d : V3) : qb s.tIn2 p d = a.rateIn p d := by
  unfold qb Par.rateIn; rw [g.tIn2]; ring

theorem closed_not_outside (hv : a.Valid) (g : Good s a) (hk : k.Fits a) {p : V3} (hp : a.Closed p) : outside k s p = false := by
  rw [← Bool.not_eq_true, outside_iff g hk]
  have ht := kTolerance_pos
  have t1 := mul_pos ht hv.dz
  have t2 := mul_pos ht (endOut_pos hv)
  have t3 := mul_nonneg ht.le (sqrt_nonneg (a.in2 a.dz))
  rintro (h | h | ⟨-, h⟩)
  · linarith [hp.z]
  · linarith [hp.out]
  · linarith [hp.inn]

theorem getD_nonneg {o : Option ℝ} {x : ℝ} (hx : 0 ≤ x) (h : ∀ t, o = some t → 0 ≤ t) : 0 ≤ o.getD x := by
  cases o with
  | none => exact hx
  | some t => exact h t rfl

theorem zDist_out (hv : a.Valid) (g : Good s a) {p : V3} (d : V3) (hp : |p.z| ≤ a.dz) :
    0 ≤ zDist false s p d ∧ (∀ u, 0 ≤ u → u ≤ zDist false s p d → |p.z + u * d.z| ≤ a.dz) ∧
    zDist false s p d * |d.z| ≤ 2 * a.dz ∧ |(|p.z + zDist false s p d * d.z| - a.dz)| * |d.z| ≤ 2 * a.dz * kTiny := by
  have hT := kTiny_pos
  have hd := hv.dz
  obtain ⟨h1, h2⟩ := abs_le.mp hp
  unfold zDist
  simp only [Bool.false_eq_true, if_false]
  rw [g.dz]
  rcases lt_or_ge d.z 0 with hz | hz
  · have e : sign d.z = -1 := by unfold sign; rw [if_pos hz]
    have en : nonZero d.z = -(-d.z + kTiny) := by unfold nonZero copySign; rw [if_pos hz]; ring
    have hp' : 0 < -d.z + kTiny := by linarith
    have et : (sign d.z * a.dz - p.z) / nonZero d.z = (a.dz + p.z) / (-d.z + kTiny) := by
      rw [e, en, show -1 * a.dz - p.z = -(a.dz + p.z) by ring, neg_div_neg_eq]
    rw [et]
    have h0 : 0 ≤ (a.dz + p.z) / (-d.z + kTiny) := div_nonneg (by linarith) hp'.le
    have hle : (a.dz + p.z) / (-d.z + kTiny) * (-d.z + kTiny) = a.dz + p.z := div_mul_cancel₀ _ hp'.ne'
    generalize (a.dz + p.z) / (-d.z + kTiny) = τ at *
    have hτ : 0 ≤ τ * kTiny := mul_nonneg h0 hT.le
    have hzp : p.z + τ * d.z = -(a.dz - τ * kTiny) := by linarith
    refine ⟨h0, ?_, ?_, ?_⟩
    · intro u hu0 hu
      have : u * (-d.z) ≤ τ * (-d.z) := mul_le_mul_of_nonneg_right hu (by linarith)
      have h3 : 0 ≤ u * (-d.z) := mul_nonneg hu0 (by linarith)
      rw [abs_le]
      constructor <;> nlinarith
    · rw [abs_of_neg hz]; nlinarith
    · rw [hzp, abs_neg]
      have h5 : τ * kTiny ≤ a.dz + p.z := by nlinarith [mul_nonneg h0 (neg_nonneg.mpr hz.le)]
      have h6 : |(|a.dz - τ * kTiny| - a.dz)| ≤ τ * kTiny := by
        rcases abs_cases (a.dz - τ * kTiny) with ⟨h, h'⟩ | ⟨h, h'⟩ <;> rw [h, abs_le] <;> constructor <;> linarith
      refine le_trans (mul_le_mul_of_nonneg_right h6 (abs_nonneg _)) ?_
      rw [abs_of_neg hz]
      nlinarith
  · have e : sign d.z = 1 := by unfold sign; rw [if_neg (not_lt.mpr hz)]
    have en : nonZero d.z = d.z + kTiny := by unfold nonZero copySign; rw [if_neg (not_lt.mpr hz)]
    have hp' : 0 < d.z + kTiny := by linarith
    have et : (sign d.z * a.dz - p.z) / nonZero d.z = (a.dz - p.z) / (d.z + kTiny) := by rw [e, en, one_mul]
    rw [et]
    have h0 : 0 ≤ (a.dz - p.z) / (d.z + kTiny) := div_nonneg (by linarith) hp'.le
    have hle : (a.dz - p.z) / (d.z + kTiny) * (d.z + kTiny) = a.dz - p.z := div_mul_cancel₀ _ hp'.ne'
    generalize (a.dz - p.z) / (d.z + kTiny) = τ at *
    have hτ : 0 ≤ τ * kTiny := mul_nonneg h0 hT.le
    have hzp : p.z + τ * d.z = a.dz - τ * kTiny := by linarith
    refine ⟨h0, ?_, ?_, ?_⟩
    · intro u hu0 hu
      have : u * d.z ≤ τ * d.z := mul_le_mul_of_nonneg_right hu hz
      have h3 : 0 ≤ u * d.z := mul_nonneg hu0 hz
      rw [abs_le]
      constructor <;> nlinarith
    · rw [abs_of_nonneg hz]; nlinarith
    · rw [hzp]
      have h6 : |(|a.dz - τ * kTiny| - a.dz)| ≤ τ * kTiny := by
        rcases abs_cases (a.dz - τ * kTiny) with ⟨h, h'⟩ | ⟨h, h'⟩ <;> rw [h, abs_le] <;> constructor <;> nlinarith [mul_nonneg h0 hz]
      refine le_trans (mul_le_mul_of_nonneg_right h6 (abs_nonneg _)) ?_
      rw [abs_of_nonneg hz]
      nlinarith

/-- The value of `DistanceToOut` for a point of the solid that is not on the surface and on the way out. -/
theorem dist_out_eq (hv : a.Valid) (g : Good s a) (hk : k.Fits a) {p d : V3} (hp : a.Closed p) (hm : movingOutside k s p d = false) :
    ∃ x, distanceToOut k s p d = min (min (zDist false s p d) ((wall false false s p d).getD kInfLength)) x ∧
      0 ≤ x ∧ (¬ a.Hollow → x = min (zDist false s p d) ((wall false false s p d).getD kInfLength)) ∧
      (a.Hollow → x = (wall false true s p d).getD ((wall false false s p d).getD kInfLength)) := by
  have hz := (zDist_out hv g d hp.z).1
  have ho : 0 ≤ (wall false false s p d).getD kInfLength := by
    apply getD_nonneg kInfLength_pos.le
    intro t h
    rw [out_exit] at h
    exact exit_nonneg h
  have hi : 0 ≤ (wall false true s p d).getD ((wall false false s p d).getD kInfLength) := by
    apply getD_nonneg ho
    intro t h
    rw [neg_exit] at h
    exact exit_nonneg h
  unfold distanceToOut
  rw [hm, closed_not_outside hv g hk hp]
  simp only [Bool.false_eq_true, if_false]
  rw [if_neg (not_lt.mpr hz), if_neg (not_lt.mpr ho), if_neg (not_lt.mpr hi)]
  by_cases hh : a.Hollow
  · rw [if_pos ((treat_iff g hk).mpr hh)]
    exact ⟨_, rfl, hi, fun h => absurd hh h, fun _ => rfl⟩
  · rw [if_neg (fun h => hh ((treat_iff g hk).mp h))]
    exact ⟨_, (min_self _).symm, le_min hz ho, fun _ => rfl, fun h => absurd h hh⟩

/-- C158: `DistanceToOut` from a point of the solid is not negative. -/
theorem C158_out_nonneg (hv : a.Valid) (g : Good s a) (hk : k.Fits a) (p d : V3) (hp : a.Closed p) : 0 ≤ distanceToOut k s p d := by
  cases hm : movingOutside k s p d
  · obtain ⟨x, h, hx, -⟩ := dist_out_eq hv g hk hp hm
    rw [h]
    refine le_min (le_min (zDist_out hv g d hp.z).1 ?_) hx
    apply getD_nonneg kInfLength_pos.le
    intro t h
    rw [out_exit] at h
    exact exit_nonneg h
  · unfold distanceToOut
    rw [hm, if_pos rfl]

/-- C158: all points up to the distance that `DistanceToOut` reports belong to the solid.  Missing: points on a wall with a
direction along the wall. -/
theorem C158_out_never_beyond_partial (hv : a.Valid) (g : Good s a) (hk : k.Fits a) (p d : V3) (hp : a.Closed p)
    (ho : p.x ^ 2 + p.y ^ 2 = a.out2 p.z → a.rateOut p d ≠ 0)
    (hi : a.Hollow → p.x ^ 2 + p.y ^ 2 = a.in2 p.z → a.rateIn p d ≠ 0) {u : ℝ} (hu : 0 ≤ u) (h : u ≤ distanceToOut k s p d) :
    a.Closed (V3.at' p d u) := by
  cases hm : movingOutside k s p d
  swap
  · unfold distanceToOut at h
    rw [hm, if_pos rfl] at h
    have : u = 0 := le_antisymm h hu
    rw [this]
    have e : V3.at' p d 0 = p := at_zero p d
    rw [e]; exact hp
  obtain ⟨x, hx, -, hx1, hx2⟩ := dist_out_eq hv g hk hp hm
  rw [hx] at h
  have h1 : u ≤ zDist false s p d := h.trans ((min_le_left _ _).trans (min_le_left _ _))
  have h2 : u ≤ (wall false false s p d).getD kInfLength := h.trans ((min_le_left _ _).trans (min_le_right _ _))
  have h3 := h.trans (min_le_right _ _)
  have hz := (zDist_out hv g d hp.z).2.1 u hu h1
  refine ⟨hz, ?_, ?_⟩
  · have := exit_le (A := qa s.tOut2 d) (b := qb s.tOut2 p d) (c := qc s.tOut2 s.rmax2 p) (u := u)
      (by rw [qc_out g]; linarith [hp.out]) (by
        rw [qc_out g, qb_out g]
        rcases hp.out.eq_or_lt with e | e
        · exact Or.inr (ho e)
        · left; linarith) hu (fun t ht => by rw [out_exit, ht] at h2; exact h2)
    rw [← ray_out g] at this
    linarith
  · by_cases hh : a.Hollow
    · rw [hx2 hh] at h3
      have := exit_le (A := -qa s.tIn2 d) (b := -qb s.tIn2 p d) (c := -qc s.tIn2 s.rmin2 p) (u := u)
        (by rw [qc_in g]; linarith [hp.inn]) (by
          rw [qc_in g, qb_in g]
          rcases hp.inn.eq_or_lt with e | e
          · exact Or.inr (neg_ne_zero.mpr (hi hh e.symm))
          · left; linarith) hu (fun t ht => by rw [neg_exit, ht] at h3; exact h3)
      have e := ray_in g p d u
      linarith
    · rw [in2_solid hv hh]; positivity

/-- C158: unless the point is on the surface and on its way out, when the distance is zero, the distance ends at a wall or, up
to the number added to the divisor, at a lid. -/
theorem C158_out_sharp (hv : a.Valid) (g : Good s a) (hk : k.Fits a) (p d : V3) (hp : a.Closed p)
    (hd : 2 * a.dz < kInfLength * |d.z|) :
    (distanceToOut k s p d = 0 ∧ (OnLid s p ∧ 0 < p.z * d.z ∨ OnOuter s p ∧ 0 < a.rateOut p d ∨
      a.Hollow ∧ OnInner s p ∧ a.rateIn p d < 0)) ∨
    let e := V3.at' p d (distanceToOut k s p d)
    e.x ^ 2 + e.y ^ 2 = a.out2 e.z ∨ a.Hollow ∧ e.x ^ 2 + e.y ^ 2 = a.in2 e.z ∨ |(|e.z| - a.dz)| * |d.z| ≤ 2 * a.dz * kTiny := by
  cases hm : movingOutside k s p d
  swap
  · left
    refine ⟨by unfold distanceToOut; rw [hm, if_pos rfl], ?_⟩
    unfold movingOutside at hm
    have e1 : slope s.tOut2 p d = a.rateOut p d := by unfold slope Par.rateOut; rw [g.tOut2]; ring
    have e2 : slope s.tIn2 p d = a.rateIn p d := by unfold slope Par.rateIn; rw [g.tIn2]; ring
    simp only [Bool.or_eq_true, decide_eq_true_eq] at hm
    rw [e1, e2, treat_iff g hk] at hm
    rcases hm with (h | h) | h
    · exact Or.inl h
    · exact Or.inr (Or.inl h)
    · exact Or.inr (Or.inr h)
  right
  dsimp only
  obtain ⟨x, hx, -, hx1, hx2⟩ := dist_out_eq hv g hk hp hm
  obtain ⟨hz0, -, hz1, hz2⟩ := zDist_out hv g d hp.z
  set t := distanceToOut k s p d with ht
  have hzi : zDist false s p d < kInfLength := by
    by_contra hc
    push Not at hc
    nlinarith [mul_le_mul_of_nonneg_right hc (abs_nonneg d.z)]
  have htz : t ≤ zDist false s p d := by rw [hx]; exact (min_le_left _ _).trans (min_le_left _ _)
  have hti : t < kInfLength := lt_of_le_of_lt htz hzi
  have outer : t = (wall false false s p d).getD kInfLength → (V3.at' p d t).x ^ 2 + (V3.at' p d t).y ^ 2 = a.out2 (V3.at' p d t).z := by
    intro h
    cases hw : wall false false s p d with
    | none => rw [hw, Option.getD_none] at h; exact absurd h hti.ne
    | some y =>
      rw [hw, Option.getD_some] at h
      rw [out_exit] at hw
      rcases exit_root hw with h' | h'
      · exact absurd (h.trans h') hti.ne
      · rw [← h, ← ray_out g] at h'
        linarith
  have hmin : t = zDist false s p d ∨ t = (wall false false s p d).getD kInfLength ∨ t = x := by
    rw [hx]
    rcases min_choice (min (zDist false s p d) ((wall false false s p d).getD kInfLength)) x with h | h
    · rw [h]
      rcases min_choice (zDist false s p d) ((wall false false s p d).getD kInfLength) with h' | h'
      · exact Or.inl h'
      · exact Or.inr (Or.inl h')
    · exact Or.inr (Or.inr h)
  have lid : t = zDist false s p d → |(|(V3.at' p d t).z| - a.dz)| * |d.z| ≤ 2 * a.dz * kTiny := by
    intro h
    rw [V3.at_z, h]
    exact hz2
  rcases hmin with h | h | h
  · exact Or.inr (Or.inr (lid h))
  · exact Or.inl (outer h)
  · by_cases hh : a.Hollow
    · rw [hx2 hh] at h
      cases hw : wall false true s p d with
      | none =>
        rw [hw, Option.getD_none] at h
        exact Or.inl (outer h)
      | some y =>
        rw [hw, Option.getD_some] at h
        rw [neg_exit] at hw
        rcases exit_root hw with h' | h'
        · exact absurd (h.trans h') hti.ne
        · right; left
          refine ⟨hh, ?_⟩
          have e := ray_in g p d t
          rw [← h] at h'
          linarith
    · rw [hx1 hh] at h
      rcases min_choice (zDist false s p d) ((wall false false s p d).getD kInfLength) with h' | h'
      · rw [h'] at h; exact Or.inr (Or.inr (lid h))
      · rw [h'] at h; exact Or.inl (outer h)

/-- C158: from a point of the outer wall along the wall `DistanceToOut` is ten to the thirty, although the ray leaves the solid at
once. -/
theorem C158_tangent_counterexample (m : State) : distanceToOut .hollow (spool.made m) ⟨2, 0, 0⟩ ⟨0, 1, 0⟩ = 10 ^ 30 ∧
    spool.Closed ⟨2, 0, 0⟩ ∧ ∀ u, 0 < u → ¬ spool.Closed (V3.at' ⟨2, 0, 0⟩ ⟨0, 1, 0⟩ u) := by
  have g := good_made spool m
  have hk : Kind.hollow.Fits spool := Or.inr (Or.inl ⟨rfl, spool_hollow⟩)
  have ho : ∀ z, spool.out2 z = 4 + z ^ 2 := by intro z; simp only [spool, Par.out2, tan_pi_div_four]; ring
  have hi : ∀ z, spool.in2 z = 1 + z ^ 2 := by intro z; simp only [spool, Par.in2, tan_pi_div_four]; ring
  have hp : spool.Closed ⟨2, 0, 0⟩ := by
    refine ⟨by norm_num [spool], ?_, ?_⟩
    · rw [ho]; norm_num
    · rw [hi]; norm_num
  refine ⟨?_, hp, ?_⟩
  · have hm : movingOutside .hollow (spool.made m) ⟨2, 0, 0⟩ ⟨0, 1, 0⟩ = false := by
      unfold movingOutside slope
      simp
    obtain ⟨x, hx, -, -, hx2⟩ := dist_out_eq spool_valid g hk hp hm (d := ⟨0, 1, 0⟩)
    have e1 : wall false false (spool.made m) ⟨2, 0, 0⟩ ⟨0, 1, 0⟩ = none := by
      rw [out_exit]
      unfold exitRoot
      rw [if_neg]
      rw [qc_out g, ho, qb_out g]
      norm_num [Par.rateOut]
    have e2 : wall false true (spool.made m) ⟨2, 0, 0⟩ ⟨0, 1, 0⟩ = none := by
      rw [neg_exit]
      unfold exitRoot
      rw [if_neg]
      rw [qc_in g, hi, qb_in g]
      norm_num [Par.rateIn, qa, perp2]
    have e3 : zDist false (spool.made m) ⟨2, 0, 0⟩ ⟨0, 1, 0⟩ = 10 ^ 30 := by
      unfold zDist
      rw [g.dz]
      norm_num [spool, sign, nonZero, copySign, kTiny]
    have hxk := hx2 spool_hollow
    rw [e2, e1, Option.getD_none, Option.getD_none] at hxk
    rw [hx, hxk, e1, e3, Option.getD_none]
    have : (10 : ℝ) ^ 30 ≤ kInfLength := kInf_huge.le
    rw [min_eq_left this, min_eq_left this]
  · intro u hu h
    have := h.out
    rw [ho] at this
    simp only [V3.at_x, V3.at_y, V3.at_z] at this
    nlinarith

end Hype
end VecGeom
