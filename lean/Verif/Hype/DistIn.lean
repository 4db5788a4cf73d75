import Verif.Hype.Dist

/-!
# C159: distances of hyperboloids from outside
-/

namespace VecGeom
namespace Hype

open Real

variable {a : Par} {s : State} {k : Kind}

/-- Where the quadratic form turns from positive to negative is the root. -/
theorem entry_between {A b c u0 u : ℝ} (h0 : 0 ≤ u0) (hu : u0 ≤ u) (hp : 0 < A * u0 ^ 2 + 2 * b * u0 + c)
    (hn : A * u ^ 2 + 2 * b * u + c < 0) : ∃ t, entryRoot A b c = some t ∧ u0 ≤ t ∧ t ≤ u := by
  have hlt : u0 < u := by
    rcases hu.eq_or_lt with e | e
    · rw [e] at hp; linarith
    · exact e
  have hD : b * b - A * c > 0 := by
    by_contra hD
    push Not at hD
    rcases lt_trichotomy A 0 with hA | hA | hA
    · nlinarith [mul_neg_of_neg_of_pos hA hp, sq_nonneg (A * u0 + b)]
    · rw [hA] at hD hp hn
      have : b = 0 := by
        by_contra hb
        have := mul_self_pos.mpr hb
        linarith
      rw [this] at hp hn
      linarith
    · nlinarith [mul_neg_of_pos_of_neg hA hn, sq_nonneg (A * u + b)]
  have hw := sqrt_pos.mpr hD
  have hw2 := sq_sqrt hD.le
  unfold entryRoot
  rw [if_pos hD]
  generalize √(b * b - A * c) = w at *
  -- the root is the one with a falling form
  obtain ⟨t, ht, ht1, ht2⟩ : ∃ t, (if b ≥ 0 then quot (-b - w) A else c / (-b + w)) = t ∧ A * t + b = -w ∧
      A * t ^ 2 + 2 * b * t + c = 0 := by
    by_cases hb : b ≥ 0
    · rw [if_pos hb]
      have hA : A ≠ 0 := by
        intro hA
        rw [hA] at hp hn
        nlinarith
      refine ⟨_, rfl, ?_, ?_⟩
      · unfold quot
        rw [if_neg hA]
        field_simp
        ring
      · unfold quot
        rw [if_neg hA]
        field_simp
        linear_combination hw2
    · rw [if_neg hb]
      push Not at hb
      have hne : -b + w ≠ 0 := by linarith
      have h1 : A * (c / (-b + w)) + b = -w := by
        field_simp
        linear_combination hw2
      refine ⟨_, rfl, h1, ?_⟩
      have h2 : c / (-b + w) * (-b + w) = c := div_mul_cancel₀ _ hne
      linear_combination c / (-b + w) * h1 - h2
  have form : ∀ v, A * v ^ 2 + 2 * b * v + c = (v - t) * (A * (v - t) - 2 * w) := by
    intro v
    linear_combination ht2 + 2 * (v - t) * ht1
  rw [form] at hp hn
  have hut : t ≤ u := by
    by_contra hc
    push Not at hc
    have h1 : 0 < A * (u - t) - 2 * w := by
      by_contra h
      push Not at h
      nlinarith [mul_nonneg_of_nonpos_of_nonpos (by linarith : u - t ≤ 0) h]
    have hA : A < 0 := by
      by_contra hA
      push Not at hA
      nlinarith [mul_nonneg hA (by linarith : 0 ≤ t - u)]
    have h2 : 0 < A * (u0 - t) - 2 * w := by nlinarith [mul_pos (neg_pos.mpr hA) (by linarith : 0 < u - u0)]
    nlinarith [mul_neg_of_neg_of_pos (by linarith : u0 - t < 0) h2]
  have hut0 : u0 ≤ t := by
    by_contra hc
    push Not at hc
    have h1 : 0 < A * (u0 - t) - 2 * w := by
      by_contra h
      push Not at h
      nlinarith [mul_nonpos_of_nonneg_of_nonpos (by linarith : 0 ≤ u0 - t) h]
    have hA : 0 < A := by
      by_contra hA
      push Not at hA
      nlinarith [mul_nonneg (neg_nonneg.mpr hA) (by linarith : 0 ≤ u0 - t)]
    have h2 : 0 < A * (u - t) - 2 * w := by nlinarith [mul_pos hA (by linarith : 0 < u - u0)]
    nlinarith [mul_pos (by linarith : 0 < u - t) h2]
  rw [ht]
  exact ⟨t, by simp only [if_neg (not_lt.mpr (h0.trans hut0))], hut0, hut⟩

theorem entry_root {A b c t : ℝ} (h : entryRoot A b c = some t) : t = kInfLength ∨ A * t ^ 2 + 2 * b * t + c = 0 := by
  unfold entryRoot at h
  split at h
  swap
  · cases h
  rename_i hD
  have hw := sqrt_pos.mpr hD
  have hw2 := sq_sqrt hD.le
  dsimp only at h
  generalize √(b * b - A * c) = w at *
  have h := Option.some.inj h
  rw [← h]
  by_cases hb : b ≥ 0
  · rw [if_pos hb]
    unfold quot
    by_cases hA : A = 0
    · rw [if_pos hA, if_neg (show ¬ 0 < -b - w by linarith)]
      left
      rw [if_pos (by norm_num)]
    · rw [if_neg hA]
      split
      · exact Or.inl rfl
      · right
        field_simp
        linear_combination hw2
  · rw [if_neg hb]
    split
    · exact Or.inl rfl
    · right
      push Not at hb
      have hne : -b + w ≠ 0 := by linarith
      have h1 : A * (c / (-b + w)) + b = -w := by
        field_simp
        linear_combination hw2
      have h2 : c / (-b + w) * (-b + w) = c := div_mul_cancel₀ _ hne
      linear_combination c / (-b + w) * h1 - h2

theorem out_entry (s : State) (p d : V3) : wall true false s p d = entryRoot (qa s.tOut2 d) (qb s.tOut2 p d) (qc s.tOut2 s.rmax2 p) := by
  unfold wall entryRoot qd
  simp only [Bool.false_eq_true, if_false, if_true]

theorem neg_entry (s : State) (p d : V3) :
    wall true true s p d = entryRoot (-qa s.tIn2 d) (-qb s.tIn2 p d) (-qc s.tIn2 s.rmin2 p) := by
  unfold wall entryRoot qd
  simp only [if_true]
  generalize qa s.tIn2 d = A
  generalize qb s.tIn2 p d = b
  generalize qc s.tIn2 s.rmin2 p = c
  have e : -b * -b - -A * -c = b * b - A * c := by ring
  rw [e]
  split
  swap
  · rfl
  rename_i hD
  have hw := sqrt_pos.mpr hD
  have hw2 := sq_sqrt hD.le
  congr 1
  generalize √(b * b - A * c) = w at *
  have hk := kInfLength_pos
  rcases lt_trichotomy b 0 with hb | hb | hb
  · have hb' : -b ≥ 0 := by linarith
    rw [if_pos hb, if_pos hb']
    unfold quot
    by_cases hA : A = 0
    · have hA' : -A = 0 := by rw [hA, neg_zero]
      rw [if_pos hA, if_pos hA', if_pos (show 0 < -b + w by linarith), if_neg (show ¬ (0 : ℝ) < - -b - w by linarith),
        if_pos (show (-1 : ℝ) < 0 by norm_num), if_neg (not_lt.mpr hk.le)]
    · rw [if_neg hA, if_neg (neg_ne_zero.mpr hA)]
      have : (- -b - w) / -A = (-b + w) / A := by field_simp; ring
      rw [this]
  · have hb' : -b ≥ 0 := by linarith
    rw [if_neg (show ¬ b < 0 by linarith), if_pos hb']
    have hA : A ≠ 0 := by
      intro hA
      rw [hb, hA] at hD
      linarith
    unfold quot
    rw [if_neg (neg_ne_zero.mpr hA)]
    have : (- -b - w) / -A = c / (-b - w) := by
      rw [hb] at hw2 ⊢
      have := hw.ne'
      rw [div_eq_div_iff (neg_ne_zero.mpr hA) (by simp [this])]
      linear_combination hw2
    rw [this]
  · rw [if_neg (show ¬ b < 0 by linarith), if_neg (show ¬ -b ≥ 0 by linarith)]
    have : -c / (- -b + w) = c / (-b - w) := by
      rw [show - -b + w = -(-b - w) by ring, neg_div_neg_eq]
    rw [this]

theorem at_between {p d : V3} {u0 t u h : ℝ} (h0 : u0 ≤ t) (h1 : t ≤ u) (a0 : |p.z + u0 * d.z| ≤ h) (a1 : |p.z + u * d.z| ≤ h) :
    |p.z + t * d.z| ≤ h := by
  rw [abs_le] at *
  rcases le_total 0 d.z with hd | hd
  · have := mul_le_mul_of_nonneg_right h0 hd
    have := mul_le_mul_of_nonneg_right h1 hd
    constructor <;> linarith
  · have := mul_le_mul_of_nonpos_right h0 hd
    have := mul_le_mul_of_nonpos_right h1 hd
    constructor <;> linarith

/-- The outer wall is found. -/
theorem wall_out_found (g : Good s a) {p d : V3} {u0 u : ℝ} (h0 : 0 ≤ u0) (hu : u0 ≤ u)
    (hp : a.out2 (V3.at' p d u0).z < (V3.at' p d u0).x ^ 2 + (V3.at' p d u0).y ^ 2) (hz : |(V3.at' p d u0).z| ≤ a.dz)
    (ho : a.Open (V3.at' p d u)) : ∃ t, wallIn false s p d = some t ∧ t ≤ u := by
  obtain ⟨t, ht, t1, t2⟩ := entry_between (A := qa s.tOut2 d) (b := qb s.tOut2 p d) (c := qc s.tOut2 s.rmax2 p) h0 hu
    (by rw [← ray_out g]; linarith) (by rw [← ray_out g]; linarith [ho.out])
  rw [← out_entry] at ht
  refine ⟨t, ?_, t2⟩
  unfold wallIn
  rw [ht]
  simp only
  rw [if_pos]
  rw [g.dz]
  exact at_between t1 t2 hz ho.z.le

/-- The inner wall is found. -/
theorem wall_in_found (g : Good s a) (hh : a.Hollow) {p d : V3} {u0 u : ℝ} (h0 : 0 ≤ u0) (hu : u0 ≤ u)
    (hp : (V3.at' p d u0).x ^ 2 + (V3.at' p d u0).y ^ 2 < a.in2 (V3.at' p d u0).z) (hz : |(V3.at' p d u0).z| ≤ a.dz)
    (ho : a.Open (V3.at' p d u)) : ∃ t, wallIn true s p d = some t ∧ t ≤ u := by
  have r1 := ray_in g p d u0
  have r2 := ray_in g p d u
  have := ho.inn hh
  obtain ⟨t, ht, t1, t2⟩ := entry_between (A := -qa s.tIn2 d) (b := -qb s.tIn2 p d) (c := -qc s.tIn2 s.rmin2 p) h0 hu
    (by linarith) (by linarith)
  rw [← neg_entry] at ht
  refine ⟨t, ?_, t2⟩
  unfold wallIn
  rw [ht]
  simp only
  rw [if_pos]
  rw [g.dz]
  exact at_between t1 t2 hz ho.z.le

/-- C159: a ray from beside the solid into it: `DistanceToIn` is at most the distance to any point inside.  Missing: points within
the tolerance for squared distances of the wall. -/
theorem C159_found_side_partial (g : Good s a) (p d : V3) (hz : |p.z| ≤ a.dz)
    (hp : a.out2 p.z + kHalfTolerance < p.x ^ 2 + p.y ^ 2) {u : ℝ} (hu : 0 ≤ u) (ho : a.Open (V3.at' p d u)) :
    distanceToIn k s p d ≤ u := by
  have hT := kHalfTolerance_pos
  have e0 := at_zero p d
  obtain ⟨t, ht, htu⟩ := wall_out_found g le_rfl hu (by rw [e0]; linarith) (by rw [e0]; exact hz) ho
  unfold distanceToIn
  dsimp only
  split
  · exact hu
  split
  · linarith
  have ng : ¬ (|p.z| > s.dz ∧ p.z * d.z < 0) := fun h => by rw [g.dz] at h; linarith [h.1]
  rw [if_neg (fun h => ng h.1), if_pos]
  · rw [ht]; exact htu
  · right; left
    refine ⟨?_, abs_nonneg _, by rw [g.dz]; exact hz⟩
    have : s.rmax2 + s.tOut2 * |p.z| * |p.z| = a.out2 p.z := by
      rw [← out2_abs, g.rmax2, g.tOut2]; unfold Par.out2; ring
    rw [this, perp2_eq]
    exact hp

/-- C159: the same from a point in the hole, if the solid is there not thinner than the tolerance. -/
theorem C159_found_hole_partial (hv : a.Valid) (g : Good s a) (hk : k.Fits a) (hh : a.Hollow) (p d : V3) (hz : |p.z| ≤ a.dz)
    (hp : p.x ^ 2 + p.y ^ 2 < a.in2 p.z - kHalfTolerance) (hthick : kTolerance * √(a.out2 a.dz) ≤ a.out2 p.z - a.in2 p.z)
    {u : ℝ} (hu : 0 ≤ u) (ho : a.Open (V3.at' p d u)) : distanceToIn k s p d ≤ u := by
  have hT := kHalfTolerance_pos
  have e0 := at_zero p d
  have hio := in2_lt_out2 hv hz
  obtain ⟨t, ht, htu⟩ := wall_in_found g hh le_rfl hu (by rw [e0]; linarith) (by rw [e0]; exact hz) ho
  have e1 : s.rmax2 + s.tOut2 * |p.z| * |p.z| = a.out2 p.z := by
    rw [← out2_abs, g.rmax2, g.tOut2]; unfold Par.out2; ring
  have e2 : s.rmin2 + s.tIn2 * |p.z| * |p.z| = a.in2 p.z := by
    rw [← in2_abs, g.rmin2, g.tIn2]; unfold Par.in2; ring
  unfold distanceToIn
  dsimp only
  split
  · exact hu
  split
  · linarith
  have ng : ¬ (|p.z| > s.dz ∧ p.z * d.z < 0) := fun h => by rw [g.dz] at h; linarith [h.1]
  rw [if_neg (fun h => ng h.1), if_neg, if_pos]
  · rw [ht]; exact htu
  · refine ⟨(treat_iff g hk).mpr hh, Or.inr (Or.inl ⟨?_, abs_nonneg _, by rw [g.dz]; exact hz⟩)⟩
    rw [e2, perp2_eq]
    exact hp
  · rintro (h | h | h)
    · exact ng h.1
    · have := h.1
      rw [e1, perp2_eq] at this
      linarith
    · have := h.1.1
      unfold OnOuter at this
      rw [oRad2_eq g, perp2_eq, g.outTol] at this
      have := (abs_lt.mp this).2
      linarith

/-- The time at which the ray reaches the plane of the lid that it comes from. -/
noncomputable def Par.lidTime (a : Par) (p d : V3) : ℝ := (|p.z| - a.dz) / |d.z|

/-- What the code computes for it. -/
theorem zDist_in (hv : a.Valid) (g : Good s a) {p d : V3} (hp : a.dz < |p.z|) (hpd : p.z * d.z < 0) :
    zDist true s p d = (|p.z| - a.dz) / (|d.z| + kTiny) := by
  have hd := hv.dz
  unfold zDist
  simp only [if_true]
  rw [g.dz]
  rcases lt_trichotomy p.z 0 with h | h | h
  · have hz : 0 < d.z := by
      by_contra hc; push Not at hc
      nlinarith [mul_nonneg (neg_nonneg.mpr h.le) (neg_nonneg.mpr hc)]
    unfold sign nonZero copySign
    rw [if_pos h, if_neg (not_lt.mpr hz.le), abs_of_neg h, abs_of_pos hz]
    congr 1; ring
  · rw [h, zero_mul] at hpd; exact absurd hpd (lt_irrefl 0)
  · have hz : d.z < 0 := by
      by_contra hc; push Not at hc
      nlinarith [mul_nonneg h.le hc]
    unfold sign nonZero copySign
    rw [if_neg (not_lt.mpr h.le), if_pos hz, abs_of_pos h, abs_of_neg hz]
    rw [show d.z + -kTiny = -(-d.z + kTiny) by ring, show (1 * a.dz - p.z) = -(p.z - a.dz) by ring, neg_div_neg_eq]

theorem z_abs {p d : V3} (hpd : p.z * d.z < 0) {t : ℝ} (h : t * |d.z| ≤ |p.z|) : |p.z + t * d.z| = |p.z| - t * |d.z| := by
  rcases lt_trichotomy p.z 0 with hp | hp | hp
  · have hz : 0 < d.z := by
      by_contra hc; push Not at hc
      nlinarith [mul_nonneg (neg_nonneg.mpr hp.le) (neg_nonneg.mpr hc)]
    rw [abs_of_neg hp, abs_of_pos hz] at *
    rw [abs_of_nonpos (by linarith)]; ring
  · rw [hp, zero_mul] at hpd; exact absurd hpd (lt_irrefl 0)
  · have hz : d.z < 0 := by
      by_contra hc; push Not at hc
      nlinarith [mul_nonneg hp.le hc]
    rw [abs_of_pos hp, abs_of_neg hz] at *
    rw [abs_of_nonneg (by linarith)]; ring

/-- C159: the same from above or below the solid.  Missing: rays that cross the edge of a lid within the error of the divisor. -/
theorem C159_found_lid_partial (hv : a.Valid) (g : Good s a) (hk : k.Fits a) (p d : V3) (hp : a.dz < |p.z|)
    (hm : ∀ v, 0 ≤ a.lidTime p d - v → (a.lidTime p d - v) * |d.z| ≤ a.lidTime p d * kTiny →
      (V3.at' p d v).x ^ 2 + (V3.at' p d v).y ^ 2 ≠ a.out2 a.dz ∧ (a.Hollow → (V3.at' p d v).x ^ 2 + (V3.at' p d v).y ^ 2 ≠ a.in2 a.dz))
    {u : ℝ} (hu : 0 ≤ u) (ho : a.Open (V3.at' p d u)) : distanceToIn k s p d ≤ u := by
  have hT := kTiny_pos
  have hd := hv.dz
  have hzu := ho.z
  rw [V3.at_z] at hzu
  -- the ray goes towards the solid
  have hpd : p.z * d.z < 0 := by
    by_contra hc
    push Not at hc
    have h1 : p.z ^ 2 ≤ (p.z + u * d.z) ^ 2 := by nlinarith [mul_nonneg hu hc, sq_nonneg (u * d.z)]
    have := sq_le_sq.mp h1
    linarith
  have hdz : 0 < |d.z| := abs_pos.mpr (fun h => by rw [h, mul_zero] at hpd; exact lt_irrefl 0 hpd)
  set τ := a.lidTime p d with hτ
  have hτe : τ * |d.z| = |p.z| - a.dz := div_mul_cancel₀ _ hdz.ne'
  have hτ0 : 0 < τ := div_pos (by linarith) hdz
  have hzτ : |p.z + τ * d.z| = a.dz := by rw [z_abs hpd (by linarith), hτe]; ring
  have hτu : τ ≤ u := by
    by_contra hc
    push Not at hc
    have := z_abs hpd (t := u) (by nlinarith)
    rw [this] at hzu
    nlinarith
  have hzd := zDist_in hv g hp hpd
  have hσ0 : 0 ≤ zDist true s p d := by rw [hzd]; exact div_nonneg (by linarith) (by linarith)
  have hσe : zDist true s p d * (|d.z| + kTiny) = |p.z| - a.dz := by rw [hzd]; exact div_mul_cancel₀ _ (by linarith)
  set σ := zDist true s p d with hσ
  have hστ : σ ≤ τ := by
    by_contra hc
    push Not at hc
    nlinarith
  have hmar : (τ - σ) * |d.z| ≤ τ * kTiny := by nlinarith
  -- between the computed and the true crossing the ray does not cross the edges
  have hcont : Continuous fun v => (V3.at' p d v).x ^ 2 + (V3.at' p d v).y ^ 2 := by
    simp only [V3.at_x, V3.at_y]; fun_prop
  have same : ∀ R, (∀ v, σ ≤ v → v ≤ τ → (V3.at' p d v).x ^ 2 + (V3.at' p d v).y ^ 2 ≠ R) →
      (R < (V3.at' p d τ).x ^ 2 + (V3.at' p d τ).y ^ 2 ↔ R < (V3.at' p d σ).x ^ 2 + (V3.at' p d σ).y ^ 2) := by
    intro R hR
    constructor
    · intro h
      by_contra hc
      push Not at hc
      obtain ⟨v, hv1, hv2⟩ := intermediate_value_Icc hστ hcont.continuousOn ⟨hc, h.le⟩
      exact hR v hv1.1 hv1.2 hv2
    · intro h
      by_contra hc
      push Not at hc
      obtain ⟨v, hv1, hv2⟩ := intermediate_value_Icc' hστ hcont.continuousOn ⟨hc, h.le⟩
      exact hR v hv1.1 hv1.2 hv2
  have rng : ∀ v, σ ≤ v → v ≤ τ → 0 ≤ τ - v ∧ (τ - v) * |d.z| ≤ τ * kTiny := fun v h1 h2 =>
    ⟨by linarith, le_trans (mul_le_mul_of_nonneg_right (by linarith) hdz.le) hmar⟩
  have so := same (a.out2 a.dz) (fun v h1 h2 => (hm v (rng v h1 h2).1 (rng v h1 h2).2).1)
  have hne : (V3.at' p d τ).x ^ 2 + (V3.at' p d τ).y ^ 2 ≠ a.out2 a.dz := (hm τ (rng τ hστ le_rfl).1 (rng τ hστ le_rfl).2).1
  have hnσ : (V3.at' p d σ).x ^ 2 + (V3.at' p d σ).y ^ 2 ≠ a.out2 a.dz := (hm σ (rng σ le_rfl hστ).1 (rng σ le_rfl hστ).2).1
  have eo : a.out2 (V3.at' p d τ).z = a.out2 a.dz := by rw [← out2_abs, V3.at_z, hzτ]
  have ei : a.in2 (V3.at' p d τ).z = a.in2 a.dz := by rw [← in2_abs, V3.at_z, hzτ]
  have hzτ' : |(V3.at' p d τ).z| ≤ a.dz := by rw [V3.at_z, hzτ]
  have hgo : |p.z| > s.dz ∧ p.z * d.z < 0 := ⟨by rw [g.dz]; exact hp, hpd⟩
  unfold distanceToIn
  dsimp only
  split
  · exact hu
  split
  · linarith
  rw [← hσ]
  by_cases hhit : hitsLid k s (V3.at' p d σ)
  · rw [if_pos ⟨hgo, hhit⟩]
    linarith
  rw [if_neg (fun h => hhit h.2)]
  by_cases hout : a.out2 a.dz < (V3.at' p d τ).x ^ 2 + (V3.at' p d τ).y ^ 2
  · obtain ⟨t, ht, htu⟩ := wall_out_found g hτ0.le hτu (by rw [eo]; exact hout) hzτ' ho
    rw [if_pos]
    · rw [ht]; exact htu
    · left
      refine ⟨hgo, hhit, ?_⟩
      rw [perp2_eq, g.endOut2]
      exact (so.mp hout).le
  · have hout' : (V3.at' p d σ).x ^ 2 + (V3.at' p d σ).y ^ 2 < a.out2 a.dz :=
      lt_of_le_of_ne (not_lt.mp (fun h => hout (so.mpr h))) hnσ
    have hh : a.Hollow := by
      by_contra hh
      apply hhit
      refine ⟨by rw [perp2_eq, g.endOut2]; exact hout', fun h => absurd ((treat_iff g hk).mp h) hh⟩
    have si := same (a.in2 a.dz) (fun v h1 h2 => (hm v (rng v h1 h2).1 (rng v h1 h2).2).2 hh)
    have hin' : (V3.at' p d σ).x ^ 2 + (V3.at' p d σ).y ^ 2 ≤ a.in2 a.dz := by
      by_contra hc
      push Not at hc
      apply hhit
      exact ⟨by rw [perp2_eq, g.endOut2]; exact hout', fun _ => by rw [perp2_eq, g.endIn2]; exact hc⟩
    have hin : (V3.at' p d τ).x ^ 2 + (V3.at' p d τ).y ^ 2 < a.in2 a.dz :=
      lt_of_le_of_ne (not_lt.mp (fun h => absurd (si.mp h) (not_lt.mpr hin'))) ((hm τ (rng τ hστ le_rfl).1 (rng τ hστ le_rfl).2).2 hh)
    obtain ⟨t, ht, htu⟩ := wall_in_found g hh hτ0.le hτu (by rw [ei]; exact hin) hzτ' ho
    rw [if_neg, if_pos]
    · rw [ht]; exact htu
    · refine ⟨(treat_iff g hk).mpr hh, Or.inl ⟨hgo, hhit, ?_⟩⟩
      rw [perp2_eq, g.endIn2]
      exact hin'
    · rintro (h | h | h)
      · have := h.2.2
        rw [perp2_eq, g.endOut2] at this
        linarith
      · have := h.2.2
        rw [g.dz] at this
        linarith
      · have := h.1.2.2
        rw [g.dz] at this
        linarith

/-- C159: where a positive distance ends: on a wall of the solid, or up to the number added to the divisor on a lid. -/
theorem C159_hit (hv : a.Valid) (g : Good s a) (hk : k.Fits a) (p d : V3) (h0 : 0 < distanceToIn k s p d)
    (h1 : distanceToIn k s p d < kInfLength) :
    let e := V3.at' p d (distanceToIn k s p d)
    a.Surface e ∨ (a.dz < |p.z| ∧ p.z * d.z < 0 ∧ |(|e.z| - a.dz)| * |d.z| ≤ (|p.z| - a.dz) * kTiny ∧
      e.x ^ 2 + e.y ^ 2 < a.out2 a.dz ∧ (a.Hollow → a.in2 a.dz < e.x ^ 2 + e.y ^ 2)) := by
  have hT := kTiny_pos
  have hw : ∀ inner t, wallIn inner s p d = some t → t < kInfLength → (inner = true → a.Hollow) → a.Surface (V3.at' p d t) := by
    intro inner t ht hlt hh
    unfold wallIn at ht
    split at ht
    · cases ht
    · rename_i t' hw
      split at ht
      · rename_i hz
        cases ht
        rw [g.dz] at hz
        have hio := in2_lt_out2 hv hz
        cases inner
        · rw [out_entry] at hw
          rcases entry_root hw with h | h
          · exact absurd h hlt.ne
          · rw [← ray_out g] at h
            have e : (V3.at' p d t).x ^ 2 + (V3.at' p d t).y ^ 2 = a.out2 (V3.at' p d t).z := by linarith
            exact ⟨⟨hz, e.le, by rw [e]; exact hio.le⟩, Or.inr (Or.inl e)⟩
        · rw [neg_entry] at hw
          rcases entry_root hw with h | h
          · exact absurd h hlt.ne
          · have r := ray_in g p d t
            have e : (V3.at' p d t).x ^ 2 + (V3.at' p d t).y ^ 2 = a.in2 (V3.at' p d t).z := by linarith
            exact ⟨⟨hz, by rw [e]; exact hio.le, e.ge⟩, Or.inr (Or.inr ⟨hh rfl, e⟩)⟩
      · cases ht
  generalize hg : distanceToIn k s p d = t at *
  dsimp only
  unfold distanceToIn at hg
  dsimp only at hg
  split at hg
  · linarith
  split at hg
  · linarith
  by_cases hlid : (|p.z| > s.dz ∧ p.z * d.z < 0) ∧ hitsLid k s (V3.at' p d (zDist true s p d))
  · rw [if_pos hlid] at hg
    right
    obtain ⟨⟨hp, hpd⟩, hh⟩ := hlid
    rw [g.dz] at hp
    have hdz : 0 < |d.z| := abs_pos.mpr (fun h => by rw [h, mul_zero] at hpd; exact lt_irrefl 0 hpd)
    have hzd := zDist_in hv g hp hpd
    rw [hg] at hzd hh
    have hte : t * (|d.z| + kTiny) = |p.z| - a.dz := by rw [hzd]; exact div_mul_cancel₀ _ (by linarith)
    have hpos : 0 < t * kTiny := mul_pos h0 hT
    have hz := z_abs hpd (t := t) (by linarith [hv.dz])
    refine ⟨hp, hpd, ?_, ?_, fun h => ?_⟩
    · rw [V3.at_z, hz, show |p.z| - t * |d.z| - a.dz = t * kTiny by linarith, abs_of_pos hpos]
      nlinarith [mul_pos hpos hT]
    · have := hh.1
      rwa [perp2_eq, g.endOut2] at this
    · have := hh.2 ((treat_iff g hk).mpr h)
      rwa [perp2_eq, g.endIn2] at this
  · rw [if_neg hlid] at hg
    left
    split at hg
    · rename_i t' ht'
      split at ht'
      · subst hg
        exact hw false _ ht' h1 (by simp)
      · cases ht'
    · split at hg
      · rename_i t' ht'
        split at ht'
        · rename_i hc
          subst hg
          exact hw true _ ht' h1 (fun _ => (treat_iff g hk).mp hc.1)
        · cases ht'
      · exact absurd hg h1.ne'

/-- C159: a point above the solid, on the surface that continues its wall, gets the distance zero if it moves towards the axis,
although the ray never meets the solid. -/
theorem C159_extension_counterexample (m : State) : distanceToIn .hollow (spool.made m) ⟨√8, 0, 2⟩ ⟨-1, 0, 0⟩ = 0 ∧
    ∀ u, ¬ spool.Closed (V3.at' ⟨√8, 0, 2⟩ ⟨-1, 0, 0⟩ u) := by
  have g := good_made spool m
  have h8 : (√8 : ℝ) ^ 2 = 8 := sq_sqrt (by norm_num)
  have hp8 : (0 : ℝ) < √8 := by positivity
  have ho : ∀ z, spool.out2 z = 4 + z ^ 2 := by intro z; simp only [spool, Par.out2, tan_pi_div_four]; ring
  constructor
  · have hm : movingInside .hollow (spool.made m) ⟨√8, 0, 2⟩ ⟨-1, 0, 0⟩ = true := by
      unfold movingInside
      rw [if_neg, if_pos, decide_eq_true_eq]
      · unfold slope
        dsimp only
        nlinarith
      · unfold OnOuter
        rw [oRad2_eq g, perp2_eq, g.outTol, ho]
        dsimp only
        rw [h8]
        norm_num
        exact mul_pos kTolerance_pos (endOut_pos spool_valid)
      · unfold OnLid
        rw [perp2_eq, g.endOut2, ho]
        rintro ⟨h, -⟩
        dsimp only at h
        rw [h8] at h
        norm_num [spool, kTolerance] at h
    unfold distanceToIn
    dsimp only
    rw [if_pos hm]
  · intro u h
    have := h.z
    simp only [V3.at_z] at this
    norm_num [spool] at this

/-- A thin one. -/
noncomputable def needle : Par := ⟨0, 1 / 4, 0, π / 4, 1 / 10⟩

theorem needle_valid : needle.Valid := by
  have := pi_pos
  constructor <;> simp only [needle, Par.in2, Par.out2, tan_pi_div_four, tan_zero] <;> (try linarith) <;> norm_num

/-- C159: near a thin hyperboloid a point that counts as outside, with the axis straight ahead, gets an infinite distance. -/
theorem C159_needle_counterexample (m : State) : ∃ x, inside .nonHollow (needle.made m) ⟨x, 0, 0⟩ = .outside ∧
    distanceToIn .nonHollow (needle.made m) ⟨x, 0, 0⟩ ⟨-1, 0, 0⟩ = kInfLength ∧
    ∃ u, 0 < u ∧ needle.Open (V3.at' ⟨x, 0, 0⟩ ⟨-1, 0, 0⟩ u) := by
  have g := good_made needle m
  have hnh : ¬ needle.Hollow := by
    rintro (h | h)
    · simp [needle] at h
    · exact h rfl
  have hk : Kind.nonHollow.Fits needle := Or.inl ⟨rfl, hnh⟩
  have hx2 : (√(1 / 16 + 4 / 10 ^ 10) : ℝ) ^ 2 = 1 / 16 + 4 / 10 ^ 10 := sq_sqrt (by norm_num)
  have hx0 : (0 : ℝ) < √(1 / 16 + 4 / 10 ^ 10) := by positivity
  have hox : needle.out2 0 = 1 / 16 := by simp only [needle, Par.out2, tan_pi_div_four]; norm_num
  have hod : √(needle.out2 needle.dz) ≤ 3 / 10 := by
    rw [sqrt_le_left (by norm_num)]; simp only [needle, Par.out2, tan_pi_div_four]; norm_num
  have ht : kTolerance * √(needle.out2 needle.dz) ≤ 3 / 10 ^ 10 := by
    have := mul_le_mul_of_nonneg_left hod kTolerance_pos.le
    norm_num [kTolerance] at this ⊢
    linarith
  generalize √(1 / 16 + 4 / 10 ^ 10 : ℝ) = x at hx2 hx0
  have hdz : needle.dz = 1 / 10 := rfl
  refine ⟨x, ?_, ?_, x, hx0, ?_⟩
  · rw [(inside_cases needle_valid g hk _).2, outside_iff g hk]
    right; left
    dsimp only
    rw [hox, hx2]
    norm_num at ht ⊢
    linarith
  · unfold distanceToIn
    have hm : movingInside .nonHollow (needle.made m) ⟨x, 0, 0⟩ ⟨-1, 0, 0⟩ = false := by
      unfold movingInside
      rw [if_neg, if_neg, if_neg]
      · simp [treat]
      · unfold OnOuter
        rw [oRad2_eq g, perp2_eq, g.outTol]
        dsimp only
        rw [hox, hx2]
        intro h
        have := (abs_lt.mp h).1
        norm_num at ht this
        linarith
      · rintro ⟨-, -, h⟩
        rw [g.dz, hdz] at h
        norm_num [kTolerance, abs_of_pos] at h
    have hdeep : deep .nonHollow (needle.made m) ⟨x, 0, 0⟩ = false := by
      rw [← Bool.not_eq_true, deep_iff g hk]
      rintro ⟨-, h, -⟩
      dsimp only at h
      rw [hox, hx2] at h
      have := mul_pos kTolerance_pos (endOut_pos needle_valid)
      norm_num at h
      linarith
    dsimp only
    have e1 : (needle.made m).rmax2 + (needle.made m).tOut2 * |(0 : ℝ)| * |(0 : ℝ)| = 1 / 16 := by
      rw [g.rmax2, abs_zero]; norm_num [needle]
    rw [hm, hdeep]
    simp only [Bool.false_eq_true, if_false]
    rw [if_neg (by rintro ⟨⟨-, h⟩, -⟩; simp at h), if_neg, if_neg (fun h => by simp [treat] at h)]
    rintro (h | h | h)
    · have := h.1.2
      simp at this
    · have := h.1
      rw [e1, perp2_eq] at this
      dsimp only at this
      rw [hx2] at this
      norm_num [kHalfTolerance, kTolerance] at this
    · have := h.2
      unfold slope at this
      dsimp only at this
      linarith
  · refine ⟨?_, ?_, fun h => absurd h hnh⟩
    · simp only [V3.at_z]; norm_num [needle]
    · simp only [V3.at_x, V3.at_y, V3.at_z]
      have e : x + x * -1 = 0 := by ring
      rw [e, mul_zero, add_zero, hox]
      norm_num

/-- Not vacuous: a ray from the side. -/
example (m : State) : distanceToIn .hollow (spool.made m) ⟨4, 0, 0⟩ ⟨-1, 0, 0⟩ ≤ 5 / 2 := by
  have ho : ∀ z, spool.out2 z = 4 + z ^ 2 := by intro z; simp only [spool, Par.out2, tan_pi_div_four]; ring
  have hi : ∀ z, spool.in2 z = 1 + z ^ 2 := by intro z; simp only [spool, Par.in2, tan_pi_div_four]; ring
  apply C159_found_side_partial (good_made spool m)
  · norm_num [spool]
  · rw [ho]; norm_num [kHalfTolerance, kTolerance]
  · norm_num
  · refine ⟨?_, ?_, fun _ => ?_⟩
    · simp only [V3.at_z]; norm_num [spool]
    · rw [ho]; simp only [V3.at_x, V3.at_y, V3.at_z]; norm_num
    · rw [hi]; simp only [V3.at_x, V3.at_y, V3.at_z]; norm_num

/-- Not vacuous: a ray from the axis. -/
example (m : State) : distanceToIn .hollow (spool.made m) ⟨0, 0, 0⟩ ⟨1, 0, 0⟩ ≤ 3 / 2 := by
  have hk : Kind.hollow.Fits spool := Or.inr (Or.inl ⟨rfl, spool_hollow⟩)
  have ho : ∀ z, spool.out2 z = 4 + z ^ 2 := by intro z; simp only [spool, Par.out2, tan_pi_div_four]; ring
  have hi : ∀ z, spool.in2 z = 1 + z ^ 2 := by intro z; simp only [spool, Par.in2, tan_pi_div_four]; ring
  apply C159_found_hole_partial spool_valid (good_made spool m) hk spool_hollow
  · norm_num [spool]
  · rw [hi]; norm_num [kHalfTolerance, kTolerance]
  · rw [ho, hi, ho]
    have : √(4 + spool.dz ^ 2) ≤ 3 := by
      rw [sqrt_le_left (by norm_num)]; norm_num [spool]
    have := mul_le_mul_of_nonneg_left this kTolerance_pos.le
    norm_num [kTolerance] at this ⊢
    linarith
  · norm_num
  · refine ⟨?_, ?_, fun _ => ?_⟩
    · simp only [V3.at_z]; norm_num [spool]
    · rw [ho]; simp only [V3.at_x, V3.at_y, V3.at_z]; norm_num
    · rw [hi]; simp only [V3.at_x, V3.at_y, V3.at_z]; norm_num

/-- Not vacuous: a ray from above. -/
example (m : State) : distanceToIn .hollow (spool.made m) ⟨3 / 2, 0, 3⟩ ⟨0, 0, -1⟩ ≤ 3 := by
  have hk : Kind.hollow.Fits spool := Or.inr (Or.inl ⟨rfl, spool_hollow⟩)
  have ho : ∀ z, spool.out2 z = 4 + z ^ 2 := by intro z; simp only [spool, Par.out2, tan_pi_div_four]; ring
  have hi : ∀ z, spool.in2 z = 1 + z ^ 2 := by intro z; simp only [spool, Par.in2, tan_pi_div_four]; ring
  apply C159_found_lid_partial spool_valid (good_made spool m) hk
  · norm_num [spool]
  · intro v _ _
    rw [ho, hi]
    simp only [V3.at_x, V3.at_y, mul_zero, add_zero]
    constructor
    · norm_num [spool]
    · intro _; norm_num [spool]
  · norm_num
  · refine ⟨?_, ?_, fun _ => ?_⟩
    · simp only [V3.at_z]; norm_num [spool]
    · rw [ho]; simp only [V3.at_x, V3.at_y, V3.at_z]; norm_num
    · rw [hi]; simp only [V3.at_x, V3.at_y, V3.at_z]; norm_num

/-- Not vacuous: the way out along the axis direction from between the walls. -/
example (m : State) {u : ℝ} (hu : 0 ≤ u) (h : u ≤ distanceToOut .hollow (spool.made m) ⟨3 / 2, 0, 0⟩ ⟨1, 0, 0⟩) :
    spool.Closed (V3.at' ⟨3 / 2, 0, 0⟩ ⟨1, 0, 0⟩ u) := by
  have hk : Kind.hollow.Fits spool := Or.inr (Or.inl ⟨rfl, spool_hollow⟩)
  have ho : ∀ z, spool.out2 z = 4 + z ^ 2 := by intro z; simp only [spool, Par.out2, tan_pi_div_four]; ring
  have hi : ∀ z, spool.in2 z = 1 + z ^ 2 := by intro z; simp only [spool, Par.in2, tan_pi_div_four]; ring
  refine C158_out_never_beyond_partial spool_valid (good_made spool m) hk _ _ ⟨?_, ?_, ?_⟩ ?_ ?_ hu h
  · norm_num [spool]
  · rw [ho]; norm_num
  · rw [hi]; norm_num
  · intro h; rw [ho] at h; norm_num at h
  · intro _ h; rw [hi] at h; norm_num at h

end Hype
end VecGeom
