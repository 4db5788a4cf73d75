import Verif.Paraboloid.Lemmas

/-!
# C135, C136: containment and safeties of paraboloids
-/

namespace VecGeom
namespace Paraboloid

open Real

variable {a : Par} {s : State}

/-! ## The solid that is used as an example: lower radius 1, upper radius 2, half height 1 -/

/-- Lower radius 1, upper radius 2, half height 1. -/
def cup : Par := ⟨1, 2, 1⟩

theorem cup_valid : cup.Valid := ⟨by norm_num [cup], by norm_num [cup], by norm_num [cup]⟩

/-- Some memory to build a solid in. -/
def mem : State := ⟨0, 0, 0, 0, 0, 0, 0, 0, 0, 0, 0, 0, 0, 0⟩

/-- The solid of the example, as built. -/
noncomputable def cupS : State := create mem cup.rlo cup.rhi cup.dz

theorem cup_good : Good cupS cup := good_create cup_valid mem

theorem cup_curv : cup.curv = 2 / 3 := by norm_num [Par.curv, cup]

theorem cup_r2 (z : ℝ) : cup.r2 z = 1 + 3 * (z + 1) / 2 := by
  simp only [Par.r2, cup]
  ring

/-! ## C135 -/

/-- C135: what `Inside` and `Contains` decide. -/
theorem C135_inside (hv : a.Valid) (g : Good s a) (p : V3) :
    (contains s p = true ↔ inside s p ≠ .outside) ∧
    (contains s p = true ↔ |p.z| ≤ a.dz + kTolerance ∧ p.x ^ 2 + p.y ^ 2 ≤ a.r2 p.z + kTolerance) ∧
    (inside s p = .inside ↔ |p.z| < a.dz - kTolerance ∧ p.x ^ 2 + p.y ^ 2 < a.r2 p.z - kTolerance) := by
  have ht := kTolerance_pos
  unfold contains inside genericKernel
  rw [diff_eq hv g, g.dz, perp2_eq]
  by_cases h : |p.z| > a.dz + kTolerance ∨ p.x ^ 2 + p.y ^ 2 - a.r2 p.z > kTolerance
  · simp only [if_pos h]
    refine ⟨by simp, ?_, ?_⟩
    · simp only [Bool.not_true, Bool.false_eq_true, false_iff]
      rintro ⟨h1, h2⟩
      rcases h with h | h <;> linarith
    · simp only [if_true, Bool.false_eq_true, if_false, reduceCtorEq, false_iff]
      rintro ⟨h1, h2⟩
      rcases h with h | h <;> linarith
  · simp only [if_neg h]
    rw [not_or, not_lt, not_lt] at h
    refine ⟨?_, ?_, ?_⟩
    · simp only [Bool.not_false, if_true, Bool.false_eq_true, if_false, decide_eq_true_eq]
      split <;> simp
    · simp only [Bool.not_false, true_iff]
      exact ⟨h.1, by linarith⟩
    · simp only [if_true, Bool.false_eq_true, if_false, decide_eq_true_eq]
      split
      · rename_i h'
        simp only [true_iff]
        exact ⟨h'.1, by linarith [h'.2]⟩
      · rename_i h'
        simp only [reduceCtorEq, false_iff]
        rintro ⟨h1, h2⟩
        exact h' ⟨h1, by linarith⟩

/-- C135: every point of the solid is contained, and a point that is reported inside is a point of the solid that is not on
its surface. -/
theorem C135_meaning (hv : a.Valid) (g : Good s a) (p : V3) :
    (a.Closed p → contains s p = true) ∧ (inside s p = .inside → a.Closed p ∧ ¬ a.Surface p) := by
  have ht := kTolerance_pos
  have h := C135_inside hv g p
  constructor
  · intro hc
    rw [h.2.1]
    have h1 := abs_le.mpr ⟨hc.lo, hc.hi⟩
    exact ⟨by linarith, by linarith [hc.r]⟩
  · intro hi
    obtain ⟨h1, h2⟩ := h.2.2.mp hi
    have h3 := abs_lt.mp h1
    refine ⟨⟨by linarith, by linarith, by linarith⟩, fun hs => ?_⟩
    rcases hs.on with h4 | h4 | h4 <;> linarith

/-- C135: a point that is contained is close to the solid. -/
theorem C135_near (hv : a.Valid) (g : Good s a) (p : V3) (h : contains s p = true) :
    ∃ q, a.Closed q ∧ V3.dist p q ≤ kTolerance + √(kTolerance * (1 + 1 / a.curv)) := by
  have ht := kTolerance_pos
  have hA := curv_pos hv
  obtain ⟨h1, h2⟩ := (C135_inside hv g p).2.1.mp h
  -- the height moved into the range
  obtain ⟨z, hz0, hz1, hz2, hz3⟩ : ∃ z : ℝ, -a.dz ≤ z ∧ z ≤ a.dz ∧ |p.z - z| ≤ kTolerance ∧ p.z - z ≤ kTolerance ∧
      (p.z - z ≤ kTolerance) := by
    have h3 := abs_le.mp h1
    have hz := hv.dz
    rcases lt_or_ge a.dz p.z with h4 | h4
    · exact ⟨a.dz, by linarith, le_refl _, by rw [abs_le]; constructor <;> linarith, by linarith, by linarith⟩
    · rcases lt_or_ge p.z (-a.dz) with h5 | h5
      · exact ⟨-a.dz, le_refl _, by linarith, by rw [abs_le]; constructor <;> linarith, by linarith, by linarith⟩
      · exact ⟨p.z, h5, h4, by simpa using ht.le, by simpa using ht.le, by simpa using ht.le⟩
  have hr2 : a.r2 p.z ≤ a.r2 z + kTolerance / a.curv := by
    rw [r2_eq hv, r2_eq hv]
    have : (p.z + a.dz) / a.curv ≤ (z + a.dz) / a.curv + kTolerance / a.curv := by
      rw [← add_div]
      exact div_le_div_of_nonneg_right (by linarith [hz3.1]) hA.le
    linarith
  have hr0 : 0 ≤ a.r2 z := by
    rw [r2_eq hv]
    have : 0 ≤ (z + a.dz) / a.curv := div_nonneg (by linarith) hA.le
    positivity
  set e := kTolerance * (1 + 1 / a.curv) with he
  have hee : kTolerance + kTolerance / a.curv = e := by rw [he]; ring
  have he0 : 0 ≤ e := by rw [he]; positivity
  have hle : perp2 p ≤ a.r2 z + e := by rw [perp2_eq]; linarith
  have fin : ∀ q : V3, q.z = z → flat p q ≤ √e → V3.dist p q ≤ kTolerance + √e := by
    intro q hq hf
    have h3 := dist_sq p q
    have h4 := flat_nonneg p q
    have h5 := V3.dist_nonneg' p q
    rw [hq] at h3
    have h6 := sq_abs (p.z - z)
    have h7 := abs_nonneg (p.z - z)
    have h8 : V3.dist p q ≤ flat p q + |p.z - z| := by
      apply le_of_sq_le_sq _ (by positivity)
      rw [h3]; nlinarith
    linarith
  rcases le_or_gt (perp2 p) (a.r2 z) with hin | hout
  · refine ⟨⟨p.x, p.y, z⟩, ⟨hz0, hz1, by rw [← perp2_eq]; exact hin⟩, fin _ rfl ?_⟩
    have : flat p ⟨p.x, p.y, z⟩ = 0 := by unfold flat; simp
    rw [this]
    exact sqrt_nonneg _
  · have hr : 0 < √(perp2 p) := sqrt_pos.mpr (by linarith)
    have hrs := sq_sqrt (perp2_nonneg p)
    have hk := root_sq p
    set k := √(a.r2 z) / √(perp2 p) with hkdef
    have hkr : k * √(perp2 p) = √(a.r2 z) := by rw [hkdef]; field_simp
    have hk0 : 0 ≤ k := by rw [hkdef]; positivity
    have hkk : k ^ 2 * (p.x ^ 2 + p.y ^ 2) = a.r2 z := by
      rw [← hk, ← mul_pow, hkr, sq_sqrt hr0]
    have hk1 : k ≤ 1 := by
      rw [hkdef, div_le_one hr]
      exact sqrt_le_sqrt hout.le
    refine ⟨⟨k * p.x, k * p.y, z⟩, ⟨hz0, hz1, ?_⟩, fin _ rfl ?_⟩
    · have : (k * p.x) ^ 2 + (k * p.y) ^ 2 = k ^ 2 * (p.x ^ 2 + p.y ^ 2) := by ring
      dsimp only
      rw [this, hkk]
    · have e1 : flat p ⟨k * p.x, k * p.y, z⟩ = √(perp2 p) - √(a.r2 z) := by
        rw [← hkr]
        unfold flat
        dsimp only
        rw [show (p.x - k * p.x) ^ 2 + (p.y - k * p.y) ^ 2 = ((1 - k) * √(perp2 p)) ^ 2 by rw [mul_pow, hk]; ring,
          sqrt_sq (mul_nonneg (by linarith) hr.le)]
        ring
      rw [e1]
      have h3 : √(perp2 p) ≤ √(a.r2 z) + √e := by
        have h4 := sqrt_nonneg (a.r2 z)
        have h5 := sqrt_nonneg e
        apply le_of_sq_le_sq _ (by positivity)
        rw [hrs]
        nlinarith [sq_sqrt hr0, sq_sqrt he0, mul_nonneg h4 h5]
      linarith

/-- A thin needle: radius 0 at the bottom, 1 at the top, half height 500000. -/
noncomputable def needle : Par := ⟨0, 1, 500000⟩

theorem needle_valid : needle.Valid := ⟨by norm_num [needle], by norm_num [needle], by norm_num [needle]⟩

theorem needle_r2 (z : ℝ) : needle.r2 z = (z + 500000) / 1000000 := by
  simp only [Par.r2, needle]
  ring

/-- C135: the tolerance is one of squared radii, so near the tip it is much wider than the tolerance of the library: a
contained point that is ten thousand tolerances away from the solid. -/
theorem C135_tip_counterexample :
    contains (create mem needle.rlo needle.rhi needle.dz) ⟨3 / 10 ^ 5, 0, -500000⟩ = true ∧
    ∀ q, needle.Closed q → 10 ^ 4 * kTolerance ≤ V3.dist ⟨3 / 10 ^ 5, 0, -500000⟩ q := by
  constructor
  · rw [(C135_inside needle_valid (good_create needle_valid mem) _).2.1, needle_r2]
    norm_num [needle, kTolerance]
  · intro q hq
    by_contra hc
    rw [not_le] at hc
    have e : (10 : ℝ) ^ 4 * kTolerance = 1 / 10 ^ 5 := by norm_num [kTolerance]
    rw [e] at hc
    have h1 := le_abs_self ((3 : ℝ) / 10 ^ 5 - q.x)
    have h2 := V3.abs_x_le_dist ⟨3 / 10 ^ 5, 0, -500000⟩ q
    have h3 := V3.abs_z_le_dist ⟨3 / 10 ^ 5, 0, -500000⟩ q
    have h4 := neg_abs_le ((-500000 : ℝ) - q.z)
    dsimp only at h2 h3
    have h5 := hq.r
    rw [needle_r2] at h5
    have hx : (2 : ℝ) / 10 ^ 5 ≤ q.x := by linarith
    have hz : q.z + 500000 ≤ 1 / 10 ^ 5 := by linarith
    have h6 : ((2 : ℝ) / 10 ^ 5) ^ 2 ≤ q.x ^ 2 := by gcongr
    have h7 := sq_nonneg q.y
    have h8 : (q.z + 500000) / 1000000 ≤ 1 / 10 ^ 5 / 1000000 := by gcongr
    norm_num at h6 h8
    linarith

/-- A point inside, one outside of the example. -/
example : inside cupS ⟨0, 0, 0⟩ = .inside ∧ contains cupS ⟨2, 0, 0⟩ = false ∧ inside cupS ⟨2, 0, 1⟩ = .surface := by
  refine ⟨?_, ?_, ?_⟩
  · rw [(C135_inside cup_valid cup_good _).2.2, cup_r2]
    norm_num [cup, kTolerance]
  · rw [Bool.eq_false_iff, ne_eq, (C135_inside cup_valid cup_good _).2.1, cup_r2]
    norm_num [cup, kTolerance]
  · have h := C135_inside cup_valid cup_good ⟨2, 0, 1⟩
    have h1 : inside cupS ⟨2, 0, 1⟩ ≠ .outside := by
      rw [← h.1, h.2.1, cup_r2]
      norm_num [cup, kTolerance]
    have h2 : inside cupS ⟨2, 0, 1⟩ ≠ .inside := by
      rw [ne_eq, h.2.2, cup_r2]
      norm_num [cup, kTolerance]
    revert h1 h2
    generalize inside cupS ⟨2, 0, 1⟩ = i
    cases i <;> simp

/-! ## C136 -/

/-- The distance to the chord between the points of the parabola beside and below a point. -/
theorem chord {A r r0 u w t : ℝ} (hA : 0 < A) (hr : 0 ≤ r) (hlt : r < r0) (hu : 0 ≤ u) (ht0 : 0 ≤ t)
    (huw : u ^ 2 + w ^ 2 ≤ t ^ 2)
    (ht : t ≤ (r0 - r) * (A * (r0 ^ 2 - r ^ 2)) / √((r0 - r) ^ 2 + (A * (r0 ^ 2 - r ^ 2)) ^ 2)) :
    A * (r + u) ^ 2 ≤ A * r0 ^ 2 - w := by
  have hd : 0 < r0 - r := by linarith
  have hz : 0 < A * (r0 ^ 2 - r ^ 2) := mul_pos hA (by nlinarith)
  set D := r0 - r with hD
  set Z := A * (r0 ^ 2 - r ^ 2) with hZ
  have hn : 0 < √(D ^ 2 + Z ^ 2) := sqrt_pos.mpr (by positivity)
  have hn2 : √(D ^ 2 + Z ^ 2) ^ 2 = D ^ 2 + Z ^ 2 := sq_sqrt (by positivity)
  set N := √(D ^ 2 + Z ^ 2) with hN
  have h1 : t * N ≤ D * Z := (le_div_iff₀ hn).mp ht
  have h2 : u * Z + w * D ≤ t * N := by
    apply le_of_sq_le_sq _ (by positivity)
    rw [mul_pow, hn2]
    nlinarith [sq_nonneg (u * D - w * Z), mul_nonneg (sub_nonneg.mpr huw) (by positivity : 0 ≤ D ^ 2 + Z ^ 2)]
  have h3 : u * Z + w * D ≤ D * Z := h2.trans h1
  have hwabs : |w| ≤ t := by
    rw [← sq_le_sq₀ (abs_nonneg w) ht0, sq_abs]
    nlinarith [sq_nonneg u]
  have hut : u ≤ t := by
    apply le_of_sq_le_sq _ ht0
    nlinarith [sq_nonneg w]
  have huD : u ≤ D := by
    have : t ≤ D := by
      have hZN : Z ≤ N := by
        apply le_of_sq_le_sq _ hn.le
        rw [hn2]; nlinarith [sq_nonneg D]
      by_contra hc
      rw [not_le] at hc
      have := mul_le_mul hc.le hZN hz.le ht0
      have h5 : D * Z < t * N := by
        calc D * Z < t * Z := mul_lt_mul_of_pos_right hc hz
          _ ≤ t * N := mul_le_mul_of_nonneg_left hZN ht0
      linarith
    linarith
  -- w ≤ Z - Z u / D
  have h4 : D * (A * (r + u) ^ 2) ≤ D * (A * r0 ^ 2 - w) := by
    have e : D * (A * r0 ^ 2) - D * (A * (r + u) ^ 2) - (D * Z - u * Z) = D * (A * u * (D - u)) := by
      rw [hZ, hD]; ring
    have : 0 ≤ D * (A * u * (D - u)) := by
      have : 0 ≤ D - u := by linarith
      positivity
    nlinarith
  exact le_of_mul_le_mul_left h4 hd

/-- The tangent to the parabola beside a point. -/
theorem tangent (hv : a.Valid) {p q : V3} (hq : perp2 q ≤ a.r2 q.z) (hr0 : 0 ≤ a.r2 p.z) (hr : √(a.r2 p.z) < √(perp2 p)) :
    (√(perp2 p) - √(a.r2 p.z)) * (2 * a.curv * √(a.r2 p.z)) ≤
      V3.dist p q * √(1 + (2 * a.curv * √(a.r2 p.z)) ^ 2) := by
  have hA := curv_pos hv
  have hrs := root_sq p
  have h0 := sqrt_nonneg (a.r2 p.z)
  have h0s := sq_sqrt hr0
  have hc1 := curv_r2 hv p.z
  have hc2 := curv_r2 hv q.z
  have hq' : a.curv * (q.x ^ 2 + q.y ^ 2) ≤ a.curv * a.r2 q.z := mul_le_mul_of_nonneg_left (by rw [← perp2_eq]; exact hq) hA.le
  have hrp : 0 < √(perp2 p) := lt_of_le_of_lt h0 hr
  generalize √(perp2 p) = r at *
  generalize hR : √(a.r2 p.z) = R at *
  set T := 2 * a.curv * R with hT
  have hT0 : 0 ≤ T := by positivity
  have hN := sqrt_nonneg (1 + T ^ 2)
  have hN2 : √(1 + T ^ 2) ^ 2 = 1 + T ^ 2 := sq_sqrt (by positivity)
  have hD0 := V3.dist_nonneg' p q
  have hD : V3.dist p q ^ 2 = (p.x - q.x) ^ 2 + (p.y - q.y) ^ 2 + (p.z - q.z) ^ 2 := by rw [dist_sq, flat_sq]
  -- the component along the radius of the point
  set w := p.x * q.x + p.y * q.y with hw
  have hww : w ^ 2 ≤ r ^ 2 * (q.x ^ 2 + q.y ^ 2) := by
    rw [hrs, hw]; nlinarith [sq_nonneg (p.x * q.y - p.y * q.x)]
  set m := w / r with hm
  have hmr : m * r = w := by rw [hm]; field_simp
  have hm2 : m ^ 2 ≤ q.x ^ 2 + q.y ^ 2 := by
    have : r ^ 2 * m ^ 2 ≤ r ^ 2 * (q.x ^ 2 + q.y ^ 2) := by rw [← mul_pow, mul_comm r m, hmr]; exact hww
    exact le_of_mul_le_mul_left this (by positivity)
  have hflat : (r - m) ^ 2 ≤ (p.x - q.x) ^ 2 + (p.y - q.y) ^ 2 := by
    have e : (p.x - q.x) ^ 2 + (p.y - q.y) ^ 2 = r ^ 2 - 2 * w + (q.x ^ 2 + q.y ^ 2) := by rw [hrs, hw]; ring
    rw [e, ← hmr]; nlinarith
  have h1 : (r - R) * T ≤ T * (r - m) - (p.z - q.z) := by
    have h2 : a.curv * m ^ 2 ≤ a.curv * (q.x ^ 2 + q.y ^ 2) := mul_le_mul_of_nonneg_left hm2 hA.le
    have h3 : 0 ≤ a.curv * (R - m) ^ 2 := by positivity
    have h4 : a.curv * R ^ 2 = a.curv * a.r2 p.z := by rw [h0s]
    have h5 : T * (r - m) - (p.z - q.z) - (r - R) * T = a.curv * (R - m) ^ 2 + a.curv * R ^ 2 - a.curv * m ^ 2 - (p.z - q.z) := by
      rw [hT]; ring
    linarith
  refine h1.trans ?_
  apply le_of_sq_le_sq _ (by positivity)
  rw [mul_pow, hN2, hD]
  have h6 := mul_nonneg (sub_nonneg.mpr hflat) (by positivity : 0 ≤ 1 + T ^ 2)
  have h7 := sq_nonneg ((r - m) + T * (p.z - q.z))
  have h8 : ((p.x - q.x) ^ 2 + (p.y - q.y) ^ 2 + (p.z - q.z) ^ 2) * (1 + T ^ 2) - (T * (r - m) - (p.z - q.z)) ^ 2 =
      ((r - m) + T * (p.z - q.z)) ^ 2 + ((p.x - q.x) ^ 2 + (p.y - q.y) ^ 2 - (r - m) ^ 2) * (1 + T ^ 2) := by ring
  linarith

/-- C136: the safety from outside is not larger than the distance to any point of the solid. -/
theorem C136_in (hv : a.Valid) (g : Good s a) (p q : V3) (hq : a.Closed q) : safetyToIn s p ≤ V3.dist p q := by
  have hD := V3.dist_nonneg' p q
  obtain ⟨hz, hr⟩ := (closed_iff q).mp hq
  have hA := curv_pos hv
  have hsz : |p.z| - a.dz ≤ V3.dist p q := by
    have h1 := V3.abs_z_le_dist p q
    have h2 := abs_sub_abs_le_abs_sub p.z q.z
    linarith
  unfold safetyToIn
  dsimp only
  rw [g.dz, g.fA, r0sq_eq hv g]
  split
  · linarith
  split
  · exact hD
  split
  · exact hD
  split
  · exact hsz
  rename_i h0
  split
  · exact hsz
  rename_i h1
  rw [not_lt] at h0 h1
  refine max_le ?_ hsz
  have hlt : √(a.r2 p.z) < √(perp2 p) := by
    have : (0 : ℝ) < 1 / 10 ^ 8 := by norm_num
    linarith
  have ht := tangent hv hr h0 hlt
  set T := 2 * a.curv * √(a.r2 p.z) with hT
  have hT0 : 0 ≤ T := by positivity
  have e : -2 * a.curv * √(a.r2 p.z) = -T := by rw [hT]; ring
  rw [e]
  have hn : 0 < √(1 + T ^ 2) := sqrt_pos.mpr (by positivity)
  have e2 : (√(perp2 p) - √(a.r2 p.z)) * (-T / √(1 + -T * -T)) = -((√(perp2 p) - √(a.r2 p.z)) * T / √(1 + T ^ 2)) := by
    rw [show -T * -T = T ^ 2 by ring]
    ring
  rw [e2, abs_neg, abs_of_nonneg (by
    have : 0 ≤ √(perp2 p) - √(a.r2 p.z) := by linarith
    positivity), div_le_iff₀ hn]
  exact ht

/-- C136: the safety from inside is not larger than the distance to any point outside the solid. -/
theorem C136_out (hv : a.Valid) (g : Good s a) (p q : V3) (hq : ¬ a.Closed q) : safetyToOut s p ≤ V3.dist p q := by
  have hD := V3.dist_nonneg' p q
  have hA := curv_pos hv
  by_contra hc
  rw [not_le] at hc
  apply hq
  have hpos : 0 < safetyToOut s p := lt_of_le_of_lt hD hc
  unfold safetyToOut at hc hpos
  dsimp only at hc hpos
  rw [g.dz, g.fA, r0sq_eq hv g] at hc hpos
  split at hc
  · linarith
  split at hc
  · linarith
  split at hc
  · linarith
  split at hc
  · linarith
  split at hc
  · linarith
  rename_i h0
  split at hc
  · linarith
  rename_i h1
  rw [not_lt] at h0 h1
  clear hpos
  have hlt : √(perp2 p) < √(a.r2 p.z) := by
    have : (0 : ℝ) < 1 / 10 ^ 8 := by norm_num
    linarith
  obtain ⟨hc1, hc2⟩ := lt_min_iff.mp hc
  rw [closed_iff]
  constructor
  · have h2 := V3.abs_z_le_dist p q
    have h3 := abs_sub_abs_le_abs_sub q.z p.z
    rw [abs_sub_comm] at h3
    linarith
  · have hp0 := sqrt_nonneg (perp2 p)
    have hps := sq_sqrt (perp2_nonneg p)
    have h0s := sq_sqrt h0
    have hcr := curv_r2 hv p.z
    have hcq := curv_r2 hv q.z
    have e1 : p.z - (a.curv * perp2 p + s.fB) = a.curv * (√(a.r2 p.z) ^ 2 - √(perp2 p) ^ 2) := by
      rw [hps, h0s, g.fB]
      linear_combination -hcr
    have hzp : 0 < a.curv * (√(a.r2 p.z) ^ 2 - √(perp2 p) ^ 2) := mul_pos hA (by nlinarith)
    rw [e1, abs_of_pos hzp] at hc1
    have hc3 : V3.dist p q ≤ (√(a.r2 p.z) - √(perp2 p)) * (a.curv * (√(a.r2 p.z) ^ 2 - √(perp2 p) ^ 2)) /
        √((√(a.r2 p.z) - √(perp2 p)) ^ 2 + (a.curv * (√(a.r2 p.z) ^ 2 - √(perp2 p) ^ 2)) ^ 2) := by
      refine hc1.le.trans (le_of_eq ?_)
      congr 1
      · ring
      · congr 1
        ring
    have h4 := chord hA hp0 hlt (flat_nonneg p q) hD (w := p.z - q.z) (dist_sq p q).ge hc3
    have h5 := root_le p q
    have h6 : perp2 q ≤ (√(perp2 p) + flat p q) ^ 2 := by
      rw [← sq_sqrt (perp2_nonneg q)]
      exact pow_le_pow_left₀ (sqrt_nonneg _) h5 2
    have h7 : a.curv * perp2 q ≤ a.curv * a.r2 q.z := by
      have h8 : a.curv * perp2 q ≤ a.curv * (√(perp2 p) + flat p q) ^ 2 := mul_le_mul_of_nonneg_left h6 hA.le
      rw [h0s] at h4
      linarith
    exact le_of_mul_le_mul_left h7 hA

/-- The height of a right triangle against its sides. -/
theorem height_right {D Z : ℝ} (hD : D < 0) (hZ : 0 < Z) :
    0 ≤ -D * Z / √(D * D + Z * Z) ∧
    (-D ≤ √2 * (-D * Z / √(D * D + Z * Z)) ∨ Z ≤ √2 * (-D * Z / √(D * D + Z * Z))) := by
  have hDZ : 0 < D * D + Z * Z := by nlinarith
  have hN : 0 < √(D * D + Z * Z) := sqrt_pos.mpr hDZ
  have hN2 : √(D * D + Z * Z) ^ 2 = D * D + Z * Z := sq_sqrt hDZ.le
  have hs2 : √2 ^ 2 = (2 : ℝ) := sq_sqrt (by norm_num)
  have hs0 : 0 < √(2 : ℝ) := sqrt_pos.mpr (by norm_num)
  have hD' : 0 < -D := by linarith
  generalize √(D * D + Z * Z) = N at *
  generalize √(2 : ℝ) = w at *
  refine ⟨by positivity, ?_⟩
  rcases le_total (-D) Z with hle | hle
  · left
    have h5 : N ≤ w * Z := by
      apply le_of_sq_le_sq _ (by positivity)
      rw [hN2, mul_pow, hs2]; nlinarith
    rw [← mul_div_assoc, le_div_iff₀ hN]
    calc -D * N ≤ -D * (w * Z) := mul_le_mul_of_nonneg_left h5 hD'.le
      _ = w * (-D * Z) := by ring
  · right
    have h5 : N ≤ w * -D := by
      apply le_of_sq_le_sq _ (by positivity)
      rw [hN2, mul_pow, hs2]; nlinarith
    rw [← mul_div_assoc, le_div_iff₀ hN]
    calc Z * N ≤ Z * (w * -D) := mul_le_mul_of_nonneg_left h5 hZ.le
      _ = w * (-D * Z) := by ring

set_option maxHeartbeats 400000 in
/-- C136: for a point of the solid the safety is not negative, and up to the factor `√2` and the width in which a point
counts as on the surface it is the distance to the surface. -/
theorem C136_out_sharp (hv : a.Valid) (g : Good s a) (p : V3) (hp : a.Closed p) :
    0 ≤ safetyToOut s p ∧ ∃ q, a.Surface q ∧ V3.dist p q ≤ √2 * safetyToOut s p + 1 / 10 ^ 8 := by
  have ht := kTolerance_pos
  have hh := kHalfTolerance_pos
  have hA := curv_pos hv
  have hz := hv.dz
  have ht8 : kTolerance ≤ 1 / 10 ^ 8 := by norm_num [kTolerance]
  obtain ⟨hpz, hpr⟩ := (closed_iff p).mp hp
  have hr0 : 0 ≤ a.r2 p.z := (perp2_nonneg p).trans hpr
  have hval : value s p ≤ 0 := (value_closed hv g p).mpr hpr
  have h0s := sq_sqrt hr0
  have hps := sq_sqrt (perp2_nonneg p)
  have hp0 := sqrt_nonneg (perp2 p)
  have hr0' := sqrt_nonneg (a.r2 p.z)
  have hrle : √(perp2 p) ≤ √(a.r2 p.z) := sqrt_le_sqrt hpr
  have hcr := curv_r2 hv p.z
  have e1 : p.z - (a.curv * perp2 p + s.fB) = -value s p := by
    unfold value; rw [g.fA]; ring
  have hve := value_eq hv g p
  have hlo := hp.lo
  have hhi := hp.hi
  -- the point above or below on a lid
  have lid : ∃ q, a.Surface q ∧ V3.dist p q ≤ a.dz - |p.z| := by
    rcases le_or_gt 0 p.z with h | h
    · refine ⟨⟨p.x, p.y, a.dz⟩, ⟨⟨by dsimp only; linarith, le_refl _, ?_⟩, Or.inr (Or.inl rfl)⟩, ?_⟩
      · exact hp.r.trans (r2_mono hv hp.hi)
      · rw [abs_of_nonneg h]
        have h1 : V3.dist p ⟨p.x, p.y, a.dz⟩ = √((p.z - a.dz) ^ 2) := by simp [V3.dist, V3.dist2]
        rw [h1, sqrt_sq_eq_abs, abs_sub_comm, abs_of_nonneg (by linarith)]
    · by_cases hin : perp2 p ≤ a.r2 (-a.dz)
      · refine ⟨⟨p.x, p.y, -a.dz⟩, ⟨⟨le_refl _, by dsimp only; linarith, ?_⟩, Or.inl rfl⟩, ?_⟩
        · rw [← perp2_eq]; exact hin
        · rw [abs_of_neg h]
          have h1 : V3.dist p ⟨p.x, p.y, -a.dz⟩ = √((p.z - -a.dz) ^ 2) := by simp [V3.dist, V3.dist2]
          rw [h1, sqrt_sq_eq_abs, abs_of_nonneg (by linarith)]
          linarith
      · -- the side is met before the lid
        rw [not_le] at hin
        have hb := curv_r2 hv (-a.dz)
        have hv1 : a.curv * (perp2 p - a.r2 p.z) ≤ 0 := by rw [← hve]; exact hval
        have hin' : a.curv * a.r2 (-a.dz) < a.curv * perp2 p := mul_lt_mul_of_pos_left hin hA
        refine ⟨⟨p.x, p.y, p.z + a.curv * (perp2 p - a.r2 p.z)⟩, ⟨⟨?_, ?_, ?_⟩, Or.inr (Or.inr ?_)⟩, ?_⟩
        · dsimp only; nlinarith
        · dsimp only; linarith
        · dsimp only
          rw [← perp2_eq]
          apply le_of_eq
          apply mul_left_cancel₀ hA.ne'
          rw [curv_r2 hv]
          linear_combination hcr
        · dsimp only
          rw [← perp2_eq]
          apply mul_left_cancel₀ hA.ne'
          rw [curv_r2 hv]
          linear_combination hcr
        · rw [abs_of_neg h]
          have h1 : V3.dist p ⟨p.x, p.y, p.z + a.curv * (perp2 p - a.r2 p.z)⟩ = √((a.curv * (perp2 p - a.r2 p.z)) ^ 2) := by
            simp [V3.dist, V3.dist2]
          rw [h1, sqrt_sq_eq_abs, abs_of_nonpos hv1]
          nlinarith
  -- the point below on the side, or the lower lid
  have below : ∃ q, a.Surface q ∧ V3.dist p q ≤ -value s p := by
    have hb := curv_r2 hv (-a.dz)
    rcases le_or_gt (perp2 p) (a.r2 (-a.dz)) with hin | hin
    · refine ⟨⟨p.x, p.y, -a.dz⟩, ⟨⟨le_refl _, by dsimp only; linarith, by rw [← perp2_eq]; exact hin⟩, Or.inl rfl⟩, ?_⟩
      have h1 : V3.dist p ⟨p.x, p.y, -a.dz⟩ = √((p.z - -a.dz) ^ 2) := by simp [V3.dist, V3.dist2]
      rw [h1, sqrt_sq_eq_abs, abs_of_nonneg (by linarith), hve]
      have : a.curv * perp2 p ≤ a.curv * a.r2 (-a.dz) := mul_le_mul_of_nonneg_left hin hA.le
      linarith
    · have hin' : a.curv * a.r2 (-a.dz) < a.curv * perp2 p := mul_lt_mul_of_pos_left hin hA
      have e2 : perp2 p = a.r2 (p.z + value s p) := by
        apply mul_left_cancel₀ hA.ne'
        rw [curv_r2 hv, hve]
        linear_combination hcr
      refine ⟨⟨p.x, p.y, p.z + value s p⟩, ⟨⟨?_, ?_, ?_⟩, Or.inr (Or.inr ?_)⟩, ?_⟩
      · dsimp only; rw [hve]; linarith
      · dsimp only; linarith
      · dsimp only; rw [← perp2_eq]; exact e2.le
      · dsimp only; rw [← perp2_eq]; exact e2
      · have h1 : V3.dist p ⟨p.x, p.y, p.z + value s p⟩ = √((value s p) ^ 2) := by simp [V3.dist, V3.dist2]
        rw [h1, sqrt_sq_eq_abs, abs_of_nonpos hval]
  -- the point beside on the side
  have beside : ∃ q, a.Surface q ∧ V3.dist p q = √(a.r2 p.z) - √(perp2 p) := by
    rcases hp0.eq_or_lt with h | h
    · refine ⟨⟨√(a.r2 p.z), 0, p.z⟩, ⟨⟨hlo, hhi, by dsimp only; rw [h0s]; simp⟩, Or.inr (Or.inr (by dsimp only; rw [h0s]; simp))⟩, ?_⟩
      have h1 : p.x ^ 2 + p.y ^ 2 = 0 := by rw [← root_sq, ← h]; simp
      have hx : p.x = 0 := by nlinarith [sq_nonneg p.x, sq_nonneg p.y]
      have hy : p.y = 0 := by nlinarith [sq_nonneg p.x, sq_nonneg p.y]
      rw [← h]
      simp only [V3.dist, V3.dist2, hx, hy]
      rw [show (0 - √(a.r2 p.z)) ^ 2 + (0 - 0) ^ 2 + (p.z - p.z) ^ 2 = √(a.r2 p.z) ^ 2 by ring, sqrt_sq hr0']
      ring
    · set k := √(a.r2 p.z) / √(perp2 p) with hk
      have hkr : k * √(perp2 p) = √(a.r2 p.z) := by rw [hk]; field_simp
      have hk1 : 1 ≤ k := by rw [hk, le_div_iff₀ h]; linarith
      have hkk : (k * p.x) ^ 2 + (k * p.y) ^ 2 = a.r2 p.z := by
        rw [← h0s, ← hkr, mul_pow k √(perp2 p), root_sq]; ring
      refine ⟨⟨k * p.x, k * p.y, p.z⟩, ⟨⟨hlo, hhi, hkk.le⟩, Or.inr (Or.inr hkk)⟩, ?_⟩
      have e : V3.dist2 p ⟨k * p.x, k * p.y, p.z⟩ = ((k - 1) * √(perp2 p)) ^ 2 := by
        rw [mul_pow, root_sq]; simp only [V3.dist2]; ring
      rw [V3.dist, e, sqrt_sq (mul_nonneg (by linarith) hp0)]
      linarith
  have hsq2 : (1 : ℝ) ≤ √2 := by rw [show (1 : ℝ) = √1 by simp]; exact sqrt_le_sqrt (by norm_num)
  unfold safetyToOut
  dsimp only
  rw [g.dz, g.fA, r0sq_eq hv g]
  rw [if_neg (by linarith), if_neg (by linarith)]
  split
  · rename_i h
    refine ⟨le_refl _, ?_⟩
    obtain ⟨q, hq, hd⟩ := lid
    have h1 := h.1
    rw [g.dz, abs_lt] at h1
    exact ⟨q, hq, by linarith⟩
  split
  · rename_i h
    refine ⟨le_refl _, ?_⟩
    obtain ⟨q, hq, hd⟩ := below
    have h1 := h.1
    exact ⟨q, hq, by linarith⟩
  rename_i hns
  rw [if_neg (by linarith)]
  split
  · rename_i h
    refine ⟨le_refl _, ?_⟩
    obtain ⟨q, hq, hd⟩ := beside
    exact ⟨q, hq, by linarith⟩
  rename_i h
  rw [not_lt] at h
  rw [e1, abs_of_nonneg (by linarith)]
  set D := √(perp2 p) - √(a.r2 p.z) with hDdef
  set Z := -value s p with hZdef
  have hDn : 0 < -D := by
    have : (0 : ℝ) < 1 / 10 ^ 8 := by norm_num
    linarith
  have hZn : 0 < Z := by
    rw [hZdef, hve]
    have h3 : √(perp2 p) < √(a.r2 p.z) := by linarith
    have h4 : perp2 p < a.r2 p.z := by rw [← h0s, ← hps]; nlinarith
    nlinarith [mul_pos hA (sub_pos.mpr h4)]
  have he8 : (0 : ℝ) < 1 / 10 ^ 8 := by norm_num
  obtain ⟨hsafR, hor⟩ := height_right (neg_pos.mp hDn) hZn
  refine ⟨le_min hsafR (by linarith), ?_⟩
  rcases min_choice (-D * Z / √(D * D + Z * Z)) (a.dz - |p.z|) with hm | hm
  · rw [hm]
    rcases hor with hor | hor
    · obtain ⟨q, hq, hd⟩ := beside
      exact ⟨q, hq, by rw [hd]; linarith⟩
    · obtain ⟨q, hq, hd⟩ := below
      exact ⟨q, hq, by linarith⟩
  · rw [hm]
    obtain ⟨q, hq, hd⟩ := lid
    refine ⟨q, hq, ?_⟩
    have h7 : 1 * (a.dz - |p.z|) ≤ √2 * (a.dz - |p.z|) := mul_le_mul_of_nonneg_right hsq2 (by linarith)
    linarith

end Paraboloid
end VecGeom
