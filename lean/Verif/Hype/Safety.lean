import Verif.Hype.Props

/-!
# C153: safeties of hyperboloids
-/

namespace VecGeom
namespace Hype

open Real

variable {a : Par} {s : State} {k : Kind}

theorem sq_le {x y : ℝ} (h : x ^ 2 ≤ y ^ 2) (hy : 0 ≤ y) : x ≤ y := (abs_le_of_sq_le_sq' h hy).2

/-- The distance from the axis. -/
noncomputable def rad (p : V3) : ℝ := √(p.x ^ 2 + p.y ^ 2)

theorem rad_nonneg (p : V3) : 0 ≤ rad p := sqrt_nonneg _
theorem rad_sq (p : V3) : rad p ^ 2 = p.x ^ 2 + p.y ^ 2 := sq_sqrt (by positivity)
theorem rad_eq (p : V3) : √(perp2 p) = rad p := by rw [perp2_eq]; rfl

/-- Distances in space are at least those in the half plane of radii and heights. -/
theorem planar (p q : V3) : (rad p - rad q) ^ 2 + (|p.z| - |q.z|) ^ 2 ≤ V3.dist2 p q := by
  have h1 := rad_sq p
  have h2 := rad_sq q
  have h3 : p.x * q.x + p.y * q.y ≤ rad p * rad q := by
    apply sq_le _ (mul_nonneg (rad_nonneg p) (rad_nonneg q))
    rw [mul_pow, h1, h2]
    nlinarith [sq_nonneg (p.x * q.y - p.y * q.x)]
  have h4 : (|p.z| - |q.z|) ^ 2 ≤ (p.z - q.z) ^ 2 := sq_le_sq.mpr (abs_abs_sub_abs_le_abs_sub p.z q.z)
  unfold V3.dist2
  nlinarith

theorem le_dist {p q : V3} {v : ℝ} (h : v ^ 2 ≤ (rad p - rad q) ^ 2 + (|p.z| - |q.z|) ^ 2) : v ≤ V3.dist p q :=
  le_sqrt_of_sq_le (h.trans (planar p q))

/-- Squares of points of a line stay below the triangle's height: the core of the outer approximation. -/
theorem altitude_core {dr dz v u : ℝ} (hdr : 0 < dr) (hdz : 0 < dz) (h : dr * dz ≤ v * dz + u * dr) :
    (dr * dz / √(dr * dr + dz * dz)) ^ 2 ≤ v ^ 2 + u ^ 2 := by
  have hp : 0 < dr * dr + dz * dz := by positivity
  rw [div_pow, sq_sqrt hp.le, div_le_iff₀ hp]
  have h1 : (dr * dz) ^ 2 ≤ (v * dz + u * dr) ^ 2 := pow_le_pow_left₀ (by positivity) h 2
  nlinarith [sq_nonneg (v * dr - u * dz)]

/-- The hyperbola is a convex curve. -/
theorem chord {r0 t z1 z2 w l : ℝ} (hl0 : 0 ≤ l) (hl1 : l ≤ 1) (hw : w = z1 + l * (z2 - z1)) :
    √(r0 * r0 + t * t * w * w) ≤ (1 - l) * √(r0 * r0 + t * t * z1 * z1) + l * √(r0 * r0 + t * t * z2 * z2) := by
  have n1 : 0 ≤ r0 * r0 + t * t * z1 * z1 := by nlinarith [mul_self_nonneg r0, mul_self_nonneg (t * z1)]
  have n2 : 0 ≤ r0 * r0 + t * t * z2 * z2 := by nlinarith [mul_self_nonneg r0, mul_self_nonneg (t * z2)]
  set r1 := √(r0 * r0 + t * t * z1 * z1) with h1
  set r2 := √(r0 * r0 + t * t * z2 * z2) with h2
  have e1 : r1 ^ 2 = r0 * r0 + t * t * z1 * z1 := sq_sqrt n1
  have e2 : r2 ^ 2 = r0 * r0 + t * t * z2 * z2 := sq_sqrt n2
  have p1 : 0 ≤ r1 := sqrt_nonneg _
  have p2 : 0 ≤ r2 := sqrt_nonneg _
  have hc : r0 * r0 + t * t * z1 * z2 ≤ r1 * r2 := by
    apply sq_le _ (mul_nonneg p1 p2)
    rw [mul_pow, e1, e2]
    nlinarith [sq_nonneg (r0 * t * (z1 - z2))]
  have hnn : 0 ≤ (1 - l) * r1 + l * r2 := add_nonneg (mul_nonneg (by linarith) p1) (mul_nonneg hl0 p2)
  rw [sqrt_le_left hnn, hw]
  have : ((1 - l) * r1 + l * r2) ^ 2 = (1 - l) ^ 2 * r1 ^ 2 + 2 * ((1 - l) * l) * (r1 * r2) + l ^ 2 * r2 ^ 2 := by ring
  rw [this, e1, e2]
  nlinarith [mul_le_mul_of_nonneg_left hc (mul_nonneg (by linarith : 0 ≤ 1 - l) hl0)]

/-- What the outer approximation returns. -/
theorem approxOut_cases {r z1 r0 t v : ℝ} (h : approxDistOutside r z1 r0 t = some v) :
    t ≠ 0 ∧ (v = r - √(r0 * r0 + t * t * z1 * z1) ∧
        √((r - √(r0 * r0 + t * t * z1 * z1)) * (r - √(r0 * r0 + t * t * z1 * z1)) +
          (√((r * r - r0 * r0) / (t * t)) - z1) * (√((r * r - r0 * r0) / (t * t)) - z1)) < kMinimum ∨
      v = (r - √(r0 * r0 + t * t * z1 * z1)) * (√((r * r - r0 * r0) / (t * t)) - z1) /
        √((r - √(r0 * r0 + t * t * z1 * z1)) * (r - √(r0 * r0 + t * t * z1 * z1)) +
          (√((r * r - r0 * r0) / (t * t)) - z1) * (√((r * r - r0 * r0) / (t * t)) - z1))) := by
  unfold approxDistOutside at h
  by_cases ht : t = 0
  · rw [if_pos ht] at h; cases h
  · rw [if_neg ht] at h
    dsimp only at h
    refine ⟨ht, ?_⟩
    by_cases hc : √((r - √(r0 * r0 + t * t * z1 * z1)) * (r - √(r0 * r0 + t * t * z1 * z1)) +
          (√((r * r - r0 * r0) / (t * t)) - z1) * (√((r * r - r0 * r0) / (t * t)) - z1)) < kMinimum
    · rw [if_pos hc] at h
      exact Or.inl ⟨(Option.some.inj h).symm, hc⟩
    · rw [if_neg hc] at h
      exact Or.inr (Option.some.inj h).symm

theorem outer_setup {r z1 r0 t : ℝ} (ht : t ≠ 0) (hz : 0 ≤ z1) (hr : r0 * r0 + t * t * z1 * z1 < r * r) (hr0 : 0 ≤ r) :
    0 < r - √(r0 * r0 + t * t * z1 * z1) ∧ 0 < √((r * r - r0 * r0) / (t * t)) - z1 ∧
    r = √(r0 * r0 + t * t * √((r * r - r0 * r0) / (t * t)) * √((r * r - r0 * r0) / (t * t))) := by
  have ht2 : 0 < t * t := mul_self_pos.mpr ht
  have h1 : z1 * z1 < (r * r - r0 * r0) / (t * t) := by rw [lt_div_iff₀ ht2]; nlinarith
  have hp : 0 ≤ (r * r - r0 * r0) / (t * t) := le_trans (mul_self_nonneg z1) h1.le
  refine ⟨?_, ?_, ?_⟩
  · rw [sub_pos, sqrt_lt' (by nlinarith [mul_self_nonneg r0, mul_self_nonneg (t * z1)])]
    nlinarith
  · rw [sub_pos]
    exact lt_sqrt_of_sq_lt (by nlinarith)
  · rw [mul_assoc (t * t), mul_self_sqrt hp, mul_div_cancel₀ _ ht2.ne', add_sub_cancel, ← pow_two, sqrt_sq hr0]

/-- The outer approximation is not negative. -/
theorem approxOut_pos {r z1 r0 t v : ℝ} (hz : 0 ≤ z1) (hr : r0 * r0 + t * t * z1 * z1 < r * r) (hr0 : 0 ≤ r)
    (h : approxDistOutside r z1 r0 t = some v) : 0 < v := by
  obtain ⟨ht, h⟩ := approxOut_cases h
  obtain ⟨p1, p2, -⟩ := outer_setup ht hz hr hr0
  rcases h with ⟨rfl, -⟩ | rfl
  · exact p1
  · have : 0 < (r - √(r0 * r0 + t * t * z1 * z1)) * (r - √(r0 * r0 + t * t * z1 * z1)) +
          (√((r * r - r0 * r0) / (t * t)) - z1) * (√((r * r - r0 * r0) / (t * t)) - z1) := by positivity
    have := sqrt_pos.mpr this
    positivity

/-- The outer approximation is a lower bound for the distance to what is inside of the surface. -/
theorem approxOut_le {r z1 r0 t v ρ ζ : ℝ} (hz : 0 ≤ z1) (hr : r0 * r0 + t * t * z1 * z1 < r * r) (hr0 : 0 ≤ r)
    (h : approxDistOutside r z1 r0 t = some v) (hρ : ρ * ρ ≤ r0 * r0 + t * t * ζ * ζ) (hζ : 0 ≤ ζ) :
    v < kMinimum ∨ v ^ 2 ≤ (r - ρ) ^ 2 + (z1 - ζ) ^ 2 := by
  obtain ⟨ht, h⟩ := approxOut_cases h
  obtain ⟨p1, p2, e2⟩ := outer_setup ht hz hr hr0
  set r1 := √(r0 * r0 + t * t * z1 * z1) with hr1
  set z2 := √((r * r - r0 * r0) / (t * t)) with hz2
  have hρ' : ρ ≤ √(r0 * r0 + t * t * ζ * ζ) := le_sqrt_of_sq_le (by rw [pow_two]; exact hρ)
  rcases h with ⟨rfl, hk⟩ | rfl
  · left
    refine lt_of_le_of_lt ?_ hk
    apply le_sqrt_of_sq_le
    nlinarith [mul_self_nonneg (z2 - z1)]
  right
  rcases lt_or_ge z2 ζ with hc' | hc'
  · have := altitude_core (v := 0) (u := z2 - z1) p1 p2 (by rw [zero_mul, zero_add, mul_comm])
    have h1 : (z2 - z1) ^ 2 ≤ (z1 - ζ) ^ 2 := by nlinarith
    nlinarith [sq_nonneg (r - ρ)]
  have key : (r - r1) * (z2 - z1) ≤ (r - ρ) * (z2 - z1) + |z1 - ζ| * (r - r1) := by
    rcases le_or_gt ζ z1 with hc | hc
    · have : √(r0 * r0 + t * t * ζ * ζ) ≤ r1 := by
        apply sqrt_le_sqrt
        nlinarith [mul_le_mul_of_nonneg_left (mul_le_mul hc hc hζ hz) (mul_self_nonneg t)]
      have h1 : (r - r1) * (z2 - z1) ≤ (r - ρ) * (z2 - z1) := mul_le_mul_of_nonneg_right (by linarith) p2.le
      have h2 := mul_nonneg (abs_nonneg (z1 - ζ)) p1.le
      linarith
    · rw [abs_of_nonpos (by linarith)]
      have hch := chord (r0 := r0) (t := t) (z1 := z1) (z2 := z2) (w := ζ) (l := (ζ - z1) / (z2 - z1))
        (div_nonneg (by linarith) p2.le) (by rw [div_le_one p2]; linarith) (by field_simp; ring)
      rw [← e2, ← hr1] at hch
      have h1 : ρ ≤ (1 - (ζ - z1) / (z2 - z1)) * r1 + (ζ - z1) / (z2 - z1) * r := hρ'.trans hch
      have h2 := mul_le_mul_of_nonneg_right h1 p2.le
      have h3 : ((1 - (ζ - z1) / (z2 - z1)) * r1 + (ζ - z1) / (z2 - z1) * r) * (z2 - z1) =
          r1 * (z2 - z1) + (ζ - z1) * (r - r1) := by field_simp; ring
      rw [h3] at h2
      linarith
  have := altitude_core p1 p2 key
  rwa [sq_abs] at this

/-- The inner approximation is a lower bound for the distance to what is outside of the surface. -/
theorem approxIn_le {r z r0 t2 ρ ζ d : ℝ} (ht : 0 ≤ t2) (hr0 : 0 ≤ r0) (hr : r * r ≤ r0 * r0 + z * z * t2) (hr' : 0 ≤ r)
    (hρ' : 0 ≤ ρ) (hρ : r0 * r0 + ζ * ζ * t2 ≤ ρ * ρ) (hd : (r - ρ) ^ 2 + (z - ζ) ^ 2 ≤ d ^ 2) (hd0 : 0 ≤ d) :
    approxDistInside r z r0 t2 ≤ d := by
  unfold approxDistInside
  split
  · have h1 : r0 ≤ ρ := by
      apply sq_le _ hρ'
      nlinarith [mul_nonneg (mul_self_nonneg ζ) ht]
    rcases le_total r ρ with h | h
    · have : ρ - r ≤ d := by apply sq_le _ hd0; nlinarith [sq_nonneg (z - ζ)]
      linarith
    · linarith
  · dsimp only
    set h := √(r0 * r0 + z * z * t2) with hh
    have hn : 0 ≤ r0 * r0 + z * z * t2 := by nlinarith [mul_nonneg (mul_self_nonneg z) ht, mul_self_nonneg r0]
    have h0 : 0 ≤ h := sqrt_nonneg _
    have h2 : h ^ 2 = r0 * r0 + z * z * t2 := sq_sqrt hn
    have hrh : r ≤ h := le_sqrt_of_sq_le (by rw [pow_two]; exact hr)
    have hl : 0 ≤ -h * -h + z * t2 * (z * t2) := by nlinarith [mul_self_nonneg h, mul_self_nonneg (z * t2)]
    have e : |(r - h) * -h| = (h - r) * h := by
      rw [abs_of_nonneg (by nlinarith)]; ring
    rw [e]
    rcases hl.eq_or_lt with hz | hz
    · rw [← hz, sqrt_zero, div_zero]; exact hd0
    have hlp := sqrt_pos.mpr hz
    rw [div_le_iff₀ hlp]
    have hc : r0 * r0 + t2 * z * ζ ≤ h * ρ := by
      rcases le_or_gt (r0 * r0 + t2 * z * ζ) 0 with hneg | hpos
      · exact hneg.trans (mul_nonneg h0 hρ')
      · apply sq_le _ (mul_nonneg h0 hρ')
        have h3 : (r0 * r0 + z * z * t2) * (r0 * r0 + ζ * ζ * t2) ≤ (h * ρ) ^ 2 := by
          rw [mul_pow, h2, pow_two ρ]
          exact mul_le_mul_of_nonneg_left hρ hn
        refine le_trans ?_ h3
        nlinarith [mul_nonneg (mul_nonneg ht (mul_self_nonneg r0)) (sq_nonneg (z - ζ))]
    have hlin : (h - r) * h ≤ h * (ρ - r) - z * t2 * (ζ - z) := by nlinarith
    have hcs : (h * (ρ - r) - z * t2 * (ζ - z)) ≤ √(d ^ 2) * √(-h * -h + z * t2 * (z * t2)) := by
      rw [← sqrt_mul (sq_nonneg d)]
      apply le_sqrt_of_sq_le
      refine le_trans ?_ (mul_le_mul_of_nonneg_right hd hl)
      nlinarith [sq_nonneg (h * (ζ - z) + z * t2 * (ρ - r))]
    rw [sqrt_sq hd0] at hcs
    linarith

theorem approxIn_nonneg {r z r0 t2 : ℝ} (h : r ≤ r0 ∨ kMinimum ≤ t2) : 0 ≤ approxDistInside r z r0 t2 := by
  unfold approxDistInside
  split
  · rename_i h'
    rcases h with h | h <;> linarith
  · exact div_nonneg (abs_nonneg _) (sqrt_nonneg _)

theorem closed_rad {q : V3} (h : a.Closed q) : a.in2 q.z ≤ rad q * rad q ∧ rad q * rad q ≤ a.out2 q.z := by
  rw [← pow_two, rad_sq]; exact ⟨h.inn, h.out⟩

theorem closed_ends {q : V3} (hv : a.Valid) (h : a.Closed q) : rad q ≤ √(a.out2 a.dz) := by
  apply le_sqrt_of_sq_le
  rw [rad_sq]
  exact h.out.trans (out2_mono (by rw [abs_of_pos hv.dz]; exact h.z))

/-- C153: the distance to the solid is at least what `SafetyToIn` reports, up to the smallest positive number.  Missing: the
points above or below the hole of a solid whose inner surface is not a cylinder, for which the value is too large, and points
whose value is not a number. -/
theorem C153_safetyToIn_partial (hv : a.Valid) (g : Good s a) (hk : k.Fits a) (p q : V3) (hq : a.Closed q)
    (hh : a.stIn = 0 ∨ |p.z| ≤ a.dz ∨ a.in2 a.dz ≤ p.x ^ 2 + p.y ^ 2) {v : ℝ} (h : safetyToIn k s p = some v) :
    v < kMinimum ∨ v ≤ V3.dist p q := by
  have hm := kMinimum_pos
  obtain ⟨hq1, hq2⟩ := closed_rad hq
  have hqz := hq.z
  have hqe := closed_ends hv hq
  have hp0 := rad_nonneg p
  have hz : ∀ {w : ℝ}, 0 < w → a.dz + w ≤ |p.z| → w ^ 2 ≤ (|p.z| - |q.z|) ^ 2 := fun hw h' =>
    pow_le_pow_left₀ hw.le (by linarith) 2
  unfold safetyToIn at h
  dsimp only at h
  rw [rad_eq, g.dz, g.endOut, g.endIn] at h
  split at h
  · left; cases h; exact hm
  split at h
  · left; cases h; linarith
  split at h
  · rename_i h'
    cases h
    right
    apply le_dist
    have := hz (w := |p.z| - a.dz) (by linarith [h'.1, kHalfTolerance_pos]) (by linarith)
    nlinarith [sq_nonneg (rad p - rad q)]
  split at h
  · rename_i h'
    cases h
    right
    apply le_dist
    have h1 := hz (w := |p.z| - a.dz) (by linarith [h'.1, kHalfTolerance_pos]) (by linarith)
    rw [sq_sqrt (add_nonneg (mul_self_nonneg _) (mul_self_nonneg _))]
    have h2 : (rad p - √(a.out2 a.dz)) ^ 2 ≤ (rad p - rad q) ^ 2 := pow_le_pow_left₀ (by linarith [h'.2]) (by linarith) 2
    nlinarith
  split at h
  · rename_i h'
    cases h
    right
    apply le_dist
    have h1 := hz (w := |p.z| - a.dz) (by linarith [h'.1, kHalfTolerance_pos]) (by linarith)
    rw [sq_sqrt (add_nonneg (mul_self_nonneg _) (mul_self_nonneg _))]
    have hst : a.stIn = 0 := by
      rcases hh with hh | hh | hh
      · exact hh
      · linarith [h'.1, kHalfTolerance_pos]
      · rw [← rad_sq] at hh
        have := sqrt_le_sqrt hh
        rw [sqrt_sq hp0] at this
        linarith [h'.2]
    have h3 : √(a.in2 a.dz) ≤ rad q := by
      rw [sqrt_le_left (rad_nonneg q)]
      have : a.in2 a.dz = a.in2 q.z := by unfold Par.in2; rw [hst, tan_zero]; ring
      rw [this, pow_two]
      exact hq1
    have h2 : (rad p - √(a.in2 a.dz)) ^ 2 ≤ (rad p - rad q) ^ 2 := by nlinarith [h'.2]
    nlinarith
  split at h
  · rename_i h'
    rw [g.rmax, g.tOut] at h
    rw [g.rmax2, g.tOut2] at h'
    have h1 := h'.1
    have hr : a.rmax * a.rmax + tan a.stOut * tan a.stOut * |p.z| * |p.z| < rad p * rad p := by
      rw [perp2_eq, ← rad_sq] at h1
      nlinarith [kHalfTolerance_pos]
    have := approxOut_le (abs_nonneg p.z) hr hp0 h (ρ := rad q) (ζ := |q.z|) (by
      rw [← out2_abs] at hq2
      unfold Par.out2 at hq2
      nlinarith) (abs_nonneg q.z)
    rcases this with this | this
    · exact Or.inl this
    · exact Or.inr (le_dist this)
  split at h
  · rename_i h'
    rw [g.rmin, g.tIn2] at h
    rw [g.rmin2, g.tIn2] at h'
    cases h
    right
    have h1 := h'.1
    rw [perp2_eq, ← rad_sq] at h1
    apply approxIn_le (sq_nonneg _) hv.rmin _ hp0 (rad_nonneg q) (ζ := |q.z|) _ _ (V3.dist_nonneg' p q)
    · nlinarith [kHalfTolerance_pos]
    · rw [← in2_abs] at hq1
      unfold Par.in2 at hq1
      nlinarith
    · unfold V3.dist
      rw [sq_sqrt (V3.dist2_nonneg p q)]
      exact planar p q
  · left; cases h; exact hm

/-- C153: the sign of `SafetyToIn`: minus one exactly inside, zero on the surface, not negative outside. -/
theorem C153_safetyToIn_sign (hv : a.Valid) (g : Good s a) (hk : k.Fits a) (p : V3) :
    (inside k s p = .inside → safetyToIn k s p = some (-1)) ∧ (inside k s p = .surface → safetyToIn k s p = some 0) ∧
    ∀ v, inside k s p = .outside → safetyToIn k s p = some v → a.stIn = 0 ∨ kMinimum ≤ tan a.stIn ^ 2 → 0 ≤ v := by
  have hc := inside_cases hv g hk p
  have hgk : genericKernel k true s p = if outside k s p then (false, true) else (deep k s p, false) := rfl
  have hp0 := rad_nonneg p
  refine ⟨fun h => ?_, fun h => ?_, fun v h hs hst => ?_⟩
  · have h1 := hc.1.mp h
    have h2 := deep_not_outside hv g hk h1
    unfold safetyToIn
    rw [hgk, h1, h2]
    rfl
  · have h1 : deep k s p = false := by
      rw [← Bool.not_eq_true, ← hc.1, h]; simp
    have h2 : outside k s p = false := by
      rw [← Bool.not_eq_true, ← hc.2, h]; simp
    unfold safetyToIn
    rw [hgk, h1, h2]
    rfl
  · have h2 := hc.2.mp h
    unfold safetyToIn at hs
    rw [hgk, h2] at hs
    dsimp only at hs
    simp only [if_true, Bool.not_true, Bool.and_false, Bool.false_eq_true, if_false] at hs
    rw [rad_eq, g.dz, g.endOut, g.endIn] at hs
    split at hs
    · rename_i h'; cases hs; linarith [h'.1, kHalfTolerance_pos]
    split at hs
    · cases hs; exact sqrt_nonneg _
    split at hs
    · cases hs; exact sqrt_nonneg _
    split at hs
    · rename_i h'
      rw [g.rmax, g.tOut] at hs
      rw [g.rmax2, g.tOut2, perp2_eq, ← rad_sq] at h'
      exact (approxOut_pos (abs_nonneg p.z) (by nlinarith [kHalfTolerance_pos, h'.1]) hp0 hs).le
    split at hs
    · rename_i h'
      rw [g.rmin, g.tIn2] at hs
      rw [g.rmin2, g.tIn2, perp2_eq, ← rad_sq] at h'
      cases hs
      apply approxIn_nonneg
      rcases hst with hst | hst
      · left
        rw [hst, tan_zero] at h'
        apply sq_le _ hv.rmin
        nlinarith [kHalfTolerance_pos, h'.1]
      · exact Or.inr hst
    · cases hs; exact le_refl _

/-- C153: no point outside of the solid is nearer than what `SafetyToOut` reports, up to the smallest positive number. -/
theorem C153_safetyToOut (hv : a.Valid) (g : Good s a) (hk : k.Fits a) (p q : V3) (hq : ¬ a.Closed q) {v : ℝ}
    (h : safetyToOut k s p = some v) : v < kMinimum ∨ v ≤ V3.dist p q := by
  have hm := kMinimum_pos
  have hp0 := rad_nonneg p
  have hpe : √(p.x * p.x + p.y * p.y) = rad p := rad_eq p
  have hgk : genericKernel k true s p = if outside k s p then (false, true) else (deep k s p, false) := rfl
  unfold safetyToOut at h
  dsimp only at h
  split at h
  · left; cases h; exact hm
  split at h
  · left; cases h; linarith
  rename_i hs1 hs2
  have hdeep : deep k s p = true := by
    rw [hgk] at hs1 hs2
    cases h1 : deep k s p <;> cases h2 : outside k s p <;> simp_all
  rw [deep_iff g hk] at hdeep
  obtain ⟨d1, d2, d3⟩ := hdeep
  have ht := kTolerance_pos
  have t1 := mul_pos ht hv.dz
  have t2 := mul_pos ht (endOut_pos hv)
  have t3 := mul_nonneg ht.le (sqrt_nonneg (a.in2 a.dz))
  obtain ⟨di, hdi, hv'⟩ := Option.map_eq_some_iff.mp h
  have hvm := hv'.symm
  unfold innerGap at hdi
  rw [hpe, g.rmax, g.tOut2, g.dz] at hvm
  have hz : v ≤ a.dz - |p.z| := by
    rw [hvm]
    refine (min_le_right _ _).trans (le_of_eq ?_)
    rw [abs_of_nonpos (by linarith)]; ring
  have ho : v ≤ approxDistInside (rad p) |p.z| a.rmax (tan a.stOut ^ 2) := by
    rw [hvm]; exact (min_le_left _ _).trans (min_le_right _ _)
  have hi : v ≤ di := by rw [hvm]; exact (min_le_left _ _).trans (min_le_left _ _)
  rw [← rad_sq] at d2
  by_cases c1 : |q.z| ≤ a.dz
  swap
  · right
    refine hz.trans (le_trans ?_ (V3.abs_z_le_dist p q))
    have := abs_abs_sub_abs_le_abs_sub p.z q.z
    have h2 := neg_abs_le (|p.z| - |q.z|)
    linarith
  by_cases c2 : q.x ^ 2 + q.y ^ 2 ≤ a.out2 q.z
  swap
  · right
    refine ho.trans ?_
    rw [← rad_sq, ← out2_abs] at c2
    have hrm : 0 ≤ a.rmax := hv.rmin.trans hv.lt.le
    apply approxIn_le (sq_nonneg _) hrm _ hp0 (rad_nonneg q) (ζ := |q.z|) _ _ (V3.dist_nonneg' p q)
    · rw [← out2_abs] at d2
      have d2' : rad p ^ 2 < a.out2 |p.z| := by linarith
      unfold Par.out2 at d2'
      nlinarith
    · unfold Par.out2 at c2
      nlinarith
    · unfold V3.dist
      rw [sq_sqrt (V3.dist2_nonneg p q)]
      exact planar p q
  have c3 : q.x ^ 2 + q.y ^ 2 < a.in2 q.z := by
    by_contra hc
    exact hq ⟨c1, c2, not_lt.mp hc⟩
  have hhol : a.Hollow := by
    by_contra hc
    rw [in2_solid hv hc] at c3
    nlinarith [sq_nonneg q.x, sq_nonneg q.y]
  have htr := (treat_iff g hk).mpr hhol
  have d4 := d3 hhol
  rw [← rad_sq] at c3 d4
  rw [hpe, g.rmin, g.tIn, g.stIn] at hdi
  by_cases hst : a.stIn = 0
  · rw [if_neg (by simp [hst]), if_pos ⟨htr, hst⟩] at hdi
    right
    have hdi := Option.some.inj hdi
    refine hi.trans ?_
    rw [← hdi]
    have h3 : rad q ≤ a.rmin := by
      apply sq_le _ hv.rmin
      unfold Par.in2 at c3
      rw [hst, tan_zero] at c3
      linarith
    rcases le_total a.rmin (rad p) with h4 | h4
    · apply le_dist
      have : (rad p - a.rmin) ^ 2 ≤ (rad p - rad q) ^ 2 := pow_le_pow_left₀ (by linarith) (by linarith) 2
      nlinarith [sq_nonneg (|p.z| - |q.z|)]
    · linarith [V3.dist_nonneg' p q]
  · rw [if_pos ⟨htr, hst⟩] at hdi
    have hr : a.rmin * a.rmin + tan a.stIn * tan a.stIn * |p.z| * |p.z| < rad p * rad p := by
      rw [← in2_abs] at d4
      have d5 : a.in2 |p.z| < rad p ^ 2 := by linarith
      unfold Par.in2 at d5
      nlinarith
    have := approxOut_le (abs_nonneg p.z) hr hp0 hdi (ρ := rad q) (ζ := |q.z|) (by
      rw [← in2_abs] at c3
      unfold Par.in2 at c3
      nlinarith) (abs_nonneg q.z)
    rcases this with this | this
    · exact Or.inl (lt_of_le_of_lt hi this)
    · exact Or.inr (hi.trans (le_dist this))

/-- C153: `SafetyToOut` always has a value: positive inside, zero on the surface, minus one outside. -/
theorem C153_safetyToOut_sign (hv : a.Valid) (g : Good s a) (hk : k.Fits a) (p : V3) :
    (inside k s p = .outside → safetyToOut k s p = some (-1)) ∧ (inside k s p = .surface → safetyToOut k s p = some 0) ∧
    (inside k s p = .inside → a.stOut = 0 ∨ kMinimum ≤ tan a.stOut ^ 2 → ∃ v, safetyToOut k s p = some v ∧ 0 < v) := by
  have hc := inside_cases hv g hk p
  have hgk : genericKernel k true s p = if outside k s p then (false, true) else (deep k s p, false) := rfl
  have hp0 := rad_nonneg p
  have hpe : √(p.x * p.x + p.y * p.y) = rad p := rad_eq p
  refine ⟨fun h => ?_, fun h => ?_, fun h hst => ?_⟩
  · have h2 := hc.2.mp h
    unfold safetyToOut
    rw [hgk, h2]
    rfl
  · have h1 : deep k s p = false := by
      rw [← Bool.not_eq_true, ← hc.1, h]; simp
    have h2 : outside k s p = false := by
      rw [← Bool.not_eq_true, ← hc.2, h]; simp
    unfold safetyToOut
    rw [hgk, h1, h2]
    rfl
  · have hd := hc.1.mp h
    have ho := deep_not_outside hv g hk hd
    unfold safetyToOut
    rw [hgk, hd, ho]
    dsimp only
    simp only [Bool.false_eq_true, if_false, Bool.not_true, Bool.not_false, Bool.false_and]
    rw [hpe, g.rmax, g.tOut2, g.dz]
    rw [deep_iff g hk] at hd
    obtain ⟨d1, d2, d3⟩ := hd
    have ht := kTolerance_pos
    have t1 := mul_pos ht hv.dz
    have t2 := mul_pos ht (endOut_pos hv)
    have t3 := mul_nonneg ht.le (sqrt_nonneg (a.in2 a.dz))
    rw [← rad_sq] at d2
    have pz : 0 < |(|p.z| - a.dz)| := abs_pos.mpr (by linarith)
    have hrm : 0 < a.rmax := lt_of_le_of_lt hv.rmin hv.lt
    have po : 0 < approxDistInside (rad p) |p.z| a.rmax (tan a.stOut ^ 2) := by
      unfold approxDistInside
      rw [← out2_abs] at d2
      have d2' : rad p ^ 2 < a.out2 |p.z| := by linarith
      unfold Par.out2 at d2'
      split
      · rename_i hlt
        rcases hst with hst | hst
        · rw [hst, tan_zero] at d2'
          have : rad p < a.rmax := by
            apply lt_of_pow_lt_pow_left₀ 2 hrm.le
            linarith
          linarith
        · linarith
      · dsimp only
        have hpos : 0 < a.rmax * a.rmax + |p.z| * |p.z| * tan a.stOut ^ 2 := by positivity
        have hs := sqrt_pos.mpr hpos
        have hlt : rad p < √(a.rmax * a.rmax + |p.z| * |p.z| * tan a.stOut ^ 2) := lt_sqrt_of_sq_lt (by nlinarith)
        apply div_pos
        · rw [abs_pos]
          exact mul_ne_zero (by linarith) (by linarith)
        · apply sqrt_pos.mpr
          have := mul_self_nonneg (|p.z| * tan a.stOut ^ 2)
          nlinarith
    suffices h : ∃ di, innerGap k s (rad p) |p.z| = some di ∧ 0 < di by
      obtain ⟨di, e, hdi⟩ := h
      rw [e]
      exact ⟨_, rfl, lt_min (lt_min hdi po) pz⟩
    unfold innerGap
    rw [g.stIn, g.rmin, g.tIn]
    by_cases hh : a.Hollow
    · have htr := (treat_iff g hk).mpr hh
      have d4 := d3 hh
      rw [← rad_sq] at d4
      by_cases hs0 : a.stIn = 0
      · rw [if_neg (by simp [hs0]), if_pos ⟨htr, hs0⟩]
        refine ⟨_, rfl, ?_⟩
        unfold Par.in2 at d4
        rw [hs0, tan_zero] at d4
        have : a.rmin < rad p := by
          apply lt_of_pow_lt_pow_left₀ 2 hp0
          nlinarith [mul_nonneg ht.le (sqrt_nonneg (a.rmin ^ 2 + (0 * a.dz) ^ 2))]
        linarith
      · rw [if_pos ⟨htr, hs0⟩]
        have hr : a.rmin * a.rmin + tan a.stIn * tan a.stIn * |p.z| * |p.z| < rad p * rad p := by
          rw [← in2_abs] at d4
          have : a.in2 |p.z| < rad p ^ 2 := by linarith
          unfold Par.in2 at this
          nlinarith
        have hne := tan_ne hv.inLo hv.inHi hs0
        have : ∃ di, approxDistOutside (rad p) |p.z| a.rmin (tan a.stIn) = some di := by
          unfold approxDistOutside
          rw [if_neg hne]
          dsimp only
          split
          · exact ⟨_, rfl⟩
          · exact ⟨_, rfl⟩
        obtain ⟨di, hdi⟩ := this
        exact ⟨di, hdi, approxOut_pos (abs_nonneg _) hr hp0 hdi⟩
    · have htr : ¬ treat k s = true := fun h => hh ((treat_iff g hk).mp h)
      have hs0 : a.stIn = 0 := by
        by_contra hc; exact hh (Or.inr hc)
      rw [if_neg (by simp [hs0]), if_neg (fun h => htr h.1), if_pos ⟨htr, hs0⟩]
      exact ⟨_, rfl, kInfLength_pos⟩

end Hype
end VecGeom
