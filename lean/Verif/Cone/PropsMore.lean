import Verif.Cone.Props
import Verif.Tube.PropsMore
import Mathlib.Tactic.IntervalCases

/-!
# Extent, sampled points, convexity and setters of cones
-/

namespace VecGeom
namespace Cone

open Real Tube

variable {a : Par} {ty : CType}

/-! ## Extent -/

/-- The tube around a cone. -/
noncomputable def Par.around (a : Par) : Tube.Par := ⟨min a.rmin1 a.rmin2, max a.rmax1 a.rmax2, a.z, a.s, a.d⟩

theorem around_valid (hv : a.Valid) : a.around.Valid := by
  refine ⟨le_min hv.rmin1 hv.rmin2, ?_, hv.z, hv.d, hv.dle⟩
  show min a.rmin1 a.rmin2 < max a.rmax1 a.rmax2
  by_contra hc
  push Not at hc
  have h1 := min_le_left a.rmin1 a.rmin2
  have h2 := min_le_right a.rmin1 a.rmin2
  have h3 := le_max_left a.rmax1 a.rmax2
  have h4 := le_max_right a.rmax1 a.rmax2
  have := hv.r1
  have := hv.r2
  have := hv.cyl (by linarith)
  linarith

/-- `Extent` is the code of the tube. -/
theorem extent_around (hv : a.Valid) : extent (of a) = Tube.extent (Tube.of a.around) := by
  obtain ⟨k, hk⟩ := of_sphi hv
  have c1 : cos (of a).sphi = cos a.s := by rw [hk, cos_add_int_mul_two_pi]
  have s1 : sin (of a).sphi = sin a.s := by rw [hk, sin_add_int_mul_two_pi]
  have c2 : cos ((of a).sphi + a.d) = cos (a.s + a.d) := by
    rw [hk, show a.s + k * (2 * π) + a.d = a.s + a.d + k * (2 * π) by ring, cos_add_int_mul_two_pi]
  have s2 : sin ((of a).sphi + a.d) = sin (a.s + a.d) := by
    rw [hk, show a.s + k * (2 * π) + a.d = a.s + a.d + k * (2 * π) by ring, sin_add_int_mul_two_pi]
  have hmx : (if (of a).omax1 > (of a).omax2 then (of a).omax1 else (of a).omax2) = a.around.rmax := by
    rw [of_omax1 hv, of_omax2 hv, Par.around]
    dsimp only
    split
    · rw [max_eq_left (by linarith)]
    · rw [max_eq_right (by linarith)]
  have hmn : (if (of a).omin1 > (of a).omin2 then (of a).omin2 else (of a).omin1) = a.around.rmin := by
    rw [of_omin1 hv, of_omin2 hv, Par.around]
    dsimp only
    split
    · rw [min_eq_right (by linarith)]
    · rw [min_eq_left (by linarith)]
  have hw : ∀ p, (of a).wedge.contains p = (Tube.of a.around).wedge.contains p := by
    intro p
    rw [of_wedge hv]; rfl
  have hside : ∀ pick out full x y z w, extentSide pick (of a) out full x y z w = Tube.extentSide pick (Tube.of a.around) out full x y z w := by
    intro pick out full x y z w
    unfold extentSide Tube.extentSide
    rw [of_dphi hv]; rfl
  unfold extent Tube.extent
  dsimp only
  rw [hmx, hmn]
  simp only [hw, hside]
  rw [of_dphi hv, of_dz hv, c1, c2, s1, s2]
  have e1 : (Tube.of a.around).rmin = a.around.rmin := Tube.of_rmin (around_valid hv).rmin
  rw [e1]
  rfl

theorem line_mem {r1 r2 h z : ℝ} (hh : 0 < h) (hz : |z| ≤ h) : min r1 r2 ≤ line r1 r2 h z ∧ line r1 r2 h z ≤ max r1 r2 := by
  have h1 := abs_le.mp hz
  have e : line r1 r2 h z = r1 * ((h - z) / (2 * h)) + r2 * ((h + z) / (2 * h)) := rfl
  have hsum : (h - z) / (2 * h) + (h + z) / (2 * h) = 1 := by field_simp; ring
  have hA : 0 ≤ (h - z) / (2 * h) := div_nonneg (by linarith) (by linarith)
  have hB : 0 ≤ (h + z) / (2 * h) := div_nonneg (by linarith) (by linarith)
  rw [e]
  generalize (h - z) / (2 * h) = x at *
  generalize (h + z) / (2 * h) = y at *
  constructor
  · have := mul_le_mul_of_nonneg_right (min_le_left r1 r2) hA
    have := mul_le_mul_of_nonneg_right (min_le_right r1 r2) hB
    have e : min r1 r2 = min r1 r2 * x + min r1 r2 * y := by rw [← mul_add, hsum, mul_one]
    linarith
  · have := mul_le_mul_of_nonneg_right (le_max_left r1 r2) hA
    have := mul_le_mul_of_nonneg_right (le_max_right r1 r2) hB
    have e : max r1 r2 = max r1 r2 * x + max r1 r2 * y := by rw [← mul_add, hsum, mul_one]
    linarith

/-- The cone is in the tube around it. -/
theorem closed_around (hv : a.Valid) {p : V3} (h : a.Closed p) : a.around.Closed p := by
  obtain ⟨h1, h2, h3, h4⟩ := h
  exact ⟨h1, (line_mem hv.z h1).1.trans h2, h3.trans (line_mem hv.z h1).2, h4⟩

/-- Seen along the axis, a cone looks like the tube around it. -/
theorem around_shadow (hv : a.Valid) {p : V3} (h : a.around.Closed p) : ∃ z, a.Closed ⟨p.x, p.y, z⟩ := by
  obtain ⟨-, h2, h3, h4⟩ := h
  have hz := hv.z
  have h2' : min a.rmin1 a.rmin2 ≤ rad p := h2
  have h3' : rad p ≤ max a.rmax1 a.rmax2 := h3
  suffices h : ∃ z, |z| ≤ a.z ∧ a.inner z ≤ rad p ∧ rad p ≤ a.outer z from by
    obtain ⟨z, x1, x2, x3⟩ := h
    exact ⟨z, x1, x2, x3, h4⟩
  have lo : ∀ r1 r2, line r1 r2 a.z (-a.z) = r1 := by intro r1 r2; unfold line; field_simp; ring
  have hi : ∀ r1 r2, line r1 r2 a.z a.z = r2 := by intro r1 r2; unfold line; field_simp; ring
  have az : |(-a.z)| ≤ a.z := by rw [abs_neg, abs_of_pos hz]
  have az' : |a.z| ≤ a.z := by rw [abs_of_pos hz]
  have r1 := hv.r1
  have r2 := hv.r2
  by_cases hA : a.rmin1 ≤ rad p ∧ rad p ≤ a.rmax1
  · exact ⟨-a.z, az, by rw [Par.inner, lo]; exact hA.1, by rw [Par.outer, lo]; exact hA.2⟩
  by_cases hB : a.rmin2 ≤ rad p ∧ rad p ≤ a.rmax2
  · exact ⟨a.z, az', by rw [Par.inner, hi]; exact hB.1, by rw [Par.outer, hi]; exact hB.2⟩
  -- between the ends
  have key : ∀ r s1 s2 : ℝ, (s1 < r ∧ r < s2) ∨ (s2 < r ∧ r < s1) → ∃ z, |z| ≤ a.z ∧ line s1 s2 a.z z = r := by
    intro r s1 s2 hr
    have hne : s2 - s1 ≠ 0 := by rcases hr with h | h <;> intro hc <;> linarith
    refine ⟨a.z * ((2 * r - s1 - s2) / (s2 - s1)), ?_, ?_⟩
    · rw [abs_mul, abs_of_pos hz]
      have : |(2 * r - s1 - s2) / (s2 - s1)| ≤ 1 := by
        rw [abs_div, div_le_one (abs_pos.mpr hne)]
        rcases hr with h | h
        · rw [abs_of_pos (by linarith : 0 < s2 - s1), abs_le]; constructor <;> linarith
        · rw [abs_of_neg (by linarith : s2 - s1 < 0), abs_le]; constructor <;> linarith
      nlinarith
    · unfold line; field_simp; ring
  have hv' := hv.rmin1
  have hmono : ∀ z, |z| ≤ a.z → a.inner z ≤ a.outer z := by
    intro z h
    exact line_le_line hv.z hv.r1 hv.r2 h
  have : (a.rmax1 < rad p ∧ rad p < a.rmax2) ∨ (a.rmax2 < rad p ∧ rad p < a.rmax1) := by
    rcases min_choice a.rmin1 a.rmin2 with e | e <;> rw [e] at h2' <;> rcases max_choice a.rmax1 a.rmax2 with e' | e' <;> rw [e'] at h3'
    · exact absurd ⟨h2', h3'⟩ hA
    · left
      have x1 : a.rmax1 < rad p := by by_contra hc; exact hA ⟨h2', not_lt.mp hc⟩
      have x2 : rad p < a.rmin2 := by by_contra hc; exact hB ⟨not_lt.mp hc, h3'⟩
      exact ⟨x1, by linarith⟩
    · right
      have x1 : a.rmax2 < rad p := by by_contra hc; exact hB ⟨h2', not_lt.mp hc⟩
      have x2 : rad p < a.rmin1 := by by_contra hc; exact hA ⟨not_lt.mp hc, h3'⟩
      exact ⟨x1, by linarith⟩
    · exact absurd ⟨h2', h3'⟩ hB
  obtain ⟨z, h5, h6⟩ := key (rad p) a.rmax1 a.rmax2 this
  refine ⟨z, h5, ?_, ?_⟩
  · have := hmono z h5
    rw [Par.outer, h6] at this
    exact this
  · rw [Par.outer, h6]

/-- C145: `Extent` returns the smallest box around the cone that was asked for. -/
theorem C145_extent (hv : a.Valid) :
    IsLeast (V3.x '' {p | a.Closed p}) (extent (of a)).1.x ∧ IsGreatest (V3.x '' {p | a.Closed p}) (extent (of a)).2.x ∧
    IsLeast (V3.y '' {p | a.Closed p}) (extent (of a)).1.y ∧ IsGreatest (V3.y '' {p | a.Closed p}) (extent (of a)).2.y ∧
    IsLeast (V3.z '' {p | a.Closed p}) (extent (of a)).1.z ∧ IsGreatest (V3.z '' {p | a.Closed p}) (extent (of a)).2.z := by
  have h := C81_extent (around_valid hv)
  rw [← extent_around hv] at h
  have ex : V3.x '' {p | a.around.Closed p} = V3.x '' {p | a.Closed p} := by
    ext x; constructor
    · rintro ⟨p, hp, rfl⟩; obtain ⟨z, hz⟩ := around_shadow hv hp; exact ⟨_, hz, rfl⟩
    · rintro ⟨p, hp, rfl⟩; exact ⟨p, closed_around hv hp, rfl⟩
  have ey : V3.y '' {p | a.around.Closed p} = V3.y '' {p | a.Closed p} := by
    ext x; constructor
    · rintro ⟨p, hp, rfl⟩; obtain ⟨z, hz⟩ := around_shadow hv hp; exact ⟨_, hz, rfl⟩
    · rintro ⟨p, hp, rfl⟩; exact ⟨p, closed_around hv hp, rfl⟩
  rw [ex, ey] at h
  refine ⟨h.1, h.2.1, h.2.2.1, h.2.2.2.1, ?_, ?_⟩
  · have hz : (extent (of a)).1.z = -a.z := by
      rw [extent_around hv]; unfold Tube.extent; dsimp only; split <;> rfl
    rw [hz]
    refine ⟨⟨⟨a.rmin1 * cos (a.s + 0), a.rmin1 * sin (a.s + 0), -a.z⟩, ?_, rfl⟩, ?_⟩
    · have hr : rad ⟨a.rmin1 * cos (a.s + 0), a.rmin1 * sin (a.s + 0), -a.z⟩ = a.rmin1 := by
        unfold rad
        dsimp only
        rw [show (a.rmin1 * cos (a.s + 0)) ^ 2 + (a.rmin1 * sin (a.s + 0)) ^ 2 = a.rmin1 ^ 2 * (sin (a.s + 0) ^ 2 + cos (a.s + 0) ^ 2) by ring,
          sin_sq_add_cos_sq, mul_one, sqrt_sq hv.rmin1]
      have hl : ∀ r1 r2, line r1 r2 a.z (-a.z) = r1 := by intro r1 r2; have := hv.z; unfold line; field_simp; ring
      refine ⟨by simp [abs_of_pos hv.z], ?_, ?_, a.rmin1, 0, hv.rmin1, le_refl _, hv.d.le, rfl, rfl⟩
      · rw [hr, Par.inner, hl]
      · rw [hr, Par.outer, hl]; exact hv.r1
    · rintro _ ⟨p, hp, rfl⟩
      linarith [neg_abs_le p.z, hp.z]
  · have hz : (extent (of a)).2.z = a.z := by
      rw [extent_around hv]; unfold Tube.extent; dsimp only; split <;> rfl
    rw [hz]
    refine ⟨⟨⟨a.rmin2 * cos (a.s + 0), a.rmin2 * sin (a.s + 0), a.z⟩, ?_, rfl⟩, ?_⟩
    · have hr : rad ⟨a.rmin2 * cos (a.s + 0), a.rmin2 * sin (a.s + 0), a.z⟩ = a.rmin2 := by
        unfold rad
        dsimp only
        rw [show (a.rmin2 * cos (a.s + 0)) ^ 2 + (a.rmin2 * sin (a.s + 0)) ^ 2 = a.rmin2 ^ 2 * (sin (a.s + 0) ^ 2 + cos (a.s + 0) ^ 2) by ring,
          sin_sq_add_cos_sq, mul_one, sqrt_sq hv.rmin2]
      have hl : ∀ r1 r2, line r1 r2 a.z a.z = r2 := by intro r1 r2; have := hv.z; unfold line; field_simp; ring
      refine ⟨by simp [abs_of_pos hv.z], ?_, ?_, a.rmin2, 0, hv.rmin2, le_refl _, hv.d.le, rfl, rfl⟩
      · rw [hr, Par.inner, hl]
      · rw [hr, Par.outer, hl]; exact hv.r2
    · rintro _ ⟨p, hp, rfl⟩
      linarith [le_abs_self p.z, hp.z]

/-! ## Sampled points -/

/-- The points on the surface of a cone: on the outer or inner wall, on a lid or on a face of the sector. -/
def OnSurface (a : Par) (p : V3) : Prop :=
  a.Closed p ∧ (rad p = a.outer p.z ∨ (a.Hollow ∧ rad p = a.inner p.z) ∨ |p.z| = a.z ∨
    (a.d < 2 * π ∧ ∃ r, 0 ≤ r ∧ ((p.x = r * cos a.s ∧ p.y = r * sin a.s) ∨ (p.x = r * cos (a.s + a.d) ∧ p.y = r * sin (a.s + a.d)))))

theorem unif_mem {x y u : ℝ} (h : x ≤ y) (h0 : 0 ≤ u) (h1 : u ≤ 1) : x ≤ uniform x y u ∧ uniform x y u ≤ y := by
  unfold uniform; constructor <;> nlinarith

theorem unif_mem' {x y u : ℝ} (h : x < y) (h0 : 0 ≤ u) (h1 : u < 1) : x ≤ uniform x y u ∧ uniform x y u < y := by
  unfold uniform; constructor <;> nlinarith

theorem rad_polar {r t z : ℝ} (hr : 0 ≤ r) : rad ⟨r * cos t, r * sin t, z⟩ = r := by
  unfold rad
  dsimp only
  rw [show (r * cos t) ^ 2 + (r * sin t) ^ 2 = r ^ 2 * (sin t ^ 2 + cos t ^ 2) by ring, sin_sq_add_cos_sq, mul_one, sqrt_sq hr]

/-- C145: sampled points are on the surface, for all random numbers (below one for the choice of the surface). -/
theorem C145_sample (hv : a.Valid) {u0 u1 u2 u3 : ℝ} (h0 : 0 ≤ u0 ∧ u0 ≤ 1) (h1 : 0 ≤ u1 ∧ u1 < 1) (h2 : 0 ≤ u2 ∧ u2 ≤ 1) (h3 : 0 ≤ u3 ∧ u3 ≤ 1) :
    OnSurface a.fix (sample (of a) u0 u1 u2 u3) := by
  obtain ⟨k, hk⟩ := of_sphi hv
  have hz := hv.z
  have hzm := unif_mem (x := -1 * a.z) (y := a.z) (by linarith) h0.1 h0.2
  have c1 : cos (of a).sphi = cos a.s := by rw [hk, cos_add_int_mul_two_pi]
  have s1 : sin (of a).sphi = sin a.s := by rw [hk, sin_add_int_mul_two_pi]
  have c2 : cos ((of a).sphi + a.d) = cos (a.s + a.d) := by
    rw [hk, show a.s + k * (2 * π) + a.d = a.s + a.d + k * (2 * π) by ring, cos_add_int_mul_two_pi]
  have s2 : sin ((of a).sphi + a.d) = sin (a.s + a.d) := by
    rw [hk, show a.s + k * (2 * π) + a.d = a.s + a.d + k * (2 * π) by ring, sin_add_int_mul_two_pi]
  have hin : ∀ z, (of a).innerSlope * z + (of a).innerOffset = a.inner z := fun z => innerLine_of hv z
  have hout : ∀ z, (of a).outerSlope * z + (of a).outerOffset = a.fix.outer z := fun z => outerLine_of hv z
  have hfi : ∀ z, a.fix.inner z = a.inner z := fun _ => rfl
  have hfz : a.fix.z = a.z := rfl
  have hfs : a.fix.s = a.s := rfl
  have hfd : a.fix.d = a.d := rfl
  unfold sample
  dsimp only
  rw [of_dphi hv, of_dz hv, of_rmin1 hv, of_rmin2 hv, of_rmax1 hv, of_rmax2 hv, c1, c2, s1, s2, hin, hout]
  generalize hzz : uniform (-1 * a.z) a.z u0 = z at *
  have haz : |z| ≤ a.z := abs_le.mpr ⟨by linarith, hzm.2⟩
  have hin0 : 0 ≤ a.inner z := inner_nonneg hv haz
  have hio : a.inner z ≤ a.fix.outer z := (inner_lt_outer hv haz).le
  have hrin : (if a.rmin1 ≠ 0 ∨ a.rmin2 ≠ 0 then a.inner z else 0) = a.inner z := by
    split
    · rfl
    · rename_i h
      push Not at h
      rw [Par.inner, h.1, h.2]; unfold line; ring
  rw [hrin]
  have hu2 := unif_mem hio h2.1 h2.2
  have hlo1 : ∀ r1 r2, line r1 r2 a.z (-a.z) = r1 := by intro r1 r2; unfold line; field_simp; ring
  have hlo2 : ∀ r1 r2, line r1 r2 a.z a.z = r2 := by intro r1 r2; unfold line; field_simp; ring
  have th : ∀ r, 0 ≤ r → ∃ t, 0 ≤ t ∧ t ≤ a.d ∧ r * cos (uniform (of a).sphi ((of a).sphi + a.d) u3) = r * cos (a.s + t) ∧
      r * sin (uniform (of a).sphi ((of a).sphi + a.d) u3) = r * sin (a.s + t) := by
    intro r _
    have hd := hv.d
    refine ⟨a.d * u3, by nlinarith [h3.1], by nlinarith [h3.2], ?_, ?_⟩
    · unfold uniform
      rw [hk, show a.s + k * (2 * π) + (a.s + k * (2 * π) + a.d - (a.s + k * (2 * π))) * u3 = a.s + a.d * u3 + k * (2 * π) by ring,
        cos_add_int_mul_two_pi]
    · unfold uniform
      rw [hk, show a.s + k * (2 * π) + (a.s + k * (2 * π) + a.d - (a.s + k * (2 * π))) * u3 = a.s + a.d * u3 + k * (2 * π) by ring,
        sin_add_int_mul_two_pi]
  -- the number of the surface
  have hnum : (if a.rmin1 = 0 ∧ a.rmin2 = 0 then (2 : ℝ) else 1) ≤ uniform (if a.rmin1 = 0 ∧ a.rmin2 = 0 then 2 else 1) (if a.d < 2 * π then 7 else 5) u1 ∧
      uniform (if a.rmin1 = 0 ∧ a.rmin2 = 0 then 2 else 1) (if a.d < 2 * π then 7 else 5) u1 < (if a.d < 2 * π then 7 else 5) := by
    refine unif_mem' ?_ h1.1 h1.2
    split_ifs <;> norm_num
  generalize uniform (if a.rmin1 = 0 ∧ a.rmin2 = 0 then (2 : ℝ) else 1) (if a.d < 2 * π then 7 else 5) u1 = w at *
  generalize hsf : ⌊w⌋ = sf
  have hs1 : 1 ≤ sf := by
    rw [← hsf, Int.le_floor]
    refine le_trans ?_ hnum.1
    push_cast
    split_ifs <;> norm_num
  have hs7 : sf < 7 := by
    rw [← hsf, Int.floor_lt]
    refine lt_of_lt_of_le hnum.2 ?_
    push_cast
    split_ifs <;> norm_num
  have hs5 : 5 ≤ sf → a.d < 2 * π := by
    intro h
    by_contra hc
    have hnum2 := hnum.2
    rw [if_neg hc] at hnum2
    have : sf < 5 := by rw [← hsf, Int.floor_lt]; exact_mod_cast hnum2
    omega
  have hs2 : sf = 1 → a.Hollow := by
    intro h
    by_contra hc
    unfold Par.Hollow at hc
    push Not at hc
    have hnum1 := hnum.1
    rw [if_pos ⟨le_antisymm hc.1 hv.rmin1, le_antisymm hc.2 hv.rmin2⟩] at hnum1
    have : 2 ≤ sf := by rw [← hsf, Int.le_floor]; exact_mod_cast hnum1
    omega
  clear hsf hnum
  have hface : ∀ r t, a.inner z ≤ r → r ≤ a.fix.outer z → 0 ≤ t → t ≤ a.d → a.fix.Closed ⟨r * cos (a.s + t), r * sin (a.s + t), z⟩ := by
    intro r t x1 x2 x3 x4
    have hr := hin0.trans x1
    exact ⟨haz, by rw [rad_polar hr, hfi]; exact x1, by rw [rad_polar hr]; exact x2, r, t, hr, x3, x4, rfl, rfl⟩
  have hd := hv.d
  interval_cases sf
  · norm_num
    obtain ⟨t, x1, x2, x3, x4⟩ := th (a.inner z) hin0
    rw [x3, x4]
    exact ⟨hface _ _ (le_refl _) hio x1 x2, .inr (.inl ⟨hs2 rfl, rad_polar hin0⟩)⟩
  · norm_num
    have ho0 := hin0.trans hio
    obtain ⟨t, x1, x2, x3, x4⟩ := th (a.fix.outer z) ho0
    rw [x3, x4]
    exact ⟨hface _ _ hio (le_refl _) x1 x2, .inl (rad_polar ho0)⟩
  · norm_num
    have hu := unif_mem (fix_lt2 hv).le h2.1 h2.2
    have hr := hv.rmin2.trans hu.1
    obtain ⟨t, x1, x2, x3, x4⟩ := th _ hr
    rw [x3, x4]
    refine ⟨⟨by simp [abs_of_pos hz, hfz], ?_, ?_, _, t, hr, x1, x2, rfl, rfl⟩, .inr (.inr (.inl (by simp [abs_of_pos hz, hfz])))⟩
    · rw [rad_polar hr, hfi, Par.inner, hlo2]; exact hu.1
    · rw [rad_polar hr, Par.outer, hfz, hlo2]; exact hu.2
  · norm_num
    have hu := unif_mem (fix_lt1 hv).le h2.1 h2.2
    have hr := hv.rmin1.trans hu.1
    obtain ⟨t, x1, x2, x3, x4⟩ := th _ hr
    rw [x3, x4]
    refine ⟨⟨by simp [abs_of_pos hz, hfz], ?_, ?_, _, t, hr, x1, x2, rfl, rfl⟩, .inr (.inr (.inl (by simp [abs_of_pos hz, hfz])))⟩
    · rw [rad_polar hr, hfi, Par.inner, hlo1]; exact hu.1
    · rw [rad_polar hr, Par.outer, hfz, hlo1]; exact hu.2
  · rw [if_pos rfl]
    have := hface _ 0 hu2.1 hu2.2 (le_refl _) hd.le
    rw [add_zero] at this
    exact ⟨this, .inr (.inr (.inr ⟨hs5 (by norm_num), _, hin0.trans hu2.1, .inl ⟨rfl, rfl⟩⟩))⟩
  · rw [if_neg (by norm_num), if_pos rfl]
    exact ⟨hface _ a.d hu2.1 hu2.2 hd.le (le_refl _), .inr (.inr (.inr ⟨hs5 (by norm_num), _, hin0.trans hu2.1, .inr ⟨rfl, rfl⟩⟩))⟩

example : OnSurface quarter.fix (sample (of quarter) (1 / 2) (1 / 2) (1 / 2) (1 / 2)) :=
  C145_sample quarter_valid (by norm_num) (by norm_num) (by norm_num) (by norm_num)

/-! ## Convexity -/

theorem rad_between {p q : V3} {t : ℝ} (h0 : 0 ≤ t) (h1 : t ≤ 1) : rad (between p q t) ≤ (1 - t) * rad p + t * rad q := by
  have hp := rad_nonneg p
  have hq := rad_nonneg q
  have hn : 0 ≤ (1 - t) * rad p + t * rad q := add_nonneg (mul_nonneg (by linarith) hp) (mul_nonneg h0 hq)
  rw [rad_le hn]
  have ep : rad p ^ 2 = p.x ^ 2 + p.y ^ 2 := sq_sqrt (by positivity)
  have eq : rad q ^ 2 = q.x ^ 2 + q.y ^ 2 := sq_sqrt (by positivity)
  have hc : p.x * q.x + p.y * q.y ≤ rad p * rad q := by
    refine (abs_le_of_sq_le_sq' ?_ (mul_nonneg hp hq)).2
    rw [mul_pow, ep, eq]
    nlinarith [sq_nonneg (p.x * q.y - p.y * q.x)]
  have h2 := mul_le_mul_of_nonneg_left hc (mul_nonneg h0 (sub_nonneg.mpr h1))
  simp only [between]
  linear_combination 2 * h2 - (1 - t) ^ 2 * ep - t ^ 2 * eq

/-- C145: a cone that is flagged as convex is convex. -/
theorem C145_convex (hv : a.Valid) (h : detectConvexity (of a) = true) :
    ∀ p q, a.fix.Closed p → a.fix.Closed q → ∀ t, 0 ≤ t → t ≤ 1 → a.fix.Closed (between p q t) := by
  unfold detectConvexity at h
  rw [decide_eq_true_eq, of_rmin1 hv, of_rmin2 hv, of_dphi hv] at h
  intro p q hp hq t h0 h1
  have hz := hv.z
  have hin : ∀ z, a.fix.inner z = 0 := by
    intro z
    rw [fix_inner, Par.inner, h.1.1, h.1.2]; unfold line; ring
  refine ⟨?_, by rw [hin]; exact rad_nonneg _, ?_, ?_⟩
  · have h1 := abs_le.mp hp.z
    have h2 := abs_le.mp hq.z
    simp only [between, abs_le]
    constructor <;> nlinarith
  · refine (rad_between h0 h1).trans ?_
    have g1 := mul_le_mul_of_nonneg_left hp.hi (sub_nonneg.mpr h1)
    have g2 := mul_le_mul_of_nonneg_left hq.hi h0
    have e : a.fix.outer (between p q t).z = (1 - t) * a.fix.outer p.z + t * a.fix.outer q.z := by
      simp only [between, Par.outer, line_eq _ _ _ _ hv.z, fix_z]; ring
    rw [e]; linarith
  · -- the sector is that of a tube
    have hR : 0 < max (rad p) (rad q) + 1 := by have := le_max_left (rad p) (rad q); linarith [rad_nonneg p]
    have hT : (Tube.Par.mk 0 (max (rad p) (rad q) + 1) a.z a.s a.d).Valid := ⟨le_refl _, hR, hv.z, hv.d, hv.dle⟩
    have := (C81_convex hT).mp (by
      unfold Tube.detectConvexity
      rw [decide_eq_true_eq, Tube.of_rmin (le_refl _), Tube.of_dphi]
      exact ⟨rfl, h.2⟩) p q ⟨hp.z, rad_nonneg _, by have := le_max_left (rad p) (rad q); simp only; linarith, hp.phi⟩
        ⟨hq.z, rad_nonneg _, by have := le_max_right (rad p) (rad q); simp only; linarith, hq.phi⟩ t h0 h1
    exact this.phi

example : detectConvexity (of pointed) = true := by
  unfold detectConvexity
  rw [decide_eq_true_eq, of_rmin1 pointed_valid, of_rmin2 pointed_valid, of_dphi pointed_valid]
  simp [pointed]

/-! ## Setters -/

theorem of_form' (hv : a.Valid) : of a = calculateCached (pre a (startOf a.s a.d)) := by
  obtain ⟨s', -, e⟩ := of_form hv
  have h1 : (of a).sphi = s' := by rw [e]; rfl
  have h2 : (of a).sphi = startOf a.s a.d := by
    have : (of a).sphi = startOf a.s (setDPhi _ a.d).dphi := rfl
    rw [this, setDPhi_dphi hv.d hv.d']
  rw [e, ← h1, h2]

/-- C145: after a setter of a radius or of the half height, the object is what the constructor makes of the new values, as far as the
outer radii are above the inner ones.  Only the record of the original radii, which `Extent` reads, is not updated. -/
theorem C145_setters_partial (hv : a.Valid) (h1 : a.rmin1 < a.rmax1) (h2 : a.rmin2 < a.rmax2) (x : ℝ) :
    (Par.Valid { a with rmin1 := x } → setRmin1 (of a) x = { of { a with rmin1 := x } with omin1 := a.rmin1 }) ∧
    (Par.Valid { a with rmax1 := x } → setRmax1 (of a) x = { of { a with rmax1 := x } with omax1 := a.rmax1 }) ∧
    (Par.Valid { a with rmin2 := x } → setRmin2 (of a) x = { of { a with rmin2 := x } with omin2 := a.rmin2 }) ∧
    (Par.Valid { a with rmax2 := x } → setRmax2 (of a) x = { of { a with rmax2 := x } with omax2 := a.rmax2 }) ∧
    (Par.Valid { a with z := x } → setDz (of a) x = of { a with z := x }) := by
  refine ⟨fun h => ?_, fun h => ?_, fun h => ?_, fun h => ?_, fun h => ?_⟩
  · rw [of_form' hv, of_form' h]
    by_cases hx : x = a.rmax1
    · simp only [setRmin1, calculateCached, cache, pre, eq_true hx, h1.ne, h2.ne, if_false, if_true]
    · simp only [setRmin1, calculateCached, cache, pre, eq_false hx, h1.ne, h2.ne, if_false, if_true]
  · rw [of_form' hv, of_form' h]
    by_cases hx : a.rmin1 = x
    · simp only [setRmax1, calculateCached, cache, pre, eq_true hx, h1.ne, h2.ne, if_false, if_true]
    · simp only [setRmax1, calculateCached, cache, pre, eq_false hx, h1.ne, h2.ne, if_false, if_true]
  · rw [of_form' hv, of_form' h]
    by_cases hx : x = a.rmax2
    · simp only [setRmin2, calculateCached, cache, pre, eq_true hx, h1.ne, h2.ne, if_false, if_true]
    · simp only [setRmin2, calculateCached, cache, pre, eq_false hx, h1.ne, h2.ne, if_false, if_true]
  · rw [of_form' hv, of_form' h]
    by_cases hx : a.rmin2 = x
    · simp only [setRmax2, calculateCached, cache, pre, eq_true hx, h1.ne, h2.ne, if_false, if_true]
    · simp only [setRmax2, calculateCached, cache, pre, eq_false hx, h1.ne, h2.ne, if_false, if_true]
  · rw [of_form' hv, of_form' h]
    simp only [setDz, calculateCached, cache, pre, h1.ne, h2.ne, if_false]

/-- A full solid cone, used as an example. -/
noncomputable def frustum : Par := ⟨0, 1, 0, 2, 1, 0, 2 * π⟩

theorem frustum_valid : frustum.Valid := by
  have hp := pi_pos
  constructor <;> simp only [frustum] <;> try norm_num
  linarith

theorem frustum5_valid : (Par.mk 0 5 0 2 1 0 (2 * π)).Valid := by
  have hp := pi_pos
  constructor <;> try norm_num
  linarith

/-- `Extent` does not follow the setters of the radii: after `SetRmax1(5)` the cone contains the point (4, 0, -1), which is outside
the box. -/
theorem C145_stale_extent_counterexample :
    contains universal (setRmax1 (of frustum) 5) ⟨4, 0, -1⟩ = true ∧ (extent (setRmax1 (of frustum) 5)).2.x = 2 := by
  have e := (C145_setters_partial frustum_valid (by norm_num [frustum]) (by norm_num [frustum]) 5).2.1 frustum5_valid
  have hx : (Par.mk 0 5 0 2 1 0 (2 * π)).fix = Par.mk 0 5 0 2 1 0 (2 * π) := fix_of_ne (by norm_num) (by norm_num)
  constructor
  · rw [e]
    have : contains universal (of { frustum with rmax1 := 5 }) ⟨4, 0, -1⟩ = true := by
      refine (C142_contains frustum5_valid (fits_universal _) _).mpr ?_
      rw [hx]
      refine ⟨by norm_num, fun h => absurd h (by norm_num [Par.Hollow]), ?_, sector_full _ _ _⟩
      rw [rad_le (by norm_num [Par.outer, line])]
      norm_num [Par.outer, line]
    exact this
  · rw [e]
    unfold extent
    dsimp only
    rw [if_pos (.inl (of_dphi frustum5_valid))]
    have h2 : (of { frustum with rmax1 := 5 }).omax2 = 2 := of_omax2 frustum5_valid
    rw [h2]
    norm_num [frustum]

/-- Where the radii agree at the wider end, points that are contained stick out of the box by up to the cone tolerance. -/
theorem C145_extent_counterexample :
    contains universal (of ⟨5, 5, 0, 1, 1, 0, 2 * π⟩) ⟨5 + 1 / 2 / 10 ^ 7, 0, -1⟩ = true ∧ (extent (of ⟨5, 5, 0, 1, 1, 0, 2 * π⟩)).2.x = 5 := by
  have hp := pi_pos
  have hv : (Par.mk 5 5 0 1 1 0 (2 * π)).Valid := by
    constructor <;> try norm_num
    linarith
  have hr : rad ⟨5 + 1 / 2 / 10 ^ 7, 0, -1⟩ = 5 + 1 / 2 / 10 ^ 7 := by
    unfold rad; dsimp only
    rw [show ((5 + 1 / 2 / 10 ^ 7) ^ 2 + (0 : ℝ) ^ 2) = (5 + 1 / 2 / 10 ^ 7) ^ 2 by ring, sqrt_sq (by norm_num)]
  constructor
  · refine (C142_contains hv (fits_universal _) _).mpr ⟨by norm_num, fun _ => ?_, ?_, sector_full _ _ _⟩
    · rw [hr]; norm_num [Par.inner, line, Par.fix]
    · rw [hr]; norm_num [Par.outer, line, Par.fix, kConeTolerance]
  · unfold extent
    dsimp only
    rw [if_pos (.inl (of_dphi hv)), of_omax1 hv, of_omax2 hv]
    norm_num

/-- The setters of the angles leave the phi wedge as it was: after `SetDPhi(3 pi / 2)` on a quarter cone, `Contains` still answers
for the quarter. -/
theorem C145_angle_setters_counterexample :
    let c := setDPhi (of quarter) (3 * π / 2)
    c.dphi = 3 * π / 2 ∧ contains universal c ⟨-2, -1, 0⟩ = false ∧ (Par.mk 1 2 2 4 3 0 (3 * π / 2)).In ⟨-2, -1, 0⟩ := by
  have hp := pi_pos
  have h2 := two_le_pi
  have hd : (setDPhi (of quarter) (3 * π / 2)).dphi = 3 * π / 2 := setDPhi_dphi (by linarith) (.inl (by norm_num at *; linarith))
  refine ⟨hd, ?_, by norm_num, fun _ => ?_, ?_, ?_⟩
  · rw [← Bool.not_eq_true]
    unfold contains
    simp only [decide_eq_true_eq, not_not]
    refine .inr (.inr (.inr ⟨?_, ?_⟩))
    · show (setDPhi (of quarter) (3 * π / 2)).dphi < 2 * π
      rw [hd]; linarith
    · have hw : (setDPhi (of quarter) (3 * π / 2)).wedge = { (of quarter).wedge with dphi := (setDPhi (of quarter) (3 * π / 2)).dphi } := by
        simp only [setDPhi, updatedAlong, Wedge.setDeltaPhi]
        split_ifs <;> rfl
      rw [hw, hd, of_wedge quarter_valid]
      refine ⟨.inr ⟨?_, ?_, ?_⟩, by simp⟩
      · simp only; linarith
      · simp [Wedge.startCheck, Wedge.make, quarter]
      · simp [Wedge.endCheck, Wedge.make, quarter]
  · rw [lt_rad (by norm_num [Par.inner, line])]; norm_num [Par.inner, line]
  · rw [rad_le (by norm_num [Par.outer, line])]; norm_num [Par.outer, line]
  · rw [sector_big (by linarith) (by linarith)]
    right
    have hc : cos (3 * π / 2) = 0 := by rw [show 3 * π / 2 = π / 2 + π by ring, cos_add_pi, cos_pi_div_two, neg_zero]
    have hs : sin (3 * π / 2) = -1 := by rw [show 3 * π / 2 = π / 2 + π by ring, sin_add_pi, sin_pi_div_two]
    rw [zero_add, hc, hs]
    norm_num

end Cone
end VecGeom
