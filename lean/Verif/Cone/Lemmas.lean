import Verif.Cone.Model
import Verif.Cone.Spec
import Verif.Tube.Lemmas

/-!
# Lemmas on cones
-/

namespace VecGeom
namespace Cone

open Real Tube

/-- The object for given parameters. -/
noncomputable def of (a : Par) : Struct := make a.rmin1 a.rmax1 a.rmin2 a.rmax2 a.z a.s a.d

open Classical in
/-- The parameters the object works with: where the outer radius agrees with the inner one, it is enlarged by the tolerance. -/
noncomputable def Par.fix (a : Par) : Par :=
  { a with
    rmax1 := if a.rmin1 = a.rmax1 then a.rmax1 + kConeTolerance else a.rmax1
    rmax2 := if a.rmin2 = a.rmax2 then a.rmax2 + kConeTolerance else a.rmax2 }

/-- A cone type agrees with the parameters. -/
def Fits (ty : CType) (a : Par) : Prop :=
  (ty.bore = some false → a.rmin1 = 0 ∧ a.rmin2 = 0) ∧ (ty.bore = some true → a.Hollow) ∧
  (ty.angle = .none → a.d = 2 * π) ∧ (ty.angle = .smaller → a.d < π) ∧ (ty.angle = .pi → a.d = π) ∧
  (ty.angle = .bigger → π < a.d ∧ a.d < 2 * π)

theorem kConeTolerance_pos : 0 < kConeTolerance := by norm_num [kConeTolerance]

theorem Par.Valid.dle {a : Par} (hv : a.Valid) : a.d ≤ 2 * π := by
  rcases hv.d' with h | h
  · linarith [show (0 : ℝ) < 1 / 10 ^ 9 by norm_num]
  · exact h.le

/-! ## The fields -/

section
open Classical

/-- The object before the caches are computed. -/
noncomputable def pre (a : Par) (s' : ℝ) : Struct :=
  { rmin1 := a.rmin1, rmax1 := a.rmax1, rmin2 := a.rmin2, rmax2 := a.rmax2, dz := a.z
    sphi := s', dphi := a.d, omin1 := a.rmin1, omin2 := a.rmin2, omax1 := a.rmax1, omax2 := a.rmax2
    wedge := { Wedge.make a.d a.s with sphi := s' }
    a1x := cos s', a1y := sin s', a2x := cos (s' + a.d), a2y := sin (s' + a.d)
    innerSlope := 0, outerSlope := 0, innerOffset := 0, outerOffset := 0, innerTol := 0
    outerTol := 0, sqRmin1 := 0, sqRmin2 := 0, sqRmax1 := 0, sqRmax2 := 0, tolIz := 0, innerApex := 0, tanInner := 0
    outerApex := 0, tanOuter := 0, secRMin := 0, secRMax := 0, invSecRMin := 0, invSecRMax := 0, tanRMin := 0, tanRMax := 0
    zNormInner := 0, zNormOuter := 0, orig1 := 0, orig2 := 0 }

/-- The first azimuth as it is stored. -/
noncomputable def startOf (s d : ℝ) : ℝ :=
  let x := if s < 0 then 2 * π - fmodTwoPi |s| else fmodTwoPi s
  if x + d > 2 * π then x - 2 * π else x

theorem setSPhi_sphi (c : Struct) (a : ℝ) : ∃ k : ℤ, (setSPhi c a).sphi = a + k * (2 * π) := by
  simp only [setSPhi, updatedAlong]
  have key : ∃ k : ℤ, (if a < 0 then 2 * π - fmodTwoPi |a| else fmodTwoPi a) = a + k * (2 * π) := by
    unfold fmodTwoPi
    split
    · rename_i h
      rw [abs_of_neg h]
      exact ⟨⌊-a / (2 * π)⌋ + 1, by push_cast; ring⟩
    · exact ⟨-⌊a / (2 * π)⌋, by push_cast; ring⟩
  obtain ⟨k, hk⟩ := key
  rw [hk]
  split
  · exact ⟨k - 1, by push_cast; ring⟩
  · exact ⟨k, rfl⟩

theorem setDPhi_dphi {c : Struct} {a : ℝ} (h0 : 0 < a) (h1 : a < 2 * π - 1 / 10 ^ 9 ∨ a = 2 * π) : (setDPhi c a).dphi = a := by
  simp only [setDPhi, updatedAlong]
  have hk : kAngTolerance = 1 / 10 ^ 9 := by norm_num [kAngTolerance, kTolerance]
  rw [hk]
  rcases h1 with h1 | h1
  · rw [if_neg (by norm_num at *; linarith), if_pos h0]
  · rw [if_pos (by rw [h1]; norm_num)]; exact h1.symm

theorem of_form {a : Par} (hv : a.Valid) : ∃ s', (∃ k : ℤ, s' = a.s + k * (2 * π)) ∧ of a = calculateCached (pre a s') := by
  have hd : ∀ c, (setDPhi c a.d).dphi = a.d := fun c => setDPhi_dphi hv.d hv.d'
  unfold of make
  rw [if_neg (not_lt.mpr hv.rmin1), if_neg (not_lt.mpr hv.rmin2)]
  generalize hc : setDPhi _ a.d = c
  refine ⟨(setSPhi c a.s).sphi, setSPhi_sphi _ _, congrArg calculateCached ?_⟩
  have key : ∀ c x, setSPhi c x = updatedAlong { c with sphi := (setSPhi c x).sphi, wedge := c.wedge.setStartPhi (setSPhi c x).sphi } :=
    fun _ _ => rfl
  rw [key]
  generalize (setSPhi c a.s).sphi = s'
  rw [← hc]
  have hk : ∀ c x, setDPhi c x = { updatedAlong c with
      sphi := (setDPhi c x).sphi, dphi := (setDPhi c x).dphi, a1x := (setDPhi c x).a1x, a1y := (setDPhi c x).a1y
      a2x := (setDPhi c x).a2x, a2y := (setDPhi c x).a2y, wedge := c.wedge.setDeltaPhi (setDPhi c x).dphi } := by
    intro c x
    simp only [setDPhi, updatedAlong]
    by_cases h1 : x ≥ 2 * π - 1 / 2 * kAngTolerance
    · simp only [if_pos h1]
    · simp only [if_neg h1]
      by_cases h2 : x > 0
      · simp only [if_pos h2]
      · simp only [if_neg h2]
  rw [hk, hd]
  rfl

variable {a : Par} (hv : a.Valid)
include hv

theorem of_rmin1 : (of a).rmin1 = a.rmin1 := by obtain ⟨s', -, e⟩ := of_form hv; rw [e]; rfl
theorem of_rmin2 : (of a).rmin2 = a.rmin2 := by obtain ⟨s', -, e⟩ := of_form hv; rw [e]; rfl
theorem of_rmax1 : (of a).rmax1 = a.fix.rmax1 := by obtain ⟨s', -, e⟩ := of_form hv; rw [e]; rfl
theorem of_rmax2 : (of a).rmax2 = a.fix.rmax2 := by obtain ⟨s', -, e⟩ := of_form hv; rw [e]; rfl
theorem of_orig1 : (of a).orig1 = a.rmax1 := by obtain ⟨s', -, e⟩ := of_form hv; rw [e]; rfl
theorem of_orig2 : (of a).orig2 = a.rmax2 := by obtain ⟨s', -, e⟩ := of_form hv; rw [e]; rfl
theorem of_omin1 : (of a).omin1 = a.rmin1 := by obtain ⟨s', -, e⟩ := of_form hv; rw [e]; rfl
theorem of_omin2 : (of a).omin2 = a.rmin2 := by obtain ⟨s', -, e⟩ := of_form hv; rw [e]; rfl
theorem of_omax1 : (of a).omax1 = a.rmax1 := by obtain ⟨s', -, e⟩ := of_form hv; rw [e]; rfl
theorem of_omax2 : (of a).omax2 = a.rmax2 := by obtain ⟨s', -, e⟩ := of_form hv; rw [e]; rfl
theorem of_dz : (of a).dz = a.z := by obtain ⟨s', -, e⟩ := of_form hv; rw [e]; rfl
theorem of_dphi : (of a).dphi = a.d := by obtain ⟨s', -, e⟩ := of_form hv; rw [e]; rfl
theorem of_sphi : ∃ k : ℤ, (of a).sphi = a.s + k * (2 * π) := by obtain ⟨s', h, e⟩ := of_form hv; rw [e]; exact h
theorem of_wedge : (of a).wedge = { Wedge.make a.d a.s with sphi := (of a).sphi } := by obtain ⟨s', -, e⟩ := of_form hv; rw [e]; rfl
theorem of_innerSlope : (of a).innerSlope = (a.rmin2 - a.rmin1) / (2 * a.z) := by
  obtain ⟨s', -, e⟩ := of_form hv; rw [e]
  show -(a.rmin1 - a.rmin2) / (2 * a.z) = _; ring
theorem of_outerSlope : (of a).outerSlope = (a.fix.rmax2 - a.fix.rmax1) / (2 * a.z) := by
  obtain ⟨s', -, e⟩ := of_form hv; rw [e]
  show -(a.fix.rmax1 - a.fix.rmax2) / (2 * a.z) = _; ring
theorem of_innerOffset : (of a).innerOffset = a.rmin2 - (a.rmin2 - a.rmin1) / (2 * a.z) * a.z := by
  obtain ⟨s', -, e⟩ := of_form hv; rw [e]
  show a.rmin2 - -(a.rmin1 - a.rmin2) / (2 * a.z) * a.z = _; ring
theorem of_outerOffset : (of a).outerOffset = a.fix.rmax2 - (a.fix.rmax2 - a.fix.rmax1) / (2 * a.z) * a.z := by
  obtain ⟨s', -, e⟩ := of_form hv; rw [e]
  show a.fix.rmax2 - -(a.fix.rmax1 - a.fix.rmax2) / (2 * a.z) * a.z = _; ring
theorem of_tanRMin : (of a).tanRMin = (a.rmin2 - a.rmin1) / (2 * a.z) := by
  obtain ⟨s', -, e⟩ := of_form hv; rw [e]
  show (a.rmin2 - a.rmin1) * (1 / 2) / a.z = _; field_simp
theorem of_tanRMax : (of a).tanRMax = (a.fix.rmax2 - a.fix.rmax1) / (2 * a.z) := by
  obtain ⟨s', -, e⟩ := of_form hv; rw [e]
  show (a.fix.rmax2 - a.fix.rmax1) * (1 / 2) / a.z = _; field_simp
theorem of_secRMin : (of a).secRMin = √(1 + ((a.rmin2 - a.rmin1) / (2 * a.z)) ^ 2) := by
  rw [← of_tanRMin hv]
  obtain ⟨s', -, e⟩ := of_form hv; rw [e, sq]; rfl
theorem of_secRMax : (of a).secRMax = √(1 + ((a.fix.rmax2 - a.fix.rmax1) / (2 * a.z)) ^ 2) := by
  rw [← of_tanRMax hv]
  obtain ⟨s', -, e⟩ := of_form hv; rw [e, sq]; rfl
theorem of_invSecRMin : (of a).invSecRMin = 1 / nonZero (of a).secRMin := by
  obtain ⟨s', -, e⟩ := of_form hv; rw [e]; rfl
theorem of_invSecRMax : (of a).invSecRMax = 1 / nonZero (of a).secRMax := by
  obtain ⟨s', -, e⟩ := of_form hv; rw [e]; rfl
theorem of_innerTol : (of a).innerTol = kConeTolerance * (of a).secRMin := by
  obtain ⟨s', -, e⟩ := of_form hv; rw [e]; rfl
theorem of_outerTol : (of a).outerTol = kConeTolerance * (of a).secRMax := by
  obtain ⟨s', -, e⟩ := of_form hv; rw [e]; rfl
theorem of_zNormInner : (of a).zNormInner = (of a).tanRMin / nonZero (of a).secRMin := by
  obtain ⟨s', -, e⟩ := of_form hv; rw [e]; rfl
theorem of_zNormOuter : (of a).zNormOuter = -(of a).tanRMax / nonZero (of a).secRMax := by
  obtain ⟨s', -, e⟩ := of_form hv; rw [e]; rfl
theorem of_sqRmin1 : (of a).sqRmin1 = a.rmin1 * a.rmin1 := by obtain ⟨s', -, e⟩ := of_form hv; rw [e]; rfl
theorem of_sqRmin2 : (of a).sqRmin2 = a.rmin2 * a.rmin2 := by obtain ⟨s', -, e⟩ := of_form hv; rw [e]; rfl
theorem of_sqRmax1 : (of a).sqRmax1 = a.fix.rmax1 * a.fix.rmax1 := by obtain ⟨s', -, e⟩ := of_form hv; rw [e]; rfl
theorem of_sqRmax2 : (of a).sqRmax2 = a.fix.rmax2 * a.fix.rmax2 := by obtain ⟨s', -, e⟩ := of_form hv; rw [e]; rfl
theorem of_tolIz : (of a).tolIz = a.z - kHalfTolerance := by obtain ⟨s', -, e⟩ := of_form hv; rw [e]; rfl
theorem of_innerApex : (of a).innerApex = apex a.rmin1 a.rmin2 a.z := by obtain ⟨s', -, e⟩ := of_form hv; rw [e]; rfl
theorem of_tanInner : (of a).tanInner = tanApex a.rmin1 a.rmin2 a.z := by obtain ⟨s', -, e⟩ := of_form hv; rw [e]; rfl
theorem of_outerApex : (of a).outerApex = apex a.fix.rmax1 a.fix.rmax2 a.z := by obtain ⟨s', -, e⟩ := of_form hv; rw [e]; rfl
theorem of_tanOuter : (of a).tanOuter = tanApex a.fix.rmax1 a.fix.rmax2 a.z := by obtain ⟨s', -, e⟩ := of_form hv; rw [e]; rfl
theorem of_a1x : (of a).a1x = cos a.s := by
  obtain ⟨s', ⟨k, h⟩, e⟩ := of_form hv; rw [e]
  show cos s' = _
  rw [h, cos_add_int_mul_two_pi]
theorem of_a1y : (of a).a1y = sin a.s := by
  obtain ⟨s', ⟨k, h⟩, e⟩ := of_form hv; rw [e]
  show sin s' = _
  rw [h, sin_add_int_mul_two_pi]
theorem of_a2x : (of a).a2x = cos (a.s + a.d) := by
  obtain ⟨s', ⟨k, h⟩, e⟩ := of_form hv; rw [e]
  show cos (s' + a.d) = _
  rw [h, show a.s + k * (2 * π) + a.d = a.s + a.d + k * (2 * π) by ring, cos_add_int_mul_two_pi]
theorem of_a2y : (of a).a2y = sin (a.s + a.d) := by
  obtain ⟨s', ⟨k, h⟩, e⟩ := of_form hv; rw [e]
  show sin (s' + a.d) = _
  rw [h, show a.s + k * (2 * π) + a.d = a.s + a.d + k * (2 * π) by ring, sin_add_int_mul_two_pi]

end

/-! ## The corrected parameters -/

theorem line_const (r h z : ℝ) (hh : 0 < h) : line r r h z = r := by unfold line; field_simp; ring
theorem line_eq (r1 r2 h z : ℝ) (hh : 0 < h) : line r1 r2 h z = (r2 - r1) / (2 * h) * z + (r2 - (r2 - r1) / (2 * h) * h) := by
  unfold line; field_simp; ring
theorem line_eq' (r1 r2 h z : ℝ) (hh : 0 < h) : line r1 r2 h z = (r2 - r1) / (2 * h) * z + (r1 + r2) * (1 / 2) := by
  unfold line; field_simp; ring
theorem line_low (r1 r2 h : ℝ) (hh : 0 < h) : line r1 r2 h (-h) = r1 := by unfold line; field_simp; ring
theorem line_high (r1 r2 h : ℝ) (hh : 0 < h) : line r1 r2 h h = r2 := by unfold line; field_simp; ring
theorem line_le_line {r1 r2 s1 s2 h z : ℝ} (hh : 0 < h) (h1 : r1 ≤ s1) (h2 : r2 ≤ s2) (hz : |z| ≤ h) :
    line r1 r2 h z ≤ line s1 s2 h z := by
  obtain ⟨a, b⟩ := abs_le.mp hz
  unfold line
  have : 0 ≤ (h - z) / (2 * h) := div_nonneg (by linarith) (by linarith)
  have : 0 ≤ (h + z) / (2 * h) := div_nonneg (by linarith) (by linarith)
  gcongr
theorem line_nonneg {r1 r2 h z : ℝ} (hh : 0 < h) (h1 : 0 ≤ r1) (h2 : 0 ≤ r2) (hz : |z| ≤ h) : 0 ≤ line r1 r2 h z := by
  have := line_le_line hh h1 h2 hz
  rwa [line_const _ _ _ hh] at this
theorem line_add (r1 r2 s1 s2 h z : ℝ) : line (r1 + s1) (r2 + s2) h z = line r1 r2 h z + line s1 s2 h z := by
  unfold line; ring

variable {a : Par} {ty : CType}

@[simp] theorem fix_rmin1 : a.fix.rmin1 = a.rmin1 := rfl
@[simp] theorem fix_rmin2 : a.fix.rmin2 = a.rmin2 := rfl
@[simp] theorem fix_z : a.fix.z = a.z := rfl
@[simp] theorem fix_s : a.fix.s = a.s := rfl
@[simp] theorem fix_d : a.fix.d = a.d := rfl
@[simp] theorem fix_inner (z : ℝ) : a.fix.inner z = a.inner z := rfl
@[simp] theorem fix_hollow : a.fix.Hollow ↔ a.Hollow := Iff.rfl

theorem fix_lt1 (hv : a.Valid) : a.rmin1 < a.fix.rmax1 := by
  have := kConeTolerance_pos
  simp only [Par.fix]; split
  · linarith
  · rename_i h; exact lt_of_le_of_ne hv.r1 h
theorem fix_lt2 (hv : a.Valid) : a.rmin2 < a.fix.rmax2 := by
  have := kConeTolerance_pos
  simp only [Par.fix]; split
  · linarith
  · rename_i h; exact lt_of_le_of_ne hv.r2 h
theorem fix_ge1 : a.rmax1 ≤ a.fix.rmax1 := by
  have := kConeTolerance_pos
  simp only [Par.fix]; split <;> linarith
theorem fix_ge2 : a.rmax2 ≤ a.fix.rmax2 := by
  have := kConeTolerance_pos
  simp only [Par.fix]; split <;> linarith
theorem fix_le1 : a.fix.rmax1 ≤ a.rmax1 + kConeTolerance := by
  have := kConeTolerance_pos
  simp only [Par.fix]; split <;> linarith
theorem fix_le2 : a.fix.rmax2 ≤ a.rmax2 + kConeTolerance := by
  have := kConeTolerance_pos
  simp only [Par.fix]; split <;> linarith
theorem fix_of_ne (h1 : a.rmin1 < a.rmax1) (h2 : a.rmin2 < a.rmax2) : a.fix = a := by
  simp only [Par.fix, if_neg h1.ne, if_neg h2.ne]

theorem outerRad_of (hv : a.Valid) (z : ℝ) : outerRad (of a) z = a.fix.outer z := by
  unfold outerRad
  rw [of_orig1 hv, of_orig2 hv, of_outerSlope hv, of_outerOffset hv]
  split
  · rename_i h
    rw [fix_of_ne (hv.cyl h).1 (hv.cyl h).2]
    unfold Par.outer
    rw [← h, line_const _ _ _ hv.z]
  · exact (line_eq _ _ _ _ hv.z).symm

theorem innerLine_of (hv : a.Valid) (z : ℝ) : (of a).innerSlope * z + (of a).innerOffset = a.inner z := by
  rw [of_innerSlope hv, of_innerOffset hv]
  exact (line_eq _ _ _ _ hv.z).symm

theorem outerLine_of (hv : a.Valid) (z : ℝ) : (of a).outerSlope * z + (of a).outerOffset = a.fix.outer z := by
  rw [of_outerSlope hv, of_outerOffset hv]
  exact (line_eq _ _ _ _ hv.z).symm

theorem innerRad_of (hv : a.Valid) (z : ℝ) : innerRad (of a) z = a.inner z := by
  unfold innerRad
  rw [innerLine_of hv, of_rmin1 hv, of_rmin2 hv]
  split
  · rename_i h
    unfold Par.inner
    rw [← h, line_const _ _ _ hv.z]
  · rfl

theorem inner_nonneg (hv : a.Valid) {z : ℝ} (hz : |z| ≤ a.z) : 0 ≤ a.inner z := line_nonneg hv.z hv.rmin1 hv.rmin2 hz

theorem outer_pos (hv : a.Valid) {z : ℝ} (hz : |z| ≤ a.z) : 0 < a.fix.outer z := by
  have h1 := hv.rmin1.trans_lt (fix_lt1 hv)
  have h2 := hv.rmin2.trans_lt (fix_lt2 hv)
  have hm : 0 < min a.fix.rmax1 a.fix.rmax2 := lt_min h1 h2
  have := line_le_line hv.z (min_le_left a.fix.rmax1 a.fix.rmax2) (min_le_right a.fix.rmax1 a.fix.rmax2) hz
  rw [line_const _ _ _ hv.z] at this
  exact hm.trans_le this

theorem inner_lt_outer (hv : a.Valid) {z : ℝ} (hz : |z| ≤ a.z) : a.inner z < a.fix.outer z := by
  have h1 := fix_lt1 hv
  have h2 := fix_lt2 hv
  have h := line_add a.rmin1 a.rmin2 (a.fix.rmax1 - a.rmin1) (a.fix.rmax2 - a.rmin2) a.z z
  simp only [add_sub_cancel] at h
  have hm : 0 < min (a.fix.rmax1 - a.rmin1) (a.fix.rmax2 - a.rmin2) := lt_min (by linarith) (by linarith)
  have := line_le_line hv.z (min_le_left (a.fix.rmax1 - a.rmin1) (a.fix.rmax2 - a.rmin2))
    (min_le_right (a.fix.rmax1 - a.rmin1) (a.fix.rmax2 - a.rmin2)) hz
  rw [line_const _ _ _ hv.z] at this
  show line _ _ _ _ < line _ _ _ _
  simp only [fix_z]
  rw [h]; linarith

/-! ## Types -/

theorem rminT_iff (hv : a.Valid) (hf : Fits ty a) : RminT ty (of a) ↔ a.Hollow := by
  unfold RminT
  rw [of_rmin1 hv, of_rmin2 hv]
  cases he : ty.bore with
  | none => exact Iff.rfl
  | some b =>
    cases b
    · simp only [Bool.false_eq_true, false_iff]
      obtain ⟨h1, h2⟩ := hf.1 he
      unfold Par.Hollow; rw [h1, h2]; simp
    · simp only [true_iff]; exact hf.2.1 he

theorem phiT_iff (hv : a.Valid) (hf : Fits ty a) : PhiT ty (of a) ↔ a.d < 2 * π := by
  have := pi_pos
  obtain ⟨-, -, h1, h2, h3, h4⟩ := hf
  unfold PhiT
  rw [of_dphi hv]
  cases he : ty.angle <;> simp only
  · simp [h1 he]
  · simp only [true_iff]; linarith [h2 he]
  · simp only [true_iff]; linarith [h3 he]
  · simp only [true_iff]; exact (h4 he).2

theorem sector_of_not_lt (hv : a.Valid) (h : ¬ a.d < 2 * π) (x y : ℝ) : Sector a.s a.d x y := by
  rw [le_antisymm hv.dle (not_lt.mp h)]
  exact sector_full _ _ _

theorem wedge_out (hv : a.Valid) (p : V3) : (of a).wedge.Out p ↔ ¬ Sector a.s a.d p.x p.y := by
  rw [of_wedge hv]
  exact Wedge.out_iff hv.d hv.dle p

theorem wedge_onSurface (hv : a.Valid) (p : V3) : (of a).wedge.OnSurface p ↔ (Wedge.make a.d a.s).OnSurface p := by
  rw [of_wedge hv]; exact Iff.rfl

theorem wedge_safetyToIn (hv : a.Valid) (p : V3) : (of a).wedge.safetyToIn p = (Wedge.make a.d a.s).safetyToIn p := by
  rw [of_wedge hv]; rfl

theorem wedge_safetyToOut (hv : a.Valid) (p : V3) : (of a).wedge.safetyToOut p = (Wedge.make a.d a.s).safetyToOut p := by
  rw [of_wedge hv]; rfl

theorem wedge_contains (hv : a.Valid) (p : V3) : (of a).wedge.contains p = (Wedge.make a.d a.s).contains p := by
  rw [of_wedge hv]; rfl

theorem perp2_eq (p : V3) : perp2 p = rad p ^ 2 := rad_sq' p
theorem sqrt_perp2 (p : V3) : √(perp2 p) = rad p := rad_eq p

theorem sec_ge_one (t : ℝ) : 1 ≤ √(1 + t ^ 2) := by rw [one_le_sqrt]; nlinarith [sq_nonneg t]
theorem sec_ge_abs (t : ℝ) : |t| ≤ √(1 + t ^ 2) := by rw [← sqrt_sq_eq_abs]; exact sqrt_le_sqrt (by linarith)

/-- Moving by a distance changes `rad - t z` by at most `sec` times as much. -/
theorem lift_le (t : ℝ) (p q : V3) : (rad p - t * p.z) - (rad q - t * q.z) ≤ √(1 + t ^ 2) * V3.dist p q := by
  have hp := rad_nonneg p
  have hq := rad_nonneg q
  have h1 := rad_sq p
  have h2 := rad_sq q
  have hc : (p.x * q.x + p.y * q.y) ≤ rad p * rad q := by
    apply le_of_sq_le_sq _ (mul_nonneg hp hq)
    rw [mul_pow, h1, h2]
    nlinarith [sq_nonneg (p.x * q.y - p.y * q.x)]
  have hd : (rad p - rad q) ^ 2 + (p.z - q.z) ^ 2 ≤ V3.dist p q ^ 2 := by
    unfold V3.dist
    rw [sq_sqrt (by unfold V3.dist2; positivity)]
    unfold V3.dist2
    nlinarith
  apply le_of_sq_le_sq _ (mul_nonneg (sqrt_nonneg _) (V3.dist_nonneg' p q))
  rw [mul_pow, sq_sqrt (by positivity)]
  have : ((rad p - t * p.z) - (rad q - t * q.z)) ^ 2 ≤ (1 + t ^ 2) * ((rad p - rad q) ^ 2 + (p.z - q.z) ^ 2) := by
    nlinarith [sq_nonneg (t * (rad p - rad q) + (p.z - q.z))]
  exact this.trans (mul_le_mul_of_nonneg_left hd (by positivity))

end Cone
end VecGeom
