import Verif.CutTube.Model
import Verif.CutTube.Spec
import Verif.Tube.PropsIn
import Verif.Tube.PropsOut

/-!
# Lemmas on cut tubes
-/

namespace VecGeom
namespace CutTube

open Real

/-- The object for given parameters. -/
noncomputable def of (a : Par) : Struct := make a.rmin a.rmax a.z a.s a.d a.nb a.nt

/-- The tube inside. -/
noncomputable def tb (a : Par) : Tube.Par := ⟨a.rmin, a.rmax, kInfLength, a.s, a.d⟩

theorem tb_valid {a : Par} (hv : a.Valid) : (tb a).Valid := ⟨hv.rmin, hv.rmax, kInfLength_pos, hv.d, hv.d'⟩
theorem tb_fits (a : Par) : Tube.Fits Tube.universal (tb a) := by
  refine ⟨?_, ?_, ?_, ?_, ?_⟩ <;> simp [Tube.universal]

theorem of_tube (a : Par) : (of a).tube = Tube.of (tb a) := rfl

theorem len_pos {n : V3} (h : n.z ≠ 0) : 0 < len n := by unfold len; apply sqrt_pos.mpr; positivity
theorem len_sq (n : V3) : len n ^ 2 = n.x ^ 2 + n.y ^ 2 + n.z ^ 2 := sq_sqrt (by positivity)
theorem mag_eq_len (n : V3) : n.mag = len n := by unfold V3.mag len V3.mag2 V3.dot; congr 1; ring

theorem fix_clean {n : V3} {s c : ℝ} (hs : 0 < s) (h : c = 0 ∨ kTolerance * s ≤ |c|) :
    (open Classical in if |c / s| < kTolerance then 0 else c / s) = c / s := by
  split
  · rename_i h1
    rcases h with h | h
    · rw [h, zero_div]
    · rw [abs_div, abs_of_pos hs, div_lt_iff₀ hs] at h1; linarith
  · rfl

/-- The stored plane for a clean normal. -/
theorem setPlane_unit {n o : V3} (hz : n.z ≠ 0) (hc : Clean n) :
    setPlane n.unit o = ⟨V3.smul (1 / len n) n, -(n.dot o) / len n⟩ := by
  have hl := len_pos hz
  have hs := V3.unit_root_pos n
  have hm : n.mag2 + kMinimum = n.x ^ 2 + n.y ^ 2 + n.z ^ 2 + kMinimum := by unfold V3.mag2 V3.dot; ring
  have hc' : ∀ c, c = n.x ∨ c = n.y ∨ c = n.z → c = 0 ∨ kTolerance * √(n.mag2 + kMinimum) ≤ |c| := by
    intro c h
    refine (hc c h).imp id fun h1 => ?_
    apply le_of_sq_le_sq _ (abs_nonneg _)
    rw [mul_pow, sq_sqrt (by linarith [V3.mag2_nonneg n, kMinimum_pos]), sq_abs, hm]
    exact h1
  have hu : n.unit = ⟨n.x / √(n.mag2 + kMinimum), n.y / √(n.mag2 + kMinimum), n.z / √(n.mag2 + kMinimum)⟩ := rfl
  have hf : fixZeroes n.unit = n.unit := by
    rw [hu]
    unfold fixZeroes
    simp only
    rw [fix_clean (n := n) hs (hc' _ (.inl rfl)), fix_clean (n := n) hs (hc' _ (.inr (.inl rfl))), fix_clean (n := n) hs (hc' _ (.inr (.inr rfl)))]
  generalize √(n.mag2 + kMinimum) = r at *
  have hmag : n.unit.mag = len n / r := by
    rw [mag_eq_len, hu]
    unfold len
    simp only
    rw [show (n.x / r) ^ 2 + (n.y / r) ^ 2 + (n.z / r) ^ 2 = (n.x ^ 2 + n.y ^ 2 + n.z ^ 2) / r ^ 2 by field_simp, sqrt_div (by positivity), sqrt_sq hs.le]
  unfold setPlane
  simp only [hf, hmag]
  rw [hu]
  unfold V3.smul V3.dot
  simp only
  congr 1
  · congr 1 <;> field_simp
  · field_simp
where
  le_of_sq_le_sq {x y : ℝ} (h : x ^ 2 ≤ y ^ 2) (hy : 0 ≤ y) : x ≤ y := by
    have := abs_le_of_sq_le_sq' h hy
    exact this.2

section
variable {a : Par}

theorem Par.Valid.nb' (hv : a.Valid) : a.nb.z ≠ 0 := hv.nb.ne
theorem Par.Valid.nt' (hv : a.Valid) : a.nt.z ≠ 0 := hv.nt.ne'

theorem of_p0 (hv : a.Valid) : (of a).cuts.p0 = ⟨V3.smul (1 / len a.nb) a.nb, a.nb.z * a.z / len a.nb⟩ := by
  have : (of a).cuts.p0 = setPlane a.nb.unit ⟨0, 0, -a.z⟩ := rfl
  rw [this, setPlane_unit hv.nb' hv.cb]
  congr 1
  unfold V3.dot; simp
theorem of_p1 (hv : a.Valid) : (of a).cuts.p1 = ⟨V3.smul (1 / len a.nt) a.nt, -(a.nt.z * a.z) / len a.nt⟩ := by
  have : (of a).cuts.p1 = setPlane a.nt.unit ⟨0, 0, a.z⟩ := rfl
  rw [this, setPlane_unit hv.nt' hv.ct]
  congr 1
  unfold V3.dot; simp

theorem dist_p0 (hv : a.Valid) (p : V3) : distPlane (of a).cuts.p0 p = a.bottom p := by
  have := len_pos hv.nb'
  rw [of_p0 hv]
  unfold distPlane Par.bottom V3.dot
  simp only [V3.smul_x, V3.smul_y, V3.smul_z]
  field_simp
  ring
theorem dist_p1 (hv : a.Valid) (p : V3) : distPlane (of a).cuts.p1 p = a.top p := by
  have := len_pos hv.nt'
  rw [of_p1 hv]
  unfold distPlane Par.top V3.dot
  simp only [V3.smul_x, V3.smul_y, V3.smul_z]
  field_simp
  ring

/-- The speed along the normals. -/
noncomputable def vb (a : Par) (d : V3) : ℝ := (a.nb.x * d.x + a.nb.y * d.y + a.nb.z * d.z) / len a.nb
noncomputable def vt (a : Par) (d : V3) : ℝ := (a.nt.x * d.x + a.nt.y * d.y + a.nt.z * d.z) / len a.nt

theorem dot_p0 (hv : a.Valid) (d : V3) : d.dot (of a).cuts.p0.n = vb a d := by
  have := len_pos hv.nb'
  rw [of_p0 hv]
  unfold vb V3.dot
  simp only [V3.smul_x, V3.smul_y, V3.smul_z]
  field_simp
theorem dot_p1 (hv : a.Valid) (d : V3) : d.dot (of a).cuts.p1.n = vt a d := by
  have := len_pos hv.nt'
  rw [of_p1 hv]
  unfold vt V3.dot
  simp only [V3.smul_x, V3.smul_y, V3.smul_z]
  field_simp

theorem bottom_at (a : Par) (p d : V3) (t : ℝ) : a.bottom (V3.at' p d t) = a.bottom p + t * vb a d := by
  unfold Par.bottom vb; simp only [V3.at_x, V3.at_y, V3.at_z]; ring
theorem top_at (a : Par) (p d : V3) (t : ℝ) : a.top (V3.at' p d t) = a.top p + t * vt a d := by
  unfold Par.top vt; simp only [V3.at_x, V3.at_y, V3.at_z]; ring

theorem unit_p0 (hv : a.Valid) : (of a).cuts.p0.n.mag2 = 1 := by
  have h := len_pos hv.nb'
  have h2 := len_sq a.nb
  rw [of_p0 hv]
  unfold V3.mag2 V3.dot
  simp only [V3.smul_x, V3.smul_y, V3.smul_z]
  field_simp
  linarith
theorem unit_p1 (hv : a.Valid) : (of a).cuts.p1.n.mag2 = 1 := by
  have h := len_pos hv.nt'
  have h2 := len_sq a.nt
  rw [of_p1 hv]
  unfold V3.mag2 V3.dot
  simp only [V3.smul_x, V3.smul_y, V3.smul_z]
  field_simp
  linarith

theorem distPlane_eq_height (pl : Plane) (p : V3) : distPlane pl p = pl.height p := by
  unfold distPlane Plane.height V3.dot; ring

theorem bottom_lip (hv : a.Valid) (p q : V3) : a.bottom p - a.bottom q ≤ V3.dist p q := by
  rw [← dist_p0 hv, ← dist_p0 hv, distPlane_eq_height, distPlane_eq_height]
  exact Plane.height_sub_le (unit_p0 hv).le p q
theorem top_lip (hv : a.Valid) (p q : V3) : a.top p - a.top q ≤ V3.dist p q := by
  rw [← dist_p1 hv, ← dist_p1 hv, distPlane_eq_height, distPlane_eq_height]
  exact Plane.height_sub_le (unit_p1 hv).le p q

/-- A clean normal is not too flat. -/
theorem slope_le {n : V3} (hz : n.z ≠ 0) (hc : Clean n) (x y : ℝ) : |n.x * x + n.y * y| ≤ 10 ^ 9 * |n.z| * √(x ^ 2 + y ^ 2) := by
  have h1 : kTolerance ^ 2 * (n.x ^ 2 + n.y ^ 2 + n.z ^ 2 + kMinimum) ≤ n.z ^ 2 := (hc _ (.inr (.inr rfl))).resolve_left hz
  have hk := kMinimum_pos
  have h2 : n.x ^ 2 + n.y ^ 2 ≤ (10 ^ 9) ^ 2 * n.z ^ 2 := by
    unfold kTolerance at h1
    nlinarith [sq_nonneg n.z]
  apply abs_le_of_sq_le_sq _ (by positivity)
  rw [mul_pow, sq_sqrt (by positivity), mul_pow, sq_abs]
  nlinarith [sq_nonneg (n.x * y - n.y * x), mul_le_mul_of_nonneg_right h2 (show 0 ≤ x ^ 2 + y ^ 2 by positivity)]

/-- Between the planes and in the outer cylinder the height is limited. -/
theorem z_le (hv : a.Valid) {p : V3} (hr : Tube.rad p ≤ a.rmax) (hb : a.bottom p ≤ 0) (ht : a.top p ≤ 0) : |p.z| ≤ a.z + 10 ^ 9 * a.rmax := by
  have hlb := len_pos hv.nb'
  have hlt := len_pos hv.nt'
  have h1 := slope_le hv.nb' hv.cb p.x p.y
  have h2 := slope_le hv.nt' hv.ct p.x p.y
  rw [show √(p.x ^ 2 + p.y ^ 2) = Tube.rad p from rfl] at h1 h2
  rw [abs_of_neg hv.nb] at h1
  rw [abs_of_pos hv.nt] at h2
  unfold Par.bottom at hb
  unfold Par.top at ht
  rw [div_le_iff₀ hlb, zero_mul] at hb
  rw [div_le_iff₀ hlt, zero_mul] at ht
  have h3 := abs_le.mp h1
  have h4 := abs_le.mp h2
  have nb := hv.nb
  have nt := hv.nt
  rw [abs_le]
  constructor
  · by_contra hc
    push Not at hc
    nlinarith
  · by_contra hc
    push Not at hc
    nlinarith

theorem z_lt (hv : a.Valid) {p : V3} (hr : Tube.rad p ≤ a.rmax) (hb : a.bottom p ≤ 0) (ht : a.top p ≤ 0) : |p.z| ≤ kInfLength := by
  have h1 := z_le hv hr hb ht
  have h2 := hv.fin
  have h3 := hv.z
  have h4 := hv.rmin
  have h5 := hv.rmax
  linarith

theorem Par.Closed.tube (hv : a.Valid) {p : V3} (h : a.Closed p) : (tb a).Closed p := ⟨z_lt hv h.hi h.bot h.top, h.lo, h.hi, h.phi⟩

theorem closed_iff (hv : a.Valid) (p : V3) : a.Closed p ↔ (tb a).Closed p ∧ a.bottom p ≤ 0 ∧ a.top p ≤ 0 :=
  ⟨fun h => ⟨h.tube hv, h.bot, h.top⟩, fun h => ⟨h.1.lo, h.1.hi, h.1.phi, h.2.1, h.2.2⟩⟩

/-- Heights between the planes for a larger cylinder. -/
theorem z_le' (hv : a.Valid) {p : V3} {R : ℝ} (hr : Tube.rad p ≤ R) (hb : a.bottom p ≤ 0) (ht : a.top p ≤ 0) : |p.z| ≤ a.z + 10 ^ 9 * R := by
  have hlb := len_pos hv.nb'
  have hlt := len_pos hv.nt'
  have h1 := slope_le hv.nb' hv.cb p.x p.y
  have h2 := slope_le hv.nt' hv.ct p.x p.y
  rw [show √(p.x ^ 2 + p.y ^ 2) = Tube.rad p from rfl] at h1 h2
  rw [abs_of_neg hv.nb] at h1
  rw [abs_of_pos hv.nt] at h2
  unfold Par.bottom at hb
  unfold Par.top at ht
  rw [div_le_iff₀ hlb, zero_mul] at hb
  rw [div_le_iff₀ hlt, zero_mul] at ht
  have h3 := abs_le.mp h1
  have h4 := abs_le.mp h2
  have nb := hv.nb
  have nt := hv.nt
  rw [abs_le]
  constructor
  · by_contra hc
    push Not at hc
    nlinarith
  · by_contra hc
    push Not at hc
    nlinarith

end
end CutTube

namespace Tube
open Real
variable {a : Par} {ty : TType}

/-- A point that the wedge does not call outside is near the sector. -/
theorem phi_near (hv : a.Valid) {p : V3} (h : ¬ (Wedge.make a.d a.s).CompletelyOutside true p) :
    (a.d ≤ π ∧ -kTolerance ≤ S1 a p.x p.y ∧ -kTolerance ≤ S2 a p.x p.y) ∨ (π < a.d ∧ (-kTolerance ≤ S1 a p.x p.y ∨ -kTolerance ≤ S2 a p.x p.y)) := by
  have ht := kTolerance_pos
  have hs2 := sin_sq_add_cos_sq a.s
  have hs3 := sin_sq_add_cos_sq (a.s + a.d)
  by_cases hs : Sector a.s a.d p.x p.y
  · rcases (sector_iff hv _ _).mp hs with h1 | h1
    · exact .inl ⟨h1.1, by linarith, by linarith⟩
    · exact .inr ⟨h1.1, h1.2.imp (fun h => by linarith) (fun h => by linarith)⟩
  · have hon : (Wedge.make a.d a.s).OnSurface p := by
      by_contra hc
      exact h ⟨(Wedge.out_iff hv.d hv.d' p).mpr hs, fun _ => hc⟩
    unfold Wedge.OnSurface at hon
    rw [Wedge.on1_iff, Wedge.on2_iff] at hon
    have e := sin_sub (a.s + a.d) a.s
    have e' := cos_sub (a.s + a.d) a.s
    rw [show a.s + a.d - a.s = a.d by ring] at e e'
    rcases hon with ⟨k, hk, r, hr, hx, hy⟩ | ⟨k, hk, r, hr, hx, hy⟩
    · have k1 := abs_lt.mp hk
      have e1 : S1 a p.x p.y = k := by unfold S1; rw [hx, hy]; linear_combination k * hs2
      have e2 : S2 a p.x p.y = r * sin a.d - k * cos a.d := by
        unfold S2; rw [hx, hy, e, e']; ring
      rcases le_or_gt a.d π with hd | hd
      · refine .inl ⟨hd, by linarith, ?_⟩
        have h0 := mul_nonneg hr (sin_nonneg_of_nonneg_of_le_pi hv.d.le hd)
        have h1 : |k * cos a.d| ≤ |k| := by rw [abs_mul]; exact mul_le_of_le_one_right (abs_nonneg _) (abs_cos_le_one _)
        have := le_abs_self (k * cos a.d)
        rw [e2]; linarith
      · exact .inr ⟨hd, .inl (by linarith)⟩
    · have k1 := abs_lt.mp hk
      have e2 : S2 a p.x p.y = -k := by unfold S2; rw [hx, hy]; linear_combination -k * hs3
      have e1 : S1 a p.x p.y = r * sin a.d + k * cos a.d := by
        unfold S1; rw [hx, hy, e, e']; ring
      rcases le_or_gt a.d π with hd | hd
      · refine .inl ⟨hd, ?_, by linarith⟩
        have h0 := mul_nonneg hr (sin_nonneg_of_nonneg_of_le_pi hv.d.le hd)
        have h1 : |k * cos a.d| ≤ |k| := by rw [abs_mul]; exact mul_le_of_le_one_right (abs_nonneg _) (abs_cos_le_one _)
        have := neg_abs_le (k * cos a.d)
        rw [e1]; linarith
      · exact .inr ⟨hd, .inr (by linarith)⟩

/-- A point that the tube does not call outside is near the tube. -/
theorem near_of_not_outside (hv : a.Valid) (hf : Fits ty a) (hmax : kTolerance ≤ a.rmax) (hmin : a.rmin = 0 ∨ kTolerance < a.rmin) {p : V3}
    (h : inside ty (of a) p ≠ .outside) : rad p ≤ a.rmax + kTolerance ∧ a.rmin - 2 * kTolerance ≤ rad p ∧
    (a.d = 2 * π ∨ (a.d ≤ π ∧ -kTolerance ≤ S1 a p.x p.y ∧ -kTolerance ≤ S2 a p.x p.y) ∨
      (π < a.d ∧ (-kTolerance ≤ S1 a p.x p.y ∨ -kTolerance ≤ S2 a p.x p.y))) := by
  have ht := kTolerance_pos
  have hr0 := rad_nonneg p
  obtain ⟨h1, h2, h3, h4⟩ := C77_inside hv hf hmax hmin p
  have hr : rad p ≤ a.rmax + kTolerance ∧ a.rmin - 2 * kTolerance ≤ rad p := by
    cases hi : inside ty (of a) p with
    | inside =>
      have hI := h1 hi
      refine ⟨by linarith [hI.hi], ?_⟩
      rcases hv.rmin.lt_or_eq with h0 | h0
      · linarith [hI.lo h0]
      · linarith
    | outside => exact absurd hi h
    | surface => exact ⟨(h3 hi).2.1, (h3 hi).2.2.1⟩
  refine ⟨hr.1, hr.2, ?_⟩
  by_cases hp : PhiT ty (of a)
  · right
    apply phi_near hv
    intro hw
    apply h
    have ho : CompletelyOutside ty true (of a) p := .inr (.inr (.inr ⟨hp, hw⟩))
    have hn : ¬ CompletelyInside ty (of a) p := by
      rintro ⟨-, -, -, h5⟩
      exact (h5 hp).2 hw
    unfold inside
    rw [if_neg hn, if_pos ho]
  · exact .inl (not_phiT hv hp hf)

end Tube
end VecGeom
