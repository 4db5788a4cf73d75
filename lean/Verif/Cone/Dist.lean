import Verif.Cone.Props
import Verif.Tube.PropsOut

/-!
# The quadratics of the conical walls
-/

namespace VecGeom
namespace Cone

open Real Tube

/-! ## Roots of a quadratic with a guarded division -/

theorem guard_pos {x : ℝ} (h : 0 ≤ x) : nonZero x = x + kTiny := nz_pos h
theorem guard_neg {x : ℝ} (h : x < 0) : nonZero x = x - kTiny := by
  unfold nonZero copySign
  rw [if_pos h]; ring

/-- The root for the outer wall comes before the quadratic gets positive. -/
theorem rootOut_outer {a b c t : ℝ} (hc : c < 0 ∨ (c ≤ 0 ∧ b < 0)) (ht : 0 ≤ t) (hf : 0 < a * t ^ 2 + 2 * b * t + c) :
    ¬ b * b < a * c ∧ 0 < rootOut false a b c ∧ rootOut false a b c < t := by
  have he := kTiny_pos
  have hc0 : c ≤ 0 := by rcases hc with h | h; exacts [h.le, h.1]
  have ht0 : 0 < t := by
    rcases ht.lt_or_eq with h | h
    · exact h
    · rw [← h] at hf; norm_num at hf; linarith
  have hdisc : ¬ b * b < a * c := by
    intro h
    have ha : a < 0 := by
      by_contra hn; push Not at hn
      nlinarith [mul_nonneg hn (neg_nonneg.mpr hc0), mul_self_nonneg b]
    nlinarith [sq_nonneg (a * t + b)]
  have hD : 0 ≤ b * b - a * c := by linarith [not_lt.mp hdisc]
  refine ⟨hdisc, ?_⟩
  unfold rootOut
  simp only [Bool.false_eq_true, if_false]
  have hs := sqrt_nonneg (b * b - a * c)
  have hsq := mul_self_sqrt hD
  generalize √(b * b - a * c) = s at *
  split
  · rename_i hb
    have ha : 0 < a := by
      by_contra hn; push Not at hn
      nlinarith [mul_nonneg ht ht, mul_nonneg (neg_nonneg.mpr hn) (sq_nonneg t), mul_pos ht0 (neg_pos.mpr hb)]
    rw [guard_pos ha.le]
    refine ⟨div_pos (by linarith) (by linarith), ?_⟩
    rw [div_lt_iff₀ (by linarith)]
    -- a t + b > s
    have h1 : s * s < (a * t + b) * (a * t + b) := by nlinarith
    have h2 : s < a * t + b := by
      by_contra hn; push Not at hn
      rcases le_or_gt 0 (a * t + b) with h | h
      · nlinarith
      · have h3 : s < -(a * t + b) := by
          by_contra hn'; push Not at hn'; nlinarith
        have h4 : s * s ≥ b * b := by nlinarith
        have h5 : -b ≤ s := by by_contra hn'; push Not at hn'; nlinarith
        nlinarith [mul_pos ha ht0]
    nlinarith [mul_pos he ht0]
  · rename_i hb
    push Not at hb
    have hc' : c < 0 := by rcases hc with h | h; exacts [h, absurd h.2 (not_lt.mpr hb)]
    have hw : 0 < b + s := by
      rcases (add_nonneg hb hs).lt_or_eq with h | h
      · exact h
      · have hb0 : b = 0 := by linarith
        have hs0 : s = 0 := by linarith
        rw [hb0, hs0] at hsq
        have : a = 0 := by
          have : a * c = 0 := by linarith
          rcases mul_eq_zero.mp this with h | h
          · exact h
          · exact absurd h hc'.ne
        rw [this, hb0] at hf
        linarith
    rw [guard_neg (by linarith), show -b - s - kTiny = -(b + s + kTiny) by ring, div_neg, ← neg_div]
    refine ⟨div_pos (by linarith) (by linarith), ?_⟩
    rw [div_lt_iff₀ (by linarith)]
    by_contra hn
    push Not at hn
    have h1 : t * (b + s) + c ≤ 0 := by nlinarith [mul_pos he ht0]
    have h2 : b * t + c - s * t ≤ 0 := by nlinarith [mul_nonneg hs ht]
    have h3 : 0 ≤ (b * t + c - s * t) * (t * (b + s) + c) := mul_nonneg_of_nonpos_of_nonpos h2 h1
    have h4 : (b * t + c - s * t) * (t * (b + s) + c) = c * (a * t ^ 2 + 2 * b * t + c) := by
      linear_combination (-t ^ 2) * hsq
    rw [h4] at h3
    nlinarith

/-- The root for the bore comes before the quadratic gets negative. -/
theorem rootOut_inner {a b c t : ℝ} (hc : 0 < c ∨ (0 ≤ c ∧ 0 < b)) (ht : 0 ≤ t) (hf : a * t ^ 2 + 2 * b * t + c < 0) :
    ¬ b * b < a * c ∧ ¬ (b = 0 ∧ √(b * b - a * c) = 0) ∧ 0 < rootOut true a b c ∧ rootOut true a b c < t := by
  have he := kTiny_pos
  have hc0 : 0 ≤ c := by rcases hc with h | h; exacts [h.le, h.1]
  have ht0 : 0 < t := by
    rcases ht.lt_or_eq with h | h
    · exact h
    · rw [← h] at hf; norm_num at hf; linarith
  have hdisc : ¬ b * b < a * c := by
    intro h
    have ha : 0 < a := by
      by_contra hn; push Not at hn
      nlinarith [mul_nonneg (neg_nonneg.mpr hn) hc0, mul_self_nonneg b]
    nlinarith [sq_nonneg (a * t + b)]
  have hD : 0 ≤ b * b - a * c := by linarith [not_lt.mp hdisc]
  have h00 : ¬ (b = 0 ∧ √(b * b - a * c) = 0) := by
    rintro ⟨hb, hs⟩
    rw [sqrt_eq_zero hD] at hs
    rcases hc with h | h
    · have : a * c = 0 := by rw [hb] at hs; linarith
      rcases mul_eq_zero.mp this with h' | h'
      · rw [h', hb] at hf; linarith
      · linarith
    · linarith [h.2]
  refine ⟨hdisc, h00, ?_⟩
  unfold rootOut
  simp only [if_true]
  have hs := sqrt_nonneg (b * b - a * c)
  have hsq := mul_self_sqrt hD
  generalize √(b * b - a * c) = s at *
  split
  · rename_i hb
    have ha : a < 0 := by
      by_contra hn; push Not at hn
      nlinarith [mul_nonneg hn (sq_nonneg t), mul_nonneg hb ht]
    have hsb : b ≤ s := by
      by_contra hn; push Not at hn
      nlinarith [mul_nonneg (neg_nonneg.mpr ha.le) hc0]
    have hw : 0 < b + s := by
      rcases (add_nonneg hb hs).lt_or_eq with h | h
      · exact h
      · exact absurd ⟨by linarith, by linarith⟩ h00
    rw [guard_neg ha, show a - kTiny = -(-a + kTiny) by ring, div_neg, ← neg_div]
    refine ⟨div_pos (by linarith) (by linarith), ?_⟩
    rw [div_lt_iff₀ (by linarith)]
    have h1 : s * s < (a * t + b) * (a * t + b) := by nlinarith
    have h2 : a * t + b < -s := by
      by_contra hn; push Not at hn
      rcases le_or_gt (a * t + b) 0 with h | h
      · nlinarith
      · have : s < a * t + b := by by_contra hn'; push Not at hn'; nlinarith
        nlinarith [mul_pos (neg_pos.mpr ha) ht0]
    nlinarith [mul_pos he ht0]
  · rename_i hb
    push Not at hb
    have hc' : 0 < c := by rcases hc with h | h; exacts [h, absurd h.2 (not_lt.mpr hb.le)]
    rw [guard_pos (by linarith)]
    refine ⟨div_pos hc' (by linarith), ?_⟩
    rw [div_lt_iff₀ (by linarith)]
    by_contra hn
    push Not at hn
    have h1 : 0 ≤ b * t + c - s * t := by nlinarith [mul_pos he ht0]
    have h2 : 0 ≤ b * t + c + s * t := by nlinarith [mul_nonneg hs ht]
    have h3 := mul_nonneg h1 h2
    have h4 : (b * t + c - s * t) * (b * t + c + s * t) = c * (a * t ^ 2 + 2 * b * t + c) := by
      linear_combination (-t ^ 2) * hsq
    rw [h4] at h3
    nlinarith

/-! ## The radii the quadratics work with -/

open Classical in
/-- The top radius of a wall as the quadratic has it: of walls that close upwards it is smaller, by the guard of a division. -/
noncomputable def effTop (r1 r2 : ℝ) : ℝ := if r1 > r2 then r1 * r2 / (r1 + kTiny) else r2

/-- The parameters the quadratics work with. -/
noncomputable def Par.eff (a : Par) : Par :=
  { a.fix with rmin2 := effTop a.rmin1 a.rmin2, rmax2 := effTop a.fix.rmax1 a.fix.rmax2 }

theorem effTop_bounds {r1 r2 : ℝ} (h1 : 0 ≤ r1) (h2 : 0 ≤ r2) : 0 ≤ effTop r1 r2 ∧ effTop r1 r2 ≤ r2 ∧ r2 ≤ effTop r1 r2 + kTiny := by
  have he := kTiny_pos
  unfold effTop
  split
  · rename_i h
    have hp : 0 < r1 + kTiny := by linarith
    refine ⟨by positivity, ?_, ?_⟩
    · rw [div_le_iff₀ hp]; nlinarith
    · have e : r1 * r2 / (r1 + kTiny) = r2 - kTiny * (r2 / (r1 + kTiny)) := by field_simp; ring
      have : r2 / (r1 + kTiny) ≤ 1 := by rw [div_le_one hp]; linarith
      rw [e]; nlinarith
  · exact ⟨h2, le_refl _, by linarith⟩

theorem effTop_self (r : ℝ) : effTop r r = r := by unfold effTop; rw [if_neg (lt_irrefl _)]

theorem pz_eq {r1 r2 h : ℝ} (h1 : 0 ≤ r1) (h2 : 0 ≤ r2) (hh : 0 < h) (hne : r1 ≠ r2) :
    ∃ s : ℝ, s * s = 1 ∧ tanApex r1 r2 h = s * ((effTop r1 r2 - r1) / (2 * h)) ∧
      ∀ z, (if r2 > r1 then (z + h + apex r1 r2 h) * tanApex r1 r2 h else (z - h - apex r1 r2 h) * tanApex r1 r2 h) =
        s * line r1 (effTop r1 r2) h z := by
  have he := kTiny_pos
  rcases lt_or_gt_of_ne hne with hlt | hgt
  · have hd : 0 < r2 - r1 := by linarith
    have ee : effTop r1 r2 = r2 := by unfold effTop; rw [if_neg (not_lt.mpr hlt.le)]
    have hr2 : 0 < r2 := by linarith
    have et : tanApex r1 r2 h = (r2 - r1) / (2 * h) := by
      unfold tanApex
      dsimp only
      rw [if_neg hr2.ne']
      split
      · rename_i h0; rw [h0]; ring
      · try rfl
        have : 2 * h + 2 * h * r1 / (r2 - r1) = 2 * h * r2 / (r2 - r1) := by field_simp; ring
        rw [this]; field_simp
    have ea : apex r1 r2 h = 2 * h * r1 / (r2 - r1) := by
      unfold apex
      split
      · rename_i h0
        rcases h0 with h0 | h0
        · rw [h0]; simp
        · linarith
      · try rfl
    refine ⟨1, by ring, by rw [ee, et, one_mul], fun z => ?_⟩
    rw [if_pos hlt, et, ea, ee]
    unfold line
    field_simp
    ring
  · have hd : 0 ≤ r1 - r2 := by linarith
    have ee : effTop r1 r2 = r1 * r2 / (r1 + kTiny) := by unfold effTop; rw [if_pos hgt]
    have hr1 : 0 < r1 := by linarith
    have hk : 0 < r1 + kTiny := by linarith
    have hk2 : 0 < r1 - r2 + kTiny := by linarith
    have et : tanApex r1 r2 h = r1 * (r1 - r2 + kTiny) / (2 * h * (r1 + kTiny)) := by
      unfold tanApex
      dsimp only
      rw [if_neg hr1.ne', if_neg (not_lt.mpr hgt.le)]
      split
      · rename_i h0; rw [h0]; field_simp; ring
      · rw [guard_pos hd]
        have : 2 * h + 2 * h * r2 / (r1 - r2 + kTiny) = 2 * h * (r1 + kTiny) / (r1 - r2 + kTiny) := by field_simp; ring
        rw [this]; field_simp
    have ea : apex r1 r2 h = 2 * h * r2 / (r1 - r2 + kTiny) := by
      unfold apex
      split
      · rename_i h0
        rcases h0 with h0 | h0
        · linarith
        · rw [h0]; simp
      · rw [if_neg (not_lt.mpr hgt.le), guard_pos hd]
    refine ⟨-1, by ring, ?_, fun z => ?_⟩
    · rw [ee, et]; field_simp; ring
    · rw [if_neg (not_lt.mpr hgt.le), et, ea, ee]
      unfold line
      field_simp
      ring

variable {a : Par} {ty : CType} {p d : V3}

/-- The outer radii that are worked with are in the order of those that were given. -/
def Par.Ordered (a : Par) : Prop := a.rmax1 = a.rmax2 ∨ kConeTolerance < |a.rmax1 - a.rmax2|

theorem ordered_facts (hv : a.Valid) (ho : a.Ordered) :
    (a.rmax1 = a.rmax2 ↔ a.fix.rmax1 = a.fix.rmax2) ∧ (a.rmax2 > a.rmax1 ↔ a.fix.rmax2 > a.fix.rmax1) := by
  have h1 := fix_ge1 (a := a)
  have h2 := fix_ge2 (a := a)
  have h3 := fix_le1 (a := a)
  have h4 := fix_le2 (a := a)
  have hk := kConeTolerance_pos
  rcases ho with h | h
  · have := hv.cyl h
    rw [fix_of_ne this.1 this.2]
    exact ⟨Iff.rfl, Iff.rfl⟩
  · rcases le_or_gt a.rmax1 a.rmax2 with hl | hl
    · rw [abs_of_nonpos (by linarith)] at h
      exact ⟨⟨fun _ => by linarith, fun _ => by linarith⟩, ⟨fun _ => by linarith, fun _ => by linarith⟩⟩
    · rw [abs_of_pos (by linarith)] at h
      exact ⟨⟨fun _ => by linarith, fun _ => by linarith⟩, ⟨fun _ => by linarith, fun _ => by linarith⟩⟩

/-- The wall of the bore or the outer wall, as the quadratic has it. -/
noncomputable def wall (a : Par) (inner : Bool) (z : ℝ) : ℝ := if inner then a.eff.inner z else a.eff.outer z

theorem quad_core {r1 r2 h : ℝ} {q : V3 → ℝ} (hh : 0 < h) {s T : ℝ} {N : ℝ → ℝ} (hs : s * s = 1) (hT : T = s * ((r2 - r1) / (2 * h)))
    (hN : ∀ z, N z = s * line r1 r2 h z) (t : ℝ) :
    (d.x * d.x + d.y * d.y - (d.z * T) * (d.z * T)) * t ^ 2 + 2 * (p.x * d.x + p.y * d.y - N p.z * (d.z * T)) * t +
      (perp2 p - N p.z * N p.z) = rad (V3.at' p d t) ^ 2 - line r1 r2 h (V3.at' p d t).z ^ 2 := by
  rw [rad_sq, hN, hT, V3.at_z, V3.at_x, V3.at_y, line_eq _ _ _ _ hh, line_eq _ _ _ _ hh, perp2]
  linear_combination (-(d.z * ((r2 - r1) / (2 * h))) ^ 2 * t ^ 2 - 2 * ((r2 - r1) / (2 * h) * p.z + (r2 - (r2 - r1) / (2 * h) * h)) * (d.z * ((r2 - r1) / (2 * h))) * t
    - ((r2 - r1) / (2 * h) * p.z + (r2 - (r2 - r1) / (2 * h) * h)) ^ 2) * hs

/-- The quadratic is the difference of the squared radii along the line. -/
theorem quad_eq (hv : a.Valid) (ho : a.Ordered) (inner : Bool) (t : ℝ) :
    qa (of a) inner d * t ^ 2 + 2 * qb (of a) inner p d * t + qc (of a) inner p =
      rad (V3.at' p d t) ^ 2 - wall a inner (V3.at' p d t).z ^ 2 := by
  have hcyl : ∀ r, (d.x * d.x + d.y * d.y) * t ^ 2 + 2 * (p.x * d.x + p.y * d.y) * t + (p.x * p.x + p.y * p.y - r * r) =
      rad (V3.at' p d t) ^ 2 - r ^ 2 := by
    intro r
    rw [rad_sq, V3.at_x, V3.at_y]; ring
  cases inner
  · obtain ⟨o1, o2⟩ := ordered_facts hv ho
    have hw : ∀ z, wall a false z = line a.fix.rmax1 (effTop a.fix.rmax1 a.fix.rmax2) a.z z := fun _ => rfl
    rw [hw]
    by_cases hc : a.rmax1 = a.rmax2
    · have hC : IsCylinder (of a) false := by unfold IsCylinder; rw [of_orig1 hv, of_orig2 hv]; simpa using hc
      unfold qa qb qc
      rw [if_pos hC, if_pos hC, if_pos hC]
      simp only [Bool.false_eq_true, if_false]
      rw [← o1.mp hc, effTop_self, line_const _ _ _ hv.z, of_orig2 hv]
      have := hv.cyl hc
      rw [fix_of_ne this.1 this.2, ← hc]
      exact hcyl a.rmax1
    · have hC : ¬ IsCylinder (of a) false := by unfold IsCylinder; rw [of_orig1 hv, of_orig2 hv]; simpa using hc
      unfold qa qb qc
      rw [if_neg hC, if_neg hC, if_neg hC]
      obtain ⟨s, hs, hT, hN⟩ := pz_eq (hv.rmin1.trans (fix_lt1 hv).le) (hv.rmin2.trans (fix_lt2 hv).le) hv.z (fun h => hc (o1.mpr h))
      refine quad_core (q := fun _ => 0) hv.z hs ?_ ?_ t
      · simp only [tanOf, Bool.false_eq_true, if_false]
        rw [of_tanOuter hv]; exact hT
      · intro z
        simp only [newPz, Bool.false_eq_true, if_false]
        rw [of_orig1 hv, of_orig2 hv, of_outerApex hv, of_tanOuter hv, of_dz hv, ← hN z]
        by_cases hl : a.rmax2 > a.rmax1
        · rw [if_pos hl, if_pos (o2.mp hl)]
        · rw [if_neg hl, if_neg (fun h => hl (o2.mpr h))]
  · have hw : ∀ z, wall a true z = line a.rmin1 (effTop a.rmin1 a.rmin2) a.z z := fun _ => rfl
    rw [hw]
    by_cases hc : a.rmin1 = a.rmin2
    · have hC : IsCylinder (of a) true := by unfold IsCylinder; rw [of_rmin1 hv, of_rmin2 hv]; simpa using hc
      unfold qa qb qc
      rw [if_pos hC, if_pos hC, if_pos hC]
      simp only [if_true]
      rw [← hc, effTop_self, line_const _ _ _ hv.z, of_rmin2 hv, ← hc]
      exact hcyl a.rmin1
    · have hC : ¬ IsCylinder (of a) true := by unfold IsCylinder; rw [of_rmin1 hv, of_rmin2 hv]; simpa using hc
      unfold qa qb qc
      rw [if_neg hC, if_neg hC, if_neg hC]
      obtain ⟨s, hs, hT, hN⟩ := pz_eq hv.rmin1 hv.rmin2 hv.z hc
      refine quad_core (q := fun _ => 0) hv.z hs ?_ ?_ t
      · simp only [tanOf, if_true]
        rw [of_tanInner hv]; exact hT
      · intro z
        simp only [newPz, if_true]
        rw [of_rmin1 hv, of_rmin2 hv, of_innerApex hv, of_tanInner hv, of_dz hv]
        exact hN z

end Cone
end VecGeom
