import Verif.Tube.Dist
import Verif.Tube.Props
import Verif.Base.Halfspace

/-!
# The way out of a tube
-/

namespace VecGeom
namespace Tube

open Real

variable {a : Par} {ty : TType} {p d : V3}

theorem takeLess_cases (ok : Prop) (x s : ℝ) : (ok ∧ takeLess ok x s = x) ∨ takeLess ok x s = s := by
  unfold takeLess; split
  · rename_i h; exact .inl ⟨h.1, rfl⟩
  · exact .inr rfl

/-- `DistanceToOut` in terms of the parameters. -/
theorem distanceToOut_eq (hv : a.Valid) (hf : Fits ty a) (hpi : ty.angle ≠ .pi) (ho : ¬ OutsideForOut ty (of a) p) :
    distanceToOut ty (of a) p d =
      takeLess (a.d < 2 * π ∧ PlaneOk a (decide (ty.angle ≠ .smaller)) true p d) (planeDist a true p d)
      (takeLess (a.d < 2 * π ∧ PlaneOk a (decide (ty.angle ≠ .smaller)) false p d) (planeDist a false p d)
      (takeLess (CircleOk ty true false (qb p d) (qc a.rmax p d) (of a) p d) (circleDist true (qb p d) (qc a.rmax p d))
      (takeLess (0 < a.rmin ∧ CircleOk ty false false (qb p d) (qc a.rmin p d) (of a) p d) (circleDist false (qb p d) (qc a.rmin p d))
      (takeLess (d.z ≠ 0) (zDistOut (of a) p d) kInfLength)))) := by
  have eb : invnsq d * (d.x * p.x + d.y * p.y) = qb p d := by unfold qb; ring
  have ec : ∀ r : ℝ, (rad p ^ 2 - r * r) * invnsq d = qc r p d := by intro r; unfold qc; ring
  unfold distanceToOut
  rw [if_neg ho]
  simp only [eb, rad_sq', of_rmax2, of_rmin2 hv.rmin, ec, rminT_iff hv hf, phiT_iff hf]
  have e1 : ∀ s : ℝ, (if 0 < a.rmin then takeLess (CircleOk ty false false (qb p d) (qc a.rmin p d) (of a) p d)
        (circleDist false (qb p d) (qc a.rmin p d)) s else s) =
      takeLess (0 < a.rmin ∧ CircleOk ty false false (qb p d) (qc a.rmin p d) (of a) p d) (circleDist false (qb p d) (qc a.rmin p d)) s := by
    intro s
    split
    · rename_i h; simp only [h, true_and]
    · rename_i h; simp [h, takeLess]
  have e2 : ∀ s : ℝ, a.d < 2 * π → phiOut ty (of a) p d s =
      takeLess (PlaneOk a (decide (ty.angle ≠ .smaller)) true p d) (planeDist a true p d)
      (takeLess (PlaneOk a (decide (ty.angle ≠ .smaller)) false p d) (planeDist a false p d) s) := by
    intro s hd
    have w1 : ∀ b s, takeLess (PhiPlaneOk b false (of a).a1x (of a).a1y (of a).wedge.n1x (of a).wedge.n1y (of a) p d)
        (phiPlaneDist (of a).a1x (of a).a1y p d) s = takeLess (PlaneOk a b false p d) (planeDist a false p d) s :=
      fun b s => takeLess_congr (phiPlaneOk1 b) (fun h => phiPlaneDist1 ((phiPlaneOk1 b).mp h).1)
    have w2 : ∀ b s, takeLess (PhiPlaneOk b false (of a).a2x (of a).a2y (of a).wedge.n2x (of a).wedge.n2y (of a) p d)
        (phiPlaneDist (of a).a2x (of a).a2y p d) s = takeLess (PlaneOk a b true p d) (planeDist a true p d) s :=
      fun b s => takeLess_congr (phiPlaneOk2 b) (fun h => phiPlaneDist2 ((phiPlaneOk2 b).mp h).1)
    unfold phiOut
    cases he : ty.angle
    · exact absurd (hf.2.1 he) hd.ne
    · simp only [w1, w2]; simp
    · exact absurd he hpi
    · simp only [w1, w2]; simp
    · simp only [w1, w2]; simp
  split
  · rename_i hd
    rw [e2 _ hd]
    simp only [hd, true_and]
    rw [← e1]
  · rename_i hd
    simp only [hd, false_and]
    rw [show ∀ x s, takeLess False x s = s from fun x s => by simp [takeLess], show ∀ x s, takeLess False x s = s from fun x s => by simp [takeLess]]
    rw [← e1]

theorem zDistOut_eq (hz : d.z ≠ 0) : zDistOut (of a) p d = (a.z - (sign d.z) * p.z) / (|d.z| + kTiny) := by
  unfold zDistOut sign nonZero copySign
  simp only [of_z]
  have he := kTiny_pos
  rcases lt_or_gt_of_ne hz with h | h
  · rw [if_pos h, if_pos h, if_pos h, abs_of_neg h]
    have h1 : d.z + -kTiny ≠ 0 := by linarith
    have h2 : -d.z + kTiny ≠ 0 := by linarith
    field_simp
    ring
  · rw [if_neg (not_lt.mpr h.le), if_neg (not_lt.mpr h.le), if_neg (not_lt.mpr h.le), abs_of_pos h]
    ring

theorem not_outside_of_closed (hv : a.Valid) (hf : Fits ty a) (hc : a.Closed p) : ¬ OutsideForOut ty (of a) p := by
  have ht := kTolerance_pos
  have hh := kHalfTolerance_pos
  have h0 := rad_nonneg p
  have h1 := hv.rmin
  have h2 := hv.rmax
  unfold OutsideForOut
  simp only [rad_sq', of_z, of_rmax, of_rmax2, of_rmin hv.rmin, of_rmin2 hv.rmin, rminT_iff hv hf, of_wedge]
  rintro (h | h | ⟨-, h⟩ | ⟨-, h⟩)
  · linarith [hc.z]
  · have : rad p ^ 2 ≤ a.rmax * a.rmax := by rw [← sq]; exact pow_le_pow_left₀ h0 hc.hi 2
    nlinarith
  · have : a.rmin * a.rmin ≤ rad p ^ 2 := by rw [← sq]; exact pow_le_pow_left₀ h1 hc.lo 2
    nlinarith
  · exact (Wedge.out_iff hv.d hv.d' p).mp h.1 hc.phi

/-- The facts on the value that the proof of C79 uses. -/
theorem out_facts (hv : a.Valid) (hf : Fits ty a) (hpi : ty.angle ≠ .pi) (hc : a.Closed p) :
    let D := distanceToOut ty (of a) p d
    (d.z ≠ 0 → D ≤ zDistOut (of a) p d) ∧
    (0 < a.rmin ∧ CircleOk ty false false (qb p d) (qc a.rmin p d) (of a) p d → D ≤ circleDist false (qb p d) (qc a.rmin p d)) ∧
    (CircleOk ty true false (qb p d) (qc a.rmax p d) (of a) p d → D ≤ circleDist true (qb p d) (qc a.rmax p d)) ∧
    (∀ b, a.d < 2 * π ∧ PlaneOk a (decide (ty.angle ≠ .smaller)) b p d → D ≤ planeDist a b p d) ∧
    (D = kInfLength ∨ (d.z ≠ 0 ∧ D = zDistOut (of a) p d) ∨
      ((0 < a.rmin ∧ CircleOk ty false false (qb p d) (qc a.rmin p d) (of a) p d) ∧ D = circleDist false (qb p d) (qc a.rmin p d)) ∨
      (CircleOk ty true false (qb p d) (qc a.rmax p d) (of a) p d ∧ D = circleDist true (qb p d) (qc a.rmax p d)) ∨
      ∃ b, (a.d < 2 * π ∧ PlaneOk a (decide (ty.angle ≠ .smaller)) b p d) ∧ D = planeDist a b p d) := by
  intro D
  have e : D = _ := distanceToOut_eq (d := d) hv hf hpi (not_outside_of_closed hv hf hc)
  clear_value D
  subst e
  refine ⟨?_, ?_, ?_, ?_, ?_⟩
  · intro h
    exact takeLess_le'.trans (takeLess_le'.trans (takeLess_le'.trans (takeLess_le'.trans (takeLess_le h))))
  · intro h
    exact takeLess_le'.trans (takeLess_le'.trans (takeLess_le'.trans (takeLess_le h)))
  · intro h
    exact takeLess_le'.trans (takeLess_le'.trans (takeLess_le h))
  · intro b h
    cases b
    · exact takeLess_le'.trans (takeLess_le h)
    · exact takeLess_le h
  · rcases takeLess_cases (a.d < 2 * π ∧ PlaneOk a (decide (ty.angle ≠ .smaller)) true p d) (planeDist a true p d)
      (takeLess (a.d < 2 * π ∧ PlaneOk a (decide (ty.angle ≠ .smaller)) false p d) (planeDist a false p d)
      (takeLess (CircleOk ty true false (qb p d) (qc a.rmax p d) (of a) p d) (circleDist true (qb p d) (qc a.rmax p d))
      (takeLess (0 < a.rmin ∧ CircleOk ty false false (qb p d) (qc a.rmin p d) (of a) p d) (circleDist false (qb p d) (qc a.rmin p d))
      (takeLess (d.z ≠ 0) (zDistOut (of a) p d) kInfLength)))) with ⟨h, e⟩ | e <;> rw [e]
    · exact .inr (.inr (.inr (.inr ⟨true, h, rfl⟩)))
    clear e
    rcases takeLess_cases (a.d < 2 * π ∧ PlaneOk a (decide (ty.angle ≠ .smaller)) false p d) (planeDist a false p d)
      (takeLess (CircleOk ty true false (qb p d) (qc a.rmax p d) (of a) p d) (circleDist true (qb p d) (qc a.rmax p d))
      (takeLess (0 < a.rmin ∧ CircleOk ty false false (qb p d) (qc a.rmin p d) (of a) p d) (circleDist false (qb p d) (qc a.rmin p d))
      (takeLess (d.z ≠ 0) (zDistOut (of a) p d) kInfLength))) with ⟨h, e⟩ | e <;> rw [e]
    · exact .inr (.inr (.inr (.inr ⟨false, h, rfl⟩)))
    clear e
    rcases takeLess_cases (CircleOk ty true false (qb p d) (qc a.rmax p d) (of a) p d) (circleDist true (qb p d) (qc a.rmax p d))
      (takeLess (0 < a.rmin ∧ CircleOk ty false false (qb p d) (qc a.rmin p d) (of a) p d) (circleDist false (qb p d) (qc a.rmin p d))
      (takeLess (d.z ≠ 0) (zDistOut (of a) p d) kInfLength)) with ⟨h, e⟩ | e <;> rw [e]
    · exact .inr (.inr (.inr (.inl ⟨h, rfl⟩)))
    clear e
    rcases takeLess_cases (0 < a.rmin ∧ CircleOk ty false false (qb p d) (qc a.rmin p d) (of a) p d)
      (circleDist false (qb p d) (qc a.rmin p d)) (takeLess (d.z ≠ 0) (zDistOut (of a) p d) kInfLength) with ⟨h, e⟩ | e <;> rw [e]
    · exact .inr (.inr (.inl ⟨h, rfl⟩))
    clear e
    rcases takeLess_cases (d.z ≠ 0) (zDistOut (of a) p d) kInfLength with ⟨h, e⟩ | e <;> rw [e]
    · exact .inr (.inl ⟨h, rfl⟩)
    · exact .inl rfl

theorem sign_abs (x : ℝ) : sign x * x = |x| := by
  unfold sign
  rcases lt_or_ge x 0 with h | h
  · rw [if_pos h, abs_of_neg h]; ring
  · rw [if_neg (not_lt.mpr h), abs_of_nonneg h]; ring

theorem sign_mul_le (x y : ℝ) : |sign x * y| = |y| := by
  unfold sign
  split <;> simp

theorem slope_neg {A B t : ℝ} (h0 : 0 ≤ A) (ht : 0 ≤ t) (h : A + t * B < 0) : B < 0 := by
  by_contra hc; push Not at hc; nlinarith
theorem aff_anti {A B u w : ℝ} (hB : B ≤ 0) (h : u ≤ w) : A + w * B ≤ A + u * B := by nlinarith
theorem aff_lt {A B u w : ℝ} (hB : B < 0) (h : A + u * B ≤ A + w * B) : w ≤ u := by
  by_contra hc; push Not at hc; nlinarith
theorem aff_nonneg {A B u w : ℝ} (h0 : 0 ≤ A) (hw : 0 ≤ w) (h : w ≤ u) (hu : 0 ≤ A + u * B) : 0 ≤ A + w * B := by
  rcases le_or_gt 0 B with hB | hB
  · positivity
  · exact hu.trans (aff_anti hB.le h)

/-- A line that starts in the sector stays in it as long as it is stopped by the planes it starts in front of. -/
theorem out_sector_front (hv : a.Valid) (hf : Fits ty a) (hsec0 : Sector a.s a.d p.x p.y) {D : ℝ}
    (f4 : ∀ b, 0 ≤ SS a b p.x p.y → a.d < 2 * π ∧ PlaneOk a (decide (ty.angle ≠ .smaller)) b p d → D ≤ planeDist a b p d)
    {t : ℝ} (ht0 : 0 ≤ t) (htD : t ≤ D)
    (hcl : ty.angle = .none ∨ ty.angle = .smaller ∨ ∀ u, 0 ≤ u → u ≤ t → kTiny * u < rad (V3.at' p d u)) :
    Sector a.s a.d (V3.at' p d t).x (V3.at' p d t).y := by
  rcases hv.d'.lt_or_eq with hd | hd
  swap
  · rw [hd]; exact sector_full _ _ _
  have hpl : ∀ b, 0 ≤ SS a b p.x p.y → PlaneOk a (decide (ty.angle ≠ .smaller)) b p d → D ≤ planeDist a b p d :=
    fun b h0 h => f4 b h0 ⟨hd, h⟩
  by_contra hns
  have hcl' : ty.angle = .smaller ∨ ∀ u, 0 ≤ u → u ≤ t → kTiny * u < rad (V3.at' p d u) := by
    rcases hcl with h | h
    · exact absurd (hf.2.1 h) hd.ne
    · exact h
  -- a plane that is crossed where the other does not matter
  have key : ∀ b, 0 ≤ SS a b p.x p.y → SS a b (V3.at' p d t).x (V3.at' p d t).y < 0 →
      (ty.angle ≠ .smaller → ∀ u, 0 ≤ u → u ≤ t → SS a b (V3.at' p d u).x (V3.at' p d u).y = 0 →
        0 ≤ HH a b (V3.at' p d u).x (V3.at' p d u).y) → False := by
    intro b h0 h1 h2
    apply plane_stops (hpl b h0) htD h0 h1 ht0
    intro hp
    have hp' : ty.angle ≠ .smaller := by simpa using hp
    have h1' := h1
    rw [SS_at] at h1'
    have hs : SS a b d.x d.y < 0 := by
      by_contra hcon; push Not at hcon; nlinarith
    refine ⟨SS a b p.x p.y / (-SS a b d.x d.y), ?_, ?_, ?_, ?_, ?_⟩
    · exact div_nonneg h0 (by linarith)
    · rw [div_le_iff₀ (by linarith)]; linarith
    · rw [SS_at]
      have : SS a b d.x d.y ≠ 0 := hs.ne
      field_simp
      ring
    · apply h2 hp'
      · exact div_nonneg h0 (by linarith)
      · rw [div_le_iff₀ (by linarith)]; linarith
      · rw [SS_at]
        have : SS a b d.x d.y ≠ 0 := hs.ne
        field_simp
        ring
    · intro w hw0 hw
      refine (hcl'.resolve_left hp') w hw0 (hw.trans ?_)
      rw [div_le_iff₀ (by linarith)]; linarith
  -- the height of the other plane where a plane is crossed
  have other : ∀ b u, SS a b (V3.at' p d u).x (V3.at' p d u).y = 0 →
      SS a (!b) p.x p.y + u * SS a (!b) d.x d.y = HH a b (V3.at' p d u).x (V3.at' p d u).y * sin a.d := by
    intro b u h
    rw [← SS_at, SS_not, h]; ring
  rw [sector_iff hv] at hns
  have hsec := (sector_iff hv p.x p.y).mp hsec0
  rcases lt_trichotomy a.d π with hd1 | hd1 | hd1
  · have hsin := sin_pos_of_pos_of_lt_pi hv.d hd1
    obtain ⟨h1, h2⟩ : 0 ≤ S1 a p.x p.y ∧ 0 ≤ S2 a p.x p.y := by
      rcases hsec with h | h
      · exact h.2
      · linarith [h.1]
    have hS : ∀ b, 0 ≤ SS a b p.x p.y := by intro b; cases b; exacts [h1, h2]
    have hbad : ∃ b, SS a b (V3.at' p d t).x (V3.at' p d t).y < 0 := by
      by_contra hcon
      push Not at hcon
      exact hns (.inl ⟨hd1.le, hcon false, hcon true⟩)
    -- the plane that is crossed first
    obtain ⟨b, hb, hfirst⟩ : ∃ b, SS a b (V3.at' p d t).x (V3.at' p d t).y < 0 ∧
        ∀ u, 0 ≤ u → u ≤ t → SS a b (V3.at' p d u).x (V3.at' p d u).y = 0 → 0 ≤ SS a (!b) p.x p.y + u * SS a (!b) d.x d.y := by
      obtain ⟨b, hb⟩ := hbad
      by_cases hall : ∀ u, 0 ≤ u → u ≤ t → SS a b (V3.at' p d u).x (V3.at' p d u).y = 0 → 0 ≤ SS a (!b) p.x p.y + u * SS a (!b) d.x d.y
      · exact ⟨b, hb, hall⟩
      · push Not at hall
        obtain ⟨u, hu0, hut, hu1, hu2⟩ := hall
        refine ⟨!b, ?_, ?_⟩
        · rw [SS_at]
          have := hS (!b)
          have hneg : SS a (!b) d.x d.y < 0 := by by_contra hcon; push Not at hcon; nlinarith
          nlinarith
        · intro w hw0 hwt hw1
          rw [Bool.not_not]
          rw [SS_at] at hu1 hw1
          have h3 := hS (!b)
          have hneg : SS a (!b) d.x d.y < 0 := by by_contra hcon; push Not at hcon; nlinarith
          have hwu : w ≤ u := by by_contra hcon; push Not at hcon; nlinarith
          have h4 := hS b
          rcases le_or_gt 0 (SS a b d.x d.y) with h5 | h5
          · nlinarith
          · nlinarith
    exact key b (hS b) hb (fun _ u hu0 hut hu1 => by
      have h3 := hfirst u hu0 hut hu1
      rw [other b u hu1] at h3
      exact nonneg_of_mul_nonneg_left h3 hsin)
  · have h12 : ∀ x y, SS a true x y = SS a false x y := fun x y => S2_pi hd1 x y
    have hH : ∀ x y, HH a true x y = -HH a false x y := by
      intro x y
      simp only [HH, if_true, Bool.false_eq_true, if_false, hd1, cos_add_pi, sin_add_pi]; ring
    have hS : 0 ≤ SS a false p.x p.y := by
      rcases hsec with h | h
      · exact h.2.1
      · linarith [h.1]
    have hbad : SS a false (V3.at' p d t).x (V3.at' p d t).y < 0 := by
      by_contra hcon
      push Not at hcon
      exact hns (.inl ⟨hd1.le, hcon, by rw [S2_pi hd1]; exact hcon⟩)
    have hσ : SS a false d.x d.y < 0 := by
      rw [SS_at] at hbad
      by_contra hcon; push Not at hcon; nlinarith
    have uniq : ∀ u w, SS a false (V3.at' p d u).x (V3.at' p d u).y = 0 → SS a false (V3.at' p d w).x (V3.at' p d w).y = 0 → u = w := by
      intro u w h1 h2
      rw [SS_at] at h1 h2
      have : (u - w) * SS a false d.x d.y = 0 := by linarith
      rcases mul_eq_zero.mp this with h | h
      · linarith
      · linarith
    by_cases hall : ∀ u, 0 ≤ u → u ≤ t → SS a false (V3.at' p d u).x (V3.at' p d u).y = 0 → 0 ≤ HH a false (V3.at' p d u).x (V3.at' p d u).y
    · exact key false hS hbad (fun _ => hall)
    · push Not at hall
      obtain ⟨u, hu0, hut, hu1, hu2⟩ := hall
      refine key true (by rw [h12]; exact hS) (by rw [h12]; exact hbad) (fun _ w hw0 hwt hw1 => ?_)
      rw [h12] at hw1
      rw [uniq w u hw1 hu1, hH]
      linarith
  · have hsin : sin a.d < 0 := by
      have := sin_pos_of_pos_of_lt_pi (show 0 < a.d - π by linarith) (by linarith)
      rw [sin_sub_pi] at this
      linarith
    have hneg : ∀ b, SS a b (V3.at' p d t).x (V3.at' p d t).y < 0 := by
      intro b
      by_contra hcon
      push Not at hcon
      cases b
      · exact hns (.inr ⟨hd1, .inl hcon⟩)
      · exact hns (.inr ⟨hd1, .inr hcon⟩)
    have hsome : ∃ b, 0 ≤ SS a b p.x p.y := by
      rcases hsec with h | ⟨-, h | h⟩
      · linarith [h.1]
      · exact ⟨false, h⟩
      · exact ⟨true, h⟩
    -- the plane that is crossed last
    obtain ⟨b, hb, hlast⟩ : ∃ b, 0 ≤ SS a b p.x p.y ∧
        ∀ u, 0 ≤ u → u ≤ t → SS a b (V3.at' p d u).x (V3.at' p d u).y = 0 → SS a (!b) p.x p.y + u * SS a (!b) d.x d.y ≤ 0 := by
      obtain ⟨b, hb⟩ := hsome
      by_cases hall : ∀ u, 0 ≤ u → u ≤ t → SS a b (V3.at' p d u).x (V3.at' p d u).y = 0 → SS a (!b) p.x p.y + u * SS a (!b) d.x d.y ≤ 0
      · exact ⟨b, hb, hall⟩
      · push Not at hall
        obtain ⟨u, hu0, hut, hu1, hu2⟩ := hall
        have hn := hneg (!b)
        rw [SS_at] at hn
        have hneg' : SS a (!b) d.x d.y < 0 := by by_contra hcon; push Not at hcon; nlinarith
        refine ⟨!b, by nlinarith, ?_⟩
        intro w hw0 hwt hw1
        rw [Bool.not_not]
        rw [SS_at] at hu1 hw1
        have hwu : u ≤ w := by by_contra hcon; push Not at hcon; nlinarith
        have hb' := hneg b
        rw [SS_at] at hb'
        have : SS a b d.x d.y < 0 := by by_contra hcon; push Not at hcon; nlinarith
        nlinarith
    exact key b hb (hneg b) (fun _ u hu0 hut hu1 => by
      have h3 := hlast u hu0 hut hu1
      rw [other b u hu1] at h3
      by_contra hcon
      push Not at hcon
      nlinarith)

/-- C79, the sector. -/
theorem out_sector (hv : a.Valid) (hf : Fits ty a) (hc : a.Closed p) {D : ℝ}
    (f4 : ∀ b, a.d < 2 * π ∧ PlaneOk a (decide (ty.angle ≠ .smaller)) b p d → D ≤ planeDist a b p d) {t : ℝ} (ht0 : 0 ≤ t) (htD : t ≤ D)
    (hcl : ty.angle = .none ∨ ty.angle = .smaller ∨ ∀ u, 0 ≤ u → u ≤ t → kTiny * u < rad (V3.at' p d u)) :
    Sector a.s a.d (V3.at' p d t).x (V3.at' p d t).y := out_sector_front hv hf hc.phi (fun b _ => f4 b) ht0 htD hcl

/-- C79 without the bound on the distance: the tube may be as long as `kInfLength`. -/
theorem distance_out_core (hv : a.Valid) (hf : Fits ty a) (hpi : ty.angle ≠ .pi) (hu : d.x ^ 2 + d.y ^ 2 + d.z ^ 2 = 1)
    (hc : a.Closed p) :
    let D := distanceToOut ty (of a) p d
    (D ≤ 3 * max a.rmax a.z) ∧
    (D ≠ kInfLength → (ty.angle = .none ∨ ty.angle = .smaller ∨
        ((0 ≤ S1 a p.x p.y ∨ 0 ≤ S1 a d.x d.y ∨ (S1 a p.x p.y ≤ -kTolerance ∧ S1 a d.x d.y ≤ -kTiny)) ∧
         (0 ≤ S2 a p.x p.y ∨ 0 ≤ S2 a d.x d.y ∨ (S2 a p.x p.y ≤ -kTolerance ∧ S2 a d.x d.y ≤ -kTiny))) →
      -2 * kTolerance ≤ D)) ∧
    (∀ t, 0 ≤ t → t ≤ D → |(V3.at' p d t).z| ≤ a.z ∧ rad (V3.at' p d t) ≤ a.rmax ∧
      a.rmin ^ 2 - kTiny * t ^ 2 ≤ rad (V3.at' p d t) ^ 2) ∧
    (∀ t, 0 ≤ t → t ≤ D → (ty.angle = .none ∨ ty.angle = .smaller ∨ ∀ u, 0 ≤ u → u ≤ t → kTiny * u < rad (V3.at' p d u)) →
      Sector a.s a.d (V3.at' p d t).x (V3.at' p d t).y) ∧
    (D ≠ kInfLength → ((0 < |d.z| ∧ sign d.z * (V3.at' p d D).z = a.z - kTiny * D) ∨
     (rad (V3.at' p d D) ^ 2 = a.rmax ^ 2 - kTiny * D ^ 2 ∧ -kTiny * D ≤ (V3.at' p d D).x * d.x + (V3.at' p d D).y * d.y) ∨
     (0 < a.rmin ∧ rad (V3.at' p d D) ^ 2 = a.rmin ^ 2 - kTiny * D ^ 2 ∧
       (V3.at' p d D).x * d.x + (V3.at' p d D).y * d.y < -kTiny * D) ∨
     (a.d < 2 * π ∧ ((S1 a (V3.at' p d D).x (V3.at' p d D).y = kTiny * D ∧ S1 a d.x d.y < 0) ∨
       (S2 a (V3.at' p d D).x (V3.at' p d D).y = kTiny * D ∧ S2 a d.x d.y < 0))))) := by
  have he := kTiny_pos
  have ht := kTolerance_pos
  have hh := kHalfTolerance_pos
  have hhalf : kHalfTolerance = kTolerance / 2 := rfl
  have hz := hc.z
  have hr0 := rad_nonneg p
  have hm0 : 0 < a.rmax := hv.rmin.trans_lt hv.rmax
  intro D
  obtain ⟨f1, f2, f3, f4, f5⟩ := out_facts (d := d) hv hf hpi hc
  change d.z ≠ 0 → D ≤ _ at f1
  change _ → D ≤ _ at f2
  change _ → D ≤ _ at f3
  change ∀ b, _ → D ≤ _ at f4
  change D = _ ∨ (_ ∧ D = _) ∨ (_ ∧ D = _) ∨ (_ ∧ D = _) ∨ ∃ b, _ ∧ D = _ at f5
  clear_value D
  obtain ⟨g1, g2, g3, g4⟩ := rad_le_of_root (d := d) hu hc.hi
  have okmax : CircleOk ty true false (qb p d) (qc a.rmax p d) (of a) p d := by
    refine ⟨?_, by linarith, by simp⟩
    rcases g1.lt_or_eq with h | h
    · exact .inl h
    · exact .inr ⟨rfl, h.symm⟩
  have hDmax := f3 okmax
  have zpos : ∀ {x : ℝ}, |x| ≤ a.z → 0 ≤ a.z - sign d.z * x := by
    intro x hx
    have := le_abs_self (sign d.z * x)
    rw [sign_mul_le] at this
    linarith
  have zroot : d.z ≠ 0 → zDistOut (of a) p d * (|d.z| + kTiny) = a.z - sign d.z * p.z := by
    intro h
    rw [zDistOut_eq h]
    have : |d.z| + kTiny ≠ 0 := by positivity
    field_simp
  have zd0 : d.z ≠ 0 → 0 ≤ zDistOut (of a) p d := by
    intro h
    rw [zDistOut_eq h]
    exact div_nonneg (zpos hz) (by positivity)
  -- the upper bound
  have hub : D ≤ 3 * max a.rmax a.z := by
    by_cases hn : 1 / 2 ≤ d.x ^ 2 + d.y ^ 2
    · set T := circleDist true (qb p d) (qc a.rmax p d)
      have hT : rad (V3.at' p d T) ^ 2 ≤ a.rmax ^ 2 := by rw [g4]; nlinarith [sq_nonneg T]
      have hp : rad p ^ 2 ≤ a.rmax ^ 2 := pow_le_pow_left₀ hr0 hc.hi 2
      rw [rad_sq] at hT hp
      simp only [V3.at_x, V3.at_y] at hT
      have h3 : T ^ 2 ≤ (3 * a.rmax) ^ 2 := by
        have : (d.x ^ 2 + d.y ^ 2) * T ^ 2 ≤ 4 * a.rmax ^ 2 := by
          nlinarith [sq_nonneg (2 * p.x + T * d.x), sq_nonneg (2 * p.y + T * d.y)]
        nlinarith [sq_nonneg T]
      have := abs_le_of_sq_le_sq' h3 (by linarith)
      linarith [le_max_left a.rmax a.z]
    · push Not at hn
      have hz2 : 1 / 2 < d.z ^ 2 := by linarith
      have hz1 : 2 / 3 < |d.z| := by
        apply lt_of_pow_lt_pow_left₀ 2 (abs_nonneg _)
        rw [sq_abs]; linarith
      have hz0 : d.z ≠ 0 := by intro h; rw [h, abs_zero] at hz1; linarith
      have h4 := f1 hz0
      have h5 := zroot hz0
      have h6 := zd0 hz0
      have h7 : a.z - sign d.z * p.z ≤ 2 * a.z := by
        have := neg_abs_le (sign d.z * p.z)
        rw [sign_mul_le] at this
        linarith
      have h8 : zDistOut (of a) p d ≤ 3 * a.z := by
        by_contra hcon
        push Not at hcon
        nlinarith [hv.z]
      linarith [le_max_right a.rmax a.z]
  refine ⟨hub, ?_, ?_, ?_, ?_⟩
  · intro hne hcl
    rcases f5 with h | ⟨h1, h2⟩ | ⟨h1, h2⟩ | ⟨h1, h2⟩ | ⟨b, ⟨h1, h2⟩, h3⟩
    · exact absurd h hne
    · rw [h2]; linarith [zd0 h1]
    · rw [h2]; exact h1.2.2.1
    · rw [h2]; exact h1.2.1
    · have hσ := h2.1
      have hS : 0 ≤ SS a b p.x p.y ∨ 0 ≤ SS a b d.x d.y ∨ (SS a b p.x p.y ≤ -kTolerance ∧ SS a b d.x d.y ≤ -kTiny) := by
        rcases hcl with hcl | hcl | hcl
        · exact absurd (hf.2.1 hcl) h1.ne
        · have hd := hf.2.2.1 hcl
          rcases (sector_iff hv _ _).mp hc.phi with ⟨-, h4, h5⟩ | ⟨h4, -⟩
          · left; cases b
            · exact h4
            · exact h5
          · linarith
        · cases b
          · exact hcl.1
          · exact hcl.2
      rcases hS with hS | hS | ⟨hS, hS'⟩
      · have : 0 ≤ planeDist a b p d := div_nonneg hS (by linarith)
        linarith
      · linarith
      · exfalso
        have h4 := h2.2.1
        have h5 := plane_root hσ (show planeDist a b p d = SS a b p.x p.y / _ from rfl)
        have h6 : planeDist a b p d ≤ 0 := div_nonpos_of_nonpos_of_nonneg (by linarith) (by linarith)
        rw [abs_of_neg hσ] at h4
        have h7 := mul_nonneg (show 0 ≤ -planeDist a b p d by linarith) (show 0 ≤ -SS a b d.x d.y - kTiny by linarith)
        rw [hhalf] at h4
        linarith
  · intro t ht0 htD
    refine ⟨?_, ?_, ?_⟩
    · rw [← sign_mul_le d.z, V3.at_z]
      have e : sign d.z * (p.z + t * d.z) = sign d.z * p.z + t * |d.z| := by rw [← sign_abs]; ring
      rw [e, abs_le]
      have h1 := neg_abs_le (sign d.z * p.z)
      rw [sign_mul_le] at h1
      refine ⟨by nlinarith [abs_nonneg d.z], ?_⟩
      by_cases hz0 : d.z = 0
      · rw [hz0, abs_zero, mul_zero, add_zero]
        have := le_abs_self (sign 0 * p.z)
        rw [sign_mul_le] at this
        linarith
      · have h2 := htD.trans (f1 hz0)
        have h3 := zroot hz0
        nlinarith [abs_nonneg d.z]
    · have := g3 t ht0 (htD.trans hDmax)
      apply le_of_sq_le_sq _ hm0.le
      nlinarith [sq_nonneg t]
    · rcases hv.rmin.lt_or_eq with h | h
      · apply rad_ge_of_root hu hv.rmin hc.lo ht0
        intro hδ
        by_contra hcon
        push Not at hcon
        have := f2 ⟨h, .inl hδ, by linarith, by simp⟩
        linarith
      · rw [← h]
        nlinarith [sq_nonneg t, sq_nonneg (rad (V3.at' p d t))]
  · exact fun t ht0 htD hcl => out_sector hv hf hc f4 ht0 htD hcl
  · intro hne
    rcases f5 with h | ⟨h1, h2⟩ | ⟨h1, h2⟩ | ⟨h1, h2⟩ | ⟨b, ⟨h1, h2⟩, h3⟩
    · exact absurd h hne
    · refine .inl ⟨abs_pos.mpr h1, ?_⟩
      rw [V3.at_z]
      have e : sign d.z * (p.z + D * d.z) = sign d.z * p.z + D * |d.z| := by rw [← sign_abs]; ring
      have := zroot h1
      rw [← h2] at this
      rw [e]; linarith
    · have hδ : 0 < qb p d * qb p d - qc a.rmin p d := by
        rcases h1.2.1 with h | h
        · exact h
        · simp at h
      refine .inr (.inr (.inl ⟨h1.1, ?_, ?_⟩))
      · rw [rad_at_quad hu a.rmin, quad_factor hδ.le, ← h2]; ring
      · rw [root_speed hu a.rmin D false hδ.le h2]
        simp only [Bool.false_eq_true, if_false]
        have hN : 0 < d.x ^ 2 + d.y ^ 2 + kTiny := by positivity
        have := sqrt_pos.mpr hδ
        nlinarith [mul_pos hN this]
    · refine .inr (.inl ⟨by rw [h2]; exact g4, ?_⟩)
      rw [root_speed hu a.rmax D true g1 h2]
      simp only [if_true]
      have hN : 0 < d.x ^ 2 + d.y ^ 2 + kTiny := by positivity
      nlinarith [mul_nonneg hN.le (sqrt_nonneg (qb p d * qb p d - qc a.rmax p d))]
    · refine .inr (.inr (.inr ⟨h1, ?_⟩))
      have h4 := planeDist_spec (p := p) b h2.1
      rw [← h3] at h4
      cases b
      · exact .inl ⟨h4, h2.1⟩
      · exact .inr ⟨h4, h2.1⟩

/-- C79: from a point of the tube (type of the sector not `kOnePi`), `DistanceToOut` is not below `-2 kTolerance` (for openings
above `pi` unless the point is less than the tolerance behind the plane of a face), is at most three times the largest
dimension, the line is in the tube up to there (the bore up to the guard of the division, the sector, for openings above `pi`,
if the line keeps clear of the axis), and it ends on one of the surfaces, going out. -/
theorem C79_distance_out_partial (hv : a.Valid) (hf : Fits ty a) (hpi : ty.angle ≠ .pi) (hu : d.x ^ 2 + d.y ^ 2 + d.z ^ 2 = 1)
    (hc : a.Closed p) (hfin : 3 * max a.rmax a.z < kInfLength) :
    let D := distanceToOut ty (of a) p d
    D ≤ 3 * max a.rmax a.z ∧
    (ty.angle = .none ∨ ty.angle = .smaller ∨
        ((0 ≤ S1 a p.x p.y ∨ 0 ≤ S1 a d.x d.y ∨ (S1 a p.x p.y ≤ -kTolerance ∧ S1 a d.x d.y ≤ -kTiny)) ∧
         (0 ≤ S2 a p.x p.y ∨ 0 ≤ S2 a d.x d.y ∨ (S2 a p.x p.y ≤ -kTolerance ∧ S2 a d.x d.y ≤ -kTiny))) →
      -2 * kTolerance ≤ D) ∧
    (∀ t, 0 ≤ t → t ≤ D → |(V3.at' p d t).z| ≤ a.z ∧ rad (V3.at' p d t) ≤ a.rmax ∧
      a.rmin ^ 2 - kTiny * t ^ 2 ≤ rad (V3.at' p d t) ^ 2) ∧
    (∀ t, 0 ≤ t → t ≤ D → (ty.angle = .none ∨ ty.angle = .smaller ∨ ∀ u, 0 ≤ u → u ≤ t → kTiny * u < rad (V3.at' p d u)) →
      Sector a.s a.d (V3.at' p d t).x (V3.at' p d t).y) ∧
    ((0 < |d.z| ∧ sign d.z * (V3.at' p d D).z = a.z - kTiny * D) ∨
     (rad (V3.at' p d D) ^ 2 = a.rmax ^ 2 - kTiny * D ^ 2 ∧ -kTiny * D ≤ (V3.at' p d D).x * d.x + (V3.at' p d D).y * d.y) ∨
     (0 < a.rmin ∧ rad (V3.at' p d D) ^ 2 = a.rmin ^ 2 - kTiny * D ^ 2 ∧
       (V3.at' p d D).x * d.x + (V3.at' p d D).y * d.y < -kTiny * D) ∨
     (a.d < 2 * π ∧ ((S1 a (V3.at' p d D).x (V3.at' p d D).y = kTiny * D ∧ S1 a d.x d.y < 0) ∨
       (S2 a (V3.at' p d D).x (V3.at' p d D).y = kTiny * D ∧ S2 a d.x d.y < 0)))) := by
  intro D
  obtain ⟨h1, h2, h3, h4, h5⟩ := distance_out_core (d := d) hv hf hpi hu hc
  have hne : D ≠ kInfLength := ne_of_lt (lt_of_le_of_lt h1 hfin)
  exact ⟨h1, h2 hne, h3, h4, h5 hne⟩

/-- A line that is inside the wall at `t` has not reached the larger root. -/
theorem le_root (hu : d.x ^ 2 + d.y ^ 2 + d.z ^ 2 = 1) {r t : ℝ} (h : rad p ≤ r)
    (ht : rad (V3.at' p d t) ^ 2 ≤ r ^ 2 - kTiny * t ^ 2) : t ≤ circleDist true (qb p d) (qc r p d) := by
  obtain ⟨g1, g2, -, -⟩ := rad_le_of_root (d := d) hu h
  rw [rad_at_quad hu r, quad_factor g1] at ht
  have hl := circleDist_le g1
  by_contra hc
  push Not at hc
  have hN : 0 < d.x ^ 2 + d.y ^ 2 + kTiny := by have := kTiny_pos; positivity
  have h1 : 0 < (t - circleDist false (qb p d) (qc r p d)) * (t - circleDist true (qb p d) (qc r p d)) :=
    mul_pos (by linarith) (by linarith)
  nlinarith [mul_pos hN h1]

/-- Along the x axis of the example tube the way out is through the wall; the hypotheses of C79 are met. -/
example : distanceToOut ⟨false, .smaller⟩ (of quarter) ⟨3 / 2, 1 / 2, 0⟩ ⟨1, 0, 0⟩ ≤ 9 ∧
    0 < distanceToOut ⟨false, .smaller⟩ (of quarter) ⟨3 / 2, 1 / 2, 0⟩ ⟨1, 0, 0⟩ + 1 := by
  have hp := pi_pos
  have hi := kInfLength_large
  have ht : kTolerance < 1 / 4 := by norm_num [kTolerance]
  have hm : max quarter.rmax quarter.z = 3 := by norm_num [quarter]
  have h := C79_distance_out_partial (p := ⟨3 / 2, 1 / 2, 0⟩) (d := ⟨1, 0, 0⟩) quarter_valid quarter_fits (by simp) (by norm_num) ⟨by norm_num [quarter], ?_, ?_, ?_⟩
    (by rw [hm]; linarith)
  · have h1 := h.1
    have h2 := h.2.1 (.inr (.inl rfl))
    rw [hm] at h1
    norm_num at h1
    exact ⟨by linarith, by linarith⟩
  · rw [le_rad (by simp [quarter])]; norm_num [quarter]
  · rw [rad_le (by simp [quarter])]; norm_num [quarter]
  · rw [show quarter.s = 0 from rfl, show quarter.d = π / 2 from rfl, sector_small (by linarith) (by linarith)]
    norm_num

/-- C79: points that are outside by more than the tolerance get `-1`. -/
theorem C79_outside (hv : a.Valid) (hf : Fits ty a)
    (h : a.z + kHalfTolerance < |p.z| ∨ a.rmax + kTolerance < rad p ∨ (0 < a.rmin ∧ rad p < a.rmin - 2 * kTolerance) ∨
      (¬ Sector a.s a.d p.x p.y ∧ ¬ ∃ h, |h| < kTolerance ∧ (AboveRay a.s h p.x p.y ∨ AboveRay (a.s + a.d) h p.x p.y))) :
    distanceToOut ty (of a) p d = -1 := by
  have ht := kTolerance_pos
  have hr := rad_nonneg p
  have hm0 : 0 < a.rmax := hv.rmin.trans_lt hv.rmax
  have ho : OutsideForOut ty (of a) p := by
    unfold OutsideForOut
    simp only [rad_sq', of_z, of_rmax, of_rmax2, of_rmin hv.rmin, of_rmin2 hv.rmin, rminT_iff hv hf, of_wedge, phiT_iff hf]
    rcases h with h | h | ⟨h0, h⟩ | ⟨h1, h2⟩
    · left; linarith
    · right; left; nlinarith
    · right; right; left; exact ⟨h0, by nlinarith⟩
    · right; right; right
      refine ⟨?_, (Wedge.out_iff hv.d hv.d' p).mpr h1, fun _ hon => h2 ?_⟩
      · by_contra hc
        exact h1 (by rw [le_antisymm hv.d' (not_lt.mp hc)]; exact sector_full _ _ _)
      · rcases hon with hon | hon
        · obtain ⟨h, h3, h4⟩ := (Wedge.on1_iff _ _ _).mp hon
          exact ⟨h, h3, .inl h4⟩
        · obtain ⟨h, h3, h4⟩ := (Wedge.on2_iff _ _ _).mp hon
          exact ⟨h, h3, .inr h4⟩
  unfold distanceToOut
  rw [if_pos ho]

example : distanceToOut ⟨false, .smaller⟩ (of quarter) ⟨1, 1, 4⟩ ⟨1, 0, 0⟩ = -1 := by
  have : kHalfTolerance < 1 := by norm_num [kHalfTolerance, kTolerance]
  refine C79_outside quarter_valid quarter_fits (.inl ?_)
  show (3 : ℝ) + _ < |4|
  rw [abs_of_pos (by norm_num)]
  linarith

/-- The half tube `x ≤ 0`. -/
noncomputable def half : Par := ⟨0, 10, 10, π / 2, π⟩

theorem half_valid : half.Valid := by
  have := pi_pos
  constructor <;> simp only [half] <;> linarith

theorem half_fits : Fits ⟨true, .pi⟩ half := by
  refine ⟨by simp [half], by simp, by simp, by simp [half], by simp⟩

theorem half_sector (x y : ℝ) : Sector half.s half.d x y ↔ x ≤ 0 := by
  have : ∀ x y, S1 half x y = -x := by intro x y; unfold S1 half; simp
  rw [sector_iff half_valid, this, S2_pi rfl, this]
  simp [half]

theorem three_halves : cos (π / 2 + π) = 0 ∧ sin (π / 2 + π) = -1 := by
  rw [cos_add_pi, sin_add_pi]; simp

/-- In tubes of the type for openings of `pi` the way out misses the flat face: from the middle of the half tube `x ≤ 0`, the
line leaves through the face `x = 0` and the result is the far wall of the missing half. -/
theorem C79_pi_counterexample :
    half.Closed ⟨-1, 0, 0⟩ ∧ 5 ≤ distanceToOut ⟨true, .pi⟩ (of half) ⟨-1, 0, 0⟩ ⟨3 / 5, -4 / 5, 0⟩ ∧
    ¬ half.Closed (V3.at' ⟨-1, 0, 0⟩ ⟨3 / 5, -4 / 5, 0⟩ 5) := by
  have hc : half.Closed ⟨-1, 0, 0⟩ := by
    refine ⟨by norm_num [half], rad_nonneg _, ?_, ?_⟩
    · rw [rad_le (by simp [half])]; norm_num [half]
    · rw [half_sector]; norm_num
  refine ⟨hc, ?_, fun h => ?_⟩
  · have hi := kInfLength_large
    have hu : (3 / 5 : ℝ) ^ 2 + (-4 / 5) ^ 2 + 0 ^ 2 = 1 := by norm_num
    have hroot : 5 ≤ circleDist true (qb ⟨-1, 0, 0⟩ ⟨3 / 5, -4 / 5, 0⟩) (qc half.rmax ⟨-1, 0, 0⟩ ⟨3 / 5, -4 / 5, 0⟩) := by
      apply le_root hu hc.hi
      rw [rad_sq]
      norm_num [half, V3.at_x, V3.at_y, kTiny]
    unfold distanceToOut
    rw [if_neg (not_outside_of_closed half_valid half_fits hc)]
    have hphi : ∀ x, phiOut ⟨true, .pi⟩ (of half) ⟨-1, 0, 0⟩ ⟨3 / 5, -4 / 5, 0⟩ x = x := by
      intro x
      unfold phiOut
      simp only
      unfold takeLess
      rw [if_neg]
      rintro ⟨⟨h1, -⟩, -⟩
      have e : (of half).wedge.n2x = -1 := by
        show sin (π / 2 + π) = -1
        exact three_halves.2
      rw [e] at h1
      norm_num at h1
    have eb : ∀ p d : V3, invnsq d * (d.x * p.x + d.y * p.y) = qb p d := by intro p d; unfold qb; ring
    have ec : ∀ (r : ℝ) (p d : V3), (rad p ^ 2 - r * r) * invnsq d = qc r p d := by intro r p d; unfold qc; ring
    simp only [hphi, ite_self]
    have h0 : ¬ RminT ⟨true, .pi⟩ (of half) := by simp [RminT]
    simp only [h0, if_false]
    refine le_takeLess (fun _ => ?_) (le_takeLess (fun h => by simp at h) (by linarith))
    have e1 := eb ⟨-1, 0, 0⟩ ⟨3 / 5, -4 / 5, 0⟩
    have e2 := ec half.rmax ⟨-1, 0, 0⟩ ⟨3 / 5, -4 / 5, 0⟩
    rw [← rad_sq'] at e2
    dsimp only at e1 e2
    rw [e1, of_rmax2, e2]
    exact hroot
  · have := (half_sector _ _).mp h.phi
    norm_num [V3.at_x] at this

/-- For the same type the result can be negative, far from zero, in the middle of the tube. -/
theorem C79_pi_negative_counterexample :
    half.Closed ⟨-1, 0, 0⟩ ∧
    ∃ d : V3, d.x ^ 2 + d.y ^ 2 + d.z ^ 2 = 1 ∧ distanceToOut ⟨true, .pi⟩ (of half) ⟨-1, 0, 0⟩ d ≤ -1 := by
  have hc : half.Closed ⟨-1, 0, 0⟩ := by
    refine ⟨by norm_num [half], rad_nonneg _, ?_, ?_⟩
    · rw [rad_le (by simp [half])]; norm_num [half]
    · rw [half_sector]; norm_num
  refine ⟨hc, ⟨-5406093003 / 7645370045, 5406093004 / 7645370045, 0⟩, by norm_num, ?_⟩
  unfold distanceToOut
  rw [if_neg (not_outside_of_closed half_valid half_fits hc)]
  have hp : PhiT ⟨true, .pi⟩ (of half) := by simp [PhiT]
  simp only [hp, if_true]
  unfold phiOut
  simp only
  have e1 : (of half).wedge.n2x = -1 := three_halves.2
  have e2 : (of half).a2x = 0 := three_halves.1
  have e3 : (of half).a2y = -1 := three_halves.2
  have hdist : phiPlaneDist (of half).a2x (of half).a2y ⟨-1, 0, 0⟩ ⟨-5406093003 / 7645370045, 5406093004 / 7645370045, 0⟩ =
      1 / (-5406093003 / 7645370045 - kTiny) := by
    unfold phiPlaneDist
    rw [e2, e3]
    unfold nonZero copySign
    norm_num
    ring_nf
  have hval : 1 / (-5406093003 / 7645370045 - kTiny) ≤ -1 := by
    norm_num [kTiny]
  refine (takeLess_le ?_).trans (hdist.le.trans hval)
  unfold PhiPlaneOk
  simp only [hdist, e1, Bool.false_eq_true, if_false, false_implies, and_true, true_and, implies_true]
  norm_num [kTiny, kHalfTolerance, kTolerance]

/-- A point within the tolerance above the lid, which `Inside` calls surface, can get a distance far below zero. -/
theorem C79_lid_counterexample :
    ∃ p d : V3, d.x ^ 2 + d.y ^ 2 + d.z ^ 2 = 1 ∧ inside ⟨true, .none⟩ (of ⟨0, 1, 1, 0, 2 * π⟩) p = .surface ∧
      distanceToOut ⟨true, .none⟩ (of ⟨0, 1, 1, 0, 2 * π⟩) p d ≤ -100 := by
  refine ⟨⟨0, 0, 1 + 4 / 10 ^ 10⟩, ⟨(1 - (1 / 10 ^ 12) ^ 2) / (1 + (1 / 10 ^ 12) ^ 2), 0, 2 * (1 / 10 ^ 12) / (1 + (1 / 10 ^ 12) ^ 2)⟩,
    by norm_num, ?_, ?_⟩
  · have hn : ¬ CompletelyInside ⟨true, .none⟩ (of ⟨0, 1, 1, 0, 2 * π⟩) ⟨0, 0, 1 + 4 / 10 ^ 10⟩ := by
      rintro ⟨h, -⟩
      norm_num [kHalfTolerance, kTolerance] at h
    have ho : ¬ CompletelyOutside ⟨true, .none⟩ true (of ⟨0, 1, 1, 0, 2 * π⟩) ⟨0, 0, 1 + 4 / 10 ^ 10⟩ := by
      rintro (h | h | h | h)
      · norm_num [plusTolerant, kHalfTolerance, kTolerance] at h
      · norm_num [plusTolerantSquare, kTolerance] at h
      · exact absurd h.1 (by simp [RminT])
      · exact absurd h.1 (by simp [PhiT])
    unfold inside
    rw [if_neg hn, if_neg ho]
  · unfold distanceToOut
    rw [if_neg]
    · have hp : ¬ PhiT ⟨true, .none⟩ (of ⟨0, 1, 1, 0, 2 * π⟩) := by simp [PhiT]
      have hr : ¬ RminT ⟨true, .none⟩ (of ⟨0, 1, 1, 0, 2 * π⟩) := by simp [RminT]
      simp only [hp, hr, if_false]
      refine takeLess_le'.trans ((takeLess_le (by norm_num)).trans ?_)
      rw [zDistOut_eq (by norm_num)]
      norm_num [sign, kTiny]
    · rintro (h | h | h | h)
      · norm_num [kHalfTolerance, kTolerance] at h
      · norm_num [kTolerance] at h
      · exact absurd h.1 (by simp [RminT])
      · exact absurd h.1 (by simp [PhiT])

/-- For openings above `pi`, a point deep in the tube that is just behind the continuation of a face and moves almost along it
can get a distance far below zero. -/
theorem C79_behind_plane_counterexample :
    ∃ (a : Par) (p d : V3), a.Valid ∧ Fits ⟨true, .bigger⟩ a ∧ d.x ^ 2 + d.y ^ 2 + d.z ^ 2 = 1 ∧
      (∀ q, V3.dist p q ≤ 9 → a.Closed q) ∧ distanceToOut ⟨true, .bigger⟩ (of a) p d ≤ -100 := by
  have hp := pi_pos
  have hv : (Par.mk 0 20 10 0 (π / 2 + π)).Valid := by constructor <;> simp only <;> linarith
  have hf : Fits ⟨true, .bigger⟩ (Par.mk 0 20 10 0 (π / 2 + π)) := by
    refine ⟨by simp, by simp, by simp, by simp, fun _ => ⟨?_, ?_⟩⟩ <;> simp only <;> linarith
  have hb : ∀ q, V3.dist ⟨-10, -4 / 10 ^ 10, 0⟩ q ≤ 9 → (Par.mk 0 20 10 0 (π / 2 + π)).Closed q := by
    intro q hq
    have h1 := (V3.abs_x_le_dist ⟨-10, -4 / 10 ^ 10, 0⟩ q).trans hq
    have h2 := (V3.abs_y_le_dist ⟨-10, -4 / 10 ^ 10, 0⟩ q).trans hq
    have h3 := (V3.abs_z_le_dist ⟨-10, -4 / 10 ^ 10, 0⟩ q).trans hq
    have h4 := (abs_le.mp (abs_rad_sub_le ⟨-10, -4 / 10 ^ 10, 0⟩ q)).1
    have h5 : rad ⟨-10, -4 / 10 ^ 10, 0⟩ ≤ 11 := by rw [rad_le (by norm_num)]; norm_num
    simp only at h1 h3
    rw [abs_le] at h1
    refine ⟨?_, rad_nonneg _, by simp only; linarith, ?_⟩
    · rw [abs_le] at h3 ⊢; constructor <;> simp only <;> linarith
    · rw [sector_iff hv]
      refine .inr ⟨by simp only; linarith, .inr ?_⟩
      unfold S2
      simp only [zero_add, three_halves.1, three_halves.2]
      linarith
  refine ⟨⟨0, 20, 10, 0, π / 2 + π⟩, ⟨-10, -4 / 10 ^ 10, 0⟩,
    ⟨-(1 - (1 / 10 ^ 12) ^ 2) / (1 + (1 / 10 ^ 12) ^ 2), -2 * (1 / 10 ^ 12) / (1 + (1 / 10 ^ 12) ^ 2), 0⟩, hv, hf, by norm_num, hb, ?_⟩
  have hc := hb ⟨-10, -4 / 10 ^ 10, 0⟩ (by norm_num [V3.dist, V3.dist2])
  obtain ⟨-, -, -, f4, -⟩ := out_facts (d := ⟨-(1 - (1 / 10 ^ 12) ^ 2) / (1 + (1 / 10 ^ 12) ^ 2), -2 * (1 / 10 ^ 12) / (1 + (1 / 10 ^ 12) ^ 2), 0⟩)
    hv hf (by simp) hc
  have e : planeDist ⟨0, 20, 10, 0, π / 2 + π⟩ false ⟨-10, -4 / 10 ^ 10, 0⟩
      ⟨-(1 - (1 / 10 ^ 12) ^ 2) / (1 + (1 / 10 ^ 12) ^ 2), -2 * (1 / 10 ^ 12) / (1 + (1 / 10 ^ 12) ^ 2), 0⟩ =
      (-4 / 10 ^ 10) / (2 * (1 / 10 ^ 12) / (1 + (1 / 10 ^ 12) ^ 2) + 1 / 10 ^ 30) := by
    unfold planeDist SS S1 kTiny
    norm_num
  refine (f4 false ⟨by simp only; linarith, ?_, ?_, fun _ => ?_⟩).trans ?_
  · unfold SS S1; norm_num
  · rw [e]; unfold SS S1; norm_num [kHalfTolerance, kTolerance]
  · rw [e]; unfold HH; simp only [V3.at_x, V3.at_y]; norm_num
  · rw [e]; norm_num

end Tube
end VecGeom
