import Verif.Torus.DistProps
import Verif.Torus.Rest

/-!
# Properties of the distances of tori: when they are numbers, and the distances from outside
-/

namespace VecGeom
namespace Torus

open Real

section
variable {a : Par} {r : ℝ} {p d : V3}

/-- The ray touches the tube of radius `r`: it is at the tube, at a right angle to the radius of the tube. -/
def Touches (a : Par) (r : ℝ) (p d : V3) (s : ℝ) : Prop :=
  ringDist a.rtor (V3.at' p d s) = r ∧
  (V3.at' p d s).x * d.x + (V3.at' p d s).y * d.y + (V3.at' p d s).z * d.z =
    a.rtor * ((V3.at' p d s).x * d.x + (V3.at' p d s).y * d.y) / Tube.rad (V3.at' p d s)

theorem touches_iff (hr : 0 ≤ r) (hR : r < a.rtor) (hu : d.mag2 = 1) (s : ℝ) :
    Touches a r p d s ↔ quartic a r p d s = 0 ∧ slope4 a r p d s = 0 := by
  unfold Touches
  rw [← (C183_equation hr hR p hu s).1]
  refine and_congr_right fun h => ?_
  obtain ⟨h1, h2⟩ := slope_ndotd hr hR p hu h
  have hR0 : 0 < a.rtor := lt_of_le_of_lt hr hR
  rw [h1, mul_eq_zero, or_iff_right (by positivity)]
  unfold ndotd
  rw [perp_rad]
  show _ ↔ ((V3.at' p d s).x - a.rtor * ((V3.at' p d s).x / Tube.rad (V3.at' p d s))) * d.x +
    ((V3.at' p d s).y - a.rtor * ((V3.at' p d s).y / Tube.rad (V3.at' p d s))) * d.y + (V3.at' p d s).z * d.z = 0
  rw [← sub_eq_zero]
  refine Eq.congr ?_ rfl
  field_simp
  ring

theorem scan_defined (hall : ∀ x, ¬ (quartic a r p d x = 0 ∧ slope4 a r p d x = 0)) (flip : Bool) : ∀ {l : List ℝ},
    (∀ x ∈ l, quartic a r p d x = 0) →
    ∃ s, scan (of a) (qa p d) (qb (of a) r p d) (qc (of a) r p d) (qd (of a) r p) p d flip l = some s
  | [], _ => ⟨_, rfl⟩
  | x :: l, hroot => by
    have ih := scan_defined hall flip (l := l) (fun y hy => hroot y (List.mem_cons_of_mem _ hy))
    have hx := hroot x (by simp)
    have hx0 : x * x * x * x + qa p d * x * x * x + qb (of a) r p d * x * x + qc (of a) r p d * x + qd (of a) r p = 0 := by
      rw [← hx]; unfold quartic; ring
    unfold scan
    simp only []
    rw [newton_simple hx0 (fun e => hall x ⟨hx, e⟩)]
    simp only []
    repeat' split
    all_goals first | exact ih | exact ⟨_, rfl⟩

theorem boundary_defined (hr : 0 ≤ r) (hR : r < a.rtor) (hu : d.mag2 = 1) (hreg : Regular a r p d)
    (hsize : p.mag + a.rtor + r < kInfLength) (ht : ∀ s, ¬ Touches a r p d s) (out : Bool) : ∃ s, toBoundary (of a) p d r out = some s := by
  obtain ⟨-, hme⟩ := C182_quartic_partial hreg.clear (fun x hx => by
    have : quartic a r p d x = 0 := hx
    linarith [root_bound hr hR hu this, le_abs_self x])
  unfold toBoundary
  simp only [if_neg hreg.steep]
  split
  · exact ⟨_, rfl⟩
  · exact scan_defined (fun x hx => ht x ((touches_iff hr hR hu x).mpr hx)) _ (fun x hx => (hme x).mp hx)

/-- C184: unless the ray touches a tube, the distances are numbers. -/
theorem C184_defined (h : Ray a p d) (ho : ∀ s, ¬ Touches a a.rmax p d s) (hi : 0 < a.rmin → ∀ s, ¬ Touches a a.rmin p d s) :
    ∃ s, distanceToOut (of a) p d = some s := by
  have hk := half_pos
  have hm : 0 < a.rmax := h.valid.rmin.trans_lt h.valid.rmax
  have hR : a.rmax < a.rtor := by linarith [h.hole]
  obtain ⟨s1, h1⟩ := boundary_defined hm.le hR h.unit h.outer h.size ho true
  obtain ⟨s2, h2⟩ : ∃ s, innerBoundary (of a) p d true = some s := by
    unfold innerBoundary
    show ∃ s, (if a.rmin > 0 then toBoundary (of a) p d a.rmin true else some kInfLength) = some s
    by_cases c : a.rmin > 0
    · rw [if_pos c]
      exact boundary_defined h.valid.rmin (h.valid.rmax.trans hR) h.unit (h.inner c) (by linarith [h.size, h.valid.rmax]) (hi c) true
    · rw [if_neg c]; exact ⟨_, rfl⟩
  have h1 : toBoundary (of a) p d (of a).rmax true = some s1 := h1
  unfold distanceToOut
  split
  · exact ⟨_, rfl⟩
  split
  · exact ⟨_, rfl⟩
  · rw [h1, h2]; exact ⟨_, rfl⟩

theorem dist_at (hu : d.mag2 = 1) (s t : ℝ) : V3.dist (V3.at' p d s) (V3.at' p d t) = |s - t| := by
  have hu' : d.x * d.x + d.y * d.y + d.z * d.z = 1 := hu
  unfold V3.dist V3.dist2
  simp only [V3.at_x, V3.at_y, V3.at_z]
  rw [← sqrt_sq_eq_abs]
  congr 1
  linear_combination (s - t) ^ 2 * hu'

/-- `DistanceToIn` for a point in the bounding tube that is not near a face. -/
theorem in_tube {t : Struct} (hb : Tube.contains Tube.universal t.tube p = true) (hni : inside t p ≠ .inside)
    (h : t.dphi < 2 * π → (HitsFace t p d (t.wedge.distanceToIn 0 p d).1 → kTolerance ≤ |(t.wedge.distanceToIn 0 p d).1|) ∧
      ¬ HitsFace t p d (t.wedge.distanceToIn 0 p d).2) :
    distanceToIn t p d = ((toBoundary t p d t.rmax false).bind fun dd => (innerBoundary t p d false).bind fun din =>
      some (if |min kInfLength (min dd din) + 0| > kInfLength then kInfLength else min kInfLength (min dd din) + 0)) := by
  unfold distanceToIn
  simp only []
  rw [show (if Tube.contains Tube.universal t.tube p = true then 0 else Tube.distanceToIn Tube.universal t.tube p d) = 0 from if_pos hb, at_zero,
    if_neg (fun e => hni e.2), if_neg (fun e => by rw [hb] at e; simp at e), if_neg (fun e => by
    obtain ⟨e0, e1, e2⟩ := e
    rw [if_pos e1] at e2
    linarith [(h e0).1 e1]), if_neg (fun e => (h e.1).2 e.2.1)]
  rfl

/-- C185: from a point out of a full torus but in its bounding tube, `DistanceToIn` is not negative; until this distance the ray does not
meet the inside of the torus, and there, or at most `tol` before, it enters the torus; if it is infinite then the ray does not meet the
inside of the torus at all. -/
theorem C185_in_partial (h : Ray a p d) (hz : |p.z| ≤ a.rmax) (hρ1 : a.rtor - a.rmax ≤ Tube.rad p) (hρ2 : Tube.rad p ≤ a.rtor + a.rmax)
    (hp : a.rmax ≤ ringDist a.rtor p ∨ (0 < a.rmin ∧ ringDist a.rtor p ≤ a.rmin)) {s : ℝ} (hs : distanceToIn (of a) p d = some s) :
    0 ≤ s ∧ (∀ t, 0 ≤ t → t < s ∨ s = kInfLength → ¬ (a.rmin < ringDist a.rtor (V3.at' p d t) ∧ ringDist a.rtor (V3.at' p d t) < a.rmax)) ∧
    (s = kInfLength ∨ ∃ x, s = max 0 x ∧ -tol ≤ x ∧ ∃ e, 0 < e ∧ ∀ t, x < t → t < x + e → a.Closed (V3.at' p d t)) := by
  have hk := half_pos
  have hk' := kTolerance_pos
  have hI := kInfLength_pos
  have hv := h.valid
  have hm : 0 < a.rmax := hv.rmin.trans_lt hv.rmax
  have hR : a.rmax < a.rtor := by linarith [h.hole]
  have hR' : a.rmin < a.rtor := hv.rmax.trans hR
  have hphi : ∀ q : V3, Sector a.s a.d q.x q.y := fun q => by rw [h.full]; exact sector_full _ _ _
  have hfull : ¬ a.d < 2 * π := by rw [h.full]; exact lt_irrefl _
  -- the point is in the bounding tube
  have hfits : Tube.Fits Tube.universal a.box := ⟨by intro e; simp [Tube.universal] at e, by intro e; simp [Tube.universal] at e,
    by intro e; simp [Tube.universal] at e, by intro e; simp [Tube.universal] at e, by intro e; simp [Tube.universal] at e⟩
  have hb : Tube.contains Tube.universal (of a).tube p = true := by
    rw [show (of a).tube = Tube.of a.box from tube_eq, Tube.C77_contains (box_valid hv) hfits]
    refine ⟨hz, fun _ => ?_, ?_, hphi p⟩
    · show max (a.rtor - a.rmax - kTolerance) 0 < Tube.rad p
      exact max_lt (by linarith) (by linarith)
    · show Tube.rad p ≤ a.rtor + a.rmax + kTolerance
      linarith
  have hni : inside (of a) p ≠ .inside := by
    intro hc
    obtain ⟨c1, -, -, c4⟩ := C176_inside hv p
    have hcl := c1 hc
    have : inside (of a) p = .surface := by
      apply c4 hcl
      rcases hp with e | ⟨-, e⟩
      · exact Or.inl (le_antisymm hcl.hi e)
      · exact Or.inr (Or.inl (le_antisymm e hcl.lo))
    rw [hc] at this
    simp at this
  have hs : ((toBoundary (of a) p d a.rmax false).bind fun dd => (innerBoundary (of a) p d false).bind fun din =>
      some (if |min kInfLength (min dd din) + 0| > kInfLength then kInfLength else min kInfLength (min dd din) + 0)) = some s := by
    rw [← hs]
    exact (in_tube hb hni (fun e => absurd e hfull)).symm
  rw [Option.bind_eq_some_iff] at hs
  obtain ⟨dd, hout, hs⟩ := hs
  rw [Option.bind_eq_some_iff] at hs
  obtain ⟨din, hin, hs⟩ := hs
  unfold innerBoundary at hin
  change (if a.rmin > 0 then toBoundary (of a) p d a.rmin false else some kInfLength) = some din at hin
  -- just after a crossing
  have lip : ∀ x t, |ringDist a.rtor (V3.at' p d t) - ringDist a.rtor (V3.at' p d x)| ≤ |t - x| := by
    intro x t
    exact (ring_lip _ _ _).trans (dist_at h.unit t x).le
  have hpos : 0 < a.rmax - a.rmin := by linarith [hv.rmax]
  -- the outer tube
  have o : (dd = kInfLength ∨ (dd < kInfLength ∧ ∃ x, dd = max 0 x ∧ -tol ≤ x ∧ ∃ e, 0 < e ∧ ∀ t, x < t → t < x + e → a.Closed (V3.at' p d t))) ∧
      (a.rmax ≤ ringDist a.rtor p → ∀ t, 0 ≤ t → t < dd ∨ dd = kInfLength → a.rmax ≤ ringDist a.rtor (V3.at' p d t)) := by
    constructor
    · rcases boundary_hit h.full hm.le hR h.unit h.outer h.size hout false (flip_outer h.thick false) with e | ⟨e0, x, x1, x2, x3, e, he, hl⟩
      · exact Or.inl e
      · refine Or.inr ⟨e0, x, x1, x2, min e (a.rmax - a.rmin), lt_min he hpos, fun t t1 t2 => ?_⟩
        have := ((side_in hm.le hR h.unit t).2.2.2).mp (hl t t1 (by linarith [min_le_left e (a.rmax - a.rmin)]))
        have hlip := abs_le.mp (lip x t)
        rw [x3, abs_of_pos (by linarith)] at hlip
        exact ⟨by linarith [min_le_right e (a.rmax - a.rmin), hlip.1], this.le, hphi _⟩
    · intro hp t t0 t1
      have sd : sgn false * quartic a a.rmax p d 0 ≤ 0 := ((side_in hm.le hR h.unit 0).2.2.1).mpr (by rw [at_zero]; exact hp)
      exact ((side_in hm.le hR h.unit t).2.2.1).mp
        (boundary_first h.full hm.le hR h.unit h.outer h.size hout false (flip_outer h.thick false) sd t0 t1)
  -- the inner tube
  have i : (din = kInfLength ∨ (din < kInfLength ∧ ∃ x, din = max 0 x ∧ -tol ≤ x ∧ ∃ e, 0 < e ∧ ∀ t, x < t → t < x + e → a.Closed (V3.at' p d t))) ∧
      (0 < a.rmin ∧ ringDist a.rtor p ≤ a.rmin → ∀ t, 0 ≤ t → t < din ∨ din = kInfLength → ringDist a.rtor (V3.at' p d t) ≤ a.rmin) := by
    by_cases c : a.rmin > 0
    · rw [if_pos c] at hin
      have hsz : p.mag + a.rtor + a.rmin < kInfLength := by linarith [h.size, hv.rmax]
      constructor
      · rcases boundary_hit h.full hv.rmin hR' h.unit (h.inner c) hsz hin true (flip_inner false) with e | ⟨e0, x, x1, x2, x3, e, he, hl⟩
        · exact Or.inl e
        · refine Or.inr ⟨e0, x, x1, x2, min e (a.rmax - a.rmin), lt_min he hpos, fun t t1 t2 => ?_⟩
          have := ((side_in hv.rmin hR' h.unit t).2.1).mp (hl t t1 (by linarith [min_le_left e (a.rmax - a.rmin)]))
          have hlip := abs_le.mp (lip x t)
          rw [x3, abs_of_pos (by linarith)] at hlip
          exact ⟨this.le, by linarith [min_le_right e (a.rmax - a.rmin), hlip.2], hphi _⟩
      · rintro ⟨-, hp⟩ t t0 t1
        have sd : sgn true * quartic a a.rmin p d 0 ≤ 0 := ((side_in hv.rmin hR' h.unit 0).1).mpr (by rw [at_zero]; exact hp)
        exact ((side_in hv.rmin hR' h.unit t).1).mp
          (boundary_first h.full hv.rmin hR' h.unit (h.inner c) hsz hin true (flip_inner false) sd t0 t1)
    · rw [if_neg c] at hin
      exact ⟨Or.inl (Option.some.inj hin).symm, fun e => absurd e.1 c⟩
  have bd : ∀ y : ℝ, (y = kInfLength ∨ (y < kInfLength ∧ ∃ x, y = max 0 x ∧ -tol ≤ x ∧ ∃ e, 0 < e ∧ ∀ t, x < t → t < x + e → a.Closed (V3.at' p d t))) →
      0 ≤ y ∧ y ≤ kInfLength := by
    rintro y (e | ⟨e, x, e', -⟩)
    · rw [e]; exact ⟨hI.le, le_refl _⟩
    · exact ⟨by rw [e']; exact le_max_left _ _, e.le⟩
  have b1 := bd dd o.1
  have b2 := bd din i.1
  have hmin : min dd din ≤ kInfLength := (min_le_left _ _).trans b1.2
  have hmin0 : 0 ≤ min dd din := le_min b1.1 b2.1
  rw [min_eq_right hmin, add_zero, abs_of_nonneg hmin0, if_neg (not_lt.mpr hmin)] at hs
  have hs := Option.some.inj hs
  rw [← hs]
  refine ⟨hmin0, ?_, ?_⟩
  · rintro t t0 t1 ⟨f1, f2⟩
    rcases hp with hp | hp
    · have := o.2 hp t t0 (t1.imp (fun e => e.trans_le (min_le_left _ _)) (fun e => le_antisymm b1.2 (e.symm.le.trans (min_le_left _ _))))
      linarith
    · have := i.2 hp t t0 (t1.imp (fun e => e.trans_le (min_le_right _ _)) (fun e => le_antisymm b2.2 (e.symm.le.trans (min_le_right _ _))))
      linarith
  · rcases le_total dd din with c | c
    · rw [min_eq_left c]
      exact o.1.imp id (fun e => e.2)
    · rw [min_eq_right c]
      exact i.1.imp id (fun e => e.2)

end

end Torus
end VecGeom
