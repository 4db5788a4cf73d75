import Verif.Tube.Lemmas
import Verif.Wedge.Props

/-!
# Membership and safeties of the tube

C77: membership and classification.  C78: safeties.
-/

namespace VecGeom
namespace Tube

open Real

variable {a : Par} {ty : TType}

/-- A quarter of a hollow tube, used as an example. -/
noncomputable def quarter : Par := ⟨1, 2, 3, 0, π / 2⟩

theorem quarter_valid : quarter.Valid := by
  have := pi_pos
  constructor <;> simp only [quarter] <;> linarith

theorem quarter_fits : Fits ⟨false, .smaller⟩ quarter := by
  have := pi_pos
  refine ⟨by simp, by simp, fun _ => ?_, by simp, by simp⟩
  simp only [quarter]; linarith

/-- C77: the factory picks a type that agrees with the parameters.  Negative inner radii count as zero, openings above `2 pi` as
`2 pi`. -/
theorem C77_factory (rmin rmax z s d : ℝ) (h : max rmin 0 < rmax) (hz : 0 < z) (hd : 0 < d) :
    let a : Par := ⟨max rmin 0, rmax, z, s, min d (2 * π)⟩
    a.Valid ∧ Fits (makeInstance rmin rmax z s d).1 a ∧ (makeInstance rmin rmax z s d).2 = of a := by
  have hpi := pi_pos
  have hm : ∀ d', make rmin rmax z s d' = of ⟨max rmin 0, rmax, z, s, d'⟩ := by
    intro d'
    unfold of make
    simp only
    congr 2
    rcases lt_or_ge rmin 0 with h1 | h1
    · rw [if_pos h1, max_eq_right h1.le, if_neg (lt_irrefl _)]
    · rw [if_neg (not_lt.mpr h1), max_eq_left h1, if_neg (not_lt.mpr h1)]
  have hs : ∀ d' an, Fits ⟨decide (rmin ≤ 0), an⟩ ⟨max rmin 0, rmax, z, s, d'⟩ ↔
      ((an = .none → d' = 2 * π) ∧ (an = .smaller → d' < π) ∧ (an = .pi → d' = π) ∧ (an = .bigger → π < d' ∧ d' < 2 * π)) := by
    intro d' an
    unfold Fits
    simp only [decide_eq_true_iff]
    constructor
    · exact fun h => h.2
    · exact fun h => ⟨fun h1 => max_eq_right h1, h⟩
  refine ⟨⟨le_max_right _ _, h, hz, lt_min hd (by linarith), min_le_right _ _⟩, ?_⟩
  simp only [makeInstance]
  rcases le_or_gt (2 * π) d with h1 | h1
  · rw [if_pos h1, min_eq_right h1]
    exact ⟨(hs _ _).mpr (by simp), hm _⟩
  · rw [if_neg (not_le.mpr h1), min_eq_left h1.le]
    by_cases h2 : d = π
    · rw [if_pos h2]
      exact ⟨(hs _ _).mpr (by simp [h2]), hm _⟩
    · rw [if_neg h2]
      rcases lt_or_ge d π with h3 | h3
      · rw [if_pos h3]
        exact ⟨(hs _ _).mpr (by simp [h3]), hm _⟩
      · rw [if_neg (not_lt.mpr h3)]
        exact ⟨(hs _ _).mpr (by simp [h1, lt_of_le_of_ne h3 (Ne.symm h2)]), hm _⟩

example : (makeInstance (-1) 2 3 0 8).1 = ⟨true, .none⟩ := by
  have := pi_le_four
  simp only [makeInstance]
  rw [if_pos (by linarith)]
  simp

/-- C77: `Contains` is membership of the half-open tube, for every type that agrees with the parameters. -/
theorem C77_contains (hv : a.Valid) (hf : Fits ty a) (p : V3) : contains ty (of a) p = true ↔ a.In p := by
  have hr : 0 ≤ a.rmax := hv.rmin.trans hv.rmax.le
  have hw : (PhiT ty (of a) ∧ (of a).wedge.CompletelyOutside false p) ↔ ¬ Sector a.s a.d p.x p.y := by
    by_cases hp : PhiT ty (of a)
    · rw [of_wedge]
      unfold Wedge.CompletelyOutside
      rw [Wedge.out_iff hv.d hv.d']
      simp [hp]
    · simp only [hp, false_and, false_iff, not_not]
      exact sector_of_not_phiT hv hf hp _ _
  unfold contains
  simp only [decide_eq_true_iff]
  unfold CompletelyOutside
  simp only [hw, rminT_iff hv hf, rad_sq', plusTolerant, plusTolerantSquare, minusTolerantSquare, Bool.false_eq_true, if_false,
    of_rmin hv.rmin, of_rmax, of_z, not_or, not_lt, not_not, not_and, not_le, gt_iff_lt]
  have e1 : rad p ^ 2 ≤ a.rmax * a.rmax ↔ rad p ≤ a.rmax := by
    rw [← sq]; exact pow_le_pow_iff_left₀ (rad_nonneg p) hr (by norm_num)
  have e2 : a.rmin * a.rmin < rad p ^ 2 ↔ a.rmin < rad p := by
    rw [← sq]; exact pow_lt_pow_iff_left₀ hv.rmin (rad_nonneg p) (by norm_num)
  rw [e1, e2]
  exact ⟨fun ⟨h1, h2, h3, h4⟩ => ⟨h1, h3, h2, h4⟩, fun ⟨h1, h3, h2, h4⟩ => ⟨h1, h2, h3, h4⟩⟩

/-- The example tube contains a point and not its mirror image. -/
example : contains ⟨false, .smaller⟩ (of quarter) ⟨1, 1, 0⟩ = true ∧ contains ⟨false, .smaller⟩ (of quarter) ⟨-1, 1, 0⟩ = false := by
  have hp := pi_pos
  have hr : ∀ p : V3, p.x ^ 2 + p.y ^ 2 = 2 → 1 < rad p ∧ rad p ≤ 2 := by
    intro p h
    rw [lt_rad (by norm_num), rad_le (by norm_num), h]
    norm_num
  refine ⟨(C77_contains quarter_valid quarter_fits _).mpr ⟨?_, fun _ => (hr ⟨1, 1, 0⟩ (by norm_num)).1, (hr ⟨1, 1, 0⟩ (by norm_num)).2, ?_⟩,
    Bool.not_eq_true _ ▸ fun h => ?_⟩
  · simp [quarter]
  · rw [show quarter.s = 0 from rfl, show quarter.d = π / 2 from rfl, sector_small (by linarith) (by linarith)]
    simp
  · have := ((C77_contains quarter_valid quarter_fits _).mp h).phi
    rw [show quarter.s = 0 from rfl, show quarter.d = π / 2 from rfl, sector_small (by linarith) (by linarith)] at this
    norm_num at this

/-- C77: `Inside` is right about points it calls inside or outside; points it calls surface are close to a bounding surface and
not far outside; points on the surface are called so.  The radii must exceed the tolerance. -/
theorem C77_inside (hv : a.Valid) (hf : Fits ty a) (hmax : kTolerance ≤ a.rmax) (hmin : a.rmin = 0 ∨ kTolerance < a.rmin) (p : V3) :
    (inside ty (of a) p = .inside → a.In p) ∧
    (inside ty (of a) p = .outside → ¬ a.Closed p) ∧
    (inside ty (of a) p = .surface →
      |p.z| ≤ a.z + kHalfTolerance ∧ rad p ≤ a.rmax + kTolerance ∧ a.rmin - 2 * kTolerance ≤ rad p ∧
      (a.z - kHalfTolerance ≤ |p.z| ∨ a.rmax - 2 * kTolerance ≤ rad p ∨ (0 < a.rmin ∧ rad p ≤ a.rmin + kTolerance) ∨
        (a.d < 2 * π ∧ ∃ h, |h| < kTolerance ∧ (AboveRay a.s h p.x p.y ∨ AboveRay (a.s + a.d) h p.x p.y)))) ∧
    (a.Closed p → (|p.z| = a.z ∨ rad p = a.rmax ∨ (0 < a.rmin ∧ rad p = a.rmin) ∨
        (a.d < 2 * π ∧ (AboveRay a.s 0 p.x p.y ∨ AboveRay (a.s + a.d) 0 p.x p.y))) → inside ty (of a) p = .surface) := by
  have ht := kTolerance_pos
  have hh := kHalfTolerance_pos
  have hr0 := rad_nonneg p
  have hm0 : 0 < a.rmax := hv.rmin.trans_lt hv.rmax
  obtain ⟨w1, w2, w3, w4, w5⟩ := C76_inside (s := a.s) hv.d hv.d' p
  have hs : (Wedge.make a.d a.s).OnSurface p ↔ ∃ h, |h| < kTolerance ∧ (AboveRay a.s h p.x p.y ∨ AboveRay (a.s + a.d) h p.x p.y) := by
    unfold Wedge.OnSurface
    rw [Wedge.on1_iff, Wedge.on2_iff]
    constructor
    · rintro (⟨h, hh, ha⟩ | ⟨h, hh, ha⟩)
      · exact ⟨h, hh, .inl ha⟩
      · exact ⟨h, hh, .inr ha⟩
    · rintro ⟨h, hh, ha | ha⟩
      · exact .inl ⟨h, hh, ha⟩
      · exact .inr ⟨h, hh, ha⟩
  have hout := Wedge.out_iff (s := a.s) hv.d hv.d' p
  have hfull : ¬ a.d < 2 * π → Sector a.s a.d p.x p.y := fun h =>
    sector_of_not_phiT hv hf (fun hc => h ((phiT_iff hf).mp hc)) _ _
  -- the square bounds
  have q1 : minusTolerantSquare true a.rmax ≤ a.rmax ^ 2 := by
    simp only [minusTolerantSquare, if_true]
    rw [abs_le]; constructor <;> nlinarith
  have q1' : (a.rmax - 2 * kTolerance) ≤ rad p ∨ rad p ^ 2 < minusTolerantSquare true a.rmax := by
    simp only [minusTolerantSquare, if_true]
    by_contra hc
    push Not at hc
    have h3 := le_abs_self (a.rmax * (a.rmax - 2 * kTolerance))
    nlinarith [hc.1, hc.2]
  have q2 : a.rmax ^ 2 < plusTolerantSquare true a.rmax := by
    simp only [plusTolerantSquare, if_true]; nlinarith
  have q2' : rad p ^ 2 ≤ plusTolerantSquare true a.rmax → rad p ≤ a.rmax + kTolerance := by
    simp only [plusTolerantSquare, if_true]; intro h; nlinarith
  have q3 : 0 < a.rmin → minusTolerantSquare true a.rmin < a.rmin ^ 2 := by
    intro h0
    have h1 : kTolerance < a.rmin := by rcases hmin with h | h; exact absurd h h0.ne'; exact h
    simp only [minusTolerantSquare, if_true]
    rw [abs_lt]; constructor <;> nlinarith
  have q3' : minusTolerantSquare true a.rmin < rad p ^ 2 → a.rmin - 2 * kTolerance ≤ rad p := by
    simp only [minusTolerantSquare, if_true]
    intro h
    by_contra hc
    push Not at hc
    have h3 := le_abs_self (a.rmin * (a.rmin - 2 * kTolerance))
    nlinarith
  have q4 : a.rmin ^ 2 ≤ plusTolerantSquare true a.rmin := by
    simp only [plusTolerantSquare, if_true]; nlinarith [hv.rmin]
  have q4' : rad p ^ 2 ≤ plusTolerantSquare true a.rmin → rad p ≤ a.rmin + kTolerance := by
    simp only [plusTolerantSquare, if_true]; intro h; nlinarith [hv.rmin]
  have hin : CompletelyInside ty (of a) p ↔ |p.z| < a.z - kHalfTolerance ∧ rad p ^ 2 < minusTolerantSquare true a.rmax ∧
      (0 < a.rmin → plusTolerantSquare true a.rmin < rad p ^ 2) ∧
      (a.d < 2 * π → ¬ (Wedge.make a.d a.s).OnSurface p ∧ Sector a.s a.d p.x p.y) := by
    unfold CompletelyInside Wedge.CompletelyInside Wedge.CompletelyOutside
    simp only [rminT_iff hv hf, phiT_iff hf, rad_sq', of_rmin hv.rmin, of_rmax, of_z, of_wedge, hout]
    have : ∀ A B : Prop, (¬ A ∧ ¬ (¬ B ∧ (True → ¬ A))) ↔ (¬ A ∧ B) := by intro A B; by_cases A <;> by_cases B <;> simp [*]
    rw [this]
  have hou : CompletelyOutside ty true (of a) p ↔ a.z + kHalfTolerance < |p.z| ∨ plusTolerantSquare true a.rmax < rad p ^ 2 ∨
      (0 < a.rmin ∧ rad p ^ 2 ≤ minusTolerantSquare true a.rmin) ∨
      (a.d < 2 * π ∧ ¬ (Wedge.make a.d a.s).OnSurface p ∧ ¬ Sector a.s a.d p.x p.y) := by
    unfold CompletelyOutside Wedge.CompletelyOutside
    simp only [rminT_iff hv hf, phiT_iff hf, rad_sq', of_rmin hv.rmin, of_rmax, of_z, of_wedge, hout, plusTolerant, if_true,
      gt_iff_lt, forall_const]
    rw [and_comm (a := ¬ Sector a.s a.d p.x p.y)]
  rw [hs] at hin hou
  refine ⟨?_, ?_, ?_, ?_⟩
  · intro h
    have hi : CompletelyInside ty (of a) p := by
      unfold inside at h; split at h
      · assumption
      · split at h <;> simp at h
    rw [hin] at hi
    obtain ⟨h1, h2, h3, h4⟩ := hi
    refine ⟨by linarith, fun h0 => ?_, ?_, ?_⟩
    · exact lt_of_pow_lt_pow_left₀ 2 hr0 (q4.trans_lt (h3 h0))
    · exact (lt_of_pow_lt_pow_left₀ 2 hm0.le (h2.trans_le q1)).le
    · by_cases hd : a.d < 2 * π
      · exact (h4 hd).2
      · exact hfull hd
  · intro h hc
    have ho : CompletelyOutside ty true (of a) p := by
      unfold inside at h; split at h
      · simp at h
      · split at h
        · assumption
        · simp at h
    rw [hou] at ho
    rcases ho with h1 | h1 | ⟨h0, h1⟩ | ⟨hd, -, h1⟩
    · linarith [hc.z]
    · have := lt_of_pow_lt_pow_left₀ 2 hr0 (q2.trans h1)
      linarith [hc.hi]
    · have := lt_of_pow_lt_pow_left₀ 2 hv.rmin (h1.trans_lt (q3 h0))
      linarith [hc.lo]
    · exact h1 hc.phi
  · intro h
    have h2 : ¬ CompletelyInside ty (of a) p ∧ ¬ CompletelyOutside ty true (of a) p := by
      unfold inside at h; split at h
      · simp at h
      · split at h
        · simp at h
        · exact ⟨by assumption, by assumption⟩
    rw [hin, hou] at h2
    obtain ⟨hi, ho⟩ := h2
    push Not at ho
    obtain ⟨o1, o2, o3, o4⟩ := ho
    refine ⟨o1, q2' o2, ?_, ?_⟩
    · by_cases h0 : 0 < a.rmin
      · exact q3' (o3 h0)
      · have : a.rmin = 0 := le_antisymm (not_lt.mp h0) hv.rmin
        linarith
    · by_contra hc
      push Not at hc
      obtain ⟨c1, c2, c3, c4⟩ := hc
      apply hi
      refine ⟨c1, (q1').resolve_left (not_le.mpr c2), fun h0 => ?_, fun hd => ?_⟩
      · by_contra hc
        have := q4' (not_lt.mp hc)
        linarith [c3 h0]
      · have hn : ¬ ∃ h, |h| < kTolerance ∧ (AboveRay a.s h p.x p.y ∨ AboveRay (a.s + a.d) h p.x p.y) := by
          rintro ⟨h, h1, h2⟩
          rcases h2 with h2 | h2
          · exact (c4 hd h h1).1 h2
          · exact (c4 hd h h1).2 h2
        refine ⟨hn, ?_⟩
        by_contra hsn
        exact hsn (o4 hd (by push Not at hn; exact hn))
  · intro hc hb
    have ho : ¬ CompletelyOutside ty true (of a) p := by
      rw [hou]
      rintro (h1 | h1 | ⟨h0, h1⟩ | ⟨hd, -, h1⟩)
      · linarith [hc.z]
      · have := lt_of_pow_lt_pow_left₀ 2 hr0 (q2.trans h1)
        linarith [hc.hi]
      · have := lt_of_pow_lt_pow_left₀ 2 hv.rmin (h1.trans_lt (q3 h0))
        linarith [hc.lo]
      · exact h1 hc.phi
    have hi : ¬ CompletelyInside ty (of a) p := by
      rw [hin]
      rintro ⟨h1, h2, h3, h4⟩
      rcases hb with hb | hb | ⟨h0, hb⟩ | ⟨hd, hb⟩
      · linarith
      · rw [hb] at h2; linarith
      · have := h3 h0; rw [hb] at this; linarith
      · exact (h4 hd).1 ⟨0, by rw [abs_zero]; exact ht, hb⟩
    unfold inside
    rw [if_neg hi, if_neg ho]

/-- The lid of the example tube is surface. -/
example : inside ⟨false, .smaller⟩ (of quarter) ⟨1, 1, 3⟩ = .surface := by
  have hp := pi_pos
  have ht : kTolerance < 1 := by norm_num [kTolerance]
  refine (C77_inside quarter_valid quarter_fits (by show kTolerance ≤ 2; linarith) (.inr ht) _).2.2.2 ⟨?_, ?_, ?_, ?_⟩ (.inl ?_)
  · simp [quarter]
  · rw [le_rad (by simp [quarter])]; norm_num [quarter]
  · rw [rad_le (by simp [quarter])]; norm_num [quarter]
  · rw [show quarter.s = 0 from rfl, show quarter.d = π / 2 from rfl, sector_small (by linarith) (by linarith)]
    simp
  · simp [quarter]

/-- For bores thinner than the tolerance the classification is wrong: a point of the tube is called outside. -/
theorem C77_thin_bore_counterexample :
    inside universal (of ⟨kTolerance / 2, 1, 1, 0, 2 * π⟩) ⟨4 / 5 * kTolerance, 0, 0⟩ = .outside ∧
    (Par.mk (kTolerance / 2) 1 1 0 (2 * π)).In ⟨4 / 5 * kTolerance, 0, 0⟩ ∧
    contains universal (of ⟨kTolerance / 2, 1, 1, 0, 2 * π⟩) ⟨4 / 5 * kTolerance, 0, 0⟩ = true := by
  have ht := kTolerance_pos
  have ht1 : kTolerance < 1 := by norm_num [kTolerance]
  have hp := pi_pos
  have hv : (Par.mk (kTolerance / 2) 1 1 0 (2 * π)).Valid := by constructor <;> simp only <;> linarith
  have hf : Fits universal (Par.mk (kTolerance / 2) 1 1 0 (2 * π)) := by
    refine ⟨?_, ?_, ?_, ?_, ?_⟩ <;> simp [universal]
  have hr : rad ⟨4 / 5 * kTolerance, 0, 0⟩ = 4 / 5 * kTolerance := by
    unfold rad; simp only; rw [show (4 / 5 * kTolerance) ^ 2 + (0 : ℝ) ^ 2 = (4 / 5 * kTolerance) ^ 2 by ring, sqrt_sq (by linarith)]
  have hi : (Par.mk (kTolerance / 2) 1 1 0 (2 * π)).In ⟨4 / 5 * kTolerance, 0, 0⟩ := by
    refine ⟨by simp, fun _ => ?_, ?_, sector_full _ _ _⟩
    · rw [hr]; show kTolerance / 2 < _; linarith
    · rw [hr]; show _ ≤ (1 : ℝ); linarith
  refine ⟨?_, hi, (C77_contains hv hf _).mpr hi⟩
  have ho : CompletelyOutside universal true (of ⟨kTolerance / 2, 1, 1, 0, 2 * π⟩) ⟨4 / 5 * kTolerance, 0, 0⟩ := by
    refine .inr (.inr (.inl ⟨(rminT_iff hv hf).mpr (by simp; linarith), ?_⟩))
    rw [of_rmin hv.rmin]
    simp only [minusTolerantSquare, if_true]
    rw [abs_of_neg (by nlinarith)]
    nlinarith
  have hn : ¬ CompletelyInside universal (of ⟨kTolerance / 2, 1, 1, 0, 2 * π⟩) ⟨4 / 5 * kTolerance, 0, 0⟩ := by
    intro h
    have := h.2.2.1 ((rminT_iff hv hf).mpr (by simp; linarith))
    rw [of_rmin hv.rmin] at this
    simp only [plusTolerantSquare, if_true] at this
    nlinarith
  unfold inside
  rw [if_neg hn, if_pos ho]

/-! ## Safeties -/

theorem ite_pos' {α : Type} {c : Prop} {i : Decidable c} (h : c) {x y : α} : @ite α c i x y = x := if_pos h

theorem ite_neg' {α : Type} {c : Prop} {i : Decidable c} (h : ¬ c) {x y : α} : @ite α c i x y = y := if_neg h

theorem takeMore_le {ok : Prop} {x s c : ℝ} (h1 : ok → x ≤ c) (h2 : s ≤ c) : takeMore ok x s ≤ c := by
  unfold takeMore; split
  · exact h1 (by tauto)
  · exact h2

theorem le_takeMore {ok : Prop} {x s : ℝ} (h1 : ok) : x ≤ takeMore ok x s := by
  unfold takeMore; split
  · exact le_refl _
  · rename_i h; push Not at h; exact h h1

theorem le_takeMore' {ok : Prop} {x s : ℝ} : s ≤ takeMore ok x s := by
  unfold takeMore; split
  · rename_i h; exact h.2.le
  · exact le_refl _

theorem le_takeLess {ok : Prop} {x s c : ℝ} (h1 : ok → c ≤ x) (h2 : c ≤ s) : c ≤ takeLess ok x s := by
  unfold takeLess; split
  · exact h1 (by tauto)
  · exact h2

theorem takeLess_le {ok : Prop} {x s : ℝ} (h1 : ok) : takeLess ok x s ≤ x := by
  unfold takeLess; split
  · exact le_refl _
  · rename_i h; push Not at h; exact h h1

theorem takeLess_le' {ok : Prop} {x s : ℝ} : takeLess ok x s ≤ s := by
  unfold takeLess; split
  · rename_i h; exact h.2.le
  · exact le_refl _

theorem phi1_of (p : V3) : p.x * (of a).a1y - p.y * (of a).a1x = -S1 a p.x p.y := by
  simp only [of_a1x, of_a1y, S1]; ring

theorem phi2_of (p : V3) : (p.x * (of a).a2y - p.y * (of a).a2x) * -1 = -S2 a p.x p.y := by
  simp only [of_a2x, of_a2y, S2]; ring

theorem abs_S1_le (p : V3) : |S1 a p.x p.y| ≤ rad p := by
  unfold rad
  rw [← sqrt_sq_eq_abs]
  apply sqrt_le_sqrt
  unfold S1
  nlinarith [sin_sq_add_cos_sq a.s, sq_nonneg (p.x * cos a.s + p.y * sin a.s)]

theorem abs_S2_le (p : V3) : |S2 a p.x p.y| ≤ rad p := by
  unfold rad
  rw [← sqrt_sq_eq_abs]
  apply sqrt_le_sqrt
  unfold S2
  nlinarith [sin_sq_add_cos_sq (a.s + a.d), sq_nonneg (p.x * cos (a.s + a.d) + p.y * sin (a.s + a.d))]

theorem big_of (hf : Fits ty a) (hp : PhiT ty (of a)) (hpi : ty.angle ≠ .pi) (h : π < a.d) :
    (ty.angle = .unknown ∧ a.d > π) ∨ ty.angle = .bigger := by
  unfold PhiT at hp
  cases he : ty.angle
  · rw [he] at hp; exact hp.elim
  · linarith [hf.2.2.1 he]
  · exact absurd he hpi
  · exact .inr rfl
  · exact .inl ⟨rfl, h⟩

/-- The value that `PhiPlaneSafety` returns is bounded by the distance to the sector where it is used. -/
theorem phiPlaneSafety_le (hv : a.Valid) (hf : Fits ty a) (hp : PhiT ty (of a)) {p q : V3} (hq : Sector a.s a.d q.x q.y)
    (hs : ¬ InSector ty (of a) false p.x p.y) (hi : phiPlaneSafety ty (of a) p < kInfLength) :
    phiPlaneSafety ty (of a) p ≤ V3.dist p q := by
  have hh := kHalfTolerance_pos
  rw [inSector_iff hf hp] at hs
  rw [sector_iff hv] at hq
  have b1 := abs_le.mp (S1_sub_le (a := a) p q)
  have b2 := abs_le.mp (S2_sub_le (a := a) p q)
  have hd0 := V3.dist_nonneg' p q
  simp only [Bool.false_eq_true, if_false] at hs
  unfold phiPlaneSafety at hi ⊢
  simp only [phi1_of, phi2_of, of_dphi] at hi ⊢
  by_cases hpi : ty.angle = .pi
  · rw [ite_pos' hpi] at hi ⊢
    have hd : a.d = π := hf.2.2.2.1 hpi
    split at hi
    · rename_i h1
      rw [ite_pos' h1]
      rw [S2_pi hd] at hs hq
      rw [abs_neg] at h1 ⊢
      rcases lt_abs.mp h1 with h2 | h2
      · exact absurd (.inl ⟨hd.le, h2.le, h2.le⟩) hs
      · rw [abs_of_neg (by linarith)]
        rcases hq with ⟨-, h3, -⟩ | ⟨h3, -⟩
        · linarith
        · linarith
    · have : ¬ ((ty.angle = .unknown ∧ a.d > π) ∨ ty.angle = .bigger) := by rw [hpi]; simp
      simp only [this, if_false] at hi
      exact absurd hi (lt_irrefl _)
  · rw [ite_neg' hpi] at hi ⊢
    rcases le_or_gt a.d π with h | h
    · have hn : ¬ ((ty.angle = .unknown ∧ a.d > π) ∨ ty.angle = .bigger) := by
        rintro (⟨-, h1⟩ | h1)
        · linarith
        · linarith [(hf.2.2.2.2 h1).1]
      simp only [hn, if_false] at hi ⊢
      have hq' : 0 ≤ S1 a q.x q.y ∧ 0 ≤ S2 a q.x q.y := by
        rcases hq with ⟨-, h3⟩ | ⟨h3, -⟩
        · exact h3
        · linarith
      split_ifs at hi ⊢ <;> linarith
    · have hs' : S1 a p.x p.y < kHalfTolerance ∧ S2 a p.x p.y < kHalfTolerance := by
        push Not at hs
        exact hs.2 h
      have hle : ∀ {x y : ℝ}, -x > -kHalfTolerance → (if -x > -kHalfTolerance ∧ -x < y then -x else y) ≤ -x ∧
          (if -x > -kHalfTolerance ∧ -x < y then -x else y) ≤ y := by
        intro x y hx
        split
        · rename_i h2; exact ⟨le_refl _, h2.2.le⟩
        · rename_i h2; push Not at h2; exact ⟨h2 hx, le_refl _⟩
      have hb := big_of hf hp hpi h
      simp only [hb, if_true, rad_eq] at hi ⊢
      have l1 := @hle (S1 a p.x p.y) (rad p) (by linarith)
      have l2 := @hle (S2 a p.x p.y) (if -S1 a p.x p.y > -kHalfTolerance ∧ -S1 a p.x p.y < rad p then -S1 a p.x p.y else rad p)
        (by linarith)
      rcases hq with ⟨h3, -⟩ | ⟨-, h3 | h3⟩
      · linarith
      · exact (l2.2.trans l1.1).trans (by linarith)
      · exact l2.1.trans (by linarith)

/-- C78: `SafetyToIn` never exceeds the distance to a point of the tube.  It is at least the distance beyond each of the lids and
walls, and, where the point is clear of the two phi planes by half the tolerance, at least the smaller of the depths behind the
planes it is behind. -/
theorem C78_safety_in (hv : a.Valid) (hf : Fits ty a) (p : V3) :
    (∀ q, a.Closed q → safetyToIn ty (of a) p ≤ V3.dist p q) ∧
    |p.z| - a.z ≤ safetyToIn ty (of a) p ∧ rad p - a.rmax ≤ safetyToIn ty (of a) p ∧
    (0 < a.rmin → a.rmin - rad p ≤ safetyToIn ty (of a) p) ∧
    (a.d < 2 * π → ¬ Sector a.s a.d p.x p.y → rad p < kInfLength →
      (S1 a p.x p.y < -kHalfTolerance ∨ kHalfTolerance ≤ S1 a p.x p.y) →
      (S2 a p.x p.y < -kHalfTolerance ∨ kHalfTolerance ≤ S2 a p.x p.y) →
      ∀ c, (S1 a p.x p.y < 0 → c ≤ -S1 a p.x p.y) → (S2 a p.x p.y < 0 → c ≤ -S2 a p.x p.y) → c ≤ safetyToIn ty (of a) p) := by
  have hh := kHalfTolerance_pos
  have base : safetyToIn ty (of a) p = (open Classical in if PhiT ty (of a) then
      takeMore (¬ InSector ty (of a) false p.x p.y ∧ phiPlaneSafety ty (of a) p < kInfLength) (phiPlaneSafety ty (of a) p)
        (takeMore (0 < a.rmin) (a.rmin - rad p) (takeMore True (rad p - a.rmax) (|p.z| - a.z)))
      else takeMore (0 < a.rmin) (a.rmin - rad p) (takeMore True (rad p - a.rmax) (|p.z| - a.z))) := by
    unfold safetyToIn
    simp only [rad_eq, of_rmax, of_z, of_rmin hv.rmin, rminT_iff hv hf]
  have lo : takeMore (0 < a.rmin) (a.rmin - rad p) (takeMore True (rad p - a.rmax) (|p.z| - a.z)) ≤ safetyToIn ty (of a) p := by
    rw [base]; split
    · exact le_takeMore'
    · exact le_refl _
  refine ⟨?_, ?_, ?_, ?_, ?_⟩
  · intro q hq
    have h1 := abs_le.mp (abs_rad_sub_le p q)
    have h2 := V3.abs_z_le_dist p q
    have h3 := abs_sub_abs_le_abs_sub p.z q.z
    have up : takeMore (0 < a.rmin) (a.rmin - rad p) (takeMore True (rad p - a.rmax) (|p.z| - a.z)) ≤ V3.dist p q := by
      refine takeMore_le (fun _ => ?_) (takeMore_le (fun _ => ?_) ?_)
      · linarith [hq.lo]
      · linarith [hq.hi]
      · linarith [hq.z]
    rw [base]; split
    · rename_i hp
      exact takeMore_le (fun h => phiPlaneSafety_le hv hf hp hq.phi h.1 h.2) up
    · exact up
  · exact le_trans (le_trans le_takeMore' le_takeMore') lo
  · exact le_trans (le_trans (le_takeMore trivial) le_takeMore') lo
  · intro h
    exact le_trans (le_takeMore h) lo
  · intro hd hs hinf h1 h2 c hc1 hc2
    have hp := (phiT_iff hf).mpr hd
    rw [sector_iff hv] at hs
    have a1 := abs_le.mp (abs_S1_le (a := a) p)
    have a2 := abs_le.mp (abs_S2_le (a := a) p)
    have hns : ¬ InSector ty (of a) false p.x p.y := by
      rw [inSector_iff hf hp]
      simp only [Bool.false_eq_true, if_false]
      rintro (⟨h3, h4, h5⟩ | ⟨h3, h4⟩)
      · exact hs (.inl ⟨h3, by linarith, by linarith⟩)
      · exact hs (.inr ⟨h3, h4.imp (fun h => by linarith) (fun h => by linarith)⟩)
    have key : c ≤ phiPlaneSafety ty (of a) p ∧ phiPlaneSafety ty (of a) p < kInfLength := by
      unfold phiPlaneSafety
      simp only [phi1_of, phi2_of, of_dphi, rad_eq]
      by_cases hpi : ty.angle = .pi
      · rw [ite_pos' hpi]
        have hd' : a.d = π := hf.2.2.2.1 hpi
        rw [S2_pi hd'] at hs h2
        have hn : S1 a p.x p.y < 0 := by
          by_contra hc
          exact hs (.inl ⟨hd'.le, not_lt.mp hc, not_lt.mp hc⟩)
        have h3 : S1 a p.x p.y < -kHalfTolerance := by rcases h1 with h | h <;> linarith
        have h4 : |-S1 a p.x p.y| > kHalfTolerance := by rw [abs_of_pos (by linarith)]; linarith
        rw [ite_pos' h4, abs_of_pos (by linarith)]
        exact ⟨hc1 hn, by linarith⟩
      · rw [ite_neg' hpi]
        rcases le_or_gt a.d π with h | h
        · have hn : ¬ ((ty.angle = .unknown ∧ a.d > π) ∨ ty.angle = .bigger) := by
            rintro (⟨-, h1⟩ | h1)
            · linarith
            · linarith [(hf.2.2.2.2 h1).1]
          simp only [hn, if_false]
          rcases h1 with h1 | h1
          · rw [ite_pos' (show -S1 a p.x p.y > -kHalfTolerance ∧ -S1 a p.x p.y < kInfLength from ⟨by linarith, by linarith⟩)]
            split
            · rename_i h5
              rcases h2 with h2 | h2
              · exact ⟨hc2 (by linarith), by linarith⟩
              · linarith
            · exact ⟨hc1 (by linarith), by linarith⟩
          · rw [ite_neg' (show ¬ (-S1 a p.x p.y > -kHalfTolerance ∧ -S1 a p.x p.y < kInfLength) by rintro ⟨h5, -⟩; linarith)]
            rcases h2 with h2 | h2
            · rw [ite_pos' (show -S2 a p.x p.y > -kHalfTolerance ∧ -S2 a p.x p.y < kInfLength from ⟨by linarith, by linarith⟩)]
              exact ⟨hc2 (by linarith), by linarith⟩
            · exact absurd (.inl ⟨h, by linarith, by linarith⟩) hs
        · have hn1 : S1 a p.x p.y < 0 := by by_contra hc; exact hs (.inr ⟨h, .inl (not_lt.mp hc)⟩)
          have hn2 : S2 a p.x p.y < 0 := by by_contra hc; exact hs (.inr ⟨h, .inr (not_lt.mp hc)⟩)
          have hb := big_of hf hp hpi h
          simp only [hb, if_true]
          have hc1' := hc1 hn1
          have hc2' := hc2 hn2
          split_ifs <;> constructor <;> linarith
    rw [base, ite_pos' hp]
    exact key.1.trans (le_takeMore ⟨hns, key.2⟩)

/-- Above the lid of the example tube the safety is the height. -/
example : safetyToIn ⟨false, .smaller⟩ (of quarter) ⟨1, 1, 5⟩ = 2 := by
  have hp := pi_pos
  have h := C78_safety_in quarter_valid quarter_fits ⟨1, 1, 5⟩
  apply le_antisymm
  · refine (h.1 ⟨1, 1, 3⟩ ⟨by simp [quarter], ?_, ?_, ?_⟩).trans ?_
    · rw [le_rad (by simp [quarter])]; norm_num [quarter]
    · rw [rad_le (by simp [quarter])]; norm_num [quarter]
    · rw [show quarter.s = 0 from rfl, show quarter.d = π / 2 from rfl, sector_small (by linarith) (by linarith)]
      simp
    · unfold V3.dist V3.dist2
      rw [show ((1 : ℝ) - 1) ^ 2 + (1 - 1) ^ 2 + (5 - 3) ^ 2 = 2 ^ 2 by norm_num, sqrt_sq (by norm_num)]
  · have := h.2.1
    norm_num [quarter] at this
    exact this

/-- C78: `SafetyToOut` never exceeds the distance to a point outside, is not negative in the tube, and is at least the smallest
of the distances to the lids, the walls and (as the sector goes) the phi planes. -/
theorem C78_safety_out (hv : a.Valid) (hf : Fits ty a) (p : V3) :
    (∀ q, ¬ a.Closed q → safetyToOut ty (of a) p ≤ V3.dist p q) ∧
    (a.Closed p → 0 ≤ safetyToOut ty (of a) p) ∧
    (∀ c, c ≤ a.z - |p.z| → c ≤ a.rmax - rad p → (0 < a.rmin → c ≤ rad p - a.rmin) →
      (a.d < 2 * π → (a.d < π ∧ c ≤ S1 a p.x p.y ∧ c ≤ S2 a p.x p.y) ∨ (π ≤ a.d ∧ (c ≤ S1 a p.x p.y ∨ c ≤ S2 a p.x p.y))) →
      c ≤ safetyToOut ty (of a) p) := by
  obtain ⟨-, -, w3, w4⟩ := C76_safety (s := a.s) hv.d hv.d' p
  have base : safetyToOut ty (of a) p = takeLess (a.d < 2 * π) ((Wedge.make a.d a.s).safetyToOut p)
      (takeLess (0 < a.rmin) (rad p - a.rmin) (takeLess True (a.rmax - rad p) (a.z - |p.z|))) := by
    unfold safetyToOut
    simp only [rad_eq, of_rmax, of_z, of_rmin hv.rmin, rminT_iff hv hf, phiT_iff hf, of_wedge]
  rw [base]
  have wval : (Wedge.make a.d a.s).safetyToOut p =
      (open Classical in if a.d < π then min (S1 a p.x p.y) (S2 a p.x p.y) else max (S1 a p.x p.y) (S2 a p.x p.y)) := by
    unfold Wedge.safetyToOut
    have e1 : p.x * (Wedge.make a.d a.s).n1x + p.y * (Wedge.make a.d a.s).n1y = S1 a p.x p.y := by
      show p.x * -sin a.s + p.y * cos a.s = _; unfold S1; ring
    have e2 : p.x * (Wedge.make a.d a.s).n2x + p.y * (Wedge.make a.d a.s).n2y = S2 a p.x p.y := by
      show p.x * sin (a.s + a.d) + p.y * -cos (a.s + a.d) = _; unfold S2; ring
    simp only [e1, e2, Wedge.make_dphi]
  refine ⟨?_, ?_, ?_⟩
  · intro q hq
    have h1 := abs_le.mp (abs_rad_sub_le p q)
    have h2 := V3.abs_z_le_dist p q
    have h3 := abs_sub_abs_le_abs_sub q.z p.z
    rw [abs_sub_comm] at h3
    by_cases c1 : |q.z| ≤ a.z
    · by_cases c2 : rad q ≤ a.rmax
      · by_cases c3 : a.rmin ≤ rad q
        · have c4 : ¬ Sector a.s a.d q.x q.y := fun h => hq ⟨c1, c3, c2, h⟩
          have hd : a.d < 2 * π := by
            by_contra hc
            apply c4
            rw [le_antisymm hv.d' (not_lt.mp hc)]
            exact sector_full _ _ _
          exact (takeLess_le hd).trans (w4 q c4)
        · have h0 : 0 < a.rmin := (rad_nonneg q).trans_lt (not_le.mp c3)
          exact takeLess_le'.trans ((takeLess_le h0).trans (by linarith))
      · exact takeLess_le'.trans (takeLess_le'.trans ((takeLess_le trivial).trans (by linarith)))
    · exact takeLess_le'.trans (takeLess_le'.trans (takeLess_le'.trans (by linarith)))
  · intro hc
    refine le_takeLess (fun _ => w3.mpr hc.phi) (le_takeLess (fun _ => ?_) (le_takeLess (fun _ => ?_) ?_))
    · linarith [hc.lo]
    · linarith [hc.hi]
    · linarith [hc.z]
  · intro c h1 h2 h3 h4
    refine le_takeLess (fun hd => ?_) (le_takeLess h3 (le_takeLess (fun _ => h2) h1))
    rw [wval]
    rcases h4 hd with ⟨h5, h6, h7⟩ | ⟨h5, h6⟩
    · rw [ite_pos' h5]; exact le_min h6 h7
    · rw [ite_neg' (not_lt.mpr h5)]; exact le_max_iff.mpr h6

example : 0 < safetyToOut ⟨false, .smaller⟩ (of quarter) ⟨1, 1, 0⟩ := by
  have hp := pi_pos
  have hr : 1 + 1 / 10 ≤ rad ⟨1, 1, 0⟩ ∧ rad ⟨1, 1, 0⟩ ≤ 2 - 1 / 10 := by
    rw [le_rad (by norm_num), rad_le (by norm_num)]
    norm_num
  have := (C78_safety_out quarter_valid quarter_fits ⟨1, 1, 0⟩).2.2 (1 / 10) (by norm_num [quarter])
    (by show _ ≤ (2 : ℝ) - _; linarith) (fun _ => by show _ ≤ _ - (1 : ℝ); linarith) (fun _ => .inl ⟨by simp only [quarter]; linarith, ?_, ?_⟩)
  · linarith
  · norm_num [S1, quarter]
  · norm_num [S2, quarter]

end Tube
end VecGeom
