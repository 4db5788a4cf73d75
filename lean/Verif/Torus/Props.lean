import Verif.Torus.Lemmas
import Verif.Wedge.Props

/-!
# Properties of tori: containment and safeties
-/

namespace VecGeom
namespace Torus

open Real

theorem le_of_sq {x r t : ℝ} (hr : 0 ≤ r) (ht : 0 < t) (h : x ^ 2 ≤ t * r + r * r) : x ≤ r + t / 2 :=
  le_of_sq_le_sq (by nlinarith) (by linarith)

theorem ge_of_sq {x r t : ℝ} (hx : 0 ≤ x) (ht : 0 < t) (h : -t * r + r * r ≤ x ^ 2) : r - t ≤ x := by
  rcases le_or_gt r t with h1 | h1
  · linarith
  · exact le_of_sq_le_sq (by nlinarith) hx

section
variable {a : Par} (hv : a.Valid)
include hv

theorem outside_iff (p : V3) : CompletelyOutside true true (of a) p ↔
    tol * a.rmax + a.rmax * a.rmax < ringDist a.rtor p ^ 2 ∨ ringDist a.rtor p ^ 2 < -tol * a.rmin + a.rmin * a.rmin ∨
      (a.d < 2 * π ∧ ¬ Sector a.s a.d p.x p.y ∧
        ¬ ∃ h, |h| < kTolerance ∧ (AboveRay a.s h p.x p.y ∨ AboveRay (a.s + a.d) h p.x p.y)) := by
  unfold CompletelyOutside
  rw [radsq_eq]
  have hw : (of a).wedge.CompletelyOutside true p ↔ (¬ Sector a.s a.d p.x p.y ∧
        ¬ ∃ h, |h| < kTolerance ∧ (AboveRay a.s h p.x p.y ∨ AboveRay (a.s + a.d) h p.x p.y)) := by
    show (Wedge.make a.d a.s).Out p ∧ (true = true → ¬ ((Wedge.make a.d a.s).IsOnSurface1 p ∨ (Wedge.make a.d a.s).IsOnSurface2 p)) ↔ _
    rw [Wedge.out_iff hv.d hv.d', Wedge.on1_iff, Wedge.on2_iff]
    constructor
    · rintro ⟨h1, h2⟩
      refine ⟨h1, ?_⟩
      rintro ⟨h, hh, h3 | h3⟩
      · exact h2 rfl (Or.inl ⟨h, hh, h3⟩)
      · exact h2 rfl (Or.inr ⟨h, hh, h3⟩)
    · rintro ⟨h1, h2⟩
      refine ⟨h1, fun _ => ?_⟩
      rintro (⟨h, hh, h3⟩ | ⟨h, hh, h3⟩)
      · exact h2 ⟨h, hh, Or.inl h3⟩
      · exact h2 ⟨h, hh, Or.inr h3⟩
  rw [hw]
  show (ringDist a.rtor p ^ 2 > tol * a.rmax + a.rmax * a.rmax ∨ ringDist a.rtor p ^ 2 < -tol * a.rmin + a.rmin * a.rmin ∨
    (a.d < 2 * π ∧ true = true) ∧ _) ↔ _
  simp only [and_true, gt_iff_lt]

theorem inside_iff (p : V3) : CompletelyInside true (of a) p ↔
    ringDist a.rtor p ^ 2 < -tol * a.rmax + a.rmax * a.rmax ∧ tol * a.rmin + a.rmin * a.rmin < ringDist a.rtor p ^ 2 ∧
      (a.d < 2 * π → Sector a.s a.d p.x p.y ∧
        ¬ ∃ h, |h| < kTolerance ∧ (AboveRay a.s h p.x p.y ∨ AboveRay (a.s + a.d) h p.x p.y)) := by
  have ht := tol_pos
  have hm : 0 < a.rmax := hv.rmin.trans_lt hv.rmax
  have ho : (of a).wedge.OnSurface p ↔ ∃ h, |h| < kTolerance ∧ (AboveRay a.s h p.x p.y ∨ AboveRay (a.s + a.d) h p.x p.y) := by
    show ((Wedge.make a.d a.s).IsOnSurface1 p ∨ (Wedge.make a.d a.s).IsOnSurface2 p) ↔ _
    rw [Wedge.on1_iff, Wedge.on2_iff]
    constructor
    · rintro (⟨h, hh, h3⟩ | ⟨h, hh, h3⟩)
      · exact ⟨h, hh, Or.inl h3⟩
      · exact ⟨h, hh, Or.inr h3⟩
    · rintro ⟨h, hh, h3 | h3⟩
      · exact Or.inl ⟨h, hh, h3⟩
      · exact Or.inr ⟨h, hh, h3⟩
  have hw : (of a).wedge.CompletelyInside p ↔ (Sector a.s a.d p.x p.y ∧
        ¬ ∃ h, |h| < kTolerance ∧ (AboveRay a.s h p.x p.y ∨ AboveRay (a.s + a.d) h p.x p.y)) := by
    unfold Wedge.CompletelyInside Wedge.CompletelyOutside
    rw [ho, show (of a).wedge = Wedge.make a.d a.s from rfl, Wedge.out_iff hv.d hv.d']
    tauto
  unfold CompletelyInside
  simp only [radsq_eq]
  rw [hw]
  show (if ringDist a.rtor p ^ 2 > tol * a.rmax + a.rmax * a.rmax then ringDist a.rtor p ^ 2 < -tol * a.rmax + a.rmax * a.rmax
    else if ringDist a.rtor p ^ 2 < -tol * a.rmin + a.rmin * a.rmin then
      ringDist a.rtor p ^ 2 < -tol * a.rmax + a.rmax * a.rmax ∧ ringDist a.rtor p ^ 2 > tol * a.rmin + a.rmin * a.rmin
    else (ringDist a.rtor p ^ 2 < -tol * a.rmax + a.rmax * a.rmax ∧ ringDist a.rtor p ^ 2 > tol * a.rmin + a.rmin * a.rmin) ∧
      (a.d < 2 * π ∧ True → _)) ↔ _
  have h1 := mul_pos ht hm
  have h2 := mul_nonneg ht.le hv.rmin
  generalize ringDist a.rtor p ^ 2 = x
  by_cases c1 : x > tol * a.rmax + a.rmax * a.rmax
  · rw [if_pos c1]
    constructor
    · intro h; nlinarith
    · intro h; exact h.1
  · rw [if_neg c1]
    by_cases c2 : x < -tol * a.rmin + a.rmin * a.rmin
    · rw [if_pos c2]
      constructor
      · rintro ⟨-, h⟩; nlinarith
      · rintro ⟨-, h, -⟩; nlinarith
    · rw [if_neg c2]
      simp only [and_true, gt_iff_lt]
      tauto

/-- C176: containment in a full torus holds on the torus, and fails farther than a tolerance from it. -/
theorem C176_contains_partial (hd : a.d = 2 * π) (p : V3) :
    (a.Closed p → contains (of a) p = true) ∧
    (contains (of a) p = true → a.rmin - tol ≤ ringDist a.rtor p ∧ ringDist a.rtor p ≤ a.rmax + tol / 2 ∧ Sector a.s a.d p.x p.y) := by
  have ht := tol_pos
  have hm : 0 < a.rmax := hv.rmin.trans_lt hv.rmax
  have e : contains (of a) p = true ↔ ¬ (tol * a.rmax + a.rmax * a.rmax < ringDist a.rtor p ^ 2 ∨
      ringDist a.rtor p ^ 2 < -tol * a.rmin + a.rmin * a.rmin) := by
    unfold contains
    simp only [decide_eq_true_iff]
    unfold CompletelyOutside
    rw [radsq_eq]
    show ¬ (ringDist a.rtor p ^ 2 > tol * a.rmax + a.rmax * a.rmax ∨ ringDist a.rtor p ^ 2 < -tol * a.rmin + a.rmin * a.rmin ∨
      (a.d < 2 * π ∧ false = true) ∧ _) ↔ _
    simp
  rw [e]
  push Not
  constructor
  · rintro ⟨h1, h2, -⟩
    have := ringDist_nonneg a.rtor p
    have h0 := hv.rmin
    constructor
    · nlinarith
    · nlinarith
  · rintro ⟨h1, h2⟩
    exact ⟨ge_of_sq (ringDist_nonneg _ _) ht h2, le_of_sq hm.le ht h1, by rw [hd]; exact sector_full _ _ _⟩

/-- C176: the classification of a point.  Inside is inside, outside is outside, what is reported as surface is near it, and the
surface is reported as such. -/
theorem C176_inside (p : V3) :
    (inside (of a) p = .inside → a.Closed p) ∧
    (inside (of a) p = .outside → ¬ a.Closed p) ∧
    (inside (of a) p = .surface →
      a.rmin - tol ≤ ringDist a.rtor p ∧ ringDist a.rtor p ≤ a.rmax + tol / 2 ∧
      (Sector a.s a.d p.x p.y ∨ ∃ h, |h| < kTolerance ∧ (AboveRay a.s h p.x p.y ∨ AboveRay (a.s + a.d) h p.x p.y)) ∧
      (a.rmax - tol ≤ ringDist a.rtor p ∨ ringDist a.rtor p ≤ a.rmin + tol / 2 ∨
        (a.d < 2 * π ∧ ∃ h, |h| < kTolerance ∧ (AboveRay a.s h p.x p.y ∨ AboveRay (a.s + a.d) h p.x p.y)))) ∧
    (a.Closed p → (ringDist a.rtor p = a.rmax ∨ ringDist a.rtor p = a.rmin ∨
      (a.d < 2 * π ∧ (AboveRay a.s 0 p.x p.y ∨ AboveRay (a.s + a.d) 0 p.x p.y))) → inside (of a) p = .surface) := by
  have ht := tol_pos
  have hk := kTolerance_pos
  have hm : 0 < a.rmax := hv.rmin.trans_lt hv.rmax
  have h0 := hv.rmin
  have hx := ringDist_nonneg a.rtor p
  have hi := inside_iff hv p
  have ho := outside_iff hv p
  have hq : a.Closed p → ¬ CompletelyOutside true true (of a) p := by
    rintro ⟨c1, c2, c3⟩ h
    rcases ho.mp h with h | h | ⟨-, h, -⟩
    · nlinarith
    · nlinarith
    · exact h c3
  have hc : CompletelyInside true (of a) p → a.Closed p := by
    intro h
    obtain ⟨h1, h2, h3⟩ := hi.mp h
    exact ⟨by nlinarith, by nlinarith, (wedge_closed hv p).mp (fun h => (h3 h).1)⟩
  unfold inside
  refine ⟨?_, ?_, ?_, ?_⟩
  · intro h
    by_cases c1 : CompletelyInside true (of a) p
    · exact hc c1
    · rw [if_neg c1] at h
      split at h <;> simp at h
  · intro h
    by_cases c1 : CompletelyInside true (of a) p
    · rw [if_pos c1] at h; simp at h
    · rw [if_neg c1] at h
      by_cases c2 : CompletelyOutside true true (of a) p
      · exact fun c => hq c c2
      · rw [if_neg c2] at h; simp at h
  · intro h
    by_cases c1 : CompletelyInside true (of a) p
    · rw [if_pos c1] at h; simp at h
    · rw [if_neg c1] at h
      by_cases c2 : CompletelyOutside true true (of a) p
      · rw [if_pos c2] at h; simp at h
      · rw [ho] at c2
        rw [hi] at c1
        push Not at c2
        obtain ⟨d1, d2, d3⟩ := c2
        refine ⟨ge_of_sq hx ht d2, le_of_sq hm.le ht d1, ?_, ?_⟩
        · rcases hv.d'.lt_or_eq with e | e
          · by_cases hs : Sector a.s a.d p.x p.y
            · exact Or.inl hs
            · exact Or.inr (d3 e hs)
          · left; rw [e]; exact sector_full _ _ _
        · by_contra hcon
          push Not at hcon
          obtain ⟨e1, e2, e3⟩ := hcon
          apply c1
          refine ⟨?_, ?_, ?_⟩
          · nlinarith
          · nlinarith
          · intro e
            refine ⟨?_, ?_⟩
            · by_contra hs
              obtain ⟨h, hh, h'⟩ := d3 e hs
              rcases h' with h' | h'
              · exact (e3 e h hh).1 h'
              · exact (e3 e h hh).2 h'
            · rintro ⟨h, hh, h' | h'⟩
              · exact (e3 e h hh).1 h'
              · exact (e3 e h hh).2 h'
  · intro c hb
    rw [if_neg ?_, if_neg (hq c)]
    intro h
    obtain ⟨h1, h2, h3⟩ := hi.mp h
    rcases hb with hb | hb | ⟨hb, hb'⟩
    · rw [hb] at h1; nlinarith
    · rw [hb] at h2; nlinarith
    · refine (h3 hb).2 ⟨0, by rw [abs_zero]; exact hk, hb'⟩

/-- C177: the safety from inside is a lower bound of the distance to every point that is not in the torus; it is not negative exactly
in the torus. -/
theorem C177_out (p : V3) :
    (∀ q, ¬ a.Closed q → safetyToOut (of a) p ≤ V3.dist p q) ∧ (0 ≤ safetyToOut (of a) p ↔ a.Closed p) := by
  obtain ⟨-, -, w3, w4⟩ := C76_safety (s := a.s) hv.d hv.d' p
  have hx := ringDist_nonneg a.rtor p
  set S := (if a.rmin ≠ 0 then min (ringDist a.rtor p - a.rmin) (a.rmax - ringDist a.rtor p) else a.rmax - ringDist a.rtor p) with hS
  have s1 : S ≤ a.rmax - ringDist a.rtor p := by
    rw [hS]; split
    · exact min_le_right _ _
    · exact le_refl _
  have s2 : a.rmin ≠ 0 → S ≤ ringDist a.rtor p - a.rmin := by
    intro h; rw [hS, if_pos h]; exact min_le_left _ _
  have s3 : 0 ≤ S ↔ a.rmin ≤ ringDist a.rtor p ∧ ringDist a.rtor p ≤ a.rmax := by
    constructor
    · intro h
      refine ⟨?_, by linarith⟩
      by_cases h0 : a.rmin = 0
      · rw [h0]; exact hx
      · linarith [s2 h0]
    · rintro ⟨h1, h2⟩
      rw [hS]; split
      · exact le_min (by linarith) (by linarith)
      · linarith
  have e : safetyToOut (of a) p = if a.d < 2 * π then min ((Wedge.make a.d a.s).safetyToOut p) S else S := by
    unfold safetyToOut
    simp only [radOf_eq]
    rw [hS]
    rfl
  have e1 : safetyToOut (of a) p ≤ S := by
    rw [e]; split
    · exact min_le_right _ _
    · exact le_refl _
  have e2 : a.d < 2 * π → safetyToOut (of a) p ≤ (Wedge.make a.d a.s).safetyToOut p := by
    intro h; rw [e, if_pos h]; exact min_le_left _ _
  constructor
  · intro q hq
    have hl := abs_le.mp (ring_lip a.rtor p q)
    by_cases c1 : ringDist a.rtor q ≤ a.rmax
    · by_cases c2 : a.rmin ≤ ringDist a.rtor q
      · have hs : ¬ Sector a.s a.d q.x q.y := fun h => hq ⟨c2, c1, h⟩
        rcases hv.d'.lt_or_eq with h | h
        · exact (e2 h).trans (w4 q hs)
        · rw [h] at hs; exact absurd (sector_full _ _ _) hs
      · have h0 : a.rmin ≠ 0 := fun h => c2 (by rw [h]; exact ringDist_nonneg _ _)
        linarith [s2 h0]
    · linarith
  · constructor
    · intro h
      have := s3.mp (h.trans e1)
      exact ⟨this.1, this.2, (wedge_closed hv p).mp (fun hd => w3.mp (h.trans (e2 hd)))⟩
    · rintro ⟨h1, h2, h3⟩
      rw [e]; split
      · exact le_min (w3.mpr h3) (s3.mpr ⟨h1, h2⟩)
      · exact s3.mpr ⟨h1, h2⟩

/-- C177: the safety from outside is a lower bound of the distance to every point of the torus; it is positive exactly outside of it. -/
theorem C177_in (p : V3) :
    (∀ q, a.Closed q → safetyToIn (of a) p ≤ V3.dist p q) ∧ (0 < safetyToIn (of a) p ↔ ¬ a.Closed p) := by
  obtain ⟨w1, w2, -, -⟩ := C76_safety (s := a.s) hv.d hv.d' p
  have hx := ringDist_nonneg a.rtor p
  set S := (if a.rmin ≠ 0 then max (a.rmin - ringDist a.rtor p) (ringDist a.rtor p - a.rmax) else ringDist a.rtor p - a.rmax) with hS
  have s3 : 0 < S ↔ ringDist a.rtor p < a.rmin ∨ a.rmax < ringDist a.rtor p := by
    rw [hS]; split
    · rw [lt_max_iff]
      constructor
      · rintro (h | h)
        · left; linarith
        · right; linarith
      · rintro (h | h)
        · left; linarith
        · right; linarith
    · rename_i h0
      have h0 := not_not.mp h0
      constructor
      · intro h; right; linarith
      · rintro (h | h)
        · linarith
        · linarith
  have s4 : ∀ q, a.Closed q → S ≤ V3.dist p q := by
    rintro q ⟨h1, h2, -⟩
    have hl := abs_le.mp (ring_lip a.rtor p q)
    rw [hS]; split
    · exact max_le (by linarith) (by linarith)
    · linarith
  have e : safetyToIn (of a) p = if a.d < 2 * π ∧ Tube.rad p ≠ 0 then max ((Wedge.make a.d a.s).safetyToIn p) S else S := by
    unfold safetyToIn perp
    simp only [radOf_eq, Tube.rad_eq]
    rw [hS]
    rfl
  rw [e]
  constructor
  · intro q hq
    split
    · exact max_le (w2 q hq.phi) (s4 q hq)
    · exact s4 q hq
  · have hcl : ¬ a.Closed p ↔ (a.d < 2 * π ∧ Tube.rad p ≠ 0 ∧ ¬ Sector a.s a.d p.x p.y) ∨ 0 < S := by
      rw [s3]
      constructor
      · intro h
        by_contra hc
        push Not at hc
        obtain ⟨h1, h2, h3⟩ := hc
        refine h ⟨h2, h3, (wedge_closed hv p).mp (fun hd => ?_)⟩
        by_cases hr : Tube.rad p = 0
        · have := Tube.rad_sq p
          rw [hr] at this
          refine ⟨0, 0, le_refl _, le_refl _, hv.d.le, ?_, ?_⟩ <;> nlinarith [sq_nonneg p.x, sq_nonneg p.y]
        · exact h1 hd hr
      · rintro (⟨-, -, h⟩ | h | h) c
        · exact h c.phi
        · linarith [c.lo]
        · linarith [c.hi]
    rw [hcl]
    split
    · rename_i h
      rw [lt_max_iff, w1]
      tauto
    · rename_i h
      tauto

/-- C177: in a full torus that does not meet itself both safeties are the distances to the nearest points. -/
theorem C177_exact (hd : a.d = 2 * π) (hr : a.Ring) (p : V3) :
    (a.Closed p → ∃ q, (ringDist a.rtor q = a.rmax ∨ (0 < a.rmin ∧ ringDist a.rtor q = a.rmin)) ∧ V3.dist p q = safetyToOut (of a) p) ∧
    (¬ a.Closed p → ∃ q, a.Closed q ∧ V3.dist p q = safetyToIn (of a) p) := by
  have hm : 0 < a.rmax := hv.rmin.trans_lt hv.rmax
  have h0 := hv.rmin
  have h1 := hv.rmax
  have hr' : a.rmax ≤ a.rtor := hr
  have hx := ringDist_nonneg a.rtor p
  have hnd : ¬ (of a).dphi < 2 * π := by show ¬ a.d < 2 * π; linarith
  obtain ⟨q1, q1r, q1d, -⟩ := realise hm.le hr p
  obtain ⟨q2, q2r, q2d, -⟩ := realise h0 (h1.le.trans hr) p
  have hfull : ∀ x y, Sector a.s a.d x y := fun x y => by rw [hd]; exact sector_full _ _ _
  constructor
  · rintro ⟨c1, c2, -⟩
    have e : safetyToOut (of a) p = if a.rmin ≠ 0 then min (ringDist a.rtor p - a.rmin) (a.rmax - ringDist a.rtor p) else a.rmax - ringDist a.rtor p := by
      unfold safetyToOut
      simp only [radOf_eq]
      rw [if_neg hnd]
      rfl
    rw [e]
    rw [abs_of_nonpos (by linarith)] at q1d
    rw [abs_of_nonneg (by linarith)] at q2d
    by_cases hz : a.rmin ≠ 0
    · rw [if_pos hz]
      rcases le_total (ringDist a.rtor p - a.rmin) (a.rmax - ringDist a.rtor p) with h | h
      · exact ⟨q2, Or.inr ⟨lt_of_le_of_ne h0 (Ne.symm hz), q2r⟩, by rw [min_eq_left h, q2d]⟩
      · exact ⟨q1, Or.inl q1r, by rw [min_eq_right h, q1d]; ring⟩
    · rw [if_neg hz]
      exact ⟨q1, Or.inl q1r, by rw [q1d]; ring⟩
  · intro hc
    have e : safetyToIn (of a) p = if a.rmin ≠ 0 then max (a.rmin - ringDist a.rtor p) (ringDist a.rtor p - a.rmax) else ringDist a.rtor p - a.rmax := by
      unfold safetyToIn
      simp only [radOf_eq]
      rw [if_neg (show ¬ ((of a).dphi < 2 * π ∧ perp p ≠ 0) from fun h => hnd h.1)]
      rfl
    rw [e]
    rcases lt_or_ge a.rmax (ringDist a.rtor p) with h | h
    · rw [abs_of_nonneg (by linarith)] at q1d
      refine ⟨q1, ⟨by rw [q1r]; exact h1.le, q1r.le, hfull _ _⟩, ?_⟩
      rw [q1d]; split
      · rw [max_eq_right (by linarith)]
      · rfl
    · have h' : ringDist a.rtor p < a.rmin := by
        by_contra hcon
        exact hc ⟨not_lt.mp hcon, h, hfull _ _⟩
      rw [abs_of_nonpos (by linarith)] at q2d
      refine ⟨q2, ⟨q2r.ge, by rw [q2r]; exact h1.le, hfull _ _⟩, ?_⟩
      rw [q2d, if_pos (show a.rmin ≠ 0 by linarith), max_eq_left (by linarith)]; ring

end

/-- A full ring with a hole. -/
noncomputable def ring : Par := ⟨1, 2, 5, 0, 2 * π⟩
/-- A solid half ring. -/
noncomputable def half : Par := ⟨0, 2, 5, 0, π⟩

theorem ring_valid : ring.Valid :=
  ⟨by norm_num [ring], by norm_num [ring], by norm_num [ring], by show (0 : ℝ) < 2 * π; positivity, le_refl _⟩
theorem half_valid : half.Valid :=
  ⟨by norm_num [half], by norm_num [half], by norm_num [half], by show (0 : ℝ) < π; positivity, by show π ≤ 2 * π; linarith [pi_pos]⟩

theorem rad_x {x z : ℝ} (h : 0 ≤ x) : Tube.rad ⟨x, 0, z⟩ = x := by
  unfold Tube.rad
  show √(x ^ 2 + 0 ^ 2) = x
  rw [show x ^ 2 + (0 : ℝ) ^ 2 = x ^ 2 by ring, sqrt_sq h]
theorem rad_y {y z : ℝ} : Tube.rad ⟨0, y, z⟩ = |y| := by
  unfold Tube.rad
  show √((0 : ℝ) ^ 2 + y ^ 2) = |y|
  rw [show (0 : ℝ) ^ 2 + y ^ 2 = y ^ 2 by ring, sqrt_sq_eq_abs]

theorem ringDist_x {R x : ℝ} (h : 0 ≤ x) : ringDist R ⟨x, 0, 0⟩ = |x - R| := by
  unfold ringDist
  rw [rad_x h]
  show √((x - R) ^ 2 + 0 ^ 2) = _
  rw [show (x - R) ^ 2 + (0 : ℝ) ^ 2 = (x - R) ^ 2 by ring, sqrt_sq_eq_abs]

/-- The hypotheses are met and the torus has points of every kind. -/
example : contains (of ring) ⟨6.5, 0, 0⟩ = true ∧ ¬ ring.Closed ⟨5, 0, 0⟩ ∧ ring.Ring := by
  refine ⟨((C176_contains_partial ring_valid rfl _).1 ⟨?_, ?_, sector_full _ _ _⟩), ?_, by norm_num [Par.Ring, ring]⟩
  · show (1 : ℝ) ≤ ringDist 5 _; rw [ringDist_x (by norm_num)]; norm_num [abs_of_nonneg]
  · show ringDist 5 _ ≤ (2 : ℝ); rw [ringDist_x (by norm_num)]; norm_num [abs_of_nonneg]
  · rintro ⟨h, -, -⟩
    have h : (1 : ℝ) ≤ ringDist 5 ⟨5, 0, 0⟩ := h
    rw [ringDist_x (by norm_num)] at h
    norm_num at h

example : safetyToOut (of ring) ⟨6.5, 0, 0⟩ = 0.5 := by
  unfold safetyToOut
  simp only [radOf_eq]
  rw [if_neg (show ¬ (of ring).dphi < 2 * π from lt_irrefl _), if_pos (show (of ring).rmin ≠ 0 from one_ne_zero)]
  show min (ringDist 5 ⟨6.5, 0, 0⟩ - 1) (2 - ringDist 5 ⟨6.5, 0, 0⟩) = 0.5
  rw [ringDist_x (by norm_num)]
  norm_num [abs_of_nonneg]

/-- C176, finding: `Contains` leaves the phi sector out: the half ring with azimuths from 0 to π contains the point (0, -5, 0), which
`Inside` reports as outside, and from which the half ring is farther away than its radius. -/
theorem C176_contains_counterexample :
    contains (of half) ⟨0, -5, 0⟩ = true ∧ inside (of half) ⟨0, -5, 0⟩ = .outside ∧ ¬ half.Closed ⟨0, -5, 0⟩ ∧
    5 ≤ safetyToIn (of half) ⟨0, -5, 0⟩ := by
  have hp := pi_pos
  have hk := kTolerance_pos
  have ht := tol_pos
  have hr : ringDist 5 ⟨0, -5, 0⟩ = 0 := by
    unfold ringDist
    rw [rad_y]
    norm_num
  have hs : ¬ Sector 0 π 0 (-5) := by
    rw [sector_big (le_refl π) (by linarith)]
    simp
  have hon : ¬ ∃ h, |h| < kTolerance ∧ (AboveRay 0 h 0 (-5) ∨ AboveRay (0 + π) h 0 (-5)) := by
    rintro ⟨h, hh, ⟨r, hr, h1, h2⟩ | ⟨r, hr, h1, h2⟩⟩
    · simp at h2
      rw [← h2, abs_of_nonpos (by norm_num)] at hh
      unfold kTolerance at hh; norm_num at hh
    · simp at h2
      rw [← h2] at hh
      rw [abs_of_nonneg (by norm_num)] at hh
      unfold kTolerance at hh; norm_num at hh
  have hout : CompletelyOutside true true (of half) ⟨0, -5, 0⟩ :=
    (outside_iff half_valid _).mpr (Or.inr (Or.inr ⟨by show π < 2 * π; linarith, hs, hon⟩))
  refine ⟨?_, ?_, fun h => hs h.phi, ?_⟩
  · unfold contains
    simp only [decide_eq_true_iff]
    unfold CompletelyOutside
    rw [radsq_eq]
    show ¬ (ringDist 5 ⟨0, -5, 0⟩ ^ 2 > tol * 2 + 2 * 2 ∨ ringDist 5 ⟨0, -5, 0⟩ ^ 2 < -tol * 0 + 0 * 0 ∨ (π < 2 * π ∧ false = true) ∧ _)
    rw [hr]
    rintro (h | h | ⟨⟨-, h⟩, -⟩)
    · nlinarith
    · norm_num at h
    · simp at h
  · unfold inside
    rw [if_neg ?_, if_pos hout]
    intro h
    obtain ⟨-, -, h⟩ := (inside_iff half_valid _).mp h
    exact hs (h (by show π < 2 * π; linarith)).1
  · unfold safetyToIn
    rw [if_pos ⟨by show π < 2 * π; linarith, by unfold perp; rw [Tube.rad_eq, rad_y]; norm_num⟩]
    refine le_trans ?_ (le_max_left _ _)
    show (5 : ℝ) ≤ (Wedge.make π 0).safetyToIn ⟨0, -5, 0⟩
    unfold Wedge.safetyToIn Wedge.make
    norm_num

/-- C176, finding: the points on the central circle of a solid torus are reported as surface, although they are as far from the
surface as a point can be. -/
theorem C176_centre_counterexample : inside (of half) ⟨0, 5, 0⟩ = .surface ∧ safetyToOut (of half) ⟨0, 5, 0⟩ = 2 := by
  have hp := pi_pos
  have hk := kTolerance_pos
  have hr : ringDist 5 ⟨0, 5, 0⟩ = 0 := by
    unfold ringDist
    rw [rad_y]
    norm_num
  have hs : Sector 0 π 0 5 := by
    rw [sector_big (le_refl π) (by linarith)]
    left; simp
  constructor
  · exact (C176_inside half_valid _).2.2.2 ⟨by show (0 : ℝ) ≤ ringDist 5 _; rw [hr], by show ringDist 5 _ ≤ (2 : ℝ); rw [hr]; norm_num, hs⟩
      (Or.inr (Or.inl hr))
  · unfold safetyToOut
    rw [if_pos (show (of half).dphi < 2 * π by show π < 2 * π; linarith), if_neg (show ¬ (of half).rmin ≠ 0 from fun h => h rfl), radOf_eq]
    show min ((Wedge.make π 0).safetyToOut ⟨0, 5, 0⟩) (2 - ringDist 5 ⟨0, 5, 0⟩) = 2
    rw [hr]
    unfold Wedge.safetyToOut Wedge.make
    norm_num

end Torus
end VecGeom
