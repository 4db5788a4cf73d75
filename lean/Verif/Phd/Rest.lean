import Verif.Phd.Props

/-!
# Polyhedra: points between planes at the same height; a cutout that `Contains` and `Inside` treat differently
-/

namespace VecGeom
namespace Phd

open Quad Real

variable {t : Poly} {p : V3}

/-! ## Planes at the same height -/

/-- The distance of the point from the axis, measured upright on side `j` of segment `i`. -/
noncomputable def sideRadius (t : Poly) (i j : ℕ) (p : V3) : ℝ := |p.dot ((segAt t i).vout j)|

/-- C199: at two planes of the same height the points between the radii of one of the planes are contained; points in no phi section are not. -/
theorem C199_border {i : ℕ} (hi : i < t.segs.length) (hs : sameZ t i = true) (hz : findZSegment t p.z = i) :
    (contains t p = true ↔ t.bounds p = true ∧ ∃ j : ℕ, findPhiSegment t p = j ∧
      (t.rMin.getD i 0 ≤ sideRadius t i j p ∧ sideRadius t i j p ≤ t.rMax.getD i 0 ∨
        t.rMin.getD (i + 1) 0 ≤ sideRadius t i j p ∧ sideRadius t i j p ≤ t.rMax.getD (i + 1) 0)) := by
  unfold contains
  by_cases hb : t.bounds p = true
  · simp only [hb, Bool.not_true, Bool.false_eq_true, if_false, true_and]
    rw [hz, if_neg (not_not.2 ⟨by omega, by exact_mod_cast hi⟩), Int.toNat_natCast, if_pos hs]
    by_cases hf : findPhiSegment t p < 0
    · rw [if_pos hf]
      simp only [Bool.false_eq_true, false_iff]
      rintro ⟨j, hj, -⟩
      omega
    · rw [if_neg hf]
      obtain ⟨j, hj⟩ : ∃ j : ℕ, findPhiSegment t p = j := ⟨_, (Int.toNat_of_nonneg (by omega)).symm⟩
      rw [hj, Int.toNat_natCast]
      simp only [Bool.or_eq_true, Bool.and_eq_true, decide_eq_true_iff, ge_iff_le]
      constructor
      · intro hh
        exact ⟨j, rfl, hh⟩
      · rintro ⟨j', hj', hh⟩
        have : j = j' := by exact_mod_cast hj'
        subst this
        exact hh
  · simp [hb]

/-- C200: at two planes of the same height, without cutout: outside are the points that are more than the tolerance away from the rings of both planes,
inside those that are more than the tolerance within both rings. -/
theorem C200_border (hp : t.hasPhi = false) {i j : ℕ} (hj : findPhiSegment t p = j) :
    let r := sideRadius t i j p
    let a1 := t.rMin.getD i 0
    let b1 := t.rMax.getD i 0
    let a2 := t.rMin.getD (i + 1) 0
    let b2 := t.rMax.getD (i + 1) 0
    (insideBorder t p i = .outside ↔ (r ≤ a1 - kTolerance ∨ b1 + kTolerance ≤ r) ∧ (r ≤ a2 - kTolerance ∨ b2 + kTolerance ≤ r)) ∧
    (insideBorder t p i = .inside ↔ (a1 + kTolerance ≤ r ∧ r ≤ b1 - kTolerance) ∧ (a2 + kTolerance ≤ r ∧ r ≤ b2 - kTolerance)) := by
  have htol := kTolerance_pos
  intro r a1 b1 a2 b2
  unfold insideBorder
  simp only [hj, hp]
  rw [if_neg (by omega)]
  rw [Int.toNat_natCast]
  simp only [Bool.false_eq_true, if_false, r, a1, b1, a2, b2, sideRadius]
  clear r a1 b1 a2 b2
  generalize |p.dot ((segAt t i).vout j)| = r
  generalize t.rMin.getD i 0 = a1
  generalize t.rMax.getD i 0 = b1
  generalize t.rMin.getD (i + 1) 0 = a2
  generalize t.rMax.getD (i + 1) 0 = b2
  constructor
  · split
    · rename_i h
      split
      · simp only [reduceCtorEq, false_iff]
        rintro ⟨h1 | h1, -⟩ <;> linarith [h.1.1, h.1.2]
      · simp only [reduceCtorEq, false_iff]
        rintro ⟨h1 | h1, -⟩ <;> linarith [h.1.1, h.1.2]
    · rename_i h
      split
      · rename_i h'
        simp only [true_iff]
        obtain ⟨x, y⟩ := h'
        constructor
        · by_contra hc; push Not at hc; exact x ⟨hc.1, hc.2⟩
        · by_contra hc; push Not at hc; exact y ⟨hc.1, hc.2⟩
      · rename_i h'
        simp only [reduceCtorEq, false_iff]
        rintro ⟨x, y⟩
        refine h' ⟨fun hh => ?_, fun hh => ?_⟩
        · rcases x with x | x <;> linarith [hh.1, hh.2]
        · rcases y with y | y <;> linarith [hh.1, hh.2]
  · split
    · rename_i h
      split
      · rename_i h'
        simp only [reduceCtorEq, false_iff]
        rintro ⟨⟨x1, x2⟩, y1, y2⟩
        rcases h' with h' | h' | h' | h' <;> linarith
      · rename_i h'
        simp only [true_iff]
        push Not at h'
        exact ⟨⟨h'.1, h'.2.1⟩, h'.2.2.1, h'.2.2.2⟩
    · rename_i h
      have key : ¬ ((a1 + kTolerance ≤ r ∧ r ≤ b1 - kTolerance) ∧ (a2 + kTolerance ≤ r ∧ r ≤ b2 - kTolerance)) := by
        rintro ⟨⟨x1, x2⟩, y1, y2⟩
        exact h ⟨⟨by linarith, by linarith⟩, by linarith, by linarith⟩
      split
      · simp only [reduceCtorEq, false_iff]; exact key
      · simp only [reduceCtorEq, false_iff]; exact key

/-! ## Examples -/

/-- Three sides at a distance of 200 from the axis, over the angles from 45 to 315 degrees, between the heights -1 and 1.  The bounds are those points of
the bounding tube (its angles are larger by 1e-7) that are 0.5e-7 or more from the end of its angles; the radii do not matter here. -/
noncomputable def cut : Poly where
  z := [-1, 1]
  rMin := [0, 0]
  rMax := [200, 200]
  segs := [⟨⟨[⟨⟨0, 1, 0⟩, -200⟩, ⟨⟨-1, 0, 0⟩, -200⟩, ⟨⟨0, -1, 0⟩, -200⟩], true⟩, ⟨[], true⟩,
    ⟨[⟨⟨√2 / 2, -(√2 / 2), 0⟩, 0⟩, ⟨⟨√2 / 2, √2 / 2, 0⟩, 0⟩], false⟩, fun _ => ⟨0, 0, 1⟩⟩]
  hasPhi := true
  phiSections := []
  bounds p := by classical exact decide (|p.z| < 1 + kTolerance ∧ ¬ |p.y| < (1 - 1 / 10 ^ 7) * p.x)
  wedge _ := .inside

theorem cut_z : zAt cut 0 = -1 ∧ zAt cut 1 = 1 := ⟨rfl, rfl⟩

theorem cut_apart : Apart cut := by
  intro i hi
  have : i = 0 := by simp [cut] at hi; omega
  subst this
  rw [cut_z.1, cut_z.2]
  norm_num [kTolerance]

theorem cut_tight : Tight cut := by
  intro p hp
  have := of_decide_eq_true (p := |p.z| < 1 + kTolerance ∧ ¬ |p.y| < (1 - 1 / 10 ^ 7) * p.x) hp
  have e1 : middle cut = 0 := by unfold middle; rw [show cut.segs.length = 1 from rfl, cut_z.1, cut_z.2]; norm_num
  have e2 : halfZ cut = 1 := by unfold halfZ; rw [show cut.segs.length = 1 from rfl, cut_z.1, cut_z.2]; norm_num
  rw [e1, e2, sub_zero]
  exact this.1

theorem cut_convex : ∀ s ∈ cut.segs, s.outer.convex = true ∧ s.inner.convex = true := by
  intro s hs
  simp only [cut, List.mem_singleton] at hs
  subst hs
  exact ⟨rfl, rfl⟩

/-- C200 fails for cutouts below 180 degrees: a point in the cutout, a thousand tolerances from the phi plane, is contained and outside. -/
theorem C200_agree_counterexample : ∃ (t : Poly) (p : V3), Apart t ∧ t.z.length = t.segs.length + 1 ∧ Tight t ∧
    (∀ s ∈ t.segs, s.outer.convex = true ∧ s.inner.convex = true) ∧ (∀ s ∈ t.segs, ∀ pl ∈ s.phi.planes, pl.n.mag2 = 1 ∧ 1000 * kTolerance < pl.n.dot p + pl.d) ∧
    contains t p = true ∧ inside t p = .outside := by
  have htol := kTolerance_pos
  have h2 : (7 : ℝ) / 5 ≤ √2 := by
    rw [show (7 : ℝ) / 5 = √((7 / 5) ^ 2) by rw [sqrt_sq (by norm_num)]]
    exact sqrt_le_sqrt (by norm_num)
  have hsq : √2 * √2 = 2 := mul_self_sqrt (by norm_num)
  have hphi : ∀ s ∈ cut.segs, ∀ pl ∈ s.phi.planes, pl.n.mag2 = 1 ∧ 1000 * kTolerance < pl.n.dot ⟨100, 100 - 2 / 10 ^ 6, 0⟩ + pl.d := by
    intro s hs pl hpl
    simp only [cut, List.mem_singleton] at hs
    subst hs
    simp only [List.mem_cons, List.not_mem_nil, or_false] at hpl
    rcases hpl with rfl | rfl
    · refine ⟨by simp only [V3.mag2, V3.dot]; linarith, ?_⟩
      simp only [V3.dot, kTolerance]; linarith
    · refine ⟨by simp only [V3.mag2, V3.dot]; linarith, ?_⟩
      simp only [V3.dot, kTolerance]; linarith
  have hbound : cut.bounds ⟨100, 100 - 2 / 10 ^ 6, 0⟩ = true := by
    refine decide_eq_true ⟨by rw [abs_zero]; linarith, ?_⟩
    simp only
    rw [abs_of_pos (by norm_num)]
    norm_num
  refine ⟨cut, ⟨100, 100 - 2 / 10 ^ 6, 0⟩, cut_apart, rfl, cut_tight, cut_convex, hphi, ?_, ?_⟩
  · rw [C199_contains_partial cut_apart rfl cut_convex]
    refine ⟨hbound, 0, _, rfl, ?_, ?_, ?_, Or.inl rfl, fun _ h => (by cases h)⟩
    · rw [cut_z.1]; simp only; linarith
    · rw [cut_z.2]; norm_num [kTolerance]
    · intro pl hpl
      simp only [List.mem_cons, List.not_mem_nil, or_false] at hpl
      rcases hpl with rfl | rfl | rfl <;> norm_num [V3.dot]
  · have hseg : findZSegment cut 0 = ((0 : ℕ) : ℤ) := by
      refine (C199_segment_apart cut_apart (by simp [cut]) 0).2 ?_
      rw [cut_z.1, cut_z.2]
      norm_num [kTolerance]
    have hcl : clampIndex cut 0 = ((0 : ℕ) : ℤ) := by
      unfold clampIndex
      rw [hseg]
      simp [cut]
    unfold inside
    simp only [hbound, Bool.not_true, Bool.false_eq_true, if_false]
    rw [cut_apart.sameZ]
    simp only [Bool.false_eq_true, if_false]
    rw [hcl, Int.toNat_natCast]
    have ho : (segAt cut 0).outer.inside ⟨100, 100 - 2 / 10 ^ 6, 0⟩ = .inside := by
      refine (C193_inside rfl _).2.2 ?_
      intro pl hpl
      have hpl' : pl ∈ [Plane.mk ⟨0, 1, 0⟩ (-200), ⟨⟨-1, 0, 0⟩, -200⟩, ⟨⟨0, -1, 0⟩, -200⟩] := hpl
      simp only [List.mem_cons, List.not_mem_nil, or_false] at hpl'
      rcases hpl' with rfl | rfl | rfl <;> norm_num [V3.dot, kTolerance]
    have hi : (segAt cut 0).inner.planes.isEmpty = true := rfl
    have hph : (segAt cut 0).phi.inside ⟨100, 100 - 2 / 10 ^ 6, 0⟩ = .outside := by
      refine (C193_inside_any rfl _).2.2 ?_
      intro pl hpl
      have := (hphi (segAt cut 0) (by simp [segAt, cut]) pl hpl).2
      linarith
    rw [if_neg (not_not.2 ho)]
    simp only [hi, Bool.not_true, Bool.false_and, Bool.false_eq_true, if_false, hph]
    rw [if_pos (by simp [cut])]

/-- A point on the other side is inside. -/
example : inside cut ⟨-100, 0, 0⟩ = .inside := by
  have htol := kTolerance_pos
  have h2 : 0 < √2 := by positivity
  have h3 : (7 : ℝ) / 5 ≤ √2 := by
    rw [show (7 : ℝ) / 5 = √((7 / 5) ^ 2) by rw [sqrt_sq (by norm_num)]]
    exact sqrt_le_sqrt (by norm_num)
  rw [C200_inside cut_apart rfl cut_tight cut_convex]
  rw [show cut.segs.length = 1 from rfl, cut_z.1, cut_z.2]
  refine ⟨decide_eq_true ⟨by rw [abs_zero]; linarith, by norm_num⟩, by norm_num [kTolerance], by norm_num [kTolerance], 0, _, rfl, ?_, ?_, ?_, Or.inl rfl, fun _ => ?_⟩
  · rw [cut_z.1]; simp only; linarith
  · rw [cut_z.2]; norm_num [kTolerance]
  · intro pl hpl
    simp only [List.mem_cons, List.not_mem_nil, or_false] at hpl
    rcases hpl with rfl | rfl | rfl <;> norm_num [V3.dot, kTolerance]
  · refine ⟨_, List.mem_cons_self, ?_⟩
    simp only [V3.dot, kTolerance]
    linarith

/-- Two planes at the same height: the radius jumps from 2 to 5 at height 0. -/
noncomputable def step : Poly where
  z := [-1, 0, 0, 1]
  rMin := [0, 0, 0, 0]
  rMax := [2, 2, 5, 5]
  segs := List.replicate 3 ⟨⟨[], true⟩, ⟨[], true⟩, ⟨[], true⟩, fun _ => ⟨1, 0, 0⟩⟩
  hasPhi := false
  phiSections := [⟨0, 1, 0⟩, ⟨0, -1, 0⟩]
  bounds _ := true
  wedge _ := .inside

example : sameZ step 1 = true ∧ findZSegment step 0 = (1 : ℕ) ∧ findPhiSegment step ⟨3, 0, 0⟩ = (0 : ℕ) ∧ contains step ⟨3, 0, 0⟩ = true := by
  have htol := kTolerance_pos
  have h1 : sameZ step 1 = true := decide_eq_true ⟨by norm_num, by simp [step], by simp [zAt, step]⟩
  have h2 : findZSegment step 0 = (1 : ℕ) := by
    unfold findZSegment
    simp only [step, findZ]
    rw [if_pos (by norm_num [kTolerance]), if_neg (by linarith), if_pos (by linarith)]
    norm_num
  have h3 : findPhiSegment step ⟨3, 0, 0⟩ = (0 : ℕ) := by
    unfold findPhiSegment
    simp only [step, findPhi]
    rw [if_pos (by norm_num [V3.dot, kTolerance])]
    rfl
  refine ⟨h1, h2, h3, (C199_border (by simp [step]) h1 h2).2 ⟨rfl, 0, h3, Or.inr ?_⟩⟩
  norm_num [sideRadius, segAt, step, V3.dot]

end Phd
end VecGeom
