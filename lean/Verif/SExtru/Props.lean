import Verif.SExtru.Lemmas

/-!
# C96, C97: containment, classification and safeties of extruded polygons
-/

namespace VecGeom
namespace SExtru

open Real Polygon

variable {k n : Nat} {x y : Nat → ℝ} {lo hi : ℝ} {s : Shell}

/-- C96: `Contains` decides the solid.  For polygons not reported as convex this holds off the boundary (no boundary point within `10⁻³⁰`
straight above or below), for strictly convex ones without chopped coefficients everywhere, the lateral surface being excluded. -/
theorem C96_contains (g : Given k n x y lo hi s) {p : V3} :
    (s.poly.convex = false → Clear n (fun i => (x i, y i)) (p.x, p.y) → (contains k s p = true ↔ InSolid n (fun i => (x i, y i)) lo hi p)) ∧
    (StrictlyConvex n (fun i => (x i, y i)) → Unchopped n (fun i => (x i, y i)) → Small p →
      (contains k s p = true ↔ InSolid n (fun i => (x i, y i)) lo hi p ∧ ¬ OnBoundary n (fun i => (x i, y i)) (p.x, p.y))) := by
  obtain ⟨hp, h1, h2⟩ := g.poly
  have hz : ¬ (p.z > s.hi ∨ p.z < s.lo) ↔ lo ≤ p.z ∧ p.z ≤ hi := by
    rw [h1, h2]; push Not; tauto
  constructor
  · intro hf hc
    unfold contains InSolid
    by_cases h : p.z > s.hi ∨ p.z < s.lo
    · rw [if_pos h]
      have := mt hz.mpr (not_not.mpr h)
      simp only [Bool.false_eq_true, false_iff]
      tauto
    · rw [if_neg h, hf, if_neg (by simp), g.general hc]
      have := hz.mp h
      exact ⟨fun h => ⟨this.1, this.2, h⟩, fun h => h.2.2⟩
  · intro hconv hu hs
    have hflag := (C95_flag g.few hp).2 hconv
    have hcc := (C95_convex_partial g.few hp g.distinct (p.x, p.y) (g.bounded hs)).1 hu
    have hint : Interior n (fun i => (x i, y i)) (p.x, p.y) ↔
        Region n (fun i => (x i, y i)) (p.x, p.y) ∧ ¬ OnBoundary n (fun i => (x i, y i)) (p.x, p.y) := by
      rw [interior_iff g.n_pos]
      constructor
      · intro h
        refine ⟨Or.inr (par_inside hconv h), fun hb => ?_⟩
        obtain ⟨i, hi, h0⟩ := boundary_zero hb
        have := h i hi
        rw [h0, mul_zero] at this; exact lt_irrefl _ this
      · rintro ⟨h, hb⟩ i hi
        have hw := (region_iff g.distinct hconv _).mp h
        by_contra hcon
        have hall : ∀ j, j < n → 0 ≤ sgn n (fun i => (x i, y i)) * side (x j, y j) (x ((j + 1) % n), y ((j + 1) % n)) (p.x, p.y) := by
          intro j hj
          have h1 := hw j hj
          have h2 := root_pos g.distinct hj
          unfold depth at h1
          by_contra hneg
          exact absurd (div_neg_of_neg_of_pos (not_le.mp hneg) h2) (not_lt.mpr h1)
        exact hb (on_edge_of_line hconv hi (le_antisymm (not_lt.mp hcon) (hall i hi)) hall)
    unfold contains InSolid
    by_cases h : p.z > s.hi ∨ p.z < s.lo
    · rw [if_pos h]
      have := mt hz.mpr (not_not.mpr h)
      simp only [Bool.false_eq_true, false_iff]
      tauto
    · rw [if_neg h, hflag, if_pos rfl, hcc.1, hint]
      have := hz.mp h
      tauto

/-- Distances to the surface in terms of the planes and the boundary of the polygon. -/
theorem far_iff {v : Nat → ℝ × ℝ} {p : V3} (hin : InSolid n v lo hi p) :
    (∀ b, OnSurface n v lo hi b → kTolerance ≤ V3.dist p b) ↔
      lo + kTolerance ≤ p.z ∧ p.z ≤ hi - kTolerance ∧ ∀ b, OnBoundary n v b → kTolerance * kTolerance ≤ dist2 (p.x, p.y) b := by
  have ht : 0 < kTolerance := kTolerance_pos
  obtain ⟨hz1, hz2, hr⟩ := hin
  constructor
  · intro h
    have up := h ⟨p.x, p.y, hi⟩ ⟨⟨hz1.trans hz2, le_rfl, hr⟩, Or.inr (Or.inl rfl)⟩
    have dn := h ⟨p.x, p.y, lo⟩ ⟨⟨le_rfl, hz1.trans hz2, hr⟩, Or.inl rfl⟩
    have eu : V3.dist p ⟨p.x, p.y, hi⟩ = hi - p.z := by
      unfold V3.dist V3.dist2
      dsimp only
      rw [show (p.x - p.x) ^ 2 + (p.y - p.y) ^ 2 + (p.z - hi) ^ 2 = (hi - p.z) * (hi - p.z) by ring]
      exact sqrt_mul_self (by linarith)
    have ed : V3.dist p ⟨p.x, p.y, lo⟩ = p.z - lo := by
      unfold V3.dist V3.dist2
      dsimp only
      rw [show (p.x - p.x) ^ 2 + (p.y - p.y) ^ 2 + (p.z - lo) ^ 2 = (p.z - lo) * (p.z - lo) by ring]
      exact sqrt_mul_self (by linarith)
    rw [eu] at up; rw [ed] at dn
    refine ⟨by linarith, by linarith, fun b hb => ?_⟩
    have := h ⟨b.1, b.2, p.z⟩ ⟨⟨hz1, hz2, Or.inl hb⟩, Or.inr (Or.inr hb)⟩
    have e : V3.dist p ⟨b.1, b.2, p.z⟩ * V3.dist p ⟨b.1, b.2, p.z⟩ = dist2 (p.x, p.y) b := by
      unfold V3.dist
      rw [mul_self_sqrt (by unfold V3.dist2; nlinarith [mul_self_nonneg (p.x - b.1), mul_self_nonneg (p.y - b.2), mul_self_nonneg (p.z - p.z)])]
      unfold V3.dist2 dist2; ring
    rw [← e]; exact mul_self_le_mul_self ht.le this
  · rintro ⟨h1, h2, h3⟩ b ⟨-, hb | hb | hb⟩
    · have := height_le p b; have := le_abs_self (p.z - b.z); linarith
    · have := height_le p b; have := neg_abs_le (p.z - b.z); linarith
    · have h4 := (h3 _ hb).trans (lateral_sq p b)
      exact (mul_self_le_mul_self_iff ht.le (sqrt_nonneg _)).mpr h4

/-- C96: polygons not reported as convex: `Inside` never fails; inside are exactly the points of the solid that are at least the tolerance
away from its surface, points classified as on the surface are near it, and no point of the solid is classified as outside. -/
theorem C96_inside_concave (g : Given k n x y lo hi s) (hf : s.poly.convex = false) (p : V3) :
    ∃ r, inside k s p = some r ∧
      (r = .inside ↔ InSolid n (fun i => (x i, y i)) lo hi p ∧ ∀ b, OnSurface n (fun i => (x i, y i)) lo hi b → kTolerance ≤ V3.dist p b) ∧
      (r = .surface → ∃ b, OnSurface n (fun i => (x i, y i)) lo hi b ∧ |p.z - b.z| < kTolerance ∧
        dist2 (p.x, p.y) (b.x, b.y) < kTolerance * kTolerance) ∧
      (r = .outside → ¬ InSolid n (fun i => (x i, y i)) lo hi p) := by
  obtain ⟨hp, h1, h2⟩ := g.poly
  have ht : 0 < kTolerance := kTolerance_pos
  have htt : 0 < kTolerance * kTolerance := mul_pos ht ht
  have hlh := g.order
  have out : ∀ (P : Prop), ¬ InSolid n (fun i => (x i, y i)) lo hi p →
      (Inside.outside = .inside ↔ InSolid n (fun i => (x i, y i)) lo hi p ∧ P) ∧
      (Inside.outside = .surface → ∃ b, OnSurface n (fun i => (x i, y i)) lo hi b ∧ |p.z - b.z| < kTolerance ∧
        dist2 (p.x, p.y) (b.x, b.y) < kTolerance * kTolerance) ∧
      (Inside.outside = .outside → ¬ InSolid n (fun i => (x i, y i)) lo hi p) := by
    intro P h
    refine ⟨⟨fun h => by simp at h, fun h' => absurd h'.1 h⟩, fun h => by simp at h, fun _ => h⟩
  unfold inside
  rw [h1, h2, hf]
  dsimp only
  by_cases c1 : p.z > hi + kTolerance
  · rw [if_pos c1]; refine ⟨_, rfl, out _ fun h => ?_⟩; have := h.2.1; linarith
  rw [if_neg c1]
  by_cases c2 : p.z < lo - kTolerance
  · rw [if_pos c2]; refine ⟨_, rfl, out _ fun h => ?_⟩; have := h.1; linarith
  rw [if_neg c2, if_neg (by simp)]
  by_cases c3 : (|p.z - hi| < kTolerance ∨ |p.z - lo| < kTolerance) ∧ containsVec k s.poly p.x p.y = true
  · rw [if_pos c3]
    obtain ⟨hz, hc⟩ := c3
    -- a point of the surface at the height of a plane
    have base : ∃ q : ℝ × ℝ, Region n (fun i => (x i, y i)) q ∧ dist2 (p.x, p.y) q < kTolerance * kTolerance := by
      by_cases hcl : Clear n (fun i => (x i, y i)) (p.x, p.y)
      · exact ⟨(p.x, p.y), (g.general hcl).mp hc, by unfold dist2; simpa using htt⟩
      · obtain ⟨b, hb, hd⟩ := near_of_not_clear hcl
        exact ⟨b, Or.inl hb, hd⟩
    obtain ⟨q, hq, hd⟩ := base
    refine ⟨_, rfl, ⟨fun h => by simp at h, fun h => ?_⟩, fun _ => ?_, fun h => by simp at h⟩
    · have := (far_iff h.1).mp h.2
      exfalso
      rcases hz with hz | hz
      · have := neg_abs_le (p.z - hi); linarith
      · have := le_abs_self (p.z - lo); linarith
    · rcases hz with hz | hz
      · exact ⟨⟨q.1, q.2, hi⟩, ⟨⟨hlh, le_rfl, hq⟩, Or.inr (Or.inl rfl)⟩, hz, hd⟩
      · exact ⟨⟨q.1, q.2, lo⟩, ⟨⟨le_rfl, hlh, hq⟩, Or.inl rfl⟩, hz, hd⟩
  rw [if_neg c3]
  by_cases c4 : lo ≤ p.z ∧ p.z ≤ hi
  · rw [if_pos c4]
    obtain ⟨r, hr, -, -, hiff⟩ := g.safety (p.x, p.y)
    rw [hr, Option.map_some]
    by_cases c5 : r.1 < kTolerance * kTolerance
    · rw [if_pos c5]
      obtain ⟨b, hb, hd⟩ := hiff.mp c5
      refine ⟨_, rfl, ⟨fun h => by simp at h, fun h => ?_⟩, fun _ => ?_, fun h => by simp at h⟩
      · exact absurd (((far_iff h.1).mp h.2).2.2 b hb) (not_le.mpr hd)
      · exact ⟨⟨b.1, b.2, p.z⟩, ⟨⟨c4.1, c4.2, Or.inl hb⟩, Or.inr (Or.inr hb)⟩, by simpa using ht, hd⟩
    · rw [if_neg c5]
      have hfar : ∀ b, OnBoundary n (fun i => (x i, y i)) b → kTolerance * kTolerance ≤ dist2 (p.x, p.y) b := by
        intro b hb; by_contra hcon; exact c5 (hiff.mpr ⟨b, hb, not_le.mp hcon⟩)
      have hcl := clear_of_far hfar
      have hcon := (C96_contains g (p := p)).1 hf hcl
      by_cases c6 : contains k s p = true
      · rw [if_pos c6]
        have hin := hcon.mp c6
        refine ⟨_, rfl, ⟨fun _ => ⟨hin, (far_iff hin).mpr ⟨?_, ?_, hfar⟩⟩, fun _ => rfl⟩, fun h => by simp at h, fun h => by simp at h⟩
        all_goals
          have hnz : ¬ (|p.z - hi| < kTolerance ∨ |p.z - lo| < kTolerance) := fun h => c3 ⟨h, (g.general hcl).mpr hin.2.2⟩
          push Not at hnz
        · rw [abs_of_nonneg (by linarith : 0 ≤ p.z - lo)] at hnz; linarith
        · rw [abs_of_nonpos (by linarith : p.z - hi ≤ 0)] at hnz; linarith
      · rw [if_neg c6]
        exact ⟨_, rfl, out _ fun h => c6 (hcon.mpr h)⟩
  · rw [if_neg c4]
    have hc : contains k s p = false := by
      unfold contains; rw [h1, h2, if_pos]; by_contra h; push Not at h; exact c4 ⟨h.2, h.1⟩
    rw [hc]
    exact ⟨_, rfl, out _ fun h => c4 ⟨h.1, h.2.1⟩⟩

/-- C96: strictly convex polygons without chopped coefficients: the points classified as inside are those that are further than the tolerance
from all lateral planes and at least that far from the other two; they are in the solid and at least the tolerance away from its surface; no
point of the solid is classified as outside, and every point outside the lateral planes or the others by more than the tolerance is.
Points at exactly the tolerance below or above the solid are excluded (see `C96_inside_counterexample`). -/
theorem C96_inside_convex_partial (g : Given k n x y lo hi s) (hc : StrictlyConvex n (fun i => (x i, y i))) (hu : Unchopped n (fun i => (x i, y i)))
    {p : V3} (hs : Small p) (hz1 : p.z ≠ lo - kTolerance) (hz2 : p.z ≠ hi + kTolerance) :
    ∃ r, inside k s p = some r ∧
      (r = .inside ↔ lo + kTolerance ≤ p.z ∧ p.z ≤ hi - kTolerance ∧ ∀ i, i < n → kTolerance < depth n (fun i => (x i, y i)) i (p.x, p.y)) ∧
      (r = .inside → InSolid n (fun i => (x i, y i)) lo hi p ∧ ∀ b, OnSurface n (fun i => (x i, y i)) lo hi b → kTolerance ≤ V3.dist p b) ∧
      (r = .outside ↔ p.z < lo - kTolerance ∨ hi + kTolerance < p.z ∨ ∃ i, i < n ∧ depth n (fun i => (x i, y i)) i (p.x, p.y) < -kTolerance) ∧
      (r = .outside → ¬ InSolid n (fun i => (x i, y i)) lo hi p) := by
  obtain ⟨hp, h1, h2⟩ := g.poly
  have ht : 0 < kTolerance := kTolerance_pos
  have hlh := g.order
  have hflag := (C95_flag g.few hp).2 hc
  obtain ⟨-, -, -, hin, hout⟩ := (C95_convex_partial g.few hp g.distinct (p.x, p.y) (g.bounded hs)).1 hu
  have gin : (lo + kTolerance ≤ p.z ∧ p.z ≤ hi - kTolerance ∧ ∀ i, i < n → kTolerance < depth n (fun i => (x i, y i)) i (p.x, p.y)) →
      InSolid n (fun i => (x i, y i)) lo hi p ∧ ∀ b, OnSurface n (fun i => (x i, y i)) lo hi b → kTolerance ≤ V3.dist p b := by
    rintro ⟨a1, a2, a3⟩
    have hsol : InSolid n (fun i => (x i, y i)) lo hi p :=
      ⟨by linarith, by linarith, (region_iff g.distinct hc _).mpr fun i hi => by have := a3 i hi; linarith⟩
    refine ⟨hsol, (far_iff hsol).mpr ⟨a1, a2, fun b hb => ?_⟩⟩
    obtain ⟨i, hi, h0⟩ := depth_boundary hb
    have h3 := depth_lipschitz (n := n) (v := fun i => (x i, y i)) (i := i) (p.x, p.y) b
    have h4 := a3 i hi
    have h5 : kTolerance ≤ √(dist2 (p.x, p.y) b) := by rw [h0] at h3; linarith
    have := mul_self_le_mul_self ht.le h5
    rwa [mul_self_sqrt (dist2_nonneg _ _)] at this
  have gout : (p.z < lo - kTolerance ∨ hi + kTolerance < p.z ∨ ∃ i, i < n ∧ depth n (fun i => (x i, y i)) i (p.x, p.y) < -kTolerance) →
      ¬ InSolid n (fun i => (x i, y i)) lo hi p := by
    rintro (h | h | ⟨i, hi, h⟩) hsol
    · have := hsol.1; linarith
    · have := hsol.2.1; linarith
    · have := (region_iff g.distinct hc _).mp hsol.2.2 i hi; linarith
  suffices H : ∃ r, inside k s p = some r ∧
      (r = .inside ↔ lo + kTolerance ≤ p.z ∧ p.z ≤ hi - kTolerance ∧ ∀ i, i < n → kTolerance < depth n (fun i => (x i, y i)) i (p.x, p.y)) ∧
      (r = .outside ↔ p.z < lo - kTolerance ∨ hi + kTolerance < p.z ∨ ∃ i, i < n ∧ depth n (fun i => (x i, y i)) i (p.x, p.y) < -kTolerance) by
    obtain ⟨r, e, e1, e2⟩ := H
    exact ⟨r, e, e1, fun h => gin (e1.mp h), e2, fun h => gout (e2.mp h)⟩
  unfold inside
  rw [h1, h2, hflag]
  dsimp only
  by_cases c1 : p.z > hi + kTolerance
  · rw [if_pos c1]
    refine ⟨_, rfl, ⟨fun h => by simp at h, fun h => ?_⟩, ⟨fun _ => Or.inr (Or.inl c1), fun _ => rfl⟩⟩
    have := h.2.1; linarith
  rw [if_neg c1]
  by_cases c2 : p.z < lo - kTolerance
  · rw [if_pos c2]
    refine ⟨_, rfl, ⟨fun h => by simp at h, fun h => ?_⟩, ⟨fun _ => Or.inl c2, fun _ => rfl⟩⟩
    have := h.1; linarith
  rw [if_neg c2, if_pos rfl]
  refine ⟨_, rfl, ?_, ?_⟩
  · by_cases c3 : (|p.z - hi| < kTolerance ∨ |p.z - lo| < kTolerance) ∧ insideConvex s.poly p.x p.y ≠ .outside
    · rw [if_pos c3]
      refine ⟨fun h => by simp at h, fun h => ?_⟩
      exfalso
      rcases c3.1 with hz | hz
      · have := neg_abs_le (p.z - hi); linarith
      · have := le_abs_self (p.z - lo); linarith
    · rw [if_neg c3, hin]
      constructor
      · intro h
        have hne : insideConvex s.poly p.x p.y ≠ .outside := by
          rw [hin.mpr h]; simp
        have hnz : ¬ (|p.z - hi| < kTolerance ∨ |p.z - lo| < kTolerance) := fun hz => c3 ⟨hz, hne⟩
        push Not at hnz c1 c2
        refine ⟨?_, ?_, h⟩
        · rcases le_or_gt 0 (p.z - lo) with h' | h'
          · rw [abs_of_nonneg h'] at hnz; linarith
          · rw [abs_of_neg h'] at hnz
            exact absurd (by linarith : p.z = lo - kTolerance) hz1
        · rcases le_or_gt 0 (p.z - hi) with h' | h'
          · rw [abs_of_nonneg h'] at hnz
            exact absurd (by linarith : p.z = hi + kTolerance) hz2
          · rw [abs_of_neg h'] at hnz; linarith
      · exact fun h => h.2.2
  · by_cases c3 : (|p.z - hi| < kTolerance ∨ |p.z - lo| < kTolerance) ∧ insideConvex s.poly p.x p.y ≠ .outside
    · rw [if_pos c3]
      refine ⟨fun h => by simp at h, fun h => ?_⟩
      rcases h with h | h | h
      · exact absurd h c2
      · exact absurd h c1
      · exact absurd (hout.mpr h) c3.2
    · rw [if_neg c3, hout]
      constructor
      · exact fun h => Or.inr (Or.inr h)
      · rintro (h | h | h)
        · exact absurd h c2
        · exact absurd h c1
        · exact h

end SExtru
end VecGeom
