import Verif.Polygon.SafetyProps

/-!
# Convex polygons
-/

namespace VecGeom
namespace Polygon

open Real Filter Topology

/-- All vertices that do not belong to an edge are strictly on the same side of it, the same one for all edges. -/
def StrictlyConvex (n : Nat) (v : Nat → ℝ × ℝ) : Prop :=
  3 ≤ n ∧ ((∀ i j, i < n → j < n → j ≠ i → j ≠ (i + 1) % n → 0 < side (v i) (v ((i + 1) % n)) (v j)) ∨
    ∀ i j, i < n → j < n → j ≠ i → j ≠ (i + 1) % n → side (v i) (v ((i + 1) % n)) (v j) < 0)

/-- `q` is strictly on the same side of all edges. -/
def Interior (n : Nat) (v : Nat → ℝ × ℝ) (q : ℝ × ℝ) : Prop :=
  (∀ i, i < n → 0 < side (v i) (v ((i + 1) % n)) q) ∨ ∀ i, i < n → side (v i) (v ((i + 1) % n)) q < 0

theorem side_sum (n : Nat) (v : Nat → ℝ × ℝ) (q : ℝ × ℝ) :
    ∑ i ∈ Finset.range n, side (v i) (v ((i + 1) % n)) q = shoelace n v := by
  have e : ∀ i, side (v i) (v ((i + 1) % n)) q =
      ((v i).1 * (v ((i + 1) % n)).2 - (v i).2 * (v ((i + 1) % n)).1) +
        ((v ((i + 1) % n)).1 * q.2 - (v ((i + 1) % n)).2 * q.1) - ((v i).1 * q.2 - (v i).2 * q.1) := by
    intro i; unfold side; ring
  rw [Finset.sum_congr rfl (fun i _ => e i), Finset.sum_sub_distrib, Finset.sum_add_distrib,
    sum_shift n (fun i => (v i).1 * q.2 - (v i).2 * q.1)]
  unfold shoelace; ring

/-- Multiply by this to turn the polygon counterclockwise. -/
noncomputable def sgn (n : Nat) (v : Nat → ℝ × ℝ) : ℝ := open Classical in if 0 < shoelace n v then 1 else -1

theorem side_left (a b : ℝ × ℝ) : side a b a = 0 := by unfold side; ring
theorem side_right (a b : ℝ × ℝ) : side a b b = 0 := by unfold side; ring

theorem StrictlyConvex.pos {n : Nat} {v : Nat → ℝ × ℝ} (h : StrictlyConvex n v) :
    ∀ i j, i < n → j < n → j ≠ i → j ≠ (i + 1) % n → 0 < sgn n v * side (v i) (v ((i + 1) % n)) (v j) := by
  obtain ⟨h3, h | h⟩ := h
  · have hs : 0 < shoelace n v := by
      rw [← side_sum n v (v 0)]
      apply Finset.sum_pos'
      · intro i hi
        have hi := Finset.mem_range.mp hi
        by_cases h1 : 0 = i
        · rw [← h1, side_left]
        · by_cases h2 : 0 = (i + 1) % n
          · rw [← h2, side_right]
          · exact (h i 0 hi (by omega) h1 h2).le
      · exact ⟨1, Finset.mem_range.mpr (by omega), h 1 0 (by omega) (by omega) (by omega) (by rw [Nat.mod_eq_of_lt (by omega)]; omega)⟩
    intro i j hi hj h1 h2
    unfold sgn; rw [if_pos hs, one_mul]; exact h i j hi hj h1 h2
  · have hs : ¬ 0 < shoelace n v := by
      rw [← side_sum n v (v 0), not_lt]
      apply Finset.sum_nonpos
      intro i hi
      have hi := Finset.mem_range.mp hi
      by_cases h1 : 0 = i
      · rw [← h1, side_left]
      · by_cases h2 : 0 = (i + 1) % n
        · rw [← h2, side_right]
        · exact (h i 0 hi (by omega) h1 h2).le
    intro i j hi hj h1 h2
    unfold sgn; rw [if_neg hs]; have := h i j hi hj h1 h2; linarith

theorem interior_iff {n : Nat} {v : Nat → ℝ × ℝ} (hn : 0 < n) (q : ℝ × ℝ) :
    Interior n v q ↔ ∀ i, i < n → 0 < sgn n v * side (v i) (v ((i + 1) % n)) q := by
  constructor
  · rintro (h | h)
    · have hs : 0 < shoelace n v := by
        rw [← side_sum n v q]
        exact Finset.sum_pos (fun i hi => h i (Finset.mem_range.mp hi)) ⟨0, Finset.mem_range.mpr hn⟩
      intro i hi; unfold sgn; rw [if_pos hs, one_mul]; exact h i hi
    · have hs : ¬ 0 < shoelace n v := by
        rw [← side_sum n v q, not_lt]
        exact Finset.sum_nonpos fun i hi => (h i (Finset.mem_range.mp hi)).le
      intro i hi; unfold sgn; rw [if_neg hs]; have := h i hi; linarith
  · intro h
    unfold sgn at h
    split at h
    · left; intro i hi; have := h i hi; linarith
    · right; intro i hi; have := h i hi; linarith

/-- Along an edge, `side` is affine. -/
theorem side_edge (a b c d : ℝ × ℝ) (t : ℝ) :
    side a b (c.1 + t * (d.1 - c.1), c.2 + t * (d.2 - c.2)) = (1 - t) * side a b c + t * side a b d := by
  unfold side; simp only; ring

section Geo
variable {n : Nat} {v : Nat → ℝ × ℝ}

theorem StrictlyConvex.nonneg (h : StrictlyConvex n v) {i j : Nat} (hi : i < n) (hj : j < n) :
    0 ≤ sgn n v * side (v i) (v ((i + 1) % n)) (v j) := by
  by_cases h1 : j = i
  · rw [h1, side_left, mul_zero]
  · by_cases h2 : j = (i + 1) % n
    · rw [h2, side_right, mul_zero]
    · exact (h.pos i j hi hj h1 h2).le

theorem StrictlyConvex.boundary (h : StrictlyConvex n v) {i : Nat} (hi : i < n) {b : ℝ × ℝ} (hb : OnBoundary n v b) :
    0 ≤ sgn n v * side (v i) (v ((i + 1) % n)) b := by
  obtain ⟨j, hj, t, t0, t1, rfl⟩ := hb
  rw [side_edge]
  have h1 := h.nonneg hi hj
  have h2 := h.nonneg hi (Nat.mod_lt (j + 1) (by omega : 0 < n))
  have := mul_nonneg (sub_nonneg.mpr t1) h1
  have := mul_nonneg t0 h2
  nlinarith

theorem boundary_zero {b : ℝ × ℝ} (hb : OnBoundary n v b) : ∃ i, i < n ∧ side (v i) (v ((i + 1) % n)) b = 0 := by
  obtain ⟨i, hi, t, t0, t1, rfl⟩ := hb
  exact ⟨i, hi, by rw [side_edge, side_left, side_right]; ring⟩

/-- Outside, the parity is 0. -/
theorem par_outside (h : StrictlyConvex n v) {q : ℝ × ℝ} {i : Nat} (hi : i < n) (hq : sgn n v * side (v i) (v ((i + 1) % n)) q < 0) :
    par n v q = 0 := by
  have hn : 0 < n := by have := h.1; omega
  have hsgn : sgn n v = 1 ∨ sgn n v = -1 := by unfold sgn; split <;> simp
  set a := v i with ha
  set b := v ((i + 1) % n) with hb
  set σ := sgn n v with hσ
  -- away from the edge
  let f : ℝ → ℝ × ℝ := fun t => (q.1 + t * (σ * (b.2 - a.2)), q.2 - t * (σ * (b.1 - a.1)))
  have hside : ∀ t, 0 ≤ t → σ * side a b (f t) < 0 := by
    intro t ht
    have : side a b (f t) = side a b q - σ * t * ((b.1 - a.1) * (b.1 - a.1) + (b.2 - a.2) * (b.2 - a.2)) := by
      simp only [f, side]; ring
    rw [this]
    have hσ2 : σ * σ = 1 := by rcases hsgn with h | h <;> rw [h] <;> norm_num
    have := mul_nonneg ht (add_nonneg (mul_self_nonneg (b.1 - a.1)) (mul_self_nonneg (b.2 - a.2)))
    nlinarith
  have hpre : IsPreconnected (f '' Set.Ici 0) := by
    apply isPreconnected_Ici.image
    apply Continuous.continuousOn; simp only [f]; fun_prop
  have hav : ∀ r ∈ f '' Set.Ici 0, ¬ OnBoundary n v r := by
    rintro r ⟨t, ht, rfl⟩ hbd
    have h1 := h.boundary hi hbd
    have h2 := hside t ht
    rw [← ha, ← hb, ← hσ] at h1; linarith
  have hab : a ≠ b := by
    intro hab
    have hj : ∃ j, j < n ∧ j ≠ i ∧ j ≠ (i + 1) % n := by
      have h3 := h.1
      by_contra hcon
      push Not at hcon
      have c0 := hcon 0 (by omega)
      have c1 := hcon 1 (by omega)
      have c2 := hcon 2 (by omega)
      omega
    obtain ⟨j, hj, h1, h2⟩ := hj
    have := h.pos i j hi hj h1 h2
    rw [← ha, ← hb, hab] at this
    unfold side at this; simp at this
  -- a point far away, with nothing at its height or with nothing in its column
  obtain ⟨top, htop⟩ := exists_above n v
  obtain ⟨bot, hbot⟩ := exists_above n (fun i => (0, -(v i).2))
  obtain ⟨rt, hrt⟩ := exists_above n (fun i => (0, (v i).1))
  obtain ⟨lf, hlf⟩ := exists_above n (fun i => (0, -(v i).1))
  have reach : ∀ c d m : ℝ, c ≠ 0 → ∃ t, 0 ≤ t ∧ (m < d + t * c ∨ d + t * c < -m) := by
    intro c d m hc
    refine ⟨(|m| + |d| + 1) / |c|, by positivity, ?_⟩
    have hc' := abs_pos.mpr hc
    have := le_abs_self m; have := neg_abs_le d; have := le_abs_self d
    rcases lt_or_gt_of_ne hc with h1 | h1
    · right
      have : (|m| + |d| + 1) / |c| * c = -(|m| + |d| + 1) := by rw [abs_of_neg h1]; have := h1.ne; field_simp
      rw [this]; linarith
    · left
      have : (|m| + |d| + 1) / |c| * c = |m| + |d| + 1 := by rw [abs_of_pos h1]; have := h1.ne'; field_simp
      rw [this]; linarith
  have far : ∃ t, 0 ≤ t ∧ par n v (f t) = 0 := by
    have hσ0 : σ ≠ 0 := by rcases hsgn with h | h <;> rw [h] <;> norm_num
    by_cases hx : b.1 - a.1 = 0
    · have hy : b.2 - a.2 ≠ 0 := by intro h'; apply hab; ext <;> linarith
      obtain ⟨t, ht, h2⟩ := reach (σ * (b.2 - a.2)) q.1 (max rt lf) (mul_ne_zero hσ0 hy)
      refine ⟨t, ht, ?_⟩
      rcases h2 with h2 | h2
      · apply par_beside; left; intro j hj
        have := hrt j hj; have := le_max_left rt lf; simp only [f]; simp only at *; linarith
      · apply par_beside; right; intro j hj
        have := hlf j hj; have := le_max_right rt lf; simp only [f]; simp only at *; linarith
    · obtain ⟨t, ht, h2⟩ := reach (-(σ * (b.1 - a.1))) q.2 (max top bot) (neg_ne_zero.mpr (mul_ne_zero hσ0 hx))
      refine ⟨t, ht, ?_⟩
      rcases h2 with h2 | h2
      · apply par_above; intro j hj
        have := htop j hj; have := le_max_left top bot; simp only [f]; linarith
      · unfold par
        apply Finset.sum_eq_zero
        intro j hj
        have hj := Finset.mem_range.mp hj
        have low : ∀ l, l < n → (v l).2 > (f t).2 := by
          intro l hl
          have := hbot l hl; have := le_max_right top bot; simp only [f]; simp only at *; linarith
        unfold term
        have e1 := low j hj
        have e2 := low _ (Nat.mod_lt (j + 1) hn)
        simp only [ind, e1, e2, if_true]
        rw [two_self, zero_mul]
  obtain ⟨t, ht, h0⟩ := far
  rw [← h0]
  apply par_preconnected hpre hav
  · exact ⟨0, Set.self_mem_Ici, by simp [f]⟩
  · exact ⟨t, ht, rfl⟩

/-- Inside, the parity is 1. -/
theorem par_inside (h : StrictlyConvex n v) {q : ℝ × ℝ} (hq : ∀ i, i < n → 0 < sgn n v * side (v i) (v ((i + 1) % n)) q) :
    par n v q = 1 := by
  have h3 := h.1
  have hn : 0 < n := by omega
  -- through the middle of the first edge
  set a := v 0 with ha
  have hmod : (0 + 1) % n = 1 := Nat.mod_eq_of_lt (by omega)
  set b := v 1 with hb
  let m : ℝ × ℝ := (a.1 + 1 / 2 * (b.1 - a.1), a.2 + 1 / 2 * (b.2 - a.2))
  let r : ℝ × ℝ := (q.1 + 2 * (m.1 - q.1), q.2 + 2 * (m.2 - q.2))
  have hm0 : side a b m = 0 := by simp only [m]; rw [side_edge, side_left, side_right]; ring
  have hq0 : 0 < sgn n v * side a b q := by have := hq 0 hn; rwa [hmod] at this
  have hr0 : sgn n v * side a b r < 0 := by
    have : side a b r = (1 - 2) * side a b q := side_affine a b q m 2 hm0
    rw [this]; nlinarith
  have hr : par n v r = 0 := par_outside h hn (by rw [hmod]; exact hr0)
  have hmid : ∀ i, i < n → 0 ≤ sgn n v * side (v i) (v ((i + 1) % n)) m := by
    intro i hi
    simp only [m]
    rw [side_edge]
    have h1 := h.nonneg hi hn
    have h2 := h.nonneg hi (show 1 < n by omega)
    rw [← ha] at h1; rw [← hb] at h2
    nlinarith
  have hc : CrossesOnce n v q r := by
    refine ⟨0, m, hn, ⟨1 / 2, by norm_num, by norm_num, ?_⟩, ?_, ?_, ?_, ?_⟩
    · simp only [r]; ext <;> simp <;> ring
    · rw [hmod]; exact ⟨1 / 2, by norm_num, by norm_num, rfl⟩
    · rintro j hj hne ⟨t, t0, t1, ht⟩
      -- the ends of the other edge are on the line of the first one only if they belong to it
      have hj1 : (j + 1) % n < n := Nat.mod_lt _ hn
      have e := side_edge a b (v j) (v ((j + 1) % n)) t
      rw [← ht, hm0] at e
      have g1 : 0 ≤ sgn n v * side a b (v j) := by have := h.nonneg hn hj; rwa [hmod] at this
      have g2 : 0 ≤ sgn n v * side a b (v ((j + 1) % n)) := by have := h.nonneg hn hj1; rwa [hmod] at this
      have e' : (1 - t) * (sgn n v * side a b (v j)) + t * (sgn n v * side a b (v ((j + 1) % n))) = 0 := by
        linear_combination (-(sgn n v)) * e
      have z1 : (1 - t) * (sgn n v * side a b (v j)) = 0 := by
        have := mul_nonneg (sub_nonneg.mpr t1) g1; have := mul_nonneg t0 g2; linarith
      have z2 : t * (sgn n v * side a b (v ((j + 1) % n))) = 0 := by linarith
      have hab : a ≠ b := by
        intro hab; rw [hab] at hq0; unfold side at hq0; simp at hq0
      by_cases hj2 : j = 1
      · -- the next edge
        subst hj2
        have hm : (1 + 1) % n = 2 % n := rfl
        have hpos : 0 < sgn n v * side a b (v ((1 + 1) % n)) := by
          have hne0 : (1 + 1) % n ≠ 0 := by
            rw [Nat.mod_eq_of_lt (by omega)]; omega
          have hne1 : (1 + 1) % n ≠ (0 + 1) % n := by
            rw [Nat.mod_eq_of_lt (by omega), hmod]; omega
          have := h.pos 0 ((1 + 1) % n) hn hj1 hne0 hne1
          rwa [hmod] at this
        have t00 : t = 0 := by
          rcases mul_eq_zero.mp z2 with h' | h'
          · exact h'
          · linarith
        rw [t00] at ht
        simp only [m, zero_mul, add_zero] at ht
        apply hab
        rw [← hb] at ht
        have h1 := congrArg Prod.fst ht
        have h2 := congrArg Prod.snd ht
        simp only at h1 h2
        ext <;> linarith
      · have hpos : 0 < sgn n v * side a b (v j) := by
          have := h.pos 0 j hn hj (by omega) (by rw [hmod]; exact hj2)
          rwa [hmod] at this
        have t11 : t = 1 := by
          rcases mul_eq_zero.mp z1 with h' | h'
          · linarith
          · linarith
        by_cases hj3 : (j + 1) % n = 0
        · rw [t11, hj3, ← ha] at ht
          apply hab
          have h1 := congrArg Prod.fst ht
          have h2 := congrArg Prod.snd ht
          simp only [m] at h1 h2
          ext <;> linarith
        · have hne1 : (j + 1) % n ≠ (0 + 1) % n := by
            rw [hmod]
            rcases Nat.lt_or_ge (j + 1) n with h' | h'
            · rw [Nat.mod_eq_of_lt h']; omega
            · have : j + 1 = n := by omega
              rw [this, Nat.mod_self]; omega
          have := h.pos 0 ((j + 1) % n) hn hj1 hj3 hne1
          rw [hmod] at this
          rw [t11, one_mul] at z2
          rw [← ha, ← hb] at this
          linarith
    · rintro m' ⟨t, t0, t1, rfl⟩ hbd
      -- before the middle all sides are positive; after it one is negative
      have hpt : ((q.1 + t * (r.1 - q.1), q.2 + t * (r.2 - q.2)) : ℝ × ℝ) =
          (q.1 + (2 * t) * (m.1 - q.1), q.2 + (2 * t) * (m.2 - q.2)) := by
        simp only [r]; ext <;> simp <;> ring
      rw [hpt] at hbd ⊢
      rcases lt_trichotomy (2 * t) 1 with hlt | heq | hgt
      · exfalso
        obtain ⟨i, hi, hz⟩ := boundary_zero hbd
        rw [side_edge] at hz
        have h1 := hq i hi
        have h2 := hmid i hi
        have e : (1 - 2 * t) * (sgn n v * side (v i) (v ((i + 1) % n)) q) + 2 * t * (sgn n v * side (v i) (v ((i + 1) % n)) m) = 0 := by
          linear_combination (sgn n v) * hz
        have := mul_pos (sub_pos.mpr hlt) h1
        have := mul_nonneg (by linarith : 0 ≤ 2 * t) h2
        linarith
      · rw [heq]; ext <;> simp
      · exfalso
        have h1 := h.boundary hn hbd
        rw [hmod, side_affine a b q m (2 * t) hm0] at h1
        nlinarith
    · rw [hmod]
      have hσ2 : 0 < sgn n v * sgn n v := by
        apply mul_self_pos.mpr; unfold sgn; split <;> norm_num
      by_contra hcon
      have h1 := mul_neg_of_pos_of_neg hq0 hr0
      have h2 : sgn n v * side a b q * (sgn n v * side a b r) = (sgn n v * sgn n v) * (side a b q * side a b r) := by ring
      rw [h2] at h1
      have := mul_nonneg hσ2.le (not_lt.mp hcon)
      linarith
  rw [par_crosses hc, hr, zero_add]

end Geo

end Polygon
end VecGeom
