import Verif.Polygon.Jordan

/-!
# C92: the point in polygon test
-/

namespace VecGeom
namespace Polygon

open Real

/-- C92: whether a polygon contains a point does not change along connected sets that avoid its boundary; it changes when a segment
crosses the boundary once; and points outside the bounding box of the vertices are not contained.  So the test is the point in polygon
test of Jordan's theorem, for all lists of vertices in either order; the margin of `10⁻³⁰` comes from the slopes. -/
theorem C92_contains {k n : Nat} {x y : Nat → ℝ} {p : Poly} (hn : n < 2 ^ 31) (hp : init k n x y = some p) :
    (∀ S : Set (ℝ × ℝ), IsPreconnected S → (∀ q ∈ S, Clear n (fun i => (x i, y i)) q) →
      ∀ q ∈ S, ∀ r ∈ S, contains p q.1 q.2 = contains p r.1 r.2) ∧
    (∀ q r : ℝ × ℝ, Clear n (fun i => (x i, y i)) q → Clear n (fun i => (x i, y i)) r → CrossesOnce n (fun i => (x i, y i)) q r →
      contains p q.1 q.2 = !contains p r.1 r.2) ∧
    (∀ q : ℝ × ℝ, ((∀ i, i < n → x i < q.1) ∨ (∀ i, i < n → q.1 < x i) ∨ (∀ i, i < n → y i < q.2) ∨ (∀ i, i < n → q.2 < y i)) →
      contains p q.1 q.2 = false) := by
  obtain ⟨rfl, -, -⟩ := init_some hp
  have off : ∀ q, Clear n (fun i => (x i, y i)) q → ¬ OnBoundary n (fun i => (x i, y i)) q := by
    intro q hq
    exact hq q.2 (by rw [sub_self, abs_zero]; positivity)
  refine ⟨fun S hS hc q hq r hr => ?_, fun q r hq hr h => ?_, fun q h => ?_⟩
  · rw [contains_par hn (hc q hq), contains_par hn (hc r hr), par_preconnected hS (fun s hs => off s (hc s hs)) hq hr]
  · rw [contains_par hn hq, contains_par hn hr, par_crosses h]
    generalize par n _ r = u
    revert u; decide
  · have flat : ∀ b : Bool, (∀ i, i < n → decide (y i > q.2) = b) → contains (build k n x y) q.1 q.2 = false := by
      intro b hb
      rw [contains_eq, build_n]
      have : ∑ i ∈ Finset.range n, ind (crosses (build k n x y) q.1 q.2 i = true) = 0 := by
        apply Finset.sum_eq_zero
        intro i hi
        have hi := Finset.mem_range.mp hi
        have hv : ∀ j, j < n → decide ((vert n x y j).2 > q.2) = b := by
          intro j hj
          exact hb _ (Nat.mod_lt _ (by omega))
        unfold crosses
        rw [build_y hi, build_sy hi]
        have e1 := hv i hi
        have e2 := hv _ (prev_lt hi)
        have : (xor (decide ((vert n x y i).2 > q.2)) (decide ((vert n x y (prev n i)).2 > q.2))) = false := by
          rw [e1, e2]; cases b <;> rfl
        simp only [this]
        simp [ind]
      rw [this]; decide
    have beside : (∀ i, i < n → x i < q.1) ∨ (∀ i, i < n → q.1 < x i) → contains (build k n x y) q.1 q.2 = false := by
      intro h
      have hc : Clear n (fun i => (x i, y i)) q := by
        intro y' _ hb
        obtain ⟨⟨i, hi, h1⟩, j, hj, h2⟩ := boundary_x hb
        simp only at h1 h2
        rcases h with h | h
        · have := h i hi; linarith
        · have := h j hj; linarith
      rw [contains_par hn hc, par_beside h]; decide
    rcases h with h | h | h | h
    · exact beside (Or.inl h)
    · exact beside (Or.inr h)
    · exact flat false fun i hi => by have := h i hi; simp; linarith
    · exact flat true fun i hi => by have := h i hi; simp; linarith

/-- C92: the version that works on `k` edges at a time gives the same answer. -/
theorem C92_lanes (k : Nat) (p : Poly) (px py : ℝ) : containsVec k p px py = contains p px py := containsVec_eq p px py

/-! A case: the unit square, given counterclockwise, contains its centre. -/

/-- The unit square. -/
noncomputable def sqx (i : Nat) : ℝ := if i = 1 ∨ i = 2 then 1 else 0
/-- The unit square. -/
noncomputable def sqy (i : Nat) : ℝ := if i = 2 ∨ i = 3 then 1 else 0

theorem sq_boundary {q : ℝ × ℝ} (h : OnBoundary 4 (fun i => (sqx i, sqy i)) q) :
    (q.2 = 0 ∧ 0 ≤ q.1 ∧ q.1 ≤ 1) ∨ (q.1 = 1 ∧ 0 ≤ q.2 ∧ q.2 ≤ 1) ∨ (q.2 = 1 ∧ 0 ≤ q.1 ∧ q.1 ≤ 1) ∨ (q.1 = 0 ∧ 0 ≤ q.2 ∧ q.2 ≤ 1) := by
  obtain ⟨i, hi, t, t0, t1, rfl⟩ := h
  have : i = 0 ∨ i = 1 ∨ i = 2 ∨ i = 3 := by omega
  rcases this with rfl | rfl | rfl | rfl
  · left; refine ⟨?_, ?_, ?_⟩ <;> simp [sqx, sqy] <;> linarith
  · right; left; refine ⟨?_, ?_, ?_⟩ <;> simp [sqx, sqy] <;> linarith
  · right; right; left; refine ⟨?_, ?_, ?_⟩ <;> simp [sqx, sqy] <;> linarith
  · right; right; right; refine ⟨?_, ?_, ?_⟩ <;> simp [sqx, sqy] <;> linarith

theorem sq_area_nonneg : orientation sqx sqy 4 = 2 := by
  simp [orientation, List.range_succ, sqx, sqy]
  norm_num

theorem sq_init : init 4 4 sqx sqy = some (build 4 4 sqx sqy) := by
  unfold init
  have h1 : ¬ bufferSize 4 4 = 0 := by decide
  have h2 : ¬ area (build 4 4 sqx sqy) < 0 := by
    have hinc : increment sqx sqy 4 = 2 ^ 64 - 1 := by
      unfold increment; rw [sq_area_nonneg, if_pos (by norm_num)]
    have : area (build 4 4 sqx sqy) = 1 := by
      unfold area build
      simp only [hinc]
      simp [List.range_succ, source, prev, sqx, sqy]
      norm_num
    rw [this]; norm_num
  rw [if_neg h1, if_neg h2]

example : contains (build 4 4 sqx sqy) (1 / 2) (1 / 2) = true := by
  obtain ⟨-, h2, h3⟩ := C92_contains (by norm_num) sq_init
  have far := h3 (3, 1 / 2) (Or.inl fun i hi => by simp only [sqx]; split <;> norm_num)
  have clear : ∀ c : ℝ, (c = 1 / 2 ∨ c = 3) → Clear 4 (fun i => (sqx i, sqy i)) (c, 1 / 2) := by
    intro c hc y' hy hb
    have hy' : |y' - 1 / 2| < 1 / 2 := lt_of_le_of_lt hy (by norm_num)
    rw [abs_lt] at hy'
    rcases sq_boundary hb with h | h | h | h
    · linarith [h.1]
    · rcases hc with rfl | rfl <;> norm_num at h
    · linarith [h.1]
    · rcases hc with rfl | rfl <;> norm_num at h
  have := h2 (1 / 2, 1 / 2) (3, 1 / 2) (clear _ (Or.inl rfl)) (clear _ (Or.inr rfl)) ?_
  · rw [this, far]; rfl
  · refine ⟨1, (1, 1 / 2), by norm_num, ⟨1 / 5, by norm_num, by norm_num, by norm_num⟩, ⟨1 / 2, by norm_num, by norm_num, ?_⟩, ?_, ?_, ?_⟩
    · simp [sqx, sqy]
    · intro j hj hne hb
      have : j = 0 ∨ j = 2 ∨ j = 3 := by omega
      obtain ⟨t, t0, t1, ht⟩ := hb
      rcases this with rfl | rfl | rfl <;> simp [sqx, sqy] at ht <;> norm_num at ht <;> linarith
    · rintro m' ⟨t, t0, t1, rfl⟩ hb
      rcases sq_boundary hb with h | h | h | h
      · norm_num at h
      · ext
        · exact h.1
        · simp
      · norm_num at h
      · exfalso; have := h.1; simp at this; linarith
    · simp [side, sqx, sqy]; norm_num

end Polygon
end VecGeom
