import Verif.SExtru.Counter

/-!
# C100, C101: extent, capacity, surface area and normals of extruded polygons
-/

namespace VecGeom
namespace SExtru

open Real Polygon

variable {k n : Nat} {x y : Nat → ℝ} {lo hi : ℝ} {s : Shell}

/-- The length of an edge. -/
noncomputable def edgeLen (v : Nat → ℝ × ℝ) (n j : Nat) : ℝ := √(dist2 (v j) (v ((j + 1) % n)))

theorem foldl_sum (f : Nat → ℝ) (m : Nat) : (List.range m).foldl (fun a i => a + f i) 0 = ∑ i ∈ Finset.range m, f i := by
  induction m with
  | zero => simp
  | succ m ih => rw [List.range_succ, List.foldl_append, ih, Finset.sum_range_succ]; rfl

/-- C100: the extent contains the solid, and the solid touches each of its sides; the capacity is the area of the polygon times the
height. -/
theorem C100_extent_capacity (g : Given k n x y lo hi s) :
    (∀ p, InSolid n (fun i => (x i, y i)) lo hi p → AABB.InBox (extent s) p) ∧
    (∃ p, InSolid n (fun i => (x i, y i)) lo hi p ∧ p.x = (extent s).lo.x ∧ p.z = (extent s).lo.z) ∧
    (∃ p, InSolid n (fun i => (x i, y i)) lo hi p ∧ p.x = (extent s).hi.x ∧ p.z = (extent s).hi.z) ∧
    (∃ p, InSolid n (fun i => (x i, y i)) lo hi p ∧ p.y = (extent s).lo.y) ∧
    (∃ p, InSolid n (fun i => (x i, y i)) lo hi p ∧ p.y = (extent s).hi.y) ∧
    capacity s = |shoelace n (fun i => (x i, y i))| / 2 * (hi - lo) := by
  obtain ⟨hp, h1, h2⟩ := g.poly
  obtain ⟨p', hp', -, -, -, -, ha, he⟩ := C93_init g.lanes g.n_pos g.few x y
  rw [hp] at hp'
  obtain rfl : s.poly = p' := by simpa using hp'
  have hbig : (10 : ℝ) ^ 100 ≤ kInfLength := by
    have := kInf_huge
    have : (10 : ℝ) ^ 100 ≤ 10 ^ 200 := pow_le_pow_right₀ (by norm_num) (by norm_num)
    linarith
  obtain ⟨-, ⟨i1, hi1, e1⟩, ⟨i2, hi2, e2⟩, ⟨i3, hi3, e3⟩, ⟨i4, hi4, e4⟩⟩ :=
    he fun i hi => ⟨(g.small i hi).1.trans hbig, (g.small i hi).2.trans hbig⟩
  have hv : ∀ i, i < n → Region n (fun i => (x i, y i)) (x i, y i) := fun i hi => Or.inl ⟨i, hi, onEdge_left _ _⟩
  have hlh := g.order
  refine ⟨fun p hp => g.box hp, ⟨⟨x i1, y i1, lo⟩, ⟨le_rfl, hlh, hv i1 hi1⟩, e1.symm, ?_⟩, ⟨⟨x i2, y i2, hi⟩, ⟨hlh, le_rfl, hv i2 hi2⟩, e2.symm, ?_⟩,
    ⟨⟨x i3, y i3, lo⟩, ⟨le_rfl, hlh, hv i3 hi3⟩, e3.symm⟩, ⟨⟨x i4, y i4, lo⟩, ⟨le_rfl, hlh, hv i4 hi4⟩, e4.symm⟩, ?_⟩
  · exact h1.symm
  · exact h2.symm
  · unfold capacity; rw [ha, h1, h2]

theorem sqrt_sum_lt (l : Nat → ℝ) (m : Nat) (h : ∀ i, i < m → 0 < l i) (hm : 2 ≤ m) :
    √(∑ i ∈ Finset.range m, l i * l i) < ∑ i ∈ Finset.range m, l i := by
  have hle : ∀ m, (∀ i, i < m → 0 < l i) → ∑ i ∈ Finset.range m, l i * l i ≤ (∑ i ∈ Finset.range m, l i) ^ 2 ∧ 0 ≤ ∑ i ∈ Finset.range m, l i := by
    intro m hp
    induction m with
    | zero => simp
    | succ m ih =>
      obtain ⟨h1, h2⟩ := ih fun i hi => hp i (by omega)
      have h3 := hp m (by omega)
      rw [Finset.sum_range_succ, Finset.sum_range_succ]
      exact ⟨by nlinarith, by linarith⟩
  obtain ⟨m, rfl⟩ : ∃ m', m = m' + 2 := ⟨m - 2, by omega⟩
  obtain ⟨h1, h2⟩ := hle m fun i hi => h i (by omega)
  have h3 := h m (by omega)
  have h4 := h (m + 1) (by omega)
  rw [sqrt_lt' (by rw [Finset.sum_range_succ, Finset.sum_range_succ]; linarith)]
  rw [Finset.sum_range_succ, Finset.sum_range_succ, Finset.sum_range_succ, Finset.sum_range_succ]
  nlinarith [mul_pos h3 h4]

/-- C100: the surface area is too small for every extruded polygon: the lateral area is computed from the root of the sum of the squares
of the lengths of the edges instead of the sum of the lengths. -/
theorem C100_surface_area_counterexample (g : Given k n x y lo hi s) (hn : 2 ≤ n) (hlt : lo < hi) :
    surfaceArea s < (∑ j ∈ Finset.range n, edgeLen (fun i => (x i, y i)) n j) * (hi - lo) + 2 * (|shoelace n (fun i => (x i, y i))| / 2) := by
  obtain ⟨hp, h1, h2⟩ := g.poly
  obtain ⟨p', hp', -, -, -, -, ha, -⟩ := C93_init g.lanes g.n_pos g.few x y
  rw [hp] at hp'
  obtain rfl : s.poly = p' := by simpa using hp'
  have hsum : (List.range s.poly.n).foldl (fun area i => area + s.poly.len2 i) 0 =
      ∑ j ∈ Finset.range n, edgeLen (fun i => (x i, y i)) n j * edgeLen (fun i => (x i, y i)) n j := by
    rw [g.poly_n, foldl_sum]
    have e1 : ∑ i ∈ Finset.range n, s.poly.len2 i = ∑ i ∈ Finset.range n, dist2 (vert n x y i) (vert n x y (prev n i)) := by
      apply Finset.sum_congr rfl
      intro i hi
      rw [(init_some hp).1]
      exact if_pos (Finset.mem_range.mp hi)
    rw [e1, sum_edges g.few x y dist2 dist2_swap]
    apply Finset.sum_congr rfl
    intro j _
    unfold edgeLen
    rw [mul_self_sqrt (dist2_nonneg _ _)]
  unfold surfaceArea shellArea
  rw [hsum, ha, h1, h2]
  have := sqrt_sum_lt (edgeLen (fun i => (x i, y i)) n) n (fun i hi => root_pos g.distinct hi) hn
  have := mul_lt_mul_of_pos_right this (sub_pos.mpr hlt)
  linarith

/-- The area of the unit cube is not 6. -/
example : surfaceArea (cube 0) < 6 := by
  have h := C100_surface_area_counterexample (cube_given 0) (by norm_num) (by norm_num)
  have h1 : shoelace 4 (fun i => (sqx i, sqy i)) = 2 := by rw [← orientation_eq, sq_area_nonneg]
  rw [h1] at h
  have hl : ∀ j, j < 4 → edgeLen (fun i => (sqx i, sqy i)) 4 j = 1 := by
    intro j hj
    have ci : j = 0 ∨ j = 1 ∨ j = 2 ∨ j = 3 := by omega
    unfold edgeLen
    rcases ci with rfl | rfl | rfl | rfl <;> simp [dist2, sqx, sqy]
  rw [Finset.sum_congr rfl (fun j hj => hl j (Finset.mem_range.mp hj))] at h
  norm_num at h
  exact h

/-- The outward unit normal of the face over an edge: horizontal, and the depth below the line of the edge decreases at the rate 1 along
it. -/
def Outward (n : Nat) (v : Nat → ℝ × ℝ) (j : Nat) (N : V3) : Prop :=
  N.z = 0 ∧ N.x ^ 2 + N.y ^ 2 = 1 ∧ ∀ q : ℝ × ℝ, ∀ t, depth n v j (q.1 + t * N.x, q.2 + t * N.y) = depth n v j q - t

theorem outward_of_line {P : Poly} {v : Nat → ℝ × ℝ} {i j : Nat} (hl : ∀ q, lineVal P q i = -depth n v j q)
    (hne : 0 < dist2 (v j) (v ((j + 1) % n))) : Outward n v j ⟨-P.a i, -P.b i, 0⟩ := by
  have hs : (sgn n v) ^ 2 = 1 := by unfold sgn; split <;> norm_num
  have ea : P.a i = depth n v j (1, 0) - depth n v j (0, 0) := by
    have e0 := hl (0, 0); have e1 := hl (1, 0); unfold lineVal at e0 e1; dsimp only at e0 e1; linarith
  have eb : P.b i = depth n v j (0, 1) - depth n v j (0, 0) := by
    have e0 := hl (0, 0); have e1 := hl (0, 1); unfold lineVal at e0 e1; dsimp only at e0 e1; linarith
  have hr := sqrt_pos.mpr hne
  have hunit : P.a i ^ 2 + P.b i ^ 2 = 1 := by
    have hsq := mul_self_sqrt hne.le
    rw [ea, eb]
    unfold depth side
    dsimp only
    have e2 : dist2 (v j) (v ((j + 1) % n)) = ((v ((j + 1) % n)).1 - (v j).1) ^ 2 + ((v ((j + 1) % n)).2 - (v j).2) ^ 2 := by unfold dist2; ring
    generalize √(dist2 (v j) (v ((j + 1) % n))) = r at *
    rw [e2] at hsq
    have h0 : r ≠ 0 := hr.ne'
    field_simp
    linear_combination (((v ((j + 1) % n)).1 - (v j).1) ^ 2 + ((v ((j + 1) % n)).2 - (v j).2) ^ 2) * hs - hsq
  refine ⟨rfl, by dsimp only; linarith, fun q t => ?_⟩
  have e1 := hl (q.1 + t * -P.a i, q.2 + t * -P.b i)
  have e2 := hl q
  unfold lineVal at e1 e2
  dsimp only at e1 e2 ⊢
  linear_combination e1 - e2 - t * hunit

/-- C101: polygons without chopped coefficients: near a plane and over the polygon the normal is that of the plane; otherwise, between the
planes, it is the outward normal of an edge to which the distance is least, valid if that distance is below the tolerance; the function
reads no array out of range if some point of the boundary is nearer than `10¹⁵`. -/
theorem C101_normal_partial (g : Given k n x y lo hi s) (hu : Unchopped n (fun i => (x i, y i))) (p : V3)
    (hnear : ∃ b, OnBoundary n (fun i => (x i, y i)) b ∧ dist2 (p.x, p.y) b < 10 ^ 30) :
    ∃ N valid, normal k s p = some (N, valid) ∧
      ((|p.z - hi| < kTolerance ∧ N = ⟨0, 0, 1⟩ ∧ valid = true ∧
          (Clear n (fun i => (x i, y i)) (p.x, p.y) → Region n (fun i => (x i, y i)) (p.x, p.y))) ∨
      (|p.z - lo| < kTolerance ∧ ¬ |p.z - hi| < kTolerance ∧ N = ⟨0, 0, -1⟩ ∧ valid = true ∧
          (Clear n (fun i => (x i, y i)) (p.x, p.y) → Region n (fun i => (x i, y i)) (p.x, p.y))) ∨
      (lo ≤ p.z ∧ p.z ≤ hi ∧ (∃ j b, j < n ∧ Outward n (fun i => (x i, y i)) j N ∧
          OnEdge (x j, y j) (x ((j + 1) % n), y ((j + 1) % n)) b ∧
          (dist2 (p.x, p.y) b < kTolerance * kTolerance ∨ ∀ b', OnBoundary n (fun i => (x i, y i)) b' → dist2 (p.x, p.y) b ≤ dist2 (p.x, p.y) b')) ∧
        (valid = true ↔ ∃ b, OnBoundary n (fun i => (x i, y i)) b ∧ dist2 (p.x, p.y) b < kTolerance * kTolerance)) ∨
      (¬ (lo ≤ p.z ∧ p.z ≤ hi) ∧ N = ⟨0, 0, 0⟩ ∧ valid = false)) := by
  obtain ⟨hp, h1, h2⟩ := g.poly
  have hTol := kTolerance_pos
  unfold normal
  dsimp only
  rw [h1, h2]
  by_cases c1 : (|p.z - hi| < kTolerance ∨ |p.z - lo| < kTolerance) ∧ containsVec k s.poly p.x p.y = true
  · rw [if_pos c1]
    have hcl : Clear n (fun i => (x i, y i)) (p.x, p.y) → Region n (fun i => (x i, y i)) (p.x, p.y) := fun h => (g.general h).mp c1.2
    by_cases c2 : |p.z - hi| < kTolerance
    · rw [if_pos c2]; exact ⟨_, _, rfl, Or.inl ⟨c2, rfl, rfl, hcl⟩⟩
    · rw [if_neg c2]
      have c3 : |p.z - lo| < kTolerance := by tauto
      exact ⟨_, _, rfl, Or.inr (Or.inl ⟨c3, c2, rfl, rfl, hcl⟩)⟩
  · rw [if_neg c1]
    by_cases c2 : lo ≤ p.z ∧ p.z ≤ hi
    · rw [if_pos c2]
      obtain ⟨r, id, e, hle, hcase⟩ := C94_distance_to_edges g.lanes g.few g.distinct hp (p.x, p.y)
      rw [e]
      rcases hcase with ⟨-, hr⟩ | ⟨i, b, rfl, hib, hedge, hbd, hr⟩
      · obtain ⟨b, hb, hlt⟩ := hnear
        have := hle b hb; linarith
      · dsimp only
        rw [if_pos hib]
        refine ⟨_, _, rfl, Or.inr (Or.inr (Or.inl ⟨c2.1, c2.2, ?_, ?_⟩))⟩
        · have hi : i % n < n := Nat.mod_lt _ g.n_pos
          obtain ⟨j, hj, hd, hv⟩ := edge_depth (x := x) (y := y) g.few hi
          have hbuild := (init_some hp).1
          have hl : ∀ q, lineVal s.poly q (i % n) = -depth n (fun i => (x i, y i)) j q := by
            intro q
            have h7 := abs_nonpos_iff.mp (err_exact (k := k) g.few hu q (i % n) hi)
            rw [hd, ← hbuild] at h7
            linarith
          have ha : s.poly.a i = s.poly.a (i % n) := by
            rw [hbuild]; unfold build; dsimp only
            rw [if_pos hi]
            by_cases hin : i < n
            · rw [if_pos hin, Nat.mod_eq_of_lt hin]
            · rw [if_neg hin]
          have hb : s.poly.b i = s.poly.b (i % n) := by
            rw [hbuild]; unfold build; dsimp only
            rw [if_pos hi]
            by_cases hin : i < n
            · rw [if_pos hin, Nat.mod_eq_of_lt hin]
            · rw [if_neg hin]
          refine ⟨j, b, hj, ?_, ?_, ?_⟩
          · rw [ha, hb]
            exact outward_of_line hl (sqrt_pos.mp (root_pos g.distinct hj))
          · rw [hbuild, build_x hi, build_y hi, build_sx hi, build_sy hi] at hedge
            rcases hv with hv | hv
            · have e1 : ((vert n x y (i % n)).1, (vert n x y (i % n)).2) = (x j, y j) := hv.1
              have e2 : ((vert n x y (prev n (i % n))).1, (vert n x y (prev n (i % n))).2) = (x ((j + 1) % n), y ((j + 1) % n)) := hv.2
              rw [e1, e2] at hedge; exact hedge
            · have e1 : ((vert n x y (i % n)).1, (vert n x y (i % n)).2) = (x ((j + 1) % n), y ((j + 1) % n)) := hv.2
              have e2 : ((vert n x y (prev n (i % n))).1, (vert n x y (prev n (i % n))).2) = (x j, y j) := hv.1
              rw [e1, e2] at hedge; exact onEdge_comm.mp hedge
          · rcases hr with hr | hr
            · right; intro b' hb'; rw [← hr]; exact hle b' hb'
            · exact Or.inl hr.2
        · rw [decide_eq_true_iff]
          constructor
          · intro hlt
            rcases hr with hr | hr
            · exact ⟨b, hbd, by rw [← hr]; exact hlt⟩
            · exact ⟨b, hbd, hr.2⟩
          · rintro ⟨b', hb', hlt⟩
            exact lt_of_le_of_lt (hle b' hb') hlt
    · rw [if_neg c2]
      exact ⟨_, _, rfl, Or.inr (Or.inr (Or.inr ⟨c2, rfl, rfl⟩))⟩

example : ∃ b, OnBoundary 4 (fun i => (arx i, ary i)) b ∧ dist2 (0, 1) b < 10 ^ 30 :=
  ⟨(arx 0, ary 0), ⟨0, by norm_num, onEdge_left _ _⟩, by simp [dist2, arx, ary]; norm_num⟩

end SExtru
end VecGeom
