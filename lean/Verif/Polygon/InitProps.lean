import Verif.Polygon.Props

/-!
# C93: the order of the vertices, the area and the extent
-/

namespace VecGeom
namespace Polygon

open Real

theorem fold_sum (f : Nat → ℝ) (n : Nat) : (List.range n).foldl (fun s i => s + f i) 0 = ∑ i ∈ Finset.range n, f i := by
  induction n with
  | zero => simp
  | succ m ih => rw [List.range_succ, List.foldl_append, ih, Finset.sum_range_succ]; rfl

theorem orientation_eq (x y : Nat → ℝ) (n : Nat) : orientation x y n = shoelace n (fun i => (x i, y i)) := fold_sum _ n

theorem next_neg {n i : Nat} (hi : i < n) : (n - prev n i) % n = ((n - i) % n + 1) % n := by
  unfold prev; split
  · subst_vars; simp
    rcases Nat.lt_or_ge 1 n with h1 | h1
    · rw [Nat.mod_eq_of_lt (show 1 < n from h1), Nat.mod_eq_of_lt (by omega)]; omega
    · have : n = 1 := by omega
      subst this; simp
  · rw [Nat.mod_eq_of_lt (show n - i < n by omega)]
    congr 1; omega

theorem area_eq {k n : Nat} (hn : n < 2 ^ 31) (x y : Nat → ℝ) :
    area (build k n x y) = |shoelace n (fun i => (x i, y i))| / 2 := by
  unfold area
  rw [fold_sum, build_n]
  have e : ∑ i ∈ Finset.range n, ((build k n x y).x i * (build k n x y).sy i - (build k n x y).y i * (build k n x y).sx i) =
      ∑ i ∈ Finset.range n, ((vert n x y i).1 * (vert n x y (prev n i)).2 - (vert n x y i).2 * (vert n x y (prev n i)).1) := by
    apply Finset.sum_congr rfl
    intro i hi
    have hi := Finset.mem_range.mp hi
    rw [build_x hi, build_y hi, build_sx hi, build_sy hi]
  rw [e]
  by_cases ho : orientation x y n > 0
  · have hinc : increment x y n = 2 ^ 64 - 1 := by unfold increment; rw [if_pos ho]
    rw [orientation_eq] at ho
    rw [abs_of_pos ho]
    unfold shoelace
    rw [← sum_neg n (fun i => (x i * y ((i + 1) % n) - y i * x ((i + 1) % n)))]
    rw [Finset.sum_congr rfl (g := fun i => x ((n - i) % n) * y (((n - i) % n + 1) % n) - y ((n - i) % n) * x (((n - i) % n + 1) % n))]
    · ring
    · intro i hi
      have hi := Finset.mem_range.mp hi
      unfold vert
      rw [hinc, source_neg hn hi, source_neg hn (prev_lt hi), next_neg hi]
  · have hinc : increment x y n = 1 := by unfold increment; rw [if_neg ho]
    rw [orientation_eq] at ho
    rw [abs_of_nonpos (not_lt.mp ho)]
    unfold shoelace
    rw [← sum_prev n (fun i => (x i * y ((i + 1) % n) - y i * x ((i + 1) % n))), ← Finset.sum_neg_distrib]
    rw [Finset.sum_congr rfl (g := fun i => -(x (prev n i) * y ((prev n i + 1) % n) - y (prev n i) * x ((prev n i + 1) % n)))]
    · ring
    · intro i hi
      have hi := Finset.mem_range.mp hi
      unfold vert
      rw [hinc, source_one hn hi, source_one hn (prev_lt hi), succ_prev hi]; ring

theorem fold_min (f : Nat → ℝ) (n : Nat) (c : ℝ) (hc : ∀ i, i < n → f i ≤ c) (hn : 0 < n) :
    (∀ i, i < n → (List.range n).foldl (fun m i => min (f i) m) c ≤ f i) ∧
      ∃ i, i < n ∧ (List.range n).foldl (fun m i => min (f i) m) c = f i := by
  induction n with
  | zero => omega
  | succ m ih =>
    rw [List.range_succ, List.foldl_append]
    simp only [List.foldl_cons, List.foldl_nil]
    rcases Nat.eq_zero_or_pos m with h0 | h0
    · subst h0
      have := hc 0 (by omega)
      refine ⟨fun i hi => ?_, 0, by omega, ?_⟩
      · have : i = 0 := by omega
        subst this; simp
      · simp [this]
    · obtain ⟨h1, j, hj, h2⟩ := ih (fun i hi => hc i (by omega)) h0
      generalize (List.range m).foldl (fun m i => min (f i) m) c = w at *
      constructor
      · intro i hi
        rcases Nat.lt_succ_iff_lt_or_eq.mp hi with h | h
        · exact le_trans (min_le_right _ _) (h1 i h)
        · subst h; exact min_le_left _ _
      · rcases le_total (f m) w with h | h
        · exact ⟨m, by omega, min_eq_left h⟩
        · exact ⟨j, by omega, by rw [min_eq_right h, h2]⟩

theorem fold_max (f : Nat → ℝ) (n : Nat) (c : ℝ) (hc : ∀ i, i < n → c ≤ f i) (hn : 0 < n) :
    (∀ i, i < n → f i ≤ (List.range n).foldl (fun m i => max (f i) m) c) ∧
      ∃ i, i < n ∧ (List.range n).foldl (fun m i => max (f i) m) c = f i := by
  induction n with
  | zero => omega
  | succ m ih =>
    rw [List.range_succ, List.foldl_append]
    simp only [List.foldl_cons, List.foldl_nil]
    rcases Nat.eq_zero_or_pos m with h0 | h0
    · subst h0
      have := hc 0 (by omega)
      refine ⟨fun i hi => ?_, 0, by omega, ?_⟩
      · have : i = 0 := by omega
        subst this; simp
      · simp [this]
    · obtain ⟨h1, j, hj, h2⟩ := ih (fun i hi => hc i (by omega)) h0
      generalize (List.range m).foldl (fun m i => max (f i) m) c = w at *
      constructor
      · intro i hi
        rcases Nat.lt_succ_iff_lt_or_eq.mp hi with h | h
        · exact le_trans (h1 i h) (le_max_right _ _)
        · subst h; exact le_max_left _ _
      · rcases le_total (f m) w with h | h
        · exact ⟨j, by omega, by rw [max_eq_right h, h2]⟩
        · exact ⟨m, by omega, max_eq_left h⟩

/-- Each vertex of the input has an index after `Init`. -/
theorem vert_surj {n : Nat} (hn : n < 2 ^ 31) (x y : Nat → ℝ) {j : Nat} (hj : j < n) : ∃ i, i < n ∧ vert n x y i = (x j, y j) := by
  rcases increment_cases x y n with h | h
  · exact ⟨j, hj, by unfold vert; rw [h, source_one hn hj]⟩
  · refine ⟨(n - j) % n, Nat.mod_lt _ (by omega), ?_⟩
    unfold vert
    rw [h, source_neg hn (Nat.mod_lt _ (by omega))]
    have : (n - (n - j) % n) % n = j := by
      rcases Nat.eq_zero_or_pos j with h0 | h0
      · subst h0; simp
      · rw [Nat.mod_eq_of_lt (show n - j < n by omega), show n - (n - j) = j by omega, Nat.mod_eq_of_lt hj]
    rw [this]

theorem vert_inj {n : Nat} (x y : Nat → ℝ) {i : Nat} (hi : i < n) : ∃ j, j < n ∧ vert n x y i = (x j, y j) :=
  ⟨_, Nat.mod_lt _ (by omega), rfl⟩

/-- C93: a polygon of at least one vertex is accepted in either order: the exception is never thrown.  Its vertices are those given,
in the given order if that is clockwise and else in the reverse order from the same first vertex; `Area` is the area by the shoelace
formula, whatever the order; and the extent is that of the vertices. -/
theorem C93_init {k n : Nat} (hk : 0 < k) (hn0 : 0 < n) (hn : n < 2 ^ 31) (x y : Nat → ℝ) :
    ∃ p, init k n x y = some p ∧ p.n = n ∧
      (shoelace n (fun i => (x i, y i)) ≤ 0 → ∀ i, i < n → p.x i = x i ∧ p.y i = y i) ∧
      (0 < shoelace n (fun i => (x i, y i)) → ∀ i, i < n → p.x i = x ((n - i) % n) ∧ p.y i = y ((n - i) % n)) ∧
      (∀ i, i < n → p.sx i = p.x ((i + n - 1) % n) ∧ p.sy i = p.y ((i + n - 1) % n)) ∧
      area p = |shoelace n (fun i => (x i, y i))| / 2 ∧
      ((∀ i, i < n → |x i| ≤ kInfLength ∧ |y i| ≤ kInfLength) →
        (∀ i, i < n → p.minX ≤ x i ∧ x i ≤ p.maxX ∧ p.minY ≤ y i ∧ y i ≤ p.maxY) ∧
        (∃ i, i < n ∧ p.minX = x i) ∧ (∃ i, i < n ∧ p.maxX = x i) ∧ (∃ i, i < n ∧ p.minY = y i) ∧ ∃ i, i < n ∧ p.maxY = y i) := by
  refine ⟨build k n x y, ?_, rfl, fun ho i hi => ?_, fun ho i hi => ?_, fun i hi => ?_, area_eq hn x y, fun hb => ?_⟩
  · unfold init
    have h1 : ¬ bufferSize k n = 0 := by
      unfold bufferSize
      intro h0
      rcases Nat.mul_eq_zero.mp h0 with h | h
      · have := Nat.div_add_mod n k
        obtain ⟨h2, h3⟩ := Nat.add_eq_zero_iff.mp h
        rw [h2, h3] at this; omega
      · omega
    have h2 : ¬ area (build k n x y) < 0 := by rw [area_eq hn]; exact not_lt.mpr (by positivity)
    rw [if_neg h1, if_neg h2]
  · have hinc : increment x y n = 1 := by
      unfold increment; rw [orientation_eq, if_neg (not_lt.mpr ho)]
    rw [build_x hi, build_y hi]; unfold vert; rw [hinc, source_one hn hi]; exact ⟨rfl, rfl⟩
  · have hinc : increment x y n = 2 ^ 64 - 1 := by
      unfold increment; rw [orientation_eq, if_pos ho]
    rw [build_x hi, build_y hi]; unfold vert; rw [hinc, source_neg hn hi]; exact ⟨rfl, rfl⟩
  · have e : prev n i = (i + n - 1) % n := by
      unfold prev; split
      · subst_vars; rw [Nat.mod_eq_of_lt (by omega)]; omega
      · rw [show i + n - 1 = (i - 1) + n by omega, Nat.add_mod_right, Nat.mod_eq_of_lt (by omega)]
    rw [build_sx hi, build_sy hi, ← e, build_x (prev_lt hi), build_y (prev_lt hi)]; exact ⟨rfl, rfl⟩
  · have hx : ∀ i, i < n → |(vert n x y i).1| ≤ kInfLength ∧ |(vert n x y i).2| ≤ kInfLength := by
      intro i hi
      exact hb _ (Nat.mod_lt _ (by omega))
    have a1 := fold_min (fun i => (vert n x y i).1) n kInfLength (fun i hi => (abs_le.mp (hx i hi).1).2) hn0
    have a2 := fold_max (fun i => (vert n x y i).1) n (-kInfLength) (fun i hi => (abs_le.mp (hx i hi).1).1) hn0
    have a3 := fold_min (fun i => (vert n x y i).2) n kInfLength (fun i hi => (abs_le.mp (hx i hi).2).2) hn0
    have a4 := fold_max (fun i => (vert n x y i).2) n (-kInfLength) (fun i hi => (abs_le.mp (hx i hi).2).1) hn0
    refine ⟨fun j hj => ?_, ?_, ?_, ?_, ?_⟩
    · obtain ⟨i, hi, hv⟩ := vert_surj hn x y hj
      have b1 := a1.1 i hi
      have b2 := a2.1 i hi
      have b3 := a3.1 i hi
      have b4 := a4.1 i hi
      simp only [hv] at b1 b2 b3 b4
      exact ⟨b1, b2, b3, b4⟩
    · obtain ⟨i, hi, h⟩ := a1.2
      exact ⟨_, Nat.mod_lt _ (by omega), h⟩
    · obtain ⟨i, hi, h⟩ := a2.2
      exact ⟨_, Nat.mod_lt _ (by omega), h⟩
    · obtain ⟨i, hi, h⟩ := a3.2
      exact ⟨_, Nat.mod_lt _ (by omega), h⟩
    · obtain ⟨i, hi, h⟩ := a4.2
      exact ⟨_, Nat.mod_lt _ (by omega), h⟩

example : shoelace 4 (fun i => (sqx i, sqy i)) = 2 := by rw [← orientation_eq]; exact sq_area_nonneg

end Polygon
end VecGeom
