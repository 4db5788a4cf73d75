import Verif.Polygon.Convex

/-!
# C95: convex polygons
-/

namespace VecGeom
namespace Polygon

open Real

/-- The distance of `q` from the line through the vertices `i` and `i + 1`, positive on the side of the polygon. -/
noncomputable def depth (n : Nat) (v : Nat → ℝ × ℝ) (i : Nat) (q : ℝ × ℝ) : ℝ :=
  sgn n v * side (v i) (v ((i + 1) % n)) q / √(dist2 (v i) (v ((i + 1) % n)))

/-- No coefficient of a line is so small that it is set to 0 without being 0. -/
def Unchopped (n : Nat) (v : Nat → ℝ × ℝ) : Prop :=
  ∀ i, i < n → ∀ c, (c = (v i).2 - (v ((i + 1) % n)).2 ∨ c = (v i).1 - (v ((i + 1) % n)).1 ∨
      c = (v i).1 * (v ((i + 1) % n)).2 - (v i).2 * (v ((i + 1) % n)).1) →
    c = 0 ∨ kTolerance ≤ |c| / √(dist2 (v i) (v ((i + 1) % n)))

theorem chop_error (c : ℝ) : |chop c - c| ≤ kTolerance := by
  unfold chop
  split
  · rename_i h; rw [zero_sub, abs_neg]; exact h.le
  · rw [sub_self, abs_zero]; unfold kTolerance; norm_num

theorem chop_id {c : ℝ} (h : c = 0 ∨ kTolerance ≤ |c|) : chop c = c := by
  unfold chop
  rcases h with h | h
  · rw [h]; simp
  · rw [if_neg (not_lt.mpr h)]

section Lines
variable {k n : Nat} {x y : Nat → ℝ}

/-- The value that the code compares, for one edge. -/
noncomputable def lineVal (p : Poly) (q : ℝ × ℝ) (i : Nat) : ℝ := -(p.a i * q.1 + p.b i * q.2 + p.d i)

theorem build_line {i : Nat} (hi : i < n) :
    ((build k n x y).a i, (build k n x y).b i, (build k n x y).d i) =
      line (vert n x y i).1 (vert n x y i).2 (vert n x y (prev n i)).1 (vert n x y (prev n i)).2 := by
  have h1 : (build k n x y).a i = (line (vert n x y i).1 (vert n x y i).2 (vert n x y (prev n i)).1 (vert n x y (prev n i)).2).1 := if_pos hi
  have h2 : (build k n x y).b i = (line (vert n x y i).1 (vert n x y i).2 (vert n x y (prev n i)).1 (vert n x y (prev n i)).2).2.1 := if_pos hi
  have h3 : (build k n x y).d i = (line (vert n x y i).1 (vert n x y i).2 (vert n x y (prev n i)).1 (vert n x y (prev n i)).2).2.2 := if_pos hi
  rw [h1, h2, h3]

theorem root_comm (a b : ℝ × ℝ) : √(-(b.2 - a.2) * -(b.2 - a.2) + (b.1 - a.1) * (b.1 - a.1)) = √(dist2 a b) := by
  unfold dist2; congr 1; ring

theorem dist2_comm (a b : ℝ × ℝ) : dist2 a b = dist2 b a := by unfold dist2; ring

/-- The line of an edge without the rounding of small coefficients. -/
theorem line_exact (a b q : ℝ × ℝ) :
    -(-(b.2 - a.2) * (1 / √(-(b.2 - a.2) * -(b.2 - a.2) + (b.1 - a.1) * (b.1 - a.1))) * q.1 +
        (b.1 - a.1) * (1 / √(-(b.2 - a.2) * -(b.2 - a.2) + (b.1 - a.1) * (b.1 - a.1))) * q.2 +
        -(-(b.2 - a.2) * (1 / √(-(b.2 - a.2) * -(b.2 - a.2) + (b.1 - a.1) * (b.1 - a.1))) * a.1 +
          (b.1 - a.1) * (1 / √(-(b.2 - a.2) * -(b.2 - a.2) + (b.1 - a.1) * (b.1 - a.1))) * a.2)) =
      -(side a b q / √(dist2 a b)) := by
  rw [root_comm]; unfold side; ring

/-- The line of an edge as stored, against the exact one. -/
theorem lineVal_error {i : Nat} (hi : i < n) (q : ℝ × ℝ) :
    |lineVal (build k n x y) q i + side (vert n x y i) (vert n x y (prev n i)) q / √(dist2 (vert n x y i) (vert n x y (prev n i)))| ≤
      kTolerance * (|q.1| + |q.2| + 1) := by
  have hl := build_line (k := k) (x := x) (y := y) hi
  generalize vert n x y i = a at *
  generalize vert n x y (prev n i) = b at *
  unfold line at hl
  dsimp only at hl
  have h1 := congrArg Prod.fst hl
  have h2 := congrArg (fun z : ℝ × ℝ × ℝ => z.2.1) hl
  have h3 := congrArg (fun z : ℝ × ℝ × ℝ => z.2.2) hl
  dsimp only at h1 h2 h3
  unfold lineVal
  rw [h1, h2, h3]
  have e := line_exact a b q
  generalize -(b.2 - a.2) * (1 / √(-(b.2 - a.2) * -(b.2 - a.2) + (b.1 - a.1) * (b.1 - a.1))) = A at *
  generalize (b.1 - a.1) * (1 / √(-(b.2 - a.2) * -(b.2 - a.2) + (b.1 - a.1) * (b.1 - a.1))) = B at *
  generalize -(A * a.1 + B * a.2) = D at *
  have cA := chop_error A
  have cB := chop_error B
  have cD := chop_error D
  have : -(chop A * q.1 + chop B * q.2 + chop D) + side a b q / √(dist2 a b) =
      -((chop A - A) * q.1 + (chop B - B) * q.2 + (chop D - D)) := by linear_combination e
  rw [this, abs_neg]
  have t1 : |(chop A - A) * q.1| ≤ kTolerance * |q.1| := by rw [abs_mul]; exact mul_le_mul_of_nonneg_right cA (abs_nonneg _)
  have t2 : |(chop B - B) * q.2| ≤ kTolerance * |q.2| := by rw [abs_mul]; exact mul_le_mul_of_nonneg_right cB (abs_nonneg _)
  have t3 := abs_add_le ((chop A - A) * q.1 + (chop B - B) * q.2) (chop D - D)
  have t4 := abs_add_le ((chop A - A) * q.1) ((chop B - B) * q.2)
  linarith

/-- The line of an edge as stored, if no coefficient is set to 0. -/
theorem lineVal_exact {i : Nat} (hi : i < n) (q : ℝ × ℝ)
    (h : ∀ c, (c = (vert n x y i).2 - (vert n x y (prev n i)).2 ∨ c = (vert n x y i).1 - (vert n x y (prev n i)).1 ∨
      c = (vert n x y i).1 * (vert n x y (prev n i)).2 - (vert n x y i).2 * (vert n x y (prev n i)).1) →
      c = 0 ∨ kTolerance ≤ |c| / √(dist2 (vert n x y i) (vert n x y (prev n i)))) :
    lineVal (build k n x y) q i = -(side (vert n x y i) (vert n x y (prev n i)) q / √(dist2 (vert n x y i) (vert n x y (prev n i)))) := by
  have hl := build_line (k := k) (x := x) (y := y) hi
  generalize vert n x y i = a at *
  generalize vert n x y (prev n i) = b at *
  unfold line at hl
  dsimp only at hl
  have h1 := congrArg Prod.fst hl
  have h2 := congrArg (fun z : ℝ × ℝ × ℝ => z.2.1) hl
  have h3 := congrArg (fun z : ℝ × ℝ × ℝ => z.2.2) hl
  dsimp only at h1 h2 h3
  unfold lineVal
  rw [h1, h2, h3, ← line_exact a b q]
  have scale : ∀ c, (c = 0 ∨ kTolerance ≤ |c| / √(dist2 a b)) → ∀ s : ℝ, s = c * (1 / √(dist2 a b)) ∨ s = -(c * (1 / √(dist2 a b))) →
      chop s = s := by
    intro c hc s hs
    apply chop_id
    rcases hc with hc | hc
    · left; rcases hs with hs | hs <;> rw [hs, hc] <;> ring
    · right
      have : |s| = |c| / √(dist2 a b) := by
        have h0 : |c * (1 / √(dist2 a b))| = |c| / √(dist2 a b) := by
          rw [abs_mul, abs_of_nonneg (show 0 ≤ 1 / √(dist2 a b) by positivity)]; ring
        rcases hs with hs | hs
        · rw [hs, h0]
        · rw [hs, abs_neg, h0]
      rw [this]; exact hc
  have cA := scale _ (h _ (Or.inl rfl)) (-(b.2 - a.2) * (1 / √(-(b.2 - a.2) * -(b.2 - a.2) + (b.1 - a.1) * (b.1 - a.1))))
    (Or.inl (by rw [root_comm]; ring))
  have cB := scale _ (h _ (Or.inr (Or.inl rfl))) ((b.1 - a.1) * (1 / √(-(b.2 - a.2) * -(b.2 - a.2) + (b.1 - a.1) * (b.1 - a.1))))
    (Or.inr (by rw [root_comm]; ring))
  have cD := scale _ (h _ (Or.inr (Or.inr rfl))) (-(-(b.2 - a.2) * (1 / √(-(b.2 - a.2) * -(b.2 - a.2) + (b.1 - a.1) * (b.1 - a.1))) * a.1 +
      (b.1 - a.1) * (1 / √(-(b.2 - a.2) * -(b.2 - a.2) + (b.1 - a.1) * (b.1 - a.1))) * a.2))
    (Or.inl (by rw [root_comm]; ring))
  rw [cA, cB, cD]

/-- The edge of the input that an edge after `Init` is, and the sides. -/
theorem edge_depth (hn : n < 2 ^ 31) {i : Nat} (hi : i < n) :
    ∃ j, j < n ∧ (∀ q, side (vert n x y i) (vert n x y (prev n i)) q / √(dist2 (vert n x y i) (vert n x y (prev n i))) =
        depth n (fun i => (x i, y i)) j q) ∧
      ((vert n x y i = (x j, y j) ∧ vert n x y (prev n i) = (x ((j + 1) % n), y ((j + 1) % n))) ∨
      (vert n x y (prev n i) = (x j, y j) ∧ vert n x y i = (x ((j + 1) % n), y ((j + 1) % n)))) := by
  have hn0 : 0 < n := by omega
  by_cases ho : orientation x y n > 0
  · have hinc : increment x y n = 2 ^ 64 - 1 := by unfold increment; rw [if_pos ho]
    rw [orientation_eq] at ho
    have e : vert n x y i = (x ((n - i) % n), y ((n - i) % n)) ∧
        vert n x y (prev n i) = (x (((n - i) % n + 1) % n), y (((n - i) % n + 1) % n)) := by
      unfold vert; rw [hinc, source_neg hn hi, source_neg hn (prev_lt hi), next_neg hi]; exact ⟨rfl, rfl⟩
    refine ⟨(n - i) % n, Nat.mod_lt _ hn0, fun q => ?_, Or.inl e⟩
    unfold depth sgn
    rw [if_pos ho, e.1, e.2, one_mul]
  · have hinc : increment x y n = 1 := by unfold increment; rw [if_neg ho]
    rw [orientation_eq] at ho
    have e : vert n x y (prev n i) = (x (prev n i), y (prev n i)) ∧
        vert n x y i = (x ((prev n i + 1) % n), y ((prev n i + 1) % n)) := by
      unfold vert; rw [hinc, source_one hn hi, source_one hn (prev_lt hi), succ_prev hi]; exact ⟨rfl, rfl⟩
    refine ⟨prev n i, prev_lt hi, fun q => ?_, Or.inr e⟩
    unfold depth sgn
    rw [if_neg ho, e.1, e.2, dist2_comm]
    unfold side; ring

/-- Each edge of the input is one after `Init`. -/
theorem depth_edge_full (hn : n < 2 ^ 31) {j : Nat} (hj : j < n) :
    ∃ i, i < n ∧ (∀ q, side (vert n x y i) (vert n x y (prev n i)) q / √(dist2 (vert n x y i) (vert n x y (prev n i))) =
        depth n (fun i => (x i, y i)) j q) ∧
      ((vert n x y i = (x j, y j) ∧ vert n x y (prev n i) = (x ((j + 1) % n), y ((j + 1) % n))) ∨
      (vert n x y (prev n i) = (x j, y j) ∧ vert n x y i = (x ((j + 1) % n), y ((j + 1) % n)))) := by
  have hn0 : 0 < n := by omega
  by_cases ho : orientation x y n > 0
  · have hinc : increment x y n = 2 ^ 64 - 1 := by unfold increment; rw [if_pos ho]
    rw [orientation_eq] at ho
    have hs : (n - j) % n < n := Nat.mod_lt _ hn0
    have hb : (n - (n - j) % n) % n = j := by
      rcases Nat.eq_zero_or_pos j with h0 | h0
      · subst h0; simp
      · rw [Nat.mod_eq_of_lt (show n - j < n by omega), show n - (n - j) = j by omega, Nat.mod_eq_of_lt hj]
    have e : vert n x y ((n - j) % n) = (x j, y j) ∧ vert n x y (prev n ((n - j) % n)) = (x ((j + 1) % n), y ((j + 1) % n)) := by
      unfold vert; rw [hinc, source_neg hn hs, source_neg hn (prev_lt hs), next_neg hs, hb]; exact ⟨rfl, rfl⟩
    refine ⟨(n - j) % n, hs, fun q => ?_, Or.inl e⟩
    unfold depth sgn
    rw [if_pos ho, e.1, e.2, one_mul]
  · have hinc : increment x y n = 1 := by unfold increment; rw [if_neg ho]
    rw [orientation_eq] at ho
    have hs : (j + 1) % n < n := Nat.mod_lt _ hn0
    have hp : prev n ((j + 1) % n) = j := by
      unfold prev
      rcases Nat.lt_or_ge (j + 1) n with h1 | h1
      · rw [Nat.mod_eq_of_lt h1, if_neg (by omega)]; omega
      · have : j + 1 = n := by omega
        rw [this, Nat.mod_self, if_pos rfl]; omega
    have e : vert n x y (prev n ((j + 1) % n)) = (x j, y j) ∧ vert n x y ((j + 1) % n) = (x ((j + 1) % n), y ((j + 1) % n)) := by
      unfold vert; rw [hinc, hp, source_one hn hj, source_one hn hs]; exact ⟨rfl, rfl⟩
    refine ⟨(j + 1) % n, hs, fun q => ?_, Or.inr e⟩
    unfold depth sgn
    rw [if_neg ho, e.1, e.2, dist2_comm]
    unfold side; ring

theorem depth_edge (hn : n < 2 ^ 31) {j : Nat} (hj : j < n) :
    ∃ i, i < n ∧ ∀ q, side (vert n x y i) (vert n x y (prev n i)) q / √(dist2 (vert n x y i) (vert n x y (prev n i))) =
        depth n (fun i => (x i, y i)) j q := by
  obtain ⟨i, hi, h, -⟩ := depth_edge_full (x := x) (y := y) hn hj
  exact ⟨i, hi, h⟩

/-- The margin of the stored lines. -/
noncomputable def margin (q : ℝ × ℝ) : ℝ := kTolerance * (|q.1| + |q.2| + 1)

theorem kInf_huge : (10 : ℝ) ^ 200 < kInfLength := by
  unfold kInfLength
  have h1 : (10 : ℝ) ^ 200 ≤ 2 ^ 1020 := by
    rw [show (200 : ℕ) = 2 * 100 from rfl, show (1020 : ℕ) = 10 * 102 from rfl, pow_mul, pow_mul]
    calc ((10 : ℝ) ^ 2) ^ 100 ≤ ((2 : ℝ) ^ 10) ^ 100 := pow_le_pow_left₀ (by norm_num) (by norm_num) _
      _ ≤ ((2 : ℝ) ^ 10) ^ 102 := pow_le_pow_right₀ (by norm_num) (by norm_num)
  have h2 : (2 : ℝ) ^ 1020 < 2 ^ 1023 := pow_lt_pow_right₀ (by norm_num) (by norm_num)
  have h3 : (1 : ℝ) ≤ 2 - 1 / 2 ^ 52 := by norm_num
  have h4 : (0 : ℝ) < 2 ^ 1023 := pow_pos (by norm_num) _
  generalize (2 : ℝ) ^ 1023 = A at *
  generalize (2 : ℝ) ^ 1020 = B at *
  generalize (2 : ℝ) - 1 / 2 ^ 52 = C at *
  have h5 : B < C * A := by nlinarith
  exact lt_of_le_of_lt h1 h5

theorem fold_lines (p : Poly) (q : ℝ × ℝ) (hp : 0 < p.n) (hb : ∀ i, i < p.n → -kInfLength ≤ lineVal p q i) :
    (∀ i, i < p.n → lineVal p q i ≤ lineDistance p q.1 q.2) ∧ ∃ i, i < p.n ∧ lineDistance p q.1 q.2 = lineVal p q i :=
  fold_max (fun i => lineVal p q i) p.n (-kInfLength) hb hp

end Lines

/-! ## The distance to a line -/

theorem depth_lipschitz {n : Nat} {v : Nat → ℝ × ℝ} {i : Nat} (q b : ℝ × ℝ) :
    depth n v i q - depth n v i b ≤ √(dist2 q b) := by
  unfold depth
  generalize v i = a
  generalize v ((i + 1) % n) = c
  have hs : sgn n v * sgn n v = 1 := by unfold sgn; split <;> norm_num
  rcases (dist2_nonneg a c).eq_or_lt with h0 | h0
  · rw [← h0, sqrt_zero, div_zero, div_zero, sub_zero]; exact sqrt_nonneg _
  · have hr := sqrt_pos.mpr h0
    rw [← sub_div, div_le_iff₀ hr, ← sqrt_mul (dist2_nonneg q b)]
    apply le_sqrt_of_sq_le
    have e : sgn n v * side a c q - sgn n v * side a c b = sgn n v * ((c.1 - a.1) * (q.2 - b.2) - (c.2 - a.2) * (q.1 - b.1)) := by
      unfold side; ring
    rw [e, mul_pow, pow_two (sgn n v), hs, one_mul]
    unfold dist2
    nlinarith [mul_self_nonneg ((c.1 - a.1) * (q.1 - b.1) + (c.2 - a.2) * (q.2 - b.2))]

theorem depth_boundary {n : Nat} {v : Nat → ℝ × ℝ} {b : ℝ × ℝ} (hb : OnBoundary n v b) : ∃ i, i < n ∧ depth n v i b = 0 := by
  obtain ⟨i, hi, h⟩ := boundary_zero hb
  exact ⟨i, hi, by unfold depth; rw [h]; simp⟩

/-- All points of the polygon are on the right side of all lines. -/
def Within (n : Nat) (v : Nat → ℝ × ℝ) (q : ℝ × ℝ) : Prop := ∀ i, i < n → 0 ≤ depth n v i q

/-- The coordinates are below `10¹⁰⁰`. -/
def Bounded (n : Nat) (v : Nat → ℝ × ℝ) (q : ℝ × ℝ) : Prop :=
  |q.1| ≤ 10 ^ 100 ∧ |q.2| ≤ 10 ^ 100 ∧ ∀ i, i < n → |(v i).1| ≤ 10 ^ 100 ∧ |(v i).2| ≤ 10 ^ 100

theorem depth_bound {n : Nat} {v : Nat → ℝ × ℝ} {q : ℝ × ℝ} (h : Bounded n v q) {i : Nat} (hi : i < n) :
    depth n v i q ≤ 10 ^ 101 := by
  have h0 : depth n v i (v i) = 0 := by unfold depth; rw [side_left]; simp
  have := depth_lipschitz (n := n) (v := v) (i := i) q (v i)
  rw [h0, sub_zero] at this
  refine le_trans this (sqrt_le_iff.mpr ⟨by positivity, ?_⟩)
  obtain ⟨h1, h2, h3⟩ := h
  obtain ⟨h4, h5⟩ := h3 i hi
  have a1 : |q.1 - (v i).1| ≤ 2 * 10 ^ 100 := by have := abs_sub q.1 (v i).1; linarith
  have a2 : |q.2 - (v i).2| ≤ 2 * 10 ^ 100 := by have := abs_sub q.2 (v i).2; linarith
  unfold dist2
  rw [← abs_mul_abs_self (q.1 - (v i).1), ← abs_mul_abs_self (q.2 - (v i).2)]
  have b1 := mul_le_mul a1 a1 (abs_nonneg _) (by positivity)
  have b2 := mul_le_mul a2 a2 (abs_nonneg _) (by positivity)
  have : (2 * (10 : ℝ) ^ 100) * (2 * 10 ^ 100) + (2 * 10 ^ 100) * (2 * 10 ^ 100) ≤ (10 ^ 101) ^ 2 := by norm_num
  linarith

/-- The largest of the values, against the smallest depth. -/
theorem lineDistance_spec {k n : Nat} {x y : Nat → ℝ} (hn : n < 2 ^ 31) (hn0 : 0 < n) {q : ℝ × ℝ}
    (hb : Bounded n (fun i => (x i, y i)) q) {e : ℝ} (he : e ≤ margin q)
    (herr : ∀ i, i < n → |lineVal (build k n x y) q i +
      side (vert n x y i) (vert n x y (prev n i)) q / √(dist2 (vert n x y i) (vert n x y (prev n i)))| ≤ e) :
    (∀ j, j < n → -depth n (fun i => (x i, y i)) j q ≤ lineDistance (build k n x y) q.1 q.2 + e) ∧
      ∃ j, j < n ∧ lineDistance (build k n x y) q.1 q.2 ≤ -depth n (fun i => (x i, y i)) j q + e := by
  have hm : margin q ≤ 10 ^ 101 := by
    unfold margin kTolerance
    obtain ⟨h1, h2, -⟩ := hb
    have : (1 : ℝ) ≤ 10 ^ 100 := by norm_num
    nlinarith
  have hlow : ∀ i, i < (build k n x y).n → -kInfLength ≤ lineVal (build k n x y) q i := by
    intro i hi
    have h1 := (abs_le.mp (herr i hi)).1
    obtain ⟨j, hj, hd, -⟩ := edge_depth (x := x) (y := y) hn hi
    rw [hd q] at h1
    have h2 := depth_bound hb hj
    have h3 := kInf_huge
    have : (2 : ℝ) * 10 ^ 101 ≤ 10 ^ 200 := by norm_num
    linarith
  obtain ⟨f1, i, hi, f2⟩ := fold_lines (build k n x y) q hn0 hlow
  constructor
  · intro j hj
    obtain ⟨i, hi, hd⟩ := depth_edge (x := x) (y := y) hn hj
    have h1 := f1 i hi
    have h2 := (abs_le.mp (herr i hi)).1
    rw [hd q] at h2; linarith
  · obtain ⟨j, hj, hd, -⟩ := edge_depth (x := x) (y := y) hn hi
    refine ⟨j, hj, ?_⟩
    have h2 := (abs_le.mp (herr i hi)).2
    rw [hd q] at h2; rw [f2]; linarith

theorem err_exact {k n : Nat} {x y : Nat → ℝ} (hn : n < 2 ^ 31) (hu : Unchopped n (fun i => (x i, y i))) (q : ℝ × ℝ) :
    ∀ i, i < n → |lineVal (build k n x y) q i +
      side (vert n x y i) (vert n x y (prev n i)) q / √(dist2 (vert n x y i) (vert n x y (prev n i)))| ≤ 0 := by
  intro i hi
  rw [lineVal_exact hi q]
  · simp
  · intro c hc
    obtain ⟨j, hj, -, h | h⟩ := edge_depth (x := x) (y := y) hn hi
    · rw [h.1, h.2] at hc ⊢
      exact hu j hj c hc
    · rw [h.1, h.2] at hc ⊢
      rw [dist2_comm]
      have hu' := hu j hj (-c)
      simp only at hu'
      have : -c = 0 ∨ kTolerance ≤ |-c| / √(dist2 (x j, y j) (x ((j + 1) % n), y ((j + 1) % n))) := by
        apply hu'
        rcases hc with hc | hc | hc
        · left; rw [hc]; ring
        · right; left; rw [hc]; ring
        · right; right; rw [hc]; ring
      rw [abs_neg] at this
      rcases this with h' | h'
      · left; linarith
      · right; exact h'

/-! ## The properties -/

/-- A point on the line of an edge and on the inner side of all others is on the edge. -/
theorem on_edge_of_line {n : Nat} {v : Nat → ℝ × ℝ} (h : StrictlyConvex n v) {i : Nat} (hi : i < n) {q : ℝ × ℝ}
    (hz : sgn n v * side (v i) (v ((i + 1) % n)) q = 0) (hall : ∀ j, j < n → 0 ≤ sgn n v * side (v j) (v ((j + 1) % n)) q) :
    OnBoundary n v q := by
  have h3 := h.1
  have hn : 0 < n := by omega
  have hσ : sgn n v ≠ 0 := by unfold sgn; split <;> norm_num
  have hside : side (v i) (v ((i + 1) % n)) q = 0 := by
    rcases mul_eq_zero.mp hz with h' | h'
    · exact absurd h' hσ
    · exact h'
  have hi1 : (i + 1) % n < n := Nat.mod_lt _ hn
  have hcase : (i + 1 < n ∧ (i + 1) % n = i + 1) ∨ (i + 1 = n ∧ (i + 1) % n = 0) := by
    rcases Nat.lt_or_ge (i + 1) n with h' | h'
    · exact Or.inl ⟨h', Nat.mod_eq_of_lt h'⟩
    · have : i + 1 = n := by omega
      exact Or.inr ⟨this, by rw [this, Nat.mod_self]⟩
  have hcase2 : ((i + 1) % n + 1 < n ∧ ((i + 1) % n + 1) % n = (i + 1) % n + 1) ∨ ((i + 1) % n + 1 = n ∧ ((i + 1) % n + 1) % n = 0) := by
    rcases Nat.lt_or_ge ((i + 1) % n + 1) n with h' | h'
    · exact Or.inl ⟨h', Nat.mod_eq_of_lt h'⟩
    · have : (i + 1) % n + 1 = n := by omega
      exact Or.inr ⟨this, by rw [this, Nat.mod_self]⟩
  -- the neighbours
  have hb0 : 0 < sgn n v * side (v (prev n i)) (v i) (v ((i + 1) % n)) := by
    have := h.pos (prev n i) ((i + 1) % n) (prev_lt hi) hi1 (by unfold prev; split <;> omega) (by rw [succ_prev hi]; omega)
    rwa [succ_prev hi] at this
  have ha0 : 0 < sgn n v * side (v ((i + 1) % n)) (v (((i + 1) % n + 1) % n)) (v i) :=
    h.pos ((i + 1) % n) i hi1 hi (by omega) (by omega)
  have q1 : 0 ≤ sgn n v * side (v (prev n i)) (v i) q := by
    have := hall (prev n i) (prev_lt hi); rwa [succ_prev hi] at this
  have q2 := hall ((i + 1) % n) hi1
  generalize v (((i + 1) % n + 1) % n) = d at *
  generalize v (prev n i) = c at *
  have hab : v i ≠ v ((i + 1) % n) := by
    intro h'; rw [← h', side_right] at hb0; simp at hb0
  -- the parameter along the edge
  have hpar : ∃ s : ℝ, q = ((v i).1 + s * ((v ((i + 1) % n)).1 - (v i).1), (v i).2 + s * ((v ((i + 1) % n)).2 - (v i).2)) := by
    generalize v i = a at *
    generalize v ((i + 1) % n) = b at *
    unfold side at hside
    by_cases hx : b.1 - a.1 = 0
    · have hy : b.2 - a.2 ≠ 0 := by intro h'; apply hab; ext <;> linarith
      refine ⟨(q.2 - a.2) / (b.2 - a.2), ?_⟩
      rw [hx] at hside
      have : q.1 - a.1 = 0 := by
        have : (b.2 - a.2) * (q.1 - a.1) = 0 := by linarith
        rcases mul_eq_zero.mp this with h' | h'
        · exact absurd h' hy
        · exact h'
      ext
      · simp only; rw [hx]; linarith
      · simp only; field_simp; ring
    · refine ⟨(q.1 - a.1) / (b.1 - a.1), ?_⟩
      ext
      · simp only; field_simp; ring
      · simp only; field_simp; linarith
  obtain ⟨s, rfl⟩ := hpar
  refine ⟨i, hi, s, ?_, ?_, rfl⟩
  · rw [side_edge, side_right] at q1
    by_contra hneg
    have := mul_neg_of_neg_of_pos (not_le.mp hneg) hb0
    nlinarith
  · rw [side_edge, side_left] at q2
    by_contra hneg
    have := mul_neg_of_neg_of_pos (show 1 - s < 0 by linarith) ha0
    nlinarith

/-- C95: a polygon whose vertices are in strictly convex position contains exactly the points that are strictly on the inner side of all
its edges, by the general test. -/
theorem C95_contains {k n : Nat} {x y : Nat → ℝ} {p : Poly} (hn : n < 2 ^ 31) (hp : init k n x y = some p)
    (hc : StrictlyConvex n (fun i => (x i, y i))) (q : ℝ × ℝ) (hq : Clear n (fun i => (x i, y i)) q) :
    contains p q.1 q.2 = true ↔ Interior n (fun i => (x i, y i)) q := by
  obtain ⟨rfl, -, -⟩ := init_some hp
  have hn0 : 0 < n := by have := hc.1; omega
  have off : ¬ OnBoundary n (fun i => (x i, y i)) q := hq q.2 (by rw [sub_self, abs_zero]; positivity)
  rw [contains_par hn hq, interior_iff hn0]
  constructor
  · intro h i hi
    by_contra hcon
    have hpar : par n (fun i => (x i, y i)) q = 1 := by simpa using h
    have h0 : par n (fun i => (x i, y i)) q = 0 := by
      rcases (not_lt.mp hcon).lt_or_eq with hlt | heq
      · exact par_outside hc hi hlt
      · -- on the line of an edge, but not on the edge: some other side is negative
        by_contra hne
        have hall : ∀ j, j < n → 0 ≤ sgn n (fun i => (x i, y i)) * side (x j, y j) (x ((j + 1) % n), y ((j + 1) % n)) q := by
          intro j hj
          by_contra hlt
          exact hne (par_outside hc hj (not_le.mp hlt))
        exact off (on_edge_of_line hc hi heq hall)
    rw [h0] at hpar; exact absurd hpar (by decide)
  · intro h
    rw [par_inside hc h]; decide

/-- C95: the tests for convex polygons are exact if no coefficient of a line is set to 0 for being small: `ContainsConvex` is true
for the points strictly on the inner side of all edges, and `SafetyConvex` is at most the distance to the boundary from inside, and at
most the distance to the polygon from outside.  In any case the results are within `10⁻⁹ (|x| + |y| + 1)` of that. -/
theorem C95_convex_partial {k n : Nat} {x y : Nat → ℝ} {p : Poly} (hn : n < 2 ^ 31) (hp : init k n x y = some p)
    (hd : ∀ i, i < n → ((x i, y i) : ℝ × ℝ) ≠ (x ((i + 1) % n), y ((i + 1) % n)))
    (q : ℝ × ℝ) (hb : Bounded n (fun i => (x i, y i)) q) :
    (Unchopped n (fun i => (x i, y i)) →
      (containsConvex p q.1 q.2 = true ↔ Interior n (fun i => (x i, y i)) q) ∧
      (∀ b, OnBoundary n (fun i => (x i, y i)) b → safetyConvex p q.1 q.2 true ≤ √(dist2 q b)) ∧
      (∀ b, Within n (fun i => (x i, y i)) b → safetyConvex p q.1 q.2 false ≤ √(dist2 q b)) ∧
      (insideConvex p q.1 q.2 = .inside ↔ ∀ i, i < n → kTolerance < depth n (fun i => (x i, y i)) i q) ∧
      (insideConvex p q.1 q.2 = .outside ↔ ∃ i, i < n ∧ depth n (fun i => (x i, y i)) i q < -kTolerance)) ∧
    (∀ b, OnBoundary n (fun i => (x i, y i)) b → safetyConvex p q.1 q.2 true ≤ √(dist2 q b) + margin q) ∧
    (∀ b, Within n (fun i => (x i, y i)) b → safetyConvex p q.1 q.2 false ≤ √(dist2 q b) + margin q) ∧
    ((∀ i, i < n → margin q < depth n (fun i => (x i, y i)) i q) → containsConvex p q.1 q.2 = true) ∧
    (containsConvex p q.1 q.2 = true → ∀ i, i < n → -margin q < depth n (fun i => (x i, y i)) i q) := by
  obtain ⟨rfl, hbs, -⟩ := init_some hp
  have hn0 : 0 < n := by
    rcases Nat.eq_zero_or_pos n with h | h
    · subst h; simp [bufferSize] at hbs
    · exact h
  have hm0 : 0 ≤ margin q := by unfold margin kTolerance; positivity
  have hroot : ∀ i, i < n → 0 < √(dist2 (x i, y i) (x ((i + 1) % n), y ((i + 1) % n))) := by
    intro i hi
    apply sqrt_pos.mpr
    refine lt_of_le_of_ne (dist2_nonneg _ _) fun h0 => hd i hi ?_
    unfold dist2 at h0
    have h1 := mul_self_nonneg ((x i, y i) : ℝ × ℝ).1
    ext
    · have : (x i - x ((i + 1) % n)) * (x i - x ((i + 1) % n)) = 0 := by
        have := mul_self_nonneg (x i - x ((i + 1) % n)); have := mul_self_nonneg (y i - y ((i + 1) % n)); simp only at h0; linarith
      have := mul_self_eq_zero.mp this; simp only; linarith
    · have : (y i - y ((i + 1) % n)) * (y i - y ((i + 1) % n)) = 0 := by
        have := mul_self_nonneg (x i - x ((i + 1) % n)); have := mul_self_nonneg (y i - y ((i + 1) % n)); simp only at h0; linarith
      have := mul_self_eq_zero.mp this; simp only; linarith
  have hdp : ∀ i, i < n → (0 < depth n (fun i => (x i, y i)) i q ↔
      0 < sgn n (fun i => (x i, y i)) * side (x i, y i) (x ((i + 1) % n), y ((i + 1) % n)) q) := by
    intro i hi; unfold depth; exact div_pos_iff_of_pos_right (hroot i hi)
  -- what holds for any error
  have safety : ∀ e, e ≤ margin q → (∀ i, i < n → |lineVal (build k n x y) q i +
      side (vert n x y i) (vert n x y (prev n i)) q / √(dist2 (vert n x y i) (vert n x y (prev n i)))| ≤ e) →
      (∀ b, OnBoundary n (fun i => (x i, y i)) b → safetyConvex (build k n x y) q.1 q.2 true ≤ √(dist2 q b) + e) ∧
      (∀ b, Within n (fun i => (x i, y i)) b → safetyConvex (build k n x y) q.1 q.2 false ≤ √(dist2 q b) + e) := by
    intro e he herr
    obtain ⟨s1, j, hj, s2⟩ := lineDistance_spec hn hn0 hb he herr
    refine ⟨fun b hbd => ?_, fun b hbd => ?_⟩
    · obtain ⟨i, hi, h0⟩ := depth_boundary hbd
      have h1 := s1 i hi
      have h2 := depth_lipschitz (n := n) (v := fun i => (x i, y i)) (i := i) q b
      rw [h0, sub_zero] at h2
      simp only [safetyConvex, if_true]; linarith
    · have h1 := depth_lipschitz (n := n) (v := fun i => (x i, y i)) (i := j) b q
      have h2 := hbd j hj
      rw [dist2_comm b q] at h1
      simp only [safetyConvex, Bool.false_eq_true, if_false]; linarith
  refine ⟨fun hu => ?_, (safety _ le_rfl fun i hi => lineVal_error hi q).1, (safety _ le_rfl fun i hi => lineVal_error hi q).2, ?_, ?_⟩
  · obtain ⟨s1, j, hj, s2⟩ := lineDistance_spec hn hn0 hb hm0 (err_exact (k := k) hn hu q)
    simp only [add_zero] at s1 s2
    have hsafe := safety 0 hm0 (err_exact (k := k) hn hu q)
    simp only [add_zero] at hsafe
    refine ⟨?_, hsafe.1, hsafe.2, ?_, ?_⟩
    · rw [interior_iff hn0]
      unfold containsConvex
      rw [decide_eq_true_eq]
      constructor
      · intro h i hi
        have := s1 i hi
        exact (hdp i hi).mp (by linarith)
      · intro h
        have := (hdp j hj).mpr (h j hj)
        linarith
    · unfold insideConvex
      have hk : 0 < kTolerance := by unfold kTolerance; norm_num
      split
      · rename_i h
        simp only [reduceCtorEq, false_iff]
        intro hall; have := hall j hj; linarith
      · split
        · rename_i h1 h2
          simp only [true_iff]
          intro i hi; have := s1 i hi; linarith
        · rename_i h1 h2
          simp only [reduceCtorEq, false_iff]
          intro hall; apply h2; have := hall j hj; linarith
    · unfold insideConvex
      split
      · rename_i h
        simp only [true_iff]
        exact ⟨j, hj, by linarith⟩
      · rename_i h
        have : ¬ ∃ i, i < n ∧ depth n (fun i => (x i, y i)) i q < -kTolerance := by
          rintro ⟨i, hi, h1⟩
          apply h; have := s1 i hi; linarith
        split <;> simp [this]
  · obtain ⟨s1, j, hj, s2⟩ := lineDistance_spec hn hn0 hb le_rfl (fun i hi => lineVal_error (k := k) hi q)
    intro h
    unfold containsConvex
    rw [decide_eq_true_eq]
    have := h j hj
    change _ ≤ _ + margin q at s2
    linarith
  · obtain ⟨s1, j, hj, s2⟩ := lineDistance_spec hn hn0 hb le_rfl (fun i hi => lineVal_error (k := k) hi q)
    intro h i hi
    unfold containsConvex at h
    rw [decide_eq_true_eq] at h
    have h1 := s1 i hi
    change _ ≤ _ + margin q at h1
    linarith

end Polygon
end VecGeom
