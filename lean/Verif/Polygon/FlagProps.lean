import Verif.Polygon.ConvexProps

/-!
# C95: the flag for convexity, and where the tests for convex polygons go wrong
-/

namespace VecGeom
namespace Polygon

open Real

theorem count_signs (P : Nat → Prop) [DecidablePred P] (n : Nat) :
    ∃ m : Nat, m ≤ n ∧ (List.range n).foldl (fun (c : Int) i => c + if P i then -1 else 1) 0 = n - 2 * m ∧
      (m = 0 ↔ ∀ i, i < n → ¬ P i) ∧ (m = n ↔ ∀ i, i < n → P i) := by
  induction n with
  | zero => exact ⟨0, le_rfl, by simp, by simp, by simp⟩
  | succ k ih =>
    obtain ⟨m, hm, h1, h2, h3⟩ := ih
    rw [List.range_succ, List.foldl_append, h1]
    simp only [List.foldl_cons, List.foldl_nil]
    by_cases hP : P k
    · refine ⟨m + 1, by omega, ?_, ?_, ?_⟩
      · rw [if_pos hP]; push_cast; ring
      · constructor
        · omega
        · intro h; exact absurd hP (h k (by omega))
      · constructor
        · intro h i hi
          rcases Nat.lt_succ_iff_lt_or_eq.mp hi with h' | h'
          · exact h3.mp (by omega) i h'
          · subst h'; exact hP
        · intro h
          have := h3.mpr fun i hi => h i (by omega)
          omega
    · refine ⟨m, by omega, ?_, ?_, ?_⟩
      · rw [if_neg hP]; push_cast; ring
      · constructor
        · intro h i hi
          rcases Nat.lt_succ_iff_lt_or_eq.mp hi with h' | h'
          · exact h2.mp h i h'
          · subst h'; exact hP
        · intro h; exact h2.mpr fun i hi => h i (by omega)
      · constructor
        · omega
        · intro h; exact absurd (h k (by omega)) hP

open Classical in
theorem turns_iff (x y : Nat → ℝ) (n : Nat) :
    ((turns x y n).natAbs == n) = true ↔
      (∀ i, i < n → side (x i, y i) (x ((i + 1) % n), y ((i + 1) % n)) (x ((i + 2) % n), y ((i + 2) % n)) < 0) ∨
        ∀ i, i < n → ¬ side (x i, y i) (x ((i + 1) % n), y ((i + 1) % n)) (x ((i + 2) % n), y ((i + 2) % n)) < 0 := by
  obtain ⟨m, hm, h1, h2, h3⟩ := count_signs
    (fun i => side (x i, y i) (x ((i + 1) % n), y ((i + 1) % n)) (x ((i + 2) % n), y ((i + 2) % n)) < 0) n
  have e : turns x y n = n - 2 * m := by
    rw [← h1]
    unfold turns
    congr 1
    funext c i
    have hs : (x ((i + 1) % n) - x i) * (y ((i + 2) % n) - y ((i + 1) % n)) -
        (y ((i + 1) % n) - y i) * (x ((i + 2) % n) - x ((i + 1) % n)) =
        side (x i, y i) (x ((i + 1) % n), y ((i + 1) % n)) (x ((i + 2) % n), y ((i + 2) % n)) := by
      unfold side; simp only; ring
    dsimp only
    rw [hs]
  rw [e, beq_iff_eq, ← h2, ← h3]
  omega

theorem neg_inj {n a b : Nat} (ha : a < n) (hb : b < n) (h : (n - a) % n = (n - b) % n) : a = b := by
  rcases Nat.eq_zero_or_pos a with h0 | h0 <;> rcases Nat.eq_zero_or_pos b with h1 | h1
  · omega
  · subst h0; rw [Nat.sub_zero, Nat.mod_self, Nat.mod_eq_of_lt (by omega)] at h; omega
  · subst h1; rw [Nat.sub_zero, Nat.mod_self, Nat.mod_eq_of_lt (by omega)] at h; omega
  · rw [Nat.mod_eq_of_lt (by omega), Nat.mod_eq_of_lt (by omega)] at h; omega

/-- C95: a polygon is flagged as convex exactly if all its turns are to the right or none is.  Strictly convex polygons are, in either
order. -/
theorem C95_flag {k n : Nat} {x y : Nat → ℝ} {p : Poly} (hn : n < 2 ^ 31) (hp : init k n x y = some p) :
    (p.convex = true ↔
      (∀ i, i < n → side (p.x i, p.y i) (p.x ((i + 1) % n), p.y ((i + 1) % n)) (p.x ((i + 2) % n), p.y ((i + 2) % n)) < 0) ∨
        ∀ i, i < n → ¬ side (p.x i, p.y i) (p.x ((i + 1) % n), p.y ((i + 1) % n)) (p.x ((i + 2) % n), p.y ((i + 2) % n)) < 0) ∧
    (StrictlyConvex n (fun i => (x i, y i)) → p.convex = true) := by
  obtain ⟨rfl, -, -⟩ := init_some hp
  have hflag : (build k n x y).convex =
      ((turns (fun i => x (source n (increment x y n) i)) (fun i => y (source n (increment x y n) i)) n).natAbs == n) := rfl
  have hv : ∀ i, i < n → ((build k n x y).x i, (build k n x y).y i) = vert n x y i := by
    intro i hi; rw [build_x hi, build_y hi]
  have h1 : (build k n x y).convex = true ↔
      (∀ i, i < n → side (vert n x y i) (vert n x y ((i + 1) % n)) (vert n x y ((i + 2) % n)) < 0) ∨
        ∀ i, i < n → ¬ side (vert n x y i) (vert n x y ((i + 1) % n)) (vert n x y ((i + 2) % n)) < 0 := by
    rw [hflag, turns_iff]; rfl
  constructor
  · rw [h1]
    constructor <;> rintro (h | h)
    · left; intro i hi
      rw [hv i hi, hv _ (Nat.mod_lt _ (by omega)), hv _ (Nat.mod_lt _ (by omega))]; exact h i hi
    · right; intro i hi
      rw [hv i hi, hv _ (Nat.mod_lt _ (by omega)), hv _ (Nat.mod_lt _ (by omega))]; exact h i hi
    · left; intro i hi; have := h i hi
      rwa [hv i hi, hv _ (Nat.mod_lt _ (by omega)), hv _ (Nat.mod_lt _ (by omega))] at this
    · right; intro i hi; have := h i hi
      rwa [hv i hi, hv _ (Nat.mod_lt _ (by omega)), hv _ (Nat.mod_lt _ (by omega))] at this
  · intro hc
    rw [h1]
    left
    intro i hi
    have h3 := hc.1
    have hn0 : 0 < n := by omega
    have hi1 : (i + 1) % n < n := Nat.mod_lt _ hn0
    have hi2 : (i + 2) % n < n := Nat.mod_lt _ hn0
    have d1 : (i + 2) % n ≠ i ∧ (i + 2) % n ≠ (i + 1) % n ∧ prev n ((i + 1) % n) = i := by
      unfold prev
      rcases Nat.lt_or_ge (i + 2) n with h | h
      · rw [Nat.mod_eq_of_lt h, Nat.mod_eq_of_lt (show i + 1 < n by omega), if_neg (by omega)]; omega
      · rcases Nat.lt_or_ge (i + 1) n with h' | h'
        · have : i + 2 = n := by omega
          rw [this, Nat.mod_self, Nat.mod_eq_of_lt h', if_neg (by omega)]; omega
        · have e1 : i + 1 = n := by omega
          have e2 : (i + 2) % n = 1 := by
            rw [show i + 2 = 1 + n by omega, Nat.add_mod_right, Nat.mod_eq_of_lt (by omega)]
          rw [e2, e1, Nat.mod_self, if_pos rfl]; omega
    have hpos := hc.pos
    by_cases ho : orientation x y n > 0
    · have hinc : increment x y n = 2 ^ 64 - 1 := by unfold increment; rw [if_pos ho]
      rw [orientation_eq] at ho
      have hvert : ∀ j, j < n → vert n x y j = (x ((n - j) % n), y ((n - j) % n)) := by
        intro j hj; unfold vert; rw [hinc, source_neg hn hj]
      rw [hvert i hi, hvert _ hi1, hvert _ hi2]
      have hnx := next_neg hi1
      rw [d1.2.2] at hnx
      have := hpos ((n - (i + 1) % n) % n) ((n - (i + 2) % n) % n) (Nat.mod_lt _ hn0) (Nat.mod_lt _ hn0)
        (fun h => d1.2.1 (neg_inj hi2 hi1 h)) (fun h => by rw [← hnx] at h; exact d1.1 (neg_inj hi2 hi h))
      unfold sgn at this
      rw [if_pos ho, one_mul, ← hnx] at this
      unfold side at this ⊢
      simp only at this ⊢
      linarith
    · have hinc : increment x y n = 1 := by unfold increment; rw [if_neg ho]
      rw [orientation_eq] at ho
      have hvert : ∀ j, j < n → vert n x y j = (x j, y j) := by
        intro j hj; unfold vert; rw [hinc, source_one hn hj]
      rw [hvert i hi, hvert _ hi1, hvert _ hi2]
      have := hpos i ((i + 2) % n) hi hi2 d1.1 d1.2.1
      unfold sgn at this
      rw [if_neg ho] at this
      linarith

/-! ## A case -/

theorem sq_convex : StrictlyConvex 4 (fun i => (sqx i, sqy i)) := by
  refine ⟨by norm_num, Or.inl fun i j hi hj h1 h2 => ?_⟩
  have ci : i = 0 ∨ i = 1 ∨ i = 2 ∨ i = 3 := by omega
  have cj : j = 0 ∨ j = 1 ∨ j = 2 ∨ j = 3 := by omega
  rcases ci with rfl | rfl | rfl | rfl <;> rcases cj with rfl | rfl | rfl | rfl <;> simp [side, sqx, sqy] at h1 h2 ⊢

theorem sq_unchopped : Unchopped 4 (fun i => (sqx i, sqy i)) := by
  intro i hi c hc
  have ci : i = 0 ∨ i = 1 ∨ i = 2 ∨ i = 3 := by omega
  rcases ci with rfl | rfl | rfl | rfl <;> rcases hc with rfl | rfl | rfl <;>
    simp [dist2, sqx, sqy, kTolerance] <;> norm_num

example : containsConvex (build 4 4 sqx sqy) (1 / 2) (1 / 2) = true ∧ (build 4 4 sqx sqy).convex = true := by
  refine ⟨?_, (C95_flag (by norm_num) sq_init).2 sq_convex⟩
  have := (C95_convex_partial (by norm_num) sq_init (q := (1 / 2, 1 / 2)) ?_ ?_).1 sq_unchopped
  · refine this.1.mpr (Or.inl fun i hi => ?_)
    have ci : i = 0 ∨ i = 1 ∨ i = 2 ∨ i = 3 := by omega
    rcases ci with rfl | rfl | rfl | rfl <;> simp [side, sqx, sqy] <;> norm_num
  · intro i hi
    have ci : i = 0 ∨ i = 1 ∨ i = 2 ∨ i = 3 := by omega
    rcases ci with rfl | rfl | rfl | rfl <;> simp [sqx, sqy]
  · refine ⟨by norm_num [abs_le], by norm_num [abs_le], fun i hi => ?_⟩
    have ci : i = 0 ∨ i = 1 ∨ i = 2 ∨ i = 3 := by omega
    rcases ci with rfl | rfl | rfl | rfl <;> simp [sqx, sqy] <;> norm_num

/-! ## Wrong answers -/

/-- A five-pointed star. -/
noncomputable def starx (i : Nat) : ℝ := if i = 0 then 0 else if i = 1 then 2 else if i = 2 then -4 else if i = 3 then 4 else -2
/-- A five-pointed star. -/
noncomputable def stary (i : Nat) : ℝ := if i = 0 then 4 else if i = 1 then -4 else if i = 2 then 1 else if i = 3 then 1 else -4

theorem star_inc : increment starx stary 5 = 1 := by
  unfold increment
  have : ¬ orientation starx stary 5 > 0 := by
    simp [orientation, List.range_succ, starx, stary]; norm_num
  rw [if_neg this]

theorem star_vert {i : Nat} (hi : i < 5) : vert 5 starx stary i = (starx i, stary i) := by
  unfold vert; rw [star_inc, source_one (by norm_num) hi]

/-- C95: the flag for convexity does not mean that the polygon is convex.  A five-pointed star, which turns the same way at all its
points, is flagged; and then the test for convex polygons finds the middle inside, which the general test finds outside. -/
theorem C95_flag_counterexample :
    ∃ (n : Nat) (x y : Nat → ℝ) (p : Poly), init 4 n x y = some p ∧ p.convex = true ∧
      containsConvex p 0 0 = true ∧ contains p 0 0 = false ∧ ¬ StrictlyConvex n (fun i => (x i, y i)) := by
  obtain ⟨p, hp, -⟩ := C93_init (k := 4) (n := 5) (by norm_num) (by norm_num) (by norm_num) starx stary
  refine ⟨5, starx, stary, p, hp, ?_, ?_, ?_, ?_⟩
  · rw [(C95_flag (by norm_num) hp).1]
    obtain ⟨rfl, -, -⟩ := init_some hp
    left
    intro i hi
    have hv : ∀ i, i < 5 → ((build 4 5 starx stary).x i, (build 4 5 starx stary).y i) = (starx i, stary i) := by
      intro i hi; rw [build_x hi, build_y hi]; exact star_vert hi
    rw [hv i hi, hv _ (Nat.mod_lt _ (by omega)), hv _ (Nat.mod_lt _ (by omega))]
    have ci : i = 0 ∨ i = 1 ∨ i = 2 ∨ i = 3 ∨ i = 4 := by omega
    rcases ci with rfl | rfl | rfl | rfl | rfl <;> simp [side, starx, stary] <;> norm_num
  · have hd : ∀ i, i < 5 → ((starx i, stary i) : ℝ × ℝ) ≠ (starx ((i + 1) % 5), stary ((i + 1) % 5)) := by
      intro i hi
      have ci : i = 0 ∨ i = 1 ∨ i = 2 ∨ i = 3 ∨ i = 4 := by omega
      rcases ci with rfl | rfl | rfl | rfl | rfl <;> simp [starx, stary] <;> norm_num
    have hb : Bounded 5 (fun i => (starx i, stary i)) (0, 0) := by
      refine ⟨by norm_num, by norm_num, fun i hi => ?_⟩
      have ci : i = 0 ∨ i = 1 ∨ i = 2 ∨ i = 3 ∨ i = 4 := by omega
      rcases ci with rfl | rfl | rfl | rfl | rfl <;> simp [starx, stary, abs_of_nonneg] <;> norm_num
    have hu : Unchopped 5 (fun i => (starx i, stary i)) := by
      intro i hi c hc
      have hr : √(dist2 (starx i, stary i) (starx ((i + 1) % 5), stary ((i + 1) % 5))) ≤ 10 ∧
          0 < √(dist2 (starx i, stary i) (starx ((i + 1) % 5), stary ((i + 1) % 5))) := by
        have ci : i = 0 ∨ i = 1 ∨ i = 2 ∨ i = 3 ∨ i = 4 := by omega
        constructor
        · rw [sqrt_le_left (by norm_num)]
          rcases ci with rfl | rfl | rfl | rfl | rfl <;> simp [dist2, starx, stary] <;> norm_num
        · rw [sqrt_pos]
          rcases ci with rfl | rfl | rfl | rfl | rfl <;> simp [dist2, starx, stary] <;> norm_num
      have hc1 : c = 0 ∨ 1 ≤ |c| := by
        have ci : i = 0 ∨ i = 1 ∨ i = 2 ∨ i = 3 ∨ i = 4 := by omega
        rcases ci with rfl | rfl | rfl | rfl | rfl <;> simp [starx, stary] at hc <;> rcases hc with rfl | rfl | rfl <;>
          norm_num [abs_of_nonneg, abs_of_neg]
      rcases hc1 with h | h
      · exact Or.inl h
      · right
        dsimp only
        rw [le_div_iff₀ hr.2]
        unfold kTolerance; nlinarith [hr.1]
    have := ((C95_convex_partial (by norm_num) hp hd (0, 0) hb).1 hu).1
    refine this.mpr (Or.inr fun i hi => ?_)
    have ci : i = 0 ∨ i = 1 ∨ i = 2 ∨ i = 3 ∨ i = 4 := by omega
    rcases ci with rfl | rfl | rfl | rfl | rfl <;> simp [side, starx, stary] <;> norm_num
  · obtain ⟨rfl, -, -⟩ := init_some hp
    have hcr : ∀ i, i < 5 → crosses (build 4 5 starx stary) 0 0 i = decide (i = 1 ∨ i = 4) := by
      intro i hi
      unfold crosses
      rw [build_x hi, build_y hi, build_sy hi, build_slope hi, star_vert hi, star_vert (prev_lt hi)]
      have ci : i = 0 ∨ i = 1 ∨ i = 2 ∨ i = 3 ∨ i = 4 := by omega
      rcases ci with rfl | rfl | rfl | rfl | rfl <;>
        simp [starx, stary, prev, nonZero, copySign, kTiny] <;> norm_num
    unfold contains
    rw [build_n]
    have : List.range 5 = [0, 1, 2, 3, 4] := rfl
    rw [this]
    simp only [List.foldl_cons, List.foldl_nil]
    rw [hcr 0 (by norm_num), hcr 1 (by norm_num), hcr 2 (by norm_num), hcr 3 (by norm_num), hcr 4 (by norm_num)]
    decide
  · rintro ⟨-, h | h⟩
    · have := h 0 2 (by norm_num) (by norm_num) (by norm_num) (by norm_num)
      simp [side, starx, stary] at this; norm_num at this
    · have := h 0 3 (by norm_num) (by norm_num) (by norm_num) (by norm_num)
      simp [side, starx, stary] at this; norm_num at this

theorem le_fold_max (f : Nat → ℝ) (n : Nat) (c : ℝ) (i : Nat) (hi : i < n) :
    f i ≤ (List.range n).foldl (fun m i => max (f i) m) c := by
  induction n with
  | zero => omega
  | succ m ih =>
    rw [List.range_succ, List.foldl_append]
    simp only [List.foldl_cons, List.foldl_nil]
    rcases Nat.lt_succ_iff_lt_or_eq.mp hi with h | h
    · exact le_trans (ih h) (le_max_right _ _)
    · subst h; exact le_max_left _ _

/-- A long triangle. -/
noncomputable def longx (i : Nat) : ℝ := if i = 0 then 0 else 1000000
/-- A long triangle. -/
noncomputable def longy (i : Nat) : ℝ := if i = 0 then 0 else if i = 1 then 1 / 2000 else -10

theorem long_inc : increment longx longy 3 = 1 := by
  unfold increment
  have : ¬ orientation longx longy 3 > 0 := by
    simp [orientation, List.range_succ, longx, longy]; norm_num
  rw [if_neg this]

theorem long_vert {i : Nat} (hi : i < 3) : vert 3 longx longy i = (longx i, longy i) := by
  unfold vert; rw [long_inc, source_one (by norm_num) hi]

/-- C95: setting the small coefficients of a line to 0 makes the test for convex polygons wrong by much more than the tolerance: in this
triangle of length `10⁶`, a point that is more than `10⁻⁵` away from all edges is strictly inside, by the general test too, but not by
the test for convex polygons. -/
theorem C95_lines_counterexample :
    ∃ (n : Nat) (x y : Nat → ℝ) (p : Poly) (q : ℝ × ℝ), init 4 n x y = some p ∧ p.convex = true ∧
      StrictlyConvex n (fun i => (x i, y i)) ∧ Interior n (fun i => (x i, y i)) q ∧
      (∀ i, i < n → 1 / 100000 < depth n (fun i => (x i, y i)) i q) ∧
      contains p q.1 q.2 = true ∧ containsConvex p q.1 q.2 = false := by
  obtain ⟨p, hp, -⟩ := C93_init (k := 4) (n := 3) (by norm_num) (by norm_num) (by norm_num) longx longy
  have hconv : StrictlyConvex 3 (fun i => (longx i, longy i)) := by
    refine ⟨by norm_num, Or.inr fun i j hi hj h1 h2 => ?_⟩
    have ci : i = 0 ∨ i = 1 ∨ i = 2 := by omega
    have cj : j = 0 ∨ j = 1 ∨ j = 2 := by omega
    rcases ci with rfl | rfl | rfl <;> rcases cj with rfl | rfl | rfl <;> simp [side, longx, longy] at h1 h2 ⊢ <;> norm_num
  have hint : Interior 3 (fun i => (longx i, longy i)) (900000, 1 / 10000) := by
    right; intro i hi
    have ci : i = 0 ∨ i = 1 ∨ i = 2 := by omega
    rcases ci with rfl | rfl | rfl <;> simp [side, longx, longy] <;> norm_num
  have hdep : ∀ i, i < 3 → 1 / 100000 < depth 3 (fun i => (longx i, longy i)) i (900000, 1 / 10000) := by
    intro i hi
    have hs : sgn 3 (fun i => (longx i, longy i)) = -1 := by
      unfold sgn
      rw [if_neg]
      rw [← orientation_eq]
      simp [orientation, List.range_succ, longx, longy]; norm_num
    unfold depth
    rw [hs]
    have ci : i = 0 ∨ i = 1 ∨ i = 2 := by omega
    have hr : √(dist2 (longx i, longy i) (longx ((i + 1) % 3), longy ((i + 1) % 3))) ≤ 2000000 ∧
        0 < √(dist2 (longx i, longy i) (longx ((i + 1) % 3), longy ((i + 1) % 3))) := by
      constructor
      · rw [sqrt_le_left (by norm_num)]
        rcases ci with rfl | rfl | rfl <;> simp [dist2, longx, longy] <;> norm_num
      · rw [sqrt_pos]
        rcases ci with rfl | rfl | rfl <;> simp [dist2, longx, longy] <;> norm_num
    dsimp only
    rw [lt_div_iff₀ hr.2]
    have hside : 20 < -1 * side (longx i, longy i) (longx ((i + 1) % 3), longy ((i + 1) % 3)) (900000, 1 / 10000) := by
      rcases ci with rfl | rfl | rfl <;> simp [side, longx, longy] <;> norm_num
    nlinarith [hr.1]
  refine ⟨3, longx, longy, p, (900000, 1 / 10000), hp, (C95_flag (by norm_num) hp).2 hconv, hconv, hint, hdep, ?_, ?_⟩
  · refine (C95_contains (by norm_num) hp hconv _ ?_).mpr hint
    intro y' hy hb
    obtain ⟨i, hi, h0⟩ := depth_boundary hb
    have h1 := depth_lipschitz (n := 3) (v := fun i => (longx i, longy i)) (i := i) (900000, 1 / 10000) ((900000, 1 / 10000).1, y')
    have h2 := hdep i hi
    rw [h0, sub_zero] at h1
    have h3 : √(dist2 (900000, 1 / 10000) ((900000, 1 / 10000).1, y')) = |y' - 1 / 10000| := by
      rw [← sqrt_sq_eq_abs]; congr 1; unfold dist2; simp only; ring
    rw [h3] at h1
    have h4 : |y' - 1 / 10000| ≤ 1 / 10 ^ 30 := hy
    have h5 : (1 : ℝ) / 10 ^ 30 < 1 / 100000 := by norm_num
    linarith
  · obtain ⟨rfl, -, -⟩ := init_some hp
    unfold containsConvex
    rw [decide_eq_false_iff_not, not_lt]
    -- the line of the long edge
    have hl := build_line (k := 4) (x := longx) (y := longy) (show 1 < 3 by norm_num)
    rw [long_vert (show 1 < 3 by norm_num), long_vert (show prev 3 1 < 3 by decide)] at hl
    have hp1 : prev 3 1 = 0 := rfl
    rw [hp1] at hl
    simp only [line, longx, longy] at hl
    norm_num at hl
    obtain ⟨ha, hb, hd⟩ := hl
    have hρ : 0 < √(4000000 : ℝ) / √4000000000000000001 ∧ √(4000000 : ℝ) / √4000000000000000001 ≤ 1 / 1000000 := by
      have h1 : √(4000000 : ℝ) = 2000 := by rw [show (4000000 : ℝ) = 2000 ^ 2 by norm_num]; exact sqrt_sq (by norm_num)
      have h2 : (2000000000 : ℝ) ≤ √4000000000000000001 := le_sqrt_of_sq_le (by norm_num)
      rw [h1]
      refine ⟨by positivity, ?_⟩
      rw [div_le_iff₀ (by linarith)]; linarith
    generalize √(4000000 : ℝ) / √4000000000000000001 = ρ at *
    have hval : 0 ≤ lineVal (build 4 3 longx longy) (900000, 1 / 10000) 1 := by
      have ea : chop (1 / 2000 * ρ) = 0 := by
        unfold chop; rw [if_pos]
        rw [abs_of_nonneg (by nlinarith [hρ.1])]; unfold kTolerance; nlinarith [hρ.2]
      have ed : chop (1000000 * ρ * (1 / 2000) + -(1 / 2000 * ρ * 1000000)) = 0 := by
        rw [show 1000000 * ρ * (1 / 2000) + -(1 / 2000 * ρ * 1000000) = 0 by ring]; simp [chop]
      have eb : chop (-(1000000 * ρ)) ≤ 0 := by
        unfold chop; split
        · exact le_rfl
        · linarith [hρ.1]
      unfold lineVal
      rw [ha, hb, hd, ea, ed]
      simp only
      linarith
    exact le_trans hval (le_fold_max (fun i => lineVal (build 4 3 longx longy) (900000, 1 / 10000) i) 3 (-kInfLength) 1 (by norm_num))

end Polygon
end VecGeom
