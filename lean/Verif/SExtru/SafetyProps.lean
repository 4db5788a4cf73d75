import Verif.SExtru.Cases

/-!
# C97: safeties of extruded polygons
-/

namespace VecGeom
namespace SExtru

open Real Polygon

variable {k n : Nat} {x y : Nat → ℝ} {lo hi : ℝ} {s : Shell}

/-- The solid lies in its extent. -/
theorem region_box {v : Nat → ℝ × ℝ} {q : ℝ × ℝ} (hn : 0 < n) (h : Region n v q) {a b c d : ℝ}
    (hb : ∀ i, i < n → a ≤ (v i).1 ∧ (v i).1 ≤ b ∧ c ≤ (v i).2 ∧ (v i).2 ≤ d) : a ≤ q.1 ∧ q.1 ≤ b ∧ c ≤ q.2 ∧ q.2 ≤ d := by
  have mix : ∀ u w t l r : ℝ, 0 ≤ t → t ≤ 1 → l ≤ u → u ≤ r → l ≤ w → w ≤ r → l ≤ u + t * (w - u) ∧ u + t * (w - u) ≤ r := by
    intro u w t l r t0 t1 h1 h2 h3 h4
    constructor <;> nlinarith
  rcases h with ⟨i, hi, t, t0, t1, rfl⟩ | h
  · obtain ⟨h1, h2, h3, h4⟩ := hb i hi
    obtain ⟨h5, h6, h7, h8⟩ := hb _ (Nat.mod_lt (i + 1) hn)
    have m1 := mix _ _ t a b t0 t1 h1 h2 h5 h6
    have m2 := mix _ _ t c d t0 t1 h3 h4 h7 h8
    exact ⟨m1.1, m1.2, m2.1, m2.2⟩
  · have h01 : (0 : ZMod 2) ≠ 1 := by decide
    refine ⟨?_, ?_, ?_, ?_⟩ <;> by_contra hcon <;> push Not at hcon
    · rw [par_beside (Or.inr fun i hi => lt_of_lt_of_le hcon (hb i hi).1)] at h; exact h01 h
    · rw [par_beside (Or.inl fun i hi => lt_of_le_of_lt (hb i hi).2.1 hcon)] at h; exact h01 h
    · -- below all vertices: the parity counts pairs of edges
      have : par n v q = 0 := by
        unfold par
        apply Finset.sum_eq_zero
        intro i hi
        have hi := Finset.mem_range.mp hi
        have h1 : (v i).2 > q.2 := lt_of_lt_of_le hcon (hb i hi).2.2.1
        have h2 : (v ((i + 1) % n)).2 > q.2 := lt_of_lt_of_le hcon (hb _ (Nat.mod_lt _ hn)).2.2.1
        unfold term ind
        rw [if_pos h1, if_pos h2, show (1 : ZMod 2) + 1 = 0 from by decide, zero_mul]
      rw [this] at h; exact h01 h
    · rw [par_above fun i hi => ((hb i hi).2.2.2.trans hcon.le)] at h; exact h01 h

theorem Given.box (g : Given k n x y lo hi s) {p : V3} (h : InSolid n (fun i => (x i, y i)) lo hi p) : AABB.InBox (extent s) p := by
  obtain ⟨hp, h1, h2⟩ := g.poly
  obtain ⟨p', hp', -, -, -, -, -, he⟩ := C93_init g.lanes g.n_pos g.few x y
  rw [hp] at hp'
  obtain rfl : s.poly = p' := by simpa using hp'
  have hbig : (10 : ℝ) ^ 100 ≤ kInfLength := by
    have := kInf_huge
    have : (10 : ℝ) ^ 100 ≤ 10 ^ 200 := pow_le_pow_right₀ (by norm_num) (by norm_num)
    linarith
  have hb := (he fun i hi => ⟨(g.small i hi).1.trans hbig, (g.small i hi).2.trans hbig⟩).1
  obtain ⟨b1, b2, b3, b4⟩ := region_box g.n_pos h.2.2 hb
  unfold AABB.InBox extent
  rw [h1, h2]
  exact ⟨⟨b1, b2⟩, ⟨b3, b4⟩, ⟨h.1, h.2.1⟩⟩

theorem Given.valid (g : Given k n x y lo hi s) : AABB.Valid (extent s) := by
  have hn := g.n_pos
  have hr : Region n (fun i => (x i, y i)) (x 0, y 0) := Or.inl ⟨0, hn, onEdge_left _ _⟩
  obtain ⟨⟨a, b⟩, ⟨c, d⟩, e, f⟩ := g.box (p := ⟨x 0, y 0, lo⟩) ⟨le_rfl, g.order, hr⟩
  exact ⟨a.trans b, c.trans d, e.trans f⟩

/-- C97: polygons not reported as convex: the safety from outside is not negative and at most the distance to any point of the solid; the
safety from inside is at most the distance to any point that is not in the solid. -/
theorem C97_safety_concave (g : Given k n x y lo hi s) (hf : s.poly.convex = false) (p : V3) :
    (∃ r, safetyToIn k s p = some r ∧ 0 ≤ r ∧
      (¬ InSolid n (fun i => (x i, y i)) lo hi p → ∀ q, InSolid n (fun i => (x i, y i)) lo hi q → r ≤ V3.dist p q)) ∧
    ∃ r, safetyToOut k s p = some r ∧
      (InSolid n (fun i => (x i, y i)) lo hi p → 0 ≤ r ∧ ∀ q, ¬ InSolid n (fun i => (x i, y i)) lo hi q → r ≤ V3.dist p q) := by
  obtain ⟨hp, h1, h2⟩ := g.poly
  obtain ⟨r, hr, hle, hr0, -⟩ := g.safety (p.x, p.y)
  have hdist0 : ∀ q, 0 ≤ V3.dist p q := fun q => sqrt_nonneg _
  constructor
  · unfold safetyToIn
    rw [hf, if_neg (by simp)]
    by_cases c1 : (extent s).containsKernel p = false
    · rw [if_pos c1]
      dsimp only
      refine ⟨_, rfl, ?_, ?_⟩
      · split
        · exact le_rfl
        · exact sqrt_nonneg _
      · intro hp q hq
        split
        · exact hdist0 q
        · rename_i c2
          have hnb : ¬ AABB.InBox (extent s) p := fun hb => c2 (AABB.C31_safety_sqr_inside hb).1
          have := (AABB.C31_safety_sqr_outside g.valid hnb).2.1 q (g.box hq)
          exact sqrt_le_sqrt this
    · rw [if_neg c1]
      by_cases c2 : (|s.lo - p.z| < kTolerance ∨ |s.hi - p.z| < kTolerance) ∧ contains k s p = true
      · rw [if_pos c2]
        exact ⟨_, rfl, le_rfl, fun _ q _ => hdist0 q⟩
      · rw [if_neg c2, hr, Option.map_some]
        refine ⟨_, rfl, sqrt_nonneg _, fun hout q hq => ?_⟩
        have hbox := (AABB.C31_contains_kernel (extent s) p).1 (by simpa using c1)
        have hz : lo ≤ p.z ∧ p.z ≤ hi := by
          have := hbox.2.2; unfold extent at this; rwa [h1, h2] at this
        have hreg : ¬ Region n (fun i => (x i, y i)) (p.x, p.y) := fun h => hout ⟨hz.1, hz.2, h⟩
        obtain ⟨b, hb, he⟩ := crossing hq.2.2 hreg
        have h3 := (hle b hb).trans (dist2_edge (onEdge_comm.mp he))
        exact (sqrt_le_sqrt h3).trans (lateral_le p q)
  · unfold safetyToOut
    rw [hf, if_neg (by simp), hr, Option.map_some, h1, h2]
    refine ⟨_, rfl, fun hin => ⟨?_, fun q hq => ?_⟩⟩
    · have := hin.1; have := hin.2.1
      exact le_min (le_min (sqrt_nonneg _) (by linarith)) (by linarith)
    · have hh := height_le p q
      by_cases c1 : q.z < lo
      · refine (min_le_right _ _).trans ?_
        have := le_abs_self (p.z - q.z); linarith
      · by_cases c2 : hi < q.z
        · refine (min_le_left _ _).trans ((min_le_right _ _).trans ?_)
          have := neg_abs_le (p.z - q.z); linarith
        · have hreg : ¬ Region n (fun i => (x i, y i)) (q.x, q.y) := fun h => hq ⟨not_lt.mp c1, not_lt.mp c2, h⟩
          obtain ⟨b, hb, he⟩ := crossing hin.2.2 hreg
          have h3 := (hle b hb).trans (dist2_edge he)
          exact (min_le_left _ _).trans ((min_le_left _ _).trans ((sqrt_le_sqrt h3).trans (lateral_le p q)))

/-- The largest value of a line, without chopped coefficients. -/
theorem Given.lines (g : Given k n x y lo hi s) (hu : Unchopped n (fun i => (x i, y i))) {p : V3} (hs : Small p) :
    (∀ j, j < n → -depth n (fun i => (x i, y i)) j (p.x, p.y) ≤ lineDistance s.poly p.x p.y) ∧
      ∃ j, j < n ∧ lineDistance s.poly p.x p.y ≤ -depth n (fun i => (x i, y i)) j (p.x, p.y) := by
  rw [(init_some g.poly.1).1]
  have hm0 : 0 ≤ margin (p.x, p.y) := by unfold margin kTolerance; positivity
  obtain ⟨h1, j, hj, h2⟩ := lineDistance_spec (k := k) g.few g.n_pos (g.bounded hs) hm0 (err_exact g.few hu (p.x, p.y))
  exact ⟨fun j hj => by have := h1 j hj; rwa [add_zero] at this, j, hj, by rwa [add_zero] at h2⟩

/-- C97: strictly convex polygons without chopped coefficients: the same, and the safeties are negative on the wrong side. -/
theorem C97_safety_convex_partial (g : Given k n x y lo hi s) (hc : StrictlyConvex n (fun i => (x i, y i)))
    (hu : Unchopped n (fun i => (x i, y i))) {p : V3} (hs : Small p) :
    (∃ r, safetyToIn k s p = some r ∧ (∀ q, InSolid n (fun i => (x i, y i)) lo hi q → r ≤ V3.dist p q) ∧
      (0 < r ↔ ¬ InSolid n (fun i => (x i, y i)) lo hi p)) ∧
    ∃ r, safetyToOut k s p = some r ∧ (∀ q, ¬ InSolid n (fun i => (x i, y i)) lo hi q → r ≤ V3.dist p q) ∧
      (0 ≤ r ↔ InSolid n (fun i => (x i, y i)) lo hi p) := by
  obtain ⟨hp, h1, h2⟩ := g.poly
  have hflag := (C95_flag g.few hp).2 hc
  obtain ⟨hall, j, hj, hmax⟩ := g.lines hu hs
  have hreg := region_iff g.distinct hc
  have eq : safetyConvex s.poly p.x p.y false = lineDistance s.poly p.x p.y := rfl
  have eq' : safetyConvex s.poly p.x p.y true = -lineDistance s.poly p.x p.y := by unfold safetyConvex; rw [if_pos rfl]; ring
  have hlip : ∀ i (q : V3), depth n (fun i => (x i, y i)) i (p.x, p.y) - depth n (fun i => (x i, y i)) i (q.x, q.y) ≤ V3.dist p q :=
    fun i q => (depth_lipschitz _ _).trans (lateral_le p q)
  have hlip' : ∀ i (q : V3), depth n (fun i => (x i, y i)) i (q.x, q.y) - depth n (fun i => (x i, y i)) i (p.x, p.y) ≤ V3.dist p q := by
    intro i q
    have := depth_lipschitz (n := n) (v := fun i => (x i, y i)) (i := i) (q.x, q.y) (p.x, p.y)
    rw [dist2_comm] at this
    exact this.trans (lateral_le p q)
  have hz : ∀ q : V3, q.z - p.z ≤ V3.dist p q ∧ p.z - q.z ≤ V3.dist p q := by
    intro q
    have := height_le p q
    have := le_abs_self (p.z - q.z)
    have := neg_abs_le (p.z - q.z)
    constructor <;> linarith
  constructor
  · unfold safetyToIn
    rw [hflag, if_pos rfl, eq, h1, h2]
    refine ⟨_, rfl, fun q hq => ?_, ?_⟩
    · have := hz q
      refine max_le (max_le ?_ ?_) ?_
      · have := hq.1; linarith
      · have := hq.2.1; linarith
      · have := (hreg _).mp hq.2.2 j hj
        have := hlip' j q
        linarith
    · rw [← not_le, not_iff_not, max_le_iff, max_le_iff]
      unfold InSolid
      rw [hreg]
      constructor
      · rintro ⟨⟨a, b⟩, c⟩
        exact ⟨by linarith, by linarith, fun i hi => by have := hall i hi; linarith⟩
      · rintro ⟨a, b, c⟩
        exact ⟨⟨by linarith, by linarith⟩, by have := c j hj; linarith⟩
  · unfold safetyToOut
    rw [hflag, if_pos rfl, eq', h1, h2]
    refine ⟨_, rfl, fun q hq => ?_, ?_⟩
    · have hzq := hz q
      by_cases c1 : q.z < lo
      · exact (min_le_left _ _).trans ((min_le_left _ _).trans (by linarith))
      · by_cases c2 : hi < q.z
        · exact (min_le_left _ _).trans ((min_le_right _ _).trans (by linarith))
        · have hr : ¬ Region n (fun i => (x i, y i)) (q.x, q.y) := fun h => hq ⟨not_lt.mp c1, not_lt.mp c2, h⟩
          rw [hreg] at hr
          unfold Within at hr
          push Not at hr
          obtain ⟨i, hi, hd⟩ := hr
          have h3 := hlip i q
          have h4 := hall i hi
          exact (min_le_right _ _).trans (by linarith)
    · rw [le_min_iff, le_min_iff]
      unfold InSolid
      rw [hreg]
      constructor
      · rintro ⟨⟨a, b⟩, c⟩
        exact ⟨by linarith, by linarith, fun i hi => by have := hall i hi; linarith⟩
      · rintro ⟨a, b, c⟩
        exact ⟨⟨by linarith, by linarith⟩, by have := c j hj; linarith⟩

/-! The arrow head. -/

theorem ar_boundary {b : ℝ × ℝ} (h : OnBoundary 4 (fun i => (arx i, ary i)) b) :
    ∃ t : ℝ, 0 ≤ t ∧ t ≤ 1 ∧ (b = (2 * t, 3 - 4 * t) ∨ b = (2 - 2 * t, -1 + t) ∨ b = (-2 * t, -t) ∨ b = (-2 + 2 * t, -1 + 4 * t)) := by
  obtain ⟨i, hi, t, t0, t1, rfl⟩ := h
  refine ⟨t, t0, t1, ?_⟩
  have ci : i = 0 ∨ i = 1 ∨ i = 2 ∨ i = 3 := by omega
  rcases ci with rfl | rfl | rfl | rfl
  · left; ext <;> simp [arx, ary] <;> ring
  · right; left; ext <;> simp [arx, ary] <;> ring
  · right; right; left; ext <;> simp [arx, ary] <;> ring
  · right; right; right; ext <;> simp [arx, ary] <;> ring

theorem ar_far {b : ℝ × ℝ} (h : OnBoundary 4 (fun i => (arx i, ary i)) b) : 1 / 4 ≤ dist2 (0, 1) b := by
  obtain ⟨t, t0, t1, rfl | rfl | rfl | rfl⟩ := ar_boundary h <;> unfold dist2 <;> simp only <;> nlinarith [sq_nonneg (t - 2 / 5), sq_nonneg (t - 3 / 5)]

theorem ar_clear : Clear 4 (fun i => (arx i, ary i)) (0, 1) := by
  apply clear_of_far
  intro b hb
  have := ar_far hb
  unfold kTolerance
  norm_num at this ⊢
  linarith

theorem ar_region : Region 4 (fun i => (arx i, ary i)) (0, 1) := by
  right
  have t0 : term (arx 0, ary 0) (arx 1, ary 1) (0, 1) = 1 := by
    unfold term ind gap; simp [arx, ary]; norm_num
  have t1 : term (arx 1, ary 1) (arx 2, ary 2) (0, 1) = 0 := by
    unfold term ind gap; simp [arx, ary]
  have t2 : term (arx 2, ary 2) (arx 3, ary 3) (0, 1) = 0 := by
    unfold term ind gap; simp [arx, ary]; norm_num
  have t3 : term (arx 3, ary 3) (arx 0, ary 0) (0, 1) = 0 := by
    unfold term ind gap; simp [arx, ary]; norm_num
  unfold par
  rw [Finset.sum_range_succ, Finset.sum_range_succ, Finset.sum_range_succ, Finset.sum_range_succ, Finset.sum_range_zero]
  simp only [Nat.reduceAdd, Nat.reduceMod]
  rw [t0, t1, t2, t3]; decide

/-- C97: in the middle of a solid whose polygon is not convex, the safety from outside is positive instead of negative. -/
theorem C97_sign_counterexample :
    InSolid 4 (fun i => (arx i, ary i)) 0 2 ⟨0, 1, 1⟩ ∧ contains 4 (arrow 0 2) ⟨0, 1, 1⟩ = true ∧
      ∃ r, safetyToIn 4 (arrow 0 2) ⟨0, 1, 1⟩ = some r ∧ 0 < r := by
  have g := arrow_given (lo := 0) (hi := 2) (by norm_num)
  have hin : InSolid 4 (fun i => (arx i, ary i)) 0 2 ⟨0, 1, 1⟩ := ⟨by norm_num, by norm_num, ar_region⟩
  refine ⟨hin, ((C96_contains g).1 (arrow_flag _ _) ar_clear).mpr hin, ?_⟩
  obtain ⟨r, hr, -, hr0, hiff⟩ := g.safety (0, 1)
  have hpos : 0 < r.1 := by
    by_contra hcon
    obtain ⟨b, hb, hd⟩ := hiff.mp (lt_of_le_of_lt (not_lt.mp hcon) (mul_pos kTolerance_pos kTolerance_pos))
    have := ar_far hb
    unfold kTolerance at hd
    norm_num at this hd
    linarith
  unfold safetyToIn
  rw [arrow_flag, if_neg (by simp)]
  have hk : (extent (arrow 0 2)).containsKernel ⟨0, 1, 1⟩ = true := by
    -- all vertices but two have another abscissa than 0, and so on
    obtain ⟨p', hp', -, -, -, -, -, he⟩ := C93_init g.lanes g.n_pos g.few arx ary
    rw [g.poly.1] at hp'
    obtain rfl : (arrow 0 2).poly = p' := by simpa using hp'
    have hbig : (10 : ℝ) ^ 100 ≤ kInfLength := by
      have := kInf_huge
      have : (10 : ℝ) ^ 100 ≤ 10 ^ 200 := pow_le_pow_right₀ (by norm_num) (by norm_num)
      linarith
    have hb := (he fun i hi => ⟨(g.small i hi).1.trans hbig, (g.small i hi).2.trans hbig⟩).1
    have b1 := hb 1 (by norm_num)
    have b3 := hb 3 (by norm_num)
    have b0 := hb 0 (by norm_num)
    simp [arx, ary] at b0 b1 b3
    unfold AABB.Box.containsKernel extent
    simp only [Bool.and_eq_true, decide_eq_true_eq, gt_iff_lt]
    refine ⟨⟨⟨⟨⟨?_, ?_⟩, ?_⟩, ?_⟩, ?_⟩, ?_⟩
    · linarith
    · linarith
    · linarith
    · linarith
    · show (0 : ℝ) < 1; norm_num
    · show (1 : ℝ) < 2; norm_num
  rw [if_neg (by rw [hk]; simp), if_neg, hr, Option.map_some]
  · exact ⟨_, rfl, sqrt_pos.mpr hpos⟩
  · rintro ⟨h | h, -⟩ <;> unfold arrow kTolerance at h <;> norm_num [abs_lt] at h

end SExtru
end VecGeom
