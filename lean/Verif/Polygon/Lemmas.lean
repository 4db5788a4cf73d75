import Verif.Polygon.Parity
import Mathlib.Analysis.Convex.Topology

/-!
# Lemmas about polygons
-/

namespace VecGeom
namespace Polygon

open Real Filter Topology

/-! ## The order of the vertices -/

theorem source_one {n i : Nat} (hn : n < 2 ^ 31) (hi : i < n) : source n 1 i = i := by
  unfold source
  rw [Nat.mul_one, Nat.mod_eq_of_lt (show i < 2 ^ 64 by omega), Nat.mod_eq_of_lt (show i + n < 2 ^ 64 by omega), Nat.add_mod_right,
    Nat.mod_eq_of_lt hi]

theorem source_neg {n i : Nat} (hn : n < 2 ^ 31) (hi : i < n) : source n (2 ^ 64 - 1) i = (n - i) % n := by
  unfold source
  rcases Nat.eq_zero_or_pos i with h | h
  · subst h; simp; rw [Nat.mod_eq_of_lt (show n < 18446744073709551616 by omega)]; simp
  · have e : i * (2 ^ 64 - 1) % 2 ^ 64 = 2 ^ 64 - i := by
      have : i * (2 ^ 64 - 1) = (2 ^ 64 - i) + 2 ^ 64 * (i - 1) := by
        zify [show i ≤ 2 ^ 64 by omega, show 1 ≤ i from h]; ring
      rw [this, Nat.add_mul_mod_self_left, Nat.mod_eq_of_lt (by omega)]
    rw [e, show 2 ^ 64 - i + n = (n - i) + 2 ^ 64 by omega, Nat.add_mod_right, Nat.mod_eq_of_lt (show n - i < 2 ^ 64 by omega)]

/-- The vertex with the given index after `Init`. -/
noncomputable def vert (n : Nat) (x y : Nat → ℝ) (i : Nat) : ℝ × ℝ :=
  (x (source n (increment x y n) i), y (source n (increment x y n) i))

theorem sum_prev {M : Type*} [AddCommMonoid M] (n : Nat) (f : Nat → M) :
    ∑ i ∈ Finset.range n, f (prev n i) = ∑ i ∈ Finset.range n, f i := by
  cases n with
  | zero => simp
  | succ m =>
    rw [Finset.sum_range_succ', Finset.sum_range_succ (fun i => f i)]
    simp [prev]

theorem sum_neg {M : Type*} [AddCommMonoid M] (n : Nat) (f : Nat → M) :
    ∑ i ∈ Finset.range n, f ((n - i) % n) = ∑ i ∈ Finset.range n, f i := by
  cases n with
  | zero => simp
  | succ m =>
    rw [Finset.sum_range_succ', Finset.sum_range_succ' (fun i => f i), ← Finset.sum_range_reflect (fun i => f (i + 1)) m]
    congr 1
    · apply Finset.sum_congr rfl
      intro i hi
      have := Finset.mem_range.mp hi
      rw [Nat.mod_eq_of_lt (by omega)]
      congr 1; omega
    · simp

theorem prev_lt {n i : Nat} (hi : i < n) : prev n i < n := by unfold prev; split <;> omega

theorem succ_prev {n i : Nat} (hi : i < n) : (prev n i + 1) % n = i := by
  unfold prev; split
  · rw [show n - 1 + 1 = n by omega, Nat.mod_self]; omega
  · rw [show i - 1 + 1 = i by omega, Nat.mod_eq_of_lt hi]

theorem increment_cases (x y : Nat → ℝ) (n : Nat) : increment x y n = 1 ∨ increment x y n = 2 ^ 64 - 1 := by
  unfold increment; split <;> simp

/-- The edges after `Init` are the edges of the input: the sum of anything that does not depend on the direction of an edge. -/
theorem sum_edges {M : Type*} [AddCommMonoid M] {n : Nat} (hn : n < 2 ^ 31) (x y : Nat → ℝ) (F : ℝ × ℝ → ℝ × ℝ → M)
    (hF : ∀ a b, F a b = F b a) :
    ∑ i ∈ Finset.range n, F (vert n x y i) (vert n x y (prev n i)) =
      ∑ i ∈ Finset.range n, F (x i, y i) (x ((i + 1) % n), y ((i + 1) % n)) := by
  rcases increment_cases x y n with h | h
  · rw [← sum_prev n (fun i => F (x i, y i) (x ((i + 1) % n), y ((i + 1) % n)))]
    apply Finset.sum_congr rfl
    intro i hi
    have hi := Finset.mem_range.mp hi
    unfold vert
    rw [h, source_one hn hi, source_one hn (prev_lt hi), hF, succ_prev hi]
  · rw [← sum_neg n (fun i => F (x i, y i) (x ((i + 1) % n), y ((i + 1) % n)))]
    apply Finset.sum_congr rfl
    intro i hi
    have hi := Finset.mem_range.mp hi
    unfold vert
    rw [h, source_neg hn hi, source_neg hn (prev_lt hi)]
    have e : (n - prev n i) % n = ((n - i) % n + 1) % n := by
      unfold prev; split
      · subst_vars; simp
        rcases Nat.lt_or_ge 1 n with h1 | h1
        · rw [Nat.mod_eq_of_lt (show 1 < n from h1), Nat.mod_eq_of_lt (by omega)]; omega
        · have : n = 1 := by omega
          subst this; simp
      · rw [Nat.mod_eq_of_lt (show n - i < n by omega)]
        congr 1; omega
    rw [e]

/-- Each edge after `Init` is an edge of the input. -/
theorem edge_of {n : Nat} (hn : n < 2 ^ 31) (x y : Nat → ℝ) {i : Nat} (hi : i < n) :
    ∃ j, j < n ∧ ((vert n x y i = (x j, y j) ∧ vert n x y (prev n i) = (x ((j + 1) % n), y ((j + 1) % n))) ∨
      (vert n x y (prev n i) = (x j, y j) ∧ vert n x y i = (x ((j + 1) % n), y ((j + 1) % n)))) := by
  have hn0 : 0 < n := by omega
  rcases increment_cases x y n with h | h
  · refine ⟨prev n i, prev_lt hi, Or.inr ?_⟩
    unfold vert
    rw [h, source_one hn hi, source_one hn (prev_lt hi), succ_prev hi]
    exact ⟨rfl, rfl⟩
  · refine ⟨(n - i) % n, Nat.mod_lt _ hn0, Or.inl ?_⟩
    unfold vert
    rw [h, source_neg hn hi, source_neg hn (prev_lt hi)]
    have e : (n - prev n i) % n = ((n - i) % n + 1) % n := by
      unfold prev; split
      · subst_vars; simp
        rcases Nat.lt_or_ge 1 n with h1 | h1
        · rw [Nat.mod_eq_of_lt (show 1 < n from h1), Nat.mod_eq_of_lt (by omega)]; omega
        · have : n = 1 := by omega
          subst this; simp
      · rw [Nat.mod_eq_of_lt (show n - i < n by omega)]
        congr 1; omega
    rw [e]; exact ⟨rfl, rfl⟩

theorem onEdge_comm {a b q : ℝ × ℝ} : OnEdge a b q ↔ OnEdge b a q := by
  constructor <;> rintro ⟨t, h0, h1, rfl⟩ <;>
    exact ⟨1 - t, by linarith, by linarith, by ext <;> simp <;> ring⟩

theorem boundary_of_edge {n : Nat} (hn : n < 2 ^ 31) (x y : Nat → ℝ) {i : Nat} (hi : i < n) {q : ℝ × ℝ}
    (h : OnEdge (vert n x y i) (vert n x y (prev n i)) q) : OnBoundary n (fun i => (x i, y i)) q := by
  obtain ⟨j, hj, h1 | h1⟩ := edge_of hn x y hi
  · rw [h1.1, h1.2] at h; exact ⟨j, hj, h⟩
  · rw [h1.1, h1.2] at h; exact ⟨j, hj, onEdge_comm.mp h⟩

/-! ## Crossings -/

theorem gap_comm {a b q : ℝ × ℝ} (h : b.2 - a.2 ≠ 0) : gap a b q = gap b a q := by
  unfold gap
  have : a.2 - b.2 ≠ 0 := by intro h'; apply h; linarith
  have e : b.2 - a.2 = -(a.2 - b.2) := by ring
  rw [e]; field_simp; ring

theorem term_comm (a b q : ℝ × ℝ) : term a b q = term b a q := by
  unfold term
  by_cases h : b.2 - a.2 = 0
  · have : a.2 = b.2 := by linarith
    rw [this, two_self]; ring
  · rw [gap_comm h, add_comm]

theorem ratio_aux {w t : ℝ} (hw : 0 < w) (ht : 0 < t) : 0 ≤ w / (w + t) ∧ w / (w + t) ≤ 1 ∧ (1 - w / (w + t)) * w ≤ t := by
  have hd : 0 < w + t := by linarith
  have h1 : w / (w + t) ≤ 1 := by rw [div_le_one hd]; linarith
  refine ⟨by positivity, h1, ?_⟩
  have : (1 - w / (w + t)) * w = t * (w / (w + t)) := by field_simp; ring
  rw [this]; nlinarith

theorem ratio_bounds {w : ℝ} (hne : w ≠ 0) : 0 ≤ w / nonZero w ∧ w / nonZero w ≤ 1 ∧ (1 - w / nonZero w) * |w| ≤ 1 / 10 ^ 30 := by
  have ht : (0 : ℝ) < 1 / 10 ^ 30 := by positivity
  rcases lt_or_gt_of_ne hne with hw | hw
  · have e : w / nonZero w = (-w) / (-w + 1 / 10 ^ 30) := by
      have : nonZero w = -(-w + 1 / 10 ^ 30) := by
        unfold nonZero copySign kTiny; rw [if_pos hw]; ring
      rw [this, div_neg, neg_div]
    rw [e, abs_of_neg hw]
    exact ratio_aux (by linarith) ht
  · have e : nonZero w = w + 1 / 10 ^ 30 := by
      unfold nonZero copySign kTiny; rw [if_neg (not_lt.mpr hw.le)]
    rw [e, abs_of_pos hw]
    exact ratio_aux hw ht

/-- With the slopes of the code, which avoid a division by 0, the result is the exact one unless an edge is within `10⁻³⁰`. -/
theorem cond_eq {a b q : ℝ × ℝ} (h : (a.2 > q.2 ∧ ¬ b.2 > q.2) ∨ (¬ a.2 > q.2 ∧ b.2 > q.2))
    (hc : ∀ y, |y - q.2| ≤ 1 / 10 ^ 30 → ¬ OnEdge a b (q.1, y)) :
    q.1 < (b.1 - a.1) / nonZero (b.2 - a.2) * (q.2 - a.2) + a.1 ↔ 0 < gap a b q := by
  have hne : b.2 - a.2 ≠ 0 := by
    intro h0; rcases h with ⟨h1, h2⟩ | ⟨h1, h2⟩ <;> [apply h2; apply h1] <;> linarith
  -- the exact parameter and the parameter of the code
  set l := (q.2 - a.2) / (b.2 - a.2) with hl
  set m := (q.2 - a.2) / nonZero (b.2 - a.2) with hm
  have hl0 : 0 ≤ l := by
    rcases h with ⟨h1, h2⟩ | ⟨h1, h2⟩
    · apply div_nonneg_of_nonpos <;> linarith
    · apply div_nonneg <;> linarith
  have hl1 : l ≤ 1 := by
    rcases h with ⟨h1, h2⟩ | ⟨h1, h2⟩
    · rw [hl, div_le_one_of_neg (by linarith)]; linarith
    · rw [hl, div_le_one (by linarith)]; linarith
  have hml : 0 ≤ m ∧ m ≤ l ∧ (l - m) * |b.2 - a.2| ≤ 1 / 10 ^ 30 := by
    have hq : q.2 - a.2 = l * (b.2 - a.2) := by rw [hl]; field_simp
    have hmm : m = l * ((b.2 - a.2) / nonZero (b.2 - a.2)) := by rw [hm, hq]; ring
    have hr : 0 ≤ (b.2 - a.2) / nonZero (b.2 - a.2) ∧ (b.2 - a.2) / nonZero (b.2 - a.2) ≤ 1 ∧
        (1 - (b.2 - a.2) / nonZero (b.2 - a.2)) * |b.2 - a.2| ≤ 1 / 10 ^ 30 := by
      exact ratio_bounds hne
    obtain ⟨r0, r1, r2⟩ := hr
    rw [hmm]
    generalize (b.2 - a.2) / nonZero (b.2 - a.2) = r at *
    refine ⟨mul_nonneg hl0 r0, by nlinarith, ?_⟩
    have : (l - l * r) * |b.2 - a.2| = l * ((1 - r) * |b.2 - a.2|) := by ring
    rw [this]
    have := mul_nonneg (sub_nonneg.mpr r1) (abs_nonneg (b.2 - a.2))
    nlinarith
  obtain ⟨m0, ml, md⟩ := hml
  have e1 : (b.1 - a.1) / nonZero (b.2 - a.2) * (q.2 - a.2) + a.1 = a.1 + m * (b.1 - a.1) := by rw [hm]; ring
  have e2 : gap a b q = a.1 + l * (b.1 - a.1) - q.1 := by unfold gap; rw [hl]; ring
  rw [e1, e2]
  by_contra hcon
  -- between the two there is a point of the edge straight above or below
  have hex : ∃ t, m ≤ t ∧ t ≤ l ∧ q.1 = a.1 + t * (b.1 - a.1) := by
    by_cases hd : b.1 - a.1 = 0
    · exfalso; apply hcon; rw [hd]; simp
    · refine ⟨(q.1 - a.1) / (b.1 - a.1), ?_, ?_, by field_simp; ring⟩
      · rcases lt_or_gt_of_ne hd with hx | hx
        · rw [le_div_iff_of_neg hx]
          by_contra h3; apply hcon
          constructor <;> intro _ <;> nlinarith
        · rw [le_div_iff₀ hx]
          by_contra h3; apply hcon
          constructor <;> intro _ <;> nlinarith
      · rcases lt_or_gt_of_ne hd with hx | hx
        · rw [div_le_iff_of_neg hx]
          by_contra h3; apply hcon
          constructor <;> intro _ <;> nlinarith
        · rw [div_le_iff₀ hx]
          by_contra h3; apply hcon
          constructor <;> intro _ <;> nlinarith
  obtain ⟨t, t0, t1, ht⟩ := hex
  refine hc (a.2 + t * (b.2 - a.2)) ?_ ⟨t, by linarith, by linarith, ?_⟩
  · have : a.2 + t * (b.2 - a.2) - q.2 = (t - l) * (b.2 - a.2) := by rw [hl]; field_simp; ring
    rw [this, abs_mul, abs_of_nonpos (by linarith)]
    have := abs_nonneg (b.2 - a.2)
    nlinarith
  · ext
    · exact ht
    · rfl

end Polygon
end VecGeom
