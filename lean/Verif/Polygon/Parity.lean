import Verif.Polygon.Spec
import Mathlib.Data.ZMod.Basic
import Mathlib.Algebra.CharP.Two

/-!
# The parity of the crossings

With exact slopes, the parity of the number of edges to the right of a point is locally constant off the boundary, and flips at an edge.
-/

namespace VecGeom
namespace Polygon

open Real Filter Topology

open Classical in
/-- 1 or 0. -/
noncomputable def ind (P : Prop) : ZMod 2 := if P then 1 else 0

theorem ind_congr {P Q : Prop} (h : P ↔ Q) : ind P = ind Q := by rw [propext h]

theorem two_self (a : ZMod 2) : a + a = 0 := CharTwo.add_self_eq_zero a

/-- How far `q` is to the left of the line. -/
noncomputable def gap (a b q : ℝ × ℝ) : ℝ := (b.1 - a.1) / (b.2 - a.2) * (q.2 - a.2) + a.1 - q.1

/-- Whether the ray from `q` to the right meets the edge. -/
noncomputable def term (a b q : ℝ × ℝ) : ZMod 2 := (ind (a.2 > q.2) + ind (b.2 > q.2)) * ind (0 < gap a b q)

open Classical in
/-- A correction for the vertices as high as `p`. -/
noncomputable def corr (p v q : ℝ × ℝ) : ZMod 2 := if v.2 = p.2 then ind (v.1 > p.1) * ind (v.2 > q.2) else 0

/-- The corrected term. -/
noncomputable def cterm (p a b q : ℝ × ℝ) : ZMod 2 := term a b q + corr p a q + corr p b q

theorem continuous_gap (a b : ℝ × ℝ) : Continuous (gap a b) := by
  unfold gap; fun_prop

theorem continuous_side (a b : ℝ × ℝ) : Continuous (side a b) := by
  unfold side; fun_prop

/-- The sign of a continuous function is locally constant where it is not 0. -/
theorem eventually_sign {f : ℝ × ℝ → ℝ} (hf : Continuous f) {p : ℝ × ℝ} (hp : f p ≠ 0) :
    ∀ᶠ q in 𝓝 p, (0 < f q ↔ 0 < f p) := by
  rcases lt_or_gt_of_ne hp with h | h
  · filter_upwards [hf.continuousAt.eventually_lt_const h] with q hq
    constructor <;> intro h' <;> linarith
  · filter_upwards [hf.continuousAt.eventually_const_lt h] with q hq
    exact ⟨fun _ => h, fun _ => hq⟩

theorem eventually_above {v p : ℝ × ℝ} (h : v.2 ≠ p.2) : ∀ᶠ q in 𝓝 p, (v.2 > q.2 ↔ v.2 > p.2) := by
  have hc : Continuous (fun q : ℝ × ℝ => v.2 - q.2) := by fun_prop
  filter_upwards [eventually_sign hc (p := p) (sub_ne_zero.mpr h)] with q hq
  constructor
  · intro h1; have := hq.mp (by linarith); linarith
  · intro h1; have := hq.mpr (by linarith); linarith

theorem gap_at_left {a b p : ℝ × ℝ} (h : a.2 = p.2) : gap a b p = a.1 - p.1 := by
  unfold gap; rw [h]; ring

theorem gap_at_right {a b p : ℝ × ℝ} (h : b.2 = p.2) (hne : a.2 ≠ p.2) : gap a b p = b.1 - p.1 := by
  unfold gap; rw [h]
  have : p.2 - a.2 ≠ 0 := sub_ne_zero.mpr (Ne.symm hne)
  field_simp; ring

theorem onEdge_left (a b : ℝ × ℝ) : OnEdge a b a := ⟨0, le_rfl, zero_le_one, by simp⟩

theorem onEdge_right (a b : ℝ × ℝ) : OnEdge a b b := ⟨1, zero_le_one, le_rfl, by ext <;> simp⟩

theorem onEdge_of_gap {a b p : ℝ × ℝ} (h : (a.2 > p.2 ∧ ¬ b.2 > p.2) ∨ (¬ a.2 > p.2 ∧ b.2 > p.2)) (hg : gap a b p = 0) :
    OnEdge a b p := by
  have hne : b.2 - a.2 ≠ 0 := by
    intro h0; rcases h with ⟨h1, h2⟩ | ⟨h1, h2⟩ <;> [apply h2; apply h1] <;> linarith
  refine ⟨(p.2 - a.2) / (b.2 - a.2), ?_, ?_, ?_⟩
  · rcases h with ⟨h1, h2⟩ | ⟨h1, h2⟩
    · apply div_nonneg_of_nonpos <;> linarith
    · apply div_nonneg <;> linarith
  · rcases h with ⟨h1, h2⟩ | ⟨h1, h2⟩
    · rw [div_le_one_of_neg (by linarith)]; linarith
    · rw [div_le_one (by linarith)]; linarith
  · unfold gap at hg
    ext
    · simp only
      have : (p.2 - a.2) / (b.2 - a.2) * (b.1 - a.1) = (b.1 - a.1) / (b.2 - a.2) * (p.2 - a.2) := by ring
      rw [this]; linarith
    · simp only; field_simp; ring

/-- On a horizontal line, a point off the edge has both ends on the same side. -/
theorem same_side {a b p : ℝ × ℝ} (ha : a.2 = p.2) (hb : b.2 = p.2) (h : ¬ OnEdge a b p) : (a.1 > p.1 ↔ b.1 > p.1) := by
  by_contra hc
  apply h
  have hne : b.1 - a.1 ≠ 0 := by
    intro h0
    have : a.1 = b.1 := by linarith
    rw [this] at hc; exact hc Iff.rfl
  have key : (a.1 > p.1 ∧ ¬ b.1 > p.1) ∨ (¬ a.1 > p.1 ∧ b.1 > p.1) := by tauto
  refine ⟨(p.1 - a.1) / (b.1 - a.1), ?_, ?_, ?_⟩
  · rcases key with ⟨h1, h2⟩ | ⟨h1, h2⟩
    · apply div_nonneg_of_nonpos <;> linarith
    · apply div_nonneg <;> linarith
  · rcases key with ⟨h1, h2⟩ | ⟨h1, h2⟩
    · rw [div_le_one_of_neg (by linarith)]; linarith
    · rw [div_le_one (by linarith)]; linarith
  · ext
    · simp only; field_simp; ring
    · simp only; rw [ha, hb]; ring

theorem cterm_at_left {p a b : ℝ × ℝ} (ha : a.2 = p.2) (hb : b.2 ≠ p.2) (hx : a.1 ≠ p.1) :
    ∀ᶠ q in 𝓝 p, cterm p a b q = ind (b.2 > p.2) * ind (a.1 > p.1) := by
  have hg : gap a b p ≠ 0 := by rw [gap_at_left ha]; exact sub_ne_zero.mpr hx
  filter_upwards [eventually_above hb, eventually_sign (continuous_gap a b) hg] with q h1 h2
  unfold cterm term corr
  rw [if_pos ha, if_neg hb, ind_congr h1]
  have h3 : ind (0 < gap a b q) = ind (a.1 > p.1) := by
    apply ind_congr; rw [h2, gap_at_left ha]; exact sub_pos
  rw [h3]
  generalize ind (a.2 > q.2) = u
  generalize ind (b.2 > p.2) = w
  generalize ind (a.1 > p.1) = s
  have := two_self (u * s)
  linear_combination this

theorem cterm_at_right {p a b : ℝ × ℝ} (ha : a.2 ≠ p.2) (hb : b.2 = p.2) (hx : b.1 ≠ p.1) :
    ∀ᶠ q in 𝓝 p, cterm p a b q = ind (a.2 > p.2) * ind (b.1 > p.1) := by
  have hg : gap a b p ≠ 0 := by rw [gap_at_right hb ha]; exact sub_ne_zero.mpr hx
  filter_upwards [eventually_above ha, eventually_sign (continuous_gap a b) hg] with q h1 h2
  unfold cterm term corr
  rw [if_pos hb, if_neg ha, ind_congr h1]
  have h3 : ind (0 < gap a b q) = ind (b.1 > p.1) := by
    apply ind_congr; rw [h2, gap_at_right hb ha]; exact sub_pos
  rw [h3]
  generalize ind (b.2 > q.2) = u
  generalize ind (a.2 > p.2) = w
  generalize ind (b.1 > p.1) = s
  have := two_self (u * s)
  linear_combination this

/-- Off an edge, the corrected term is locally constant. -/
theorem cterm_const {p a b : ℝ × ℝ} (h : ¬ OnEdge a b p) : ∀ᶠ q in 𝓝 p, cterm p a b q = cterm p a b p := by
  by_cases ha : a.2 = p.2
  · have hxa : a.1 ≠ p.1 := by
      intro hx; apply h; rw [show p = a from (Prod.ext hx ha).symm]; exact onEdge_left a b
    by_cases hb : b.2 = p.2
    · have hs := ind_congr (same_side ha hb h)
      have hz : ∀ q, cterm p a b q = 0 := by
        intro q
        unfold cterm term corr
        rw [if_pos ha, if_pos hb, hs, ha, hb]
        generalize ind (p.2 > q.2) = u
        generalize ind (b.1 > p.1) = s
        have h1 := two_self u
        have h2 := two_self (s * u)
        rw [h1, zero_mul, zero_add, h2]
      exact Eventually.of_forall fun q => by rw [hz, hz]
    · have := cterm_at_left ha hb hxa
      filter_upwards [this] with q hq
      rw [hq, this.self_of_nhds]
  · by_cases hb : b.2 = p.2
    · have hxb : b.1 ≠ p.1 := by
        intro hx; apply h; rw [show p = b from (Prod.ext hx hb).symm]; exact onEdge_right a b
      have := cterm_at_right ha hb hxb
      filter_upwards [this] with q hq
      rw [hq, this.self_of_nhds]
    · by_cases hsame : (a.2 > p.2 ↔ b.2 > p.2)
      · filter_upwards [eventually_above ha, eventually_above hb] with q h1 h2
        unfold cterm term corr
        rw [if_neg ha, if_neg hb, if_neg ha, if_neg hb, ind_congr h1, ind_congr h2, ind_congr hsame, two_self, zero_mul, zero_mul]
      · have hg : gap a b p ≠ 0 := by
          intro h0; apply h; apply onEdge_of_gap _ h0; tauto
        filter_upwards [eventually_above ha, eventually_above hb, eventually_sign (continuous_gap a b) hg] with q h1 h2 h3
        unfold cterm term corr
        rw [if_neg ha, if_neg hb, if_neg ha, if_neg hb, ind_congr h1, ind_congr h2, ind_congr h3]

theorem side_eq_gap {a b q : ℝ × ℝ} (h : b.2 - a.2 ≠ 0) : side a b q = (b.2 - a.2) * gap a b q := by
  unfold side gap; field_simp; ring

/-- At an edge, the corrected term flips. -/
theorem cterm_flip {p a b : ℝ × ℝ} (h : OnOpenEdge a b p) :
    ∃ c : ZMod 2, ∀ᶠ q in 𝓝 p, (0 < side a b q → cterm p a b q = c) ∧ (side a b q < 0 → cterm p a b q = c + 1) := by
  obtain ⟨t, h0, h1, hp⟩ := h
  have hp1 : p.1 = a.1 + t * (b.1 - a.1) := by rw [hp]
  have hp2 : p.2 = a.2 + t * (b.2 - a.2) := by rw [hp]
  by_cases hd : b.2 - a.2 = 0
  · -- horizontal
    have ha : a.2 = p.2 := by rw [hp2, hd]; ring
    have hb : b.2 = p.2 := by rw [hp2, hd]; linarith
    have hs : ∀ q, side a b q = (b.1 - a.1) * (q.2 - p.2) := by intro q; unfold side; rw [hd, ha]; ring
    have hc : ∀ q, cterm p a b q = (ind (a.1 > p.1) + ind (b.1 > p.1)) * ind (p.2 > q.2) := by
      intro q
      unfold cterm term corr
      rw [if_pos ha, if_pos hb, ha, hb, two_self]; ring
    rcases lt_trichotomy (b.1 - a.1) 0 with hx | hx | hx
    · have e1 : a.1 > p.1 := by nlinarith
      have e2 : ¬ b.1 > p.1 := by nlinarith
      refine ⟨1, Eventually.of_forall fun q => ⟨fun hq => ?_, fun hq => ?_⟩⟩
      · have : p.2 > q.2 := by rw [hs] at hq; nlinarith
        rw [hc]; simp [ind, e1, e2, this]
      · have : ¬ p.2 > q.2 := by rw [hs] at hq; nlinarith
        rw [hc]; simp [ind, this]; decide
    · refine ⟨0, Eventually.of_forall fun q => ⟨fun hq => ?_, fun hq => ?_⟩⟩ <;>
        (rw [hs, hx] at hq; simp at hq)
    · have e1 : ¬ a.1 > p.1 := by nlinarith
      have e2 : b.1 > p.1 := by nlinarith
      refine ⟨0, Eventually.of_forall fun q => ⟨fun hq => ?_, fun hq => ?_⟩⟩
      · have : ¬ p.2 > q.2 := by rw [hs] at hq; nlinarith
        rw [hc]; simp [ind, this]
      · have : p.2 > q.2 := by rw [hs] at hq; nlinarith
        rw [hc]; simp [ind, e1, e2, this]
  · have ha : a.2 ≠ p.2 := by
      intro h'; rw [h'] at hp2
      have : t * (b.2 - p.2) = 0 := by linarith
      rcases mul_eq_zero.mp this with h2 | h2
      · linarith
      · exact hd (by rw [h']; exact h2)
    have hb : b.2 ≠ p.2 := by
      intro h'
      have : (1 - t) * (b.2 - a.2) = 0 := by rw [h']; rw [h'] at hp2; linarith
      rcases mul_eq_zero.mp this with h2 | h2
      · linarith
      · exact hd h2
    have hbit : ind (a.2 > p.2) + ind (b.2 > p.2) = 1 := by
      rcases lt_or_gt_of_ne hd with hx | hx
      · have e1 : a.2 > p.2 := by nlinarith
        have e2 : ¬ b.2 > p.2 := by nlinarith
        simp [ind, e1, e2]
      · have e1 : ¬ a.2 > p.2 := by nlinarith
        have e2 : b.2 > p.2 := by nlinarith
        simp [ind, e1, e2]
    have hev : ∀ᶠ q in 𝓝 p, cterm p a b q = ind (0 < gap a b q) := by
      filter_upwards [eventually_above ha, eventually_above hb] with q h1 h2
      unfold cterm term corr
      rw [if_neg ha, if_neg hb, ind_congr h1, ind_congr h2, hbit]; ring
    rcases lt_or_gt_of_ne hd with hx | hx
    · refine ⟨0, ?_⟩
      filter_upwards [hev] with q hq
      rw [hq, side_eq_gap hd]
      refine ⟨fun h' => ?_, fun h' => ?_⟩
      · have : ¬ 0 < gap a b q := by intro h2; nlinarith
        simp [ind, this]
      · have : 0 < gap a b q := by by_contra h2; nlinarith
        simp [ind, this]
    · refine ⟨1, ?_⟩
      filter_upwards [hev] with q hq
      rw [hq, side_eq_gap hd]
      refine ⟨fun h' => ?_, fun h' => ?_⟩
      · have : 0 < gap a b q := by by_contra h2; nlinarith
        simp [ind, this]
      · have : ¬ 0 < gap a b q := by intro h2; nlinarith
        simp [ind, this]; decide

/-! ## All edges -/

/-- The parity. -/
noncomputable def par (n : Nat) (v : Nat → ℝ × ℝ) (q : ℝ × ℝ) : ZMod 2 :=
  ∑ i ∈ Finset.range n, term (v i) (v ((i + 1) % n)) q

theorem sum_shift {M : Type*} [AddCommMonoid M] (n : Nat) (f : Nat → M) :
    ∑ i ∈ Finset.range n, f ((i + 1) % n) = ∑ i ∈ Finset.range n, f i := by
  cases n with
  | zero => simp
  | succ m =>
    rw [Finset.sum_range_succ, Finset.sum_range_succ' (fun i => f i), Nat.mod_self]
    congr 1
    apply Finset.sum_congr rfl
    intro i hi
    rw [Nat.mod_eq_of_lt (by have := Finset.mem_range.mp hi; omega)]

theorem par_eq (n : Nat) (v : Nat → ℝ × ℝ) (p q : ℝ × ℝ) :
    par n v q = ∑ i ∈ Finset.range n, cterm p (v i) (v ((i + 1) % n)) q := by
  unfold par cterm
  rw [Finset.sum_add_distrib, Finset.sum_add_distrib, sum_shift n (fun i => corr p (v i) q), add_assoc, two_self, add_zero]

theorem par_const {n : Nat} {v : Nat → ℝ × ℝ} {p : ℝ × ℝ} (h : ¬ OnBoundary n v p) : ∀ᶠ q in 𝓝 p, par n v q = par n v p := by
  have : ∀ᶠ q in 𝓝 p, ∀ i ∈ Finset.range n, cterm p (v i) (v ((i + 1) % n)) q = cterm p (v i) (v ((i + 1) % n)) p := by
    rw [Filter.eventually_all_finset]
    intro i hi
    exact cterm_const fun h' => h ⟨i, Finset.mem_range.mp hi, h'⟩
  filter_upwards [this] with q hq
  rw [par_eq n v p q, par_eq n v p p]
  exact Finset.sum_congr rfl hq

theorem par_flip {n : Nat} {v : Nat → ℝ × ℝ} {p : ℝ × ℝ} {i : Nat} (hi : i < n) (h : OnOpenEdge (v i) (v ((i + 1) % n)) p)
    (ho : ∀ j, j < n → j ≠ i → ¬ OnEdge (v j) (v ((j + 1) % n)) p) :
    ∃ c : ZMod 2, ∀ᶠ q in 𝓝 p, (0 < side (v i) (v ((i + 1) % n)) q → par n v q = c) ∧
      (side (v i) (v ((i + 1) % n)) q < 0 → par n v q = c + 1) := by
  obtain ⟨c, hc⟩ := cterm_flip h
  have hrest : ∀ᶠ q in 𝓝 p, ∀ j ∈ (Finset.range n).erase i,
      cterm p (v j) (v ((j + 1) % n)) q = cterm p (v j) (v ((j + 1) % n)) p := by
    rw [Filter.eventually_all_finset]
    intro j hj
    rw [Finset.mem_erase, Finset.mem_range] at hj
    exact cterm_const (ho j hj.2 hj.1)
  refine ⟨c + ∑ j ∈ (Finset.range n).erase i, cterm p (v j) (v ((j + 1) % n)) p, ?_⟩
  filter_upwards [hc, hrest] with q h1 h2
  rw [par_eq n v p q, ← Finset.add_sum_erase _ _ (Finset.mem_range.mpr hi), Finset.sum_congr rfl h2]
  refine ⟨fun h' => by rw [h1.1 h'], fun h' => by rw [h1.2 h']; ring⟩

/-- The parity is constant on connected sets that avoid the boundary. -/
theorem par_preconnected {n : Nat} {v : Nat → ℝ × ℝ} {S : Set (ℝ × ℝ)} (hS : IsPreconnected S) (h : ∀ q ∈ S, ¬ OnBoundary n v q)
    {p q : ℝ × ℝ} (hp : p ∈ S) (hq : q ∈ S) : par n v p = par n v q := by
  have hc : ContinuousOn (fun q => decide (par n v q = 1)) S := by
    intro s hs
    apply ContinuousAt.continuousWithinAt
    have : (fun q => decide (par n v q = 1)) =ᶠ[𝓝 s] fun _ => decide (par n v s = 1) := by
      filter_upwards [par_const (h s hs)] with q hq
      rw [hq]
    exact continuousAt_const.congr this.symm
  have := hS.constant hc hp hq
  have h2 : ∀ a b : ZMod 2, decide (a = 1) = decide (b = 1) → a = b := by decide
  exact h2 _ _ this

end Polygon
end VecGeom
