import Verif.MultiUnion.Model
import Mathlib.Algebra.BigOperators.Group.Finset.Basic
import Mathlib.Algebra.Order.BigOperators.Group.Finset
import Mathlib.Tactic.Ring

/-!
# The lists of neighbours

The loops of `Close` are followed on abstract rows: row `k` after the pairs handled so far.
-/

namespace VecGeom
namespace MultiUnion

open AABB Hybrid

/-- The neighbours of `k` among the components below `t`, in increasing order. -/
noncomputable def below (boxes : Nat → Box) (k t : Nat) : List Nat :=
  (List.range t).filter fun a => decide (a ≠ k) && overlap (boxes k) (boxes a)

theorem overlap_comm (a b : Box) : overlap a b = overlap b a := by
  unfold overlap
  by_cases h : min (min (a.hi.x - b.lo.x) (a.hi.y - b.lo.y)) (a.hi.z - b.lo.z) < -kTolerance ∨
     min (min (b.hi.x - a.lo.x) (b.hi.y - a.lo.y)) (b.hi.z - a.lo.z) < -kTolerance
  · rw [if_pos h, if_pos h.symm]
  · rw [if_neg h, if_neg (fun h' => h h'.symm)]

theorem below_succ (boxes : Nat → Box) (k t : Nat) :
    below boxes k (t + 1) = below boxes k t ++ if t ≠ k ∧ overlap (boxes k) (boxes t) = true then [t] else [] := by
  unfold below
  rw [List.range_succ, List.filter_append]
  congr 1
  by_cases h : t ≠ k ∧ overlap (boxes k) (boxes t) = true
  · rw [if_pos h, List.filter_cons, if_pos (by simp [h.1, h.2])]; rfl
  · rw [if_neg h, List.filter_cons, if_neg (by simpa using h)]; rfl

theorem below_length_le (boxes : Nat → Box) (k t : Nat) : (below boxes k t).length ≤ t := by
  unfold below
  exact (List.length_filter_le _ _).trans (by simp)

theorem below_self (boxes : Nat → Box) (k : Nat) : below boxes k (k + 1) = below boxes k k := by
  rw [below_succ, if_neg (by simp), List.append_nil]

/-- The buffer during the loops over the pairs: `L k` are the entries of row `k` of width `n`. -/
structure Rows (n : Nat) (s : Neigh) (L : Nat → List Nat) : Prop where
  size : s.size = n * n
  row : ∀ k, s.row k = k * n
  cnt : ∀ k, k < n → s.cnt k = (L k).length
  val : ∀ k, k < n → ∀ t, (h : t < (L k).length) → s.buf (k * n + t) = (L k)[t]

/-- One entry more in row `i`. -/
def snoc (L : Nat → List Nat) (i v : Nat) : Nat → List Nat := fun k => if k = i then L i ++ [v] else L k

theorem row_lt {n i t : Nat} (hi : i < n) (ht : t < n) : i * n + t < n * n := by
  have : (i + 1) * n ≤ n * n := Nat.mul_le_mul_right n hi
  rw [Nat.add_mul, Nat.one_mul] at this
  omega

theorem row_disjoint {n i k t u : Nat} (ht : t < n) (hu : u < n) (h : k * n + u = i * n + t) : k = i ∧ u = t := by
  have hn : 0 < n := by omega
  have e : ∀ a b, b < n → (a * n + b) / n = a := fun a b hb => by
    rw [Nat.mul_comm, Nat.mul_add_div hn, Nat.div_eq_of_lt hb, Nat.add_zero]
  have h1 := congrArg (· / n) h
  simp only [e _ _ ht, e _ _ hu] at h1
  subst h1
  exact ⟨rfl, by omega⟩

theorem push_spec {n : Nat} {s : Neigh} {L : Nat → List Nat} (h : Rows n s L) {i v : Nat} (hi : i < n) (hl : (L i).length < n)
    (hL : ∀ k, k < n → (L k).length ≤ n) : ∃ s', s.push i v = some s' ∧ Rows n s' (snoc L i v) := by
  have hc : s.row i + s.cnt i < s.size := by rw [h.row, h.cnt i hi, h.size]; exact row_lt hi hl
  refine ⟨_, if_pos hc, ?_⟩
  · constructor
    · exact h.size
    · exact h.row
    · intro k hkn
      dsimp only [snoc]
      by_cases hk : k = i
      · rw [if_pos hk, if_pos hk, h.cnt i hi, List.length_append]; rfl
      · rw [if_neg hk, if_neg hk, h.cnt k hkn]
    · intro k hk t ht
      dsimp only
      rw [h.row, h.cnt i hi]
      by_cases hki : k = i
      · subst hki
        have e : snoc L k v k = L k ++ [v] := if_pos rfl
        simp only [e, List.length_append, List.length_cons, List.length_nil] at ht ⊢
        rcases Nat.lt_or_ge t (L k).length with h1 | h1
        · rw [if_neg (by omega), List.getElem_append_left h1]
          exact h.val k hk t h1
        · have : t = (L k).length := by omega
          subst this
          rw [if_pos rfl]
          simp
      · have e : snoc L i v k = L k := if_neg hki
        simp only [e] at ht ⊢
        rw [if_neg]
        · exact h.val k hk t ht
        · intro hc
          exact hki (row_disjoint hl (lt_of_lt_of_le ht (hL k hk)) hc).1

/-- The bound of row `k` while outer index `i` and inner index `j` are next. -/
def mark (n i j k : Nat) : Nat := if k < i then n else if k = i then j else if k < j then i + 1 else i

/-- State before the pair `(i, j)`. -/
structure At (boxes : Nat → Box) (n i j : Nat) (s : Neigh × Nat) : Prop where
  rows : Rows n s.1 fun k => below boxes k (mark n i j k)
  total : s.2 = ∑ k ∈ Finset.range n, (below boxes k (mark n i j k)).length

theorem mark_le {n i j k : Nat} (hi : i < n) (hj : j ≤ n) : mark n i j k ≤ n := by
  unfold mark
  split
  · exact le_refl _
  · split
    · exact hj
    · split <;> omega

theorem pair_spec {boxes : Nat → Box} {n i j : Nat} {s : Neigh × Nat} (hij : i < j) (hj : j < n) (h : At boxes n i j s) :
    ∃ s', pairStep boxes i s j = some s' ∧ At boxes n i (j + 1) s' := by
  have hL : ∀ k, k < n → (below boxes k (mark n i j k)).length ≤ n := fun k _ =>
    (below_length_le _ _ _).trans (mark_le (by omega) (by omega))
  have mi : mark n i j i = j := by simp [mark]
  have mj : mark n i j j = i := by
    unfold mark; rw [if_neg (by omega), if_neg (by omega), if_neg (by omega)]
  have mi' : mark n i (j + 1) i = j + 1 := by simp [mark]
  have mj' : mark n i (j + 1) j = i + 1 := by
    unfold mark; rw [if_neg (by omega), if_neg (by omega), if_pos (by omega)]
  have mo : ∀ k, k ≠ i → k ≠ j → mark n i (j + 1) k = mark n i j k := by
    intro k h1 h2
    unfold mark
    by_cases a : k < i
    · rw [if_pos a, if_pos a]
    · rw [if_neg a, if_neg a, if_neg h1, if_neg h1]
      by_cases b : k < j
      · rw [if_pos (by omega), if_pos b]
      · rw [if_neg (by omega), if_neg b]
  unfold pairStep
  by_cases ho : overlap (boxes i) (boxes j) = true
  · rw [if_pos ho]
    obtain ⟨t, e1, r1⟩ := push_spec h.rows (v := j) (show i < n by omega)
      (by rw [mi]; exact (below_length_le _ _ _).trans_lt hj) hL
    have hlen : ∀ k, k < n → (snoc (fun k => below boxes k (mark n i j k)) i j k).length ≤ n := by
      intro k hk
      unfold snoc
      split
      · rw [List.length_append]
        beta_reduce
        rw [mi]
        have := below_length_le boxes i j
        simp only [List.length_cons, List.length_nil]; omega
      · exact hL k hk
    obtain ⟨u, e2, r2⟩ := push_spec r1 (v := i) hj
      (by unfold snoc; rw [if_neg (by omega)]; beta_reduce; rw [mj]; exact (below_length_le _ _ _).trans_lt (by omega)) hlen
    refine ⟨(u, s.2 + 2), by rw [e1, Option.bind_some, e2, Option.map_some], ?_⟩
    have hfun : snoc (snoc (fun k => below boxes k (mark n i j k)) i j) j i = fun k => below boxes k (mark n i (j + 1) k) := by
      funext k
      unfold snoc
      by_cases k1 : k = j
      · rw [if_pos k1, if_neg (by omega), k1, mj']
        beta_reduce
        rw [mj, below_succ, if_pos ⟨by omega, by rw [overlap_comm]; exact ho⟩]
      · rw [if_neg k1]
        by_cases k2 : k = i
        · rw [if_pos k2, k2, mi']
          beta_reduce
          rw [mi, below_succ, if_pos ⟨by omega, ho⟩]
        · rw [if_neg k2, mo k k2 k1]
    refine ⟨by rw [← hfun]; exact r2, ?_⟩
    dsimp only
    rw [h.total]
    have key : ∀ k, (below boxes k (mark n i (j + 1) k)).length =
        (below boxes k (mark n i j k)).length + ((if k = i then 1 else 0) + (if k = j then 1 else 0)) := by
      intro k
      rw [← congrFun hfun k]
      unfold snoc
      by_cases k1 : k = j
      · rw [if_pos k1, if_neg (by omega), if_neg (by omega), if_pos k1, k1, List.length_append]; rfl
      · rw [if_neg k1, if_neg k1]
        by_cases k2 : k = i
        · rw [if_pos k2, if_pos k2, k2, List.length_append]; rfl
        · rw [if_neg k2, if_neg k2]; rfl
    rw [Finset.sum_congr rfl (fun k _ => key k), Finset.sum_add_distrib, Finset.sum_add_distrib, Finset.sum_ite_eq',
      Finset.sum_ite_eq', if_pos (Finset.mem_range.mpr (by omega)), if_pos (Finset.mem_range.mpr hj)]
  · rw [if_neg ho]
    refine ⟨s, rfl, ?_⟩
    have hfun : (fun k => below boxes k (mark n i (j + 1) k)) = fun k => below boxes k (mark n i j k) := by
      funext k
      by_cases k1 : k = j
      · rw [k1, mj', mj, below_succ, if_neg (by rw [overlap_comm]; exact fun h => ho h.2), List.append_nil]
      · by_cases k2 : k = i
        · rw [k2, mi', mi, below_succ, if_neg (fun h => ho h.2), List.append_nil]
        · rw [mo k k2 k1]
    refine ⟨by rw [hfun]; exact h.rows, ?_⟩
    rw [h.total]
    exact Finset.sum_congr rfl fun k _ => by rw [congrFun hfun k]

theorem inner_spec {boxes : Nat → Box} {n i : Nat} : ∀ (c j : Nat) (s : Neigh × Nat), i < j → j + c = n → At boxes n i j s →
    ∃ s', (List.range' j c).foldlM (pairStep boxes i) s = some s' ∧ At boxes n i n s' := by
  intro c
  induction c with
  | zero => intro j s _ hj h; rw [Nat.add_zero] at hj; subst hj; exact ⟨s, rfl, h⟩
  | succ c ih =>
    intro j s hij hj h
    obtain ⟨t, e, ht⟩ := pair_spec hij (by omega) h
    obtain ⟨u, e2, hu⟩ := ih (j + 1) t (by omega) (by omega) ht
    refine ⟨u, ?_, hu⟩
    rw [List.range'_succ, List.foldlM_cons]
    show (pairStep boxes i s j).bind _ = _
    rw [e]
    exact e2

theorem at_next {boxes : Nat → Box} {n i : Nat} {s : Neigh × Nat} (hi : i + 1 < n) (h : At boxes n i n s) :
    At boxes n (i + 1) (i + 1 + 1) s := by
  have hfun : ∀ k, k < n → below boxes k (mark n (i + 1) (i + 1 + 1) k) = below boxes k (mark n i n k) := by
    intro k hk
    unfold mark
    by_cases a : k < i
    · rw [if_pos a, if_pos (by omega)]
    · by_cases b : k = i
      · rw [if_pos (by omega), if_neg a, if_pos b]
      · rw [if_neg (by omega), if_neg a, if_neg b, if_pos hk]
        by_cases c : k = i + 1
        · rw [if_pos c, c, below_self]
        · rw [if_neg c, if_neg (by omega)]
  refine ⟨⟨h.rows.size, h.rows.row, fun k hk => ?_, fun k hk t ht => ?_⟩, ?_⟩
  · rw [hfun k hk]; exact h.rows.cnt k hk
  · simp only [hfun k hk] at ht ⊢
    exact h.rows.val k hk t ht
  · rw [h.total]
    exact Finset.sum_congr rfl fun k hk => by rw [hfun k (Finset.mem_range.mp hk)]

theorem outer_spec {boxes : Nat → Box} {n : Nat} : ∀ (c i : Nat) (s : Neigh × Nat), i + c + 1 = n → At boxes n i (i + 1) s →
    ∃ s', (List.range' i c).foldlM (fun s i => (List.range' (i + 1) (n - (i + 1))).foldlM (pairStep boxes i) s) s = some s' ∧
      At boxes n (n - 1) n s' := by
  intro c
  induction c with
  | zero =>
    intro i s hi h
    have e1 : i = n - 1 := by omega
    have e2 : i + 1 = n := by omega
    exact ⟨s, rfl, by rw [e2] at h; rw [← e1]; exact h⟩
  | succ c ih =>
    intro i s hi h
    obtain ⟨t, e, ht⟩ := inner_spec (n - (i + 1)) (i + 1) s (by omega) (by omega) h
    obtain ⟨u, e2, hu⟩ := ih (i + 1) t (by omega) (at_next (by omega) ht)
    refine ⟨u, ?_, hu⟩
    rw [List.range'_succ, List.foldlM_cons]
    show ((List.range' (i + 1) (n - (i + 1))).foldlM (pairStep boxes i) s).bind _ = _
    rw [e]
    exact e2

theorem pairLoop_spec (boxes : Nat → Box) {n : Nat} (hn : 0 < n) :
    ∃ s, pairLoop boxes n (⟨n * n, fun _ => 0, fun i => i * n, fun _ => 0⟩, 0) = some s ∧
      Rows n s.1 (fun k => below boxes k n) ∧ s.2 = ∑ k ∈ Finset.range n, (below boxes k n).length := by
  have h0 : ∀ k, below boxes k (mark n 0 1 k) = [] := by
    intro k
    unfold mark
    rw [if_neg (by omega)]
    by_cases hk : k = 0
    · subst hk; rw [if_pos rfl, below_self]; rfl
    · rw [if_neg hk, if_neg (by omega)]; rfl
  obtain ⟨s, e, h⟩ := outer_spec (boxes := boxes) (n := n) (n - 1) 0 (⟨n * n, fun _ => 0, fun i => i * n, fun _ => 0⟩, 0) (by omega)
    ⟨⟨rfl, fun _ => rfl, fun k _ => by rw [h0 k]; rfl, fun k _ t ht => by simp [h0 k] at ht⟩, by simp [h0]⟩
  have hm : ∀ k, k < n → mark n (n - 1) n k = n := by
    intro k hk
    unfold mark
    by_cases a : k < n - 1
    · rw [if_pos a]
    · rw [if_neg a, if_pos (by omega)]
  refine ⟨s, ?_, ⟨h.rows.size, h.rows.row, fun k hk => ?_, fun k hk t ht => ?_⟩, ?_⟩
  · unfold pairLoop
    rw [List.range_eq_range']
    exact e
  · rw [h.rows.cnt k hk, hm k hk]
  · have := h.rows.val k hk t
    simp only [hm k hk] at this
    exact this ht
  · rw [h.total]
    exact Finset.sum_congr rfl fun k hk => by rw [hm k (Finset.mem_range.mp hk)]

/-- The buffer after compacting the first `i` rows. -/
structure Packed (n : Nat) (L : Nat → List Nat) (i : Nat) (s : Neigh × Nat) : Prop where
  next : s.2 = ∑ k ∈ Finset.range i, (L k).length
  size : s.1.size = ∑ k ∈ Finset.range n, (L k).length
  cnt : ∀ k, k < n → s.1.cnt k = (L k).length
  row : ∀ k, k < i → s.1.row k = ∑ l ∈ Finset.range k, (L l).length
  val : ∀ k, k < i → ∀ t, (h : t < (L k).length) → s.1.buf (s.1.row k + t) = (L k)[t]

theorem prefix_le (f : Nat → Nat) {k i : Nat} (h : k < i) : ∑ l ∈ Finset.range k, f l + f k ≤ ∑ l ∈ Finset.range i, f l := by
  rw [← Finset.sum_range_succ]
  exact Finset.sum_le_sum_of_subset (by intro x hx; simp at hx ⊢; omega)

theorem compactStep_spec {n : Nat} {L : Nat → List Nat} {src : Neigh} (hsrc : Rows n src L) (hL : ∀ k, k < n → (L k).length ≤ n)
    {i : Nat} (hi : i < n) {s : Neigh × Nat} (h : Packed n L i s) :
    ∃ s', compactStep src s i = some s' ∧ Packed n L (i + 1) s' := by
  have hc : src.row i + src.cnt i ≤ src.size ∧ s.2 + src.cnt i ≤ s.1.size := by
    rw [hsrc.row, hsrc.cnt i hi, hsrc.size, h.next, h.size]
    refine ⟨?_, prefix_le (fun k => (L k).length) hi⟩
    have := hL i hi
    have h2 : (i + 1) * n ≤ n * n := Nat.mul_le_mul_right n hi
    rw [Nat.add_mul, Nat.one_mul] at h2
    omega
  refine ⟨_, if_pos hc, ?_⟩
  constructor
  · dsimp only
    rw [h.next, hsrc.cnt i hi, Finset.sum_range_succ]
  · exact h.size
  · exact h.cnt
  · intro k hk
    dsimp only
    by_cases hki : k = i
    · rw [if_pos hki, hki, h.next]
    · rw [if_neg hki]; exact h.row k (by omega)
  · intro k hk t ht
    dsimp only
    by_cases hki : k = i
    · subst hki
      rw [if_pos rfl, hsrc.cnt k hi, if_pos (by omega), hsrc.row, Nat.add_sub_cancel_left]
      exact hsrc.val k hi t ht
    · have hk' : k < i := by omega
      rw [if_neg hki, if_neg]
      · exact h.val k hk' t ht
      · rw [h.row k hk', h.next]
        have := prefix_le (fun k => (L k).length) hk'
        omega

theorem compact_spec {n : Nat} {L : Nat → List Nat} {src : Neigh} (hsrc : Rows n src L) (hL : ∀ k, k < n → (L k).length ≤ n) :
    ∀ (c i : Nat) (s : Neigh × Nat), i + c = n → Packed n L i s →
    ∃ s', (List.range' i c).foldlM (compactStep src) s = some s' ∧ Packed n L n s' := by
  intro c
  induction c with
  | zero => intro i s hi h; rw [Nat.add_zero] at hi; subst hi; exact ⟨s, rfl, h⟩
  | succ c ih =>
    intro i s hi h
    obtain ⟨t, e, ht⟩ := compactStep_spec hsrc hL (by omega) h
    obtain ⟨u, e2, hu⟩ := ih (i + 1) t (by omega) ht
    refine ⟨u, ?_, hu⟩
    rw [List.range'_succ, List.foldlM_cons]
    show (compactStep src s i).bind _ = _
    rw [e]
    exact e2

/-- After `Close` the list of component `i` are the other components with overlapping boxes, in increasing order. -/
theorem closeNeigh_spec (boxes : Nat → Box) (n : Nat) :
    ∃ nb, closeNeigh boxes n = some nb ∧
      ∀ i, i < n → nb.cnt i = (below boxes i n).length ∧ nb.list i = below boxes i n ∧ nb.row i + nb.cnt i ≤ nb.size := by
  rcases Nat.eq_zero_or_pos n with h0 | hn
  · subst h0
    exact ⟨_, rfl, fun i hi => absurd hi (by omega)⟩
  · obtain ⟨s, e, hr, ht⟩ := pairLoop_spec boxes hn
    have hL : ∀ k, k < n → (below boxes k n).length ≤ n := fun k _ => below_length_le _ _ _
    obtain ⟨t, e2, hp⟩ := compact_spec hr hL n 0 ({ s.1 with size := s.2, buf := fun _ => 0 }, 0) (by omega)
      ⟨by simp, ht, hr.cnt, fun k hk => absurd hk (by omega), fun k hk => absurd hk (by omega)⟩
    refine ⟨t.1, ?_, fun i hi => ⟨hp.cnt i hi, ?_, ?_⟩⟩
    · unfold closeNeigh
      rw [e, Option.bind_some, List.range_eq_range', e2, Option.map_some]
    · unfold Neigh.list
      rw [hp.cnt i hi]
      apply List.ext_getElem
      · simp
      · intro k h1 h2
        simp only [List.getElem_map, List.getElem_range]
        exact hp.val i hi k h2
    · rw [hp.row i hi, hp.cnt i hi, hp.size]
      exact prefix_le (fun k => (below boxes k n).length) hi

end MultiUnion
end VecGeom
