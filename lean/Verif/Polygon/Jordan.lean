import Verif.Polygon.Lemmas

/-!
# The point in polygon test
-/

namespace VecGeom
namespace Polygon

open Real Filter Topology

/-! ## The loops -/

theorem ind_bool (c : Bool) : ind (c = true) = if c then 1 else 0 := by cases c <;> simp [ind]

theorem ind_false : ind (false = true) = 0 := by simp [ind]

theorem fold_xor (c : Nat → Bool) (n : Nat) (b : Bool) :
    (List.range n).foldl (fun r i => xor (c i) r) b = decide (ind (b = true) + ∑ i ∈ Finset.range n, ind (c i = true) = 1) := by
  induction n with
  | zero => cases b <;> simp [ind]
  | succ m ih =>
    rw [List.range_succ, List.foldl_append, ih, Finset.sum_range_succ, ← add_assoc]
    simp only [List.foldl_cons, List.foldl_nil]
    generalize ind (b = true) + ∑ i ∈ Finset.range m, ind (c i = true) = u
    rw [ind_bool]
    cases c m
    · simp
    · simp only [if_true]; revert u; decide

theorem fold_xor' (c : Nat → Bool) (n : Nat) (b : Bool) :
    (List.range n).foldl (fun r i => xor r (c i)) b = decide (ind (b = true) + ∑ i ∈ Finset.range n, ind (c i = true) = 1) := by
  rw [← fold_xor]
  congr 1
  funext r i; exact Bool.xor_comm _ _

theorem sum_chunks (f : Nat → ZMod 2) (m k : Nat) :
    ∑ j ∈ Finset.range k, ∑ c ∈ Finset.range m, f (c * k + j) = ∑ i ∈ Finset.range (m * k), f i := by
  rw [Finset.sum_comm]
  induction m with
  | zero => simp
  | succ m ih => rw [Finset.sum_range_succ, ih, Nat.succ_mul, Finset.sum_range_add]

theorem decide_one (u : ZMod 2) : ind (decide (u = 1) = true) = u := by rw [ind_bool]; revert u; decide

theorem contains_eq (p : Poly) (px py : ℝ) :
    contains p px py = decide (∑ i ∈ Finset.range p.n, ind (crosses p px py i = true) = 1) := by
  unfold contains; rw [fold_xor, ind_false, zero_add]

theorem ite_not_eq (a r : Bool) : (if a then !r else r) = xor a r := by cases a <;> cases r <;> rfl

theorem containsVec_eq {k : Nat} (p : Poly) (px py : ℝ) : containsVec k p px py = contains p px py := by
  have hl : ∀ j, ind (laneResult k p px py j = true) = ∑ c ∈ Finset.range (p.n / k), ind (crosses p px py (c * k + j) = true) := by
    intro j
    unfold laneResult
    rw [fold_xor' (fun c => crosses p px py (c * k + j)), decide_one, ind_false, zero_add]
  unfold containsVec
  simp only [ite_not_eq]
  rw [fold_xor (fun j => laneResult k p px py j), fold_xor' (fun t => crosses p px py (p.n - p.n % k + t)), decide_one, contains_eq]
  simp only [hl]
  rw [sum_chunks (fun i => ind (crosses p px py i = true))]
  have e : p.n = p.n / k * k + p.n % k := by rw [Nat.mul_comm]; exact (Nat.div_add_mod p.n k).symm
  have e' : p.n - p.n % k = p.n / k * k := by omega
  rw [e']
  conv_rhs => rw [e]
  rw [Finset.sum_range_add, ind_false, zero_add]

/-! ## The arrays -/

section Arrays
variable {k n : Nat} {x y : Nat → ℝ}

theorem build_n : (build k n x y).n = n := rfl
theorem build_x {i : Nat} (hi : i < n) : (build k n x y).x i = (vert n x y i).1 := if_pos hi
theorem build_y {i : Nat} (hi : i < n) : (build k n x y).y i = (vert n x y i).2 := if_pos hi
theorem build_sx {i : Nat} (hi : i < n) : (build k n x y).sx i = (vert n x y (prev n i)).1 := if_pos hi
theorem build_sy {i : Nat} (hi : i < n) : (build k n x y).sy i = (vert n x y (prev n i)).2 := if_pos hi
theorem build_slope {i : Nat} (hi : i < n) : (build k n x y).slope i =
    ((vert n x y (prev n i)).1 - (vert n x y i).1) / nonZero ((vert n x y (prev n i)).2 - (vert n x y i).2) := if_pos hi

theorem init_some {p : Poly} (h : init k n x y = some p) : p = build k n x y ∧ bufferSize k n ≠ 0 ∧ 0 ≤ area p := by
  unfold init at h
  split at h
  · simp at h
  · split at h
    · simp at h
    · rename_i h1 h2
      have : build k n x y = p := by simpa using h
      subst this
      exact ⟨rfl, h1, not_lt.mp h2⟩

theorem ind_crosses {q : ℝ × ℝ} {i : Nat} (hi : i < n)
    (hc : ∀ y', |y' - q.2| ≤ 1 / 10 ^ 30 → ¬ OnEdge (vert n x y i) (vert n x y (prev n i)) (q.1, y')) :
    ind (crosses (build k n x y) q.1 q.2 i = true) = term (vert n x y i) (vert n x y (prev n i)) q := by
  unfold crosses term
  rw [build_x hi, build_y hi, build_sy hi, build_slope hi]
  generalize vert n x y i = a at *
  generalize vert n x y (prev n i) = b at *
  simp only [Bool.and_eq_true, decide_eq_true_eq]
  by_cases h1 : a.2 > q.2 <;> by_cases h2 : b.2 > q.2
  · simp [h1, h2, ind]
    intro _; decide
  · rw [cond_eq (Or.inl ⟨h1, h2⟩) hc]
    simp [h1, h2, ind]
  · rw [cond_eq (Or.inr ⟨h1, h2⟩) hc]
    simp [h1, h2, ind]
  · simp [h1, h2, ind]

theorem contains_par (hn : n < 2 ^ 31) {q : ℝ × ℝ} (hc : Clear n (fun i => (x i, y i)) q) :
    contains (build k n x y) q.1 q.2 = decide (par n (fun i => (x i, y i)) q = 1) := by
  rw [contains_eq, build_n]
  have : ∑ i ∈ Finset.range n, ind (crosses (build k n x y) q.1 q.2 i = true) = par n (fun i => (x i, y i)) q := by
    unfold par
    rw [← sum_edges hn x y (fun a b => term a b q) (fun a b => term_comm a b q)]
    apply Finset.sum_congr rfl
    intro i hi
    have hi := Finset.mem_range.mp hi
    exact ind_crosses hi fun y' h1 h2 => hc y' h1 (boundary_of_edge hn x y hi h2)
  rw [this]

end Arrays

/-! ## Crossing an edge -/

theorem side_affine (a b q m : ℝ × ℝ) (t : ℝ) (hm : side a b m = 0) :
    side a b (q.1 + t * (m.1 - q.1), q.2 + t * (m.2 - q.2)) = (1 - t) * side a b q := by
  unfold side at *; simp only; linear_combination t * hm

theorem side_open {a b m : ℝ × ℝ} (h : OnOpenEdge a b m) : side a b m = 0 := by
  obtain ⟨t, -, -, rfl⟩ := h
  unfold side; simp only; ring

/-- The way from `q` to `m`, without `m`. -/
def way (q m : ℝ × ℝ) : Set (ℝ × ℝ) := (fun t : ℝ => (q.1 + t * (m.1 - q.1), q.2 + t * (m.2 - q.2))) '' Set.Ico 0 1

theorem way_preconnected (q m : ℝ × ℝ) : IsPreconnected (way q m) := by
  apply isPreconnected_Ico.image
  apply Continuous.continuousOn
  fun_prop

/-- Near `m`, the way has points. -/
theorem way_near {q m : ℝ × ℝ} {P : ℝ × ℝ → Prop} (h : ∀ᶠ r in 𝓝 m, P r) :
    ∃ t : ℝ, 0 ≤ t ∧ t < 1 ∧ P (q.1 + t * (m.1 - q.1), q.2 + t * (m.2 - q.2)) := by
  have hc : Continuous (fun t : ℝ => (q.1 + t * (m.1 - q.1), q.2 + t * (m.2 - q.2))) := by fun_prop
  have h1 : ∀ᶠ t in 𝓝 (1 : ℝ), P (q.1 + t * (m.1 - q.1), q.2 + t * (m.2 - q.2)) := by
    apply hc.continuousAt.eventually
    have : ((q.1 + 1 * (m.1 - q.1), q.2 + 1 * (m.2 - q.2)) : ℝ × ℝ) = m := by ext <;> simp
    show ∀ᶠ r in 𝓝 (q.1 + 1 * (m.1 - q.1), q.2 + 1 * (m.2 - q.2)), P r
    rw [this]; exact h
  have h2 : ∀ᶠ t in 𝓝[<] (1 : ℝ), P (q.1 + t * (m.1 - q.1), q.2 + t * (m.2 - q.2)) := h1.filter_mono nhdsWithin_le_nhds
  have h3 : ∀ᶠ t in 𝓝[<] (1 : ℝ), t ∈ Set.Ioo (0 : ℝ) 1 := Ioo_mem_nhdsLT (by norm_num)
  obtain ⟨t, ht1, ht2⟩ := (h2.and h3).exists
  exact ⟨t, ht2.1.le, ht2.2, ht1⟩

theorem par_way {n : Nat} {v : Nat → ℝ × ℝ} {q m : ℝ × ℝ} {P : ℝ × ℝ → Prop} (hw : ∀ r ∈ way q m, ¬ OnBoundary n v r)
    (h : ∀ᶠ r in 𝓝 m, P r) :
    ∃ t : ℝ, t < 1 ∧ P (q.1 + t * (m.1 - q.1), q.2 + t * (m.2 - q.2)) ∧
      par n v q = par n v (q.1 + t * (m.1 - q.1), q.2 + t * (m.2 - q.2)) := by
  obtain ⟨t, t0, t1, ht⟩ := way_near (q := q) h
  refine ⟨t, t1, ht, ?_⟩
  apply par_preconnected (way_preconnected q m) hw
  · exact ⟨0, ⟨le_rfl, zero_lt_one⟩, by simp⟩
  · exact ⟨t, ⟨t0, t1⟩, rfl⟩

theorem way_subset {q r m : ℝ × ℝ} (h : OnEdge q r m) {w : ℝ × ℝ} (hw : w ∈ way q m) : OnEdge q r w := by
  obtain ⟨s, s0, s1, rfl⟩ := h
  obtain ⟨t, ⟨t0, t1⟩, rfl⟩ := hw
  refine ⟨t * s, by positivity, by nlinarith, ?_⟩
  ext <;> simp <;> ring

theorem par_crosses {n : Nat} {v : Nat → ℝ × ℝ} {q r : ℝ × ℝ} (h : CrossesOnce n v q r) : par n v q = par n v r + 1 := by
  obtain ⟨i, m, hi, hm, ho, hoth, huniq, hs⟩ := h
  obtain ⟨c, hc⟩ := par_flip hi ho hoth
  have h0 := side_open ho
  generalize hF : side (v i) (v ((i + 1) % n)) = F at *
  have haff : ∀ (q : ℝ × ℝ) (t : ℝ), F (q.1 + t * (m.1 - q.1), q.2 + t * (m.2 - q.2)) = (1 - t) * F q := by
    intro q t; rw [← hF]; exact side_affine _ _ _ _ _ (by rw [hF]; exact h0)
  have hq0 : F q ≠ 0 := by intro h'; rw [h'] at hs; simp at hs
  have hr0 : F r ≠ 0 := by intro h'; rw [h'] at hs; simp at hs
  have key : ∀ (z : ℝ × ℝ), OnEdge q r z → (∀ w ∈ way z m, OnEdge q r w) → F z ≠ 0 →
      par n v z = if 0 < F z then c else c + 1 := by
    intro z _ hsub hz
    have hav : ∀ w ∈ way z m, ¬ OnBoundary n v w := by
      intro w hw hb
      have : w = m := huniq w (hsub w hw) hb
      obtain ⟨t, ⟨t0, t1⟩, hw'⟩ := hw
      have h2 := haff z t
      simp only at hw'
      rw [hw', this, h0] at h2
      rcases mul_eq_zero.mp h2.symm with h3 | h3
      · linarith
      · exact hz h3
    obtain ⟨t, t1, hP, hpar⟩ := par_way hav hc
    rw [hpar]
    rw [haff z t] at hP
    split
    · rename_i hpos
      exact hP.1 (by nlinarith)
    · rename_i hneg
      have : F z < 0 := lt_of_le_of_ne (not_lt.mp hneg) hz
      exact hP.2 (by nlinarith)
  have hm' : OnEdge r q m := onEdge_comm.mp hm
  have hq := key q (onEdge_left q r) (fun w hw => way_subset hm hw) hq0
  have hr := key r (onEdge_right q r) (fun w hw => onEdge_comm.mp (way_subset hm' hw)) hr0
  rw [hq, hr]
  by_cases h1 : 0 < F q
  · have h2 : ¬ 0 < F r := by intro h'; nlinarith
    rw [if_pos h1, if_neg h2, add_assoc, two_self, add_zero]
  · have h1' : F q < 0 := lt_of_le_of_ne (not_lt.mp h1) hq0
    have h2 : 0 < F r := by by_contra h'; have := lt_of_le_of_ne (not_lt.mp h') hr0; nlinarith
    rw [if_neg h1, if_pos h2]

/-! ## Far away -/

theorem par_above {n : Nat} {v : Nat → ℝ × ℝ} {q : ℝ × ℝ} (h : ∀ i, i < n → (v i).2 ≤ q.2) : par n v q = 0 := by
  unfold par
  apply Finset.sum_eq_zero
  intro i hi
  have hi := Finset.mem_range.mp hi
  have h1 : ¬ (v i).2 > q.2 := not_lt.mpr (h i hi)
  have h2 : ¬ (v ((i + 1) % n)).2 > q.2 := not_lt.mpr (h _ (Nat.mod_lt _ (by omega)))
  unfold term; simp [ind, h1, h2]

theorem boundary_x {n : Nat} {v : Nat → ℝ × ℝ} {q : ℝ × ℝ} (hb : OnBoundary n v q) :
    (∃ i, i < n ∧ q.1 ≤ (v i).1) ∧ (∃ i, i < n ∧ (v i).1 ≤ q.1) := by
  obtain ⟨i, hi, t, t0, t1, rfl⟩ := hb
  have hj : (i + 1) % n < n := Nat.mod_lt _ (by omega)
  simp only
  generalize (i + 1) % n = j at *
  rcases le_total (v i).1 (v j).1 with h | h
  · exact ⟨⟨j, hj, by nlinarith⟩, ⟨i, hi, by nlinarith⟩⟩
  · exact ⟨⟨i, hi, by nlinarith⟩, ⟨j, hj, by nlinarith⟩⟩

/-- Some height above all vertices. -/
theorem exists_above (n : Nat) (v : Nat → ℝ × ℝ) : ∃ h : ℝ, ∀ i, i < n → (v i).2 ≤ h := by
  induction n with
  | zero => exact ⟨0, by simp⟩
  | succ m ih =>
    obtain ⟨h, hh⟩ := ih
    refine ⟨max h (v m).2, fun i hi => ?_⟩
    rcases Nat.lt_succ_iff_lt_or_eq.mp hi with h1 | h1
    · exact le_max_of_le_left (hh i h1)
    · subst h1; exact le_max_right _ _

/-- The vertical line through a point is connected. -/
theorem vertical_preconnected (c : ℝ) : IsPreconnected ((fun y : ℝ => (c, y)) '' Set.univ) := by
  apply isPreconnected_univ.image
  apply Continuous.continuousOn; fun_prop

theorem par_beside {n : Nat} {v : Nat → ℝ × ℝ} {q : ℝ × ℝ} (h : (∀ i, i < n → (v i).1 < q.1) ∨ (∀ i, i < n → q.1 < (v i).1)) :
    par n v q = 0 := by
  obtain ⟨t, ht⟩ := exists_above n v
  rw [← par_above (n := n) (v := v) (q := (q.1, t)) ht]
  apply par_preconnected (vertical_preconnected q.1)
  · rintro r ⟨s, -, rfl⟩ hb
    obtain ⟨⟨i, hi, h1⟩, j, hj, h2⟩ := boundary_x hb
    rcases h with h | h
    · have := h i hi; simp only at h1; linarith
    · have := h j hj; simp only at h2; linarith
  · exact ⟨q.2, trivial, rfl⟩
  · exact ⟨t, trivial, rfl⟩

end Polygon
end VecGeom
