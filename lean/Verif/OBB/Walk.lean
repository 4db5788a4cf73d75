import Verif.OBB.Lemmas

/-!
# From a separating direction to one of the fifteen axes
-/

namespace VecGeom
namespace OBB

open Finset

/-- Three orthonormal vectors. -/
structure Frame (E : Fin 3 → V3) : Prop where
  one : ∀ i, (E i).dot (E i) = 1
  zero : ∀ i j, i ≠ j → (E i).dot (E j) = 0
  parseval : ∀ v u : V3, v.dot u = ∑ i, (E i).dot v * (E i).dot u

/-- The axis of an edge of each box, as the code has it. -/
noncomputable def axis (A B : Fin 3 → V3) (i l : Fin 3) : V3 :=
  V3.smul ((A (i + 1)).dot (B l)) (A (i + 2)) + V3.smul (-(A (i + 2)).dot (B l)) (A (i + 1))

theorem eq_of_dot {u v : V3} (h : ∀ x : V3, x.dot u = x.dot v) : u = v := by
  have hx := h ⟨1, 0, 0⟩
  have hy := h ⟨0, 1, 0⟩
  have hz := h ⟨0, 0, 1⟩
  simp only [V3.dot] at hx hy hz
  ext <;> linarith

/-- The three indices, beginning anywhere. -/
theorem three (f : Fin 3 → ℝ) (i : Fin 3) : ∑ k, f k = f i + f (i + 1) + f (i + 2) := by
  rw [Fin.sum_univ_three]
  fin_cases i
  · rfl
  · simp only [Fin.mk_one]; rw [show (1 : Fin 3) + 1 = 2 from rfl, show (1 : Fin 3) + 2 = 0 from rfl]; ring
  · simp only [Fin.reduceFinMk]; rw [show (2 : Fin 3) + 1 = 0 from rfl, show (2 : Fin 3) + 2 = 1 from rfl]; ring

theorem ne1 (i : Fin 3) : i ≠ i + 1 := by revert i; decide
theorem ne2 (i : Fin 3) : i ≠ i + 2 := by revert i; decide
theorem ne12 (i : Fin 3) : i + 1 ≠ i + 2 := by revert i; decide
theorem cases3 (i j : Fin 3) : j = i ∨ j = i + 1 ∨ j = i + 2 := by revert i j; decide

namespace Frame

variable {E F : Fin 3 → V3}

theorem expand (h : Frame E) (i : Fin 3) (v u : V3) :
    v.dot u = (E i).dot v * (E i).dot u + (E (i + 1)).dot v * (E (i + 1)).dot u + (E (i + 2)).dot v * (E (i + 2)).dot u := by
  rw [h.parseval, three _ i]

/-- A vector orthogonal to two of the three. -/
theorem along (h : Frame E) {n : V3} {i : Fin 3} (h1 : (E (i + 1)).dot n = 0) (h2 : (E (i + 2)).dot n = 0) :
    n = V3.smul ((E i).dot n) (E i) := by
  refine eq_of_dot fun x => ?_
  rw [dot_smul, h.expand i x n, h1, h2, dot_comm x]
  ring

/-- A vector that is orthogonal to two of three is parallel to the third; then so are its orthogonal vectors. -/
theorem perp_of_par (h : Frame E) {u n : V3} {i : Fin 3} (h1 : (E (i + 1)).dot u = 0) (h2 : (E (i + 2)).dot u = 0)
    (hn : (E i).dot n = 0) : u.dot n = 0 := by
  rw [h.expand i, h1, h2, hn]; ring

end Frame

variable {A B : Fin 3 → V3} {hA hB : Fin 3 → ℝ} {T : V3}

/-- All six edges. -/
def edges (A B : Fin 3 → V3) : Fin 3 ⊕ Fin 3 → V3 := Sum.elim A B

/-- The axis separates the boxes. -/
noncomputable def Sep (T : V3) (A B : Fin 3 → V3) (hA hB : Fin 3 → ℝ) (L : V3) : Prop :=
  ∑ k, hA k * |(A k).dot L| + ∑ k, hB k * |(B k).dot L| < |T.dot L|

theorem gap_eq (n : V3) : gap T (edges A B) (Sum.elim hA hB) n =
    T.dot n - (∑ k, hA k * |(A k).dot n| + ∑ k, hB k * |(B k).dot n|) := by
  unfold gap edges
  rw [Fintype.sum_sum_type]
  simp only [Sum.elim_inl, Sum.elim_inr]

theorem sep_of_smul {n L : V3} {c : ℝ} (hf : 0 < gap T (edges A B) (Sum.elim hA hB) n) (e : n = V3.smul c L) : Sep T A B hA hB L := by
  rw [gap_eq, e] at hf
  unfold Sep
  simp only [dot_smul, abs_mul] at hf
  have h1 : ∀ (h : Fin 3 → ℝ) (G : Fin 3 → V3), ∑ k, h k * (|c| * |(G k).dot L|) = |c| * ∑ k, h k * |(G k).dot L| := by
    intro h G
    rw [mul_sum]
    exact sum_congr rfl fun k _ => by ring
  rw [h1, h1] at hf
  have h2 : c * T.dot L ≤ |c| * |T.dot L| := by rw [← abs_mul]; exact le_abs_self _
  by_contra hc
  have := mul_le_mul_of_nonneg_left (not_lt.mp hc) (abs_nonneg c)
  linarith

/-- One of the fifteen axes separates. -/
def Axes (T : V3) (A B : Fin 3 → V3) (hA hB : Fin 3 → ℝ) : Prop :=
  (∃ i, Sep T A B hA hB (A i)) ∨ (∃ i, Sep T A B hA hB (B i)) ∨ ∃ i l, Sep T A B hA hB (axis A B i l)

theorem pair (fA : Frame A) {n : V3} {i l : Fin 3} (hf : 0 < gap T (edges A B) (Sum.elim hA hB) n) (h1 : (A i).dot n = 0)
    (h2 : (B l).dot n = 0) (hn : ¬ ((A (i + 1)).dot (B l) = 0 ∧ (A (i + 2)).dot (B l) = 0)) :
    Sep T A B hA hB (axis A B i l) := by
  rw [fA.expand i, h1] at h2
  set p := (A (i + 1)).dot (B l) with hp
  set q := (A (i + 2)).dot (B l) with hq
  set u := (A (i + 1)).dot n with hu
  set v := (A (i + 2)).dot n with hv
  have hd : p ^ 2 + q ^ 2 ≠ 0 := by
    intro h
    exact hn ⟨by nlinarith [sq_nonneg p, sq_nonneg q], by nlinarith [sq_nonneg p, sq_nonneg q]⟩
  refine sep_of_smul (c := (v * p - u * q) / (p ^ 2 + q ^ 2)) hf (eq_of_dot fun x => ?_)
  rw [dot_smul, axis, dot_add, dot_smul, dot_smul, fA.expand i x n, h1, ← hp, ← hq, ← hu, ← hv, dot_comm x (A (i + 2)),
    dot_comm x (A (i + 1))]
  generalize (A (i + 1)).dot x = a
  generalize (A (i + 2)).dot x = b
  field_simp
  linear_combination (p * a + q * b) * h2

theorem pair' (fA : Frame A) (fB : Frame B) {n : V3} {i l : Fin 3} (hf : 0 < gap T (edges A B) (Sum.elim hA hB) n)
    (h1 : (A i).dot n = 0) (h2 : (B l).dot n = 0)
    (hn : ¬ ((B (l + 1)).dot (A i) = 0 ∧ (B (l + 2)).dot (A i) = 0)) : Sep T A B hA hB (axis A B i l) := by
  refine pair fA hf h1 h2 fun hc => hn ?_
  have e := fA.along hc.1 hc.2
  have hone := fB.one l
  set c := (A i).dot (B l) with hcd
  have hc0 : c ≠ 0 := by
    rintro h
    rw [e, h, dot_smul] at hone
    simp at hone
  have hz : ∀ m, m ≠ l → (B m).dot (A i) = 0 := by
    intro m hm
    have := fB.zero m l hm
    rw [e, dot_smul] at this
    exact (mul_eq_zero.mp this).resolve_left hc0
  exact ⟨hz _ (ne1 l).symm, hz _ (ne2 l).symm⟩

/-- The reflected step in the plane orthogonal to one axis. -/
theorem mirror {E : Fin 3 → V3} (h : Frame E) (n : V3) (i : Fin 3) :
    (E i).dot (V3.smul (-(E (i + 1)).dot n) (E (i + 1)) + V3.smul ((E (i + 2)).dot n) (E (i + 2))) = 0 ∧
    (E (i + 1)).dot (V3.smul (-(E (i + 1)).dot n) (E (i + 1)) + V3.smul ((E (i + 2)).dot n) (E (i + 2))) = -(E (i + 1)).dot n ∧
    (E (i + 2)).dot (V3.smul (-(E (i + 1)).dot n) (E (i + 1)) + V3.smul ((E (i + 2)).dot n) (E (i + 2))) = (E (i + 2)).dot n := by
  simp only [dot_add, dot_smul, h.one, h.zero _ _ (ne1 i), h.zero _ _ (ne2 i), h.zero _ _ (ne12 i), h.zero _ _ (ne12 i).symm]
  refine ⟨by ring, by ring, by ring⟩

/-- From a direction orthogonal to an edge to one of the axes; `g` are all edges, `Q` is what is wanted. -/
theorem second {ι : Type} [Fintype ι] {g : ι → V3} {w : ι → ℝ} {E F : Fin 3 → V3} (fE : Frame E) {n : V3} {i : Fin 3} {Q : Prop}
    (hg : ∀ k, (∃ j, g k = E j) ∨ ∃ l, g k = F l) (hE : ∀ j, ∃ k, g k = E j)
    (hf : 0 < gap T g w n) (h0 : (E i).dot n = 0)
    (q1 : ∀ n j c, 0 < gap T g w n → n = V3.smul c (E j) → Q)
    (q2 : ∀ n l, 0 < gap T g w n → (E i).dot n = 0 → (F l).dot n = 0 →
      ¬ ((E (i + 1)).dot (F l) = 0 ∧ (E (i + 2)).dot (F l) = 0) → Q) : Q := by
  have along2 : ∀ n', 0 < gap T g w n' → (E i).dot n' = 0 → ∀ j, j ≠ i → (E j).dot n' = 0 → Q := by
    intro n' hf' hi j hj hz
    rcases cases3 i j with h | h | h
    · exact absurd h hj
    · subst h
      exact q1 n' (i + 2) _ hf' (fE.along (i := i + 2) (by rw [show i + 2 + 1 = i by clear * -; revert i; decide]; exact hi)
        (by rw [show i + 2 + 2 = i + 1 by clear * -; revert i; decide]; exact hz))
    · subst h
      exact q1 n' (i + 1) _ hf' (fE.along (i := i + 1) (by rw [show i + 1 + 1 = i + 2 by clear * -; revert i; decide]; exact hz)
        (by rw [show i + 1 + 2 = i by clear * -; revert i; decide]; exact hi))
  by_cases hj : (E (i + 1)).dot n = 0
  · exact along2 n hf h0 _ (ne1 i).symm hj
  by_cases hk : (E (i + 2)).dot n = 0
  · exact along2 n hf h0 _ (ne2 i).symm hk
  obtain ⟨m0, m1, m2⟩ := mirror fE n i
  generalize V3.smul (-(E (i + 1)).dot n) (E (i + 1)) + V3.smul ((E (i + 2)).dot n) (E (i + 2)) = m at m0 m1 m2
  by_cases hz : ∀ k, (g k).dot n = 0 → (g k).dot m = 0
  · obtain ⟨k1, e1⟩ := hE (i + 1)
    obtain ⟨k2, e2⟩ := hE (i + 2)
    obtain ⟨ki, ei⟩ := hE i
    obtain ⟨n', hf', hs, k, hk0, hk1⟩ := move hf ⟨k1, by rw [e1, m1]; have := sq_pos_of_ne_zero hj; nlinarith⟩
      ⟨k2, by rw [e2, m2]; have := sq_pos_of_ne_zero hk; nlinarith⟩ hz
    have hi' : (E i).dot n' = 0 := by have := hs ki (by rw [ei]; exact h0); rwa [ei] at this
    rcases hg k with ⟨j, e⟩ | ⟨l, e⟩
    · rw [e] at hk0 hk1
      exact along2 n' hf' hi' j (by rintro rfl; exact hk0 h0) hk1
    · rw [e] at hk0 hk1
      exact q2 n' l hf' hi' hk1 fun hc => hk0 (fE.perp_of_par hc.1 hc.2 h0)
  · push Not at hz
    obtain ⟨k, hz0, hz1⟩ := hz
    rcases hg k with ⟨j, e⟩ | ⟨l, e⟩
    · rw [e] at hz0 hz1
      rcases cases3 i j with h | h | h
      · rw [h] at hz1; exact absurd m0 hz1
      · rw [h] at hz0; exact absurd hz0 hj
      · rw [h] at hz0; exact absurd hz0 hk
    · rw [e] at hz0 hz1
      exact q2 n l hf h0 hz0 fun hc => hz1 (fE.perp_of_par hc.1 hc.2 m0)

/-- If any direction separates, then one of the fifteen axes does. -/
theorem axes_of_gap (fA : Frame A) (fB : Frame B) {n : V3} (hf : 0 < gap T (edges A B) (Sum.elim hA hB) n) : Axes T A B hA hB := by
  -- from a direction with a zero
  have last : ∀ n, 0 < gap T (edges A B) (Sum.elim hA hB) n → (∃ k, (edges A B k).dot n = 0) → Axes T A B hA hB := by
    rintro n hf ⟨k, hk⟩
    rcases k with i | i
    · refine second (T := T) (g := edges A B) (w := Sum.elim hA hB) (E := A) (F := B) (i := i) fA ?_ (fun j => ⟨.inl j, rfl⟩) hf hk ?_ ?_
      · rintro (j | j)
        · exact Or.inl ⟨j, rfl⟩
        · exact Or.inr ⟨j, rfl⟩
      · intro n j c h e; exact Or.inl ⟨j, sep_of_smul h e⟩
      · intro n l h h1 h2 h3; exact Or.inr (Or.inr ⟨i, l, pair fA h h1 h2 h3⟩)
    · refine second (T := T) (g := edges A B) (w := Sum.elim hA hB) (E := B) (F := A) (i := i) fB ?_ (fun j => ⟨.inr j, rfl⟩) hf hk ?_ ?_
      · rintro (j | j)
        · exact Or.inr ⟨j, rfl⟩
        · exact Or.inl ⟨j, rfl⟩
      · intro n j c h e; exact Or.inr (Or.inl ⟨j, sep_of_smul h e⟩)
      · intro n l h h1 h2 h3; exact Or.inr (Or.inr ⟨l, i, pair' fA fB h h2 h1 h3⟩)
  by_cases h : ∃ k, (edges A B k).dot n = 0
  · exact last n hf h
  push Not at h
  obtain ⟨_, m1, m2⟩ := mirror fA n 0
  have h1 : (A (0 + 1)).dot n ≠ 0 := h (.inl _)
  have h2 : (A (0 + 2)).dot n ≠ 0 := h (.inl _)
  obtain ⟨n', hf', _, k, _, hk⟩ := move (m := V3.smul (-(A (0 + 1)).dot n) (A (0 + 1)) + V3.smul ((A (0 + 2)).dot n) (A (0 + 2))) hf
    ⟨.inl (0 + 1), by show (A _).dot n * (A _).dot _ < 0; rw [m1]; have := sq_pos_of_ne_zero h1; nlinarith⟩
    ⟨.inl (0 + 2), by show 0 < (A _).dot n * (A _).dot _; rw [m2]; have := sq_pos_of_ne_zero h2; nlinarith⟩
    (fun j hj => absurd hj (h j))
  exact last n' hf' ⟨k, hk⟩

/-- The vectors between points of two boxes with parallel axes at the origin. -/
def Reach (A B : Fin 3 → V3) (hA hB : Fin 3 → ℝ) (T : V3) : Prop :=
  ∃ c : Fin 3 ⊕ Fin 3 → ℝ, (∀ k, |c k| ≤ Sum.elim hA hB k) ∧ ∀ x : V3, x.dot T = ∑ k, c k * (edges A B k).dot x

theorem reach_no_axis (h : Reach A B hA hB T) (L : V3) : ¬ Sep T A B hA hB L := by
  obtain ⟨c, hc, e⟩ := h
  unfold Sep
  have hs : ∑ k, hA k * |(A k).dot L| + ∑ k, hB k * |(B k).dot L| = ∑ k, Sum.elim hA hB k * |(edges A B k).dot L| := by
    rw [Fintype.sum_sum_type]; rfl
  rw [not_lt, dot_comm, e, hs]
  refine (abs_sum_le_sum_abs _ _).trans (sum_le_sum fun k _ => ?_)
  rw [abs_mul]
  exact mul_le_mul_of_nonneg_right (hc k) (abs_nonneg _)

/-- A vector that is not reached has a separating direction. -/
theorem gap_of_not_reach (hw : ∀ k, 0 ≤ Sum.elim hA hB k) (h : ¬ Reach A B hA hB T) :
    ∃ n, 0 < gap T (edges A B) (Sum.elim hA hB) n := by
  classical
  set w : Fin 3 ⊕ Fin 3 → ℝ := Sum.elim hA hB with hwd
  let vec : V3 → Fin 3 → ℝ := fun v => ![v.x, v.y, v.z]
  let Φ : (Fin 3 ⊕ Fin 3 → ℝ) →ₗ[ℝ] (Fin 3 → ℝ) := Fintype.linearCombination ℝ (fun k => vec (edges A B k))
  have hΦ : ∀ c i, Φ c i = ∑ k, c k * vec (edges A B k) i := by
    intro c i
    simp only [Φ, Fintype.linearCombination_apply, Finset.sum_apply, Pi.smul_apply, smul_eq_mul]
  have hcont : Continuous Φ := Φ.continuous_of_finiteDimensional
  have hcomp : IsCompact (Φ '' Set.Icc (-w) w) := isCompact_Icc.image hcont
  have hconv : Convex ℝ (Φ '' Set.Icc (-w) w) := (convex_Icc _ _).linear_image Φ
  have hmem : vec T ∉ Φ '' Set.Icc (-w) w := by
    rintro ⟨c, hc, e⟩
    refine h ⟨c, fun k => abs_le.mpr ⟨hc.1 k, hc.2 k⟩, fun x => ?_⟩
    have e0 := congrFun e 0
    have e1 := congrFun e 1
    have e2 := congrFun e 2
    rw [hΦ] at e0 e1 e2
    simp only [vec, Matrix.cons_val_zero, Matrix.cons_val_one, Matrix.cons_val] at e0 e1 e2
    have : ∑ k, c k * (edges A B k).dot x = (∑ k, c k * (edges A B k).x) * x.x + (∑ k, c k * (edges A B k).y) * x.y +
        (∑ k, c k * (edges A B k).z) * x.z := by
      rw [sum_mul, sum_mul, sum_mul, ← sum_add_distrib, ← sum_add_distrib]
      exact sum_congr rfl fun k _ => by unfold V3.dot; ring
    rw [this, e0, e1, e2]
    unfold V3.dot; ring
  obtain ⟨ℓ, u, h1, h2⟩ := geometric_hahn_banach_closed_point hconv hcomp.isClosed hmem
  let n : V3 := ⟨ℓ (Pi.single 0 1), ℓ (Pi.single 1 1), ℓ (Pi.single 2 1)⟩
  have hℓ : ∀ v : V3, ℓ (vec v) = v.dot n := by
    intro v
    have : vec v = v.x • Pi.single 0 1 + v.y • Pi.single 1 1 + v.z • Pi.single 2 1 := by
      funext i
      fin_cases i <;> simp [vec]
    rw [this, map_add, map_add, map_smul, map_smul, map_smul]
    rfl
  refine ⟨n, ?_⟩
  -- the point of the boxes that is farthest in this direction
  let c : Fin 3 ⊕ Fin 3 → ℝ := fun k => if 0 ≤ (edges A B k).dot n then w k else -w k
  have hc : c ∈ Set.Icc (-w) w := by
    constructor <;> intro k <;> simp only [c, Pi.neg_apply] <;> split <;> linarith [hw k]
  have := (h1 _ ⟨c, hc, rfl⟩).trans h2
  rw [hℓ] at this
  have e : ℓ (Φ c) = ∑ k, w k * |(edges A B k).dot n| := by
    have : Φ c = ∑ k, c k • vec (edges A B k) := by simp only [Φ, Fintype.linearCombination_apply]
    rw [this, map_sum]
    refine sum_congr rfl fun k _ => ?_
    rw [map_smul, hℓ, smul_eq_mul]
    simp only [c]
    split
    · rename_i hk; rw [abs_of_nonneg hk]
    · rename_i hk; rw [abs_of_neg (not_le.mp hk)]; ring
  unfold gap
  linarith

/-- The theorem of the separating axes for boxes. -/
theorem reach_iff (fA : Frame A) (fB : Frame B) (hw : ∀ k, 0 ≤ Sum.elim hA hB k) : Reach A B hA hB T ↔ ¬ Axes T A B hA hB := by
  constructor
  · rintro h (⟨i, hs⟩ | ⟨i, hs⟩ | ⟨i, l, hs⟩) <;> exact reach_no_axis h _ hs
  · intro h
    by_contra hc
    obtain ⟨n, hn⟩ := gap_of_not_reach hw hc
    exact h (axes_of_gap fA fB hn)

end OBB
end VecGeom
