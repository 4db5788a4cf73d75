import Verif.MultiUnion.Cubes

/-!
# Properties of unions of many solids

All theorems are about a union that was filled by any sequence of `AddNode` and then closed.
-/

namespace VecGeom
namespace MultiUnion

open AABB Hybrid
open Boolean (Placed Solid Region Moved Interior Exterior ClassOK ContainsOK ExtentOK SafetyInOK SafetyOutOK ExitOK boxSolid cube cubeAt)

theorem kInf_large : (10 : ℝ) ^ 100 < kInfLength := by
  unfold kInfLength
  have h1 : (10 : ℝ) ^ 100 ≤ 2 ^ 1020 := by
    rw [show (100 : ℕ) = 2 * 50 from rfl, show (1020 : ℕ) = 10 * 102 from rfl, pow_mul, pow_mul]
    calc ((10 : ℝ) ^ 2) ^ 50 ≤ ((2 : ℝ) ^ 10) ^ 50 := pow_le_pow_left₀ (by norm_num) (by norm_num) _
      _ ≤ ((2 : ℝ) ^ 10) ^ 102 := pow_le_pow_right₀ (by norm_num) (by norm_num)
  have h2 : (2 : ℝ) ^ 1020 < 2 ^ 1023 := pow_lt_pow_right₀ (by norm_num) (by norm_num)
  have h3 : (1 : ℝ) ≤ 2 - 1 / 2 ^ 52 := by norm_num
  have h4 : (0 : ℝ) < 2 ^ 1023 := pow_pos (by norm_num) _
  generalize (2 : ℝ) ^ 1023 = A at *
  generalize (2 : ℝ) ^ 1020 = B at *
  generalize (10 : ℝ) ^ 100 = C at *
  nlinarith

/-- Three cubes in a row, the first two overlapping. -/
noncomputable def row : List Placed := [cubeAt 0 0 0, cubeAt 1 0 0, cubeAt 10 0 0]

theorem mem_row {v : Placed} (h : v ∈ row) : ∃ x : ℝ, v = cubeAt x 0 0 ∧ 0 ≤ x ∧ x ≤ 10 := by
  unfold row at h
  simp only [List.mem_cons, List.not_mem_nil, or_false] at h
  rcases h with h | h | h
  · exact ⟨0, h, by norm_num, by norm_num⟩
  · exact ⟨1, h, by norm_num, by norm_num⟩
  · exact ⟨10, h, by norm_num, by norm_num⟩

theorem row_solid {v : Placed} (h : v ∈ row) : v.solid = cube ∧ v.trans.Orthonormal := by
  obtain ⟨x, rfl, -⟩ := mem_row h
  exact ⟨rfl, Boolean.ofTranslation_orthonormal _ _ _⟩

theorem cubeAt_moved (x : ℝ) (X : Region) (q : V3) : Moved (cubeAt x 0 0).trans X q ↔ X ⟨q.x - x, q.y, q.z⟩ := by
  refine (Boolean.moved_iff (Boolean.ofTranslation_orthonormal x 0 0) X q).trans ?_
  show X ((Trans3.ofTranslation x 0 0).transform q) ↔ _
  rw [Boolean.ofTranslation_transform, sub_zero, sub_zero]

/-! ## C108: the neighbours -/

/-- C108: closing a union always succeeds, whatever the boxes are: no write past the buffers. -/
theorem C108_close (V : Nat) (M : ℝ) (l : List Placed) : ∃ m, close V M (filled l) = some m ∧ m.vols = l := by
  obtain ⟨nb, e, -⟩ := closeNeigh_spec (boxesOf (filled l).vols) (filled l).vols.length
  have h : close V M (filled l) = some _ := congrArg (Option.map _) e
  exact ⟨_, h, filled_vols l⟩

/-- C108: after closing, the neighbours of a component are, in increasing order and once each, the other components whose boxes come
within the tolerance of its box. -/
theorem C108_neighbours {V : Nat} (hV : 0 < V) {M : ℝ} {l : List Placed} {m : MU} (h : close V M (filled l) = some m)
    {i : Nat} (hi : i < l.length) :
    (m.nb.list i).Pairwise (· < ·) ∧
    ∀ j, j ∈ m.nb.list i ↔ j ≠ i ∧ ∃ v w, l[i]? = some v ∧ l[j]? = some w ∧ Touching (boxOf v) (boxOf w) := by
  have hl : l ≠ [] := by rintro rfl; cases hi
  obtain ⟨a, R⟩ := ready hV hl h
  rw [(R.nb i hi).1]
  refine ⟨List.Pairwise.filter _ List.pairwise_lt_range, fun j => ?_⟩
  rw [mem_below]
  constructor
  · rintro ⟨h1, h2, h3⟩
    rw [boxesOf_eq hi, boxesOf_eq h1] at h3
    exact ⟨h2, _, _, List.getElem?_eq_getElem hi, List.getElem?_eq_getElem h1, h3⟩
  · rintro ⟨h1, v, w, hv, hw, h2⟩
    have hj : j < l.length := (List.getElem?_eq_some_iff.mp hw).1
    refine ⟨hj, h1, ?_⟩
    rw [boxesOf_eq hi, boxesOf_eq hj, (List.getElem?_eq_some_iff.mp hv).2, (List.getElem?_eq_some_iff.mp hw).2]
    exact h2

/-- C108: being neighbours is mutual. -/
theorem C108_symmetric {V : Nat} (hV : 0 < V) {M : ℝ} {l : List Placed} {m : MU} (h : close V M (filled l) = some m)
    {i j : Nat} (hi : i < l.length) (hj : j < l.length) : j ∈ m.nb.list i ↔ i ∈ m.nb.list j := by
  rw [(C108_neighbours hV h hi).2, (C108_neighbours hV h hj).2]
  have sym : ∀ a b : Box, Touching a b → Touching b a := fun a b ⟨⟨h1, h2⟩, ⟨h3, h4⟩, h5, h6⟩ => ⟨⟨h2, h1⟩, ⟨h4, h3⟩, h6, h5⟩
  constructor
  · rintro ⟨h1, v, w, hv, hw, h2⟩; exact ⟨h1.symm, w, v, hw, hv, sym _ _ h2⟩
  · rintro ⟨h1, v, w, hv, hw, h2⟩; exact ⟨h1.symm, w, v, hw, hv, sym _ _ h2⟩

/-- The boxes of cubes one apart touch, those of cubes three or more apart do not. -/
theorem cubes_touching {x y : ℝ} (hx : |x| ≤ 1000) (hy : |y| ≤ 1000) :
    (|x - y| ≤ 2 → Touching (boxOf (cubeAt x 0 0)) (boxOf (cubeAt y 0 0))) ∧
    (3 ≤ |x - y| → ¬ Touching (boxOf (cubeAt x 0 0)) (boxOf (cubeAt y 0 0))) := by
  have h0 : |(0 : ℝ)| ≤ 1000 := by norm_num
  have ht := kTolerance_pos
  have ht2 : kTolerance ≤ 1 / 1000 := by norm_num [kTolerance]
  -- each box contains the cube itself
  have hin : ∀ x q : ℝ, |q - x| ≤ 1 → InBox (boxOf (cubeAt x 0 0)) ⟨q, 0, 0⟩ := by
    intro x q hq
    have : InBox cube.extent ((cubeAt x 0 0).trans.transform ⟨q, 0, 0⟩) := by
      show InBox cube.extent ((Trans3.ofTranslation x 0 0).transform ⟨q, 0, 0⟩)
      rw [Boolean.ofTranslation_transform]
      rw [abs_le] at hq
      refine ⟨⟨?_, ?_⟩, ⟨?_, ?_⟩, ?_, ?_⟩ <;> norm_num [cube, boxSolid, BoxSolid.extent, V3.neg] <;> linarith
    obtain ⟨⟨a1, a2⟩, ⟨a3, a4⟩, a5, a6⟩ := C28_box_contains_point (Boolean.ofTranslation_orthonormal x 0 0) this
    unfold boxOf cubeAt
    dsimp only at *
    refine ⟨⟨?_, ?_⟩, ⟨?_, ?_⟩, ?_, ?_⟩ <;> dsimp only <;> linarith
  constructor
  · intro h
    rw [abs_le] at h
    obtain ⟨⟨a1, a2⟩, ⟨a3, a4⟩, a5, a6⟩ := hin x ((x + y) / 2) (by rw [abs_le]; constructor <;> linarith)
    obtain ⟨⟨b1, b2⟩, ⟨b3, b4⟩, b5, b6⟩ := hin y ((x + y) / 2) (by rw [abs_le]; constructor <;> linarith)
    refine ⟨⟨?_, ?_⟩, ⟨?_, ?_⟩, ?_, ?_⟩ <;> linarith
  · rintro h ⟨⟨h1, h2⟩, -⟩
    obtain ⟨⟨c1, -⟩, c2, -⟩ := boxOf_cube hx h0 h0
    obtain ⟨⟨d1, -⟩, d2, -⟩ := boxOf_cube hy h0 h0
    dsimp only at c1 c2 d1 d2
    rcases le_abs.mp h with h | h <;> linarith

example : ∃ m, close 4 1000000 (filled row) = some m ∧ (1 ∈ m.nb.list 0) ∧ (2 ∉ m.nb.list 0) := by
  obtain ⟨m, e, -⟩ := C108_close 4 1000000 row
  have n := (C108_neighbours (by norm_num) e (i := 0) (by simp [row])).2
  refine ⟨m, e, ?_, ?_⟩
  · rw [n]
    exact ⟨by norm_num, _, _, rfl, rfl, (cubes_touching (by norm_num) (by norm_num)).1 (by norm_num)⟩
  · rw [n]
    rintro ⟨-, v, w, hv, hw, ht⟩
    cases hv
    cases hw
    exact (cubes_touching (by norm_num) (by norm_num)).2 (by norm_num) ht

/-- Finding: closing a union without components leaves it without search structure, and every query dereferences a null pointer. -/
theorem C108_empty_counterexample (V : Nat) (M : ℝ) : ∃ m, close V M (filled []) = some m ∧
    ∀ p, contains V m p = none ∧ inside V m p = none := by
  obtain ⟨nb, e, -⟩ := closeNeigh_spec (boxesOf []) 0
  refine ⟨_, by unfold close; rw [show (filled []).vols = [] from rfl]; exact congrArg (Option.map _) e, fun p => ?_⟩
  unfold contains inside containsLooper
  simp [buildStructure]

/-! ## C109: containment -/

/-- C109: `Contains` is true exactly if a component contains the point.  Assumptions: at most 20000 components, rigid placements, and
components that claim only points not farther than a thousandth from their extent. -/
theorem C109_contains {V : Nat} (hV : 0 < V) {M : ℝ} {l : List Placed} (hl : l ≠ []) (hn : l.length ≤ 20000)
    (hT : ∀ v ∈ l, v.trans.Orthonormal) (ht : ∀ v ∈ l, Tight v.solid) {m : MU} (h : close V M (filled l) = some m) (p : V3) :
    ∃ b, contains V m p = some b ∧ (b = true ↔ ∃ v ∈ l, v.contains p = true) := by
  obtain ⟨a, R⟩ := ready hV hl h
  obtain ⟨c, hc, -, hmem⟩ := R.candidates hV hn p
  obtain ⟨b, e, hb⟩ := loop_any (l := l) (f := fun v => v.contains p) c fun i hi => ((hmem i).mp hi).1
  refine ⟨b, ?_, hb.trans ⟨?_, ?_⟩⟩
  · unfold contains
    rw [R.looper hc, R.vols]
    exact e
  · rintro ⟨i, -, v, hv, h1⟩
    exact ⟨v, List.mem_of_getElem? hv, h1⟩
  · rintro ⟨v, hv, h1⟩
    obtain ⟨i, hi, hiv⟩ := mem_cand hmem hT ht hv (Or.inr h1)
    exact ⟨i, hi, v, hiv, h1⟩

/-- C109: if `Contains` of the components decides membership in their regions, that of the union decides membership in the union. -/
theorem C109_contains_region {V : Nat} (hV : 0 < V) {M : ℝ} {l : List Placed} (hl : l ≠ []) (hn : l.length ≤ 20000)
    (hT : ∀ v ∈ l, v.trans.Orthonormal) (ht : ∀ v ∈ l, Tight v.solid) (X : Solid → Region)
    (hX : ∀ v ∈ l, ContainsOK v.solid (X v.solid)) {m : MU} (h : close V M (filled l) = some m) (p : V3) :
    ∃ b, contains V m p = some b ∧ (b = true ↔ region X l p) := by
  obtain ⟨b, e, hb⟩ := C109_contains hV hl hn hT ht h p
  refine ⟨b, e, hb.trans ⟨?_, ?_⟩⟩
  · rintro ⟨v, hv, h1⟩; exact ⟨v, hv, (Boolean.placed_contains (hT v hv) (hX v hv)).mp h1⟩
  · rintro ⟨v, hv, h1⟩; exact ⟨v, hv, (Boolean.placed_contains (hT v hv) (hX v hv)).mpr h1⟩

/-- C109: the classification: inside exactly if inside a component, outside exactly if outside all components. -/
theorem C109_inside {V : Nat} (hV : 0 < V) {M : ℝ} {l : List Placed} (hl : l ≠ []) (hn : l.length ≤ 20000)
    (hT : ∀ v ∈ l, v.trans.Orthonormal) (ht : ∀ v ∈ l, Tight v.solid) {m : MU} (h : close V M (filled l) = some m) (p : V3) :
    ∃ r, inside V m p = some r ∧ (r = .inside ↔ ∃ v ∈ l, v.inside p = .inside) ∧ (r = .outside ↔ ∀ v ∈ l, v.inside p = .outside) := by
  obtain ⟨a, R⟩ := ready hV hl h
  obtain ⟨c, hc, -, hmem⟩ := R.candidates hV hn p
  obtain ⟨r, e, h1, h2⟩ := loop_class (l := l) (f := fun v => v.inside p) c .outside (by simp) fun i hi => ((hmem i).mp hi).1
  refine ⟨r, ?_, h1.trans ⟨?_, ?_⟩, h2.trans ⟨?_, ?_⟩⟩
  · unfold inside
    rw [R.looper hc, R.vols]
    exact e
  · rintro ⟨i, -, v, hv, h3⟩
    exact ⟨v, List.mem_of_getElem? hv, h3⟩
  · rintro ⟨v, hv, h3⟩
    obtain ⟨i, hi, hiv⟩ := mem_cand hmem hT ht hv (Or.inl (by rw [h3]; simp))
    exact ⟨i, hi, v, hiv, h3⟩
  · rintro ⟨-, h3⟩ v hv
    by_contra hne
    obtain ⟨i, hi, hiv⟩ := mem_cand hmem hT ht hv (Or.inl hne)
    exact hne (h3 i hi v hiv)
  · intro h3
    exact ⟨rfl, fun i _ v hv => h3 v (List.mem_of_getElem? hv)⟩

theorem exterior_region {X : Solid → Region} {p : V3} : ∀ {l : List Placed}, (∀ v ∈ l, Exterior (Moved v.trans (X v.solid)) p) →
    Exterior (region X l) p := by
  intro l
  induction l with
  | nil => intro _; exact ⟨1, one_pos, fun q _ ⟨v, hv, _⟩ => by cases hv⟩
  | cons v l ih =>
    intro h
    obtain ⟨e1, h1, k1⟩ := h v List.mem_cons_self
    obtain ⟨e2, h2, k2⟩ := ih fun w hw => h w (List.mem_cons_of_mem _ hw)
    refine ⟨min e1 e2, lt_min h1 h2, fun q hq => ?_⟩
    rintro ⟨w, hw, hx⟩
    rcases List.mem_cons.mp hw with rfl | hw
    · exact k1 q (hq.trans_le (min_le_left _ _)) hx
    · exact k2 q (hq.trans_le (min_le_right _ _)) ⟨w, hw, hx⟩

/-- C109: if the classification of the components can be trusted, that of the union can: inside and outside hold for all points
nearby. -/
theorem C109_classification {V : Nat} (hV : 0 < V) {M : ℝ} {l : List Placed} (hl : l ≠ []) (hn : l.length ≤ 20000)
    (hT : ∀ v ∈ l, v.trans.Orthonormal) (ht : ∀ v ∈ l, Tight v.solid) (X : Solid → Region)
    (hX : ∀ v ∈ l, ∀ p, ClassOK (v.solid.inside p) (X v.solid) p) {m : MU} (h : close V M (filled l) = some m) (p : V3) :
    ∃ r, inside V m p = some r ∧ ClassOK r (region X l) p := by
  obtain ⟨r, e, h1, h2⟩ := C109_inside hV hl hn hT ht h p
  refine ⟨r, e, fun hr => ?_, fun hr => ?_⟩
  · obtain ⟨v, hv, hi⟩ := h1.mp hr
    have := (hX v hv _).1 hi
    rw [← Boolean.interior_moved (hT v hv)] at this
    exact this.mono fun q hq => ⟨v, hv, hq⟩
  · refine exterior_region fun v hv => ?_
    have := (hX v hv _).2 (h2.mp hr v hv)
    rwa [← Boolean.exterior_moved (hT v hv)] at this

example : row ≠ [] ∧ row.length ≤ 20000 ∧ (∀ v ∈ row, v.trans.Orthonormal) ∧ (∀ v ∈ row, Tight v.solid) ∧
    (∀ v ∈ row, ContainsOK v.solid (BoxSolid.Open ⟨1, 1, 1⟩)) ∧
    (∀ v ∈ row, ∀ p, ClassOK (v.solid.inside p) (BoxSolid.Open ⟨1, 1, 1⟩) p) := by
  refine ⟨by simp [row], by simp [row], fun v hv => (row_solid hv).2, fun v hv => ?_, fun v hv => ?_, fun v hv p => ?_⟩
  · rw [(row_solid hv).1]; exact box_tight cube_proper
  · rw [(row_solid hv).1]; exact Boolean.box_containsOK _
  · rw [(row_solid hv).1]; exact Boolean.box_classOK _ p

theorem cubeAt_inside (x : ℝ) (p : V3) : (cubeAt x 0 0).inside p = cube.inside ⟨p.x - x, p.y, p.z⟩ := by
  show cube.inside ((Trans3.ofTranslation x 0 0).transform p) = _
  rw [Boolean.ofTranslation_transform]
  simp

/-- Finding: the middle of the common face of two cubes side by side is classified as surface although it is in the interior of the
union of the closed cubes. -/
theorem C109_common_face_counterexample {V : Nat} (hV : 0 < V) (M : ℝ) :
    ∃ m, close V M (filled [cubeAt 0 0 0, cubeAt 2 0 0]) = some m ∧ inside V m ⟨1, 0, 0⟩ = some .surface ∧
      Interior (region (fun _ => BoxSolid.Closed ⟨1, 1, 1⟩) [cubeAt 0 0 0, cubeAt 2 0 0]) ⟨1, 0, 0⟩ := by
  obtain ⟨m, e, -⟩ := C108_close V M [cubeAt 0 0 0, cubeAt 2 0 0]
  have hall : ∀ v ∈ [cubeAt 0 0 0, cubeAt 2 0 0], v.solid = cube ∧ v.trans.Orthonormal := by
    intro v hv
    simp only [List.mem_cons, List.not_mem_nil, or_false] at hv
    rcases hv with rfl | rfl <;> exact ⟨rfl, Boolean.ofTranslation_orthonormal _ _ _⟩
  obtain ⟨r, er, h1, h2⟩ := C109_inside hV (by simp) (by simp) (fun v hv => (hall v hv).2)
    (fun v hv => by rw [(hall v hv).1]; exact box_tight cube_proper) e ⟨1, 0, 0⟩
  have s0 : (cubeAt 0 0 0).inside ⟨1, 0, 0⟩ = .surface := by
    rw [cubeAt_inside]
    exact (Boolean.cube_inside_of _ rfl).1 (by norm_num [V3.maxc])
  have s2 : (cubeAt 2 0 0).inside ⟨1, 0, 0⟩ = .surface := by
    rw [cubeAt_inside]
    exact (Boolean.cube_inside_of _ rfl).1 (by norm_num [V3.maxc])
  refine ⟨m, e, ?_, ?_⟩
  · rw [er]
    cases r with
    | surface => rfl
    | inside =>
      obtain ⟨v, hv, hi⟩ := h1.mp rfl
      simp only [List.mem_cons, List.not_mem_nil, or_false] at hv
      rcases hv with rfl | rfl
      · rw [s0] at hi; cases hi
      · rw [s2] at hi; cases hi
    | outside =>
      have := h2.mp rfl (cubeAt 0 0 0) (by simp)
      rw [s0] at this; cases this
  · refine ⟨1 / 2, by norm_num, fun q hq => ?_⟩
    have hx := (V3.abs_x_le_dist ⟨1, 0, 0⟩ q).trans hq.le
    have hy := (V3.abs_y_le_dist ⟨1, 0, 0⟩ q).trans hq.le
    have hz := (V3.abs_z_le_dist ⟨1, 0, 0⟩ q).trans hq.le
    rw [abs_le] at hx hy hz
    dsimp only at hx hy hz
    rcases le_total q.x 1 with h | h
    · refine ⟨cubeAt 0 0 0, by simp, ?_⟩
      rw [cubeAt_moved]
      refine ⟨?_, ?_, ?_⟩ <;> dsimp only <;> rw [abs_le] <;> constructor <;> linarith
    · refine ⟨cubeAt 2 0 0, by simp, ?_⟩
      rw [cubeAt_moved]
      refine ⟨?_, ?_, ?_⟩ <;> dsimp only <;> rw [abs_le] <;> constructor <;> linarith

/-! ## C110: safety to enter -/

/-- C110: the candidates for the safety.  The search with the decreasing limit leaves out a box only if some candidate lies wholly
nearer than it. -/
theorem C110_candidates {V : Nat} (hV : 0 < V) {M : ℝ} {l : List Placed} (hl : l ≠ []) (hn : l.length ≤ 20000)
    (hv : ∀ v ∈ l, Valid v.solid.extent) (hr : ∀ v ∈ l, InRange M (boxOf v)) {m : MU} (h : close V M (filled l) = some m)
    {p : V3} (hp : Near M p) (hM : M * M < kInfLength) :
    ∃ a hits, m.nav = some a ∧ rangeCandidates V a p kInfLength = some hits ∧ (hits.map Prod.fst).Nodup ∧
      ∃ k w, l[k]? = some w ∧ k ∈ hits.map Prod.fst ∧
        ∀ i v, l[i]? = some v → i ∈ hits.map Prod.fst ∨
          ∀ q q', InBox (boxOf w) q → InBox (boxOf v) q' → V3.dist p q ≤ V3.dist p q' := by
  obtain ⟨a, R⟩ := ready hV hl h
  obtain ⟨hits, e, hnd, hval, k, hk, hcov⟩ := rangeCandidates_spec (R.setting hV hl hv hr hp) (by unfold maxFacets; exact hn) hM
  have hkn : k < l.length := by
    obtain ⟨e, he, rfl⟩ := List.mem_map.mp hk
    exact (hval e he).1
  refine ⟨a, hits, R.nav, e, hnd, k, l[k], List.getElem?_eq_getElem hkn, hk, fun i v hi => ?_⟩
  obtain ⟨hil, rfl⟩ := List.getElem?_eq_some_iff.mp hi
  rcases hcov i hil with h1 | h1
  · exact Or.inl h1
  · right
    intro q q' hq hq'
    rw [← boxesOf_eq hkn] at hq
    rw [← boxesOf_eq hil] at hq'
    refine dist_le_of_dist2 (((C31_safety_range _ p).2 q hq).trans (h1.trans ?_))
    by_cases hb : InBox (boxesOf l i) p
    · exact (C31_safety_sqr_inside hb).1.trans (V3.dist2_nonneg p q')
    · exact (C31_safety_sqr_outside hq'.valid hb).2.1 q' hq'

/-- C110: for a point outside all components, with positive safeties of the components, the safety to enter is positive, not larger than
the distance to any point of the union, and the safety of one of the components.  The assumption that no safety is zero is needed
(`C110_zero_safety_counterexample`). -/
theorem C110_safety_in_partial {V : Nat} (hV : 0 < V) {M : ℝ} {l : List Placed} (hl : l ≠ []) (hn : l.length ≤ 20000)
    (hT : ∀ v ∈ l, v.trans.Orthonormal) (ht : ∀ v ∈ l, Tight v.solid) (hv : ∀ v ∈ l, Valid v.solid.extent)
    (hr : ∀ v ∈ l, InRange M (boxOf v)) (X : Solid → Region) (hE : ∀ v ∈ l, ExtentOK v.solid (X v.solid))
    (hS : ∀ v ∈ l, SafetyInOK v.solid (X v.solid)) (hne : ∀ v ∈ l, ∃ q, X v.solid q) {m : MU} (h : close V M (filled l) = some m)
    {p : V3} (hp : Near M p) (hM : M * M < kInfLength) (hout : ∀ v ∈ l, v.inside p = .outside) (hpos : ∀ v ∈ l, 0 < v.safetyToIn p) :
    ∃ s, safetyToIn V m p = some s ∧ 0 < s ∧ (∀ q, region X l q → s ≤ V3.dist p q) ∧ ∃ v ∈ l, s = v.safetyToIn p := by
  obtain ⟨a, R⟩ := ready hV hl h
  obtain ⟨r, er, h1, -⟩ := R.component hV hn hT ht p
  obtain ⟨s, es, h3, h4, i, v, hi, h5⟩ := R.safetyToInComp_spec hV hl hn hT hv hr X hE hS hne hp hM hpos
  refine ⟨s.1, ?_, h3, h4, v, List.mem_of_getElem? hi, by rw [h5]⟩
  unfold safetyToIn
  rw [er, Option.bind_some]
  cases r with
  | none => dsimp only; rw [es]; rfl
  | some c =>
    obtain ⟨v, hv, hne⟩ := h1 c rfl
    exact absurd (hout v (List.mem_of_getElem? hv)) hne

/-- C110: for a point on or in a component the safety to enter is `-1`. -/
theorem C110_safety_in_wrong_side {V : Nat} (hV : 0 < V) {M : ℝ} {l : List Placed} (hl : l ≠ []) (hn : l.length ≤ 20000)
    (hT : ∀ v ∈ l, v.trans.Orthonormal) (ht : ∀ v ∈ l, Tight v.solid) {m : MU} (h : close V M (filled l) = some m)
    {p : V3} {v : Placed} (hv : v ∈ l) (hin : v.inside p ≠ .outside) : safetyToIn V m p = some (-1) := by
  obtain ⟨a, R⟩ := ready hV hl h
  obtain ⟨r, er, -, h2⟩ := R.component hV hn hT ht p
  unfold safetyToIn
  rw [er, Option.bind_some]
  cases r with
  | none => exact absurd (h2 rfl v hv) hin
  | some c => rfl

/-- The point (20, 0, 0) is outside the cubes of the row and has positive safeties. -/
theorem row_far : (∀ v ∈ row, v.inside ⟨20, 0, 0⟩ = .outside) ∧ (∀ v ∈ row, 0 < v.safetyToIn ⟨20, 0, 0⟩) := by
  constructor
  · intro v hv
    obtain ⟨x, rfl, h0, h1⟩ := mem_row hv
    rw [cubeAt_inside]
    refine (Boolean.cube_inside_of _ rfl).2.2 ?_
    have : (1 : ℝ) ≤ |20 - x| - 1 := by rw [abs_of_pos (by linarith)]; linarith
    simp only [V3.maxc, V3.sub_x, V3.vabs_x, V3.sub_y, V3.vabs_y, V3.sub_z, V3.vabs_z, le_max_iff]
    exact Or.inl (Or.inl this)
  · intro v hv
    obtain ⟨x, rfl, h0, h1⟩ := mem_row hv
    show 0 < BoxSolid.safetyToIn ⟨1, 1, 1⟩ ((Trans3.ofTranslation x 0 0).transform ⟨20, 0, 0⟩)
    rw [Boolean.ofTranslation_transform]
    unfold BoxSolid.safetyToIn
    have : (0 : ℝ) < |20 - x| - 1 := by rw [abs_of_pos (by linarith)]; linarith
    simp only [V3.maxc, V3.sub_x, V3.vabs_x, V3.sub_y, V3.vabs_y, V3.sub_z, V3.vabs_z, lt_max_iff]
    exact Or.inl (Or.inl this)

example : Near 1000000 ⟨20, 0, 0⟩ ∧ ((1000000 : ℝ) * 1000000 < kInfLength) ∧ (∀ v ∈ row, Valid v.solid.extent) ∧
    (∀ v ∈ row, InRange 1000000 (boxOf v)) ∧ (∀ v ∈ row, ExtentOK v.solid (BoxSolid.Open ⟨1, 1, 1⟩)) ∧
    (∀ v ∈ row, SafetyInOK v.solid (BoxSolid.Open ⟨1, 1, 1⟩)) ∧ (∃ q, BoxSolid.Open ⟨1, 1, 1⟩ q) ∧
    (∀ v ∈ row, v.inside ⟨20, 0, 0⟩ = .outside) ∧ (∀ v ∈ row, 0 < v.safetyToIn ⟨20, 0, 0⟩) := by
  refine ⟨near_of (by norm_num) (by norm_num) (by norm_num) (by norm_num), ?_, fun v hv => ?_, fun v hv => ?_, fun v hv => ?_,
    fun v hv => ?_, ⟨⟨0, 0, 0⟩, by norm_num [BoxSolid.Open]⟩, row_far.1, row_far.2⟩
  · refine lt_trans ?_ kInf_large
    norm_num
  · rw [(row_solid hv).1]; exact box_valid cube_proper
  · obtain ⟨x, rfl, h0, h1⟩ := mem_row hv
    exact cube_range (by norm_num) (by rw [abs_of_nonneg h0]; linarith) (by norm_num) (by norm_num)
  · rw [(row_solid hv).1]; exact Boolean.box_extentOK _
  · rw [(row_solid hv).1]; exact Boolean.box_safetyInOK _

/-- A cube whose safety to enter is always zero: a valid lower bound. -/
noncomputable def shyCube : Solid := { cube with safetyToIn := fun _ => 0 }

/-- Finding: a component that answers a safety of zero for a point outside, which is a valid lower bound, is skipped by the search.  The
safety of the union is then the largest number although the component is four away. -/
theorem C110_zero_safety_counterexample {V : Nat} (hV : 0 < V) :
    ∃ m, close V 1000000 (filled [⟨Trans3.ofTranslation 0 0 0, shyCube⟩]) = some m ∧ SafetyInOK shyCube (BoxSolid.Open ⟨1, 1, 1⟩) ∧
      safetyToIn V m ⟨5, 0, 0⟩ = some kInfLength := by
  set l : List Placed := [⟨Trans3.ofTranslation 0 0 0, shyCube⟩] with hl
  obtain ⟨m, e, -⟩ := C108_close V 1000000 l
  refine ⟨m, e, fun p q _ => Boolean.dist_nonneg p q, ?_⟩
  have hall : ∀ v ∈ l, v = ⟨Trans3.ofTranslation 0 0 0, shyCube⟩ := by
    intro v hv
    rw [hl] at hv
    simpa using hv
  have htight : Tight shyCube := box_tight cube_proper
  obtain ⟨a, R⟩ := ready hV (by simp [hl]) e
  have hn : l.length ≤ 20000 := by simp [hl]
  obtain ⟨r, er, h1, -⟩ := R.component hV hn
    (fun v hv => by rw [hall v hv]; exact Boolean.ofTranslation_orthonormal _ _ _)
    (fun v hv => by rw [hall v hv]; exact htight) ⟨5, 0, 0⟩
  have hbox : boxOf ⟨Trans3.ofTranslation 0 0 0, shyCube⟩ = boxOf (cubeAt 0 0 0) := rfl
  have S := R.setting hV (by simp [hl]) (fun v hv => by rw [hall v hv]; exact box_valid cube_proper)
    (fun v hv => by rw [hall v hv, hbox]; exact cube_range (by norm_num) (by norm_num) (by norm_num) (by norm_num))
    (p := ⟨5, 0, 0⟩) (near_of (by norm_num) (by norm_num) (by norm_num) (by norm_num))
  obtain ⟨hits, e1, hnd, hval, k, hk, hcov⟩ := rangeCandidates_spec S (by unfold maxFacets; exact hn)
    (limit := kInfLength) (lt_trans (by norm_num) kInf_large)
  have hlen : hits.length ≤ 32768 := by
    have : (hits.map Prod.fst).Subperm (List.range l.length) := hnd.subperm fun i hi => by
      obtain ⟨e, he, rfl⟩ := List.mem_map.mp hi
      exact List.mem_range.mpr (hval e he).1
    have := this.length_le
    rw [List.length_map, List.length_range] at this
    omega
  obtain ⟨c, e2, hperm, hs⟩ := insertionSort_spec hlen
  obtain ⟨s, e3, -, h5, h6, -⟩ := safety_loop (m := m) (p := ⟨5, 0, 0⟩) c kInfLength none hs (fun e he => by
    have hi := (hval e (hperm.mem_iff.mp he)).1
    exact ⟨l[e.1], by rw [R.vols]; exact List.getElem?_eq_getElem hi⟩) kInfLength_pos
  have hs : s = (kInfLength, none) := by
    rcases h6 with h6 | ⟨e, he, v, hv, h6⟩
    · exact h6
    · exfalso
      rw [R.vols] at hv
      have := hall v (List.mem_of_getElem? hv)
      rw [h6, this] at h5
      exact lt_irrefl (0 : ℝ) h5
  unfold safetyToIn
  rw [er, Option.bind_some]
  cases r with
  | some c =>
    obtain ⟨v, hv, hne⟩ := h1 c rfl
    rw [hall v (List.mem_of_getElem? hv)] at hne
    exfalso
    apply hne
    have : (cubeAt 0 0 0).inside ⟨5, 0, 0⟩ = .outside := by
      rw [cubeAt_inside]
      exact (Boolean.cube_inside_of _ rfl).2.2 (by norm_num [V3.maxc])
    exact this
  | none =>
    dsimp only
    unfold safetyToInComp
    rw [R.nav, Option.bind_some, e1, Option.bind_some, e2, Option.bind_some, e3, hs]
    rfl

/-! ## C111: safety to leave and normal -/

theorem out_fold {m : MU} {p : V3} : ∀ (c : List Nat) (s : ℝ), (∀ i ∈ c, ∃ v, m.vols[i]? = some v) →
    ∃ r, c.foldlM (outSafetyStep m p) s = some r ∧ r ≤ s ∧
      (r = s ∨ ∃ i ∈ c, ∃ v, m.vols[i]? = some v ∧ r = v.safetyToOut (v.trans.transform p) ∧ 0 < r) := by
  intro c
  induction c with
  | nil => intro s _; exact ⟨s, rfl, le_refl _, Or.inl rfl⟩
  | cons x c ih =>
    intro s h
    obtain ⟨v, hv⟩ := h x List.mem_cons_self
    obtain ⟨r, e, h1, h2⟩ := ih (if v.safetyToOut (v.trans.transform p) > 0 ∧ v.safetyToOut (v.trans.transform p) < s
      then v.safetyToOut (v.trans.transform p) else s) fun i hi => h i (List.mem_cons_of_mem _ hi)
    refine ⟨r, ?_, ?_, ?_⟩
    · rw [List.foldlM_cons]
      show (outSafetyStep m p s x).bind _ = _
      unfold outSafetyStep
      rw [hv, Option.map_some]
      exact e
    · split at h1
      · rename_i hc; exact h1.trans hc.2.le
      · exact h1
    · rcases h2 with h2 | ⟨i, hi, w, hw, h2⟩
      · split at h2
        · rename_i hc; exact Or.inr ⟨x, List.mem_cons_self, v, hv, h2, by rw [h2]; exact hc.1⟩
        · exact Or.inl h2
      · exact Or.inr ⟨i, List.mem_cons_of_mem _ hi, w, hw, h2⟩

/-- C111: the safety to leave is not larger than the distance to any point outside the union; it is the safety to leave of one of the
components, and positive if no component on or in which the point is answers a safety that is not positive. -/
theorem C111_safety_out {V : Nat} (hV : 0 < V) {M : ℝ} {l : List Placed} (hl : l ≠ []) (hn : l.length ≤ 20000)
    (hT : ∀ v ∈ l, v.trans.Orthonormal) (ht : ∀ v ∈ l, Tight v.solid) (X : Solid → Region)
    (hS : ∀ v ∈ l, SafetyOutOK v.solid (X v.solid)) {m : MU} (h : close V M (filled l) = some m) (p : V3) :
    ∃ s, safetyToOut V m p = some s ∧ ((∀ v ∈ l, v.inside p = .outside) → s = -1) ∧
      ((∃ v ∈ l, v.inside p ≠ .outside) → (∀ q, ¬ region X l q → s ≤ V3.dist p q) ∧
        (∃ v ∈ l, s = v.safetyToOut (v.trans.transform p)) ∧
        ((∀ v ∈ l, v.inside p ≠ .outside → 0 < v.safetyToOut (v.trans.transform p)) → 0 < s)) := by
  obtain ⟨a, R⟩ := ready hV hl h
  obtain ⟨r, er, h1, h2⟩ := R.component hV hn hT ht p
  unfold safetyToOut
  rw [er, Option.bind_some]
  cases r with
  | none =>
    refine ⟨-1, rfl, fun _ => rfl, fun ⟨v, hv, hne⟩ => absurd (h2 rfl v hv) hne⟩
  | some c =>
    obtain ⟨v, hv, hin⟩ := h1 c rfl
    have hvl := List.mem_of_getElem? hv
    have hcl : c < l.length := (List.getElem?_eq_some_iff.mp hv).1
    obtain ⟨s, es, h3, h4⟩ := out_fold (m := m) (p := p) (m.nb.list c) (v.safetyToOut (v.trans.transform p)) fun i hi => by
      rw [(R.nb c hcl).1, mem_below] at hi
      exact ⟨l[i]'hi.1, by rw [R.vols]; exact List.getElem?_eq_getElem hi.1⟩
    refine ⟨s, ?_, fun hall => absurd (hall v hvl) hin, fun _ => ⟨fun q hq => ?_, ?_, fun hpos => ?_⟩⟩
    · dsimp only
      rw [R.vols, hv, Option.bind_some]
      exact es
    · refine h3.trans (Boolean.safetyOut_moved (hT v hvl) (hS v hvl) fun hc => hq ⟨v, hvl, hc⟩)
    · rcases h4 with h4 | ⟨i, -, w, hw, h4, -⟩
      · exact ⟨v, hvl, h4⟩
      · rw [R.vols] at hw
        exact ⟨w, List.mem_of_getElem? hw, h4⟩
    · rcases h4 with h4 | ⟨i, -, w, hw, h4, h5⟩
      · rw [h4]; exact hpos v hvl hin
      · exact h5

example : (∀ v ∈ row, SafetyOutOK v.solid (BoxSolid.Open ⟨1, 1, 1⟩)) ∧ (∃ v ∈ row, v.inside ⟨1 / 2, 0, 0⟩ ≠ .outside) := by
  refine ⟨fun v hv => ?_, cubeAt 0 0 0, by simp [row], ?_⟩
  · rw [(row_solid hv).1]; exact Boolean.box_safetyOutOK _
  · rw [cubeAt_inside, (Boolean.cube_inside_of _ rfl).2.1 (by norm_num [V3.maxc])]
    simp

/-- C111: the normal at a point that is not outside is the normal of a component on or in which the point is, turned into the frame of
the union; for a point on the surface of the union it is a component on whose surface the point is. -/
theorem C111_normal {V : Nat} (hV : 0 < V) {M : ℝ} {l : List Placed} (hl : l ≠ []) (hn : l.length ≤ 20000)
    (hT : ∀ v ∈ l, v.trans.Orthonormal) (ht : ∀ v ∈ l, Tight v.solid) {m : MU} (h : close V M (filled l) = some m) {p : V3} :
    ((∃ v ∈ l, v.inside p ≠ .outside) → ∃ r, normal V m p = some r ∧ ∃ v ∈ l, v.inside p ≠ .outside ∧
      r.2 = (v.normal (v.trans.transform p)).2 ∧
      (r.2 = true → v.trans.transformDirection r.1 = (v.normal (v.trans.transform p)).1)) ∧
    (inside V m p = some .surface → ∃ r, normal V m p = some r ∧ ∃ v ∈ l, v.inside p = .surface ∧
      r.2 = (v.normal (v.trans.transform p)).2 ∧
      (r.2 = true → v.trans.transformDirection r.1 = (v.normal (v.trans.transform p)).1)) := by
  obtain ⟨a, R⟩ := ready hV hl h
  have first : (∃ v ∈ l, v.inside p ≠ .outside) → ∃ r, normal V m p = some r ∧ ∃ v ∈ l, v.inside p ≠ .outside ∧
      r.2 = (v.normal (v.trans.transform p)).2 ∧
      (r.2 = true → v.trans.transformDirection r.1 = (v.normal (v.trans.transform p)).1) := by
    rintro ⟨v0, hv0, hne⟩
    obtain ⟨r, er, h1, h2⟩ := R.component hV hn hT ht p
    cases r with
    | none => exact absurd (h2 rfl v0 hv0) hne
    | some c =>
      obtain ⟨v, hv, hin⟩ := h1 c rfl
      have hvl := List.mem_of_getElem? hv
      refine ⟨(if (v.normal (v.trans.transform p)).2 then v.trans.inverseTransformDirection (v.normal (v.trans.transform p)).1
        else ⟨0, 0, 0⟩, (v.normal (v.trans.transform p)).2), ?_, v, hvl, hin, rfl, fun hr => ?_⟩
      · unfold normal
        rw [er, Option.bind_some]
        dsimp only
        rw [Option.bind_some]
        dsimp only
        rw [R.vols, hv, Option.map_some]
      · dsimp only at hr ⊢
        rw [if_pos hr]
        exact (Trans3.C23_direction_roundtrip (hT v hvl) _).2
  refine ⟨first, fun hs => ?_⟩
  obtain ⟨r, er, h1, h2⟩ := C109_inside hV hl hn hT ht h p
  rw [hs] at er
  have er' := Option.some.inj er
  have hex : ∃ v ∈ l, v.inside p ≠ .outside := by
    by_contra hc
    push Not at hc
    have := h2.mpr hc
    rw [← er'] at this
    cases this
  obtain ⟨n, en, v, hv, hin, h3, h4⟩ := first hex
  refine ⟨n, en, v, hv, ?_, h3, h4⟩
  cases hi : v.inside p with
  | surface => rfl
  | outside => exact absurd hi hin
  | inside =>
    have := h1.mpr ⟨v, hv, hi⟩
    rw [← er'] at this
    cases this

example : ∃ v ∈ row, v.inside ⟨-1, 0, 0⟩ = .surface := by
  refine ⟨cubeAt 0 0 0, by simp [row], ?_⟩
  rw [cubeAt_inside]
  exact (Boolean.cube_inside_of _ rfl).1 (by norm_num [V3.maxc])

/-! ## C112: distance to enter -/

/-- C112: no point of the union lies before the reported distance, as long as it is below the step limit, the range `L` of the
components and the range `M` of the boxes; a distance below the step limit and below the largest number is the distance of a component.
-/
theorem C112_distance_in {V : Nat} (hV : 0 < V) {M : ℝ} {l : List Placed} (hl : l ≠ []) (hn : l.length ≤ 20000)
    (hT : ∀ v ∈ l, v.trans.Orthonormal) (hv : ∀ v ∈ l, Valid v.solid.extent) (X : Solid → Region)
    (hE : ∀ v ∈ l, ExtentOK v.solid (X v.solid)) {L : ℝ} (hL : L ≤ 10 ^ 27) (hin : ∀ v ∈ l, EntryUpTo L v.solid (X v.solid))
    (hdef : ∀ v ∈ l, Enters v.solid) {m : MU} (h : close V M (filled l) = some m) {p d : V3} (hp : Near M p)
    (hunit : d.mag2 = 1) (hM : M ≤ kInfLength) {sm : ℝ} (hsm : 0 ≤ sm) :
    ∃ r, distanceToIn V M m p d sm = some r ∧
      (∀ u, 0 ≤ u → u < r → u < sm → u ≤ L → u < M → ¬ region X l (V3.at' p d u)) ∧
      (r < kInfLength → r < sm → ∃ v ∈ l, v.distanceToIn p d sm = some r) := by
  obtain ⟨a, R⟩ := ready hV hl h
  exact R.distanceToIn_spec hV hn hT hv X hE hL hin hdef hp hunit hM hsm

example : (∀ v ∈ row, ExtentOK v.solid (BoxSolid.Deep ⟨1, 1, 1⟩ kTolerance)) ∧
    (∀ v ∈ row, EntryUpTo (10 ^ 20) v.solid (BoxSolid.Deep ⟨1, 1, 1⟩ kTolerance)) ∧ (∀ v ∈ row, Enters v.solid) ∧
    V3.mag2 ⟨1, 0, 0⟩ = 1 ∧ region (fun _ => BoxSolid.Deep ⟨1, 1, 1⟩ kTolerance) row (V3.at' ⟨-5, 0, 0⟩ ⟨1, 0, 0⟩ 5) := by
  have ht := kTolerance_pos
  have ht2 : kTolerance ≤ 1 / 1000 := by norm_num [kTolerance]
  refine ⟨fun v hv => ?_, fun v hv => ?_, fun v hv => ?_, by norm_num [V3.mag2, V3.dot], cubeAt 0 0 0, by simp [row], ?_⟩
  · rw [(row_solid hv).1]
    intro q hq
    exact Boolean.box_extentOK _ q ⟨by linarith [hq.1], by linarith [hq.2.1], by linarith [hq.2.2]⟩
  · rw [(row_solid hv).1]; exact box_entry cube_proper
  · rw [(row_solid hv).1]; exact box_enters _
  · rw [cubeAt_moved]
    refine ⟨?_, ?_, ?_⟩ <;> norm_num [V3.at'] <;> linarith

/-! ## C113: distance to leave -/

/-- C113: the walk out of the union ends after finitely many rounds.  The reported distance is not negative; every point of the ray up to
it (and to the step limit) is in the union or at most ten tolerances behind a point of it; and the walk ends as described by `EndsAt`.
Missing: the end may be early after a step not longer than the tolerance (`C113_early_end_counterexample`). -/
theorem C113_distance_out_partial {V : Nat} (hV : 0 < V) {M : ℝ} {l : List Placed} (hl : l ≠ []) (hn : l.length ≤ 20000)
    (hT : ∀ v ∈ l, v.trans.Orthonormal) (ht : ∀ v ∈ l, Tight v.solid) (hL : ∀ v ∈ l, Leaves v.solid) (X : Solid → Region)
    (hX : ∀ v ∈ l, ExitOK v.solid (X v.solid)) {m : MU} (h : close V M (filled l) = some m) {p d : V3} (hunit : d.mag2 = 1) {sm : ℝ}
    (hstart : ∀ v ∈ l, v.inside p ≠ .outside → ∃ t, v.placedDistanceToOut p d sm = some t ∧ 0 ≤ t)
    (hin : ∃ v ∈ l, v.inside p ≠ .outside) :
    ∃ N r, (∀ fuel, N ≤ fuel → distanceToOut V fuel m p d sm = some r) ∧ 0 ≤ r ∧ Followed (region X l) p d (min r sm) ∧
      EndsAt l p d sm r := by
  obtain ⟨a, R⟩ := ready hV hl h
  obtain ⟨c, ec, h1, h2⟩ := R.component hV hn hT ht p
  obtain ⟨v0, hv0, hne⟩ := hin
  cases c with
  | none => exact absurd (h2 rfl v0 hv0) hne
  | some c =>
    have hk : kEps = 10 * kTolerance := rfl
    have htol := kTolerance_pos
    have htol1 : kTolerance < 1 := by norm_num [kTolerance]
    obtain ⟨B, hB⟩ := ray_bound hT ht p hunit
    have hz := Boolean.at_zero p d
    have hcomp : ∀ i, some c = some i → ∃ v : Placed, l[i]? = some v ∧ v.inside (V3.at' p d 0) ≠ .outside ∧
        ∃ t, v.placedDistanceToOut (V3.at' p d 0) d sm = some t ∧ 0 ≤ t := by
      intro i hi
      obtain ⟨v, hv, hin⟩ := h1 i hi
      rw [hz]
      exact ⟨v, hv, hin, hstart v (List.mem_of_getElem? hv) hin⟩
    obtain ⟨N, hN⟩ := exists_nat_gt ((B + kEps) / kEps)
    have hkpos : 0 < kEps := by rw [hk]; linarith
    rw [div_lt_iff₀ hkpos] at hN
    obtain ⟨r, er⟩ := R.out_ends hL (sm := sm) hB (N + 1) 0 (-kEps) 1 p (some c) hz.symm (le_refl _) hcomp (by omega) (fun _ => by
      push_cast
      linarith)
    refine ⟨N + 1, r, fun fuel hf => ?_, ?_⟩
    · unfold distanceToOut
      rw [ec, Option.bind_some]
      dsimp only
      obtain ⟨k, rfl⟩ := Nat.exists_eq_add_of_le hf
      exact outLoop_stable er k
    · refine R.out_loop hT hL X hX (N + 1) 0 (-kEps) 1 p (some c) r (by ring) hz.symm (le_refl _) (fun u h0 h1 => by linarith) hcomp
        (fun hc => ?_) er
      rcases hc with hc | hc
      · linarith
      · cases hc

/-- C113: outside all components the distance is `-1`. -/
theorem C113_wrong_side {V : Nat} (hV : 0 < V) {M : ℝ} {l : List Placed} (hl : l ≠ []) (hn : l.length ≤ 20000)
    (hT : ∀ v ∈ l, v.trans.Orthonormal) (ht : ∀ v ∈ l, Tight v.solid) {m : MU} (h : close V M (filled l) = some m) {p : V3}
    (hout : ∀ v ∈ l, v.inside p = .outside) (fuel : Nat) (d : V3) (sm : ℝ) : distanceToOut V fuel m p d sm = some (-1) := by
  obtain ⟨a, R⟩ := ready hV hl h
  obtain ⟨c, ec, h1, -⟩ := R.component hV hn hT ht p
  unfold distanceToOut
  rw [ec, Option.bind_some]
  cases c with
  | none => rfl
  | some c =>
    obtain ⟨v, hv, hne⟩ := h1 c rfl
    exact absurd (hout v (List.mem_of_getElem? hv)) hne

theorem cubeAt_dist_out (x : ℝ) {p d : V3} (hp : BoxSolid.Closed ⟨1, 1, 1⟩ ⟨p.x - x, p.y, p.z⟩) (sm : ℝ) :
    ∃ t, (cubeAt x 0 0).placedDistanceToOut p d sm = some t ∧ 0 ≤ t := by
  refine ⟨_, rfl, ?_⟩
  show 0 ≤ BoxSolid.distanceToOut ⟨1, 1, 1⟩ ((Trans3.ofTranslation x 0 0).transform p) _
  rw [Boolean.ofTranslation_transform, sub_zero, sub_zero]
  exact (BoxSolid.C43_distance_out cube_proper hp).1

example : (∀ v ∈ row, Leaves v.solid) ∧ (∀ v ∈ row, ExitOK v.solid (BoxSolid.Closed (widened ⟨1, 1, 1⟩))) ∧
    (∀ v ∈ row, v.inside ⟨1 / 2, 0, 0⟩ ≠ .outside → ∃ t, v.placedDistanceToOut ⟨1 / 2, 0, 0⟩ ⟨1, 0, 0⟩ 100 = some t ∧ 0 ≤ t) ∧
    (∃ v ∈ row, v.inside ⟨1 / 2, 0, 0⟩ ≠ .outside) := by
  refine ⟨fun v hv => ?_, fun v hv => ?_, fun v hv hin => ?_, cubeAt 0 0 0, by simp [row], ?_⟩
  · rw [(row_solid hv).1]; exact box_leaves _
  · rw [(row_solid hv).1]; exact box_exit cube_proper
  · unfold row at hv
    simp only [List.mem_cons, List.not_mem_nil, or_false] at hv
    rcases hv with rfl | rfl | rfl
    · exact cubeAt_dist_out 0 (by norm_num [BoxSolid.Closed]) _
    · exact cubeAt_dist_out 1 (by norm_num [BoxSolid.Closed]) _
    · exfalso
      apply hin
      rw [cubeAt_inside]
      refine (Boolean.cube_inside_of _ rfl).2.2 ?_
      have : (1 : ℝ) ≤ |1 / 2 - 10| - 1 := by norm_num
      simp only [V3.maxc, V3.sub_x, V3.vabs_x, le_max_iff]
      exact Or.inl (Or.inl this)
  · rw [cubeAt_inside, (Boolean.cube_inside_of _ rfl).2.1 (by norm_num [V3.maxc])]
    simp

/-- Finding: the walk stops when the first step is not longer than the tolerance.  Two cubes have a face in common.  From the middle of
that face the reported distance along one of the two directions across it is zero, although the ray runs through the union for two
units.  Which direction it is depends on the order in which the search structure returns the components. -/
theorem C113_early_end_counterexample {V : Nat} (hV : 0 < V) (M : ℝ) {m : MU}
    (h : close V M (filled [cubeAt 0 0 0, cubeAt 2 0 0]) = some m) :
    ∃ d, (d = ⟨1, 0, 0⟩ ∨ d = ⟨-1, 0, 0⟩) ∧ (∀ fuel, 2 ≤ fuel → distanceToOut V fuel m ⟨1, 0, 0⟩ d 100 = some 0) ∧
      ∀ u, 0 ≤ u → u ≤ 2 → region (fun _ => BoxSolid.Closed ⟨1, 1, 1⟩) [cubeAt 0 0 0, cubeAt 2 0 0] (V3.at' ⟨1, 0, 0⟩ d u) := by
  set l := [cubeAt 0 0 0, cubeAt 2 0 0] with hl
  have hall : ∀ v ∈ l, v.solid = cube ∧ v.trans.Orthonormal := by
    intro v hv
    simp only [hl, List.mem_cons, List.not_mem_nil, or_false] at hv
    rcases hv with rfl | rfl <;> exact ⟨rfl, Boolean.ofTranslation_orthonormal _ _ _⟩
  have hn : l.length ≤ 20000 := by simp [hl]
  obtain ⟨a, R⟩ := ready hV (by simp [hl]) h
  obtain ⟨r, er, h1, h2⟩ := R.component hV hn (fun v hv => (hall v hv).2)
    (fun v hv => by rw [(hall v hv).1]; exact box_tight cube_proper) ⟨1, 0, 0⟩
  have s0 : (cubeAt 0 0 0).inside ⟨1, 0, 0⟩ = .surface := by
    rw [cubeAt_inside]
    exact (Boolean.cube_inside_of _ rfl).1 (by norm_num [V3.maxc])
  have htol := kTolerance_pos
  have htol1 : kTolerance < 1 := by norm_num [kTolerance]
  -- one round of the walk with a first step of zero
  have walk : ∀ (c : Nat) (v : Placed) (d : V3), l[c]? = some v →
      v.distanceToOut (v.trans.transform ⟨1, 0, 0⟩) (v.trans.transformDirection d) 100 = some 0 →
      ∀ fuel, 2 ≤ fuel → outLoop m d 100 fuel (-kEps) 1 ⟨1, 0, 0⟩ (some c) = some 0 := by
    intro c v d hv hd fuel hf
    obtain ⟨fuel, rfl⟩ := Nat.exists_eq_add_of_le hf
    rw [show 2 + fuel = fuel + 1 + 1 by omega, outLoop_succ, if_pos htol1]
    dsimp only
    rw [R.vols, hv, Option.bind_some, hd, Option.bind_some]
    rw [show -kEps + (0 + kEps) = 0 by ring]
    split
    · rfl
    · obtain ⟨r2, e2, -⟩ := R.cluster (List.getElem?_eq_some_iff.mp hv).1 (⟨1, 0, 0⟩ + V3.smul (0 + kEps) d)
      rw [e2, Option.bind_some, outLoop_succ, if_neg (not_lt.mpr htol.le)]
  have cubeOut : ∀ x : ℝ, ∀ d : V3, (cubeAt x 0 0).distanceToOut ((cubeAt x 0 0).trans.transform ⟨1, 0, 0⟩)
      ((cubeAt x 0 0).trans.transformDirection d) 100 = some (BoxSolid.distanceToOut ⟨1, 1, 1⟩ ⟨1 - x, 0, 0⟩ d) := by
    intro x d
    show some (BoxSolid.distanceToOut ⟨1, 1, 1⟩ ((Trans3.ofTranslation x 0 0).transform ⟨1, 0, 0⟩)
      ((Trans3.ofTranslation x 0 0).transformDirection d)) = _
    rw [Boolean.ofTranslation_transform, show (Trans3.ofTranslation x 0 0).transformDirection d = d by
      rw [Trans3.transformDirection_eq]; ext <;> simp [Trans3.rotGeneric, Trans3.ofTranslation], sub_zero]
  have faceOut : ∀ {s : ℝ}, s = 1 ∨ s = -1 → BoxSolid.distanceToOut ⟨1, 1, 1⟩ ⟨s, 0, 0⟩ ⟨s, 0, 0⟩ = 0 := by
    intro s hs
    unfold BoxSolid.distanceToOut
    have h2 := kHalfTolerance_pos
    rw [if_neg (by
      rcases hs with rfl | rfl <;> norm_num [V3.maxc] <;> exact h2.le)]
    have hz : 0 < VecGeom.nonZero 0 := nonZero_pos (le_refl _)
    have e : (((V3.sgn ⟨s, 0, 0⟩).mul ⟨1, 1, 1⟩ - ⟨s, 0, 0⟩).mul (V3.nonZero ⟨s, 0, 0⟩).inv) =
        ⟨0, 1 / VecGeom.nonZero 0, 1 / VecGeom.nonZero 0⟩ := by
      rcases hs with rfl | rfl <;> ext <;> norm_num [V3.mul, V3.inv, V3.sgn, VecGeom.sign, V3.nonZero]
    rw [e]
    have : 0 < 1 / VecGeom.nonZero 0 := by positivity
    unfold V3.minc
    dsimp only
    rw [min_eq_left this.le, min_eq_left this.le]
  cases r with
  | none =>
    have := h2 rfl (cubeAt 0 0 0) (by simp [hl])
    rw [s0] at this; cases this
  | some c =>
    have hu : ∀ d fuel, distanceToOut V fuel m ⟨1, 0, 0⟩ d 100 = outLoop m d 100 fuel (-kEps) 1 ⟨1, 0, 0⟩ (some c) := by
      intro d fuel
      unfold distanceToOut
      rw [er, Option.bind_some]
    obtain ⟨v, hv, -⟩ := h1 c rfl
    have hvl := List.mem_of_getElem? hv
    simp only [hl, List.mem_cons, List.not_mem_nil, or_false] at hvl
    rcases hvl with rfl | rfl
    · refine ⟨⟨1, 0, 0⟩, Or.inl rfl, fun fuel hf => ?_, fun u h0 h1 => ⟨cubeAt 2 0 0, by simp [hl], ?_⟩⟩
      · rw [hu]
        refine walk c _ _ hv ?_ fuel hf
        rw [cubeOut, show (1 : ℝ) - 0 = 1 by norm_num, faceOut (Or.inl rfl)]
      · rw [cubeAt_moved]
        refine ⟨?_, ?_, ?_⟩ <;> norm_num [V3.at'] <;> rw [abs_le] <;> constructor <;> linarith
    · refine ⟨⟨-1, 0, 0⟩, Or.inr rfl, fun fuel hf => ?_, fun u h0 h1 => ⟨cubeAt 0 0 0, by simp [hl], ?_⟩⟩
      · rw [hu]
        refine walk c _ _ hv ?_ fuel hf
        rw [cubeOut, show (1 : ℝ) - 2 = -1 by norm_num, faceOut (Or.inr rfl)]
      · rw [cubeAt_moved]
        refine ⟨?_, ?_, ?_⟩ <;> norm_num [V3.at'] <;> rw [abs_le] <;> constructor <;> linarith

/-! ## C114: the extent -/

/-- C114: the extent contains the boxes of all components, hence all points of the union, with a margin. -/
theorem C114_extent {V : Nat} {M : ℝ} {l : List Placed} (hT : ∀ v ∈ l, v.trans.Orthonormal) (X : Solid → Region)
    (hE : ∀ v ∈ l, ExtentOK v.solid (X v.solid)) {m : MU} (h : close V M (filled l) = some m) {p : V3} (hp : region X l p) :
    InBoxMargin m.ext (1 / 1000) p := by
  have e : m.ext = (filled l).ext := by
    unfold close at h
    obtain ⟨nb, -, hnb⟩ := Option.map_eq_some_iff.mp h
    rw [← hnb]
  obtain ⟨v, hv, hx⟩ := hp
  rw [Boolean.moved_iff (hT v hv)] at hx
  rw [e]
  exact ((foldl_ext l create).2 v hv).margin (C28_box_contains_point (hT v hv) (hE v hv _ hx))

example : (∀ v ∈ row, v.trans.Orthonormal) ∧ (∀ v ∈ row, ExtentOK v.solid (BoxSolid.Open ⟨1, 1, 1⟩)) ∧
    region (fun _ => BoxSolid.Open ⟨1, 1, 1⟩) row ⟨10, 0, 0⟩ := by
  refine ⟨fun v hv => (row_solid hv).2, fun v hv => ?_, cubeAt 10 0 0, by simp [row], ?_⟩
  · rw [(row_solid hv).1]; exact Boolean.box_extentOK _
  · rw [cubeAt_moved]
    norm_num [BoxSolid.Open]

/-- Finding: the box kept for `ApproachSolid` is the one of the empty union.  Whatever is added, every ray is reported to miss. -/
theorem C114_approach_counterexample {V : Nat} {M : ℝ} {l : List Placed} {m : MU} (h : close V M (filled l) = some m) {p d : V3}
    (hp : |p.x| < kInfLength ∧ |p.y| < kInfLength) (hd : Full d) : approachSolid m p d = kInfLength := by
  have e : m.bbox = startBox := by
    unfold close at h
    obtain ⟨nb, -, hnb⟩ := Option.map_eq_some_iff.mp h
    rw [← hnb]
    exact filled_bbox l
  have hk := kInfLength_pos
  obtain ⟨⟨px1, px2⟩, py1, py2⟩ := And.intro (abs_lt.mp hp.1) (abs_lt.mp hp.2)
  unfold approachSolid Box.approachSolid
  rw [e]
  have key : kernel2 startBox p d 0 kInfLength = kInfLength := by
    have hx : 0 < aX startBox p d := by
      unfold aX
      have hne : d.inv.x ≠ 0 := by show 1 / d.x ≠ 0; exact one_div_ne_zero hd.1
      generalize d.inv.x = i at *
      rcases lt_or_gt_of_ne hne with h1 | h1
      · rw [decide_eq_true h1]
        exact mul_pos_of_neg_of_neg (by show -kInfLength - p.x < 0; linarith) h1
      · rw [decide_eq_false (not_lt.mpr h1.le)]
        exact mul_pos (by show 0 < kInfLength - p.x; linarith) h1
    have hy : bY startBox p d < 0 := by
      unfold bY
      have hne : d.inv.y ≠ 0 := by show 1 / d.y ≠ 0; exact one_div_ne_zero hd.2.1
      generalize d.inv.y = i at *
      rcases lt_or_gt_of_ne hne with h1 | h1
      · rw [decide_eq_true h1]
        exact mul_neg_of_pos_of_neg (by show 0 < kInfLength - p.y; linarith) h1
      · rw [decide_eq_false (not_lt.mpr h1.le)]
        exact mul_neg_of_neg_of_pos (by show -kInfLength - p.y < 0; linarith) h1
    rw [kernel2_eq, if_pos]
    rw [decide_eq_true (show aX startBox p d > bY startBox p d by linarith)]
    simp
  unfold kernel2 at key
  rw [key, max_eq_left hk.le]

example : Full ⟨1, 1, 1⟩ ∧ ∃ m, close 4 1000000 (filled row) = some m ∧ approachSolid m ⟨-5, -5, -5⟩ ⟨1, 1, 1⟩ = kInfLength := by
  obtain ⟨m, e, -⟩ := C108_close 4 1000000 row
  have hf : Full ⟨1, 1, 1⟩ := by norm_num [Full]
  have hk : (1000000 : ℝ) ≤ kInfLength := le_kInfLength (le_refl _)
  refine ⟨hf, m, e, C114_approach_counterexample e ⟨?_, ?_⟩ hf⟩ <;> dsimp only <;> rw [abs_of_neg (by norm_num)] <;> linarith

end MultiUnion
end VecGeom
