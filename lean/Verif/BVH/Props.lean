import Verif.BVH.Walk

/-!
# Properties of the bounding volume hierarchy (C32 - C36)
-/

namespace VecGeom
namespace BVH

open AABB

/-! ## Samples for the non-vacuity examples -/

/-- A standard library: no sorting at all, stable partition, exact conversion, the conversion of x86. -/
def sampleStd : Std := ⟨fun _ l => l, fun p l => (l.filter p, l.filter (fun i => !p i)), id, -2147483648⟩

theorem sampleStd_ok : sampleStd.OK :=
  ⟨fun _ _ => List.Perm.refl _, fun p l => List.filter_append_perm p l, fun p l i hi => (List.mem_filter.mp hi).2,
    fun p l i hi => by simpa using (List.mem_filter.mp hi).2⟩

/-- Boxes `[10 i, 10 i + 1] × [-1, 1] × [-1, 1]`. -/
noncomputable def sampleBoxes (i : Nat) : Box := ⟨⟨10 * i, -1, -1⟩, ⟨10 * i + 1, 1, 1⟩⟩

/-! ## C32: construction -/

/-- C32: the constructor succeeds for at least one daughter and any requested depth from 1 to 29. -/
theorem C32_requested_depth (S : Std) (algo : Algo) {n : Nat} (hn : 0 < n) (boxes : Nat → Box) {depth : Int}
    (h1 : 1 ≤ depth) (h2 : depth < 30) : ∃ t, build S algo n boxes depth = some t ∧ t.depth = depth.toNat := by
  have e : chooseDepth S n depth = depth := by
    unfold chooseDepth maxDepth
    rw [if_pos (by omega)]
    omega
  unfold build
  rw [if_neg (by omega)]
  dsimp only
  rw [e, if_neg (by omega)]
  exact ⟨_, rfl, rfl⟩

/-- C32: with the default depth it succeeds for any number of daughters that an `int` can count, if the conversion of `-inf`
in the case of a single daughter gives a small number. -/
theorem C32_default_depth (S : Std) (algo : Algo) {n : Nat} (hn : 0 < n) (hmax : n < 2 ^ 31)
    (hcast : n = 1 → S.castNegInf < 30) (boxes : Nat → Box) :
    ∃ t, build S algo n boxes 0 = some t ∧ (1 < n → t.depth = Nat.log 2 (n / 2)) := by
  have hd : 0 ≤ chooseDepth S n 0 ∧ chooseDepth S n 0 < 30 ∧ (1 < n → chooseDepth S n 0 = (Nat.log 2 (n / 2) : Int)) := by
    unfold chooseDepth maxDepth
    rw [if_neg (by simp)]
    by_cases h : n / 2 = 0
    · rw [if_pos h]
      have := hcast (by omega)
      refine ⟨by omega, by omega, fun h' => by omega⟩
    · rw [if_neg h, Nat.log2_eq_log_two]
      have : Nat.log 2 (n / 2) < 30 := Nat.log_lt_of_lt_pow h (by omega)
      refine ⟨by omega, by omega, fun _ => by omega⟩
  unfold build
  rw [if_neg (by omega)]
  dsimp only
  rw [if_neg (by omega)]
  exact ⟨_, rfl, fun h => by rw [hd.2.2 h]; rfl⟩

example : 0 < 1000 ∧ 1000 < 2 ^ 31 ∧ (1000 = 1 → sampleStd.castNegInf < 30) ∧ Nat.log 2 (1000 / 2) = 8 :=
  ⟨by decide, by decide, fun h => by omega, Nat.log_eq_of_pow_le_of_lt_pow (by norm_num) (by norm_num)⟩

/-- C32: the depths 30 to 32, which the documentation of the constructor allows (`BVH_MAX_DEPTH` is 32), and larger ones,
which are cut down to 32, as well as negative ones make the computation of the number of nodes overflow. -/
theorem C32_depth_limit_counterexample (S : Std) (algo : Algo) (n : Nat) (boxes : Nat → Box) {depth : Int}
    (h : 30 ≤ depth ∨ depth < 0) : build S algo n boxes depth = none := by
  have e : chooseDepth S n depth < 0 ∨ chooseDepth S n depth ≥ 30 := by
    unfold chooseDepth maxDepth
    rw [if_pos (by omega)]
    omega
  unfold build
  split
  · rfl
  · dsimp only
    rw [if_pos e]

theorem leaves_walk {t : Tree} {k id f l : Nat} (h : Walk t k id f l) : leaves t (k + 1) id = seg t.arr.prim f l := by
  induction h with
  | @leaf k id f l h hfl hn ho =>
    rw [leaves, if_pos (by rw [hn]; omega), hn, ho]
    congr 1
    omega
  | @inner k id f l m hn h2 _ _ hfm hml _ _ ih1 ih2 =>
    rw [leaves, if_neg (by rw [hn]; omega), ih1, ih2, seg_cut hfm hml]

/-- C32: the leaves reached from the root contain every daughter exactly once, whatever splitting function, sorting and
partitioning are used. -/
theorem C32_partition {S : Std} (hS : S.OK) {algo : Algo} {n : Nat} {boxes : Nat → Box} {depth : Int} {t : Tree}
    (h : build S algo n boxes depth = some t) : (leaves t (t.depth + 1) 0).Perm (List.range n) := by
  have hb := build_built hS h
  have hn : t.n = n := (build_good hS h).choose_spec.2.2.2.1
  rw [leaves_walk hb.walk, hn]
  have hlen : t.arr.prim.length = n := by rw [hb.perm.length_eq, hn]; simp
  have : seg t.arr.prim 0 n = t.arr.prim := by unfold seg; simp [← hlen]
  rw [this, ← hn]
  exact hb.perm

example : ∃ t, build sampleStd .surfaceArea 100 sampleBoxes 0 = some t ∧ t.depth = 5 := by
  obtain ⟨t, h1, h2⟩ := C32_default_depth sampleStd .surfaceArea (n := 100) (by norm_num) (by norm_num) (by omega) sampleBoxes
  exact ⟨t, h1, by rw [h2 (by norm_num)]; exact Nat.log_eq_of_pow_le_of_lt_pow (by norm_num) (by norm_num)⟩

/-- The boxes of the children of an inner node lie in the box of the node, and each reached node describes a range. -/
theorem reached_good {t : Tree} {boxes : Nat → Box} {a : Arrays} {n : Nat} (g : Good boxes t.nodes a 0 0 n)
    (harr : t.arr = { a with nchild := mark a.nchild t.nodes }) {id : Nat} (h : Reached t id) :
    ∃ f l, Good boxes t.nodes a id f l := by
  have inner : ∀ {id f l}, Good boxes t.nodes a id f l → t.arr.nchild id < 0 →
      ∃ m, Good boxes t.nodes a (2 * id + 1) f m ∧ Good boxes t.nodes a (2 * id + 2) m l := by
    intro id f l hg hneg
    have hr := hg.rec'
    cases hg with
    | leaf h r e =>
      exfalso
      rw [harr] at hneg
      dsimp only at hneg
      unfold mark at hneg
      rw [mark_fold] at hneg
      split at hneg
      · rename_i hc
        rw [r.nchild] at hc
        omega
      · rw [r.nchild] at hneg
        have := r.le
        omega
    | inner m _ _ hl hr => exact ⟨m, hl, hr⟩
  induction h with
  | root => exact ⟨0, n, g⟩
  | left _ hneg ih =>
    obtain ⟨f, l, hg⟩ := ih
    obtain ⟨m, h1, -⟩ := inner hg hneg
    exact ⟨f, m, h1⟩
  | right _ hneg ih =>
    obtain ⟨f, l, hg⟩ := ih
    obtain ⟨m, -, h1⟩ := inner hg hneg
    exact ⟨m, l, h1⟩

/-- C32: the box of every node met in a traversal is the smallest box containing the boxes of all daughters below it. -/
theorem C32_node_boxes {S : Std} (hS : S.OK) {algo : Algo} {n : Nat} {boxes : Nat → Box} {depth : Int} {t : Tree}
    (h : build S algo n boxes depth = some t) {id : Nat} (hr : Reached t id) :
    (∀ i ∈ leaves t (t.depth + 1) id, Covers (t.arr.node id) (boxes i)) ∧
    (leaves t (t.depth + 1) id ≠ [] → ∀ c, (∀ i ∈ leaves t (t.depth + 1) id, Covers c (boxes i)) → Covers c (t.arr.node id)) := by
  obtain ⟨a, g, harr, hp, hn, hb, hnodes, hd, -⟩ := build_good hS h
  have hpos : 0 < 2 ^ t.depth := by positivity
  have hodd : t.nodes % 2 = 1 := by omega
  obtain ⟨f, l, hg⟩ := reached_good g harr hr
  have hw := hg.walk (n := n) (d := t.depth) hodd t.depth (by
    rw [hnodes, pow_succ]
    have : 2 ^ t.depth ≤ (id + 1) * 2 ^ t.depth := Nat.le_mul_of_pos_left _ (by omega)
    have e : (id + 1) * (2 ^ t.depth * 2) = 2 * ((id + 1) * 2 ^ t.depth) := by ring
    omega)
  have hlv : leaves t (t.depth + 1) id = seg a.prim f l := by
    have := leaves_walk hw
    obtain ⟨tn, taabb, tdepth, tnodes, tarr⟩ := t
    dsimp only at *
    subst harr hn hb
    exact this
  have hnode : t.arr.node = a.node := by rw [harr]
  rw [hlv, hnode]
  refine ⟨hg.rec'.covers, fun hne c hc => ?_⟩
  refine (hg.rec'.box ?_).2 c hc
  by_contra hcon
  have : f = l := le_antisymm hg.le (by omega)
  subst this
  exact hne (seg_self _ _)

example : ∃ t, build sampleStd .surfaceArea 100 sampleBoxes 3 = some t ∧ Reached t 0 := by
  obtain ⟨t, h1, _⟩ := C32_requested_depth sampleStd .surfaceArea (n := 100) (by norm_num) sampleBoxes (depth := 3)
    (by norm_num) (by norm_num)
  exact ⟨t, h1, .root⟩

theorem comp_lex (a b : V3) (axis : Nat) : less3D a b axis = true ↔
    comp a axis < comp b axis ∨ (comp a axis = comp b axis ∧
      (comp a ((axis + 1) % 3) < comp b ((axis + 1) % 3) ∨
        (comp a ((axis + 1) % 3) = comp b ((axis + 1) % 3) ∧ comp a ((axis + 2) % 3) < comp b ((axis + 2) % 3)))) := by
  simp [less3D]

/-- C32: the comparison passed to `std::sort` is a strict weak ordering, for every axis. -/
theorem C32_sorter_strict_weak (boxes : Nat → Box) (axis : Nat) : StrictWeak (sorter boxes axis) := by
  have lex : ∀ a b, sorter boxes axis a b = true ↔ _ := fun a b => comp_lex (sortKey (boxes a)) (sortKey (boxes b)) axis
  have lexf : ∀ a b, sorter boxes axis a b = false ↔ _ := fun a b => by rw [← Bool.not_eq_true, lex a b]
  refine ⟨fun a => ?_, fun a b h => ?_, fun a b c h1 h2 => ?_, fun a b c h1 h2 h3 h4 => ?_⟩
  · rw [lexf]; simp
  · rw [lex] at h
    rw [lexf]
    generalize comp (sortKey (boxes a)) axis = a1 at *
    generalize comp (sortKey (boxes b)) axis = b1 at *
    generalize comp (sortKey (boxes a)) ((axis + 1) % 3) = a2 at *
    generalize comp (sortKey (boxes b)) ((axis + 1) % 3) = b2 at *
    generalize comp (sortKey (boxes a)) ((axis + 2) % 3) = a3 at *
    generalize comp (sortKey (boxes b)) ((axis + 2) % 3) = b3 at *
    rintro (h' | ⟨e, h' | ⟨e', h'⟩⟩) <;> rcases h with h | ⟨g, h | ⟨g', h⟩⟩ <;> linarith
  · rw [lex] at h1 h2 ⊢
    generalize comp (sortKey (boxes a)) axis = a1 at *
    generalize comp (sortKey (boxes b)) axis = b1 at *
    generalize comp (sortKey (boxes c)) axis = c1 at *
    generalize comp (sortKey (boxes a)) ((axis + 1) % 3) = a2 at *
    generalize comp (sortKey (boxes b)) ((axis + 1) % 3) = b2 at *
    generalize comp (sortKey (boxes c)) ((axis + 1) % 3) = c2 at *
    generalize comp (sortKey (boxes a)) ((axis + 2) % 3) = a3 at *
    generalize comp (sortKey (boxes b)) ((axis + 2) % 3) = b3 at *
    generalize comp (sortKey (boxes c)) ((axis + 2) % 3) = c3 at *
    rcases h1 with h | ⟨rfl, h | ⟨rfl, h⟩⟩ <;> rcases h2 with k | ⟨rfl, k | ⟨rfl, k⟩⟩
    all_goals first
      | exact Or.inl (by linarith)
      | exact Or.inr ⟨rfl, Or.inl (by linarith)⟩
      | exact Or.inr ⟨rfl, Or.inr ⟨rfl, by linarith⟩⟩
  · rw [lexf] at h1 h2 h3 h4 ⊢
    rw [lexf]
    generalize comp (sortKey (boxes a)) axis = a1 at *
    generalize comp (sortKey (boxes b)) axis = b1 at *
    generalize comp (sortKey (boxes c)) axis = c1 at *
    generalize comp (sortKey (boxes a)) ((axis + 1) % 3) = a2 at *
    generalize comp (sortKey (boxes b)) ((axis + 1) % 3) = b2 at *
    generalize comp (sortKey (boxes c)) ((axis + 1) % 3) = c2 at *
    generalize comp (sortKey (boxes a)) ((axis + 2) % 3) = a3 at *
    generalize comp (sortKey (boxes b)) ((axis + 2) % 3) = b3 at *
    generalize comp (sortKey (boxes c)) ((axis + 2) % 3) = c3 at *
    push Not at h1 h2 h3 h4
    have e1 : a1 = b1 := le_antisymm h2.1 h1.1
    have e2 : b1 = c1 := le_antisymm h4.1 h3.1
    subst e1 e2
    have f1 : a2 = b2 := le_antisymm (h2.2 rfl).1 (h1.2 rfl).1
    have f2 : b2 = c2 := le_antisymm (h4.2 rfl).1 (h3.2 rfl).1
    subst f1 f2
    have g1 : a3 = b3 := le_antisymm ((h2.2 rfl).2 rfl) ((h1.2 rfl).2 rfl)
    have g2 : b3 = c3 := le_antisymm ((h4.2 rfl).2 rfl) ((h3.2 rfl).2 rfl)
    subst g1 g2
    simp

/-- C32 (finding): the term of the split metric that should prefer balanced splits is the same for every split, because of the
integer division. -/
theorem C32_balance_term_constant (left right : ℝ) {nObj k k' : Nat} (hk : k < nObj) (hk' : k' < nObj) :
    splitMetric left right nObj k - (left * k + right * ((nObj : ℝ) - k)) =
      splitMetric left right nObj k' - (left * k' + right * ((nObj : ℝ) - k')) := by
  unfold splitMetric
  rw [Nat.div_eq_of_lt hk, Nat.div_eq_of_lt hk']
  ring

theorem Covers.surfaceArea_le {a b : Box} (h : Covers a b) (hb : Valid b) : 0 ≤ b.surfaceArea ∧ b.surfaceArea ≤ a.surfaceArea := by
  obtain ⟨⟨h1, h2, h3⟩, h4, h5, h6⟩ := h
  obtain ⟨v1, v2, v3⟩ := hb
  unfold Box.surfaceArea Box.size
  simp only [V3.sub_x, V3.sub_y, V3.sub_z]
  have x0 : 0 ≤ b.hi.x - b.lo.x := by linarith
  have y0 : 0 ≤ b.hi.y - b.lo.y := by linarith
  have z0 : 0 ≤ b.hi.z - b.lo.z := by linarith
  have x1 : b.hi.x - b.lo.x ≤ a.hi.x - a.lo.x := by linarith
  have y1 : b.hi.y - b.lo.y ≤ a.hi.y - a.lo.y := by linarith
  have z1 : b.hi.z - b.lo.z ≤ a.hi.z - a.lo.z := by linarith
  refine ⟨by positivity, ?_⟩
  have m1 := mul_le_mul x1 y1 y0 (x0.trans x1)
  have m2 := mul_le_mul y1 z1 z0 (y0.trans y1)
  have m3 := mul_le_mul z1 x1 x0 (z0.trans z1)
  linarith

theorem valid_union {a b : Box} (ha : Valid a) : Valid (a.union b) := by
  have h := covers_union_left a b
  exact ⟨h.1.1.trans (ha.1.trans h.2.1), h.1.2.1.trans (ha.2.1.trans h.2.2.1), h.1.2.2.trans (ha.2.2.trans h.2.2.2)⟩

theorem sweepLeft_le {boxes : Nat → Box} {c : Box} : ∀ (l : List Nat) (b : Box), Valid b → Covers c b →
    (∀ i ∈ l, Covers c (boxes i)) → ∀ x ∈ sweepLeft boxes b l, 0 ≤ x ∧ x ≤ c.surfaceArea
  | [], _, _, _, _, x, hx => by simp [sweepLeft] at hx
  | i :: is, b, hv, hc, hl, x, hx => by
    rw [sweepLeft, List.mem_cons] at hx
    rcases hx with rfl | hx
    · exact hc.surfaceArea_le hv
    · exact sweepLeft_le is _ (valid_union hv) (covers_union hc (hl i (by simp))) (fun j hj => hl j (by simp [hj])) x hx

theorem sweepRight_le {boxes : Nat → Box} {c : Box} : ∀ (l : List Nat) (b : Box), Valid b → Covers c b →
    (∀ i ∈ l, Covers c (boxes i)) → ∀ x ∈ sweepRight boxes b l, 0 ≤ x ∧ x ≤ c.surfaceArea
  | [], _, _, _, _, x, hx => by simp [sweepRight] at hx
  | i :: is, b, hv, hc, hl, x, hx => by
    rw [sweepRight, List.mem_cons] at hx
    have hcu := covers_union hc (hl i (by simp))
    rcases hx with rfl | hx
    · exact hcu.surfaceArea_le (valid_union hv)
    · exact sweepRight_le is _ (valid_union hv) hcu (fun j hj => hl j (by simp [hj])) x hx

theorem sweepRight_last (boxes : Nat → Box) : ∀ (l : List Nat) (b : Box) (i : Nat),
    (sweepRight boxes b (i :: l)).getLast? = some ((i :: l).foldl (fun b j => b.union (boxes j)) b).surfaceArea
  | [], _, _ => rfl
  | k :: l, b, i => by
    have ih := sweepRight_last boxes l (b.union (boxes i)) k
    rw [sweepRight, sweepRight] at *
    rw [List.getLast?_cons_cons, ih]
    rfl

/-- C32: the assertions in the sweep of the surface area heuristic hold: for daughters with valid boxes all areas are
between zero and the area of the first entry, by which they are divided, and that is positive if the boxes have extent. -/
theorem C32_sweep_areas {boxes : Nat → Box} {l : List Nat} (hv : ∀ i ∈ l, Valid (boxes i)) {a : ℝ × ℝ} {as : List (ℝ × ℝ)}
    (h : sweepSurfaceArea boxes l = a :: as) :
    (∀ x ∈ a :: as, (0 ≤ x.1 ∧ x.1 ≤ a.2) ∧ 0 ≤ x.2 ∧ x.2 ≤ a.2) ∧ (∀ i ∈ l, (boxes i).surfaceArea ≤ a.2) := by
  unfold sweepSurfaceArea at h
  split at h
  · rename_i i is k ks heq
    have hk : k ∈ i :: is := by rw [← List.mem_reverse, heq]; simp
    have hcov := foldl_union_covers boxes (k :: ks) (boxes k)
    generalize hB : (k :: ks).foldl (fun b j => b.union (boxes j)) (boxes k) = B at hcov
    have hall : ∀ j ∈ i :: is, Covers B (boxes j) := fun j hj => hcov.2 j (by rw [← heq, List.mem_reverse]; exact hj)
    have htot : a.2 = B.surfaceArea := by
      have hl := sweepRight_last boxes ks (boxes k) k
      rw [← List.head?_reverse] at hl
      generalize (sweepRight boxes (boxes k) (k :: ks)).reverse = R at h hl
      cases R with
      | nil => simp at h
      | cons r rs =>
        rw [List.zip_cons_cons] at h
        injection h with h1 _
        rw [List.head?_cons, hB] at hl
        injection hl with hl
        rw [← h1, ← hl]
    rw [htot]
    refine ⟨fun x hx => ?_, fun j hj => ((hall j hj).surfaceArea_le (hv j hj)).2⟩
    rw [← h] at hx
    obtain ⟨x1, x2⟩ := x
    obtain ⟨m1, m2⟩ := List.of_mem_zip hx
    have h2 := sweepRight_le (k :: ks) (boxes k) (hv k hk) hcov.1 hcov.2 x2 (by simpa using m2)
    refine ⟨?_, h2⟩
    rcases List.mem_cons.mp m1 with rfl | m1
    · exact ⟨le_refl _, h2.1.trans h2.2⟩
    · exact sweepLeft_le is (boxes i) (hv i (by simp)) (hall i (by simp)) (fun j hj => hall j (by simp [hj])) x1 m1
  · cases h

example : (∀ i ∈ [2, 0, 1], Valid (sampleBoxes i)) ∧ ∃ a as, sweepSurfaceArea sampleBoxes [2, 0, 1] = a :: as ∧ as.length = 2 := by
  refine ⟨fun i _ => ⟨by simp [sampleBoxes], by norm_num [sampleBoxes], by norm_num [sampleBoxes]⟩, _, _, rfl, rfl⟩

/-! ## C33: search for the next daughter -/

theorem mem_pushOrder {rFirst l r : Bool} {id c : Nat} :
    c ∈ pushOrder rFirst l r id ↔ (l = true ∧ c = 2 * id + 1) ∨ (r = true ∧ c = 2 * id + 2) := by
  cases rFirst <;> cases l <;> cases r <;> simp [pushOrder, or_comm]

theorem pushOrder_form (rFirst l r : Bool) (id : Nat) : pushOrder rFirst l r id = [] ∨
    pushOrder rFirst l r id = [2 * id + 1] ∨ pushOrder rFirst l r id = [2 * id + 2] ∨
    pushOrder rFirst l r id = [2 * id + 1, 2 * id + 2] ∨ pushOrder rFirst l r id = [2 * id + 2, 2 * id + 1] := by
  cases rFirst <;> cases l <;> cases r <;> simp [pushOrder]

theorem at_zero (p d : V3) : V3.at' p d 0 = p := by ext <;> simp

/-- The box test succeeds if the ray is in the box at a parameter below the step and the box is not behind. -/
theorem ray_test {b : Box} {p d : V3} {T step : ℝ} (hT : T < step) (hin : InBox b (V3.at' p d.nonZero T))
    (hpos : 0 ≤ T ∨ InBox b p) :
    let t := b.computeIntersectionInvDir p d.nonZero.inv
    t.1 ≤ t.2 ∧ t.2 ≥ 0 ∧ t.1 < step := by
  intro t
  have hs := stretch_pos
  have heps := kEpsilon_pos
  obtain ⟨h1, h2⟩ := (C30_interval hin.valid p d T).mp hin
  have e : b.computeIntersection p d = t := rfl
  rw [e] at h1 h2
  rcases hpos with h0 | h0
  · have : T ≤ T * (1 + 2 * kEpsilon) := by nlinarith
    exact ⟨by linarith, by linarith, by linarith⟩
  · have h0' : InBox b (V3.at' p d.nonZero 0) := by rw [at_zero]; exact h0
    obtain ⟨h3, h4⟩ := (C30_interval hin.valid p d 0).mp h0'
    rw [e] at h3 h4
    exact ⟨by linarith, by linarith, by linarith⟩

/-- Not to be reported: the last volume at a distance that is not positive. -/
def Ignored (last : Option Nat) (T : Nat → ℝ) (i : Nat) : Prop := T i ≤ 0 ∧ last = some i

/-- `dist i step` is a distance function of daughter `i` with value `T i` as long as it is below the step. -/
def DistOK (n : Nat) (dist : Nat → ℝ → ℝ) (T : Nat → ℝ) (step0 : ℝ) : Prop :=
  ∀ i, i < n → ∀ s, s ≤ step0 → (T i < s → dist i s = T i) ∧ (s ≤ T i → s ≤ dist i s)

/-- A general form of the search: `Neg s` tells which steps end the search. -/
theorem hit_actions {t : Tree} {p d : V3} {dist : Nat → ℝ → ℝ} {T : Nat → ℝ} {last hit0 : Option Nat} {step0 : ℝ}
    (hd : DistOK t.n dist T step0) (Neg : ℝ → Prop) (hneg : ∀ s s', s' ≤ s → Neg s → Neg s')
    (htest : ∀ i, i < t.n → ¬ Ignored last T i → ∀ s, s ≤ step0 → T i < s → ¬ Neg s → ∀ b, Covers b (t.aabb i) →
      let x := b.computeIntersectionInvDir p d.nonZero.inv
      x.1 ≤ x.2 ∧ x.2 ≥ 0 ∧ x.1 < s) :
    Actions t (hitVisit t p d.nonZero.inv dist last) (fun s id => rayPush t p d.nonZero.inv s.1 id)
      (fun s => s.1 ≤ step0 ∧ (s = (step0, hit0) ∨
        ∃ i, i < t.n ∧ s = (T i, some i) ∧ T i < step0 ∧ ¬ Ignored last T i))
      (fun s i => ¬ Ignored last T i → s.1 ≤ T i ∨ Neg s.1) (fun _ => False) := by
  refine ⟨?_, ?_, ?_, ?_⟩
  · rintro s i ⟨hle, hI⟩ hi -
    unfold hitVisit
    by_cases hb : (t.aabb i).intersectInvDirStep p d.nonZero.inv s.1 = true
    · rw [if_pos hb]
      dsimp only
      by_cases hT : T i < s.1
      · rw [((hd i hi s.1 hle).1 hT)]
        by_cases hig : T i ≤ 0 ∧ last = some i
        · rw [if_neg (by tauto)]
          exact ⟨⟨hle, hI⟩, fun h => absurd hig h, fun _ h => h⟩
        · rw [if_pos ⟨hT, hig⟩]
          refine ⟨⟨by dsimp only; linarith, Or.inr ⟨i, hi, rfl, by linarith, hig⟩⟩, fun _ => Or.inl (le_refl _), ?_⟩
          intro j hj hjn
          rcases hj hjn with h | h
          · exact Or.inl (by dsimp only; linarith)
          · exact Or.inr (hneg _ _ (by dsimp only; linarith) h)
      · have := (hd i hi s.1 hle).2 (not_lt.mp hT)
        rw [if_neg (by intro h; linarith [h.1])]
        exact ⟨⟨hle, hI⟩, fun _ => Or.inl (not_lt.mp hT), fun _ h => h⟩
    · rw [if_neg hb]
      refine ⟨⟨hle, hI⟩, fun hig => ?_, fun _ h => h⟩
      by_contra hcon
      push Not at hcon
      have := htest i hi hig s.1 hle hcon.1 hcon.2 (t.aabb i) (Covers.refl _)
      apply hb
      simp only [Box.intersectInvDirStep, decide_eq_true_eq]
      exact this
  · intro s i _ _ h
    unfold hitVisit at h
    split at h
    · dsimp only at h
      split at h <;> simp at h
    · simp at h
  · intro s id _
    exact pushOrder_form _ _ _ _
  · rintro s id c ⟨hle, -⟩ hc hn i hi hcov hig
    by_contra hcon
    push Not at hcon
    have := htest i hi hig s.1 hle hcon.1 hcon.2 _ hcov
    apply hn
    unfold rayPush
    rw [mem_pushOrder]
    rcases hc with rfl | rfl
    · exact Or.inl ⟨decide_eq_true this, rfl⟩
    · exact Or.inr ⟨decide_eq_true this, rfl⟩

/-- C33: the search through the hierarchy finds what an exhaustive search over all daughters finds.  The step becomes the
smallest of the old step and the distances of the daughters (leaving out the last volume at a distance that is not
positive); the candidate is a daughter at that distance, and unchanged if the step is.  Hypothesis on the daughters:
the point at which the ray (with the direction used by the box tests) meets a daughter lies in its box, and if that
point is behind, so does the start. -/
theorem C33_hit {S : Std} (hS : S.OK) {algo : Algo} {n : Nat} {boxes : Nat → Box} {depth : Int} {t : Tree}
    (h : build S algo n boxes depth = some t) {p d : V3} {dist : Nat → ℝ → ℝ} {T : Nat → ℝ} {step0 : ℝ}
    (last hit0 : Option Nat) (hd : DistOK n dist T step0)
    (hbox : ∀ i, i < n → ¬ Ignored last T i → T i < step0 →
      InBox (boxes i) (V3.at' p d.nonZero (T i)) ∧ (0 ≤ T i ∨ InBox (boxes i) p)) :
    ∃ step hit, checkDaughterIntersections t p d dist last step0 hit0 = some (step, hit) ∧
      step ≤ step0 ∧ (∀ i, i < n → ¬ Ignored last T i → step ≤ T i) ∧
      ((step = step0 ∧ hit = hit0) ∨ ∃ i, i < n ∧ hit = some i ∧ step = T i ∧ T i < step0 ∧ ¬ Ignored last T i) := by
  have hb := build_built hS h
  obtain ⟨a, -, -, -, hn, hbx, -⟩ := build_good hS h
  have hA := hit_actions (t := t) (p := p) (d := d) (hit0 := hit0) (last := last) (by rw [hn]; exact hd) (fun _ => False)
    (fun _ _ _ h => h) (by
      intro i hi hig s hs hT _ b hcov
      rw [hn] at hi
      rw [hbx] at hcov
      obtain ⟨h1, h2⟩ := hbox i hi hig (by linarith)
      exact ray_test hT (hcov.inBox h1) (h2.imp_right hcov.inBox))
  obtain ⟨s', e, hf | ⟨⟨h1, h2⟩, h3⟩⟩ := traverse_root hb hA (lim := maxDepth) (by have := hb.depth; unfold maxDepth; omega)
    (s := (step0, hit0)) ⟨le_refl _, Or.inl rfl⟩
  · exact hf.elim
  · refine ⟨s'.1, s'.2, e, h1, fun i hi hig => ?_, ?_⟩
    · simpa using h3 i (by omega) hig
    · rcases h2 with h2 | ⟨i, hi, h2, h4, h5⟩
      · left; rw [h2]; exact ⟨rfl, rfl⟩
      · right; exact ⟨i, by omega, by rw [h2], by rw [h2], h4, h5⟩

/-- The hypotheses of `C33_hit` hold for a row of boxes hit by a ray along the row. -/
example : ∃ t, build sampleStd .surfaceArea 100 sampleBoxes 0 = some t ∧
    DistOK 100 (fun i _ => 5 + 10 * i) (fun i => 5 + 10 * i) 1000 ∧
    ∀ i, i < 100 → ¬ Ignored none (fun i => 5 + 10 * (i : ℝ)) i → 5 + 10 * (i : ℝ) < 1000 →
      InBox (sampleBoxes i) (V3.at' ⟨-5, 0, 0⟩ (V3.nonZero ⟨1, 0, 0⟩) (5 + 10 * i)) ∧
        (0 ≤ 5 + 10 * (i : ℝ) ∨ InBox (sampleBoxes i) ⟨-5, 0, 0⟩) := by
  obtain ⟨t, h1, -⟩ := C32_default_depth sampleStd .surfaceArea (n := 100) (by norm_num) (by norm_num) (by omega) sampleBoxes
  refine ⟨t, h1, fun i _ s _ => ⟨fun _ => rfl, fun h => h⟩, fun i hi _ _ => ?_⟩
  have h0 : (0 : ℝ) ≤ i := Nat.cast_nonneg i
  have h9 : (i : ℝ) ≤ 100 := by exact_mod_cast hi.le
  have hk : kTiny ≤ 1 / 10 ^ 6 := by unfold kTiny; norm_num
  have hk0 := kTiny_pos
  refine ⟨?_, Or.inl (by linarith)⟩
  simp only [InBox, sampleBoxes, V3.at_x, V3.at_y, V3.at_z, V3.nonZero_x, V3.nonZero_y, V3.nonZero_z, nonZero, copySign]
  rw [if_neg (by norm_num), if_neg (by norm_num)]
  refine ⟨⟨?_, ?_⟩, ⟨?_, ?_⟩, ⟨?_, ?_⟩⟩ <;> nlinarith

/-- C33: the same for daughters given by placement and extent, and for the true ray: the boxes are those of the bounding box
manager, each daughter is met at a point whose local coordinates lie in its extent, at a path length up to `1e27`. -/
theorem C33_hit_placed {S : Std} (hS : S.OK) {algo : Algo} {n : Nat} {tr : Nat → Trans3} {ext : Nat → Box} {depth : Int}
    {t : Tree} (h : build S algo n (fun i => computeABBox (tr i) (ext i)) depth = some t)
    (horth : ∀ i, i < n → (tr i).Orthonormal) {p d : V3} {dist : Nat → ℝ → ℝ} {T : Nat → ℝ} {step0 : ℝ}
    (last hit0 : Option Nat) (hd : DistOK n dist T step0)
    (hmeet : ∀ i, i < n → ¬ Ignored last T i → T i < step0 →
      0 ≤ T i ∧ T i ≤ 10 ^ 27 ∧ InBox (ext i) ((tr i).transform (V3.at' p d (T i)))) :
    ∃ step hit, checkDaughterIntersections t p d dist last step0 hit0 = some (step, hit) ∧
      step ≤ step0 ∧ (∀ i, i < n → ¬ Ignored last T i → step ≤ T i) ∧
      ((step = step0 ∧ hit = hit0) ∨ ∃ i, i < n ∧ hit = some i ∧ step = T i ∧ T i < step0 ∧ ¬ Ignored last T i) := by
  refine C33_hit hS h last hit0 hd (fun i hi hig hT => ?_)
  obtain ⟨h1, h2, h3⟩ := hmeet i hi hig hT
  have hm := C28_box_contains_point (horth i hi) h3
  refine ⟨(C30_never_misses_true_ray h1 ?_ hm).1, Or.inl h1⟩
  unfold kTiny
  rw [mul_one_div, div_le_iff₀ (by positivity)]
  refine h2.trans (by norm_num)

example : ∃ t, build sampleStd .surfaceArea 3 (fun _ => computeABBox Trans3.sample sampleExt) 0 = some t ∧
    (∀ i, i < 3 → Trans3.sample.Orthonormal) ∧
    InBox sampleExt (Trans3.sample.transform (V3.at' ⟨0, 2, 4⟩ ⟨1, 0, 0⟩ 1)) := by
  obtain ⟨t, h1, -⟩ := C32_default_depth sampleStd .surfaceArea (n := 3) (by norm_num) (by norm_num) (by omega)
    (fun _ => computeABBox Trans3.sample sampleExt)
  refine ⟨t, h1, fun _ _ => Trans3.sample_orthonormal, ?_⟩
  rw [Trans3.transform_eq]
  norm_num [InBox, sampleExt, Trans3.sample, Trans3.rotGeneric, Trans3.doTranslation, V3.at', V3.smul, V3.add_x]

/-- C33: a daughter that reports a negative distance because the start lies inside it (whatever the number) is not overlooked:
then the result is negative and belongs to such a daughter.  Otherwise the result is that of the exhaustive
search. -/
theorem C33_inside {S : Std} (hS : S.OK) {algo : Algo} {n : Nat} {boxes : Nat → Box} {depth : Int} {t : Tree}
    (h : build S algo n boxes depth = some t) {p d : V3} {dist : Nat → ℝ → ℝ} {T : Nat → ℝ} {step0 m : ℝ} (hm : 0 < m)
    (last hit0 : Option Nat) (hd : DistOK n dist T step0)
    (hbox : ∀ i, i < n → ¬ Ignored last T i → T i < step0 →
      (0 ≤ T i → InBox (boxes i) (V3.at' p d.nonZero (T i))) ∧ (T i < 0 → InBoxMargin (boxes i) m p)) :
    ∃ step hit, checkDaughterIntersections t p d dist last step0 hit0 = some (step, hit) ∧ step ≤ step0 ∧
      ((∀ i, i < n → ¬ Ignored last T i → step ≤ T i) ∨ step < 0) ∧
      ((step = step0 ∧ hit = hit0) ∨ ∃ i, i < n ∧ hit = some i ∧ step = T i ∧ T i < step0 ∧ ¬ Ignored last T i) := by
  have hb := build_built hS h
  obtain ⟨a, -, -, -, hn, hbx, -⟩ := build_good hS h
  have hA := hit_actions (t := t) (p := p) (d := d) (hit0 := hit0) (last := last) (by rw [hn]; exact hd) (fun s => s < 0)
    (fun s s' h h' => by linarith) (by
      intro i hi hig s hs hT hns b hcov
      rw [hn] at hi
      rw [hbx] at hcov
      obtain ⟨h1, h2⟩ := hbox i hi hig (by linarith)
      rcases lt_or_ge (T i) 0 with hneg | hpos
      · have hin := h2 hneg
        -- a point a little behind the start is still in the box
        set w := 1 + |VecGeom.nonZero d.x| + |VecGeom.nonZero d.y| + |VecGeom.nonZero d.z| with hw
        have ax := abs_nonneg (VecGeom.nonZero d.x)
        have ay := abs_nonneg (VecGeom.nonZero d.y)
        have az := abs_nonneg (VecGeom.nonZero d.z)
        have hwpos : 0 < w := by linarith
        have hstep : 0 < m / w := by positivity
        have small : ∀ x : ℝ, |x| ≤ w → -m ≤ -(m / w) * x ∧ -(m / w) * x ≤ m := by
          intro x hx
          have e : m / w * w = m := by field_simp
          have := mul_le_mul_of_nonneg_left hx hstep.le
          rw [e] at this
          have h1 := mul_le_mul_of_nonneg_left (le_abs_self x) hstep.le
          have h2 := mul_le_mul_of_nonneg_left (neg_abs_le x) hstep.le
          constructor <;> linarith
        obtain ⟨bx1, bx2⟩ := small _ (by linarith : |VecGeom.nonZero d.x| ≤ w)
        obtain ⟨by1, by2⟩ := small _ (by linarith : |VecGeom.nonZero d.y| ≤ w)
        obtain ⟨bz1, bz2⟩ := small _ (by linarith : |VecGeom.nonZero d.z| ≤ w)
        obtain ⟨⟨c1, c2⟩, ⟨c3, c4⟩, ⟨c5, c6⟩⟩ := hin
        have hback : InBox (boxes i) (V3.at' p d.nonZero (-(m / w))) := by
          refine ⟨⟨?_, ?_⟩, ⟨?_, ?_⟩, ⟨?_, ?_⟩⟩ <;>
            simp only [V3.at_x, V3.at_y, V3.at_z, V3.nonZero_x, V3.nonZero_y, V3.nonZero_z] <;> linarith
        have hp : InBox (boxes i) p :=
          ⟨⟨by linarith, by linarith⟩, ⟨by linarith, by linarith⟩, ⟨by linarith, by linarith⟩⟩
        exact ray_test (by linarith [not_lt.mp hns]) (hcov.inBox hback) (Or.inr (hcov.inBox hp))
      · exact ray_test hT (hcov.inBox (h1 hpos)) (Or.inl hpos))
  obtain ⟨s', e, hf | ⟨⟨h1, h2⟩, h3⟩⟩ := traverse_root hb hA (lim := maxDepth) (by have := hb.depth; unfold maxDepth; omega)
    (s := (step0, hit0)) ⟨le_refl _, Or.inl rfl⟩
  · exact hf.elim
  · refine ⟨s'.1, s'.2, e, h1, ?_, ?_⟩
    · by_cases hs : s'.1 < 0
      · exact Or.inr hs
      · exact Or.inl (fun i hi hig => (h3 i (by omega) hig).resolve_right hs)
    · rcases h2 with h2 | ⟨i, hi, h2, h4, h5⟩
      · left; rw [h2]; exact ⟨rfl, rfl⟩
      · right; exact ⟨i, by omega, by rw [h2], by rw [h2], h4, h5⟩

example : ∃ t, build sampleStd .surfaceArea 100 sampleBoxes 0 = some t ∧ InBoxMargin (sampleBoxes 1) (1 / 10) ⟨10.5, 0, 0⟩ ∧
    DistOK 100 (fun i _ => if i = 1 then -1 else 1000) (fun i => if i = 1 then -1 else 1000) 1000 := by
  obtain ⟨t, h1, -⟩ := C32_default_depth sampleStd .surfaceArea (n := 100) (by norm_num) (by norm_num) (by omega) sampleBoxes
  exact ⟨t, h1, by norm_num [InBoxMargin, sampleBoxes], fun i _ s _ => ⟨fun _ => rfl, fun h => h⟩⟩

/-- C33: the search for the closest bounding solid gives the smallest of the step and the approach distances. -/
theorem C33_approach {S : Std} (hS : S.OK) {algo : Algo} {n : Nat} {boxes : Nat → Box} {depth : Int} {t : Tree}
    (h : build S algo n boxes depth = some t) {p d : V3} {T : Nat → ℝ} {step0 : ℝ} (last : Option Nat)
    (hbox : ∀ i, i < n → ¬ Ignored last T i → T i < step0 →
      InBox (boxes i) (V3.at' p d.nonZero (T i)) ∧ (0 ≤ T i ∨ InBox (boxes i) p)) :
    ∃ step, approachNextDaughter t p d T last step0 = some step ∧
      step ≤ step0 ∧ (∀ i, i < n → ¬ Ignored last T i → step ≤ T i) ∧
      (step = step0 ∨ ∃ i, i < n ∧ step = T i ∧ ¬ Ignored last T i) := by
  have hb := build_built hS h
  obtain ⟨a, -, -, -, hn, hbx, -⟩ := build_good hS h
  have hA : Actions t (approachVisit t p d.nonZero.inv T last) (fun s id => rayPush t p d.nonZero.inv s id)
      (fun s => s ≤ step0 ∧ (s = step0 ∨ ∃ i, i < t.n ∧ s = T i ∧ ¬ Ignored last T i))
      (fun s i => ¬ Ignored last T i → s ≤ T i) (fun _ => False) := by
    have htest : ∀ i, i < t.n → ¬ Ignored last T i → ∀ s, s ≤ step0 → T i < s → ∀ b, Covers b (t.aabb i) →
        let x := b.computeIntersectionInvDir p d.nonZero.inv
        x.1 ≤ x.2 ∧ x.2 ≥ 0 ∧ x.1 < s := by
      intro i hi hig s hs hT b hcov
      rw [hn] at hi
      rw [hbx] at hcov
      obtain ⟨h1, h2⟩ := hbox i hi hig (by linarith)
      exact ray_test hT (hcov.inBox h1) (h2.imp_right hcov.inBox)
    refine ⟨?_, ?_, ?_, ?_⟩
    · rintro s i ⟨hle, hI⟩ hi -
      unfold approachVisit
      by_cases hb : (t.aabb i).intersectInvDirStep p d.nonZero.inv s = true
      · rw [if_pos hb]
        dsimp only
        by_cases hT : T i < s ∧ ¬ (T i ≤ 0 ∧ last = some i)
        · rw [if_pos hT]
          refine ⟨⟨by dsimp only; linarith [hT.1], Or.inr ⟨i, hi, rfl, hT.2⟩⟩, fun _ => le_refl _, ?_⟩
          intro j hj hjn
          have := hj hjn
          dsimp only; linarith [hT.1]
        · rw [if_neg hT]
          refine ⟨⟨hle, hI⟩, fun hig => ?_, fun _ h => h⟩
          by_contra hcon
          exact hT ⟨not_le.mp hcon, hig⟩
      · rw [if_neg hb]
        refine ⟨⟨hle, hI⟩, fun hig => ?_, fun _ h => h⟩
        by_contra hcon
        have := htest i hi hig s hle (not_le.mp hcon) (t.aabb i) (Covers.refl _)
        apply hb
        simp only [Box.intersectInvDirStep, decide_eq_true_eq]
        exact this
    · intro s i _ _ h
      unfold approachVisit at h
      split at h
      · dsimp only at h
        split at h <;> simp at h
      · simp at h
    · intro s id _
      exact pushOrder_form _ _ _ _
    · rintro s id c ⟨hle, -⟩ hc hn i hi hcov hig
      by_contra hcon
      have := htest i hi hig s hle (not_le.mp hcon) _ hcov
      apply hn
      unfold rayPush
      rw [mem_pushOrder]
      rcases hc with rfl | rfl
      · exact Or.inl ⟨decide_eq_true this, rfl⟩
      · exact Or.inr ⟨decide_eq_true this, rfl⟩
  obtain ⟨s', e, hf | ⟨⟨h1, h2⟩, h3⟩⟩ := traverse_root hb hA (lim := maxDepth) (by have := hb.depth; unfold maxDepth; omega)
    (s := step0) ⟨le_refl _, Or.inl rfl⟩
  · exact hf.elim
  · refine ⟨s', e, h1, fun i hi hig => h3 i (by omega) hig, h2.imp_right ?_⟩
    rintro ⟨i, hi, h4, h5⟩
    exact ⟨i, by omega, h4, h5⟩

example : InBox (sampleBoxes 3) (V3.at' ⟨-5, 0, 0⟩ (V3.nonZero ⟨1, 0, 0⟩) 35) := by
  have hk : kTiny ≤ 1 / 10 ^ 6 := by unfold kTiny; norm_num
  have hk0 := kTiny_pos
  simp only [InBox, sampleBoxes, V3.at_x, V3.at_y, V3.at_z, V3.nonZero_x, V3.nonZero_y, V3.nonZero_z, nonZero, copySign]
  rw [if_neg (by norm_num), if_neg (by norm_num)]
  refine ⟨⟨?_, ?_⟩, ⟨?_, ?_⟩, ⟨?_, ?_⟩⟩ <;> norm_num <;> linarith

/-! ## C34: safety -/

theorem safety_eq (b : Box) (p : V3) : b.safety p =
    max (max (max (b.lo.x - p.x) (p.x - b.hi.x)) (max (b.lo.y - p.y) (p.y - b.hi.y))) (max (b.lo.z - p.z) (p.z - b.hi.z)) := by
  have ax : ∀ lo hi x : ℝ, |x - 1 / 2 * (hi + lo)| - 1 / 2 * (hi - lo) = max (lo - x) (x - hi) := by
    intro lo hi x
    rw [abs_eq_max_neg, max_comm]
    rcases max_choice (-(x - 1 / 2 * (hi + lo))) (x - 1 / 2 * (hi + lo)) with h | h
    · rw [h]
      have := le_max_right (-(x - 1 / 2 * (hi + lo))) (x - 1 / 2 * (hi + lo))
      rw [h] at this
      rw [max_eq_left (by linarith)]; ring
    · rw [h]
      have := le_max_left (-(x - 1 / 2 * (hi + lo))) (x - 1 / 2 * (hi + lo))
      rw [h] at this
      rw [max_eq_right (by linarith)]; ring
  unfold Box.safety Box.center Box.size V3.maxc
  simp only [V3.sub_x, V3.sub_y, V3.sub_z, V3.vabs_x, V3.vabs_y, V3.vabs_z, V3.smul_x, V3.smul_y, V3.smul_z, V3.add_x,
    V3.add_y, V3.add_z, ax]

theorem Covers.safety_le {a b : Box} (h : Covers a b) (p : V3) : a.safety p ≤ b.safety p := by
  rw [safety_eq, safety_eq]
  obtain ⟨⟨h1, h2, h3⟩, h4, h5, h6⟩ := h
  refine max_le_max (max_le_max (max_le_max ?_ ?_) (max_le_max ?_ ?_)) (max_le_max ?_ ?_) <;> linarith

/-- C34: the safety search gives the given bound or the safety of some daughter; it is never above the bound, and for every
daughter not above its safety or not above the distance to its box. -/
theorem C34_safety {S : Std} (hS : S.OK) {algo : Algo} {n : Nat} {boxes : Nat → Box} {depth : Int} {t : Tree}
    (h : build S algo n boxes depth = some t) (p : V3) (safetyToIn : Nat → ℝ) (s0 : ℝ) :
    ∃ s, computeSafety t p safetyToIn s0 = some s ∧ s ≤ s0 ∧ (s = s0 ∨ ∃ i, i < n ∧ s = safetyToIn i) ∧
      ∀ i, i < n → s ≤ safetyToIn i ∨ s ≤ (boxes i).safety p := by
  have hb := build_built hS h
  obtain ⟨a, -, -, -, hn, hbx, -⟩ := build_good hS h
  have hA : Actions t (safetyVisit t p safetyToIn) (fun s id => safetyPush t p s id)
      (fun s => s ≤ s0 ∧ (s = s0 ∨ ∃ i, i < t.n ∧ s = safetyToIn i))
      (fun s i => s ≤ safetyToIn i ∨ s ≤ (t.aabb i).safety p) (fun _ => False) := by
    refine ⟨?_, ?_, ?_, ?_⟩
    · rintro s i ⟨hle, hI⟩ hi -
      unfold safetyVisit
      by_cases h1 : (t.aabb i).safety p < s
      · rw [if_pos h1]
        dsimp only
        by_cases h2 : safetyToIn i < s
        · rw [if_pos h2]
          refine ⟨⟨by dsimp only; linarith, Or.inr ⟨i, hi, rfl⟩⟩, Or.inl (le_refl _), fun j hj => ?_⟩
          exact hj.imp (fun h => by dsimp only; linarith) (fun h => by dsimp only; linarith)
        · rw [if_neg h2]
          exact ⟨⟨hle, hI⟩, Or.inl (not_lt.mp h2), fun _ h => h⟩
      · rw [if_neg h1]
        exact ⟨⟨hle, hI⟩, Or.inr (not_lt.mp h1), fun _ h => h⟩
    · intro s i _ _ h
      unfold safetyVisit at h
      split at h
      · dsimp only at h
        split at h <;> simp at h
      · simp at h
    · intro s id _
      exact pushOrder_form _ _ _ _
    · rintro s id c - hc hn i hi hcov
      right
      by_contra hcon
      have hlt : (t.arr.node c).safety p < s := lt_of_le_of_lt (hcov.safety_le p) (not_le.mp hcon)
      apply hn
      unfold safetyPush
      rw [mem_pushOrder]
      rcases hc with rfl | rfl
      · exact Or.inl ⟨decide_eq_true hlt, rfl⟩
      · exact Or.inr ⟨decide_eq_true hlt, rfl⟩
  obtain ⟨s', e, hf | ⟨⟨h1, h2⟩, h3⟩⟩ := traverse_root hb hA (lim := maxDepth) (by have := hb.depth; unfold maxDepth; omega)
    (s := s0) ⟨le_refl _, Or.inl rfl⟩
  · exact hf.elim
  · refine ⟨s', e, h1, h2.imp_right ?_, fun i hi => ?_⟩
    · rintro ⟨i, hi, h4⟩
      exact ⟨i, by omega, h4⟩
    · have := h3 i (by omega)
      rwa [hbx] at this

/-- C34: the result is a safety: if the safety of each daughter does not exceed the distance to any of its points, and these
points lie in its box, then neither does the result. -/
theorem C34_lower_bound {S : Std} (hS : S.OK) {algo : Algo} {n : Nat} {boxes : Nat → Box} {depth : Int} {t : Tree}
    (h : build S algo n boxes depth = some t) {p : V3} {safetyToIn : Nat → ℝ} {vol : Nat → V3 → Prop} {s0 s : ℝ}
    (hs : computeSafety t p safetyToIn s0 = some s)
    (hin : ∀ i, i < n → ∀ q, vol i q → InBox (boxes i) q)
    (hlow : ∀ i, i < n → ∀ q, vol i q → safetyToIn i ≤ V3.dist p q) :
    ∀ i, i < n → ∀ q, vol i q → s ≤ V3.dist p q := by
  intro i hi q hq
  obtain ⟨s', e, -, -, hb⟩ := C34_safety hS h p safetyToIn s0
  rw [hs] at e
  injection e with e
  subst e
  rcases hb i hi with h1 | h1
  · exact h1.trans (hlow i hi q hq)
  · exact h1.trans (C31_safety_lower_bound (hin i hi q hq))

/-- C34: if the safety of each daughter is at least the safety of its box, the result is the minimum over all daughters. -/
theorem C34_exhaustive {S : Std} (hS : S.OK) {algo : Algo} {n : Nat} {boxes : Nat → Box} {depth : Int} {t : Tree}
    (h : build S algo n boxes depth = some t) {p : V3} {safetyToIn : Nat → ℝ} {s0 : ℝ}
    (hbox : ∀ i, i < n → (boxes i).safety p ≤ safetyToIn i) :
    ∃ s, computeSafety t p safetyToIn s0 = some s ∧ s ≤ s0 ∧ (s = s0 ∨ ∃ i, i < n ∧ s = safetyToIn i) ∧
      ∀ i, i < n → s ≤ safetyToIn i := by
  obtain ⟨s, h1, h2, h3, h4⟩ := C34_safety hS h p safetyToIn s0
  exact ⟨s, h1, h2, h3, fun i hi => (h4 i hi).elim (fun h => h) (fun h => h.trans (hbox i hi))⟩

example : ∃ t, build sampleStd .surfaceArea 100 sampleBoxes 0 = some t ∧
    (∀ i, i < 100 → (sampleBoxes i).safety ⟨-5, 0, 0⟩ ≤ 5 + 10 * (i : ℝ)) ∧
    ∀ i, i < 100 → ∀ q, InBox (sampleBoxes i) q → 5 + 10 * (i : ℝ) ≤ V3.dist ⟨-5, 0, 0⟩ q := by
  obtain ⟨t, h1, -⟩ := C32_default_depth sampleStd .surfaceArea (n := 100) (by norm_num) (by norm_num) (by omega) sampleBoxes
  refine ⟨t, h1, fun i _ => ?_, fun i _ q hq => ?_⟩
  · have h0 : (0 : ℝ) ≤ i := Nat.cast_nonneg i
    rw [safety_eq]
    simp only [sampleBoxes]
    refine max_le (max_le (max_le ?_ ?_) (max_le ?_ ?_)) (max_le ?_ ?_) <;> linarith
  · have h0 : (0 : ℝ) ≤ i := Nat.cast_nonneg i
    have := V3.abs_x_le_dist ⟨-5, 0, 0⟩ q
    have hx := hq.1.1
    simp only [sampleBoxes] at hx
    rw [abs_of_nonpos (by dsimp only; linarith)] at this
    dsimp only at this
    linarith

/-- C34: the safety estimator combines both: its result is not above the safety of the mother to leave, and if that is
positive it is a safety for the daughters as well. -/
theorem C34_estimator {S : Std} (hS : S.OK) {algo : Algo} {n : Nat} {boxes : Nat → Box} {depth : Int} {t : Tree}
    (h : build S algo n boxes depth = some t) {p : V3} {safetyToIn : Nat → ℝ} {vol : Nat → V3 → Prop} (out : ℝ)
    (hin : ∀ i, i < n → ∀ q, vol i q → InBox (boxes i) q)
    (hlow : ∀ i, i < n → ∀ q, vol i q → safetyToIn i ≤ V3.dist p q) :
    ∃ s, safetyForLocalPoint (some t) p out safetyToIn = some s ∧ s ≤ out ∧ (out ≤ 0 → s = out) ∧
      ∀ i, i < n → ∀ q, vol i q → s ≤ V3.dist p q := by
  unfold safetyForLocalPoint
  dsimp only
  by_cases ho : out > 0
  · rw [if_pos ho]
    obtain ⟨s, h1, h2, -, -⟩ := C34_safety hS h p safetyToIn out
    exact ⟨s, h1, h2, fun h => by linarith, C34_lower_bound hS h h1 hin hlow⟩
  · rw [if_neg ho]
    refine ⟨out, rfl, le_refl _, fun _ => rfl, fun i _ q _ => ?_⟩
    have : 0 ≤ V3.dist p q := Real.sqrt_nonneg _
    linarith

/-! ## C35: location of a point -/

theorem box_contains_iff (b : Box) (p : V3) : b.contains p = true ↔ InBox b p := C31_contains b p

theorem locatePush_form (t : Tree) (p : V3) (id : Nat) : locatePush t p id = [] ∨
    locatePush t p id = [2 * id + 1] ∨ locatePush t p id = [2 * id + 2] ∨
    locatePush t p id = [2 * id + 1, 2 * id + 2] ∨ locatePush t p id = [2 * id + 2, 2 * id + 1] := by
  unfold locatePush
  cases (t.arr.node (2 * id + 1)).contains p <;> cases (t.arr.node (2 * id + 2)).contains p <;> simp

theorem locatePush_skip {t : Tree} {p : V3} {id c : Nat} (hc : c = 2 * id + 1 ∨ c = 2 * id + 2)
    (hn : c ∉ locatePush t p id) : ¬ InBox (t.arr.node c) p := by
  intro h
  apply hn
  have := (box_contains_iff _ _).mpr h
  unfold locatePush
  rcases hc with rfl | rfl
  · rw [if_pos this]; simp
  · rw [if_pos this]; simp

/-- C35: locating a point finds a daughter other than the excluded one that contains the point, together with the local
point, exactly if there is one; otherwise the output variable for the volume keeps its value.  Hypothesis: a daughter
contains only points of its box. -/
theorem C35_locate {S : Std} (hS : S.OK) {algo : Algo} {n : Nat} {boxes : Nat → Box} {depth : Int} {t : Tree}
    (h : build S algo n boxes depth = some t) (sh : Shapes) (excl pvol : Option Nat) (p q0 : V3)
    (hbox : ∀ i, i < n → sh.contains i ((sh.trans i).transform p) = true → InBox (boxes i) p) :
    ∃ r, levelLocate t sh excl p pvol q0 = some r ∧
      (r.found = true → ∃ i, i < n ∧ excl ≠ some i ∧ sh.contains i ((sh.trans i).transform p) = true ∧
        r.pvol = some i ∧ r.point = (sh.trans i).transform p) ∧
      (r.found = false → r.pvol = pvol ∧
        ∀ i, i < n → excl ≠ some i → sh.contains i ((sh.trans i).transform p) = false) := by
  have hb := build_built hS h
  obtain ⟨a, -, -, -, hn, hbx, -⟩ := build_good hS h
  have hA : Actions t (locateVisit t sh excl p) (fun _ id => locatePush t p id)
      (fun s => s.found = false ∧ s.pvol = pvol)
      (fun _ i => excl ≠ some i → sh.contains i ((sh.trans i).transform p) = false)
      (fun s => s.found = true ∧ ∃ i, i < n ∧ excl ≠ some i ∧ sh.contains i ((sh.trans i).transform p) = true ∧
        s.pvol = some i ∧ s.point = (sh.trans i).transform p) := by
    refine ⟨?_, ?_, ?_, ?_⟩
    · rintro s i ⟨h1, h2⟩ hi hv
      rw [hn] at hi
      unfold locateVisit at hv ⊢
      by_cases hc : (t.aabb i).contains p = true
      · rw [if_pos hc] at hv ⊢
        by_cases he : excl = some i
        · rw [if_pos he]
          exact ⟨⟨h1, h2⟩, fun h => absurd he h, fun _ h => h⟩
        · rw [if_neg he] at hv ⊢
          dsimp only at hv ⊢
          by_cases hin : sh.contains i ((sh.trans i).transform p) = true
          · rw [if_pos hin] at hv; cases hv
          · rw [if_neg hin]
            exact ⟨⟨h1, h2⟩, fun _ => by simpa using hin, fun _ h => h⟩
      · rw [if_neg hc]
        refine ⟨⟨h1, h2⟩, fun _ => ?_, fun _ h => h⟩
        by_contra hcon
        apply hc
        rw [box_contains_iff, hbx]
        exact hbox i hi (by simpa using hcon)
    · rintro s i - hi hv
      rw [hn] at hi
      unfold locateVisit at hv ⊢
      by_cases hc : (t.aabb i).contains p = true
      · rw [if_pos hc] at hv ⊢
        by_cases he : excl = some i
        · rw [if_pos he] at hv; cases hv
        · rw [if_neg he] at hv ⊢
          dsimp only at hv ⊢
          by_cases hin : sh.contains i ((sh.trans i).transform p) = true
          · rw [if_pos hin]
            exact ⟨rfl, i, hi, he, hin, rfl, rfl⟩
          · rw [if_neg hin] at hv; cases hv
      · rw [if_neg hc] at hv; cases hv
    · intro s id _
      exact locatePush_form t p id
    · rintro s id c - hc hnp i hi hcov -
      have := locatePush_skip hc hnp
      by_contra hcon
      rw [hbx] at hcov
      rw [hn] at hi
      exact this (hcov.inBox (hbox i hi (by simpa using hcon)))
  obtain ⟨s', e, ⟨hf, h4⟩ | ⟨⟨h1, h2⟩, h3⟩⟩ := traverse_root hb hA (lim := maxDepth)
    (by have := hb.depth; unfold maxDepth; omega) (s := ⟨false, pvol, q0⟩) ⟨rfl, rfl⟩
  · exact ⟨s', e, fun _ => h4, fun h => by rw [hf] at h; cases h⟩
  · exact ⟨s', e, fun h => (by rw [h1] at h; cases h), fun _ => ⟨h2, fun i hi => h3 i (by omega)⟩⟩

/-- C35: if only one daughter other than the excluded one contains the point, that one is found. -/
theorem C35_locate_unique {S : Std} (hS : S.OK) {algo : Algo} {n : Nat} {boxes : Nat → Box} {depth : Int} {t : Tree}
    (h : build S algo n boxes depth = some t) (sh : Shapes) (excl pvol : Option Nat) (p q0 : V3) {i : Nat} (hi : i < n)
    (hbox : ∀ i, i < n → sh.contains i ((sh.trans i).transform p) = true → InBox (boxes i) p)
    (he : excl ≠ some i) (hc : sh.contains i ((sh.trans i).transform p) = true)
    (huniq : ∀ j, j < n → excl ≠ some j → sh.contains j ((sh.trans j).transform p) = true → j = i) :
    levelLocate t sh excl p pvol q0 = some ⟨true, some i, (sh.trans i).transform p⟩ := by
  obtain ⟨⟨f, v, q⟩, e, h1, h2⟩ := C35_locate hS h sh excl pvol p q0 hbox
  rw [e]
  cases f with
  | false =>
    have := (h2 rfl).2 i hi he
    rw [hc] at this; cases this
  | true =>
    obtain ⟨j, hj, hej, hcj, hv, hq⟩ := h1 rfl
    have := huniq j hj hej hcj
    subst this
    dsimp only at hv hq
    rw [hv, hq]

/-- Shapes of the sample: daughter `i` is its own box, placed without transformation. -/
noncomputable def sampleShapes : Shapes :=
  ⟨fun _ => Trans3.identity, fun i q => (sampleBoxes i).contains q, fun _ _ => .outside, fun _ q => q⟩

example : ∃ t, build sampleStd .surfaceArea 100 sampleBoxes 0 = some t ∧
    (∀ i, i < 100 → sampleShapes.contains i ((sampleShapes.trans i).transform ⟨30.5, 0, 0⟩) = true →
      InBox (sampleBoxes i) ⟨30.5, 0, 0⟩) ∧
    sampleShapes.contains 3 ((sampleShapes.trans 3).transform ⟨30.5, 0, 0⟩) = true := by
  obtain ⟨t, h1, -⟩ := C32_default_depth sampleStd .surfaceArea (n := 100) (by norm_num) (by norm_num) (by omega) sampleBoxes
  have e : ∀ p : V3, Trans3.identity.transform p = p := by
    intro p
    rw [Trans3.transform_eq]
    ext <;> simp [Trans3.identity, Trans3.rotGeneric, Trans3.doTranslation]
  refine ⟨t, h1, fun i _ h => ?_, ?_⟩
  · simp only [sampleShapes, e] at h
    exact (box_contains_iff _ _).mp h
  · simp only [sampleShapes, e]
    rw [box_contains_iff]
    norm_num [InBox, sampleBoxes]

/-- C35: the version with a direction finds a daughter other than the excluded one in whose interior the point lies or on
whose surface it lies with the direction pointing inwards, exactly if there is one. -/
theorem C35_locate_direction {S : Std} (hS : S.OK) {algo : Algo} {n : Nat} {boxes : Nat → Box} {depth : Int} {t : Tree}
    (h : build S algo n boxes depth = some t) (sh : Shapes) (excl pvol : Option Nat) (p d q0 : V3)
    (hbox : ∀ i, i < n → sh.inside i ((sh.trans i).transform p) ≠ .outside → InBox (boxes i) p) :
    ∃ r, levelLocateDir t sh excl p d pvol q0 = some r ∧
      let In (i : Nat) : Prop := sh.inside i ((sh.trans i).transform p) = .inside ∨
        (sh.inside i ((sh.trans i).transform p) = .surface ∧
          V3.dot (sh.normal i ((sh.trans i).transform p)) ((sh.trans i).transformDirection d) < 0)
      (r.found = true → ∃ i, i < n ∧ excl ≠ some i ∧ In i ∧ r.pvol = some i ∧ r.point = (sh.trans i).transform p) ∧
      (r.found = false → r.pvol = pvol ∧ r.point = q0 ∧ ∀ i, i < n → excl ≠ some i → ¬ In i) := by
  have hb := build_built hS h
  obtain ⟨a, -, -, -, hn, hbx, -⟩ := build_good hS h
  have hent : ∀ i, entering sh p d i = true ↔
      V3.dot (sh.normal i ((sh.trans i).transform p)) ((sh.trans i).transformDirection d) < 0 := fun i => by simp [entering]
  have hA : Actions t (locateDirVisit t sh excl p d) (fun _ id => locatePush t p id)
      (fun s => s.found = false ∧ s.pvol = pvol ∧ s.point = q0)
      (fun _ i => excl ≠ some i → ¬ (sh.inside i ((sh.trans i).transform p) = .inside ∨
        (sh.inside i ((sh.trans i).transform p) = .surface ∧ entering sh p d i = true)))
      (fun s => s.found = true ∧ ∃ i, i < n ∧ excl ≠ some i ∧ (sh.inside i ((sh.trans i).transform p) = .inside ∨
        (sh.inside i ((sh.trans i).transform p) = .surface ∧ entering sh p d i = true)) ∧
        s.pvol = some i ∧ s.point = (sh.trans i).transform p) := by
    refine ⟨?_, ?_, ?_, ?_⟩
    · rintro s i ⟨h1, h2, h3⟩ hi hv
      rw [hn] at hi
      unfold locateDirVisit at hv ⊢
      by_cases hc : (t.aabb i).contains p = true
      · rw [if_pos hc] at hv ⊢
        by_cases he : excl = some i
        · rw [if_pos he]
          exact ⟨⟨h1, h2, h3⟩, fun h => absurd he h, fun _ h => h⟩
        · rw [if_neg he] at hv ⊢
          dsimp only at hv ⊢
          by_cases hin : sh.inside i ((sh.trans i).transform p) = .inside ∨
            (sh.inside i ((sh.trans i).transform p) = .surface ∧ entering sh p d i = true)
          · rw [if_pos hin] at hv; cases hv
          · rw [if_neg hin]
            exact ⟨⟨h1, h2, h3⟩, fun _ => hin, fun _ h => h⟩
      · rw [if_neg hc]
        refine ⟨⟨h1, h2, h3⟩, fun _ hcon => ?_, fun _ h => h⟩
        apply hc
        rw [box_contains_iff, hbx]
        refine hbox i hi ?_
        rcases hcon with h | ⟨h, -⟩ <;> rw [h] <;> decide
    · rintro s i - hi hv
      rw [hn] at hi
      unfold locateDirVisit at hv ⊢
      by_cases hc : (t.aabb i).contains p = true
      · rw [if_pos hc] at hv ⊢
        by_cases he : excl = some i
        · rw [if_pos he] at hv; cases hv
        · rw [if_neg he] at hv ⊢
          dsimp only at hv ⊢
          by_cases hin : sh.inside i ((sh.trans i).transform p) = .inside ∨
            (sh.inside i ((sh.trans i).transform p) = .surface ∧ entering sh p d i = true)
          · rw [if_pos hin]
            exact ⟨rfl, i, hi, he, hin, rfl, rfl⟩
          · rw [if_neg hin] at hv; cases hv
      · rw [if_neg hc] at hv; cases hv
    · intro s id _
      exact locatePush_form t p id
    · rintro s id c - hc hnp i hi hcov - hcon
      rw [hbx] at hcov
      rw [hn] at hi
      refine locatePush_skip hc hnp (hcov.inBox (hbox i hi ?_))
      rcases hcon with h | ⟨h, -⟩ <;> rw [h] <;> decide
  obtain ⟨s', e, ⟨hf, h4⟩ | ⟨⟨h1, h2, h5⟩, h3⟩⟩ := traverse_root hb hA (lim := maxDepth)
    (by have := hb.depth; unfold maxDepth; omega) (s := ⟨false, pvol, q0⟩) ⟨rfl, rfl, rfl⟩
  · refine ⟨s', e, fun _ => ?_, fun h => by rw [hf] at h; cases h⟩
    obtain ⟨i, hi, he, hin, hv, hq⟩ := h4
    rw [hent] at hin
    exact ⟨i, hi, he, hin, hv, hq⟩
  · refine ⟨s', e, fun h => (by rw [h1] at h; cases h), fun _ => ⟨h2, h5, fun i hi he => ?_⟩⟩
    have := h3 i (by omega) he
    rwa [hent] at this

example : ∀ i, i < 100 → sampleShapes.inside i ((sampleShapes.trans i).transform ⟨30.5, 0, 0⟩) ≠ .outside →
    InBox (sampleBoxes i) ⟨30.5, 0, 0⟩ := fun _ _ h => absurd rfl h

/-! ## C36: the traversal stack -/

/-- C36: a traversal of a constructed hierarchy never needs more stack entries than the depth of the tree plus one, always
ends, and never reads outside the arrays, whatever is done at the daughters and in whatever order (and whether) the
children of an inner node are pushed. -/
theorem C36_stack_bound {S : Std} (hS : S.OK) {algo : Algo} {n : Nat} {boxes : Nat → Box} {depth : Int} {t : Tree}
    (h : build S algo n boxes depth = some t) {σ : Type} (visit : σ → Nat → σ × Bool) {push : σ → Nat → List Nat}
    (hpush : ∀ s id, push s id = [] ∨ push s id = [2 * id + 1] ∨ push s id = [2 * id + 2] ∨
      push s id = [2 * id + 1, 2 * id + 2] ∨ push s id = [2 * id + 2, 2 * id + 1]) (s : σ) :
    t.depth + 1 ≤ maxDepth ∧ ∀ lim, t.depth + 1 ≤ lim → ∃ s', traverse t lim visit push (fuel t) s [0] = some s' := by
  have hb := build_built hS h
  refine ⟨by have := hb.depth; unfold maxDepth; omega, fun lim hlim => ?_⟩
  have hA : Actions t visit push (fun _ => True) (fun _ _ => True) (fun _ => True) :=
    ⟨fun _ _ _ _ _ => ⟨trivial, trivial, fun _ _ => trivial⟩, fun _ _ _ _ _ => trivial, fun s id _ => hpush s id,
      fun _ _ _ _ _ _ _ _ _ => trivial⟩
  obtain ⟨s', e, -⟩ := traverse_root hb hA hlim (s := s) trivial
  exact ⟨s', e⟩

/-- The four traversals push children in this way. -/
theorem C36_pushes (t : Tree) (p inv : V3) :
    (∀ (s : ℝ) id, rayPush t p inv s id = [] ∨ rayPush t p inv s id = [2 * id + 1] ∨ rayPush t p inv s id = [2 * id + 2] ∨
      rayPush t p inv s id = [2 * id + 1, 2 * id + 2] ∨ rayPush t p inv s id = [2 * id + 2, 2 * id + 1]) ∧
    (∀ (s : ℝ) id, safetyPush t p s id = [] ∨ safetyPush t p s id = [2 * id + 1] ∨ safetyPush t p s id = [2 * id + 2] ∨
      safetyPush t p s id = [2 * id + 1, 2 * id + 2] ∨ safetyPush t p s id = [2 * id + 2, 2 * id + 1]) ∧
    (∀ id, locatePush t p id = [] ∨ locatePush t p id = [2 * id + 1] ∨ locatePush t p id = [2 * id + 2] ∨
      locatePush t p id = [2 * id + 1, 2 * id + 2] ∨ locatePush t p id = [2 * id + 2, 2 * id + 1]) :=
  ⟨fun _ _ => pushOrder_form _ _ _ _, fun _ _ => pushOrder_form _ _ _ _, locatePush_form t p⟩

/-- C36: as many entries as the depth are not enough (the comment of the code says they are): a tree of depth 1 whose root
has two children needs two. -/
theorem C36_depth_entries_counterexample :
    ∃ t : Tree, Built t ∧ t.depth = 1 ∧
      traverse t t.depth (fun (s : Unit) _ => (s, false)) (fun _ id => [2 * id + 1, 2 * id + 2]) (fuel t) () [0] = none := by
  refine ⟨⟨9, fun _ => ⟨0, 0⟩, 1, 3, ⟨List.range 9, fun id => if id = 2 then 5 else 0,
    fun id => if id = 0 then -1 else if id = 1 then 5 else 4, fun _ => ⟨0, 0⟩⟩⟩, ?_, rfl, ?_⟩
  · refine ⟨List.Perm.refl _, ?_, rfl, by norm_num⟩
    exact .inner 5 rfl (by norm_num) (fun _ _ => Covers.refl _) (fun _ _ => Covers.refl _) (by norm_num) (by norm_num)
      (.leaf (by norm_num) (by norm_num) (by norm_num) (by norm_num))
      (.leaf (by norm_num) (by norm_num) (by norm_num) (by norm_num))
  · simp [traverse, fuel]

end BVH
end VecGeom
