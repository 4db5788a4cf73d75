import Verif.Hybrid.Lemmas

/-!
# Queries of the packed structures
-/

namespace VecGeom
namespace Hybrid

open AABB

theorem collect_eq {β : Type} {g : Nat → Option (List β)} {h : Nat → List β} {l : List Nat}
    (H : ∀ x ∈ l, g x = some (h x)) : collect g l = some (l.flatMap h) := by
  induction l with
  | nil => rfl
  | cons x l ih =>
    rw [collect, H x List.mem_cons_self, Option.bind_some, ih (fun y hy => H y (List.mem_cons_of_mem _ hy))]
    rfl

/-- The entries of a list of daughters. -/
def entries {β : Type} (boxes : Nat → Box) (f : Box → Option β) (l : List Nat) : List (Nat × β) :=
  l.filterMap fun a => (f (boxes a)).map (a, ·)

/-- One lane of a leaf. -/
def lane {β : Type} (boxes : Nat → Box) (f : Box → Option β) (c : List Nat) (j : Nat) : List (Nat × β) :=
  match c[j]? with
  | none => []
  | some a => match f (boxes a) with
    | none => []
    | some v => [(a, v)]

theorem lanes_eq {β : Type} (boxes : Nat → Box) (f : Box → Option β) (c : List Nat) :
    ∀ V, c.length ≤ V → (List.range V).flatMap (lane boxes f c) = entries boxes f c := by
  induction c with
  | nil =>
    intro V _
    rw [List.flatMap_eq_nil_iff.mpr]
    · rfl
    · intro j _; rfl
  | cons a c ih =>
    intro V h
    cases V with
    | zero => simp at h
    | succ V =>
      rw [List.range_succ_eq_map, List.flatMap_cons, List.flatMap_map]
      have : (fun j => lane boxes f (a :: c) (j + 1)) = lane boxes f c := by
        funext j; simp [lane]
      rw [show (fun a_1 => lane boxes f (a :: c) (Nat.succ a_1)) = fun j => lane boxes f (a :: c) (j + 1) from rfl, this,
        ih V (by simpa using h)]
      unfold entries
      rw [List.filterMap_cons]
      unfold lane
      rw [List.getElem?_cons_zero]
      cases hf : f (boxes a) <;> simp [hf]

theorem leafLanes_spec {β : Type} {V : Nat} {M : ℝ} {boxes : Nat → Box} {n : Nat} {a : Acc} (hb : Built V M boxes n a)
    {f : Box → Option β} (hpad : f (padBox M) = none) {i : Nat} (hi : i < a.nodes.length)
    (hbound : leafIdx V i + 1 < a.store.size) :
    leafLanes V a f (leafIdx V i) i = some (entries boxes f a.nodes[i]) := by
  unfold leafLanes
  rw [if_pos hbound, ← lanes_eq boxes f a.nodes[i] V (hb.cls.size _ (List.getElem_mem hi))]
  apply collect_eq
  intro j hj
  unfold leafLane
  rcases Nat.lt_or_ge j a.nodes[i].length with h | h
  · rw [hb.filled.leaf i hi j h]
    unfold lane
    rw [List.getElem?_eq_getElem hi, Option.bind_some, List.getElem?_eq_getElem h]
    cases hf : f (boxes a.nodes[i][j]) <;> simp [hf]
  · rw [hb.filled.leafPad i hi j h, hpad]
    unfold lane
    rw [List.getElem?_eq_none h]

/-- The union of the boxes of a cluster must be accepted if one of the boxes is. -/
def Monotone {β : Type} (boxes : Nat → Box) (n : Nat) (f : Box → Option β) : Prop :=
  ∀ c : List Nat, (∀ a ∈ c, a < n) → ∀ a ∈ c, f (boxes a) ≠ none → f (nodeBox boxes c) ≠ none

/-- The output for node `i`. -/
def nodeOut {β : Type} (boxes : Nat → Box) (f : Box → Option β) (nodes : List (List Nat)) (i : Nat) : List (Nat × β) :=
  match nodes[i]? with
  | none => []
  | some c => entries boxes f c

theorem entries_nil {β : Type} {boxes : Nat → Box} {f : Box → Option β} {l : List Nat} (h : ∀ a ∈ l, f (boxes a) = none) :
    entries boxes f l = [] := by
  unfold entries
  rw [List.filterMap_eq_nil_iff]
  intro a ha
  rw [h a ha]
  rfl

theorem Clustering.mem_lt {n V : Nat} {cls : List (List Nat)} (h : Clustering n V cls) {c : List Nat} (hc : c ∈ cls) {a : Nat}
    (ha : a ∈ c) : a < n := by
  have : a ∈ cls.flatten := List.mem_flatten.mpr ⟨c, hc, ha⟩
  exact List.mem_range.mp (h.perm.mem_iff.mp this)

theorem node_step {β : Type} {V : Nat} (hV : 0 < V) {M : ℝ} {boxes : Nat → Box} {n : Nat} {a : Acc} (hb : Built V M boxes n a)
    {f : Box → Option β} (hpad : f (padBox M) = none) (hmono : Monotone boxes n f) {g l : Nat} (hl : l < V) :
    nodeLane V a f (2 * (V + 1) * g) (g * V) l = some (nodeOut boxes f a.nodes (g * V + l)) := by
  unfold nodeLane
  have e1 : (g * V + l) / V = g := by
    rw [Nat.mul_comm, Nat.mul_add_div hV, Nat.div_eq_of_lt hl, Nat.add_zero]
  have e2 : (g * V + l) % V = l := by
    rw [Nat.mul_comm, Nat.mul_add_mod, Nat.mod_eq_of_lt hl]
  have en : 2 * (V + 1) * g = nodeIdx V (g * V + l) := by unfold nodeIdx; rw [e1]
  have el : 2 * (V + 1) * g + 2 * (l + 1) = leafIdx V (g * V + l) := by
    rw [leafIdx_eq, e1, e2, Nat.mul_assoc]; omega
  rw [el, en]
  generalize hi : g * V + l = i at *
  rw [← e2]
  unfold nodeOut
  rcases Nat.lt_or_ge i a.nodes.length with h | h
  · rw [hb.filled.node i h, List.getElem?_eq_getElem h]
    dsimp only
    have hbound : leafIdx V i + 1 < a.store.size := by
      rw [hb.size]
      have : i / V < ceilDiv a.nodes.length V := by
        rw [lt_ceilDiv hV]
        exact (Nat.div_mul_le_self i V).trans_lt h
      unfold leafIdx
      clear e1 e2 el en
      generalize i / V = q at *
      omega
    cases hc : f (nodeBox boxes a.nodes[i]) with
    | none =>
      dsimp only
      rw [entries_nil]
      intro x hx
      by_contra hne
      exact hmono a.nodes[i] (fun y hy => hb.cls.mem_lt (List.getElem_mem h) hy) x hx hne hc
    | some v =>
      dsimp only
      exact leafLanes_spec hb hpad h hbound
  · rw [hb.filled.nodePad i h, hpad, List.getElem?_eq_none h]

theorem scanFrom_spec {β : Type} {V : Nat} (hV : 0 < V) {M : ℝ} {boxes : Nat → Box} {n : Nat} {a : Acc} (hb : Built V M boxes n a)
    {f : Box → Option β} (hpad : f (padBox M) = none) (hmono : Monotone boxes n f) :
    ∀ (fuel g : Nat), ceilDiv a.nodes.length V < fuel + g →
    g ≤ ceilDiv a.nodes.length V →
    scanFrom V a f fuel (2 * (V + 1) * g) (g * V) =
      some ((List.range' g (ceilDiv a.nodes.length V - g)).flatMap fun g =>
        (List.range V).flatMap fun l => nodeOut boxes f a.nodes (g * V + l)) := by
  intro fuel
  set G := ceilDiv a.nodes.length V with hG
  have hhalf : queryHalfSize V a.n = G + a.nodes.length := by
    unfold queryHalfSize
    dsimp only
    rw [hb.n_eq, hG, hb.cls.length]
  induction fuel with
  | zero => intro g h1 h2; omega
  | succ fuel ih =>
    intro g h1 h2
    rw [scanFrom, hhalf]
    rcases Nat.lt_or_ge g G with h | h
    · have hg : g * V < a.nodes.length := (lt_ceilDiv hV).mp h
      have hidx : 2 * (V + 1) * g = 2 * (g * V + g) := by ring
      have hlt : 2 * (V + 1) * g < (G + a.nodes.length) * 2 := by rw [hidx]; omega
      have hlt2 : 2 * (V + 1) * g + 1 < a.store.size := by rw [hb.size, ← hG, hidx]; omega
      rw [if_pos hlt, if_pos hlt2,
        collect_eq (h := fun l => nodeOut boxes f a.nodes (g * V + l))
          (fun l hl => node_step hV hb hpad hmono (List.mem_range.mp hl)), Option.bind_some]
      rw [show 2 * (V + 1) * g + 2 * (V + 1) = 2 * (V + 1) * (g + 1) by ring, show g * V + V = (g + 1) * V by ring,
        ih (g + 1) (by omega) (by omega), Option.map_some]
      rw [show G - g = (G - (g + 1)) + 1 by omega, List.range'_succ, List.flatMap_cons]
    · have hgG : g = G := by omega
      have hge : a.nodes.length ≤ g * V := by rw [hgG]; exact le_ceilDiv_mul _ hV
      have hidx : 2 * (V + 1) * g = 2 * (g * V + g) := by ring
      rw [if_neg (by rw [hidx]; omega), show G - g = 0 by omega]
      rfl

theorem flatMap_range_mul {β : Type} (h : Nat → List β) (V : Nat) : ∀ G,
    ((List.range G).flatMap fun g => (List.range V).flatMap fun l => h (g * V + l)) = (List.range (G * V)).flatMap h := by
  intro G
  induction G with
  | zero => simp
  | succ G ih =>
    rw [List.range_succ, List.flatMap_append, ih, Nat.succ_mul, List.range_add, List.flatMap_append, List.flatMap_map]
    simp

theorem nodeOut_all {β : Type} (boxes : Nat → Box) (f : Box → Option β) (nodes : List (List Nat)) :
    ∀ N, nodes.length ≤ N → (List.range N).flatMap (nodeOut boxes f nodes) = entries boxes f nodes.flatten := by
  induction nodes with
  | nil =>
    intro N _
    rw [List.flatMap_eq_nil_iff.mpr]
    · rfl
    · intro j _; rfl
  | cons c nodes ih =>
    intro N h
    cases N with
    | zero => simp at h
    | succ N =>
      rw [List.range_succ_eq_map, List.flatMap_cons, List.flatMap_map]
      have : (fun j => nodeOut boxes f (c :: nodes) (Nat.succ j)) = nodeOut boxes f nodes := by
        funext j; simp [nodeOut]
      rw [this, ih N (by simpa using h), List.flatten_cons]
      unfold entries
      rw [List.filterMap_append]
      rfl

/-- The result of a query: the entries of all daughters, in some order. -/
theorem scan_spec {β : Type} {V : Nat} (hV : 0 < V) {M : ℝ} {boxes : Nat → Box} {n : Nat} {a : Acc} (hb : Built V M boxes n a)
    {f : Box → Option β} (hpad : f (padBox M) = none) (hmono : Monotone boxes n f) (cap : Nat) :
    ∃ out : List (Nat × β), out.Perm (entries boxes f (List.range n)) ∧
      scan V cap a f = if out.length ≤ cap then some out else none := by
  have h := scanFrom_spec hV hb hpad hmono (queryHalfSize V a.n * 2 + 1) 0
    (by
      have : queryHalfSize V a.n = ceilDiv a.nodes.length V + a.nodes.length := by
        unfold queryHalfSize
        dsimp only
        rw [hb.n_eq, hb.cls.length]
      rw [this]; omega) (by omega)
  rw [Nat.mul_zero, Nat.zero_mul, Nat.sub_zero, ← List.range_eq_range',
    flatMap_range_mul (nodeOut boxes f a.nodes), nodeOut_all boxes f a.nodes _ (le_ceilDiv_mul _ hV)] at h
  refine ⟨entries boxes f a.nodes.flatten, ?_, ?_⟩
  · exact hb.cls.perm.filterMap _
  · unfold scan
    rw [h, Option.bind_some]

theorem entries_length_le {β : Type} (boxes : Nat → Box) (f : Box → Option β) (l : List Nat) :
    (entries boxes f l).length ≤ l.length := List.length_filterMap_le _ _

theorem mem_entries {β : Type} {boxes : Nat → Box} {f : Box → Option β} {l : List Nat} {x : Nat × β} :
    x ∈ entries boxes f l ↔ x.1 ∈ l ∧ f (boxes x.1) = some x.2 := by
  unfold entries
  rw [List.mem_filterMap]
  constructor
  · rintro ⟨a, ha, h⟩
    cases hf : f (boxes a) with
    | none => rw [hf] at h; cases h
    | some v =>
      rw [hf] at h
      simp only [Option.map_some, Option.some.injEq] at h
      subst h
      exact ⟨ha, hf⟩
  · rintro ⟨h1, h2⟩
    exact ⟨x.1, h1, by rw [h2]; rfl⟩

/-! ### the flat lists -/

theorem initABBoxes_aux (V : Nat) (hV : 0 < V) (n : Nat) :
    (List.range n).filter (fun i => i % V = 0) = (List.range (ceilDiv n V)).map (· * V) := by
  induction n with
  | zero => simp [ceilDiv]
  | succ n ih =>
    rw [List.range_succ, List.filter_append, ih]
    by_cases h : n % V = 0
    · have e1 : ceilDiv n V = n / V := by unfold ceilDiv; rw [if_pos h, Nat.add_zero]
      have e2 : ceilDiv (n + 1) V = n / V + 1 := by
        apply Nat.le_antisymm
        · by_contra hc
          have h1 := (lt_ceilDiv (g := n / V + 1) (n := n + 1) hV).mp (by omega)
          rw [Nat.add_mul, Nat.div_mul_cancel (Nat.dvd_of_mod_eq_zero h)] at h1
          omega
        · have := (lt_ceilDiv (g := n / V) (n := n + 1) hV).mpr
            (by rw [Nat.div_mul_cancel (Nat.dvd_of_mod_eq_zero h)]; omega)
          omega
      rw [e1, e2, List.range_succ, List.map_append]
      simp [h, Nat.div_mul_cancel (Nat.dvd_of_mod_eq_zero h)]
    · have e : ceilDiv (n + 1) V = ceilDiv n V := by
        have key : ∀ g, g < ceilDiv (n + 1) V ↔ g < ceilDiv n V := by
          intro g
          rw [lt_ceilDiv hV, lt_ceilDiv hV]
          constructor
          · intro h1
            have : g * V ≠ n := by
              intro h2
              rw [← h2, Nat.mul_mod_left] at h
              exact h rfl
            omega
          · omega
        have a1 := key (ceilDiv n V)
        have a2 := key (ceilDiv (n + 1) V)
        omega
      rw [e]
      simp [h]

theorem initABBoxes_get {V : Nat} (hV : 0 < V) (M : ℝ) (boxes : Nat → Box) (n : Nat) {g : Nat} (hg : g < ceilDiv n V) :
    (initABBoxes V M boxes n)[g]? = some ((List.range V).map (packLane V M boxes n g)) := by
  unfold initABBoxes
  rw [initABBoxes_aux V hV, List.map_map, List.getElem?_map, List.getElem?_range hg]
  simp [Nat.mul_div_cancel g hV]

theorem initABBoxes_length {V : Nat} (hV : 0 < V) (M : ℝ) (boxes : Nat → Box) (n : Nat) :
    (initABBoxes V M boxes n).length = ceilDiv n V := by
  unfold initABBoxes
  rw [initABBoxes_aux V hV]
  simp

theorem flatScan_spec {β : Type} {V : Nat} (hV : 0 < V) {M : ℝ} (boxes : Nat → Box) (n : Nat) {f : Box → Option β}
    (hpad : f (padBox M) = none) (cap : Nat) :
    flatScan V cap (initABBoxes V M boxes n) (groupCount V n) f =
      if (entries boxes f (List.range n)).length ≤ cap then some (entries boxes f (List.range n)) else none := by
  have hlane : ∀ g k, flatLane V f g k (packLane V M boxes n g k) = lane boxes f (List.range n) (g * V + k) := by
    intro g k
    unfold packLane lane flatLane
    rcases Nat.lt_or_ge (g * V + k) n with h | h
    · rw [if_pos (by omega), List.getElem?_range h]
      all_goals (cases hf : f (boxes (g * V + k)) <;> simp [hf])
    · rw [if_neg (by omega), hpad, List.getElem?_eq_none (by rw [List.length_range]; exact h)]
  have hcol : collect (fun g => (initABBoxes V M boxes n)[g]?.bind fun bs =>
      collect (fun k => bs[k]?.map (flatLane V f g k)) (List.range V)) (List.range (groupCount V n)) =
      some (entries boxes f (List.range n)) := by
    rw [collect_eq (h := fun g => (List.range V).flatMap fun k => lane boxes f (List.range n) (g * V + k)),
      flatMap_range_mul (lane boxes f (List.range n)), lanes_eq]
    · rw [List.length_range]; exact le_ceilDiv_mul n hV
    · intro g hg
      rw [initABBoxes_get hV M boxes n (List.mem_range.mp hg), Option.bind_some]
      apply collect_eq
      intro k hk
      rw [List.getElem?_map, List.getElem?_range (List.mem_range.mp hk), Option.map_some, Option.map_some, hlane]
  unfold flatScan
  rw [hcol, Option.bind_some]

end Hybrid
end VecGeom
