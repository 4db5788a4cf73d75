import Verif.BVH.Spec
import Verif.AABB.Props
import Mathlib.Tactic.Linarith
import Mathlib.Tactic.Ring
import Mathlib.Data.Nat.Log

/-!
# Lemmas on the construction of the hierarchy
-/

namespace VecGeom
namespace BVH

open AABB

/-! ### boxes -/

theorem Covers.refl (b : Box) : Covers b b := ⟨⟨le_refl _, le_refl _, le_refl _⟩, le_refl _, le_refl _, le_refl _⟩

theorem Covers.trans {a b c : Box} (h : Covers a b) (k : Covers b c) : Covers a c :=
  ⟨⟨h.1.1.trans k.1.1, h.1.2.1.trans k.1.2.1, h.1.2.2.trans k.1.2.2⟩, k.2.1.trans h.2.1, k.2.2.1.trans h.2.2.1,
    k.2.2.2.trans h.2.2.2⟩

theorem covers_union_left (a b : Box) : Covers (a.union b) a :=
  ⟨⟨min_le_left _ _, min_le_left _ _, min_le_left _ _⟩, le_max_left _ _, le_max_left _ _, le_max_left _ _⟩

theorem covers_union_right (a b : Box) : Covers (a.union b) b :=
  ⟨⟨min_le_right _ _, min_le_right _ _, min_le_right _ _⟩, le_max_right _ _, le_max_right _ _, le_max_right _ _⟩

theorem covers_union {c a b : Box} (h : Covers c a) (k : Covers c b) : Covers c (a.union b) :=
  ⟨⟨le_min h.1.1 k.1.1, le_min h.1.2.1 k.1.2.1, le_min h.1.2.2 k.1.2.2⟩, max_le h.2.1 k.2.1, max_le h.2.2.1 k.2.2.1,
    max_le h.2.2.2 k.2.2.2⟩

theorem Covers.inBox {a b : Box} (h : Covers a b) {q : V3} (hq : InBox b q) : InBox a q :=
  ⟨⟨h.1.1.trans hq.1.1, hq.1.2.trans h.2.1⟩, ⟨h.1.2.1.trans hq.2.1.1, hq.2.1.2.trans h.2.2.1⟩,
    ⟨h.1.2.2.trans hq.2.2.1, hq.2.2.2.trans h.2.2.2⟩⟩

theorem foldl_union_covers (boxes : Nat → Box) (is : List Nat) (b : Box) :
    Covers (is.foldl (fun b j => b.union (boxes j)) b) b ∧
    ∀ j ∈ is, Covers (is.foldl (fun b j => b.union (boxes j)) b) (boxes j) := by
  induction is generalizing b with
  | nil => exact ⟨Covers.refl _, by simp⟩
  | cons i is ih =>
    obtain ⟨h1, h2⟩ := ih (b.union (boxes i))
    refine ⟨h1.trans (covers_union_left _ _), ?_⟩
    intro j hj
    rcases List.mem_cons.mp hj with rfl | h
    · exact h1.trans (covers_union_right _ _)
    · exact h2 j h

theorem foldl_union_least {boxes : Nat → Box} {c : Box} (is : List Nat) (b : Box) (hb : Covers c b)
    (h : ∀ j ∈ is, Covers c (boxes j)) : Covers c (is.foldl (fun b j => b.union (boxes j)) b) := by
  induction is generalizing b with
  | nil => exact hb
  | cons i is ih =>
    exact ih _ (covers_union hb (h i (by simp))) (fun j hj => h j (by simp [hj]))

theorem unionAll_covers (boxes : Nat → Box) {l : List Nat} {i : Nat} (hi : i ∈ l) : Covers (unionAll boxes l) (boxes i) := by
  cases l with
  | nil => simp at hi
  | cons a as =>
    rcases List.mem_cons.mp hi with rfl | h
    · exact (foldl_union_covers boxes as _).1
    · exact (foldl_union_covers boxes as _).2 i h

theorem unionAll_least {boxes : Nat → Box} {l : List Nat} (hl : l ≠ []) {c : Box} (h : ∀ i ∈ l, Covers c (boxes i)) :
    Covers c (unionAll boxes l) := by
  cases l with
  | nil => exact absurd rfl hl
  | cons a as => exact foldl_union_least as _ (h a (by simp)) (fun j hj => h j (by simp [hj]))

/-! ### the splitting functions rearrange -/

theorem axisRound_perm {S : Std} (hS : S.OK) (boxes : Nat → Box) (axis : Nat) (s : List Nat × Best) :
    (axisRound S boxes axis s).1.Perm s.1 := hS.sort_perm _ _

theorem split_perm {S : Std} (hS : S.OK) (algo : Algo) (boxes : Nat → Box) (l : List Nat) (node : Box) :
    ((split S algo boxes l node).1 ++ (split S algo boxes l node).2).Perm l := by
  cases algo with
  | splitLongestAxis => exact hS.part_perm _ _
  | largestDistance => exact hS.part_perm _ _
  | surfaceArea =>
    simp only [split, surfaceAreaHeuristic]
    have hp : (axisRound S boxes 2 (axisRound S boxes 1 (axisRound S boxes 0 (l, ⟨(l.length : ℝ), none⟩)))).1.Perm l :=
      (axisRound_perm hS boxes 2 _).trans ((axisRound_perm hS boxes 1 _).trans (axisRound_perm hS boxes 0 _))
    split
    · rw [List.append_nil]; exact hp
    · exact (hS.part_perm _ _).trans hp

/-! ### segments -/

theorem seg_length {prim : List Nat} {f l : Nat} (hl : l ≤ prim.length) : (seg prim f l).length = l - f := by
  simp [seg]; omega

theorem seg_append {a b c : List Nat} : seg (a ++ b ++ c) a.length (a.length + b.length) = b := by
  simp [seg]

theorem split_seg {prim : List Nat} {f l : Nat} (hfl : f ≤ l) :
    prim = prim.take f ++ seg prim f l ++ prim.drop l := by
  unfold seg
  have h1 : prim.drop l = (prim.drop f).drop (l - f) := by rw [List.drop_drop]; congr 1; omega
  rw [h1, List.append_assoc, List.take_append_drop, List.take_append_drop]

/-- Replacing the entries of one range leaves ranges before it alone. -/
theorem seg_before {prim q : List Nat} {f l m k : Nat} (hl : l ≤ m) (hm : m ≤ prim.length) :
    seg (prim.take m ++ q ++ prim.drop k) f l = seg prim f l := by
  unfold seg
  by_cases hf : f ≤ l
  · rw [List.append_assoc, List.drop_append_of_le_length (by simp; omega),
      List.take_append_of_le_length (by simp; omega), List.drop_take, List.take_take]
    congr 1; omega
  · have : l - f = 0 := by omega
    rw [this]; simp

/-- Replacing the entries of one range leaves ranges behind it alone. -/
theorem seg_after {prim q : List Nat} {f l m k : Nat} (hk : k ≤ f) (hmk : m ≤ k) (hm : k ≤ prim.length)
    (hq : q.length = k - m) : seg (prim.take m ++ q ++ prim.drop k) f l = seg prim f l := by
  unfold seg
  have h1 : (prim.take m ++ q).length = k := by simp; omega
  rw [List.drop_append, h1, List.drop_drop]
  rw [List.drop_eq_nil_of_le (by omega : (prim.take m ++ q).length ≤ f), List.nil_append]
  congr 2; omega

theorem seg_cut {prim : List Nat} {f m l : Nat} (hfm : f ≤ m) (hml : m ≤ l) :
    seg prim f m ++ seg prim m l = seg prim f l := by
  unfold seg
  have e : prim.drop m = (prim.drop f).drop (m - f) := by rw [List.drop_drop]; congr 1; omega
  rw [e, ← List.take_add]
  congr 1; omega

/-! ### subtrees of node ids -/

/-- `j` lies in the subtree of `id`: going up some number of levels from `j` leads to `id`. -/
def Desc (id j : Nat) : Prop := ∃ k, (j + 1) / 2 ^ k = id + 1

theorem Desc.refl (id : Nat) : Desc id id := ⟨0, by simp⟩

theorem Desc.of_left {id j : Nat} (h : Desc (2 * id + 1) j) : Desc id j := by
  obtain ⟨k, h⟩ := h
  refine ⟨k + 1, ?_⟩
  rw [pow_succ, ← Nat.div_div_eq_div_mul, h]; omega

theorem Desc.of_right {id j : Nat} (h : Desc (2 * id + 2) j) : Desc id j := by
  obtain ⟨k, h⟩ := h
  refine ⟨k + 1, ?_⟩
  rw [pow_succ, ← Nat.div_div_eq_div_mul, h]; omega

theorem Desc.le {id j : Nat} (h : Desc id j) : id ≤ j := by
  obtain ⟨k, h⟩ := h
  have := Nat.div_le_self (j + 1) (2 ^ k)
  omega

theorem Desc.disjoint {id j : Nat} (h : Desc (2 * id + 1) j) (h' : Desc (2 * id + 2) j) : False := by
  obtain ⟨k, h⟩ := h
  obtain ⟨k', h'⟩ := h'
  rcases Nat.lt_trichotomy k k' with hk | hk | hk
  · obtain ⟨e, rfl⟩ := Nat.exists_eq_add_of_lt hk
    have e1 : 2 ^ (k + e + 1) = 2 ^ k * (2 * 2 ^ e) := by rw [pow_succ, pow_add]; ring
    rw [e1, ← Nat.div_div_eq_div_mul, h, ← Nat.div_div_eq_div_mul] at h'
    have := Nat.div_le_self ((2 * id + 1 + 1) / 2) (2 ^ e)
    omega
  · subst hk; omega
  · obtain ⟨e, rfl⟩ := Nat.exists_eq_add_of_lt hk
    have e1 : 2 ^ (k' + e + 1) = 2 ^ k' * (2 * 2 ^ e) := by rw [pow_succ, pow_add]; ring
    rw [e1, ← Nat.div_div_eq_div_mul, h', ← Nat.div_div_eq_div_mul] at h
    have := Nat.div_le_self ((2 * id + 2 + 1) / 2) (2 ^ e)
    omega

/-! ### the state after `ComputeNodes` -/

/-- The records of node `id` describe the range `f .. l`. -/
structure Rec (boxes : Nat → Box) (a : Arrays) (id f l : Nat) : Prop where
  le : f ≤ l
  nchild : a.nchild id = (l : Int) - f
  offset : a.offset id = f
  box : f < l → (∀ i ∈ seg a.prim f l, Covers (a.node id) (boxes i)) ∧
    ∀ c, (∀ i ∈ seg a.prim f l, Covers c (boxes i)) → Covers c (a.node id)

/-- The subtree of `id` describes the range `f .. l` of the daughters. -/
inductive Good (boxes : Nat → Box) (nodes : Nat) (a : Arrays) : Nat → Nat → Nat → Prop
  | leaf {id f l : Nat} : id < nodes → Rec boxes a id f l → (l ≤ f + 1 ∨ nodes ≤ 2 * id + 1) → Good boxes nodes a id f l
  | inner {id f l : Nat} (m : Nat) : 2 * id + 2 < nodes → Rec boxes a id f l →
      Good boxes nodes a (2 * id + 1) f m → Good boxes nodes a (2 * id + 2) m l → Good boxes nodes a id f l

theorem Good.le {boxes : Nat → Box} {nodes : Nat} {a : Arrays} {id f l : Nat} (h : Good boxes nodes a id f l) : f ≤ l := by
  cases h with
  | leaf _ r _ => exact r.le
  | inner _ _ r _ _ => exact r.le

theorem Good.lt {boxes : Nat → Box} {nodes : Nat} {a : Arrays} {id f l : Nat} (h : Good boxes nodes a id f l) : id < nodes := by
  cases h with
  | leaf h _ _ => exact h
  | inner _ h _ _ _ => omega

theorem Good.rec' {boxes : Nat → Box} {nodes : Nat} {a : Arrays} {id f l : Nat} (h : Good boxes nodes a id f l) :
    Rec boxes a id f l := by
  cases h with
  | leaf _ r _ => exact r
  | inner _ _ r _ _ => exact r

/-- The records agree on node `id`. -/
def Same (a a' : Arrays) (j : Nat) : Prop := a'.nchild j = a.nchild j ∧ a'.offset j = a.offset j ∧ a'.node j = a.node j

theorem Rec.transfer {boxes : Nat → Box} {a a' : Arrays} {id f l : Nat} (r : Rec boxes a id f l) (hs : Same a a' id)
    (hp : ∀ i, i ∈ seg a'.prim f l ↔ i ∈ seg a.prim f l) : Rec boxes a' id f l := by
  obtain ⟨h1, h2, h3⟩ := hs
  refine ⟨r.le, by rw [h1, r.nchild], by rw [h2, r.offset], fun hfl => ?_⟩
  rw [h3]
  refine ⟨fun i hi => (r.box hfl).1 i ((hp i).mp hi), fun c hc => (r.box hfl).2 c (fun i hi => hc i ((hp i).mpr hi))⟩

theorem Good.transfer {boxes : Nat → Box} {nodes : Nat} {a a' : Arrays} {id f l : Nat} (h : Good boxes nodes a id f l)
    (hs : ∀ j, Desc id j → Same a a' j) (hp : ∀ f' l', f ≤ f' → l' ≤ l → seg a'.prim f' l' = seg a.prim f' l') :
    Good boxes nodes a' id f l := by
  induction h with
  | leaf h r e => exact .leaf h (r.transfer (hs _ (Desc.refl _)) (fun i => by rw [hp _ _ (le_refl _) (le_refl _)])) e
  | inner m h r hl hr ihl ihr =>
    refine .inner m h (r.transfer (hs _ (Desc.refl _)) (fun i => by rw [hp _ _ (le_refl _) (le_refl _)])) ?_ ?_
    · exact ihl (fun j hj => hs j hj.of_left) (fun f' l' h1 h2 => hp f' l' h1 (h2.trans hr.le))
    · exact ihr (fun j hj => hs j hj.of_right) (fun f' l' h1 h2 => hp f' l' (hl.le.trans h1) h2)

/-- `ComputeNodes` rearranges its range, changes only records of its subtree and makes the subtree describe the range. -/
theorem computeNodes_spec {S : Std} (hS : S.OK) (algo : Algo) (boxes : Nat → Box) {nodes : Nat} (hodd : nodes % 2 = 1)
    (w : Nat) : ∀ (a : Arrays) (id f l : Nat), nodes - id ≤ w → f ≤ l → l ≤ a.prim.length →
      (∃ q, q.Perm (seg a.prim f l) ∧
        (computeNodes S algo boxes nodes a id f l).prim = a.prim.take f ++ q ++ a.prim.drop l) ∧
      (∀ j, ¬ Desc id j → Same a (computeNodes S algo boxes nodes a id f l) j) ∧
      (id < nodes → Good boxes nodes (computeNodes S algo boxes nodes a id f l) id f l) := by
  induction w with
  | zero =>
    intro a id f l hw hfl hl
    rw [computeNodes, if_pos (by omega)]
    refine ⟨⟨seg a.prim f l, List.Perm.refl _, split_seg hfl⟩, fun j _ => ⟨rfl, rfl, rfl⟩, fun h => by omega⟩
  | succ w ih =>
    intro a id f l hw hfl hl
    rw [computeNodes]
    by_cases hid : id ≥ nodes
    · rw [if_pos hid]
      exact ⟨⟨seg a.prim f l, List.Perm.refl _, split_seg hfl⟩, fun j _ => ⟨rfl, rfl, rfl⟩, fun h => by omega⟩
    rw [if_neg hid]
    have hne : ∀ j, ¬ Desc id j → j ≠ id := fun j hj e => hj (e ▸ Desc.refl _)
    dsimp only
    by_cases h0 : f = l
    · rw [if_pos h0]
      refine ⟨⟨seg a.prim f l, List.Perm.refl _, split_seg hfl⟩, ?_, ?_⟩
      · intro j hj
        simp [Same, hne j hj]
      · intro h
        exact .leaf h ⟨hfl, by simp, by simp, fun h => by omega⟩ (Or.inl (by omega))
    rw [if_neg h0]
    have hsne : seg a.prim f l ≠ [] := by
      intro h
      have := seg_length (f := f) hl
      rw [h] at this
      simp at this; omega
    by_cases h1 : f + 1 = l
    · rw [if_pos h1]
      refine ⟨⟨seg a.prim f l, List.Perm.refl _, split_seg hfl⟩, ?_, ?_⟩
      · intro j hj
        simp [Same, hne j hj]
      · intro h
        refine .leaf h ⟨hfl, by simp, by simp, fun _ => ⟨?_, ?_⟩⟩ (Or.inl (by omega))
        · intro i hi
          simp only [Function.update_self]
          exact unionAll_covers boxes hi
        · intro c hc
          simp only [Function.update_self]
          exact unionAll_least hsne hc
    rw [if_neg h1]
    have hperm := split_perm hS algo boxes (seg a.prim f l)
      (Function.update a.node id (unionAll boxes (seg a.prim f l)) id)
    generalize hlr : split S algo boxes (seg a.prim f l)
      (Function.update a.node id (unionAll boxes (seg a.prim f l)) id) = lr at hperm ⊢
    set a3 : Arrays := { prim := a.prim.take f ++ (lr.1 ++ lr.2) ++ a.prim.drop l,
                         offset := Function.update a.offset id (f : Int),
                         nchild := Function.update a.nchild id ((l : Int) - f),
                         node := Function.update a.node id (unionAll boxes (seg a.prim f l)) } with ha3
    have hlen : lr.1.length + lr.2.length = l - f := by
      have := hperm.length_eq
      rw [List.length_append, seg_length hl] at this
      exact this
    have h3len : a3.prim.length = a.prim.length := by
      rw [ha3]; simp; omega
    set m := f + lr.1.length with hm
    have hfm : f ≤ m := by omega
    have hml : m ≤ l := by omega
    obtain ⟨⟨q4, p4, e4⟩, s4, g4⟩ := ih a3 (2 * id + 1) f m (by omega) hfm (by omega)
    set a4 := computeNodes S algo boxes nodes a3 (2 * id + 1) f m with ha4
    have q4len : q4.length = m - f := by rw [p4.length_eq, seg_length (by omega)]
    have h4len : a4.prim.length = a.prim.length := by
      rw [e4]; simp; omega
    obtain ⟨⟨q5, p5, e5⟩, s5, g5⟩ := ih a4 (2 * id + 2) m l (by omega) hml (by omega)
    set a5 := computeNodes S algo boxes nodes a4 (2 * id + 2) m l with ha5
    have q5len : q5.length = l - m := by rw [p5.length_eq, seg_length (by omega)]
    have hs3 : seg a3.prim f m ++ seg a3.prim m l = lr.1 ++ lr.2 := by
      rw [seg_cut hfm hml]
      have : seg a3.prim f l = seg (a.prim.take f ++ (lr.1 ++ lr.2) ++ a.prim.drop l) (a.prim.take f).length
          ((a.prim.take f).length + (lr.1 ++ lr.2).length) := by
        rw [ha3]; congr 1 <;> simp <;> omega
      rw [this, seg_append]
    have hs4r : seg a4.prim m l = seg a3.prim m l := by
      rw [e4]
      exact seg_after (le_refl _) hfm (by omega) q4len
    -- the whole range of the final list
    have h5prim : a5.prim = a.prim.take f ++ (q4 ++ q5) ++ a.prim.drop l := by
      have t4 : a4.prim.take m = a.prim.take f ++ q4 := by
        rw [e4]
        have : a3.prim.take f = a.prim.take f := by
          rw [ha3, List.append_assoc, List.take_append_of_le_length (by simp; omega), List.take_take, min_self]
        rw [this]
        have hl' : (a.prim.take f ++ q4).length = m := by simp; omega
        rw [List.take_append_of_le_length (by omega), ← hl', List.take_length]
      have d4 : a4.prim.drop l = a.prim.drop l := by
        rw [e4, List.drop_append, List.drop_eq_nil_of_le (by simp; omega), List.nil_append, List.drop_drop]
        have e : m + (l - (List.take f a3.prim ++ q4).length) = l := by simp; omega
        rw [e, ha3, List.drop_append, List.drop_eq_nil_of_le (by simp; omega), List.nil_append, List.drop_drop]
        congr 1; simp; omega
      rw [e5, t4, d4]
      simp only [List.append_assoc]
    have hq : (q4 ++ q5).Perm (seg a.prim f l) := by
      refine (List.Perm.append p4 p5).trans ?_
      rw [hs4r, hs3]
      exact hperm
    have hs5 : seg a5.prim f l = q4 ++ q5 := by
      rw [h5prim]
      have e1 : f = (a.prim.take f).length := by simp; omega
      have e2 : l = (a.prim.take f).length + (q4 ++ q5).length := by simp; omega
      conv_lhs => rw [e1, e2]
      have : a.prim.take (a.prim.take f).length = a.prim.take f := by rw [← e1]
      rw [this]
      exact seg_append
    refine ⟨⟨q4 ++ q5, hq, h5prim⟩, ?_, ?_⟩
    · intro j hj
      have hj4 : ¬ Desc (2 * id + 1) j := fun h => hj h.of_left
      have hj5 : ¬ Desc (2 * id + 2) j := fun h => hj h.of_right
      obtain ⟨x1, x2, x3⟩ := s4 j hj4
      obtain ⟨y1, y2, y3⟩ := s5 j hj5
      refine ⟨?_, ?_, ?_⟩
      · rw [y1, x1, ha3]; simp [hne j hj]
      · rw [y2, x2, ha3]; simp [hne j hj]
      · rw [y3, x3, ha3]; simp [hne j hj]
    · intro h
      have hj4 : ¬ Desc (2 * id + 1) id := fun h => by have := h.le; omega
      have hj5 : ¬ Desc (2 * id + 2) id := fun h => by have := h.le; omega
      obtain ⟨x1, x2, x3⟩ := s4 id hj4
      obtain ⟨y1, y2, y3⟩ := s5 id hj5
      have hrec : Rec boxes a5 id f l := by
        refine ⟨hfl, by rw [y1, x1, ha3]; simp, by rw [y2, x2, ha3]; simp, fun _ => ?_⟩
        have hn : a5.node id = unionAll boxes (seg a.prim f l) := by rw [y3, x3, ha3]; simp
        rw [hn, hs5]
        exact ⟨fun i hi => unionAll_covers boxes (hq.mem_iff.mp hi),
          fun c hc => unionAll_least hsne (fun i hi => hc i (hq.mem_iff.mpr hi))⟩
      by_cases hc : nodes ≤ 2 * id + 1
      · exact .leaf h hrec (Or.inr hc)
      · refine .inner m (by omega) hrec ?_ (g5 (by omega))
        refine (g4 (by omega)).transfer ?_ ?_
        · intro j hj
          exact s5 j (fun h' => hj.disjoint h')
        · intro f' l' _ hl'
          rw [e5]
          exact seg_before hl' (by omega)

end BVH
end VecGeom
