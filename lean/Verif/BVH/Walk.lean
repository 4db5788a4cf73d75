import Verif.BVH.Lemmas

/-!
# Traversal of the finished hierarchy
-/

namespace VecGeom
namespace BVH

open AABB

/-! ### marking of inner nodes -/

theorem mark_fold (nchild : Nat → Int) (m : Nat) :
    ∀ j, (List.range m).foldl markOne nchild j =
      if j < m ∧ nchild j > 8 ∧ nchild j = nchild (2 * j + 1) + nchild (2 * j + 2) then -1 else nchild j := by
  induction m with
  | zero => intro j; simp
  | succ m ih =>
    intro j
    rw [List.range_succ, List.foldl_append, List.foldl_cons, List.foldl_nil]
    generalize hg : (List.range m).foldl markOne nchild = g at ih
    have h0 : g m = nchild m := by rw [ih, if_neg (by omega)]
    have h1 : g (2 * m + 1) = nchild (2 * m + 1) := by rw [ih, if_neg (by omega)]
    have h2 : g (2 * m + 2) = nchild (2 * m + 2) := by rw [ih, if_neg (by omega)]
    unfold markOne
    rw [h0, h1, h2]
    by_cases hc : nchild m > 8 ∧ nchild m = nchild (2 * m + 1) + nchild (2 * m + 2)
    · rw [if_pos hc]
      by_cases hj : j = m
      · subst hj; rw [Function.update_self, if_pos ⟨by omega, hc⟩]
      · rw [Function.update_of_ne hj, ih]
        have : j < m ↔ j < m + 1 := by omega
        simp only [this]
    · rw [if_neg hc, ih]
      by_cases hj : j = m
      · subst hj
        rw [if_neg (by omega), if_neg (by tauto)]
      · have : j < m ↔ j < m + 1 := by omega
        simp only [this]

/-- What a traversal may assume about node `id` at height at most `k`: a leaf lists its range; an inner node has two children
whose boxes contain the boxes of their daughters. -/
inductive Walk (t : Tree) : Nat → Nat → Nat → Nat → Prop
  | leaf {k id f l : Nat} : id < t.nodes → f ≤ l → t.arr.nchild id = (l : Int) - f → t.arr.offset id = f → Walk t k id f l
  | inner {k id f l : Nat} (m : Nat) : t.arr.nchild id = -1 → 2 * id + 2 < t.nodes →
      (∀ i ∈ seg t.arr.prim f m, Covers (t.arr.node (2 * id + 1)) (t.aabb i)) →
      (∀ i ∈ seg t.arr.prim m l, Covers (t.arr.node (2 * id + 2)) (t.aabb i)) →
      f ≤ m → m ≤ l → Walk t k (2 * id + 1) f m → Walk t k (2 * id + 2) m l → Walk t (k + 1) id f l

theorem seg_self (prim : List Nat) (f : Nat) : seg prim f f = [] := by simp [seg]

theorem Rec.covers {boxes : Nat → Box} {a : Arrays} {id f l : Nat} (r : Rec boxes a id f l) :
    ∀ i ∈ seg a.prim f l, Covers (a.node id) (boxes i) := by
  rcases Nat.lt_or_ge f l with h | h
  · exact (r.box h).1
  · have : f = l := le_antisymm r.le h
    subst this
    rw [seg_self]; simp

theorem Good.walk {boxes : Nat → Box} {nodes n d : Nat} {a : Arrays} (hodd : nodes % 2 = 1) {id f l : Nat}
    (h : Good boxes nodes a id f l) :
    ∀ k, nodes + 1 ≤ (id + 1) * 2 ^ (k + 1) →
      Walk { n := n, aabb := boxes, depth := d, nodes := nodes, arr := { a with nchild := mark a.nchild nodes } } k id f l := by
  induction h with
  | @leaf id f l h r e =>
    intro k _
    refine .leaf h r.le ?_ r.offset
    dsimp only
    unfold mark
    rw [mark_fold, if_neg, r.nchild]
    rintro ⟨h1, h2, -⟩
    rw [r.nchild] at h2
    omega
  | @inner id f l m h r hl hr ihl ihr =>
    intro k hk
    by_cases hm : a.nchild id > 8
    · cases k with
      | zero => omega
      | succ k =>
        have hk1 : nodes + 1 ≤ (2 * id + 1 + 1) * 2 ^ (k + 1) := by
          have : (id + 1) * 2 ^ (k + 1 + 1) = (2 * id + 1 + 1) * 2 ^ (k + 1) := by ring
          omega
        have hk2 : nodes + 1 ≤ (2 * id + 2 + 1) * 2 ^ (k + 1) := by
          refine hk1.trans (Nat.mul_le_mul_right _ (by omega))
        refine .inner m ?_ h hl.rec'.covers hr.rec'.covers hl.le hr.le (ihl k hk1) (ihr k hk2)
        dsimp only
        unfold mark
        rw [mark_fold, if_pos]
        refine ⟨by omega, hm, ?_⟩
        rw [r.nchild, hl.rec'.nchild, hr.rec'.nchild]; ring
    · refine .leaf (by dsimp only; omega) r.le ?_ r.offset
      dsimp only
      unfold mark
      rw [mark_fold, if_neg (by tauto), r.nchild]

/-- What every traversal may assume about a constructed tree. -/
structure Built (t : Tree) : Prop where
  perm : t.arr.prim.Perm (List.range t.n)
  walk : Walk t t.depth 0 0 t.n
  nodes : t.nodes = 2 * 2 ^ t.depth - 1
  depth : t.depth < 30

/-- The arrays before marking. -/
theorem build_good {S : Std} (hS : S.OK) {algo : Algo} {n : Nat} {boxes : Nat → Box} {depth : Int} {t : Tree}
    (h : build S algo n boxes depth = some t) :
    ∃ a, Good boxes t.nodes a 0 0 n ∧ t.arr = { a with nchild := mark a.nchild t.nodes } ∧ a.prim.Perm (List.range n) ∧
      t.n = n ∧ t.aabb = boxes ∧ t.nodes = 2 * 2 ^ t.depth - 1 ∧ t.depth < 30 ∧ 0 < n := by
  unfold build at h
  split at h
  · cases h
  rename_i hn
  dsimp only at h
  split at h
  · cases h
  rename_i hd
  injection h with h
  subst h
  dsimp only
  generalize hdd : (chooseDepth S n depth).toNat = dd
  have hpos : 0 < 2 ^ dd := by positivity
  have hodd : (2 * 2 ^ dd - 1) % 2 = 1 := by omega
  obtain ⟨⟨q, hq, e⟩, -, g⟩ := computeNodes_spec hS algo boxes hodd (2 * 2 ^ dd - 1)
    { prim := List.range n, offset := fun _ => -1, nchild := fun _ => 0, node := fun _ => ⟨0, 0⟩ } 0 0 n (by omega)
    (Nat.zero_le _) (by simp)
  refine ⟨_, g (by omega), rfl, ?_, rfl, rfl, rfl, by omega, by omega⟩
  rw [e]
  simp only [List.take_zero, List.nil_append]
  have e1 : List.drop n (List.range n) = [] := by simp
  rw [e1, List.append_nil]
  refine hq.trans ?_
  unfold seg
  simp

theorem build_built {S : Std} (hS : S.OK) {algo : Algo} {n : Nat} {boxes : Nat → Box} {depth : Int} {t : Tree}
    (h : build S algo n boxes depth = some t) : Built t := by
  obtain ⟨a, g, harr, hp, hn, hb, hnodes, hd, -⟩ := build_good hS h
  have hpos : 0 < 2 ^ t.depth := by positivity
  have hodd : t.nodes % 2 = 1 := by omega
  have hw := g.walk (n := n) (d := t.depth) hodd t.depth (by rw [hnodes, pow_succ]; omega)
  obtain ⟨tn, taabb, tdepth, tnodes, tarr⟩ := t
  dsimp only at *
  subst harr hn hb
  exact ⟨hp, hw, hnodes, hd⟩

/-! ### the loop over the stack -/

section
variable {σ : Type} {t : Tree} {visit : σ → Nat → σ × Bool} {push : σ → Nat → List Nat}

/-- The hypotheses on the two actions: `I` is an invariant, `Safe s i`: daughter `i` needs no further visit, `Final`: what
holds on an early return. -/
structure Actions (t : Tree) (visit : σ → Nat → σ × Bool) (push : σ → Nat → List Nat) (I : σ → Prop)
    (Safe : σ → Nat → Prop) (Final : σ → Prop) : Prop where
  visited : ∀ s i, I s → i < t.n → (visit s i).2 = false →
    I (visit s i).1 ∧ Safe (visit s i).1 i ∧ ∀ j, Safe s j → Safe (visit s i).1 j
  stop : ∀ s i, I s → i < t.n → (visit s i).2 = true → Final (visit s i).1
  pushed : ∀ s id, I s → push s id = [] ∨ push s id = [2 * id + 1] ∨ push s id = [2 * id + 2] ∨
    push s id = [2 * id + 1, 2 * id + 2] ∨ push s id = [2 * id + 2, 2 * id + 1]
  skip : ∀ s id c, I s → (c = 2 * id + 1 ∨ c = 2 * id + 2) → c ∉ push s id → ∀ i, i < t.n →
    Covers (t.arr.node c) (t.aabb i) → Safe s i

theorem leafLoop_spec {I : σ → Prop} {Safe : σ → Nat → Prop} {Final : σ → Prop}
    (hA : Actions t visit push I Safe Final) (hlt : ∀ i ∈ t.arr.prim, i < t.n) :
    ∀ (k f : Nat) (s : σ), f + k ≤ t.arr.prim.length → I s →
      ∃ s', (leafLoop t visit k f s = some (s', true) ∧ Final s') ∨
        (leafLoop t visit k f s = some (s', false) ∧ I s' ∧ (∀ i ∈ seg t.arr.prim f (f + k), Safe s' i) ∧
          ∀ j, Safe s j → Safe s' j) := by
  intro k
  induction k with
  | zero =>
    intro f s _ hI
    exact ⟨s, Or.inr ⟨rfl, hI, by simp [seg], fun _ h => h⟩⟩
  | succ k ih =>
    intro f s hl hI
    have hf : f < t.arr.prim.length := by omega
    have hget : t.arr.prim[((f : Int)).toNat]? = some t.arr.prim[f] := by simp [hf]
    have hn : t.arr.prim[f] < t.n := hlt _ (List.getElem_mem hf)
    rw [leafLoop, if_neg (by omega), hget]
    dsimp only
    rw [if_neg (by omega)]
    by_cases hv : (visit s t.arr.prim[f]).2 = true
    · rw [if_pos hv]
      refine ⟨(visit s t.arr.prim[f]).1, Or.inl ⟨?_, hA.stop _ _ hI hn hv⟩⟩
      rw [← hv]
    · rw [if_neg hv]
      have hv' : (visit s t.arr.prim[f]).2 = false := by simpa using hv
      obtain ⟨i1, i2, i3⟩ := hA.visited _ _ hI hn hv'
      obtain ⟨s', h⟩ := ih (f + 1) (visit s t.arr.prim[f]).1 (by omega) i1
      refine ⟨s', ?_⟩
      have e : ((f : Int) + 1) = ((f + 1 : Nat) : Int) := by push_cast; rfl
      rw [e]
      rcases h with ⟨h1, h2⟩ | ⟨h1, h2, h3, h4⟩
      · exact Or.inl ⟨h1, h2⟩
      · refine Or.inr ⟨h1, h2, ?_, fun j hj => h4 j (i3 j hj)⟩
        intro i hi
        have hcut := seg_cut (prim := t.arr.prim) (f := f) (m := f + 1) (l := f + (k + 1)) (by omega) (by omega)
        rw [← hcut, List.mem_append] at hi
        rcases hi with hi | hi
        · have : seg t.arr.prim f (f + 1) = [t.arr.prim[f]] := by
            unfold seg
            have e3 : f + 1 - f = 1 := by omega
            rw [List.drop_eq_getElem_cons hf, e3]
            rfl
          rw [this, List.mem_singleton] at hi
          subst hi
          exact h4 _ i2
        · have e2 : f + 1 + k = f + (k + 1) := by omega
          rw [e2] at h3
          exact h3 i hi

/-- The pending nodes: `w` bounds the number of iterations, `pend` lists the daughters below the pending nodes. -/
inductive Pending (t : Tree) (d : Nat) : List Nat → Nat → List Nat → Prop
  | nil : Pending t d [] 0 []
  | cons {k id f l w : Nat} {rest pend : List Nat} : Walk t k id f l → l ≤ t.arr.prim.length → rest.length + k ≤ d →
      Pending t d rest w pend → Pending t d (id :: rest) (2 ^ (k + 1) - 1 + w) (seg t.arr.prim f l ++ pend)

theorem Pending.length_le {d : Nat} {stack : List Nat} {w : Nat} {pend : List Nat} (h : Pending t d stack w pend) :
    stack.length ≤ d + 1 := by
  cases h with
  | nil => simp
  | cons _ _ h _ => simp only [List.length_cons]; omega

theorem Walk.lt {k id f l : Nat} (h : Walk t k id f l) : id < t.nodes := by
  cases h with
  | leaf h _ _ _ => exact h
  | inner _ _ h _ _ _ _ _ _ => omega

theorem traverse_spec {I : σ → Prop} {Safe : σ → Nat → Prop} {Final : σ → Prop}
    (hA : Actions t visit push I Safe Final) (hlt : ∀ i ∈ t.arr.prim, i < t.n) {lim d : Nat} (hlim : d + 1 ≤ lim) :
    ∀ (fuel : Nat) (stack : List Nat) (w : Nat) (pend : List Nat) (s : σ), Pending t d stack w pend → w ≤ fuel → I s →
      (∀ i, i < t.n → Safe s i ∨ i ∈ pend) →
      ∃ s', traverse t lim visit push fuel s stack = some s' ∧ (Final s' ∨ (I s' ∧ ∀ i, i < t.n → Safe s' i)) := by
  intro fuel
  induction fuel with
  | zero =>
    intro stack w pend s hp hw hI hs
    cases hp with
    | nil => exact ⟨s, by simp [traverse], Or.inr ⟨hI, fun i hi => by simpa using hs i hi⟩⟩
    | @cons k _ _ _ _ _ _ _ _ _ _ =>
      have : 0 < 2 ^ k := by positivity
      rw [pow_succ] at hw; omega
  | succ fuel ih =>
    intro stack w pend s hp hw hI hs
    cases hp with
    | nil => exact ⟨s, by simp [traverse], Or.inr ⟨hI, fun i hi => by simpa using hs i hi⟩⟩
    | @cons k id f l w' rest pend' hwalk hl hd hrest =>
      have h2k : 0 < 2 ^ k := by positivity
      rw [pow_succ] at hw
      rw [traverse, if_neg (by have := hwalk.lt; omega)]
      cases hwalk with
      | leaf hid hfl hn ho =>
        rw [if_pos (by rw [hn]; omega), hn, ho]
        have e : ((l : Int) - f).toNat = l - f := by omega
        rw [e]
        obtain ⟨s', h⟩ := leafLoop_spec hA hlt (l - f) f s (by omega) hI
        rcases h with ⟨h1, h2⟩ | ⟨h1, h2, h3, h4⟩
        · rw [h1]
          exact ⟨s', rfl, Or.inl h2⟩
        · rw [h1]
          dsimp only
          refine ih rest w' pend' s' hrest (by omega) h2 ?_
          intro i hi
          have e2 : f + (l - f) = l := by omega
          rw [e2] at h3
          rcases hs i hi with h | h
          · exact Or.inl (h4 i h)
          · rcases List.mem_append.mp h with h | h
            · exact Or.inl (h3 i h)
            · exact Or.inr h
      | @inner k' _ _ _ m hn h2 hL hR hfm hml hwl hwr =>
        rw [if_neg (by rw [hn]; omega), if_neg (by omega)]
        dsimp only
        -- what is known of each child
        have cut := seg_cut (prim := t.arr.prim) hfm hml
        have hskip : ∀ c, (c = 2 * id + 1 ∨ c = 2 * id + 2) → c ∉ push s id → ∀ i, i < t.n →
            Covers (t.arr.node c) (t.aabb i) → Safe s i := fun c hc h => hA.skip s id c hI hc h
        have pl : ∀ (rest : List Nat) (w : Nat) (pend : List Nat), rest.length + k' ≤ d → Pending t d rest w pend →
            Pending t d ((2 * id + 1) :: rest) (2 ^ (k' + 1) - 1 + w) (seg t.arr.prim f m ++ pend) :=
          fun rest w pend h hp => .cons hwl (by omega) h hp
        have pr : ∀ (rest : List Nat) (w : Nat) (pend : List Nat), rest.length + k' ≤ d → Pending t d rest w pend →
            Pending t d ((2 * id + 2) :: rest) (2 ^ (k' + 1) - 1 + w) (seg t.arr.prim m l ++ pend) :=
          fun rest w pend h hp => .cons hwr hl h hp
        have h2k' : 0 < 2 ^ k' := by positivity
        rw [pow_succ] at hw
        have finish : ∀ (stack' : List Nat) (w2 : Nat) (pend2 : List Nat), Pending t d stack' w2 pend2 → w2 ≤ fuel →
            (∀ i, i < t.n → Safe s i ∨ i ∈ pend2) →
            ∃ s', (if stack'.length > lim then none else traverse t lim visit push fuel s stack') = some s' ∧
              (Final s' ∨ (I s' ∧ ∀ i, i < t.n → Safe s' i)) := by
          intro stack' w2 pend2 hp2 hw2 hs2
          rw [if_neg (by have := hp2.length_le; omega)]
          exact ih stack' w2 pend2 s hp2 hw2 hI hs2
        have hmem : ∀ i, i < t.n → Safe s i ∨ i ∈ seg t.arr.prim f m ∨ i ∈ seg t.arr.prim m l ∨ i ∈ pend' := by
          intro i hi
          rcases hs i hi with h | h
          · exact Or.inl h
          · rw [← cut, List.append_assoc] at h
            simpa only [List.mem_append] using Or.inr h
        rcases hA.pushed s id hI with e | e | e | e | e
        · rw [e] at hskip ⊢
          refine finish rest w' pend' hrest (by omega) (fun i hi => ?_)
          rcases hmem i hi with h | h | h | h
          · exact Or.inl h
          · exact Or.inl (hskip _ (Or.inl rfl) (by simp) i hi (hL i h))
          · exact Or.inl (hskip _ (Or.inr rfl) (by simp) i hi (hR i h))
          · exact Or.inr h
        · rw [e] at hskip ⊢
          refine finish ((2 * id + 1) :: rest) _ _ (pl rest w' pend' (by omega) hrest) (by rw [pow_succ]; omega) (fun i hi => ?_)
          rcases hmem i hi with h | h | h | h
          · exact Or.inl h
          · exact Or.inr (List.mem_append_left _ h)
          · exact Or.inl (hskip _ (Or.inr rfl) (by simp) i hi (hR i h))
          · exact Or.inr (List.mem_append_right _ h)
        · rw [e] at hskip ⊢
          refine finish ((2 * id + 2) :: rest) _ _ (pr rest w' pend' (by omega) hrest) (by rw [pow_succ]; omega) (fun i hi => ?_)
          rcases hmem i hi with h | h | h | h
          · exact Or.inl h
          · exact Or.inl (hskip _ (Or.inl rfl) (by simp) i hi (hL i h))
          · exact Or.inr (List.mem_append_left _ h)
          · exact Or.inr (List.mem_append_right _ h)
        · rw [e]
          refine finish ((2 * id + 2) :: (2 * id + 1) :: rest) _ _
            (pr _ _ _ (by simp only [List.length_cons]; omega) (pl rest w' pend' (by omega) hrest))
            (by rw [pow_succ]; omega) (fun i hi => ?_)
          rcases hmem i hi with h | h | h | h
          · exact Or.inl h
          · exact Or.inr (List.mem_append_right _ (List.mem_append_left _ h))
          · exact Or.inr (List.mem_append_left _ h)
          · exact Or.inr (List.mem_append_right _ (List.mem_append_right _ h))
        · rw [e]
          refine finish ((2 * id + 1) :: (2 * id + 2) :: rest) _ _
            (pl _ _ _ (by simp only [List.length_cons]; omega) (pr rest w' pend' (by omega) hrest))
            (by rw [pow_succ]; omega) (fun i hi => ?_)
          rcases hmem i hi with h | h | h | h
          · exact Or.inl h
          · exact Or.inr (List.mem_append_left _ h)
          · exact Or.inr (List.mem_append_right _ (List.mem_append_left _ h))
          · exact Or.inr (List.mem_append_right _ (List.mem_append_right _ h))

/-- A traversal from the root of a constructed tree ends normally, with a stack of `depth + 1` entries. -/
theorem traverse_root {I : σ → Prop} {Safe : σ → Nat → Prop} {Final : σ → Prop} (ht : Built t)
    (hA : Actions t visit push I Safe Final) {lim : Nat} (hlim : t.depth + 1 ≤ lim) {s : σ} (hI : I s) :
    ∃ s', traverse t lim visit push (fuel t) s [0] = some s' ∧ (Final s' ∨ (I s' ∧ ∀ i, i < t.n → Safe s' i)) := by
  have hlen : t.arr.prim.length = t.n := by rw [ht.perm.length_eq]; simp
  have hp : Pending t t.depth [0] (2 ^ (t.depth + 1) - 1 + 0) (seg t.arr.prim 0 t.n ++ []) :=
    .cons ht.walk (by omega) (by simp) .nil
  refine traverse_spec hA (fun i hi => by simpa using ht.perm.mem_iff.mp hi) hlim _ _ _ _ s hp ?_ hI ?_
  · unfold fuel; rw [ht.nodes, pow_succ]; omega
  · intro i hi
    right
    have : seg t.arr.prim 0 t.n = t.arr.prim := by unfold seg; simp [← hlen]
    rw [this, List.append_nil]
    exact ht.perm.mem_iff.mpr (by simpa using hi)

end

end BVH
end VecGeom
