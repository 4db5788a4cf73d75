import Verif.Hybrid.Model
import Verif.AABB.Props
import Mathlib.Data.List.Perm.Basic
import Mathlib.Data.List.Flatten
import Mathlib.Tactic.Linarith
import Mathlib.Tactic.Ring

/-!
# Lemmas on clusters and lane-packed arrays
-/

namespace VecGeom
namespace Hybrid

open AABB

/-! ### rounding up -/

theorem le_ceilDiv_mul (n : Nat) {V : Nat} (hV : 0 < V) : n ≤ ceilDiv n V * V := by
  have h := Nat.div_add_mod n V
  have h2 := Nat.mod_lt n hV
  unfold ceilDiv
  split
  · rw [Nat.add_zero, Nat.mul_comm]; omega
  · rw [Nat.add_mul, Nat.mul_comm (n / V), Nat.one_mul]; omega

theorem ceilDiv_pred_mul {n V : Nat} (hn : 0 < n) : (ceilDiv n V - 1) * V < n := by
  have h := Nat.div_add_mod n V
  unfold ceilDiv
  split
  · rename_i h0
    have hq : 0 < n / V := by
      rcases Nat.eq_zero_or_pos (n / V) with h1 | h1
      · rw [h1, h0] at h; omega
      · exact h1
    have hV : 0 < V := by
      rcases Nat.eq_zero_or_pos V with h1 | h1
      · rw [h1, Nat.div_zero] at hq; omega
      · exact h1
    rw [Nat.add_zero, Nat.sub_mul, Nat.mul_comm (n / V)]
    omega
  · rw [Nat.add_sub_cancel, Nat.mul_comm]; omega

theorem ceilDiv_pos {n V : Nat} (hn : 0 < n) (hV : 0 < V) : 0 < ceilDiv n V := by
  have := le_ceilDiv_mul n hV
  rcases Nat.eq_zero_or_pos (ceilDiv n V) with h | h
  · rw [h] at this; omega
  · exact h

/-- Below the rounded-up quotient. -/
theorem lt_ceilDiv {g n V : Nat} (hV : 0 < V) : g < ceilDiv n V ↔ g * V < n := by
  constructor
  · intro h
    rcases Nat.eq_zero_or_pos n with h0 | h0
    · subst h0
      simp [ceilDiv] at h
    · have h1 := ceilDiv_pred_mul (V := V) h0
      have h2 : g * V ≤ (ceilDiv n V - 1) * V := Nat.mul_le_mul_right V (by omega)
      omega
  · intro h
    have h1 := le_ceilDiv_mul n hV
    by_contra hc
    have h2 : ceilDiv n V * V ≤ g * V := Nat.mul_le_mul_right V (by omega)
    omega

/-! ### clusters -/

theorem foldl_pick_mem (f : Nat → Nat → Nat) (hf : ∀ a x, f a x = a ∨ f a x = x) (l : List Nat) (a : Nat) :
    l.foldl f a ∈ a :: l := by
  induction l generalizing a with
  | nil => simp
  | cons x l ih =>
    rw [List.foldl_cons]
    have := ih (f a x)
    rcases hf a x with h | h <;> rw [h] at this ⊢
    · rcases List.mem_cons.mp this with h1 | h1
      · rw [h1]; exact List.mem_cons_self
      · exact List.mem_cons_of_mem _ (List.mem_cons_of_mem _ h1)
    · exact List.mem_cons_of_mem _ this

theorem maxElement_spec (cen : Nat → V3) (c : V3) {l : List Nat} (h : l ≠ []) : ∃ a ∈ l, maxElement cen c l = some a := by
  cases l with
  | nil => exact absurd rfl h
  | cons a l =>
    refine ⟨_, foldl_pick_mem _ (fun a x => ?_) l a, rfl⟩
    by_cases hc : V3.mag2 (cen a - c) < V3.mag2 (cen x - c)
    · right; rw [if_pos hc]
    · left; rw [if_neg hc]

theorem minElement_spec (cen : Nat → V3) (c : V3) {l : List Nat} (h : l ≠ []) : ∃ a ∈ l, minElement cen c l = some a := by
  cases l with
  | nil => exact absurd rfl h
  | cons a l =>
    refine ⟨_, foldl_pick_mem _ (fun a x => ?_) l a, rfl⟩
    by_cases hc : V3.mag2 (cen x - c) < V3.mag2 (cen a - c)
    · right; rw [if_pos hc]
    · left; rw [if_neg hc]

theorem fillCluster_spec (cen : Nat → V3) (need : Nat) : ∀ (set cl : List Nat) (mean cmean : V3), set ≠ [] →
    ∃ set' added mean', fillCluster cen need set cl mean cmean = some (set', cl ++ added, mean') ∧
      (added ++ set').Perm set ∧ added.length = min need set.length := by
  induction need with
  | zero => intro set cl mean cmean _; exact ⟨set, [], mean, by simp [fillCluster], by simp, by simp⟩
  | succ need ih =>
    intro set cl mean cmean hne
    obtain ⟨a, ha, e⟩ : ∃ a ∈ set, (if cl.length = 0 then maxElement cen mean set else minElement cen cmean set) = some a := by
      split
      · exact maxElement_spec cen mean hne
      · exact minElement_spec cen cmean hne
    have hp := List.perm_cons_erase ha
    have hl := hp.length_eq
    rw [List.length_cons] at hl
    rw [fillCluster, e]
    dsimp only [Option.bind_some]
    by_cases h : set.erase a = []
    · rw [if_pos h]
      refine ⟨_, [a], _, rfl, ?_, ?_⟩
      · rw [List.singleton_append]; exact hp.symm
      · rw [h, List.length_nil] at hl
        rw [hl]; simp
    · rw [if_neg h]
      obtain ⟨set', added, mean', e', hp', hl'⟩ := ih (set.erase a) (cl ++ [a]) _ _ h
      rw [e']
      refine ⟨set', a :: added, mean', by simp, ?_, ?_⟩
      · rw [List.cons_append]; exact (hp'.cons a).trans hp.symm
      · rw [List.length_cons, hl']; omega

theorem clusterLoop_spec (cen : Nat → V3) {cs : Nat} (hcs : 0 < cs) (k : Nat) : ∀ (set : List Nat) (mean : V3),
    set.length ≤ k * cs →
    ∃ cls, clusterLoop cen cs k set mean = some cls ∧ cls.length = k ∧ cls.flatten.Perm set ∧ (∀ c ∈ cls, c.length ≤ cs) ∧
      ((k - 1) * cs < set.length → ∀ c ∈ cls, c ≠ []) := by
  induction k with
  | zero =>
    intro set mean h
    have : set = [] := List.length_eq_zero_iff.mp (by omega)
    subst this
    exact ⟨[], rfl, rfl, List.Perm.refl _, by simp, by simp⟩
  | succ k ih =>
    intro set mean h
    rw [clusterLoop]
    by_cases h0 : set = []
    · rw [if_pos h0]
      refine ⟨_, rfl, by simp, ?_, ?_, ?_⟩
      · rw [h0]; simp
      · intro c hc
        rw [List.eq_of_mem_replicate hc]; simp
      · rw [h0]; simp
    · rw [if_neg h0]
      have hpos := List.length_pos_iff.mpr h0
      obtain ⟨set', added, mean', e, hp, hl⟩ := fillCluster_spec cen cs set [] mean 0 h0
      rw [e]
      have hl2 := hp.length_eq
      rw [List.length_append] at hl2
      rw [Nat.succ_mul] at h
      obtain ⟨cls, e2, hlen, hp2, hle, hne⟩ := ih set' mean' (by omega)
      rw [Option.bind_some, e2]
      refine ⟨_, rfl, by simp [hlen], ?_, ?_, ?_⟩
      · rw [List.flatten_cons, List.nil_append]
        exact (hp2.append_left added).trans hp
      · intro c hc
        rcases List.mem_cons.mp hc with rfl | hc
        · omega
        · exact hle c hc
      · intro hk c hc
        rw [Nat.add_sub_cancel] at hk
        rcases List.mem_cons.mp hc with rfl | hc
        · intro h1
          rw [h1, List.length_nil] at hl
          omega
        · refine hne ?_ c hc
          have hk0 : 0 < k := by
            rw [← hlen]
            exact List.length_pos_of_mem hc
          have : (k - 1) * cs + cs = k * cs := by
            rw [← Nat.succ_mul]; congr 1; omega
          omega

/-- Properties of the clusters built for `n` daughters and `V` lanes. -/
structure Clustering (n V : Nat) (cls : List (List Nat)) : Prop where
  length : cls.length = ceilDiv n V
  perm : cls.flatten.Perm (List.range n)
  size : ∀ c ∈ cls, c.length ≤ V
  nonempty : ∀ c ∈ cls, c ≠ []

theorem initClusters_spec (boxes : Nat → Box) {n V : Nat} (hn : 0 < n) (hV : 0 < V) :
    ∃ cls, initClusters boxes n (ceilDiv n V) = some cls ∧ Clustering n V cls := by
  have hk := ceilDiv_pos hn hV
  have h1 := le_ceilDiv_mul n hV
  have h2 := ceilDiv_pred_mul (V := V) hn
  unfold initClusters
  rw [if_neg (by omega)]
  dsimp only
  generalize hkk : ceilDiv n V = k at *
  have hcsle : (n + k - 1) / k ≤ V := by
    rw [← Nat.lt_succ_iff, Nat.div_lt_iff_lt_mul hk, Nat.succ_mul, Nat.mul_comm V]
    omega
  have hcs : 0 < (n + k - 1) / k := Nat.div_pos (by omega) hk
  have hcover : n ≤ k * ((n + k - 1) / k) := by
    have a1 := Nat.div_add_mod (n + k - 1) k
    have a2 := Nat.mod_lt (n + k - 1) hk
    omega
  have hlast : (k - 1) * ((n + k - 1) / k) < n :=
    (Nat.mul_le_mul_left (k - 1) hcsle).trans_lt h2
  obtain ⟨cls, e, hl, hp, hle, hne⟩ := clusterLoop_spec (fun i => boxCenter (boxes i)) hcs k (List.range n)
    (V3.smul (1 / (n : ℝ)) ((List.range n).foldl (fun m i => m + boxCenter (boxes i)) 0)) (by rw [List.length_range]; exact hcover)
  refine ⟨cls, e, ⟨by rw [hl, hkk], hp, fun c hc => (hle c hc).trans hcsle, hne ?_⟩⟩
  rw [List.length_range]
  exact hlast

/-! ### the array -/

theorem assign_spec {V : Nat} {s : Store} {i l : Nat} (hi : i < s.size) (hl : l < V) (v : V3) :
    ∃ s', s.assign V i l v = some s' ∧ s'.size = s.size ∧ s'.val i l = v ∧
      ∀ i' l', ¬ (i' = i ∧ l' = l) → s'.val i' l' = s.val i' l' := by
  refine ⟨_, if_pos ⟨hi, hl⟩, rfl, ?_, ?_⟩
  · simp
  · intro i' l' h
    dsimp only
    rw [if_neg h]

/-- The corners of a node: running minima and maxima over the cluster. -/
noncomputable def nodeBox (boxes : Nat → Box) (c : List Nat) : Box := c.foldl (fun b a => b.union (boxes a)) startBox

theorem fillLeaf_spec {V : Nat} (boxes : Nat → Box) {vi : Nat} (c : List Nat) : ∀ (d : Nat) (s : Store) (nb : Box),
    vi + 1 < s.size → d + c.length ≤ V →
    ∃ s', fillLeaf V boxes vi c d s nb = some (s', c.foldl (fun b a => b.union (boxes a)) nb) ∧ s'.size = s.size ∧
      (∀ j (hj : j < c.length), s'.box vi (d + j) = boxes c[j]) ∧
      (∀ i l, (i ≠ vi ∧ i ≠ vi + 1) ∨ l < d ∨ d + c.length ≤ l → s'.val i l = s.val i l) := by
  induction c with
  | nil => intro d s nb _ _; exact ⟨s, rfl, rfl, by simp, fun _ _ _ => rfl⟩
  | cons a c ih =>
    intro d s nb hs hd
    rw [List.length_cons] at hd
    obtain ⟨s1, e1, z1, v1, o1⟩ := assign_spec (V := V) (s := s) (i := vi) (l := d) (by omega) (by omega) (boxes a).lo
    obtain ⟨s2, e2, z2, v2, o2⟩ := assign_spec (V := V) (s := s1) (i := vi + 1) (l := d) (by omega) (by omega) (boxes a).hi
    obtain ⟨s3, e3, z3, b3, o3⟩ := ih (d + 1) s2 (nb.union (boxes a)) (by omega) (by omega)
    refine ⟨s3, ?_, by omega, ?_, ?_⟩
    · rw [fillLeaf, e1, Option.bind_some, e2, Option.bind_some, e3, List.foldl_cons]
    · intro j hj
      cases j with
      | zero =>
        have h1 : s3.val vi d = (boxes a).lo := by rw [o3 _ _ (by omega), o2 _ _ (by omega), v1]
        have h2 : s3.val (vi + 1) d = (boxes a).hi := by rw [o3 _ _ (by omega), v2]
        rw [Store.box, Nat.add_zero, h1, h2]
        rfl
      | succ j =>
        have := b3 j (by simpa using hj)
        rw [List.getElem_cons_succ, ← this]
        congr 1
        omega
    · intro i l h
      rw [List.length_cons] at h
      rw [o3 _ _ (by omega), o2 _ _ (by omega), o1 _ _ (by omega)]

def leafIdx (V i : Nat) : Nat := 2 * (i + i / V + 1)
def nodeIdx (V i : Nat) : Nat := 2 * (V + 1) * (i / V)

theorem leafIdx_eq (V i : Nat) : leafIdx V i = 2 * ((V + 1) * (i / V) + (i % V + 1)) := by
  have h := Nat.div_add_mod i V
  unfold leafIdx
  rw [Nat.add_mul, Nat.one_mul]
  omega

theorem nodeIdx_eq (V i : Nat) : nodeIdx V i = 2 * ((V + 1) * (i / V)) := by
  unfold nodeIdx; rw [Nat.mul_assoc]

/-- Different positions do not overlap. -/
theorem leaf_ne_node {V : Nat} (hV : 0 < V) (i i' : Nat) : leafIdx V i / 2 ≠ nodeIdx V i' / 2 := by
  rw [leafIdx_eq, nodeIdx_eq, Nat.mul_div_cancel_left _ (by omega), Nat.mul_div_cancel_left _ (by omega)]
  intro h
  have h1 := Nat.mod_lt i hV
  have h2 := congrArg (· % (V + 1)) h
  simp only [Nat.mul_mod_right, Nat.mul_add_mod] at h2
  rw [Nat.mod_eq_of_lt (by omega)] at h2
  omega

theorem leafIdx_inj {V i i' : Nat} (h : leafIdx V i = leafIdx V i') : i = i' := by
  unfold leafIdx at h
  rcases Nat.lt_trichotomy i i' with h1 | h1 | h1
  · have := Nat.div_le_div_right (c := V) h1.le; omega
  · exact h1
  · have := Nat.div_le_div_right (c := V) h1.le; omega

theorem nodeIdx_inj {V i i' : Nat} (hm : i % V = i' % V) (h : nodeIdx V i = nodeIdx V i') : i = i' := by
  rw [nodeIdx_eq, nodeIdx_eq] at h
  have h1 : i / V = i' / V := 
    Nat.eq_of_mul_eq_mul_left (Nat.succ_pos V) (show (V + 1) * (i / V) = (V + 1) * (i' / V) by omega)
  rw [← Nat.div_add_mod i V, ← Nat.div_add_mod i' V, h1, hm]

theorem leafIdx_even (V i : Nat) : leafIdx V i % 2 = 0 := by unfold leafIdx; omega
theorem nodeIdx_even (V i : Nat) : nodeIdx V i % 2 = 0 := by rw [nodeIdx_eq]; omega

/-- State of the array after the nodes of `done` have been stored. -/
structure Filled (V : Nat) (M : ℝ) (boxes : Nat → Box) (done : List (List Nat)) (s : Store) : Prop where
  leaf : ∀ i (hi : i < done.length) j (hj : j < done[i].length), s.box (leafIdx V i) j = boxes done[i][j]
  leafPad : ∀ i (hi : i < done.length) j, done[i].length ≤ j → s.box (leafIdx V i) j = padBox M
  node : ∀ i (hi : i < done.length), s.box (nodeIdx V i) (i % V) = nodeBox boxes done[i]
  nodePad : ∀ i, done.length ≤ i → s.box (nodeIdx V i) (i % V) = padBox M
  leafFree : ∀ i, done.length ≤ i → ∀ j, s.box (leafIdx V i) j = padBox M

theorem box_congr {s s' : Store} {i l : Nat} (h1 : s'.val i l = s.val i l) (h2 : s'.val (i + 1) l = s.val (i + 1) l) :
    s'.box i l = s.box i l := by rw [Store.box, Store.box, h1, h2]

theorem fillNodes_spec {V : Nat} (hV : 0 < V) (M : ℝ) (boxes : Nat → Box) (cs : List (List Nat)) :
    ∀ (done : List (List Nat)) (vi : Nat) (s : Store), (∀ c ∈ cs, c.length ≤ V) →
    (vi = if done.length % V = 0 then leafIdx V done.length - 2 else leafIdx V done.length) →
    s.size = 2 * (ceilDiv (done ++ cs).length V + (done ++ cs).length) →
    Filled V M boxes done s →
    ∃ s', fillNodes V boxes cs done.length vi s = some s' ∧ s'.size = s.size ∧ Filled V M boxes (done ++ cs) s' := by
  induction cs with
  | nil => intro done vi s _ _ _ h; exact ⟨s, rfl, rfl, by rwa [List.append_nil]⟩
  | cons c cs ih =>
    intro done vi s hsz hvi hsize hF
    set i := done.length with hi
    have hvi' : (if i % V = 0 then vi + 2 else vi) = leafIdx V i := by
      rw [hvi]
      split
      · unfold leafIdx
        generalize i / V = q
        omega
      · rfl
    have hik : i < (done ++ c :: cs).length := by simp [hi]
    have hdiv : i / V < ceilDiv (done ++ c :: cs).length V := by
      rw [lt_ceilDiv hV]
      exact (Nat.div_mul_le_self i V).trans_lt hik
    have hmod := Nat.mod_lt i hV
    have hdm := Nat.div_add_mod i V
    have hleafb : leafIdx V i + 1 < s.size := by
      rw [hsize]; unfold leafIdx
      clear hdm hvi hvi'
      generalize i / V = q at *
      omega
    have hnodeb : nodeIdx V i + 1 < s.size := by
      rw [hsize, nodeIdx_eq, Nat.add_mul, Nat.one_mul]; omega
    have hlen := hsz c List.mem_cons_self
    obtain ⟨s1, e1, z1, b1, o1⟩ := fillLeaf_spec (V := V) boxes (vi := leafIdx V i) c 0 s startBox hleafb (by omega)
    obtain ⟨s2, e2, z2, v2, o2⟩ := assign_spec (V := V) (s := s1) (i := nodeIdx V i) (l := i % V) (by omega) hmod
      (nodeBox boxes c).lo
    obtain ⟨s3, e3, z3, v3, o3⟩ := assign_spec (V := V) (s := s2) (i := nodeIdx V i + 1) (l := i % V) (by omega) hmod
      (nodeBox boxes c).hi
    -- what the three steps leave alone
    have keepLeaf : ∀ i' j, i' ≠ i → s3.box (leafIdx V i') j = s.box (leafIdx V i') j := by
      intro i' j hne
      have h1 : leafIdx V i' ≠ leafIdx V i := fun h => hne (leafIdx_inj h)
      have h2 := leaf_ne_node hV i' i
      have h3 := leafIdx_even V i'
      have h4 := leafIdx_even V i
      have h5 := nodeIdx_even V i
      refine box_congr ?_ ?_ <;> rw [o3 _ _ (by omega), o2 _ _ (by omega), o1 _ _ (by omega)]
    have ownLeaf : ∀ j, s3.box (leafIdx V i) j = s1.box (leafIdx V i) j := by
      intro j
      have h2 := leaf_ne_node hV i i
      have h4 := leafIdx_even V i
      have h5 := nodeIdx_even V i
      refine box_congr ?_ ?_ <;> rw [o3 _ _ (by omega), o2 _ _ (by omega)]
    have keepNode : ∀ i', i' ≠ i → s3.box (nodeIdx V i') (i' % V) = s.box (nodeIdx V i') (i' % V) := by
      intro i' hne
      have h1 : ¬ (i' % V = i % V ∧ nodeIdx V i' = nodeIdx V i) := fun h => hne (nodeIdx_inj h.1 h.2)
      have h2 := leaf_ne_node hV i i'
      have h3 := nodeIdx_even V i'
      have h4 := leafIdx_even V i
      have h5 := nodeIdx_even V i
      refine box_congr ?_ ?_ <;> rw [o3 _ _ (by omega), o2 _ _ (by omega), o1 _ _ (by omega)]
    have ownNode : s3.box (nodeIdx V i) (i % V) = nodeBox boxes c := by
      rw [Store.box, v3, o3 _ _ (by omega), v2]
    have hF' : Filled V M boxes (done ++ [c]) s3 := by
      refine ⟨?_, ?_, ?_, ?_, ?_⟩
      · intro i' hi' j hj
        rw [List.length_append, List.length_singleton] at hi'
        rcases Nat.lt_or_ge i' i with h | h
        · rw [List.getElem_append_left h] at hj
          rw [keepLeaf _ _ (by omega), hF.leaf i' h j hj]
          simp only [List.getElem_append_left h]
        · have : i' = i := by omega
          subst this
          rw [List.getElem_append_right (by omega)] at hj
          simp only [← hi, Nat.sub_self, List.getElem_cons_zero] at hj
          rw [ownLeaf]
          have := b1 j hj
          rw [Nat.zero_add] at this
          rw [this]
          simp [hi]
      · intro i' hi' j hj
        rw [List.length_append, List.length_singleton] at hi'
        rcases Nat.lt_or_ge i' i with h | h
        · rw [List.getElem_append_left h] at hj
          rw [keepLeaf _ _ (by omega), hF.leafPad i' h j hj]
        · have : i' = i := by omega
          subst this
          rw [List.getElem_append_right (by omega)] at hj
          simp only [← hi, Nat.sub_self, List.getElem_cons_zero] at hj
          rw [ownLeaf, ← hF.leafFree i (le_refl _) j]
          exact box_congr (o1 _ _ (by omega)) (o1 _ _ (by omega))
      · intro i' hi'
        rw [List.length_append, List.length_singleton] at hi'
        rcases Nat.lt_or_ge i' i with h | h
        · rw [keepNode _ (by omega), hF.node i' h, List.getElem_append_left h]
        · have : i' = i := by omega
          subst this
          rw [ownNode]
          simp [hi]
      · intro i' hi'
        rw [List.length_append, List.length_singleton] at hi'
        rw [keepNode _ (by omega), hF.nodePad i' (by omega)]
      · intro i' hi' j
        rw [List.length_append, List.length_singleton] at hi'
        rw [keepLeaf _ _ (by omega), hF.leafFree i' (by omega)]
    have hnext : leafIdx V i + 2 = if (i + 1) % V = 0 then leafIdx V (i + 1) - 2 else leafIdx V (i + 1) := by
      unfold leafIdx
      by_cases h : (i + 1) % V = 0
      · rw [if_pos h, Nat.succ_div_of_mod_eq_zero h]; omega
      · rw [if_neg h, Nat.succ_div_of_mod_ne_zero h]; omega
    obtain ⟨s', e, z, hF''⟩ := ih (done ++ [c]) (leafIdx V i + 2) s3 (fun c' h => hsz c' (List.mem_cons_of_mem _ h))
      (by rw [List.length_append, List.length_singleton, ← hi]; exact hnext)
      (by rw [z3, z2, z1, hsize, List.append_assoc, List.singleton_append]) hF'
    rw [List.append_assoc, List.singleton_append] at hF''
    refine ⟨s', ?_, by omega, hF''⟩
    rw [fillNodes]
    rw [hvi', e1, Option.bind_some]
    rw [show (List.foldl (fun b a => b.union (boxes a)) startBox c) = nodeBox boxes c from rfl]
    rw [show 2 * (V + 1) * (i / V) = nodeIdx V i from rfl, e2, Option.bind_some, e3, Option.bind_some]
    rw [List.length_append, List.length_singleton] at e
    exact e

/-- What is known about a structure built for `n` daughters. -/
structure Built (V : Nat) (M : ℝ) (boxes : Nat → Box) (n : Nat) (a : Acc) : Prop where
  n_eq : a.n = n
  cls : Clustering n V a.nodes
  size : a.store.size = 2 * (ceilDiv a.nodes.length V + a.nodes.length)
  filled : Filled V M boxes a.nodes a.store

theorem buildStructure_spec (boxes : Nat → Box) (M : ℝ) {n V : Nat} (hn : 0 < n) (hV : 0 < V) :
    ∃ a, buildStructure V M boxes n = some a ∧ Built V M boxes n a := by
  obtain ⟨cls, e, hc⟩ := initClusters_spec boxes hn hV
  obtain ⟨s, e2, z, hF⟩ := fillNodes_spec hV M boxes cls [] 0 ⟨2 * halfSize V n, fun _ _ => padV M⟩ hc.size
    (by simp [leafIdx]) (by simp [halfSize, hc.length])
    ⟨fun i hi => absurd hi (by simp), fun i hi => absurd hi (by simp), fun i hi => absurd hi (by simp),
     fun _ _ => rfl, fun _ _ _ => rfl⟩
  refine ⟨⟨n, s, cls⟩, ?_, ⟨rfl, hc, ?_, hF⟩⟩
  · unfold buildStructure
    rw [if_neg (by omega), e, Option.bind_some]
    rw [List.length_nil] at e2
    rw [e2]
    rfl
  · rw [z, halfSize, hc.length]

end Hybrid
end VecGeom
