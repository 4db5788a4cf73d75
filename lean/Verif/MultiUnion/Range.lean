import Verif.MultiUnion.Model
import Verif.Hybrid.Props

/-!
# The safety search with a decreasing limit
-/

namespace VecGeom
namespace MultiUnion

open AABB Hybrid

/-- The squared distance to the far corner. -/
noncomputable def far (p : V3) (b : Box) : ℝ := (b.safetyRangeSqr p).2

theorem far_eq (p : V3) (b : Box) : far p b =
    (|p.x - 1 / 2 * (b.hi.x + b.lo.x)| + 1 / 2 * (b.hi.x - b.lo.x)) * (|p.x - 1 / 2 * (b.hi.x + b.lo.x)| + 1 / 2 * (b.hi.x - b.lo.x)) +
    (|p.y - 1 / 2 * (b.hi.y + b.lo.y)| + 1 / 2 * (b.hi.y - b.lo.y)) * (|p.y - 1 / 2 * (b.hi.y + b.lo.y)| + 1 / 2 * (b.hi.y - b.lo.y)) +
    (|p.z - 1 / 2 * (b.hi.z + b.lo.z)| + 1 / 2 * (b.hi.z - b.lo.z)) * (|p.z - 1 / 2 * (b.hi.z + b.lo.z)| + 1 / 2 * (b.hi.z - b.lo.z)) := by
  rfl

/-- One coordinate of the far corner. -/
theorem reach (x l h : ℝ) : |x - 1 / 2 * (h + l)| + 1 / 2 * (h - l) = max (x - l) (h - x) := by
  rcases le_total (1 / 2 * (h + l)) x with h1 | h1
  · rw [abs_of_nonneg (by linarith), max_eq_left (by linarith)]; ring
  · rw [abs_of_nonpos (by linarith), max_eq_right (by linarith)]; ring

/-- Corners in order with positive sides. -/
def Thick (b : Box) : Prop := b.lo.x < b.hi.x ∧ b.lo.y < b.hi.y ∧ b.lo.z < b.hi.z

theorem Thick.valid {b : Box} (h : Thick b) : Valid b := ⟨h.1.le, h.2.1.le, h.2.2.le⟩

/-- All corners within `M / 8` of the origin in each coordinate. -/
def Bounded (M : ℝ) (b : Box) : Prop :=
  (-(M / 8) ≤ b.lo.x ∧ -(M / 8) ≤ b.lo.y ∧ -(M / 8) ≤ b.lo.z) ∧ (b.hi.x ≤ M / 8 ∧ b.hi.y ≤ M / 8 ∧ b.hi.z ≤ M / 8)

theorem sqr_mono {a b : ℝ} (h0 : 0 ≤ a) (h : a ≤ b) : a * a ≤ b * b := mul_le_mul h h h0 (h0.trans h)

theorem reach_nonneg {x l h : ℝ} (hv : l ≤ h) : 0 ≤ max (x - l) (h - x) := by
  rcases le_total l x with h1 | h1
  · exact le_max_of_le_left (by linarith)
  · exact le_max_of_le_right (by linarith)

theorem far_mono {b u : Box} (hv : Valid b)
    (hsub : (u.lo.x ≤ b.lo.x ∧ u.lo.y ≤ b.lo.y ∧ u.lo.z ≤ b.lo.z) ∧ (b.hi.x ≤ u.hi.x ∧ b.hi.y ≤ u.hi.y ∧ b.hi.z ≤ u.hi.z)) (p : V3) :
    far p b ≤ far p u := by
  obtain ⟨⟨h1, h2, h3⟩, h4, h5, h6⟩ := hsub
  rw [far_eq, far_eq]
  simp only [reach]
  have key : ∀ x l h l' h' : ℝ, l' ≤ l → h ≤ h' → l ≤ h → max (x - l) (h - x) * max (x - l) (h - x) ≤
      max (x - l') (h' - x) * max (x - l') (h' - x) := fun x l h l' h' a b c =>
    sqr_mono (reach_nonneg c) (max_le_max (by linarith) (by linarith))
  have := key p.x _ _ _ _ h1 h4 hv.1
  have := key p.y _ _ _ _ h2 h5 hv.2.1
  have := key p.z _ _ _ _ h3 h6 hv.2.2
  linarith

theorem far_lt {M : ℝ} {p : V3} (hp : Near M p) {b : Box} (hv : Valid b) (hb : Bounded M b) : far p b < M * M := by
  obtain ⟨⟨h1, h2, h3⟩, h4, h5, h6⟩ := hb
  have hM := hp.one_le
  obtain ⟨x1, x2⟩ := abs_le.mp hp.x
  obtain ⟨y1, y2⟩ := abs_le.mp hp.y
  obtain ⟨z1, z2⟩ := abs_le.mp hp.z
  rw [far_eq]
  simp only [reach]
  have key : ∀ x l h : ℝ, l ≤ h → -(M / 8) ≤ x → x ≤ M / 8 → -(M / 8) ≤ l → h ≤ M / 8 →
      max (x - l) (h - x) * max (x - l) (h - x) ≤ M / 4 * (M / 4) := fun x l h a b c d e =>
    sqr_mono (reach_nonneg a) (max_le (by linarith) (by linarith))
  have := key p.x _ _ hv.1 x1 x2 h1 h4
  have := key p.y _ _ hv.2.1 y1 y2 h2 h5
  have := key p.z _ _ hv.2.2 z1 z2 h3 h6
  nlinarith

theorem far_pos {b : Box} (h : Thick b) (p : V3) : 0 < far p b := by
  rw [far_eq]
  have key : ∀ x l h : ℝ, l < h → 0 < (|x - 1 / 2 * (h + l)| + 1 / 2 * (h - l)) * (|x - 1 / 2 * (h + l)| + 1 / 2 * (h - l)) := by
    intro x l h hlt
    have : 0 < |x - 1 / 2 * (h + l)| + 1 / 2 * (h - l) := by have := abs_nonneg (x - 1 / 2 * (h + l)); linarith
    exact mul_pos this this
  have := key p.x _ _ h.1
  have := key p.y _ _ h.2.1
  have := key p.z _ _ h.2.2
  linarith

theorem safetySqr_lt_far {b : Box} (h : Thick b) (p : V3) : b.safetySqr p < far p b := by
  by_cases hin : InBox b p
  · exact (C31_safety_sqr_inside hin).1.trans_lt (far_pos h p)
  · obtain ⟨-, hle, -⟩ := C31_safety_sqr_outside h.valid hin
    -- the nearer end of each side is strictly nearer than the farther one
    rw [far_eq]
    simp only [reach]
    obtain ⟨hx, hy, hz⟩ := h
    have key : ∀ x l h : ℝ, l < h → ∃ q, l ≤ q ∧ q ≤ h ∧ (x - q) ^ 2 < max (x - l) (h - x) * max (x - l) (h - x) := by
      intro x l h hlt
      rcases le_total x (1 / 2 * (h + l)) with h1 | h1
      · refine ⟨(l + h) / 2 - (h - l) / 4, by linarith, by linarith, ?_⟩
        rw [max_eq_right (by linarith)]
        nlinarith
      · refine ⟨(l + h) / 2 + (h - l) / 4, by linarith, by linarith, ?_⟩
        rw [max_eq_left (by linarith)]
        nlinarith
    obtain ⟨q1, a1, b1, c1⟩ := key p.x _ _ hx
    obtain ⟨q2, a2, b2, c2⟩ := key p.y _ _ hy
    obtain ⟨q3, a3, b3, c3⟩ := key p.z _ _ hz
    have := hle ⟨q1, q2, q3⟩ ⟨⟨a1, b1⟩, ⟨a2, b2⟩, ⟨a3, b3⟩⟩
    unfold V3.dist2 at this
    dsimp only at this
    linarith

theorem far_pad {M : ℝ} {p : V3} (hp : Near M p) : M * M < far p (padBox M) := by
  have hM := hp.one_le
  obtain ⟨x1, x2⟩ := abs_le.mp hp.x
  obtain ⟨y1, y2⟩ := abs_le.mp hp.y
  obtain ⟨z1, z2⟩ := abs_le.mp hp.z
  rw [far_eq]
  simp only [reach, padBox, padV]
  have key : ∀ x : ℝ, -(M / 8) ≤ x → 7 / 8 * M * (7 / 8 * M) ≤ max (x - -M) (-M - x) * max (x - -M) (-M - x) := fun x h =>
    sqr_mono (by linarith) (le_max_of_le_left (by linarith))
  have := key p.x x1
  have := key p.y y1
  have := key p.z z1
  nlinarith

theorem pad_not_lt {M : ℝ} {p : V3} (hp : Near M p) {limit : ℝ} (hl : limit ≤ M * M) : ¬ ((padBox M).safetyRangeSqr p).1 < limit := by
  have := safetyTest_pad hp hl
  unfold safetyTest at this
  dsimp only at this
  intro hc
  have hc' : (padBox M).safetySqr p < limit := hc
  rw [if_pos hc'] at this
  cases this

theorem foldl_bounded {M : ℝ} {boxes : Nat → Box} {c : List Nat} (h : ∀ a ∈ c, Bounded M (boxes a)) : ∀ b : Box, Bounded M b →
    Bounded M (c.foldl (fun b a => b.union (boxes a)) b) := by
  induction c with
  | nil => intro b hb; exact hb
  | cons x c ih =>
    intro b hb
    rw [List.foldl_cons]
    refine ih (fun a ha => h a (List.mem_cons_of_mem _ ha)) _ ?_
    obtain ⟨⟨h1, h2, h3⟩, h4, h5, h6⟩ := h x List.mem_cons_self
    obtain ⟨⟨g1, g2, g3⟩, g4, g5, g6⟩ := hb
    exact ⟨⟨le_min g1 h1, le_min g2 h2, le_min g3 h3⟩, max_le g4 h4, max_le g5 h5, max_le g6 h6⟩

theorem nodeBox_bounded {M : ℝ} (hM : 0 ≤ M) {boxes : Nat → Box} {c : List Nat} (h : ∀ a ∈ c, Bounded M (boxes a)) :
    Bounded M (nodeBox boxes c) := by
  have hk := kInfLength_pos
  refine foldl_bounded h _ ⟨⟨?_, ?_, ?_⟩, ?_, ?_, ?_⟩ <;> dsimp only [startBox] <;> linarith

theorem nodeBox_valid {boxes : Nat → Box} {c : List Nat} {a : Nat} (ha : a ∈ c) (h : Valid (boxes a)) : Valid (nodeBox boxes c) := by
  obtain ⟨⟨h1, h2, h3⟩, h4, h5, h6⟩ := nodeBox_le boxes ha startBox
  exact ⟨h1.trans (h.1.trans h4), h2.trans (h.2.1.trans h5), h3.trans (h.2.2.trans h6)⟩

/-! ### the state of the search -/

/-- What holds after the boxes of `done` have been dealt with. -/
structure Inv (boxes : Nat → Box) (p : V3) (done : List Nat) (s : List (Nat × ℝ) × ℝ) : Prop where
  sub : (s.1.map Prod.fst).Sublist done
  val : ∀ e ∈ s.1, e.2 = (boxes e.1).safetySqr p
  cov : ∀ a ∈ done, a ∈ s.1.map Prod.fst ∨ s.2 ≤ (boxes a).safetySqr p

/-- The limit is not below the far corner of some box. -/
def Lim (boxes : Nat → Box) (n : Nat) (p : V3) (limit : ℝ) : Prop := ∃ k, k < n ∧ far p (boxes k) ≤ limit

/-- Boxes and point of a search. -/
structure Setting (V : Nat) (M : ℝ) (boxes : Nat → Box) (n : Nat) (a : Acc) (p : V3) : Prop where
  pos : 0 < V
  some : 0 < n
  built : Built V M boxes n a
  near : Near M p
  thick : ∀ i, i < n → Thick (boxes i)
  bounded : ∀ i, i < n → Bounded M (boxes i)

section
variable {V : Nat} {M : ℝ} {boxes : Nat → Box} {n : Nat} {a : Acc} {p : V3}

theorem leafLane_step (S : Setting V M boxes n a p) {i : Nat} (hi : i < a.nodes.length) {done : List Nat} {limit1 : ℝ}
    (hl : limit1 ≤ M * M) {j : Nat} {s : List (Nat × ℝ) × ℝ} (h1 : s.2 ≤ limit1)
    (h : Inv boxes p (done ++ a.nodes[i].take j) s) (hlim : Lim boxes n p s.2) :
    ∃ s', rangeLeafLane a p (leafIdx V i) i limit1 s j = some s' ∧ Inv boxes p (done ++ a.nodes[i].take (j + 1)) s' ∧
      Lim boxes n p s'.2 ∧ s'.2 ≤ s.2 := by
  unfold rangeLeafLane
  dsimp only
  rcases Nat.lt_or_ge j a.nodes[i].length with hj | hj
  · have hb := S.built.filled.leaf i hi j hj
    set x := a.nodes[i][j] with hx
    have hxn : x < n := S.built.cls.mem_lt (List.getElem_mem hi) (List.getElem_mem hj)
    have ht : a.nodes[i].take (j + 1) = a.nodes[i].take j ++ [x] := by
      rw [List.take_succ, List.getElem?_eq_getElem hj]; rfl
    rw [hb, ht, ← List.append_assoc]
    by_cases hc : ((boxes x).safetyRangeSqr p).1 < limit1
    · rw [if_pos hc, List.getElem?_eq_getElem hi, Option.bind_some, List.getElem?_eq_getElem hj, Option.map_some]
      have hle : (if ((boxes x).safetyRangeSqr p).2 < s.2 then ((boxes x).safetyRangeSqr p).2 else s.2) ≤ s.2 := by
        split
        · rename_i h'; exact h'.le
        · exact le_refl _
      refine ⟨_, rfl, ⟨?_, ?_, ?_⟩, ?_, hle⟩
      · dsimp only
        rw [List.map_append]
        exact List.Sublist.append h.sub (List.Sublist.refl _)
      · intro e he
        rcases List.mem_append.mp he with he | he
        · exact h.val e he
        · rw [List.mem_singleton] at he
          rw [he]; rfl
      · intro b hb'
        dsimp only
        rw [List.map_append]
        rcases List.mem_append.mp hb' with hb' | hb'
        · rcases h.cov b hb' with h' | h'
          · exact Or.inl (List.mem_append_left _ h')
          · exact Or.inr (hle.trans h')
        · rw [List.mem_singleton] at hb'
          exact Or.inl (List.mem_append_right _ (by rw [hb']; exact List.mem_singleton_self _))
      · dsimp only
        split
        · exact ⟨x, hxn, le_refl _⟩
        · exact hlim
    · rw [if_neg hc]
      refine ⟨s, rfl, ⟨?_, h.val, ?_⟩, hlim, le_refl _⟩
      · exact h.sub.trans (List.sublist_append_left _ _)
      · intro b hb'
        rcases List.mem_append.mp hb' with hb' | hb'
        · exact h.cov b hb'
        · rw [List.mem_singleton] at hb'
          rw [hb']
          exact Or.inr (h1.trans (not_lt.mp hc))
  · rw [S.built.filled.leafPad i hi j hj, if_neg (pad_not_lt S.near hl)]
    refine ⟨s, rfl, ?_, hlim, le_refl _⟩
    rw [List.take_of_length_le (by omega)]
    rwa [List.take_of_length_le hj] at h

theorem leaf_fold (S : Setting V M boxes n a p) {i : Nat} (hi : i < a.nodes.length) {done : List Nat} {limit1 : ℝ}
    (hl : limit1 ≤ M * M) : ∀ (c j : Nat) (s : List (Nat × ℝ) × ℝ), s.2 ≤ limit1 →
    Inv boxes p (done ++ a.nodes[i].take j) s → Lim boxes n p s.2 →
    ∃ s', (List.range' j c).foldlM (rangeLeafLane a p (leafIdx V i) i limit1) s = some s' ∧
      Inv boxes p (done ++ a.nodes[i].take (j + c)) s' ∧ Lim boxes n p s'.2 ∧ s'.2 ≤ s.2 := by
  intro c
  induction c with
  | zero => intro j s _ h hlim; exact ⟨s, rfl, h, hlim, le_refl _⟩
  | succ c ih =>
    intro j s h1 h hlim
    obtain ⟨t, e, ht, hl1, hl2⟩ := leafLane_step S hi hl h1 h hlim
    obtain ⟨u, e2, hu, hl3, hl4⟩ := ih (j + 1) t (hl2.trans h1) ht hl1
    refine ⟨u, ?_, by rw [show j + (c + 1) = j + 1 + c by omega]; exact hu, hl3, hl4.trans hl2⟩
    rw [List.range'_succ, List.foldlM_cons]
    show (rangeLeafLane a p (leafIdx V i) i limit1 s j).bind _ = _
    rw [e]
    exact e2

/-- The daughters of the first `N` nodes. -/
def upto (a : Acc) (N : Nat) : List Nat := (a.nodes.take N).flatten

theorem upto_succ {N : Nat} (h : N < a.nodes.length) : upto a (N + 1) = upto a N ++ a.nodes[N] := by
  unfold upto
  rw [List.take_succ, List.getElem?_eq_getElem h, List.flatten_append]
  simp

theorem upto_ge {N : Nat} (h : a.nodes.length ≤ N) : upto a N = a.nodes.flatten := by
  unfold upto
  rw [List.take_of_length_le h]

theorem node_lane (S : Setting V M boxes n a p) {g l : Nat} (hlV : l < V) {limit0 : ℝ} (hl : limit0 ≤ M * M) (hpos : 0 < limit0)
    {s : List (Nat × ℝ) × ℝ} (h1 : s.2 ≤ limit0) (h : Inv boxes p (upto a (g * V + l)) s) (hlim : Lim boxes n p s.2) :
    ∃ s', rangeNodeLane V a p (2 * (V + 1) * g) (g * V) limit0 s l = some s' ∧ Inv boxes p (upto a (g * V + (l + 1))) s' ∧
      Lim boxes n p s'.2 ∧ s'.2 ≤ s.2 := by
  have hV := S.pos
  unfold rangeNodeLane
  have e1 : (g * V + l) / V = g := by
    rw [Nat.mul_comm, Nat.mul_add_div hV, Nat.div_eq_of_lt hlV, Nat.add_zero]
  have e2 : (g * V + l) % V = l := by
    rw [Nat.mul_comm, Nat.mul_add_mod, Nat.mod_eq_of_lt hlV]
  have en : 2 * (V + 1) * g = nodeIdx V (g * V + l) := by unfold nodeIdx; rw [e1]
  have el : 2 * (V + 1) * g + 2 * (l + 1) = leafIdx V (g * V + l) := by
    rw [leafIdx_eq, e1, e2, Nat.mul_assoc]; omega
  rw [el, en, ← Nat.add_assoc]
  generalize hi : g * V + l = i at *
  rw [← e2]
  rcases Nat.lt_or_ge i a.nodes.length with hN | hN
  · rw [S.built.filled.node i hN]
    have hbound : leafIdx V i + 1 < a.store.size := by
      rw [S.built.size]
      have : i / V < ceilDiv a.nodes.length V := by
        rw [lt_ceilDiv hV]
        exact (Nat.div_mul_le_self i V).trans_lt hN
      unfold leafIdx
      clear e1 e2 el en
      generalize i / V = q at *
      omega
    rw [upto_succ hN]
    by_cases hc : ((nodeBox boxes a.nodes[i]).safetyRangeSqr p).1 < limit0
    · rw [if_pos hc, if_pos hbound]
      obtain ⟨s', e, k1, k2, k3⟩ := leaf_fold S hN (done := upto a i) (limit1 := s.2) (h1.trans hl) V 0 s (le_refl _)
        (by simpa using h) hlim
      rw [← List.range_eq_range'] at e
      refine ⟨s', e, ?_, k2, k3⟩
      rwa [Nat.zero_add, List.take_of_length_le (S.built.cls.size _ (List.getElem_mem hN))] at k1
    · rw [if_neg hc]
      refine ⟨s, rfl, ⟨h.sub.trans (List.sublist_append_left _ _), h.val, ?_⟩, hlim, le_refl _⟩
      intro b hb
      rcases List.mem_append.mp hb with hb | hb
      · exact h.cov b hb
      · right
        refine h1.trans ?_
        by_contra hlt
        rw [not_le] at hlt
        have hbn : b < n := S.built.cls.mem_lt (List.getElem_mem hN) hb
        exact hc (safetySqr_mono (S.thick b hbn).valid (fun q hq => nodeBox_inBox hb hq) hpos hlt)
  · rw [S.built.filled.nodePad i hN, if_neg (pad_not_lt S.near hl)]
    refine ⟨s, rfl, ?_, hlim, le_refl _⟩
    rw [upto_ge (by omega)]
    rwa [upto_ge hN] at h

theorem node_fold (S : Setting V M boxes n a p) {g : Nat} {limit0 : ℝ} (hl : limit0 ≤ M * M) (hpos : 0 < limit0) :
    ∀ (c l : Nat) (s : List (Nat × ℝ) × ℝ), l + c = V → s.2 ≤ limit0 →
    Inv boxes p (upto a (g * V + l)) s → Lim boxes n p s.2 →
    ∃ s', (List.range' l c).foldlM (rangeNodeLane V a p (2 * (V + 1) * g) (g * V) limit0) s = some s' ∧
      Inv boxes p (upto a ((g + 1) * V)) s' ∧ Lim boxes n p s'.2 ∧ s'.2 ≤ s.2 := by
  intro c
  induction c with
  | zero =>
    intro l s hc _ h hlim
    refine ⟨s, rfl, ?_, hlim, le_refl _⟩
    rw [Nat.add_mul, Nat.one_mul, ← hc]
    rw [← hc] at h
    simpa using h
  | succ c ih =>
    intro l s hc h1 h hlim
    obtain ⟨t, e, ht, hl1, hl2⟩ := node_lane S (by omega) hl hpos h1 h hlim
    obtain ⟨u, e2, hu, hl3, hl4⟩ := ih (l + 1) t (by omega) (hl2.trans h1) ht hl1
    refine ⟨u, ?_, hu, hl3, hl4.trans hl2⟩
    rw [List.range'_succ, List.foldlM_cons]
    show (rangeNodeLane V a p (2 * (V + 1) * g) (g * V) limit0 s l).bind _ = _
    rw [e]
    exact e2

open Classical in
theorem foldl_min {f : Nat → ℝ} (l : List Nat) : ∀ x : ℝ,
    let r := l.foldl (fun limit i => if f i < limit then f i else limit) x
    r ≤ x ∧ (∀ i ∈ l, r ≤ f i) ∧ (r = x ∨ ∃ i ∈ l, r = f i) := by
  induction l with
  | nil => intro x; exact ⟨le_refl _, by simp, Or.inl rfl⟩
  | cons k l ih =>
    intro x
    obtain ⟨h1, h2, h3⟩ := ih (if f k < x then f k else x)
    simp only [List.foldl_cons]
    have hx : (if f k < x then f k else x) ≤ x ∧ (if f k < x then f k else x) ≤ f k ∧
        ((if f k < x then f k else x) = x ∨ (if f k < x then f k else x) = f k) := by
      by_cases hc : f k < x
      · rw [if_pos hc]; exact ⟨hc.le, le_refl _, Or.inr rfl⟩
      · rw [if_neg hc]; exact ⟨le_refl _, not_lt.mp hc, Or.inl rfl⟩
    refine ⟨h1.trans hx.1, ?_, ?_⟩
    · intro i hi
      rcases List.mem_cons.mp hi with rfl | hi
      · exact h1.trans hx.2.1
      · exact h2 i hi
    · rcases h3 with h3 | ⟨i, hi, h3⟩
      · rcases hx.2.2 with h4 | h4
        · exact Or.inl (h3.trans h4)
        · exact Or.inr ⟨k, List.mem_cons_self, h3.trans h4⟩
      · exact Or.inr ⟨i, List.mem_cons_of_mem _ hi, h3⟩

theorem group_spec (S : Setting V M boxes n a p) {g : Nat} (hg : g * V < a.nodes.length) {limit : ℝ}
    (h : Lim boxes n p limit ∨ M * M < limit) :
    Lim boxes n p (groupLimit V a p (2 * (V + 1) * g) limit) ∧ groupLimit V a p (2 * (V + 1) * g) limit ≤ M * M ∧
      groupLimit V a p (2 * (V + 1) * g) limit ≤ limit := by
  have hV := S.pos
  obtain ⟨h1, h2, h3⟩ := foldl_min (f := fun i => ((a.store.box (2 * (V + 1) * g) i).safetyRangeSqr p).2) (List.range V) limit
  change groupLimit V a p (2 * (V + 1) * g) limit ≤ limit at h1
  change ∀ i ∈ List.range V, groupLimit V a p (2 * (V + 1) * g) limit ≤ _ at h2
  change groupLimit V a p (2 * (V + 1) * g) limit = limit ∨ ∃ i ∈ List.range V, groupLimit V a p (2 * (V + 1) * g) limit = _ at h3
  have lane : ∀ l, l < V → a.store.box (2 * (V + 1) * g) l = a.store.box (nodeIdx V (g * V + l)) ((g * V + l) % V) := by
    intro l hl
    have e1 : (g * V + l) / V = g := by
      rw [Nat.mul_comm, Nat.mul_add_div hV, Nat.div_eq_of_lt hl, Nat.add_zero]
    have e2 : (g * V + l) % V = l := by
      rw [Nat.mul_comm, Nat.mul_add_mod, Nat.mod_eq_of_lt hl]
    unfold nodeIdx
    rw [e1, e2]
  have hM0 : (0 : ℝ) ≤ M := by linarith [S.near.one_le]
  have node : ∀ i (hi : i < a.nodes.length), ∃ k, k < n ∧ far p (boxes k) ≤ far p (nodeBox boxes a.nodes[i]) ∧
      far p (nodeBox boxes a.nodes[i]) < M * M := by
    intro i hi
    obtain ⟨k, hk⟩ := List.exists_mem_of_ne_nil _ (S.built.cls.nonempty _ (List.getElem_mem hi))
    have hkn : ∀ b ∈ a.nodes[i], b < n := fun b hb => S.built.cls.mem_lt (List.getElem_mem hi) hb
    have hv := (S.thick k (hkn k hk)).valid
    exact ⟨k, hkn k hk, far_mono hv (nodeBox_le boxes hk startBox) p,
      far_lt S.near (nodeBox_valid hk hv) (nodeBox_bounded hM0 fun b hb => S.bounded b (hkn b hb))⟩
  generalize groupLimit V a p (2 * (V + 1) * g) limit = r at *
  have hr : r ≤ M * M := by
    have := h2 0 (List.mem_range.mpr hV)
    rw [lane 0 hV, Nat.add_zero, S.built.filled.node _ hg] at this
    obtain ⟨k, -, -, h5⟩ := node _ hg
    exact this.trans h5.le
  refine ⟨?_, hr, h1⟩
  rcases h3 with h3 | ⟨l, hl, h3⟩
  · rcases h with h | h
    · rw [h3]; exact h
    · rw [h3] at hr; linarith
  · have hl' := List.mem_range.mp hl
    rw [lane l hl'] at h3
    rcases Nat.lt_or_ge (g * V + l) a.nodes.length with hN | hN
    · rw [S.built.filled.node _ hN] at h3
      obtain ⟨k, h4, h5, -⟩ := node _ hN
      exact ⟨k, h4, by rw [h3]; exact h5⟩
    · rw [S.built.filled.nodePad _ hN] at h3
      have := far_pad S.near
      unfold far at this
      linarith

theorem rangeScanFrom_spec (S : Setting V M boxes n a p) : ∀ (fuel g : Nat) (s : List (Nat × ℝ) × ℝ),
    ceilDiv a.nodes.length V < fuel + g → g ≤ ceilDiv a.nodes.length V → Inv boxes p (upto a (g * V)) s →
    (Lim boxes n p s.2 ∨ (M * M < s.2 ∧ g = 0)) →
    ∃ s', rangeScanFrom V a p fuel (2 * (V + 1) * g) (g * V) s = some s' ∧ Inv boxes p a.nodes.flatten s' ∧ Lim boxes n p s'.2 := by
  have hV := S.pos
  intro fuel
  set G := ceilDiv a.nodes.length V with hG
  have hhalf : queryHalfSize V a.n = G + a.nodes.length := by
    unfold queryHalfSize
    dsimp only
    rw [S.built.n_eq, hG, S.built.cls.length]
  induction fuel with
  | zero => intro g s h1 h2; omega
  | succ fuel ih =>
    intro g s h1 h2 h hlim
    rw [rangeScanFrom, hhalf]
    rcases Nat.lt_or_ge g G with hgG | hgG
    · have hg : g * V < a.nodes.length := (lt_ceilDiv hV).mp hgG
      have hidx : 2 * (V + 1) * g = 2 * (g * V + g) := by ring
      have hlt : 2 * (V + 1) * g < (G + a.nodes.length) * 2 := by rw [hidx]; omega
      have hlt2 : 2 * (V + 1) * g + 1 < a.store.size := by rw [S.built.size, ← hG, hidx]; omega
      rw [if_pos hlt, if_pos hlt2]
      obtain ⟨k1, k2, k3⟩ := group_spec S hg (hlim.imp_right And.left)
      dsimp only
      have hpos : 0 < groupLimit V a p (2 * (V + 1) * g) s.2 := by
        obtain ⟨k, hk, hk2⟩ := k1
        exact (far_pos (S.thick k hk) p).trans_le hk2
      obtain ⟨t, e, ht, hl1, -⟩ := node_fold S k2 hpos V 0 (s.1, groupLimit V a p (2 * (V + 1) * g) s.2) (by omega) (le_refl _)
        ⟨h.sub, h.val, fun b hb => (h.cov b hb).imp_right k3.trans⟩ k1
      rw [← List.range_eq_range'] at e
      rw [e, Option.bind_some, show 2 * (V + 1) * g + 2 * (V + 1) = 2 * (V + 1) * (g + 1) by ring,
        show g * V + V = (g + 1) * V by ring]
      exact ih (g + 1) t (by omega) (by omega) ht (Or.inl hl1)
    · have hgG' : g = G := by omega
      have hge : a.nodes.length ≤ g * V := by rw [hgG']; exact le_ceilDiv_mul _ hV
      have hidx : 2 * (V + 1) * g = 2 * (g * V + g) := by ring
      rw [if_neg (by rw [hidx]; omega)]
      refine ⟨s, rfl, by rwa [upto_ge hge] at h, ?_⟩
      rcases hlim with h3 | ⟨-, h3⟩
      · exact h3
      · exfalso
        subst h3
        have h0 : a.nodes.length = 0 := by omega
        have hp := S.built.cls.perm
        rw [List.length_eq_zero_iff.mp h0] at hp
        have hn0 : n = 0 := by
          have := hp.length_eq
          simpa using this.symm
        have := S.some
        omega

/-- The whole search: it succeeds; each entry is a box with its own squared distance, no box appears twice, and there is a box in the
list whose far corner is not farther than any box left out. -/
theorem rangeCandidates_spec (S : Setting V M boxes n a p) (hn : n ≤ maxFacets) {limit : ℝ} (hlim : M * M < limit) :
    ∃ hits, rangeCandidates V a p limit = some hits ∧ (hits.map Prod.fst).Nodup ∧
      (∀ e ∈ hits, e.1 < n ∧ e.2 = (boxes e.1).safetySqr p) ∧
      ∃ k, k ∈ hits.map Prod.fst ∧ ∀ i, i < n → i ∈ hits.map Prod.fst ∨ far p (boxes k) ≤ (boxes i).safetySqr p := by
  have h0 : Inv boxes p (upto a (0 * V)) (([] : List (Nat × ℝ)), limit) := by
    refine ⟨?_, ?_, ?_⟩
    · simp
    · intro e he; cases he
    · intro b hb; simp [upto] at hb
  obtain ⟨s, e, h, k, hk, hk2⟩ := rangeScanFrom_spec S (queryHalfSize V a.n * 2 + 1) 0 ([], limit) (by
      unfold queryHalfSize
      dsimp only
      rw [S.built.n_eq, S.built.cls.length]
      omega) (Nat.zero_le _) h0 (Or.inr ⟨hlim, rfl⟩)
  rw [Nat.mul_zero, Nat.zero_mul] at e
  have hperm := S.built.cls.perm
  have hmem : ∀ b, b ∈ a.nodes.flatten ↔ b < n := fun b => by rw [hperm.mem_iff, List.mem_range]
  have hlen : s.1.length ≤ n := by
    have := h.sub.length_le
    rw [List.length_map, hperm.length_eq, List.length_range] at this
    exact this
  refine ⟨s.1, ?_, ?_, ?_, k, ?_, ?_⟩
  · unfold rangeCandidates
    rw [e, Option.bind_some, if_pos (hlen.trans hn)]
  · exact (hperm.nodup_iff.mpr List.nodup_range).sublist h.sub
  · intro x hx
    exact ⟨(hmem _).mp (h.sub.subset (List.mem_map_of_mem hx)), h.val x hx⟩
  · rcases h.cov k ((hmem k).mpr hk) with h' | h'
    · exact h'
    · have := safetySqr_lt_far (S.thick k hk) p
      linarith
  · intro i hi
    exact (h.cov i ((hmem i).mpr hi)).imp_right hk2.trans

end

end MultiUnion
end VecGeom
