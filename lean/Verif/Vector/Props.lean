import Verif.Vector.Lemmas

/-!
# Vector: property C16
-/

namespace VecGeom.Vec
variable {α : Type}

/-- Operations of the interface, with their effect on a list as specification. -/
inductive Op (α : Type) where
  | push (x : α)
  | reserve (n : Nat)
  | resize (n : Nat) (x : α)
  | clear
  | erase (i : Nat)
  | put (i : Nat) (x : α)

def Op.run (v : Vec α) : Op α → Option (Vec α)
  | .push x => v.pushBack x
  | .reserve n => v.reserve n
  | .resize n x => v.resize n x
  | .clear => v.clear
  | .erase i => (v.erase i).map (·.1)
  | .put i x => v.put i x

/-- Specification: the operation on lists; `none` where the caller breaks the precondition (position out of range). -/
def Op.spec (l : List α) : Op α → Option (List α)
  | .push x => some (l ++ [x])
  | .reserve _ => some l
  | .resize n x => some (l.take n ++ List.replicate (n - l.length) x)
  | .clear => some []
  | .erase i => if i < l.length then some (l.eraseIdx i) else none
  | .put i x => if i < l.length then some (l.set i x) else none

def runAll (v : Vec α) : List (Op α) → Option (Vec α)
  | [] => some v
  | o :: os => (o.run v).bind (runAll · os)

def specAll (l : List α) : List (Op α) → Option (List α)
  | [] => some l
  | o :: os => (o.spec l).bind (specAll · os)

/-- Every read access gives the list element, and iterating gives the list. -/
theorem C16_observe (v : Vec α) (l : List α) (h : Rep v l) :
    v.size = l.length ∧ v.iterate = some l ∧ ∀ i, i < l.length → v.get i = l[i]? := by
  refine ⟨h.size, ?_, fun i hi => ?_⟩
  · rw [iterate, h.size, readAll_rep v l h _ (Nat.le_refl _), List.take_length]
  · rw [get, read_rep h i hi, List.getElem?_eq_getElem hi]

/-- A new vector with positive capacity is empty and owns its memory. -/
theorem C16_make (n : Nat) : ∃ v : Vec α, make n = some v ∧ Rep v [] ∧ v.mem = n ∧ v.allocated = true := by
  obtain ⟨w, e, hw, h1, h2, h3⟩ := reserve_rep (⟨[], 0, 0, true⟩ : Vec α) [] ⟨rfl, Nat.le_refl _, Nat.le_refl _,
    fun i hi => by simp at hi⟩ n
  refine ⟨w, e, hw, by rw [h1]; exact Nat.max_eq_right (Nat.zero_le n), ?_⟩
  by_cases hn : 0 < n
  · exact h3 hn
  · rw [h2 (by omega)]

theorem erase_rep (v : Vec α) (l : List α) (h : Rep v l) (i : Nat) (hi : i < l.length) :
    ∃ w, v.erase i = some (w, i) ∧ Rep w (l.eraseIdx i) ∧ w.mem = v.mem ∧ w.allocated = v.allocated := by
  have hs := h.size
  have hf := h.fits
  have hr := h.room
  have shifted : ∃ b, (if i + 1 ≠ v.size then shiftLoop (v.size - 1 - i) i v.buf else some v.buf) = some b ∧
      b.length = v.buf.length ∧ (∀ j, j < l.length - 1 → b[j]? = some (l.eraseIdx i)[j]?) ∧
      b[l.length - 1]? = v.buf[l.length - 1]? := by
    by_cases h1 : i + 1 = v.size
    · rw [if_neg (not_not.mpr h1)]
      refine ⟨v.buf, rfl, rfl, fun j hj => ?_, rfl⟩
      rw [h.cells j (by omega), List.getElem?_eraseIdx_of_lt (by omega)]
    · rw [if_pos h1, hs]
      obtain ⟨b, e, h2, h3⟩ := shiftLoop_eq v l h i hi
      refine ⟨b, e, h2, fun j hj => ?_, ?_⟩
      · rw [h3]
        by_cases h4 : i ≤ j
        · rw [if_pos ⟨h4, hj⟩, List.getElem?_eraseIdx_of_ge h4]
        · rw [if_neg (by omega), h.cells j (by omega), List.getElem?_eraseIdx_of_lt (by omega)]
      · rw [h3, if_neg (by omega)]
  obtain ⟨b, e, hb, hc, hl⟩ := shifted
  have hlen : (l.eraseIdx i).length = l.length - 1 := List.length_eraseIdx_of_lt hi
  unfold erase
  rw [e]
  dsimp only
  by_cases h0 : v.size - 1 = 0
  · rw [if_neg (not_not.mpr h0)]
    refine ⟨_, rfl, ⟨?_, ?_, ?_, fun j hj => ?_⟩, rfl, rfl⟩
    · show v.size - 1 = _
      omega
    · show v.size - 1 ≤ v.mem
      omega
    · show v.mem ≤ b.length
      omega
    · omega
  · rw [if_pos h0, destroy, hs, hl, cells_get h (l.length - 1) (by omega)]
    refine ⟨_, rfl, ⟨?_, ?_, ?_, fun j hj => ?_⟩, rfl, rfl⟩
    · show l.length - 1 = _
      omega
    · show l.length - 1 ≤ v.mem
      omega
    · show v.mem ≤ (b.set _ _).length
      rw [List.length_set]; omega
    · show (b.set (l.length - 1) none)[j]? = _
      rw [List.getElem?_set_ne (by omega)]
      exact hc j (by omega)

theorem step_rep (v : Vec α) (l : List α) (h : Rep v l) (hm : 0 < v.mem) (ha : v.allocated = true) (o : Op α)
    (l' : List α) (hl : o.spec l = some l') :
    ∃ w, o.run v = some w ∧ Rep w l' ∧ v.mem ≤ w.mem ∧ w.allocated = true := by
  have hs := h.size
  have hf := h.fits
  have hr := h.room
  cases o with
  | push x =>
    cases hl
    obtain ⟨w, e, hw, h1, h2, -⟩ := pushBack_rep v l h hm x (Or.inl ha)
    exact ⟨w, e, hw, h1, h2 ha⟩
  | reserve n =>
    cases hl
    obtain ⟨w, e, hw, h1, h2, h3⟩ := reserve_rep v l h n
    refine ⟨w, e, hw, by omega, ?_⟩
    by_cases hn : n ≤ v.mem
    · rw [h2 hn]; exact ha
    · exact h3 (by omega)
  | resize n x =>
    cases hl
    by_cases hn : n ≤ v.size
    · obtain ⟨b, e, h1, h2⟩ := destroyLoop_eq (v.size - n) n v.buf (by omega)
        (fun j h3 h4 => ⟨l[j]'(by omega), cells_get h j (by omega)⟩)
      refine ⟨{ v with buf := b, size := n }, ?_, ⟨?_, ?_, ?_, fun j hj => ?_⟩, Nat.le_refl _, ha⟩
      · show v.resize n x = _
        rw [resize, if_pos hn, e]; rfl
      · show n = _
        rw [List.length_append, List.length_take, List.length_replicate]; omega
      · show n ≤ v.mem
        omega
      · show v.mem ≤ b.length
        omega
      · have hj' : j < n := by
          rw [List.length_append, List.length_take, List.length_replicate] at hj; omega
        show b[j]? = _
        rw [h2, if_neg (by omega), List.getElem?_append_left (by rw [List.length_take]; omega),
          List.getElem?_take_of_lt hj']
        exact h.cells j (by omega)
    · have mid : ∃ w, (if n > v.mem then v.reserve n else some v) = some w ∧ Rep w l ∧ n ≤ w.mem ∧ v.mem ≤ w.mem ∧
          w.allocated = true := by
        by_cases hn2 : n > v.mem
        · rw [if_pos hn2]
          obtain ⟨w, e, hw, h1, h2, h3⟩ := reserve_rep v l h n
          exact ⟨w, e, hw, by omega, by omega, h3 (by omega)⟩
        · rw [if_neg hn2]
          exact ⟨v, rfl, h, by omega, Nat.le_refl _, ha⟩
      obtain ⟨w, e, hw, h1, h2, h3⟩ := mid
      obtain ⟨u, e2, hu, h4, h5, -⟩ := pushAll_rep (List.replicate (n - v.size) x) w l hw (by omega) (Or.inl h3)
      refine ⟨u, ?_, ?_, by omega, h5 h3⟩
      · show v.resize n x = _
        rw [resize, if_neg hn, e]
        exact e2
      · rw [List.take_of_length_le (by omega)]
        rw [hs] at hu
        exact hu
  | clear =>
    cases hl
    obtain ⟨b, e, h1, h2⟩ := destroyLoop_eq v.size 0 v.buf (by omega)
      (fun j _ h4 => ⟨l[j]'(by omega), cells_get h j (by omega)⟩)
    refine ⟨{ v with buf := b, size := 0 }, by show v.clear = _; rw [clear, e]; rfl,
      ⟨rfl, Nat.zero_le _, ?_, fun j hj => by simp at hj⟩, Nat.le_refl _, ha⟩
    show v.mem ≤ b.length
    omega
  | erase i =>
    rw [Op.spec] at hl
    split at hl
    · rename_i hi
      cases hl
      obtain ⟨w, e, hw, h1, h2⟩ := erase_rep v l h i hi
      exact ⟨w, by show (v.erase i).map _ = _; rw [e]; rfl, hw, by omega, by rw [h2]; exact ha⟩
    · cases hl
  | put i x =>
    rw [Op.spec] at hl
    split at hl
    · rename_i hi
      cases hl
      refine ⟨{ v with buf := v.buf.set i (some x) }, ?_, ⟨?_, hf, ?_, fun j hj => ?_⟩, Nat.le_refl _, ha⟩
      · show (store v.buf i x).map _ = _
        rw [store, cells_get h i hi]; rfl
      · rw [List.length_set]; exact hs
      · show v.mem ≤ (v.buf.set _ _).length
        rw [List.length_set]; exact hr
      · rw [List.length_set] at hj
        show (v.buf.set i (some x))[j]? = _
        by_cases hji : j = i
        · rw [hji, List.getElem?_set_self (by omega), List.getElem?_set_self hi]
        · rw [List.getElem?_set_ne (by omega), List.getElem?_set_ne (by omega)]
          exact h.cells j hj
    · cases hl

/-- Every history of operations on a vector that owns memory behaves like the same history on a list: no access outside
the buffer, no use of dead objects, and the contents agree.  The capacity never shrinks. -/
theorem C16_history (v : Vec α) (l : List α) (h : Rep v l) (hm : 0 < v.mem) (ha : v.allocated = true)
    (os : List (Op α)) (l' : List α) (hl : specAll l os = some l') :
    ∃ w, runAll v os = some w ∧ Rep w l' ∧ v.mem ≤ w.mem := by
  induction os generalizing v l with
  | nil => cases hl; exact ⟨v, rfl, h, Nat.le_refl _⟩
  | cons o os ih =>
    rw [specAll] at hl
    cases e : o.spec l with
    | none => rw [e] at hl; cases hl
    | some l1 =>
      rw [e] at hl
      obtain ⟨w, e1, hw, h1, h2⟩ := step_rep v l h hm ha o l1 e
      obtain ⟨u, e2, hu, h3⟩ := ih w l1 hw (by omega) h2 hl
      exact ⟨u, by rw [runAll, e1]; exact e2, hu, by omega⟩

/-- From construction: default or explicit capacity. -/
theorem C16_from_new (n : Nat) (hn : 0 < n) (os : List (Op α)) (l' : List α) (hl : specAll [] os = some l') :
    ∃ v w, make n = some v ∧ runAll v os = some w ∧ w.iterate = some l' ∧ w.size = l'.length := by
  obtain ⟨v, e, hv, hm, ha⟩ := C16_make (α := α) n
  obtain ⟨w, e2, hw, -⟩ := C16_history v [] hv (by omega) ha os l' hl
  have := C16_observe w l' hw
  exact ⟨v, w, e, e2, this.2.1, this.1⟩

example : specAll ([] : List Nat) [.push 1, .push 2, .resize 4 7, .erase 1, .put 0 9, .reserve 50, .push 3] =
    some [9, 7, 7, 3] := rfl

/-- Finding: a vector made with capacity 0 cannot be pushed to (doubling 0 stays 0, the element is written through a null
pointer). -/
theorem C16_capacity_zero (x : α) : ∃ v : Vec α, make 0 = some v ∧ v.pushBack x = none := ⟨_, rfl, rfl⟩

/-- `erase` returns an iterator to the position of the erased element. -/
theorem C16_erase_iterator (v : Vec α) (l : List α) (h : Rep v l) (i : Nat) (hi : i < l.length) :
    ∃ w, v.erase i = some (w, i) ∧ Rep w (l.eraseIdx i) ∧ w.mem = v.mem := by
  obtain ⟨w, e, hw, h1, -⟩ := erase_rep v l h i hi
  exact ⟨w, e, hw, h1⟩

/-- A copy holds the same list, owns its memory and has the same capacity. -/
theorem C16_copy (v : Vec α) (l : List α) (h : Rep v l) :
    ∃ w, v.copy = some w ∧ Rep w l ∧ w.mem = v.mem ∧ w.allocated = true := by
  have hs := h.size
  have hf := h.fits
  obtain ⟨b, e, h1, h2⟩ := copyLoop_eq v.buf l h.cells v.mem (by omega)
  refine ⟨⟨b, l.length, v.mem, true⟩, by rw [copy, hs, e]; rfl, ⟨rfl, ?_, ?_, h2⟩, rfl, rfl⟩
  · show l.length ≤ v.mem
    omega
  · show v.mem ≤ b.length
    omega

/-- Assignment as the code does it: the old contents stay, and the contents of the source are appended. -/
theorem C16_assign_actual (v o : Vec α) (l lo : List α) (h : Rep v l) (ho : Rep o lo) (hm : 0 < v.mem)
    (ha : v.allocated = true) : ∃ w, v.assign o = some w ∧ Rep w (l ++ lo) := by
  obtain ⟨u, e, hu, h1, h2, h3⟩ := reserve_rep v l h o.mem
  have hua : u.allocated = true := by
    by_cases hn : o.mem ≤ v.mem
    · rw [h2 hn]; exact ha
    · exact h3 (by omega)
  obtain ⟨w, e2, hw, -⟩ := pushAll_rep lo u l hu (by omega) (Or.inl hua)
  refine ⟨w, ?_, hw⟩
  rw [assign, e]
  dsimp only
  rw [ho.size, readAll_rep o lo ho _ (Nat.le_refl _), List.take_length]
  exact e2

/-- Assignment to an empty vector gives a copy.  Missing: non-empty targets, where the old elements are kept
(see the counterexample). -/
theorem C16_assign_partial (v o : Vec α) (lo : List α) (h : Rep v []) (ho : Rep o lo) (hm : 0 < v.mem)
    (ha : v.allocated = true) : ∃ w, v.assign o = some w ∧ Rep w lo := by
  obtain ⟨w, e, hw⟩ := C16_assign_actual v o [] lo h ho hm ha
  exact ⟨w, e, hw⟩

/-- Finding: after `a = b` the vector `a` differs from `b` unless it was empty. -/
theorem C16_assign_counterexample : ∃ (v o w : Vec Nat), Rep v [1] ∧ Rep o [2] ∧ v.assign o = some w ∧
    w.iterate = some [1, 2] := by
  refine ⟨⟨[some 1, none], 1, 2, true⟩, ⟨[some 2, none], 1, 2, true⟩, ⟨[some 1, some 2], 2, 2, true⟩, ?_, ?_, rfl, rfl⟩
  · exact ⟨rfl, by decide, by decide, fun i hi => by
      have : i = 0 := by simp at hi; exact hi
      subst this; rfl⟩
  · exact ⟨rfl, by decide, by decide, fun i hi => by
      have : i = 0 := by simp at hi; exact hi
      subst this; rfl⟩

/-- Finding: construction from a non-empty initializer list is undefined for every element type: the size is set before
the elements are pushed. -/
theorem C16_initializer_list (width : Nat) (x : α) (xs : List α) : ofList width (x :: xs) = none := by
  unfold ofList
  rw [pushAll]
  have : pushBack ⟨List.replicate (x :: xs).length (none : Option α), (x :: xs).length,
      (x :: xs).length * width, true⟩ x = none := by
    unfold pushBack
    dsimp only
    by_cases h : (x :: xs).length = (x :: xs).length * width
    · rw [if_pos h, if_pos rfl, reserve]
      dsimp only
      rw [if_neg (by
        have h1 : (x :: xs).length = xs.length + 1 := List.length_cons
        rw [← h]; omega)]
      have : copyLoop (List.replicate (x :: xs).length (none : Option α)) (x :: xs).length
          (List.replicate ((x :: xs).length * width * 2) none) = none := by
        show copyLoop _ (xs.length + 1) _ = none
        rfl
      rw [this]
    · rw [if_neg h]
      dsimp only
      rw [construct, if_neg (by simp)]
      rfl
  rw [this]
  rfl

/-- A view of caller-owned memory behaves like a list as long as it does not have to grow; pushing to a full view fails
the assertion. -/
theorem C16_view (v : Vec α) (l : List α) (h : Rep v l) (hm : 0 < v.mem) (hv : v.allocated = false) (x : α) :
    (v.size < v.mem → ∃ w, v.pushBack x = some w ∧ Rep w (l ++ [x]) ∧ w.allocated = false ∧ w.mem = v.mem) ∧
    (v.size = v.mem → v.pushBack x = none) := by
  refine ⟨fun hlt => ?_, fun he => ?_⟩
  · obtain ⟨w, e, hw, -, -, h3⟩ := pushBack_rep v l h hm x (Or.inr hlt)
    exact ⟨w, e, hw, by rw [(h3 hlt).2.1, hv], (h3 hlt).1⟩
  · unfold pushBack
    rw [hv]
    dsimp only
    rw [if_pos he, if_neg (by simp)]

example : Rep (view [some 1, none] 1 2) [1] ∧ ((view [some 1, none] 1 2).pushBack 5).bind iterate = some [1, 5] := by
  refine ⟨⟨rfl, by decide, by decide, fun i hi => ?_⟩, rfl⟩
  have : i = 0 := by simp at hi; exact hi
  subst this; rfl

/-- Finding: erasing the only element does not destroy it; the object stays alive behind the end. -/
theorem C16_erase_last_leaks (x : α) (b : List (Option α)) (m : Nat) (a : Bool) :
    erase ⟨some x :: b, 1, m, a⟩ 0 = some (⟨some x :: b, 0, m, a⟩, 0) := rfl

end VecGeom.Vec
