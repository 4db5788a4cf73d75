import Verif.BitSet.Search

/-!
# BitSet: properties C10-C15, C52, C53
-/

namespace VecGeom.BitSet

/-- A set of 20 bits in 3 bytes with bits 1, 9 and 18 set, used to show that hypotheses can be met. -/
def demo : BitSet := ⟨20, [2#8, 2#8, 4#8]⟩

theorem demo_wf : demo.WF := ⟨by decide, by decide, by decide⟩

theorem demo_clean : demo.abs.Clean := by
  intro i hi
  show rawL demo.data i = false
  have hi' : 20 ≤ i := hi
  by_cases h : i < 24
  · have : i = 20 ∨ i = 21 ∨ i = 22 ∨ i = 23 := by omega
    rcases this with rfl | rfl | rfl | rfl <;> decide
  · exact rawL_ge _ _ (by show 24 ≤ i; omega)

/-! ### C10: set and test -/

/-- A new set has the requested size, room for it, and reads `false` everywhere. -/
theorem C10_make (n : Nat) (hn : n + 8 < 2 ^ 32) :
    (makeInstance n).abs = BitArr.make n ∧ (makeInstance n).WF ∧ (makeInstance n).abs.Clean := by
  have hb : 8 * (makeInstance n).nbytes = BitArr.roundUp n := by
    unfold makeInstance nbytes nbytesFor BitArr.roundUp
    rw [List.length_replicate]
    split <;> omega
  have hbits : (makeInstance n).nbits = n := Nat.mod_eq_of_lt (by omega)
  have hr : n ≤ BitArr.roundUp n ∧ 0 < BitArr.roundUp n ∧ BitArr.roundUp n < 2 ^ 32 := by
    unfold BitArr.roundUp; omega
  refine ⟨?_, ⟨by omega, by omega, by omega⟩, fun i _ => rawL_replicate_zero _ i⟩
  unfold abs BitArr.make
  rw [BitArr.mk.injEq]
  exact ⟨hbits, hb, funext fun i => rawL_replicate_zero _ i⟩

example : (makeInstance 20).nbits = 20 ∧ (makeInstance 20).nbytes = 3 := by decide

/-- `TestBitNumber` reads the visible bit. -/
theorem C10_test (s : BitSet) (hs : s.WF) (i : Nat) : s.testBitNumber i = some (s.abs.see i) := by
  unfold testBitNumber BitArr.see
  have := hs.room
  by_cases h : i ≥ s.nbits
  · rw [if_pos h, decide_eq_false (by show ¬ i < s.nbits; omega)]; rfl
  · have hl : i / 8 < s.data.length := by show i / 8 < s.nbytes; omega
    rw [if_neg h, decide_eq_true (by show i < s.nbits; omega), List.getElem?_eq_getElem hl]
    dsimp only
    rw [hasBit_eq _ _ (by omega), ← rawL_get _ _ hl _ (by omega), show 8 * (i / 8) + i % 8 = i by omega]
    rfl

/-- `SetBitNumber` refines the specification: it answers `true` exactly when the position lies inside the
allocated bytes, and then changes that bit (extending the logical size); otherwise nothing changes. -/
theorem C10_set (s : BitSet) (hs : s.WF) (i : Nat) (v : Bool) :
    ∃ s', s.setBitNumber i v = some (decide (i < 8 * s.nbytes), s') ∧ s'.abs = s.abs.put i v ∧ s'.WF ∧
      (8 * s.nbytes ≤ i → s' = s) := by
  have hroom := hs.room
  have hpos := hs.pos
  have hsmall := hs.small
  unfold setBitNumber
  by_cases h : i < 8 * s.nbytes
  · have hl : i / 8 < s.data.length := by show i / 8 < s.nbytes; omega
    rw [if_neg (by omega)]
    dsimp only
    rw [modifyAt_eq _ _ _ hl]
    dsimp only
    have hnb : (if i ≥ s.nbits then (i + 1) % 2 ^ 32 else s.nbits) = max s.nbits (i + 1) := by
      split
      · rw [Nat.mod_eq_of_lt (by omega)]; omega
      · omega
    rw [hnb, decide_eq_true h]
    refine ⟨_, rfl, ?_, ⟨?_, ?_, ?_⟩, fun h2 => by omega⟩
    · unfold abs BitArr.put
      dsimp only
      rw [if_pos h, BitArr.mk.injEq]
      refine ⟨rfl, ?_, funext fun j => rawL_put _ _ _ hl _⟩
      show 8 * (List.set _ _ _).length = _
      rw [List.length_set]; rfl
    · show 0 < (List.set _ _ _).length
      rw [List.length_set]; exact hpos
    · show _ ≤ 8 * (List.set _ _ _).length
      rw [List.length_set]
      show max s.nbits (i + 1) ≤ 8 * s.nbytes
      omega
    · show 8 * (List.set _ _ _).length < _
      rw [List.length_set]; exact hsmall
  · rw [if_pos (by omega), decide_eq_false h]
    refine ⟨s, rfl, ?_, hs, fun _ => rfl⟩
    unfold BitArr.put
    rw [if_neg (show ¬ i < s.abs.cap from h)]

/-- The same in terms of the API: after a successful `SetBitNumber(i, v)`, position `i` tests as `v` and every
position that was valid before tests as before; newly valid positions test `false` if nothing was stored there. -/
theorem C10_set_observed (s s' : BitSet) (hs : s.WF) (i : Nat) (v : Bool)
    (h : s.setBitNumber i v = some (true, s')) :
    s'.testBitNumber i = some v ∧
    (∀ j, j ≠ i → j < s.nbits → s'.testBitNumber j = s.testBitNumber j) ∧
    (s.abs.Clean → ∀ j, j ≠ i → s'.testBitNumber j = s.testBitNumber j) ∧
    s'.nbits = max s.nbits (i + 1) ∧ (s.abs.Clean → s'.abs.Clean) := by
  obtain ⟨s1, e, ha, hw, -⟩ := C10_set s hs i v
  rw [h] at e
  simp only [Option.some.injEq, Prod.mk.injEq] at e
  obtain ⟨e1, rfl⟩ := e
  have hi : i < 8 * s.nbytes := of_decide_eq_true e1.symm
  have ha' : s'.abs = ⟨max s.nbits (i + 1), 8 * s.nbytes, fun j => if j = i then v else rawL s.data j⟩ := by
    rw [ha]
    unfold BitArr.put
    rw [if_pos (show i < s.abs.cap from hi)]
    rfl
  have hsize : s'.nbits = max s.nbits (i + 1) := congrArg BitArr.size ha'
  refine ⟨?_, fun j hj hlt => ?_, fun hc j hj => ?_, hsize, fun hc j hj => ?_⟩
  · rw [C10_test s' hw, ha', BitArr.see]
    have h1 : i < max s.nbits (i + 1) := by omega
    simp [h1]
  · rw [C10_test s' hw, C10_test s hs, ha', BitArr.see, BitArr.see]
    have h1 : j < max s.nbits (i + 1) := by omega
    have h2 : j < s.abs.size := hlt
    simp only [h1, h2, hj, if_false]
    rfl
  · rw [C10_test s' hw, C10_test s hs, ha', BitArr.see, BitArr.see]
    by_cases h2 : j < s.nbits
    · have h1 : j < max s.nbits (i + 1) := by omega
      have h2 : j < s.abs.size := h2
      simp only [h1, h2, hj, if_false]
      rfl
    · have h3 : s.abs.bit j = false := hc j (by show s.nbits ≤ j; omega)
      have h4 : rawL s.data j = false := h3
      simp only [hj, if_false, h3, h4, Bool.and_false]
  · rw [ha'] at hj ⊢
    have hj' : max s.nbits (i + 1) ≤ j := hj
    show (if j = i then v else rawL s.data j) = false
    rw [if_neg (by omega)]
    exact hc j (by show s.nbits ≤ j; omega)

example : demo.setBitNumber 22 true = some (true, ⟨23, [2#8, 2#8, 68#8]⟩) ∧
    demo.setBitNumber 24 true = some (false, demo) := ⟨rfl, rfl⟩

/-- Assigning through `b[i]` changes exactly the valid bit `i`; outside the logical size it does nothing. -/
theorem C10_reference (s : BitSet) (hs : s.WF) (i : Nat) (v : Bool) :
    ∃ s', s.refAssign i v = some s' ∧ s'.abs = s.abs.putVisible i v ∧ s'.WF := by
  have hroom := hs.room
  unfold refAssign BitArr.putVisible
  by_cases h : i < s.nbits
  · have hl : i / 8 < s.data.length := by show i / 8 < s.nbytes; omega
    rw [if_neg (by omega), modifyAt_eq _ _ _ hl, if_pos (show i < s.abs.size from h)]
    refine ⟨_, rfl, ?_, ⟨?_, ?_, ?_⟩⟩
    · unfold abs
      rw [BitArr.mk.injEq]
      refine ⟨rfl, ?_, funext fun j => rawL_put _ _ _ hl _⟩
      show 8 * (List.set _ _ _).length = _
      rw [List.length_set]; rfl
    · show 0 < (List.set _ _ _).length
      rw [List.length_set]; exact hs.pos
    · show _ ≤ 8 * (List.set _ _ _).length
      rw [List.length_set]; exact hroom
    · show 8 * (List.set _ _ _).length < _
      rw [List.length_set]; exact hs.small
  · rw [if_pos (by omega), if_neg (show ¬ i < s.abs.size from h)]
    exact ⟨s, rfl, rfl, hs⟩

example : demo.refAssign 0 true = some ⟨20, [3#8, 2#8, 4#8]⟩ := rfl

/-- Operations of the public interface. -/
inductive Op where
  | set (i : Nat) (v : Bool)
  | reset (i : Nat)
  | ref (i : Nat) (v : Bool)
  | resetAll
  | clear
  | and (rhs : BitSet)
  | or (rhs : BitSet)
  | xor (rhs : BitSet)
  | shl (k : Nat)
  | shr (k : Nat)

/-- One operation on the model. -/
def Op.run (s : BitSet) : Op → Option BitSet
  | .set i v => (s.setBitNumber i v).map (·.2)
  | .reset i => s.resetBitNumber i
  | .ref i v => s.refAssign i v
  | .resetAll => some (s.resetAllBits false)
  | .clear => some s.clear
  | .and r => s.andEqual r
  | .or r => s.orEqual r
  | .xor r => s.xorEqual r
  | .shl k => s.leftShift k
  | .shr k => s.rightShift k

/-- One operation on the specification; `none` is a shift by more than the storage allows. -/
def Op.spec (a : BitArr) : Op → Option BitArr
  | .set i v => some (a.put i v)
  | .reset i => some (a.put i false)
  | .ref i v => some (a.putVisible i v)
  | .resetAll => some a.zeroAll
  | .clear => some a.clear
  | .and r => some (a.conj r.abs)
  | .or r => some (a.disj r.abs)
  | .xor r => some (a.xor r.abs)
  | .shl k => if k ≤ a.cap then some (a.shl k) else none
  | .shr k => if k < a.cap then some (a.shr k) else none

def runAll (s : BitSet) : List Op → Option BitSet
  | [] => some s
  | o :: os => (o.run s).bind (runAll · os)

def specAll (a : BitArr) : List Op → Option BitArr
  | [] => some a
  | o :: os => (o.spec a).bind (specAll · os)

theorem wf_of_abs (s s' : BitSet) (hs : s.WF) (hn : s'.nbits = s.nbits) (h : s'.nbytes = s.nbytes) : s'.WF :=
  ⟨by rw [h]; exact hs.pos, by rw [h, hn]; exact hs.room, by rw [h]; exact hs.small⟩

theorem step_refines (s : BitSet) (hs : s.WF) (o : Op) :
    (o.run s).map abs = o.spec s.abs ∧ ∀ s', o.run s = some s' → s'.WF := by
  have key : ∀ (r : Option BitSet) (a : BitArr), (∃ s', r = some s' ∧ s'.abs = a ∧ s'.WF) →
      r.map abs = some a ∧ ∀ s', r = some s' → s'.WF := by
    rintro r a ⟨s', rfl, rfl, hw⟩
    exact ⟨rfl, fun s'' h => by cases h; exact hw⟩
  have key2 : ∀ (r : Option BitSet) (a : BitArr), a.size = s.nbits →
      (∃ s', r = some s' ∧ s'.abs = a ∧ s'.nbytes = s.nbytes) → r.map abs = some a ∧ ∀ s', r = some s' → s'.WF := by
    rintro r a hsz ⟨s', h1, rfl, h2⟩
    exact key r _ ⟨s', h1, rfl, wf_of_abs s s' hs hsz h2⟩
  cases o with
  | set i v =>
    obtain ⟨s', e, ha, hw, -⟩ := C10_set s hs i v
    exact key _ _ ⟨s', by show (s.setBitNumber i v).map _ = _; rw [e]; rfl, ha, hw⟩
  | reset i =>
    obtain ⟨s', e, ha, hw, -⟩ := C10_set s hs i false
    exact key _ _ ⟨s', by show (s.setBitNumber i false).map _ = _; rw [e]; rfl, ha, hw⟩
  | ref i v => exact key _ _ (C10_reference s hs i v)
  | resetAll =>
    refine key2 _ _ rfl ⟨_, rfl, ?_, ?_⟩
    · unfold abs BitArr.zeroAll
      rw [BitArr.mk.injEq]
      refine ⟨rfl, ?_, funext fun i => rawL_replicate_zero _ i⟩
      simp [resetAllBits, nbytes]
    · simp [resetAllBits, nbytes]
  | clear =>
    refine key _ _ ⟨_, rfl, ?_, ⟨?_, ?_, ?_⟩⟩
    · unfold abs BitArr.clear
      rw [BitArr.mk.injEq]
      refine ⟨rfl, ?_, funext fun i => rawL_replicate_zero _ i⟩
      simp [BitSet.clear, nbytes]
    · simpa [BitSet.clear, nbytes] using hs.pos
    · simp [BitSet.clear, nbytes]
    · simpa [BitSet.clear, nbytes] using hs.small
  | and r => exact key2 _ _ rfl (andEqual_abs s r)
  | or r => exact key2 _ _ rfl (orEqual_abs s r)
  | xor r => exact key2 _ _ rfl (xorEqual_abs s r)
  | shl k =>
    show (s.leftShift k).map abs = (if k ≤ 8 * s.nbytes then _ else _) ∧ ∀ s', s.leftShift k = some s' → _
    by_cases h : k ≤ 8 * s.nbytes
    · rw [if_pos h]
      exact key2 _ _ rfl (leftShift_abs s k h)
    · rw [if_neg h, leftShift_none s k (by omega)]
      exact ⟨rfl, fun s' h => by cases h⟩
  | shr k =>
    show (s.rightShift k).map abs = (if k < 8 * s.nbytes then _ else _) ∧ ∀ s', s.rightShift k = some s' → _
    by_cases h : k < 8 * s.nbytes
    · rw [if_pos h]
      exact key2 _ _ rfl (rightShift_abs s k h)
    · rw [if_neg h, rightShift_none s k hs.pos (by omega)]
      exact ⟨rfl, fun s' h => by cases h⟩

/-- Every history of operations, of any length, is the history of the specification: same outcome (undefined exactly
when some shift is too large), same bits, same sizes. -/
theorem C10_history (s : BitSet) (hs : s.WF) (os : List Op) :
    (runAll s os).map abs = specAll s.abs os ∧ ∀ s', runAll s os = some s' → s'.WF := by
  induction os generalizing s with
  | nil => exact ⟨rfl, fun s' h => by cases h; exact hs⟩
  | cons o os ih =>
    obtain ⟨h1, h2⟩ := step_refines s hs o
    rw [runAll, specAll, ← h1]
    cases e : o.run s with
    | none => exact ⟨rfl, fun s' h => by cases h⟩
    | some s1 => exact ih s1 (h2 s1 e)

example : (runAll (makeInstance 20) [.set 3 true, .shl 9, .set 1 true, .or demo, .shr 1, .ref 0 false]).map
    (fun s => (List.range 24).filter s.abs.see) = some [8, 11, 17] := by decide +kernel

/-! ### C11: counting -/

/-- What `CountBits` answers for every start position. -/
theorem C11_actual (s : BitSet) (hs : s.WF) (hc : s.abs.Clean) (start : Nat) :
    s.countBits start = some (if start % 8 = 0 then
        (List.range s.nbits).countP fun i => decide (start ≤ i) && s.abs.see i
      else if s.abs.see start then
        8 - start % 8 + (List.range s.nbits).countP fun i => decide (8 * (start / 8 + 1) ≤ i) && s.abs.see i
      else (List.range s.nbits).countP fun i => decide (8 * (start / 8 + 1) ≤ i) && s.abs.see i) := by
  have hroom := hs.room
  have hl : s.nbytes = s.data.length := rfl
  -- counting the visible bits is counting the stored bits
  have hcnt : ∀ a, a ≤ 8 * s.nbytes → cnt (rawL s.data) a (8 * s.nbytes - a) =
      (List.range s.nbits).countP fun i => decide (a ≤ i) && s.abs.see i := by
    intro a ha
    have hsee : ∀ i, i < s.nbits → s.abs.see i = rawL s.data i := by
      intro i hi
      unfold BitArr.see
      rw [decide_eq_true (show i < s.abs.size from hi)]; rfl
    by_cases h : a ≤ s.nbits
    · rw [cnt_from _ _ _ h, show 8 * s.nbytes - a = (s.nbits - a) + (8 * s.nbytes - s.nbits) by omega, cnt_add,
        cnt_zero (rawL s.data) (a + (s.nbits - a)) _ (fun i h1 _ => hc i (by show s.nbits ≤ i; omega)), Nat.add_zero]
      exact cnt_congr _ _ _ _ fun i h1 h2 => (hsee i (by omega)).symm
    · rw [cnt_zero (rawL s.data) a _ (fun i h1 _ => hc i (by show s.nbits ≤ i; omega))]
      symm
      rw [List.countP_eq_zero]
      intro i hi
      rw [List.mem_range] at hi
      rw [decide_eq_false (by omega)]; simp
  have hz : ∀ a, s.nbits ≤ a → (List.range s.nbits).countP (fun i => decide (a ≤ i) && s.abs.see i) = 0 := by
    intro a ha
    rw [List.countP_eq_zero]
    intro i hi
    rw [List.mem_range] at hi
    rw [decide_eq_false (by omega)]; simp
  unfold countBits
  by_cases h0 : start = 0
  · subst h0
    rw [if_pos rfl, if_pos rfl, countLoop_eq _ _ _ _ (by omega), Nat.zero_add, Nat.mul_zero]
    have := hcnt 0 (by omega)
    rw [Nat.sub_zero] at this
    rw [this]
  · rw [if_neg h0]
    by_cases h1 : start ≥ s.nbits
    · rw [if_pos h1]
      congr 1
      by_cases h2 : start % 8 = 0
      · rw [if_pos h2, hz _ h1]
      · have : s.abs.see start = false := by
          unfold BitArr.see
          rw [decide_eq_false (by show ¬ start < s.nbits; omega)]; rfl
        rw [if_neg h2, this, if_neg (by simp), hz _ (by omega)]
    · rw [if_neg h1]
      dsimp only
      by_cases h2 : start % 8 = 0
      · rw [if_neg (not_not.mpr h2), if_pos h2, countLoop_eq _ _ _ _ (by omega), Nat.zero_add,
          show 8 * (start / 8) = start by omega, show 8 * (s.nbytes - start / 8) = 8 * s.nbytes - start by omega,
          hcnt _ (by omega)]
      · have hp : start / 8 < s.data.length := by omega
        rw [if_pos h2, if_neg h2, List.getElem?_eq_getElem hp]
        dsimp only
        rw [forUp_repeat]
        show countLoop _ _ _ _ = _
        rw [countLoop_eq _ _ _ _ (by omega),
          show 8 * (s.nbytes - (start / 8 + 1)) = 8 * s.nbytes - 8 * (start / 8 + 1) by omega, hcnt _ (by omega),
          hasBit_eq _ _ (by omega), ← rawL_get _ _ hp _ (by omega), show 8 * (start / 8) + start % 8 = start by omega]
        have : s.abs.see start = rawL s.data start := by
          unfold BitArr.see
          rw [decide_eq_true (show start < s.abs.size by show start < s.nbits; omega)]; rfl
        rw [this]
        by_cases h3 : rawL s.data start <;> simp [h3]

/-- `CountBits(start)` is the number of set bits at positions `start` and above, if `start` is a multiple of eight or
the last bit of a byte.  Missing: start positions inside a byte, where the code is wrong (see the counterexample). -/
theorem C11_count_partial (s : BitSet) (hs : s.WF) (hc : s.abs.Clean) (start : Nat)
    (h : start % 8 = 0 ∨ start % 8 = 7) :
    s.countBits start = some ((List.range s.nbits).countP fun i => decide (start ≤ i) && s.abs.see i) := by
  rw [C11_actual s hs hc]
  rcases h with h | h
  · rw [if_pos h]
  · rw [if_neg (by omega), h]
    have hsplit : (List.range s.nbits).countP (fun i => decide (start ≤ i) && s.abs.see i) =
        (if s.abs.see start then 1 else 0) +
          (List.range s.nbits).countP (fun i => decide (8 * (start / 8 + 1) ≤ i) && s.abs.see i) := by
      rw [show 8 * (start / 8 + 1) = start + 1 by omega]
      by_cases h1 : start < s.nbits
      · rw [cnt_from _ _ _ (by omega), cnt_from _ _ _ (by omega), show s.nbits - start = 1 + (s.nbits - (start + 1)) by omega,
          cnt_add]
        congr 1
        unfold cnt
        rw [List.range'_one, List.countP_singleton]
      · have h2 : s.abs.see start = false := by
          unfold BitArr.see
          rw [decide_eq_false (show ¬ start < s.abs.size from h1)]; rfl
        rw [h2]
        have : ∀ a, s.nbits ≤ a → (List.range s.nbits).countP (fun i => decide (a ≤ i) && s.abs.see i) = 0 := by
          intro a ha
          rw [List.countP_eq_zero]
          intro i hi
          rw [List.mem_range] at hi
          rw [decide_eq_false (by omega)]; simp
        rw [this _ (by omega), this _ (by omega)]; rfl
    rw [hsplit]
    split <;> simp

example : demo.countBits 8 = some 2 ∧ demo.countBits 0 = some 3 := by decide

/-- The full statement fails: one bit is set at position 3, and `CountBits(3)` answers 5. -/
theorem C11_counterexample : ∃ s : BitSet, s.WF ∧ s.abs.Clean ∧
    s.countBits 3 = some 5 ∧ (List.range s.nbits).countP (fun i => decide (3 ≤ i) && s.abs.see i) = 1 := by
  refine ⟨⟨8, [8#8]⟩, ⟨by decide, by decide, by decide⟩, fun i hi => rawL_ge _ _ hi, by decide, by decide⟩

/-! ### C12: searches -/

theorem see_eq (s : BitSet) (i : Nat) (h : i < s.nbits) : s.abs.see i = rawL s.data i := by
  unfold BitArr.see
  rw [decide_eq_true (show i < s.abs.size from h)]; rfl

/-- `FirstSetBit(start)`: the least set position at or above `start`, or the logical size. -/
theorem C12_first_set_partial (s : BitSet) (hs : s.WF) (hc : s.abs.Clean) (start : Nat) :
    ∃ r, s.firstSetBit start = some r ∧
      ((start ≤ r ∧ r < s.nbits ∧ s.abs.see r = true ∧ ∀ k, start ≤ k → k < r → s.abs.see k = false) ∨
       (r = s.nbits ∧ ∀ k, start ≤ k → s.abs.see k = false)) := by
  have hroom := hs.room
  have hbig : ∀ k, s.nbits ≤ k → s.abs.see k = false := by
    intro k hk
    unfold BitArr.see
    rw [decide_eq_false (by show ¬ k < s.nbits; omega)]; rfl
  obtain ⟨r, e, h1, h2⟩ := firstBit_spec true _ _ firstSetTable_ok s hroom start
  refine ⟨r, e, ?_⟩
  by_cases hst : start = 0 ∨ start < s.nbits
  · rcases h1 hst with ⟨g1, g2, g3, g4⟩ | ⟨g1, g2⟩
    · have hr : r < s.nbits := by
        by_contra hr
        have : rawL s.data r = false := hc r (by show s.nbits ≤ r; omega)
        rw [this] at g3; cases g3
      refine Or.inl ⟨g1, hr, by rw [see_eq s r hr]; exact g3, fun k h5 h6 => ?_⟩
      rw [see_eq s k (by omega)]
      exact g4 k h5 h6
    · refine Or.inr ⟨g1, fun k h5 => ?_⟩
      by_cases h6 : k < s.nbits
      · rw [see_eq s k h6]; exact g2 k h5 (by omega)
      · exact hbig k (by omega)
  · exact Or.inr ⟨h2 (by omega) (by omega), fun k h5 => hbig k (by omega)⟩

/-- `FirstNullBit(start)`: the least clear position at or above `start` below the logical size, or the logical size. -/
theorem C12_first_null_partial (s : BitSet) (hs : s.WF) (hc : s.abs.Clean) (start : Nat) :
    ∃ r, s.firstNullBit start = some r ∧
      ((start ≤ r ∧ r < s.nbits ∧ s.abs.see r = false ∧ ∀ k, start ≤ k → k < r → s.abs.see k = true) ∨
       (r = s.nbits ∧ ∀ k, start ≤ k → k < s.nbits → s.abs.see k = true)) := by
  have hroom := hs.room
  obtain ⟨r, e, h1, h2⟩ := firstBit_spec false _ _ firstNullTable_ok s hroom start
  refine ⟨r, e, ?_⟩
  by_cases hst : start = 0 ∨ start < s.nbits
  · rcases h1 hst with ⟨g1, g2, g3, g4⟩ | ⟨g1, g2⟩
    · by_cases hr : r < s.nbits
      · refine Or.inl ⟨g1, hr, by rw [see_eq s r hr]; exact g3, fun k h5 h6 => ?_⟩
        rw [see_eq s k (by omega)]
        exact g4 k h5 h6
      · refine Or.inr ⟨?_, fun k h5 h6 => ?_⟩
        · by_contra hne
          have := g4 s.nbits (by omega) (by omega)
          have h3 : rawL s.data s.nbits = false := hc s.nbits (Nat.le_refl _)
          rw [h3] at this; cases this
        · rw [see_eq s k h6]; exact g4 k h5 (by omega)
    · refine Or.inr ⟨g1, fun k h5 h6 => ?_⟩
      rw [see_eq s k h6]; exact g2 k h5 (by omega)
  · exact Or.inr ⟨h2 (by omega) (by omega), fun k h5 h6 => by omega⟩

/-- Without that condition the full statement fails: after `<<=` a set of 4 bits shows no set bit at all, yet
`FirstSetBit(0)` answers 5, a position past the logical size. -/
theorem C12_first_counterexample : ∃ s s1 : BitSet, s.WF ∧ s.abs.Clean ∧ s.leftShift 2 = some s1 ∧ s1.nbits = 4 ∧
    (∀ i, s1.testBitNumber i = some false) ∧ s1.firstSetBit 0 = some 5 := by
  have hw : WF ⟨4, [32#8]⟩ := ⟨by decide, by decide, by decide⟩
  refine ⟨⟨4, [8#8]⟩, ⟨4, [32#8]⟩, ⟨by decide, by decide, by decide⟩, ?_, rfl, rfl, fun i => ?_, by decide +kernel⟩
  · intro i hi
    have hi' : 4 ≤ i := hi
    by_cases h : i < 8
    · have : i = 4 ∨ i = 5 ∨ i = 6 ∨ i = 7 := by omega
      rcases this with rfl | rfl | rfl | rfl <;> decide
    · exact rawL_ge _ _ (by show 8 ≤ i; omega)
  · by_cases h : i < 4
    · have : i = 0 ∨ i = 1 ∨ i = 2 ∨ i = 3 := by omega
      rcases this with rfl | rfl | rfl | rfl <;> rfl
    · unfold testBitNumber
      exact if_pos (by show i ≥ 4; omega)

/-- `LastSetBit(start)`: the greatest set position at or below `start` (and below the logical size), or the logical
size. -/
theorem C12_last_set (s : BitSet) (hs : s.WF) (h0 : 0 < s.nbits) (start : Nat) :
    ∃ r, s.lastSetBit start = some r ∧
      ((r ≤ start ∧ r < s.nbits ∧ s.abs.see r = true ∧ ∀ k, r < k → k ≤ start → s.abs.see k = false) ∨
       (r = s.nbits ∧ ∀ k, k ≤ start → s.abs.see k = false)) := by
  have hbig : ∀ k, s.nbits ≤ k → s.abs.see k = false := by
    intro k hk
    unfold BitArr.see
    rw [decide_eq_false (by show ¬ k < s.nbits; omega)]; rfl
  obtain ⟨r, e, h⟩ := lastBit_spec true _ _ lastSetTable_ok s hs h0 start
  refine ⟨r, e, ?_⟩
  rcases h with ⟨g1, g2, g3⟩ | ⟨g1, g2⟩
  · refine Or.inl ⟨by omega, by omega, by rw [see_eq s r (by omega)]; exact g2, fun k h5 h6 => ?_⟩
    by_cases h7 : k < s.nbits
    · rw [see_eq s k h7]; exact g3 k h5 (by omega)
    · exact hbig k (by omega)
  · refine Or.inr ⟨g1, fun k h6 => ?_⟩
    by_cases h7 : k < s.nbits
    · rw [see_eq s k h7]; exact g2 k (by omega)
    · exact hbig k (by omega)

/-- `LastNullBit(start)`: the greatest clear position at or below `start` and below the logical size, or the logical
size. -/
theorem C12_last_null (s : BitSet) (hs : s.WF) (h0 : 0 < s.nbits) (start : Nat) :
    ∃ r, s.lastNullBit start = some r ∧
      ((r ≤ start ∧ r < s.nbits ∧ s.abs.see r = false ∧
          ∀ k, r < k → k ≤ start → k < s.nbits → s.abs.see k = true) ∨
       (r = s.nbits ∧ ∀ k, k ≤ start → k < s.nbits → s.abs.see k = true)) := by
  obtain ⟨r, e, h⟩ := lastBit_spec false _ _ lastNullTable_ok s hs h0 start
  refine ⟨r, e, ?_⟩
  rcases h with ⟨g1, g2, g3⟩ | ⟨g1, g2⟩
  · refine Or.inl ⟨by omega, by omega, by rw [see_eq s r (by omega)]; exact g2, fun k h5 h6 h7 => ?_⟩
    rw [see_eq s k h7]; exact g3 k h5 (by omega)
  · refine Or.inr ⟨g1, fun k h6 h7 => ?_⟩
    rw [see_eq s k h7]; exact g2 k (by omega)

example : demo.firstSetBit 2 = some 9 ∧ demo.firstSetBit 19 = some 20 ∧ demo.firstNullBit 1 = some 2 ∧
    demo.lastSetBit 17 = some 9 ∧ demo.lastNullBit 18 = some 17 ∧ demo.lastSetBit 0 = some 20 := by decide +kernel

/-- On an empty bit set both downward searches read outside the storage. -/
theorem C12_last_empty (s : BitSet) (hs : s.WF) (h0 : s.nbits = 0) (start : Nat) :
    s.lastSetBit start = none ∧ s.lastNullBit start = none := by
  have hsmall := hs.small
  have hl : s.nbytes = s.data.length := rfl
  have hn : s.data[536870911]? = none := List.getElem?_eq_none (by omega)
  have key : ∀ want skip table, lastBit want skip table s start = none := by
    intro want skip table
    unfold lastBit
    rw [h0, if_pos (Nat.zero_le _)]
    show byteDown _ _ _ _ (536870911 + 1) = none
    rw [byteDown, hn]
  exact ⟨key _ _ _, key _ _ _⟩

/-! ### C13: bitwise operators and shifts -/

/-- On the stored bits the operators are exact for every pair of sets and every shift that is defined: and, or and xor
position by position (positions missing on the right count as zero, positions past the storage of the left operand are
ignored), shifts move every stored bit and fill with zeros. -/
theorem C13_stored_bits (s rhs : BitSet) (hs : s.WF) (k : Nat) :
    (s.andEqual rhs).map abs = some (s.abs.conj rhs.abs) ∧
    (s.orEqual rhs).map abs = some (s.abs.disj rhs.abs) ∧
    (s.xorEqual rhs).map abs = some (s.abs.xor rhs.abs) ∧
    (k ≤ 8 * s.nbytes → (s.leftShift k).map abs = some (s.abs.shl k)) ∧
    (k < 8 * s.nbytes → (s.rightShift k).map abs = some (s.abs.shr k)) := by
  refine ⟨(step_refines s hs (.and rhs)).1, (step_refines s hs (.or rhs)).1, (step_refines s hs (.xor rhs)).1,
    fun h => ?_, fun h => ?_⟩
  · have := (step_refines s hs (.shl k)).1
    rwa [Op.spec, if_pos (show k ≤ s.abs.cap from h)] at this
  · have := (step_refines s hs (.shr k)).1
    rwa [Op.spec, if_pos (show k < s.abs.cap from h)] at this

/-- `&=`: visible bits are the conjunction; nothing hidden appears. -/
theorem C13_and (s rhs : BitSet) (hs : s.WF) (hc : rhs.abs.Clean) :
    ∃ s', s.andEqual rhs = some s' ∧ s'.nbits = s.nbits ∧ s'.WF ∧ (s.abs.Clean → s'.abs.Clean) ∧
      ∀ i, s'.abs.see i = (s.abs.see i && rhs.abs.see i) := by
  obtain ⟨s', e, ha, hn⟩ := andEqual_abs s rhs
  have hb : s'.nbits = s.nbits := congrArg BitArr.size ha
  refine ⟨s', e, hb, wf_of_abs s s' hs hb hn, fun h i hi => ?_, fun i => ?_⟩
  · rw [ha] at hi ⊢
    show (s.abs.bit i && rhs.abs.bit i) = false
    rw [h i hi]; rfl
  · rw [ha]
    show (decide (i < s.nbits) && (s.abs.bit i && rhs.abs.bit i)) =
      ((decide (i < s.nbits) && s.abs.bit i) && (decide (i < rhs.nbits) && rhs.abs.bit i))
    by_cases h : i < rhs.nbits
    · simp [h, Bool.and_assoc]
    · rw [hc i (by show rhs.nbits ≤ i; omega)]; simp

/-- `|=`: visible bits are the disjunction, bits of the right operand past the size of the left one are ignored. -/
theorem C13_or (s rhs : BitSet) (hs : s.WF) (hc : rhs.abs.Clean) :
    ∃ s', s.orEqual rhs = some s' ∧ s'.nbits = s.nbits ∧ s'.WF ∧
      ∀ i, i < s.nbits → s'.abs.see i = (s.abs.see i || rhs.abs.see i) := by
  have hroom := hs.room
  obtain ⟨s', e, ha, hn⟩ := orEqual_abs s rhs
  have hb : s'.nbits = s.nbits := congrArg BitArr.size ha
  refine ⟨s', e, hb, wf_of_abs s s' hs hb hn, fun i hi => ?_⟩
  rw [ha]
  show (decide (i < s.nbits) && (s.abs.bit i || (decide (i < 8 * s.nbytes) && rhs.abs.bit i))) =
      ((decide (i < s.nbits) && s.abs.bit i) || (decide (i < rhs.nbits) && rhs.abs.bit i))
  rw [decide_eq_true hi, decide_eq_true (by omega)]
  by_cases h : i < rhs.nbits
  · simp [h]
  · rw [hc i (by show rhs.nbits ≤ i; omega)]; simp

/-- `^=`: visible bits are the exclusive or. -/
theorem C13_xor (s rhs : BitSet) (hs : s.WF) (hc : rhs.abs.Clean) :
    ∃ s', s.xorEqual rhs = some s' ∧ s'.nbits = s.nbits ∧ s'.WF ∧
      ∀ i, i < s.nbits → s'.abs.see i = Bool.xor (s.abs.see i) (rhs.abs.see i) := by
  have hroom := hs.room
  obtain ⟨s', e, ha, hn⟩ := xorEqual_abs s rhs
  have hb : s'.nbits = s.nbits := congrArg BitArr.size ha
  refine ⟨s', e, hb, wf_of_abs s s' hs hb hn, fun i hi => ?_⟩
  rw [ha]
  show (decide (i < s.nbits) && Bool.xor (s.abs.bit i) (decide (i < 8 * s.nbytes) && rhs.abs.bit i)) =
      Bool.xor (decide (i < s.nbits) && s.abs.bit i) (decide (i < rhs.nbits) && rhs.abs.bit i)
  rw [decide_eq_true hi, decide_eq_true (by omega)]
  by_cases h : i < rhs.nbits
  · simp [h]
  · rw [hc i (by show rhs.nbits ≤ i; omega)]; simp

/-- Operands may have different numbers of bytes. -/
example : (demo.andEqual ⟨10, [255#8, 1#8]⟩) = some ⟨20, [2#8, 0#8, 0#8]⟩ ∧
    (demo.orEqual ⟨10, [255#8, 1#8]⟩) = some ⟨20, [255#8, 3#8, 4#8]⟩ ∧
    (demo.xorEqual ⟨10, [255#8, 1#8]⟩) = some ⟨20, [253#8, 3#8, 4#8]⟩ := ⟨rfl, rfl, rfl⟩

/-- `<<= k` moves every visible bit up by `k` and fills with zeros. -/
theorem C13_shift_left (s : BitSet) (hs : s.WF) (k : Nat) (hk : k ≤ 8 * s.nbytes) :
    ∃ s', s.leftShift k = some s' ∧ s'.nbits = s.nbits ∧ s'.WF ∧
      ∀ i, i < s.nbits → s'.abs.see i = (decide (k ≤ i) && s.abs.see (i - k)) := by
  have hroom := hs.room
  obtain ⟨s', e, ha, hn⟩ := leftShift_abs s k hk
  have hb : s'.nbits = s.nbits := congrArg BitArr.size ha
  refine ⟨s', e, hb, wf_of_abs s s' hs hb hn, fun i hi => ?_⟩
  rw [ha]
  show (decide (i < s.nbits) && (decide (k ≤ i ∧ i < 8 * s.nbytes) && s.abs.bit (i - k))) =
    (decide (k ≤ i) && (decide (i - k < s.nbits) && s.abs.bit (i - k)))
  have h1 : i < 8 * s.nbytes := by omega
  have h2 : i - k < s.nbits := by omega
  simp [hi, h1, h2]

/-- `>>= k` moves every bit down by `k` and fills with zeros, if nothing is stored past the logical size. -/
theorem C13_shift_right (s : BitSet) (hs : s.WF) (hc : s.abs.Clean) (k : Nat) (hk : k < 8 * s.nbytes) :
    ∃ s', s.rightShift k = some s' ∧ s'.nbits = s.nbits ∧ s'.WF ∧ s'.abs.Clean ∧
      ∀ i, s'.abs.see i = s.abs.see (i + k) := by
  obtain ⟨s', e, ha, hn⟩ := rightShift_abs s k hk
  have hb : s'.nbits = s.nbits := congrArg BitArr.size ha
  refine ⟨s', e, hb, wf_of_abs s s' hs hb hn, fun i hi => ?_, fun i => ?_⟩
  · rw [ha] at hi ⊢
    exact hc (i + k) (Nat.le_trans hi (Nat.le_add_right _ _))
  · rw [ha]
    show (decide (i < s.nbits) && s.abs.bit (i + k)) = (decide (i + k < s.nbits) && s.abs.bit (i + k))
    by_cases h : i + k < s.nbits
    · have h1 : i < s.nbits := by omega
      simp [h, h1]
    · rw [hc (i + k) (by show s.nbits ≤ i + k; omega)]; simp

example : demo.leftShift 3 = some ⟨20, [16#8, 16#8, 32#8]⟩ ∧ demo.rightShift 9 = some ⟨20, [1#8, 2#8, 0#8]⟩ ∧
    demo.leftShift 16 = some ⟨20, [0#8, 0#8, 2#8]⟩ := ⟨rfl, rfl, rfl⟩

/-- Exactly which shifts touch memory outside the set. -/
theorem C13_shift_undefined (s : BitSet) (hs : s.WF) (k : Nat) :
    (s.leftShift k = none ↔ 8 * s.nbytes < k) ∧ (s.rightShift k = none ↔ 8 * s.nbytes ≤ k) := by
  refine ⟨⟨fun h => ?_, leftShift_none s k⟩, ⟨fun h => ?_, rightShift_none s k hs.pos⟩⟩
  · by_contra hk
    obtain ⟨s', e, _⟩ := leftShift_abs s k (by omega)
    rw [h] at e; cases e
  · by_contra hk
    obtain ⟨s', e, _⟩ := rightShift_abs s k (by omega)
    rw [h] at e; cases e

/-- Shifting left keeps bits past the logical size, and shifting back reveals them: with 4 bits, `1100 << 1 >> 1` gives
`1100` instead of `0100` (position 3 reads `true`, although the zero filling of both shifts should have cleared it). -/
theorem C13_hidden_bits : ∃ s s1 s2 : BitSet, s.WF ∧ s.abs.Clean ∧ s.leftShift 1 = some s1 ∧
    s1.abs.see 4 = false ∧ s1.rightShift 1 = some s2 ∧ s2.testBitNumber 3 = some true := by
  refine ⟨⟨4, [12#8]⟩, ⟨4, [24#8]⟩, ⟨4, [12#8]⟩, ⟨by decide, by decide, by decide⟩, ?_, rfl, rfl, rfl, rfl⟩
  intro i hi
  have hi' : 4 ≤ i := hi
  by_cases h : i < 8
  · have : i = 4 ∨ i = 5 ∨ i = 6 ∨ i = 7 := by omega
    rcases this with rfl | rfl | rfl | rfl <;> decide
  · exact rawL_ge _ _ (by show 8 ≤ i; omega)

/-! ### C14: equality -/

/-- `operator==` holds exactly if both sets show the same bit at every position. -/
theorem C14_equal_partial (s o : BitSet) (hs : s.WF) (ho : o.WF) (cs : s.abs.Clean) (co : o.abs.Clean) :
    ∃ r, s.equal o = some r ∧ (r = true ↔ ∀ i, s.abs.see i = o.abs.see i) := by
  have hsr := hs.room
  have hor := ho.room
  have hls : s.nbytes = s.data.length := rfl
  have hlo : o.nbytes = o.data.length := rfl
  have raw : ∀ (x : BitSet), x.abs.Clean → ∀ i, x.abs.see i = rawL x.data i := by
    intro x hx i
    by_cases h : i < x.nbits
    · exact see_eq x i h
    · have h2 : rawL x.data i = false := hx i (by show x.nbits ≤ i; omega)
      rw [h2]
      unfold BitArr.see
      rw [decide_eq_false (show ¬ i < x.abs.size from h)]; rfl
  -- comparing the bytes of the shorter set
  have mem : ∀ n, n ≤ s.nbits → n ≤ o.nbits → ∃ r, memEq s.data o.data ((n + 7) / 8) 0 = some r ∧
      (r = true ↔ ∀ k, k < 8 * ((n + 7) / 8) → rawL s.data k = rawL o.data k) := by
    intro n h1 h2
    obtain ⟨r, e, h⟩ := memEq_spec s.data o.data ((n + 7) / 8) 0 (by omega) (by omega)
    refine ⟨r, e, h.trans ?_⟩
    rw [Nat.mul_zero, Nat.zero_add]
    exact ⟨fun h k hk => h k (Nat.zero_le _) hk, fun h k _ hk => h k hk⟩
  have final : ∀ (x : BitSet) (n : Nat), x.WF → x.abs.Clean →
      ∃ r, (x.firstSetBit n).map (fun k => decide (k = x.nbits)) = some r ∧
        (r = true ↔ ∀ k, n ≤ k → x.abs.see k = false) := by
    intro x n hx cx
    obtain ⟨r, e, h⟩ := C12_first_set_partial x hx cx n
    refine ⟨decide (r = x.nbits), by rw [e]; rfl, ?_⟩
    rw [decide_eq_true_iff]
    rcases h with ⟨g1, g2, g3, g4⟩ | ⟨g1, g2⟩
    · exact ⟨fun h => by omega, fun h => by rw [h r g1] at g3; cases g3⟩
    · exact ⟨fun _ => g2, fun _ => g1⟩
  unfold equal
  by_cases h1 : s.nbits = o.nbits
  · rw [if_pos h1]
    obtain ⟨r, e, h⟩ := mem s.nbits (Nat.le_refl _) (by omega)
    refine ⟨r, e, h.trans ⟨fun g i => ?_, fun g k _ => ?_⟩⟩
    · rw [raw s cs, raw o co]
      by_cases hi : i < s.nbits
      · exact g i (by omega)
      · have a1 : rawL s.data i = false := cs i (by show s.nbits ≤ i; omega)
        have a2 : rawL o.data i = false := co i (by show o.nbits ≤ i; omega)
        rw [a1, a2]
    · have := g k
      rwa [raw s cs, raw o co] at this
  · rw [if_neg h1]
    have tail : ∀ (x y : BitSet) (cx : x.abs.Clean) (cy : y.abs.Clean) (_ : x.nbits < y.nbits)
        (hm : ∀ k, k < 8 * ((x.nbits + 7) / 8) → rawL x.data k = rawL y.data k),
        (∀ k, x.nbits ≤ k → y.abs.see k = false) → ∀ i, x.abs.see i = y.abs.see i := by
      intro x y cx cy hxy hm ht i
      by_cases hi : i < x.nbits
      · rw [raw x cx, raw y cy]; exact hm i (by omega)
      · rw [ht i (by omega), raw x cx]
        exact cx i (by show x.nbits ≤ i; omega)
    by_cases h2 : s.nbits < o.nbits
    · rw [if_pos h2]
      obtain ⟨r, e, h⟩ := mem s.nbits (Nat.le_refl _) (by omega)
      rw [e]
      cases r with
      | false =>
        refine ⟨false, rfl, ⟨fun g => absurd g (by simp), fun g => ?_⟩⟩
        exact h.mpr fun k _ => by have := g k; rwa [raw s cs, raw o co] at this
      | true =>
        obtain ⟨r, e2, h3⟩ := final o s.nbits ho co
        refine ⟨r, e2, h3.trans ⟨tail s o cs co h2 (h.mp rfl), fun g k hk => ?_⟩⟩
        rw [← g k, raw s cs]
        exact cs k hk
    · rw [if_neg h2]
      obtain ⟨r, e, h⟩ := mem o.nbits (by omega) (Nat.le_refl _)
      rw [e]
      cases r with
      | false =>
        refine ⟨false, rfl, ⟨fun g => absurd g (by simp), fun g => ?_⟩⟩
        exact h.mpr fun k _ => by have := g k; rwa [raw s cs, raw o co] at this
      | true =>
        obtain ⟨r, e2, h3⟩ := final s o.nbits hs cs
        refine ⟨r, e2, h3.trans ⟨fun g i => (tail o s co cs (by omega) (fun k hk => (h.mp rfl k hk).symm) g i).symm,
          fun g k hk => ?_⟩⟩
        rw [g k, raw o co]
        exact co k hk

/-- `operator==` is reflexive, symmetric and transitive. -/
theorem C14_equivalence_partial (a b c : BitSet) (ha : a.WF) (hb : b.WF) (hc : c.WF) (ca : a.abs.Clean) (cb : b.abs.Clean)
    (cc : c.abs.Clean) : a.equal a = some true ∧ a.equal b = b.equal a ∧
      (a.equal b = some true → b.equal c = some true → a.equal c = some true) := by
  obtain ⟨r1, e1, h1⟩ := C14_equal_partial a a ha ha ca ca
  obtain ⟨r2, e2, h2⟩ := C14_equal_partial a b ha hb ca cb
  obtain ⟨r3, e3, h3⟩ := C14_equal_partial b a hb ha cb ca
  obtain ⟨r4, e4, h4⟩ := C14_equal_partial b c hb hc cb cc
  obtain ⟨r5, e5, h5⟩ := C14_equal_partial a c ha hc ca cc
  refine ⟨by rw [e1, h1.mpr fun _ => rfl], ?_, fun g1 g2 => ?_⟩
  · rw [e2, e3]
    congr 1
    rw [Bool.eq_iff_iff, h2, h3]
    exact ⟨fun h i => (h i).symm, fun h i => (h i).symm⟩
  · rw [e2] at g1
    rw [e4] at g2
    have x1 := h2.mp (Option.some.inj g1)
    have x2 := h4.mp (Option.some.inj g2)
    rw [e5, h5.mpr fun i => (x1 i).trans (x2 i)]

example : demo.equal ⟨24, [2#8, 2#8, 4#8]⟩ = some true ∧ demo.equal ⟨24, [2#8, 2#8, 68#8]⟩ = some false := by
  decide +kernel

/-- With bits stored past the logical size (left there by a left shift) two sets that show the same bits compare
different. -/
theorem C14_hidden_bits : ∃ s s1 o : BitSet, s.WF ∧ s.abs.Clean ∧ s.leftShift 1 = some s1 ∧ o.WF ∧ o.abs.Clean ∧
    s1.equal o = some false ∧ ∀ i, s1.abs.see i = o.abs.see i := by
  have clean4 : ∀ b : Byte, (∀ j, j < 8 → 4 ≤ j → b.getLsbD j = false) → BitArr.Clean (abs ⟨4, [b]⟩) := by
    intro b hb i hi
    have hi' : 4 ≤ i := hi
    by_cases h : i < 8
    · show rawL [b] i = false
      have := rawL_get [b] 0 (by simp) i h
      rw [Nat.mul_zero, Nat.zero_add] at this
      rw [this]
      exact hb i h hi'
    · exact rawL_ge _ _ (by show 8 ≤ i; omega)
  refine ⟨⟨4, [12#8]⟩, ⟨4, [24#8]⟩, ⟨4, [8#8]⟩, ⟨by decide, by decide, by decide⟩, clean4 _ (by decide), rfl,
    ⟨by decide, by decide, by decide⟩, clean4 _ (by decide), rfl, fun i => ?_⟩
  by_cases h : i < 4
  · have : i = 0 ∨ i = 1 ∨ i = 2 ∨ i = 3 := by omega
    rcases this with rfl | rfl | rfl | rfl <;> decide
  · unfold BitArr.see
    rw [decide_eq_false (show ¬ i < BitArr.size _ from h), decide_eq_false (show ¬ i < BitArr.size _ from h)]; rfl

/-! ### C15: resetting -/

/-- `ResetAllBits(false)` and `Clear` make every position read `false`; `Clear` also sets the size to zero. -/
theorem C15_reset (s : BitSet) (hs : s.WF) : (∀ i, (s.resetAllBits false).testBitNumber i = some false) ∧
    (∀ i, s.clear.testBitNumber i = some false) ∧ (s.resetAllBits false).nbits = s.nbits ∧ s.clear.nbits = 0 ∧
    (s.resetAllBits false).nbytes = s.nbytes ∧ s.clear.nbytes = s.nbytes := by
  obtain ⟨e1, w1⟩ := step_refines s hs .resetAll
  obtain ⟨e2, w2⟩ := step_refines s hs .clear
  have a1 := Option.some.inj e1
  have a2 := Option.some.inj e2
  refine ⟨fun i => ?_, fun i => ?_, rfl, rfl, by simp [resetAllBits, nbytes], by simp [clear, nbytes]⟩
  · rw [C10_test _ (w1 _ rfl), a1]
    simp [BitArr.see, BitArr.zeroAll]
  · rw [C10_test _ (w2 _ rfl), a2]
    simp [BitArr.see, BitArr.clear]

example : demo.testBitNumber 9 = some true ∧ (demo.resetAllBits false).testBitNumber 9 = some false := ⟨rfl, rfl⟩

/-- `ResetAllBits(true)`: only the positions that are multiples of eight become `true`, all others become `false`.
The documented effect (all bits 1) therefore holds only for sets of at most one bit. -/
theorem C15_reset_true_partial (s : BitSet) (hs : s.WF) (i : Nat) (hi : i < s.nbits) :
    (s.resetAllBits true).testBitNumber i = some (decide (i % 8 = 0)) := by
  have hroom := hs.room
  have hl : i / 8 < s.nbytes := by omega
  rw [testBitNumber, if_neg (by show ¬ i ≥ s.nbits; omega)]
  show (match (List.replicate s.nbytes 1#8)[i / 8]? with
    | some b => some (hasBit b (i % 8))
    | none => none) = _
  rw [List.getElem?_replicate, if_pos hl]
  dsimp only
  rw [hasBit_eq _ _ (by omega), BitVec.getLsbD_one]
  simp

/-- The documented statement is false. -/
theorem C15_reset_true_counterexample : ¬ ∀ (s : BitSet), s.WF → ∀ i, i < s.nbits →
    (s.resetAllBits true).testBitNumber i = some true := by
  intro h
  have := h demo demo_wf 1 (by decide)
  rw [C15_reset_true_partial demo demo_wf 1 (by decide)] at this
  cases this

/-! ### C52: exchanging contents with arrays of words -/

theorem swapIx_swapIx (k i : Nat) (hk : 0 < k) : swapIx k (swapIx k i) = i := by
  unfold swapIx
  have h1 := Nat.mod_lt i hk
  have h2 := Nat.div_add_mod i k
  have e : (i - i % k + (k - 1 - i % k)) % k = k - 1 - i % k := by
    have e : i - i % k + (k - 1 - i % k) = (k - 1 - i % k) + k * (i / k) := by
      generalize i % k = a at *
      generalize k * (i / k) = b at *
      omega
    rw [e, Nat.add_mul_mod_self_left, Nat.mod_eq_of_lt]
    generalize i % k = a at *
    omega
  rw [e]
  have h3 := Nat.mod_le i k
  generalize i % k = a at *
  omega

theorem swapIx_lt (k i m : Nat) (hk : 0 < k) (h : i < k * m) : swapIx k i < k * m := by
  unfold swapIx
  have h1 := Nat.mod_lt i hk
  have h2 := Nat.div_add_mod i k
  have h3 : i / k < m := Nat.div_lt_of_lt_mul h
  have h4 : k * (i / k + 1) ≤ k * m := Nat.mul_le_mul_left k h3
  rw [Nat.mul_add] at h4
  omega

theorem setArray_bytes (k : Nat) (hk : 0 < k) (s : BitSet) (n : Nat) (arr : List Byte)
    (hn : (n + (8 * k - 1)) / 8 / k * k ≤ s.nbytes) (ha : (n + (8 * k - 1)) / 8 / k * k ≤ arr.length) :
    ∃ d, setArray k s n arr = some (true, ⟨n % 2 ^ 32, d⟩) ∧ d.length = s.nbytes ∧
      ∀ j, d[j]? = if j < (n + (8 * k - 1)) / 8 / k * k then arr[swapIx k j]? else s.data[j]? := by
  have hl : s.nbytes = s.data.length := rfl
  have hlt : ∀ j, j < (n + (8 * k - 1)) / 8 / k * k → swapIx k j < arr.length := by
    intro j hj
    rw [Nat.mul_comm] at hj
    have := swapIx_lt k j _ hk hj
    rw [Nat.mul_comm] at this
    omega
  obtain ⟨d, e, h1, h2⟩ := forUp_set (fun i l => match arr[swapIx k i]? with
      | some b => modifyAt l i fun _ => b
      | none => none) (fun i => arr[swapIx k i]?.getD 0) s.data ((n + (8 * k - 1)) / 8 / k * k) 0 (by omega) (by
      intro i l' _ h3 h4 _
      have := hlt i (by omega)
      rw [List.getElem?_eq_getElem this]
      dsimp only
      rw [modifyAt_eq _ _ _ (by omega)]; rfl) s.data rfl (fun _ _ => rfl)
  refine ⟨d, ?_, h1, fun j => ?_⟩
  · unfold setArray
    dsimp only
    rw [if_neg (by omega)]
    exact congrArg (Option.map fun d => (true, (⟨n % 2 ^ 32, d⟩ : BitSet))) e
  · rw [h2]
    by_cases hj : j < (n + (8 * k - 1)) / 8 / k * k
    · rw [if_pos (by omega), if_pos hj, List.getElem?_eq_getElem (hlt j hj)]; rfl
    · rw [if_neg (by omega), if_neg hj]

/-- `Set(nbits, array)` with words of `k` bytes: it fails and changes nothing exactly if the words do not fit; otherwise
the logical size becomes `nbits` and position `i` shows bit `i % 8` of the byte at offset `swapIx k (i / 8)` of the
array (words are read as big endian). -/
theorem C52_set (k : Nat) (hk : 0 < k) (s : BitSet) (hs : s.WF) (n : Nat) (arr : List Byte)
    (ha : (n + (8 * k - 1)) / 8 / k * k ≤ arr.length) :
    ((n + (8 * k - 1)) / 8 / k * k > s.nbytes → setArray k s n arr = some (false, s)) ∧
    ((n + (8 * k - 1)) / 8 / k * k ≤ s.nbytes → ∃ s', setArray k s n arr = some (true, s') ∧ s'.WF ∧ s'.nbits = n ∧
      ∀ i, i < n → s'.testBitNumber i = some ((arr[swapIx k (i / 8)]?.getD 0#8).getLsbD (i % 8))) := by
  refine ⟨fun h => by rw [setArray]; exact if_pos h, fun h => ?_⟩
  obtain ⟨d, e, h1, h2⟩ := setArray_bytes k hk s n arr h ha
  have hcover : n ≤ 8 * ((n + (8 * k - 1)) / 8 / k * k) := by
    have e1 : (n + (8 * k - 1)) / 8 / k = (n + (8 * k - 1)) / (8 * k) := Nat.div_div_eq_div_mul _ _ _
    rw [e1]
    have := Nat.div_add_mod (n + (8 * k - 1)) (8 * k)
    have := Nat.mod_lt (n + (8 * k - 1)) (show 0 < 8 * k by omega)
    have e2 : 8 * ((n + (8 * k - 1)) / (8 * k) * k) = 8 * k * ((n + (8 * k - 1)) / (8 * k)) := by
      rw [Nat.mul_comm (_ / _) k, Nat.mul_assoc]
    omega
  have hsmall := hs.small
  have hn : n % 2 ^ 32 = n := Nat.mod_eq_of_lt (by omega)
  rw [hn] at e
  have hw : WF ⟨n, d⟩ := ⟨by show 0 < d.length; rw [h1]; exact hs.pos,
    by show n ≤ 8 * d.length; rw [h1]; omega, by show 8 * d.length < _; rw [h1]; exact hsmall⟩
  refine ⟨⟨n, d⟩, e, hw, rfl, fun i hi => ?_⟩
  rw [C10_test _ hw, see_eq _ _ (show i < (⟨n, d⟩ : BitSet).nbits from hi)]
  show some (rawL d i) = _
  rw [rawL, h2, if_pos (by omega)]

theorem getLoop (k : Nat) (hk : 0 < k) (data : List Byte) : ∀ (n i : Nat) (a : List Byte), i + n ≤ data.length →
    (∀ j, j < i + n → swapIx k j < a.length) →
    ∃ a', forUp (fun i a => match data[i]? with
      | some b => modifyAt a (swapIx k i) fun _ => b
      | none => none) n i a = some a' ∧ a'.length = a.length ∧
      ∀ m, a'[m]? = if i ≤ swapIx k m ∧ swapIx k m < i + n then data[swapIx k m]? else a[m]? := by
  intro n
  induction n with
  | zero =>
    intro i a _ _
    exact ⟨a, rfl, rfl, fun m => by rw [if_neg (by omega)]⟩
  | succ n ih =>
    intro i a h1 h2
    have hi : i < data.length := by omega
    have hsw := h2 i (by omega)
    obtain ⟨a', e, hl, hj⟩ := ih (i + 1) (a.set (swapIx k i) data[i]) (by omega)
      (fun j hj => by rw [List.length_set]; exact h2 j (by omega))
    refine ⟨a', ?_, by rw [hl, List.length_set], fun m => ?_⟩
    · rw [forUp]
      rw [List.getElem?_eq_getElem hi]
      dsimp only
      rw [modifyAt_eq _ _ _ hsw]
      exact e
    · rw [hj]
      by_cases h3 : swapIx k m = i
      · have h4 : m = swapIx k i := by rw [← h3, swapIx_swapIx k m hk]
        rw [if_neg (by omega), if_pos (by omega), h3, h4, List.getElem?_set_self hsw, List.getElem?_eq_getElem hi]
      · have h4 : swapIx k i ≠ m := by rintro rfl; exact h3 (swapIx_swapIx k i hk)
        rw [List.getElem?_set_ne h4]
        by_cases h5 : i + 1 ≤ swapIx k m ∧ swapIx k m < i + 1 + n
        · rw [if_pos h5, if_pos (by omega)]
        · rw [if_neg h5, if_neg (by omega)]

/-- `Get(array)` writes the bytes that hold the first `GetNbits()` bits, byte `j` to offset `swapIx k j`, and leaves the
rest of the array alone; the array must have room for whole words. -/
theorem C52_get (k : Nat) (hk : 0 < k) (s : BitSet) (hs : s.WF) (a : List Byte)
    (ha : (s.nbits + (8 * k - 1)) / 8 / k * k ≤ a.length) :
    ∃ a', getArray k s a = some a' ∧ a'.length = a.length ∧
      ∀ m, a'[m]? = if swapIx k m < (s.nbits + 7) / 8 then s.data[swapIx k m]? else a[m]? := by
  have hroom := hs.room
  have hl : s.nbytes = s.data.length := rfl
  have hcover : (s.nbits + 7) / 8 ≤ (s.nbits + (8 * k - 1)) / 8 / k * k := by
    have h8 : (s.nbits + (8 * k - 1)) / 8 = (s.nbits + 7) / 8 + (k - 1) := by omega
    rw [h8]
    have := Nat.div_add_mod ((s.nbits + 7) / 8 + (k - 1)) k
    have := Nat.mod_lt ((s.nbits + 7) / 8 + (k - 1)) hk
    rw [Nat.mul_comm]
    omega
  obtain ⟨a', e, h1, h2⟩ := getLoop k hk s.data ((s.nbits + 7) / 8) 0 a (by omega) (by
    intro j hj
    have h3 : j < (s.nbits + (8 * k - 1)) / 8 / k * k := by omega
    rw [Nat.mul_comm] at h3
    have := swapIx_lt k j _ hk h3
    rw [Nat.mul_comm] at this
    omega)
  refine ⟨a', e, h1, fun m => ?_⟩
  rw [h2]
  simp

/-- Round trip: what `Set` stored, `Get` of the same word type returns, byte for byte, up to the requested number of
bits. -/
theorem C52_roundtrip (k : Nat) (hk : 0 < k) (s s' : BitSet) (hs : s.WF) (n : Nat) (arr out : List Byte)
    (ha : (n + (8 * k - 1)) / 8 / k * k ≤ arr.length) (ho : (n + (8 * k - 1)) / 8 / k * k ≤ out.length)
    (h : setArray k s n arr = some (true, s')) :
    ∃ out', getArray k s' out = some out' ∧ out'.length = out.length ∧
      ∀ m, out'[m]? = if swapIx k m < (n + 7) / 8 then arr[m]? else out[m]? := by
  have hfit : (n + (8 * k - 1)) / 8 / k * k ≤ s.nbytes := by
    by_contra hc
    rw [(C52_set k hk s hs n arr ha).1 (by omega)] at h
    cases h
  obtain ⟨d, e, h1, h2⟩ := setArray_bytes k hk s n arr hfit ha
  obtain ⟨s2, e2, hw, hn, -⟩ := (C52_set k hk s hs n arr ha).2 hfit
  rw [h] at e e2
  simp only [Option.some.injEq, Prod.mk.injEq, true_and] at e e2
  subst e2
  obtain ⟨out', e3, h3, h4⟩ := C52_get k hk s' hw out (by rw [hn]; exact ho)
  refine ⟨out', e3, h3, fun m => ?_⟩
  rw [h4, hn]
  by_cases hm : swapIx k m < (n + 7) / 8
  · rw [if_pos hm, if_pos hm, e]
    show d[swapIx k m]? = _
    have h8 : (n + (8 * k - 1)) / 8 = (n + 7) / 8 + (k - 1) := by omega
    rw [h2, if_pos, swapIx_swapIx k m hk]
    rw [h8]
    have := Nat.div_add_mod ((n + 7) / 8 + (k - 1)) k
    have := Nat.mod_lt ((n + 7) / 8 + (k - 1)) hk
    rw [Nat.mul_comm]
    omega
  · rw [if_neg hm, if_neg hm]

example : setArray 2 (makeInstance 32) 20 [1#8, 2#8, 3#8, 4#8] = some (true, ⟨20, [2#8, 1#8, 4#8, 3#8]⟩) ∧
    getArray 2 ⟨20, [2#8, 1#8, 4#8, 3#8]⟩ [9#8, 9#8, 9#8, 9#8] = some [1#8, 2#8, 9#8, 4#8] := ⟨rfl, rfl⟩

/-- Finding: the byte order test uses the macro `R__BYTESWAP`, which nothing in the tree defines, so the big endian
branch is always compiled.  On a little endian machine the `int` 1 is stored as the bytes 1,0,0,0; setting 32 bits
from it sets position 24 instead of position 0. -/
theorem C52_little_endian : ∃ s', setArray 4 (makeInstance 32) 32 [1#8, 0#8, 0#8, 0#8] = some (true, s') ∧
    s'.testBitNumber 0 = some false ∧ s'.testBitNumber 24 = some true := ⟨_, rfl, rfl, rfl⟩

/-! ### C53: copying -/

/-- A copy shows the same bits. -/
theorem C53_copy (s : BitSet) : s.copy = s := rfl

/-- Assignment makes the target show exactly the bits of the source, if the target has at least as many bytes. -/
theorem C53_assign (s rhs : BitSet) (hs : s.WF) (hr : rhs.WF) (h : rhs.nbytes ≤ s.nbytes) :
    (s.assign rhs).WF ∧ (s.assign rhs).nbits = rhs.nbits ∧
      ∀ i, (s.assign rhs).testBitNumber i = rhs.testBitNumber i := by
  have hlen : (s.assign rhs).nbytes = s.nbytes := by
    have h1 : rhs.data.length ≤ s.data.length := h
    simp [assign, nbytes]; omega
  have hrr := hr.room
  have hw : (s.assign rhs).WF := ⟨by rw [hlen]; exact hs.pos, by
    rw [hlen]; show rhs.nbits ≤ _; omega, by rw [hlen]; exact hs.small⟩
  refine ⟨hw, rfl, fun i => ?_⟩
  rw [C10_test _ hw, C10_test _ hr]
  unfold BitArr.see
  congr 2
  show rawL (rhs.data.take s.data.length ++ _) i = rawL rhs.data i
  have h1 : rhs.data.length ≤ s.data.length := h
  rw [List.take_of_length_le h1]
  unfold rawL
  by_cases h2 : i / 8 < rhs.data.length
  · rw [List.getElem?_append_left h2]
  · rw [List.getElem?_append_right (by omega), List.getElem?_eq_none (l := rhs.data) (by omega),
      List.getElem?_replicate]
    split <;> rfl

example : (makeInstance 30).assign demo = ⟨20, [2#8, 2#8, 4#8, 0#8]⟩ := rfl

/-- Finding: assignment from a larger set keeps the larger logical size, and a test of a position that is valid
according to `GetNbits()` then reads outside the storage. -/
theorem C53_assign_truncates : ∃ s rhs : BitSet, s.WF ∧ rhs.WF ∧ 18 < (s.assign rhs).nbits ∧
    (s.assign rhs).testBitNumber 18 = none :=
  ⟨makeInstance 8, demo, ⟨by decide, by decide, by decide⟩, demo_wf, by decide, rfl⟩

theorem needed_spec (l : List Byte) : ∀ n, n < l.length →
    ∃ k, neededLoop l n = some k ∧ k ≤ n ∧ (∀ j, k < j → j ≤ n → l[j]? = some 0#8) := by
  intro n
  induction n with
  | zero => intro _; exact ⟨0, rfl, Nat.le_refl _, fun j h1 h2 => by omega⟩
  | succ n ih =>
    intro h
    rw [neededLoop, List.getElem?_eq_getElem h]
    dsimp only
    by_cases hb : l[n + 1] = 0#8
    · rw [if_pos hb]
      obtain ⟨k, e, h1, h2⟩ := ih (by omega)
      refine ⟨k, e, by omega, fun j h3 h4 => ?_⟩
      by_cases h5 : j = n + 1
      · rw [h5, List.getElem?_eq_getElem h, hb]
      · exact h2 j h3 (by omega)
    · rw [if_neg hb]
      exact ⟨n + 1, rfl, Nat.le_refl _, fun j h3 h4 => by omega⟩

/-- A compact copy, whenever it is defined, shows the same bits as the original.  Missing: it is undefined (heap
overflow) when more than three bytes are dropped, see `C53_compact_overflow`. -/
theorem C53_compact_partial (s s' : BitSet) (hs : s.WF) (hc : s.abs.Clean) (h : s.compactCopy = some s') :
    s'.WF ∧ ∀ i, s'.testBitNumber i = s.testBitNumber i := by
  have hroom := hs.room
  have hsmall := hs.small
  have hl : s.nbytes = s.data.length := rfl
  unfold compactCopy at h
  by_cases h1 : s.nbytes ≤ 1
  · rw [if_pos h1] at h; cases h
    exact ⟨hs, fun _ => rfl⟩
  · rw [if_neg h1] at h
    obtain ⟨k, e, hk, hz⟩ := needed_spec s.data (s.nbytes - 1) (by omega)
    rw [e] at h
    dsimp only at h
    by_cases h2 : k + 1 = s.nbytes
    · rw [if_neg (not_not.mpr h2)] at h; cases h
      exact ⟨hs, fun _ => rfl⟩
    · rw [if_pos h2] at h
      unfold resizedCopy at h
      split at h
      · cases h
        have hd : s.data.take (k + 1) ++ List.replicate (k + 1 - s.nbytes) 0#8 = s.data.take (k + 1) := by
          rw [show k + 1 - s.nbytes = 0 by omega]; simp
        have hlen : (s.data.take (k + 1)).length = k + 1 := by
          rw [List.length_take]; omega
        rw [hd]
        have hm : (8 * (k + 1)) % 2 ^ 32 = 8 * (k + 1) := Nat.mod_eq_of_lt (by omega)
        rw [hm]
        have hraw : ∀ i, rawL (s.data.take (k + 1)) i = rawL s.data i := by
          intro i
          by_cases h3 : i / 8 < k + 1
          · unfold rawL
            rw [List.getElem?_take_of_lt h3]
          · rw [rawL_ge _ _ (by omega)]
            by_cases h4 : i / 8 < s.nbytes
            · unfold rawL
              rw [hz _ (by omega) (by omega)]; simp
            · rw [rawL_ge _ _ (by omega)]
        have hwf : WF ⟨if s.nbits * 8 > k + 1 then 8 * (k + 1) else s.nbits, s.data.take (k + 1)⟩ := by
          refine ⟨?_, ?_, ?_⟩
          · show 0 < (s.data.take (k + 1)).length
            omega
          · show _ ≤ 8 * (s.data.take (k + 1)).length
            rw [hlen]
            dsimp only
            split <;> omega
          · show 8 * (s.data.take (k + 1)).length < _
            omega
        refine ⟨hwf, fun i => ?_⟩
        rw [C10_test _ hwf, C10_test _ hs]
        have hs1 : ∀ i, s.abs.see i = rawL s.data i := by
          intro i
          by_cases h : i < s.nbits
          · exact see_eq s i h
          · have h2 : rawL s.data i = false := hc i (by show s.nbits ≤ i; omega)
            rw [h2]
            unfold BitArr.see
            rw [decide_eq_false (show ¬ i < s.abs.size from h)]; rfl
        rw [hs1]
        congr 1
        show (decide (i < if s.nbits * 8 > k + 1 then 8 * (k + 1) else s.nbits) && rawL (s.data.take (k + 1)) i) = _
        rw [hraw]
        by_cases h3 : i < if s.nbits * 8 > k + 1 then 8 * (k + 1) else s.nbits
        · rw [decide_eq_true h3]; rfl
        · rw [decide_eq_false h3, Bool.false_and]
          split at h3
          · rw [← hraw, rawL_ge _ _ (by omega)]
          · exact (hc i (by show s.nbits ≤ i; omega)).symm
      · cases h

example : (⟨20, [2#8, 0#8, 0#8]⟩ : BitSet).compactCopy = some ⟨8, [2#8]⟩ := rfl

/-- Finding: compacting a set whose last four bytes are zero writes past the new allocation. -/
theorem C53_compact_overflow : ∃ s : BitSet, s.WF ∧ s.abs.Clean ∧ s.compactCopy = none :=
  ⟨makeInstance 40, ⟨by decide, by decide, by decide⟩, fun i _ => rawL_replicate_zero _ i, rfl⟩

end VecGeom.BitSet
