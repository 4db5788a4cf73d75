import Verif.Pool.Model

/-!
# Properties of pools of navigation states
-/

namespace VecGeom
namespace Pool

/-- A pool whose buffer has room for its states, as made by the constructor. -/
def Wf (L : Layout) (p : NavPool) : Prop := p.buf.length = p.cap * stride L p.depth

instance (L : Layout) (p : NavPool) : Decidable (Wf L p) := inferInstanceAs (Decidable (_ = _))

/-! ## Lemmas -/

theorem writeAt_length {buf bytes b : List Byte} {a : Nat} (h : writeAt buf a bytes = some b) : b.length = buf.length := by
  unfold writeAt at h
  split at h
  · cases h
    rename_i hc
    simp only [List.length_append, List.length_take, List.length_drop]
    omega
  · cases h

theorem readAt_write_same {buf bytes b : List Byte} {a : Nat} (h : writeAt buf a bytes = some b) {n : Nat} (hn : n = bytes.length) :
    readAt b a n = some bytes := by
  have hl := writeAt_length h
  unfold writeAt at h
  split at h
  · cases h
    rename_i hc
    unfold readAt
    rw [if_pos (by rw [hl]; omega)]
    congr 1
    rw [List.append_assoc, List.drop_append_of_le_length (by rw [List.length_take]; omega),
      List.drop_eq_nil_of_le (by rw [List.length_take]; omega), List.nil_append, hn, List.take_left]
  · cases h

theorem readAt_write_other {buf bytes b : List Byte} {a c n : Nat} (h : writeAt buf a bytes = some b)
    (hd : c + n ≤ a ∨ a + bytes.length ≤ c) : readAt b c n = readAt buf c n := by
  have hl := writeAt_length h
  unfold writeAt at h
  split at h
  · cases h
    rename_i hc
    unfold readAt
    rw [hl]
    split
    · rename_i hr
      congr 1
      apply List.ext_getElem?
      intro k
      by_cases hk : k < n
      · rw [List.getElem?_take_of_lt hk, List.getElem?_take_of_lt hk, List.getElem?_drop, List.getElem?_drop]
        rcases hd with hd | hd
        · rw [List.append_assoc, List.getElem?_append_left (by rw [List.length_take]; omega),
            List.getElem?_take_of_lt (by omega)]
        · rw [List.getElem?_append_right (by rw [List.length_append, List.length_take]; omega), List.getElem?_drop]
          congr 1
          rw [List.length_append, List.length_take]
          omega
      · rw [List.getElem?_eq_none (by rw [List.length_take]; omega), List.getElem?_eq_none (by rw [List.length_take]; omega)]
    · rfl
  · cases h

/-! ## C115: the states of a pool -/

/-- C115: the distance between two states of a pool is a multiple of the alignment, with room for a state, and the smallest such
number. -/
theorem C115_stride {L : Layout} (hal : 0 < L.al) (depth : Nat) :
    sizeOfInstance L depth ≤ stride L depth ∧ L.al ∣ stride L depth ∧
    ∀ s, sizeOfInstance L depth ≤ s → L.al ∣ s → stride L depth ≤ s := by
  unfold sizeOfInstance stride sizeOfAlignAware realFillUp fillUp
  generalize sizeOf L (depth + 1) = n
  have hm := Nat.mod_lt n hal
  have hdm := Nat.div_add_mod n L.al
  split
  · rename_i h
    have h0 : n % L.al = 0 := by omega
    refine ⟨by omega, ?_, fun s hs _ => by omega⟩
    rw [Nat.add_zero]
    exact Nat.dvd_of_mod_eq_zero h0
  · rename_i h
    have h0 : n % L.al ≠ 0 := by omega
    have e : n + (L.al - n % L.al) = L.al * (n / L.al + 1) := by
      rw [Nat.mul_add, Nat.mul_one]; omega
    rw [e]
    refine ⟨by omega, Dvd.intro _ rfl, fun s hs hd => ?_⟩
    obtain ⟨k, rfl⟩ := hd
    refine Nat.mul_le_mul_left _ ?_
    by_contra hk
    have : k ≤ n / L.al := by omega
    have := Nat.mul_le_mul_left L.al this
    omega

theorem slot_end {L : Layout} {p : NavPool} (hw : Wf L p) (hal : 0 < L.al) {i : Nat} (hi : i < p.cap) :
    addr L p i + sizeOfInstance L p.depth ≤ p.buf.length := by
  have h1 := (C115_stride hal p.depth).1
  unfold Wf at hw
  unfold addr
  rw [hw]
  have h2 := Nat.mul_le_mul_right (stride L p.depth) (show i + 1 ≤ p.cap by omega)
  rw [Nat.add_mul, Nat.one_mul] at h2
  rw [Nat.mul_comm]
  omega

/-- C115: every state of a pool can be read and written in full without leaving the buffer, at an aligned address; writing a state
changes that state and no other. -/
theorem C115_states_independent {L : Layout} (hal : 0 < L.al) {p : NavPool} (hw : Wf L p) {i : Nat} (hi : i < p.cap) {bytes : List Byte}
    (hb : bytes.length = sizeOfInstance L p.depth) :
    L.al ∣ addr L p i ∧ ∃ q, setState L p i bytes = some q ∧ Wf L q ∧ q.cap = p.cap ∧ q.depth = p.depth ∧
      getState L q i = some bytes ∧ ∀ j, j < p.cap → j ≠ i → getState L q j = getState L p j ∧ getState L p j ≠ none := by
  have hs := slot_end hw hal hi
  refine ⟨Dvd.dvd.mul_right (C115_stride hal p.depth).2.1 i, ?_⟩
  have e : ∃ b, writeAt p.buf (addr L p i) bytes = some b := by
    unfold writeAt
    rw [if_pos (by rw [hb]; exact hs)]
    exact ⟨_, rfl⟩
  obtain ⟨b, e⟩ := e
  refine ⟨{ p with buf := b }, by unfold setState; rw [e]; rfl, ?_, rfl, rfl, ?_, fun j hj hne => ?_⟩
  · unfold Wf at hw ⊢
    dsimp only
    rw [writeAt_length e, hw]
  · exact readAt_write_same e hb.symm
  · constructor
    · refine readAt_write_other e ?_
      have h1 := (C115_stride hal p.depth).1
      unfold addr
      dsimp only
      rcases Nat.lt_or_gt_of_ne hne with h | h
      · left
        have h2 := Nat.mul_le_mul_left (stride L p.depth) (show j + 1 ≤ i by omega)
        rw [Nat.mul_add, Nat.mul_one] at h2
        omega
      · right
        have h2 := Nat.mul_le_mul_left (stride L p.depth) (show i + 1 ≤ j by omega)
        rw [Nat.mul_add, Nat.mul_one] at h2
        omega
    · unfold getState readAt
      rw [if_pos (slot_end hw hal hj)]
      simp

theorem makeLoop_spec {L : Layout} (hal : 0 < L.al) {depth cap : Nat} {fresh : List Byte} (hf : fresh.length = sizeOfInstance L depth) :
    ∀ n i buf, i + n = cap → Wf L ⟨cap, depth, buf⟩ →
      (∀ j, j < i → getState L ⟨cap, depth, buf⟩ j = some fresh) →
      ∃ b, makeLoop L depth fresh n i buf = some b ∧ Wf L ⟨cap, depth, b⟩ ∧
        ∀ j, j < cap → getState L ⟨cap, depth, b⟩ j = some fresh := by
  intro n
  induction n with
  | zero => intro i buf hi hw h; exact ⟨buf, rfl, hw, fun j hj => h j (by omega)⟩
  | succ n ih =>
    intro i buf hi hw h
    obtain ⟨-, q, e, hq, hc, hd, h1, h2⟩ := C115_states_independent hal hw (i := i) (by dsimp only; omega) (bytes := fresh) hf
    unfold setState at e
    obtain ⟨b, eb, rfl⟩ := Option.map_eq_some_iff.mp e
    obtain ⟨b2, e2, h3⟩ := ih (i + 1) b (by omega) hq fun j hj => by
      rcases Nat.lt_or_ge j i with hj | hj
      · rw [(h2 j (by dsimp only; omega) (by omega)).1]; exact h j hj
      · obtain rfl : j = i := by omega
        exact h1
    refine ⟨b2, ?_, h3⟩
    rw [makeLoop]
    show (writeAt buf (addr L ⟨cap, depth, buf⟩ i) fresh).bind _ = _
    rw [eb, Option.bind_some]
    exact e2

/-- C115: the constructor makes a pool in which every state is new, whatever was in the memory, without writing past the buffer. -/
theorem C115_make {L : Layout} (hal : 0 < L.al) {depth cap : Nat} {fresh junk : List Byte}
    (hf : fresh.length = sizeOfInstance L depth) (hj : junk.length = stride L depth * cap) :
    ∃ p, make L cap depth fresh junk = some p ∧ Wf L p ∧ p.cap = cap ∧ p.depth = depth ∧ ∀ i, i < cap → getState L p i = some fresh := by
  obtain ⟨b, e, h1, h2⟩ := makeLoop_spec (cap := cap) hal hf cap 0 junk (by omega)
    (by unfold Wf; dsimp only; rw [hj, Nat.mul_comm]) (fun j hj => by omega)
  exact ⟨⟨cap, depth, b⟩, by unfold make; rw [e]; rfl, h1, rfl, rfl, h2⟩

/-- An example: states of 12 bytes and 4 for each further level, aligned to 8. -/
def layout : Layout := ⟨12, 4, 8⟩

example : 0 < layout.al ∧ stride layout 2 = 24 ∧ sizeOfInstance layout 2 = 20 ∧
    (List.replicate 20 (7 : Byte)).length = sizeOfInstance layout 2 ∧ (List.replicate 72 (0 : Byte)).length = stride layout 2 * 3 := by
  decide

/-! ## C116: files -/

theorem intBytes_length (n : Nat) : (intBytes n).length = 4 := rfl

theorem bytesInt_intBytes {n : Nat} (h : n < 4294967296) : bytesInt (intBytes n) = n := by
  unfold bytesInt intBytes
  simp only [BitVec.toNat_ofNat]
  omega

/-- C116: a pool read back from the file of a pool with the same capacity and depth is equal to it, and the number of states is
reported; the two numbers can be read from the file. -/
theorem C116_roundtrip {L : Layout} {p q : NavPool} (hp : Wf L p) (hq : Wf L q) (hc : q.cap = p.cap) (hd : q.depth = p.depth)
    (h1 : p.cap < 4294967296) (h2 : p.depth < 4294967296) :
    fromFile L q (some (toFile L p)) = ((p.cap : Int), p) ∧ readDepthAndCapacity (toFile L p) = (p.cap, p.depth) := by
  have e8 : (toFile L p).drop 8 = p.buf := by
    unfold toFile
    rw [show intBytes p.cap ++ intBytes p.depth ++ p.buf.take (p.cap * stride L p.depth) =
      (intBytes p.cap ++ intBytes p.depth) ++ p.buf.take (p.cap * stride L p.depth) from rfl,
      List.drop_left' (by rfl), List.take_of_length_le (by rw [hp])]
  have el : (toFile L p).length = 8 + p.buf.length := by
    have := congrArg List.length e8
    rw [List.length_drop] at this
    have h8 : 8 ≤ (toFile L p).length := by
      unfold toFile
      rw [List.length_append, List.length_append, intBytes_length, intBytes_length]
      omega
    omega
  constructor
  · unfold fromFile
    dsimp only
    rw [if_neg (by omega), if_neg (by omega), e8, hc, hd, List.take_of_length_le (by rw [hp]), if_neg (by rw [hp]; omega),
      List.drop_eq_nil_of_le (by unfold Wf at hq; rw [hq, hp, hc, hd]), List.append_nil]
  · unfold readDepthAndCapacity
    congr 1
    · unfold toFile
      rw [List.append_assoc, List.take_left' (by rfl), bytesInt_intBytes h1]
    · unfold toFile
      rw [List.append_assoc, List.drop_left' (by rfl), List.take_left' (by rfl), bytesInt_intBytes h2]

/-- C116: the answer of reading tells, for every file, whether there was a file, whether the two numbers were there, and whether there
were enough bytes; capacity, depth and length of the buffer never change, nor does the buffer for the first two failures. -/
theorem C116_answer {L : Layout} {p : NavPool} (hp : Wf L p) (file : Option (List Byte)) :
    ((fromFile L p file).1 = -1 ↔ file = none) ∧
    ((fromFile L p file).1 = -2 ↔ ∃ f, file = some f ∧ f.length < 8) ∧
    ((fromFile L p file).1 = -3 ↔ ∃ f, file = some f ∧ 8 ≤ f.length ∧ f.length < 8 + p.cap * stride L p.depth) ∧
    ((fromFile L p file).1 = p.cap ↔ ∃ f, file = some f ∧ 8 + p.cap * stride L p.depth ≤ f.length) ∧
    (fromFile L p file).2.cap = p.cap ∧ (fromFile L p file).2.depth = p.depth ∧ Wf L (fromFile L p file).2 ∧
    ((fromFile L p file).1 = -1 ∨ (fromFile L p file).1 = -2 → (fromFile L p file).2 = p) := by
  unfold fromFile
  cases file with
  | none => simp [hp]
  | some f =>
    dsimp only
    by_cases h4 : f.length < 4
    · rw [if_pos h4]
      simp [hp]
      omega
    · rw [if_neg h4]
      by_cases h8 : f.length < 8
      · rw [if_pos h8]
        simp [hp]
        omega
      · rw [if_neg h8]
        have hlen : ((f.drop 8).take (p.cap * stride L p.depth)).length = min (p.cap * stride L p.depth) (f.length - 8) := by
          rw [List.length_take, List.length_drop]
        have hwf : Wf L (NavPool.mk p.cap p.depth ((f.drop 8).take (p.cap * stride L p.depth) ++
            p.buf.drop ((f.drop 8).take (p.cap * stride L p.depth)).length)) := by
          unfold Wf at hp ⊢
          dsimp only
          rw [List.length_append, List.length_drop, hlen, hp]
          omega
        by_cases hw : ((f.drop 8).take (p.cap * stride L p.depth)).length < p.cap * stride L p.depth
        · rw [if_pos hw]
          rw [hlen] at hw
          refine ⟨by simp, ?_, ?_, ?_, rfl, rfl, hwf, by simp⟩
          · simp; omega
          · simp; omega
          · simp only [Option.some.injEq, exists_eq_left']
            constructor
            · intro h; omega
            · intro h; omega
        · rw [if_neg hw]
          rw [hlen] at hw
          refine ⟨by simp, ?_, ?_, ?_, rfl, rfl, hwf, ?_⟩
          · simp only [Option.some.injEq, exists_eq_left']
            constructor
            · intro h; omega
            · intro h; omega
          · simp only [Option.some.injEq, exists_eq_left']
            constructor
            · intro h; omega
            · intro h; omega
          · simp only [Option.some.injEq, exists_eq_left', true_iff]
            omega
          · intro h; dsimp only at h; omega

example : ∃ p q : NavPool, Wf layout p ∧ Wf layout q ∧ q.cap = p.cap ∧ q.depth = p.depth ∧ p.buf ≠ q.buf :=
  ⟨⟨2, 0, List.replicate 32 1⟩, ⟨2, 0, List.replicate 32 2⟩, by decide, by decide, rfl, rfl, by decide⟩

/-- Finding: a file with states of another depth is read with success although the states end up in other places.  Here the file has three
states with the bytes 1, 2 and 3 at depth 0 and is read into a pool of two states of depth 2. -/
theorem C116_depth_counterexample :
    ∃ p q : NavPool, Wf layout p ∧ Wf layout q ∧ p.depth ≠ q.depth ∧
      getState layout p 1 = some (List.replicate 12 2) ∧ (fromFile layout q (some (toFile layout p))).1 = q.cap ∧
      (getState layout (fromFile layout q (some (toFile layout p))).2 1).map (List.take 12) =
        some (List.replicate 8 2 ++ List.replicate 4 3) :=
  ⟨⟨3, 0, List.replicate 16 1 ++ List.replicate 16 2 ++ List.replicate 16 3⟩, ⟨2, 2, List.replicate 48 9⟩, by decide, by decide,
    by decide, by decide, by decide, by decide⟩

/-- Finding: reading from a file that is too short fails and leaves the pool half overwritten. -/
theorem C116_short_counterexample :
    ∃ (p : NavPool) (f : List Byte), Wf layout p ∧ (fromFile layout p (some f)).1 = -3 ∧
      getState layout (fromFile layout p (some f)).2 0 ≠ getState layout p 0 ∧
      getState layout (fromFile layout p (some f)).2 1 = getState layout p 1 :=
  ⟨⟨2, 0, List.replicate 32 9⟩, List.replicate 24 0, by decide, by decide, by decide, by decide⟩

end Pool
end VecGeom
