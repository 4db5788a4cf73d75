import Verif.BitSet.Lemmas

/-!
# BitSet: lemmas on counting, searching and comparing
-/

namespace VecGeom.BitSet

/-! ### Counting -/

/-- Number of positions in `a .. a + n - 1` that satisfy `p`. -/
def cnt (p : Nat → Bool) (a n : Nat) : Nat := (List.range' a n).countP p

theorem popTable_eq : ∀ b : BitVec 8, popTable.getD b.toNat 0 = (List.range 8).countP b.getLsbD := by decide +kernel

theorem cnt_add (p : Nat → Bool) (a m n : Nat) : cnt p a (m + n) = cnt p a m + cnt p (a + m) n := by
  unfold cnt
  have := List.range'_append (s := a) (m := m) (n := n) (step := 1)
  rw [Nat.one_mul] at this
  rw [← List.countP_append, this]

theorem cnt_byte (l : List Byte) (i : Nat) (h : i < l.length) :
    cnt (rawL l) (8 * i) 8 = popTable.getD l[i].toNat 0 := by
  rw [popTable_eq, cnt, show List.range' (8 * i) 8 = (List.range 8).map (8 * i + ·) from List.range'_eq_map_range, List.countP_map]
  apply List.countP_congr
  intro j hj
  rw [List.mem_range] at hj
  simp only [Function.comp]
  rw [rawL_get l i h j hj]

theorem countLoop_eq (l : List Byte) : ∀ (n fr c : Nat), fr + n ≤ l.length →
    countLoop l n fr c = some (c + cnt (rawL l) (8 * fr) (8 * n)) := by
  intro n
  induction n with
  | zero => intro fr c _; simp [countLoop, forUp, cnt]
  | succ n ih =>
    intro fr c h
    rw [countLoop, forUp, List.getElem?_eq_getElem (by omega)]
    show countLoop l n (fr + 1) _ = _
    rw [ih (fr + 1) _ (by omega), show 8 * (n + 1) = 8 + 8 * n by omega, cnt_add, cnt_byte l fr (by omega),
      show 8 * (fr + 1) = 8 * fr + 8 by omega, Nat.add_assoc]

theorem cnt_zero (p : Nat → Bool) (a n : Nat) (h : ∀ i, a ≤ i → i < a + n → p i = false) : cnt p a n = 0 := by
  unfold cnt
  rw [List.countP_eq_zero]
  intro i hi
  rw [List.mem_range'_1] at hi
  simp [h i hi.1 hi.2]

theorem cnt_congr (p q : Nat → Bool) (a n : Nat) (h : ∀ i, a ≤ i → i < a + n → p i = q i) : cnt p a n = cnt q a n := by
  unfold cnt
  apply List.countP_congr
  intro i hi
  rw [List.mem_range'_1] at hi
  rw [h i hi.1 hi.2]

/-- Counting with a lower bound as part of the condition. -/
theorem cnt_from (p : Nat → Bool) (start n : Nat) (h : start ≤ n) :
    (List.range n).countP (fun i => decide (start ≤ i) && p i) = cnt p start (n - start) := by
  have e : (List.range n).countP (fun i => decide (start ≤ i) && p i) =
      cnt (fun i => decide (start ≤ i) && p i) 0 n := by
    rw [cnt, List.range_eq_range']
  rw [e, show n = start + (n - start) by omega, cnt_add, cnt_zero _ 0 start (fun i _ h2 => by
    rw [decide_eq_false (by omega)]; rfl), Nat.zero_add, Nat.zero_add, Nat.add_sub_cancel_left]
  exact cnt_congr _ _ _ _ fun i h1 _ => by rw [decide_eq_true h1]; rfl

theorem forUp_repeat (c : Bool) : ∀ (n i x : Nat),
    forUp (fun _ k => some (if c then k + 1 else k)) n i x = some (x + if c then n else 0) := by
  intro n
  induction n with
  | zero => intro i x; cases c <;> rfl
  | succ n ih =>
    intro i x
    show forUp _ n (i + 1) _ = _
    rw [ih]
    cases c
    · simp
    · simp only [if_true]; congr 1; omega

/-! ### Upward searches -/

/-- What the table of an upward search has to provide. -/
def TableUp (want : Bool) (skip : Byte) (table : List Nat) : Prop :=
  (∀ j, j < 8 → skip.getLsbD j = !want) ∧
  ∀ b : Byte, b ≠ skip → table.getD b.toNat 0 < 8 ∧ b.getLsbD (table.getD b.toNat 0) = want ∧
    ∀ j, j < table.getD b.toNat 0 → b.getLsbD j = !want

theorem firstNullTable_ok : TableUp false 255#8 firstNullTable := by
  unfold TableUp
  exact ⟨by decide, by decide +kernel⟩

theorem firstSetTable_ok : TableUp true 0#8 firstSetTable := by
  unfold TableUp
  exact ⟨by decide, by decide +kernel⟩

/-- `r` is the first position in `[a, b)` whose bit is `want`; without such a position it is `dflt`. -/
def FirstIn (p : Nat → Bool) (want : Bool) (a b dflt r : Nat) : Prop :=
  (a ≤ r ∧ r < b ∧ p r = want ∧ ∀ k, a ≤ k → k < r → p k = !want) ∨
  (r = dflt ∧ ∀ k, a ≤ k → k < b → p k = !want)

theorem byteUp_spec (l : List Byte) (want : Bool) (skip : Byte) (table : List Nat) (dflt : Nat)
    (ht : TableUp want skip table) : ∀ n i, i + n ≤ l.length →
    ∃ r, byteUp l skip table dflt n i = some r ∧ FirstIn (rawL l) want (8 * i) (8 * (i + n)) dflt r := by
  intro n
  induction n with
  | zero => intro i _; exact ⟨dflt, rfl, Or.inr ⟨rfl, fun k h1 h2 => by omega⟩⟩
  | succ n ih =>
    intro i h
    have hi : i < l.length := by omega
    rw [byteUp, List.getElem?_eq_getElem hi]
    dsimp only
    by_cases hb : l[i] = skip
    · rw [if_neg (not_not.mpr hb)]
      obtain ⟨r, e, hr⟩ := ih (i + 1) (by omega)
      have hskip : ∀ k, 8 * i ≤ k → k < 8 * (i + 1) → rawL l k = !want := by
        intro k h1 h2
        have := rawL_get l i hi (k - 8 * i) (by omega)
        rw [show 8 * i + (k - 8 * i) = k by omega] at this
        rw [this, hb, ht.1 _ (by omega)]
      refine ⟨r, e, ?_⟩
      rcases hr with ⟨h1, h2, h3, h4⟩ | ⟨h1, h2⟩
      · refine Or.inl ⟨by omega, by omega, h3, fun k h5 h6 => ?_⟩
        by_cases h7 : k < 8 * (i + 1)
        · exact hskip k h5 h7
        · exact h4 k (by omega) h6
      · refine Or.inr ⟨h1, fun k h5 h6 => ?_⟩
        by_cases h7 : k < 8 * (i + 1)
        · exact hskip k h5 h7
        · exact h2 k (by omega) (by omega)
    · rw [if_pos hb]
      obtain ⟨h1, h2, h3⟩ := ht.2 _ hb
      refine ⟨_, rfl, Or.inl ⟨by omega, by omega, ?_, fun k h5 h6 => ?_⟩⟩
      · rw [rawL_get l i hi _ h1]; exact h2
      · have := rawL_get l i hi (k - 8 * i) (by omega)
        rw [show 8 * i + (k - 8 * i) = k by omega] at this
        rw [this]
        exact h3 _ (by omega)

theorem bitUp_spec (b : Byte) (want : Bool) : ∀ n i, i + n ≤ 8 →
    (∃ r, bitUp b want n i = some r ∧ i ≤ r ∧ r < i + n ∧ b.getLsbD r = want ∧
      ∀ k, i ≤ k → k < r → b.getLsbD k = !want) ∨
    (bitUp b want n i = none ∧ ∀ k, i ≤ k → k < i + n → b.getLsbD k = !want) := by
  intro n
  induction n with
  | zero => intro i _; exact Or.inr ⟨rfl, fun k h1 h2 => by omega⟩
  | succ n ih =>
    intro i h
    rw [bitUp, hasBit_eq b i (by omega)]
    by_cases hb : b.getLsbD i = want
    · rw [if_pos hb]
      exact Or.inl ⟨i, rfl, Nat.le_refl _, by omega, hb, fun k h1 h2 => by omega⟩
    · rw [if_neg hb]
      have hbi : b.getLsbD i = !want := by revert hb; cases b.getLsbD i <;> cases want <;> simp
      rcases ih (i + 1) (by omega) with ⟨r, e, h1, h2, h3, h4⟩ | ⟨e, h1⟩
      · refine Or.inl ⟨r, e, by omega, by omega, h3, fun k h5 h6 => ?_⟩
        by_cases h7 : k = i
        · rw [h7]; exact hbi
        · exact h4 k (by omega) h6
      · refine Or.inr ⟨e, fun k h5 h6 => ?_⟩
        by_cases h7 : k = i
        · rw [h7]; exact hbi
        · exact h1 k (by omega) (by omega)

theorem firstBit_spec (want : Bool) (skip : Byte) (table : List Nat) (ht : TableUp want skip table) (s : BitSet)
    (hr : s.nbits ≤ 8 * s.nbytes) (start : Nat) :
    ∃ r, firstBit want skip table s start = some r ∧
      ((start = 0 ∨ start < s.nbits) → FirstIn (rawL s.data) want start (8 * s.nbytes) s.nbits r) ∧
      (start ≠ 0 → s.nbits ≤ start → r = s.nbits) := by
  have hs : s.nbytes = s.data.length := rfl
  unfold firstBit
  by_cases h0 : start = 0
  · subst h0
    obtain ⟨r, e, h⟩ := byteUp_spec s.data want skip table s.nbits ht s.nbytes 0 (by omega)
    rw [if_pos rfl]
    refine ⟨r, e, fun _ => ?_, fun h => absurd rfl h⟩
    rw [Nat.mul_zero, Nat.zero_add] at h
    exact h
  · rw [if_neg h0]
    by_cases h1 : start ≥ s.nbits
    · rw [if_pos h1]
      exact ⟨_, rfl, fun h => by omega, fun _ _ => rfl⟩
    · rw [if_neg h1]
      dsimp only
      by_cases h2 : start % 8 = 0
      · rw [if_neg (not_not.mpr h2)]
        obtain ⟨r, e, h⟩ := byteUp_spec s.data want skip table s.nbits ht (s.nbytes - start / 8) (start / 8) (by omega)
        refine ⟨r, e, fun _ => ?_, fun _ h => absurd h h1⟩
        rw [show 8 * (start / 8) = start by omega,
          show start / 8 + (s.nbytes - start / 8) = s.nbytes by omega] at h
        exact h
      · rw [if_pos h2]
        have hl : start / 8 < s.data.length := by omega
        rw [List.getElem?_eq_getElem hl]
        dsimp only
        have conv : ∀ j, j < 8 → s.data[start / 8].getLsbD j = rawL s.data (8 * (start / 8) + j) :=
          fun j hj => (rawL_get _ _ hl j hj).symm
        rcases bitUp_spec s.data[start / 8] want (8 - start % 8) (start % 8) (by omega) with
          ⟨r, e, g1, g2, g3, g4⟩ | ⟨e, g1⟩
        · rw [e]
          refine ⟨_, rfl, fun _ => Or.inl ⟨by omega, by omega, ?_, fun k h5 h6 => ?_⟩, fun _ h => absurd h h1⟩
          · rw [← conv r (by omega)]; exact g3
          · have := conv (k - 8 * (start / 8)) (by omega)
            rw [show 8 * (start / 8) + (k - 8 * (start / 8)) = k by omega] at this
            rw [← this]
            exact g4 _ (by omega) (by omega)
        · rw [e]
          obtain ⟨r, e, h⟩ := byteUp_spec s.data want skip table s.nbits ht (s.nbytes - (start / 8 + 1))
            (start / 8 + 1) (by omega)
          have low : ∀ k, start ≤ k → k < 8 * (start / 8 + 1) → rawL s.data k = !want := by
            intro k h5 h6
            have := conv (k - 8 * (start / 8)) (by omega)
            rw [show 8 * (start / 8) + (k - 8 * (start / 8)) = k by omega] at this
            rw [← this]
            exact g1 _ (by omega) (by omega)
          refine ⟨r, e, fun _ => ?_, fun _ h => absurd h h1⟩
          rcases h with ⟨h3, h4, h5, h6⟩ | ⟨h3, h4⟩
          · refine Or.inl ⟨by omega, by omega, h5, fun k h7 h8 => ?_⟩
            by_cases h9 : k < 8 * (start / 8 + 1)
            · exact low k h7 h9
            · exact h6 k (by omega) h8
          · refine Or.inr ⟨h3, fun k h7 h8 => ?_⟩
            by_cases h9 : k < 8 * (start / 8 + 1)
            · exact low k h7 h9
            · exact h4 k (by omega) (by omega)

/-! ### Downward searches -/

/-- What the table of a downward search has to provide. -/
def TableDown (want : Bool) (skip : Byte) (table : List Nat) : Prop :=
  (∀ j, j < 8 → skip.getLsbD j = !want) ∧
  ∀ b : Byte, b ≠ skip → table.getD b.toNat 0 < 8 ∧ b.getLsbD (table.getD b.toNat 0) = want ∧
    ∀ j, j < 8 → table.getD b.toNat 0 < j → b.getLsbD j = !want

theorem lastNullTable_ok : TableDown false 255#8 lastNullTable := by
  unfold TableDown
  exact ⟨by decide, by decide +kernel⟩

theorem lastSetTable_ok : TableDown true 0#8 lastSetTable := by
  unfold TableDown
  exact ⟨by decide, by decide +kernel⟩

/-- `r` is the last position below `b` whose bit is `want`; without such a position it is `dflt`. -/
def LastIn (p : Nat → Bool) (want : Bool) (b dflt r : Nat) : Prop :=
  (r < b ∧ p r = want ∧ ∀ k, r < k → k < b → p k = !want) ∨ (r = dflt ∧ ∀ k, k < b → p k = !want)

theorem byteDown_spec (l : List Byte) (want : Bool) (skip : Byte) (table : List Nat) (dflt : Nat)
    (ht : TableDown want skip table) : ∀ n, n ≤ l.length →
    ∃ r, byteDown l skip table dflt n = some r ∧ LastIn (rawL l) want (8 * n) dflt r := by
  intro n
  induction n with
  | zero => intro _; exact ⟨dflt, rfl, Or.inr ⟨rfl, fun k h2 => by omega⟩⟩
  | succ n ih =>
    intro h
    have hi : n < l.length := by omega
    have conv : ∀ k, 8 * n ≤ k → k < 8 * (n + 1) → rawL l k = l[n].getLsbD (k - 8 * n) := by
      intro k h1 h2
      have := rawL_get l n hi (k - 8 * n) (by omega)
      rwa [show 8 * n + (k - 8 * n) = k by omega] at this
    rw [byteDown, List.getElem?_eq_getElem hi]
    dsimp only
    by_cases hb : l[n] = skip
    · rw [if_neg (not_not.mpr hb)]
      obtain ⟨r, e, hr⟩ := ih (by omega)
      have hskip : ∀ k, 8 * n ≤ k → k < 8 * (n + 1) → rawL l k = !want := by
        intro k h1 h2
        rw [conv k h1 h2, hb, ht.1 _ (by omega)]
      refine ⟨r, e, ?_⟩
      rcases hr with ⟨h2, h3, h4⟩ | ⟨h1, h2⟩
      · refine Or.inl ⟨by omega, h3, fun k h5 h6 => ?_⟩
        by_cases h7 : k < 8 * n
        · exact h4 k h5 h7
        · exact hskip k (by omega) h6
      · refine Or.inr ⟨h1, fun k h6 => ?_⟩
        by_cases h7 : k < 8 * n
        · exact h2 k h7
        · exact hskip k (by omega) h6
    · rw [if_pos hb]
      obtain ⟨h1, h2, h3⟩ := ht.2 _ hb
      refine ⟨_, rfl, Or.inl ⟨by omega, ?_, fun k h5 h6 => ?_⟩⟩
      · rw [rawL_get l n hi _ h1]; exact h2
      · rw [conv k (by omega) h6]
        exact h3 _ (by omega) (by omega)

theorem bitDown_spec (b : Byte) (want : Bool) : ∀ n, n ≤ 8 →
    (∃ r, bitDown b want n = some r ∧ r < n ∧ b.getLsbD r = want ∧ ∀ k, r < k → k < n → b.getLsbD k = !want) ∨
    (bitDown b want n = none ∧ ∀ k, k < n → b.getLsbD k = !want) := by
  intro n
  induction n with
  | zero => intro _; exact Or.inr ⟨rfl, fun k h2 => by omega⟩
  | succ n ih =>
    intro h
    rw [bitDown, hasBit_eq b n (by omega)]
    by_cases hb : b.getLsbD n = want
    · rw [if_pos hb]
      exact Or.inl ⟨n, rfl, by omega, hb, fun k h1 h2 => by omega⟩
    · rw [if_neg hb]
      have hbi : b.getLsbD n = !want := by revert hb; cases b.getLsbD n <;> cases want <;> simp
      rcases ih (by omega) with ⟨r, e, h2, h3, h4⟩ | ⟨e, h1⟩
      · refine Or.inl ⟨r, e, by omega, h3, fun k h5 h6 => ?_⟩
        by_cases h7 : k = n
        · rw [h7]; exact hbi
        · exact h4 k h5 (by omega)
      · refine Or.inr ⟨e, fun k h6 => ?_⟩
        by_cases h7 : k = n
        · rw [h7]; exact hbi
        · exact h1 k (by omega)

theorem lastBit_spec (want : Bool) (skip : Byte) (table : List Nat) (ht : TableDown want skip table) (s : BitSet)
    (hs : s.WF) (h0 : 0 < s.nbits) (start : Nat) :
    ∃ r, lastBit want skip table s start = some r ∧
      LastIn (rawL s.data) want (min start (s.nbits - 1) + 1) s.nbits r := by
  have hl : s.nbytes = s.data.length := rfl
  have := hs.room
  have := hs.small
  have hst : (if start ≥ s.nbits then (s.nbits + 2 ^ 32 - 1) % 2 ^ 32 else start) = min start (s.nbits - 1) := by
    split
    · rw [show s.nbits + 2 ^ 32 - 1 = s.nbits - 1 + 2 ^ 32 by omega, Nat.add_mod_right,
        Nat.mod_eq_of_lt (by omega)]
      omega
    · omega
  unfold lastBit
  dsimp only
  rw [hst]
  have hlt : min start (s.nbits - 1) < s.nbits := by omega
  generalize min start (s.nbits - 1) = p at hlt
  have hp : p / 8 < s.data.length := by omega
  by_cases h7 : p % 8 < 7
  · rw [if_pos h7, List.getElem?_eq_getElem hp]
    dsimp only
    have conv : ∀ k, 8 * (p / 8) ≤ k → k < 8 * (p / 8) + 8 → rawL s.data k = s.data[p / 8].getLsbD (k - 8 * (p / 8)) := by
      intro k h1 h2
      have := rawL_get s.data (p / 8) hp (k - 8 * (p / 8)) (by omega)
      rwa [show 8 * (p / 8) + (k - 8 * (p / 8)) = k by omega] at this
    rcases bitDown_spec s.data[p / 8] want (p % 8 + 1) (by omega) with ⟨r, e, g1, g2, g3⟩ | ⟨e, g1⟩
    · rw [e]
      refine ⟨_, rfl, Or.inl ⟨by omega, ?_, fun k h5 h6 => ?_⟩⟩
      · rw [rawL_get _ _ hp _ (by omega)]; exact g2
      · rw [conv k (by omega) (by omega)]
        exact g3 _ (by omega) (by omega)
    · rw [e]
      obtain ⟨r, e, h⟩ := byteDown_spec s.data want skip table s.nbits ht (p / 8) (by omega)
      have high : ∀ k, 8 * (p / 8) ≤ k → k < p + 1 → rawL s.data k = !want := by
        intro k h1 h2
        rw [conv k h1 (by omega)]
        exact g1 _ (by omega)
      refine ⟨r, e, ?_⟩
      rcases h with ⟨h3, h4, h5⟩ | ⟨h3, h4⟩
      · refine Or.inl ⟨by omega, h4, fun k h8 h9 => ?_⟩
        by_cases h10 : k < 8 * (p / 8)
        · exact h5 k h8 h10
        · exact high k (by omega) h9
      · refine Or.inr ⟨h3, fun k h9 => ?_⟩
        by_cases h10 : k < 8 * (p / 8)
        · exact h4 k h10
        · exact high k (by omega) h9
  · rw [if_neg h7]
    obtain ⟨r, e, h⟩ := byteDown_spec s.data want skip table s.nbits ht (p / 8 + 1) (by omega)
    rw [show 8 * (p / 8 + 1) = p + 1 by omega] at h
    exact ⟨r, e, h⟩

/-! ### Comparison -/

theorem memEq_spec (a b : List Byte) : ∀ n i, i + n ≤ a.length → i + n ≤ b.length →
    ∃ r, memEq a b n i = some r ∧ (r = true ↔ ∀ k, 8 * i ≤ k → k < 8 * (i + n) → rawL a k = rawL b k) := by
  intro n
  induction n with
  | zero => intro i _ _; exact ⟨true, rfl, by simp; omega⟩
  | succ n ih =>
    intro i h1 h2
    have ha : i < a.length := by omega
    have hb : i < b.length := by omega
    have conva : ∀ k, 8 * i ≤ k → k < 8 * i + 8 → rawL a k = a[i].getLsbD (k - 8 * i) := by
      intro k h1 h2
      have := rawL_get a i ha (k - 8 * i) (by omega)
      rwa [show 8 * i + (k - 8 * i) = k by omega] at this
    have convb : ∀ k, 8 * i ≤ k → k < 8 * i + 8 → rawL b k = b[i].getLsbD (k - 8 * i) := by
      intro k h1 h2
      have := rawL_get b i hb (k - 8 * i) (by omega)
      rwa [show 8 * i + (k - 8 * i) = k by omega] at this
    rw [memEq, List.getElem?_eq_getElem ha, List.getElem?_eq_getElem hb]
    dsimp only
    by_cases hab : a[i] = b[i]
    · rw [if_pos hab]
      obtain ⟨r, e, hr⟩ := ih (i + 1) (by omega) (by omega)
      refine ⟨r, e, hr.trans ⟨fun h k h3 h4 => ?_, fun h k h3 h4 => h k (by omega) (by omega)⟩⟩
      by_cases h5 : k < 8 * (i + 1)
      · rw [conva k h3 (by omega), convb k h3 (by omega), hab]
      · exact h k (by omega) (by omega)
    · rw [if_neg hab]
      refine ⟨false, rfl, ⟨fun h => absurd h (by simp), fun h => absurd (byte_ext _ _ fun j hj => ?_) hab⟩⟩
      have := h (8 * i + j) (by omega) (by omega)
      rw [conva _ (by omega) (by omega), convb _ (by omega) (by omega)] at this
      rwa [show 8 * i + j - 8 * i = j by omega] at this

end VecGeom.BitSet
