import Verif.BitSet.Spec

/-!
# BitSet: helper lemmas
-/

namespace VecGeom.BitSet

/-! ### One byte -/

theorem mask_get (k j : Nat) (hk : k < 8) : (mask k).getLsbD j = decide (j = k) := by
  rw [mask, BitVec.getLsbD_shiftLeft]
  by_cases h : j = k
  · subst h; simp [hk]
  · by_cases h2 : j < k
    · simp [h, h2]
    · have : j - k ≠ 0 := by omega
      simp [h, h2, BitVec.getLsbD_one, this]

theorem hasBit_eq (b : Byte) (k : Nat) (hk : k < 8) : hasBit b k = b.getLsbD k := by
  rw [hasBit, Bool.eq_iff_iff, bne_iff_ne, ne_eq]
  constructor
  · intro h
    by_contra hb
    apply h
    apply BitVec.eq_of_getLsbD_eq
    intro i hi
    rw [BitVec.getLsbD_and, mask_get _ _ hk]
    by_cases h : i = k
    · subst h; simp [hb]
    · simp [h]
  · intro h h0
    have := congrArg (fun x => BitVec.getLsbD x k) h0
    simp [BitVec.getLsbD_and, mask_get _ _ hk, h] at this

theorem putBit_get (b : Byte) (k j : Nat) (v : Bool) (hk : k < 8) (hj : j < 8) :
    (putBit k v b).getLsbD j = if j = k then v else b.getLsbD j := by
  have h255 : ∀ j, j < 8 → (0xFF#8).getLsbD j = true := by decide
  unfold putBit
  cases v
  · simp only [Bool.false_eq_true, if_false, BitVec.getLsbD_and, BitVec.getLsbD_xor, mask_get _ _ hk, h255 j hj]
    by_cases h : j = k <;> simp [h]
  · simp only [if_true, BitVec.getLsbD_or, mask_get _ _ hk]
    by_cases h : j = k <;> simp [h]

theorem joinLeft_get (off : Nat) (a b : Byte) (j : Nat) (h1 : off < 8) (hj : j < 8) (h0 : 0 < off) :
    (joinLeft off a b).getLsbD j = if off ≤ j then a.getLsbD (j - off) else b.getLsbD (j + 8 - off) := by
  rw [joinLeft, BitVec.getLsbD_or, BitVec.getLsbD_shiftLeft, BitVec.getLsbD_ushiftRight]
  by_cases h : off ≤ j
  · have h3 : b.getLsbD (8 - off + j) = false := BitVec.getLsbD_of_ge _ _ (by omega)
    have h4 : ¬ j < off := by omega
    simp [h, hj, h3, h4]
  · have h4 : j < off := by omega
    have h5 : 8 - off + j = j + 8 - off := by omega
    simp [h, h4, h5]

theorem joinRight_get (off : Nat) (a b : Byte) (j : Nat) (h1 : off < 8) (hj : j < 8) (h0 : 0 < off) :
    (joinRight off a b).getLsbD j = if off + j < 8 then a.getLsbD (j + off) else b.getLsbD (j + off - 8) := by
  rw [joinRight, BitVec.getLsbD_or, BitVec.getLsbD_shiftLeft, BitVec.getLsbD_ushiftRight]
  by_cases h : off + j < 8
  · have h4 : j < 8 - off := by omega
    simp [h, h4, Nat.add_comm]
  · have h3 : a.getLsbD (off + j) = false := BitVec.getLsbD_of_ge _ _ (by omega)
    have h4 : ¬ j < 8 - off := by omega
    have h5 : j - (8 - off) = j + off - 8 := by omega
    simp [h, hj, h3, h4, h5]

theorem byte_ext (a b : Byte) (h : ∀ j, j < 8 → a.getLsbD j = b.getLsbD j) : a = b :=
  BitVec.eq_of_getLsbD_eq h

/-! ### Lists of bytes -/

theorem rawL_get (l : List Byte) (n : Nat) (h : n < l.length) (j : Nat) (hj : j < 8) :
    rawL l (8 * n + j) = l[n].getLsbD j := by
  have h1 : (8 * n + j) / 8 = n := by omega
  have h2 : (8 * n + j) % 8 = j := by omega
  rw [rawL, h1, h2, List.getElem?_eq_getElem h]
  rfl

theorem rawL_ge (l : List Byte) (i : Nat) (h : 8 * l.length ≤ i) : rawL l i = false := by
  rw [rawL, List.getElem?_eq_none (by omega)]
  simp

theorem rawL_replicate_zero (n i : Nat) : rawL (List.replicate n 0#8) i = false := by
  rw [rawL, List.getElem?_replicate]
  split <;> simp

theorem modifyAt_eq (l : List Byte) (i : Nat) (f : Byte → Byte) (h : i < l.length) :
    modifyAt l i f = some (l.set i (f l[i])) := by
  rw [modifyAt, List.getElem?_eq_getElem h]

theorem modifyAt_none (l : List Byte) (i : Nat) (f : Byte → Byte) (h : l.length ≤ i) :
    modifyAt l i f = none := by
  rw [modifyAt, List.getElem?_eq_none h]

theorem rawL_set (l : List Byte) (n : Nat) (b : Byte) (h : n < l.length) (i : Nat) :
    rawL (l.set n b) i = if i / 8 = n then b.getLsbD (i % 8) else rawL l i := by
  unfold rawL
  by_cases h1 : i / 8 = n
  · rw [if_pos h1, h1, List.getElem?_set_self h]; rfl
  · rw [if_neg h1, List.getElem?_set_ne (by omega)]

theorem rawL_put (l : List Byte) (n : Nat) (v : Bool) (h : n / 8 < l.length) (i : Nat) :
    rawL (l.set (n / 8) (putBit (n % 8) v l[n / 8])) i = if i = n then v else rawL l i := by
  rw [rawL_set _ _ _ h]
  by_cases h1 : i / 8 = n / 8
  · rw [if_pos h1, putBit_get _ _ _ _ (by omega) (by omega)]
    by_cases h2 : i = n
    · rw [if_pos h2, if_pos (by omega)]
    · rw [if_neg h2, if_neg (by omega), rawL, h1, List.getElem?_eq_getElem h]; rfl
  · rw [if_neg h1, if_neg (by rintro rfl; exact h1 rfl)]

/-- Two byte lists of one length with the same bits are equal. -/
theorem data_ext (l l' : List Byte) (hl : l.length = l'.length) (h : ∀ i, rawL l i = rawL l' i) : l = l' := by
  apply List.ext_getElem hl
  intro n h1 h2
  apply byte_ext
  intro j hj
  rw [← rawL_get l n h1 j hj, ← rawL_get l' n h2 j hj, h]

theorem zipLoop_spec (op : Byte → Byte → Byte) (rhs : List Byte) (n : Nat) (l : List Byte)
    (h1 : n ≤ l.length) (h2 : n ≤ rhs.length) :
    ∃ l', zipLoop op rhs n l = some l' ∧ l'.length = l.length ∧
      ∀ j, l'[j]? = if j < n then some (op (l[j]?.getD 0) (rhs[j]?.getD 0)) else l[j]? := by
  obtain ⟨l', e, hl, hj⟩ := forUp_set
    (fun i l => match rhs[i]? with
      | some r => modifyAt l i (op · r)
      | none => none) (fun i => op (l[i]?.getD 0) (rhs[i]?.getD 0)) l n 0 (by omega) (by
        intro i l' _ h3 h4 h5
        have hr : i < rhs.length := by omega
        have hli : i < l'.length := by omega
        have := h5 i (Nat.le_refl _)
        rw [List.getElem?_eq_getElem hli] at this
        simp only [List.getElem?_eq_getElem hr, modifyAt_eq _ _ _ hli, ← this, Option.getD_some]) l rfl
      (fun _ _ => rfl)
  refine ⟨l', e, hl, fun j => ?_⟩
  rw [hj]
  simp

theorem zeroLoop_spec (fr n : Nat) (l : List Byte) (h : fr + n ≤ l.length) :
    ∃ l', zeroLoop fr n l = some l' ∧ l'.length = l.length ∧
      ∀ j, l'[j]? = if fr ≤ j ∧ j < fr + n then some 0#8 else l[j]? := by
  obtain ⟨l', e, hl, hj⟩ := forUp_set (fun i l => modifyAt l i fun _ => 0#8) (fun _ => 0#8) l n fr h (by
    intro i l' _ h3 h4 _
    exact modifyAt_eq _ _ _ (by omega)) l rfl (fun _ _ => rfl)
  exact ⟨l', e, hl, hj⟩

theorem forUp_none {σ : Type} (f : Nat → σ → Option σ) (P : σ → Prop) (hP : ∀ i s s', P s → f i s = some s' → P s')
    (k : Nat) (hk : ∀ s, P s → f k s = none) : ∀ (n i : Nat) (s : σ), P s → i ≤ k → k < i + n → forUp f n i s = none := by
  intro n
  induction n with
  | zero => intro i s _ h1 h2; omega
  | succ n ih =>
    intro i s hs h1 h2
    rw [forUp]
    by_cases h : i = k
    · subst h; rw [hk s hs]; rfl
    · cases e : f i s with
      | none => rfl
      | some s' => exact ih (i + 1) s' (hP i s s' hs e) (by omega) (by omega)

theorem zeroLoop_none (fr n : Nat) (l : List Byte) (h : l.length < fr + n) (hn : fr ≤ l.length) :
    zeroLoop fr n l = none := by
  refine forUp_none _ (fun l' => l'.length = l.length) ?_ l.length ?_ n fr l rfl hn h
  · intro i s s' hs e
    rw [modifyAt] at e
    split at e
    · cases e; simp [hs]
    · cases e
  · intro s hs
    exact modifyAt_none _ _ _ (by omega)

/-! ### The operators -/

theorem andEqual_abs (s rhs : BitSet) :
    ∃ s', s.andEqual rhs = some s' ∧ s'.abs = s.abs.conj rhs.abs ∧ s'.nbytes = s.nbytes := by
  obtain ⟨d, e, hl, hj⟩ := zipLoop_spec (· &&& ·) rhs.data
    (if s.nbytes < rhs.nbytes then s.nbytes else rhs.nbytes) s.data
    (by show _ ≤ s.nbytes; split <;> omega) (by show _ ≤ rhs.nbytes; split <;> omega)
  have hl' : d.length = s.nbytes := hl
  unfold andEqual
  dsimp only
  rw [e]
  have bits : ∀ d' : List Byte, d'.length = s.nbytes →
      (∀ j, d'[j]? = if j < (if s.nbytes < rhs.nbytes then s.nbytes else rhs.nbytes) then
        some ((s.data[j]?.getD 0) &&& (rhs.data[j]?.getD 0)) else if j < s.nbytes then some 0#8 else none) →
      ∀ i, rawL d' i = (rawL s.data i && rawL rhs.data i) := by
    intro d' hd' hj' i
    by_cases h1 : i / 8 < (if s.nbytes < rhs.nbytes then s.nbytes else rhs.nbytes)
    · rw [rawL, hj', if_pos h1, Option.getD_some, BitVec.getLsbD_and]; rfl
    · rw [rawL, hj', if_neg h1]
      have : (rawL s.data i && rawL rhs.data i) = false := by
        by_cases h2 : s.nbytes < rhs.nbytes
        · rw [if_pos h2] at h1
          rw [rawL_ge s.data i (by show 8 * s.nbytes ≤ i; omega)]; rfl
        · rw [if_neg h2] at h1
          rw [rawL_ge rhs.data i (by show 8 * rhs.nbytes ≤ i; omega)]; simp
      rw [this]
      split <;> simp
  dsimp only
  by_cases hm : s.nbytes > (if s.nbytes < rhs.nbytes then s.nbytes else rhs.nbytes)
  · rw [if_pos hm]
    obtain ⟨d2, e2, hl2, hj2⟩ := zeroLoop_spec (if s.nbytes < rhs.nbytes then s.nbytes else rhs.nbytes)
      (s.nbytes - (if s.nbytes < rhs.nbytes then s.nbytes else rhs.nbytes)) d (by omega)
    rw [e2]
    refine ⟨_, rfl, ?_, hl2.trans hl'⟩
    unfold abs BitArr.conj
    rw [BitArr.mk.injEq]
    refine ⟨rfl, congrArg (8 * ·) (hl2.trans hl'), funext (bits d2 (hl2.trans hl') fun j => ?_)⟩
    rw [hj2, hj]
    by_cases h1 : j < (if s.nbytes < rhs.nbytes then s.nbytes else rhs.nbytes)
    · rw [if_neg (by omega), if_pos h1, if_pos h1]
    · rw [if_neg h1, if_neg h1]
      by_cases h2 : j < s.nbytes
      · rw [if_pos (by omega), if_pos h2]
      · rw [if_neg (by omega), if_neg h2, List.getElem?_eq_none]; exact Nat.le_of_not_lt h2
  · rw [if_neg hm]
    refine ⟨_, rfl, ?_, hl'⟩
    unfold abs BitArr.conj
    rw [BitArr.mk.injEq]
    refine ⟨rfl, congrArg (8 * ·) hl', funext (bits d hl' fun j => ?_)⟩
    rw [hj]
    by_cases h1 : j < (if s.nbytes < rhs.nbytes then s.nbytes else rhs.nbytes)
    · rw [if_pos h1, if_pos h1]
    · rw [if_neg h1, if_neg h1, if_neg (by omega), List.getElem?_eq_none]
      show s.nbytes ≤ j
      omega

/-- `|=` and `^=`: the two loops without a tail. -/
theorem zip_abs (op : Byte → Byte → Byte) (ob : Bool → Bool → Bool)
    (hop : ∀ a b j, (op a b).getLsbD j = ob (a.getLsbD j) (b.getLsbD j)) (h0 : ∀ a, ob a false = a) (s rhs : BitSet) :
    ∃ d, zipLoop op rhs.data (if s.nbytes < rhs.nbytes then s.nbytes else rhs.nbytes) s.data = some d ∧
      d.length = s.nbytes ∧ ∀ i, rawL d i = ob (rawL s.data i) (decide (i < 8 * s.nbytes) && rawL rhs.data i) := by
  obtain ⟨d, e, hl, hj⟩ := zipLoop_spec op rhs.data
    (if s.nbytes < rhs.nbytes then s.nbytes else rhs.nbytes) s.data
    (by show _ ≤ s.nbytes; split <;> omega) (by show _ ≤ rhs.nbytes; split <;> omega)
  refine ⟨d, e, hl, fun i => ?_⟩
  by_cases h1 : i / 8 < (if s.nbytes < rhs.nbytes then s.nbytes else rhs.nbytes)
  · have h2 : i < 8 * s.nbytes := by split at h1 <;> omega
    rw [rawL, hj, if_pos h1, Option.getD_some, hop, decide_eq_true h2]; rfl
  · have : (decide (i < 8 * s.nbytes) && rawL rhs.data i) = false := by
      by_cases h2 : s.nbytes < rhs.nbytes
      · rw [if_pos h2] at h1
        rw [decide_eq_false (by omega)]; rfl
      · rw [if_neg h2] at h1
        rw [rawL_ge rhs.data i (by show 8 * rhs.nbytes ≤ i; omega)]; simp
    rw [this, h0, rawL, hj, if_neg h1]; rfl

theorem orEqual_abs (s rhs : BitSet) :
    ∃ s', s.orEqual rhs = some s' ∧ s'.abs = s.abs.disj rhs.abs ∧ s'.nbytes = s.nbytes := by
  obtain ⟨d, e, hl, hb⟩ := zip_abs (· ||| ·) (· || ·) (fun a b j => BitVec.getLsbD_or) (fun a => by simp) s rhs
  refine ⟨{ s with data := d }, by rw [orEqual, e]; rfl, ?_, hl⟩
  unfold abs BitArr.disj
  rw [BitArr.mk.injEq]
  exact ⟨rfl, congrArg (8 * ·) hl, funext hb⟩

theorem xorEqual_abs (s rhs : BitSet) :
    ∃ s', s.xorEqual rhs = some s' ∧ s'.abs = s.abs.xor rhs.abs ∧ s'.nbytes = s.nbytes := by
  obtain ⟨d, e, hl, hb⟩ := zip_abs (· ^^^ ·) Bool.xor (fun a b j => BitVec.getLsbD_xor) (fun a => by simp) s rhs
  refine ⟨{ s with data := d }, by rw [xorEqual, e]; rfl, ?_, hl⟩
  unfold abs BitArr.xor
  rw [BitArr.mk.injEq]
  exact ⟨rfl, congrArg (8 * ·) hl, funext hb⟩

/-! ### Shifts -/

theorem mapByte_eq (op : Byte → Byte) (n k : Nat) (l : List Byte) (hn : n < l.length) (hk : k < l.length) :
    mapByte op n k l = some (l.set n (op l[k])) := by
  rw [mapByte, List.getElem?_eq_getElem hk]
  exact modifyAt_eq _ _ _ hn

theorem combineBytes_eq (op : Byte → Byte → Byte) (n j k : Nat) (l : List Byte) (hn : n < l.length)
    (hj : j < l.length) (hk : k < l.length) :
    combineBytes op n j k l = some (l.set n (op l[j] l[k])) := by
  rw [combineBytes, List.getElem?_eq_getElem hk, List.getElem?_eq_getElem hj]
  exact modifyAt_eq _ _ _ hn

theorem get_of_agree (l l' : List Byte) (k : Nat) (hk : k < l'.length) (h : l'[k]? = l[k]?) :
    l'[k] = l[k]?.getD 0 := by
  rw [← h, List.getElem?_eq_getElem hk]; rfl

/-- The byte moves of a left shift, before the low bytes are zeroed. -/
theorem leftMoved (l : List Byte) (ws off : Nat) (hoff : off < 8) (h : ws < l.length ∨ (off = 0 ∧ ws ≤ l.length))
    (hz : off = 0 → 0 < ws) :
    ∃ d, (if off = 0 then forDown (fun n l => mapByte id n (n - ws) l) (l.length - ws) ws l
      else (forDown (fun n l => combineBytes (joinLeft off) n (n - ws) (n - ws - 1) l) (l.length - 1 - ws) (ws + 1)
          l).bind (mapByte (· <<< off) ws 0)) = some d ∧ d.length = l.length ∧
      ∀ i, 8 * ws ≤ i → i < 8 * l.length →
        rawL d i = (decide (8 * ws + off ≤ i) && rawL l (i - (8 * ws + off))) := by
  by_cases h0 : off = 0
  · rw [if_pos h0]
    obtain ⟨d, e, hl, hj⟩ := forDown_set (fun n l => mapByte id n (n - ws) l) (fun n => l[n - ws]?.getD 0) l ws
      (l.length - ws) (by omega) (by
        intro i l' h1 h2 h3 h4
        rw [mapByte_eq _ _ _ _ (by omega) (by omega), get_of_agree l l' _ (by omega) (h4 _ (by omega))]; rfl)
      l rfl (fun _ _ => rfl)
    refine ⟨d, e, hl, fun i h1 h2 => ?_⟩
    rw [rawL, hj, if_pos (by omega), decide_eq_true (by omega), Bool.true_and, Option.getD_some, rawL]
    congr 1
    · rw [show (i - (8 * ws + off)) / 8 = i / 8 - ws by omega]; rfl
    · omega
  · rw [if_neg h0]
    have hws : ws < l.length := by omega
    obtain ⟨d, e, hl, hj⟩ := forDown_set (fun n l => combineBytes (joinLeft off) n (n - ws) (n - ws - 1) l)
      (fun n => joinLeft off (l[n - ws]?.getD 0) (l[n - ws - 1]?.getD 0)) l (ws + 1)
      (l.length - 1 - ws) (by omega) (by
        intro i l' h1 h2 h3 h4
        rw [combineBytes_eq _ _ _ _ _ (by omega) (by omega) (by omega),
          get_of_agree l l' (i - ws) (by omega) (h4 _ (by omega)),
          get_of_agree l l' (i - ws - 1) (by omega) (h4 _ (by omega))])
      l rfl (fun _ _ => rfl)
    rw [e]
    have h00 : d[0]? = l[0]? := by rw [hj, if_neg (by omega)]
    have hd0 : 0 < d.length := by omega
    refine ⟨d.set ws (d[0] <<< off), mapByte_eq (· <<< off) ws 0 d (by omega) hd0, by simp [hl], fun i h1 h2 => ?_⟩
    rw [rawL_set _ _ _ (by omega)]
    by_cases h3 : i / 8 = ws
    · rw [if_pos h3, get_of_agree l d 0 hd0 h00, BitVec.getLsbD_shiftLeft]
      by_cases h5 : off ≤ i % 8
      · rw [decide_eq_true (show 8 * ws + off ≤ i by omega), decide_eq_true (show i % 8 < 8 by omega),
          decide_eq_false (show ¬ i % 8 < off by omega), rawL, show (i - (8 * ws + off)) / 8 = 0 by omega,
          show (i - (8 * ws + off)) % 8 = i % 8 - off by omega]
        rfl
      · rw [decide_eq_false (show ¬ 8 * ws + off ≤ i by omega), decide_eq_true (show i % 8 < off by omega)]
        simp
    · rw [if_neg h3, rawL, hj, if_pos (by omega), Option.getD_some, joinLeft_get _ _ _ _ hoff (by omega) (by omega),
        decide_eq_true (by omega), Bool.true_and, rawL]
      by_cases h5 : off ≤ i % 8
      · rw [if_pos h5, show (i - (8 * ws + off)) / 8 = i / 8 - ws by omega,
          show (i - (8 * ws + off)) % 8 = i % 8 - off by omega]
        rfl
      · rw [if_neg h5, show (i - (8 * ws + off)) / 8 = i / 8 - ws - 1 by omega,
          show (i - (8 * ws + off)) % 8 = i % 8 + 8 - off by omega]
        rfl

theorem leftShift_abs (s : BitSet) (k : Nat) (hk : k ≤ 8 * s.nbytes) :
    ∃ s', s.leftShift k = some s' ∧ s'.abs = s.abs.shl k ∧ s'.nbytes = s.nbytes := by
  by_cases h0 : k = 0
  · subst h0
    refine ⟨s, rfl, ?_, rfl⟩
    unfold abs BitArr.shl
    rw [BitArr.mk.injEq]
    refine ⟨rfl, rfl, funext fun i => ?_⟩
    by_cases h : i < 8 * s.nbytes
    · simp [h]
    · simp [h, rawL_ge s.data i (by show 8 * s.nbytes ≤ i; omega)]
  · obtain ⟨d, e, hl, hb⟩ := leftMoved s.data (k / 8) (k % 8) (by omega)
      (by show k / 8 < s.nbytes ∨ (k % 8 = 0 ∧ k / 8 ≤ s.nbytes); omega) (by omega)
    have hl' : d.length = s.nbytes := hl
    obtain ⟨d2, e2, hl2, hj2⟩ := zeroLoop_spec 0 (k / 8) d (by omega)
    refine ⟨{ s with data := d2 }, ?_, ?_, hl2.trans hl⟩
    · rw [leftShift, if_neg h0]
      show (Option.bind _ _).map _ = _
      rw [show s.nbytes = s.data.length from rfl, e]
      show (zeroLoop _ _ d).map _ = _
      rw [e2]; rfl
    · unfold abs BitArr.shl
      rw [BitArr.mk.injEq]
      refine ⟨rfl, congrArg (8 * ·) (hl2.trans hl), funext fun i => ?_⟩
      show rawL d2 i = (decide (k ≤ i ∧ i < 8 * s.nbytes) && rawL s.data (i - k))
      by_cases h1 : i < 8 * s.nbytes
      · by_cases h2 : i / 8 < k / 8
        · rw [rawL, hj2, if_pos (by omega), decide_eq_false (by omega)]; simp
        · have := hb i (by omega) h1
          rw [show 8 * (k / 8) + k % 8 = k by omega] at this
          rw [rawL, hj2, if_neg (by omega)]
          show rawL d i = _
          rw [this]
          congr 1
          by_cases h3 : k ≤ i <;> simp [h3, h1]
      · rw [decide_eq_false (by omega), rawL_ge d2 i (by omega)]; rfl

theorem mapByte_none (op : Byte → Byte) (n k : Nat) (l : List Byte) (hn : l.length ≤ n) : mapByte op n k l = none := by
  rw [mapByte]
  split
  · exact modifyAt_none _ _ _ hn
  · rfl

theorem leftShift_none (s : BitSet) (k : Nat) (hk : 8 * s.nbytes < k) : s.leftShift k = none := by
  rw [leftShift, if_neg (by omega)]
  have hs : s.nbytes = s.data.length := rfl
  by_cases h : k % 8 = 0
  · dsimp only
    rw [if_pos h, show s.nbytes - k / 8 = 0 by omega]
    show (zeroLoop 0 (k / 8) s.data).map _ = none
    rw [zeroLoop_none _ _ _ (by omega) (by omega)]; rfl
  · dsimp only
    rw [if_neg h, show s.nbytes - 1 - k / 8 = 0 by omega]
    show ((mapByte _ (k / 8) 0 s.data).bind _).map _ = none
    rw [mapByte_none _ _ _ _ (by omega)]; rfl

theorem rightMoved (l : List Byte) (ws off : Nat) (hoff : off < 8) (h : ws < l.length) :
    ∃ d, (if off = 0 then forUp (fun n l => mapByte id n (n + ws) l) (l.length - ws - 1 + 1) 0 l
      else (forUp (fun n l => combineBytes (joinRight off) n (n + ws) (n + ws + 1) l) (l.length - ws - 1) 0
          l).bind (mapByte (· >>> off) (l.length - ws - 1) (l.length - 1))) = some d ∧ d.length = l.length ∧
      ∀ i, i / 8 < l.length - ws → rawL d i = rawL l (i + (8 * ws + off)) := by
  by_cases h0 : off = 0
  · rw [if_pos h0]
    obtain ⟨d, e, hl, hj⟩ := forUp_set (fun n l => mapByte id n (n + ws) l) (fun n => l[n + ws]?.getD 0) l
      (l.length - ws - 1 + 1) 0 (by omega) (by
        intro i l' h1 h2 h3 h4
        rw [mapByte_eq _ _ _ _ (by omega) (by omega), get_of_agree l l' _ (by omega) (h4 _ (by omega))]; rfl)
      l rfl (fun _ _ => rfl)
    refine ⟨d, e, hl, fun i h1 => ?_⟩
    rw [rawL, hj, if_pos (by omega), Option.getD_some, rawL]
    congr 1
    · rw [show (i + (8 * ws + off)) / 8 = i / 8 + ws by omega]; rfl
    · omega
  · rw [if_neg h0]
    obtain ⟨d, e, hl, hj⟩ := forUp_set (fun n l => combineBytes (joinRight off) n (n + ws) (n + ws + 1) l)
      (fun n => joinRight off (l[n + ws]?.getD 0) (l[n + ws + 1]?.getD 0)) l
      (l.length - ws - 1) 0 (by omega) (by
        intro i l' h1 h2 h3 h4
        rw [combineBytes_eq _ _ _ _ _ (by omega) (by omega) (by omega),
          get_of_agree l l' (i + ws) (by omega) (h4 _ (by omega)),
          get_of_agree l l' (i + ws + 1) (by omega) (h4 _ (by omega))])
      l rfl (fun _ _ => rfl)
    rw [e]
    have h00 : d[l.length - 1]? = l[l.length - 1]? := by rw [hj, if_neg (by omega)]
    have hd0 : l.length - 1 < d.length := by omega
    refine ⟨d.set (l.length - ws - 1) (d[l.length - 1] >>> off),
      mapByte_eq (· >>> off) _ _ d (by omega) hd0, by simp [hl], fun i h1 => ?_⟩
    rw [rawL_set _ _ _ (by omega)]
    by_cases h3 : i / 8 = l.length - ws - 1
    · rw [if_pos h3, get_of_agree l d _ hd0 h00, BitVec.getLsbD_ushiftRight]
      by_cases h5 : off + i % 8 < 8
      · rw [rawL, show (i + (8 * ws + off)) / 8 = l.length - 1 by omega,
          show (i + (8 * ws + off)) % 8 = off + i % 8 by omega]
        rfl
      · rw [rawL_ge l _ (by omega), BitVec.getLsbD_of_ge _ _ (by omega)]
    · rw [if_neg h3, rawL, hj, if_pos (by omega), Option.getD_some, joinRight_get _ _ _ _ hoff (by omega) (by omega),
        rawL]
      by_cases h5 : off + i % 8 < 8
      · rw [if_pos h5, show (i + (8 * ws + off)) / 8 = i / 8 + ws by omega,
          show (i + (8 * ws + off)) % 8 = i % 8 + off by omega]
        rfl
      · rw [if_neg h5, show (i + (8 * ws + off)) / 8 = i / 8 + ws + 1 by omega,
          show (i + (8 * ws + off)) % 8 = i % 8 + off - 8 by omega]
        rfl

theorem rightShift_abs (s : BitSet) (k : Nat) (hk : k < 8 * s.nbytes) :
    ∃ s', s.rightShift k = some s' ∧ s'.abs = s.abs.shr k ∧ s'.nbytes = s.nbytes := by
  by_cases h0 : k = 0
  · subst h0
    exact ⟨s, rfl, rfl, rfl⟩
  · obtain ⟨d, e, hl, hb⟩ := rightMoved s.data (k / 8) (k % 8) (by omega) (by show k / 8 < s.nbytes; omega)
    have hl' : d.length = s.nbytes := hl
    obtain ⟨d2, e2, hl2, hj2⟩ := zeroLoop_spec (s.nbytes - k / 8 - 1 + 1)
      (s.nbytes - (s.nbytes - k / 8 - 1) - 1) d (by omega)
    refine ⟨{ s with data := d2 }, ?_, ?_, hl2.trans hl⟩
    · rw [rightShift, if_neg h0]
      dsimp only
      rw [if_neg (by omega), show s.nbytes = s.data.length from rfl, e]
      show (zeroLoop _ _ d).map _ = _
      rw [show s.data.length = s.nbytes from rfl, e2]; rfl
    · unfold abs BitArr.shr
      rw [BitArr.mk.injEq]
      refine ⟨rfl, congrArg (8 * ·) (hl2.trans hl), funext fun i => ?_⟩
      show rawL d2 i = rawL s.data (i + k)
      have hs : s.nbytes = s.data.length := rfl
      by_cases h1 : i / 8 < s.nbytes - k / 8
      · have := hb i h1
        rw [show 8 * (k / 8) + k % 8 = k by omega] at this
        rw [rawL, hj2, if_neg (by omega)]
        exact this
      · rw [rawL_ge s.data (i + k) (by omega)]
        by_cases h2 : i / 8 < s.nbytes
        · rw [rawL, hj2, if_pos (by omega)]; simp
        · exact rawL_ge d2 i (by omega)

theorem rightShift_none (s : BitSet) (k : Nat) (h0 : 0 < s.nbytes) (hk : 8 * s.nbytes ≤ k) : s.rightShift k = none := by
  rw [rightShift, if_neg (by omega)]
  dsimp only
  rw [if_pos (by omega)]

end VecGeom.BitSet
