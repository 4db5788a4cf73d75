import Verif.Vector.Model

/-!
# Vector: helper lemmas
-/

namespace VecGeom.Vec
variable {α : Type}

/-- The vector holds exactly the list `l` (and its bookkeeping is sound). -/
structure Rep (v : Vec α) (l : List α) : Prop where
  size : v.size = l.length
  fits : v.size ≤ v.mem
  room : v.mem ≤ v.buf.length
  cells : ∀ i, i < l.length → v.buf[i]? = some l[i]?

theorem cells_get {v : Vec α} {l : List α} (h : Rep v l) (i : Nat) (hi : i < l.length) :
    v.buf[i]? = some (some l[i]) := by
  rw [h.cells i hi, List.getElem?_eq_getElem hi]

theorem read_rep {v : Vec α} {l : List α} (h : Rep v l) (i : Nat) (hi : i < l.length) :
    read v.buf i = some l[i] := by
  rw [read, cells_get h i hi]

theorem destroyLoop_eq : ∀ (n i : Nat) (b : List (Option α)), i + n ≤ b.length →
    (∀ j, i ≤ j → j < i + n → ∃ x, b[j]? = some (some x)) →
    ∃ b', destroyLoop n i b = some b' ∧ b'.length = b.length ∧
      ∀ j, b'[j]? = if i ≤ j ∧ j < i + n then some none else b[j]? := by
  intro n i b hb hx
  obtain ⟨b', e, h1, h2⟩ := forUp_set (fun i b => destroy b i) (fun _ => none) b n i hb (by
    intro k l' h1 h2 h3 h4
    obtain ⟨x, hx⟩ := hx k h1 h2
    rw [destroy, h4 k (Nat.le_refl _), hx]) b rfl (fun _ _ => rfl)
  exact ⟨b', e, h1, h2⟩

theorem copyLoop_eq (src : List (Option α)) (l : List α) (hsrc : ∀ i, i < l.length → src[i]? = some l[i]?) (m : Nat)
    (hm : l.length ≤ m) :
    ∃ b, copyLoop src l.length (List.replicate m none) = some b ∧ b.length = m ∧
      ∀ j, j < l.length → b[j]? = some l[j]? := by
  obtain ⟨b, e, h1, h2⟩ := forUp_set (fun i d => match read src i with
      | some x => construct d i x
      | none => none) (fun i => l[i]?) (List.replicate m (none : Option α)) l.length 0 (by simpa using hm) (by
      intro i d h1 h2 h3 _
      have hi : i < l.length := by omega
      have hd : i < d.length := by rw [h3, List.length_replicate]; omega
      rw [read, hsrc i hi, List.getElem?_eq_getElem hi]
      simp only [construct, hd, if_true]) _ rfl (fun _ _ => rfl)
  refine ⟨b, e, by simpa using h1, fun j hj => ?_⟩
  rw [h2, if_pos (by omega)]

theorem reserve_rep (v : Vec α) (l : List α) (h : Rep v l) (n : Nat) :
    ∃ w, v.reserve n = some w ∧ Rep w l ∧ w.mem = max v.mem n ∧ (n ≤ v.mem → w = v) ∧
      (v.mem < n → w.allocated = true) := by
  unfold reserve
  by_cases hn : n ≤ v.mem
  · rw [if_pos hn]
    exact ⟨v, rfl, h, by omega, fun _ => rfl, fun h => by omega⟩
  · rw [if_neg hn]
    have hs := h.size
    have hf := h.fits
    have hr := h.room
    obtain ⟨b, e, h1, h2⟩ := copyLoop_eq v.buf l h.cells n (by omega)
    rw [hs, e]
    obtain ⟨b', e', -, -⟩ := destroyLoop_eq l.length 0 v.buf (by omega)
      (fun j _ h3 => ⟨l[j]'(by omega), cells_get h j (by omega)⟩)
    rw [e']
    refine ⟨_, rfl, ⟨rfl, ?_, ?_, h2⟩, ?_, fun h => absurd h hn, fun _ => rfl⟩
    · show l.length ≤ n
      omega
    · show n ≤ b.length
      omega
    · show n = _
      omega

theorem pushBack_rep (v : Vec α) (l : List α) (h : Rep v l) (hm : 0 < v.mem) (x : α)
    (ha : v.allocated = true ∨ v.size < v.mem) :
    ∃ w, v.pushBack x = some w ∧ Rep w (l ++ [x]) ∧ v.mem ≤ w.mem ∧ (v.allocated = true → w.allocated = true) ∧
      (v.size < v.mem → w.mem = v.mem ∧ w.allocated = v.allocated ∧ w.buf.length = v.buf.length) := by
  have hs := h.size
  have hf := h.fits
  have hr := h.room
  -- after growing there is room for one more
  have grow : ∃ w, (if v.size = v.mem then (if v.allocated then v.reserve (v.mem * 2) else none) else some v) = some w ∧
      Rep w l ∧ v.mem ≤ w.mem ∧ w.size < w.mem ∧ (v.allocated = true → w.allocated = true) ∧
      (v.size < v.mem → w = v) := by
    by_cases he : v.size = v.mem
    · have : v.allocated = true := by
        rcases ha with ha | ha
        · exact ha
        · omega
      rw [if_pos he, this, if_pos rfl]
      obtain ⟨w, e, hw, hmem, -, hal⟩ := reserve_rep v l h (v.mem * 2)
      have := hw.size
      exact ⟨w, e, hw, by omega, by omega, fun _ => hal (by omega), fun h => by omega⟩
    · rw [if_neg he]
      exact ⟨v, rfl, h, Nat.le_refl _, by omega, id, fun _ => rfl⟩
  obtain ⟨w, e, hw, h1, h2, h3, h4⟩ := grow
  have hws := hw.size
  have hwr := hw.room
  unfold pushBack
  dsimp only
  rw [e]
  dsimp only
  rw [construct, if_pos (by omega)]
  refine ⟨_, rfl, ⟨?_, ?_, ?_, fun i hi => ?_⟩, h1, h3, fun h => ?_⟩
  · show w.size + 1 = _
    rw [List.length_append, hws]; rfl
  · show w.size + 1 ≤ w.mem
    omega
  · show w.mem ≤ (w.buf.set _ _).length
    rw [List.length_set]; exact hwr
  · show (w.buf.set w.size (some x))[i]? = _
    rw [List.length_append] at hi
    by_cases hi2 : i = l.length
    · rw [hws, hi2, List.getElem?_set_self (by omega), List.getElem?_append_right (Nat.le_refl _)]
      simp
    · have : i < l.length := by simp at hi; omega
      rw [List.getElem?_set_ne (by omega), hw.cells i this, List.getElem?_append_left this]
  · rw [h4 h]
    exact ⟨rfl, rfl, by show (v.buf.set _ _).length = _; rw [List.length_set]⟩

theorem pushAll_rep (xs : List α) : ∀ (v : Vec α) (l : List α), Rep v l → 0 < v.mem →
    (v.allocated = true ∨ v.size + xs.length ≤ v.mem) →
    ∃ w, v.pushAll xs = some w ∧ Rep w (l ++ xs) ∧ v.mem ≤ w.mem ∧ (v.allocated = true → w.allocated = true) ∧
      (v.size + xs.length ≤ v.mem → w.mem = v.mem) := by
  induction xs with
  | nil => intro v l h _ _; exact ⟨v, rfl, by simpa using h, Nat.le_refl _, id, fun _ => rfl⟩
  | cons x xs ih =>
    intro v l h hm ha
    rw [List.length_cons] at ha
    obtain ⟨w, e, hw, h1, h2, h3⟩ := pushBack_rep v l h hm x (by rcases ha with ha | ha; exact Or.inl ha; exact Or.inr (by omega))
    have hws := hw.size
    have hs := h.size
    rw [List.length_append, List.length_singleton] at hws
    obtain ⟨u, e2, hu, h4, h5, h6⟩ := ih w (l ++ [x]) hw (by omega) (by
      rcases ha with ha | ha
      · exact Or.inl (h2 ha)
      · right
        have := h3 (by omega)
        omega)
    refine ⟨u, ?_, by simpa using hu, by omega, fun h => h5 (h2 h), fun h => ?_⟩
    · rw [pushAll, e]; exact e2
    · rw [List.length_cons] at h
      have := h3 (by omega)
      rw [h6 (by omega)]
      exact this.1

theorem readAll_rep (v : Vec α) (l : List α) (h : Rep v l) : ∀ n, n ≤ l.length → readAll v.buf n = some (l.take n) := by
  intro n
  induction n with
  | zero => intro _; rfl
  | succ n ih =>
    intro hn
    rw [readAll, ih (by omega), read_rep h n (by omega)]
    dsimp only
    rw [List.take_succ_eq_append_getElem (by omega)]

theorem shiftLoop_eq (v : Vec α) (l : List α) (h : Rep v l) (i : Nat) (hi : i < l.length) :
    ∃ b, shiftLoop (l.length - 1 - i) i v.buf = some b ∧ b.length = v.buf.length ∧
      ∀ j, b[j]? = if i ≤ j ∧ j < l.length - 1 then some l[j + 1]? else v.buf[j]? := by
  have hs := h.size
  have hf := h.fits
  have hr := h.room
  obtain ⟨b, e, h1, h2⟩ := forUp_set (fun c b => match read b (c + 1) with
      | some x => store b c x
      | none => none) (fun c => l[c + 1]?) v.buf (l.length - 1 - i) i (by omega) (by
      intro c b h3 h4 h5 h6
      have hc : c + 1 < l.length := by omega
      rw [read, h6 (c + 1) (by omega), cells_get h (c + 1) hc]
      dsimp only
      rw [store, h6 c (Nat.le_refl _), cells_get h c (by omega), List.getElem?_eq_getElem hc]) v.buf rfl (fun _ _ => rfl)
  refine ⟨b, e, h1, fun j => ?_⟩
  rw [h2]
  by_cases hj : i ≤ j ∧ j < l.length - 1
  · rw [if_pos (by omega), if_pos hj]
  · rw [if_neg (by omega), if_neg hj]

end VecGeom.Vec
