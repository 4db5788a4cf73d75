import Verif.Arr.Model

/-!
# Properties of arrays with and without their own memory
-/

namespace VecGeom
namespace Arr

variable {α : Type}

/-! ## Specification -/

/-- The elements of a variable. -/
def value (s : State α) (x : Nat) : Option (List α) := (s.var x).bind (elems s.heap)

/-- Nothing is freed twice or forgotten: `U b` says that block `b` belongs to the user. -/
structure Sound (U : Nat → Prop) (s : State α) : Prop where
  /-- An array with its own memory has a block of the right length that is not the user's. -/
  own : ∀ x a, s.var x = some a → a.owned = true → ∃ b l, a.data = some b ∧ s.heap.blk b = some l ∧ l.length = a.size ∧ ¬ U b
  /-- Two arrays never own the same block. -/
  sep : ∀ x y a c, s.var x = some a → s.var y = some c → a.owned = true → c.owned = true → a.data = c.data → x = y
  /-- An array without its own memory is empty or within a block of the user. -/
  other : ∀ x a, s.var x = some a → a.owned = false → a = empty ∨ ∃ b l, a.data = some b ∧ U b ∧ s.heap.blk b = some l ∧ a.size ≤ l.length
  /-- The blocks of the user stay allocated. -/
  user : ∀ b, U b → s.heap.blk b ≠ none
  /-- Every allocated block is the user's or owned by an array: no leak. -/
  leak : ∀ b, s.heap.blk b ≠ none → U b ∨ ∃ x a, s.var x = some a ∧ a.owned = true ∧ a.data = some b
  fresh : ∀ b, s.heap.blk b ≠ none → b < s.heap.next

/-- What the user has to take care of: variables exist or do not exist, views lie within the user's blocks, indices are in range.  The
memory `junk` of an allocation is as long as asked for. -/
def Legal (U : Nat → Prop) (s : State α) : Op α → Prop
  | .newEmpty x => s.var x = none
  | .newSized x _ => s.var x = none
  | .newView x b n => s.var x = none ∧ U b ∧ ∃ l, s.heap.blk b = some l ∧ n ≤ l.length
  | .newCopy x y junk => s.var x = none ∧ ∃ a, s.var y = some a ∧ junk.length = a.size
  | .assign x y junk => (∃ a, s.var x = some a) ∧ ∃ a, s.var y = some a ∧ junk.length = a.size
  | .allocate x _ => ∃ a, s.var x = some a
  | .deallocate x => ∃ a, s.var x = some a
  | .set x i _ => ∃ a, s.var x = some a ∧ i < a.size
  | .delete x => ∃ a, s.var x = some a

/-- All other variables keep their elements. -/
def Keeps (x : Nat) (s s' : State α) : Prop := ∀ y, y ≠ x → s'.var y = s.var y ∧ value s' y = value s y

/-! ## Lemmas -/

theorem Keeps.trans {x : Nat} {s s' s'' : State α} (h : Keeps x s s') (h' : Keeps x s' s'') : Keeps x s s'' :=
  fun y hy => ⟨(h' y hy).1.trans (h y hy).1, (h' y hy).2.trans (h y hy).2⟩

theorem upd_same {β : Type} (f : Nat → β) (x : Nat) (v : β) : Function.update f x v x = v := Function.update_self ..

theorem upd_ne {β : Type} (f : Nat → β) {x y : Nat} (v : β) (h : y ≠ x) : Function.update f x v y = f y :=
  Function.update_of_ne h ..

/-- Deleting a variable. -/
theorem drop_spec {U : Nat → Prop} {s : State α} (hs : Sound U s) {x : Nat} {a : Arr} (hx : s.var x = some a) :
    ∃ h, destroy s.heap a = some h ∧ deallocate s.heap a = some (h, empty) ∧
      Sound U ⟨h, Function.update s.var x none⟩ ∧ Keeps x s ⟨h, Function.update s.var x none⟩ ∧ h.next = s.heap.next := by
  by_cases ho : a.owned = true
  · obtain ⟨b, l, hb, hl, hlen, hU⟩ := hs.own x a hx ho
    have hfree : s.heap.free b = some ⟨Function.update s.heap.blk b none, s.heap.next⟩ := by
      unfold Heap.free; rw [hl]; rfl
    -- other variables do not use the block
    have huse : ∀ y c d, y ≠ x → s.var y = some c → c.data = some d → (c.owned = true ∨ U d) → d ≠ b := by
      intro y c d hy hc hd h he
      subst he
      rcases h with h | h
      · exact hy (hs.sep y x c a hc hx h ho (by rw [hd, hb]))
      · exact hU h
    refine ⟨⟨Function.update s.heap.blk b none, s.heap.next⟩, ?_, ?_, ⟨?_, ?_, ?_, ?_, ?_, ?_⟩, ?_, rfl⟩
    · unfold destroy; rw [if_pos ho, hb, Option.bind_some, hfree]
    · unfold deallocate; rw [if_pos ho, hb, Option.bind_some, hfree]; rfl
    · intro y c hc hco
      dsimp only at hc ⊢
      have hy : y ≠ x := by rintro rfl; rw [upd_same] at hc; cases hc
      rw [upd_ne _ _ hy] at hc
      obtain ⟨d, m, h1, h2, h3⟩ := hs.own y c hc hco
      exact ⟨d, m, h1, by rw [upd_ne _ _ (huse y c d hy hc h1 (Or.inl hco))]; exact h2, h3⟩
    · intro y z c d hc hd h1 h2 h3
      dsimp only at hc hd
      have hy : y ≠ x := by rintro rfl; rw [upd_same] at hc; cases hc
      have hz : z ≠ x := by rintro rfl; rw [upd_same] at hd; cases hd
      rw [upd_ne _ _ hy] at hc
      rw [upd_ne _ _ hz] at hd
      exact hs.sep y z c d hc hd h1 h2 h3
    · intro y c hc hco
      dsimp only at hc ⊢
      have hy : y ≠ x := by rintro rfl; rw [upd_same] at hc; cases hc
      rw [upd_ne _ _ hy] at hc
      rcases hs.other y c hc hco with h1 | ⟨d, m, h1, h2, h3, h4⟩
      · exact Or.inl h1
      · exact Or.inr ⟨d, m, h1, h2, by rw [upd_ne _ _ (huse y c d hy hc h1 (Or.inr h2))]; exact h3, h4⟩
    · intro d hd
      dsimp only
      have : d ≠ b := by rintro rfl; exact hU hd
      rw [upd_ne _ _ this]
      exact hs.user d hd
    · intro d hd
      dsimp only at hd ⊢
      have hdb : d ≠ b := by rintro rfl; rw [upd_same] at hd; exact hd rfl
      rw [upd_ne _ _ hdb] at hd
      rcases hs.leak d hd with h1 | ⟨y, c, h1, h2, h3⟩
      · exact Or.inl h1
      · refine Or.inr ⟨y, c, ?_, h2, h3⟩
        have hy : y ≠ x := by
          rintro rfl
          rw [hx] at h1
          cases h1
          rw [hb] at h3
          cases h3
          exact hdb rfl
        rw [upd_ne _ _ hy]; exact h1
    · intro d hd
      dsimp only at hd ⊢
      have hdb : d ≠ b := by rintro rfl; rw [upd_same] at hd; exact hd rfl
      rw [upd_ne _ _ hdb] at hd
      exact hs.fresh d hd
    · intro y hy
      have e : (⟨⟨Function.update s.heap.blk b none, s.heap.next⟩, Function.update s.var x none⟩ : State α).var y = s.var y :=
        upd_ne _ _ hy
      refine ⟨e, ?_⟩
      unfold value
      rw [e]
      cases hc : s.var y with
      | none => rfl
      | some c =>
        rw [Option.bind_some, Option.bind_some]
        unfold elems
        dsimp only
        split
        · rfl
        · rename_i hsz
          cases hcd : c.data with
          | none => rfl
          | some d =>
            rw [Option.bind_some, Option.bind_some, upd_ne]
            refine huse y c d hy hc hcd ?_
            cases hco : c.owned with
            | true => exact Or.inl rfl
            | false =>
              rcases hs.other y c hc hco with h1 | ⟨d', m, h1, h2, -⟩
              · rw [h1] at hsz; exact absurd rfl hsz
              · rw [hcd] at h1; cases h1; exact Or.inr h2
  · have ho : a.owned = false := by simpa using ho
    refine ⟨s.heap, ?_, ?_, ⟨?_, ?_, ?_, hs.user, ?_, hs.fresh⟩, ?_, rfl⟩
    · unfold destroy; rw [ho]; rfl
    · unfold deallocate; rw [ho]; rfl
    · intro y c hc hco
      dsimp only at hc ⊢
      have hy : y ≠ x := by rintro rfl; rw [upd_same] at hc; cases hc
      rw [upd_ne _ _ hy] at hc
      exact hs.own y c hc hco
    · intro y z c d hc hd h1 h2 h3
      dsimp only at hc hd
      have hy : y ≠ x := by rintro rfl; rw [upd_same] at hc; cases hc
      have hz : z ≠ x := by rintro rfl; rw [upd_same] at hd; cases hd
      rw [upd_ne _ _ hy] at hc
      rw [upd_ne _ _ hz] at hd
      exact hs.sep y z c d hc hd h1 h2 h3
    · intro y c hc hco
      dsimp only at hc ⊢
      have hy : y ≠ x := by rintro rfl; rw [upd_same] at hc; cases hc
      rw [upd_ne _ _ hy] at hc
      exact hs.other y c hc hco
    · intro d hd
      dsimp only at hd ⊢
      rcases hs.leak d hd with h1 | ⟨y, c, h1, h2, h3⟩
      · exact Or.inl h1
      · refine Or.inr ⟨y, c, ?_, h2, h3⟩
        have hy : y ≠ x := by rintro rfl; rw [hx] at h1; cases h1; rw [ho] at h2; cases h2
        rw [upd_ne _ _ hy]; exact h1
    · intro y hy
      have e : (⟨s.heap, Function.update s.var x none⟩ : State α).var y = s.var y := upd_ne _ _ hy
      exact ⟨e, by unfold value; rw [e]⟩

/-- Making a variable without its own memory. -/
theorem put_view {U : Nat → Prop} {s : State α} (hs : Sound U s) {x : Nat} (hx : s.var x = none) {a : Arr} (ho : a.owned = false)
    (ha : a = empty ∨ ∃ b l, a.data = some b ∧ U b ∧ s.heap.blk b = some l ∧ a.size ≤ l.length) :
    Sound U { s with var := Function.update s.var x (some a) } ∧ Keeps x s { s with var := Function.update s.var x (some a) } := by
  have look : ∀ y c, Function.update s.var x (some a) y = some c → (y = x ∧ c = a) ∨ (y ≠ x ∧ s.var y = some c) := by
    intro y c hc
    by_cases hy : y = x
    · subst hy; rw [upd_same] at hc; cases hc; exact Or.inl ⟨rfl, rfl⟩
    · rw [upd_ne _ _ hy] at hc; exact Or.inr ⟨hy, hc⟩
  refine ⟨⟨?_, ?_, ?_, hs.user, ?_, hs.fresh⟩, ?_⟩
  · intro y c hc hco
    rcases look y c hc with ⟨-, rfl⟩ | ⟨-, hc⟩
    · rw [ho] at hco; cases hco
    · exact hs.own y c hc hco
  · intro y z c d hc hd h1 h2 h3
    rcases look y c hc with ⟨-, rfl⟩ | ⟨-, hc⟩
    · rw [ho] at h1; cases h1
    · rcases look z d hd with ⟨-, rfl⟩ | ⟨-, hd⟩
      · rw [ho] at h2; cases h2
      · exact hs.sep y z c d hc hd h1 h2 h3
  · intro y c hc hco
    rcases look y c hc with ⟨-, rfl⟩ | ⟨-, hc⟩
    · exact ha
    · exact hs.other y c hc hco
  · intro d hd
    rcases hs.leak d hd with h1 | ⟨y, c, h1, h2, h3⟩
    · exact Or.inl h1
    · refine Or.inr ⟨y, c, ?_, h2, h3⟩
      have hy : y ≠ x := by rintro rfl; rw [hx] at h1; cases h1
      exact (upd_ne _ _ hy).trans h1
  · intro y hy
    have e : ({ s with var := Function.update s.var x (some a) } : State α).var y = s.var y := upd_ne _ _ hy
    exact ⟨e, by unfold value; rw [e]⟩

/-- Elements are not changed by an allocation. -/
theorem elems_alloc {U : Nat → Prop} {s : State α} (hs : Sound U s) {y : Nat} {c : Arr} (hc : s.var y = some c) (l : List α) :
    elems (s.heap.alloc l).2 c = elems s.heap c ∧ ∃ m, elems s.heap c = some m ∧ m.length = c.size := by
  have hdata : c.size ≠ 0 → ∃ b m, c.data = some b ∧ s.heap.blk b = some m ∧ c.size ≤ m.length := by
    intro hz
    cases hco : c.owned with
    | true =>
      obtain ⟨b, m, h1, h2, h3, -⟩ := hs.own y c hc hco
      exact ⟨b, m, h1, h2, by omega⟩
    | false =>
      rcases hs.other y c hc hco with h1 | ⟨d', m, h1, h2, h3, h4⟩
      · rw [h1] at hz; exact absurd rfl hz
      · exact ⟨d', m, h1, h3, h4⟩
  by_cases hz : c.size = 0
  · unfold elems
    rw [if_pos hz, if_pos hz]
    exact ⟨rfl, [], rfl, hz.symm⟩
  · obtain ⟨b, m, h1, h2, h3⟩ := hdata hz
    have hb : b ≠ s.heap.next := by
      have := hs.fresh b (by rw [h2]; simp)
      omega
    unfold elems Heap.alloc
    rw [if_neg hz, if_neg hz, h1, Option.bind_some, Option.bind_some]
    dsimp only
    rw [upd_ne _ _ hb, h2, Option.bind_some, if_pos h3]
    exact ⟨rfl, _, rfl, by rw [List.length_take]; omega⟩

/-- Making a variable with new memory. -/
theorem put_alloc {U : Nat → Prop} (hU : ∀ b, U b → ∀ s : State α, Sound U s → b < s.heap.next) {s : State α} (hs : Sound U s) {x : Nat}
    (hx : s.var x = none) (l : List α) (hl : l.length ≠ 0) :
    Sound U ⟨(s.heap.alloc l).2, Function.update s.var x (some ⟨some (s.heap.alloc l).1, l.length, true⟩)⟩ ∧
    Keeps x s ⟨(s.heap.alloc l).2, Function.update s.var x (some ⟨some (s.heap.alloc l).1, l.length, true⟩)⟩ ∧
    value ⟨(s.heap.alloc l).2, Function.update s.var x (some ⟨some (s.heap.alloc l).1, l.length, true⟩)⟩ x = some l := by
  set a : Arr := ⟨some (s.heap.alloc l).1, l.length, true⟩ with ha
  have look : ∀ y c, Function.update s.var x (some a) y = some c → (y = x ∧ c = a) ∨ (y ≠ x ∧ s.var y = some c) := by
    intro y c hc
    by_cases hy : y = x
    · subst hy; rw [upd_same] at hc; cases hc; exact Or.inl ⟨rfl, rfl⟩
    · rw [upd_ne _ _ hy] at hc; exact Or.inr ⟨hy, hc⟩
  have old : ∀ b m, s.heap.blk b = some m → b ≠ s.heap.next := by
    intro b m h
    have := hs.fresh b (by rw [h]; simp)
    omega
  have keep : ∀ b m, s.heap.blk b = some m → (s.heap.alloc l).2.blk b = some m := by
    intro b m h
    unfold Heap.alloc
    dsimp only
    rw [upd_ne _ _ (old b m h)]; exact h
  have hnew : (s.heap.alloc l).2.blk s.heap.next = some l := upd_same ..
  refine ⟨⟨?_, ?_, ?_, ?_, ?_, ?_⟩, ?_, ?_⟩
  · intro y c hc hco
    rcases look y c hc with ⟨-, rfl⟩ | ⟨-, hc⟩
    · refine ⟨s.heap.next, l, rfl, hnew, rfl, fun h => ?_⟩
      have := hU _ h s hs
      omega
    · obtain ⟨d, m, h1, h2, h3⟩ := hs.own y c hc hco
      exact ⟨d, m, h1, keep d m h2, h3⟩
  · intro y z c d hc hd h1 h2 h3
    rcases look y c hc with ⟨hy, rfl⟩ | ⟨hy, hc⟩
    · rcases look z d hd with ⟨hz, rfl⟩ | ⟨hz, hd⟩
      · rw [hy, hz]
      · obtain ⟨e, m, h4, h5, -⟩ := hs.own z d hd h2
        rw [h4] at h3
        exact absurd (Option.some.inj h3).symm (old e m h5)
    · rcases look z d hd with ⟨hz, rfl⟩ | ⟨hz, hd⟩
      · obtain ⟨e, m, h4, h5, -⟩ := hs.own y c hc h1
        rw [h4] at h3
        exact absurd (Option.some.inj h3) (old e m h5)
      · exact hs.sep y z c d hc hd h1 h2 h3
  · intro y c hc hco
    rcases look y c hc with ⟨-, rfl⟩ | ⟨-, hc⟩
    · cases hco
    · rcases hs.other y c hc hco with h1 | ⟨d, m, h1, h2, h3, h4⟩
      · exact Or.inl h1
      · exact Or.inr ⟨d, m, h1, h2, keep d m h3, h4⟩
  · intro b hb
    have h := hs.user b hb
    cases hm : s.heap.blk b with
    | none => exact absurd hm h
    | some m => rw [keep b m hm]; simp
  · intro b hb
    by_cases hbn : b = s.heap.next
    · exact Or.inr ⟨x, a, upd_same .., rfl, by rw [hbn]; rfl⟩
    · have hb' : s.heap.blk b ≠ none := by
        have : (s.heap.alloc l).2.blk b = s.heap.blk b := upd_ne _ _ hbn
        rw [← this]; exact hb
      rcases hs.leak b hb' with h1 | ⟨y, c, h1, h2, h3⟩
      · exact Or.inl h1
      · refine Or.inr ⟨y, c, ?_, h2, h3⟩
        have hy : y ≠ x := by rintro rfl; rw [hx] at h1; cases h1
        exact (upd_ne _ _ hy).trans h1
  · intro b hb
    show b < s.heap.next + 1
    by_cases hbn : b = s.heap.next
    · omega
    · have hb' : s.heap.blk b ≠ none := by
        have : (s.heap.alloc l).2.blk b = s.heap.blk b := upd_ne _ _ hbn
        rw [← this]; exact hb
      have := hs.fresh b hb'
      omega
  · intro y hy
    have e : (⟨(s.heap.alloc l).2, Function.update s.var x (some a)⟩ : State α).var y = s.var y := upd_ne _ _ hy
    refine ⟨e, ?_⟩
    unfold value
    rw [e]
    cases hc : s.var y with
    | none => rfl
    | some c => exact (elems_alloc hs hc l).1
  · unfold value
    dsimp only
    rw [upd_same, Option.bind_some]
    unfold elems
    rw [if_neg hl, ha]
    dsimp only
    rw [Option.bind_some, show (s.heap.alloc l).1 = s.heap.next from rfl, hnew, Option.bind_some, if_pos (Nat.le_refl _), List.take_of_length_le (Nat.le_refl _)]

theorem user_lt {U : Nat → Prop} : ∀ b, U b → ∀ s : State α, Sound U s → b < s.heap.next :=
  fun b hb _ hs => hs.fresh b (hs.user b hb)

theorem state_eta (s : State α) {x : Nat} {v w : Option Arr} :
    Function.update (Function.update s.var x v) x w = Function.update s.var x w := Function.update_idem ..

theorem allocate_empty (h : Heap α) (l : List α) : allocate h empty l =
    some (if l.length = 0 then (h, empty) else ((h.alloc l).2, ⟨some h.next, l.length, true⟩)) := by
  have e : deallocate h empty = some (h, empty) := rfl
  unfold allocate
  rw [e, Option.map_some]
  split
  · rename_i hl; rw [hl]; rfl
  · rfl

theorem allocate_nil (h : Heap α) : allocate h empty [] = some (h, empty) := rfl

/-- Making a variable by `Allocate`. -/
theorem put_sized {U : Nat → Prop} {s : State α} (hs : Sound U s) {x : Nat} (hx : s.var x = none) (l : List α) :
    ∃ r, allocate s.heap empty l = some r ∧ r.2.size = l.length ∧ Sound U ⟨r.1, Function.update s.var x (some r.2)⟩ ∧
      Keeps x s ⟨r.1, Function.update s.var x (some r.2)⟩ ∧ value ⟨r.1, Function.update s.var x (some r.2)⟩ x = some l ∧
      (l.length ≠ 0 → r = ((s.heap.alloc l).2, ⟨some (s.heap.alloc l).1, l.length, true⟩)) ∧ (l.length = 0 → r = (s.heap, empty)) := by
  by_cases hl : l.length = 0
  · refine ⟨(s.heap, empty), ?_, hl.symm, (put_view hs hx rfl (Or.inl rfl)).1, (put_view hs hx rfl (Or.inl rfl)).2, ?_,
      fun h => absurd hl h, fun _ => rfl⟩
    · rw [allocate_empty, if_pos hl]
    · unfold value
      dsimp only
      rw [upd_same, Option.bind_some]
      rw [List.eq_nil_of_length_eq_zero hl]
      rfl
  · obtain ⟨h1, h2, h3⟩ := put_alloc user_lt hs hx l hl
    refine ⟨((s.heap.alloc l).2, ⟨some (s.heap.alloc l).1, l.length, true⟩), ?_, rfl, h1, h2, h3, fun _ => rfl, fun h => absurd h hl⟩
    rw [allocate_empty, if_neg hl]
    rfl

/-- Copying into new memory of the right length makes memory with the elements. -/
theorem fill_spec {U : Nat → Prop} {s : State α} (hs : Sound U s) {y : Nat} {o : Arr} (hy : s.var y = some o) {junk : List α}
    (hj : junk.length = o.size) :
    ∃ l, elems s.heap o = some l ∧
      ((allocate s.heap empty junk).bind fun q => (elems q.1 o).bind fun l => (store q.1 q.2 l).map fun h => (h, q.2)) =
        allocate s.heap empty l := by
  obtain ⟨e1, l, el, hl⟩ := elems_alloc hs hy junk
  refine ⟨l, el, ?_⟩
  rw [allocate_empty, allocate_empty, Option.bind_some]
  by_cases hz : junk.length = 0
  · rw [if_pos hz, if_pos (by omega)]
    dsimp only
    rw [el, Option.bind_some]
    unfold store
    rw [if_pos (by omega)]
    rfl
  · rw [if_neg hz, if_neg (by omega)]
    dsimp only
    rw [e1, el, Option.bind_some]
    unfold store
    rw [if_neg (by omega)]
    dsimp only
    rw [Option.bind_some]
    have : (s.heap.alloc junk).2.blk s.heap.next = some junk := upd_same ..
    rw [this, Option.bind_some, if_pos (by omega), Option.map_some, List.drop_eq_nil_of_le (by omega), List.append_nil]
    unfold Heap.alloc
    dsimp only
    rw [Function.update_idem, show junk.length = l.length by omega]

/-! ## C117 -/

/-- C117: no legal step is undefined: nothing is freed twice, no freed or foreign memory is accessed; and no memory is forgotten. -/
theorem C117_step {U : Nat → Prop} {s : State α} (hs : Sound U s) {o : Op α} (ho : Legal U s o) : ∃ s', step s o = some s' ∧ Sound U s' := by
  cases o with
  | newEmpty x => exact ⟨_, if_pos ho, (put_view hs ho rfl (Or.inl rfl)).1⟩
  | newSized x junk =>
    obtain ⟨r, e, -, h, -⟩ := put_sized hs ho junk
    exact ⟨_, by unfold step; dsimp only; rw [if_pos (show s.var x = none from ho), e]; rfl, h⟩
  | newView x b n =>
    obtain ⟨hx, hU, l, hl, hn⟩ := ho
    exact ⟨_, if_pos hx, (put_view hs hx rfl (Or.inr ⟨b, l, rfl, hU, hl, hn⟩)).1⟩
  | newCopy x y junk =>
    obtain ⟨hx, a, hy, hj⟩ := ho
    obtain ⟨l, -, e⟩ := fill_spec hs hy hj
    obtain ⟨r, e2, -, h, -⟩ := put_sized hs hx l
    refine ⟨⟨r.1, Function.update s.var x (some r.2)⟩, ?_, h⟩
    unfold step copyCtor
    dsimp only
    rw [if_pos hx, hy, Option.bind_some, e, e2]
    rfl
  | assign x y junk =>
    obtain ⟨⟨a, hx⟩, o, hy, hj⟩ := ho
    obtain ⟨h, e1, e2, hs', hk, -⟩ := drop_spec hs hx
    by_cases hxy : x = y
    · obtain ⟨r, e3, -, h4, -⟩ := put_sized hs' (x := x) (upd_same ..) []
      have hr : r = (h, empty) := by
        rw [allocate_nil] at e3
        exact (Option.some.inj e3).symm
      subst hr
      refine ⟨⟨h, Function.update s.var x (some empty)⟩, ?_, ?_⟩
      · unfold step assignSelf
        dsimp only
        rw [hx, hy, Option.bind_some, Option.bind_some, if_pos hxy, e2, Option.bind_some]
        dsimp only
        rw [allocate_nil]
        rfl
      · dsimp only at h4
        rw [state_eta] at h4
        exact h4
    · have hy' : (⟨h, Function.update s.var x none⟩ : State α).var y = some o := (upd_ne _ _ (Ne.symm hxy)).trans hy
      obtain ⟨l, -, e⟩ := fill_spec hs' hy' hj
      obtain ⟨r, e3, -, h4, -⟩ := put_sized hs' (x := x) (upd_same ..) l
      refine ⟨⟨r.1, Function.update s.var x (some r.2)⟩, ?_, ?_⟩
      · unfold step Arr.assign
        dsimp only
        rw [hx, hy, Option.bind_some, Option.bind_some, if_neg hxy, e2, Option.bind_some]
        dsimp only at e e3 ⊢
        rw [e, e3]
        rfl
      · dsimp only at h4
        rw [state_eta] at h4
        exact h4
  | allocate x junk =>
    obtain ⟨a, hx⟩ := ho
    obtain ⟨h, e1, e2, hs', hk, -⟩ := drop_spec hs hx
    obtain ⟨r, e3, -, h4, -⟩ := put_sized hs' (x := x) (upd_same ..) junk
    refine ⟨⟨r.1, Function.update s.var x (some r.2)⟩, ?_, ?_⟩
    · unfold step
      dsimp only
      rw [hx, Option.bind_some]
      have : Arr.allocate s.heap a junk = Arr.allocate h empty junk := by
        unfold Arr.allocate
        rw [e2]
        rfl
      dsimp only at e3
      rw [this, e3]
      rfl
    · dsimp only at h4
      rw [state_eta] at h4
      exact h4
  | deallocate x =>
    obtain ⟨a, hx⟩ := ho
    obtain ⟨h, e1, e2, hs', hk, -⟩ := drop_spec hs hx
    refine ⟨⟨h, Function.update s.var x (some empty)⟩, ?_, ?_⟩
    · unfold step
      dsimp only
      rw [hx, Option.bind_some, e2]
      rfl
    · have := (put_view hs' (x := x) (upd_same ..) (a := empty) rfl (Or.inl rfl)).1
      dsimp only at this
      rw [state_eta] at this
      exact this
  | set x i v =>
    obtain ⟨a, hx, hi⟩ := ho
    have hdata : ∃ b m, a.data = some b ∧ s.heap.blk b = some m ∧ a.size ≤ m.length := by
      cases hco : a.owned with
      | true =>
        obtain ⟨b, m, h1, h2, h3, -⟩ := hs.own x a hx hco
        exact ⟨b, m, h1, h2, by omega⟩
      | false =>
        rcases hs.other x a hx hco with h1 | ⟨d', m, h1, h2, h3, h4⟩
        · rw [h1] at hi; exact absurd hi (Nat.not_lt_zero _)
        · exact ⟨d', m, h1, h3, h4⟩
    obtain ⟨b, m, hb, hm, hl⟩ := hdata
    refine ⟨⟨⟨Function.update s.heap.blk b (some (m.set i v)), s.heap.next⟩, s.var⟩, ?_, ?_⟩
    · unfold step Arr.set
      dsimp only
      rw [hx, Option.bind_some, hb, Option.bind_some, hm, Option.bind_some, if_pos (by omega)]
      rfl
    · have look : ∀ d k, s.heap.blk d = some k →
          ∃ k', Function.update s.heap.blk b (some (m.set i v)) d = some k' ∧ k'.length = k.length := by
        intro d k hk
        by_cases hd : d = b
        · subst hd
          rw [upd_same]
          rw [hm] at hk
          cases hk
          exact ⟨_, rfl, List.length_set ..⟩
        · rw [upd_ne _ _ hd]; exact ⟨k, hk, rfl⟩
      have back : ∀ d, Function.update s.heap.blk b (some (m.set i v)) d ≠ none → s.heap.blk d ≠ none := by
        intro d hd
        by_cases h : d = b
        · subst h; rw [hm]; simp
        · rwa [upd_ne _ _ h] at hd
      refine ⟨?_, hs.sep, ?_, ?_, fun d hd => hs.leak d (back d hd), fun d hd => hs.fresh d (back d hd)⟩
      · intro y c hc hco
        obtain ⟨d, k, h1, h2, h3, h4⟩ := hs.own y c hc hco
        obtain ⟨k', h5, h6⟩ := look d k h2
        exact ⟨d, k', h1, h5, h6.trans h3, h4⟩
      · intro y c hc hco
        rcases hs.other y c hc hco with h1 | ⟨d, k, h1, h2, h3, h4⟩
        · exact Or.inl h1
        · obtain ⟨k', h5, h6⟩ := look d k h3
          exact Or.inr ⟨d, k', h1, h2, h5, by omega⟩
      · intro d hd
        cases hk : s.heap.blk d with
        | none => exact absurd hk (hs.user d hd)
        | some k =>
          obtain ⟨k', h5, -⟩ := look d k hk
          dsimp only
          rw [h5]; simp
  | delete x =>
    obtain ⟨a, hx⟩ := ho
    obtain ⟨h, e1, e2, hs', hk, -⟩ := drop_spec hs hx
    exact ⟨_, by unfold step; dsimp only; rw [hx, Option.bind_some, e1]; rfl, hs'⟩

/-- A program all of whose steps are legal when they are reached. -/
def LegalRun (U : Nat → Prop) : State α → List (Op α) → Prop
  | _, [] => True
  | s, o :: os => Legal U s o ∧ ∀ s', step s o = some s' → LegalRun U s' os

/-- C117: the same for whole programs. -/
theorem C117_run {U : Nat → Prop} : ∀ (os : List (Op α)) {s : State α}, Sound U s → LegalRun U s os → ∃ s', run s os = some s' ∧ Sound U s' := by
  intro os
  induction os with
  | nil => intro s hs _; exact ⟨s, rfl, hs⟩
  | cons o os ih =>
    intro s hs ⟨h1, h2⟩
    obtain ⟨s1, e1, hs1⟩ := C117_step hs h1
    obtain ⟨s2, e2, hs2⟩ := ih hs1 (h2 s1 e1)
    exact ⟨s2, by unfold run; rw [e1, Option.bind_some, e2], hs2⟩

/-- C117: at the end of a program that has deleted its variables only the user's blocks are left. -/
theorem C117_no_leak {U : Nat → Prop} {s : State α} (hs : Sound U s) (hv : ∀ x, s.var x = none) (b : Nat) :
    s.heap.blk b ≠ none ↔ U b := by
  refine ⟨fun h => ?_, hs.user b⟩
  rcases hs.leak b h with h1 | ⟨x, a, h1, -⟩
  · exact h1
  · rw [hv x] at h1; cases h1

/-- C117: copying and assigning between two arrays make an array with the same elements in memory of its own, and change no other
variable. -/
theorem C117_copy {U : Nat → Prop} {s : State α} (hs : Sound U s) {x y : Nat} (hxy : x ≠ y) {junk : List α} {s' : State α} :
    (Legal U s (.newCopy x y junk) → step s (.newCopy x y junk) = some s' →
      value s' x = value s y ∧ value s y ≠ none ∧ Keeps x s s') ∧
    (Legal U s (.assign x y junk) → step s (.assign x y junk) = some s' →
      value s' x = value s y ∧ value s y ≠ none ∧ Keeps x s s') := by
  constructor
  · rintro ⟨hx, a, hy, hj⟩ h
    obtain ⟨l, el, e⟩ := fill_spec hs hy hj
    obtain ⟨r, e2, -, -, hk, hv, -⟩ := put_sized hs hx l
    unfold step copyCtor at h
    dsimp only at h
    rw [if_pos hx, hy, Option.bind_some, e, e2] at h
    cases h
    have : value s y = some l := by unfold value; rw [hy, Option.bind_some, el]
    exact ⟨hv.trans this.symm, by rw [this]; simp, hk⟩
  · rintro ⟨⟨a, hx⟩, o, hy, hj⟩ h
    obtain ⟨h', e1, e2, hs', hk', -⟩ := drop_spec hs hx
    have hy' : (⟨h', Function.update s.var x none⟩ : State α).var y = some o := (upd_ne _ _ (Ne.symm hxy)).trans hy
    obtain ⟨l, el, e⟩ := fill_spec hs' hy' hj
    obtain ⟨r, e3, -, -, hk, hv, -⟩ := put_sized hs' (x := x) (upd_same ..) l
    unfold step Arr.assign at h
    dsimp only at h e e3
    rw [hx, hy, Option.bind_some, Option.bind_some, if_neg hxy, e2, Option.bind_some] at h
    dsimp only at h
    rw [e, e3] at h
    cases h
    dsimp only at hv hk
    rw [state_eta] at hv hk
    have h1 : value (⟨h', Function.update s.var x none⟩ : State α) y = some l := by
      unfold value; rw [hy', Option.bind_some]; exact el
    have h2 : value s y = some l := (hk' y (Ne.symm hxy)).2.symm.trans h1
    exact ⟨hv.trans h2.symm, by rw [h2]; simp, hk'.trans hk⟩

/-- C117: writing an element of an array with its own memory changes that element and nothing else. -/
theorem C117_set {U : Nat → Prop} {s : State α} (hs : Sound U s) {x i : Nat} {v : α} {a : Arr} (hx : s.var x = some a) (hi : i < a.size)
    (ho : a.owned = true) {s' : State α} (h : step s (.set x i v) = some s') :
    (∃ l, value s x = some l ∧ i < l.length ∧ value s' x = some (l.set i v)) ∧ Keeps x s s' ∧ s'.var = s.var := by
  obtain ⟨b, l, hb, hl, hlen, hU⟩ := hs.own x a hx ho
  unfold step Arr.set at h
  dsimp only at h
  rw [hx, Option.bind_some, hb, Option.bind_some, hl, Option.bind_some, if_pos (by omega)] at h
  cases h
  have hz : a.size ≠ 0 := by omega
  refine ⟨⟨l, ?_, by omega, ?_⟩, fun y hy => ⟨rfl, ?_⟩, rfl⟩
  · unfold value elems
    rw [hx, Option.bind_some, if_neg hz, hb, Option.bind_some, hl, Option.bind_some, if_pos (by omega), List.take_of_length_le (by omega)]
  · unfold value elems
    dsimp only
    rw [hx, Option.bind_some, if_neg hz, hb, Option.bind_some]
    rw [upd_same, Option.bind_some, if_pos (by rw [List.length_set]; omega), List.take_of_length_le (by rw [List.length_set]; omega)]
  · unfold value
    dsimp only
    cases hc : s.var y with
    | none => rfl
    | some c =>
      rw [Option.bind_some, Option.bind_some]
      unfold elems
      split
      · rfl
      · rename_i hsz
        cases hcd : c.data with
        | none => rfl
        | some d =>
          rw [Option.bind_some, Option.bind_some]
          dsimp only
          rw [upd_ne]
          rintro rfl
          cases hco : c.owned with
          | true => exact hy (hs.sep y x c a hc hx hco ho (by rw [hcd, hb]))
          | false =>
            rcases hs.other y c hc hco with h1 | ⟨d', m, h1, h2, -⟩
            · rw [h1] at hsz; exact absurd rfl hsz
            · rw [hcd] at h1; cases h1; exact hU h2

/-- C117: reading gives the element of the array with that index. -/
theorem C117_get {s : State α} {x i : Nat} {a : Arr} (hx : s.var x = some a) {l : List α} (hl : value s x = some l) (hi : i < a.size) :
    l.length = a.size ∧ Arr.get s.heap a i = l[i]? := by
  unfold value at hl
  rw [hx, Option.bind_some] at hl
  unfold elems at hl
  rw [if_neg (by omega)] at hl
  unfold Arr.get
  cases hb : a.data with
  | none => rw [hb] at hl; simp at hl
  | some b =>
    rw [hb, Option.bind_some] at hl
    rw [Option.bind_some]
    cases hm : s.heap.blk b with
    | none => rw [hm] at hl; simp at hl
    | some m =>
      rw [hm, Option.bind_some] at hl
      rw [Option.bind_some]
      split at hl
      · rename_i hle
        cases hl
        exact ⟨by rw [List.length_take]; omega, by rw [List.getElem?_take_of_lt hi]⟩
      · cases hl

/-- Finding: assigning an array to itself empties it. -/
theorem C117_self_counterexample {U : Nat → Prop} {s : State α} (hs : Sound U s) {x : Nat} {a : Arr} (hx : s.var x = some a) (junk : List α) :
    ∃ s', step s (.assign x x junk) = some s' ∧ value s' x = some [] := by
  obtain ⟨h, e1, e2, -⟩ := drop_spec hs hx
  refine ⟨⟨h, Function.update s.var x (some empty)⟩, ?_, ?_⟩
  · unfold step assignSelf
    dsimp only
    rw [hx, Option.bind_some, Option.bind_some, if_pos rfl, e2, Option.bind_some]
    dsimp only
    rw [allocate_nil]
    rfl
  · unfold value
    dsimp only
    rw [upd_same]
    rfl

/-- The start: one block of the user. -/
def start : State Nat := ⟨⟨fun b => if b = 0 then some [1, 2, 3] else none, 1⟩, fun _ => none⟩

theorem start_sound : Sound (· = 0) start := by
  refine ⟨?_, ?_, ?_, ?_, ?_, ?_⟩
  · intro x a h; cases h
  · intro x y a c h; cases h
  · intro x a h; cases h
  · rintro b rfl; simp [start]
  · intro b h
    by_cases hb : b = 0
    · exact Or.inl hb
    · simp [start, hb] at h
  · intro b h
    by_cases hb : b = 0
    · simp [start, hb]
    · simp [start, hb] at h

/-- A view of two elements of the user's block, a copy of it, an element written, and an assignment. -/
example : LegalRun (· = 0) start [.newView 0 0 2, .newCopy 1 0 [7, 7], .set 1 1 5, .newEmpty 2, .assign 2 1 [8, 8]] ∧
    (run start [.newView 0 0 2, .newCopy 1 0 [7, 7], .set 1 1 5, .newEmpty 2, .assign 2 1 [8, 8]]).bind (value · 2) = some [1, 5] ∧
    (run start [.newView 0 0 2, .newCopy 1 0 [7, 7], .set 1 1 5, .newEmpty 2, .assign 2 1 [8, 8]]).bind (value · 0) = some [1, 2] := by
  refine ⟨⟨⟨rfl, rfl, [1, 2, 3], rfl, by decide⟩, ?_⟩, by decide, by decide⟩
  rintro s1 h1
  cases h1
  refine ⟨⟨by decide, view 0 2, by decide, rfl⟩, ?_⟩
  rintro s2 h2
  cases h2
  refine ⟨⟨⟨some 1, 2, true⟩, by decide, by decide⟩, ?_⟩
  rintro s3 h3
  cases h3
  refine ⟨rfl, ?_⟩
  rintro s4 h4
  cases h4
  exact ⟨⟨⟨empty, by decide⟩, ⟨some 1, 2, true⟩, by decide, rfl⟩, fun _ _ => trivial⟩

end Arr
end VecGeom
