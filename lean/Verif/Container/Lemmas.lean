import Verif.Container.Spec

/-!
# The invariant of programs with containers
-/

namespace VecGeom
namespace Container

variable {α β E σ : Type}

/-- Machine and specification belong together: arrays are unchanged by other containers, blocks have exactly one owner, and
each object is related to its value. -/
structure Rel (owns : σ → Nat → Prop) (OR : (Nat → Option (Block β)) → List (Block β) → σ → Value E → Prop)
    (m : Machine β σ) (a : Abs β E) : Prop where
  arrays : ∀ b, b < a.arrays.length → m.heap.blocks b = a.arrays[b]?
  below : a.arrays.length ≤ m.heap.next
  fresh : ∀ b, m.heap.next ≤ b → m.heap.blocks b = none
  obj : ∀ o, Option.Rel (OR m.heap.blocks a.arrays) (m.objs o) (a.objs o)
  apart : ∀ o p s t b, m.objs o = some s → m.objs p = some t → owns s b → owns t b → o = p
  live : ∀ o s b, m.objs o = some s → owns s b → a.arrays.length ≤ b ∧ m.heap.blocks b ≠ none
  leak : ∀ b, a.arrays.length ≤ b → m.heap.blocks b ≠ none → ∃ o s, m.objs o = some s ∧ owns s b

variable {owns : σ → Nat → Prop} {OR : (Nat → Option (Block β)) → List (Block β) → σ → Value E → Prop}
  {m : Machine β σ} {a : Abs β E}

theorem upd_same {σ : Type} (f : Nat → Option σ) (o : Nat) (s : Option σ) : upd f o s o = s := by simp [upd]
theorem upd_other {σ : Type} (f : Nat → Option σ) {o p : Nat} (s : Option σ) (h : p ≠ o) : upd f o s p = f p := by simp [upd, h]

theorem Rel.get (h : Rel owns OR m a) {o : Nat} {s : σ} (hs : m.objs o = some s) : ∃ v, a.objs o = some v ∧ OR m.heap.blocks a.arrays s v := by
  have := h.obj o
  rw [hs] at this
  cases hv : a.objs o with
  | none => rw [hv] at this; cases this
  | some v => rw [hv] at this; cases this with | some hr => exact ⟨v, rfl, hr⟩

theorem Rel.get' (h : Rel owns OR m a) {o : Nat} {v : Value E} (hs : a.objs o = some v) : ∃ s, m.objs o = some s ∧ OR m.heap.blocks a.arrays s v := by
  have := h.obj o
  rw [hs] at this
  cases hv : m.objs o with
  | none => rw [hv] at this; cases this
  | some s => rw [hv] at this; cases this with | some hr => exact ⟨s, rfl, hr⟩

theorem Rel.none (h : Rel owns OR m a) {o : Nat} (hs : a.objs o = none) : m.objs o = none := by
  cases hm : m.objs o with
  | none => rfl
  | some s => obtain ⟨v, hv, -⟩ := h.get hm; rw [hs] at hv; cases hv

/-- The blocks that an operation on an object may touch: those of the object, and new ones. -/
def Mine (owns : σ → Nat → Prop) (m : Machine β σ) (o b : Nat) : Prop := (∃ t, m.objs o = some t ∧ owns t b) ∨ m.heap.next ≤ b

/-- An operation on one object. -/
theorem Rel.update (h : Rel owns OR m a)
    (hloc : ∀ (g g' : Nat → Option (Block β)) (r : List (Block β)) (s : σ) (v : Value E), (∀ b, owns s b → g' b = g b) → OR g r s v → OR g' r s v)
    (o : Nat) (h' : Heap β) (s' : Option σ) (v' : Option (Value E))
    (hn : m.heap.next ≤ h'.next)
    (frame : ∀ b, ¬ Mine owns m o b → h'.blocks b = m.heap.blocks b)
    (fresh : ∀ b, h'.next ≤ b → h'.blocks b = Option.none)
    (rel : Option.Rel (OR h'.blocks a.arrays) s' v')
    (own : ∀ s b, s' = some s → owns s b → h'.blocks b ≠ Option.none ∧ Mine owns m o b)
    (noleak : ∀ b, h'.blocks b ≠ Option.none → Mine owns m o b → ∃ s, s' = some s ∧ owns s b) :
    Rel owns OR ⟨h', upd m.objs o s'⟩ { a with objs := upd a.objs o v' } := by
  have mine_len : ∀ b, Mine owns m o b → a.arrays.length ≤ b := by
    rintro b (⟨t, ht, hb⟩ | hb)
    · exact (h.live o t b ht hb).1
    · exact Nat.le_trans h.below hb
  have other : ∀ p t b, p ≠ o → m.objs p = some t → owns t b → ¬ Mine owns m o b := by
    rintro p t b hp ht hb (⟨u, hu, hc⟩ | hc)
    · exact hp (h.apart p o t u b ht hu hb hc)
    · exact (h.live p t b ht hb).2 (h.fresh b hc)
  refine ⟨?_, (Nat.le_trans h.below hn : _), fresh, ?_, ?_, ?_, ?_⟩
  · intro b hb
    dsimp only at hb ⊢
    rw [frame b (fun hc => by have := mine_len b hc; omega)]
    exact h.arrays b hb
  · intro p
    dsimp only
    by_cases hp : p = o
    · subst hp; rw [upd_same, upd_same]; exact rel
    · rw [upd_other _ _ hp, upd_other _ _ hp]
      have := h.obj p
      cases hm : m.objs p with
      | none => rw [hm] at this; cases hv : a.objs p with
        | none => exact Option.Rel.none
        | some v => rw [hv] at this; cases this
      | some s =>
        obtain ⟨v, hv, hr⟩ := h.get hm
        rw [hv]
        exact Option.Rel.some (hloc _ _ _ _ _ (fun b hb => frame b (other p s b hp hm hb)) hr)
  · intro p q s t b hs ht hb hc
    dsimp only at hs ht
    by_cases hp : p = o <;> by_cases hq : q = o
    · rw [hp, hq]
    · subst hp
      rw [upd_same] at hs
      rw [upd_other _ _ hq] at ht
      exact absurd (own s b hs hb).2 (other q t b hq ht hc)
    · subst hq
      rw [upd_same] at ht
      rw [upd_other _ _ hp] at hs
      exact absurd (own t b ht hc).2 (other p s b hp hs hb)
    · rw [upd_other _ _ hp] at hs
      rw [upd_other _ _ hq] at ht
      exact h.apart p q s t b hs ht hb hc
  · intro p s b hs hb
    dsimp only at hs ⊢
    by_cases hp : p = o
    · subst hp
      rw [upd_same] at hs
      exact ⟨mine_len b (own s b hs hb).2, (own s b hs hb).1⟩
    · rw [upd_other _ _ hp] at hs
      rw [frame b (other p s b hp hs hb)]
      exact h.live p s b hs hb
  · intro b hb hne
    dsimp only at hb hne ⊢
    by_cases hm : Mine owns m o b
    · obtain ⟨s, hs, hw⟩ := noleak b hne hm
      exact ⟨o, s, by rw [upd_same]; exact hs, hw⟩
    · rw [frame b hm] at hne
      obtain ⟨p, s, hs, hw⟩ := h.leak b hb hne
      refine ⟨p, s, ?_, hw⟩
      by_cases hp : p = o
      · subst hp; exact absurd (Or.inl ⟨s, hs, hw⟩) hm
      · rw [upd_other _ _ hp]; exact hs

theorem upd_self {σ : Type} (f : Nat → Option σ) (o : Nat) : upd f o (f o) = f := by
  funext p; unfold upd; split
  · rename_i h; rw [h]
  · rfl

/-- A write through a view. -/
theorem Rel.writeArrays (h : Rel owns OR m a) {r' : List (Block β)} {h' : Heap β}
    (hloc : ∀ (g g' : Nat → Option (Block β)) (r : List (Block β)) (s : σ) (v : Value E), (∀ b, owns s b → g' b = g b) → OR g r s v → OR g' r s v)
    (hmono : ∀ (g : Nat → Option (Block β)) (r r' : List (Block β)) (s : σ) (v : Value E), (∀ b n, LongEnough r b n → LongEnough r' b n) →
      OR g r s v → OR g r' s v)
    (hlen : r'.length = a.arrays.length) (hnext : h'.next = m.heap.next)
    (hb : ∀ b, b < a.arrays.length → h'.blocks b = r'[b]?)
    (hrest : ∀ b, a.arrays.length ≤ b → h'.blocks b = m.heap.blocks b)
    (hle : ∀ b n, LongEnough a.arrays b n → LongEnough r' b n) : Rel owns OR ⟨h', m.objs⟩ ⟨r', a.objs⟩ := by
  refine ⟨?_, ?_, ?_, ?_, h.apart, ?_, ?_⟩
  · intro b hlt; exact hb b (by dsimp only at hlt; omega)
  · dsimp only; rw [hlen, hnext]; exact h.below
  · intro b hlt
    dsimp only at hlt ⊢
    rw [hnext] at hlt
    rw [hrest b (Nat.le_trans h.below hlt)]
    exact h.fresh b hlt
  · intro p
    dsimp only
    have := h.obj p
    cases hm : m.objs p with
    | none => rw [hm] at this; cases hv : a.objs p with
      | none => exact Option.Rel.none
      | some v => rw [hv] at this; cases this
    | some s =>
      obtain ⟨v, hv, hr⟩ := h.get hm
      rw [hv]
      refine Option.Rel.some (hmono _ _ _ _ _ hle (hloc _ _ _ _ _ (fun b hb => ?_) hr))
      exact hrest b (h.live p s b hm hb).1
  · intro p s b hs hw
    dsimp only at hs ⊢
    rw [hlen, hrest b (h.live p s b hs hw).1]
    exact h.live p s b hs hw
  · intro b hlt hne
    dsimp only at hlt hne ⊢
    rw [hlen] at hlt
    rw [hrest b hlt] at hne
    exact h.leak b hlt hne

/-! ## Memory -/

theorem alloc_next (h : Heap β) (n : Nat) : (h.alloc n).1.next = h.next + 1 := rfl
theorem alloc_same (h : Heap β) (n : Nat) : (h.alloc n).1.blocks h.next = some (List.replicate n none) := by simp [Heap.alloc]
theorem alloc_other {h : Heap β} (n : Nat) {b : Nat} (hb : b ≠ h.next) : (h.alloc n).1.blocks b = h.blocks b := by simp [Heap.alloc, hb]

theorem free_ok {h : Heap β} {b : Nat} {l : Block β} (hb : h.blocks b = some l) :
    ∃ h', h.free (some b) = some h' ∧ h'.next = h.next ∧ h'.blocks b = none ∧ ∀ c, c ≠ b → h'.blocks c = h.blocks c := by
  refine ⟨⟨fun c => if c = b then none else h.blocks c, h.next⟩, by simp only [Heap.free, hb], rfl, by simp, fun c hc => by simp [hc]⟩

theorem write_ok {h : Heap β} {b i : Nat} {l : Block β} {v : β} (hb : h.blocks b = some l) (hi : i < l.length) :
    ∃ h', h.write (some b) i v = some h' ∧ h'.next = h.next ∧ h'.blocks b = some (l.set i (some v)) ∧
      ∀ c, c ≠ b → h'.blocks c = h.blocks c := by
  refine ⟨⟨fun c => if c = b then some (l.set i (some v)) else h.blocks c, h.next⟩, ?_, rfl, by simp, fun c hc => by simp [hc]⟩
  simp only [Heap.write, Option.bind_some, hb, if_pos hi]

theorem read_ok {h : Heap β} {b i : Nat} {l : Block β} {c : Option β} (hb : h.blocks b = some l) (hi : l[i]? = some c) :
    h.read (some b) i = some c := by
  simp only [Heap.read, Option.bind_some, hb, hi]

theorem copyN_ok {h : Heap β} {s d n : Nat} {ls ld : Block β} (hs : h.blocks s = some ls) (hd : h.blocks d = some ld)
    (h1 : n ≤ ls.length) (h2 : n ≤ ld.length) :
    ∃ h', h.copyN (some s) (some d) n = some h' ∧ h'.next = h.next ∧ h'.blocks d = some (ls.take n ++ ld.drop n) ∧
      ∀ c, c ≠ d → h'.blocks c = h.blocks c := by
  by_cases hn : n = 0
  · refine ⟨h, by simp [Heap.copyN, hn], rfl, by simp [hn, hd], fun c _ => rfl⟩
  · refine ⟨⟨fun c => if c = d then some (ls.take n ++ ld.drop n) else h.blocks c, h.next⟩, ?_, rfl, by simp, fun c hc => by simp [hc]⟩
    simp only [Heap.copyN, hn, if_false, Option.bind_some, hs, hd, if_pos (And.intro h1 h2)]

theorem copyN_zero (h : Heap β) (p q : Option Nat) : h.copyN p q 0 = some h := by simp [Heap.copyN]

theorem longEnough_setCell {r : List (Block β)} {b i : Nat} {v : β} {c n : Nat} (h : LongEnough r c n) : LongEnough (setCell r b i v) c n := by
  obtain ⟨l, hl, hn⟩ := h
  unfold setCell
  cases hb : r[b]? with
  | none => exact ⟨l, hl, hn⟩
  | some l' =>
    dsimp only
    by_cases hc : b = c
    · subst hc
      rw [hb] at hl
      cases hl
      have hlt : b < r.length := by
        by_contra hge
        rw [List.getElem?_eq_none (by omega)] at hb
        cases hb
      exact ⟨_, by rw [List.getElem?_set_self hlt], by simpa using hn⟩
    · exact ⟨l, by rw [List.getElem?_set_ne hc]; exact hl, hn⟩

theorem setCell_length (r : List (Block β)) (b i : Nat) (v : β) : (setCell r b i v).length = r.length := by
  unfold setCell; cases r[b]? <;> simp

/-- A write into an array of the program. -/
theorem write_array {h : Heap β} {r : List (Block β)} {b i n : Nat} {v : β} (hr : ∀ c, c < r.length → h.blocks c = r[c]?)
    (hl : LongEnough r b n) (hi : i < n) :
    ∃ h', h.write (some b) i v = some h' ∧ h'.next = h.next ∧ (∀ c, c < r.length → h'.blocks c = (setCell r b i v)[c]?) ∧
      ∀ c, r.length ≤ c → h'.blocks c = h.blocks c := by
  obtain ⟨l, hb, hn⟩ := hl
  have hlt : b < r.length := by
    by_contra hge
    rw [List.getElem?_eq_none (by omega)] at hb
    cases hb
  obtain ⟨h', e1, e2, e3, e4⟩ := write_ok (h := h) (v := v) (by rw [hr b hlt]; exact hb) (show i < l.length by omega)
  refine ⟨h', e1, e2, ?_, ?_⟩
  · intro c hc
    unfold setCell
    rw [hb]
    dsimp only
    by_cases hcb : c = b
    · subst hcb; rw [e3, List.getElem?_set_self hlt]
    · rw [e4 c hcb, List.getElem?_set_ne (Ne.symm hcb)]; exact hr c hc
  · intro c hc; exact e4 c (by omega)

theorem read_array {h : Heap β} {r : List (Block β)} {b i n : Nat} (hr : ∀ c, c < r.length → h.blocks c = r[c]?)
    (hl : LongEnough r b n) (hi : i < n) : h.read (some b) i = some (cell r b i) := by
  obtain ⟨l, hb, hn⟩ := hl
  have hlt : b < r.length := by
    by_contra hge
    rw [List.getElem?_eq_none (by omega)] at hb
    cases hb
  rw [read_ok (by rw [hr b hlt]; exact hb) (List.getElem?_eq_getElem (by omega))]
  unfold cell
  rw [hb, Option.bind_some, List.getElem?_eq_getElem (by omega)]
  rfl

/-! ## Runs -/

/-- If single steps keep a relation and outputs agree, runs do. -/
theorem run_rel {μ ν π ο ο' : Type} {step : μ → π → Option (μ × Option ο)} {spec : ν → π → Option (ν × Option ο')}
    {R : μ → ν → Prop} {A : ο' → ο → Prop}
    (hstep : ∀ m a op a' e, R m a → spec a op = some (a', e) → ∃ m' c, step m op = some (m', c) ∧ R m' a' ∧ Option.Rel A e c)
    (l : List π) (m : μ) (a a' : ν) (out : List ο') (h : R m a) (hr : runWith spec a l = some (a', out)) :
    ∃ m' out', runWith step m l = some (m', out') ∧ R m' a' ∧ List.Forall₂ A out out' := by
  induction l generalizing m a a' out with
  | nil =>
    simp only [runWith, Option.some.injEq, Prod.mk.injEq] at hr
    obtain ⟨rfl, rfl⟩ := hr
    exact ⟨m, [], rfl, h, List.Forall₂.nil⟩
  | cons op l ih =>
    simp only [runWith, Option.bind_eq_bind, Option.bind_eq_some_iff, Option.some.injEq, Prod.mk.injEq] at hr
    obtain ⟨⟨a1, e⟩, h1, ⟨a2, out2⟩, h2, rfl, rfl⟩ := hr
    obtain ⟨m1, c, e1, r1, o1⟩ := hstep m a op a1 e h h1
    obtain ⟨m2, out', e2, r2, o2⟩ := ih m1 a1 a2 out2 r1 h2
    refine ⟨m2, c.toList ++ out', ?_, r2, ?_⟩
    · simp only [runWith, e1, Option.bind_eq_bind, Option.bind_some, e2]
    · cases o1 with
      | none => simpa using o2
      | some ho => exact List.Forall₂.cons ho o2

end Container
end VecGeom
