import Verif.Container.SoaProps

/-!
# C72: programs with `AOS3D`
-/

namespace VecGeom
namespace Container

variable {α : Type}

/-- The block that an object has to free. -/
def Aos.Owns (s : Aos) (b : Nat) : Prop := s.allocated = true ∧ s.content = some b

/-- The block of an object and its elements. -/
def Aos.Holds (g : Nat → Option (Block (α × α × α))) (s : Aos) (c : Nat) (l : List (Option (α × α × α))) (x : Nat) : Prop :=
  s.content = some x ∧ ∃ bx : Block (α × α × α), g x = some bx ∧ bx.length = c ∧
    ∀ (i : Nat) e, l[i]? = some e → ∃ u, bx[i]? = some u ∧ Agrees e u

/-- An object and its value. -/
def Aos.Is (g : Nat → Option (Block (α × α × α))) (r : List (Block (α × α × α))) (s : Aos) : Value (Option (α × α × α)) → Prop
  | .own c l => s.size = l.length ∧ s.capacity = c ∧ l.length ≤ c ∧
      ((s.allocated = false ∧ c = 0) ∨ (s.allocated = true ∧ c ≠ 0 ∧ ∃ x, s.Holds g c l x))
  | .view w n c => s = ⟨false, n, c, some w.1⟩ ∧ n ≤ c ∧ (aosLayout α).fits r w c

theorem Aos.Is.congr (g g' : Nat → Option (Block (α × α × α))) (r : List (Block (α × α × α))) (s : Aos) (v : Value (Option (α × α × α)))
    (hg : ∀ b, s.Owns b → g' b = g b) (h : s.Is g r v) : s.Is g' r v := by
  cases v with
  | view w n c => exact h
  | own c l =>
    obtain ⟨h1, h2, h3, h4⟩ := h
    refine ⟨h1, h2, h3, ?_⟩
    rcases h4 with h4 | ⟨ha, hc, x, ex, bx, g1, rest⟩
    · exact Or.inl h4
    · exact Or.inr ⟨ha, hc, x, ex, bx, by rw [hg x ⟨ha, ex⟩]; exact g1, rest⟩

theorem Aos.Is.mono (g : Nat → Option (Block (α × α × α))) (r r' : List (Block (α × α × α))) (s : Aos) (v : Value (Option (α × α × α)))
    (hr : ∀ b n, LongEnough r b n → LongEnough r' b n) (h : s.Is g r v) : s.Is g r' v := by
  cases v with
  | own c l => exact h
  | view w n c => exact ⟨h.1, h.2.1, hr _ _ h.2.2⟩

/-- The relation between machine and specification. -/
abbrev AosRel (m : Machine (α × α × α) Aos) (a : Abs (α × α × α) (Option (α × α × α))) : Prop := Rel Aos.Owns Aos.Is m a

theorem Aos.deallocate_ok {h : Heap (α × α × α)} {r : List (Block (α × α × α))} {s : Aos} {v : Value (Option (α × α × α))}
    (hs : s.Is h.blocks r v) :
    ∃ h', (∀ n c, Aos.deallocate h { s with size := n, capacity := c } = some h') ∧
      h'.next = h.next ∧ (∀ b, s.Owns b → h'.blocks b = none) ∧ ∀ b, ¬ s.Owns b → h'.blocks b = h.blocks b := by
  have key : (s.allocated = false) ∨ (s.allocated = true ∧ ∃ x l, s.content = some x ∧ h.blocks x = some l) := by
    cases v with
    | view w n c => left; rw [hs.1]
    | own c l =>
      obtain ⟨-, -, -, h4⟩ := hs
      rcases h4 with h4 | ⟨ha, -, x, ex, bx, g1, -⟩
      · exact Or.inl h4.1
      · exact Or.inr ⟨ha, x, bx, ex, g1⟩
  rcases key with ha | ⟨ha, x, l, ex, g1⟩
  · refine ⟨h, fun n c => by simp [Aos.deallocate, ha], rfl, fun b hb => ?_, fun b _ => rfl⟩
    rw [hb.1] at ha; cases ha
  · obtain ⟨h1, a1, b1, c1, e1⟩ := free_ok g1
    refine ⟨h1, fun n c => by simp only [Aos.deallocate, ha, if_true, ex, a1], b1, ?_, ?_⟩
    · rintro b ⟨-, hb⟩
      rw [ex] at hb; cases hb; exact c1
    · intro b hb
      exact e1 b fun hc => hb ⟨ha, by rw [ex, hc]⟩

/-- A new value of an object, all of whose blocks are new. -/
theorem AosRel.replace {m : Machine (α × α × α) Aos} {a : Abs (α × α × α) (Option (α × α × α))} (h : AosRel m a) {o : Nat}
    {h' : Heap (α × α × α)} {s : Aos} {v : Value (Option (α × α × α))} (hnext : m.heap.next ≤ h'.next)
    (hf : ∀ b, b < m.heap.next → (∀ t, m.objs o = some t → ¬ t.Owns b) → h'.blocks b = m.heap.blocks b)
    (hgone : ∀ b t, m.objs o = some t → t.Owns b → h'.blocks b = none)
    (htop : ∀ b, h'.next ≤ b → h'.blocks b = none) (hown : ∀ b, s.Owns b ↔ m.heap.next ≤ b ∧ h'.blocks b ≠ none)
    (hr : s.Is h'.blocks a.arrays v) : AosRel ⟨h', upd m.objs o (some s)⟩ { a with objs := upd a.objs o (some v) } := by
  refine h.update Aos.Is.congr o h' (some s) (some v) hnext ?_ htop (Option.Rel.some hr) ?_ ?_
  · intro b hb
    have hlt : b < m.heap.next := by by_contra hc; exact hb (Or.inr (by omega))
    exact hf b hlt fun t ht hw => hb (Or.inl ⟨t, ht, hw⟩)
  · rintro t b ⟨rfl⟩ hb
    have := (hown b).mp hb
    exact ⟨this.2, Or.inr this.1⟩
  · rintro b hb (⟨t, ht, hw⟩ | hge)
    · exact absurd (hgone b t ht hw) hb
    · exact ⟨s, rfl, (hown b).mpr ⟨hge, hb⟩⟩

/-- A change of an object that keeps its block. -/
theorem AosRel.inplace {m : Machine (α × α × α) Aos} {a : Abs (α × α × α) (Option (α × α × α))} (h : AosRel m a) {o : Nat}
    {h' : Heap (α × α × α)} {t s : Aos} {v : Value (Option (α × α × α))} (ho : m.objs o = some t) (hown : ∀ b, s.Owns b ↔ t.Owns b)
    (hnext : h'.next = m.heap.next)
    (hf : ∀ b, ¬ t.Owns b → h'.blocks b = m.heap.blocks b) (hlive : ∀ b, t.Owns b → h'.blocks b ≠ none)
    (hr : s.Is h'.blocks a.arrays v) : AosRel ⟨h', upd m.objs o (some s)⟩ { a with objs := upd a.objs o (some v) } := by
  have htop : ∀ b, m.heap.next ≤ b → h'.blocks b = none := by
    intro b hb
    rw [hf b (fun hw => (h.live o t b ho hw).2 (h.fresh b hb))]
    exact h.fresh b hb
  refine h.update Aos.Is.congr o h' (some s) (some v) (by omega) ?_ (by rw [hnext]; exact htop) (Option.Rel.some hr) ?_ ?_
  · intro b hb; exact hf b fun hw => hb (Or.inl ⟨t, ho, hw⟩)
  · rintro u b ⟨rfl⟩ hb
    have := (hown b).mp hb
    exact ⟨hlive b this, Or.inl ⟨t, ho, this⟩⟩
  · rintro b hb (⟨u, hu, hw⟩ | hge)
    · rw [ho] at hu; cases hu; exact ⟨s, rfl, (hown b).mpr hw⟩
    · exact absurd (htop b hge) hb

theorem aos_live {m : Machine (α × α × α) Aos} {a : Abs (α × α × α) (Option (α × α × α))} (h : AosRel m a) {o : Nat} {t : Aos}
    (ho : m.objs o = some t) (b : Nat) (hb : t.Owns b) : m.heap.blocks b ≠ none := (h.live o t b ho hb).2

theorem agrees_refl {γ : Type} (e : Option γ) : Agrees e e := fun _ h => h
theorem agrees_unknown {γ : Type} (e : Option γ) : Agrees none e := fun _ h => (Option.some_ne_none _ h.symm).elim

theorem free_top {h h1 : Heap (α × α × α)} {t : Aos} (hf : ∀ b, h.next ≤ b → h.blocks b = none) (d1 : h1.next = h.next)
    (d2 : ∀ b, t.Owns b → h1.blocks b = none) (d3 : ∀ b, ¬ t.Owns b → h1.blocks b = h.blocks b) (b : Nat) (hb : h1.next ≤ b) :
    h1.blocks b = none := by
  by_cases hw : t.Owns b
  · exact d2 b hw
  · rw [d3 b hw]; exact hf b (by omega)

/-- `assign`, after the memory of the object has been freed. -/
theorem Aos.assign_ok {h h1 : Heap (α × α × α)} {t s : Aos} {r : List (Block (α × α × α))} {v : Value (Option (α × α × α))}
    (hd : Aos.deallocate h t = some h1) (hf : ∀ b, h1.next ≤ b → h1.blocks b = none) (hr : s.Is h1.blocks r v) :
    ∃ q, Aos.assign h t s = some q ∧ h1.next ≤ q.1.next ∧ (∀ b, b < h1.next → q.1.blocks b = h1.blocks b) ∧
      (∀ b, q.1.next ≤ b → q.1.blocks b = none) ∧ (∀ b, q.2.Owns b ↔ h1.next ≤ b ∧ q.1.blocks b ≠ none) ∧ q.2.Is q.1.blocks r v := by
  have nothing : ∀ q : Aos, q.allocated = false → ∀ b, q.Owns b ↔ h1.next ≤ b ∧ h1.blocks b ≠ none := by
    intro q hq b
    constructor
    · rintro ⟨hb, -⟩; rw [hq] at hb; cases hb
    · rintro ⟨hb, hc⟩; exact absurd (hf b hb) hc
  by_cases ha : s.allocated = true
  · cases v with
    | view w n c => rw [hr.1] at ha; cases ha
    | own c l =>
      obtain ⟨i1, i2, i3, i4⟩ := hr
      rcases i4 with i4 | ⟨-, hc, x, ex, bx, g1, l1, hl⟩
      · rw [i4.1] at ha; cases ha
      have xl : x < h1.next := by
        by_contra hge
        rw [hf x (by omega)] at g1; cases g1
      have hcap : s.capacity > 0 := by omega
      obtain ⟨k, k0, k1, k2, k3⟩ := copyN_ok (h := (h1.alloc s.capacity).1) (s := x) (d := h1.next) (n := s.size) (ls := bx)
        (by rw [alloc_other _ (by omega)]; exact g1) (alloc_same _ _) (by omega) (by simp; omega)
      refine ⟨(k, ⟨true, s.size, s.capacity, some h1.next⟩), ?_, ?_, ?_, ?_, ?_, ?_⟩
      · simp only [Aos.assign, Aos.clear, hd, Option.bind_eq_bind, Option.bind_some, ha, if_true, Aos.reserve, if_pos hcap]
        simp only [Nat.not_lt_zero, gt_iff_lt, if_false, and_false, Option.bind_some, Aos.deallocate]
        simp only [Bool.false_eq_true, if_false, Option.bind_some]
        rw [ex, show (h1.alloc s.capacity).2 = some h1.next from rfl, k0]
        rfl
      · show h1.next ≤ k.next
        rw [k1, alloc_next]; omega
      · intro b hb
        show k.blocks b = _
        rw [k3 b (by omega), alloc_other _ (by omega)]
      · intro b hb
        have hb : k.next ≤ b := hb
        show k.blocks b = _
        rw [k1, alloc_next] at hb
        rw [k3 b (by omega), alloc_other _ (by omega)]
        exact hf b (by omega)
      · intro b
        constructor
        · rintro ⟨-, hb⟩
          cases hb
          exact ⟨Nat.le_refl _, by show k.blocks _ ≠ none; rw [k2]; simp⟩
        · rintro ⟨hb, hne⟩
          refine ⟨rfl, ?_⟩
          by_cases hbe : b = h1.next
          · rw [hbe]
          · refine absurd ?_ hne
            show k.blocks b = none
            rw [k3 b hbe, alloc_other _ hbe]
            exact hf b hb
      · refine ⟨i1, i2, i3, Or.inr ⟨rfl, hc, h1.next, rfl, _, k2, by simp; omega, ?_⟩⟩
        intro i e he
        obtain ⟨u, hu, hag⟩ := hl i e he
        have := lt_of_getElem? he
        have := lt_of_getElem? hu
        refine ⟨u, ?_, hag⟩
        rw [List.getElem?_append_left (by rw [List.length_take]; omega), List.getElem?_take, if_pos (by omega)]
        exact hu
  · have ha : s.allocated = false := by simpa using ha
    refine ⟨(h1, ⟨false, s.size, s.capacity, s.content⟩), ?_, Nat.le_refl _, fun _ _ => rfl, hf, nothing _ rfl, ?_⟩
    · simp only [Aos.assign, Aos.clear, hd, Option.bind_eq_bind, Option.bind_some, ha]
      rfl
    · cases v with
      | view w n c => obtain ⟨e, hw⟩ := hr; subst e; exact ⟨rfl, hw⟩
      | own c l =>
        obtain ⟨i1, i2, i3, i4⟩ := hr
        refine ⟨i1, i2, i3, Or.inl ⟨rfl, ?_⟩⟩
        rcases i4 with i4 | ⟨i4, -⟩
        · exact i4.2
        · rw [ha] at i4; cases i4

theorem aos_copy {m : Machine (α × α × α) Aos} {a : Abs (α × α × α) (Option (α × α × α))} (h : AosRel m a) {o : Nat} {s : Aos}
    {v : Value (Option (α × α × α))} (ho : m.objs o = none) (hr : s.Is m.heap.blocks a.arrays v) :
    ∃ r, Aos.copyOf m.heap s = some r ∧ AosRel ⟨r.1, upd m.objs o (some r.2)⟩ { a with objs := upd a.objs o (some v) } := by
  have hno : ∀ t, m.objs o = some t → False := by intro t ht; rw [ho] at ht; cases ht
  obtain ⟨q, q0, q1, q2, q3, q4, q5⟩ := Aos.assign_ok (h := m.heap) (h1 := m.heap) (t := { size := s.size, capacity := s.capacity })
    (by simp [Aos.deallocate]) h.fresh hr
  exact ⟨q, q0, h.replace q1 (fun b hb _ => q2 b hb) (fun b t ht => (hno t ht).elim) q3 q4 q5⟩

theorem aos_assign {m : Machine (α × α × α) Aos} {a : Abs (α × α × α) (Option (α × α × α))} (h : AosRel m a) {o p : Nat} {s t : Aos}
    {v : Value (Option (α × α × α))} (hop : o ≠ p) (ho : m.objs o = some t) (hs : m.objs p = some s) (hr : s.Is m.heap.blocks a.arrays v) :
    ∃ r, Aos.assign m.heap t s = some r ∧ AosRel ⟨r.1, upd m.objs o (some r.2)⟩ { a with objs := upd a.objs o (some v) } := by
  obtain ⟨vt, -, hrt⟩ := h.get ho
  obtain ⟨h1, d0, d1, d2, d3⟩ := Aos.deallocate_ok hrt
  have hr1 : s.Is h1.blocks a.arrays v := by
    refine Aos.Is.congr _ _ _ _ _ (fun b hb => d3 b fun hc => ?_) hr
    exact hop (h.apart o p t s b ho hs hc hb)
  obtain ⟨q, q0, q1, q2, q3, q4, q5⟩ := Aos.assign_ok (h := m.heap) (h1 := h1) (t := t) (d0 t.size t.capacity)
    (free_top h.fresh d1 d2 d3) hr1
  rw [d1] at q1 q2 q4
  refine ⟨q, q0, h.replace q1 ?_ ?_ q3 q4 q5⟩
  · intro b hb hw
    rw [q2 b hb]; exact d3 b (hw t ho)
  · intro b u hu hw
    rw [ho] at hu; cases hu
    have hlt : b < m.heap.next := by
      by_contra hge
      exact (h.live o t b ho hw).2 (h.fresh b (by omega))
    rw [q2 b hlt]; exact d2 b hw

theorem aos_destroy {m : Machine (α × α × α) Aos} {a : Abs (α × α × α) (Option (α × α × α))} (h : AosRel m a) {o : Nat} {t : Aos}
    (ho : m.objs o = some t) :
    ∃ h', Aos.destroy m.heap t = some h' ∧ AosRel ⟨h', upd m.objs o none⟩ { a with objs := upd a.objs o none } := by
  obtain ⟨vt, -, hrt⟩ := h.get ho
  obtain ⟨h1, d0, d1, d2, d3⟩ := Aos.deallocate_ok hrt
  refine ⟨h1, d0 t.size t.capacity, ?_⟩
  have hfr := free_top h.fresh d1 d2 d3
  refine h.update Aos.Is.congr o h1 none none (by omega) ?_ hfr Option.Rel.none ?_ ?_
  · intro b hb; exact d3 b fun hw => hb (Or.inl ⟨t, ho, hw⟩)
  · intro s b hs; cases hs
  · rintro b hb (⟨u, hu, hw⟩ | hge)
    · rw [ho] at hu; cases hu; exact absurd (d2 b hw) hb
    · exact absurd (hfr b (by omega)) hb

theorem aos_clear {m : Machine (α × α × α) Aos} {a : Abs (α × α × α) (Option (α × α × α))} (h : AosRel m a) {o : Nat} {t : Aos}
    (ho : m.objs o = some t) :
    ∃ r, Aos.clear m.heap t = some r ∧ AosRel ⟨r.1, upd m.objs o (some r.2)⟩ { a with objs := upd a.objs o (some (.own 0 [])) } := by
  obtain ⟨vt, -, hrt⟩ := h.get ho
  obtain ⟨h1, d0, d1, d2, d3⟩ := Aos.deallocate_ok hrt
  have hfr := free_top h.fresh d1 d2 d3
  refine ⟨(h1, {}), ?_, h.replace (by dsimp only; omega) ?_ ?_ hfr ?_ ⟨rfl, rfl, Nat.le_refl _, Or.inl ⟨rfl, rfl⟩⟩⟩
  · have := d0 t.size t.capacity
    simp only [Aos.clear, Option.bind_eq_bind]
    rw [show Aos.deallocate m.heap t = some h1 from this]; rfl
  · intro b _ hw; exact d3 b (hw t ho)
  · intro b u hu hw; rw [ho] at hu; cases hu; exact d2 b hw
  · intro b
    constructor
    · rintro ⟨hb, -⟩; cases hb
    · rintro ⟨hb, hc⟩; exact absurd (hfr b (by omega)) hc

/-- The elements that an object shows, for the copy in `reserve`. -/
theorem aos_source {h : Heap (α × α × α)} {r : List (Block (α × α × α))} (harr : ∀ b, b < r.length → h.blocks b = r[b]?) {s : Aos}
    {v : Value (Option (α × α × α))} (hr : s.Is h.blocks r v) (hne : s.size ≠ 0) :
    ∃ x bx, s.content = some x ∧ h.blocks x = some bx ∧ s.size ≤ bx.length ∧
      ∀ (i : Nat) e, (match v with
        | .own _ l => l[i]?
        | .view w n _ => if i < n then some ((aosLayout α).read r w i) else none) = some e →
        ∃ u, bx[i]? = some u ∧ Agrees e u := by
  cases v with
  | own c l =>
    obtain ⟨h1, h2, h3, h4⟩ := hr
    rcases h4 with h4 | ⟨-, -, x, ex, bx, g1, l1, hl⟩
    · omega
    · exact ⟨x, bx, ex, g1, by omega, hl⟩
  | view w n c =>
    obtain ⟨e, hn, lx, ex, nx⟩ := hr
    subst e
    refine ⟨w.1, lx, rfl, ?_, by dsimp only; omega, ?_⟩
    · rw [harr _ (lt_of_getElem? ex)]; exact ex
    · intro i e he
      dsimp only at he
      by_cases hi : i < n
      · rw [if_pos hi] at he
        cases he
        refine ⟨_, List.getElem?_eq_getElem (by omega), ?_⟩
        have c1 : cell r w.1 i = lx[i] := by
          unfold cell; rw [ex, Option.bind_some, List.getElem?_eq_getElem (by omega)]; rfl
        show Agrees (cell r w.1 i) _
        rw [c1]
        exact agrees_refl _
      · rw [if_neg hi] at he; cases he

/-- What `reserve` is to make of a value. -/
def aosReserved (r : List (Block (α × α × α))) (n : Nat) : Value (Option (α × α × α)) → List (Option (α × α × α))
  | .own _ l => l.take n
  | .view w s _ => (List.range (min s n)).map ((aosLayout α).read r w)

/-- `reserve` makes one new block and frees the old one. -/
theorem Aos.reserve_ok {h : Heap (α × α × α)} {r : List (Block (α × α × α))} (hf : ∀ b, h.next ≤ b → h.blocks b = none) {s : Aos} {n : Nat}
    (hsrc : s.size = 0 ∨ ∃ x bx, s.content = some x ∧ h.blocks x = some bx ∧ s.size ≤ bx.length)
    (hown : s.allocated = true → ∃ x bx, s.content = some x ∧ h.blocks x = some bx) :
    ∃ q, Aos.reserve h s n = some q ∧ h.next ≤ q.1.next ∧ (∀ b, b < h.next → ¬ s.Owns b → q.1.blocks b = h.blocks b) ∧
      (∀ b, s.Owns b → q.1.blocks b = none) ∧ (∀ b, q.1.next ≤ b → q.1.blocks b = none) ∧
      (∀ b, q.2.Owns b ↔ h.next ≤ b ∧ q.1.blocks b ≠ none) ∧ q.2.size = min s.size n ∧ q.2.capacity = n ∧
      ((n = 0 ∧ q.2.allocated = false) ∨ (n ≠ 0 ∧ q.2.allocated = true ∧ q.2.content = some h.next ∧
        ∃ b : Block (α × α × α), q.1.blocks h.next = some b ∧ b.length = n ∧
          ∀ x bx (i : Nat), s.content = some x → h.blocks x = some bx → i < min s.size n → b[i]? = bx[i]?)) := by
  have hk : (if s.size > n then n else s.size) = min s.size n := by split <;> omega
  have lt : ∀ x bx, h.blocks x = some bx → x < h.next := by
    intro x bx hx
    by_contra hge
    rw [hf x (by omega)] at hx; cases hx
  -- freeing, from a heap that still has the old block
  have hfree : ∀ k : Heap (α × α × α), (∀ b, b < h.next → k.blocks b = h.blocks b) → ∃ k', (∀ m c, Aos.deallocate k { s with size := m, capacity := c } = some k') ∧
      k'.next = k.next ∧ (∀ b, s.Owns b → k'.blocks b = none) ∧ ∀ b, ¬ s.Owns b → k'.blocks b = k.blocks b := by
    intro k hkb
    by_cases ha : s.allocated = true
    · obtain ⟨x, bx, ex, g1⟩ := hown ha
      obtain ⟨k1, a1, b1, c1, e1⟩ := free_ok (h := k) (b := x) (l := bx) (by rw [hkb x (lt x bx g1)]; exact g1)
      refine ⟨k1, fun m c => by simp only [Aos.deallocate, ha, if_true, ex, a1], b1, ?_, ?_⟩
      · rintro b ⟨-, hb⟩
        rw [ex] at hb; cases hb; exact c1
      · intro b hb
        exact e1 b fun hc => hb ⟨ha, by rw [ex, hc]⟩
    · have ha : s.allocated = false := by simpa using ha
      refine ⟨k, fun m c => by simp [Aos.deallocate, ha], rfl, fun b hb => ?_, fun b _ => rfl⟩
      rw [hb.1] at ha; cases ha
  have howns : ∀ b, s.Owns b → b < h.next := by
    rintro b ⟨ha, hb⟩
    obtain ⟨x, bx, ex, g1⟩ := hown ha
    rw [ex] at hb; cases hb; exact lt _ _ g1
  by_cases hn : n = 0
  · subst hn
    obtain ⟨k, d0, d1, d2, d3⟩ := hfree h (fun _ _ => rfl)
    have htop : ∀ b, h.next ≤ b → k.blocks b = none := by
      intro b hb
      rw [d3 b (fun hw => by have := howns b hw; omega)]; exact hf b hb
    refine ⟨(k, ⟨false, min s.size 0, 0, none⟩), ?_, by dsimp only; omega, fun b _ hw => d3 b hw, d2, fun b hb => htop b (by rw [d1] at hb; exact hb), ?_,
      rfl, rfl, Or.inl ⟨rfl, rfl⟩⟩
    · simp only [Aos.reserve, hk, Option.bind_eq_bind]
      rw [if_neg (by omega), if_neg (by omega)]
      rw [Option.bind_some, d0]
      rfl
    · intro b
      constructor
      · rintro ⟨hb, -⟩; cases hb
      · rintro ⟨hb, hc⟩; exact absurd (htop b hb) hc
  · have hn0 : n > 0 := by omega
    have hcopy : ∃ k : Heap (α × α × α), (if s.content.isSome = true ∧ min s.size n > 0 then (h.alloc n).1.copyN s.content (h.alloc n).2 (min s.size n) else some (h.alloc n).1) = some k ∧
        k.next = h.next + 1 ∧ (∀ b, b ≠ h.next → k.blocks b = h.blocks b) ∧ ∃ b : Block (α × α × α), k.blocks h.next = some b ∧ b.length = n ∧
          ∀ x bx (i : Nat), s.content = some x → h.blocks x = some bx → i < min s.size n → b[i]? = bx[i]? := by
      by_cases hz : min s.size n > 0
      · rcases hsrc with h0 | ⟨x, bx, ex, g1, l1⟩
        · omega
        · have := lt x bx g1
          obtain ⟨k, k0, k1, k2, k3⟩ := copyN_ok (h := (h.alloc n).1) (s := x) (d := h.next) (n := min s.size n) (ls := bx)
            (by rw [alloc_other _ (by omega)]; exact g1) (alloc_same _ _) (by omega) (by simp; omega)
          refine ⟨k, ?_, by rw [k1, alloc_next], fun b hb => by rw [k3 b hb, alloc_other _ hb], _, k2, by simp; omega, ?_⟩
          · rw [ex, if_pos ⟨rfl, hz⟩]; exact k0
          · intro y by' i hy hby hi
            rw [ex] at hy; cases hy
            rw [g1] at hby; cases hby
            rw [List.getElem?_append_left (by rw [List.length_take]; omega), List.getElem?_take, if_pos hi]
      · refine ⟨(h.alloc n).1, by rw [if_neg (fun hc => hz hc.2)], rfl, fun b hb => alloc_other _ hb, _, alloc_same _ _, by simp, ?_⟩
        intro x bx i _ _ hi
        omega
    obtain ⟨k, k0, k1, k2, b0, k3, k4, k5⟩ := hcopy
    obtain ⟨k', d0, d1, d2, d3⟩ := hfree k (fun b hb => k2 b (by omega))
    have hnot : ¬ s.Owns h.next := fun hw => by have := howns _ hw; omega
    refine ⟨(k', ⟨true, min s.size n, n, some h.next⟩), ?_, by dsimp only; omega, ?_, d2, ?_, ?_, rfl, rfl, Or.inr ⟨hn, rfl, rfl, b0, ?_, k4, k5⟩⟩
    · simp only [Aos.reserve, hk, Option.bind_eq_bind]
      rw [if_pos hn0]
      by_cases hq : s.content.isSome = true ∧ min s.size n > 0
      · rw [if_pos hq] at k0 ⊢
        rw [k0, Option.bind_some, d0]
        rfl
      · rw [if_neg hq] at k0 ⊢
        cases k0
        rw [Option.bind_some, d0]
        rfl
    · intro b hb hw
      rw [d3 b hw, k2 b (by omega)]
    · intro b hb
      have hb : k'.next ≤ b := hb
      show k'.blocks b = none
      rw [d3 b (fun hw => by have := howns b hw; omega), k2 b (by omega)]
      exact hf b (by omega)
    · intro b
      constructor
      · rintro ⟨-, hb⟩
        cases hb
        exact ⟨Nat.le_refl _, by show k'.blocks _ ≠ none; rw [d3 _ hnot, k3]; simp⟩
      · rintro ⟨hb, hne⟩
        refine ⟨rfl, ?_⟩
        by_cases hbe : b = h.next
        · rw [hbe]
        · refine absurd ?_ hne
          show k'.blocks b = none
          rw [d3 b (fun hw => by have := howns b hw; omega), k2 b hbe]
          exact hf b hb
    · show k'.blocks _ = _
      rw [d3 _ hnot]; exact k3

theorem aos_reserve {m : Machine (α × α × α) Aos} {a : Abs (α × α × α) (Option (α × α × α))} (h : AosRel m a) {o n : Nat} {t : Aos}
    {v : Value (Option (α × α × α))} (ho : m.objs o = some t) (hr : t.Is m.heap.blocks a.arrays v) :
    ∃ r, Aos.reserve m.heap t n = some r ∧
      AosRel ⟨r.1, upd m.objs o (some r.2)⟩ { a with objs := upd a.objs o (some (.own n (aosReserved a.arrays n v))) } := by
  have hsize : (aosReserved a.arrays n v).length = min t.size n := by
    cases v with
    | own c l => simp [aosReserved, hr.1]; omega
    | view w s c => simp [aosReserved]; rw [hr.1]
  obtain ⟨q, q0, q1, q2, q3, q4, q5, q6, q7, q8⟩ := Aos.reserve_ok (r := a.arrays) h.fresh (s := t) (n := n)
    (by
      by_cases hz : t.size = 0
      · exact Or.inl hz
      · obtain ⟨x, bx, e1, e2, e3, -⟩ := aos_source h.arrays hr hz
        exact Or.inr ⟨x, bx, e1, e2, e3⟩)
    (by
      intro ha
      cases v with
      | view w s c => rw [hr.1] at ha; cases ha
      | own c l =>
        obtain ⟨-, -, -, h4⟩ := hr
        rcases h4 with h4 | ⟨-, -, x, ex, bx, g1, -⟩
        · rw [h4.1] at ha; cases ha
        · exact ⟨x, bx, ex, g1⟩)
  refine ⟨q, q0, h.replace q1 (fun b hb hw => q2 b hb (hw t ho)) (fun b u hu hw => by rw [ho] at hu; cases hu; exact q3 b hw) q4 q5 ?_⟩
  refine ⟨by rw [q6, hsize], q7, by rw [hsize]; omega, ?_⟩
  rcases q8 with ⟨rfl, q9⟩ | ⟨hn, q9, q10, b, q11, q12, q13⟩
  · exact Or.inl ⟨q9, rfl⟩
  · refine Or.inr ⟨q9, hn, _, q10, b, q11, q12, ?_⟩
    intro i e he
    have hi : i < min t.size n := by have := lt_of_getElem? he; omega
    obtain ⟨x, bx, e1, e2, e3, e4⟩ := aos_source h.arrays hr (by omega)
    obtain ⟨u, hu, hag⟩ : ∃ u, bx[i]? = some u ∧ Agrees e u := by
      apply e4 i e
      cases v with
      | own c l =>
        simp only [aosReserved] at he
        rw [List.getElem?_take, if_pos (by omega)] at he
        exact he
      | view w s c =>
        have h0 : t.size = s := by rw [hr.1]
        simp only [aosReserved] at he
        rw [List.getElem?_map, List.getElem?_range (by omega), Option.map_some] at he
        dsimp only
        rw [if_pos (by omega)]
        exact he
    exact ⟨u, by rw [q13 x bx i e1 e2 hi]; exact hu, hag⟩

theorem aos_sized {m : Machine (α × α × α) Aos} {a : Abs (α × α × α) (Option (α × α × α))} (h : AosRel m a) {o n : Nat} (ho : m.objs o = none) :
    ∃ r, Aos.ofSize m.heap n = some r ∧
      AosRel ⟨r.1, upd m.objs o (some r.2)⟩ { a with objs := upd a.objs o (some (.own n (List.replicate n none))) } := by
  have hno : ∀ t, m.objs o = some t → False := by intro t ht; rw [ho] at ht; cases ht
  by_cases hn : n = 0
  · subst hn
    refine ⟨(m.heap, {}), by simp [Aos.ofSize], h.replace (Nat.le_refl _) (fun _ _ _ => rfl) (fun b t ht => (hno t ht).elim) h.fresh ?_
      ⟨rfl, rfl, Nat.le_refl _, Or.inl ⟨rfl, rfl⟩⟩⟩
    intro b
    constructor
    · rintro ⟨hb, -⟩; cases hb
    · rintro ⟨hb, hc⟩; exact absurd (h.fresh b hb) hc
  · have hres : Aos.reserve m.heap { size := n, capacity := n } n = some ((m.heap.alloc n).1, ⟨true, n, n, some m.heap.next⟩) := by
      have hn0 : n > 0 := by omega
      simp only [Aos.reserve, Option.bind_eq_bind, Option.isSome_none, Bool.false_eq_true, false_and, if_false, if_pos hn0, Option.bind_some,
        Aos.deallocate, gt_iff_lt, Nat.lt_irrefl]
      rfl
    refine ⟨((m.heap.alloc n).1, ⟨true, n, n, some m.heap.next⟩), by simp only [Aos.ofSize]; rw [if_pos (by omega)]; exact hres,
      h.replace (by rw [alloc_next]; omega) (fun b hb _ => alloc_other _ (by omega)) (fun b t ht => (hno t ht).elim) ?_ ?_ ?_⟩
    · intro b hb
      rw [alloc_next] at hb
      rw [alloc_other _ (by omega)]
      exact h.fresh b (by omega)
    · intro b
      constructor
      · rintro ⟨-, hb⟩
        cases hb
        exact ⟨Nat.le_refl _, by rw [alloc_same]; simp⟩
      · rintro ⟨hb, hc⟩
        refine ⟨rfl, ?_⟩
        by_cases hbe : b = m.heap.next
        · rw [hbe]
        · refine absurd ?_ hc
          rw [alloc_other _ hbe]; exact h.fresh b hb
    · refine ⟨by simp, rfl, by simp, Or.inr ⟨rfl, hn, _, rfl, _, alloc_same _ _, by simp, ?_⟩⟩
      intro i e he
      rw [List.getElem?_replicate] at he
      by_cases hi : i < n
      · rw [if_pos hi] at he
        cases he
        exact ⟨none, by rw [List.getElem?_replicate, if_pos hi], agrees_unknown _⟩
      · rw [if_neg hi] at he; cases he

/-- The value after `resize`. -/
def aosResized (n : Nat) : Value (Option (α × α × α)) → Value (Option (α × α × α))
  | .own c l => .own c (l.take n ++ List.replicate (n - l.length) none)
  | .view w _ c => .view w n c

theorem aos_resize {m : Machine (α × α × α) Aos} {a : Abs (α × α × α) (Option (α × α × α))} (h : AosRel m a) {o n : Nat} {t : Aos}
    {v : Value (Option (α × α × α))} (ho : m.objs o = some t) (hr : t.Is m.heap.blocks a.arrays v) (hn : n ≤ v.capacity) :
    Aos.resize t n = some { t with size := n } ∧
    AosRel ⟨m.heap, upd m.objs o (some { t with size := n })⟩ { a with objs := upd a.objs o (some (aosResized n v)) } := by
  refine ⟨?_, h.inplace ho (fun _ => Iff.rfl) rfl (fun _ _ => rfl) (aos_live h ho) ?_⟩
  · cases v with
    | own c l => simp only [Aos.resize]; rw [if_pos (by rw [hr.2.1]; exact hn)]
    | view w s c => rw [hr.1]; simp only [Aos.resize]; rw [if_pos (by exact hn)]
  · cases v with
    | view w s c =>
      have e0 := hr.1
      have hfit := hr.2.2
      clear hr
      subst e0
      exact ⟨rfl, hn, hfit⟩
    | own c l =>
      obtain ⟨h1, h2, h3, h4⟩ := hr
      have hn : n ≤ c := hn
      refine ⟨by simp; omega, h2, by simp; omega, ?_⟩
      rcases h4 with h4 | ⟨ha, hc, x, ex, bx, g1, l1, hl⟩
      · exact Or.inl h4
      · refine Or.inr ⟨ha, hc, x, ex, bx, g1, l1, ?_⟩
        intro i e he
        have hlt := lt_of_getElem? he
        simp at hlt
        by_cases hi : i < l.length
        · have hin : i < n := by omega
          rw [List.getElem?_append_left (by rw [List.length_take]; omega), List.getElem?_take, if_pos hin] at he
          exact hl i e he
        · have hic : i < c := by omega
          rw [List.getElem?_append_right (by rw [List.length_take]; omega), List.getElem?_replicate] at he
          split at he
          · cases he
            exact ⟨_, List.getElem?_eq_getElem (by omega), agrees_unknown _⟩
          · cases he

/-- Writing an element of an object with own memory. -/
theorem aos_write_own {h : Heap (α × α × α)} {s : Aos} {c : Nat} {l : List (Option (α × α × α))} {x i : Nat} (hh : s.Holds h.blocks c l x)
    (hi : i < c) (e : α × α × α) (l' : List (Option (α × α × α)))
    (hl' : ∀ j, l'[j]? = some (some e) ∧ j = i ∨ (j ≠ i ∧ (l'[j]? = l[j]? ∨ l'[j]? = none)) ∨ l'[j]? = none) :
    ∃ h', h.write s.content i e = some h' ∧ h'.next = h.next ∧ (∀ b, b ≠ x → h'.blocks b = h.blocks b) ∧ h'.blocks x ≠ none ∧
      (∀ q : Aos, q.content = s.content → q.Holds h'.blocks c l' x) := by
  obtain ⟨ex, bx, g1, l1, hl⟩ := hh
  obtain ⟨k1, a1, n1, c1, e1⟩ := write_ok (v := e) g1 (show i < bx.length by omega)
  refine ⟨k1, by rw [ex]; exact a1, n1, e1, by rw [c1]; simp, ?_⟩
  intro q qx
  refine ⟨by rw [qx, ex], _, c1, by simpa using l1, ?_⟩
  intro j u hu
  rcases hl' j with ⟨hj, rfl⟩ | ⟨hj, hj2 | hj2⟩ | hj
  · rw [hj] at hu; cases hu
    exact ⟨some e, by rw [List.getElem?_set_self (by omega)], agrees_refl _⟩
  · rw [hj2] at hu
    obtain ⟨p, w1, w4⟩ := hl j u hu
    exact ⟨p, by rw [List.getElem?_set_ne (Ne.symm hj)]; exact w1, w4⟩
  · rw [hj2] at hu; cases hu
  · rw [hj] at hu; cases hu

/-- Writing an element through a view. -/
theorem aos_write_view {m : Machine (α × α × α) Aos} {a : Abs (α × α × α) (Option (α × α × α))} (h : AosRel m a) {w : Nat × Nat × Nat} {c i : Nat}
    (hw : (aosLayout α).fits a.arrays w c) (hi : i < c) (e : α × α × α) :
    ∃ h', m.heap.write (some w.1) i e = some h' ∧ AosRel ⟨h', m.objs⟩ ⟨(aosLayout α).write a.arrays w i e, a.objs⟩ := by
  obtain ⟨k1, a1, n1, c1, e1⟩ := write_array (v := e) h.arrays hw hi
  refine ⟨k1, a1, ?_⟩
  exact h.writeArrays Aos.Is.congr Aos.Is.mono (setCell_length a.arrays w.1 i e) n1 c1 e1 (fun b n hb => longEnough_setCell hb)

/-- One step: what the specification allows, the code does. -/
theorem aos_step (m : Machine (α × α × α) Aos) (a : Abs (α × α × α) (Option (α × α × α))) (op : Op α)
    (a' : Abs (α × α × α) (Option (α × α × α))) (e : Option (Option (α × α × α))) (h : AosRel m a)
    (hs : stepFine (aosLayout α) AosFine a op = some (a', e)) :
    ∃ m' c, stepAos m op = some (m', c) ∧ AosRel m' a' ∧ Option.Rel Agrees e c := by
  unfold stepFine at hs
  rw [Option.ite_none_right_eq_some] at hs
  obtain ⟨hfine, hs⟩ := hs
  have some_of : ∀ {o : Nat}, ¬ (a.objs o).isNone = true → ∃ vo, a.objs o = some vo := by
    intro o hn
    cases q : a.objs o with
    | none => rw [q] at hn; simp at hn
    | some vo => exact ⟨vo, rfl⟩
  have hnob : ∀ (s : Aos), s.allocated = false → ∀ b, s.Owns b ↔ m.heap.next ≤ b ∧ m.heap.blocks b ≠ none := by
    intro s hs b
    constructor
    · rintro ⟨hb, -⟩; rw [hs] at hb; cases hb
    · rintro ⟨hb, hc⟩; exact absurd (h.fresh b hb) hc
  cases op with
  | new o =>
    simp only [stepSpec, Option.ite_none_left_eq_some, Option.some.injEq, Prod.mk.injEq] at hs
    obtain ⟨hn, rfl, rfl⟩ := hs
    have ho : m.objs o = none := h.none (by simpa using hn)
    refine ⟨⟨m.heap, upd m.objs o (some {})⟩, none, by simp only [stepAos]; rw [ho]; rfl, ?_, Option.Rel.none⟩
    exact h.replace (Nat.le_refl _) (fun _ _ _ => rfl) (fun b t ht => by rw [ho] at ht; cases ht) h.fresh (hnob _ rfl)
      ⟨rfl, rfl, Nat.le_refl _, Or.inl ⟨rfl, rfl⟩⟩
  | sized o n =>
    simp only [stepSpec, Option.ite_none_left_eq_some, Option.some.injEq, Prod.mk.injEq] at hs
    obtain ⟨hn, rfl, rfl⟩ := hs
    have ho : m.objs o = none := h.none (by simpa using hn)
    obtain ⟨r, e1, e2⟩ := aos_sized (n := n) h ho
    exact ⟨_, _, by simp only [stepAos]; rw [ho]; simp [e1], e2, Option.Rel.none⟩
  | view o w n =>
    simp only [stepSpec, Option.ite_none_left_eq_some, Option.some.injEq, Prod.mk.injEq, not_or, not_not] at hs
    obtain ⟨⟨hn, hw⟩, rfl, rfl⟩ := hs
    have ho : m.objs o = none := h.none (by simpa using hn)
    refine ⟨⟨m.heap, upd m.objs o (some (Aos.ofArray w.1 n))⟩, none, by simp only [stepAos]; rw [ho]; rfl, ?_, Option.Rel.none⟩
    exact h.replace (Nat.le_refl _) (fun _ _ _ => rfl) (fun b t ht => by rw [ho] at ht; cases ht) h.fresh (hnob _ rfl)
      ⟨rfl, Nat.le_refl _, hw⟩
  | copy o p =>
    simp only [stepSpec, Option.ite_none_left_eq_some, Option.map_eq_some_iff, Prod.mk.injEq] at hs
    obtain ⟨hn, v, hv, rfl, rfl⟩ := hs
    have ho : m.objs o = none := h.none (by simpa using hn)
    obtain ⟨s, hs, hr⟩ := h.get' hv
    obtain ⟨r, e1, e2⟩ := aos_copy h ho hr
    exact ⟨_, _, by simp only [stepAos]; rw [ho, hs]; simp [e1], e2, Option.Rel.none⟩
  | assign o p =>
    simp only [stepSpec, Option.ite_none_left_eq_some, Option.map_eq_some_iff, Prod.mk.injEq] at hs
    obtain ⟨hn, v, hv, rfl, rfl⟩ := hs
    have hop : o ≠ p := hfine
    obtain ⟨vo, hvo⟩ := some_of hn
    obtain ⟨t, ht, -⟩ := h.get' hvo
    obtain ⟨s, hs, hr⟩ := h.get' hv
    obtain ⟨r, e1, e2⟩ := aos_assign h hop ht hs hr
    exact ⟨_, _, by simp only [stepAos]; rw [ht, hs]; simp [hop, e1], e2, Option.Rel.none⟩
  | destroy o =>
    simp only [stepSpec, Option.ite_none_left_eq_some, Option.some.injEq, Prod.mk.injEq] at hs
    obtain ⟨hn, rfl, rfl⟩ := hs
    obtain ⟨vo, hvo⟩ := some_of hn
    obtain ⟨t, ht, -⟩ := h.get' hvo
    obtain ⟨k, e1, e2⟩ := aos_destroy h ht
    exact ⟨_, _, by simp only [stepAos]; rw [ht]; simp [e1], e2, Option.Rel.none⟩
  | resize o n =>
    simp only [stepSpec, Option.bind_eq_some_iff, Option.ite_none_left_eq_some] at hs
    obtain ⟨v, hv, hn, hs⟩ := hs
    obtain ⟨t, ht, hr⟩ := h.get' hv
    obtain ⟨e1, e2⟩ := aos_resize h ht hr (Nat.le_of_not_lt hn)
    refine ⟨⟨m.heap, upd m.objs o (some { t with size := n })⟩, none, by simp only [stepAos]; rw [ht]; simp [e1], ?_, ?_⟩
    · cases v <;> (cases hs; exact e2)
    · cases v <;> (cases hs; exact Option.Rel.none)
  | reserve o n =>
    simp only [stepSpec, Option.map_eq_some_iff] at hs
    obtain ⟨v, hv, hs⟩ := hs
    obtain ⟨t, ht, hr⟩ := h.get' hv
    obtain ⟨r, e1, e2⟩ := aos_reserve (n := n) h ht hr
    refine ⟨⟨r.1, upd m.objs o (some r.2)⟩, none, by simp only [stepAos]; rw [ht]; simp [e1], ?_, ?_⟩
    · cases v <;> (cases hs; exact e2)
    · cases v <;> (cases hs; exact Option.Rel.none)
  | clear o =>
    simp only [stepSpec, Option.map_eq_some_iff, Prod.mk.injEq] at hs
    obtain ⟨v, hv, rfl, rfl⟩ := hs
    obtain ⟨t, ht, -⟩ := h.get' hv
    obtain ⟨r, e1, e2⟩ := aos_clear h ht
    exact ⟨_, _, by simp only [stepAos]; rw [ht]; simp [e1], e2, Option.Rel.none⟩
  | set o i x =>
    simp only [stepSpec, Option.bind_eq_some_iff, Option.ite_none_left_eq_some] at hs
    obtain ⟨v, hv, hn, hs⟩ := hs
    obtain ⟨t, ht, hr⟩ := h.get' hv
    cases v with
    | view w s c =>
      cases hs
      have hic : i < c := Nat.lt_of_not_le hn
      obtain ⟨k, e1, e2⟩ := aos_write_view h hr.2.2 hic x
      refine ⟨⟨k, m.objs⟩, none, ?_, e2, Option.Rel.none⟩
      simp only [stepAos]
      rw [ht, hr.1]
      simp only [Option.bind_eq_bind, Option.bind_some, Aos.set, e1]
    | own c l =>
      cases hs
      have hic : i < c := Nat.lt_of_not_le hn
      obtain ⟨h1, h2, h3, h4⟩ := hr
      rcases h4 with h4 | ⟨ha, hc, p, hh⟩
      · omega
      have hown : ∀ b, t.Owns b ↔ b = p := by
        intro b
        unfold Aos.Owns
        rw [hh.1]
        simp [ha, eq_comm]
      obtain ⟨k, e1, e2, e3, e4, e7⟩ := aos_write_own hh hic x (l.set i (some x)) (by
        intro j
        by_cases hj : j = i
        · subst hj
          by_cases hjl : j < l.length
          · left; exact ⟨by rw [List.getElem?_set_self hjl], rfl⟩
          · right; right; rw [List.getElem?_eq_none]; simpa using hjl
        · right; left; exact ⟨hj, Or.inl (by rw [List.getElem?_set_ne (Ne.symm hj)])⟩)
      have hrel := h.inplace (h' := k) (s := t) (v := .own c (l.set i (some x))) ht (fun _ => Iff.rfl) e2
        (fun b hb => by rw [hown] at hb; exact e3 b hb)
        (fun b hb => by rw [hown] at hb; rw [hb]; exact e4)
        ⟨by simpa using h1, h2, by simpa using h3, Or.inr ⟨ha, hc, p, e7 t rfl⟩⟩
      rw [show upd m.objs o (some t) = m.objs by rw [← ht]; exact upd_self _ _] at hrel
      refine ⟨⟨k, m.objs⟩, none, ?_, hrel, Option.Rel.none⟩
      simp only [stepAos]
      rw [ht]
      simp only [Option.bind_eq_bind, Option.bind_some, Aos.set, e1]
  | push o x =>
    simp only [stepSpec, Option.bind_eq_some_iff, Option.ite_none_left_eq_some] at hs
    obtain ⟨v, hv, hn, hs⟩ := hs
    obtain ⟨t, ht, hr⟩ := h.get' hv
    cases v with
    | view w s c =>
      cases hs
      have hic : s < c := Nat.lt_of_not_le hn
      obtain ⟨k, e1, e2⟩ := aos_write_view h hr.2.2 hic x
      refine ⟨⟨k, upd m.objs o (some { t with size := s + 1 })⟩, none, ?_, ?_, Option.Rel.none⟩
      · simp only [stepAos]
        rw [ht, hr.1]
        simp only [Option.bind_eq_bind, Option.bind_some, Aos.pushBack, e1]
      · obtain ⟨vo, hvo, hro⟩ := e2.get (o := o) ht
        have hvo' : a.objs o = some vo := hvo
        rw [hv] at hvo'
        cases hvo'
        refine e2.inplace (s := { t with size := s + 1 }) ht (fun _ => Iff.rfl) rfl (fun _ _ => rfl) (aos_live e2 ht) ?_
        have e0 := hro.1
        subst e0
        exact ⟨rfl, hic, hro.2.2⟩
    | own c l =>
      cases hs
      have hic : l.length < c := Nat.lt_of_not_le hn
      obtain ⟨h1, h2, h3, h4⟩ := hr
      rcases h4 with h4 | ⟨ha, hc, p, hh⟩
      · omega
      have hown : ∀ b, t.Owns b ↔ b = p := by
        intro b
        unfold Aos.Owns
        rw [hh.1]
        simp [ha, eq_comm]
      obtain ⟨k, e1, e2, e3, e4, e7⟩ := aos_write_own hh hic x (l ++ [some x]) (by
        intro j
        rcases Nat.lt_trichotomy j l.length with hj | hj | hj
        · right; left; exact ⟨by omega, Or.inl (List.getElem?_append_left hj)⟩
        · subst hj; left; exact ⟨by simp, rfl⟩
        · right; right; rw [List.getElem?_eq_none]; simp; omega)
      refine ⟨⟨k, upd m.objs o (some { t with size := t.size + 1 })⟩, none, ?_, ?_, Option.Rel.none⟩
      · simp only [stepAos]
        rw [ht]
        simp only [Option.bind_eq_bind, Option.bind_some, Aos.pushBack, h1, e1]
      · exact h.inplace (s := { t with size := t.size + 1 }) ht (fun _ => Iff.rfl) e2
          (fun b hb => by rw [hown] at hb; exact e3 b hb)
          (fun b hb => by rw [hown] at hb; rw [hb]; exact e4)
          ⟨by simp [h1], h2, by simp; omega, Or.inr ⟨ha, hc, p, e7 _ rfl⟩⟩
  | get o i =>
    simp only [stepSpec, Option.bind_eq_some_iff, Option.ite_none_left_eq_some] at hs
    obtain ⟨v, hv, hn, hs⟩ := hs
    obtain ⟨t, ht, hr⟩ := h.get' hv
    cases v with
    | view w s c =>
      cases hs
      have hic : i < c := Nat.lt_of_lt_of_le (Nat.lt_of_not_le hn) hr.2.1
      refine ⟨m, some _, ?_, h, Option.Rel.some (agrees_refl _)⟩
      simp only [stepAos]
      rw [ht, hr.1]
      simp only [Option.bind_eq_bind, Option.bind_some, Aos.get, read_array h.arrays hr.2.2 hic]
      rfl
    | own c l =>
      have hil : i < l.length := Nat.lt_of_not_le hn
      obtain ⟨h1, h2, h3, h4⟩ := hr
      rcases h4 with h4 | ⟨ha, hc, p, ex, bx, g1, l1, hl⟩
      · omega
      have he : l[i]? = some l[i] := List.getElem?_eq_getElem hil
      dsimp only at hs
      rw [he] at hs
      cases hs
      obtain ⟨u, w1, w4⟩ := hl i _ he
      refine ⟨m, some u, ?_, h, Option.Rel.some w4⟩
      simp only [stepAos]
      rw [ht]
      simp only [Option.bind_eq_bind, Option.bind_some, Aos.get, ex, read_ok g1 w1]

end Container
end VecGeom
