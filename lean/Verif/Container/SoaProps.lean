import Verif.Container.Lemmas

/-!
# C71: programs with `SOA3D`
-/

namespace VecGeom
namespace Container

variable {α : Type}

/-- The blocks that an object has to free. -/
def Soa.Owns (s : Soa) (b : Nat) : Prop := s.allocated = true ∧ (s.x = some b ∨ s.y = some b ∨ s.z = some b)

/-- The three blocks of an object and its elements. -/
def Soa.Holds (g : Nat → Option (Block α)) (s : Soa) (c : Nat) (l : List (Option α × Option α × Option α)) (x y z : Nat) : Prop :=
  s.x = some x ∧ s.y = some y ∧ s.z = some z ∧ x ≠ y ∧ x ≠ z ∧ y ≠ z ∧
  ∃ bx cy bz : Block α, g x = some bx ∧ g y = some cy ∧ g z = some bz ∧ bx.length = c ∧ cy.length = c ∧ bz.length = c ∧
    ∀ (i : Nat) e, l[i]? = some e → ∃ u v w, bx[i]? = some u ∧ cy[i]? = some v ∧ bz[i]? = some w ∧ Agrees3 e (u, v, w)

/-- An object and its value. -/
def Soa.Is (g : Nat → Option (Block α)) (r : List (Block α)) (s : Soa) : Value (Option α × Option α × Option α) → Prop
  | .own c l => s.size = l.length ∧ s.capacity = c ∧ l.length ≤ c ∧
      ((s.allocated = false ∧ c = 0) ∨ (s.allocated = true ∧ ∃ x y z, s.Holds g c l x y z))
  | .view w n c => s = ⟨false, n, c, some w.1, some w.2.1, some w.2.2⟩ ∧ n ≤ c ∧ (soaLayout α).fits r w c

theorem Soa.Is.congr (g g' : Nat → Option (Block α)) (r : List (Block α)) (s : Soa) (v : Value (Option α × Option α × Option α))
    (hg : ∀ b, s.Owns b → g' b = g b) (h : s.Is g r v) : s.Is g' r v := by
  cases v with
  | view w n c => exact h
  | own c l =>
    obtain ⟨h1, h2, h3, h4⟩ := h
    refine ⟨h1, h2, h3, ?_⟩
    rcases h4 with h4 | ⟨ha, x, y, z, ex, ey, ez, d1, d2, d3, bx, cy, bz, g1, g2, g3, rest⟩
    · exact Or.inl h4
    · refine Or.inr ⟨ha, x, y, z, ex, ey, ez, d1, d2, d3, bx, cy, bz, ?_, ?_, ?_, rest⟩
      · rw [hg x ⟨ha, Or.inl ex⟩]; exact g1
      · rw [hg y ⟨ha, Or.inr (Or.inl ey)⟩]; exact g2
      · rw [hg z ⟨ha, Or.inr (Or.inr ez)⟩]; exact g3

theorem Soa.Is.mono (g : Nat → Option (Block α)) (r r' : List (Block α)) (s : Soa) (v : Value (Option α × Option α × Option α))
    (hr : ∀ b n, LongEnough r b n → LongEnough r' b n) (h : s.Is g r v) : s.Is g r' v := by
  cases v with
  | own c l => exact h
  | view w n c =>
    obtain ⟨h1, h2, h3, h4, h5⟩ := h
    exact ⟨h1, h2, hr _ _ h3, hr _ _ h4, hr _ _ h5⟩

/-- The relation between machine and specification. -/
abbrev SoaRel (m : Machine α Soa) (a : Abs α (Option α × Option α × Option α)) : Prop := Rel Soa.Owns Soa.Is m a

theorem alloc3_ok (h : Heap α) (n : Nat) (hf : ∀ b, h.next ≤ b → h.blocks b = none) :
    ∃ h' : Heap α, (((h.alloc n).1.alloc n).1.alloc n).1 = h' ∧
      h'.next = h.next + 3 ∧ (∀ b, b < h.next → h'.blocks b = h.blocks b) ∧ (∀ b, h'.next ≤ b → h'.blocks b = none) ∧
      h'.blocks h.next = some (List.replicate n none) ∧ h'.blocks (h.next + 1) = some (List.replicate n none) ∧
      h'.blocks (h.next + 2) = some (List.replicate n none) := by
  refine ⟨(((h.alloc n).1.alloc n).1.alloc n).1, rfl, rfl, ?_, ?_, ?_, ?_, ?_⟩
  · intro b hb
    rw [alloc_other _ (by simp only [alloc_next]; omega), alloc_other _ (by simp only [alloc_next]; omega), alloc_other _ (by omega)]
  · intro b hb
    simp only [alloc_next] at hb
    rw [alloc_other _ (by simp only [alloc_next]; omega), alloc_other _ (by simp only [alloc_next]; omega), alloc_other _ (by omega)]
    exact hf b (by omega)
  · rw [alloc_other _ (by simp only [alloc_next]; omega), alloc_other _ (by simp only [alloc_next]; omega), alloc_same]
  · rw [alloc_other _ (by simp only [alloc_next]; omega)]; exact alloc_same _ _
  · exact alloc_same _ _

theorem Soa.allocate_ok (h : Heap α) (s : Soa) (hc : s.capacity ≠ 0) (hf : ∀ b, h.next ≤ b → h.blocks b = none) :
    ∃ h', Soa.allocate h s = (h', { s with x := some h.next, y := some (h.next + 1), z := some (h.next + 2), allocated := true }) ∧
      h'.next = h.next + 3 ∧ (∀ b, b < h.next → h'.blocks b = h.blocks b) ∧ (∀ b, h'.next ≤ b → h'.blocks b = none) ∧
      h'.blocks h.next = some (List.replicate s.capacity none) ∧ h'.blocks (h.next + 1) = some (List.replicate s.capacity none) ∧
      h'.blocks (h.next + 2) = some (List.replicate s.capacity none) := by
  obtain ⟨h', e, rest⟩ := alloc3_ok h s.capacity hf
  refine ⟨h', ?_, rest⟩
  rw [← e]
  simp only [Soa.allocate, hc, if_false]; rfl

theorem Soa.deallocate_ok {h : Heap α} {r : List (Block α)} {s : Soa} {v : Value (Option α × Option α × Option α)}
    (hs : s.Is h.blocks r v) :
    ∃ h', ∀ n c, Soa.deallocate h { s with size := n, capacity := c } = some (h', { s with size := n, capacity := c, allocated := false }) ∧
      h'.next = h.next ∧ (∀ b, s.Owns b → h'.blocks b = none) ∧ ∀ b, ¬ s.Owns b → h'.blocks b = h.blocks b := by
  have key : (s.allocated = false) ∨ (s.allocated = true ∧ ∃ x y z l1 l2 l3, s.x = some x ∧ s.y = some y ∧ s.z = some z ∧ x ≠ y ∧ x ≠ z ∧ y ≠ z ∧
      h.blocks x = some l1 ∧ h.blocks y = some l2 ∧ h.blocks z = some l3) := by
    cases v with
    | view w n c => left; rw [hs.1]
    | own c l =>
      obtain ⟨-, -, -, h4⟩ := hs
      rcases h4 with h4 | ⟨ha, x, y, z, ex, ey, ez, d1, d2, d3, bx, cy, bz, g1, g2, g3, -⟩
      · exact Or.inl h4.1
      · exact Or.inr ⟨ha, x, y, z, bx, cy, bz, ex, ey, ez, d1, d2, d3, g1, g2, g3⟩
  rcases key with ha | ⟨ha, x, y, z, l1, l2, l3, ex, ey, ez, d1, d2, d3, g1, g2, g3⟩
  · refine ⟨h, fun n c => ⟨by simp [Soa.deallocate, ha], rfl, fun b hb => ?_, fun b _ => rfl⟩⟩
    rw [hb.1] at ha; cases ha
  · obtain ⟨h1, a1, b1, c1, e1⟩ := free_ok g1
    obtain ⟨h2, a2, b2, c2, e2⟩ := free_ok (h := h1) (b := y) (by rw [e1 y (Ne.symm d1)]; exact g2)
    obtain ⟨h3, a3, b3, c3, e3⟩ := free_ok (h := h2) (b := z) (by rw [e2 z (Ne.symm d3), e1 z (Ne.symm d2)]; exact g3)
    refine ⟨h3, fun n c => ⟨?_, by rw [b3, b2, b1], ?_, ?_⟩⟩
    · simp only [Soa.deallocate, ha, if_true, ex, ey, ez, a1, Option.bind_eq_bind, Option.bind_some, a2, a3]
    · rintro b ⟨-, hb⟩
      rw [ex, ey, ez] at hb
      rcases hb with hb | hb | hb <;> cases hb
      · rw [e3 x d2, e2 x d1, c1]
      · rw [e3 y d3, c2]
      · exact c3
    · intro b hb
      have hx : b ≠ x := fun hc => hb ⟨ha, Or.inl (by rw [ex, hc])⟩
      have hy : b ≠ y := fun hc => hb ⟨ha, Or.inr (Or.inl (by rw [ey, hc]))⟩
      have hz : b ≠ z := fun hc => hb ⟨ha, Or.inr (Or.inr (by rw [ez, hc]))⟩
      rw [e3 b hz, e2 b hy, e1 b hx]

/-- Copy three columns into new blocks. -/
theorem copy3_ok {h : Heap α} {x y z n d c : Nat} {lx ly lz : Block α} (hx : h.blocks x = some lx) (hy : h.blocks y = some ly)
    (hz : h.blocks z = some lz) (h1 : n ≤ lx.length) (h2 : n ≤ ly.length) (h3 : n ≤ lz.length) (hn : n ≤ c) (xd : x < d) (yd : y < d) (zd : z < d)
    (b1 : h.blocks d = some (List.replicate c none)) (b2 : h.blocks (d + 1) = some (List.replicate c none))
    (b3 : h.blocks (d + 2) = some (List.replicate c none)) :
    ∃ h', (do
      let h ← h.copyN (some x) (some d) n
      let h ← h.copyN (some y) (some (d + 1)) n
      h.copyN (some z) (some (d + 2)) n) = some h' ∧ h'.next = h.next ∧
      h'.blocks d = some (lx.take n ++ List.replicate (c - n) none) ∧ h'.blocks (d + 1) = some (ly.take n ++ List.replicate (c - n) none) ∧
      h'.blocks (d + 2) = some (lz.take n ++ List.replicate (c - n) none) ∧
      ∀ b, b ≠ d → b ≠ d + 1 → b ≠ d + 2 → h'.blocks b = h.blocks b := by
  obtain ⟨g1, a1, n1, c1, e1⟩ := copyN_ok hx b1 h1 (by simpa using hn)
  obtain ⟨g2, a2, n2, c2, e2⟩ := copyN_ok (h := g1) (s := y) (d := d + 1) (by rw [e1 y (by omega)]; exact hy)
    (by rw [e1 (d + 1) (by omega)]; exact b2) h2 (by simpa using hn)
  obtain ⟨g3, a3, n3, c3, e3⟩ := copyN_ok (h := g2) (s := z) (d := d + 2) (by rw [e2 z (by omega), e1 z (by omega)]; exact hz)
    (by rw [e2 (d + 2) (by omega), e1 (d + 2) (by omega)]; exact b3) h3 (by simpa using hn)
  refine ⟨g3, ?_, by rw [n3, n2, n1], ?_, ?_, ?_, ?_⟩
  · simp only [a1, Option.bind_eq_bind, Option.bind_some, a2, a3]
  · rw [e3 d (by omega), e2 d (by omega), c1, List.drop_replicate]
  · rw [e3 (d + 1) (by omega), c2, List.drop_replicate]
  · rw [c3, List.drop_replicate]
  · intro b p1 p2 p3
    rw [e3 b p3, e2 b p2, e1 b p1]

theorem agrees3_refl (e : Option α × Option α × Option α) : Agrees3 e e := ⟨fun _ h => h, fun _ h => h, fun _ h => h⟩
theorem agrees3_unknown (e : Option α × Option α × Option α) : Agrees3 (none, none, none) e :=
  ⟨fun _ h => (Option.some_ne_none _ h.symm).elim, fun _ h => (Option.some_ne_none _ h.symm).elim, fun _ h => (Option.some_ne_none _ h.symm).elim⟩

/-- A new object with three new blocks. -/
theorem SoaRel.newblocks {m : Machine α Soa} {a : Abs α (Option α × Option α × Option α)} (h : SoaRel m a) {o : Nat} {h' : Heap α} {s : Soa}
    {v : Value (Option α × Option α × Option α)} (hnext : h'.next = m.heap.next + 3)
    (hf : ∀ b, b < m.heap.next → (∀ t, m.objs o = some t → ¬ t.Owns b) → h'.blocks b = m.heap.blocks b)
    (hgone : ∀ b t, m.objs o = some t → t.Owns b → h'.blocks b = none)
    (htop : ∀ b, h'.next ≤ b → h'.blocks b = none) (ha : s.allocated = true)
    (hx : s.x = some m.heap.next) (hy : s.y = some (m.heap.next + 1)) (hz : s.z = some (m.heap.next + 2))
    (hlive : h'.blocks m.heap.next ≠ none ∧ h'.blocks (m.heap.next + 1) ≠ none ∧ h'.blocks (m.heap.next + 2) ≠ none)
    (hr : s.Is h'.blocks a.arrays v) : SoaRel ⟨h', upd m.objs o (some s)⟩ { a with objs := upd a.objs o (some v) } := by
  refine h.update Soa.Is.congr o h' (some s) (some v) (by omega) ?_ htop (Option.Rel.some hr) ?_ ?_
  · intro b hb
    have hlt : b < m.heap.next := by by_contra hc; exact hb (Or.inr (by omega))
    exact hf b hlt fun t ht hw => hb (Or.inl ⟨t, ht, hw⟩)
  · rintro t b ⟨rfl⟩ ⟨-, hb⟩
    rw [hx, hy, hz] at hb
    rcases hb with hb | hb | hb <;> cases hb
    · exact ⟨hlive.1, Or.inr (by omega)⟩
    · exact ⟨hlive.2.1, Or.inr (by omega)⟩
    · exact ⟨hlive.2.2, Or.inr (by omega)⟩
  · rintro b hb (⟨t, ht, hw⟩ | hge)
    · exact absurd (hgone b t ht hw) hb
    · have hlt : b < m.heap.next + 3 := by by_contra hc; exact hb (htop b (by omega))
      refine ⟨s, rfl, ha, ?_⟩
      rw [hx, hy, hz]
      have : b = m.heap.next ∨ b = m.heap.next + 1 ∨ b = m.heap.next + 2 := by omega
      rcases this with rfl | rfl | rfl
      · exact Or.inl rfl
      · exact Or.inr (Or.inl rfl)
      · exact Or.inr (Or.inr rfl)

/-- A new value of an object without own blocks. -/
theorem SoaRel.noblocks {m : Machine α Soa} {a : Abs α (Option α × Option α × Option α)} (h : SoaRel m a) {o : Nat} {h' : Heap α} {s : Soa}
    {v : Value (Option α × Option α × Option α)} (hnext : h'.next = m.heap.next)
    (hf : ∀ b, (∀ t, m.objs o = some t → ¬ t.Owns b) → h'.blocks b = m.heap.blocks b)
    (hgone : ∀ b t, m.objs o = some t → t.Owns b → h'.blocks b = none) (ha : s.allocated = false)
    (hr : s.Is h'.blocks a.arrays v) : SoaRel ⟨h', upd m.objs o (some s)⟩ { a with objs := upd a.objs o (some v) } := by
  have htop : ∀ b, h'.next ≤ b → h'.blocks b = none := by
    intro b hb
    rw [hnext] at hb
    by_cases hw : ∃ t, m.objs o = some t ∧ t.Owns b
    · obtain ⟨t, ht, hw⟩ := hw; exact hgone b t ht hw
    · rw [hf b (fun t ht hc => hw ⟨t, ht, hc⟩)]; exact h.fresh b hb
  refine h.update Soa.Is.congr o h' (some s) (some v) (by omega) ?_ htop (Option.Rel.some hr) ?_ ?_
  · intro b hb; exact hf b fun t ht hw => hb (Or.inl ⟨t, ht, hw⟩)
  · rintro t b ⟨rfl⟩ ⟨hb, -⟩; rw [ha] at hb; cases hb
  · rintro b hb (⟨t, ht, hw⟩ | hge)
    · exact absurd (hgone b t ht hw) hb
    · exact absurd (htop b (by omega)) hb

theorem take_agrees {lx ly lz : Block α} {l : List (Option α × Option α × Option α)} {n c : Nat}
    (hl : ∀ (i : Nat) e, l[i]? = some e → ∃ u v w, lx[i]? = some u ∧ ly[i]? = some v ∧ lz[i]? = some w ∧ Agrees3 e (u, v, w))
    (i : Nat) (e : Option α × Option α × Option α) (he : (l.take n)[i]? = some e) :
    ∃ u v w, (lx.take n ++ List.replicate (c - n) none)[i]? = some u ∧ (ly.take n ++ List.replicate (c - n) none)[i]? = some v ∧
      (lz.take n ++ List.replicate (c - n) none)[i]? = some w ∧ Agrees3 e (u, v, w) := by
  have hin : i < n := by
    by_contra hc
    rw [List.getElem?_take, if_neg hc] at he; cases he
  rw [List.getElem?_take, if_pos hin] at he
  obtain ⟨u, v, w, h1, h2, h3, h4⟩ := hl i e he
  have aux : ∀ {k : Block α} {q : Option α}, k[i]? = some q → (k.take n ++ List.replicate (c - n) none)[i]? = some q := by
    intro k q hq
    have hi : i < k.length := by
      by_contra hc
      rw [List.getElem?_eq_none (by omega)] at hq; cases hq
    rw [List.getElem?_append_left (by rw [List.length_take]; omega), List.getElem?_take, if_pos hin]
    exact hq
  exact ⟨u, v, w, aux h1, aux h2, aux h3, h4⟩

/-- New blocks with a copy of the elements of another object. -/
theorem soa_clone {h : Heap α} (hf : ∀ b, h.next ≤ b → h.blocks b = none) {r : List (Block α)} {s : Soa} {c : Nat}
    {l : List (Option α × Option α × Option α)} (hr : s.Is h.blocks r (.own c l)) (ha : s.allocated = true) (hc : c ≠ 0) (t : Soa)
    (ht : t.size = s.size ∧ t.capacity = s.capacity) :
    ∃ k, (do
      let r := Soa.allocate h t
      let h ← r.1.copyN s.x r.2.x s.size
      let h ← h.copyN s.y r.2.y s.size
      let h ← h.copyN s.z r.2.z s.size
      some (h, r.2)) = some (k, ⟨true, s.size, s.capacity, some h.next, some (h.next + 1), some (h.next + 2)⟩) ∧
      k.next = h.next + 3 ∧ (∀ b, b < h.next → k.blocks b = h.blocks b) ∧ (∀ b, k.next ≤ b → k.blocks b = none) ∧
      (k.blocks h.next ≠ none ∧ k.blocks (h.next + 1) ≠ none ∧ k.blocks (h.next + 2) ≠ none) ∧
      Soa.Is k.blocks r ⟨true, s.size, s.capacity, some h.next, some (h.next + 1), some (h.next + 2)⟩ (.own c l) := by
  obtain ⟨h1, h2, h3, h4⟩ := hr
  rcases h4 with h4 | ⟨-, x, y, z, ex, ey, ez, d1, d2, d3, bx, cy, bz, g1, g2, g3, l1, l2, l3, hl⟩
  · rw [h4.1] at ha; cases ha
  have lt : ∀ b, h.blocks b ≠ none → b < h.next := by
    intro b hb; by_contra hge; exact hb (hf b (by omega))
  have xl := lt x (by rw [g1]; simp)
  have yl := lt y (by rw [g2]; simp)
  have zl := lt z (by rw [g3]; simp)
  obtain ⟨h', e0, e1, e2, e3, e4, e5, e6⟩ := Soa.allocate_ok h t (by omega) hf
  rw [ht.2, h2] at e4 e5 e6
  obtain ⟨k, k0, k1, k2, k3, k4, k5⟩ := copy3_ok (h := h') (n := s.size) (by rw [e2 x xl]; exact g1) (by rw [e2 y yl]; exact g2)
    (by rw [e2 z zl]; exact g3) (by omega) (by omega) (by omega) (by omega) xl yl zl e4 e5 e6
  refine ⟨k, ?_, by rw [k1, e1], ?_, ?_, ?_, ?_⟩
  · simp only [e0, ex, ey, ez, ht.1, ht.2]
    simp only [Option.bind_eq_bind] at k0 ⊢
    cases q1 : h'.copyN (some x) (some h.next) s.size with
    | none => rw [q1] at k0; cases k0
    | some h1' =>
      rw [q1, Option.bind_some] at k0
      rw [Option.bind_some]
      cases q2 : h1'.copyN (some y) (some (h.next + 1)) s.size with
      | none => rw [q2] at k0; cases k0
      | some h2' =>
        rw [q2, Option.bind_some] at k0
        rw [Option.bind_some, k0, Option.bind_some]
  · intro b hb
    rw [k5 b (by omega) (by omega) (by omega), e2 b hb]
  · intro b hb
    rw [k1] at hb
    rw [k5 b (by omega) (by omega) (by omega), e3 b hb]
  · rw [k2, k3, k4]; simp
  · refine ⟨h1, h2, h3, Or.inr ⟨rfl, _, _, _, rfl, rfl, rfl, by omega, by omega, by omega, _, _, _, k2, k3, k4, ?_, ?_, ?_, ?_⟩⟩
    · simp; omega
    · simp; omega
    · simp; omega
    · have : l = l.take s.size := by rw [h1, List.take_length]
      rw [this]
      exact take_agrees hl

/-- The pointers of an object without own memory can be shared. -/
theorem soa_share {g g' : Nat → Option (Block α)} {r : List (Block α)} {s : Soa} {v : Value (Option α × Option α × Option α)} (hr : s.Is g r v)
    (ha : s.allocated = false) : Soa.Is g' r ⟨false, s.size, s.capacity, s.x, s.y, s.z⟩ v := by
  cases v with
  | view w n c => obtain ⟨e, hw⟩ := hr; subst e; exact ⟨rfl, hw⟩
  | own c l =>
    obtain ⟨h1, h2, h3, h4⟩ := hr
    refine ⟨h1, h2, h3, Or.inl ⟨rfl, ?_⟩⟩
    rcases h4 with h4 | ⟨h4, -⟩
    · exact h4.2
    · rw [ha] at h4; cases h4

theorem soa_copy {m : Machine α Soa} {a : Abs α (Option α × Option α × Option α)} (h : SoaRel m a) {o p : Nat} {s : Soa}
    {v : Value (Option α × Option α × Option α)} (ho : m.objs o = none) (hr : s.Is m.heap.blocks a.arrays v) :
    ∃ r, Soa.copyOf m.heap s = some r ∧ SoaRel ⟨r.1, upd m.objs o (some r.2)⟩ { a with objs := upd a.objs o (some v) } := by
  have hno : ∀ t, m.objs o = some t → False := by intro t ht; rw [ho] at ht; cases ht
  by_cases ha : s.allocated = true
  · cases v with
    | view w n c => rw [hr.1] at ha; cases ha
    | own c l =>
      by_cases hc : c = 0
      · obtain ⟨h1, h2, h3, -⟩ := hr
        have hsz : s.size = 0 := by omega
        refine ⟨(m.heap, { size := s.size, capacity := s.capacity }), ?_, ?_⟩
        · simp only [Soa.copyOf, ha, if_true, Soa.allocate, h2, hc, hsz, copyN_zero, Option.bind_eq_bind, Option.bind_some]
        · refine h.noblocks rfl (fun _ _ => rfl) (fun b t ht => (hno t ht).elim) rfl ?_
          exact ⟨h1, h2, h3, Or.inl ⟨rfl, hc⟩⟩
      · obtain ⟨k, k0, k1, k2, k3, k4, k5⟩ := soa_clone h.fresh hr ha hc { size := s.size, capacity := s.capacity } ⟨rfl, rfl⟩
        refine ⟨(k, ⟨true, s.size, s.capacity, some m.heap.next, some (m.heap.next + 1), some (m.heap.next + 2)⟩), ?_, h.newblocks k1 (fun b hb _ => k2 b hb) (fun b t ht => (hno t ht).elim) k3 rfl rfl rfl rfl k4 k5⟩
        simp only [Soa.copyOf, ha, if_true]
        exact k0
  · have ha : s.allocated = false := by simpa using ha
    refine ⟨(m.heap, ⟨false, s.size, s.capacity, s.x, s.y, s.z⟩), ?_, ?_⟩
    · simp [Soa.copyOf, ha]
    · exact h.noblocks rfl (fun _ _ => rfl) (fun b t ht => (hno t ht).elim) rfl (soa_share hr ha)

theorem soa_assign {m : Machine α Soa} {a : Abs α (Option α × Option α × Option α)} (h : SoaRel m a) {o p : Nat} {s t : Soa}
    {v : Value (Option α × Option α × Option α)} (hop : o ≠ p) (ho : m.objs o = some t) (hs : m.objs p = some s) (hv : a.objs p = some v)
    (hr : s.Is m.heap.blocks a.arrays v) (hfine : ∀ c, a.objs p = some (.own c []) → c = 0) :
    ∃ r, Soa.assign m.heap t s = some r ∧ SoaRel ⟨r.1, upd m.objs o (some r.2)⟩ { a with objs := upd a.objs o (some v) } := by
  obtain ⟨vt, -, hrt⟩ := h.get ho
  obtain ⟨h1, hd⟩ := Soa.deallocate_ok hrt
  obtain ⟨d0, d1, d2, d3⟩ := hd s.size s.capacity
  have hself : ∀ b u, m.objs o = some u → (u.Owns b ↔ t.Owns b) := by
    intro b u hu; rw [ho] at hu; cases hu; rfl
  have hr1 : s.Is h1.blocks a.arrays v := by
    refine Soa.Is.congr _ _ _ _ _ (fun b hb => d3 b fun hc => ?_) hr
    exact hop (h.apart o p t s b ho hs hc hb)
  have hfr : ∀ b, h1.next ≤ b → h1.blocks b = none := by
    intro b hb
    by_cases hw : t.Owns b
    · exact d2 b hw
    · rw [d3 b hw]; exact h.fresh b (by omega)
  have share : ∀ q : Soa, q.allocated = false → q.Is h1.blocks a.arrays v →
      SoaRel ⟨h1, upd m.objs o (some q)⟩ { a with objs := upd a.objs o (some v) } := by
    intro q hq hqr
    refine h.noblocks d1 (fun b hb => d3 b (hb t ho)) (fun b u hu hw => d2 b ((hself b u hu).mp hw)) hq hqr
  by_cases ha : s.allocated = true
  · cases v with
    | view w n c => rw [hr.1] at ha; cases ha
    | own c l =>
      by_cases hc : s.size = 0
      · have hl : l = [] := by
          have := hr.1
          rw [hc] at this
          exact List.length_eq_zero_iff.mp this.symm
        have hc0 : c = 0 := hfine c (by rw [hv, hl])
        refine ⟨(h1, ⟨false, s.size, s.capacity, s.x, s.y, s.z⟩), ?_, ?_⟩
        · simp only [Soa.assign, Option.bind_eq_bind, d0, Option.bind_some]
          rw [if_neg (by omega)]
        · exact share _ rfl ⟨hr.1, hr.2.1, hr.2.2.1, Or.inl ⟨rfl, hc0⟩⟩
      · have hc0 : c ≠ 0 := by have := hr.1; have := hr.2.2.1; omega
        obtain ⟨k, k0, k1, k2, k3, k4, k5⟩ := soa_clone hfr hr1 ha hc0 ⟨false, s.size, s.capacity, t.x, t.y, t.z⟩ ⟨rfl, rfl⟩
        rw [d1] at k1 k4 k5
        refine ⟨(k, ⟨true, s.size, s.capacity, some m.heap.next, some (m.heap.next + 1), some (m.heap.next + 2)⟩), ?_, h.newblocks k1 ?_ ?_ k3 rfl rfl rfl rfl k4 k5⟩
        · simp only [Soa.assign, Option.bind_eq_bind, d0, Option.bind_some]
          rw [if_pos ⟨ha, by omega⟩]
          rw [← d1]
          exact k0
        · intro b hb hw
          rw [k2 b (by omega)]
          exact d3 b (hw t ho)
        · intro b u hu hw
          have hlt : b < h1.next := by
            by_contra hge
            exact (h.live o u b hu hw).2 (h.fresh b (by omega))
          rw [k2 b hlt]
          exact d2 b ((hself b u hu).mp hw)
  · have ha : s.allocated = false := by simpa using ha
    refine ⟨(h1, ⟨false, s.size, s.capacity, s.x, s.y, s.z⟩), ?_, share _ rfl (soa_share hr1 ha)⟩
    simp only [Soa.assign, Option.bind_eq_bind, d0, Option.bind_some, ha]
    simp

theorem soa_destroy {m : Machine α Soa} {a : Abs α (Option α × Option α × Option α)} (h : SoaRel m a) {o : Nat} {t : Soa}
    (ho : m.objs o = some t) :
    ∃ h', Soa.destroy m.heap t = some h' ∧ SoaRel ⟨h', upd m.objs o none⟩ { a with objs := upd a.objs o none } := by
  obtain ⟨vt, -, hrt⟩ := h.get ho
  obtain ⟨h1, hd⟩ := Soa.deallocate_ok hrt
  obtain ⟨d0, d1, d2, d3⟩ := hd t.size t.capacity
  refine ⟨h1, by unfold Soa.destroy; rw [show t = { t with size := t.size, capacity := t.capacity } from rfl, d0]; rfl, ?_⟩
  have hfr : ∀ b, h1.next ≤ b → h1.blocks b = none := by
    intro b hb
    by_cases hw : t.Owns b
    · exact d2 b hw
    · rw [d3 b hw]; exact h.fresh b (by omega)
  refine h.update Soa.Is.congr o h1 none none (by omega) ?_ hfr Option.Rel.none ?_ ?_
  · intro b hb; exact d3 b fun hw => hb (Or.inl ⟨t, ho, hw⟩)
  · intro s b hs; cases hs
  · rintro b hb (⟨u, hu, hw⟩ | hge)
    · rw [ho] at hu; cases hu; exact absurd (d2 b hw) hb
    · exact absurd (hfr b (by omega)) hb

theorem soa_clear {m : Machine α Soa} {a : Abs α (Option α × Option α × Option α)} (h : SoaRel m a) {o : Nat} {t : Soa}
    (ho : m.objs o = some t) :
    ∃ r, Soa.clear m.heap t = some r ∧ SoaRel ⟨r.1, upd m.objs o (some r.2)⟩ { a with objs := upd a.objs o (some (.own 0 [])) } := by
  obtain ⟨vt, -, hrt⟩ := h.get ho
  obtain ⟨h1, hd⟩ := Soa.deallocate_ok hrt
  obtain ⟨d0, d1, d2, d3⟩ := hd t.size t.capacity
  refine ⟨(h1, ⟨false, 0, 0, t.x, t.y, t.z⟩), ?_, ?_⟩
  · unfold Soa.clear
    rw [show t = { t with size := t.size, capacity := t.capacity } from rfl, d0]; rfl
  · refine h.noblocks d1 (fun b hb => d3 b (hb t ho)) (fun b u hu hw => ?_) rfl ⟨rfl, rfl, Nat.le_refl _, Or.inl ⟨rfl, rfl⟩⟩
    rw [ho] at hu; cases hu; exact d2 b hw

theorem soa_sized {m : Machine α Soa} {a : Abs α (Option α × Option α × Option α)} (h : SoaRel m a) {o n : Nat} (ho : m.objs o = none) :
    SoaRel ⟨(Soa.ofSize m.heap n).1, upd m.objs o (some (Soa.ofSize m.heap n).2)⟩
      { a with objs := upd a.objs o (some (.own n (List.replicate n (none, none, none)))) } := by
  have hno : ∀ t, m.objs o = some t → False := by intro t ht; rw [ho] at ht; cases ht
  by_cases hn : n = 0
  · subst hn
    exact h.noblocks rfl (fun _ _ => rfl) (fun b t ht => (hno t ht).elim) rfl ⟨rfl, rfl, Nat.le_refl _, Or.inl ⟨rfl, rfl⟩⟩
  · obtain ⟨k, k0, k1, k2, k3, k4, k5, k6⟩ := Soa.allocate_ok m.heap { size := n, capacity := n } hn h.fresh
    have e : Soa.ofSize m.heap n = (k, ⟨true, n, n, some m.heap.next, some (m.heap.next + 1), some (m.heap.next + 2)⟩) := k0
    rw [e]
    dsimp only at k4 k5 k6
    refine h.newblocks k1 (fun b hb _ => k2 b hb) (fun b t ht => (hno t ht).elim) k3 rfl rfl rfl rfl ?_ ?_
    · dsimp only; rw [k4, k5, k6]; simp
    · refine ⟨by simp, rfl, by simp, Or.inr ⟨rfl, _, _, _, rfl, rfl, rfl, by omega, by omega, by omega, _, _, _, k4, k5, k6,
        by simp, by simp, by simp, ?_⟩⟩
      intro i e he
      rw [List.getElem?_replicate] at he
      by_cases hi : i < n
      · rw [if_pos hi] at he
        cases he
        refine ⟨none, none, none, ?_, ?_, ?_, agrees3_unknown _⟩ <;> rw [List.getElem?_replicate, if_pos hi]
      · rw [if_neg hi] at he; cases he

theorem lt_of_getElem? {γ : Type} {l : List γ} {i : Nat} {e : γ} (h : l[i]? = some e) : i < l.length := by
  by_contra hc
  rw [List.getElem?_eq_none (by omega)] at h
  cases h

/-- The elements that an object shows, for the copy in `reserve`. -/
theorem soa_source {m : Machine α Soa} {a : Abs α (Option α × Option α × Option α)} (h : SoaRel m a) {s : Soa}
    {v : Value (Option α × Option α × Option α)} (hr : s.Is m.heap.blocks a.arrays v) (hne : ¬ (s.allocated = false ∧ s.capacity = 0)) :
    ∃ x y z bx cy bz, s.x = some x ∧ s.y = some y ∧ s.z = some z ∧ m.heap.blocks x = some bx ∧ m.heap.blocks y = some cy ∧
      m.heap.blocks z = some bz ∧ s.size ≤ bx.length ∧ s.size ≤ cy.length ∧ s.size ≤ bz.length ∧
      ∀ (i : Nat) e, (match v with
        | .own _ l => l[i]?
        | .view w n _ => if i < n then some ((soaLayout α).read a.arrays w i) else none) = some e →
        ∃ u v w, bx[i]? = some u ∧ cy[i]? = some v ∧ bz[i]? = some w ∧ Agrees3 e (u, v, w) := by
  cases v with
  | own c l =>
    obtain ⟨h1, h2, h3, h4⟩ := hr
    rcases h4 with h4 | ⟨-, x, y, z, ex, ey, ez, -, -, -, bx, cy, bz, g1, g2, g3, l1, l2, l3, hl⟩
    · exact absurd ⟨h4.1, by omega⟩ hne
    · exact ⟨x, y, z, bx, cy, bz, ex, ey, ez, g1, g2, g3, by omega, by omega, by omega, hl⟩
  | view w n c =>
    obtain ⟨e, hn, ⟨lx, ex, nx⟩, ⟨ly, ey, ny⟩, lz, ez, nz⟩ := hr
    subst e
    refine ⟨w.1, w.2.1, w.2.2, lx, ly, lz, rfl, rfl, rfl, ?_, ?_, ?_, by dsimp only; omega, by dsimp only; omega, by dsimp only; omega, ?_⟩
    · rw [h.arrays _ (lt_of_getElem? ex)]; exact ex
    · rw [h.arrays _ (lt_of_getElem? ey)]; exact ey
    · rw [h.arrays _ (lt_of_getElem? ez)]; exact ez
    · intro i e he
      dsimp only at he
      by_cases hi : i < n
      · rw [if_pos hi] at he
        cases he
        refine ⟨_, _, _, List.getElem?_eq_getElem (by omega), List.getElem?_eq_getElem (by omega), List.getElem?_eq_getElem (by omega), ?_⟩
        have c1 : cell a.arrays w.1 i = lx[i] := by
          unfold cell; rw [ex, Option.bind_some, List.getElem?_eq_getElem (by omega)]; rfl
        have c2 : cell a.arrays w.2.1 i = ly[i] := by
          unfold cell; rw [ey, Option.bind_some, List.getElem?_eq_getElem (by omega)]; rfl
        have c3 : cell a.arrays w.2.2 i = lz[i] := by
          unfold cell; rw [ez, Option.bind_some, List.getElem?_eq_getElem (by omega)]; rfl
        show Agrees3 (cell a.arrays w.1 i, cell a.arrays w.2.1 i, cell a.arrays w.2.2 i) _
        rw [c1, c2, c3]
        exact agrees3_refl _
      · rw [if_neg hi] at he; cases he

/-- What `reserve` is to make of a value. -/
def reserved (r : List (Block α)) (n : Nat) : Value (Option α × Option α × Option α) → List (Option α × Option α × Option α)
  | .own _ l => l.take n
  | .view w s _ => (List.range (min s n)).map ((soaLayout α).read r w)

theorem soa_reserve {m : Machine α Soa} {a : Abs α (Option α × Option α × Option α)} (h : SoaRel m a) {o n : Nat} {t : Soa}
    {v : Value (Option α × Option α × Option α)} (ho : m.objs o = some t) (hr : t.Is m.heap.blocks a.arrays v) :
    ∃ r, Soa.reserve m.heap t n = some r ∧
      SoaRel ⟨r.1, upd m.objs o (some r.2)⟩ { a with objs := upd a.objs o (some (.own n (reserved a.arrays n v))) } := by
  obtain ⟨h1, e0, e1, e2, e3, e4, e5, e6⟩ := alloc3_ok m.heap n h.fresh
  have hk : (if t.size > n then n else t.size) = min t.size n := by split <;> omega
  have hsize : (reserved a.arrays n v).length = min t.size n := by
    cases v with
    | own c l => simp [reserved, hr.1]; omega
    | view w s c => simp [reserved]; rw [hr.1]
  -- the state after the copy
  have hcopy : ∃ k : Heap α, (if t.x.isSome = true ∧ t.y.isSome = true ∧ t.z.isSome = true then do
        let h ← h1.copyN t.x (some m.heap.next) (min t.size n)
        let h ← h.copyN t.y (some (m.heap.next + 1)) (min t.size n)
        h.copyN t.z (some (m.heap.next + 2)) (min t.size n)
      else some h1) = some k ∧ k.next = m.heap.next + 3 ∧ (∀ b, b < m.heap.next → k.blocks b = m.heap.blocks b) ∧
      (∀ b, k.next ≤ b → k.blocks b = none) ∧
      ∃ bx cy bz : Block α, k.blocks m.heap.next = some bx ∧ k.blocks (m.heap.next + 1) = some cy ∧ k.blocks (m.heap.next + 2) = some bz ∧
        bx.length = n ∧ cy.length = n ∧ bz.length = n ∧
        ∀ (i : Nat) e, (reserved a.arrays n v)[i]? = some e → ∃ u v w, bx[i]? = some u ∧ cy[i]? = some v ∧ bz[i]? = some w ∧ Agrees3 e (u, v, w) := by
    by_cases hne : t.allocated = false ∧ t.capacity = 0
    · have hs0 : t.size = 0 := by
        cases v with
        | own c l => have := hr.1; have := hr.2.1; have := hr.2.2.1; omega
        | view w s c =>
          have e := hr.1
          have := hr.2.1
          have h1' : t.size = s := by rw [e]
          have h2' : t.capacity = c := by rw [e]
          omega
      have hz : min t.size n = 0 := by omega
      refine ⟨h1, ?_, e1, e2, e3, _, _, _, e4, e5, e6, by simp, by simp, by simp, ?_⟩
      · rw [hz]
        split
        · simp only [copyN_zero, Option.bind_eq_bind, Option.bind_some]
        · rfl
      · intro i e he
        have := lt_of_getElem? he
        omega
    · obtain ⟨x, y, z, bx, cy, bz, ex, ey, ez, g1, g2, g3, l1, l2, l3, hl⟩ := soa_source h hr hne
      have lt : ∀ b, m.heap.blocks b ≠ none → b < m.heap.next := by
        intro b hb; by_contra hge; exact hb (h.fresh b (by omega))
      have xl := lt x (by rw [g1]; simp)
      have yl := lt y (by rw [g2]; simp)
      have zl := lt z (by rw [g3]; simp)
      obtain ⟨k, k0, k1, k2, k3, k4, k5⟩ := copy3_ok (h := h1) (n := min t.size n) (by rw [e2 x xl]; exact g1) (by rw [e2 y yl]; exact g2)
        (by rw [e2 z zl]; exact g3) (by omega) (by omega) (by omega) (by omega) xl yl zl e4 e5 e6
      refine ⟨k, ?_, by rw [k1, e1], ?_, ?_, _, _, _, k2, k3, k4, by simp; omega, by simp; omega, by simp; omega, ?_⟩
      · rw [ex, ey, ez, if_pos ⟨rfl, rfl, rfl⟩]; exact k0
      · intro b hb; rw [k5 b (by omega) (by omega) (by omega), e2 b hb]
      · intro b hb; rw [k1] at hb; rw [k5 b (by omega) (by omega) (by omega), e3 b hb]
      · intro i e he
        have hi : i < min t.size n := by have := lt_of_getElem? he; omega
        have hsrc : ∃ u v w, bx[i]? = some u ∧ cy[i]? = some v ∧ bz[i]? = some w ∧ Agrees3 e (u, v, w) := by
          apply hl i e
          cases v with
          | own c l =>
            simp only [reserved] at he
            rw [List.getElem?_take, if_pos (by omega)] at he
            exact he
          | view w s c =>
            simp only [reserved] at he
            rw [List.getElem?_map, List.getElem?_range (by have h0 : t.size = s := by rw [hr.1]
                                                           omega), Option.map_some] at he
            dsimp only
            rw [if_pos (by have h0 : t.size = s := by rw [hr.1]
                           omega)]
            exact he
        obtain ⟨u, v', w, f1, f2, f3, f4⟩ := hsrc
        have aux : ∀ {q : Block α} {p : Option α}, q[i]? = some p → (q.take (min t.size n) ++ List.replicate (n - min t.size n) none)[i]? = some p := by
          intro q p hq
          have := lt_of_getElem? hq
          rw [List.getElem?_append_left (by rw [List.length_take]; omega), List.getElem?_take, if_pos hi]
          exact hq
        exact ⟨u, v', w, aux f1, aux f2, aux f3, f4⟩
  obtain ⟨k, k0, k1, k2, k3, bx, cy, bz, b1, b2, b3, q1, q2, q3, hq⟩ := hcopy
  -- the old blocks are freed
  have howns : ∀ b, t.Owns b → b < m.heap.next := by
    intro b hb
    by_contra hge
    exact (h.live o t b ho hb).2 (h.fresh b (by omega))
  have hrk : t.Is k.blocks a.arrays v := Soa.Is.congr _ _ _ _ _ (fun b hb => k2 b (howns b hb)) hr
  obtain ⟨h2, hd⟩ := Soa.deallocate_ok hrk
  obtain ⟨d0, d1, d2, d3⟩ := hd (min t.size n) n
  have hnew : ∀ b, m.heap.next ≤ b → h2.blocks b = k.blocks b := by
    intro b hb; exact d3 b fun hw => by have := howns b hw; omega
  refine ⟨(h2, ⟨true, min t.size n, n, some m.heap.next, some (m.heap.next + 1), some (m.heap.next + 2)⟩), ?_, ?_⟩
  · have e0' : (((m.heap.alloc n).1.alloc n).1.alloc n).1 = h1 := e0
    simp only [Soa.reserve, hk, Option.bind_eq_bind]
    simp only [Option.bind_eq_bind] at k0
    rw [e0']
    change (if t.x.isSome = true ∧ t.y.isSome = true ∧ t.z.isSome = true then _ else _) = _
    by_cases hp : t.x.isSome = true ∧ t.y.isSome = true ∧ t.z.isSome = true
    · rw [if_pos hp] at k0 ⊢
      change ((h1.copyN t.x (some m.heap.next) (min t.size n)).bind fun h =>
        (h.copyN t.y (some (m.heap.next + 1)) (min t.size n)).bind fun h =>
          (h.copyN t.z (some (m.heap.next + 2)) (min t.size n)).bind fun h => _) = _
      cases q1 : h1.copyN t.x (some m.heap.next) (min t.size n) with
      | none => rw [q1] at k0; cases k0
      | some h1' =>
        rw [q1, Option.bind_some] at k0
        rw [Option.bind_some]
        cases q2 : h1'.copyN t.y (some (m.heap.next + 1)) (min t.size n) with
        | none => rw [q2] at k0; cases k0
        | some h2' =>
          rw [q2, Option.bind_some] at k0
          rw [Option.bind_some, k0, Option.bind_some, d0, Option.bind_some]
          rfl
    · rw [if_neg hp] at k0 ⊢
      cases k0
      rw [Option.bind_some, d0, Option.bind_some]
      rfl
  · refine h.newblocks (by dsimp only; rw [d1, k1]) ?_ ?_ ?_ rfl rfl rfl rfl ?_ ?_
    · intro b hb hw
      dsimp only
      rw [d3 b (hw t ho), k2 b hb]
    · intro b u hu hw
      rw [ho] at hu; cases hu
      exact d2 b hw
    · intro b hb
      dsimp only at hb ⊢
      rw [d1] at hb
      rw [hnew b (by omega), k3 b hb]
    · dsimp only
      rw [hnew _ (by omega), hnew _ (by omega), hnew _ (by omega), b1, b2, b3]; simp
    · refine ⟨hsize.symm, rfl, by omega, Or.inr ⟨rfl, _, _, _, rfl, rfl, rfl, by omega, by omega, by omega, bx, cy, bz, ?_, ?_, ?_, q1, q2, q3, hq⟩⟩
      · dsimp only; rw [hnew _ (by omega), b1]
      · dsimp only; rw [hnew _ (by omega), b2]
      · dsimp only; rw [hnew _ (by omega), b3]

/-- A change of an object that keeps its blocks. -/
theorem SoaRel.inplace {m : Machine α Soa} {a : Abs α (Option α × Option α × Option α)} (h : SoaRel m a) {o : Nat} {h' : Heap α} {t s : Soa}
    {v : Value (Option α × Option α × Option α)} (ho : m.objs o = some t) (hown : ∀ b, s.Owns b ↔ t.Owns b) (hnext : h'.next = m.heap.next)
    (hf : ∀ b, ¬ t.Owns b → h'.blocks b = m.heap.blocks b) (hlive : ∀ b, t.Owns b → h'.blocks b ≠ none)
    (hr : s.Is h'.blocks a.arrays v) : SoaRel ⟨h', upd m.objs o (some s)⟩ { a with objs := upd a.objs o (some v) } := by
  have htop : ∀ b, m.heap.next ≤ b → h'.blocks b = none := by
    intro b hb
    rw [hf b (fun hw => (h.live o t b ho hw).2 (h.fresh b hb))]
    exact h.fresh b hb
  refine h.update Soa.Is.congr o h' (some s) (some v) (by omega) ?_ (by rw [hnext]; exact htop) (Option.Rel.some hr) ?_ ?_
  · intro b hb; exact hf b fun hw => hb (Or.inl ⟨t, ho, hw⟩)
  · rintro u b ⟨rfl⟩ hb
    have := (hown b).mp hb
    exact ⟨hlive b this, Or.inl ⟨t, ho, this⟩⟩
  · rintro b hb (⟨u, hu, hw⟩ | hge)
    · rw [ho] at hu; cases hu; exact ⟨s, rfl, (hown b).mpr hw⟩
    · exact absurd (htop b hge) hb

theorem soa_live {m : Machine α Soa} {a : Abs α (Option α × Option α × Option α)} (h : SoaRel m a) {o : Nat} {t : Soa} (ho : m.objs o = some t)
    (b : Nat) (hb : t.Owns b) : m.heap.blocks b ≠ none := (h.live o t b ho hb).2

/-- The value after `resize`. -/
def resized (n : Nat) : Value (Option α × Option α × Option α) → Value (Option α × Option α × Option α)
  | .own c l => .own c (l.take n ++ List.replicate (n - l.length) (none, none, none))
  | .view w _ c => .view w n c

theorem soa_resize {m : Machine α Soa} {a : Abs α (Option α × Option α × Option α)} (h : SoaRel m a) {o n : Nat} {t : Soa}
    {v : Value (Option α × Option α × Option α)} (ho : m.objs o = some t) (hr : t.Is m.heap.blocks a.arrays v) (hn : n ≤ v.capacity) :
    Soa.resize t n = some { t with size := n } ∧
    SoaRel ⟨m.heap, upd m.objs o (some { t with size := n })⟩ { a with objs := upd a.objs o (some (resized n v)) } := by
  refine ⟨?_, h.inplace ho (fun _ => Iff.rfl) rfl (fun _ _ => rfl) (soa_live h ho) ?_⟩
  · cases v with
    | own c l => simp only [Soa.resize]; rw [if_pos (by rw [hr.2.1]; exact hn)]
    | view w s c => rw [hr.1]; simp only [Soa.resize]; rw [if_pos (by exact hn)]
  · cases v with
    | view w s c =>
      have e0 := hr.1
      have hfit := hr.2.2
      clear hr
      subst e0
      exact ⟨rfl, hn, hfit⟩
    | own c l =>
      obtain ⟨h1, h2, h3, h4⟩ := hr
      have hn : n ≤ c := hn
      refine ⟨by simp; omega, h2, by simp; omega, ?_⟩
      rcases h4 with h4 | ⟨ha, x, y, z, ex, ey, ez, d1, d2, d3, bx, cy, bz, g1, g2, g3, l1, l2, l3, hl⟩
      · exact Or.inl h4
      · refine Or.inr ⟨ha, x, y, z, ex, ey, ez, d1, d2, d3, bx, cy, bz, g1, g2, g3, l1, l2, l3, ?_⟩
        intro i e he
        have hlt := lt_of_getElem? he
        simp at hlt
        by_cases hi : i < l.length
        · have hin : i < n := by omega
          rw [List.getElem?_append_left (by rw [List.length_take]; omega), List.getElem?_take, if_pos hin] at he
          exact hl i e he
        · have hic : i < c := by omega
          rw [List.getElem?_append_right (by rw [List.length_take]; omega), List.getElem?_replicate] at he
          split at he
          · cases he
            exact ⟨_, _, _, List.getElem?_eq_getElem (by omega), List.getElem?_eq_getElem (by omega), List.getElem?_eq_getElem (by omega),
              agrees3_unknown _⟩
          · cases he

/-- Writing an element of an object with own memory. -/
theorem soa_write_own {h : Heap α} {s : Soa} {c : Nat} {l : List (Option α × Option α × Option α)} {x y z i : Nat} (hh : s.Holds h.blocks c l x y z)
    (hi : i < c) (e : α × α × α) (l' : List (Option α × Option α × Option α))
    (hl' : ∀ j, l'[j]? = some (some e.1, some e.2.1, some e.2.2) ∧ j = i ∨ (j ≠ i ∧ (l'[j]? = l[j]? ∨ l'[j]? = none)) ∨ l'[j]? = none) :
    ∃ h', (do
      let h ← h.write s.x i e.1
      let h ← h.write s.y i e.2.1
      h.write s.z i e.2.2) = some h' ∧ h'.next = h.next ∧ (∀ b, b ≠ x → b ≠ y → b ≠ z → h'.blocks b = h.blocks b) ∧
      h'.blocks x ≠ none ∧ h'.blocks y ≠ none ∧ h'.blocks z ≠ none ∧
      (∀ q : Soa, q.x = s.x → q.y = s.y → q.z = s.z → q.Holds h'.blocks c l' x y z) := by
  obtain ⟨ex, ey, ez, d1, d2, d3, bx, cy, bz, g1, g2, g3, l1, l2, l3, hl⟩ := hh
  obtain ⟨k1, a1, n1, c1, e1⟩ := write_ok (v := e.1) g1 (show i < bx.length by omega)
  obtain ⟨k2, a2, n2, c2, e2⟩ := write_ok (h := k1) (v := e.2.1) (by rw [e1 y (Ne.symm d1)]; exact g2) (show i < cy.length by omega)
  obtain ⟨k3, a3, n3, c3, e3⟩ := write_ok (h := k2) (v := e.2.2) (by rw [e2 z (Ne.symm d3), e1 z (Ne.symm d2)]; exact g3)
    (show i < bz.length by omega)
  have f1 : k3.blocks x = some (bx.set i (some e.1)) := by rw [e3 x d2, e2 x d1, c1]
  have f2 : k3.blocks y = some (cy.set i (some e.2.1)) := by rw [e3 y d3, c2]
  refine ⟨k3, ?_, by rw [n3, n2, n1], ?_, ?_, ?_, ?_, ?_⟩
  · simp only [ex, ey, ez, a1, Option.bind_eq_bind, Option.bind_some, a2, a3]
  · intro b p1 p2 p3; rw [e3 b p3, e2 b p2, e1 b p1]
  · rw [f1]; simp
  · rw [f2]; simp
  · rw [c3]; simp
  · intro q qx qy qz
    refine ⟨by rw [qx, ex], by rw [qy, ey], by rw [qz, ez], d1, d2, d3, _, _, _, f1, f2, c3, by simpa using l1, by simpa using l2, by simpa using l3, ?_⟩
    intro j u hu
    rcases hl' j with ⟨hj, rfl⟩ | ⟨hj, hj2 | hj2⟩ | hj
    · rw [hj] at hu; cases hu
      refine ⟨some e.1, some e.2.1, some e.2.2, ?_, ?_, ?_, agrees3_refl _⟩ <;> rw [List.getElem?_set_self (by omega)]
    · rw [hj2] at hu
      obtain ⟨p, q', r, w1, w2, w3, w4⟩ := hl j u hu
      refine ⟨p, q', r, ?_, ?_, ?_, w4⟩ <;> rw [List.getElem?_set_ne (Ne.symm hj)] <;> assumption
    · rw [hj2] at hu; cases hu
    · rw [hj] at hu; cases hu

/-- Writing an element through a view. -/
theorem soa_write_view {m : Machine α Soa} {a : Abs α (Option α × Option α × Option α)} (h : SoaRel m a) {w : Nat × Nat × Nat} {c i : Nat}
    (hw : (soaLayout α).fits a.arrays w c) (hi : i < c) (e : α × α × α) :
    ∃ h', (do
      let h ← m.heap.write (some w.1) i e.1
      let h ← h.write (some w.2.1) i e.2.1
      h.write (some w.2.2) i e.2.2) = some h' ∧
      SoaRel ⟨h', m.objs⟩ ⟨(soaLayout α).write a.arrays w i e, a.objs⟩ := by
  obtain ⟨hx, hy, hz⟩ := hw
  obtain ⟨k1, a1, n1, c1, e1⟩ := write_array (v := e.1) h.arrays hx hi
  have len1 := setCell_length a.arrays w.1 i e.1
  obtain ⟨k2, a2, n2, c2, e2⟩ := write_array (h := k1) (r := setCell a.arrays w.1 i e.1) (v := e.2.1) (by rw [len1]; exact c1)
    (longEnough_setCell hy) hi
  have len2 := setCell_length (setCell a.arrays w.1 i e.1) w.2.1 i e.2.1
  obtain ⟨k3, a3, n3, c3, e3⟩ := write_array (h := k2) (r := setCell (setCell a.arrays w.1 i e.1) w.2.1 i e.2.1) (v := e.2.2)
    (by rw [len2]; exact c2) (longEnough_setCell (longEnough_setCell hz)) hi
  have len3 := setCell_length (setCell (setCell a.arrays w.1 i e.1) w.2.1 i e.2.1) w.2.2 i e.2.2
  rw [len2, len1] at c3 e3
  rw [len1] at c2 e2
  refine ⟨k3, ?_, ?_⟩
  · simp only [a1, Option.bind_eq_bind, Option.bind_some, a2, a3]
  · refine h.writeArrays Soa.Is.congr Soa.Is.mono (Eq.trans len3 (Eq.trans len2 len1))
      (by rw [n3, n2, n1]) c3 ?_ ?_
    · intro b hb; rw [e3 b hb, e2 b hb, e1 b hb]
    · intro b n hb; exact longEnough_setCell (longEnough_setCell (longEnough_setCell hb))

/-- C71 (one step): what the specification allows, the code does. -/
theorem soa_step (m : Machine α Soa) (a : Abs α (Option α × Option α × Option α)) (op : Op α) (a' : Abs α (Option α × Option α × Option α))
    (e : Option (Option α × Option α × Option α)) (h : SoaRel m a) (hs : stepFine (soaLayout α) SoaFine a op = some (a', e)) :
    ∃ m' c, stepSoa m op = some (m', c) ∧ SoaRel m' a' ∧ Option.Rel Agrees3 e c := by
  unfold stepFine at hs
  rw [Option.ite_none_right_eq_some] at hs
  obtain ⟨hfine, hs⟩ := hs
  cases op with
  | new o =>
    simp only [stepSpec, Option.ite_none_left_eq_some, Option.some.injEq, Prod.mk.injEq] at hs
    obtain ⟨hn, rfl, rfl⟩ := hs
    have ho : m.objs o = none := h.none (by simpa using hn)
    refine ⟨_, _, by simp only [stepSoa]; rw [ho]; rfl, ?_, Option.Rel.none⟩
    exact h.noblocks rfl (fun _ _ => rfl) (fun b t ht => by rw [ho] at ht; cases ht) rfl ⟨rfl, rfl, Nat.le_refl _, Or.inl ⟨rfl, rfl⟩⟩
  | sized o n =>
    simp only [stepSpec, Option.ite_none_left_eq_some, Option.some.injEq, Prod.mk.injEq] at hs
    obtain ⟨hn, rfl, rfl⟩ := hs
    have ho : m.objs o = none := h.none (by simpa using hn)
    exact ⟨_, _, by simp only [stepSoa]; rw [ho]; rfl, soa_sized h ho, Option.Rel.none⟩
  | view o w n =>
    simp only [stepSpec, Option.ite_none_left_eq_some, Option.some.injEq, Prod.mk.injEq, not_or, not_not] at hs
    obtain ⟨⟨hn, hw⟩, rfl, rfl⟩ := hs
    have ho : m.objs o = none := h.none (by simpa using hn)
    refine ⟨_, _, by simp only [stepSoa]; rw [ho]; rfl, ?_, Option.Rel.none⟩
    exact h.noblocks rfl (fun _ _ => rfl) (fun b t ht => by rw [ho] at ht; cases ht) rfl ⟨rfl, Nat.le_refl _, hw⟩
  | copy o p =>
    simp only [stepSpec, Option.ite_none_left_eq_some, Option.map_eq_some_iff, Prod.mk.injEq] at hs
    obtain ⟨hn, v, hv, rfl, rfl⟩ := hs
    have ho : m.objs o = none := h.none (by simpa using hn)
    obtain ⟨s, hs, hr⟩ := h.get' hv
    obtain ⟨r, e1, e2⟩ := soa_copy (p := p) h ho hr
    refine ⟨_, _, by simp only [stepSoa]; rw [ho, hs]; simp [e1], e2, Option.Rel.none⟩
  | assign o p =>
    simp only [stepSpec, Option.ite_none_left_eq_some, Option.map_eq_some_iff, Prod.mk.injEq] at hs
    obtain ⟨hn, v, hv, rfl, rfl⟩ := hs
    obtain ⟨hop, hc⟩ := hfine
    obtain ⟨vo, hvo⟩ : ∃ vo, a.objs o = some vo := by cases q : a.objs o with
      | none => rw [q] at hn; simp at hn
      | some vo => exact ⟨vo, rfl⟩
    obtain ⟨t, ht, -⟩ := h.get' hvo
    obtain ⟨s, hs, hr⟩ := h.get' hv
    obtain ⟨r, e1, e2⟩ := soa_assign h hop ht hs hv hr hc
    refine ⟨_, _, by simp only [stepSoa]; rw [ht, hs]; simp [hop, e1], e2, Option.Rel.none⟩
  | destroy o =>
    simp only [stepSpec, Option.ite_none_left_eq_some, Option.some.injEq, Prod.mk.injEq] at hs
    obtain ⟨hn, rfl, rfl⟩ := hs
    obtain ⟨vo, hvo⟩ : ∃ vo, a.objs o = some vo := by cases q : a.objs o with
      | none => rw [q] at hn; simp at hn
      | some vo => exact ⟨vo, rfl⟩
    obtain ⟨t, ht, -⟩ := h.get' hvo
    obtain ⟨k, e1, e2⟩ := soa_destroy h ht
    exact ⟨_, _, by simp only [stepSoa]; rw [ht]; simp [e1], e2, Option.Rel.none⟩
  | resize o n =>
    simp only [stepSpec, Option.bind_eq_some_iff, Option.ite_none_left_eq_some] at hs
    obtain ⟨v, hv, hn, hs⟩ := hs
    obtain ⟨t, ht, hr⟩ := h.get' hv
    obtain ⟨e1, e2⟩ := soa_resize h ht hr (Nat.le_of_not_lt hn)
    refine ⟨⟨m.heap, upd m.objs o (some { t with size := n })⟩, none, by simp only [stepSoa]; rw [ht]; simp [e1], ?_, ?_⟩
    · cases v <;> (cases hs; exact e2)
    · cases v <;> (cases hs; exact Option.Rel.none)
  | reserve o n =>
    simp only [stepSpec, Option.map_eq_some_iff] at hs
    obtain ⟨v, hv, hs⟩ := hs
    obtain ⟨t, ht, hr⟩ := h.get' hv
    obtain ⟨r, e1, e2⟩ := soa_reserve (n := n) h ht hr
    refine ⟨⟨r.1, upd m.objs o (some r.2)⟩, none, by simp only [stepSoa]; rw [ht]; simp [e1], ?_, ?_⟩
    · cases v <;> (cases hs; exact e2)
    · cases v <;> (cases hs; exact Option.Rel.none)
  | clear o =>
    simp only [stepSpec, Option.map_eq_some_iff, Prod.mk.injEq] at hs
    obtain ⟨v, hv, rfl, rfl⟩ := hs
    obtain ⟨t, ht, -⟩ := h.get' hv
    obtain ⟨r, e1, e2⟩ := soa_clear h ht
    exact ⟨_, _, by simp only [stepSoa]; rw [ht]; simp [e1], e2, Option.Rel.none⟩
  | set o i x =>
    simp only [stepSpec, Option.bind_eq_some_iff, Option.ite_none_left_eq_some] at hs
    obtain ⟨v, hv, hn, hs⟩ := hs
    obtain ⟨t, ht, hr⟩ := h.get' hv
    cases v with
    | view w s c =>
      cases hs
      have hic : i < c := Nat.lt_of_not_le hn
      obtain ⟨k, e1, e2⟩ := soa_write_view h hr.2.2 hic x
      refine ⟨⟨k, m.objs⟩, none, ?_, e2, Option.Rel.none⟩
      simp only [stepSoa]
      rw [ht, hr.1]
      simp only [Option.bind_eq_bind, Option.bind_some, Soa.set, if_pos hic] at e1 ⊢
      rw [e1]; rfl
    | own c l =>
      cases hs
      have hic : i < c := Nat.lt_of_not_le hn
      obtain ⟨h1, h2, h3, h4⟩ := hr
      rcases h4 with h4 | ⟨ha, p, q, r, hh⟩
      · omega
      have hown : ∀ b, t.Owns b ↔ b = p ∨ b = q ∨ b = r := by
        intro b
        unfold Soa.Owns
        rw [hh.1, hh.2.1, hh.2.2.1]
        simp [ha, eq_comm]
      obtain ⟨k, e1, e2, e3, e4, e5, e6, e7⟩ := soa_write_own hh hic x (l.set i (some x.1, some x.2.1, some x.2.2)) (by
        intro j
        by_cases hj : j = i
        · subst hj
          by_cases hjl : j < l.length
          · left; exact ⟨by rw [List.getElem?_set_self hjl], rfl⟩
          · right; right; rw [List.getElem?_eq_none]; simpa using hjl
        · right; left; exact ⟨hj, Or.inl (by rw [List.getElem?_set_ne (Ne.symm hj)])⟩)
      have hrel := h.inplace (h' := k) (s := t) (v := .own c (l.set i (some x.1, some x.2.1, some x.2.2))) ht (fun _ => Iff.rfl) e2
        (fun b hb => by rw [hown] at hb; push Not at hb; exact e3 b hb.1 hb.2.1 hb.2.2)
        (fun b hb => by rw [hown] at hb; rcases hb with rfl | rfl | rfl <;> assumption)
        ⟨by simpa using h1, h2, by simpa using h3, Or.inr ⟨ha, p, q, r, e7 t rfl rfl rfl⟩⟩
      rw [show upd m.objs o (some t) = m.objs by rw [← ht]; exact upd_self _ _] at hrel
      refine ⟨⟨k, m.objs⟩, none, ?_, hrel, Option.Rel.none⟩
      simp only [stepSoa]
      rw [ht]
      simp only [Option.bind_eq_bind, Option.bind_some, Soa.set, h2, if_pos hic] at e1 ⊢
      rw [e1]; rfl
  | push o x =>
    simp only [stepSpec, Option.bind_eq_some_iff, Option.ite_none_left_eq_some] at hs
    obtain ⟨v, hv, hn, hs⟩ := hs
    obtain ⟨t, ht, hr⟩ := h.get' hv
    cases v with
    | view w s c =>
      cases hs
      have hic : s < c := Nat.lt_of_not_le hn
      obtain ⟨k, e1, e2⟩ := soa_write_view h hr.2.2 hic x
      refine ⟨⟨k, upd m.objs o (some { t with size := s + 1 })⟩, none, ?_, ?_, Option.Rel.none⟩
      · simp only [stepSoa]
        rw [ht, hr.1]
        simp only [Option.bind_eq_bind, Option.bind_some, Soa.pushBack] at e1 ⊢
        cases q1 : m.heap.write (some w.1) s x.1 with
        | none => rw [q1] at e1; cases e1
        | some h1' =>
          rw [q1, Option.bind_some] at e1
          rw [Option.bind_some]
          cases q2 : h1'.write (some w.2.1) s x.2.1 with
          | none => rw [q2] at e1; cases e1
          | some h2' =>
            rw [q2, Option.bind_some] at e1
            rw [Option.bind_some, e1, Option.bind_some]
            rfl
      · obtain ⟨vo, hvo, hro⟩ := e2.get (o := o) ht
        have hvo' : a.objs o = some vo := hvo
        rw [hv] at hvo'
        cases hvo'
        refine e2.inplace (s := { t with size := s + 1 }) ht (fun _ => Iff.rfl) rfl (fun _ _ => rfl) (soa_live e2 ht) ?_
        have e0 := hro.1
        subst e0
        exact ⟨rfl, hic, hro.2.2⟩
    | own c l =>
      cases hs
      have hic : l.length < c := Nat.lt_of_not_le hn
      obtain ⟨h1, h2, h3, h4⟩ := hr
      rcases h4 with h4 | ⟨ha, p, q, r, hh⟩
      · omega
      have hown : ∀ b, t.Owns b ↔ b = p ∨ b = q ∨ b = r := by
        intro b
        unfold Soa.Owns
        rw [hh.1, hh.2.1, hh.2.2.1]
        simp [ha, eq_comm]
      obtain ⟨k, e1, e2, e3, e4, e5, e6, e7⟩ := soa_write_own hh hic x (l ++ [(some x.1, some x.2.1, some x.2.2)]) (by
        intro j
        rcases Nat.lt_trichotomy j l.length with hj | hj | hj
        · right; left; exact ⟨by omega, Or.inl (List.getElem?_append_left hj)⟩
        · subst hj; left; exact ⟨by simp, rfl⟩
        · right; right; rw [List.getElem?_eq_none]; simp; omega)
      refine ⟨⟨k, upd m.objs o (some { t with size := t.size + 1 })⟩, none, ?_, ?_, Option.Rel.none⟩
      · simp only [stepSoa]
        rw [ht]
        simp only [Option.bind_eq_bind, Option.bind_some, Soa.pushBack, h1] at e1 ⊢
        cases q1 : m.heap.write t.x l.length x.1 with
        | none => rw [q1] at e1; cases e1
        | some h1' =>
          rw [q1, Option.bind_some] at e1
          rw [Option.bind_some]
          cases q2 : h1'.write t.y l.length x.2.1 with
          | none => rw [q2] at e1; cases e1
          | some h2' =>
            rw [q2, Option.bind_some] at e1
            rw [Option.bind_some, e1, Option.bind_some]
            rfl
      · exact h.inplace (s := { t with size := t.size + 1 }) ht (fun _ => Iff.rfl) e2
          (fun b hb => by rw [hown] at hb; push Not at hb; exact e3 b hb.1 hb.2.1 hb.2.2)
          (fun b hb => by rw [hown] at hb; rcases hb with rfl | rfl | rfl <;> assumption)
          ⟨by simp [h1], h2, by simp; omega, Or.inr ⟨ha, p, q, r, e7 _ rfl rfl rfl⟩⟩
  | get o i =>
    simp only [stepSpec, Option.bind_eq_some_iff, Option.ite_none_left_eq_some] at hs
    obtain ⟨v, hv, hn, hs⟩ := hs
    obtain ⟨t, ht, hr⟩ := h.get' hv
    cases v with
    | view w s c =>
      cases hs
      have hic : i < c := Nat.lt_of_lt_of_le (Nat.lt_of_not_le hn) hr.2.1
      obtain ⟨fx, fy, fz⟩ := hr.2.2
      refine ⟨m, some _, ?_, h, Option.Rel.some (agrees3_refl _)⟩
      simp only [stepSoa]
      rw [ht, hr.1]
      simp only [Option.bind_eq_bind, Option.bind_some, Soa.get, read_array h.arrays fx hic, read_array h.arrays fy hic,
        read_array h.arrays fz hic]
      rfl
    | own c l =>
      have hil : i < l.length := Nat.lt_of_not_le hn
      obtain ⟨h1, h2, h3, h4⟩ := hr
      rcases h4 with h4 | ⟨ha, p, q, r, ex, ey, ez, -, -, -, bx, cy, bz, g1, g2, g3, l1, l2, l3, hl⟩
      · omega
      have he : l[i]? = some l[i] := List.getElem?_eq_getElem hil
      dsimp only at hs
      rw [he] at hs
      cases hs
      obtain ⟨u, v, w, w1, w2, w3, w4⟩ := hl i _ he
      refine ⟨m, some (u, v, w), ?_, h, Option.Rel.some w4⟩
      simp only [stepSoa]
      rw [ht]
      simp only [Option.bind_eq_bind, Option.bind_some, Soa.get, ex, ey, ez, read_ok g1 w1, read_ok g2 w2, read_ok g3 w3]

end Container
end VecGeom
