import Verif.Container.AosProps

/-!
# C71-C73: containers of vectors

Programs are arbitrary sequences of operations on arbitrarily many containers, over arbitrary arrays of the program.
-/

namespace VecGeom
namespace Container

variable {α : Type}

/-- The start of a program, for the specification. -/
def Abs.start {β E : Type} (arrays : List (Block β)) : Abs β E := ⟨arrays, fun _ => none⟩

/-- The claim: a program that breaks no precondition, and all of whose steps are `fine`, runs without undefined behaviour;
it reads what the specification says, it leaves the arrays of the program as the specification says, its containers have the
sizes and capacities of the specification, and no memory is left when all containers are gone. -/
def Follows {β E C σ : Type} (L : Layout α β E) (fine : Abs β E → Op α → Prop) (agrees : E → C → Prop)
    (step : Machine β σ → Op α → Option (Machine β σ × Option C)) (size capacity : σ → Nat) : Prop :=
  ∀ (arrays : List (Block β)) (program : List (Op α)) (a : Abs β E) (out : List E),
    runWith (stepFine L fine) (Abs.start arrays) program = some (a, out) →
    ∃ m out', runWith step ⟨Heap.start arrays, fun _ => none⟩ program = some (m, out') ∧ List.Forall₂ agrees out out' ∧
      a.arrays.length = arrays.length ∧ (∀ b, b < arrays.length → m.heap.blocks b = a.arrays[b]?) ∧
      (∀ o, (m.objs o).map size = (a.objs o).map Value.size ∧ (m.objs o).map capacity = (a.objs o).map Value.capacity) ∧
      ((∀ o, a.objs o = none) → ∀ b, arrays.length ≤ b → m.heap.blocks b = none)

theorem stepSpec_length {β E : Type} (L : Layout α β E) (hw : ∀ r w i e, (L.write r w i e).length = r.length) (a : Abs β E) (op : Op α)
    (a' : Abs β E) (e : Option E) (h : stepSpec L a op = some (a', e)) : a'.arrays.length = a.arrays.length := by
  cases op with
  | new o | sized o n | view o w n | destroy o =>
    simp only [stepSpec, Option.ite_none_left_eq_some, Option.some.injEq, Prod.mk.injEq] at h
    obtain ⟨-, rfl, -⟩ := h
    rfl
  | copy o p | assign o p =>
    simp only [stepSpec, Option.ite_none_left_eq_some, Option.map_eq_some_iff, Prod.mk.injEq] at h
    obtain ⟨-, v, -, rfl, -⟩ := h
    rfl
  | clear o =>
    simp only [stepSpec, Option.map_eq_some_iff, Prod.mk.injEq] at h
    obtain ⟨v, -, rfl, -⟩ := h
    rfl
  | reserve o n =>
    simp only [stepSpec, Option.map_eq_some_iff] at h
    obtain ⟨v, -, h⟩ := h
    cases v <;> (cases h; rfl)
  | resize o n =>
    simp only [stepSpec, Option.bind_eq_some_iff, Option.ite_none_left_eq_some] at h
    obtain ⟨v, -, -, h⟩ := h
    cases v <;> (cases h; rfl)
  | set o i x | push o x =>
    simp only [stepSpec, Option.bind_eq_some_iff, Option.ite_none_left_eq_some] at h
    obtain ⟨v, -, -, h⟩ := h
    cases v with
    | own c l => cases h; rfl
    | view w n c => cases h; exact hw _ _ _ _
  | get o i =>
    simp only [stepSpec, Option.bind_eq_some_iff, Option.ite_none_left_eq_some] at h
    obtain ⟨v, -, -, h⟩ := h
    cases v <;> (cases h; rfl)

theorem run_length {β E : Type} (L : Layout α β E) (hw : ∀ r w i e, (L.write r w i e).length = r.length) (fine : Abs β E → Op α → Prop)
    (l : List (Op α)) (a a' : Abs β E) (out : List E) (h : runWith (stepFine L fine) a l = some (a', out)) :
    a'.arrays.length = a.arrays.length := by
  induction l generalizing a a' out with
  | nil => simp only [runWith, Option.some.injEq, Prod.mk.injEq] at h; obtain ⟨rfl, -⟩ := h; rfl
  | cons op l ih =>
    simp only [runWith, Option.bind_eq_bind, Option.bind_eq_some_iff, Option.some.injEq, Prod.mk.injEq] at h
    obtain ⟨⟨a1, e⟩, h1, ⟨a2, out2⟩, h2, rfl, -⟩ := h
    unfold stepFine at h1
    rw [Option.ite_none_right_eq_some] at h1
    rw [ih a1 a2 out2 h2]
    exact stepSpec_length L hw a op a1 e h1.2

theorem rel_start {β E σ : Type} {owns : σ → Nat → Prop} {OR : (Nat → Option (Block β)) → List (Block β) → σ → Value E → Prop}
    (arrays : List (Block β)) : Rel owns OR ⟨Heap.start arrays, fun _ => none⟩ (Abs.start arrays) where
  arrays _ _ := rfl
  below := Nat.le_refl _
  fresh b hb := List.getElem?_eq_none hb
  obj _ := Option.Rel.none
  apart _ _ _ _ _ h := by cases h
  live _ _ _ h := by cases h
  leak b hb h := absurd (List.getElem?_eq_none hb) h

theorem follows_of_step {β E C σ : Type} {owns : σ → Nat → Prop} {OR : (Nat → Option (Block β)) → List (Block β) → σ → Value E → Prop}
    {L : Layout α β E} {fine : Abs β E → Op α → Prop} {agrees : E → C → Prop}
    {step : Machine β σ → Op α → Option (Machine β σ × Option C)} {size capacity : σ → Nat}
    (hw : ∀ r w i e, (L.write r w i e).length = r.length)
    (hsize : ∀ g r s v, OR g r s v → size s = v.size ∧ capacity s = v.capacity)
    (hstep : ∀ m a op a' e, Rel owns OR m a → stepFine L fine a op = some (a', e) →
      ∃ m' c, step m op = some (m', c) ∧ Rel owns OR m' a' ∧ Option.Rel agrees e c) :
    Follows L fine agrees step size capacity := by
  intro arrays l a out h
  obtain ⟨m, out', h1, h2, h3⟩ := run_rel hstep l _ _ a out (rel_start arrays) h
  have hlen := run_length L hw fine l _ a out h
  have hlen : a.arrays.length = arrays.length := hlen
  refine ⟨m, out', h1, h3, hlen, fun b hb => h2.arrays b (by omega), ?_, ?_⟩
  · intro o
    have := h2.obj o
    cases hm : m.objs o with
    | none => rw [hm] at this; cases hv : a.objs o with
      | none => exact ⟨rfl, rfl⟩
      | some v => rw [hv] at this; cases this
    | some s =>
      obtain ⟨v, hv, hr⟩ := h2.get hm
      rw [hv]
      obtain ⟨e1, e2⟩ := hsize _ _ _ _ hr
      exact ⟨by simp [e1], by simp [e2]⟩
  · intro hnone b hb
    by_contra hne
    obtain ⟨o, s, hs, -⟩ := h2.leak b (by omega) hne
    rw [h2.none (hnone o)] at hs
    cases hs

/-- C71: programs with `SOA3D`.  Missing: assignment of a container to itself, and from an empty container that has memory. -/
theorem C71_soa_partial : Follows (soaLayout α) SoaFine Agrees3 stepSoa Soa.size Soa.capacity := by
  refine follows_of_step ?_ ?_ soa_step
  · intro r w i e
    show (setCell (setCell (setCell r w.1 i e.1) w.2.1 i e.2.1) w.2.2 i e.2.2).length = _
    rw [setCell_length, setCell_length, setCell_length]
  · intro g r s v h
    cases v with
    | own c l => exact ⟨h.1, h.2.1⟩
    | view w n c => obtain ⟨rfl, -⟩ := h; exact ⟨rfl, rfl⟩

/-- C72: programs with `AOS3D`.  Missing: assignment of a container to itself. -/
theorem C72_aos_partial : Follows (aosLayout α) AosFine Agrees stepAos Aos.size Aos.capacity := by
  refine follows_of_step ?_ ?_ aos_step
  · intro r w i e; exact setCell_length _ _ _ _
  · intro g r s v h
    cases v with
    | own c l => exact ⟨h.1, h.2.1⟩
    | view w n c => obtain ⟨rfl, -⟩ := h; exact ⟨rfl, rfl⟩

/-- A program that is fine for both: a view is copied into own memory, the copy is changed, assigned and shown. -/
def sample : List (Op Nat) :=
  [.view 0 (0, 1, 2) 2, .copy 1 0, .reserve 1 3, .push 1 (7, 8, 9), .set 0 0 (4, 5, 6), .new 2, .assign 2 1, .set 2 2 (1, 1, 1), .resize 2 3,
    .get 0 0, .get 1 2, .get 2 2, .get 2 1, .clear 1, .destroy 0, .destroy 1, .destroy 2]

/-- The hypothesis of C71 is met by a program with views, copies, assignments and writes. -/
example : (runWith (stepFine (soaLayout Nat) SoaFine) (Abs.start [[some 1, some 2], [some 3, some 4], [some 5, none]]) sample).map
    (fun r => (r.1.arrays, r.2)) =
    some ([[some 4, some 2], [some 5, some 4], [some 6, none]],
      [(some 4, some 5, some 6), (some 7, some 8, some 9), (some 1, some 1, some 1), (some 2, some 4, none)]) := by
  simp [sample, runWith, stepFine, stepSpec, SoaFine, Abs.start, upd, soaLayout, LongEnough, Value.size, Value.capacity, cell, setCell]

/-- The hypothesis of C72 is met. -/
example : (runWith (stepFine (aosLayout Nat) AosFine) (Abs.start [[some (1, 3, 5), none]]) sample).map
    (fun r => (r.1.arrays, r.2)) =
    some ([[some (4, 5, 6), none]], [some (4, 5, 6), some (7, 8, 9), some (1, 1, 1), none]) := by
  simp [sample, runWith, stepFine, stepSpec, AosFine, Abs.start, upd, aosLayout, LongEnough, Value.size, Value.capacity, cell, setCell]

/-- C71: the assignment of a container to itself frees its memory, after which its elements cannot be read. -/
theorem C71_self_counterexample : ¬ Follows (soaLayout Nat) (fun _ _ => True) Agrees3 stepSoa Soa.size Soa.capacity := by
  intro h
  have hs : ∃ a, runWith (stepFine (soaLayout Nat) fun _ _ => True) (Abs.start [])
      [.sized 0 1, .set 0 0 (4, 5, 6), .assign 0 0, .get 0 0] = some (a, [(some 4, some 5, some 6)]) := by
    simp [runWith, stepFine, stepSpec, Abs.start, upd, soaLayout, Value.size, Value.capacity]
  obtain ⟨a, ha⟩ := hs
  obtain ⟨m, out, hm, -⟩ := h [] _ a _ ha
  have : (runWith stepSoa ⟨Heap.start ([] : List (Block Nat)), fun _ => none⟩
      [.sized 0 1, .set 0 0 (4, 5, 6), .assign 0 0, .get 0 0]).isNone = true := rfl
  rw [hm] at this
  cases this

/-- C71: the assignment from an empty container that has memory makes two containers share it: an element of the one is
overwritten through the other, and is lost with the other. -/
theorem C71_empty_counterexample : ¬ Follows (soaLayout Nat) (fun _ op => ∀ o, op ≠ .assign o o) Agrees3 stepSoa Soa.size Soa.capacity ∧
    (runWith stepSoa ⟨Heap.start ([] : List (Block Nat)), fun _ => none⟩
      [.new 0, .reserve 0 1, .new 1, .assign 1 0, .push 1 (4, 5, 6), .destroy 0, .get 1 0]).isNone = true := by
  refine ⟨?_, rfl⟩
  intro h
  have hs : ∃ a, runWith (stepFine (soaLayout Nat) fun _ op => ∀ o, op ≠ .assign o o) (Abs.start [])
      [.new 0, .reserve 0 1, .new 1, .assign 1 0, .push 1 (4, 5, 6), .push 0 (7, 8, 9), .get 1 0] = some (a, [(some 4, some 5, some 6)]) := by
    simp [runWith, stepFine, stepSpec, Abs.start, upd, soaLayout, Value.size, Value.capacity]
  obtain ⟨a, ha⟩ := hs
  obtain ⟨m, out, hm, hag, -⟩ := h [] _ a _ ha
  have : (runWith stepSoa ⟨Heap.start ([] : List (Block Nat)), fun _ => none⟩
      [.new 0, .reserve 0 1, .new 1, .assign 1 0, .push 1 (4, 5, 6), .push 0 (7, 8, 9), .get 1 0]).map Prod.snd =
      some [(some 7, some 8, some 9)] := rfl
  rw [hm] at this
  cases this
  cases hag with
  | cons h1 _ => have := h1.1 4 rfl; cases this

/-- C72: the assignment of a container to itself empties it. -/
theorem C72_self_counterexample : ¬ Follows (aosLayout Nat) (fun _ _ => True) Agrees stepAos Aos.size Aos.capacity := by
  intro h
  have hs : ∃ a, runWith (stepFine (aosLayout Nat) fun _ _ => True) (Abs.start [])
      [.sized 0 1, .set 0 0 (4, 5, 6), .assign 0 0, .get 0 0] = some (a, [some (4, 5, 6)]) := by
    simp [runWith, stepFine, stepSpec, Abs.start, upd, aosLayout, Value.size, Value.capacity]
  obtain ⟨a, ha⟩ := hs
  obtain ⟨m, out, hm, -⟩ := h [] _ a _ ha
  have : (runWith stepAos ⟨Heap.start ([] : List (Block (Nat × Nat × Nat))), fun _ => none⟩
      [.sized 0 1, .set 0 0 (4, 5, 6), .assign 0 0, .get 0 0]).isNone = true := rfl
  rw [hm] at this
  cases this

/-! ## C73: files -/

/-- C73: what `ToFile` has written, `FromFile` restores, if the capacity is the same. -/
theorem C73_roundtrip (size c : Nat) (x y z x' y' z' : List α) (hx : x.length = c) (hy : y.length = c) (hz : z.length = c)
    (hx' : x'.length = c) (hy' : y'.length = c) (hz' : z'.length = c) :
    fromFile c x' y' z' (toFile size c x y z) = ((c : Int), x, y, z) := by
  have t1 : x.take c = x := by rw [← hx]; exact List.take_length
  have t2 : y.take c = y := by rw [← hy]; exact List.take_length
  have t3 : z.take c = z := by rw [← hz]; exact List.take_length
  have d1 : (x ++ y ++ z).drop c = y ++ z := by rw [List.append_assoc, ← hx, List.drop_left]
  have d2 : (y ++ z).drop c = z := by rw [← hy, List.drop_left]
  have k1 : (x ++ y ++ z).take c = x := by rw [List.append_assoc, ← hx, List.take_left]
  have k2 : (y ++ z).take c = y := by rw [← hy, List.take_left]
  have l1 : c ≤ (x ++ y ++ z).length := by simp; omega
  have l2 : c ≤ (y ++ z).length := by simp; omega
  have l3 : c ≤ z.length := by omega
  have m1 : min c (x ++ y ++ z).length = c := by omega
  have m2 : min c (y ++ z).length = c := by omega
  have m3 : min c z.length = c := by omega
  have e1 : x'.drop c = [] := by rw [← hx']; exact List.drop_length
  have e2 : y'.drop c = [] := by rw [← hy']; exact List.drop_length
  have e3 : z'.drop c = [] := by rw [← hz']; exact List.drop_length
  simp only [fromFile, toFile, readBlock, t1, t2, t3, d1, d2, k1, k2, m1, m2, m3, e1, e2, e3, l1, l2, l3, decide_true, List.append_nil,
    Bool.not_true, Bool.false_eq_true, if_false]

example : fromFile 2 [0, 0] [0, 0] [0, 0] (toFile 1 2 [1, 2] [3, 4] [5, 6]) = (2, [1, 2], [3, 4], [5, 6]) := C73_roundtrip 1 2 _ _ _ _ _ _ rfl rfl rfl rfl rfl rfl

theorem fromFile_short (c' : Nat) (x y z : List α) (f : File α) (h : f.values.length < 3 * c') : (fromFile c' x y z f).1 < 0 := by
  obtain ⟨s, c, w⟩ := f
  have h : w.length < 3 * c' := h
  simp only [fromFile, readBlock]
  by_cases h1 : c' ≤ w.length
  · by_cases h2 : c' ≤ (w.drop c').length
    · have h3 : ¬ c' ≤ ((w.drop c').drop c').length := by
        simp only [List.length_drop] at h2 ⊢; omega
      simp only [h1, h2, h3, decide_true, decide_false, Bool.not_true, Bool.not_false, Bool.false_eq_true, if_false, if_true]; decide
    · simp only [h1, h2, decide_true, decide_false, Bool.not_true, Bool.not_false, Bool.false_eq_true, if_false, if_true]; decide
  · simp only [h1, decide_false, Bool.not_false, if_true]; decide

/-- C73: a container that is too large is reported. -/
theorem C73_larger (size c c' : Nat) (x y z x' y' z' : List α) (hc : c < c') : (fromFile c' x' y' z' (toFile size c x y z)).1 < 0 := by
  apply fromFile_short
  simp only [toFile, List.length_append, List.length_take]; omega

example : (fromFile 3 [0, 0, 0] [0, 0, 0] [0, 0, 0] (toFile 2 2 [1, 2] [3, 4] [5, 6])).1 < 0 := C73_larger 2 2 3 _ _ _ _ _ _ (by decide)

/-- C73: the file says how many elements it has and how far apart the columns are, but a reader of smaller capacity does
not look: it reports success with columns mixed up.  The number of elements is never restored. -/
theorem C73_smaller_counterexample : fromFile 1 [0] [0] [0] (toFile 1 2 [1, 2] [3, 4] [5, 6]) = (1, [1], [2], [3]) := rfl

end Container
end VecGeom
