import Verif.Registry.Lemmas
import Mathlib.Data.List.Induction

/-!
# C21: the volume registry; C22: compaction; C57: index conversions

`run Mgr.init ops` is the state after a history of operations of a program; `none` is undefined behaviour (use of
destroyed objects, writes outside an allocation).
-/

namespace VecGeom
namespace Registry
variable {δ : Type}

/-! ## Specification -/

/-- Number of placed volumes constructed in a history. -/
def placedCount (ops : List (Op δ)) : Nat := (ops.filter (fun o => match o with | .newPlaced .. => true | _ => false)).length

/-- Number of logical volumes constructed in a history. -/
def logicalCount (ops : List (Op δ)) : Nat :=
  (ops.filter (fun o => match o with | .newLogical .. => true | _ => false)).length

/-- The `i`-th placed volume constructed was put at address `n` and has not been destroyed since. -/
def PlacedAlive (ops : List (Op δ)) (i n : Nat) : Prop :=
  ∃ pre s l d post, ops = pre ++ .newPlaced n s l d :: post ∧ placedCount pre = i ∧ .deletePlaced n ∉ post

/-- The `i`-th logical volume constructed was put at address `n` and has not been destroyed since. -/
def LogicalAlive (ops : List (Op δ)) (i n : Nat) : Prop :=
  ∃ pre s l post, ops = pre ++ .newLogical n s l :: post ∧ logicalCount pre = i ∧ .deleteLogical n ∉ post

/-- The geometry is not closed or cleared in this history. -/
def Open (ops : List (Op δ)) : Prop := ∀ o ∈ ops, match o with | .close => False | .clear => False | _ => True

/-! ## C21 -/

theorem placedAlive_snoc (ops : List (Op δ)) (o : Op δ) (i n : Nat) : PlacedAlive (ops ++ [o]) i n ↔
    (PlacedAlive ops i n ∧ o ≠ .deletePlaced n) ∨ (placedCount ops = i ∧ ∃ s l d, o = .newPlaced n s l d) := by
  constructor
  · rintro ⟨pre, s, l, d, post, h, hc, hd⟩
    rcases List.eq_nil_or_concat post with rfl | ⟨post', x, rfl⟩
    · have h' : ops ++ [o] = pre ++ [.newPlaced n s l d] := h
      obtain ⟨rfl, h2⟩ := List.append_inj' h' rfl
      exact Or.inr ⟨hc, s, l, d, by simpa using h2⟩
    · rw [List.concat_eq_append] at h hd
      have h' : ops ++ [o] = (pre ++ .newPlaced n s l d :: post') ++ [x] := by rw [h]; simp
      obtain ⟨rfl, h2⟩ := List.append_inj' h' rfl
      obtain rfl : o = x := by simpa using h2
      refine Or.inl ⟨⟨pre, s, l, d, post', rfl, hc, fun h => hd (List.mem_append_left _ h)⟩, ?_⟩
      rintro rfl
      exact hd (by simp)
  · rintro (⟨⟨pre, s, l, d, post, rfl, hc, hd⟩, ho⟩ | ⟨hc, s, l, d, rfl⟩)
    · refine ⟨pre, s, l, d, post ++ [o], by simp, hc, ?_⟩
      rw [List.mem_append, List.mem_singleton]
      rintro (h | h)
      · exact hd h
      · exact ho h.symm
    · exact ⟨ops, s, l, d, [], rfl, hc, by simp⟩

theorem logicalAlive_snoc (ops : List (Op δ)) (o : Op δ) (i n : Nat) : LogicalAlive (ops ++ [o]) i n ↔
    (LogicalAlive ops i n ∧ o ≠ .deleteLogical n) ∨ (logicalCount ops = i ∧ ∃ s l, o = .newLogical n s l) := by
  constructor
  · rintro ⟨pre, s, l, post, h, hc, hd⟩
    rcases List.eq_nil_or_concat post with rfl | ⟨post', x, rfl⟩
    · have h' : ops ++ [o] = pre ++ [.newLogical n s l] := h
      obtain ⟨rfl, h2⟩ := List.append_inj' h' rfl
      exact Or.inr ⟨hc, s, l, by simpa using h2⟩
    · rw [List.concat_eq_append] at h hd
      have h' : ops ++ [o] = (pre ++ .newLogical n s l :: post') ++ [x] := by rw [h]; simp
      obtain ⟨rfl, h2⟩ := List.append_inj' h' rfl
      obtain rfl : o = x := by simpa using h2
      refine Or.inl ⟨⟨pre, s, l, post', rfl, hc, fun h => hd (List.mem_append_left _ h)⟩, ?_⟩
      rintro rfl
      exact hd (by simp)
  · rintro (⟨⟨pre, s, l, post, rfl, hc, hd⟩, ho⟩ | ⟨hc, s, l, rfl⟩)
    · refine ⟨pre, s, l, post ++ [o], by simp, hc, ?_⟩
      rw [List.mem_append, List.mem_singleton]
      rintro (h | h)
      · exact hd h
      · exact ho h.symm
    · exact ⟨ops, s, l, [], rfl, hc, by simp⟩

theorem placedAlive_lt (ops : List (Op δ)) (i n : Nat) (h : PlacedAlive ops i n) : i < placedCount ops := by
  obtain ⟨pre, s, l, d, post, rfl, rfl, _⟩ := h
  simp [placedCount]

theorem logicalAlive_lt (ops : List (Op δ)) (i n : Nat) (h : LogicalAlive ops i n) : i < logicalCount ops := by
  obtain ⟨pre, s, l, post, rfl, rfl, _⟩ := h
  simp [logicalCount]

/-- The state after an open history. -/
structure OpenInv (ops : List (Op δ)) (m : Mgr δ) : Prop where
  cl : m.closed = false
  np : m.nextP = placedCount ops
  nl : m.nextL = logicalCount ops
  po : ∀ i n, PlacedAlive ops i n ↔ ∃ o, m.pobj (.heap n) = some o ∧ o.id = i
  lo : ∀ i n, LogicalAlive ops i n ↔ ∃ o, m.lobj n = some o ∧ o.id = i
  pf : ∀ i q, mfind m.placed i = some q ↔ ∃ n, q = some (.heap n) ∧ PlacedAlive ops i n
  lf : ∀ i n, mfind m.logical i = some n ↔ LogicalAlive ops i n

theorem openInv : ∀ (ops : List (Op δ)) (m : Mgr δ), Open ops → run Mgr.init ops = some m → OpenInv ops m := by
  intro ops
  induction ops using List.reverseRecOn with
  | nil =>
    intro m _ h
    obtain rfl := Option.some.inj h
    have hp : ∀ i n, ¬ PlacedAlive ([] : List (Op δ)) i n := by
      rintro i n ⟨pre, s, l, d, post, h, _⟩; simp at h
    have hl : ∀ i n, ¬ LogicalAlive ([] : List (Op δ)) i n := by
      rintro i n ⟨pre, s, l, post, h, _⟩; simp at h
    exact ⟨rfl, rfl, rfl, fun i n => by simp [hp, Mgr.init], fun i n => by simp [hl, Mgr.init],
      fun i n => by simp [hp, Mgr.init, mfind], fun i n => by simp [hl, Mgr.init, mfind]⟩
  | append_singleton ops o ih =>
    intro m' ho h
    rw [run_append] at h
    cases hm : run Mgr.init ops with
    | none => rw [hm] at h; simp at h
    | some m =>
      rw [hm] at h
      have I := ih m (fun x hx => ho x (List.mem_append_left _ hx)) hm
      have hcons := Cons.run ops Cons.init hm
      have hs : step m o = some m' := by
        simp only [Option.bind_some, run] at h
        cases hst : step m o with
        | none => rw [hst] at h; simp at h
        | some x => rw [hst] at h; exact h
      have hoo := ho o (by simp)
      -- operations that touch nothing relevant
      have keep : ∀ m1 : Mgr δ, m1.closed = m.closed → m1.nextP = m.nextP → m1.nextL = m.nextL →
          m1.pobj = m.pobj → (∀ n, (m1.lobj n).map (·.id) = (m.lobj n).map (·.id)) → m1.placed = m.placed →
          m1.logical = m.logical →
          (∀ n s l d, o ≠ .newPlaced n s l d) → (∀ n s l, o ≠ .newLogical n s l) →
          (∀ n, o ≠ .deletePlaced n) → (∀ n, o ≠ .deleteLogical n) → OpenInv (ops ++ [o]) m1 := by
        intro m1 e1 e2 e3 e4 e5 e6 e7 n1 n2 n3 n4
        have hp : ∀ i n, PlacedAlive (ops ++ [o]) i n ↔ PlacedAlive ops i n := by
          intro i n
          rw [placedAlive_snoc]
          constructor
          · rintro (h | ⟨_, s, l, d, h⟩)
            · exact h.1
            · exact absurd h (n1 _ _ _ _)
          · intro h; exact Or.inl ⟨h, n3 n⟩
        have hl : ∀ i n, LogicalAlive (ops ++ [o]) i n ↔ LogicalAlive ops i n := by
          intro i n
          rw [logicalAlive_snoc]
          constructor
          · rintro (h | ⟨_, s, l, h⟩)
            · exact h.1
            · exact absurd h (n2 _ _ _)
          · intro h; exact Or.inl ⟨h, n4 n⟩
        have c1 : placedCount (ops ++ [o]) = placedCount ops := by
          cases o <;> first | (exact absurd rfl (n1 _ _ _ _)) | simp [placedCount]
        have c2 : logicalCount (ops ++ [o]) = logicalCount ops := by
          cases o <;> first | (exact absurd rfl (n2 _ _ _)) | simp [logicalCount]
        refine ⟨e1.trans I.cl, by rw [e2, c1, I.np], by rw [e3, c2, I.nl], fun i n => ?_, fun i n => ?_,
          fun i q => ?_, fun i n => ?_⟩
        · rw [hp, I.po, e4]
        · rw [hl, I.lo]
          have := e5 n
          constructor
          · rintro ⟨x, h1, h2⟩
            rw [h1] at this
            cases h3 : m1.lobj n with
            | none => rw [h3] at this; simp at this
            | some y => rw [h3] at this; exact ⟨y, rfl, by simpa [h2] using this⟩
          · rintro ⟨x, h1, h2⟩
            rw [h1] at this
            cases h3 : m.lobj n with
            | none => rw [h3] at this; simp at this
            | some y => rw [h3] at this; exact ⟨y, rfl, by simpa [h2] using this.symm⟩
        · simp only [hp, e6]; exact I.pf i q
        · rw [hl, e7]; exact I.lf i n
      cases o with
      | newPlaced n s l d =>
        simp only [step, Mgr.newPlaced] at hs
        split at hs
        · simp at hs
        rename_i hfree
        have hfree : m.pobj (.heap n) = none := by simpa using hfree
        obtain rfl := Option.some.inj hs
        rw [Mgr.registerPlaced, if_pos (by simp [I.cl])]
        have hdead : ∀ i, ¬ PlacedAlive ops i n := by
          intro i hi
          obtain ⟨o, ho, _⟩ := (I.po i n).mp hi
          rw [hfree] at ho; simp at ho
        have hp : ∀ i k, PlacedAlive (ops ++ [.newPlaced n s l d]) i k ↔
            PlacedAlive ops i k ∨ (placedCount ops = i ∧ k = n) := by
          intro i k
          rw [placedAlive_snoc]
          constructor
          · rintro (h | ⟨h, s', l', d', e⟩)
            · exact Or.inl h.1
            · cases e; exact Or.inr ⟨h, rfl⟩
          · rintro (h' | ⟨h', rfl⟩)
            · exact Or.inl ⟨h', by simp⟩
            · exact Or.inr ⟨h', s, l, d, rfl⟩
        have hl : ∀ i k, LogicalAlive (ops ++ [.newPlaced n s l d]) i k ↔ LogicalAlive ops i k := by
          intro i k; rw [logicalAlive_snoc]; simp
        refine ⟨I.cl, by simp [placedCount, I.np], by simp [logicalCount, I.nl], fun i k => ?_, fun i k => ?_,
          fun i q => ?_, fun i k => ?_⟩
        · rw [hp, I.po]
          dsimp only
          by_cases e : k = n
          · subst e
            rw [upd_self, hfree, I.np]
            constructor
            · rintro (⟨_, h, _⟩ | ⟨h, _⟩)
              · simp at h
              · exact ⟨_, rfl, h⟩
            · rintro ⟨o, h, h2⟩
              cases h
              exact Or.inr ⟨h2, rfl⟩
          · rw [upd_ne _ _ _ (by simpa using e)]
            constructor
            · rintro (h | ⟨_, h⟩)
              · exact h
              · exact absurd h e
            · exact Or.inl
        · rw [hl]; exact I.lo i k
        · simp only [hp]
          rw [mfind_mset, I.np]
          by_cases e : i = placedCount ops
          · rw [if_pos e]
            constructor
            · intro h
              exact ⟨n, (Option.some.inj h).symm, Or.inr ⟨e.symm, rfl⟩⟩
            · rintro ⟨k, rfl, h | ⟨_, rfl⟩⟩
              · exact absurd (placedAlive_lt _ _ _ h) (by omega)
              · rfl
          · rw [if_neg e, I.pf]
            constructor
            · rintro ⟨k, h, h2⟩; exact ⟨k, h, Or.inl h2⟩
            · rintro ⟨k, h, h2 | ⟨h2, _⟩⟩
              · exact ⟨k, h, h2⟩
              · exact absurd h2.symm e
        · rw [hl]; exact I.lf i k
      | deletePlaced n =>
        simp only [step, Mgr.deletePlaced] at hs
        split at hs
        · simp at hs
        rename_i o ho
        obtain rfl := Option.some.inj hs
        have hp : ∀ i k, PlacedAlive (ops ++ [.deletePlaced n]) i k ↔ PlacedAlive ops i k ∧ k ≠ n := by
          intro i k
          rw [placedAlive_snoc]
          constructor
          · rintro (⟨h, h2⟩ | ⟨h, s', l', d', e⟩)
            · exact ⟨h, fun e => h2 (by rw [e])⟩
            · cases e
          · rintro ⟨h, h2⟩
            exact Or.inl ⟨h, fun e => h2 (by cases e; rfl)⟩
        have hl : ∀ i k, LogicalAlive (ops ++ [.deletePlaced n]) i k ↔ LogicalAlive ops i k := by
          intro i k; rw [logicalAlive_snoc]; simp
        have hfr : (m.deregisterPlaced o.id).closed = m.closed ∧ (m.deregisterPlaced o.id).nextP = m.nextP ∧
            (m.deregisterPlaced o.id).nextL = m.nextL ∧ (m.deregisterPlaced o.id).lobj = m.lobj ∧
            (m.deregisterPlaced o.id).logical = m.logical := by
          unfold Mgr.deregisterPlaced; split <;> exact ⟨rfl, rfl, rfl, rfl, rfl⟩
        have hal : PlacedAlive ops o.id n := (I.po o.id n).mpr ⟨o, ho, rfl⟩
        refine ⟨hfr.1.trans I.cl, ?_, ?_, fun i k => ?_, fun i k => ?_, fun i q => ?_, fun i k => ?_⟩
        · simp [placedCount, hfr.2.1, I.np]
        · simp [logicalCount, hfr.2.2.1, I.nl]
        · rw [hp, I.po]
          dsimp only
          rw [deregisterPlaced_pobj]
          by_cases e : k = n
          · subst e
            rw [upd_self]
            simp
          · rw [upd_ne _ _ _ (by simpa using e)]
            exact ⟨And.left, fun h => ⟨h, e⟩⟩
        · rw [hl]; dsimp only; rw [hfr.2.2.2.1]; exact I.lo i k
        · simp only [hp]
          rw [deregisterPlaced_find]
          by_cases e : i = o.id
          · rw [if_pos e]
            constructor
            · simp
            · rintro ⟨k, rfl, h1, h2⟩
              have a := (I.pf i (some (.heap k))).mpr ⟨k, rfl, h1⟩
              have b := (I.pf o.id (some (.heap n))).mpr ⟨n, rfl, hal⟩
              rw [e, b] at a
              simp only [Option.some.injEq, Ptr.heap.injEq] at a
              exact absurd a.symm h2
          · rw [if_neg e, I.pf]
            constructor
            · rintro ⟨k, h, h2⟩
              refine ⟨k, h, h2, ?_⟩
              rintro rfl
              obtain ⟨o', h3, h4⟩ := (I.po i k).mp h2
              rw [ho] at h3
              cases h3
              exact e h4.symm
            · rintro ⟨k, h, h2, _⟩; exact ⟨k, h, h2⟩
        · rw [hl]; dsimp only; rw [hfr.2.2.2.2]; exact I.lf i k
      | newLogical n s l =>
        simp only [step, Mgr.newLogical] at hs
        split at hs
        · simp at hs
        rename_i hfree
        have hfree : m.lobj n = none := by simpa using hfree
        obtain rfl := Option.some.inj hs
        rw [Mgr.registerLogical, if_pos (by simp [I.cl])]
        have hp : ∀ i k, LogicalAlive (ops ++ [.newLogical n s l]) i k ↔
            LogicalAlive ops i k ∨ (logicalCount ops = i ∧ k = n) := by
          intro i k
          rw [logicalAlive_snoc]
          constructor
          · rintro (h | ⟨h, s', l', e⟩)
            · exact Or.inl h.1
            · cases e; exact Or.inr ⟨h, rfl⟩
          · rintro (h' | ⟨h', rfl⟩)
            · exact Or.inl ⟨h', by simp⟩
            · exact Or.inr ⟨h', s, l, rfl⟩
        have hl : ∀ i k, PlacedAlive (ops ++ [.newLogical n s l]) i k ↔ PlacedAlive ops i k := by
          intro i k; rw [placedAlive_snoc]; simp
        refine ⟨I.cl, by simp [placedCount, I.np], by simp [logicalCount, I.nl], fun i k => ?_, fun i k => ?_,
          fun i q => ?_, fun i k => ?_⟩
        · rw [hl]; exact I.po i k
        · rw [hp, I.lo]
          dsimp only
          by_cases e : k = n
          · subst e
            rw [upd_self, hfree, I.nl]
            constructor
            · rintro (⟨_, h, _⟩ | ⟨h, _⟩)
              · simp at h
              · exact ⟨_, rfl, h⟩
            · rintro ⟨o, h, h2⟩
              cases h
              exact Or.inr ⟨h2, rfl⟩
          · rw [upd_ne _ _ _ e]
            constructor
            · rintro (h | ⟨_, h⟩)
              · exact h
              · exact absurd h e
            · exact Or.inl
        · simp only [hl]; exact I.pf i q
        · rw [hp]
          dsimp only
          rw [mfind_mset, I.nl]
          by_cases e : i = logicalCount ops
          · rw [if_pos e]
            constructor
            · intro h
              exact Or.inr ⟨e.symm, (Option.some.inj h).symm⟩
            · rintro (h | ⟨_, rfl⟩)
              · exact absurd (logicalAlive_lt _ _ _ h) (by omega)
              · rfl
          · rw [if_neg e, I.lf]
            exact ⟨Or.inl, fun h => h.resolve_right (fun h => e h.1.symm)⟩
      | deleteLogical n =>
        simp only [step, Mgr.deleteLogical] at hs
        split at hs
        · simp at hs
        rename_i o ho
        obtain rfl := Option.some.inj hs
        have hp : ∀ i k, LogicalAlive (ops ++ [.deleteLogical n]) i k ↔ LogicalAlive ops i k ∧ k ≠ n := by
          intro i k
          rw [logicalAlive_snoc]
          constructor
          · rintro (⟨h, h2⟩ | ⟨h, s', l', e⟩)
            · exact ⟨h, fun e => h2 (by rw [e])⟩
            · cases e
          · rintro ⟨h, h2⟩
            exact Or.inl ⟨h, fun e => h2 (by cases e; rfl)⟩
        have hl : ∀ i k, PlacedAlive (ops ++ [.deleteLogical n]) i k ↔ PlacedAlive ops i k := by
          intro i k; rw [placedAlive_snoc]; simp
        have hfr : (m.deregisterLogical o.id).closed = m.closed ∧ (m.deregisterLogical o.id).nextP = m.nextP ∧
            (m.deregisterLogical o.id).nextL = m.nextL ∧ (m.deregisterLogical o.id).pobj = m.pobj ∧
            (m.deregisterLogical o.id).placed = m.placed := by
          unfold Mgr.deregisterLogical; split <;> exact ⟨rfl, rfl, rfl, rfl, rfl⟩
        have hal : LogicalAlive ops o.id n := (I.lo o.id n).mpr ⟨o, ho, rfl⟩
        refine ⟨hfr.1.trans I.cl, ?_, ?_, fun i k => ?_, fun i k => ?_, fun i q => ?_, fun i k => ?_⟩
        · simp [placedCount, hfr.2.1, I.np]
        · simp [logicalCount, hfr.2.2.1, I.nl]
        · rw [hl]; dsimp only; rw [hfr.2.2.2.1]; exact I.po i k
        · rw [hp, I.lo]
          dsimp only
          rw [deregisterLogical_lobj]
          by_cases e : k = n
          · subst e
            rw [upd_self]
            simp
          · rw [upd_ne _ _ _ e]
            exact ⟨And.left, fun h => ⟨h, e⟩⟩
        · simp only [hl, hfr.2.2.2.2]; exact I.pf i q
        · rw [hp]
          dsimp only
          rw [deregisterLogical_find]
          by_cases e : i = o.id
          · rw [if_pos e]
            constructor
            · simp
            · rintro ⟨h1, h2⟩
              have a := (I.lf i k).mpr h1
              have b := (I.lf o.id n).mpr hal
              rw [e, b] at a
              exact absurd (Option.some.inj a).symm h2
          · rw [if_neg e, I.lf]
            constructor
            · intro h2
              refine ⟨h2, ?_⟩
              rintro rfl
              obtain ⟨o', h3, h4⟩ := (I.lo i k).mp h2
              rw [ho] at h3
              cases h3
              exact e h4.symm
            · exact And.left
      | placeDaughter n p =>
        simp only [step, Mgr.placeDaughter] at hs
        split at hs
        · simp at hs
        rename_i o ho
        obtain rfl := Option.some.inj hs
        refine keep _ rfl rfl rfl rfl (fun k => ?_) rfl rfl (by simp) (by simp) (by simp) (by simp)
        dsimp only
        by_cases e : k = n
        · subst e; rw [upd_self, ho]; rfl
        · rw [upd_ne _ _ _ e]
      | setWorld p =>
        obtain rfl := Option.some.inj hs
        exact keep _ rfl rfl rfl rfl (fun _ => rfl) rfl rfl (by simp) (by simp) (by simp) (by simp)
      | close => exact hoo.elim
      | clear => exact hoo.elim

/-- While the geometry is open, looking up a placed volume by id returns the address of the volume whose
construction was the `id`-th one, as long as it has not been destroyed, and null otherwise. -/
theorem C21_find_placed (ops : List (Op δ)) (m : Mgr δ) (ho : Open ops) (h : run Mgr.init ops = some m)
    (i : Nat) (p : Ptr) : m.findPlaced i = some p ↔ ∃ n, p = .heap n ∧ PlacedAlive ops i n := by
  have I := openInv ops m ho h
  unfold Mgr.findPlaced
  have := I.pf i (some p)
  constructor
  · intro hj
    have : mfind m.placed i = some (some p) := by
      cases hx : mfind m.placed i with
      | none => rw [hx] at hj; simp at hj
      | some q => rw [hx] at hj; simp only [Option.join_some] at hj; rw [hj]
    obtain ⟨n, h1, h2⟩ := (I.pf i (some p)).mp this
    exact ⟨n, Option.some.inj h1, h2⟩
  · rintro ⟨n, rfl, hn⟩
    rw [(I.pf i _).mpr ⟨n, rfl, hn⟩]; rfl

/-- The same for logical volumes. -/
theorem C21_find_logical (ops : List (Op δ)) (m : Mgr δ) (ho : Open ops) (h : run Mgr.init ops = some m)
    (i n : Nat) : m.findLogical i = some n ↔ LogicalAlive ops i n :=
  (openInv ops m ho h).lf i n

/-- Lookups by id only ever return live objects with that id, in every history (including closing and
clearing). -/
theorem C21_find_sound (ops : List (Op δ)) (m : Mgr δ) (h : run Mgr.init ops = some m) (i : Nat) :
    (∀ p, m.findPlaced i = some p → ∃ o, m.pobj p = some o ∧ o.id = i) ∧
    (∀ l, m.findLogical i = some l → ∃ o, m.lobj l = some o ∧ o.id = i) := by
  have C := Cons.run ops Cons.init h
  refine ⟨fun p hp => ?_, fun l hl => C.le i l hl⟩
  unfold Mgr.findPlaced at hp
  cases hx : mfind m.placed i with
  | none => rw [hx] at hp; simp at hp
  | some q =>
    obtain ⟨r, o, rfl, h2, h3⟩ := C.pe i q hx
    rw [hx] at hp
    obtain rfl : r = p := by simpa using hp
    exact ⟨o, h2, h3⟩

theorem findLabelLoop_spec (pobj : Ptr → Option (PObj δ)) (label : String) :
    ∀ (l : List (Nat × Option Ptr)) (out : Option Ptr),
    (∀ x ∈ l, ∃ q o, x.2 = some q ∧ pobj q = some o) →
    Mgr.findLabelLoop pobj label l out = some (match out with
      | some p => some p
      | none => ((l.filterMap (·.2)).find? (fun q => match pobj q with | some o => o.label = label | none => false))) := by
  intro l
  induction l with
  | nil => intro out _; cases out <;> rfl
  | cons x l ih =>
    obtain ⟨i, p⟩ := x
    intro out h
    obtain ⟨q, o, hq, ho⟩ := h (i, p) (by simp)
    dsimp only at hq
    subst hq
    rw [Mgr.findLabelLoop, ho]
    dsimp only
    rw [ih _ (fun x hx => h x (List.mem_cons_of_mem _ hx))]
    have hfm : List.filterMap (fun x : Nat × Option Ptr => x.2) ((i, some q) :: l) = q :: List.filterMap (·.2) l := rfl
    rw [hfm, List.find?_cons, ho]
    cases out with
    | some r => by_cases e : o.label = label <;> simp [e]
    | none => by_cases e : o.label = label <;> simp [e]

/-- Lookup of a placed volume by label, in every history: the result is the registered volume with this label
that has the smallest id; null is returned only if no registered volume has the label. -/
theorem C21_find_placed_label (ops : List (Op δ)) (m : Mgr δ) (h : run Mgr.init ops = some m) (label : String) :
    (∃ p i o, m.findPlacedLabel label = some (some p) ∧ m.findPlaced i = some p ∧ m.pobj p = some o ∧
        o.label = label ∧ ∀ j q o', m.findPlaced j = some q → m.pobj q = some o' → o'.label = label → i ≤ j) ∨
    (m.findPlacedLabel label = some none ∧
      ∀ j q o', m.findPlaced j = some q → m.pobj q = some o' → o'.label ≠ label) := by
  have C := Cons.run ops Cons.init h
  have hall : ∀ x ∈ m.placed, ∃ q o, x.2 = some q ∧ m.pobj q = some o := by
    intro x hx
    obtain ⟨q, o, h1, h2, _⟩ := C.pe x.1 x.2 ((C.ps.mem_iff _ _).mp hx)
    exact ⟨q, o, h1, h2⟩
  have hfind : ∀ j q, m.findPlaced j = some q ↔ (j, some q) ∈ m.placed := by
    intro j q
    rw [C.ps.mem_iff]
    unfold Mgr.findPlaced
    cases hx : mfind m.placed j with
    | none => simp
    | some r => simp
  rw [Mgr.findPlacedLabel, findLabelLoop_spec _ _ _ _ hall]
  simp only [hfind]
  have hs := C.ps
  revert hall hs
  generalize m.placed = l
  intro hall hs
  clear hfind
  induction l with
  | nil => right; exact ⟨rfl, fun j q o' hj => by simp at hj⟩
  | cons x l ih =>
    obtain ⟨i, p⟩ := x
    obtain ⟨q, o, hq, ho⟩ := hall (i, p) (by simp)
    dsimp only at hq
    subst hq
    have hs' := List.pairwise_cons.mp hs
    have hfm : List.filterMap (fun x : Nat × Option Ptr => x.2) ((i, some q) :: l) = q :: List.filterMap (·.2) l := rfl
    rw [hfm, List.find?_cons, ho]
    by_cases e : o.label = label
    · left
      refine ⟨q, i, o, by simp [e], by simp, ho, e, fun j r o' hj _ _ => ?_⟩
      rcases List.mem_cons.mp hj with e | hj
      · cases e; exact Nat.le_refl _
      · exact Nat.le_of_lt (hs'.1 _ hj)
    · have := ih (fun x hx => hall x (List.mem_cons_of_mem _ hx)) hs'.2
      simp only [e, decide_false]
      rcases this with ⟨p, k, o1, h1, h2, h3, h4, h5⟩ | ⟨h1, h2⟩
      · left
        refine ⟨p, k, o1, h1, List.mem_cons_of_mem _ h2, h3, h4, fun j r o' hj hr hlab => ?_⟩
        rcases List.mem_cons.mp hj with e2 | hj
        · cases e2
          rw [ho] at hr; cases hr
          exact absurd hlab e
        · exact h5 j r o' hj hr hlab
      · right
        refine ⟨h1, fun j r o' hj hr => ?_⟩
        rcases List.mem_cons.mp hj with e2 | hj
        · cases e2
          rw [ho] at hr; cases hr
          exact e
        · exact h2 j r o' hj hr

theorem findLLabelLoop_spec (lobj : Nat → Option LObj) (label : String) :
    ∀ (l : List (Nat × Nat)) (out : Option Nat), (∀ x ∈ l, (lobj x.2).isSome) →
    Mgr.findLLabelLoop lobj label l out = some (match out with
      | some p => some p
      | none => ((l.map (·.2)).find? (fun q => match lobj q with | some o => o.label = label | none => false))) := by
  intro l
  induction l with
  | nil => intro out _; cases out <;> rfl
  | cons x l ih =>
    obtain ⟨i, q⟩ := x
    intro out h
    obtain ⟨o, ho⟩ := Option.isSome_iff_exists.mp (h (i, q) (by simp))
    dsimp only at ho
    rw [Mgr.findLLabelLoop, ho]
    dsimp only
    rw [ih _ (fun x hx => h x (List.mem_cons_of_mem _ hx))]
    rw [List.map_cons, List.find?_cons, ho]
    cases out with
    | some r => by_cases e : o.label = label <;> simp [e]
    | none => by_cases e : o.label = label <;> simp [e]

/-- Lookup of a logical volume by label; its id is reported by `GetLogicalVolumeId`, which returns -1 exactly if
there is none. -/
theorem C21_find_logical_label (ops : List (Op δ)) (m : Mgr δ) (h : run Mgr.init ops = some m) (label : String) :
    (∃ (l i : Nat) (o : LObj), m.findLogicalLabel label = some (some l) ∧ m.getLogicalVolumeId label = some (i : Int) ∧
        m.findLogical i = some l ∧ m.lobj l = some o ∧ o.label = label ∧ m.getLogicalVolumeLabel i = some label ∧
        ∀ j q o', m.findLogical j = some q → m.lobj q = some o' → o'.label = label → i ≤ j) ∨
    (m.findLogicalLabel label = some none ∧ m.getLogicalVolumeId label = some (-1) ∧
      ∀ j q o', m.findLogical j = some q → m.lobj q = some o' → o'.label ≠ label) := by
  have C := Cons.run ops Cons.init h
  have hall : ∀ x ∈ m.logical, (m.lobj x.2).isSome := by
    intro x hx
    obtain ⟨o, h2, _⟩ := C.le x.1 x.2 ((C.ls.mem_iff _ _).mp hx)
    rw [h2]; rfl
  have key : (∃ (l i : Nat) (o : LObj), m.findLogicalLabel label = some (some l) ∧ (i, l) ∈ m.logical ∧ m.lobj l = some o ∧
        o.label = label ∧ ∀ j q o', (j, q) ∈ m.logical → m.lobj q = some o' → o'.label = label → i ≤ j) ∨
      (m.findLogicalLabel label = some none ∧
      ∀ j q o', (j, q) ∈ m.logical → m.lobj q = some o' → o'.label ≠ label) := by
    rw [Mgr.findLogicalLabel, findLLabelLoop_spec _ _ _ _ hall]
    have hs := C.ls
    revert hall hs
    generalize m.logical = l
    intro hall hs
    induction l with
    | nil => right; exact ⟨rfl, fun j q o' hj => by simp at hj⟩
    | cons x l ih =>
      obtain ⟨i, q⟩ := x
      obtain ⟨o, ho⟩ := Option.isSome_iff_exists.mp (hall (i, q) (by simp))
      dsimp only at ho
      have hs' := List.pairwise_cons.mp hs
      dsimp only at ih ⊢
      rw [List.map_cons, List.find?_cons, ho]
      by_cases e : o.label = label
      · left
        refine ⟨q, i, o, by simp [e], by simp, ho, e, fun j r o' hj _ _ => ?_⟩
        rcases List.mem_cons.mp hj with e | hj
        · cases e; exact Nat.le_refl _
        · exact Nat.le_of_lt (hs'.1 _ hj)
      · have := ih (fun x hx => hall x (List.mem_cons_of_mem _ hx)) hs'.2
        simp only [e, decide_false]
        rcases this with ⟨p, k, o1, h1, h2, h3, h4, h5⟩ | ⟨h1, h2⟩
        · left
          refine ⟨p, k, o1, h1, List.mem_cons_of_mem _ h2, h3, h4, fun j r o' hj hr hlab => ?_⟩
          rcases List.mem_cons.mp hj with e2 | hj
          · cases e2
            rw [ho] at hr; cases hr
            exact absurd hlab e
          · exact h5 j r o' hj hr hlab
        · right
          refine ⟨h1, fun j r o' hj hr => ?_⟩
          rcases List.mem_cons.mp hj with e2 | hj
          · cases e2
            rw [ho] at hr; cases hr
            exact e
          · exact h2 j r o' hj hr
  simp only [C.ls.mem_iff] at key
  rcases key with ⟨l, i, o, h1, h2, h3, h4, h5⟩ | ⟨h1, h2⟩
  · left
    obtain ⟨o', h6, h7⟩ := C.le i l h2
    rw [h3] at h6; cases h6
    refine ⟨l, i, o, h1, ?_, h2, h3, h4, ?_, h5⟩
    · rw [Mgr.getLogicalVolumeId, h1]
      dsimp only
      rw [h3, ← h7]; rfl
    · rw [Mgr.getLogicalVolumeLabel, Mgr.findLogical, h2]
      dsimp only
      rw [h3, ← h4]; rfl
  · right
    exact ⟨h1, by rw [Mgr.getLogicalVolumeId, h1], h2⟩

/-- The label of a logical volume id: the label of the registered volume, and the empty string for an id that is not
registered. -/
theorem C21_label_of_id (ops : List (Op δ)) (m : Mgr δ) (h : run Mgr.init ops = some m) (i : Nat) :
    (m.findLogical i = none → m.getLogicalVolumeLabel i = some "") ∧
    (∀ l o, m.findLogical i = some l → m.lobj l = some o → m.getLogicalVolumeLabel i = some o.label) ∧
    (m.getLogicalVolumeLabel i).isSome := by
  have C := Cons.run ops Cons.init h
  refine ⟨fun hn => ?_, fun l o hl ho => ?_, ?_⟩
  · rw [Mgr.getLogicalVolumeLabel, hn]
  · rw [Mgr.getLogicalVolumeLabel, hl]
    dsimp only
    rw [ho]; rfl
  · rw [Mgr.getLogicalVolumeLabel]
    cases hl : m.findLogical i with
    | none => rfl
    | some l =>
      obtain ⟨o, ho, _⟩ := C.le i l hl
      dsimp only
      rw [ho]; rfl

/-- Volumes constructed after the geometry was closed are not registered: all lookups stay as they were. -/
theorem C21_closed_not_registered (m m' : Mgr δ) (hc : m.closed = true) (n : Nat) (s : String) (l : Nat) (d : δ)
    (h : m.newPlaced n s l d = some m') (i : Nat) : m'.findPlaced i = m.findPlaced i := by
  unfold Mgr.newPlaced at h
  split at h
  · simp at h
  obtain rfl := Option.some.inj h
  unfold Mgr.registerPlaced
  rw [if_neg (by simp [hc])]
  rfl

/-- Finding: `Clear` restarts the ids.  Destroying a volume made before `Clear` then removes from the registry the
volume made afterwards that got the same id, although that volume is alive. -/
theorem C21_clear_counterexample :
    ∃ m : Mgr Unit, run Mgr.init [.newPlaced 0 "old" 0 (), .clear, .newPlaced 1 "new" 0 (), .deletePlaced 0] = some m ∧
      (m.pobj (.heap 1)).map (·.id) = some 0 ∧ m.findPlaced 0 = none :=
  ⟨_, rfl, rfl, rfl⟩

/-! ## C22 -/

theorem findPlaced_iff {m : Mgr δ} (h : Cons m) (i : Nat) : m.findPlaced i = none ↔ mfind m.placed i = none := by
  unfold Mgr.findPlaced
  cases hx : mfind m.placed i with
  | none => simp
  | some q =>
    obtain ⟨r, o, rfl, _⟩ := h.pe i q hx
    simp

/-- When closing the geometry is safe: a world was set, and the ids of the registered placed volumes are exactly
`0, …, count - 1`.  In all other cases closing is undefined behaviour (writes outside the buffer, or a null
world). -/
theorem C22_close_safe_iff (ops : List (Op δ)) (m : Mgr δ) (h : run Mgr.init ops = some m) :
    m.closeGeometry.isSome ↔ m.world.isSome ∧ ∀ i < m.placed.length, m.findPlaced i ≠ none := by
  have C := Cons.run ops Cons.init h
  have := compactify_isSome (C.toIndex (Mgr.indexLoop m.placed m.toIndex))
  dsimp only at this
  have e : m.closeGeometry.isSome =
      (Mgr.compactify { m with toIndex := Mgr.indexLoop m.placed m.toIndex }).isSome := by
    unfold Mgr.closeGeometry
    cases Mgr.compactify { m with toIndex := Mgr.indexLoop m.placed m.toIndex } <;> rfl
  rw [e, this]
  simp only [ne_eq, findPlaced_iff C, Option.isSome_iff_ne_none]

/-- In particular closing is safe if no placed volume was destroyed before. -/
theorem C22_close_safe (ops : List (Op δ)) (m : Mgr δ) (ho : Open ops) (h : run Mgr.init ops = some m)
    (hd : ∀ n, .deletePlaced n ∉ ops) (hw : m.world.isSome) : m.closeGeometry.isSome := by
  rw [C22_close_safe_iff ops m h]
  refine ⟨hw, ?_⟩
  have C := Cons.run ops Cons.init h
  have I := openInv ops m ho h
  have hall : ∀ i, i < placedCount ops → ∃ n, PlacedAlive ops i n := by
    clear I C h hw ho m
    induction ops using List.reverseRecOn with
    | nil => intro i hi; simp [placedCount] at hi
    | append_singleton ops o ih =>
      intro i hi
      have hd' : ∀ n, Op.deletePlaced n ∉ ops := fun n hn => hd n (List.mem_append_left _ hn)
      have hno : ∀ n, o ≠ .deletePlaced n := fun n e => hd n (by simp [e])
      by_cases hlt : i < placedCount ops
      · obtain ⟨n, hn⟩ := ih hd' i hlt
        exact ⟨n, (placedAlive_snoc _ _ _ _).mpr (Or.inl ⟨hn, hno n⟩)⟩
      · cases o with
        | newPlaced n s l d =>
          have : i = placedCount ops := by simp [placedCount] at hi hlt ⊢; omega
          exact ⟨n, (placedAlive_snoc _ _ _ _).mpr (Or.inr ⟨this.symm, s, l, d, rfl⟩)⟩
        | deletePlaced n => exact absurd rfl (hno n)
        | _ => simp [placedCount] at hi hlt; omega
  have hlen : ∀ x ∈ m.placed, x.1 < placedCount ops := by
    intro x hx
    obtain ⟨n, _, hn⟩ := (I.pf x.1 x.2).mp ((C.ps.mem_iff _ _).mp hx)
    exact placedAlive_lt _ _ _ hn
  have hle : m.placed.length ≤ placedCount ops := by
    have hnd : (m.placed.map (·.1)).Nodup := by
      rw [List.Nodup, List.pairwise_map]
      exact C.ps.imp (fun h => Nat.ne_of_lt h)
    have hsub : m.placed.map (·.1) ⊆ List.range (placedCount ops) := by
      intro k hk
      obtain ⟨x, hx, rfl⟩ := List.mem_map.mp hk
      exact List.mem_range.mpr (hlen x hx)
    simpa using (List.Nodup.subperm hnd hsub).length_le
  intro i hi
  obtain ⟨n, hn⟩ := hall i (by omega)
  rw [ne_eq, findPlaced_iff C, (I.pf i _).mpr ⟨n, rfl, hn⟩]
  simp

/-- Finding: destroying any placed volume except the last ones before closing makes `CloseGeometry` write outside its
buffer. -/
theorem C22_gap_counterexample :
    run (δ := Unit) Mgr.init [.newLogical 0 "l" [], .newPlaced 0 "a" 0 (), .newPlaced 1 "b" 0 (), .deletePlaced 0,
      .setWorld (.heap 1), .close] = none := rfl

/-- Closing stores each registered volume, bit for bit, in the slot of the new buffer given by its id; the slot is
inside the buffer, the volume is found there by its id, and no other id is found. -/
theorem C22_slots (ops : List (Op δ)) (m m' : Mgr δ) (h : run Mgr.init ops = some m)
    (hc : m.closeGeometry = some m') :
    m'.placed.length = m.placed.length ∧
    (∀ i p, m.findPlaced i = some p → i < m.placed.length ∧ m'.findPlaced i = some (.buf m'.gen i) ∧
      m'.pobj (.buf m'.gen i) = m.pobj p ∧ ∃ o, m.pobj p = some o ∧ o.id = i) ∧
    (∀ i, m.findPlaced i = none → m'.findPlaced i = none) ∧ m'.closed = true := by
  have C := Cons.run ops Cons.init h
  have C' := C.close hc
  unfold Mgr.closeGeometry at hc
  split at hc
  · simp at hc
  rename_i m1 h1
  obtain ⟨c, k⟩ := compactify_spec (C.toIndex _) h1
  obtain rfl := Option.some.inj hc
  refine ⟨k.len, fun i p hp => ?_, fun i hi => ?_, rfl⟩
  · have hp' : mfind m.placed i = some (some p) := by
      unfold Mgr.findPlaced at hp
      cases hx : mfind m.placed i with
      | none => rw [hx] at hp; simp at hp
      | some q => rw [hx] at hp; simp only [Option.join_some] at hp; rw [hp]
    obtain ⟨s1, s2, s3, _⟩ := k.slot i p hp'
    have hg : m1.gen = m.gen + 1 := k.gen
    refine ⟨s1, ?_, ?_, ?_⟩
    · show (mfind m1.placed i).join = _
      dsimp only at s2
      rw [s2, hg]; rfl
    · dsimp only at s3 ⊢
      rw [hg]; exact s3
    · obtain ⟨q, o, e1, e2, e3⟩ := C.pe i _ hp'
      cases e1
      exact ⟨o, e2, e3⟩
  · rw [findPlaced_iff C'] 
    exact k.nofind i ((findPlaced_iff C i).mp hi)

/-! ### The geometry seen from the world -/

/-- A geometry tree: what can be read by walking down from a placement. -/
inductive Tree (δ : Type) where
  | node (id : Nat) (label : String) (lvol : Nat) (data : δ) (daughters : List (Tree δ))

/-- All or nothing map. -/
def mapO {α β : Type} (f : α → Option β) : List α → Option (List β)
  | [] => some []
  | a :: l => match f a, mapO f l with
    | some b, some bs => some (b :: bs)
    | _, _ => none

/-- Specification: the tree below the placed volume at an address, if it is no deeper than `depth` and all
pointers on the way are valid. -/
def tree (m : Mgr δ) : (depth : Nat) → Ptr → Option (Tree δ)
  | 0, _ => none
  | d + 1, p => match m.pobj p with
    | none => none
    | some o => match m.lobj o.lvol with
      | none => none
      | some L => (mapO (tree m d) L.daughters).map (Tree.node o.id o.label o.lvol o.data)

theorem mapO_map {α β γ : Type} (f : β → Option γ) (g : α → β) (h : α → Option γ) :
    ∀ l : List α, (∀ a ∈ l, ∀ t, h a = some t → f (g a) = some t) → ∀ ts, mapO h l = some ts →
      mapO f (l.map g) = some ts := by
  intro l
  induction l with
  | nil => intro _ ts e; exact e
  | cons a l ih =>
    intro ha ts e
    rw [mapO] at e
    split at e
    · rename_i b bs hb hbs
      rw [List.map_cons, mapO, ha a (by simp) b hb, ih (fun a h => ha a (List.mem_cons_of_mem _ h)) bs hbs]
      exact e
    · simp at e

/-- Closing does not change the geometry: the tree seen from the (new) world is the tree seen from the world
before, and so is the tree below each placement, whether it is reached through its old or its new address. -/
theorem C22_same_geometry (ops : List (Op δ)) (m m' : Mgr δ) (h : run Mgr.init ops = some m)
    (hc : m.closeGeometry = some m') :
    (∀ w, m.world = some w → ∃ w', m'.world = some w' ∧ ∀ d t, tree m d w = some t → tree m' d w' = some t) ∧
    (∀ i p d t, m.findPlaced i = some p → tree m d p = some t →
      tree m' d (.buf m'.gen i) = some t ∧ tree m' d p = some t) := by
  have C := Cons.run ops Cons.init h
  unfold Mgr.closeGeometry at hc
  split at hc
  · simp at hc
  rename_i m1 h1
  obtain ⟨c, k⟩ := compactify_spec (C.toIndex _) h1
  obtain rfl := Option.some.inj hc
  have hg : m1.gen = m.gen + 1 := k.gen
  -- contents behind a pointer and behind its conversion
  have hlive : ∀ p o, m.pobj p = some o → m1.pobj p = some o ∧ m1.pobj (Mgr.convert c p) = some o := by
    intro p o ho
    have hne : ∀ i, p ≠ .buf (m.gen + 1) i := by
      rintro i rfl
      have := C.bg (m.gen + 1) i (by rw [ho]; simp)
      omega
    have h1 : m1.pobj p = some o := by rw [k.old p hne]; exact ho
    refine ⟨h1, ?_⟩
    by_cases hp : ∃ i, mfind m.placed i = some (some p)
    · obtain ⟨i, hi⟩ := hp
      obtain ⟨_, _, s3, s4⟩ := k.slot i p hi
      rw [Mgr.convert, s4]
      dsimp only at s3 ⊢
      rw [s3]; exact ho
    · have := k.noconv p (fun i hi => hp ⟨i, hi⟩)
      rw [Mgr.convert, this]; exact h1
  have key : ∀ d p t, tree m d p = some t → tree { m1 with closed := true } d p = some t ∧
      tree { m1 with closed := true } d (Mgr.convert c p) = some t := by
    intro d
    induction d with
    | zero => intro p t h; simp [tree] at h
    | succ d ih =>
      intro p t ht
      rw [tree] at ht
      cases ho : m.pobj p with
      | none => rw [ho] at ht; simp at ht
      | some o =>
        rw [ho] at ht
        dsimp only at ht
        cases hl : m.lobj o.lvol with
        | none => rw [hl] at ht; simp at ht
        | some L =>
          rw [hl] at ht
          dsimp only at ht
          cases hm : mapO (tree m d) L.daughters with
          | none => rw [hm] at ht; simp at ht
          | some ts =>
            rw [hm] at ht
            have hL : ∃ L', m1.lobj o.lvol = some L' ∧ mapO (tree { m1 with closed := true } d) L'.daughters = some ts := by
              by_cases hr : ∃ i, mfind m.logical i = some o.lvol
              · obtain ⟨i, hi⟩ := hr
                have := k.lreg i o.lvol hi
                dsimp only at this
                rw [hl] at this
                exact ⟨_, this, mapO_map _ _ _ _ (fun a _ t ha => (ih a t ha).2) _ hm⟩
              · have := k.lunreg o.lvol (fun i hi => hr ⟨i, hi⟩)
                dsimp only at this
                rw [hl] at this
                refine ⟨_, this, ?_⟩
                have e := mapO_map (tree { m1 with closed := true } d) id (tree m d) L.daughters
                  (fun a _ t ha => (ih a t ha).1) ts hm
                simpa using e
            obtain ⟨L', e1, e2⟩ := hL
            have hb := hlive p o ho
            constructor
            · rw [tree]; dsimp only; rw [hb.1]; dsimp only; rw [e1]; dsimp only; rw [e2]; exact ht
            · rw [tree]; dsimp only; rw [hb.2]; dsimp only; rw [e1]; dsimp only; rw [e2]; exact ht
  constructor
  · intro w hw
    refine ⟨Mgr.convert c w, ?_, fun d t ht => (key d w t ht).2⟩
    have := k.world
    dsimp only at this ⊢
    rw [this, hw]; rfl
  · intro i p d t hp ht
    have hp' : mfind m.placed i = some (some p) := by
      unfold Mgr.findPlaced at hp
      cases hx : mfind m.placed i with
      | none => rw [hx] at hp; simp at hp
      | some q => rw [hx] at hp; simp only [Option.join_some] at hp; rw [hp]
    obtain ⟨_, _, _, s4⟩ := k.slot i p hp'
    have e : Mgr.convert c p = .buf (m.gen + 1) i := by rw [Mgr.convert, s4]
    have := key d p t ht
    rw [e] at this
    rw [← hg] at this
    exact ⟨this.2, this.1⟩

/-- Placements reachable from a pointer. -/
inductive Reach (m : Mgr δ) (p : Ptr) : Ptr → Prop
  | refl : Reach m p p
  | step {q d : Ptr} {o : PObj δ} {L : LObj} : Reach m p q → m.pobj q = some o → m.lobj o.lvol = some L →
      d ∈ L.daughters → Reach m p d

/-- After closing every placement reachable from the world is in the buffer, in the slot of its id — provided
all placements reachable before were registered, and so were their logical volumes. -/
theorem C22_reachable_in_buffer (ops : List (Op δ)) (m m' : Mgr δ) (h : run Mgr.init ops = some m)
    (hc : m.closeGeometry = some m') (w w' : Ptr) (hw : m.world = some w) (hw' : m'.world = some w')
    (hreg : ∀ q, Reach m w q → ∃ i o j, m.findPlaced i = some q ∧ m.pobj q = some o ∧
      m.findLogical j = some o.lvol) :
    ∀ q', Reach m' w' q' → ∃ i o, q' = .buf m'.gen i ∧ m'.findPlaced i = some q' ∧ m'.pobj q' = some o ∧ o.id = i := by
  have C := Cons.run ops Cons.init h
  have hslots := C22_slots ops m m' h hc
  unfold Mgr.closeGeometry at hc
  split at hc
  · simp at hc
  rename_i m1 h1
  obtain ⟨c, k⟩ := compactify_spec (C.toIndex _) h1
  obtain rfl := Option.some.inj hc
  have hg : m1.gen = m.gen + 1 := k.gen
  have hpl : ∀ i p, m.findPlaced i = some p → mfind m.placed i = some (some p) := by
    intro i p hp
    unfold Mgr.findPlaced at hp
    cases hx : mfind m.placed i with
    | none => rw [hx] at hp; simp at hp
    | some q => rw [hx] at hp; simp only [Option.join_some] at hp; rw [hp]
  have hcv : ∀ q, Reach m w q → ∃ i o, Mgr.convert c q = .buf m1.gen i ∧ m.findPlaced i = some q ∧
      m.pobj q = some o ∧ ∃ j, mfind m.logical j = some o.lvol := by
    intro q hq
    obtain ⟨i, o, j, h1, h2, h3⟩ := hreg q hq
    obtain ⟨_, _, _, s4⟩ := k.slot i q (hpl i q h1)
    exact ⟨i, o, by rw [Mgr.convert, s4, hg], h1, h2, j, h3⟩
  have key : ∀ q', Reach { m1 with closed := true } w' q' → ∃ q, Reach m w q ∧ q' = Mgr.convert c q := by
    intro q' hq'
    induction hq' with
    | refl =>
      refine ⟨w, .refl, ?_⟩
      have := k.world
      dsimp only at this hw'
      rw [this, hw] at hw'
      exact (Option.some.inj hw').symm
    | step hr ho hL hd ih =>
      rename_i q1 d o L
      obtain ⟨q, hq, rfl⟩ := ih
      obtain ⟨i, o1, e1, e2, e3, j, e4⟩ := hcv q hq
      have hb := (hslots.2.1 i q e2).2.2.1
      dsimp only at ho hb hL
      rw [e1, hb, e3] at ho
      obtain rfl := Option.some.inj ho
      have hl := k.lreg j o1.lvol e4
      dsimp only at hl
      rw [hl] at hL
      cases hx : m.lobj o1.lvol with
      | none => rw [hx] at hL; simp at hL
      | some L0 =>
        rw [hx] at hL
        obtain rfl := Option.some.inj hL
        obtain ⟨d0, hd0, rfl⟩ := List.mem_map.mp hd
        exact ⟨d0, .step hq e3 hx hd0, rfl⟩
  intro q' hq'
  obtain ⟨q, hq, rfl⟩ := key q' hq'
  obtain ⟨i, o, e1, e2, e3, _⟩ := hcv q hq
  obtain ⟨s1, s2, s3, o', s4, s5⟩ := hslots.2.1 i q e2
  rw [e3] at s4; cases s4
  refine ⟨i, o, e1, by rw [e1]; exact s2, ?_, s5⟩
  rw [e1, s3, e3]

/-- A pointer `q` before closing corresponds to `q'` afterwards: registered volumes moved to the slot of their id, other
pointers stayed. -/
def Redirected (m m' : Mgr δ) (q q' : Ptr) : Prop :=
  (∀ i, m.findPlaced i = some q → q' = .buf m'.gen i) ∧ ((∀ i, m.findPlaced i ≠ some q) → q' = q)

/-- After closing, the components of boolean and scaled volumes, like the daughters, are redirected one by one: a component
that was registered under an id is replaced by the slot of this id, any other pointer is kept; id and label of the logical
volume stay the same. -/
theorem C22_components (ops : List (Op δ)) (m m' : Mgr δ) (h : run Mgr.init ops = some m)
    (hc : m.closeGeometry = some m') (j l : Nat) (L : LObj) (hl : m.findLogical j = some l) (hL : m.lobj l = some L) :
    ∃ L', m'.lobj l = some L' ∧ L'.id = L.id ∧ L'.label = L.label ∧
      List.Forall₂ (Redirected m m') L.parts L'.parts ∧ List.Forall₂ (Redirected m m') L.daughters L'.daughters := by
  have C := Cons.run ops Cons.init h
  unfold Mgr.closeGeometry at hc
  split at hc
  · simp at hc
  rename_i m1 h1
  obtain ⟨c, k⟩ := compactify_spec (C.toIndex _) h1
  obtain rfl := Option.some.inj hc
  have hg : m1.gen = m.gen + 1 := k.gen
  have hpl : ∀ i p, m.findPlaced i = some p ↔ mfind m.placed i = some (some p) := by
    intro i p
    unfold Mgr.findPlaced
    cases hx : mfind m.placed i with
    | none => simp
    | some q => simp
  have hred : ∀ q, Redirected m { m1 with closed := true } q (Mgr.convert c q) := by
    intro q
    refine ⟨fun i hi => ?_, fun hn => ?_⟩
    · obtain ⟨_, _, _, s4⟩ := k.slot i q ((hpl i q).mp hi)
      change _ = Ptr.buf m1.gen i
      rw [Mgr.convert, s4, hg]
    · have := k.noconv q (fun i hi => hn i ((hpl i q).mpr hi))
      rw [Mgr.convert, this]
  have hall : ∀ ps : List Ptr, List.Forall₂ (Redirected m { m1 with closed := true }) ps (ps.map (Mgr.convert c)) := by
    intro ps
    induction ps with
    | nil => exact .nil
    | cons p ps ih => exact .cons (hred p) ih
  refine ⟨LObj.conv c L, ?_, rfl, rfl, hall _, hall _⟩
  have := k.lreg j l hl
  dsimp only at this ⊢
  rw [this, hL]
  rfl

example : ∃ m m', run (δ := Nat) Mgr.init [.newLogical 0 "world" [], .newPlaced 0 "left" 0 1, .newPlaced 1 "right" 0 2,
    .newLogical 1 "union" [.heap 0, .heap 1], .newPlaced 2 "u" 1 3, .setWorld (.heap 2)] = some m ∧
    m.closeGeometry = some m' ∧ (m'.lobj 1).map (·.parts) = some [.buf 1 0, .buf 1 1] :=
  ⟨_, _, rfl, rfl, rfl⟩

/-- A world with two daughters of one logical volume: closing succeeds, the world moves to slot 0. -/
def demoOps : List (Op Nat) :=
  [.newLogical 0 "world" [], .newLogical 1 "box" [], .newPlaced 0 "w" 0 7, .newPlaced 1 "a" 1 8,
   .newPlaced 2 "b" 1 9, .placeDaughter 0 (.heap 1), .placeDaughter 0 (.heap 2), .setWorld (.heap 0)]

example : ∃ m m', run Mgr.init demoOps = some m ∧ m.closeGeometry = some m' ∧ m'.world = some (.buf 1 0) ∧
    (m'.lobj 0).map (·.daughters) = some [.buf 1 1, .buf 1 2] ∧
    tree m 5 (.heap 0) = some (.node 0 "w" 0 7 [.node 1 "a" 1 8 [], .node 2 "b" 1 9 []]) :=
  ⟨_, _, rfl, rfl, rfl, rfl, rfl⟩

example : Open demoOps ∧ ∀ n, Op.deletePlaced n ∉ demoOps := by
  constructor
  · intro o ho
    simp only [demoOps, List.mem_cons, List.not_mem_nil, or_false] at ho
    rcases ho with rfl | rfl | rfl | rfl | rfl | rfl | rfl | rfl <;> trivial
  · intro n h
    simp [demoOps] at h

/-! ## C57 -/

theorem indexLoop_spec (l : List (Nat × Option Ptr)) : ∀ (f : Ptr → Option Nat) (p : Ptr),
    (∀ i j, (i, some p) ∈ l → (j, some p) ∈ l → i = j) →
    (∀ i, (i, some p) ∈ l → Mgr.indexLoop l f p = some i) ∧ ((∀ i, (i, some p) ∉ l) → Mgr.indexLoop l f p = f p) := by
  induction l with
  | nil => intro f p _; exact ⟨fun i h => by simp at h, fun _ => rfl⟩
  | cons x l ih =>
    obtain ⟨k, q⟩ := x
    intro f p hu
    have hu' : ∀ i j, (i, some p) ∈ l → (j, some p) ∈ l → i = j :=
      fun i j hi hj => hu i j (List.mem_cons_of_mem _ hi) (List.mem_cons_of_mem _ hj)
    cases q with
    | none =>
      rw [Mgr.indexLoop]
      obtain ⟨h1, h2⟩ := ih f p hu'
      refine ⟨fun i hi => h1 i ?_, fun h => h2 (fun i hi => h i (List.mem_cons_of_mem _ hi))⟩
      simpa using hi
    | some q =>
      rw [Mgr.indexLoop]
      obtain ⟨h1, h2⟩ := ih (upd f q (some k)) p hu'
      constructor
      · intro i hi
        by_cases hin : ∃ j, (j, some p) ∈ l
        · obtain ⟨j, hj⟩ := hin
          rw [h1 j hj, hu i j hi (List.mem_cons_of_mem _ hj)]
        · rw [h2 (fun j hj => hin ⟨j, hj⟩)]
          rcases List.mem_cons.mp hi with e | hi
          · cases e; rw [upd_self]
          · exact absurd ⟨i, hi⟩ hin
      · intro h
        rw [h2 (fun i hi => h i (List.mem_cons_of_mem _ hi)), upd_ne]
        rintro rfl
        exact h k (by simp)

/-- Converting an id to a volume after any history finds the registered volume and does not change the manager. -/
theorem C57_index_to_volume_partial (m : Mgr δ) (i : Nat) (p : Ptr) (hp : m.findPlaced i = some p) :
    m.convertIndex i = (some p, m) := by
  unfold Mgr.findPlaced at hp
  unfold Mgr.convertIndex
  cases hx : mfind m.placed i with
  | none => rw [hx] at hp; simp at hp
  | some q => rw [hx] at hp; simp only [Option.join_some] at hp; rw [hp]

/-- After closing, converting the *original* address of a volume to an index gives its id (the address under which
the volume was registered before closing). -/
theorem C57_volume_to_index_partial (ops : List (Op δ)) (m m' : Mgr δ) (h : run Mgr.init ops = some m)
    (hc : m.closeGeometry = some m') (i : Nat) (p : Ptr) (hp : m.findPlaced i = some p) :
    (m'.convertPtr p).1 = i := by
  have C := Cons.run ops Cons.init h
  unfold Mgr.closeGeometry at hc
  split at hc
  · simp at hc
  rename_i m1 h1
  obtain ⟨c, k⟩ := compactify_spec (C.toIndex _) h1
  obtain rfl := Option.some.inj hc
  have hp' : (i, some p) ∈ m.placed := by
    unfold Mgr.findPlaced at hp
    cases hx : mfind m.placed i with
    | none => rw [hx] at hp; simp at hp
    | some q => rw [hx] at hp; simp only [Option.join_some] at hp; rw [hp] at hx; exact mfind_mem hx
  have hu : ∀ i j, (i, some p) ∈ m.placed → (j, some p) ∈ m.placed → i = j := by
    intro i j hi hj
    obtain ⟨q, o, e1, e2, e3⟩ := C.pe i _ ((C.ps.mem_iff _ _).mp hi)
    obtain ⟨q', o', e1', e2', e3'⟩ := C.pe j _ ((C.ps.mem_iff _ _).mp hj)
    cases e1; cases e1'
    rw [e2] at e2'; cases e2'
    rw [← e3, e3']
  have := (indexLoop_spec m.placed m.toIndex p hu).1 i hp'
  have hti := k.frame.2.1
  dsimp only at hti
  unfold Mgr.convertPtr
  dsimp only
  rw [hti, this]

/-- Finding: after closing an open geometry, the address under which a volume is now found is unknown to the
index map: the conversion reports index 0 for every volume. -/
theorem C57_compacted_index_zero (ops : List (Op δ)) (m m' : Mgr δ) (ho : Open ops) (h : run Mgr.init ops = some m)
    (hc : m.closeGeometry = some m') (i : Nat) (p : Ptr) (hp : m'.findPlaced i = some p) :
    (m'.convertPtr p).1 = 0 := by
  have C := Cons.run ops Cons.init h
  have hs := C22_slots ops m m' h hc
  have htoinit : ∀ (ops : List (Op δ)) (m : Mgr δ), Open ops → run Mgr.init ops = some m → m.toIndex = fun _ => none := by
    intro ops
    induction ops using List.reverseRecOn with
    | nil => intro m _ h; obtain rfl := Option.some.inj h; rfl
    | append_singleton ops o ih =>
      intro m' ho h
      rw [run_append] at h
      cases hm : run Mgr.init ops with
      | none => rw [hm] at h; simp at h
      | some m =>
        rw [hm] at h
        have I := ih m (fun x hx => ho x (List.mem_append_left _ hx)) hm
        have hst : step m o = some m' := by
          simp only [Option.bind_some, run] at h
          cases hst : step m o with
          | none => rw [hst] at h; simp at h
          | some x => rw [hst] at h; exact h
        have hoo := ho o (by simp)
        rw [← I]
        cases o with
        | newPlaced n s l d =>
          simp only [step, Mgr.newPlaced, Mgr.registerPlaced] at hst
          split at hst
          · simp at hst
          · obtain rfl := Option.some.inj hst; split <;> rfl
        | deletePlaced n =>
          simp only [step, Mgr.deletePlaced, Mgr.deregisterPlaced] at hst
          split at hst
          · simp at hst
          · obtain rfl := Option.some.inj hst; dsimp only; split <;> rfl
        | newLogical n s l =>
          simp only [step, Mgr.newLogical, Mgr.registerLogical] at hst
          split at hst
          · simp at hst
          · obtain rfl := Option.some.inj hst; split <;> rfl
        | deleteLogical n =>
          simp only [step, Mgr.deleteLogical, Mgr.deregisterLogical] at hst
          split at hst
          · simp at hst
          · obtain rfl := Option.some.inj hst; dsimp only; split <;> rfl
        | placeDaughter n p =>
          simp only [step, Mgr.placeDaughter] at hst
          split at hst
          · simp at hst
          · obtain rfl := Option.some.inj hst; rfl
        | setWorld p => obtain rfl := Option.some.inj hst; rfl
        | close => exact hoo.elim
        | clear => exact hoo.elim
  have hnone := htoinit ops m ho h
  have hq : p = .buf m'.gen i := by
    cases hf : m.findPlaced i with
    | none => rw [hs.2.2.1 i hf] at hp; simp at hp
    | some q => rw [(hs.2.1 i q hf).2.1] at hp; exact (Option.some.inj hp).symm
  subst hq
  unfold Mgr.closeGeometry at hc
  split at hc
  · simp at hc
  rename_i m1 h1
  obtain ⟨c, k⟩ := compactify_spec (C.toIndex _) h1
  obtain rfl := Option.some.inj hc
  have hti := k.frame.2.1
  have hg : m1.gen = m.gen + 1 := k.gen
  dsimp only at hti
  have hfresh : ∀ j, (j, some (Ptr.buf (m.gen + 1) i)) ∉ m.placed := fun j hj => C.fresh j _ hj i rfl
  have := (indexLoop_spec m.placed m.toIndex (.buf (m.gen + 1) i)
    (fun a b ha _ => absurd ha (hfresh a))).2 hfresh
  unfold Mgr.convertPtr
  dsimp only
  rw [hti, hg, this, hnone]

/-- Finding: in the demo geometry the second daughter, id 2, converts to index 0. -/
theorem C57_counterexample : ∃ m m' : Mgr Nat, run Mgr.init demoOps = some m ∧ m.closeGeometry = some m' ∧
    m'.findPlaced 2 = some (.buf 1 2) ∧ (m'.convertPtr (.buf 1 2)).1 = 0 :=
  ⟨_, _, rfl, rfl, rfl, rfl⟩

/-- Finding: asking for the volume of an unknown index registers a null volume under it; the next lookup by label
then reads through the null pointer. -/
theorem C57_unknown_index : ∃ m : Mgr Nat, run Mgr.init demoOps = some m ∧
    (m.convertIndex 17).1 = none ∧ (m.convertIndex 17).2.placed.length = m.placed.length + 1 ∧
    m.findPlacedLabel "nope" = some none ∧ (m.convertIndex 17).2.findPlacedLabel "nope" = none :=
  ⟨_, rfl, rfl, rfl, rfl, rfl⟩

end Registry
end VecGeom
