import Verif.Registry.Model
import Mathlib.Tactic.Linarith
import Mathlib.Data.List.Perm.Subperm
import Mathlib.Data.List.Nodup

/-! # Auxiliary facts about the registry -/

namespace VecGeom
namespace Registry

/-! ### Maps -/

section Maps
variable {α : Type}

def Sorted (m : List (Nat × α)) : Prop := m.Pairwise (fun a b => a.1 < b.1)

theorem mfind_mset (m : List (Nat × α)) (k : Nat) (a : α) (j : Nat) :
    mfind (mset m k a) j = if j = k then some a else mfind m j := by
  induction m with
  | nil => simp [mset, mfind]
  | cons x m ih =>
    obtain ⟨k', a'⟩ := x
    rw [mset]
    split
    · rw [mfind]
    · split
      · rename_i h; subst h; simp only [mfind]; split <;> rfl
      · rename_i h1 h2
        simp only [mfind, ih]
        by_cases h : j = k'
        · subst h; rw [if_pos rfl, if_neg (Ne.symm h2), if_pos rfl]
        · rw [if_neg h, if_neg h]

theorem mfind_merase (m : List (Nat × α)) (k j : Nat) :
    mfind (merase m k) j = if j = k then none else mfind m j := by
  induction m with
  | nil => simp [merase, mfind]
  | cons x m ih =>
    obtain ⟨k', a'⟩ := x
    have : merase ((k', a') :: m) k = if k' ≠ k then (k', a') :: merase m k else merase m k := by
      simp [merase, List.filter_cons]
    rw [this]
    by_cases h : k' = k
    · subst h
      rw [if_neg (by simp), ih]
      simp only [mfind]
      by_cases hj : j = k' <;> simp [hj]
    · rw [if_pos h]
      simp only [mfind, ih]
      by_cases hj : j = k'
      · subst hj; rw [if_pos rfl, if_neg h, if_pos rfl]
      · rw [if_neg hj, if_neg hj]

theorem mset_mem (m : List (Nat × α)) (k : Nat) (a : α) : ∀ x ∈ mset m k a, x.1 = k ∨ x ∈ m := by
  induction m with
  | nil => intro x hx; simp [mset] at hx; left; rw [hx]
  | cons y m ih =>
    obtain ⟨k', a'⟩ := y
    intro x hx
    rw [mset] at hx
    split at hx
    · rcases List.mem_cons.mp hx with rfl | h
      · exact Or.inl rfl
      · exact Or.inr h
    · split at hx
      · rcases List.mem_cons.mp hx with rfl | h
        · exact Or.inl rfl
        · exact Or.inr (List.mem_cons_of_mem _ h)
      · rcases List.mem_cons.mp hx with rfl | h
        · exact Or.inr (by simp)
        · exact (ih x h).imp id (List.mem_cons_of_mem _)

theorem Sorted.mset {m : List (Nat × α)} (h : Sorted m) (k : Nat) (a : α) : Sorted (mset m k a) := by
  induction m with
  | nil => exact List.pairwise_singleton _ _
  | cons y m ih =>
    obtain ⟨k', a'⟩ := y
    have h' := List.pairwise_cons.mp h
    rw [Registry.mset]
    split
    · rename_i hk
      refine List.pairwise_cons.mpr ⟨fun x hx => ?_, h⟩
      rcases List.mem_cons.mp hx with rfl | hx
      · exact hk
      · exact lt_trans hk (h'.1 x hx)
    · split
      · rename_i hk; subst hk
        exact List.pairwise_cons.mpr ⟨h'.1, h'.2⟩
      · refine List.pairwise_cons.mpr ⟨fun x hx => ?_, ih h'.2⟩
        rcases mset_mem m k a x hx with e | hx
        · rw [e]; dsimp only; omega
        · exact h'.1 x hx

theorem Sorted.merase {m : List (Nat × α)} (h : Sorted m) (k : Nat) : Sorted (merase m k) :=
  List.Pairwise.filter _ h

theorem mfind_mem {m : List (Nat × α)} {k : Nat} {a : α} (h : mfind m k = some a) : (k, a) ∈ m := by
  induction m with
  | nil => simp [mfind] at h
  | cons y m ih =>
    obtain ⟨k', a'⟩ := y
    rw [mfind] at h
    split at h
    · rename_i e; subst e
      obtain rfl : a' = a := by simpa using h
      simp
    · exact List.mem_cons_of_mem _ (ih h)

theorem Sorted.mem_iff {m : List (Nat × α)} (h : Sorted m) (k : Nat) (a : α) :
    (k, a) ∈ m ↔ mfind m k = some a := by
  refine ⟨fun hm => ?_, mfind_mem⟩
  induction m with
  | nil => simp at hm
  | cons y m ih =>
    obtain ⟨k', a'⟩ := y
    have h' := List.pairwise_cons.mp h
    rw [mfind]
    rcases List.mem_cons.mp hm with e | hm
    · cases e; rw [if_pos rfl]
    · have := h'.1 _ hm
      dsimp only at this
      rw [if_neg (by omega)]
      exact ih h'.2 hm

theorem mset_length (m : List (Nat × α)) (k : Nat) (a : α) (h : (mfind m k).isSome) (hs : Sorted m) :
    (mset m k a).length = m.length := by
  induction m with
  | nil => simp [mfind] at h
  | cons y m ih =>
    obtain ⟨k', a'⟩ := y
    have h' := List.pairwise_cons.mp hs
    rw [mset]
    rw [mfind] at h
    split
    · rename_i hk
      rw [if_neg (by omega)] at h
      obtain ⟨b, hb⟩ := Option.isSome_iff_exists.mp h
      have := h'.1 _ (mfind_mem hb)
      dsimp only at this
      omega
    · split
      · rfl
      · rename_i h1 h2
        rw [if_neg h2] at h
        rw [List.length_cons, ih h h'.2, List.length_cons]

/-- A map whose keys are all smaller than its size has all keys up to its size (and conversely). -/
theorem Sorted.dense {m : List (Nat × α)} (h : Sorted m) :
    (∀ x ∈ m, x.1 < m.length) ↔ ∀ i < m.length, (mfind m i).isSome := by
  have hnd : (m.map (·.1)).Nodup := by
    rw [List.Nodup, List.pairwise_map]
    exact h.imp (fun h => Nat.ne_of_lt h)
  have hmem : ∀ i, i ∈ m.map (·.1) ↔ (mfind m i).isSome := by
    intro i
    rw [List.mem_map, Option.isSome_iff_exists]
    constructor
    · rintro ⟨⟨k, a⟩, hm, rfl⟩; exact ⟨a, (h.mem_iff k a).mp hm⟩
    · rintro ⟨a, ha⟩; exact ⟨(i, a), mfind_mem ha, rfl⟩
  constructor
  · intro hb i hi
    have hsub : m.map (·.1) ⊆ List.range m.length := by
      intro k hk
      obtain ⟨x, hx, rfl⟩ := List.mem_map.mp hk
      exact List.mem_range.mpr (hb x hx)
    have hp : (m.map (·.1)).Subperm (List.range m.length) := List.Nodup.subperm hnd hsub
    have := List.Subperm.perm_of_length_le hp (by simp)
    exact (hmem i).mp (this.mem_iff.mpr (List.mem_range.mpr hi))
  · intro hd x hx
    have hsub : List.range m.length ⊆ m.map (·.1) := fun k hk => (hmem k).mpr (hd k (List.mem_range.mp hk))
    have hp : (List.range m.length).Subperm (m.map (·.1)) := List.Nodup.subperm List.nodup_range hsub
    have := List.Subperm.perm_of_length_le hp (by simp)
    exact List.mem_range.mp (this.mem_iff.mpr (List.mem_map_of_mem hx))

end Maps

variable {δ : Type}

theorem upd_self {α β : Type} [DecidableEq α] (f : α → β) (a : α) (b : β) : upd f a b a = b := by simp [upd]
theorem upd_ne {α β : Type} [DecidableEq α] (f : α → β) (a : α) (b : β) {x : α} (h : x ≠ a) :
    upd f a b x = f x := by simp [upd, h]

/-- Invariant of all histories: the maps are sorted, each entry is a live object with the id it is filed under,
and no buffer later than the current one has been written. -/
structure Cons (m : Mgr δ) : Prop where
  ps : Sorted m.placed
  ls : Sorted m.logical
  pe : ∀ i p, mfind m.placed i = some p → ∃ q o, p = some q ∧ m.pobj q = some o ∧ o.id = i
  le : ∀ i l, mfind m.logical i = some l → ∃ o, m.lobj l = some o ∧ o.id = i
  bg : ∀ g i, m.pobj (.buf g i) ≠ none → g ≤ m.gen

theorem Cons.init : Cons (Mgr.init : Mgr δ) :=
  ⟨.nil, .nil, fun i p h => by simp [Mgr.init, mfind] at h, fun i p h => by simp [Mgr.init, mfind] at h,
    fun g i h => absurd rfl h⟩

theorem Cons.deregisterPlaced {m : Mgr δ} (h : Cons m) (i : Nat) : Cons (m.deregisterPlaced i) := by
  unfold Mgr.deregisterPlaced
  split
  · refine ⟨h.ps.merase i, h.ls, fun j p hj => ?_, h.le, h.bg⟩
    dsimp only at hj
    rw [mfind_merase] at hj
    split at hj
    · simp at hj
    · exact h.pe j p hj
  · exact h

theorem deregisterPlaced_find (m : Mgr δ) (i j : Nat) :
    mfind (m.deregisterPlaced i).placed j = if j = i then none else mfind m.placed j := by
  unfold Mgr.deregisterPlaced
  split
  · exact mfind_merase _ _ _
  · rename_i h
    split
    · rename_i e; subst e; simpa using h
    · rfl

theorem deregisterLogical_find (m : Mgr δ) (i j : Nat) :
    mfind (m.deregisterLogical i).logical j = if j = i then none else mfind m.logical j := by
  unfold Mgr.deregisterLogical
  split
  · exact mfind_merase _ _ _
  · rename_i h
    split
    · rename_i e; subst e; simpa using h
    · rfl

theorem deregisterPlaced_pobj (m : Mgr δ) (i : Nat) : (m.deregisterPlaced i).pobj = m.pobj := by
  unfold Mgr.deregisterPlaced; split <;> rfl

theorem deregisterLogical_lobj (m : Mgr δ) (i : Nat) : (m.deregisterLogical i).lobj = m.lobj := by
  unfold Mgr.deregisterLogical; split <;> rfl

theorem Cons.newPlaced {m m' : Mgr δ} (h : Cons m) {n : Nat} {s : String} {l : Nat} {d : δ}
    (e : m.newPlaced n s l d = some m') : Cons m' := by
  unfold Mgr.newPlaced at e
  split at e
  · simp at e
  rename_i hf
  have hf : m.pobj (.heap n) = none := by simpa using hf
  obtain rfl := Option.some.inj e
  have hpe : ∀ i p, mfind m.placed i = some p → ∃ q o, p = some q ∧
      upd m.pobj (.heap n) (some ⟨m.nextP, s, l, d⟩) q = some o ∧ o.id = i := by
    intro i p hi
    obtain ⟨q, o, h1, h2, h3⟩ := h.pe i p hi
    refine ⟨q, o, h1, ?_, h3⟩
    rw [upd_ne _ _ _ (fun e => by rw [e, hf] at h2; simp at h2)]
    exact h2
  have hbg : ∀ g i, upd m.pobj (.heap n) (some ⟨m.nextP, s, l, d⟩) (.buf g i) ≠ none → g ≤ m.gen := by
    intro g i
    rw [upd_ne _ _ _ (by simp)]
    exact h.bg g i
  unfold Mgr.registerPlaced
  split
  · refine ⟨h.ps.mset _ _, h.ls, fun i p hi => ?_, h.le, hbg⟩
    dsimp only at hi ⊢
    rw [mfind_mset] at hi
    split at hi
    · rename_i e; subst e
      exact ⟨_, _, (Option.some.inj hi).symm, upd_self _ _ _, rfl⟩
    · exact hpe i p hi
  · exact ⟨h.ps, h.ls, hpe, h.le, hbg⟩

theorem Cons.deletePlaced {m m' : Mgr δ} (h : Cons m) {n : Nat} (e : m.deletePlaced n = some m') : Cons m' := by
  unfold Mgr.deletePlaced at e
  split at e
  · simp at e
  rename_i o ho
  obtain rfl := Option.some.inj e
  have h1 := h.deregisterPlaced o.id
  refine ⟨h1.ps, h1.ls, fun i p hi => ?_, h1.le, fun g i => ?_⟩
  · obtain ⟨q, o', e1, e2, e3⟩ := h1.pe i p hi
    refine ⟨q, o', e1, ?_, e3⟩
    dsimp only
    rw [upd_ne]
    · exact e2
    · intro e
      subst e
      rw [deregisterPlaced_pobj, ho] at e2
      obtain rfl := Option.some.inj e2
      dsimp only at hi
      rw [deregisterPlaced_find, if_pos e3.symm] at hi
      simp at hi
  · dsimp only
    rw [upd_ne _ _ _ (by simp)]
    exact h1.bg g i

theorem Cons.newLogical {m m' : Mgr δ} (h : Cons m) {n : Nat} {s : String} {l : List Ptr}
    (e : m.newLogical n s l = some m') : Cons m' := by
  unfold Mgr.newLogical at e
  split at e
  · simp at e
  rename_i hf
  have hf : m.lobj n = none := by simpa using hf
  obtain rfl := Option.some.inj e
  have hpe : ∀ i p, mfind m.logical i = some p → ∃ o,
      upd m.lobj n (some ⟨m.nextL, s, [], l⟩) p = some o ∧ o.id = i := by
    intro i p hi
    obtain ⟨o, h2, h3⟩ := h.le i p hi
    refine ⟨o, ?_, h3⟩
    rw [upd_ne _ _ _ (fun e => by rw [e, hf] at h2; simp at h2)]
    exact h2
  unfold Mgr.registerLogical
  split
  · refine ⟨h.ps, h.ls.mset _ _, h.pe, fun i p hi => ?_, h.bg⟩
    dsimp only at hi ⊢
    rw [mfind_mset] at hi
    split at hi
    · rename_i e; subst e
      obtain rfl := Option.some.inj hi
      exact ⟨_, upd_self _ _ _, rfl⟩
    · exact hpe i p hi
  · exact ⟨h.ps, h.ls, h.pe, hpe, h.bg⟩

theorem Cons.deleteLogical {m m' : Mgr δ} (h : Cons m) {n : Nat} (e : m.deleteLogical n = some m') : Cons m' := by
  unfold Mgr.deleteLogical at e
  split at e
  · simp at e
  rename_i o ho
  obtain rfl := Option.some.inj e
  have h1 : (m.deregisterLogical o.id).placed = m.placed ∧ (m.deregisterLogical o.id).pobj = m.pobj ∧
      (m.deregisterLogical o.id).gen = m.gen := by
    unfold Mgr.deregisterLogical; split <;> exact ⟨rfl, rfl, rfl⟩
  have h2 : Sorted (m.deregisterLogical o.id).logical := by
    unfold Mgr.deregisterLogical; split
    · exact h.ls.merase _
    · exact h.ls
  refine ⟨by dsimp only; rw [h1.1]; exact h.ps, h2, ?_, fun i l hi => ?_, ?_⟩
  · dsimp only; rw [h1.1, h1.2.1]; exact h.pe
  · dsimp only at hi ⊢
    rw [deregisterLogical_find] at hi
    split at hi
    · simp at hi
    rename_i hne
    obtain ⟨o', e2, e3⟩ := h.le i l hi
    refine ⟨o', ?_, e3⟩
    rw [upd_ne, deregisterLogical_lobj]
    · exact e2
    · intro e
      subst e
      rw [ho] at e2
      obtain rfl := Option.some.inj e2
      exact hne e3.symm
  · dsimp only; rw [h1.2.1, h1.2.2]; exact h.bg

/-! ### Compaction -/

theorem compactLoop_frame (n : Nat) : ∀ (l : List (Nat × Option Ptr)) (m : Mgr δ) conv m1 c1,
    Mgr.compactLoop n l m conv = some (m1, c1) →
    m1.lobj = m.lobj ∧ m1.logical = m.logical ∧ m1.toIndex = m.toIndex ∧ m1.world = m.world ∧
    m1.closed = m.closed ∧ m1.nextP = m.nextP ∧ m1.nextL = m.nextL ∧ m1.gen = m.gen ∧ m1.live = m.live := by
  intro l
  induction l with
  | nil =>
    intro m conv m1 c1 h
    simp only [Mgr.compactLoop, Option.some.injEq, Prod.mk.injEq] at h
    obtain ⟨rfl, rfl⟩ := h
    exact ⟨rfl, rfl, rfl, rfl, rfl, rfl, rfl, rfl, rfl⟩
  | cons x l ih =>
    obtain ⟨i, p⟩ := x
    intro m conv m1 c1 h
    cases p with
    | none => rw [Mgr.compactLoop] at h; simp at h
    | some p =>
      rw [Mgr.compactLoop] at h
      split at h
      · split at h
        · simp at h
        · have := ih _ _ _ _ h
          exact this
      · simp at h

/-- The entries are valid: distinct from the new buffer. -/
def Fresh (g : Nat) (l : List (Nat × Option Ptr)) : Prop := ∀ i p, (i, some p) ∈ l → ∀ j, p ≠ .buf g j

theorem compactLoop_isSome (n : Nat) : ∀ (l : List (Nat × Option Ptr)) (m : Mgr δ) conv, Fresh m.gen l →
    ((Mgr.compactLoop n l m conv).isSome ↔
      ∀ x ∈ l, x.1 < n ∧ ∃ p, x.2 = some p ∧ (m.pobj p).isSome) := by
  intro l
  induction l with
  | nil => intro m conv _; simp [Mgr.compactLoop]
  | cons x l ih =>
    obtain ⟨i, p⟩ := x
    intro m conv hf
    cases p with
    | none =>
      rw [Mgr.compactLoop]
      simp only [Option.isSome_none, Bool.false_eq_true, false_iff]
      intro h
      obtain ⟨_, p, hp, _⟩ := h (i, none) (by simp)
      simp at hp
    | some p =>
      rw [Mgr.compactLoop]
      by_cases hi : i < n
      · rw [if_pos hi]
        cases ho : m.pobj p with
        | none =>
          simp only [Option.isSome_none, Bool.false_eq_true, false_iff]
          intro h
          obtain ⟨_, q, hq, h2⟩ := h (i, some p) (by simp)
          obtain rfl : p = q := by simpa using hq
          rw [ho] at h2; simp at h2
        | some o =>
          dsimp only
          rw [ih _ _ (by intro j q hq; exact hf j q (List.mem_cons_of_mem _ hq))]
          constructor
          · intro h x hx
            rcases List.mem_cons.mp hx with rfl | hx
            · exact ⟨hi, p, rfl, by rw [ho]; rfl⟩
            · obtain ⟨h1, q, hq, h2⟩ := h x hx
              refine ⟨h1, q, hq, ?_⟩
              dsimp only at h2
              rwa [upd_ne] at h2
              exact hf x.1 q (by rw [← hq]; exact List.mem_cons_of_mem _ hx) i
          · intro h x hx
            obtain ⟨h1, q, hq, h2⟩ := h x (List.mem_cons_of_mem _ hx)
            refine ⟨h1, q, hq, ?_⟩
            dsimp only
            rw [upd_ne]
            · exact h2
            · exact hf x.1 q (by rw [← hq]; exact List.mem_cons_of_mem _ hx) i
      · rw [if_neg hi]
        simp only [Option.isSome_none, Bool.false_eq_true, false_iff]
        intro h
        exact hi (h (i, some p) (by simp)).1

theorem compactLoop_pobj (n : Nat) : ∀ (l : List (Nat × Option Ptr)) (m : Mgr δ) conv m1 c1, Sorted l →
    Fresh m.gen l → Mgr.compactLoop n l m conv = some (m1, c1) →
    (∀ q, (∀ i p, (i, p) ∈ l → q ≠ .buf m.gen i) → m1.pobj q = m.pobj q) ∧
    (∀ i p, (i, some p) ∈ l → m1.pobj (.buf m.gen i) = m.pobj p ∧ i < n) := by
  intro l
  induction l with
  | nil =>
    intro m conv m1 c1 _ _ h
    simp only [Mgr.compactLoop, Option.some.injEq, Prod.mk.injEq] at h
    obtain ⟨rfl, rfl⟩ := h
    exact ⟨fun q _ => rfl, fun i p h => by simp at h⟩
  | cons x l ih =>
    obtain ⟨i, p⟩ := x
    intro m conv m1 c1 hs hf h
    have hs' := List.pairwise_cons.mp hs
    cases p with
    | none => rw [Mgr.compactLoop] at h; simp at h
    | some p =>
      rw [Mgr.compactLoop] at h
      split at h
      · rename_i hi
        split at h
        · simp at h
        · rename_i o ho
          obtain ⟨h1, h2⟩ := ih _ _ _ _ hs'.2 (by intro j q hq; exact hf j q (List.mem_cons_of_mem _ hq)) h
          dsimp only at h1 h2
          constructor
          · intro q hq
            rw [h1 q (fun i p hp => hq i p (List.mem_cons_of_mem _ hp)), upd_ne _ _ _ (hq i (some p) (by simp))]
          · intro j q hq
            rcases List.mem_cons.mp hq with e | hq
            · obtain ⟨rfl, hpq⟩ := Prod.mk.inj e
              obtain rfl : q = p := by simpa using hpq
              refine ⟨?_, hi⟩
              rw [h1 _ (fun k r hk e => ?_), upd_self, ho]
              have := hs'.1 _ hk
              have e2 : j = k := by simpa using e
              dsimp only at this
              omega
            · obtain ⟨h3, h4⟩ := h2 j q hq
              refine ⟨?_, h4⟩
              rw [h3, upd_ne _ _ _ (hf j q (List.mem_cons_of_mem _ hq) i)]
      · simp at h

theorem compactLoop_placed (n : Nat) : ∀ (l : List (Nat × Option Ptr)) (m : Mgr δ) conv m1 c1,
    Mgr.compactLoop n l m conv = some (m1, c1) →
    (∀ i, (∀ p, (i, p) ∉ l) → mfind m1.placed i = mfind m.placed i) ∧
    (∀ i p, (i, p) ∈ l → mfind m1.placed i = some (some (.buf m.gen i))) ∧
    (Sorted m.placed → Sorted m1.placed) ∧
    (Sorted m.placed → (∀ i p, (i, p) ∈ l → (mfind m.placed i).isSome) → m1.placed.length = m.placed.length) := by
  intro l
  induction l with
  | nil =>
    intro m conv m1 c1 h
    simp only [Mgr.compactLoop, Option.some.injEq, Prod.mk.injEq] at h
    obtain ⟨rfl, rfl⟩ := h
    exact ⟨fun i _ => rfl, fun i p h => by simp at h, id, fun _ _ => rfl⟩
  | cons x l ih =>
    obtain ⟨i, p⟩ := x
    intro m conv m1 c1 h
    cases p with
    | none => rw [Mgr.compactLoop] at h; simp at h
    | some p =>
      rw [Mgr.compactLoop] at h
      split at h
      · split at h
        · simp at h
        · rename_i o ho
          obtain ⟨h1, h2, h3, h4⟩ := ih _ _ _ _ h
          dsimp only at h1 h2 h3 h4
          refine ⟨fun j hj => ?_, fun j q hq => ?_, fun hs => h3 (hs.mset _ _), fun hs hl => ?_⟩
          · rw [h1 j (fun p hp => hj p (List.mem_cons_of_mem _ hp)), mfind_mset, if_neg]
            rintro rfl
            exact hj (some p) (by simp)
          · by_cases hin : ∃ r, (j, r) ∈ l
            · obtain ⟨r, hr⟩ := hin
              exact h2 j r hr
            · rcases List.mem_cons.mp hq with e | hq
              · obtain ⟨rfl, -⟩ := Prod.mk.inj e
                rw [h1 j (fun p hp => hin ⟨p, hp⟩), mfind_mset, if_pos rfl]
              · exact absurd ⟨q, hq⟩ hin
          · rw [h4 (hs.mset _ _), mset_length _ _ _ (hl i (some p) (by simp)) hs]
            intro j q hq
            rw [mfind_mset]
            split
            · rfl
            · exact hl j q (List.mem_cons_of_mem _ hq)
      · simp at h

theorem compactLoop_conv (n : Nat) : ∀ (l : List (Nat × Option Ptr)) (m : Mgr δ) conv m1 c1,
    Mgr.compactLoop n l m conv = some (m1, c1) →
    (∀ q, (∀ i, (i, some q) ∉ l) → c1 q = conv q) ∧
    (∀ i q, (i, some q) ∈ l → ∃ j, (j, some q) ∈ l ∧ c1 q = some (.buf m.gen j)) := by
  intro l
  induction l with
  | nil =>
    intro m conv m1 c1 h
    simp only [Mgr.compactLoop, Option.some.injEq, Prod.mk.injEq] at h
    obtain ⟨rfl, rfl⟩ := h
    exact ⟨fun q _ => rfl, fun i p h => by simp at h⟩
  | cons x l ih =>
    obtain ⟨i, p⟩ := x
    intro m conv m1 c1 h
    cases p with
    | none => rw [Mgr.compactLoop] at h; simp at h
    | some p =>
      rw [Mgr.compactLoop] at h
      split at h
      · split at h
        · simp at h
        · rename_i o ho
          obtain ⟨h1, h2⟩ := ih _ _ _ _ h
          dsimp only at h1 h2
          refine ⟨fun q hq => ?_, fun j q hq => ?_⟩
          · rw [h1 q (fun i hp => hq i (List.mem_cons_of_mem _ hp)), upd_ne]
            rintro rfl
            exact hq i (by simp)
          · by_cases hin : ∃ k, (k, some q) ∈ l
            · obtain ⟨k, hk⟩ := hin
              obtain ⟨r, hr, e⟩ := h2 k q hk
              exact ⟨r, List.mem_cons_of_mem _ hr, e⟩
            · rcases List.mem_cons.mp hq with e | hq
              · obtain ⟨rfl, hpq⟩ := Prod.mk.inj e
                obtain rfl : q = p := by simpa using hpq
                refine ⟨j, by simp, ?_⟩
                rw [h1 q (fun i hp => hin ⟨i, hp⟩), upd_self]
              · exact absurd ⟨j, hq⟩ hin
      · simp at h

/-- Rewriting all pointers of a logical volume. -/
def LObj.conv (c : Ptr → Option Ptr) (o : LObj) : LObj :=
  { o with daughters := o.daughters.map (Mgr.convert c), parts := o.parts.map (Mgr.convert c) }

theorem fixLogical_isSome (c : Ptr → Option Ptr) : ∀ (ls : List (Nat × Nat)) (f : Nat → Option LObj),
    (∀ x ∈ ls, (f x.2).isSome) → (Mgr.fixLogical c ls f).isSome := by
  intro ls
  induction ls with
  | nil => intro f _; rfl
  | cons x ls ih =>
    obtain ⟨i, l⟩ := x
    intro f hf
    rw [Mgr.fixLogical]
    have := hf (i, l) (by simp)
    dsimp only at this
    cases h : f l with
    | none => rw [h] at this; simp at this
    | some o =>
      dsimp only
      apply ih
      intro x hx
      by_cases e : x.2 = l
      · rw [e, upd_self]; rfl
      · rw [upd_ne _ _ _ e]; exact hf x (List.mem_cons_of_mem _ hx)

theorem fixLogical_spec (c : Ptr → Option Ptr) (hid : ∀ q, Mgr.convert c (Mgr.convert c q) = Mgr.convert c q) :
    ∀ (ls : List (Nat × Nat)) (f f' : Nat → Option LObj), Mgr.fixLogical c ls f = some f' →
    (∀ l, (∀ i, (i, l) ∉ ls) → f' l = f l) ∧ (∀ i l, (i, l) ∈ ls → f' l = (f l).map (LObj.conv c)) := by
  have hco : ∀ o, LObj.conv c (LObj.conv c o) = LObj.conv c o := by
    intro o
    simp only [LObj.conv, List.map_map, LObj.mk.injEq, true_and]
    constructor <;> (apply List.map_congr_left; intro q _; exact hid q)
  intro ls
  induction ls with
  | nil =>
    intro f f' h
    obtain rfl := Option.some.inj h
    exact ⟨fun l _ => rfl, fun i l h => by simp at h⟩
  | cons x ls ih =>
    obtain ⟨i, l⟩ := x
    intro f f' h
    rw [Mgr.fixLogical] at h
    split at h
    · simp at h
    rename_i o ho
    obtain ⟨h1, h2⟩ := ih _ _ h
    refine ⟨fun k hk => ?_, fun j k hk => ?_⟩
    · rw [h1 k (fun i hi => hk i (List.mem_cons_of_mem _ hi)), upd_ne]
      rintro rfl
      exact hk i (by simp)
    · by_cases hin : ∃ r, (r, k) ∈ ls
      · obtain ⟨r, hr⟩ := hin
        rw [h2 r k hr]
        by_cases e : k = l
        · subst e
          rw [upd_self, ho]
          exact congrArg some (hco o)
        · rw [upd_ne _ _ _ e]
      · rcases List.mem_cons.mp hk with e | hk
        · obtain ⟨rfl, rfl⟩ := Prod.mk.inj e
          rw [h1 k (fun i hi => hin ⟨i, hi⟩), upd_self, ho]
          rfl
        · exact absurd ⟨j, hk⟩ hin

/-- Everything about a successful compaction of a consistent state. -/
structure Compacted (m m' : Mgr δ) (c : Ptr → Option Ptr) : Prop where
  gen : m'.gen = m.gen + 1
  frame : m'.logical = m.logical ∧ m'.toIndex = m.toIndex ∧ m'.closed = m.closed ∧ m'.nextP = m.nextP ∧
    m'.nextL = m.nextL ∧ m'.live = true
  sorted : Sorted m'.placed
  len : m'.placed.length = m.placed.length
  old : ∀ q, (∀ i, q ≠ .buf (m.gen + 1) i) → m'.pobj q = m.pobj q
  slot : ∀ i p, mfind m.placed i = some (some p) → i < m.placed.length ∧
    mfind m'.placed i = some (some (.buf (m.gen + 1) i)) ∧ m'.pobj (.buf (m.gen + 1) i) = m.pobj p ∧
    c p = some (.buf (m.gen + 1) i)
  nofind : ∀ i, mfind m.placed i = none → mfind m'.placed i = none
  unused : ∀ i, mfind m.placed i = none → m'.pobj (.buf (m.gen + 1) i) = none
  noconv : ∀ q, (∀ i, mfind m.placed i ≠ some (some q)) → c q = none
  lreg : ∀ i l, mfind m.logical i = some l → m'.lobj l = (m.lobj l).map (LObj.conv c)
  lunreg : ∀ l, (∀ i, mfind m.logical i ≠ some l) → m'.lobj l = m.lobj l
  world : m'.world = m.world.map (Mgr.convert c)

theorem Cons.fresh {m : Mgr δ} (h : Cons m) : Fresh (m.gen + 1) m.placed := by
  intro i p hp j e
  obtain ⟨q, o, h1, h2, _⟩ := h.pe i _ ((h.ps.mem_iff _ _).mp hp)
  obtain rfl := Option.some.inj h1
  have := h.bg (m.gen + 1) j (by rw [← e, h2]; simp)
  omega

theorem compactify_spec {m m' : Mgr δ} (h : Cons m) (e : m.compactify = some m') : ∃ c, Compacted m m' c := by
  unfold Mgr.compactify at e
  split at e
  · simp at e
  rename_i w hw
  split at e
  · simp at e
  rename_i m1 c hl
  split at e
  · simp at e
  rename_i f hfix
  obtain rfl := Option.some.inj e
  have hfr := h.fresh
  obtain ⟨f1, f2, f3, f4, f5, f6, f7, f8, f9⟩ := compactLoop_frame _ _ _ _ _ _ hl
  obtain ⟨p1, p2⟩ := compactLoop_pobj _ _ _ _ _ _ h.ps hfr hl
  obtain ⟨r1, r2, r3, r4⟩ := compactLoop_placed _ _ _ _ _ _ hl
  obtain ⟨c1, c2⟩ := compactLoop_conv _ _ _ _ _ _ hl
  dsimp only at f1 f2 f3 f4 f5 f6 f7 f8 f9 p1 p2 r1 r2 r3 r4 c1 c2
  have hnoconv : ∀ q, (∀ i, mfind m.placed i ≠ some (some q)) → c q = none :=
    fun q hq => c1 q (fun i hi => hq i ((h.ps.mem_iff _ _).mp hi))
  have hconv : ∀ i p, mfind m.placed i = some (some p) → c p = some (.buf (m.gen + 1) i) := by
    intro i p hp
    obtain ⟨j, hj, e⟩ := c2 i p (mfind_mem hp)
    obtain ⟨q, o, h1, h2, h3⟩ := h.pe i _ hp
    obtain ⟨q', o', h1', h2', h3'⟩ := h.pe j _ ((h.ps.mem_iff _ _).mp hj)
    obtain rfl := Option.some.inj h1
    obtain rfl := Option.some.inj h1'
    rw [h2] at h2'
    obtain rfl := Option.some.inj h2'
    rw [e, ← h3', h3]
  have hnew : ∀ i, c (.buf (m.gen + 1) i) = none := by
    intro i
    refine hnoconv _ (fun j hj => ?_)
    exact hfr j _ (mfind_mem hj) i rfl
  have hid : ∀ q, Mgr.convert c (Mgr.convert c q) = Mgr.convert c q := by
    intro q
    by_cases hq : ∃ i, mfind m.placed i = some (some q)
    · obtain ⟨i, hi⟩ := hq
      have := hconv i q hi
      have e : Mgr.convert c q = .buf (m.gen + 1) i := by rw [Mgr.convert, this]
      rw [e, Mgr.convert, hnew]
    · have := hnoconv q (fun i hi => hq ⟨i, hi⟩)
      have e : Mgr.convert c q = q := by rw [Mgr.convert, this]
      rw [e, e]
  obtain ⟨l1, l2⟩ := fixLogical_spec c hid _ _ _ hfix
  refine ⟨c, f8, ⟨f2, f3, f5, f6, f7, f9⟩, r3 h.ps, r4 h.ps ?_, ?_, ?_, ?_, ?_, hnoconv, ?_, ?_, ?_⟩
  · intro i p hp
    rw [(h.ps.mem_iff _ _).mp hp]; rfl
  · intro q hq
    exact p1 q (fun i p _ => hq i)
  · intro i p hp
    have hm := mfind_mem hp
    exact ⟨(p2 i p hm).2, r2 i _ hm, (p2 i p hm).1, hconv i p hp⟩
  · intro i hi
    dsimp only
    rw [r1 i, hi]
    intro p hp
    rw [(h.ps.mem_iff _ _).mp hp] at hi
    simp at hi
  · intro i hi
    dsimp only
    rw [p1]
    · by_contra hne
      have := h.bg _ _ hne
      omega
    · intro j p hp e
      have : i = j := by simpa using e
      subst this
      rw [(h.ps.mem_iff _ _).mp hp] at hi
      simp at hi
  · intro i l hl
    dsimp only
    rw [l2 i l (mfind_mem hl), f1]
  · intro l hl
    dsimp only
    rw [l1 l (fun i hi => hl i ((h.ls.mem_iff _ _).mp hi)), f1]
  · dsimp only
    rw [hw]; rfl

theorem compactify_isSome {m : Mgr δ} (h : Cons m) :
    m.compactify.isSome ↔ m.world.isSome ∧ ∀ i < m.placed.length, (mfind m.placed i).isSome := by
  unfold Mgr.compactify
  cases hw : m.world with
  | none => simp
  | some w =>
    dsimp only
    rw [← h.ps.dense]
    have key := compactLoop_isSome m.placed.length m.placed { m with gen := m.gen + 1, live := true, world := m.world }
      (fun _ => none) h.fresh
    have hall : (∀ x ∈ m.placed, x.1 < m.placed.length ∧ ∃ p, x.2 = some p ∧ (m.pobj p).isSome) ↔
        ∀ x ∈ m.placed, x.1 < m.placed.length := by
      refine forall₂_congr (fun x hx => ⟨And.left, fun hi => ⟨hi, ?_⟩⟩)
      obtain ⟨q, o, h1, h2, _⟩ := h.pe x.1 x.2 ((h.ps.mem_iff _ _).mp hx)
      exact ⟨q, h1, by rw [h2]; rfl⟩
    rw [hall] at key
    rw [← hw]
    cases hc : Mgr.compactLoop m.placed.length m.placed
        { m with gen := m.gen + 1, live := true, world := m.world } (fun _ => none) with
    | none =>
      rw [hc] at key
      rw [hw] at hc
      simp only [Option.isSome_none, Bool.false_eq_true, false_iff]
      rintro ⟨_, h⟩
      have := key.mpr h
      simp at this
    | some r =>
      obtain ⟨m1, c⟩ := r
      rw [hc] at key
      have hfr := compactLoop_frame _ _ _ _ _ _ hc
      have hfix : (Mgr.fixLogical c m.logical m1.lobj).isSome := by
        apply fixLogical_isSome
        intro x hx
        obtain ⟨o, ho, _⟩ := h.le x.1 x.2 ((h.ls.mem_iff _ _).mp hx)
        rw [hfr.1, ho]; rfl
      cases hx : Mgr.fixLogical c m.logical m1.lobj with
      | none => rw [hx] at hfix; simp at hfix
      | some f =>
        dsimp only
        rw [hx]
        simp only [Option.isSome_some, true_iff]
        rw [hw]
        exact ⟨rfl, key.mp rfl⟩

theorem Cons.compactify {m m' : Mgr δ} (h : Cons m) (e : m.compactify = some m') : Cons m' := by
  obtain ⟨c, k⟩ := compactify_spec h e
  refine ⟨k.sorted, by rw [k.frame.1]; exact h.ls, fun i p hi => ?_, fun i l hi => ?_, fun g i hg => ?_⟩
  · cases hf : mfind m.placed i with
    | none => rw [k.nofind i hf] at hi; simp at hi
    | some r =>
      obtain ⟨q, o, rfl, h2, h3⟩ := h.pe i r hf
      obtain ⟨_, s2, s3, _⟩ := k.slot i q hf
      rw [s2] at hi
      exact ⟨_, o, (Option.some.inj hi).symm, by rw [s3, h2], h3⟩
  · rw [k.frame.1] at hi
    obtain ⟨o, ho, e⟩ := h.le i l hi
    exact ⟨o.conv c, by rw [k.lreg i l hi, ho]; rfl, e⟩
  · rw [k.gen]
    by_cases e : g = m.gen + 1
    · omega
    · rw [k.old _ (fun j e2 => e (by simpa using (congrArg (fun p => match p with | Ptr.buf g _ => g | _ => 0) e2)))] at hg
      have := h.bg g i hg
      omega

theorem Cons.toIndex {m : Mgr δ} (h : Cons m) (f : Ptr → Option Nat) : Cons { m with toIndex := f } :=
  ⟨h.ps, h.ls, h.pe, h.le, h.bg⟩

theorem Cons.close {m m' : Mgr δ} (h : Cons m) (e : m.closeGeometry = some m') : Cons m' := by
  unfold Mgr.closeGeometry at e
  split at e
  · simp at e
  rename_i m1 h1
  obtain rfl := Option.some.inj e
  have := (h.toIndex _).compactify h1
  exact ⟨this.ps, this.ls, this.pe, this.le, this.bg⟩

theorem Cons.clear {m : Mgr δ} (h : Cons m) : Cons m.clear := by
  refine ⟨.nil, .nil, fun i p h => by simp [Mgr.clear, mfind] at h, fun i p h => by simp [Mgr.clear, mfind] at h,
    fun g i hg => ?_⟩
  show g ≤ m.gen
  apply h.bg g i
  unfold Mgr.clear at hg
  dsimp only at hg
  split at hg
  · dsimp only at hg
    split at hg
    · simp at hg
    · exact hg
  · exact hg

theorem Cons.step {m m' : Mgr δ} (h : Cons m) (o : Op δ) (e : step m o = some m') : Cons m' := by
  cases o with
  | newPlaced n s l d => exact h.newPlaced e
  | deletePlaced n => exact h.deletePlaced e
  | newLogical n s l => exact h.newLogical e
  | deleteLogical n => exact h.deleteLogical e
  | placeDaughter n p =>
    simp only [Registry.step, Mgr.placeDaughter] at e
    split at e
    · simp at e
    rename_i o ho
    obtain rfl := Option.some.inj e
    refine ⟨h.ps, h.ls, h.pe, fun i l hl => ?_, h.bg⟩
    obtain ⟨o', h1, h2⟩ := h.le i l hl
    dsimp only
    by_cases e : l = n
    · subst e
      rw [ho] at h1
      obtain rfl := Option.some.inj h1
      exact ⟨_, upd_self _ _ _, h2⟩
    · exact ⟨o', by rw [upd_ne _ _ _ e]; exact h1, h2⟩
  | setWorld p => obtain rfl := Option.some.inj e; exact ⟨h.ps, h.ls, h.pe, h.le, h.bg⟩
  | close => exact h.close e
  | clear => obtain rfl := Option.some.inj e; exact h.clear

theorem Cons.run : ∀ (os : List (Op δ)) {m m' : Mgr δ}, Cons m → run m os = some m' → Cons m' := by
  intro os
  induction os with
  | nil => intro m m' h e; obtain rfl := Option.some.inj e; exact h
  | cons o os ih =>
    intro m m' h e
    rw [Registry.run] at e
    split at e
    · simp at e
    · rename_i m1 h1
      exact ih (h.step o h1) e

theorem run_append (os os' : List (Op δ)) : ∀ m : Mgr δ,
    run m (os ++ os') = (run m os).bind (fun m' => run m' os') := by
  induction os with
  | nil => intro m; rfl
  | cons o os ih =>
    intro m
    rw [List.cons_append, run, run]
    cases h : step m o with
    | none => rfl
    | some m' => exact ih m'

end Registry
end VecGeom
