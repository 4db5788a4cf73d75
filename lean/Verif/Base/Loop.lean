import Mathlib.Data.List.Basic

/-!
# Counting loops

`forUp f n i s` runs `for (k = i; k < i + n; ++k) s = f(k, s)`, and `forDown f n i s` runs the loop
`for (k = i + n - 1; k >= i; --k)`.  `none` is undefined behaviour and stops the loop.
-/

namespace VecGeom

def forUp {σ : Type} (f : Nat → σ → Option σ) : (n i : Nat) → σ → Option σ
  | 0, _, s => some s
  | n + 1, i, s => (f i s).bind (forUp f n (i + 1))

def forDown {σ : Type} (f : Nat → σ → Option σ) : (n i : Nat) → σ → Option σ
  | 0, _, s => some s
  | n + 1, i, s => (f (i + n) s).bind (forDown f n i)

/-- An upward loop in which round `i` stores `v i` in cell `i`; the body may read cells not yet written. -/
theorem forUp_set {α : Type} (f : Nat → List α → Option (List α)) (v : Nat → α) (l : List α) :
    ∀ (n a : Nat), a + n ≤ l.length →
      (∀ i (l' : List α), a ≤ i → i < a + n → l'.length = l.length → (∀ j, i ≤ j → l'[j]? = l[j]?) →
        f i l' = some (l'.set i (v i))) →
      ∀ l0 : List α, l0.length = l.length → (∀ j, a ≤ j → l0[j]? = l[j]?) →
      ∃ l', forUp f n a l0 = some l' ∧ l'.length = l.length ∧
        ∀ j, l'[j]? = if a ≤ j ∧ j < a + n then some (v j) else l0[j]? := by
  intro n
  induction n with
  | zero =>
    intro a _ _ l0 hl _
    refine ⟨l0, rfl, hl, fun j => ?_⟩
    rw [if_neg (by omega)]
  | succ n ih =>
    intro a hn hf l0 hl hag
    have h1 := hf a l0 (Nat.le_refl _) (by omega) hl hag
    obtain ⟨l', e, hl', hj⟩ := ih (a + 1) (by omega)
      (fun i l' h2 h3 h4 h5 => hf i l' (by omega) (by omega) h4 h5) (l0.set a (v a)) (by simp [hl])
      (fun j hj => by rw [List.getElem?_set_ne (by omega)]; exact hag j (by omega))
    refine ⟨l', by rw [forUp, h1]; exact e, hl', fun j => ?_⟩
    rw [hj]
    by_cases h : j = a
    · subst h
      rw [if_neg (by omega), if_pos (by omega), List.getElem?_set_self (by omega)]
    · rw [List.getElem?_set_ne (by omega)]
      by_cases h2 : a + 1 ≤ j ∧ j < a + 1 + n
      · rw [if_pos h2, if_pos (by omega)]
      · rw [if_neg h2, if_neg (by omega)]

/-- A downward loop in which round `i` stores `v i` in cell `i`; the body may read cells not yet written. -/
theorem forDown_set {α : Type} (f : Nat → List α → Option (List α)) (v : Nat → α) (l : List α) (a : Nat) :
    ∀ (n : Nat), a + n ≤ l.length →
      (∀ i (l' : List α), a ≤ i → i < a + n → l'.length = l.length → (∀ j, j ≤ i → l'[j]? = l[j]?) →
        f i l' = some (l'.set i (v i))) →
      ∀ l0 : List α, l0.length = l.length → (∀ j, j < a + n → l0[j]? = l[j]?) →
      ∃ l', forDown f n a l0 = some l' ∧ l'.length = l.length ∧
        ∀ j, l'[j]? = if a ≤ j ∧ j < a + n then some (v j) else l0[j]? := by
  intro n
  induction n with
  | zero =>
    intro _ _ l0 hl _
    refine ⟨l0, rfl, hl, fun j => ?_⟩
    rw [if_neg (by omega)]
  | succ n ih =>
    intro hn hf l0 hl hag
    have h1 := hf (a + n) l0 (by omega) (by omega) hl (fun j hj => hag j (by omega))
    obtain ⟨l', e, hl', hj⟩ := ih (by omega)
      (fun i l' h2 h3 h4 h5 => hf i l' (by omega) (by omega) h4 h5) (l0.set (a + n) (v (a + n))) (by simp [hl])
      (fun j hj => by rw [List.getElem?_set_ne (by omega)]; exact hag j (by omega))
    refine ⟨l', by rw [forDown, h1]; exact e, hl', fun j => ?_⟩
    rw [hj]
    by_cases h : j = a + n
    · subst h
      rw [if_neg (by omega), if_pos (by omega), List.getElem?_set_self (by omega)]
    · rw [List.getElem?_set_ne (by omega)]
      by_cases h2 : a ≤ j ∧ j < a + n
      · rw [if_pos h2, if_pos (by omega)]
      · rw [if_neg h2, if_neg (by omega)]

end VecGeom
