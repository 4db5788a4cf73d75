import Verif.NavPath.Spec
import Mathlib.Tactic.Linarith
import Mathlib.Data.List.Basic

/-! Helper lemmas for NavStatePath. -/

namespace VecGeom
namespace NavPath
variable {V : Type}

theorem Repr.len_le {s : NavPath V} {l : List V} (h : Repr s l) : l.length ≤ s.slots.length := by
  have := congrArg List.length h.take
  simp [h.cur] at this
  exact this

theorem Repr.slot {s : NavPath V} {l : List V} (h : Repr s l) {i : Nat} (hi : i < l.length) :
    s.slots[i]? = some (some l[i]) := by
  have h1 : (s.slots.take s.cur)[i]? = (l.map some)[i]? := by rw [h.take]
  rw [List.getElem?_take, h.cur, if_pos hi] at h1
  rw [h1]; simp [hi]

theorem Repr.mk' {s : NavPath V} {l : List V} (hc : s.cur = l.length) (hb : l.length < 256)
    (hs : ∀ i (hi : i < l.length), s.slots[i]? = some (some l[i])) : Repr s l := by
  refine ⟨hc, ?_, hb⟩
  apply List.ext_getElem?
  intro i
  rw [List.getElem?_take, hc]
  by_cases hi : i < l.length
  · rw [if_pos hi, hs i hi]; simp [hi]
  · rw [if_neg hi]; simp; omega

theorem Repr.push {s : NavPath V} {l : List V} (h : Repr s l) (v : V) (hl : l.length < s.slots.length)
    (hb : l.length < 255) :
    ∃ s', s.push v = some s' ∧ Repr s' (l ++ [v]) ∧ s'.slots.length = s.slots.length ∧
      s'.onBoundary = s.onBoundary := by
  refine ⟨_, if_pos (by rw [h.cur]; exact hl), ?_, by simp, rfl⟩
  apply Repr.mk'
  · simp [h.cur]; omega
  · simp; omega
  · intro i hi
    simp only [List.length_append, List.length_singleton] at hi
    rw [List.getElem?_set, h.cur]
    by_cases e : l.length = i
    · subst e; simp [hl]
    · rw [if_neg e, h.slot (by omega), List.getElem_append_left]

theorem Repr.pop {s : NavPath V} {l : List V} (h : Repr s l) :
    Repr s.pop l.dropLast ∧ s.pop.slots = s.slots ∧ s.pop.onBoundary = s.onBoundary := by
  unfold NavPath.pop
  split
  · refine ⟨?_, rfl, rfl⟩
    apply Repr.mk'
    · simp [h.cur]
    · have := h.byte; simp; omega
    · intro i hi
      simp only [List.length_dropLast] at hi
      simp only [List.getElem_dropLast]
      exact h.slot (by omega)
  · refine ⟨?_, rfl, rfl⟩
    have : l = [] := by
      have := h.cur
      exact List.length_eq_zero_iff.mp (by omega)
    subst this; simpa using h

theorem Repr.clear {s : NavPath V} : Repr s.clear ([] : List V) :=
  ⟨rfl, by simp [NavPath.clear], by simp⟩

theorem Repr.setBoundary {s : NavPath V} {l : List V} (h : Repr s l) (b : Bool) :
    Repr (s.setBoundaryState b) l := ⟨h.cur, h.take, h.byte⟩

theorem Repr.copyTo {s o : NavPath V} {l : List V} (h : Repr s l) (hs : l.length < s.slots.length)
    (ho : l.length < o.slots.length) :
    ∃ o', s.copyTo o = some o' ∧ Repr o' l ∧ o'.slots.length = o.slots.length ∧
      o'.onBoundary = s.onBoundary ∧ o'.fN = s.fN ∧ o'.fCache = s.fCache := by
  refine ⟨_, if_pos (by rw [h.cur]; omega), ?_, ?_, rfl, rfl, rfl⟩
  · apply Repr.mk'
    · exact h.cur
    · exact h.byte
    · intro i hi
      rw [List.getElem?_append_left (by simp [h.cur]; omega), List.getElem?_take, if_pos (by rw [h.cur]; omega)]
      exact h.slot hi
  · simp [h.cur]; omega

theorem Repr.assign {s o : NavPath V} {l : List V} (h : Repr s l) (ho : l.length ≤ o.slots.length) :
    Repr (o.assign s) l ∧ (o.assign s).slots.length = o.slots.length ∧
      (o.assign s).onBoundary = s.onBoundary ∧ (o.assign s).fN = o.fN := by
  have hs := h.len_le
  refine ⟨?_, ?_, rfl, rfl⟩
  · apply Repr.mk'
    · exact h.cur
    · exact h.byte
    · intro i hi
      simp only [NavPath.assign]
      rw [List.getElem?_append_left (by simp; omega), List.getElem?_take, if_pos (by omega)]
      exact h.slot hi
  · simp [NavPath.assign]; omega

theorem Repr.top {s : NavPath V} {l : List V} (h : Repr s l) : s.top = some l.getLast? := by
  unfold NavPath.top
  rcases List.eq_nil_or_concat l with rfl | ⟨m, v, rfl⟩
  · simp [h.cur]
  · rw [if_pos (by simp [h.cur]), h.slot (by simp [h.cur])]
    simp [h.cur]

theorem Repr.pushChild {g : Geom V} {s : NavPath V} {l : List V} (h : Repr s l) (c : Nat) (t d : V)
    (ht : l.getLast? = some t) (hd : (g.daughters t)[c]? = some d) : s.pushChild g c = s.push d := by
  have h0 := h.top
  unfold NavPath.top at h0
  unfold NavPath.pushChild
  by_cases hp : s.cur > 0
  · rw [if_pos hp] at h0 ⊢
    rw [h0, ht]; simp [hd]
  · rw [if_neg hp, ht] at h0; simp at h0

/-- The two loops that compare paths from the front. -/
theorem commonLoop_eq [DecidableEq V] {a b : NavPath V} {l m : List V} (ha : Repr a l) (hb : Repr b m) :
    ∀ (n i : Nat) (last : Int), i + n = min l.length m.length →
      commonLoop a b n i last =
        some (if lcp (l.drop i) (m.drop i) = 0 then last else (i : Int) + lcp (l.drop i) (m.drop i) - 1) := by
  intro n
  induction n with
  | zero =>
    intro i last h
    have : lcp (l.drop i) (m.drop i) = 0 := by
      rcases Nat.le_total l.length m.length with hh | hh
      · rw [List.drop_eq_nil_of_le (by omega : l.length ≤ i)]; rfl
      · rw [List.drop_eq_nil_of_le (by omega : m.length ≤ i)]; cases l.drop i <;> rfl
    simp [commonLoop, this]
  | succ n ih =>
    intro i last h
    have hl : i < l.length := by omega
    have hm : i < m.length := by omega
    rw [commonLoop, at_, at_, ha.slot hl, hb.slot hm]
    rw [List.drop_eq_getElem_cons hl, List.drop_eq_getElem_cons hm]
    by_cases e : l[i] = m[i]
    · simp only [e, lcp, if_true]
      rw [ih (i + 1) i (by omega)]
      simp only [Nat.add_eq_zero_iff, one_ne_zero, and_false, if_false]
      congr 1
      split
      · rename_i h0; rw [h0]; simp
      · push_cast; ring
    · simp [e, lcp]

theorem lcp_le_left [DecidableEq V] : ∀ (l m : List V), lcp l m ≤ l.length
  | [], _ => by simp [lcp]
  | _ :: _, [] => by simp [lcp]
  | a :: l, b :: m => by
    have := lcp_le_left l m
    simp only [lcp]; split <;> simp <;> omega

theorem lcp_comm [DecidableEq V] : ∀ (l m : List V), lcp l m = lcp m l
  | [], [] => rfl
  | [], _ :: _ => rfl
  | _ :: _, [] => rfl
  | a :: l, b :: m => by
    simp only [lcp, lcp_comm l m]
    by_cases h : a = b
    · simp [h]
    · simp [h, Ne.symm h]

theorem lcp_le_right [DecidableEq V] (l m : List V) : lcp l m ≤ m.length := by
  rw [lcp_comm]; exact lcp_le_left m l

theorem lcp_tri [DecidableEq V] : ∀ (l m k : List V), min (lcp l m) (lcp m k) ≤ lcp l k
  | [], _, _ => by simp [lcp]
  | _ :: _, [], _ => by simp [lcp]
  | _ :: _, _ :: _, [] => by simp [lcp]
  | a :: l, b :: m, c :: k => by
    have := lcp_tri l m k
    simp only [lcp]
    by_cases h1 : a = b <;> by_cases h2 : b = c
    · subst h1; subst h2; simp; omega
    · simp [h2]
    · simp [h1]
    · simp [h1]

theorem lcp_eq_len [DecidableEq V] : ∀ (l m : List V), lcp l m = l.length → lcp l m = m.length → l = m
  | [], [], _, _ => rfl
  | [], _ :: _, _, h => by simp [lcp] at h
  | _ :: _, [], h, _ => by simp [lcp] at h
  | a :: l, b :: m, h, h' => by
    simp only [lcp] at h h'
    by_cases e : a = b
    · simp only [e, if_true, List.length_cons, Nat.add_right_cancel_iff] at h h'
      rw [e, lcp_eq_len l m h h']
    · simp [e] at h

theorem lcp_self [DecidableEq V] : ∀ l : List V, lcp l l = l.length
  | [] => rfl
  | a :: l => by simp [lcp, lcp_self l]

theorem lcp_take [DecidableEq V] : ∀ l m : List V, l.take (lcp l m) = m.take (lcp l m)
  | [], _ => by simp [lcp]
  | _ :: _, [] => by simp [lcp]
  | a :: l, b :: m => by
    simp only [lcp]
    by_cases e : a = b
    · simp [e, lcp_take l m]
    · simp [e]

theorem lcp_ne [DecidableEq V] : ∀ (l m : List V) (h1 : lcp l m < l.length) (h2 : lcp l m < m.length),
    l[lcp l m] ≠ m[lcp l m]
  | [], _, h, _ => by simp at h
  | _ :: _, [], _, h => by simp at h
  | a :: l, b :: m, h1, h2 => by
    by_cases e : a = b
    · subst e
      simp only [lcp, if_true, List.length_cons] at h1 h2
      have := lcp_ne l m (by omega) (by omega)
      simpa [lcp] using this
    · simpa [lcp, e] using e

theorem samePathLoop_eq [DecidableEq V] {a b : NavPath V} {l m : List V} (ha : Repr a l) (hb : Repr b m)
    (hlen : l.length = m.length) :
    ∀ n, n ≤ l.length → samePathLoop a b n = some (decide (l.take n = m.take n)) := by
  intro n
  induction n with
  | zero => intro _; simp [samePathLoop]
  | succ n ih =>
    intro hn
    rw [samePathLoop, ha.slot (by omega), hb.slot (by omega)]
    have e1 : l.take (n + 1) = l.take n ++ [l[n]] := by simp
    have e2 : m.take (n + 1) = m.take n ++ [m[n]] := by simp
    by_cases e : l[n] = m[n]
    · simp only [e, ne_eq, not_true, if_false]
      rw [ih (by omega), e1, e2, e]
      simp only [List.append_left_inj]
    · simp only [ne_eq, Option.some.injEq, e, not_false_eq_true, if_true]
      rw [e1, e2, eq_comm, decide_eq_false_iff_not]
      intro h
      have := List.append_inj' h rfl
      simp at this; exact e this.2

theorem matrixLoop_eq {g : Geom V} {s : NavPath V} {l : List V} (hs : Repr s l) :
    ∀ (n i : Nat) (m : Trans3), i + n ≤ l.length →
      matrixLoop g s n i m = some (((l.drop i).take n).foldl (fun m v => m.mulRight (g.trans v)) m) := by
  intro n
  induction n with
  | zero => intro i m _; simp [matrixLoop]
  | succ n ih =>
    intro i m h
    rw [matrixLoop, at_, hs.slot (by omega)]
    simp only
    rw [ih (i + 1) _ (by omega), List.drop_eq_getElem_cons (by omega : i < l.length)]
    rw [List.take_succ_cons, List.foldl_cons]

theorem toLocalLoop_eq {g : Geom V} {s : NavPath V} {l : List V} (hs : Repr s l) :
    ∀ (n i : Nat) (p : V3), i + n ≤ l.length →
      toLocalLoop g s n i p = some (((l.drop i).take n).foldl (fun p v => (g.trans v).transform p) p) := by
  intro n
  induction n with
  | zero => intro i m _; simp [toLocalLoop]
  | succ n ih =>
    intro i m h
    rw [toLocalLoop, at_, hs.slot (by omega)]
    simp only
    rw [ih (i + 1) _ (by omega), List.drop_eq_getElem_cons (by omega : i < l.length)]
    rw [List.take_succ_cons, List.foldl_cons]

theorem downLoop_eq (val : V → Int) {s : NavPath V} {l : List V} (hs : Repr s l) :
    ∀ (n i : Nat), i + n ≤ l.length →
      downLoop val s n i = some (((l.drop i).take n).map fun v => Token.down (val v)) := by
  intro n
  induction n with
  | zero => intro i _; simp [downLoop]
  | succ n ih =>
    intro i h
    rw [downLoop, at_, hs.slot (by omega)]
    simp only
    rw [ih (i + 1) (by omega), List.drop_eq_getElem_cons (by omega : i < l.length)]
    rw [List.take_succ_cons, List.map_cons]; rfl

theorem IsPath.get {g : Geom V} : ∀ {l : List V}, IsPath g l → ∀ (i : Nat) (h : i + 1 < l.length),
    l[i + 1] ∈ g.daughters l[i]
  | [], _, _, h => by simp at h
  | [_], _, _, h => by simp at h
  | a :: b :: l, hp, 0, _ => hp.1
  | a :: b :: l, hp, i + 1, h => by
    have := IsPath.get hp.2 i (by simpa using h)
    simpa using this

end NavPath
end VecGeom
