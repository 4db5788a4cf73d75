import Verif.NavPath.Lemmas
import Verif.Transform.Props

/-!
# Properties of the path navigation state (C06 - C09, C51)
-/

namespace VecGeom
namespace NavPath
variable {V : Type}

/-- Concrete geometry for the examples: the number `v` has the daughters `10 v + 1`, `10 v + 2`. -/
noncomputable def demoGeom : Geom Nat := ⟨fun v => [10 * v + 1, 10 * v + 2], fun _ => Trans3.sample⟩

/-! ## C06: a stack -/

/-- C06: every history that the abstract stack allows runs without undefined behaviour on two states created
with the same declared depth, and both end up holding the abstract stack and flag. -/
theorem C06_history (g : Geom V) (n : Nat) (hn : n ≤ 255) (ops : List (Op V)) (st : Abs V)
    (h : absRun g n (fun _ => ([], false)) ops = some st) :
    ∃ c, run g (fun _ => makeInstance n) ops = some c ∧
      ∀ i, Repr (c i) (st i).1 ∧ (c i).onBoundary = (st i).2 := by
  suffices H : ∀ (ops : List (Op V)) (a : Abs V) (c : Bool → NavPath V),
      (∀ i, Repr (c i) (a i).1 ∧ (c i).onBoundary = (a i).2 ∧ (c i).slots.length = n + 1 ∧
        (a i).1.length ≤ n) → absRun g n a ops = some st →
      ∃ c', run g c ops = some c' ∧ ∀ i, Repr (c' i) (st i).1 ∧ (c' i).onBoundary = (st i).2 by
    refine H ops _ _ (fun i => ⟨⟨rfl, by simp [makeInstance], by simp⟩, rfl, ?_, by simp⟩) h
    simp [makeInstance]
  intro ops
  induction ops with
  | nil =>
    intro a c hi h
    simp only [absRun, Option.some.injEq] at h
    subst h
    exact ⟨c, rfl, fun i => ⟨(hi i).1, (hi i).2.1⟩⟩
  | cons o os ih =>
    intro a c hi h
    simp only [absRun, Option.bind_eq_some_iff] at h
    obtain ⟨a', ha', hrest⟩ := h
    suffices hs : ∃ c', step g c o = some c' ∧ ∀ i, Repr (c' i) (a' i).1 ∧
        (c' i).onBoundary = (a' i).2 ∧ (c' i).slots.length = n + 1 ∧ (a' i).1.length ≤ n by
      obtain ⟨c', hc', hi'⟩ := hs
      obtain ⟨c'', hc'', hfin⟩ := ih a' c' hi' hrest
      exact ⟨c'', by simp [run, hc', hc''], hfin⟩
    -- updating one register keeps the simulation for the other one
    have frame : ∀ (i : Bool) (s : NavPath V) (x : List V × Bool),
        Repr s x.1 → s.onBoundary = x.2 → s.slots.length = n + 1 → x.1.length ≤ n →
        ∀ j, Repr (upd c i s j) (upd a i x j).1 ∧ (upd c i s j).onBoundary = (upd a i x j).2 ∧
          (upd c i s j).slots.length = n + 1 ∧ (upd a i x j).1.length ≤ n := by
      intro i s x h1 h2 h3 h4 j
      unfold upd
      by_cases hj : j = i
      · simp only [hj, if_true]; exact ⟨h1, h2, h3, h4⟩
      · simp only [hj, if_false]; exact hi j
    have doPush : ∀ (i : Bool) (v : V), (a i).1.length < n →
        ∃ s', (c i).push v = some s' ∧ Repr s' ((a i).1 ++ [v]) ∧ s'.onBoundary = (a i).2 ∧
          s'.slots.length = n + 1 ∧ ((a i).1 ++ [v]).length ≤ n := by
      intro i v hlen
      obtain ⟨hr, hb, hl, hle⟩ := hi i
      obtain ⟨s', e, r, el, eb⟩ := hr.push v (by omega) (by omega)
      exact ⟨s', e, r, by rw [eb, hb], by rw [el, hl], by simp; omega⟩
    cases o with
    | push i v =>
      simp only [absStep] at ha'
      split at ha'
      · rename_i hlen
        cases ha'
        obtain ⟨s', e, h1, h2, h3, h4⟩ := doPush i v hlen
        exact ⟨_, by simp [step, e], frame i s' _ h1 h2 h3 h4⟩
      · cases ha'
    | pushChild i ch =>
      simp only [absStep] at ha'
      cases ht : (a i).1.getLast? with
      | none =>
        rw [ht] at ha'
        simp only [Option.some.injEq] at ha'
        subst ha'
        have h0 : (a i).1 = [] := by simpa using ht
        have : (c i).cur = 0 := by rw [(hi i).1.cur, h0]; rfl
        refine ⟨_, by simp [step, pushChild, this]; rfl, ?_⟩
        intro j
        have hj' := hi j
        unfold upd
        by_cases hj : j = i
        · subst hj; simpa using hj'
        · simpa [hj] using hj'
      | some t =>
        rw [ht] at ha'
        simp only at ha'
        cases hd : (g.daughters t)[ch]? with
        | none => rw [hd] at ha'; cases ha'
        | some d =>
          rw [hd] at ha'
          simp only at ha'
          split at ha'
          · rename_i hlen
            cases ha'
            obtain ⟨s', e, h1, h2, h3, h4⟩ := doPush i d hlen
            refine ⟨_, by simp [step, (hi i).1.pushChild ch t d ht hd, e], frame i s' _ h1 h2 h3 h4⟩
          · cases ha'
    | pop i =>
      simp only [absStep, Option.some.injEq] at ha'
      subst ha'
      obtain ⟨hr, hb, hl, hle⟩ := hi i
      obtain ⟨r, es, eb⟩ := hr.pop
      exact ⟨_, rfl, frame i _ _ r (by rw [eb, hb]) (by rw [es, hl]) (by simp; omega)⟩
    | clear i =>
      simp only [absStep, Option.some.injEq] at ha'
      subst ha'
      exact ⟨_, rfl, frame i _ _ Repr.clear rfl (by simp [clear, (hi i).2.2.1]) (by simp)⟩
    | setBoundary i b =>
      simp only [absStep, Option.some.injEq] at ha'
      subst ha'
      obtain ⟨hr, hb, hl, hle⟩ := hi i
      exact ⟨_, rfl, frame i _ _ (hr.setBoundary b) rfl hl hle⟩
    | copyTo i =>
      simp only [absStep, Option.some.injEq] at ha'
      subst ha'
      obtain ⟨hr, hb, hl, hle⟩ := hi i
      obtain ⟨o', e, r, el, eb, -, -⟩ := hr.copyTo (o := c (!i)) (by omega) (by rw [(hi (!i)).2.2.1]; omega)
      exact ⟨_, by simp [step, e], frame (!i) o' _ r (by rw [eb, hb]) (by rw [el, (hi (!i)).2.2.1]) hle⟩
    | assign i =>
      simp only [absStep, Option.some.injEq] at ha'
      subst ha'
      obtain ⟨hr, hb, hl, hle⟩ := hi i
      obtain ⟨r, el, eb, -⟩ := hr.assign (o := c (!i)) (by rw [(hi (!i)).2.2.1]; omega)
      exact ⟨_, rfl, frame (!i) _ _ r (by rw [eb, hb]) (by rw [el, (hi (!i)).2.2.1]) hle⟩

/-- C06: every observer is a function of the abstract stack alone, so left-over entries above the top
do not influence it. -/
theorem C06_observe [DecidableEq V] {s t : NavPath V} {l m : List V} (hs : Repr s l) (ht : Repr t m) :
    s.top = some l.getLast? ∧ (∀ i (h : i < l.length), s.at_ i = some (some l[i])) ∧
    s.getCurrentLevel = l.length ∧ (s.isOutside = true ↔ l = []) ∧
    (l ≠ [] → s.getLevel + 1 = l.length) ∧
    s.hasSamePathAsOther t = some (decide (l = m)) := by
  refine ⟨hs.top, fun i h => hs.slot h, hs.cur, ?_, ?_, ?_⟩
  · rw [isOutside, hs.cur]; cases l <;> simp
  · intro h
    have := hs.byte
    have := List.length_pos_iff.mpr h
    rw [getLevel, hs.cur]; omega
  · rw [hasSamePathAsOther, hs.cur, ht.cur]
    by_cases e : l.length = m.length
    · rw [if_neg (by omega), samePathLoop_eq hs ht e _ (Nat.le_refl _), List.take_length]
      congr 1
      rw [e, List.take_length]
    · rw [if_pos (by omega)]
      have : l ≠ m := fun h => e (by rw [h])
      simp [this]

/-- C06: after a pop, `GetLastExited` is the placement just left, except at the two deepest levels. -/
theorem C06_lastExited {s : NavPath V} {l : List V} {v : V} (h : Repr s (l ++ [v]))
    (hfN : s.fN ≤ 256) (hd : l.length + 2 < s.fN) : s.pop.getLastExited = some (some v) := by
  have hc : s.pop.cur = l.length ∧ s.pop.fN = s.fN ∧ s.pop.slots = s.slots := by
    have := h.cur
    simp only [List.length_append, List.length_singleton] at this
    unfold pop; rw [if_pos (by omega)]; simp [this]
  obtain ⟨h1, h2, h3⟩ := hc
  rw [getLastExited, getMaxLevel, h1, h2, h3, if_pos (by omega), h.slot (by simp)]
  simp

/-- Finding: at the deepest allowed level `GetLastExited` reports nothing although the entry is there. -/
theorem C06_lastExited_counterexample :
    ∃ s : NavPath Nat, (makeInstance (V := Nat) 2).push 5 = some s ∧
      (s.push 7).map (fun t => t.pop.getLastExited) = some (some none) := by
  refine ⟨_, rfl, ?_⟩
  decide

/-- Finding: a state created for depth `maxlevel` has room for `maxlevel + 1` placements, but `CopyTo` from
such a full state reads and writes one entry past the end (for every depth). -/
theorem C06_copyTo_full_counterexample (s o : NavPath V) (l : List V) (h : Repr s l)
    (hfull : l.length = s.slots.length) : s.copyTo o = none := by
  rw [copyTo, if_neg]; rw [h.cur]; omega

/-- Finding: `CopyTo` also copies the size field, so `GetMaxLevel` of the target describes the source. -/
theorem C06_copyTo_maxLevel_counterexample :
    (((makeInstance (V := Nat) 2).copyTo (makeInstance 9)).map fun s => (s.slots.length, s.getMaxLevel + 1))
      = some (10, 3) := by decide

example : ∃ c, run demoGeom (fun _ => makeInstance 3)
    [.push false 1, .pushChild false 1, .copyTo false, .pop false, .push false 9] = some c ∧
    Repr (c true) [1, 12] ∧ Repr (c false) [1, 9] := by
  obtain ⟨c, hc, hi⟩ := C06_history demoGeom 3 (by decide)
    [.push false 1, .pushChild false 1, .copyTo false, .pop false, .push false 9] _ rfl
  exact ⟨c, hc, (hi true).1, (hi false).1⟩

/-! ## C07: index lists -/

/-- C07: writing the child numbers of a path and resetting any state (with enough room, whatever it held before)
from them gives a state with the same path. -/
theorem C07_roundtrip [DecidableEq V] {g : Geom V} {s t : NavPath V} {l : List V} (hs : Repr s l)
    (hp : IsPath g l) (world : V) (hw : l.head? = some world ∨ l = []) (hroom : l.length ≤ t.slots.length) :
    ∃ ix t', s.getPathAsListOfIndices g = some ix ∧ ix.length = l.length ∧
      t.resetPathFromListOfIndices g world ix = some t' ∧ Repr t' l := by
  -- the list of indices
  have find : ∀ i (h : i + 1 < l.length), ∃ k, findIndexWithinMother g l[i] l[i + 1] = some k ∧
      (g.daughters l[i])[k]? = some l[i + 1] := by
    intro i h
    have hm := hp.get i h
    have : ((g.daughters l[i]).findIdx? (fun d => decide (d = l[i + 1]))).isSome := by
      rw [List.findIdx?_isSome]
      simpa using hm
    obtain ⟨k, hk⟩ := Option.isSome_iff_exists.mp this
    refine ⟨k, hk, ?_⟩
    obtain ⟨hlt, hd, -⟩ := List.findIdx?_eq_some_iff_getElem.mp hk
    simp at hd
    rw [List.getElem?_eq_getElem hlt, hd]
  cases l with
  | nil =>
    refine ⟨[], _, ?_, rfl, rfl, ?_⟩
    · rw [getPathAsListOfIndices, isOutside, hs.cur]; simp
    · exact ⟨rfl, by simp, by simp⟩
  | cons w l =>
    obtain rfl : w = world := by
      rcases hw with h | h
      · simpa using h
      · cases h
    -- child numbers of the path
    obtain ⟨ks, hkl, hks⟩ : ∃ ks : List Nat, ks.length = l.length ∧
        ∀ i (h : i < l.length) (h' : i < ks.length),
          findIndexWithinMother g ((w :: l)[i]'(by simp; omega)) l[i] = some ks[i] ∧
          (g.daughters ((w :: l)[i]'(by simp; omega)))[ks[i]]? = some l[i] := by
      have ch : ∀ i : Fin l.length, ∃ k, findIndexWithinMother g ((w :: l)[i.1]'(by simp)) l[i.1] = some k ∧
          (g.daughters ((w :: l)[i.1]'(by simp)))[k]? = some l[i.1] := by
        intro i
        have := find i.1 (by simp)
        simpa using this
      choose f hf using ch
      refine ⟨List.ofFn f, by simp, fun i h h' => ?_⟩
      have := hf ⟨i, h⟩
      simpa using this
    have hidx : ∀ (n : Nat) (acc : List Nat), n ≤ l.length →
        indicesLoop g s n acc = some (ks.take n ++ acc) := by
      intro n
      induction n with
      | zero => intro acc _; simp [indicesLoop]
      | succ n ih =>
        intro acc hn
        rw [indicesLoop, at_, at_, hs.slot (by simp; omega), hs.slot (by simp; omega)]
        simp only [List.getElem_cons_succ]
        rw [(hks n (by omega) (by omega)).1]
        simp only
        rw [ih _ (by omega)]
        have : ks.take (n + 1) = ks.take n ++ [ks[n]] := by simp
        rw [this, List.append_assoc]; rfl
    have hget : s.getPathAsListOfIndices g = some (0 :: ks) := by
      rw [getPathAsListOfIndices, if_neg (by rw [isOutside, hs.cur]; simp), hs.cur]
      simp only [List.length_cons, Nat.add_sub_cancel]
      rw [hidx _ _ (Nat.le_refl _)]
      simp [← hkl]
    have hreset : ∀ (n c : Nat) (sl : List (Option V)), c = l.length + 1 - n → n ≤ l.length →
        sl.length = t.slots.length →
        (∀ i (h : i < c) (h' : i < (w :: l).length), sl[i]? = some (some (w :: l)[i])) →
        ∃ sl', resetLoop g (ks.drop (c - 1)) c sl = some sl' ∧
          ∀ i (h' : i < (w :: l).length), sl'[i]? = some (some (w :: l)[i]) := by
      intro n
      induction n with
      | zero =>
        intro c sl hc _ _ hsl
        refine ⟨sl, ?_, fun i h' => hsl i (by simp at h'; omega) h'⟩
        rw [List.drop_eq_nil_of_le (by omega)]; rfl
      | succ n ih =>
        intro c sl hc hn hlen hsl
        have hc1 : c - 1 < ks.length := by omega
        rw [List.drop_eq_getElem_cons hc1, resetLoop, hsl (c - 1) (by omega) (by simp; omega)]
        simp only
        have hroom' : l.length + 1 ≤ t.slots.length := by simpa using hroom
        rw [if_pos (by omega)]
        have hd := (hks (c - 1) (by omega) hc1).2
        rw [getDaughterWithinMother, hd]
        have e : c - 1 + 1 = c + 1 - 1 := by omega
        rw [e]
        refine ih (c + 1) _ (by omega) (by omega) (by simpa using hlen) ?_
        intro i h h'
        rw [List.getElem?_set]
        by_cases hi : c = i
        · subst hi
          rw [if_pos rfl, if_pos (by omega)]
          congr 2
          obtain ⟨c', rfl⟩ : ∃ c', c = c' + 1 := ⟨c - 1, by omega⟩
          simp
        · rw [if_neg hi]; exact hsl i (by omega) h'
    have hpos : 0 < t.slots.length := by simp at hroom; omega
    obtain ⟨sl', e', hsl'⟩ := hreset l.length 1 (t.slots.set 0 (some w)) (by omega) (Nat.le_refl _) (by simp)
      (by
        intro i h h'
        obtain rfl : i = 0 := by omega
        rw [List.getElem?_set_self hpos]; rfl)
    refine ⟨0 :: ks, { t with cur := (0 :: ks).length % 256, slots := sl' }, hget, by simp [hkl], ?_, ?_⟩
    · rw [resetPathFromListOfIndices, if_pos hpos]
      simp only [Nat.sub_self, List.drop_zero] at e'
      rw [e']; rfl
    · have hb := hs.byte
      simp only [List.length_cons] at hb
      apply Repr.mk'
      · simp only [List.length_cons]; rw [hkl]; omega
      · exact hs.byte
      · exact hsl'

/-- Finding: the reset leaves the boundary flag of the state as it was. -/
theorem C07_boundary_kept (g : Geom V) (t t' : NavPath V) (world : V) (ix : List Nat)
    (h : t.resetPathFromListOfIndices g world ix = some t') : t'.onBoundary = t.onBoundary := by
  unfold resetPathFromListOfIndices at h
  split at h
  · cases h; rfl
  · split at h
    · rw [Option.map_eq_some_iff] at h
      obtain ⟨sl, -, rfl⟩ := h; rfl
    · cases h

example : ∃ s, ((makeInstance 4).push 1).bind (·.push 12) = some s ∧ Repr s [1, 12] ∧
    IsPath demoGeom [1, 12] ∧ s.getPathAsListOfIndices demoGeom = some [0, 1] := by
  refine ⟨_, rfl, ⟨rfl, rfl, by decide⟩, ?_, ?_⟩
  · simp [IsPath, demoGeom]
  · simp [getPathAsListOfIndices, isOutside, indicesLoop, at_, findIndexWithinMother, demoGeom, makeInstance]
    decide

/-! ## C08: distance -/

/-- C08: the distance is the number of placements to leave plus the number to enter. -/
theorem C08_distance [DecidableEq V] {a b : NavPath V} {l m : List V} (ha : Repr a l) (hb : Repr b m) :
    a.distance b = some ((l.length : Int) + m.length - 2 * lcp l m) := by
  rw [distance, getCurrentLevel, getCurrentLevel, ha.cur, hb.cur, commonLoop_eq ha hb _ 0 _ (by omega)]
  simp only [List.drop_zero, Option.map_some, Option.some.injEq]
  split
  · rename_i h; rw [h]; push_cast; ring
  · push_cast; ring

/-- The common part used in C08 is really the longest common prefix. -/
theorem C08_lcp_spec [DecidableEq V] (l m p : List V) :
    (l.take (lcp l m) <+: m) ∧ (p <+: l → p <+: m → p.length ≤ lcp l m) := by
  refine ⟨by rw [lcp_take]; exact List.take_prefix _ _, ?_⟩
  rintro ⟨u, rfl⟩ ⟨v, rfl⟩
  induction p with
  | nil => simp
  | cons x p ih => simp [lcp]; exact ih

/-- C08: metric laws: never negative, zero exactly on equal paths, symmetric, triangle inequality. -/
theorem C08_metric [DecidableEq V] {a b c : NavPath V} {l m k : List V} (ha : Repr a l) (hb : Repr b m)
    (hc : Repr c k) : ∃ ab bc ac : Int, a.distance b = some ab ∧ b.distance c = some bc ∧
      a.distance c = some ac ∧ 0 ≤ ab ∧ (ab = 0 ↔ l = m) ∧ b.distance a = some ab ∧ ac ≤ ab + bc := by
  refine ⟨_, _, _, C08_distance ha hb, C08_distance hb hc, C08_distance ha hc, ?_, ?_, ?_, ?_⟩
  · have := lcp_le_left l m; have := lcp_le_right l m; omega
  · constructor
    · intro h
      have h1 := lcp_le_left l m
      have h2 := lcp_le_right l m
      exact lcp_eq_len l m (by omega) (by omega)
    · rintro rfl; rw [lcp_self]; ring
  · rw [C08_distance hb ha, lcp_comm m l]; congr 1; ring
  · have h1 := lcp_tri l m k
    have h2 := lcp_le_right l m
    have h3 := lcp_le_left m k
    omega

example : ∃ a b : NavPath Nat, Repr a [1, 11, 111] ∧ Repr b [1, 12] ∧ a.distance b = some 3 :=
  ⟨⟨[some 1, some 11, some 111, none], 4, 3, -1, false⟩, ⟨[some 1, some 12, some 9], 3, 2, -1, true⟩,
    ⟨rfl, rfl, by decide⟩, ⟨rfl, rfl, by decide⟩, by decide⟩

/-! ## C09: coordinates -/

/-- C09 (partial): if the world placement acts as the identity, both ways to get local coordinates agree for
every path of rigid placements.  Missing: a world placed with a transformation of its own, see
`C09_world_counterexample`. -/
theorem C09_topMatrix_partial {g : Geom V} {s : NavPath V} {w : V} {l : List V} (hs : Repr s (w :: l))
    (hw : ∀ p, (g.trans w).transform p = p) (hr : ∀ v ∈ l, (g.trans v).Orthonormal ∧ (g.trans v).FlagsOk)
    (p : V3) : ∃ m, s.topMatrix g .identity = some m ∧ m.Orthonormal ∧ m.FlagsOk ∧
      s.globalToLocal g p = some (m.transform p) := by
  have h1 := matrixLoop_eq (g := g) hs l.length 1 .identity (by simp; omega)
  have h2 := toLocalLoop_eq (g := g) hs (l.length + 1) 0 p (by simp)
  simp only [List.drop_one, List.tail_cons, List.take_length] at h1
  have key : ∀ (l : List V) (m : Trans3) (p : V3), (∀ v ∈ l, (g.trans v).Orthonormal ∧ (g.trans v).FlagsOk) →
      m.Orthonormal → m.FlagsOk →
      (l.foldl (fun m v => m.mulRight (g.trans v)) m).Orthonormal ∧
      (l.foldl (fun m v => m.mulRight (g.trans v)) m).FlagsOk ∧
      (l.foldl (fun m v => m.mulRight (g.trans v)) m).transform p =
        l.foldl (fun p v => (g.trans v).transform p) (m.transform p) := by
    intro l
    induction l with
    | nil => intro m p _ h h'; exact ⟨h, h', rfl⟩
    | cons v l ih =>
      intro m p hl ho hf
      obtain ⟨o, f⟩ := hl v (by simp)
      obtain ⟨cf, co⟩ := Trans3.C24_closed hf f
      obtain ⟨a, b, c⟩ := ih (m.mulRight (g.trans v)) p (fun u hu => hl u (by simp [hu])) (co ho o) cf
      simp only [List.foldl_cons]
      exact ⟨a, b, by rw [c, Trans3.C24_transform ho f]⟩
  have ho : Trans3.identity.Orthonormal := by constructor <;> simp [Trans3.identity]
  obtain ⟨a, b, c⟩ := key l .identity p hr ho Trans3.identity_flagsOk
  refine ⟨_, ?_, a, b, ?_⟩
  · rw [topMatrix, hs.cur]; exact h1
  · rw [globalToLocal, hs.cur]
    rw [show (w :: l).length = l.length + 1 from rfl, h2, c]
    have : Trans3.identity.transform p = p := by
      rw [Trans3.transform_eq]
      ext <;> simp [Trans3.identity, Trans3.rotGeneric, Trans3.doTranslation]
    rw [this]
    simp [hw]

/-- Finding (C09): `GlobalToLocal` applies the placement of the world, `TopMatrix` does not. -/
theorem C09_world_counterexample :
    ∃ (g : Geom Nat) (s : NavPath Nat) (p : V3) (m : Trans3), Repr s [1] ∧
      (g.trans 1).Orthonormal ∧ (g.trans 1).FlagsOk ∧
      s.topMatrix g .identity = some m ∧ s.globalToLocal g p ≠ some (m.transform p) := by
  refine ⟨demoGeom, ⟨[some 1, none], 2, 1, -1, false⟩, ⟨7, -2, 5⟩, .identity, ⟨rfl, rfl, by decide⟩,
    Trans3.sample_orthonormal, Trans3.sample_flagsOk, rfl, ?_⟩
  simp only [globalToLocal, toLocalLoop, at_, demoGeom]
  rw [Trans3.transform_eq]
  intro h
  have := congrArg V3.x (Option.some.inj h)
  rw [Trans3.transform_eq] at this
  norm_num [Trans3.sample, Trans3.identity, Trans3.rotGeneric, Trans3.doTranslation] at this

/-- Non-vacuity of C09: an identity world with a rotated daughter. -/
example : ∃ (g : Geom Nat) (s : NavPath Nat), Repr s [1, 2] ∧ (∀ p, (g.trans 1).transform p = p) ∧
    ∀ v ∈ [2], (g.trans v).Orthonormal ∧ (g.trans v).FlagsOk := by
  refine ⟨⟨fun _ => [2], fun v => if v = 1 then .identity else Trans3.sample⟩,
    ⟨[some 1, some 2, none], 3, 2, -1, false⟩, ⟨rfl, rfl, by decide⟩, fun p => ?_, ?_⟩
  · show (if (1 : Nat) = 1 then Trans3.identity else Trans3.sample).transform p = p
    rw [if_pos rfl, Trans3.transform_eq]
    ext <;> simp [Trans3.identity, Trans3.rotGeneric, Trans3.doTranslation]
  · simpa using ⟨Trans3.sample_orthonormal, Trans3.sample_flagsOk⟩

/-! ## C51: relative paths -/

theorem interp_ups (val : V → Int) (find : Int → Option V) (ts : List Token) : ∀ (n : Nat) (l : List V),
    interp val find (List.replicate n .up ++ ts) l = interp val find ts (l.take (l.length - n)) := by
  intro n
  induction n with
  | zero => intro l; simp
  | succ n ih =>
    intro l
    rw [List.replicate_succ, List.cons_append, interp, ih, List.dropLast_eq_take, List.take_take]
    congr 2
    simp; omega

theorem interp_downs (val : V → Int) (find : Int → Option V) (hf : ∀ v, find (val v) = some v) :
    ∀ (m l : List V), interp val find (m.map fun v => Token.down (val v)) l = some (l ++ m) := by
  intro m
  induction m with
  | nil => intro l; simp [interp]
  | cons v m ih =>
    intro l
    simp only [List.map_cons, interp, hf]
    rw [ih]; simp

/-- C51: following the relative path from the first state leads to the second one. -/
theorem C51_relativePath [DecidableEq V] (val : V → Int) (find : Int → Option V)
    (hf : ∀ v, find (val v) = some v) {a b : NavPath V} {l m : List V} (ha : Repr a l) (hb : Repr b m) :
    ∃ ts, relativePath val a b = some ts ∧ interp val find ts l = some m := by
  have hinj : ∀ u v, val u = val v → u = v := by
    intro u v h
    have := hf u; rw [h, hf v] at this; exact (Option.some.inj this).symm
  have hle := lcp_le_left l m
  have hle' := lcp_le_right l m
  have htake := lcp_take l m
  have hne := lcp_ne l m
  unfold relativePath
  rw [getCurrentLevel, getCurrentLevel, ha.cur, hb.cur, commonLoop_eq ha hb _ 0 _ (by omega)]
  simp only [List.drop_zero]
  have e : (if lcp l m = 0 then (-1 : Int) else ((0 : Nat) : Int) + lcp l m - 1) = (lcp l m : Int) - 1 := by
    split
    · rename_i h; rw [h]; rfl
    · push_cast; ring
  rw [e]
  generalize lcp l m = k at *
  split
  · rename_i h
    refine ⟨_, rfl, ?_⟩
    rw [List.take_of_length_le (by omega), List.take_of_length_le (by omega)] at htake
    rw [htake]; rfl
  · split
    · rename_i h1 h
      refine ⟨_, rfl, ?_⟩
      have := interp_ups val find [] (((l.length : Int) - 1 - (k - 1)).toNat) l
      rw [List.append_nil] at this
      rw [this, interp, show l.length - ((l.length : Int) - 1 - (k - 1)).toNat = k by omega, htake,
        List.take_of_length_le (by omega)]
    · split
      · rename_i h1 h2 h
        refine ⟨_, downLoop_eq val hb _ _ (by omega), ?_⟩
        rw [interp_downs val find hf, show ((k : Int) - 1 + 1).toNat = k by omega,
          List.take_of_length_le (l := m.drop k) (by simp)]
        rw [List.take_of_length_le (by omega : l.length ≤ k)] at htake
        conv_rhs => rw [← List.take_append_drop k m]
        rw [← htake]
      · rename_i h1 h2 h3
        rw [if_pos (by omega)]
        have hkl : k < l.length := by omega
        have hkm : k < m.length := by omega
        rw [show ((k : Int) - 1 + 1).toNat = k by omega, at_, at_, hb.slot hkm, ha.slot hkl]
        simp only
        rw [downLoop_eq val hb _ _ (by omega)]
        refine ⟨_, rfl, ?_⟩
        beta_reduce
        have hd : val m[k] - val l[k] ≠ 0 := by
          intro h0
          exact hne hkl hkm (hinj _ _ (by omega))
        rw [if_pos hd, List.append_assoc, interp_ups,
          show l.length - ((l.length : Int) - 1 - (k - 1) - 1).toNat = k + 1 by omega]
        have hlk : l.take (k + 1) = l.take k ++ [l[k]] := by simp
        simp only [List.singleton_append]
        rw [interp, hlk, List.getLast?_append]
        simp only [List.getLast?_singleton, Option.some_or]
        rw [show val l[k] + (val m[k] - val l[k]) = val m[k] by ring, hf]
        simp only
        rw [interp_downs val find hf, show ((k : Int) - 1 + 2).toNat = k + 1 by omega,
          List.take_of_length_le (l := m.drop (k + 1)) (by simp; omega)]
        rw [List.dropLast_concat, htake, List.append_assoc, List.singleton_append,
          ← List.drop_eq_getElem_cons hkm, List.take_append_drop]

example : ∃ a b : NavPath Nat, Repr a [1, 11, 111] ∧ Repr b [1, 12, 121] ∧
    relativePath (fun v : Nat => (v : Int)) a b = some [.up, .horiz 1, .down 121] :=
  ⟨⟨[some 1, some 11, some 111, none], 4, 3, -1, false⟩, ⟨[some 1, some 12, some 121], 3, 3, -1, true⟩,
    ⟨rfl, rfl, by decide⟩, ⟨rfl, rfl, by decide⟩, by decide⟩

end NavPath
end VecGeom
