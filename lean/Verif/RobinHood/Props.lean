import Verif.RobinHood.Ops

/-!
# C74, C75: the hash map
-/

namespace VecGeom
namespace RobinHood

variable {K V : Type}

/-! ## Erasing through iterators -/

theorem eraseAt_spec {hash : K → BitVec 64} {m : Map K V} {N : Nat} (w : WF hash m N) {p : Nat} (hpN : p < N) {key : K} {v : V}
    (hkv : m.kv p = .full key v) :
    ∃ m' q, eraseAt m p = .ok (m', q) ∧ WF hash m' N ∧ m'.num + 1 = m.num ∧ p ≤ q ∧ q ≤ N ∧ m'.info q ≠ 0 ∧
      (∀ k x, Has m' N k x ↔ k ≠ key ∧ Has m N k x) ∧
      (∀ i < q, ∀ k x, m'.kv i = .full k x → ∃ j < p, m.kv j = .full k x) ∧ (Calm m → Calm m') := by
  have hN := w.pos
  obtain ⟨m', hm', w', hn', hpos, hhas, D, hD, l⟩ := erase_cell w hpN hkv
  have hp0 : (p + 0) % N = p := by rw [Nat.add_zero, Nat.mod_eq_of_lt hpN]
  -- cells before `p` hold what was before `p`
  have bef : ∀ i < p, ∀ k x, m'.kv i = .full k x → ∃ j < p, m.kv j = .full k x := by
    intro i hi k x hk
    obtain ⟨e, he, hie⟩ := loc_ex p i (show i < N by omega)
    have hwrap : N ≤ p + e := by
      by_contra hc
      rw [Nat.mod_eq_of_lt (by omega)] at hie
      omega
    rw [hie, l.kv e he] at hk
    by_cases h1 : 0 ≤ e ∧ e < 0 + D
    · rw [if_pos h1] at hk
      have : (p + (e + 1)) % N = p + (e + 1) - N := by
        rw [Nat.mod_eq_sub_mod (by omega), Nat.mod_eq_of_lt (by omega)]
      rw [this] at hk
      exact ⟨_, by omega, hk⟩
    · rw [if_neg h1] at hk
      by_cases h2 : e = 0 + D
      · rw [if_pos h2] at hk; cases hk
      · rw [if_neg h2, ← hie] at hk
        exact ⟨i, hi, hk⟩
  have hcalm : Calm m → Calm { m' with num := m'.num - 1 } := by
    intro hc h0
    dsimp only at h0 ⊢
    rw [l.max] at h0
    rw [l.inc]
    exact hc h0
  have hmk : m'.mask + 1 = N := w'.mask
  unfold eraseAt
  rw [hm']
  simp only [bind, Except.bind]
  by_cases hz : m'.info p ≠ 0
  · refine ⟨{ m' with num := m'.num - 1 }, p, by rw [if_pos hz], w', by dsimp only; omega, le_refl _, by omega, hz, hhas, bef, hcalm⟩
  · obtain ⟨q, hq, h3, h4, h5, h6⟩ := fastForward_spec w' (m'.mask + 3) (p + 1) (by omega) (by omega)
    refine ⟨{ m' with num := m'.num - 1 }, q, ?_, w', by dsimp only; omega, by omega, h4, h5, hhas, ?_, hcalm⟩
    · rw [if_neg hz, hq]
    · intro i hi k x hk
      rcases Nat.lt_or_ge i p with h' | h'
      · exact bef i h' k x hk
      · exfalso
        have hx := w'.info_pos (show i < N by omega) hk
        rcases Nat.eq_or_lt_of_le h' with h'' | h''
        · rw [← h''] at hx
          exact hz hx
        · exact hx (h6 i h'' hi)

theorem sweepFrom_spec {hash : K → BitVec 64} (drop : K → V → Bool) {N : Nat} :
    ∀ (f p : Nat) (m : Map K V), WF hash m N → p ≤ N → m.info p ≠ 0 → N + m.num < f + p →
      (∀ i < p, ∀ k x, m.kv i = .full k x → drop k x = false) →
      ∃ m' l, sweepFrom drop f m p = .ok (m', l) ∧ WF hash m' N ∧ (∀ k x, Has m' N k x ↔ Has m N k x ∧ drop k x = false) ∧
        (∀ k x, (k, x) ∈ l → Has m N k x) ∧ (∀ i, p ≤ i → i < N → ∀ k x, m.kv i = .full k x → (k, x) ∈ l) ∧ (Calm m → Calm m') := by
  intro f
  induction f with
  | zero => intro p m w h1 _ h2; omega
  | succ f ih =>
    intro p m w h1 h0 h2 hbef
    have hmk := w.mask
    unfold sweepFrom
    by_cases hp : p = m.mask + 1
    · rw [if_pos hp]
      refine ⟨m, [], rfl, w, ?_, by simp, ?_⟩
      · intro k x
        constructor
        · rintro ⟨i, hi, hk⟩
          exact ⟨⟨i, hi, hk⟩, hbef i (by omega) k x hk⟩
        · exact fun h => h.1
      · exact ⟨fun i hi hi' => by omega, fun h => h⟩
    · rw [if_neg hp]
      have hpN : p < N := by omega
      obtain ⟨k, v, hk⟩ := w.full p hpN h0
      rw [hk]
      dsimp only
      by_cases hd : drop k v = true
      · rw [if_pos hd]
        obtain ⟨m1, q, he, w1, hn1, hpq, hqN, hq0, hhas, hb1, hc1⟩ := eraseAt_spec w hpN hk
        obtain ⟨m', l, hs, w', hh', hl', hv', hc'⟩ := ih q m1 w1 hqN hq0 (by omega) (by
          intro i hi k' x hx
          obtain ⟨j, hj, hjk⟩ := hb1 i hi k' x hx
          exact hbef j hj k' x hjk)
        rw [he]
        simp only [bind, Except.bind]
        rw [hs]
        refine ⟨m', (k, v) :: l, rfl, w', ?_, ?_, ?_, fun h => hc' (hc1 h)⟩
        · intro k' x
          rw [hh', hhas]
          constructor
          · rintro ⟨⟨_, h⟩, h'⟩; exact ⟨h, h'⟩
          · rintro ⟨h, h'⟩
            refine ⟨⟨?_, h⟩, h'⟩
            rintro rfl
            have := Has.unique w h ⟨p, hpN, hk⟩
            rw [this, hd] at h'
            cases h'
        · intro k' x hx
          rcases List.mem_cons.mp hx with h | h
          · cases h; exact ⟨p, hpN, hk⟩
          · exact ((hhas k' x).mp (hl' k' x h)).2
        · intro i hi hiN k' x hx
          rw [List.mem_cons]
          by_cases hip : i = p
          · left
            rw [hip, hk] at hx
            cases hx
            rfl
          · right
            have hne : k' ≠ k := by
              rintro rfl
              exact hip (w.uniq i hiN p hpN k' x v hx hk)
            obtain ⟨j, hj, hjk⟩ := (hhas k' x).mpr ⟨hne, i, hiN, hx⟩
            rcases Nat.lt_or_ge j q with h' | h'
            · obtain ⟨j', hj', hjk'⟩ := hb1 j h' k' x hjk
              have := w.uniq i hiN j' (by omega) k' x x hx hjk'
              omega
            · exact hv' j h' hj k' x hjk
      · rw [if_neg hd]
        obtain ⟨q, hq, h3, h4, h5, h6⟩ := fastForward_spec w (m.mask + 3) (p + 1) (by omega) (by omega)
        obtain ⟨m', l, hs, w', hh', hl', hv', hc'⟩ := ih q m w h4 h5 (by omega) (by
          intro i hi k' x hx
          rcases Nat.lt_or_ge i p with h' | h'
          · exact hbef i h' k' x hx
          · by_cases hip : i = p
            · rw [hip, hk] at hx
              cases hx
              simpa using hd
            · exact absurd (h6 i (by omega) hi) (w.info_pos (by omega) hx))
        rw [hq]
        simp only [bind, Except.bind]
        rw [hs]
        refine ⟨m', (k, v) :: l, rfl, w', hh', ?_, ?_, hc'⟩
        · intro k' x hx
          rcases List.mem_cons.mp hx with h | h
          · cases h; exact ⟨p, hpN, hk⟩
          · exact hl' k' x h
        · intro i hi hiN k' x hx
          rw [List.mem_cons]
          by_cases hip : i = p
          · left
            rw [hip, hk] at hx
            cases hx
            rfl
          · right
            refine hv' i ?_ hiN k' x hx
            by_contra hc
            exact w.info_pos hiN hx (h6 i (by omega) (by omega))

theorem sweep_spec {hash : K → BitVec 64} {m : Map K V} {d : Dict K V} (h : Repr hash m d) (drop : K → V → Bool) :
    ∃ m' l d', sweep drop m = .ok (m', l) ∧ Repr hash m' d' ∧ (∀ k v, (k, v) ∈ l ↔ d.get k = some v) ∧
      (∀ k v, d'.get k = some v ↔ d.get k = some v ∧ drop k v = false) ∧ (Calm m → Calm m') := by
  unfold sweep
  by_cases h0 : m.num = 0
  · rw [if_pos h0]
    refine ⟨m, [], d, rfl, h, ?_, ?_, fun h => h⟩
    · intro k v; rw [h.size_zero h0 k]; simp
    · intro k v; rw [h.size_zero h0 k]; simp
  · rw [if_neg h0]
    rcases h with ⟨rfl, h1, h2⟩ | ⟨N, w, h1, h2⟩
    · exact absurd rfl h0
    · have hmk := w.mask
      obtain ⟨q, hq, h3, h4, h5, h6⟩ := fastForward_spec w (m.mask + 3) 0 (by omega) (by omega)
      obtain ⟨m', l, hs, w', hh', hl', hv', hc'⟩ := sweepFrom_spec drop (m.mask + m.num + 3) q m w h4 h5 (by omega) (by
        intro i hi k x hx
        exact absurd (h6 i (Nat.zero_le _) hi) (w.info_pos (by omega) hx))
      rw [hq]
      refine ⟨m', l, ⟨fun k => (d.get k).filter (fun v => ! drop k v), m'.num⟩, hs, .inr ⟨N, w', rfl, ?_⟩, ?_, ?_, hc'⟩
      · intro k v
        rw [hh', h2]
        simp [Option.filter_eq_some_iff]
      · intro k v
        rw [← h2]
        constructor
        · exact hl' k v
        · rintro ⟨i, hi, hk⟩
          refine hv' i ?_ hi k v hk
          by_contra hc
          exact w.info_pos hi hk (h6 i (by omega) (by omega))
      · intro k v
        simp [Option.filter_eq_some_iff]

/-! ## Programs -/

theorem repr_put {hash : K → BitVec 64} {σ : Nat → Map K V} {S : Nat → Dict K V} (h : ∀ i, Repr hash (σ i) (S i)) {s : Nat} {m : Map K V} {d : Dict K V}
    (hm : Repr hash m d) : ∀ i, Repr hash (put σ s m i) (put S s d i) := by
  intro i
  unfold put
  by_cases hi : i = s
  · rw [if_pos hi, if_pos hi]; exact hm
  · rw [if_neg hi, if_neg hi]; exact h i

theorem put_self {β : Type} (f : Nat → β) (i : Nat) : put f i (f i) = f := by
  funext j
  unfold put
  by_cases h : j = i
  · rw [if_pos h, h]
  · rw [if_neg h]

theorem calm_put {σ : Nat → Map K V} (h : ∀ i, Calm (σ i)) {s : Nat} {m : Map K V} (hm : Calm m) : ∀ i, Calm (put σ s m i) := by
  intro i
  unfold put
  by_cases hi : i = s
  · rw [if_pos hi]; exact hm
  · rw [if_neg hi]; exact h i

/-- The operation does not reserve too much. -/
def Modest : Op K V → Prop
  | .reserve _ c => c ≤ 2 ^ 56
  | _ => True

theorem Dict.insert_size [DecidableEq K] (d : Dict K V) (k : K) (v : V) : (d.insert k v).size = (d.set k v).size := by
  unfold Dict.insert
  by_cases h : (d.get k).isSome = true
  · rw [if_pos h]
    unfold Dict.set
    dsimp only
    rw [if_pos h]
  · rw [if_neg h]

theorem put_at {β : Type} (f : Nat → β) (i : Nat) (b : β) : put f i b i = b := if_pos rfl

theorem step_spec [DecidableEq K] [DecidableEq V] {hash : K → BitVec 64} (d : V) {σ : Nat → Map K V} {S : Nat → Dict K V}
    (h : ∀ i, Repr hash (σ i) (S i)) (op : Op K V) :
    (step hash d σ op = .error .thrown ∧
      ¬ ((∀ i, Calm (σ i)) ∧ Modest op ∧ ∀ o S', Allowed S op o S' → ∀ i, (S' i).size ≤ 126)) ∨
    ∃ σ' o S', step hash d σ op = .ok (σ', o) ∧ Allowed S op o S' ∧ (∀ i, Repr hash (σ' i) (S' i)) ∧
      ((∀ i, Calm (σ i)) → (∀ i, (S' i).size ≤ 126) → ∀ i, Calm (σ' i)) := by
  cases op with
  | insert s k v =>
    unfold step
    dsimp only
    rcases insert_spec (h s) k v with ⟨hr, hbad⟩ | ⟨m', hr, hR, hc⟩
    · left; rw [hr]
      refine ⟨rfl, ?_⟩
      rintro ⟨h1, _, h3⟩
      have := h3 _ _ (.insert S s k v) s
      rw [put_at, Dict.insert_size] at this
      exact hbad ⟨h1 s, this⟩
    · right; rw [hr]
      refine ⟨_, _, _, rfl, .insert S s k v, repr_put h hR, ?_⟩
      intro h1 h2
      have := h2 s
      rw [put_at, Dict.insert_size] at this
      exact calm_put h1 (hc (h1 s) this)
  | set s k v =>
    unfold step
    dsimp only
    rcases assignKey_spec (h s) k d v with ⟨hr, hbad⟩ | ⟨m', hr, hR, hc⟩
    · left; rw [hr]
      refine ⟨rfl, ?_⟩
      rintro ⟨h1, _, h3⟩
      have := h3 _ _ (.set S s k v) s
      rw [put_at] at this
      exact hbad ⟨h1 s, this⟩
    · right; rw [hr]
      refine ⟨_, _, _, rfl, .set S s k v, repr_put h hR, ?_⟩
      intro h1 h2
      have := h2 s
      rw [put_at] at this
      exact calm_put h1 (hc (h1 s) this)
  | erase s k =>
    unfold step
    dsimp only
    obtain ⟨m', hr, hR, hc⟩ := erase_spec (h s) k
    right; rw [hr]
    exact ⟨_, _, _, rfl, .erase S s k, repr_put h hR, fun h1 _ => calm_put h1 (hc (h1 s))⟩
  | find s k =>
    unfold step
    dsimp only
    right; rw [find_spec (h s) k]
    exact ⟨_, _, _, rfl, .find S s k, h, fun h1 _ => h1⟩
  | size s =>
    right
    refine ⟨σ, _, S, rfl, ?_, h, fun h1 _ => h1⟩
    rw [(h s).num]
    exact .size S s
  | clear s =>
    right
    exact ⟨_, _, _, rfl, .clear S s, repr_put h (clear_spec (h s)), fun h1 _ => calm_put h1 (clear_calm (h1 s))⟩
  | reserve s c =>
    unfold step
    dsimp only
    rcases reserve_spec (h s) c with ⟨hr, hbad⟩ | ⟨m', hr, hR, hc⟩
    · left; rw [hr]
      refine ⟨rfl, ?_⟩
      rintro ⟨h1, h2, h3⟩
      exact hbad ⟨h2, h3 _ _ (.reserve S s c) s⟩
    · right; rw [hr]
      refine ⟨_, _, S, rfl, .reserve S s c, ?_, fun h1 h2 => calm_put h1 (hc (h2 s))⟩
      have := repr_put h (s := s) hR
      rwa [put_self] at this
  | list s =>
    unfold step
    dsimp only
    obtain ⟨l, hl, hll⟩ := entries_spec (h s)
    right; rw [hl]
    exact ⟨_, _, _, rfl, .list S s l hll, h, fun h1 _ => h1⟩
  | sweep s drop =>
    unfold step
    dsimp only
    obtain ⟨m', l, d', hr, hR, hl, hd, hc⟩ := sweep_spec (h s) drop
    right; rw [hr]
    obtain ⟨l', _, hl'⟩ := entries_spec hR
    exact ⟨_, _, _, rfl, .sweep S s drop l d' hl hd ⟨l', hl'⟩, repr_put h hR, fun h1 _ => calm_put h1 (hc (h1 s))⟩
  | equal s t =>
    unfold step
    dsimp only
    obtain ⟨b, hb, hiff⟩ := equal_spec (h s) (h t)
    right; rw [hb]
    exact ⟨_, _, _, rfl, .equal S s t b hiff, h, fun h1 _ => h1⟩
  | copy s t =>
    right
    refine ⟨_, _, _, rfl, .copy S s t, ?_, ?_⟩
    · by_cases hst : s = t
      · rw [if_pos hst, hst, put_self]; exact h
      · rw [if_neg hst]; exact repr_put h (assignFrom_spec (h s) (h t))
    · intro h1 _
      by_cases hst : s = t
      · rw [if_pos hst]; exact h1
      · rw [if_neg hst]; exact calm_put h1 (assignFrom_calm (h1 s) (h1 t))
  | copyNew s t =>
    right
    refine ⟨_, _, _, rfl, .copyNew S s t, ?_, ?_⟩
    · by_cases hst : s = t
      · rw [if_pos hst, hst, put_self]; exact h
      · rw [if_neg hst]; exact repr_put h (copyOf_spec (h t))
    · intro h1 _
      by_cases hst : s = t
      · rw [if_pos hst]; exact h1
      · rw [if_neg hst]; exact calm_put h1 (copyOf_calm (h1 t))
  | move s t =>
    right
    refine ⟨_, _, _, rfl, .move S s t, ?_, ?_⟩
    · by_cases hst : s = t
      · rw [if_pos hst, if_pos hst]; exact h
      · rw [if_neg hst, if_neg hst]
        obtain ⟨h1, h2⟩ := moveFrom_spec (h s) (h t)
        exact repr_put (repr_put h h2) h1
    · intro h1 _
      by_cases hst : s = t
      · rw [if_pos hst]; exact h1
      · rw [if_neg hst]
        obtain ⟨c1, c2⟩ := moveFrom_calm (h1 s) (h1 t)
        exact calm_put (calm_put h1 c2) c1
  | moveNew s t =>
    right
    refine ⟨_, _, _, rfl, .moveNew S s t, ?_, ?_⟩
    · by_cases hst : s = t
      · rw [if_pos hst, if_pos hst]; exact h
      · rw [if_neg hst, if_neg hst]
        obtain ⟨h1, h2⟩ := moveOf_spec (h t)
        exact repr_put (repr_put h h2) h1
    · intro h1 _
      by_cases hst : s = t
      · rw [if_pos hst]; exact h1
      · rw [if_neg hst]
        obtain ⟨c1, c2⟩ := moveOf_calm (h1 t)
        exact calm_put (calm_put h1 c2) c1

theorem run_spec [DecidableEq K] [DecidableEq V] {hash : K → BitVec 64} (d : V) :
    ∀ (ops : List (Op K V)) {σ : Nat → Map K V} {S : Nat → Dict K V}, (∀ i, Repr hash (σ i) (S i)) →
      (run hash d ops σ = .error .thrown ∧
        ¬ ((∀ i, Calm (σ i)) ∧ (∀ op ∈ ops, Modest op) ∧ ∀ pre os S', pre <+: ops → Runs S pre os S' → ∀ i, (S' i).size ≤ 126)) ∨
      ∃ σ' os S', run hash d ops σ = .ok (σ', os) ∧ Runs S ops os S' ∧ ∀ i, Repr hash (σ' i) (S' i) := by
  intro ops
  induction ops with
  | nil => intro σ S h; exact .inr ⟨σ, [], S, rfl, .nil S, h⟩
  | cons op ops ih =>
    intro σ S h
    unfold run
    rcases step_spec d h op with ⟨hs, hbad⟩ | ⟨σ1, o, S1, hs, ha, h1, hc⟩
    · left; rw [hs]
      refine ⟨rfl, ?_⟩
      rintro ⟨hc, hm, hsz⟩
      refine hbad ⟨hc, hm op List.mem_cons_self, ?_⟩
      intro o S' ha
      exact hsz [op] [o] S' (by simp) (.cons ha (.nil _))
    · rw [hs]
      simp only [bind, Except.bind]
      rcases ih h1 with ⟨hr, hbad⟩ | ⟨σ', os, S', hr, hR, h'⟩
      · left; rw [hr]
        refine ⟨rfl, ?_⟩
        rintro ⟨hc0, hm, hsz⟩
        refine hbad ⟨hc hc0 (hsz [op] [o] S1 (by simp) (.cons ha (.nil _))), fun op' hop => hm op' (List.mem_cons_of_mem _ hop), ?_⟩
        intro pre os S' hpre hR
        exact hsz (op :: pre) (o :: os) S' (by simpa using hpre) (.cons ha hR)
      · right; rw [hr]
        exact ⟨σ', o :: os, S', rfl, .cons ha hR, h'⟩

/-- **C74.** Whatever the hash function is: every program over any number of maps that inserts, assigns, erases, looks up, clears,
reserves, goes through the entries, erases through iterators, compares, copies and moves never runs into undefined behaviour or
an endless loop; and unless an exception is thrown, all its results are those of partial functions from keys to values. -/
theorem C74_map [DecidableEq K] [DecidableEq V] (hash : K → BitVec 64) (d : V) (ops : List (Op K V)) :
    run hash d ops (fun _ => {}) = .error .thrown ∨
    ∃ σ os S, run hash d ops (fun _ => {}) = .ok (σ, os) ∧ Runs (fun _ => .empty) ops os S := by
  rcases run_spec (hash := hash) d ops (σ := fun _ => {}) (S := fun _ => .empty) (fun _ => repr_empty hash) with ⟨h, _⟩ | ⟨σ, os, S, h, hR, _⟩
  · exact .inl h
  · exact .inr ⟨σ, os, S, h, hR⟩

/-- **C75.** As long as no map has more than 126 entries at a time, and nothing is reserved for more than `2 ^ 56` entries, no
exception is thrown, however bad the hash function is. -/
theorem C75_no_exception [DecidableEq K] [DecidableEq V] (hash : K → BitVec 64) (d : V) (ops : List (Op K V))
    (hm : ∀ s c, .reserve s c ∈ ops → c ≤ 2 ^ 56)
    (hs : ∀ pre os S, pre <+: ops → Runs (fun _ => .empty) pre os S → ∀ i, (S i).size ≤ 126) :
    ∃ σ os S, run hash d ops (fun _ => {}) = .ok (σ, os) ∧ Runs (fun _ => .empty) ops os S := by
  rcases run_spec (hash := hash) d ops (σ := fun _ => {}) (S := fun _ => .empty) (fun _ => repr_empty hash) with ⟨h, hbad⟩ | ⟨σ, os, S, h, hR, _⟩
  · exfalso
    refine hbad ⟨fun _ => calm_empty, ?_, hs⟩
    intro op hop
    cases op with
    | reserve s c => exact hm s c hop
    | _ => trivial
  · exact ⟨σ, os, S, h, hR⟩

/-- At most so many entries. -/
def AtMost (n : Nat) (d : Dict K V) : Prop := d.size ≤ n ∧ ∃ l : List K, l.length ≤ n ∧ ∀ k v, d.get k = some v → k ∈ l

theorem AtMost.mono {n n' : Nat} {d : Dict K V} (h : AtMost n d) (hn : n ≤ n') : AtMost n' d := by
  obtain ⟨h1, l, h2, h3⟩ := h
  exact ⟨by omega, l, by omega, h3⟩

theorem AtMost.zero (n : Nat) : AtMost n (.empty : Dict K V) := ⟨Nat.zero_le _, [], Nat.zero_le _, by intro k v h; cases h⟩

theorem AtMost.set [DecidableEq K] {n : Nat} {d : Dict K V} (h : AtMost n d) (k : K) (v : V) : AtMost (n + 1) (d.set k v) := by
  obtain ⟨h1, l, h2, h3⟩ := h
  refine ⟨?_, k :: l, by simp; omega, ?_⟩
  · unfold Dict.set
    dsimp only
    split <;> omega
  · intro k' v' hk
    unfold Dict.set at hk
    dsimp only at hk
    by_cases he : k' = k
    · simp [he]
    · rw [if_neg he] at hk
      exact List.mem_cons_of_mem _ (h3 k' v' hk)

theorem AtMost.put {n : Nat} {S : Nat → Dict K V} (h : ∀ i, AtMost n (S i)) {s : Nat} {d : Dict K V} (hd : AtMost n d) :
    ∀ i, AtMost n (put S s d i) := by
  intro i
  unfold RobinHood.put
  by_cases hi : i = s
  · rw [if_pos hi]; exact hd
  · rw [if_neg hi]; exact h i

/-- How many entries an operation can add. -/
def adds : Op K V → Nat
  | .insert .. => 1
  | .set .. => 1
  | _ => 0

theorem allowed_atMost [DecidableEq K] {S S' : Nat → Dict K V} {op : Op K V} {o : Out K V} (h : Allowed S op o S') {n : Nat}
    (hn : ∀ i, AtMost n (S i)) : ∀ i, AtMost (n + adds op) (S' i) := by
  have hn' : ∀ i, AtMost (n + adds op) (S i) := fun i => (hn i).mono (Nat.le_add_right _ _)
  cases h with
  | insert s k v =>
    refine AtMost.put hn' ?_
    unfold Dict.insert
    split
    · exact hn' s
    · exact (hn s).set k v
  | set s k v => exact AtMost.put hn' ((hn s).set k v)
  | erase s k =>
    refine AtMost.put hn' ?_
    obtain ⟨h1, l, h2, h3⟩ := hn' s
    refine ⟨?_, l, h2, ?_⟩
    · unfold Dict.erase
      dsimp only
      split <;> omega
    · intro k' v' hk
      unfold Dict.erase at hk
      dsimp only at hk
      by_cases he : k' = k
      · rw [if_pos he] at hk; cases hk
      · rw [if_neg he] at hk
        exact h3 k' v' hk
  | clear s => exact AtMost.put hn' (AtMost.zero _)
  | sweep s drop l d' hl hd hs =>
    refine AtMost.put hn' ?_
    obtain ⟨h1, l, h2, h3⟩ := hn' s
    obtain ⟨l', hnd, hmem, hlen⟩ := hs
    have hsub : ∀ k v, d'.get k = some v → k ∈ l := fun k v hk => h3 k v ((hd k v).mp hk).1
    refine ⟨?_, l, h2, hsub⟩
    have : (l'.map Prod.fst).length ≤ l.length := by
      refine (List.Nodup.subperm hnd ?_).length_le
      intro k hk
      obtain ⟨⟨k', v⟩, hkv, rfl⟩ := List.mem_map.mp hk
      exact hsub k' v ((hmem k' v).mp hkv)
    rw [List.length_map] at this
    omega
  | copy s t => exact AtMost.put hn' (hn' t)
  | copyNew s t => exact AtMost.put hn' (hn' t)
  | move s t =>
    split
    · exact hn'
    · exact AtMost.put (AtMost.put hn' (AtMost.zero _)) (hn' t)
  | moveNew s t =>
    split
    · exact hn'
    · exact AtMost.put (AtMost.put hn' (AtMost.zero _)) (hn' t)
  | find | size | reserve | list | equal => exact hn'

theorem runs_atMost [DecidableEq K] {S S' : Nat → Dict K V} {ops : List (Op K V)} {os : List (Out K V)} (h : Runs S ops os S') :
    ∀ {n : Nat}, (∀ i, AtMost n (S i)) → ∀ i, AtMost (n + (ops.map adds).sum) (S' i) := by
  induction h with
  | nil S => intro n hn; exact hn
  | cons ha _ ih =>
    intro n hn
    have := ih (allowed_atMost ha hn)
    rw [List.map_cons, List.sum_cons, ← Nat.add_assoc]
    exact this

/-- **C75.** A program with at most 126 insertions and assignments (and no reservation for more than `2 ^ 56` entries) runs to
its end: all its operations return what they should. -/
theorem C75_few_insertions [DecidableEq K] [DecidableEq V] (hash : K → BitVec 64) (d : V) (ops : List (Op K V))
    (hm : ∀ s c, .reserve s c ∈ ops → c ≤ 2 ^ 56) (hs : (ops.map adds).sum ≤ 126) :
    ∃ σ os S, run hash d ops (fun _ => {}) = .ok (σ, os) ∧ Runs (fun _ => .empty) ops os S := by
  refine C75_no_exception hash d ops hm ?_
  rintro pre os S ⟨suf, rfl⟩ hR i
  have h1 := (runs_atMost hR (n := 0) (fun _ => AtMost.zero 0) i).1
  rw [List.map_append, List.sum_append] at hs
  omega

/-! ## Examples -/

/-- A bad hash function. -/
def low (k : Nat) : BitVec 64 := BitVec.ofNat 64 k

/-- A program with collisions around the end of the table. -/
def demo : List (Op Nat Nat) :=
  [.insert 0 7 70, .insert 0 15 150, .insert 0 7 71, .set 0 23 230, .find 0 15, .find 0 31, .erase 0 7, .size 0, .list 0, .copy 1 0, .equal 0 1,
    .move 2 1, .size 1, .equal 0 2, .reserve 2 100, .equal 0 2, .clear 2, .list 2]

/-- What the program returns. -/
def results (r : Except Err ((Nat → Map Nat Nat) × List (Out Nat Nat))) : List (Out Nat Nat) :=
  match r with
  | .ok s => s.2
  | .error _ => []

/-- `C74_map` has programs that end with results. -/
example : results (run low 0 demo (fun _ => {})) =
    [.flag true, .flag true, .flag false, .unit, .value (some 150), .value none, .count 1, .count 2, .entries [(23, 230), (15, 150)], .unit, .flag true,
      .unit, .count 0, .flag true, .unit, .flag true, .unit, .entries []] := by decide +kernel

/-- The hypotheses of `C75_few_insertions` (and with them those of `C75_no_exception`) hold for it. -/
example : ∃ σ os S, run low 0 demo (fun _ => {}) = .ok (σ, os) ∧ Runs (fun _ => .empty) demo os S := by
  refine C75_few_insertions low 0 demo ?_ (by decide)
  intro s c h
  unfold demo at h
  simp only [List.mem_cons, List.not_mem_nil, or_false, reduceCtorEq, false_or, Op.reserve.injEq] at h
  omega

/-- **C74.** Erasing through iterators can see an entry twice: entries that are stored around the end of the table move from its
begin to its end, where the loop meets them again.  (`Allowed` for this reason only asks that every entry is seen.) -/
theorem C74_sweep_twice_counterexample :
    results (run low 0 [.insert 0 7 70, .insert 0 15 150, .sweep 0 (fun k _ => k == 7), .list 0] (fun _ => {})) =
      [.flag true, .flag true, .entries [(15, 150), (7, 70), (15, 150)], .entries [(15, 150)]] := by decide +kernel

end RobinHood
end VecGeom
