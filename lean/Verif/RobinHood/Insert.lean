import Verif.RobinHood.Lemmas

/-!
# Inserting keeps the invariant
-/

namespace VecGeom
namespace RobinHood

variable {K V : Type}

theorem emptySpot_spec {m : Map K V} {N : Nat} (hp : ∃ k, 3 ≤ k ∧ k ≤ 57 ∧ N = 2 ^ k) (hm : m.mask + 1 = N) (p : Nat) :
    ∀ (D f e : Nat), D < f → m.info ((p + (e + D)) % N) = 0 → (∀ i < D, m.info ((p + (e + i)) % N) ≠ 0) →
      emptySpot m f ((p + e) % N) = .ok ((p + (e + D)) % N) := by
  intro D
  induction D with
  | zero =>
    intro f e hf h0 _
    cases f with
    | zero => omega
    | succ f =>
      unfold emptySpot
      rw [if_neg]
      · rfl
      · rw [Nat.add_zero] at h0
        simp [h0]
  | succ D ih =>
    intro f e hf h0 hn
    cases f with
    | zero => omega
    | succ f =>
      unfold emptySpot
      have h := hn 0 (by omega)
      rw [Nat.add_zero] at h
      rw [if_pos h]
      unfold nextIdx
      rw [and_mask hp hm, succ_loc]
      have := ih f (e + 1) (by omega) (by rw [← h0]; congr 2; omega) (by
        intro i hi
        have := hn (i + 1) (by omega)
        rwa [show e + (i + 1) = e + 1 + i by omega] at this)
      rw [this]
      congr 2
      omega

/-- What shifting up does: the cells `p .. p + D - 1` move to `p + 1 .. p + D`. -/
structure Shifted (m m' : Map K V) (N p D : Nat) : Prop where
  mask : m'.mask = m.mask
  inc : m'.inc = m.inc
  shift : m'.shift = m.shift
  num : m'.num = m.num
  out : ∀ j, N ≤ j → m'.info j = m.info j
  info : ∀ e < N, m'.info ((p + e) % N) = if e = 0 then m.info ((p + e) % N) else if e ≤ D then m.info ((p + (e - 1)) % N) + m.inc else m.info ((p + e) % N)
  kv : ∀ e < N, e ≠ 0 → m'.kv ((p + e) % N) = if e ≤ D then m.kv ((p + (e - 1)) % N) else m.kv ((p + e) % N)
  kv0 : m'.kv (p % N) = if D = 0 then m.kv (p % N) else .moved
  most : m'.maxAllowed = 0 ∨ (m'.maxAllowed = m.maxAllowed ∧ ∀ e < D, m.info ((p + e) % N) + m.inc + m.inc ≤ 255)
  zero : m'.maxAllowed = 0 → m.maxAllowed = 0 ∨ ∃ e < D, m.info ((p + e) % N) + m.inc + m.inc > 255

theorem shiftUp_spec {N : Nat} (hp : ∃ k, 3 ≤ k ∧ k ≤ 57 ∧ N = 2 ^ k) (p : Nat) :
    ∀ (D f : Nat) (m : Map K V), D < f → D < N → m.mask + 1 = N →
      (∀ e < D, (∃ k v, m.kv ((p + e) % N) = .full k v) ∧ m.info ((p + e) % N) ≠ 0 ∧ m.info ((p + e) % N) + m.inc ≤ 255) →
      (m.kv ((p + D) % N)).isRaw = decide (m.info ((p + D) % N) = 0) →
      ∃ m', shiftUp f m ((p + D) % N) (p % N) = .ok m' ∧ Shifted m m' N p D := by
  have hN : 0 < N := by have := N_ge hp; omega
  intro D
  induction D with
  | zero =>
    intro f m hf _ hm _ _
    cases f with
    | zero => omega
    | succ f =>
      refine ⟨m, ?_, ?_⟩
      · unfold shiftUp
        rw [if_neg (by simp)]
      · refine ⟨rfl, rfl, rfl, rfl, fun _ _ => rfl, ?_, ?_, by simp, .inr ⟨rfl, fun e he => by omega⟩, .inl⟩
        · intro e he
          by_cases h : e = 0
          · rw [if_pos h]
          · rw [if_neg h, if_neg (by omega)]
        · intro e he h
          rw [if_neg (by omega)]
  | succ D ih =>
    intro f m hf hD hm hfull hraw
    cases f with
    | zero => omega
    | succ f =>
      obtain ⟨⟨k, v, hk⟩, hi0, hi⟩ := hfull D (by omega)
      have hne : (p + (D + 1)) % N ≠ p % N := by
        intro h
        have := loc_inj (p := p) hD hN (e' := 0) (by rw [h]; rfl)
        omega
      have hmod : (m.info ((p + D) % N) + m.inc) % 256 = m.info ((p + D) % N) + m.inc := Nat.mod_eq_of_lt (by omega)
      obtain ⟨m1, hm1⟩ : ∃ m1, m1 = ({ m with
        kv := put (put m.kv ((p + (D + 1)) % N) (.full k v)) ((p + D) % N) .moved
        info := put m.info ((p + (D + 1)) % N) (m.info ((p + D) % N) + m.inc)
        maxAllowed := if m.info ((p + D) % N) + m.inc + m.inc > 255 then 0 else m.maxAllowed } : Map K V) := ⟨_, rfl⟩
      have hstep : shiftUpStep m ((p + (D + 1)) % N) ((p + D) % N) = .ok m1 := by
        unfold shiftUpStep
        rw [hk]
        dsimp only
        rw [if_pos hraw, hmod, hm1]
      have hI : ∀ e < N, m1.info ((p + e) % N) = if e = D + 1 then m.info ((p + D) % N) + m.inc else m.info ((p + e) % N) := by
        intro e he
        rw [hm1]
        exact put_loc _ _ hD he
      have hKV : ∀ e < N, m1.kv ((p + e) % N) = if e = D then .moved else if e = D + 1 then .full k v else m.kv ((p + e) % N) := by
        intro e he
        rw [hm1]
        dsimp only
        rw [put_loc _ _ (by omega) he, put_loc _ _ hD he]
      obtain ⟨m', h1, s⟩ := ih f m1 (by omega) (by omega) (by rw [hm1]; exact hm) (by
        intro e he
        obtain ⟨h1, h2, h3⟩ := hfull e (by omega)
        rw [hI e (by omega), hKV e (by omega), if_neg (by omega), if_neg (by omega), if_neg (by omega), hm1]
        exact ⟨h1, h2, h3⟩) (by
        rw [hI D (by omega), hKV D (by omega), if_pos rfl, if_neg (by omega)]
        simp [Slot.isRaw, hi0])
      refine ⟨m', ?_, ?_⟩
      · unfold shiftUp
        rw [if_pos hne]
        dsimp only
        rw [prev_loc hp hm, hstep]
        exact h1
      · have hinc : m1.inc = m.inc := by rw [hm1]
        refine ⟨by rw [s.mask, hm1], by rw [s.inc, hm1], by rw [s.shift, hm1], by rw [s.num, hm1], ?_, ?_, ?_, ?_, ?_, ?_⟩
        · intro j hj
          rw [s.out j hj, hm1]
          exact put_out _ _ hN hj
        · intro e he
          rw [s.info e he, hinc, hI e he]
          by_cases h0 : e = 0
          · rw [if_pos h0, if_pos h0, if_neg (by omega)]
          · rw [if_neg h0, if_neg h0]
            by_cases h1 : e ≤ D
            · rw [if_pos h1, hI (e - 1) (by omega), if_neg (show ¬ e - 1 = D + 1 by omega), if_pos (by omega)]
            · rw [if_neg h1]
              by_cases h2 : e = D + 1
              · rw [if_pos h2, if_pos (by omega), h2]
                rfl
              · rw [if_neg h2, if_neg (by omega)]
        · intro e he h0
          rw [s.kv e he h0, hKV e he, hKV (e - 1) (by omega)]
          by_cases h1 : e ≤ D
          · rw [if_pos h1, if_pos (show e ≤ D + 1 by omega), if_neg (by omega), if_neg (by omega)]
          · rw [if_neg h1, if_neg (by omega)]
            by_cases h2 : e = D + 1
            · rw [if_pos h2, if_pos (by omega), h2, ← hk]
              rfl
            · rw [if_neg h2, if_neg (by omega)]
        · have h2 := hKV 0 hN
          rw [Nat.add_zero] at h2
          rw [s.kv0, if_neg (show ¬ D + 1 = 0 by omega)]
          by_cases h0 : D = 0
          · rw [if_pos h0, h2, if_pos h0.symm]
          · rw [if_neg h0]
        · rcases s.most with h | ⟨h, hall⟩
          · exact .inl h
          · rw [h, hm1]
            dsimp only
            by_cases hbig : m.info ((p + D) % N) + m.inc + m.inc > 255
            · rw [if_pos hbig]; exact .inl rfl
            · rw [if_neg hbig]
              refine .inr ⟨rfl, ?_⟩
              intro e he
              rcases Nat.lt_or_ge e D with h' | h'
              · have := hall e h'
                rw [hI e (by omega), if_neg (by omega), hinc] at this
                exact this
              · have : e = D := by omega
                rw [this]; omega
        · intro h
          rcases s.zero h with h | ⟨e, he, h⟩
          · rw [hm1] at h
            dsimp only at h
            by_cases hbig : m.info ((p + D) % N) + m.inc + m.inc > 255
            · exact .inr ⟨D, by omega, hbig⟩
            · rw [if_neg hbig] at h
              exact .inl h
          · rw [hI e (by omega), if_neg (by omega), hinc] at h
            exact .inr ⟨e, by omega, h⟩

/-- The map after an insertion at `p`, with the cells `p .. p + D - 1` moved. -/
structure Inserted (m m' : Map K V) (N p D ib : Nat) (key : K) (v : V) : Prop where
  mask : m'.mask = m.mask
  inc : m'.inc = m.inc
  shift : m'.shift = m.shift
  num : m'.num = m.num + 1
  out : ∀ j, N ≤ j → m'.info j = m.info j
  info : ∀ e < N, m'.info ((p + e) % N) = if e = 0 then ib else if e ≤ D then m.info ((p + (e - 1)) % N) + m.inc else m.info ((p + e) % N)
  kv : ∀ e < N, m'.kv ((p + e) % N) = if e = 0 then .full key v else if e ≤ D then m.kv ((p + (e - 1)) % N) else m.kv ((p + e) % N)
  most : m'.maxAllowed = 0 ∨ (m'.maxAllowed = m.maxAllowed ∧ ib + m.inc ≤ 255 ∧ ∀ e < D, m.info ((p + e) % N) + m.inc + m.inc ≤ 255)
  zero : m'.maxAllowed = 0 → m.maxAllowed = 0 ∨ ib + m.inc > 255 ∨ ∃ e < D, m.info ((p + e) % N) + m.inc + m.inc > 255

theorem insertAt_eq {hash : K → BitVec 64} {m : Map K V} {N : Nat} (w : WF hash m N) (hall : ∀ i < N, m.info i + m.inc ≤ 255)
    {p D info : Nat} (key : K) (v : V) (hi : info ≤ 255) (hD : D < N) (h0 : m.info ((p + D) % N) = 0)
    (hn : ∀ e < D, m.info ((p + e) % N) ≠ 0) :
    ∃ m', insertAt m info (p % N) key v = .ok m' ∧ Inserted m m' N p D info key v := by
  have hN := w.pos
  obtain ⟨m0, hm0⟩ : ∃ m0, m0 = (if info + m.inc > 255 then { m with maxAllowed := 0 } else m) := ⟨_, rfl⟩
  have e1 : m0.mask = m.mask := by rw [hm0]; split <;> rfl
  have e2 : m0.inc = m.inc := by rw [hm0]; split <;> rfl
  have e3 : m0.shift = m.shift := by rw [hm0]; split <;> rfl
  have e4 : m0.num = m.num := by rw [hm0]; split <;> rfl
  have e5 : m0.info = m.info := by rw [hm0]; split <;> rfl
  have e6 : m0.kv = m.kv := by rw [hm0]; split <;> rfl
  have e7 : m0.maxAllowed = 0 ∨ (m0.maxAllowed = m.maxAllowed ∧ info + m.inc ≤ 255) := by
    rw [hm0]
    by_cases h : info + m.inc > 255
    · rw [if_pos h]; exact .inl rfl
    · rw [if_neg h]; exact .inr ⟨rfl, by omega⟩
  have e8 : m0.maxAllowed = 0 → m.maxAllowed = 0 ∨ info + m.inc > 255 := by
    rw [hm0]
    by_cases h : info + m.inc > 255
    · exact fun _ => .inr h
    · rw [if_neg h]; exact .inl
  have hm : m0.mask + 1 = N := by rw [e1]; exact w.mask
  have hes : emptySpot m0 (m0.mask + 2) (p % N) = .ok ((p + D) % N) := by
    have := emptySpot_spec (m := m0) w.pow hm p D (m0.mask + 2) 0 (by omega) (by rw [e5, Nat.zero_add]; exact h0)
      (by intro i hi'; rw [e5, Nat.zero_add]; exact hn i hi')
    rwa [Nat.zero_add, Nat.add_zero] at this
  have hmod : info % 256 = info := Nat.mod_eq_of_lt (by omega)
  unfold insertAt
  dsimp only
  rw [← hm0, hes, hmod]
  have hputI : ∀ (f : Nat → Nat) (e : Nat), e < N → put f (p % N) info ((p + e) % N) = if e = 0 then info else f ((p + e) % N) := by
    intro f e he
    have := put_loc f (p := p) (e := 0) info hN he
    rwa [Nat.add_zero] at this
  have hputK : ∀ (f : Nat → Slot K V) (e : Nat), e < N → put f (p % N) (.full key v) ((p + e) % N) = if e = 0 then .full key v else f ((p + e) % N) := by
    intro f e he
    have := put_loc f (p := p) (e := 0) (.full key v) hN he
    rwa [Nat.add_zero] at this
  have hout : ∀ (f : Nat → Nat) (j : Nat), N ≤ j → put f (p % N) info j = f j := by
    intro f j hj
    have := put_out f (p := p) (e := 0) info hN hj
    rwa [Nat.add_zero] at this
  by_cases hd : D = 0
  · subst hd
    rw [Nat.add_zero] at h0
    have hraw : (m0.kv (p % N)).isRaw = true := by
      rw [e6, w.raw _ (Nat.mod_lt _ hN) h0]; rfl
    refine ⟨_, by simp only [bind, Except.bind, Nat.add_zero, if_true, hraw]; rfl, ?_⟩
    refine ⟨e1, e2, e3, by rw [← e4], ?_, ?_, ?_, ?_, ?_⟩
    · intro j hj
      dsimp only
      rw [hout _ j hj, e5]
    · intro e he
      dsimp only
      rw [hputI _ e he, e5]
      by_cases h : e = 0
      · rw [if_pos h, if_pos h]
      · rw [if_neg h, if_neg h, if_neg (by omega)]
    · intro e he
      dsimp only
      rw [hputK _ e he, e6]
      by_cases h : e = 0
      · rw [if_pos h, if_pos h]
      · rw [if_neg h, if_neg h, if_neg (by omega)]
    · rcases e7 with h | ⟨h, h'⟩
      · exact .inl h
      · exact .inr ⟨h, h', fun e he => by omega⟩
    · intro h
      rcases e8 h with h | h
      · exact .inl h
      · exact .inr (.inl h)
  · have hne : ¬ (p + D) % N = p % N := by
      intro h
      have := loc_inj (p := p) hD hN (e' := 0) (by rw [h]; rfl)
      omega
    obtain ⟨m1, h1, s⟩ := shiftUp_spec w.pow p D (m0.mask + 2) m0 (by omega) hD hm (by
      intro e he
      rw [e5, e6, e2]
      exact ⟨w.full _ (Nat.mod_lt _ hN) (hn e he), hn e he, hall _ (Nat.mod_lt _ hN)⟩) (by
      rw [e5, e6, w.raw _ (Nat.mod_lt _ hN) h0, h0]; rfl)
    have hraw : (m1.kv (p % N)).isRaw = false := by
      rw [s.kv0, if_neg hd]; rfl
    refine ⟨_, by simp only [bind, Except.bind, if_neg hne, h1, hraw, Bool.false_eq_true, if_false]; rfl, ?_⟩
    refine ⟨by rw [← e1, ← s.mask], by rw [← e2, ← s.inc], by rw [← e3, ← s.shift], by rw [← e4, ← s.num], ?_, ?_, ?_, ?_, ?_⟩
    · intro j hj
      dsimp only
      rw [hout _ j hj, s.out j hj, e5]
    · intro e he
      dsimp only
      rw [hputI _ e he]
      by_cases h : e = 0
      · rw [if_pos h, if_pos h]
      · rw [if_neg h, if_neg h, s.info e he, if_neg h, e5, e2]
    · intro e he
      dsimp only
      rw [hputK _ e he]
      by_cases h : e = 0
      · rw [if_pos h, if_pos h]
      · rw [if_neg h, if_neg h, s.kv e he h, e6]
    · rcases s.most with h | ⟨h, hb⟩
      · exact .inl h
      · rcases e7 with h' | ⟨h', h''⟩
        · exact .inl (by rw [← h']; exact h)
        · refine .inr ⟨by rw [← h']; exact h, h'', ?_⟩
          rw [e5, e2] at hb
          exact hb
    · intro h
      rcases s.zero h with h | ⟨e, he, h⟩
      · rcases e8 h with h | h
        · exact .inl h
        · exact .inr (.inl h)
      · rw [e5, e2] at h
        exact .inr (.inr ⟨e, he, h⟩)

/-- Inserting an absent key at its place keeps the invariant and adds the entry. -/
theorem insertAt_spec {hash : K → BitVec 64} {m : Map K V} {N : Nat} (w : WF hash m N) (hall : ∀ i < N, m.info i + m.inc ≤ 255)
    (key : K) (v : V) (J : Nat) (hJ : ∀ i < J, probe hash m key i ≤ m.info ((home hash N key + i) % N))
    (hJ' : m.info ((home hash N key + J) % N) < probe hash m key J) (habs : ∀ v, ¬ Has m N key v) (hload : m.num < calcMax N) :
    probe hash m key J ≤ 255 ∧ ∃ m', insertAt m (probe hash m key J) ((home hash N key + J) % N) key v = .ok m' ∧ WF hash m' N ∧ m'.num = m.num + 1 ∧
      m'.kv ((home hash N key + J) % N) = .full key v ∧
      (∀ k w, Has m' N k w ↔ (k = key ∧ w = v) ∨ Has m N k w) ∧
      m'.inc = m.inc ∧ (m'.maxAllowed = 0 → m.maxAllowed = 0 ∨ ∃ i < N, m'.info i + m'.inc > 255) := by
  have hN := w.pos
  have hinc := w.inc_ge
  have hinc' := w.inc_le
  have hb := w.bits_lt key
  obtain ⟨p, hp⟩ : ∃ p, p = home hash N key + J := ⟨_, rfl⟩
  have hpr : probe hash m key J ≤ 255 := by
    cases J with
    | zero => unfold probe; omega
    | succ J =>
      have := hJ J (by omega)
      have := hall _ (Nat.mod_lt (home hash N key + J) hN)
      rw [probe_succ]; omega
  refine ⟨hpr, ?_⟩
  -- the cell before `p`
  have hpre : ∀ i < N, (i + 1) % N = p % N → probe hash m key J ≤ max (m.info i + m.inc) (2 * m.inc - 1) := by
    intro i hi he
    cases J with
    | zero => unfold probe; omega
    | succ J =>
      have h1 := hJ J (by omega)
      have h2 : i = (home hash N key + J) % N := by
        have hx : ((home hash N key + J) % N + 1) % N = p % N := by rw [succ_loc, hp]
        have hm : (home hash N key + J) % N < N := Nat.mod_lt _ hN
        have h3 : ((i + 1) % N) = (((home hash N key + J) % N + 1) % N) := by rw [he, hx]
        have := loc_inj (p := 1) hi hm (by rw [Nat.add_comm 1, Nat.add_comm 1]; exact h3)
        exact this
      rw [h2, probe_succ]; omega
  rw [← hp] at hJ' ⊢
  obtain ⟨D, hD, h0, hn⟩ := w.first_empty p
  obtain ⟨m', hm', s⟩ := insertAt_eq w hall key v hpr hD h0 hn
  have hpb : ∀ k j, probe hash m' k j = probe hash m k j := by
    intro k j; unfold probe bits; rw [s.inc, s.shift]
  refine ⟨m', hm', ?_, s.num, ?_, ?_, s.inc, ?_⟩
  rotate_left
  · have := s.kv 0 hN
    rw [Nat.add_zero, if_pos rfl] at this
    exact this
  · intro k x
    constructor
    · rintro ⟨i, hi, hk⟩
      obtain ⟨e, he, rfl⟩ := loc_ex p i hi
      rw [s.kv e he] at hk
      by_cases h1 : e = 0
      · rw [if_pos h1] at hk
        cases hk
        exact .inl ⟨rfl, rfl⟩
      · rw [if_neg h1] at hk
        right
        by_cases h2 : e ≤ D
        · rw [if_pos h2] at hk
          exact ⟨_, Nat.mod_lt _ hN, hk⟩
        · rw [if_neg h2] at hk
          exact ⟨_, Nat.mod_lt _ hN, hk⟩
    · rintro (⟨rfl, rfl⟩ | ⟨i, hi, hk⟩)
      · refine ⟨_, Nat.mod_lt (p + 0) hN, ?_⟩
        rw [s.kv 0 hN, if_pos rfl]
      · obtain ⟨e, he, rfl⟩ := loc_ex p i hi
        have hne : e ≠ D := by
          rintro rfl
          exact w.info_pos hi hk h0
        by_cases h2 : e < D
        · refine ⟨_, Nat.mod_lt (p + (e + 1)) hN, ?_⟩
          rw [s.kv (e + 1) (by omega), if_neg (by omega), if_pos (by omega)]
          exact hk
        · refine ⟨_, Nat.mod_lt (p + e) hN, ?_⟩
          rw [s.kv e he, if_neg (by omega), if_neg (by omega)]
          exact hk
  · intro h
    rcases s.zero h with h | h | ⟨e, he, h⟩
    · exact .inl h
    · refine .inr ⟨(p + 0) % N, Nat.mod_lt _ hN, ?_⟩
      rw [s.info 0 hN, if_pos rfl, s.inc]
      exact h
    · refine .inr ⟨(p + (e + 1)) % N, Nat.mod_lt _ hN, ?_⟩
      rw [s.info (e + 1) (by omega), if_neg (by omega), if_pos (by omega), s.inc, show e + 1 - 1 = e by omega]
      exact h
  refine ⟨w.pow, by rw [s.mask]; exact w.mask, by rw [s.inc, s.shift]; exact w.incs, ?_, ?_, ?_, ?_, ?_, ?_, ?_, ?_, ?_, ?_⟩
  · intro i hi
    obtain ⟨e, he, rfl⟩ := loc_ex p i hi
    rw [s.info e he]
    split
    · exact hpr
    · split
      · exact hall _ (Nat.mod_lt _ hN)
      · exact w.byte _ (Nat.mod_lt _ hN)
  · intro i hi hz
    obtain ⟨e, he, rfl⟩ := loc_ex p i hi
    rw [s.info e he] at hz
    rw [s.kv e he]
    by_cases h1 : e = 0
    · rw [if_pos h1] at hz
      exact absurd hz (probe_pos w key J)
    · rw [if_neg h1] at hz ⊢
      by_cases h2 : e ≤ D
      · rw [if_pos h2] at hz
        omega
      · rw [if_neg h2] at hz ⊢
        exact w.raw _ (Nat.mod_lt _ hN) hz
  · intro i hi hz
    obtain ⟨e, he, rfl⟩ := loc_ex p i hi
    rw [s.info e he] at hz
    rw [s.kv e he]
    by_cases h1 : e = 0
    · rw [if_pos h1]
      exact ⟨key, v, rfl⟩
    · rw [if_neg h1] at hz ⊢
      by_cases h2 : e ≤ D
      · rw [if_pos h2]
        exact w.full _ (Nat.mod_lt _ hN) (hn _ (by omega))
      · rw [if_neg h2] at hz ⊢
        exact w.full _ (Nat.mod_lt _ hN) hz
  · intro i hi k x hk
    obtain ⟨e, he, rfl⟩ := loc_ex p i hi
    rw [s.kv e he] at hk
    rw [s.info e he]
    simp only [hpb]
    by_cases h1 : e = 0
    · rw [if_pos h1] at hk ⊢
      cases hk
      exact ⟨J, by rw [h1, hp]; rfl, rfl⟩
    · rw [if_neg h1] at hk ⊢
      by_cases h2 : e ≤ D
      · rw [if_pos h2] at hk ⊢
        obtain ⟨d, hd, hi'⟩ := w.place _ (Nat.mod_lt _ hN) k x hk
        refine ⟨d + 1, ?_, by rw [hi', probe_succ]⟩
        rw [← succ_loc, ← hd, succ_loc]
        congr 2
        omega
      · rw [if_neg h2] at hk ⊢
        exact w.place _ (Nat.mod_lt _ hN) k x hk
  · intro i hi
    obtain ⟨e, he, rfl⟩ := loc_ex p i hi
    rw [succ_loc, s.info e he, s.inc]
    by_cases hw : e + 1 = N
    · have hz : (p + (e + 1)) % N = (p + 0) % N := by rw [hw]; simp
      rw [hz, s.info 0 hN, if_pos rfl]
      have hpe := hpre ((p + e) % N) (Nat.mod_lt _ hN) (by rw [succ_loc, hz]; rfl)
      rw [if_neg (by have := N_ge w.pow; omega)]
      by_cases h2 : e ≤ D
      · have : e = D := by omega
        rw [if_pos h2]
        rw [this, h0] at hpe
        omega
      · rw [if_neg h2]
        exact hpe
    · rw [s.info (e + 1) (by omega), if_neg (by omega)]
      have hst := w.step' p e
      by_cases h1 : e = 0
      · rw [if_pos h1]
        by_cases h2 : e + 1 ≤ D
        · rw [if_pos h2]
          have : e + 1 - 1 = 0 := by omega
          rw [this, Nat.add_zero]
          omega
        · rw [if_neg h2]
          have hx : m.info ((p + e) % N) = 0 := by
            have : e = D := by omega
            rw [this]; exact h0
          rw [hx] at hst
          omega
      · rw [if_neg h1]
        by_cases h2 : e + 1 ≤ D
        · rw [if_pos h2, if_pos (by omega)]
          have hst' := w.step' p (e - 1)
          have hne := hn (e - 1) (by omega)
          have hge : m.inc ≤ m.info ((p + (e - 1)) % N) := by
            obtain ⟨k, x, hk⟩ := w.full _ (Nat.mod_lt _ hN) hne
            obtain ⟨d, _, hd⟩ := w.place _ (Nat.mod_lt _ hN) k x hk
            have := probe_ge hash m k d
            have h3 : 1 * m.inc ≤ (d + 1) * m.inc := Nat.mul_le_mul_right _ (by omega)
            omega
          rw [show e - 1 + 1 = e by omega] at hst'
          rw [show e + 1 - 1 = e by omega]
          omega
        · rw [if_neg h2]
          by_cases h3 : e ≤ D
          · rw [if_pos h3]
            have hx : m.info ((p + e) % N) = 0 := by
              have : e = D := by omega
              rw [this]; exact h0
            rw [hx] at hst
            omega
          · rw [if_neg h3]
            exact hst
  · intro i hi j hj k x y hx hy
    obtain ⟨e, he, rfl⟩ := loc_ex p i hi
    obtain ⟨e', he', rfl⟩ := loc_ex p j hj
    rw [s.kv e he] at hx
    rw [s.kv e' he'] at hy
    have hempty : ∀ z, m.kv ((p + D) % N) ≠ .full k z := fun z hz => w.info_pos (Nat.mod_lt _ hN) hz h0
    -- the cell where the entry was before
    have old : ∀ e z, e < N → e ≠ 0 → (if e ≤ D then m.kv ((p + (e - 1)) % N) else m.kv ((p + e) % N)) = .full k z →
        m.kv ((p + (if e ≤ D then e - 1 else e)) % N) = .full k z ∧ (if e ≤ D then e - 1 else e) ≠ D := by
      intro e z he h1 hz
      by_cases h2 : e ≤ D
      · rw [if_pos h2] at hz ⊢
        exact ⟨hz, by omega⟩
      · rw [if_neg h2] at hz ⊢
        exact ⟨hz, by omega⟩
    by_cases h1 : e = 0
    · rw [if_pos h1] at hx
      cases hx
      by_cases h2 : e' = 0
      · rw [h1, h2]
      · rw [if_neg h2] at hy
        exact absurd ⟨_, Nat.mod_lt _ hN, (old e' y he' h2 hy).1⟩ (habs y)
    · rw [if_neg h1] at hx
      by_cases h2 : e' = 0
      · rw [if_pos h2] at hy
        cases hy
        exact absurd ⟨_, Nat.mod_lt _ hN, (old e x he h1 hx).1⟩ (habs x)
      · rw [if_neg h2] at hy
        obtain ⟨hx1, hx2⟩ := old e x he h1 hx
        obtain ⟨hy1, hy2⟩ := old e' y he' h2 hy
        have := w.uniq _ (Nat.mod_lt _ hN) _ (Nat.mod_lt _ hN) k x y hx1 hy1
        have := loc_inj (by split <;> omega) (by split <;> omega) this
        have : e = e' := by
          by_cases c1 : e ≤ D <;> by_cases c2 : e' ≤ D <;> simp only [c1, c2, if_true, if_false] at this hx2 hy2 <;> omega
        rw [this]
  · rw [s.num, w.count]
    have hset : (Finset.range N).filter (fun i => m'.info i ≠ 0) = Insert.insert ((p + D) % N) ((Finset.range N).filter (fun i => m.info i ≠ 0)) := by
      ext i
      simp only [Finset.mem_filter, Finset.mem_range, Finset.mem_insert]
      constructor
      · rintro ⟨hi, hz⟩
        obtain ⟨e, he, rfl⟩ := loc_ex p i hi
        by_cases hc : e = D
        · left; rw [hc]
        · right
          refine ⟨hi, ?_⟩
          rcases Nat.lt_or_ge e D with h' | h'
          · exact hn e h'
          · rw [s.info e he, if_neg (by omega), if_neg (by omega)] at hz
            exact hz
      · rintro (rfl | ⟨hi, hz⟩)
        · refine ⟨Nat.mod_lt _ hN, ?_⟩
          rw [s.info D hD]
          split
          · exact probe_pos w key J
          · rw [if_pos (le_refl _)]; omega
        · refine ⟨hi, ?_⟩
          obtain ⟨e, he, rfl⟩ := loc_ex p i hi
          rw [s.info e he]
          split
          · exact probe_pos w key J
          · split
            · omega
            · exact hz
    rw [hset, Finset.card_insert_of_notMem]
    simp [h0]
  · rcases s.most with h | ⟨h, h1, h2⟩
    · exact .inl h
    · rcases w.most with h' | ⟨h', h3⟩
      · exact .inl (by rw [h]; exact h')
      · refine .inr ⟨by rw [h]; exact h', ?_⟩
        intro i hi
        obtain ⟨e, he, rfl⟩ := loc_ex p i hi
        rw [s.info e he, s.inc]
        split
        · exact h1
        · split
          · exact h2 _ (by omega)
          · exact h3 _ hi
  · rw [s.num]; omega
  · rw [s.out N (le_refl _)]
    exact ⟨w.tail.1, fun i hi => by rw [s.out i (by omega)]; exact w.tail.2 i hi⟩

end RobinHood
end VecGeom
