import Verif.RobinHood.Erase

/-!
# Growing keeps the invariant
-/

namespace VecGeom
namespace RobinHood

variable {K V : Type}

/-- Where the info overflows, there are still bits to take from the hash. -/
def Calm (m : Map K V) : Prop := m.maxAllowed = 0 → 2 < m.inc

/-- An info is bounded by the number of entries. -/
theorem WF.info_bound {hash : K → BitVec 64} {m : Map K V} {N : Nat} (w : WF hash m N) {i : Nat} (hi : i < N) :
    m.info i ≤ m.num * m.inc + m.inc - 1 := by
  have hN := w.pos
  by_cases h0 : m.info i = 0
  · omega
  · obtain ⟨k, v, hk⟩ := w.full i hi h0
    obtain ⟨d, hd, hb⟩ := w.place i hi k v hk
    have hch := w.chain k (home hash N k) d (by rw [← hd]; omega)
    have hdN : d < N := by
      by_contra hc
      obtain ⟨j, hj, hj0⟩ := w.exists_empty
      obtain ⟨e, he, rfl⟩ := loc_ex (home hash N k) j hj
      have := hch e (by omega)
      have := probe_pos w k e
      omega
    have hcard : d + 1 ≤ m.num := by
      rw [w.count]
      have hsub : (Finset.range (d + 1)).image (fun j => (home hash N k + j) % N) ⊆ (Finset.range N).filter (fun i => m.info i ≠ 0) := by
        intro x hx
        rw [Finset.mem_image] at hx
        obtain ⟨j, hj, rfl⟩ := hx
        rw [Finset.mem_range] at hj
        rw [Finset.mem_filter, Finset.mem_range]
        refine ⟨Nat.mod_lt _ hN, ?_⟩
        have := hch j (by omega)
        have := probe_pos w k j
        omega
      have := Finset.card_le_card hsub
      rw [Finset.card_image_of_injOn, Finset.card_range] at this
      · exact this
      · intro a ha b hb' hab
        rw [Finset.mem_coe, Finset.mem_range] at ha hb'
        exact loc_inj (by omega) (by omega) hab
    have hbits := w.bits_lt k
    have : (d + 1) * m.inc ≤ m.num * m.inc := Nat.mul_le_mul_right _ hcard
    rw [hb]
    unfold probe
    omega

theorem calm_of {hash : K → BitVec 64} {m m' : Map K V} {N : Nat} (w' : WF hash m' N) (hinc : m'.inc = m.inc)
    (hz : m'.maxAllowed = 0 → m.maxAllowed = 0 ∨ ∃ i < N, m'.info i + m'.inc > 255) (hc : Calm m) (hn : m'.num ≤ 126) : Calm m' := by
  intro h0
  rcases hz h0 with h | ⟨i, hi, h⟩
  · rw [hinc]; exact hc h
  · by_contra hlt
    have h2 : m'.inc = 2 := by have := w'.inc_ge; omega
    have := w'.info_bound hi
    rw [h2] at this h
    omega

theorem initData_spec (hash : K → BitVec 64) {n : Nat} (h : ∃ k, 3 ≤ k ∧ n = 2 ^ k) :
    ((initData n : Except Err (Map K V)) = .error .thrown ∧ ¬ n ≤ allocLimit) ∨
    ∃ m : Map K V, initData n = .ok m ∧ WF hash m n ∧ m.num = 0 ∧ m.maxAllowed = calcMax n ∧ ∀ k v, ¬ Has m n k v := by
  unfold initData
  by_cases hn : n ≤ allocLimit
  · right
    rw [if_pos hn]
    refine ⟨_, rfl, ?_, rfl, rfl, ?_⟩
    · obtain ⟨k, hk, rfl⟩ := h
      have hk' : k ≤ 57 := by
        by_contra hc
        have : (2 : Nat) ^ 58 ≤ 2 ^ k := Nat.pow_le_pow_right (by decide) (by omega)
        unfold allocLimit at hn
        norm_num at hn this
        omega
      have hp : ∃ j, 3 ≤ j ∧ j ≤ 57 ∧ 2 ^ k = 2 ^ j := ⟨k, hk, hk', rfl⟩
      have h8 := N_ge hp
      refine ⟨hp, by dsimp only; omega, ⟨5, by decide, by decide, rfl, rfl⟩, ?_, ?_, ?_, ?_, ?_, ?_, ?_, ?_, ?_, ?_⟩
      · intro i hi; dsimp only; rw [if_neg (by omega)]; omega
      · intro i hi _; rfl
      · intro i hi hz
        dsimp only at hz
        rw [if_neg (by omega)] at hz
        exact absurd rfl hz
      · intro i hi k v hk; cases hk
      · intro i hi
        dsimp only
        have := Nat.mod_lt (i + 1) (show 0 < 2 ^ k by omega)
        rw [if_neg (by omega)]; omega
      · intro i _ j _ k v w hk; cases hk
      · dsimp only
        symm
        rw [Finset.card_eq_zero, Finset.filter_eq_empty_iff]
        intro i hi
        rw [Finset.mem_range] at hi
        rw [if_neg (by omega)]; simp
      · right
        refine ⟨rfl, ?_⟩
        intro i hi
        dsimp only
        rw [if_neg (by omega)]; omega
      · exact Nat.zero_le _
      · dsimp only
        exact ⟨by rw [if_pos rfl], fun i hi => by rw [if_neg (by omega)]⟩
    · rintro k v ⟨i, _, hk⟩
      cases hk
  · left
    rw [if_neg hn]
    exact ⟨rfl, hn⟩

theorem tryIncreaseInfo_spec {hash : K → BitVec 64} {m : Map K V} {N : Nat} (w : WF hash m N) :
    (tryIncreaseInfo m = none ∧ m.inc ≤ 2) ∨
    ∃ m', tryIncreaseInfo m = some m' ∧ WF hash m' N ∧ m'.num = m.num ∧ m'.maxAllowed = calcMax N ∧ ∀ k v, Has m' N k v ↔ Has m N k v := by
  unfold tryIncreaseInfo
  by_cases h : m.inc ≤ 2
  · left; rw [if_pos h]; exact ⟨rfl, h⟩
  · right
    rw [if_neg h]
    have hN := w.pos
    have hdiv : (m.mask + 1) / 8 * 8 = N := by
      rw [w.mask]
      obtain ⟨k, hk, _, rfl⟩ := w.pow
      exact Nat.div_mul_cancel (Nat.pow_dvd_pow 2 hk)
    have hcell : ∀ i < N, (if i < (m.mask + 1) / 8 * 8 then m.info i / 2 else m.info i) = m.info i / 2 := by
      intro i hi
      rw [if_pos (by omega)]
    obtain ⟨b, hb1, hb2, hinc, hshift⟩ := w.incs
    have hb : 2 ≤ b := by
      by_contra hc
      have : b = 1 := by omega
      rw [hinc, this] at h
      omega
    have hhalf : m.inc = 2 * (m.inc / 2) := by
      rw [hinc, show b = (b - 1) + 1 by omega, Nat.pow_succ]
      omega
    have hinc4 : 2 ≤ m.inc / 2 := by
      have : 4 ≤ m.inc := by
        rw [hinc]
        calc 4 = 2 ^ 2 := rfl
          _ ≤ 2 ^ b := Nat.pow_le_pow_right (by decide) hb
      omega
    have hge : ∀ i < N, m.info i ≠ 0 → m.inc ≤ m.info i := by
      intro i hi hne
      obtain ⟨k, x, hk⟩ := w.full i hi hne
      obtain ⟨d, _, hd⟩ := w.place i hi k x hk
      have := probe_ge hash m k d
      have h3 : 1 * m.inc ≤ (d + 1) * m.inc := Nat.mul_le_mul_right _ (by omega)
      omega
    refine ⟨_, rfl, ?_, rfl, by rw [← w.mask], fun k v => Iff.rfl⟩
    refine ⟨w.pow, w.mask, ⟨b - 1, by omega, by omega, ?_, by dsimp only; omega⟩, ?_, ?_, ?_, ?_, ?_, w.uniq, ?_, ?_, w.load, ?_⟩
    · dsimp only
      rw [hinc, show b = (b - 1) + 1 by omega, Nat.pow_succ]
      simp
    · intro i hi
      dsimp only
      rw [hcell i hi]
      have := w.byte i hi
      omega
    · intro i hi hz
      dsimp only at hz ⊢
      rw [hcell i hi] at hz
      apply w.raw i hi
      by_contra hc
      have := hge i hi hc
      omega
    · intro i hi hz
      dsimp only at hz ⊢
      rw [hcell i hi] at hz
      apply w.full i hi
      intro hc
      rw [hc] at hz
      exact hz rfl
    · intro i hi k v hk
      dsimp only
      rw [hcell i hi]
      obtain ⟨d, hd, hi'⟩ := w.place i hi k v hk
      refine ⟨d, hd, ?_⟩
      rw [hi']
      unfold probe bits
      dsimp only
      rw [Nat.pow_succ, ← Nat.div_div_eq_div_mul]
      generalize (hash k).toNat / 2 ^ m.shift = x
      rw [hhalf, show (d + 1) * (2 * (m.inc / 2)) = 2 * ((d + 1) * (m.inc / 2)) by ring,
        show 2 * (m.inc / 2) / 2 = m.inc / 2 by omega]
      omega
    · intro i hi
      dsimp only
      rw [hcell i hi, hcell _ (Nat.mod_lt _ hN)]
      have := w.step i hi
      omega
    · dsimp only
      rw [w.count]
      congr 1
      apply Finset.filter_congr
      intro i hi
      rw [Finset.mem_range] at hi
      rw [hcell i hi]
      constructor
      · intro h' hc
        have := hge i hi h'
        omega
      · intro h' hc
        rw [hc] at h'
        exact h' rfl
    · right
      dsimp only
      refine ⟨by rw [w.mask], ?_⟩
      intro i hi
      rw [hcell i hi]
      have := w.byte i hi
      have := w.inc_le
      omega
    · dsimp only
      rw [if_neg (by omega)]
      refine ⟨w.tail.1, ?_⟩
      intro i hi
      rw [if_neg (by omega)]
      exact w.tail.2 i hi

theorem insertMove_spec {hash : K → BitVec 64} {m : Map K V} {N : Nat} (w : WF hash m N) (key : K) (v : V)
    (habs : ∀ v, ¬ Has m N key v) (hload : m.num < calcMax N) :
    (insertMove hash m key v = .error .thrown ∧ ¬ Calm m) ∨
    ∃ m', insertMove hash m key v = .ok m' ∧ WF hash m' N ∧ m'.num = m.num + 1 ∧ (∀ k x, Has m' N k x ↔ (k = key ∧ x = v) ∨ Has m N k x) ∧
      (m'.num ≤ 126 → Calm m') := by
  -- once there is room in the info
  have main : ∀ m0 : Map K V, WF hash m0 N → m0.maxAllowed ≠ 0 → m0.num = m.num → (∀ k x, Has m0 N k x ↔ Has m N k x) →
      ∃ m', (do
        let s := keyToIdx m0 (hash key)
        let p ← nextWhileLe m0 257 s.2 s.1
        insertAt m0 (p.1 % 256) p.2 key v) = .ok m' ∧ WF hash m' N ∧ m'.num = m.num + 1 ∧ (∀ k x, Has m' N k x ↔ (k = key ∧ x = v) ∨ Has m N k x) ∧
        (m'.num ≤ 126 → Calm m') := by
    intro m0 w0 h0 hnum hhas
    have hinc := w0.inc_ge
    have hall : ∀ i < N, m0.info i + m0.inc ≤ 255 := by
      rcases w0.most with h | ⟨_, h⟩
      · exact absurd h h0
      · exact h
    rw [w0.start]
    dsimp only
    have hh : home hash N key = (home hash N key + 0) % N := (Nat.mod_eq_of_lt (Nat.mod_lt _ w0.pos)).symm
    obtain ⟨J, _, h2, h3, h4⟩ := nextWhileLe_spec w0 key 256 0 (by omega)
    rw [← hh] at h2
    obtain ⟨hb, m', hm', w', hn', _, hhas', hinc', hz'⟩ := insertAt_spec w0 hall key v J (fun i hi => h3 i (Nat.zero_le _) hi) h4
      (fun x hx => habs x ((hhas key x).mp hx)) (by omega)
    refine ⟨m', ?_, w', by omega, fun k x => by rw [hhas', hhas], calm_of w' hinc' hz' (fun h => absurd h h0)⟩
    rw [h2]
    simp only [bind, Except.bind, Nat.mod_eq_of_lt (show probe hash m0 key J < 256 by omega)]
    exact hm'
  unfold insertMove
  by_cases h0 : m.maxAllowed = 0
  · rcases tryIncreaseInfo_spec w with ⟨h, hi⟩ | ⟨m0, h, w0, hn, hm, hh⟩
    · left
      rw [if_pos h0, h]
      refine ⟨rfl, ?_⟩
      intro hc
      have := hc h0
      omega
    · right
      obtain ⟨m', h'⟩ := main m0 w0 (by rw [hm]; have := calcMax_pos w.pow; omega) hn hh
      refine ⟨m', ?_, h'.2⟩
      rw [if_pos h0, h]
      exact h'.1
  · right
    obtain ⟨m', h'⟩ := main m w h0 rfl (fun _ _ => Iff.rfl)
    refine ⟨m', ?_, h'.2⟩
    rw [if_neg h0]
    exact h'.1

theorem moveAll_spec {hash : K → BitVec 64} {old : Map K V} {N M : Nat} (wo : WF hash old N) (hload : old.num ≤ calcMax M) :
    ∀ (n i : Nat) (m : Map K V), i + n = N → WF hash m M → m.num = ((Finset.range i).filter (fun j => old.info j ≠ 0)).card →
      (∀ k x, Has m M k x ↔ ∃ j < i, old.kv j = .full k x) →
      (moveAll hash old n i m = .error .thrown ∧ ¬ (Calm m ∧ old.num ≤ 126)) ∨
      ∃ m', moveAll hash old n i m = .ok m' ∧ WF hash m' M ∧ m'.num = old.num ∧ (∀ k x, Has m' M k x ↔ Has old N k x) ∧
        (Calm m → old.num ≤ 126 → Calm m') := by
  intro n
  induction n with
  | zero =>
    intro i m hi w hc hh
    right
    have : i = N := by omega
    subst this
    refine ⟨m, rfl, w, by rw [hc, wo.count], hh, fun h _ => h⟩
  | succ n ih =>
    intro i m hi w hc hh
    unfold moveAll
    have hiN : i < N := by omega
    by_cases h0 : old.info i ≠ 0
    · obtain ⟨k, v, hk⟩ := wo.full i hiN h0
      have hcard : ((Finset.range (i + 1)).filter (fun j => old.info j ≠ 0)).card = m.num + 1 := by
        rw [Finset.range_add_one, Finset.filter_insert, if_pos h0, Finset.card_insert_of_notMem (by simp), hc]
      have hle : ((Finset.range (i + 1)).filter (fun j => old.info j ≠ 0)).card ≤ old.num := by
        rw [wo.count]
        apply Finset.card_le_card
        apply Finset.filter_subset_filter
        intro j hj
        rw [Finset.mem_range] at *
        omega
      rcases insertMove_spec w k v (by
          intro x hx
          obtain ⟨j, hj, hjk⟩ := (hh k x).mp hx
          have := wo.uniq j (by omega) i hiN k x v hjk hk
          omega) (by omega) with ⟨h, hcalm⟩ | ⟨m', h, w', hn', hh', hcalm⟩
      · left
        rw [if_pos h0, hk]
        dsimp only
        rw [h]
        exact ⟨rfl, fun hc => hcalm hc.1⟩
      · have := ih (i + 1) m' (by omega) w' (by omega) (by
          intro k' x
          rw [hh', hh]
          constructor
          · rintro (⟨rfl, rfl⟩ | ⟨j, hj, hjk⟩)
            · exact ⟨i, by omega, hk⟩
            · exact ⟨j, by omega, hjk⟩
          · rintro ⟨j, hj, hjk⟩
            by_cases hji : j = i
            · left
              rw [hji, hk] at hjk
              cases hjk
              exact ⟨rfl, rfl⟩
            · right
              exact ⟨j, by omega, hjk⟩)
        rw [if_pos h0, hk]
        dsimp only
        rw [h]
        have hc' : old.num ≤ 126 → Calm m' := fun h => hcalm (by omega)
        rcases this with ⟨h1, h2⟩ | ⟨m2, h1, h2, h3, h4, h5⟩
        · exact .inl ⟨h1, fun hc => h2 ⟨hc' hc.2, hc.2⟩⟩
        · exact .inr ⟨m2, h1, h2, h3, h4, fun _ h => h5 (hc' h) h⟩
    · rw [if_neg h0]
      refine ih (i + 1) m (by omega) w ?_ ?_
      · rw [hc, Finset.range_add_one, Finset.filter_insert, if_neg h0]
      · intro k x
        rw [hh]
        constructor
        · rintro ⟨j, hj, hjk⟩
          exact ⟨j, by omega, hjk⟩
        · rintro ⟨j, hj, hjk⟩
          refine ⟨j, ?_, hjk⟩
          by_contra hc'
          have : j = i := by omega
          rw [this] at hjk
          exact h0 (wo.info_pos hiN hjk)

theorem rehash_spec {hash : K → BitVec 64} {m : Map K V} {N M : Nat} (w : WF hash m N) (hM : ∃ k, 3 ≤ k ∧ M = 2 ^ k) (hload : m.num ≤ calcMax M) :
    (rehash hash m M = .error .thrown ∧ ¬ (M ≤ allocLimit ∧ m.num ≤ 126)) ∨
    ∃ m', rehash hash m M = .ok m' ∧ WF hash m' M ∧ m'.num = m.num ∧ (∀ k x, Has m' M k x ↔ Has m N k x) ∧ (m.num ≤ 126 → Calm m') := by
  unfold rehash
  rcases initData_spec (V := V) hash hM with ⟨h, hbig⟩ | ⟨m0, h, w0, hn, hmax, hh⟩
  · left; rw [h]; exact ⟨rfl, fun hc => hbig hc.1⟩
  · rw [h]
    simp only [bind, Except.bind]
    rw [if_pos (by have := N_ge w.pow; have := w.mask; omega), w.mask]
    have hcalm : Calm m0 := by
      intro h
      have := calcMax_pos w0.pow
      omega
    rcases moveAll_spec w hload N 0 m0 (by omega) w0 (by rw [hn]; simp) (by
      intro k x
      constructor
      · intro h; exact absurd h (hh k x)
      · rintro ⟨j, hj, _⟩; omega) with ⟨h1, h2⟩ | ⟨m', h1, h2, h3, h4, h5⟩
    · exact .inl ⟨h1, fun hc => h2 ⟨hcalm, hc.2⟩⟩
    · exact .inr ⟨m', h1, h2, h3, h4, h5 hcalm⟩

/-! ## Maps with and without a table -/

/-- The map has exactly the entries of the specification. -/
def Repr (hash : K → BitVec 64) (m : Map K V) (d : Dict K V) : Prop :=
  (m = {} ∧ d.size = 0 ∧ ∀ k, d.get k = none) ∨
  ∃ N, WF hash m N ∧ m.num = d.size ∧ ∀ k v, Has m N k v ↔ d.get k = some v

theorem Repr.num {hash : K → BitVec 64} {m : Map K V} {d : Dict K V} (h : Repr hash m d) : m.num = d.size := by
  rcases h with ⟨rfl, h, _⟩ | ⟨_, _, h, _⟩
  · rw [h]
  · exact h

theorem Repr.same {hash : K → BitVec 64} {m m' : Map K V} {d : Dict K V} {N N' : Nat} (h : Repr hash m d) (w : WF hash m N)
    (w' : WF hash m' N') (hn : m'.num = m.num) (hh : ∀ k x, Has m' N' k x ↔ Has m N k x) : Repr hash m' d := by
  rcases h with ⟨rfl, _, _⟩ | ⟨N1, w1, h1, h2⟩
  · have := w.mask
    have := N_ge w.pow
    simp at *
    omega
  · have : N1 = N := by rw [← w.mask, ← w1.mask]
    subst this
    exact .inr ⟨N', w', by omega, fun k v => by rw [hh, h2]⟩

/-- The entries do not count keys twice. -/
theorem increaseSize_spec {hash : K → BitVec 64} {m : Map K V} {d : Dict K V} (h : Repr hash m d) :
    (increaseSize hash m = .error .thrown ∧ ¬ (Calm m ∧ d.size ≤ 126 ∧ ¬ m.num < m.maxAllowed)) ∨ ∃ m', increaseSize hash m = .ok m' ∧ Repr hash m' d ∧
      ((0 < m'.maxAllowed ∧ m'.num < m'.maxAllowed) ∨ (m.mask ≠ 0 ∧ m'.mask + 1 = 2 * (m.mask + 1))) ∧ (d.size ≤ 126 → Calm m') := by
  unfold increaseSize
  rcases h with ⟨rfl, h1, h2⟩ | ⟨N, w, h1, h2⟩
  · rw [if_pos rfl]
    rcases initData_spec (V := V) hash (n := 8) ⟨3, by decide, rfl⟩ with ⟨h, hbig⟩ | ⟨m0, h, w0, hn, hm, hh⟩
    · exact absurd (by unfold allocLimit; norm_num) hbig
    · refine .inr ⟨m0, h, .inr ⟨8, w0, by omega, ?_⟩, .inl ?_, fun _ h0 => ?_⟩
      · intro k v
        rw [h2 k]
        simp [hh k v]
      · rw [hn, hm]
        simp [calcMax]
      · have := calcMax_pos w0.pow
        omega
  · have h8 := N_ge w.pow
    have hmk := w.mask
    rw [if_neg (by omega)]
    dsimp only
    have hR : Repr hash m d := .inr ⟨N, w, h1, h2⟩
    have grow : ((if m.num * 2 < calcMax (m.mask + 1) then (.error .thrown : Except Err (Map K V)) else rehash hash m ((m.mask + 1) * 2)) = .error .thrown ∧
          ¬ (m.num ≤ 126 ∧ ¬ m.num < calcMax N)) ∨
        ∃ m', (if m.num * 2 < calcMax (m.mask + 1) then (.error .thrown : Except Err (Map K V)) else rehash hash m ((m.mask + 1) * 2)) = .ok m' ∧
          Repr hash m' d ∧ (m.mask ≠ 0 ∧ m'.mask + 1 = 2 * (m.mask + 1)) ∧ (m.num ≤ 126 → Calm m') := by
      by_cases hlt : m.num * 2 < calcMax (m.mask + 1)
      · left; rw [if_pos hlt]
        rw [w.mask] at hlt
        exact ⟨rfl, by omega⟩
      · rw [if_neg hlt, w.mask]
        have hM : ∃ k, 3 ≤ k ∧ N * 2 = 2 ^ k := by
          obtain ⟨k, h3, _, rfl⟩ := w.pow
          exact ⟨k + 1, by omega, by rw [Nat.pow_succ]⟩
        have hle : m.num ≤ calcMax (N * 2) := by
          have := w.load
          rw [calcMax_small (N_le w.pow)] at this
          have hN := N_le w.pow
          unfold calcMax
          split
          · omega
          · rename_i hc
            have : N * 80 / 100 ≤ N := by omega
            have h100 : N ≤ N * 2 / 100 * 80 := by
              have : (2 ^ 64 - 1) / 100 < N * 2 := by omega
              norm_num at this hN
              omega
            omega
        rcases rehash_spec w hM hle with ⟨h, hbig⟩ | ⟨m', h, w', hn', hh', hcalm⟩
        · refine .inl ⟨h, fun hc => hbig ⟨?_, hc.1⟩⟩
          have := hc.2
          rw [calcMax_small (N_le w.pow)] at this
          unfold allocLimit
          omega
        · refine .inr ⟨m', h, hR.same w w' hn' hh', ?_, hcalm⟩
          have := w'.mask
          constructor <;> omega
    by_cases hlt : m.num < calcMax (m.mask + 1)
    · rw [if_pos hlt]
      rw [w.mask] at hlt
      rcases tryIncreaseInfo_spec w with ⟨h, hinc⟩ | ⟨m0, h, w0, hn, hm, hh⟩
      · rw [h]
        rcases grow with ⟨g, g'⟩ | ⟨m', g, g', g'', gc⟩
        · refine .inl ⟨g, ?_⟩
          rintro ⟨hc, _, hnot⟩
          rcases w.most with h0 | ⟨h0, _⟩
          · have := hc h0
            omega
          · omega
        · exact .inr ⟨m', g, g', .inr g'', by rw [← h1]; exact gc⟩
      · rw [h]
        refine .inr ⟨m0, rfl, hR.same w w0 hn hh, .inl ?_, fun _ h0 => ?_⟩
        · rw [hm, hn]
          omega
        · omega
    · rw [if_neg hlt]
      rw [w.mask] at hlt
      rcases grow with ⟨g, g'⟩ | ⟨m', g, g', g'', gc⟩
      · exact .inl ⟨g, fun hc => g' ⟨by rw [h1]; exact hc.2.1, hlt⟩⟩
      · exact .inr ⟨m', g, g', .inr g'', by rw [← h1]; exact gc⟩

/-- What an insertion gives; `calm` says whether the map was calm before. -/
def Done [DecidableEq K] (hash : K → BitVec 64) (d : Dict K V) (key : K) (v : V) (calm : Prop) (r : Except Err (Map K V × Nat × Bool)) : Prop :=
  (r = .error .thrown ∧ ¬ (calm ∧ (d.set key v).size ≤ 126)) ∨ ∃ m' i b N, r = .ok (m', i, b) ∧ WF hash m' N ∧ i < N ∧ (calm → (d.set key v).size ≤ 126 → Calm m') ∧
    ((b = false ∧ Repr hash m' d ∧ ∃ x, d.get key = some x ∧ m'.kv i = .full key x) ∨
     (b = true ∧ Repr hash m' (d.set key v) ∧ d.get key = none ∧ m'.kv i = .full key v))

/-- One round: the insertion ends, or the map is enlarged. -/
theorem insertKey_round [DecidableEq K] {hash : K → BitVec 64} {m : Map K V} {d : Dict K V} (h : Repr hash m d) (key : K) (v : V) (f : Nat) :
    Done hash d key v (Calm m) (insertKey hash key v (f + 1) m) ∨
    (¬ m.num < m.maxAllowed ∧ insertKey hash key v (f + 1) m = (do let m ← increaseSize hash m; insertKey hash key v f m)) := by
  rcases h with ⟨rfl, h1, h2⟩ | ⟨N, w, h1, h2⟩
  · right
    refine ⟨by simp, ?_⟩
    conv_lhs => unfold insertKey
    have hi : (keyToIdx ({} : Map K V) (hash key)) = (0, 32 + (hash key).toNat >>> 59) := by
      unfold keyToIdx; simp
    rw [hi]
    have hw : nextWhileLess ({} : Map K V) 257 (32 + (hash key).toNat >>> 59) 0 = .ok (32 + (hash key).toNat >>> 59, 0) := by
      unfold nextWhileLess
      rw [if_neg (by dsimp only; omega)]
    have hm : matchLoop ({} : Map K V) key 257 (32 + (hash key).toNat >>> 59) 0 = .ok (.inr (32 + (hash key).toNat >>> 59, 0)) := by
      unfold matchLoop
      rw [if_neg (by dsimp only; omega)]
    dsimp only
    rw [hw]
    simp only [bind, Except.bind]
    rw [hm]
    simp
  · obtain ⟨p, hp, hs⟩ := search_spec w key
    have hR : Repr hash m d := .inr ⟨N, w, h1, h2⟩
    rcases hs with ⟨i, hi, x, hx, hm⟩ | ⟨J, hm, hJ, hJ', habs⟩
    · left
      right
      refine ⟨m, i, false, N, ?_, w, hi, fun h _ => h, .inl ⟨rfl, hR, x, (h2 key x).mp ⟨i, hi, hx⟩, hx⟩⟩
      unfold insertKey
      dsimp only
      rw [hp]
      simp only [bind, Except.bind]
      rw [hm]
    · by_cases hlt : m.num < m.maxAllowed
      · left
        have hall : m.maxAllowed = calcMax N ∧ ∀ i < N, m.info i + m.inc ≤ 255 := by
          rcases w.most with h | h
          · omega
          · exact h
        obtain ⟨_, m', hm', w', hn', hk', hh', hinc', hz'⟩ := insertAt_spec w hall.2 key v J hJ hJ' habs (by omega)
        right
        have hnone : d.get key = none := by
          cases hc : d.get key with
          | none => rfl
          | some x => exact absurd ((h2 key x).mpr hc) (habs x)
        have hsz : m'.num = (d.set key v).size := by
          unfold Dict.set
          simp [hnone]
          omega
        refine ⟨m', _, true, N, ?_, w', Nat.mod_lt _ w.pos, fun h1 h2 => calm_of w' hinc' hz' h1 (by omega), .inr ⟨rfl, .inr ⟨N, w', hsz, ?_⟩, hnone, hk'⟩⟩
        · unfold insertKey
          dsimp only
          rw [hp]
          simp only [bind, Except.bind]
          rw [hm]
          dsimp only
          rw [if_neg (by omega), hm']
        · intro k x
          rw [hh', h2]
          unfold Dict.set
          dsimp only
          by_cases hk : k = key
          · subst hk
            simp [hnone, eq_comm]
          · simp [hk]
      · right
        refine ⟨hlt, ?_⟩
        conv_lhs => unfold insertKey
        dsimp only
        rw [hp]
        simp only [bind, Except.bind]
        rw [hm]
        dsimp only
        rw [if_pos (by omega)]

/-- Enlarging first does not change what an insertion gives. -/
theorem Done.grown [DecidableEq K] {hash : K → BitVec 64} {m m' : Map K V} {d : Dict K V} {key : K} {v : V} {r : Except Err (Map K V × Nat × Bool)}
    (h : d.size ≤ 126 → Calm m') (hd : Done hash d key v (Calm m') r) : Done hash d key v (Calm m) r := by
  have hsz : (d.set key v).size ≤ 126 → d.size ≤ 126 := by
    unfold Dict.set
    dsimp only
    split <;> omega
  rcases hd with ⟨h1, h2⟩ | ⟨m2, i, b, N, h1, h2, h3, h4, h5⟩
  · exact .inl ⟨h1, fun hc => h2 ⟨h (hsz hc.2), hc.2⟩⟩
  · exact .inr ⟨m2, i, b, N, h1, h2, h3, fun _ hs => h4 (h (hsz hs)) hs, h5⟩

theorem Done.failed [DecidableEq K] {hash : K → BitVec 64} {m : Map K V} {d : Dict K V} (key : K) (v : V) (hn : ¬ m.num < m.maxAllowed)
    (h : ¬ (Calm m ∧ d.size ≤ 126 ∧ ¬ m.num < m.maxAllowed)) : Done hash d key v (Calm m) (.error .thrown) := by
  refine .inl ⟨rfl, fun hc => h ⟨hc.1, ?_, hn⟩⟩
  have := hc.2
  unfold Dict.set at this
  dsimp only at this
  split at this <;> omega

theorem insertKey_ready [DecidableEq K] {hash : K → BitVec 64} {m : Map K V} {d : Dict K V} (h : Repr hash m d) (key : K) (v : V) (f : Nat)
    (hlt : m.num < m.maxAllowed) : Done hash d key v (Calm m) (insertKey hash key v (f + 1) m) := by
  rcases insertKey_round h key v f with h | ⟨h, _⟩
  · exact h
  · exact absurd hlt h

theorem insertKey_table [DecidableEq K] {hash : K → BitVec 64} {d : Dict K V} (key : K) (v : V) :
    ∀ (c f : Nat) (m : Map K V), Repr hash m d → m.mask ≠ 0 → 2 ^ 58 ≤ 2 ^ c * (m.mask + 1) →
      Done hash d key v (Calm m) (insertKey hash key v (f + c + 1) m) := by
  intro c
  induction c with
  | zero =>
    intro f m h hm hc
    rcases h with ⟨rfl, _, _⟩ | ⟨N, w, _, _⟩
    · exact absurd rfl hm
    · have := N_le w.pow
      rw [← w.mask] at this
      norm_num at hc this
      omega
  | succ c ih =>
    intro f m h hm hc
    rcases insertKey_round h key v (f + (c + 1)) with hd | ⟨hnl, he⟩
    · exact hd
    · rw [he]
      rcases increaseSize_spec h with ⟨hi, hbad⟩ | ⟨m', hi, hr, hcase, hcalm⟩
      · rw [hi]; exact Done.failed key v hnl hbad
      · rw [hi]
        simp only [bind, Except.bind]
        refine Done.grown hcalm ?_
        rcases hcase with ⟨_, hlt⟩ | ⟨_, hdbl⟩
        · exact insertKey_ready hr key v (f + c) hlt
        · refine ih f m' hr (by omega) ?_
          rw [hdbl]
          rw [Nat.pow_succ] at hc
          rw [← Nat.mul_assoc]
          exact hc

/-- An insertion ends, unless an exception is thrown. -/
theorem insertKey_spec [DecidableEq K] {hash : K → BitVec 64} {m : Map K V} {d : Dict K V} (h : Repr hash m d) (key : K) (v : V) :
    Done hash d key v (Calm m) (insertKey hash key v rounds m) := by
  by_cases hm : m.mask = 0
  · rcases insertKey_round h key v 129 with hd | ⟨hnl, he⟩
    · exact hd
    · show Done hash d key v (Calm m) (insertKey hash key v (129 + 1) m)
      rw [he]
      rcases increaseSize_spec h with ⟨hi, hbad⟩ | ⟨m', hi, hr, hcase, hcalm⟩
      · rw [hi]; exact Done.failed key v hnl hbad
      · rw [hi]
        simp only [bind, Except.bind]
        refine Done.grown hcalm ?_
        rcases hcase with ⟨_, hlt⟩ | ⟨hn, _⟩
        · exact insertKey_ready hr key v 128 hlt
        · exact absurd hm hn
  · refine insertKey_table key v 58 71 m h hm ?_
    have : 1 ≤ m.mask + 1 := by omega
    calc 2 ^ 58 = 2 ^ 58 * 1 := by norm_num
      _ ≤ 2 ^ 58 * (m.mask + 1) := Nat.mul_le_mul_left _ this

end RobinHood
end VecGeom
