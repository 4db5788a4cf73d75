import Verif.RobinHood.Spec
import Mathlib.Data.Nat.ModEq
import Mathlib.Tactic.Ring
import Mathlib.Tactic.IntervalCases
import Mathlib.Tactic.NormNum

/-!
# The invariant of the hash map

Cells are addressed as `(p + e) % N`, the cell `e` steps after `p` on the circle of `N` cells.
-/

namespace VecGeom
namespace RobinHood

variable {K V : Type}

/-- Where the search for a key starts. -/
def home (hash : K → BitVec 64) (N : Nat) (k : K) : Nat := (hash k).toNat % N

/-- The bits of the hash kept in the info. -/
def bits (hash : K → BitVec 64) (m : Map K V) (k : K) : Nat := (hash k).toNat / 2 ^ m.shift

/-- The info with which a key is looked for after `j` steps. -/
def probe (hash : K → BitVec 64) (m : Map K V) (k : K) (j : Nat) : Nat := (j + 1) * m.inc + bits hash m k

/-- The invariant of a table with `N` cells. -/
structure WF (hash : K → BitVec 64) (m : Map K V) (N : Nat) : Prop where
  pow : ∃ k, 3 ≤ k ∧ k ≤ 57 ∧ N = 2 ^ k
  mask : m.mask + 1 = N
  incs : ∃ b, 1 ≤ b ∧ b ≤ 5 ∧ m.inc = 2 ^ b ∧ m.shift = 64 - b
  byte : ∀ i < N, m.info i ≤ 255
  raw : ∀ i < N, m.info i = 0 → m.kv i = .raw
  full : ∀ i < N, m.info i ≠ 0 → ∃ k v, m.kv i = .full k v
  place : ∀ i < N, ∀ k v, m.kv i = .full k v → ∃ d, i = (home hash N k + d) % N ∧ m.info i = probe hash m k d
  step : ∀ i < N, m.info ((i + 1) % N) ≤ max (m.info i + m.inc) (2 * m.inc - 1)
  uniq : ∀ i < N, ∀ j < N, ∀ k v w, m.kv i = .full k v → m.kv j = .full k w → i = j
  count : m.num = ((Finset.range N).filter (fun i => m.info i ≠ 0)).card
  most : m.maxAllowed = 0 ∨ (m.maxAllowed = calcMax N ∧ ∀ i < N, m.info i + m.inc ≤ 255)
  load : m.num ≤ calcMax N
  tail : m.info N = 1 ∧ ∀ i, N < i → m.info i = 0

/-- There is an entry with this key and value. -/
def Has (m : Map K V) (N : Nat) (k : K) (v : V) : Prop := ∃ i < N, m.kv i = .full k v

/-! ## Arithmetic -/

theorem and_mask {m : Map K V} {N : Nat} (hp : ∃ k, 3 ≤ k ∧ k ≤ 57 ∧ N = 2 ^ k) (hm : m.mask + 1 = N) (i : Nat) :
    i &&& m.mask = i % N := by
  obtain ⟨k, _, _, rfl⟩ := hp
  have : m.mask = 2 ^ k - 1 := by omega
  rw [this, Nat.and_two_pow_sub_one_eq_mod]

theorem N_ge {N : Nat} (hp : ∃ k, 3 ≤ k ∧ k ≤ 57 ∧ N = 2 ^ k) : 8 ≤ N := by
  obtain ⟨k, h, _, rfl⟩ := hp
  calc 8 = 2 ^ 3 := rfl
    _ ≤ 2 ^ k := Nat.pow_le_pow_right (by decide) h

theorem N_le {N : Nat} (hp : ∃ k, 3 ≤ k ∧ k ≤ 57 ∧ N = 2 ^ k) : N ≤ 2 ^ 57 := by
  obtain ⟨k, _, h, rfl⟩ := hp
  exact Nat.pow_le_pow_right (by decide) h

theorem N_dvd {N : Nat} (hp : ∃ k, 3 ≤ k ∧ k ≤ 57 ∧ N = 2 ^ k) : N ∣ 2 ^ 64 := by
  obtain ⟨k, _, h, rfl⟩ := hp
  exact Nat.pow_dvd_pow 2 (by omega)

theorem calcMax_small {n : Nat} (h : n ≤ 2 ^ 57) : calcMax n = n * 80 / 100 := by
  unfold calcMax
  rw [if_pos]
  have : (2 : Nat) ^ 57 ≤ (2 ^ 64 - 1) / 100 := by norm_num
  omega

theorem calcMax_lt {N : Nat} (hp : ∃ k, 3 ≤ k ∧ k ≤ 57 ∧ N = 2 ^ k) : calcMax N < N := by
  rw [calcMax_small (N_le hp)]
  have := N_ge hp
  omega

theorem calcMax_pos {N : Nat} (hp : ∃ k, 3 ≤ k ∧ k ≤ 57 ∧ N = 2 ^ k) : 0 < calcMax N := by
  rw [calcMax_small (N_le hp)]
  have := N_ge hp
  omega

theorem succ_loc (p e N : Nat) : ((p + e) % N + 1) % N = (p + (e + 1)) % N := by
  rw [Nat.mod_add_mod, Nat.add_assoc]

theorem loc_inj {p N e e' : Nat} (he : e < N) (he' : e' < N) (h : (p + e) % N = (p + e') % N) : e = e' := by
  have h' : e ≡ e' [MOD N] := Nat.ModEq.add_left_cancel' p h
  rwa [Nat.ModEq, Nat.mod_eq_of_lt he, Nat.mod_eq_of_lt he'] at h'

theorem loc_ex {N : Nat} (p i : Nat) (hi : i < N) : ∃ e < N, i = (p + e) % N := by
  refine ⟨(i + (N - p % N)) % N, Nat.mod_lt _ (by omega), ?_⟩
  rw [Nat.add_mod_mod]
  have hp : p % N < N := Nat.mod_lt _ (by omega)
  have h1 : p = N * (p / N) + p % N := (Nat.div_add_mod p N).symm
  have h2 : p + (i + (N - p % N)) = i + N * (p / N + 1) := by
    rw [Nat.mul_add]; omega
  rw [h2, Nat.add_mul_mod_self_left, Nat.mod_eq_of_lt hi]

theorem prev_loc {N : Nat} (hp : ∃ k, 3 ≤ k ∧ k ≤ 57 ∧ N = 2 ^ k) {m : Map K V} (hm : m.mask + 1 = N) (p e : Nat) :
    ((p + (e + 1)) % N + (2 ^ 64 - 1)) % 2 ^ 64 &&& m.mask = (p + e) % N := by
  rw [and_mask hp hm, Nat.mod_mod_of_dvd _ (N_dvd hp), Nat.mod_add_mod]
  have : p + (e + 1) + (2 ^ 64 - 1) = p + e + 2 ^ 64 := by omega
  obtain ⟨c, hc⟩ := N_dvd hp
  rw [this, hc, Nat.add_mul_mod_self_left]

theorem put_loc {β : Type} (f : Nat → β) {p N e e' : Nat} (b : β) (he : e < N) (he' : e' < N) :
    put f ((p + e) % N) b ((p + e') % N) = if e' = e then b else f ((p + e') % N) := by
  unfold put
  by_cases h : e' = e
  · rw [h, if_pos rfl, if_pos rfl]
  · rw [if_neg h, if_neg (fun c => h (loc_inj he' he c))]

theorem put_out {β : Type} (f : Nat → β) {p N e j : Nat} (b : β) (hN : 0 < N) (hj : N ≤ j) :
    put f ((p + e) % N) b j = f j := by
  unfold put
  rw [if_neg]
  have := Nat.mod_lt (p + e) hN
  omega

/-! ## Chains -/

theorem WF.pos {hash : K → BitVec 64} {m : Map K V} {N : Nat} (w : WF hash m N) : 0 < N := by
  have := N_ge w.pow; omega

theorem WF.inc_ge {hash : K → BitVec 64} {m : Map K V} {N : Nat} (w : WF hash m N) : 2 ≤ m.inc := by
  obtain ⟨b, h1, _, h, _⟩ := w.incs
  rw [h]
  calc 2 = 2 ^ 1 := rfl
    _ ≤ 2 ^ b := Nat.pow_le_pow_right (by decide) h1

theorem WF.inc_le {hash : K → BitVec 64} {m : Map K V} {N : Nat} (w : WF hash m N) : m.inc ≤ 32 := by
  obtain ⟨b, _, h1, h, _⟩ := w.incs
  rw [h]
  calc 2 ^ b ≤ 2 ^ 5 := Nat.pow_le_pow_right (by decide) h1
    _ = 32 := rfl

theorem bits_lt {hash : K → BitVec 64} {m : Map K V} (h : ∃ b, 1 ≤ b ∧ b ≤ 5 ∧ m.inc = 2 ^ b ∧ m.shift = 64 - b) (k : K) :
    bits hash m k < m.inc := by
  obtain ⟨b, _, _, hi, hs⟩ := h
  unfold bits
  rw [hi, hs, Nat.div_lt_iff_lt_mul (by positivity), ← Nat.pow_add]
  have : b + (64 - b) = 64 := by omega
  rw [this]
  exact (hash k).isLt

theorem WF.bits_lt {hash : K → BitVec 64} {m : Map K V} {N : Nat} (w : WF hash m N) (k : K) : bits hash m k < m.inc :=
  RobinHood.bits_lt w.incs k

theorem probe_succ (hash : K → BitVec 64) (m : Map K V) (k : K) (j : Nat) : probe hash m k (j + 1) = probe hash m k j + m.inc := by
  unfold probe; ring

theorem probe_ge (hash : K → BitVec 64) (m : Map K V) (k : K) (j : Nat) : (j + 1) * m.inc ≤ probe hash m k j := by
  unfold probe; omega

theorem WF.step' {hash : K → BitVec 64} {m : Map K V} {N : Nat} (w : WF hash m N) (p e : Nat) :
    m.info ((p + (e + 1)) % N) ≤ max (m.info ((p + e) % N) + m.inc) (2 * m.inc - 1) := by
  have h := w.step ((p + e) % N) (Nat.mod_lt _ w.pos)
  rwa [succ_loc] at h

/-- Where a probe is not above the info, it is not above it at any step before. -/
theorem WF.chain {hash : K → BitVec 64} {m : Map K V} {N : Nat} (w : WF hash m N) (k : K) (p : Nat) :
    ∀ d, probe hash m k d ≤ m.info ((p + d) % N) → ∀ j ≤ d, probe hash m k j ≤ m.info ((p + j) % N)
  | 0, h, j, hj => by
    have : j = 0 := by omega
    rw [this]; exact h
  | d + 1, h, j, hj => by
    rcases Nat.lt_or_ge j (d + 1) with h' | h'
    · refine w.chain k p d ?_ j (by omega)
      have hs := w.step' p d
      have h2 := probe_ge hash m k (d + 1)
      have h3 : 2 * m.inc ≤ (d + 1 + 1) * m.inc := Nat.mul_le_mul_right _ (by omega)
      rw [probe_succ] at h h2
      have := w.inc_ge
      omega
    · have : j = d + 1 := by omega
      rw [this]; exact h

/-- Some cell is empty. -/
theorem WF.exists_empty {hash : K → BitVec 64} {m : Map K V} {N : Nat} (w : WF hash m N) : ∃ i < N, m.info i = 0 := by
  by_contra hc
  have : (Finset.range N).filter (fun i => m.info i ≠ 0) = Finset.range N := by
    apply Finset.filter_true_of_mem
    intro i hi h0
    exact hc ⟨i, Finset.mem_range.mp hi, h0⟩
  have h := w.count
  rw [this, Finset.card_range] at h
  have := w.load
  have := calcMax_lt w.pow
  omega

/-- The first empty cell from a place on. -/
theorem WF.first_empty {hash : K → BitVec 64} {m : Map K V} {N : Nat} (w : WF hash m N) (p : Nat) :
    ∃ D < N, m.info ((p + D) % N) = 0 ∧ ∀ e < D, m.info ((p + e) % N) ≠ 0 := by
  obtain ⟨i, hi, h0⟩ := w.exists_empty
  obtain ⟨e, he, rfl⟩ := loc_ex p i hi
  have hex : ∃ e, m.info ((p + e) % N) = 0 := ⟨e, h0⟩
  refine ⟨Nat.find hex, lt_of_le_of_lt (Nat.find_min' hex h0) he, Nat.find_spec hex, ?_⟩
  intro e' h'
  exact Nat.find_min hex h'

theorem WF.next {hash : K → BitVec 64} {m : Map K V} {N : Nat} (w : WF hash m N) (i : Nat) : nextIdx m i = (i + 1) % N :=
  and_mask w.pow w.mask _

theorem WF.start {hash : K → BitVec 64} {m : Map K V} {N : Nat} (w : WF hash m N) (k : K) :
    keyToIdx m (hash k) = (home hash N k, probe hash m k 0) := by
  unfold keyToIdx home probe bits
  rw [and_mask w.pow w.mask, Nat.shiftRight_eq_div_pow]
  simp

/-! ## Searching -/

theorem nextWhileLess_spec {hash : K → BitVec 64} {m : Map K V} {N : Nat} (w : WF hash m N) (k : K) :
    ∀ (f j : Nat), 255 < f * m.inc + probe hash m k j →
      ∃ J, j ≤ J ∧ nextWhileLess m (f + 1) (probe hash m k j) ((home hash N k + j) % N) = .ok (probe hash m k J, (home hash N k + J) % N) ∧
        (∀ i, j ≤ i → i < J → probe hash m k i < m.info ((home hash N k + i) % N)) ∧
        m.info ((home hash N k + J) % N) ≤ probe hash m k J := by
  intro f
  induction f with
  | zero =>
    intro j h
    refine ⟨j, le_refl _, ?_, fun i h1 h2 => by omega, ?_⟩
    · unfold nextWhileLess
      rw [if_neg]
      have := w.byte ((home hash N k + j) % N) (Nat.mod_lt _ w.pos)
      omega
    · have := w.byte ((home hash N k + j) % N) (Nat.mod_lt _ w.pos)
      omega
  | succ f ih =>
    intro j h
    by_cases hl : probe hash m k j < m.info ((home hash N k + j) % N)
    · obtain ⟨J, h1, h2, h3, h4⟩ := ih (j + 1) (by rw [probe_succ]; rw [Nat.add_mul] at h; omega)
      refine ⟨J, by omega, ?_, ?_, h4⟩
      · unfold nextWhileLess
        rw [if_pos hl, w.next, succ_loc, ← probe_succ]
        exact h2
      · intro i hi hJ
        rcases Nat.eq_or_lt_of_le hi with h' | h'
        · rw [← h']; exact hl
        · exact h3 i h' hJ
    · refine ⟨j, le_refl _, ?_, fun i h1 h2 => by omega, by omega⟩
      unfold nextWhileLess
      rw [if_neg hl]

theorem nextWhileLe_spec {hash : K → BitVec 64} {m : Map K V} {N : Nat} (w : WF hash m N) (k : K) :
    ∀ (f j : Nat), 255 < f * m.inc + probe hash m k j →
      ∃ J, j ≤ J ∧ nextWhileLe m (f + 1) (probe hash m k j) ((home hash N k + j) % N) = .ok (probe hash m k J, (home hash N k + J) % N) ∧
        (∀ i, j ≤ i → i < J → probe hash m k i ≤ m.info ((home hash N k + i) % N)) ∧
        m.info ((home hash N k + J) % N) < probe hash m k J := by
  intro f
  induction f with
  | zero =>
    intro j h
    have := w.byte ((home hash N k + j) % N) (Nat.mod_lt _ w.pos)
    refine ⟨j, le_refl _, ?_, fun i h1 h2 => by omega, by omega⟩
    unfold nextWhileLe
    rw [if_neg (by omega)]
  | succ f ih =>
    intro j h
    by_cases hl : probe hash m k j ≤ m.info ((home hash N k + j) % N)
    · obtain ⟨J, h1, h2, h3, h4⟩ := ih (j + 1) (by rw [probe_succ]; rw [Nat.add_mul] at h; omega)
      refine ⟨J, by omega, ?_, ?_, h4⟩
      · unfold nextWhileLe
        rw [if_pos hl, w.next, succ_loc, ← probe_succ]
        exact h2
      · intro i hi hJ
        rcases Nat.eq_or_lt_of_le hi with h' | h'
        · rw [← h']; exact hl
        · exact h3 i h' hJ
    · refine ⟨j, le_refl _, ?_, fun i h1 h2 => by omega, by omega⟩
      unfold nextWhileLe
      rw [if_neg hl]

theorem WF.info_pos {hash : K → BitVec 64} {m : Map K V} {N : Nat} (w : WF hash m N) {i : Nat} (hi : i < N) {k : K} {v : V}
    (h : m.kv i = .full k v) : m.info i ≠ 0 := by
  intro h0
  rw [w.raw i hi h0] at h
  cases h

theorem WF.keyAt_eq [DecidableEq K] {hash : K → BitVec 64} {m : Map K V} {N : Nat} (w : WF hash m N) {i : Nat} (hi : i < N)
    (h : m.info i ≠ 0) (key : K) : ∃ k v, m.kv i = .full k v ∧ keyAt m key i = .ok (decide (key = k)) := by
  obtain ⟨k, v, hk⟩ := w.full i hi h
  refine ⟨k, v, hk, ?_⟩
  unfold keyAt
  rw [hk]

theorem matchLoop_spec [DecidableEq K] {hash : K → BitVec 64} {m : Map K V} {N : Nat} (w : WF hash m N) (k : K) :
    ∀ (f j : Nat), 255 < f * m.inc + probe hash m k j → m.info ((home hash N k + j) % N) ≤ probe hash m k j →
      (∃ i, j ≤ i ∧ (∃ v, m.kv ((home hash N k + i) % N) = .full k v) ∧
        matchLoop m k (f + 1) (probe hash m k j) ((home hash N k + j) % N) = .ok (.inl ((home hash N k + i) % N))) ∨
      (∃ J, j ≤ J ∧ matchLoop m k (f + 1) (probe hash m k j) ((home hash N k + j) % N) = .ok (.inr (probe hash m k J, (home hash N k + J) % N)) ∧
        (∀ i, j ≤ i → i < J → probe hash m k i ≤ m.info ((home hash N k + i) % N) ∧ ∀ v, m.kv ((home hash N k + i) % N) ≠ .full k v) ∧
        m.info ((home hash N k + J) % N) < probe hash m k J) := by
  intro f
  induction f with
  | zero =>
    intro j h _
    have := w.byte ((home hash N k + j) % N) (Nat.mod_lt _ w.pos)
    right
    refine ⟨j, le_refl _, ?_, fun i h1 h2 => by omega, by omega⟩
    unfold matchLoop
    rw [if_neg (by omega)]
  | succ f ih =>
    intro j h hle
    by_cases hl : probe hash m k j = m.info ((home hash N k + j) % N)
    · have hp : 0 < probe hash m k j := by
        have := probe_ge hash m k j
        have h3 : 1 * m.inc ≤ (j + 1) * m.inc := Nat.mul_le_mul_right _ (by omega)
        have := w.inc_ge
        omega
      obtain ⟨k', v, hk, hke⟩ := w.keyAt_eq (Nat.mod_lt _ w.pos) (show m.info ((home hash N k + j) % N) ≠ 0 by omega) k
      by_cases he : k = k'
      · left
        refine ⟨j, le_refl _, ⟨v, by rw [hk, he]⟩, ?_⟩
        unfold matchLoop
        rw [if_pos hl, hke]
        simp [he, bind, Except.bind]
      · have hs := w.step' (home hash N k) j
        have h2 := probe_ge hash m k (j + 1)
        have h3 : 2 * m.inc ≤ (j + 1 + 1) * m.inc := Nat.mul_le_mul_right _ (by omega)
        have h4 := probe_succ hash m k j
        have h5 := w.inc_ge
        have hstep : matchLoop m k (f + 1 + 1) (probe hash m k j) ((home hash N k + j) % N)
            = matchLoop m k (f + 1) (probe hash m k (j + 1)) ((home hash N k + (j + 1)) % N) := by
          conv_lhs => unfold matchLoop
          rw [if_pos hl, hke, w.next, succ_loc, ← probe_succ]
          simp [he, bind, Except.bind]
        rcases ih (j + 1) (by rw [probe_succ]; rw [Nat.add_mul] at h; omega) (by omega) with ⟨i, h1, hv, hm⟩ | ⟨J, h1, hm, hb, hJ⟩
        · left
          exact ⟨i, by omega, hv, by rw [hstep]; exact hm⟩
        · right
          refine ⟨J, by omega, by rw [hstep]; exact hm, ?_, hJ⟩
          intro i hi hiJ
          rcases Nat.eq_or_lt_of_le hi with h' | h'
          · rw [← h']
            refine ⟨by omega, ?_⟩
            intro v' hv'
            rw [hk] at hv'
            cases hv'
            exact he rfl
          · exact hb i h' hiJ
    · right
      refine ⟨j, le_refl _, ?_, fun i h1 h2 => by omega, by omega⟩
      unfold matchLoop
      rw [if_neg hl]

/-- An entry of the key lies where the search looks for it. -/
theorem WF.found {hash : K → BitVec 64} {m : Map K V} {N : Nat} (w : WF hash m N) {k : K} {v : V} (h : Has m N k v) :
    ∃ d, m.kv ((home hash N k + d) % N) = .full k v ∧ m.info ((home hash N k + d) % N) = probe hash m k d ∧
      ∀ j ≤ d, probe hash m k j ≤ m.info ((home hash N k + j) % N) := by
  obtain ⟨i, hi, hk⟩ := h
  obtain ⟨d, hd, hb⟩ := w.place i hi k v hk
  rw [hd] at hk hb
  exact ⟨d, hk, hb, w.chain k _ d (by omega)⟩

/-- The search of an insertion: it finds the key, or a place for it if the key is not there. -/
theorem search_spec [DecidableEq K] {hash : K → BitVec 64} {m : Map K V} {N : Nat} (w : WF hash m N) (k : K) :
    ∃ p, nextWhileLess m 257 (keyToIdx m (hash k)).2 (keyToIdx m (hash k)).1 = .ok p ∧
      ((∃ i < N, ∃ v, m.kv i = .full k v ∧ matchLoop m k 257 p.1 p.2 = .ok (.inl i)) ∨
       (∃ J, matchLoop m k 257 p.1 p.2 = .ok (.inr (probe hash m k J, (home hash N k + J) % N)) ∧
         (∀ i < J, probe hash m k i ≤ m.info ((home hash N k + i) % N)) ∧
         m.info ((home hash N k + J) % N) < probe hash m k J ∧ ∀ v, ¬ Has m N k v)) := by
  have hinc := w.inc_ge
  rw [w.start]
  dsimp only
  have hh : home hash N k = (home hash N k + 0) % N := (Nat.mod_eq_of_lt (Nat.mod_lt _ w.pos)).symm
  obtain ⟨J1, _, h2, h3, h4⟩ := nextWhileLess_spec w k 256 0 (by omega)
  rw [← hh] at h2
  refine ⟨_, h2, ?_⟩
  dsimp only
  rcases matchLoop_spec w k 256 J1 (by omega) h4 with ⟨i, _, ⟨v, hv⟩, hm⟩ | ⟨J, h1, hm, hb, hJ⟩
  · left
    exact ⟨_, Nat.mod_lt _ w.pos, v, hv, hm⟩
  · right
    refine ⟨J, hm, ?_, hJ, ?_⟩
    · intro i hi
      rcases Nat.lt_or_ge i J1 with h' | h'
      · exact le_of_lt (h3 i (by omega) h')
      · exact (hb i h' hi).1
    · intro v hv
      obtain ⟨d, hk, hd, hc⟩ := w.found hv
      rcases Nat.lt_or_ge d J with h' | h'
      · rcases Nat.lt_or_ge d J1 with h'' | h''
        · have := h3 d (by omega) h''
          omega
        · exact (hb d h'' h').2 v hk
      · have := hc J h'
        omega

theorem WF.hit_eq [DecidableEq K] {hash : K → BitVec 64} {m : Map K V} {N : Nat} (w : WF hash m N) (key : K) {info i : Nat} (hi : i < N)
    (h0 : info ≠ 0) :
    ∃ b, hit m key info i = .ok b ∧ (b = true → ∃ v, m.kv i = .full key v) ∧
      (b = false → m.info i = info → ∀ v, m.kv i ≠ .full key v) := by
  unfold hit
  by_cases h : info = m.info i
  · obtain ⟨k, v, hk, he⟩ := w.keyAt_eq hi (show m.info i ≠ 0 by omega) key
    rw [if_pos h, he]
    refine ⟨_, rfl, ?_, ?_⟩
    · intro hd
      exact ⟨v, by rw [hk, of_decide_eq_true hd]⟩
    · intro hd _ v' hv'
      rw [hk] at hv'
      cases hv'
      simp at hd
  · rw [if_neg h]
    refine ⟨false, rfl, ?_, ?_⟩
    · intro h
      cases h
    · intro _ h'
      exact absurd h'.symm h

theorem probe_pos {hash : K → BitVec 64} {m : Map K V} {N : Nat} (w : WF hash m N) (k : K) (j : Nat) : probe hash m k j ≠ 0 := by
  have := probe_ge hash m k j
  have h3 : 1 * m.inc ≤ (j + 1) * m.inc := Nat.mul_le_mul_right _ (by omega)
  have := w.inc_ge
  omega

/-- The result of a search from step `j` on. -/
def Result (hash : K → BitVec 64) (m : Map K V) (N : Nat) (key : K) (j : Nat) (r : Except Err (Option Nat)) : Prop :=
  (∃ i < N, ∃ v, m.kv i = .full key v ∧ r = .ok (some i)) ∨
  (r = .ok none ∧ ∀ d ≥ j, m.info ((home hash N key + d) % N) = probe hash m key d → ∀ v, m.kv ((home hash N key + d) % N) ≠ .full key v)

theorem eraseLoop_spec [DecidableEq K] {hash : K → BitVec 64} {m : Map K V} {N : Nat} (w : WF hash m N) (k : K) :
    ∀ (f j : Nat), 255 < f * m.inc + probe hash m k j →
      Result hash m N k j (eraseLoop m k (f + 1) (probe hash m k j) ((home hash N k + j) % N)) := by
  intro f
  induction f with
  | zero =>
    intro j h
    obtain ⟨b, hb, ht, hf⟩ := w.hit_eq k (Nat.mod_lt (home hash N k + j) w.pos) (probe_pos w k j)
    unfold eraseLoop
    rw [hb]
    cases b with
    | true =>
      obtain ⟨v, hv⟩ := ht rfl
      left
      exact ⟨_, Nat.mod_lt _ w.pos, v, hv, rfl⟩
    | false =>
      right
      have hs := w.byte ((home hash N k + (j + 1)) % N) (Nat.mod_lt _ w.pos)
      have hn : ¬ probe hash m k (j + 1) ≤ m.info ((home hash N k + (j + 1)) % N) := by rw [probe_succ]; omega
      refine ⟨?_, ?_⟩
      · rw [w.next, succ_loc, ← probe_succ]
        simp [bind, Except.bind, hn]
      · intro d hd he v hv
        rcases Nat.eq_or_lt_of_le hd with h' | h'
        · rw [← h'] at he hv
          exact hf rfl he v hv
        · exact hn (w.chain k _ d (by omega) (j + 1) h')
  | succ f ih =>
    intro j h
    obtain ⟨b, hb, ht, hf⟩ := w.hit_eq k (Nat.mod_lt (home hash N k + j) w.pos) (probe_pos w k j)
    unfold eraseLoop
    rw [hb]
    cases b with
    | true =>
      obtain ⟨v, hv⟩ := ht rfl
      left
      exact ⟨_, Nat.mod_lt _ w.pos, v, hv, rfl⟩
    | false =>
      rw [w.next, succ_loc, ← probe_succ]
      by_cases hn : probe hash m k (j + 1) ≤ m.info ((home hash N k + (j + 1)) % N)
      · have := ih (j + 1) (by rw [probe_succ]; rw [Nat.add_mul] at h; omega)
        simp only [bind, Except.bind, Bool.false_eq_true, if_false, if_pos hn]
        rcases this with ⟨i, hi, v, hv, hr⟩ | ⟨hr, hno⟩
        · left
          exact ⟨i, hi, v, hv, hr⟩
        · right
          refine ⟨hr, ?_⟩
          intro d hd he v hv
          rcases Nat.eq_or_lt_of_le hd with h' | h'
          · rw [← h'] at he hv
            exact hf rfl he v hv
          · exact hno d h' he v hv
      · right
        refine ⟨?_, ?_⟩
        · simp [bind, Except.bind, hn]
        · intro d hd he v hv
          rcases Nat.eq_or_lt_of_le hd with h' | h'
          · rw [← h'] at he hv
            exact hf rfl he v hv
          · exact hn (w.chain k _ d (by omega) (j + 1) h')

theorem findLoop_spec [DecidableEq K] {hash : K → BitVec 64} {m : Map K V} {N : Nat} (w : WF hash m N) (k : K) :
    ∀ (f j : Nat), 255 < f * m.inc + probe hash m k j →
      Result hash m N k j (findLoop m k (f + 1) (probe hash m k j) ((home hash N k + j) % N)) := by
  intro f
  induction f with
  | zero =>
    intro j h
    obtain ⟨b, hb, ht, hf⟩ := w.hit_eq k (Nat.mod_lt (home hash N k + j) w.pos) (probe_pos w k j)
    obtain ⟨b', hb', ht', hf'⟩ := w.hit_eq k (Nat.mod_lt (home hash N k + (j + 1)) w.pos) (probe_pos w k (j + 1))
    unfold findLoop
    rw [hb]
    cases b with
    | true =>
      obtain ⟨v, hv⟩ := ht rfl
      left
      exact ⟨_, Nat.mod_lt _ w.pos, v, hv, rfl⟩
    | false =>
      simp only [w.next, succ_loc, ← probe_succ, hb', bind, Except.bind, Bool.false_eq_true, if_false]
      cases b' with
      | true =>
        obtain ⟨v, hv⟩ := ht' rfl
        left
        exact ⟨_, Nat.mod_lt _ w.pos, v, hv, rfl⟩
      | false =>
        right
        have hs := w.byte ((home hash N k + (j + 2)) % N) (Nat.mod_lt _ w.pos)
        have hn : ¬ probe hash m k (j + 2) ≤ m.info ((home hash N k + (j + 2)) % N) := by rw [probe_succ, probe_succ]; omega
        refine ⟨?_, ?_⟩
        · simp [bind, Except.bind, hn]
        · intro d hd he v hv
          rcases Nat.lt_or_ge d (j + 2) with h' | h'
          · rcases Nat.eq_or_lt_of_le hd with h'' | h''
            · rw [← h''] at he hv
              exact hf rfl he v hv
            · have : d = j + 1 := by omega
              rw [this] at he hv
              exact hf' rfl he v hv
          · exact hn (w.chain k _ d (by omega) (j + 2) h')
  | succ f ih =>
    intro j h
    obtain ⟨b, hb, ht, hf⟩ := w.hit_eq k (Nat.mod_lt (home hash N k + j) w.pos) (probe_pos w k j)
    obtain ⟨b', hb', ht', hf'⟩ := w.hit_eq k (Nat.mod_lt (home hash N k + (j + 1)) w.pos) (probe_pos w k (j + 1))
    unfold findLoop
    rw [hb]
    cases b with
    | true =>
      obtain ⟨v, hv⟩ := ht rfl
      left
      exact ⟨_, Nat.mod_lt _ w.pos, v, hv, rfl⟩
    | false =>
      simp only [w.next, succ_loc, ← probe_succ, hb', bind, Except.bind, Bool.false_eq_true, if_false]
      cases b' with
      | true =>
        obtain ⟨v, hv⟩ := ht' rfl
        left
        exact ⟨_, Nat.mod_lt _ w.pos, v, hv, rfl⟩
      | false =>
        have two : ∀ d, j ≤ d → d < j + 2 → m.info ((home hash N k + d) % N) = probe hash m k d → ∀ v, m.kv ((home hash N k + d) % N) ≠ .full k v := by
          intro d hd h' he v hv
          rcases Nat.eq_or_lt_of_le hd with h'' | h''
          · rw [← h''] at he hv
            exact hf rfl he v hv
          · have : d = j + 1 := by omega
            rw [this] at he hv
            exact hf' rfl he v hv
        by_cases hn : probe hash m k (j + 2) ≤ m.info ((home hash N k + (j + 2)) % N)
        · have := ih (j + 2) (by rw [probe_succ, probe_succ]; rw [Nat.add_mul] at h; omega)
          simp only [bind, Except.bind, Bool.false_eq_true, if_false, if_pos hn]
          rcases this with ⟨i, hi, v, hv, hr⟩ | ⟨hr, hno⟩
          · left
            exact ⟨i, hi, v, hv, hr⟩
          · right
            refine ⟨hr, ?_⟩
            intro d hd he v hv
            rcases Nat.lt_or_ge d (j + 2) with h' | h'
            · exact two d hd h' he v hv
            · exact hno d h' he v hv
        · right
          refine ⟨?_, ?_⟩
          · simp [bind, Except.bind, hn]
          · intro d hd he v hv
            rcases Nat.lt_or_ge d (j + 2) with h' | h'
            · exact two d hd h' he v hv
            · exact hn (w.chain k _ d (by omega) (j + 2) h')

theorem Result.none {hash : K → BitVec 64} {m : Map K V} {N : Nat} (w : WF hash m N) {key : K} {r : Except Err (Option Nat)}
    (h : Result hash m N key 0 r) :
    (∃ i < N, ∃ v, m.kv i = .full key v ∧ r = .ok (some i)) ∨ (r = .ok none ∧ ∀ v, ¬ Has m N key v) := by
  rcases h with h | ⟨h, hn⟩
  · exact .inl h
  · refine .inr ⟨h, ?_⟩
    intro v hv
    obtain ⟨d, hk, hd, _⟩ := w.found hv
    exact hn d (Nat.zero_le _) hd v hk

end RobinHood
end VecGeom
