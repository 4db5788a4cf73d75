import Verif.RobinHood.Grow
import Mathlib.Data.Finset.Dedup

/-!
# The operations on a map
-/

namespace VecGeom
namespace RobinHood

variable {K V : Type}

theorem repr_empty (hash : K → BitVec 64) : Repr hash ({} : Map K V) Dict.empty := .inl ⟨rfl, rfl, fun _ => rfl⟩

theorem Has.unique {hash : K → BitVec 64} {m : Map K V} {N : Nat} (w : WF hash m N) {k : K} {x y : V} (hx : Has m N k x) (hy : Has m N k y) : x = y := by
  obtain ⟨i, hi, h1⟩ := hx
  obtain ⟨j, hj, h2⟩ := hy
  have := w.uniq i hi j hj k x y h1 h2
  rw [this, h2] at h1
  cases h1
  rfl

theorem Repr.get {hash : K → BitVec 64} {m : Map K V} {d : Dict K V} {N : Nat} (h : Repr hash m d) (w : WF hash m N) :
    m.num = d.size ∧ ∀ k v, Has m N k v ↔ d.get k = some v := by
  rcases h with ⟨rfl, _, _⟩ | ⟨N1, w1, h1, h2⟩
  · have := w.mask
    have := N_ge w.pow
    simp at *
    omega
  · have : N1 = N := by rw [← w.mask, ← w1.mask]
    subst this
    exact ⟨h1, h2⟩

theorem insert_spec [DecidableEq K] {hash : K → BitVec 64} {m : Map K V} {d : Dict K V} (h : Repr hash m d) (key : K) (v : V) :
    (insert hash m key v = .error .thrown ∧ ¬ (Calm m ∧ (d.set key v).size ≤ 126)) ∨
    ∃ m', insert hash m key v = .ok (m', (d.get key).isNone) ∧ Repr hash m' (d.insert key v) ∧ (Calm m → (d.set key v).size ≤ 126 → Calm m') := by
  unfold insert
  rcases insertKey_spec h key v with ⟨hr, hbad⟩ | ⟨m', i, b, N, hr, w, hi, hcalm, hcase⟩
  · left; rw [hr]; exact ⟨rfl, hbad⟩
  · right
    rw [hr]
    rcases hcase with ⟨rfl, hR, x, hx, _⟩ | ⟨rfl, hR, hn, _⟩
    · refine ⟨m', by simp [bind, Except.bind, hx], ?_, hcalm⟩
      unfold Dict.insert
      rw [hx]
      exact hR
    · refine ⟨m', by simp [bind, Except.bind, hn], ?_, hcalm⟩
      unfold Dict.insert
      rw [hn]
      exact hR

/-- A new value in a cell. -/
theorem WF.setValue {hash : K → BitVec 64} {m : Map K V} {N : Nat} (w : WF hash m N) {i : Nat} (hi : i < N) {key : K} {x : V} (v : V)
    (hk : m.kv i = .full key x) :
    WF hash { m with kv := put m.kv i (.full key v) } N ∧
      ∀ k y, Has { m with kv := put m.kv i (.full key v) } N k y ↔ (k = key ∧ y = v) ∨ (k ≠ key ∧ Has m N k y) := by
  have hat : ∀ j, put m.kv i (.full key v) j = if j = i then .full key v else m.kv j := fun j => rfl
  constructor
  · refine ⟨w.pow, w.mask, w.incs, w.byte, ?_, ?_, ?_, w.step, ?_, w.count, w.most, w.load, w.tail⟩
    · intro j hj h0
      dsimp only at h0 ⊢
      rw [hat]
      by_cases hji : j = i
      · rw [hji] at h0
        exact absurd h0 (w.info_pos hi hk)
      · rw [if_neg hji]; exact w.raw j hj h0
    · intro j hj h0
      dsimp only at h0 ⊢
      rw [hat]
      by_cases hji : j = i
      · rw [if_pos hji]; exact ⟨key, v, rfl⟩
      · rw [if_neg hji]; exact w.full j hj h0
    · intro j hj k y hy
      dsimp only at hy ⊢
      rw [hat] at hy
      by_cases hji : j = i
      · rw [if_pos hji] at hy
        cases hy
        rw [hji]
        exact w.place i hi key x hk
      · rw [if_neg hji] at hy
        exact w.place j hj k y hy
    · intro j hj l hl k y z hy hz
      dsimp only at hy hz
      rw [hat] at hy hz
      by_cases hji : j = i
      · by_cases hli : l = i
        · rw [hji, hli]
        · rw [if_pos hji] at hy
          rw [if_neg hli] at hz
          cases hy
          rw [hji]
          exact w.uniq i hi l hl key x z hk hz
      · by_cases hli : l = i
        · rw [if_neg hji] at hy
          rw [if_pos hli] at hz
          cases hz
          rw [hli]
          exact w.uniq j hj i hi key y x hy hk
        · rw [if_neg hji] at hy
          rw [if_neg hli] at hz
          exact w.uniq j hj l hl k y z hy hz
  · intro k y
    constructor
    · rintro ⟨j, hj, hy⟩
      dsimp only at hy
      rw [hat] at hy
      by_cases hji : j = i
      · rw [if_pos hji] at hy
        cases hy
        exact .inl ⟨rfl, rfl⟩
      · rw [if_neg hji] at hy
        refine .inr ⟨?_, j, hj, hy⟩
        rintro rfl
        exact hji (w.uniq j hj i hi k y x hy hk)
    · rintro (⟨rfl, rfl⟩ | ⟨hne, j, hj, hy⟩)
      · exact ⟨i, hi, by dsimp only; rw [hat, if_pos rfl]⟩
      · refine ⟨j, hj, ?_⟩
        dsimp only
        rw [hat, if_neg]
        · exact hy
        · rintro rfl
          rw [hk] at hy
          cases hy
          exact hne rfl

theorem assignKey_spec [DecidableEq K] {hash : K → BitVec 64} {m : Map K V} {d : Dict K V} (h : Repr hash m d) (key : K) (dflt v : V) :
    (assignKey hash m key dflt v = .error .thrown ∧ ¬ (Calm m ∧ (d.set key v).size ≤ 126)) ∨
    ∃ m', assignKey hash m key dflt v = .ok m' ∧ Repr hash m' (d.set key v) ∧ (Calm m → (d.set key v).size ≤ 126 → Calm m') := by
  unfold assignKey
  rcases insertKey_spec h key dflt with ⟨hr, hbad⟩ | ⟨m', i, b, N, hr, w, hi, hcalm, hcase⟩
  · left; rw [hr]; exact ⟨rfl, hbad⟩
  · right
    rw [hr]
    simp only [bind, Except.bind]
    rcases hcase with ⟨rfl, hR, x, hx, hk⟩ | ⟨rfl, hR, hn, hk⟩
    · rw [hk]
      refine ⟨_, rfl, ?_, hcalm⟩
      obtain ⟨w', hh⟩ := w.setValue hi v hk
      obtain ⟨h1, h2⟩ := hR.get w
      refine .inr ⟨N, w', ?_, ?_⟩
      · unfold Dict.set
        dsimp only
        rw [hx]
        simpa using h1
      · intro k y
        rw [hh, h2]
        unfold Dict.set
        dsimp only
        by_cases hke : k = key
        · simp [hke, eq_comm]
        · simp [hke]
    · rw [hk]
      refine ⟨_, rfl, ?_, hcalm⟩
      obtain ⟨w', hh⟩ := w.setValue hi v hk
      obtain ⟨h1, h2⟩ := hR.get w
      refine .inr ⟨N, w', ?_, ?_⟩
      · unfold Dict.set at h1 ⊢
        dsimp only at h1 ⊢
        rw [hn] at h1 ⊢
        exact h1
      · intro k y
        rw [hh, h2]
        unfold Dict.set
        dsimp only
        by_cases hke : k = key
        · simp [hke, eq_comm]
        · simp [hke]

theorem find_spec [DecidableEq K] {hash : K → BitVec 64} {m : Map K V} {d : Dict K V} (h : Repr hash m d) (key : K) :
    find hash m key = .ok (d.get key) := by
  unfold find findIdx
  rcases h with ⟨rfl, h1, h2⟩ | ⟨N, w, h1, h2⟩
  · have hi : (keyToIdx ({} : Map K V) (hash key)) = (0, 32 + (hash key).toNat >>> 59) := by
      unfold keyToIdx; simp
    rw [hi]
    have hl : findLoop ({} : Map K V) key 257 (32 + (hash key).toNat >>> 59) 0 = .ok none := by
      unfold findLoop hit nextIdx
      simp only [bind, Except.bind]
      rw [if_neg (by omega)]
      simp only [Bool.false_eq_true, if_false]
      rw [if_neg (by omega)]
      simp
    dsimp only
    rw [hl, h2 key]
    rfl
  · rw [w.start]
    dsimp only
    have hinc := w.inc_ge
    have hh : home hash N key = (home hash N key + 0) % N := (Nat.mod_eq_of_lt (Nat.mod_lt _ w.pos)).symm
    have hr := findLoop_spec w key 256 0 (by omega)
    rw [← hh] at hr
    rcases hr.none w with ⟨i, hi, v, hv, he⟩ | ⟨he, hn⟩
    · rw [he]
      simp only [bind, Except.bind]
      have h8 := N_ge w.pow
      have hmk := w.mask
      have hend : isEnd m i = false := by
        unfold isEnd
        rw [if_neg (by omega)]
        simp
        omega
      rw [hend, hv]
      dsimp only
      rw [(h2 key v).mp ⟨i, hi, hv⟩]
      rfl
    · rw [he]
      simp only [bind, Except.bind]
      have h8 := N_ge w.pow
      have hmk := w.mask
      have hend : isEnd m (if m.mask = 0 then 0 else m.mask + 1) = true := by
        unfold isEnd
        rw [if_neg (by omega), if_neg (by omega)]
        simp
      rw [hend]
      have : d.get key = none := by
        cases hc : d.get key with
        | none => rfl
        | some x => exact absurd ((h2 key x).mpr hc) (hn x)
      rw [this]
      rfl

theorem erase_spec [DecidableEq K] {hash : K → BitVec 64} {m : Map K V} {d : Dict K V} (h : Repr hash m d) (key : K) :
    ∃ m', erase hash m key = .ok (m', if (d.get key).isSome then 1 else 0) ∧ Repr hash m' (d.erase key) ∧ (Calm m → Calm m') := by
  unfold erase
  rcases h with ⟨rfl, h1, h2⟩ | ⟨N, w, h1, h2⟩
  · have hi : (keyToIdx ({} : Map K V) (hash key)) = (0, 32 + (hash key).toNat >>> 59) := by
      unfold keyToIdx; simp
    rw [hi]
    have hl : eraseLoop ({} : Map K V) key 257 (32 + (hash key).toNat >>> 59) 0 = .ok none := by
      unfold eraseLoop hit nextIdx
      simp only [bind, Except.bind]
      rw [if_neg (by omega)]
      simp
    dsimp only
    rw [hl, h2 key]
    refine ⟨{}, rfl, .inl ⟨rfl, ?_, ?_⟩, fun h => h⟩
    · unfold Dict.erase
      simp [h2 key, h1]
    · intro k
      unfold Dict.erase
      simp [h2]
  · rw [w.start]
    dsimp only
    have hinc := w.inc_ge
    have hh : home hash N key = (home hash N key + 0) % N := (Nat.mod_eq_of_lt (Nat.mod_lt _ w.pos)).symm
    have hr := eraseLoop_spec w key 256 0 (by omega)
    rw [← hh] at hr
    rcases hr.none w with ⟨i, hi, v, hv, he⟩ | ⟨he, hn⟩
    · rw [he]
      obtain ⟨m', hm', w', hn', hpos, hhas, D, _, lw⟩ := erase_cell w hi hv
      have hsome := (h2 key v).mp ⟨i, hi, hv⟩
      refine ⟨{ m' with num := m'.num - 1 }, ?_, .inr ⟨N, w', ?_, ?_⟩, ?_⟩
      · simp only [bind, Except.bind]
        rw [hm', hsome]
        rfl
      · unfold Dict.erase
        simp [hsome]
        omega
      · intro k x
        have : Has { m' with num := m'.num - 1 } N k x ↔ Has m' N k x := Iff.rfl
        rw [this, hhas, h2]
        unfold Dict.erase
        dsimp only
        by_cases hk : k = key
        · simp [hk]
        · simp [hk]
      · intro hc h0
        dsimp only at h0 ⊢
        rw [lw.max] at h0
        rw [lw.inc]
        exact hc h0
    · rw [he]
      have hnone : d.get key = none := by
        cases hc : d.get key with
        | none => rfl
        | some x => exact absurd ((h2 key x).mpr hc) (hn x)
      refine ⟨m, ?_, .inr ⟨N, w, ?_, ?_⟩, fun h => h⟩
      · rw [hnone]
        rfl
      · unfold Dict.erase
        simp [hnone, h1]
      · intro k x
        rw [h2]
        unfold Dict.erase
        dsimp only
        by_cases hk : k = key
        · simp [hk, hnone]
        · simp [hk]

theorem clear_spec {hash : K → BitVec 64} {m : Map K V} {d : Dict K V} (h : Repr hash m d) : Repr hash (clear m) Dict.empty := by
  unfold clear
  by_cases h0 : m.num = 0
  · rw [if_pos h0]
    rcases h with ⟨rfl, h1, h2⟩ | ⟨N, w, h1, h2⟩
    · exact repr_empty hash
    · refine .inr ⟨N, w, h0, ?_⟩
      intro k v
      constructor
      · rintro ⟨i, hi, hk⟩
        have := w.info_pos hi hk
        have hc := w.count
        rw [h0, eq_comm, Finset.card_eq_zero, Finset.filter_eq_empty_iff] at hc
        exact absurd this (hc (Finset.mem_range.mpr hi))
      · intro hk
        simp [Dict.empty] at hk
  · rw [if_neg h0]
    rcases h with ⟨rfl, h1, h2⟩ | ⟨N, w, h1, h2⟩
    · exact absurd rfl h0
    · have hmk := w.mask
      have hN := w.pos
      have hI : ∀ i < N, (if i ≤ m.mask then 0 else m.info i) = 0 := fun i hi => by rw [if_pos (by omega)]
      have hK : ∀ i < N, (if i ≤ m.mask then Slot.raw else m.kv i) = Slot.raw := fun i hi => by rw [if_pos (by omega)]
      refine .inr ⟨N, ?_, rfl, ?_⟩
      · refine ⟨w.pow, w.mask, ⟨5, by decide, by decide, rfl, rfl⟩, ?_, ?_, ?_, ?_, ?_, ?_, ?_, ?_, ?_, ?_⟩
        · intro i hi; dsimp only; rw [hI i hi]; omega
        · intro i hi _; dsimp only; rw [hK i hi]
        · intro i hi hz
          dsimp only at hz
          rw [hI i hi] at hz
          exact absurd rfl hz
        · intro i hi k v hk
          dsimp only at hk
          rw [hK i hi] at hk
          cases hk
        · intro i hi
          dsimp only
          rw [hI _ (Nat.mod_lt _ hN)]
          omega
        · intro i hi j _ k v x hk
          dsimp only at hk
          rw [hK i hi] at hk
          cases hk
        · dsimp only
          symm
          rw [Finset.card_eq_zero, Finset.filter_eq_empty_iff]
          intro i hi
          rw [Finset.mem_range] at hi
          rw [hI i hi]; simp
        · dsimp only
          rcases w.most with h | ⟨h, _⟩
          · exact .inl h
          · refine .inr ⟨h, ?_⟩
            intro i hi
            rw [hI i hi]; omega
        · exact Nat.zero_le _
        · dsimp only
          rw [if_neg (by omega)]
          exact ⟨w.tail.1, fun i hi => by rw [if_neg (by omega)]; exact w.tail.2 i hi⟩
      · intro k v
        constructor
        · rintro ⟨i, hi, hk⟩
          dsimp only at hk
          rw [hK i hi] at hk
          cases hk
        · intro hk
          simp [Dict.empty] at hk

theorem clear_calm {m : Map K V} (h : Calm m) : Calm (clear m) := by
  unfold clear
  by_cases h0 : m.num = 0
  · rw [if_pos h0]; exact h
  · rw [if_neg h0]
    intro _
    dsimp only
    omega

theorem calm_empty : Calm ({} : Map K V) := by
  intro _
  dsimp only
  omega

theorem reserveLoop_spec (least : Nat) : ∀ (c f j : Nat), 3 ≤ j → j + c = 64 → c ≤ f →
    ∃ n, reserveLoop least (f + 1) (2 ^ j % 2 ^ 64) = .ok n ∧
      (n = 0 ∨ ((∃ k, 3 ≤ k ∧ n = 2 ^ k) ∧ least ≤ calcMax n)) ∧ (j ≤ 57 → least ≤ 2 ^ 56 → n ≠ 0 ∧ n ≤ 2 ^ 57) := by
  intro c
  induction c with
  | zero =>
    intro f j h3 hj hf
    refine ⟨0, ?_, .inl rfl, by omega⟩
    have : j = 64 := by omega
    rw [this]
    unfold reserveLoop
    rw [if_neg (by simp)]
    simp
  | succ c ih =>
    intro f j h3 hj hf
    have hpos : (2 : Nat) ^ j ≠ 0 := by positivity
    rw [Nat.mod_eq_of_lt (Nat.pow_lt_pow_right (by decide) (by omega))]
    by_cases hc : calcMax (2 ^ j) < least
    · cases f with
      | zero => omega
      | succ f =>
        obtain ⟨n, hn, hn', hb⟩ := ih f (j + 1) (by omega) (by omega) (by omega)
        refine ⟨n, ?_, hn', ?_⟩
        · rw [← hn]
          conv_lhs => unfold reserveLoop
          rw [if_pos ⟨hc, hpos⟩, ← Nat.pow_succ]
        · intro hj57 hl
          refine hb ?_ hl
          rcases Nat.lt_or_ge j 57 with h | h
          · omega
          · exfalso
            have hj : j = 57 := by omega
            rw [hj, calcMax_small (le_refl _)] at hc
            norm_num at hc hl
            omega
    · refine ⟨2 ^ j, ?_, .inr ⟨⟨j, h3, rfl⟩, by omega⟩, ?_⟩
      · unfold reserveLoop
        rw [if_neg (fun h => hc h.1)]
      · intro hj57 _
        exact ⟨hpos, Nat.pow_le_pow_right (by decide) hj57⟩

theorem reserve_spec {hash : K → BitVec 64} {m : Map K V} {d : Dict K V} (h : Repr hash m d) (c : Nat) :
    (reserve hash m c = .error .thrown ∧ ¬ (c ≤ 2 ^ 56 ∧ d.size ≤ 126)) ∨
    ∃ m', reserve hash m c = .ok m' ∧ Repr hash m' d ∧ (d.size ≤ 126 → Calm m') := by
  unfold reserve
  obtain ⟨n, hn, hcase, hsmall⟩ := reserveLoop_spec (max c m.num) 61 64 3 (by omega) (by omega) (by omega)
  have h8 : (2 : Nat) ^ 3 % 2 ^ 64 = 8 := by norm_num
  rw [h8] at hn
  rw [hn]
  simp only [bind, Except.bind]
  rcases hcase with h0 | ⟨hp, hle⟩
  · left; rw [if_pos h0]
    refine ⟨rfl, ?_⟩
    rintro ⟨hc, hs⟩
    rw [← h.num] at hs
    refine (hsmall (by omega) ?_).1 h0
    norm_num at hc ⊢
    omega
  · have hn0 : n ≠ 0 := by
      obtain ⟨k, _, rfl⟩ := hp
      positivity
    rw [if_neg hn0]
    have hR := h
    rcases h with ⟨rfl, h1, h2⟩ | ⟨N, w, h1, h2⟩
    · unfold rehash
      rcases initData_spec (V := V) hash hp with ⟨h, hbig⟩ | ⟨m0, h, w0, hnn, hmax, hh⟩
      · left; rw [h]
        refine ⟨rfl, ?_⟩
        rintro ⟨hc, hs⟩
        refine hbig (hsmall (by omega) ?_).2
        rw [← hR.num] at hs
        norm_num at hc ⊢
        omega
      · right
        rw [h]
        refine ⟨m0, rfl, .inr ⟨n, w0, by omega, ?_⟩, ?_⟩
        · intro k v
          rw [h2 k]
          simp [hh k v]
        · intro _ h0
          have := calcMax_pos w0.pow
          omega
    · rcases rehash_spec w hp (by omega) with ⟨h, hbig⟩ | ⟨m', h, w', hn', hh', hcalm⟩
      · refine .inl ⟨h, ?_⟩
        rintro ⟨hc, hs⟩
        rw [← h1] at hs
        refine hbig ⟨(hsmall (by omega) ?_).2, hs⟩
        norm_num at hc ⊢
        omega
      · exact .inr ⟨m', h, hR.same w w' hn' hh', by rw [← h1]; exact hcalm⟩

/-! ## Copies -/

theorem Repr.size_zero {hash : K → BitVec 64} {m : Map K V} {d : Dict K V} (h : Repr hash m d) (h0 : m.num = 0) : ∀ k, d.get k = none := by
  rcases h with ⟨rfl, h1, h2⟩ | ⟨N, w, h1, h2⟩
  · exact h2
  · intro k
    cases hc : d.get k with
    | none => rfl
    | some x =>
      obtain ⟨i, hi, hk⟩ := (h2 k x).mpr hc
      have := w.info_pos hi hk
      have hc := w.count
      rw [h0, eq_comm, Finset.card_eq_zero, Finset.filter_eq_empty_iff] at hc
      exact absurd this (hc (Finset.mem_range.mpr hi))

theorem repr_none {hash : K → BitVec 64} {m : Map K V} {d : Dict K V} (h : Repr hash m d) (h0 : m.num = 0) : Repr hash ({} : Map K V) d :=
  .inl ⟨rfl, by rw [← h.num]; exact h0, h.size_zero h0⟩

theorem copyOf_spec {hash : K → BitVec 64} {o : Map K V} {d : Dict K V} (h : Repr hash o d) : Repr hash (copyOf o) d := by
  unfold copyOf
  by_cases h0 : o.num = 0
  · rw [if_pos h0]; exact repr_none h h0
  · rw [if_neg h0]; exact h

theorem Repr.mask_zero {hash : K → BitVec 64} {m : Map K V} {d : Dict K V} (h : Repr hash m d) (h0 : m.mask = 0) : m = {} ∧ d.size = 0 ∧ ∀ k, d.get k = none := by
  rcases h with h | ⟨N, w, _, _⟩
  · exact h
  · have := N_ge w.pow
    have := w.mask
    omega

theorem assignFrom_spec {hash : K → BitVec 64} {m o : Map K V} {d d' : Dict K V} (hm : Repr hash m d') (h : Repr hash o d) : Repr hash (assignFrom m o) d := by
  unfold assignFrom
  by_cases h0 : o.num = 0
  · rw [if_pos h0]
    have := repr_none h h0
    by_cases hk : m.mask = 0
    · rw [if_pos hk, (hm.mask_zero hk).1]; exact this
    · rw [if_neg hk]; exact this
  · rw [if_neg h0]; exact h

theorem moveOf_spec {hash : K → BitVec 64} {o : Map K V} {d : Dict K V} (h : Repr hash o d) :
    Repr hash (moveOf o).1 d ∧ Repr hash (moveOf o).2 Dict.empty := by
  unfold moveOf
  by_cases h0 : o.mask ≠ 0
  · rw [if_pos h0]; exact ⟨h, repr_empty hash⟩
  · rw [if_neg h0]
    obtain ⟨he, h1, h2⟩ := h.mask_zero (by omega)
    refine ⟨.inl ⟨rfl, h1, h2⟩, ?_⟩
    rw [he]
    exact repr_empty hash

theorem moveFrom_spec {hash : K → BitVec 64} {m o : Map K V} {d d' : Dict K V} (hm : Repr hash m d') (h : Repr hash o d) :
    Repr hash (moveFrom m o).1 d ∧ Repr hash (moveFrom m o).2 Dict.empty := by
  unfold moveFrom
  by_cases h0 : o.mask ≠ 0
  · rw [if_pos h0]; exact ⟨h, repr_empty hash⟩
  · rw [if_neg h0]
    obtain ⟨he, h1, h2⟩ := h.mask_zero (by omega)
    constructor
    · have : d = Dict.empty := by
        cases d
        simp only [Dict.empty] at *
        congr
        funext k
        exact h2 k
      rw [this]
      exact clear_spec hm
    · rw [he]
      exact repr_empty hash

theorem copyOf_calm {o : Map K V} (h : Calm o) : Calm (copyOf o) := by
  unfold copyOf
  by_cases h0 : o.num = 0
  · rw [if_pos h0]; exact calm_empty
  · rw [if_neg h0]; exact h

theorem assignFrom_calm {m o : Map K V} (hm : Calm m) (h : Calm o) : Calm (assignFrom m o) := by
  unfold assignFrom
  by_cases h0 : o.num = 0
  · rw [if_pos h0]
    by_cases hk : m.mask = 0
    · rw [if_pos hk]; exact hm
    · rw [if_neg hk]; exact calm_empty
  · rw [if_neg h0]; exact h

theorem moveOf_calm {o : Map K V} (h : Calm o) : Calm (moveOf o).1 ∧ Calm (moveOf o).2 := by
  unfold moveOf
  by_cases h0 : o.mask ≠ 0
  · rw [if_pos h0]; exact ⟨h, calm_empty⟩
  · rw [if_neg h0]; exact ⟨calm_empty, h⟩

theorem moveFrom_calm {m o : Map K V} (hm : Calm m) (h : Calm o) : Calm (moveFrom m o).1 ∧ Calm (moveFrom m o).2 := by
  unfold moveFrom
  by_cases h0 : o.mask ≠ 0
  · rw [if_pos h0]; exact ⟨h, calm_empty⟩
  · rw [if_neg h0]; exact ⟨clear_calm hm, h⟩

/-! ## Going through the entries -/

theorem zeros_spec (info : Nat → Nat) (p : Nat) :
    (zeros info p = 8 ∧ ∀ j, p ≤ j → j < p + 8 → info j = 0) ∨
    (zeros info p < 8 ∧ info (p + zeros info p) ≠ 0 ∧ ∀ j, p ≤ j → j < p + zeros info p → info j = 0) := by
  have key : ∀ n, (∀ i < n, info (p + i) = 0) → ∀ j, p ≤ j → j < p + n → info j = 0 := by
    intro n h j h1 h2
    have := h (j - p) (by omega)
    rwa [show p + (j - p) = j by omega] at this
  unfold zeros
  by_cases h0 : info p ≠ 0
  · rw [if_pos h0]; exact .inr ⟨by omega, h0, fun j _ _ => by omega⟩
  rw [if_neg h0]
  by_cases h1 : info (p + 1) ≠ 0
  · rw [if_pos h1]; exact .inr ⟨by omega, h1, key 1 (by intro i hi; interval_cases i; exact not_not.mp h0)⟩
  rw [if_neg h1]
  by_cases h2 : info (p + 2) ≠ 0
  · rw [if_pos h2]; exact .inr ⟨by omega, h2, key 2 (by intro i hi; interval_cases i <;> first | exact not_not.mp h0 | exact not_not.mp h1)⟩
  rw [if_neg h2]
  by_cases h3 : info (p + 3) ≠ 0
  · rw [if_pos h3]; exact .inr ⟨by omega, h3, key 3 (by intro i hi; interval_cases i <;> first | exact not_not.mp h0 | exact not_not.mp h1 | exact not_not.mp h2)⟩
  rw [if_neg h3]
  by_cases h4 : info (p + 4) ≠ 0
  · rw [if_pos h4]; exact .inr ⟨by omega, h4, key 4 (by intro i hi; interval_cases i <;> first | exact not_not.mp h0 | exact not_not.mp h1 | exact not_not.mp h2 | exact not_not.mp h3)⟩
  rw [if_neg h4]
  by_cases h5 : info (p + 5) ≠ 0
  · rw [if_pos h5]; exact .inr ⟨by omega, h5, key 5 (by intro i hi; interval_cases i <;> first | exact not_not.mp h0 | exact not_not.mp h1 | exact not_not.mp h2 | exact not_not.mp h3 | exact not_not.mp h4)⟩
  rw [if_neg h5]
  by_cases h6 : info (p + 6) ≠ 0
  · rw [if_pos h6]; exact .inr ⟨by omega, h6, key 6 (by intro i hi; interval_cases i <;> first | exact not_not.mp h0 | exact not_not.mp h1 | exact not_not.mp h2 | exact not_not.mp h3 | exact not_not.mp h4 | exact not_not.mp h5)⟩
  rw [if_neg h6]
  by_cases h7 : info (p + 7) ≠ 0
  · rw [if_pos h7]; exact .inr ⟨by omega, h7, key 7 (by intro i hi; interval_cases i <;> first | exact not_not.mp h0 | exact not_not.mp h1 | exact not_not.mp h2 | exact not_not.mp h3 | exact not_not.mp h4 | exact not_not.mp h5 | exact not_not.mp h6)⟩
  rw [if_neg h7]
  exact .inl ⟨rfl, key 8 (by intro i hi; interval_cases i <;> first | exact not_not.mp h0 | exact not_not.mp h1 | exact not_not.mp h2 | exact not_not.mp h3 | exact not_not.mp h4 | exact not_not.mp h5 | exact not_not.mp h6 | exact not_not.mp h7)⟩

theorem fastForward_spec {hash : K → BitVec 64} {m : Map K V} {N : Nat} (w : WF hash m N) :
    ∀ (f p : Nat), p ≤ N → N < p + f → ∃ q, fastForward m f p = .ok q ∧ p ≤ q ∧ q ≤ N ∧ m.info q ≠ 0 ∧ ∀ j, p ≤ j → j < q → m.info j = 0 := by
  intro f
  induction f with
  | zero => intro p h1 h2; omega
  | succ f ih =>
    intro p h1 h2
    have hmk := w.mask
    unfold fastForward
    rw [if_pos (by omega)]
    rcases zeros_spec m.info p with ⟨hz, hall⟩ | ⟨hz, hne, hall⟩
    · rw [if_pos hz]
      have hlt : p + 8 ≤ N := by
        by_contra hc
        have := hall N h1 (by omega)
        rw [w.tail.1] at this
        omega
      obtain ⟨q, hq, h3, h4, h5, h6⟩ := ih (p + 8) hlt (by omega)
      refine ⟨q, hq, by omega, h4, h5, ?_⟩
      intro j hj hjq
      rcases Nat.lt_or_ge j (p + 8) with h' | h'
      · exact hall j hj h'
      · exact h6 j h' hjq
    · rw [if_neg (by omega)]
      refine ⟨_, rfl, by omega, ?_, hne, hall⟩
      by_contra hc
      have := hall N h1 (by omega)
      rw [w.tail.1] at this
      omega

theorem entriesFrom_spec {hash : K → BitVec 64} {m : Map K V} {N : Nat} (w : WF hash m N) :
    ∀ (f p : Nat), p ≤ N → m.info p ≠ 0 → N < f + p →
      ∃ l, entriesFrom m f p = .ok l ∧ (l.map Prod.fst).Nodup ∧ (∀ k v, (k, v) ∈ l ↔ ∃ i, p ≤ i ∧ i < N ∧ m.kv i = .full k v) ∧
        l.length = ((Finset.range N).filter (fun i => p ≤ i ∧ m.info i ≠ 0)).card := by
  intro f
  induction f with
  | zero => intro p h1 _ h2; omega
  | succ f ih =>
    intro p h1 h0 h2
    have hmk := w.mask
    unfold entriesFrom
    by_cases hp : p = m.mask + 1
    · rw [if_pos hp]
      refine ⟨[], rfl, by simp, ?_, ?_⟩
      · intro k v
        constructor
        · intro h; cases h
        · rintro ⟨i, hi, hi', _⟩; omega
      · symm
        rw [List.length_nil, Finset.card_eq_zero, Finset.filter_eq_empty_iff]
        intro i hi
        rw [Finset.mem_range] at hi
        omega
    · rw [if_neg hp]
      have hpN : p < N := by omega
      obtain ⟨k, v, hk⟩ := w.full p hpN h0
      obtain ⟨q, hq, h3, h4, h5, h6⟩ := fastForward_spec w (m.mask + 3) (p + 1) (by omega) (by omega)
      obtain ⟨l, hl, hnd, hmem, hlen⟩ := ih q h4 h5 (by omega)
      rw [hk]
      dsimp only
      rw [hq]
      simp only [bind, Except.bind]
      rw [hl]
      refine ⟨(k, v) :: l, rfl, ?_, ?_, ?_⟩
      · rw [List.map_cons, List.nodup_cons]
        refine ⟨?_, hnd⟩
        rw [List.mem_map]
        rintro ⟨⟨k', x⟩, hx, rfl⟩
        obtain ⟨i, hi, hiN, hik⟩ := (hmem _ x).mp hx
        have := w.uniq i hiN p hpN _ x v hik hk
        omega
      · intro k' x
        rw [List.mem_cons, hmem]
        constructor
        · rintro (h | ⟨i, hi, hiN, hik⟩)
          · cases h
            exact ⟨p, le_refl _, hpN, hk⟩
          · exact ⟨i, by omega, hiN, hik⟩
        · rintro ⟨i, hi, hiN, hik⟩
          by_cases hip : i = p
          · left
            rw [hip, hk] at hik
            cases hik
            rfl
          · right
            refine ⟨i, ?_, hiN, hik⟩
            by_contra hc
            exact w.info_pos hiN hik (h6 i (by omega) (by omega))
      · rw [List.length_cons, hlen]
        have hset : (Finset.range N).filter (fun i => p ≤ i ∧ m.info i ≠ 0) = Insert.insert p ((Finset.range N).filter (fun i => q ≤ i ∧ m.info i ≠ 0)) := by
          ext i
          simp only [Finset.mem_filter, Finset.mem_range, Finset.mem_insert]
          constructor
          · rintro ⟨hi, hpi, hne⟩
            by_cases hip : i = p
            · exact .inl hip
            · refine .inr ⟨hi, ?_, hne⟩
              by_contra hc
              exact hne (h6 i (by omega) (by omega))
          · rintro (rfl | ⟨hi, hqi, hne⟩)
            · exact ⟨hpN, le_refl _, h0⟩
            · exact ⟨hi, by omega, hne⟩
        rw [hset, Finset.card_insert_of_notMem]
        simp
        omega

theorem entries_spec {hash : K → BitVec 64} {m : Map K V} {d : Dict K V} (h : Repr hash m d) : ∃ l, entries m = .ok l ∧ Lists l d := by
  unfold entries
  by_cases h0 : m.num = 0
  · rw [if_pos h0]
    refine ⟨[], rfl, by simp, ?_, by rw [← h.num, h0]; rfl⟩
    intro k v
    rw [h.size_zero h0 k]
    simp
  · rw [if_neg h0]
    rcases h with ⟨rfl, h1, h2⟩ | ⟨N, w, h1, h2⟩
    · exact absurd rfl h0
    · have hmk := w.mask
      obtain ⟨q, hq, h3, h4, h5, h6⟩ := fastForward_spec w (m.mask + 3) 0 (by omega) (by omega)
      obtain ⟨l, hl, hnd, hmem, hlen⟩ := entriesFrom_spec w (m.mask + 3) q h4 h5 (by omega)
      rw [hq]
      refine ⟨l, hl, hnd, ?_, ?_⟩
      · intro k v
        rw [hmem, ← h2]
        constructor
        · rintro ⟨i, _, hi, hk⟩
          exact ⟨i, hi, hk⟩
        · rintro ⟨i, hi, hk⟩
          refine ⟨i, ?_, hi, hk⟩
          by_contra hc
          exact w.info_pos hi hk (h6 i (by omega) (by omega))
      · rw [hlen, ← h1, w.count]
        congr 1
        apply Finset.filter_congr
        intro i hi
        constructor
        · exact fun h => h.2
        · intro h
          refine ⟨?_, h⟩
          by_contra hc
          exact h (h6 i (by omega) (by omega))

/-! ## Equality -/

theorem equalLoop_spec [DecidableEq K] [DecidableEq V] {hash : K → BitVec 64} {m : Map K V} {d : Dict K V} (h : Repr hash m d) :
    ∀ l : List (K × V), ∃ b, equalLoop hash m l = .ok b ∧ (b = true ↔ ∀ k v, (k, v) ∈ l → d.get k = some v) := by
  intro l
  induction l with
  | nil => exact ⟨true, rfl, by simp⟩
  | cons e l ih =>
    obtain ⟨b, hb, hiff⟩ := ih
    unfold equalLoop
    rw [find_spec h]
    simp only [bind, Except.bind]
    cases hg : d.get e.1 with
    | none =>
      refine ⟨false, rfl, ?_⟩
      constructor
      · intro h; cases h
      · intro h
        have := h e.1 e.2 (List.mem_cons_self)
        rw [hg] at this
        cases this
    | some v =>
      by_cases hv : v = e.2
      · refine ⟨b, by dsimp only; rw [if_pos hv, hb], ?_⟩
        rw [hiff]
        constructor
        · intro h k x hm
          rcases List.mem_cons.mp hm with h' | h'
          · cases h'
            rw [hg, hv]
          · exact h k x h'
        · intro h k x hm
          exact h k x (List.mem_cons_of_mem _ hm)
      · refine ⟨false, by dsimp only; rw [if_neg hv], ?_⟩
        constructor
        · intro h; cases h
        · intro h
          have := h e.1 e.2 (List.mem_cons_self)
          rw [hg] at this
          cases this
          exact absurd rfl hv

/-- A map with the entries of another one and of the same size has no more. -/
theorem lists_full [DecidableEq K] {l l' : List (K × V)} {d d' : Dict K V} (h : Lists l d) (h' : Lists l' d') (hs : d.size = d'.size)
    (hsub : ∀ k v, d.get k = some v → d'.get k = some v) : ∀ k, d.get k = d'.get k := by
  intro k
  cases hk : d.get k with
  | some v => rw [hsub k v hk]
  | none =>
    cases hk' : d'.get k with
    | none => rfl
    | some v =>
      exfalso
      have hss : (l.map Prod.fst).toFinset ⊆ (l'.map Prod.fst).toFinset := by
        intro x hx
        rw [List.mem_toFinset, List.mem_map] at hx ⊢
        obtain ⟨⟨a, b⟩, hab, rfl⟩ := hx
        exact ⟨(a, b), (h'.2.1 a b).mpr (hsub a b ((h.2.1 a b).mp hab)), rfl⟩
      have hc : (l'.map Prod.fst).toFinset.card ≤ (l.map Prod.fst).toFinset.card := by
        rw [List.toFinset_card_of_nodup h.1, List.toFinset_card_of_nodup h'.1, List.length_map, List.length_map, h.2.2, h'.2.2, hs]
      have := Finset.eq_of_subset_of_card_le hss hc
      have hx : k ∈ (l'.map Prod.fst).toFinset := by
        rw [List.mem_toFinset, List.mem_map]
        exact ⟨(k, v), (h'.2.1 k v).mpr hk', rfl⟩
      rw [← this, List.mem_toFinset, List.mem_map] at hx
      obtain ⟨⟨a, b⟩, hab, rfl⟩ := hx
      have := (h.2.1 a b).mp hab
      rw [hk] at this
      cases this

theorem equal_spec [DecidableEq K] [DecidableEq V] {hash : K → BitVec 64} {m o : Map K V} {d d' : Dict K V} (h : Repr hash m d) (h' : Repr hash o d') :
    ∃ b, equal hash m o = .ok b ∧ (b = true ↔ ∀ k, d.get k = d'.get k) := by
  obtain ⟨l, hl, hll⟩ := entries_spec h
  obtain ⟨l', hl', hll'⟩ := entries_spec h'
  unfold equal
  by_cases hn : o.num ≠ m.num
  · rw [if_pos hn]
    refine ⟨false, rfl, ?_⟩
    constructor
    · intro h; cases h
    · intro heq
      exfalso
      apply hn
      rw [h.num, h'.num, ← hll.2.2, ← hll'.2.2]
      have e : (l.map Prod.fst).toFinset = (l'.map Prod.fst).toFinset := by
        ext x
        simp only [List.mem_toFinset, List.mem_map, Prod.exists, exists_and_right, exists_eq_right]
        constructor
        · rintro ⟨v, hv⟩
          exact ⟨v, (hll'.2.1 x v).mpr (by rw [← heq]; exact (hll.2.1 x v).mp hv)⟩
        · rintro ⟨v, hv⟩
          exact ⟨v, (hll.2.1 x v).mpr (by rw [heq]; exact (hll'.2.1 x v).mp hv)⟩
      have := congrArg Finset.card e
      rw [List.toFinset_card_of_nodup hll.1, List.toFinset_card_of_nodup hll'.1, List.length_map, List.length_map] at this
      exact this.symm
  · rw [if_neg hn, hl']
    simp only [bind, Except.bind]
    obtain ⟨b, hb, hiff⟩ := equalLoop_spec h l'
    refine ⟨b, hb, ?_⟩
    rw [hiff]
    constructor
    · intro hall k
      refine (lists_full hll' hll ?_ ?_ k).symm
      · rw [← h.num, ← h'.num]
        omega
      · intro k v hk
        exact hall k v ((hll'.2.1 k v).mpr hk)
    · intro heq k v hk
      rw [heq]
      exact (hll'.2.1 k v).mp hk

end RobinHood
end VecGeom
