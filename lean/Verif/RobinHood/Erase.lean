import Verif.RobinHood.Insert

/-!
# Erasing keeps the invariant
-/

namespace VecGeom
namespace RobinHood

variable {K V : Type}

/-- What shifting down does: the cells `p + s + 1 .. p + s + D` move to `p + s .. p + s + D - 1`. -/
structure Lowered (m m' : Map K V) (N p s D : Nat) : Prop where
  mask : m'.mask = m.mask
  inc : m'.inc = m.inc
  shift : m'.shift = m.shift
  num : m'.num = m.num
  max : m'.maxAllowed = m.maxAllowed
  out : ∀ j, N ≤ j → m'.info j = m.info j
  info : ∀ e < N, m'.info ((p + e) % N) = if s ≤ e ∧ e < s + D then m.info ((p + (e + 1)) % N) - m.inc else if e = s + D then 0 else m.info ((p + e) % N)
  kv : ∀ e < N, m'.kv ((p + e) % N) = if s ≤ e ∧ e < s + D then m.kv ((p + (e + 1)) % N) else if e = s + D then .raw else m.kv ((p + e) % N)

theorem shiftDown_spec {N : Nat} (hp : ∃ k, 3 ≤ k ∧ k ≤ 57 ∧ N = 2 ^ k) (p : Nat) :
    ∀ (D f s : Nat) (m : Map K V), D < f → s + D + 1 < N → m.mask + 1 = N → (∀ i < N, m.info i ≤ 255) →
      (m.kv ((p + s) % N)).isRaw = false →
      (∀ e < D, (∃ k v, m.kv ((p + (s + e + 1)) % N) = .full k v) ∧ 2 * m.inc ≤ m.info ((p + (s + e + 1)) % N)) →
      m.info ((p + (s + D + 1)) % N) < 2 * m.inc →
      ∃ m', shiftDown f m ((p + s) % N) = .ok m' ∧ Lowered m m' N p s D := by
  have hN : 0 < N := by have := N_ge hp; omega
  intro D
  induction D with
  | zero =>
    intro f s m hf hs hm hby hr _ hlast
    cases f with
    | zero => omega
    | succ f =>
      refine ⟨{ m with info := put m.info ((p + s) % N) 0, kv := put m.kv ((p + s) % N) .raw }, ?_, ?_⟩
      · unfold shiftDown nextIdx
        dsimp only
        rw [and_mask hp hm, succ_loc, if_neg (by rw [Nat.add_zero] at hlast; omega), hr]
        rfl
      · refine ⟨rfl, rfl, rfl, rfl, rfl, fun j hj => put_out _ _ hN hj, ?_, ?_⟩
        · intro e he
          dsimp only
          rw [put_loc _ _ (by omega) he, if_neg (show ¬ (s ≤ e ∧ e < s + 0) by omega), Nat.add_zero]
        · intro e he
          dsimp only
          rw [put_loc _ _ (by omega) he, if_neg (show ¬ (s ≤ e ∧ e < s + 0) by omega), Nat.add_zero]
  | succ D ih =>
    intro f s m hf hs hm hby hr hfull hlast
    cases f with
    | zero => omega
    | succ f =>
      obtain ⟨⟨k, v, hk⟩, hge⟩ := hfull 0 (by omega)
      rw [Nat.add_zero] at hk hge
      have hb := hby ((p + (s + 1)) % N) (Nat.mod_lt _ hN)
      have hmod : (m.info ((p + (s + 1)) % N) - m.inc) % 256 = m.info ((p + (s + 1)) % N) - m.inc := Nat.mod_eq_of_lt (by omega)
      obtain ⟨m1, hm1⟩ : ∃ m1, m1 = ({ m with
        info := put m.info ((p + s) % N) (m.info ((p + (s + 1)) % N) - m.inc)
        kv := put (put m.kv ((p + s) % N) (.full k v)) ((p + (s + 1)) % N) .moved } : Map K V) := ⟨_, rfl⟩
      have hI : ∀ e < N, m1.info ((p + e) % N) = if e = s then m.info ((p + (s + 1)) % N) - m.inc else m.info ((p + e) % N) := by
        intro e he
        rw [hm1]
        exact put_loc _ _ (by omega) he
      have hKV : ∀ e < N, m1.kv ((p + e) % N) = if e = s + 1 then .moved else if e = s then .full k v else m.kv ((p + e) % N) := by
        intro e he
        rw [hm1]
        dsimp only
        rw [put_loc _ _ (by omega) he, put_loc _ _ (by omega) he]
      have hinc : m1.inc = m.inc := by rw [hm1]
      obtain ⟨m', h1, l⟩ := ih f (s + 1) m1 (by omega) (by omega) (by rw [hm1]; exact hm) (by
        intro i hi
        obtain ⟨e, he, rfl⟩ := loc_ex p i hi
        rw [hI e he]
        split
        · omega
        · exact hby _ hi) (by
        rw [hKV _ (by omega), if_pos rfl]; rfl) (by
        intro e he
        have := hfull (e + 1) (by omega)
        rw [hKV _ (by omega), hI _ (by omega), if_neg (by omega), if_neg (by omega), if_neg (by omega), hinc]
        rwa [show s + (e + 1) + 1 = s + 1 + e + 1 by omega] at this) (by
        rw [hI _ (by omega), if_neg (by omega), hinc]
        rwa [show s + (D + 1) + 1 = s + 1 + D + 1 by omega] at hlast)
      refine ⟨m', ?_, ?_⟩
      · unfold shiftDown nextIdx
        dsimp only
        rw [and_mask hp hm, succ_loc, if_pos hge, hk]
        dsimp only
        rw [hr, hmod, ← hm1]
        exact h1
      · refine ⟨by rw [l.mask, hm1], by rw [l.inc, hm1], by rw [l.shift, hm1], by rw [l.num, hm1], by rw [l.max, hm1], ?_, ?_, ?_⟩
        · intro j hj
          rw [l.out j hj, hm1]
          exact put_out _ _ hN hj
        · intro e he
          rw [l.info e he, hinc]
          by_cases h1 : s + 1 ≤ e ∧ e < s + 1 + D
          · rw [if_pos h1, hI _ (by omega), if_neg (by omega), if_pos (by omega)]
          · rw [if_neg h1]
            by_cases h2 : e = s + 1 + D
            · rw [if_pos h2, if_neg (by omega), if_pos (by omega)]
            · rw [if_neg h2, hI e he]
              by_cases h3 : e = s
              · rw [if_pos h3, if_pos (by omega), h3]
              · rw [if_neg h3, if_neg (by omega), if_neg (by omega)]
        · intro e he
          rw [l.kv e he]
          by_cases h1 : s + 1 ≤ e ∧ e < s + 1 + D
          · rw [if_pos h1, hKV _ (by omega), if_neg (by omega), if_neg (by omega), if_pos (by omega)]
          · rw [if_neg h1]
            by_cases h2 : e = s + 1 + D
            · rw [if_pos h2, if_neg (by omega), if_pos (by omega)]
            · rw [if_neg h2, hKV e he]
              by_cases h3 : e = s
              · rw [if_neg (by omega), if_pos h3, if_pos (by omega), h3, hk]
              · rw [if_neg (by omega), if_neg h3, if_neg (by omega), if_neg (by omega)]

/-- Erasing the entry in a cell keeps the invariant and removes the entry. -/
theorem erase_cell {hash : K → BitVec 64} {m : Map K V} {N : Nat} (w : WF hash m N) {p : Nat} (hpN : p < N) {key : K} {v : V}
    (hkv : m.kv p = .full key v) :
    ∃ m', shiftDown (m.mask + 2) m p = .ok m' ∧ WF hash { m' with num := m'.num - 1 } N ∧ m'.num = m.num ∧ 0 < m.num ∧
      (∀ k x, Has m' N k x ↔ k ≠ key ∧ Has m N k x) ∧
      ∃ D, D + 1 < N ∧ Lowered m m' N p 0 D := by
  have hN := w.pos
  have hinc := w.inc_ge
  have hp0 : (p + 0) % N = p := by rw [Nat.add_zero, Nat.mod_eq_of_lt hpN]
  have hge : ∀ i < N, m.info i ≠ 0 → m.inc ≤ m.info i := by
    intro i hi hne
    obtain ⟨k, x, hk⟩ := w.full i hi hne
    obtain ⟨d, _, hd⟩ := w.place i hi k x hk
    have := probe_ge hash m k d
    have h3 : 1 * m.inc ≤ (d + 1) * m.inc := Nat.mul_le_mul_right _ (by omega)
    omega
  have hpi : m.info p ≠ 0 := w.info_pos hpN hkv
  -- how far the shift goes
  obtain ⟨D, hD, hlast, hbef⟩ : ∃ D, D + 1 < N ∧ m.info ((p + (D + 1)) % N) < 2 * m.inc ∧ ∀ e < D, 2 * m.inc ≤ m.info ((p + (e + 1)) % N) := by
    obtain ⟨i, hi, h0⟩ := w.exists_empty
    obtain ⟨e, he, rfl⟩ := loc_ex p i hi
    have he0 : e ≠ 0 := by
      rintro rfl
      rw [hp0] at h0
      exact hpi h0
    have hex : ∃ e, m.info ((p + (e + 1)) % N) < 2 * m.inc := ⟨e - 1, by rw [show e - 1 + 1 = e by omega, h0]; omega⟩
    refine ⟨Nat.find hex, ?_, Nat.find_spec hex, ?_⟩
    · have := Nat.find_min' hex (m := e - 1) (by rw [show e - 1 + 1 = e by omega, h0]; omega)
      omega
    · intro e' h'
      have := Nat.find_min hex h'
      omega
  obtain ⟨m', hm', l⟩ := shiftDown_spec w.pow p D (m.mask + 2) 0 m (by have := w.mask; omega) (by omega) w.mask w.byte
    (by rw [hp0, hkv]; rfl) (by
      intro e he
      have := hbef e he
      rw [Nat.zero_add]
      exact ⟨w.full _ (Nat.mod_lt _ hN) (by omega), this⟩) (by rw [Nat.zero_add]; exact hlast)
  rw [hp0] at hm'
  have hinfo : ∀ e < N, m'.info ((p + e) % N) = if e < D then m.info ((p + (e + 1)) % N) - m.inc else if e = D then 0 else m.info ((p + e) % N) := by
    intro e he
    rw [l.info e he]
    simp
  have hkv' : ∀ e < N, m'.kv ((p + e) % N) = if e < D then m.kv ((p + (e + 1)) % N) else if e = D then .raw else m.kv ((p + e) % N) := by
    intro e he
    rw [l.kv e he]
    simp
  have hpb : ∀ k j, probe hash m' k j = probe hash m k j := by
    intro k j; unfold probe bits; rw [l.inc, l.shift]
  have hnum : 0 < m.num := by
    rw [w.count, Finset.card_pos]
    exact ⟨p, by simp [hpN, hpi]⟩
  -- where the entry in a cell was before
  have old : ∀ e < N, ∀ k x, m'.kv ((p + e) % N) = .full k x → m.kv ((p + (if e < D then e + 1 else e)) % N) = .full k x ∧ (if e < D then e + 1 else e) ≠ 0 ∧ (if e < D then e + 1 else e) < N := by
    intro e he k x hk
    rw [hkv' e he] at hk
    by_cases h1 : e < D
    · rw [if_pos h1] at hk
      rw [if_pos h1]
      exact ⟨hk, by omega, by omega⟩
    · rw [if_neg h1] at hk
      rw [if_neg h1]
      by_cases h2 : e = D
      · rw [if_pos h2] at hk
        cases hk
      · rw [if_neg h2] at hk
        exact ⟨hk, by omega, he⟩
  refine ⟨m', hm', ?_, l.num, hnum, ?_, D, hD, l⟩
  rotate_left
  · intro k x
    constructor
    · rintro ⟨i, hi, hk⟩
      obtain ⟨e, he, rfl⟩ := loc_ex p i hi
      obtain ⟨h1, h2, h3⟩ := old e he k x hk
      refine ⟨?_, _, Nat.mod_lt _ hN, h1⟩
      rintro rfl
      have := w.uniq _ (Nat.mod_lt _ hN) p hpN k x v h1 hkv
      rw [← hp0] at this
      rw [hp0] at this
      have := loc_inj (p := p) h3 hN (by rw [hp0]; exact this)
      exact h2 this
    · rintro ⟨hne, i, hi, hk⟩
      obtain ⟨e, he, rfl⟩ := loc_ex p i hi
      have he0 : e ≠ 0 := by
        rintro rfl
        rw [hp0, hkv] at hk
        cases hk
        exact hne rfl
      by_cases h1 : e ≤ D
      · refine ⟨_, Nat.mod_lt (p + (e - 1)) hN, ?_⟩
        rw [hkv' _ (by omega), if_pos (by omega), show e - 1 + 1 = e by omega]
        exact hk
      · refine ⟨_, hi, ?_⟩
        rw [hkv' _ he, if_neg (by omega), if_neg (by omega)]
        exact hk
  refine ⟨w.pow, by dsimp only; rw [l.mask]; exact w.mask, by dsimp only; rw [l.inc, l.shift]; exact w.incs, ?_, ?_, ?_, ?_, ?_, ?_, ?_, ?_, ?_, ?_⟩
  · intro i hi
    obtain ⟨e, he, rfl⟩ := loc_ex p i hi
    dsimp only
    rw [hinfo e he]
    have h1 := w.byte _ (Nat.mod_lt (p + (e + 1)) hN)
    have h2 := w.byte _ (Nat.mod_lt (p + e) hN)
    split
    · omega
    · split <;> omega
  · intro i hi hz
    obtain ⟨e, he, rfl⟩ := loc_ex p i hi
    dsimp only at hz ⊢
    rw [hinfo e he] at hz
    rw [hkv' e he]
    by_cases h1 : e < D
    · rw [if_pos h1] at hz
      have := hbef e h1
      omega
    · rw [if_neg h1] at hz ⊢
      by_cases h2 : e = D
      · rw [if_pos h2]
      · rw [if_neg h2] at hz ⊢
        exact w.raw _ hi hz
  · intro i hi hz
    obtain ⟨e, he, rfl⟩ := loc_ex p i hi
    dsimp only at hz ⊢
    rw [hinfo e he] at hz
    rw [hkv' e he]
    by_cases h1 : e < D
    · rw [if_pos h1]
      have := hbef e h1
      exact w.full _ (Nat.mod_lt _ hN) (by omega)
    · rw [if_neg h1] at hz ⊢
      by_cases h2 : e = D
      · rw [if_pos h2] at hz
        exact absurd rfl hz
      · rw [if_neg h2] at hz ⊢
        exact w.full _ hi hz
  · intro i hi k x hk
    obtain ⟨e, he, rfl⟩ := loc_ex p i hi
    dsimp only at hk ⊢
    rw [hkv' e he] at hk
    rw [hinfo e he]
    have hpb' : ∀ d, probe hash { m' with num := m'.num - 1 } k d = probe hash m k d := hpb k
    simp only [hpb']
    by_cases h1 : e < D
    · rw [if_pos h1] at hk ⊢
      obtain ⟨d, hd, hi'⟩ := w.place _ (Nat.mod_lt _ hN) k x hk
      have hb := hbef e h1
      have hd0 : d ≠ 0 := by
        rintro rfl
        rw [hi'] at hb
        have := w.bits_lt k
        unfold probe at hb
        omega
      refine ⟨d - 1, ?_, ?_⟩
      · have h3 : (home hash N k + (d - 1 + 1)) % N = (p + (e + 1)) % N := by rw [show d - 1 + 1 = d by omega]; exact hd.symm
        rw [← succ_loc, ← succ_loc p] at h3
        have := loc_inj (p := 1) (Nat.mod_lt (home hash N k + (d - 1)) hN) (Nat.mod_lt (p + e) hN) (by rw [Nat.add_comm 1, Nat.add_comm 1]; exact h3)
        exact this.symm
      · have := probe_succ hash m k (d - 1)
        rw [show d - 1 + 1 = d by omega] at this
        omega
    · rw [if_neg h1] at hk ⊢
      by_cases h2 : e = D
      · rw [if_pos h2] at hk
        cases hk
      · rw [if_neg h2] at hk ⊢
        exact w.place _ hi k x hk
  · intro i hi
    obtain ⟨e, he, rfl⟩ := loc_ex p i hi
    dsimp only
    rw [succ_loc, hinfo e he, l.inc]
    have hst := w.step' p e
    by_cases hw : e + 1 = N
    · have hz : (p + (e + 1)) % N = (p + 0) % N := by rw [hw]; simp
      have hst' := w.step' p 0
      have hgp := hge p hpN hpi
      rw [hz] at hst
      rw [hz, hinfo 0 hN, if_neg (show ¬ e < D by omega), if_neg (show ¬ e = D by omega)]
      rw [hp0] at hst hst' ⊢
      by_cases h1 : 0 < D
      · rw [if_pos h1]
        have := hbef 0 h1
        omega
      · rw [if_neg h1]
        by_cases h2 : 0 = D
        · rw [if_pos h2]; omega
        · rw [if_neg h2]; omega
    · rw [hinfo (e + 1) (by omega)]
      have hst' := w.step' p (e + 1)
      by_cases h1 : e + 1 < D
      · rw [if_pos h1, if_pos (by omega)]
        have := hbef e (by omega)
        have := hbef (e + 1) (by omega)
        omega
      · rw [if_neg h1]
        by_cases h2 : e + 1 = D
        · rw [if_pos h2]; omega
        · rw [if_neg h2, if_neg (show ¬ e < D by omega)]
          by_cases h3 : e = D
          · rw [if_pos h3]
            rw [← h3] at hlast
            omega
          · rw [if_neg h3]; exact hst
  · intro i hi j hj k x y hx hy
    obtain ⟨e, he, rfl⟩ := loc_ex p i hi
    obtain ⟨e', he', rfl⟩ := loc_ex p j hj
    obtain ⟨hx1, hx2, hx3⟩ := old e he k x hx
    obtain ⟨hy1, hy2, hy3⟩ := old e' he' k y hy
    have := w.uniq _ (Nat.mod_lt _ hN) _ (Nat.mod_lt _ hN) k x y hx1 hy1
    have := loc_inj hx3 hy3 this
    have hD1 : e ≠ D := by
      rintro rfl
      have : m'.kv ((p + e) % N) = .full k x := hx
      rw [hkv' e he, if_neg (by omega), if_pos rfl] at this
      cases this
    have hD2 : e' ≠ D := by
      rintro rfl
      have : m'.kv ((p + e') % N) = .full k y := hy
      rw [hkv' e' he', if_neg (by omega), if_pos rfl] at this
      cases this
    have : e = e' := by
      by_cases c1 : e < D <;> by_cases c2 : e' < D <;> simp only [c1, c2, if_true, if_false] at this <;> omega
    rw [this]
  · dsimp only
    rw [l.num, w.count]
    have hset : (Finset.range N).filter (fun i => m.info i ≠ 0) = Insert.insert ((p + D) % N) ((Finset.range N).filter (fun i => m'.info i ≠ 0)) := by
      ext i
      simp only [Finset.mem_filter, Finset.mem_range, Finset.mem_insert]
      constructor
      · rintro ⟨hi, hz⟩
        obtain ⟨e, he, rfl⟩ := loc_ex p i hi
        by_cases hc : e = D
        · left; rw [hc]
        · right
          refine ⟨hi, ?_⟩
          rw [hinfo e he]
          by_cases h1 : e < D
          · rw [if_pos h1]
            have := hbef e h1
            omega
          · rw [if_neg h1, if_neg hc]; exact hz
      · have hnz : ∀ e ≤ D, m.info ((p + e) % N) ≠ 0 := by
          intro e he
          by_cases h : e = 0
          · rw [h, hp0]; exact hpi
          · have := hbef (e - 1) (by omega)
            rw [show e - 1 + 1 = e by omega] at this
            omega
        rintro (rfl | ⟨hi, hz⟩)
        · exact ⟨Nat.mod_lt _ hN, hnz D (le_refl _)⟩
        · refine ⟨hi, ?_⟩
          obtain ⟨e, he, rfl⟩ := loc_ex p i hi
          by_cases h1 : e ≤ D
          · exact hnz e h1
          · rw [hinfo e he, if_neg (by omega), if_neg (by omega)] at hz
            exact hz
    rw [hset, Finset.card_insert_of_notMem]
    · omega
    · simp [hinfo D (by omega)]
  · dsimp only
    rw [l.max, l.inc]
    rcases w.most with h | ⟨h, h3⟩
    · exact .inl h
    · refine .inr ⟨h, ?_⟩
      intro i hi
      obtain ⟨e, he, rfl⟩ := loc_ex p i hi
      rw [hinfo e he]
      have h1 := h3 _ (Nat.mod_lt (p + (e + 1)) hN)
      have h2 := h3 _ (Nat.mod_lt (p + e) hN)
      split
      · omega
      · split <;> omega
  · dsimp only
    have := w.load
    rw [l.num]; omega
  · dsimp only
    rw [l.out N (le_refl _)]
    exact ⟨w.tail.1, fun i hi => by rw [l.out i (by omega)]; exact w.tail.2 i hi⟩

end RobinHood
end VecGeom
