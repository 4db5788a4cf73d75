import Verif.NavIndex.Loc
import Verif.NavPath.Props

/-!
# Properties of the navigation index table and the index state (C01 - C05, index side of C08)
-/

namespace VecGeom
namespace NavIndex
open NavPath

/-- Example world: two placements of the same content, depth 3, one node (level 2) whose matrix is cached on
request.  Ids equal positions in the compacted buffer. -/
noncomputable def demoWorld : PVol :=
  .mk 0 (-1) 0 .identity false
    [.mk 1 0 1 Trans3.sample false [.mk 2 0 2 Trans3.sample true [], .mk 3 1 2 Trans3.sample false []],
     .mk 4 1 3 (.ofTranslation 1 2 3) false []]

/-- The registry of the example. -/
noncomputable def demoLookup : Nat → Option PVol
  | 0 => some demoWorld
  | 1 => demoWorld.daughters[0]?
  | 2 => demoWorld.daughters[0]?.bind fun v => v.daughters[0]?
  | 3 => demoWorld.daughters[0]?.bind fun v => v.daughters[1]?
  | 4 => demoWorld.daughters[1]?
  | _ => none

theorem demo_fits : Fits demoWorld 3 := by simp [Fits, FitsL, demoWorld]

theorem demo_sub {u : PVol} (h : PVol.Sub demoWorld u) :
    u = demoWorld ∨ demoWorld.daughters[0]? = some u ∨
      (demoWorld.daughters[0]?.bind fun v => v.daughters[0]?) = some u ∨
      (demoWorld.daughters[0]?.bind fun v => v.daughters[1]?) = some u ∨ demoWorld.daughters[1]? = some u := by
  cases h with
  | refl => exact Or.inl rfl
  | step hd h =>
    simp only [demoWorld, PVol.daughters, List.mem_cons, List.not_mem_nil, or_false] at hd
    rcases hd with rfl | rfl
    · cases h with
      | refl => exact Or.inr (Or.inl rfl)
      | step hd h =>
        simp only [PVol.daughters, List.mem_cons, List.not_mem_nil, or_false] at hd
        rcases hd with rfl | rfl
        · cases h with
          | refl => exact Or.inr (Or.inr (Or.inl rfl))
          | step hd h => simp [PVol.daughters] at hd
        · cases h with
          | refl => exact Or.inr (Or.inr (Or.inr (Or.inl rfl)))
          | step hd h => simp [PVol.daughters] at hd
    · cases h with
      | refl => exact Or.inr (Or.inr (Or.inr (Or.inr rfl)))
      | step hd h => simp [PVol.daughters] at hd

theorem demo_wf : PVol.WF demoLookup demoWorld := by
  constructor
  · intro u hu
    rcases demo_sub hu with rfl | h | h | h | h
    · rfl
    all_goals (cases h; rfl)
  · intro u hu i d hd
    rcases demo_sub hu with rfl | h | h | h | h
    · match i, hd with
      | 0, hd => cases hd; rfl
      | 1, hd => cases hd; rfl
    · cases h
      match i, hd with
      | 0, hd => cases hd; rfl
      | 1, hd => cases hd; rfl
    all_goals (cases h; cases hd)

theorem demo_flags {u : PVol} (h : PVol.Sub demoWorld u) : u.trans.FlagsOk := by
  have h1 := Trans3.sample_flagsOk
  have h2 : (Trans3.ofTranslation 1 2 3).FlagsOk := by
    constructor <;> simp [Trans3.ofTranslation]
  rcases demo_sub h with rfl | h | h | h | h
  · exact Trans3.identity_flagsOk
  all_goals (cases h; first | exact h1 | exact h2)

/-! ## C01: building the table -/

/-- C01: for any tree that respects the record format (at most 255 levels, not more than the declared depth
plus the world, fewer than 65535 daughters per volume, table indexable by 32 bits) both passes terminate without an access
outside the table or the path stack, whatever the fresh memory contained; the filling pass ends exactly at
the size computed by the counting pass; and the finished table holds the complete record of every node. -/
theorem C01_create (w : Nat) (hw : w = 1 ∨ w = 2) (garbage : Nat → Cell) (world : PVol) (maxdepth : Nat) (lim : Int)
    (e : Nat) (hfit : Fits world e) (he : e ≤ maxdepth + 1) (h255 : e ≤ 255)
    (h32 : subEnd w lim world 0 1 < 2 ^ 32) :
    ∃ t cur, createTable w garbage world maxdepth lim = some (t, cur) ∧ t.nelem = cur + 1 ∧
      cur = subEnd w lim world 0 1 ∧ Enc w lim t.mem world [] 1 0 := by
  have hr : Repr (makeInstance maxdepth : NavPath PVol) [] := ⟨rfl, by simp [makeInstance], by simp⟩
  have hlen : (makeInstance maxdepth : NavPath PVol).slots.length = maxdepth + 1 := by simp [makeInstance]
  obtain ⟨st1, h1, hr1, hl1⟩ := visit_count hw lim world 1 e _ [] 0 0 hr hfit (by simp [hlen]; omega)
    (by simp; omega) (Or.inl (by simp [cacheTrans]; omega))
  have hr2 : Repr st1.clear ([] : List PVol) := Repr.clear
  have hl2 : st1.clear.slots.length = maxdepth + 1 := by simp [clear, hl1, hlen]
  obtain ⟨t, st2, h2, -, -, hn, henc, -, -⟩ := visit_fill w lim world e 1
    (allocate garbage (4 * subEnd w lim world 0 1)) st1.clear [] 0 0 hr2 hfit (by simp [hl2]; omega)
    (by simp; omega) (by simp [allocate]) h32 (Or.inl rfl) (by omega)
  refine ⟨t, subEnd w lim world 0 1, ?_, ?_, rfl, henc⟩
  · unfold createTable
    simp only [List.length_nil, Nat.cast_zero, Nat.mul_one] at h1 h2
    rw [h1]; simp only; rw [h2]
  · rw [hn]; simp [allocate]

/-- A table made by `createTable` for a tree that respects the record format. -/
def Ready (w : Nat) (lim : Int) (t : Tab) (world : PVol) : Prop :=
  (w = 1 ∨ w = 2) ∧ subEnd w lim world 0 1 < 2 ^ 32 ∧ ∃ garbage maxdepth e cur, Fits world e ∧ e ≤ maxdepth + 1 ∧
    e ≤ 255 ∧ createTable w garbage world maxdepth lim = some (t, cur)

mutual
theorem fits_mono : ∀ (v : PVol) (a b : Nat), a ≤ b → Fits v a → Fits v b
  | .mk _ _ _ _ _ ds, a, b, hab, h => by
    obtain ⟨a, rfl⟩ := fits_pos h
    obtain ⟨b, rfl⟩ : ∃ b', b = b' + 1 := ⟨b - 1, by omega⟩
    simp only [Fits] at h ⊢
    exact ⟨h.1, fitsL_mono ds a b (by omega) h.2⟩
theorem fitsL_mono : ∀ (ds : List PVol) (a b : Nat), a ≤ b → FitsL ds a → FitsL ds b
  | [], _, _, _, _ => by simp only [FitsL]
  | d :: ds, a, b, hab, h => by
    simp only [FitsL] at h ⊢
    exact ⟨fits_mono d a b hab h.1, fitsL_mono ds a b hab h.2⟩
end

theorem Ready.built {w : Nat} {lim : Int} {t : Tab} {world : PVol} (h : Ready w lim t world) :
    Built w lim t world := by
  obtain ⟨hw, h32, garbage, maxdepth, e, cur, hf, he, h255, hc⟩ := h
  obtain ⟨t', cur', h1, h2, h3, h4⟩ := C01_create w hw garbage world maxdepth lim e hf he h255 h32
  rw [hc] at h1
  cases h1
  exact ⟨h4, by omega, fits_mono _ _ _ h255 hf, hw⟩

theorem demo_ready (w : Nat) (hw : w = 1 ∨ w = 2) (lim : Int) (h : lim = 0 ∨ lim = 1) :
    ∃ t, Ready w lim t demoWorld := by
  have hs : subEnd w lim demoWorld 0 1 < 2 ^ 32 := by
    rcases hw with rfl | rfl <;> rcases h with rfl | rfl <;>
      simp [subEnd, subEndL, demoWorld, recEnd, cacheTrans, dataIndex, daughterIndices, PVol.daughters, PVol.reqCaching]
  obtain ⟨t, cur, h1, -⟩ := C01_create w hw (fun _ => .word 77) demoWorld 3 lim 3 demo_fits (by omega) (by omega) hs
  exact ⟨t, hw, hs, _, 3, 3, cur, demo_fits, by omega, by omega, h1⟩

/-- The hypotheses of C01 hold for the example, with both element sizes, with and without a cache depth limit. -/
example : ∃ t cur, createTable 2 (fun _ => .word 77) demoWorld 3 1 = some (t, cur) ∧ cur = 122 := by
  have hs : subEnd 2 1 demoWorld 0 1 = 122 := by
    simp [subEnd, subEndL, demoWorld, recEnd, cacheTrans, dataIndex, daughterIndices, PVol.daughters, PVol.reqCaching]
  obtain ⟨t, cur, h1, -, h2, -⟩ := C01_create 2 (Or.inr rfl) (fun _ => .word 77) demoWorld 3 1 3 demo_fits
    (by omega) (by omega) (by omega)
  exact ⟨t, cur, h1, by omega⟩

variable {w : Nat} {lim : Int} {t : Tab} {world : PVol} {lookup : Nat → Option PVol}

/-! ## C02: an index state behaves like the path -/

theorem push_loc (hb : Built w lim t world) (hw : PVol.WF lookup world) {path : List PVol} {nav i : Nat} {d : PVol}
    (hs : Stands t world path nav) (ht : target world path i = some d) :
    ∃ nav', pushI t nav d = some nav' ∧ Stands t world (path ++ [d]) nav' := by
  rcases hs with ⟨rfl, rfl⟩ | h
  · simp only [target, List.getLast?_nil, Option.some.injEq] at ht
    subst ht
    exact ⟨1, rfl, Or.inr .root⟩
  · have hpos := (h.len hb).2.2
    have hsub := h.sub
    obtain ⟨anc, u, rfl⟩ := h.getLast
    simp only [target, List.getLast?_append, List.getLast?_singleton, Option.some_or] at ht
    obtain ⟨idx, e, hlt, hl⟩ := h.extend hb ht
    have hc := hw.child u (hsub u (by simp)) i d ht
    refine ⟨idx, ?_, Or.inr hl⟩
    have e3 : ((nav : Int) + 3 + (i : Int)).toNat = nav + 3 + i := by omega
    rw [pushI, if_pos (by omega), hc, if_neg (by omega), e3]
    exact word_of hlt e

theorem pop_loc (hb : Built w lim t world) {path : List PVol} {nav : Nat}
    (hs : Stands t world path nav) : ∃ nav', popI t nav = some nav' ∧ Stands t world path.dropLast nav' := by
  rcases hs with ⟨rfl, rfl⟩ | h
  · exact ⟨0, rfl, Or.inl ⟨rfl, rfl⟩⟩
  · have hpos := (h.len hb).2.2
    obtain ⟨anc, v, mo, rfl, hI⟩ := h.info hb
    refine ⟨mo, by rw [popI, if_pos (by omega), hI.acc.mother], ?_⟩
    rw [List.dropLast_concat]
    rcases hI.up with h0 | h0
    · exact Or.inl ⟨h0.1, h0.2.1⟩
    · exact Or.inr h0.2.1

/-- C02: every sequence of moves that is possible on paths (entering the world, entering existing daughters, leaving)
runs without undefined behaviour on an index state that starts outside, and ends at the index of that path. -/
theorem C02_history (hr : Ready w lim t world) (hw : PVol.WF lookup world) (ms : List Move) (path : List PVol)
    (h : absMoves world [] ms = some path) :
    ∃ nav, idxMoves t world [] 0 ms = some nav ∧ Stands t world path nav := by
  have hb := hr.built
  suffices H : ∀ (ms : List Move) (p : List PVol) (nav : Nat), Stands t world p nav →
      absMoves world p ms = some path → ∃ nav', idxMoves t world p nav ms = some nav' ∧ Stands t world path nav' from
    H ms [] 0 (Or.inl ⟨rfl, rfl⟩) h
  intro ms
  induction ms with
  | nil =>
    intro p nav hs h
    simp only [absMoves, Option.some.injEq] at h
    subst h
    exact ⟨nav, rfl, hs⟩
  | cons m ms ih =>
    intro p nav hs h
    cases m with
    | push i =>
      simp only [absMoves, absMove] at h
      cases hd : target world p i with
      | none => rw [hd] at h; simp at h
      | some d =>
        rw [hd] at h
        simp only [Option.map_some] at h
        obtain ⟨nav', e, hs'⟩ := push_loc hb hw hs hd
        obtain ⟨nav'', e', hs''⟩ := ih _ _ hs' h
        exact ⟨nav'', by simp only [idxMoves, hd, e, e'], hs''⟩
    | pop =>
      simp only [absMoves, absMove] at h
      obtain ⟨nav', e, hs'⟩ := pop_loc hb hs
      obtain ⟨nav'', e', hs''⟩ := ih _ _ hs' h
      exact ⟨nav'', by simp only [idxMoves, e, e'], hs''⟩

theorem atI_loc (hb : Built w lim t world) (hw : PVol.WF lookup world) {path : List PVol} {nav : Nat}
    (h : Loc t world path nav) {fuel : Nat} (hf : path.length < fuel) (k : Int) :
    atI lookup t fuel nav k = some (if 0 ≤ k then path[k.toNat]? else none) := by
  by_cases hk : 0 ≤ k ∧ k.toNat < path.length
  · obtain ⟨nav', e, hl⟩ := getNavIndex_loc hb h hk.2 hf
    have ek : ((k.toNat : Nat) : Int) = k := by omega
    rw [ek] at e
    rw [atI, e]
    simp only
    rw [topI_loc hb hw hl, if_pos hk.1, List.getLast?_take]
    simp [List.getElem?_eq_getElem hk.2]
  · have hn : (if 0 ≤ k then path[k.toNat]? else none) = none := by
      split
      · exact List.getElem?_eq_none (by omega)
      · rfl
    obtain ⟨anc, v, mo, rfl, hI⟩ := h.info hb
    have hl := hI.acc.level
    have := upLoop_out hb _ fuel _ nav ((anc.length : Int) - k) rfl h (by
      simp only [List.length_append, List.length_singleton] at hk ⊢; omega) hf
    rw [hn, atI, getNavIndex, hl]
    simp only
    rw [this]; simp [topI]

theorem word2_zero (hb : Built w lim t world) : t.word 2 = some world.id := by
  have h : Loc t world [world] 1 := .root
  obtain ⟨mo, ha, -⟩ := h.acc (anc := []) hb
  exact ha.pid

/-- C02: what a state shows is what its path says: current placement, level, number of daughters, the
placement and its id at every level (null / 0 for levels the path does not have). -/
theorem C02_observe (hr : Ready w lim t world) (hw : PVol.WF lookup world) {path : List PVol} {nav : Nat}
    (hs : Stands t world path nav) (fuel : Nat) (hf : path.length < fuel) :
    (nav = 0 ↔ path = []) ∧ topI lookup t nav = some path.getLast? ∧
    (∀ k : Int, atI lookup t fuel nav k = some (if 0 ≤ k then path[k.toNat]? else none)) ∧
    (∀ k : Int, valueAt t fuel nav k = some (((if 0 ≤ k then path[k.toNat]? else none).map PVol.id).getD 0)) ∧
    (∀ u, path.getLast? = some u → getLevel t nav = some (path.length - 1) ∧
      getNdaughters t nav = some u.daughters.length) := by
  have hb := hr.built
  rcases hs with ⟨rfl, rfl⟩ | h
  · have h2 := word2_zero hb
    have hg : ∀ k, getNavIndex t fuel 0 k = some 0 := by
      intro k
      obtain ⟨f, rfl⟩ : ∃ f, fuel = f + 1 := ⟨fuel - 1, by simp at hf; omega⟩
      rw [getNavIndex, getLevel, Nat.zero_add, h2]; simp [upLoop]
    refine ⟨by simp, rfl, ?_, ?_, by simp⟩
    · intro k; rw [atI, hg]; simp [topI]
    · intro k; rw [valueAt, hg]; simp
  · have hat := atI_loc hb hw h hf
    refine ⟨?_, topI_loc hb hw h, hat, ?_, ?_⟩
    · have := h.len hb
      constructor
      · intro h0; omega
      · intro h0; rw [h0] at this; simp at this
    · intro k
      have := hat k
      rw [atI] at this
      rw [valueAt]
      cases hg : getNavIndex t fuel nav k with
      | none => rw [hg] at this; simp at this
      | some pa =>
        rw [hg] at this
        simp only at this ⊢
        rw [topI] at this
        by_cases hp : pa > 0
        · rw [if_pos hp] at this ⊢
          cases hwd : t.word (pa + 1) with
          | none => rw [hwd] at this; simp at this
          | some i =>
            rw [hwd] at this
            simp only at this
            cases hlk : lookup i with
            | none => rw [hlk] at this; simp at this
            | some v =>
              rw [hlk] at this
              simp only [Option.some.injEq] at this
              rw [← this]
              -- the stored id is the id of the placement found under it
              have hk : 0 ≤ k ∧ k.toNat < path.length := by
                by_contra hc
                split at this
                · rw [List.getElem?_eq_none (by omega)] at this; cases this
                · cases this
              obtain ⟨nav', e, hl⟩ := getNavIndex_loc hb h hk.2 hf
              have ek : ((k.toNat : Nat) : Int) = k := by omega
              rw [ek, hg] at e
              cases e
              obtain ⟨a', v', mo', he', hI'⟩ := hl.info hb
              have hp' := hI'.acc.pid
              rw [hwd] at hp'
              cases hp'
              have hsub := hl.sub v' (by rw [he']; simp)
              rw [hw.find v' hsub] at hlk
              cases hlk
              simp
        · rw [if_neg hp] at this ⊢
          simp only [Option.some.injEq] at this
          rw [← this]; simp
    · intro u hu
      obtain ⟨anc, v, mo, rfl, hI⟩ := h.info hb
      simp only [List.getLast?_append, List.getLast?_singleton, Option.some_or, Option.some.injEq] at hu
      subst hu
      exact ⟨by rw [hI.acc.level]; simp, hI.acc.nd⟩

/-- Finding: outside, the level reported is not a level at all but the low byte of the world's id
(word 2 of the table). -/
theorem C02_outside_level (hr : Ready w lim t world) : getLevel t 0 = some (world.id % 256) := by
  rw [getLevel, Nat.zero_add, word2_zero hr.built]; rfl

example : ∃ t nav, Ready 2 1 t demoWorld ∧ idxMoves t demoWorld [] 0 [.push 0, .push 0, .push 1, .pop, .push 0] = some nav ∧
    getLevel t nav = some 2 ∧ (topI demoLookup t nav = some (demoLookup 2)) := by
  obtain ⟨t, ht⟩ := demo_ready 2 (Or.inr rfl) 1 (Or.inr rfl)
  obtain ⟨nav, h1, h2⟩ := C02_history ht demo_wf [.push 0, .push 0, .push 1, .pop, .push 0] _ rfl
  obtain ⟨-, h3, -, -, h4⟩ := C02_observe ht demo_wf h2 10 (by simp)
  exact ⟨t, nav, ht, h1, (h4 _ rfl).1, h3⟩

/-! ## C03: one index per path -/

/-- C03: paths and indices determine each other: a path leads to only one index, and an index belongs to one path. -/
theorem C03_injective (hr : Ready w lim t world) (hw : PVol.WF lookup world) {p q : List PVol} {a b : Nat}
    (hp : Stands t world p a) (hq : Stands t world q b) : p = q ↔ a = b := by
  have hb := hr.built
  have key1 : ∀ (n : Nat) (p : List PVol) (a b : Nat), p.length = n → Loc t world p a → Loc t world p b → a = b := by
    intro n
    induction n with
    | zero => intro p a b hn h; have := (h.len hb).1; omega
    | succ n ih =>
      intro p a b hn h h'
      generalize hpd : p = p' at h'
      cases h with
      | root =>
        subst hpd
        rcases h'.info hb with ⟨anc, v, mo, e, hI⟩
        have e' : anc = [] := by
          have := congrArg List.length e; simp at this; exact this
        rcases hI.up with h0 | h0
        · exact h0.2.2.1.symm
        · have := (h0.2.1.len hb).1; rw [e'] at this; simp at this
      | @step anc mo i idx u d hl hd hm =>
        cases h' with
        | root =>
          have := congrArg List.length hpd; simp at this
        | @step anc' mo' i' idx' u' d' hl' hd' hm' =>
          obtain ⟨e1, e2⟩ := List.append_inj' hpd rfl
          simp only [List.cons.injEq, and_true] at e2
          subst e2
          rw [← e1] at hl'
          obtain ⟨-, e3⟩ := List.append_inj' e1 rfl
          simp only [List.cons.injEq, and_true] at e3
          subst e3
          have hs : PVol.Sub world u := hl.sub u (by simp)
          have c1 := hw.child u hs i d hd
          have c2 := hw.child u hs i' d hd'
          have ei : i = i' := by omega
          subst ei
          have hn' : (anc ++ [u]).length = n := by simp at hn ⊢; omega
          have := ih _ mo mo' hn' hl hl'
          subst this
          rw [hm] at hm'
          cases hm'
          rfl
  have key2 : ∀ (n : Nat) (p q : List PVol) (a : Nat), p.length = n → Loc t world p a → Loc t world q a → p = q := by
    intro n
    induction n with
    | zero => intro p q a hn h; have := (h.len hb).1; omega
    | succ n ih =>
      intro p q a hn h h'
      have s1 := h.sub
      have s2 := h'.sub
      obtain ⟨anc, v, mo, rfl, hI⟩ := h.info hb
      obtain ⟨anc', v', mo', rfl, hI'⟩ := h'.info hb
      have a1 := hI.acc
      have a2 := hI'.acc
      have ei := a1.pid.symm.trans a2.pid
      have em := a1.mother.symm.trans a2.mother
      simp only [Option.some.injEq] at ei em
      have f1 := hw.find v (s1 v (by simp))
      have f2 := hw.find v' (s2 v' (by simp))
      rw [ei, f2] at f1
      cases f1
      subst em
      rcases hI.up with h0 | h0 <;> rcases hI'.up with h1 | h1
      · rw [h0.1, h1.1]
      · omega
      · omega
      · rw [ih anc anc' mo (by simpa using hn) h0.2.1 h1.2.1]
  rcases hp with ⟨rfl, rfl⟩ | hp <;> rcases hq with ⟨rfl, rfl⟩ | hq
  · simp
  · have := hq.len hb
    constructor
    · intro h; rw [← h] at this; simp at this
    · intro h; omega
  · have := hp.len hb
    constructor
    · intro h; rw [h] at this; simp at this
    · intro h; omega
  · constructor
    · intro h; subst h; exact key1 _ p a b rfl hp hq
    · intro h; subst h; exact key2 _ p q a rfl hp hq

/-- C03: every path of the geometry has an index. -/
theorem C03_total (hr : Ready w lim t world) (c : List Nat) (path : List PVol)
    (h : PVol.follow world c = some path) : ∃ nav, Stands t world path nav := by
  have hb := hr.built
  suffices H : ∀ (c : List Nat) (anc : List PVol) (u : PVol) (nav : Nat) (p : List PVol),
      Loc t world (anc ++ [u]) nav → PVol.follow u c = some p → ∃ nav', Loc t world (anc ++ p) nav' by
    obtain ⟨nav, hn⟩ := H c [] world 1 path .root h
    exact ⟨nav, Or.inr hn⟩
  intro c
  induction c with
  | nil => intro anc u nav p hl h; cases h; exact ⟨nav, hl⟩
  | cons i c ih =>
    intro anc u nav p hl h
    simp only [PVol.follow] at h
    cases hd : u.daughters[i]? with
    | none => rw [hd] at h; cases h
    | some d =>
      rw [hd] at h
      simp only [Option.map_eq_some_iff] at h
      obtain ⟨p', hp', rfl⟩ := h
      obtain ⟨idx, -, -, hl'⟩ := hl.extend hb hd
      obtain ⟨nav', hn⟩ := ih (anc ++ [u]) d idx p' hl' hp'
      exact ⟨nav', by simpa using hn⟩

example : ∃ t a b p q, Ready 1 0 t demoWorld ∧ Stands t demoWorld p a ∧ Stands t demoWorld q b ∧ a ≠ b := by
  obtain ⟨t, ht⟩ := demo_ready 1 (Or.inl rfl) 0 (Or.inl rfl)
  obtain ⟨a, ha⟩ := C03_total ht [0, 1] _ rfl
  obtain ⟨b, hb⟩ := C03_total ht [1] _ rfl
  refine ⟨t, a, b, _, _, ht, ha, hb, fun h => ?_⟩
  have := congrArg List.length ((C03_injective ht demo_wf ha hb).mpr h)
  simp at this

/-! ## C04: cached matrices -/

/-- C04: the global matrix of a state is the product of the placements below the world along its path, with
whatever cache depth limit the table was built. -/
theorem C04_topMatrix (hr : Ready w lim t world) (hw : PVol.WF lookup world)
    (hfl : ∀ u, PVol.Sub world u → u.trans.FlagsOk) {path : List PVol} {nav : Nat} (hs : Stands t world path nav)
    (fuel : Nat) (hf : path.length < fuel) :
    topMatrixI w lookup t fuel nav .identity = some (pathMatrix path) := by
  rcases hs with ⟨rfl, rfl⟩ | h
  · obtain ⟨f, rfl⟩ : ∃ f, fuel = f + 1 := ⟨fuel - 1, by simp at hf; omega⟩
    rfl
  · have hp : ∀ v ∈ path, v.trans.FlagsOk := fun v hv => hfl v (h.sub v hv)
    rw [topMatrix_loc hr.built hw _ fuel path nav .identity rfl h hp Trans3.identity_flagsOk (by omega),
      (Trans3.C24_identity (pathMatrix_flagsOk hp)).2]

/-- C04: a matrix already holding `T` is multiplied by the global matrix from the left. -/
theorem C04_topMatrix_acc (hr : Ready w lim t world) (hw : PVol.WF lookup world)
    (hfl : ∀ u, PVol.Sub world u → u.trans.FlagsOk) {path : List PVol} {nav : Nat} (h : Loc t world path nav)
    (fuel : Nat) (hf : path.length < fuel) (T : Trans3) (hT : T.FlagsOk) :
    topMatrixI w lookup t fuel nav T = some ((pathMatrix path).mulRight T) :=
  topMatrix_loc hr.built hw _ fuel path nav T rfl h (fun v hv => hfl v (h.sub v hv)) hT (by omega)

/-- C04: the cache setting is not observable: two tables for the same world, built with different limits and element
sizes, give the same matrix and the same local point for the same path. -/
theorem C04_cache_transparent {w' : Nat} {lim' : Int} {t' : Tab} (hr : Ready w lim t world)
    (hr' : Ready w' lim' t' world) (hw : PVol.WF lookup world) (hfl : ∀ u, PVol.Sub world u → u.trans.FlagsOk)
    {path : List PVol} {nav nav' : Nat} (hs : Stands t world path nav) (hs' : Stands t' world path nav')
    (fuel fuel' : Nat) (hf : path.length < fuel) (hf' : path.length < fuel') (p : V3) :
    topMatrixI w lookup t fuel nav .identity = topMatrixI w' lookup t' fuel' nav' .identity ∧
    globalToLocalI w lookup t fuel nav p = globalToLocalI w' lookup t' fuel' nav' p := by
  have h1 := C04_topMatrix hr hw hfl hs fuel hf
  have h2 := C04_topMatrix hr' hw hfl hs' fuel' hf'
  exact ⟨by rw [h1, h2], by simp only [globalToLocalI, h1, h2]⟩

/-- C04: index state and path state agree on the global matrix. -/
theorem C04_same_as_path (hr : Ready w lim t world) (hw : PVol.WF lookup world)
    (hfl : ∀ u, PVol.Sub world u → u.trans.FlagsOk) {path : List PVol} {nav : Nat} (hs : Stands t world path nav)
    (fuel : Nat) (hf : path.length < fuel) {s : NavPath PVol} (hp : Repr s path) :
    topMatrixI w lookup t fuel nav .identity = s.topMatrix geom .identity := by
  rw [C04_topMatrix hr hw hfl hs fuel hf, NavPath.topMatrix, hp.cur]
  cases path with
  | nil => rfl
  | cons x l =>
    have := matrixLoop_eq (g := geom) hp l.length 1 .identity (by simp; omega)
    simp only [List.length_cons, Nat.add_sub_cancel]
    rw [this]
    simp [pathMatrix, geom]

example : ∃ t t' path nav nav', Ready 2 0 t demoWorld ∧ Ready 2 1 t' demoWorld ∧ path.length = 3 ∧
    Stands t demoWorld path nav ∧ Stands t' demoWorld path nav' ∧
    topMatrixI 2 demoLookup t 9 nav .identity = topMatrixI 2 demoLookup t' 9 nav' .identity := by
  obtain ⟨t, ht⟩ := demo_ready 2 (Or.inr rfl) 0 (Or.inl rfl)
  obtain ⟨t', ht'⟩ := demo_ready 2 (Or.inr rfl) 1 (Or.inr rfl)
  obtain ⟨a, ha⟩ := C03_total ht [0, 1] _ rfl
  obtain ⟨b, hb⟩ := C03_total ht' [0, 1] _ rfl
  exact ⟨t, t', _, a, b, ht, ht', rfl, ha, hb,
    (C04_cache_transparent ht ht' demo_wf (fun u hu => demo_flags hu) ha hb 9 9 (by simp) (by simp) ⟨0, 0, 0⟩).1⟩

/-! ## C05: list of indices -/

theorem indicesLoop_loc (hb : Built w lim t world) (hw : PVol.WF lookup world) :
    ∀ (n : Nat) (fuel : Nat) (path : List PVol) (nav : Nat) (acc : List Int), path.length = n →
      Loc t world path nav → path.length ≤ fuel →
      indicesLoopI lookup t fuel nav acc = some (path.tail.map PVol.childId ++ acc) := by
  intro n
  induction n with
  | zero => intro fuel path nav acc hn h; have := (h.len hb).1; omega
  | succ n ih =>
    intro fuel path nav acc hn h hf
    obtain ⟨f, rfl⟩ : ∃ f, fuel = f + 1 := ⟨fuel - 1, by omega⟩
    have htop := topI_loc hb hw h
    obtain ⟨anc, v, mo, rfl, hI⟩ := h.info hb
    simp only [List.getLast?_append, List.getLast?_singleton, Option.some_or] at htop
    rcases hI.up with h0 | h0
    · rw [indicesLoopI, if_neg (by omega), h0.1]; simp
    · have hne : anc ≠ [] := by
        intro e; have := (h0.2.1.len hb).1; rw [e] at this; simp at this
      rw [indicesLoopI, if_pos h0.1, htop, popI, if_pos (by omega), hI.acc.mother]
      simp only
      simp only [List.length_append, List.length_singleton] at hn hf
      rw [ih f anc mo _ (by omega) h0.2.1 (by omega), List.tail_append_of_ne_nil hne]
      simp

theorem resetLoop_loc (hb : Built w lim t world) (hw : PVol.WF lookup world) :
    ∀ (c : List Nat) (anc : List PVol) (u : PVol) (nav : Nat) (p : List PVol),
      Loc t world (anc ++ [u]) nav → PVol.follow u c = some p →
      ∃ nav', resetLoopI t (c.map fun i : Nat => (i : Int)) u nav = some nav' ∧ Loc t world (anc ++ p) nav' := by
  intro c
  induction c with
  | nil => intro anc u nav p hl h; cases h; exact ⟨nav, rfl, hl⟩
  | cons i c ih =>
    intro anc u nav p hl h
    simp only [PVol.follow] at h
    cases hd : u.daughters[i]? with
    | none => rw [hd] at h; cases h
    | some d =>
      rw [hd] at h
      simp only [Option.map_eq_some_iff] at h
      obtain ⟨p', hp', rfl⟩ := h
      obtain ⟨idx, e, hs⟩ := push_loc hb hw (Or.inr hl) (i := i) (d := d)
        (by simp only [target, List.getLast?_append, List.getLast?_singleton, Option.some_or]; exact hd)
      have hl' : Loc t world (anc ++ [u] ++ [d]) idx := by
        rcases hs with ⟨h0, -⟩ | hs
        · simp at h0
        · exact hs
      obtain ⟨nav', hn, hl''⟩ := ih (anc ++ [u]) d idx p' hl' hp'
      refine ⟨nav', ?_, by simpa using hl''⟩
      simp only [List.map_cons, resetLoopI]
      rw [if_neg (by omega), Int.toNat_natCast, hd]
      simp only
      rw [e]; exact hn

theorem follow_childIds (hw : PVol.WF lookup world) : ∀ (c : List Nat) (u : PVol) (p : List PVol), PVol.Sub world u →
    PVol.follow u c = some p → p.tail.map PVol.childId = c.map fun i : Nat => (i : Int) := by
  intro c
  induction c with
  | nil => intro u p _ h; cases h; rfl
  | cons i c ih =>
    intro u p hu h
    simp only [PVol.follow] at h
    cases hd : u.daughters[i]? with
    | none => rw [hd] at h; cases h
    | some d =>
      rw [hd] at h
      simp only [Option.map_eq_some_iff] at h
      obtain ⟨p', hp', rfl⟩ := h
      have h1 := ih d p' (hu.daughter (List.mem_of_getElem? hd)) hp'
      have h2 := hw.child u hu i d hd
      cases c with
      | nil => cases hp'; simp [h2]
      | cons j c =>
        simp only [PVol.follow] at hp'
        cases hd' : d.daughters[j]? with
        | none => rw [hd'] at hp'; cases hp'
        | some d' =>
          rw [hd'] at hp'
          simp only [Option.map_eq_some_iff] at hp'
          obtain ⟨p'', -, rfl⟩ := hp'
          simp only [List.tail_cons, List.map_cons] at h1 ⊢
          rw [h1, h2]

theorem loc_follow {path : List PVol} {nav : Nat} (h : Loc t world path nav) :
    ∃ c, PVol.follow world c = some path := by
  have app : ∀ (c : List Nat) (u v d : PVol) (i : Nat) (anc : List PVol), PVol.follow u c = some (anc ++ [v]) →
      v.daughters[i]? = some d → PVol.follow u (c ++ [i]) = some (anc ++ [v] ++ [d]) := by
    intro c
    induction c with
    | nil =>
      intro u v d i anc h hd
      simp only [PVol.follow, Option.some.injEq] at h
      have h1 : anc = [] := by have := congrArg List.length h; simp at this; exact this
      subst h1
      simp only [List.nil_append, List.cons.injEq, and_true] at h
      subst h
      simp only [List.nil_append, PVol.follow, hd, Option.map_some]
      rfl
    | cons j c ih =>
      intro u v d i anc h hd
      simp only [PVol.follow] at h
      cases hj : u.daughters[j]? with
      | none => rw [hj] at h; cases h
      | some x =>
        rw [hj] at h
        simp only [Option.map_eq_some_iff] at h
        obtain ⟨p, hp, e⟩ := h
        cases anc with
        | nil =>
          simp only [List.nil_append, List.cons.injEq] at e
          rw [e.2] at hp
          cases c with
          | nil => cases hp
          | cons k c =>
            simp only [PVol.follow] at hp
            split at hp
            · cases hp
            · simp [Option.map_eq_some_iff] at hp
        | cons a anc =>
          simp only [List.cons_append, List.cons.injEq] at e
          have := ih x v d i anc (by rw [hp, e.2]) hd
          rw [← e.1]; simp only [List.cons_append, PVol.follow, hj, this, Option.map_some]
  induction h with
  | root => exact ⟨[], rfl⟩
  | step hl hd hm ih =>
    obtain ⟨c, hc⟩ := ih
    exact ⟨c ++ [_], app c _ _ _ _ _ hc hd⟩

/-- C05: reading the list of indices of a state and resetting any state from it gives back the same index. -/
theorem C05_state_roundtrip (hr : Ready w lim t world) (hw : PVol.WF lookup world) {path : List PVol} {nav : Nat}
    (hs : Stands t world path nav) (fuel : Nat) (hf : path.length < fuel) :
    ∃ l, getPathI lookup t fuel nav = some l ∧ l.length = path.length ∧ resetPathI t world l = some nav := by
  have hb := hr.built
  rcases hs with ⟨rfl, rfl⟩ | h
  · exact ⟨[], rfl, rfl, rfl⟩
  · have hlen := h.len hb
    obtain ⟨c, hc⟩ := loc_follow h
    have e1 := indicesLoop_loc hb hw _ fuel path nav [] rfl h (by omega)
    have e2 := follow_childIds hw c world path (.refl _) hc
    obtain ⟨nav', e3, hl⟩ := resetLoop_loc hb hw c [] world 1 path .root hc
    have e4 := (C03_injective hr hw (Or.inr h) (Or.inr hl)).mp rfl
    refine ⟨0 :: path.tail.map PVol.childId, ?_, by simp; omega, ?_⟩
    · rw [getPathI, if_neg (by omega), e1]; simp
    · simp only [resetPathI, pushI]
      rw [if_neg (by omega), e2]
      simp only
      rw [e3, e4]

/-- C05: resetting from any list of existing child numbers (the first entry stands for the world and is
ignored) and reading the list back returns it. -/
theorem C05_list_roundtrip (hr : Ready w lim t world) (hw : PVol.WF lookup world) (c : List Nat) (path : List PVol)
    (h : PVol.follow world c = some path) (first : Int) (fuel : Nat) (hf : path.length < fuel) :
    ∃ nav, resetPathI t world (first :: c.map fun i : Nat => (i : Int)) = some nav ∧ Stands t world path nav ∧
      getPathI lookup t fuel nav = some (0 :: c.map fun i : Nat => (i : Int)) := by
  have hb := hr.built
  obtain ⟨nav', e3, hl⟩ := resetLoop_loc hb hw c [] world 1 path .root h
  have e1 := indicesLoop_loc hb hw _ fuel path nav' [] rfl hl (by omega)
  have e2 := follow_childIds hw c world path (.refl _) h
  have hlen := Loc.len hb hl
  refine ⟨nav', ?_, Or.inr hl, ?_⟩
  · simp only [resetPathI, pushI]
    rw [if_neg (by omega)]
    exact e3
  · rw [getPathI, if_neg (by omega), e1, ← e2]; simp

example : ∃ t nav, Ready 2 1 t demoWorld ∧ resetPathI t demoWorld [0, 0, 1] = some nav ∧
    getPathI demoLookup t 9 nav = some [0, 0, 1] := by
  obtain ⟨t, ht⟩ := demo_ready 2 (Or.inr rfl) 1 (Or.inr rfl)
  obtain ⟨nav, h1, -, h2⟩ := C05_list_roundtrip ht demo_wf [0, 1] _ rfl 0 9 (by simp)
  exact ⟨t, nav, ht, h1, h2⟩

/-! ## C08, index states -/

theorem commonLoopI_eq (hb : Built w lim t world) (hw : PVol.WF lookup world) {p q : List PVol} {a b fuel : Nat}
    (ha : Loc t world p a) (hq : Loc t world q b) (hfa : p.length < fuel) (hfb : q.length < fuel) :
    ∀ (n i : Nat) (last : Int), i + n = min p.length q.length →
      commonLoopI lookup t fuel a b n i last =
        some (if lcp ((p.map PVol.id).drop i) ((q.map PVol.id).drop i) = 0 then last
          else (i : Int) + lcp ((p.map PVol.id).drop i) ((q.map PVol.id).drop i) - 1) := by
  intro n
  induction n with
  | zero =>
    intro i last h
    have : lcp ((p.map PVol.id).drop i) ((q.map PVol.id).drop i) = 0 := by
      have h1 := lcp_le_left ((p.map PVol.id).drop i) ((q.map PVol.id).drop i)
      have h2 := lcp_le_right ((p.map PVol.id).drop i) ((q.map PVol.id).drop i)
      simp at h1 h2; omega
    rw [commonLoopI, if_pos this]
  | succ n ih =>
    intro i last h
    have hi : i < p.length := by omega
    have hj : i < q.length := by omega
    rw [commonLoopI, atI_loc hb hw ha hfa, atI_loc hb hw hq hfb]
    simp only [Int.natCast_nonneg, if_true, Int.toNat_natCast]
    rw [List.getElem?_eq_getElem hi, List.getElem?_eq_getElem hj]
    rw [List.drop_eq_getElem_cons (i := i) (l := p.map PVol.id) (by simpa using hi),
      List.drop_eq_getElem_cons (i := i) (l := q.map PVol.id) (by simpa using hj)]
    simp only [List.getElem_map, Option.map_some, Option.some.injEq, lcp]
    by_cases e : p[i].id = q[i].id
    · rw [if_pos e, if_pos e, ih (i + 1) i (by omega)]
      simp only [Nat.add_eq_zero_iff, Nat.one_ne_zero, and_false, if_false]
      split
      · rename_i h0; rw [h0]; simp
      · push_cast; congr 1; ring
    · rw [if_neg e, if_neg e]; simp

/-- C08 for index states inside the geometry: levels up plus levels down to the deepest common placement. -/
theorem C08_index_distance (hr : Ready w lim t world) (hw : PVol.WF lookup world) {p q : List PVol} {a b : Nat}
    (hp : Stands t world p a) (hq : Stands t world q b) (hp0 : p ≠ []) (hq0 : q ≠ []) (fuel : Nat)
    (hf : p.length < fuel) (hg : q.length < fuel) :
    distanceI lookup t fuel a b =
      some ((p.length : Int) + q.length - 2 * lcp (p.map PVol.id) (q.map PVol.id)) := by
  have hb := hr.built
  have ha : Loc t world p a := hp.resolve_left fun h => hp0 h.1
  have hq : Loc t world q b := hq.resolve_left fun h => hq0 h.1
  have e1 : getLevel t a = some (p.length - 1) := by
    obtain ⟨anc, v, mo, rfl, hI⟩ := ha.info hb
    rw [hI.acc.level]; simp
  have e2 : getLevel t b = some (q.length - 1) := by
    obtain ⟨anc, v, mo, rfl, hI⟩ := hq.info hb
    rw [hI.acc.level]; simp
  have l1 := (ha.len hb).1
  have l2 := (hq.len hb).1
  rw [distanceI, e1, e2]
  simp only
  rw [commonLoopI_eq hb hw ha hq hf hg _ 0 (-1) (by omega)]
  simp only [List.drop_zero, Option.map_some, Option.some.injEq]
  split
  · rename_i h; rw [h]; push_cast [l1, l2]; omega
  · push_cast; omega

/-- C08 for index states: zero exactly for the same index, symmetric, triangle inequality. -/
theorem C08_index_metric (hr : Ready w lim t world) (hw : PVol.WF lookup world) {p q r : List PVol} {a b c : Nat}
    (hp : Stands t world p a) (hq : Stands t world q b) (hc : Stands t world r c)
    (hp0 : p ≠ []) (hq0 : q ≠ []) (hr0 : r ≠ []) (fuel : Nat)
    (hf : p.length < fuel) (hg : q.length < fuel) (hh : r.length < fuel) :
    ∃ ab bc ac : Int, distanceI lookup t fuel a b = some ab ∧ distanceI lookup t fuel b c = some bc ∧
      distanceI lookup t fuel a c = some ac ∧ 0 ≤ ab ∧ (ab = 0 ↔ a = b) ∧
      distanceI lookup t fuel b a = some ab ∧ ac ≤ ab + bc := by
  refine ⟨_, _, _, C08_index_distance hr hw hp hq hp0 hq0 fuel hf hg,
    C08_index_distance hr hw hq hc hq0 hr0 fuel hg hh, C08_index_distance hr hw hp hc hp0 hr0 fuel hf hh,
    ?_, ?_, ?_, ?_⟩
  · have h1 := lcp_le_left (p.map PVol.id) (q.map PVol.id)
    have h2 := lcp_le_right (p.map PVol.id) (q.map PVol.id)
    simp at h1 h2; omega
  · rw [← C03_injective hr hw hp hq]
    constructor
    · intro h
      have h1 := lcp_le_left (p.map PVol.id) (q.map PVol.id)
      have h2 := lcp_le_right (p.map PVol.id) (q.map PVol.id)
      have h3 : p.map PVol.id = q.map PVol.id := by
        apply lcp_eq_len <;> simp at h1 h2 ⊢ <;> omega
      have ha : Loc t world p a := hp.resolve_left fun h => hp0 h.1
      have hb' : Loc t world q b := hq.resolve_left fun h => hq0 h.1
      have f : ∀ l : List PVol, (∀ v ∈ l, PVol.Sub world v) → (l.map PVol.id).map lookup = l.map some := by
        intro l hl
        rw [List.map_map]
        exact List.map_congr_left fun v hv => hw.find v (hl v hv)
      have := congrArg (List.map lookup) h3
      rw [f p ha.sub, f q hb'.sub] at this
      exact List.map_injective_iff.mpr (Option.some_injective _) this
    · rintro rfl; rw [lcp_self]; simp; ring
  · rw [C08_index_distance hr hw hq hp hq0 hp0 fuel hg hf, lcp_comm (q.map PVol.id)]; congr 1; ring
  · have h1 := lcp_tri (p.map PVol.id) (q.map PVol.id) (r.map PVol.id)
    have h2 := lcp_le_left (q.map PVol.id) (r.map PVol.id)
    have h3 := lcp_le_right (p.map PVol.id) (q.map PVol.id)
    simp at h2 h3
    omega

/-- Finding: as soon as a state is outside the geometry the index `Distance` depends on the world's registry id:
two outside states are at distance `2 * (id mod 256) - 2 * (id mod 256) = 0` only because the same garbage cancels,
and an outside state is at a wrong distance from the world. -/
theorem C08_index_outside (hr : Ready w lim t world) (hw : PVol.WF lookup world) (fuel : Nat) (hf : 1 < fuel) :
    distanceI lookup t fuel 0 1 = some ((world.id % 256 : Nat) + 2) := by
  have hb := hr.built
  have h : Loc t world [world] 1 := .root
  obtain ⟨-, -, hat, -, -⟩ := C02_observe hr hw (nav := 0) (path := []) (Or.inl ⟨rfl, rfl⟩) fuel (by simp; omega)
  have e2 : getLevel t 1 = some 0 := by
    obtain ⟨mo, ha, -⟩ := h.acc (anc := []) hb
    exact ha.level
  rw [distanceI, C02_outside_level hr, e2]
  simp only [Nat.min_zero, Nat.zero_add]
  rw [commonLoopI, hat, atI_loc hb hw h (by simpa using hf)]
  simp
  ring

/-- With a world whose id is not a multiple of 256 this is not the distance 1 that the path state reports. -/
example : ∃ (a b : NavPath PVol), Repr a [] ∧ Repr b [demoWorld] ∧ (@NavPath.distance PVol (Classical.decEq _) a b = some 1) := by
  refine ⟨NavPath.makeInstance 3, ⟨[some demoWorld, none], 1, 1, -1, false⟩, ⟨rfl, rfl, by decide⟩,
    ⟨rfl, rfl, by decide⟩, ?_⟩
  have := @C08_distance PVol (Classical.decEq _) (NavPath.makeInstance 3)
    ⟨[some demoWorld, none], 1, 1, -1, false⟩ [] [demoWorld] ⟨rfl, rfl, by decide⟩ ⟨rfl, rfl, by decide⟩
  simpa [lcp] using this

example : ∃ t a b, Ready 2 1 t demoWorld ∧ distanceI demoLookup t 9 a b = some 3 := by
  obtain ⟨t, ht⟩ := demo_ready 2 (Or.inr rfl) 1 (Or.inr rfl)
  obtain ⟨a, ha⟩ := C03_total ht [0, 1] _ rfl
  obtain ⟨b, hb⟩ := C03_total ht [1] _ rfl
  refine ⟨t, a, b, ht, ?_⟩
  rw [C08_index_distance ht demo_wf ha hb (by simp) (by simp) 9 (by simp) (by simp)]
  simp [lcp, PVol.id, demoWorld]

end NavIndex
end VecGeom
