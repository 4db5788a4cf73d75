import Verif.Refl.Lemmas

/-!
# C126: the reflection factory
-/

namespace VecGeom
namespace Refl

open Trans3

/-- C126: a reflected volume is, with everything placed in it at any depth, the mirror image of its constituent, at every time at which
a user who keeps to one mirror may look. -/
theorem C126_image {shape : Nat → V3 → Prop} {s : V3} (hs : Mirror s) {st : St} (h : Reach s st) {c r : Nat} (hc : st.cons c = some r)
    (way : List Nat) (p : V3) : Content shape st.lvs r way p ↔ Content shape st.lvs c way ⟨s.x * p.x, s.y * p.y, s.z * p.z⟩ :=
  content_mirror hs (reach_inv hs h) way c r p hc

/-- C126: `GetReflectedLV` and `GetConstituentLV` are inverse to each other, name existing volumes, and no volume is both. -/
theorem C126_maps {s : V3} (hs : Mirror s) {st : St} (h : Reach s st) (c r : Nat) : (st.cons c = some r ↔ st.refl r = some c) ∧
    (st.cons c = some r → c < st.lvs.length ∧ r < st.lvs.length ∧ c ≠ r ∧ st.refl c = none ∧ st.cons r = none) := by
  have i := reach_inv hs h
  refine ⟨i.both c r, fun hc => ⟨(i.dom c r hc).1, (i.dom c r hc).2, ?_, i.disj c r hc, ?_⟩⟩
  · rintro rfl
    have := i.disj c c hc
    rw [(i.both c c).mp hc] at this
    cases this
  · cases e : st.cons r with
    | none => rfl
    | some r' =>
      have := i.disj r r' e
      rw [(i.both c r).mp hc] at this
      cases this

/-- C126: the daughters of a volume and of its reflection correspond one to one, in order, with the same copy numbers. -/
theorem C126_daughters {s : V3} (hs : Mirror s) {st : St} (h : Reach s st) {c r : Nat} (hc : st.cons c = some r) {lc lr : LV}
    (hlc : st.lvs[c]? = some lc) (hlr : st.lvs[r]? = some lr) :
    lr.daughters.map (·.copyNo) = lc.daughters.map (·.copyNo) := by
  have hd := (reach_inv hs h).daug c r lc lr hc (fun hf => hf) hlc hlr
  generalize lc.daughters = a at hd
  generalize lr.daughters = b at hd
  induction hd with
  | nil => rfl
  | cons h1 _ ih => rw [List.map_cons, List.map_cons, h1.copyNo, ih]

/-- C126: placing with the mirror adds one daughter to the mother, with the given transformation and copy number, and what is seen
through it is the mirror image of the volume given.  Apart from the mother and its reflection all volumes keep their daughters. -/
theorem C126_place {shape : Nat → V3 → Prop} {s : V3} (hs : Mirror s) {st st' : St} (h : Reach s st) {T : Trans3} (ho : T.Orthonormal)
    (hf : T.FlagsOk) {name : String} {lv mother : Nat} {copyNo : Int} (hm : mother < st.lvs.length) (hr : st.refl mother = none)
    (hx : place st T s name lv mother copyNo = some st') :
    (∃ m pl, st.lvs[mother]? = some m ∧ st'.lvs[mother]? = some { m with daughters := m.daughters ++ [pl] } ∧
      pl.tr = T ∧ pl.copyNo = copyNo ∧ ∀ way p, Content shape st'.lvs pl.lv way p ↔ Content shape st'.lvs lv way (by' s p)) ∧
    ∀ i, i < st.lvs.length → i ≠ mother → st'.cons mother ≠ some i → st'.lvs[i]? = st.lvs[i]? := by
  have i := reach_inv hs h
  obtain ⟨i', e, r, m, hc, hl, hl'⟩ := place_mirror hs i ho hf hr hm hx
  refine ⟨⟨m, _, hl, hl', rfl, rfl, fun way p => content_mirror hs i' way lv r p hc⟩, fun j hj hne hne' => e.keep j hj ?_⟩
  rintro (e | e)
  · exact hne e
  · exact hne' e

/-- C126: placing without a mirror, into a volume that was not reflected before, adds the volume itself; the scale is not looked at. -/
theorem C126_place_plain {st st' : St} {T : Trans3} {k : V3} {name : String} {lv mother : Nat} {copyNo : Int}
    (hk : 0 ≤ k.x * k.y * k.z) (hm : st.cons mother = none) (hx : place st T k name lv mother copyNo = some st') :
    (∃ m, st.lvs[mother]? = some m ∧ st'.lvs[mother]? = some { m with daughters := m.daughters ++ [⟨name, T, lv, copyNo⟩] }) ∧
    (∀ i, i ≠ mother → st'.lvs[i]? = st.lvs[i]?) ∧ st'.cons = st.cons ∧ st'.refl = st.refl := by
  obtain ⟨l, hl, rfl⟩ := addDaughter_some (place_plain (not_lt.mpr hk) hm hx)
  exact ⟨⟨l, hl, List.getElem?_set_self (lt_of_some hl)⟩, fun i hi => List.getElem?_set_ne (fun e => hi e.symm), rfl, rfl⟩

/-- C126: placing with the mirror succeeds for every existing volume that is not itself a reflection: the recursion through the
daughters ends, and every volume that it meets exists. -/
theorem C126_total {s : V3} (hs : Mirror s) {st : St} (h : Reach s st) (T : Trans3) (name : String) {lv mother : Nat} (copyNo : Int)
    (hlv : lv < st.lvs.length) (hr : st.refl lv = none) (hm : mother < st.lvs.length) :
    ∃ st', place st T s name lv mother copyNo = some st' := by
  have i := reach_inv hs h
  obtain ⟨x, hx⟩ := reflectLV_total hs i hlv hr
  obtain ⟨i1, e1, c1⟩ := reflectLV_ok hs i hx
  have hm1 : mother < x.1.lvs.length := lt_of_lt_of_le hm e1.len
  obtain ⟨st2, h2⟩ := addDaughter_total hm1 ⟨name ++ "_refl", T, x.2, copyNo⟩
  obtain ⟨l, hl, e⟩ := addDaughter_some h2
  have hn : ¬ ¬ IsReflection s := fun hh => hh hs.neg
  rw [place, if_neg hn, hx, Option.bind_some, h2, Option.bind_some]
  cases ec : st2.cons mother with
  | none => exact ⟨_, rfl⟩
  | some rm =>
    refine addDaughter_total ?_ _
    rw [e] at ec ⊢
    have := (i1.dom mother rm ec).2
    simpa using this

/-! ## A geometry -/

/-- The mirror at the plane z = 0. -/
def mz : V3 := ⟨1, 1, -1⟩

theorem mz_mirror : Mirror mz := ⟨.inl rfl, .inl rfl, .inr rfl, by norm_num [IsReflection, mz]⟩

theorem identity_ok : identity.Orthonormal ∧ identity.FlagsOk := by
  refine ⟨by constructor <;> norm_num [identity], ?_⟩
  constructor <;> simp [identity]

/-- Three volumes: a world, a box for it, and one to be placed in the box. -/
def start : St := newLV (newLV (newLV ⟨[], fun _ => none, fun _ => none⟩ "W" 0) "A" 1) "B" 2

theorem start_reach : Reach mz start := .new _ _ (.new _ _ (.new _ _ .init))

/-- The state after the box was placed in the world with the mirror. -/
theorem placed_start : place start identity mz "a" 1 0 7 = some
    ⟨[⟨"W", .base 0, [⟨"a" ++ "_refl", identity, 3, 7⟩]⟩, ⟨"A", .base 1, []⟩, ⟨"B", .base 2, []⟩, ⟨"A" ++ "_refl", .scaled (.base 1) mz, []⟩],
      Function.update (fun _ => none) 1 (some 3), Function.update (fun _ => none) 3 (some 1)⟩ := by
  have hn : ¬ ¬ IsReflection mz := fun hh => hh mz_mirror.neg
  rw [place, if_neg hn]
  simp [reflectLV, start, newLV, create, reflectDaughters, addDaughter]

theorem placed_reach : Reach mz ⟨[⟨"W", .base 0, [⟨"a" ++ "_refl", identity, 3, 7⟩]⟩, ⟨"A", .base 1, []⟩, ⟨"B", .base 2, []⟩,
    ⟨"A" ++ "_refl", .scaled (.base 1) mz, []⟩], Function.update (fun _ => none) 1 (some 3), Function.update (fun _ => none) 3 (some 1)⟩ :=
  .mirror identity "a" 1 0 7 start_reach identity_ok.1 identity_ok.2 (by simp [start, newLV]) rfl placed_start

/-- A volume that has a reflection is reached, so the theorems say something. -/
example : ∃ st, Reach mz st ∧ st.cons 1 = some 3 := ⟨_, placed_reach, rfl⟩

theorem convert_one (p : V3) : (convert identity ⟨1, 1, 1⟩).transform p = p := by
  obtain ⟨et, e0, e1, e2, e3, e4, e5, e6, e7, e8⟩ := scale3D_entries ⟨1, 1, 1⟩
  have ho : (scale3D ⟨1, 1, 1⟩).Orthonormal := by
    constructor <;> simp only [e0, e1, e2, e3, e4, e5, e6, e7, e8] <;> norm_num
  have hf : (scale3D ⟨1, 1, 1⟩).FlagsOk := ⟨fun _ => et, fun _ => ⟨e0, e1, e2, e3, e4, e5, e6, e7, e8⟩, rfl⟩
  have a := C24_closed hf identity_ok.2
  have hb : ∀ q : V3, by' ⟨1, 1, 1⟩ q = q := fun q => by ext <;> simp [by']
  have hi : (scale3D ⟨1, 1, 1⟩).inverse.transform p = p := by
    have := (C25_inverse_rigid ho p).2.2.1
    rwa [scale3D_transform, hb] at this
  have hid : identity.transform p = p := by rw [transform_eq]; ext <;> simp [identity, rotGeneric, doTranslation]
  rw [convert, C24_transform (a.2 ho identity_ok.1) (C25_inverse_flags hf), C24_transform ho identity_ok.2, scale3D_transform, hb, hid, hi]

/-- C126, finding: a daughter placed without a mirror into a volume that was reflected before arrives unmirrored in the reflection,
because the scale of the daughter is used in place of the one of the mother: the reflection is no longer the mirror image. -/
theorem C126_late_daughter_counterexample : ∃ (st st' : St) (shape : Nat → V3 → Prop) (p : V3), Reach mz st ∧
    place st identity ⟨1, 1, 1⟩ "b" 2 1 9 = some st' ∧ st'.cons 1 = some 3 ∧ Content shape st'.lvs 3 [0] p ∧
    ¬ Content shape st'.lvs 1 [0] (by' mz p) := by
  have hk : ¬ IsReflection ⟨1, 1, 1⟩ := by norm_num [IsReflection]
  refine ⟨_, ⟨[⟨"W", .base 0, [⟨"a" ++ "_refl", identity, 3, 7⟩]⟩, ⟨"A", .base 1, [⟨"b", identity, 2, 9⟩]⟩, ⟨"B", .base 2, []⟩,
    ⟨"A" ++ "_refl", .scaled (.base 1) mz, [⟨"b" ++ "_refl", convert identity ⟨1, 1, 1⟩, 4, 9⟩]⟩,
    ⟨"B" ++ "_refl", .scaled (.base 2) ⟨1, 1, 1⟩, []⟩], Function.update (Function.update (fun _ => none) 1 (some 3)) 2 (some 4),
    Function.update (Function.update (fun _ => none) 3 (some 1)) 4 (some 2)⟩,
    fun _ p => 0 < p.z, ⟨0, 0, 1⟩, placed_reach, ?_, rfl, ?_, ?_⟩
  · rw [place, if_pos hk]
    simp [reflectLV, create, reflectDaughters, addDaughter]
  · refine ⟨_, _, rfl, rfl, _, rfl, ?_⟩
    rw [convert_one]
    simp [In]
  · rintro ⟨l, pl, hl, hpl, l', hl', hi⟩
    cases hl; cases hpl; cases hl'
    have hid : ∀ p, identity.transform p = p := fun p => by rw [transform_eq]; ext <;> simp [identity, rotGeneric, doTranslation]
    rw [hid] at hi
    simp [In, by', mz] at hi
    linarith

/-- C126, finding: a second placement of the same volume with another mirror shows the image of the first mirror. -/
theorem C126_second_mirror_counterexample : ∃ (st st' : St) (shape : Nat → V3 → Prop) (pl : Placement) (p : V3), Reach mz st ∧
    place st identity ⟨-1, 1, 1⟩ "c" 1 0 8 = some st' ∧ ((st'.lvs[0]?).map (·.daughters[1]?)) = some (some pl) ∧ pl.copyNo = 8 ∧
    Content shape st'.lvs pl.lv [] p ∧ ¬ Content shape st'.lvs 1 [] (by' ⟨-1, 1, 1⟩ p) := by
  have hn : ¬ ¬ IsReflection ⟨-1, 1, 1⟩ := fun hh => hh (by norm_num [IsReflection])
  refine ⟨_, ⟨[⟨"W", .base 0, [⟨"a" ++ "_refl", identity, 3, 7⟩, ⟨"c" ++ "_refl", identity, 3, 8⟩]⟩, ⟨"A", .base 1, []⟩, ⟨"B", .base 2, []⟩,
    ⟨"A" ++ "_refl", .scaled (.base 1) mz, []⟩], Function.update (fun _ => none) 1 (some 3), Function.update (fun _ => none) 3 (some 1)⟩,
    fun _ p => 0 < p.z, ⟨"c" ++ "_refl", identity, 3, 8⟩, ⟨0, 0, -1⟩, placed_reach, ?_, rfl, rfl, ?_, ?_⟩
  · rw [place, if_neg hn]
    simp [reflectLV, addDaughter]
  · refine ⟨_, rfl, ?_⟩
    simp [In, mz]
  · rintro ⟨l, hl, hi⟩
    cases hl
    simp [In, by'] at hi
    linarith

/-- C126, finding: a scale that is no reflection, such as the half turn (-1, -1, 1), is dropped: the daughter is placed as if the scale
were (1, 1, 1). -/
theorem C126_half_turn_counterexample : ∃ (st : St) (shape : Nat → V3 → Prop) (pl : Placement) (p : V3),
    place start identity ⟨-1, -1, 1⟩ "a" 1 0 7 = some st ∧ ((st.lvs[0]?).map (·.daughters[0]?)) = some (some pl) ∧
    Content shape st.lvs pl.lv [] (pl.tr.transform p) ∧ ¬ Content shape st.lvs 1 [] (by' ⟨-1, -1, 1⟩ p) := by
  have hk : ¬ IsReflection ⟨-1, -1, 1⟩ := by norm_num [IsReflection]
  refine ⟨⟨[⟨"W", .base 0, [⟨"a", identity, 1, 7⟩]⟩, ⟨"A", .base 1, []⟩, ⟨"B", .base 2, []⟩], fun _ => none, fun _ => none⟩,
    fun _ p => 0 < p.x, ⟨"a", identity, 1, 7⟩, ⟨1, 0, 0⟩, ?_, rfl, ?_, ?_⟩
  · rw [place, if_pos hk]
    simp [addDaughter, start, newLV]
  · refine ⟨_, rfl, ?_⟩
    rw [transform_eq]
    simp [In, identity, rotGeneric, doTranslation]
  · rintro ⟨l, hl, hi⟩
    cases hl
    simp [In, by'] at hi
    linarith

end Refl
end VecGeom
