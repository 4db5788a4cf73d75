import Verif.Boolean.Flatten
import Verif.Boolean.Props

/-!
# Flattening keeps the solid (C48)
-/

namespace VecGeom
namespace Boolean

theorem count_eq (v : Vol) : ∀ a b c, ((countBooleanNodes v (a, b, c)).1.1 = a + unions v) ∧
    (countBooleanNodes v (a, b, c)).1.1 + (countBooleanNodes v (a, b, c)).1.2.1 + (countBooleanNodes v (a, b, c)).1.2.2 =
      a + b + c + operations v := by
  intro a b c
  cases v with
  | solid s => simp [countBooleanNodes, unions, operations]
  | multi ns => simp [countBooleanNodes, unions, operations]
  | bool op tl l tr r =>
    simp only [countBooleanNodes, unions, operations]
    set c0 := (a + (if op = .union then 1 else 0), b + (if op = .intersection then 1 else 0),
      c + (if op = .subtraction then 1 else 0)) with hc0
    obtain ⟨h1, h2⟩ := count_eq l c0.1 c0.2.1 c0.2.2
    set c1 := (countBooleanNodes l c0).1 with hc1
    obtain ⟨h3, h4⟩ := count_eq r c1.1 c1.2.1 c1.2.2
    simp only [Prod.mk.eta] at h1 h2 h3 h4
    refine ⟨?_, ?_⟩
    · rw [h3, h1, hc0]; dsimp only; omega
    · rw [h4, h2, hc0]; dsimp only
      cases op <;> simp <;> omega
termination_by structural v

theorem anyContains_append (a b : List (Trans3 × Vol)) (p : V3) :
    anyContains (a ++ b) p = (anyContains a p || anyContains b p) := by
  induction a with
  | nil => simp [anyContains]
  | cons x a ih => obtain ⟨t, v⟩ := x; simp [anyContains, ih, Bool.or_assoc]

theorem allGood_append (a b : List (Trans3 × Vol)) : allGood (a ++ b) ↔ allGood a ∧ allGood b := by
  induction a with
  | nil => simp [allGood]
  | cons x a ih => obtain ⟨t, v⟩ := x; simp [allGood, ih, and_assoc]

theorem allLeaves_append (a b : List (Trans3 × Vol)) : allLeaves (a ++ b) = allLeaves a ++ allLeaves b := by
  induction a with
  | nil => simp [allLeaves]
  | cons x a ih => obtain ⟨t, v⟩ := x; simp [allLeaves, ih]

/-- The nodes `add` are the volume `v`, placed with `t`. -/
structure Same (v : Vol) (t : Trans3) (add : List (Trans3 × Vol)) : Prop where
  good : allGood add
  contains : ∀ p, anyContains add p = v.contains (t.transform p)
  leaves : allLeaves add = v.leaves.map fun x => (x.1, x.2 ∘ t.transform)

/-- The volume `w` is the volume `v`. -/
structure SameVol (v w : Vol) : Prop where
  good : w.Good
  contains : ∀ p, w.contains p = v.contains p
  leaves : w.leaves = v.leaves

theorem Same.single {v w : Vol} {t : Trans3} (ht : t.Orthonormal) (hf : t.FlagsOk) (h : SameVol v w) :
    Same v t [(t, w)] := by
  refine ⟨?_, fun p => ?_, ?_⟩
  · simp [allGood, ht, hf, h.good]
  · simp [anyContains, h.contains]
  · simp [allLeaves, h.leaves]

theorem SameVol.multi {v : Vol} {t : Trans3} {ns : List (Trans3 × Vol)} (h : Same v t ns)
    (ht : ∀ p, t.transform p = p) : SameVol v (.multi ns) := by
  refine ⟨by simpa [Vol.Good] using h.good, fun p => ?_, ?_⟩
  · simp [Vol.contains, h.contains, ht]
  · rw [Vol.leaves, h.leaves]
    have : t.transform = id := funext ht
    simp [this]

theorem SameVol.refl {v : Vol} (h : v.Good) : SameVol v v := ⟨h, fun _ => rfl, rfl⟩

theorem SameVol.bool {op : Op} {tl tr : Trans3} {l r l' r' : Vol} (htl : tl.Orthonormal) (hfl : tl.FlagsOk)
    (htr : tr.Orthonormal) (hfr : tr.FlagsOk) (hl : SameVol l l') (hr : SameVol r r') :
    SameVol (.bool op tl l tr r) (.bool op tl l' tr r') := by
  refine ⟨?_, fun p => ?_, ?_⟩
  · simp only [Vol.Good]
    exact ⟨htl, hfl, hl.good, htr, hfr, hr.good⟩
  · cases op <;> simp only [Vol.contains, hl.contains, hr.contains]
  · simp only [Vol.leaves, hl.leaves, hr.leaves]

/-- What a call of `Flatten` does. -/
structure FlatOK (m : Nat) (v : Vol) (trbase : Option Trans3) (munion : Option (List (Trans3 × Vol))) (f : Flat) : Prop where
  vol : SameVol v f.vol
  isNone : munion = none → f.munion = none ∧
    (∀ ns, f.result = some ns → Same v (trbase.getD Trans3.identity) ns) ∧
    (f.result ≠ none ↔ (∃ tl l tr r, v = .bool .union tl l tr r) ∧ m ≤ unions v)
  isSome : ∀ ns, munion = some ns → f.result = none ∧
    ∃ add, f.munion = some (ns ++ add) ∧ Same v (trbase.getD Trans3.identity) add

theorem FlatOK.leaf {m : Nat} {v w : Vol} {trbase : Option Trans3} {munion : Option (List (Trans3 × Vol))}
    (hb : ∀ t, trbase = some t → t.Orthonormal ∧ t.FlagsOk) (hm : munion ≠ none → trbase ≠ none) (h : SameVol v w)
    (hn : (∃ tl l tr r, v = .bool .union tl l tr r) → ¬ m ≤ unions v) :
    ∃ f, ((addNode w trbase munion).map fun m => (⟨w, m, none⟩ : Flat)) = some f ∧ FlatOK m v trbase munion f := by
  cases munion with
  | none =>
    refine ⟨⟨w, none, none⟩, rfl, h, fun _ => ⟨rfl, by simp, ?_⟩, by simp⟩
    simp only [ne_eq, not_true, false_iff]
    rintro ⟨hu, hle⟩
    exact hn hu hle
  | some ns =>
    cases htb : trbase with
    | none => exact absurd htb (hm (by simp))
    | some t =>
      obtain ⟨h1, h2⟩ := hb t htb
      refine ⟨⟨w, some (ns ++ [(t, w)]), none⟩, rfl, h, by simp, ?_⟩
      intro ns' hns
      cases hns
      exact ⟨rfl, [(t, w)], rfl, Same.single h1 h2 h⟩

theorem replaced_same {m : Nat} {v : Vol} {f : Flat} (h : FlatOK m v none none f) : SameVol v f.replaced := by
  unfold Flat.replaced
  cases hr : f.result with
  | none => exact h.vol
  | some ns => exact SameVol.multi ((h.isNone rfl).2.1 ns hr) identity_unmoved

theorem flatten_spec {m : Nat} (hm1 : 1 ≤ m) (v : Vol) : ∀ (trbase : Option Trans3) (munion : Option (List (Trans3 × Vol))),
    v.Good → (∀ t, trbase = some t → t.Orthonormal ∧ t.FlagsOk) → (munion ≠ none → trbase ≠ none) →
    ∃ f, flatten m v trbase munion = some f ∧ FlatOK m v trbase munion f := by
  intro trbase munion hv hb hm
  cases v with
  | solid s =>
    rw [flatten, if_pos (by simp [countBooleanNodes]; omega)]
    exact FlatOK.leaf hb hm (SameVol.refl hv) (by rintro ⟨_, _, _, _, h⟩; cases h)
  | multi ns =>
    rw [flatten, if_pos (by simp [countBooleanNodes]; omega)]
    exact FlatOK.leaf hb hm (SameVol.refl hv) (by rintro ⟨_, _, _, _, h⟩; cases h)
  | bool op tl l tr r =>
    have hcount := (count_eq (.bool op tl l tr r) 0 0 0).1
    rw [zero_add] at hcount
    have hv' := hv
    simp only [Vol.Good] at hv'
    obtain ⟨hl1, hl2, hlg, hr1, hr2, hrg⟩ := hv'
    rw [flatten, hcount]
    by_cases hlt : unions (.bool op tl l tr r) < m
    · rw [if_pos hlt]
      exact FlatOK.leaf hb hm (SameVol.refl hv) (fun _ => by omega)
    · rw [if_neg hlt]
      by_cases hop : op = .union
      · subst hop
        rw [if_pos rfl]
        set base := trbase.getD Trans3.identity with hbase
        have hbo : base.Orthonormal ∧ base.FlagsOk := by
          rw [hbase]
          cases htb : trbase with
          | none => exact ⟨identity_orthonormal, Trans3.identity_flagsOk⟩
          | some t => exact hb t htb
        have hgl := Trans3.C24_closed hbo.2 hl2
        have hgr := Trans3.C24_closed hbo.2 hr2
        obtain ⟨fl, efl, sfl⟩ := flatten_spec hm1 l (some (base.mulRight tl)) (some (munion.getD [])) hlg
          (by rintro t ht; cases ht; exact ⟨hgl.2 hbo.1 hl1, hgl.1⟩) (by simp)
        obtain ⟨-, addl, eml, saml⟩ := sfl.isSome _ rfl
        obtain ⟨fr, efr, sfr⟩ := flatten_spec hm1 r (some (base.mulRight tr)) (some (munion.getD [] ++ addl)) hrg
          (by rintro t ht; cases ht; exact ⟨hgr.2 hbo.1 hr1, hgr.1⟩) (by simp)
        obtain ⟨-, addr, emr, samr⟩ := sfr.isSome _ rfl
        have same : Same (.bool .union tl l tr r) base (addl ++ addr) := by
          refine ⟨(allGood_append _ _).mpr ⟨saml.good, samr.good⟩, fun p => ?_, ?_⟩
          · rw [anyContains_append, saml.contains, samr.contains]
            simp only [Option.getD_some, Trans3.C24_transform hbo.1 hl2, Trans3.C24_transform hbo.1 hr2, Vol.contains]
            cases l.contains (tl.transform (base.transform p)) <;> simp
          · have el : (base.mulRight tl).transform = tl.transform ∘ base.transform :=
              funext fun p => Trans3.C24_transform hbo.1 hl2 p
            have er : (base.mulRight tr).transform = tr.transform ∘ base.transform :=
              funext fun p => Trans3.C24_transform hbo.1 hr2 p
            rw [allLeaves_append, saml.leaves, samr.leaves]
            simp only [Option.getD_some, el, er, Vol.leaves, List.map_append, List.map_map]
            rfl
        dsimp only
        rw [efl]
        simp only [Option.bind_some]
        rw [eml, efr]
        simp only [Option.map_some]
        refine ⟨_, rfl, ?_⟩
        have svol := SameVol.bool (op := .union) hl1 hl2 hr1 hr2 sfl.vol sfr.vol
        cases munion with
        | none =>
          simp only [Option.isNone_none, if_true]
          refine ⟨svol, fun _ => ⟨rfl, ?_, ?_⟩, by simp⟩
          · intro ns hns
            rw [emr] at hns
            simp only [Option.getD_none, List.nil_append, Option.some.injEq] at hns
            rw [← hns]
            exact same
          · rw [emr]
            simp only [ne_eq, reduceCtorEq, not_false_iff, true_iff]
            exact ⟨⟨_, _, _, _, rfl⟩, by omega⟩
        | some ns =>
          simp only [Option.isNone_some, Bool.false_eq_true, if_false]
          refine ⟨svol, by simp, ?_⟩
          intro ns' hns
          cases hns
          refine ⟨rfl, addl ++ addr, ?_, same⟩
          rw [emr]
          simp [List.append_assoc]
      · rw [if_neg hop]
        obtain ⟨fl, efl, sfl⟩ := flatten_spec hm1 l none none hlg (by simp) (by simp)
        obtain ⟨fr, efr, sfr⟩ := flatten_spec hm1 r none none hrg (by simp) (by simp)
        rw [efl, Option.bind_some, efr, Option.bind_some]
        refine FlatOK.leaf hb hm (SameVol.bool hl1 hl2 hr1 hr2 (replaced_same sfl) (replaced_same sfr)) ?_
        rintro ⟨_, _, _, _, h⟩
        cases h
        exact absurd rfl hop
termination_by structural v

/-! ## C48 -/

/-- C48: with a threshold of at least one `Flatten` runs through for every tree, and neither the tree with its in-place
changes nor the returned multi-union contains other points than the original tree. -/
theorem C48_contains {m : Nat} (hm : 1 ≤ m) {v : Vol} (hv : v.Good) :
    ∃ f, flatten m v none none = some f ∧ (∀ p, f.vol.contains p = v.contains p) ∧
      ∀ ns, f.result = some ns → ∀ p, (Vol.multi ns).contains p = v.contains p := by
  obtain ⟨f, hf, h⟩ := flatten_spec hm v none none hv (by simp) (by simp)
  exact ⟨f, hf, h.vol.contains, fun ns hns => (SameVol.multi ((h.isNone rfl).2.1 ns hns) identity_unmoved).contains⟩

/-- C48: the leaves stay the same, in the same order, each with the same map into its frame. -/
theorem C48_leaves {m : Nat} (hm : 1 ≤ m) {v : Vol} (hv : v.Good) {f : Flat} (hf : flatten m v none none = some f) :
    f.vol.leaves = v.leaves ∧ ∀ ns, f.result = some ns → (Vol.multi ns).leaves = v.leaves := by
  obtain ⟨f', hf', h⟩ := flatten_spec hm v none none hv (by simp) (by simp)
  rw [hf] at hf'
  cases hf'
  exact ⟨h.vol.leaves, fun ns hns => (SameVol.multi ((h.isNone rfl).2.1 ns hns) identity_unmoved).leaves⟩

/-- C48: a multi-union is returned exactly for a union at the top with at least as many unions in its tree as the
threshold says. -/
theorem C48_result {m : Nat} (hm : 1 ≤ m) {v : Vol} (hv : v.Good) {f : Flat} (hf : flatten m v none none = some f) :
    f.result ≠ none ↔ (∃ tl l tr r, v = .bool .union tl l tr r) ∧ m ≤ unions v := by
  obtain ⟨f', hf', h⟩ := flatten_spec hm v none none hv (by simp) (by simp)
  rw [hf] at hf'
  cases hf'
  exact (h.isNone rfl).2.2

/-- C48: adding to a multi-union that is being built up: the nodes it has stay, and the new ones are the tree placed with
the given transformation. -/
theorem C48_add {m : Nat} (hm : 1 ≤ m) {v : Vol} (hv : v.Good) {t : Trans3} (ht : t.Orthonormal) (hf : t.FlagsOk)
    (ns : List (Trans3 × Vol)) :
    ∃ f add, flatten m v (some t) (some ns) = some f ∧ f.munion = some (ns ++ add) ∧
      ∀ p, anyContains add p = v.contains (t.transform p) := by
  obtain ⟨f, hf', h⟩ := flatten_spec hm v (some t) (some ns) hv (by rintro _ h; cases h; exact ⟨ht, hf⟩) (by simp)
  obtain ⟨-, add, e, same⟩ := h.isSome ns rfl
  exact ⟨f, add, hf', e, same.contains⟩

/-- C48: the counters count: unions, and all operations together (the returned number, zero for a volume that is not
boolean). -/
theorem C48_count (v : Vol) : (countBooleanNodes v (0, 0, 0)).1.1 = unions v ∧
    (countBooleanNodes v (0, 0, 0)).2 = operations v := by
  obtain ⟨h1, h2⟩ := count_eq v 0 0 0
  refine ⟨by rw [h1]; omega, ?_⟩
  cases v with
  | solid s => rfl
  | multi ns => rfl
  | bool op tl l tr r =>
    simp only [countBooleanNodes] at h2 ⊢
    rw [h2]; omega

/-- Finding: with the threshold zero `Flatten` dereferences a null pointer for every volume. -/
theorem C48_zero_counterexample (v : Vol) : ∀ trbase munion, flatten 0 v trbase munion = none := by
  intro trbase munion
  cases v with
  | solid s => simp [flatten]
  | multi ns => simp [flatten]
  | bool op tl l tr r =>
    rw [flatten, if_neg (by omega)]
    split
    · dsimp only
      rw [C48_zero_counterexample l]; rfl
    · rw [C48_zero_counterexample l]; rfl
termination_by structural v

/-- Three unions, one below a difference. -/
noncomputable def demoVol : Vol :=
  .bool .union Trans3.identity (.bool .subtraction Trans3.identity
      (.bool .union Trans3.identity (.solid cube) Trans3.sample (.solid cube)) (Trans3.ofTranslation 1 0 0) (.solid cube))
    Trans3.sample (.bool .union Trans3.sample (.solid cube) Trans3.identity (.solid cube))

theorem demoVol_good : demoVol.Good := by
  have h1 := identity_orthonormal
  have h2 := Trans3.identity_flagsOk
  have h3 := Trans3.sample_orthonormal
  have h4 := Trans3.sample_flagsOk
  simp only [demoVol, Vol.Good]
  exact ⟨h1, h2, ⟨h1, h2, ⟨h1, h2, trivial, h3, h4, trivial⟩, ofTranslation_orthonormal _ _ _,
    Trans3.C24_translation_flags _ _ _, trivial⟩, h3, h4, h3, h4, trivial, h1, h2, trivial⟩

example : demoVol.Good ∧ unions demoVol = 3 ∧ operations demoVol = 4 := ⟨demoVol_good, by simp [demoVol, unions], rfl⟩

/-- With the threshold one the example becomes a multi-union (C48_result); with the threshold four nothing is returned. -/
example : ∃ f ns, flatten 1 demoVol none none = some f ∧ f.result = some ns := by
  obtain ⟨f, hf, -⟩ := C48_contains (m := 1) (by omega) demoVol_good
  have := (C48_result (by omega) demoVol_good hf).mpr ⟨⟨_, _, _, _, rfl⟩, by simp [demoVol, unions]⟩
  obtain ⟨ns, h⟩ := Option.ne_none_iff_exists'.mp this
  exact ⟨f, ns, hf, h⟩

example : ∃ f, flatten 4 demoVol none none = some f ∧ f.result = none := by
  obtain ⟨f, hf, -⟩ := C48_contains (m := 4) (by omega) demoVol_good
  refine ⟨f, hf, ?_⟩
  by_contra h
  have := ((C48_result (by omega) demoVol_good hf).mp h).2
  simp [demoVol, unions] at this

end Boolean
end VecGeom
