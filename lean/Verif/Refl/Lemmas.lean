import Verif.Refl.Spec
import Verif.Transform.Props
import Mathlib.Data.List.Forall2
import Mathlib.Data.Finset.Card

namespace VecGeom
namespace Refl

open Trans3

/-! ## The conjugated transformation -/

theorem scale3D_entries (s : V3) : (scale3D s).t = ⟨0, 0, 0⟩ ∧ (scale3D s).r0 = s.x ∧ (scale3D s).r1 = 0 ∧ (scale3D s).r2 = 0 ∧
    (scale3D s).r3 = 0 ∧ (scale3D s).r4 = s.y ∧ (scale3D s).r5 = 0 ∧ (scale3D s).r6 = 0 ∧ (scale3D s).r7 = 0 ∧ (scale3D s).r8 = s.z := by
  refine ⟨?_, ?_, ?_, ?_, ?_, ?_, ?_, ?_, ?_, ?_⟩ <;>
    simp [scale3D, ofEulerScaled, raw, setTranslation, setRotationEuler, applyScale, setProperties]

theorem mirror_ne {s : V3} (h : Mirror s) : ¬ (s.x = 1 ∧ s.y = 1 ∧ s.z = 1) := by
  rintro ⟨hx, hy, hz⟩
  have := h.neg
  rw [IsReflection, hx, hy, hz] at this
  norm_num at this

theorem mirror_sq {s : V3} (h : Mirror s) : s.x * s.x = 1 ∧ s.y * s.y = 1 ∧ s.z * s.z = 1 := by
  refine ⟨?_, ?_, ?_⟩
  · rcases h.x with e | e <;> rw [e] <;> norm_num
  · rcases h.y with e | e <;> rw [e] <;> norm_num
  · rcases h.z with e | e <;> rw [e] <;> norm_num

theorem scale3D_orth {s : V3} (h : Mirror s) : (scale3D s).Orthonormal := by
  obtain ⟨-, e0, e1, e2, e3, e4, e5, e6, e7, e8⟩ := scale3D_entries s
  obtain ⟨hx, hy, hz⟩ := mirror_sq h
  constructor <;> simp only [e0, e1, e2, e3, e4, e5, e6, e7, e8] <;> linarith

theorem scale3D_rot {s : V3} (h : Mirror s) : (scale3D s).fHasRotation = true := by
  have key : ∀ T : Trans3, T.setProperties.fHasRotation = false → T.r0 = 1 ∧ T.r4 = 1 ∧ T.r8 = 1 := by
    intro T hT
    simp only [setProperties, Bool.not_eq_false', decide_eq_true_eq] at hT
    unfold generateRotationCode at hT
    by_cases hc : ((rawCode (big T.r0) (big T.r1) (big T.r2) (big T.r3) (big T.r4) (big T.r5) (big T.r6) (big T.r7) (big T.r8) : Int) = 0x111
        ∧ T.r0 = 1 ∧ T.r4 = 1 ∧ T.r8 = 1)
    · exact hc.2
    · exfalso
      simp only [if_neg hc] at hT
      have hlt : ∀ b0 b1 b2 b3 b4 b5 b6 b7 b8 : Bool, rawCode b0 b1 b2 b3 b4 b5 b6 b7 b8 ≠ 0x200 := by decide +kernel
      exact hlt _ _ _ _ _ _ _ _ _ (by exact_mod_cast hT)
  by_contra hc
  rw [Bool.not_eq_true] at hc
  obtain ⟨h0, h4, h8⟩ := key _ hc
  obtain ⟨-, e0, e1, e2, e3, e4, e5, e6, e7, e8⟩ := scale3D_entries s
  have e0' : (scale3D s).r0 = 1 := h0
  have e4' : (scale3D s).r4 = 1 := h4
  have e8' : (scale3D s).r8 = 1 := h8
  exact mirror_ne h ⟨e0.symm.trans e0', e4.symm.trans e4', e8.symm.trans e8'⟩

theorem scale3D_flags {s : V3} (h : Mirror s) : (scale3D s).FlagsOk := by
  refine ⟨fun _ => (scale3D_entries s).1, fun hf => ?_, rfl⟩
  rw [scale3D_rot h] at hf
  cases hf

theorem by_by {s : V3} (h : Mirror s) (p : V3) : by' s (by' s p) = p := by
  obtain ⟨hx, hy, hz⟩ := mirror_sq h
  ext <;> simp only [by']
  · linear_combination p.x * hx
  · linear_combination p.y * hy
  · linear_combination p.z * hz

theorem by_div {s : V3} (h : Mirror s) (p : V3) : (⟨p.x / s.x, p.y / s.y, p.z / s.z⟩ : V3) = by' s p := by
  have key : ∀ a b : ℝ, b = 1 ∨ b = -1 → a / b = b * a := by
    intro a b hb
    rcases hb with e | e <;> rw [e] <;> ring
  rw [key _ _ h.x, key _ _ h.y, key _ _ h.z]
  rfl

theorem scale3D_transform (s p : V3) : (scale3D s).transform p = by' s p := by
  obtain ⟨et, e0, e1, e2, e3, e4, e5, e6, e7, e8⟩ := scale3D_entries s
  rw [transform_eq]
  ext <;> simp only [rotGeneric, doTranslation, by', et, e0, e1, e2, e3, e4, e5, e6, e7, e8] <;> ring

theorem inverse_transform {s : V3} (h : Mirror s) (p : V3) : (scale3D s).inverse.transform p = by' s p := by
  have := (C25_inverse_rigid (scale3D_orth h) (by' s p)).2.2.1
  rwa [scale3D_transform, by_by h] at this

theorem convert_ok {T : Trans3} {s : V3} (h : Mirror s) (ho : T.Orthonormal) (hf : T.FlagsOk) :
    (convert T s).Orthonormal ∧ (convert T s).FlagsOk := by
  have a := C24_closed (scale3D_flags h) hf
  have b := C24_closed a.1 (C25_inverse_flags (scale3D_flags h))
  exact ⟨b.2 (a.2 (scale3D_orth h) ho) (C25_inverse_rigid (scale3D_orth h) ⟨0, 0, 0⟩).2.1, b.1⟩

theorem convert_transform {T : Trans3} {s : V3} (h : Mirror s) (ho : T.Orthonormal) (hf : T.FlagsOk) (p : V3) :
    (convert T s).transform p = by' s (T.transform (by' s p)) := by
  have a := C24_closed (scale3D_flags h) hf
  rw [convert, C24_transform (a.2 (scale3D_orth h) ho) (C25_inverse_flags (scale3D_flags h)), inverse_transform h,
    C24_transform (scale3D_orth h) hf, scale3D_transform]

/-! ## The invariant -/

/-- A daughter and its counterpart in the reflected mother. -/
structure Rel (s : V3) (cons : Nat → Option Nat) (pl pl' : Placement) : Prop where
  tr : pl'.tr = convert pl.tr s
  copyNo : pl'.copyNo = pl.copyNo
  lv : cons pl.lv = some pl'.lv ∨ cons pl'.lv = some pl.lv

/-- A placement that the code can work with. -/
structure Good (n : Nat) (pl : Placement) : Prop where
  orth : pl.tr.Orthonormal
  flags : pl.tr.FlagsOk
  lv : pl.lv < n

/-- The state between two steps of the factory; the daughters of the volumes in `P` are still being added. -/
structure Inv (s : V3) (P : Nat → Prop) (st : St) : Prop where
  dom : ∀ c r, st.cons c = some r → c < st.lvs.length ∧ r < st.lvs.length
  both : ∀ c r, st.cons c = some r ↔ st.refl r = some c
  disj : ∀ c r, st.cons c = some r → st.refl c = none
  good : ∀ (i : Nat) (l : LV), st.lvs[i]? = some l → ∀ pl ∈ l.daughters, Good st.lvs.length pl
  solid : ∀ (c r : Nat) (lc lr : LV), st.cons c = some r → st.lvs[c]? = some lc → st.lvs[r]? = some lr → lr.solid = .scaled lc.solid s
  daug : ∀ (c r : Nat) (lc lr : LV), st.cons c = some r → ¬ P r → st.lvs[c]? = some lc → st.lvs[r]? = some lr →
    List.Forall₂ (Rel s st.cons) lc.daughters lr.daughters

theorem Inv.mono {s : V3} {P Q : Nat → Prop} {st : St} (h : Inv s P st) (hPQ : ∀ i, P i → Q i) : Inv s Q st :=
  ⟨h.dom, h.both, h.disj, h.good, h.solid, fun c r lc lr hc hr => h.daug c r lc lr hc (fun hP => hr (hPQ r hP))⟩

theorem Inv.refl_lt {s : V3} {P : Nat → Prop} {st : St} (h : Inv s P st) {r c : Nat} (hr : st.refl r = some c) :
    c < st.lvs.length ∧ r < st.lvs.length := h.dom c r ((h.both c r).mpr hr)

/-- What a step leaves: only the volumes in `Q` may have changed, the maps only grew, and every new volume is a reflected one. -/
structure Ext (Q : Nat → Prop) (st st' : St) : Prop where
  len : st.lvs.length ≤ st'.lvs.length
  keep : ∀ i, i < st.lvs.length → ¬ Q i → st'.lvs[i]? = st.lvs[i]?
  cons : ∀ c r, st.cons c = some r → st'.cons c = some r
  refl : ∀ i, i < st.lvs.length → st'.refl i = st.refl i
  new : ∀ i, st.lvs.length ≤ i → i < st'.lvs.length → st'.refl i ≠ none

theorem Ext.rfl' {Q : Nat → Prop} {st : St} : Ext Q st st :=
  ⟨le_refl _, fun _ _ _ => rfl, fun _ _ h => h, fun _ _ => rfl, fun i h1 h2 => absurd h2 (by omega)⟩

theorem Ext.trans' {Q R : Nat → Prop} {a b c : St} (h1 : Ext Q a b) (h2 : Ext R b c) (hR : ∀ i, i < a.lvs.length → R i → Q i) :
    Ext Q a c := by
  have l1 := h1.len
  have l2 := h2.len
  refine ⟨by omega, fun i hi hq => ?_, fun x y h => h2.cons _ _ (h1.cons _ _ h), fun i hi => ?_, fun i hi hi' => ?_⟩
  · rw [h2.keep i (by omega) (fun hr => hq (hR i hi hr)), h1.keep i hi hq]
  · rw [h2.refl i (by omega), h1.refl i hi]
  · by_cases hb : i < b.lvs.length
    · rw [h2.refl i hb]; exact h1.new i hi hb
    · exact h2.new i (by omega) hi'

theorem Ext.trans {Q : Nat → Prop} {a b c : St} (h1 : Ext Q a b) (h2 : Ext Q b c) : Ext Q a c := h1.trans' h2 (fun _ _ h => h)

theorem Ext.mono {Q R : Nat → Prop} {a b : St} (h : Ext Q a b) (hQR : ∀ i, i < a.lvs.length → Q i → R i) : Ext R a b :=
  ⟨h.len, fun i hi hr => h.keep i hi (fun hq => hr (hQR i hi hq)), h.cons, h.refl, h.new⟩

theorem Rel.mono {s : V3} {c c' : Nat → Option Nat} (h : ∀ a b, c a = some b → c' a = some b) {p q : Placement} (r : Rel s c p q) :
    Rel s c' p q := ⟨r.tr, r.copyNo, r.lv.imp (h _ _) (h _ _)⟩

/-! ### One daughter -/

theorem addDaughter_some {st st' : St} {m : Nat} {pl : Placement} (h : addDaughter st m pl = some st') :
    ∃ l, st.lvs[m]? = some l ∧ st' = { st with lvs := st.lvs.set m { l with daughters := l.daughters ++ [pl] } } := by
  rw [addDaughter, Option.map_eq_some_iff] at h
  obtain ⟨l, hl, e⟩ := h
  exact ⟨l, hl, e.symm⟩

theorem lt_of_some {α : Type} {l : List α} {i : Nat} {a : α} (h : l[i]? = some a) : i < l.length :=
  (List.getElem?_eq_some_iff.mp h).1

/-- Adding a good daughter to a volume whose daughters are still being added. -/
theorem add_inv {s : V3} {P : Nat → Prop} {st : St} {m : Nat} {pl : Placement} {l : LV} (h : Inv s P st) (hl : st.lvs[m]? = some l)
    (hg : Good st.lvs.length pl) (hm : ∀ r, st.cons m = some r → P r) (hr : st.refl m ≠ none → P m) :
    Inv s P { st with lvs := st.lvs.set m { l with daughters := l.daughters ++ [pl] } } := by
  have hlt := lt_of_some hl
  have get : ∀ (i : Nat) (x : LV), (st.lvs.set m { l with daughters := l.daughters ++ [pl] })[i]? = some x →
      (i = m ∧ x = { l with daughters := l.daughters ++ [pl] }) ∨ (i ≠ m ∧ st.lvs[i]? = some x) := by
    intro i x hx
    rw [List.getElem?_set] at hx
    by_cases e : m = i
    · subst e
      rw [if_pos rfl, if_pos hlt] at hx
      exact .inl ⟨rfl, (Option.some.inj hx).symm⟩
    · rw [if_neg e] at hx
      exact .inr ⟨fun e' => e e'.symm, hx⟩
  refine ⟨?_, h.both, h.disj, ?_, ?_, ?_⟩
  · intro c r hc
    simpa using h.dom c r hc
  · intro i x hx p hp
    have hlen : (st.lvs.set m { l with daughters := l.daughters ++ [pl] }).length = st.lvs.length := List.length_set
    show Good (st.lvs.set m { l with daughters := l.daughters ++ [pl] }).length p
    rw [hlen]
    rcases get i x hx with ⟨-, rfl⟩ | ⟨-, hx⟩
    · rcases List.mem_append.mp hp with hp | hp
      · exact h.good m l hl p hp
      · rw [List.mem_singleton.mp hp]; exact hg
    · exact h.good i x hx p hp
  · intro c r lc lr hc hlc hlr
    have hso : ∀ (i : Nat) (x : LV), (st.lvs.set m { l with daughters := l.daughters ++ [pl] })[i]? = some x →
        ∃ y, st.lvs[i]? = some y ∧ x.solid = y.solid := by
      intro i x hx
      rcases get i x hx with ⟨rfl, rfl⟩ | ⟨-, hx⟩
      · exact ⟨l, hl, rfl⟩
      · exact ⟨x, hx, rfl⟩
    obtain ⟨y, hy, e1⟩ := hso c lc hlc
    obtain ⟨z, hz, e2⟩ := hso r lr hlr
    rw [e1, e2]
    exact h.solid c r y z hc hy hz
  · intro c r lc lr hc hP hlc hlr
    rcases get c lc hlc with ⟨rfl, -⟩ | ⟨-, hlc⟩
    · exact absurd (hm r hc) hP
    rcases get r lr hlr with ⟨rfl, -⟩ | ⟨-, hlr⟩
    · refine absurd (hr ?_) hP
      rw [(h.both c r).mp hc]; exact Option.some_ne_none c
    exact h.daug c r lc lr hc hP hlc hlr

theorem add_ext {st : St} {m : Nat} {pl : Placement} {l : LV} :
    Ext (· = m) st { st with lvs := st.lvs.set m { l with daughters := l.daughters ++ [pl] } } := by
  have hlen : (st.lvs.set m { l with daughters := l.daughters ++ [pl] }).length = st.lvs.length := List.length_set
  refine ⟨le_of_eq hlen.symm, fun i _ hq => ?_, fun _ _ h => h, fun _ _ => rfl, fun i h1 h2 => ?_⟩
  · exact List.getElem?_set_ne (fun e => hq e.symm)
  · change i < (st.lvs.set m { l with daughters := l.daughters ++ [pl] }).length at h2
    omega

/-! ### A new reflected volume -/

theorem create_some {st : St} {lv : Nat} {s : V3} {x : St × Nat} (h : create st lv s = some x) : ∃ l, st.refl lv = none ∧
    st.lvs[lv]? = some l ∧ x = (⟨st.lvs ++ [⟨l.name ++ "_refl", .scaled l.solid s, []⟩],
      Function.update st.cons lv (some st.lvs.length), Function.update st.refl st.lvs.length (some lv)⟩, st.lvs.length) := by
  rw [create] at h
  by_cases hr : st.refl lv = none
  · rw [if_pos hr, Option.map_eq_some_iff] at h
    obtain ⟨l, hl, e⟩ := h
    exact ⟨l, hr, hl, e.symm⟩
  · rw [if_neg hr] at h; cases h

theorem create_inv {s : V3} {P : Nat → Prop} {st : St} {lv : Nat} {x : St × Nat} (h : Inv s P st) (hc : st.cons lv = none)
    (hx : create st lv s = some x) : Inv s (fun i => P i ∨ i = x.2) x.1 ∧ Ext (fun _ => False) st x.1 ∧ x.2 = st.lvs.length ∧
      x.1.cons lv = some x.2 ∧ ∃ lr, x.1.lvs[x.2]? = some lr ∧ lr.daughters = [] := by
  obtain ⟨l, hr, hl, rfl⟩ := create_some hx
  have hlt := lt_of_some hl
  have hnew : st.refl st.lvs.length = none := by
    cases e : st.refl st.lvs.length with
    | none => rfl
    | some c => exact absurd (h.refl_lt e).2 (lt_irrefl _)
  have hold : ∀ i, i < st.lvs.length → (st.lvs ++ [(⟨l.name ++ "_refl", .scaled l.solid s, []⟩ : LV)])[i]? = st.lvs[i]? :=
    fun i hi => List.getElem?_append_left hi
  have hat : (st.lvs ++ [(⟨l.name ++ "_refl", .scaled l.solid s, []⟩ : LV)])[st.lvs.length]? =
      some ⟨l.name ++ "_refl", .scaled l.solid s, []⟩ := by simp
  have hcons : ∀ c r, Function.update st.cons lv (some st.lvs.length) c = some r →
      (c = lv ∧ r = st.lvs.length) ∨ (c ≠ lv ∧ st.cons c = some r) := by
    intro c r h'
    by_cases e : c = lv
    · subst e
      rw [Function.update_self] at h'
      exact .inl ⟨rfl, (Option.some.inj h').symm⟩
    · rw [Function.update_of_ne e] at h'
      exact .inr ⟨e, h'⟩
  have hgrow : ∀ c r, st.cons c = some r → Function.update st.cons lv (some st.lvs.length) c = some r := by
    intro c r h'
    rw [Function.update_of_ne (by rintro rfl; rw [hc] at h'; cases h')]
    exact h'
  refine ⟨⟨?_, ?_, ?_, ?_, ?_, ?_⟩, ⟨?_, ?_, hgrow, ?_, ?_⟩, rfl, Function.update_self .., _, hat, rfl⟩
  · intro c r h'
    simp only [List.length_append, List.length_singleton]
    rcases hcons c r h' with ⟨rfl, rfl⟩ | ⟨-, h'⟩
    · omega
    · have := h.dom c r h'
      omega
  · intro c r
    show Function.update st.cons lv (some st.lvs.length) c = some r ↔ Function.update st.refl st.lvs.length (some lv) r = some c
    constructor
    · intro h'
      rcases hcons c r h' with ⟨rfl, rfl⟩ | ⟨-, h'⟩
      · exact Function.update_self ..
      · have := h.dom c r h'
        rw [Function.update_of_ne (by omega)]
        exact (h.both c r).mp h'
    · intro h'
      by_cases e : r = st.lvs.length
      · subst e
        rw [Function.update_self] at h'
        cases h'
        exact Function.update_self ..
      · rw [Function.update_of_ne e] at h'
        exact hgrow _ _ ((h.both c r).mpr h')
  · intro c r h'
    show Function.update st.refl st.lvs.length (some lv) c = none
    rcases hcons c r h' with ⟨rfl, rfl⟩ | ⟨-, h'⟩
    · rw [Function.update_of_ne (by omega)]; exact hr
    · have := h.dom c r h'
      rw [Function.update_of_ne (by omega)]; exact h.disj c r h'
  · intro i x hx pl hpl
    simp only [List.length_append, List.length_singleton]
    have hi := lt_of_some hx
    simp only [List.length_append, List.length_singleton] at hi
    by_cases e : i = st.lvs.length
    · subst e
      have hx' := hat.symm.trans hx
      cases hx'
      cases hpl
    · rw [hold i (by omega)] at hx
      have := h.good i x hx pl hpl
      exact ⟨this.orth, this.flags, by have := this.lv; omega⟩
  · intro c r lc lr h' hlc hlr
    rcases hcons c r h' with ⟨rfl, rfl⟩ | ⟨-, h'⟩
    · have h1 := hat.symm.trans hlr
      have h2 := hl.symm.trans ((hold c hlt).symm.trans hlc)
      cases h1; cases h2
      rfl
    · have hd := h.dom c r h'
      rw [hold c hd.1] at hlc
      rw [hold r hd.2] at hlr
      exact h.solid c r lc lr h' hlc hlr
  · intro c r lc lr h' hP hlc hlr
    rcases hcons c r h' with ⟨rfl, rfl⟩ | ⟨-, h'⟩
    · exact absurd (Or.inr rfl) hP
    · have hd := h.dom c r h'
      rw [hold c hd.1] at hlc
      rw [hold r hd.2] at hlr
      exact (h.daug c r lc lr h' (fun hp => hP (.inl hp)) hlc hlr).imp (fun a b => Rel.mono hgrow)
  · simp
  · intro i hi _
    exact hold i hi
  · intro i hi
    exact Function.update_of_ne (by omega) ..
  · intro i hi hi'
    simp only [List.length_append, List.length_singleton] at hi'
    have : i = st.lvs.length := by omega
    subst this
    show Function.update st.refl st.lvs.length (some lv) st.lvs.length ≠ none
    rw [Function.update_self]; exact Option.some_ne_none _

/-! ### All daughters -/

/-- What reflecting the daughters of `lv` into the empty volume `r` must give. -/
def RecOk (s : V3) (rec : St → Nat → Nat → Option St) : Prop :=
  ∀ (P : Nat → Prop) (st st' : St) (lv r : Nat), Inv s P st → P r → st.cons lv = some r →
    (∃ lr, st.lvs[r]? = some lr ∧ lr.daughters = []) → rec st lv r = some st' →
    Inv s (fun i => P i ∧ i ≠ r) st' ∧ Ext (· = r) st st'

theorem good_mono {n m : Nat} (h : n ≤ m) {pl : Placement} (g : Good n pl) : Good m pl := ⟨g.orth, g.flags, lt_of_lt_of_le g.lv h⟩

/-- `ReflectPlacedVolume` adds one daughter, the counterpart of the given one, and keeps the rest. -/
theorem placed_ok {s : V3} (hs : Mirror s) {rec : St → Nat → Nat → Option St} (hrec : RecOk s rec) {P : Nat → Prop} {st st' : St}
    {lv r : Nat} {pl : Placement} {lr : LV} (h : Inv s P st) (hP : P r) (hc : st.cons lv = some r) (hlr : st.lvs[r]? = some lr)
    (hg : Good st.lvs.length pl) (hx : reflectPlaced rec s r st pl = some st') :
    Inv s P st' ∧ Ext (· = r) st st' ∧ ∃ pl', Rel s st'.cons pl pl' ∧
      st'.lvs[r]? = some { lr with daughters := lr.daughters ++ [pl'] } := by
  have hrr : st.refl r = some lv := (h.both lv r).mp hc
  -- the last step
  have last : ∀ (st1 : St) (d : Nat), Inv s P st1 → Ext (· = r) st st1 → st1.lvs[r]? = some lr →
      (st1.cons pl.lv = some d ∨ st1.cons d = some pl.lv) → addDaughter st1 r ⟨pl.name, convert pl.tr s, d, pl.copyNo⟩ = some st' →
      Inv s P st' ∧ Ext (· = r) st st' ∧ ∃ pl', Rel s st'.cons pl pl' ∧
        st'.lvs[r]? = some { lr with daughters := lr.daughters ++ [pl'] } := by
    intro st1 d h1 he hl1 hrel ha
    obtain ⟨l, hl, rfl⟩ := addDaughter_some ha
    have : l = lr := by rw [hl1] at hl; exact (Option.some.inj hl).symm
    subst this
    have hck := convert_ok hs hg.orth hg.flags
    refine ⟨add_inv h1 hl ⟨hck.1, hck.2, ?_⟩ ?_ (fun _ => hP), he.trans add_ext,
      ⟨pl.name, convert pl.tr s, d, pl.copyNo⟩, ⟨rfl, rfl, hrel⟩, ?_⟩
    · rcases hrel with hrel | hrel
      · exact (h1.dom _ _ hrel).2
      · exact (h1.dom _ _ hrel).1
    · intro r' hr'
      have := h1.disj r r' hr'
      rw [(h1.both lv r).mp (he.cons _ _ hc)] at this
      cases this
    · exact List.getElem?_set_self (lt_of_some hl)
  rw [reflectPlaced] at hx
  cases e1 : st.refl pl.lv with
  | some c =>
    rw [e1] at hx
    exact last st c h Ext.rfl' hlr (.inr ((h.both _ _).mpr e1)) hx
  | none =>
    rw [e1] at hx
    cases e2 : st.cons pl.lv with
    | some d =>
      rw [e2] at hx
      exact last st d h Ext.rfl' hlr (.inl e2) hx
    | none =>
      rw [e2] at hx
      dsimp only at hx
      obtain ⟨x, hx1, hx⟩ := Option.bind_eq_some_iff.mp hx
      obtain ⟨st2, hx2, hx⟩ := Option.bind_eq_some_iff.mp hx
      obtain ⟨i1, x1, ex, c1, em⟩ := create_inv h e2 hx1
      obtain ⟨i2, x2⟩ := hrec _ _ _ _ _ i1 (.inr rfl) c1 em hx2
      have hrlt := lt_of_some hlr
      have x2' : Ext (· = r) st st2 := by
        refine (x1.mono (fun _ _ hf => hf.elim)).trans' x2 (fun i hi e => ?_)
        have e : i = x.2 := e
        omega
      refine last st2 x.2 (i2.mono ?_) x2' ?_ (.inl (x2.cons _ _ c1)) hx
      · rintro i ⟨hi | hi, hne⟩
        · exact hi
        · exact absurd hi hne
      · rw [x2.keep r (lt_of_lt_of_le hrlt x1.len) (by show ¬ r = x.2; omega), x1.keep r hrlt (fun hf => hf)]
        exact hlr

theorem fold_ok {s : V3} (hs : Mirror s) {rec : St → Nat → Nat → Option St} (hrec : RecOk s rec) {P : Nat → Prop} {lv r : Nat}
    (hP : P r) : ∀ (ds pre : List Placement) (st st' : St) (lr : LV), Inv s P st → st.cons lv = some r → st.lvs[r]? = some lr →
      (∀ pl ∈ ds, Good st.lvs.length pl) → List.Forall₂ (Rel s st.cons) pre lr.daughters →
      ds.foldlM (fun st pl => reflectPlaced rec s r st pl) st = some st' →
      Inv s P st' ∧ Ext (· = r) st st' ∧ ∃ lr', st'.lvs[r]? = some lr' ∧ List.Forall₂ (Rel s st'.cons) (pre ++ ds) lr'.daughters
  | [], pre, st, st', lr, h, hc, hlr, hg, hpre, hx => by
    rw [List.foldlM_nil] at hx
    cases hx
    exact ⟨h, Ext.rfl', lr, hlr, by rwa [List.append_nil]⟩
  | pl :: ds, pre, st, st', lr, h, hc, hlr, hg, hpre, hx => by
    rw [List.foldlM_cons] at hx
    obtain ⟨st1, h1, hx⟩ := Option.bind_eq_some_iff.mp hx
    obtain ⟨i1, x1, pl', hrel, hl1⟩ := placed_ok hs hrec h hP hc hlr (hg pl List.mem_cons_self) h1
    obtain ⟨i2, x2, lr', hl2, hf⟩ := fold_ok hs hrec hP ds (pre ++ [pl]) st1 st' _ i1 (x1.cons _ _ hc) hl1
      (fun q hq => good_mono x1.len (hg q (List.mem_cons_of_mem _ hq)))
      (List.rel_append (hpre.imp (fun a b => Rel.mono x1.cons)) (List.Forall₂.cons hrel List.Forall₂.nil)) hx
    refine ⟨i2, x1.trans x2, lr', hl2, ?_⟩
    rwa [List.append_assoc] at hf

theorem rec_ok {s : V3} (hs : Mirror s) : ∀ n, RecOk s (reflectDaughters s n)
  | 0 => by
    intro P st st' lv r _ _ _ _ hx
    cases hx
  | n + 1 => by
    rintro P st st' lv r h hP hc ⟨lr, hlr, he⟩ hx
    rw [reflectDaughters] at hx
    obtain ⟨l, hl, hx⟩ := Option.bind_eq_some_iff.mp hx
    obtain ⟨i, x, lr', hlr', hf⟩ := fold_ok hs (rec_ok hs n) hP l.daughters [] st st' lr h hc hlr (h.good lv l hl)
      (by rw [he]; exact List.Forall₂.nil) hx
    rw [List.nil_append] at hf
    refine ⟨⟨i.dom, i.both, i.disj, i.good, i.solid, ?_⟩, x⟩
    intro c r' lc lr2 hc' hnP hlc hlr2
    by_cases er : r' = r
    · subst er
      have : c = lv := by
        have h1 := (i.both c r').mp hc'
        have h2 := (i.both lv r').mp (x.cons _ _ hc)
        exact Option.some.inj (h1.symm.trans h2)
      subst this
      have e1 : lr2 = lr' := Option.some.inj (hlr2.symm.trans hlr')
      subst e1
      have hne : c ≠ r' := by
        intro e
        have h1 := h.disj c r' hc
        rw [e, (h.both c r').mp hc] at h1
        cases h1
      have e2 : lc = l := by
        rw [x.keep c (lt_of_some hl) hne] at hlc
        exact Option.some.inj (hlc.symm.trans hl)
      subst e2
      exact hf
    · exact i.daug c r' lc lr2 hc' (fun hp => hnP ⟨hp, er⟩) hlc hlr2

theorem reflectLV_ok {s : V3} (hs : Mirror s) {st : St} {lv : Nat} {x : St × Nat} (h : Inv s (fun _ => False) st)
    (hx : reflectLV st lv s = some x) : Inv s (fun _ => False) x.1 ∧ Ext (fun _ => False) st x.1 ∧ x.1.cons lv = some x.2 := by
  rw [reflectLV] at hx
  cases e : st.cons lv with
  | some r =>
    rw [e] at hx
    cases hx
    exact ⟨h, Ext.rfl', e⟩
  | none =>
    rw [e] at hx
    dsimp only at hx
    obtain ⟨y, hy, hx⟩ := Option.bind_eq_some_iff.mp hx
    obtain ⟨st2, h2, rfl⟩ := Option.map_eq_some_iff.mp hx
    obtain ⟨i1, x1, ex, c1, em⟩ := create_inv h e hy
    obtain ⟨i2, x2⟩ := rec_ok hs _ _ _ _ _ _ i1 (.inr rfl) c1 em h2
    refine ⟨i2.mono ?_, x1.trans' x2 (fun i hi e => ?_), x2.cons _ _ c1⟩
    · rintro i ⟨hi | hi, hne⟩
      · exact hi
      · exact absurd hi hne
    · have e : i = y.2 := e
      omega

/-! ### Placing -/

theorem place_plain {st st' : St} {T : Trans3} {k : V3} {name : String} {lv mother : Nat} {copyNo : Int} (hk : ¬ IsReflection k)
    (hm : st.cons mother = none) (hx : place st T k name lv mother copyNo = some st') :
    addDaughter st mother ⟨name, T, lv, copyNo⟩ = some st' := by
  rw [place, if_pos hk] at hx
  obtain ⟨st1, h1, hx⟩ := Option.bind_eq_some_iff.mp hx
  obtain ⟨l, hl, e⟩ := addDaughter_some h1
  have : st1.cons mother = none := by rw [e]; exact hm
  rw [this] at hx
  cases hx
  exact h1

/-- Placing with the mirror: the reflected volume goes into the mother; the counterpart, if the mother has one, into that. -/
theorem place_mirror {s : V3} (hs : Mirror s) {st st' : St} {T : Trans3} {name : String} {lv mother : Nat} {copyNo : Int}
    (h : Inv s (fun _ => False) st) (ho : T.Orthonormal) (hf : T.FlagsOk) (hm : st.refl mother = none)
    (hml : mother < st.lvs.length) (hx : place st T s name lv mother copyNo = some st') :
    Inv s (fun _ => False) st' ∧ Ext (fun i => i = mother ∨ st'.cons mother = some i) st st' ∧ ∃ r m, st'.cons lv = some r ∧
      st.lvs[mother]? = some m ∧ st'.lvs[mother]? = some { m with daughters := m.daughters ++ [⟨name ++ "_refl", T, r, copyNo⟩] } := by
  have hn : ¬ ¬ IsReflection s := fun hh => hh hs.neg
  rw [place, if_neg hn] at hx
  obtain ⟨x, h1, hx⟩ := Option.bind_eq_some_iff.mp hx
  obtain ⟨st2, h2, hx⟩ := Option.bind_eq_some_iff.mp hx
  obtain ⟨i1, e1, c1⟩ := reflectLV_ok hs h h1
  obtain ⟨m, hl, rfl⟩ := addDaughter_some h2
  have hm1 : x.1.refl mother = none := by rw [e1.refl mother hml]; exact hm
  have hl0 : st.lvs[mother]? = some m := by rw [← e1.keep mother hml (fun hf => hf)]; exact hl
  have hd := i1.dom _ _ c1
  have g1 : Good x.1.lvs.length ⟨name ++ "_refl", T, x.2, copyNo⟩ := ⟨ho, hf, hd.2⟩
  have hmlt := lt_of_some hl
  cases e : x.1.cons mother with
  | none =>
    simp only [e] at hx
    cases hx
    refine ⟨add_inv i1 hl g1 (fun r hr => by rw [e] at hr; cases hr) (fun hr => hr hm1), ?_, x.2, m, c1, hl0,
      List.getElem?_set_self hmlt⟩
    exact (e1.mono (fun _ _ hf => hf.elim)).trans' add_ext (fun i _ hi => .inl hi)
  | some rm =>
    simp only [e] at hx
    have hrm := (i1.both mother rm).mp e
    have hne : mother ≠ rm := by rintro rfl; rw [hm1] at hrm; cases hrm
    have j1 : Inv s (· = rm) { x.1 with lvs := x.1.lvs.set mother { m with daughters := m.daughters ++ [⟨name ++ "_refl", T, x.2, copyNo⟩] } } :=
      add_inv (i1.mono (fun _ hf => hf.elim)) hl g1 (fun r hr => by rw [e] at hr; exact (Option.some.inj hr).symm)
        (fun hr => absurd hm1 hr)
    obtain ⟨l2, hl2, rfl⟩ := addDaughter_some hx
    have ck := convert_ok hs ho hf
    have j2 := add_inv (pl := ⟨name, convert T s, lv, copyNo⟩) j1 hl2
      ⟨ck.1, ck.2, by rw [List.length_set]; exact hd.1⟩
      (fun r hr => by
        have := i1.disj rm r hr
        rw [hrm] at this; cases this)
      (fun _ => rfl)
    have hl2' : x.1.lvs[rm]? = some l2 := by
      have h' : (x.1.lvs.set mother { m with daughters := m.daughters ++ [⟨name ++ "_refl", T, x.2, copyNo⟩] })[rm]? = some l2 := hl2
      rwa [List.getElem?_set_ne hne] at h'
    have hmo : ((x.1.lvs.set mother { m with daughters := m.daughters ++ [⟨name ++ "_refl", T, x.2, copyNo⟩] }).set rm
        { l2 with daughters := l2.daughters ++ [⟨name, convert T s, lv, copyNo⟩] })[mother]? =
        some { m with daughters := m.daughters ++ [⟨name ++ "_refl", T, x.2, copyNo⟩] } := by
      rw [List.getElem?_set_ne (fun h => hne h.symm)]
      exact List.getElem?_set_self hmlt
    refine ⟨⟨j2.dom, j2.both, j2.disj, j2.good, j2.solid, ?_⟩, ?_, x.2, m, c1, hl0, hmo⟩
    · intro c r lc lr hc _ hlc hlr
      by_cases er : r = rm
      · subst er
        have hc' : x.1.cons c = some r := hc
        have ec : c = mother := Option.some.inj (((i1.both c r).mp hc').symm.trans hrm)
        subst ec
        have q1 := Option.some.inj (hlc.symm.trans hmo)
        have q2 : lr = { l2 with daughters := l2.daughters ++ [⟨name, convert T s, lv, copyNo⟩] } := by
          refine Option.some.inj (hlr.symm.trans ?_)
          exact List.getElem?_set_self (lt_of_some hl2)
        rw [q1, q2]
        refine List.rel_append (i1.daug c r m l2 e (fun hf => hf) hl hl2') (List.Forall₂.cons ⟨rfl, rfl, .inr c1⟩ List.Forall₂.nil)
      · exact j2.daug c r lc lr hc er hlc hlr
    · refine ((e1.mono (fun _ _ hf => hf.elim)).trans' add_ext (fun i _ hi => .inl hi)).trans' add_ext (fun i _ hi => .inr ?_)
      have hi : i = rm := hi
      rw [hi]; exact e

theorem new_inv {s : V3} {st : St} (name : String) (solid : Nat) (h : Inv s (fun _ => False) st) :
    Inv s (fun _ => False) (newLV st name solid) := by
  have hold : ∀ i, i < st.lvs.length → (newLV st name solid).lvs[i]? = st.lvs[i]? :=
    fun i hi => List.getElem?_append_left hi
  refine ⟨fun c r hc => ?_, h.both, h.disj, fun i x hx pl hpl => ?_, fun c r lc lr hc hlc hlr => ?_, fun c r lc lr hc hP hlc hlr => ?_⟩
  · have := h.dom c r hc
    simp only [newLV, List.length_append, List.length_singleton]
    omega
  · have hi := lt_of_some hx
    simp only [newLV, List.length_append, List.length_singleton] at hi ⊢
    by_cases e : i = st.lvs.length
    · subst e
      simp only [newLV, List.getElem?_concat_length] at hx
      cases hx
      cases hpl
    · rw [hold i (by omega)] at hx
      exact good_mono (by omega) (h.good i x hx pl hpl)
  · have hd := h.dom c r hc
    rw [hold c hd.1] at hlc
    rw [hold r hd.2] at hlr
    exact h.solid c r lc lr hc hlc hlr
  · have hd := h.dom c r hc
    rw [hold c hd.1] at hlc
    rw [hold r hd.2] at hlr
    exact h.daug c r lc lr hc hP hlc hlr

theorem reach_inv {s : V3} (hs : Mirror s) {st : St} (h : Reach s st) : Inv s (fun _ => False) st := by
  induction h with
  | init =>
    refine ⟨fun _ _ h => ?_, fun _ _ => ?_, fun _ _ h => ?_, fun i l h => ?_, fun _ _ _ _ h => ?_, fun _ _ _ _ h => ?_⟩
    · cases h
    · exact ⟨fun h => (by cases h), fun h => (by cases h)⟩
    · cases h
    · cases h
    · cases h
    · cases h
  | new name solid _ ih => exact new_inv name solid ih
  | plain T k name lv mother copyNo _ hk ho hf hlv hm hr hx ih =>
    obtain ⟨l, hl, rfl⟩ := addDaughter_some (place_plain hk hm hx)
    exact add_inv ih hl ⟨ho, hf, hlv⟩ (fun r hr => by rw [hm] at hr; cases hr) (fun h => absurd hr h)
  | mirror T name lv mother copyNo _ ho hf hml hm hx ih => exact (place_mirror hs ih ho hf hm hml hx).1

/-! ### The content -/

theorem content_mirror {shape : Nat → V3 → Prop} {s : V3} (hs : Mirror s) {st : St} (h : Inv s (fun _ => False) st) :
    ∀ (way : List Nat) (c r : Nat) (p : V3), st.cons c = some r → (Content shape st.lvs r way p ↔ Content shape st.lvs c way (by' s p))
  | [], c, r, p, hc => by
    have hd := h.dom c r hc
    obtain ⟨lc, hlc⟩ : ∃ lc, st.lvs[c]? = some lc := ⟨_, List.getElem?_eq_getElem hd.1⟩
    obtain ⟨lr, hlr⟩ : ∃ lr, st.lvs[r]? = some lr := ⟨_, List.getElem?_eq_getElem hd.2⟩
    have hsol := h.solid c r lc lr hc hlc hlr
    have e : In shape lr.solid p ↔ In shape lc.solid (by' s p) := by rw [hsol, In, by_div hs]
    simp only [Content, hlc, hlr, Option.some.injEq]
    constructor
    · rintro ⟨l, rfl, hi⟩; exact ⟨lc, rfl, e.mp hi⟩
    · rintro ⟨l, rfl, hi⟩; exact ⟨lr, rfl, e.mpr hi⟩
  | i :: way, c, r, p, hc => by
    have hd := h.dom c r hc
    obtain ⟨lc, hlc⟩ : ∃ lc, st.lvs[c]? = some lc := ⟨_, List.getElem?_eq_getElem hd.1⟩
    obtain ⟨lr, hlr⟩ : ∃ lr, st.lvs[r]? = some lr := ⟨_, List.getElem?_eq_getElem hd.2⟩
    have hdau := h.daug c r lc lr hc (fun hf => hf) hlc hlr
    have step : ∀ pl pl' : Placement, pl ∈ lc.daughters → Rel s st.cons pl pl' →
        (Content shape st.lvs pl'.lv way (pl'.tr.transform p) ↔ Content shape st.lvs pl.lv way (pl.tr.transform (by' s p))) := by
      intro pl pl' hpl hrel
      have g := h.good c lc hlc pl hpl
      rw [hrel.tr, convert_transform hs g.orth g.flags]
      rcases hrel.lv with e | e
      · rw [content_mirror hs h way _ _ _ e, by_by hs]
      · rw [← content_mirror hs h way _ _ _ e]
    simp only [Content, hlc, hlr, Option.some.injEq]
    constructor
    · rintro ⟨l, pl', rfl, hpl', hi⟩
      obtain ⟨hlen, hget⟩ := List.forall₂_iff_get.mp hdau
      obtain ⟨hi', hg'⟩ := List.getElem?_eq_some_iff.mp hpl'
      have hic : i < lc.daughters.length := by omega
      have hrel := hget i hic hi'
      simp only [List.get_eq_getElem] at hrel
      rw [hg'] at hrel
      exact ⟨lc, _, rfl, List.getElem?_eq_getElem hic, (step _ _ (List.getElem_mem hic) hrel).mp hi⟩
    · rintro ⟨l, pl, rfl, hpl, hi⟩
      obtain ⟨hlen, hget⟩ := List.forall₂_iff_get.mp hdau
      obtain ⟨hic, hg⟩ := List.getElem?_eq_some_iff.mp hpl
      have hir : i < lr.daughters.length := by omega
      have hrel := hget i hic hir
      simp only [List.get_eq_getElem] at hrel
      rw [hg] at hrel
      exact ⟨lr, _, rfl, List.getElem?_eq_getElem hir, (step _ _ (hg ▸ List.getElem_mem hic) hrel).mpr hi⟩

/-! ### The recursion ends -/

/-- The volumes that are neither reflected nor a reflection. -/
noncomputable def free (st : St) : Finset Nat := (Finset.range st.lvs.length).filter fun i => st.cons i = none ∧ st.refl i = none

theorem mem_free {st : St} {i : Nat} : i ∈ free st ↔ i < st.lvs.length ∧ st.cons i = none ∧ st.refl i = none := by
  simp [free]

theorem Ext.free {Q : Nat → Prop} {a b : St} (h : Ext Q a b) : free b ⊆ free a := by
  intro i hi
  obtain ⟨h1, h2, h3⟩ := mem_free.mp hi
  have hlt : i < a.lvs.length := by
    by_contra hc
    exact h.new i (by omega) h1 h3
  refine mem_free.mpr ⟨hlt, ?_, by rw [← h.refl i hlt]; exact h3⟩
  cases e : a.cons i with
  | none => rfl
  | some r => rw [h.cons i r e] at h2; cases h2

/-- Success of the recursion for every state with fewer than `n` free volumes. -/
def RecTotal (s : V3) (rec : St → Nat → Nat → Option St) (n : Nat) : Prop :=
  ∀ (P : Nat → Prop) (st : St) (lv r : Nat), Inv s P st → P r → st.cons lv = some r →
    (∃ lr, st.lvs[r]? = some lr ∧ lr.daughters = []) → (free st).card < n → ∃ st', rec st lv r = some st'

theorem addDaughter_total {st : St} {m : Nat} (h : m < st.lvs.length) (pl : Placement) : ∃ st', addDaughter st m pl = some st' := by
  rw [addDaughter, List.getElem?_eq_getElem h]
  exact ⟨_, rfl⟩

theorem create_total {st : St} {lv : Nat} (s : V3) (h : lv < st.lvs.length) (hr : st.refl lv = none) : ∃ x, create st lv s = some x := by
  rw [create, if_pos hr, List.getElem?_eq_getElem h]
  exact ⟨_, rfl⟩

theorem placed_total {s : V3} (hs : Mirror s) {n : Nat} {rec : St → Nat → Nat → Option St} (hrec : RecOk s rec)
    (ht : RecTotal s rec n) {P : Nat → Prop} {st : St} {lv r : Nat} {pl : Placement} (h : Inv s P st) (hc : st.cons lv = some r)
    (hg : Good st.lvs.length pl) (hn : (free st).card < n + 1) : ∃ st', reflectPlaced rec s r st pl = some st' := by
  have hr := (h.dom _ _ hc).2
  rw [reflectPlaced]
  cases e1 : st.refl pl.lv with
  | some c => exact addDaughter_total hr _
  | none =>
    cases e2 : st.cons pl.lv with
    | some d => exact addDaughter_total hr _
    | none =>
      obtain ⟨x, hx⟩ := create_total s hg.lv e1
      obtain ⟨i1, x1, ex, c1, em⟩ := create_inv h e2 hx
      have hlt : (free x.1).card < (free st).card := by
        refine Finset.card_lt_card (Finset.ssubset_iff_subset_ne.mpr ⟨x1.free, fun e => ?_⟩)
        have : pl.lv ∈ free st := mem_free.mpr ⟨hg.lv, e2, e1⟩
        rw [← e] at this
        have := (mem_free.mp this).2.1
        rw [c1] at this; cases this
      obtain ⟨st2, h2⟩ := ht _ _ _ _ i1 (.inr rfl) c1 em (by omega)
      obtain ⟨-, x2⟩ := hrec _ _ _ _ _ i1 (.inr rfl) c1 em h2
      obtain ⟨st3, h3⟩ := addDaughter_total (lt_of_lt_of_le hr (le_trans x1.len x2.len)) ⟨pl.name, convert pl.tr s, x.2, pl.copyNo⟩
      refine ⟨st3, ?_⟩
      dsimp only
      rw [hx, Option.bind_some, h2, Option.bind_some, h3]

theorem fold_total {s : V3} (hs : Mirror s) {n : Nat} {rec : St → Nat → Nat → Option St} (hrec : RecOk s rec)
    (ht : RecTotal s rec n) {P : Nat → Prop} {lv r : Nat} (hP : P r) : ∀ (ds : List Placement) (st : St), Inv s P st →
      st.cons lv = some r → (∀ pl ∈ ds, Good st.lvs.length pl) → (free st).card < n + 1 →
      ∃ st', ds.foldlM (fun st pl => reflectPlaced rec s r st pl) st = some st'
  | [], st, _, _, _, _ => ⟨st, rfl⟩
  | pl :: ds, st, h, hc, hg, hn => by
    obtain ⟨st1, h1⟩ := placed_total hs hrec ht h hc (hg pl List.mem_cons_self) hn
    obtain ⟨lr, hlr⟩ : ∃ lr, st.lvs[r]? = some lr := ⟨_, List.getElem?_eq_getElem (h.dom _ _ hc).2⟩
    obtain ⟨i1, x1, -⟩ := placed_ok hs hrec h hP hc hlr (hg pl List.mem_cons_self) h1
    obtain ⟨st', h'⟩ := fold_total hs hrec ht hP ds st1 i1 (x1.cons _ _ hc)
      (fun q hq => good_mono x1.len (hg q (List.mem_cons_of_mem _ hq)))
      (lt_of_le_of_lt (Finset.card_le_card x1.free) hn)
    refine ⟨st', ?_⟩
    rw [List.foldlM_cons]
    exact Option.bind_eq_some_iff.mpr ⟨st1, h1, h'⟩

theorem rec_total {s : V3} (hs : Mirror s) : ∀ n, RecTotal s (reflectDaughters s n) n
  | 0 => by
    intro P st lv r _ _ _ _ hn
    exact absurd hn (Nat.not_lt_zero _)
  | n + 1 => by
    intro P st lv r h hP hc _ hn
    have hlt := (h.dom _ _ hc).1
    rw [reflectDaughters, List.getElem?_eq_getElem hlt, Option.bind_some]
    exact fold_total hs (rec_ok hs n) (rec_total hs n) hP _ st h hc (h.good lv _ (List.getElem?_eq_getElem hlt)) hn

theorem reflectLV_total {s : V3} (hs : Mirror s) {st : St} {lv : Nat} (h : Inv s (fun _ => False) st) (hlv : lv < st.lvs.length)
    (hr : st.refl lv = none) : ∃ x, reflectLV st lv s = some x := by
  rw [reflectLV]
  cases e : st.cons lv with
  | some r => exact ⟨_, rfl⟩
  | none =>
    obtain ⟨x, hx⟩ := create_total s hlv hr
    obtain ⟨i1, x1, ex, c1, em⟩ := create_inv h e hx
    have hle : (free x.1).card ≤ st.lvs.length := by
      refine le_trans (Finset.card_le_card x1.free) (le_trans (Finset.card_filter_le _ _) ?_)
      simp
    obtain ⟨st2, h2⟩ := rec_total hs (st.lvs.length + 1) _ _ _ _ i1 (.inr rfl) c1 em (by omega)
    refine ⟨(st2, x.2), ?_⟩
    dsimp only
    rw [hx, Option.bind_some, h2, Option.map_some]

end Refl
end VecGeom
