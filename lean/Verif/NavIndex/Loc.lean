import Verif.NavIndex.Lemmas
import Verif.Transform.Props

/-! Facts about located paths in a finished table. -/

namespace VecGeom
namespace NavIndex
open NavPath

variable {w : Nat} {lim : Int} {t : Tab} {world : PVol}

theorem encL_get (m : Nat → Cell) : ∀ (ds : List PVol) (anc : List PVol) (cur mo i k : Nat) (d : PVol),
    EncL w lim m ds anc cur mo i → ds[k]? = some d →
    ∃ c, m (mo + 3 + (i + k)) = .word c ∧ Enc w lim m d anc c mo ∧ cur ≤ c ∧
      subEnd w lim d anc.length c ≤ subEndL w lim ds anc.length cur := by
  intro ds
  induction ds with
  | nil => intro anc cur mo i k d _ h; simp at h
  | cons x ds ih =>
    intro anc cur mo i k d h hk
    simp only [EncL] at h
    cases k with
    | zero =>
      simp only [List.getElem?_cons_zero, Option.some.injEq] at hk
      subst hk
      refine ⟨cur, h.1, h.2.1, Nat.le_refl _, ?_⟩
      simp only [subEndL]; exact subEndL_ge _ _ _ _ _
    | succ k =>
      simp only [List.getElem?_cons_succ] at hk
      obtain ⟨c, h1, h2, h3, h4⟩ := ih anc _ mo (i + 1) k d h.2.2 hk
      refine ⟨c, by rw [← h1]; congr 1; omega, h2, ?_, by simpa only [subEndL] using h4⟩
      have := subEnd_gt w lim x anc.length cur
      omega

/-- Everything the table says about the end of a located path. -/
structure Info (w : Nat) (lim : Int) (t : Tab) (world : PVol) (anc : List PVol) (v : PVol) (idx mo : Nat) : Prop where
  enc : Enc w lim t.mem v anc idx mo
  size : subEnd w lim v anc.length idx < t.nelem
  fits : ∃ k, Fits v k ∧ anc.length + k ≤ 255
  up : (anc = [] ∧ mo = 0 ∧ idx = 1 ∧ v = world) ∨
    (1 < idx ∧ Loc t world anc mo ∧ ∃ u, anc.getLast? = some u ∧ v ∈ u.daughters)

theorem Loc.info (hb : Built w lim t world) {path : List PVol} {idx : Nat} (h : Loc t world path idx) :
    ∃ anc v mo, path = anc ++ [v] ∧ Info w lim t world anc v idx mo := by
  induction h with
  | root => exact ⟨[], world, 0, rfl, ⟨hb.enc, hb.size, ⟨255, hb.fits, by simp⟩, Or.inl ⟨rfl, rfl, rfl, rfl⟩⟩⟩
  | @step anc mo i idx u d hl hd hw ih =>
    obtain ⟨anc', u', mo', he, hI⟩ := ih
    obtain ⟨rfl, e2⟩ := List.append_inj' he rfl
    simp only [List.cons.injEq, and_true] at e2
    subst e2
    have henc := (enc_eq _ _ _ _ _ _ _).mp hI.enc
    obtain ⟨c, h1, h2, h3, h4⟩ := encL_get t.mem _ _ _ _ _ _ _ henc.2 hd
    rw [Nat.zero_add, hw] at h1
    cases h1
    have hmem : d ∈ u.daughters := List.mem_of_getElem? hd
    refine ⟨anc ++ [u], d, mo, rfl, ⟨h2, ?_, ?_, Or.inr ⟨?_, hl, u, by simp, hmem⟩⟩⟩
    · have h5 := hI.size
      rw [subEnd_eq] at h5
      simp only [List.length_append, List.length_singleton] at h4 ⊢
      omega
    · obtain ⟨k, hk, hk'⟩ := hI.fits
      obtain ⟨k, rfl⟩ := fits_pos hk
      rw [fits_eq] at hk
      exact ⟨k, fitsL_mem hk.2 d hmem, by simp; omega⟩
    · have := recEnd_ge w lim u anc.length mo
      have := dI_ge u.daughters.length
      omega

theorem Loc.len (hb : Built w lim t world) {path : List PVol} {idx : Nat} (h : Loc t world path idx) :
    0 < path.length ∧ path.length ≤ 255 ∧ 0 < idx := by
  obtain ⟨anc, v, mo, rfl, hI⟩ := h.info hb
  obtain ⟨k, hk, hk'⟩ := hI.fits
  obtain ⟨k, rfl⟩ := fits_pos hk
  refine ⟨by simp, by simp; omega, ?_⟩
  rcases hI.up with h | h <;> omega

theorem Loc.sub {path : List PVol} {idx : Nat} (h : Loc t world path idx) :
    ∀ v ∈ path, PVol.Sub world v := by
  induction h with
  | root => intro v hv; simp at hv; subst hv; exact .refl _
  | step hl hd hw ih =>
    intro v hv
    rw [List.mem_append] at hv
    rcases hv with hv | hv
    · exact ih v hv
    · simp at hv; subst hv
      exact (ih _ (by simp)).daughter (List.mem_of_getElem? hd)

theorem Loc.head {path : List PVol} {idx : Nat} (h : Loc t world path idx) : path.head? = some world := by
  induction h with
  | root => rfl
  | step hl hd hw ih => rw [List.head?_append, ih]; rfl

/-- One more step along a daughter always exists in a finished table. -/
theorem Loc.extend (hb : Built w lim t world) {anc : List PVol} {u d : PVol} {mo i : Nat}
    (h : Loc t world (anc ++ [u]) mo) (hd : u.daughters[i]? = some d) :
    ∃ idx, t.mem (mo + 3 + i) = .word idx ∧ mo + 3 + i < t.nelem ∧ Loc t world (anc ++ [u] ++ [d]) idx := by
  obtain ⟨anc', v, mo', he, hI⟩ := h.info hb
  obtain ⟨rfl, e2⟩ := List.append_inj' he rfl
  simp only [List.cons.injEq, and_true] at e2
  subst e2
  have henc := (enc_eq _ _ _ _ _ _ _).mp hI.enc
  obtain ⟨c, h1, h2, h3, h4⟩ := encL_get t.mem _ _ _ _ _ _ _ henc.2 hd
  rw [Nat.zero_add] at h1
  refine ⟨c, h1, ?_, .step h hd h1⟩
  have := (List.getElem?_eq_some_iff.mp hd).1
  have := dI_ge u.daughters.length
  have := recEnd_ge w lim u anc.length mo
  have := subEnd_bounds w lim u anc.length mo
  have := hI.size
  omega

/-! ### accessors -/

theorem word_of {i n : Nat} (h : i < t.nelem) (hm : t.mem i = .word n) : t.word i = some n := by
  rw [Tab.word, if_pos h, hm]

theorem metaWord_level (l h n : Nat) : metaWord l h n % 256 = l % 256 := by unfold metaWord; omega
theorem metaWord_hasm (l h n : Nat) : metaWord l h n / 256 % 256 = h % 256 := by unfold metaWord; omega
theorem metaWord_nd (l h n : Nat) : metaWord l h n / 65536 % 65536 = n % 65536 := by unfold metaWord; omega

structure Acc (w : Nat) (lim : Int) (t : Tab) (anc : List PVol) (v : PVol) (idx mo : Nat) : Prop where
  mother : t.word idx = some mo
  pid : t.word (idx + 1) = some v.id
  level : getLevel t idx = some anc.length
  nd : getNdaughters t idx = some v.daughters.length
  hasm : ∃ hasm, getHasm t idx = some hasm ∧
    if cacheTrans lim anc.length v then
      hasm = 4 + 2 * (pathMatrix (anc ++ [v])).fHasTranslation.toNat + (pathMatrix (anc ++ [v])).fHasRotation.toNat ∧
      dataIndex w idx v.daughters.length + 12 * w < t.nelem ∧
      ∀ k (h : k < (matCells w (pathMatrix (anc ++ [v]))).length),
        t.mem (dataIndex w idx v.daughters.length + k) = (matCells w (pathMatrix (anc ++ [v])))[k]
    else hasm = 0

theorem Info.acc {anc : List PVol} {v : PVol} {idx mo : Nat} (hI : Info w lim t world anc v idx mo) :
    Acc w lim t anc v idx mo := by
  have hr := ((enc_eq _ _ _ _ _ _ _).mp hI.enc).1
  have h1 := dI_ge v.daughters.length
  have h2 := recEnd_ge w lim v anc.length idx
  have h3 := subEnd_bounds w lim v anc.length idx
  have h4 := hI.size
  obtain ⟨k, hk, hk'⟩ := hI.fits
  obtain ⟨k, rfl⟩ := fits_pos hk
  rw [fits_eq] at hk
  obtain ⟨hasm, hm, hrest⟩ := hr.info
  have hw := word_of (by omega) hm
  have hlt : hasm < 256 := by
    split at hrest
    · have := Bool.toNat_le (pathMatrix (anc ++ [v])).fHasTranslation
      have := Bool.toNat_le (pathMatrix (anc ++ [v])).fHasRotation
      omega
    · omega
  refine ⟨word_of (by omega) hr.mother, word_of (by omega) hr.pid, ?_, ?_, hasm, ?_, ?_⟩
  · rw [getLevel, hw, Option.map_some, metaWord_level, Nat.mod_eq_of_lt (by omega)]
  · rw [getNdaughters, hw, Option.map_some, metaWord_nd, Nat.mod_eq_of_lt (by omega)]
  · rw [getHasm, hw, Option.map_some, metaWord_hasm, Nat.mod_eq_of_lt hlt]
  · split
    · rename_i hc
      rw [if_pos hc] at hrest
      refine ⟨hrest.1, ?_, hrest.2⟩
      rw [recEnd, if_pos hc] at h3
      omega
    · rename_i hc
      rw [if_neg hc] at hrest; exact hrest

theorem Loc.acc (hb : Built w lim t world) {anc : List PVol} {v : PVol} {idx : Nat}
    (h : Loc t world (anc ++ [v]) idx) :
    ∃ mo, Acc w lim t anc v idx mo ∧
      ((anc = [] ∧ mo = 0 ∧ idx = 1 ∧ v = world) ∨
        (1 < idx ∧ Loc t world anc mo ∧ ∃ u, anc.getLast? = some u ∧ v ∈ u.daughters)) := by
  obtain ⟨anc', v', mo, he, hI⟩ := h.info hb
  obtain ⟨rfl, e2⟩ := List.append_inj' he rfl
  simp only [List.cons.injEq, and_true] at e2
  subst e2
  exact ⟨mo, hI.acc, hI.up⟩

theorem upLoop_loc (hb : Built w lim t world) : ∀ (n fuel : Nat) (path : List PVol) (nav : Nat),
    Loc t world path nav → n < path.length → n < fuel →
    ∃ nav', upLoop t fuel nav n = some nav' ∧ Loc t world (path.take (path.length - n)) nav' := by
  intro n
  induction n with
  | zero =>
    intro fuel path nav h _ hf
    obtain ⟨f, rfl⟩ : ∃ f, fuel = f + 1 := ⟨fuel - 1, by omega⟩
    refine ⟨nav, ?_, by simpa using h⟩
    have := (h.len hb).2.2
    rw [upLoop, if_neg (by omega), if_pos (by simp)]
  | succ n ih =>
    intro fuel path nav h hn hf
    obtain ⟨f, rfl⟩ : ∃ f, fuel = f + 1 := ⟨fuel - 1, by omega⟩
    have hpos := (h.len hb).2.2
    obtain ⟨anc, v, mo, rfl, hI⟩ := h.info hb
    have ha := hI.acc
    simp only [List.length_append, List.length_singleton] at hn
    have hup : Loc t world anc mo := by
      rcases hI.up with h0 | h0
      · rw [h0.1] at hn; simp at hn
      · exact h0.2.1
    obtain ⟨nav', e, hl⟩ := ih f anc mo hup (by omega) (by omega)
    refine ⟨nav', ?_, ?_⟩
    · rw [upLoop, if_neg (by omega), if_neg (by omega), ha.mother]
      simp only
      rw [← e]; congr 1; push_cast; ring
    · rw [List.take_append_of_le_length (by simp)]
      simpa using hl

/-- Asking for a level that the path does not have walks out of the geometry. -/
theorem upLoop_out (hb : Built w lim t world) : ∀ (m fuel : Nat) (path : List PVol) (nav : Nat) (up : Int),
    path.length = m → Loc t world path nav → (up < 0 ∨ (path.length : Int) ≤ up) → path.length < fuel →
    upLoop t fuel nav up = some 0 := by
  intro m
  induction m with
  | zero => intro fuel path nav up hm h; have := (h.len hb).1; omega
  | succ m ih =>
    intro fuel path nav up hm h hup hf
    obtain ⟨f, rfl⟩ : ∃ f, fuel = f + 1 := ⟨fuel - 1, by omega⟩
    have hpos := (h.len hb).2.2
    have hlen := (h.len hb).1
    obtain ⟨anc, v, mo, rfl, hI⟩ := h.info hb
    have ha := hI.acc
    simp only [List.length_append, List.length_singleton] at hm hf hup hlen
    rw [upLoop, if_neg (by omega), if_neg (by push_cast at hup; omega), ha.mother]
    simp only
    rcases hI.up with h0 | h0
    · rw [h0.2.1]
      obtain ⟨f', rfl⟩ : ∃ f', f = f' + 1 := ⟨f - 1, by omega⟩
      rw [upLoop, if_pos rfl]
    · exact ih f anc mo (up - 1) (by omega) h0.2.1 (by push_cast at hup; omega) (by omega)

theorem getNavIndex_loc (hb : Built w lim t world) {path : List PVol} {nav : Nat} (h : Loc t world path nav)
    {k fuel : Nat} (hk : k < path.length) (hf : path.length < fuel) :
    ∃ nav', getNavIndex t fuel nav k = some nav' ∧ Loc t world (path.take (k + 1)) nav' := by
  obtain ⟨anc, v, mo, rfl, hI⟩ := h.info hb
  have ha := hI.acc
  simp only [List.length_append, List.length_singleton] at hk hf
  obtain ⟨nav', e, hl⟩ := upLoop_loc hb (anc.length - k) fuel _ nav h (by simp only [List.length_append, List.length_singleton]; omega) (by omega)
  refine ⟨nav', ?_, ?_⟩
  · rw [getNavIndex, ha.level]
    simp only
    rw [← e]; congr 1; omega
  · simp only [List.length_append, List.length_singleton] at hl
    rw [show anc.length + 1 - (anc.length - k) = k + 1 by omega] at hl
    exact hl

theorem topI_loc (hb : Built w lim t world) {lookup : Nat → Option PVol} (hw : PVol.WF lookup world)
    {path : List PVol} {nav : Nat} (h : Loc t world path nav) : topI lookup t nav = some path.getLast? := by
  have hpos := (h.len hb).2.2
  have hsub := h.sub
  obtain ⟨anc, v, mo, rfl, hI⟩ := h.info hb
  have ha := hI.acc
  rw [topI, if_pos (by omega), ha.pid]
  simp only
  rw [hw.find v (hsub v (by simp))]
  simp

theorem Loc.getLast {path : List PVol} {nav : Nat} (h : Loc t world path nav) :
    ∃ anc v, path = anc ++ [v] := by
  cases h with
  | root => exact ⟨[], world, rfl⟩
  | step => exact ⟨_, _, rfl⟩

/-! ### matrices -/

theorem pathMatrix_concat {anc : List PVol} (h : anc ≠ []) (v : PVol) :
    pathMatrix (anc ++ [v]) = (pathMatrix anc).mulRight v.trans := by
  unfold pathMatrix
  rw [List.tail_append_of_ne_nil h, List.foldl_append]
  rfl

theorem pathMatrix_flagsOk {path : List PVol} (h : ∀ v ∈ path, v.trans.FlagsOk) : (pathMatrix path).FlagsOk := by
  unfold pathMatrix
  have key : ∀ (l : List PVol) (m : Trans3), m.FlagsOk → (∀ v ∈ l, v.trans.FlagsOk) →
      (l.foldl (fun m v => m.mulRight v.trans) m).FlagsOk := by
    intro l
    induction l with
    | nil => intro m hm _; exact hm
    | cons v l ih =>
      intro m hm hl
      simp only [List.foldl_cons]
      exact ih _ (Trans3.mulRight_flagsOk hm (hl v (by simp))) (fun u hu => hl u (by simp [hu]))
  exact key _ _ Trans3.identity_flagsOk (fun v hv => h v (List.mem_of_mem_tail hv))

/-- The 12 numbers in storage order. -/
def vals (m : Trans3) : List ℝ := [m.t.x, m.t.y, m.t.z, m.r0, m.r1, m.r2, m.r3, m.r4, m.r5, m.r6, m.r7, m.r8]

theorem flatMap_prec (w : Nat) : ∀ (l : List ℝ) (i : Nat) (x : ℝ) (k : Nat), l[i]? = some x → k < w →
    (l.flatMap (precCells w))[w * i + k]? = some (.prec x k) := by
  intro l
  induction l with
  | nil => intro i x k h; simp at h
  | cons y l ih =>
    intro i x k h hk
    rw [List.flatMap_cons]
    cases i with
    | zero =>
      simp only [List.getElem?_cons_zero, Option.some.injEq] at h
      subst h
      rw [List.getElem?_append_left (by simp [precCells]; omega)]
      simp [precCells, hk]
    | succ i =>
      simp only [List.getElem?_cons_succ] at h
      rw [List.getElem?_append_right (by simp [precCells]; nlinarith)]
      rw [← ih i x k h hk]
      congr 1
      simp [precCells]
      rw [Nat.mul_succ]; omega

theorem prec_read {a : Nat} {m : Trans3} (hw : 0 < w) (hsz : a + 12 * w < t.nelem)
    (hm : ∀ k (h : k < (matCells w m).length), t.mem (a + k) = (matCells w m)[k])
    (i : Nat) (x : ℝ) (hx : (vals m)[i]? = some x) : t.prec w (a + w * i) = some x := by
  have hi : i < 12 := by
    have := (List.getElem?_eq_some_iff.mp hx).1
    simpa [vals] using this
  have cell : ∀ k, k < w → a + w * i + k < t.nelem ∧ t.mem (a + w * i + k) = .prec x k := by
    intro k hk
    have hb : w * i + k < 12 * w := by nlinarith
    refine ⟨by omega, ?_⟩
    have h1 := flatMap_prec w (vals m) i x k hx hk
    obtain ⟨h2, h3⟩ := List.getElem?_eq_some_iff.mp h1
    have := hm (w * i + k) h2
    rw [Nat.add_assoc, this]
    exact h3
  have h0 := (cell 0 hw).2
  rw [Nat.add_zero] at h0
  rw [Tab.prec, h0]
  simp only
  rw [if_pos cell]

theorem readMat_eq {a : Nat} {m : Trans3} (hw : 0 < w) (hsz : a + 12 * w < t.nelem)
    (hm : ∀ k (h : k < (matCells w m).length), t.mem (a + k) = (matCells w m)[k]) (hf : m.FlagsOk) :
    readMat w t a m.fHasTranslation m.fHasRotation = some m := by
  have rd := prec_read hw hsz hm
  unfold readMat
  rw [show a = a + w * 0 by omega]
  rw [show a + w * 0 + w = a + w * 1 by omega]
  simp only [Nat.mul_zero, Nat.add_zero]
  rw [show t.prec w a = some m.t.x from rd 0 _ rfl, rd 1 m.t.y rfl, rd 2 m.t.z rfl, rd 3 m.r0 rfl, rd 4 m.r1 rfl,
    rd 5 m.r2 rfl, rd 6 m.r3 rfl, rd 7 m.r4 rfl, rd 8 m.r5 rfl, rd 9 m.r6 rfl, rd 10 m.r7 rfl, rd 11 m.r8 rfl]
  simp only [Option.bind_eq_bind, Option.bind_some, Option.pure_def, Option.some.injEq]
  have hi := hf.ident
  have htr := hf.trans
  have hro := hf.rot
  obtain ⟨tt, r0, r1, r2, r3, r4, r5, r6, r7, r8, fi, fr, ft⟩ := m
  simp only at hi htr hro ⊢
  cases ft <;> cases fr <;> simp_all [Trans3.set, Trans3.identity, Trans3.setRotation9]

theorem identity_of_flags {m : Trans3} (hf : m.FlagsOk) (h1 : m.fHasTranslation = false)
    (h2 : m.fHasRotation = false) : m = .identity := by
  obtain ⟨a0, a1, a2, a3, a4, a5, a6, a7, a8⟩ := hf.rot h2
  have ht := hf.trans h1
  have hi := hf.ident
  rw [h1, h2] at hi
  obtain ⟨tt, r0, r1, r2, r3, r4, r5, r6, r7, r8, fi, fr, ft⟩ := m
  simp_all [Trans3.identity]

theorem topMatrix_loc (hb : Built w lim t world) {lookup : Nat → Option PVol} (hw : PVol.WF lookup world) :
    ∀ (n fuel : Nat) (path : List PVol) (nav : Nat) (T : Trans3), path.length = n → Loc t world path nav →
      (∀ v ∈ path, v.trans.FlagsOk) → T.FlagsOk → path.length ≤ fuel →
      topMatrixI w lookup t fuel nav T = some ((pathMatrix path).mulRight T) := by
  intro n
  induction n with
  | zero => intro fuel path nav T hn h; have := (h.len hb).1; omega
  | succ n ih =>
    intro fuel path nav T hn h hfl hT hf
    obtain ⟨f, rfl⟩ : ∃ f, fuel = f + 1 := ⟨fuel - 1, by omega⟩
    have hpos := (h.len hb).2.2
    have htop := topI_loc hb hw h
    have hM := pathMatrix_flagsOk hfl
    have hw0 : 0 < w := by rcases hb.w12 with h | h <;> omega
    obtain ⟨anc, v, mo, rfl, hI⟩ := h.info hb
    have ha := hI.acc
    obtain ⟨hasm, hh, hrest⟩ := ha.hasm
    rw [topMatrixI, if_neg (by omega), hh]
    simp only
    by_cases hc : cacheTrans lim anc.length v = true
    · rw [if_pos hc] at hrest
      obtain ⟨e, hsz, hcells⟩ := hrest
      generalize hMd : pathMatrix (anc ++ [v]) = M at *
      have hr := readMat_eq hw0 hsz hcells hM
      rw [ha.nd]
      simp only
      cases h1 : M.fHasTranslation <;> cases h2 : M.fHasRotation <;> rw [h1, h2] at e hr <;> subst e
      · rw [if_pos (by decide), if_pos (by decide), identity_of_flags hM h1 h2, (Trans3.C24_identity hT).1]
      · rw [if_pos (by decide), if_neg (by decide)]
        have e1 : decide ((4 + 2 * false.toNat + true.toNat) &&& 2 > 0) = false := by decide
        have e2 : decide ((4 + 2 * false.toNat + true.toNat) &&& 1 > 0) = true := by decide
        rw [e1, e2, hr]
      · rw [if_pos (by decide), if_neg (by decide)]
        have e1 : decide ((4 + 2 * true.toNat + false.toNat) &&& 2 > 0) = true := by decide
        have e2 : decide ((4 + 2 * true.toNat + false.toNat) &&& 1 > 0) = false := by decide
        rw [e1, e2, hr]
      · rw [if_pos (by decide), if_neg (by decide)]
        have e1 : decide ((4 + 2 * true.toNat + true.toNat) &&& 2 > 0) = true := by decide
        have e2 : decide ((4 + 2 * true.toNat + true.toNat) &&& 1 > 0) = true := by decide
        rw [e1, e2, hr]
    · rw [if_neg hc] at hrest
      subst hrest
      rw [if_neg (by decide), htop, ha.mother]
      simp only [List.getLast?_append, List.getLast?_singleton, Option.some_or]
      have hup : Loc t world anc mo := by
        rcases hI.up with h0 | h0
        · exfalso; apply hc; rw [h0.1]; simp [cacheTrans]; omega
        · exact h0.2.1
      have hne : anc ≠ [] := by
        intro h0; have := (hup.len hb).1; rw [h0] at this; simp at this
      have hv := hfl v (by simp)
      have hfa : ∀ u ∈ anc, u.trans.FlagsOk := fun u hu => hfl u (by simp [hu])
      simp only [List.length_append, List.length_singleton] at hn hf
      rw [ih f anc mo _ (by omega) hup hfa (Trans3.mulRight_flagsOk hv hT) (by omega)]
      rw [pathMatrix_concat hne, Trans3.C24_assoc (pathMatrix_flagsOk hfa) hv hT]

end NavIndex
end VecGeom
