import Verif.NavIndex.Spec
import Verif.NavPath.Lemmas
import Mathlib.Tactic.IntervalCases

/-! Helper lemmas for the navigation table. -/

namespace VecGeom

/-- Induction over the unfolded tree. -/
theorem PVol.ind {P : PVol → Prop} (h : ∀ v : PVol, (∀ d ∈ v.daughters, P d) → P v) : ∀ v, P v := by
  intro v
  have key : ∀ n (v : PVol), sizeOf v ≤ n → P v := by
    intro n
    induction n with
    | zero => intro v hv; cases v; simp at hv
    | succ n ih =>
      intro v hv
      apply h
      intro d hd
      apply ih
      cases v with
      | mk i c l t r ds =>
        simp only [PVol.daughters] at hd
        have := List.sizeOf_lt_of_mem hd
        simp at hv
        omega
  exact key _ v (Nat.le_refl _)

namespace NavIndex
open NavPath

/-! ### unfolding -/

theorem enc_eq (w : Nat) (lim : Int) (m : Nat → Cell) (v : PVol) (anc : List PVol) (idx mo : Nat) :
    Enc w lim m v anc idx mo ↔ Rec w lim m v anc idx mo ∧
      EncL w lim m v.daughters (anc ++ [v]) (recEnd w lim v anc.length idx) idx 0 := by
  cases v; simp only [Enc, PVol.daughters]

theorem subEnd_eq (w : Nat) (lim : Int) (v : PVol) (lvl idx : Nat) :
    subEnd w lim v lvl idx = subEndL w lim v.daughters (lvl + 1) (recEnd w lim v lvl idx) := by
  cases v; simp only [subEnd, PVol.daughters]

theorem fits_eq (v : PVol) (d : Nat) : Fits v (d + 1) ↔ v.daughters.length < 65535 ∧ FitsL v.daughters d := by
  cases v; simp only [Fits, PVol.daughters]

theorem fits_pos {v : PVol} {d : Nat} (h : Fits v d) : ∃ e, d = e + 1 := by
  cases d with
  | zero => cases v; simp [Fits] at h
  | succ e => exact ⟨e, rfl⟩

theorem visit_eq {S : Type} (app : S → NavPath PVol → Int → Nat → Nat → Option (S × Nat)) (v : PVol) (s : S)
    (st : NavPath PVol) (level : Int) (mother dind : Nat) :
    visit app v s st level mother dind =
      match st.push v with
      | none => none
      | some st1 => match app s st1 level mother dind with
        | none => none
        | some (s1, newMother) => match visitL app v.daughters s1 st1 (level + 1) newMother 0 with
          | none => none
          | some (s2, st2) => some (s2, st2.pop) := by
  cases v; simp only [visit, PVol.daughters]; all_goals rfl

/-! ### sizes -/

theorem and_one (n : Nat) : n &&& 1 = n % 2 := Nat.and_one_is_mod n

theorem dI_ge (nd : Nat) : nd + 3 ≤ daughterIndices nd := by unfold daughterIndices; omega

theorem dI_even (nd : Nat) : daughterIndices nd % 2 = 0 := by
  unfold daughterIndices; rw [and_one]; omega

theorem dataIndex_ge (w idx nd : Nat) : idx + daughterIndices nd ≤ dataIndex w idx nd := by
  unfold dataIndex daughterIndices; simp only; split <;> omega

theorem recEnd_ge (w : Nat) (lim : Int) (v : PVol) (lvl idx : Nat) :
    idx + daughterIndices v.daughters.length ≤ recEnd w lim v lvl idx := by
  unfold recEnd
  have := dataIndex_ge w idx v.daughters.length
  split <;> omega

theorem subEnd_bounds (w : Nat) (lim : Int) (v : PVol) :
    ∀ lvl idx, recEnd w lim v lvl idx ≤ subEnd w lim v lvl idx := by
  induction v using PVol.ind with
  | h v ih =>
    intro lvl idx
    rw [subEnd_eq]
    have : ∀ (ds : List PVol), (∀ d ∈ ds, d ∈ v.daughters) → ∀ l i, i ≤ subEndL w lim ds l i := by
      intro ds
      induction ds with
      | nil => intro _ l i; simp [subEndL]
      | cons d ds ihd =>
        intro hs l i
        simp only [subEndL]
        have h1 := ih d (hs d (by simp)) l i
        have h2 := recEnd_ge w lim d l i
        have h3 := ihd (fun x hx => hs x (by simp [hx])) l (subEnd w lim d l i)
        omega
    exact this _ (fun _ h => h) _ _

theorem subEnd_gt (w : Nat) (lim : Int) (v : PVol) (lvl idx : Nat) : idx + 3 ≤ subEnd w lim v lvl idx := by
  have h1 := subEnd_bounds w lim v lvl idx
  have h2 := recEnd_ge w lim v lvl idx
  have h3 := dI_ge v.daughters.length
  omega

theorem subEndL_ge (w : Nat) (lim : Int) : ∀ (ds : List PVol) (l i : Nat), i ≤ subEndL w lim ds l i := by
  intro ds
  induction ds with
  | nil => intro l i; simp [subEndL]
  | cons d ds ihd =>
    intro l i
    simp only [subEndL]
    have h1 := subEnd_gt w lim d l i
    have h3 := ihd l (subEnd w lim d l i)
    omega

/-! ### frames -/

theorem matCells_length (w : Nat) (m : Trans3) : (matCells w m).length = 12 * w := by
  simp [matCells, precCells]; omega

theorem Rec.congr {w : Nat} {lim : Int} {m m' : Nat → Cell} {v : PVol} {anc : List PVol} {idx mo : Nat}
    (h : Rec w lim m v anc idx mo) (he : ∀ j, idx ≤ j → j < recEnd w lim v anc.length idx → 
      (j < idx + 3 ∨ idx + 3 + v.daughters.length ≤ j) → m' j = m j) :
    Rec w lim m' v anc idx mo := by
  have hg := recEnd_ge w lim v anc.length idx
  have h3 := dI_ge v.daughters.length
  refine ⟨?_, ?_, ?_⟩
  · rw [he _ (by omega) (by omega) (by omega)]; exact h.mother
  · rw [he _ (by omega) (by omega) (by omega)]; exact h.pid
  · obtain ⟨hasm, h1, h2⟩ := h.info
    refine ⟨hasm, by rw [he _ (by omega) (by omega) (by omega)]; exact h1, ?_⟩
    split
    · rename_i hc
      rw [if_pos hc] at h2
      refine ⟨h2.1, fun k hk => ?_⟩
      have hd := dataIndex_ge w idx v.daughters.length
      rw [he, h2.2 k hk]
      · omega
      · rw [recEnd, if_pos hc]; rw [matCells_length] at hk; omega
      · omega
    · rename_i hc
      rw [if_neg hc] at h2; exact h2

theorem Enc.congr (w : Nat) (lim : Int) (m m' : Nat → Cell) (v : PVol) : ∀ (anc : List PVol) (idx mo : Nat),
    (∀ j, idx ≤ j → j < subEnd w lim v anc.length idx → m' j = m j) →
    Enc w lim m v anc idx mo → Enc w lim m' v anc idx mo := by
  induction v using PVol.ind with
  | h v ih =>
    intro anc idx mo he h
    rw [enc_eq] at h ⊢
    have hb := subEnd_bounds w lim v anc.length idx
    have hg := recEnd_ge w lim v anc.length idx
    have h3 := dI_ge v.daughters.length
    refine ⟨h.1.congr fun j h1 h2 _ => he j h1 (by omega), ?_⟩
    rw [subEnd_eq] at he
    have key : ∀ (ds : List PVol) (cur i : Nat), (∀ d ∈ ds, d ∈ v.daughters) → i + ds.length ≤ v.daughters.length →
        recEnd w lim v anc.length idx ≤ cur →
        subEndL w lim ds (anc.length + 1) cur ≤ subEndL w lim v.daughters (anc.length + 1) (recEnd w lim v anc.length idx) →
        EncL w lim m ds (anc ++ [v]) cur idx i → EncL w lim m' ds (anc ++ [v]) cur idx i := by
      intro ds
      induction ds with
      | nil => intro _ _ _ _ _ _ _; simp [EncL]
      | cons d ds ihd =>
        intro cur i hs hi hcur hend hE
        simp only [EncL, List.length_append, List.length_singleton] at hE ⊢
        simp only [subEndL] at hend
        simp only [List.length_cons] at hi
        have g1 := subEnd_gt w lim d (anc.length + 1) cur
        have g2 := subEndL_ge w lim ds (anc.length + 1) (subEnd w lim d (anc.length + 1) cur)
        refine ⟨?_, ?_, ?_⟩
        · rw [he _ (by omega) (by omega)]; exact hE.1
        · refine ih d (hs d (by simp)) _ _ _ ?_ hE.2.1
          intro j h1 h2
          simp only [List.length_append, List.length_singleton] at h2
          exact he j (by omega) (by omega)
        · exact ihd _ _ (fun x hx => hs x (by simp [hx])) (by omega) (by omega) hend hE.2.2
    exact key _ _ _ (fun _ h => h) (by omega) (Nat.le_refl _) (Nat.le_refl _) h.2

/-! ### writing -/

/-- memory after one store -/
def updM (m : Nat → Cell) (i : Nat) (c : Cell) : Nat → Cell := fun j => if j = i then c else m j

/-- memory after storing a list -/
def patch (m : Nat → Cell) (i : Nat) (cs : List Cell) : Nat → Cell :=
  fun j => if h : i ≤ j ∧ j - i < cs.length then cs[j - i]'h.2 else m j

theorem set_pos {t : Tab} {i : Nat} (c : Cell) (h : i < t.nelem) :
    t.set i c = some ⟨t.nelem, updM t.mem i c⟩ := by
  rw [Tab.set, if_pos h]; rfl

theorem setList_pos : ∀ (cs : List Cell) {t : Tab} {i : Nat}, i + cs.length ≤ t.nelem →
    t.setList i cs = some ⟨t.nelem, patch t.mem i cs⟩ := by
  intro cs
  induction cs with
  | nil =>
    intro t i _
    simp only [Tab.setList]
    congr 1
    cases t
    congr 1
    funext j; simp [patch]
  | cons c cs ih =>
    intro t i h
    simp only [List.length_cons] at h
    rw [Tab.setList, set_pos c (by omega)]
    simp only
    rw [ih (by simp only; omega)]
    simp only [Option.some.injEq, Tab.mk.injEq, true_and]
    funext j
    simp only [patch, updM, List.length_cons]
    by_cases h1 : j = i
    · subst h1
      rw [dif_neg (by omega), if_pos rfl, dif_pos (by omega)]
      simp
    · by_cases h2 : i + 1 ≤ j ∧ j - (i + 1) < cs.length
      · rw [dif_pos h2, dif_pos (by omega)]
        have : j - i = (j - (i + 1)) + 1 := by omega
        simp [this]
      · rw [dif_neg h2, if_neg h1, dif_neg (by omega)]

theorem padData_eq (w idx nd : Nat) :
    (if padData w idx (daughterIndices nd) then idx + daughterIndices nd + 1 else idx + daughterIndices nd) =
      dataIndex w idx nd := by
  unfold padData dataIndex daughterIndices
  simp only [decide_eq_true_eq]
  rw [show idx + (3 + nd + (nd + 1 &&& 1)) = idx + 3 + nd + (nd + 1 &&& 1) by omega]

/-- One step of the filling pass. -/
theorem fillApply_spec (w : Nat) (lim : Int) {t : Tab} {cur : Nat} {st : NavPath PVol} {anc : List PVol} {v : PVol}
    {mother dind : Nat} (hst : Repr st (anc ++ [v])) (hnd : v.daughters.length < 65535)
    (hfit : recEnd w lim v anc.length cur ≤ t.nelem) (h32 : recEnd w lim v anc.length cur < 2 ^ 32)
    (hm : mother = 0 ∨ mother + 3 + dind < cur) :
    ∃ t', fillApply w lim (t, cur) st anc.length mother dind =
        some ((t', recEnd w lim v anc.length cur), cur) ∧
      t'.nelem = t.nelem ∧ Rec w lim t'.mem v anc cur mother ∧
      (mother > 0 → t'.mem (mother + 3 + dind) = .word cur) ∧
      ∀ j, (j < cur ∨ recEnd w lim v anc.length cur ≤ j) → (mother = 0 ∨ j ≠ mother + 3 + dind) →
        t'.mem j = t.mem j := by
  have hg := recEnd_ge w lim v anc.length cur
  have h3 := dI_ge v.daughters.length
  have hmod : v.daughters.length % 65536 = v.daughters.length := Nat.mod_eq_of_lt (by omega)
  have htop : st.top = some (some v) := by rw [hst.top]; simp
  have hat : st.at_ anc.length = some (some v) := by
    rw [at_, hst.slot (by simp)]; simp
  have hmat : st.topMatrix geom .identity = some (pathMatrix (anc ++ [v])) := by
    have := matrixLoop_eq (g := geom) hst ((anc ++ [v]).length - 1) 1 .identity (by simp; omega)
    rw [topMatrix, hst.cur, this, pathMatrix, List.drop_one, List.take_of_length_le (by simp)]
    rfl
  -- the memory after the mother link
  obtain ⟨m1, hm1, hm1o, hm1c, hm1s⟩ : ∃ m1 : Nat → Cell,
      linkMother ⟨t.nelem, updM t.mem cur (.word mother)⟩ mother dind cur = some ⟨t.nelem, m1⟩ ∧
      (∀ j, j ≠ cur → (mother = 0 ∨ j ≠ mother + 3 + dind) → m1 j = t.mem j) ∧ m1 cur = .word mother ∧
      (mother > 0 → m1 (mother + 3 + dind) = .word cur) := by
    by_cases h0 : mother > 0
    · refine ⟨updM (updM t.mem cur (.word mother)) (mother + 3 + dind) (.word cur), ?_, ?_, ?_, ?_⟩
      · rw [linkMother, if_pos h0, set_pos _ (by simp only; omega)]
      · intro j hj hj'
        simp only [updM]; rw [if_neg (by omega), if_neg hj]
      · simp only [updM]; rw [if_neg (by omega)]; simp
      · intro _; simp [updM]
    · refine ⟨updM t.mem cur (.word mother), by rw [linkMother, if_neg h0], ?_, by simp [updM], fun h => absurd h h0⟩
      intro j hj _; simp [updM, hj]
  have e32 : ∀ x, x ≤ recEnd w lim v anc.length cur → x % 2 ^ 32 = x := fun x hx =>
    Nat.mod_eq_of_lt (by omega)
  by_cases hc : cacheTrans lim anc.length v = true
  · -- cached
    have hre : recEnd w lim v anc.length cur = dataIndex w cur v.daughters.length + 12 * w := by
      rw [recEnd, if_pos hc]
    have hdi := dataIndex_ge w cur v.daughters.length
    have hpad := padData_eq w cur v.daughters.length
    have hlen := matCells_length w (pathMatrix (anc ++ [v]))
    generalize hD : dataIndex w cur v.daughters.length = D at *
    refine ⟨⟨t.nelem, patch (updM (patch (updM (updM m1 (cur + 1) (.word v.id)) (cur + 2) (.word (metaWord anc.length 0 v.daughters.length))) (cur + 3)
        (List.replicate v.daughters.length (.word 0))) (cur + 2)
      (.word (metaWord anc.length (4 + 2 * (pathMatrix (anc ++ [v])).fHasTranslation.toNat +
        (pathMatrix (anc ++ [v])).fHasRotation.toNat) v.daughters.length)))
      D (matCells w (pathMatrix (anc ++ [v])))⟩, ?_, ?_, ?_, ?_, ?_⟩
    · unfold fillApply
      simp only [htop, hat, hmod, hc, Bool.not_true, Bool.false_eq_true, if_false, hmat, Int.toNat_natCast,
        Option.pure_def, Option.bind_eq_bind]
      rw [set_pos _ (by omega)]
      simp only [Option.bind_some]
      rw [hm1]
      simp only [Option.bind_some]
      rw [set_pos _ (by simp only; omega)]
      simp only [Option.bind_some]
      rw [set_pos _ (by simp only; omega)]
      simp only [Option.bind_some]
      rw [setList_pos _ (by simp only [List.length_replicate]; omega)]
      simp only [Option.bind_some]
      rw [set_pos _ (by simp only; omega)]
      simp only [Option.bind_some]
      have hcur2 : (if padData w cur (daughterIndices v.daughters.length) = true then
          ((cur + daughterIndices v.daughters.length) % 2 ^ 32 + 1) % 2 ^ 32
          else (cur + daughterIndices v.daughters.length) % 2 ^ 32) = D := by
        rw [e32 (cur + daughterIndices v.daughters.length) (by omega)]
        rw [← hpad]
        split
        · rename_i hp
          rw [if_pos hp] at hpad
          exact e32 _ (by omega)
        · rfl
      rw [hcur2, setList_pos _ (by simp only; omega)]
      simp only [Option.bind_some]
      rw [e32 _ (by omega), hre]
    · rfl
    · refine ⟨?_, ?_, ⟨4 + 2 * (pathMatrix (anc ++ [v])).fHasTranslation.toNat +
        (pathMatrix (anc ++ [v])).fHasRotation.toNat, ?_, ?_⟩⟩
      · simp only [patch, updM, List.length_replicate]
        rw [dif_neg (by omega), if_neg (by omega), dif_neg (by omega), if_neg (by omega), if_neg (by omega), hm1c]
      · simp only [patch, updM, List.length_replicate]
        rw [dif_neg (by omega), if_neg (by omega), dif_neg (by omega), if_neg (by omega)]; simp
      · simp only [patch, updM, List.length_replicate]
        rw [dif_neg (by omega)]; simp
      · rw [if_pos hc]
        refine ⟨rfl, fun k hk => ?_⟩
        rw [hD]
        simp only [patch]
        rw [dif_pos (by omega)]
        simp
    · intro h0
      simp only [patch, updM, List.length_replicate]
      rw [dif_neg (by omega), if_neg (by omega), dif_neg (by omega), if_neg (by omega), if_neg (by omega), hm1s h0]
    · intro j hj hj'
      simp only [patch, updM, List.length_replicate]
      rw [dif_neg (by omega), if_neg (by omega), dif_neg (by omega), if_neg (by omega), if_neg (by omega),
        hm1o j (by omega) hj']
  · -- not cached
    have hre : recEnd w lim v anc.length cur = cur + daughterIndices v.daughters.length := by
      rw [recEnd, if_neg hc]
    simp only [Bool.not_eq_true] at hc
    refine ⟨⟨t.nelem, patch (updM (updM m1 (cur + 1) (.word v.id)) (cur + 2) (.word (metaWord anc.length 0 v.daughters.length))) (cur + 3)
        (List.replicate v.daughters.length (.word 0))⟩, ?_, ?_, ?_, ?_, ?_⟩
    · unfold fillApply
      simp only [htop, hat, hmod, hc, Bool.not_false, if_true, Int.toNat_natCast,
        Option.pure_def, Option.bind_eq_bind]
      rw [set_pos _ (by omega)]
      simp only [Option.bind_some]
      rw [hm1]
      simp only [Option.bind_some]
      rw [set_pos _ (by simp only; omega)]
      simp only [Option.bind_some]
      rw [set_pos _ (by simp only; omega)]
      simp only [Option.bind_some]
      rw [setList_pos _ (by simp only [List.length_replicate]; omega)]
      simp only [Option.bind_some]
      rw [e32 _ (by omega), hre]
    · rfl
    · refine ⟨?_, ?_, ⟨0, ?_, ?_⟩⟩
      · simp only [patch, updM, List.length_replicate]
        rw [dif_neg (by omega), if_neg (by omega), if_neg (by omega), hm1c]
      · simp only [patch, updM, List.length_replicate]
        rw [dif_neg (by omega), if_neg (by omega)]; simp
      · simp only [patch, updM, List.length_replicate]
        rw [dif_neg (by omega)]; simp
      · simp [hc]
    · intro h0
      simp only [patch, updM, List.length_replicate]
      rw [dif_neg (by omega), if_neg (by omega), if_neg (by omega), hm1s h0]
    · intro j hj hj'
      simp only [patch, updM, List.length_replicate]
      rw [dif_neg (by omega), if_neg (by omega), if_neg (by omega), hm1o j (by omega) hj']

/-! ### the passes -/

theorem recEnd_aligned {w : Nat} (hw : w = 1 ∨ w = 2) (lim : Int) (v : PVol) (lvl idx : Nat)
    (h : cacheTrans lim lvl v = true ∨ idx % w = 0) : recEnd w lim v lvl idx % w = 0 := by
  have := dI_even v.daughters.length
  unfold daughterIndices at this
  rcases hw with rfl | rfl
  · omega
  · unfold recEnd
    split
    · unfold dataIndex; simp only; split <;> omega
    · rename_i hc
      have h' := h.resolve_left hc
      unfold daughterIndices; omega

theorem subEnd_aligned {w : Nat} (hw : w = 1 ∨ w = 2) (lim : Int) (v : PVol) : ∀ (lvl idx : Nat),
    (cacheTrans lim lvl v = true ∨ idx % w = 0) → subEnd w lim v lvl idx % w = 0 := by
  induction v using PVol.ind with
  | h v ih =>
    intro lvl idx h
    rw [subEnd_eq]
    have key : ∀ (ds : List PVol), (∀ d ∈ ds, d ∈ v.daughters) → ∀ l i, i % w = 0 → subEndL w lim ds l i % w = 0 := by
      intro ds
      induction ds with
      | nil => intro _ l i hi; simpa [subEndL] using hi
      | cons d ds ihd =>
        intro hs l i hi
        simp only [subEndL]
        exact ihd (fun x hx => hs x (by simp [hx])) _ _ (ih d (hs d (by simp)) _ _ (Or.inr hi))
    exact key _ (fun _ h => h) _ _ (recEnd_aligned hw lim v lvl idx h)

/-- One step of the counting pass. -/
theorem countApply_spec {w : Nat} (hw : w = 1 ∨ w = 2) (lim : Int) {n : Nat} {st : NavPath PVol} {anc : List PVol}
    {v : PVol} {mother dind : Nat} (hst : Repr st (anc ++ [v])) (hnd : v.daughters.length < 65535)
    (h : cacheTrans lim anc.length v = true ∨ n % w = 0) :
    countApply w lim (4 * n) st anc.length mother dind = some (4 * recEnd w lim v anc.length n, 0) := by
  have htop : st.top = some (some v) := by rw [hst.top]; simp
  have hmod : v.daughters.length % 65536 = v.daughters.length := Nat.mod_eq_of_lt (by omega)
  have hpad := padData_eq w n v.daughters.length
  unfold countApply
  simp only [htop, hmod]
  rw [show 4 * n / 4 = n by omega]
  congr 2
  have he := dI_even v.daughters.length
  by_cases hc : cacheTrans lim anc.length v = true
  · rw [recEnd, if_pos hc, ← hpad, hc]
    cases padData w n (daughterIndices v.daughters.length) <;> simp <;> ring
  · rw [recEnd, if_neg hc]
    have h' := h.resolve_left hc
    have hp : padData w n (daughterIndices v.daughters.length) = false := by
      unfold padData
      rw [decide_eq_false_iff_not, not_not]
      rcases hw with rfl | rfl <;> omega
    simp only [Bool.not_eq_true] at hc
    rw [hp, hc]; simp; ring

theorem fitsL_mem {ds : List PVol} {e : Nat} (h : FitsL ds e) : ∀ d ∈ ds, Fits d e := by
  induction ds with
  | nil => simp
  | cons d ds ih =>
    simp only [FitsL] at h
    intro x hx
    rcases List.mem_cons.mp hx with rfl | hx
    · exact h.1
    · exact ih h.2 x hx

/-- The counting pass computes four times the end index of the filling pass. -/
theorem visit_count {w : Nat} (hw : w = 1 ∨ w = 2) (lim : Int) (v : PVol) :
    ∀ (n e : Nat) (st : NavPath PVol) (anc : List PVol) (mother dind : Nat),
      Repr st anc → Fits v e → anc.length + e ≤ st.slots.length → anc.length + e ≤ 255 →
      (cacheTrans lim anc.length v = true ∨ n % w = 0) →
      ∃ st', visit (countApply w lim) v (4 * n) st anc.length mother dind =
          some (4 * subEnd w lim v anc.length n, st') ∧ Repr st' anc ∧ st'.slots.length = st.slots.length := by
  induction v using PVol.ind with
  | h v ih =>
    intro n e st anc mother dind hst hfit hroom h255 hal
    obtain ⟨e, rfl⟩ := fits_pos hfit
    rw [fits_eq] at hfit
    obtain ⟨st1, h1, hst1, hl1, -⟩ := hst.push v (by omega) (by omega)
    rw [visit_eq, h1]
    simp only
    rw [countApply_spec hw lim hst1 hfit.1 hal]
    simp only
    have key : ∀ (ds : List PVol) (n i : Nat) (st : NavPath PVol), (∀ d ∈ ds, d ∈ v.daughters) → n % w = 0 →
        Repr st (anc ++ [v]) → st.slots.length = st1.slots.length →
        ∃ st', visitL (countApply w lim) ds (4 * n) st ((anc.length : Int) + 1) 0 i =
          some (4 * subEndL w lim ds (anc.length + 1) n, st') ∧ Repr st' (anc ++ [v]) ∧
          st'.slots.length = st.slots.length := by
      intro ds
      induction ds with
      | nil => intro n i st _ _ hst _; exact ⟨st, by simp [visitL, subEndL], hst, rfl⟩
      | cons d ds ihd =>
        intro n i st hs hn hst hl
        have hd := hs d (by simp)
        obtain ⟨st', e', r', l'⟩ := ih d hd n e st (anc ++ [v]) 0 i hst (fitsL_mem hfit.2 d hd)
          (by simp; omega) (by simp; omega) (Or.inr hn)
        simp only [List.length_append, List.length_singleton] at e'
        push_cast at e'
        obtain ⟨st'', e'', r'', l''⟩ := ihd (subEnd w lim d (anc.length + 1) n) (i + 1) st'
          (fun x hx => hs x (by simp [hx])) (subEnd_aligned hw lim d _ _ (Or.inr hn)) r' (by omega)
        exact ⟨st'', by simp only [visitL, subEndL]; rw [e']; exact e'', r'', by omega⟩
    obtain ⟨st2, e2, r2, l2⟩ := key v.daughters _ 0 st1 (fun _ h => h)
      (recEnd_aligned hw lim v anc.length n hal) hst1 rfl
    rw [e2]
    obtain ⟨r3, l3, -⟩ := r2.pop
    refine ⟨st2.pop, by rw [subEnd_eq], ?_, by rw [l3]; omega⟩
    simpa using r3

/-- The filling pass writes exactly the specified table. -/
theorem visit_fill (w : Nat) (lim : Int) (v : PVol) :
    ∀ (e cur : Nat) (t : Tab) (st : NavPath PVol) (anc : List PVol) (mother dind : Nat),
      Repr st anc → Fits v e → anc.length + e ≤ st.slots.length → anc.length + e ≤ 255 →
      subEnd w lim v anc.length cur ≤ t.nelem → subEnd w lim v anc.length cur < 2 ^ 32 →
      (mother = 0 ∨ mother + 3 + dind < cur) → 0 < cur →
      ∃ t' st', visit (fillApply w lim) v (t, cur) st anc.length mother dind =
          some ((t', subEnd w lim v anc.length cur), st') ∧ Repr st' anc ∧ st'.slots.length = st.slots.length ∧
        t'.nelem = t.nelem ∧ Enc w lim t'.mem v anc cur mother ∧
        (mother > 0 → t'.mem (mother + 3 + dind) = .word cur) ∧
        ∀ j, (j < cur ∨ subEnd w lim v anc.length cur ≤ j) → (mother = 0 ∨ j ≠ mother + 3 + dind) →
          t'.mem j = t.mem j := by
  induction v using PVol.ind with
  | h v ih =>
    intro e cur t st anc mother dind hst hfit hroom h255 hn h32 hm hcur
    obtain ⟨e, rfl⟩ := fits_pos hfit
    rw [fits_eq] at hfit
    obtain ⟨st1, h1, hst1, hl1, -⟩ := hst.push v (by omega) (by omega)
    have hb := subEnd_bounds w lim v anc.length cur
    have hg := recEnd_ge w lim v anc.length cur
    have h3 := dI_ge v.daughters.length
    obtain ⟨t1, ht1, hn1, hrec1, hmo1, hfr1⟩ := fillApply_spec w lim (t := t) (cur := cur) (mother := mother)
      (dind := dind) hst1 hfit.1 (by omega) (by omega) hm
    rw [visit_eq, h1]
    simp only
    rw [ht1]
    simp only
    rw [subEnd_eq] at hb hn h32 ⊢
    have key : ∀ (ds : List PVol) (c i : Nat) (t : Tab) (st : NavPath PVol), (∀ d ∈ ds, d ∈ v.daughters) →
        i + ds.length = v.daughters.length → recEnd w lim v anc.length cur ≤ c →
        subEndL w lim ds (anc.length + 1) c = subEndL w lim v.daughters (anc.length + 1) (recEnd w lim v anc.length cur) →
        Repr st (anc ++ [v]) → st.slots.length = st1.slots.length → t.nelem = t1.nelem → 0 < cur →
        ∃ t' st', visitL (fillApply w lim) ds (t, c) st ((anc.length : Int) + 1) cur i =
          some ((t', subEndL w lim ds (anc.length + 1) c), st') ∧ Repr st' (anc ++ [v]) ∧
          st'.slots.length = st.slots.length ∧ t'.nelem = t.nelem ∧ EncL w lim t'.mem ds (anc ++ [v]) c cur i ∧
          ∀ j, (j < c ∨ subEndL w lim ds (anc.length + 1) c ≤ j) → (j < cur + 3 + i ∨ cur + 3 + v.daughters.length ≤ j) →
            t'.mem j = t.mem j := by
      intro ds
      induction ds with
      | nil =>
        intro c i t st _ _ _ _ hst _ _ _
        exact ⟨t, st, by simp [visitL, subEndL], hst, rfl, rfl, by simp [EncL], fun _ _ _ => rfl⟩
      | cons d ds ihd =>
        intro c i t st hs hi hc hend hst hl ht hcur
        have hd := hs d (by simp)
        simp only [subEndL] at hend
        simp only [List.length_cons] at hi
        have g1 := subEnd_gt w lim d (anc.length + 1) c
        have g2 := subEndL_ge w lim ds (anc.length + 1) (subEnd w lim d (anc.length + 1) c)
        obtain ⟨t', st', e', r', l', n', enc', mo', fr'⟩ := ih d hd e c t st (anc ++ [v]) cur i hst
          (fitsL_mem hfit.2 d hd) (by simp; omega) (by simp; omega)
          (by simp only [List.length_append, List.length_singleton]; omega)
          (by simp only [List.length_append, List.length_singleton]; omega) (Or.inr (by omega)) (by omega)
        simp only [List.length_append, List.length_singleton] at e' fr'
        push_cast at e'
        obtain ⟨t'', st'', e'', r'', l'', n'', enc'', fr''⟩ := ihd (subEnd w lim d (anc.length + 1) c) (i + 1) t' st'
          (fun x hx => hs x (by simp [hx])) (by omega) (by omega) hend r' (by omega) (by omega) hcur
        refine ⟨t'', st'', by simp only [visitL, subEndL]; rw [e']; exact e'', r'', by omega, by omega, ?_, ?_⟩
        · simp only [EncL, List.length_append, List.length_singleton]
          refine ⟨?_, ?_, enc''⟩
          · rw [fr'' _ (by omega) (by omega)]; exact mo' hcur
          · refine Enc.congr w lim _ _ d _ _ _ ?_ enc'
            intro j hj1 hj2
            simp only [List.length_append, List.length_singleton] at hj2
            exact fr'' j (by omega) (by omega)
        · intro j hj hj'
          simp only [subEndL] at hj
          rw [fr'' j (by omega) (by omega), fr' j (by omega) (by omega)]
    obtain ⟨t2, st2, e2, r2, l2, n2, enc2, fr2⟩ := key v.daughters _ 0 t1 st1 (fun _ h => h) (by omega)
      (Nat.le_refl _) rfl hst1 rfl rfl hcur
    obtain ⟨r3, l3, -⟩ := r2.pop
    refine ⟨t2, st2.pop, by rw [e2], by simpa using r3, by rw [l3]; omega, by omega, ?_, ?_, ?_⟩
    · rw [enc_eq]
      refine ⟨hrec1.congr ?_, enc2⟩
      intro j hj1 hj2 hj3
      exact fr2 j (by omega) (by omega)
    · intro h0
      rw [fr2 _ (by omega) (by omega)]; exact hmo1 h0
    · intro j hj hj'
      rw [fr2 j (by omega) (by omega), hfr1 j (by omega) hj']

end NavIndex
end VecGeom
