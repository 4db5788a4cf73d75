import Verif.VoxSafety.Model
import Verif.Voxel.Props
import Verif.AABB.Props

/-!
# Helper lemmas for the voxel based safety
-/

namespace VecGeom
namespace VoxSafety

open Voxel

/-! ### The candidates of a voxel -/

theorem mem_foldl_pushNew (l : List Int) : ∀ (acc : List Int) (c : Int), c ∈ l.foldl pushNew acc ↔ c ∈ acc ∨ c ∈ l := by
  induction l with
  | nil => intro acc c; simp
  | cons o l ih =>
    intro acc c
    rw [List.foldl_cons, ih]
    unfold pushNew
    by_cases h : o ∈ acc
    · rw [if_pos h, List.mem_cons]
      constructor
      · rintro (h' | h')
        · exact Or.inl h'
        · exact Or.inr (Or.inr h')
      · rintro (h' | h' | h')
        · exact Or.inl h'
        · exact Or.inl (h' ▸ h)
        · exact Or.inr h'
    · rw [if_neg h, List.mem_append, List.mem_singleton, List.mem_cons]
      tauto

theorem mem_safetyCandidates {S : Scene} {v : Voxel.Box} {c : Int} :
    c ∈ safetyCandidates S v ↔ (∃ j ∈ candidatesOf (S.boxes.map vbox) v, c = (j : Int)) ∨
      ∃ sp ∈ surfacePoints v.lo v.up 10, candidateAt S (candidatesOf (S.boxes.map vbox) v) sp = some c := by
  unfold safetyCandidates
  simp only [List.mem_mergeSort, mem_foldl_pushNew, List.mem_map, List.mem_filterMap]
  constructor
  · rintro (⟨j, h1, h2⟩ | h)
    · exact Or.inl ⟨j, h1, h2.symm⟩
    · exact Or.inr h
  · rintro (⟨j, h1, h2⟩ | h)
    · exact Or.inl ⟨j, h1, h2.symm⟩
    · exact Or.inr h

theorem candidatesOf_lt {boxes : List Voxel.Box} {v : Voxel.Box} {j : Nat} (h : j ∈ candidatesOf boxes v) :
    j < boxes.length := List.mem_range.1 (List.mem_filter.1 h).1

theorem mem_safetyList {S : Scene} {sp : V3} {limit : ℝ} {e : Nat × ℝ} :
    e ∈ safetyList S sp limit ↔ ∃ b, S.boxes[e.1]? = some b ∧ b.safetySqr sp < limit ∧ e.2 = b.safetySqr sp := by
  unfold safetyList
  rw [List.mem_filterMap]
  constructor
  · rintro ⟨j, _, hj⟩
    cases hb : S.boxes[j]? with
    | none => rw [hb] at hj; simp at hj
    | some b =>
      rw [hb] at hj
      simp only at hj
      by_cases h : b.safetySqr sp < limit
      · rw [if_pos h] at hj
        cases hj
        exact ⟨b, hb, h, rfl⟩
      · rw [if_neg h] at hj; simp at hj
  · rintro ⟨b, hb, h1, h2⟩
    refine ⟨e.1, List.mem_range.2 (List.getElem?_eq_some_iff.1 hb).1, ?_⟩
    rw [hb]
    simp only
    rw [if_pos h1, ← h2]

/-- The value the code uses for a daughter at a surface point. -/
noncomputable def measure (S : Scene) (sp : V3) (c : Nat × ℝ) : ℝ := max (S.dSafetyIn c.1 sp * S.dSafetyIn c.1 sp) c.2

theorem pickStep_eq (S : Scene) (sp : V3) (st : Int × ℝ) (c : Nat × ℝ) :
    pickStep S sp st c = if measure S sp c ≤ st.2 then ((c.1 : Int), measure S sp c) else st := rfl

theorem fold_pick (S : Scene) (sp : V3) (l : List (Nat × ℝ)) : ∀ st : Int × ℝ,
    ((l.foldl (pickStep S sp) st).2 ≤ st.2) ∧ (∀ c ∈ l, (l.foldl (pickStep S sp) st).2 ≤ measure S sp c) ∧
    (l.foldl (pickStep S sp) st = st ∨ ∃ c ∈ l, l.foldl (pickStep S sp) st = ((c.1 : Int), measure S sp c)) := by
  induction l with
  | nil => intro st; simp
  | cons e l ih =>
    intro st
    rw [List.foldl_cons]
    obtain ⟨h1, h2, h3⟩ := ih (pickStep S sp st e)
    have hs : (pickStep S sp st e).2 ≤ st.2 ∧ (pickStep S sp st e).2 ≤ measure S sp e := by
      rw [pickStep_eq]
      by_cases h : measure S sp e ≤ st.2
      · rw [if_pos h]; exact ⟨h, le_refl _⟩
      · rw [if_neg h]; exact ⟨le_refl _, (not_le.1 h).le⟩
    refine ⟨h1.trans hs.1, ?_, ?_⟩
    · intro c hc
      rcases List.mem_cons.1 hc with rfl | hc
      · exact h1.trans hs.2
      · exact h2 c hc
    · rcases h3 with h3 | ⟨c, hc, h3⟩
      · rw [h3, pickStep_eq]
        by_cases h : measure S sp e ≤ st.2
        · rw [if_pos h]; exact Or.inr ⟨e, List.mem_cons_self, rfl⟩
        · rw [if_neg h]; exact Or.inl rfl
      · exact Or.inr ⟨c, List.mem_cons_of_mem _ hc, h3⟩

theorem pick_range (S : Scene) (sp : V3) : pick S sp = -1 ∨ ∃ j : Nat, j < S.boxes.length ∧ pick S sp = j := by
  unfold pick
  simp only
  rcases (fold_pick S sp (safetyList S sp (S.safetyOut sp * S.safetyOut sp)) (-1, S.safetyOut sp * S.safetyOut sp)).2.2 with h | ⟨c, hc, h⟩
  · left; rw [h]
  · right
    obtain ⟨b, hb, _, _⟩ := mem_safetyList.1 hc
    exact ⟨c.1, (List.getElem?_eq_some_iff.1 hb).1, by rw [h]⟩

/-- A daughter that is strictly nearer than the mother's boundary and than all other daughters is picked. -/
theorem pick_strict {S : Scene} {sp : V3} {j : Nat} {b : AABB.Box} (hb : S.boxes[j]? = some b)
    (hm : measure S sp (j, b.safetySqr sp) < S.safetyOut sp * S.safetyOut sp)
    (ho : ∀ k c, k ≠ j → S.boxes[k]? = some c → measure S sp (j, b.safetySqr sp) < measure S sp (k, c.safetySqr sp)) :
    pick S sp = j := by
  unfold pick
  simp only
  obtain ⟨_, h2, h3⟩ := fold_pick S sp (safetyList S sp (S.safetyOut sp * S.safetyOut sp)) (-1, S.safetyOut sp * S.safetyOut sp)
  have hmem : (j, b.safetySqr sp) ∈ safetyList S sp (S.safetyOut sp * S.safetyOut sp) :=
    mem_safetyList.2 ⟨b, hb, lt_of_le_of_lt (le_max_right _ _) hm, rfl⟩
  have hle := h2 _ hmem
  rcases h3 with h3 | ⟨c, hc, h3⟩
  · rw [h3] at hle
    exact absurd hm (not_lt.2 hle)
  · rw [h3] at hle ⊢
    obtain ⟨b', hb', _, he⟩ := mem_safetyList.1 hc
    by_cases hcj : c.1 = j
    · rw [hcj]
    · have := ho c.1 b' hcj hb'
      rw [show c = (c.1, b'.safetySqr sp) from by rw [← he]] at hle
      exact absurd this (not_lt.2 hle)

theorem candidate_range {S : Scene} {v : Voxel.Box} {c : Int} (h : c ∈ safetyCandidates S v) :
    c = -1 ∨ ∃ j : Nat, j < S.boxes.length ∧ c = j := by
  rcases mem_safetyCandidates.1 h with ⟨j, hj, rfl⟩ | ⟨sp, _, h⟩
  · right; exact ⟨j, by simpa using candidatesOf_lt hj, rfl⟩
  · unfold candidateAt at h
    split at h
    · left; exact (Option.some.inj h).symm
    · split at h
      · simp at h
      · rw [← Option.some.inj h]; exact pick_range S sp

theorem up_mem_surfacePoints (lo up : V3) (n : Nat) : up ∈ surfacePoints lo up n := by
  unfold surfacePoints
  simp

/-- The list of candidates of a voxel is never empty. -/
theorem safetyCandidates_ne_nil (S : Scene) (v : Voxel.Box) : safetyCandidates S v ≠ [] := by
  suffices h : ∃ c, c ∈ safetyCandidates S v by
    obtain ⟨c, hc⟩ := h
    exact List.ne_nil_of_mem hc
  cases h : candidateAt S (candidatesOf (S.boxes.map vbox) v) v.up with
  | some c => exact ⟨c, mem_safetyCandidates.2 (Or.inr ⟨v.up, up_mem_surfacePoints _ _ _, h⟩)⟩
  | none =>
    unfold candidateAt at h
    split at h
    · simp at h
    · split at h
      · rename_i hi
        unfold inAnyDaughter at hi
        obtain ⟨j, hj, _⟩ := List.any_eq_true.1 hi
        exact ⟨j, mem_safetyCandidates.2 (Or.inl ⟨j, hj, rfl⟩)⟩
      · simp at h

/-- A daughter whose box shares a point with the closed voxel is a candidate. -/
theorem mem_of_meets {S : Scene} {v : Voxel.Box} {j : Nat} {b : AABB.Box} (hb : S.boxes[j]? = some b) {x : V3}
    (h1 : AABB.InBox b x) (h2 : AABB.InBox ⟨v.lo, v.up⟩ x) : (j : Int) ∈ safetyCandidates S v := by
  refine mem_safetyCandidates.2 (Or.inl ⟨j, ?_, rfl⟩)
  have hl := (List.getElem?_eq_some_iff.1 hb).1
  unfold candidatesOf
  rw [List.mem_filter]
  refine ⟨List.mem_range.2 (by simpa using hl), ?_⟩
  rw [List.getElem?_map, hb]
  simp only [Option.map_some]
  obtain ⟨⟨a1, a2⟩, ⟨a3, a4⟩, ⟨a5, a6⟩⟩ := h1
  obtain ⟨⟨c1, c2⟩, ⟨c3, c4⟩, ⟨c5, c6⟩⟩ := h2
  simp only at c1 c2 c3 c4 c5 c6
  unfold intersectionExist vbox
  simp only
  rw [if_neg (by linarith), if_neg (by linarith), if_neg (by linarith), if_neg (by linarith), if_neg (by linarith),
    if_neg (by linarith)]

/-! ### Keys -/

theorem foldl_pushKey (l : List Int) (hl : l.Pairwise (· ≤ ·)) : ∀ acc : List Int, acc.Pairwise (· < ·) →
    (∀ a ∈ acc, ∀ k ∈ l, a ≤ k) →
    (l.foldl pushKey acc).Pairwise (· < ·) ∧ ∀ k, k ∈ l.foldl pushKey acc ↔ k ∈ acc ∨ k ∈ l := by
  induction l with
  | nil => intro acc h _; exact ⟨h, by simp⟩
  | cons k l ih =>
    intro acc h hle
    obtain ⟨hk, hl'⟩ := List.pairwise_cons.1 hl
    rw [List.foldl_cons]
    have key : (pushKey acc k).Pairwise (· < ·) ∧ ∀ a, a ∈ pushKey acc k ↔ a ∈ acc ∨ a = k := by
      unfold pushKey
      cases hg : acc.getLast? with
      | none =>
        rw [List.getLast?_eq_none_iff.1 hg]
        simp
      | some b =>
        simp only
        obtain ⟨w, hw⟩ := List.getLast?_eq_some_iff.1 hg
        by_cases hkb : k ≠ b
        · rw [if_pos hkb]
          refine ⟨?_, by simp⟩
          rw [List.pairwise_append]
          refine ⟨h, by simp, ?_⟩
          intro a ha k' hk'
          rw [List.mem_singleton] at hk'
          subst hk'
          have h1 : b ≤ k' := hle b (by rw [hw]; simp) k' List.mem_cons_self
          have h2 : a ≤ b := by
            rw [hw] at ha h
            rcases List.mem_append.1 ha with h' | h'
            · exact le_of_lt ((List.pairwise_append.1 h).2.2 a h' b (by simp))
            · rw [List.mem_singleton.1 h']
          omega
        · rw [if_neg hkb]
          push Not at hkb
          refine ⟨h, fun a => ⟨Or.inl, ?_⟩⟩
          rintro (h' | h')
          · exact h'
          · rw [h', hkb, hw]; simp
    obtain ⟨h1, h2⟩ := ih hl' (pushKey acc k) key.1 (by
      intro a ha k' hk'
      rcases (key.2 a).1 ha with h' | h'
      · exact hle a h' k' (List.mem_cons_of_mem _ hk')
      · rw [h']; exact hk k' hk')
    refine ⟨h1, fun a => ?_⟩
    rw [h2, key.2, List.mem_cons]
    tauto

theorem uniqueKeys_spec (l : List Int) : (uniqueKeys l).Pairwise (· < ·) ∧ ∀ k, k ∈ uniqueKeys l ↔ k ∈ l := by
  have hs : l.mergeSort.Pairwise (· ≤ ·) := by
    have := List.pairwise_mergeSort (le := fun (a b : Int) => decide (a ≤ b))
      (fun a b c h1 h2 => by simp at *; omega) (fun a b => by simp; omega) l
    exact this.imp (by simp)
  obtain ⟨h1, h2⟩ := foldl_pushKey l.mergeSort hs [] (by simp) (by simp)
  refine ⟨h1, fun k => ?_⟩
  have := h2 k
  simp only [List.not_mem_nil, false_or, List.mem_mergeSort] at this
  exact this

theorem stored_flatMap {P : Type} (f : Int → List P) (keys : List Int) (h : keys.Nodup) (k : Int) :
    stored (keys.flatMap fun k => (f k).map fun c => (k, c)) k = if k ∈ keys then f k else [] := by
  induction keys with
  | nil => simp [stored]
  | cons a keys ih =>
    obtain ⟨h1, h2⟩ := List.nodup_cons.1 h
    rw [List.flatMap_cons, stored_append, ih h2]
    by_cases hka : k = a
    · subst hka
      rw [if_neg h1, if_pos List.mem_cons_self, List.append_nil]
      unfold stored
      rw [List.filter_eq_self.2 (by simp)]
      simp [Function.comp_def]
    · have e : stored ((f a).map fun c => (a, c)) k = [] := by
        unfold stored
        rw [List.filter_eq_nil_iff.2 (by simp; intro _ _ h'; exact hka h'.symm)]
        rfl
      rw [e, List.nil_append]
      by_cases hk : k ∈ keys
      · rw [if_pos hk, if_pos (List.mem_cons_of_mem _ hk)]
      · rw [if_neg hk, if_neg (by simp [hka, hk])]

theorem register_keys {P : Type} (f : Int → List P) (keys : List Int) (h : keys.Pairwise (· < ·)) (h0 : ∀ k ∈ keys, 0 ≤ k) :
    ∃ m, VMap.empty.addAll (keys.flatMap fun k => (f k).map fun c => (k, c)) = some m ∧
      ∀ k, m.readProperties k = some (if k ∈ keys then f k else []) := by
  have hsort : (keys.flatMap fun k => (f k).map fun c => (k, c)).Pairwise fun a b => a.1 ≤ b.1 := by
    clear h0
    induction keys with
    | nil => simp
    | cons a keys ih =>
      obtain ⟨h1, h2⟩ := List.pairwise_cons.1 h
      rw [List.flatMap_cons, List.pairwise_append]
      refine ⟨?_, ih h2, ?_⟩
      · rw [List.pairwise_map]
        exact List.pairwise_of_forall fun _ _ => le_refl _
      · intro x hx y hy
        simp only [List.mem_map, List.mem_flatMap] at hx hy
        obtain ⟨_, _, rfl⟩ := hx
        obtain ⟨k, hk, _, _, rfl⟩ := hy
        exact (h1 k hk).le
  obtain ⟨m, last, h1, h2⟩ := addAll_sorted _ hsort VMap.empty [] (-1) inv_empty (by simp) (by simp) (by
    intro _ b hb
    simp only [List.mem_flatMap, List.mem_map] at hb
    obtain ⟨k, hk, _, _, rfl⟩ := hb
    have := h0 k hk
    simp; omega)
  refine ⟨m, h1, fun k => ?_⟩
  rw [(inv_read h2 k).1, List.nil_append, stored_flatMap f keys (h.imp (fun h' => ne_of_lt h')) k]

theorem mapM_getKey {g : Grid} {ps : List V3} (h : ∀ p ∈ ps, ∃ k, g.getKey p = some k) :
    ∃ ks, ps.mapM g.getKey = some ks ∧ ks.length = ps.length ∧ ∀ k, k ∈ ks ↔ ∃ p ∈ ps, g.getKey p = some k := by
  induction ps with
  | nil => exact ⟨[], rfl, rfl, by simp⟩
  | cons p ps ih =>
    obtain ⟨k, hk⟩ := h p List.mem_cons_self
    obtain ⟨ks, h1, h2, h3⟩ := ih fun q hq => h q (List.mem_cons_of_mem _ hq)
    refine ⟨k :: ks, ?_, by simp [h2], fun k' => ?_⟩
    · rw [List.mapM_cons, hk, h1]; rfl
    · rw [List.mem_cons, h3]
      constructor
      · rintro (rfl | ⟨q, hq, hk'⟩)
        · exact ⟨p, List.mem_cons_self, hk⟩
        · exact ⟨q, List.mem_cons_of_mem _ hq, hk'⟩
      · rintro ⟨q, hq, hk'⟩
        rcases List.mem_cons.1 hq with rfl | hq
        · left; rw [hk] at hk'; exact (Option.some.inj hk').symm
        · exact Or.inr ⟨q, hq, hk'⟩

/-! ### The loop over the candidates -/

theorem estimate_loop {S : Scene} (p : V3) (cs : List Int) (hc : ∀ c ∈ cs, c = -1 ∨ ∃ j : Nat, j < S.boxes.length ∧ c = j) :
    ∀ st : ℝ × ℝ, 0 ≤ st.1 → ∃ st', cs.foldlM (estimateStep S p) st = some st' ∧ st'.1 ≤ st.1 ∧ st'.2 ≤ st.2 ∧ 0 ≤ st'.1 ∧
      (∀ (j : Nat) b, (j : Int) ∈ cs → S.boxes[j]? = some b →
        (0 < b.safetySqr p ∧ st'.2 ≤ b.safetySqr p) ∨ (b.safetySqr p ≤ 0 ∧ st'.1 ≤ max 0 (S.dSafetyIn j p))) ∧
      (st'.1 = st.1 ∨ ∃ (j : Nat) (b : AABB.Box), (j : Int) ∈ cs ∧ S.boxes[j]? = some b ∧ b.safetySqr p ≤ 0 ∧
        st'.1 = max 0 (S.dSafetyIn j p)) ∧
      (st'.2 = st.2 ∨ ∃ (j : Nat) (b : AABB.Box), (j : Int) ∈ cs ∧ S.boxes[j]? = some b ∧ 0 < b.safetySqr p ∧
        st'.2 = b.safetySqr p) := by
  induction cs with
  | nil => intro st h; exact ⟨st, rfl, le_refl _, le_refl _, h, by simp, Or.inl rfl, Or.inl rfl⟩
  | cons c cs ih =>
    intro st h0
    have ih := ih fun c' hc' => hc c' (List.mem_cons_of_mem _ hc')
    rw [List.foldlM_cons]
    rcases hc c List.mem_cons_self with rfl | ⟨j, hj, rfl⟩
    · obtain ⟨st', h1, h2, h3, h4, h5, h6, h7⟩ := ih st h0
      refine ⟨st', ?_, h2, h3, h4, ?_, ?_, ?_⟩
      · rw [show estimateStep S p st (-1) = some st from if_pos rfl]; exact h1
      · intro j b hjm hb
        rcases List.mem_cons.1 hjm with h' | h'
        · omega
        · exact h5 j b h' hb
      · rcases h6 with h6 | ⟨j, b, a1, a2⟩
        · exact Or.inl h6
        · exact Or.inr ⟨j, b, List.mem_cons_of_mem _ a1, a2⟩
      · rcases h7 with h7 | ⟨j, b, a1, a2⟩
        · exact Or.inl h7
        · exact Or.inr ⟨j, b, List.mem_cons_of_mem _ a1, a2⟩
    · obtain ⟨b, hb⟩ : ∃ b, S.boxes[j]? = some b := ⟨S.boxes[j], List.getElem?_eq_getElem hj⟩
      have hn : ¬ ((j : Int) = -1) := by omega
      have hn' : ¬ ((j : Int) < 0) := by omega
      have htn : ((j : Int).toNat) = j := by omega
      have hs : (if S.dSafetyIn j p ≤ 0 then (0 : ℝ) else S.dSafetyIn j p) = max 0 (S.dSafetyIn j p) := by
        by_cases h : S.dSafetyIn j p ≤ 0
        · rw [if_pos h, max_eq_left h]
        · rw [if_neg h, max_eq_right (not_le.1 h).le]
      by_cases hpos : b.safetySqr p > 0
      · have e : estimateStep S p st (j : Int) = some (st.1, min st.2 (b.safetySqr p)) := by
          unfold estimateStep
          rw [if_neg hn, if_neg hn', htn, hb]
          simp only
          rw [if_pos hpos]
        obtain ⟨st', h1, h2, h3, h4, h5, h6, h7⟩ := ih (st.1, min st.2 (b.safetySqr p)) h0
        refine ⟨st', by rw [e]; exact h1, h2, h3.trans (min_le_left _ _), h4, ?_, ?_, ?_⟩
        · intro i b' him hb'
          rcases List.mem_cons.1 him with h' | h'
          · have : i = j := by omega
            subst this
            rw [hb] at hb'; cases hb'
            exact Or.inl ⟨hpos, h3.trans (min_le_right _ _)⟩
          · exact h5 i b' h' hb'
        · rcases h6 with h6 | ⟨i, b', a1, a2⟩
          · exact Or.inl h6
          · exact Or.inr ⟨i, b', List.mem_cons_of_mem _ a1, a2⟩
        · rcases h7 with h7 | ⟨i, b', a1, a2⟩
          · simp only at h7
            rcases min_choice st.2 (b.safetySqr p) with hm | hm
            · exact Or.inl (h7.trans hm)
            · exact Or.inr ⟨j, b, List.mem_cons_self, hb, hpos, h7.trans hm⟩
          · exact Or.inr ⟨i, b', List.mem_cons_of_mem _ a1, a2⟩
      · have e : estimateStep S p st (j : Int) = some (min st.1 (max 0 (S.dSafetyIn j p)), st.2) := by
          unfold estimateStep
          rw [if_neg hn, if_neg hn', htn, hb]
          simp only
          rw [if_neg hpos, hs]
        obtain ⟨st', h1, h2, h3, h4, h5, h6, h7⟩ := ih (min st.1 (max 0 (S.dSafetyIn j p)), st.2) (le_min h0 (le_max_left _ _))
        refine ⟨st', by rw [e]; exact h1, h2.trans (min_le_left _ _), h3, h4, ?_, ?_, ?_⟩
        · intro i b' him hb'
          rcases List.mem_cons.1 him with h' | h'
          · have : i = j := by omega
            subst this
            rw [hb] at hb'; cases hb'
            exact Or.inr ⟨not_lt.1 hpos, h2.trans (min_le_right _ _)⟩
          · exact h5 i b' h' hb'
        · rcases h6 with h6 | ⟨i, b', a1, a2⟩
          · simp only at h6
            rcases min_choice st.1 (max 0 (S.dSafetyIn j p)) with hm | hm
            · exact Or.inl (h6.trans hm)
            · exact Or.inr ⟨j, b, List.mem_cons_self, hb, not_lt.1 hpos, h6.trans hm⟩
          · exact Or.inr ⟨i, b', List.mem_cons_of_mem _ a1, a2⟩
        · rcases h7 with h7 | ⟨i, b', a1, a2⟩
          · exact Or.inl h7
          · exact Or.inr ⟨i, b', List.mem_cons_of_mem _ a1, a2⟩

end VoxSafety
end VecGeom
