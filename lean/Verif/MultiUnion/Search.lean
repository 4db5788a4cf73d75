import Verif.MultiUnion.Lemmas

/-!
# The sorted loops and the walk out of the union
-/

namespace VecGeom
namespace MultiUnion

open AABB Hybrid
open Boolean (Placed Solid Region Moved)

/-! ### distance to enter -/

/-- The loop of `DistanceToIn` over a sorted list: the result does not exceed the start, is the start or the distance of a candidate,
and every candidate is either taken into account or beyond the limit. -/
theorem in_loop {m : MU} {p d : V3} {sm : ℝ} {D : Nat → ℝ} : ∀ (c : List (Nat × ℝ)) (s : ℝ),
    c.Pairwise (fun a b => a.2 ≤ b.2) →
    (∀ e ∈ c, ∃ v, m.vols[e.1]? = some v ∧ v.distanceToIn p d sm = some (D e.1)) →
    ∃ r, loopHook (inHook m p d sm) c s = some r ∧ r ≤ s ∧ (r = s ∨ ∃ e ∈ c, r = D e.1) ∧
      ∀ e ∈ c, r ≤ D e.1 ∨ min sm r < e.2 := by
  intro c
  induction c with
  | nil => intro s _ _; exact ⟨s, rfl, le_refl _, Or.inl rfl, by simp⟩
  | cons x c ih =>
    intro s hs h
    rw [loopHook]
    unfold inHook
    by_cases hc : x.2 > min sm s
    · rw [if_pos hc, Option.bind_some, if_pos rfl]
      refine ⟨s, rfl, le_refl _, Or.inl rfl, fun e he => Or.inr ?_⟩
      rcases List.mem_cons.mp he with rfl | he
      · exact hc
      · exact lt_of_lt_of_le hc ((List.pairwise_cons.mp hs).1 e he)
    · obtain ⟨v, hv, hd⟩ := h x List.mem_cons_self
      rw [if_neg hc, hv, Option.bind_some, hd, Option.map_some, Option.bind_some]
      obtain ⟨r, e, h1, h2, h3⟩ := ih (if D x.1 < s then D x.1 else s) (List.pairwise_cons.mp hs).2
        fun e he => h e (List.mem_cons_of_mem _ he)
      have hle : (if D x.1 < s then D x.1 else s) ≤ s ∧ (if D x.1 < s then D x.1 else s) ≤ D x.1 := by
        split
        · rename_i h'; exact ⟨h'.le, le_refl _⟩
        · rename_i h'; exact ⟨le_refl _, not_lt.mp h'⟩
      refine ⟨r, e, h1.trans hle.1, ?_, ?_⟩
      · rcases h2 with h2 | ⟨e, he, h2⟩
        · split at h2
          · exact Or.inr ⟨x, List.mem_cons_self, h2⟩
          · exact Or.inl h2
        · exact Or.inr ⟨e, List.mem_cons_of_mem _ he, h2⟩
      · intro e he
        rcases List.mem_cons.mp he with rfl | he
        · exact Or.inl (h1.trans hle.2)
        · exact h3 e he

section
variable {V : Nat} {M : ℝ} {l : List Placed} {m : MU} {a : Acc}

/-- The sorted candidates of a ray. -/
theorem Ready.hits (R : Ready V M l m a) (hV : 0 < V) (hn : l.length ≤ 20000) (hv : ∀ v ∈ l, Valid v.solid.extent) {p d : V3}
    (hp : Near M p) (hunit : d.mag2 = 1) (hM : M ≤ kInfLength) {sm : ℝ} (hsm : 0 ≤ sm) :
    ∃ out c, hitCandidates V a p d (min sm M) = some out ∧ insertionSort out = some c ∧ c.Pairwise (fun a b => a.2 ≤ b.2) ∧
      ∀ x, x ∈ c ↔ x.1 < l.length ∧ hitTest p d (min sm M) (boxesOf l x.1) = some x.2 := by
  have hb := built hV R.eq
  have hM1 := hp.one_le
  have h0 : 0 ≤ min sm M := le_min hsm (by linarith)
  have h1 : min sm M ≤ M := min_le_right _ _
  have hval : ∀ i, i < l.length → Valid (boxesOf l i) := fun i hi => by
    rw [boxesOf_eq hi]; exact (boxOf_thick (hv _ (List.getElem_mem hi))).valid
  obtain ⟨out, hperm, e⟩ := scan_spec hV hb (hitTest_pad hp hunit h0 h1 hM) (hitTest_mono hval p d h0 (h1.trans hM)) maxFacets
  have hlen : out.length ≤ l.length := by
    rw [hperm.length_eq]
    exact (entries_length_le _ _ _).trans (by rw [List.length_range])
  obtain ⟨c, e2, hp2, hs2⟩ := insertionSort_spec (l := out) (by omega)
  refine ⟨out, c, ?_, e2, hs2, fun x => ?_⟩
  · unfold hitCandidates
    rw [e, if_pos (show out.length ≤ maxFacets by unfold maxFacets; omega)]
  · rw [hp2.mem_iff, hperm.mem_iff, mem_entries, List.mem_range]

theorem tiny_le {u : ℝ} (h : u ≤ 10 ^ 27) : u * kTiny ≤ 1 / 1000 := by
  unfold kTiny
  rw [mul_one_div, div_le_iff₀ (by positivity)]
  refine h.trans (by norm_num)

/-- A point of the ray in a component is in its box, for the ray with the components pushed away from zero. -/
theorem ray_in_box {v : Placed} (hT : v.trans.Orthonormal) {X : Region} (hX : Boolean.ExtentOK v.solid X) {p d : V3} {u : ℝ}
    (h0 : 0 ≤ u) (h1 : u ≤ 10 ^ 27) (h : Moved v.trans X (V3.at' p d u)) {b : Box} (hb : Part (boxOf v) b) :
    InBox b (V3.at' p d.nonZero u) := by
  rw [Boolean.moved_iff hT] at h
  have := C28_box_contains_point hT (hX _ h)
  exact (C30_never_misses_true_ray h0 (tiny_le h1) (hb.margin this)).1

theorem Ready.distanceToIn_spec (R : Ready V M l m a) (hV : 0 < V) (hn : l.length ≤ 20000) (hT : ∀ v ∈ l, v.trans.Orthonormal)
    (hv : ∀ v ∈ l, Valid v.solid.extent) (X : Solid → Region) (hE : ∀ v ∈ l, Boolean.ExtentOK v.solid (X v.solid))
    {L : ℝ} (hL : L ≤ 10 ^ 27) (hin : ∀ v ∈ l, EntryUpTo L v.solid (X v.solid)) (hdef : ∀ v ∈ l, Enters v.solid) {p d : V3} (hp : Near M p)
    (hunit : d.mag2 = 1) (hM : M ≤ kInfLength) {sm : ℝ} (hsm : 0 ≤ sm) :
    ∃ r, distanceToIn V M m p d sm = some r ∧
      (∀ u, 0 ≤ u → u < r → u < sm → u ≤ L → u < M → ¬ region X l (V3.at' p d u)) ∧
      (r < kInfLength → r < sm → ∃ v ∈ l, v.distanceToIn p d sm = some r) := by
  have htol := kTolerance_pos
  unfold distanceToIn
  dsimp only
  by_cases hc : kernel2 m.ext p d.nonZero (-kTolerance) kInfLength ≥ sm
  · rw [if_pos hc]
    refine ⟨_, rfl, ?_, fun _ h => absurd hc (not_le.mpr h)⟩
    rintro u h0 h1 h2 h3 h4 ⟨v, hvl, hX⟩
    have hbox := ray_in_box (hT v hvl) (hE v hvl) h0 (h3.trans hL) hX (R.ext v hvl)
    have := (C30_cached_kernel2 (nonZero_full d) (t0 := -kTolerance) (t1 := kInfLength) (by linarith) (by linarith) hbox).2 u hbox
    linarith
  · rw [if_neg hc]
    obtain ⟨out, c, e1, e2, hs, hmem⟩ := R.hits hV hn hv hp hunit hM hsm
    have hD : ∀ i : Nat, ∃ t : ℝ, ∀ v : Placed, l[i]? = some v → v.distanceToIn p d sm = some t := by
      intro i
      cases hi : l[i]? with
      | none => exact ⟨0, fun v h => by cases h⟩
      | some v =>
        obtain ⟨t, ht⟩ := hdef v (List.mem_of_getElem? hi) (v.trans.transform p) (v.trans.transformDirection d) sm
        exact ⟨t, fun w h => by cases h; exact ht⟩
    choose D hD using hD
    obtain ⟨r, e3, h1, h2, h3⟩ := in_loop (m := m) (p := p) (d := d) (sm := sm) (D := D) c kInfLength hs fun e he => by
      have hi := ((hmem e).mp he).1
      exact ⟨l[e.1], by rw [R.vols]; exact List.getElem?_eq_getElem hi, hD _ _ (List.getElem?_eq_getElem hi)⟩
    rw [R.nav, Option.bind_some, e1, Option.bind_some, e2, Option.bind_some]
    refine ⟨r, e3, ?_, ?_⟩
    · rintro u h0 hur hus h27 huM ⟨v, hvl, hX⟩
      obtain ⟨i, hi, hiv⟩ := List.getElem_of_mem hvl
      have hbox : InBox (boxesOf l i) (V3.at' p d.nonZero u) := by
        rw [boxesOf_eq hi, hiv]
        exact ray_in_box (hT v hvl) (hE v hvl) h0 (h27.trans hL) hX (Part.refl _)
      have hlt : u < min sm M := lt_min hus huM
      have hk := (C30_cached_kernel2 (nonZero_full d) (t0 := 0) (t1 := min sm M) (t := u) (by linarith) (by linarith) hbox).2 u hbox
      have hx : (i, kernel2 (boxesOf l i) p d.nonZero 0 (min sm M)) ∈ c := by
        rw [hmem]
        refine ⟨hi, ?_⟩
        unfold hitTest
        dsimp only
        rw [if_pos (hk.trans_lt hlt)]
      rcases h3 _ hx with h4 | h4
      · dsimp only at h4
        have hDv := hD i v (by rw [List.getElem?_eq_getElem hi, hiv])
        rw [Boolean.moved_at (hT v hvl)] at hX
        exact hin v hvl _ _ _ _ (by rw [(Trans3.C23_isometry (hT v hvl) d p p).1]; exact hunit) hDv u h0 (hur.trans_le h4) hus h27 hX
      · dsimp only at h4
        have := lt_min hus hur
        linarith
    · intro hr _
      rcases h2 with h2 | ⟨e, he, h2⟩
      · linarith
      · have hi := ((hmem e).mp he).1
        refine ⟨l[e.1], List.getElem_mem hi, ?_⟩
        rw [h2]
        exact hD _ _ (List.getElem?_eq_getElem hi)

/-! ### safety to enter -/

theorem safety_loop {m : MU} {p : V3} : ∀ (c : List (Nat × ℝ)) (s : ℝ) (id : Option Nat), c.Pairwise (fun a b => a.2 ≤ b.2) →
    (∀ e ∈ c, ∃ v, m.vols[e.1]? = some v) → 0 < s →
    ∃ r, loopHook (safetyHook m p) c (s, id) = some r ∧ r.1 ≤ s ∧ 0 < r.1 ∧
      (r = (s, id) ∨ ∃ e ∈ c, ∃ v, m.vols[e.1]? = some v ∧ r = (v.safetyToIn p, some e.1)) ∧
      ∀ e ∈ c, ∀ v, m.vols[e.1]? = some v → v.safetyToIn p ≤ 0 ∨ r.1 ≤ v.safetyToIn p ∨ r.1 * r.1 ≤ e.2 := by
  intro c
  induction c with
  | nil => intro s id _ _ h; exact ⟨(s, id), rfl, le_refl _, h, Or.inl rfl, by simp⟩
  | cons x c ih =>
    intro s id hs h h0
    rw [loopHook]
    unfold safetyHook
    dsimp only
    by_cases hc : x.2 > s * s
    · rw [if_pos hc, Option.bind_some, if_pos rfl]
      refine ⟨(s, id), rfl, le_refl _, h0, Or.inl rfl, fun e he v _ => Or.inr (Or.inr ?_)⟩
      rcases List.mem_cons.mp he with rfl | he
      · exact hc.le
      · exact hc.le.trans ((List.pairwise_cons.mp hs).1 e he)
    · obtain ⟨v, hv⟩ := h x List.mem_cons_self
      rw [if_neg hc, hv, Option.map_some, Option.bind_some]
      by_cases hb : v.safetyToIn p > 0 ∧ v.safetyToIn p < s
      · obtain ⟨r, e, h1, h2, h3, h4⟩ := ih (v.safetyToIn p) (some x.1) (List.pairwise_cons.mp hs).2
          (fun e he => h e (List.mem_cons_of_mem _ he)) hb.1
        refine ⟨r, ?_, h1.trans hb.2.le, h2, ?_, ?_⟩
        · rw [if_pos hb]; exact e
        · rcases h3 with h3 | ⟨e, he, w, hw, h3⟩
          · exact Or.inr ⟨x, List.mem_cons_self, v, hv, h3⟩
          · exact Or.inr ⟨e, List.mem_cons_of_mem _ he, w, hw, h3⟩
        · intro e he w hw
          rcases List.mem_cons.mp he with rfl | he
          · rw [hv, Option.some.injEq] at hw
            subst hw
            exact Or.inr (Or.inl h1)
          · exact h4 e he w hw
      · obtain ⟨r, e, h1, h2, h3, h4⟩ := ih s id (List.pairwise_cons.mp hs).2
          (fun e he => h e (List.mem_cons_of_mem _ he)) h0
        refine ⟨r, ?_, h1, h2, ?_, ?_⟩
        · rw [if_neg hb]; exact e
        · rcases h3 with h3 | ⟨e, he, w, hw, h3⟩
          · exact Or.inl h3
          · exact Or.inr ⟨e, List.mem_cons_of_mem _ he, w, hw, h3⟩
        · intro e he w hw
          rcases List.mem_cons.mp he with rfl | he
          · rw [hv, Option.some.injEq] at hw
            subst hw
            rcases le_or_gt (v.safetyToIn p) 0 with h5 | h5
            · exact Or.inl h5
            · exact Or.inr (Or.inl (h1.trans (not_lt.mp fun h6 => hb ⟨h5, h6⟩)))
          · exact h4 e he w hw

theorem Ready.setting (R : Ready V M l m a) (hV : 0 < V) (hl : l ≠ []) (hv : ∀ v ∈ l, Valid v.solid.extent)
    (hr : ∀ v ∈ l, InRange M (boxOf v)) {p : V3} (hp : Near M p) : Setting V M (boxesOf l) l.length a p where
  pos := hV
  some := List.length_pos_iff.mpr hl
  built := Hybrid.built hV R.eq
  near := hp
  thick := fun i hi => by rw [boxesOf_eq hi]; exact boxOf_thick (hv _ (List.getElem_mem hi))
  bounded := fun i hi => by
    rw [boxesOf_eq hi]
    exact bounded_of_inRange (boxOf_thick (hv _ (List.getElem_mem hi))) (hr _ (List.getElem_mem hi))

theorem dist_le_of_dist2 {p q p' q' : V3} (h : V3.dist2 p q ≤ V3.dist2 p' q') : V3.dist p q ≤ V3.dist p' q' := Real.sqrt_le_sqrt h

theorem Ready.safetyToInComp_spec (R : Ready V M l m a) (hV : 0 < V) (hl : l ≠ []) (hn : l.length ≤ 20000)
    (hT : ∀ v ∈ l, v.trans.Orthonormal) (hv : ∀ v ∈ l, Valid v.solid.extent) (hr : ∀ v ∈ l, InRange M (boxOf v)) (X : Solid → Region)
    (hE : ∀ v ∈ l, Boolean.ExtentOK v.solid (X v.solid)) (hS : ∀ v ∈ l, Boolean.SafetyInOK v.solid (X v.solid))
    (hne : ∀ v ∈ l, ∃ q, X v.solid q) {p : V3} (hp : Near M p) (hMM : M * M < kInfLength) (hpos : ∀ v ∈ l, 0 < v.safetyToIn p) :
    ∃ r, safetyToInComp V m p = some r ∧ 0 < r.1 ∧ (∀ q, region X l q → r.1 ≤ V3.dist p q) ∧
      ∃ (i : Nat) (v : Placed), l[i]? = some v ∧ r = (v.safetyToIn p, some i) := by
  have S := R.setting hV hl hv hr hp
  obtain ⟨hits, e1, hnd, hval, k, hk, hcov⟩ := rangeCandidates_spec S (by unfold maxFacets; exact hn) hMM
  have hlen : hits.length ≤ l.length := by
    have : (hits.map Prod.fst).Subperm (List.range l.length) := hnd.subperm fun i hi => by
      obtain ⟨e, he, rfl⟩ := List.mem_map.mp hi
      exact List.mem_range.mpr (hval e he).1
    have := this.length_le
    rwa [List.length_map, List.length_range] at this
  obtain ⟨c, e2, hperm, hs⟩ := insertionSort_spec (l := hits) (by omega)
  obtain ⟨r, e3, h1, h2, h3, h4⟩ := safety_loop (m := m) (p := p) c kInfLength none hs (fun e he => by
    have hi := (hval e (hperm.mem_iff.mp he)).1
    exact ⟨l[e.1], by rw [R.vols]; exact List.getElem?_eq_getElem hi⟩) kInfLength_pos
  -- the box of a component contains its points
  have hbx : ∀ i (hi : i < l.length) q, Moved l[i].trans (X l[i].solid) q → InBox (boxesOf l i) q := by
    intro i hi q hq
    have hil := List.getElem_mem hi
    rw [Boolean.moved_iff (hT _ hil)] at hq
    rw [boxesOf_eq hi]
    obtain ⟨⟨a1, a2⟩, ⟨a3, a4⟩, a5, a6⟩ := C28_box_contains_point (hT _ hil) (hE _ hil _ hq)
    unfold boxOf
    refine ⟨⟨?_, ?_⟩, ⟨?_, ?_⟩, ?_, ?_⟩ <;> linarith
  -- points of candidates
  have hcand : ∀ i (hi : i < l.length), i ∈ hits.map Prod.fst → ∀ q, Moved l[i].trans (X l[i].solid) q → r.1 ≤ V3.dist p q := by
    intro i hi hm q hq
    obtain ⟨e, he, rfl⟩ := List.mem_map.mp hm
    have hil := List.getElem_mem hi
    have heq : m.vols[e.1]? = some l[e.1] := by rw [R.vols]; exact List.getElem?_eq_getElem hi
    rcases h4 e (hperm.mem_iff.mpr he) _ heq with h5 | h5 | h5
    · exact absurd (hpos _ hil) (not_lt.mpr h5)
    · exact h5.trans (Boolean.safetyIn_moved (hT _ hil) (hS _ hil) hq)
    · rw [(hval e he).2] at h5
      exact le_dist_of_safetySqr (hbx _ hi q hq) h5
  have hkn : k < l.length := by
    obtain ⟨e, he, rfl⟩ := List.mem_map.mp hk
    exact (hval e he).1
  refine ⟨r, ?_, h2, ?_, ?_⟩
  · unfold safetyToInComp
    rw [R.nav, Option.bind_some, e1, Option.bind_some, e2, Option.bind_some, e3]
  · rintro q ⟨v, hvl, hq⟩
    obtain ⟨i, hi, rfl⟩ := List.getElem_of_mem hvl
    rcases hcov i hi with h5 | h5
    · exact hcand i hi h5 q hq
    · -- a left out box is beyond the far corner of box `k`
      obtain ⟨qk, hqk⟩ := hne _ (List.getElem_mem hkn)
      have hmk : Moved l[k].trans (X l[k].solid) (l[k].trans.inverseTransform qk) := ⟨qk, hqk, rfl⟩
      refine (hcand k hkn hk _ hmk).trans (dist_le_of_dist2 ?_)
      have h6 := (C31_safety_range (boxesOf l k) p).2 _ (hbx k hkn _ hmk)
      have h7 : (boxesOf l i).safetySqr p ≤ V3.dist2 p q := by
        have hq' := hbx i hi q hq
        by_cases hb : InBox (boxesOf l i) p
        · exact (C31_safety_sqr_inside hb).1.trans (V3.dist2_nonneg p q)
        · exact (C31_safety_sqr_outside hq'.valid hb).2.1 q hq'
      exact h6.trans (h5.trans h7)
  · rcases h3 with h3 | ⟨e, he, v, hv', h3⟩
    · exfalso
      -- the candidate `k` has a finite safety
      obtain ⟨qk, hqk⟩ := hne _ (List.getElem_mem hkn)
      have hmk : Moved l[k].trans (X l[k].solid) (l[k].trans.inverseTransform qk) := ⟨qk, hqk, rfl⟩
      have h5 := hcand k hkn hk _ hmk
      rw [h3] at h5
      dsimp only at h5
      have h6 := (C31_safety_range (boxesOf l k) p).2 _ (hbx k hkn _ hmk)
      have h7 := far_lt hp (S.thick k hkn).valid (S.bounded k hkn)
      have h8 : V3.dist p (l[k].trans.inverseTransform qk) < M := by
        unfold V3.dist
        rw [Real.sqrt_lt' (by linarith [hp.one_le]), pow_two]
        exact h6.trans_lt h7
      have : M ≤ M * M := by nlinarith [hp.one_le]
      linarith
    · rw [R.vols] at hv'
      exact ⟨e.1, v, hv', h3⟩

end

end MultiUnion
end VecGeom
