import Verif.MultiUnion.Spec
import Verif.MultiUnion.Close
import Verif.MultiUnion.Range
import Verif.Boolean.Props
import Verif.Boolean.DistProps

/-!
# Lemmas about unions of many solids
-/

namespace VecGeom
namespace MultiUnion

open AABB Hybrid
open Boolean (Placed Solid Region Moved)

/-! ### filling and closing -/

theorem foldl_vols (l : List Placed) : ∀ m : MU, (l.foldl addNode m).vols = m.vols ++ l ∧ (l.foldl addNode m).bbox = m.bbox := by
  induction l with
  | nil => intro m; exact ⟨by simp, rfl⟩
  | cons v l ih =>
    intro m
    obtain ⟨h1, h2⟩ := ih (addNode m v)
    rw [List.foldl_cons]
    exact ⟨by rw [h1]; simp [addNode], h2⟩

theorem filled_vols (l : List Placed) : (filled l).vols = l := by
  unfold filled
  rw [(foldl_vols l create).1]
  rfl

theorem filled_bbox (l : List Placed) : (filled l).bbox = startBox := (foldl_vols l create).2

/-- One box is part of another. -/
def Part (b u : Box) : Prop :=
  (u.lo.x ≤ b.lo.x ∧ u.lo.y ≤ b.lo.y ∧ u.lo.z ≤ b.lo.z) ∧ (b.hi.x ≤ u.hi.x ∧ b.hi.y ≤ u.hi.y ∧ b.hi.z ≤ u.hi.z)

theorem Part.trans {a b c : Box} (h1 : Part a b) (h2 : Part b c) : Part a c := by
  obtain ⟨⟨a1, a2, a3⟩, a4, a5, a6⟩ := h1
  obtain ⟨⟨b1, b2, b3⟩, b4, b5, b6⟩ := h2
  exact ⟨⟨b1.trans a1, b2.trans a2, b3.trans a3⟩, a4.trans b4, a5.trans b5, a6.trans b6⟩

theorem Part.refl (a : Box) : Part a a := ⟨⟨le_refl _, le_refl _, le_refl _⟩, le_refl _, le_refl _, le_refl _⟩

theorem addNode_ext (m : MU) (v : Placed) : Part m.ext (addNode m v).ext ∧ Part (boxOf v) (addNode m v).ext :=
  ⟨⟨⟨min_le_left _ _, min_le_left _ _, min_le_left _ _⟩, le_max_left _ _, le_max_left _ _, le_max_left _ _⟩,
   ⟨⟨min_le_right _ _, min_le_right _ _, min_le_right _ _⟩, le_max_right _ _, le_max_right _ _, le_max_right _ _⟩⟩

theorem foldl_ext (l : List Placed) : ∀ m : MU, Part m.ext (l.foldl addNode m).ext ∧
    ∀ v ∈ l, Part (boxOf v) (l.foldl addNode m).ext := by
  induction l with
  | nil => intro m; exact ⟨Part.refl _, by simp⟩
  | cons x l ih =>
    intro m
    obtain ⟨h1, h2⟩ := ih (addNode m x)
    obtain ⟨g1, g2⟩ := addNode_ext m x
    rw [List.foldl_cons]
    refine ⟨g1.trans h1, fun v hv => ?_⟩
    rcases List.mem_cons.mp hv with rfl | hv
    · exact g2.trans h1
    · exact h2 v hv

theorem Part.inBox {b u : Box} (h : Part b u) {q : V3} (hq : InBox b q) : InBox u q := by
  obtain ⟨⟨b1, b2, b3⟩, b4, b5, b6⟩ := h
  obtain ⟨⟨a1, a2⟩, ⟨a3, a4⟩, a5, a6⟩ := hq
  exact ⟨⟨b1.trans a1, a2.trans b4⟩, ⟨b2.trans a3, a4.trans b5⟩, b3.trans a5, a6.trans b6⟩

theorem Part.margin {b u : Box} (h : Part b u) {m : ℝ} {q : V3} (hq : InBoxMargin b m q) : InBoxMargin u m q := by
  obtain ⟨⟨b1, b2, b3⟩, b4, b5, b6⟩ := h
  obtain ⟨⟨a1, a2⟩, ⟨a3, a4⟩, a5, a6⟩ := hq
  refine ⟨⟨?_, ?_⟩, ⟨?_, ?_⟩, ?_, ?_⟩ <;> linarith

/-- A closed union: what the kernels work on. -/
structure Ready (V : Nat) (M : ℝ) (l : List Placed) (m : MU) (a : Acc) : Prop where
  vols : m.vols = l
  nav : m.nav = some a
  eq : buildStructure V M (boxesOf l) l.length = some a
  ext : ∀ v ∈ l, Part (boxOf v) m.ext
  nb : ∀ i, i < l.length → m.nb.list i = below (boxesOf l) i l.length ∧ m.nb.cnt i = (below (boxesOf l) i l.length).length
  bbox : m.bbox = startBox

theorem close_some (V : Nat) (M : ℝ) (m : MU) : ∃ m', close V M m = some m' := by
  obtain ⟨nb, e, -⟩ := closeNeigh_spec (boxesOf m.vols) m.vols.length
  exact ⟨_, by unfold close; rw [e]; rfl⟩

theorem ready {V : Nat} (hV : 0 < V) {M : ℝ} {l : List Placed} (hl : l ≠ []) {m : MU} (h : close V M (filled l) = some m) :
    ∃ a, Ready V M l m a := by
  obtain ⟨nb, e, hnb⟩ := closeNeigh_spec (boxesOf (filled l).vols) (filled l).vols.length
  unfold close at h
  rw [e] at h
  simp only [Option.map_some, Option.some.injEq] at h
  rw [filled_vols] at h e hnb
  obtain ⟨a, ea, -⟩ := buildStructure_spec (boxesOf l) M (List.length_pos_iff.mpr hl) hV
  refine ⟨a, ?_⟩
  subst h
  exact ⟨rfl, ea, ea, (foldl_ext l create).2, fun i hi => ⟨(hnb i hi).2.1, (hnb i hi).1⟩, filled_bbox l⟩

theorem boxesOf_eq {l : List Placed} {i : Nat} (h : i < l.length) : boxesOf l i = boxOf l[i] := by
  unfold boxesOf
  rw [List.getElem?_eq_getElem h]

/-! ### boxes of the components -/

theorem strictlyIn_of_near {v : Placed} (hT : v.trans.Orthonormal) {p q : V3} (hq : InBox v.solid.extent q)
    (hd : V3.dist (v.trans.transform p) q < 1 / 1000) : StrictlyIn (boxOf v) p := by
  obtain ⟨⟨a1, a2⟩, ⟨a3, a4⟩, a5, a6⟩ := C28_box_contains_image v.trans hq
  have e : v.trans.transform (v.trans.inverseTransform q) = q := Trans3.C23_point_roundtrip_local hT q
  rw [← e, Boolean.dist_transform hT] at hd
  have hx := (V3.abs_x_le_dist p (v.trans.inverseTransform q)).trans_lt hd
  have hy := (V3.abs_y_le_dist p (v.trans.inverseTransform q)).trans_lt hd
  have hz := (V3.abs_z_le_dist p (v.trans.inverseTransform q)).trans_lt hd
  rw [abs_lt] at hx hy hz
  unfold boxOf
  refine ⟨⟨?_, ?_⟩, ⟨?_, ?_⟩, ?_, ?_⟩ <;> linarith [hx.1, hx.2, hy.1, hy.2, hz.1, hz.2]

theorem strictlyIn_inBox {b : Box} {p : V3} (h : StrictlyIn b p) : InBox b p :=
  ⟨⟨h.1.1.le, h.1.2.le⟩, ⟨h.2.1.1.le, h.2.1.2.le⟩, h.2.2.1.le, h.2.2.2.le⟩

theorem claimed_strictlyIn {v : Placed} (hT : v.trans.Orthonormal) (ht : Tight v.solid) {p : V3}
    (h : v.inside p ≠ .outside ∨ v.contains p = true) : StrictlyIn (boxOf v) p := by
  obtain ⟨q, h1, h2⟩ := ht _ h
  exact strictlyIn_of_near hT h1 h2

theorem boxOf_thick {v : Placed} (hv : Valid v.solid.extent) : Thick (boxOf v) := by
  have hq : InBox v.solid.extent v.solid.extent.lo := by
    obtain ⟨h1, h2, h3⟩ := hv
    exact ⟨⟨le_refl _, h1⟩, ⟨le_refl _, h2⟩, ⟨le_refl _, h3⟩⟩
  obtain ⟨⟨a1, a2⟩, ⟨a3, a4⟩, ⟨a5, a6⟩⟩ := C28_box_contains_image v.trans hq
  unfold boxOf
  exact ⟨by linarith, by linarith, by linarith⟩

theorem bounded_of_inRange {M : ℝ} {b : Box} (h : Thick b) (hr : InRange M b) : Bounded M b := by
  obtain ⟨hx, hy, hz⟩ := h
  obtain ⟨a1, a2, a3⟩ := hr b.lo ⟨⟨le_refl _, hx.le⟩, ⟨le_refl _, hy.le⟩, le_refl _, hz.le⟩
  obtain ⟨b1, b2, b3⟩ := hr b.hi ⟨⟨hx.le, le_refl _⟩, ⟨hy.le, le_refl _⟩, hz.le, le_refl _⟩
  exact ⟨⟨(abs_le.mp a1).1, (abs_le.mp a2).1, (abs_le.mp a3).1⟩, (abs_le.mp b1).2, (abs_le.mp b2).2, (abs_le.mp b3).2⟩

theorem overlap_iff (a b : Box) : overlap a b = true ↔ Touching a b := by
  unfold overlap Touching
  split
  · rename_i h
    constructor
    · intro h'; cases h'
    · rintro ⟨⟨h1, h2⟩, ⟨h3, h4⟩, h5, h6⟩
      exfalso
      rcases h with h | h <;> simp only [min_lt_iff] at h <;> rcases h with (h | h) | h <;> linarith
  · rename_i h
    push Not at h
    obtain ⟨h1, h2⟩ := h
    simp only [le_min_iff] at h1 h2
    obtain ⟨⟨h1, h3⟩, h5⟩ := h1
    obtain ⟨⟨h2, h4⟩, h6⟩ := h2
    refine ⟨fun _ => ⟨⟨?_, ?_⟩, ⟨?_, ?_⟩, ?_, ?_⟩, fun _ => rfl⟩ <;> linarith

theorem mem_below {boxes : Nat → Box} {k t i : Nat} : i ∈ below boxes k t ↔ i < t ∧ i ≠ k ∧ Touching (boxes k) (boxes i) := by
  unfold below
  simp only [List.mem_filter, List.mem_range, Bool.and_eq_true, decide_eq_true_eq, overlap_iff]

/-! ### the loops over candidates -/

theorem loop_any {l : List Placed} {f : Placed → Bool} : ∀ (c : List Nat), (∀ i ∈ c, i < l.length) →
    ∃ b, loopHook (fun (_ : Bool) id => l[id]?.map fun v => (f v, f v)) c false = some b ∧
      (b = true ↔ ∃ i ∈ c, ∃ v, l[i]? = some v ∧ f v = true) := by
  intro c
  induction c with
  | nil => intro _; exact ⟨false, rfl, by simp⟩
  | cons x c ih =>
    intro h
    obtain ⟨b, e, hb⟩ := ih fun i hi => h i (List.mem_cons_of_mem _ hi)
    have hx := h x List.mem_cons_self
    rw [loopHook, List.getElem?_eq_getElem hx, Option.map_some, Option.bind_some]
    cases hf : f l[x] with
    | true => exact ⟨true, rfl, iff_of_true rfl ⟨x, List.mem_cons_self, l[x], List.getElem?_eq_getElem hx, hf⟩⟩
    | false =>
      refine ⟨b, e, hb.trans ⟨?_, ?_⟩⟩
      · rintro ⟨i, hi, r⟩; exact ⟨i, List.mem_cons_of_mem _ hi, r⟩
      · rintro ⟨i, hi, v, hv, hfv⟩
        rcases List.mem_cons.mp hi with rfl | hi
        · rw [List.getElem?_eq_getElem hx, Option.some.injEq] at hv
          rw [← hv, hf] at hfv; cases hfv
        · exact ⟨i, hi, v, hv, hfv⟩

theorem loop_class {l : List Placed} {f : Placed → Inside} : ∀ (c : List Nat) (s : Inside), s ≠ .inside → (∀ i ∈ c, i < l.length) →
    ∃ r, loopHook (fun (inside : Inside) id => l[id]?.map fun v =>
        if f v = .inside then (.inside, true) else if f v = .surface then (.surface, false) else (inside, false)) c s = some r ∧
      (r = .inside ↔ ∃ i ∈ c, ∃ v, l[i]? = some v ∧ f v = .inside) ∧
      (r = .outside ↔ s = .outside ∧ ∀ i ∈ c, ∀ v, l[i]? = some v → f v = .outside) := by
  intro c
  induction c with
  | nil => intro s hs _; exact ⟨s, rfl, by simp [hs], by simp⟩
  | cons x c ih =>
    intro s hs h
    have hx := h x List.mem_cons_self
    have hc := fun i hi => h i (List.mem_cons_of_mem x hi)
    have e := List.getElem?_eq_getElem hx
    rw [loopHook, e, Option.map_some, Option.bind_some]
    cases hf : f l[x] with
    | inside =>
      refine ⟨.inside, rfl, iff_of_true rfl ⟨x, List.mem_cons_self, l[x], e, hf⟩, iff_of_false (by simp) ?_⟩
      rintro ⟨-, h2⟩
      have := h2 x List.mem_cons_self l[x] e
      rw [hf] at this; cases this
    | surface =>
      obtain ⟨r, e2, h1, h2⟩ := ih .surface (by simp) hc
      refine ⟨r, e2, h1.trans ⟨?_, ?_⟩, h2.trans (iff_of_false (by simp) ?_)⟩
      · rintro ⟨i, hi, r⟩; exact ⟨i, List.mem_cons_of_mem _ hi, r⟩
      · rintro ⟨i, hi, v, hv, hfv⟩
        rcases List.mem_cons.mp hi with rfl | hi
        · rw [e, Option.some.injEq] at hv
          rw [← hv, hf] at hfv; cases hfv
        · exact ⟨i, hi, v, hv, hfv⟩
      · rintro ⟨-, h2⟩
        have := h2 x List.mem_cons_self l[x] e
        rw [hf] at this; cases this
    | outside =>
      obtain ⟨r, e2, h1, h2⟩ := ih s hs hc
      refine ⟨r, e2, h1.trans ⟨?_, ?_⟩, h2.trans ⟨?_, ?_⟩⟩
      · rintro ⟨i, hi, r⟩; exact ⟨i, List.mem_cons_of_mem _ hi, r⟩
      · rintro ⟨i, hi, v, hv, hfv⟩
        rcases List.mem_cons.mp hi with rfl | hi
        · rw [e, Option.some.injEq] at hv
          rw [← hv, hf] at hfv; cases hfv
        · exact ⟨i, hi, v, hv, hfv⟩
      · rintro ⟨h3, h4⟩
        refine ⟨h3, fun i hi v hv => ?_⟩
        rcases List.mem_cons.mp hi with rfl | hi
        · rw [e, Option.some.injEq] at hv
          rw [← hv, hf]
        · exact h4 i hi v hv
      · rintro ⟨h3, h4⟩
        exact ⟨h3, fun i hi v hv => h4 i (List.mem_cons_of_mem _ hi) v hv⟩

open Classical in
theorem loop_find {l : List Placed} {P : Placed → Prop} : ∀ (c : List Nat), (∀ i ∈ c, i < l.length) →
    ∃ r, loopHook (fun (s : Option Nat) id => l[id]?.map fun v => if P v then (some id, true) else (s, false)) c none = some r ∧
      (∀ i, r = some i → i ∈ c ∧ ∃ v, l[i]? = some v ∧ P v) ∧ (r = none → ∀ i ∈ c, ∀ v, l[i]? = some v → ¬ P v) := by
  intro c
  induction c with
  | nil => intro _; exact ⟨none, rfl, by simp, by simp⟩
  | cons x c ih =>
    intro h
    have hx := h x List.mem_cons_self
    have e := List.getElem?_eq_getElem hx
    rw [loopHook, e, Option.map_some, Option.bind_some]
    by_cases hP : P l[x]
    · rw [if_pos hP]
      refine ⟨some x, rfl, fun i hi => ?_, fun h' => by cases h'⟩
      cases hi
      exact ⟨List.mem_cons_self, l[x], e, hP⟩
    · rw [if_neg hP]
      obtain ⟨r, e2, h1, h2⟩ := ih fun i hi => h i (List.mem_cons_of_mem _ hi)
      refine ⟨r, e2, fun i hi => ⟨List.mem_cons_of_mem _ (h1 i hi).1, (h1 i hi).2⟩, fun hr i hi v hv => ?_⟩
      rcases List.mem_cons.mp hi with rfl | hi
      · rw [e, Option.some.injEq] at hv
        rw [← hv]; exact hP
      · exact h2 hr i hi v hv

section
variable {V : Nat} {M : ℝ} {l : List Placed} {m : MU} {a : Acc}

/-- The candidates for a point: without repetition exactly the components whose box strictly contains it. -/
theorem Ready.candidates (R : Ready V M l m a) (hV : 0 < V) (hn : l.length ≤ 20000) (p : V3) :
    ∃ c, containingCandidates V a p = some c ∧ c.Nodup ∧ ∀ i, i ∈ c ↔ i < l.length ∧ StrictlyIn (boxesOf l i) p :=
  C38_complete hV R.eq hn p

theorem Ready.looper (R : Ready V M l m a) {σ : Type} {p : V3} {c : List Nat} (hc : containingCandidates V a p = some c)
    (hook : σ → Nat → Option (σ × Bool)) (s : σ) : containsLooper V m p hook s = loopHook hook c s := by
  unfold containsLooper
  rw [R.nav, Option.bind_some, hc, Option.bind_some]

theorem mem_cand {c : List Nat} {p : V3} (hc : ∀ i, i ∈ c ↔ i < l.length ∧ StrictlyIn (boxesOf l i) p)
    (hT : ∀ v ∈ l, v.trans.Orthonormal) (ht : ∀ v ∈ l, Tight v.solid) {v : Placed} (hv : v ∈ l)
    (h : v.inside p ≠ .outside ∨ v.contains p = true) : ∃ i ∈ c, l[i]? = some v := by
  obtain ⟨i, hi, rfl⟩ := List.getElem_of_mem hv
  refine ⟨i, (hc i).mpr ⟨hi, ?_⟩, List.getElem?_eq_getElem hi⟩
  rw [boxesOf_eq hi]
  exact claimed_strictlyIn (hT _ hv) (ht _ hv) h

/-- `InsideComponent`: a component on or in which the point is, if there is one. -/
theorem Ready.component (R : Ready V M l m a) (hV : 0 < V) (hn : l.length ≤ 20000) (hT : ∀ v ∈ l, v.trans.Orthonormal)
    (ht : ∀ v ∈ l, Tight v.solid) (p : V3) :
    ∃ r, insideComponent V m p = some r ∧ (∀ i, r = some i → ∃ v, l[i]? = some v ∧ v.inside p ≠ .outside) ∧
      (r = none → ∀ v ∈ l, v.inside p = .outside) := by
  obtain ⟨c, hc, -, hmem⟩ := R.candidates hV hn p
  obtain ⟨r, e, h1, h2⟩ := loop_find (l := l) (P := fun v => v.inside p ≠ .outside) c fun i hi => ((hmem i).mp hi).1
  refine ⟨r, ?_, fun i hi => (h1 i hi).2, fun hr v hv => ?_⟩
  · unfold insideComponent
    rw [R.looper hc, R.vols, ← e]
    congr 1
    funext s id
    congr 1
    funext v
    split <;> simp_all
  · by_contra hne
    obtain ⟨i, hi, hiv⟩ := mem_cand hmem hT ht hv (Or.inl hne)
    exact h2 hr i hi v hiv hne

/-- `InsideCluster`: a neighbour in which the point is, if there is one. -/
theorem Ready.cluster (R : Ready V M l m a) {k : Nat} (hk : k < l.length) (p : V3) :
    ∃ r, insideCluster m p k = some r ∧
      (∀ i, r = some i → i < l.length ∧ i ≠ k ∧ ∃ v, l[i]? = some v ∧ v.inside p = .inside) ∧
      (r = none → ∀ i, i < l.length → i ≠ k → Touching (boxesOf l k) (boxesOf l i) → ∀ v, l[i]? = some v → v.inside p ≠ .inside) := by
  obtain ⟨hnb, -⟩ := R.nb k hk
  obtain ⟨r, e, h1, h2⟩ := loop_find (l := l) (P := fun v => v.inside p = .inside) (below (boxesOf l) k l.length)
    fun i hi => (mem_below.mp hi).1
  refine ⟨r, ?_, fun i hi => ?_, fun hr i hi hik hto v hv => ?_⟩
  · unfold insideCluster
    rw [hnb, R.vols, ← e]
    congr 1
    funext s id
    congr 1
    funext v
    split <;> simp_all
  · obtain ⟨h3, h4⟩ := h1 i hi
    exact ⟨(mem_below.mp h3).1, (mem_below.mp h3).2.1, h4⟩
  · exact h2 hr i (mem_below.mpr ⟨hi, hik, hto⟩) v hv

end

end MultiUnion
end VecGeom
