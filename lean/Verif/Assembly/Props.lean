import Verif.Assembly.Model
import Verif.MultiUnion.Spec
import Verif.MultiUnion.Lemmas
import Verif.AABB.Props
import Verif.Boolean.Props

/-!
# Properties of assemblies

An assembly is the union of its daughters, however deep.
-/

namespace VecGeom
namespace Assembly

open Boolean (Solid Region ContainsOK ExtentOK SafetyInOK EntryOK cube)
open AABB (Box InBox InBoxMargin computeABBox C28_box_contains_image C28_box_tight)
open MultiUnion (Part)

/-! ## Specification -/

/-- The points of an assembly: those of a daughter, moved with the placement.  `X` gives the region of a solid. -/
inductive InAsm (X : Solid → Region) (h : Heap) : Nat → V3 → Prop
  | solid {i : Nat} {c : Cell} {k : Kid} {s : Solid} {q : V3} (hi : h i = some c) (hk : k ∈ c.kids) (hs : k.item = .solid s) (hq : X s q) :
      InAsm X h i (k.trans.inverseTransform q)
  | asm {i : Nat} {c : Cell} {k : Kid} {j : Nat} {q : V3} (hi : h i = some c) (hk : k ∈ c.kids) (hs : k.item = .asm j) (hq : InAsm X h j q) :
      InAsm X h i (k.trans.inverseTransform q)

/-- No assembly has the assembly `i` as a daughter. -/
def Unplaced (h : Heap) (i : Nat) : Prop := ∀ j c, h j = some c → ∀ k ∈ c.kids, k.item ≠ .asm i

/-- The histories in which an assembly gets no new daughters once it has been placed itself. -/
inductive Built : Heap → Prop
  | empty : Built fun _ => none
  | create {h h' : Heap} {i : Nat} (hb : Built h) (hc : create h i = some h') : Built h'
  | place {h h' : Heap} {n i : Nat} {k : Kid} (hb : Built h) (hu : Unplaced h i) (hk : k.item ≠ .asm i) (hp : place h n i k = some h') : Built h'

/-- Something about all solids, and about all placements. -/
def All (h : Heap) (P : Solid → Prop) (Q : Trans3 → Prop) : Prop :=
  ∀ i c, h i = some c → ∀ k ∈ c.kids, Q k.trans ∧ ∀ s, k.item = .solid s → P s

/-! ## Loops -/

theorem loopM_inv {σ α : Type} {f : σ → α → Option σ} (R : σ → σ → Prop) (hR : ∀ a, R a a) (ht : ∀ a b c, R a b → R b c → R a c)
    (l : List α) (s t : σ) (hf : ∀ x ∈ l, ∀ a b, f a x = some b → R a b) (h : loopM f l s = some t) :
    R s t ∧ ∀ x ∈ l, ∃ a b, f a x = some b ∧ R s a ∧ R b t := by
  induction l generalizing s with
  | nil => obtain rfl := Option.some.inj h; exact ⟨hR _, by simp⟩
  | cons x l ih =>
    obtain ⟨u, hu, h'⟩ := Option.bind_eq_some_iff.mp h
    obtain ⟨i1, i2⟩ := ih u (fun y hy => hf y (by simp [hy])) h'
    have hx := hf x (by simp) _ _ hu
    refine ⟨ht _ _ _ hx i1, ?_⟩
    intro y hy
    rcases List.mem_cons.mp hy with rfl | hy
    · exact ⟨s, u, hu, hR _, i1⟩
    · obtain ⟨a, b, h1, h2, h3⟩ := i2 y hy
      exact ⟨a, b, h1, ht _ _ _ hx h2, h3⟩

theorem loopM_congr {σ α : Type} {f g : σ → α → Option σ} (l : List α) (s : σ) (hf : ∀ x ∈ l, ∀ a, f a x = g a x) :
    loopM f l s = loopM g l s := by
  induction l generalizing s with
  | nil => rfl
  | cons x l ih =>
    unfold loopM
    rw [hf x (by simp)]
    congr 1
    funext u
    exact ih u (fun y hy => hf y (by simp [hy]))

theorem anyM_iff {α : Type} {f : α → Option Bool} (l : List α) (r : Bool) (h : anyM f l = some r) :
    (r = true ↔ ∃ x ∈ l, f x = some true) := by
  induction l with
  | nil => obtain rfl := Option.some.inj h; simp
  | cons x l ih =>
    obtain ⟨b, hb, h'⟩ := Option.bind_eq_some_iff.mp h
    cases b with
    | true =>
      rw [if_pos rfl] at h'
      obtain rfl := Option.some.inj h'
      simp [hb]
    | false =>
      rw [if_neg (by simp)] at h'
      rw [ih h']
      simp [hb]

theorem anyM_some {α : Type} {f : α → Option Bool} (l : List α) (h : ∀ x ∈ l, ∃ b, f x = some b) : ∃ r, anyM f l = some r := by
  induction l with
  | nil => exact ⟨_, rfl⟩
  | cons x l ih =>
    obtain ⟨b, hb⟩ := h x (by simp)
    obtain ⟨r, hr⟩ := ih (fun y hy => h y (by simp [hy]))
    unfold anyM
    rw [hb]
    cases b
    · exact ⟨r, by simpa using hr⟩
    · exact ⟨true, by simp⟩

/-! ## Extents -/

/-- The extent of a daughter in its own frame. -/
noncomputable def itemExtent (h : Heap) (n : Nat) (k : Kid) : Option Box :=
  match k.item with
  | .solid s => some s.extent
  | .asm j => extent h n j

theorem extent_eq (h : Heap) (n i : Nat) : extent h (n + 1) i = (h i).bind fun c =>
    loopM (fun b k => (itemExtent h n k).map fun e => join b (computeABBox k.trans e)) c.kids startBox := rfl

theorem join_part (b e : Box) : Part b (join b e) ∧ Part e (join b e) :=
  ⟨⟨⟨min_le_right _ _, min_le_right _ _, min_le_right _ _⟩, le_max_right _ _, le_max_right _ _, le_max_right _ _⟩,
   ⟨⟨min_le_left _ _, min_le_left _ _, min_le_left _ _⟩, le_max_left _ _, le_max_left _ _, le_max_left _ _⟩⟩

theorem extent_kid {h : Heap} {n i : Nat} {b : Box} (he : extent h (n + 1) i = some b) {c : Cell} (hi : h i = some c) {k : Kid} (hk : k ∈ c.kids) :
    ∃ e, itemExtent h n k = some e ∧ Part (computeABBox k.trans e) b := by
  rw [extent_eq, hi] at he
  obtain ⟨-, h2⟩ := loopM_inv Part Part.refl (fun _ _ _ => Part.trans) c.kids startBox b (by
    intro x hx u v huv
    obtain ⟨e, -, rfl⟩ := Option.map_eq_some_iff.mp huv
    exact (join_part _ _).1) he
  obtain ⟨u, v, huv, -, h4⟩ := h2 k hk
  obtain ⟨e, h5, rfl⟩ := Option.map_eq_some_iff.mp huv
  exact ⟨e, h5, (join_part _ _).2.trans h4⟩

theorem margin_in {b : Box} {p : V3} (h : InBoxMargin b (1 / 1000) p) : InBox b p := by
  obtain ⟨⟨h1, h2⟩, ⟨h3, h4⟩, h5, h6⟩ := h
  refine ⟨⟨?_, ?_⟩, ⟨?_, ?_⟩, ?_, ?_⟩ <;> linarith

/-- C189: every point of an assembly lies in the box that `Extent` gives, a thousandth away from its faces, for all nestings and all
placements. -/
theorem C189_extent {X : Solid → Region} {h : Heap} (hE : All h (fun s => ExtentOK s (X s)) fun _ => True) {n i : Nat} {b : Box}
    (he : extent h n i = some b) {p : V3} (hp : InAsm X h i p) : InBoxMargin b (1 / 1000) p := by
  induction hp generalizing n b with
  | @solid i c k s q hi hk hs hq =>
    obtain _ | n := n
    · cases he
    obtain ⟨e, h1, h2⟩ := extent_kid he hi hk
    unfold itemExtent at h1
    rw [hs] at h1
    obtain rfl := Option.some.inj h1
    exact h2.margin (C28_box_contains_image k.trans ((hE i c hi k hk).2 s hs q hq))
  | @asm i c k j q hi hk hs hq ih =>
    obtain _ | n := n
    · cases he
    obtain ⟨e, h1, h2⟩ := extent_kid he hi hk
    unfold itemExtent at h1
    rw [hs] at h1
    exact h2.margin (C28_box_contains_image k.trans (margin_in (ih h1)))

/-! ## Histories -/

/-- The extent only depends on the daughters. -/
theorem extent_kids {h h' : Heap} (hh : ∀ i, (h i).map Cell.kids = (h' i).map Cell.kids) (n i : Nat) : extent h n i = extent h' n i := by
  induction n generalizing i with
  | zero => rfl
  | succ n ih =>
    rw [extent_eq, extent_eq]
    have hi := hh i
    rcases h1 : h i with _ | c <;> rcases h2 : h' i with _ | c' <;> rw [h1, h2] at hi
    · rfl
    · simp at hi
    · simp at hi
    · have e : c.kids = c'.kids := by simpa using hi
      simp only [Option.bind_some]
      rw [e]
      refine loopM_congr _ _ (fun k _ a => ?_)
      have : itemExtent h n k = itemExtent h' n k := by
        unfold itemExtent
        split
        · rfl
        · exact ih _
      rw [this]

/-- The extent of an assembly does not depend on an assembly that is placed nowhere. -/
theorem extent_set {h : Heap} {i : Nat} (hu : Unplaced h i) (c : Cell) (n : Nat) {j : Nat} (hj : j ≠ i) : extent (h.set i c) n j = extent h n j := by
  induction n generalizing j with
  | zero => rfl
  | succ n ih =>
    rw [extent_eq, extent_eq]
    have e : h.set i c j = h j := by unfold Heap.set; rw [if_neg hj]
    rw [e]
    rcases hc : h j with _ | d
    · rfl
    · simp only [Option.bind_some]
      refine loopM_congr _ _ (fun k hk a => ?_)
      have : itemExtent (h.set i c) n k = itemExtent h n k := by
        unfold itemExtent
        split
        · rfl
        · rename_i m hm
          exact ih (fun hh => hu j d hc k hk (by rw [hm, hh]))
      rw [this]

theorem set_same (h : Heap) (i : Nat) (c : Cell) : h.set i c i = some c := by unfold Heap.set; rw [if_pos rfl]
theorem set_other (h : Heap) {i j : Nat} (c : Cell) (hj : j ≠ i) : h.set i c j = h j := by unfold Heap.set; rw [if_neg hj]

/-- The corners of all assemblies with daughters are up to date, and no daughter is missing. -/
theorem built_corners {h : Heap} (hb : Built h) : ∀ i c, h i = some c → c.kids ≠ [] → ∃ n, extent h n i = some c.corners := by
  induction hb with
  | empty => intro i c hi; cases hi
  | @create h h' i hb hc ih =>
    unfold create at hc
    rcases hi : h i with _ | c <;> rw [hi] at hc
    swap
    · cases hc
    obtain rfl := Option.some.inj hc
    intro j d hj hne
    by_cases hji : j = i
    · subst hji
      rw [set_same] at hj
      obtain rfl := Option.some.inj hj
      exact absurd rfl hne
    · rw [set_other _ _ hji] at hj
      obtain ⟨n, hn⟩ := ih j d hj hne
      -- a missing assembly is a daughter of nobody whose extent is known; the new empty one does not change it
      have key : ∀ n j b, extent h n j = some b → extent (h.set i ⟨[], newCorners⟩) n j = some b := by
        intro n
        induction n with
        | zero => intro j b hh; cases hh
        | succ n ihn =>
          intro j b hh
          rw [extent_eq] at hh ⊢
          obtain ⟨d, hd, hh⟩ := Option.bind_eq_some_iff.mp hh
          have hne' : j ≠ i := by rintro rfl; rw [hi] at hd; cases hd
          rw [set_other _ _ hne', hd]
          simp only [Option.bind_some]
          rw [← hh]
          have hall := fun k (hk : k ∈ d.kids) => extent_kid (n := n) (i := j) (b := b) (by rw [extent_eq, hd]; exact hh) hd hk
          refine loopM_congr _ _ (fun k hk a => ?_)
          obtain ⟨e, he, -⟩ := hall k hk
          have : itemExtent (h.set i ⟨[], newCorners⟩) n k = itemExtent h n k := by
            rw [he]
            unfold itemExtent at he ⊢
            split
            · rename_i s hs; rw [hs] at he; exact he
            · rename_i m hm; rw [hm] at he; exact ihn m e he
          rw [this]
      exact ⟨n, key n j _ hn⟩
  | @place h h' m i k hb hu hk hp ih =>
    unfold place at hp
    obtain ⟨c, hc, hp⟩ := Option.bind_eq_some_iff.mp hp
    obtain ⟨b, hbx, rfl⟩ := Option.map_eq_some_iff.mp hp
    intro j d hj hne
    by_cases hji : j = i
    · subst hji
      rw [set_same] at hj
      obtain rfl := Option.some.inj hj
      refine ⟨m, ?_⟩
      rw [← hbx]
      refine extent_kids (fun l => ?_) m j
      by_cases hl : l = j
      · subst hl; rw [set_same, set_same]; rfl
      · rw [set_other _ _ hl]
    · rw [set_other _ _ hji, set_other _ _ hji] at hj
      obtain ⟨n, hn⟩ := ih j d hj hne
      refine ⟨n, ?_⟩
      rw [← hn, ← extent_set hu { c with kids := c.kids ++ [k] } n hji]
      refine extent_kids (fun l => ?_) n j
      by_cases hl : l = i
      · subst hl; rw [set_same, set_same]; rfl
      · rw [set_other _ _ hl]

/-! ## Containment -/

/-- `Contains` of a daughter. -/
noncomputable def itemContains (h : Heap) (n : Nat) (p : V3) (k : Kid) : Option Bool :=
  match k.item with
  | .solid s => some (s.contains (k.trans.transform p))
  | .asm j => contains h n j (k.trans.transform p)

theorem contains_eq (h : Heap) (n i : Nat) (p : V3) : contains h (n + 1) i p = (h i).bind fun c =>
    if boxContains c.corners p then anyM (itemContains h n p) c.kids else some false := rfl

/-- The points of an assembly, seen from the frame of the assembly. -/
theorem inAsm_iff {X : Solid → Region} {h : Heap} (hT : All h (fun _ => True) Trans3.Orthonormal) {i : Nat} {c : Cell} (hi : h i = some c) (p : V3) :
    InAsm X h i p ↔ ∃ k ∈ c.kids, match k.item with
      | .solid s => X s (k.trans.transform p)
      | .asm j => InAsm X h j (k.trans.transform p) := by
  constructor
  · intro hp
    cases hp with
    | @solid _ c' k s q hi' hk hs hq =>
      rw [hi] at hi'
      obtain rfl := Option.some.inj hi'
      refine ⟨k, hk, ?_⟩
      rw [hs]
      simp only
      rwa [Trans3.C23_point_roundtrip_local (hT i c hi k hk).1]
    | @asm _ c' k j q hi' hk hs hq =>
      rw [hi] at hi'
      obtain rfl := Option.some.inj hi'
      refine ⟨k, hk, ?_⟩
      rw [hs]
      simp only
      rwa [Trans3.C23_point_roundtrip_local (hT i c hi k hk).1]
  · rintro ⟨k, hk, h1⟩
    have hr := Trans3.C23_point_roundtrip_master (hT i c hi k hk).1 p
    rcases hs : k.item with s | j <;> rw [hs] at h1
    · have := InAsm.solid hi hk hs h1
      rwa [hr] at this
    · have := InAsm.asm hi hk hs h1
      rwa [hr] at this

theorem boxContains_of_margin {b : Box} {p : V3} (h : InBoxMargin b (1 / 1000) p) : boxContains b p = true := by
  obtain ⟨⟨h1, h2⟩, ⟨h3, h4⟩, h5, h6⟩ := h
  unfold boxContains
  simp only [decide_eq_true_iff]
  refine ⟨⟨?_, ?_⟩, ⟨?_, ?_⟩, ?_, ?_⟩ <;> linarith

/-- C189: `Contains` of an assembly says whether the point is in one of its daughters, for every history in which no assembly gets new
daughters after it has been placed, and for all nestings. -/
theorem C189_contains_partial {X : Solid → Region} {h : Heap} (hb : Built h) (hX : All h (fun s => ContainsOK s (X s) ∧ ExtentOK s (X s)) Trans3.Orthonormal)
    {n i : Nat} {p : V3} {r : Bool} (hr : contains h n i p = some r) : r = true ↔ InAsm X h i p := by
  have hT : All h (fun _ => True) Trans3.Orthonormal := fun i c hi k hk => ⟨(hX i c hi k hk).1, fun _ _ => trivial⟩
  have hE : All h (fun s => ExtentOK s (X s)) fun _ => True := fun i c hi k hk => ⟨trivial, fun s hs => ((hX i c hi k hk).2 s hs).2⟩
  induction n generalizing i p r with
  | zero => cases hr
  | succ n ih =>
    rw [contains_eq] at hr
    obtain ⟨c, hi, hr⟩ := Option.bind_eq_some_iff.mp hr
    by_cases hbox : boxContains c.corners p = true
    · rw [if_pos hbox] at hr
      rw [anyM_iff _ _ hr, inAsm_iff hT hi]
      have hk : ∀ k ∈ c.kids, itemContains h n p k ≠ none → (itemContains h n p k = some true ↔ match k.item with
          | .solid s => X s (k.trans.transform p)
          | .asm j => InAsm X h j (k.trans.transform p)) := by
        intro k hk hne
        unfold itemContains at hne ⊢
        rcases hs : k.item with s | j <;> rw [hs] at hne
        · simp only [Option.some.injEq]
          exact ((hX i c hi k hk).2 s hs).1 _
        · simp only at hne ⊢
          obtain ⟨b, hb'⟩ := Option.ne_none_iff_exists'.mp hne
          rw [hb', Option.some.injEq]
          exact ih hb'
      constructor
      · rintro ⟨k, hm, h1⟩
        exact ⟨k, hm, (hk k hm (by rw [h1]; simp)).mp h1⟩
      · rintro ⟨k, hm, h1⟩
        by_contra hcon
        push Not at hcon
        -- then all daughters have been asked
        have hall : ∀ l : List Kid, (∀ x ∈ l, x ∈ c.kids) → (∃ r', anyM (itemContains h n p) l = some r') → ∀ x ∈ l, itemContains h n p x ≠ none := by
          intro l
          induction l with
          | nil => intro _ _ x hx; simp at hx
          | cons y l ihl =>
            intro hsub ⟨r', hr'⟩ x hx
            obtain ⟨b, hb', h'⟩ := Option.bind_eq_some_iff.mp hr'
            have hbf : b = false := by
              cases b
              · rfl
              · exact absurd hb' (hcon y (hsub y (by simp)))
            subst hbf
            rw [if_neg (by simp)] at h'
            rcases List.mem_cons.mp hx with rfl | hx
            · rw [hb']; simp
            · exact ihl (fun z hz => hsub z (by simp [hz])) ⟨r', h'⟩ x hx
        have := (hk k hm (hall c.kids (fun _ hx => hx) ⟨r, hr⟩ k hm)).mpr h1
        exact hcon k hm this
    · rw [if_neg hbox] at hr
      obtain rfl := Option.some.inj hr
      simp only [Bool.false_eq_true, false_iff]
      intro hp
      have hne : c.kids ≠ [] := by
        obtain ⟨k, hk, -⟩ := (inAsm_iff hT hi p).mp hp
        exact List.ne_nil_of_mem hk
      obtain ⟨m, hm⟩ := built_corners hb i c hi hne
      exact hbox (boxContains_of_margin (C189_extent hE hm hp))

/-- C189: and it comes to an end. -/
theorem C189_terminates {h : Heap} (hb : Built h) {i : Nat} {c : Cell} (hi : h i = some c) (p : V3) : ∃ n r, contains h n i p = some r := by
  have key : ∀ n i b p, extent h n i = some b → ∃ r, contains h n i p = some r := by
    intro n
    induction n with
    | zero => intro i b p hh; cases hh
    | succ n ih =>
      intro i b p hh
      have hh' := hh
      rw [extent_eq] at hh'
      obtain ⟨c, hi, -⟩ := Option.bind_eq_some_iff.mp hh'
      rw [contains_eq, hi]
      simp only [Option.bind_some]
      split
      · refine anyM_some _ (fun k hk => ?_)
        obtain ⟨e, he, -⟩ := extent_kid hh hi hk
        unfold itemContains
        unfold itemExtent at he
        rcases hs : k.item with s | j <;> rw [hs] at he
        · exact ⟨_, rfl⟩
        · exact ih j e _ he
      · exact ⟨_, rfl⟩
  by_cases hne : c.kids = []
  · refine ⟨1, ?_⟩
    rw [contains_eq, hi]
    simp only [Option.bind_some]
    rw [hne]
    split
    · exact ⟨_, rfl⟩
    · exact ⟨_, rfl⟩
  · obtain ⟨n, hn⟩ := built_corners hb i c hi hne
    exact ⟨n, key n i _ p hn⟩

end Assembly
end VecGeom
