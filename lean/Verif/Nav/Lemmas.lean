import Verif.Nav.Spec
import Verif.NavPath.Props

/-! Helper lemmas for locating points. -/

namespace VecGeom
namespace Nav
variable {V : Type}
open NavPath

theorem inVol_solid {g : NavGeom V} {v : V} {p : V3} (ha : g.isAssembly v = false) : InVol g v p ↔ g.contains v p = true := by
  constructor
  · intro h
    cases h with
    | solid _ h => exact h
    | assembly h => rw [ha] at h; cases h
  · exact InVol.solid ha

theorem inVol_assembly {g : NavGeom V} {v : V} {p : V3} (ha : g.isAssembly v = true) :
    InVol g v p ↔ g.box v p = true ∧ ∃ d ∈ g.daughters v, InVol g d ((g.trans d).transform p) := by
  constructor
  · intro h
    cases h with
    | solid h => rw [ha] at h; cases h
    | assembly _ h1 h2 h3 => exact ⟨h1, _, h2, h3⟩
  · rintro ⟨h1, d, h2, h3⟩
    exact InVol.assembly ha h1 h2 h3

theorem anyM_spec {α : Type} {f : α → Option Bool} {P : α → Prop} :
    ∀ l : List α, (∀ x ∈ l, ∃ b, f x = some b ∧ (b = true ↔ P x)) → ∃ b, anyM f l = some b ∧ (b = true ↔ ∃ x ∈ l, P x) := by
  intro l
  induction l with
  | nil => intro _; exact ⟨false, rfl, by simp⟩
  | cons x xs ih =>
    intro h
    obtain ⟨b, e, hb⟩ := h x (by simp)
    rw [anyM, e, Option.bind_some]
    cases b with
    | true => exact ⟨true, rfl, by simp [hb.mp rfl]⟩
    | false =>
      obtain ⟨b', e', hb'⟩ := ih (fun y hy => h y (by simp [hy]))
      refine ⟨b', by simpa using e', ?_⟩
      have : ¬ P x := fun hp => by simpa using hb.mpr hp
      rw [hb']
      simp [this]

theorem unplacedContains_spec {g : NavGeom V} {h : V → Nat} (hn : Nested g h) :
    ∀ (fuel : Nat) (v : V) (p : V3), h v < fuel → ∃ b, unplacedContains g fuel v p = some b ∧ (b = true ↔ InVol g v p) := by
  intro fuel
  induction fuel with
  | zero => intro v p hv; omega
  | succ fuel ih =>
    intro v p hv
    rw [unplacedContains]
    cases ha : g.isAssembly v with
    | false => exact ⟨g.contains v p, by simp, (inVol_solid ha).symm⟩
    | true =>
      rw [if_pos rfl]
      cases hb : g.box v p with
      | false => exact ⟨false, by simp, by rw [inVol_assembly ha, hb]; simp⟩
      | true =>
        rw [if_pos rfl]
        obtain ⟨b, e, hbb⟩ := anyM_spec (f := fun d => unplacedContains g fuel d ((g.trans d).transform p))
          (P := fun d => InVol g d ((g.trans d).transform p)) (g.daughters v)
          (fun d hd => ih d _ (by have := hn v d hd; omega))
        exact ⟨b, e, by rw [hbb, inVol_assembly ha, hb]; simp⟩

/-! ## Chains and descents -/

theorem Descent.append {g : NavGeom V} {skip : Option V} {v u w : V} {p q r : V3} {l m : List V}
    (h : Descent g skip v p l u q) (h' : Descent g skip u q m w r) : Descent g skip v p (l ++ m) w r := by
  induction h with
  | nil => exact h'
  | cons h1 h2 h3 h4 _ ih => exact .cons h1 h2 h3 h4 (ih h')

theorem Descent.chain {g : NavGeom V} {skip : Option V} {v u : V} {p q : V3} {l : List V} (h : Descent g skip v p l u q) :
    Chain g v p l u q := by
  induction h with
  | nil => exact .nil _ _
  | cons h1 _ _ _ _ ih => exact .cons (by rw [h1]; simp) ih

theorem Chain.height {g : NavGeom V} {h : V → Nat} (hn : Nested g h) {v u : V} {p q : V3} {l : List V} (hc : Chain g v p l u q) :
    h u + l.length ≤ h v := by
  induction hc with
  | nil => simp
  | cons hd _ ih =>
    have := hn _ _ hd
    simp only [List.length_cons]
    omega

theorem Chain.append {g : NavGeom V} {v u w : V} {p q r : V3} {l m : List V}
    (h : Chain g v p l u q) (h' : Chain g u q m w r) : Chain g v p (l ++ m) w r := by
  induction h with
  | nil => exact h'
  | cons h1 _ ih => exact .cons h1 (ih h')

theorem Chain.snoc {g : NavGeom V} {v u : V} {p q : V3} : ∀ {l : List V} {a : V}, Chain g v p (l ++ [a]) u q →
    a = u ∧ ∃ m x, Chain g v p l m x ∧ u ∈ g.daughters m ∧ q = (g.trans u).transform x := by
  intro l
  induction l generalizing v p with
  | nil =>
    intro a h
    cases h with
    | cons hd h' =>
      cases h'
      exact ⟨rfl, v, p, .nil _ _, hd, rfl⟩
  | cons b l ih =>
    intro a h
    cases h with
    | cons hd h' =>
      obtain ⟨e, m, x, h1, h2, h3⟩ := ih h'
      exact ⟨e, m, x, .cons hd h1, h2, h3⟩

theorem Chain.last {g : NavGeom V} {v u : V} {p q : V3} {l : List V} (h : Chain g v p l u q) : (v :: l).getLast? = some u := by
  induction h with
  | nil => rfl
  | cons _ _ ih => rw [List.getLast?_cons_cons]; exact ih

/-- A descent is determined by its end: two descents that cannot go on are equal. -/
theorem Descent.unique {g : NavGeom V} {skip : Option V} {v u u' : V} {p q q' : V3} {l l' : List V}
    (h : Descent g skip v p l u q) (hd : Deepest g skip u q) (h' : Descent g skip v p l' u' q') (hd' : Deepest g skip u' q') :
    l = l' ∧ u = u' ∧ q = q' := by
  induction h generalizing l' with
  | nil v p =>
    cases h' with
    | nil => exact ⟨rfl, rfl, rfl⟩
    | cons h1 h2 h3 _ _ => exact absurd h3 (hd _ (by rw [h1]; simp) h2)
  | @cons v d u p q l pre post h1 h2 h3 h4 h5 ih =>
    cases h' with
    | nil => exact absurd h3 (hd' _ (by rw [h1]; simp) h2)
    | @cons _ d' _ _ _ m pre' post' k1 k2 k3 k4 k5 =>
      have hdd : d = d' := by
        rw [h1] at k1
        rcases List.append_eq_append_iff.mp k1 with ⟨c, e1, e2⟩ | ⟨c, e1, e2⟩
        · cases c with
          | nil => simp at e2; exact e2.1
          | cons x xs =>
            simp only [List.cons_append, List.cons.injEq] at e2
            have : d ∈ pre' := by rw [e1, e2.1]; simp
            exact absurd h3 (k4 d this h2)
        · cases c with
          | nil => simp at e2; exact e2.1.symm
          | cons x xs =>
            simp only [List.cons_append, List.cons.injEq] at e2
            have : d' ∈ pre := by rw [e1, e2.1]; simp
            exact absurd k3 (h4 d' this k2)
      subst hdd
      obtain ⟨e1, e2, e3⟩ := ih hd k5
      exact ⟨by rw [e1], e2, e3⟩

/-! ## The level locator -/

/-- What a state looks like apart from the path. -/
def Same (s s' : NavPath V) : Prop :=
  s'.slots.length = s.slots.length ∧ s'.onBoundary = s.onBoundary ∧ s'.fN = s.fN

theorem Same.refl (s : NavPath V) : Same s s := ⟨rfl, rfl, rfl⟩
theorem Same.trans {s t u : NavPath V} (h : Same s t) (h' : Same t u) : Same s u :=
  ⟨h'.1.trans h.1, h'.2.1.trans h.2.1, h'.2.2.trans h.2.2⟩

theorem push_same {s : NavPath V} {l : List V} (h : Repr s l) (v : V) (hl : l.length < s.slots.length) (hb : l.length < 255) :
    ∃ s', s.push v = some s' ∧ Repr s' (l ++ [v]) ∧ Same s s' := by
  obtain ⟨s', e, h1, h2, h3⟩ := h.push v hl hb
  refine ⟨s', e, h1, h2, h3, ?_⟩
  unfold NavPath.push at e
  split at e
  · cases e; rfl
  · cases e

theorem pop_same {s : NavPath V} {l : List V} (h : Repr s l) : Repr s.pop l.dropLast ∧ Same s s.pop := by
  obtain ⟨h1, h2, h3⟩ := h.pop
  refine ⟨h1, by rw [h2], h3, ?_⟩
  unfold NavPath.pop
  split <;> rfl

theorem firstM_spec {g : NavGeom V} {p : V3} {l0 : List V} {check : V → NavPath V → Option (NavPath V × Option V3)} {s0 : NavPath V}
    {ok : V → List V → V3 → Prop} {P : V → Prop}
    (hcheck : ∀ d, P d → ∀ s, Repr s l0 → Same s0 s → ∃ s' r, check d s = some (s', r) ∧ Same s0 s' ∧
      (r = none → Repr s' l0 ∧ ¬ InVol g d ((g.trans d).transform p)) ∧
      (∀ q, r = some q → InVol g d ((g.trans d).transform p) ∧ ∃ l, Repr s' (l0 ++ d :: l) ∧ ok d l q)) :
    ∀ (ds : List V), (∀ d ∈ ds, P d) → ∀ s, Repr s l0 → Same s0 s →
    ∃ s' r, firstM check ds s = some (s', r) ∧ Same s0 s' ∧
      (r = none → Repr s' l0 ∧ ∀ d ∈ ds, ¬ InVol g d ((g.trans d).transform p)) ∧
      (∀ q, r = some q → ∃ pre d post l, ds = pre ++ d :: post ∧ InVol g d ((g.trans d).transform p) ∧
        (∀ d' ∈ pre, ¬ InVol g d' ((g.trans d').transform p)) ∧ Repr s' (l0 ++ d :: l) ∧ ok d l q) := by
  intro ds
  induction ds with
  | nil => intro _ s hs h0; exact ⟨s, none, rfl, h0, fun _ => ⟨hs, by simp⟩, by simp⟩
  | cons d ds ih =>
    intro hP s hs h0
    obtain ⟨s1, r1, e1, h1, hnone, hsome⟩ := hcheck d (hP d (by simp)) s hs h0
    rw [firstM, e1, Option.bind_some]
    cases r1 with
    | some q =>
      refine ⟨s1, some q, rfl, h1, by simp, ?_⟩
      intro q' hq'
      obtain ⟨a1, l, a2, a3⟩ := hsome q' hq'
      exact ⟨[], d, ds, l, rfl, a1, by simp, a2, a3⟩
    | none =>
      obtain ⟨k1, k2⟩ := hnone rfl
      obtain ⟨s2, r2, e2, h2, hn2, hs2⟩ := ih (fun x hx => hP x (by simp [hx])) s1 k1 h1
      refine ⟨s2, r2, e2, h2, ?_, ?_⟩
      · intro hr
        obtain ⟨b1, b2⟩ := hn2 hr
        refine ⟨b1, ?_⟩
        intro x hx
        rcases List.mem_cons.mp hx with rfl | hx
        · exact k2
        · exact b2 x hx
      · intro q hq
        obtain ⟨pre, d', post, l, c1, c2, c3, c4, c5⟩ := hs2 q hq
        refine ⟨d :: pre, d', post, l, by rw [c1]; rfl, c2, ?_, c4, c5⟩
        intro x hx
        rcases List.mem_cons.mp hx with rfl | hx
        · exact k2
        · exact c3 x hx

theorem levelLocate_spec {g : NavGeom V} {h : V → Nat} (hn : Nested g h) :
    ∀ (fuel : Nat) (v : V) (p : V3) (s : NavPath V) (l0 : List V), h v < fuel → Repr s l0 → l0.length + h v ≤ s.slots.length →
    l0.length + h v ≤ 255 →
    ∃ s' r, levelLocate g fuel v p s = some (s', r) ∧ Same s s' ∧
      (r = none → Repr s' l0 ∧ Deepest g none v p) ∧
      (∀ q, r = some q → ∃ l u, l ≠ [] ∧ Descent g none v p l u q ∧ g.isAssembly u = false ∧ Repr s' (l0 ++ l)) := by
  intro fuel
  induction fuel with
  | zero => intro v p s l0 hv; omega
  | succ fuel ih =>
    intro v p s l0 hv hr hcap hcap2
    have key := firstM_spec (g := g) (p := p) (l0 := l0) (check := checkCandidate g (levelLocate g fuel) p) (s0 := s)
      (ok := fun d l q => ∃ u, Descent g none d ((g.trans d).transform p) l u q ∧ g.isAssembly u = false)
      (P := fun d => h d < h v) ?_ (g.daughters v) (fun d hd => hn v d hd) s hr (Same.refl s)
    · obtain ⟨s', r, e, hs, h1, h2⟩ := key
      refine ⟨s', r, e, hs, fun hr' => ⟨(h1 hr').1, fun d hd _ => (h1 hr').2 d hd⟩, ?_⟩
      intro q hq
      obtain ⟨pre, d, post, l, c1, c2, c3, c4, u, c5, c6⟩ := h2 q hq
      exact ⟨d :: l, u, by simp, .cons c1 (by simp) c2 (fun d' hd' _ => c3 d' hd') c5, c6, c4⟩
    · intro d hd s1 hr1 hs1
      have hlen := hs1.1
      unfold checkCandidate
      dsimp only
      cases ha : g.isAssembly d with
      | false =>
        simp only [Bool.false_eq_true, if_false]
        cases hc : g.contains d ((g.trans d).transform p) with
        | false =>
          refine ⟨s1, none, by simp, hs1, fun _ => ⟨hr1, ?_⟩, by simp⟩
          rw [inVol_solid ha, hc]
          simp
        | true =>
          obtain ⟨s2, e2, hr2, hs2⟩ := push_same hr1 d (by omega) (by omega)
          refine ⟨s2, some ((g.trans d).transform p), by simp [e2], hs1.trans hs2, by simp, ?_⟩
          intro q hq
          cases hq
          exact ⟨.solid ha hc, [], hr2, d, .nil _ _, ha⟩
      | true =>
        simp only [if_true]
        obtain ⟨s2, e2, hr2, hs2⟩ := push_same hr1 d (by omega) (by omega)
        rw [e2, Option.bind_some]
        cases hb : g.box d ((g.trans d).transform p) with
        | false =>
          obtain ⟨hp1, hp2⟩ := pop_same hr2
          refine ⟨s2.pop, none, by simp, (hs1.trans hs2).trans hp2, fun _ => ⟨by simpa using hp1, ?_⟩, by simp⟩
          rw [inVol_assembly ha, hb]
          simp
        | true =>
          simp only [if_true]
          obtain ⟨s3, r3, e3, hs3, hn3, hsm3⟩ := ih d ((g.trans d).transform p) s2 (l0 ++ [d]) (by omega) hr2
            (by have := hs2.1; simp only [List.length_append, List.length_singleton]; omega)
            (by simp only [List.length_append, List.length_singleton]; omega)
          rw [e3, Option.map_some]
          cases r3 with
          | none =>
            obtain ⟨k1, k2⟩ := hn3 rfl
            obtain ⟨hp1, hp2⟩ := pop_same k1
            refine ⟨s3.pop, none, rfl, ((hs1.trans hs2).trans hs3).trans hp2, fun _ => ⟨by simpa using hp1, ?_⟩, by simp⟩
            rw [inVol_assembly ha]
            rintro ⟨-, x, hx, hx2⟩
            exact k2 x hx (by simp) hx2
          | some q =>
            obtain ⟨l, u, c1, c2, c3, c4⟩ := hsm3 q rfl
            refine ⟨s3, some q, rfl, (hs1.trans hs2).trans hs3, by simp, ?_⟩
            intro q' hq'
            cases hq'
            refine ⟨?_, l, by simpa using c4, u, c2, c3⟩
            cases c2 with
            | nil => exact absurd rfl c1
            | cons d1 d2 d3 _ _ => exact .assembly ha hb (by rw [d1]; simp) d3

/-! ## The loops of the global locator -/

theorem locateLoop_spec [DecidableEq V] {g : NavGeom V} {h : V → Nat} (hn : Nested g h) (hloc : ∀ v, g.hasLocator v = true)
    (depth : Nat) :
    ∀ (fuel : Nat) (v : V) (p : V3) (s : NavPath V) (l0 : List V), h v < fuel → h v < depth → Repr s (l0 ++ [v]) →
    l0.length + 1 + h v ≤ s.slots.length → l0.length + 1 + h v ≤ 255 →
    ∃ s' l u q, locateLoop g depth fuel v p s = some s' ∧ Same s s' ∧ Descent g none v p l u q ∧ Deepest g none u q ∧
      (l ≠ [] → g.isAssembly u = false) ∧ Repr s' (l0 ++ v :: l) := by
  intro fuel
  induction fuel with
  | zero => intro v p s l0 hv; omega
  | succ fuel ih =>
    intro v p s l0 hv hdp hr hcap hcap2
    rw [locateLoop]
    by_cases hd : (g.daughters v).length > 0
    · rw [if_pos hd, if_pos (hloc v)]
      obtain ⟨s1, r, e1, hs1, hnone, hsome⟩ := levelLocate_spec hn depth v p s (l0 ++ [v]) hdp hr
        (by simp only [List.length_append, List.length_singleton]; omega)
        (by simp only [List.length_append, List.length_singleton]; omega)
      rw [e1, Option.bind_some]
      cases r with
      | none =>
        obtain ⟨k1, k2⟩ := hnone rfl
        exact ⟨s1, [], v, p, rfl, hs1, .nil _ _, k2, by simp, k1⟩
      | some q =>
        obtain ⟨l, u, c1, c2, c3, c4⟩ := hsome q rfl
        obtain ⟨l', a, rfl⟩ := List.eq_nil_or_concat l |>.resolve_left c1
        rw [List.concat_eq_append] at *
        obtain ⟨e, -⟩ := c2.chain.snoc
        subst e
        have htop := c4.top
        rw [← List.append_assoc, List.getLast?_concat] at htop
        simp only [htop, Option.bind_some]
        have hh := c2.chain.height hn
        simp only [List.length_append, List.length_singleton] at hh
        obtain ⟨s2, l2, u2, q2, e2, hs2, d2, d3, d4, d5⟩ := ih a q s1 ((l0 ++ [v]) ++ l') (by omega) (by omega)
          (by simpa using c4)
          (by have := hs1.1; simp only [List.length_append, List.length_singleton]; omega)
          (by simp only [List.length_append, List.length_singleton]; omega)
        refine ⟨s2, (l' ++ [a]) ++ l2, u2, q2, e2, hs1.trans hs2, c2.append d2, d3, ?_, by simpa using d5⟩
        intro _
        cases l2 with
        | nil => cases d2; exact c3
        | cons x xs => exact d4 (by simp)
    · rw [if_neg hd]
      refine ⟨s, [], v, p, rfl, Same.refl s, .nil _ _, ?_, by simp, hr⟩
      intro d hd'
      have := List.length_pos_of_mem hd'
      omega

theorem firstContaining_spec [DecidableEq V] {g : NavGeom V} {h : V → Nat} (hn : Nested g h) (depth : Nat) (skip : Option V) (p : V3) :
    ∀ ds : List V, (∀ d ∈ ds, h d < depth) →
    ∃ r, firstContaining g depth skip p ds = some r ∧
      (r = none → ∀ d ∈ ds, some d ≠ skip → ¬ InVol g d ((g.trans d).transform p)) ∧
      (∀ d q, r = some (d, q) → q = (g.trans d).transform p ∧ ∃ pre post, ds = pre ++ d :: post ∧ some d ≠ skip ∧
        InVol g d ((g.trans d).transform p) ∧ ∀ d' ∈ pre, some d' ≠ skip → ¬ InVol g d' ((g.trans d').transform p)) := by
  intro ds
  induction ds with
  | nil => intro _; exact ⟨none, rfl, by simp, by simp⟩
  | cons d ds ih =>
    intro hds
    obtain ⟨r, e, hnone, hsome⟩ := ih (fun x hx => hds x (by simp [hx]))
    have skipped : (some d ≠ skip → ¬ InVol g d ((g.trans d).transform p)) →
      (r = none → ∀ d' ∈ d :: ds, some d' ≠ skip → ¬ InVol g d' ((g.trans d').transform p)) ∧
      (∀ d' q, r = some (d', q) → q = (g.trans d').transform p ∧ ∃ pre post, d :: ds = pre ++ d' :: post ∧ some d' ≠ skip ∧
        InVol g d' ((g.trans d').transform p) ∧ ∀ d'' ∈ pre, some d'' ≠ skip → ¬ InVol g d'' ((g.trans d'').transform p)) := by
      intro hskip
      constructor
      · intro hr x hx
        rcases List.mem_cons.mp hx with rfl | hx
        · exact hskip
        · exact hnone hr x hx
      · intro d' q hr
        obtain ⟨a1, pre, post, a2, a3, a4, a5⟩ := hsome d' q hr
        refine ⟨a1, d :: pre, post, by rw [a2]; rfl, a3, a4, ?_⟩
        intro x hx
        rcases List.mem_cons.mp hx with rfl | hx
        · exact hskip
        · exact a5 x hx
    rw [firstContaining]
    by_cases hs : some d = skip
    · rw [if_pos hs]
      exact ⟨r, e, skipped (fun hne => absurd hs hne)⟩
    · rw [if_neg hs]
      obtain ⟨b, eb, hb⟩ := unplacedContains_spec hn depth d ((g.trans d).transform p) (hds d (by simp))
      rw [eb, Option.bind_some]
      cases b with
      | true =>
        refine ⟨some (d, (g.trans d).transform p), rfl, by simp, ?_⟩
        intro d' q hr
        cases hr
        exact ⟨rfl, [], ds, rfl, hs, hb.mp rfl, by simp⟩
      | false =>
        simp only [Bool.false_eq_true, if_false]
        exact ⟨r, e, skipped (fun _ hin => by simpa using hb.mpr hin)⟩

theorem locateExclLoop_spec [DecidableEq V] {g : NavGeom V} {h : V → Nat} (hn : Nested g h) (skip : Option V) (depth : Nat) :
    ∀ (fuel : Nat) (lv v : V) (p : V3) (s : NavPath V) (l0 : List V), h v < fuel → h v < depth →
    (g.hasLocator lv = true → lv = v) → Repr s (l0 ++ [v]) →
    l0.length + 1 + h v ≤ s.slots.length → l0.length + 1 + h v ≤ 255 →
    ∃ s' l u q, locateExclLoop g depth skip fuel lv v p s = some (s', u) ∧ Same s s' ∧ Descent g skip v p l u q ∧
      Deepest g skip u q ∧ Repr s' (l0 ++ v :: l) := by
  intro fuel
  induction fuel with
  | zero => intro lv v p s l0 hv; omega
  | succ fuel ih =>
    intro lv v p s l0 hv hdp hlv hr hcap hcap2
    rw [locateExclLoop]
    by_cases hd : (g.daughters v).length > 0
    · rw [if_pos hd]
      obtain ⟨r, e, hnone, hsome⟩ := firstContaining_spec hn depth skip p (g.daughters v)
        (fun d hd => by have := hn v d hd; omega)
      have step : ∀ lv' : V → V, (∀ d, g.hasLocator (lv' d) = true → lv' d = d) →
          ∃ s' l u q, ((firstContaining g depth skip p (g.daughters v)).bind fun r =>
            match r with
            | none => some (s, v)
            | some (d, q) => (s.push d).bind fun s => locateExclLoop g depth skip fuel (lv' d) d q s) = some (s', u) ∧
          Same s s' ∧ Descent g skip v p l u q ∧ Deepest g skip u q ∧ Repr s' (l0 ++ v :: l) := by
        intro lv' hlv'
        rw [e, Option.bind_some]
        cases r with
        | none => exact ⟨s, [], v, p, rfl, Same.refl s, .nil _ _, hnone rfl, hr⟩
        | some dq =>
          obtain ⟨d, q⟩ := dq
          obtain ⟨hq, pre, post, a1, a2, a3, a4⟩ := hsome d q rfl
          subst hq
          have hdm : d ∈ g.daughters v := by rw [a1]; simp
          have hh := hn v d hdm
          obtain ⟨s1, e1, hr1, hs1⟩ := push_same hr d (by simp only [List.length_append, List.length_singleton]; omega)
            (by simp only [List.length_append, List.length_singleton]; omega)
          obtain ⟨s2, l, u, q, e2, hs2, c1, c2, c3⟩ := ih (lv' d) d ((g.trans d).transform p) s1 (l0 ++ [v]) (by omega) (by omega)
            (hlv' d) hr1 (by have := hs1.1; simp only [List.length_append, List.length_singleton]; omega)
            (by simp only [List.length_append, List.length_singleton]; omega)
          refine ⟨s2, d :: l, u, q, by simp [e1, e2], hs1.trans hs2, .cons a1 a2 a3 a4 c1, c2, by simpa using c3⟩
      by_cases hl : g.hasLocator lv = true
      · rw [if_pos hl, hlv hl]
        exact step id (fun d _ => rfl)
      · rw [if_neg hl]
        exact step (fun _ => lv) (fun d h => absurd h hl)
    · rw [if_neg hd]
      refine ⟨s, [], v, p, rfl, Same.refl s, .nil _ _, ?_, hr⟩
      intro d hd'
      have := List.length_pos_of_mem hd'
      omega

/-! ## Going up -/

theorem Chain.proper {g : NavGeom V} {w v : V} {p x : V3} {l : List V} (hp : ProperAt g w p) (h : Chain g w p l v x) :
    ProperAt g v x := fun _ _ _ h' => hp _ _ _ (h.append h')

/-- In a proper geometry a chain to a volume containing the point is a descent, and the start contains the point. -/
theorem Chain.descent [DecidableEq V] {g : NavGeom V} {w v : V} {p x : V3} {l : List V} (hp : ProperAt g w p) (h : Chain g w p l v x)
    (hin : InVol g v x) : InVol g w p ∧ Descent g none w p l v x := by
  induction h with
  | nil => exact ⟨hin, .nil _ _⟩
  | @cons w d u p q l hd h' ih =>
    have hp' : ProperAt g d ((g.trans d).transform p) := Chain.proper hp (.cons hd (.nil _ _))
    obtain ⟨h1, h2⟩ := ih hp' hin
    obtain ⟨k1, k2⟩ := hp [] w p (.nil _ _)
    obtain ⟨pre, post, e, hpre⟩ : ∃ xs ys, g.daughters w = xs ++ d :: ys ∧ d ∉ xs := List.eq_append_cons_of_mem hd
    refine ⟨k1 d hd h1, .cons e (by simp) h1 ?_ h2⟩
    intro d' hd' _ hin'
    have : d' = d := k2 d' (by rw [e]; simp [hd']) d hd hin' h1
    exact hpre (this ▸ hd')

/-- The volume is left by the upward loop: it is `leave`, an assembly, or does not contain the point. -/
def Left (g : NavGeom V) (leave : Option V) (v : V) (x : V3) : Prop :=
  some v = leave ∨ g.isAssembly v = true ∨ ¬ InVol g v x

theorem upLoop_spec [DecidableEq V] {g : NavGeom V} {h : V → Nat} (hn : Nested g h) (hort : ∀ v, (g.trans v).Orthonormal) (depth : Nat)
    (leave : Option V) (w : V) (pg : V3) :
    ∀ (fuel : Nat) (l : List V) (u : V) (q : V3) (s : NavPath V), l.length < fuel → h w < depth → Repr s (w :: l) →
    Chain g w pg l u q →
    ∃ s' r, upLoop g depth leave fuel u q s = some (s', r) ∧ Same s s' ∧
      (r = none → Repr s' [] ∧ ∀ l1 l2 v x, l = l1 ++ l2 → Chain g w pg l1 v x → Left g leave v x) ∧
      (∀ v x, r = some (v, x) → ¬ Left g leave v x ∧ ∃ l1 l2, l = l1 ++ l2 ∧ Chain g w pg l1 v x ∧ Repr s' (w :: l1) ∧
        ∀ m1 m2 m y, l = m1 ++ m2 → l1.length < m1.length → Chain g w pg m1 m y → Left g leave m y) := by
  intro fuel
  induction fuel with
  | zero => intro l u q s hl; omega
  | succ fuel ih =>
    intro l u q s hl hdp hr hc
    rw [upLoop]
    have hout : ∃ b, (if some u = leave then some true
        else if g.isAssembly u then some true
        else (unplacedContains g depth u q).map (!·)) = some b ∧ (b = true ↔ Left g leave u q) := by
      by_cases h1 : some u = leave
      · exact ⟨true, by rw [if_pos h1], by simp [Left, h1]⟩
      · rw [if_neg h1]
        by_cases h2 : g.isAssembly u = true
        · exact ⟨true, by rw [if_pos h2], by simp [Left, h2]⟩
        · obtain ⟨b, e, hb⟩ := unplacedContains_spec hn depth u q (by have := hc.height hn; omega)
          refine ⟨!b, by rw [if_neg h2, e, Option.map_some], ?_⟩
          cases b <;> simp_all [Left]
    obtain ⟨b, eb, hb⟩ := hout
    rw [eb, Option.bind_some]
    -- chains with the same list end at the same place
    have det : ∀ {l : List V} {v v' : V} {x x' : V3} {w : V} {pg : V3}, Chain g w pg l v x → Chain g w pg l v' x' → v = v' ∧ x = x' := by
      intro l
      induction l with
      | nil => intro _ _ _ _ _ _ a b; cases a; cases b; exact ⟨rfl, rfl⟩
      | cons d l ihl => intro _ _ _ _ _ _ a b; cases a with | cons _ a => cases b with | cons _ b => exact ihl a b
    cases b with
    | false =>
      have hnl : ¬ Left g leave u q := fun hh => by simpa using hb.mpr hh
      refine ⟨s, some (u, q), by simp, Same.refl s, by simp, ?_⟩
      intro v x hvx
      cases hvx
      refine ⟨hnl, l, [], by simp, hc, hr, ?_⟩
      intro m1 m2 m y e hlen
      have := congrArg List.length e
      simp at this
      omega
    | true =>
      have hl' : Left g leave u q := hb.mp rfl
      obtain ⟨hp1, hp2⟩ := pop_same hr
      simp only [if_true]
      rcases List.eq_nil_or_concat l with rfl | ⟨l', a, rfl⟩
      · have htop := hp1.top
        simp only [htop]
        refine ⟨s.pop, none, by simp, hp2, fun _ => ⟨by simpa using hp1, ?_⟩, by simp⟩
        intro l1 l2 v x e hcv
        have : l1 = [] := by simpa using congrArg (fun z => z) (List.append_eq_nil_iff.mp e.symm).1
        subst this
        obtain ⟨rfl, rfl⟩ := det hc hcv
        exact hl'
      · rw [List.concat_eq_append] at *
        obtain ⟨e, m, x, hm, hmem, hq⟩ := hc.snoc
        subst e
        have hlast := hm.last
        have hp1' : Repr s.pop (w :: l') := by
          have : (w :: (l' ++ [a])).dropLast = w :: l' := by
            rw [← List.cons_append, List.dropLast_append_cons]; simp
          rw [this] at hp1
          exact hp1
        have htop := hp1'.top
        rw [hlast] at htop
        simp only [htop, Option.bind_some]
        have hx : (g.trans a).inverseTransform q = x := by
          rw [hq]
          exact Trans3.C23_point_roundtrip_master (hort a) x
        rw [hx]
        obtain ⟨s', r, e', hs', hnone, hsome⟩ := ih l' m x s.pop (by simp at hl; omega) hdp hp1' hm
        refine ⟨s', r, e', hp2.trans hs', ?_, ?_⟩
        · intro hr'
          obtain ⟨b1, b2⟩ := hnone hr'
          refine ⟨b1, ?_⟩
          intro l1 l2 v y e hcv
          rcases List.eq_nil_or_concat l2 with rfl | ⟨l2', c, rfl⟩
          · rw [List.append_nil] at e
            subst e
            obtain ⟨rfl, rfl⟩ := det hc hcv
            exact hl'
          · rw [List.concat_eq_append, ← List.append_assoc] at e
            exact b2 l1 l2' v y (List.append_inj_left' e rfl) hcv
        · intro v y hvy
          obtain ⟨b1, l1, l2, b2, b3, b4, b5⟩ := hsome v y hvy
          refine ⟨b1, l1, l2 ++ [a], by rw [b2]; simp, b3, b4, ?_⟩
          intro m1 m2 m' y' e hlen hcm
          rcases List.eq_nil_or_concat m2 with rfl | ⟨m2', c, rfl⟩
          · rw [List.append_nil] at e
            subst e
            obtain ⟨rfl, rfl⟩ := det hc hcm
            exact hl'
          · rw [List.concat_eq_append, ← List.append_assoc] at e
            exact b5 m1 m2' m' y' (List.append_inj_left' e rfl) hlen hcm

end Nav
end VecGeom
