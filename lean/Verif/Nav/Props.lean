import Verif.Nav.Lemmas

/-!
# Properties of locating and relocating points (C40, C41)
-/

namespace VecGeom
namespace Nav
variable {V : Type}
open NavPath

/-! ## A concrete geometry

World `0` (|x| < 100) with daughter `1` at x = 10 (|x| < 5), which holds `3` (|x| < 2), and the assembly `2` at x = -10 of
one volume `4` at x = 1 (|x| < 3). -/

open Classical in
/-- The example geometry; `loc` says whether the level locators are set. -/
noncomputable def demo (loc : Bool) : NavGeom Nat where
  daughters v := match v with
    | 0 => [1, 2]
    | 1 => [3]
    | 2 => [4]
    | _ => []
  trans v := match v with
    | 1 => .ofTranslation 10 0 0
    | 2 => .ofTranslation (-10) 0 0
    | 4 => .ofTranslation 1 0 0
    | _ => .ofTranslation 0 0 0
  contains v p := match v with
    | 0 => decide (|p.x| < 100)
    | 1 => decide (|p.x| < 5)
    | 3 => decide (|p.x| < 2)
    | 4 => decide (|p.x| < 3)
    | _ => false
  isAssembly v := v == 2
  box _ p := decide (|p.x| < 4)
  hasLocator _ := loc

def demoHeight (v : Nat) : Nat := match v with
  | 0 => 2
  | 1 => 1
  | 2 => 1
  | _ => 0

theorem demo_nested (loc : Bool) : Nested (demo loc) demoHeight := by
  intro v d hd
  match v, hd with
  | 0, hd =>
    simp only [demo, List.mem_cons, List.not_mem_nil, or_false] at hd
    rcases hd with rfl | rfl <;> decide
  | 1, hd => simp only [demo, List.mem_cons, List.not_mem_nil, or_false] at hd; subst hd; decide
  | 2, hd => simp only [demo, List.mem_cons, List.not_mem_nil, or_false] at hd; subst hd; decide
  | n + 3, hd => simp [demo] at hd

theorem demo_flags (loc : Bool) (v : Nat) : ((demo loc).trans v).FlagsOk := by
  match v with
  | 0 => exact Trans3.C24_translation_flags _ _ _
  | 1 => exact Trans3.C24_translation_flags _ _ _
  | 2 => exact Trans3.C24_translation_flags _ _ _
  | 3 => exact Trans3.C24_translation_flags _ _ _
  | 4 => exact Trans3.C24_translation_flags _ _ _
  | n + 5 => exact Trans3.C24_translation_flags _ _ _

theorem demo_orthonormal (loc : Bool) (v : Nat) : ((demo loc).trans v).Orthonormal := by
  match v with
  | 0 => exact (Trans3.C23_translation _ _ _ 0).1
  | 1 => exact (Trans3.C23_translation _ _ _ 0).1
  | 2 => exact (Trans3.C23_translation _ _ _ 0).1
  | 3 => exact (Trans3.C23_translation _ _ _ 0).1
  | 4 => exact (Trans3.C23_translation _ _ _ 0).1
  | n + 5 => exact (Trans3.C23_translation _ _ _ 0).1

/-- A state with room for `n` placements holding the list `l`. -/
theorem repr_of (n : Nat) (l : List V) (h1 : l.length ≤ n + 1) (h2 : l.length < 256) :
    ∃ s : NavPath V, Repr s l ∧ s.slots.length = n + 1 ∧ s.fN = n + 1 := by
  refine ⟨⟨l.map some ++ List.replicate (n + 1 - l.length) none, n + 1, l.length, -1, false⟩, ⟨rfl, ?_, h2⟩, ?_, rfl⟩
  · simp
  · simp
    omega

/-! ## C40: locating a point -/

/-- C40: locating a point in a volume (`top` says whether the volume itself is tested).  For every nested geometry whose volumes have the
default level locators and every state with room for the depth of the volume, the function is defined.  If the volume has to be tested and
does not contain the point, the path is unchanged and no volume is returned.  Otherwise the path is extended by the volume and by a
descent to the first containing daughter at each level; the volume returned is the last one, none of its daughters contains the
point, and it is not an assembly (unless nothing was found below an assembly the search started with). -/
theorem C40_locate [DecidableEq V] {g : NavGeom V} {h : V → Nat} (hn : Nested g h) (hloc : ∀ v, g.hasLocator v = true) {fuel : Nat}
    {w : V} (hfuel : h w < fuel) (p : V3) {s : NavPath V} {l0 : List V} (hr : Repr s l0)
    (hroom : l0.length + h w < s.slots.length) (hroom2 : l0.length + h w < 255) (top : Bool) :
    ∃ s' r, locateGlobalPoint g fuel w p s top = some (s', r) ∧ Same s s' ∧
      ((top = true ∧ ¬ InVol g w p) → r = none ∧ Repr s' l0) ∧
      (¬ (top = true ∧ ¬ InVol g w p) → ∃ l u q, r = some u ∧ Repr s' (l0 ++ w :: l) ∧ Descent g none w p l u q ∧
        (∀ d ∈ g.daughters u, ¬ InVol g d ((g.trans d).transform q)) ∧ (l ≠ [] → g.isAssembly u = false)) := by
  have go : ∃ s' l u q, ((s.push w).bind fun s => (locateLoop g fuel fuel w p s).bind fun s => s.top.map fun t => (s, t)) =
      some (s', some u) ∧ Same s s' ∧ Repr s' (l0 ++ w :: l) ∧ Descent g none w p l u q ∧
        (∀ d ∈ g.daughters u, ¬ InVol g d ((g.trans d).transform q)) ∧ (l ≠ [] → g.isAssembly u = false) := by
    obtain ⟨s1, e1, hr1, hs1⟩ := push_same hr w (by omega) (by omega)
    obtain ⟨s2, l, u, q, e2, hs2, c1, c2, c3, c4⟩ := locateLoop_spec hn hloc fuel fuel w p s1 l0 hfuel hfuel hr1
      (by have := hs1.1; omega) (by omega)
    refine ⟨s2, l, u, q, ?_, hs1.trans hs2, c4, c1, fun d hd => c2 d hd (by simp), c3⟩
    have hlast := c1.chain.last
    have htop := c4.top
    rw [List.getLast?_append_of_ne_nil _ (by simp), hlast] at htop
    rw [e1, Option.bind_some, e2, Option.bind_some, htop]
    rfl
  unfold locateGlobalPoint
  cases top with
  | false =>
    obtain ⟨s', l, u, q, e, c0, c1, c2, c3, c4⟩ := go
    refine ⟨s', some u, by simpa using e, c0, by simp, fun _ => ⟨l, u, q, rfl, c1, c2, c3, c4⟩⟩
  | true =>
    obtain ⟨b, eb, hb⟩ := unplacedContains_spec hn fuel w p hfuel
    rw [if_pos rfl, eb, Option.bind_some]
    cases b with
    | false =>
      have : ¬ InVol g w p := fun hin => by simpa using hb.mpr hin
      exact ⟨s, none, rfl, Same.refl s, fun _ => ⟨rfl, hr⟩, fun hh => absurd ⟨rfl, this⟩ hh⟩
    | true =>
      obtain ⟨s', l, u, q, e, c0, c1, c2, c3, c4⟩ := go
      exact ⟨s', some u, e, c0, fun hh => absurd (hb.mp rfl) hh.2, fun _ => ⟨l, u, q, rfl, c1, c2, c3, c4⟩⟩

/-- C40: the volumes of the path contain the point, each in its own frame. -/
theorem C40_contains {g : NavGeom V} {w u : V} {p q : V3} {l : List V} (h : Descent g none w p l u q) :
    ∀ l1 l2, l = l1 ++ l2 → l1 ≠ [] → ∃ v x, Chain g w p l1 v x ∧ InVol g v x := by
  induction h with
  | nil => intro l1 l2 e hne; cases l1 <;> simp_all
  | @cons v d u p q l pre post h1 h2 h3 h4 h5 ih =>
    intro l1 l2 e hne
    cases l1 with
    | nil => exact absurd rfl hne
    | cons a l1 =>
      simp only [List.cons_append, List.cons.injEq] at e
      obtain ⟨rfl, e⟩ := e
      have hd : d ∈ g.daughters v := by rw [h1]; simp
      rcases List.eq_nil_or_concat l1 with rfl | ⟨l', b, rfl⟩
      · exact ⟨d, _, .cons hd (.nil _ _), h3⟩
      · obtain ⟨y, x, k1, k2⟩ := ih (l'.concat b) l2 e (by simp)
        exact ⟨y, x, .cons hd k1, k2⟩

/-- C40: in a geometry without overlaps at the point, any chain of containing volumes that cannot be continued is the path found. -/
theorem C40_unique [DecidableEq V] {g : NavGeom V} {w u u' : V} {p q q' : V3} {l l' : List V} (hp : ProperAt g w p)
    (h : Descent g none w p l u q) (hd : ∀ d ∈ g.daughters u, ¬ InVol g d ((g.trans d).transform q))
    (h' : Chain g w p l' u' q') (hin : InVol g u' q') (hd' : ∀ d ∈ g.daughters u', ¬ InVol g d ((g.trans d).transform q')) :
    l' = l ∧ u' = u ∧ q' = q :=
  (h'.descent hp hin).2.unique (fun d a _ => hd' d a) h (fun d a _ => hd d a)

theorem trans_x (a : ℝ) (p : V3) : ((Trans3.ofTranslation a 0 0).transform p).x = p.x - a := by
  rw [(Trans3.C23_translation a 0 0 p).2.2]

/-- The example: a point in the assembly is found in the volume inside the assembly. -/
example : ∃ (s : NavPath Nat) (s' : NavPath Nat), Repr s [] ∧
    locateGlobalPoint (demo true) 3 0 ⟨-10, 0, 0⟩ s true = some (s', some 4) ∧ Repr s' [0, 2, 4] := by
  obtain ⟨s, hr, hlen, -⟩ := repr_of (V := Nat) 5 [] (by simp) (by simp)
  obtain ⟨s', r, e, -, -, h2⟩ := C40_locate (demo_nested true) (fun _ => rfl) (fuel := 3) (w := 0) (by decide) ⟨-10, 0, 0⟩ hr
    (by rw [hlen]; decide) (by decide) true
  have w0 : InVol (demo true) 0 ⟨-10, 0, 0⟩ := .solid rfl (by simp [demo]; norm_num [abs_lt])
  have w1 : ¬ InVol (demo true) 1 (((demo true).trans 1).transform ⟨-10, 0, 0⟩) := by
    rw [inVol_solid rfl]
    simp only [demo, trans_x]
    norm_num [abs_lt]
  have w4 : InVol (demo true) 4 (((demo true).trans 4).transform (((demo true).trans 2).transform ⟨-10, 0, 0⟩)) := by
    refine .solid rfl ?_
    simp only [demo, trans_x]
    norm_num [abs_lt]
  have w2 : InVol (demo true) 2 (((demo true).trans 2).transform ⟨-10, 0, 0⟩) := by
    refine .assembly (d := 4) rfl ?_ (by simp [demo]) w4
    simp only [demo, trans_x]
    norm_num [abs_lt]
  obtain ⟨l, u, q, hr', hrep, hdesc, hdeep, hass⟩ := h2 (fun hh => hh.2 w0)
  have expect : Descent (demo true) none 0 ⟨-10, 0, 0⟩ [2, 4] 4
      (((demo true).trans 4).transform (((demo true).trans 2).transform ⟨-10, 0, 0⟩)) := by
    refine .cons (pre := [1]) (post := []) rfl (by simp) w2 ?_ (.cons (pre := []) (post := []) rfl (by simp) w4 (by simp) (.nil _ _))
    intro d' hd' _
    simp only [List.mem_singleton] at hd'
    subst hd'
    exact w1
  obtain ⟨rfl, rfl, rfl⟩ := hdesc.unique (fun d a _ => hdeep d a) expect (fun d a => by simp [demo] at a)
  exact ⟨s, s', hr, by rw [e, hr'], by simpa using hrep⟩

/-- C40: without level locators the search stops one level below the start, although a deeper volume contains the point. -/
theorem C40_no_locator_counterexample :
    ∃ (s : NavPath Nat) (s' : NavPath Nat), Repr s [] ∧ s.slots.length = 6 ∧
      locateGlobalPoint (demo false) 3 0 ⟨10, 0, 0⟩ s true = some (s', some 1) ∧ Repr s' [0, 1] ∧
      InVol (demo false) 3 (((demo false).trans 3).transform (((demo false).trans 1).transform ⟨10, 0, 0⟩)) := by
  obtain ⟨s, hr, hlen, -⟩ := repr_of (V := Nat) 5 [] (by simp) (by simp)
  obtain ⟨s1, e1, hr1, hs1⟩ := push_same hr 0 (by rw [hlen]; decide) (by decide)
  obtain ⟨s2, e2, hr2, hs2⟩ := push_same hr1 1 (by rw [hs1.1, hlen]; decide) (by decide)
  refine ⟨s, s2, hr, hlen, ?_, hr2, ?_⟩
  · have c0 : unplacedContains (demo false) 3 0 ⟨10, 0, 0⟩ = some true := by
      simp [unplacedContains, demo]; norm_num [abs_lt]
    have c1 : firstContaining (demo false) 3 none ⟨10, 0, 0⟩ ((demo false).daughters 0) =
        some (some (1, ((demo false).trans 1).transform ⟨10, 0, 0⟩)) := by
      rw [show (demo false).daughters 0 = [1, 2] from rfl, firstContaining, if_neg (by simp)]
      have : unplacedContains (demo false) 3 1 (((demo false).trans 1).transform ⟨10, 0, 0⟩) = some true := by
        rw [unplacedContains, if_neg (by simp [demo])]
        congr 1
        simp only [demo, trans_x]
        norm_num [abs_lt]
      rw [this]
      rfl
    have c2 : locateLoop (demo false) 3 3 0 ⟨10, 0, 0⟩ s1 = some s2 := by
      rw [locateLoop, if_pos (by decide), if_neg (by simp [demo]), c1]
      exact e2
    have htop := hr2.top
    unfold locateGlobalPoint
    rw [if_pos rfl, c0, Option.bind_some, if_pos rfl, e1, Option.bind_some, c2, Option.bind_some, htop]
    rfl
  · refine .solid rfl ?_
    simp only [demo, trans_x]
    norm_num [abs_lt]

/-! ## C41: relocation -/

/-- C41: relocating from a stale path.  The path `w :: l` is a chain of placements, `q` the point in the frame of its last volume, `pg` the
same point in the frame of the world `w` (which is not an assembly).  If at this point daughters lie in their mothers and do not
overlap, the path and the volume are those found by locating the point from the world. -/
theorem C41_relocate [DecidableEq V] {g : NavGeom V} {h : V → Nat} (hn : Nested g h) (hloc : ∀ v, g.hasLocator v = true)
    (hort : ∀ v, (g.trans v).Orthonormal) {fuel : Nat} {w u : V} (hfuel : h w < fuel) (hw : g.isAssembly w = false)
    {pg q : V3} {l : List V} (hc : Chain g w pg l u q) (hp : ProperAt g w pg) {s e : NavPath V} (hr : Repr s (w :: l))
    (hroom : h w < s.slots.length) (he : Repr e []) (hroome : h w < e.slots.length) (hdepth : h w < 255) :
    ∃ s' e' path r, relocatePointFromPath g fuel q s = some (s', r) ∧ locateGlobalPoint g fuel w pg e true = some (e', r) ∧
      Repr s' path ∧ Repr e' path ∧ Same s s' := by
  obtain ⟨e', r, ee, -, hout, hin⟩ := C40_locate hn hloc hfuel pg he (by simpa using hroome) (by simpa using hdepth) true
  have hlen := hc.height hn
  obtain ⟨s1, r1, e1, hs1, hnone, hsome⟩ := upLoop_spec hn hort fuel none w pg fuel l u q s (by omega) hfuel hr hc
  have htop := hr.top
  rw [hc.last] at htop
  have eq1 : ∀ s1 r1, upLoop g fuel none fuel u q s = some (s1, r1) → relocatePointFromPath g fuel q s = (match r1 with
      | none => some (s1, none)
      | some (u, q) => locateGlobalPoint g fuel u q s1.pop false) := by
    intro s1 r1 e1
    unfold relocatePointFromPath
    rw [htop, Option.bind_some]
    dsimp only
    rw [e1, Option.bind_some]
    all_goals (cases r1 <;> rfl)
  rw [eq1 s1 r1 e1]
  cases r1 with
  | none =>
    obtain ⟨k1, k2⟩ := hnone rfl
    have hw' : ¬ InVol g w pg := by
      rcases k2 [] l w pg rfl (.nil _ _) with h1 | h1 | h1
      · cases h1
      · rw [hw] at h1; cases h1
      · exact h1
    obtain ⟨rfl, he'⟩ := hout ⟨rfl, hw'⟩
    exact ⟨s1, e', [], none, rfl, ee, k1, he', hs1⟩
  | some vx =>
    obtain ⟨v, x⟩ := vx
    obtain ⟨hnl, l1, l2, el, hcv, hr1, -⟩ := hsome v x rfl
    have hin' : InVol g v x := by
      by_contra hno
      exact hnl (Or.inr (Or.inr hno))
    obtain ⟨hwin, hdesc1⟩ := hcv.descent hp hin'
    obtain ⟨l', u', q', hr', hrep', hd', hdeep', -⟩ := hin (fun hh => hh.2 hwin)
    have hcvh := hcv.height hn
    obtain ⟨hp1, hp2⟩ := pop_same hr1
    have hdl : (w :: l1).dropLast.length = l1.length := by simp
    obtain ⟨s2, r2, e2, hs2, -, h2⟩ := C40_locate hn hloc (w := v) (fuel := fuel) (by omega) x hp1
      (by have := hs1.1; have := hp2.1; rw [hdl]; omega) (by rw [hdl]; omega) false
    obtain ⟨l3, u3, q3, hr3, hrep3, hd3, hdeep3, -⟩ := h2 (by simp)
    obtain ⟨e4, e5, e6⟩ := (hdesc1.append hd3).unique (fun d a _ => hdeep3 d a) hd' (fun d a _ => hdeep' d a)
    have hpath : (w :: l1).dropLast ++ v :: l3 = w :: l' := by
      have := hcv.last
      have h3 : (w :: l1).dropLast ++ [v] = w :: l1 := by
        rw [List.getLast?_eq_some_iff] at this
        obtain ⟨ys, hys⟩ := this
        rw [hys]; simp
      rw [← e4, ← List.cons_append, ← h3]
      simp
    refine ⟨s2, e', w :: l', r2, ?_, ?_, ?_, hrep', (hs1.trans hp2).trans hs2⟩
    · exact e2
    · rw [ee, hr', hr3, e5]
    · rw [← hpath]; exact hrep3

/-- The example geometry is proper at the points with 5 < x < 15. -/
theorem demo_proper (p : V3) (h1 : 5 < p.x) (h2 : p.x < 15) : ProperAt (demo true) 0 p := by
  -- membership of the daughters in each frame
  have n2 : ¬ InVol (demo true) 2 (((demo true).trans 2).transform p) := by
    rw [inVol_assembly rfl]
    rintro ⟨hb, -⟩
    simp only [demo, trans_x, decide_eq_true_eq, abs_lt] at hb
    linarith [hb.2]
  have n4 : ¬ InVol (demo true) 4 (((demo true).trans 4).transform (((demo true).trans 2).transform p)) := by
    rw [inVol_solid rfl]
    simp only [demo, trans_x, decide_eq_true_eq, abs_lt]
    intro hb
    linarith [hb.2]
  intro l v x hc
  cases hc with
  | nil =>
    constructor
    · intro d _ _
      refine .solid rfl ?_
      simp only [demo, decide_eq_true_eq, abs_lt]
      constructor <;> linarith
    · intro d hd d' hd' h1 h2
      simp only [demo, List.mem_cons, List.not_mem_nil, or_false] at hd hd'
      rcases hd with rfl | rfl <;> rcases hd' with rfl | rfl
      · rfl
      · exact absurd h2 n2
      · exact absurd h1 n2
      · rfl
  | cons hd hc =>
    simp only [demo, List.mem_cons, List.not_mem_nil, or_false] at hd
    rcases hd with rfl | rfl
    · cases hc with
      | nil =>
        constructor
        · intro d _ _
          refine .solid rfl ?_
          simp only [demo, trans_x, decide_eq_true_eq, abs_lt]
          constructor <;> linarith
        · intro d hd d' hd' _ _
          simp only [demo, List.mem_singleton] at hd hd'
          rw [hd, hd']
      | cons hd hc =>
        simp only [demo, List.mem_singleton] at hd
        subst hd
        cases hc with
        | nil => exact ⟨fun d hd => by simp [demo] at hd, fun d hd => by simp [demo] at hd⟩
        | cons hd => simp [demo] at hd
    · cases hc with
      | nil =>
        constructor
        · intro d hd hin
          simp only [demo, List.mem_singleton] at hd
          subst hd
          exact absurd hin n4
        · intro d hd d' hd' _ _
          simp only [demo, List.mem_singleton] at hd hd'
          rw [hd, hd']
      | cons hd hc =>
        simp only [demo, List.mem_singleton] at hd
        subst hd
        cases hc with
        | nil => exact ⟨fun d hd => by simp [demo] at hd, fun d hd => by simp [demo] at hd⟩
        | cons hd => simp [demo] at hd

/-- All hypotheses of the relocation theorem hold for the stale path world, assembly, volume 4. -/
example : Nested (demo true) demoHeight ∧ (∀ v, ((demo true).trans v).Orthonormal) ∧
    Chain (demo true) 0 ⟨10, 0, 0⟩ [2, 4] 4 (((demo true).trans 4).transform (((demo true).trans 2).transform ⟨10, 0, 0⟩)) ∧
    ProperAt (demo true) 0 ⟨10, 0, 0⟩ ∧ ∃ s : NavPath Nat, Repr s [0, 2, 4] ∧ s.slots.length = 6 := by
  obtain ⟨s, hr, hlen, -⟩ := repr_of (V := Nat) 5 [0, 2, 4] (by simp) (by simp)
  exact ⟨demo_nested true, demo_orthonormal true, .cons (by simp [demo]) (.cons (by simp [demo]) (.nil _ _)), demo_proper _ (by norm_num) (by norm_num), s, hr, hlen⟩

/-- C41: relocation that must leave the current volume `u`.  The current volume is left; the search goes up to the deepest other
volume of the path that is not an assembly and contains the point, and from there down to the first containing daughter that is not
`u`, as far as possible.  If no volume of the path qualifies, the state is outside. -/
theorem C41_force_different [DecidableEq V] {g : NavGeom V} {h : V → Nat} (hn : Nested g h)
    (hort : ∀ v, (g.trans v).Orthonormal) {fuel : Nat} {w u : V} (hfuel : h w < fuel)
    {pg q : V3} {l : List V} (hc : Chain g w pg l u q) {s : NavPath V} (hr : Repr s (w :: l))
    (hroom : h w < s.slots.length) (hdepth : h w < 255) :
    ∃ s' r, relocateForceDifferent g fuel q s = some (s', r) ∧ Same s s' ∧
      ((r = none ∧ Repr s' [] ∧ ∀ l1 l2 v x, l = l1 ++ l2 → Chain g w pg l1 v x → Left g (some u) v x) ∨
       ∃ l1 l2 v x l3 u' q', l = l1 ++ l2 ∧ l2 ≠ [] ∧ Chain g w pg l1 v x ∧ g.isAssembly v = false ∧ InVol g v x ∧
        (∀ m1 m2 m y, l = m1 ++ m2 → l1.length < m1.length → Chain g w pg m1 m y → Left g (some u) m y) ∧
        Descent g (some u) v x l3 u' q' ∧ Deepest g (some u) u' q' ∧ r = some u' ∧ Repr s' (w :: l1 ++ l3) ∧ u' ≠ u) := by
  have hlen := hc.height hn
  obtain ⟨s1, r1, e1, hs1, hnone, hsome⟩ := upLoop_spec hn hort fuel (some u) w pg fuel l u q s (by omega) hfuel hr hc
  have htop := hr.top
  rw [hc.last] at htop
  have eq1 : ∀ s1 r1, upLoop g fuel (some u) fuel u q s = some (s1, r1) → relocateForceDifferent g fuel q s = (match r1 with
      | none => some (s1, none)
      | some (v, x) => locateGlobalPointExcl g fuel v (some u) x s1.pop false) := by
    intro s1 r1 e1
    unfold relocateForceDifferent
    rw [htop, Option.bind_some]
    dsimp only
    rw [e1, Option.bind_some]
    all_goals (cases r1 <;> rfl)
  rw [eq1 s1 r1 e1]
  cases r1 with
  | none => exact ⟨s1, none, rfl, hs1, Or.inl ⟨rfl, hnone rfl⟩⟩
  | some vx =>
    obtain ⟨v, x⟩ := vx
    obtain ⟨hnl, l1, l2, el, hcv, hr1, hbelow⟩ := hsome v x rfl
    unfold Left at hnl
    push Not at hnl
    obtain ⟨n1, n2, n3⟩ := hnl
    have hcvh := hcv.height hn
    obtain ⟨hp1, hp2⟩ := pop_same hr1
    have hdl : (w :: l1).dropLast.length = l1.length := by simp
    obtain ⟨s2, e2, hr2, hs2⟩ := push_same hp1 v (by have := hs1.1; have := hp2.1; rw [hdl]; omega) (by rw [hdl]; omega)
    obtain ⟨s3, l3, u', q', e3, hs3, c1, c2, c3⟩ := locateExclLoop_spec hn (some u) fuel fuel v v x s2 (w :: l1).dropLast
      (by omega) (by omega) (fun _ => rfl) hr2 (by have := hs1.1; have := hp2.1; have := hs2.1; rw [hdl]; omega) (by rw [hdl]; omega)
    have hpath : (w :: l1).dropLast ++ v :: l3 = w :: l1 ++ l3 := by
      have := hcv.last
      have h3 : (w :: l1).dropLast ++ [v] = w :: l1 := by
        rw [List.getLast?_eq_some_iff] at this
        obtain ⟨ys, hys⟩ := this
        rw [hys]; simp
      rw [← h3]; simp
    rw [hpath] at c3
    refine ⟨s3, some u', ?_, ((hs1.trans hp2).trans hs2).trans hs3,
      Or.inr ⟨l1, l2, v, x, l3, u', q', el, ?_, hcv, by simpa using n2, n3, hbelow, c1, c2, rfl, c3, ?_⟩⟩
    · unfold locateGlobalPointExcl
      simp only [Bool.false_eq_true, if_false, Option.bind_some, if_true, e2, e3, Option.map_some]
    · rintro rfl
      rw [List.append_nil] at el
      subst el
      have := hc.last
      rw [hcv.last] at this
      exact n1 (by simpa using this)
    · rintro rfl
      cases c1 with
      | nil => exact n1 rfl
      | cons d1 d2 d3 d4 d5 =>
        -- the last volume of a descent is not the skipped one
        have key : ∀ {v u : V} {p q : V3} {l : List V}, Descent g (some u') v p l u q → some v ≠ some u' → u ≠ u' := by
          intro v u p q l hd
          induction hd with
          | nil => intro hv he; exact hv (by rw [he])
          | cons _ k2 _ _ _ ih => intro _; exact ih k2
        exact key d5 d2 rfl

/-- C41: if the volume left does not contain the point, wherever it is placed, the result is again that of locating the point from
the world. -/
theorem C41_force_same [DecidableEq V] {g : NavGeom V} {h : V → Nat} (hn : Nested g h) (hloc : ∀ v, g.hasLocator v = true)
    (hort : ∀ v, (g.trans v).Orthonormal) {fuel : Nat} {w u : V} (hfuel : h w < fuel) (hw : g.isAssembly w = false)
    {pg q : V3} {l : List V} (hc : Chain g w pg l u q) (hp : ProperAt g w pg)
    (hleft : ∀ l' x, Chain g w pg l' u x → ¬ InVol g u x) {s e : NavPath V} (hr : Repr s (w :: l))
    (hroom : h w < s.slots.length) (he : Repr e []) (hroome : h w < e.slots.length) (hdepth : h w < 255) :
    ∃ s' e' path r, relocateForceDifferent g fuel q s = some (s', r) ∧ locateGlobalPoint g fuel w pg e true = some (e', r) ∧
      Repr s' path ∧ Repr e' path := by
  obtain ⟨e', r, ee, -, hout, hin⟩ := C40_locate hn hloc hfuel pg he (by simpa using hroome) (by simpa using hdepth) true
  obtain ⟨s', r', es, -, hcase⟩ := C41_force_different hn hort hfuel hc hr hroom hdepth
  -- skipping the volume makes no difference below `w`
  have noskip : ∀ {v u2 : V} {p q2 : V3} {l2 : List V}, Descent g (some u) v p l2 u2 q2 → ∀ {l1}, Chain g w pg l1 v p →
      Descent g none v p l2 u2 q2 := by
    intro v u2 p q2 l2 hd
    induction hd with
    | nil => intro l1 _; exact .nil _ _
    | @cons v d u2 p q2 l2 pre post k1 k2 k3 k4 k5 ih =>
      intro l1 hc1
      have hdm : ∀ d' ∈ g.daughters v, Chain g w pg (l1 ++ [d']) d' ((g.trans d').transform p) :=
        fun d' hd' => hc1.append (.cons hd' (.nil _ _))
      refine .cons k1 (by simp) k3 ?_ (ih (hdm d (by rw [k1]; simp)))
      intro d' hd' _ hin'
      by_cases hdu : d' = u
      · subst hdu
        exact hleft _ _ (hdm d' (by rw [k1]; simp [hd'])) hin'
      · exact k4 d' hd' (by simpa using hdu) hin'
  rcases hcase with ⟨rfl, h1, h2⟩ | ⟨l1, l2, v, x, l3, u', q', el, -, hcv, -, hin', -, hd3, hdeep3, rfl, hrep3, -⟩
  · have hw' : ¬ InVol g w pg := by
      rcases h2 [] l w pg rfl (.nil _ _) with h1 | h1 | h1
      · cases h1
        exact hleft _ _ (.nil _ _)
      · rw [hw] at h1; cases h1
      · exact h1
    obtain ⟨rfl, he'⟩ := hout ⟨rfl, hw'⟩
    exact ⟨s', e', [], none, es, ee, h1, he'⟩
  · obtain ⟨hwin, hdesc1⟩ := hcv.descent hp hin'
    obtain ⟨l', u4, q4, rfl, hrep', hd', hdeep', -⟩ := hin (fun hh => hh.2 hwin)
    have hd3' := hdesc1.append (noskip hd3 hcv)
    have hdeep : Deepest g none u' q' := by
      intro d hd _ hin4
      by_cases hdu : d = u
      · subst hdu
        exact hleft _ _ ((hcv.append hd3.chain).append (.cons hd (.nil _ _))) hin4
      · exact hdeep3 d hd (by simpa using hdu) hin4
    obtain ⟨e4, e5, e6⟩ := hd3'.unique hdeep hd' (fun d a _ => hdeep' d a)
    refine ⟨s', e', w :: l', some u', es, by rw [ee, e5], ?_, hrep'⟩
    rw [← e4]
    exact hrep3

/-- In the example, the point x = 10 has left volume 4. -/
example : ∀ l' x, Chain (demo true) 0 ⟨10, 0, 0⟩ l' 4 x → ¬ InVol (demo true) 4 x := by
  have n4 : ¬ InVol (demo true) 4 (((demo true).trans 4).transform (((demo true).trans 2).transform ⟨10, 0, 0⟩)) := by
    rw [inVol_solid rfl]
    simp only [demo, trans_x]
    norm_num [abs_lt]
  intro l' x hc
  cases hc with
  | cons hd hc =>
    simp only [demo, List.mem_cons, List.not_mem_nil, or_false] at hd
    rcases hd with rfl | rfl
    · cases hc with
      | cons hd hc =>
        simp only [demo, List.mem_singleton] at hd
        subst hd
        cases hc with
        | cons hd => simp [demo] at hd
    · cases hc with
      | cons hd hc =>
        simp only [demo, List.mem_singleton] at hd
        subst hd
        cases hc with
        | nil => exact n4
        | cons hd => simp [demo] at hd

/-! ### Excluding a shared placement

Two placements `1`, `2` of the same logical volume, which holds one placement `3` filling it.  Leaving `3` in the first copy and
entering the second, the exclusion of `3` also hides it in the second copy. -/

open Classical in
/-- Two adjacent copies, `1` for 0 < x < 10 and `2` for 10 < x < 20, of a volume filled by `3`. -/
noncomputable def twin : NavGeom Nat where
  daughters v := match v with
    | 0 => [1, 2]
    | 1 => [3]
    | 2 => [3]
    | _ => []
  trans v := match v with
    | 1 => .ofTranslation 5 0 0
    | 2 => .ofTranslation 15 0 0
    | _ => .ofTranslation 0 0 0
  contains v p := match v with
    | 0 => decide (|p.x| < 100)
    | _ => decide (|p.x| < 5)
  isAssembly _ := false
  box _ _ := false
  hasLocator _ := true

def twinHeight (v : Nat) : Nat := match v with
  | 0 => 2
  | 1 => 1
  | 2 => 1
  | _ => 0

theorem twin_nested : Nested twin twinHeight := by
  intro v d hd
  match v, hd with
  | 0, hd =>
    simp only [twin, List.mem_cons, List.not_mem_nil, or_false] at hd
    rcases hd with rfl | rfl <;> decide
  | 1, hd => simp only [twin, List.mem_cons, List.not_mem_nil, or_false] at hd; subst hd; decide
  | 2, hd => simp only [twin, List.mem_cons, List.not_mem_nil, or_false] at hd; subst hd; decide
  | n + 3, hd => simp [twin] at hd

theorem twin_orthonormal (v : Nat) : (twin.trans v).Orthonormal := by
  match v with
  | 0 => exact (Trans3.C23_translation _ _ _ 0).1
  | 1 => exact (Trans3.C23_translation _ _ _ 0).1
  | 2 => exact (Trans3.C23_translation _ _ _ 0).1
  | n + 3 => exact (Trans3.C23_translation _ _ _ 0).1

/-- C41: relocation after leaving volume 3 of the first copy at x = 10 (moved to x = 11) ends in the second copy, `2`, although
the point lies in volume 3 of that copy and locating it from the world gives the path 0, 2, 3. -/
theorem C41_shared_placement_counterexample :
    ∃ (s s' e e' : NavPath Nat), Repr s [0, 1, 3] ∧ Repr e [] ∧
      relocateForceDifferent twin 3 ((twin.trans 3).transform ((twin.trans 1).transform ⟨11, 0, 0⟩)) s = some (s', some 2) ∧
      Repr s' [0, 2] ∧
      locateGlobalPoint twin 3 0 ⟨11, 0, 0⟩ e true = some (e', some 3) ∧ Repr e' [0, 2, 3] := by
  obtain ⟨s, hr, hlen, -⟩ := repr_of (V := Nat) 5 [0, 1, 3] (by simp) (by simp)
  obtain ⟨e, he, helen, -⟩ := repr_of (V := Nat) 5 [] (by simp) (by simp)
  have w0 : InVol twin 0 ⟨11, 0, 0⟩ := .solid rfl (by simp [twin]; norm_num [abs_lt])
  have w1 : ¬ InVol twin 1 ((twin.trans 1).transform ⟨11, 0, 0⟩) := by
    rw [inVol_solid rfl]; simp only [twin, trans_x]; norm_num [abs_lt]
  have w2 : InVol twin 2 ((twin.trans 2).transform ⟨11, 0, 0⟩) := by
    refine .solid rfl ?_
    simp only [twin, trans_x]; norm_num [abs_lt]
  have w3 : InVol twin 3 ((twin.trans 3).transform ((twin.trans 2).transform ⟨11, 0, 0⟩)) := by
    refine .solid rfl ?_
    simp only [twin, trans_x]; norm_num [abs_lt]
  have hc : Chain twin 0 ⟨11, 0, 0⟩ [1, 3] 3 ((twin.trans 3).transform ((twin.trans 1).transform ⟨11, 0, 0⟩)) :=
    .cons (by simp [twin]) (.cons (by simp [twin]) (.nil _ _))
  obtain ⟨s', r, es, -, hcase⟩ := C41_force_different twin_nested twin_orthonormal (fuel := 3) (by decide) hc hr
    (by rw [hlen]; decide) (by decide)
  obtain ⟨e', r', ee, -, -, h2⟩ := C40_locate twin_nested (fun _ => rfl) (fuel := 3) (w := 0) (by decide) ⟨11, 0, 0⟩ he
    (by rw [helen]; decide) (by decide) true
  obtain ⟨l, u, q, rfl, hrep, hdesc, hdeep, -⟩ := h2 (fun hh => hh.2 w0)
  have pre1 : ∀ skip, ∀ d' ∈ [1], some d' ≠ skip → ¬ InVol twin d' ((twin.trans d').transform ⟨11, 0, 0⟩) := by
    intro skip d' hd' _
    simp only [List.mem_singleton] at hd'
    subst hd'
    exact w1
  have d1 : Descent twin none 0 ⟨11, 0, 0⟩ [2, 3] 3 _ :=
    .cons (pre := [1]) (post := []) rfl (by simp) w2 (pre1 none) (.cons (pre := []) (post := []) rfl (by simp) w3 (by simp) (.nil _ _))
  obtain ⟨rfl, rfl, rfl⟩ := hdesc.unique (fun d a _ => hdeep d a) d1 (fun d a => by simp [twin] at a)
  have d2 : Descent twin (some 3) 0 ⟨11, 0, 0⟩ [2] 2 ((twin.trans 2).transform ⟨11, 0, 0⟩) :=
    .cons (pre := [1]) (post := []) rfl (by simp) w2 (pre1 _) (.nil _ _)
  have deep2 : Deepest twin (some 3) 2 ((twin.trans 2).transform ⟨11, 0, 0⟩) := by
    intro d hd hne
    simp only [twin, List.mem_singleton] at hd
    exact absurd (by rw [hd]) hne
  rcases hcase with ⟨-, -, h3⟩ | ⟨l1, l2, v, x, l3, u', q', el, hl2, hcv, -, hin, -, hd3, hdeep3, rfl, hrep3, -⟩
  · rcases h3 [] [1, 3] 0 ⟨11, 0, 0⟩ rfl (.nil _ _) with k | k | k
    · simp at k
    · simp [twin] at k
    · exact absurd w0 k
  · have : l1 = [] := by
      cases l1 with
      | nil => rfl
      | cons a l1 =>
        simp only [List.cons_append, List.cons.injEq] at el
        obtain ⟨rfl, el⟩ := el
        cases l1 with
        | nil =>
          cases hcv with
          | cons _ hcv => cases hcv; exact absurd hin w1
        | cons b l1 =>
          simp only [List.cons_append, List.cons.injEq] at el
          obtain ⟨rfl, el⟩ := el
          have := List.append_eq_nil_iff.mp el.symm
          exact absurd this.2 hl2
    subst this
    cases hcv
    obtain ⟨rfl, rfl, rfl⟩ := hd3.unique hdeep3 d2 deep2
    exact ⟨s, s', e, e', hr, he, es, by simpa using hrep3, ee, by simpa using hrep⟩

end Nav
end VecGeom
