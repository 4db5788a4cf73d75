import Verif.Nav.StepLemmas

/-!
# Properties of the navigation step and of the default safety (C42, C62)
-/

namespace VecGeom
namespace Nav
variable {V : Type}
open NavPath

/-! ## C42: the decision about the step -/

/-- C42: with a step limit ≥ 0 and unless the geometry reports an infinite distance, preparing the outgoing state gives a step between zero
and the limit.  The state is on a boundary exactly if the geometry does not lie beyond the limit.  A step limited by physics is the limit
and keeps the path; a step limited by geometry is the geometric step (zero if negative) and enters the daughter hit, if any. -/
theorem C42_prepare (g : NavGeom V) {s o : NavPath V} {l : List V} (hr : Repr s l) (hs : l.length < s.slots.length)
    (ho : l.length < o.slots.length) (hb : l.length < 255) {geom limit : ℝ} (hlim : 0 ≤ limit)
    (hinf : geom = kInfLength → limit = 0) (hit : Option V) :
    ∃ r, prepareOutState g s o geom limit hit = some r ∧ r.done = false ∧ 0 ≤ r.step ∧ r.step ≤ limit ∧
      r.state.slots.length = o.slots.length ∧
      (r.state.onBoundary = true ↔ geom ≤ limit) ∧
      (limit < geom → r.step = limit ∧ Repr r.state l) ∧
      (geom ≤ limit → r.step = max geom 0 ∧ Repr r.state (l ++ hit.toList)) := by
  obtain ⟨o1, e1, h1, h2, h3, h4, -⟩ := hr.copyTo hs ho
  unfold prepareOutState
  rw [e1, Option.bind_some, if_neg (fun hh => by have := hinf hh.1; linarith [hh.2])]
  by_cases hg : geom > limit
  · rw [if_pos hg]
    exact ⟨_, rfl, rfl, hlim, le_refl _, h2, by simp [setBoundaryState, hg], fun _ => ⟨rfl, h1.setBoundary false⟩,
      fun hh => absurd hh (not_le.mpr hg)⟩
  · rw [if_neg hg]
    have hmax : (if geom < 0 then 0 else geom) = max geom 0 := by
      split
      · rw [max_eq_right (by linarith)]
      · rw [max_eq_left (by linarith)]
    have hstep : max geom 0 ≤ limit := max_le (not_lt.mp hg) hlim
    cases hit with
    | none =>
      refine ⟨_, rfl, rfl, ?_, ?_, h2, ?_, fun hh => absurd hh hg, fun _ => ⟨hmax, ?_⟩⟩
      · dsimp only; rw [hmax]; exact le_max_right _ _
      · dsimp only; rw [hmax]; exact hstep
      · simp [setBoundaryState, not_lt.mp hg]
      · simpa using h1.setBoundary true
    | some c =>
      obtain ⟨o2, e2, k1, k2⟩ := push_same (h1.setBoundary true) c (by simpa [setBoundaryState, h2] using ho) hb
      dsimp only
      rw [e2]
      refine ⟨_, rfl, rfl, ?_, ?_, ?_, ?_, fun hh => absurd hh hg, fun _ => ⟨hmax, k1⟩⟩
      · dsimp only; rw [hmax]; exact le_max_right _ _
      · dsimp only; rw [hmax]; exact hstep
      · exact k2.1.trans h2
      · dsimp only
        rw [k2.2.1]
        simp [setBoundaryState, not_lt.mp hg]

/-- C42: when the geometry reports an infinite distance (the state was wrong), the state goes up to the next mother that is not an assembly,
the step is the tolerance and the state is on a boundary. -/
theorem C42_escape (g : NavGeom V) {s o : NavPath V} {l1 l2 : List V} {v x : V} (hr : Repr s (l1 ++ v :: l2 ++ [x]))
    (hv : g.isAssembly v = false) (ha : ∀ a ∈ l2, g.isAssembly a = true)
    (hs : l1.length + l2.length + 2 < s.slots.length) (ho : l1.length + l2.length + 2 < o.slots.length) {limit : ℝ} (hlim : 0 < limit)
    (hit : Option V) :
    ∃ r, prepareOutState g s o kInfLength limit hit = some r ∧ r.done = true ∧ r.step = kTolerance ∧
      r.state.onBoundary = true ∧ Repr r.state (l1 ++ [v]) := by
  have hlen : (l1 ++ v :: l2 ++ [x]).length = l1.length + l2.length + 2 := by simp; omega
  obtain ⟨o1, e1, h1, h2, h3, h4, -⟩ := hr.copyTo (o := o) (by omega) (by omega)
  unfold prepareOutState
  rw [e1, Option.bind_some, if_pos ⟨rfl, hlim⟩]
  obtain ⟨o2, e2, k1, k2⟩ := popLoop_spec hv (o1.cur + 1) l2 x (o1.setBoundaryState true) ha
    (by rw [h1.cur, hlen]; omega) (h1.setBoundary true)
  rw [e2]
  exact ⟨_, rfl, rfl, rfl, by rw [k2.2.1]; rfl, k1⟩

/-- Finding: if the state holds only the world, an infinite distance makes the code dereference a null pointer, in every geometry. -/
theorem C42_escape_world_counterexample (g : NavGeom V) {s : NavPath V} {w : V} (hr : Repr s [w]) (o : NavPath V) {limit : ℝ}
    (hlim : 0 < limit) (hit : Option V) : prepareOutState g s o kInfLength limit hit = none := by
  unfold prepareOutState
  by_cases hc : ∃ o1, s.copyTo o = some o1
  · obtain ⟨o1, e1⟩ := hc
    have hs : ([w] : List V).length < s.slots.length ∧ ([w] : List V).length < o.slots.length := by
      unfold NavPath.copyTo at e1
      split at e1
      · have := hr.cur
        simp at *
        omega
      · cases e1
    obtain ⟨o1', e1', h1, -⟩ := hr.copyTo hs.1 hs.2
    rw [e1] at e1'
    cases e1'
    rw [e1, Option.bind_some, if_pos ⟨rfl, hlim⟩, popLoop]
    have h2 := (pop_same (h1.setBoundary true)).1.top
    simp only [List.dropLast_singleton, List.getLast?_nil] at h2
    rw [h2]
    rfl
  · cases h : s.copyTo o with
    | none => rfl
    | some o1 => exact absurd ⟨o1, h⟩ hc

/-- Finding: the step of the escape is the tolerance even if the step limit is smaller. -/
theorem C42_escape_limit_counterexample :
    ∃ (s o : NavPath Nat) (r : Prepared Nat) (limit : ℝ), 0 < limit ∧ Repr s [0, 1] ∧
      prepareOutState (demo true) s o kInfLength limit none = some r ∧ limit < r.step := by
  obtain ⟨s, hr, hlen, -⟩ := repr_of (V := Nat) 5 [0, 1] (by simp) (by simp)
  have hpos := kTolerance_pos
  obtain ⟨r, e, -, h2, -⟩ := C42_escape (demo true) (l1 := []) (l2 := []) (v := 0) (x := 1) hr rfl (by simp)
    (o := s) (by rw [hlen]; decide) (by rw [hlen]; decide) (limit := kTolerance / 2) (by linarith) none
  exact ⟨s, s, r, _, by linarith, hr, e, by rw [h2]; linarith⟩

/-! ## C42: the nearest daughter -/

/-- C42: the search over the daughters ends with the smallest of the mother's distance and the distances to the daughters (except
the volume just left when it is not ahead), and with a daughter at this distance, or none if the mother's boundary is nearest. -/
theorem C42_nearest [DecidableEq V] {D : Distances V} (last : Option V) {T : V → ℝ} (ds : List V) {limit : ℝ}
    (hok : DistInOK D ds T (max (D.toOut limit) 0)) :
    ∃ step hit, checkDaughters D last ds (treatDistanceToMother D limit, none) = (step, hit) ∧ step ≤ max (D.toOut limit) 0 ∧
      (∀ d ∈ ds, ¬ Passed last T d → step ≤ T d) ∧
      ((step = max (D.toOut limit) 0 ∧ hit = none) ∨
        ∃ d ∈ ds, hit = some d ∧ step = T d ∧ T d < max (D.toOut limit) 0 ∧ ¬ Passed last T d) := by
  have : treatDistanceToMother D limit = max (D.toOut limit) 0 := by
    unfold treatDistanceToMother
    dsimp only
    split
    · rw [max_eq_right (by linarith)]
    · rw [max_eq_left (by linarith)]
  rw [this]
  exact checkDaughters_spec ds _ none hok

/-! ## C42: the whole step -/

/-- The global point just after a step. -/
noncomputable def after (pg dg : V3) (step : ℝ) : V3 := pg + V3.smul (step + 1 / 10 ^ 6) dg

/-- C42: the whole step.  The state holds a path `w :: l` of placements ending in `u`, with room for the depth of the geometry; `step` and `hit`
are the result of the search over the daughters, finite.  The step returned lies between zero and the limit.  The new state is on a boundary exactly if
the geometry does not lie beyond the limit.  A step limited by physics is the limit and keeps the path.  A step limited by geometry is
the geometric step, and if the geometry is proper at the point just after the boundary (and the point has left `u`, or is in the daughter hit)
the new path is the one found by locating that point from the world. -/
theorem C42_step [DecidableEq V] {g : NavGeom V} {h : V → Nat} (hn : Nested g h) (hloc : ∀ v, g.hasLocator v = true)
    (hort : ∀ v, (g.trans v).Orthonormal) (hflags : ∀ v, (g.trans v).FlagsOk) {fuel : Nat} {w u : V} (hfuel : h w < fuel)
    (hw : g.isAssembly w = false) (D : V → V3 → V3 → Distances V) (pg dg : V3) {limit : ℝ} (hlim : 0 ≤ limit)
    {s o e : NavPath V} {l : List V} (hr : Repr s (w :: l)) (hpath : IsPath g.toGeom (w :: l)) (hu : (w :: l).getLast? = some u)
    (hs : h w + 1 < s.slots.length) (ho : h w + 1 < o.slots.length) (he : Repr e []) (hroome : h w < e.slots.length)
    (hdepth : h w + 1 < 255) {m : Trans3} (hm : s.topMatrix g.toGeom .identity = some m) {last : Option V}
    (hlast : s.getLastExited = some last) {geom : ℝ} {hit : Option V}
    (hgeom : checkDaughters (D u (m.transform pg) (m.transformDirection dg)) last (g.daughters u)
      (treatDistanceToMother (D u (m.transform pg) (m.transformDirection dg)) limit, none) = (geom, hit))
    (hinf : geom = kInfLength → limit = 0)
    (hproper : geom ≤ limit → ProperAt g w (after pg dg (max geom 0)))
    (hleave : geom ≤ limit → hit = none → ∀ l' x, Chain g w (after pg dg (max geom 0)) l' u x → ¬ InVol g u x)
    (henter : geom ≤ limit → ∀ c, hit = some c → InVol g c ((g.trans c).transform (m.transform (after pg dg (max geom 0))))) :
    ∃ s' step, computeStepFromGlobal g fuel D pg dg limit s o = some (s', step) ∧ 0 ≤ step ∧ step ≤ limit ∧
      (s'.onBoundary = true ↔ geom ≤ limit) ∧
      (limit < geom → step = limit ∧ Repr s' (w :: l)) ∧
      (geom ≤ limit → step = max geom 0 ∧ ∃ e' path r, Repr s' path ∧ Repr e' path ∧
        locateGlobalPoint g fuel w (after pg dg step) e true = some (e', r)) := by
  obtain ⟨m', hm', hchain⟩ := topMatrix_chain hort hflags hr hpath hu
  rw [hm] at hm'
  cases hm'
  have hlen := (hchain pg).height hn
  have hll : (w :: l).length = l.length + 1 := rfl
  obtain ⟨r, er, hdone, c1, c2, csl, c3, c4, c5⟩ := C42_prepare g hr (o := o) (by omega) (by omega) (by omega) hlim hinf hit
  have htop := hr.top
  rw [hu] at htop
  have hcomp : computeStepFromGlobal g fuel D pg dg limit s o =
      (if r.done then some (r.state, r.step)
      else if !r.state.onBoundary then some (r.state, r.step)
      else
        (relocate g fuel (movePointAfterBoundary (m.transform pg) (m.transformDirection dg) r.step) s r.state).bind
          (leaveAssemblies g r.step)) := by
    unfold computeStepFromGlobal
    rw [htop, Option.bind_some, Option.bind_some, hm, Option.bind_some]
    dsimp only
    unfold computeStepAndPropagatedState
    rw [htop, Option.bind_some, Option.bind_some, hlast, Option.bind_some]
    dsimp only
    rw [hgeom]
    dsimp only
    rw [er, Option.bind_some]
  rw [hcomp, hdone]
  simp only [Bool.false_eq_true, if_false]
  by_cases hgl : geom ≤ limit
  · have hob := c3.mpr hgl
    obtain ⟨hstep, hrs⟩ := c5 hgl
    rw [hob]
    simp only [Bool.not_true, Bool.false_eq_true, if_false]
    have hmove : movePointAfterBoundary (m.transform pg) (m.transformDirection dg) r.step = m.transform (after pg dg r.step) := by
      rw [after, transform_add]; rfl
    rw [hmove]
    rw [← hstep] at hproper hleave henter
    set pt := after pg dg r.step with hpt
    obtain ⟨e', r', ee, -, hout, hin⟩ := C40_locate hn hloc hfuel pt he (by simpa using hroome) (by simp; omega) true
    -- the relocated state holds the located path, which is empty or ends in a volume that is not an assembly
    have key : ∃ s1 path, relocate g fuel (m.transform pt) s r.state = some s1 ∧ Repr s1 path ∧ Repr e' path ∧
        s1.onBoundary = true ∧ (path = [] ∨ ∃ l4 v4, path = l4 ++ [v4] ∧ g.isAssembly v4 = false) := by
      have pathform : ∀ path, Repr e' path → (path = [] ∨ ∃ l4 v4, path = l4 ++ [v4] ∧ g.isAssembly v4 = false) := by
        intro path hp
        have uniq : ∀ {p1 p2 : List V}, Repr e' p1 → Repr e' p2 → p1 = p2 := by
          intro p1 p2 h1 h2
          have := h1.take.symm.trans h2.take
          exact List.map_injective_iff.mpr (Option.some_injective V) this
        by_cases hwin : InVol g w pt
        · obtain ⟨l5, u5, q5, -, hrep5, hd5, -, hass5⟩ := hin (fun hh => hh.2 hwin)
          right
          have hl5 := hd5.chain.last
          have := uniq hp hrep5
          rw [List.nil_append] at this
          rw [List.getLast?_eq_some_iff] at hl5
          obtain ⟨ys, hys⟩ := hl5
          refine ⟨ys, u5, by rw [this, hys], ?_⟩
          by_cases hne : l5 = []
          · subst hne
            cases hd5
            exact hw
          · exact hass5 hne
        · left
          exact uniq hp (hout ⟨rfl, hwin⟩).2
      have htopr := hrs.top
      cases hit with
      | none =>
        simp only [Option.toList_none, List.append_nil] at hrs htopr
        rw [hu] at htopr
        obtain ⟨s1, e1', path, r1, es1, ee1, k1, k2⟩ := C41_force_same hn hloc hort hfuel hw (hchain pt) (hproper hgl)
          (hleave hgl rfl) hrs (by omega) he hroome (by omega)
        rw [ee] at ee1
        simp only [Option.some.injEq, Prod.mk.injEq] at ee1
        obtain ⟨rfl, rfl⟩ := ee1
        obtain ⟨s2, r2, es2, hsame2, -⟩ := C41_force_different hn hort hfuel (hchain pt) hrs (by omega) (by omega)
        rw [es1] at es2
        simp only [Option.some.injEq, Prod.mk.injEq] at es2
        obtain ⟨rfl, rfl⟩ := es2
        refine ⟨s1, path, ?_, k1, k2, ?_, pathform path k2⟩
        · unfold relocate
          rw [htop, Option.bind_some, htopr, Option.bind_some, if_pos rfl, es1]
          rfl
        · rw [hsame2.2.1, hob]
      | some c =>
        have hcd : c ∈ g.daughters u := by
          rcases checkDaughters_mem _ _ _ _ _ hgeom with h0 | ⟨d, hd, h0⟩
          · cases h0
          · cases h0; exact hd
        simp only [Option.toList_some] at hrs htopr
        rw [List.getLast?_append_of_ne_nil _ (by simp), List.getLast?_singleton] at htopr
        have hcu : c ≠ u := by
          rintro rfl
          have := hn _ _ hcd
          omega
        have hinc := henter hgl c rfl
        have hcc : Chain g w pt (l ++ [c]) c ((g.trans c).transform (m.transform pt)) :=
          (hchain pt).append (.cons hcd (.nil _ _))
        obtain ⟨hwin, hdesc⟩ := hcc.descent (hproper hgl) hinc
        obtain ⟨l5, u5, q5, hr5, hrep5, hd5, hdeep5, hass5⟩ := hin (fun hh => hh.2 hwin)
        obtain ⟨p1, p2⟩ := pop_same hrs
        rw [List.dropLast_concat] at p1
        have hch := hn _ _ hcd
        obtain ⟨s1, r1, es1, hs1, -, h2⟩ := C40_locate hn hloc (w := c) (fuel := fuel) (by omega)
          ((g.trans c).transform (m.transform pt)) p1 (by have := p2.1; omega) (by omega) false
        obtain ⟨l6, u6, q6, -, hrep6, hd6, hdeep6, -⟩ := h2 (by simp)
        obtain ⟨e1, e2, e3⟩ := (hdesc.append hd6).unique (fun d a _ => hdeep6 d a) hd5 (fun d a _ => hdeep5 d a)
        have hpath6 : w :: l ++ c :: l6 = [] ++ w :: l5 := by
          rw [← e1]; simp
        rw [hpath6] at hrep6
        refine ⟨s1, _, ?_, hrep6, hrep5, ?_, pathform _ hrep5⟩
        · unfold relocate
          rw [htop, Option.bind_some, htopr, Option.bind_some, if_neg (by simpa using hcu), Option.bind_some, es1]
          rfl
        · rw [hs1.2.1, p2.2.1, hob]
    obtain ⟨s1, path, es1, k1, k2, k3, k4⟩ := key
    rw [es1, Option.bind_some]
    have htop1 := k1.top
    refine ⟨s1, r.step, ?_, c1, c2, by simp [k3, hgl], fun hh => absurd hh (not_lt.mpr hgl), fun _ => ⟨hstep, e', path, r', k1, k2, ee⟩⟩
    unfold leaveAssemblies
    rcases k4 with rfl | ⟨l4, v4, rfl, hv4⟩
    · rw [htop1]; rfl
    · rw [htop1, List.getLast?_append_of_ne_nil _ (by simp), List.getLast?_singleton, Option.bind_some]
      dsimp only
      rw [popAssemblies_spec k1 hv4]
      rfl
  · have hob : r.state.onBoundary = false := by
      cases hb : r.state.onBoundary with
      | false => rfl
      | true => exact absurd (c3.mp hb) hgl
    rw [hob]
    simp only [Bool.not_false, if_true]
    exact ⟨r.state, r.step, rfl, c1, c2, by simp [hob, hgl], fun hh => c4 hh, fun hh => absurd hh hgl⟩

/-- A step in the example: from x = 6 in volume 1 along +x, 2 to daughter 3 and 9 to the boundary, limit 100.  The step ends in 3. -/
example : ∃ (s o s' : NavPath Nat), Repr s [0, 1] ∧
    computeStepFromGlobal (demo true) 3 (fun _ _ _ => ⟨fun _ => 9, fun d _ => if d = 3 then 2 else 1000⟩) ⟨6, 0, 0⟩ ⟨1, 0, 0⟩ 100 s o =
      some (s', 2) ∧ s'.onBoundary = true ∧ Repr s' [0, 1, 3] := by
  obtain ⟨e, he, helen, -⟩ := repr_of (V := Nat) 5 [] (by simp) (by simp)
  have hr : Repr (⟨[some 0, some 1, none, none, none, none], 6, 2, -1, false⟩ : NavPath Nat) [0, 1] := ⟨rfl, rfl, by decide⟩
  have hpath : IsPath (demo true).toGeom [0, 1] := ⟨by simp [demo], trivial⟩
  obtain ⟨m, hm, hchain⟩ := topMatrix_chain (u := 1) (demo_orthonormal true) (demo_flags true) hr hpath rfl
  have hmx : ∀ x, m.transform x = ((demo true).trans 1).transform x := by
    intro x
    have := hchain x
    generalize m.transform x = y at this
    cases this with
    | cons _ h => cases h; rfl
  have hx : ∀ t : ℝ, (after ⟨6, 0, 0⟩ ⟨1, 0, 0⟩ t).x = 6 + t + 1 / 10 ^ 6 := by
    intro t; simp [after, V3.smul]; ring
  have hin3 : InVol (demo true) 3 (((demo true).trans 3).transform (m.transform (after ⟨6, 0, 0⟩ ⟨1, 0, 0⟩ (max 2 0)))) := by
    rw [hmx]
    refine .solid rfl ?_
    simp only [demo, trans_x, hx, decide_eq_true_eq, abs_lt]
    norm_num
  have hp : ProperAt (demo true) 0 (after ⟨6, 0, 0⟩ ⟨1, 0, 0⟩ (max 2 0)) :=
    demo_proper _ (by rw [hx]; norm_num) (by rw [hx]; norm_num)
  obtain ⟨s', step, e1, -, -, h3, -, h5⟩ := C42_step (demo_nested true) (fun _ => rfl) (demo_orthonormal true) (demo_flags true) (fuel := 3)
    (w := 0) (u := 1) (by decide) rfl (fun _ _ _ => ⟨fun _ => 9, fun d _ => if d = 3 then 2 else 1000⟩) ⟨6, 0, 0⟩ ⟨1, 0, 0⟩
    (limit := 100) (by norm_num) hr (o := ⟨[none, none, none, none, none, none], 6, 0, -1, false⟩) hpath rfl (by decide) (by decide) he
    (by rw [helen]; decide) (by decide) hm (last := none) rfl (geom := 2) (hit := some 3)
    (by simp [treatDistanceToMother, checkDaughters, demo]; norm_num)
    (by
      intro hh
      have h1 : (2 : ℝ) ^ 1 ≤ 2 ^ 1023 := pow_le_pow_right₀ (by norm_num) (by norm_num)
      unfold kInfLength at hh
      exfalso
      generalize (2 : ℝ) ^ 1023 = y at h1 hh
      norm_num at h1 hh
      linarith) (fun _ => hp) (by simp)
    (by rintro - c hc; cases hc; exact hin3)
  have hle : (2 : ℝ) ≤ 100 := by norm_num
  obtain ⟨rfl, e', path, r, k1, k2, k3⟩ := h5 hle
  refine ⟨_, _, s', hr, by rw [e1]; norm_num, h3.mpr hle, ?_⟩
  obtain ⟨e2, r2, ee2, -, -, hin2⟩ := C40_locate (demo_nested true) (fun _ => rfl) (fuel := 3) (w := 0) (by decide)
    (after ⟨6, 0, 0⟩ ⟨1, 0, 0⟩ (max 2 0)) he (by rw [helen]; decide) (by decide) true
  rw [ee2] at k3
  cases k3
  have hc : Chain (demo true) 0 (after ⟨6, 0, 0⟩ ⟨1, 0, 0⟩ (max 2 0)) ([1] ++ [3]) 3 _ :=
    (hchain _).append (.cons (by simp [demo]) (.nil _ _))
  obtain ⟨hw, hd⟩ := hc.descent hp hin3
  obtain ⟨l, u, q, -, hrep, hdesc, hdeep, -⟩ := hin2 (fun hh => hh.2 hw)
  obtain ⟨rfl, -, -⟩ := hdesc.unique (fun d a _ => hdeep d a) hd (fun d a => by simp [demo] at a)
  have : path = [0, 1, 3] := List.map_injective_iff.mpr (Option.some_injective Nat) (k2.take.symm.trans hrep.take)
  rw [← this]
  exact k1

/-- The distances of the example satisfy the hypothesis of `C42_nearest`. -/
example : DistInOK (V := Nat) ⟨fun _ => 9, fun d _ => if d = 3 then 2 else 1000⟩ [3, 7] (fun d => if d = 3 then 2 else 1000) 9 ∧
    Passed (some 3) (fun d : Nat => if d = 3 then -1 else 1000) 3 := by
  refine ⟨?_, by simp [Passed]⟩
  intro d _ s _
  exact ⟨fun _ => rfl, fun hh => hh⟩

/-! ## C42: step and safety together -/

/-- C42: the variant that also returns the safety never returns more than the limit, and skipping the search because the safety
covers the limit does not change the result if the safety is a lower bound of all the distances.  (Only the step is compared; the hit daughter is then beyond
the limit.) -/
theorem C42_safety_step [DecidableEq V] (g : NavGeom V) {D : Distances V} {T : V → ℝ} {s : NavPath V} {l : List V} {u : V}
    (hr : Repr s (l ++ [u])) {last : Option V} (hlast : s.getLastExited = some last) {limit safety : ℝ}
    (hok : DistInOK D (g.daughters u) T (max (D.toOut limit) 0)) (hlow : safety ≤ max (D.toOut limit) 0)
    (hlow2 : ∀ d ∈ g.daughters u, safety ≤ T d) :
    ∃ step hit hit', computeStepAndSafety g D limit s (some safety) = some (step, hit) ∧
      computeStepAndSafety g D limit s none = some (step, hit') ∧ step ≤ limit ∧
      (∀ d ∈ g.daughters u, ¬ Passed last T d → step ≤ T d) := by
  have htop := hr.top
  rw [List.getLast?_append_of_ne_nil _ (by simp), List.getLast?_singleton] at htop
  obtain ⟨step, hit, e, h1, h2, h3⟩ := C42_nearest last (g.daughters u) hok
  unfold computeStepAndSafety
  rw [htop, Option.bind_some, Option.bind_some, hlast, Option.bind_some]
  dsimp only
  rw [e]
  by_cases hsf : safety ≥ limit
  · rw [if_pos hsf]
    have hmin : min step limit = limit := by
      apply min_eq_right
      rcases h3 with ⟨rfl, -⟩ | ⟨d, hd, -, rfl, -, -⟩
      · exact hsf.le.trans hlow
      · exact hsf.le.trans (hlow2 d hd)
    refine ⟨limit, none, hit, by simp, by simp [e, hmin], le_refl _, fun d hd _ => hsf.le.trans (hlow2 d hd)⟩
  · rw [if_neg hsf]
    exact ⟨min step limit, hit, hit, rfl, by simp [e], min_le_right _ _, fun d hd hp => (min_le_left _ _).trans (h2 d hd hp)⟩

/-- Finding: this variant returns a negative step when a daughter reports a negative distance. -/
theorem C42_safety_negative_counterexample :
    ∃ (s : NavPath Nat) (D : Distances Nat), Repr s [0] ∧
      computeStepAndSafety (demo true) D 10 s none = some (-1, some 1) := by
  have hr : Repr (⟨[some 0, none, none, none, none, none], 6, 1, -1, false⟩ : NavPath Nat) [0] := ⟨rfl, rfl, by decide⟩
  refine ⟨_, ⟨fun _ => 5, fun v _ => if v = 1 then -1 else 100⟩, hr, ?_⟩
  unfold computeStepAndSafety
  rw [hr.top, show getLastExited _ = some none from rfl]
  simp [treatDistanceToMother, checkDaughters, demo]
  norm_num

/-! ## C62: the default safety -/

/-- C62: the default safety estimate is the smallest of the mother's and the daughters' safeties. -/
theorem C62_simple (saf : V → ℝ) (ds : List V) (start : ℝ) :
    simpleSafety saf ds start ≤ start ∧ (∀ d ∈ ds, simpleSafety saf ds start ≤ saf d) ∧
      (simpleSafety saf ds start = start ∨ ∃ d ∈ ds, simpleSafety saf ds start = saf d) := by
  induction ds generalizing start with
  | nil => exact ⟨le_refl _, by simp, Or.inl rfl⟩
  | cons a ds ih =>
    obtain ⟨h1, h2, h3⟩ := ih (min start (saf a))
    have e : simpleSafety saf (a :: ds) start = simpleSafety saf ds (min start (saf a)) := rfl
    rw [e]
    refine ⟨h1.trans (min_le_left _ _), ?_, ?_⟩
    · intro d hd
      rcases List.mem_cons.mp hd with rfl | hd
      · exact h1.trans (min_le_right _ _)
      · exact h2 d hd
    · rcases h3 with h | ⟨d, hd, h⟩
      · rw [h]
        rcases min_choice start (saf a) with hc | hc
        · exact Or.inl hc
        · exact Or.inr ⟨a, by simp, hc⟩
      · exact Or.inr ⟨d, by simp [hd], h⟩

/-- C62: if the mother's safety is safe (every point closer than it is in the mother `u`) and the daughters' safeties are safe (no point
closer than it is in the daughter), then every point closer than the estimate lies in the mother and in none of the daughters. -/
theorem C62_safe (g : NavGeom V) (u : V) (p : V3) (safOut : ℝ) (saf : V → ℝ) (hout : ∀ x, V3.dist p x < safOut → InVol g u x)
    (hin : ∀ d ∈ g.daughters u, ∀ x, V3.dist p x < saf d → ¬ InVol g d ((g.trans d).transform x)) :
    ∀ x, V3.dist p x < simpleSafety saf (g.daughters u) safOut →
      InVol g u x ∧ ∀ d ∈ g.daughters u, ¬ InVol g d ((g.trans d).transform x) := by
  obtain ⟨h1, h2, -⟩ := C62_simple saf (g.daughters u) safOut
  exact fun x hx => ⟨hout x (hx.trans_le h1), fun d hd => hin d hd x (hx.trans_le (h2 d hd))⟩

/-- C62: without the mother (start value infinity) the estimate is the safety to the daughters. -/
theorem C62_daughters (saf : V → ℝ) (ds : List V) (hfin : ∃ d ∈ ds, saf d ≤ kInfLength) :
    ∃ d ∈ ds, simpleSafety saf ds kInfLength = saf d ∧ ∀ d' ∈ ds, saf d ≤ saf d' := by
  obtain ⟨h1, h2, h3⟩ := C62_simple saf ds kInfLength
  rcases h3 with h | ⟨d, hd, h⟩
  · obtain ⟨d, hd, hle⟩ := hfin
    have : saf d = kInfLength := le_antisymm hle (h ▸ h2 d hd)
    exact ⟨d, hd, by rw [h, this], fun d' hd' => by rw [this, ← h]; exact h2 d' hd'⟩
  · exact ⟨d, hd, h, fun d' hd' => h ▸ h2 d' hd'⟩

example : simpleSafety (fun d : Nat => if d = 3 then 2 else 7) [1, 3] 4 = 2 := by
  simp [simpleSafety]; norm_num

end Nav
end VecGeom
